import Verif.Prelude

/-!
# Model of `crates/host/state/src/storage.rs`

SQLite is modelled as two tables. Every SQL statement is atomic and durable; several statements are
*not* wrapped in a transaction (the code does not open one), so a crash may happen between any two.
-/

namespace Svm.Storage

/-- `State([u8; 32])` of `crates/host/types/src/state.rs:1-51`: 256 bits. -/
abbrev State := BitVec 256

/-- Simplification: Blake3 (`crates/host/hash/src/lib.rs:1-58`) is an arbitrary function. -/
structure Hasher where
  /-- `Blake3Hasher::hash`. -/
  hash : Bytes → State

/-- The 32 bytes of a `State`, most significant first. -/
def State.bytes (s : State) : Bytes :=
  (List.range 32).map fun i => UInt8.ofNat (s.toNat / 256 ^ (31 - i) % 256)

/-- `STATE_ZEROS`, storage.rs:29. -/
def stateZeros : State := 0#256

/-- `STATE_ONES`, storage.rs:30. -/
def stateOnes : State := BitVec.allOnes 256

/-- `INITIAL_LAYER_ID`, storage.rs:36. -/
def initialLayerId : Int := -2

/-- `INITIAL_LAYER_STATE`, storage.rs:37. -/
def initialLayerState : State := stateZeros

/-- `type Changes = HashMap<State, Vec<u8>>`, storage.rs:24. -/
abbrev Changes := AMap State Bytes

/-- Iteration order of a `Changes` map. -/
abbrev Ord := Order (State × Bytes)

/-- Row of table `layers`, resources/schema.sql:3-8. `id` is an `i64`; simplification: an
unbounded integer (2^63 commits are out of reach). -/
structure LayerRow where
  id : Int
  fingerprint : State
  complete : Bool
  deriving Repr, DecidableEq

/-- Row of table `values`, resources/schema.sql:10-17. Simplification: the surrogate primary key
`id` is dropped (no query mentions it). -/
structure ValueRow where
  keyHash : State
  value : Bytes
  layerId : Int
  deriving Repr, DecidableEq

/-- The SQLite database (resources/schema.sql). Rows are in insertion order. -/
structure Db where
  layers : List LayerRow
  values : List ValueRow
  deriving Repr, DecidableEq

/-- The database right after `SQL_SCHEMA` ran on an empty file. -/
def Db.empty : Db := ⟨[], []⟩

/-- The SQL statements that write. -/
inductive Stmt where
  /-- `INSERT INTO layers`, storage.rs:324-329. -/
  | insertLayer (id : Int) (fp : State) (complete : Bool)
  /-- `INSERT INTO values`, storage.rs:269-274. -/
  | insertValue (k : State) (v : Bytes) (layer : Int)
  /-- `UPDATE layers SET fingerprint, complete = 1 WHERE id AND complete = 0`, storage.rs:284-290. -/
  | completeLayer (id : Int) (fp : State)
  /-- `DELETE FROM layers WHERE id > ?`, storage.rs:361-366. -/
  | deleteLayersAbove (id : Int)
  /-- `DELETE FROM values WHERE layer_id IN (SELECT id FROM layers WHERE complete = 0)`,
  storage.rs:104-111. -/
  | deleteBadValues
  deriving Repr, DecidableEq

/-- Execution of one statement; `none` is a constraint violation (primary key of `layers`,
foreign key of `values`), which sqlx reports as an error. Foreign keys are enforced by default in
sqlx's SQLite driver, hence the cascade of schema.sql:16 on deletion. -/
def Stmt.exec (db : Db) : Stmt → Option Db
  | .insertLayer id fp c =>
    if db.layers.any (fun r => r.id = id) then none
    else some { db with layers := db.layers ++ [⟨id, fp, c⟩] }
  | .insertValue k v layer =>
    if db.layers.any (fun r => r.id = layer) then
      some { db with values := db.values ++ [⟨k, v, layer⟩] }
    else none
  | .completeLayer id fp =>
    some { db with layers := db.layers.map fun r =>
      if r.id = id ∧ r.complete = false then { r with fingerprint := fp, complete := true } else r }
  | .deleteLayersAbove id =>
    some { layers := db.layers.filter fun r => r.id ≤ id
           values := db.values.filter fun v =>
             !(db.layers.any fun r => decide (r.id > id) && decide (r.id = v.layerId)) }
  | .deleteBadValues =>
    some { db with values := db.values.filter fun v =>
             !(db.layers.any fun r => decide (r.complete = false) && decide (r.id = v.layerId)) }

/-- Executes statements in order and stops at the first constraint violation. Returns the database
reached and whether all statements succeeded. -/
def execAll (db : Db) : List Stmt → Db × Bool
  | [] => (db, true)
  | st :: rest =>
    match st.exec db with
    | none => (db, false)
    | some db' => execAll db' rest

/-- `ORDER BY layer_id DESC LIMIT 1`: a row with the greatest layer id. SQLite may return any of
several rows with the same layer id; simplification: the first one (`Lemmas.lean` proves that rows
with the same key and layer do not exist in reachable databases). -/
def selectMax : List ValueRow → Option ValueRow
  | [] => none
  | r :: rest =>
    match selectMax rest with
    | none => some r
    | some r' => if r.layerId < r'.layerId then some r' else some r

/-- The read query of `get_by_hash`, storage.rs:178-187. The join condition is exactly
`complete = 1 AND key_hash = ?1`: it does not relate `values.layer_id` to `layers.id`, hence every
value row with that key is returned (once per complete layer) as soon as there is any complete
layer. -/
def queryCurrent (db : Db) (k : State) : Option Bytes :=
  (selectMax (db.values.filter fun v =>
    decide (v.keyHash = k) && db.layers.any fun r => r.complete)).map (·.value)

/-- The read query of `get_by_hash_historical`, storage.rs:198-211. -/
def queryHistorical (db : Db) (k : State) (layer : Int) : Option Bytes :=
  (selectMax (db.values.filter fun v =>
    decide (v.layerId ≤ layer) && (decide (v.keyHash = k) && db.layers.any fun r => r.complete))).map
      (·.value)

/-- `layer_fingerprint`, storage.rs:338-352: `fetch_one` fails when there is no row. -/
def queryFingerprint (db : Db) (layer : Int) (complete : Bool) : Option State :=
  (db.layers.find? fun r => r.id = layer ∧ r.complete = complete).map (·.fingerprint)

/-- `max_layer_id`, storage.rs:389-402. -/
def maxLayerId (db : Db) : Option Int :=
  db.layers.foldl (fun acc r => some (match acc with | none => r.id | some m => max m r.id)) none

/-- `StorageError`, crates/host/state/src/error.rs (the variants this file produces). -/
inductive StorageError where
  | dirtyChanges
  | sqlite
  deriving Repr, DecidableEq

/-- `NextLayer`, storage.rs:39-44. -/
structure NextLayer where
  id : Int
  changes : Changes
  xorFingerprint : State
  deriving Repr, DecidableEq

/-- `Storage`, storage.rs:52-57. -/
structure Storage where
  db : Db
  dirty : Changes
  next : NextLayer
  deriving Repr, DecidableEq

/-- `Storage::new_with_pool`, storage.rs:68-89, on an existing or empty database. Returns the
database left behind as well, because the statements run even if the function fails later. -/
def openDb (db : Db) : Db × Outcome StorageError Storage :=
  let nextId := (maxLayerId db).getD (initialLayerId + 1)
  match execAll db [.insertLayer initialLayerId initialLayerState true, .deleteBadValues] with
  | (db', true) =>
    (db', .ok { db := db', dirty := [], next := ⟨nextId, [], initialLayerState⟩ })
  | (db', false) => (db', .err .sqlite)

/-- The storage opened on an empty database. -/
def fresh : Storage :=
  { db := ⟨[⟨initialLayerId, initialLayerState, true⟩], []⟩, dirty := [],
    next := ⟨initialLayerId + 1, [], initialLayerState⟩ }

/-- `last_layer`, storage.rs:129-136. -/
def lastLayer (s : Storage) : Outcome StorageError (Int × State) :=
  let layerId := s.next.id - 1
  match queryFingerprint s.db layerId true with
  | some fp => .ok (layerId, fp)
  | none => .err .sqlite

/-- `has_uncommitted_changes`, storage.rs:142-144. -/
def hasUncommittedChanges (s : Storage) : Bool := !s.dirty.isEmpty

/-- `get_by_hash`, storage.rs:164-195, with the panic of `assert_layer_id_is_complete`
(storage.rs:138-140). -/
def getByHash (s : Storage) (k : State) (layer : Option Int) :
    Outcome StorageError (Option Bytes) :=
  match layer with
  | some l => if l < s.next.id then .ok (queryHistorical s.db k l) else .panic
  | none =>
    match s.dirty.get k with
    | some v => .ok (some v)
    | none =>
      match s.next.changes.get k with
      | some v => .ok (some v)
      | none => .ok (queryCurrent s.db k)

/-- `get`, storage.rs:152-155. -/
def get (h : Hasher) (s : Storage) (key : Bytes) (layer : Option Int) :
    Outcome StorageError (Option Bytes) :=
  getByHash s (h.hash key) layer

/-- `upsert_by_hash`, storage.rs:232-237. -/
def upsertByHash (s : Storage) (k : State) (v : Bytes) : Storage :=
  { s with dirty := s.dirty.insert k v }

/-- `upsert`, storage.rs:222-228. -/
def upsert (h : Hasher) (s : Storage) (key : Bytes) (v : Bytes) : Storage :=
  upsertByHash s (h.hash key) v

/-- `hash_key_value_pair`, storage.rs:404-409. -/
def hashKeyValuePair (h : Hasher) (k : State) (v : Bytes) : State :=
  h.hash (State.bytes k ++ v)

/-- `checkpoint`, storage.rs:239-251. `ord` is the iteration order of the `HashMap`. The
`fingerprint` accumulated at line 245 is a local copy (`State: Copy`) that is dropped at the end;
it is computed here as well and dropped as well. -/
def checkpoint (h : Hasher) (ord : Ord) (s : Storage) : Storage :=
  let r := (ord.run s.dirty).foldl
    (fun (acc : State × Changes) (c : State × Bytes) =>
      (acc.1 ^^^ hashKeyValuePair h c.1 c.2, acc.2.insert c.1 c.2))
    (s.next.xorFingerprint, s.next.changes)
  { s with dirty := [], next := { s.next with changes := r.2 } }

/-- The SQL statements issued by `commit`, storage.rs:262-294: the layer row, the values (in the
order `ord`), the completion of the layer. -/
def commitStmts (ord : Ord) (layer : Int) (fp : State) (changes : Changes) : List Stmt :=
  .insertLayer layer fp false ::
    ((ord.run changes).map (fun c => Stmt.insertValue c.1 c.2 layer) ++ [.completeLayer layer fp])

/-- `commit`, storage.rs:253-301. The pending changes are moved out (`std::mem::take`, line 259)
before any query can fail. -/
def commit (ord : Ord) (s : Storage) : Storage × Outcome StorageError (Int × State) :=
  if !s.dirty.isEmpty then (s, .err .dirtyChanges)
  else
    let layer := s.next.id
    let changes := s.next.changes
    let s1 := { s with next := { s.next with changes := [] } }
    match queryFingerprint s.db (layer - 1) true with
    | none => (s1, .err .sqlite)
    | some prev =>
      let fp := prev ^^^ s.next.xorFingerprint
      match execAll s.db (commitStmts ord layer fp changes) with
      | (db', true) =>
        ({ s1 with db := db', next := ⟨layer + 1, [], stateOnes⟩ }, .ok (layer, fp))
      | (db', false) => ({ s1 with db := db' }, .err .sqlite)

/-- The database left behind when the process dies during `commit` after `n` statements
(storage.rs:262-294; no transaction is opened). -/
def commitCrash (ord : Ord) (s : Storage) (n : Nat) : Db :=
  match queryFingerprint s.db (s.next.id - 1) true with
  | none => s.db
  | some prev =>
    (execAll s.db
      ((commitStmts ord s.next.id (prev ^^^ s.next.xorFingerprint) s.next.changes).take n)).1

/-- `genesis_fingerprint`, storage.rs:303-320. -/
def genesisFingerprint (s : Storage) : Option State :=
  queryFingerprint s.db (initialLayerId + 1) true

/-- `rewind`, storage.rs:354-377. -/
def rewind (s : Storage) (layer : Int) : Storage × Outcome StorageError Unit :=
  if layer < s.next.id then
    if !s.dirty.isEmpty then (s, .err .dirtyChanges)
    else
      match (Stmt.deleteLayersAbove layer).exec s.db with
      | none => (s, .err .sqlite)
      | some db' => ({ s with db := db', next := ⟨layer + 1, [], stateOnes⟩ }, .ok ())
  else (s, .panic)

/-- `rollback`, storage.rs:379-382. -/
def rollback (s : Storage) : Storage := { s with dirty := [] }

/-! ## Histories -/

/-- The operations a client can perform, with the iteration order the process happens to use. -/
inductive Op where
  | upsert (k : State) (v : Bytes)
  | checkpoint (ord : Ord)
  | commit (ord : Ord)
  | rollback
  | rewind (layer : Int)
  | get (k : State) (layer : Option Int)
  | lastLayer
  | hasUncommitted

/-- What the client sees of one operation. -/
inductive Obs where
  | unit
  | value (v : Option Bytes)
  | layer (id : Int)
  | flag (b : Bool)
  | dirtyError
  | sqliteError
  | panic
  deriving Repr, DecidableEq

/-- Observation of an outcome. -/
def obsOf {α : Type} (f : α → Obs) : Outcome StorageError α → Obs
  | .ok a => f a
  | .err .dirtyChanges => .dirtyError
  | .err .sqlite => .sqliteError
  | .panic => .panic

/-- One operation on the modelled storage. -/
def step (h : Hasher) (s : Storage) : Op → Storage × Obs
  | .upsert k v => (upsertByHash s k v, .unit)
  | .checkpoint ord => (checkpoint h ord s, .unit)
  | .commit ord => let r := commit ord s; (r.1, obsOf (fun x => .layer x.1) r.2)
  | .rollback => (rollback s, .unit)
  | .rewind l => let r := rewind s l; (r.1, obsOf (fun _ => .unit) r.2)
  | .get k l => (s, obsOf .value (getByHash s k l))
  | .lastLayer => (s, obsOf (fun x => .layer x.1) (lastLayer s))
  | .hasUncommitted => (s, .flag (hasUncommittedChanges s))

/-- A whole history: final state and all observations. -/
def run (h : Hasher) (s : Storage) : List Op → Storage × List Obs
  | [] => (s, [])
  | op :: ops =>
    let r := step h s op
    let r' := run h r.1 ops
    (r'.1, r.2 :: r'.2)

end Svm.Storage
