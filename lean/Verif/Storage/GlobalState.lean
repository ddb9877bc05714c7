import Verif.Storage.Lemmas

/-!
# Model of the lock around the storage (`crates/host/state/src/global_state.rs`)

`GlobalState` keeps the storage in an `Arc<Mutex<Storage>>`. A panic while the guard is held poisons
the mutex; `GlobalState::storage` (global_state.rs:164-168) panics on a poisoned mutex.
-/

namespace Svm.Storage

/-- `GlobalState`, global_state.rs:17-21. Simplification: `layer_query_parameter` is an argument of
`read`, and `genesis_state` (written once, never read) is dropped. -/
structure GlobalState where
  storage : Storage
  poisoned : Bool
  deriving Repr, DecidableEq

namespace GlobalState

/-- Body run while the guard is held, global_state.rs:164-168: a poisoned lock panics at once, a
panic inside poisons the lock. -/
def withStorage {α : Type} (gs : GlobalState)
    (f : Storage → Storage × Outcome StorageError α) : GlobalState × Outcome StorageError α :=
  if gs.poisoned then (gs, .panic)
  else
    let r := f gs.storage
    match r.2 with
    | .panic => (⟨r.1, true⟩, .panic)
    | o => (⟨r.1, false⟩, o)

/-- `i64::try_into::<u64>().unwrap()` on a layer id (outside of the lock). -/
def layerOfId (r : Outcome StorageError (Int × State)) : Outcome StorageError (Nat × State) :=
  match r with
  | .ok (id, st) => if 0 ≤ id then .ok (id.toNat, st) else .panic
  | .err e => .err e
  | .panic => .panic

/-- `checkpoint`, global_state.rs:110-113. -/
def checkpoint (h : Hasher) (ord : Ord) (gs : GlobalState) :
    GlobalState × Outcome StorageError Unit :=
  gs.withStorage fun s => (Storage.checkpoint h ord s, .ok ())

/-- `commit`, global_state.rs:119-122. -/
def commit (ord : Ord) (gs : GlobalState) : GlobalState × Outcome StorageError (Nat × State) :=
  let r := gs.withStorage fun s => Storage.commit ord s
  (r.1, layerOfId r.2)

/-- `current_layer`, global_state.rs:126-129. -/
def currentLayer (gs : GlobalState) : GlobalState × Outcome StorageError (Nat × State) :=
  let r := gs.withStorage fun s => (s, lastLayer s)
  (r.1, layerOfId r.2)

/-- `rollback`, global_state.rs:133-136. -/
def rollback (gs : GlobalState) : GlobalState × Outcome StorageError Unit :=
  gs.withStorage fun s => (Storage.rollback s, .ok ())

/-- `rewind`, global_state.rs:147-152. `layer` is a `u64`; the conversion to `i64` is evaluated
while the guard is held. -/
def rewind (layer : Nat) (gs : GlobalState) : GlobalState × Outcome StorageError Unit :=
  gs.withStorage fun s =>
    if layer < 2 ^ 63 then Storage.rewind s layer else (s, .panic)

/-- `has_uncommitted_changes`, global_state.rs:156-158. -/
def hasUncommitted (gs : GlobalState) : GlobalState × Outcome StorageError Bool :=
  gs.withStorage fun s => (s, .ok (hasUncommittedChanges s))

/-- The storage access of `read_and_decode`, global_state.rs:170-182. `layer as i64` wraps; a wrapped
layer is negative. -/
def read (h : Hasher) (key : Bytes) (layer : Option Nat) (gs : GlobalState) :
    GlobalState × Outcome StorageError (Option Bytes) :=
  gs.withStorage fun s =>
    (s, Storage.get h s key
      (layer.map fun (l : Nat) => if l < 2 ^ 63 then (l : Int) else (l : Int) - 2 ^ 64))

/-- The storage access of `encode_and_write`, global_state.rs:190-197. -/
def write (h : Hasher) (key value : Bytes) (gs : GlobalState) :
    GlobalState × Outcome StorageError Unit :=
  gs.withStorage fun s => (Storage.upsert h s key value, .ok ())

/-- The calls a client can make. -/
inductive Call where
  | checkpoint (ord : Ord)
  | commit (ord : Ord)
  | currentLayer
  | rollback
  | rewind (layer : Nat)
  | hasUncommitted
  | read (key : Bytes) (layer : Option Nat)
  | write (key value : Bytes)

/-- State after one call, and whether it panicked. -/
def call (h : Hasher) (gs : GlobalState) : Call → GlobalState × Bool
  | .checkpoint ord => let r := checkpoint h ord gs; (r.1, decide (r.2 = .panic))
  | .commit ord => let r := commit ord gs; (r.1, decide (r.2 = .panic))
  | .currentLayer => let r := currentLayer gs; (r.1, decide (r.2 = .panic))
  | .rollback => let r := rollback gs; (r.1, decide (r.2 = .panic))
  | .rewind l => let r := rewind l gs; (r.1, decide (r.2 = .panic))
  | .hasUncommitted => let r := hasUncommitted gs; (r.1, decide (r.2 = .panic))
  | .read k l => let r := read h k l gs; (r.1, decide (r.2 = .panic))
  | .write k v => let r := write h k v gs; (r.1, decide (r.2 = .panic))

/-- State after a history of calls, and which calls panicked. A panic does not end the history: the
FFI layer catches it (`catch_unwind_or_fail`, crates/host/runtime-ffi/src/c_api.rs:670-689). -/
def calls (h : Hasher) (gs : GlobalState) : List Call → GlobalState × List Bool
  | [] => (gs, [])
  | c :: cs =>
    let r := call h gs c
    let r' := calls h r.1 cs
    (r'.1, r.2 :: r'.2)

/-- The state after genesis initialisation with the given writes, global_state.rs:50-95. -/
def genesis (h : Hasher) (ord ord' : Ord) (writes : List (Bytes × Bytes)) : GlobalState :=
  ⟨(Storage.commit ord' (Storage.checkpoint h ord
      (writes.foldl (fun s w => Storage.upsert h s w.1 w.2) fresh))).1, false⟩

end GlobalState
end Svm.Storage
