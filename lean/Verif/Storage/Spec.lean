import Verif.Storage.Model

/-!
# Independent specification of a layered key-value store

No tables, no hash maps: a non-empty stack of snapshots (total functions), and two logs of writes,
newest first. It shares with the model only the vocabulary of operations and observations.
-/

namespace Svm.Storage

/-- A snapshot of the whole store. -/
abbrev Snapshot := State → Option Bytes

/-- Last write to `k` in a log (newest first). -/
def lastWrite (k : State) : List (State × Bytes) → Option Bytes
  | [] => none
  | (k', v) :: t => if k' = k then some v else lastWrite k t

/-- The abstract store. `snaps` lists the committed snapshots, newest first; the oldest one is
layer -2. -/
structure Spec where
  snaps : List Snapshot
  pending : List (State × Bytes)
  dirty : List (State × Bytes)

namespace Spec

/-- The empty store: only layer -2, with no data. -/
def init : Spec := ⟨[fun _ => none], [], []⟩

/-- Number of the layer that the next commit creates. -/
def nextLayer (a : Spec) : Int := (a.snaps.length : Int) - 2

/-- The newest snapshot. -/
def top (a : Spec) : Snapshot := a.snaps.headD (fun _ => none)

/-- The snapshot of layer `l`; layers before -2 are empty. -/
def snapAt (a : Spec) (l : Int) : Snapshot :=
  if l < -2 then fun _ => none
  else (a.snaps.reverse[(l + 2).toNat]?).getD (fun _ => none)

/-- What a read of `k` without a layer returns. -/
def current (a : Spec) (k : State) : Option Bytes :=
  (lastWrite k a.dirty).or ((lastWrite k a.pending).or (a.top k))

/-- One operation. -/
def step (a : Spec) : Op → Spec × Obs
  | .upsert k v => ({ a with dirty := (k, v) :: a.dirty }, .unit)
  | .checkpoint _ => ({ a with pending := a.dirty ++ a.pending, dirty := [] }, .unit)
  | .commit _ =>
    if a.dirty ≠ [] then (a, .dirtyError)
    else
      ({ snaps := (fun k => (lastWrite k a.pending).or (a.top k)) :: a.snaps,
         pending := [], dirty := [] }, .layer a.nextLayer)
  | .rollback => ({ a with dirty := [] }, .unit)
  | .rewind l =>
    if a.nextLayer ≤ l then (a, .panic)
    else if a.dirty ≠ [] then (a, .dirtyError)
    else
      ({ snaps := a.snaps.drop (a.nextLayer - 1 - l).toNat, pending := [], dirty := [] }, .unit)
  | .get k none => (a, .value (a.current k))
  | .get k (some l) =>
    if a.nextLayer ≤ l then (a, .panic) else (a, .value (a.snapAt l k))
  | .lastLayer => (a, .layer (a.nextLayer - 1))
  | .hasUncommitted => (a, .flag (decide (a.dirty ≠ [])))

/-- A whole history. -/
def run (a : Spec) : List Op → Spec × List Obs
  | [] => (a, [])
  | op :: ops =>
    let r := a.step op
    let r' := run r.1 ops
    (r'.1, r.2 :: r'.2)

end Spec

/-- Histories whose rewinds do not go below layer `m`. (`GlobalState::rewind` takes a `u64`, so
`m = 0` covers every history of the public API; layer -2 is the empty database.) -/
def Op.RewindsFrom (m : Int) : Op → Prop
  | .rewind l => m ≤ l
  | _ => True

/-- The operation does not discard layer `m`. -/
def RewindsFrom (m : Int) (ops : List Op) : Prop := ∀ op ∈ ops, op.RewindsFrom m

end Svm.Storage
