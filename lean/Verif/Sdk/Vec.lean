import Verif.Prelude
import Mathlib.Data.List.Basic

/-!
# The SDK's vector of fixed capacity (C61), crates/wasm/sdk-std/src/vec.rs

The memory behind the pointer is a function from the index of a cell to what was last written to it,
`none` for cells never written. Reading such a cell is `.err ()`: the code does not check it. Allocation
(vec.rs:164-168) is not modelled: it is taken to return memory for `cap` items that nobody else uses
(C64 is about the allocator).
-/

namespace Svm.Sdk

/-- `.panic` is a failed `ensure!` (sdk-std/src/ensure.rs:10-28), `.err ()` a read of a cell that was
never written. -/
abbrev Res (α : Type) := Outcome Unit α

/-- `struct Vec<T>`, vec.rs:26-30, with the memory `ptr` points to. -/
structure SVec (T : Type) where
  len : Nat
  cap : Nat
  mem : Nat → Option T

namespace SVec

variable {T : Type}

/-- `with_capacity`, vec.rs:34-38. -/
def withCapacity (cap : Nat) : SVec T := ⟨0, cap, fun _ => none⟩

/-- `from_raw_parts`, vec.rs:41-47, on memory that holds `items`. -/
def fromRawParts (items : List T) : SVec T := ⟨items.length, items.length, fun i => items[i]?⟩

/-- `core::ptr::read` of the cell at an index. -/
def read (v : SVec T) (i : Nat) : Res T :=
  match v.mem i with
  | some x => .ok x
  | none => .err ()

/-- `push`, vec.rs:50-59. -/
def push (v : SVec T) (x : T) : Res (SVec T) :=
  if v.len < v.cap then
    .ok { v with mem := fun i => if i = v.len then some x else v.mem i, len := v.len + 1 }
  else .panic

/-- `take`, vec.rs:134-139. -/
def take (v : SVec T) (offset : Nat) : Res T := if v.len > offset then v.read offset else .panic

/-- `pop`, vec.rs:66-74. -/
def pop (v : SVec T) : Res (T × SVec T) :=
  if v.len = 0 then .panic
  else do
    let last := v.len - 1
    let x ← v.take last
    .ok (x, { v with len := last })

/-- Reads the cells from `i` on, as many as asked for. -/
def readN (v : SVec T) : Nat → Nat → Res (List T)
  | 0, _ => .ok []
  | n + 1, i => do
    let x ← v.read i
    let l ← v.readN n (i + 1)
    .ok (x :: l)

/-- `as_slice`, vec.rs:77-79, `leak`, 92-99, and `Deref`, 187-193: what the slice shows. -/
def asSlice (v : SVec T) : Res (List T) := v.readN v.len 0

/-- `clear`, vec.rs:87-89. -/
def clear (v : SVec T) : SVec T := { v with len := 0 }

/-- `get`, vec.rs:141-145. -/
def get (v : SVec T) (offset : Nat) : Res T := if v.len > offset then v.read offset else .panic

/-- `vec[i]` through `Deref`, vec.rs:187-193: the index is checked against the length of the slice. -/
def index (v : SVec T) (i : Nat) : Res T := if i < v.len then v.read i else .panic

/-- `vec[i] = x` through `DerefMut`, vec.rs:195-199. -/
def setIndex (v : SVec T) (i : Nat) (x : T) : Res (SVec T) :=
  if i < v.len then .ok { v with mem := fun j => if j = i then some x else v.mem j } else .panic

/-- `VecIter::next`, vec.rs:208-221: the item and the next position. -/
def iterNext (v : SVec T) (pos : Nat) : Res (Option T × Nat) :=
  if pos ≥ v.len then .ok (none, pos)
  else do
    let x ← v.get pos
    .ok (some x, pos + 1)

/-- `VecIntoIter::next`, vec.rs:229-242. -/
def intoIterNext (v : SVec T) (pos : Nat) : Res (Option T × Nat) :=
  if pos ≥ v.len then .ok (none, pos)
  else do
    let x ← v.take pos
    .ok (some x, pos + 1)

/-- `n` calls of an iterator's `next`. -/
def calls (next : Nat → Res (Option T × Nat)) : Nat → Nat → Res (List (Option T))
  | 0, _ => .ok []
  | n + 1, pos => do
    let (x, pos) ← next pos
    let l ← calls next n pos
    .ok (x :: l)

end SVec

/-! ## Programs on vectors and their meaning on lists -/

/-- The operations on a vector. -/
inductive VecOp (T : Type) where
  | push (x : T)
  | pop
  | clear
  | slice
  | index (i : Nat)
  | setIndex (i : Nat) (x : T)
  | iter (n : Nat)
  | length
  | capacity
  | isEmpty

/-- What an operation returns. -/
inductive VecOut (T : Type) where
  | unit
  | item (x : T)
  | items (l : List T)
  | nexts (l : List (Option T))
  | nat (n : Nat)
  | bool (b : Bool)
  deriving DecidableEq

variable {T : Type}

/-- An operation on the vector; `len`, `capacity` and `is_empty` are vec.rs:102-117, `iter` 120-127. -/
def SVec.step (v : SVec T) : VecOp T → Res (VecOut T × SVec T)
  | .push x => do .ok (.unit, ← v.push x)
  | .pop => do
    let (x, v) ← v.pop
    .ok (.item x, v)
  | .clear => .ok (.unit, v.clear)
  | .slice => do .ok (.items (← v.asSlice), v)
  | .index i => do .ok (.item (← v.index i), v)
  | .setIndex i x => do .ok (.unit, ← v.setIndex i x)
  | .iter n => do .ok (.nexts (← SVec.calls v.iterNext n 0), v)
  | .length => .ok (.nat v.len, v)
  | .capacity => .ok (.nat v.cap, v)
  | .isEmpty => .ok (.bool (v.len == 0), v)

/-- A program on a vector: what its operations return, and the vector at the end. -/
def SVec.run : SVec T → List (VecOp T) → Res (List (VecOut T) × SVec T)
  | v, [] => .ok ([], v)
  | v, op :: ops => do
    let (o, v) ← v.step op
    let (os, v) ← v.run ops
    .ok (o :: os, v)

/-- Spec: an operation on a list of at most `cap` elements; `none` when it is refused. -/
def listStep (cap : Nat) (l : List T) : VecOp T → Option (VecOut T × List T)
  | .push x => if l.length < cap then some (.unit, l ++ [x]) else none
  | .pop => l.getLast?.map fun x => (.item x, l.dropLast)
  | .clear => some (.unit, [])
  | .slice => some (.items l, l)
  | .index i => l[i]?.map fun x => (.item x, l)
  | .setIndex i x => if i < l.length then some (.unit, l.set i x) else none
  | .iter n => some (.nexts ((List.range n).map fun k => l[k]?), l)
  | .length => some (.nat l.length, l)
  | .capacity => some (.nat cap, l)
  | .isEmpty => some (.bool l.isEmpty, l)

/-- Spec: a program on a list. -/
def listRun (cap : Nat) : List T → List (VecOp T) → Option (List (VecOut T) × List T)
  | l, [] => some ([], l)
  | l, op :: ops => do
    let (o, l) ← listStep cap l op
    let (os, l) ← listRun cap l ops
    some (o :: os, l)

/-! ## C61 -/

/-- The vector holds the list. -/
structure Holds (v : SVec T) (c : Nat) (l : List T) : Prop where
  len : v.len = l.length
  cap : v.cap = c
  le : l.length ≤ c
  cells : ∀ i (h : i < l.length), v.mem i = some l[i]

theorem holds_withCapacity (cap : Nat) : Holds (SVec.withCapacity (T := T) cap) cap [] :=
  ⟨rfl, rfl, Nat.zero_le _, fun i h => absurd h (by simp)⟩

theorem holds_fromRawParts (l : List T) : Holds (SVec.fromRawParts l) l.length l :=
  ⟨rfl, rfl, Nat.le_refl _, fun _ h => List.getElem?_eq_getElem h⟩

theorem Holds.read {v : SVec T} {cap : Nat} {l : List T} (h : Holds v cap l) {i : Nat}
    (hi : i < l.length) : v.read i = .ok l[i] := by
  unfold SVec.read
  rw [h.cells i hi]

theorem Holds.readN {v : SVec T} {cap : Nat} {l : List T} (h : Holds v cap l) :
    ∀ n i, i + n = l.length → v.readN n i = .ok (l.drop i)
  | 0, i, hi => by
    rw [List.drop_eq_nil_of_le (by omega)]
    rfl
  | n + 1, i, hi => by
    change (v.read i).bind _ = _
    rw [h.read (by omega)]
    change (v.readN n (i + 1)).bind _ = _
    rw [h.readN n (i + 1) (by omega), List.drop_eq_getElem_cons (i := i) (by omega)]
    rfl

theorem Holds.calls {v : SVec T} {cap : Nat} {l : List T} (h : Holds v cap l)
    {next : Nat → Res (Option T × Nat)}
    (hn : ∀ i (hi : i < l.length), next i = .ok (some l[i], i + 1))
    (he : ∀ i, l.length ≤ i → next i = .ok (none, i)) :
    ∀ n i, i ≤ l.length → SVec.calls next n i = .ok ((List.range n).map fun k => l[i + k]?)
  | 0, i, _ => rfl
  | n + 1, i, hi => by
    change (next i).bind _ = _
    rw [List.range_succ_eq_map, List.map_cons, List.map_map]
    rcases Nat.lt_or_ge i l.length with h1 | h1
    · rw [hn i h1]
      change (SVec.calls next n (i + 1)).bind _ = _
      rw [h.calls hn he n (i + 1) h1]
      change Outcome.ok (_ :: _) = _
      rw [Nat.add_zero i, List.getElem?_eq_getElem h1]
      congr 2
      refine List.map_congr_left fun k _ => ?_
      simp only [Function.comp_apply]
      congr 1
      omega
    · rw [he i h1]
      change (SVec.calls next n i).bind _ = _
      rw [h.calls hn he n i hi]
      change Outcome.ok (_ :: _) = _
      rw [Nat.add_zero i, List.getElem?_eq_none h1]
      congr 2
      refine List.map_congr_left fun k _ => ?_
      simp only [Function.comp_apply]
      rw [List.getElem?_eq_none (by omega), List.getElem?_eq_none (by omega)]

theorem Holds.iterNext {v : SVec T} {cap : Nat} {l : List T} (h : Holds v cap l) :
    (∀ i (hi : i < l.length), v.iterNext i = .ok (some l[i], i + 1)) ∧
      (∀ i, l.length ≤ i → v.iterNext i = .ok (none, i)) ∧
      (∀ i (hi : i < l.length), v.intoIterNext i = .ok (some l[i], i + 1)) ∧
      (∀ i, l.length ≤ i → v.intoIterNext i = .ok (none, i)) := by
  have hl := h.len
  refine ⟨fun i hi => ?_, fun i hi => ?_, fun i hi => ?_, fun i hi => ?_⟩
  · unfold SVec.iterNext SVec.get
    rw [if_neg (by omega), if_pos (by omega), h.read hi]
    rfl
  · unfold SVec.iterNext
    rw [if_pos (by omega)]
  · unfold SVec.intoIterNext SVec.take
    rw [if_neg (by omega), if_pos (by omega), h.read hi]
    rfl
  · unfold SVec.intoIterNext
    rw [if_pos (by omega)]

/-- An operation does to the vector what the spec does to the list. -/
theorem Holds.step {v : SVec T} {cap : Nat} {l : List T} (h : Holds v cap l) (op : VecOp T) :
    (listStep cap l op = none ∧ v.step op = .panic) ∨
      ∃ o l' v', listStep cap l op = some (o, l') ∧ v.step op = .ok (o, v') ∧ Holds v' cap l' := by
  have hl := h.len
  cases op with
  | push x =>
    change ((if l.length < cap then _ else _) = _ ∧ (v.push x).bind _ = _) ∨ ∃ o l' v',
      (if l.length < cap then _ else _) = _ ∧ (v.push x).bind _ = _ ∧ _
    unfold SVec.push
    rw [h.len, h.cap]
    by_cases hc : l.length < cap
    · rw [if_pos hc, if_pos hc]
      refine Or.inr ⟨_, _, _, rfl, rfl, by simp, rfl, by simp; omega, fun i hi => ?_⟩
      simp only [List.length_append, List.length_singleton] at hi
      dsimp only
      by_cases hi' : i = l.length
      · subst hi'
        rw [if_pos rfl, List.getElem_concat_length]
        rfl
      · rw [if_neg hi', h.cells i (by omega), List.getElem_append_left]
    · rw [if_neg hc, if_neg hc]
      exact Or.inl ⟨rfl, rfl⟩
  | pop =>
    change (_ ∧ (v.pop).bind _ = _) ∨ ∃ o l' v', _ ∧ (v.pop).bind _ = _ ∧ _
    unfold SVec.pop SVec.take
    rcases List.eq_nil_or_concat l with rfl | ⟨t, x, rfl⟩
    · rw [if_pos (by simpa using hl)]
      exact Or.inl ⟨rfl, rfl⟩
    · rw [List.concat_eq_append] at *
      have hl' : v.len = t.length + 1 := by simpa using hl
      rw [if_neg (by omega)]
      change (_ ∧ ((if v.len > v.len - 1 then v.read (v.len - 1) else .panic).bind _).bind _ = _) ∨
        ∃ o l' v', _ ∧ ((if v.len > v.len - 1 then v.read (v.len - 1) else .panic).bind _).bind _ = _ ∧ _
      have hr : v.read (v.len - 1) = .ok x := by
        rw [hl', Nat.add_sub_cancel, h.read (by simp)]
        simp
      rw [if_pos (by omega), hr]
      refine Or.inr ⟨.item x, t, _, by simp [listStep], rfl, ?_, h.cap, ?_, fun i hi => ?_⟩
      · change v.len - 1 = _
        omega
      · have := h.le
        simp at this
        omega
      · have := h.cells i (by simp; omega)
        rw [List.getElem_append_left hi] at this
        exact this
  | clear =>
    exact Or.inr ⟨_, _, _, rfl, rfl, rfl, h.cap, Nat.zero_le _, fun i hi => absurd hi (by simp)⟩
  | slice =>
    refine Or.inr ⟨.items l, l, v, rfl, ?_, h⟩
    change (v.readN v.len 0).bind _ = _
    rw [h.readN v.len 0 (by omega), List.drop_zero]
    rfl
  | index i =>
    change (l[i]?.map _ = _ ∧ (v.index i).bind _ = _) ∨ ∃ o l' v', l[i]?.map _ = _ ∧ (v.index i).bind _ = _ ∧ _
    unfold SVec.index
    by_cases hi : i < l.length
    · rw [if_pos (by omega), h.read hi, List.getElem?_eq_getElem hi]
      exact Or.inr ⟨_, _, _, rfl, rfl, h⟩
    · rw [if_neg (by omega), List.getElem?_eq_none (by omega)]
      exact Or.inl ⟨rfl, rfl⟩
  | setIndex i x =>
    change ((if i < l.length then _ else _) = _ ∧ (v.setIndex i x).bind _ = _) ∨ ∃ o l' v',
      (if i < l.length then _ else _) = _ ∧ (v.setIndex i x).bind _ = _ ∧ _
    unfold SVec.setIndex
    rw [h.len]
    by_cases hi : i < l.length
    · rw [if_pos hi, if_pos hi]
      refine Or.inr ⟨_, _, _, rfl, rfl, by simp, h.cap, by simpa using h.le, fun j hj => ?_⟩
      dsimp only
      by_cases hj' : j = i
      · subst hj'
        rw [if_pos rfl, List.getElem_set_self]
      · rw [if_neg hj', List.getElem_set_ne (fun h => hj' h.symm), h.cells j (by simpa using hj)]
    · rw [if_neg hi, if_neg hi]
      exact Or.inl ⟨rfl, rfl⟩
  | iter n =>
    refine Or.inr ⟨_, l, v, rfl, ?_, h⟩
    change (SVec.calls v.iterNext n 0).bind _ = _
    rw [h.calls h.iterNext.1 h.iterNext.2.1 n 0 (Nat.zero_le _)]
    simp only [Nat.zero_add]
    rfl
  | length => exact Or.inr ⟨_, _, _, rfl, by rw [← h.len]; rfl, h⟩
  | capacity => exact Or.inr ⟨_, _, _, rfl, by rw [← h.cap]; rfl, h⟩
  | isEmpty =>
    refine Or.inr ⟨_, _, _, rfl, ?_, h⟩
    change Outcome.ok (VecOut.bool (v.len == 0), v) = _
    rw [h.len]
    cases l <;> rfl

theorem Holds.run {v : SVec T} {cap : Nat} {l : List T} (h : Holds v cap l) (ops : List (VecOp T)) :
    (listRun cap l ops = none ∧ v.run ops = .panic) ∨
      ∃ os l' v', listRun cap l ops = some (os, l') ∧ v.run ops = .ok (os, v') ∧ Holds v' cap l' := by
  induction ops generalizing v l with
  | nil => exact Or.inr ⟨_, _, _, rfl, rfl, h⟩
  | cons op ops ih =>
    change ((listStep cap l op).bind _ = _ ∧ (v.step op).bind _ = _) ∨ ∃ os l' v',
      (listStep cap l op).bind _ = _ ∧ (v.step op).bind _ = _ ∧ _
    rcases h.step op with ⟨h1, h2⟩ | ⟨o, l', v', h1, h2, h3⟩
    · rw [h1, h2]
      exact Or.inl ⟨rfl, rfl⟩
    · rw [h1, h2]
      change ((listRun cap l' ops).bind _ = _ ∧ (v'.run ops).bind _ = _) ∨ ∃ os l'' v'',
        (listRun cap l' ops).bind _ = _ ∧ (v'.run ops).bind _ = _ ∧ _
      rcases ih h3 with ⟨h4, h5⟩ | ⟨os, l'', v'', h4, h5, h6⟩
      · rw [h4, h5]
        exact Or.inl ⟨rfl, rfl⟩
      · rw [h4, h5]
        exact Or.inr ⟨_, _, _, rfl, rfl, h6⟩

/-- **C61.** Every program on a new vector returns what it would on a list of limited length, and panics
exactly when that list refuses an operation. In particular no cell is read before it was written. -/
theorem C61_list (cap : Nat) (ops : List (VecOp T)) :
    (listRun cap [] ops = none → (SVec.withCapacity cap).run ops = .panic) ∧
      ∀ os l, listRun cap [] ops = some (os, l) →
        ∃ v, (SVec.withCapacity cap).run ops = .ok (os, v) ∧ v.len = l.length ∧ v.cap = cap ∧
          l.length ≤ cap ∧ v.asSlice = .ok l := by
  rcases (holds_withCapacity (T := T) cap).run ops with ⟨h1, h2⟩ | ⟨os, l, v, h1, h2, h3⟩
  · exact ⟨fun _ => h2, fun _ _ h => (by rw [h1] at h; cases h)⟩
  · refine ⟨fun h => (by rw [h1] at h; cases h), fun os' l' h => ?_⟩
    rw [h1] at h
    cases h
    refine ⟨v, h2, h3.len, h3.cap, h3.le, ?_⟩
    change v.readN v.len 0 = _
    rw [h3.readN v.len 0 (by have := h3.len; omega), List.drop_zero]

/-- **C61.** The same for a vector made from the parts of a buffer that holds `items`: it is full. -/
theorem C61_raw_parts (items : List T) (ops : List (VecOp T)) :
    (listRun items.length items ops = none → (SVec.fromRawParts items).run ops = .panic) ∧
      ∀ os l, listRun items.length items ops = some (os, l) →
        ∃ v, (SVec.fromRawParts items).run ops = .ok (os, v) ∧ v.asSlice = .ok l := by
  rcases (holds_fromRawParts items).run ops with ⟨h1, h2⟩ | ⟨os, l, v, h1, h2, h3⟩
  · exact ⟨fun _ => h2, fun _ _ h => (by rw [h1] at h; cases h)⟩
  · refine ⟨fun h => (by rw [h1] at h; cases h), fun os' l' h => ?_⟩
    rw [h1] at h
    cases h
    refine ⟨v, h2, ?_⟩
    change v.readN v.len 0 = _
    rw [h3.readN v.len 0 (by have := h3.len; omega), List.drop_zero]

/-- **C61.** Iterating a vector away after any program yields its elements in order and then the end for
ever. -/
theorem C61_into_iter (cap : Nat) (ops : List (VecOp T)) {os : List (VecOut T)} {l : List T} {v : SVec T}
    (hs : listRun cap [] ops = some (os, l)) (hv : (SVec.withCapacity cap).run ops = .ok (os, v)) (n : Nat) :
    SVec.calls v.intoIterNext n 0 = .ok ((List.range n).map fun k => l[k]?) := by
  rcases (holds_withCapacity (T := T) cap).run ops with ⟨h1, -⟩ | ⟨os', l', v', h1, h2, h3⟩
  · rw [h1] at hs; cases hs
  · rw [h1] at hs
    cases hs
    rw [h2] at hv
    cases hv
    rw [h3.calls h3.iterNext.2.2.1 h3.iterNext.2.2.2 n 0 (Nat.zero_le _)]
    simp only [Nat.zero_add]

/-- A program: two pushes, a pop, another push, a look at the items. -/
def exVec : List (VecOp Nat) := [.push 1, .push 2, .pop, .push 3, .slice, .iter 3]

example : listRun 2 [] exVec = some ([.unit, .unit, .item 2, .unit, .items [1, 3],
    .nexts [some 1, some 3, none]], [1, 3]) := rfl

example : listRun 2 [] (exVec ++ [.push 4]) = none := rfl

end Svm.Sdk
