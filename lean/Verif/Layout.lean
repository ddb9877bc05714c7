import Verif.Prelude

/-!
# Model of `crates/host/layout` and property C13
-/

namespace Svm.Layout

/-- Addition on a fixed width machine integer. `chk` says whether the build has overflow checks
(`cargo` debug builds do, release builds do not; no profile of the workspace changes this for the
host crates). `none` is a panic. -/
def addW {w : Nat} (chk : Bool) (a b : BitVec w) : Option (BitVec w) :=
  if chk && 2 ^ w ≤ a.toNat + b.toNat then none else some (a + b)

/-- `Id`, var.rs:4. -/
abbrev Id := BitVec 32

/-- `RawVar`, var.rs:6-11. -/
structure RawVar where
  id : Id
  offset : BitVec 32
  byteSize : BitVec 32
  deriving DecidableEq, Repr

/-- `FixedLayout`, fixed.rs:4-8. `Layout` (lib.rs:24-31) has this as its only variant and is
identified with it. -/
structure FixedLayout where
  first : Option Id
  vars : List RawVar
  deriving DecidableEq, Repr

/-- `FixedLayout::default`, fixed.rs:10-17. -/
def FixedLayout.default : FixedLayout := { first := none, vars := [] }

/-- `FixedLayout::new`, fixed.rs:20-28. -/
def FixedLayout.new (vars : List RawVar) : FixedLayout :=
  match vars with
  | [] => FixedLayout.default
  | v :: vs => { first := some v.id, vars := v :: vs }

/-- The loop of `from_byte_sizes`, fixed.rs:33-41; `i` is the loop counter. -/
def fromSizesLoop (chk : Bool) (first : Id) (i : Nat) (offset : BitVec 32) :
    List (BitVec 32) → Option (List RawVar)
  | [] => some []
  | size :: sizes => do
    let id ← addW chk first (BitVec.ofNat 32 i)
    let offset' ← addW chk offset size
    let vars ← fromSizesLoop chk first (i + 1) offset' sizes
    return { id, offset, byteSize := size } :: vars

/-- `FixedLayout::from_byte_sizes`, fixed.rs:30-47. `none` is a panic (overflow). -/
def FixedLayout.fromByteSizes (chk : Bool) (first : Id) (sizes : List (BitVec 32)) :
    Option FixedLayout := do
  let vars ← fromSizesLoop chk first 0 0 sizes
  return { first := some first, vars }

/-- `FixedLayout::var_index`, fixed.rs:103-111. `none` is a panic. -/
def FixedLayout.varIndex (l : FixedLayout) (id : Id) : Option Nat := do
  let first ← l.first
  if first ≤ id then
    let index := (id - first).toNat
    if index < l.vars.length then some index else none
  else none

/-- `FixedLayout::get`, fixed.rs:63-67. `none` is a panic. -/
def FixedLayout.get (l : FixedLayout) (id : Id) : Option RawVar := do
  let index ← l.varIndex id
  l.vars[index]?

/-- The number of bytes described by a layout (not in the code; the total of the sizes). -/
def total (sizes : List (BitVec 32)) : Nat := (sizes.map BitVec.toNat).sum

/-! ## Lemmas -/

theorem addW_ok {w : Nat} (chk : Bool) (a b : BitVec w) (h : a.toNat + b.toNat < 2 ^ w) :
    addW chk a b = some (a + b) ∧ (a + b).toNat = a.toNat + b.toNat := by
  unfold addW
  constructor
  · rw [if_neg (by simp; intro _; omega)]
  · rw [BitVec.toNat_add, Nat.mod_eq_of_lt h]

@[simp] theorem total_nil : total [] = 0 := rfl

@[simp] theorem total_cons (s : BitVec 32) (ss : List (BitVec 32)) :
    total (s :: ss) = s.toNat + total ss := by simp [total]

theorem total_append (a b : List (BitVec 32)) : total (a ++ b) = total a + total b := by
  simp [total]

theorem fromSizesLoop_ok (chk : Bool) (first : Id) (sizes : List (BitVec 32)) (i : Nat)
    (offset : BitVec 32) (hid : first.toNat + i + sizes.length ≤ 2 ^ 32)
    (hoff : offset.toNat + total sizes < 2 ^ 32) :
    ∃ vars, fromSizesLoop chk first i offset sizes = some vars ∧ vars.length = sizes.length ∧
      ∀ j v, vars[j]? = some v → v.id.toNat = first.toNat + i + j ∧
        v.offset.toNat = offset.toNat + total (sizes.take j) ∧ sizes[j]? = some v.byteSize := by
  induction sizes generalizing i offset with
  | nil => exact ⟨[], rfl, rfl, by simp⟩
  | cons s ss ih =>
    simp only [List.length_cons, total_cons] at hid hoff
    have hi : (BitVec.ofNat 32 i).toNat = i := by
      rw [BitVec.toNat_ofNat]; exact Nat.mod_eq_of_lt (by omega)
    obtain ⟨h1, h1'⟩ := addW_ok chk first (BitVec.ofNat 32 i) (by omega)
    obtain ⟨h2, h2'⟩ := addW_ok chk offset s (by omega)
    obtain ⟨vars, hv, hlen, hall⟩ := ih (i + 1) (offset + s) (by omega) (by omega)
    refine ⟨{ id := first + BitVec.ofNat 32 i, offset, byteSize := s } :: vars, ?_, ?_, ?_⟩
    · simp [fromSizesLoop, h1, h2, hv]
    · simp [hlen]
    · intro j v hj
      cases j with
      | zero =>
        simp only [List.getElem?_cons_zero, Option.some.injEq] at hj
        subst hj
        refine ⟨by rw [h1', hi]; omega, by simp, rfl⟩
      | succ j =>
        simp only [List.getElem?_cons_succ] at hj
        obtain ⟨a, b, c⟩ := hall j v hj
        simp only [List.take_succ_cons, total_cons, List.getElem?_cons_succ]
        refine ⟨by omega, by omega, c⟩

theorem fromByteSizes_ok (chk : Bool) (first : Id) (sizes : List (BitVec 32))
    (hid : first.toNat + sizes.length ≤ 2 ^ 32) (hoff : total sizes < 2 ^ 32) :
    ∃ l, FixedLayout.fromByteSizes chk first sizes = some l ∧ l.first = some first ∧
      l.vars.length = sizes.length ∧
      ∀ j v, l.vars[j]? = some v → v.id.toNat = first.toNat + j ∧
        v.offset.toNat = total (sizes.take j) ∧ sizes[j]? = some v.byteSize := by
  obtain ⟨vars, hv, hlen, hall⟩ := fromSizesLoop_ok chk first sizes 0 0 (by omega)
    (by simpa using hoff)
  refine ⟨{ first := some first, vars }, ?_, rfl, hlen, ?_⟩
  · unfold FixedLayout.fromByteSizes; rw [hv]; rfl
  · intro j v hj
    obtain ⟨a, b, c⟩ := hall j v hj
    exact ⟨by omega, by simpa using b, c⟩

/-- Every position below the total belongs to the range of exactly one size. -/
theorem position_unique (sizes : List (BitVec 32)) (p : Nat) (hp : p < total sizes) :
    ∃ i s, sizes[i]? = some s ∧ total (sizes.take i) ≤ p ∧ p < total (sizes.take i) + s.toNat := by
  induction sizes generalizing p with
  | nil => simp at hp
  | cons s ss ih =>
    simp only [total_cons] at hp
    by_cases h : p < s.toNat
    · exact ⟨0, s, rfl, by simp, by simpa using h⟩
    · obtain ⟨i, t, h1, h2, h3⟩ := ih (p - s.toNat) (by omega)
      exact ⟨i + 1, t, h1, by simp only [List.take_succ_cons, total_cons]; omega,
        by simp only [List.take_succ_cons, total_cons]; omega⟩

theorem total_take_mono (sizes : List (BitVec 32)) (i j : Nat) (s : BitVec 32) (hij : i < j)
    (hi : sizes[i]? = some s) : total (sizes.take i) + s.toNat ≤ total (sizes.take j) := by
  induction sizes generalizing i j with
  | nil => simp at hi
  | cons a as ih =>
    cases j with
    | zero => omega
    | succ j =>
      cases i with
      | zero =>
        simp only [List.getElem?_cons_zero, Option.some.injEq] at hi
        subst hi
        simp only [List.take_zero, total_nil, List.take_succ_cons, total_cons]
        omega
      | succ i =>
        simp only [List.getElem?_cons_succ] at hi
        have := ih i j (by omega) hi
        simp only [List.take_succ_cons, total_cons]
        omega

theorem get_of_index (l : FixedLayout) (first : Id) (hf : l.first = some first) (i : Nat)
    (hi : i < l.vars.length) (hb : first.toNat + i < 2 ^ 32) :
    l.get (BitVec.ofNat 32 (first.toNat + i)) = l.vars[i]? := by
  have h1 : (BitVec.ofNat 32 (first.toNat + i)).toNat = first.toNat + i := by
    rw [BitVec.toNat_ofNat]; exact Nat.mod_eq_of_lt hb
  have h2 : first ≤ BitVec.ofNat 32 (first.toNat + i) := by
    rw [BitVec.le_def, h1]; omega
  have h3 : (BitVec.ofNat 32 (first.toNat + i) - first).toNat = i := by
    rw [BitVec.toNat_sub_of_le h2, h1]; omega
  unfold FixedLayout.get FixedLayout.varIndex
  simp only [hf, Option.bind_eq_bind, Option.bind_some, h3]
  rw [if_pos h2, if_pos hi]
  rfl

/-- What `get` returns is a variable of the layout. -/
theorem get_some {l : FixedLayout} {id : Id} {v : RawVar} (h : l.get id = some v) :
    ∃ first i, l.first = some first ∧ first.toNat ≤ id.toNat ∧ i = id.toNat - first.toNat ∧
      l.vars[i]? = some v := by
  unfold FixedLayout.get FixedLayout.varIndex at h
  cases hf : l.first with
  | none => simp [hf] at h
  | some first =>
    simp only [hf, Option.bind_eq_bind, Option.bind_some] at h
    split at h
    · rename_i hle
      split at h
      · simp only [Option.bind_some] at h
        refine ⟨first, (id - first).toNat, rfl, hle, ?_, h⟩
        rw [BitVec.toNat_sub_of_le hle]
      · simp at h
    · simp at h

/-! ## C13 -/

/-- C13: for every first id and list of sizes whose ids and total fit in `u32` (in builds with and
without overflow checks): building the layout succeeds; variable `first + i` is found, starts at
the sum of the preceding sizes and has exactly the `i`-th size; ids outside `first .. first + n` are
refused; and every byte below the total lies in the range of exactly one variable. -/
theorem C13_layout_ranges (chk : Bool) (first : Id) (sizes : List (BitVec 32))
    (hid : first.toNat + sizes.length ≤ 2 ^ 32) (htot : (sizes.map BitVec.toNat).sum < 2 ^ 32) :
    ∃ l, FixedLayout.fromByteSizes chk first sizes = some l ∧
      (∀ i s, sizes[i]? = some s → ∃ v, l.get (BitVec.ofNat 32 (first.toNat + i)) = some v ∧
        v.id.toNat = first.toNat + i ∧
        v.offset.toNat = ((sizes.take i).map BitVec.toNat).sum ∧ v.byteSize = s) ∧
      (∀ id : Id, id.toNat < first.toNat ∨ first.toNat + sizes.length ≤ id.toNat →
        l.get id = none) ∧
      (∀ p, p < (sizes.map BitVec.toNat).sum → ∃ id v, l.get id = some v ∧
        v.offset.toNat ≤ p ∧ p < v.offset.toNat + v.byteSize.toNat ∧
        ∀ id' v', l.get id' = some v' →
          v'.offset.toNat ≤ p → p < v'.offset.toNat + v'.byteSize.toNat → id' = id ∧ v' = v) := by
  obtain ⟨l, hl, hf, hlen, hall⟩ := fromByteSizes_ok chk first sizes hid htot
  have hget : ∀ i s, sizes[i]? = some s → ∃ v,
      l.get (BitVec.ofNat 32 (first.toNat + i)) = some v ∧ l.vars[i]? = some v ∧
      v.id.toNat = first.toNat + i ∧
      v.offset.toNat = total (sizes.take i) ∧ v.byteSize = s := by
    intro i s hs
    have hi : i < sizes.length := (List.getElem?_eq_some_iff.1 hs).1
    have hv : l.vars[i]? = some (l.vars[i]'(by omega)) := List.getElem?_eq_getElem _
    obtain ⟨a, b, c⟩ := hall i _ hv
    rw [hs, Option.some.injEq] at c
    exact ⟨_, (get_of_index l first hf i (by omega) (by omega)).trans hv, hv, a, b, c.symm⟩
  refine ⟨l, hl, ?_, ?_, ?_⟩
  · intro i s hs
    obtain ⟨v, h1, _, h2, h3, h4⟩ := hget i s hs
    exact ⟨v, h1, h2, h3, h4⟩
  · intro id hout
    cases h : l.get id with
    | none => rfl
    | some v =>
      obtain ⟨f, i, h1, h2, h3, h4⟩ := get_some h
      rw [hf, Option.some.injEq] at h1
      subst h1
      have := (List.getElem?_eq_some_iff.1 h4).1
      omega
  · intro p hp
    obtain ⟨i, s, h1, h2, h3⟩ := position_unique sizes p hp
    obtain ⟨v, hv, hvi, e1, e2, e3⟩ := hget i s h1
    refine ⟨_, v, hv, by omega, by rw [e3]; omega, ?_⟩
    intro id' v' hv' hle hlt
    obtain ⟨f, j, g1, g2, g3, g4⟩ := get_some hv'
    rw [hf, Option.some.injEq] at g1
    subst g1
    obtain ⟨_, b, c⟩ := hall j v' g4
    have hij : i = j := by
      rcases Nat.lt_trichotomy i j with hlt' | heq | hgt
      · have := total_take_mono sizes i j s hlt' h1; omega
      · exact heq
      · have := total_take_mono sizes j i v'.byteSize hgt c; omega
    subst hij
    rw [hvi] at g4
    refine ⟨?_, (Option.some.inj g4).symm⟩
    apply BitVec.eq_of_toNat_eq
    rw [BitVec.toNat_ofNat, Nat.mod_eq_of_lt (by have := id'.isLt; omega)]
    omega

/-- Non-vacuity: three variables, one of them empty, first id 5. -/
example : (5 : Id).toNat + [(20 : BitVec 32), 0, 4].length ≤ 2 ^ 32 ∧
    ([(20 : BitVec 32), 0, 4].map BitVec.toNat).sum < 2 ^ 32 := by decide

end Svm.Layout
