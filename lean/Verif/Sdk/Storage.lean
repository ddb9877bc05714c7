import Verif.Layout
import Verif.Abi.Model
import Mathlib.Tactic.Ring
import Mathlib.Algebra.BigOperators.Group.List.Basic

/-!
# Storage structs of contracts (C63) and the layout of deployed templates (C76)

`crates/wasm/sdk-macros/src/struct/storage.rs`, `crates/wasm/sdk-storage/src/lib.rs` and
`crates/host/cli/src/subcmd_craft_deploy/meta.rs`. `chk` for overflow checks.
-/

namespace Svm.Sdk

open Svm.Abi (Width)
open Svm.Layout (addW FixedLayout RawVar)

/-! ## Model -/

/-- The types of `parse_primitive_type`, sdk-macros/src/type.rs:65-97. -/
inductive PrimTy where
  | bool
  | int (w : Width) (signed : Bool)
  | amount
  | address
  deriving DecidableEq, Repr

/-- `field_byte_count`, storage.rs:411-428. -/
def PrimTy.byteCount : PrimTy → Nat
  | .bool => 1
  | .int w _ => w.bytes
  | .amount => 8
  | .address => 20

/-- The types of fields as `Type::new` and `field_var` see them, type.rs:50-64 and storage.rs:71-106:
`refused` for those answered with an error (tuples, unknown names, arrays of arrays, lengths that are no
`u32` literals) and `exotic` for those that are neither arrays, paths nor tuples (`unreachable!`). -/
inductive FieldTy where
  | prim (t : PrimTy)
  | array (t : PrimTy) (length : BitVec 32)
  | refused
  | exotic
  deriving DecidableEq, Repr

/-- A field of a struct; its name plays no role here. -/
structure Field where
  attrs : Bool
  ty : FieldTy
  deriving DecidableEq, Repr

/-- `enum Var`, var.rs:8-24: `length` is `none` for `Var::Primitive`. -/
structure Var where
  id : BitVec 32
  offset : BitVec 64
  ty : PrimTy
  byteCount : Nat
  length : Option (BitVec 32)
  deriving DecidableEq, Repr

/-- Errors of the macro. -/
inductive MacroError where
  | unnamed
  | attrs
  | type
  deriving DecidableEq, Repr

/-- `field_var`, storage.rs:62-109. -/
def fieldVar (f : Field) (id : BitVec 32) (offset : BitVec 64) : Outcome MacroError Var :=
  if f.attrs then .err .attrs
  else match f.ty with
    | .prim t => .ok ⟨id, offset, t, t.byteCount, none⟩
    | .array t length => .ok ⟨id, offset, t, t.byteCount, some length⟩
    | .refused => .err .type
    | .exotic => .panic

/-- The offset and the id after a variable, storage.rs:45-54, and `next_var`, storage.rs:402-405. The
product of byte count and length fits in `usize`. -/
def advance (chk : Bool) (id : BitVec 32) (offset : BitVec 64) (v : Var) :
    Outcome MacroError (BitVec 64 × BitVec 32) :=
  match v.length with
  | none => do
    let offset ← .unwrapOpt (addW chk offset (BitVec.ofNat 64 v.byteCount))
    let id ← .unwrapOpt (addW chk id 1)
    return (offset, id)
  | some n => do
    let offset ← .unwrapOpt (addW chk offset (BitVec.ofNat 64 (v.byteCount * n.toNat)))
    let id ← .unwrapOpt (addW chk id n)
    return (offset, id)

/-- The loop of `storage_vars`, storage.rs:42-57. -/
def storageVarsLoop (chk : Bool) : BitVec 32 → BitVec 64 → List Field → Outcome MacroError (List Var)
  | _, _, [] => .ok []
  | id, offset, f :: fs => do
    let v ← fieldVar f id offset
    let next ← advance chk id offset v
    let vs ← storageVarsLoop chk next.2 next.1 fs
    return v :: vs

/-- `storage_vars`, storage.rs:33-60. -/
def storageVars (chk : Bool) (named : Bool) (fields : List Field) : Outcome MacroError (List Var) :=
  if named then storageVarsLoop chk 0 0 fields else .err .unnamed

/-- `cell_offset`, sdk-storage/src/lib.rs:173-182; `w` is the width of `usize`, 32 in Wasm. `none` is a
panic. -/
def cellOffset {w : Nat} (chk : Bool) (varId : BitVec 32) (index : BitVec w) (length : BitVec 32) :
    Option (BitVec 32) :=
  if length ≤ index.setWidth 32 then none else addW chk varId (index.setWidth 32)

/-- The variable id that the getters and setters of a field use, storage.rs:147-392: fields that are no
arrays have no index argument. -/
def Var.cellId {w : Nat} (chk : Bool) (v : Var) (index : BitVec w) : Option (BitVec 32) :=
  match v.length with
  | none => some v.id
  | some n => cellOffset chk v.id index n

/-- `schema` of the macro's meta data, sdk-macros/src/json.rs:102-158, read back by
`TemplateMeta::data_section`, meta.rs:30-42: the byte sizes. -/
def byteSizes (vars : List Var) : List (BitVec 32) :=
  vars.flatMap fun v =>
    List.replicate ((v.length.map BitVec.toNat).getD 1) (BitVec.ofNat 32 v.byteCount)

/-- `TemplateMeta::data_section`, meta.rs:30-42. `none` is a panic. -/
def dataSection (chk : Bool) (vars : List Var) : Option FixedLayout :=
  FixedLayout.fromByteSizes chk 0 (byteSizes vars)

/-! ## Spec: cells -/

/-- The number of cells of a field. -/
def Var.count (v : Var) : Nat :=
  match v.length with
  | none => 1
  | some n => n.toNat

/-- The first byte of the `i`-th cell. -/
def Var.start (v : Var) (i : Nat) : Nat := v.offset.toNat + i * v.byteCount

/-- The number of cells of a struct. -/
def cellTotal (vars : List Var) : Nat := (vars.map Var.count).sum

/-- The number of bytes of a struct. -/
def byteTotal (vars : List Var) : Nat := (vars.map fun v => v.count * v.byteCount).sum

/-- Cell `i` of the `k`-th field `v`. -/
def CellOf (vars : List Var) (k i : Nat) (v : Var) : Prop := vars[k]? = some v ∧ i < v.count

/-- Different cells have different ids and disjoint bytes. `chk` are the checks of the build of the
contract. -/
def DisjointCells (vars : List Var) : Prop :=
  ∀ (chk : Bool) (k i k' i' : Nat) (v v' : Var), CellOf vars k i v → CellOf vars k' i' v' →
    (k, i) ≠ (k', i') → ∃ a b, v.cellId chk (BitVec.ofNat 32 i) = some a ∧
      v'.cellId chk (BitVec.ofNat 32 i') = some b ∧ a ≠ b ∧
      (v.start i + v.byteCount ≤ v'.start i' ∨ v'.start i' + v'.byteCount ≤ v.start i)

/-- Indices behind the end of an array are refused, in 32 bit code. -/
def RefusedCells (vars : List Var) : Prop :=
  ∀ (chk : Bool) (v : Var) (n : BitVec 32) (index : BitVec 32), v ∈ vars → v.length = some n →
    (v.cellId chk index = none ↔ n.toNat ≤ index.toNat)

/-- C63 in full. -/
def C63_claim : Prop :=
  ∀ (chk named : Bool) (fields : List Field) (vars : List Var),
    storageVars chk named fields = .ok vars → DisjointCells vars ∧ RefusedCells vars

/-! ## Lemmas -/

theorem cellTotal_cons (v : Var) (vs : List Var) : cellTotal (v :: vs) = v.count + cellTotal vs := by
  simp [cellTotal]

theorem byteTotal_cons (v : Var) (vs : List Var) :
    byteTotal (v :: vs) = v.count * v.byteCount + byteTotal vs := by simp [byteTotal]

theorem zadd {w : Nat} (x : BitVec w) : 0 + x = x := by simp

theorem addW_eq {w : Nat} {chk : Bool} {a b c : BitVec w} (h : addW chk a b = some c) : c = a + b := by
  unfold addW at h
  split at h <;> cases h
  rfl

theorem addW_true {w : Nat} {a b c : BitVec w} (h : addW true a b = some c) :
    a.toNat + b.toNat < 2 ^ w := by
  unfold addW at h
  split at h
  · cases h
  · rename_i hn
    simpa using hn

theorem unwrapOpt_ok {ε α : Type} {o : Option α} {a : α} (h : (.unwrapOpt o : Outcome ε α) = .ok a) :
    o = some a := by
  cases o <;> cases h
  rfl

theorem bind_ok {ε α β : Type} {x : Outcome ε α} {f : α → Outcome ε β} {b : β}
    (h : x.bind f = .ok b) : ∃ a, x = .ok a ∧ f a = .ok b := by
  cases x with
  | ok a => exact ⟨a, rfl, h⟩
  | err e => cases h
  | panic => cases h

theorem fieldVar_ok {f : Field} {id : BitVec 32} {offset : BitVec 64} {v : Var}
    (h : fieldVar f id offset = .ok v) : v.id = id ∧ v.offset = offset ∧ v.byteCount = v.ty.byteCount := by
  unfold fieldVar at h
  split at h
  · cases h
  · split at h <;> cases h <;> exact ⟨rfl, rfl, rfl⟩

/-- One round of the loop. -/
theorem loop_cons {chk : Bool} {id : BitVec 32} {offset : BitVec 64} {f : Field} {fs : List Field}
    {vars : List Var} (h : storageVarsLoop chk id offset (f :: fs) = .ok vars) :
    ∃ v vs id' offset', vars = v :: vs ∧ v.id = id ∧ v.offset = offset ∧ v.byteCount = v.ty.byteCount ∧
      addW chk id (BitVec.ofNat 32 v.count) = some id' ∧
      addW chk offset (BitVec.ofNat 64 (v.count * v.byteCount)) = some offset' ∧
      storageVarsLoop chk id' offset' fs = .ok vs := by
  obtain ⟨v, hv, h⟩ := bind_ok h
  obtain ⟨⟨offset', id'⟩, hn, h⟩ := bind_ok h
  obtain ⟨vs, hvs, h⟩ := bind_ok h
  cases h
  obtain ⟨h1, h2, h3⟩ := fieldVar_ok hv
  refine ⟨v, vs, id', offset', rfl, h1, h2, h3, ?_, ?_, hvs⟩
  all_goals
    cases hl : v.length with
    | none =>
      unfold advance at hn
      rw [hl] at hn
      obtain ⟨o, ho, hn⟩ := bind_ok hn
      obtain ⟨i, hi, hn⟩ := bind_ok hn
      cases hn
      first
        | (have : v.count = 1 := by simp [Var.count, hl]
           rw [this]
           exact unwrapOpt_ok hi)
        | (have : v.count * v.byteCount = v.byteCount := by simp [Var.count, hl]
           rw [this]
           exact unwrapOpt_ok ho)
    | some n =>
      unfold advance at hn
      rw [hl] at hn
      obtain ⟨o, ho, hn⟩ := bind_ok hn
      obtain ⟨i, hi, hn⟩ := bind_ok hn
      cases hn
      first
        | (have : BitVec.ofNat 32 v.count = n := by simp [Var.count, hl]
           rw [this]
           exact unwrapOpt_ok hi)
        | (have : v.count * v.byteCount = v.byteCount * n.toNat := by
             simp only [Var.count, hl]
             rw [Nat.mul_comm]
           rw [this]
           exact unwrapOpt_ok ho)

theorem byteCount_pos (t : PrimTy) : 1 ≤ t.byteCount ∧ t.byteCount ≤ 20 := by
  cases t with
  | int w s => cases w <;> simp [PrimTy.byteCount, Width.bytes]
  | _ => simp [PrimTy.byteCount]

/-- Ids and offsets, up to wrapping. -/
theorem loop_vars {chk : Bool} : ∀ {fs : List Field} {id : BitVec 32} {offset : BitVec 64}
    {vars : List Var}, storageVarsLoop chk id offset fs = .ok vars → ∀ k v, vars[k]? = some v →
      v.id = id + BitVec.ofNat 32 (cellTotal (vars.take k)) ∧
      v.offset = offset + BitVec.ofNat 64 (byteTotal (vars.take k)) ∧ v.byteCount = v.ty.byteCount
  | [], _, _, _, h, k, v, hk => by cases h; simp at hk
  | f :: fs, id, offset, vars, h, k, v, hk => by
    obtain ⟨v0, vs, id', offset', rfl, h1, h2, h3, h4, h5, h6⟩ := loop_cons h
    cases k with
    | zero =>
      simp only [List.getElem?_cons_zero, Option.some.injEq] at hk
      subst hk
      refine ⟨?_, ?_, h3⟩
      · rw [h1]; simp [cellTotal]
      · rw [h2]; simp [byteTotal]
    | succ k =>
      obtain ⟨g1, g2, g3⟩ := loop_vars h6 k v (by simpa using hk)
      refine ⟨?_, ?_, g3⟩
      · rw [g1, addW_eq h4, List.take_succ_cons, cellTotal_cons, BitVec.ofNat_add, BitVec.add_assoc]
      · rw [g2, addW_eq h5, List.take_succ_cons, byteTotal_cons, BitVec.ofNat_add, BitVec.add_assoc]

theorem count_le (v : Var) : v.count < 2 ^ 32 := by
  unfold Var.count
  cases v.length with
  | none => simp
  | some n => exact n.isLt

/-- With overflow checks nothing wraps. -/
theorem loop_checked : ∀ {fs : List Field} {id : BitVec 32} {offset : BitVec 64} {vars : List Var},
    storageVarsLoop true id offset fs = .ok vars → id.toNat + cellTotal vars < 2 ^ 32
  | [], id, _, _, h => by cases h; simp [cellTotal]; exact id.isLt
  | f :: fs, id, offset, vars, h => by
    obtain ⟨v0, vs, id', offset', rfl, h1, h2, h3, h4, h5, h6⟩ := loop_cons h
    have ih := loop_checked h6
    have hlt := addW_true h4
    have hc : (BitVec.ofNat 32 v0.count).toNat = v0.count := by
      rw [BitVec.toNat_ofNat, Nat.mod_eq_of_lt (count_le v0)]
    rw [hc] at hlt
    rw [addW_eq h4, BitVec.toNat_add, hc, Nat.mod_eq_of_lt hlt] at ih
    rw [cellTotal_cons]
    omega

theorem cellTotal_take {vars : List Var} {k : Nat} {v : Var} (h : vars[k]? = some v) {j : Nat}
    (hkj : k < j) : cellTotal (vars.take k) + v.count ≤ cellTotal (vars.take j) := by
  induction vars generalizing k j with
  | nil => simp at h
  | cons a as ih =>
    cases j with
    | zero => omega
    | succ j =>
      cases k with
      | zero =>
        simp only [List.getElem?_cons_zero, Option.some.injEq] at h
        subst h
        simp only [List.take_zero, List.take_succ_cons, cellTotal_cons]
        simp [cellTotal]
      | succ k =>
        simp only [List.getElem?_cons_succ] at h
        have := ih h (j := j) (by omega)
        simp only [List.take_succ_cons, cellTotal_cons]
        omega

theorem byteTotal_take {vars : List Var} {k : Nat} {v : Var} (h : vars[k]? = some v) {j : Nat}
    (hkj : k < j) : byteTotal (vars.take k) + v.count * v.byteCount ≤ byteTotal (vars.take j) := by
  induction vars generalizing k j with
  | nil => simp at h
  | cons a as ih =>
    cases j with
    | zero => omega
    | succ j =>
      cases k with
      | zero =>
        simp only [List.getElem?_cons_zero, Option.some.injEq] at h
        subst h
        simp only [List.take_zero, List.take_succ_cons, byteTotal_cons]
        simp [byteTotal]
      | succ k =>
        simp only [List.getElem?_cons_succ] at h
        have := ih h (j := j) (by omega)
        simp only [List.take_succ_cons, byteTotal_cons]
        omega

theorem take_all {vars : List Var} {k : Nat} {v : Var} (h : vars[k]? = some v) :
    cellTotal (vars.take k) + v.count ≤ cellTotal vars ∧
      byteTotal (vars.take k) + v.count * v.byteCount ≤ byteTotal vars := by
  have hk : k < vars.length := (List.getElem?_eq_some_iff.1 h).1
  have h1 := cellTotal_take h hk
  have h2 := byteTotal_take h hk
  rw [List.take_length] at h1 h2
  exact ⟨h1, h2⟩

theorem byteTotal_le {vars : List Var} (h : ∀ v ∈ vars, v.byteCount = v.ty.byteCount) :
    cellTotal vars ≤ byteTotal vars ∧ byteTotal vars ≤ 20 * cellTotal vars := by
  induction vars with
  | nil => simp [byteTotal, cellTotal]
  | cons v vs ih =>
    obtain ⟨i1, i2⟩ := ih fun x hx => h x (by simp [hx])
    rw [byteTotal_cons, cellTotal_cons]
    have hv : 1 ≤ v.byteCount ∧ v.byteCount ≤ 20 := by
      rw [h v (by simp)]
      exact byteCount_pos v.ty
    have h1 : v.count * v.byteCount ≤ v.count * 20 := Nat.mul_le_mul_left _ hv.2
    have h2 : v.count * 1 ≤ v.count * v.byteCount := Nat.mul_le_mul_left _ hv.1
    omega

/-- Where everything is when nothing wraps. -/
structure Placed (vars : List Var) : Prop where
  size : ∀ (k : Nat) (v : Var), vars[k]? = some v → v.byteCount = v.ty.byteCount
  id : ∀ (k : Nat) (v : Var), vars[k]? = some v → v.count = 0 ∨ v.id.toNat = cellTotal (vars.take k)
  offset : ∀ (k : Nat) (v : Var), vars[k]? = some v → v.offset.toNat = byteTotal (vars.take k)
  fits : cellTotal vars ≤ 2 ^ 32

theorem placed_of_fits {chk named : Bool} {fields : List Field} {vars : List Var}
    (h : storageVars chk named fields = .ok vars) (hf : cellTotal vars ≤ 2 ^ 32) : Placed vars := by
  unfold storageVars at h
  split at h
  case isFalse => cases h
  have hv := loop_vars h
  have hsz : ∀ v ∈ vars, v.byteCount = v.ty.byteCount := by
    intro v hm
    obtain ⟨k, hk⟩ := List.mem_iff_getElem?.1 hm
    exact (hv k v hk).2.2
  have hb := byteTotal_le hsz
  refine ⟨fun k v hk => (hv k v hk).2.2, fun k v hk => ?_, fun k v hk => ?_, hf⟩
  · obtain ⟨t1, -⟩ := take_all hk
    rcases Nat.eq_zero_or_pos v.count with h0 | h0
    · exact .inl h0
    · right
      rw [(hv k v hk).1, zadd, BitVec.toNat_ofNat, Nat.mod_eq_of_lt (by omega)]
  · obtain ⟨-, t2⟩ := take_all hk
    rw [(hv k v hk).2.1, zadd, BitVec.toNat_ofNat, Nat.mod_eq_of_lt (by omega)]

theorem placed_checked {named : Bool} {fields : List Field} {vars : List Var}
    (h : storageVars true named fields = .ok vars) : Placed vars := by
  refine placed_of_fits h ?_
  unfold storageVars at h
  split at h
  case isFalse => cases h
  have := loop_checked h
  simp at this
  omega

/-- The id of a cell is its number. -/
theorem Placed.cellId {vars : List Var} (hp : Placed vars) (chk : Bool) {k i : Nat} {v : Var}
    (hc : CellOf vars k i v) : cellTotal (vars.take k) + i < 2 ^ 32 ∧
      v.cellId chk (BitVec.ofNat 32 i) = some (BitVec.ofNat 32 (cellTotal (vars.take k) + i)) := by
  obtain ⟨hk, hi⟩ := hc
  obtain ⟨t1, -⟩ := take_all hk
  have hf := hp.fits
  have hid : v.id.toNat = cellTotal (vars.take k) := (hp.id k v hk).resolve_left (by omega)
  have hlt : cellTotal (vars.take k) + i < 2 ^ 32 := by omega
  refine ⟨hlt, ?_⟩
  have hi' : (BitVec.ofNat 32 i).toNat = i := by
    rw [BitVec.toNat_ofNat, Nat.mod_eq_of_lt (by omega)]
  have hide : v.id + BitVec.ofNat 32 i = BitVec.ofNat 32 (cellTotal (vars.take k) + i) := by
    apply BitVec.eq_of_toNat_eq
    rw [BitVec.toNat_add, hi', hid, BitVec.toNat_ofNat]
  unfold Var.cellId
  unfold Var.count at hi
  split
  · rename_i hl
    rw [hl] at hi
    have : i = 0 := by simpa using hi
    subst this
    rw [← hide]
    simp
  · rename_i n hl
    rw [hl] at hi
    unfold cellOffset
    rw [BitVec.setWidth_eq, if_neg]
    · rw [(Svm.Layout.addW_ok chk _ _ (by omega)).1, hide]
    · rw [BitVec.le_def]
      dsimp only at hi
      omega

theorem Placed.disjoint {vars : List Var} (hp : Placed vars) : DisjointCells vars := by
  have key : ∀ (k i k' i' : Nat) (v v' : Var), CellOf vars k i v → CellOf vars k' i' v' →
      (k < k' ∨ k = k' ∧ i < i') → cellTotal (vars.take k) + i < cellTotal (vars.take k') + i' ∧
        v.start i + v.byteCount ≤ v'.start i' := by
    intro k i k' i' v v' h1 h2 hlt
    unfold Var.start
    rw [hp.offset k v h1.1, hp.offset k' v' h2.1]
    rcases hlt with hlt | ⟨rfl, hlt⟩
    · have g1 := cellTotal_take h1.1 hlt
      have g2 := byteTotal_take h1.1 hlt
      have hi := h1.2
      have : (i + 1) * v.byteCount ≤ v.count * v.byteCount := Nat.mul_le_mul_right _ hi
      rw [Nat.add_mul] at this
      omega
    · have hv : v = v' := by
        have := h1.1.symm.trans h2.1
        simpa using this
      subst hv
      have : (i + 1) * v.byteCount ≤ i' * v.byteCount := Nat.mul_le_mul_right _ hlt
      rw [Nat.add_mul] at this
      omega
  intro chk k i k' i' v v' h1 h2 hne
  obtain ⟨b1, e1⟩ := hp.cellId chk h1
  obtain ⟨b2, e2⟩ := hp.cellId chk h2
  have tri : (k < k' ∨ k = k' ∧ i < i') ∨ (k' < k ∨ k' = k ∧ i' < i) := by
    have : k ≠ k' ∨ i ≠ i' := by
      by_contra h
      push Not at h
      exact hne (by rw [h.1, h.2])
    omega
  refine ⟨_, _, e1, e2, ?_, ?_⟩
  · intro he
    have he' := congrArg BitVec.toNat he
    rw [BitVec.toNat_ofNat, BitVec.toNat_ofNat, Nat.mod_eq_of_lt b1, Nat.mod_eq_of_lt b2] at he'
    rcases tri with t | t
    · have := (key k i k' i' v v' h1 h2 t).1; omega
    · have := (key k' i' k i v' v h2 h1 t).1; omega
  · rcases tri with t | t
    · exact .inl (key k i k' i' v v' h1 h2 t).2
    · exact .inr (key k' i' k i v' v h2 h1 t).2

theorem Placed.refused {vars : List Var} (hp : Placed vars) : RefusedCells vars := by
  intro chk v n index hm hl
  obtain ⟨k, hk⟩ := List.mem_iff_getElem?.1 hm
  have hcnt : v.count = n.toNat := by unfold Var.count; rw [hl]
  constructor
  · intro hn
    by_contra hlt
    have := (hp.cellId chk (k := k) (i := index.toNat) (v := v) ⟨hk, by omega⟩).2
    rw [BitVec.ofNat_toNat, BitVec.setWidth_eq, hn] at this
    cases this
  · intro hle
    unfold Var.cellId cellOffset
    rw [hl]
    dsimp only
    rw [BitVec.setWidth_eq, if_pos (BitVec.le_def.2 hle)]

/-! ## C63 -/

/-- **C63** in builds of the macro with overflow checks. -/
theorem C63_checked {named : Bool} {fields : List Field} {vars : List Var}
    (h : storageVars true named fields = .ok vars) : DisjointCells vars ∧ RefusedCells vars :=
  ⟨(placed_checked h).disjoint, (placed_checked h).refused⟩

/-- **C63**, partial: in every build, for structs of at most 2^32 cells. Missing: larger structs without
overflow checks, whose ids wrap. -/
theorem C63_partial {chk named : Bool} {fields : List Field} {vars : List Var}
    (h : storageVars chk named fields = .ok vars) (hf : cellTotal vars ≤ 2 ^ 32) :
    DisjointCells vars ∧ RefusedCells vars :=
  ⟨(placed_of_fits h hf).disjoint, (placed_of_fits h hf).refused⟩

/-- The ids wrap without overflow checks: the first and the last field share variable 0. -/
theorem C63_claim_false : ¬ C63_claim := by
  intro hc
  have h := (hc false true [⟨false, .array (.int .w8 false) 0xFFFFFFFF⟩, ⟨false, .prim .bool⟩,
    ⟨false, .prim .bool⟩] _ rfl).1
  obtain ⟨a, b, h1, h2, h3, -⟩ := h false 0 0 2 0 _ _ ⟨rfl, by decide⟩ ⟨rfl, by decide⟩ (by decide)
  have ha : a = 0 := Option.some.inj (h1.symm.trans rfl)
  have hb : b = 0 := Option.some.inj (h2.symm.trans rfl)
  exact h3 (ha.trans hb.symm)

/-- Where `usize` has 64 bits, as in tests with the mock storage, the index is truncated: every index
from 2^32 on that is small enough modulo 2^32 gets the cell of the small one. -/
theorem C63_truncated (chk : Bool) (varId length : BitVec 32) (index : BitVec 64) :
    cellOffset chk varId index length =
      cellOffset chk varId (BitVec.ofNat 64 (index.toNat % 2 ^ 32)) length := by
  have : index.setWidth 32 = (BitVec.ofNat 64 (index.toNat % 2 ^ 32)).setWidth 32 := by
    apply BitVec.eq_of_toNat_eq
    simp only [BitVec.toNat_setWidth, BitVec.toNat_ofNat]
    omega
  unfold cellOffset
  rw [this]

example : cellOffset true 7 (0x100000002 : BitVec 64) 5 = some 9 := by decide

/-- A struct with an amount, an array of three addresses and a flag. -/
example : storageVars true true [⟨false, .prim .amount⟩, ⟨false, .array .address 3⟩, ⟨false, .prim .bool⟩]
    = .ok [⟨0, 0, .amount, 8, none⟩, ⟨1, 8, .address, 20, some 3⟩, ⟨4, 68, .bool, 1, none⟩] := rfl

/-! ## C76 -/

/-- C76 in full: the layout of the deployed template has, for every cell of the struct, a variable with
the id, the offset and the size of the cell, and no other variables. -/
def Matches (vars : List Var) (l : FixedLayout) : Prop :=
  (∀ (chk : Bool) (k i : Nat) (v : Var), CellOf vars k i v →
    ∃ id raw, v.cellId chk (BitVec.ofNat 32 i) = some id ∧ l.get id = some raw ∧ raw.id = id ∧
      raw.offset.toNat = v.start i ∧ raw.byteSize.toNat = v.ty.byteCount) ∧
  ∀ (chk : Bool) (id : BitVec 32) (raw : RawVar), l.get id = some raw →
    ∃ k i v, CellOf vars k i v ∧ v.cellId chk (BitVec.ofNat 32 i) = some id

/-- See `Matches`. -/
def C76_claim : Prop :=
  ∀ (chk chk' named : Bool) (fields : List Field) (vars : List Var) (l : FixedLayout),
    storageVars chk named fields = .ok vars → dataSection chk' vars = some l → Matches vars l

theorem byteSizes_cons (v : Var) (vs : List Var) :
    byteSizes (v :: vs) = List.replicate v.count (BitVec.ofNat 32 v.byteCount) ++ byteSizes vs := by
  unfold byteSizes Var.count
  rw [List.flatMap_cons]
  cases v.length <;> rfl

theorem byteSizes_length (vars : List Var) : (byteSizes vars).length = cellTotal vars := by
  induction vars with
  | nil => rfl
  | cons v vs ih => rw [byteSizes_cons, cellTotal_cons, List.length_append, List.length_replicate, ih]

theorem total_replicate (n : Nat) (s : BitVec 32) :
    Svm.Layout.total (List.replicate n s) = n * s.toNat := by
  simp [Svm.Layout.total]

theorem small_count {v : Var} (h : v.byteCount = v.ty.byteCount) :
    (BitVec.ofNat 32 v.byteCount).toNat = v.byteCount := by
  have := byteCount_pos v.ty
  rw [BitVec.toNat_ofNat, Nat.mod_eq_of_lt (by omega)]

theorem byteSizes_total {vars : List Var} (h : ∀ v ∈ vars, v.byteCount = v.ty.byteCount) :
    Svm.Layout.total (byteSizes vars) = byteTotal vars := by
  induction vars with
  | nil => rfl
  | cons v vs ih =>
    rw [byteSizes_cons, byteTotal_cons, Svm.Layout.total_append, total_replicate,
      ih fun x hx => h x (by simp [hx]), small_count (h v (by simp))]

/-- The size at the number of a cell, and the sum of the sizes before it. -/
theorem byteSizes_at {vars : List Var} (h : ∀ v ∈ vars, v.byteCount = v.ty.byteCount) {k i : Nat} {v : Var}
    (hc : CellOf vars k i v) :
    (byteSizes vars)[cellTotal (vars.take k) + i]? = some (BitVec.ofNat 32 v.byteCount) ∧
      Svm.Layout.total ((byteSizes vars).take (cellTotal (vars.take k) + i)) =
        byteTotal (vars.take k) + i * v.byteCount := by
  induction vars generalizing k with
  | nil => simp [CellOf] at hc
  | cons a as ih =>
    obtain ⟨hk, hi⟩ := hc
    cases k with
    | zero =>
      simp only [List.getElem?_cons_zero, Option.some.injEq] at hk
      subst hk
      rw [byteSizes_cons]
      simp only [List.take_zero]
      have h0 : cellTotal [] = 0 := rfl
      have h0' : byteTotal [] = 0 := rfl
      rw [h0, h0', Nat.zero_add, Nat.zero_add]
      constructor
      · rw [List.getElem?_append_left (by simpa using hi)]
        simp [hi]
      · rw [List.take_append_of_le_length (by simp; omega), List.take_replicate, total_replicate,
          Nat.min_eq_left (by omega), small_count (h a (by simp))]
    | succ k =>
      simp only [List.getElem?_cons_succ] at hk
      obtain ⟨e1, e2⟩ := ih (fun x hx => h x (by simp [hx])) (k := k) ⟨hk, hi⟩
      rw [byteSizes_cons, List.take_succ_cons, cellTotal_cons, byteTotal_cons, Nat.add_assoc]
      constructor
      · rw [List.getElem?_append_right (by simp), List.length_replicate, Nat.add_sub_cancel_left]
        exact e1
      · rw [List.take_append, List.length_replicate, Nat.add_sub_cancel_left, Svm.Layout.total_append,
          e2, List.take_replicate, Nat.min_eq_right (by omega), total_replicate,
          small_count (h a (by simp)), Nat.add_assoc]

/-- Every number below the number of cells is the number of a cell. -/
theorem cell_at {vars : List Var} {j : Nat} (hj : j < cellTotal vars) :
    ∃ k i v, CellOf vars k i v ∧ cellTotal (vars.take k) + i = j := by
  induction vars generalizing j with
  | nil => simp [cellTotal] at hj
  | cons a as ih =>
    rw [cellTotal_cons] at hj
    by_cases h : j < a.count
    · exact ⟨0, j, a, ⟨rfl, h⟩, by simp [cellTotal]⟩
    · obtain ⟨k, i, v, hc, he⟩ := ih (j := j - a.count) (by omega)
      refine ⟨k + 1, i, v, ⟨by simpa using hc.1, hc.2⟩, ?_⟩
      rw [List.take_succ_cons, cellTotal_cons]
      omega

theorem Placed.sizes {vars : List Var} (hp : Placed vars) : ∀ v ∈ vars, v.byteCount = v.ty.byteCount := by
  intro v hm
  obtain ⟨k, hk⟩ := List.mem_iff_getElem?.1 hm
  exact hp.size k v hk

/-- The deployed layout of a struct of less than 4 GiB. -/
theorem Placed.deployed {vars : List Var} (hp : Placed vars) (hb : byteTotal vars < 2 ^ 32)
    (chk : Bool) : ∃ l, dataSection chk vars = some l ∧ Matches vars l := by
  have hs := hp.sizes
  obtain ⟨l, hl, hg, hout, -⟩ := Svm.Layout.C13_layout_ranges chk 0 (byteSizes vars)
    (by rw [byteSizes_length]; have := hp.fits; simpa using this)
    (by have := byteSizes_total hs; unfold Svm.Layout.total at this; omega)
  refine ⟨l, hl, ?_, ?_⟩
  · intro chk' k i v hc
    obtain ⟨b1, e1⟩ := hp.cellId chk' hc
    obtain ⟨s1, s2⟩ := byteSizes_at hs hc
    obtain ⟨raw, r1, r2, r3, r4⟩ := hg _ _ s1
    rw [show (0 : BitVec 32).toNat = 0 from rfl, Nat.zero_add] at r1 r2
    refine ⟨_, raw, e1, r1, ?_, ?_, ?_⟩
    · apply BitVec.eq_of_toNat_eq
      rw [r2, BitVec.toNat_ofNat, Nat.mod_eq_of_lt b1]
    · unfold Svm.Layout.total at s2
      rw [r3, s2]
      unfold Var.start
      rw [hp.offset k v hc.1]
    · rw [r4, small_count (hp.size k v hc.1), hp.size k v hc.1]
  · intro chk' id raw hid
    have hlt : id.toNat < cellTotal vars := by
      by_contra hge
      rw [hout id (by right; rw [byteSizes_length]; simp; omega)] at hid
      cases hid
    obtain ⟨k, i, v, hc, he⟩ := cell_at hlt
    refine ⟨k, i, v, hc, ?_⟩
    rw [(hp.cellId chk' hc).2, he, BitVec.ofNat_toNat, BitVec.setWidth_eq]

theorem fromSizesLoop_checked {first : BitVec 32} : ∀ {sizes : List (BitVec 32)} {i : Nat}
    {offset : BitVec 32} {vars : List RawVar},
    Svm.Layout.fromSizesLoop true first i offset sizes = some vars →
    offset.toNat + Svm.Layout.total sizes < 2 ^ 32
  | [], _, offset, _, _ => by simpa using offset.isLt
  | s :: ss, i, offset, vars, h => by
    simp only [Svm.Layout.fromSizesLoop, Option.bind_eq_bind, Option.bind_eq_some_iff] at h
    obtain ⟨id, _, off', ho, vs, hv, -⟩ := h
    have ih := fromSizesLoop_checked hv
    have hlt := addW_true ho
    rw [addW_eq ho, BitVec.toNat_add, Nat.mod_eq_of_lt hlt] at ih
    rw [Svm.Layout.total_cons]
    omega

/-- **C76** in builds with overflow checks. -/
theorem C76_checked {named : Bool} {fields : List Field} {vars : List Var} {l : FixedLayout}
    (h : storageVars true named fields = .ok vars) (hd : dataSection true vars = some l) :
    Matches vars l := by
  have hp := placed_checked h
  have hb : byteTotal vars < 2 ^ 32 := by
    unfold dataSection FixedLayout.fromByteSizes at hd
    simp only [Option.bind_eq_bind, Option.bind_eq_some_iff] at hd
    obtain ⟨vs, hv, -⟩ := hd
    have := fromSizesLoop_checked hv
    rw [byteSizes_total hp.sizes] at this
    simpa using this
  obtain ⟨l', hl', hm⟩ := hp.deployed hb true
  rw [hd, Option.some.injEq] at hl'
  rw [hl']
  exact hm

/-- **C76**, partial: in every build, for structs of less than 4 GiB, where the layout is also always
computed. Missing: larger ones without overflow checks. -/
theorem C76_deployed_partial {chk named : Bool} {fields : List Field} {vars : List Var}
    (h : storageVars chk named fields = .ok vars) (hb : byteTotal vars < 2 ^ 32) (chk' : Bool) :
    ∃ l, dataSection chk' vars = some l ∧ Matches vars l := by
  refine (placed_of_fits h ?_).deployed hb chk'
  have hs : ∀ v ∈ vars, v.byteCount = v.ty.byteCount := by
    intro v hm
    obtain ⟨k, hk⟩ := List.mem_iff_getElem?.1 hm
    unfold storageVars at h
    split at h
    · exact (loop_vars h k v hk).2.2
    · cases h
  have := byteTotal_le hs
  omega

theorem fromSizesLoop_wraps {first : BitVec 32} : ∀ (sizes : List (BitVec 32)) (i : Nat)
    (offset : BitVec 32), ∃ vars, Svm.Layout.fromSizesLoop false first i offset sizes = some vars ∧
      vars.length = sizes.length ∧ ∀ j v, vars[j]? = some v →
        v.offset = offset + BitVec.ofNat 32 (Svm.Layout.total (sizes.take j))
  | [], _, _ => ⟨[], rfl, rfl, by simp⟩
  | s :: ss, i, offset => by
    obtain ⟨vs, h1, h2, h3⟩ := fromSizesLoop_wraps (first := first) ss (i + 1) (offset + s)
    refine ⟨⟨first + BitVec.ofNat 32 i, offset, s⟩ :: vs, ?_, by simp [h2], ?_⟩
    · simp [Svm.Layout.fromSizesLoop, addW, h1]
    · intro j v hj
      cases j with
      | zero =>
        simp only [List.getElem?_cons_zero, Option.some.injEq] at hj
        subst hj
        simp
      | succ j =>
        simp only [List.getElem?_cons_succ] at hj
        rw [h3 j v hj, List.take_succ_cons, Svm.Layout.total_cons, BitVec.ofNat_add, BitVec.ofNat_toNat,
          BitVec.setWidth_eq, BitVec.add_assoc]

/-- Without overflow checks every struct of at most 2^32 cells gets a layout, with offsets modulo
2^32. -/
theorem C76_wraps {vars : List Var} (hp : Placed vars) : ∃ l, dataSection false vars = some l ∧
    ∀ k i v, CellOf vars k i v → ∃ raw, l.get (BitVec.ofNat 32 (cellTotal (vars.take k) + i)) = some raw ∧
      raw.offset.toNat = v.start i % 2 ^ 32 := by
  obtain ⟨vs, h1, h2, h3⟩ := fromSizesLoop_wraps (first := 0) (byteSizes vars) 0 0
  refine ⟨⟨some 0, vs⟩, by unfold dataSection FixedLayout.fromByteSizes; rw [h1]; rfl, ?_⟩
  intro k i v hc
  obtain ⟨t1, -⟩ := take_all hc.1
  have hi := hc.2
  have hf := hp.fits
  have hlt : cellTotal (vars.take k) + i < vs.length := by
    rw [h2, byteSizes_length]
    omega
  have hg := Svm.Layout.get_of_index ⟨some 0, vs⟩ 0 rfl _ hlt (by simp; omega)
  rw [show (0 : BitVec 32).toNat = 0 from rfl, Nat.zero_add] at hg
  have hj : vs[cellTotal (vars.take k) + i]? = some vs[cellTotal (vars.take k) + i] :=
    List.getElem?_eq_getElem hlt
  refine ⟨_, hg.trans hj, ?_⟩
  rw [h3 _ _ hj, (byteSizes_at hp.sizes hc).2, zadd, BitVec.toNat_ofNat]
  unfold Var.start
  rw [hp.offset k v hc.1]

theorem C76_claim_false : ¬ C76_claim := by
  intro hclaim
  let fields : List Field := [⟨false, .array .amount 0x20000000⟩, ⟨false, .prim .bool⟩]
  have hs : storageVars false true fields =
      .ok [⟨0, 0, .amount, 8, some 0x20000000⟩, ⟨0x20000000, 0x100000000, .bool, 1, none⟩] := rfl
  have hp := placed_of_fits hs (by decide)
  obtain ⟨l, hl, hw⟩ := C76_wraps hp
  have hc : CellOf [⟨0, 0, .amount, 8, some 0x20000000⟩, ⟨0x20000000, 0x100000000, .bool, 1, none⟩] 1 0
    ⟨0x20000000, 0x100000000, .bool, 1, none⟩ := ⟨rfl, by decide⟩
  obtain ⟨raw, h1, h2⟩ := hw 1 0 _ hc
  obtain ⟨id, raw', g1, g2, -, g3, -⟩ := (hclaim false false true fields _ l hs hl).1 false 1 0 _ hc
  have hid := (hp.cellId false hc).2
  rw [g1, Option.some.injEq] at hid
  rw [hid, h1, Option.some.injEq] at g2
  subst g2
  rw [g3] at h2
  exact absurd h2 (by decide)

/-- The layout of the struct above. -/
example : dataSection true
    [⟨0, 0, .amount, 8, none⟩, ⟨1, 8, .address, 20, some 3⟩, ⟨4, 68, .bool, 1, none⟩] =
    some ⟨some 0, [⟨0, 0, 8⟩, ⟨1, 8, 20⟩, ⟨2, 28, 20⟩, ⟨3, 48, 20⟩, ⟨4, 68, 1⟩]⟩ := by decide

end Svm.Sdk
