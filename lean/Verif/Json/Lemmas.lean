import Verif.Json.Model
import Verif.Abi.Decode

/-!
# Lemmas on the JSON API
-/

namespace Svm.JsonApi

open Svm.Codec (Str Addr)
open Svm.Abi (Width Prim Value)

/-! ## Outcomes -/

theorem bind_ok {ε α β : Type} {x : Outcome ε α} {f : α → Outcome ε β} {b : β}
    (h : (x >>= f) = .ok b) : ∃ a, x = .ok a ∧ f a = .ok b := by
  cases x with
  | ok a => exact ⟨a, rfl, h⟩
  | err e => cases h
  | panic => cases h

theorem unwrapRes_ok {ε ε' α : Type} {x : Outcome ε' α} {a : α}
    (h : (.unwrapRes x : Outcome ε α) = .ok a) : x = .ok a := by
  cases x with
  | ok b => cases h; rfl
  | err e => cases h
  | panic => cases h

theorem unwrapOpt_ok {ε α : Type} {x : Option α} {a : α}
    (h : (.unwrapOpt x : Outcome ε α) = .ok a) : x = some a := by
  cases x with
  | some b => cases h; rfl
  | none => cases h

theorem opt_bind {α β : Type} {x : Option α} {f : α → Option β} {b : β}
    (h : (x >>= f) = some b) : ∃ a, x = some a ∧ f a = some b := by
  cases x with
  | some a => exact ⟨a, rfl, h⟩
  | none => cases h

theorem getField_ok {α : Type} {parse : Json → Option α} {j : Json} {name : String} {a : α} :
    getField parse j name = .ok a ↔ ∃ v, j.field name = some v ∧ parse v = some a := by
  unfold getField Json.field
  cases j.asObject with
  | none => exact ⟨fun h => (by cases h), fun ⟨v, h, _⟩ => by cases h⟩
  | some l =>
    change _ ↔ ∃ v, l.lookup name = some v ∧ _
    dsimp only
    cases l.lookup name with
    | none => exact ⟨fun h => (by cases h), fun ⟨v, h, _⟩ => by cases h⟩
    | some v =>
      dsimp only
      cases hp : parse v with
      | none =>
        refine ⟨fun h => (by cases h), fun ⟨v', h, h'⟩ => ?_⟩
        cases h
        rw [hp] at h'
        cases h'
      | some b =>
        constructor
        · intro h; cases h; exact ⟨v, rfl, hp⟩
        · rintro ⟨v', h, h'⟩
          cases h
          rw [hp] at h'
          cases h'
          rfl

theorem getField_invalid {α : Type} {parse : Json → Option α} {j v : Json} {name : String}
    (h : j.field name = some v) (hp : parse v = none) :
    getField parse j name = .err (.invalidField name) := by
  unfold Json.field at h
  obtain ⟨l, hl, h⟩ := opt_bind h
  unfold getField
  rw [hl]
  dsimp only
  rw [h]
  dsimp only
  rw [hp]

theorem getField_ne_panic {α : Type} {parse : Json → Option α} {j : Json} {name : String} :
    getField parse j name ≠ .panic := by
  unfold getField
  repeat' split
  all_goals nofun

/-! ## Hexadecimal strings -/

/-- The upper case of a letter. -/
def upperByte (c : UInt8) : UInt8 := if 97 ≤ c ∧ c ≤ 122 then c - 32 else c

theorem hexVal_hexDigit {n : Nat} (h : n < 16) : hexVal (hexDigit n) = some n := by
  have key : ∀ n < 16, hexVal (hexDigit n) = some n := by decide +kernel
  exact key n h

theorem hexDigit_hexVal {c : UInt8} {n : Nat} (h : hexVal c = some n) :
    n < 16 ∧ hexDigit n = upperByte c := by
  have key : ∀ i < 256, ∀ n, hexVal (UInt8.ofNat i) = some n →
      n < 16 ∧ hexDigit n = upperByte (UInt8.ofNat i) := by
    intro i hi
    have : ∀ i < 256, (hexVal (UInt8.ofNat i)).all fun n =>
        decide (n < 16 ∧ hexDigit n = upperByte (UInt8.ofNat i)) := by decide +kernel
    intro n hn
    have := this i hi
    rw [hn] at this
    simpa using this
  have := key c.toNat c.toNat_lt n
  rw [UInt8.ofNat_toNat] at this
  exact this h

theorem hexDecode_hexEncode : ∀ bs : Bytes, hexDecode (hexEncode bs) = some bs
  | [] => rfl
  | b :: bs => by
    have hb := b.toNat_lt
    unfold hexEncode hexDecode
    rw [hexVal_hexDigit (by omega), hexVal_hexDigit (by omega), hexDecode_hexEncode bs]
    change some (UInt8.ofNat (16 * (b.toNat / 16) + b.toNat % 16) :: bs) = _
    rw [Nat.div_add_mod, UInt8.ofNat_toNat]

theorem hexEncode_hexDecode : ∀ {s bs : Bytes}, hexDecode s = some bs →
    hexEncode bs = s.map upperByte ∧ s.length = 2 * bs.length
  | [], _, h => by cases h; exact ⟨rfl, rfl⟩
  | [_], _, h => by cases h
  | a :: b :: r, bs, h => by
    unfold hexDecode at h
    obtain ⟨x, hx, h⟩ := opt_bind h
    obtain ⟨y, hy, h⟩ := opt_bind h
    obtain ⟨t, ht, h⟩ := opt_bind h
    cases h
    obtain ⟨hx1, hx2⟩ := hexDigit_hexVal hx
    obtain ⟨hy1, hy2⟩ := hexDigit_hexVal hy
    obtain ⟨ih1, ih2⟩ := hexEncode_hexDecode ht
    constructor
    · have h1 : (UInt8.ofNat (16 * x + y)).toNat = 16 * x + y := by
        rw [UInt8.toNat_ofNat']
        omega
      unfold hexEncode
      rw [h1, show (16 * x + y) / 16 = x by omega, show (16 * x + y) % 16 = y by omega, hx2, hy2, ih1]
      rfl
    · simp only [List.length_cons, ih2]
      omega

theorem parseHex_hexStr (bs : Bytes) : parseHex (.str (hexStr bs)) = some bs :=
  hexDecode_hexEncode bs

theorem parseHex_some {j : Json} {bs : Bytes} (h : parseHex j = some bs) :
    ∃ s, j = .str s ∧ hexDecode s.1 = some bs := by
  unfold parseHex at h
  obtain ⟨s, hs, h⟩ := opt_bind h
  cases j with
  | str t => cases hs; exact ⟨_, rfl, h⟩
  | _ => cases hs

theorem parseAddr_addrJson (a : Addr) : parseAddr (addrJson a) = some a := by
  unfold parseAddr addrJson
  rw [parseHex_hexStr]
  exact dif_pos a.2

/-! ## Values of primitive types -/

theorem ofName_name (p : PrimTy) : PrimTy.ofName p.name = some p := by
  cases p with
  | int w s => cases w <;> cases s <;> decide
  | _ => decide

theorem name_ofName {s : Str} {p : PrimTy} (h : PrimTy.ofName s = some p) : p.name = s := by
  have := List.find?_some h
  simpa using this

theorem intOf_ofInt {w : Width} {s : Bool} {i : Int} (h : inRange w s i) :
    intOf w s (BitVec.ofInt _ i) = i := by
  unfold intOf
  unfold inRange at h
  cases s with
  | true =>
    rw [if_pos rfl] at h ⊢
    rw [BitVec.toInt_ofInt]
    cases w <;> simp only [Width.bytes] at * <;> unfold Int.bmod <;> norm_num at h ⊢ <;> split <;> omega
  | false =>
    rw [if_neg (by simp)] at h ⊢
    rw [BitVec.toNat_ofInt]
    cases w <;> simp only [Width.bytes] at * <;> norm_num at h ⊢ <;> omega

theorem inRange_intOf {w : Width} {s : Bool} (x : BitVec (8 * w.bytes)) : inRange w s (intOf w s x) := by
  unfold intOf inRange
  cases s with
  | true =>
    have h1 := BitVec.toInt_lt (x := x)
    have h2 := BitVec.le_toInt (x := x)
    rw [if_pos rfl, if_pos rfl]
    exact ⟨h2, h1⟩
  | false =>
    have := x.isLt
    rw [if_neg (by simp), if_neg (by simp)]
    exact ⟨by omega, by exact_mod_cast this⟩

theorem ofInt_intOf {w : Width} {s : Bool} (x : BitVec (8 * w.bytes)) :
    BitVec.ofInt (8 * w.bytes) (intOf w s x) = x := by
  unfold intOf
  cases s with
  | true => rw [if_pos rfl, BitVec.ofInt_toInt]
  | false =>
    rw [if_neg (by simp)]
    exact BitVec.ofInt_natCast _ _ |>.trans (BitVec.ofNat_toNat _ _ |>.trans (by simp))

theorem asU64_some {j : Json} {i : Int} : j.asU64 = some i ↔ j = .int i ∧ 0 ≤ i ∧ i < 2 ^ 64 := by
  cases j with
  | int k =>
    unfold Json.asU64
    dsimp only
    constructor
    · intro h
      split at h
      · rename_i hk; cases h; exact ⟨rfl, hk⟩
      · cases h
    · rintro ⟨h, hk⟩
      cases h
      exact if_pos hk
  | _ => exact ⟨fun h => (by cases h), fun ⟨h, _⟩ => by cases h⟩

theorem asI64_some {j : Json} {i : Int} :
    j.asI64 = some i ↔ j = .int i ∧ -2 ^ 63 ≤ i ∧ i < 2 ^ 63 := by
  cases j with
  | int k =>
    unfold Json.asI64
    dsimp only
    constructor
    · intro h
      split at h
      · rename_i hk; cases h; exact ⟨rfl, hk⟩
      · cases h
    · rintro ⟨h, hk⟩
      cases h
      exact if_pos hk
  | _ => exact ⟨fun h => (by cases h), fun ⟨h, _⟩ => by cases h⟩

theorem asBool_some {j : Json} {b : Bool} : j.asBool = some b ↔ j = .bool b := by
  cases j with
  | bool k => exact ⟨fun h => by cases h; rfl, fun h => by cases h; rfl⟩
  | _ => exact ⟨fun h => (by cases h), fun h => by cases h⟩

theorem asArray_some {j : Json} {l : List Json} : j.asArray = some l ↔ j = .arr l := by
  cases j with
  | arr k => exact ⟨fun h => by cases h; rfl, fun h => by cases h; rfl⟩
  | _ => exact ⟨fun h => (by cases h), fun h => by cases h⟩

/-- Reading an integer, whichever of `as_i64` and `as_u64` does it. -/
theorem primOfJson_int {w : Width} {s : Bool} {j : Json} {x : Prim} :
    primOfJson j (.int w s) = some x ↔
      ∃ i, j = .int i ∧ inRange w s i ∧ x = .int w s (BitVec.ofInt _ i) := by
  have signed : ∀ w' s', ¬ (w' = .w64 ∧ s' = false) → ∀ i, inRange w' s' i → -2 ^ 63 ≤ i ∧ i < 2 ^ 63 := by
    intro w' s' hne i hi
    unfold inRange at hi
    cases w' <;> cases s' <;> simp [Width.bytes] at hi hne ⊢ <;> omega
  have key : ∀ w' s', ¬ (w' = Width.w64 ∧ s' = false) → ((do
      let i ← j.asI64
      if inRange w' s' i then some (Prim.int w' s' (BitVec.ofInt _ i)) else none) = some x ↔
        ∃ i, j = .int i ∧ inRange w' s' i ∧ x = .int w' s' (BitVec.ofInt _ i)) := by
    intro w' s' hne
    constructor
    · intro h
      obtain ⟨i, hi, h⟩ := opt_bind h
      split at h
      · rename_i hr
        cases h
        exact ⟨i, (asI64_some.1 hi).1, hr, rfl⟩
      · cases h
    · rintro ⟨i, hj, hr, hx⟩
      rw [asI64_some.2 ⟨hj, signed w' s' hne i hr⟩]
      exact (if_pos hr).trans (by rw [hx])
  by_cases h64 : w = .w64 ∧ s = false
  · obtain ⟨rfl, rfl⟩ := h64
    change (j.asU64.map fun i => Prim.int .w64 false (BitVec.ofInt _ i)) = some x ↔ _
    rw [Option.map_eq_some_iff]
    constructor
    · rintro ⟨i, hi, rfl⟩
      obtain ⟨h1, h2⟩ := asU64_some.1 hi
      exact ⟨i, h1, h2, rfl⟩
    · rintro ⟨i, h1, h2, rfl⟩
      exact ⟨i, asU64_some.2 ⟨h1, h2⟩, rfl⟩
  · have := key w s h64
    cases w <;> cases s <;> first | exact this | exact absurd ⟨rfl, rfl⟩ h64

end Svm.JsonApi
