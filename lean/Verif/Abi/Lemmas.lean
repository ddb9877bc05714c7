import Verif.Abi.Model
import Mathlib.Tactic.NormNum
import Mathlib.Tactic.Ring
import Mathlib.Tactic.IntervalCases

/-! # Lemmas about the ABI -/

namespace Svm.Abi

open Svm.Codec (natBE beNat Arr Addr natBE_length beNat_natBE beNat_lt)

/-! ## Sizes -/

theorem numByteSize_bounds (x : Nat) : 2 ≤ numByteSize x ∧ numByteSize x ≤ 9 := by
  unfold numByteSize
  repeat' split
  all_goals omega

theorem lt_pow_size {x : Nat} (h : x < 2 ^ 64) : x < 256 ^ (numByteSize x - 1) := by
  unfold numByteSize
  repeat' split
  all_goals norm_num
  all_goals omega

theorem numByteSize_le {x : Nat} {w : Width} (h : x < 2 ^ (8 * w.bytes)) :
    numByteSize x ≤ w.bytes + 1 := by
  unfold numByteSize
  cases w <;> simp only [Width.bytes] at * <;> norm_num at h <;> repeat' split
  all_goals omega

theorem numByteSize_mono {x y : Nat} (h : x ≤ y) : numByteSize x ≤ numByteSize y := by
  unfold numByteSize
  repeat' split
  all_goals omega

theorem numMaxByteSize_eq (w : Width) (s : Bool) : numMaxByteSize w s = w.bytes + 1 := by
  cases w <;> cases s <;> decide

theorem Width.bytes_le (w : Width) : w.bytes ≤ 8 := by cases w <;> decide

theorem Width.bytes_pos (w : Width) : 0 < w.bytes := by cases w <;> decide

theorem Width.toNat_lt {w : Width} (x : BitVec (8 * w.bytes)) : x.toNat < 2 ^ 64 :=
  lt_of_lt_of_le x.isLt (Nat.pow_le_pow_right (by omega) (by have := w.bytes_le; omega))

theorem lastBytes_length {n x : Nat} (h : n ≤ 8) : (lastBytes n x).length = n := by
  simp only [lastBytes, List.length_drop, natBE_length]
  omega

theorem beNat_append (a b : Bytes) : beNat (a ++ b) = beNat a * 256 ^ b.length + beNat b := by
  induction a with
  | nil => simp [beNat]
  | cons x l ih =>
    simp only [List.cons_append, beNat, List.length_append, pow_add, ih]
    ring

theorem beNat_lastBytes {n x : Nat} (hn : n ≤ 8) (h : x < 256 ^ n) : beNat (lastBytes n x) = x := by
  have h8 : x < 256 ^ 8 := lt_of_lt_of_le h (Nat.pow_le_pow_right (by omega) hn)
  have h1 : beNat (natBE 8 x) = x := by rw [beNat_natBE, Nat.mod_eq_of_lt h8]
  have h2 := beNat_append ((natBE 8 x).take (8 - n)) ((natBE 8 x).drop (8 - n))
  rw [List.take_append_drop, h1] at h2
  have hl : ((natBE 8 x).drop (8 - n)).length = n := lastBytes_length hn
  rw [hl] at h2
  unfold lastBytes
  rcases Nat.eq_zero_or_pos (beNat ((natBE 8 x).take (8 - n))) with h0 | h0
  · rw [h0] at h2; omega
  · have := Nat.mul_le_mul_right (256 ^ n) h0
    omega

/-! ## Markers -/

theorem kindOf_int {w : Width} {s : Bool} {n : Nat} (h0 : 1 ≤ n) (h : n ≤ w.bytes) :
    ∃ b, layoutInteger w.bytes n s = some b ∧ kindOf b = some (.int w s) ∧
      ∀ chk, intSize chk w b = .ok n := by
  cases w <;> cases s <;> simp only [Width.bytes] at h <;> interval_cases n <;>
    exact ⟨_, rfl, by decide +kernel, by decide +kernel⟩

theorem kindOf_amount {n : Nat} (h0 : 1 ≤ n) (h : n ≤ 8) :
    kindOf ((UInt8.ofNat (n - 1) <<< 4) ||| 1) = some .amount ∧
      sizeOf AMOUNT ((UInt8.ofNat (n - 1) <<< 4) ||| 1) = .ok n := by
  interval_cases n <;> exact ⟨by decide +kernel, by decide +kernel⟩

theorem kindOf_array {n : Nat} (h : n < 11) :
    kindOf (layoutArray n) = some .array ∧ sizeOf ARR (layoutArray n) = .ok (n + 1) := by
  interval_cases n <;> exact ⟨by decide +kernel, by decide +kernel⟩

theorem layoutArray_cap {n : Nat} (h : n < 11) : n ≤ (layoutArray n).toNat ↔ n ≠ 8 := by
  interval_cases n <;> decide

/-! ## Reading -/

theorem readBytes_append {n : Nat} {a : Bytes} (r : Bytes) (h : a.length = n) :
    readBytes n (a ++ r) = .ok (a, r) := by
  subst h
  simp [readBytes]

theorem readNum_append {n x : Nat} (r : Bytes) (hn : n ≤ 8) (h : x < 256 ^ n) :
    readNum n (lastBytes n x ++ r) = .ok (x, r) := by
  unfold readNum
  rw [readBytes_append r (lastBytes_length hn)]
  change Outcome.ok (beNat (lastBytes n x), r) = _
  rw [beNat_lastBytes hn h]

/-! ## Primitives -/

theorem encodeInt_eq (w : Width) (s : Bool) (x : BitVec (8 * w.bytes)) :
    ∃ b, encodeInt w s x = some (b :: lastBytes (numByteSize x.toNat - 1) x.toNat) ∧
      kindOf b = some (.int w s) ∧ ∀ chk, intSize chk w b = .ok (numByteSize x.toNat - 1) := by
  have hb := numByteSize_bounds x.toNat
  have hw := numByteSize_le x.isLt
  obtain ⟨b, h1, h2, h3⟩ := kindOf_int (w := w) (s := s) (n := numByteSize x.toNat - 1) (by omega)
    (by omega)
  refine ⟨b, ?_, h2, h3⟩
  unfold encodeInt
  dsimp only
  rw [numMaxByteSize_eq, Nat.add_sub_cancel, h1]
  rfl

/-- Every primitive has an encoding. It starts with the marker of its kind. -/
theorem encodePrim_cons (p : Prim) : ∃ b bs, encodePrim p = some (b :: bs) ∧
    ∃ k, kindOf b = some k ∧ k ≠ .array := by
  cases p with
  | none_ => exact ⟨_, _, rfl, .none_, by decide, by decide⟩
  | unit => exact ⟨_, _, rfl, .unit, by decide, by decide⟩
  | bool v => cases v <;> exact ⟨_, _, rfl, .bool, by decide, by decide⟩
  | address a => exact ⟨_, _, rfl, .address, by decide, by decide⟩
  | amount x =>
    have hb := numByteSize_bounds x.toNat
    have h := kindOf_amount (n := numByteSize x.toNat - 1) (by omega) (by omega)
    rw [Nat.sub_sub] at h
    exact ⟨_, _, rfl, .amount, h.1, by decide⟩
  | int w s x =>
    obtain ⟨b, h1, h2, -⟩ := encodeInt_eq w s x
    exact ⟨b, _, h1, _, h2, by simp⟩

theorem peekKind_of {b : UInt8} {k : Kind} (r : Bytes) (h : kindOf b = some k) :
    peekKind (b :: r) = .ok k := by
  change Outcome.unwrapOpt (kindOf b) = _
  rw [h]
  rfl

/-- Primitives round trip. -/
theorem decodePrim_encode (chk : Bool) {p : Prim} {bs : Bytes} (h : encodePrim p = some bs)
    (r : Bytes) : decodePrim chk (bs ++ r) = .ok (.prim p, r) := by
  cases p with
  | none_ =>
    cases h
    cases chk <;> rfl
  | unit =>
    cases h
    cases chk <;> rfl
  | bool v =>
    cases h
    cases v <;> rfl
  | address a =>
    cases h
    unfold decodePrim
    rw [List.cons_append, peekKind_of (k := .address) _ (by decide)]
    have hr := readBytes_append r a.2
    change (if chk = true ∧ ADDRESS ≠ ADDRESS then .panic
      else (readBytes 20 (a.1 ++ r)).bind _) = _
    rw [if_neg (by simp), hr]
    change (if h : a.1.length = 20 then _ else _) = _
    rw [dif_pos a.2]
  | amount x =>
    cases h
    have hb := numByteSize_bounds x.toNat
    have hk := kindOf_amount (n := numByteSize x.toNat - 1) (by omega) (by omega)
    have hn := readNum_append (n := numByteSize x.toNat - 1) (x := x.toNat) r (by omega)
      (lt_pow_size x.isLt)
    rw [Nat.sub_sub] at hk
    unfold encodeAmount decodePrim
    rw [List.cons_append, peekKind_of _ hk.1]
    change (sizeOf AMOUNT _).bind _ = _
    rw [hk.2]
    change (readNum _ _).bind _ = _
    rw [hn]
    change Outcome.ok (Value.prim (.amount (BitVec.ofNat _ x.toNat)), r) = _
    rw [BitVec.ofNat_toNat, BitVec.setWidth_eq]
  | int w s x =>
    obtain ⟨b, h1, h2, h3⟩ := encodeInt_eq w s x
    have hh : encodeInt w s x = some bs := h
    rw [h1] at hh
    cases hh
    have hb := numByteSize_bounds x.toNat
    have hn := readNum_append (n := numByteSize x.toNat - 1) (x := x.toNat) r (by omega)
      (lt_pow_size (Width.toNat_lt x))
    unfold decodePrim
    rw [List.cons_append, peekKind_of _ h2]
    change (intSize chk w b).bind _ = _
    rw [h3]
    change (readNum _ _).bind _ = _
    rw [hn]
    change Outcome.ok (Value.prim (.int w s (BitVec.ofNat _ x.toNat)), r) = _
    rw [BitVec.ofNat_toNat, BitVec.setWidth_eq]

/-- Reading a primitive at an array panics. -/
theorem decodePrim_array (chk : Bool) {n : Nat} (h : n < 11) (r : Bytes) :
    decodePrim chk (layoutArray n :: r) = .panic := by
  unfold decodePrim
  rw [peekKind_of _ (kindOf_array h).1]
  rfl

end Svm.Abi
