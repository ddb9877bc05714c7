import Verif.Sdk.Vec
import Mathlib.Tactic.Ring
import Mathlib.Tactic.Push

/-!
# Arithmetic with amounts (C147), crates/wasm/sdk-types/src/amount.rs

`chk` for overflow checks. The templates of the repository are built without them
(simple-coin-transfer-template/Cargo.toml:21, crates/host/cli/examples/craft-deploy/Cargo.toml:15).
-/

namespace Svm.Sdk.Amounts

/-- `struct Amount(pub u64)`, amount.rs:8-11. -/
abbrev Amount := BitVec 64

/-- `ensure!`, crates/wasm/sdk-std/src/ensure.rs:11-18. -/
def ensure (b : Bool) : Res Unit := if b then .ok () else .panic

/-- `Add`, `Add<u64>`, `AddAssign` and `AddAssign<u64>`, amount.rs:28-42 and 78-88. -/
def add (chk : Bool) (a b : Amount) : Res Amount :=
  if chk ∧ 2 ^ 64 ≤ a.toNat + b.toNat then .panic else .ok (a + b)

/-- `Sub`, `Sub<u64>`, `SubAssign` and `SubAssign<u64>`, amount.rs:44-62 and 90-104. -/
def sub (chk : Bool) (a b : Amount) : Res Amount := do
  ensure (decide (b.toNat ≤ a.toNat))
  if chk ∧ a.toNat < b.toNat then .panic else .ok (a - b)

/-- `Mul`, `Mul<u64>`, `MulAssign` and `MulAssign<u64>`, amount.rs:64-76 and 106-116. -/
def mul (chk : Bool) (a b : Amount) : Res Amount :=
  if chk ∧ 2 ^ 64 ≤ a.toNat * b.toNat then .panic else .ok (a * b)

/-- `From<i64>`, amount.rs:15-19: the cast keeps the bits. -/
def fromI64 (v : BitVec 64) : Amount := v

/-- A calculation in a template. Simplification: operands that are not calculated are given. -/
inductive Term where
  | given (a : Amount)
  | plus (s t : Term)
  | minus (s t : Term)
  | times (s t : Term)

/-- The calculation by the template, from the left to the right. -/
def Term.eval (chk : Bool) : Term → Res Amount
  | .given a => .ok a
  | .plus s t => do add chk (← s.eval chk) (← t.eval chk)
  | .minus s t => do sub chk (← s.eval chk) (← t.eval chk)
  | .times s t => do mul chk (← s.eval chk) (← t.eval chk)

/-! ## Spec -/

/-- The result over the integers. -/
def Term.value : Term → Int
  | .given a => a.toNat
  | .plus s t => s.value + t.value
  | .minus s t => s.value - t.value
  | .times s t => s.value * t.value

/-- A number that an amount can hold. -/
def Holdable (z : Int) : Prop := 0 ≤ z ∧ z < 2 ^ 64

/-- The result and all intermediate results can be held. -/
def Term.Fits : Term → Prop
  | .given _ => True
  | .plus s t => s.Fits ∧ t.Fits ∧ Holdable (s.value + t.value)
  | .minus s t => s.Fits ∧ t.Fits ∧ Holdable (s.value - t.value)
  | .times s t => s.Fits ∧ t.Fits ∧ Holdable (s.value * t.value)

/-- Only subtractions. -/
def Term.Subtracts : Term → Prop
  | .given _ => True
  | .minus s t => s.Subtracts ∧ t.Subtracts
  | _ => False

/-- **C147**, the claim: a calculation gives the exact result or stops the template. -/
def C147_claim : Prop := ∀ (chk : Bool) (t : Term) (v : Amount), t.eval chk = .ok v → (v.toNat : Int) = t.value

/-! ## Proofs -/

theorem bind2_ok {x y : Res Amount} {f : Amount → Amount → Res Amount} {v : Amount}
    (h : (do f (← x) (← y)) = .ok v) : ∃ a b, x = .ok a ∧ y = .ok b ∧ f a b = .ok v := by
  cases x with
  | ok a =>
    cases y with
    | ok b => exact ⟨a, b, rfl, rfl, h⟩
    | err e => cases h
    | panic => cases h
  | err e => cases h
  | panic => cases h

theorem sub_ok {chk : Bool} {a b v : Amount} (h : sub chk a b = .ok v) :
    b.toNat ≤ a.toNat ∧ v.toNat = a.toNat - b.toNat := by
  by_cases hb : b.toNat ≤ a.toNat
  · have e : sub chk a b = .ok (a - b) := by
      unfold sub ensure
      rw [if_pos (by simpa using hb)]
      show (if _ then _ else _) = _
      rw [if_neg (by rintro ⟨-, h⟩; omega)]
    rw [e] at h
    cases h
    refine ⟨hb, ?_⟩
    rw [BitVec.toNat_sub]
    have := a.isLt
    have := b.isLt
    omega
  · exfalso
    unfold sub ensure at h
    rw [if_neg (by simpa using hb)] at h
    cases h

theorem sub_of_le (chk : Bool) {a b : Amount} (hb : b.toNat ≤ a.toNat) :
    ∃ v, sub chk a b = .ok v ∧ v.toNat = a.toNat - b.toNat := by
  have e : sub chk a b = .ok (a - b) := by
    unfold sub ensure
    rw [if_pos (by simpa using hb)]
    show (if _ then _ else _) = _
    rw [if_neg (by rintro ⟨-, h⟩; omega)]
  exact ⟨_, e, (sub_ok e).2⟩

/-- **C147**, subtraction: in both build modes the difference is exact, and if it would be negative the template
stops. -/
theorem C147_subtraction (chk : Bool) (a b : Amount) :
    (b.toNat ≤ a.toNat → ∃ v, sub chk a b = .ok v ∧ v.toNat = a.toNat - b.toNat) ∧
    (a.toNat < b.toNat → sub chk a b = .panic) := by
  refine ⟨sub_of_le chk, fun h => ?_⟩
  unfold sub ensure
  rw [if_neg (by simpa using h)]
  rfl

/-- **C147**, partial: a calculation whose results can all be held gives the exact result in both build modes. -/
theorem C147_fits_partial (chk : Bool) : ∀ (t : Term), t.Fits → ∃ v, t.eval chk = .ok v ∧ (v.toNat : Int) = t.value
  | .given a, _ => ⟨a, rfl, rfl⟩
  | .plus s t, ⟨hs, ht, h0, h1⟩ => by
    obtain ⟨a, ea, va⟩ := C147_fits_partial chk s hs
    obtain ⟨b, eb, vb⟩ := C147_fits_partial chk t ht
    have hlt : a.toNat + b.toNat < 2 ^ 64 := by
      rw [← va, ← vb] at h1
      exact_mod_cast h1
    refine ⟨a + b, ?_, ?_⟩
    · simp only [Term.eval, ea, eb]
      show add chk a b = _
      unfold add
      rw [if_neg (by rintro ⟨-, h⟩; omega)]
    · rw [BitVec.toNat_add, Nat.mod_eq_of_lt hlt, Term.value, ← va, ← vb]
      push_cast
      rfl
  | .minus s t, ⟨hs, ht, h0, h1⟩ => by
    obtain ⟨a, ea, va⟩ := C147_fits_partial chk s hs
    obtain ⟨b, eb, vb⟩ := C147_fits_partial chk t ht
    have hle : b.toNat ≤ a.toNat := by rw [← va, ← vb] at h0; omega
    obtain ⟨v, ev, hv⟩ := sub_of_le chk hle
    refine ⟨v, ?_, ?_⟩
    · simp only [Term.eval, ea, eb]
      exact ev
    · rw [Term.value, ← va, ← vb, hv]
      omega
  | .times s t, ⟨hs, ht, h0, h1⟩ => by
    obtain ⟨a, ea, va⟩ := C147_fits_partial chk s hs
    obtain ⟨b, eb, vb⟩ := C147_fits_partial chk t ht
    have hlt : a.toNat * b.toNat < 2 ^ 64 := by
      rw [← va, ← vb] at h1
      exact_mod_cast h1
    refine ⟨a * b, ?_, ?_⟩
    · simp only [Term.eval, ea, eb]
      show mul chk a b = _
      unfold mul
      rw [if_neg (by rintro ⟨-, h⟩; omega)]
    · rw [BitVec.toNat_mul, Nat.mod_eq_of_lt hlt, Term.value, ← va, ← vb]
      push_cast
      rfl

/-- **C147**, partial: with overflow checks the claim holds, and the template stops exactly if some result cannot be
held. -/
theorem C147_checked_partial : ∀ (t : Term) (v : Amount),
    t.eval true = .ok v ↔ t.Fits ∧ (v.toNat : Int) = t.value := by
  have key : ∀ (t : Term) (v : Amount), t.eval true = .ok v → t.Fits := by
    intro t
    induction t with
    | given a => exact fun _ _ => trivial
    | plus s t is it =>
      intro v h
      obtain ⟨a, b, ea, eb, e⟩ := bind2_ok h
      obtain ⟨a', ea', va⟩ := C147_fits_partial true s (is a ea)
      obtain ⟨b', eb', vb⟩ := C147_fits_partial true t (it b eb)
      cases ea.symm.trans ea'
      cases eb.symm.trans eb'
      refine ⟨is a ea, it b eb, ?_⟩
      rw [← va, ← vb]
      unfold add at e
      split at e
      · cases e
      · rename_i hn
        have : a.toNat + b.toNat < 2 ^ 64 := by
          by_contra hc
          exact hn ⟨rfl, by omega⟩
        constructor <;> omega
    | minus s t is it =>
      intro v h
      obtain ⟨a, b, ea, eb, e⟩ := bind2_ok h
      obtain ⟨a', ea', va⟩ := C147_fits_partial true s (is a ea)
      obtain ⟨b', eb', vb⟩ := C147_fits_partial true t (it b eb)
      cases ea.symm.trans ea'
      cases eb.symm.trans eb'
      refine ⟨is a ea, it b eb, ?_⟩
      rw [← va, ← vb]
      have h1 := (sub_ok e).1
      have h2 := a.isLt
      constructor <;> omega
    | times s t is it =>
      intro v h
      obtain ⟨a, b, ea, eb, e⟩ := bind2_ok h
      obtain ⟨a', ea', va⟩ := C147_fits_partial true s (is a ea)
      obtain ⟨b', eb', vb⟩ := C147_fits_partial true t (it b eb)
      cases ea.symm.trans ea'
      cases eb.symm.trans eb'
      refine ⟨is a ea, it b eb, ?_⟩
      rw [← va, ← vb]
      unfold mul at e
      split at e
      · cases e
      · rename_i hn
        have : a.toNat * b.toNat < 2 ^ 64 := by
          by_contra hc
          exact hn ⟨rfl, by omega⟩
        rw [← Int.natCast_mul]
        constructor <;> omega
  intro t v
  constructor
  · intro h
    have hf := key t v h
    obtain ⟨w, ew, hw⟩ := C147_fits_partial true t hf
    cases h.symm.trans ew
    exact ⟨hf, hw⟩
  · rintro ⟨hf, hv⟩
    obtain ⟨w, ew, hw⟩ := C147_fits_partial true t hf
    rw [ew]
    congr 1
    apply BitVec.eq_of_toNat_eq
    omega

/-- **C147**, partial: a calculation that only subtracts satisfies the claim in both build modes. -/
theorem C147_subtracts_partial (chk : Bool) : ∀ (t : Term) (v : Amount), t.Subtracts → t.eval chk = .ok v →
    (v.toNat : Int) = t.value
  | .given a, v, _, h => by cases h; rfl
  | .minus s t, v, ⟨hs, ht⟩, h => by
    obtain ⟨a, b, ea, eb, e⟩ := bind2_ok h
    have va := C147_subtracts_partial chk s a hs ea
    have vb := C147_subtracts_partial chk t b ht eb
    obtain ⟨h1, h2⟩ := sub_ok e
    rw [Term.value, ← va, ← vb, h2]
    omega

/-- **C147**, what happens instead: without overflow checks the result is right modulo 2^64 only. -/
theorem C147_modulo : ∀ (t : Term) (v : Amount), t.eval false = .ok v → ((v.toNat : Int) - t.value) % 2 ^ 64 = 0
  | .given a, v, h => by cases h; simp [Term.value]
  | .plus s t, v, h => by
    obtain ⟨a, b, ea, eb, e⟩ := bind2_ok h
    have va := C147_modulo s a ea
    have vb := C147_modulo t b eb
    have : v = a + b := by
      unfold add at e
      rw [if_neg (by simp)] at e
      cases e
      rfl
    rw [this, BitVec.toNat_add, Term.value]
    omega
  | .minus s t, v, h => by
    obtain ⟨a, b, ea, eb, e⟩ := bind2_ok h
    have va := C147_modulo s a ea
    have vb := C147_modulo t b eb
    obtain ⟨h1, h2⟩ := sub_ok e
    rw [h2, Term.value]
    omega
  | .times s t, v, h => by
    obtain ⟨a, b, ea, eb, e⟩ := bind2_ok h
    have va := Int.dvd_of_emod_eq_zero (C147_modulo s a ea)
    have vb := Int.dvd_of_emod_eq_zero (C147_modulo t b eb)
    have : v = a * b := by
      unfold mul at e
      rw [if_neg (by simp)] at e
      cases e
      rfl
    rw [this, BitVec.toNat_mul, Term.value]
    apply Int.emod_eq_zero_of_dvd
    obtain ⟨c, hc⟩ := va
    obtain ⟨d, hd⟩ := vb
    have ha : s.value = a.toNat - 2 ^ 64 * c := by omega
    have hb : t.value = b.toNat - 2 ^ 64 * d := by omega
    have hm : ((a.toNat * b.toNat % 2 ^ 64 : Nat) : Int) =
        (a.toNat : Int) * b.toNat - 2 ^ 64 * (((a.toNat : Int) * b.toNat) / 2 ^ 64) := by
      push_cast
      exact Int.emod_def _ _
    rw [hm, ha, hb]
    exact ⟨-(((a.toNat : Int) * b.toNat) / 2 ^ 64) + d * a.toNat + c * b.toNat - 2 ^ 64 * c * d, by ring⟩

/-- **C147**, what happens instead: without overflow checks a sum that cannot be held becomes smaller than both
summands, and nothing stops the template. -/
theorem C147_wraps (a b : Amount) (h : 2 ^ 64 ≤ a.toNat + b.toNat) :
    ∃ v, add false a b = .ok v ∧ v.toNat = a.toNat + b.toNat - 2 ^ 64 ∧ v.toNat < a.toNat ∧ v.toNat < b.toNat := by
  have ha := a.isLt
  have hb := b.isLt
  have e : (a + b).toNat = a.toNat + b.toNat - 2 ^ 64 := by
    rw [BitVec.toNat_add]
    omega
  refine ⟨a + b, ?_, e, by omega, by omega⟩
  unfold add
  rw [if_neg (by simp)]

/-- **C147**, what happens instead: without overflow checks adding and multiplying never stop the template. -/
theorem C147_never_stops (a b : Amount) : (∃ v, add false a b = .ok v) ∧ ∃ v, mul false a b = .ok v := by
  unfold add mul
  rw [if_neg (by simp), if_neg (by simp)]
  exact ⟨⟨_, rfl⟩, ⟨_, rfl⟩⟩

/-- **C147**, what happens instead: an amount made of a negative number is that number plus 2^64. -/
theorem C147_negative (v : BitVec 64) :
    ((fromI64 v).toNat : Int) = if v.toInt < 0 then v.toInt + 2 ^ 64 else v.toInt := by
  unfold fromI64
  have := v.isLt
  rw [BitVec.toInt_eq_toNat_cond]
  split <;> split <;> omega

/-- The claim is false: the sum of the largest amount and 1 is 0 in a template as it is built. -/
theorem C147_claim_false : ¬ C147_claim := by
  intro h
  have := h false (.plus (.given (BitVec.allOnes 64)) (.given 1)) 0 rfl
  simp [Term.value] at this

/-- Non-vacuity: 10 + 20 - 5 times 2 fits. -/
example : (Term.times (.minus (.plus (.given 10) (.given 20)) (.given 5)) (.given 2)).Fits := by
  simp [Term.Fits, Term.value, Holdable]

example : (Term.times (.minus (.plus (.given 10) (.given 20)) (.given 5)) (.given 2)).eval false = .ok 50 ∧
    (Term.minus (.given 1) (.given 2)).eval false = .panic ∧
    (Term.plus (.given (BitVec.allOnes 64)) (.given 1)).eval true = .panic ∧
    (Term.times (.given (BitVec.ofNat 64 (2 ^ 32))) (.given (BitVec.ofNat 64 (2 ^ 32)))).eval false = .ok 0 := by
  decide +kernel

example : (Term.minus (.given 3) (.given 2)).Subtracts := ⟨trivial, trivial⟩

example : 2 ^ 64 ≤ (BitVec.allOnes 64 : Amount).toNat + (1 : Amount).toNat := by decide +kernel

end Svm.Sdk.Amounts
