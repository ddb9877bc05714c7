import Verif.Prelude

/-!
# Gas ranges (crates/host/gas/src/gas.rs) and property C56

`u64`/`usize` values are natural numbers; `add64` is the machine addition.
-/

namespace Svm.Gas

/-- `a + b` on `u64` (or a 64-bit `usize`): with overflow checks (`chk`, debug builds) an overflow
panics (`none`), without (release builds) it wraps around. -/
def add64 (chk : Bool) (a b : Nat) : Option Nat :=
  if a + b < 2 ^ 64 then some (a + b) else if chk then none else some ((a + b) % 2 ^ 64)

/-- `enum Gas`, crates/host/gas/src/gas.rs:6-21. -/
inductive Gas where
  | fixed (x : Nat)
  | range (min max : Nat)
  deriving Repr, DecidableEq

namespace Gas

/-- `impl Add for Gas`, gas.rs:34-58: the alternative of two ranges. -/
def add : Gas → Gas → Gas
  | .fixed x, .fixed y => if x = y then .fixed x else .range (Nat.min x y) (Nat.max x y)
  | .fixed x, .range a b => .range (Nat.min a x) (Nat.max b x)
  | .range a b, .fixed x => .range (Nat.min a x) (Nat.max b x)
  | .range a b, .range c d => .range (Nat.min a c) (Nat.max b d)

/-- `impl Mul for Gas`, gas.rs:61-82: the sequence of two ranges; `none` is an overflow panic. -/
def mul (chk : Bool) : Gas → Gas → Option Gas
  | .fixed x, .fixed y => do return .fixed (← add64 chk x y)
  | .fixed x, .range a b => do return .range (← add64 chk a x) (← add64 chk b x)
  | .range a b, .fixed x => do return .range (← add64 chk a x) (← add64 chk b x)
  | .range a b, .range c d => do return .range (← add64 chk a c) (← add64 chk b d)

/-! ## Specification -/

/-- The amounts of gas a `Gas` stands for. -/
def Has : Gas → Nat → Prop
  | .fixed x, v => v = x
  | .range a b, v => a ≤ v ∧ v ≤ b

/-- Lowest amount. -/
def lo : Gas → Nat
  | .fixed x => x
  | .range a _ => a

/-- Highest amount. -/
def hi : Gas → Nat
  | .fixed x => x
  | .range _ b => b

/-- A sensible gas value: non-empty, and `u64`. -/
def Wf (g : Gas) : Prop := g.lo ≤ g.hi ∧ g.hi < 2 ^ 64

theorem has_iff (g : Gas) (v : Nat) : g.Has v ↔ g.lo ≤ v ∧ v ≤ g.hi := by
  cases g <;> simp only [Has, lo, hi] <;> omega

theorem lo_add (a b : Gas) : (a.add b).lo = Nat.min a.lo b.lo := by
  rcases a with x | ⟨p, q⟩ <;> rcases b with y | ⟨r, s⟩
  · by_cases h : x = y <;> simp [add, lo, h]
  · exact Nat.min_comm _ _
  · rfl
  · rfl

theorem hi_add (a b : Gas) : (a.add b).hi = Nat.max a.hi b.hi := by
  rcases a with x | ⟨p, q⟩ <;> rcases b with y | ⟨r, s⟩
  · by_cases h : x = y <;> simp [add, hi, h]
  · exact Nat.max_comm _ _
  · rfl
  · rfl

end Gas

open Gas

/-- **C56, alternative**: the alternative of two gas values is a sensible value, contains every
amount of either, and both its bounds are amounts of one of the two. -/
theorem C56_alternative (a b : Gas) (ha : a.Wf) (hb : b.Wf) :
    (a.add b).Wf ∧ (∀ v, a.Has v ∨ b.Has v → (a.add b).Has v) ∧
      (a.Has (a.add b).lo ∨ b.Has (a.add b).lo) ∧ (a.Has (a.add b).hi ∨ b.Has (a.add b).hi) := by
  unfold Wf at *
  simp only [has_iff, lo_add, hi_add, Nat.min_def, Nat.max_def]
  refine ⟨by split <;> split <;> omega, fun v h => ?_, ?_, ?_⟩
  · split <;> split <;> omega
  · split <;> omega
  · split <;> omega

theorem mul_bounds {chk : Bool} {a b : Gas} (ha : a.lo ≤ a.hi) (hb : b.lo ≤ b.hi)
    (h : a.hi + b.hi < 2 ^ 64) :
    ∃ c, a.mul chk b = some c ∧ c.lo = a.lo + b.lo ∧ c.hi = a.hi + b.hi := by
  cases a <;> cases b <;> simp only [lo, hi] at ha hb h ⊢ <;> simp only [mul, add64]
  · rw [if_pos h]; exact ⟨_, rfl, rfl, rfl⟩
  · rw [if_pos (by omega), if_pos (by omega)]
    exact ⟨_, rfl, Nat.add_comm _ _, Nat.add_comm _ _⟩
  · rw [if_pos (by omega), if_pos (by omega)]
    exact ⟨_, rfl, rfl, rfl⟩
  · rw [if_pos (by omega), if_pos (by omega)]
    exact ⟨_, rfl, rfl, rfl⟩

/-- **C56, sequence**, exactly: if the highest amounts fit a `u64` together, the sequence is a
sensible value, contains the sum of any amount of the first with any amount of the second, and both
its bounds are such sums. -/
theorem C56_sequence_partial (chk : Bool) (a b : Gas) (ha : a.Wf) (hb : b.Wf)
    (hfit : a.hi + b.hi < 2 ^ 64) :
    ∃ c, a.mul chk b = some c ∧ c.Wf ∧ (∀ u v, a.Has u → b.Has v → c.Has (u + v)) ∧
      (∃ u v, a.Has u ∧ b.Has v ∧ c.lo = u + v) ∧ (∃ u v, a.Has u ∧ b.Has v ∧ c.hi = u + v) := by
  obtain ⟨c, hc, hlo, hhi⟩ := mul_bounds (chk := chk) ha.1 hb.1 hfit
  unfold Wf at *
  simp only [has_iff]
  exact ⟨c, hc, by omega, fun u v hu hv => by omega,
    ⟨a.lo, b.lo, by omega, by omega, hlo⟩, ⟨a.hi, b.hi, by omega, by omega, hhi⟩⟩

/-- With overflow checks the sequence never gives a wrong answer: it panics exactly when the
highest amounts do not fit a `u64` together. -/
theorem C56_sequence_checked (a b : Gas) (ha : a.Wf) (hb : b.Wf) :
    a.mul true b = none ↔ 2 ^ 64 ≤ a.hi + b.hi := by
  constructor
  · intro h
    by_cases hfit : a.hi + b.hi < 2 ^ 64
    · obtain ⟨c, hc, -⟩ := mul_bounds (chk := true) ha.1 hb.1 hfit
      rw [h] at hc; cases hc
    · omega
  · intro h
    rcases a with x | ⟨p, q⟩ <;> rcases b with y | ⟨r, s⟩ <;> simp only [hi] at h <;>
      simp only [mul, add64]
    · rw [if_neg (by omega)]; rfl
    · rw [if_neg (c := s + x < 2 ^ 64) (by omega)]
      by_cases h : r + x < 2 ^ 64 <;> simp [h]
    · rw [if_neg (c := q + y < 2 ^ 64) (by omega)]
      by_cases h : p + y < 2 ^ 64 <;> simp [h]
    · rw [if_neg (c := q + s < 2 ^ 64) (by omega)]
      by_cases h : p + r < 2 ^ 64 <;> simp [h]

/-- **C56** in full: in every build, alternatives and sequences are sound. -/
def C56_claim : Prop :=
  ∀ (chk : Bool) (a b c : Gas), a.Wf → b.Wf → a.mul chk b = some c →
    ∀ u v, a.Has u → b.Has v → c.Has (u + v)

/-- **C56 is false** without overflow checks: the sum wraps around. -/
theorem C56_claim_false : ¬ C56_claim := by
  intro h
  have := h false (.fixed (2 ^ 64 - 1)) (.fixed 1) (.fixed 0) (by unfold Wf; decide)
    (by unfold Wf; decide) rfl (2 ^ 64 - 1) 1 rfl rfl
  simp [Has] at this

/-- Universally: without overflow checks, the sequence of two fixed amounts that do not fit a `u64`
together is an amount smaller than either. -/
theorem C56_release_wraps (x y : Nat) (hx : x < 2 ^ 64) (hy : y < 2 ^ 64) (h : 2 ^ 64 ≤ x + y) :
    ∃ z, (Gas.fixed x).mul false (.fixed y) = some (.fixed z) ∧ z < x ∧ z < y := by
  refine ⟨(x + y) % 2 ^ 64, ?_, ?_, ?_⟩
  · simp only [mul, add64]
    rw [if_neg (by omega)]; rfl
  · omega
  · omega

/-- Non-vacuity: a branch between 3 and 7 followed by a range. -/
example : (Gas.add (.fixed 3) (.fixed 7)).mul false (.range 10 20) = some (.range 13 27) := rfl

end Svm.Gas
