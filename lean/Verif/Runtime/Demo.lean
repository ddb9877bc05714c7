import Verif.Runtime.Transfer
import Verif.Codec.Props2

/-!
# A concrete world

A deployed template and two accounts of it: used for the counterexamples and for showing that the
hypotheses of the theorems can be met.
-/

namespace Svm.Runtime

open Svm.Codec Svm.Account
open Svm.Storage (Hasher Storage)

/-- The template of the demo world. -/
abbrev demoTemplate : Addr := exampleAddr 9

/-- The template `demoSections` and accounts 1 and 2 with these balances. -/
def demoSetup (b1 b2 : U64) : Prog Unit := do
  createTemplate demoTemplate demoSections demoSections
  let _ ← create true (exampleAddr 1) ⟨[], rfl⟩ demoTemplate b1 0
  let _ ← create true (exampleAddr 2) ⟨[], rfl⟩ demoTemplate b2 0
  return ()

/-- The state after `demoSetup` on a new storage. -/
def demo (h : Hasher) (b1 b2 : U64) : Storage := after h (demoSetup b1 b2) Svm.Storage.fresh

/-- What can be read in the demo world. -/
def demoView (b1 b2 : U64) : View := ((demoSetup b1 b2).eval fun _ => none).1

theorem view_fresh (h : Hasher) : view h Svm.Storage.fresh = fun _ => none := rfl

theorem view_demo {h : Hasher} (hc : NoCollision h) (b1 b2 : U64) :
    view h (demo h b1 b2) = demoView b1 b2 := by
  unfold demo
  rw [view_after hc]
  rfl

theorem reach_demo (h : Hasher) (b1 b2 : U64) : Reach h (demo h b1 b2) :=
  .prog _ ((safe_createTemplate _ _ _).bind fun _ => (safe_create _ _ _ _ _ _).bind fun _ =>
    (safe_create _ _ _ _ _ _).bind fun _ => trivial) .fresh

/-- The layout of the demo template. -/
def demoLayout : Svm.Layout.FixedLayout :=
  { first := some 3, vars :=
      [{ id := 3, offset := 0, byteSize := 20 }, { id := 4, offset := 20, byteSize := 4 }] }

theorem demo_load1 (b1 b2 : U64) : ((load true (exampleAddr 1)).eval (demoView b1 b2)).2 =
    .ok ⟨exampleAddr 1, demoTemplate, demoLayout⟩ := rfl

theorem demo_load2 (b1 b2 : U64) : ((load true (exampleAddr 2)).eval (demoView b1 b2)).2 =
    .ok ⟨exampleAddr 2, demoTemplate, demoLayout⟩ := rfl

/-! ## C20 - C23 -/

/-- Non-vacuity of C20: a transfer that returns. -/
example : ∃ h, NoCollision h ∧ Reach h (demo h 10 5) ∧
    out h (transfer true (exampleAddr 1) (exampleAddr 2) 3) (demo h 10 5) = .ok () := by
  obtain ⟨h, hc⟩ := exists_noCollision
  refine ⟨h, hc, reach_demo h _ _, ?_⟩
  rw [out_eval hc, view_demo hc]
  rfl

/-- A memory with the addresses of accounts 1 and 2. -/
def demoMem : Bytes := List.replicate 20 1 ++ List.replicate 20 2

/-- The environment of a program that runs for account 2. -/
def demoEnv : Env :=
  { Env.new ⟨exampleAddr 2, demoTemplate, demoLayout⟩ demoTemplate (exampleAddr 2) .fullAccess with
    memorySet := true }

/-- Non-vacuity of C20 for the host call. -/
example : ∃ h, NoCollision h ∧ Reach h (demo h 10 5) ∧
    out h (host true demoEnv demoMem (.transfer 0 20 3)) (demo h 10 5) =
      .ok (.unit, demoMem, (demoEnv.touch (exampleAddr 1)).touch (exampleAddr 2)) := by
  obtain ⟨h, hc⟩ := exists_noCollision
  refine ⟨h, hc, reach_demo h _ _, ?_⟩
  rw [out_eval hc, view_demo hc]
  rfl

/-- C21 is violated. -/
theorem C21_claim_false : ¬ C21_claim := by
  intro hcl
  obtain ⟨h, hc⟩ := exists_noCollision
  have h1 := hcl h hc _ (reach_demo h 10 5) true (exampleAddr 1) (exampleAddr 1) 3 [exampleAddr 1]
    (by simp) (by simp) (by simp)
  simp only [supply, List.map_cons, List.map_nil, List.sum_cons, List.sum_nil] at h1
  rw [bal_money hc, bal_money hc, view_after hc, view_demo hc] at h1
  revert h1
  decide +kernel

/-- Non-vacuity of the universal violation of C21. -/
example : ∃ h, NoCollision h ∧
    out h (transfer true (exampleAddr 1) (exampleAddr 1) 3) (demo h 10 5) = .ok () := by
  obtain ⟨h, hc⟩ := exists_noCollision
  refine ⟨h, hc, ?_⟩
  rw [out_eval hc, view_demo hc]
  rfl

/-- C22 is violated. -/
theorem C22_claim_false : ¬ C22_claim := by
  intro hcl
  obtain ⟨h, hc⟩ := exists_noCollision
  have h0 : out h (transfer true (exampleAddr 1) (exampleAddr 2) 3)
      (demo h 10 0xFFFFFFFFFFFFFFFF) ≠ .ok () := by
    rw [out_eval hc, view_demo hc]
    decide +kernel
  have h1 := hcl h hc _ (reach_demo h 10 0xFFFFFFFFFFFFFFFF) true (exampleAddr 1) (exampleAddr 2) 3
    h0 (exampleAddr 1)
  rw [bal_money hc, bal_money hc, view_after hc, view_demo hc] at h1
  revert h1
  decide +kernel

/-- Non-vacuity of the partial theorem of C22: a transfer fails for lack of money, without overflow. -/
example : ∃ h, NoCollision h ∧
    out h (transfer true (exampleAddr 1) (exampleAddr 2) 30) (demo h 10 5) ≠ .ok () ∧
    bal h (demo h 10 5) (exampleAddr 2) = some 5 := by
  obtain ⟨h, hc⟩ := exists_noCollision
  refine ⟨h, hc, ?_, ?_⟩
  · rw [out_eval hc, view_demo hc]
    decide +kernel
  · rw [bal_money hc, view_demo hc]
    rfl

/-- C23 is violated: a program running for account 2 takes 3 coins from account 1. -/
theorem C23_claim_false : ¬ C23_claim := by
  intro hcl
  obtain ⟨h, hc⟩ := exists_noCollision
  obtain ⟨b', h1, h2⟩ := hcl h hc _ (reach_demo h 10 5) true demoEnv demoMem 0 20 3 (exampleAddr 1)
    (by decide) 10 (by rw [bal_money hc, view_demo hc]; rfl)
  rw [bal_money hc, view_after hc, view_demo hc] at h1
  have h3 : (money ((host true demoEnv demoMem (.transfer 0 20 3)).eval (demoView 10 5)).1
      (exampleAddr 1)).map AccountMut.balance = some 7 := by decide +kernel
  rw [h3] at h1
  cases h1
  revert h2
  decide

end Svm.Runtime
