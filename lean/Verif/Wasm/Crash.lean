import Verif.Gas.Release
import Verif.Wasm.Dead

/-!
# Property C54: which accepted programs crash the pricing
-/

namespace Svm.Wasm

open Svm.Gas (upd upd_self upd_ne add64 Acyclic)
open Svm.Gas.Graph (Clear maxPath weighted maxPath_mono maxPath_release_iff)

variable {res : Resolver} {p : Program}

/-! ## One function -/

/-- Pricing succeeds in no build unless all calls have prices and the last block is visited. -/
theorem flowPrice_clear {chk : Bool} {prices : Nat → Option Nat} {g : Flow} (hg : g.Wf) {x : Nat}
    (h : flowPrice chk res p prices g = some x) :
    (∀ b, b ≤ g.num → ∀ o ∈ g.ops b, (opPrice res p prices o).isSome) ∧
      Clear (fun a b => (a, b) ∈ g.edges) 0 g.num := by
  have hd : ∀ b, b ≤ g.num → ∀ o ∈ g.ops b, (opPrice res p prices o).isSome := by
    by_contra hd
    rw [flowPrice_undefined chk hd] at h
    cases h
  refine ⟨hd, ?_⟩
  unfold flowPrice at h
  simp only at h
  split at h
  · obtain ⟨G, h1, h2, h3, h4, h5, h6⟩ := flow_weighted hg
      fun b => if b ≤ g.num then (blockPrice chk res p prices (g.ops b)).getD 0 else 0
    rw [h1] at h
    change (maxPath chk _ 0 g.num).bind _ = some x at h
    cases hm : maxPath chk (weighted G fun b => if b ≤ g.num then
        (blockPrice chk res p prices (g.ops b)).getD 0 else 0) 0 g.num with
    | none => rw [hm] at h; cases h
    | some r =>
      have hf : maxPath false (weighted G fun b => if b ≤ g.num then
          (blockPrice chk res p prices (g.ops b)).getD 0 else 0) 0 g.num = some r := by
        cases chk with
        | false => exact hm
        | true => exact maxPath_mono false hm
      have := (maxPath_release_iff h2 h4 h5 h6 g.num).1 ⟨r, hf⟩
      rw [h3] at this
      exact this
  · cases h

/-- Without overflow checks it then succeeds, whatever the prices are. -/
theorem flowPrice_release {prices : Nat → Option Nat} {g : Flow} (hg : g.Wf) (hp : g.AllPriced)
    (hd : ∀ b, b ≤ g.num → ∀ o ∈ g.ops b, (opPrice res p prices o).isSome)
    (hc : Clear (fun a b => (a, b) ∈ g.edges) 0 g.num) : ∃ x, flowPrice false res p prices g = some x := by
  have hall : (List.range (g.num + 1)).all fun b => (blockPrice false res p prices (g.ops b)).isSome := by
    rw [List.all_eq_true]
    intro b hbr
    have hbn : b ≤ g.num := by have := List.mem_range.1 hbr; omega
    exact (foldPrice_some false (g.ops b) (hp b) (hd b hbn) 0).2 rfl
  obtain ⟨G, h1, h2, h3, h4, h5, h6⟩ := flow_weighted hg
    fun b => if b ≤ g.num then (blockPrice false res p prices (g.ops b)).getD 0 else 0
  rw [← h3] at hc
  obtain ⟨r, hr⟩ := (maxPath_release_iff h2 h4 h5 h6 g.num).2 hc
  refine ⟨r.2, ?_⟩
  unfold flowPrice
  simp only
  rw [if_pos hall, h1]
  change (maxPath false _ 0 g.num).bind _ = _
  rw [hr]
  rfl

/-- A function has a price only when it can be priced. -/
theorem funcPrice_priced {chk : Bool} {prices : Nat → Option Nat} {f : Nat} {c : Code} (hb : IsBody p f c)
    (hl : c.LoopFree) {x : Nat} (h : funcPrice chk res p prices f = some x) : c.Priced res p := by
  obtain ⟨f1, f2⟩ := funcPrice_body (res := res) chk prices hb hl
  by_cases hv : c.Valid 1
  · rw [f1 hv] at h
    obtain ⟨h1, h2⟩ := flowPrice_clear (cfg_wf c) h
    refine ⟨hv, h2, fun g hg hi => ?_⟩
    obtain ⟨b, hb', ho⟩ := cfg_all c hl _ hg rfl
    have := (opPrice_isSome _).1 (h1 b hb' _ ho) g rfl
    rw [if_pos hi] at this
    exact this
  · rw [f2 hv] at h
    cases h

theorem funcPrice_release {prices : Nat → Option Nat} {f : Nat} {c : Code} (hb : IsBody p f c)
    (hl : c.LoopFree) (hc : ∀ g, Calls p f g → (prices g).isSome) (h : c.Priced res p) :
    ∃ x, funcPrice false res p prices f = some x := by
  rw [(funcPrice_body (res := res) false prices hb hl).1 h.1]
  refine flowPrice_release (cfg_wf c) (cfg_priced c) (fun b _ o ho => ?_) h.2.1
  rw [opPrice_isSome]
  rintro g rfl
  have hg := (cfg_within (fun _ => 0) c b).2 _ ho
  split
  · rename_i hi
    exact h.2.2 g hg hi
  · rename_i hi
    exact hc g (call_mem_calls hb hg hi)

/-! ## Programs -/

/-- All functions of the program can be priced. -/
def Priceable (res : Resolver) (p : Program) : Prop :=
  CallsDefined p ∧ ∀ f c, IsBody p f c → c.Valid 1 ∧ c.Priceable True ∧
    ∀ g, .call g ∈ c.flatten → g < p.imports.length → (importCost res p g).isSome

theorem priceable_iff (hn : NoLoops p) :
    Priceable res p ↔ CallsDefined p ∧ ∀ f c, IsBody p f c → c.Priced res p := by
  refine and_congr Iff.rfl (forall_congr' fun f => forall_congr' fun c => imp_congr_right fun hb => ?_)
  unfold Code.Priced
  refine and_congr_right fun hv => and_congr_left' ?_
  exact (clear_iff (loopFree_of_flatten c (calm_of_body hn hb).1) hv).symm

/-- "Price computation terminates without panic on every program that passed validation." The program
is made of structured code with branches to existing labels and calls of existing functions. -/
def C54_claim (chk : Bool) : Prop :=
  ∀ (rc : Bool) (p : Program), validateWasm chk rc p = .ok () → Structured p → CallsDefined p →
    (∀ f c, IsBody p f c → c.Valid 1) → (priceProgram chk v0 p).isSome

/-- In every build, programs that cannot be priced crash. -/
theorem C54_crashes {chk rc : Bool} (hv : validateWasm chk rc p = .ok ()) (hp : ¬ Priceable res p) :
    priceProgram chk res p = none := by
  obtain ⟨hn, ha⟩ := C48_sound chk rc p hv
  cases h : priceProgram chk res p with
  | none => rfl
  | some prices =>
    refine absurd ((priceable_iff hn).2 ⟨priced_defined ha h, fun f c hb => ?_⟩) hp
    obtain ⟨h1, h2⟩ := price_fix ha h
    obtain ⟨x, hx⟩ := Option.isSome_iff_exists.1 ((h1 f).2 (.inl ⟨_, hb⟩))
    exact funcPrice_priced hb (loopFree_of_flatten c (calm_of_body hn hb).1) (h2 f x hx)

/-- In release builds all others get prices. -/
theorem C54_release_iff {rc : Bool} (hv : validateWasm false rc p = .ok ()) (hs : Structured p) :
    (priceProgram false res p).isSome ↔ Priceable res p := by
  constructor
  · intro h
    by_contra hp
    rw [C54_crashes hv hp] at h
    cases h
  · intro hp
    obtain ⟨hn, ha⟩ := C48_sound false rc p hv
    obtain ⟨hd, hb⟩ := (priceable_iff hn).1 hp
    obtain ⟨l, hc, hm, he⟩ := price_order false res ha
    rw [he]
    have hl : ∀ f ∈ l, ∃ c, IsBody p f c ∧ c.Priced res p := by
      intro f hf
      have : ∃ ops, p.getFunc f = some ops := by
        rcases (hm f).1 hf with h | ⟨b, h⟩
        · exact h
        · exact hd _ _ h
      obtain ⟨ops, ho⟩ := this
      obtain ⟨c, hbc⟩ := hs f ops ho
      exact ⟨c, hbc, hb f c hbc⟩
    have key : ∀ (l d : List Nat) (prices : Nat → Option Nat), Callees p d l →
        (∀ f ∈ d, (prices f).isSome) → (∀ f ∈ l, ∃ c, IsBody p f c ∧ c.Priced res p) →
        (l.foldlM (setPrice false res p) prices).isSome := by
      intro l
      induction l with
      | nil => intro d prices _ _ _; rfl
      | cons f l ih =>
        rintro d prices ⟨h1, h2, h3⟩ hd hl
        obtain ⟨c, hbc, hpr⟩ := hl f List.mem_cons_self
        obtain ⟨x, hx⟩ := funcPrice_release (prices := prices) hbc
          (loopFree_of_flatten c (calm_of_body hn hbc).1) (fun g hg => hd g (h1 g hg)) hpr
        have hset : setPrice false res p prices f = some (upd prices f (some x)) := by
          unfold setPrice
          rw [hx]
          rfl
        rw [List.foldlM_cons, hset]
        refine ih (f :: d) (upd prices f (some x)) h3 (fun g hg => ?_) fun g hg => hl g (List.mem_cons_of_mem _ hg)
        by_cases hgf : g = f
        · subst hgf
          rw [upd_self]
          rfl
        · rw [upd_ne _ _ hgf]
          exact hd g ((List.mem_cons.1 hg).resolve_left hgf)
    exact key l [] _ hc (fun f hf => nomatch hf) hl

/-- In builds with overflow checks too, when the numbers fit: what is missing for the claim is that
code after a branch may crash the pricing. -/
theorem C54_succeeds_partial {chk rc : Bool} (hv : validateWasm chk rc p = .ok ()) (hs : Structured p)
    {P : Nat → Nat} (hP : IsPrices res p P) (hp : Priceable res p)
    (hfit : chk = true → ∀ f c, IsBody p f c → P f < 2 ^ 64 ∧ opsCost (costOf res p P) c.flatten < 2 ^ 64) :
    (priceProgram chk res p).isSome := by
  cases chk with
  | false => exact (C54_release_iff hv hs).2 hp
  | true =>
    obtain ⟨hn, ha⟩ := C48_sound true rc p hv
    obtain ⟨prices, h, -⟩ := (price_spec true hn ha hs hP (fun f c hb => (hfit rfl f c hb).1)
      fun _ f c hb => (hfit rfl f c hb).2).1 ((priceable_iff hn).1 hp)
    rw [h]
    rfl

/-! ## Programs that crash -/

/-- A program with one function. -/
def single (c : Code) : Program := ⟨[], [], [c.flatten ++ [.end_]]⟩

theorem single_body {c c' : Code} {f : Nat} (h : IsBody (single c) f c') : f = 0 ∧ c' = c := by
  have h0 : IsBody (single c) 0 c := rfl
  cases f with
  | zero => exact ⟨rfl, body_unique h h0⟩
  | succ f => exact absurd h (by simp [IsBody, Program.getFunc, single])

theorem single_structured (c : Code) : Structured (single c) := by
  intro f ops h
  cases f with
  | zero => exact ⟨c, rfl⟩
  | succ f => exact absurd h (by simp [Program.getFunc, single])

/-- Both arms of the conditional return, so the code after it is never reached. -/
def bothReturn : Code := .ite (.op .ret .nil) (.op .ret .nil) .nil

theorem C54_claim_false (chk : Bool) : ¬ C54_claim chk := by
  intro h
  have := h false (single bothReturn) (by cases chk <;> rfl) (single_structured _) (by
      intro a b hab
      obtain ⟨ops, h1, h2, -⟩ := hab
      cases a with
      | zero =>
        cases h1
        revert h2
        simp [bothReturn, Code.flatten, Basic.toOp]
      | succ a => exact absurd h1 (by simp [Program.getFunc, single])) (by
      intro f c hb
      obtain ⟨-, rfl⟩ := single_body hb
      simp [bothReturn, Code.Valid])
  cases chk with
  | false => exact absurd this (by decide +kernel)
  | true => exact absurd this (by decide +kernel)

/-- More programs that crash: a conditional branch after a return; a conditional after a branch; a block
with a branch to its end, the rest of which does not reach it. -/
example : (priceProgram false v0 (single (.op .ret (.op (.brIf 0) .nil)))).isNone ∧
    (priceProgram false v0 (single (.block (.op (.br 0) (.ift .nil .nil)) .nil))).isNone ∧
    (priceProgram false v0 (single (.block (.op (.brIf 1) (.op .unreachable (.op (.br 0) .nil))) .nil))).isNone :=
  ⟨by decide +kernel, by decide +kernel, by decide +kernel⟩

/-- And one with dead code that does not. -/
def deadCode : Code := .block (.op (.brIf 0) (.op .ret (.op (.plain .nop) .nil))) (.op (.plain .nop) .nil)

example : deadCode.Priceable True ∧ (priceProgram true v0 (single deadCode)).isSome ∧
    validateWasm true false (single deadCode) = .ok () := by
  refine ⟨?_, by decide +kernel, rfl⟩
  refine ⟨⟨trivial, trivial⟩, fun _ => ⟨trivial, ?_⟩, trivial⟩
  exact ⟨[.brIf 0], .br 0, .inl ⟨by simp [Basic.jumps], rfl⟩, rfl⟩

end Svm.Wasm
