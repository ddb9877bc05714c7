import Verif.Wasm.PriceFlow

/-!
# Prices of programs: specification, and properties C52 and C55

`IsPrices res p P` says that `P` has the mathematical prices of the functions of the program `p`: the
price of a function is the greatest cost of an execution of its code, where a call costs the price of
the function that is called.
-/

namespace Svm.Wasm

open Svm.Codec (Str)
open Svm.Gas (upd upd_self upd_ne add64 Acyclic)
open Svm.Gas.Graph (Cmd build topoSort trySort IsEdge IsNode Clear add64_true add64_some add64_mono)
open Relation (TransGen ReflTransGen)

/-! ## Specification -/

/-- The price of a call of an imported function. -/
def importCost (res : Resolver) (p : Program) (f : Nat) : Option Nat := p.imports[f]?.bind res.imp

/-- The cost of an instruction, when functions cost `P`. -/
def costOf (res : Resolver) (p : Program) (P : Nat → Nat) : Op → Nat
  | .call f => if f < p.imports.length then (importCost res p f).getD 0 else P f
  | o => if o.priced then res.op o else 0

/-- `x` is the greatest cost of an execution of the code. -/
def IsMaxCost (w : Op → Nat) (c : Code) (x : Nat) : Prop :=
  (∃ tr e, c.Exec tr e ∧ x = opsCost w tr) ∧ ∀ tr e, c.Exec tr e → opsCost w tr ≤ x

/-- `P` has the prices of the functions of the program. -/
def IsPrices (res : Resolver) (p : Program) (P : Nat → Nat) : Prop :=
  ∀ f c, IsBody p f c → IsMaxCost (costOf res p P) c (P f)

/-- The cost of an executed instruction; calls of functions of the program cost nothing themselves,
the instructions of the function are counted. -/
def evCost (res : Resolver) (p : Program) : Ev → Nat
  | (_, .call f) => (importCost res p f).getD 0
  | (_, o) => if o.priced then res.op o else 0

/-- The cost of the executed instructions. -/
def runCost (res : Resolver) (p : Program) (tr : List Ev) : Nat := (tr.map (evCost res p)).sum

theorem runCost_cons (res : Resolver) (p : Program) (x : Ev) (tr : List Ev) :
    runCost res p (x :: tr) = evCost res p x + runCost res p tr := by simp [runCost]

theorem runCost_append (res : Resolver) (p : Program) (a b : List Ev) :
    runCost res p (a ++ b) = runCost res p a + runCost res p b := by simp [runCost]

/-! ## Executions -/

/-- Neither loops nor indirect calls. -/
def Code.Calm (c : Code) : Prop := .loop ∉ c.flatten ∧ .callIndirect ∉ c.flatten

/-- Loop free code has an execution. -/
theorem exec_total (c : Code) (h : c.LoopFree) : ∃ tr e, c.Exec tr e := by
  have hscope : ∀ (o : Op) (b r : Code), (∃ tr e, b.Exec tr e) → (∃ tr e, r.Exec tr e) →
      ∃ tr e, scope o b.Exec r.Exec tr e := by
    rintro o b r ⟨tr₁, e₁, h₁⟩ ⟨tr₂, e₂, h₂⟩
    cases hl : e₁.leave with
    | none => exact ⟨_, e₂, tr₁, e₁, h₁, .inl ⟨hl, tr₂, h₂, rfl⟩⟩
    | some e => exact ⟨_, e, tr₁, e₁, h₁, .inr ⟨hl, rfl⟩⟩
  induction c with
  | nil => exact ⟨[], .next, rfl, rfl⟩
  | op b r ih =>
    obtain ⟨tr, e, hr⟩ := ih h
    cases b with
    | unreachable => exact ⟨_, .stop, .inl ⟨by simp [Basic.jumps], rfl⟩⟩
    | br l => exact ⟨_, .br l, .inl ⟨by simp [Basic.jumps], rfl⟩⟩
    | brIf l => exact ⟨_, .br l, .inl ⟨by simp [Basic.jumps], rfl⟩⟩
    | brTable ls l => exact ⟨_, .br l, .inl ⟨by simp [Basic.jumps], rfl⟩⟩
    | ret => exact ⟨_, .ret, .inl ⟨by simp [Basic.jumps], rfl⟩⟩
    | call | callIndirect | plain => exact ⟨_, e, .inr ⟨trivial, tr, hr, rfl⟩⟩
  | block b r ihb ihr => exact hscope _ _ _ (ihb h.1) (ihr h.2)
  | loop => exact absurd h id
  | ite t e r iht ihe ihr =>
    obtain ⟨tr, x, hx⟩ := hscope .if_ _ _ (iht h.1) (ihr h.2.2)
    exact ⟨tr, x, .inl hx⟩
  | ift t r iht ihr =>
    obtain ⟨tr, x, hx⟩ := hscope .if_ _ _ (iht h.1) (ihr h.2)
    exact ⟨tr, x, .inl hx⟩

theorem Code.Calm.op {b : Basic} {r : Code} (h : (Code.op b r).Calm) : b ≠ .callIndirect ∧ r.Calm := by
  simp only [Code.Calm, Code.flatten, List.mem_cons, not_or] at h
  refine ⟨?_, h.1.2, h.2.2⟩
  rintro rfl
  exact h.2.1 rfl

theorem Code.Calm.bodies {c : Code} (h : c.Calm) {o : Op} {b r : Code} (hm : (o, b, r) ∈ c.bodies) :
    b.Calm ∧ r.Calm := by
  cases c with
  | block b' r' =>
    simp only [Code.bodies, List.mem_singleton, Prod.mk.injEq] at hm
    obtain ⟨rfl, rfl, rfl⟩ := hm
    simp only [Code.Calm, Code.flatten, List.mem_cons, List.mem_append, not_or] at h ⊢
    exact ⟨⟨h.1.2.1, h.2.2.1⟩, h.1.2.2.2, h.2.2.2.2⟩
  | ite t e r' =>
    simp only [Code.Calm, Code.flatten, List.mem_cons, List.mem_append, not_or] at h
    simp only [Code.bodies, List.mem_cons, List.not_mem_nil, or_false, Prod.mk.injEq] at hm
    rcases hm with ⟨rfl, rfl, rfl⟩ | ⟨rfl, rfl, rfl⟩
    · exact ⟨⟨h.1.2.1, h.2.2.1⟩, h.1.2.2.2.2.2, h.2.2.2.2.2.2⟩
    · exact ⟨⟨h.1.2.2.2.1, h.2.2.2.2.1⟩, h.1.2.2.2.2.2, h.2.2.2.2.2.2⟩
  | ift t r' =>
    simp only [Code.Calm, Code.flatten, List.mem_cons, List.mem_append, not_or] at h
    simp only [Code.bodies, List.mem_cons, List.not_mem_nil, or_false, Prod.mk.injEq] at hm
    rcases hm with ⟨rfl, rfl, rfl⟩ | ⟨rfl, rfl, rfl⟩
    · exact ⟨⟨h.1.2.1, h.2.2.1⟩, h.1.2.2.2, h.2.2.2.2⟩
    · exact ⟨⟨by simp [Code.flatten], by simp [Code.flatten]⟩, h.1.2.2.2, h.2.2.2.2⟩
  | nil | op | loop => simp [Code.bodies] at hm

/-- An execution of a body and of what follows make one of the whole. -/
theorem exec_bodies {c : Code} {o : Op} {b r : Code} (hm : (o, b, r) ∈ c.bodies) {tr : List Op} {e : Exit}
    (h : scope o b.Exec r.Exec tr e) : c.Exec tr e := by
  cases c with
  | block b' r' =>
    simp only [Code.bodies, List.mem_singleton, Prod.mk.injEq] at hm
    obtain ⟨rfl, rfl, rfl⟩ := hm
    exact h
  | ite t f r' =>
    simp only [Code.bodies, List.mem_cons, List.not_mem_nil, or_false, Prod.mk.injEq] at hm
    rcases hm with ⟨rfl, rfl, rfl⟩ | ⟨rfl, rfl, rfl⟩
    · exact .inl h
    · exact .inr h
  | ift t r' =>
    simp only [Code.bodies, List.mem_cons, List.not_mem_nil, or_false, Prod.mk.injEq] at hm
    rcases hm with ⟨rfl, rfl, rfl⟩ | ⟨rfl, rfl, rfl⟩
    · exact .inl h
    · right
      obtain ⟨tr₁, e₁, ⟨rfl, rfl⟩, ⟨-, tr₂, h₂, rfl⟩ | ⟨hl, -⟩⟩ := h
      · exact ⟨tr₂, h₂, rfl⟩
      · simp [Exit.leave] at hl
  | nil | op | loop => simp [Code.bodies] at hm

theorem bodies_op {c : Code} {o : Op} {b r : Code} (hm : (o, b, r) ∈ c.bodies) :
    o = .block ∨ o = .if_ := by
  cases c <;> simp [Code.bodies] at hm
  · exact .inl hm.1
  · rcases hm with h | h
    · exact .inr h.1
    · exact .inr h.1
  · rcases hm with h | h
    · exact .inr h.1
    · exact .inr h.1

theorem calm_of_body {p : Program} (hn : NoLoops p) {f : Nat} {c : Code} (hb : IsBody p f c) : c.Calm := by
  have := hn _ ((mem_functions_iff p _).2 ⟨f, hb⟩)
  simp only [List.mem_append, not_or] at this
  exact ⟨this.1.1, this.2.1⟩

theorem body_not_import {p : Program} {f : Nat} {c : Code} (hb : IsBody p f c) : ¬ f < p.imports.length := by
  intro h
  unfold IsBody Program.getFunc at hb
  rw [if_pos h] at hb
  cases hb

theorem importCost_none {res : Resolver} {p : Program} {f : Nat} (h : ¬ f < p.imports.length) :
    importCost res p f = none := by
  unfold importCost
  rw [List.getElem?_eq_none (by omega)]
  rfl

/-- An execution across functions, as far as it got, costs at most as much as some execution of the
outermost function in which calls cost the price of the function. -/
theorem run_exec {res : Resolver} {p : Program} {P : Nat → Nat} (hn : NoLoops p) (hP : IsPrices res p P)
    {stk : List Nat} {c : Code} {tr : List Ev} {e : Exit} (h : Run p stk c tr e) : c.Calm →
    ∃ tr' e', c.Exec tr' e' ∧ runCost res p tr ≤ opsCost (costOf res p P) tr' ∧ (e ≠ .stop → e' = e) := by
  -- an instruction costs the same in both
  have hev : ∀ (stk : List Nat) (b : Basic), (∀ f, b ≠ .call f) →
      evCost res p (stk, b.toOp) = costOf res p P b.toOp := by
    intro stk b hb
    cases b with
    | call f => exact absurd rfl (hb f)
    | _ => rfl
  have hevo : ∀ (stk : List Nat) (o : Op), o = .block ∨ o = .if_ →
      evCost res p (stk, o) = costOf res p P o := by
    rintro stk o (rfl | rfl) <;> rfl
  induction h with
  | stop stk c =>
    intro hc
    obtain ⟨tr', e', hx⟩ := exec_total c (loopFree_of_flatten c hc.1)
    exact ⟨tr', e', hx, Nat.zero_le _, fun h => absurd rfl h⟩
  | nil stk => intro _; exact ⟨[], .next, ⟨rfl, rfl⟩, Nat.le_refl _, fun _ => rfl⟩
  | jump stk b r e hj =>
    intro hc
    refine ⟨[b.toOp], e, .inl ⟨hj, rfl⟩, ?_, fun _ => rfl⟩
    rw [runCost_cons, opsCost_cons, hev stk b (by rintro f rfl; simp [Basic.jumps] at hj)]
    exact Nat.le_refl _
  | fall stk b r tr e hj _ ih =>
    intro hc
    obtain ⟨tr', e', hx, hle, he⟩ := ih hc.op.2
    refine ⟨b.toOp :: tr', e', .inr ⟨?_, tr', hx, rfl⟩, ?_, he⟩
    · cases b <;> simp [Basic.jumps] at hj <;> trivial
    · rw [runCost_cons, opsCost_cons, hev stk b (by rintro f rfl; simp [Basic.jumps] at hj)]
      omega
  | callImport stk b f r tr e ht hi _ ih =>
    intro hc
    obtain ⟨hb, hr⟩ := hc.op
    obtain ⟨tr', e', hx, hle, he⟩ := ih hr
    cases b with
    | call f' =>
      have : f = f' := ht
      subst this
      refine ⟨_, e', .inr ⟨trivial, tr', hx, rfl⟩, ?_, he⟩
      rw [runCost_cons, opsCost_cons]
      have : costOf res p P (Basic.call f).toOp = evCost res p (stk, (Basic.call f).toOp) := by
        simp only [Basic.toOp, costOf, evCost, if_pos hi]
      omega
    | callIndirect => exact absurd rfl hb
    | _ => exact absurd ht id
  | callDone stk b f c' r tr₁ tr₂ e₁ e ht hc' _ he₁ _ ih₁ ih₂ =>
    intro hc
    obtain ⟨hb, hr⟩ := hc.op
    obtain ⟨tr₂', e', hx, hle, he⟩ := ih₂ hr
    obtain ⟨tr₁', e₁', hx₁, hle₁, -⟩ := ih₁ (calm_of_body hn hc')
    have hmax := (hP f c' hc').2 tr₁' e₁' hx₁
    cases b with
    | call f' =>
      have : f = f' := ht
      subst this
      refine ⟨_, e', .inr ⟨trivial, tr₂', hx, rfl⟩, ?_, he⟩
      rw [runCost_cons, runCost_append, opsCost_cons]
      simp only [Basic.toOp, costOf, evCost, if_neg (body_not_import hc'),
        importCost_none (body_not_import hc'), Option.getD_none]
      omega
    | callIndirect => exact absurd rfl hb
    | _ => exact absurd ht id
  | callStop stk b f c' r tr₁ ht hc' _ ih₁ =>
    intro hc
    obtain ⟨hb, hr⟩ := hc.op
    obtain ⟨tr₁', e₁', hx₁, hle₁, -⟩ := ih₁ (calm_of_body hn hc')
    obtain ⟨tr₂', e', hx⟩ := exec_total r (loopFree_of_flatten r hr.1)
    have hmax := (hP f c' hc').2 tr₁' e₁' hx₁
    cases b with
    | call f' =>
      have : f = f' := ht
      subst this
      refine ⟨_, e', .inr ⟨trivial, tr₂', hx, rfl⟩, ?_, fun h => absurd rfl h⟩
      rw [runCost_cons, opsCost_cons]
      simp only [Basic.toOp, costOf, evCost, if_neg (body_not_import hc'),
        importCost_none (body_not_import hc'), Option.getD_none]
      omega
    | callIndirect => exact absurd rfl hb
    | _ => exact absurd ht id
  | bodyDone stk c o b r tr₁ tr₂ e₁ e hm _ hl _ ih₁ ih₂ =>
    intro hc
    obtain ⟨hb, hr⟩ := hc.bodies hm
    obtain ⟨tr₁', e₁', hx₁, hle₁, he₁⟩ := ih₁ hb
    obtain ⟨tr₂', e₂', hx₂, hle₂, he₂⟩ := ih₂ hr
    have : e₁' = e₁ := he₁ (by rintro rfl; simp [Exit.leave] at hl)
    subst this
    refine ⟨_, e₂', exec_bodies hm ⟨tr₁', e₁', hx₁, .inl ⟨hl, tr₂', hx₂, rfl⟩⟩, ?_, he₂⟩
    rw [runCost_cons, runCost_append, opsCost_cons, opsCost_append, hevo _ _ (bodies_op hm)]
    omega
  | bodyOut stk c o b r tr₁ e₁ e hm _ hl ih₁ =>
    intro hc
    obtain ⟨hb, hr⟩ := hc.bodies hm
    obtain ⟨tr₁', e₁', hx₁, hle₁, he₁⟩ := ih₁ hb
    by_cases hs : e₁ = .stop
    · subst hs
      simp only [Exit.leave, Option.some.injEq] at hl
      subst hl
      cases hl' : e₁'.leave with
      | none =>
        obtain ⟨tr₂', e', hx⟩ := exec_total r (loopFree_of_flatten r hr.1)
        refine ⟨_, e', exec_bodies hm ⟨tr₁', e₁', hx₁, .inl ⟨hl', tr₂', hx, rfl⟩⟩, ?_, fun h => absurd rfl h⟩
        rw [runCost_cons, opsCost_cons, opsCost_append, hevo _ _ (bodies_op hm)]
        omega
      | some e' =>
        refine ⟨_, e', exec_bodies hm ⟨tr₁', e₁', hx₁, .inr ⟨hl', rfl⟩⟩, ?_, fun h => absurd rfl h⟩
        rw [runCost_cons, opsCost_cons, hevo _ _ (bodies_op hm)]
        omega
    · have := he₁ hs
      subst this
      refine ⟨_, e, exec_bodies hm ⟨tr₁', e₁', hx₁, .inr ⟨hl, rfl⟩⟩, ?_, fun _ => rfl⟩
      rw [runCost_cons, opsCost_cons, hevo _ _ (bodies_op hm)]
      omega
  | loopDone | loopAgain | loopOut => intro hc; simp [Code.Calm, Code.flatten] at hc

/-- No execution of a function costs more than its price. -/
theorem run_le_price {res : Resolver} {p : Program} {P : Nat → Nat} (hn : NoLoops p) (hP : IsPrices res p P)
    {f : Nat} {c : Code} (hb : IsBody p f c) {stk : List Nat} {tr : List Ev} {e : Exit}
    (h : Run p stk c tr e) : runCost res p tr ≤ P f := by
  obtain ⟨tr', e', hx, hle, -⟩ := run_exec hn hP h (calm_of_body hn hb)
  have := (hP f c hb).2 tr' e' hx
  omega

end Svm.Wasm
