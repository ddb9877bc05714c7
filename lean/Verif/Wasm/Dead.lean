import Verif.Wasm.PriceProps

/-!
# Property C54: when pricing crashes

`Code.Priceable` says in terms of the code, not of its control flow graph, which functions can be
priced: code that is never reached must not have conditional branches or conditionals, and the end
of a block or conditional with a branch to it must be reached.
-/

namespace Svm.Wasm

open Svm.Gas (upd upd_self upd_ne Acyclic)
open Svm.Gas.Graph (Clear)
open Relation (TransGen ReflTransGen)

/-! ## Specification -/

/-- Somewhere in the code there is a branch to label `n` outside of it. -/
def Code.Targets : Code → Nat → Prop
  | .nil, _ => False
  | .op b r, n =>
    (match b with
      | .br l | .brIf l => l = n
      | .brTable ls l => n ∈ l :: ls
      | _ => False) ∨ r.Targets n
  | .block b r, n => b.Targets (n + 1) ∨ r.Targets n
  | .loop b r, n => b.Targets (n + 1) ∨ r.Targets n
  | .ite t e r, n => t.Targets (n + 1) ∨ e.Targets (n + 1) ∨ r.Targets n
  | .ift t r, n => t.Targets (n + 1) ∨ r.Targets n

/-- Some execution of the body goes on after it. -/
def Code.Reaches (c : Code) : Prop := ∃ tr e, c.Exec tr e ∧ e.leave = none

/-- Code can be priced; `live`: its begin is reached. -/
def Code.Priceable : Code → Prop → Prop
  | .nil, _ => True
  | .op b r, live =>
    match b with
    | .ret | .unreachable | .br _ | .brTable _ _ => r.Priceable False
    | .brIf _ => live ∧ r.Priceable live
    | _ => r.Priceable live
  | .block b r, live =>
    b.Priceable live ∧ (b.Targets 0 → live ∧ b.Reaches) ∧ r.Priceable (live ∧ b.Reaches)
  | .loop _ _, _ => False
  | .ite t e r, live =>
    live ∧ t.Priceable True ∧ e.Priceable True ∧ (t.Reaches ∨ e.Reaches) ∧ r.Priceable True
  | .ift t r, live => live ∧ t.Priceable True ∧ r.Priceable True

theorem priceable_congr (c : Code) {a b : Prop} (h : a ↔ b) : c.Priceable a ↔ c.Priceable b := by
  rw [propext h]

/-! ## Reachable blocks -/

/-- The cost of the instructions does not matter here. -/
abbrev free : Op → Nat := fun _ => 0

theorem opsCost_free (l : List Op) : opsCost free l = 0 := by
  induction l with
  | nil => rfl
  | cons a l ih => rw [opsCost_cons, ih]

/-- The block can be reached. -/
def Flow.Live (g : Flow) (b : Nat) : Prop := g.Total free b 0

theorem Flow.total_free {g : Flow} {b K : Nat} : g.Total free b K ↔ g.Live b ∧ K = 0 := by
  have hr : ∀ {b k : Nat}, g.Reach free b k → k = 0 := by
    intro b k h
    induction h with
    | start => rfl
    | edge _ _ ih => rw [ih, opsCost_free]
  constructor
  · rintro ⟨k, hk, rfl⟩
    have h0 := hr hk
    subst h0
    refine ⟨⟨0, hk, by rw [opsCost_free]⟩, by rw [opsCost_free]⟩
  · rintro ⟨h, rfl⟩
    exact h

theorem Flow.live_start (g : Flow) : g.Live 0 := ⟨0, .start, by rw [opsCost_free]⟩

theorem Flow.live_iff {g : Flow} {b : Nat} : g.Live b ↔ ReflTransGen (fun a b => (a, b) ∈ g.edges) 0 b := by
  constructor
  · rintro ⟨k, hk, -⟩
    induction hk with
    | start => exact .refl
    | edge _ he ih => exact .tail ih he
  · intro h
    induction h with
    | refl => exact g.live_start
    | tail _ he ih =>
      obtain ⟨k, hk, -⟩ := ih
      exact (Flow.total_free.1 ⟨_, .edge hk he, rfl⟩).1

/-- Some execution of the code ends as `e`. -/
def Code.Ends (c : Code) (e : Exit) : Prop := ∃ tr, c.Exec tr e

theorem cost_free (c : Code) (e : Exit) (K : Nat) : c.Cost free e K ↔ c.Ends e ∧ K = 0 := by
  rw [cost_iff]
  constructor
  · rintro ⟨tr, h, rfl⟩
    exact ⟨⟨tr, h⟩, opsCost_free _⟩
  · rintro ⟨⟨tr, h⟩, rfl⟩
    exact ⟨tr, h, (opsCost_free _).symm⟩

theorem live_next {c : Code} {d : Nat} {g : Flow} (hd : 0 < d) (hv : c.Valid d) (hg : g.Wf) :
    (c.gen d g).1.Live (c.gen d g).1.num ↔ g.Live g.num ∧ c.Ends .next := by
  have := (gen_sim free (fun _ _ => rfl) c d g hd hv hg).next 0
  simp only [Flow.total_free, cost_free] at this
  rw [and_true] at this
  rw [this]
  constructor
  · rintro ⟨k, k', ⟨h1, -⟩, ⟨h2, -⟩, -⟩
    exact ⟨h1, h2⟩
  · rintro ⟨h1, h2⟩
    exact ⟨0, 0, ⟨h1, rfl⟩, ⟨h2, rfl⟩, rfl⟩

theorem live_jump {c : Code} {d : Nat} {g : Flow} (hd : 0 < d) (hv : c.Valid d) (hg : g.Wf) (dd : Nat) :
    (∃ o, (dd, o) ∈ (c.gen d g).2 ∧ (c.gen d g).1.Live o) ↔ g.Live g.num ∧ ∃ e, c.Ends e ∧ e.Goes d dd := by
  have := (gen_sim free (fun _ _ => rfl) c d g hd hv hg).jump dd 0
  simp only [Flow.total_free, cost_free] at this
  constructor
  · rintro ⟨o, h1, h2⟩
    obtain ⟨k, k', e, ⟨h3, -⟩, ⟨h4, -⟩, h5, -⟩ := this.1 ⟨o, h1, h2, trivial⟩
    exact ⟨h3, e, h4, h5⟩
  · rintro ⟨h1, e, h2, h3⟩
    obtain ⟨o, h4, h5, -⟩ := this.2 ⟨0, 0, e, ⟨h1, rfl⟩, ⟨h2, rfl⟩, h3, rfl⟩
    exact ⟨o, h4, h5⟩

/-- The jumps found in the code. -/
theorem gen_targets (c : Code) : ∀ (d : Nat) (g : Flow), 0 < d → c.Valid d → ∀ dd, 0 < dd →
    ((∃ o, (dd, o) ∈ (c.gen d g).2) ↔ ∃ n, c.Targets n ∧ dd + n + 1 = d) := by
  induction c with
  | nil => intro d g _ _ dd _; simp [Code.gen, Code.Targets]
  | op b r ih =>
    rintro d g hd ⟨hb, hv⟩ dd hdd
    cases b with
    | ret | unreachable =>
      simp only [Code.gen, Code.Targets, mem_cons_pair, false_or]
      rw [← ih d (g.merge []) hd hv dd hdd]
      constructor
      · rintro ⟨o, ⟨h, -⟩ | h⟩
        · omega
        · exact ⟨o, h⟩
      · rintro ⟨o, h⟩; exact ⟨o, .inr h⟩
    | br l =>
      simp only [Code.gen, Code.Targets, mem_cons_pair]
      have hi := ih d (g.merge []) hd hv dd hdd
      simp only at hb
      constructor
      · rintro ⟨o, ⟨h, -⟩ | h⟩
        · exact ⟨l, .inl rfl, by omega⟩
        · obtain ⟨n, h1, h2⟩ := hi.1 ⟨o, h⟩
          exact ⟨n, .inr h1, h2⟩
      · rintro ⟨n, rfl | h, h2⟩
        · exact ⟨g.num, .inl ⟨by omega, rfl⟩⟩
        · obtain ⟨o, ho⟩ := hi.2 ⟨n, h, h2⟩
          exact ⟨o, .inr ho⟩
    | brIf l =>
      simp only [Code.gen, Code.Targets, mem_cons_pair]
      have hi := ih d (g.merge [g.num]) hd hv dd hdd
      simp only at hb
      constructor
      · rintro ⟨o, ⟨h, -⟩ | h⟩
        · exact ⟨l, .inl rfl, by omega⟩
        · obtain ⟨n, h1, h2⟩ := hi.1 ⟨o, h⟩
          exact ⟨n, .inr h1, h2⟩
      · rintro ⟨n, rfl | h, h2⟩
        · exact ⟨g.num, .inl ⟨by omega, rfl⟩⟩
        · obtain ⟨o, ho⟩ := hi.2 ⟨n, h, h2⟩
          exact ⟨o, .inr ho⟩
    | brTable ls l =>
      simp only [Code.gen, Code.Targets, List.mem_append, List.mem_map, Prod.mk.injEq]
      have hi := ih d (g.merge []) hd hv dd hdd
      simp only at hb
      constructor
      · rintro ⟨o, ⟨n, h, h', -⟩ | h⟩
        · have := hb n h
          exact ⟨n, .inl h, by omega⟩
        · obtain ⟨n, h1, h2⟩ := hi.1 ⟨o, h⟩
          exact ⟨n, .inr h1, h2⟩
      · rintro ⟨n, h | h, h2⟩
        · exact ⟨g.num, .inl ⟨n, h, by omega, rfl⟩⟩
        · obtain ⟨o, ho⟩ := hi.2 ⟨n, h, h2⟩
          exact ⟨o, .inr ho⟩
    | call | callIndirect | plain =>
      simp only [Code.gen, Code.Targets, false_or]
      exact ih d _ hd hv dd hdd
  | block b r ihb ihr =>
    rintro d g hd ⟨hb, hv⟩ dd hdd
    simp only [Code.gen, Code.Targets, List.mem_append, mem_others]
    have h1 := ihb (d + 1) (g.append .block) (by omega) hb dd hdd
    have h2 := ihr d ((b.gen (d + 1) (g.append .block)).1.close (origins (b.gen (d + 1) (g.append .block)).2 d))
      hd hv dd hdd
    constructor
    · rintro ⟨o, ⟨h, h'⟩ | h⟩
      · obtain ⟨n, a, b⟩ := h1.1 ⟨o, h⟩
        simp only [ne_eq] at h'
        obtain ⟨m, rfl⟩ : ∃ m, n = m + 1 := ⟨n - 1, by omega⟩
        exact ⟨m, .inl a, by omega⟩
      · obtain ⟨n, a, b⟩ := h2.1 ⟨o, h⟩
        exact ⟨n, .inr a, b⟩
    · rintro ⟨n, h | h, h'⟩
      · obtain ⟨o, ho⟩ := h1.2 ⟨n + 1, h, by omega⟩
        exact ⟨o, .inl ⟨ho, by simp only [ne_eq]; omega⟩⟩
      · obtain ⟨o, ho⟩ := h2.2 ⟨n, h, h'⟩
        exact ⟨o, .inr ho⟩
  | loop => intro d g _ hv; exact absurd hv id
  | ite t e r iht ihe ihr =>
    rintro d g hd ⟨ht, he, hv⟩ dd hdd
    simp only [Code.gen, Code.Targets, List.mem_append, mem_others]
    have h1 := iht (d + 1) (g.merge [g.num]) (by omega) ht dd hdd
    generalize t.gen (d + 1) (g.merge [g.num]) = x at *
    have h3 := ihe (d + 1) (x.1.merge [g.num]) (by omega) he dd hdd
    generalize e.gen (d + 1) (x.1.merge [g.num]) = y at *
    have h2 := ihr d (y.1.merge (y.1.num :: x.1.num :: (origins x.2 d ++ origins y.2 d))) hd hv dd hdd
    constructor
    · rintro ⟨o, (⟨h, h'⟩ | ⟨h, h'⟩) | h⟩
      · obtain ⟨n, a, b⟩ := h1.1 ⟨o, h⟩
        simp only [ne_eq] at h'
        obtain ⟨m, rfl⟩ : ∃ m, n = m + 1 := ⟨n - 1, by omega⟩
        exact ⟨m, .inl a, by omega⟩
      · obtain ⟨n, a, b⟩ := h3.1 ⟨o, h⟩
        simp only [ne_eq] at h'
        obtain ⟨m, rfl⟩ : ∃ m, n = m + 1 := ⟨n - 1, by omega⟩
        exact ⟨m, .inr (.inl a), by omega⟩
      · obtain ⟨n, a, b⟩ := h2.1 ⟨o, h⟩
        exact ⟨n, .inr (.inr a), b⟩
    · rintro ⟨n, h | h | h, h'⟩
      · obtain ⟨o, ho⟩ := h1.2 ⟨n + 1, h, by omega⟩
        exact ⟨o, .inl (.inl ⟨ho, by simp only [ne_eq]; omega⟩)⟩
      · obtain ⟨o, ho⟩ := h3.2 ⟨n + 1, h, by omega⟩
        exact ⟨o, .inl (.inr ⟨ho, by simp only [ne_eq]; omega⟩)⟩
      · obtain ⟨o, ho⟩ := h2.2 ⟨n, h, h'⟩
        exact ⟨o, .inr ho⟩
  | ift t r iht ihr =>
    rintro d g hd ⟨ht, hv⟩ dd hdd
    simp only [Code.gen, Code.Targets, List.mem_append, mem_others]
    have h1 := iht (d + 1) (g.merge [g.num]) (by omega) ht dd hdd
    generalize t.gen (d + 1) (g.merge [g.num]) = x at *
    have h2 := ihr d (x.1.merge (x.1.num :: g.num :: origins x.2 d)) hd hv dd hdd
    constructor
    · rintro ⟨o, ⟨h, h'⟩ | h⟩
      · obtain ⟨n, a, b⟩ := h1.1 ⟨o, h⟩
        simp only [ne_eq] at h'
        obtain ⟨m, rfl⟩ : ∃ m, n = m + 1 := ⟨n - 1, by omega⟩
        exact ⟨m, .inl a, by omega⟩
      · obtain ⟨n, a, b⟩ := h2.1 ⟨o, h⟩
        exact ⟨n, .inr a, b⟩
    · rintro ⟨n, h | h, h'⟩
      · obtain ⟨o, ho⟩ := h1.2 ⟨n + 1, h, by omega⟩
        exact ⟨o, .inl ⟨ho, by simp only [ne_eq]; omega⟩⟩
      · obtain ⟨o, ho⟩ := h2.2 ⟨n, h, h'⟩
        exact ⟨o, .inr ho⟩

/-! ## Graphs all of whose blocks with an edge to them are reached -/

/-- Every block with an edge to it can be reached. -/
def Flow.Good (g : Flow) : Prop := ∀ e ∈ g.edges, g.Live e.2

theorem Flow.good_append {g : Flow} (o : Op) : (g.append o).Good ↔ g.Good := by
  unfold Flow.Good
  simp only [Flow.live_iff]
  rfl

theorem Flow.live_append {g : Flow} (o : Op) (b : Nat) : (g.append o).Live b ↔ g.Live b := by
  simp only [Flow.live_iff]
  rfl

theorem Flow.live_merge {g : Flow} (hg : g.Wf) {os : List Nat} (ho : ∀ o ∈ os, o ≤ g.num) :
    (g.merge os).Live (g.merge os).num ↔ ∃ o ∈ os, g.Live o := Flow.total_merge hg ho 0

theorem Flow.live_merge_old {g : Flow} (hg : g.Wf) {os : List Nat} (ho : ∀ o ∈ os, o ≤ g.num) {b : Nat}
    (hb : b ≤ g.num) : (g.merge os).Live b ↔ g.Live b := Flow.total_merge_old hg ho hb 0

theorem Flow.good_merge {g : Flow} (hg : g.Wf) {os : List Nat} (ho : ∀ o ∈ os, o ≤ g.num) :
    (g.merge os).Good ↔ g.Good ∧ (os ≠ [] → ∃ o ∈ os, g.Live o) := by
  have hnew := Flow.live_merge hg ho
  constructor
  · intro h
    refine ⟨fun e he => ?_, fun hne => ?_⟩
    · have := h e (List.mem_append_left _ he)
      rwa [Flow.live_merge_old hg ho (hg e he).2] at this
    · obtain ⟨o, os', rfl⟩ := List.exists_cons_of_ne_nil hne
      have := h (o, g.num + 1) (List.mem_append_right _ (List.mem_map.2 ⟨o, List.mem_cons_self, rfl⟩))
      exact hnew.1 this
  · rintro ⟨h1, h2⟩ e he
    rcases List.mem_append.1 he with he | he
    · rw [Flow.live_merge_old hg ho (hg e he).2]
      exact h1 e he
    · obtain ⟨o, hoo, rfl⟩ := List.mem_map.1 he
      exact hnew.2 (h2 (List.ne_nil_of_mem hoo))

theorem Flow.good_close {g : Flow} (hg : g.Wf) {os : List Nat} (ho : ∀ o ∈ os, o ≤ g.num) :
    (g.close os).Good ↔ g.Good ∧ (os ≠ [] → g.Live g.num ∨ ∃ o ∈ os, g.Live o) := by
  unfold Flow.close
  cases os with
  | nil => simp
  | cons o os =>
    simp only [List.isEmpty_cons, Bool.false_eq_true, if_false]
    rw [Flow.good_merge hg (by
      intro x hx
      rcases List.mem_cons.1 hx with rfl | hx
      · exact Nat.le_refl _
      · exact ho x hx)]
    simp

theorem Flow.live_close {g : Flow} (hg : g.Wf) {os : List Nat} (ho : ∀ o ∈ os, o ≤ g.num) :
    (g.close os).Live (g.close os).num ↔ g.Live g.num ∨ ∃ o ∈ os, g.Live o := Flow.total_close hg ho 0

theorem live_frame {g g' : Flow} (hw : g'.Wf) (h : g.Ext g') {b : Nat} (hb : b ≤ g.num) :
    g'.Live b ↔ g.Live b := by
  unfold Flow.Live Flow.Total
  simp only [Flow.reach_frame hw h hb, opsCost_free]

theorem reaches_iff {c : Code} {d : Nat} (hd : 0 < d) :
    c.Reaches ↔ c.Ends .next ∨ ∃ e, c.Ends e ∧ e.Goes (d + 1) d := by
  constructor
  · rintro ⟨tr, e, h1, h2⟩
    rcases (goes_inner hd e).1.1 h2 with rfl | h
    · exact .inl ⟨tr, h1⟩
    · exact .inr ⟨e, ⟨tr, h1⟩, h⟩
  · rintro (⟨tr, h⟩ | ⟨e, ⟨tr, h⟩, h'⟩)
    · exact ⟨tr, .next, h, rfl⟩
    · exact ⟨tr, e, h, (goes_inner hd e).1.2 (.inr h')⟩

theorem or_aux₁ {a n m k l : Prop} : (a ∧ n ∨ a ∧ m ∨ a ∧ k ∨ a ∧ l) ↔ a ∧ ((m ∨ k) ∨ n ∨ l) := by tauto

theorem or_aux₂ {a n k : Prop} : (a ∧ n ∨ a ∨ a ∧ k) ↔ a := by tauto

theorem gen_good (c : Code) : ∀ (d : Nat) (g : Flow), 0 < d → c.Valid d → g.Wf →
    ((c.gen d g).1.Good ↔ g.Good ∧ c.Priceable (g.Live g.num)) := by
  induction c with
  | nil => intro d g _ _ _; simp [Code.gen, Code.Priceable]
  | op b r ih =>
    rintro d g hd ⟨-, hv⟩ hg
    have hdead : (r.gen d (g.merge [])).1.Good ↔ g.Good ∧ r.Priceable False := by
      rw [ih d _ hd hv (Flow.wf_merge hg (by simp)), Flow.good_merge hg (by simp)]
      rw [priceable_congr r (b := False) (by rw [Flow.live_merge hg (by simp)]; simp)]
      simp
    cases b with
    | ret | unreachable | br | brTable => exact hdead
    | brIf l =>
      simp only [Code.gen, Code.Priceable]
      rw [ih d _ hd hv (Flow.wf_merge hg (by simp)), Flow.good_merge hg (by simp)]
      rw [priceable_congr r (b := g.Live g.num) (by rw [Flow.live_merge hg (by simp)]; simp)]
      simp
      tauto
    | call | callIndirect | plain =>
      simp only [Code.gen, Code.Priceable]
      rw [ih d _ hd hv (Flow.wf_append hg _), Flow.good_append]
      exact and_congr_right fun _ => priceable_congr r (Flow.live_append _ _)
  | block b r ihb ihr =>
    rintro d g hd ⟨hvb, hvr⟩ hg
    have hga := Flow.wf_append hg .block
    have i1 := ihb (d + 1) _ (by omega) hvb hga
    have ln := live_next (d := d + 1) (by omega) hvb hga
    have lj := live_jump (d := d + 1) (by omega) hvb hga d
    have tg := gen_targets b (d + 1) (g.append .block) (by omega) hvb d hd
    obtain ⟨e1, e2, e3⟩ := gen_ext b (d + 1) _ hga
    have hlive : (g.append .block).Live (g.append .block).num ↔ g.Live g.num := Flow.live_append _ _
    rw [Flow.good_append, priceable_congr b hlive] at i1
    rw [hlive] at ln lj
    simp only [Code.gen, Code.Priceable]
    generalize b.gen (d + 1) (g.append .block) = x at *
    have ho : ∀ o ∈ origins x.2 d, o ≤ x.1.num := fun o ho => Nat.le_of_lt (e3 _ (mem_origins.1 ho)).2
    simp only [← mem_origins] at lj tg
    have hne : origins x.2 d ≠ [] ↔ b.Targets 0 := by
      have : origins x.2 d ≠ [] ↔ ∃ o, o ∈ origins x.2 d := by
        cases origins x.2 d with
        | nil => simp
        | cons a l => exact ⟨fun _ => ⟨a, List.mem_cons_self⟩, fun _ => by simp⟩
      rw [this, tg]
      constructor
      · rintro ⟨n, h1, h2⟩
        obtain rfl : n = 0 := by omega
        exact h1
      · intro h
        exact ⟨0, h, by omega⟩
    have hor : (x.1.Live x.1.num ∨ ∃ o ∈ origins x.2 d, x.1.Live o) ↔ g.Live g.num ∧ b.Reaches := by
      rw [ln, lj, reaches_iff hd, and_or_left]
    rw [ihr d _ hd hvr (Flow.wf_close e1 ho), Flow.good_close e1 ho, priceable_congr r (Flow.live_close e1 ho),
      hor, i1, hne]
    simp only [and_assoc]
  | loop => intro d g _ hv; exact absurd hv id
  | ite t e r iht ihe ihr =>
    rintro d g hd ⟨hvt, hve, hvr⟩ hg
    have hm : (g.merge [g.num]).Wf := Flow.wf_merge hg (by simp)
    have hl1 : (g.merge [g.num]).Live (g.merge [g.num]).num ↔ g.Live g.num := by
      rw [Flow.live_merge hg (by simp)]; simp
    have i1 := iht (d + 1) _ (by omega) hvt hm
    have ln := live_next (d := d + 1) (by omega) hvt hm
    have lj := live_jump (d := d + 1) (by omega) hvt hm d
    obtain ⟨e1, e2, e3⟩ := gen_ext t (d + 1) _ hm
    rw [Flow.good_merge hg (by simp), priceable_congr t hl1] at i1
    rw [hl1] at ln lj
    simp only [Code.gen, Code.Priceable]
    generalize t.gen (d + 1) (g.merge [g.num]) = x at *
    have hxn : g.num < x.1.num := e2.num
    have hm2 : (x.1.merge [g.num]).Wf := Flow.wf_merge e1 (by simp; omega)
    have hgx : x.1.Live g.num ↔ g.Live g.num := by
      rw [live_frame e1 e2 (Nat.le_succ _), Flow.live_merge_old hg (by simp) (Nat.le_refl _)]
    have hl2 : (x.1.merge [g.num]).Live (x.1.merge [g.num]).num ↔ g.Live g.num := by
      rw [Flow.live_merge e1 (by simp; omega)]
      simp only [List.mem_singleton, exists_eq_left]
      exact hgx
    have i2 := ihe (d + 1) _ (by omega) hve hm2
    have ln2 := live_next (d := d + 1) (by omega) hve hm2
    have lj2 := live_jump (d := d + 1) (by omega) hve hm2 d
    obtain ⟨f1, f2, f3⟩ := gen_ext e (d + 1) _ hm2
    rw [Flow.good_merge e1 (by simp; omega), priceable_congr e hl2] at i2
    rw [hl2] at ln2 lj2
    generalize e.gen (d + 1) (x.1.merge [g.num]) = y at *
    have hyn : x.1.num < y.1.num := f2.num
    have hxy : ∀ o, o ≤ x.1.num → (y.1.Live o ↔ x.1.Live o) := by
      intro o ho
      rw [live_frame f1 f2 (Nat.le_succ_of_le ho), Flow.live_merge_old e1 (by simp; omega) ho]
    have ho : ∀ o ∈ y.1.num :: x.1.num :: (origins x.2 d ++ origins y.2 d), o ≤ y.1.num := by
      intro o ho
      simp only [List.mem_cons, List.mem_append, mem_origins] at ho
      rcases ho with rfl | rfl | ho | ho
      · omega
      · omega
      · have := e3 _ ho; simp only at this; omega
      · have := f3 _ ho; simp only at this; omega
    have hor : (∃ o ∈ y.1.num :: x.1.num :: (origins x.2 d ++ origins y.2 d), y.1.Live o) ↔
        g.Live g.num ∧ (t.Reaches ∨ e.Reaches) := by
      have h1 : (∃ o ∈ origins x.2 d, y.1.Live o) ↔ ∃ o, (d, o) ∈ x.2 ∧ x.1.Live o := by
        constructor
        · rintro ⟨o, a, b⟩
          have hm := mem_origins.1 a
          exact ⟨o, hm, (hxy o (Nat.le_of_lt (e3 _ hm).2)).1 b⟩
        · rintro ⟨o, a, b⟩
          exact ⟨o, mem_origins.2 a, (hxy o (Nat.le_of_lt (e3 _ a).2)).2 b⟩
      have h2 : (∃ o ∈ origins y.2 d, y.1.Live o) ↔ ∃ o, (d, o) ∈ y.2 ∧ y.1.Live o := by
        simp only [mem_origins]
      rw [lj] at h1
      rw [lj2] at h2
      simp only [List.mem_cons, List.mem_append, or_and_right, exists_or, exists_eq_left, h1, h2, ln2,
        hxy _ (Nat.le_refl _), ln]
      rw [reaches_iff hd, reaches_iff hd]
      exact or_aux₁
    rw [ihr d _ hd hvr (Flow.wf_merge f1 ho), Flow.good_merge f1 ho, priceable_congr r (Flow.live_merge f1 ho),
      hor, i2, i1]
    simp only [List.mem_singleton, exists_eq_left, ne_eq, reduceCtorEq, not_false_eq_true, true_implies,
      List.cons_ne_self]
    rw [hgx]
    by_cases hl : g.Live g.num
    · simp only [hl, true_and, and_true, and_assoc]
      by_cases hr : t.Reaches ∨ e.Reaches
      · simp only [hr, true_and]
      · simp [hr]
    · simp [hl]
  | ift t r iht ihr =>
    rintro d g hd ⟨hvt, hvr⟩ hg
    have hm : (g.merge [g.num]).Wf := Flow.wf_merge hg (by simp)
    have hl1 : (g.merge [g.num]).Live (g.merge [g.num]).num ↔ g.Live g.num := by
      rw [Flow.live_merge hg (by simp)]; simp
    have i1 := iht (d + 1) _ (by omega) hvt hm
    have ln := live_next (d := d + 1) (by omega) hvt hm
    have lj := live_jump (d := d + 1) (by omega) hvt hm d
    obtain ⟨e1, e2, e3⟩ := gen_ext t (d + 1) _ hm
    rw [Flow.good_merge hg (by simp), priceable_congr t hl1] at i1
    rw [hl1] at ln lj
    simp only [Code.gen, Code.Priceable]
    generalize t.gen (d + 1) (g.merge [g.num]) = x at *
    have hxn : g.num < x.1.num := e2.num
    have hgx : x.1.Live g.num ↔ g.Live g.num := by
      rw [live_frame e1 e2 (Nat.le_succ _), Flow.live_merge_old hg (by simp) (Nat.le_refl _)]
    have ho : ∀ o ∈ x.1.num :: g.num :: origins x.2 d, o ≤ x.1.num := by
      intro o ho
      simp only [List.mem_cons, mem_origins] at ho
      rcases ho with rfl | rfl | ho
      · omega
      · omega
      · have := e3 _ ho; simp only at this; omega
    have hor : (∃ o ∈ x.1.num :: g.num :: origins x.2 d, x.1.Live o) ↔ g.Live g.num := by
      have h1 : (∃ o ∈ origins x.2 d, x.1.Live o) ↔ ∃ o, (d, o) ∈ x.2 ∧ x.1.Live o := by
        simp only [mem_origins]
      rw [lj] at h1
      simp only [List.mem_cons, or_and_right, exists_or, exists_eq_left, h1, ln, hgx]
      exact or_aux₂
    rw [ihr d _ hd hvr (Flow.wf_merge e1 ho), Flow.good_merge e1 ho, priceable_congr r (Flow.live_merge e1 ho),
      hor, i1]
    simp only [List.mem_singleton, exists_eq_left, ne_eq, reduceCtorEq, not_false_eq_true, true_implies,
      List.cons_ne_self]
    by_cases hl : g.Live g.num
    · simp only [hl, true_and, and_true, and_assoc]
    · simp [hl]

/-! ## Functions -/

theorem cfg_good {c : Code} (hl : c.LoopFree) (hv : c.Valid 1) : c.cfg.Good ↔ c.Priceable True := by
  have hg : (⟨1, fun _ => [], [(0, 1)]⟩ : Flow).Wf := init_wf
  have hlive : (⟨1, fun _ => [], [(0, 1)]⟩ : Flow).Live 1 :=
    Flow.live_iff.2 (.single (by simp))
  have h1 := gen_good c 1 _ Nat.one_pos hv hg
  have ln := live_next Nat.one_pos hv hg
  have lj := live_jump Nat.one_pos hv hg 0
  obtain ⟨e1, e2, e3⟩ := gen_ext c 1 _ hg
  unfold Code.cfg
  simp only
  generalize c.gen 1 ⟨1, fun _ => [], [(0, 1)]⟩ = x at *
  have ho : ∀ o ∈ origins x.2 0, o ≤ x.1.num := fun o ho => Nat.le_of_lt (e3 _ (mem_origins.1 ho)).2
  have hlive' : (⟨1, fun _ => [], [(0, 1)]⟩ : Flow).Live (⟨1, fun _ => [], [(0, 1)]⟩ : Flow).num ↔ True :=
    iff_true_intro hlive
  rw [hlive', true_and] at ln lj
  rw [Flow.good_close e1 ho, h1, priceable_congr c hlive']
  have hgood : (⟨1, fun _ => [], [(0, 1)]⟩ : Flow).Good := by
    intro e he
    simp only [List.mem_singleton] at he
    subst he
    exact hlive
  have hex : x.1.Live x.1.num ∨ ∃ o ∈ origins x.2 0, x.1.Live o := by
    simp only [mem_origins]
    rw [ln, lj]
    obtain ⟨tr, e, h⟩ := exec_total c hl
    cases e with
    | next => exact .inl ⟨tr, h⟩
    | br n =>
      have hn := cost_label (w := free) c 1 hv ((cost_free c (.br n) 0).2 ⟨⟨tr, h⟩, rfl⟩)
      exact .inr ⟨.br n, ⟨tr, h⟩, by show 0 + n + 1 = 1; omega⟩
    | ret => exact .inr ⟨.ret, ⟨tr, h⟩, rfl⟩
    | stop => exact .inr ⟨.stop, ⟨tr, h⟩, rfl⟩
  tauto

theorem clear_iff {c : Code} (hl : c.LoopFree) (hv : c.Valid 1) :
    Clear (fun a b => (a, b) ∈ c.cfg.edges) 0 c.cfg.num ↔ c.Priceable True := by
  rw [← cfg_good hl hv]
  obtain ⟨tr, e, hx⟩ := exec_total c hl
  have hend : c.cfg.Live c.cfg.num :=
    (Flow.total_free.1 ((cfg_exact (w := free) (fun _ _ => rfl) hv _).2 ⟨tr, e, hx, rfl⟩)).1
  rw [Flow.live_iff] at hend
  constructor
  · rintro ⟨-, h⟩ x hx
    rcases h x.2 (cfg_to_end c x.2 (cfg_wf c x hx).2) with h | h
    · exact Flow.live_iff.2 h
    · exact absurd hx (h x.1)
  · intro h
    refine ⟨hend, fun y _ => ?_⟩
    by_cases hy : ∃ a, (a, y) ∈ c.cfg.edges
    · obtain ⟨a, ha⟩ := hy
      exact .inl (Flow.live_iff.1 (h (a, y) ha))
    · push Not at hy
      exact .inr hy

end Svm.Wasm
