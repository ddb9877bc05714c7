import Verif.Wasm.Price

/-!
# Prices of programs
-/

namespace Svm.Wasm

open Svm.Codec (Str)
open Svm.Gas (upd upd_self upd_ne add64 Acyclic C49_topological_sort)
open Svm.Gas.Graph (Cmd build topoSort trySort IsEdge IsNode Clear add64_true add64_some add64_mono)
open Relation (TransGen ReflTransGen)

variable {res : Resolver} {p : Program}

/-! ## The order of the functions -/

theorem isEdge_pricingCmds (p : Program) (a b : Nat) : IsEdge (pricingCmds p) a b ↔ Calls p a b := by
  unfold IsEdge pricingCmds Calls
  simp only [List.mem_flatMap, List.mem_cons, reduceCtorEq, false_or, Prod.exists, mem_zip_funcs]
  constructor
  · rintro ⟨f, ops, h1, h2⟩
    unfold callCmds at h2
    simp only [List.mem_filterMap] at h2
    obtain ⟨o, ho, h⟩ := h2
    cases o with
    | call t =>
      dsimp only at h
      split at h
      · cases h
      · rename_i hlt
        simp only [Option.some.injEq, Cmd.edge.injEq] at h
        obtain ⟨rfl, rfl⟩ := h
        refine ⟨ops, h1, ho, ?_⟩
        simp only [Program.isImported, decide_eq_true_eq] at hlt
        omega
    | _ => cases h
  · rintro ⟨ops, h1, h2, h3⟩
    refine ⟨a, ops, h1, ?_⟩
    unfold callCmds
    simp only [List.mem_filterMap]
    refine ⟨.call b, h2, ?_⟩
    dsimp only
    rw [if_neg]
    simp only [Program.isImported, decide_eq_true_eq]
    omega

theorem isNode_pricingCmds (p : Program) (a : Nat) :
    IsNode (pricingCmds p) a ↔ (∃ ops, p.getFunc a = some ops) ∨ ∃ b, Calls p b a := by
  have hn : Cmd.node a ∈ pricingCmds p ↔ ∃ ops, p.getFunc a = some ops := by
    unfold pricingCmds
    simp only [List.mem_flatMap, List.mem_cons, Prod.exists, mem_zip_funcs]
    constructor
    · rintro ⟨f, ops, h1, h2⟩
      rcases h2 with h2 | h2
      · cases h2
        exact ⟨ops, h1⟩
      · unfold callCmds at h2
        simp only [List.mem_filterMap] at h2
        obtain ⟨o, ho, h⟩ := h2
        cases o with
        | call t =>
          dsimp only at h
          split at h <;> cases h
        | _ => cases h
    · rintro ⟨ops, h⟩
      exact ⟨a, ops, h, .inl rfl⟩
  unfold IsNode
  rw [hn]
  constructor
  · rintro (h | ⟨b, h⟩ | ⟨b, h⟩)
    · exact .inl h
    · obtain ⟨ops, h1, -⟩ := (isEdge_pricingCmds p a b).1 h
      exact .inl ⟨ops, h1⟩
    · exact .inr ⟨b, (isEdge_pricingCmds p b a).1 h⟩
  · rintro (h | ⟨b, h⟩)
    · exact .inl h
    · exact .inr (.inr ⟨b, (isEdge_pricingCmds p b a).2 h⟩)

/-- The callees of each function of the list are before it, or in `d`. -/
def Callees (p : Program) : List Nat → List Nat → Prop
  | _, [] => True
  | d, f :: l => (∀ g, Calls p f g → g ∈ d) ∧ f ∉ d ∧ Callees p (f :: d) l

theorem callees_of_order (s : List Nat) (hn : s.Nodup) (hm : ∀ a b, Calls p a b → b ∈ s)
    (ho : ∀ a b, Calls p a b → s.idxOf a < s.idxOf b) : Callees p [] s.reverse := by
  have key : ∀ (l : List Nat) (d : List Nat), s = l.reverse ++ d → Callees p d l := by
    intro l
    induction l with
    | nil => intro d _; trivial
    | cons f l ih =>
      intro d hs
      rw [List.reverse_cons, List.append_assoc, List.singleton_append] at hs
      have hnd := hn
      rw [hs, List.nodup_append] at hnd
      obtain ⟨h1, h2, h3⟩ := hnd
      have hf : f ∉ l.reverse := fun h => h3 f h f List.mem_cons_self rfl
      refine ⟨?_, (List.nodup_cons.1 h2).1, ih _ hs⟩
      intro g hg
      have hlt := ho f g hg
      have hgs := hm f g hg
      rw [hs, List.idxOf_append_of_notMem hf] at hlt
      rw [hs] at hgs
      rcases List.mem_append.1 hgs with h | h
      · rw [List.idxOf_append_of_mem h] at hlt
        have := List.idxOf_lt_length_of_mem h
        omega
      · rcases List.mem_cons.1 h with rfl | h
        · have hg' : g ∉ l.reverse := hf
          rw [List.idxOf_append_of_notMem hg'] at hlt
          omega
        · exact h
  exact key s.reverse [] (by simp)

/-- Functions are priced one after the other, callees before callers. -/
theorem price_order (chk : Bool) (res : Resolver) (ha : Acyclic (Calls p)) :
    ∃ l, Callees p [] l ∧ (∀ f, f ∈ l ↔ (∃ ops, p.getFunc f = some ops) ∨ ∃ b, Calls p b f) ∧
      priceProgram chk res p = l.foldlM (setPrice chk res p) fun _ => none := by
  have hE : IsEdge (pricingCmds p) = Calls p := by
    funext a b
    exact propext (isEdge_pricingCmds p a b)
  obtain ⟨g, h1, -, h3, h4⟩ := C49_topological_sort chk (fun a b => decide (a ≤ b)) () (pricingCmds p) (by
    rw [hE]
    rintro a b h rfl
    exact ha a (.single h))
  rw [hE] at h3
  obtain ⟨s, hs⟩ := h3.2 ha
  obtain ⟨hn, hm, ho⟩ := h4 s hs
  rw [hE] at ho
  have hmem : ∀ f, f ∈ s.reverse ↔ (∃ ops, p.getFunc f = some ops) ∨ ∃ b, Calls p b f := by
    intro f
    rw [List.mem_reverse, hm, isNode_pricingCmds]
  refine ⟨s.reverse, callees_of_order s hn ?_ ho, hmem, ?_⟩
  · intro a b h
    rw [← List.mem_reverse, hmem]
    exact .inr ⟨a, h⟩
  · unfold priceProgram
    rw [h1]
    have : topoSort chk (fun a b => decide (a ≤ b)) g = some s := by
      unfold topoSort
      rw [hs]
      rfl
    show (do let sorted ← topoSort chk _ g; sorted.reverse.foldlM (setPrice chk res p) fun _ => none) = _
    rw [this]
    rfl

/-! ## Instructions of executions and of blocks -/

theorem exec_mem (c : Code) {tr : List Op} {e : Exit} (h : c.Exec tr e) : ∀ o ∈ tr, o ∈ c.flatten := by
  have hscope : ∀ (o : Op) (b r : Code) (tr : List Op) (e : Exit) (all : List Op), o ∈ all →
      (∀ tr e, b.Exec tr e → ∀ o ∈ tr, o ∈ all) → (∀ tr e, r.Exec tr e → ∀ o ∈ tr, o ∈ all) →
      scope o b.Exec r.Exec tr e → ∀ o ∈ tr, o ∈ all := by
    rintro o b r tr e all ho hb hr ⟨tr₁, e₁, h₁, ⟨-, tr₂, h₂, rfl⟩ | ⟨-, rfl⟩⟩ x hx
    · rcases List.mem_cons.1 hx with rfl | hx
      · exact ho
      · rcases List.mem_append.1 hx with hx | hx
        · exact hb _ _ h₁ x hx
        · exact hr _ _ h₂ x hx
    · rcases List.mem_cons.1 hx with rfl | hx
      · exact ho
      · exact hb _ _ h₁ x hx
  induction c generalizing tr e with
  | nil => obtain ⟨rfl, rfl⟩ := h; simp
  | op b r ih =>
    rcases h with ⟨-, rfl⟩ | ⟨-, tr', h', rfl⟩
    · simp [Code.flatten]
    · intro x hx
      rcases List.mem_cons.1 hx with rfl | hx
      · exact List.mem_cons_self
      · exact List.mem_cons_of_mem _ (ih h' x hx)
  | block b r ihb ihr =>
    refine hscope _ b r tr e _ (by simp [Code.flatten]) ?_ ?_ h
    · intro tr e h o ho; have := ihb h o ho; simp [Code.flatten, this]
    · intro tr e h o ho; have := ihr h o ho; simp [Code.flatten, this]
  | loop => exact absurd h id
  | ite t f r iht ihf ihr =>
    rcases h with h | h
    · refine hscope _ t r tr e _ (by simp [Code.flatten]) ?_ ?_ h
      · intro tr e h o ho; have := iht h o ho; simp [Code.flatten, this]
      · intro tr e h o ho; have := ihr h o ho; simp [Code.flatten, this]
    · refine hscope _ f r tr e _ (by simp [Code.flatten]) ?_ ?_ h
      · intro tr e h o ho; have := ihf h o ho; simp [Code.flatten, this]
      · intro tr e h o ho; have := ihr h o ho; simp [Code.flatten, this]
  | ift t r iht ihr =>
    rcases h with h | ⟨tr', h', rfl⟩
    · refine hscope _ t r tr e _ (by simp [Code.flatten]) ?_ ?_ h
      · intro tr e h o ho; have := iht h o ho; simp [Code.flatten, this]
      · intro tr e h o ho; have := ihr h o ho; simp [Code.flatten, this]
    · intro x hx
      rcases List.mem_cons.1 hx with rfl | hx
      · simp [Code.flatten]
      · have := ihr h' x hx; simp [Code.flatten, this]

theorem exec_cost_le (w : Op → Nat) (c : Code) {tr : List Op} {e : Exit} (h : c.Exec tr e) :
    opsCost w tr ≤ opsCost w c.flatten := by
  have hscope : ∀ (o : Op) (b r : Code) (tr : List Op) (e : Exit) (A B : Nat),
      (∀ tr e, b.Exec tr e → opsCost w tr ≤ A) → (∀ tr e, r.Exec tr e → opsCost w tr ≤ B) →
      scope o b.Exec r.Exec tr e → opsCost w tr ≤ w o + A + B := by
    rintro o b r tr e A B hb hr ⟨tr₁, e₁, h₁, ⟨-, tr₂, h₂, rfl⟩ | ⟨-, rfl⟩⟩
    · have := hb _ _ h₁
      have := hr _ _ h₂
      rw [opsCost_cons, opsCost_append]
      omega
    · have := hb _ _ h₁
      rw [opsCost_cons]
      omega
  induction c generalizing tr e with
  | nil => obtain ⟨rfl, rfl⟩ := h; exact Nat.zero_le _
  | op b r ih =>
    rcases h with ⟨-, rfl⟩ | ⟨-, tr', h', rfl⟩
    · simp only [Code.flatten, opsCost_cons]
      have : opsCost w ([] : List Op) = 0 := rfl
      omega
    · have := ih h'
      simp only [Code.flatten, opsCost_cons]
      omega
  | block b r ihb ihr =>
    have := hscope _ b r tr e _ _ (fun _ _ => ihb) (fun _ _ => ihr) h
    simp only [Code.flatten, opsCost_cons, opsCost_append]
    omega
  | loop => exact absurd h id
  | ite t f r iht ihf ihr =>
    simp only [Code.flatten, opsCost_cons, opsCost_append]
    rcases h with h | h
    · have := hscope _ t r tr e _ _ (fun _ _ => iht) (fun _ _ => ihr) h
      omega
    · have := hscope _ f r tr e _ _ (fun _ _ => ihf) (fun _ _ => ihr) h
      omega
  | ift t r iht ihr =>
    simp only [Code.flatten, opsCost_cons, opsCost_append]
    rcases h with h | ⟨tr', h', rfl⟩
    · have := hscope _ t r tr e _ _ (fun _ _ => iht) (fun _ _ => ihr) h
      omega
    · have := ihr h'
      rw [opsCost_cons]
      omega

theorem opsCost_congr {w w' : Op → Nat} {l : List Op} (h : ∀ o ∈ l, w o = w' o) :
    opsCost w l = opsCost w' l := by
  unfold opsCost
  rw [List.map_congr_left h]

theorem isMaxCost_congr {w w' : Op → Nat} {c : Code} (h : ∀ o ∈ c.flatten, w o = w' o) (x : Nat) :
    IsMaxCost w c x ↔ IsMaxCost w' c x := by
  have key : ∀ tr e, c.Exec tr e → opsCost w tr = opsCost w' tr := fun tr e hx =>
    opsCost_congr fun o ho => h o (exec_mem c hx o ho)
  unfold IsMaxCost
  constructor
  · rintro ⟨⟨tr, e, h1, h2⟩, h3⟩
    exact ⟨⟨tr, e, h1, by rw [h2, key _ _ h1]⟩, fun tr e hx => by rw [← key _ _ hx]; exact h3 _ _ hx⟩
  · rintro ⟨⟨tr, e, h1, h2⟩, h3⟩
    exact ⟨⟨tr, e, h1, by rw [h2, key _ _ h1]⟩, fun tr e hx => by rw [key _ _ hx]; exact h3 _ _ hx⟩

/-- Loop free code has a most expensive execution. -/
theorem exists_maxCost (w : Op → Nat) (c : Code) (h : c.LoopFree) : ∃ x, IsMaxCost w c x := by
  obtain ⟨tr, e, hx⟩ := exec_total c h
  have hb := fun tr e (h : c.Exec tr e) => exec_cost_le w c h
  generalize opsCost w c.flatten = B at hb
  have : ∀ n K, B - K = n → (∃ tr e, c.Exec tr e ∧ K = opsCost w tr) → ∃ x, IsMaxCost w c x := by
    intro n
    induction n using Nat.strong_induction_on with
    | _ n ih =>
      rintro K hK hex
      by_cases hm : ∀ tr e, c.Exec tr e → opsCost w tr ≤ K
      · exact ⟨K, hex, hm⟩
      · push Not at hm
        obtain ⟨tr', e', h1, h2⟩ := hm
        have := hb _ _ h1
        exact ih (B - opsCost w tr') (by omega) _ rfl ⟨tr', e', h1, rfl⟩
  exact this _ _ rfl ⟨tr, e, hx, rfl⟩

theorem maxCost_unique {w : Op → Nat} {c : Code} {x y : Nat} (hx : IsMaxCost w c x) (hy : IsMaxCost w c y) :
    x = y := by
  obtain ⟨⟨tr, e, h1, h2⟩, h3⟩ := hx
  obtain ⟨⟨tr', e', h1', h2'⟩, h3'⟩ := hy
  have := h3 _ _ h1'
  have := h3' _ _ h1
  omega

/-- The code of a function is determined by its instructions. -/
theorem flatten_unique (c : Code) : ∀ (c' : Code) (x x' : List Op), c.flatten ++ x = c'.flatten ++ x' →
    (∃ o l, x = o :: l ∧ (o = .end_ ∨ o = .else_)) → (∃ o l, x' = o :: l ∧ (o = .end_ ∨ o = .else_)) →
    c = c' ∧ x = x' := by
  have hop : ∀ (b : Basic), b.toOp ≠ .end_ ∧ b.toOp ≠ .else_ ∧ b.toOp ≠ .block ∧ b.toOp ≠ .loop ∧
      b.toOp ≠ .if_ := by
    intro b
    cases b <;> simp [Basic.toOp]
  have hinj : ∀ b b' : Basic, b.toOp = b'.toOp → b = b' := by
    intro b b' h
    cases b <;> cases b' <;> simp [Basic.toOp] at h <;> simp [h]
  have hend : ∀ l : List Op, ∃ o l', Op.end_ :: l = o :: l' ∧ (o = .end_ ∨ o = .else_) :=
    fun l => ⟨_, _, rfl, .inl rfl⟩
  have helse : ∀ l : List Op, ∃ o l', Op.else_ :: l = o :: l' ∧ (o = .end_ ∨ o = .else_) :=
    fun l => ⟨_, _, rfl, .inr rfl⟩
  induction c with
  | nil =>
    rintro c' x x' h ⟨o, l, rfl, ho⟩ hx'
    cases c' with
    | nil => exact ⟨rfl, h⟩
    | op b r =>
      simp only [Code.flatten, List.nil_append, List.cons_append, List.cons.injEq] at h
      have := hop b
      rcases ho with rfl | rfl
      · exact absurd h.1.symm this.1
      · exact absurd h.1.symm this.2.1
    | block | loop | ite | ift =>
      simp only [Code.flatten, List.nil_append, List.cons_append, List.cons.injEq] at h
      rcases ho with rfl | rfl <;> exact absurd h.1 (by simp)
  | op b r ih =>
    rintro c' x x' h hx ⟨o', l', rfl, ho'⟩
    obtain ⟨h1, h2, h3, h4, h5⟩ := hop b
    cases c' with
    | nil =>
      simp only [Code.flatten, List.nil_append, List.cons_append, List.cons.injEq] at h
      rcases ho' with rfl | rfl
      · exact absurd h.1 h1
      · exact absurd h.1 h2
    | op b' r' =>
      simp only [Code.flatten, List.cons_append, List.cons.injEq] at h
      obtain ⟨rfl, rfl⟩ := ih r' x _ h.2 hx ⟨_, _, rfl, ho'⟩
      rw [hinj _ _ h.1]
      exact ⟨rfl, rfl⟩
    | block | loop | ite | ift =>
      simp only [Code.flatten, List.cons_append, List.cons.injEq] at h
      first
        | exact absurd h.1 h3
        | exact absurd h.1 h4
        | exact absurd h.1 h5
  | block b r ihb ihr =>
    rintro c' x x' h hx ⟨o', l', rfl, ho'⟩
    cases c' with
    | block b' r' =>
      simp only [Code.flatten, List.cons_append, List.append_assoc, List.cons.injEq, true_and] at h
      obtain ⟨rfl, h'⟩ := ihb b' _ _ h (hend _) (hend _)
      simp only [List.cons.injEq, true_and] at h'
      obtain ⟨rfl, rfl⟩ := ihr r' x _ h' hx ⟨_, _, rfl, ho'⟩
      exact ⟨rfl, rfl⟩
    | nil =>
      simp only [Code.flatten, List.nil_append, List.cons_append, List.cons.injEq] at h
      rcases ho' with rfl | rfl <;> exact absurd h.1 (by simp)
    | op b' r' =>
      simp only [Code.flatten, List.cons_append, List.cons.injEq] at h
      exact absurd h.1.symm (hop b').2.2.1
    | loop | ite | ift => simp [Code.flatten] at h
  | loop b r ihb ihr =>
    rintro c' x x' h hx ⟨o', l', rfl, ho'⟩
    cases c' with
    | loop b' r' =>
      simp only [Code.flatten, List.cons_append, List.append_assoc, List.cons.injEq, true_and] at h
      obtain ⟨rfl, h'⟩ := ihb b' _ _ h (hend _) (hend _)
      simp only [List.cons.injEq, true_and] at h'
      obtain ⟨rfl, rfl⟩ := ihr r' x _ h' hx ⟨_, _, rfl, ho'⟩
      exact ⟨rfl, rfl⟩
    | nil =>
      simp only [Code.flatten, List.nil_append, List.cons_append, List.cons.injEq] at h
      rcases ho' with rfl | rfl <;> exact absurd h.1 (by simp)
    | op b' r' =>
      simp only [Code.flatten, List.cons_append, List.cons.injEq] at h
      exact absurd h.1.symm (hop b').2.2.2.1
    | block | ite | ift => simp [Code.flatten] at h
  | ite t e r iht ihe ihr =>
    rintro c' x x' h hx ⟨o', l', rfl, ho'⟩
    cases c' with
    | ite t' e' r' =>
      simp only [Code.flatten, List.cons_append, List.append_assoc, List.cons.injEq, true_and] at h
      obtain ⟨rfl, h'⟩ := iht t' _ _ h (helse _) (helse _)
      simp only [List.cons.injEq, true_and] at h'
      obtain ⟨rfl, h''⟩ := ihe e' _ _ h' (hend _) (hend _)
      simp only [List.cons.injEq, true_and] at h''
      obtain ⟨rfl, rfl⟩ := ihr r' x _ h'' hx ⟨_, _, rfl, ho'⟩
      exact ⟨rfl, rfl⟩
    | ift t' r' =>
      simp only [Code.flatten, List.cons_append, List.append_assoc, List.cons.injEq, true_and] at h
      obtain ⟨rfl, h'⟩ := iht t' _ _ h (helse _) (hend _)
      simp at h'
    | nil =>
      simp only [Code.flatten, List.nil_append, List.cons_append, List.cons.injEq] at h
      rcases ho' with rfl | rfl <;> exact absurd h.1 (by simp)
    | op b' r' =>
      simp only [Code.flatten, List.cons_append, List.cons.injEq] at h
      exact absurd h.1.symm (hop b').2.2.2.2
    | block | loop => simp [Code.flatten] at h
  | ift t r iht ihr =>
    rintro c' x x' h hx ⟨o', l', rfl, ho'⟩
    cases c' with
    | ift t' r' =>
      simp only [Code.flatten, List.cons_append, List.append_assoc, List.cons.injEq, true_and] at h
      obtain ⟨rfl, h'⟩ := iht t' _ _ h (hend _) (hend _)
      simp only [List.cons.injEq, true_and] at h'
      obtain ⟨rfl, rfl⟩ := ihr r' x _ h' hx ⟨_, _, rfl, ho'⟩
      exact ⟨rfl, rfl⟩
    | ite t' e' r' =>
      simp only [Code.flatten, List.cons_append, List.append_assoc, List.cons.injEq, true_and] at h
      obtain ⟨rfl, h'⟩ := iht t' _ _ h (hend _) (helse _)
      simp at h'
    | nil =>
      simp only [Code.flatten, List.nil_append, List.cons_append, List.cons.injEq] at h
      rcases ho' with rfl | rfl <;> exact absurd h.1 (by simp)
    | op b' r' =>
      simp only [Code.flatten, List.cons_append, List.cons.injEq] at h
      exact absurd h.1.symm (hop b').2.2.2.2
    | block | loop => simp [Code.flatten] at h

theorem body_unique {f : Nat} {c c' : Code} (h : IsBody p f c) (h' : IsBody p f c') : c = c' := by
  unfold IsBody at h h'
  rw [h] at h'
  simp only [Option.some.injEq] at h'
  exact (flatten_unique c c' _ _ h' ⟨_, _, rfl, .inl rfl⟩ ⟨_, _, rfl, .inl rfl⟩).1

/-! ## Prices exist and are unique -/

theorem call_mem_calls {f g : Nat} {c : Code} (hb : IsBody p f c) (hg : .call g ∈ c.flatten)
    (hi : ¬ g < p.imports.length) : Calls p f g :=
  ⟨_, hb, List.mem_append_left _ hg, by omega⟩

theorem costOf_congr {P P' : Nat → Nat} {f : Nat} {c : Code} (hb : IsBody p f c)
    (h : ∀ g, Calls p f g → P g = P' g) : ∀ o ∈ c.flatten, costOf res p P o = costOf res p P' o := by
  intro o ho
  cases o with
  | call g =>
    simp only [costOf]
    split
    · rfl
    · rename_i hi
      exact h g (call_mem_calls hb ho hi)
  | _ => rfl

/-- Accepted programs have prices. -/
theorem prices_exist (res : Resolver) (hn : NoLoops p) (ha : Acyclic (Calls p)) : ∃ P, IsPrices res p P := by
  obtain ⟨l, hc, hm, -⟩ := price_order true res ha
  have key : ∀ (l d : List Nat) (P : Nat → Nat), Callees p d l →
      (∀ f ∈ d, (∀ g, Calls p f g → g ∈ d) ∧ ∀ c, IsBody p f c → IsMaxCost (costOf res p P) c (P f)) →
      ∃ P', ∀ f, f ∈ d ∨ f ∈ l → ∀ c, IsBody p f c → IsMaxCost (costOf res p P') c (P' f) := by
    intro l
    induction l with
    | nil =>
      rintro d P - h
      refine ⟨P, fun f hf => ?_⟩
      rcases hf with hf | hf
      · exact (h f hf).2
      · cases hf
    | cons f l ih =>
      rintro d P ⟨h1, h2, h3⟩ h
      have hx : ∃ x, ∀ c, IsBody p f c → IsMaxCost (costOf res p P) c x := by
        by_cases hb : ∃ c, IsBody p f c
        · obtain ⟨c, hb⟩ := hb
          obtain ⟨x, hx⟩ := exists_maxCost (costOf res p P) c (loopFree_of_flatten c (calm_of_body hn hb).1)
          refine ⟨x, fun c' hb' => ?_⟩
          rw [← body_unique hb hb']
          exact hx
        · exact ⟨0, fun c hb' => absurd ⟨c, hb'⟩ hb⟩
      obtain ⟨x, hx⟩ := hx
      have hupd : ∀ g ∈ d, upd P f x g = P g := by
        intro g hg
        exact upd_ne _ _ (by rintro rfl; exact h2 hg)
      obtain ⟨P', hP'⟩ := ih (f :: d) (upd P f x) h3 (by
        intro g hg
        rcases List.mem_cons.1 hg with rfl | hg
        · refine ⟨fun g' hg' => List.mem_cons_of_mem _ (h1 g' hg'), fun c hb => ?_⟩
          rw [upd_self, isMaxCost_congr (costOf_congr hb fun g' hg' => hupd g' (h1 g' hg'))]
          exact hx c hb
        · refine ⟨fun g' hg' => List.mem_cons_of_mem _ ((h g hg).1 g' hg'), fun c hb => ?_⟩
          rw [hupd g hg, isMaxCost_congr (costOf_congr hb fun g' hg' => hupd g' ((h g hg).1 g' hg'))]
          exact (h g hg).2 c hb)
      refine ⟨P', fun g hg => hP' g ?_⟩
      rcases hg with hg | hg
      · exact .inl (List.mem_cons_of_mem _ hg)
      · rcases List.mem_cons.1 hg with rfl | hg
        · exact .inl List.mem_cons_self
        · exact .inr hg
  obtain ⟨P, hP⟩ := key l [] (fun _ => 0) hc (fun f hf => nomatch hf)
  refine ⟨P, fun f c hb => hP f (.inr ((hm f).2 (.inl ⟨_, hb⟩))) c hb⟩

/-- All functions consist of nested blocks, as in every valid module. -/
def Structured (p : Program) : Prop := ∀ f ops, p.getFunc f = some ops → ∃ c, IsBody p f c

/-- Functions that are called exist. -/
def CallsDefined (p : Program) : Prop := ∀ a b, Calls p a b → ∃ ops, p.getFunc b = some ops

theorem prices_unique (ha : Acyclic (Calls p)) (hs : Structured p) (hd : CallsDefined p) {P P' : Nat → Nat}
    (h : IsPrices res p P) (h' : IsPrices res p P') {f : Nat} {c : Code} (hb : IsBody p f c) : P f = P' f := by
  obtain ⟨l, hc, hm, -⟩ := price_order true res ha
  have key : ∀ (l d : List Nat), Callees p d l → (∀ f ∈ d, (∃ c, IsBody p f c) → P f = P' f) →
      ∀ f ∈ l, (∃ c, IsBody p f c) → P f = P' f := by
    intro l
    induction l with
    | nil => intro d _ _ f hf; cases hf
    | cons f l ih =>
      rintro d ⟨h1, h2, h3⟩ hd'
      have hf : (∃ c, IsBody p f c) → P f = P' f := by
        rintro ⟨c, hb⟩
        refine maxCost_unique (h f c hb) ?_
        rw [isMaxCost_congr (costOf_congr hb fun g hg => hd' g (h1 g hg) ?_)]
        · exact h' f c hb
        · obtain ⟨ops, ho⟩ := hd _ _ hg
          exact hs _ _ ho
      intro g hg
      rcases List.mem_cons.1 hg with rfl | hg
      · exact hf
      · refine ih (f :: d) h3 (fun g' hg' => ?_) g hg
        rcases List.mem_cons.1 hg' with rfl | hg'
        · exact hf
        · exact hd' g' hg'
  exact key l [] hc (fun f hf => nomatch hf) f ((hm f).2 (.inl ⟨_, hb⟩)) ⟨c, hb⟩

end Svm.Wasm
