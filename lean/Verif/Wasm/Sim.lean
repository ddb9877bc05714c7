import Verif.Wasm.Flow

/-!
# Paths of the control flow graph are executions

`Code.Exec` are the executions of the code of one function (calls are single steps).
`cfg_exact` shows that the weights of the paths through the control flow graph of valid code are
exactly the costs of its executions.
-/

namespace Svm.Wasm

open Svm.Gas (upd upd_self upd_ne)

/-! ## Executions of one function -/

/-- The instruction may go on with the next one. -/
def Basic.Falls : Basic → Prop
  | .call _ | .callIndirect | .plain _ | .brIf _ => True
  | _ => False

/-- The executions of an instruction `o` with body `B` followed by `R`. -/
def scope (o : Op) (B R : List Op → Exit → Prop) (tr : List Op) (e : Exit) : Prop :=
  ∃ tr₁ e₁, B tr₁ e₁ ∧ ((e₁.leave = none ∧ ∃ tr₂, R tr₂ e ∧ tr = o :: (tr₁ ++ tr₂)) ∨
    (e₁.leave = some e ∧ tr = o :: tr₁))

/-- `c.Exec tr e`: some complete execution of the code executes the instructions `tr` and ends as
`e`; `stop` is the trap of `unreachable`. Loops are left out. -/
def Code.Exec : Code → List Op → Exit → Prop
  | .nil, tr, e => tr = [] ∧ e = .next
  | .op b r, tr, e => (some e ∈ b.jumps ∧ tr = [b.toOp]) ∨
      (b.Falls ∧ ∃ tr', r.Exec tr' e ∧ tr = b.toOp :: tr')
  | .block b r, tr, e => scope .block b.Exec r.Exec tr e
  | .loop _ _, _, _ => False
  | .ite t f r, tr, e => scope .if_ t.Exec r.Exec tr e ∨ scope .if_ f.Exec r.Exec tr e
  | .ift t r, tr, e => scope .if_ t.Exec r.Exec tr e ∨ ∃ tr', r.Exec tr' e ∧ tr = .if_ :: tr'

/-- The instructions that are put into blocks; the others only steer. -/
def Op.priced : Op → Bool
  | .block | .loop | .call _ | .callIndirect | .plain _ => true
  | _ => false

/-- The cost of instructions. -/
def opsCost (w : Op → Nat) (ops : List Op) : Nat := (ops.map w).sum

theorem opsCost_append (w : Op → Nat) (a b : List Op) : opsCost w (a ++ b) = opsCost w a + opsCost w b := by
  simp [opsCost]

theorem opsCost_cons (w : Op → Nat) (a : Op) (b : List Op) : opsCost w (a :: b) = w a + opsCost w b := by
  simp [opsCost]

/-! ## Costs -/

/-- The costs of the executions of an instruction of cost `o` with body `B` followed by `R`. -/
def scopeCost (o : Nat) (B R : Exit → Nat → Prop) (e : Exit) (K : Nat) : Prop :=
  ∃ e₁ k₁, B e₁ k₁ ∧ ((e₁.leave = none ∧ ∃ k₂, R e k₂ ∧ K = o + k₁ + k₂) ∨ (e₁.leave = some e ∧ K = o + k₁))

/-- The costs of the executions that end as `e`. -/
def Code.Cost (w : Op → Nat) : Code → Exit → Nat → Prop
  | .nil, e, K => e = .next ∧ K = 0
  | .op b r, e, K => (some e ∈ b.jumps ∧ K = w b.toOp) ∨ (b.Falls ∧ ∃ k, r.Cost w e k ∧ K = w b.toOp + k)
  | .block b r, e, K => scopeCost (w .block) (b.Cost w) (r.Cost w) e K
  | .loop _ _, _, _ => False
  | .ite t f r, e, K => scopeCost (w .if_) (t.Cost w) (r.Cost w) e K ∨ scopeCost (w .if_) (f.Cost w) (r.Cost w) e K
  | .ift t r, e, K => scopeCost (w .if_) (t.Cost w) (r.Cost w) e K ∨ ∃ k, r.Cost w e k ∧ K = w .if_ + k

theorem scope_cost (w : Op → Nat) (o : Op) {B R : List Op → Exit → Prop} {B' R' : Exit → Nat → Prop}
    (hB : ∀ e K, B' e K ↔ ∃ tr, B tr e ∧ K = opsCost w tr)
    (hR : ∀ e K, R' e K ↔ ∃ tr, R tr e ∧ K = opsCost w tr) (e : Exit) (K : Nat) :
    scopeCost (w o) B' R' e K ↔ ∃ tr, scope o B R tr e ∧ K = opsCost w tr := by
  unfold scopeCost scope
  constructor
  · rintro ⟨e₁, k₁, h₁, ⟨hl, k₂, h₂, rfl⟩ | ⟨hl, rfl⟩⟩
    · obtain ⟨tr₁, h₃, rfl⟩ := (hB _ _).1 h₁
      obtain ⟨tr₂, h₄, rfl⟩ := (hR _ _).1 h₂
      refine ⟨_, ⟨tr₁, e₁, h₃, .inl ⟨hl, tr₂, h₄, rfl⟩⟩, ?_⟩
      rw [opsCost_cons, opsCost_append]; omega
    · obtain ⟨tr₁, h₃, rfl⟩ := (hB _ _).1 h₁
      exact ⟨_, ⟨tr₁, e₁, h₃, .inr ⟨hl, rfl⟩⟩, by rw [opsCost_cons]⟩
  · rintro ⟨tr, ⟨tr₁, e₁, h₁, ⟨hl, tr₂, h₂, rfl⟩ | ⟨hl, rfl⟩⟩, rfl⟩
    · refine ⟨e₁, _, (hB _ _).2 ⟨tr₁, h₁, rfl⟩, .inl ⟨hl, _, (hR _ _).2 ⟨tr₂, h₂, rfl⟩, ?_⟩⟩
      rw [opsCost_cons, opsCost_append]; omega
    · exact ⟨e₁, _, (hB _ _).2 ⟨tr₁, h₁, rfl⟩, .inr ⟨hl, by rw [opsCost_cons]⟩⟩

/-- `Cost` has the costs of `Exec`. -/
theorem cost_iff (w : Op → Nat) (c : Code) : ∀ e K, c.Cost w e K ↔ ∃ tr, c.Exec tr e ∧ K = opsCost w tr := by
  induction c with
  | nil =>
    intro e K
    simp only [Code.Cost, Code.Exec]
    constructor
    · rintro ⟨rfl, rfl⟩; exact ⟨[], ⟨rfl, rfl⟩, rfl⟩
    · rintro ⟨tr, ⟨rfl, rfl⟩, rfl⟩; exact ⟨rfl, rfl⟩
  | op b r ih =>
    intro e K
    simp only [Code.Cost, Code.Exec]
    constructor
    · rintro (⟨h, rfl⟩ | ⟨h, k, hk, rfl⟩)
      · exact ⟨[b.toOp], .inl ⟨h, rfl⟩, by simp [opsCost]⟩
      · obtain ⟨tr, h1, rfl⟩ := (ih e k).1 hk
        exact ⟨_, .inr ⟨h, tr, h1, rfl⟩, by rw [opsCost_cons]⟩
    · rintro ⟨tr, ⟨h, rfl⟩ | ⟨h, tr', h1, rfl⟩, rfl⟩
      · exact .inl ⟨h, by simp [opsCost]⟩
      · exact .inr ⟨h, _, (ih e _).2 ⟨tr', h1, rfl⟩, by rw [opsCost_cons]⟩
  | block b r ihb ihr => intro e K; exact scope_cost w .block ihb ihr e K
  | loop => intro e K; simp [Code.Cost, Code.Exec]
  | ite t f r iht ihf ihr =>
    intro e K
    simp only [Code.Cost, Code.Exec]
    rw [scope_cost w .if_ iht ihr, scope_cost w .if_ ihf ihr]
    constructor
    · rintro (⟨tr, h, rfl⟩ | ⟨tr, h, rfl⟩)
      · exact ⟨tr, .inl h, rfl⟩
      · exact ⟨tr, .inr h, rfl⟩
    · rintro ⟨tr, h | h, rfl⟩
      · exact .inl ⟨tr, h, rfl⟩
      · exact .inr ⟨tr, h, rfl⟩
  | ift t r iht ihr =>
    intro e K
    simp only [Code.Cost, Code.Exec]
    rw [scope_cost w .if_ iht ihr]
    constructor
    · rintro (⟨tr, h, rfl⟩ | ⟨k, h, rfl⟩)
      · exact ⟨tr, .inl h, rfl⟩
      · obtain ⟨tr, h1, rfl⟩ := (ihr e k).1 h
        exact ⟨_, .inr ⟨tr, h1, rfl⟩, by rw [opsCost_cons]⟩
    · rintro ⟨tr, h | ⟨tr', h, rfl⟩, rfl⟩
      · exact .inl ⟨tr, h, rfl⟩
      · exact .inr ⟨_, (ihr e _).2 ⟨tr', h, rfl⟩, by rw [opsCost_cons]⟩

/-! ## Paths -/

/-- Edges lead from lower to higher numbers. -/
def Flow.Wf (g : Flow) : Prop := ∀ e ∈ g.edges, e.1 < e.2 ∧ e.2 ≤ g.num

/-- There is a path from block 0 to `b`; the blocks before `b` cost `k`. -/
inductive Flow.Reach (w : Op → Nat) (g : Flow) : Nat → Nat → Prop
  | start : Reach w g 0 0
  | edge {a b k : Nat} : Reach w g a k → (a, b) ∈ g.edges → Reach w g b (k + opsCost w (g.ops a))

/-- There is a path from block 0 to `b` of cost `K`. -/
def Flow.Total (w : Op → Nat) (g : Flow) (b K : Nat) : Prop :=
  ∃ k, g.Reach w b k ∧ K = k + opsCost w (g.ops b)

/-- `g'` continues `g`: the finished blocks are as before, new edges lead to new blocks. -/
structure Flow.Ext (g g' : Flow) : Prop where
  num : g.num ≤ g'.num
  ops : ∀ b, b < g.num → g'.ops b = g.ops b
  old : ∀ e ∈ g.edges, e ∈ g'.edges
  new : ∀ e ∈ g'.edges, e.2 ≤ g.num → e ∈ g.edges

namespace Flow

variable {w : Op → Nat} {g g' g'' : Flow}

theorem Ext.refl (g : Flow) : Ext g g := ⟨Nat.le_refl _, fun _ _ => rfl, fun _ h => h, fun _ h _ => h⟩

theorem Ext.trans (h : Ext g g') (h' : Ext g' g'') : Ext g g'' where
  num := Nat.le_trans h.num h'.num
  ops b hb := by rw [h'.ops b (Nat.lt_of_lt_of_le hb h.num), h.ops b hb]
  old e he := h'.old e (h.old e he)
  new e he hb := h.new e (h'.new e he (Nat.le_trans hb h.num)) hb

theorem reach_frame (hw : g'.Wf) (h : Ext g g') {b k : Nat} (hb : b ≤ g.num) :
    g'.Reach w b k ↔ g.Reach w b k := by
  constructor
  · intro hr
    induction hr with
    | start => exact .start
    | @edge a b k _ he ih =>
      have h1 := (hw _ he).1
      simp only at h1
      rw [h.ops a (by omega)]
      exact .edge (ih (by omega)) (h.new _ he hb)
  · intro hr
    induction hr with
    | start => exact .start
    | @edge a b k _ he ih =>
      have h1 := (hw _ (h.old _ he)).1
      simp only at h1
      rw [← h.ops a (by omega)]
      exact .edge (ih (by omega)) (h.old _ he)

theorem total_frame (hw : g'.Wf) (h : Ext g g') {b K : Nat} (hb : b < g.num) :
    g'.Total w b K ↔ g.Total w b K := by
  unfold Total
  simp only [reach_frame hw h (Nat.le_of_lt hb), h.ops b hb]

theorem wf_append (h : g.Wf) (o : Op) : (g.append o).Wf := h

theorem ext_append (g : Flow) (o : Op) : Ext g (g.append o) :=
  ⟨Nat.le_refl _, fun b hb => upd_ne _ _ (by omega), fun _ h => h, fun _ h _ => h⟩

theorem total_append (h : g.Wf) (o : Op) (K : Nat) :
    (g.append o).Total w g.num K ↔ ∃ k, g.Total w g.num k ∧ K = k + w o := by
  have ho : (g.append o).ops g.num = g.ops g.num ++ [o] := upd_self _ _ _
  unfold Total
  simp only [reach_frame (w := w) (wf_append h o) (ext_append g o) (Nat.le_refl _), ho, opsCost_append]
  have h1 : opsCost w [o] = w o := by simp [opsCost]
  rw [h1]
  constructor
  · rintro ⟨k, hk, rfl⟩; exact ⟨_, ⟨k, hk, rfl⟩, by omega⟩
  · rintro ⟨_, ⟨k, hk, rfl⟩, rfl⟩; exact ⟨k, hk, by omega⟩

theorem wf_merge (h : g.Wf) {os : List Nat} (ho : ∀ o ∈ os, o ≤ g.num) : (g.merge os).Wf := by
  intro e he
  rcases List.mem_append.1 he with he | he
  · have := h e he
    exact ⟨this.1, by show _ ≤ g.num + 1; omega⟩
  · obtain ⟨o, h1, rfl⟩ := List.mem_map.1 he
    have := ho o h1
    exact ⟨by show o < g.num + 1; omega, Nat.le_refl _⟩

theorem ext_merge (g : Flow) (os : List Nat) : Ext g (g.merge os) := by
  refine ⟨Nat.le_succ _, fun b hb => upd_ne _ _ (by omega), fun e h => List.mem_append_left _ h, ?_⟩
  intro e he hb
  rcases List.mem_append.1 he with he | he
  · exact he
  · obtain ⟨o, h1, rfl⟩ := List.mem_map.1 he
    change g.num + 1 ≤ g.num at hb
    omega

theorem total_merge_old (h : g.Wf) {os : List Nat} (ho : ∀ o ∈ os, o ≤ g.num) {b : Nat}
    (hb : b ≤ g.num) (K : Nat) : (g.merge os).Total w b K ↔ g.Total w b K := by
  have hops : (g.merge os).ops b = g.ops b := upd_ne _ _ (by omega)
  unfold Total
  simp only [reach_frame (wf_merge h ho) (ext_merge g os) hb, hops]

theorem total_merge (h : g.Wf) {os : List Nat} (ho : ∀ o ∈ os, o ≤ g.num) (K : Nat) :
    (g.merge os).Total w (g.num + 1) K ↔ ∃ o ∈ os, g.Total w o K := by
  have hops : (g.merge os).ops (g.num + 1) = [] := upd_self _ _ _
  constructor
  · rintro ⟨k, hk, rfl⟩
    rw [hops]
    cases hk with
    | edge hr he =>
      rename_i a k
      rcases List.mem_append.1 he with he | he
      · have := (h _ he).2
        simp only at this
        omega
      · obtain ⟨o, h1, h2⟩ := List.mem_map.1 he
        cases h2
        exact ⟨a, h1, (total_merge_old h ho (ho a h1) _).1 ⟨k, hr, by simp [opsCost]⟩⟩
  · rintro ⟨o, h1, h2⟩
    obtain ⟨k, hk, rfl⟩ := (total_merge_old h ho (ho o h1) _).2 h2
    refine ⟨_, .edge hk (List.mem_append_right _ (List.mem_map.2 ⟨o, h1, rfl⟩)), ?_⟩
    rw [hops]
    simp [opsCost]

theorem wf_close (h : g.Wf) {os : List Nat} (ho : ∀ o ∈ os, o ≤ g.num) : (g.close os).Wf := by
  unfold close
  split
  · exact h
  · exact wf_merge h (by simpa using ho)

theorem ext_close (g : Flow) (os : List Nat) : Ext g (g.close os) := by
  unfold close
  split
  · exact .refl g
  · exact ext_merge g _

theorem total_close (h : g.Wf) {os : List Nat} (ho : ∀ o ∈ os, o ≤ g.num) (K : Nat) :
    (g.close os).Total w (g.close os).num K ↔ g.Total w g.num K ∨ ∃ o ∈ os, g.Total w o K := by
  unfold close
  cases os with
  | nil => simp
  | cons o os =>
    simp only [List.isEmpty_cons, Bool.false_eq_true, if_false]
    have : (g.merge (g.num :: o :: os)).num = g.num + 1 := rfl
    rw [this, total_merge h (by simpa using ho)]
    simp

theorem total_close_old (h : g.Wf) {os : List Nat} (ho : ∀ o ∈ os, o ≤ g.num) {b : Nat} (hb : b ≤ g.num)
    (K : Nat) : (g.close os).Total w b K ↔ g.Total w b K := by
  unfold close
  split
  · rfl
  · exact total_merge_old h (by simpa using ho) hb K

end Flow

theorem mem_origins {js : List (Nat × Nat)} {d o : Nat} : o ∈ origins js d ↔ (d, o) ∈ js := by
  unfold origins
  simp only [List.mem_map, List.mem_filter, decide_eq_true_eq]
  constructor
  · rintro ⟨⟨a, b⟩, ⟨h, rfl⟩, rfl⟩; exact h
  · intro h; exact ⟨(d, o), ⟨h, rfl⟩, rfl⟩

theorem mem_others {js : List (Nat × Nat)} {d : Nat} {j : Nat × Nat} : j ∈ others js d ↔ j ∈ js ∧ j.1 ≠ d := by
  unfold others
  simp

/-- The graph is continued, and jumps come from finished new blocks. -/
theorem gen_ext (c : Code) : ∀ (d : Nat) (g : Flow), g.Wf →
    (c.gen d g).1.Wf ∧ g.Ext (c.gen d g).1 ∧
      ∀ j ∈ (c.gen d g).2, g.num ≤ j.2 ∧ j.2 < (c.gen d g).1.num := by
  have hjump : ∀ (r : Code) (d : Nat) (g : Flow) (os : List Nat), g.Wf → (∀ o ∈ os, o ≤ g.num) →
      (∀ (d : Nat) (g : Flow), g.Wf → (r.gen d g).1.Wf ∧ g.Ext (r.gen d g).1 ∧
        ∀ j ∈ (r.gen d g).2, g.num ≤ j.2 ∧ j.2 < (r.gen d g).1.num) →
      (r.gen d (g.merge os)).1.Wf ∧ g.Ext (r.gen d (g.merge os)).1 ∧ g.num < (r.gen d (g.merge os)).1.num ∧
        ∀ j ∈ (r.gen d (g.merge os)).2, g.num ≤ j.2 ∧ j.2 < (r.gen d (g.merge os)).1.num := by
    intro r d g os hg ho ih
    obtain ⟨h1, h2, h3⟩ := ih d (g.merge os) (Flow.wf_merge hg ho)
    have hn := h2.num
    change g.num + 1 ≤ _ at hn
    refine ⟨h1, (Flow.ext_merge g os).trans h2, hn, fun j hj => ?_⟩
    obtain ⟨h4, h5⟩ := h3 j hj
    change g.num + 1 ≤ _ at h4
    omega
  induction c with
  | nil => intro d g hg; exact ⟨hg, .refl g, fun j hj => absurd hj (by simp [Code.gen])⟩
  | op b r ih =>
    intro d g hg
    cases b with
    | ret | unreachable | br l =>
      obtain ⟨h1, h2, h3, h4⟩ := hjump r d g [] hg (by simp) ih
      refine ⟨h1, h2, fun j hj => ?_⟩
      rcases List.mem_cons.1 hj with rfl | hj
      · exact ⟨Nat.le_refl _, h3⟩
      · exact h4 j hj
    | brIf l =>
      obtain ⟨h1, h2, h3, h4⟩ := hjump r d g [g.num] hg (by simp) ih
      refine ⟨h1, h2, fun j hj => ?_⟩
      rcases List.mem_cons.1 hj with rfl | hj
      · exact ⟨Nat.le_refl _, h3⟩
      · exact h4 j hj
    | brTable ls l =>
      obtain ⟨h1, h2, h3, h4⟩ := hjump r d g [] hg (by simp) ih
      refine ⟨h1, h2, fun j hj => ?_⟩
      rcases List.mem_append.1 hj with hj | hj
      · obtain ⟨x, -, rfl⟩ := List.mem_map.1 hj
        exact ⟨Nat.le_refl _, h3⟩
      · exact h4 j hj
    | call | callIndirect | plain =>
      obtain ⟨h1, h2, h3⟩ := ih d _ (Flow.wf_append hg _)
      exact ⟨h1, (Flow.ext_append g _).trans h2, h3⟩
  | block b r ihb ihr =>
    intro d g hg
    obtain ⟨h1, h2, h3⟩ := ihb (d + 1) _ (Flow.wf_append hg .block)
    simp only [Code.gen]
    generalize hx : b.gen (d + 1) (g.append .block) = x at *
    have ho : ∀ o ∈ origins x.2 d, o ≤ x.1.num := fun o ho => Nat.le_of_lt (h3 _ (mem_origins.1 ho)).2
    obtain ⟨h4, h5, h6⟩ := ihr d _ (Flow.wf_close h1 ho)
    have h7 := (Flow.ext_close x.1 (origins x.2 d)).num
    refine ⟨h4, (Flow.ext_append g _).trans (h2.trans ((Flow.ext_close _ _).trans h5)), fun j hj => ?_⟩
    rcases List.mem_append.1 hj with hj | hj
    · have := h3 j (mem_others.1 hj).1
      change g.num ≤ _ ∧ _ at this
      have := h5.num
      omega
    · have := h6 j hj
      have h8 := h2.num
      change g.num ≤ _ at h8
      omega
  | loop => intro d g hg; exact ⟨hg, .refl g, fun j hj => absurd hj (by simp [Code.gen])⟩
  | ite t e r iht ihe ihr =>
    intro d g hg
    obtain ⟨h1, h2, h0, h3⟩ := hjump t (d + 1) g [g.num] hg (by simp) iht
    simp only [Code.gen]
    generalize hx : t.gen (d + 1) (g.merge [g.num]) = x at *
    obtain ⟨h4, h5, h6, h7⟩ := hjump e (d + 1) x.1 [g.num] h1 (by simp; omega) ihe
    generalize hy : e.gen (d + 1) (x.1.merge [g.num]) = y at *
    have ho : ∀ o ∈ y.1.num :: x.1.num :: (origins x.2 d ++ origins y.2 d), o ≤ y.1.num := by
      intro o ho
      simp only [List.mem_cons, List.mem_append, mem_origins] at ho
      rcases ho with rfl | rfl | ho | ho
      · omega
      · omega
      · have := h3 _ ho; simp only at this; omega
      · have := h7 _ ho; simp only at this; omega
    obtain ⟨h8, h9, h10⟩ := ihr d _ (Flow.wf_merge h4 ho)
    have h11 := h9.num
    change y.1.num + 1 ≤ _ at h11
    refine ⟨h8, h2.trans (h5.trans ((Flow.ext_merge _ _).trans h9)), fun j hj => ?_⟩
    rcases List.mem_append.1 hj with hj | hj
    · rcases List.mem_append.1 hj with hj | hj
      · have := h3 j (mem_others.1 hj).1; omega
      · have := h7 j (mem_others.1 hj).1; omega
    · have := h10 j hj
      change y.1.num + 1 ≤ _ ∧ _ at this
      omega
  | ift t r iht ihr =>
    intro d g hg
    obtain ⟨h1, h2, h0, h3⟩ := hjump t (d + 1) g [g.num] hg (by simp) iht
    simp only [Code.gen]
    generalize hx : t.gen (d + 1) (g.merge [g.num]) = x at *
    have ho : ∀ o ∈ x.1.num :: g.num :: origins x.2 d, o ≤ x.1.num := by
      intro o ho
      simp only [List.mem_cons, mem_origins] at ho
      rcases ho with rfl | rfl | ho
      · omega
      · omega
      · have := h3 _ ho; simp only at this; omega
    obtain ⟨h8, h9, h10⟩ := ihr d _ (Flow.wf_merge h1 ho)
    have h11 := h9.num
    change x.1.num + 1 ≤ _ at h11
    refine ⟨h8, h2.trans ((Flow.ext_merge _ _).trans h9), fun j hj => ?_⟩
    rcases List.mem_append.1 hj with hj | hj
    · have := h3 j (mem_others.1 hj).1; omega
    · have := h10 j hj
      change x.1.num + 1 ≤ _ ∧ _ at this
      omega

/-! ## Simulation -/

/-- The depth an exit leads to, from depth `d`. -/
def Exit.Goes (d : Nat) : Exit → Nat → Prop
  | .next, _ => False
  | .br n, dd => dd + n + 1 = d
  | .ret, dd => dd = 0
  | .stop, dd => dd = 0

theorem goes_inner {d : Nat} (hd : 0 < d) (e : Exit) :
    (e.leave = none ↔ e = .next ∨ e.Goes (d + 1) d) ∧
      ∀ dd, dd ≠ d → (e.Goes (d + 1) dd ↔ ∃ e', e.leave = some e' ∧ e'.Goes d dd) := by
  cases e with
  | next => simp [Exit.leave, Exit.Goes]
  | br n =>
    cases n with
    | zero => simp [Exit.leave, Exit.Goes]
    | succ n =>
      simp [Exit.leave, Exit.Goes]
      intro dd _; omega
  | ret => simp [Exit.leave, Exit.Goes]; omega
  | stop => simp [Exit.leave, Exit.Goes]; omega

theorem goes_lt {d dd : Nat} (hd : 0 < d) {e : Exit} (h : e.Goes d dd) : dd < d := by
  cases e <;> simp [Exit.Goes] at h <;> omega

theorem mem_cons_pair {dd o a b : Nat} {l : List (Nat × Nat)} :
    (dd, o) ∈ (a, b) :: l ↔ (dd = a ∧ o = b) ∨ (dd, o) ∈ l := by simp

section sim

variable (w : Op → Nat)

/-- What the graph after the code has to do with the graph before it. -/
structure Sim (c : Code) (d : Nat) (g : Flow) : Prop where
  next : ∀ K, (c.gen d g).1.Total w (c.gen d g).1.num K ↔
    ∃ k k', g.Total w g.num k ∧ c.Cost w .next k' ∧ K = k + k'
  jump : ∀ dd K, (∃ o, (dd, o) ∈ (c.gen d g).2 ∧ (c.gen d g).1.Total w o K) ↔
    ∃ k k' e, g.Total w g.num k ∧ c.Cost w e k' ∧ e.Goes d dd ∧ K = k + k'

/-- The code after a jump. -/
theorem sim_dead {r : Code} {d : Nat} {g : Flow} (hg : g.Wf) (ih : Sim w r d (g.merge [])) (K : Nat) :
    (¬ (r.gen d (g.merge [])).1.Total w (r.gen d (g.merge [])).1.num K) ∧
    (∀ dd, ¬ ∃ o, (dd, o) ∈ (r.gen d (g.merge [])).2 ∧ (r.gen d (g.merge [])).1.Total w o K) ∧
    ((r.gen d (g.merge [])).1.Total w g.num K ↔ g.Total w g.num K) := by
  have hno : ∀ k, ¬ (g.merge []).Total w (g.merge []).num k := by
    intro k hk
    have := (Flow.total_merge (w := w) hg (os := []) (by simp) k).1 hk
    simp at this
  obtain ⟨h1, h2, h3⟩ := gen_ext r d (g.merge []) (Flow.wf_merge hg (by simp))
  refine ⟨?_, ?_, ?_⟩
  · rw [ih.next]
    rintro ⟨k, k', h, -⟩
    exact hno k h
  · intro dd
    rw [ih.jump]
    rintro ⟨k, k', e, h, -⟩
    exact hno k h
  · rw [Flow.total_frame h1 h2 (Nat.lt_succ_self _)]
    exact Flow.total_merge_old hg (by simp) (Nat.le_refl _) K

theorem gen_sim (hw : ∀ o : Op, o.priced = false → w o = 0) (c : Code) : ∀ (d : Nat) (g : Flow), 0 < d →
    c.Valid d → g.Wf → Sim w c d g := by
  induction c with
  | nil =>
    intro d g hd hv hg
    refine ⟨fun K => ?_, fun dd K => ?_⟩
    · simp only [Code.gen, Code.Cost]
      constructor
      · intro h; exact ⟨K, 0, h, ⟨trivial, rfl⟩, rfl⟩
      · rintro ⟨k, k', h, ⟨-, rfl⟩, rfl⟩; exact h
    · simp only [Code.gen, Code.Cost, List.not_mem_nil, false_and, exists_false, false_iff]
      rintro ⟨k, k', e, -, ⟨rfl, -⟩, h, -⟩
      exact h
  | op b r ih =>
    intro d g hd hv hg
    obtain ⟨hb, hv⟩ := hv
    cases b with
    | ret | unreachable =>
      have hdead := sim_dead w hg (ih d (g.merge []) hd hv (Flow.wf_merge hg (by simp)))
      refine ⟨fun K => ?_, fun dd K => ?_⟩
      · simp only [Code.gen, Code.Cost, Basic.jumps, Basic.Falls, List.mem_singleton, Option.some.injEq,
          reduceCtorEq, false_and, or_false, and_false, exists_false, iff_false]
        exact (hdead K).1
      · simp only [Code.gen, Code.Cost, Basic.jumps, Basic.Falls, List.mem_singleton, Option.some.injEq,
          false_and, or_false, mem_cons_pair]
        constructor
        · rintro ⟨o, ⟨rfl, rfl⟩ | ho, hT⟩
          · exact ⟨K, 0, _, (hdead K).2.2.1 hT, ⟨rfl, (hw _ rfl).symm⟩, rfl, rfl⟩
          · exact absurd ⟨o, ho, hT⟩ ((hdead K).2.1 dd)
        · rintro ⟨k, k', e, hT, ⟨rfl, rfl⟩, hgo, rfl⟩
          refine ⟨g.num, .inl ⟨hgo, rfl⟩, ?_⟩
          rw [hw _ rfl]
          exact (hdead k).2.2.2 hT
    | br l =>
      have hdead := sim_dead w hg (ih d (g.merge []) hd hv (Flow.wf_merge hg (by simp)))
      refine ⟨fun K => ?_, fun dd K => ?_⟩
      · simp only [Code.gen, Code.Cost, Basic.jumps, Basic.Falls, List.mem_singleton, Option.some.injEq,
          reduceCtorEq, false_and, or_false, and_false, exists_false, iff_false]
        exact (hdead K).1
      · simp only [Code.gen, Code.Cost, Basic.jumps, Basic.Falls, List.mem_singleton, Option.some.injEq,
          false_and, or_false, mem_cons_pair]
        constructor
        · rintro ⟨o, ⟨rfl, rfl⟩ | ho, hT⟩
          · refine ⟨K, 0, _, (hdead K).2.2.1 hT, ⟨rfl, (hw _ rfl).symm⟩, ?_, rfl⟩
            simp only [Exit.Goes]
            simp only at hb
            omega
          · exact absurd ⟨o, ho, hT⟩ ((hdead K).2.1 dd)
        · rintro ⟨k, k', e, hT, ⟨rfl, rfl⟩, hgo, rfl⟩
          simp only [Exit.Goes] at hgo
          refine ⟨g.num, .inl ⟨by omega, rfl⟩, ?_⟩
          rw [hw _ rfl]
          exact (hdead k).2.2.2 hT
    | brTable ls l =>
      have hdead := sim_dead w hg (ih d (g.merge []) hd hv (Flow.wf_merge hg (by simp)))
      refine ⟨fun K => ?_, fun dd K => ?_⟩
      · simp only [Code.gen, Code.Cost, Basic.jumps, Basic.Falls, List.mem_map, Option.some.injEq,
          reduceCtorEq, false_and, or_false, and_false, exists_false, iff_false]
        exact (hdead K).1
      · simp only [Code.gen, Code.Cost, Basic.jumps, Basic.Falls, Option.some.injEq,
          false_and, or_false, List.mem_append, List.mem_map, Prod.mk.injEq]
        constructor
        · rintro ⟨o, ⟨x, hx, rfl, rfl⟩ | ho, hT⟩
          · refine ⟨K, 0, .br x, (hdead K).2.2.1 hT, ⟨⟨x, hx, rfl⟩, (hw _ rfl).symm⟩, ?_, rfl⟩
            simp only [Exit.Goes]
            have := hb x hx
            omega
          · exact absurd ⟨o, ho, hT⟩ ((hdead K).2.1 dd)
        · rintro ⟨k, k', e, hT, ⟨⟨x, hx, rfl⟩, rfl⟩, hgo, rfl⟩
          simp only [Exit.Goes] at hgo
          refine ⟨g.num, .inl ⟨x, hx, by omega, rfl⟩, ?_⟩
          rw [hw _ rfl]
          exact (hdead k).2.2.2 hT
    | brIf l =>
      have hm : (g.merge [g.num]).Wf := Flow.wf_merge hg (by simp)
      have hS := ih d (g.merge [g.num]) hd hv hm
      obtain ⟨h1, h2, h3⟩ := gen_ext r d (g.merge [g.num]) hm
      have hmT : ∀ K, (g.merge [g.num]).Total w (g.merge [g.num]).num K ↔ g.Total w g.num K := by
        intro K
        have := Flow.total_merge (w := w) hg (os := [g.num]) (by simp) K
        simp only [List.mem_singleton, exists_eq_left] at this
        exact this
      have hold : ∀ K, (r.gen d (g.merge [g.num])).1.Total w g.num K ↔ g.Total w g.num K := by
        intro K
        rw [Flow.total_frame h1 h2 (Nat.lt_succ_self _)]
        exact Flow.total_merge_old hg (by simp) (Nat.le_refl _) K
      refine ⟨fun K => ?_, fun dd K => ?_⟩
      · simp only [Code.gen]
        rw [hS.next]
        simp only [hmT, Code.Cost, Basic.jumps, Basic.Falls, List.mem_cons, Option.some.injEq,
          reduceCtorEq, List.not_mem_nil, or_false, false_and, false_or, true_and]
        rw [hw _ rfl]
        constructor
        · rintro ⟨k, k', h, hc, rfl⟩; exact ⟨k, k', h, ⟨k', hc, by omega⟩, rfl⟩
        · rintro ⟨k, _, h, ⟨k', hc, rfl⟩, rfl⟩; exact ⟨k, k', h, hc, by omega⟩
      · simp only [Code.gen, List.mem_cons, Prod.mk.injEq]
        have hj := hS.jump dd K
        simp only [hmT] at hj
        simp only [Code.Cost, Basic.jumps, Basic.Falls, List.mem_cons, Option.some.injEq,
          reduceCtorEq, List.not_mem_nil, or_false, true_and]
        rw [hw _ rfl]
        constructor
        · rintro ⟨o, ⟨rfl, rfl⟩ | ho, hT⟩
          · refine ⟨K, 0, .br l, (hold K).1 hT, .inl ⟨rfl, rfl⟩, ?_, rfl⟩
            simp only [Exit.Goes]
            simp only at hb
            omega
          · obtain ⟨k, k', e, a1, a2, a3, a4⟩ := hj.1 ⟨o, ho, hT⟩
            exact ⟨k, k', e, a1, .inr ⟨k', a2, by omega⟩, a3, a4⟩
        · rintro ⟨k, k', e, hT, ⟨rfl, rfl⟩ | ⟨k'', hc, rfl⟩, hgo, rfl⟩
          · simp only [Exit.Goes] at hgo
            exact ⟨g.num, .inl ⟨by omega, rfl⟩, (hold _).2 hT⟩
          · obtain ⟨o, ho, hT'⟩ := hj.2 ⟨k, k'', e, hT, hc, hgo, by omega⟩
            exact ⟨o, .inr ho, hT'⟩
    | call | callIndirect | plain =>
      have hS := fun o => ih d (g.append o) hd hv (Flow.wf_append hg o)
      refine ⟨fun K => ?_, fun dd K => ?_⟩
      · simp only [Code.gen]
        rw [(hS _).next]
        simp only [Code.Cost, Basic.jumps, Basic.Falls, List.mem_cons, reduceCtorEq, List.not_mem_nil,
          or_false, false_and, false_or, true_and]
        constructor
        · rintro ⟨k, k', h, hc, rfl⟩
          obtain ⟨k₀, h₀, rfl⟩ := (Flow.total_append hg _ _).1 h
          exact ⟨k₀, _, h₀, ⟨k', hc, rfl⟩, by omega⟩
        · rintro ⟨k, _, h, ⟨k', hc, rfl⟩, rfl⟩
          exact ⟨_, k', (Flow.total_append hg _ _).2 ⟨k, h, rfl⟩, hc, by omega⟩
      · simp only [Code.gen]
        rw [(hS _).jump]
        simp only [Code.Cost, Basic.jumps, Basic.Falls, List.mem_cons, reduceCtorEq, List.not_mem_nil,
          or_false, false_and, false_or, true_and]
        constructor
        · rintro ⟨k, k', e, h, hc, hgo, rfl⟩
          obtain ⟨k₀, h₀, rfl⟩ := (Flow.total_append hg _ _).1 h
          exact ⟨k₀, _, e, h₀, ⟨k', hc, rfl⟩, hgo, by omega⟩
        · rintro ⟨k, _, e, h, ⟨k', hc, rfl⟩, hgo, rfl⟩
          exact ⟨_, k', e, (Flow.total_append hg _ _).2 ⟨k, h, rfl⟩, hc, hgo, by omega⟩
  | block b r ihb ihr =>
    intro d g hd hv hg
    obtain ⟨hvb, hvr⟩ := hv
    have hSb := ihb (d + 1) _ (by omega) hvb (Flow.wf_append hg .block)
    obtain ⟨h1, h2, h3⟩ := gen_ext b (d + 1) _ (Flow.wf_append hg .block)
    obtain ⟨n1, n2⟩ := hSb
    generalize hx : b.gen (d + 1) (g.append .block) = x at *
    have ho : ∀ o ∈ origins x.2 d, o ≤ x.1.num := fun o ho => Nat.le_of_lt (h3 _ (mem_origins.1 ho)).2
    have hSr := ihr d _ hd hvr (Flow.wf_close h1 ho)
    obtain ⟨h4, h5, h6⟩ := gen_ext r d _ (Flow.wf_close h1 ho)
    -- the block after the end
    have hcl : ∀ K, (x.1.close (origins x.2 d)).Total w (x.1.close (origins x.2 d)).num K ↔
        ∃ k k₁ e₁, g.Total w g.num k ∧ b.Cost w e₁ k₁ ∧ e₁.leave = none ∧ K = k + (w .block + k₁) := by
      intro K
      rw [Flow.total_close h1 ho, n1]
      have hjd := n2 d K
      simp only [← mem_origins] at hjd
      rw [hjd]
      constructor
      · rintro (⟨k, k', h, hc, rfl⟩ | ⟨k, k', e, h, hc, hgo, rfl⟩)
        · obtain ⟨k₀, h₀, rfl⟩ := (Flow.total_append hg _ _).1 h
          exact ⟨k₀, k', .next, h₀, hc, rfl, by omega⟩
        · obtain ⟨k₀, h₀, rfl⟩ := (Flow.total_append hg _ _).1 h
          exact ⟨k₀, k', e, h₀, hc, (goes_inner hd e).1.2 (.inr hgo), by omega⟩
      · rintro ⟨k, k₁, e₁, h, hc, hl, rfl⟩
        have hap := (Flow.total_append (w := w) hg .block (k + w .block)).2 ⟨k, h, rfl⟩
        rcases (goes_inner hd e₁).1.1 hl with rfl | hgo
        · exact .inl ⟨_, k₁, hap, hc, by omega⟩
        · exact .inr ⟨_, k₁, e₁, hap, hc, hgo, by omega⟩
    refine ⟨fun K => ?_, fun dd K => ?_⟩
    · simp only [Code.gen, hx]
      rw [hSr.next]
      simp only [hcl, Code.Cost, scopeCost]
      constructor
      · rintro ⟨k, k', ⟨k₀, k₁, e₁, h, hc, hl, rfl⟩, hcr, rfl⟩
        exact ⟨k₀, _, h, ⟨e₁, k₁, hc, .inl ⟨hl, k', hcr, rfl⟩⟩, by omega⟩
      · rintro ⟨k, _, h, ⟨e₁, k₁, hc, ⟨hl, k', hcr, rfl⟩ | ⟨hl, rfl⟩⟩, rfl⟩
        · exact ⟨_, k', ⟨k, k₁, e₁, h, hc, hl, rfl⟩, hcr, by omega⟩
        · cases e₁ with
          | br n => cases n <;> simp [Exit.leave] at hl
          | _ => simp [Exit.leave] at hl
    · simp only [Code.gen, hx, List.mem_append]
      have hr := hSr.jump dd K
      simp only [hcl] at hr
      have hold : ∀ o, (dd, o) ∈ x.2 → ((r.gen d (x.1.close (origins x.2 d))).1.Total w o K ↔ x.1.Total w o K) := by
        intro o ho'
        have hlt := (h3 _ ho').2
        simp only at hlt
        rw [Flow.total_frame h4 ((Flow.ext_close x.1 (origins x.2 d)).trans h5) hlt]
      simp only [Code.Cost, scopeCost]
      constructor
      · rintro ⟨o, hoo | hoo, hT⟩
        · obtain ⟨ho1, ho2⟩ := mem_others.1 hoo
          simp only [ne_eq] at ho2
          obtain ⟨k, k', e, h, hc, hgo, rfl⟩ := (n2 dd K).1 ⟨o, ho1, (hold o ho1).1 hT⟩
          obtain ⟨k₀, h₀, rfl⟩ := (Flow.total_append hg _ _).1 h
          obtain ⟨e', hl, hgo'⟩ := ((goes_inner hd e).2 dd ho2).1 hgo
          exact ⟨k₀, _, e', h₀, ⟨e, k', hc, .inr ⟨hl, rfl⟩⟩, hgo', by omega⟩
        · obtain ⟨k, k', e, ⟨k₀, k₁, e₁, h, hc, hl, rfl⟩, hcr, hgo, rfl⟩ := hr.1 ⟨o, hoo, hT⟩
          exact ⟨k₀, _, e, h, ⟨e₁, k₁, hc, .inl ⟨hl, k', hcr, rfl⟩⟩, hgo, by omega⟩
      · rintro ⟨k, _, e, h, ⟨e₁, k₁, hc, ⟨hl, k', hcr, rfl⟩ | ⟨hl, rfl⟩⟩, hgo, rfl⟩
        · obtain ⟨o, hoo, hT⟩ := hr.2 ⟨_, k', e, ⟨k, k₁, e₁, h, hc, hl, rfl⟩, hcr, hgo, by omega⟩
          exact ⟨o, .inr hoo, hT⟩
        · have hne : dd ≠ d := Nat.ne_of_lt (goes_lt hd hgo)
          have hgo' := ((goes_inner hd e₁).2 dd hne).2 ⟨e, hl, hgo⟩
          obtain ⟨o, hoo, hT⟩ := (n2 dd (k + (w .block + k₁))).2 ⟨_, k₁, e₁,
            (Flow.total_append (w := w) hg .block (k + w .block)).2 ⟨k, h, rfl⟩, hc, hgo', by omega⟩
          exact ⟨o, .inl (mem_others.2 ⟨hoo, hne⟩), (hold o hoo).2 hT⟩
  | loop => intro d g hd hv; exact absurd hv id
  | ite t f r iht ihf ihr =>
    intro d g hd hv hg
    obtain ⟨hvt, hvf, hvr⟩ := hv
    have hm : (g.merge [g.num]).Wf := Flow.wf_merge hg (by simp)
    have hmT : ∀ K, (g.merge [g.num]).Total w (g.merge [g.num]).num K ↔ g.Total w g.num K := by
      intro K
      have := Flow.total_merge (w := w) hg (os := [g.num]) (by simp) K
      simp only [List.mem_singleton, exists_eq_left] at this
      exact this
    obtain ⟨t1, t2⟩ := iht (d + 1) _ (by omega) hvt hm
    obtain ⟨h1, h2, h3⟩ := gen_ext t (d + 1) _ hm
    generalize hx : t.gen (d + 1) (g.merge [g.num]) = x at *
    have hxn : g.num < x.1.num := h2.num
    have hm2 : (x.1.merge [g.num]).Wf := Flow.wf_merge h1 (by simp; omega)
    have hgT : ∀ K, x.1.Total w g.num K ↔ g.Total w g.num K := by
      intro K
      rw [Flow.total_frame h1 h2 (Nat.lt_succ_self _)]
      exact Flow.total_merge_old hg (by simp) (Nat.le_refl _) K
    have hmT2 : ∀ K, (x.1.merge [g.num]).Total w (x.1.merge [g.num]).num K ↔ g.Total w g.num K := by
      intro K
      have := Flow.total_merge (w := w) h1 (os := [g.num]) (by simp; omega) K
      simp only [List.mem_singleton, exists_eq_left] at this
      rw [← hgT]
      exact this
    obtain ⟨f1, f2⟩ := ihf (d + 1) _ (by omega) hvf hm2
    obtain ⟨h4, h5, h6⟩ := gen_ext f (d + 1) _ hm2
    generalize hy : f.gen (d + 1) (x.1.merge [g.num]) = y at *
    have hyn : x.1.num < y.1.num := h5.num
    have hxy : ∀ b, b ≤ x.1.num → ∀ K, y.1.Total w b K ↔ x.1.Total w b K := by
      intro b hb K
      rw [Flow.total_frame h4 h5 (by show b < x.1.num + 1; omega)]
      exact Flow.total_merge_old h1 (by simp; omega) hb K
    have ho : ∀ o ∈ y.1.num :: x.1.num :: (origins x.2 d ++ origins y.2 d), o ≤ y.1.num := by
      intro o ho
      simp only [List.mem_cons, List.mem_append, mem_origins] at ho
      rcases ho with rfl | rfl | ho | ho
      · omega
      · omega
      · have := h3 _ ho; simp only at this; omega
      · have := h6 _ ho; simp only at this; omega
    obtain ⟨r1, r2⟩ := ihr d _ hd hvr (Flow.wf_merge h4 ho)
    obtain ⟨h7, h8, h9⟩ := gen_ext r d _ (Flow.wf_merge h4 ho)
    -- the block after the end
    have hcl : ∀ K, (y.1.merge (y.1.num :: x.1.num :: (origins x.2 d ++ origins y.2 d))).Total w
        (y.1.merge (y.1.num :: x.1.num :: (origins x.2 d ++ origins y.2 d))).num K ↔
        ∃ k k₁ e₁, g.Total w g.num k ∧ (t.Cost w e₁ k₁ ∨ f.Cost w e₁ k₁) ∧ e₁.leave = none ∧ K = k + k₁ := by
      intro K
      have hT := Flow.total_merge (w := w) h4 ho K
      change _ ↔ _ at hT
      show (y.1.merge _).Total w (y.1.num + 1) K ↔ _
      rw [hT]
      have td := t2 d K
      have fd := f2 d K
      simp only [hmT] at td
      simp only [hmT2] at fd
      have t1' := t1 K
      have f1' := f1 K
      simp only [hmT] at t1'
      simp only [hmT2] at f1'
      constructor
      · rintro ⟨o, hoo, hTo⟩
        simp only [List.mem_cons, List.mem_append, mem_origins] at hoo
        rcases hoo with rfl | rfl | hoo | hoo
        · obtain ⟨k, k', h, hc, rfl⟩ := f1'.1 hTo
          exact ⟨k, k', .next, h, .inr hc, rfl, rfl⟩
        · obtain ⟨k, k', h, hc, rfl⟩ := t1'.1 ((hxy _ (Nat.le_refl _) K).1 hTo)
          exact ⟨k, k', .next, h, .inl hc, rfl, rfl⟩
        · obtain ⟨k, k', e, h, hc, hgo, rfl⟩ := td.1 ⟨o, hoo, (hxy _ (Nat.le_of_lt (h3 _ hoo).2) _).1 hTo⟩
          exact ⟨k, k', e, h, .inl hc, (goes_inner hd e).1.2 (.inr hgo), rfl⟩
        · obtain ⟨k, k', e, h, hc, hgo, rfl⟩ := fd.1 ⟨o, hoo, hTo⟩
          exact ⟨k, k', e, h, .inr hc, (goes_inner hd e).1.2 (.inr hgo), rfl⟩
      · rintro ⟨k, k₁, e₁, h, hc | hc, hl, rfl⟩
        · rcases (goes_inner hd e₁).1.1 hl with rfl | hgo
          · exact ⟨x.1.num, by simp, (hxy _ (Nat.le_refl _) _).2 (t1'.2 ⟨k, k₁, h, hc, rfl⟩)⟩
          · obtain ⟨o, hoo, hTo⟩ := td.2 ⟨k, k₁, e₁, h, hc, hgo, rfl⟩
            exact ⟨o, by simp [mem_origins, hoo], (hxy _ (Nat.le_of_lt (h3 _ hoo).2) _).2 hTo⟩
        · rcases (goes_inner hd e₁).1.1 hl with rfl | hgo
          · exact ⟨y.1.num, by simp, f1'.2 ⟨k, k₁, h, hc, rfl⟩⟩
          · obtain ⟨o, hoo, hTo⟩ := fd.2 ⟨k, k₁, e₁, h, hc, hgo, rfl⟩
            exact ⟨o, by simp [mem_origins, hoo], hTo⟩
    generalize hos : y.1.num :: x.1.num :: (origins x.2 d ++ origins y.2 d) = os at *
    have hyz : ∀ b, b < y.1.num → ∀ K, (r.gen d (y.1.merge os)).1.Total w b K ↔ y.1.Total w b K := by
      intro b hb K
      rw [Flow.total_frame h7 ((Flow.ext_merge y.1 os).trans h8) hb]
    refine ⟨fun K => ?_, fun dd K => ?_⟩
    · simp only [Code.gen, hx, hy, hos]
      rw [r1]
      simp only [hcl, Code.Cost, scopeCost]
      rw [hw .if_ rfl]
      constructor
      · rintro ⟨k, k', ⟨k₀, k₁, e₁, h, hc | hc, hl, rfl⟩, hcr, rfl⟩
        · exact ⟨k₀, k₁ + k', h, .inl ⟨e₁, k₁, hc, .inl ⟨hl, k', hcr, by omega⟩⟩, by omega⟩
        · exact ⟨k₀, k₁ + k', h, .inr ⟨e₁, k₁, hc, .inl ⟨hl, k', hcr, by omega⟩⟩, by omega⟩
      · have hnl : ∀ e₁ : Exit, e₁.leave ≠ some .next := by
          intro e₁ hl
          cases e₁ with
          | br n => cases n <;> simp [Exit.leave] at hl
          | _ => simp [Exit.leave] at hl
        rintro ⟨k, _, h, ⟨e₁, k₁, hc, ⟨hl, k', hcr, rfl⟩ | ⟨hl, rfl⟩⟩ |
          ⟨e₁, k₁, hc, ⟨hl, k', hcr, rfl⟩ | ⟨hl, rfl⟩⟩, rfl⟩
        · exact ⟨_, k', ⟨k, k₁, e₁, h, .inl hc, hl, rfl⟩, hcr, by omega⟩
        · exact absurd hl (hnl _)
        · exact ⟨_, k', ⟨k, k₁, e₁, h, .inr hc, hl, rfl⟩, hcr, by omega⟩
        · exact absurd hl (hnl _)
    · simp only [Code.gen, hx, hy, hos, List.mem_append]
      have hr := r2 dd K
      simp only [hcl] at hr
      have td := t2 dd K
      have fd := f2 dd K
      simp only [hmT] at td
      simp only [hmT2] at fd
      simp only [Code.Cost, scopeCost]
      rw [hw .if_ rfl]
      constructor
      · rintro ⟨o, (hoo | hoo) | hoo, hT⟩
        · obtain ⟨ho1, ho2⟩ := mem_others.1 hoo
          simp only [ne_eq] at ho2
          have hlt := (h3 _ ho1).2
          simp only at hlt
          obtain ⟨k, k', e, h, hc, hgo, rfl⟩ := td.1 ⟨o, ho1,
            (hxy o (by omega) _).1 ((hyz o (by omega) _).1 hT)⟩
          obtain ⟨e', hl, hgo'⟩ := ((goes_inner hd e).2 dd ho2).1 hgo
          exact ⟨k, _, e', h, .inl ⟨e, k', hc, .inr ⟨hl, rfl⟩⟩, hgo', by omega⟩
        · obtain ⟨ho1, ho2⟩ := mem_others.1 hoo
          simp only [ne_eq] at ho2
          have hlt := (h6 _ ho1).2
          simp only at hlt
          obtain ⟨k, k', e, h, hc, hgo, rfl⟩ := fd.1 ⟨o, ho1, (hyz o (by omega) _).1 hT⟩
          obtain ⟨e', hl, hgo'⟩ := ((goes_inner hd e).2 dd ho2).1 hgo
          exact ⟨k, _, e', h, .inr ⟨e, k', hc, .inr ⟨hl, rfl⟩⟩, hgo', by omega⟩
        · obtain ⟨k, k', e, ⟨k₀, k₁, e₁, h, hc | hc, hl, rfl⟩, hcr, hgo, rfl⟩ := hr.1 ⟨o, hoo, hT⟩
          · exact ⟨k₀, k₁ + k', e, h, .inl ⟨e₁, k₁, hc, .inl ⟨hl, k', hcr, by omega⟩⟩, hgo, by omega⟩
          · exact ⟨k₀, k₁ + k', e, h, .inr ⟨e₁, k₁, hc, .inl ⟨hl, k', hcr, by omega⟩⟩, hgo, by omega⟩
      · rintro ⟨k, _, e, h, ⟨e₁, k₁, hc, ⟨hl, k', hcr, rfl⟩ | ⟨hl, rfl⟩⟩ |
          ⟨e₁, k₁, hc, ⟨hl, k', hcr, rfl⟩ | ⟨hl, rfl⟩⟩, hgo, rfl⟩
        · obtain ⟨o, hoo, hT⟩ := hr.2 ⟨_, k', e, ⟨k, k₁, e₁, h, .inl hc, hl, rfl⟩, hcr, hgo, by omega⟩
          exact ⟨o, .inr hoo, hT⟩
        · have hne : dd ≠ d := Nat.ne_of_lt (goes_lt hd hgo)
          have hgo' := ((goes_inner hd e₁).2 dd hne).2 ⟨e, hl, hgo⟩
          obtain ⟨o, hoo, hT⟩ := td.2 ⟨k, k₁, e₁, h, hc, hgo', by omega⟩
          have hlt := (h3 _ hoo).2
          simp only at hlt
          exact ⟨o, .inl (.inl (mem_others.2 ⟨hoo, hne⟩)), (hyz o (by omega) _).2 ((hxy o (by omega) _).2 hT)⟩
        · obtain ⟨o, hoo, hT⟩ := hr.2 ⟨_, k', e, ⟨k, k₁, e₁, h, .inr hc, hl, rfl⟩, hcr, hgo, by omega⟩
          exact ⟨o, .inr hoo, hT⟩
        · have hne : dd ≠ d := Nat.ne_of_lt (goes_lt hd hgo)
          have hgo' := ((goes_inner hd e₁).2 dd hne).2 ⟨e, hl, hgo⟩
          obtain ⟨o, hoo, hT⟩ := fd.2 ⟨k, k₁, e₁, h, hc, hgo', by omega⟩
          have hlt := (h6 _ hoo).2
          simp only at hlt
          exact ⟨o, .inl (.inr (mem_others.2 ⟨hoo, hne⟩)), (hyz o (by omega) _).2 hT⟩
  | ift t r iht ihr =>
    intro d g hd hv hg
    obtain ⟨hvt, hvr⟩ := hv
    have hm : (g.merge [g.num]).Wf := Flow.wf_merge hg (by simp)
    have hmT : ∀ K, (g.merge [g.num]).Total w (g.merge [g.num]).num K ↔ g.Total w g.num K := by
      intro K
      have := Flow.total_merge (w := w) hg (os := [g.num]) (by simp) K
      simp only [List.mem_singleton, exists_eq_left] at this
      exact this
    obtain ⟨t1, t2⟩ := iht (d + 1) _ (by omega) hvt hm
    obtain ⟨h1, h2, h3⟩ := gen_ext t (d + 1) _ hm
    generalize hx : t.gen (d + 1) (g.merge [g.num]) = x at *
    have hxn : g.num < x.1.num := h2.num
    have hgT : ∀ K, x.1.Total w g.num K ↔ g.Total w g.num K := by
      intro K
      rw [Flow.total_frame h1 h2 (Nat.lt_succ_self _)]
      exact Flow.total_merge_old hg (by simp) (Nat.le_refl _) K
    have ho : ∀ o ∈ x.1.num :: g.num :: origins x.2 d, o ≤ x.1.num := by
      intro o ho
      simp only [List.mem_cons, mem_origins] at ho
      rcases ho with rfl | rfl | ho
      · omega
      · omega
      · have := h3 _ ho; simp only at this; omega
    obtain ⟨r1, r2⟩ := ihr d _ hd hvr (Flow.wf_merge h1 ho)
    obtain ⟨h7, h8, h9⟩ := gen_ext r d _ (Flow.wf_merge h1 ho)
    have hcl : ∀ K, (x.1.merge (x.1.num :: g.num :: origins x.2 d)).Total w
        (x.1.merge (x.1.num :: g.num :: origins x.2 d)).num K ↔
        g.Total w g.num K ∨
          ∃ k k₁ e₁, g.Total w g.num k ∧ t.Cost w e₁ k₁ ∧ e₁.leave = none ∧ K = k + k₁ := by
      intro K
      show (x.1.merge _).Total w (x.1.num + 1) K ↔ _
      rw [Flow.total_merge (w := w) h1 ho K]
      have td := t2 d K
      simp only [hmT] at td
      have t1' := t1 K
      simp only [hmT] at t1'
      constructor
      · rintro ⟨o, hoo, hTo⟩
        simp only [List.mem_cons, mem_origins] at hoo
        rcases hoo with rfl | rfl | hoo
        · obtain ⟨k, k', h, hc, rfl⟩ := t1'.1 hTo
          exact .inr ⟨k, k', .next, h, hc, rfl, rfl⟩
        · exact .inl ((hgT K).1 hTo)
        · obtain ⟨k, k', e, h, hc, hgo, rfl⟩ := td.1 ⟨o, hoo, hTo⟩
          exact .inr ⟨k, k', e, h, hc, (goes_inner hd e).1.2 (.inr hgo), rfl⟩
      · rintro (h | ⟨k, k₁, e₁, h, hc, hl, rfl⟩)
        · exact ⟨g.num, by simp, (hgT K).2 h⟩
        · rcases (goes_inner hd e₁).1.1 hl with rfl | hgo
          · exact ⟨x.1.num, by simp, t1'.2 ⟨k, k₁, h, hc, rfl⟩⟩
          · obtain ⟨o, hoo, hTo⟩ := td.2 ⟨k, k₁, e₁, h, hc, hgo, rfl⟩
            exact ⟨o, by simp [mem_origins, hoo], hTo⟩
    generalize hos : x.1.num :: g.num :: origins x.2 d = os at *
    have hyz : ∀ b, b < x.1.num → ∀ K, (r.gen d (x.1.merge os)).1.Total w b K ↔ x.1.Total w b K := by
      intro b hb K
      rw [Flow.total_frame h7 ((Flow.ext_merge x.1 os).trans h8) hb]
    refine ⟨fun K => ?_, fun dd K => ?_⟩
    · simp only [Code.gen, hx, hos]
      rw [r1]
      simp only [hcl, Code.Cost, scopeCost]
      rw [hw .if_ rfl]
      constructor
      · rintro ⟨k, k', h | ⟨k₀, k₁, e₁, h, hc, hl, rfl⟩, hcr, rfl⟩
        · exact ⟨k, k', h, .inr ⟨k', hcr, by omega⟩, rfl⟩
        · exact ⟨k₀, k₁ + k', h, .inl ⟨e₁, k₁, hc, .inl ⟨hl, k', hcr, by omega⟩⟩, by omega⟩
      · have hnl : ∀ e₁ : Exit, e₁.leave ≠ some .next := by
          intro e₁ hl
          cases e₁ with
          | br n => cases n <;> simp [Exit.leave] at hl
          | _ => simp [Exit.leave] at hl
        rintro ⟨k, _, h, ⟨e₁, k₁, hc, ⟨hl, k', hcr, rfl⟩ | ⟨hl, rfl⟩⟩ | ⟨k', hcr, rfl⟩, rfl⟩
        · exact ⟨_, k', .inr ⟨k, k₁, e₁, h, hc, hl, rfl⟩, hcr, by omega⟩
        · exact absurd hl (hnl _)
        · exact ⟨k, k', .inl h, hcr, by omega⟩
    · simp only [Code.gen, hx, hos, List.mem_append]
      have hr := r2 dd K
      simp only [hcl] at hr
      have td := t2 dd K
      simp only [hmT] at td
      simp only [Code.Cost, scopeCost]
      rw [hw .if_ rfl]
      constructor
      · rintro ⟨o, hoo | hoo, hT⟩
        · obtain ⟨ho1, ho2⟩ := mem_others.1 hoo
          simp only [ne_eq] at ho2
          have hlt := (h3 _ ho1).2
          simp only at hlt
          obtain ⟨k, k', e, h, hc, hgo, rfl⟩ := td.1 ⟨o, ho1, (hyz o (by omega) _).1 hT⟩
          obtain ⟨e', hl, hgo'⟩ := ((goes_inner hd e).2 dd ho2).1 hgo
          exact ⟨k, _, e', h, .inl ⟨e, k', hc, .inr ⟨hl, rfl⟩⟩, hgo', by omega⟩
        · obtain ⟨k, k', e, h | ⟨k₀, k₁, e₁, h, hc, hl, rfl⟩, hcr, hgo, rfl⟩ := hr.1 ⟨o, hoo, hT⟩
          · exact ⟨k, k', e, h, .inr ⟨k', hcr, by omega⟩, hgo, rfl⟩
          · exact ⟨k₀, k₁ + k', e, h, .inl ⟨e₁, k₁, hc, .inl ⟨hl, k', hcr, by omega⟩⟩, hgo, by omega⟩
      · rintro ⟨k, _, e, h, ⟨e₁, k₁, hc, ⟨hl, k', hcr, rfl⟩ | ⟨hl, rfl⟩⟩ | ⟨k', hcr, rfl⟩, hgo, rfl⟩
        · obtain ⟨o, hoo, hT⟩ := hr.2 ⟨_, k', e, .inr ⟨k, k₁, e₁, h, hc, hl, rfl⟩, hcr, hgo, by omega⟩
          exact ⟨o, .inr hoo, hT⟩
        · have hne : dd ≠ d := Nat.ne_of_lt (goes_lt hd hgo)
          have hgo' := ((goes_inner hd e₁).2 dd hne).2 ⟨e, hl, hgo⟩
          obtain ⟨o, hoo, hT⟩ := td.2 ⟨k, k₁, e₁, h, hc, hgo', by omega⟩
          have hlt := (h3 _ hoo).2
          simp only at hlt
          exact ⟨o, .inl (mem_others.2 ⟨hoo, hne⟩), (hyz o (by omega) _).2 hT⟩
        · obtain ⟨o, hoo, hT⟩ := hr.2 ⟨k, k', e, .inl h, hcr, hgo, by omega⟩
          exact ⟨o, .inr hoo, hT⟩

end sim

/-- Valid code only branches to labels it is inside of. -/
theorem cost_label {w : Op → Nat} (c : Code) : ∀ (d : Nat) {n K : Nat}, c.Valid d → c.Cost w (.br n) K → n < d := by
  have hscope : ∀ {o : Nat} {b r : Code} {d n K : Nat},
      (∀ (d : Nat) {n K : Nat}, b.Valid d → b.Cost w (.br n) K → n < d) →
      (∀ (d : Nat) {n K : Nat}, r.Valid d → r.Cost w (.br n) K → n < d) →
      b.Valid (d + 1) → r.Valid d → scopeCost o (b.Cost w) (r.Cost w) (.br n) K → n < d := by
    rintro o b r d n K ihb ihr hb hr ⟨e₁, k₁, h₁, ⟨-, k₂, h₂, -⟩ | ⟨hl, -⟩⟩
    · exact ihr d hr h₂
    · cases e₁ with
      | br m =>
        cases m with
        | zero => simp [Exit.leave] at hl
        | succ m =>
          simp only [Exit.leave, Option.some.injEq, Exit.br.injEq] at hl
          subst hl
          have := ihb (d + 1) hb h₁
          omega
      | _ => simp [Exit.leave] at hl
  induction c with
  | nil => intro d n K _ h; exact absurd h.1 (by simp)
  | op b r ih =>
    rintro d n K ⟨hb, hr⟩ (⟨h, -⟩ | ⟨-, k, h, -⟩)
    · cases b <;> simp [Basic.jumps] at h
      · subst h; exact hb
      · subst h; exact hb
      · exact hb n (by simpa using h)
    · exact ih d hr h
  | block b r ihb ihr => rintro d n K ⟨hb, hr⟩ h; exact hscope ihb ihr hb hr h
  | loop => intro d n K h; exact absurd h id
  | ite t f r iht ihf ihr =>
    rintro d n K ⟨ht, hf, hr⟩ (h | h)
    · exact hscope iht ihr ht hr h
    · exact hscope ihf ihr hf hr h
  | ift t r iht ihr =>
    rintro d n K ⟨ht, hr⟩ (h | ⟨k, h, -⟩)
    · exact hscope iht ihr ht hr h
    · exact ihr d hr h

/-- **Exactness.** The costs of the paths from the first to the last block of the control flow graph
of valid code are the costs of its executions. -/
theorem cfg_exact {w : Op → Nat} (hw : ∀ o : Op, o.priced = false → w o = 0) {c : Code} (hv : c.Valid 1)
    (K : Nat) : c.cfg.Total w c.cfg.num K ↔ ∃ tr e, c.Exec tr e ∧ K = opsCost w tr := by
  have hg : (⟨1, fun _ => [], [(0, 1)]⟩ : Flow).Wf := by
    intro e he
    simp only [List.mem_singleton] at he
    subst he
    exact ⟨Nat.one_pos, Nat.le_refl _⟩
  have hT : ∀ K, (⟨1, fun _ => [], [(0, 1)]⟩ : Flow).Total w 1 K ↔ K = 0 := by
    intro K
    constructor
    · rintro ⟨k, hk, rfl⟩
      cases hk with
      | edge hr he =>
        simp only [List.mem_singleton, Prod.mk.injEq] at he
        obtain ⟨rfl, -⟩ := he
        cases hr with
        | start => simp [opsCost]
        | edge hr he => simp at he
    · rintro rfl
      exact ⟨0 + opsCost w [], .edge .start (by simp), by simp [opsCost]⟩
  obtain ⟨s1, s2⟩ := gen_sim w hw c 1 _ Nat.one_pos hv hg
  obtain ⟨h1, h2, h3⟩ := gen_ext c 1 _ hg
  unfold Code.cfg
  simp only
  generalize c.gen 1 ⟨1, fun _ => [], [(0, 1)]⟩ = x at *
  have ho : ∀ o ∈ origins x.2 0, o ≤ x.1.num := fun o ho => Nat.le_of_lt (h3 _ (mem_origins.1 ho)).2
  rw [Flow.total_close h1 ho, s1]
  have h0 := s2 0 K
  simp only [hT] at h0
  simp only [mem_origins, h0, hT]
  constructor
  · rintro (⟨k, k', rfl, hc, rfl⟩ | ⟨k, k', e, rfl, hc, -, rfl⟩)
    · obtain ⟨tr, h, rfl⟩ := (cost_iff w c _ _).1 hc
      exact ⟨tr, _, h, by omega⟩
    · obtain ⟨tr, h, rfl⟩ := (cost_iff w c _ _).1 hc
      exact ⟨tr, _, h, by omega⟩
  · rintro ⟨tr, e, h, rfl⟩
    have hc := (cost_iff w c e (opsCost w tr)).2 ⟨tr, h, rfl⟩
    cases e with
    | next => exact .inl ⟨0, _, rfl, hc, by omega⟩
    | br n =>
      have := cost_label c 1 hv hc
      exact .inr ⟨0, _, .br n, rfl, hc, by simp only [Exit.Goes]; omega, by omega⟩
    | ret => exact .inr ⟨0, _, .ret, rfl, hc, rfl, by omega⟩
    | stop => exact .inr ⟨0, _, .stop, rfl, hc, rfl, by omega⟩

end Svm.Wasm
