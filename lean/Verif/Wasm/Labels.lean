import Verif.Wasm.Sim

/-!
# The builder checks the labels

`buildCfg_some`: when the control flow graph of structured code is built at all, its labels are
valid, and the graph is `Code.cfg`.
-/

namespace Svm.Wasm

open Svm.Gas (upd upd_self upd_ne)

/-- No loops. -/
def Code.LoopFree : Code → Prop
  | .nil => True
  | .op _ r => r.LoopFree
  | .block b r => b.LoopFree ∧ r.LoopFree
  | .loop _ _ => False
  | .ite t e r => t.LoopFree ∧ e.LoopFree ∧ r.LoopFree
  | .ift t r => t.LoopFree ∧ r.LoopFree

/-- Code without a loop instruction in its flat form. -/
theorem loopFree_of_flatten (c : Code) (h : .loop ∉ c.flatten) : c.LoopFree := by
  induction c with
  | nil => trivial
  | op b r ih =>
    simp only [Code.flatten, List.mem_cons, not_or] at h
    exact ih h.2
  | block b r ihb ihr =>
    simp only [Code.flatten, List.mem_cons, List.mem_append, not_or] at h
    exact ⟨ihb h.2.1, ihr h.2.2.2⟩
  | loop b r => simp [Code.flatten] at h
  | ite t e r iht ihe ihr =>
    simp only [Code.flatten, List.mem_cons, List.mem_append, not_or] at h
    exact ⟨iht h.2.1, ihe h.2.2.2.1, ihr h.2.2.2.2.2⟩
  | ift t r iht ihr =>
    simp only [Code.flatten, List.mem_cons, List.mem_append, not_or] at h
    exact ⟨iht h.2.1, ihr h.2.2.2⟩

namespace Builder

theorem ok_withFlow {s : Builder} (hs : s.Ok) (c : Code) :
    (s.withFlow (c.gen s.depth s.flow).1 (c.gen s.depth s.flow).2).Ok :=
  ⟨hs.pos, hs.cont, fun j hj => by
    rcases List.mem_append.1 hj with hj | hj
    · exact hs.jumps j hj
    · exact gen_jumps c _ _ hs.pos j hj⟩

/-- An instruction without a body: a panic, or the builder goes on. -/
theorem step_basic (chk : Bool) {s : Builder} (hs : s.Ok) (b : Basic) :
    (s.step chk b.toOp = none ∧ ¬ (Code.op b .nil).Valid s.depth) ∨
      ((Code.op b .nil).Valid s.depth ∧ ∃ s', s.step chk b.toOp = some s' ∧ s'.Ok ∧ s'.depth = s.depth) := by
  by_cases hv : (Code.op b .nil).Valid s.depth
  · have := steps_gen chk (.op b .nil) s hs hv
    right
    refine ⟨hv, _, ?_, ok_withFlow hs (.op b .nil), rfl⟩
    rw [← this, Code.flatten, steps_cons, Code.flatten]
    cases s.step chk b.toOp <;> rfl
  · left
    refine ⟨?_, hv⟩
    cases b with
    | br l =>
      simp only [Code.Valid, and_true] at hv
      exact addJumps_none _ _ _ _ (by simpa using hv)
    | brIf l =>
      simp only [Code.Valid, and_true] at hv
      simp only [Basic.toOp, step]
      rw [addJumps_none _ _ _ _ (by simpa using hv)]
      rfl
    | brTable ls l =>
      simp only [Code.Valid, and_true] at hv
      exact addJumps_none _ _ _ _ hv
    | _ => simp [Code.Valid] at hv

theorem ok_enterScope {s : Builder} (hs : s.Ok) (op : Op) : (s.enterScope (some op)).Ok :=
  ⟨Nat.succ_pos _, fun k hk => hs.cont k (by change s.depth + 1 ≤ k at hk; omega), fun j hj => by
    have := hs.jumps j hj; show j.1 < s.depth + 1; omega⟩

theorem enterIf_eq {s : Builder} (hs : s.Ok) :
    s.enterIf = ⟨s.depth + 1, (s.flow.merge [s.num]).num, (s.flow.merge [s.num]).ops,
      (s.flow.merge [s.num]).edges, s.jumps, upd s.cont s.depth (some ⟨some s.num, some s.num, none⟩)⟩ := by
  have hc0 : (s.cont s.depth) = none := hs.cont _ (Nat.le_refl _)
  simp [enterIf, hc0, createBlock, addEdge, enterScope, Flow.merge, flow]

theorem ok_enterIf {s : Builder} (hs : s.Ok) : s.enterIf.Ok := by
  rw [enterIf_eq hs]
  refine ⟨Nat.succ_pos _, fun k hk => ?_, fun j hj => ?_⟩
  · change s.depth + 1 ≤ k at hk
    show upd _ _ _ k = none
    rw [upd_ne _ _ (by omega)]
    exact hs.cont k (by omega)
  · have := hs.jumps j hj; show j.1 < s.depth + 1; omega

/-- The state after a valid `then` branch and the `else`. -/
theorem then_else (chk : Bool) {s : Builder} (hs : s.Ok) {t : Code} (hv : t.Valid (s.depth + 1)) :
    ∃ s', (s.enterIf.steps chk t.flatten).bind (fun s' => s'.step chk .else_) = some s' ∧ s'.Ok ∧
      s'.depth = s.depth + 1 := by
  have hent := enterIf_eq hs
  have hd1 : s.enterIf.depth = s.depth + 1 := by rw [hent]
  have hf1 : s.enterIf.flow = s.flow.merge [s.num] := by rw [hent]; rfl
  rw [steps_gen chk t _ (ok_enterIf hs) (by rw [hd1]; exact hv), hd1, hf1]
  simp only [Option.bind_some]
  generalize hx : t.gen (s.depth + 1) (s.flow.merge [s.num]) = x
  have hel : step chk (s.enterIf.withFlow x.1 x.2) .else_ = some ⟨s.depth + 1, (x.1.merge [s.num]).num,
      (x.1.merge [s.num]).ops, (x.1.merge [s.num]).edges, s.jumps ++ x.2,
      upd s.cont s.depth (some ⟨none, none, some x.1.num⟩)⟩ := by
    rw [hent]
    have hp := hs.pos
    have hnle : ¬ (chk = true ∧ s.depth + 1 ≤ 1) := by omega
    simp only [step, enterElse, withFlow, if_neg hnle, Nat.add_sub_cancel, upd_self, Nat.add_one_ne_zero,
      if_false, ne_eq, not_true_eq_false, and_false]
    simp only [createBlock, addEdge, Flow.merge, Option.some.injEq, List.map_cons, List.map_nil]
    congr 1
    funext k
    unfold upd
    split <;> rfl
  refine ⟨_, hel, ⟨Nat.succ_pos _, fun k hk => ?_, fun j hj => ?_⟩, rfl⟩
  · change s.depth + 1 ≤ k at hk
    show upd _ _ _ k = none
    rw [upd_ne _ _ (by omega)]
    exact hs.cont k (by omega)
  · rcases List.mem_append.1 hj with hj | hj
    · have := hs.jumps j hj; show j.1 < s.depth + 1; omega
    · exact gen_jumps t (s.depth + 1) (s.flow.merge [s.num]) (by omega) j (by rw [hx]; exact hj)

/-- On loop free code the builder succeeds only if the labels are valid. -/
theorem steps_valid (chk : Bool) (c : Code) : c.LoopFree → ∀ s : Builder, s.Ok →
    s.steps chk c.flatten = none ∨ c.Valid s.depth := by
  -- a first instruction `x` followed by `r`
  have hseq : ∀ (x r : Code) (l : List Op) (s : Builder), s.Ok → l = x.flatten ++ r.flatten →
      x.Valid s.depth → (∀ s : Builder, s.Ok → s.steps chk r.flatten = none ∨ r.Valid s.depth) →
      s.steps chk l = none ∨ r.Valid s.depth := by
    rintro x r l s hs rfl hx hr
    rw [steps_append, steps_gen chk x s hs hx]
    exact hr _ (ok_withFlow hs x)
  induction c with
  | nil => intro _ s _; exact .inr trivial
  | op b r ih =>
    intro hl s hs
    rcases step_basic chk hs b with ⟨h, -⟩ | ⟨hv, -⟩
    · left; rw [Code.flatten, steps_cons, h]; rfl
    · rcases hseq (.op b .nil) r _ s hs rfl hv (ih hl) with h | h
      · exact .inl h
      · exact .inr ⟨hv.1, h⟩
  | block b r ihb ihr =>
    intro hl s hs
    rcases ihb hl.1 _ (ok_enterScope hs .block) with h | h
    · left
      rw [Code.flatten, steps_cons]
      simp only [step, Option.bind_some]
      rw [steps_append, h]
      rfl
    · rcases hseq (.block b .nil) r (Code.block b r).flatten s hs (by simp [Code.flatten]) ⟨h, trivial⟩
        (ihr hl.2) with h' | h'
      · exact .inl h'
      · exact .inr ⟨h, h'⟩
  | loop => intro hl; exact absurd hl id
  | ite t e r iht ihe ihr =>
    intro hl s hs
    have hd1 : s.enterIf.depth = s.depth + 1 := by rw [enterIf_eq hs]
    rcases iht hl.1 _ (ok_enterIf hs) with h | h
    · left
      rw [Code.flatten, steps_cons]
      simp only [step, Option.bind_some]
      rw [steps_append, h]
      rfl
    · rw [hd1] at h
      obtain ⟨s', h1, h2, h3⟩ := then_else chk hs h
      have hst : s.steps chk (Code.ite t e r).flatten =
          s'.steps chk (e.flatten ++ .end_ :: r.flatten) := by
        rw [Code.flatten, steps_cons]
        simp only [step, Option.bind_some]
        rw [steps_append]
        cases hx : s.enterIf.steps chk t.flatten with
        | none => rw [hx] at h1; cases h1
        | some y =>
          rw [hx] at h1
          simp only [Option.bind_some] at h1 ⊢
          rw [steps_cons, h1]
          rfl
      rcases ihe hl.2.1 s' h2 with h' | h'
      · left
        rw [hst, steps_append, h']
        rfl
      · rw [h3] at h'
        rcases hseq (.ite t e .nil) r (Code.ite t e r).flatten s hs (by simp [Code.flatten])
          ⟨h, h', trivial⟩ (ihr hl.2.2) with h4 | h4
        · exact .inl h4
        · exact .inr ⟨h, h', h4⟩
  | ift t r iht ihr =>
    intro hl s hs
    have hd1 : s.enterIf.depth = s.depth + 1 := by rw [enterIf_eq hs]
    rcases iht hl.1 _ (ok_enterIf hs) with h | h
    · left
      rw [Code.flatten, steps_cons]
      simp only [step, Option.bind_some]
      rw [steps_append, h]
      rfl
    · rw [hd1] at h
      rcases hseq (.ift t .nil) r (Code.ift t r).flatten s hs (by simp [Code.flatten])
        ⟨h, trivial⟩ (ihr hl.2) with h4 | h4
      · exact .inl h4
      · exact .inr ⟨h, h4⟩

end Builder

/-- The control flow graph of loop free structured code is built exactly when its labels are
valid. -/
theorem buildCfg_iff (chk : Bool) (c : Code) (hl : c.LoopFree) :
    (c.Valid 1 → ∃ s, buildCfg chk (c.flatten ++ [.end_]) = some s ∧ s.flow = c.cfg) ∧
    (¬ c.Valid 1 → buildCfg chk (c.flatten ++ [.end_]) = none) := by
  refine ⟨buildCfg_valid chk c, fun hv => ?_⟩
  have hnew : Builder.new = ⟨1, 1, fun _ => [], [(0, 1)], [], fun _ => none⟩ := by
    simp only [Builder.new, Builder.enterScope, Builder.createBlock, Builder.addEdge]
    congr 1
    funext k
    unfold upd
    split <;> rfl
  have hok : Builder.new.Ok := by
    rw [hnew]
    exact ⟨Nat.one_pos, fun _ _ => rfl, by simp⟩
  rcases Builder.steps_valid chk c hl _ hok with h | h
  · unfold buildCfg
    rw [Builder.steps_append, h]
    rfl
  · rw [hnew] at h
    exact absurd h hv

theorem buildCfg_some {chk : Bool} {c : Code} (hl : c.LoopFree) {s : Builder}
    (h : buildCfg chk (c.flatten ++ [.end_]) = some s) : c.Valid 1 ∧ s.flow = c.cfg := by
  by_cases hv : c.Valid 1
  · obtain ⟨s', h1, h2⟩ := (buildCfg_iff chk c hl).1 hv
    rw [h] at h1
    cases h1
    exact ⟨hv, h2⟩
  · rw [(buildCfg_iff chk c hl).2 hv] at h
    cases h

end Svm.Wasm
