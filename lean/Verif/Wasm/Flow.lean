import Verif.Wasm.Cfg

/-!
# The control flow graph of structured code

`Code.gen` builds the control flow graph by recursion on structured code; `steps_gen` shows that
the builder does the same on the flat form. Everything else about the graphs is then proved by
induction on the code.
-/

namespace Svm.Wasm

open Svm.Gas (upd upd_self upd_ne)

/-- The part of the builder that ends up in the graph. -/
structure Flow where
  num : Nat
  ops : Nat → List Op
  edges : List (Nat × Nat)

/-- Append an instruction to the current block. -/
def Flow.append (g : Flow) (op : Op) : Flow := { g with ops := upd g.ops g.num (g.ops g.num ++ [op]) }

/-- Begin a new block with edges from the blocks `os`. -/
def Flow.merge (g : Flow) (os : List Nat) : Flow :=
  ⟨g.num + 1, upd g.ops (g.num + 1) [], g.edges ++ os.map fun o => (o, g.num + 1)⟩

/-- The blocks with a jump to depth `d`. -/
def origins (js : List (Nat × Nat)) (d : Nat) : List Nat := (js.filter (fun j => j.1 = d)).map (·.2)

/-- The jumps to other depths. -/
def others (js : List (Nat × Nat)) (d : Nat) : List (Nat × Nat) := js.filter (fun j => j.1 ≠ d)

/-- The end of a block: a new block if there are jumps to it. -/
def Flow.close (g : Flow) (os : List Nat) : Flow := if os.isEmpty then g else g.merge (g.num :: os)

/-- The graph after the code at depth `d`, and the jumps out of it (depth, block). -/
def Code.gen : Code → Nat → Flow → Flow × List (Nat × Nat)
  | .nil, _, g => (g, [])
  | .op b r, d, g =>
    match b with
    | .ret | .unreachable =>
      let x := r.gen d (g.merge [])
      (x.1, (0, g.num) :: x.2)
    | .br l =>
      let x := r.gen d (g.merge [])
      (x.1, (d - l - 1, g.num) :: x.2)
    | .brIf l =>
      let x := r.gen d (g.merge [g.num])
      (x.1, (d - l - 1, g.num) :: x.2)
    | .brTable ls l =>
      let x := r.gen d (g.merge [])
      (x.1, ((l :: ls).map fun l => (d - l - 1, g.num)) ++ x.2)
    | b => r.gen d (g.append b.toOp)
  | .block b r, d, g =>
    let x := b.gen (d + 1) (g.append .block)
    let y := r.gen d (x.1.close (origins x.2 d))
    (y.1, others x.2 d ++ y.2)
  | .loop _ _, _, g => (g, [])
  | .ite t e r, d, g =>
    let x := t.gen (d + 1) (g.merge [g.num])
    let y := e.gen (d + 1) (x.1.merge [g.num])
    let z := r.gen d (y.1.merge (y.1.num :: x.1.num :: (origins x.2 d ++ origins y.2 d)))
    (z.1, others x.2 d ++ others y.2 d ++ z.2)
  | .ift t r, d, g =>
    let x := t.gen (d + 1) (g.merge [g.num])
    let z := r.gen d (x.1.merge (x.1.num :: g.num :: origins x.2 d))
    (z.1, others x.2 d ++ z.2)

/-- The branches stay inside the function, and there are no loops: `d` is the number of labels. -/
def Code.Valid : Code → Nat → Prop
  | .nil, _ => True
  | .op b r, d =>
    (match b with
      | .br l | .brIf l => l < d
      | .brTable ls l => ∀ x ∈ l :: ls, x < d
      | _ => True) ∧ r.Valid d
  | .block b r, d => b.Valid (d + 1) ∧ r.Valid d
  | .loop _ _, _ => False
  | .ite t e r, d => t.Valid (d + 1) ∧ e.Valid (d + 1) ∧ r.Valid d
  | .ift t r, d => t.Valid (d + 1) ∧ r.Valid d

namespace Builder

/-- The graph part of a builder. -/
def flow (s : Builder) : Flow := ⟨s.num, s.ops, s.edges⟩

/-- A builder with the graph `g`, after the jumps `js`. -/
def withFlow (s : Builder) (g : Flow) (js : List (Nat × Nat)) : Builder :=
  ⟨s.depth, g.num, g.ops, g.edges, s.jumps ++ js, s.cont⟩

/-- Between the instructions of a body: no open conditional at this depth, and all jumps lead out. -/
structure Ok (s : Builder) : Prop where
  pos : 0 < s.depth
  cont : ∀ k, s.depth ≤ k → s.cont k = none
  jumps : ∀ j ∈ s.jumps, j.1 < s.depth

theorem steps_append (chk : Bool) (a b : List Op) (s : Builder) :
    s.steps chk (a ++ b) = (s.steps chk a).bind fun s' => s'.steps chk b := by
  induction a generalizing s with
  | nil => rfl
  | cons o a ih =>
    simp only [List.cons_append, steps]
    cases h : s.step chk o with
    | none => rfl
    | some s' => simp only [Option.bind_eq_bind, Option.bind_some]; exact ih s'

theorem steps_cons (chk : Bool) (o : Op) (b : List Op) (s : Builder) :
    s.steps chk (o :: b) = (s.step chk o).bind fun s' => s'.steps chk b := rfl

theorem addJumps_eq (depth origin : Nat) (ls : List Nat) (s : Builder) (h : ∀ l ∈ ls, l < depth) :
    s.addJumps depth origin ls =
      some { s with jumps := s.jumps ++ ls.map fun l => (depth - l - 1, origin) } := by
  induction ls generalizing s with
  | nil => simp [addJumps]
  | cons l ls ih =>
    rw [List.forall_mem_cons] at h
    simp only [addJumps, targetDepth, if_pos h.1, Option.bind_eq_bind, Option.bind_some]
    rw [ih _ h.2]
    simp [addJump]

theorem addJumps_none (depth origin : Nat) (ls : List Nat) (s : Builder) (h : ¬ ∀ l ∈ ls, l < depth) :
    s.addJumps depth origin ls = none := by
  induction ls generalizing s with
  | nil => simp at h
  | cons l ls ih =>
    rw [List.forall_mem_cons] at h
    simp only [addJumps, targetDepth]
    by_cases hl : l < depth
    · rw [if_pos hl]
      exact ih _ (fun h' => h ⟨hl, h'⟩)
    · rw [if_neg hl]; rfl

theorem filter_old {js : List (Nat × Nat)} {d : Nat} (h : ∀ j ∈ js, j.1 < d) :
    js.filter (fun j => j.1 = d) = [] ∧ js.filter (fun j => j.1 ≠ d) = js := by
  constructor
  · rw [List.filter_eq_nil_iff]
    intro j hj
    have := h j hj
    simp; omega
  · rw [List.filter_eq_self]
    intro j hj
    have := h j hj
    simp; omega

/-- Resolving the jumps at the end of a block. -/
theorem resolveJumps_true (g : Flow) (old new : List (Nat × Nat)) (d : Nat)
    (cont : Nat → Option Unres) (h : ∀ j ∈ old, j.1 < d) :
    resolveJumps ⟨d, g.num, g.ops, g.edges, old ++ new, cont⟩ d true =
      ⟨d, (g.close (origins new d)).num, (g.close (origins new d)).ops, (g.close (origins new d)).edges,
        old ++ others new d, cont⟩ := by
  obtain ⟨h1, h2⟩ := filter_old h
  unfold resolveJumps
  simp only [List.filter_append, h1, h2, List.nil_append]
  unfold Flow.close origins
  by_cases he : new.filter (fun j => decide (j.1 = d)) = []
  · rw [he]
    simp only [List.isEmpty_nil, if_true, List.map_nil]
    congr 2
    rw [List.filter_eq_nil_iff] at he
    symm
    unfold others
    rw [List.filter_eq_self]
    intro j hj
    have := he j hj
    simpa using this
  · have he' : (new.filter (fun j => decide (j.1 = d))).isEmpty = false := by
      rw [List.isEmpty_eq_false_iff]; exact he
    have he'' : ((new.filter (fun j => decide (j.1 = d))).map (·.2)).isEmpty = false := by
      rw [List.isEmpty_eq_false_iff]; simpa using he
    simp only [he', he'', Bool.false_eq_true, if_false, if_true]
    simp [createBlock, addEdge, Flow.merge, others, Function.comp_def]

/-- Resolving the jumps at the end of a conditional, in the block just begun with edges from `os`. -/
theorem resolveJumps_false (g : Flow) (os : List Nat) (old new : List (Nat × Nat)) (d : Nat)
    (cont : Nat → Option Unres) (h : ∀ j ∈ old, j.1 < d) :
    resolveJumps ⟨d, (g.merge os).num, (g.merge os).ops, (g.merge os).edges, old ++ new, cont⟩ d false =
      ⟨d, (g.merge (os ++ origins new d)).num, (g.merge (os ++ origins new d)).ops,
        (g.merge (os ++ origins new d)).edges, old ++ others new d, cont⟩ := by
  obtain ⟨h1, h2⟩ := filter_old h
  unfold resolveJumps
  simp only [List.filter_append, h1, h2, List.nil_append]
  unfold origins
  by_cases he : new.filter (fun j => decide (j.1 = d)) = []
  · rw [he]
    simp only [List.isEmpty_nil, if_true, List.map_nil, List.append_nil]
    congr 2
    rw [List.filter_eq_nil_iff] at he
    symm
    unfold others
    rw [List.filter_eq_self]
    intro j hj
    have := he j hj
    simpa using this
  · have he' : (new.filter (fun j => decide (j.1 = d))).isEmpty = false := by
      rw [List.isEmpty_eq_false_iff]; exact he
    simp only [he', Bool.false_eq_true, if_false]
    simp [Flow.merge, others, Function.comp_def]

end Builder

/-- Jumps lead out of the body. -/
theorem gen_jumps (c : Code) : ∀ (d : Nat) (g : Flow), 0 < d → ∀ j ∈ (c.gen d g).2, j.1 < d := by
  induction c with
  | nil => intro d g _ j hj; cases hj
  | op b r ih =>
    intro d g hd j hj
    cases b with
    | ret | unreachable =>
      rcases List.mem_cons.1 hj with rfl | hj
      · exact hd
      · exact ih _ _ hd j hj
    | br l | brIf l =>
      rcases List.mem_cons.1 hj with rfl | hj
      · show d - l - 1 < d; omega
      · exact ih _ _ hd j hj
    | brTable ls l =>
      rcases List.mem_append.1 hj with hj | hj
      · obtain ⟨x, -, rfl⟩ := List.mem_map.1 hj
        show d - x - 1 < d; omega
      · exact ih _ _ hd j hj
    | call | callIndirect | plain => exact ih _ _ hd j hj
  | block b r ihb ihr =>
    intro d g hd j hj
    rcases List.mem_append.1 hj with hj | hj
    · obtain ⟨h1, h2⟩ := List.mem_filter.1 hj
      have := ihb (d + 1) _ (by omega) j h1
      simp at h2
      omega
    · exact ihr _ _ hd j hj
  | loop b r => intro d g _ j hj; cases hj
  | ite t e r iht ihe ihr =>
    intro d g hd j hj
    rcases List.mem_append.1 hj with hj | hj
    · rcases List.mem_append.1 hj with hj | hj
      · obtain ⟨h1, h2⟩ := List.mem_filter.1 hj
        have := iht (d + 1) _ (by omega) j h1
        simp at h2
        omega
      · obtain ⟨h1, h2⟩ := List.mem_filter.1 hj
        have := ihe (d + 1) _ (by omega) j h1
        simp at h2
        omega
    · exact ihr _ _ hd j hj
  | ift t r iht ihr =>
    intro d g hd j hj
    rcases List.mem_append.1 hj with hj | hj
    · obtain ⟨h1, h2⟩ := List.mem_filter.1 hj
      have := iht (d + 1) _ (by omega) j h1
      simp at h2
      omega
    · exact ihr _ _ hd j hj

namespace Builder

/-- The builder does on the flat form of valid code what `gen` does on the code. -/
theorem steps_gen (chk : Bool) (c : Code) : ∀ s : Builder, s.Ok → c.Valid s.depth →
    s.steps chk c.flatten = some (s.withFlow (c.gen s.depth s.flow).1 (c.gen s.depth s.flow).2) := by
  induction c with
  | nil => intro s hs hv; simp [Code.flatten, steps, Code.gen, withFlow, flow]
  | op b r ih =>
    intro s hs hv
    obtain ⟨hb, hv⟩ := hv
    rw [Code.flatten, steps_cons]
    cases b with
    | ret | unreachable =>
      simp only [Basic.toOp, step, Option.bind_some]
      rw [ih]
      rotate_left
      · exact ⟨hs.pos, hs.cont, fun j hj => by
        rcases List.mem_append.1 hj with hj | hj
        · exact hs.jumps j hj
        · simp at hj; subst hj; exact hs.pos⟩
      · exact hv
      simp [withFlow, flow, Code.gen, createBlock, addJump, Flow.merge]
    | br l =>
      simp only [Basic.toOp, step, addJumps_eq s.depth s.num [l] s.createBlock (by simpa using hb), Option.bind_some]
      rw [ih]
      rotate_left
      · exact ⟨hs.pos, hs.cont, fun j hj => by
        rcases List.mem_append.1 hj with hj | hj
        · exact hs.jumps j hj
        · simp at hj; subst hj; have := hs.pos; show s.depth - l - 1 < s.depth; omega⟩
      · exact hv
      simp [withFlow, flow, Code.gen, createBlock, Flow.merge]
    | brIf l =>
      simp only [Basic.toOp, step, addJumps_eq s.depth s.num [l] s.createBlock (by simpa using hb),
        Option.bind_eq_bind, Option.bind_some]
      rw [ih]
      rotate_left
      · exact ⟨hs.pos, hs.cont, fun j hj => by
        rcases List.mem_append.1 hj with hj | hj
        · exact hs.jumps j hj
        · simp at hj; subst hj; have := hs.pos; show s.depth - l - 1 < s.depth; omega⟩
      · exact hv
      simp [withFlow, flow, Code.gen, createBlock, addEdge, Flow.merge]
    | brTable ls l =>
      simp only [Basic.toOp, step, addJumps_eq s.depth s.num (l :: ls) s.createBlock hb, Option.bind_some]
      rw [ih]
      rotate_left
      · exact ⟨hs.pos, hs.cont, fun j hj => by
        rcases List.mem_append.1 hj with hj | hj
        · exact hs.jumps j hj
        · obtain ⟨x, -, rfl⟩ := List.mem_map.1 hj
          have := hs.pos; show s.depth - x - 1 < s.depth; omega⟩
      · exact hv
      simp [withFlow, flow, Code.gen, createBlock, Flow.merge]
    | call | callIndirect | plain =>
      simp only [Basic.toOp, step, Option.bind_some]
      rw [ih]
      rotate_left
      · exact ⟨hs.pos, hs.cont, hs.jumps⟩
      · exact hv
      simp [withFlow, flow, Code.gen, append, Flow.append, Basic.toOp]
  | block b r ihb ihr =>
    intro s hs hv
    obtain ⟨hvb, hvr⟩ := hv
    rw [Code.flatten, steps_cons]
    simp only [step, Option.bind_some]
    rw [steps_append]
    have hok : (s.enterScope (some .block)).Ok := ⟨Nat.succ_pos _, fun k hk => hs.cont k (by
      change s.depth + 1 ≤ k at hk; omega), fun j hj => by
        have := hs.jumps j hj; show j.1 < s.depth + 1; omega⟩
    rw [ihb _ hok hvb]
    simp only [Option.bind_some]
    rw [steps_cons]
    have hfl : (s.enterScope (some .block)).flow = s.flow.append .block := rfl
    have hdp : (s.enterScope (some .block)).depth = s.depth + 1 := rfl
    rw [hfl, hdp]
    generalize hx : b.gen (s.depth + 1) (s.flow.append .block) = x
    have hst : step chk ((s.enterScope (some .block)).withFlow x.1 x.2) .end_ =
        some (s.withFlow (x.1.close (origins x.2 s.depth)) (others x.2 s.depth)) := by
      simp only [step, exitScope]
      have h0 : ((s.enterScope (some .block)).withFlow x.1 x.2).depth = s.depth + 1 := rfl
      rw [h0, if_neg (by omega)]
      have h1 : ((s.enterScope (some .block)).withFlow x.1 x.2).cont (s.depth + 1 - 1) = none :=
        hs.cont _ (by omega)
      rw [h1]
      simp only [doExitScope]
      rw [h0]
      exact congrArg some (resolveJumps_true x.1 s.jumps x.2 s.depth s.cont hs.jumps)
    rw [hst]
    simp only [Option.bind_some]
    have hjx : ∀ j ∈ others x.2 s.depth, j.1 < s.depth := by
      intro j hj
      obtain ⟨h1, h2⟩ := List.mem_filter.1 hj
      have := gen_jumps b (s.depth + 1) (s.flow.append .block) (by omega) j (by rw [hx]; exact h1)
      simp at h2
      omega
    rw [ihr]
    rotate_left
    · exact ⟨hs.pos, hs.cont, fun j hj => by
      rcases List.mem_append.1 hj with hj | hj
      · exact hs.jumps j hj
      · exact hjx j hj⟩
    · exact hvr
    simp only [Code.gen, hx]
    simp [withFlow, flow]
  | loop b r => intro s hs hv; exact absurd hv id
  | ite t e r iht ihe ihr =>
    intro s hs hv
    obtain ⟨hvt, hve, hvr⟩ := hv
    rw [Code.flatten, steps_cons]
    simp only [step, Option.bind_some]
    rw [steps_append]
    have hc0 : (s.cont s.depth) = none := hs.cont _ (Nat.le_refl _)
    have hent : s.enterIf = ⟨s.depth + 1, (s.flow.merge [s.num]).num, (s.flow.merge [s.num]).ops,
        (s.flow.merge [s.num]).edges, s.jumps, upd s.cont s.depth (some ⟨some s.num, some s.num, none⟩)⟩ := by
      simp [enterIf, hc0, createBlock, addEdge, enterScope, Flow.merge, flow]
    have hok1 : s.enterIf.Ok := by
      rw [hent]
      refine ⟨Nat.succ_pos _, fun k hk => ?_, fun j hj => ?_⟩
      · change s.depth + 1 ≤ k at hk
        show upd _ _ _ k = none
        rw [upd_ne _ _ (by omega)]
        exact hs.cont k (by omega)
      · have := hs.jumps j hj; show j.1 < s.depth + 1; omega
    have hd1 : s.enterIf.depth = s.depth + 1 := by rw [hent]
    have hf1 : s.enterIf.flow = s.flow.merge [s.num] := by rw [hent]; rfl
    rw [iht _ hok1 (by rw [hd1]; exact hvt), hd1, hf1]
    simp only [Option.bind_some]
    rw [steps_cons]
    generalize hx : t.gen (s.depth + 1) (s.flow.merge [s.num]) = x
    have hel : step chk (s.enterIf.withFlow x.1 x.2) .else_ = some ⟨s.depth + 1, (x.1.merge [s.num]).num,
        (x.1.merge [s.num]).ops, (x.1.merge [s.num]).edges, s.jumps ++ x.2,
        upd s.cont s.depth (some ⟨none, none, some x.1.num⟩)⟩ := by
      rw [hent]
      have hp := hs.pos
      have hnle : ¬ (chk = true ∧ s.depth + 1 ≤ 1) := by omega
      simp only [step, enterElse, withFlow, if_neg hnle, Nat.add_sub_cancel, upd_self, Nat.add_one_ne_zero,
        if_false, ne_eq, not_true_eq_false, and_false]
      simp only [createBlock, addEdge, Flow.merge, Option.some.injEq, List.map_cons, List.map_nil]
      congr 1
      funext k
      unfold upd
      split <;> rfl
    rw [hel]
    simp only [Option.bind_some]
    rw [steps_append]
    have hjx : ∀ j ∈ x.2, j.1 < s.depth + 1 := by
      intro j hj
      exact gen_jumps t (s.depth + 1) (s.flow.merge [s.num]) (by omega) j (by rw [hx]; exact hj)
    rw [ihe ⟨s.depth + 1, (x.1.merge [s.num]).num,
        (x.1.merge [s.num]).ops, (x.1.merge [s.num]).edges, s.jumps ++ x.2,
        upd s.cont s.depth (some ⟨none, none, some x.1.num⟩)⟩ ⟨Nat.succ_pos _, fun k hk => by
        change s.depth + 1 ≤ k at hk
        show upd _ _ _ k = none
        rw [upd_ne _ _ (by omega)]
        exact hs.cont k (by omega), fun j hj => by
        rcases List.mem_append.1 hj with hj | hj
        · have := hs.jumps j hj; show j.1 < s.depth + 1; omega
        · exact hjx j hj⟩ hve]
    simp only [Option.bind_some]
    rw [steps_cons]
    have hf2 : flow ⟨s.depth + 1, (x.1.merge [s.num]).num,
        (x.1.merge [s.num]).ops, (x.1.merge [s.num]).edges, s.jumps ++ x.2,
        upd s.cont s.depth (some ⟨none, none, some x.1.num⟩)⟩ = x.1.merge [s.num] := rfl
    rw [hf2]
    generalize hy : e.gen (s.depth + 1) (x.1.merge [s.num]) = y
    have hst : step chk (withFlow ⟨s.depth + 1, (x.1.merge [s.num]).num,
        (x.1.merge [s.num]).ops, (x.1.merge [s.num]).edges, s.jumps ++ x.2,
        upd s.cont s.depth (some ⟨none, none, some x.1.num⟩)⟩ y.1 y.2) .end_ =
        some (s.withFlow (y.1.merge (y.1.num :: x.1.num :: (origins x.2 s.depth ++ origins y.2 s.depth)))
          (others x.2 s.depth ++ others y.2 s.depth)) := by
      simp only [step, exitScope, withFlow, Nat.add_one_ne_zero, if_false, Nat.add_sub_cancel, upd_self,
        Option.isSome_some, if_true, exitElse, and_self, not_true_eq_false, and_false]
      have hcont : upd (upd s.cont s.depth (some ⟨none, none, some x.1.num⟩)) s.depth none = s.cont := by
        funext k
        unfold upd
        split
        · rename_i h; rw [h, hc0]
        · rfl
      have := resolveJumps_false y.1 [y.1.num, x.1.num] s.jumps (x.2 ++ y.2) s.depth s.cont hs.jumps
      simp only [doExitScope, addEdge, createBlock, hcont, Option.some.injEq, Nat.add_sub_cancel]
      simp only [Flow.merge, List.map_cons, List.map_nil] at this
      simp only [List.append_assoc, List.cons_append, List.nil_append] at this ⊢
      rw [this]
      simp [Flow.merge, origins, others]
    rw [hst]
    simp only [Option.bind_some]
    have hjy : ∀ j ∈ y.2, j.1 < s.depth + 1 := by
      intro j hj
      exact gen_jumps e (s.depth + 1) (x.1.merge [s.num]) (by omega) j (by rw [hy]; exact hj)
    rw [ihr]
    rotate_left
    · exact ⟨hs.pos, hs.cont, fun j hj => by
      rcases List.mem_append.1 hj with hj | hj
      · exact hs.jumps j hj
      · rcases List.mem_append.1 hj with hj | hj
        · obtain ⟨h1, h2⟩ := List.mem_filter.1 hj
          have := hjx j h1
          simp at h2
          show j.1 < s.depth; omega
        · obtain ⟨h1, h2⟩ := List.mem_filter.1 hj
          have := hjy j h1
          simp at h2
          show j.1 < s.depth; omega⟩
    · exact hvr
    have hn : s.flow.num = s.num := rfl
    simp only [Code.gen, hn, hx, hy]
    simp [withFlow, flow]
  | ift t r iht ihr =>
    intro s hs hv
    obtain ⟨hvt, hvr⟩ := hv
    rw [Code.flatten, steps_cons]
    simp only [step, Option.bind_some]
    rw [steps_append]
    have hc0 : (s.cont s.depth) = none := hs.cont _ (Nat.le_refl _)
    have hent : s.enterIf = ⟨s.depth + 1, (s.flow.merge [s.num]).num, (s.flow.merge [s.num]).ops,
        (s.flow.merge [s.num]).edges, s.jumps, upd s.cont s.depth (some ⟨some s.num, some s.num, none⟩)⟩ := by
      simp [enterIf, hc0, createBlock, addEdge, enterScope, Flow.merge, flow]
    have hok1 : s.enterIf.Ok := by
      rw [hent]
      refine ⟨Nat.succ_pos _, fun k hk => ?_, fun j hj => ?_⟩
      · change s.depth + 1 ≤ k at hk
        show upd _ _ _ k = none
        rw [upd_ne _ _ (by omega)]
        exact hs.cont k (by omega)
      · have := hs.jumps j hj; show j.1 < s.depth + 1; omega
    have hd1 : s.enterIf.depth = s.depth + 1 := by rw [hent]
    have hf1 : s.enterIf.flow = s.flow.merge [s.num] := by rw [hent]; rfl
    rw [iht _ hok1 (by rw [hd1]; exact hvt), hd1, hf1]
    simp only [Option.bind_some]
    rw [steps_cons]
    generalize hx : t.gen (s.depth + 1) (s.flow.merge [s.num]) = x
    have hst : step chk (s.enterIf.withFlow x.1 x.2) .end_ =
        some (s.withFlow (x.1.merge (x.1.num :: s.num :: origins x.2 s.depth)) (others x.2 s.depth)) := by
      rw [hent]
      simp only [step, exitScope, withFlow, Nat.add_one_ne_zero, if_false, Nat.add_sub_cancel, upd_self,
        Option.isSome_some, Option.isSome_none, Bool.false_eq_true, if_true, exitThen, ne_eq,
        not_true_eq_false, and_false]
      have hcont : upd (upd s.cont s.depth (some ⟨some s.num, some s.num, none⟩)) s.depth none = s.cont := by
        funext k
        unfold upd
        split
        · rename_i h; rw [h, hc0]
        · rfl
      have := resolveJumps_false x.1 [x.1.num, s.num] s.jumps x.2 s.depth s.cont hs.jumps
      simp only [doExitScope, addEdge, createBlock, hcont, Option.some.injEq, Nat.add_sub_cancel]
      simp only [Flow.merge, List.map_cons, List.map_nil] at this
      simp only [List.append_assoc, List.cons_append, List.nil_append] at this ⊢
      rw [this]
      simp [Flow.merge, origins, others]
    rw [hst]
    simp only [Option.bind_some]
    have hjx : ∀ j ∈ x.2, j.1 < s.depth + 1 := by
      intro j hj
      exact gen_jumps t (s.depth + 1) (s.flow.merge [s.num]) (by omega) j (by rw [hx]; exact hj)
    rw [ihr]
    rotate_left
    · exact ⟨hs.pos, hs.cont, fun j hj => by
      rcases List.mem_append.1 hj with hj | hj
      · exact hs.jumps j hj
      · obtain ⟨h1, h2⟩ := List.mem_filter.1 hj
        have := hjx j h1
        simp at h2
        show j.1 < s.depth; omega⟩
    · exact hvr
    have hn : s.flow.num = s.num := rfl
    simp only [Code.gen, hn, hx]
    simp [withFlow, flow]

end Builder

/-- The graph of a function. -/
def Code.cfg (c : Code) : Flow :=
  let x := c.gen 1 ⟨1, fun _ => [], [(0, 1)]⟩
  x.1.close (origins x.2 0)

/-- The builder succeeds on valid code, with that graph. -/
theorem buildCfg_valid (chk : Bool) (c : Code) (hv : c.Valid 1) :
    ∃ s, buildCfg chk (c.flatten ++ [.end_]) = some s ∧ s.flow = c.cfg := by
  have hnew : Builder.new = ⟨1, 1, fun _ => [], [(0, 1)], [], fun _ => none⟩ := by
    simp only [Builder.new, Builder.enterScope, Builder.createBlock, Builder.addEdge]
    congr 1
    funext k
    unfold upd
    split <;> rfl
  unfold buildCfg
  rw [hnew]
  have hgen := Builder.steps_gen chk c ⟨1, 1, fun _ => [], [(0, 1)], [], fun _ => none⟩
    ⟨Nat.one_pos, fun _ _ => rfl, by simp⟩ hv
  have hj := gen_jumps c 1 ⟨1, fun _ => [], [(0, 1)]⟩ Nat.one_pos
  rw [Builder.steps_append, hgen]
  simp only [Option.bind_some, Builder.withFlow, Builder.flow]
  generalize hx : c.gen 1 ⟨1, fun _ => [], [(0, 1)]⟩ = x
  rw [hx] at hj
  have hres := Builder.resolveJumps_true x.1 [] x.2 0 (fun _ => none) (by simp)
  have hst : Builder.steps chk ⟨1, x.1.num, x.1.ops, x.1.edges, [] ++ x.2, fun _ => none⟩ [.end_] =
      some ⟨0, (x.1.close (origins x.2 0)).num, (x.1.close (origins x.2 0)).ops,
        (x.1.close (origins x.2 0)).edges, [] ++ others x.2 0, fun _ => none⟩ := by
    rw [Builder.steps_cons]
    simp only [Builder.step, Builder.exitScope, Builder.doExitScope]
    simp only [Nat.one_ne_zero, if_false, Nat.sub_self, Option.bind_some, hres, Builder.steps]
  rw [hst]
  have ho : others x.2 0 = [] := by
    unfold others
    rw [List.filter_eq_nil_iff]
    intro j hj'
    have := hj j hj'
    simp; omega
  simp only [Option.bind_eq_bind, Option.bind_some, ho, List.append_nil, and_self, not_true_eq_false,
    and_false, if_false]
  refine ⟨_, rfl, ?_⟩
  unfold Code.cfg
  rw [hx]

end Svm.Wasm
