import Verif.Wasm.Valid

/-!
# C143: how long the validation of a program takes

The functions below count what the code of `crates/host/gas/src` does: every iteration of a `for` or `while` loop over
functions, instructions, nodes or edges, every call of the graph builder and every call of `recur_find_cycle` counts
one. Left out are `has_edges`, the choice of the candidates and their sorting in `derive_cycle` (iterators over the
nodes of the graph), and what a single operation on an `IndexMap` or `IndexSet` costs.
-/

namespace Svm.Gas.Graph

open Relation (TransGen ReflTransGen)

variable {L D : Type} [DecidableEq L]

/-! ## Model -/

/-- Iterations of `while queued.is_empty() == false`, graph/sort.rs:41-55, and of the loop over the edges in it
(46-54). -/
def loopEffort (f : L → L → (L → D) → Option (L → D)) : Nat → Graph L D → List L → List L → Nat
  | _, _, [], _ => 0
  | 0, _, _ :: _, _ => 0
  | n + 1, g, x :: q, p => 1 + (g.out x).length +
    match drain f x (g.out x) g q with
    | some (g, q) => loopEffort f n g q (x :: p)
    | none => 0

/-- Calls of `recur_find_cycle` made by the loop of graph/sort.rs:142-148; `rec` is what a call does, `cnt` how many
calls it makes. -/
def tryEffort (rec : L → List L → List L → Option (Bool × List L × List L)) (cnt : L → List L → List L → Nat) :
    List L → List L → List L → Nat
  | [], _, _ => 0
  | x :: xs, cyc, vis => cnt x cyc vis +
    match rec x cyc vis with
    | some r => if r.1 then 0 else tryEffort rec cnt xs r.2.1 r.2.2
    | none => 0

/-- Calls of `recur_find_cycle`, graph/sort.rs:123-156, made by one call, itself included. -/
def recurEffort (chk : Bool) (out : L → List L) : Nat → L → List L → List L → Nat
  | 0, _, _, _ => 0
  | n + 1, cur, cyc, vis => 1 +
    if cur ∈ vis then 0
    else tryEffort (recurFind chk out n) (recurEffort chk out n) (out cur) (cur :: cyc) (cur :: vis)

/-- `derive_cycle`, graph/sort.rs:77-106. -/
def deriveEffort (chk returnCycles : Bool) (le : L → L → Bool) (g : Graph L D) : Nat :=
  if returnCycles then
    let cands := g.nodes.filter fun n => !(g.inc n).isEmpty && !(g.out n).isEmpty
    match (cands.insertionSort (fun a b => le a b = true)).head? with
    | some start => recurEffort chk g.out (g.nodes.length + 1) start [] []
    | none => 0
  else 0

/-- `try_topological_sort`, graph/sort.rs:29-66. -/
def sortEffort (chk returnCycles : Bool) (le : L → L → Bool) (g : Graph L D) : Nat :=
  loopEffort (fun _ _ d => some d) g.nodes.length g g.sourceNodes.reverse [] +
    match loop (fun _ _ d => some d) g.nodes.length g g.sourceNodes.reverse [] with
    | some (g', _) => if g'.hasEdges then deriveEffort chk returnCycles le g' else 0
    | none => 0

/-! ## The sort -/

/-- The edges that leave the nodes of a list. -/
def edgesFrom (G : Graph L D) (p : List L) : List (L × L) := p.flatMap fun a => (G.out a).map fun b => (a, b)

omit [DecidableEq L] in
theorem edgesFrom_cons (G : Graph L D) (x : L) (p : List L) :
    (edgesFrom G (x :: p)).length = (G.out x).length + (edgesFrom G p).length := by
  simp [edgesFrom]

theorem loopEffort_eq {G : Graph L D} (hG : Wf G) (f : L → L → (L → D) → Option (L → D)) {I : List L}
    (hI : ∀ x ∈ I, G.inc x = []) :
    ∀ (n : Nat) (g : Graph L D) (q p : List L) (g' : Graph L D) (p' : List L), Inv G I q p g →
      loop f n g q p = some (g', p') →
      loopEffort f n g q p + (p.length + (edgesFrom G p).length) = p'.length + (edgesFrom G p').length
  | n, g, [], p, g', p', h, e => by
    have : some (g, p) = some (g', p') := by cases n <;> exact e
    cases this
    cases n <;> simp [loopEffort]
  | 0, g, x :: q, p, g', p', h, e => by cases e
  | n + 1, g, x :: q, p, g', p', h, e => by
    obtain ⟨g₁, q₁, hm, hd⟩ := step_inv hG f hI h
    have hout : g.out x = G.out x := by
      rw [h.out, if_neg]
      have := h.nodup
      rw [List.cons_append, List.nodup_cons, List.mem_append, not_or] at this
      exact this.1.2
    simp only [loop, hd] at e
    cases hf : foldData f x (G.out x) g.data with
    | none => rw [hf] at e; cases e
    | some dat =>
      rw [hf] at e
      have ih := loopEffort_eq hG f hI n _ q₁ (x :: p) g' p' (hm dat) e
      rw [edgesFrom_cons, List.length_cons] at ih
      simp only [loopEffort, hd, hf, Option.map_some]
      rw [hout]
      omega

omit [DecidableEq L] in
theorem edgesFrom_nodup {G : Graph L D} (hG : Wf G) {p : List L} (hp : p.Nodup) : (edgesFrom G p).Nodup := by
  induction p with
  | nil => exact List.nodup_nil
  | cons x p ih =>
    rw [List.nodup_cons] at hp
    show ((G.out x).map (fun b => (x, b)) ++ edgesFrom G p).Nodup
    rw [List.nodup_append]
    refine ⟨(hG.outNodup x).map (fun a b h => (Prod.mk.inj h).2), ih hp.2, ?_⟩
    rintro a ha b hb rfl
    obtain ⟨y, -, rfl⟩ := List.mem_map.1 ha
    obtain ⟨z, hz, hy⟩ := List.mem_flatMap.1 hb
    obtain ⟨w, -, hw⟩ := List.mem_map.1 hy
    have : z = x := (Prod.mk.inj hw).1
    exact hp.1 (this ▸ hz)

/-- The edges asked for, as a list. -/
def edgeList : List (Cmd L) → List (L × L)
  | [] => []
  | .node _ :: cs => edgeList cs
  | .edge a b :: cs => (a, b) :: edgeList cs

/-- The nodes asked for, as a list. -/
def nodeList : List (Cmd L) → List L
  | [] => []
  | .node a :: cs => a :: nodeList cs
  | .edge a b :: cs => a :: b :: nodeList cs

omit [DecidableEq L] in
theorem mem_edgeList {cs : List (Cmd L)} {a b : L} : (a, b) ∈ edgeList cs ↔ IsEdge cs a b := by
  induction cs with
  | nil => simp [edgeList, IsEdge]
  | cons c cs ih => cases c <;> simp_all [edgeList, IsEdge]

omit [DecidableEq L] in
theorem mem_nodeList {cs : List (Cmd L)} {a : L} (h : IsNode cs a) : a ∈ nodeList cs := by
  induction cs with
  | nil => simp [IsNode] at h
  | cons c cs ih =>
    cases c with
    | node b =>
      simp only [IsNode, List.mem_cons, Cmd.node.injEq, reduceCtorEq, false_or] at h
      simp only [nodeList, List.mem_cons]
      rcases h with (h | h) | h | h
      · exact .inl h
      · exact .inr (ih (.inl h))
      · exact .inr (ih (.inr (.inl h)))
      · exact .inr (ih (.inr (.inr h)))
    | edge b d =>
      simp only [IsNode, List.mem_cons, Cmd.edge.injEq, reduceCtorEq, false_or] at h
      simp only [nodeList, List.mem_cons]
      rcases h with h | ⟨e, ⟨h, -⟩ | h⟩ | ⟨e, ⟨-, h⟩ | h⟩
      · exact .inr (.inr (ih (.inl h)))
      · exact .inl h
      · exact .inr (.inr (ih (.inr (.inl ⟨e, h⟩))))
      · exact .inr (.inl h)
      · exact .inr (.inr (ih (.inr (.inr ⟨e, h⟩))))

omit [DecidableEq L] in
theorem lists_length (cs : List (Cmd L)) :
    (edgeList cs).length ≤ cs.length ∧ (nodeList cs).length + cs.length ≤ cs.length + cs.length + cs.length ∧
      (nodeList cs).length ≤ cs.length + (edgeList cs).length := by
  induction cs with
  | nil => simp [edgeList, nodeList]
  | cons c cs ih => cases c <;> simp only [edgeList, nodeList, List.length_cons] <;> omega

/-- Kahn's algorithm is linear. -/
theorem loopEffort_le {g g' : Graph L D} {p : List L} {cs : List (Cmd L)} (hg : Wf g) (hE : g.E = IsEdge cs)
    (hN : ∀ x, x ∈ g.nodes → IsNode cs x)
    (hr : loop (fun _ _ d => some d) g.nodes.length g g.sourceNodes.reverse [] = some (g', p))
    (h : Inv g g.sourceNodes.reverse [] p g') :
    loopEffort (fun _ _ d => some d) g.nodes.length g g.sourceNodes.reverse [] ≤ 3 * cs.length := by
  have hI : ∀ x ∈ g.sourceNodes.reverse, x ∈ g.nodes ∧ g.inc x = [] := by
    intro x hx
    rw [List.mem_reverse] at hx
    exact mem_sourceNodes.1 hx
  have hinit := inv_init hg hI (by
    rw [List.nodup_reverse]
    exact List.Nodup.filter _ hg.nodup)
  have he := loopEffort_eq hg _ (fun x hx => (hI x hx).2) _ _ _ _ _ _ hinit hr
  have hpn : p.Nodup := by have := h.nodup; simpa using this
  have h1 : p.length ≤ (nodeList cs).length := (List.subperm_of_subset hpn (fun x hx =>
    mem_nodeList (hN x (h.sub x (.inr hx))))).length_le
  have h2 : (edgesFrom g p).length ≤ (edgeList cs).length := (List.subperm_of_subset (edgesFrom_nodup hg hpn) (by
    rintro ⟨a, b⟩ hx
    obtain ⟨z, -, hy⟩ := List.mem_flatMap.1 hx
    obtain ⟨w, hw, hzw⟩ := List.mem_map.1 hy
    cases hzw
    rw [mem_edgeList, ← hE]
    exact hw)).length_le
  have := lists_length cs
  simp only [List.length_nil, edgesFrom, List.flatMap_nil] at he
  simp only [edgesFrom] at h2
  omega

/-! ## The search -/

/-- Without dead ends the search never goes back. -/
theorem recurEffort_le (chk : Bool) (out : L → List L) (P : L → Prop) (hP : ∀ a, P a → ∀ b ∈ out a, P b)
    (hne : ∀ a, P a → out a ≠ []) : ∀ (n : Nat) (cur : L) (cyc vis : List L), P cur →
      recurEffort chk out n cur cyc vis ≤ n ∧ ∀ r, recurFind chk out n cur cyc vis = some r → r.1 = true
  | 0, cur, cyc, vis, _ => ⟨Nat.le_refl _, fun r h => by cases h⟩
  | n + 1, cur, cyc, vis, hc => by
    by_cases hv : cur ∈ vis
    · refine ⟨by simp only [recurEffort, if_pos hv]; omega, fun r h => ?_⟩
      simp only [recurFind, if_pos hv] at h
      cases h
      rfl
    · cases ho : out cur with
      | nil => exact absurd ho (hne cur hc)
      | cons x xs =>
        obtain ⟨i1, i2⟩ := recurEffort_le chk out P hP hne n x (cur :: cyc) (cur :: vis)
          (hP cur hc x (by rw [ho]; exact List.mem_cons_self))
        cases hr : recurFind chk out n x (cur :: cyc) (cur :: vis) with
        | none =>
          refine ⟨?_, fun r h => ?_⟩
          · simp only [recurEffort, if_neg hv, ho, tryEffort, hr]
            omega
          · simp only [recurFind, if_neg hv, ho, tryAll, hr] at h
            cases h
        | some r0 =>
          have h0 := i2 r0 hr
          refine ⟨?_, fun r h => ?_⟩
          · simp only [recurEffort, if_neg hv, ho, tryEffort, hr, h0, if_true]
            omega
          · simp only [recurFind, if_neg hv, ho, tryAll, hr] at h
            replace h : (do
              let r ← (if r0.1 = true then some r0 else tryAll (recurFind chk out n) xs r0.2.1 r0.2.2)
              if r.1 then some r
              else match r.2.1 with
                | [] => none
                | v :: cyc => if chk ∧ v ≠ cur then none else some (false, cyc, r.2.2.erase cur)) = some r := h
            rw [if_pos h0] at h
            replace h : (if r0.1 = true then some r0 else _) = some r := h
            rw [if_pos h0] at h
            cases h
            exact h0

/-- One step of the search through a node from which nothing is found. -/
theorem recurFind_back {chk : Bool} {out : L → List L} {n : Nat} {cur : L} {cyc vis : List L} (hv : cur ∉ vis)
    (h : ∀ x ∈ out cur, ∀ c, recurFind chk out n x (cur :: c) (cur :: vis) = some (false, cur :: c, cur :: vis)) :
    recurFind chk out (n + 1) cur cyc vis = some (false, cyc, vis) ∧
      recurEffort chk out (n + 1) cur cyc vis =
        1 + ((out cur).map fun x => recurEffort chk out n x (cur :: cyc) (cur :: vis)).sum := by
  have h1 : ∀ l : List L, (∀ x ∈ l, x ∈ out cur) →
      tryAll (recurFind chk out n) l (cur :: cyc) (cur :: vis) = some (false, cur :: cyc, cur :: vis) ∧
      tryEffort (recurFind chk out n) (recurEffort chk out n) l (cur :: cyc) (cur :: vis) =
        (l.map fun x => recurEffort chk out n x (cur :: cyc) (cur :: vis)).sum := by
    intro l
    induction l with
    | nil => intro _; exact ⟨rfl, rfl⟩
    | cons x l ih =>
      intro hl
      obtain ⟨i1, i2⟩ := ih (fun y hy => hl y (List.mem_cons_of_mem _ hy))
      have hx := h x (hl x List.mem_cons_self) cyc
      refine ⟨?_, ?_⟩
      · simp only [tryAll, hx]
        exact i1
      · simp only [tryEffort, hx, List.map_cons, List.sum_cons, Bool.false_eq_true, if_false, i2]
  obtain ⟨a1, a2⟩ := h1 (out cur) (fun _ h => h)
  refine ⟨?_, ?_⟩
  · simp only [recurFind, if_neg hv, a1]
    show (if chk = true ∧ cur ≠ cur then none else some (false, cyc, (cur :: vis).erase cur)) = _
    rw [if_neg (by simp), List.erase_cons_head]
  · simp only [recurEffort, if_neg hv, a2]

/-- The nodes `3i`, `3i + 1`, `3i + 2` form diamonds, one below the other, down to the node `3n`. -/
structure Diamonds (n : Nat) (out : Nat → List Nat) : Prop where
  nodup : ∀ a, (out a).Nodup
  top : ∀ i, i < n → ∀ x, x ∈ out (3 * i) ↔ x = 3 * i + 1 ∨ x = 3 * i + 2
  left : ∀ i, i < n → ∀ x, x ∈ out (3 * i + 1) ↔ x = 3 * i + 3
  right : ∀ i, i < n → ∀ x, x ∈ out (3 * i + 2) ↔ x = 3 * i + 3
  bottom : out (3 * n) = []

omit [DecidableEq L] in
theorem eq_singleton {l : List L} {a : L} (hn : l.Nodup) (h : ∀ x, x ∈ l ↔ x = a) : l = [a] := by
  have : l.Perm [a] := (List.perm_ext_iff_of_nodup hn (by simp)).2 (fun x => by rw [h]; simp)
  exact List.perm_singleton.1 this

/-- The search goes down every path through the diamonds. -/
theorem diamonds_effort {chk : Bool} {n : Nat} {out : Nat → List Nat} (hd : Diamonds n out) :
    ∀ (d i fuel : Nat) (cyc vis : List Nat), i + d = n → 2 * d + 1 ≤ fuel → (∀ y ∈ vis, y < 3 * i) →
      recurFind chk out fuel (3 * i) cyc vis = some (false, cyc, vis) ∧
      2 ^ d ≤ recurEffort chk out fuel (3 * i) cyc vis
  | 0, i, fuel, cyc, vis, hi, hf, hv => by
    obtain ⟨fuel, rfl⟩ : ∃ k, fuel = k + 1 := ⟨fuel - 1, by omega⟩
    have hin : i = n := by omega
    subst hin
    obtain ⟨a, b⟩ := recurFind_back (chk := chk) (out := out) (n := fuel) (cur := 3 * i) (cyc := cyc) (vis := vis)
      (fun h => absurd (hv _ h) (by omega)) (by rw [hd.bottom]; simp)
    refine ⟨a, ?_⟩
    rw [b]
    simp
  | d + 1, i, fuel, cyc, vis, hi, hf, hv => by
    obtain ⟨fuel, rfl⟩ : ∃ k, fuel = k + 2 := ⟨fuel - 2, by omega⟩
    -- a node in the middle
    have hmid : ∀ m, (m = 3 * i + 1 ∨ m = 3 * i + 2) → ∀ c,
        recurFind chk out (fuel + 1) m (3 * i :: c) (3 * i :: vis) = some (false, 3 * i :: c, 3 * i :: vis) ∧
        2 ^ d ≤ recurEffort chk out (fuel + 1) m (3 * i :: c) (3 * i :: vis) := by
      intro m hm c
      have hout : out m = [3 * (i + 1)] := by
        refine eq_singleton (hd.nodup m) (fun x => ?_)
        rcases hm with rfl | rfl
        · rw [hd.left i (by omega)]; omega
        · rw [hd.right i (by omega)]; omega
      have ih := fun c => diamonds_effort (chk := chk) hd d (i + 1) fuel (m :: c) (m :: 3 * i :: vis) (by omega) (by omega) (by
        intro y hy
        rcases List.mem_cons.1 hy with rfl | hy
        · omega
        · rcases List.mem_cons.1 hy with rfl | hy
          · omega
          · have := hv y hy; omega)
      obtain ⟨a, b⟩ := recurFind_back (chk := chk) (out := out) (n := fuel) (cur := m) (cyc := 3 * i :: c)
        (vis := 3 * i :: vis) (by
          intro h
          rcases List.mem_cons.1 h with h | h
          · omega
          · have := hv m h; omega) (by
          intro x hx c'
          rw [hout, List.mem_singleton] at hx
          subst hx
          exact (ih c').1)
      refine ⟨a, ?_⟩
      rw [b, hout]
      have := (ih (3 * i :: c)).2
      simp only [List.map_cons, List.map_nil, List.sum_cons, List.sum_nil]
      omega
    obtain ⟨a, b⟩ := recurFind_back (chk := chk) (out := out) (n := fuel + 1) (cur := 3 * i) (cyc := cyc)
      (vis := vis) (fun h => absurd (hv _ h) (by omega)) (by
        intro x hx c'
        rw [hd.top i (by omega)] at hx
        exact (hmid x hx c').1)
    refine ⟨a, ?_⟩
    have hp : (out (3 * i)).Perm [3 * i + 1, 3 * i + 2] :=
      (List.perm_ext_iff_of_nodup (hd.nodup _) (by simp)).2 (fun x => by rw [hd.top i (by omega)]; simp)
    rw [b, (hp.map _).sum_nat]
    have h1 := (hmid (3 * i + 1) (.inl rfl) cyc).2
    have h2 := (hmid (3 * i + 2) (.inr rfl) cyc).2
    simp only [List.map_cons, List.map_nil, List.sum_cons, List.sum_nil]
    rw [Nat.pow_succ]
    omega

end Svm.Gas.Graph

namespace Svm.Wasm

open Svm.Gas (Graph Acyclic)
open Svm.Gas.Graph
open Relation (TransGen ReflTransGen)

/-! ## Model for programs -/

/-- Instructions of a function that `ProgramVisitor::visit` looks at, program/src/visitor.rs:22-24: those up to the first
error. -/
def opsEffort (p : Program) (origin : Nat) : List Op → Nat
  | [] => 0
  | op :: ops => 1 +
    match onOp p origin op with
    | .ok _ => opsEffort p origin ops
    | .error _ => 0

/-- Functions and instructions that `ProgramVisitor::visit` looks at, program/src/visitor.rs:12-30. -/
def funcsEffort (p : Program) : List Nat → List (List Op) → Nat
  | i :: is, ops :: bodies => 1 + opsEffort p i ops +
    match visitOps p i ops with
    | .ok _ => funcsEffort p is bodies
    | .error _ => 0
  | _, _ => 0

/-- `validate_wasm`, validation.rs:19-21: the visits, the calls of the graph builder and the search for cycles. -/
def validateEffort (chk returnCycles : Bool) (p : Program) : Nat :=
  funcsEffort p p.funcIndexes p.functions +
    match visitFuncs p p.funcIndexes p.functions with
    | .ok cs => cs.length +
      match build () cs (Graph.empty ()) with
      | some g => sortEffort chk returnCycles (fun a b => decide (a ≤ b)) g
      | none => 0
    | .error _ => 0

/-! ## Specification -/

/-- The functions of a program and their instructions. -/
def volume (p : Program) : Nat := (p.functions.map fun ops => ops.length + 1).sum

/-- C143 as claimed: the time that validation takes is linear in the size of the program. -/
def C143_claim (chk returnCycles : Bool) : Prop := ∀ p : Program, validateEffort chk returnCycles p ≤ 8 * volume p + 1

/-! ## The part that holds -/

theorem opsEffort_le (p : Program) (origin : Nat) (ops : List Op) : opsEffort p origin ops ≤ ops.length := by
  induction ops with
  | nil => exact Nat.le_refl _
  | cons op ops ih =>
    simp only [opsEffort, List.length_cons]
    split <;> omega

theorem funcsEffort_le (p : Program) : ∀ (is : List Nat) (bodies : List (List Op)),
    funcsEffort p is bodies ≤ (bodies.map fun ops => ops.length + 1).sum
  | [], _ => by simp [funcsEffort]
  | _ :: _, [] => by simp [funcsEffort]
  | i :: is, ops :: bodies => by
    have h1 := opsEffort_le p i ops
    have h2 := funcsEffort_le p is bodies
    simp only [funcsEffort, List.map_cons, List.sum_cons]
    split <;> omega

theorem visitOps_length (p : Program) (origin : Nat) : ∀ (ops : List Op) (cs : List (Cmd Nat)),
    visitOps p origin ops = .ok cs → cs.length ≤ ops.length
  | [], cs, h => by cases h; exact Nat.le_refl _
  | op :: ops, cs, h => by
    simp only [visitOps] at h
    cases h1 : onOp p origin op with
    | error e => rw [h1] at h; cases h
    | ok c =>
      cases h2 : visitOps p origin ops with
      | error e => rw [h1, h2] at h; cases h
      | ok cs' =>
        rw [h1, h2] at h
        have := visitOps_length p origin ops cs' h2
        have hc : c.length ≤ 1 := by
          cases op with
          | call f =>
            simp only [onOp] at h1
            split at h1
            · split at h1
              · cases h1; simp
              · split at h1
                · cases h1
                · cases h1; simp
            · cases h1
          | loop => cases h1
          | callIndirect => cases h1
          | _ => cases h1; simp
        cases h
        simp only [List.length_append, List.length_cons]
        omega

theorem visitFuncs_length (p : Program) : ∀ (is : List Nat) (bodies : List (List Op)) (cs : List (Cmd Nat)),
    visitFuncs p is bodies = .ok cs → cs.length ≤ (bodies.map fun ops => ops.length + 1).sum
  | [], _, cs, h => by cases h; simp
  | _ :: _, [], cs, h => by cases h; simp
  | i :: is, ops :: bodies, cs, h => by
    simp only [visitFuncs] at h
    cases h1 : visitOps p i ops with
    | error e => rw [h1] at h; cases h
    | ok c =>
      cases h2 : visitFuncs p is bodies with
      | error e => rw [h1, h2] at h; cases h
      | ok cs' =>
        rw [h1, h2] at h
        have a1 := visitOps_length p i ops c h1
        have a2 := visitFuncs_length p is bodies cs' h2
        cases h
        simp only [List.length_append, List.length_cons, List.map_cons, List.sum_cons]
        omega

/-- The time of a validation, without the search for a cycle to report. -/
theorem validateEffort_eq (chk rc : Bool) (p : Program) : ∃ s, s ≤ 5 * volume p ∧ (validateEffort chk rc p = s ∨
    (rc = true ∧ ¬ Acyclic (Calls p) ∧ ∃ (cs : List (Cmd Nat)) (g g' : Graph Nat Unit) (q : List Nat),
      visitFuncs p p.funcIndexes p.functions = .ok cs ∧
      Wf g ∧ g.E = Calls p ∧ Inv g g.sourceNodes.reverse [] q g' ∧ g.nodes.length ≤ 2 * volume p ∧
      validateEffort chk rc p = s + deriveEffort chk true (fun a b => decide (a ≤ b)) g')) := by
  have hf : funcsEffort p p.funcIndexes p.functions ≤ volume p := funcsEffort_le p _ _
  cases hv : visitFuncs p p.funcIndexes p.functions with
  | error e =>
    refine ⟨_, ?_, .inl rfl⟩
    simp only [validateEffort, hv]
    omega
  | ok cs =>
    have hlen : cs.length ≤ volume p := visitFuncs_length p _ _ _ hv
    have hok : NoLoops p ∧ SmallCalls p ∧ (∀ a, ¬ Calls p a a) := by
      by_contra hn
      obtain ⟨e, he, -⟩ := (visit_spec p).2 hn
      rw [hv] at he
      cases he
    obtain ⟨cs', e1, e2, -⟩ := (visit_spec p).1 hok
    rw [hv] at e1
    cases e1
    have hE : IsEdge cs = Calls p := by funext a b; exact propext (e2 a b)
    obtain ⟨g, h1, h2, -, h3, h4⟩ := build_some (dflt := ()) cs (Graph.empty ()) (wf_empty ()) (by
      intro a b hab e
      subst e
      exact hok.2.2 a ((e2 a a).1 hab))
    have hgE : g.E = IsEdge cs := by
      funext a b
      apply propext
      rw [Graph.E, h3]
      simp [Graph.empty]
    have hN : ∀ x, x ∈ g.nodes → IsNode cs x := by
      intro x
      rw [h4]
      simp [Graph.empty]
    have hnl : g.nodes.length ≤ 2 * volume p := by
      have a1 := (List.subperm_of_subset h2.nodup (fun x hx => mem_nodeList (hN x hx))).length_le
      have a2 := lists_length cs
      omega
    obtain ⟨g', q, hr, hI⟩ := kahn_spec h2
    have hle := loopEffort_le h2 hgE hN hr hI
    refine ⟨funcsEffort p p.funcIndexes p.functions + (cs.length +
      loopEffort (fun _ _ d => some d) g.nodes.length g g.sourceNodes.reverse []), by omega, ?_⟩
    by_cases hed : g'.hasEdges = true
    · cases rc with
      | false =>
        left
        simp only [validateEffort, hv, h1, sortEffort, hr, hed, if_true, deriveEffort, Bool.false_eq_true, if_false,
          Nat.add_zero]
      | true =>
        right
        refine ⟨rfl, ?_, cs, g, g', q, rfl, h2, hgE.trans hE, hI, hnl, ?_⟩
        · rw [← hE, ← hgE]
          exact (left_iff h2 hI).1 ((hasEdges_iff hI).1 hed)
        · simp only [validateEffort, hv, h1, sortEffort, hr, hed, if_true]
          show _ + (_ + (_ + _)) = _ + (_ + _) + _
          omega
    · left
      simp only [validateEffort, hv, h1, sortEffort, hr]
      rw [if_neg hed]
      rfl

/-- **C143** for the runtime, which does not ask for a cycle (runtime/src/runtime/runtime.rs:563), and for programs that
are accepted: validation is linear. Missing: the search for a cycle to report. -/
theorem C143_linear_partial (chk rc : Bool) (p : Program) (h : rc = false ∨ Acyclic (Calls p)) :
    validateEffort chk rc p ≤ 5 * volume p := by
  obtain ⟨s, hs, h1 | ⟨h1, h2, -⟩⟩ := validateEffort_eq chk rc p
  · omega
  · rcases h with h | h
    · rw [h1] at h; cases h
    · exact absurd h h2

theorem C143_runtime (chk : Bool) : C143_claim chk false := fun p => by
  have := C143_linear_partial chk false p (.inl rfl)
  omega

/-- **C143** when the search has no dead ends: every function that recursive functions lead to calls a function of the
program itself. Then the search is linear too. Missing: programs with dead ends. -/
theorem C143_no_dead_ends_partial (chk rc : Bool) (p : Program)
    (h : ∀ c f, TransGen (Calls p) c c → ReflTransGen (Calls p) c f → ∃ f', Calls p f f') :
    validateEffort chk rc p ≤ 8 * volume p + 1 := by
  obtain ⟨s, hs, h1 | ⟨-, -, cs, g, g', q, -, h2, hE, hI, hnl, h1⟩⟩ := validateEffort_eq chk rc p
  · omega
  · have hd : deriveEffort chk true (fun a b => decide (a ≤ b)) g' ≤ g'.nodes.length + 1 := by
      unfold deriveEffort
      rw [if_pos rfl]
      dsimp only
      split
      · rename_i start hst
        have hm : start ∈ g'.nodes.filter fun n => !(g'.inc n).isEmpty && !(g'.out n).isEmpty := by
          have := List.mem_of_mem_head? hst
          rwa [List.mem_insertionSort] at this
        rw [mem_cands h2 hI, hE] at hm
        refine (recurEffort_le chk g'.out (fun x => ∃ c, TransGen (Calls p) c c ∧ ReflTransGen (Calls p) c x)
          ?_ ?_ _ start [] [] hm.1).1
        · rintro a ⟨c, c1, c2⟩ b hb
          refine ⟨c, c1, c2.tail ?_⟩
          rw [← hE]
          exact sub_left hI hb
        · rintro a ⟨c, c1, c2⟩
          have hq : a ∉ q := left_closed h2 hI (a := c) (by rw [hE]; exact c2)
            (visited_not_cycle h2 hI (by rw [hE]; exact c1))
          obtain ⟨f', hf'⟩ := h c a c1 c2
          rw [hI.out, if_neg hq]
          rw [← hE] at hf'
          exact List.ne_nil_of_mem hf'
      · omega
    rw [hI.nodes] at hd
    omega

/-! ## The violation -/

/-- The functions of a program with `n` diamonds below two functions that call each other. -/
def diamondBody (n k : Nat) : List Op :=
  if k < 3 * n then
    if k % 3 = 0 then [.call (k + 1), .call (k + 2), .end_] else [.call (3 * (k / 3) + 3), .end_]
  else if k = 3 * n then [.end_]
  else if k = 3 * n + 1 then [.call (3 * n + 2), .call 0, .end_]
  else [.call (3 * n + 1), .end_]

def diamondProgram (n : Nat) : Program := ⟨[], [], (List.range (3 * n + 3)).map (diamondBody n)⟩

theorem diamond_getFunc (n a : Nat) :
    (diamondProgram n).getFunc a = if a < 3 * n + 3 then some (diamondBody n a) else none := by
  unfold Program.getFunc diamondProgram
  simp only [List.length_nil, Nat.not_lt_zero, if_false, Nat.sub_zero, List.getElem?_map]
  split
  · rename_i h
    rw [List.getElem?_range h]
    rfl
  · rename_i h
    rw [List.getElem?_eq_none (by simpa using h)]
    rfl

theorem diamond_calls (n a b : Nat) : Calls (diamondProgram n) a b ↔ a < 3 * n + 3 ∧ .call b ∈ diamondBody n a := by
  unfold Calls
  rw [diamond_getFunc]
  constructor
  · rintro ⟨ops, h, hc, -⟩
    split at h
    · cases h
      exact ⟨‹_›, hc⟩
    · cases h
  · rintro ⟨h, hc⟩
    rw [if_pos h]
    exact ⟨_, rfl, hc, Nat.zero_le _⟩

theorem diamond_body_mem {n k : Nat} {op : Op} (_hk : k < 3 * n + 3) (h : op ∈ diamondBody n k) :
    op = .end_ ∨ ∃ b, op = .call b ∧ b < 3 * n + 3 ∧ b ≠ k := by
  unfold diamondBody at h
  split at h
  · split at h
    · simp only [List.mem_cons, List.not_mem_nil, or_false] at h
      rcases h with rfl | rfl | rfl
      · exact .inr ⟨_, rfl, by omega, by omega⟩
      · exact .inr ⟨_, rfl, by omega, by omega⟩
      · exact .inl rfl
    · simp only [List.mem_cons, List.not_mem_nil, or_false] at h
      rcases h with rfl | rfl
      · exact .inr ⟨_, rfl, by omega, by omega⟩
      · exact .inl rfl
  · split at h
    · simp only [List.mem_cons, List.not_mem_nil, or_false] at h
      exact .inl h
    · split at h
      · simp only [List.mem_cons, List.not_mem_nil, or_false] at h
        rcases h with rfl | rfl | rfl
        · exact .inr ⟨_, rfl, by omega, by omega⟩
        · exact .inr ⟨_, rfl, by omega, by omega⟩
        · exact .inl rfl
      · simp only [List.mem_cons, List.not_mem_nil, or_false] at h
        rcases h with rfl | rfl
        · exact .inr ⟨_, rfl, by omega, by omega⟩
        · exact .inl rfl

theorem diamond_mem {n : Nat} {ops : List Op} (h : ops ∈ (diamondProgram n).functions) :
    ∃ k, k < 3 * n + 3 ∧ ops = diamondBody n k := by
  obtain ⟨k, hk, rfl⟩ := List.mem_map.1 h
  exact ⟨k, List.mem_range.1 hk, rfl⟩

theorem diamond_volume (n : Nat) : volume (diamondProgram n) ≤ 12 * n + 12 := by
  have key : ∀ l : List Nat, (l.map fun k => (diamondBody n k).length + 1).sum ≤ 4 * l.length := by
    intro l
    induction l with
    | nil => simp
    | cons k l ih =>
      have : (diamondBody n k).length ≤ 3 := by
        unfold diamondBody
        split
        · split <;> simp
        · split
          · simp
          · split <;> simp
      simp only [List.map_cons, List.sum_cons, List.length_cons]
      omega
  have := key (List.range (3 * n + 3))
  rw [List.length_range] at this
  unfold volume diamondProgram
  rw [List.map_map]
  show ((List.range (3 * n + 3)).map fun k => (diamondBody n k).length + 1).sum ≤ _
  omega

/-- **C143** is violated when a cycle is asked for: for every `n` up to 21844 there is a program with at most `12n + 12`
functions and instructions for which the search makes at least `2^n` calls, in debug and release builds. -/
theorem C143_exponential (chk : Bool) (n : Nat) (hn : 0 < n) (hmax : n ≤ 21844) :
    ∃ p : Program, volume p ≤ 12 * n + 12 ∧ 2 ^ n ≤ validateEffort chk true p := by
  refine ⟨diamondProgram n, diamond_volume n, ?_⟩
  have hC := diamond_calls n
  have hcyc : TransGen (Calls (diamondProgram n)) (3 * n + 1) (3 * n + 1) :=
    TransGen.tail (b := 3 * n + 2) (.single ((hC _ _).2 ⟨by omega, by
      unfold diamondBody; rw [if_neg (by omega), if_neg (by omega), if_pos rfl]; simp⟩)) ((hC _ _).2 ⟨by omega, by
      unfold diamondBody; rw [if_neg (by omega), if_neg (by omega), if_neg (by omega)]; simp⟩)
  have hzero : Calls (diamondProgram n) (3 * n + 1) 0 := (hC _ _).2 ⟨by omega, by
      unfold diamondBody; rw [if_neg (by omega), if_neg (by omega), if_pos rfl]; simp⟩
  have hno : NoLoops (diamondProgram n) := by
    intro ops ho
    obtain ⟨k, hk, rfl⟩ := diamond_mem ho
    constructor
    · intro h
      rcases diamond_body_mem hk h with h | ⟨b, h, -⟩ <;> cases h
    · intro h
      rcases diamond_body_mem hk h with h | ⟨b, h, -⟩ <;> cases h
  have hsm : SmallCalls (diamondProgram n) := by
    intro ops ho f hf
    obtain ⟨k, hk, rfl⟩ := diamond_mem ho
    rcases diamond_body_mem hk hf with h | ⟨b, h, hb, -⟩
    · cases h
    · cases h; omega
  have hself : ∀ a, ¬ Calls (diamondProgram n) a a := by
    intro a ha
    obtain ⟨hk, hm⟩ := (hC a a).1 ha
    rcases diamond_body_mem hk hm with h | ⟨b, h, -, hb⟩
    · cases h
    · cases h; exact hb rfl
  obtain ⟨cs, v1, v2, -⟩ := (visit_spec (diamondProgram n)).1 ⟨hno, hsm, hself⟩
  have hE : IsEdge cs = Calls (diamondProgram n) := by funext a b; exact propext (v2 a b)
  obtain ⟨g, h1, h2, h3⟩ := Svm.Gas.graph_of_cmds (D := Unit) () cs (by
    intro a b hab e
    subst e
    rw [hE] at hab
    exact hself a hab)
  rw [hE] at h3
  obtain ⟨g', q, hr, hI⟩ := kahn_spec h2
  have hed : g'.hasEdges = true := (hasEdges_iff hI).2 ((left_iff h2 hI).2 (by
    rw [h3]; intro ha; exact ha _ hcyc))
  -- nothing behind the cycle has been visited
  have hq0 : 0 ∉ q := left_closed h2 hI (a := 3 * n + 1) (.single (by rw [h3]; exact hzero))
    (visited_not_cycle h2 hI (by rw [h3]; exact hcyc))
  have hEout : ∀ a b, b ∈ g.out a ↔ Calls (diamondProgram n) a b := fun a b => by
    rw [← h3]; rfl
  have htop : ∀ i, i < n → ∀ x, x ∈ g.out (3 * i) ↔ x = 3 * i + 1 ∨ x = 3 * i + 2 := by
    intro i hi x
    rw [hEout, hC]
    unfold diamondBody
    rw [if_pos (by omega), if_pos (by omega)]
    simp
    omega
  have hleft : ∀ i, i < n → ∀ x, x ∈ g.out (3 * i + 1) ↔ x = 3 * i + 3 := by
    intro i hi x
    rw [hEout, hC]
    unfold diamondBody
    rw [if_pos (by omega), if_neg (by omega)]
    simp
    omega
  have hright : ∀ i, i < n → ∀ x, x ∈ g.out (3 * i + 2) ↔ x = 3 * i + 3 := by
    intro i hi x
    rw [hEout, hC]
    unfold diamondBody
    rw [if_pos (by omega), if_neg (by omega)]
    simp
    omega
  have hbot : g.out (3 * n) = [] := by
    rw [List.eq_nil_iff_forall_not_mem]
    intro x hx
    rw [hEout, hC] at hx
    unfold diamondBody at hx
    rw [if_neg (by omega), if_pos rfl] at hx
    simp at hx
  have hqi : ∀ i, i ≤ n → 3 * i ∉ q := by
    intro i
    induction i with
    | zero => intro _; exact hq0
    | succ i ih =>
      intro hi
      have e1 : g.E (3 * i) (3 * i + 1) := (htop i (by omega) _).2 (.inl rfl)
      have e2 : g.E (3 * i + 1) (3 * (i + 1)) := (hleft i (by omega) _).2 (by omega)
      exact left_closed h2 hI ((ReflTransGen.single e1).tail e2) (ih (by omega))
  have hqm : ∀ i, i < n → 3 * i + 1 ∉ q ∧ 3 * i + 2 ∉ q := by
    intro i hi
    have e1 : g.E (3 * i) (3 * i + 1) := (htop i hi _).2 (.inl rfl)
    have e2 : g.E (3 * i) (3 * i + 2) := (htop i hi _).2 (.inr rfl)
    exact ⟨left_closed h2 hI (.single e1) (hqi i (by omega)), left_closed h2 hI (.single e2) (hqi i (by omega))⟩
  have hd : Diamonds n g'.out := by
    refine ⟨fun a => ?_, fun i hi x => ?_, fun i hi x => ?_, fun i hi x => ?_, ?_⟩
    · rw [hI.out]
      split
      · exact List.nodup_nil
      · exact h2.outNodup a
    · rw [hI.out, if_neg (hqi i (by omega)), htop i hi]
    · rw [hI.out, if_neg (hqm i hi).1, hleft i hi]
    · rw [hI.out, if_neg (hqm i hi).2, hright i hi]
    · rw [hI.out, if_neg (hqi n (by omega)), hbot]
  -- the search starts at function 0
  have hcand : (0 : Nat) ∈ g'.nodes.filter fun n => !(g'.inc n).isEmpty && !(g'.out n).isEmpty := by
    rw [mem_cands h2 hI, h3]
    refine ⟨⟨_, hcyc, .single hzero⟩, 1, ?_⟩
    rw [← hEout]
    exact (htop 0 hn 1).2 (.inl rfl)
  have hstart : ((g'.nodes.filter fun n => !(g'.inc n).isEmpty && !(g'.out n).isEmpty).insertionSort
      (fun a b => decide (a ≤ b) = true)).head? = some 0 := by
    cases hh : ((g'.nodes.filter fun n => !(g'.inc n).isEmpty && !(g'.out n).isEmpty).insertionSort
      (fun a b => decide (a ≤ b) = true)).head? with
    | none =>
      exfalso
      rw [List.head?_eq_none_iff] at hh
      have : (0 : Nat) ∈ (g'.nodes.filter fun n => !(g'.inc n).isEmpty && !(g'.out n).isEmpty).insertionSort
          (fun a b => decide (a ≤ b) = true) := by rw [List.mem_insertionSort]; exact hcand
      rw [hh] at this
      cases this
    | some x =>
      have := (head_sort (fun a b => decide (a ≤ b)) (by simp; omega) (by simp; omega) _ x hh).2 0 hcand
      simp at this
      rw [this]
  -- there is enough fuel
  have hfuel : 2 * n + 1 ≤ g'.nodes.length + 1 := by
    rw [hI.nodes]
    have hsub : ∀ x ∈ List.range (3 * n), x ∈ g.nodes := by
      intro x hx
      rw [List.mem_range] at hx
      have hx3 : x = 3 * (x / 3) ∨ x = 3 * (x / 3) + 1 ∨ x = 3 * (x / 3) + 2 := by omega
      have hi : x / 3 < n := by omega
      rcases hx3 with h | h | h
      · rw [h]; exact (h2.mem _ _ ((htop _ hi _).2 (.inl rfl))).1
      · rw [h]; exact (h2.mem _ _ ((hleft _ hi _).2 rfl)).1
      · rw [h]; exact (h2.mem _ _ ((hright _ hi _).2 rfl)).1
    have := (List.subperm_of_subset List.nodup_range hsub).length_le
    rw [List.length_range] at this
    omega
  have hsearch := (diamonds_effort (chk := chk) hd n 0 (g'.nodes.length + 1) [] [] (by omega) hfuel (by simp)).2
  simp only [validateEffort, v1, h1, sortEffort, hr, hed, if_true, deriveEffort, hstart]
  rw [Nat.mul_zero] at hsearch
  show _ ≤ _ + (_ + (_ + _))
  omega

/-- The code violates C143. -/
theorem C143_claim_false (chk : Bool) : ¬ C143_claim chk true := by
  intro h
  obtain ⟨p, h1, h2⟩ := C143_exponential chk 16 (by omega) (by omega)
  have := h p
  omega

/-- Non-vacuity: three functions, accepted and rejected. -/
example : validateEffort true true ⟨[], [], [[.call 1, .call 2, .end_], [.call 2, .end_], [.end_]]⟩ = 21 ∧
    validateEffort true false ⟨[], [], [[.call 1, .end_], [.call 0, .end_]]⟩ = 10 ∧
    validateEffort true true ⟨[], [], [[.call 1, .end_], [.call 0, .end_]]⟩ = 13 := by
  refine ⟨?_, ?_, ?_⟩ <;> decide +kernel

/-- Non-vacuity of `C143_no_dead_ends_partial`. -/
example : ∀ c f, TransGen (Calls ⟨[], [], [[.call 1, .end_], [.call 0, .end_]]⟩) c c →
    ReflTransGen (Calls ⟨[], [], [[.call 1, .end_], [.call 0, .end_]]⟩) c f →
    ∃ f', Calls ⟨[], [], [[.call 1, .end_], [.call 0, .end_]]⟩ f f' := by
  have hb : ∀ a b, Calls ⟨[], [], [[.call 1, .end_], [.call 0, .end_]]⟩ a b → b = 0 ∨ b = 1 := by
    rintro a b ⟨ops, ha, hc, -⟩
    have hm := (mem_functions_iff _ ops).2 ⟨a, ha⟩
    simp only [List.mem_cons, List.not_mem_nil, or_false] at hm
    rcases hm with rfl | rfl <;> simp at hc <;> omega
  intro c f hc hf
  have h01 : f = 0 ∨ f = 1 := by
    obtain ⟨d, -, hd⟩ := TransGen.tail'_iff.1 (hc.trans_left hf)
    exact hb _ _ hd
  rcases h01 with rfl | rfl
  · exact ⟨1, _, rfl, by simp, Nat.zero_le _⟩
  · exact ⟨0, _, rfl, by simp, Nat.zero_le _⟩

end Svm.Wasm
