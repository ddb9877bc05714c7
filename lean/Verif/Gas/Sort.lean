import Verif.Gas.Graph
import Mathlib.Data.List.Chain
import Mathlib.Data.List.Sort
import Mathlib.Data.List.Nodup
import Mathlib.Logic.Relation

/-!
# Topological sort and cycle search (crates/host/gas/src/graph/sort.rs); properties C49 and C50
-/

namespace Svm.Gas

open Relation (TransGen ReflTransGen)

variable {L D : Type} [DecidableEq L]

/-! ## Model -/

/-- `Result<Vec<L>, GraphCycles<L>>` of `try_topological_sort`; an error is always `HasCycles`. -/
inductive SortRes (L : Type) where
  | sorted (l : List L)
  | cycles (l : List L)
  deriving Repr, DecidableEq

namespace Graph

/-- `has_edges`, graph/sort.rs:68-75. -/
def hasEdges (g : Graph L D) : Bool :=
  g.nodes.any fun n => !((g.out n).isEmpty && (g.inc n).isEmpty)

/-- The loop of `recur_find_cycle`, graph/sort.rs:142-148, over the recursive call. -/
def tryAll (rec : L → List L → List L → Option (Bool × List L × List L)) :
    List L → List L → List L → Option (Bool × List L × List L)
  | [], cyc, vis => some (false, cyc, vis)
  | x :: xs, cyc, vis => do
    let r ← rec x cyc vis
    if r.1 then some r else tryAll rec xs r.2.1 r.2.2

/-- `recur_find_cycle`, graph/sort.rs:123-156: the stack `cycle` (top first) and the set `visited`.
`none` is a panic or recursion deeper than the fuel. -/
def recurFind (chk : Bool) (out : L → List L) :
    Nat → L → List L → List L → Option (Bool × List L × List L)
  | 0, _, _, _ => none
  | n + 1, cur, cyc, vis =>
    if cur ∈ vis then some (true, cur :: cyc, vis)
    else do
      let r ← tryAll (recurFind chk out n) (out cur) (cur :: cyc) (cur :: vis)
      if r.1 then some r
      else match r.2.1 with
        | [] => none
        | v :: cyc => if chk ∧ v ≠ cur then none else some (false, cyc, r.2.2.erase cur)

/-- `find_cycle`, graph/sort.rs:108-121; with debug assertions (`chk`) it panics when nothing is
found. -/
def findCycle (chk : Bool) (g : Graph L D) (start : L) : Option (List L) := do
  let r ← recurFind chk g.out (g.nodes.length + 1) start [] []
  if chk ∧ r.1 = false then none else some r.2.1.reverse

/-- `derive_cycle`, graph/sort.rs:77-106; `le` is the order of the labels. -/
def deriveCycle (chk returnCycles : Bool) (le : L → L → Bool) (g : Graph L D) :
    Option (Option (List L)) :=
  if returnCycles then do
    let cands := g.nodes.filter fun n => !(g.inc n).isEmpty && !(g.out n).isEmpty
    let start ← (cands.insertionSort (fun a b => le a b = true)).head?
    let c ← findCycle chk g start
    some (some c)
  else some none

/-- `try_topological_sort`, graph/sort.rs:29-66. -/
def trySort (chk returnCycles : Bool) (le : L → L → Bool) (g : Graph L D) : Option (SortRes L) := do
  let (g', p) ← loop (fun _ _ d => some d) g.nodes.length g g.sourceNodes.reverse []
  if g'.hasEdges then do
    let c ← deriveCycle chk returnCycles le g'
    some (.cycles (c.getD []))
  else some (.sorted p.reverse)

/-- `topological_sort`, graph/sort.rs:20-27: panics when there is a cycle. -/
def topoSort (chk : Bool) (le : L → L → Bool) (g : Graph L D) : Option (List L) := do
  match ← trySort chk false le g with
  | .sorted l => some l
  | .cycles _ => none

/-- A call of a graph builder: `add_node` or `add_edge`. -/
inductive Cmd (L : Type) where
  | node (l : L)
  | edge (s d : L)
  deriving Repr, DecidableEq

/-- A graph built by a sequence of calls; `none` is a panic. -/
def build (dflt : D) : List (Cmd L) → Graph L D → Option (Graph L D)
  | [], g => some g
  | .node l :: cs, g => build dflt cs (g.addNode l)
  | .edge s d :: cs, g => do build dflt cs (← g.addEdge s d)

/-! ## Specification -/

/-- The edges asked for. -/
def IsEdge (cs : List (Cmd L)) (a b : L) : Prop := Cmd.edge a b ∈ cs

/-- The nodes asked for. -/
def IsNode (cs : List (Cmd L)) (a : L) : Prop :=
  Cmd.node a ∈ cs ∨ (∃ b, Cmd.edge a b ∈ cs) ∨ (∃ b, Cmd.edge b a ∈ cs)

end Graph

/-- No node reaches itself by one or more edges. -/
def Acyclic (E : L → L → Prop) : Prop := ∀ x, ¬ TransGen E x x

/-- A list of nodes that is a cycle of `E`: at least two entries, each with an edge to the next,
and the last equals the first. -/
def IsCycle (E : L → L → Prop) (l : List L) : Prop :=
  2 ≤ l.length ∧ l.IsChain E ∧ l.head? = l.getLast?

namespace Graph

/-! ## Chains -/

omit [DecidableEq L] in
theorem pairwise_of_chain {E : L → L → Prop} {l : List L} (h : l.IsChain E) :
    l.Pairwise (TransGen E) := by
  have : l.IsChain (TransGen E) := h.imp fun _ _ h => TransGen.single h
  exact List.isChain_iff_pairwise.1 this

omit [DecidableEq L] in
theorem chain_nodup {E : L → L → Prop} (ha : Acyclic E) {l : List L} (h : l.IsChain E) : l.Nodup :=
  List.Pairwise.imp (R := TransGen E) (S := (· ≠ ·))
    (fun {a b} h e => ha a (by subst e; exact h)) (pairwise_of_chain h)

omit [DecidableEq L] in
theorem long_chain {E : L → L → Prop} {U : List L} (h : ∀ x ∈ U, ∃ a ∈ U, E a x) (x₀ : L) (h₀ : x₀ ∈ U) :
    ∀ n : Nat, ∃ l : List L, l.length = n + 1 ∧ (∀ x ∈ l, x ∈ U) ∧ l.IsChain E
  | 0 => ⟨[x₀], rfl, by simpa using h₀, List.isChain_singleton _⟩
  | n + 1 => by
    obtain ⟨l, hl, hU, hc⟩ := long_chain h x₀ h₀ n
    cases l with
    | nil => simp at hl
    | cons y l =>
      obtain ⟨a, ha, hE⟩ := h y (hU y List.mem_cons_self)
      refine ⟨a :: y :: l, by simpa using hl, ?_, List.isChain_cons_cons.2 ⟨hE, hc⟩⟩
      intro x hx
      rcases List.mem_cons.1 hx with rfl | hx
      · exact ha
      · exact hU x hx

omit [DecidableEq L] in
/-- A finite set in which every node has a predecessor contains a cycle. -/
theorem not_acyclic_of_preds {E : L → L → Prop} {U : List L} (h : ∀ x ∈ U, ∃ a ∈ U, E a x) {x₀ : L}
    (h₀ : x₀ ∈ U) : ¬ Acyclic E := by
  intro ha
  obtain ⟨l, hl, hU, hc⟩ := long_chain h x₀ h₀ U.length
  have := (List.subperm_of_subset (chain_nodup ha hc) hU).length_le
  omega

/-! ## Kahn's algorithm -/

/-- What the loop leaves behind. -/
theorem kahn_spec {g : Graph L D} (hg : Wf g) :
    ∃ g' p, loop (fun _ _ d => some d) g.nodes.length g g.sourceNodes.reverse [] = some (g', p) ∧
      Inv g g.sourceNodes.reverse [] p g' := by
  have hI : ∀ x ∈ g.sourceNodes.reverse, x ∈ g.nodes ∧ g.inc x = [] := by
    intro x hx
    rw [List.mem_reverse] at hx
    exact mem_sourceNodes.1 hx
  have hinit := inv_init hg hI (by
    rw [List.nodup_reverse]
    exact List.Nodup.filter _ hg.nodup)
  have hfold : ∀ (s : L) (l : List L) (d : L → D),
      foldData (fun _ _ d => some d) s l d = some d := by
    intro s l
    induction l with
    | nil => intro d; rfl
    | cons a l ih => intro d; exact ih d
  obtain ⟨⟨g', p⟩, hr⟩ := loop_some hg (fun _ _ d => some d) (fun x hx => (hI x hx).2)
    (fun _ _ => True) (fun q p s g' _ _ => ⟨_, hfold _ _ _, trivial⟩) g.nodes.length g _ [] hinit
    trivial (by simp)
  exact ⟨g', p, hr, (loop_inv hg _ (fun x hx => (hI x hx).2) (fun _ _ => True)
    (fun _ _ _ _ _ _ _ _ => trivial) _ _ _ _ _ _ hinit trivial hr).1⟩

variable {g g' : Graph L D} {p : List L}

theorem mem_visited (h : Inv g g.sourceNodes.reverse [] p g') (x : L) :
    x ∈ p ↔ x ∈ g.nodes ∧ ∀ a ∈ g.inc x, a ∈ p := by
  have hm := h.mem x
  simp only [List.not_mem_nil, false_or, List.mem_reverse, mem_sourceNodes] at hm
  constructor
  · intro hx
    refine ⟨h.sub x (.inr hx), fun a ha => ?_⟩
    rcases hm.1 hx with ⟨-, he⟩ | ⟨-, he⟩
    · rw [he] at ha; cases ha
    · exact he a ha
  · rintro ⟨hx, ha⟩
    by_cases he : g.inc x = []
    · exact hm.2 (.inl ⟨hx, he⟩)
    · exact hm.2 (.inr ⟨he, ha⟩)

/-- The graph that is left has exactly the edges between nodes that were not visited. -/
theorem out_left (h : Inv g g.sourceNodes.reverse [] p g') (a : L) :
    g'.out a = if a ∈ p then [] else g.out a := h.out a

theorem hasEdges_iff (h : Inv g g.sourceNodes.reverse [] p g') :
    g'.hasEdges = true ↔ ∃ x ∈ g.nodes, x ∉ p := by
  unfold hasEdges
  rw [List.any_eq_true, h.nodes]
  constructor
  · rintro ⟨x, hx, he⟩
    by_cases hp : x ∈ p
    · exfalso
      have h1 : g'.out x = [] := by rw [h.out, if_pos hp]
      have h2 : g'.inc x = [] := by
        rw [List.eq_nil_iff_forall_not_mem]
        intro a ha
        rw [h.inc] at ha
        exact ha.2 (((mem_visited h x).1 hp).2 a ha.1)
      rw [h1, h2] at he
      cases he
    · exact ⟨x, hx, hp⟩
  · rintro ⟨x, hx, hp⟩
    rw [mem_visited h x] at hp
    push Not at hp
    obtain ⟨a, ha, hap⟩ := hp hx
    refine ⟨x, hx, ?_⟩
    have : a ∈ g'.inc x := (h.inc a x).2 ⟨ha, hap⟩
    cases hi : g'.inc x with
    | nil => rw [hi] at this; cases this
    | cons b l => simp

/-- The edges of a graph as a relation. -/
def E (g : Graph L D) (a b : L) : Prop := b ∈ g.out a

theorem left_iff (hg : Wf g) (h : Inv g g.sourceNodes.reverse [] p g') :
    (∃ x ∈ g.nodes, x ∉ p) ↔ ¬ Acyclic g.E := by
  constructor
  · rintro ⟨x, hx, hp⟩
    refine not_acyclic_of_preds (U := g.nodes.filter fun y => y ∉ p) ?_
      (List.mem_filter.2 ⟨hx, by simpa using hp⟩)
    intro y hy
    rw [List.mem_filter] at hy
    have hyp : y ∉ p := by simpa using hy.2
    rw [mem_visited h y] at hyp
    push Not at hyp
    obtain ⟨a, ha, hap⟩ := hyp hy.1
    have he : y ∈ g.out a := (hg.edge a y).2 ha
    exact ⟨a, List.mem_filter.2 ⟨(hg.mem a y he).1, by simpa using hap⟩, he⟩
  · intro hn
    by_contra hall
    push Not at hall
    apply hn
    -- the position in the order of visits increases along edges
    have hord : ∀ (p : List L), Ordered g p → p.Nodup → ∀ a b, b ∈ p → g.E a b →
        p.idxOf b < p.idxOf a := by
      intro p
      induction p with
      | nil => intro _ _ a b hb; cases hb
      | cons y p ih =>
        intro ho hnd a b hb hE
        rw [List.nodup_cons] at hnd
        have hab : a ∈ g.inc b := (hg.edge a b).1 hE
        by_cases hby : b = y
        · subst hby
          have hap := ho.1 a hab
          have hne : a ≠ b := fun e => hnd.1 (e ▸ hap)
          rw [List.idxOf_cons_self, List.idxOf_cons_ne _ (Ne.symm hne)]
          omega
        · have hbp : b ∈ p := (List.mem_cons.1 hb).resolve_left hby
          have hlt := ih ho.2 hnd.2 a b hbp hE
          by_cases hay : a = y
          · exfalso
            subst hay
            -- `b ∈ p`, so its predecessor `a` is in `p`
            have : ∀ (q : List L), Ordered g q → b ∈ q → a ∈ q := by
              intro q
              induction q with
              | nil => intro _ h; cases h
              | cons z q ih2 =>
                intro ho hb
                rcases List.mem_cons.1 hb with rfl | hb
                · exact List.mem_cons_of_mem _ (ho.1 a hab)
                · exact List.mem_cons_of_mem _ (ih2 ho.2 hb)
            exact hnd.1 (this p ho.2 hbp)
          · rw [List.idxOf_cons_ne _ (Ne.symm hby), List.idxOf_cons_ne _ (Ne.symm hay)]
            omega
    have hnodup : p.Nodup := h.nodup
    have hlt : ∀ a b, TransGen g.E a b → b ∈ g.nodes → p.idxOf b < p.idxOf a := by
      intro a b hab
      induction hab with
      | single hE => intro hb; exact hord p h.ord hnodup _ _ (hall _ hb) hE
      | tail _ hE ih =>
        intro hb
        have h1 := hord p h.ord hnodup _ _ (hall _ hb) hE
        have h2 := ih (hg.mem _ _ hE).1
        omega
    intro x hx
    have hxn : x ∈ g.nodes := by
      cases hx with
      | single hE => exact (hg.mem _ _ hE).1
      | tail _ hE => exact (hg.mem _ _ hE).2
    exact absurd (hlt x x hx hxn) (by omega)

omit [DecidableEq L] in
theorem ordered_suffix {g : Graph L D} {l₁ l₂ : List L} (h : Ordered g (l₁ ++ l₂)) : Ordered g l₂ := by
  induction l₁ with
  | nil => exact h
  | cons a l ih => exact ih h.2

/-! ## The builder -/

theorem build_some {dflt : D} : ∀ (cs : List (Cmd L)) (g : Graph L D), Wf g →
    (∀ a b, Cmd.edge a b ∈ cs → a ≠ b) →
    ∃ g', build dflt cs g = some g' ∧ Wf g' ∧ g'.data = g.data ∧
      (∀ a b, b ∈ g'.out a ↔ b ∈ g.out a ∨ IsEdge cs a b) ∧
      (∀ a, a ∈ g'.nodes ↔ a ∈ g.nodes ∨ IsNode cs a)
  | [], g, hg, _ => by
    refine ⟨g, rfl, hg, rfl, ?_, ?_⟩
    · intro a b; simp [IsEdge]
    · intro a; simp [IsNode]
  | .node l :: cs, g, hg, hne => by
    obtain ⟨g', h1, h2, hdat, h3, h4⟩ := build_some (dflt := dflt) cs (g.addNode l) (hg.addNode l)
      (fun a b h => hne a b (List.mem_cons_of_mem _ h))
    refine ⟨g', h1, h2, hdat, ?_, ?_⟩
    · intro a b
      rw [h3]
      simp [IsEdge, addNode]
    · intro a
      rw [h4]
      show a ∈ setInsert l g.nodes ∨ _ ↔ _
      rw [mem_setInsert]
      simp only [IsNode, List.mem_cons, Cmd.node.injEq, reduceCtorEq, false_or]
      grind
  | .edge s d :: cs, g, hg, hne => by
    have hsd := hne s d List.mem_cons_self
    have he : g.addEdge s d = some { nodes := setInsert s (setInsert d g.nodes)
                                     inc := upd g.inc d (setInsert s (g.inc d))
                                     out := upd g.out s (setInsert d (g.out s))
                                     data := g.data } := by
      unfold addEdge; rw [if_neg hsd]
    obtain ⟨g', h1, h2, hdat, h3, h4⟩ := build_some (dflt := dflt) cs _ (hg.addEdge he)
      (fun a b h => hne a b (List.mem_cons_of_mem _ h))
    refine ⟨g', ?_, h2, hdat, ?_, ?_⟩
    · simp only [build, he]
      exact h1
    · intro a b
      rw [h3, mem_out_addEdge he]
      simp only [IsEdge, List.mem_cons, Cmd.edge.injEq]
      grind
    · intro a
      rw [h4]
      show a ∈ setInsert s (setInsert d g.nodes) ∨ _ ↔ _
      rw [mem_setInsert, mem_setInsert]
      simp only [IsNode, List.mem_cons, Cmd.edge.injEq, reduceCtorEq, false_or]
      grind

theorem build_self {dflt : D} (a : L) : ∀ (cs : List (Cmd L)) (g : Graph L D), Cmd.edge a a ∈ cs →
    build dflt cs g = none
  | [], _, h => by cases h
  | .node l :: cs, g, h => build_self a cs _ ((List.mem_cons.1 h).resolve_left (by simp))
  | .edge s d :: cs, g, h => by
    simp only [build]
    rcases List.mem_cons.1 h with h | h
    · cases h
      unfold addEdge
      rw [if_pos rfl]; rfl
    · cases addEdge g s d with
      | none => rfl
      | some g' => exact build_self a cs g' h

/-! ## C49 -/

/-- `topological_sort` on a well-formed graph. -/
theorem trySort_spec (chk rc : Bool) (le : L → L → Bool) (hg : Wf g) :
    (Acyclic g.E → ∃ l, trySort chk rc le g = some (.sorted l)) ∧
    (¬ Acyclic g.E → trySort chk false le g = some (.cycles [])) ∧
    (∀ l, trySort chk rc le g = some (.sorted l) → Acyclic g.E ∧ l.Nodup ∧ (∀ x, x ∈ l ↔ x ∈ g.nodes) ∧
      ∀ a b, g.E a b → l.idxOf a < l.idxOf b) := by
  obtain ⟨g', p, hr, h⟩ := kahn_spec hg
  have hE := hasEdges_iff h
  have hA := left_iff hg h
  refine ⟨?_, ?_, ?_⟩
  · intro ha
    have : ¬ g'.hasEdges = true := by rw [hE, hA]; simpa using ha
    refine ⟨p.reverse, ?_⟩
    simp only [trySort, hr]
    show (if g'.hasEdges = true then _ else _) = _
    rw [if_neg this]
  · intro ha
    have : g'.hasEdges = true := by rw [hE, hA]; exact ha
    simp only [trySort, hr]
    show (if g'.hasEdges = true then _ else _) = _
    rw [if_pos this]
    rfl
  · intro l hl
    simp only [trySort, hr] at hl
    replace hl : (if g'.hasEdges = true then (do
        let c ← deriveCycle chk rc le g'
        some (SortRes.cycles (c.getD []))) else some (SortRes.sorted p.reverse)) =
        some (SortRes.sorted l) := hl
    by_cases hh : g'.hasEdges = true
    · rw [if_pos hh] at hl
      cases hd : deriveCycle chk rc le g' <;> rw [hd] at hl <;> cases hl
    · rw [if_neg hh] at hl
      cases hl
      rw [hE, hA, not_not] at hh
      have hall : ∀ x ∈ g.nodes, x ∈ p := by
        have := hA.not.2 (not_not.2 hh)
        push Not at this
        exact this
      refine ⟨hh, List.nodup_reverse.2 h.nodup, ?_, ?_⟩
      · intro x
        rw [List.mem_reverse]
        exact ⟨fun hx => h.sub x (.inr hx), hall x⟩
      · intro a b hab
        have hmem := hg.mem a b hab
        obtain ⟨l₁, l₂, hl⟩ := List.append_of_mem (hall b hmem.2)
        have ho := h.ord
        rw [hl] at ho
        have ha2 : a ∈ l₂ := (ordered_suffix ho).1 a ((hg.edge a b).1 hab)
        have hnd : p.Nodup := h.nodup
        have hrev : p.reverse = l₂.reverse ++ b :: l₁.reverse := by rw [hl]; simp
        have hb2 : b ∉ l₂.reverse := by
          rw [hl, List.nodup_append] at hnd
          rw [List.mem_reverse]
          exact (List.nodup_cons.1 hnd.2.1).1
        rw [hrev, List.idxOf_append_of_mem (List.mem_reverse.2 ha2), List.idxOf_append_of_notMem hb2]
        have := List.idxOf_lt_length_of_mem (List.mem_reverse.2 ha2)
        omega

end Graph

open Graph

/-- **C49** Topological sort is correct: on the graph built from any nodes and edges without self
loops the sort does not crash and succeeds exactly when there is no cycle, and then it returns every
node exactly once with every edge pointing forward. -/
theorem C49_topological_sort (chk : Bool) (le : L → L → Bool) (dflt : D) (cs : List (Cmd L))
    (hne : ∀ a b, IsEdge cs a b → a ≠ b) :
    ∃ g : Graph L D, build dflt cs (Graph.empty dflt) = some g ∧
      (∃ r, trySort chk false le g = some r) ∧
      ((∃ l, trySort chk false le g = some (.sorted l)) ↔ Acyclic (IsEdge cs)) ∧
      ∀ l, trySort chk false le g = some (.sorted l) →
        l.Nodup ∧ (∀ x, x ∈ l ↔ IsNode cs x) ∧ ∀ a b, IsEdge cs a b → l.idxOf a < l.idxOf b := by
  obtain ⟨g, h1, h2, -, h3, h4⟩ := build_some (dflt := dflt) cs (Graph.empty dflt) (wf_empty dflt) hne
  have hE : g.E = IsEdge cs := by
    funext a b
    apply propext
    rw [Graph.E, h3]
    simp [Graph.empty]
  have hN : ∀ x, x ∈ g.nodes ↔ IsNode cs x := by
    intro x
    rw [h4]
    simp [Graph.empty]
  obtain ⟨s1, s2, s3⟩ := trySort_spec chk false le h2
  rw [hE] at s1 s2 s3
  refine ⟨g, h1, ?_, ⟨?_, s1⟩, ?_⟩
  · by_cases ha : Acyclic (IsEdge cs)
    · obtain ⟨l, hl⟩ := s1 ha
      exact ⟨_, hl⟩
    · exact ⟨_, s2 ha⟩
  · rintro ⟨l, hl⟩
    exact (s3 l hl).1
  · intro l hl
    obtain ⟨-, a, b, c⟩ := s3 l hl
    exact ⟨a, fun x => (b x).trans (hN x), c⟩

/-- The guard of C49 is needed: a self loop crashes the builder. -/
theorem C49_self_loop (dflt : D) (cs : List (Cmd L)) (a : L) (h : IsEdge cs a a) :
    build dflt cs (Graph.empty dflt) = none := build_self a cs _ h

/-- Non-vacuity: a diamond with a tail. -/
example : ∃ g : Graph Nat Unit,
    build () [.node 9, .edge 0 1, .edge 0 2, .edge 1 3, .edge 2 3] (Graph.empty ()) = some g ∧
      trySort true false (fun a b => decide (a ≤ b)) g = some (.sorted [0, 2, 1, 3, 9]) :=
  ⟨_, rfl, by decide +kernel⟩

/-- Non-vacuity: a cycle. -/
example : ∃ g : Graph Nat Unit, build () [.edge 0 1, .edge 1 2, .edge 2 1] (Graph.empty ()) = some g ∧
      trySort true false (fun a b => decide (a ≤ b)) g = some (.cycles []) :=
  ⟨_, rfl, by decide +kernel⟩

end Svm.Gas
