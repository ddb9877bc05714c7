import Verif.Gas.Range
import Mathlib.Data.List.Perm.Subperm

/-!
# Directed graphs (crates/host/gas/src/graph)

A `Graph<L, D>` is an `IndexMap` from labels to shared nodes, each with a label, data and the two
`IndexSet`s of its incoming and outgoing neighbours. The `Rc<RefCell<Node>>` references always point
to nodes of the same map, so a node is represented by its label, and the three fields of the nodes
by functions of the label (empty for labels that are no node). `IndexMap` and `IndexSet` are lists
without duplicates in iteration order.
-/

namespace Svm.Gas

variable {L D : Type} [DecidableEq L]

/-- Replace one value of a function. -/
def upd {α : Type} (f : L → α) (k : L) (v : α) : L → α := fun x => if x = k then v else f x

omit [DecidableEq L] in
theorem upd_self [DecidableEq L] {α : Type} (f : L → α) (k : L) (v : α) : upd f k v k = v := if_pos rfl

theorem upd_ne {α : Type} (f : L → α) {k x : L} (v : α) (h : x ≠ k) : upd f k v x = f x := if_neg h

/-- `IndexSet::remove` of indexmap 1.8 (`swap_remove`): the last element takes the place of the
removed one. -/
def swapRemove (x : L) (l : List L) : List L :=
  if x ∈ l then
    match l.getLast? with
    | some y => (l.set (l.idxOf x) y).dropLast
    | none => l
  else l

/-- `IndexSet::insert`. -/
def setInsert (x : L) (l : List L) : List L := if x ∈ l then l else l ++ [x]

/-- `struct Graph`, graph/mod.rs:33-39, with the fields of `struct Node`, graph/node.rs:18-27. -/
structure Graph (L D : Type) where
  nodes : List L
  inc : L → List L
  out : L → List L
  data : L → D

namespace Graph

/-- `GraphBuilder::new`, graph/builder.rs:25-29; `dflt` is `D::default()` of `Node::new`,
graph/node.rs:35-42. -/
def empty (dflt : D) : Graph L D := ⟨[], fun _ => [], fun _ => [], fun _ => dflt⟩

/-- `GraphBuilder::add_node` / `get_or_create_mut`, graph/builder.rs:32-34, 54-64. -/
def addNode (g : Graph L D) (l : L) : Graph L D := { g with nodes := setInsert l g.nodes }

/-- `GraphBuilder::add_edge`, graph/builder.rs:38-43 and 66-80. A self loop panics in every build:
inserting a node into its own `IndexSet` hashes it while it is mutably borrowed. -/
def addEdge (g : Graph L D) (s d : L) : Option (Graph L D) :=
  if s = d then none
  else some { nodes := setInsert s (setInsert d g.nodes)
              inc := upd g.inc d (setInsert s (g.inc d))
              out := upd g.out s (setInsert d (g.out s))
              data := g.data }

/-- `Graph::remove_edge`, graph/mod.rs:61-67; `none` is the panic of `unwrap`. -/
def removeEdge (g : Graph L D) (s d : L) : Option (Graph L D) :=
  if s ∈ g.nodes ∧ d ∈ g.nodes then
    some { g with out := upd g.out s (swapRemove d (g.out s))
                  inc := upd g.inc d (swapRemove s (g.inc d)) }
  else none

/-- `Graph::source_nodes`, graph/mod.rs:75-81. -/
def sourceNodes (g : Graph L D) : List L := g.nodes.filter fun n => (g.inc n).isEmpty

/-- The inner loop `for dest in source.outgoing()` of `try_topological_sort` (graph/sort.rs:46-54)
and of `compute_max_weight_path` (graph/weight.rs:36-45), over a snapshot of the outgoing nodes:
update the data of `dest` (`f`: nothing, or `relax`), remove the edge, and push `dest` on the stack
of nodes to visit if it has become a source. -/
def drain (f : L → L → (L → D) → Option (L → D)) (src : L) :
    List L → Graph L D → List L → Option (Graph L D × List L)
  | [], g, q => some (g, q)
  | d :: ds, g, q => do
    let data ← f src d g.data
    let g ← removeEdge { g with data := data } src d
    drain f src ds g (if (g.inc d).isEmpty then d :: q else q)

/-- The outer loop `while queued.is_empty() == false` of both functions. The stack `queued` has its
top first; the second list collects the visited nodes, the last one first. `none` is a panic, or
that `fuel` iterations were not enough. -/
def loop (f : L → L → (L → D) → Option (L → D)) :
    Nat → Graph L D → List L → List L → Option (Graph L D × List L)
  | _, g, [], p => some (g, p)
  | 0, _, _ :: _, _ => none
  | n + 1, g, x :: q, p => do
    let (g, q) ← drain f x (g.out x) g q
    loop f n g q (x :: p)

/-! ## Lists as sets -/

omit [DecidableEq L] in
theorem set_dropLast_perm : ∀ (l : List L) (i : Nat) (_ : i < l.length) (y : L),
    l.getLast? = some y → ((l.set i y).dropLast).Perm (l.eraseIdx i)
  | [], i, hi, y, h => by simp at h
  | [a], i, hi, y, h => by
    have : i = 0 := by simpa using hi
    subst this
    simp
  | a :: b :: l, 0, hi, y, h => by
    simp only [List.set_cons_zero, List.eraseIdx_cons_zero, List.dropLast_cons_cons]
    have hne : b :: l ≠ [] := List.cons_ne_nil _ _
    have hy : (b :: l).getLast hne = y := by
      rw [List.getLast?_cons_cons] at h
      rw [List.getLast?_eq_getLast_of_ne_nil hne] at h
      exact Option.some.inj h
    have hb : b :: l = (b :: l).dropLast ++ [y] := by
      rw [← hy]; exact (List.dropLast_append_getLast hne).symm
    conv_rhs => rw [hb]
    exact (List.perm_append_singleton y _).symm
  | a :: b :: l, i + 1, hi, y, h => by
    simp only [List.set_cons_succ, List.eraseIdx_cons_succ]
    have hne : (b :: l).set i y ≠ [] := by
      intro h0
      have := congrArg List.length h0
      simp at this
    rw [List.dropLast_cons_of_ne_nil hne]
    refine List.Perm.cons _ (set_dropLast_perm (b :: l) i (by simpa using hi) y ?_)
    rw [List.getLast?_cons_cons] at h
    exact h

theorem swapRemove_perm (x : L) (l : List L) : (swapRemove x l).Perm (l.erase x) := by
  unfold swapRemove
  split
  · rename_i hx
    cases hl : l.getLast? with
    | none => rw [List.getLast?_eq_none_iff] at hl; subst hl; simp at hx
    | some y =>
      have := set_dropLast_perm l (l.idxOf x) (List.idxOf_lt_length_of_mem hx) y hl
      rw [List.erase_eq_eraseIdx_of_idxOf rfl]
      exact this
  · rename_i hx
    rw [List.erase_of_not_mem hx]

theorem mem_swapRemove {x y : L} {l : List L} (h : l.Nodup) :
    y ∈ swapRemove x l ↔ y ∈ l ∧ y ≠ x := by
  rw [(swapRemove_perm x l).mem_iff, h.mem_erase_iff]
  exact and_comm

theorem nodup_swapRemove {x : L} {l : List L} (h : l.Nodup) : (swapRemove x l).Nodup :=
  (swapRemove_perm x l).nodup_iff.2 (h.erase x)

theorem mem_setInsert {x y : L} {l : List L} : y ∈ setInsert x l ↔ y = x ∨ y ∈ l := by
  unfold setInsert
  split
  · constructor
    · exact Or.inr
    · rintro (rfl | h) <;> assumption
  · simp [or_comm]

theorem nodup_setInsert {x : L} {l : List L} (h : l.Nodup) : (setInsert x l).Nodup := by
  unfold setInsert
  split
  · exact h
  · rename_i hx
    rw [List.nodup_append]
    refine ⟨h, by simp, ?_⟩
    intro a ha b hb e
    rw [List.mem_singleton] at hb
    subst hb; subst e
    exact hx ha

/-! ## Well-formed graphs -/

/-- The graphs a builder produces. -/
structure Wf (g : Graph L D) : Prop where
  nodup : g.nodes.Nodup
  edge : ∀ a b, b ∈ g.out a ↔ a ∈ g.inc b
  mem : ∀ a b, b ∈ g.out a → a ∈ g.nodes ∧ b ∈ g.nodes
  irrefl : ∀ a, a ∉ g.out a
  outNodup : ∀ a, (g.out a).Nodup
  incNodup : ∀ a, (g.inc a).Nodup

omit [DecidableEq L] in
theorem wf_empty (d : D) : Wf (empty d : Graph L D) where
  nodup := List.nodup_nil
  edge := fun _ _ => by simp [empty]
  mem := fun _ _ h => by cases h
  irrefl := fun _ h => by cases h
  outNodup := fun _ => List.nodup_nil
  incNodup := fun _ => List.nodup_nil

theorem Wf.addNode {g : Graph L D} (h : Wf g) (l : L) : Wf (g.addNode l) where
  nodup := nodup_setInsert h.nodup
  edge := h.edge
  mem := fun a b hb => ⟨mem_setInsert.2 (.inr (h.mem a b hb).1), mem_setInsert.2 (.inr (h.mem a b hb).2)⟩
  irrefl := h.irrefl
  outNodup := h.outNodup
  incNodup := h.incNodup

theorem mem_out_addEdge {g g' : Graph L D} {s d : L} (e : g.addEdge s d = some g') (a b : L) :
    b ∈ g'.out a ↔ b ∈ g.out a ∨ (a = s ∧ b = d) := by
  unfold addEdge at e
  split at e
  · cases e
  · cases e
    show b ∈ upd g.out s _ a ↔ _
    unfold upd
    split
    · rename_i h; subst h
      rw [mem_setInsert]; simp [or_comm]
    · rename_i h; simp [h]

theorem Wf.addEdge {g g' : Graph L D} (h : Wf g) {s d : L} (e : g.addEdge s d = some g') : Wf g' := by
  have hout := mem_out_addEdge e
  unfold Graph.addEdge at e
  split at e
  · cases e
  · rename_i hsd
    cases e
    refine ⟨nodup_setInsert (nodup_setInsert h.nodup), ?_, ?_, ?_, ?_, ?_⟩
    · intro a b
      rw [hout, h.edge]
      show _ ↔ a ∈ upd g.inc d _ b
      unfold upd
      split
      · rename_i hb; subst hb
        rw [mem_setInsert]; simp [or_comm]
      · rename_i hb; simp [hb]
    · intro a b hb
      rw [hout] at hb
      rw [mem_setInsert, mem_setInsert, mem_setInsert, mem_setInsert]
      rcases hb with hb | ⟨rfl, rfl⟩
      · exact ⟨.inr (.inr (h.mem a b hb).1), .inr (.inr (h.mem a b hb).2)⟩
      · exact ⟨.inl rfl, .inr (.inl rfl)⟩
    · intro a ha
      rw [hout] at ha
      rcases ha with ha | ⟨rfl, hd⟩
      · exact h.irrefl a ha
      · exact hsd hd
    · intro a
      show (upd g.out s _ a).Nodup
      unfold upd
      split
      · exact nodup_setInsert (h.outNodup _)
      · exact h.outNodup _
    · intro a
      show (upd g.inc d _ a).Nodup
      unfold upd
      split
      · exact nodup_setInsert (h.incNodup _)
      · exact h.incNodup _

omit [DecidableEq L] in
theorem mem_sourceNodes {g : Graph L D} {x : L} : x ∈ g.sourceNodes ↔ x ∈ g.nodes ∧ g.inc x = [] := by
  unfold sourceNodes
  simp

/-! ## The loop invariant -/

/-- The predecessors of every visited node were visited before it (`p` has the last visited node
first). -/
def Ordered (G : Graph L D) : List L → Prop
  | [] => True
  | x :: p => (∀ a ∈ G.inc x, a ∈ p) ∧ Ordered G p

/-- State of the loop on the graph `G`, with initial stack `I`: stack `q`, visited nodes `p`,
current graph `g`. -/
structure Inv (G : Graph L D) (I q p : List L) (g : Graph L D) : Prop where
  nodes : g.nodes = G.nodes
  out : ∀ a, g.out a = if a ∈ p then [] else G.out a
  inc : ∀ a b, a ∈ g.inc b ↔ a ∈ G.inc b ∧ a ∉ p
  incNodup : ∀ b, (g.inc b).Nodup
  nodup : (q ++ p).Nodup
  sub : ∀ x, x ∈ q ∨ x ∈ p → x ∈ G.nodes
  mem : ∀ x, x ∈ q ∨ x ∈ p ↔ x ∈ I ∨ (G.inc x ≠ [] ∧ ∀ a ∈ G.inc x, a ∈ p)
  ord : Ordered G p

theorem Inv.length_le {G : Graph L D} {I q p : List L} {g : Graph L D} (h : Inv G I q p g) :
    q.length + p.length ≤ G.nodes.length := by
  rw [← List.length_append]
  refine (List.subperm_of_subset h.nodup ?_).length_le
  intro x hx
  exact h.sub x (List.mem_append.1 hx)

/-- State of the inner loop, after the edges from `src` to `done` have been removed. -/
structure Mid (G : Graph L D) (q₀ p : List L) (src : L) (done q : List L) (g : Graph L D) : Prop where
  nodes : g.nodes = G.nodes
  outNe : ∀ a, a ≠ src → g.out a = if a ∈ p then [] else G.out a
  outSrc : ∀ b, b ∈ g.out src ↔ b ∈ G.out src ∧ b ∉ done
  outNodup : (g.out src).Nodup
  inc : ∀ a b, a ∈ g.inc b ↔ a ∈ G.inc b ∧ a ∉ p ∧ ¬ (a = src ∧ b ∈ done)
  incNodup : ∀ b, (g.inc b).Nodup
  nodup : (q ++ src :: p).Nodup
  q : ∀ x, x ∈ q ↔ x ∈ q₀ ∨ (x ∈ done ∧ ∀ a ∈ G.inc x, a ∈ src :: p)

/-- The data part of the inner loop. -/
def foldData (f : L → L → (L → D) → Option (L → D)) (src : L) : List L → (L → D) → Option (L → D)
  | [], d => some d
  | x :: xs, d => do foldData f src xs (← f src x d)

theorem drain_spec {G : Graph L D} (hG : Wf G) (f : L → L → (L → D) → Option (L → D)) {q₀ p : List L} {src : L}
    (hp : src ∉ p) (hbef : ∀ x, x ∈ q₀ ∨ x ∈ src :: p → ∀ a ∈ G.inc x, a ∈ p) :
    ∀ (ds done q : List L) (g : Graph L D), done ++ ds = G.out src → Mid G q₀ p src done q g →
      ∃ (g' : Graph L D) (q' : List L), (∀ dat, Mid G q₀ p src (done ++ ds) q' { g' with data := dat }) ∧
        drain f src ds g q = (foldData f src ds g.data).map fun dat => ({ g' with data := dat }, q')
  | [], done, q, g, _, h => by
    refine ⟨g, q, fun dat => ?_, rfl⟩
    rw [List.append_nil]
    exact ⟨h.nodes, h.outNe, h.outSrc, h.outNodup, h.inc, h.incNodup, h.nodup, h.q⟩
  | d :: ds, done, q, g, hds, h => by
    have hd : d ∈ G.out src := by rw [← hds]; simp
    have hnd : d ∉ done := by
      have := hG.outNodup src
      rw [← hds, List.nodup_append] at this
      intro hc
      exact this.2.2 d hc d (by simp) rfl
    have hsrc : src ∈ G.inc d := (hG.edge src d).1 hd
    have hdq : ¬ (d ∈ q₀ ∨ d ∈ src :: p) := fun hc => hp (hbef d hc src hsrc)
    have hdq' : d ∉ q := by
      intro hc
      rcases (h.q d).1 hc with hc | ⟨hc, -⟩
      · exact hdq (.inl hc)
      · exact hnd hc
    have hmem := hG.mem src d hd
    have hne : src ≠ d := fun e => hG.irrefl src (by rw [← e] at hd; exact hd)
    -- the state after removing the edge
    let g₁ : Graph L D := { g with out := upd g.out src (swapRemove d (g.out src))
                                   inc := upd g.inc d (swapRemove src (g.inc d)) }
    have hinc₁ : ∀ a b, a ∈ g₁.inc b ↔ a ∈ G.inc b ∧ a ∉ p ∧ ¬ (a = src ∧ b ∈ done ++ [d]) := by
      intro a b
      show a ∈ upd g.inc d _ b ↔ _
      unfold upd
      split
      · rename_i hb; subst hb
        rw [mem_swapRemove (h.incNodup b), h.inc]
        simp only [List.mem_append, List.mem_singleton, or_true, and_true, hnd, and_false,
          not_false_eq_true]
        constructor
        · rintro ⟨⟨h1, h2⟩, h3⟩; exact ⟨h1, h2, h3⟩
        · rintro ⟨h1, h2, h3⟩; exact ⟨⟨h1, h2⟩, h3⟩
      · rename_i hb
        rw [h.inc]
        simp [hb]
    have hemp : (g₁.inc d).isEmpty = true ↔ ∀ a ∈ G.inc d, a ∈ src :: p := by
      rw [List.isEmpty_iff, List.eq_nil_iff_forall_not_mem]
      constructor
      · intro hall a ha
        by_cases e : a = src
        · rw [e]; exact List.mem_cons_self
        · by_cases hap : a ∈ p
          · exact List.mem_cons_of_mem _ hap
          · exact absurd ((hinc₁ a d).2 ⟨ha, hap, fun hc => e hc.1⟩) (hall a)
      · intro hall a ha
        rw [hinc₁] at ha
        rcases List.mem_cons.1 (hall a ha.1) with e | e
        · exact ha.2.2 ⟨e, by simp⟩
        · exact ha.2.1 e
    let q₁ := if (g₁.inc d).isEmpty then d :: q else q
    have hmid : ∀ dat, Mid G q₀ p src (done ++ [d]) q₁ { g₁ with data := dat } := by
      intro dat
      refine ⟨h.nodes, ?_, ?_, ?_, hinc₁, ?_, ?_, ?_⟩
      · intro a ha
        show upd g.out src _ a = _
        rw [upd_ne _ _ ha]
        exact h.outNe a ha
      · intro b
        show b ∈ upd g.out src _ src ↔ _
        rw [upd_self, mem_swapRemove h.outNodup, h.outSrc]
        simp only [List.mem_append, List.mem_singleton, not_or]
        exact and_assoc
      · show (upd g.out src _ src).Nodup
        rw [upd_self]
        exact nodup_swapRemove h.outNodup
      · intro b
        show (upd g.inc d _ b).Nodup
        unfold upd
        split
        · exact nodup_swapRemove (h.incNodup d)
        · exact h.incNodup b
      · show ((if (g₁.inc d).isEmpty then d :: q else q) ++ src :: p).Nodup
        split
        · rw [List.cons_append, List.nodup_cons]
          refine ⟨?_, h.nodup⟩
          rw [List.mem_append]
          rintro (hc | hc)
          · exact hdq' hc
          · exact hdq (.inr hc)
        · exact h.nodup
      · intro x
        show x ∈ (if (g₁.inc d).isEmpty then d :: q else q) ↔ _
        split
        · rename_i he
          rw [List.mem_cons, h.q, List.mem_append, List.mem_singleton]
          constructor
          · rintro (rfl | hx | ⟨hx, ha⟩)
            · exact .inr ⟨.inr rfl, hemp.1 he⟩
            · exact .inl hx
            · exact .inr ⟨.inl hx, ha⟩
          · rintro (hx | ⟨hx | hx, ha⟩)
            · exact .inr (.inl hx)
            · exact .inr (.inr ⟨hx, ha⟩)
            · exact .inl hx
        · rename_i he
          rw [h.q, List.mem_append, List.mem_singleton]
          constructor
          · rintro (hx | ⟨hx, ha⟩)
            · exact .inl hx
            · exact .inr ⟨.inl hx, ha⟩
          · rintro (hx | ⟨hx | rfl, ha⟩)
            · exact .inl hx
            · exact .inr ⟨hx, ha⟩
            · exact absurd (hemp.2 ha) he
    cases hf : f src d g.data with
    | none =>
      obtain ⟨g', q', hm, -⟩ := drain_spec hG f hp hbef ds (done ++ [d]) q₁ { g₁ with data := g.data }
        (by rw [List.append_assoc]; exact hds) (hmid _)
      refine ⟨g', q', ?_, ?_⟩
      · intro dat
        have := hm dat
        rw [List.append_assoc] at this
        exact this
      · simp only [drain, foldData, hf]
        rfl
    | some dat =>
      obtain ⟨g', q', hm, he⟩ := drain_spec hG f hp hbef ds (done ++ [d]) q₁ { g₁ with data := dat }
        (by rw [List.append_assoc]; exact hds) (hmid _)
      refine ⟨g', q', ?_, ?_⟩
      · intro dat
        have := hm dat
        rw [List.append_assoc] at this
        exact this
      · have hrm : removeEdge { g with data := dat } src d = some { g₁ with data := dat } := by
          unfold removeEdge
          rw [if_pos]
          show src ∈ g.nodes ∧ d ∈ g.nodes
          rw [h.nodes]
          exact hmem
        simp only [drain, foldData, hf, Option.bind_eq_bind, Option.bind_some, hrm]
        exact he

theorem step_inv {G : Graph L D} (hG : Wf G) (f : L → L → (L → D) → Option (L → D)) {I q p : List L} {src : L}
    {g : Graph L D} (hI : ∀ x ∈ I, G.inc x = []) (h : Inv G I (src :: q) p g) :
    ∃ (g' : Graph L D) (q' : List L), (∀ dat, Inv G I q' (src :: p) { g' with data := dat }) ∧
      drain f src (g.out src) g q = (foldData f src (G.out src) g.data).map fun dat =>
        ({ g' with data := dat }, q') := by
  have hnd := h.nodup
  rw [List.cons_append, List.nodup_cons, List.mem_append, not_or] at hnd
  have hp : src ∉ p := hnd.1.2
  have hpre : ∀ x, x ∈ src :: q ∨ x ∈ p → ∀ a ∈ G.inc x, a ∈ p := by
    intro x hx a ha
    rcases (h.mem x).1 hx with hx | hx
    · rw [hI x hx] at ha; cases ha
    · exact hx.2 a ha
  have hbef : ∀ x, x ∈ q ∨ x ∈ src :: p → ∀ a ∈ G.inc x, a ∈ p := by
    intro x hx
    apply hpre
    rcases hx with hx | hx
    · exact .inl (List.mem_cons_of_mem _ hx)
    · rcases List.mem_cons.1 hx with rfl | hx
      · exact .inl List.mem_cons_self
      · exact .inr hx
  have hout : g.out src = G.out src := by rw [h.out, if_neg hp]
  have hmid : Mid G q p src [] q g := by
    refine ⟨h.nodes, fun a _ => h.out a, ?_, ?_, ?_, h.incNodup, ?_, ?_⟩
    · intro b; rw [hout]; simp
    · rw [hout]; exact hG.outNodup src
    · intro a b; rw [h.inc]; simp
    · have := h.nodup
      rw [List.cons_append] at this
      exact (List.perm_middle.nodup_iff).2 this
    · intro x; simp
  obtain ⟨g', q', hm, he⟩ := drain_spec hG f hp hbef (G.out src) [] q g rfl hmid
  rw [List.nil_append] at hm
  refine ⟨g', q', fun dat => ?_, ?_⟩
  · have hm := hm dat
    refine ⟨hm.nodes, ?_, ?_, hm.incNodup, hm.nodup, ?_, ?_, ⟨?_, h.ord⟩⟩
    · intro a
      by_cases ha : a = src
      · subst ha
        rw [if_pos List.mem_cons_self, List.eq_nil_iff_forall_not_mem]
        intro b hb
        have := (hm.outSrc b).1 hb
        exact this.2 this.1
      · rw [hm.outNe a ha]
        simp [ha]
    · intro a b
      rw [hm.inc]
      constructor
      · rintro ⟨h1, h2, h3⟩
        refine ⟨h1, ?_⟩
        rw [List.mem_cons, not_or]
        refine ⟨?_, h2⟩
        rintro rfl
        exact h3 ⟨rfl, (hG.edge a b).2 h1⟩
      · rintro ⟨h1, h2⟩
        rw [List.mem_cons, not_or] at h2
        exact ⟨h1, h2.2, fun hc => h2.1 hc.1⟩
    · intro x hx
      rcases hx with hx | hx
      · rcases (hm.q x).1 hx with hx | ⟨hx, -⟩
        · exact h.sub x (.inl (List.mem_cons_of_mem _ hx))
        · exact (hG.mem src x hx).2
      · rcases List.mem_cons.1 hx with rfl | hx
        · exact h.sub x (.inl List.mem_cons_self)
        · exact h.sub x (.inr hx)
    · intro x
      rw [hm.q]
      constructor
      · rintro ((hx | ⟨hx, ha⟩) | hx)
        · rcases (h.mem x).1 (.inl (List.mem_cons_of_mem _ hx)) with hx | ⟨hx, ha⟩
          · exact .inl hx
          · exact .inr ⟨hx, fun a h => List.mem_cons_of_mem _ (ha a h)⟩
        · refine .inr ⟨?_, ha⟩
          intro e
          have := (hG.edge src x).1 hx
          rw [e] at this; cases this
        · have : x ∈ src :: q ∨ x ∈ p := by
            rcases List.mem_cons.1 hx with rfl | hx
            · exact .inl List.mem_cons_self
            · exact .inr hx
          rcases (h.mem x).1 this with hx | ⟨hx, ha⟩
          · exact .inl hx
          · exact .inr ⟨hx, fun a h => List.mem_cons_of_mem _ (ha a h)⟩
      · rintro (hx | ⟨hx, ha⟩)
        · rcases (h.mem x).2 (.inl hx) with hx | hx
          · rcases List.mem_cons.1 hx with rfl | hx
            · exact .inr List.mem_cons_self
            · exact .inl (.inl hx)
          · exact .inr (List.mem_cons_of_mem _ hx)
        · by_cases hs : src ∈ G.inc x
          · exact .inl (.inr ⟨(hG.edge src x).2 hs, ha⟩)
          · have : x ∈ src :: q ∨ x ∈ p := by
              refine (h.mem x).2 (.inr ⟨hx, fun a hax => ?_⟩)
              rcases List.mem_cons.1 (ha a hax) with rfl | h'
              · exact absurd hax hs
              · exact h'
            rcases this with hx | hx
            · rcases List.mem_cons.1 hx with rfl | hx
              · exact .inr List.mem_cons_self
              · exact .inl (.inl hx)
            · exact .inr (List.mem_cons_of_mem _ hx)
    · intro a ha
      exact hbef src (.inr List.mem_cons_self) a ha
  · rw [hout]; exact he

/-- The invariant of the outer loop, with any invariant `J` of the data. -/
theorem loop_inv {G : Graph L D} (hG : Wf G) (f : L → L → (L → D) → Option (L → D)) {I : List L}
    (hI : ∀ x ∈ I, G.inc x = []) (J : List L → (L → D) → Prop)
    (hJ : ∀ (q p : List L) (src : L) (g : Graph L D), Inv G I (src :: q) p g → J p g.data →
      ∀ dat, foldData f src (G.out src) g.data = some dat → J (src :: p) dat) :
    ∀ (n : Nat) (g : Graph L D) (q p : List L) (g' : Graph L D) (p' : List L), Inv G I q p g → J p g.data →
      loop f n g q p = some (g', p') → Inv G I [] p' g' ∧ J p' g'.data
  | n, g, [], p, g', p', h, hj, e => by
    have : some (g, p) = some (g', p') := by cases n <;> exact e
    cases this
    exact ⟨h, hj⟩
  | 0, g, x :: q, p, g', p', h, hj, e => by cases e
  | n + 1, g, x :: q, p, g', p', h, hj, e => by
    obtain ⟨g₁, q₁, hm, hd⟩ := step_inv hG f hI h
    simp only [loop, hd] at e
    cases hf : foldData f x (G.out x) g.data with
    | none => rw [hf] at e; cases e
    | some dat =>
      rw [hf] at e
      exact loop_inv hG f hI J hJ n _ q₁ (x :: p) g' p' (hm dat) (hJ q p x g h hj dat hf) e

/-- If the data part never fails, the loop ends within as many iterations as there are nodes. -/
theorem loop_some {G : Graph L D} (hG : Wf G) (f : L → L → (L → D) → Option (L → D)) {I : List L}
    (hI : ∀ x ∈ I, G.inc x = []) (J : List L → (L → D) → Prop)
    (hJ : ∀ (q p : List L) (src : L) (g : Graph L D), Inv G I (src :: q) p g → J p g.data →
      ∃ dat, foldData f src (G.out src) g.data = some dat ∧ J (src :: p) dat) :
    ∀ (n : Nat) (g : Graph L D) (q p : List L), Inv G I q p g → J p g.data →
      G.nodes.length ≤ n + p.length → ∃ r, loop f n g q p = some r
  | n, g, [], p, h, hj, hn => by cases n <;> exact ⟨_, rfl⟩
  | 0, g, x :: q, p, h, hj, hn => by
    have := h.length_le
    simp at this
    omega
  | n + 1, g, x :: q, p, h, hj, hn => by
    obtain ⟨g₁, q₁, hm, hd⟩ := step_inv hG f hI h
    obtain ⟨dat, hf, hj'⟩ := hJ q p x g h hj
    simp only [loop, hd, hf]
    exact loop_some hG f hI J hJ n _ q₁ (x :: p) (hm dat) hj' (by simp only [List.length_cons]; omega)

/-- The invariant at the start. -/
theorem inv_init {G : Graph L D} (hG : Wf G) {I : List L} (hI : ∀ x ∈ I, x ∈ G.nodes ∧ G.inc x = [])
    (hn : I.Nodup) : Inv G I I [] G where
  nodes := rfl
  out := fun a => by simp
  inc := fun a b => by simp
  incNodup := hG.incNodup
  nodup := by rw [List.append_nil]; exact hn
  sub := fun x hx => by
    rcases hx with hx | hx
    · exact (hI x hx).1
    · cases hx
  mem := fun x => by
    constructor
    · rintro (h | h)
      · exact .inl h
      · cases h
    · rintro (h | ⟨h, ha⟩)
      · exact .inl h
      · exfalso
        cases e : G.inc x with
        | nil => exact h e
        | cons a l => exact absurd (ha a (by rw [e]; exact List.mem_cons_self)) (by simp)
  ord := trivial

end Graph

end Svm.Gas
