import Verif.Gas.Sort

/-!
# The maximum weight path (crates/host/gas/src/graph/weight.rs); property C53
-/

namespace Svm.Gas

open Relation (TransGen ReflTransGen)

variable {L : Type} [DecidableEq L]

/-! ## Model -/

/-- `struct NodeWeight`, graph/weight.rs:167-179. The field `label` is only used in messages. -/
structure NodeWeight (L : Type) where
  weight : Option Nat
  depLabel : Option L
  depWeight : Option Nat

namespace NodeWeight

/-- `NodeWeight::relax`, graph/weight.rs:256-269. -/
def relax (w : NodeWeight L) (depLabel : L) (depWeight : Nat) : NodeWeight L :=
  match w.depWeight with
  | some cur =>
    if cur < depWeight then { w with depLabel := some depLabel, depWeight := some depWeight } else w
  | none => { w with depLabel := some depLabel, depWeight := some depWeight }

/-- `NodeWeight::total_weight`, graph/weight.rs:276-280, an addition of `usize`; `none` is a panic. -/
def totalWeight (chk : Bool) (w : NodeWeight L) : Option Nat := do
  add64 chk (← w.depWeight) (← w.weight)

end NodeWeight

namespace Graph

/-- `relax`, graph/weight.rs:103-116, as the data part of the loop. -/
def relax (chk : Bool) (src dst : L) (d : L → NodeWeight L) : Option (L → NodeWeight L) := do
  let w ← (d src).totalWeight chk
  some (upd d dst ((d dst).relax src w))

/-- `Graph::remove_node`, graph/mod.rs:52-58. -/
def removeNode {D : Type} (g : Graph L D) (s : L) : Option (Graph L D) :=
  (g.out s).foldlM (fun g d => g.removeEdge s d) g

/-- `prune_unreachable_nodes`, graph/weight.rs:53-64. -/
def prune {D : Type} (g : Graph L D) (start : L) : Option (Graph L D) :=
  (g.sourceNodes.filter fun n => n ≠ start).foldlM (fun g s => g.removeNode s) g

/-- The loop of `construct_path`, graph/weight.rs:70-85; `none` is a panic or too little fuel. -/
def constructPath (d : L → NodeWeight L) (start : L) :
    Nat → L → List (L × Nat) → Option (List (L × Nat))
  | 0, _, _ => none
  | n + 1, label, acc =>
    if label = start then do some ((start, ← (d start).weight) :: acc)
    else do
      let w ← (d label).weight
      constructPath d start n (← (d label).depLabel) ((label, w) :: acc)

/-- `init_start`, graph/weight.rs:92-101, and `mark_start`, 247-249. -/
def initStart (g : Graph L (NodeWeight L)) (start : L) : Graph L (NodeWeight L) :=
  { g with data := upd g.data start { g.data start with depWeight := some 0 } }

/-- `compute_max_weight_path`, graph/weight.rs:16-51: the path and the total. -/
def maxPath (chk : Bool) (g : Graph L (NodeWeight L)) (start fin : L) :
    Option (List (L × Nat) × Nat) :=
  if start ∈ g.nodes then do
    let g ← prune (initStart g start) start
    let (g, p) ← loop (relax chk) (g.nodes.length + 1) g [start] []
    if fin ∈ p then do
      let path ← constructPath g.data start (g.nodes.length + 1) fin []
      some (path, ← (g.data fin).totalWeight chk)
    else none
  else none

end Graph

/-! ## Specification -/

/-- A path from `s` to `t`. -/
def IsPath (E : L → L → Prop) (s t : L) (l : List L) : Prop :=
  l.IsChain E ∧ l.head? = some s ∧ l.getLast? = some t

/-- The weight of a path. -/
def pathWeight (W : L → Nat) (l : List L) : Nat := (l.map W).sum

namespace Graph

/-! ## Pruning -/

section prune

variable {D : Type}

/-- Removing all edges from `s`. -/
theorem removeEdges_spec {s : L} : ∀ (l : List L) (g : Graph L D), l.Nodup → (∀ x, (g.inc x).Nodup) →
    (g.out s).Nodup → (∀ b ∈ l, b ∈ g.nodes) → (l ≠ [] → s ∈ g.nodes) →
    ∃ g', l.foldlM (fun g d => g.removeEdge s d) g = some g' ∧ g'.nodes = g.nodes ∧ g'.data = g.data ∧
      (∀ a, a ≠ s → g'.out a = g.out a) ∧ (∀ b, b ∈ g'.out s ↔ b ∈ g.out s ∧ b ∉ l) ∧ (g'.out s).Nodup ∧
      (∀ a b, a ∈ g'.inc b ↔ a ∈ g.inc b ∧ ¬ (a = s ∧ b ∈ l)) ∧ (∀ x, (g'.inc x).Nodup)
  | [], g, _, hi, ho, _, _ => ⟨g, rfl, rfl, rfl, fun _ _ => rfl, by simp, ho, by simp, hi⟩
  | d :: l, g, hl, hi, ho, hm, hs => by
    rw [List.nodup_cons] at hl
    let g₁ : Graph L D := { g with out := upd g.out s (swapRemove d (g.out s))
                                   inc := upd g.inc d (swapRemove s (g.inc d)) }
    have hr : g.removeEdge s d = some g₁ := if_pos ⟨hs (by simp), hm d (by simp)⟩
    have hi₁ : ∀ x, (g₁.inc x).Nodup := by
      intro x
      show (upd g.inc d _ x).Nodup
      unfold upd
      split
      · exact nodup_swapRemove (hi d)
      · exact hi x
    have ho₁ : g₁.out s = swapRemove d (g.out s) := upd_self _ _ _
    obtain ⟨g', e, h1, h2, h3, h4, h5, h6, h7⟩ := removeEdges_spec l g₁ hl.2 hi₁
      (by rw [ho₁]; exact nodup_swapRemove ho) (fun b hb => hm b (List.mem_cons_of_mem _ hb))
      (fun _ => hs (by simp))
    refine ⟨g', ?_, h1, h2, ?_, ?_, h5, ?_, h7⟩
    · rw [List.foldlM_cons, hr]; exact e
    · intro a ha
      rw [h3 a ha]
      exact upd_ne _ _ ha
    · intro b
      rw [h4, ho₁, mem_swapRemove ho, List.mem_cons, not_or, and_assoc]
    · intro a b
      rw [h6]
      show a ∈ upd g.inc d _ b ∧ _ ↔ _
      unfold upd
      split
      · rename_i hb; subst hb
        rw [mem_swapRemove (hi b)]
        simp only [List.mem_cons, true_or, and_true]
        constructor
        · rintro ⟨⟨h1, h2⟩, -⟩; exact ⟨h1, h2⟩
        · rintro ⟨h1, h2⟩; exact ⟨⟨h1, h2⟩, fun h => h2 h.1⟩
      · rename_i hb
        simp [hb]

/-- The graph without the edges from the nodes in `l`. -/
structure Pruned (g : Graph L D) (l : List L) (g' : Graph L D) : Prop where
  wf : Wf g'
  nodes : g'.nodes = g.nodes
  data : g'.data = g.data
  out : ∀ a, g'.out a = if a ∈ l then [] else g.out a
  inc : ∀ a b, a ∈ g'.inc b ↔ a ∈ g.inc b ∧ a ∉ l

theorem removeNodes_spec {g₀ : Graph L D} (hg : Wf g₀) : ∀ (l done : List L) (g : Graph L D),
    Pruned g₀ done g → ∃ g', l.foldlM (fun g s => g.removeNode s) g = some g' ∧ Pruned g₀ (l ++ done) g'
  | [], done, g, h => ⟨g, rfl, h⟩
  | s :: l, done, g, h => by
    obtain ⟨g', e, h1, h2, h3, h4, h5, h6, h7⟩ := removeEdges_spec (s := s) (g.out s) g
      (h.wf.outNodup s) h.wf.incNodup (h.wf.outNodup s) (fun b hb => (h.wf.mem s b hb).2) (by
        intro hne
        obtain ⟨b, hb⟩ := List.exists_mem_of_ne_nil _ hne
        exact (h.wf.mem s b hb).1)
    have hout : ∀ a, g'.out a = if a = s then [] else g.out a := by
      intro a
      split
      · rename_i ha; subst ha
        rw [List.eq_nil_iff_forall_not_mem]
        intro b hb
        have := (h4 b).1 hb
        exact this.2 this.1
      · rename_i ha
        exact h3 a ha
    have hinc : ∀ a b, a ∈ g'.inc b ↔ a ∈ g.inc b ∧ a ≠ s := by
      intro a b
      rw [h6]
      constructor
      · rintro ⟨x, y⟩
        exact ⟨x, fun e => y ⟨e, (h.wf.edge s b).2 (e ▸ x)⟩⟩
      · rintro ⟨x, y⟩
        exact ⟨x, fun e => y e.1⟩
    have hp : Pruned g₀ (s :: done) g' := by
      refine ⟨⟨?_, ?_, ?_, ?_, ?_, h7⟩, h1.trans h.nodes, h2.trans h.data, ?_, ?_⟩
      · rw [h1]; exact h.wf.nodup
      · intro a b
        rw [hinc, ← h.wf.edge, hout]
        split <;> simp_all
      · intro a b hb
        rw [hout] at hb
        rw [h1]
        split at hb
        · cases hb
        · exact h.wf.mem a b hb
      · intro a ha
        rw [hout] at ha
        split at ha
        · cases ha
        · exact h.wf.irrefl a ha
      · intro a
        rw [hout]
        split
        · exact List.nodup_nil
        · exact h.wf.outNodup a
      · intro a
        rw [hout, h.out]
        by_cases ha : a = s <;> simp [ha]
      · intro a b
        rw [hinc, h.inc, List.mem_cons, not_or, and_assoc]
        exact and_congr_right fun _ => and_comm
    obtain ⟨g'', e', hp'⟩ := removeNodes_spec hg l (s :: done) g' hp
    refine ⟨g'', ?_, ?_⟩
    · rw [List.foldlM_cons]
      show (do let g ← removeNode g s; _) = _
      unfold removeNode at e' ⊢
      rw [e]; exact e'
    · have hmem : ∀ x, x ∈ l ++ s :: done ↔ x ∈ s :: l ++ done := by
        intro x; simp only [List.mem_append, List.mem_cons]; tauto
      refine ⟨hp'.wf, hp'.nodes, hp'.data, fun a => ?_, fun a b => ?_⟩
      · rw [hp'.out]
        simp only [hmem]
      · rw [hp'.inc, hmem]

theorem prune_spec {g : Graph L D} (hg : Wf g) (start : L) :
    ∃ g', prune g start = some g' ∧ Pruned g (g.sourceNodes.filter fun n => n ≠ start) g' := by
  have h0 : Pruned g [] g := ⟨hg, rfl, rfl, by simp, by simp⟩
  have := removeNodes_spec hg (g.sourceNodes.filter fun n => n ≠ start) [] g h0
  rw [List.append_nil] at this
  exact this

end prune

/-! ## The data computed by the loop -/

theorem add64_some {chk : Bool} {a b : Nat} (h : a + b < 2 ^ 64) : add64 chk a b = some (a + b) := if_pos h

theorem add64_true {a b c : Nat} (h : add64 true a b = some c) : c = a + b ∧ a + b < 2 ^ 64 := by
  unfold add64 at h
  split at h
  · rename_i hlt
    exact ⟨(Option.some.inj h).symm, hlt⟩
  · simp at h

theorem add64_mono {chk : Bool} {a b c : Nat} (h : add64 true a b = some c) : add64 chk a b = some c := by
  obtain ⟨rfl, h'⟩ := add64_true h
  exact add64_some h'

/-- The total weight without overflow. -/
def tot (d : L → NodeWeight L) (x : L) : Option Nat := do return (← (d x).depWeight) + (← (d x).weight)

omit [DecidableEq L] in
theorem totalWeight_true {d : L → NodeWeight L} {x : L} {t : Nat} :
    (d x).totalWeight true = some t ↔ tot d x = some t ∧ t < 2 ^ 64 := by
  unfold NodeWeight.totalWeight tot
  cases (d x).depWeight with
  | none => simp
  | some a =>
    cases (d x).weight with
    | none => simp
    | some b =>
      constructor
      · intro h
        obtain ⟨rfl, h'⟩ := add64_true (a := a) (b := b) h
        exact ⟨rfl, h'⟩
      · rintro ⟨h, hlt⟩
        cases h
        exact add64_some (chk := true) hlt

omit [DecidableEq L] in
theorem totalWeight_mono {w : NodeWeight L} {t : Nat} (chk : Bool) (h : w.totalWeight true = some t) :
    w.totalWeight chk = some t := by
  unfold NodeWeight.totalWeight at h ⊢
  cases hd : w.depWeight with
  | none => rw [hd] at h; cases h
  | some a =>
    cases hw : w.weight with
    | none => rw [hd, hw] at h; cases h
    | some b =>
      rw [hd, hw] at h
      exact add64_mono (a := a) (b := b) h

/-- Relaxing all neighbours of `src`. -/
theorem foldRelax {src : L} : ∀ (l : List L) (d dat : L → NodeWeight L), l.Nodup → src ∉ l →
    foldData (relax true) src l d = some dat →
    (l ≠ [] → ∃ t, tot d src = some t ∧ t < 2 ^ 64) ∧
    ∀ t, tot d src = some t → ∀ x, dat x = if x ∈ l then (d x).relax src t else d x
  | [], d, dat, _, _, h => by
    cases h
    exact ⟨fun h => absurd rfl h, by simp⟩
  | y :: l, d, dat, hl, hs, h => by
    rw [List.nodup_cons] at hl
    rw [List.mem_cons, not_or] at hs
    simp only [foldData] at h
    cases hr : relax true src y d with
    | none => rw [hr] at h; cases h
    | some d₁ =>
      rw [hr] at h
      unfold relax at hr
      cases ht : (d src).totalWeight true with
      | none => rw [ht] at hr; cases hr
      | some t =>
        rw [ht] at hr
        cases hr
        obtain ⟨ht, hlt⟩ := totalWeight_true.1 ht
        have ht₁ : tot (upd d y ((d y).relax src t)) src = some t := by
          unfold tot at ht ⊢
          rw [upd_ne _ _ hs.1]; exact ht
        refine ⟨fun _ => ⟨t, ht, hlt⟩, ?_⟩
        intro t' ht' x
        rw [ht] at ht'
        cases ht'
        rw [(foldRelax l _ dat hl.2 hs.2 h).2 t ht₁ x]
        by_cases hx : x ∈ l
        · have hxy : x ≠ y := fun e => hl.1 (e ▸ hx)
          rw [if_pos hx, if_pos (List.mem_cons_of_mem _ hx), upd_ne _ _ hxy]
        · rw [if_neg hx]
          by_cases hxy : x = y
          · subst hxy
            rw [if_pos List.mem_cons_self, upd_self]
          · rw [if_neg (by simp [hx, hxy]), upd_ne _ _ hxy]

theorem foldRelax_some {src : L} {t : Nat} (hlt : t < 2 ^ 64) : ∀ (l : List L) (d : L → NodeWeight L),
    src ∉ l → tot d src = some t → ∃ dat, foldData (relax true) src l d = some dat
  | [], d, _, _ => ⟨d, rfl⟩
  | y :: l, d, hs, ht => by
    rw [List.mem_cons, not_or] at hs
    have h1 : (d src).totalWeight true = some t := totalWeight_true.2 ⟨ht, hlt⟩
    have ht₁ : tot (upd d y ((d y).relax src t)) src = some t := by
      unfold tot at ht ⊢
      rw [upd_ne _ _ hs.1]; exact ht
    obtain ⟨dat, h⟩ := foldRelax_some hlt l _ hs.2 ht₁
    refine ⟨dat, ?_⟩
    simp only [foldData, relax, h1]
    exact h

/-- What is known about the dependency of a node `x` when the nodes in `p` have been visited. -/
def Dep (G : Graph L (NodeWeight L)) (p : List L) (d : L → NodeWeight L) (x : L) : Prop :=
  ((∀ a ∈ p, x ∉ G.out a) ∧ (d x).depWeight = none) ∨
  ∃ a m, a ∈ p ∧ x ∈ G.out a ∧ (d x).depLabel = some a ∧ (d x).depWeight = some m ∧
    tot d a = some m ∧ ∀ b ∈ p, x ∈ G.out b → ∃ mb, tot d b = some mb ∧ mb ≤ m

/-- Invariant of the data. -/
structure Data (G : Graph L (NodeWeight L)) (W : L → Nat) (start : L) (p : List L)
    (d : L → NodeWeight L) : Prop where
  weight : ∀ x, (d x).weight = some (W x)
  base : (d start).depWeight = some 0
  dep : ∀ x, x ≠ start → Dep G p d x

variable {G : Graph L (NodeWeight L)} {W : L → Nat} {start : L}

omit [DecidableEq L] in
theorem relax_weight (w : NodeWeight L) (a : L) (t : Nat) : (w.relax a t).weight = w.weight := by
  unfold NodeWeight.relax
  split
  · split <;> rfl
  · rfl

/-- Visited nodes have a total. -/
theorem Data.tot {p q : List L} {g : Graph L (NodeWeight L)} {d : L → NodeWeight L}
    (hI : G.inc start = []) (hG : Wf G) (h : Inv G [start] q p g) (hd : Data G W start p d) {x : L}
    (hx : x ∈ q ∨ x ∈ p) : ∃ m, (d x).depWeight = some m ∧ tot d x = some (m + W x) := by
  have : ∃ m, (d x).depWeight = some m := by
    by_cases hs : x = start
    · subst hs; exact ⟨0, hd.base⟩
    · rcases (h.mem x).1 hx with hx | ⟨hne, ha⟩
      · exact absurd (by simpa using hx) hs
      · rcases hd.dep x hs with ⟨hno, -⟩ | ⟨a, m, -, -, -, h4, -⟩
        · obtain ⟨a, ha'⟩ := List.exists_mem_of_ne_nil _ hne
          exact absurd ((hG.edge a x).2 ha') (hno a (ha a ha'))
        · exact ⟨m, h4⟩
  obtain ⟨m, hm⟩ := this
  refine ⟨m, hm, ?_⟩
  unfold Graph.tot
  rw [hm, hd.weight]
  rfl

theorem data_step (hG : Wf G) (hI : G.inc start = []) {q p : List L} {src : L}
    {g : Graph L (NodeWeight L)} (h : Inv G [start] (src :: q) p g) (hd : Data G W start p g.data)
    {dat : L → NodeWeight L} (hf : foldData (relax true) src (G.out src) g.data = some dat) :
    Data G W start (src :: p) dat := by
  obtain ⟨m, hm, ht⟩ := hd.tot hI hG h (x := src) (.inl List.mem_cons_self)
  have hval := (foldRelax _ _ _ (hG.outNodup src) (hG.irrefl src) hf).2 _ ht
  have hnd := h.nodup
  rw [List.cons_append, List.nodup_cons, List.mem_append, not_or] at hnd
  have hp : src ∉ p := hnd.1.2
  have hpre : ∀ b ∈ src :: p, ∀ a ∈ G.inc b, a ∈ p := by
    intro x hx a ha
    have hx' : x ∈ src :: q ∨ x ∈ p := by
      rcases List.mem_cons.1 hx with rfl | hx
      · exact .inl List.mem_cons_self
      · exact .inr hx
    rcases (h.mem x).1 hx' with hx | hx
    · rw [List.mem_singleton] at hx
      rw [hx, hI] at ha; cases ha
    · exact hx.2 a ha
  have hnot : ∀ b ∈ src :: p, b ∉ G.out src := fun b hb hc => hp (hpre b hb src ((hG.edge src b).1 hc))
  have hsame : ∀ b ∈ src :: p, dat b = g.data b := fun b hb => by rw [hval, if_neg (hnot b hb)]
  have htot : ∀ b ∈ src :: p, Graph.tot dat b = Graph.tot g.data b := fun b hb => by
    unfold Graph.tot; rw [hsame b hb]
  have hstart : start ∉ G.out src := by
    intro hc
    have := (hG.edge src start).1 hc
    rw [hI] at this; cases this
  refine ⟨?_, ?_, ?_⟩
  · intro x
    rw [hval]
    split
    · rw [relax_weight]; exact hd.weight x
    · exact hd.weight x
  · rw [hval, if_neg hstart]; exact hd.base
  · intro x hx
    by_cases hxo : x ∈ G.out src
    · have hv : dat x = (g.data x).relax src (m + W src) := by rw [hval, if_pos hxo]
      right
      rcases hd.dep x hx with ⟨hno, hn⟩ | ⟨a, m', h1, h2, h3, h4, h5, h6⟩
      · refine ⟨src, m + W src, List.mem_cons_self, hxo, ?_, ?_, ?_, ?_⟩
        · rw [hv]; unfold NodeWeight.relax; rw [hn]
        · rw [hv]; unfold NodeWeight.relax; rw [hn]
        · rw [htot src List.mem_cons_self]; exact ht
        · intro b hb hxb
          rcases List.mem_cons.1 hb with rfl | hb
          · exact ⟨_, by rw [htot b List.mem_cons_self]; exact ht, Nat.le_refl _⟩
          · exact absurd hxb (hno b hb)
      · by_cases hlt : m' < m + W src
        · refine ⟨src, m + W src, List.mem_cons_self, hxo, ?_, ?_, ?_, ?_⟩
          · rw [hv]; unfold NodeWeight.relax; rw [h4]; simp [hlt]
          · rw [hv]; unfold NodeWeight.relax; rw [h4]; simp [hlt]
          · rw [htot src List.mem_cons_self]; exact ht
          · intro b hb hxb
            rw [htot b hb]
            rcases List.mem_cons.1 hb with rfl | hb
            · exact ⟨_, ht, Nat.le_refl _⟩
            · obtain ⟨mb, e1, e2⟩ := h6 b hb hxb
              exact ⟨mb, e1, by omega⟩
        · refine ⟨a, m', List.mem_cons_of_mem _ h1, h2, ?_, ?_, ?_, ?_⟩
          · rw [hv]; unfold NodeWeight.relax; rw [h4]; simp [hlt, h3]
          · rw [hv]; unfold NodeWeight.relax; rw [h4]; simp [hlt, h4]
          · rw [htot a (List.mem_cons_of_mem _ h1)]; exact h5
          · intro b hb hxb
            rw [htot b hb]
            rcases List.mem_cons.1 hb with rfl | hb
            · exact ⟨_, ht, by omega⟩
            · exact h6 b hb hxb
    · have hv : dat x = g.data x := by rw [hval, if_neg hxo]
      rcases hd.dep x hx with ⟨hno, hn⟩ | ⟨a, m', h1, h2, h3, h4, h5, h6⟩
      · left
        refine ⟨?_, by rw [hv]; exact hn⟩
        intro a ha
        rcases List.mem_cons.1 ha with rfl | ha
        · exact hxo
        · exact hno a ha
      · right
        refine ⟨a, m', List.mem_cons_of_mem _ h1, h2, by rw [hv]; exact h3, by rw [hv]; exact h4, ?_, ?_⟩
        · rw [htot a (List.mem_cons_of_mem _ h1)]; exact h5
        · intro b hb hxb
          rcases List.mem_cons.1 hb with rfl | hb
          · exact absurd hxb hxo
          · rw [htot b (List.mem_cons_of_mem _ hb)]
            exact h6 b hb hxb

/-! ## Paths -/

omit [DecidableEq L] in
theorem pathWeight_snoc (l : List L) (x : L) : pathWeight W (l ++ [x]) = pathWeight W l + W x := by
  simp [pathWeight]

omit [DecidableEq L] in
/-- A path to `t` that is not just `t` has a last but one node. -/
theorem _root_.Svm.Gas.IsPath.snoc {E : L → L → Prop} {s t : L} {l : List L} (h : IsPath E s t l) :
    (l = [t] ∧ s = t) ∨ ∃ l' a, l = l' ++ [t] ∧ IsPath E s a l' ∧ E a t := by
  obtain ⟨hc, hh, hl⟩ := h
  rcases List.eq_nil_or_concat l with rfl | ⟨l', b, rfl⟩
  · simp at hh
  · rw [List.concat_eq_append, List.getLast?_concat] at hl
    have hb : b = t := by simpa using hl
    subst hb
    rw [List.concat_eq_append] at hc hh ⊢
    rcases List.eq_nil_or_concat l' with rfl | ⟨l'', a, rfl⟩
    · left
      simp at hh
      simp [hh]
    · right
      rw [List.concat_eq_append] at hc hh ⊢
      refine ⟨l'' ++ [a], a, rfl, ⟨hc.left_of_append, ?_, List.getLast?_concat⟩, ?_⟩
      · rw [List.head?_append] at hh
        cases hx : (l'' ++ [a]).head? with
        | none => simp at hx
        | some z => rw [hx] at hh; exact hh
      · rw [List.append_assoc, List.isChain_append] at hc
        have := hc.2.1
        simpa using this

omit [DecidableEq L] in
theorem _root_.Svm.Gas.IsPath.extend {E : L → L → Prop} {s a t : L} {l : List L} (h : IsPath E s a l) (hE : E a t) :
    IsPath E s t (l ++ [t]) := by
  obtain ⟨hc, hh, hl⟩ := h
  refine ⟨?_, ?_, List.getLast?_concat⟩
  · rw [List.isChain_append]
    refine ⟨hc, List.isChain_singleton _, ?_⟩
    intro x hx y hy
    rw [hl] at hx
    simp at hx hy
    subst hx; subst hy
    exact hE
  · rw [List.head?_append, hh]; rfl

omit [DecidableEq L] in
theorem _root_.Svm.Gas.IsPath.reach {E : L → L → Prop} {s t : L} {l : List L} (h : IsPath E s t l) :
    ReflTransGen E s t := by
  induction hn : l.length generalizing l t with
  | zero =>
    rw [List.length_eq_zero_iff] at hn
    subst hn
    exact absurd h.2.1 (by simp)
  | succ n ih =>
    rcases h.snoc with ⟨-, rfl⟩ | ⟨l', a, rfl, h', hE⟩
    · exact .refl
    · exact (ih h' (by simpa using hn)).tail hE

omit [DecidableEq L] in
theorem path_of_reach {E : L → L → Prop} {s t : L} (h : ReflTransGen E s t) : ∃ l, IsPath E s t l := by
  induction h with
  | refl => exact ⟨[s], List.isChain_singleton _, rfl, rfl⟩
  | tail _ hE ih =>
    obtain ⟨l, hl⟩ := ih
    exact ⟨_, hl.extend hE⟩

/-- Every path from `start` to a visited node weighs at most its total. -/
theorem path_le (hG : Wf G) (hI : G.inc start = []) {p q : List L} {g : Graph L (NodeWeight L)}
    {d : L → NodeWeight L} (h : Inv G [start] q p g) (hd : Data G W start p d) :
    ∀ (n : Nat) (l : List L) (x : L), l.length = n → x ∈ q ∨ x ∈ p → IsPath G.E start x l →
      ∃ t, Graph.tot d x = some t ∧ pathWeight W l ≤ t
  | 0, l, x, hn, _, hl => by
    rw [List.length_eq_zero_iff] at hn
    subst hn
    exact absurd hl.2.1 (by simp)
  | n + 1, l, x, hn, hx, hl => by
    obtain ⟨m, hm, ht⟩ := hd.tot hI hG h hx
    refine ⟨_, ht, ?_⟩
    rcases hl.snoc with ⟨rfl, rfl⟩ | ⟨l', a, rfl, hl', hE⟩
    · simp [pathWeight]
    · have hax : a ∈ G.inc x := (hG.edge a x).1 hE
      have hxs : x ≠ start := by
        rintro rfl
        rw [hI] at hax; cases hax
      have hap : a ∈ p := by
        rcases (h.mem x).1 hx with hx | hx
        · exact absurd (by simpa using hx) hxs
        · exact hx.2 a hax
      rcases hd.dep x hxs with ⟨hno, -⟩ | ⟨a', m', -, -, -, h4, -, h6⟩
      · exact absurd hE (hno a hap)
      · rw [hm] at h4
        cases h4
        obtain ⟨ma, e1, e2⟩ := h6 a hap hE
        obtain ⟨t, e3, e4⟩ := path_le hG hI h hd n l' a (by simpa using hn) (.inr hap) hl'
        rw [e1] at e3
        cases e3
        rw [pathWeight_snoc]
        omega

/-- The path that is constructed is one, and its weight is the total. -/
theorem construct_spec (hG : Wf G) (hI : G.inc start = []) {q p : List L} {g : Graph L (NodeWeight L)}
    {d : L → NodeWeight L} (h : Inv G [start] q p g) (hd : Data G W start p d) :
    ∀ (n : Nat) (x : L) (l₁ l₂ : List L) (acc : List (L × Nat)), p = l₁ ++ x :: l₂ → l₂.length < n →
      ∃ path t, constructPath d start n x acc = some (path.map (fun y => (y, W y)) ++ acc) ∧
        IsPath G.E start x path ∧ Graph.tot d x = some t ∧ pathWeight W path = t
  | 0, x, l₁, l₂, acc, hp, hn => by omega
  | n + 1, x, l₁, l₂, acc, hp, hn => by
    have hxp : x ∈ p := by rw [hp]; simp
    obtain ⟨m, hm, ht⟩ := hd.tot hI hG h (.inr hxp)
    by_cases hxs : x = start
    · subst hxs
      have h0 := hd.base
      rw [hm] at h0
      cases h0
      refine ⟨[x], _, ?_, ⟨List.isChain_singleton _, rfl, rfl⟩, ht, ?_⟩
      · simp [constructPath, hd.weight]
      · simp [pathWeight]
    · rcases hd.dep x hxs with ⟨hno, hn'⟩ | ⟨a, m', h1, h2, h3, h4, h5, -⟩
      · rw [hm] at hn'; cases hn'
      · have ho := h.ord
        rw [hp] at ho
        have ha2 : a ∈ l₂ := (ordered_suffix ho).1 a ((hG.edge a x).1 h2)
        obtain ⟨k₁, k₂, rfl⟩ := List.append_of_mem ha2
        obtain ⟨path, t, e1, e2, e3, e4⟩ := construct_spec hG hI h hd n a (l₁ ++ x :: k₁) k₂
          ((x, W x) :: acc) (by rw [hp]; simp) (by simp at hn; omega)
        rw [h5] at e3
        cases e3
        rw [hm] at h4
        cases h4
        refine ⟨path ++ [x], _, ?_, e2.extend h2, ht, ?_⟩
        · simp only [constructPath, if_neg hxs, hd.weight, h3]
          rw [Option.bind_eq_bind, Option.bind_some, Option.bind_eq_bind, Option.bind_some, e1]
          simp
        · rw [pathWeight_snoc, e4]

/-- The total of a node that is visited or to be visited next is the weight of a path. -/
theorem tot_attained (hG : Wf G) (hI : G.inc start = []) {q p : List L} {g : Graph L (NodeWeight L)}
    {d : L → NodeWeight L} (h : Inv G [start] q p g) (hd : Data G W start p d) {x : L}
    (hx : x ∈ q ∨ x ∈ p) : ∃ l, IsPath G.E start x l ∧ Graph.tot d x = some (pathWeight W l) := by
  have hvis : ∀ y ∈ p, ∃ l, IsPath G.E start y l ∧ Graph.tot d y = some (pathWeight W l) := by
    intro y hy
    obtain ⟨l₁, l₂, hl⟩ := List.append_of_mem hy
    obtain ⟨path, t, -, e2, e3, e4⟩ := construct_spec hG hI h hd _ y l₁ l₂ [] hl (Nat.lt_succ_self _)
    exact ⟨path, e2, by rw [e3, e4]⟩
  rcases hx with hx | hx
  · obtain ⟨m, hm, ht⟩ := hd.tot hI hG h (.inl hx)
    by_cases hxs : x = start
    · subst hxs
      have h0 := hd.base
      rw [hm] at h0
      cases h0
      exact ⟨[x], ⟨List.isChain_singleton _, rfl, rfl⟩, by rw [ht]; simp [pathWeight]⟩
    · rcases hd.dep x hxs with ⟨hno, hn'⟩ | ⟨a, m', h1, h2, h3, h4, h5, -⟩
      · rw [hm] at hn'; cases hn'
      · obtain ⟨l, e1, e2⟩ := hvis a h1
        rw [hm] at h4
        cases h4
        rw [h5] at e2
        cases e2
        exact ⟨l ++ [x], e1.extend h2, by rw [ht, pathWeight_snoc]⟩
  · exact hvis x hx

/-! ## Pruning and paths -/

/-- The nodes that are pruned. -/
def prunedNodes {D : Type} (g : Graph L D) (start : L) : List L :=
  g.sourceNodes.filter fun n => n ≠ start

theorem mem_prunedNodes {D : Type} {g : Graph L D} {start a : L} :
    a ∈ prunedNodes g start ↔ a ∈ g.nodes ∧ g.inc a = [] ∧ a ≠ start := by
  unfold prunedNodes
  rw [List.mem_filter, mem_sourceNodes]
  simp [and_assoc]

theorem pruned_E {D : Type} {g g₁ : Graph L D} {l : List L} (hp : Pruned g l g₁) (a b : L) :
    g₁.E a b ↔ g.E a b ∧ a ∉ l := by
  unfold E
  rw [hp.out]
  by_cases h : a ∈ l <;> simp [h]

/-- Every node on a path from `start` is `start` or has a predecessor, so it is not pruned. -/
theorem reach_not_pruned {D : Type} {g : Graph L D} (hg : Wf g) {start a : L}
    (h : ReflTransGen g.E start a) : a ∉ prunedNodes g start := by
  rw [mem_prunedNodes]
  rintro ⟨-, hi, hne⟩
  rcases h.cases_tail with e | ⟨c, -, hE⟩
  · exact hne e
  · have := (hg.edge c a).1 hE
    rw [hi] at this; cases this

theorem pruned_path {D : Type} {g g₁ : Graph L D} (hg : Wf g) {start : L}
    (hp : Pruned g (prunedNodes g start) g₁) {x : L} {l : List L} :
    IsPath g₁.E start x l ↔ IsPath g.E start x l := by
  constructor
  · rintro ⟨h1, h2⟩
    exact ⟨h1.imp fun a b h => ((pruned_E hp a b).1 h).1, h2⟩
  · intro h
    induction hn : l.length generalizing l x with
    | zero =>
      rw [List.length_eq_zero_iff] at hn
      subst hn
      exact absurd h.2.1 (by simp)
    | succ n ih =>
      rcases h.snoc with ⟨rfl, rfl⟩ | ⟨l', a, rfl, h', hE⟩
      · exact ⟨List.isChain_singleton _, rfl, rfl⟩
      · refine (ih h' (by simpa using hn)).extend ((pruned_E hp a x).2 ⟨hE, ?_⟩)
        exact reach_not_pruned hg h'.reach

/-- A node is visited exactly when it can be reached from `start`, and so can all nodes above it
except sources. -/
def Clear (E : L → L → Prop) (start x : L) : Prop :=
  ReflTransGen E start x ∧ ∀ y, ReflTransGen E y x → ReflTransGen E start y ∨ ∀ a, ¬ E a y

theorem visited_iff {g g₁ g' : Graph L (NodeWeight L)} (hg : Wf g) (hac : Acyclic g.E)
    (hI : g.inc start = []) (hp : Pruned g (prunedNodes g start) g₁) {p : List L}
    (h : Inv g₁ [start] [] p g') (x : L) : x ∈ p ↔ Clear g.E start x := by
  have hmem : ∀ x, x ∈ p ↔ x = start ∨ (g₁.inc x ≠ [] ∧ ∀ a ∈ g₁.inc x, a ∈ p) := by
    intro x
    have := h.mem x
    simpa using this
  constructor
  · -- by induction on the order of visits
    have key : ∀ l, Ordered g₁ l → (∀ y ∈ l, y ∈ p) → ∀ y ∈ l, Clear g.E start y := by
      intro l
      induction l with
      | nil => intro _ _ y hy; cases hy
      | cons z l ih =>
        intro ho hl y hy
        rcases List.mem_cons.1 hy with rfl | hy
        · rcases (hmem y).1 (hl y List.mem_cons_self) with rfl | ⟨hne, hall⟩
          · refine ⟨.refl, fun w hw => ?_⟩
            rcases hw.cases_tail with e | ⟨c, -, hE⟩
            · left; rw [e]
            · have := (hg.edge c y).1 hE
              rw [hI] at this; cases this
          · have hpred : ∀ a ∈ g₁.inc y, Clear g.E start a := fun a ha =>
              ih ho.2 (fun y hy => hl y (List.mem_cons_of_mem _ hy)) a (ho.1 a ha)
            obtain ⟨a, ha⟩ := List.exists_mem_of_ne_nil _ hne
            have hE : g.E a y := (hg.edge a y).2 ((hp.inc a y).1 ha).1
            have hreach := (hpred a ha).1.tail hE
            refine ⟨hreach, fun w hw => ?_⟩
            rcases hw.cases_tail with e | ⟨c, hwc, hcE⟩
            · left; rw [← e]; exact hreach
            · by_cases hcp : c ∈ prunedNodes g start
              · rw [mem_prunedNodes] at hcp
                have hno : ∀ a, ¬ g.E a c := by
                  intro a ha
                  have := (hg.edge a c).1 ha
                  rw [hcp.2.1] at this; cases this
                rcases hwc.cases_tail with e | ⟨c', -, hE'⟩
                · right; rw [← e]; exact hno
                · exact absurd hE' (hno c')
              · exact (hpred c ((hp.inc c y).2 ⟨(hg.edge c y).1 hcE, hcp⟩)).2 w hwc
        · exact ih ho.2 (fun y hy => hl y (List.mem_cons_of_mem _ hy)) y hy
    intro hx
    exact key p h.ord (fun _ h => h) x hx
  · -- by induction on a rank
    obtain ⟨l, hl⟩ := (trySort_spec false false (fun _ _ => true) hg).1 hac
    obtain ⟨-, -, -, hrank⟩ := (trySort_spec false false (fun _ _ => true) hg).2.2 l hl
    have key : ∀ n x, l.idxOf x = n → Clear g.E start x → x ∈ p := by
      intro n
      induction n using Nat.strongRecOn with
      | ind n ih =>
        intro x hn hc
        rw [hmem]
        by_cases hxs : x = start
        · exact .inl hxs
        · right
          obtain ⟨hr, hall⟩ := hc
          constructor
          · rcases hr.cases_tail with e | ⟨c, hsc, hE⟩
            · exact absurd e hxs
            · have : c ∈ g₁.inc x := (hp.inc c x).2 ⟨(hg.edge c x).1 hE, reach_not_pruned hg hsc⟩
              exact List.ne_nil_of_mem this
          · intro a ha
            obtain ⟨ha, hnp⟩ := (hp.inc a x).1 ha
            have hE : g.E a x := (hg.edge a x).2 ha
            have hlt := hrank a x hE
            refine ih _ (by omega) a rfl ⟨?_, fun y hy => hall y (hy.tail hE)⟩
            by_cases has : a = start
            · rw [has]
            · rcases hall a (.single hE) with h | h
              · exact h
              · exfalso
                apply hnp
                rw [mem_prunedNodes]
                refine ⟨(hg.mem a x hE).1, ?_, has⟩
                rw [List.eq_nil_iff_forall_not_mem]
                intro c hc
                exact h c ((hg.edge c a).2 hc)
    intro hx
    exact key _ x rfl hx

/-! ## The whole computation -/

theorem drain_mono {D : Type} {f f' : L → L → (L → D) → Option (L → D)}
    (hf : ∀ s d dat r, f s d dat = some r → f' s d dat = some r) {src : L} :
    ∀ (ds : List L) (g : Graph L D) (q : List L) r, drain f src ds g q = some r →
      drain f' src ds g q = some r
  | [], _, _, _, h => h
  | d :: ds, g, q, r, h => by
    simp only [drain] at h ⊢
    cases hd : f src d g.data with
    | none => rw [hd] at h; cases h
    | some dat =>
      rw [hd] at h
      rw [hf _ _ _ _ hd]
      simp only [Option.bind_eq_bind, Option.bind_some] at h ⊢
      cases hr : removeEdge { g with data := dat } src d with
      | none => rw [hr] at h; cases h
      | some g₁ =>
        rw [hr] at h
        exact drain_mono hf ds g₁ _ r h

theorem loop_mono {D : Type} {f f' : L → L → (L → D) → Option (L → D)}
    (hf : ∀ s d dat r, f s d dat = some r → f' s d dat = some r) :
    ∀ (n : Nat) (g : Graph L D) (q p : List L) r, loop f n g q p = some r → loop f' n g q p = some r
  | n, g, [], p, r, h => by cases n <;> exact h
  | 0, g, x :: q, p, r, h => by cases h
  | n + 1, g, x :: q, p, r, h => by
    simp only [loop] at h ⊢
    cases hd : drain f x (g.out x) g q with
    | none => rw [hd] at h; cases h
    | some gq =>
      rw [hd] at h
      rw [drain_mono hf _ _ _ _ hd]
      exact loop_mono hf n _ _ _ r h

theorem relax_mono (chk : Bool) {s t : L} {d r : L → NodeWeight L} (h : relax true s t d = some r) :
    relax chk s t d = some r := by
  unfold relax at h ⊢
  cases ht : (d s).totalWeight true with
  | none => rw [ht] at h; cases h
  | some w =>
    rw [ht] at h
    rw [totalWeight_mono chk ht]
    exact h

/-- A result computed with overflow checks is computed without them too. -/
theorem maxPath_mono (chk : Bool) {g : Graph L (NodeWeight L)} {start fin : L}
    {r : List (L × Nat) × Nat} (h : maxPath true g start fin = some r) :
    maxPath chk g start fin = some r := by
  unfold maxPath at h ⊢
  split at h
  · rename_i hs
    rw [if_pos hs]
    cases hp : prune (initStart g start) start with
    | none => rw [hp] at h; cases h
    | some g₁ =>
      rw [hp] at h
      simp only [Option.bind_eq_bind, Option.bind_some] at h ⊢
      cases hl : loop (relax true) (g₁.nodes.length + 1) g₁ [start] [] with
      | none => rw [hl] at h; cases h
      | some gp =>
        obtain ⟨g₂, p⟩ := gp
        rw [hl] at h
        rw [loop_mono (fun s d dat r h => relax_mono chk h) _ _ _ _ _ hl]
        simp only [Option.bind_some] at h ⊢
        split at h
        · rename_i hf
          rw [if_pos hf]
          cases hc : constructPath g₂.data start (g₂.nodes.length + 1) fin [] with
          | none => rw [hc] at h; cases h
          | some path =>
            rw [hc] at h
            simp only [Option.bind_some] at h ⊢
            cases ht : (g₂.data fin).totalWeight true with
            | none => rw [ht] at h; cases h
            | some t =>
              rw [ht] at h
              rw [totalWeight_mono chk ht]
              exact h
        · cases h
  · cases h

omit [DecidableEq L] in
theorem Wf.withData {D D' : Type} {g : Graph L D} (h : Wf g) (d : L → D') :
    Wf (⟨g.nodes, g.inc, g.out, d⟩ : Graph L D') := ⟨h.nodup, h.edge, h.mem, h.irrefl, h.outNodup, h.incNodup⟩

/-- Give every node a weight. -/
def weighted (g : Graph L (NodeWeight L)) (W : L → Nat) : Graph L (NodeWeight L) :=
  { g with data := fun x => ⟨some (W x), none, none⟩ }

/-- The steps of the computation, for a start without incoming edges. -/
theorem maxPath_steps {g : Graph L (NodeWeight L)} (hg : Wf g) (hs : start ∈ g.nodes)
    (hI : g.inc start = []) (fin : L) : ∃ g₁, Wf g₁ ∧
      Pruned (weighted g W) (prunedNodes g start) { g₁ with data := (weighted g W).data } ∧
      g₁.inc start = [] ∧ g₁.nodes = g.nodes ∧ Inv g₁ [start] [start] [] g₁ ∧ Data g₁ W start [] g₁.data ∧
      ∀ chk, maxPath chk (weighted g W) start fin = (do
        let (g₂, p) ← loop (relax chk) (g.nodes.length + 1) g₁ [start] []
        if fin ∈ p then do
          let path ← constructPath g₂.data start (g₂.nodes.length + 1) fin []
          some (path, ← (g₂.data fin).totalWeight chk)
        else none) := by
  have hg' : Wf (initStart (weighted g W) start) := hg.withData _
  obtain ⟨g₁, hpr, hp⟩ := prune_spec hg' start
  have hinc : g₁.inc start = [] := by
    rw [List.eq_nil_iff_forall_not_mem]
    intro a ha
    have := ((hp.inc a start).1 ha).1
    rw [show (initStart (weighted g W) start).inc start = [] from hI] at this
    cases this
  refine ⟨g₁, hp.wf, ⟨hp.wf.withData _, hp.nodes, rfl, hp.out, hp.inc⟩, hinc, hp.nodes, ?_, ?_, ?_⟩
  · refine inv_init hp.wf ?_ (by simp)
    intro x hx
    rw [List.mem_singleton] at hx
    subst hx
    exact ⟨by rw [hp.nodes]; exact hs, hinc⟩
  · rw [hp.data]
    refine ⟨?_, ?_, ?_⟩
    · intro x
      show NodeWeight.weight (upd _ start _ x) = _
      unfold upd
      split
      · rename_i h; subst h; rfl
      · rfl
    · show NodeWeight.depWeight (upd _ start _ start) = _
      rw [upd_self]
    · intro x hx
      left
      refine ⟨fun a ha => absurd ha (by simp), ?_⟩
      show NodeWeight.depWeight (upd _ start _ x) = _
      rw [upd_ne _ _ hx]
      rfl
  · intro chk
    unfold maxPath
    rw [if_pos (show start ∈ (weighted g W).nodes from hs), hpr]
    simp only [Option.bind_eq_bind, Option.bind_some]
    rw [hp.nodes]
    rfl

/-- With overflow checks a result is exact. -/
theorem maxPath_exact {g : Graph L (NodeWeight L)} (hg : Wf g) (hI : g.inc start = [])
    {fin : L} {path : List (L × Nat)} {t : Nat}
    (h : maxPath true (weighted g W) start fin = some (path, t)) :
    ∃ l, path = l.map (fun y => (y, W y)) ∧ IsPath g.E start fin l ∧ pathWeight W l = t ∧ t < 2 ^ 64 ∧
      ∀ l', IsPath g.E start fin l' → pathWeight W l' ≤ t := by
  have hs : start ∈ g.nodes := by
    by_contra hs
    unfold maxPath at h
    rw [if_neg (show start ∉ (weighted g W).nodes from hs)] at h
    cases h
  obtain ⟨g₁, hw, hp, hinc, hn, hinv, hdat, he⟩ := maxPath_steps (W := W) hg hs hI fin
  rw [he] at h
  cases hl : loop (relax true) (g.nodes.length + 1) g₁ [start] [] with
  | none => rw [hl] at h; cases h
  | some gp =>
    obtain ⟨g₂, p⟩ := gp
    rw [hl] at h
    simp only [Option.bind_eq_bind, Option.bind_some] at h
    obtain ⟨hinv', hdat'⟩ := loop_inv hw (relax true) (I := [start])
      (by intro x hx; rw [List.mem_singleton] at hx; subst hx; exact hinc) (Data g₁ W start)
      (fun q p src g h hd dat hf => data_step hw hinc h hd hf) _ _ _ _ _ _ hinv hdat hl
    split at h
    · rename_i hfin
      obtain ⟨l₁, l₂, hpl⟩ := List.append_of_mem hfin
      have hlen : l₂.length < g₂.nodes.length + 1 := by
        have := hinv'.length_le
        rw [hpl] at this
        rw [hinv'.nodes]
        simp at this
        omega
      obtain ⟨l, t', e1, e2, e3, e4⟩ := construct_spec hw hinc hinv' hdat' _ fin l₁ l₂ [] hpl hlen
      rw [e1] at h
      simp only [Option.bind_some, List.append_nil] at h
      cases ht : (g₂.data fin).totalWeight true with
      | none => rw [ht] at h; cases h
      | some t'' =>
        rw [ht] at h
        simp only [Option.bind_some, Option.some.injEq, Prod.mk.injEq] at h
        obtain ⟨rfl, rfl⟩ := h
        obtain ⟨e5, e6⟩ := totalWeight_true.1 ht
        rw [e3] at e5
        cases e5
        have hE : ∀ l, IsPath g₁.E start fin l ↔ IsPath g.E start fin l := fun l =>
          pruned_path (g := weighted g W) (hg.withData _) hp
        refine ⟨l, rfl, (hE l).1 e2, e4, e6, fun l' hl' => ?_⟩
        obtain ⟨t, e7, e8⟩ := path_le hw hinc hinv' hdat' _ l' fin rfl (.inr hfin) ((hE l').2 hl')
        rw [e3] at e7
        cases e7
        exact e8
    · cases h

/-- If the weights of all paths from `start` fit in 64 bits the computation succeeds exactly when
`fin` is clear. -/
theorem maxPath_some_iff {g : Graph L (NodeWeight L)} (hg : Wf g) (hs : start ∈ g.nodes)
    (hI : g.inc start = []) (hac : Acyclic g.E)
    (hfit : ∀ x l, IsPath g.E start x l → pathWeight W l < 2 ^ 64) (chk : Bool) (fin : L) :
    (∃ r, maxPath chk (weighted g W) start fin = some r) ↔ Clear g.E start fin := by
  obtain ⟨g₁, hw, hp, hinc, hn, hinv, hdat, he⟩ := maxPath_steps (W := W) hg hs hI fin
  have hE : ∀ x l, IsPath g₁.E start x l ↔ IsPath g.E start x l := fun x l =>
    pruned_path (g := weighted g W) (hg.withData _) hp
  have hJ : ∀ (q p : List L) (src : L) (g : Graph L (NodeWeight L)), Inv g₁ [start] (src :: q) p g →
      Data g₁ W start p g.data → ∃ dat, foldData (relax true) src (g₁.out src) g.data = some dat ∧
        Data g₁ W start (src :: p) dat := by
    intro q p src g' h hd
    obtain ⟨l, e1, e2⟩ := tot_attained hw hinc h hd (x := src) (.inl List.mem_cons_self)
    obtain ⟨dat, e3⟩ := foldRelax_some (hfit src l ((hE src l).1 e1)) (g₁.out src) g'.data (hw.irrefl src) e2
    exact ⟨dat, e3, data_step hw hinc h hd e3⟩
  have hI' : ∀ x ∈ [start], g₁.inc x = [] := by
    intro x hx; rw [List.mem_singleton] at hx; subst hx; exact hinc
  obtain ⟨⟨g₂, p⟩, hl⟩ := loop_some hw (relax true) (I := [start]) hI' (Data g₁ W start) hJ
    (g.nodes.length + 1) g₁ [start] [] hinv hdat (by rw [hn]; simp)
  obtain ⟨hinv', hdat'⟩ := loop_inv hw (relax true) (I := [start]) hI' (Data g₁ W start)
      (fun q p src g h hd dat hf => data_step hw hinc h hd hf) _ _ _ _ _ _ hinv hdat hl
  have hvis := visited_iff (g := weighted g W) (g' := g₂) (p := p) (start := start) (hg.withData _) hac hI hp
    ⟨hinv'.nodes, hinv'.out, hinv'.inc, hinv'.incNodup, hinv'.nodup, hinv'.sub, hinv'.mem, by
      have : ∀ l, Ordered g₁ l → Ordered ({ g₁ with data := (weighted g W).data } : Graph L (NodeWeight L)) l := by
        intro l
        induction l with
        | nil => exact fun h => h
        | cons a l ih => exact fun h => ⟨h.1, ih h.2⟩
      exact this p hinv'.ord⟩ fin
  constructor
  · rintro ⟨r, hr⟩
    refine hvis.1 ?_
    rw [he, loop_mono (fun s d dat r h => relax_mono chk h) _ _ _ _ _ hl] at hr
    simp only [Option.bind_eq_bind, Option.bind_some] at hr
    split at hr
    · rename_i h; exact h
    · cases hr
  · intro hc
    have hfin := hvis.2 hc
    obtain ⟨l₁, l₂, hpl⟩ := List.append_of_mem hfin
    have hlen : l₂.length < g₂.nodes.length + 1 := by
      have := hinv'.length_le
      rw [hpl] at this
      rw [hinv'.nodes]
      simp at this
      omega
    obtain ⟨l, t', e1, e2, e3, e4⟩ := construct_spec hw hinc hinv' hdat' _ fin l₁ l₂ [] hpl hlen
    have ht : (g₂.data fin).totalWeight true = some t' := totalWeight_true.2 ⟨e3, by
      rw [← e4]; exact hfit fin l ((hE fin l).1 e2)⟩
    refine ⟨(l.map (fun y => (y, W y)) ++ [], t'), maxPath_mono chk ?_⟩
    · rw [he, hl]
      simp only [Option.bind_eq_bind, Option.bind_some]
      rw [if_pos hfin, e1, Option.bind_some, ht]
      rfl

end Graph

open Graph

/-! ## C53 -/

/-- The graph built from a list of nodes and edges, with weights. -/
def buildWeighted (cs : List (Cmd L)) (W : L → Nat) : Option (Graph L (NodeWeight L)) := do
  let g ← build ⟨none, none, none⟩ cs (Graph.empty ⟨none, none, none⟩)
  some (weighted g W)

theorem buildWeighted_some (cs : List (Cmd L)) (W : L → Nat) (hne : ∀ a b, IsEdge cs a b → a ≠ b) :
    ∃ g, buildWeighted cs W = some (weighted g W) ∧ Wf g ∧ g.E = IsEdge cs ∧
      ∀ x, x ∈ g.nodes ↔ IsNode cs x := by
  obtain ⟨g, h1, h2, -, h3, h4⟩ := build_some (dflt := (⟨none, none, none⟩ : NodeWeight L)) cs
    (Graph.empty ⟨none, none, none⟩) (wf_empty _) hne
  refine ⟨g, ?_, h2, ?_, ?_⟩
  · unfold buildWeighted; rw [h1]; rfl
  · funext a b
    apply propext
    rw [Graph.E, h3]
    simp [Graph.empty]
  · intro x
    rw [h4]
    simp [Graph.empty]

/-- The graphs C53 speaks about: acyclic, and every node can be reached from the start. -/
structure Rooted (cs : List (Cmd L)) (start : L) : Prop where
  acyclic : Acyclic (IsEdge cs)
  node : IsNode cs start
  reach : ∀ x, IsNode cs x → ReflTransGen (IsEdge cs) start x

omit [DecidableEq L] in
theorem acyclic_ne {E : L → L → Prop} (h : Acyclic E) (a b : L) (hE : E a b) : a ≠ b := by
  rintro rfl
  exact h a (.single hE)

/-- The result is the maximum over all paths from start to end, and the returned path attains it. -/
def IsMax (E : L → L → Prop) (W : L → Nat) (start fin : L) (r : List (L × Nat) × Nat) : Prop :=
  (∃ l, r.1 = l.map (fun y => (y, W y)) ∧ IsPath E start fin l ∧ pathWeight W l = r.2) ∧
    ∀ l, IsPath E start fin l → pathWeight W l ≤ r.2

/-- C53 for builds with (`chk`) or without overflow checks: a computed result is the maximum. -/
def C53_claim (chk : Bool) : Prop :=
  ∀ (cs : List (Cmd Nat)) (W : Nat → Nat) (start fin : Nat) (g : Graph Nat (NodeWeight Nat))
    (r : List (Nat × Nat) × Nat), (∀ x, W x < 2 ^ 64) → Rooted cs start → buildWeighted cs W = some g →
    maxPath chk g start fin = some r → IsMax (IsEdge cs) W start fin r

omit [DecidableEq L] in
theorem rooted_inc {cs : List (Cmd L)} {start : L} (h : Rooted cs start) {D : Type} {g : Graph L D}
    (hg : Wf g) (hE : g.E = IsEdge cs) (hn : ∀ x, x ∈ g.nodes ↔ IsNode cs x) : g.inc start = [] := by
  rw [List.eq_nil_iff_forall_not_mem]
  intro a ha
  have hE' : g.E a start := (hg.edge a start).2 ha
  have hr := h.reach a ((hn a).1 (hg.mem a start hE').1)
  rw [hE] at hE'
  exact h.acyclic a (TransGen.head' hE' hr)

/-- **C53** with overflow checks: on every acyclic graph whose nodes are all reachable from the start,
a computed result is exact. -/
theorem C53_max_path_checked (cs : List (Cmd L)) (W : L → Nat) (start fin : L)
    (g : Graph L (NodeWeight L)) (r : List (L × Nat) × Nat) (h : Rooted cs start)
    (hb : buildWeighted cs W = some g) (hr : maxPath true g start fin = some r) :
    IsMax (IsEdge cs) W start fin r := by
  obtain ⟨g', h1, h2, h3, h4⟩ := buildWeighted_some cs W (acyclic_ne h.acyclic)
  rw [h1] at hb
  cases hb
  obtain ⟨l, e1, e2, e3, -, e5⟩ := maxPath_exact h2 (rooted_inc h h2 h3 h4) hr
  rw [h3] at e2 e5
  exact ⟨⟨l, e1, e2, e3⟩, e5⟩

/-- **C53** in every build: if the weights of the paths fit in 64 bits the computation succeeds for
every end, and the result is exact. -/
theorem C53_max_path_partial (chk : Bool) (cs : List (Cmd L)) (W : L → Nat) (start fin : L)
    (h : Rooted cs start) (hf : IsNode cs fin)
    (hfit : ∀ x l, IsPath (IsEdge cs) start x l → pathWeight W l < 2 ^ 64) :
    ∃ g r, buildWeighted cs W = some g ∧ maxPath chk g start fin = some r ∧
      IsMax (IsEdge cs) W start fin r := by
  obtain ⟨g, h1, h2, h3, h4⟩ := buildWeighted_some cs W (acyclic_ne h.acyclic)
  have hinc := rooted_inc h h2 h3 h4
  rw [← h3] at hfit
  obtain ⟨r, hr⟩ := (maxPath_some_iff h2 ((h4 start).2 h.node) hinc (by rw [h3]; exact h.acyclic) hfit
    true fin).2 (by
      rw [h3]
      refine ⟨h.reach fin hf, fun y hy => .inl (h.reach y ?_)⟩
      rcases hy.cases_head with rfl | ⟨c, hc, -⟩
      · exact hf
      · exact .inr (.inl ⟨c, hc⟩))
  exact ⟨_, r, h1, maxPath_mono chk hr, C53_max_path_checked cs W start fin _ r h h1 hr⟩

/-- **C53** without the hypothesis that every node can be reached: on an acyclic graph with a start
without incoming edges, whose path weights fit in 64 bits, the computation succeeds exactly when the
end can be reached and every node above it can be reached or is a source; otherwise it panics. -/
theorem C53_succeeds_iff (chk : Bool) (cs : List (Cmd L)) (W : L → Nat) (start fin : L)
    (hac : Acyclic (IsEdge cs)) (hs : IsNode cs start) (hsrc : ∀ a, ¬ IsEdge cs a start)
    (hfit : ∀ x l, IsPath (IsEdge cs) start x l → pathWeight W l < 2 ^ 64) :
    ∃ g, buildWeighted cs W = some g ∧
      ((∃ r, maxPath chk g start fin = some r) ↔ Clear (IsEdge cs) start fin) := by
  obtain ⟨g, h1, h2, h3, h4⟩ := buildWeighted_some cs W (acyclic_ne hac)
  refine ⟨_, h1, ?_⟩
  rw [← h3] at hfit hac hsrc ⊢
  refine maxPath_some_iff h2 ((h4 start).2 hs) ?_ hac hfit chk fin
  rw [List.eq_nil_iff_forall_not_mem]
  intro a ha
  exact hsrc a ((h2.edge a start).2 ha)

/-- Release builds violate C53: the weights 2^63 and 2^63 add up to 0. -/
theorem C53_claim_false : ¬ C53_claim false := by
  intro h
  have hr : Rooted [Cmd.edge 0 1] 0 := by
    refine ⟨?_, .inr (.inl ⟨1, by simp⟩), ?_⟩
    · intro x hx
      have hlt : ∀ a b, TransGen (IsEdge [Cmd.edge 0 1]) a b → a < b := by
        intro a b hab
        induction hab with
        | single h => simp [IsEdge] at h; omega
        | tail _ h ih => simp [IsEdge] at h; omega
      exact absurd (hlt x x hx) (by omega)
    · rintro x (hx | ⟨b, hb⟩ | ⟨b, hb⟩)
      · simp at hx
      · simp at hb; rw [hb.1]
      · simp at hb; rw [hb.2]; exact .single (by simp [IsEdge])
  have hm : ∃ g, buildWeighted [Cmd.edge 0 1] (fun _ => 2 ^ 63) = some g ∧
      maxPath false g 0 1 = some ([(0, 2 ^ 63), (1, 2 ^ 63)], 0) := ⟨_, rfl, rfl⟩
  obtain ⟨g, hg, hm⟩ := hm
  have := (h _ _ _ _ _ _ (fun _ => by decide) hr hg hm).2 [0, 1] ⟨by simp [IsEdge], rfl, rfl⟩
  simp [pathWeight] at this

/-- Non-vacuity: a diamond, with the heavier branch first or second. -/
example : ∃ g, buildWeighted [Cmd.edge 0 1, Cmd.edge 0 2, Cmd.edge 1 3, Cmd.edge 2 3]
    (fun n => [1, 5, 3, 2].getD n 0) = some g ∧
    maxPath true g 0 3 = some ([(0, 1), (1, 5), (3, 2)], 8) := ⟨_, rfl, rfl⟩

/-- A node that cannot be reached, and is not a source, blocks the computation: 4 → 5 → 3. -/
example : ∃ g, buildWeighted [Cmd.edge 0 3, Cmd.edge 4 5, Cmd.edge 5 3] (fun _ => 1) = some g ∧
    maxPath false g 0 3 = none := ⟨_, rfl, rfl⟩

end Svm.Gas
