import Verif.Gas.Sort

/-!
# The reported cycle (crates/host/gas/src/graph/sort.rs derive_cycle); property C50
-/

namespace Svm.Gas

open Relation (TransGen ReflTransGen)

variable {L D : Type} [DecidableEq L]

namespace Graph

/-! ## The depth first search -/

/-- What a call of `recur_find_cycle` does when the stack holds `s`. -/
structure Found (out : L → List L) (s : List L) (cur : L) (r : Bool × List L × List L) : Prop where
  no : r.1 = false → r.2.1 = s ∧ r.2.2 = s ∧
    ∀ x, ReflTransGen (fun a b => b ∈ out a) cur x →
      x ∉ s ∧ ¬ TransGen (fun a b => b ∈ out a) x x
  yes : r.1 = true → ∃ y t, r.2.1 = y :: t ∧ y ∈ t ∧ t.Nodup ∧ s <:+ t ∧
    (cur ∉ s → cur :: s <:+ t) ∧ (y :: t).IsChain (fun a b => a ∈ out b)

theorem recurFind_spec (chk : Bool) (out : L → List L) (nodes : List L)
    (hout : ∀ a, a ∈ nodes → ∀ b ∈ out a, b ∈ nodes) :
    ∀ (n : Nat) (cur : L) (s : List L), cur ∈ nodes → (∀ x ∈ s, x ∈ nodes) → s.Nodup →
      nodes.length + 1 ≤ n + s.length → (cur :: s).IsChain (fun a b => a ∈ out b) →
      ∃ r, recurFind chk out n cur s s = some r ∧ Found out s cur r
  | 0, cur, s, _, hs, hnd, hlen, _ => by
    have := (List.subperm_of_subset hnd hs).length_le
    omega
  | n + 1, cur, s, hcur, hs, hnd, hlen, hch => by
    rw [recurFind]
    by_cases hm : cur ∈ s
    · rw [if_pos hm]
      refine ⟨_, rfl, fun h => by simp at h, fun _ => ⟨cur, s, rfl, hm, hnd, List.suffix_rfl, fun h => absurd hm h, hch⟩⟩
    · rw [if_neg hm]
      have hnd' : (cur :: s).Nodup := List.nodup_cons.2 ⟨hm, hnd⟩
      have hs' : ∀ x ∈ cur :: s, x ∈ nodes := by
        intro x hx
        rcases List.mem_cons.1 hx with rfl | hx
        · exact hcur
        · exact hs x hx
      have key : ∀ l : List L, (∀ b ∈ l, b ∈ out cur) →
          ∃ r, tryAll (recurFind chk out n) l (cur :: s) (cur :: s) = some r ∧
            (r.1 = false → r.2.1 = cur :: s ∧ r.2.2 = cur :: s ∧ ∀ b ∈ l, ∀ x,
              ReflTransGen (fun a b => b ∈ out a) b x →
              x ∉ cur :: s ∧ ¬ TransGen (fun a b => b ∈ out a) x x) ∧
            (r.1 = true → ∃ y t, r.2.1 = y :: t ∧ y ∈ t ∧ t.Nodup ∧ cur :: s <:+ t ∧
              (y :: t).IsChain (fun a b => a ∈ out b)) := by
        intro l
        induction l with
        | nil =>
          intro _
          exact ⟨_, rfl, fun _ => ⟨rfl, rfl, fun b hb => by cases hb⟩, fun h => by simp at h⟩
        | cons b l ih =>
          intro hl
          obtain ⟨r, hr, hf⟩ := recurFind_spec chk out nodes hout n b (cur :: s)
            (hout cur hcur b (hl b List.mem_cons_self)) hs' hnd' (by simp; omega)
            (List.isChain_cons_cons.2 ⟨hl b List.mem_cons_self, hch⟩)
          obtain ⟨b0, c0, v0⟩ := r
          cases b0 with
          | true =>
            obtain ⟨y, t, h1, h2, h3, h4, -, h6⟩ := hf.yes rfl
            refine ⟨(true, c0, v0), ?_, fun h => by simp at h, fun _ => ⟨y, t, h1, h2, h3, h4, h6⟩⟩
            simp only [tryAll, hr]; rfl
          | false =>
            obtain ⟨h1, h2, h3⟩ := hf.no rfl
            dsimp only at h1 h2
            subst h1; subst h2
            obtain ⟨r', hr', hno, hyes⟩ := ih (fun b hb => hl b (List.mem_cons_of_mem _ hb))
            refine ⟨r', ?_, ?_, hyes⟩
            · simp only [tryAll, hr]; exact hr'
            · intro hf'
              obtain ⟨e1, e2, e3⟩ := hno hf'
              refine ⟨e1, e2, fun b' hb' => ?_⟩
              rcases List.mem_cons.1 hb' with rfl | hb'
              · exact h3
              · exact e3 b' hb'
      obtain ⟨⟨b0, c0, v0⟩, hr, hno, hyes⟩ := key (out cur) (fun b hb => hb)
      cases b0 with
      | true =>
        obtain ⟨y, t, h1, h2, h3, h4, h6⟩ := hyes rfl
        refine ⟨(true, c0, v0), by simp only [hr]; rfl, fun h => by simp at h, fun _ =>
          ⟨y, t, h1, h2, h3, (List.suffix_cons cur s).trans h4, fun _ => h4, h6⟩⟩
      | false =>
        obtain ⟨h1, h2, h3⟩ := hno rfl
        dsimp only at h1 h2
        subst h1; subst h2
        refine ⟨(false, s, s), ?_, fun _ => ⟨rfl, rfl, ?_⟩, fun h => by simp at h⟩
        · simp [hr]
        · intro x hx
          rcases ReflTransGen.cases_head hx with rfl | ⟨b, hb, hbx⟩
          · refine ⟨hm, fun hc => ?_⟩
            obtain ⟨b, hb, hbc⟩ := TransGen.head'_iff.1 hc
            exact (h3 b hb cur hbc).1 List.mem_cons_self
          · obtain ⟨h4, h5⟩ := h3 b hb x hbx
            exact ⟨fun h => h4 (List.mem_cons_of_mem _ h), h5⟩

/-! ## Nodes that are left -/

variable {g g' : Graph L D} {p : List L}

/-- A node with an edge, on a cycle or behind one. -/
def Behind (E : L → L → Prop) (x : L) : Prop :=
  (∃ c, TransGen E c c ∧ ReflTransGen E c x) ∧ ∃ y, E x y

theorem left_closed (hg : Wf g) (h : Inv g g.sourceNodes.reverse [] p g') {a b : L}
    (hab : ReflTransGen g.E a b) (ha : a ∉ p) : b ∉ p := by
  induction hab with
  | refl => exact ha
  | tail _ hE ih =>
    intro hc
    exact ih (((mem_visited h _).1 hc).2 _ ((hg.edge _ _).1 hE))

/-- A visited node is not on a cycle. -/
theorem visited_not_cycle (hg : Wf g) (h : Inv g g.sourceNodes.reverse [] p g') {c : L}
    (hc : TransGen g.E c c) : c ∉ p := by
  -- visited nodes are closed under predecessors, and a closed acyclic order exists on them
  intro hcp
  have hpred : ∀ a b, TransGen g.E a b → b ∈ p → a ∈ p := by
    intro a b hab
    induction hab with
    | single hE => intro hb; exact ((mem_visited h _).1 hb).2 _ ((hg.edge _ _).1 hE)
    | tail _ hE ih => intro hb; exact ih (((mem_visited h _).1 hb).2 _ ((hg.edge _ _).1 hE))
  have hord : ∀ (l : List L), Ordered g l → ∀ b ∈ l, ∀ a, TransGen g.E a b → ∃ l₁ l₂,
      l = l₁ ++ b :: l₂ ∧ a ∈ l₂ := by
    intro l
    induction l with
    | nil => intro _ b hb; cases hb
    | cons y l ih =>
      intro ho b hb a hab
      rcases List.mem_cons.1 hb with rfl | hb
      · refine ⟨[], l, rfl, ?_⟩
        rcases TransGen.tail'_iff.1 hab with ⟨z, haz, hzb⟩
        have hz : z ∈ l := ho.1 z ((hg.edge _ _).1 hzb)
        rcases haz.cases_head with rfl | ⟨w, haw, hwz⟩
        · exact hz
        · obtain ⟨l₁, l₂, rfl, ha⟩ := ih ho.2 z hz a (TransGen.head' haw hwz)
          simp [ha]
      · obtain ⟨l₁, l₂, rfl, ha⟩ := ih ho.2 b hb a hab
        exact ⟨y :: l₁, l₂, rfl, ha⟩
  obtain ⟨l₁, l₂, hl, ha⟩ := hord p h.ord c hcp c hc
  have hnd : p.Nodup := h.nodup
  rw [hl, List.nodup_append] at hnd
  exact (List.nodup_cons.1 hnd.2.1).1 ha

/-- A node that is left has a cycle above it. -/
theorem left_behind (hg : Wf g) (h : Inv g g.sourceNodes.reverse [] p g') {x : L} (hx : x ∈ g.nodes)
    (hp : x ∉ p) : ∃ c, TransGen g.E c c ∧ ReflTransGen g.E c x := by
  by_contra hno
  push Not at hno
  -- the nodes above `x` that are left
  classical
  have hU : ∀ y ∈ g.nodes.filter (fun y => decide (y ∉ p ∧ ReflTransGen g.E y x)),
      ∃ a ∈ g.nodes.filter (fun y => decide (y ∉ p ∧ ReflTransGen g.E y x)),
        g.E a y ∧ ReflTransGen g.E y x := by
    intro y hy
    rw [List.mem_filter, decide_eq_true_iff] at hy
    have hyp := hy.2.1
    rw [mem_visited h y] at hyp
    push Not at hyp
    obtain ⟨a, ha, hap⟩ := hyp hy.1
    have he : y ∈ g.out a := (hg.edge a y).2 ha
    refine ⟨a, ?_, he, hy.2.2⟩
    rw [List.mem_filter, decide_eq_true_iff]
    exact ⟨(hg.mem a y he).1, hap, ReflTransGen.head he hy.2.2⟩
  refine not_acyclic_of_preds (E := fun a b => g.E a b ∧ ReflTransGen g.E b x) hU
    (x₀ := x) (by rw [List.mem_filter, decide_eq_true_iff]; exact ⟨hx, hp, .refl⟩) ?_
  intro c hc
  have h1 : TransGen g.E c c := TransGen.mono (fun _ _ h => h.1) _ _ hc
  have h2 : ReflTransGen g.E c x := by
    rcases TransGen.tail'_iff.1 hc with ⟨z, -, hz⟩
    exact hz.2
  exact hno c h1 h2

/-- The candidates of `derive_cycle`. -/
theorem mem_cands (hg : Wf g) (h : Inv g g.sourceNodes.reverse [] p g') (x : L) :
    (x ∈ g'.nodes.filter fun n => !(g'.inc n).isEmpty && !(g'.out n).isEmpty) ↔ Behind g.E x := by
  rw [List.mem_filter, h.nodes]
  constructor
  · rintro ⟨hx, he⟩
    have hp : x ∉ p := by
      intro hp
      rw [h.out, if_pos hp] at he
      simp at he
    refine ⟨left_behind hg h hx hp, ?_⟩
    rw [h.out, if_neg hp] at he
    cases ho : g.out x with
    | nil => rw [ho] at he; simp at he
    | cons y l => exact ⟨y, by simp [E, ho]⟩
  · rintro ⟨⟨c, hc, hcx⟩, y, hy⟩
    have hp : x ∉ p := left_closed hg h hcx (visited_not_cycle hg h hc)
    have hx : x ∈ g.nodes := (hg.mem x y hy).1
    refine ⟨hx, ?_⟩
    have h1 : (g'.out x) ≠ [] := by
      rw [h.out, if_neg hp]
      intro he
      rw [E, he] at hy
      cases hy
    have h2 : (g'.inc x) ≠ [] := by
      have hp' := hp
      rw [mem_visited h x] at hp'
      push Not at hp'
      obtain ⟨a, ha, hap⟩ := hp' hx
      have : a ∈ g'.inc x := (h.inc a x).2 ⟨ha, hap⟩
      exact List.ne_nil_of_mem this
    simp [h1, h2]

/-- Below a node that is left nothing has changed. -/
theorem reach_left (hg : Wf g) (h : Inv g g.sourceNodes.reverse [] p g') {a b : L} (ha : a ∉ p) :
    ReflTransGen g'.E a b ↔ ReflTransGen g.E a b := by
  constructor
  · refine ReflTransGen.mono (fun x y hxy => ?_) a b
    unfold E at hxy ⊢
    rw [h.out] at hxy
    split at hxy
    · cases hxy
    · exact hxy
  · intro hab
    induction hab with
    | refl => exact .refl
    | @tail b c hab hE ih =>
      refine ih.tail ?_
      unfold E
      rw [h.out, if_neg (left_closed hg h hab ha)]
      exact hE

theorem sub_left (h : Inv g g.sourceNodes.reverse [] p g') {a b : L} (hab : g'.E a b) : g.E a b := by
  unfold E at hab ⊢
  rw [h.out] at hab
  split at hab
  · cases hab
  · exact hab

theorem trans_left (hg : Wf g) (h : Inv g g.sourceNodes.reverse [] p g') {a b : L} (ha : a ∉ p) :
    TransGen g'.E a b ↔ TransGen g.E a b := by
  constructor
  · exact TransGen.mono (fun _ _ => sub_left h) a b
  · intro hab
    rw [TransGen.head'_iff] at hab ⊢
    obtain ⟨c, hac, hcb⟩ := hab
    refine ⟨c, ?_, (reach_left hg h (left_closed hg h (.single hac) ha)).2 hcb⟩
    unfold E
    rw [h.out, if_neg ha]
    exact hac

/-- A label that comes first in the order. -/
def Least (le : L → L → Bool) (P : L → Prop) (x : L) : Prop := P x ∧ ∀ y, P y → le x y = true

omit [DecidableEq L] in
theorem head_sort (le : L → L → Bool) (htr : ∀ a b c, le a b = true → le b c = true → le a c = true)
    (htot : ∀ a b, (le a b || le b a) = true) (l : List L) (x : L) (h : (l.insertionSort (fun a b => le a b = true)).head? = some x) :
    Least le (· ∈ l) x := by
  have : Std.Total (fun a b => le a b = true) := ⟨fun a b => by have := htot a b; simpa using this⟩
  have : IsTrans L (fun a b => le a b = true) := ⟨htr⟩
  have hp := List.pairwise_insertionSort (fun a b => le a b = true) l
  cases hs : l.insertionSort (fun a b => le a b = true) with
  | nil => rw [hs] at h; cases h
  | cons y ys =>
    rw [hs] at h hp
    cases h
    have hm : ∀ z, z ∈ l ↔ z ∈ x :: ys := fun z => by rw [← hs, List.mem_insertionSort]
    refine ⟨(hm x).2 List.mem_cons_self, fun z hz => ?_⟩
    rcases List.mem_cons.1 ((hm z).1 hz) with rfl | hz
    · have := htot z z
      simpa using this
    · exact (List.pairwise_cons.1 hp).1 z hz

end Graph

open Graph

/-- What validation with cycle reporting says about a graph with a cycle, where `start` is the first
node that has an edge and is on a cycle or behind one. -/
theorem trySort_cycles (chk : Bool) (le : L → L → Bool)
    (htr : ∀ a b c, le a b = true → le b c = true → le a c = true)
    (htot : ∀ a b, (le a b || le b a) = true) {g : Graph L D} (hg : Wf g) (hc : ¬ Acyclic g.E) :
    ∃ start, Least le (Behind g.E) start ∧
      ((¬ ∃ c, ReflTransGen g.E start c ∧ TransGen g.E c c) →
        trySort chk true le g = if chk then none else some (.cycles [])) ∧
      ((∃ c, ReflTransGen g.E start c ∧ TransGen g.E c c) → ∃ pre cyc,
        trySort chk true le g = some (.cycles (pre ++ cyc)) ∧ (pre ++ cyc).IsChain g.E ∧
        (pre ++ cyc).head? = some start ∧ IsCycle g.E cyc ∧ (pre ++ cyc.tail).Nodup) := by
  obtain ⟨g', p, hr, h⟩ := kahn_spec hg
  have hE := (hasEdges_iff h).2 ((left_iff hg h).2 hc)
  have hcand := mem_cands hg h
  unfold Acyclic at hc
  push Not at hc
  obtain ⟨c, hcc⟩ := hc
  set cands := g'.nodes.filter fun n => !(g'.inc n).isEmpty && !(g'.out n).isEmpty with hcs
  obtain ⟨start, hst⟩ : ∃ x, (cands.insertionSort (fun a b => le a b = true)).head? = some x := by
    cases hh : (cands.insertionSort (fun a b => le a b = true)).head? with
    | some x => exact ⟨x, rfl⟩
    | none =>
      exfalso
      have hcin : c ∈ cands.insertionSort (fun a b => le a b = true) := by
        rw [List.mem_insertionSort, hcand]
        refine ⟨⟨c, hcc, .refl⟩, ?_⟩
        obtain ⟨d, hd, -⟩ := TransGen.head'_iff.1 hcc
        exact ⟨d, hd⟩
      rw [List.head?_eq_none_iff] at hh
      rw [hh] at hcin
      cases hcin
  have hleast := head_sort le htr htot cands start hst
  have hl : Least le (Behind g.E) start :=
    ⟨(hcand start).1 hleast.1, fun y hy => hleast.2 y ((hcand y).2 hy)⟩
  refine ⟨start, hl, ?_⟩
  obtain ⟨⟨c', hcc', hcs'⟩, y, hy⟩ := hl.1
  have hp : start ∉ p := left_closed hg h hcs' (visited_not_cycle hg h hcc')
  have hstart : start ∈ g.nodes := (hg.mem _ _ hy).1
  obtain ⟨r, hrr, hf⟩ := recurFind_spec chk g'.out g'.nodes (by
      intro a _ b hb
      rw [h.nodes]
      exact (hg.mem a b (sub_left h hb)).2) (g'.nodes.length + 1) start [] (by rw [h.nodes]; exact hstart)
    (by simp) (by simp) (by simp) (List.isChain_singleton _)
  have htry : trySort chk true le g = (do
      let c ← findCycle chk g' start
      some (SortRes.cycles c)) := by
    simp only [trySort, hr]
    show (if g'.hasEdges = true then _ else _) = _
    rw [if_pos hE]
    simp only [deriveCycle, if_true, ← hcs, hst]
    show (do let c ← (do let c ← findCycle chk g' start; some (some c)); _) = _
    cases findCycle chk g' start <;> rfl
  have hfind : findCycle chk g' start = if chk ∧ r.1 = false then none else some r.2.1.reverse := by
    simp only [findCycle, hrr]; rfl
  have hreach : (∃ c, ReflTransGen g.E start c ∧ TransGen g.E c c) →
      ∃ c, ReflTransGen g'.E start c ∧ TransGen g'.E c c := by
    rintro ⟨d, h1, h2⟩
    exact ⟨d, (reach_left hg h hp).2 h1, (trans_left hg h (left_closed hg h h1 hp)).2 h2⟩
  obtain ⟨b0, c0, v0⟩ := r
  cases b0 with
  | false =>
    obtain ⟨h1, -, h3⟩ := hf.no rfl
    dsimp only at h1
    subst h1
    refine ⟨fun _ => ?_, fun hex => ?_⟩
    · rw [htry, hfind]
      cases chk <;> rfl
    · obtain ⟨d, hd1, hd2⟩ := hreach hex
      exact absurd hd2 (h3 d hd1).2
  | true =>
    obtain ⟨y, t, h1, h2, h3, -, h5, h6⟩ := hf.yes rfl
    dsimp only at h1
    subst h1
    have h5' := h5 (by simp)
    obtain ⟨t', ht'⟩ := h5'
    obtain ⟨a, b, hab⟩ := List.append_of_mem h2
    have hchain : (y :: t).reverse.IsChain g.E := by
      rw [List.isChain_reverse]
      exact h6.imp fun _ _ h' => sub_left h h'
    have hsplit : (y :: t).reverse = b.reverse ++ (y :: a.reverse ++ [y]) := by
      rw [hab]; simp
    have hcyc : IsCycle g.E (y :: a.reverse ++ [y]) := by
      refine ⟨by simp, ?_, by rw [List.getLast?_concat]; rfl⟩
      rw [hsplit] at hchain
      exact hchain.right_of_append
    refine ⟨fun hno => ?_, fun _ => ⟨b.reverse, y :: a.reverse ++ [y], ?_, ?_, ?_, hcyc, ?_⟩⟩
    · exfalso
      apply hno
      refine ⟨y, ?_, ?_⟩
      · have hpw := List.pairwise_reverse.1 (pairwise_of_chain hchain)
        rw [List.pairwise_cons] at hpw
        exact (hpw.1 start (by rw [← ht']; simp)).to_reflTransGen
      · have hpw := List.pairwise_reverse.1 (pairwise_of_chain hchain)
        rw [List.pairwise_cons] at hpw
        exact hpw.1 y h2
    · rw [htry, hfind, ← hsplit]
      rw [if_neg (by simp)]
      rfl
    · rw [← hsplit]; exact hchain
    · rw [← hsplit, ← ht']; simp
    · have : (b.reverse ++ (y :: a.reverse ++ [y]).tail) = b.reverse ++ (a.reverse ++ [y]) := rfl
      rw [this]
      have hn : (b.reverse ++ y :: a.reverse).Nodup := by
        have := List.nodup_reverse.2 h3
        rw [hab] at this
        simpa using this
      refine (List.Perm.nodup_iff ?_).1 hn
      exact List.Perm.append_left _ (by
        simpa using (List.perm_append_comm (l₁ := [y]) (l₂ := a.reverse)))

/-! ## C50 -/

/-- The graph built from a list of nodes and edges without self loops. -/
theorem graph_of_cmds (dflt : D) (cs : List (Cmd L)) (hne : ∀ a b, IsEdge cs a b → a ≠ b) :
    ∃ g : Graph L D, build dflt cs (Graph.empty dflt) = some g ∧ Wf g ∧ g.E = IsEdge cs := by
  obtain ⟨g, h1, h2, -, h3, h4⟩ := build_some (dflt := dflt) cs (Graph.empty dflt) (wf_empty dflt) hne
  refine ⟨g, h1, h2, ?_⟩
  funext a b
  apply propext
  rw [Graph.E, h3]
  simp [Graph.empty]

/-- C50 for graphs: sorting a graph with a cycle reports a cycle. -/
def C50_claim (chk : Bool) : Prop :=
  ∀ (cs : List (Cmd Nat)) (g : Graph Nat Unit), build () cs (Graph.empty ()) = some g →
    ¬ Acyclic (IsEdge cs) → ∃ l, trySort chk true (fun a b => decide (a ≤ b)) g = some (.cycles l) ∧
      IsCycle (IsEdge cs) l

/-- The code violates C50: for three mutually recursive functions the report is `0, 1, 4, 1`. -/
theorem C50_claim_false (chk : Bool) : ¬ C50_claim chk := by
  intro h
  have hb : ∃ g, build () [.edge 0 1, .edge 1 4, .edge 4 1, .edge 1 0] (Graph.empty ()) = some g ∧
      trySort chk true (fun a b : Nat => decide (a ≤ b)) g = some (.cycles [0, 1, 4, 1]) :=
    ⟨_, rfl, by cases chk <;> decide +kernel⟩
  obtain ⟨g, hg, h2⟩ := hb
  obtain ⟨l, hl, -, -, hlast⟩ := h [.edge 0 1, .edge 1 4, .edge 4 1, .edge 1 0] g hg (by
    intro ha
    exact ha 1 (TransGen.tail (TransGen.single (b := 4) (by simp [IsEdge])) (by simp [IsEdge])))
  have he : l = [0, 1, 4, 1] := by
    rw [h2] at hl
    cases hl
    rfl
  subst he
  simp at hlast

/-- **C50**, exact behaviour. Let `start` be the first node with an edge that is on a cycle or behind
one. If no cycle can be reached from `start` the report is empty (a panic in debug builds). Otherwise
the report is a walk from `start` that runs into a cycle and around it once. -/
theorem C50_report (chk : Bool) (le : L → L → Bool)
    (htr : ∀ a b c, le a b = true → le b c = true → le a c = true)
    (htot : ∀ a b, (le a b || le b a) = true) (dflt : D) (cs : List (Cmd L))
    (hne : ∀ a b, IsEdge cs a b → a ≠ b) (hc : ¬ Acyclic (IsEdge cs)) :
    ∃ (g : Graph L D) (start : L), build dflt cs (Graph.empty dflt) = some g ∧
      Least le (Behind (IsEdge cs)) start ∧
      ((¬ ∃ c, ReflTransGen (IsEdge cs) start c ∧ TransGen (IsEdge cs) c c) →
        trySort chk true le g = if chk then none else some (.cycles [])) ∧
      ((∃ c, ReflTransGen (IsEdge cs) start c ∧ TransGen (IsEdge cs) c c) → ∃ pre cyc,
        trySort chk true le g = some (.cycles (pre ++ cyc)) ∧ (pre ++ cyc).IsChain (IsEdge cs) ∧
        (pre ++ cyc).head? = some start ∧ IsCycle (IsEdge cs) cyc ∧ (pre ++ cyc.tail).Nodup) := by
  obtain ⟨g, h1, h2, h3⟩ := graph_of_cmds dflt cs hne
  obtain ⟨start, h⟩ := trySort_cycles chk le htr htot h2 (by rw [h3]; exact hc)
  rw [h3] at h
  exact ⟨g, start, h1, h⟩

/-- **C50**, the part that holds: when `start` is on a cycle and every cycle that can be reached from
it passes through it, the report is a cycle. Missing: all other cyclic graphs, where the report may
be empty or begin with functions that are not on the cycle. -/
theorem C50_cycle_partial (chk : Bool) (le : L → L → Bool)
    (htr : ∀ a b c, le a b = true → le b c = true → le a c = true)
    (hanti : ∀ a b, le a b = true → le b a = true → a = b)
    (htot : ∀ a b, (le a b || le b a) = true) (dflt : D) (cs : List (Cmd L))
    (hne : ∀ a b, IsEdge cs a b → a ≠ b) (start : L) (hs : Least le (Behind (IsEdge cs)) start)
    (hon : TransGen (IsEdge cs) start start)
    (hall : ∀ c, IsCycle (IsEdge cs) c → (∃ x ∈ c, ReflTransGen (IsEdge cs) start x) → start ∈ c) :
    ∃ (g : Graph L D) (l : List L), build dflt cs (Graph.empty dflt) = some g ∧
      trySort chk true le g = some (.cycles l) ∧ IsCycle (IsEdge cs) l ∧ l.head? = some start := by
  obtain ⟨g, start', h1, h2, -, h4⟩ := C50_report (D := D) chk le htr htot dflt cs hne (fun ha => ha _ hon)
  have : start' = start := hanti _ _ (h2.2 _ hs.1) (hs.2 _ h2.1)
  subst this
  obtain ⟨pre, cyc, e1, e2, e3, e4, e5⟩ := h4 ⟨start', .refl, hon⟩
  refine ⟨g, pre ++ cyc, h1, e1, ?_, e3⟩
  have hcyc := e4
  obtain ⟨f1, f2, f3⟩ := e4
  cases cyc with
  | nil => simp at f1
  | cons y t =>
    have hlast : t ≠ [] := by rintro rfl; simp at f1
    have hyt : y ∈ t := by
      have : (y :: t).getLast? = t.getLast? := by
        rw [List.getLast?_cons]
        cases t with
        | nil => exact absurd rfl hlast
        | cons z t => simp [List.getLast?_cons]
      rw [this] at f3
      exact List.mem_of_getLast? f3.symm
    cases pre with
    | nil => exact hcyc
    | cons z pre =>
      have hz : z = start' := by simpa using e3
      subst hz
      have hzy : ReflTransGen (IsEdge cs) z y := by
        have := pairwise_of_chain e2
        rw [List.cons_append, List.pairwise_cons] at this
        exact (this.1 y (by simp)).to_reflTransGen
      have hzin := hall _ hcyc ⟨y, List.mem_cons_self, hzy⟩
      exfalso
      have hzt : z ∈ t := by
        rcases List.mem_cons.1 hzin with rfl | h
        · exact hyt
        · exact h
      have hnd : (z :: (pre ++ t)).Nodup := e5
      exact (List.nodup_cons.1 hnd).1 (List.mem_append_right _ hzt)

/-- Non-vacuity of the hypotheses of C50: two functions calling each other, with a caller and a
callee outside the cycle. -/
example : ∃ g : Graph Nat Unit,
    build () [.edge 0 1, .edge 1 2, .edge 2 1, .edge 2 3] (Graph.empty ()) = some g ∧
      trySort true true (fun a b => decide (a ≤ b)) g = some (.cycles [1, 2, 1]) :=
  ⟨_, rfl, by decide +kernel⟩

/-- A report that is empty although there is a cycle (release builds), and the panic of debug
builds. -/
example : ∃ g : Graph Nat Unit,
    build () [.edge 1 2, .edge 2 1, .edge 1 0, .edge 0 3] (Graph.empty ()) = some g ∧
      trySort false true (fun a b => decide (a ≤ b)) g = some (.cycles []) ∧
      trySort true true (fun a b => decide (a ≤ b)) g = none :=
  ⟨_, rfl, by decide +kernel, by decide +kernel⟩

end Svm.Gas
