import Verif.Wasm.Effort
import Verif.Wasm.Pricing

/-!
# C144: how long the pricing of a program takes

Counted as in `Verif.Wasm.Effort`: iterations of `for` and `while` loops over functions, instructions, labels of a
`br_table`, blocks, nodes and edges, and calls of the graph builders. Left out are the iterators of `source_nodes` over
the nodes of a graph, and what a single operation on a map or set costs. The models of the loops over nodes have fuel;
the statements are about pricings that return, which do not run out of it.
-/

namespace Svm.Gas.Graph

variable {L D : Type} [DecidableEq L]

/-! ## Model: the path of maximal weight -/

/-- `prune_unreachable_nodes`, graph/weight.rs:53-64, with `remove_node`, graph/mod.rs:52-58. -/
def pruneEffort : List L → Graph L D → Nat
  | [], _ => 0
  | s :: ss, g => 1 + (g.out s).length +
    match g.removeNode s with
    | some g => pruneEffort ss g
    | none => 0

/-- The loop of `construct_path`, graph/weight.rs:73-80. -/
def constructEffort (d : L → NodeWeight L) (start : L) : Nat → L → Nat
  | 0, _ => 0
  | n + 1, label =>
    if label = start then 0
    else 1 +
      match (d label).depLabel with
      | some l => constructEffort d start n l
      | none => 0

/-- `compute_max_weight_path`, graph/weight.rs:16-51. -/
def maxPathEffort (chk : Bool) (g : Graph L (NodeWeight L)) (start fin : L) : Nat :=
  let g := initStart g start
  pruneEffort (g.sourceNodes.filter fun n => n ≠ start) g +
    match prune g start with
    | none => 0
    | some g =>
      loopEffort (relax chk) (g.nodes.length + 1) g [start] [] +
        match loop (relax chk) (g.nodes.length + 1) g [start] [] with
        | some (g, _) => constructEffort g.data start (g.nodes.length + 1) fin
        | none => 0

/-! ## Edges are removed once -/

/-- The number of edges that leave the nodes of a list. -/
def outSum (U : List L) (g : Graph L D) : Nat := (U.map fun a => (g.out a).length).sum

omit [DecidableEq L] in
theorem outSum_eq (U : List L) (g : Graph L D) : outSum U g = (edgesFrom g U).length := by
  induction U with
  | nil => rfl
  | cons x U ih =>
    rw [edgesFrom_cons, ← ih]
    simp [outSum]

/-- `g'` is `g` without the edges from `x`. -/
structure Cleared (x : L) (g g' : Graph L D) : Prop where
  nodes : g'.nodes = g.nodes
  other : ∀ a, a ≠ x → g'.out a = g.out a
  self : g'.out x = []

theorem outSum_cleared {x : L} {g g' : Graph L D} (h : Cleared x g g') {U : List L} (hU : U.Nodup) :
    outSum U g' + (if x ∈ U then (g.out x).length else 0) = outSum U g := by
  induction U with
  | nil => rfl
  | cons a U ih =>
    rw [List.nodup_cons] at hU
    have ih := ih hU.2
    simp only [outSum, List.map_cons, List.sum_cons] at ih ⊢
    by_cases ha : a = x
    · subst ha
      rw [if_neg hU.1] at ih
      rw [h.self, if_pos List.mem_cons_self]
      simp only [List.length_nil]
      omega
    · rw [h.other a ha]
      by_cases hx : x ∈ U
      · rw [if_pos hx] at ih
        rw [if_pos (List.mem_cons_of_mem _ hx)]
        omega
      · rw [if_neg hx] at ih
        rw [if_neg (by
          intro hc
          rcases List.mem_cons.1 hc with h1 | h1
          · exact ha h1.symm
          · exact hx h1)]
        omega

theorem removeEdge_out {g g' : Graph L D} {s d : L} (h : g.removeEdge s d = some g') :
    g'.nodes = g.nodes ∧ (∀ a, a ≠ s → g'.out a = g.out a) ∧ g'.out s = swapRemove d (g.out s) := by
  unfold removeEdge at h
  split at h
  · cases h
    exact ⟨rfl, fun a ha => upd_ne _ _ ha, upd_self _ _ _⟩
  · cases h

theorem drain_out (f : L → L → (L → D) → Option (L → D)) (src : L) : ∀ (ds rest : List L) (g : Graph L D) (q : List L)
    (g' : Graph L D) (q' : List L), (g.out src).Perm (ds ++ rest) → drain f src ds g q = some (g', q') →
    g'.nodes = g.nodes ∧ (∀ a, a ≠ src → g'.out a = g.out a) ∧ (g'.out src).Perm rest
  | [], rest, g, q, g', q', hp, h => by
    cases h
    exact ⟨rfl, fun _ _ => rfl, hp⟩
  | d :: ds, rest, g, q, g', q', hp, h => by
    simp only [drain] at h
    cases hf : f src d g.data with
    | none => rw [hf] at h; cases h
    | some dat =>
      rw [hf] at h
      replace h : (do
        let g ← removeEdge { g with data := dat } src d
        drain f src ds g (if (g.inc d).isEmpty then d :: q else q)) = some (g', q') := h
      cases hr : removeEdge { g with data := dat } src d with
      | none => rw [hr] at h; cases h
      | some g₁ =>
        rw [hr] at h
        obtain ⟨r1, r2, r3⟩ := removeEdge_out hr
        obtain ⟨i1, i2, i3⟩ := drain_out f src ds rest g₁ _ g' q' (by
          rw [r3]
          refine (swapRemove_perm d _).trans ?_
          refine ((hp.erase d).trans ?_)
          rw [List.cons_append, List.erase_cons_head]) h
        exact ⟨i1.trans r1, fun a ha => (i2 a ha).trans (r2 a ha), i3⟩

theorem drain_cleared {f : L → L → (L → D) → Option (L → D)} {src : L} {g g' : Graph L D} {q q' : List L}
    (h : drain f src (g.out src) g q = some (g', q')) : Cleared src g g' := by
  obtain ⟨h1, h2, h3⟩ := drain_out f src (g.out src) [] g q g' q' (by simp) h
  exact ⟨h1, h2, List.perm_nil.1 h3⟩

theorem removeNode_cleared {g g' : Graph L D} {s : L} (h : g.removeNode s = some g') : Cleared s g g' := by
  have key : ∀ (ds rest : List L) (g g' : Graph L D), (g.out s).Perm (ds ++ rest) →
      ds.foldlM (fun g d => g.removeEdge s d) g = some g' →
      g'.nodes = g.nodes ∧ (∀ a, a ≠ s → g'.out a = g.out a) ∧ (g'.out s).Perm rest := by
    intro ds
    induction ds with
    | nil =>
      intro rest g g' hp h
      cases h
      exact ⟨rfl, fun _ _ => rfl, hp⟩
    | cons d ds ih =>
      intro rest g g' hp h
      rw [List.foldlM_cons] at h
      cases hr : removeEdge g s d with
      | none => rw [hr] at h; cases h
      | some g₁ =>
        rw [hr] at h
        obtain ⟨r1, r2, r3⟩ := removeEdge_out hr
        obtain ⟨i1, i2, i3⟩ := ih rest g₁ g' (by
          rw [r3]
          refine (swapRemove_perm d _).trans ?_
          refine ((hp.erase d).trans ?_)
          rw [List.cons_append, List.erase_cons_head]) h
        exact ⟨i1.trans r1, fun a ha => (i2 a ha).trans (r2 a ha), i3⟩
  obtain ⟨h1, h2, h3⟩ := key (g.out s) [] g g' (by simp) h
  exact ⟨h1, h2, List.perm_nil.1 h3⟩

/-- Nodes outside of a list have no edges. -/
def Covers (U : List L) (g : Graph L D) : Prop := ∀ a, g.out a ≠ [] → a ∈ U

theorem Covers.cleared {U : List L} {x : L} {g g' : Graph L D} (h : Covers U g) (hc : Cleared x g g') :
    Covers U g' := by
  intro a ha
  by_cases e : a = x
  · subst e
    exact absurd hc.self ha
  · exact h a (by rw [← hc.other a e]; exact ha)

theorem outSum_step {U : List L} {x : L} {g g' : Graph L D} (h : Covers U g) (hU : U.Nodup) (hc : Cleared x g g') :
    outSum U g' + (g.out x).length = outSum U g := by
  have := outSum_cleared hc hU
  by_cases hx : x ∈ U
  · rwa [if_pos hx] at this
  · rw [if_neg hx] at this
    have : g.out x = [] := by
      by_contra hne
      exact hx (h x hne)
    rw [this]
    simpa using ‹_›

omit [DecidableEq L] in
theorem outSum_ge {U : List L} {g : Graph L D} (h : Covers U g) (x : L) : (g.out x).length ≤ outSum U g := by
  by_cases hx : g.out x = []
  · rw [hx]; simp
  · have hm := h x hx
    unfold outSum
    clear h hx
    induction U with
    | nil => cases hm
    | cons a U ih =>
      rw [List.map_cons, List.sum_cons]
      rcases List.mem_cons.1 hm with rfl | hm
      · omega
      · have := ih hm
        omega

theorem loopEffort_bound (f : L → L → (L → D) → Option (L → D)) {U : List L} (hU : U.Nodup) :
    ∀ (n : Nat) (g : Graph L D) (q p : List L), Covers U g →
      loopEffort f n g q p ≤ n + outSum U g ∧ ∀ g' p', loop f n g q p = some (g', p') → g'.nodes = g.nodes
  | n, g, [], p, h => by
    refine ⟨by cases n <;> simp [loopEffort], fun g' p' e => ?_⟩
    have : some (g, p) = some (g', p') := by cases n <;> exact e
    cases this
    rfl
  | 0, g, x :: q, p, h => ⟨by simp [loopEffort], fun g' p' e => by cases e⟩
  | n + 1, g, x :: q, p, h => by
    cases hd : drain f x (g.out x) g q with
    | none =>
      refine ⟨?_, fun g' p' e => ?_⟩
      · simp only [loopEffort, hd]
        have := outSum_ge h x
        omega
      · simp only [loop, hd] at e
        cases e
    | some r =>
      obtain ⟨g₁, q₁⟩ := r
      have hc := drain_cleared hd
      obtain ⟨i1, i2⟩ := loopEffort_bound f hU n g₁ q₁ (x :: p) (h.cleared hc)
      have hs := outSum_step h hU hc
      refine ⟨?_, fun g' p' e => ?_⟩
      · simp only [loopEffort, hd]
        omega
      · simp only [loop, hd] at e
        exact (i2 g' p' e).trans hc.nodes

theorem pruneEffort_bound {U : List L} (hU : U.Nodup) : ∀ (ss : List L) (g : Graph L D), Covers U g →
    pruneEffort ss g ≤ ss.length + outSum U g ∧
    ∀ g', ss.foldlM (fun g s => g.removeNode s) g = some g' →
      pruneEffort ss g + outSum U g' ≤ ss.length + outSum U g ∧ Covers U g' ∧ g'.nodes = g.nodes
  | [], g, h => by
    refine ⟨by simp [pruneEffort], fun g' e => ?_⟩
    cases e
    exact ⟨by simp [pruneEffort], h, rfl⟩
  | s :: ss, g, h => by
    rw [List.foldlM_cons]
    cases hd : g.removeNode s with
    | none =>
      refine ⟨?_, fun g' e => by cases e⟩
      simp only [pruneEffort, hd, List.length_cons]
      have := outSum_ge h s
      omega
    | some g₁ =>
      have hc := removeNode_cleared hd
      obtain ⟨i1, i2⟩ := pruneEffort_bound hU ss g₁ (h.cleared hc)
      have hs := outSum_step h hU hc
      refine ⟨?_, fun g' e => ?_⟩
      · simp only [pruneEffort, hd, List.length_cons]
        omega
      · obtain ⟨j1, j2, j3⟩ := i2 g' e
        refine ⟨?_, j2, j3.trans hc.nodes⟩
        simp only [pruneEffort, hd, List.length_cons]
        omega

theorem constructEffort_le (d : L → NodeWeight L) (start : L) : ∀ (n : Nat) (l : L), constructEffort d start n l ≤ n
  | 0, _ => Nat.le_refl _
  | n + 1, l => by
    simp only [constructEffort]
    split
    · omega
    · split
      · have := constructEffort_le d start n ‹_›
        omega
      · omega

theorem maxPathEffort_le (chk : Bool) {g : Graph L (NodeWeight L)} (hn : g.nodes.Nodup) (hc : Covers g.nodes g)
    (start fin : L) : maxPathEffort chk g start fin ≤ 3 * g.nodes.length + 2 + outSum g.nodes g := by
  have hnodes : (initStart g start).nodes = g.nodes := rfl
  have hsum : outSum g.nodes (initStart g start) = outSum g.nodes g := rfl
  have hlen : ((initStart g start).sourceNodes.filter fun n => n ≠ start).length ≤ g.nodes.length :=
    Nat.le_trans (List.length_filter_le _ _) (Nat.le_trans (List.length_filter_le _ _) (Nat.le_of_eq (by rw [hnodes])))
  obtain ⟨h1, h2⟩ := pruneEffort_bound hn ((initStart g start).sourceNodes.filter fun n => n ≠ start)
    (initStart g start) hc
  rw [hsum] at h1 h2
  unfold maxPathEffort
  dsimp only
  cases hp : prune (initStart g start) start with
  | none =>
    dsimp only
    omega
  | some g₁ =>
    obtain ⟨j1, j2, j3⟩ := h2 g₁ hp
    obtain ⟨l1, l2⟩ := loopEffort_bound (relax chk) hn (g₁.nodes.length + 1) g₁ [start] [] j2
    have hn1 : g₁.nodes.length = g.nodes.length := by rw [j3, hnodes]
    dsimp only
    cases hl : loop (relax chk) (g₁.nodes.length + 1) g₁ [start] [] with
    | none =>
      show _ + (_ + 0) ≤ _
      omega
    | some r =>
      obtain ⟨g₂, q⟩ := r
      have hn2 : g₂.nodes.length = g₁.nodes.length := by rw [l2 g₂ q hl]
      have := constructEffort_le g₂.data start (g₂.nodes.length + 1) fin
      show _ + (_ + constructEffort g₂.data start (g₂.nodes.length + 1) fin) ≤ _
      omega

end Svm.Gas.Graph

namespace Svm.Wasm

open Svm.Gas (Graph upd upd_self upd_ne buildWeighted)
open Svm.Gas.Graph

/-! ## Model -/

/-- The jumps that `on_jump` adds for an instruction, cfg/mod.rs:384-413. -/
def jumpCount : Op → Nat
  | .ret | .unreachable | .br _ | .brIf _ => 1
  | .brTable ls _ => ls.length + 1
  | _ => 0

/-- The jumps that `resolve_jumps` goes through for an instruction, cfg/builder.rs:247-254. -/
def resolvedBy (s : Builder) : Op → Nat
  | .end_ => (s.jumps.filter fun j => j.1 = s.depth - 1).length
  | _ => 0

/-- The loop of `build_func_cfg`, cfg/mod.rs:323-332. -/
def cfgEffort (chk : Bool) (s : Builder) : List Op → Nat
  | [] => 0
  | op :: ops => 1 + jumpCount op + resolvedBy s op +
    match s.step chk op with
    | some s => cfgEffort chk s ops
    | none => 0

/-- The instructions in all blocks. -/
def opsTotal (num : Nat) (ops : Nat → List Op) : Nat := ((List.range (num + 1)).map fun b => (ops b).length).sum

/-- `build_weighted_graph`, pricing/cfg.rs:28-58 (the blocks and their instructions, then the blocks and their edges),
and `compute_max_weight_path`. -/
def flowEffort (chk : Bool) (res : Resolver) (p : Program) (prices : Nat → Option Nat) (g : Flow) : Nat :=
  let w := fun b => blockPrice chk res p prices (g.ops b)
  (g.num + 1) + opsTotal g.num g.ops + (g.num + 1) + g.edges.length +
    match buildWeighted (flowCmds g.num g.edges) (fun b => if b ≤ g.num then (w b).getD 0 else 0) with
    | some wg => maxPathEffort chk wg 0 g.num
    | none => 0

/-- `compute_func_price`, pricing/mod.rs:148-166; the blocks are counted once for `CFGBuilder::build`,
cfg/builder.rs:277-287. -/
def funcEffort (chk : Bool) (res : Resolver) (p : Program) (prices : Nat → Option Nat) (f : Nat) : Nat :=
  match p.getFunc f with
  | none => 0
  | some ops => cfgEffort chk Builder.new ops +
    match Builder.new.steps chk ops with
    | some s => (s.num + 1) + flowEffort chk res p prices s.flow
    | none => 0

/-- The loop in `on_end`, pricing/mod.rs:106-110. -/
def pricesEffort (chk : Bool) (res : Resolver) (p : Program) : List Nat → (Nat → Option Nat) → Nat
  | [], _ => 0
  | f :: fs, prices => 1 + funcEffort chk res p prices f +
    match setPrice chk res p prices f with
    | some prices => pricesEffort chk res p fs prices
    | none => 0

/-- `ProgramPricing::run`, pricing/mod.rs:70-75: the visits of functions and instructions, the calls of the graph
builder, the sort, and the prices of the functions. -/
def priceEffort (chk : Bool) (res : Resolver) (p : Program) : Nat :=
  volume p + (pricingCmds p).length +
    match build () (pricingCmds p) (Graph.empty ()) with
    | none => 0
    | some g => sortEffort chk false (fun a b => decide (a ≤ b)) g +
      match topoSort chk (fun a b => decide (a ≤ b)) g with
      | some sorted => pricesEffort chk res p sorted.reverse fun _ => none
      | none => 0

/-! ## Specification -/

/-- The size of an instruction: one, and one more for every label of a table. -/
def opSize : Op → Nat
  | .brTable ls _ => ls.length + 2
  | _ => 1

/-- The size of a function. -/
def bodySize (ops : List Op) : Nat := (ops.map opSize).sum

/-- The size of a program. -/
def extent (p : Program) : Nat := (p.functions.map fun ops => bodySize ops + 1).sum

/-! ## The control flow graph -/

theorem opsTotal_succ (n : Nat) (ops : Nat → List Op) : opsTotal (n + 1) (upd ops (n + 1) []) = opsTotal n ops := by
  unfold opsTotal
  rw [List.range_succ (n := n + 1), List.map_append, List.sum_append]
  simp only [List.map_cons, List.map_nil, List.sum_cons, List.sum_nil, upd_self, List.length_nil, Nat.add_zero]
  congr 1
  apply List.map_congr_left
  intro b hb
  rw [List.mem_range] at hb
  rw [upd_ne _ _ (by omega)]

theorem opsTotal_append (n : Nat) (ops : Nat → List Op) (op : Op) :
    opsTotal n (upd ops n (ops n ++ [op])) = opsTotal n ops + 1 := by
  unfold opsTotal
  rw [List.range_succ, List.map_append, List.sum_append, List.map_append, List.sum_append]
  simp only [List.map_cons, List.map_nil, List.sum_cons, List.sum_nil, upd_self, List.length_append, List.length_cons,
    List.length_nil, Nat.add_zero]
  have : (List.range n).map (fun b => (upd ops n (ops n ++ [op]) b).length) = (List.range n).map fun b => (ops b).length := by
    apply List.map_congr_left
    intro b hb
    rw [List.mem_range] at hb
    rw [upd_ne _ _ (by omega)]
  rw [this]
  omega

/-- What one instruction adds. -/
structure Grows (op : Op) (s s' : Builder) : Prop where
  jumps : s'.jumps.length + resolvedBy s op ≤ s.jumps.length + jumpCount op
  edges : s'.edges.length + s'.jumps.length ≤ s.edges.length + s.jumps.length + jumpCount op + 2
  num : s'.num ≤ s.num + 1
  ops : opsTotal s'.num s'.ops ≤ opsTotal s.num s.ops + 1

theorem addJumps_some (depth origin : Nat) : ∀ (ls : List Nat) (s s' : Builder),
    s.addJumps depth origin ls = some s' → s'.jumps.length = s.jumps.length + ls.length ∧ s'.edges = s.edges ∧
      s'.num = s.num ∧ s'.ops = s.ops
  | [], s, s', h => by cases h; exact ⟨rfl, rfl, rfl, rfl⟩
  | l :: ls, s, s', h => by
    simp only [Builder.addJumps] at h
    cases ht : Builder.targetDepth depth l with
    | none => rw [ht] at h; cases h
    | some t =>
      rw [ht] at h
      obtain ⟨h1, h2, h3, h4⟩ := addJumps_some depth origin ls _ s' h
      refine ⟨?_, h2, h3, h4⟩
      rw [h1]
      simp only [Builder.addJump, List.length_append, List.length_cons, List.length_nil]
      omega

/-- Leaving a scope turns its jumps into edges. -/
theorem resolve_grows (s : Builder) (d : Nat) (nb : Bool) :
    (s.resolveJumps d nb).jumps.length + (s.jumps.filter fun j => j.1 = d).length = s.jumps.length ∧
    (s.resolveJumps d nb).edges.length + (s.resolveJumps d nb).jumps.length ≤
      s.edges.length + s.jumps.length + (if nb then 1 else 0) ∧
    (s.resolveJumps d nb).num ≤ s.num + (if nb then 1 else 0) ∧
    opsTotal (s.resolveJumps d nb).num (s.resolveJumps d nb).ops = opsTotal s.num s.ops := by
  have hsplit : (s.jumps.filter fun j => j.1 = d).length + (s.jumps.filter fun j => j.1 ≠ d).length = s.jumps.length := by
    have := List.length_eq_length_filter_add (l := s.jumps) (fun j => decide (j.1 = d))
    rw [this]
    congr 2
    apply List.filter_congr
    intro j _
    simp
  unfold Builder.resolveJumps
  dsimp only
  split
  · rename_i he
    rw [List.isEmpty_iff] at he
    rw [he]
    exact ⟨rfl, by omega, by omega, rfl⟩
  · cases nb with
    | false =>
      simp only [Bool.false_eq_true, if_false, List.length_append, List.length_map]
      refine ⟨by omega, by omega, by omega, trivial⟩
    | true =>
      simp only [if_true, Builder.createBlock, Builder.addEdge, List.length_append, List.length_map, List.length_cons,
        List.length_nil]
      exact ⟨by omega, by omega, Nat.le_refl _, opsTotal_succ _ _⟩

theorem doExit_grows (s : Builder) (nb : Bool) :
    (s.doExitScope nb).jumps.length + (s.jumps.filter fun j => j.1 = s.depth - 1).length = s.jumps.length ∧
    (s.doExitScope nb).edges.length + (s.doExitScope nb).jumps.length ≤
      s.edges.length + s.jumps.length + (if nb then 1 else 0) ∧
    (s.doExitScope nb).num ≤ s.num + (if nb then 1 else 0) ∧
    opsTotal (s.doExitScope nb).num (s.doExitScope nb).ops = opsTotal s.num s.ops :=
  resolve_grows { s with depth := s.depth - 1 } (s.depth - 1) nb

theorem exit_grows {chk : Bool} {s s' : Builder} (h : s.exitScope chk = some s') : Grows .end_ s s' := by
  have htrue : Grows .end_ s (s.doExitScope true) := by
    obtain ⟨h1, h2, h3, h4⟩ := doExit_grows s true
    simp only [if_true] at h2 h3
    exact ⟨by simp only [resolvedBy]; omega, by omega, h3, by omega⟩
  -- the end of a conditional
  have hcond : ∀ (a : Nat) (c : Nat → Option Unres),
      Grows .end_ s (((({ s.createBlock with cont := c } : Builder).addEdge s.num
        ({ s.createBlock with cont := c } : Builder).num).addEdge a
        ({ s.createBlock with cont := c } : Builder).num).doExitScope false) := by
    intro a c
    obtain ⟨h1, h2, h3, h4⟩ := doExit_grows (((({ s.createBlock with cont := c } : Builder).addEdge s.num
        ({ s.createBlock with cont := c } : Builder).num).addEdge a
        ({ s.createBlock with cont := c } : Builder).num)) false
    have hops : opsTotal (((({ s.createBlock with cont := c } : Builder).addEdge s.num
        ({ s.createBlock with cont := c } : Builder).num).addEdge a
        ({ s.createBlock with cont := c } : Builder).num)).num (((({ s.createBlock with cont := c } : Builder).addEdge s.num
        ({ s.createBlock with cont := c } : Builder).num).addEdge a
        ({ s.createBlock with cont := c } : Builder).num)).ops = opsTotal s.num s.ops := opsTotal_succ _ _
    have hedges : ((((({ s.createBlock with cont := c } : Builder).addEdge s.num
        ({ s.createBlock with cont := c } : Builder).num).addEdge a
        ({ s.createBlock with cont := c } : Builder).num)).edges).length = s.edges.length + 2 := by
      simp [Builder.addEdge, Builder.createBlock]
    have hj : (((({ s.createBlock with cont := c } : Builder).addEdge s.num
        ({ s.createBlock with cont := c } : Builder).num).addEdge a
        ({ s.createBlock with cont := c } : Builder).num)).jumps = s.jumps := rfl
    have hd : (((({ s.createBlock with cont := c } : Builder).addEdge s.num
        ({ s.createBlock with cont := c } : Builder).num).addEdge a
        ({ s.createBlock with cont := c } : Builder).num)).depth = s.depth := rfl
    have hn : (((({ s.createBlock with cont := c } : Builder).addEdge s.num
        ({ s.createBlock with cont := c } : Builder).num).addEdge a
        ({ s.createBlock with cont := c } : Builder).num)).num = s.num + 1 := rfl
    rw [hj, hd] at h1
    rw [hedges, hj] at h2
    rw [hn] at h3
    rw [hops] at h4
    simp only [Bool.false_eq_true, if_false] at h2 h3
    have hz : jumpCount .end_ = 0 := rfl
    refine ⟨?_, ?_, Nat.le_trans h3 (by omega), Nat.le_trans (Nat.le_of_eq h4) (by omega)⟩
    · refine Nat.le_trans (Nat.le_of_eq h1) (by omega)
    · refine Nat.le_trans h2 (by omega)
  unfold Builder.exitScope at h
  split at h
  · cases h
  · split at h
    · cases h; exact htrue
    · split at h
      · unfold Builder.exitElse at h
        dsimp only at h
        split at h
        · cases h
        · split at h
          · cases h
          · cases h
            exact hcond _ _
      · split at h
        · unfold Builder.exitThen at h
          dsimp only at h
          split at h
          · cases h
          · split at h
            · cases h
            · cases h
              exact hcond _ _
        · cases h; exact htrue

theorem jump_grows {s s' : Builder} {op : Op} {ls : List Nat} (hr : resolvedBy s op = 0) (hj : jumpCount op = ls.length)
    (h : s.createBlock.addJumps s.depth s.num ls = some s') : Grows op s s' ∧ s'.edges = s.edges := by
  obtain ⟨h1, h2, h3, h4⟩ := addJumps_some _ _ _ _ _ h
  have e1 : s.createBlock.jumps = s.jumps := rfl
  have e2 : s.createBlock.edges = s.edges := rfl
  have e3 : s.createBlock.num = s.num + 1 := rfl
  have e4 : s.createBlock.ops = upd s.ops (s.num + 1) [] := rfl
  rw [e1] at h1
  rw [e2] at h2
  rw [e3] at h3
  rw [e4] at h4
  refine ⟨⟨by omega, by rw [h2]; omega, by omega, ?_⟩, h2⟩
  rw [h3, h4, opsTotal_succ]
  omega

theorem append_grows {s : Builder} {op : Op} (hr : resolvedBy s op = 0) : Grows op s (s.append op) :=
  ⟨by simp only [Builder.append]; omega, by simp only [Builder.append]; omega, by simp [Builder.append],
    Nat.le_of_eq (opsTotal_append _ _ _)⟩

theorem step_grows {chk : Bool} {s s' : Builder} {op : Op} (h : s.step chk op = some s') : Grows op s s' := by
  have hret : ∀ op, resolvedBy s op = 0 → jumpCount op = 1 → Grows op s (s.createBlock.addJump s.num 0) := by
    intro op h1 h2
    refine ⟨?_, ?_, Nat.le_refl _, ?_⟩
    · simp only [Builder.addJump, Builder.createBlock, List.length_append, List.length_cons, List.length_nil]; omega
    · simp only [Builder.addJump, Builder.createBlock, List.length_append, List.length_cons, List.length_nil]; omega
    · show opsTotal (s.num + 1) (upd s.ops (s.num + 1) []) ≤ _
      rw [opsTotal_succ]; omega
  cases op with
  | ret => cases h; exact hret _ rfl rfl
  | unreachable => cases h; exact hret _ rfl rfl
  | br l => exact (jump_grows (ls := [l]) rfl rfl h).1
  | brIf l =>
    simp only [Builder.step] at h
    cases ha : s.createBlock.addJumps s.depth s.num [l] with
    | none => rw [ha] at h; cases h
    | some s₁ =>
      rw [ha] at h
      cases h
      obtain ⟨hg, he⟩ := jump_grows (op := .brIf l) (ls := [l]) rfl rfl ha
      obtain ⟨h1, h2, h3, h4⟩ := addJumps_some _ _ _ _ _ ha
      refine ⟨hg.jumps, ?_, hg.num, hg.ops⟩
      have := hg.jumps
      simp only [resolvedBy, jumpCount] at this ⊢
      simp only [Builder.addEdge, List.length_append, List.length_cons, List.length_nil, he]
      omega
  | brTable ls d => exact (jump_grows (ls := d :: ls) rfl (by simp [jumpCount]) h).1
  | if_ =>
    cases h
    refine ⟨?_, ?_, Nat.le_refl _, ?_⟩
    · simp [Builder.enterIf, Builder.createBlock, Builder.addEdge, Builder.enterScope, resolvedBy, jumpCount]
    · simp only [Builder.enterIf, Builder.createBlock, Builder.addEdge, Builder.enterScope, jumpCount, List.length_append,
        List.length_cons, List.length_nil]
      omega
    · show opsTotal (s.num + 1) (upd s.ops (s.num + 1) []) ≤ _
      rw [opsTotal_succ]; omega
  | else_ =>
    simp only [Builder.step, Builder.enterElse] at h
    split at h
    · cases h
    · split at h
      · cases h
      · split at h
        · cases h
        · split at h
          · cases h
          · split at h
            · cases h
            · cases h
              refine ⟨?_, ?_, Nat.le_refl _, ?_⟩
              · simp [Builder.createBlock, Builder.addEdge, resolvedBy, jumpCount]
              · simp only [Builder.createBlock, Builder.addEdge, jumpCount, List.length_append,
                  List.length_cons, List.length_nil]
                omega
              · show opsTotal (s.num + 1) (upd s.ops (s.num + 1) []) ≤ _
                rw [opsTotal_succ]; omega
  | block =>
    cases h
    exact append_grows (s := { s with depth := s.depth + 1 }) (op := .block) rfl |> fun g => ⟨g.jumps, g.edges, g.num, g.ops⟩
  | end_ => exact exit_grows h
  | _ => cases h; exact append_grows rfl

theorem jumpCount_le (op : Op) : 1 + 2 * jumpCount op ≤ 3 * opSize op ∧ jumpCount op ≤ opSize op ∧ 1 ≤ opSize op := by
  cases op <;> simp only [jumpCount, opSize] <;> omega

theorem cfgEffort_le (chk : Bool) : ∀ (ops : List Op) (s : Builder),
    cfgEffort chk s ops ≤ s.jumps.length + 3 * bodySize ops
  | [], s => by simp [cfgEffort]
  | op :: ops, s => by
    have hj := jumpCount_le op
    have hb : bodySize (op :: ops) = opSize op + bodySize ops := by simp [bodySize]
    rw [hb]
    have hres : resolvedBy s op ≤ s.jumps.length := by
      cases op with
      | end_ => exact List.length_filter_le _ _
      | _ => exact Nat.zero_le _
    simp only [cfgEffort]
    cases hs : s.step chk op with
    | none =>
      dsimp only
      omega
    | some s' =>
      have := cfgEffort_le chk ops s'
      have hg := (step_grows hs).jumps
      dsimp only
      omega

theorem steps_grow {chk : Bool} : ∀ (ops : List Op) (s s' : Builder), s.steps chk ops = some s' →
    s'.edges.length + s'.jumps.length ≤ s.edges.length + s.jumps.length + 3 * bodySize ops ∧
    s'.num ≤ s.num + bodySize ops ∧ opsTotal s'.num s'.ops ≤ opsTotal s.num s.ops + bodySize ops
  | [], s, s', h => by cases h; exact ⟨by omega, by omega, by omega⟩
  | op :: ops, s, s', h => by
    have hj := jumpCount_le op
    have hb : bodySize (op :: ops) = opSize op + bodySize ops := by simp [bodySize]
    rw [hb]
    simp only [Builder.steps] at h
    cases hs : s.step chk op with
    | none => rw [hs] at h; cases h
    | some s₁ =>
      rw [hs] at h
      obtain ⟨h1, h2, h3⟩ := steps_grow ops s₁ s' h
      obtain ⟨g1, g2, g3, g4⟩ := step_grows hs
      exact ⟨by omega, by omega, by omega⟩

/-! ## Functions -/

theorem mem_flowCmds_edge {num : Nat} {edges : List (Nat × Nat)} {a b : Nat} (h : IsEdge (flowCmds num edges) a b) :
    (a, b) ∈ edges := by
  unfold IsEdge flowCmds at h
  rw [List.mem_append] at h
  rcases h with h | h
  · obtain ⟨x, -, hx⟩ := List.mem_map.1 h
    cases hx
  · obtain ⟨x, -, hx⟩ := List.mem_flatMap.1 h
    obtain ⟨e, he, hh⟩ := List.mem_map.1 hx
    cases hh
    exact (List.mem_filter.1 he).1

theorem flowEffort_le (chk : Bool) (res : Resolver) (p : Program) (prices : Nat → Option Nat) (g : Flow) :
    flowEffort chk res p prices g ≤ 5 * (g.num + 1) + opsTotal g.num g.ops + 8 * g.edges.length + 2 := by
  unfold flowEffort
  dsimp only
  split
  · rename_i wg hw
    have hne : ∀ a b, IsEdge (flowCmds g.num g.edges) a b → a ≠ b := by
      rintro a b hab rfl
      unfold buildWeighted at hw
      rw [build_self a _ _ hab] at hw
      cases hw
    obtain ⟨g₀, h1, h2, h3, h4⟩ := Svm.Gas.buildWeighted_some (flowCmds g.num g.edges) (fun b => if b ≤ g.num then
      (blockPrice chk res p prices (g.ops b)).getD 0 else 0) hne
    rw [h1] at hw
    cases hw
    have hsum : outSum g₀.nodes g₀ ≤ g.edges.length := by
      rw [outSum_eq]
      refine (List.subperm_of_subset (edgesFrom_nodup h2 h2.nodup) ?_).length_le
      rintro ⟨a, b⟩ hx
      obtain ⟨z, -, hy⟩ := List.mem_flatMap.1 hx
      obtain ⟨w, hw, hzw⟩ := List.mem_map.1 hy
      cases hzw
      apply mem_flowCmds_edge (num := g.num)
      rw [← h3]
      exact hw
    have hnodes : g₀.nodes.length ≤ (g.num + 1) + 2 * g.edges.length := by
      have : g₀.nodes.length ≤ (List.range (g.num + 1) ++ (g.edges.map (·.1) ++ g.edges.map (·.2))).length := by
        refine (List.subperm_of_subset h2.nodup ?_).length_le
        intro x hx
        rw [h4] at hx
        rw [List.mem_append, List.mem_append]
        rcases hx with hx | ⟨b, hb⟩ | ⟨b, hb⟩
        · left
          unfold flowCmds at hx
          rw [List.mem_append] at hx
          rcases hx with hx | hx
          · obtain ⟨y, hy, hyx⟩ := List.mem_map.1 hx
            cases hyx
            exact hy
          · obtain ⟨y, -, hy⟩ := List.mem_flatMap.1 hx
            obtain ⟨e, -, he⟩ := List.mem_map.1 hy
            cases he
        · exact .inr (.inl (List.mem_map.2 ⟨_, mem_flowCmds_edge hb, rfl⟩))
        · exact .inr (.inr (List.mem_map.2 ⟨_, mem_flowCmds_edge hb, rfl⟩))
      simp only [List.length_append, List.length_range, List.length_map] at this
      omega
    have hcov : Covers (weighted g₀ fun b => if b ≤ g.num then
        (blockPrice chk res p prices (g.ops b)).getD 0 else 0).nodes (weighted g₀ fun b => if b ≤ g.num then
        (blockPrice chk res p prices (g.ops b)).getD 0 else 0) := by
      intro a ha
      obtain ⟨b, hb⟩ := List.exists_mem_of_ne_nil _ ha
      exact (h2.mem a b hb).1
    have hm := maxPathEffort_le chk (g := weighted g₀ fun b => if b ≤ g.num then
        (blockPrice chk res p prices (g.ops b)).getD 0 else 0) h2.nodup hcov 0 g.num
    have e1 : (weighted g₀ fun b => if b ≤ g.num then
        (blockPrice chk res p prices (g.ops b)).getD 0 else 0).nodes = g₀.nodes := rfl
    have e2 : outSum g₀.nodes (weighted g₀ fun b => if b ≤ g.num then
        (blockPrice chk res p prices (g.ops b)).getD 0 else 0) = outSum g₀.nodes g₀ := rfl
    rw [e1, e2] at hm
    omega
  · omega

theorem funcEffort_le (chk : Bool) (res : Resolver) (p : Program) (prices : Nat → Option Nat) (f : Nat) :
    funcEffort chk res p prices f ≤ match p.getFunc f with
      | none => 0
      | some ops => 34 * bodySize ops + 22 := by
  unfold funcEffort
  cases p.getFunc f with
  | none => exact Nat.le_refl _
  | some ops =>
    dsimp only
    have h1 := cfgEffort_le chk ops Builder.new
    have e1 : Builder.new.jumps.length = 0 := rfl
    have e2 : Builder.new.edges.length = 1 := rfl
    have e3 : Builder.new.num = 1 := rfl
    have e4 : opsTotal Builder.new.num Builder.new.ops = 0 := rfl
    cases hs : Builder.new.steps chk ops with
    | none =>
      show _ + 0 ≤ 34 * bodySize ops + 22
      omega
    | some s =>
      obtain ⟨g1, g2, g3⟩ := steps_grow ops _ _ hs
      have h2 := flowEffort_le chk res p prices s.flow
      have f1 : s.flow.num = s.num := rfl
      have f2 : s.flow.ops = s.ops := rfl
      have f3 : s.flow.edges = s.edges := rfl
      rw [f1, f2, f3] at h2
      show _ + ((s.num + 1) + _) ≤ 34 * bodySize ops + 22
      omega

/-! ## Programs -/

/-- The size of the function with a number, if there is one. -/
def sizeAt (p : Program) (f : Nat) : Nat :=
  match p.getFunc f with
  | none => 0
  | some ops => bodySize ops + 1

theorem pricesEffort_le (chk : Bool) (res : Resolver) (p : Program) : ∀ (fs : List Nat) (prices : Nat → Option Nat),
    (∀ f ∈ fs, (p.getFunc f).isSome) → pricesEffort chk res p fs prices ≤ 34 * (fs.map (sizeAt p)).sum
  | [], _, _ => by simp [pricesEffort]
  | f :: fs, prices, h => by
    have h1 := funcEffort_le chk res p prices f
    obtain ⟨ops, ho⟩ := Option.isSome_iff_exists.1 (h f List.mem_cons_self)
    rw [ho] at h1
    replace h1 : funcEffort chk res p prices f ≤ 34 * bodySize ops + 22 := h1
    have hs : sizeAt p f = bodySize ops + 1 := by unfold sizeAt; rw [ho]
    simp only [pricesEffort, List.map_cons, List.sum_cons, hs]
    cases hp : setPrice chk res p prices f with
    | none =>
      dsimp only
      omega
    | some prices' =>
      have := pricesEffort_le chk res p fs prices' (fun f hf => h f (List.mem_cons_of_mem _ hf))
      dsimp only
      omega

theorem sizeAt_sum (p : Program) : (p.funcIndexes.map (sizeAt p)).sum = extent p := by
  have : p.funcIndexes.map (sizeAt p) = p.functions.map fun ops => bodySize ops + 1 := by
    apply List.ext_getElem?
    intro i
    unfold Program.funcIndexes
    rw [List.getElem?_map, List.getElem?_map, List.getElem?_map]
    by_cases hi : i < p.functions.length
    · rw [List.getElem?_range hi]
      simp only [Option.map_some, sizeAt, Program.getFunc]
      rw [if_neg (by omega), Nat.add_sub_cancel, List.getElem?_eq_getElem hi]
      rfl
    · rw [List.getElem?_eq_none (by simpa using hi), List.getElem?_eq_none (by simpa using hi)]
      rfl
  rw [this]
  rfl

theorem sum_subperm {l l' : List Nat} (f : Nat → Nat) (hn : l.Nodup) (h : ∀ x ∈ l, x ∈ l') :
    (l.map f).sum ≤ (l'.map f).sum := by
  obtain ⟨m, hm, hs⟩ := List.subperm_of_subset hn h
  rw [← (hm.map f).sum_nat]
  clear hm hn h
  induction hs with
  | slnil => exact Nat.le_refl _
  | cons a _ ih => rw [List.map_cons, List.sum_cons]; omega
  | cons_cons a _ ih => rw [List.map_cons, List.sum_cons, List.map_cons, List.sum_cons]; omega

theorem volume_le (p : Program) : volume p ≤ extent p := by
  unfold volume extent
  have key : ∀ l : List (List Op), (l.map fun ops => ops.length + 1).sum ≤ (l.map fun ops => bodySize ops + 1).sum := by
    intro l
    induction l with
    | nil => exact Nat.le_refl _
    | cons ops l ih =>
      have : ops.length ≤ bodySize ops := by
        clear ih
        induction ops with
        | nil => exact Nat.le_refl _
        | cons op ops ih =>
          have := jumpCount_le op
          simp only [bodySize, List.map_cons, List.sum_cons, List.length_cons] at ih ⊢
          omega
      simp only [List.map_cons, List.sum_cons]
      omega
  exact key _

theorem pricingCmds_length (p : Program) : (pricingCmds p).length ≤ volume p := by
  unfold pricingCmds volume
  have key : ∀ (is : List Nat) (bodies : List (List Op)),
      ((is.zip bodies).flatMap fun x => Cmd.node x.1 :: callCmds p x.1 x.2).length ≤
        (bodies.map fun ops => ops.length + 1).sum := by
    intro is
    induction is with
    | nil => intro bodies; simp
    | cons i is ih =>
      intro bodies
      cases bodies with
      | nil => simp
      | cons ops bodies =>
        have h1 := ih bodies
        have h2 : (callCmds p i ops).length ≤ ops.length := List.length_filterMap_le _ _
        rw [List.zip_cons_cons, List.flatMap_cons, List.length_append, List.length_cons, List.map_cons, List.sum_cons]
        dsimp only
        omega
  exact key _ _

theorem setPrice_defined {chk : Bool} {res : Resolver} {p : Program} : ∀ (fs : List Nat) (prices prices' : Nat → Option Nat),
    fs.foldlM (setPrice chk res p) prices = some prices' → ∀ f ∈ fs, (p.getFunc f).isSome
  | [], _, _, _, f, hf => by cases hf
  | x :: fs, prices, prices', h, f, hf => by
    rw [List.foldlM_cons] at h
    cases hs : setPrice chk res p prices x with
    | none => rw [hs] at h; cases h
    | some prices₁ =>
      rw [hs] at h
      rcases List.mem_cons.1 hf with rfl | hf
      · unfold setPrice funcPrice at hs
        cases hg : p.getFunc f with
        | none => rw [hg] at hs; cases hs
        | some ops => rfl
      · exact setPrice_defined fs prices₁ prices' h f hf

/-- **C144** Pricing a program takes time linear in its size: whenever a program gets prices, with any resolver and in any
build, the number of steps is at most 40 times the number of its functions, instructions and labels. -/
theorem C144_linear (chk : Bool) (res : Resolver) (p : Program) (prices : Nat → Option Nat)
    (h : priceProgram chk res p = some prices) : priceEffort chk res p ≤ 40 * extent p := by
  have hv := volume_le p
  have hc := pricingCmds_length p
  unfold priceProgram at h
  unfold priceEffort
  cases hb : build () (pricingCmds p) (Graph.empty ()) with
  | none => rw [hb] at h; cases h
  | some g =>
    rw [hb] at h
    replace h : (do
      let sorted ← topoSort chk (fun a b => decide (a ≤ b)) g
      sorted.reverse.foldlM (setPrice chk res p) fun _ => none) = some prices := h
    have hne : ∀ a b, IsEdge (pricingCmds p) a b → a ≠ b := by
      rintro a b hab rfl
      rw [build_self a _ _ hab] at hb
      cases hb
    obtain ⟨g', h1, h2, -, h3, h4⟩ := build_some (dflt := ()) (pricingCmds p) (Graph.empty ()) (wf_empty ()) hne
    rw [hb] at h1
    cases h1
    have hgE : g.E = IsEdge (pricingCmds p) := by
      funext a b
      apply propext
      rw [Graph.E, h3]
      simp [Graph.empty]
    have hN : ∀ x, x ∈ g.nodes → IsNode (pricingCmds p) x := by
      intro x
      rw [h4]
      simp [Graph.empty]
    obtain ⟨g₁, q, hr, hI⟩ := kahn_spec h2
    have hle := loopEffort_le h2 hgE hN hr hI
    have hsort : sortEffort chk false (fun a b => decide (a ≤ b)) g ≤ 3 * (pricingCmds p).length := by
      unfold sortEffort
      rw [hr]
      dsimp only
      have : deriveEffort chk false (fun a b => decide (a ≤ b)) g₁ = 0 := rfl
      rw [this]
      split <;> omega
    dsimp only
    cases ht : topoSort chk (fun a b => decide (a ≤ b)) g with
    | none => rw [ht] at h; cases h
    | some sorted =>
      rw [ht] at h
      have hnd : sorted.Nodup := by
        unfold topoSort at ht
        cases hs : trySort chk false (fun a b => decide (a ≤ b)) g with
        | none => rw [hs] at ht; cases ht
        | some r =>
          rw [hs] at ht
          cases r with
          | cycles l => cases ht
          | sorted l =>
            cases ht
            exact ((trySort_spec chk false _ h2).2.2 _ hs).2.1
      have hdef := setPrice_defined _ _ _ h
      have h5 := pricesEffort_le chk res p sorted.reverse (fun _ => none) hdef
      have h6 : (sorted.reverse.map (sizeAt p)).sum ≤ (p.funcIndexes.map (sizeAt p)).sum := by
        refine sum_subperm _ (List.nodup_reverse.2 hnd) (fun x hx => ?_)
        obtain ⟨ops, ho⟩ := Option.isSome_iff_exists.1 (hdef x hx)
        exact (List.of_mem_zip ((mem_zip_funcs p x ops).2 ho)).1
      rw [sizeAt_sum] at h6
      show _ + (_ + pricesEffort chk res p sorted.reverse fun _ => none) ≤ _
      omega

/-- Non-vacuity: a function with a table, and one that calls it. -/
example : (priceProgram true v0 ⟨[], [], [[.call 1, .end_], [.block, .brTable [0, 1, 0] 1, .end_, .end_]]⟩).isSome ∧
    extent ⟨[], [], [[.call 1, .end_], [.block, .brTable [0, 1, 0] 1, .end_, .end_]]⟩ = 12 ∧
    priceEffort true v0 ⟨[], [], [[.call 1, .end_], [.block, .brTable [0, 1, 0] 1, .end_, .end_]]⟩ = 77 := by
  refine ⟨?_, ?_, ?_⟩ <;> decide +kernel

end Svm.Wasm
