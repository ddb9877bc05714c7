import Verif.Wasm.PriceLemmas

/-!
# The price of one function
-/

namespace Svm.Wasm

open Svm.Codec (Str)
open Svm.Gas (upd upd_self upd_ne add64 Acyclic IsPath pathWeight buildWeighted buildWeighted_some)
open Svm.Gas.Graph (Cmd build topoSort maxPath IsEdge IsNode weighted Wf Clear maxPath_exact maxPath_mono
  maxPath_some_iff add64_true add64_some add64_mono)
open Relation (TransGen ReflTransGen)

/-- What an executed instruction of one function costs; calls cost the price of the function that is
called. -/
def weight (res : Resolver) (p : Program) (prices : Nat → Option Nat) (o : Op) : Nat :=
  if o.priced then (opPrice res p prices o).getD 0 else 0

variable {res : Resolver} {p : Program} {prices : Nat → Option Nat}

theorem weight_unpriced (o : Op) (h : o.priced = false) : weight res p prices o = 0 := by
  simp [weight, h]

/-! ## Blocks -/

theorem foldPrice_true (ops : List Op) (hp : ∀ o ∈ ops, o.priced = true) : ∀ (acc x : Nat),
    ops.foldlM (fun acc op => do add64 true acc (← opPrice res p prices op)) acc = some x →
    x = acc + opsCost (weight res p prices) ops ∧ (acc < 2 ^ 64 → x < 2 ^ 64) ∧
      ∀ o ∈ ops, (opPrice res p prices o).isSome := by
  induction ops with
  | nil =>
    intro acc x h
    cases h
    exact ⟨rfl, id, by simp⟩
  | cons o ops ih =>
    intro acc x h
    rw [List.forall_mem_cons] at hp
    rw [List.foldlM_cons] at h
    cases ho : opPrice res p prices o with
    | none => rw [ho] at h; cases h
    | some y =>
      rw [ho] at h
      cases ha : add64 true acc y with
      | none =>
        have : (do let __do_lift ← some y; add64 true acc __do_lift) = none := ha
        rw [this] at h; cases h
      | some z =>
        have : (do let __do_lift ← some y; add64 true acc __do_lift) = some z := ha
        rw [this] at h
        obtain ⟨rfl, hz⟩ := add64_true ha
        obtain ⟨h1, h2, h3⟩ := ih hp.2 _ _ h
        refine ⟨?_, fun _ => h2 hz, ?_⟩
        · rw [opsCost_cons]
          simp only [weight, hp.1, if_true, ho, Option.getD_some]
          omega
        · rw [List.forall_mem_cons]
          exact ⟨by rw [ho]; rfl, h3⟩

theorem blockPrice_true {ops : List Op} (hp : ∀ o ∈ ops, o.priced = true) {x : Nat}
    (h : blockPrice true res p prices ops = some x) :
    x = opsCost (weight res p prices) ops ∧ x < 2 ^ 64 ∧ ∀ o ∈ ops, (opPrice res p prices o).isSome := by
  obtain ⟨h1, h2, h3⟩ := foldPrice_true ops hp 0 x h
  exact ⟨by omega, h2 (by omega), h3⟩

theorem foldPrice_some (chk : Bool) (ops : List Op) (hp : ∀ o ∈ ops, o.priced = true)
    (hd : ∀ o ∈ ops, (opPrice res p prices o).isSome) : ∀ acc : Nat,
    (acc + opsCost (weight res p prices) ops < 2 ^ 64 →
      ops.foldlM (fun acc op => do add64 chk acc (← opPrice res p prices op)) acc =
        some (acc + opsCost (weight res p prices) ops)) ∧
    (chk = false → (ops.foldlM (fun acc op => do add64 chk acc (← opPrice res p prices op)) acc).isSome) := by
  induction ops with
  | nil => intro acc; exact ⟨fun _ => rfl, fun _ => rfl⟩
  | cons o ops ih =>
    intro acc
    rw [List.forall_mem_cons] at hp hd
    obtain ⟨y, ho⟩ := Option.isSome_iff_exists.1 hd.1
    have hw : weight res p prices o = y := by simp [weight, hp.1, ho]
    rw [List.foldlM_cons, opsCost_cons, hw, ho]
    constructor
    · intro hlt
      have ha : add64 chk acc y = some (acc + y) := add64_some (by omega)
      have : (do let __do_lift ← some y; add64 chk acc __do_lift) = some (acc + y) := ha
      rw [this]
      have := (ih hp.2 hd.2 (acc + y)).1 (by omega)
      refine Eq.trans this ?_
      congr 1
      omega
    · rintro rfl
      have : ∃ z, add64 false acc y = some z := by
        unfold add64
        split
        · exact ⟨_, rfl⟩
        · exact ⟨_, rfl⟩
      obtain ⟨z, ha⟩ := this
      have : (do let __do_lift ← some y; add64 false acc __do_lift) = some z := ha
      rw [this]
      exact (ih hp.2 hd.2 z).2 rfl

theorem blockPrice_fit (chk : Bool) {ops : List Op} (hp : ∀ o ∈ ops, o.priced = true)
    (hd : ∀ o ∈ ops, (opPrice res p prices o).isSome) (h : opsCost (weight res p prices) ops < 2 ^ 64) :
    blockPrice chk res p prices ops = some (opsCost (weight res p prices) ops) := by
  have := (foldPrice_some chk ops hp hd 0).1 (by omega)
  rw [Nat.zero_add] at this
  exact this

theorem blockPrice_none (chk : Bool) {ops : List Op} (hd : ¬ ∀ o ∈ ops, (opPrice res p prices o).isSome) :
    blockPrice chk res p prices ops = none := by
  unfold blockPrice
  generalize 0 = acc
  induction ops generalizing acc with
  | nil => simp at hd
  | cons o ops ih =>
    rw [List.foldlM_cons]
    cases ho : opPrice res p prices o with
    | none => rfl
    | some y =>
      have hd' : ¬ ∀ o ∈ ops, (opPrice res p prices o).isSome := by
        intro h
        apply hd
        rw [List.forall_mem_cons]
        exact ⟨by rw [ho]; rfl, h⟩
      cases ha : add64 chk acc y with
      | none =>
        have : (do let __do_lift ← some y; add64 chk acc __do_lift) = none := ha
        rw [this]; rfl
      | some z =>
        have : (do let __do_lift ← some y; add64 chk acc __do_lift) = some z := ha
        rw [this]
        exact ih hd' z

/-! ## Graphs -/

theorem acyclic_of_lt {E : Nat → Nat → Prop} (h : ∀ a b, E a b → a < b) : Acyclic E := by
  have : ∀ a b, TransGen E a b → a < b := by
    intro a b hab
    induction hab with
    | single he => exact h _ _ he
    | tail _ he ih => exact Nat.lt_trans ih (h _ _ he)
  intro x hx
  exact Nat.lt_irrefl _ (this x x hx)

theorem isEdge_flowCmds {g : Flow} (hg : g.Wf) : IsEdge (flowCmds g.num g.edges) = fun a b => (a, b) ∈ g.edges := by
  funext a b
  apply propext
  unfold IsEdge flowCmds
  simp only [List.mem_append, List.mem_map, List.mem_flatMap, List.mem_range, List.mem_filter, decide_eq_true_eq]
  constructor
  · rintro (⟨x, -, h⟩ | ⟨x, -, ⟨c, d⟩, ⟨h1, h2⟩, h3⟩)
    · cases h
    · cases h3
      exact h1
  · intro h
    have := hg _ h
    simp only at this
    exact .inr ⟨a, by omega, (a, b), ⟨h, rfl⟩, rfl⟩

theorem isNode_flowCmds (num : Nat) (edges : List (Nat × Nat)) {b : Nat} (h : b ≤ num) :
    IsNode (flowCmds num edges) b := by
  left
  unfold flowCmds
  rw [List.mem_append]
  left
  exact List.mem_map.2 ⟨b, List.mem_range.2 (by omega), rfl⟩

/-- The weighted graph of a control flow graph. -/
theorem flow_weighted {g : Flow} (hg : g.Wf) (W : Nat → Nat) :
    ∃ G, buildWeighted (flowCmds g.num g.edges) W = some (weighted G W) ∧ Wf G ∧
      G.E = (fun a b => (a, b) ∈ g.edges) ∧ 0 ∈ G.nodes ∧ G.inc 0 = [] ∧ Acyclic G.E := by
  have hE := isEdge_flowCmds hg
  obtain ⟨G, h1, h2, h3, h4⟩ := buildWeighted_some (flowCmds g.num g.edges) W (by
    intro a b hab
    rw [hE] at hab
    have := (hg _ hab).1
    simp only at this
    omega)
  rw [hE] at h3
  refine ⟨G, h1, h2, h3, (h4 0).2 (isNode_flowCmds _ _ (Nat.zero_le _)), ?_, ?_⟩
  · rw [List.eq_nil_iff_forall_not_mem]
    intro a ha
    have : G.E a 0 := (h2.edge a 0).2 ha
    rw [h3] at this
    have := (hg _ this).1
    simp only at this
    omega
  · rw [h3]
    exact acyclic_of_lt fun a b h => (hg _ h).1

/-- Paths go through reachable blocks. -/
theorem path_mem_total {g : Flow} {w : Op → Nat} {b : Nat} {l : List Nat}
    (hl : IsPath (fun a b => (a, b) ∈ g.edges) 0 b l) :
    ∀ x ∈ l, opsCost w (g.ops x) ≤ pathWeight (fun x => opsCost w (g.ops x)) l ∧ ∃ K, g.Total w x K := by
  induction hn : l.length generalizing l b with
  | zero =>
    rw [List.length_eq_zero_iff] at hn
    subst hn
    simp
  | succ n ih =>
    intro x hx
    have hT := (total_iff_path w g b _).2 ⟨l, hl, rfl⟩
    rcases hl.snoc with ⟨rfl, rfl⟩ | ⟨l', a, rfl, hl', he⟩
    · rw [List.mem_singleton] at hx
      subst hx
      exact ⟨by simp [pathWeight], _, hT⟩
    · rw [Svm.Gas.Graph.pathWeight_snoc] at hT ⊢
      rcases List.mem_append.1 hx with hx | hx
      · obtain ⟨h1, h2⟩ := ih hl' (by simpa using hn) x hx
        exact ⟨by omega, h2⟩
      · rw [List.mem_singleton] at hx
        subst hx
        exact ⟨by omega, _, hT⟩

/-- The maximum of the costs of paths to the last block. -/
def Flow.IsMax (w : Op → Nat) (g : Flow) (x : Nat) : Prop :=
  g.Total w g.num x ∧ ∀ K, g.Total w g.num K → K ≤ x

/-- In builds with overflow checks, a computed price is the maximum. -/
theorem flowPrice_true {g : Flow} (hg : g.Wf) (hp : g.AllPriced) {x : Nat}
    (h : flowPrice true res p prices g = some x) :
    g.IsMax (weight res p prices) x ∧ x < 2 ^ 64 ∧
      (∀ b, b ≤ g.num → opsCost (weight res p prices) (g.ops b) < 2 ^ 64) ∧
      ∀ b, b ≤ g.num → ∀ o ∈ g.ops b, (opPrice res p prices o).isSome := by
  unfold flowPrice at h
  simp only at h
  split at h
  swap
  · cases h
  rename_i hall
  have hW : ∀ b, b ≤ g.num → (blockPrice true res p prices (g.ops b)).getD 0 =
      opsCost (weight res p prices) (g.ops b) ∧ opsCost (weight res p prices) (g.ops b) < 2 ^ 64 ∧
      ∀ o ∈ g.ops b, (opPrice res p prices o).isSome := by
    intro b hb
    rw [List.all_eq_true] at hall
    obtain ⟨y, hy⟩ := Option.isSome_iff_exists.1 (hall b (List.mem_range.2 (by omega)))
    obtain ⟨h1, h2, h3⟩ := blockPrice_true (hp b) hy
    rw [hy]
    exact ⟨h1, h1 ▸ h2, h3⟩
  obtain ⟨G, h1, h2, h3, h4, h5, h6⟩ := flow_weighted hg
    fun b => if b ≤ g.num then (blockPrice true res p prices (g.ops b)).getD 0 else 0
  rw [h1] at h
  simp only [Option.bind_eq_bind, Option.bind_some] at h
  obtain ⟨r, hr, hx⟩ := Option.bind_eq_some_iff.1 h
  cases hx
  obtain ⟨l, e1, e2, e3, e4, e5⟩ := maxPath_exact h2 h5 (path := r.1) (t := r.2) hr
  rw [h3] at e2 e5
  have hpw : ∀ l, IsPath (fun a b => (a, b) ∈ g.edges) 0 g.num l →
      pathWeight (fun b => if b ≤ g.num then (blockPrice true res p prices (g.ops b)).getD 0 else 0) l =
      pathWeight (fun x => opsCost (weight res p prices) (g.ops x)) l := by
    intro l hl
    unfold pathWeight
    congr 1
    apply List.map_congr_left
    intro b hb
    obtain ⟨-, K, k, hk, -⟩ := path_mem_total (w := weight res p prices) hl b hb
    have hbn : b ≤ g.num := by
      cases hk with
      | start => omega
      | edge _ he => exact (hg _ he).2
    rw [if_pos hbn]
    exact (hW b hbn).1
  refine ⟨⟨(total_iff_path _ g _ _).2 ⟨l, e2, ?_⟩, fun K hK => ?_⟩, e4, fun b hb => (hW b hb).2.1,
    fun b hb => (hW b hb).2.2⟩
  · rw [← hpw l e2]; exact e3.symm
  · obtain ⟨l', hl', rfl⟩ := (total_iff_path _ g _ _).1 hK
    rw [← hpw l' hl']
    exact e5 l' hl'

/-- Every build, when the numbers fit. -/
theorem flowPrice_fit (chk : Bool) {g : Flow} (hg : g.Wf) (hp : g.AllPriced)
    (hd : ∀ b, b ≤ g.num → ∀ o ∈ g.ops b, (opPrice res p prices o).isSome)
    (hb : chk = true → ∀ b, b ≤ g.num → opsCost (weight res p prices) (g.ops b) < 2 ^ 64)
    (hT : ∀ b K, g.Total (weight res p prices) b K → K < 2 ^ 64) :
    (Clear (fun a b => (a, b) ∈ g.edges) 0 g.num → ∃ x, flowPrice chk res p prices g = some x ∧
      g.IsMax (weight res p prices) x) ∧
    (¬ Clear (fun a b => (a, b) ∈ g.edges) 0 g.num → flowPrice chk res p prices g = none) := by
  have hall : (List.range (g.num + 1)).all fun b => (blockPrice chk res p prices (g.ops b)).isSome := by
    rw [List.all_eq_true]
    intro b hbr
    have hbn : b ≤ g.num := by have := List.mem_range.1 hbr; omega
    cases chk with
    | true => rw [blockPrice_fit true (hp b) (hd b hbn) (hb rfl b hbn)]; rfl
    | false => exact (foldPrice_some false (g.ops b) (hp b) (hd b hbn) 0).2 rfl
  obtain ⟨G, h1, h2, h3, h4, h5, h6⟩ := flow_weighted hg
    fun b => if b ≤ g.num then (blockPrice chk res p prices (g.ops b)).getD 0 else 0
  have heq : flowPrice chk res p prices g = (do
      let r ← maxPath chk (weighted G fun b => if b ≤ g.num then (blockPrice chk res p prices (g.ops b)).getD 0 else 0) 0 g.num
      some r.2) := by
    unfold flowPrice
    simp only
    rw [if_pos hall, h1]
    rfl
  have hpw : ∀ b l, IsPath (fun a b => (a, b) ∈ g.edges) 0 b l →
      pathWeight (fun b => if b ≤ g.num then (blockPrice chk res p prices (g.ops b)).getD 0 else 0) l =
      pathWeight (fun x => opsCost (weight res p prices) (g.ops x)) l := by
    intro b l hl
    have hlt := hT b _ ((total_iff_path _ g b _).2 ⟨l, hl, rfl⟩)
    unfold pathWeight
    congr 1
    apply List.map_congr_left
    intro b' hb'
    obtain ⟨hle, K, k, hk, -⟩ := path_mem_total (w := weight res p prices) hl b' hb'
    have hbn : b' ≤ g.num := by
      cases hk with
      | start => omega
      | edge _ he => exact (hg _ he).2
    rw [if_pos hbn, blockPrice_fit chk (hp b') (hd b' hbn) (by omega)]
    rfl
  have hfit : ∀ x l, IsPath G.E 0 x l →
      pathWeight (fun b => if b ≤ g.num then (blockPrice chk res p prices (g.ops b)).getD 0 else 0) l < 2 ^ 64 := by
    intro x l hl
    rw [h3] at hl
    rw [hpw x l hl]
    exact hT x _ ((total_iff_path _ g x _).2 ⟨l, hl, rfl⟩)
  have hiff := fun chk' => maxPath_some_iff h2 h4 h5 h6 hfit chk' g.num
  rw [h3] at hiff
  constructor
  · intro hc
    obtain ⟨r, hr⟩ := (hiff true).2 hc
    refine ⟨r.2, ?_, ?_⟩
    · rw [heq, maxPath_mono chk hr]; rfl
    · obtain ⟨l, e1, e2, e3, e4, e5⟩ := maxPath_exact h2 h5 (path := r.1) (t := r.2) hr
      rw [h3] at e2 e5
      refine ⟨(total_iff_path _ g _ _).2 ⟨l, e2, ?_⟩, fun K hK => ?_⟩
      · rw [← hpw _ l e2]; exact e3.symm
      · obtain ⟨l', hl', rfl⟩ := (total_iff_path _ g _ _).1 hK
        rw [← hpw _ l' hl']
        exact e5 l' hl'
  · intro hc
    rw [heq]
    cases hm : maxPath chk (weighted G fun b => if b ≤ g.num then (blockPrice chk res p prices (g.ops b)).getD 0 else 0) 0 g.num with
    | none => rfl
    | some r => exact absurd ((hiff chk).1 ⟨r, hm⟩) hc

/-- Prices of all calls are needed, in dead code too. -/
theorem flowPrice_undefined (chk : Bool) {g : Flow}
    (hd : ¬ ∀ b, b ≤ g.num → ∀ o ∈ g.ops b, (opPrice res p prices o).isSome) :
    flowPrice chk res p prices g = none := by
  unfold flowPrice
  simp only
  rw [if_neg]
  intro hall
  apply hd
  intro b hb
  by_contra h
  rw [List.all_eq_true] at hall
  have := hall b (List.mem_range.2 (by omega))
  rw [blockPrice_none chk h] at this
  cases this

end Svm.Wasm
