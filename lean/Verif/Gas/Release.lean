import Verif.Gas.Weight

/-!
# The maximum weight path without overflow checks

Without overflow checks the computation succeeds exactly when the end is clear, whatever the weights.
-/

namespace Svm.Gas.Graph

open Relation (TransGen ReflTransGen)

variable {L : Type} [DecidableEq L] {G : Graph L (NodeWeight L)} {start : L}

/-- Invariant of the data, without the values of the weights. -/
structure Rel (G : Graph L (NodeWeight L)) (start : L) (p : List L) (d : L → NodeWeight L) : Prop where
  weight : ∀ x, ∃ w, (d x).weight = some w
  base : ∃ w, (d start).depWeight = some w
  dep : ∀ x, x ≠ start → ((∀ a ∈ p, x ∉ G.out a) ∧ (d x).depWeight = none) ∨
    ∃ a w, a ∈ p ∧ x ∈ G.out a ∧ (d x).depLabel = some a ∧ (d x).depWeight = some w

omit [DecidableEq L] in
theorem Rel.of_data {W : L → Nat} {p : List L} {d : L → NodeWeight L} (h : Data G W start p d) :
    Rel G start p d where
  weight := fun x => ⟨_, h.weight x⟩
  base := ⟨0, h.base⟩
  dep := by
    intro x hx
    rcases h.dep x hx with h | ⟨a, m, h1, h2, h3, h4, -⟩
    · exact .inl h
    · exact .inr ⟨a, m, h1, h2, h3, h4⟩

theorem Rel.dep_some (hG : Wf G) {q p : List L} {g : Graph L (NodeWeight L)}
    {d : L → NodeWeight L} (h : Inv G [start] q p g) (hd : Rel G start p d) {x : L} (hx : x ∈ q ∨ x ∈ p) :
    ∃ w, (d x).depWeight = some w := by
  by_cases hxs : x = start
  · rw [hxs]; exact hd.base
  · rcases hd.dep x hxs with ⟨h1, -⟩ | ⟨a, w, -, -, -, h4⟩
    · rcases (h.mem x).1 hx with hx | ⟨hne, hall⟩
      · rw [List.mem_singleton] at hx
        exact absurd hx hxs
      · obtain ⟨a, l, hl⟩ := List.exists_cons_of_ne_nil hne
        have ha : a ∈ G.inc x := by rw [hl]; exact List.mem_cons_self
        exact absurd ((hG.edge a x).2 ha) (h1 a (hall a ha))
    · exact ⟨w, h4⟩

omit [DecidableEq L] in
theorem relax_dep (w : NodeWeight L) (a : L) (t : Nat) : (w.relax a t).weight = w.weight ∧
    ((w.relax a t = w ∧ w.depWeight ≠ none) ∨
      ((w.relax a t).depLabel = some a ∧ (w.relax a t).depWeight = some t)) := by
  unfold NodeWeight.relax
  cases h : w.depWeight with
  | none => exact ⟨rfl, .inr ⟨rfl, rfl⟩⟩
  | some m =>
    simp only
    split
    · exact ⟨rfl, .inr ⟨rfl, rfl⟩⟩
    · exact ⟨rfl, .inl ⟨rfl, by simp⟩⟩

theorem foldRelax_false {src : L} {t : Nat} : ∀ (l : List L) (d : L → NodeWeight L), l.Nodup → src ∉ l →
    (d src).totalWeight false = some t →
    foldData (relax false) src l d = some fun x => if x ∈ l then (d x).relax src t else d x
  | [], d, _, _, _ => by simp [foldData]
  | y :: l, d, hl, hs, ht => by
    rw [List.nodup_cons] at hl
    rw [List.mem_cons, not_or] at hs
    have ih := foldRelax_false l (upd d y ((d y).relax src t)) hl.2 hs.2 (by rw [upd_ne _ _ hs.1]; exact ht)
    simp only [foldData, relax, ht]
    refine Eq.trans ih ?_
    congr 1
    funext x
    by_cases hx : x ∈ l
    · have hxy : x ≠ y := fun e => hl.1 (e ▸ hx)
      rw [if_pos hx, if_pos (List.mem_cons_of_mem _ hx), upd_ne _ _ hxy]
    · rw [if_neg hx]
      by_cases hxy : x = y
      · subst hxy
        rw [if_pos List.mem_cons_self, upd_self]
      · rw [if_neg (by simp [hx, hxy]), upd_ne _ _ hxy]

theorem rel_step (hG : Wf G) {q p : List L} {src : L}
    {g : Graph L (NodeWeight L)} (h : Inv G [start] (src :: q) p g) (hd : Rel G start p g.data) :
    ∃ dat, foldData (relax false) src (G.out src) g.data = some dat ∧ Rel G start (src :: p) dat := by
  obtain ⟨m, hm⟩ := hd.dep_some hG h (x := src) (.inl List.mem_cons_self)
  obtain ⟨w, hw⟩ := hd.weight src
  obtain ⟨t, ht⟩ : ∃ t, (g.data src).totalWeight false = some t := by
    unfold NodeWeight.totalWeight
    rw [hm, hw]
    simp only [Option.bind_eq_bind, Option.bind_some, add64]
    split <;> exact ⟨_, rfl⟩
  have hf := foldRelax_false (G.out src) g.data (hG.outNodup src) (hG.irrefl src) ht
  refine ⟨_, hf, ?_, ?_, ?_⟩
  · intro x
    split
    · rw [(relax_dep _ _ _).1]; exact hd.weight x
    · exact hd.weight x
  · split
    · rcases (relax_dep (g.data start) src t).2 with ⟨h1, -⟩ | ⟨-, h2⟩
      · rw [h1]; exact hd.base
      · exact ⟨t, h2⟩
    · exact hd.base
  · intro x hx
    split
    · rename_i hxo
      rcases (relax_dep (g.data x) src t).2 with ⟨h1, h2⟩ | ⟨h1, h2⟩
      · rw [h1]
        rcases hd.dep x hx with ⟨-, h3⟩ | ⟨a, w, h3, h4⟩
        · exact absurd h3 h2
        · exact .inr ⟨a, w, List.mem_cons_of_mem _ h3, h4⟩
      · exact .inr ⟨src, t, List.mem_cons_self, hxo, h1, h2⟩
    · rename_i hxo
      rcases hd.dep x hx with ⟨h3, h4⟩ | ⟨a, w, h3, h4⟩
      · refine .inl ⟨fun a ha => ?_, h4⟩
        rcases List.mem_cons.1 ha with rfl | ha
        · exact hxo
        · exact h3 a ha
      · exact .inr ⟨a, w, List.mem_cons_of_mem _ h3, h4⟩

theorem construct_some (hG : Wf G) (hI : G.inc start = []) {q p : List L} {g : Graph L (NodeWeight L)}
    {d : L → NodeWeight L} (h : Inv G [start] q p g) (hd : Rel G start p d) :
    ∀ (n : Nat) (x : L) (l₁ l₂ : List L) (acc : List (L × Nat)), p = l₁ ++ x :: l₂ → l₂.length < n →
      ∃ path, constructPath d start n x acc = some path
  | 0, x, l₁, l₂, acc, hp, hn => by omega
  | n + 1, x, l₁, l₂, acc, hp, hn => by
    obtain ⟨w, hw⟩ := hd.weight x
    unfold constructPath
    by_cases hxs : x = start
    · rw [if_pos hxs]
      rw [hxs] at hw
      rw [hw]
      exact ⟨_, rfl⟩
    · rw [if_neg hxs, hw]
      have hxp : x ∈ p := by rw [hp]; simp
      obtain ⟨m, hm⟩ := hd.dep_some hG h (.inr hxp)
      rcases hd.dep x hxs with ⟨-, h1⟩ | ⟨a, w', h1, h2, h3, -⟩
      · rw [hm] at h1; cases h1
      · -- the dependency was visited before
        have ha : a ∈ l₂ := by
          have hord := h.ord
          rw [hp] at hord
          clear h1 hp hxp
          induction l₁ with
          | nil => exact hord.1 a ((hG.edge a x).1 h2)
          | cons b l₁ ih => exact ih hord.2
        obtain ⟨k₁, k₂, hk⟩ := List.append_of_mem ha
        obtain ⟨path, hpath⟩ := construct_some hG hI h hd n a (l₁ ++ x :: k₁) k₂ ((x, w) :: acc)
          (by rw [hp, hk]; simp) (by rw [hk] at hn; simp at hn; omega)
        refine ⟨path, ?_⟩
        rw [h3]
        exact hpath

/-- Without overflow checks the computation succeeds exactly when the end is clear. -/
theorem maxPath_release_iff {W : L → Nat} {g : Graph L (NodeWeight L)} (hg : Wf g) (hs : start ∈ g.nodes)
    (hI : g.inc start = []) (hac : Acyclic g.E) (fin : L) :
    (∃ r, maxPath false (weighted g W) start fin = some r) ↔ Clear g.E start fin := by
  obtain ⟨g₁, hw, hp, hinc, hn, hinv, hdat, he⟩ := maxPath_steps (W := W) hg hs hI fin
  have hI' : ∀ x ∈ [start], g₁.inc x = [] := by
    intro x hx; rw [List.mem_singleton] at hx; subst hx; exact hinc
  have hrel := Rel.of_data hdat
  obtain ⟨⟨g₂, p⟩, hl⟩ := loop_some hw (relax false) (I := [start]) hI' (Rel g₁ start)
    (fun q p src g h hd => rel_step hw h hd)
    (g.nodes.length + 1) g₁ [start] [] hinv hrel (by rw [hn]; simp)
  obtain ⟨hinv', hdat'⟩ := loop_inv hw (relax false) (I := [start]) hI' (Rel g₁ start)
      (fun q p src g h hd dat hf => by
        obtain ⟨dat', h1, h2⟩ := rel_step hw h hd
        rw [hf] at h1
        cases h1
        exact h2) _ _ _ _ _ _ hinv hrel hl
  have hvis := visited_iff (g := weighted g W) (g' := g₂) (p := p) (start := start) (hg.withData _) hac hI hp
    ⟨hinv'.nodes, hinv'.out, hinv'.inc, hinv'.incNodup, hinv'.nodup, hinv'.sub, hinv'.mem, by
      have : ∀ l, Ordered g₁ l → Ordered ({ g₁ with data := (weighted g W).data } : Graph L (NodeWeight L)) l := by
        intro l
        induction l with
        | nil => exact fun h => h
        | cons a l ih => exact fun h => ⟨h.1, ih h.2⟩
      exact this p hinv'.ord⟩ fin
  rw [he, hl]
  simp only [Option.bind_eq_bind, Option.bind_some]
  constructor
  · rintro ⟨r, hr⟩
    refine hvis.1 ?_
    split at hr
    · rename_i h; exact h
    · cases hr
  · intro hc
    have hfin := hvis.2 hc
    obtain ⟨l₁, l₂, hpl⟩ := List.append_of_mem hfin
    have hlen : l₂.length < g₂.nodes.length + 1 := by
      have := hinv'.length_le
      rw [hpl] at this
      rw [hinv'.nodes]
      simp at this
      omega
    obtain ⟨path, e1⟩ := construct_some hw hinc hinv' hdat' _ fin l₁ l₂ [] hpl hlen
    obtain ⟨m, hm⟩ := hdat'.dep_some hw hinv' (.inr hfin)
    obtain ⟨w, hw'⟩ := hdat'.weight fin
    obtain ⟨t, ht⟩ : ∃ t, (g₂.data fin).totalWeight false = some t := by
      unfold NodeWeight.totalWeight
      rw [hm, hw']
      simp only [Option.bind_eq_bind, Option.bind_some, add64]
      split <;> exact ⟨_, rfl⟩
    rw [if_pos hfin, e1, ht]
    exact ⟨_, rfl⟩

end Svm.Gas.Graph
