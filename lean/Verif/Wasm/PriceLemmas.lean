import Verif.Wasm.Pricing

/-!
# Lemmas about prices
-/

namespace Svm.Wasm

open Svm.Codec (Str)
open Svm.Gas (upd upd_self upd_ne add64 Acyclic IsPath pathWeight buildWeighted buildWeighted_some)
open Svm.Gas.Graph (Cmd build topoSort maxPath IsEdge IsNode weighted Wf Clear maxPath_exact maxPath_mono
  maxPath_some_iff add64_true add64_some add64_mono)
open Relation (TransGen ReflTransGen)

/-! ## Control flow graphs -/

theorem init_wf : (⟨1, fun _ => [], [(0, 1)]⟩ : Flow).Wf := by
  intro e he
  simp only [List.mem_singleton] at he
  subst he
  exact ⟨Nat.one_pos, Nat.le_refl _⟩

theorem cfg_wf (c : Code) : c.cfg.Wf := by
  obtain ⟨h1, -, h3⟩ := gen_ext c 1 _ init_wf
  exact Flow.wf_close h1 fun o ho => Nat.le_of_lt (h3 _ (mem_origins.1 ho)).2

/-- Only priced instructions are in blocks. -/
def Flow.AllPriced (g : Flow) : Prop := ∀ b, ∀ o ∈ g.ops b, o.priced = true

theorem Flow.AllPriced.append {g : Flow} (h : g.AllPriced) {o : Op} (ho : o.priced = true) :
    (g.append o).AllPriced := by
  intro b x hx
  simp only [Flow.append, upd] at hx
  split at hx
  · rcases List.mem_append.1 hx with hx | hx
    · exact h _ x hx
    · rw [List.mem_singleton] at hx; rw [hx]; exact ho
  · exact h _ x hx

theorem Flow.AllPriced.merge {g : Flow} (h : g.AllPriced) (os : List Nat) : (g.merge os).AllPriced := by
  intro b x hx
  simp only [Flow.merge, upd] at hx
  split at hx
  · cases hx
  · exact h _ x hx

theorem Flow.AllPriced.close {g : Flow} (h : g.AllPriced) (os : List Nat) : (g.close os).AllPriced := by
  unfold Flow.close
  split
  · exact h
  · exact h.merge _

theorem gen_priced (c : Code) : ∀ (d : Nat) (g : Flow), g.AllPriced → (c.gen d g).1.AllPriced := by
  induction c with
  | nil => intro d g h; exact h
  | op b r ih =>
    intro d g h
    cases b with
    | ret | unreachable | br | brTable => exact ih d _ (h.merge _)
    | brIf => exact ih d _ (h.merge _)
    | call | callIndirect | plain => exact ih d _ (h.append rfl)
  | block b r ihb ihr => intro d g h; exact ihr d _ ((ihb _ _ (h.append rfl)).close _)
  | loop => intro d g h; exact h
  | ite t e r iht ihe ihr => intro d g h; exact ihr d _ ((ihe _ _ ((iht _ _ (h.merge _)).merge _)).merge _)
  | ift t r iht ihr => intro d g h; exact ihr d _ ((iht _ _ (h.merge _)).merge _)

theorem cfg_priced (c : Code) : c.cfg.AllPriced :=
  (gen_priced c 1 _ (fun _ _ h => absurd h (by simp))).close _

/-- Paths of a control flow graph, as lists of blocks. -/
theorem total_iff_path (w : Op → Nat) (g : Flow) (b K : Nat) : g.Total w b K ↔
    ∃ l, IsPath (fun a b => (a, b) ∈ g.edges) 0 b l ∧ K = pathWeight (fun x => opsCost w (g.ops x)) l := by
  constructor
  · rintro ⟨k, hk, rfl⟩
    induction hk with
    | start => exact ⟨[0], ⟨List.isChain_singleton _, rfl, rfl⟩, by simp [pathWeight]⟩
    | edge _ he ih =>
      obtain ⟨l, h1, h2⟩ := ih
      refine ⟨_, h1.extend he, ?_⟩
      rw [Svm.Gas.Graph.pathWeight_snoc, ← h2]
  · rintro ⟨l, hl, rfl⟩
    induction hn : l.length generalizing l b with
    | zero =>
      rw [List.length_eq_zero_iff] at hn
      subst hn
      exact absurd hl.2.1 (by simp)
    | succ n ih =>
      rcases hl.snoc with ⟨rfl, rfl⟩ | ⟨l', a, rfl, hl', he⟩
      · exact ⟨0, .start, by simp [pathWeight]⟩
      · obtain ⟨k, hk, hk'⟩ := ih a l' hl' (by simpa using hn)
        refine ⟨_, .edge hk he, ?_⟩
        rw [Svm.Gas.Graph.pathWeight_snoc, hk']

/-! ## Completeness of paths -/

/-- Finished blocks go on or jump. -/
theorem gen_out (c : Code) : ∀ (d : Nat) (g : Flow), g.Wf → 0 < d → ∀ b, g.num ≤ b → b < (c.gen d g).1.num →
    (∃ b', (b, b') ∈ (c.gen d g).1.edges) ∨ ∃ dd, (dd, b) ∈ (c.gen d g).2 := by
  have hm : ∀ {g : Flow} {os : List Nat} {o : Nat}, o ∈ os → (o, g.num + 1) ∈ (g.merge os).edges := by
    intro g os o ho
    exact List.mem_append_right _ (List.mem_map.2 ⟨o, ho, rfl⟩)
  induction c with
  | nil => intro d g _ _ b h1 h2; exact absurd h2 (by simp only [Code.gen]; omega)
  | op x r ih =>
    intro d g hg hd b h1 h2
    cases x with
    | ret | unreachable | br | brTable =>
      by_cases hb : b = g.num
      · right
        subst hb
        exact ⟨_, by simp only [Code.gen]; simp; exact .inl rfl⟩
      · have := ih d (g.merge []) (Flow.wf_merge hg (by simp)) hd b (by show g.num + 1 ≤ b; omega) h2
        rcases this with h | ⟨dd, h⟩
        · exact .inl h
        · exact .inr ⟨dd, by simp only [Code.gen]; simp [h]⟩
    | brIf l =>
      by_cases hb : b = g.num
      · right
        subst hb
        exact ⟨_, by simp only [Code.gen]; simp; exact .inl rfl⟩
      · have := ih d (g.merge [g.num]) (Flow.wf_merge hg (by simp)) hd b (by show g.num + 1 ≤ b; omega) h2
        rcases this with h | ⟨dd, h⟩
        · exact .inl h
        · exact .inr ⟨dd, by simp only [Code.gen]; simp [h]⟩
    | call | callIndirect | plain => exact ih d _ (Flow.wf_append hg _) hd b h1 h2
  | block x r ihb ihr =>
    intro d g hg hd b h1 h2
    have hb := ihb (d + 1) (g.append .block) (Flow.wf_append hg _) (by omega) b h1
    obtain ⟨e1, e2, e3⟩ := gen_ext x (d + 1) _ (Flow.wf_append hg .block)
    simp only [Code.gen] at h2 ⊢
    generalize x.gen (d + 1) (g.append .block) = x at *
    have ho : ∀ o ∈ origins x.2 d, o ≤ x.1.num := fun o ho => Nat.le_of_lt (e3 _ (mem_origins.1 ho)).2
    obtain ⟨f1, f2, f3⟩ := gen_ext r d _ (Flow.wf_close e1 ho)
    have hr := ihr d _ (Flow.wf_close e1 ho) hd b
    by_cases hbx : b < x.1.num
    · rcases hb hbx with ⟨b', hb'⟩ | ⟨dd, hdd⟩
      · exact .inl ⟨b', f2.old _ ((Flow.ext_close _ _).old _ hb')⟩
      · by_cases hd' : dd = d
        · subst hd'
          left
          have hmem : b ∈ origins x.2 dd := mem_origins.2 hdd
          refine ⟨x.1.num + 1, f2.old _ ?_⟩
          unfold Flow.close
          rw [if_neg (by rw [List.isEmpty_iff]; exact List.ne_nil_of_mem hmem)]
          exact hm (List.mem_cons_of_mem _ hmem)
        · exact .inr ⟨dd, List.mem_append_left _ (mem_others.2 ⟨hdd, hd'⟩)⟩
    · by_cases hc : (x.1.close (origins x.2 d)).num ≤ b
      · rcases hr hc h2 with h | ⟨dd, h⟩
        · exact .inl h
        · exact .inr ⟨dd, List.mem_append_right _ h⟩
      · left
        unfold Flow.close at hc f2 ⊢
        split at hc
        · exact absurd (Nat.le_of_not_lt hbx) hc
        · rename_i hne
          rw [if_neg hne] at f2
          rw [if_neg hne]
          change ¬ x.1.num + 1 ≤ b at hc
          have : b = x.1.num := by omega
          subst this
          exact ⟨x.1.num + 1, f2.old _ (hm List.mem_cons_self)⟩
  | loop => intro d g _ _ b h1 h2; exact absurd h2 (by simp only [Code.gen]; omega)
  | ite t e r iht ihe ihr =>
    intro d g hg hd b h1 h2
    have hm1 : (g.merge [g.num]).Wf := Flow.wf_merge hg (by simp)
    have ht := iht (d + 1) (g.merge [g.num]) hm1 (by omega) b
    obtain ⟨e1, e2, e3⟩ := gen_ext t (d + 1) _ hm1
    simp only [Code.gen] at h2 ⊢
    generalize t.gen (d + 1) (g.merge [g.num]) = x at *
    have hxn : g.num < x.1.num := e2.num
    have hm2 : (x.1.merge [g.num]).Wf := Flow.wf_merge e1 (by simp; omega)
    have he := ihe (d + 1) (x.1.merge [g.num]) hm2 (by omega) b
    obtain ⟨f1, f2, f3⟩ := gen_ext e (d + 1) _ hm2
    generalize e.gen (d + 1) (x.1.merge [g.num]) = y at *
    have hyn : x.1.num < y.1.num := f2.num
    have ho : ∀ o ∈ y.1.num :: x.1.num :: (origins x.2 d ++ origins y.2 d), o ≤ y.1.num := by
      intro o ho
      simp only [List.mem_cons, List.mem_append, mem_origins] at ho
      rcases ho with rfl | rfl | ho | ho
      · omega
      · omega
      · have := e3 _ ho; simp only at this; omega
      · have := f3 _ ho; simp only at this; omega
    have hr := ihr d _ (Flow.wf_merge f1 ho) hd b
    obtain ⟨k1, k2, k3⟩ := gen_ext r d _ (Flow.wf_merge f1 ho)
    generalize hos : y.1.num :: x.1.num :: (origins x.2 d ++ origins y.2 d) = os at *
    have hy2 : ∀ e ∈ y.1.edges, e ∈ (r.gen d (y.1.merge os)).1.edges := fun e he =>
      k2.old _ ((Flow.ext_merge _ _).old _ he)
    have hx2 : ∀ e ∈ x.1.edges, e ∈ (r.gen d (y.1.merge os)).1.edges := fun e he =>
      hy2 _ (f2.old _ ((Flow.ext_merge _ _).old _ he))
    have hmo : ∀ o ∈ os, (o, y.1.num + 1) ∈ (r.gen d (y.1.merge os)).1.edges := fun o ho =>
      k2.old _ (hm ho)
    rcases Nat.lt_trichotomy b g.num with h | h | h
    · omega
    · subst h
      left
      exact ⟨_, hx2 _ (e2.old _ (hm List.mem_cons_self))⟩
    · rcases Nat.lt_trichotomy b x.1.num with hx | hx | hx
      · rcases ht (by show g.num + 1 ≤ b; omega) hx with ⟨b', hb'⟩ | ⟨dd, hdd⟩
        · exact .inl ⟨b', hx2 _ hb'⟩
        · by_cases hd' : dd = d
          · subst hd'
            exact .inl ⟨_, hmo b (by rw [← hos]; simp [mem_origins, hdd])⟩
          · exact .inr ⟨dd, by simp [mem_others, hdd, hd']⟩
      · exact .inl ⟨_, hmo b (by rw [← hos]; simp [hx])⟩
      · rcases Nat.lt_trichotomy b y.1.num with hy | hy | hy
        · rcases he (by show x.1.num + 1 ≤ b; omega) hy with ⟨b', hb'⟩ | ⟨dd, hdd⟩
          · exact .inl ⟨b', hy2 _ hb'⟩
          · by_cases hd' : dd = d
            · subst hd'
              exact .inl ⟨_, hmo b (by rw [← hos]; simp [mem_origins, hdd])⟩
            · exact .inr ⟨dd, by simp [mem_others, hdd, hd']⟩
        · exact .inl ⟨_, hmo b (by rw [← hos]; simp [hy])⟩
        · rcases hr (by show y.1.num + 1 ≤ b; omega) h2 with h | ⟨dd, h⟩
          · exact .inl h
          · exact .inr ⟨dd, List.mem_append_right _ h⟩
  | ift t r iht ihr =>
    intro d g hg hd b h1 h2
    have hm1 : (g.merge [g.num]).Wf := Flow.wf_merge hg (by simp)
    have ht := iht (d + 1) (g.merge [g.num]) hm1 (by omega) b
    obtain ⟨e1, e2, e3⟩ := gen_ext t (d + 1) _ hm1
    simp only [Code.gen] at h2 ⊢
    generalize t.gen (d + 1) (g.merge [g.num]) = x at *
    have hxn : g.num < x.1.num := e2.num
    have ho : ∀ o ∈ x.1.num :: g.num :: origins x.2 d, o ≤ x.1.num := by
      intro o ho
      simp only [List.mem_cons, mem_origins] at ho
      rcases ho with rfl | rfl | ho
      · omega
      · omega
      · have := e3 _ ho; simp only at this; omega
    have hr := ihr d _ (Flow.wf_merge e1 ho) hd b
    obtain ⟨k1, k2, k3⟩ := gen_ext r d _ (Flow.wf_merge e1 ho)
    generalize hos : x.1.num :: g.num :: origins x.2 d = os at *
    have hx2 : ∀ e ∈ x.1.edges, e ∈ (r.gen d (x.1.merge os)).1.edges := fun e he =>
      k2.old _ ((Flow.ext_merge _ _).old _ he)
    have hmo : ∀ o ∈ os, (o, x.1.num + 1) ∈ (r.gen d (x.1.merge os)).1.edges := fun o ho =>
      k2.old _ (hm ho)
    rcases Nat.lt_trichotomy b g.num with h | h | h
    · omega
    · subst h
      exact .inl ⟨_, hmo g.num (by rw [← hos]; simp)⟩
    · rcases Nat.lt_trichotomy b x.1.num with hx | hx | hx
      · rcases ht (by show g.num + 1 ≤ b; omega) hx with ⟨b', hb'⟩ | ⟨dd, hdd⟩
        · exact .inl ⟨b', hx2 _ hb'⟩
        · by_cases hd' : dd = d
          · subst hd'
            exact .inl ⟨_, hmo b (by rw [← hos]; simp [mem_origins, hdd])⟩
          · exact .inr ⟨dd, by simp [mem_others, hdd, hd']⟩
      · exact .inl ⟨_, hmo b (by rw [← hos]; simp [hx])⟩
      · rcases hr (by show x.1.num + 1 ≤ b; omega) h2 with h | ⟨dd, h⟩
        · exact .inl h
        · exact .inr ⟨dd, List.mem_append_right _ h⟩

/-- Every block but the last has an outgoing edge. -/
theorem cfg_out (c : Code) (b : Nat) (hb : b < c.cfg.num) : ∃ b', (b, b') ∈ c.cfg.edges := by
  obtain ⟨e1, e2, e3⟩ := gen_ext c 1 _ init_wf
  have h := gen_out c 1 _ init_wf Nat.one_pos b
  have hj := gen_jumps c 1 ⟨1, fun _ => [], [(0, 1)]⟩ Nat.one_pos
  unfold Code.cfg at hb ⊢
  simp only at hb ⊢
  generalize c.gen 1 ⟨1, fun _ => [], [(0, 1)]⟩ = x at *
  have hx : ∀ e ∈ x.1.edges, e ∈ (x.1.close (origins x.2 0)).edges := (Flow.ext_close _ _).old
  by_cases h0 : b = 0
  · subst h0
    exact ⟨1, hx _ (e2.old _ (by simp))⟩
  · by_cases hbx : b < x.1.num
    · rcases h (by show 1 ≤ b; omega) hbx with ⟨b', hb'⟩ | ⟨dd, hdd⟩
      · exact ⟨b', hx _ hb'⟩
      · have := hj _ hdd
        simp only at this
        have : dd = 0 := by omega
        subst this
        have hmem : b ∈ origins x.2 0 := mem_origins.2 hdd
        refine ⟨x.1.num + 1, ?_⟩
        unfold Flow.close
        rw [if_neg (by rw [List.isEmpty_iff]; exact List.ne_nil_of_mem hmem)]
        exact List.mem_append_right _ (List.mem_map.2 ⟨b, List.mem_cons_of_mem _ hmem, rfl⟩)
    · unfold Flow.close at hb ⊢
      split at hb
      · exact absurd hb hbx
      · rename_i hne
        rw [if_neg hne]
        change b < x.1.num + 1 at hb
        have : b = x.1.num := by omega
        subst this
        exact ⟨_, List.mem_append_right _ (List.mem_map.2 ⟨x.1.num, List.mem_cons_self, rfl⟩)⟩

/-- Every block leads to the last one. -/
theorem cfg_to_end (c : Code) (b : Nat) (hb : b ≤ c.cfg.num) :
    ReflTransGen (fun a b => (a, b) ∈ c.cfg.edges) b c.cfg.num := by
  induction hn : c.cfg.num - b using Nat.strong_induction_on generalizing b with
  | _ n ih =>
    by_cases h : b = c.cfg.num
    · rw [h]
    · obtain ⟨b', he⟩ := cfg_out c b (by omega)
      have := cfg_wf c _ he
      simp only at this
      exact .head he (ih _ (by omega) b' this.2 rfl)

/-- Every path is part of a path to the last block. -/
theorem cfg_extend (w : Op → Nat) (c : Code) {b K : Nat} (hb : b ≤ c.cfg.num) (h : c.cfg.Total w b K) :
    ∃ K', K ≤ K' ∧ c.cfg.Total w c.cfg.num K' := by
  have := cfg_to_end c b hb
  revert h
  induction this using ReflTransGen.head_induction_on generalizing K with
  | refl => intro h; exact ⟨K, Nat.le_refl _, h⟩
  | head he _ ih =>
    rintro ⟨k, hk, rfl⟩
    have hle := (cfg_wf c _ he).2
    obtain ⟨K', h1, h2⟩ := ih hle ⟨_, .edge hk he, rfl⟩
    exact ⟨K', by omega, h2⟩

end Svm.Wasm
