import Verif.Wasm.PriceProgram

/-!
# Properties C52 and C55: prices bound executions, and overflow
-/

namespace Svm.Wasm

open Svm.Codec (Str)
open Svm.Gas (upd upd_self upd_ne add64 Acyclic)
open Svm.Gas.Graph (Clear)
open Relation (TransGen ReflTransGen)

variable {res : Resolver} {p : Program}

/-! ## One function -/

/-- The weights of the model are the costs of the specification. -/
theorem weight_eq (res : Resolver) (p : Program) (prices : Nat → Option Nat) :
    weight res p prices = costOf res p fun f => (prices f).getD 0 := by
  funext o
  cases o with
  | call f =>
    simp only [weight, Op.priced, if_true, opPrice, costOf, importCost]
    by_cases h : f < p.imports.length
    · rw [if_pos h, List.getElem?_eq_getElem h]
      rfl
    · rw [if_neg h, List.getElem?_eq_none (by omega)]
  | _ => rfl

theorem opPrice_mono {prices prices' : Nat → Option Nat} (h : ∀ f x, prices f = some x → prices' f = some x)
    (o : Op) (x : Nat) (ho : opPrice res p prices o = some x) : opPrice res p prices' o = some x := by
  cases o with
  | call f =>
    simp only [opPrice] at ho ⊢
    split
    · rename_i i hi
      rw [hi] at ho
      exact ho
    · rename_i hi
      rw [hi] at ho
      exact h _ _ ho
  | _ => exact ho

theorem blockPrice_mono (chk : Bool) {prices prices' : Nat → Option Nat}
    (h : ∀ f x, prices f = some x → prices' f = some x) (ops : List Op) {x : Nat}
    (ho : blockPrice chk res p prices ops = some x) : blockPrice chk res p prices' ops = some x := by
  unfold blockPrice at ho ⊢
  generalize 0 = acc at ho ⊢
  induction ops generalizing acc with
  | nil => exact ho
  | cons o ops ih =>
    rw [List.foldlM_cons] at ho ⊢
    cases hx : opPrice res p prices o with
    | none => rw [hx] at ho; cases ho
    | some y =>
      rw [opPrice_mono h o y hx]
      rw [hx] at ho
      change (add64 chk acc y).bind _ = some x at ho
      change (add64 chk acc y).bind _ = some x
      cases ha : add64 chk acc y with
      | none => rw [ha] at ho; cases ho
      | some z =>
        rw [ha] at ho
        exact ih z ho

theorem flowPrice_mono (chk : Bool) {prices prices' : Nat → Option Nat}
    (h : ∀ f x, prices f = some x → prices' f = some x) (g : Flow) {x : Nat}
    (ho : flowPrice chk res p prices g = some x) : flowPrice chk res p prices' g = some x := by
  unfold flowPrice at ho ⊢
  simp only at ho ⊢
  split at ho
  · rename_i hall
    rw [List.all_eq_true] at hall
    have hb : ∀ b, b ≤ g.num → blockPrice chk res p prices' (g.ops b) = blockPrice chk res p prices (g.ops b) ∧
        (blockPrice chk res p prices (g.ops b)).isSome := by
      intro b hb
      have := hall b (List.mem_range.2 (by omega))
      obtain ⟨y, hy⟩ := Option.isSome_iff_exists.1 this
      exact ⟨by rw [hy, blockPrice_mono chk h _ hy], this⟩
    rw [if_pos]
    · have : (fun b => if b ≤ g.num then (blockPrice chk res p prices' (g.ops b)).getD 0 else 0) =
          fun b => if b ≤ g.num then (blockPrice chk res p prices (g.ops b)).getD 0 else 0 := by
        funext b
        split
        · rename_i hb'
          rw [(hb b hb').1]
        · rfl
      rw [this]
      exact ho
    · rw [List.all_eq_true]
      intro b hb'
      have := List.mem_range.1 hb'
      rw [(hb b (by omega)).1]
      exact (hb b (by omega)).2
  · cases ho

theorem funcPrice_mono (chk : Bool) {prices prices' : Nat → Option Nat}
    (h : ∀ f x, prices f = some x → prices' f = some x) (f : Nat) {x : Nat}
    (ho : funcPrice chk res p prices f = some x) : funcPrice chk res p prices' f = some x := by
  unfold funcPrice at ho ⊢
  cases h1 : p.getFunc f with
  | none => rw [h1] at ho; cases ho
  | some ops =>
    rw [h1] at ho
    change (buildCfg chk ops).bind _ = some x at ho
    change (buildCfg chk ops).bind _ = some x
    cases h2 : buildCfg chk ops with
    | none => rw [h2] at ho; cases ho
    | some s =>
      rw [h2] at ho
      exact flowPrice_mono chk h _ ho

/-- The price of a function with a given code. -/
theorem funcPrice_body (chk : Bool) (prices : Nat → Option Nat) {f : Nat} {c : Code} (hb : IsBody p f c)
    (hl : c.LoopFree) : (c.Valid 1 → funcPrice chk res p prices f = flowPrice chk res p prices c.cfg) ∧
      (¬ c.Valid 1 → funcPrice chk res p prices f = none) := by
  unfold funcPrice
  rw [hb]
  change _ ∧ (_ → (buildCfg chk (c.flatten ++ [.end_])).bind _ = none)
  constructor
  · intro hv
    obtain ⟨s, h1, h2⟩ := (buildCfg_iff chk c hl).1 hv
    change (buildCfg chk (c.flatten ++ [.end_])).bind _ = _
    rw [h1, ← h2]
    rfl
  · intro hv
    rw [(buildCfg_iff chk c hl).2 hv]
    rfl

theorem isMax_iff {w : Op → Nat} (hw : ∀ o : Op, o.priced = false → w o = 0) {c : Code} (hv : c.Valid 1)
    (x : Nat) : c.cfg.IsMax w x ↔ IsMaxCost w c x := by
  unfold Flow.IsMax IsMaxCost
  rw [cfg_exact hw hv]
  constructor
  · rintro ⟨h1, h2⟩
    exact ⟨h1, fun tr e h => h2 _ ((cfg_exact hw hv _).2 ⟨tr, e, h, rfl⟩)⟩
  · rintro ⟨h1, h2⟩
    refine ⟨h1, fun K hK => ?_⟩
    obtain ⟨tr, e, h, rfl⟩ := (cfg_exact hw hv _).1 hK
    exact h2 tr e h

/-! ## All functions -/

/-- The prices found so far stay, and each is what `funcPrice` gives in the end. -/
theorem fold_fix (chk : Bool) : ∀ (l d : List Nat) (prices r : Nat → Option Nat), Callees p d l →
    (∀ f, (prices f).isSome ↔ f ∈ d) →
    (∀ f x, prices f = some x → funcPrice chk res p prices f = some x) →
    l.foldlM (setPrice chk res p) prices = some r →
    (∀ f, (r f).isSome ↔ f ∈ d ∨ f ∈ l) ∧ ∀ f x, r f = some x → funcPrice chk res p r f = some x := by
  intro l
  induction l with
  | nil =>
    rintro d prices r - hd hf h
    cases h
    exact ⟨fun f => by rw [hd]; simp, hf⟩
  | cons f l ih =>
    rintro d prices r ⟨h1, h2, h3⟩ hd hf h
    rw [List.foldlM_cons] at h
    unfold setPrice at h
    cases hx : funcPrice chk res p prices f with
    | none => rw [hx] at h; cases h
    | some x =>
      rw [hx] at h
      have hfp : prices f = none := by
        by_contra hne
        exact h2 ((hd f).1 (Option.isSome_iff_ne_none.2 hne))
      have hmono : ∀ g y, prices g = some y → upd prices f (some x) g = some y := by
        intro g y hg
        rw [upd_ne _ _ (by rintro rfl; rw [hfp] at hg; cases hg)]
        exact hg
      obtain ⟨r1, r2⟩ := ih (f :: d) (upd prices f (some x)) r h3 (by
        intro g
        by_cases hg : g = f
        · subst hg
          rw [upd_self]
          simp
        · rw [upd_ne _ _ hg, hd]
          simp [hg]) (by
        intro g y hg
        by_cases hgf : g = f
        · subst hgf
          rw [upd_self] at hg
          cases hg
          exact funcPrice_mono chk hmono g hx
        · rw [upd_ne _ _ hgf] at hg
          exact funcPrice_mono chk hmono g (hf g y hg)) h
      refine ⟨fun g => ?_, r2⟩
      rw [r1]
      simp only [List.mem_cons]
      grind

/-- Every function of the program has a price, the one computed from the other prices. -/
theorem price_fix {chk : Bool} (ha : Acyclic (Calls p)) {prices : Nat → Option Nat}
    (h : priceProgram chk res p = some prices) :
    (∀ f, (prices f).isSome ↔ (∃ ops, p.getFunc f = some ops) ∨ ∃ b, Calls p b f) ∧
      ∀ f x, prices f = some x → funcPrice chk res p prices f = some x := by
  obtain ⟨l, hc, hm, he⟩ := price_order chk res ha
  rw [he] at h
  obtain ⟨h1, h2⟩ := fold_fix chk l [] _ prices hc (fun f => by simp) (fun f x hx => by cases hx) h
  refine ⟨fun f => ?_, h2⟩
  rw [h1, ← hm]
  simp

/-- The prices as a function on all numbers. -/
def total (prices : Nat → Option Nat) (f : Nat) : Nat := (prices f).getD 0

/-- In builds with overflow checks the computed prices are the prices of the specification, and below
2⁶⁴. -/
theorem prices_checked {rc : Bool} (hv : validateWasm true rc p = .ok ()) {prices : Nat → Option Nat}
    (h : priceProgram true res p = some prices) :
    IsPrices res p (total prices) ∧ ∀ f c, IsBody p f c → ∃ x, prices f = some x ∧ x < 2 ^ 64 := by
  obtain ⟨hn, ha⟩ := C48_sound true rc p hv
  obtain ⟨h1, h2⟩ := price_fix ha h
  have key : ∀ f c, IsBody p f c → ∃ x, prices f = some x ∧ x < 2 ^ 64 ∧
      IsMaxCost (costOf res p (total prices)) c x := by
    intro f c hb
    obtain ⟨x, hx⟩ := Option.isSome_iff_exists.1 ((h1 f).2 (.inl ⟨_, hb⟩))
    have hf := h2 f x hx
    obtain ⟨f1, f2⟩ := funcPrice_body (res := res) true prices hb (loopFree_of_flatten c (calm_of_body hn hb).1)
    by_cases hvc : c.Valid 1
    · rw [f1 hvc] at hf
      obtain ⟨m1, m2, -⟩ := flowPrice_true (cfg_wf c) (cfg_priced c) hf
      rw [isMax_iff weight_unpriced hvc, weight_eq] at m1
      exact ⟨x, hx, m2, m1⟩
    · rw [f2 hvc] at hf
      cases hf
  refine ⟨fun f c hb => ?_, fun f c hb => ?_⟩
  · obtain ⟨x, hx, -, hm⟩ := key f c hb
    have : total prices f = x := by simp [total, hx]
    rw [this]
    exact hm
  · obtain ⟨x, hx, hlt, -⟩ := key f c hb
    exact ⟨x, hx, hlt⟩

theorem costOf_unpriced {P : Nat → Nat} (o : Op) (h : o.priced = false) : costOf res p P o = 0 := by
  cases o <;> simp [Op.priced] at h <;> rfl

/-! ## Instructions of blocks -/

/-- Blocks of `g'` have the instructions of the blocks of `g`, and instructions of `l`, each at most
once. -/
def Flow.Within (w : Op → Nat) (l : List Op) (g g' : Flow) : Prop :=
  ∀ b, opsCost w (g'.ops b) ≤ opsCost w (g.ops b) + opsCost w l ∧ ∀ o ∈ g'.ops b, o ∈ g.ops b ∨ o ∈ l

theorem Flow.Within.trans {w : Op → Nat} {l l' : List Op} {g g' g'' : Flow} (h : g.Within w l g')
    (h' : g'.Within w l' g'') : g.Within w (l ++ l') g'' := by
  intro b
  obtain ⟨h1, h2⟩ := h b
  obtain ⟨h1', h2'⟩ := h' b
  refine ⟨by rw [opsCost_append]; omega, fun o ho => ?_⟩
  rcases h2' o ho with ho | ho
  · rcases h2 o ho with ho | ho
    · exact .inl ho
    · exact .inr (List.mem_append_left _ ho)
  · exact .inr (List.mem_append_right _ ho)

theorem Flow.Within.mono {w : Op → Nat} {l l' : List Op} {g g' : Flow} (h : g.Within w l g')
    (hl : l.Sublist l') : g.Within w l' g' := by
  intro b
  obtain ⟨h1, h2⟩ := h b
  have : opsCost w l ≤ opsCost w l' := by
    clear h h1 h2
    induction hl with
    | slnil => exact Nat.le_refl _
    | cons a _ ih => rw [opsCost_cons]; omega
    | cons_cons a _ ih => rw [opsCost_cons, opsCost_cons]; omega
  exact ⟨by omega, fun o ho => (h2 o ho).imp_right (hl.subset ·)⟩

theorem Flow.within_append (w : Op → Nat) (g : Flow) (o : Op) : g.Within w [o] (g.append o) := by
  intro b
  simp only [Flow.append, upd]
  split
  · rename_i hb
    subst hb
    rw [opsCost_append]
    exact ⟨Nat.le_refl _, fun x hx => List.mem_append.1 hx⟩
  · exact ⟨by omega, fun x hx => .inl hx⟩

theorem Flow.within_merge (w : Op → Nat) (g : Flow) (os : List Nat) : g.Within w [] (g.merge os) := by
  intro b
  simp only [Flow.merge, upd]
  split
  · exact ⟨Nat.zero_le _, fun x hx => nomatch hx⟩
  · exact ⟨by omega, fun x hx => .inl hx⟩

theorem Flow.within_close (w : Op → Nat) (g : Flow) (os : List Nat) : g.Within w [] (g.close os) := by
  unfold Flow.close
  split
  · exact fun b => ⟨by omega, fun x hx => .inl hx⟩
  · exact g.within_merge w _

theorem gen_within (w : Op → Nat) (c : Code) : ∀ (d : Nat) (g : Flow), g.Within w c.flatten (c.gen d g).1 := by
  induction c with
  | nil => intro d g b; exact ⟨Nat.le_add_right _ _, fun x hx => .inl hx⟩
  | op b r ih =>
    intro d g
    cases b with
    | ret | unreachable | br | brTable =>
      exact ((g.within_merge w _).trans (ih d _)).mono (by simp [Code.flatten])
    | brIf => exact ((g.within_merge w _).trans (ih d _)).mono (by simp [Code.flatten])
    | call | callIndirect | plain => exact (g.within_append w _).trans (ih d _)
  | block b r ihb ihr =>
    intro d g
    refine ((((g.within_append w _).trans (ihb _ _)).trans (Flow.within_close w _ _)).trans (ihr d _)).mono ?_
    simp [Code.flatten]
  | loop => intro d g b; exact ⟨Nat.le_add_right _ _, fun x hx => .inl hx⟩
  | ite t e r iht ihe ihr =>
    intro d g
    refine ((((((g.within_merge w _).trans (iht _ _)).trans (Flow.within_merge w _ _)).trans (ihe _ _)).trans
      (Flow.within_merge w _ _)).trans (ihr d _)).mono ?_
    simp only [Code.flatten, List.nil_append, List.append_nil, List.append_assoc]
    refine .cons _ (.append (.refl _) (.cons _ (.append (.refl _) (.cons _ (.refl _)))))
  | ift t r iht ihr =>
    intro d g
    refine ((((g.within_merge w _).trans (iht _ _)).trans (Flow.within_merge w _ _)).trans (ihr d _)).mono ?_
    simp only [Code.flatten, List.nil_append, List.append_nil]
    refine .cons _ (.append (.refl _) (.cons _ (.refl _)))

/-- The blocks of `g` are still there, with at least the same instructions. -/
def Flow.Keeps (g g' : Flow) : Prop := g.num ≤ g'.num ∧ ∀ b, b ≤ g.num → ∀ o ∈ g.ops b, o ∈ g'.ops b

theorem Flow.Keeps.trans {g g' g'' : Flow} (h : g.Keeps g') (h' : g'.Keeps g'') : g.Keeps g'' :=
  ⟨Nat.le_trans h.1 h'.1, fun b hb o ho => h'.2 b (Nat.le_trans hb h.1) o (h.2 b hb o ho)⟩

theorem Flow.keeps_append (g : Flow) (o : Op) : g.Keeps (g.append o) := by
  refine ⟨Nat.le_refl _, fun b _ x hx => ?_⟩
  simp only [Flow.append, upd]
  split
  · rename_i hb
    subst hb
    exact List.mem_append_left _ hx
  · exact hx

theorem Flow.keeps_merge (g : Flow) (os : List Nat) : g.Keeps (g.merge os) := by
  refine ⟨Nat.le_succ _, fun b hb x hx => ?_⟩
  simp only [Flow.merge, upd]
  rw [if_neg (by omega)]
  exact hx

theorem Flow.keeps_close (g : Flow) (os : List Nat) : g.Keeps (g.close os) := by
  unfold Flow.close
  split
  · exact ⟨Nat.le_refl _, fun _ _ _ h => h⟩
  · exact g.keeps_merge _

theorem gen_keeps (c : Code) : ∀ (d : Nat) (g : Flow), g.Keeps (c.gen d g).1 := by
  induction c with
  | nil => intro d g; exact ⟨Nat.le_refl _, fun _ _ _ h => h⟩
  | op b r ih =>
    intro d g
    cases b with
    | ret | unreachable | br | brTable => exact (g.keeps_merge _).trans (ih d _)
    | brIf => exact (g.keeps_merge _).trans (ih d _)
    | call | callIndirect | plain => exact (g.keeps_append _).trans (ih d _)
  | block b r ihb ihr =>
    intro d g
    exact (((g.keeps_append _).trans (ihb _ _)).trans (Flow.keeps_close _ _)).trans (ihr d _)
  | loop => intro d g; exact ⟨Nat.le_refl _, fun _ _ _ h => h⟩
  | ite t e r iht ihe ihr =>
    intro d g
    exact (((((g.keeps_merge _).trans (iht _ _)).trans (Flow.keeps_merge _ _)).trans (ihe _ _)).trans
      (Flow.keeps_merge _ _)).trans (ihr d _)
  | ift t r iht ihr =>
    intro d g
    exact (((g.keeps_merge _).trans (iht _ _)).trans (Flow.keeps_merge _ _)).trans (ihr d _)

/-- Every priced instruction is in some block. -/
theorem gen_all (c : Code) (hl : c.LoopFree) : ∀ (d : Nat) (g : Flow), ∀ o ∈ c.flatten, o.priced = true →
    ∃ b, b ≤ (c.gen d g).1.num ∧ o ∈ (c.gen d g).1.ops b := by
  have happ : ∀ (g : Flow) (o : Op), o ∈ (g.append o).ops (g.append o).num := by
    intro g o
    simp [Flow.append, upd]
  have hk : ∀ {g g' : Flow} {o : Op}, g.Keeps g' → (∃ b, b ≤ g.num ∧ o ∈ g.ops b) →
      ∃ b, b ≤ g'.num ∧ o ∈ g'.ops b := by
    rintro g g' o ⟨h1, h2⟩ ⟨b, hb, ho⟩
    exact ⟨b, Nat.le_trans hb h1, h2 b hb o ho⟩
  induction c with
  | nil => intro d g o ho; cases ho
  | op b r ih =>
    intro d g o ho hp
    rcases List.mem_cons.1 ho with rfl | ho'
    · cases b with
      | ret | unreachable | br | brTable | brIf => simp [Basic.toOp, Op.priced] at hp
      | call | callIndirect | plain => exact hk (gen_keeps r d _) ⟨_, Nat.le_refl _, happ g _⟩
    · cases b <;> exact ih hl d _ o ho' hp
  | block b r ihb ihr =>
    intro d g o ho hp
    simp only [Code.flatten, List.mem_cons, List.mem_append] at ho
    rcases ho with rfl | ho | rfl | ho
    · exact hk (((gen_keeps b _ _).trans (Flow.keeps_close _ _)).trans (gen_keeps r d _))
        ⟨_, Nat.le_refl _, happ g _⟩
    · exact hk ((Flow.keeps_close _ _).trans (gen_keeps r d _)) (ihb hl.1 _ _ o ho hp)
    · simp [Op.priced] at hp
    · exact ihr hl.2 d _ o ho hp
  | loop => exact absurd hl id
  | ite t e r iht ihe ihr =>
    intro d g o ho hp
    simp only [Code.flatten, List.mem_cons, List.mem_append] at ho
    rcases ho with rfl | ho | rfl | ho | rfl | ho
    · simp [Op.priced] at hp
    · exact hk ((((Flow.keeps_merge _ _).trans (gen_keeps e _ _)).trans (Flow.keeps_merge _ _)).trans
        (gen_keeps r d _)) (iht hl.1 _ _ o ho hp)
    · simp [Op.priced] at hp
    · exact hk ((Flow.keeps_merge _ _).trans (gen_keeps r d _)) (ihe hl.2.1 _ _ o ho hp)
    · simp [Op.priced] at hp
    · exact ihr hl.2.2 d _ o ho hp
  | ift t r iht ihr =>
    intro d g o ho hp
    simp only [Code.flatten, List.mem_cons, List.mem_append] at ho
    rcases ho with rfl | ho | rfl | ho
    · simp [Op.priced] at hp
    · exact hk ((Flow.keeps_merge _ _).trans (gen_keeps r d _)) (iht hl.1 _ _ o ho hp)
    · simp [Op.priced] at hp
    · exact ihr hl.2 d _ o ho hp

theorem cfg_within (w : Op → Nat) (c : Code) (b : Nat) : opsCost w (c.cfg.ops b) ≤ opsCost w c.flatten ∧
    ∀ o ∈ c.cfg.ops b, o ∈ c.flatten := by
  obtain ⟨h1, h2⟩ := ((gen_within w c 1 ⟨1, fun _ => [], [(0, 1)]⟩).trans (Flow.within_close w _
    (origins (c.gen 1 ⟨1, fun _ => [], [(0, 1)]⟩).2 0))) b
  rw [List.append_nil] at h1 h2
  refine ⟨Nat.le_trans h1 (by show opsCost w [] + _ ≤ _; rw [show opsCost w [] = 0 from rfl]; omega), ?_⟩
  intro o ho
  rcases h2 o ho with h | h
  · cases h
  · exact h

theorem cfg_all (c : Code) (hl : c.LoopFree) (o : Op) (ho : o ∈ c.flatten) (hp : o.priced = true) :
    ∃ b, b ≤ c.cfg.num ∧ o ∈ c.cfg.ops b := by
  obtain ⟨b, hb, h⟩ := gen_all c hl 1 ⟨1, fun _ => [], [(0, 1)]⟩ o ho hp
  obtain ⟨h1, h2⟩ := Flow.keeps_close (c.gen 1 ⟨1, fun _ => [], [(0, 1)]⟩).1
    (origins (c.gen 1 ⟨1, fun _ => [], [(0, 1)]⟩).2 0)
  exact ⟨b, Nat.le_trans hb h1, h2 b hb o h⟩

/-! ## When a function can be priced -/

/-- The function can be priced, when the functions that it calls have a price: its branches have
targets, the imports it calls have a price, and the last block of the control flow graph is visited. -/
def Code.Priced (res : Resolver) (p : Program) (c : Code) : Prop :=
  c.Valid 1 ∧ Clear (fun a b => (a, b) ∈ c.cfg.edges) 0 c.cfg.num ∧
    ∀ g, .call g ∈ c.flatten → g < p.imports.length → (importCost res p g).isSome

theorem opPrice_isSome {prices : Nat → Option Nat} (o : Op) : (opPrice res p prices o).isSome ↔
    ∀ g, o = .call g → if g < p.imports.length then (importCost res p g).isSome else (prices g).isSome := by
  cases o with
  | call g =>
    simp only [opPrice, Op.call.injEq, forall_eq', importCost]
    by_cases h : g < p.imports.length
    · rw [if_pos h, List.getElem?_eq_getElem h]
      rfl
    · rw [if_neg h, List.getElem?_eq_none (by omega)]
  | _ => simp [opPrice]

theorem funcPrice_spec (chk : Bool) {prices : Nat → Option Nat} {P : Nat → Nat} {f : Nat} {c : Code}
    (hb : IsBody p f c) (hl : c.LoopFree) (hm : IsMaxCost (costOf res p P) c (P f))
    (hc : ∀ g, Calls p f g → prices g = some (P g)) (hfit : P f < 2 ^ 64)
    (hblk : chk = true → opsCost (costOf res p P) c.flatten < 2 ^ 64) :
    (c.Priced res p → funcPrice chk res p prices f = some (P f)) ∧
    (¬ c.Priced res p → funcPrice chk res p prices f = none) := by
  obtain ⟨f1, f2⟩ := funcPrice_body (res := res) chk prices hb hl
  by_cases hv : c.Valid 1
  · rw [f1 hv]
    have hw : ∀ o ∈ c.flatten, weight res p prices o = costOf res p P o := by
      rw [weight_eq]
      exact costOf_congr hb fun g hg => by rw [hc g hg]; rfl
    have hdef : (∀ b, b ≤ c.cfg.num → ∀ o ∈ c.cfg.ops b, (opPrice res p prices o).isSome) ↔
        ∀ g, .call g ∈ c.flatten → g < p.imports.length → (importCost res p g).isSome := by
      constructor
      · intro h g hg hi
        obtain ⟨b, hb', ho⟩ := cfg_all c hl _ hg rfl
        have := (opPrice_isSome _).1 (h b hb' _ ho) g rfl
        rw [if_pos hi] at this
        exact this
      · intro h b _ o ho
        rw [opPrice_isSome]
        rintro g rfl
        have hg := (cfg_within (fun _ => 0) c b).2 _ ho
        split
        · rename_i hi
          exact h g hg hi
        · rename_i hi
          rw [hc g (call_mem_calls hb hg hi)]
          rfl
    by_cases hd : ∀ b, b ≤ c.cfg.num → ∀ o ∈ c.cfg.ops b, (opPrice res p prices o).isSome
    · have hm' : IsMaxCost (weight res p prices) c (P f) := (isMaxCost_congr hw _).2 hm
      have hmx := (isMax_iff weight_unpriced hv _).2 hm'
      obtain ⟨g1, g2⟩ := flowPrice_fit chk (cfg_wf c) (cfg_priced c) hd (by
          intro hck b _
          have h1 := (cfg_within (costOf res p P) c b).1
          have h2 := hblk hck
          rw [opsCost_congr fun o ho => hw o ((cfg_within (fun _ => 0) c b).2 o ho)]
          omega) (by
          intro b K hK
          have hbn : b ≤ c.cfg.num := by
            obtain ⟨k, hr, -⟩ := hK
            cases hr with
            | start => exact Nat.zero_le _
            | edge _ he => exact (cfg_wf c _ he).2
          obtain ⟨K', h1, h2⟩ := cfg_extend _ c hbn hK
          have := hmx.2 K' h2
          omega)
      constructor
      · rintro ⟨-, hcl, -⟩
        obtain ⟨x, hx, hxm⟩ := g1 hcl
        rw [hx]
        have := maxCost_unique ((isMax_iff weight_unpriced hv _).1 hxm) hm'
        rw [this]
      · intro hn
        refine g2 fun hcl => hn ⟨hv, hcl, hdef.1 hd⟩
    · rw [flowPrice_undefined chk hd]
      refine ⟨fun h => absurd (hdef.2 h.2.2) hd, fun _ => rfl⟩
  · rw [f2 hv]
    exact ⟨fun h => absurd h.1 hv, fun _ => rfl⟩

/-- Pricing a program succeeds exactly when every function can be priced, and then it gives the prices
of the specification, provided these are below 2⁶⁴ (and, in builds with overflow checks, the
instructions of each function together cost less than 2⁶⁴). -/
theorem price_spec (chk : Bool) (hn : NoLoops p) (ha : Acyclic (Calls p)) (hs : Structured p) {P : Nat → Nat}
    (hP : IsPrices res p P) (hfit : ∀ f c, IsBody p f c → P f < 2 ^ 64)
    (hblk : chk = true → ∀ f c, IsBody p f c → opsCost (costOf res p P) c.flatten < 2 ^ 64) :
    (CallsDefined p ∧ (∀ f c, IsBody p f c → c.Priced res p) → ∃ prices,
      priceProgram chk res p = some prices ∧ ∀ f c, IsBody p f c → prices f = some (P f)) ∧
    (¬ (CallsDefined p ∧ (∀ f c, IsBody p f c → c.Priced res p)) → priceProgram chk res p = none) := by
  obtain ⟨l, hc, hm, he⟩ := price_order chk res ha
  rw [he]
  have hnone : ∀ f (prices : Nat → Option Nat), p.getFunc f = none → funcPrice chk res p prices f = none := by
    intro f prices h
    unfold funcPrice
    rw [h]
    rfl
  have key : ∀ (l d : List Nat) (prices : Nat → Option Nat), Callees p d l →
      (∀ f ∈ d, prices f = some (P f)) →
      ((∀ f ∈ l, ∃ c, IsBody p f c ∧ c.Priced res p) → ∃ r, l.foldlM (setPrice chk res p) prices = some r ∧
        ∀ f, f ∈ d ∨ f ∈ l → r f = some (P f)) ∧
      ((¬ ∀ f ∈ l, ∃ c, IsBody p f c ∧ c.Priced res p) → l.foldlM (setPrice chk res p) prices = none) := by
    intro l
    induction l with
    | nil =>
      intro d prices _ hd
      refine ⟨fun _ => ⟨prices, rfl, fun f hf => hd f (by simpa using hf)⟩, fun h => absurd (by simp) h⟩
    | cons f l ih =>
      rintro d prices ⟨h1, h2, h3⟩ hd
      rw [List.foldlM_cons]
      by_cases hf : ∃ c, IsBody p f c ∧ c.Priced res p
      · obtain ⟨c, hb, hpr⟩ := hf
        have hx := (funcPrice_spec (prices := prices) chk hb (loopFree_of_flatten c (calm_of_body hn hb).1)
          (hP f c hb) (fun g hg => hd g (h1 g hg)) (hfit f c hb) (fun h => hblk h f c hb)).1 hpr
        have hset : setPrice chk res p prices f = some (upd prices f (some (P f))) := by
          unfold setPrice
          rw [hx]
          rfl
        rw [hset]
        change (_ → ∃ r, l.foldlM (setPrice chk res p) (upd prices f (some (P f))) = some r ∧ _) ∧
          (_ → l.foldlM (setPrice chk res p) (upd prices f (some (P f))) = none)
        obtain ⟨i1, i2⟩ := ih (f :: d) (upd prices f (some (P f))) h3 (by
          intro g hg
          by_cases hgf : g = f
          · subst hgf
            exact upd_self _ _ _
          · rw [upd_ne _ _ hgf]
            exact hd g ((List.mem_cons.1 hg).resolve_left hgf))
        constructor
        · intro h
          obtain ⟨r, r1, r2⟩ := i1 fun g hg => h g (List.mem_cons_of_mem _ hg)
          refine ⟨r, r1, fun g hg => r2 g ?_⟩
          simp only [List.mem_cons] at hg ⊢
          tauto
        · intro h
          refine i2 fun h' => h fun g hg => ?_
          rcases List.mem_cons.1 hg with rfl | hg
          · exact ⟨c, hb, hpr⟩
          · exact h' g hg
      · refine ⟨fun h => absurd (h f List.mem_cons_self) hf, fun _ => ?_⟩
        have hset : setPrice chk res p prices f = none := by
          unfold setPrice
          cases hg : p.getFunc f with
          | none => rw [hnone f prices hg]; rfl
          | some ops =>
            obtain ⟨c, hb⟩ := hs f ops hg
            rw [(funcPrice_spec (prices := prices) chk hb (loopFree_of_flatten c (calm_of_body hn hb).1)
              (hP f c hb) (fun g hg => hd g (h1 g hg)) (hfit f c hb) (fun h => hblk h f c hb)).2
                fun hpr => hf ⟨c, hb, hpr⟩]
            rfl
        rw [hset]
        rfl
  have hiff : (∀ f ∈ l, ∃ c, IsBody p f c ∧ c.Priced res p) ↔
      CallsDefined p ∧ ∀ f c, IsBody p f c → c.Priced res p := by
    constructor
    · intro h
      refine ⟨fun a b hab => ?_, fun f c hb => ?_⟩
      · obtain ⟨c, hb, -⟩ := h b ((hm b).2 (.inr ⟨a, hab⟩))
        exact ⟨_, hb⟩
      · obtain ⟨c', hb', hpr⟩ := h f ((hm f).2 (.inl ⟨_, hb⟩))
        rw [body_unique hb hb']
        exact hpr
    · rintro ⟨h1, h2⟩ f hf
      have : ∃ ops, p.getFunc f = some ops := by
        rcases (hm f).1 hf with h | ⟨b, h⟩
        · exact h
        · exact h1 _ _ h
      obtain ⟨ops, ho⟩ := this
      obtain ⟨c, hb⟩ := hs f ops ho
      exact ⟨c, hb, h2 f c hb⟩
  obtain ⟨k1, k2⟩ := key l [] (fun _ => none) hc (fun f hf => nomatch hf)
  rw [hiff] at k1 k2
  refine ⟨fun h => ?_, k2⟩
  obtain ⟨r, r1, r2⟩ := k1 h
  exact ⟨r, r1, fun f c hb => r2 f (.inr ((hm f).2 (.inl ⟨_, hb⟩)))⟩

/-- Called functions of a priced program exist. -/
theorem priced_defined {chk : Bool} (ha : Acyclic (Calls p)) {prices : Nat → Option Nat}
    (h : priceProgram chk res p = some prices) : CallsDefined p := by
  intro a b hab
  obtain ⟨h1, h2⟩ := price_fix ha h
  obtain ⟨x, hx⟩ := Option.isSome_iff_exists.1 ((h1 b).2 (.inr ⟨a, hab⟩))
  have := h2 b x hx
  unfold funcPrice at this
  cases hg : p.getFunc b with
  | none => rw [hg] at this; cases this
  | some ops => exact ⟨ops, rfl⟩

/-! ## C55 -/

/-- **C55**, every build: a computed price is the cost of the most expensive execution of the function. -/
def C55_claim : Prop :=
  ∀ (chk rc : Bool) (res : Resolver) (p : Program) (prices : Nat → Option Nat) (P : Nat → Nat),
    validateWasm chk rc p = .ok () → Structured p → priceProgram chk res p = some prices → IsPrices res p P →
    ∀ f c, IsBody p f c → prices f = some (P f)

/-- **C55**, in builds with overflow checks: computed prices are exact and below 2⁶⁴. -/
theorem C55_exact_checked {rc : Bool} (hv : validateWasm true rc p = .ok ()) (hs : Structured p)
    {prices : Nat → Option Nat} (h : priceProgram true res p = some prices) {P : Nat → Nat}
    (hP : IsPrices res p P) {f : Nat} {c : Code} (hb : IsBody p f c) : prices f = some (P f) ∧ P f < 2 ^ 64 := by
  obtain ⟨hn, ha⟩ := C48_sound true rc p hv
  obtain ⟨h1, h2⟩ := prices_checked hv h
  have := prices_unique ha hs (priced_defined ha h) h1 hP hb
  obtain ⟨x, hx, hlt⟩ := h2 f c hb
  have hx' : total prices f = x := by simp [total, hx]
  rw [hx, ← this, hx']
  exact ⟨rfl, hlt⟩

/-- **C55**, every build, with the guard: if the prices are below 2⁶⁴, they are computed exactly. -/
theorem C55_exact_partial {chk rc : Bool} (hv : validateWasm chk rc p = .ok ()) (hs : Structured p)
    {prices : Nat → Option Nat} (h : priceProgram chk res p = some prices) {P : Nat → Nat}
    (hP : IsPrices res p P) (hfit : ∀ f c, IsBody p f c → P f < 2 ^ 64) {f : Nat} {c : Code}
    (hb : IsBody p f c) : prices f = some (P f) := by
  obtain ⟨hn, ha⟩ := C48_sound chk rc p hv
  cases chk with
  | true => exact (C55_exact_checked hv hs h hP hb).1
  | false =>
    obtain ⟨k1, k2⟩ := price_spec false hn ha hs hP hfit (fun h => nomatch h)
    by_cases hq : CallsDefined p ∧ ∀ f c, IsBody p f c → c.Priced res p
    · obtain ⟨r, r1, r2⟩ := k1 hq
      rw [h] at r1
      cases r1
      exact r2 f c hb
    · rw [k2 hq] at h
      cases h

/-! ## C52 -/

/-- **C52**, every build: no execution of a function costs more than its computed price. -/
def C52_claim : Prop :=
  ∀ (chk rc : Bool) (res : Resolver) (p : Program) (prices : Nat → Option Nat),
    validateWasm chk rc p = .ok () → Structured p → priceProgram chk res p = some prices →
    ∀ f c stk tr e, IsBody p f c → Run p stk c tr e → ∃ x, prices f = some x ∧ runCost res p tr ≤ x

/-- **C52**, in builds with overflow checks: no execution of a function, together with the functions
that it calls, costs more than its computed price. -/
theorem C52_bounds_checked {rc : Bool} (hv : validateWasm true rc p = .ok ())
    {prices : Nat → Option Nat} (h : priceProgram true res p = some prices) {f : Nat} {c : Code}
    {stk : List Nat} {tr : List Ev} {e : Exit} (hb : IsBody p f c) (hr : Run p stk c tr e) :
    ∃ x, prices f = some x ∧ runCost res p tr ≤ x := by
  obtain ⟨hn, ha⟩ := C48_sound true rc p hv
  obtain ⟨h1, h2⟩ := prices_checked hv h
  obtain ⟨x, hx, -⟩ := h2 f c hb
  refine ⟨x, hx, ?_⟩
  have := run_le_price hn h1 hb hr
  rw [show total prices f = x by simp [total, hx]] at this
  exact this

/-- **C52**, every build, with the guard: prices below 2⁶⁴ bound the cost of executions. -/
theorem C52_bounds_partial {chk rc : Bool} (hv : validateWasm chk rc p = .ok ()) (hs : Structured p)
    {prices : Nat → Option Nat} (h : priceProgram chk res p = some prices) {P : Nat → Nat}
    (hP : IsPrices res p P) (hfit : ∀ f c, IsBody p f c → P f < 2 ^ 64) {f : Nat} {c : Code}
    {stk : List Nat} {tr : List Ev} {e : Exit} (hb : IsBody p f c) (hr : Run p stk c tr e) :
    ∃ x, prices f = some x ∧ runCost res p tr ≤ x :=
  ⟨P f, C55_exact_partial hv hs h hP hfit hb, run_le_price (C48_sound chk rc p hv).1 hP hb hr⟩

/-! ## A program whose price wraps around -/

/-- Function 0 is one instruction, function `i + 1` calls function `i` sixteen times. -/
def powers (n : Nat) : Program :=
  ⟨[], [], [.plain .nop, .end_] :: (List.range n).map fun i => List.replicate 16 (.call i) ++ [.end_]⟩

/-- `n` calls of function `i`. -/
def callsCode (i : Nat) : Nat → Code
  | 0 => .nil
  | n + 1 => .op (.call i) (callsCode i n)

theorem flatten_callsCode (i n : Nat) : (callsCode i n).flatten = List.replicate n (.call i) := by
  induction n with
  | zero => rfl
  | succ n ih =>
    rw [List.replicate_succ, ← ih]
    rfl

/-- The code of the functions of `powers n`. -/
def powersCode : Nat → Code
  | 0 => .op (.plain .nop) .nil
  | i + 1 => callsCode i 16

theorem powers_getFunc (n f : Nat) : (powers n).getFunc f = ((powers n).functions[f]?) := by
  simp [Program.getFunc, powers]

theorem powers_get (n f : Nat) : (powers n).getFunc f =
    if f ≤ n then some ((powersCode f).flatten ++ [.end_]) else none := by
  rw [powers_getFunc]
  unfold powers
  cases f with
  | zero => rfl
  | succ i =>
    simp only [List.getElem?_cons_succ, List.getElem?_map]
    by_cases h : i + 1 ≤ n
    · rw [if_pos h, List.getElem?_range (by omega)]
      simp only [Option.map_some, powersCode, flatten_callsCode]
    · rw [if_neg h, List.getElem?_eq_none (by simp; omega)]
      rfl

theorem powers_body {n f : Nat} (h : f ≤ n) : IsBody (powers n) f (powersCode f) := by
  unfold IsBody
  rw [powers_get, if_pos h]

theorem powers_structured (n : Nat) : Structured (powers n) := by
  intro f ops h
  rw [powers_get] at h
  split at h
  · rename_i hf
    exact ⟨_, powers_body hf⟩
  · cases h

theorem powers_calls {n a b : Nat} (h : Calls (powers n) a b) : a = b + 1 := by
  obtain ⟨ops, h1, h2, -⟩ := h
  rw [powers_get] at h1
  split at h1
  · simp only [Option.some.injEq] at h1
    subst h1
    cases a with
    | zero => simp [powersCode, Code.flatten, Basic.toOp] at h2
    | succ i =>
      simp only [powersCode, flatten_callsCode, List.mem_append, List.mem_replicate, List.mem_singleton,
        Op.call.injEq, reduceCtorEq, or_false] at h2
      omega
  · cases h1

theorem powers_accepted (chk rc : Bool) : validateWasm chk rc (powers 16) = .ok () := by
  rw [C48_accepts_iff]
  refine ⟨?_, ?_, ?_⟩
  · intro ops ho
    simp only [powers, List.mem_cons, List.mem_map] at ho
    rcases ho with rfl | ⟨i, -, rfl⟩ <;> simp
  · have : ∀ a b, TransGen (Calls (powers 16)) a b → b < a := by
      intro a b h
      induction h with
      | single h => have := powers_calls h; omega
      | tail _ h ih => have := powers_calls h; omega
    intro x hx
    exact Nat.lt_irrefl _ (this x x hx)
  · intro ops ho f hf
    simp only [powers, List.mem_cons, List.mem_map, List.mem_range] at ho
    rcases ho with rfl | ⟨i, hi, rfl⟩
    · simp at hf
    · simp at hf
      omega

/-- In builds without overflow checks, the price of function 16, which costs 2⁶⁴, is 0. -/
theorem powers_wrap : (priceProgram false v0 (powers 16)).bind (fun prices => prices 16) = some 0 := by
  decide +kernel

theorem powers_wrap_prices : ∃ prices, priceProgram false v0 (powers 16) = some prices ∧ prices 16 = some 0 := by
  have := powers_wrap
  cases h : priceProgram false v0 (powers 16) with
  | none => rw [h] at this; cases this
  | some prices => rw [h] at this; exact ⟨prices, rfl, this⟩

theorem exec_callsCode (i n : Nat) : (callsCode i n).Exec (List.replicate n (.call i)) .next := by
  induction n with
  | zero => exact ⟨rfl, rfl⟩
  | succ n ih => exact .inr ⟨trivial, _, ih, rfl⟩

theorem powers_price {n : Nat} {P : Nat → Nat} (hP : IsPrices v0 (powers n) P) : ∀ f, f ≤ n → 1 ≤ P f
  | 0, h => (hP 0 _ (powers_body h)).2 [.plain .nop] .next (.inr ⟨trivial, [], ⟨rfl, rfl⟩, rfl⟩)
  | i + 1, h => by
    have h1 := powers_price hP i (by omega)
    have h2 := (hP (i + 1) _ (powers_body h)).2 _ _ (exec_callsCode i 16)
    rw [List.replicate_succ, opsCost_cons] at h2
    have : costOf v0 (powers n) P (.call i) = P i := rfl
    omega

/-- The computed price can be far below the cost of the most expensive execution. -/
theorem C55_claim_false : ¬ C55_claim := by
  intro h
  obtain ⟨prices, hp, h16⟩ := powers_wrap_prices
  obtain ⟨hn, ha⟩ := C48_sound false false _ (powers_accepted false false)
  obtain ⟨P, hP⟩ := prices_exist v0 hn ha
  have := h false false v0 (powers 16) prices P (powers_accepted _ _) (powers_structured 16) hp hP 16 _
    (powers_body (Nat.le_refl _))
  rw [h16] at this
  have h1 := powers_price hP 16 (Nat.le_refl _)
  rw [← Option.some.inj this] at h1
  exact absurd h1 (by decide)

theorem powers_run (n : Nat) : ∀ f, f ≤ n → ∀ stk, ∃ tr, Run (powers n) stk (powersCode f) tr .stop ∧
    runCost v0 (powers n) tr = 1
  | 0, _, stk => ⟨_, .fall stk _ _ [] _ (by simp [Basic.jumps]) (.stop _ _), rfl⟩
  | i + 1, h, stk => by
    obtain ⟨tr, hr, hc⟩ := powers_run n i (by omega) (i :: stk)
    refine ⟨_, .callStop stk (.call i) i (powersCode i) (callsCode i 15) tr rfl (powers_body (by omega)) hr, ?_⟩
    rw [runCost_cons, hc]
    rfl

/-- An execution can cost more than the computed price. -/
theorem C52_claim_false : ¬ C52_claim := by
  intro h
  obtain ⟨prices, hp, h16⟩ := powers_wrap_prices
  obtain ⟨tr, hr, hc⟩ := powers_run 16 16 (Nat.le_refl _) [16]
  obtain ⟨x, hx, hle⟩ := h false false v0 (powers 16) prices (powers_accepted _ _) (powers_structured 16) hp 16 _
    [16] tr .stop (powers_body (Nat.le_refl _)) hr
  rw [h16] at hx
  cases hx
  omega

/-- With overflow checks pricing this program panics. -/
example : (priceProgram true v0 (powers 16)).isNone = true := by decide +kernel

/-- A small program meets all hypotheses: function 2 of `powers 2` costs 256 in both builds. -/
example : (priceProgram true v0 (powers 2)).bind (fun prices => prices 2) = some 256 ∧
    (priceProgram false v0 (powers 2)).bind (fun prices => prices 2) = some 256 ∧
    validateWasm true false (powers 2) = .ok () ∧ Structured (powers 2) :=
  ⟨by decide +kernel, by decide +kernel, by decide +kernel, powers_structured 2⟩

end Svm.Wasm
