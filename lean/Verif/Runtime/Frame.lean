import Verif.Runtime.Books

/-!
# C126: who can change what belongs to an account

The record of an account (name and template) and its variables over whole histories of a node.
-/

namespace Svm.Runtime

open Svm.Codec Svm.Account
open Svm.Storage (Hasher Storage Inv Kept)

/-! ## Spec -/

/-- The event is no call of account `a`, does not create or spawn an account there, and does not go back behind
layer `l`. -/
def Event.Spares (h : Hasher) (l : Int) (a : Addr) : Event → Prop
  | .tx (.call m) => ∀ tx rest, decTransaction m = .ok (tx, rest) → tx.target ≠ a
  | .tx (.spawn _ m) => ∀ sp rest, decSpawn m = .ok (sp, rest) → computeAccountAddr h sp ≠ a
  | .create b _ _ _ _ => b ≠ a
  | .rewind n => l ≤ n
  | _ => True

/-- Name, template and variables of account `a` read the same in both states. -/
structure SameAccount (chk : Bool) (h : Hasher) (a : Addr) (s s' : Storage) : Prop where
  name : ∀ acc : Acc, acc.addr = a → out h (name acc) s' = out h (name acc) s
  template : ∀ acc : Acc, acc.addr = a → out h (templateAddr acc) s' = out h (templateAddr acc) s
  vars : ∀ (acc : Acc) (id : U32) (buf : Bytes), acc.addr = a →
    out h (getVar chk acc id buf) s' = out h (getVar chk acc id buf) s

/-! ## Reachable states -/

theorem safe_genesis : ∀ ts : List (Addr × Sections), (genesisProg ts).Safe
  | [] => trivial
  | (_, ss) :: rest => by
    refine Prog.Safe.bind (Prog.Safe.ofOption (removeNoncore ss)) fun r => ?_
    exact Prog.Safe.bind (safe_createTemplate _ _ _) fun _ => safe_genesis rest

theorem reach_start {h : Hasher} {ts : List (Addr × Sections)} {o : Orders} {rs : RState}
    (hs : Node.start h o ts = some rs) : Reach h rs.storage := by
  obtain ⟨-, rfl⟩ := start_storage hs
  exact reach_commit (reach_checkpoint (.prog _ (safe_genesis ts) .fresh) _) _

theorem safe_createAccount (chk : Bool) (a t : Addr) (nm : Str) (b : U64) (c : U128) :
    (createAccount chk a t nm b c).Safe :=
  Prog.Safe.bind (Prog.Safe.unwrap (safe_create _ _ _ _ _ _)) fun _ => trivial

theorem safe_increaseBalance (chk : Bool) (a : Addr) (amount : U64) : (increaseBalance chk a amount).Safe := by
  refine Prog.Safe.bind (safe_load _ _).unwrap fun acc => Prog.Safe.bind (safe_balance _).unwrap fun b => ?_
  split
  · exact (safe_setBalance _ _).unwrap
  · trivial

theorem safe_transfer (chk : Bool) (src dst : Addr) (amount : U64) : (transfer chk src dst amount).Safe := by
  refine Prog.Safe.bind (safe_load _ _).unwrap fun acc => ?_
  refine Prog.Safe.bind (readOnly_getAccount _ _).safe fun x => ?_
  cases x with
  | none => trivial
  | some _ =>
    refine Prog.Safe.bind (safe_load _ _).unwrap fun acc' => ?_
    refine Prog.Safe.bind (safe_balance _).unwrap fun b => ?_
    refine Prog.Safe.bind (safe_balance _).unwrap fun b' => ?_
    exact safe_moveCoins _ _ _ _ _

/-- Nodes have reachable states only. -/
theorem reach_step {h : Hasher} {rs : RState} (hr : Reach h rs.storage) (chk : Bool) (eng : Engine) (pr : Pricer)
    (o : Orders) (e : Event) : Reach h (Node.step chk h eng pr o rs e).1.storage := by
  cases e with
  | tx t => exact reach_perform hr chk eng pr o t
  | create a t nm b c => exact .prog _ (safe_createAccount _ _ _ _ _ _) hr
  | credit a amount => exact .prog _ (safe_increaseBalance _ _ _) hr
  | pay src dst amount => exact .prog _ (safe_transfer _ _ _ _) hr
  | account a => exact .prog _ (readOnly_getAccount _ _).safe hr
  | commit => exact reach_commit hr o.commit
  | rewind n =>
    show Reach h (rewindTo n rs.storage).1
    unfold rewindTo
    split
    · exact .op (.rewind n) (by show (-2 : Int) ≤ n; omega) hr
    · exact hr
  | layer => exact hr
  | uncommitted => exact hr

theorem reach_history {h : Hasher} {rs : RState} (hr : Reach h rs.storage) (chk : Bool) (eng : Engine) (pr : Pricer)
    (es : List Event) (os : Nat → Orders) : Reach h (Node.run chk h eng pr rs es os).1.storage := by
  induction es generalizing rs os with
  | nil => exact hr
  | cons e es ih => exact ih (reach_step hr chk eng pr (os 0) e) _

/-! ## What holds in every layer -/

/-- `P` holds now, and in every layer from `l` to `m`, the newest. -/
structure Always (P : Storage → Prop) (l m : Int) (s : Storage) : Prop where
  newest : At m s
  now : P s
  layers : ∀ i : Int, l ≤ i → i ≤ m → ∃ s₁, Settled i s₁ ∧ Kept i s₁ s ∧ P s₁

/-- A state right after layer `l` was made. -/
theorem Always.start {P : Storage → Prop} {l : Int} {s : Storage} (hp : P s) (ha : At l s) (hs : Settled l s) :
    Always P l l s := by
  refine ⟨ha, hp, fun i h1 h2 => ?_⟩
  obtain rfl : i = l := by omega
  exact ⟨s, hs, ⟨by rw [hs.next]; simp only; omega, rfl, rfl⟩, hp⟩

/-- Without a layer to go back to. -/
theorem Always.unsettled {P : Storage → Prop} {l : Int} {s : Storage} (hp : P s) (ha : At l s) :
    Always P (l + 1) l s :=
  ⟨ha, hp, fun i h1 h2 => by omega⟩

theorem Always.push {P : Storage → Prop} {l m : Int} {s s' : Storage} (hb : Always P l m s) (ha : At (m + 1) s')
    (hs : ∃ n, Settled n s') (hp : P s') (hk : ∀ (i : Int) s₁, Kept i s₁ s → Kept i s₁ s') :
    Always P l (m + 1) s' := by
  refine ⟨ha, hp, fun i h1 h2 => ?_⟩
  by_cases him : i ≤ m
  · obtain ⟨s₁, g1, g2, g3⟩ := hb.layers i h1 him
    exact ⟨s₁, g1, hk i s₁ g2, g3⟩
  · obtain ⟨n, hn⟩ := hs
    have e1 := ha.next
    rw [hn.next] at e1
    simp only at e1
    obtain rfl : n = i := by omega
    exact ⟨s', hn, ⟨by rw [hn.next]; simp only; omega, rfl, rfl⟩, hp⟩

theorem Always.stay {P : Storage → Prop} {l m : Int} {s s' : Storage} (hb : Always P l m s) (ha : At m s')
    (hp : P s') (hk : ∀ (i : Int) s₁, Kept i s₁ s → Kept i s₁ s') : Always P l m s' :=
  ⟨ha, hp, fun i h1 h2 => by
    obtain ⟨s₁, g1, g2, g3⟩ := hb.layers i h1 h2
    exact ⟨s₁, g1, hk i s₁ g2, g3⟩⟩

/-- Nothing but calls, spawns, commits and rewinds changes the newest layer. -/
theorem layerAfter_cases (m : Int) (e : Event) (ans : Answer) (hr : ∀ n, e ≠ .rewind n) :
    layerAfter m e ans = m ∨ (layerAfter m e ans = m + 1 ∧ Makes e ans) := by
  cases e with
  | tx t =>
    cases ans with
    | receipt r =>
      cases r with
      | call r =>
        by_cases hs : r.success = true
        · exact .inr ⟨if_pos hs, hs⟩
        · exact .inl (if_neg hs)
      | spawn r =>
        by_cases hs : r.success = true
        · exact .inr ⟨if_pos hs, hs⟩
        · exact .inl (if_neg hs)
      | deploy r => exact .inl rfl
      | verify r => exact .inl rfl
    | _ => exact .inl rfl
  | commit =>
    cases ans with
    | done => exact .inr ⟨rfl, rfl⟩
    | _ => exact .inl rfl
  | rewind n => exact absurd rfl (hr n)
  | _ => exact .inl rfl

theorem Always.step {P : Storage → Prop} {h : Hasher} {l m : Int} {rs : RState} (hb : Always P l m rs.storage)
    (h0 : -1 ≤ m) (chk : Bool) (eng : Engine) (pr : Pricer) (o : Orders) (e : Event) (hl : e.RewindsFrom l)
    (hp : (∀ n, e ≠ .rewind n) → P (Node.step chk h eng pr o rs e).1.storage) :
    Always P l (layerAfter m e (Node.step chk h eng pr o rs e).2) (Node.step chk h eng pr o rs e).1.storage := by
  have ha := (hb.newest.step (h := h) h0 chk o eng pr e).1
  by_cases hr : ∀ n, e ≠ .rewind n
  · have hk : ∀ (i : Int) s₁, Kept i s₁ rs.storage → Kept i s₁ (Node.step chk h eng pr o rs e).1.storage :=
      fun i s₁ g => kept_event g hb.newest h0 chk o eng pr e (by
        cases e with
        | rewind n => exact absurd rfl (hr n)
        | _ => trivial)
    rcases layerAfter_cases m e (Node.step chk h eng pr o rs e).2 hr with h1 | ⟨h1, h2⟩
    · rw [h1] at ha ⊢
      exact hb.stay ha (hp hr) hk
    · rw [h1] at ha ⊢
      exact hb.push ha (settled_step (h := h) hb.newest h0 chk o eng pr e h2) (hp hr) hk
  · cases e with
    | rewind n =>
      have hn : l ≤ (n : Int) := hl
      by_cases hb63 : n < 2 ^ 63
      · rcases rewind_cases hb.newest.inv n with ⟨h1, h2, h3⟩ | ⟨h1, h2⟩
        · rw [hb.newest.next] at h1
          obtain ⟨s₁, g1, g2, g3⟩ := hb.layers n hn (by omega)
          have hrw := rewind_settled g1 hb.newest.inv h2 g2
          have hstep : Node.step chk h eng pr o rs (.rewind n) = (⟨s₁, rs.cache⟩, .done) := by
            simp only [Node.step, rewindTo, if_pos hb63, hrw]
          have hk : ∀ (i : Int) s₂, i ≤ n → Kept i s₂ rs.storage → Kept i s₂ s₁ := by
            intro i s₂ hi g
            have := kept_event (h := h) g hb.newest h0 chk o eng pr (.rewind n) hi
            rw [hstep] at this
            exact this
          rw [hstep] at ha ⊢
          refine ⟨ha, g3, fun i k1 k2 => ?_⟩
          have k2 : i ≤ (n : Int) := k2
          obtain ⟨s₂, q1, q2, q3⟩ := hb.layers i k1 (by omega)
          exact ⟨s₂, q1, hk i s₂ k2 q2, q3⟩
        · have hstep : (Node.step chk h eng pr o rs (.rewind n)).1 = rs := by
            simp only [Node.step, rewindTo, if_pos hb63, h1]
          have hans : (Node.step chk h eng pr o rs (.rewind n)).2 ≠ .done := by
            simp only [Node.step, rewindTo, if_pos hb63]
            cases hx : (Svm.Storage.rewind rs.storage n).2 with
            | ok u => exact absurd hx (h2 u)
            | err => nofun
            | panic => nofun
          have hlay : layerAfter m (.rewind n) (Node.step chk h eng pr o rs (.rewind n)).2 = m := by
            cases hx : (Node.step chk h eng pr o rs (.rewind n)).2 with
            | done => exact absurd hx hans
            | _ => rfl
          rw [hstep, hlay]
          exact hb
      · have hstep : Node.step chk h eng pr o rs (.rewind n) = (rs, .panic) := by
          simp only [Node.step, rewindTo, if_neg hb63]
        rw [hstep]
        exact hb
    | _ => exact absurd (fun n => nofun) hr

/-- Histories that do not go back behind layer `l`. -/
theorem Always.history {P : Storage → Prop} {h : Hasher} (chk : Bool) (eng : Engine) (pr : Pricer) (es : List Event)
    {l m : Int} {rs : RState} (hb : Always P l m rs.storage) (h0 : -1 ≤ m) (os : Nat → Orders)
    (hl : ∀ e ∈ es, e.RewindsFrom l)
    (hp : ∀ e ∈ es, (∀ n, e ≠ .rewind n) → ∀ (o : Orders) (rs : RState) (k : Int), P rs.storage → At k rs.storage →
      -1 ≤ k → P (Node.step chk h eng pr o rs e).1.storage) :
    Always P l (layerOf m es (Node.run chk h eng pr rs es os).2) (Node.run chk h eng pr rs es os).1.storage := by
  induction es generalizing rs os m with
  | nil => exact hb
  | cons e es ih =>
    have hs := hb.step h0 chk eng pr (os 0) e (hl e List.mem_cons_self) fun hr =>
      hp e List.mem_cons_self hr (os 0) rs m hb.now hb.newest h0
    exact ih hs (hb.newest.step (h := h) h0 chk (os 0) eng pr e).2 _
      (fun x hx => hl x (List.mem_cons_of_mem _ hx)) fun x hx => hp x (List.mem_cons_of_mem _ hx)

/-! ## What an event changes -/

/-- The event has no business with a key, if it is no rewind. -/
def Event.Leaves (chk : Bool) (h : Hasher) (l : Int) (e : Event) : Key → Prop
  | .accData a => e.Spares h l a
  | .seg a _ => e.Spares h l a
  | .core t => e.Avoids chk h t
  | .noncore t => e.Avoids chk h t
  | .accMut _ => False

theorem view_deploy {h : Hasher} (hc : NoCollision h) (chk : Bool) (e : Envelope) (m : Bytes) (s : Storage) (k : Key)
    (hk : ∀ ss rest c, decSections chk none m = .ok (ss, rest) → codeSection ss = some c →
      k ≠ .core (computeTemplateAddr h c) ∧ k ≠ .noncore (computeTemplateAddr h c)) :
    view h (deploy chk h e m s).1 k = view h s k := by
  unfold deploy
  split
  · rename_i ss rest hd
    simp only
    split
    · rfl
    · split
      · rfl
      · rename_i c hcs
        have hw : view h (after h (createTemplate (computeTemplateAddr h c) ss ss) s) k = view h s k := by
          rw [view_after hc]
          exact (writes_createTemplate _ _ _).eval _ k fun hx =>
            hx.elim (hk ss rest c hd hcs).1 (hk ss rest c hd hcs).2
        split <;> exact hw
  · rfl

/-- What a step of a node leaves alone. -/
theorem step_leaves {h : Hasher} (hc : NoCollision h) {rs : RState} (hr : Reach h rs.storage) (chk : Bool)
    (eng : Engine) (pr : Pricer) (o : Orders) (e : Event) (hn : ∀ n, e ≠ .rewind n) (l : Int) (k : Key)
    (hk : e.Leaves chk h l k) : view h (Node.step chk h eng pr o rs e).1.storage k = view h rs.storage k := by
  have hmut : ∀ b, k ≠ .accMut b := by
    rintro b rfl
    exact hk
  have hw : ∀ {α : Type} {p : Prog α} {K : Key → Prop}, Writes K p → ¬ K k →
      view h (p.run h rs.storage).1 k = view h rs.storage k := by
    intro α p K hp hK
    show view h (after h p rs.storage) k = _
    rw [view_after hc]
    exact hp.eval _ k hK
  cases e with
  | tx t =>
    cases t with
    | deploy e m =>
      refine view_deploy hc chk e m rs.storage k fun ss rest c hd hcs => ?_
      cases k with
      | core t => exact ⟨fun hx => hk ss rest c hd hcs (Key.core.inj hx).symm, nofun⟩
      | noncore t => exact ⟨nofun, fun hx => hk ss rest c hd hcs (Key.noncore.inj hx).symm⟩
      | _ => exact ⟨nofun, nofun⟩
    | spawn e m =>
      cases hd : decSpawn m with
      | ok p =>
        obtain ⟨sp, rest⟩ := p
        refine C69_spawn_isolation hc hr chk o eng pr e m rest sp hd k ?_ hmut ?_
        · rintro rfl
          exact hk sp rest hd rfl
        · rintro i rfl
          exact hk sp rest hd rfl
      | _ =>
        show view h (spawn chk h o eng pr e m rs).1.storage k = _
        unfold spawn
        rw [hd]
    | call m =>
      cases hd : decTransaction m with
      | ok p =>
        obtain ⟨tx, rest⟩ := p
        refine C68_call_isolation hc hr chk o eng m rest tx hd k hmut ?_
        rintro i rfl
        exact hk tx rest hd rfl
      | _ =>
        show view h (call chk h o eng m rs.storage).1 k = _
        unfold call
        rw [hd]
    | verify m =>
      show view h (verify chk h o eng m rs.storage).1 k = _
      rw [C28_verify_pure]
  | create a t nm b c =>
    refine hw (Writes.bind (writes_create _ _ _ _ _ _).unwrap fun _ => trivial) ?_
    rintro (rfl | rfl)
    · exact hk rfl
    · exact hk
  | credit a amount =>
    refine hw (K := fun k => ∃ b, k = .accMut b) ?_ fun ⟨b, hb⟩ => hmut b hb
    refine (readOnly_load _ _).unwrap.writes.bind fun acc => (readOnly_balance _).unwrap.writes.bind fun b => ?_
    split
    · exact ((writes_setBalance acc (b + amount)).unwrap).mono fun k hk => ⟨_, hk⟩
    · trivial
  | pay src dst amount =>
    refine hw (K := fun k => ∃ b, k = .accMut b) ?_ fun ⟨b, hb⟩ => hmut b hb
    refine (readOnly_load _ _).unwrap.writes.bind fun acc => ?_
    refine (readOnly_getAccount _ _).writes.bind fun x => ?_
    cases x with
    | none => trivial
    | some _ =>
      refine (readOnly_load _ _).unwrap.writes.bind fun acc' => ?_
      refine (readOnly_balance _).unwrap.writes.bind fun b => ?_
      refine (readOnly_balance _).unwrap.writes.bind fun b' => ?_
      unfold moveCoins
      split
      · trivial
      · refine ((writes_setBalance _ _).unwrap.mono fun k hk => ⟨_, hk⟩).bind fun _ => ?_
        split
        · exact (writes_setBalance _ _).unwrap.mono fun k hk => ⟨_, hk⟩
        · trivial
  | account a => exact hw (K := fun _ => False) (readOnly_getAccount _ _).writes id
  | commit =>
    show view h (commitLayer o rs.storage).1 k = _
    by_cases hd : rs.storage.dirty = []
    · exact congrFun (view_commit (hr.ok hc).1 hd o.commit) k
    · simp only [commitLayer, Svm.Storage.commit_dirty hd]
  | rewind n => exact absurd rfl (hn n)
  | layer => rfl
  | uncommitted => rfl

/-- Keys that all events of a history leave alone. -/
theorem history_leaves {h : Hasher} (hc : NoCollision h) {rs : RState} (hr : Reach h rs.storage) {l m : Int}
    (ha : At m rs.storage) (h0 : -1 ≤ m) (hl : l = m + 1 ∨ (l = m ∧ Settled m rs.storage)) (chk : Bool) (eng : Engine)
    (pr : Pricer) (es : List Event) (os : Nat → Orders) (he : ∀ e ∈ es, e.RewindsFrom l) (k : Key)
    (hk : ∀ e ∈ es, e.Leaves chk h l k) :
    view h (Node.run chk h eng pr rs es os).1.storage k = view h rs.storage k := by
  obtain ⟨v, hv⟩ : ∃ v, view h rs.storage k = v := ⟨_, rfl⟩
  have hP : Reach h rs.storage ∧ view h rs.storage k = v := ⟨hr, hv⟩
  rw [hv]
  have hA : Always (fun s => Reach h s ∧ view h s k = v) l m rs.storage := by
    rcases hl with rfl | ⟨rfl, hs⟩
    · exact Always.unsettled hP ha
    · exact Always.start hP ha hs
  refine (hA.history (h := h) chk eng pr es h0 os he fun e hm hn o rs' n hp _ _ => ⟨reach_step hp.1 chk eng pr o e, ?_⟩).now.2
  rw [step_leaves hc hp.1 chk eng pr o e hn l k (hk e hm)]
  exact hp.2

/-! ## C126 -/

theorem Event.Spares.rewinds {h : Hasher} {l : Int} {a : Addr} {e : Event} (he : e.Spares h l a) : e.RewindsFrom l := by
  cases e with
  | rewind n => exact he
  | _ => trivial

theorem same_account {h : Hasher} (hc : NoCollision h) (chk : Bool) {a : Addr} {s s' : Storage}
    (h1 : view h s' (.accData a) = view h s (.accData a)) (h2 : ∀ i, view h s' (.seg a i) = view h s (.seg a i)) :
    SameAccount chk h a s s' := by
  refine ⟨?_, ?_, ?_⟩
  · rintro acc rfl
    rw [out_eval hc, out_eval hc]
    exact map_congr _ (readAndDecode_congr decAccountData _ h1)
  · rintro acc rfl
    rw [out_eval hc, out_eval hc]
    exact map_congr _ (readAndDecode_congr decAccountData _ h1)
  · rintro acc id buf rfl
    rw [out_eval hc, out_eval hc]
    exact getVar_congr chk acc id buf h2

theorem same_load {h : Hasher} (hc : NoCollision h) {chk : Bool} {a : Addr} {s s' : Storage} {acc : Acc}
    (h1 : view h s' (.accData a) = view h s (.accData a)) (hl : out h (load chk a) s = .ok acc)
    (h2 : view h s' (.core acc.template) = view h s (.core acc.template))
    (h3 : view h s' (.noncore acc.template) = view h s (.noncore acc.template)) :
    out h (load chk a) s' = .ok acc := by
  rw [out_eval hc] at hl ⊢
  have hev : (load chk a).eval (view h s) = (_, .ok acc) := Prod.ext rfl hl
  unfold load at hev
  obtain ⟨w1, d, g1, g2⟩ := eval_bind_eq_ok hev
  obtain ⟨rfl, g3⟩ := read_info g1
  obtain ⟨w2, lay, g4, g5⟩ := eval_bind_eq_ok g2
  have ht : acc.template = d.template ∧ acc = ⟨a, d.template, lay⟩ := by
    cases g5
    exact ⟨rfl, rfl⟩
  rw [ht.1] at h2 h3
  rw [← info_congr h1] at g3
  unfold load
  rw [Prog.bind_eq, Prog.eval_bind_ok (info_read g3)]
  have e1 : ((templateLayout chk d.template).eval (view h s')).2 = .ok lay := by
    have e2 : ((templateLayout chk d.template).eval (view h s)).2 = .ok lay := by rw [g4]
    rw [← e2]
    unfold templateLayout
    refine Account.bind_congr ((readOnly_readSections _ _).eval _) ((readOnly_readSections _ _).eval _)
      (readSections_congr chk _ h2 h3) fun ss => ?_
    split <;> rfl
  rw [Prog.bind_eq, Prog.eval_bind_ok (Prod.ext rfl e1 : (templateLayout chk d.template).eval (view h s') = (_, .ok lay)), ht.2]
  rfl

/-- C126: whatever a node executes, as long as it is no call of account `a`, no creation or spawn of an account there,
and no rewind behind the layer that was the newest (if that layer was just made; otherwise behind the next one), name,
template and variables of `a` stay as they are. If nobody deploys at the address of its template either, the account
loads as before. -/
theorem C126_kept {h : Hasher} (hc : NoCollision h) {chk : Bool} {ts : List (Addr × Sections)} {o : Orders}
    {rs : RState} (hs : Node.start h o ts = some rs) (eng : Engine) (pr : Pricer) (before since : List Event)
    (os₁ os₂ : Nat → Orders) (node₁ node₂ : RState) (as₁ as₂ : List Answer) (l : Int) (a : Addr)
    (h₁ : Node.run chk h eng pr rs before os₁ = (node₁, as₁))
    (hl : l = layerOf (-1) before as₁ + 1 ∨ (l = layerOf (-1) before as₁ ∧ JustMade before as₁))
    (h₂ : Node.run chk h eng pr node₁ since os₂ = (node₂, as₂)) (he : ∀ e ∈ since, e.Spares h l a) :
    SameAccount chk h a node₁.storage node₂.storage ∧
      ∀ acc, out h (load chk a) node₁.storage = .ok acc → (∀ e ∈ since, e.Avoids chk h acc.template) →
        out h (load chk a) node₂.storage = .ok acc := by
  obtain ⟨ha, h0⟩ := (at_start hs).history (h := h) (by omega) chk eng pr before os₁
  have hr := reach_history (reach_start hs) chk eng pr before os₁
  have hset : JustMade before as₁ → ∃ n, Settled n node₁.storage := by
    intro hj
    have := settled_history (h := h) (at_start hs) (by omega) chk eng pr before os₁ (by rw [h₁]; exact hj)
    rw [h₁] at this
    exact this
  rw [h₁] at ha h0 hr
  simp only at ha h0 hr
  have hl' : l = layerOf (-1) before as₁ + 1 ∨ (l = layerOf (-1) before as₁ ∧
      Settled (layerOf (-1) before as₁) node₁.storage) := by
    refine hl.imp_right fun ⟨h1, h2⟩ => ⟨h1, ?_⟩
    obtain ⟨n, hn⟩ := hset h2
    have e1 := ha.next
    rw [hn.next] at e1
    simp only at e1
    obtain rfl : n = layerOf (-1) before as₁ := by omega
    exact hn
  have hk : ∀ k, (∀ e ∈ since, e.Leaves chk h l k) → view h node₂.storage k = view h node₁.storage k := by
    intro k hk
    have := history_leaves hc hr ha h0 hl' chk eng pr since os₂ (fun e hm => (he e hm).rewinds) k hk
    rw [h₂] at this
    exact this
  have k1 := hk (.accData a) he
  refine ⟨same_account hc chk k1 fun i => hk (.seg a i) he, fun acc hload hav => ?_⟩
  exact same_load hc k1 hload (hk (.core _) hav) (hk (.noncore _) hav)

/-- Non-vacuity of C126: an account of the main network, which is left alone by what follows. -/
example : ∃ h rs t, NoCollision h ∧ Node.start h ⟨.id, .id⟩ (mainnet h [0]) = some rs ∧
    ∃ node₁ node₂ acc as₂, Node.run true h idleEngine flatPricer rs [.create (exampleAddr 1) t aName 5 0]
        (fun _ => ⟨.id, .id⟩) = (node₁, [.done]) ∧
      out h (load true (exampleAddr 1)) node₁.storage = .ok acc ∧
      Node.run true h idleEngine flatPricer node₁
        [.create (exampleAddr 2) t aName 7 0, .credit (exampleAddr 1) 3, .tx (.call []), .commit, .rewind 0]
        (fun _ => ⟨.id, .id⟩) = (node₂, as₂) ∧
      SameAccount true h (exampleAddr 1) node₁.storage node₂.storage ∧
      out h (load true (exampleAddr 1)) node₂.storage = .ok acc := by
  obtain ⟨h, hc⟩ := exists_noCollision
  obtain ⟨rs, hs⟩ := start_mainnet hc
  have hmem : (computeTemplateAddr h { code := [0], flags := 0, gasMode := .fixed, svmVersion := 0 },
    sctSections [0]) ∈ mainnet h [0] := List.mem_singleton.2 rfl
  generalize computeTemplateAddr h { code := [0], flags := 0, gasMode := .fixed, svmVersion := 0 } = t at hmem
  have c1 := create_mainnet hc true hs [] (by simp) idleEngine flatPricer (fun _ => ⟨.id, .id⟩) (exampleAddr 1) 5 0
    _ hmem
  have s1 := step_create (rs := rs) c1 ⟨.id, .id⟩ idleEngine flatPricer
  obtain ⟨acc, hacc⟩ := (created_loads hc c1).1
  have hr1 : Node.run true h idleEngine flatPricer rs [.create (exampleAddr 1) t aName 5 0] (fun _ => ⟨.id, .id⟩) =
      (⟨after h (createAccount true (exampleAddr 1) t aName 5 0) rs.storage, rs.cache⟩, [.done]) := by
    simp only [Node.run, s1]
  obtain ⟨k1, k2⟩ := C126_kept hc (chk := true) hs idleEngine flatPricer _
    [.create (exampleAddr 2) t aName 7 0, .credit (exampleAddr 1) 3, .tx (.call []), .commit, .rewind 0]
    (fun _ => ⟨.id, .id⟩) (fun _ => ⟨.id, .id⟩) _ _ _ _ 0 (exampleAddr 1) hr1 (.inl rfl) rfl (by
      intro e he
      simp only [List.mem_cons, List.not_mem_nil, or_false] at he
      rcases he with rfl | rfl | rfl | rfl | rfl
      · show exampleAddr 2 ≠ exampleAddr 1
        decide
      · trivial
      · intro tx rest hd
        cases hd
      · trivial
      · exact Int.le_refl 0)
  refine ⟨h, rs, t, hc, hs, _, _, acc, _, hr1, hacc, rfl, k1, k2 acc hacc ?_⟩
  intro e he
  simp only [List.mem_cons, List.not_mem_nil, or_false] at he
  rcases he with rfl | rfl | rfl | rfl | rfl <;> trivial

end Svm.Runtime
