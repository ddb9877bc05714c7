import Verif.Runtime.Node

/-!
# Genesis and the stored templates: properties C104, C105 and C106

`GlobalState::init_genesis` (crates/host/state/src/global_state.rs:50-95) writes the templates of
`GenesisConfig` (crates/host/genesis-config/src/lib.rs). From there on templates are written by
deployments only.
-/

namespace Svm.Runtime

open Svm.Codec Svm.Account
open Svm.Storage (Hasher Storage Inv)

/-! ## Model -/

/-- `Sections::try_take`, types/src/template/section.rs:300-302, without the returned section:
`IndexMap::remove` puts the last entry in the place of the removed one. -/
def swapRemove (k : Kind) (s : Sections) : Sections :=
  match s.findIdx? (fun x => x.kind = k), s.getLast? with
  | some i, some l => (s.set i l).dropLast
  | _, _ => s

/-- `Sections::remove_noncore`, types/src/template/section.rs:311-318: the core sections and the
others. `none` is the panic of `take`. -/
def removeNoncore (s : Sections) : Option (Sections × Sections) := do
  let code ← s.tryGet .code
  let s := swapRemove .code s
  let ctors ← s.tryGet .ctors
  let s := swapRemove .ctors s
  let data ← s.tryGet .data
  let s := swapRemove .data s
  some (Sections.insert data (Sections.insert ctors [code]), s)

/-- The loop of `init_genesis`, global_state.rs:64-82. The templates are the entries of a `HashMap` in
the order of its iteration. -/
def genesisProg : List (Addr × Sections) → Prog Unit
  | [] => return ()
  | (t, ss) :: rest => do
    let r ← Prog.ofOption (removeNoncore ss)
    createTemplate t r.1 r.2
    genesisProg rest

/-- `GlobalState::new` with an empty database, global_state.rs:23-42 and 50-95, in a runtime with an empty price
cache. `none` is a panic (an error of `init_genesis` panics in `new`). -/
def Node.start (h : Hasher) (o : Orders) (templates : List (Addr × Sections)) : Option RState :=
  let r := (genesisProg templates).run h Svm.Storage.fresh
  match r.2 with
  | .ok () =>
    let r' := Svm.Storage.commit o.commit (Svm.Storage.checkpoint h o.checkpoint r.1)
    match r'.2 with
    | .ok _ => some ⟨r'.1, []⟩
    | _ => none
  | _ => none

/-- `sct`, genesis-config/src/lib.rs:36-60: the sections of the template of the main network, for the bytes
of its code. -/
def sctSections (code : Bytes) : Sections :=
  [ .code { code, flags := 0, gasMode := .fixed, svmVersion := 0 }
  , .data [Svm.Layout.FixedLayout.default]
  , .ctors [] ]

/-- `GenesisConfig::mainnet`, genesis-config/src/lib.rs:19-27. -/
def mainnet (h : Hasher) (code : Bytes) : List (Addr × Sections) :=
  [(computeTemplateAddr h { code, flags := 0, gasMode := .fixed, svmVersion := 0 }, sctSections code)]

/-! ## What is stored -/

/-- `Q` holds of every stored pair, and the keys in `B` have values from before layer 0. -/
structure Stored (h : Hasher) (Q : Key → Bytes → Prop) (B : Key → Prop) (s : Storage) : Prop where
  inv : Inv s
  dirty : ∀ p ∈ s.dirty, ∀ k : Key, p.1 = h.hash k.text → Q k p.2
  changes : ∀ p ∈ s.next.changes, ∀ k : Key, p.1 = h.hash k.text → Q k p.2
  rows : ∀ r ∈ s.db.values, ∀ k : Key, r.keyHash = h.hash k.text → Q k r.value
  base : ∀ k : Key, B k → ∃ r ∈ s.db.values, r.keyHash = h.hash k.text ∧ r.layerId < 0

/-- All writes of a program have `Q`. -/
def Puts {α : Type} (Q : Key → Bytes → Prop) : Prog α → Prop
  | .ret _ => True
  | .err _ => True
  | .panic _ => True
  | .get _ f => ∀ v, Puts Q (f v)
  | .set k v p => Q k v ∧ Puts Q p

theorem Puts.bind {α β : Type} {Q : Key → Bytes → Prop} {p : Prog α} {f : α → Prog β} (hp : Puts Q p)
    (hf : ∀ a, Puts Q (f a)) : Puts Q (p.bind f) := by
  induction p with
  | ret a => exact hf a
  | err | panic => trivial
  | get k g ih => exact fun v => ih v (hp v)
  | set k v p ih => exact ⟨hp.1, ih hp.2⟩

theorem Puts.of_writes {α : Type} {Q : Key → Bytes → Prop} {K : Key → Prop} {p : Prog α} (hp : Writes K p)
    (hQ : ∀ k v, K k → Q k v) : Puts Q p := by
  induction p with
  | ret | err | panic => trivial
  | get k g ih => exact fun v => ih v (hp v)
  | set k v p ih => exact ⟨hQ k v hp.1, ih hp.2⟩

theorem Stored.upsert {h : Hasher} (hc : NoCollision h) {Q : Key → Bytes → Prop} {B : Key → Prop} {s : Storage} (hs : Stored h Q B s)
    (k : Key) {v : Bytes} (hv : Q k v) : Stored h Q B (Svm.Storage.upsert h s k.text v) := by
  refine ⟨Svm.Storage.inv_step h hs.inv (.upsert (h.hash k.text) v) trivial, ?_, hs.changes, hs.rows, hs.base⟩
  intro p hp
  simp only [Svm.Storage.upsert, Svm.Storage.upsertByHash, AMap.insert, List.mem_cons,
    List.mem_filter] at hp
  rcases hp with hp | hp
  · subst hp
    intro k' hk'
    rw [← hc k k' hk']
    exact hv
  · exact hs.dirty p hp.1

theorem Stored.run {h : Hasher} (hc : NoCollision h) {Q : Key → Bytes → Prop} {B : Key → Prop} {α : Type} {p : Prog α}
    (hp : Puts Q p) {s : Storage} (hs : Stored h Q B s) : Stored h Q B (p.run h s).1 := by
  induction p generalizing s with
  | ret | err | panic => exact hs
  | get k f ih =>
    simp only [Prog.run, get_view]
    exact ih _ (hp _) hs
  | set k v p ih => exact ih hp.2 (hs.upsert hc k hp.1)

theorem Stored.checkpoint {h : Hasher} {Q : Key → Bytes → Prop} {B : Key → Prop} {s : Storage} (hs : Stored h Q B s)
    (ord : Svm.Storage.Ord) : Stored h Q B (Svm.Storage.checkpoint h ord s) := by
  refine ⟨Svm.Storage.inv_step h hs.inv (.checkpoint ord) trivial, ?_, ?_, ?_, ?_⟩ <;>
    rw [Svm.Storage.checkpoint_eq]
  · simp
  · intro p hp
    rcases mem_insertAll hp with hp | hp
    · exact hs.changes p hp
    · exact hs.dirty p ((ord.perm _).mem_iff.1 hp)
  · exact hs.rows
  · exact hs.base

theorem Stored.commit {h : Hasher} {Q : Key → Bytes → Prop} {B : Key → Prop} {s : Storage} (hs : Stored h Q B s)
    (ord : Svm.Storage.Ord) : Stored h Q B (Svm.Storage.commit ord s).1 := by
  have hi : Inv (Svm.Storage.commit ord s).1 := Svm.Storage.inv_step h hs.inv (.commit ord) trivial
  by_cases hd : s.dirty = []
  · obtain ⟨fp, he⟩ := Svm.Storage.commit_ok hs.inv hd ord
    refine ⟨hi, ?_, ?_, ?_, ?_⟩ <;> rw [he.2]
    · simp
    · simp
    · intro r hr
      simp only [Svm.Storage.committedDb, List.mem_append, List.mem_map] at hr
      rcases hr with hr | ⟨c, hc, rfl⟩
      · exact hs.rows r hr
      · exact hs.changes c ((ord.perm _).mem_iff.1 hc)
    · intro k hk
      obtain ⟨r, hr, h1⟩ := hs.base k hk
      exact ⟨r, List.mem_append_left _ hr, h1⟩
  · rw [Svm.Storage.commit_dirty hd]
    exact hs

theorem Stored.rewind {h : Hasher} {Q : Key → Bytes → Prop} {B : Key → Prop} {s : Storage} (hs : Stored h Q B s) {l : Int}
    (h0 : 0 ≤ l) : Stored h Q B (Svm.Storage.rewind s l).1 := by
  have hi : Inv (Svm.Storage.rewind s l).1 := Svm.Storage.inv_step h hs.inv (.rewind l) (show -2 ≤ l by omega)
  by_cases hl : l < s.next.id
  · by_cases hd : s.dirty = []
    · refine ⟨hi, ?_, ?_, ?_, ?_⟩ <;> rw [Svm.Storage.rewind_ok hs.inv hd hl]
      · simp
      · simp
      · intro r hr
        exact hs.rows r (List.mem_filter.1 hr).1
      · intro k hk
        obtain ⟨r, hr, h1, h2⟩ := hs.base k hk
        exact ⟨r, List.mem_filter.2 ⟨hr, by simp; omega⟩, h1, h2⟩
    · have e : (Svm.Storage.rewind s l).1 = s := by
        unfold Svm.Storage.rewind
        rw [if_pos hl, if_pos (by simpa using hd)]
      rw [e]
      exact hs
  · have e : (Svm.Storage.rewind s l).1 = s := by
      unfold Svm.Storage.rewind
      rw [if_neg hl]
    rw [e]
    exact hs

theorem Stored.value {h : Hasher} {Q : Key → Bytes → Prop} {B : Key → Prop} {s : Storage} (hs : Stored h Q B s) {k : Key} {v : Bytes}
    (hv : view h s k = some v) : Q k v := by
  unfold Account.view at hv
  cases h1 : s.dirty.get (h.hash k.text) with
  | some u =>
    rw [h1] at hv
    simp at hv
    subst hv
    exact hs.dirty _ (AMap.mem_of_get h1) k rfl
  | none =>
    cases h2 : s.next.changes.get (h.hash k.text) with
    | some u =>
      rw [h1, h2] at hv
      simp at hv
      subst hv
      exact hs.changes _ (AMap.mem_of_get h2) k rfl
    | none =>
      rw [h1, h2] at hv
      simp only [Option.or_none, Option.none_or, Svm.Storage.queryCurrent,
        Option.map_eq_some_iff] at hv
      obtain ⟨r, hr, rfl⟩ := hv
      have hm := List.mem_filter.1 (Svm.Storage.selectMax_mem hr)
      simp only [Bool.and_eq_true, decide_eq_true_eq] at hm
      exact hs.rows r hm.1 k hm.2.1

theorem stored_fresh (h : Hasher) (Q : Key → Bytes → Prop) : Stored h Q (fun _ => False) Svm.Storage.fresh := by
  refine ⟨Svm.Storage.inv_fresh, ?_, ?_, ?_, ?_⟩ <;> simp [Svm.Storage.fresh]

/-- The keys with values below layer 0 have values forever. -/
theorem Stored.has {h : Hasher} {Q : Key → Bytes → Prop} {B : Key → Prop} {s : Storage} (hs : Stored h Q B s)
    {k : Key} (hk : B k) : ∃ v, view h s k = some v := by
  obtain ⟨r, hr, h1, -⟩ := hs.base k hk
  unfold Account.view
  cases s.dirty.get (h.hash k.text) with
  | some v => exact ⟨v, rfl⟩
  | none =>
    cases s.next.changes.get (h.hash k.text) with
    | some v => exact ⟨v, rfl⟩
    | none =>
      simp only [Option.or_none, Option.none_or, Svm.Storage.queryCurrent]
      have hm : r ∈ s.db.values.filter fun v =>
          decide (v.keyHash = h.hash k.text) && s.db.layers.any fun r => r.complete :=
        List.mem_filter.2 ⟨hr, by simp [h1, hs.inv.any_complete]⟩
      generalize (s.db.values.filter fun v =>
        decide (v.keyHash = h.hash k.text) && s.db.layers.any fun r => r.complete) = l at hm
      cases l with
      | nil => cases hm
      | cons x l =>
        simp only [Svm.Storage.selectMax]
        split
        · exact ⟨_, rfl⟩
        · split <;> exact ⟨_, rfl⟩

/-- The keys that have values when the storage is committed at a layer below 0. -/
theorem Stored.rebase {h : Hasher} {Q : Key → Bytes → Prop} {B B' : Key → Prop} {s : Storage} (hs : Stored h Q B s)
    (hd : s.dirty = []) (hn : s.next.changes = []) (hl : s.next.id ≤ 0) (hb : ∀ k, B' k → ∃ v, view h s k = some v) :
    Stored h Q B' s := by
  refine ⟨hs.inv, hs.dirty, hs.changes, hs.rows, ?_⟩
  intro k hk
  obtain ⟨v, hv⟩ := hb k hk
  unfold Account.view at hv
  rw [hd, hn] at hv
  simp only [AMap.get, Option.or_none, Option.none_or, Svm.Storage.queryCurrent,
    Option.map_eq_some_iff] at hv
  obtain ⟨r, hr, -⟩ := hv
  have hm := List.mem_filter.1 (Svm.Storage.selectMax_mem hr)
  simp only [Bool.and_eq_true, decide_eq_true_eq] at hm
  exact ⟨r, hm.1, hm.2.1, by have := (hs.inv.vals r hm.1).2; omega⟩

/-- `Q` restricts the templates only. -/
def Free (Q : Key → Bytes → Prop) : Prop :=
  ∀ k v, (∀ t, k ≠ .core t) → (∀ t, k ≠ .noncore t) → Q k v

theorem Stored.commitChanges {h : Hasher} {Q : Key → Bytes → Prop} {B : Key → Prop} {s : Storage}
    (hs : Stored h Q B s) (o : Orders) (env : Env) : Stored h Q B (commitChanges h o env s).1 := by
  have h1 := (hs.checkpoint o.checkpoint).commit o.commit
  unfold Runtime.commitChanges
  split
  · simp only
    split
    · split <;> exact h1
    · exact h1
  · exact hs

/-! ## Templates in the storage -/

/-- Every section that can be decoded from a stored template is allowed at its address. -/
def TplOk (chk : Bool) (P : Addr → Section → Prop) : Key → Bytes → Prop
  | .core t, v => ∀ ss rest, decSections chk none v = .ok (ss, rest) → ∀ x ∈ ss, P t x
  | .noncore t, v => ∀ ss rest, decSections chk none v = .ok (ss, rest) → ∀ x ∈ ss, P t x
  | _, _ => True

theorem free_tplOk (chk : Bool) (P : Addr → Section → Prop) : Free (TplOk chk P) := by
  intro k v h1 h2
  cases k with
  | core t => exact absurd rfl (h1 t)
  | noncore t => exact absurd rfl (h2 t)
  | _ => trivial

theorem puts_exec {Q : Key → Bytes → Prop} (hq : Free Q) (chk : Bool) (eng : Engine) (call : Call) :
    Puts Q (exec chk eng call) := by
  refine Puts.of_writes (does_exec chk eng call).writes ?_
  rintro k v (⟨b, rfl⟩ | ⟨i, rfl⟩) <;> exact hq _ _ (by simp) (by simp)

theorem Stored.execCall {h : Hasher} (hc : NoCollision h) {Q : Key → Bytes → Prop} (hq : Free Q) {B : Key → Prop} {s : Storage}
    (hs : Stored h Q B s) (chk' : Bool) (o : Orders) (eng : Engine) (call : Call) :
    Stored h Q B (execCall chk' h o eng call s).1 := by
  have h1 := hs.run hc (puts_exec hq chk' eng call)
  unfold Runtime.execCall
  simp only
  split
  · unfold outcomeToReceipt
    split
    · exact h1
    · exact h1.commitChanges o _
  · exact h1
  · exact h1

/-- What a deployment may write. -/
def Event.Lays (chk : Bool) (h : Hasher) (Q : Key → Bytes → Prop) : Event → Prop
  | .tx (.deploy _ m) => ∀ ss rest c bs, decSections chk none m = .ok (ss, rest) → codeSection ss = some c →
      encSections ss = some bs → Q (.core (computeTemplateAddr h c)) bs ∧ Q (.noncore (computeTemplateAddr h c)) bs
  | _ => True

/-- What a deployment may bring in. -/
def Event.Brings (chk : Bool) (h : Hasher) (P : Addr → Section → Prop) : Event → Prop
  | .tx (.deploy _ m) => ∀ ss rest c, decSections chk none m = .ok (ss, rest) → codeSection ss = some c →
      ∀ x ∈ ss, P (computeTemplateAddr h c) x
  | _ => True

theorem puts_encodeAndWrite {Q : Key → Bytes → Prop} {e : Enc} {k : Key} (h : ∀ bs, e = some bs → Q k bs) :
    Puts Q (encodeAndWrite e k) := by
  cases e with
  | none => trivial
  | some bs => exact ⟨h bs rfl, trivial⟩

theorem puts_create {Q : Key → Bytes → Prop} (hq : Free Q) (chk : Bool) (a t : Addr) (nm : Str) (b : U64) (c : U128) :
    Puts Q (createAccount chk a t nm b c) := by
  refine Puts.of_writes ((writes_create chk a nm t b c).unwrap.bind fun _ => trivial) ?_
  rintro k v (rfl | rfl) <;> exact hq _ _ (by simp) (by simp)

theorem Event.Brings.lays {chk : Bool} {h : Hasher} {P : Addr → Section → Prop} {e : Event}
    (he : e.Brings chk h P) : e.Lays chk h (TplOk chk P) := by
  cases e with
  | tx t =>
    cases t with
    | deploy e m =>
      intro ss rest c bs hd hcs hbs
      have hv : ∀ ss' rest', decSections chk none bs = .ok (ss', rest') →
          ∀ x ∈ ss', P (computeTemplateAddr h c) x := by
        intro ss' rest' hd'
        have := decSections_again hd [] hbs
        rw [List.append_nil, hd'] at this
        cases this
        exact he ss rest c hd hcs
      exact ⟨hv, hv⟩
    | _ => trivial
  | _ => trivial

theorem Stored.deploy {h : Hasher} (hc : NoCollision h) {chk : Bool} {Q : Key → Bytes → Prop} {B : Key → Prop}
    {s : Storage} (hs : Stored h Q B s) (e : Envelope) (m : Bytes) (hm : Event.Lays chk h Q (.tx (.deploy e m))) :
    Stored h Q B (Runtime.deploy chk h e m s).1 := by
  unfold Runtime.deploy
  split
  · rename_i ss rest hd
    simp only
    split
    · exact hs
    · split
      · exact hs
      · rename_i c hcs
        have hp : Puts Q (createTemplate (computeTemplateAddr h c) ss ss) :=
          (puts_encodeAndWrite (k := .core _) fun bs hb => (hm ss rest c bs hd hcs hb).1).bind fun _ =>
            puts_encodeAndWrite (k := .noncore _) fun bs hb => (hm ss rest c bs hd hcs hb).2
        have := hs.run hc hp
        split <;> exact this
  · exact hs

theorem Stored.spawn {h : Hasher} (hc : NoCollision h) {Q : Key → Bytes → Prop} (hq : Free Q) {B : Key → Prop}
    {rs : RState} (hs : Stored h Q B rs.storage) (chk' : Bool) (o : Orders) (eng : Engine) (pr : Pricer) (e : Envelope)
    (m : Bytes) : Stored h Q B (Runtime.spawn chk' h o eng pr e m rs).1.storage := by
  unfold Runtime.spawn
  split
  · rename_i sp rest hd
    have hro := (readOnly_loadTemplate chk' sp.templateAddr).run h rs.storage
    simp only [hro]
    split
    · split
      · exact hs
      · exact hs
      · split
        · exact hs
        · split
          · exact hs
          · show Stored h Q B (spawnAccount chk' h o eng sp e.principal rs.storage).1
            have h1 := hs.run hc (puts_create hq chk' (computeAccountAddr h sp) sp.templateAddr sp.name 0 0)
            unfold spawnAccount
            simp only
            split
            · exact h1.execCall hc hq chk' o eng _
            · exact h1
    · exact hs
  · exact hs

theorem Stored.step {h : Hasher} (hc : NoCollision h) {chk : Bool} {Q : Key → Bytes → Prop} (hq : Free Q) {B : Key → Prop} {rs : RState}
    (hs : Stored h Q B rs.storage) (eng : Engine) (pr : Pricer) (o : Orders) (e : Event)
    (he : e.Lays chk h Q) : Stored h Q B (Node.step chk h eng pr o rs e).1.storage := by
  have hw : ∀ {α : Type} {p : Prog α} {K : Key → Prop}, Writes K p → (∀ k, K k → ∀ t, k ≠ .core t) →
      (∀ k, K k → ∀ t, k ≠ .noncore t) → Stored h Q B (p.run h rs.storage).1 :=
    fun hp h1 h2 => hs.run hc (Puts.of_writes hp fun k v hk => hq k v (h1 k hk) (h2 k hk))
  cases e with
  | tx t =>
    cases t with
    | deploy e m => exact hs.deploy hc e m he
    | spawn e m => exact hs.spawn hc hq chk o eng pr e m
    | call m =>
      show Stored h Q B (call chk h o eng m rs.storage).1
      unfold call
      split
      · rename_i tx rest hd
        have hro := (readOnly_buildCall chk tx .fullAccess tx.funcName tx.calldata).run h rs.storage
        unfold buildAndExec
        simp only [hro]
        split
        · exact hs.execCall hc hq chk o eng _
        · exact hs
      · exact hs
    | verify m =>
      show Stored h Q B (verify chk h o eng m rs.storage).1
      rw [C28_verify_pure]
      exact hs
  | create a t nm b c => exact hs.run hc (puts_create hq chk a t nm b c)
  | credit a amount =>
    refine hw (K := fun k => ∃ b, k = .accMut b) ?_ ?_ ?_
    · refine (readOnly_load _ _).unwrap.writes.bind fun acc => (readOnly_balance _).unwrap.writes.bind fun b => ?_
      split
      · exact ((writes_setBalance acc (b + amount)).unwrap).mono fun k hk => ⟨_, hk⟩
      · trivial
    · rintro k ⟨b, rfl⟩ t ht; cases ht
    · rintro k ⟨b, rfl⟩ t ht; cases ht
  | pay src dst amount =>
    refine hw (K := Own src) ?_ ?_ ?_
    · refine (readOnly_load _ _).unwrap.writes.bind fun acc => ?_
      refine (readOnly_getAccount _ _).writes.bind fun x => ?_
      cases x with
      | none => trivial
      | some _ =>
        refine (readOnly_load _ _).unwrap.writes.bind fun acc' => ?_
        refine (readOnly_balance _).unwrap.writes.bind fun b => ?_
        refine (readOnly_balance _).unwrap.writes.bind fun b' => ?_
        exact writes_moveCoins _ _ _ _ _ _
    · rintro k (⟨b, rfl⟩ | ⟨i, rfl⟩) t ht <;> cases ht
    · rintro k (⟨b, rfl⟩ | ⟨i, rfl⟩) t ht <;> cases ht
  | account a =>
    exact hw (K := fun _ => False) (readOnly_getAccount _ _).writes (fun k hk => hk.elim) (fun k hk => hk.elim)
  | commit => exact hs.commit o.commit
  | rewind l =>
    show Stored h Q B (rewindTo l rs.storage).1
    unfold rewindTo
    split
    · exact hs.rewind (by omega)
    · exact hs
  | layer => exact hs
  | uncommitted => exact hs

theorem Stored.history {h : Hasher} (hc : NoCollision h) {chk : Bool} {Q : Key → Bytes → Prop} (hq : Free Q)
    {B : Key → Prop} (eng : Engine) (pr : Pricer) (es : List Event) (he : ∀ e ∈ es, e.Lays chk h Q) (rs : RState)
    (hs : Stored h Q B rs.storage) (os : Nat → Orders) :
    Stored h Q B (Node.run chk h eng pr rs es os).1.storage := by
  induction es generalizing rs os with
  | nil => exact hs
  | cons e es ih =>
    exact ih (fun x hx => he x (List.mem_cons_of_mem _ hx)) _
      (hs.step hc hq eng pr (os 0) e (he e List.mem_cons_self)) _

/-! ## Loading a template -/

theorem tryGet_insert (x : Section) (s : Sections) (k : Kind) :
    (Sections.insert x s).tryGet k = if x.kind = k then some x else s.tryGet k := by
  induction s with
  | nil => by_cases h : x.kind = k <;> simp [Sections.insert, Sections.tryGet, h]
  | cons y ys ih =>
    unfold Sections.insert
    by_cases h1 : y.kind = x.kind
    · rw [if_pos h1]
      by_cases h2 : x.kind = k
      · simp [Sections.tryGet, h2]
      · have h3 : ¬ y.kind = k := fun h => h2 (h1 ▸ h)
        simp [Sections.tryGet, h2, h3]
    · rw [if_neg h1]
      by_cases h2 : y.kind = k
      · have h3 : ¬ x.kind = k := fun h => h1 (h2.trans h.symm)
        simp [Sections.tryGet, h2, h3]
      · have e : ∀ l : Sections, Sections.tryGet (y :: l) k = l.tryGet k := fun l => by
          simp [Sections.tryGet, h2]
        rw [e, e, ih]

theorem mem_insert {x y : Section} {s : Sections} (h : y ∈ Sections.insert x s) : y = x ∨ y ∈ s := by
  induction s with
  | nil => simpa [Sections.insert] using h
  | cons z zs ih =>
    unfold Sections.insert at h
    split at h
    · rcases List.mem_cons.1 h with h | h
      · exact .inl h
      · exact .inr (List.mem_cons_of_mem _ h)
    · rcases List.mem_cons.1 h with h | h
      · exact .inr (h ▸ List.mem_cons_self)
      · exact (ih h).imp id (List.mem_cons_of_mem _)

theorem mem_merge {y : Section} (l s : Sections) (h : y ∈ l.foldl (fun acc x => Sections.insert x acc) s) :
    y ∈ s ∨ y ∈ l := by
  induction l generalizing s with
  | nil => exact .inl h
  | cons x l ih =>
    rcases ih _ h with h | h
    · rcases mem_insert h with h | h
      · exact .inr (h ▸ List.mem_cons_self)
      · exact .inl h
    · exact .inr (List.mem_cons_of_mem _ h)

theorem codeSection_mem {ss : Sections} {c : CodeSection} (h : codeSection ss = some c) : .code c ∈ ss := by
  unfold codeSection at h
  split at h
  · rename_i c' hc
    cases h
    exact List.mem_of_find?_eq_some hc
  · cases h

theorem readAndDecode_some {α : Type} {d : Dec α} {k : Key} {w : View} {a : α}
    (h : ((readAndDecode d k).eval w).2 = .ok a) : ∃ v rest, w k = some v ∧ d v = .ok (a, rest) := by
  have e : (readAndDecode d k).eval w = (match w k with
    | none => (.err .notFound : Prog α)
    | some bs => match d bs with
      | .ok (a, _) => .ret a
      | .err _ => .err .illegalData
      | .panic => .panic).eval w := rfl
  rw [e] at h
  cases hk : w k with
  | none => rw [hk] at h; cases h
  | some v =>
    rw [hk] at h
    simp only at h
    cases hd : d v with
    | ok x =>
      obtain ⟨a', rest⟩ := x
      rw [hd] at h
      cases h
      exact ⟨v, rest, rfl, hd⟩
    | err => rw [hd] at h; cases h
    | panic => rw [hd] at h; cases h

/-- Where the sections of a loaded template come from. -/
theorem load_cases {h : Hasher} (hc : NoCollision h) {chk : Bool} {s : Storage} {t : Addr} {ss : Sections}
    (hl : out h (loadTemplate chk t) s = .ok ss) : ∃ core rest b1 b2 r1 r2,
      view h s (.core t) = some b1 ∧ view h s (.noncore t) = some b2 ∧ decSections chk none b1 = .ok (core, r1) ∧
      decSections chk none b2 = .ok (rest, r2) ∧ ss = rest.foldl (fun acc x => Sections.insert x acc) core := by
  rw [out_eval hc] at hl
  unfold loadTemplate at hl
  have hl : ((readSections chk t).eval (view h s)).2 = .ok ss := by
    rcases hx : (readSections chk t).eval (view h s) with ⟨w, o⟩
    have := Prog.eval_unwrap (readSections chk t) (view h s)
    rw [hx] at this
    rw [this] at hl
    cases o with
    | ok a => simpa using hl
    | err => cases hl
    | panic => cases hl
  unfold readSections at hl
  simp only [Prog.bind_eq, Prog.eval_bind] at hl
  have v1 := readAndDecode_view (decSections chk none) (.core t) (view h s)
  have s1 := fun a => readAndDecode_some (d := decSections chk none) (k := .core t) (w := view h s) (a := a)
  generalize (readAndDecode (decSections chk none) (.core t)).eval (view h s) = x at *
  obtain ⟨x1, x2⟩ := x
  simp only at v1
  subst v1
  cases x2 with
  | ok core =>
    simp only at hl
    have s2 := fun a => readAndDecode_some (d := decSections chk none) (k := .noncore t) (w := view h s) (a := a)
    generalize (readAndDecode (decSections chk none) (.noncore t)).eval (view h s) = y at *
    obtain ⟨y1, y2⟩ := y
    cases y2 with
    | ok noncore =>
      cases hl
      obtain ⟨v, r, e1, e2⟩ := s1 _ rfl
      obtain ⟨v', r', e1', e2'⟩ := s2 _ rfl
      exact ⟨_, _, v, v', r, r', e1, e1', e2, e2', rfl⟩
    | err => cases hl
    | panic => cases hl
  | err => cases hl
  | panic => cases hl

/-- Sections that are read from the storage come from the two stored parts. -/
theorem Stored.sections {h : Hasher} (hc : NoCollision h) {chk : Bool} {P : Addr → Section → Prop} {B : Key → Prop}
    {s : Storage} (hs : Stored h (TplOk chk P) B s) {t : Addr} {ss : Sections}
    (hl : out h (loadTemplate chk t) s = .ok ss) : ∀ x ∈ ss, P t x := by
  obtain ⟨core, rest, b1, b2, r1, r2, v1, v2, d1, d2, rfl⟩ := load_cases hc hl
  intro x hx
  rcases mem_merge _ _ hx with hx | hx
  · exact hs.value v1 _ _ d1 x hx
  · exact hs.value v2 _ _ d2 x hx

/-! ## Genesis -/

/-- What is decoded from encoded sections: the same ones, except for data sections. -/
theorem decSectionsLoop_encoded (chk : Bool) (s acc : Sections) (bs rest : Bytes)
    (he : encMany encWithPreview s = some bs) {ss : Sections} {r : Bytes}
    (h : decSectionsLoop chk none s.length acc (bs ++ rest) = .ok (ss, r)) :
    ∀ x ∈ ss, x.kind = .data ∨ x ∈ acc ∨ x ∈ s := by
  induction s generalizing acc bs with
  | nil =>
    cases he
    cases h
    exact fun x hx => .inr (.inl hx)
  | cons y ys ih =>
    obtain ⟨b1, b2, h1, h2, rfl⟩ := Enc.seq_eq_some.1 he
    obtain ⟨k, n, b, hk, hn, hb, rfl, -⟩ := encWithPreview_some h1
    have e : k ++ (n ++ b) ++ b2 ++ rest = k ++ (n ++ (b ++ (b2 ++ rest))) := by simp
    rw [e] at h
    simp only [List.length_cons, decSectionsLoop] at h
    rw [roundTrip_kind.step hk, (roundTrip_num 4).step hn] at h
    rw [if_pos (show interested none y.kind = true from rfl)] at h
    rcases decSection_consumes chk y b (b2 ++ rest) hb with h3 | ⟨y', h3, h4⟩
    · rw [Dec.bind_apply, h3] at h
      cases h
    · rw [Dec.bind_ok h3] at h
      intro x hx
      rcases ih _ _ h2 h x hx with h5 | h5 | h5
      · exact .inl h5
      · rcases mem_insert h5 with h6 | h6
        · by_cases hy : y.Representable
          · have := decSection_representable chk y hy b (b2 ++ rest) hb
            rw [h3] at this
            cases this
            exact .inr (.inr (h6 ▸ List.mem_cons_self))
          · left
            rw [h6, h4]
            cases y with
            | data => rfl
            | _ => exact absurd trivial hy
        · exact .inr (.inl h6)
      · exact .inr (.inr (List.mem_cons_of_mem _ h5))

theorem decSections_encoded {chk : Bool} {s : Sections} {bs : Bytes} (he : encSections s = some bs)
    {ss : Sections} {r : Bytes} (h : decSections chk none bs = .ok (ss, r)) :
    ∀ x ∈ ss, x.kind = .data ∨ x ∈ s := by
  obtain ⟨a, b, ha, hb, rfl, hn⟩ := encSections_some he
  unfold decSections at h
  rw [(roundTrip_num 2).step ha, hn] at h
  have e : b = b ++ [] := by simp
  rw [e] at h
  intro x hx
  rcases decSectionsLoop_encoded chk s [] b [] hb h x hx with h | h | h
  · exact .inl h
  · cases h
  · exact .inr h

theorem perm_swapRemove (k : Kind) (s : Sections) (hv : (s.map Section.kind).Nodup) :
    (swapRemove k s).Perm (s.filter fun x => x.kind ≠ k) := by
  unfold swapRemove
  cases hi : s.findIdx? (fun x => x.kind = k) with
  | none =>
    rw [List.findIdx?_eq_none_iff] at hi
    simp only
    rw [List.filter_eq_self.2]
    intro x hx
    simpa using hi x hx
  | some i =>
    obtain ⟨h1, h2, h3⟩ := List.findIdx?_eq_some_iff_getElem.1 hi
    cases hl : s.getLast? with
    | none =>
      rw [List.getLast?_eq_none_iff] at hl
      subst hl
      simp at h1
    | some l =>
      simp only
      have hs : s = s.take i ++ s[i] :: s.drop (i + 1) := by simp
      generalize ha : s.take i = a at hs
      generalize hb : s.drop (i + 1) = b at hs
      generalize hx : s[i] = x at hs h2
      have hlen : a.length = i := by rw [← ha]; simp; omega
      subst hs
      simp only [decide_eq_true_eq] at h2
      simp only [List.map_append, List.map_cons, List.nodup_append, List.nodup_cons, List.mem_cons,
        List.mem_map] at hv
      have fa : a.filter (fun x => x.kind ≠ k) = a := by
        rw [List.filter_eq_self]
        intro y hy
        have := hv.2.2 _ ⟨y, hy, rfl⟩ x.kind (.inl rfl)
        rw [h2] at this
        simpa using this
      have fb : b.filter (fun x => x.kind ≠ k) = b := by
        rw [List.filter_eq_self]
        intro y hy
        have : y.kind ≠ k := fun e => hv.2.1.1 ⟨y, hy, by rw [e, h2]⟩
        simpa using this
      have e1 : ((a ++ x :: b).filter fun x => x.kind ≠ k) = a ++ b := by
        rw [List.filter_append, List.filter_cons_of_neg (by simpa using h2), fa, fb]
      rw [e1]
      have e2 : (a ++ x :: b).set i l = a ++ l :: b := by
        rw [← hlen, List.set_append_right _ _ (Nat.le_refl _)]
        simp
      rw [e2]
      rcases List.eq_nil_or_concat b with hb' | ⟨b', z, hb'⟩
      · subst hb'
        simp
      · subst hb'
        have hz : l = z := by
          rw [List.concat_eq_append, show a ++ x :: (b' ++ [z]) = (a ++ x :: b') ++ [z] by simp,
            List.getLast?_concat] at hl
          exact (Option.some.inj hl).symm
        subst hz
        rw [List.concat_eq_append, show a ++ l :: (b' ++ [l]) = (a ++ l :: b') ++ [l] by simp,
          List.dropLast_concat]
        exact List.Perm.append_left a (List.perm_append_singleton l b').symm

theorem tryGet_iff {s : Sections} (hv : (s.map Section.kind).Nodup) {k : Kind} {x : Section} :
    s.tryGet k = some x ↔ x ∈ s ∧ x.kind = k := by
  induction s with
  | nil => simp [Sections.tryGet]
  | cons y ys ih =>
    simp only [List.map_cons, List.nodup_cons, List.mem_map, not_exists, not_and] at hv
    by_cases h : y.kind = k
    · have e : Sections.tryGet (y :: ys) k = some y := by simp [Sections.tryGet, h]
      rw [e]
      constructor
      · intro h'
        cases h'
        exact ⟨List.mem_cons_self, h⟩
      · rintro ⟨h1, h2⟩
        rcases List.mem_cons.1 h1 with h1 | h1
        · rw [h1]
        · exact absurd (h2.trans h.symm) (hv.1 x h1)
    · have e : Sections.tryGet (y :: ys) k = Sections.tryGet ys k := by simp [Sections.tryGet, h]
      rw [e, ih hv.2]
      constructor
      · exact fun ⟨h1, h2⟩ => ⟨List.mem_cons_of_mem _ h1, h2⟩
      · rintro ⟨h1, h2⟩
        rcases List.mem_cons.1 h1 with h1 | h1
        · exact absurd (h1 ▸ h2) h
        · exact ⟨h1, h2⟩

/-- The two parts of a genesis template. -/
theorem removeNoncore_spec {s : Sections} (hv : (s.map Section.kind).Nodup) :
    match removeNoncore s with
    | some (core, rest) => ∃ code ctors data, core = [code, ctors, data] ∧ code.kind = .code ∧
        ctors.kind = .ctors ∧ data.kind = .data ∧ ([code, ctors, data] ++ rest).Perm s
    | none => ∃ k ∈ [Kind.code, .ctors, .data], ∀ x ∈ s, x.kind ≠ k := by
  have nod : ∀ {a b : Sections}, a.Perm b → (b.map Section.kind).Nodup → (a.map Section.kind).Nodup :=
    fun hp hb => ((hp.map Section.kind).nodup_iff).2 hb
  have fil : ∀ {a : Sections} (k : Kind), (a.map Section.kind).Nodup →
      ((a.filter fun x => x.kind ≠ k).map Section.kind).Nodup :=
    fun k ha => ha.sublist (List.filter_sublist.map _)
  have none_mem : ∀ {a : Sections} {k : Kind}, a.tryGet k = none → ∀ x ∈ a, x.kind ≠ k := by
    intro a k h x hx
    have := List.find?_eq_none.1 h x hx
    simpa using this
  have p1 := perm_swapRemove .code s hv
  have v1 := nod p1 (fil .code hv)
  have p2 := perm_swapRemove .ctors _ v1
  have v2 := nod p2 (fil .ctors v1)
  have p3 := perm_swapRemove .data _ v2
  unfold removeNoncore
  cases hcode : s.tryGet .code with
  | none => exact ⟨.code, by simp, none_mem hcode⟩
  | some code =>
    obtain ⟨m1, k1⟩ := (tryGet_iff hv).1 hcode
    simp only [Option.bind_eq_bind, Option.bind_some]
    cases hctors : (swapRemove .code s).tryGet .ctors with
    | none =>
      refine ⟨.ctors, by simp, fun x hx hk => ?_⟩
      refine none_mem hctors x (p1.mem_iff.2 (List.mem_filter.2 ⟨hx, ?_⟩)) hk
      simp [hk]
    | some ctors =>
      obtain ⟨m2, k2⟩ := (tryGet_iff v1).1 hctors
      simp only [Option.bind_some]
      cases hdata : (swapRemove .ctors (swapRemove .code s)).tryGet .data with
      | none =>
        refine ⟨.data, by simp, fun x hx hk => ?_⟩
        refine none_mem hdata x (p2.mem_iff.2 (List.mem_filter.2
          ⟨p1.mem_iff.2 (List.mem_filter.2 ⟨hx, ?_⟩), ?_⟩)) hk <;> simp [hk]
      | some data =>
        obtain ⟨m3, k3⟩ := (tryGet_iff v2).1 hdata
        simp only [Option.bind_some]
        refine ⟨code, ctors, data, ?_, k1, k2, k3, ?_⟩
        · simp [Sections.insert, k1, k2, k3]
        · have one : ∀ {a : Sections} {x : Section}, (a.map Section.kind).Nodup → x ∈ a →
              (x :: a.filter fun y => y.kind ≠ x.kind).Perm a := by
            intro a x
            induction a with
            | nil => intro _ hx; cases hx
            | cons y ys ih =>
              intro hn hx
              simp only [List.map_cons, List.nodup_cons, List.mem_map, not_exists, not_and] at hn
              by_cases hxy : y.kind = x.kind
              · have e : x = y := by
                  rcases List.mem_cons.1 hx with h | h
                  · exact h
                  · exact absurd hxy.symm (hn.1 x h)
                subst e
                rw [List.filter_cons_of_neg (by simp), List.filter_eq_self.2]
                intro z hz
                simpa using hn.1 z hz
              · rw [List.filter_cons_of_pos (by simpa using hxy)]
                rcases List.mem_cons.1 hx with h | h
                · exact absurd (by rw [h]) hxy
                · exact (List.Perm.swap y x _).trans ((ih hn.2 h).cons y)
          have q3 := one v2 m3
          rw [k3] at q3
          have q2 := one v1 m2
          rw [k2] at q2
          have q1 := one hv m1
          rw [k1] at q1
          show (code :: ctors :: data :: _).Perm s
          exact ((((((p3.cons data).trans q3).trans p2).cons ctors).trans q2).trans p1 |>.cons code).trans q1

/-- What is written at genesis. -/
theorem puts_genesis {Q : Key → Bytes → Prop} : ∀ ts : List (Addr × Sections),
    (∀ p ∈ ts, ∀ core rest, removeNoncore p.2 = some (core, rest) →
      (∀ bs, encSections core = some bs → Q (.core p.1) bs) ∧
      ∀ bs, encSections rest = some bs → Q (.noncore p.1) bs) → Puts Q (genesisProg ts)
  | [], _ => trivial
  | (t, ss) :: ts, hP => by
    have ih := puts_genesis ts (fun p hp => hP p (List.mem_cons_of_mem _ hp))
    have h2 := hP (t, ss) List.mem_cons_self
    unfold genesisProg
    cases hr : removeNoncore ss with
    | none => trivial
    | some r =>
      obtain ⟨core, rest⟩ := r
      obtain ⟨h3, h4⟩ := h2 core rest hr
      show Puts _ ((createTemplate t core rest).bind fun _ => genesisProg ts)
      refine Puts.bind ?_ fun _ => ih
      show Puts _ ((encodeAndWrite (encSections core) (.core t)).bind fun _ =>
        encodeAndWrite (encSections rest) (.noncore t))
      exact (puts_encodeAndWrite (k := .core t) h3).bind fun _ => puts_encodeAndWrite (k := .noncore t) h4

theorem genesis_tplOk {chk : Bool} {P : Addr → Section → Prop} (hdata : ∀ t x, x.kind = .data → P t x)
    {t : Addr} {ss : Sections} (hv : ss.Valid) (hP : ∀ x ∈ ss, P t x) {core rest : Sections}
    (hr : removeNoncore ss = some (core, rest)) :
    (∀ bs, encSections core = some bs → TplOk chk P (.core t) bs) ∧
      ∀ bs, encSections rest = some bs → TplOk chk P (.noncore t) bs := by
  have h1 := removeNoncore_spec hv
  rw [hr] at h1
  obtain ⟨code, ctors, data, rfl, -, -, -, hp⟩ := h1
  have hw : ∀ l : Sections, (∀ x ∈ l, x ∈ ss) → ∀ bs, encSections l = some bs → ∀ ss' rest',
      decSections chk none bs = .ok (ss', rest') → ∀ x ∈ ss', P t x := by
    intro l hl bs hbs ss' rest' hd x hx
    rcases decSections_encoded hbs hd x hx with h | h
    · exact hdata t x h
    · exact hP x (hl x h)
  exact ⟨hw _ fun x hx => hp.mem_iff.1 (List.mem_append_left _ hx),
    hw _ fun x hx => hp.mem_iff.1 (List.mem_append_right _ hx)⟩

/-- The storage after genesis. -/
theorem start_storage {h : Hasher} {ts : List (Addr × Sections)} {o : Orders} {rs : RState}
    (hs : Node.start h o ts = some rs) : ((genesisProg ts).run h Svm.Storage.fresh).2 = .ok () ∧
      rs = ⟨(Svm.Storage.commit o.commit (Svm.Storage.checkpoint h o.checkpoint
        ((genesisProg ts).run h Svm.Storage.fresh).1)).1, []⟩ := by
  unfold Node.start at hs
  simp only at hs
  split at hs
  · rename_i h1
    split at hs
    · cases hs
      exact ⟨h1, rfl⟩
    · cases hs
  · cases hs

theorem stored_start {h : Hasher} (hc : NoCollision h) {Q : Key → Bytes → Prop} {ts : List (Addr × Sections)}
    (hP : ∀ p ∈ ts, ∀ core rest, removeNoncore p.2 = some (core, rest) →
      (∀ bs, encSections core = some bs → Q (.core p.1) bs) ∧
      ∀ bs, encSections rest = some bs → Q (.noncore p.1) bs)
    {o : Orders} {rs : RState} (hs : Node.start h o ts = some rs) :
    Stored h Q (fun _ => False) rs.storage ∧ rs.cache = [] := by
  obtain ⟨-, rfl⟩ := start_storage hs
  exact ⟨((stored_fresh h Q).run hc (puts_genesis ts hP)).checkpoint o.checkpoint |>.commit o.commit, rfl⟩

/-! ## C104 -/

/-- The code section of a genesis template or of a deployment among these events. -/
def Brought (chk : Bool) (ts : List (Addr × Sections)) (es : List Event) (c : CodeSection) : Prop :=
  (∃ p ∈ ts, codeSection p.2 = some c) ∨
    ∃ e m ss rest, Event.tx (.deploy e m) ∈ es ∧ decSections chk none m = .ok (ss, rest) ∧ codeSection ss = some c

/-- A genesis configuration in which every template is at the address of its code. -/
structure GenesisOk (h : Hasher) (ts : List (Addr × Sections)) : Prop where
  valid : ∀ p ∈ ts, p.2.Valid
  addr : ∀ p ∈ ts, ∀ c, codeSection p.2 = some c → computeTemplateAddr h c = p.1

/-- No two different codes that were brought in have the same address. -/
def Distinct (chk : Bool) (h : Hasher) (ts : List (Addr × Sections)) (es : List Event) : Prop :=
  ∀ c c', Brought chk ts es c → Brought chk ts es c' →
    computeTemplateAddr h c = computeTemplateAddr h c' → c.code = c'.code

/-- A code section that was brought in, at its address. -/
def AtHome (chk : Bool) (h : Hasher) (ts : List (Addr × Sections)) (es : List Event) (t : Addr) (x : Section) : Prop :=
  ∀ c, x = .code c → computeTemplateAddr h c = t ∧ Brought chk ts es c

theorem codeSection_of_mem {ss : Sections} (hv : ss.Valid) {c : CodeSection} (h : .code c ∈ ss) :
    codeSection ss = some c := by
  unfold codeSection
  rw [show ss.tryGet .code = some (.code c) from (tryGet_iff hv).2 ⟨h, rfl⟩]

theorem atHome_start {chk : Bool} {h : Hasher} (hc : NoCollision h) {ts : List (Addr × Sections)}
    (hg : GenesisOk h ts) (es : List Event) {o : Orders} {rs : RState} (hs : Node.start h o ts = some rs) :
    Stored h (TplOk chk (AtHome chk h ts es)) (fun _ => False) rs.storage ∧ rs.cache = [] := by
  refine stored_start hc (fun p hp core rest => genesis_tplOk ?_ (hg.valid p hp) ?_) hs
  · rintro t x hx c rfl
    cases hx
  · rintro x hx c rfl
    have := codeSection_of_mem (hg.valid p hp) hx
    exact ⟨hg.addr p hp c this, .inl ⟨p, hp, this⟩⟩

theorem atHome_brings {chk : Bool} {h : Hasher} {ts : List (Addr × Sections)} {es : List Event} :
    ∀ e ∈ es, e.Brings chk h (AtHome chk h ts es) := by
  intro e he
  cases e with
  | tx t =>
    cases t with
    | deploy e m =>
      rintro ss rest c hd hcs x hx c' rfl
      have := codeSection_of_mem (decSections_decoded hd).1 hx
      rw [hcs] at this
      cases this
      exact ⟨rfl, .inr ⟨e, m, ss, rest, he, hd, hcs⟩⟩
    | _ => trivial
  | _ => trivial

/-- C104: at every point of every history of a node, whatever was deployed, spawned, called, created, paid,
committed and rewound before, the code of a template that can be loaded has the address of the template, and
was brought in at genesis or by a deployment. -/
theorem C104_content_addressed {h : Hasher} (hc : NoCollision h) {chk : Bool} {ts : List (Addr × Sections)}
    (hg : GenesisOk h ts) {o : Orders} {rs : RState} (hs : Node.start h o ts = some rs) (eng : Engine) (pr : Pricer)
    (es : List Event) (os : Nat → Orders) {t : Addr} {ss : Sections} {c : CodeSection}
    (hl : out h (loadTemplate chk t) (Node.run chk h eng pr rs es os).1.storage = .ok ss)
    (hcs : codeSection ss = some c) : computeTemplateAddr h c = t ∧ Brought chk ts es c :=
  ((Stored.history hc (free_tplOk _ _) eng pr es (fun e he => (atHome_brings e he).lays) rs (atHome_start hc hg es hs).1 os).sections hc hl) _
    (codeSection_mem hcs) c rfl

theorem Brought.mono {chk : Bool} {ts : List (Addr × Sections)} {es es' : List Event} {c : CodeSection}
    (h : Brought chk ts es c) (hsub : ∀ e ∈ es, e ∈ es') : Brought chk ts es' c := by
  rcases h with h | ⟨e, m, ss, rest, h1, h2⟩
  · exact .inl h
  · exact .inr ⟨e, m, ss, rest, hsub _ h1, h2⟩

/-- C104: the code at an address never changes: what is loaded at two points of a history is the same code, unless
two of the codes that were brought in collide. -/
theorem C104_one_code {h : Hasher} (hc : NoCollision h) {chk : Bool} {ts : List (Addr × Sections)}
    (hg : GenesisOk h ts) {o : Orders} {rs : RState} (hs : Node.start h o ts = some rs) (eng : Engine) (pr : Pricer)
    (es es' : List Event) (os os' : Nat → Orders) (hd : Distinct chk h ts (es ++ es')) {t : Addr} {ss ss' : Sections}
    {c c' : CodeSection} (hl : out h (loadTemplate chk t) (Node.run chk h eng pr rs es os).1.storage = .ok ss)
    (hcs : codeSection ss = some c)
    (hl' : out h (loadTemplate chk t) (Node.run chk h eng pr rs (es ++ es') os').1.storage = .ok ss')
    (hcs' : codeSection ss' = some c') : c.code = c'.code := by
  obtain ⟨h1, h2⟩ := C104_content_addressed hc hg hs eng pr es os hl hcs
  obtain ⟨h3, h4⟩ := C104_content_addressed hc hg hs eng pr (es ++ es') os' hl' hcs'
  exact hd c c' (h2.mono fun e he => List.mem_append_left _ he) h4 (h1.trans h3.symm)

/-- Every cached price list was computed from a code at its address. -/
def Cached (pr : Pricer) (B : Addr → CodeSection → Prop) (cache : PriceCache) : Prop :=
  ∀ t p, cache.get t = some p → ∃ c, B t c ∧ pr.price c.code = some p

theorem Cached.priceOf {pr : Pricer} {B : Addr → CodeSection → Prop} {cache : PriceCache} (h : Cached pr B cache)
    {t : Addr} {c : CodeSection} (hb : B t c) : Cached pr B (priceOf pr cache t c.code).1 := by
  unfold Runtime.priceOf
  split
  · exact h
  · split
    · rename_i p hp
      intro t' p' h'
      simp only [AMap.get_insert] at h'
      split at h'
      · rename_i e
        cases h'
        exact ⟨c, e ▸ hb, hp⟩
      · exact h t' p' h'
    · exact h

theorem Cached.check {pr : Pricer} {B : Addr → CodeSection → Prop} {cache : PriceCache} (h : Cached pr B cache)
    {t : Addr} {ss : Sections} (hb : ∀ c, codeSection ss = some c → B t c) (func : Str) (gas : GasTank) :
    Cached pr B (checkGasForFunc pr cache t ss func gas).1 := by
  unfold checkGasForFunc
  split
  · exact h
  · split
    · exact h
    · rename_i c hcs
      have := h.priceOf (hb c hcs)
      split
      · exact h
      · split
        · exact h
        · split
          · exact h
          · simp only
            split
            · exact this
            · split <;> exact this

theorem Cached.step {h : Hasher} (hc : NoCollision h) {chk : Bool} {ts : List (Addr × Sections)} {es : List Event}
    {rs : RState} (hs : Stored h (TplOk chk (AtHome chk h ts es)) (fun _ => False) rs.storage) {eng : Engine} {pr : Pricer}
    (hk : Cached pr (fun t c => computeTemplateAddr h c = t ∧ Brought chk ts es c) rs.cache) (o : Orders) (e : Event) :
    Cached pr (fun t c => computeTemplateAddr h c = t ∧ Brought chk ts es c) (Node.step chk h eng pr o rs e).1.cache := by
  cases e with
  | tx t =>
    cases t with
    | spawn e m =>
      show Cached pr _ (spawn chk h o eng pr e m rs).1.cache
      unfold spawn
      split
      · rename_i sp rest hd
        simp only [run_out]
        split
        · rename_i ss hl
          have hb : ∀ c, codeSection ss = some c → computeTemplateAddr h c = sp.templateAddr ∧ Brought chk ts es c :=
            fun c hcs => hs.sections hc hl _ (codeSection_mem hcs) c rfl
          split
          · exact hk
          · exact hk
          · have := hk.check hb sp.ctorName (checkGasForPayload m (GasTank.new e.gasLimit))
            split
            · exact this
            · split <;> exact this
        · exact hk
      · exact hk
    | _ => exact hk
  | _ => exact hk

theorem Cached.history {h : Hasher} (hc : NoCollision h) {chk : Bool} {ts : List (Addr × Sections)}
    {es : List Event} {eng : Engine} {pr : Pricer} (l : List Event) (hl : ∀ e ∈ l, e ∈ es) (rs : RState)
    (hs : Stored h (TplOk chk (AtHome chk h ts es)) (fun _ => False) rs.storage)
    (hk : Cached pr (fun t c => computeTemplateAddr h c = t ∧ Brought chk ts es c) rs.cache) (os : Nat → Orders) :
    Cached pr (fun t c => computeTemplateAddr h c = t ∧ Brought chk ts es c) (Node.run chk h eng pr rs l os).1.cache := by
  induction l generalizing rs os with
  | nil => exact hk
  | cons e l ih =>
    exact ih (fun x hx => hl x (List.mem_cons_of_mem _ hx)) _
      (hs.step hc (free_tplOk _ _) eng pr (os 0) e (atHome_brings e (hl e List.mem_cons_self)).lays) (hk.step hc hs (os 0) e) _

/-- C104 and C57 together: at every point of every history, the prices that are cached for a template are those of
the code that is loaded. -/
theorem C104_cached_prices {h : Hasher} (hc : NoCollision h) {chk : Bool} {ts : List (Addr × Sections)}
    (hg : GenesisOk h ts) {o : Orders} {rs : RState} (hs : Node.start h o ts = some rs) (eng : Engine) (pr : Pricer)
    (es : List Event) (os : Nat → Orders) (hd : Distinct chk h ts es) {t : Addr} {ss : Sections} {c : CodeSection}
    {p : FuncPrice} (hl : out h (loadTemplate chk t) (Node.run chk h eng pr rs es os).1.storage = .ok ss)
    (hcs : codeSection ss = some c) (hp : (Node.run chk h eng pr rs es os).1.cache.get t = some p) :
    pr.price c.code = some p := by
  obtain ⟨h1, h2⟩ := C104_content_addressed hc hg hs eng pr es os hl hcs
  obtain ⟨hst, h0⟩ := atHome_start (chk := chk) hc hg es hs
  obtain ⟨c', ⟨h3, h4⟩, h5⟩ := Cached.history hc es (fun _ he => he) rs hst
    (fun t p hp => by rw [h0] at hp; cases hp) os t p hp
  rw [hd c c' h2 h4 (h1.trans h3.symm)]
  exact h5

/-! ## C32: unchanged templates -/

/-- The event does not deploy a template at this address. -/
def Event.Avoids (chk : Bool) (h : Hasher) (t : Addr) : Event → Prop
  | .tx (.deploy _ m) => ∀ ss rest c, decSections chk none m = .ok (ss, rest) → codeSection ss = some c →
      computeTemplateAddr h c ≠ t
  | _ => True

theorem tryGet_merge {l : Sections} (hl : (l.map Section.kind).Nodup) (s : Sections) (k : Kind) :
    (l.foldl (fun acc x => Sections.insert x acc) s).tryGet k = (l.tryGet k).or (s.tryGet k) := by
  induction l generalizing s with
  | nil => rfl
  | cons x l ih =>
    simp only [List.map_cons, List.nodup_cons, List.mem_map, not_exists, not_and] at hl
    rw [List.foldl_cons, ih hl.2, tryGet_insert]
    by_cases hk : x.kind = k
    · have e1 : Sections.tryGet (x :: l) k = some x := by simp [Sections.tryGet, hk]
      have e2 : Sections.tryGet l k = none := by
        unfold Sections.tryGet
        rw [List.find?_eq_none]
        intro y hy
        have := hl.1 y hy
        rw [hk] at this
        simpa using this
      rw [if_pos hk, e1, e2]
      rfl
    · have e1 : Sections.tryGet (x :: l) k = Sections.tryGet l k := by simp [Sections.tryGet, hk]
      rw [if_neg hk, e1]

theorem load_parts {h : Hasher} (hc : NoCollision h) {chk : Bool} {s : Storage} {t : Addr} {b1 b2 r1 r2 : Bytes}
    {core rest : Sections} (h1 : view h s (.core t) = some b1) (h2 : view h s (.noncore t) = some b2)
    (d1 : decSections chk none b1 = .ok (core, r1)) (d2 : decSections chk none b2 = .ok (rest, r2)) :
    out h (loadTemplate chk t) s = .ok (rest.foldl (fun acc x => Sections.insert x acc) core) := by
  rw [out_eval hc]
  unfold loadTemplate
  rw [Prog.eval_unwrap]
  have : (readSections chk t).eval (view h s) =
      (view h s, .ok (rest.foldl (fun acc x => Sections.insert x acc) core)) := by
    unfold readSections
    rw [Prog.bind_eq, Prog.eval_bind_ok (readAndDecode_ok h1 d1), Prog.bind_eq,
      Prog.eval_bind_ok (readAndDecode_ok h2 d2)]
    rfl
  rw [this]

/-- C32, the part that holds over whole histories: if all deployments at an address bring the same sections, then
these are the sections that are loaded there, whenever any are. Missing: deployments of the same code with other
sections, which replace the template (`C32_same_code`). -/
theorem C32_unchanged_partial {h : Hasher} (hc : NoCollision h) {chk : Bool} {ts : List (Addr × Sections)}
    {t : Addr} (ht : ∀ p ∈ ts, p.1 ≠ t) {o : Orders} {rs : RState} (hs : Node.start h o ts = some rs)
    (eng : Engine) (pr : Pricer) (es : List Event) (os : Nat → Orders) {ss : Sections} (hv : ss.Valid)
    (he : ∀ e m ss' rest c, Event.tx (.deploy e m) ∈ es → decSections chk none m = .ok (ss', rest) →
      codeSection ss' = some c → computeTemplateAddr h c = t → ss' = ss) {ss' : Sections}
    (hl : out h (loadTemplate chk t) (Node.run chk h eng pr rs es os).1.storage = .ok ss') : ss' = ss := by
  let Q : Key → Bytes → Prop := fun k v => k = .core t ∨ k = .noncore t → decSections chk none v = .ok (ss, [])
  have hq : Free Q := fun k v a b e => e.elim (fun e => absurd e (a _)) (fun e => absurd e (b _))
  have hst : Stored h Q (fun _ => False) rs.storage := by
    refine (stored_start hc ?_ hs).1
    intro p hp core rest _
    have := ht p hp
    constructor <;> rintro bs - (e | e) <;> cases e <;> contradiction
  have hlays : ∀ e ∈ es, e.Lays chk h Q := by
    intro e hee
    cases e with
    | tx x =>
      cases x with
      | deploy e m =>
        intro ss1 rest c bs hd hcs hbs
        by_cases hx : computeTemplateAddr h c = t
        · have e1 := he e m ss1 rest c hee hd hcs hx
          subst e1
          have := decSections_again hd [] hbs
          rw [List.append_nil] at this
          exact ⟨fun _ => this, fun _ => this⟩
        · exact ⟨fun e => e.elim (fun e => absurd (Key.core.inj e) hx) (fun e => (by cases e)),
            fun e => e.elim (fun e => (by cases e)) (fun e => absurd (Key.noncore.inj e) hx)⟩
      | _ => trivial
    | _ => trivial
  have hfin := Stored.history hc hq eng pr es hlays rs hst os
  obtain ⟨core, rest, b1, b2, r1, r2, v1, v2, d1, d2, e⟩ := load_cases hc hl
  have q1 := hfin.value v1 (.inl rfl)
  have q2 := hfin.value v2 (.inr rfl)
  rw [d1] at q1
  rw [d2] at q2
  cases q1
  cases q2
  rw [e]
  exact foldl_insert_self hv _ fun _ hx => hx

/-! ## C105 -/

theorem encMany_isSome {α : Type} {e : α → Enc} : ∀ l : List α, (encMany e l).isSome ↔ ∀ x ∈ l, (e x).isSome
  | [] => by simp [encMany]
  | x :: l => by
    have ih := encMany_isSome (e := e) l
    simp only [encMany, List.mem_cons, forall_eq_or_imp, ← ih]
    cases h1 : e x <;> cases h2 : encMany e l <;> simp [Enc.seq]

theorem length_of_valid {s : Sections} (hv : s.Valid) : s.length < 65535 := by
  have h1 : (s.map Section.kind).length ≤ [Kind.header, .code, .data, .ctors, .schema, .api, .deploy].length := by
    refine (List.subperm_of_subset hv fun k _ => ?_).length_le
    cases k <;> simp
  rw [List.length_map] at h1
  simp only [List.length_cons, List.length_nil] at h1
  omega

theorem encSections_isSome {s : Sections} (hl : s.length < 65535) :
    (encSections s).isSome ↔ ∀ x ∈ s, (encWithPreview x).isSome := by
  rw [← encMany_isSome]
  unfold encSections
  rw [if_pos hl]
  cases encMany encWithPreview s <;> simp [Enc.seq, encNum]

/-- What a genesis template must be for the node to start: the three core sections are there and every section
can be encoded. -/
def Startable (ss : Sections) : Prop :=
  (∃ c, .code c ∈ ss) ∧ (∃ cs, .ctors cs ∈ ss) ∧ (∃ ls, .data ls ∈ ss) ∧ ∀ x ∈ ss, (encWithPreview x).isSome

theorem startable_iff {ss : Sections} (hv : ss.Valid) :
    Startable ss ↔ ∃ core rest b1 b2, removeNoncore ss = some (core, rest) ∧ encSections core = some b1 ∧
      encSections rest = some b2 := by
  have h1 := removeNoncore_spec hv
  have hl := length_of_valid hv
  constructor
  · rintro ⟨⟨c, hc⟩, ⟨cs, hcs⟩, ⟨ls, hls⟩, he⟩
    cases hr : removeNoncore ss with
    | none =>
      rw [hr] at h1
      obtain ⟨k, hk, hn⟩ := h1
      simp only [List.mem_cons, List.not_mem_nil, or_false] at hk
      rcases hk with rfl | rfl | rfl
      · exact absurd rfl (hn _ hc)
      · exact absurd rfl (hn _ hcs)
      · exact absurd rfl (hn _ hls)
    | some r =>
      obtain ⟨core, rest⟩ := r
      rw [hr] at h1
      obtain ⟨code, ctors, data, rfl, -, -, -, hp⟩ := h1
      have hlen := hp.length_eq
      simp only [List.length_append] at hlen
      obtain ⟨b1, e1⟩ := Option.isSome_iff_exists.1 ((encSections_isSome (s := [code, ctors, data]) (by omega)).2
        fun x hx => he x (hp.mem_iff.1 (List.mem_append_left _ hx)))
      obtain ⟨b2, e2⟩ := Option.isSome_iff_exists.1 ((encSections_isSome (s := rest) (by omega)).2
        fun x hx => he x (hp.mem_iff.1 (List.mem_append_right _ hx)))
      exact ⟨_, _, b1, b2, rfl, e1, e2⟩
  · rintro ⟨core, rest, b1, b2, hr, e1, e2⟩
    rw [hr] at h1
    obtain ⟨code, ctors, data, rfl, k1, k2, k3, hp⟩ := h1
    have hlen := hp.length_eq
    simp only [List.length_append] at hlen
    have e1 := (encSections_isSome (s := [code, ctors, data]) (by omega)).1 (by rw [e1]; rfl)
    have e2 := (encSections_isSome (s := rest) (by omega)).1 (by rw [e2]; rfl)
    have m : ∀ x ∈ [code, ctors, data], x ∈ ss := fun x hx => hp.mem_iff.1 (List.mem_append_left _ hx)
    refine ⟨?_, ?_, ?_, ?_⟩
    · cases code with
      | code c => exact ⟨c, m _ (by simp)⟩
      | _ => cases k1
    · cases ctors with
      | ctors c => exact ⟨c, m _ (by simp)⟩
      | _ => cases k2
    · cases data with
      | data c => exact ⟨c, m _ (by simp)⟩
      | _ => cases k3
    · intro x hx
      rcases List.mem_append.1 (hp.mem_iff.2 hx) with h | h
      · exact e1 x h
      · exact e2 x h

theorem fst_inj {α β : Type} {l : List (α × β)} (hn : (l.map Prod.fst).Nodup) {p q : α × β} (hp : p ∈ l) (hq : q ∈ l)
    (h : p.1 = q.1) : p = q := by
  induction l with
  | nil => cases hp
  | cons x l ih =>
    simp only [List.map_cons, List.nodup_cons, List.mem_map, not_exists, not_and] at hn
    rcases List.mem_cons.1 hp with rfl | hp' <;> rcases List.mem_cons.1 hq with rfl | hq'
    · rfl
    · exact absurd h.symm (hn.1 q hq')
    · exact absurd h (hn.1 p hp')
    · exact ih hn.2 hp' hq'

theorem eval_genesis (ts : List (Addr × Sections)) (hv : ∀ p ∈ ts, p.2.Valid) (w : View) :
    (((genesisProg ts).eval w).2 = .ok () ↔ ∀ p ∈ ts, Startable p.2) ∧
    (((genesisProg ts).eval w).2 = .ok () →
      (∀ k, (w k).isSome → (((genesisProg ts).eval w).1 k).isSome) ∧
      ∀ p ∈ ts, (((genesisProg ts).eval w).1 (.core p.1)).isSome ∧
        (((genesisProg ts).eval w).1 (.noncore p.1)).isSome) := by
  induction ts generalizing w with
  | nil => exact ⟨⟨fun _ => by simp, fun _ => rfl⟩, fun _ => ⟨fun _ h => h, by simp⟩⟩
  | cons p ts ih =>
    obtain ⟨t, ss⟩ := p
    have hs := startable_iff (hv (t, ss) List.mem_cons_self)
    simp only at hs
    have e0 : genesisProg ((t, ss) :: ts) = (Prog.ofOption (removeNoncore ss)).bind fun r =>
        (createTemplate t r.1 r.2).bind fun _ => genesisProg ts := rfl
    have bad : ¬ Startable ss → ¬ ∀ p ∈ (t, ss) :: ts, Startable p.2 :=
      fun h h' => h (h' (t, ss) List.mem_cons_self)
    rw [e0]
    cases hr : removeNoncore ss with
    | none =>
      have : ¬ Startable ss := by
        rw [hs, hr]
        rintro ⟨_, _, _, _, h, _⟩
        cases h
      refine ⟨⟨fun h => (by cases h), fun h => absurd h (bad this)⟩, fun h => (by cases h)⟩
    | some r =>
      obtain ⟨core, rest⟩ := r
      have e1 : ((Prog.ofOption (some (core, rest))).bind fun r : Sections × Sections =>
          (createTemplate t r.1 r.2).bind fun _ => genesisProg ts).eval w =
          ((encodeAndWrite (encSections core) (.core t)).bind fun _ =>
            (encodeAndWrite (encSections rest) (.noncore t)).bind fun _ => genesisProg ts).eval w := by
        show (((encodeAndWrite (encSections core) (.core t)).bind fun _ =>
            encodeAndWrite (encSections rest) (.noncore t)).bind fun _ => genesisProg ts).eval w = _
        simp only [Prog.eval_bind]
        cases encodeAndWrite (encSections core) (.core t) |>.eval w with
        | mk x y => cases y <;> rfl
      rw [e1]
      cases h1 : encSections core with
      | none =>
        have : ¬ Startable ss := by
          rw [hs, hr]
          rintro ⟨_, _, _, _, h, h', _⟩
          cases h
          rw [h1] at h'
          cases h'
        refine ⟨⟨fun h => (by cases h), fun h => absurd h (bad this)⟩, fun h => (by cases h)⟩
      | some b1 =>
        cases h2 : encSections rest with
        | none =>
          have : ¬ Startable ss := by
            rw [hs, hr]
            rintro ⟨_, _, _, _, h, _, h'⟩
            cases h
            rw [h2] at h'
            cases h'
          refine ⟨⟨fun h => (by cases h), fun h => absurd h (bad this)⟩, fun h => (by cases h)⟩
        | some b2 =>
          have good : Startable ss := hs.2 ⟨core, rest, b1, b2, hr, h1, h2⟩
          have ih := ih (fun p hp => hv p (List.mem_cons_of_mem _ hp)) ((w.set (.core t) b1).set (.noncore t) b2)
          show (((genesisProg ts).eval ((w.set (.core t) b1).set (.noncore t) b2)).2 = .ok () ↔ _) ∧
            (((genesisProg ts).eval ((w.set (.core t) b1).set (.noncore t) b2)).2 = .ok () → _)
          refine ⟨?_, fun hok => ?_⟩
          · rw [ih.1]
            simp [good]
          · obtain ⟨i1, i2⟩ := ih.2 hok
            have hset : ∀ k, (w k).isSome ∨ k = .core t ∨ k = .noncore t →
                (((w.set (.core t) b1).set (.noncore t) b2) k).isSome := by
              intro k hk
              unfold View.set
              split
              · rfl
              · split
                · rfl
                · rcases hk with hk | hk | hk
                  · exact hk
                  · contradiction
                  · contradiction
            refine ⟨fun k hk => i1 k (hset k (.inl hk)), ?_⟩
            intro p hp
            rcases List.mem_cons.1 hp with rfl | hp
            · exact ⟨i1 _ (hset _ (.inr (.inl rfl))), i1 _ (hset _ (.inr (.inr rfl)))⟩
            · exact i2 p hp

/-- C105: when a node can start at all. -/
theorem C105_starts_iff {h : Hasher} (hc : NoCollision h) {ts : List (Addr × Sections)} (hv : ∀ p ∈ ts, p.2.Valid)
    (o : Orders) : (∃ rs, Node.start h o ts = some rs) ↔ ∀ p ∈ ts, Startable p.2 := by
  have he := (eval_genesis ts hv (view h Svm.Storage.fresh)).1
  rw [← he, ← (Prog.run_eval hc (genesisProg ts) Svm.Storage.fresh).1]
  constructor
  · rintro ⟨rs, hs⟩
    exact (start_storage hs).1
  · intro hok
    have hi := ((stored_fresh h (fun _ _ => True)).run hc (puts_genesis ts fun _ _ _ _ _ =>
      ⟨fun _ _ => trivial, fun _ _ => trivial⟩)).inv
    obtain ⟨s', fp, h1, -⟩ := publish hi h o.checkpoint o.commit
    refine ⟨⟨s', []⟩, ?_⟩
    unfold Node.start
    simp only [hok, h1]

/-- The values of a genesis template stay for ever, as long as nobody deploys at its address. -/
theorem genesis_kept {h : Hasher} (hc : NoCollision h) {chk : Bool} {ts : List (Addr × Sections)}
    (hv : ∀ p ∈ ts, p.2.Valid) (hn : (ts.map Prod.fst).Nodup) {o : Orders} {rs : RState}
    (hs : Node.start h o ts = some rs) {p : Addr × Sections} (hp : p ∈ ts) (eng : Engine) (pr : Pricer)
    (es : List Event) (he : ∀ e ∈ es, e.Avoids chk h p.1) (os : Nat → Orders) :
    ∃ core rest b1 b2, removeNoncore p.2 = some (core, rest) ∧ encSections core = some b1 ∧
      encSections rest = some b2 ∧
      view h (Node.run chk h eng pr rs es os).1.storage (.core p.1) = some b1 ∧
      view h (Node.run chk h eng pr rs es os).1.storage (.noncore p.1) = some b2 := by
  have hall := (C105_starts_iff hc hv o).1 ⟨rs, hs⟩
  obtain ⟨core, rest, b1, b2, hr, h1, h2⟩ := (startable_iff (hv p hp)).1 (hall p hp)
  let Q : Key → Bytes → Prop := fun k v => (k = .core p.1 → v = b1) ∧ (k = .noncore p.1 → v = b2)
  have hq : Free Q := fun k v a b => ⟨fun e => absurd e (a _), fun e => absurd e (b _)⟩
  have hst : Stored h Q (fun _ => False) rs.storage := by
    refine (stored_start hc ?_ hs).1
    intro p' hp' core' rest' hr'
    by_cases ht : p'.1 = p.1
    · have : p' = p := fst_inj hn hp' hp ht
      subst this
      rw [hr] at hr'
      cases hr'
      constructor
      · intro bs hb
        rw [h1] at hb
        exact ⟨fun _ => (Option.some.inj hb).symm, fun e => (by cases e)⟩
      · intro bs hb
        rw [h2] at hb
        exact ⟨fun e => (by cases e), fun _ => (Option.some.inj hb).symm⟩
    · refine ⟨fun bs _ => ⟨fun e => ?_, fun e => (by cases e)⟩, fun bs _ => ⟨fun e => (by cases e), fun e => ?_⟩⟩
      · exact absurd (Key.core.inj e) ht
      · exact absurd (Key.noncore.inj e) ht
  have hbase : Stored h Q (fun k => k = .core p.1 ∨ k = .noncore p.1) rs.storage := by
    obtain ⟨hok, hrs⟩ := start_storage hs
    have hi := ((stored_fresh h (fun _ _ => True)).run hc (puts_genesis ts fun _ _ _ _ _ =>
      ⟨fun _ _ => trivial, fun _ _ => trivial⟩)).inv
    obtain ⟨s', fp, c1, c2⟩ := publish hi h o.checkpoint o.commit
    have hview : view h rs.storage = view h ((genesisProg ts).run h Svm.Storage.fresh).1 := by
      rw [hrs, c1]
      funext k
      exact c2.now _
    have hid : rs.storage.next.id = 0 := by
      have hf : ((genesisProg ts).run h Svm.Storage.fresh).1.next = Svm.Storage.fresh.next :=
        (Prog.run_frame h (genesisProg ts) Svm.Storage.fresh).2
      have hi1 : Inv (Svm.Storage.checkpoint h o.checkpoint ((genesisProg ts).run h Svm.Storage.fresh).1) :=
        Svm.Storage.inv_step h hi (.checkpoint _) trivial
      have hcp := Svm.Storage.checkpoint_eq h o.checkpoint ((genesisProg ts).run h Svm.Storage.fresh).1
      obtain ⟨fp', -, hcm⟩ := Svm.Storage.commit_ok hi1 (by rw [hcp]) o.commit
      rw [hrs, hcm, hcp]
      simp only [hf]
      rfl
    refine hst.rebase ?_ ?_ (by omega) ?_
    · rw [hrs, c1]; exact c2.dirty
    · rw [hrs, c1]; exact c2.changes
    · intro k hk
      rw [hview, (Prog.run_eval hc (genesisProg ts) Svm.Storage.fresh).2]
      have h3 := (eval_genesis ts hv (view h Svm.Storage.fresh)).2
        (by rw [← (Prog.run_eval hc (genesisProg ts) Svm.Storage.fresh).1]; exact hok)
      have h4 := h3.2 p hp
      rcases hk with rfl | rfl
      · exact Option.isSome_iff_exists.1 h4.1
      · exact Option.isSome_iff_exists.1 h4.2
  have hlays : ∀ e ∈ es, e.Lays chk h Q := by
    intro e hee
    have hav := he e hee
    cases e with
    | tx t =>
      cases t with
      | deploy e m =>
        intro ss rest c bs hd hcs _
        have := hav ss rest c hd hcs
        exact ⟨⟨fun e => absurd (Key.core.inj e) this, fun e => (by cases e)⟩,
          ⟨fun e => (by cases e), fun e => absurd (Key.noncore.inj e) this⟩⟩
      | _ => trivial
    | _ => trivial
  have hfin := Stored.history hc hq eng pr es hlays rs hbase os
  obtain ⟨v1, e1⟩ := hfin.has (k := .core p.1) (.inl rfl)
  obtain ⟨v2, e2⟩ := hfin.has (k := .noncore p.1) (.inr rfl)
  have q1 := (hfin.value e1).1 rfl
  have q2 := (hfin.value e2).2 rfl
  subst q1 q2
  exact ⟨core, rest, _, _, hr, h1, h2, e1, e2⟩

/-- C105: a node starts, and a template of the genesis configuration is what is loaded at its address, section by
section, as long as nobody deploys there. -/
def C105_claim : Prop :=
  ∀ h : Hasher, NoCollision h → ∀ (chk : Bool) (ts : List (Addr × Sections)), GenesisOk h ts →
    (ts.map Prod.fst).Nodup → ∀ (o : Orders), (∃ rs, Node.start h o ts = some rs) ∧
      ∀ rs, Node.start h o ts = some rs → ∀ p ∈ ts, ∀ eng pr es os, (∀ e ∈ es, Event.Avoids chk h p.1 e) →
        ∃ ss, out h (loadTemplate chk p.1) (Node.run chk h eng pr rs es os).1.storage = .ok ss ∧
          ∀ k, ss.tryGet k = p.2.tryGet k

/-- C105 for representable layouts (C43): after every history in which nobody deploys at the address of a genesis
template, the template that is loaded there is the configured one, section by section. Missing: other layouts,
such as the default layout of the main network (`C105_mainnet`). -/
theorem C105_loads_partial {h : Hasher} (hc : NoCollision h) {chk : Bool} {ts : List (Addr × Sections)}
    (hv : ∀ p ∈ ts, p.2.Valid) (hn : (ts.map Prod.fst).Nodup) {o : Orders} {rs : RState}
    (hs : Node.start h o ts = some rs) {p : Addr × Sections} (hp : p ∈ ts)
    (hr : ∀ ls, .data ls ∈ p.2 → ∀ l ∈ ls, Representable l) (eng : Engine) (pr : Pricer)
    (es : List Event) (he : ∀ e ∈ es, e.Avoids chk h p.1) (os : Nat → Orders) :
    ∃ ss, out h (loadTemplate chk p.1) (Node.run chk h eng pr rs es os).1.storage = .ok ss ∧
      ∀ k, ss.tryGet k = p.2.tryGet k := by
  obtain ⟨core, rest, b1, b2, hrm, e1, e2, v1, v2⟩ := genesis_kept hc hv hn hs hp eng pr es he os
  have hvp := hv p hp
  have hsp := removeNoncore_spec hvp
  rw [hrm] at hsp
  obtain ⟨code, ctors, data, rfl, k1, k2, k3, hpm⟩ := hsp
  generalize hcore : [code, ctors, data] = core at *
  have hnd : ((core ++ rest).map Section.kind).Nodup := ((hpm.map Section.kind).nodup_iff).2 hvp
  have hnd' := hnd
  rw [List.map_append, List.nodup_append] at hnd
  have d1 := C43_lossless_partial chk core b1 [] hnd.1
    (fun ls hls => hr ls (hpm.mem_iff.1 (List.mem_append_left _ hls))) e1
  have d2 := C43_lossless_partial chk rest b2 [] hnd.2.1
    (fun ls hls => hr ls (hpm.mem_iff.1 (List.mem_append_right _ hls))) e2
  rw [List.append_nil] at d1 d2
  refine ⟨_, load_parts hc v1 v2 d1 d2, fun k => ?_⟩
  rw [tryGet_merge hnd.2.1]
  have hmem : ∀ x, x ∈ p.2 ↔ x ∈ core ∨ x ∈ rest := fun x => by rw [← hpm.mem_iff, List.mem_append]
  cases h1 : rest.tryGet k with
  | some x =>
    obtain ⟨m, hk⟩ := (tryGet_iff hnd.2.1).1 h1
    exact ((tryGet_iff hvp).2 ⟨(hmem x).2 (.inr m), hk⟩).symm
  | none =>
    simp only [Option.none_or]
    cases h2 : Sections.tryGet core k with
    | some x =>
      obtain ⟨m, hk⟩ := (tryGet_iff hnd.1).1 h2
      exact ((tryGet_iff hvp).2 ⟨(hmem x).2 (.inl m), hk⟩).symm
    | none =>
      symm
      cases h3 : p.2.tryGet k with
      | none => rfl
      | some x =>
        obtain ⟨m, hk⟩ := (tryGet_iff hvp).1 h3
        rcases (hmem x).1 m with m | m
        · rw [(tryGet_iff hnd.1).2 ⟨m, hk⟩] at h2; cases h2
        · rw [(tryGet_iff hnd.2.1).2 ⟨m, hk⟩] at h1; cases h1

/-- What is loaded at the address of the template of the main network: its layout starts at 0 instead of
nowhere. -/
def sctLoaded (code : Bytes) : Sections :=
  [ .code { code, flags := 0, gasMode := .fixed, svmVersion := 0 }
  , .ctors []
  , .data [{ first := some 0, vars := [] }] ]

/-- C104: the configuration of the main network is one of these. -/
theorem C104_mainnet (h : Hasher) (code : Bytes) : GenesisOk h (mainnet h code) := by
  constructor
  · intro p hp
    cases List.mem_singleton.1 hp
    show (([.code, .data, .ctors] : List Kind)).Nodup
    decide
  · intro p hp c hcs
    cases List.mem_singleton.1 hp
    cases hcs
    rfl

/-- C105: on the main network the template that is loaded is never the configured one. -/
theorem C105_mainnet {h : Hasher} (hc : NoCollision h) {chk : Bool} {code : Bytes} {o : Orders} {rs : RState}
    (hs : Node.start h o (mainnet h code) = some rs) (eng : Engine) (pr : Pricer) (es : List Event)
    (he : ∀ e ∈ es, ∀ p ∈ mainnet h code, e.Avoids chk h p.1) (os : Nat → Orders) : ∀ p ∈ mainnet h code,
      out h (loadTemplate chk p.1) (Node.run chk h eng pr rs es os).1.storage = .ok (sctLoaded code) ∧
        (sctLoaded code).tryGet .data ≠ p.2.tryGet .data := by
  intro p hp
  obtain ⟨core, rest, b1, b2, hrm, e1, e2, v1, v2⟩ :=
    genesis_kept hc (C104_mainnet h code).valid (by simp [mainnet]) hs hp eng pr es (fun e hee => he e hee p hp) os
  cases List.mem_singleton.1 hp
  have hrm' : removeNoncore (sctSections code) = some ([ .code { code, flags := 0, gasMode := .fixed, svmVersion := 0 }
      , .ctors [], .data [Svm.Layout.FixedLayout.default] ], []) := rfl
  rw [hrm'] at hrm
  cases hrm
  have e1' : encSections (sctLoaded code) = some b1 := e1
  have d1 := C43_lossless_partial chk (sctLoaded code) b1 [] (by simp [sctLoaded, Section.kind]) (by
    intro ls hls l hl
    simp only [sctLoaded, List.mem_cons, List.not_mem_nil, or_false, Section.data.injEq, reduceCtorEq,
      false_or] at hls
    subst hls
    simp only [List.mem_cons, List.not_mem_nil, or_false] at hl
    subst hl
    exact ⟨0, rfl, fun _ => rfl, by simp⟩) e1'
  have d2 := C43_lossless_partial chk [] b2 [] (by simp) (by simp) e2
  rw [List.append_nil] at d1 d2
  exact ⟨load_parts hc v1 v2 d1 d2, by simp [sctLoaded, sctSections, Sections.tryGet, Section.kind,
    Svm.Layout.FixedLayout.default]⟩

theorem C105_claim_false : ¬ C105_claim := by
  intro hcl
  obtain ⟨h, hc⟩ := exists_noCollision
  have hv := (C104_mainnet h [0]).valid
  obtain ⟨rs, hs⟩ := (C105_starts_iff hc hv ⟨.id, .id⟩).2 (by
    intro p hp
    cases List.mem_singleton.1 hp
    refine ⟨⟨_, List.mem_cons_self⟩, ⟨[], by simp [sctSections]⟩, ⟨_, by simp [sctSections]; rfl⟩, ?_⟩
    show ∀ x ∈ sctSections [0], (encWithPreview x).isSome
    decide)
  obtain ⟨ss, h1, h2⟩ := (hcl h hc true _ (C104_mainnet h [0]) (by simp [mainnet]) _).2 rs hs _
    (List.mem_singleton.2 rfl) idleEngine flatPricer [] (fun _ => ⟨.id, .id⟩) (by simp)
  obtain ⟨h3, h4⟩ := C105_mainnet hc (chk := true) hs idleEngine flatPricer [] (by simp) (fun _ => ⟨.id, .id⟩) _
    (List.mem_singleton.2 rfl)
  rw [h1] at h3
  cases h3
  exact h4 (h2 .data)

/-! ## C106 -/

/-- C106: the template of the main network can be spawned. -/
def C106_claim : Prop :=
  ∀ h : Hasher, NoCollision h → ∀ (chk : Bool) (code : Bytes) (o : Orders) (rs : RState),
    Node.start h o (mainnet h code) = some rs → ∀ (eng : Engine) (pr : Pricer), ∃ es os e m sp rest r,
      (∀ x ∈ es, ∀ p ∈ mainnet h code, Event.Avoids chk h p.1 x) ∧
      decSpawn m = .ok (sp, rest) ∧ sp.templateAddr ∈ (mainnet h code).map Prod.fst ∧
      (spawn chk h o eng pr e m (Node.run chk h eng pr rs es os).1).2 = some r ∧ r.success = true

/-- C106: it never can, whatever the constructor, the gas and the calls before, until somebody deploys the same code
with constructors. -/
theorem C106_never_spawned {h : Hasher} (hc : NoCollision h) {chk : Bool} {code : Bytes} {o : Orders} {rs : RState}
    (hs : Node.start h o (mainnet h code) = some rs) (eng : Engine) (pr : Pricer) (es : List Event)
    (he : ∀ e ∈ es, ∀ p ∈ mainnet h code, e.Avoids chk h p.1) (os : Nat → Orders) (o' : Orders) (e : Envelope)
    (m rest : Bytes) (sp : SpawnAccount) (hd : decSpawn m = .ok (sp, rest))
    (ht : sp.templateAddr ∈ (mainnet h code).map Prod.fst) :
    spawn chk h o' eng pr e m (Node.run chk h eng pr rs es os).1 =
      ((Node.run chk h eng pr rs es os).1,
        some (SpawnReceipt.fromErr (.funcNotCtor sp.templateAddr sp.ctorName) [])) := by
  obtain ⟨p, hp, hpt⟩ := List.mem_map.1 ht
  obtain ⟨hl, -⟩ := C105_mainnet hc hs eng pr es he os p hp
  rw [hpt] at hl
  generalize (Node.run chk h eng pr rs es os).1 = rs' at *
  have hro := (readOnly_loadTemplate chk sp.templateAddr).run h rs'.storage
  unfold spawn
  simp only [hd]
  unfold Account.out at hl
  simp only [hl, hro]
  rfl

theorem C106_claim_false : ¬ C106_claim := by
  intro hcl
  obtain ⟨h, hc⟩ := exists_noCollision
  have hv := (C104_mainnet h [0]).valid
  obtain ⟨rs, hs⟩ := (C105_starts_iff hc hv ⟨.id, .id⟩).2 (by
    intro p hp
    cases List.mem_singleton.1 hp
    refine ⟨⟨_, List.mem_cons_self⟩, ⟨[], by simp [sctSections]⟩, ⟨_, by simp [sctSections]; rfl⟩, ?_⟩
    show ∀ x ∈ sctSections [0], (encWithPreview x).isSome
    decide)
  obtain ⟨es, os, e, m, sp, rest, r, h1, h2, h3, h4, h5⟩ := hcl h hc true [0] _ rs hs idleEngine flatPricer
  rw [C106_never_spawned hc hs _ _ es h1 os _ e m rest sp h2 h3] at h4
  cases h4
  cases h5

/-! ## A concrete history -/

/-- The code of `demoSections`. -/
def demoCode : CodeSection := { code := [0, 97, 115, 109], flags := 1, gasMode := .fixed, svmVersion := 0 }

/-- A genesis configuration with `demoSections`. -/
def demoGenesis (h : Hasher) : List (Addr × Sections) := [(computeTemplateAddr h demoCode, demoSections)]

theorem demoGenesis_ok (h : Hasher) : GenesisOk h (demoGenesis h) := by
  constructor
  · intro p hp
    cases List.mem_singleton.1 hp
    show (([.code, .data, .ctors, .header] : List Kind)).Nodup
    decide
  · intro p hp c hcs
    cases List.mem_singleton.1 hp
    cases hcs
    rfl

theorem demoGenesis_starts {h : Hasher} (hc : NoCollision h) (o : Orders) :
    ∃ rs, Node.start h o (demoGenesis h) = some rs := by
  refine (C105_starts_iff hc (demoGenesis_ok h).valid o).2 ?_
  intro p hp
  cases List.mem_singleton.1 hp
  refine ⟨⟨_, List.mem_cons_self⟩, ⟨_, by simp [demoSections]; rfl⟩, ⟨_, by simp [demoSections]; rfl⟩, ?_⟩
  show ∀ x ∈ demoSections, (encWithPreview x).isSome
  decide

/-- A spawn from the genesis template. -/
def genesisSpawn (h : Hasher) : SpawnAccount :=
  { version := 0, templateAddr := computeTemplateAddr h demoCode, name := ⟨[0x61], by decide⟩, ctorName := inName
    calldata := [] }

/-- Non-vacuity of C104 and C105: a node starts with a template, and after a spawn the template can be loaded and
its prices are cached. -/
theorem demo_history {h : Hasher} (hc : NoCollision h) : ∃ rs m ss c p,
    Node.start h ⟨.id, .id⟩ (demoGenesis h) = some rs ∧ GenesisOk h (demoGenesis h) ∧
    Distinct true h (demoGenesis h) [.tx (.spawn demoEnvelope m)] ∧
    out h (loadTemplate true (computeTemplateAddr h demoCode)) (Node.run true h idleEngine flatPricer rs
      [.tx (.spawn demoEnvelope m)] (fun _ => ⟨.id, .id⟩)).1.storage = .ok ss ∧ codeSection ss = some c ∧
    (Node.run true h idleEngine flatPricer rs [.tx (.spawn demoEnvelope m)] (fun _ => ⟨.id, .id⟩)).1.cache.get
      (computeTemplateAddr h demoCode) = some p := by
  obtain ⟨rs, hs⟩ := demoGenesis_starts hc ⟨.id, .id⟩
  have hem : encSpawn (genesisSpawn h) = some ([0, 0] ++ ((computeTemplateAddr h demoCode).1 ++
      ([1, 0x61] ++ ([2, 0x69, 0x6e] ++ [0])))) := by
    have e1 : encNum 2 (0 : U16) = some [0, 0] := by decide +kernel
    have e2 : encData 1 [] = some [0] := by decide +kernel
    have e3 : encStr ⟨[0x61], by decide⟩ = some [1, 0x61] := by decide +kernel
    have e4 : encStr inName = some [2, 0x69, 0x6e] := by decide +kernel
    unfold encSpawn genesisSpawn
    simp only [e1, e2, e3, e4, encArr]
    rfl
  have hd := roundTrip_spawn (genesisSpawn h) _ [] hem
  have hlen : ([0, 0] ++ ((computeTemplateAddr h demoCode).1 ++
      ([1, 0x61] ++ ([2, 0x69, 0x6e] ++ [0]))) : Bytes).length = 28 := by
    simp [(computeTemplateAddr h demoCode).2]
  generalize ([0, 0] ++ ((computeTemplateAddr h demoCode).1 ++ ([1, 0x61] ++ ([2, 0x69, 0x6e] ++ [0]))) : Bytes) = m
    at *
  rw [List.append_nil] at hd
  have hrep : ∀ ls, .data ls ∈ demoSections → ∀ l ∈ ls, Representable l := demo_representable
  have hload : ∀ es : List Event, (∀ e ∈ es, e.Avoids true h (computeTemplateAddr h demoCode)) →
      ∃ ss, out h (loadTemplate true (computeTemplateAddr h demoCode))
        (Node.run true h idleEngine flatPricer rs es (fun _ => ⟨.id, .id⟩)).1.storage = .ok ss ∧
        ∀ k, ss.tryGet k = demoSections.tryGet k := fun es he =>
    C105_loads_partial hc (demoGenesis_ok h).valid (by simp [demoGenesis]) hs (List.mem_singleton.2 rfl)
      hrep idleEngine flatPricer es he (fun _ => ⟨.id, .id⟩)
  obtain ⟨ss, h1, h2⟩ := hload [.tx (.spawn demoEnvelope m)] (by
    intro e he
    cases List.mem_singleton.1 he
    trivial)
  obtain ⟨ss0, h3, h4⟩ := hload [] (by simp)
  have hcode : ∀ ss : Sections, (∀ k, ss.tryGet k = demoSections.tryGet k) → codeSection ss = some demoCode := by
    intro ss hk
    unfold codeSection
    rw [hk]
    rfl
  refine ⟨rs, m, ss, demoCode, fun _ => some 7, hs, demoGenesis_ok h, ?_, h1, hcode ss h2, ?_⟩
  · have one : ∀ c, Brought true (demoGenesis h) [.tx (.spawn demoEnvelope m)] c → c = demoCode := by
      rintro c (⟨p, hp, hcs⟩ | ⟨e, m', ss', rest, hmem, -⟩)
      · cases List.mem_singleton.1 hp
        cases hcs
        rfl
      · cases List.mem_singleton.1 hmem
    intro c c' hb hb' _
    rw [one c hb, one c' hb']
  · show (spawn true h ⟨.id, .id⟩ idleEngine flatPricer demoEnvelope m rs).1.cache.get _ = _
    have h3 : ((loadTemplate true (genesisSpawn h).templateAddr).run h rs.storage).2 = .ok ss0 := h3
    have hct : isCtor ss0 (genesisSpawn h).ctorName = some true := by
      unfold isCtor
      rw [h4]
      rfl
    have hcache := (stored_start (Q := fun _ _ => True) hc (fun _ _ _ _ _ =>
      ⟨fun _ _ => trivial, fun _ _ => trivial⟩) hs).2
    have hgas : checkGasForPayload m (GasTank.new demoEnvelope.gasLimit) =
        .nonEmpty (BitVec.ofNat 64 18446744073709523615) := by
      unfold checkGasForPayload payloadPrice
      rw [hlen]
      rfl
    have hcheck : (checkGasForFunc flatPricer rs.cache (genesisSpawn h).templateAddr ss0 (genesisSpawn h).ctorName
        (checkGasForPayload m (GasTank.new demoEnvelope.gasLimit))).1 =
          AMap.insert [] (genesisSpawn h).templateAddr fun _ => some 7 := by
      rw [hgas, hcache]
      unfold checkGasForFunc
      rw [hcode ss0 h4]
      rfl
    have hfin : (spawn true h ⟨.id, .id⟩ idleEngine flatPricer demoEnvelope m rs).1.cache =
        (checkGasForFunc flatPricer rs.cache (genesisSpawn h).templateAddr ss0 (genesisSpawn h).ctorName
          (checkGasForPayload m (GasTank.new demoEnvelope.gasLimit))).1 := by
      unfold spawn
      simp only [hd, h3, hct]
      split
      · rfl
      · split <;> rfl
    rw [hfin, hcheck, AMap.get_insert]
    exact if_pos rfl

/-- Non-vacuity of C106 and of the main network in C105: the node starts, and messages for its template exist. -/
example : ∃ h rs m rest sp, NoCollision h ∧ Node.start h ⟨.id, .id⟩ (mainnet h [0]) = some rs ∧
    decSpawn m = .ok (sp, rest) ∧ sp.templateAddr ∈ (mainnet h [0]).map Prod.fst := by
  obtain ⟨h, hc⟩ := exists_noCollision
  obtain ⟨rs, hs⟩ := (C105_starts_iff hc (C104_mainnet h [0]).valid ⟨.id, .id⟩).2 (by
    intro p hp
    cases List.mem_singleton.1 hp
    refine ⟨⟨_, List.mem_cons_self⟩, ⟨[], by simp [sctSections]⟩, ⟨_, by simp [sctSections]; rfl⟩, ?_⟩
    show ∀ x ∈ sctSections [0], (encWithPreview x).isSome
    decide)
  exact ⟨h, rs, _, [], { version := 0
                         templateAddr := computeTemplateAddr h { code := [0], flags := 0, gasMode := .fixed, svmVersion := 0 }
                         name := ⟨[], by decide⟩, ctorName := inName, calldata := [] }, hc, hs,
    roundTrip_spawn _ _ [] rfl, List.mem_cons_self⟩

/-- Non-vacuity of `C32_unchanged_partial`: a history in which one template is deployed. -/
example : decSections true none demoBytes = .ok (demoSections, []) ∧ demoSections.Valid ∧
    codeSection demoSections = some demoCode :=
  ⟨by decide +kernel, by show (demoSections.map Section.kind).Nodup; decide, rfl⟩

end Svm.Runtime
