import Verif.Runtime.Ledger
import Verif.Storage.Props2

/-!
# The public functions of the runtime, and properties C94 and C95

`Event` lists the public functions of `Runtime` (runtime.rs); `Node.step` puts their models side by
side. The hash-map orders that a process happens to use are chosen anew for each event.
-/

namespace Svm.Runtime

open Svm.Codec Svm.Account
open Svm.Storage (Hasher Storage Inv Sim Spec FpOk fingerprintOf)

/-! ## Model -/

/-- A call of a public function of `Runtime`. `create` is `create_account`, and
`create_genesis_account` with the template of the genesis configuration. -/
inductive Event where
  | tx (t : Tx)
  | create (a t : Addr) (name : Str) (balance : U64) (counter : U128)
  | credit (a : Addr) (amount : U64)
  | pay (src dst : Addr) (amount : U64)
  | account (a : Addr)
  | commit
  | rewind (layer : Nat)
  | layer
  | uncommitted

/-- Its result. `refused` is an error, `panic` a panic. -/
inductive Answer where
  | receipt (r : TxReceipt)
  | done
  | account (x : Option (U64 × U128 × Addr))
  | layer (id : Int) (state : Svm.Storage.State)
  | flag (b : Bool)
  | refused
  | panic

/-- `Runtime::commit`, runtime.rs:725-730, with `GlobalState::commit` (global_state.rs:119-122; the
conversion of the layer number panics below 0). -/
def commitLayer (o : Orders) (s : Storage) : Storage × Answer :=
  let r := Svm.Storage.commit o.commit s
  (r.1, match r.2 with
    | .ok x => if 0 ≤ x.1 then .done else .panic
    | .err _ => .refused
    | .panic => .panic)

/-- `Runtime::rewind`, runtime.rs:718-722, with `GlobalState::rewind` (global_state.rs:147-152).
Simplification: the panic poisons the lock; here the state stays (with the lock: `Runtime/Poison`, C139). -/
def rewindTo (l : Nat) (s : Storage) : Storage × Answer :=
  if l < 2 ^ 63 then
    let r := Svm.Storage.rewind s l
    (r.1, match r.2 with
      | .ok _ => .done
      | .err _ => .refused
      | .panic => .panic)
  else (s, .panic)

/-- `Runtime::current_layer`, runtime.rs:485-487, with global_state.rs:126-129. -/
def currentLayer (s : Storage) : Answer :=
  match Svm.Storage.lastLayer s with
  | .ok x => if 0 ≤ x.1 then .layer x.1 x.2 else .panic
  | _ => .panic

/-- The answer to a program. -/
def answerOf {α : Type} (f : α → Answer) : Outcome SErr α → Answer
  | .ok a => f a
  | .err _ => .refused
  | .panic => .panic

/-- One call of a public function. -/
def Node.step (chk : Bool) (h : Hasher) (eng : Engine) (pr : Pricer) (o : Orders) (rs : RState) :
    Event → RState × Answer
  | .tx t =>
    let r := perform chk h eng pr o rs t
    (r.1, match r.2 with
      | some x => .receipt x
      | none => .panic)
  | .create a t name b c =>
    let r := (createAccount chk a t name b c).run h rs.storage
    (⟨r.1, rs.cache⟩, answerOf (fun _ => .done) r.2)
  | .credit a amount =>
    let r := (increaseBalance chk a amount).run h rs.storage
    (⟨r.1, rs.cache⟩, answerOf (fun _ => .done) r.2)
  | .pay src dst amount =>
    let r := (transfer chk src dst amount).run h rs.storage
    (⟨r.1, rs.cache⟩, answerOf (fun _ => .done) r.2)
  | .account a =>
    let r := (getAccount chk a).run h rs.storage
    (⟨r.1, rs.cache⟩, answerOf .account r.2)
  | .commit => let r := commitLayer o rs.storage; (⟨r.1, rs.cache⟩, r.2)
  | .rewind l => let r := rewindTo l rs.storage; (⟨r.1, rs.cache⟩, r.2)
  | .layer => (rs, currentLayer rs.storage)
  | .uncommitted => (rs, .flag (Svm.Storage.hasUncommittedChanges rs.storage))

/-- Many calls; `os` are the hash-map orders of each. -/
def Node.run (chk : Bool) (h : Hasher) (eng : Engine) (pr : Pricer) (rs : RState) :
    List Event → (Nat → Orders) → RState × List Answer
  | [], _ => (rs, [])
  | e :: es, os =>
    let r := Node.step chk h eng pr (os 0) rs e
    let r' := Node.run chk h eng pr r.1 es fun n => os (n + 1)
    (r'.1, r.2 :: r'.2)

/-- A new runtime: the genesis writes, committed (`GlobalState::new`, global_state.rs:50-95), and an
empty price cache. -/
def Node.boot (h : Hasher) (o : Orders) (writes : List (Bytes × Bytes)) : RState :=
  ⟨(Svm.Storage.GlobalState.genesis h o.checkpoint o.commit writes).storage, []⟩

/-! ## C94: two nodes -/

/-- Storages of two nodes with the same history: both refine the same layered map. -/
structure Twin (s₁ s₂ : Storage) : Prop where
  spec : ∃ a : Spec, Sim s₁ a ∧ Sim s₂ a
  fp₁ : FpOk s₁
  fp₂ : FpOk s₂

theorem Twin.get {s₁ s₂ : Storage} (t : Twin s₁ s₂) (k : Svm.Storage.State) :
    Svm.Storage.getByHash s₁ k none = Svm.Storage.getByHash s₂ k none := by
  obtain ⟨a, h1, h2⟩ := t.spec
  rw [h1.get, h2.get]

theorem Twin.next {s₁ s₂ : Storage} (t : Twin s₁ s₂) : s₁.next.id = s₂.next.id := by
  obtain ⟨a, h1, h2⟩ := t.spec
  rw [h1.next, h2.next]

/-- An operation with two orders. -/
theorem Twin.step {h : Hasher} {s₁ s₂ : Storage} (t : Twin s₁ s₂) (op₁ op₂ : Svm.Storage.Op)
    (hop : ∀ a : Spec, a.step op₁ = a.step op₂) (hr₁ : op₁.RewindsFrom (-1))
    (hr₂ : op₂.RewindsFrom (-1)) :
    Twin (Svm.Storage.step h s₁ op₁).1 (Svm.Storage.step h s₂ op₂).1 ∧
      (Svm.Storage.step h s₁ op₁).2 = (Svm.Storage.step h s₂ op₂).2 := by
  have hm : ∀ op : Svm.Storage.Op, op.RewindsFrom (-1) → op.RewindsFrom (-2) := by
    intro op hop
    cases op <;> simp_all [Svm.Storage.Op.RewindsFrom]
    omega
  obtain ⟨a, h1, h2⟩ := t.spec
  obtain ⟨g1, g2⟩ := Svm.Storage.sim_step h h1 op₁ (hm _ hr₁)
  obtain ⟨g3, g4⟩ := Svm.Storage.sim_step h h2 op₂ (hm _ hr₂)
  rw [hop a] at g1 g2
  exact ⟨⟨⟨_, g1, g3⟩, Svm.Storage.fpOk_step h h1.inv t.fp₁ _ hr₁,
    Svm.Storage.fpOk_step h h2.inv t.fp₂ _ hr₂⟩, g2.trans g4.symm⟩

/-- A program runs in the same way on both. -/
theorem Twin.run {h : Hasher} {α : Type} (p : Prog α) {s₁ s₂ : Storage} (t : Twin s₁ s₂) :
    Twin (p.run h s₁).1 (p.run h s₂).1 ∧ (p.run h s₁).2 = (p.run h s₂).2 := by
  induction p generalizing s₁ s₂ with
  | ret | err | panic => exact ⟨t, rfl⟩
  | get k f ih =>
    obtain ⟨a, h1, h2⟩ := t.spec
    have e1 : Svm.Storage.get h s₁ k.text none = .ok (a.current (h.hash k.text)) := h1.get _
    have e2 : Svm.Storage.get h s₂ k.text none = .ok (a.current (h.hash k.text)) := h2.get _
    simp only [Prog.run, e1, e2]
    exact ih _ t
  | set k v p ih =>
    exact ih (t.step (h := h) (.upsert (h.hash k.text) v) (.upsert (h.hash k.text) v) (fun _ => rfl)
      trivial trivial).1

theorem last_fp {s : Storage} (hi : Inv s) (hf : FpOk s) :
    Svm.Storage.lastLayer s = .ok (s.next.id - 1, fingerprintOf (s.next.id - 1)) := by
  have hng := hi.next_gt
  obtain ⟨prev, hprev⟩ := hi.fingerprint_isSome (l := s.next.id - 1) (by omega) (by omega)
  unfold Svm.Storage.lastLayer
  simp only [hprev]
  unfold Svm.Storage.queryFingerprint at hprev
  cases hfind : s.db.layers.find? (fun r => decide (r.id = s.next.id - 1 ∧ r.complete = true)) with
  | none => rw [hfind] at hprev; cases hprev
  | some r =>
    rw [hfind] at hprev
    have hm := List.mem_of_find?_eq_some hfind
    have hid := List.find?_some hfind
    simp only [decide_eq_true_eq] at hid
    simp only [Option.map_some, Option.some.injEq] at hprev
    rw [← hprev, hf.1 r hm, hid.1]

theorem commit_fp {s : Storage} (hi : Inv s) (hf : FpOk s) (hd : s.dirty = [])
    (o : Svm.Storage.Ord) :
    (Svm.Storage.commit o s).2 = .ok (s.next.id, fingerprintOf s.next.id) := by
  have h1 := Svm.Storage.fpOk_step ⟨fun _ => 0⟩ hi hf (.commit o) trivial
  have h2 := Svm.Storage.inv_step ⟨fun _ => 0⟩ hi (.commit o) trivial
  have h3 := last_fp h2 h1
  obtain ⟨prev, hprev, he⟩ := Svm.Storage.commit_ok hi hd o
  simp only [Svm.Storage.step, he] at h3
  unfold Svm.Storage.lastLayer at h3
  simp only at h3
  rw [he]
  simp only
  have e : (s.next.id + 1 - 1 : Int) = s.next.id := by omega
  rw [e] at h3
  rw [Svm.Storage.queryFingerprint_committed hi] at h3
  simpa using h3

/-- Commits with two orders. -/
theorem Twin.commit {s₁ s₂ : Storage} (t : Twin s₁ s₂) (o₁ o₂ : Svm.Storage.Ord) :
    Twin (Svm.Storage.commit o₁ s₁).1 (Svm.Storage.commit o₂ s₂).1 ∧
      (Svm.Storage.commit o₁ s₁).2 = (Svm.Storage.commit o₂ s₂).2 := by
  refine ⟨(t.step (h := ⟨fun _ => 0⟩) (.commit o₁) (.commit o₂) (fun _ => rfl) trivial trivial).1, ?_⟩
  obtain ⟨a, h1, h2⟩ := t.spec
  by_cases hd : a.dirty = []
  · rw [commit_fp h1.inv t.fp₁ (h1.dirtyNil.2 hd), commit_fp h2.inv t.fp₂ (h2.dirtyNil.2 hd), t.next]
  · rw [Svm.Storage.commit_dirty (fun e => hd (h1.dirtyNil.1 e)),
      Svm.Storage.commit_dirty (fun e => hd (h2.dirtyNil.1 e))]

theorem Twin.commitChanges {h : Hasher} {s₁ s₂ : Storage} (t : Twin s₁ s₂) (o₁ o₂ : Orders)
    (env : Env) :
    Twin (commitChanges h o₁ env s₁).1 (commitChanges h o₂ env s₂).1 ∧
      (Runtime.commitChanges h o₁ env s₁).2 = (Runtime.commitChanges h o₂ env s₂).2 := by
  unfold Runtime.commitChanges
  split
  · have h1 := (t.step (h := h) (.checkpoint o₁.checkpoint) (.checkpoint o₂.checkpoint)
      (fun _ => rfl) trivial trivial).1
    obtain ⟨h2, h3⟩ := h1.commit o₁.commit o₂.commit
    simp only [Svm.Storage.step] at h2 h3
    simp only
    rw [h3]
    split
    · split
      · exact ⟨h2, rfl⟩
      · exact ⟨h2, rfl⟩
    · exact ⟨h2, rfl⟩
  · exact ⟨t, rfl⟩

theorem Twin.execCall {h : Hasher} {s₁ s₂ : Storage} (t : Twin s₁ s₂) (chk : Bool) (o₁ o₂ : Orders)
    (eng : Engine) (c : Call) :
    Twin (execCall chk h o₁ eng c s₁).1 (execCall chk h o₂ eng c s₂).1 ∧
      (Runtime.execCall chk h o₁ eng c s₁).2 = (Runtime.execCall chk h o₂ eng c s₂).2 := by
  unfold Runtime.execCall
  obtain ⟨h1, h2⟩ := Twin.run (h := h) (exec chk eng c) t
  simp only
  rw [h2]
  split
  · unfold outcomeToReceipt
    split
    · exact ⟨h1, rfl⟩
    · rename_i env mem logs _ _ _ _
      obtain ⟨h3, h4⟩ := h1.commitChanges (h := h) o₁ o₂ env
      simp only
      exact ⟨h3, by rw [h4]⟩
  · exact ⟨h1, rfl⟩
  · exact ⟨h1, rfl⟩

theorem Twin.buildAndExec {h : Hasher} {s₁ s₂ : Storage} (t : Twin s₁ s₂) (chk : Bool)
    (o₁ o₂ : Orders) (eng : Engine) (tx : Transaction) (mode : AccessMode) (f : Str) (i : Bytes) :
    Twin (buildAndExec chk h o₁ eng tx mode f i s₁).1 (buildAndExec chk h o₂ eng tx mode f i s₂).1 ∧
      (Runtime.buildAndExec chk h o₁ eng tx mode f i s₁).2 =
        (Runtime.buildAndExec chk h o₂ eng tx mode f i s₂).2 := by
  unfold Runtime.buildAndExec
  obtain ⟨h1, h2⟩ := Twin.run (h := h) (buildCall chk tx mode f i) t
  simp only
  rw [h2]
  split
  · exact h1.execCall chk o₁ o₂ eng _
  · exact ⟨h1, rfl⟩

theorem Twin.spawnAccount {h : Hasher} {s₁ s₂ : Storage} (t : Twin s₁ s₂) (chk : Bool)
    (o₁ o₂ : Orders) (eng : Engine) (sp : SpawnAccount) (principal : Addr) :
    Twin (spawnAccount chk h o₁ eng sp principal s₁).1 (spawnAccount chk h o₂ eng sp principal s₂).1 ∧
      (Runtime.spawnAccount chk h o₁ eng sp principal s₁).2 =
        (Runtime.spawnAccount chk h o₂ eng sp principal s₂).2 := by
  unfold Runtime.spawnAccount
  obtain ⟨h1, h2⟩ := Twin.run (h := h)
    (createAccount chk (computeAccountAddr h sp) sp.templateAddr sp.name 0 0) t
  simp only
  rw [h2]
  split
  · unfold callCtor
    simp only
    obtain ⟨h3, h4⟩ := h1.execCall (h := h) chk o₁ o₂ eng (ctorCall h sp)
    exact ⟨h3, congrArg (fun r : Option CallReceipt => r.bind fun receipt => intoSpawnReceipt
      { receipt with
        touched := setInsert (setInsert receipt.touched (computeAccountAddr h sp)) principal }
      (computeAccountAddr h sp)) h4⟩
  · exact ⟨h1, rfl⟩

theorem Twin.perform {h : Hasher} {s₁ s₂ : Storage} (t : Twin s₁ s₂) (chk : Bool) (o₁ o₂ : Orders)
    (eng : Engine) (pr : Pricer) (cache : PriceCache) (tx : Tx) :
    Twin (perform chk h eng pr o₁ ⟨s₁, cache⟩ tx).1.storage
      (perform chk h eng pr o₂ ⟨s₂, cache⟩ tx).1.storage ∧
    (Runtime.perform chk h eng pr o₁ ⟨s₁, cache⟩ tx).1.cache =
      (Runtime.perform chk h eng pr o₂ ⟨s₂, cache⟩ tx).1.cache ∧
    (Runtime.perform chk h eng pr o₁ ⟨s₁, cache⟩ tx).2 =
      (Runtime.perform chk h eng pr o₂ ⟨s₂, cache⟩ tx).2 := by
  cases tx with
  | deploy e m =>
    simp only [Runtime.perform]
    unfold deploy
    split
    · simp only
      split
      · exact ⟨t, by trivial, by trivial⟩
      · split
        · exact ⟨t, by trivial, by trivial⟩
        · rename_i c _
          obtain ⟨h1, h2⟩ := Twin.run (h := h)
            (createTemplate (computeTemplateAddr h c) _ _) t
          rw [h2]
          split <;> exact ⟨h1, by trivial, by trivial⟩
    · exact ⟨t, by trivial, by trivial⟩
  | spawn e m =>
    simp only [Runtime.perform]
    unfold spawn
    split
    · rename_i sp rest hd
      obtain ⟨h1, h2⟩ := Twin.run (h := h) (loadTemplate chk sp.templateAddr) t
      simp only
      rw [h2]
      split
      · split
        · exact ⟨h1, by trivial, by trivial⟩
        · exact ⟨h1, by trivial, by trivial⟩
        · split
          · exact ⟨h1, by trivial, by trivial⟩
          · split
            · exact ⟨h1, by trivial, by trivial⟩
            · obtain ⟨h3, h4⟩ := h1.spawnAccount (h := h) chk o₁ o₂ eng sp e.principal
              exact ⟨h3, by trivial, by simp only [h4]⟩
      · exact ⟨h1, by trivial, by trivial⟩
    · exact ⟨t, by trivial, by trivial⟩
  | call m =>
    simp only [Runtime.perform]
    unfold call
    split
    · rename_i tx rest hd
      obtain ⟨h1, h2⟩ := t.buildAndExec (h := h) chk o₁ o₂ eng tx .fullAccess tx.funcName tx.calldata
      exact ⟨h1, by trivial, by rw [h2]⟩
    · exact ⟨t, by trivial, by trivial⟩
  | verify m =>
    simp only [Runtime.perform]
    unfold verify
    split
    · rename_i tx rest hd
      obtain ⟨h1, h2⟩ := t.buildAndExec (h := h) chk o₁ o₂ eng tx .accessDenied svmVerify
        tx.verifydata
      exact ⟨h1, by trivial, by rw [h2]⟩
    · exact ⟨t, by trivial, by trivial⟩

theorem Twin.rewind {s₁ s₂ : Storage} (t : Twin s₁ s₂) (l : Nat) :
    Twin (rewindTo l s₁).1 (rewindTo l s₂).1 ∧ (rewindTo l s₁).2 = (rewindTo l s₂).2 := by
  unfold rewindTo
  split
  · have hl : (Svm.Storage.Op.rewind l).RewindsFrom (-1) := by
      show (-1 : Int) ≤ l
      omega
    obtain ⟨h1, h2⟩ := t.step (h := ⟨fun _ => 0⟩) (.rewind l) (.rewind l) (fun _ => rfl) hl hl
    simp only [Svm.Storage.step] at h1 h2
    refine ⟨h1, ?_⟩
    simp only
    cases e1 : (Svm.Storage.rewind s₁ l).2 with
    | ok u => cases e2 : (Svm.Storage.rewind s₂ l).2 with
      | ok u => rfl
      | err e => rw [e1, e2] at h2; cases e <;> cases h2
      | panic => rw [e1, e2] at h2; cases h2
    | err e => cases e2 : (Svm.Storage.rewind s₂ l).2 with
      | ok u => rw [e1, e2] at h2; cases e <;> cases h2
      | err e => rfl
      | panic => rw [e1, e2] at h2; cases e <;> cases h2
    | panic => cases e2 : (Svm.Storage.rewind s₂ l).2 with
      | ok u => rw [e1, e2] at h2; cases h2
      | err e => rw [e1, e2] at h2; cases e <;> cases h2
      | panic => rfl
  · exact ⟨t, rfl⟩

theorem Twin.event {h : Hasher} {s₁ s₂ : Storage} (t : Twin s₁ s₂) (chk : Bool) (o₁ o₂ : Orders)
    (eng : Engine) (pr : Pricer) (cache : PriceCache) (e : Event) :
    Twin (Node.step chk h eng pr o₁ ⟨s₁, cache⟩ e).1.storage
      (Node.step chk h eng pr o₂ ⟨s₂, cache⟩ e).1.storage ∧
    (Node.step chk h eng pr o₁ ⟨s₁, cache⟩ e).1.cache =
      (Node.step chk h eng pr o₂ ⟨s₂, cache⟩ e).1.cache ∧
    (Node.step chk h eng pr o₁ ⟨s₁, cache⟩ e).2 = (Node.step chk h eng pr o₂ ⟨s₂, cache⟩ e).2 := by
  have key : ∀ {α : Type} (p : Prog α) (f : α → Answer),
      Twin (p.run h s₁).1 (p.run h s₂).1 ∧ cache = cache ∧
        answerOf f (p.run h s₁).2 = answerOf f (p.run h s₂).2 := by
    intro α p f
    obtain ⟨h1, h2⟩ := Twin.run (h := h) p t
    exact ⟨h1, rfl, by rw [h2]⟩
  cases e with
  | tx x =>
    obtain ⟨h1, h2, h3⟩ := t.perform (h := h) chk o₁ o₂ eng pr cache x
    exact ⟨h1, h2, by simp only [Node.step, h3]⟩
  | create => exact key _ _
  | credit => exact key _ _
  | pay => exact key _ _
  | account => exact key _ _
  | commit =>
    obtain ⟨h1, h2⟩ := t.commit o₁.commit o₂.commit
    exact ⟨h1, rfl, by simp only [Node.step, commitLayer, h2]⟩
  | rewind l =>
    obtain ⟨h1, h2⟩ := t.rewind l
    exact ⟨h1, rfl, h2⟩
  | layer =>
    obtain ⟨a, h1, h2⟩ := t.spec
    refine ⟨t, rfl, ?_⟩
    simp only [Node.step, currentLayer]
    rw [last_fp h1.inv t.fp₁, last_fp h2.inv t.fp₂, t.next]
  | uncommitted =>
    obtain ⟨a, h1, h2⟩ := t.spec
    refine ⟨t, rfl, ?_⟩
    simp only [Node.step, Svm.Storage.hasUncommittedChanges]
    by_cases hd : a.dirty = []
    · rw [h1.dirtyNil.2 hd, h2.dirtyNil.2 hd]
    · have e1 : ∀ s : Storage, s.dirty ≠ [] → s.dirty.isEmpty = false := by
        intro s hs
        cases hx : s.dirty with
        | nil => exact absurd hx hs
        | cons => rfl
      rw [e1 _ (fun e => hd (h1.dirtyNil.1 e)), e1 _ (fun e => hd (h2.dirtyNil.1 e))]

theorem twin_boot (h : Hasher) (o₁ o₂ : Orders) (writes : List (Bytes × Bytes)) :
    Twin (Node.boot h o₁ writes).storage (Node.boot h o₂ writes).storage := by
  have hf : FpOk Svm.Storage.fresh := by
    refine ⟨?_, rfl⟩
    intro r hr
    simp only [Svm.Storage.fresh, List.mem_singleton] at hr
    subst hr
    rfl
  have h0 : Twin Svm.Storage.fresh Svm.Storage.fresh :=
    ⟨⟨_, Svm.Storage.sim_fresh, Svm.Storage.sim_fresh⟩, hf, hf⟩
  have h1 : ∀ (ws : List (Bytes × Bytes)) (s₁ s₂ : Storage), Twin s₁ s₂ →
      Twin (ws.foldl (fun s w => Svm.Storage.upsert h s w.1 w.2) s₁)
        (ws.foldl (fun s w => Svm.Storage.upsert h s w.1 w.2) s₂) := by
    intro ws
    induction ws with
    | nil => exact fun _ _ t => t
    | cons w ws ih =>
      intro s₁ s₂ t
      exact ih _ _ (t.step (h := h) (.upsert (h.hash w.1) w.2) (.upsert (h.hash w.1) w.2)
        (fun _ => rfl) trivial trivial).1
  have h2 := ((h1 writes _ _ h0).step (h := h) (.checkpoint o₁.checkpoint)
    (.checkpoint o₂.checkpoint) (fun _ => rfl) trivial trivial).1
  exact (h2.commit o₁.commit o₂.commit).1

theorem Twin.history {h : Hasher} {s₁ s₂ : Storage} (t : Twin s₁ s₂) (chk : Bool) (eng : Engine)
    (pr : Pricer) (cache : PriceCache) (es : List Event) (os₁ os₂ : Nat → Orders) :
    Twin (Node.run chk h eng pr ⟨s₁, cache⟩ es os₁).1.storage
      (Node.run chk h eng pr ⟨s₂, cache⟩ es os₂).1.storage ∧
    (Node.run chk h eng pr ⟨s₁, cache⟩ es os₁).2 = (Node.run chk h eng pr ⟨s₂, cache⟩ es os₂).2 := by
  induction es generalizing s₁ s₂ cache os₁ os₂ with
  | nil => exact ⟨t, rfl⟩
  | cons e es ih =>
    obtain ⟨h1, h2, h3⟩ := t.event (h := h) chk (os₁ 0) (os₂ 0) eng pr cache e
    simp only [Node.run]
    generalize Node.step chk h eng pr (os₁ 0) ⟨s₁, cache⟩ e = x at *
    generalize Node.step chk h eng pr (os₂ 0) ⟨s₂, cache⟩ e = y at *
    obtain ⟨⟨x1, x2⟩, x3⟩ := x
    obtain ⟨⟨y1, y2⟩, y3⟩ := y
    simp only at h1 h2 h3
    subst h2 h3
    obtain ⟨h4, h5⟩ := ih h1 x2 (fun n => os₁ (n + 1)) (fun n => os₂ (n + 1))
    exact ⟨h4, by rw [h5]⟩

/-- C94: two nodes that are given the same calls of public functions, in the same order, give the same
answers (receipts with their state hashes included), and can read the same at every layer, whatever
the iteration orders of their hash maps. -/
theorem C94_deterministic (h : Hasher) (chk : Bool) (eng : Engine) (pr : Pricer)
    (writes : List (Bytes × Bytes)) (events : List Event) (b₁ b₂ : Orders) (os₁ os₂ : Nat → Orders) :
    (Node.run chk h eng pr (Node.boot h b₁ writes) events os₁).2 =
      (Node.run chk h eng pr (Node.boot h b₂ writes) events os₂).2 ∧
    ∀ key layer,
      Svm.Storage.get h (Node.run chk h eng pr (Node.boot h b₁ writes) events os₁).1.storage key
        layer =
      Svm.Storage.get h (Node.run chk h eng pr (Node.boot h b₂ writes) events os₂).1.storage key
        layer := by
  obtain ⟨h1, h2⟩ := (twin_boot h b₁ b₂ writes).history (h := h) chk eng pr [] events os₁ os₂
  refine ⟨h2, fun key layer => ?_⟩
  unfold Svm.Storage.get
  cases layer with
  | none => exact h1.get _
  | some l =>
    obtain ⟨a, g1, g2⟩ := h1.spec
    have hn := h1.next
    unfold Node.boot at *
    unfold Svm.Storage.getByHash
    simp only
    rw [hn]
    split
    · rename_i hl
      rw [g1.inv.queryHistorical, g2.inv.queryHistorical, g1.hist _ _ (by omega), g2.hist _ _ hl]
    · rfl

/-- Non-vacuity of C94: with two genesis writes and two orders, the rows of the two databases are not
the same, and the nodes answer. -/
example :
    let h : Hasher := ⟨fun b => BitVec.ofNat _ b.length⟩
    let rev : Svm.Storage.Ord := ⟨List.reverse, List.reverse_perm⟩
    let w : List (Bytes × Bytes) := [([1], [2]), ([1, 1], [3])]
    (Node.boot h ⟨.id, .id⟩ w).storage.db.values ≠ (Node.boot h ⟨.id, rev⟩ w).storage.db.values ∧
    (Node.run true h idleEngine flatPricer (Node.boot h ⟨.id, rev⟩ w) [.uncommitted, .commit]
      fun _ => ⟨rev, rev⟩).2 = [.flag false, .done] := by
  refine ⟨by decide +kernel, ?_⟩
  rfl

/-! ## C95: commits -/

/-- The event reports that it changed the state. -/
def Event.Changed : Event → Answer → Prop
  | .tx (.deploy _ _), .receipt (.deploy r) => r.success = true
  | .tx (.spawn _ _), .receipt (.spawn r) => r.success = true
  | .tx (.call _), .receipt (.call r) => r.success = true
  | .create .., .done => True
  | .credit .., .done => True
  | .pay .., .done => True
  | _, _ => False

/-- The claim of C95: after a change, a commit succeeds. -/
def C95_claim : Prop :=
  ∀ (h : Hasher), NoCollision h → ∀ (chk : Bool) (eng : Engine) (pr : Pricer) (o o' : Orders)
    (rs rs' : RState) (e : Event) (ans : Answer), Reach h rs.storage → 0 ≤ rs.storage.next.id →
    Node.step chk h eng pr o rs e = (rs', ans) → e.Changed ans →
    (Node.step chk h eng pr o' rs' .commit).2 = .done

/-- Every way to return passes a write. -/
def Prog.MustWrite {α : Type} : Prog α → Prop
  | .ret _ => False
  | .err _ => True
  | .panic _ => True
  | .get _ f => ∀ v, MustWrite (f v)
  | .set _ _ _ => True

theorem upsert_dirty (h : Hasher) (s : Storage) (k v : Bytes) :
    (Svm.Storage.upsert h s k v).dirty ≠ [] := by
  simp [Svm.Storage.upsert, Svm.Storage.upsertByHash, AMap.insert]

theorem run_dirty {h : Hasher} {α : Type} (p : Prog α) {s : Storage} (hd : s.dirty ≠ []) :
    (p.run h s).1.dirty ≠ [] := by
  induction p generalizing s with
  | ret | err | panic => exact hd
  | get k f ih =>
    simp only [Prog.run]
    split
    · exact ih _ hd
    · exact hd
    · exact hd
  | set k v p ih => exact ih (upsert_dirty h s _ _)

theorem Prog.MustWrite.run {h : Hasher} {α : Type} {p : Prog α} (hp : MustWrite p) {s : Storage}
    {a : α} (ho : (p.run h s).2 = .ok a) : (p.run h s).1.dirty ≠ [] := by
  induction p generalizing s with
  | ret => exact hp.elim
  | err | panic => cases ho
  | get k f ih =>
    simp only [Prog.run] at ho ⊢
    split at ho
    · exact ih _ (hp _) ho
    · cases ho
    · cases ho
  | set k v p ih => exact run_dirty p (upsert_dirty h s _ _)

theorem Prog.MustWrite.bind {α β : Type} {p : Prog α} {f : α → Prog β} (hp : MustWrite p) :
    MustWrite (p.bind f) := by
  induction p with
  | ret => exact hp.elim
  | err | panic => trivial
  | get k g ih => exact fun v => ih v (hp v)
  | set k v q ih => trivial

theorem Prog.MustWrite.after {α β : Type} {p : Prog α} {f : α → Prog β}
    (hf : ∀ a, MustWrite (f a)) : MustWrite (p.bind f) := by
  induction p with
  | ret a => exact hf a
  | err | panic => trivial
  | get k g ih => exact fun v => ih v
  | set k v q ih => trivial

theorem Prog.MustWrite.unwrap {α : Type} {p : Prog α} (hp : MustWrite p) : MustWrite p.unwrap := by
  induction p with
  | ret => exact hp.elim
  | err | panic => trivial
  | get k g ih => exact fun v => ih v (hp v)
  | set k v q ih => trivial

theorem mustWrite_encodeAndWrite (e : Enc) (k : Key) : Prog.MustWrite (encodeAndWrite e k) := by
  unfold encodeAndWrite
  split <;> trivial

theorem mustWrite_setBalance (acc : Acc) (b : U64) : Prog.MustWrite (setBalance acc b) :=
  Prog.MustWrite.after fun _ => mustWrite_encodeAndWrite _ _

/-- The answer reports a successful call, spawn or verification. -/
def Answer.Saves : Answer → Prop
  | .receipt (.call r) => r.success = true
  | .receipt (.spawn r) => r.success = true
  | .receipt (.verify r) => r.success = true
  | _ => False

/-- Nothing is pending, and the layer is one that can be reported. -/
structure Clean (s : Storage) : Prop where
  inv : Inv s
  dirty : s.dirty = []
  next : 0 ≤ s.next.id

/-- Something is pending. -/
structure Pending (s : Storage) : Prop where
  inv : Inv s
  dirty : s.dirty ≠ []
  next : 0 ≤ s.next.id

theorem commitChanges_trace {h : Hasher} {e : Storage} (hi : Inv e) (h0 : 0 ≤ e.next.id) (o : Orders)
    (env : Env) :
    (Clean (commitChanges h o env e).1 ∧ (commitChanges h o env e).2.isSome) ∨
      ((commitChanges h o env e).1 = e ∧ (commitChanges h o env e).2 = none) := by
  unfold commitChanges
  split
  · refine .inl ?_
    have hi1 : Inv (Svm.Storage.checkpoint h o.checkpoint e) :=
      Svm.Storage.inv_step h hi (.checkpoint o.checkpoint) trivial
    have hcp := Svm.Storage.checkpoint_eq h o.checkpoint e
    have hd1 : (Svm.Storage.checkpoint h o.checkpoint e).dirty = [] := by rw [hcp]
    have hn1 : (Svm.Storage.checkpoint h o.checkpoint e).next.id = e.next.id := by rw [hcp]
    have hi2 : Inv (Svm.Storage.commit o.commit (Svm.Storage.checkpoint h o.checkpoint e)).1 :=
      Svm.Storage.inv_step h hi1 (.commit o.commit) trivial
    obtain ⟨prev, -, h2⟩ := Svm.Storage.commit_ok hi1 hd1 o.commit
    rw [h2] at hi2 ⊢
    simp only [hn1, h0, if_true]
    exact ⟨⟨by rw [← hn1]; exact hi2, rfl, by simp only; omega⟩, rfl⟩
  · exact .inr ⟨rfl, rfl⟩

theorem execCall_trace {h : Hasher} {s : Storage} (hi : Inv s) (h0 : 0 ≤ s.next.id) (chk : Bool)
    (o : Orders) (eng : Engine) (c : Call) :
    (Clean (execCall chk h o eng c s).1 ∧
      ∃ r, (execCall chk h o eng c s).2 = some r ∧ r.success = true) ∨
    ((execCall chk h o eng c s).1 = after h (exec chk eng c) s ∧
      ∀ r, (execCall chk h o eng c s).2 = some r → r.success = false) := by
  have hi1 := inv_prog (h := h) (exec chk eng c) hi
  have hf := (Prog.run_frame h (exec chk eng c) s).2
  unfold execCall
  simp only
  split
  · rename_i env mem logs he
    unfold outcomeToReceipt
    split
    · exact .inr ⟨rfl, fun r hr => by cases hr⟩
    · have h1 : 0 ≤ (after h (exec chk eng c) s).next.id := by
        show 0 ≤ ((exec chk eng c).run h s).1.next.id
        rw [hf]
        exact h0
      rcases commitChanges_trace (h := h) hi1 h1 o env with ⟨h2, h3⟩ | ⟨h2, h3⟩
      · refine .inl ⟨h2, ?_⟩
        obtain ⟨st, hst⟩ := Option.isSome_iff_exists.1 h3
        exact ⟨_, congrArg (Option.map _) hst, rfl⟩
      · refine .inr ⟨h2, fun r hr => ?_⟩
        have h4 := hr.symm.trans (congrArg (Option.map _) h3)
        cases h4
  · exact .inr ⟨rfl, fun r hr => by cases hr; rfl⟩
  · exact .inr ⟨rfl, fun r hr => by cases hr⟩

theorem buildAndExec_trace {h : Hasher} {s : Storage} (hi : Inv s) (h0 : 0 ≤ s.next.id) (chk : Bool)
    (o : Orders) (eng : Engine) (tx : Transaction) (mode : AccessMode) (func : Str) (input : Bytes) :
    (Clean (buildAndExec chk h o eng tx mode func input s).1 ∧
      ∃ r, (buildAndExec chk h o eng tx mode func input s).2 = some r ∧ r.success = true) ∨
    ((∃ (α : Type) (p : Prog α), (buildAndExec chk h o eng tx mode func input s).1 = after h p s) ∧
      ∀ r, (buildAndExec chk h o eng tx mode func input s).2 = some r → r.success = false) := by
  have hs := (readOnly_buildCall chk tx mode func input).run h s
  unfold buildAndExec
  simp only
  split
  · rw [hs]
    rcases execCall_trace (h := h) hi h0 chk o eng _ with h1 | ⟨h1, h2⟩
    · exact .inl h1
    · exact .inr ⟨⟨_, _, h1⟩, h2⟩
  · exact .inr ⟨⟨_, _, rfl⟩, fun r hr => (by cases hr)⟩

theorem after_of_ok {h : Hasher} {α β : Type} {p : Prog α} {s : Storage} {a : α}
    (hok : (p.run h s).2 = .ok a) (f : α → Prog β) :
    after h (p.bind f) s = after h (f a) (p.run h s).1 := by
  unfold after
  rw [Prog.run_bind]
  generalize p.run h s = x at hok ⊢
  obtain ⟨x1, x2⟩ := x
  simp only at hok
  subst hok
  rfl

theorem spawnReceipt_failed {c : CallReceipt} (hc : c.success = false) {l : List Addr} {a : Addr}
    {r : SpawnReceipt} (hr : intoSpawnReceipt { c with touched := l } a = some r) :
    r.success = false := by
  unfold intoSpawnReceipt at hr
  simp only [hc, Bool.false_eq_true, if_false] at hr
  split at hr
  · cases hr; rfl
  · cases hr

theorem spawn_trace {h : Hasher} {rs : RState} (hi : Inv rs.storage) (h0 : 0 ≤ rs.storage.next.id)
    (chk : Bool) (o : Orders) (eng : Engine) (pr : Pricer) (e : Envelope) (m : Bytes) :
    (Clean (spawn chk h o eng pr e m rs).1.storage ∧
      ∃ r, (spawn chk h o eng pr e m rs).2 = some r ∧ r.success = true) ∨
    ((∃ (α : Type) (p : Prog α), (spawn chk h o eng pr e m rs).1.storage = after h p rs.storage) ∧
      ∀ r, (spawn chk h o eng pr e m rs).2 = some r → r.success = false) := by
  unfold spawn
  split
  · rename_i sp rest hd
    have hs := (readOnly_loadTemplate chk sp.templateAddr).run h rs.storage
    have same : ∃ (α : Type) (p : Prog α),
        ((loadTemplate chk sp.templateAddr).run h rs.storage).1 = after h p rs.storage := ⟨_, _, rfl⟩
    simp only
    split
    · split
      · exact .inr ⟨same, fun r hr => (by cases hr)⟩
      · exact .inr ⟨same, fun r hr => (by cases hr; rfl)⟩
      · split
        · exact .inr ⟨same, fun r hr => (by cases hr)⟩
        · split
          · exact .inr ⟨same, fun r hr => (by cases hr; rfl)⟩
          · rw [hs]
            unfold spawnAccount
            simp only
            split
            · unfold callCtor
              simp only
              have hi1 := inv_prog (h := h)
                (createAccount chk (computeAccountAddr h sp) sp.templateAddr sp.name 0 0) hi
              have hf := (Prog.run_frame h
                (createAccount chk (computeAccountAddr h sp) sp.templateAddr sp.name 0 0)
                rs.storage).2
              rcases execCall_trace (h := h) hi1 (by rw [hf]; exact h0) chk o eng (ctorCall h sp) with
                ⟨h1, r, h2, h3⟩ | ⟨h1, h2⟩
              · refine .inl ⟨h1, ?_⟩
                have h4 := congrArg (fun r : Option CallReceipt => r.bind fun receipt =>
                  intoSpawnReceipt { receipt with
                    touched := setInsert (setInsert receipt.touched (computeAccountAddr h sp))
                      e.principal } (computeAccountAddr h sp)) h2
                refine ⟨{ version := 0, success := true, error := none
                          accountAddr := some (computeAccountAddr h sp)
                          initState := r.newState, returndata := r.returndata, gasUsed := r.gasUsed
                          touched := setInsert (setInsert r.touched (computeAccountAddr h sp))
                            e.principal, logs := r.logs }, h4.trans ?_, rfl⟩
                simp [intoSpawnReceipt, h3]
              · refine .inr ⟨⟨_, (createAccount chk (computeAccountAddr h sp) sp.templateAddr sp.name
                  0 0).bind fun _ => exec chk eng (ctorCall h sp), ?_⟩, ?_⟩
                · rename_i hok
                  exact h1.trans (after_of_ok hok fun _ => exec chk eng (ctorCall h sp)).symm
                · intro r hr
                  obtain ⟨c, hc1, hc2⟩ := Option.bind_eq_some_iff.1 hr
                  exact spawnReceipt_failed (h2 c hc1) hc2
            · exact .inr ⟨⟨_, _, rfl⟩, fun r hr => (by cases hr)⟩
    · exact .inr ⟨same, fun r hr => (by cases hr)⟩
  · exact .inr ⟨⟨Unit, .ret (), rfl⟩, fun r hr => (by cases hr)⟩

/-- What a transaction does to a storage: a new layer, or the writes of some program. -/
theorem perform_trace {h : Hasher} {rs : RState} (hi : Inv rs.storage) (h0 : 0 ≤ rs.storage.next.id)
    (chk : Bool) (o : Orders) (eng : Engine) (pr : Pricer) (t : Tx) :
    (Clean (Node.step chk h eng pr o rs (.tx t)).1.storage ∧
      (Node.step chk h eng pr o rs (.tx t)).2.Saves) ∨
    ((∃ (α : Type) (p : Prog α),
        (Node.step chk h eng pr o rs (.tx t)).1.storage = after h p rs.storage) ∧
      ¬ (Node.step chk h eng pr o rs (.tx t)).2.Saves) := by
  have same : ∃ (α : Type) (p : Prog α), rs.storage = after h p rs.storage := ⟨Unit, .ret (), rfl⟩
  cases t with
  | deploy e m =>
    simp only [Node.step, perform]
    refine .inr ⟨?_, ?_⟩
    · unfold deploy
      split
      · simp only
        split
        · exact same
        · split
          · exact same
          · split <;> exact ⟨_, _, rfl⟩
      · exact same
    · cases hx : (deploy chk h e m rs.storage).2 <;> simp [Answer.Saves]
  | spawn e m =>
    simp only [Node.step, perform]
    rcases spawn_trace (h := h) hi h0 chk o eng pr e m with ⟨h1, r, h2, h3⟩ | ⟨h1, h2⟩
    · exact .inl ⟨h1, by rw [h2]; exact h3⟩
    · refine .inr ⟨h1, ?_⟩
      cases hx : (spawn chk h o eng pr e m rs).2 with
      | none => exact id
      | some r => simp [Answer.Saves, h2 r hx]
  | call m =>
    simp only [Node.step, perform]
    unfold call
    split
    · rename_i tx rest hd
      rcases buildAndExec_trace (h := h) hi h0 chk o eng tx .fullAccess tx.funcName tx.calldata with
        ⟨h1, r, h2, h3⟩ | ⟨h1, h2⟩
      · exact .inl ⟨h1, by rw [h2]; exact h3⟩
      · refine .inr ⟨h1, ?_⟩
        cases hx : (buildAndExec chk h o eng tx .fullAccess tx.funcName tx.calldata rs.storage).2 with
        | none => exact id
        | some r => simp [Answer.Saves, h2 r hx]
    · exact .inr ⟨same, id⟩
  | verify m =>
    simp only [Node.step, perform]
    unfold verify
    split
    · rename_i tx rest hd
      rcases buildAndExec_trace (h := h) hi h0 chk o eng tx .accessDenied svmVerify tx.verifydata with
        ⟨h1, r, h2, h3⟩ | ⟨h1, h2⟩
      · exact .inl ⟨h1, by rw [h2]; exact h3⟩
      · refine .inr ⟨h1, ?_⟩
        cases hx : (buildAndExec chk h o eng tx .accessDenied svmVerify tx.verifydata rs.storage).2 with
        | none => exact id
        | some r => simp [Answer.Saves, h2 r hx]
    · exact .inr ⟨same, id⟩

theorem Pending.run {h : Hasher} {s : Storage} (hp : Pending s) {α : Type} (p : Prog α) :
    Pending (after h p s) := by
  refine ⟨inv_prog p hp.inv, run_dirty p hp.dirty, ?_⟩
  show 0 ≤ (p.run h s).1.next.id
  rw [(Prog.run_frame h p s).2]
  exact hp.next

/-- Commits and rewinds are refused and change nothing. -/
def Refuses (chk : Bool) (h : Hasher) (eng : Engine) (pr : Pricer) (rs : RState) : Prop :=
  (∀ o, Node.step chk h eng pr o rs .commit = (rs, .refused)) ∧
  ∀ o (l : Nat), (l : Int) < rs.storage.next.id → l < 2 ^ 63 →
    Node.step chk h eng pr o rs (.rewind l) = (rs, .refused)

theorem refuses_of_dirty {rs : RState} (hd : rs.storage.dirty ≠ []) (chk : Bool) (h : Hasher)
    (eng : Engine) (pr : Pricer) : Refuses chk h eng pr rs := by
  refine ⟨fun o => ?_, fun o l hl hl' => ?_⟩
  · simp only [Node.step, commitLayer, Svm.Storage.commit_dirty hd]
  · have h1 := (Svm.Storage.C06_dirty_refused rs.storage o.commit l).1 hd
    simp only [Node.step, rewindTo, hl', if_true, h1.2 hl]

theorem Pending.step {h : Hasher} {rs : RState} (hp : Pending rs.storage) (chk : Bool) (o : Orders)
    (eng : Engine) (pr : Pricer) (e : Event) (hns : ¬ (Node.step chk h eng pr o rs e).2.Saves) :
    Pending (Node.step chk h eng pr o rs e).1.storage := by
  cases e with
  | tx t =>
    rcases perform_trace (h := h) hp.inv hp.next chk o eng pr t with ⟨-, h1⟩ | ⟨⟨α, p, h1⟩, -⟩
    · exact absurd h1 hns
    · rw [h1]
      exact hp.run p
  | create => exact hp.run _
  | credit => exact hp.run _
  | pay => exact hp.run _
  | account => exact hp.run _
  | commit =>
    rw [(refuses_of_dirty hp.dirty chk h eng pr).1 o]
    exact hp
  | rewind l =>
    simp only [Node.step, rewindTo]
    split
    · unfold Svm.Storage.rewind
      split
      · cases hd : rs.storage.dirty with
        | nil => exact absurd hd hp.dirty
        | cons a b => exact hp
      · exact hp
    · exact hp
  | layer => exact hp
  | uncommitted => exact hp

theorem mustWrite_create (chk : Bool) (a t : Addr) (nm : Str) (b : U64) (c : U128) :
    Prog.MustWrite (createAccount chk a t nm b c) := by
  refine Prog.MustWrite.bind (Prog.MustWrite.unwrap ?_)
  exact Prog.MustWrite.after fun _ => Prog.MustWrite.bind (mustWrite_encodeAndWrite _ _)

theorem mustWrite_credit (chk : Bool) (a : Addr) (amount : U64) :
    Prog.MustWrite (increaseBalance chk a amount) := by
  refine Prog.MustWrite.after fun _ => Prog.MustWrite.after fun _ => ?_
  split
  · exact (mustWrite_setBalance _ _).unwrap
  · trivial

theorem mustWrite_pay (chk : Bool) (src dst : Addr) (amount : U64) :
    Prog.MustWrite (transfer chk src dst amount) := by
  refine Prog.MustWrite.after fun _ => Prog.MustWrite.after fun x => ?_
  split
  · trivial
  · refine Prog.MustWrite.after fun _ => Prog.MustWrite.after fun _ => Prog.MustWrite.after fun _ => ?_
    unfold moveCoins
    split
    · trivial
    · exact Prog.MustWrite.bind (mustWrite_setBalance _ _).unwrap

/-- A change that only a later call can save. -/
def Event.Unsaved : Event → Answer → Prop
  | .tx (.deploy _ _), .receipt (.deploy r) => r.success = true
  | .create .., .done => True
  | .credit .., .done => True
  | .pay .., .done => True
  | _, _ => False

theorem answerOf_done {α : Type} {x : Outcome SErr α} (hx : answerOf (fun _ => .done) x = .done) :
    ∃ a, x = .ok a := by
  cases x with
  | ok a => exact ⟨a, rfl⟩
  | err => cases hx
  | panic => cases hx

theorem deploy_dirty {chk : Bool} {h : Hasher} {e : Envelope} {m : Bytes} {s : Storage}
    {r : DeployReceipt} (hd : (deploy chk h e m s).2 = some r) (hs : r.success = true) :
    (deploy chk h e m s).1.dirty ≠ [] := by
  unfold deploy at hd ⊢
  split at hd
  · simp only at hd ⊢
    split at hd
    · cases hd; cases hs
    · split at hd
      · cases hd
      · rename_i hg _ c hcs
        simp only [hg]
        split at hd
        · rename_i hok
          exact Prog.MustWrite.run (Prog.MustWrite.bind (mustWrite_encodeAndWrite _ _)) hok
        · cases hd
  · cases hd

theorem unsaved_dirty {chk : Bool} {h : Hasher} {eng : Engine} {pr : Pricer} {o : Orders} {rs : RState}
    {e : Event} (hch : e.Unsaved (Node.step chk h eng pr o rs e).2) :
    (Node.step chk h eng pr o rs e).1.storage.dirty ≠ [] := by
  have key : ∀ {α : Type} (p : Prog α), Prog.MustWrite p →
      answerOf (fun _ => .done) (p.run h rs.storage).2 = .done → (p.run h rs.storage).1.dirty ≠ [] := by
    intro α p hp hx
    obtain ⟨a, ha⟩ := answerOf_done hx
    exact hp.run ha
  have done : ∀ (x : Answer) (P : Answer → Prop) (_ : ∀ y, P y → y = .done), P x → x = .done :=
    fun x P hP hx => hP x hx
  cases e with
  | tx t =>
    cases t with
    | deploy e m =>
      simp only [Node.step, perform] at hch ⊢
      cases hx : (deploy chk h e m rs.storage).2 with
      | none => rw [hx] at hch; exact hch.elim
      | some r => rw [hx] at hch; exact deploy_dirty hx hch
    | spawn | call | verify =>
      simp only [Event.Unsaved] at hch
  | create =>
    refine key _ (mustWrite_create _ _ _ _ _ _) (done _ _ ?_ hch)
    intro y hy
    cases y <;> first | rfl | cases hy
  | credit =>
    refine key _ (mustWrite_credit _ _ _) (done _ _ ?_ hch)
    intro y hy
    cases y <;> first | rfl | cases hy
  | pay =>
    refine key _ (mustWrite_pay _ _ _ _) (done _ _ ?_ hch)
    intro y hy
    cases y <;> first | rfl | cases hy
  | account | commit | rewind | layer | uncommitted => simp only [Event.Unsaved] at hch

theorem unsaved_frame {chk : Bool} {h : Hasher} {eng : Engine} {pr : Pricer} {o : Orders} {rs : RState}
    (hi : Inv rs.storage) (h0 : 0 ≤ rs.storage.next.id) {e : Event}
    (hch : e.Unsaved (Node.step chk h eng pr o rs e).2) :
    Inv (Node.step chk h eng pr o rs e).1.storage ∧
      0 ≤ (Node.step chk h eng pr o rs e).1.storage.next.id := by
  have key : ∀ {α : Type} (p : Prog α), Inv (p.run h rs.storage).1 ∧
      0 ≤ (p.run h rs.storage).1.next.id := by
    intro α p
    refine ⟨inv_prog p hi, ?_⟩
    rw [(Prog.run_frame h p rs.storage).2]
    exact h0
  cases e with
  | tx t =>
    rcases perform_trace (h := h) hi h0 chk o eng pr t with ⟨h1, -⟩ | ⟨⟨α, p, h1⟩, -⟩
    · exact ⟨h1.inv, h1.next⟩
    · rw [h1]
      exact key p
  | create => exact key _
  | credit => exact key _
  | pay => exact key _
  | account | commit | rewind | layer | uncommitted => simp only [Event.Unsaved] at hch

theorem Pending.history {h : Hasher} {rs : RState} (hp : Pending rs.storage) (chk : Bool)
    (eng : Engine) (pr : Pricer) (events : List Event) (os : Nat → Orders)
    (hns : ∀ ans ∈ (Node.run chk h eng pr rs events os).2, ¬ ans.Saves) :
    Pending (Node.run chk h eng pr rs events os).1.storage := by
  induction events generalizing rs os with
  | nil => exact hp
  | cons e es ih =>
    simp only [Node.run] at hns ⊢
    exact ih (hp.step chk (os 0) eng pr e (hns _ (by simp))) _
      fun ans ha => hns ans (by simp [ha])

/-- C95, what the code does: after a successful deployment, creation of an account, credit or payment,
every commit is refused and every rewind to an existing layer is refused, and this stays so over any
further calls of public functions, whatever they do, until one of them is a call or spawn that
succeeds. -/
theorem C95_stuck {h : Hasher} {rs : RState} (hr : Inv rs.storage) (h0 : 0 ≤ rs.storage.next.id)
    (chk : Bool) (eng : Engine) (pr : Pricer) (o : Orders) (e : Event)
    (hch : e.Unsaved (Node.step chk h eng pr o rs e).2) (events : List Event) (os : Nat → Orders)
    (hns : ∀ ans ∈ (Node.run chk h eng pr (Node.step chk h eng pr o rs e).1 events os).2,
      ¬ ans.Saves) :
    Refuses chk h eng pr (Node.run chk h eng pr (Node.step chk h eng pr o rs e).1 events os).1 := by
  refine refuses_of_dirty (Pending.history ?_ chk eng pr events os hns).dirty chk h eng pr
  have hd := unsaved_dirty hch
  refine ⟨?_, hd, ?_⟩
  · exact (unsaved_frame hr h0 hch).1
  · exact (unsaved_frame hr h0 hch).2

/-- C95, the part that holds: after a successful call or spawn, a commit succeeds. Missing: the other
changes. -/
theorem C95_commit_partial {h : Hasher} {rs : RState} (hr : Inv rs.storage)
    (h0 : 0 ≤ rs.storage.next.id) (chk : Bool) (eng : Engine) (pr : Pricer) (o o' : Orders) (e : Event)
    (hch : e.Changed (Node.step chk h eng pr o rs e).2)
    (hun : ¬ e.Unsaved (Node.step chk h eng pr o rs e).2) :
    (Node.step chk h eng pr o' (Node.step chk h eng pr o rs e).1 .commit).2 = .done := by
  have hsv : ∃ t, e = .tx t ∧ (Node.step chk h eng pr o rs e).2.Saves := by
    cases e with
    | tx t =>
      refine ⟨t, rfl, ?_⟩
      generalize (Node.step chk h eng pr o rs (.tx t)).2 = ans at hch hun
      cases t with
      | deploy =>
        cases ans with
        | receipt r => cases r <;> exact absurd hch hun
        | _ => exact hch.elim
      | spawn =>
        cases ans with
        | receipt r => cases r <;> first | exact hch | exact hch.elim
        | _ => exact hch.elim
      | call =>
        cases ans with
        | receipt r => cases r <;> first | exact hch | exact hch.elim
        | _ => exact hch.elim
      | verify => cases ans <;> exact hch.elim
    | create =>
      generalize (Node.step chk h eng pr o rs _).2 = ans at hch hun
      cases ans <;> exact absurd hch hun
    | credit =>
      generalize (Node.step chk h eng pr o rs _).2 = ans at hch hun
      cases ans <;> exact absurd hch hun
    | pay =>
      generalize (Node.step chk h eng pr o rs _).2 = ans at hch hun
      cases ans <;> exact absurd hch hun
    | account | commit | rewind | layer | uncommitted => exact hch.elim
  obtain ⟨t, rfl, hsv⟩ := hsv
  rcases perform_trace (h := h) hr h0 chk o eng pr t with ⟨h1, -⟩ | ⟨-, h1⟩
  · obtain ⟨prev, -, h2⟩ := Svm.Storage.commit_ok h1.inv h1.dirty o'.commit
    simp only [Node.step, commitLayer] at h2 ⊢
    rw [h2]
    simp only [show 0 ≤ (perform chk h eng pr o rs t).1.storage.next.id from h1.next, if_true]
  · exact absurd hsv h1

/-- The demo: one coin is credited. -/
theorem demo_credit {h : Hasher} (hc : NoCollision h) (o : Orders) :
    (Node.step true h idleEngine flatPricer o ⟨demoCommitted h, []⟩
      (.credit (exampleAddr 1) 1)).2 = .done := by
  have e : out h (increaseBalance true (exampleAddr 1) 1) (demoCommitted h) = .ok () := by
    rw [out_eval hc, view_demoCommitted hc]
    decide +kernel
  show answerOf _ (out h (increaseBalance true (exampleAddr 1) 1) (demoCommitted h)) = _
  rw [e]
  rfl

/-- C95 is violated. -/
theorem C95_claim_false : ¬ C95_claim := by
  intro hcl
  obtain ⟨h, hc⟩ := exists_noCollision
  have hd := demo_credit hc ⟨.id, .id⟩
  have hch : Event.Changed (.credit (exampleAddr 1) 1) (Node.step true h idleEngine flatPricer
      ⟨.id, .id⟩ ⟨demoCommitted h, []⟩ (.credit (exampleAddr 1) 1)).2 := by
    rw [hd]
    trivial
  have h1 := hcl h hc true idleEngine flatPricer ⟨.id, .id⟩ ⟨.id, .id⟩ ⟨demoCommitted h, []⟩ _ _ _
    (ready_demo hc).reach (ready_demo hc).id (Prod.eta _).symm hch
  have hu : Event.Unsaved (.credit (exampleAddr 1) 1) (Node.step true h idleEngine flatPricer
      ⟨.id, .id⟩ ⟨demoCommitted h, []⟩ (.credit (exampleAddr 1) 1)).2 := by
    rw [hd]
    trivial
  rw [(refuses_of_dirty (unsaved_dirty hu) _ _ _ _).1] at h1
  cases h1

/-- Non-vacuity of C95: a credited coin, then a commit and a look at the account, without call or
spawn. -/
example : ∃ h, NoCollision h ∧ Inv (demoCommitted h) ∧ 0 ≤ (demoCommitted h).next.id ∧
    Event.Unsaved (.credit (exampleAddr 1) 1) (Node.step true h idleEngine flatPricer
      ⟨.id, .id⟩ ⟨demoCommitted h, []⟩ (.credit (exampleAddr 1) 1)).2 ∧
    ∀ ans ∈ (Node.run true h idleEngine flatPricer (Node.step true h idleEngine flatPricer
      ⟨.id, .id⟩ ⟨demoCommitted h, []⟩ (.credit (exampleAddr 1) 1)).1 [.commit, .uncommitted]
      fun _ => ⟨.id, .id⟩).2, ¬ ans.Saves := by
  obtain ⟨h, hc⟩ := exists_noCollision
  have hu : Event.Unsaved (.credit (exampleAddr 1) 1) (Node.step true h idleEngine flatPricer
      ⟨.id, .id⟩ ⟨demoCommitted h, []⟩ (.credit (exampleAddr 1) 1)).2 := by
    rw [demo_credit hc]
    trivial
  refine ⟨h, hc, ((ready_demo hc).reach.ok hc).1, (ready_demo hc).id, hu, ?_⟩
  intro ans ha
  simp only [Node.run, (refuses_of_dirty (unsaved_dirty hu) _ _ _ _).1, List.mem_cons,
    List.not_mem_nil, or_false] at ha
  rcases ha with rfl | rfl <;> exact id

/-- Non-vacuity of the partial theorem: a call that succeeds. -/
example : ∃ h, NoCollision h ∧ Inv (demoCommitted h) ∧ 0 ≤ (demoCommitted h).next.id ∧
    Event.Changed (.tx (.call (demoMessage goName))) (Node.step true h (payEngine 0 20 3) flatPricer
      ⟨.id, .id⟩ ⟨demoCommitted h, []⟩ (.tx (.call (demoMessage goName)))).2 ∧
    ¬ Event.Unsaved (.tx (.call (demoMessage goName))) (Node.step true h (payEngine 0 20 3) flatPricer
      ⟨.id, .id⟩ ⟨demoCommitted h, []⟩ (.tx (.call (demoMessage goName)))).2 := by
  obtain ⟨h, hc⟩ := exists_noCollision
  obtain ⟨s', r, h1, h2⟩ := demo_pays hc 20 (.inr rfl)
  refine ⟨h, hc, ((ready_demo hc).reach.ok hc).1, (ready_demo hc).id, ?_, ?_⟩
  · simp only [Node.step, perform, h1]
    exact h2
  · simp [Event.Unsaved]

end Svm.Runtime
