import Verif.Runtime.Host

/-!
# Properties C26 - C30: what transactions leave behind
-/

namespace Svm.Runtime

open Svm.Codec Svm.Account
open Svm.Storage (Hasher Storage Inv Op committedDb readUpTo stateOnes)

/-! ## Publishing all pending writes -/

/-- What a read of the hashed key `k` without a layer returns. -/
def current (s : Storage) (k : Svm.Storage.State) : Option Bytes :=
  ((s.dirty.get k).or (s.next.changes.get k)).or (Svm.Storage.queryCurrent s.db k)

theorem getByHash_current (s : Storage) (k : Svm.Storage.State) :
    Svm.Storage.getByHash s k none = .ok (current s k) := by
  unfold Svm.Storage.getByHash current
  cases s.dirty.get k with
  | some v => rfl
  | none => cases s.next.changes.get k <;> rfl

theorem view_current (h : Hasher) (s : Storage) (k : Key) :
    view h s k = current s (h.hash k.text) := rfl

/-- `s'` is `s` with everything pending published as one new layer with fingerprint `fp`. -/
structure Published (s : Storage) (fp : Svm.Storage.State) (s' : Storage) : Prop where
  /-- Exactly one layer is added, and it is complete. -/
  layers : s'.db.layers = s.db.layers ++ [⟨s.next.id, fp, true⟩]
  last : Svm.Storage.lastLayer s' = .ok (s.next.id, fp)
  /-- Nothing is pending. -/
  dirty : s'.dirty = []
  changes : s'.next.changes = []
  /-- Everything readable before is readable at the new layer. -/
  newLayer : ∀ k, Svm.Storage.getByHash s' k (some s.next.id) = .ok (current s k)
  /-- The reads without a layer are unchanged. -/
  now : ∀ k, current s' k = current s k
  /-- The older layers are unchanged. -/
  old : ∀ k l, l < s.next.id →
    Svm.Storage.getByHash s' k (some l) = Svm.Storage.getByHash s k (some l)

theorem publish {s : Storage} (hi : Inv s) (h : Hasher) (o₁ o₂ : Svm.Storage.Ord) :
    ∃ s' fp, Svm.Storage.commit o₂ (Svm.Storage.checkpoint h o₁ s) = (s', .ok (s.next.id, fp)) ∧
      Published s fp s' := by
  have hi1 : Inv (Svm.Storage.checkpoint h o₁ s) :=
    Svm.Storage.inv_step h hi (.checkpoint o₁) trivial
  have hcp := Svm.Storage.checkpoint_eq h o₁ s
  have hd1 : (Svm.Storage.checkpoint h o₁ s).dirty = [] := by rw [hcp]
  have hn1 : (Svm.Storage.checkpoint h o₁ s).next.id = s.next.id := by rw [hcp]
  have hdb1 : (Svm.Storage.checkpoint h o₁ s).db = s.db := by rw [hcp]
  have hch : ∀ k, (Svm.Storage.checkpoint h o₁ s).next.changes.get k =
      (s.dirty.get k).or (s.next.changes.get k) := by
    intro k
    rw [hcp]
    simp only
    have hp := o₁.perm s.dirty
    rw [AMap.get_insertAll, AMap.get_perm hi.dirty hp.symm]
    exact (hp.map _).nodup_iff.2 hi.dirty
  generalize Svm.Storage.checkpoint h o₁ s = t at hi1 hd1 hn1 hdb1 hch
  clear hcp
  obtain ⟨prev, hprev, hcm⟩ := Svm.Storage.commit_ok hi1 hd1 o₂
  rw [hcm]
  refine ⟨_, prev ^^^ t.next.xorFingerprint, Prod.ext rfl (by rw [hn1]), ?_⟩
  have hi2 := Svm.Storage.inv_committed hi1 (prev ^^^ t.next.xorFingerprint) o₂
  have hp := o₂.perm t.next.changes
  have hnd : (AMap.keys (o₂.run t.next.changes)).Nodup := (hp.map _).nodup_iff.2 hi1.changes
  have hread : ∀ k, readUpTo (committedDb t.db t.next.id (prev ^^^ t.next.xorFingerprint)
      (o₂.run t.next.changes)).values k t.next.id = current s k := by
    intro k
    have hv : ∀ v ∈ t.db.values, v.layerId < t.next.id := fun v hv => (hi1.vals v hv).2
    show readUpTo (t.db.values ++ (o₂.run t.next.changes).map fun p => ⟨p.1, p.2, t.next.id⟩) k
      t.next.id = _
    rw [Svm.Storage.readUpTo_append _ _ _ _ _ hv (Int.le_refl _) hnd,
      ← AMap.get_perm hi1.changes hp.symm, hch]
    unfold current
    rw [hi.queryCurrent, hdb1, ← hn1]
    congr 1
    refine Svm.Storage.readUpTo_of_all_le _ _ _ _ (fun v hv => ?_) (by omega)
    have := (hi.vals v hv).2
    omega
  constructor
  · show t.db.layers ++ [_] = _
    rw [hdb1, hn1]
  · unfold Svm.Storage.lastLayer
    simp only [Int.add_sub_cancel]
    rw [Svm.Storage.queryFingerprint_committed hi1]
    simp only [hn1]
  · rfl
  · rfl
  · intro k
    unfold Svm.Storage.getByHash
    simp only
    rw [if_pos (by omega)]
    have e := hi2.queryHistorical k s.next.id
    simp only at e
    rw [e, ← hn1, hread]
  · intro k
    show (none.or none).or (Svm.Storage.queryCurrent _ k) = _
    have e := hi2.queryCurrent k
    simp only [Int.add_sub_cancel] at e
    rw [e, hread]
    rfl
  · intro k l hl
    unfold Svm.Storage.getByHash
    simp only
    rw [if_pos (by omega), if_pos hl]
    have e := hi2.queryHistorical k l
    simp only at e
    rw [e, hi.queryHistorical]
    show Outcome.ok (readUpTo (t.db.values ++ (o₂.run t.next.changes).map
      fun p => ⟨p.1, p.2, t.next.id⟩) k l) = _
    rw [Svm.Storage.readUpTo_append_old _ _ _ _ _ (by omega), hdb1]

/-! ## The steps of a call -/

theorem run_out {α : Type} (h : Hasher) (p : Prog α) (s : Storage) :
    p.run h s = (after h p s, out h p s) := rfl

/-- The program of a whole call transaction up to the commit: the lookup of the account, and the
execution. -/
def txProg (chk : Bool) (eng : Engine) (tx : Transaction) (mode : AccessMode) (func : Str)
    (input : Bytes) : Prog (Env × Except Failure (Bytes × List Bytes)) :=
  (buildCall chk tx mode func input).bind fun c => exec chk eng c

theorem buildAndExec_eq (chk : Bool) (h : Hasher) (o : Orders) (eng : Engine) (tx : Transaction)
    (mode : AccessMode) (func : Str) (input : Bytes) (s : Storage) :
    buildAndExec chk h o eng tx mode func input s =
      match (txProg chk eng tx mode func input).run h s with
      | (e, .ok (env, .ok (mem, logs))) => outcomeToReceipt h o env mem logs e
      | (e, .ok (_, .error f)) => (e, some (CallReceipt.fromErr f.1 f.2))
      | (e, _) => (e, none) := by
  have hs := (readOnly_buildCall chk tx mode func input).run h s
  unfold buildAndExec txProg
  rw [Prog.run_bind]
  cases hb : (buildCall chk tx mode func input).run h s with
  | mk s1 r =>
    rw [hb] at hs
    simp only at hs
    subst hs
    cases r with
    | ok c =>
      simp only [execCall]
      cases (exec chk eng c).run h s1 with
      | mk e x =>
        cases x with
        | ok y =>
          obtain ⟨env, y⟩ := y
          cases y <;> rfl
        | err | panic => rfl
    | err | panic => rfl

theorem commitChanges_ok {h : Hasher} {e : Storage} (hi : Inv e) (o : Orders) (env : Env)
    {s' : Storage} {st : Hash} (hcm : commitChanges h o env e = (s', some st)) :
    ∃ fp, st = stateHash fp ∧ Published e fp s' ∧ env.canWrite = true ∧ 0 ≤ e.next.id := by
  obtain ⟨s1, fp, h1, h2⟩ := publish hi h o.checkpoint o.commit
  unfold commitChanges at hcm
  rw [h1] at hcm
  split at hcm
  · rename_i hw
    simp only at hcm
    split at hcm
    · rename_i h0
      cases hcm
      exact ⟨fp, rfl, h2, hw, h0⟩
    · cases hcm
  · cases hcm

/-- What a successful receipt means. -/
theorem success_steps {h : Hasher} {s : Storage} {chk : Bool} {o : Orders} {eng : Engine}
    {tx : Transaction} {mode : AccessMode} {func : Str} {input : Bytes} {s' : Storage}
    {r : CallReceipt} (hcall : buildAndExec chk h o eng tx mode func input s = (s', some r))
    (hs : r.success = true) :
    ∃ env mem logs, out h (txProg chk eng tx mode func input) s = .ok (env, .ok (mem, logs)) ∧
      commitChanges h o env (after h (txProg chk eng tx mode func input) s) = (s', r.newState) ∧
      r.newState.isSome ∧ r.logs = logs ∧ r.touched = env.touched := by
  rw [buildAndExec_eq, run_out] at hcall
  split at hcall
  · rename_i e env mem logs he
    obtain ⟨he1, he2⟩ := Prod.mk.inj he
    subst he1
    refine ⟨env, mem, logs, he2, ?_⟩
    unfold outcomeToReceipt at hcall
    split at hcall
    · cases hcall
    · simp only at hcall
      obtain ⟨h1, h2⟩ := Prod.mk.inj hcall
      cases hst : (commitChanges h o env (after h (txProg chk eng tx mode func input) s)).2 with
      | none => rw [hst] at h2; cases h2
      | some st =>
        rw [hst] at h2
        simp only [Option.map_some, Option.some.injEq] at h2
        subst h2
        exact ⟨Prod.ext h1 hst, rfl, rfl, rfl⟩
  · cases hcall
    cases hs
  · cases hcall

/-! ## C27 -/

/-- C27: if a call transaction (decoded as `tx`) returns a success receipt, then with `e` the storage
right after the program finished: exactly one layer has been added, the receipt reports its
fingerprint, everything readable in `e` (all writes of the program included) is readable at that
layer, older layers are unchanged, and nothing stays pending. -/
theorem C27_one_layer {h : Hasher} (hc : NoCollision h) {s : Storage} (hr : Reach h s) (chk : Bool)
    (o : Orders) (eng : Engine) (message : Bytes) (s' : Storage) (r : CallReceipt)
    (hcall : call chk h o eng message s = (s', some r)) (hs : r.success = true) :
    ∃ tx rest fp, decTransaction message = .ok (tx, rest) ∧ r.newState = some (stateHash fp) ∧
      s'.db.layers = s.db.layers ++ [⟨s.next.id, fp, true⟩] ∧
      Svm.Storage.lastLayer s' = .ok (s.next.id, fp) ∧
      s'.dirty = [] ∧ s'.next.changes = [] ∧
      (∀ k, Svm.Storage.getByHash s' k (some s.next.id) =
        Svm.Storage.getByHash
          (after h (txProg chk eng tx .fullAccess tx.funcName tx.calldata) s) k none) ∧
      (∀ k, Svm.Storage.getByHash s' k none =
        Svm.Storage.getByHash
          (after h (txProg chk eng tx .fullAccess tx.funcName tx.calldata) s) k none) ∧
      (∀ k l, l < s.next.id →
        Svm.Storage.getByHash s' k (some l) = Svm.Storage.getByHash s k (some l)) := by
  unfold call at hcall
  split at hcall
  · rename_i tx rest htx
    obtain ⟨env, mem, logs, h1, h2, h3, -⟩ := success_steps hcall hs
    obtain ⟨st, hst⟩ := Option.isSome_iff_exists.1 h3
    rw [hst] at h2
    have hi := inv_prog (h := h) (txProg chk eng tx .fullAccess tx.funcName tx.calldata) (hr.ok hc).1
    obtain ⟨hf1, hf2⟩ := Prog.run_frame h (txProg chk eng tx .fullAccess tx.funcName tx.calldata) s
    obtain ⟨fp, rfl, hp, -⟩ := commitChanges_ok hi o env h2
    have hold := hp.old
    have hnew := hp.newLayer
    have hl := hp.layers
    have hlast := hp.last
    simp only [hf1, hf2] at hold hl hlast hnew
    refine ⟨tx, rest, fp, htx, hst, hl, hlast, hp.dirty, hp.changes, ?_, ?_, ?_⟩
    · intro k
      rw [getByHash_current]
      exact hnew k
    · intro k
      rw [getByHash_current, getByHash_current, hp.now]
      rfl
    · intro k l hlt
      rw [hold k l hlt]
      unfold Svm.Storage.getByHash
      simp only [hf1, hf2]
  · cases hcall

/-! ## C26 -/

/-- The claim of C26: after a failure receipt, whatever operations on the storage follow, the database
is the one there would be without the call. -/
def C26_claim : Prop :=
  ∀ (h : Hasher), NoCollision h → ∀ s, Reach h s → ∀ (chk : Bool) (o : Orders) (eng : Engine)
    (message : Bytes) (s' : Storage) (r : CallReceipt),
    call chk h o eng message s = (s', some r) → r.success = false →
    ∀ ops, (Svm.Storage.run h s' ops).1.db = (Svm.Storage.run h s ops).1.db

/-- A call with a failure receipt has run its program and left the storage as it was then. -/
theorem failure_steps {h : Hasher} {s : Storage} {chk : Bool} {o : Orders} {eng : Engine}
    {message : Bytes} {s' : Storage} {r : CallReceipt}
    (hcall : call chk h o eng message s = (s', some r)) (hs : r.success = false) :
    ∃ tx rest, decTransaction message = .ok (tx, rest) ∧
      s' = after h (txProg chk eng tx .fullAccess tx.funcName tx.calldata) s ∧
      ∃ env f, out h (txProg chk eng tx .fullAccess tx.funcName tx.calldata) s =
        .ok (env, .error f) ∧ r = CallReceipt.fromErr f.1 f.2 := by
  unfold call at hcall
  split at hcall
  · rename_i tx rest htx
    refine ⟨tx, rest, htx, ?_⟩
    rw [buildAndExec_eq, run_out] at hcall
    split at hcall
    · unfold outcomeToReceipt at hcall
      split at hcall
      · cases hcall
      · simp only at hcall
        obtain ⟨h1, h2⟩ := Prod.mk.inj hcall
        obtain ⟨st, hst, rfl⟩ := Option.map_eq_some_iff.1 h2
        cases hs
    · rename_i e env f he
      obtain ⟨he1, he2⟩ := Prod.mk.inj he
      cases hcall
      exact ⟨he1.symm, env, f, he2, rfl⟩
    · cases hcall
  · cases hcall

/-- C26, what the code does: the writes of the failed call stay pending, and the next checkpoint and
commit (of any other transaction) publishes them: every key reads at the new layer as the failed
program left it. -/
theorem C26_published_later {h : Hasher} (hc : NoCollision h) {s : Storage} (hr : Reach h s)
    (chk : Bool) (o : Orders) (eng : Engine) (message : Bytes) (s' : Storage) (r : CallReceipt)
    (hcall : call chk h o eng message s = (s', some r)) (hs : r.success = false)
    (o₁ o₂ : Svm.Storage.Ord) (k : Svm.Storage.State) :
    Svm.Storage.getByHash (Svm.Storage.run h s' [.checkpoint o₁, .commit o₂]).1 k (some s.next.id) =
      Svm.Storage.getByHash s' k none := by
  obtain ⟨tx, rest, -, h1, -⟩ := failure_steps hcall hs
  have hi := inv_prog (h := h) (txProg chk eng tx .fullAccess tx.funcName tx.calldata) (hr.ok hc).1
  have hf := Prog.run_frame h (txProg chk eng tx .fullAccess tx.funcName tx.calldata) s
  obtain ⟨s2, fp, h2, h3⟩ := publish (s := s') (by rw [h1]; exact hi) h o₁ o₂
  have hn : s'.next = s.next := by rw [h1]; exact hf.2
  simp only [Svm.Storage.run, Svm.Storage.step, h2]
  rw [getByHash_current, ← hn]
  exact h3.newLayer k

/-- C26, what does hold: the failed call itself changes neither the database nor the checkpointed
writes (so a process that stops here has published nothing), and if nothing was pending before, a
rollback undoes all its effects: every later history is then as without the call. Missing: the code
never rolls back after a failure. -/
theorem C26_rollback_partial {h : Hasher} {s : Storage} (chk : Bool) (o : Orders) (eng : Engine)
    (message : Bytes) (s' : Storage) (r : CallReceipt)
    (hcall : call chk h o eng message s = (s', some r)) (hs : r.success = false) :
    s'.db = s.db ∧ s'.next = s.next ∧
    (s.dirty = [] → ∀ ops, (Svm.Storage.run h s' (.rollback :: ops)).1 =
      (Svm.Storage.run h s ops).1) := by
  obtain ⟨tx, rest, -, h1, -⟩ := failure_steps hcall hs
  have hf := Prog.run_frame h (txProg chk eng tx .fullAccess tx.funcName tx.calldata) s
  have hd : s'.db = s.db := by rw [h1]; exact hf.1
  have hn : s'.next = s.next := by rw [h1]; exact hf.2
  refine ⟨hd, hn, fun he ops => ?_⟩
  have e : Svm.Storage.rollback s' = s := by
    unfold Svm.Storage.rollback
    obtain ⟨db, dirty, next⟩ := s
    obtain ⟨db', dirty', next'⟩ := s'
    simp only at hd hn he
    simp only [hd, hn, he]
  simp only [Svm.Storage.run, Svm.Storage.step, e]

/-! ## C28 and C29 -/

/-- No writes, and every returned value has `Q`. -/
def Quiet {α : Type} (Q : α → Prop) : Prog α → Prop
  | .ret a => Q a
  | .err _ => True
  | .panic _ => True
  | .get _ f => ∀ v, Quiet Q (f v)
  | .set _ _ _ => False

theorem Quiet.bind {α β : Type} {R : α → Prop} {Q : β → Prop} {p : Prog α} {f : α → Prog β}
    (hp : Quiet R p) (hf : ∀ a, R a → Quiet Q (f a)) : Quiet Q (p.bind f) := by
  induction p with
  | ret a => exact hf a hp
  | err | panic => trivial
  | get k g ih => exact fun v => ih v (hp v)
  | set k v p => exact hp.elim

theorem ReadOnly.quiet {α : Type} {p : Prog α} (hp : ReadOnly p) : Quiet (fun _ => True) p := by
  induction p with
  | ret | err | panic => trivial
  | get k g ih => exact fun v => ih v (hp v)
  | set k v p => exact hp.elim

theorem Quiet.run {α : Type} {Q : α → Prop} {p : Prog α} (hp : Quiet Q p) (h : Hasher)
    (s : Storage) : (p.run h s).1 = s ∧ ∀ a, (p.run h s).2 = .ok a → Q a := by
  induction p with
  | ret a => exact ⟨rfl, fun b hb => by cases hb; exact hp⟩
  | err | panic => exact ⟨rfl, fun b hb => by cases hb⟩
  | get k f ih => simp only [Prog.run, get_view]; exact ih _ (hp _)
  | set k v p => exact hp.elim

theorem quiet_of_silent {α : Type} {Q : α → Prop} {p : Prog α} (hp : Silent p)
    (hq : ∀ a, p = .ret a → Q a) : Quiet Q p := by
  cases p with
  | ret a => exact hq a rfl
  | err | panic => trivial
  | get | set => exact hp.elim

/-- The environment still has its access denied. -/
def Denied {α : Type} (r : Env × α) : Prop := r.1.mode = .accessDenied

theorem quiet_guest {α : Type} (chk : Bool) (g : Guest α) (env : Env)
    (hm : env.mode = .accessDenied) : Quiet Denied (g.run chk env) :=
  quiet_of_silent (silent_guest chk g env hm).1 (silent_guest chk g env hm).2

theorem quiet_wasmerCall {α : Type} (chk : Bool) (env : Env) (func : Str) (g : Guest α)
    (hm : env.mode = .accessDenied) : Quiet Denied (wasmerCall chk env func g) := by
  refine (quiet_guest chk g env hm).bind fun r hr => ?_
  split <;> exact hr

theorem quiet_callAlloc (chk : Bool) (m : Module) (st : m.σ) (env : Env) (mem : Bytes) (n : Nat)
    (hm : env.mode = .accessDenied) : Quiet Denied (callAlloc chk m st env mem n) := by
  unfold callAlloc
  simp only
  split
  · refine (quiet_wasmerCall chk _ _ _ rfl).bind fun r hr => ?_
    split
    · exact hr
    · split
      · exact hm
      · trivial
  · exact rfl

theorem quiet_runFunc (chk : Bool) (m : Module) (call : Call) (env : Env) (st : m.σ) (mem : Bytes)
    (hm : env.mode = .accessDenied) : Quiet Denied (runFunc chk m call env st mem) := by
  unfold runFunc
  split
  · exact hm
  · split
    · refine (quiet_callAlloc chk m st env mem _ hm).bind fun r hr => ?_
      split
      · exact hr
      · split
        · refine (quiet_of_silent (Q := fun me : Bytes × Env => me.2.mode = .accessDenied)
            (Silent.ofOption _) ?_).bind fun me hme => ?_
          · intro me hme
            unfold setCalldata at hme
            split at hme
            · cases hme; exact hr
            · cases hme
          · refine (quiet_wasmerCall chk _ _ _ hme).bind fun r' hr' => ?_
            split <;> exact hr'
        · trivial
    · refine (quiet_wasmerCall chk _ _ _ hm).bind fun r hr => ?_
      split <;> exact hr

theorem quiet_runCall (chk : Bool) (eng : Engine) (call : Call) (ss : Sections) (env : Env)
    (hm : env.mode = .accessDenied) : Quiet Denied (runCall chk eng call ss env) := by
  refine (readOnly_validate _ _).quiet.bind fun r _ => ?_
  split
  · exact hm
  · refine (ReadOnly.ofOption _).quiet.bind fun code _ => ?_
    split
    · exact hm
    · rename_i m _
      have hinst : Quiet Denied (instantiate chk m env) := by
        unfold instantiate
        split
        · exact hm
        · refine (quiet_guest chk _ _ hm).bind fun r hr => ?_
          split <;> exact hr
      refine hinst.bind fun r hr => ?_
      split
      · exact hr
      · split
        · exact quiet_runFunc chk m call _ _ _ hr
        · trivial

theorem quiet_txProg (chk : Bool) (eng : Engine) (tx : Transaction) (func : Str) (input : Bytes) :
    Quiet Denied (txProg chk eng tx .accessDenied func input) := by
  have hb : Quiet (fun c : Call => c.mode = .accessDenied)
      (buildCall chk tx .accessDenied func input) :=
    (readOnly_load _ _).unwrap.quiet.bind fun _ _ =>
      (readOnly_templateAddr _).unwrap.quiet.bind fun _ _ => rfl
  refine hb.bind fun c hcm => ?_
  exact (readOnly_load _ _).unwrap.quiet.bind fun _ _ =>
    (readOnly_templateAddr _).unwrap.quiet.bind fun _ _ =>
    (readOnly_loadTemplate _ _).quiet.bind fun _ _ =>
    (readOnly_load _ _).unwrap.quiet.bind fun _ _ => quiet_runCall _ _ _ _ _ hcm

theorem commitChanges_denied (h : Hasher) (o : Orders) {env : Env} (hm : env.mode = .accessDenied)
    (s : Storage) : commitChanges h o env s = (s, none) := by
  unfold commitChanges
  rw [if_neg (by simp [Env.canWrite, hm])]

/-- C28: verification, whatever the program does and whether it returns, fails or panics, leaves the
storage exactly as it was: all layers, all values, all pending writes. -/
theorem C28_verify_pure (chk : Bool) (h : Hasher) (o : Orders) (eng : Engine) (message : Bytes)
    (s : Storage) : (verify chk h o eng message s).1 = s := by
  unfold verify
  split
  · rename_i tx rest htx
    obtain ⟨h1, h2⟩ := (quiet_txProg chk eng tx svmVerify tx.verifydata).run h s
    rw [buildAndExec_eq]
    split
    · rename_i e env mem logs he
      rw [he] at h1 h2
      have hm := h2 _ rfl
      unfold outcomeToReceipt
      split
      · exact h1
      · rw [commitChanges_denied h o hm]
        exact h1
    · rename_i he; rw [he] at h1; exact h1
    · rename_i he; rw [he] at h1; exact h1
  · rfl

/-- The claim of C29: if the verification function returns, there is a success receipt. -/
def C29_claim : Prop :=
  ∀ (h : Hasher), NoCollision h → ∀ s, Reach h s → ∀ (chk : Bool) (o : Orders) (eng : Engine)
    (message rest : Bytes) (tx : Transaction) (env : Env) (mem : Bytes) (logs : List Bytes),
    decTransaction message = .ok (tx, rest) →
    out h (txProg chk eng tx .accessDenied svmVerify tx.verifydata) s =
      .ok (env, .ok (mem, logs)) →
    ∃ r, (verify chk h o eng message s).2 = some r ∧ r.success = true

/-- C29, what the code does: no verification at all gives a success receipt. -/
theorem C29_never_succeeds (chk : Bool) (h : Hasher) (o : Orders) (eng : Engine) (message : Bytes)
    (s : Storage) (r : CallReceipt) (hv : (verify chk h o eng message s).2 = some r) :
    r.success = false := by
  unfold verify at hv
  split at hv
  · rename_i tx rest htx
    obtain ⟨h1, h2⟩ := (quiet_txProg chk eng tx svmVerify tx.verifydata).run h s
    rw [buildAndExec_eq] at hv
    split at hv
    · rename_i e env mem logs he
      rw [he] at h2
      have hm := h2 _ rfl
      unfold outcomeToReceipt at hv
      split at hv
      · cases hv
      · rw [commitChanges_denied h o hm] at hv
        cases hv
    · cases hv; rfl
    · cases hv
  · cases hv

/-- C29, what the code does when the verification function returns: the runtime panics. -/
theorem C29_return_panics (chk : Bool) (h : Hasher) (o : Orders) (eng : Engine)
    (message rest : Bytes) (tx : Transaction) (s : Storage) (env : Env) (mem : Bytes)
    (logs : List Bytes) (hd : decTransaction message = .ok (tx, rest))
    (hok : out h (txProg chk eng tx .accessDenied svmVerify tx.verifydata) s =
      .ok (env, .ok (mem, logs))) : (verify chk h o eng message s).2 = none := by
  obtain ⟨h1, h2⟩ := (quiet_txProg chk eng tx svmVerify tx.verifydata).run h s
  have hm : env.mode = .accessDenied := h2 _ hok
  unfold verify
  rw [hd]
  simp only
  rw [buildAndExec_eq, run_out, hok]
  simp only
  unfold outcomeToReceipt
  split
  · rfl
  · rw [commitChanges_denied h o hm]
    rfl

/-- C29, the other obstacle: a verification function of the type that deployment asks for (with an
`i32` result) is never run, because the runtime looks for a function without results. -/
theorem C29_typed_not_run (chk : Bool) (m : Module) (call : Call) (env : Env) (st : m.σ)
    (mem : Bytes) (sg : Sig) (hsig : m.sig call.funcName = some sg) (hne : sg ≠ .nullary) :
    runFunc chk m call env st mem =
      .ret (env, .error
        (.funcInvalidSignature env.targetAddr env.templateAddr call.funcName, [])) := by
  unfold runFunc lookupFunc
  rw [hsig]
  cases sg with
  | nullary => exact absurd rfl hne
  | alloc | other => rfl

/-- C29, what does hold: a verification that fails (a trap, a missing function, …) is reported with
exactly that failure and its logs, and changes nothing. Missing: success. -/
theorem C29_failure_partial (chk : Bool) (h : Hasher) (o : Orders) (eng : Engine)
    (message rest : Bytes) (tx : Transaction) (s : Storage) (env : Env) (f : Failure)
    (hd : decTransaction message = .ok (tx, rest))
    (hok : out h (txProg chk eng tx .accessDenied svmVerify tx.verifydata) s =
      .ok (env, .error f)) :
    verify chk h o eng message s = (s, some (CallReceipt.fromErr f.1 f.2)) := by
  refine Prod.ext (C28_verify_pure _ _ _ _ _ _) ?_
  unfold verify
  rw [hd]
  simp only
  rw [buildAndExec_eq, run_out, hok]

/-! ## C30 -/

theorem isCtor_some {ss : Sections} {cs : List Str} (hcs : ss.tryGet .ctors = some (.ctors cs))
    (func : Str) : isCtor ss func = some (decide (func ∈ cs)) := by
  unfold isCtor
  rw [hcs]

/-- C30, spawn: a message naming a function that is not among the constructors of the template gives a
failure receipt and changes nothing, for every engine, pricing, gas limit and price cache. -/
theorem C30_spawn_non_ctor (chk : Bool) (h : Hasher) (o : Orders) (eng : Engine) (pr : Pricer)
    (envelope : Envelope) (message rest : Bytes) (rs : RState) (sp : SpawnAccount) (ss : Sections)
    (cs : List Str) (hd : decSpawn message = .ok (sp, rest))
    (hl : out h (loadTemplate chk sp.templateAddr) rs.storage = .ok ss)
    (hcs : ss.tryGet .ctors = some (.ctors cs)) (hn : sp.ctorName ∉ cs) :
    spawn chk h o eng pr envelope message rs =
      (rs, some (SpawnReceipt.fromErr (.funcNotCtor sp.templateAddr sp.ctorName) [])) := by
  have hs := (readOnly_loadTemplate chk sp.templateAddr).run h rs.storage
  have hl' : ((loadTemplate chk sp.templateAddr).run h rs.storage).2 = .ok ss := hl
  unfold spawn
  rw [hd]
  simp only
  rw [hl']
  simp only
  rw [isCtor_some hcs, decide_eq_false hn]
  simp only [hs]

/-- C30, call: a message naming a constructor of the template of the target gives a failure receipt
and changes nothing; the engine is not even asked for the module. -/
theorem C30_call_ctor (chk : Bool) (h : Hasher) (o : Orders) (eng : Engine)
    (message rest : Bytes) (s : Storage) (tx : Transaction) (acc : Acc) (t : Addr) (ss : Sections)
    (cs : List Str) (hd : decTransaction message = .ok (tx, rest))
    (ha : out h (load chk tx.target) s = .ok acc) (ht : out h (templateAddr acc) s = .ok t)
    (hl : out h (loadTemplate chk t) s = .ok ss)
    (hcs : ss.tryGet .ctors = some (.ctors cs)) (hn : tx.funcName ∈ cs) :
    call chk h o eng message s =
      (s, some (CallReceipt.fromErr (.funcNotAllowed tx.target t tx.funcName notCtorMsg) [])) := by
  have key : ∀ {α β : Type} (p : Prog α) (f : α → Prog β) (a : α), ReadOnly p →
      out h p s = .ok a → (p.unwrap.bind f).run h s = (f a).run h s := by
    intro α β p f a hro ho
    have e : p.unwrap.run h s = (s, .ok a) := by
      have : ∀ q : Prog α, ReadOnly q → q.run h s = (s, .ok a) → q.unwrap.run h s = (s, .ok a) := by
        intro q hq hrun
        induction q with
        | ret b => exact hrun
        | err | panic => cases hrun
        | get k g ih =>
          simp only [Prog.run, Prog.unwrap, get_view] at hrun ⊢
          exact ih _ (hq _) hrun
        | set k v q => exact hq.elim
      exact this p hro (Prod.ext (hro.run h s) ho)
    rw [Prog.run_bind, e]
  have hb : (buildCall chk tx .fullAccess tx.funcName tx.calldata).run h s = (s, .ok
      { funcName := tx.funcName, funcInput := tx.calldata, target := tx.target, templateAddr := t
        withinSpawn := false, mode := .fullAccess }) := by
    unfold buildCall
    simp only [Prog.bind_eq]
    rw [key _ _ acc (readOnly_load _ _) ha, key _ _ t (readOnly_templateAddr _) ht]
    rfl
  unfold call
  rw [hd]
  simp only
  unfold buildAndExec
  rw [hb]
  simp only
  have he : (exec chk eng
      { funcName := tx.funcName, funcInput := tx.calldata, target := tx.target, templateAddr := t
        withinSpawn := false, mode := .fullAccess }).run h s =
      (s, .ok (Env.new acc t tx.target .fullAccess,
        .error (.funcNotAllowed tx.target t tx.funcName notCtorMsg, []))) := by
    unfold exec
    simp only [Prog.bind_eq]
    rw [key _ _ acc (readOnly_load _ _) ha, key _ _ t (readOnly_templateAddr _) ht,
      Prog.run_bind, run_out h (loadTemplate chk t), hl,
      show after h (loadTemplate chk t) s = s from (readOnly_loadTemplate chk t).run h s]
    simp only
    rw [key _ _ acc (readOnly_load _ _) ha]
    unfold runCall validateFuncUsage
    rw [isCtor_some hcs, decide_eq_true hn]
    rfl
  unfold execCall
  rw [he]

/-! ## Concrete calls -/

deriving instance DecidableEq for Except

/-- The steps of a successful call, the other way round: a program that returns, with return data
inside of its memory, gives a success receipt (unless this is the very first layer, which the genesis
commit creates). -/
theorem call_returns {h : Hasher} {s : Storage} (hi : Inv s) (h0 : 0 ≤ s.next.id) {chk : Bool}
    {o : Orders} {eng : Engine} {message rest : Bytes} {tx : Transaction} {env : Env} {mem : Bytes}
    {logs : List Bytes} {data : Bytes} (hd : decTransaction message = .ok (tx, rest))
    (hok : out h (txProg chk eng tx .fullAccess tx.funcName tx.calldata) s =
      .ok (env, .ok (mem, logs)))
    (hw : env.canWrite = true) (hdata : takeReturndata env mem = some data) :
    ∃ s' r, call chk h o eng message s = (s', some r) ∧ r.success = true := by
  have hi1 := inv_prog (h := h) (txProg chk eng tx .fullAccess tx.funcName tx.calldata) hi
  have hf := Prog.run_frame h (txProg chk eng tx .fullAccess tx.funcName tx.calldata) s
  obtain ⟨s1, fp, h1, h2⟩ := publish (s := after h (txProg chk eng tx .fullAccess tx.funcName
    tx.calldata) s) hi1 h o.checkpoint o.commit
  have hn : (after h (txProg chk eng tx .fullAccess tx.funcName tx.calldata) s).next = s.next := hf.2
  unfold call
  rw [hd]
  simp only
  rw [buildAndExec_eq, run_out, hok]
  simp only
  unfold outcomeToReceipt commitChanges
  rw [hdata, if_pos hw, h1]
  simp only
  rw [hn, if_pos h0]
  exact ⟨_, _, rfl, rfl⟩

/-- A module whose functions have no arguments and no results: `svm_verify` returns, `go` writes a
variable and returns, all others write a variable and trap. -/
def demoModule : Module :=
  { σ := Unit
    linkError := none
    start := .ret () []
    hasMemory := true
    sig := fun _ => some .nullary
    invoke := fun _ f _ mem =>
      if f = svmVerify then .ret ((), []) mem
      else if f.1 = [103, 111] then .call mem (.set32 4 7) fun _ m => .ret ((), []) m
      else .call mem (.set32 4 7) fun _ _ => .trap ⟨[], rfl⟩ }

/-- Every code section is compiled to `demoModule`. -/
def demoEngine : Engine := fun _ => .ok demoModule

/-- A call transaction to account 2. -/
def demoTx (f : Str) : Transaction :=
  { version := 0, target := exampleAddr 2, funcName := f, verifydata := [], calldata := [] }

/-- The function names `go`, `no` and the constructor `in`. -/
def goName : Str := ⟨[103, 111], by decide⟩
def noName : Str := ⟨[110, 111], by decide⟩
def inName : Str := ⟨[0x69, 0x6e], by decide⟩

/-- Its encoding. -/
def demoMessage (f : Str) : Bytes := (encTransaction (demoTx f)).getD []

theorem demo_decode_go : decTransaction (demoMessage goName) = .ok (demoTx goName, []) := by
  decide +kernel

theorem demo_decode_no : decTransaction (demoMessage noName) = .ok (demoTx noName, []) := by
  decide +kernel

theorem demo_decode_in : decTransaction (demoMessage inName) = .ok (demoTx inName, []) := by
  decide +kernel

/-- The demo world, committed: layer 0 is the next one. -/
def demoCommitted (h : Hasher) : Storage :=
  (Svm.Storage.run h (demo h 10 5) [.checkpoint .id, .commit .id]).1

theorem reach_demoCommitted (h : Hasher) : Reach h (demoCommitted h) :=
  reach_commit (reach_checkpoint (reach_demo h 10 5) .id) .id

theorem demoCommitted_published {h : Hasher} (hc : NoCollision h) :
    ∃ fp, Published (demo h 10 5) fp (demoCommitted h) ∧ (demoCommitted h).next.id = 0 := by
  have hi := ((reach_demo h 10 5).ok hc).1
  obtain ⟨s', fp, h1, h2⟩ := publish hi h .id .id
  have hn : (demo h 10 5).next = Svm.Storage.fresh.next :=
    (Prog.run_frame h (demoSetup 10 5) Svm.Storage.fresh).2
  have e : demoCommitted h = s' := by
    unfold demoCommitted
    simp only [Svm.Storage.run, Svm.Storage.step, h1]
  refine ⟨fp, by rw [e]; exact h2, ?_⟩
  have hl := h2.last
  rw [hn] at hl
  rw [e]
  unfold Svm.Storage.lastLayer at hl
  simp only at hl
  split at hl
  · simp only [Outcome.ok.injEq, Prod.mk.injEq] at hl
    have : Svm.Storage.fresh.next.id = -1 := rfl
    omega
  · cases hl

theorem view_demoCommitted {h : Hasher} (hc : NoCollision h) :
    view h (demoCommitted h) = demoView 10 5 := by
  obtain ⟨fp, hp, -⟩ := demoCommitted_published hc
  funext k
  rw [view_current, hp.now, ← view_current, view_demo hc]

/-- Non-vacuity of C27: a call with a success receipt. -/
example : ∃ h, NoCollision h ∧ Reach h (demoCommitted h) ∧ ∃ s' r,
    call true h ⟨.id, .id⟩ demoEngine (demoMessage goName) (demoCommitted h) = (s', some r) ∧
    r.success = true := by
  obtain ⟨h, hc⟩ := exists_noCollision
  refine ⟨h, hc, reach_demoCommitted h, ?_⟩
  obtain ⟨fp, hp, h0⟩ := demoCommitted_published hc
  refine call_returns ((reach_demoCommitted h).ok hc).1 (by omega) demo_decode_go
    (env := { demoEnv with logs := [] }) (mem := []) (logs := []) (data := []) ?_ rfl rfl
  rw [out_eval hc, view_demoCommitted hc]
  decide +kernel

/-- The failing call of the demo world. -/
theorem demo_fails {h : Hasher} (hc : NoCollision h) : ∃ s' r,
    call true h ⟨.id, .id⟩ demoEngine (demoMessage noName) (demo h 10 5) = (s', some r) ∧
    r.success = false ∧ view h s' (.seg (exampleAddr 2) 0) ≠ none := by
  have h1 : ((txProg true demoEngine (demoTx noName) .fullAccess (demoTx noName).funcName
      (demoTx noName).calldata).eval (demoView 10 5)).2 = .ok ({ demoEnv with logs := [] },
        .error (.funcFailed (exampleAddr 2) demoTemplate noName ⟨[], rfl⟩, [])) := by decide +kernel
  rw [← view_demo hc, ← out_eval hc] at h1
  refine ⟨after h (txProg true demoEngine (demoTx noName) .fullAccess (demoTx noName).funcName
      (demoTx noName).calldata) (demo h 10 5),
    CallReceipt.fromErr (.funcFailed (exampleAddr 2) demoTemplate noName ⟨[], rfl⟩) [],
    ?_, ?_, ?_⟩
  · unfold call
    rw [demo_decode_no]
    simp only
    rw [buildAndExec_eq, run_out, h1]
  · rfl
  · rw [view_after hc, view_demo hc]
    decide +kernel

/-- C26 is violated. -/
theorem C26_claim_false : ¬ C26_claim := by
  intro hcl
  obtain ⟨h, hc⟩ := exists_noCollision
  obtain ⟨s', r, h1, h2, h3⟩ := demo_fails hc
  have h4 := hcl h hc _ (reach_demo h 10 5) true _ demoEngine _ s' r h1 h2
    [.checkpoint .id, .commit .id]
  have h5 := C26_published_later hc (reach_demo h 10 5) true _ demoEngine _ s' r h1 h2 .id .id
    (h.hash (Key.seg (exampleAddr 2) 0).text)
  have hi := ((reach_demo h 10 5).ok hc).1
  obtain ⟨s2, fp, h6, h7⟩ := publish hi h .id .id
  have h8 := h7.newLayer (h.hash (Key.seg (exampleAddr 2) 0).text)
  have hn' : (Svm.Storage.run h s' [.checkpoint .id, .commit .id]).1.db = s2.db := by
    rw [h4]
    simp only [Svm.Storage.run, Svm.Storage.step, h6]
  rw [← view_current, view_demo hc] at h8
  rw [getByHash_current, ← view_current] at h5
  unfold Svm.Storage.getByHash at h5 h8
  simp only at h5 h8
  split at h5
  · split at h8
    · rw [hn'] at h5
      rw [h5] at h8
      simp only [Outcome.ok.injEq] at h8
      exact h3 (by rw [h8]; decide +kernel)
    · cases h8
  · cases h5

/-- Non-vacuity of the partial theorem of C26, with a state in which nothing is pending. -/
example : ∃ h, NoCollision h ∧ (demoCommitted h).dirty = [] ∧ ∃ s' r,
    call true h ⟨.id, .id⟩ demoEngine (demoMessage noName) (demoCommitted h) = (s', some r) ∧
    r.success = false := by
  obtain ⟨h, hc⟩ := exists_noCollision
  obtain ⟨fp, hp, -⟩ := demoCommitted_published hc
  have h1 : ((txProg true demoEngine (demoTx noName) .fullAccess (demoTx noName).funcName
      (demoTx noName).calldata).eval (demoView 10 5)).2 = .ok ({ demoEnv with logs := [] },
        .error (.funcFailed (exampleAddr 2) demoTemplate noName ⟨[], rfl⟩, [])) := by decide +kernel
  rw [← view_demoCommitted hc, ← out_eval hc] at h1
  refine ⟨h, hc, hp.dirty, after h (txProg true demoEngine (demoTx noName) .fullAccess
      (demoTx noName).funcName (demoTx noName).calldata) (demoCommitted h),
    CallReceipt.fromErr (.funcFailed (exampleAddr 2) demoTemplate noName ⟨[], rfl⟩) [],
    ?_, ?_⟩
  · unfold call
    rw [demo_decode_no]
    simp only
    rw [buildAndExec_eq, run_out, h1]
  · rfl

theorem demo_verify_returns {h : Hasher} (hc : NoCollision h) :
    out h (txProg true demoEngine (demoTx noName) .accessDenied svmVerify
      (demoTx noName).verifydata) (demo h 10 5) =
      .ok ({ demoEnv with mode := .accessDenied }, .ok ([], [])) := by
  rw [out_eval hc, view_demo hc]
  rfl

/-- C29 is violated. -/
theorem C29_claim_false : ¬ C29_claim := by
  intro hcl
  obtain ⟨h, hc⟩ := exists_noCollision
  obtain ⟨r, h1, h2⟩ := hcl h hc _ (reach_demo h 10 5) true ⟨.id, .id⟩ demoEngine _ _ _ _ _ _
    demo_decode_no (demo_verify_returns hc)
  rw [C29_never_succeeds _ _ _ _ _ _ _ h1] at h2
  cases h2

/-- Non-vacuity of C29_failure_partial: an engine that compiles nothing. -/
example : ∃ h, NoCollision h ∧ ∃ env f,
    out h (txProg true (fun _ => .error ⟨[], rfl⟩) (demoTx noName) .accessDenied svmVerify
      (demoTx noName).verifydata) (demo h 10 5) = .ok (env, .error f) := by
  obtain ⟨h, hc⟩ := exists_noCollision
  have h1 : ((txProg true (fun _ => .error ⟨[], rfl⟩) (demoTx noName) .accessDenied svmVerify
      (demoTx noName).verifydata).eval (demoView 10 5)).2 = .ok _ := rfl
  rw [← view_demo hc, ← out_eval hc] at h1
  exact ⟨h, hc, _, _, h1⟩

/-- Non-vacuity of C30, call: the demo template has the constructor `in`. -/
example : ∃ h, NoCollision h ∧ ∃ acc,
    out h (load true (demoTx inName).target) (demo h 10 5) = .ok acc ∧
    out h (templateAddr acc) (demo h 10 5) = .ok demoTemplate ∧ ∃ ss cs,
    out h (loadTemplate true demoTemplate) (demo h 10 5) = .ok ss ∧
    ss.tryGet .ctors = some (.ctors cs) ∧ (demoTx inName).funcName ∈ cs := by
  obtain ⟨h, hc⟩ := exists_noCollision
  refine ⟨h, hc, ⟨exampleAddr 2, demoTemplate, demoLayout⟩, ?_, ?_, demoSections, [inName], ?_, rfl,
    by decide⟩
  all_goals rw [out_eval hc, view_demo hc]; rfl

/-- Non-vacuity of C30, spawn: the function `go` is not a constructor. -/
example : ∃ h, NoCollision h ∧ ∃ message rest sp ss cs,
    decSpawn message = .ok (sp, rest) ∧
    out h (loadTemplate true sp.templateAddr) (demo h 10 5) = .ok ss ∧
    ss.tryGet .ctors = some (.ctors cs) ∧ sp.ctorName ∉ cs := by
  obtain ⟨h, hc⟩ := exists_noCollision
  refine ⟨h, hc, (encSpawn { version := 0, templateAddr := demoTemplate, name := ⟨[], rfl⟩
                             ctorName := goName, calldata := [] }).getD [], [],
    { version := 0, templateAddr := demoTemplate, name := ⟨[], rfl⟩, ctorName := goName
      calldata := [] }, demoSections, [inName], by decide +kernel, ?_, rfl, by decide⟩
  rw [out_eval hc, view_demo hc]
  rfl

end Svm.Runtime
