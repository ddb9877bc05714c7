import Verif.Runtime.Exec

/-!
# Properties C31, C68 and C69: which records a transaction can change
-/

namespace Svm.Runtime

open Svm.Codec Svm.Account
open Svm.Storage (Hasher Storage Inv)

/-! ## Written keys and results of a program -/

/-- All written keys have `P`, and every returned value has `Q`. -/
def Does {α : Type} (P : Key → Prop) (Q : α → Prop) : Prog α → Prop
  | .ret a => Q a
  | .err _ => True
  | .panic _ => True
  | .get _ f => ∀ v, Does P Q (f v)
  | .set k _ p => P k ∧ Does P Q p

theorem Does.bind {α β : Type} {P : Key → Prop} {R : α → Prop} {Q : β → Prop} {p : Prog α}
    {f : α → Prog β} (hp : Does P R p) (hf : ∀ a, R a → Does P Q (f a)) : Does P Q (p.bind f) := by
  induction p with
  | ret a => exact hf a hp
  | err | panic => trivial
  | get k g ih => exact fun v => ih v (hp v)
  | set k v p ih => exact ⟨hp.1, ih hp.2⟩

theorem Does.of_writes {α : Type} {P : Key → Prop} {p : Prog α} (hp : Writes P p) :
    Does P (fun _ => True) p := by
  induction p with
  | ret | err | panic => trivial
  | get k g ih => exact fun v => ih v (hp v)
  | set k v p ih => exact ⟨hp.1, ih hp.2⟩

theorem Does.writes {α : Type} {P : Key → Prop} {Q : α → Prop} {p : Prog α} (hp : Does P Q p) :
    Writes P p := by
  induction p with
  | ret | err | panic => trivial
  | get k g ih => exact fun v => ih v (hp v)
  | set k v p ih => exact ⟨hp.1, ih hp.2⟩

theorem Does.of_quiet {α : Type} {P : Key → Prop} {Q : α → Prop} {p : Prog α} (hp : Quiet Q p) :
    Does P Q p := by
  induction p with
  | ret a => exact hp
  | err | panic => trivial
  | get k g ih => exact fun v => ih v (hp v)
  | set k v p => exact hp.elim

theorem Does.unwrap {α : Type} {P : Key → Prop} {Q : α → Prop} {p : Prog α} (hp : Does P Q p) :
    Does P Q p.unwrap := by
  induction p with
  | ret a => exact hp
  | err | panic => trivial
  | get k g ih => exact fun v => ih v (hp v)
  | set k v p ih => exact ⟨hp.1, ih hp.2⟩

theorem Does.ofOption {α : Type} {P : Key → Prop} {Q : α → Prop} {o : Option α}
    (h : ∀ a, o = some a → Q a) : Does P Q (Prog.ofOption o) := by
  cases o with
  | none => trivial
  | some a => exact h a rfl

/-! ## A running program -/

/-- The keys that code running for account `a` may write: variables of `a`, and balances. -/
def Own (a : Addr) (k : Key) : Prop := (∃ b, k = .accMut b) ∨ ∃ i, k = .seg a i

/-- The environment is still the one of account `a`. -/
def For {α : Type} (a : Addr) (r : Env × α) : Prop := r.1.storage.addr = a

theorem writes_moveCoins (a : Addr) (src dst : Acc) (x y amount : U64) :
    Writes (Own a) (moveCoins src dst x y amount) := by
  unfold moveCoins
  split
  · trivial
  · refine ((writes_setBalance _ _).mono fun k hk => .inl ⟨_, hk⟩).unwrap.bind fun _ => ?_
    split
    · exact ((writes_setBalance _ _).mono fun k hk => .inl ⟨_, hk⟩).unwrap
    · trivial

theorem does_host (chk : Bool) (env : Env) (mem : Bytes) (c : HostCall) (a : Addr)
    (ha : env.storage.addr = a) :
    Does (Own a) (fun r => r.2.2.storage.addr = a) (host chk env mem c) := by
  have key : ∀ {α : Type} (b : Bool) (p : Prog α), Writes (Own a) p →
      Writes (Own a) (if b then p else .panic) := by
    intro α b p hp
    split
    · exact hp
    · trivial
  have hset : ∀ id value, Writes (Own a) (setVarBytes chk env.storage id value).unwrap := by
    intro id value
    refine ((writes_setVarBytes chk env.storage id value).mono ?_).unwrap
    intro k hk
    rw [ha] at hk
    exact .inr hk
  cases c with
  | staticAlloc size =>
    refine Does.bind (R := fun r : U32 × Env => r.2.storage.addr = a) (Does.ofOption ?_) fun r hr => hr
    intro r hr
    unfold staticAlloc at hr
    split at hr
    · simp only at hr
      split at hr
      · cases hr
      · cases hr; exact ha
    · cases hr
  | calldataOffset | calldataLen | log =>
    exact Does.bind (Does.ofOption (Q := fun _ => True) fun _ _ => trivial) fun _ _ => ha
  | setReturndata o l =>
    refine Does.bind (R := fun r : Env => r.storage.addr = a) (Does.ofOption ?_) fun r hr => hr
    intro r hr
    unfold setReturndata at hr
    split at hr
    · cases hr; exact ha
    · cases hr
  | get32 var =>
    refine Does.bind (Does.of_writes (key _ _ ?_)) fun _ _ => ha
    exact (readOnly_getVarI64 _ _ _).unwrap.writes.bind fun _ => trivial
  | get64 var =>
    exact Does.bind (Does.of_writes (key _ _ (readOnly_getVarI64 _ _ _).unwrap.writes)) fun _ _ => ha
  | set32 var value =>
    exact Does.bind (Does.of_writes (key _ _ (hset _ _))) fun _ _ => ha
  | set64 var value =>
    exact Does.bind (Does.of_writes (key _ _ (hset _ _))) fun _ _ => ha
  | load160 var ptr =>
    refine Does.bind (Does.of_writes (key _ _ ?_)) fun _ _ => ha
    exact (ReadOnly.ofOption _).writes.bind fun _ =>
      (readOnly_getVar _ _ _ _).unwrap.writes.bind fun _ => trivial
  | store160 ptr var =>
    refine Does.bind (Does.of_writes ?_) fun _ _ => ha
    exact (ReadOnly.ofOption _).writes.bind fun _ => key _ _ (hset _ _)
  | transfer src dst amount =>
    refine Does.bind (R := fun e : Env => e.storage.addr = a) ?_ fun _ h => h
    unfold svmTransfer
    split
    · exact ha
    · have ht : ∀ {α : Type} {p : Prog α}, ReadOnly p → Does (Own a) (fun _ => True) p :=
        fun hp => Does.of_writes hp.writes
      refine (ht (ReadOnly.ofOption _)).bind fun _ _ => (ht (ReadOnly.ofOption _)).bind fun _ _ => ?_
      split
      · exact (ht (readOnly_load _ _).unwrap).bind fun _ _ =>
          (ht (readOnly_load _ _).unwrap).bind fun _ _ =>
          (ht (readOnly_balance _).unwrap).bind fun _ _ =>
          (ht (readOnly_balance _).unwrap).bind fun _ _ =>
          (Does.of_writes (writes_moveCoins a _ _ _ _ _)).bind fun _ _ => ha
      · trivial

theorem does_guest {α : Type} (chk : Bool) (g : Guest α) (env : Env) (a : Addr)
    (ha : env.storage.addr = a) : Does (Own a) (For a) (g.run chk env) := by
  induction g generalizing env with
  | ret | trap => exact ha
  | call mem c k ih => exact (does_host chk env mem c a ha).bind fun r hr => ih _ _ _ hr

theorem does_wasmerCall {α : Type} (chk : Bool) (env : Env) (func : Str) (g : Guest α) (a : Addr)
    (ha : env.storage.addr = a) : Does (Own a) (For a) (wasmerCall chk env func g) := by
  refine (does_guest chk g env a ha).bind fun r hr => ?_
  split <;> exact hr

theorem does_callAlloc (chk : Bool) (m : Module) (st : m.σ) (env : Env) (mem : Bytes) (n : Nat)
    (a : Addr) (ha : env.storage.addr = a) :
    Does (Own a) (For a) (callAlloc chk m st env mem n) := by
  unfold callAlloc
  simp only
  split
  · refine (does_wasmerCall chk { env with mode := .accessDenied } _ _ a ha).bind fun r hr => ?_
    split
    · exact hr
    · split
      · exact hr
      · trivial
  · exact ha

theorem does_runFunc (chk : Bool) (m : Module) (call : Call) (env : Env) (st : m.σ) (mem : Bytes)
    (a : Addr) (ha : env.storage.addr = a) :
    Does (Own a) (For a) (runFunc chk m call env st mem) := by
  unfold runFunc
  split
  · exact ha
  · split
    · refine (does_callAlloc chk m st env mem _ a ha).bind fun r hr => ?_
      split
      · exact hr
      · split
        · refine (Does.ofOption (Q := fun me : Bytes × Env => me.2.storage.addr = a) ?_).bind
            fun me hme => ?_
          · intro me hme
            unfold setCalldata at hme
            split at hme
            · cases hme; exact hr
            · cases hme
          · refine (does_wasmerCall chk _ _ _ a hme).bind fun r' hr' => ?_
            split <;> exact hr'
        · trivial
    · refine (does_wasmerCall chk _ _ _ a ha).bind fun r hr => ?_
      split <;> exact hr

theorem does_runCall (chk : Bool) (eng : Engine) (call : Call) (ss : Sections) (env : Env)
    (a : Addr) (ha : env.storage.addr = a) :
    Does (Own a) (For a) (runCall chk eng call ss env) := by
  refine (Does.of_writes (readOnly_validate _ _).writes).bind fun r _ => ?_
  split
  · exact ha
  · refine (Does.of_writes (ReadOnly.ofOption _).writes).bind fun code _ => ?_
    split
    · exact ha
    · rename_i m _
      have hinst : Does (Own a) (For a) (instantiate chk m env) := by
        unfold instantiate
        split
        · exact ha
        · refine (does_guest chk _ _ a ha).bind fun r hr => ?_
          split <;> exact hr
      refine hinst.bind fun r hr => ?_
      split
      · exact hr
      · split
        · exact does_runFunc chk m call _ _ _ a hr
        · trivial

theorem quiet_load (chk : Bool) (a : Addr) : Quiet (fun acc => acc.addr = a) (load chk a) :=
  (readOnly_readAndDecode _ _).quiet.bind fun _ _ =>
    (readOnly_templateLayout _ _).quiet.bind fun _ _ => rfl

theorem does_exec (chk : Bool) (eng : Engine) (call : Call) :
    Does (Own call.target) (For call.target) (exec chk eng call) :=
  (Does.of_writes (readOnly_load _ _).unwrap.writes).bind fun _ _ =>
    (Does.of_writes (readOnly_templateAddr _).unwrap.writes).bind fun _ _ =>
    (Does.of_writes (readOnly_loadTemplate _ _).writes).bind fun _ _ =>
    (Does.of_quiet (quiet_load _ _)).unwrap.bind fun acc hacc =>
      does_runCall _ _ _ _ (Env.new acc call.templateAddr call.target call.mode) _ hacc

theorem does_txProg (chk : Bool) (eng : Engine) (tx : Transaction) (mode : AccessMode) (func : Str)
    (input : Bytes) : Does (Own tx.target) (For tx.target) (txProg chk eng tx mode func input) := by
  have hb : Quiet (fun c : Call => c.target = tx.target) (buildCall chk tx mode func input) :=
    (readOnly_load _ _).unwrap.quiet.bind fun _ _ =>
      (readOnly_templateAddr _).unwrap.quiet.bind fun _ _ => rfl
  refine (Does.of_quiet hb).bind fun c hcm => ?_
  rw [← hcm]
  exact does_exec chk eng c

/-! ## Commits do not change what is read -/

theorem view_commitChanges {h : Hasher} {e : Storage} (hi : Inv e) (o : Orders) (env : Env) :
    view h (commitChanges h o env e).1 = view h e := by
  obtain ⟨s1, fp, h1, h2⟩ := publish hi h o.checkpoint o.commit
  have hv : view h s1 = view h e := by
    funext k
    rw [view_current, h2.now, ← view_current]
  unfold commitChanges
  split
  · rw [h1]
    simp only
    split <;> exact hv
  · rfl

theorem view_outcome {h : Hasher} {e : Storage} (hi : Inv e) (o : Orders) (env : Env) (mem : Bytes)
    (logs : List Bytes) : view h (outcomeToReceipt h o env mem logs e).1 = view h e := by
  unfold outcomeToReceipt
  split
  · rfl
  · exact view_commitChanges hi o env

theorem view_execCall {h : Hasher} {s : Storage} (hi : Inv s) (chk : Bool) (o : Orders)
    (eng : Engine) (call : Call) :
    view h (execCall chk h o eng call s).1 = view h (after h (exec chk eng call) s) := by
  have hi1 := inv_prog (h := h) (exec chk eng call) hi
  unfold execCall
  simp only
  split
  · exact view_outcome hi1 o _ _ _
  · rfl
  · rfl

/-! ## C68 -/

/-- C68: whatever the program of the target account does and however the call ends, every stored
record except the variables of the target account and the balances and counters of accounts is as
before. So names and templates of accounts, variables of other accounts, and templates do not
change. -/
theorem C68_call_isolation {h : Hasher} (hc : NoCollision h) {s : Storage} (hr : Reach h s)
    (chk : Bool) (o : Orders) (eng : Engine) (message rest : Bytes) (tx : Transaction)
    (hd : decTransaction message = .ok (tx, rest)) (k : Key) (h1 : ∀ b, k ≠ .accMut b)
    (h2 : ∀ i, k ≠ .seg tx.target i) :
    view h (call chk h o eng message s).1 k = view h s k := by
  have hi1 := inv_prog (h := h) (txProg chk eng tx .fullAccess tx.funcName tx.calldata)
    (hr.ok hc).1
  have hv : view h (call chk h o eng message s).1 =
      view h (after h (txProg chk eng tx .fullAccess tx.funcName tx.calldata) s) := by
    unfold call
    rw [hd]
    simp only
    rw [buildAndExec_eq, run_out]
    split
    · rename_i e env mem logs he
      cases (Prod.mk.inj he).1
      exact view_outcome hi1 o _ _ _
    · rename_i e env f he
      cases (Prod.mk.inj he).1
      rfl
    · rename_i e r _ _ he
      cases (Prod.mk.inj he).1
      rfl
  rw [hv, view_after hc]
  refine (does_txProg chk eng tx .fullAccess tx.funcName tx.calldata).writes.eval _ k ?_
  rintro (⟨b, rfl⟩ | ⟨i, rfl⟩)
  · exact h1 b rfl
  · exact h2 i rfl

/-! ## C25, receipts -/

theorem bal_view {h : Hasher} (hc : NoCollision h) {s s' : Storage} (hv : view h s = view h s')
    (a : Addr) : bal h s a = bal h s' a := by
  rw [bal_money hc, bal_money hc, hv]

theorem execCall_touched {h : Hasher} (hc : NoCollision h) {s s' : Storage} (hi : Inv s)
    (chk : Bool) (o : Orders) (eng : Engine) (cl : Call) (r : CallReceipt)
    (hx : execCall chk h o eng cl s = (s', some r)) (hs : r.success = true) :
    cl.target ∈ r.touched ∧ ∀ a, bal h s' a ≠ bal h s a → a ∈ r.touched := by
  have hv := view_execCall (h := h) hi chk o eng cl
  rw [hx] at hv
  unfold execCall at hx
  rw [run_out] at hx
  simp only at hx
  split at hx
  · rename_i env mem logs he
    obtain ⟨h1, h2⟩ := C25_touched_exec hc s chk eng cl env _ he
    unfold outcomeToReceipt at hx
    split at hx
    · cases hx
    · obtain ⟨st, -, rfl⟩ := Option.map_eq_some_iff.1 (Prod.mk.inj hx).2
      exact ⟨h1, fun a ha => h2 a (by rw [← bal_view hc hv]; exact ha)⟩
  · cases hx
    cases hs
  · cases hx

/-- C25: a success receipt of a call lists the called account and every account whose balance was
changed by the call. -/
theorem C25_call_receipt {h : Hasher} (hc : NoCollision h) {s s' : Storage} (hr : Reach h s)
    (chk : Bool) (o : Orders) (eng : Engine) (message rest : Bytes) (tx : Transaction)
    (r : CallReceipt) (hd : decTransaction message = .ok (tx, rest))
    (hcall : call chk h o eng message s = (s', some r)) (hs : r.success = true) :
    tx.target ∈ r.touched ∧ ∀ a, bal h s' a ≠ bal h s a → a ∈ r.touched := by
  have hb : Quiet (fun c : Call => c.target = tx.target)
      (buildCall chk tx .fullAccess tx.funcName tx.calldata) :=
    (readOnly_load _ _).unwrap.quiet.bind fun _ _ =>
      (readOnly_templateAddr _).unwrap.quiet.bind fun _ _ => rfl
  obtain ⟨hq1, hq2⟩ := hb.run h s
  unfold call at hcall
  rw [hd] at hcall
  simp only at hcall
  unfold buildAndExec at hcall
  simp only at hcall
  split at hcall
  · rename_i cl hcl
    rw [hq1] at hcall
    rw [← hq2 cl hcl]
    exact execCall_touched hc (hr.ok hc).1 chk o eng cl r hcall hs
  · cases hcall

/-! ## Spawning -/

theorem writes_create (chk : Bool) (a : Addr) (nm : Str) (t : Addr) (b : U64) (c : U128) :
    Writes (fun k => k = .accData a ∨ k = .accMut a) (create chk a nm t b c) := by
  refine Writes.bind (readOnly_templateLayout _ _).writes fun l => ?_
  refine Writes.bind ?_ fun _ => Writes.bind ?_ fun _ => trivial
  · unfold encodeAndWrite
    split
    · exact ⟨.inl rfl, trivial⟩
    · trivial
  · unfold encodeAndWrite
    split
    · exact ⟨.inr rfl, trivial⟩
    · trivial

/-- What is read after the creation of an account. -/
theorem create_info {h : Hasher} (hc : NoCollision h) {s : Storage} {chk : Bool} {a t : Addr}
    {nm : Str} {b : U64} {c : U128} {acc : Acc} (hok : out h (create chk a nm t b c) s = .ok acc) :
    acc.addr = a ∧
    info (view h (after h (create chk a nm t b c) s)) a = some ⟨nm, t⟩ ∧
    money (view h (after h (create chk a nm t b c) s)) a = some ⟨b, c⟩ := by
  rw [out_eval hc] at hok
  have hev : (create chk a nm t b c).eval (view h s) =
      (((create chk a nm t b c).eval (view h s)).1, .ok acc) := Prod.ext rfl hok
  unfold create at hev
  obtain ⟨w1, l, hl, hev1⟩ := eval_bind_eq_ok hev
  obtain ⟨e1, _⟩ := templateLayout_ok hl
  subst e1
  obtain ⟨w2, _, h2, hev2⟩ := eval_bind_eq_ok hev1
  obtain ⟨w3, _, h3, hev3⟩ := eval_bind_eq_ok hev2
  cases hd : encAccountData ⟨nm, t⟩ with
  | none => rw [hd] at h2; cases h2
  | some bs =>
    rw [hd] at h2
    cases h2
    cases h3
    have hw : view h (after h (create chk a nm t b c) s) =
        ((view h s).set (.accData a) bs).set (.accMut a) (mutBytes ⟨b, c⟩) := by
      rw [view_after hc]
      unfold create
      exact (congrArg Prod.fst hev3).symm
    have hacc := congrArg Prod.snd hev3
    simp only [Prog.pure_eq, Prog.eval_ret, Outcome.ok.injEq] at hacc
    have hdec : decAccountData bs = .ok (⟨nm, t⟩, []) := by
      have := roundTrip_accountData _ bs [] hd
      rwa [List.append_nil] at this
    refine ⟨by rw [← hacc], ?_, ?_⟩
    · unfold info
      rw [hw, View.set_ne _ _ (by simp), View.set_self]
      simp only [hdec]
    · rw [hw, money_set, if_pos rfl]

/-- The keys that a spawn of an account at `a` may write. -/
def SpawnKey (a : Addr) (k : Key) : Prop := k = .accData a ∨ Own a k

theorem view_spawnAccount {h : Hasher} (hc : NoCollision h) {s : Storage} (hi : Inv s) (chk : Bool)
    (o : Orders) (eng : Engine) (sp : SpawnAccount) (principal : Addr) (k : Key)
    (hk : ¬ SpawnKey (computeAccountAddr h sp) k) :
    view h (spawnAccount chk h o eng sp principal s).1 k = view h s k := by
  have hcr : ∀ p : Prog Unit, Writes (SpawnKey (computeAccountAddr h sp)) p →
      view h (p.run h s).1 k = view h s k := by
    intro p hp
    show view h (after h p s) k = _
    rw [view_after hc]
    exact hp.eval _ k hk
  have hw : Writes (SpawnKey (computeAccountAddr h sp))
      (createAccount chk (computeAccountAddr h sp) sp.templateAddr sp.name 0 0) := by
    refine Writes.bind (Writes.unwrap ((writes_create _ _ _ _ _ _).mono ?_)) fun _ => trivial
    rintro k (hk | hk)
    · exact .inl hk
    · exact .inr (.inl ⟨_, hk⟩)
  unfold spawnAccount
  simp only
  split
  · unfold callCtor
    simp only
    have hi1 := inv_prog (h := h)
      (createAccount chk (computeAccountAddr h sp) sp.templateAddr sp.name 0 0) hi
    rw [view_execCall hi1, view_after hc,
      (does_exec chk eng _).writes.eval _ k (fun hown => hk (.inr hown))]
    exact hcr _ hw
  · exact hcr _ hw

/-- C69: however a spawn ends, every stored record except the record of the account at the computed
address, its variables, and balances and counters, is as before. -/
theorem C69_spawn_isolation {h : Hasher} (hc : NoCollision h) {rs : RState}
    (hr : Reach h rs.storage) (chk : Bool) (o : Orders) (eng : Engine) (pr : Pricer)
    (envelope : Envelope) (message rest : Bytes) (sp : SpawnAccount)
    (hd : decSpawn message = .ok (sp, rest)) (k : Key) (h0 : k ≠ .accData (computeAccountAddr h sp))
    (h1 : ∀ b, k ≠ .accMut b) (h2 : ∀ i, k ≠ .seg (computeAccountAddr h sp) i) :
    view h (spawn chk h o eng pr envelope message rs).1.storage k = view h rs.storage k := by
  have hs := (readOnly_loadTemplate chk sp.templateAddr).run h rs.storage
  have hk : ¬ SpawnKey (computeAccountAddr h sp) k := by
    rintro (rfl | ⟨b, rfl⟩ | ⟨i, rfl⟩)
    · exact h0 rfl
    · exact h1 b rfl
    · exact h2 i rfl
  unfold spawn
  rw [hd]
  simp only
  split
  · split
    · exact congrFun (congrArg (view h) hs) k
    · exact congrFun (congrArg (view h) hs) k
    · split
      · exact congrFun (congrArg (view h) hs) k
      · split
        · exact congrFun (congrArg (view h) hs) k
        · simp only [hs]
          exact view_spawnAccount hc (hr.ok hc).1 chk o eng sp _ k hk
  · exact congrFun (congrArg (view h) hs) k

/-- C25: a success receipt of a spawn lists the new account, the principal, and every account whose
balance was changed by the constructor. -/
theorem C25_spawn_receipt {h : Hasher} (hc : NoCollision h) {s s' : Storage} (hi : Inv s)
    (chk : Bool) (o : Orders) (eng : Engine) (sp : SpawnAccount) (principal : Addr)
    (r : SpawnReceipt) (hx : spawnAccount chk h o eng sp principal s = (s', some r))
    (hs : r.success = true) :
    computeAccountAddr h sp ∈ r.touched ∧ principal ∈ r.touched ∧
    ∀ a, bal h s' a ≠ bal h s a → a ∈ r.touched := by
  have hw : Writes (fun k => k = .accData (computeAccountAddr h sp) ∨
      k = .accMut (computeAccountAddr h sp))
      (createAccount chk (computeAccountAddr h sp) sp.templateAddr sp.name 0 0) :=
    Writes.bind (writes_create _ _ _ _ _ _).unwrap fun _ => trivial
  unfold spawnAccount at hx
  simp only at hx
  split at hx
  · unfold callCtor at hx
    simp only at hx
    obtain ⟨e1, e2⟩ := Prod.mk.inj hx
    obtain ⟨c, hc1, hc2⟩ := Option.bind_eq_some_iff.1 e2
    have hi1 : Inv (after h (createAccount chk (computeAccountAddr h sp) sp.templateAddr sp.name
      0 0) s) := inv_prog (h := h) _ hi
    have ht : r.touched = setInsert (setInsert c.touched (computeAccountAddr h sp)) principal ∧
        c.success = true := by
      unfold intoSpawnReceipt at hc2
      split at hc2
      · rename_i hcs
        cases hc2
        exact ⟨rfl, hcs⟩
      · split at hc2
        · cases hc2; cases hs
        · cases hc2
    obtain ⟨h1, h2⟩ := execCall_touched hc hi1 chk o eng _ c (Prod.ext e1 hc1) ht.2
    rw [ht.1]
    simp only [mem_setInsert]
    refine ⟨.inl (.inr trivial), .inr trivial, fun a ha => ?_⟩
    by_cases e : a = computeAccountAddr h sp
    · exact .inl (.inr e)
    · refine .inl (.inl (h2 a ?_))
      intro heq
      refine ha (heq.trans ?_)
      rw [bal_money hc, bal_money hc, view_after hc]
      refine congrArg _ (money_accMut (hw.eval _ _ ?_))
      simpa using e
  · cases hx

/-! ## C31 -/

/-- The claim of C31: a spawn with a success receipt changes no record of an existing account. -/
def C31_claim : Prop :=
  ∀ (h : Hasher), NoCollision h → ∀ rs : RState, Reach h rs.storage → ∀ (chk : Bool) (o : Orders)
    (eng : Engine) (pr : Pricer) (envelope : Envelope) (message : Bytes) (rs' : RState)
    (r : SpawnReceipt), spawn chk h o eng pr envelope message rs = (rs', some r) →
    r.success = true → ∀ (a : Addr) (d : AccountData), info (view h rs.storage) a = some d →
      info (view h rs'.storage) a = some d

/-- What a success receipt of a spawn means. -/
theorem spawn_success_steps {h : Hasher} {rs rs' : RState} {chk : Bool} {o : Orders} {eng : Engine}
    {pr : Pricer} {envelope : Envelope} {message : Bytes} {r : SpawnReceipt}
    (hsp : spawn chk h o eng pr envelope message rs = (rs', some r)) (hs : r.success = true) :
    ∃ sp rest ss, decSpawn message = .ok (sp, rest) ∧
      out h (loadTemplate chk sp.templateAddr) rs.storage = .ok ss ∧
      isCtor ss sp.ctorName = some true ∧
      out h (createAccount chk (computeAccountAddr h sp) sp.templateAddr sp.name 0 0) rs.storage =
        .ok () ∧
      r.accountAddr = some (computeAccountAddr h sp) ∧
      rs'.storage = (execCall chk h o eng
        { funcName := sp.ctorName, funcInput := sp.calldata, target := computeAccountAddr h sp
          templateAddr := sp.templateAddr, withinSpawn := true, mode := .fullAccess }
        (after h (createAccount chk (computeAccountAddr h sp) sp.templateAddr sp.name 0 0)
          rs.storage)).1 := by
  unfold spawn at hsp
  split at hsp
  · rename_i sp rest hd
    have hro := (readOnly_loadTemplate chk sp.templateAddr).run h rs.storage
    simp only [hro] at hsp
    split at hsp
    · rename_i ss hss
      split at hsp
      · cases hsp
      · cases hsp; cases hs
      · rename_i hct
        split at hsp
        · cases hsp
        · split at hsp
          · cases hsp; cases hs
          · refine ⟨sp, rest, ss, hd, hss, hct, ?_⟩
            obtain ⟨e1, e2⟩ := Prod.mk.inj hsp
            unfold spawnAccount at e1 e2
            simp only at e1 e2
            split at e2
            · rename_i hcr
              rw [hcr] at e1
              refine ⟨hcr, ?_⟩
              unfold callCtor at e1 e2
              simp only at e1 e2
              refine ⟨?_, by rw [← e1]; rfl⟩
              obtain ⟨c, hc1, hc2⟩ := Option.bind_eq_some_iff.1 e2
              unfold intoSpawnReceipt at hc2
              split at hc2
              · cases hc2; rfl
              · split at hc2
                · cases hc2; cases hs
                · cases hc2
            · cases e2
    · cases hsp
  · cases hsp

/-- C31, what the code does: the address of a spawned account depends only on the template, so two
successful spawns of one template, with whatever names, constructors and arguments, report the same
address; and the second one has replaced the name of the account and, before its constructor ran, has
set the balance and the counter to zero. -/
theorem C31_same_address {h : Hasher} (hc : NoCollision h) {rs₁ rs₂ rs₃ : RState} (chk : Bool)
    (o₁ o₂ : Orders) (eng : Engine) (pr : Pricer) (e₁ e₂ : Envelope) (m₁ m₂ rest₁ rest₂ : Bytes)
    (sp₁ sp₂ : SpawnAccount) (r₁ r₂ : SpawnReceipt) (hr : Reach h rs₂.storage)
    (hd₁ : decSpawn m₁ = .ok (sp₁, rest₁)) (hd₂ : decSpawn m₂ = .ok (sp₂, rest₂))
    (ht : sp₁.templateAddr = sp₂.templateAddr)
    (h₁ : spawn chk h o₁ eng pr e₁ m₁ rs₁ = (rs₂, some r₁)) (hs₁ : r₁.success = true)
    (h₂ : spawn chk h o₂ eng pr e₂ m₂ rs₂ = (rs₃, some r₂)) (hs₂ : r₂.success = true) :
    r₁.accountAddr = r₂.accountAddr ∧ ∃ a, r₂.accountAddr = some a ∧
      info (view h rs₃.storage) a = some ⟨sp₂.name, sp₂.templateAddr⟩ ∧
      money (view h (after h (createAccount chk a sp₂.templateAddr sp₂.name 0 0) rs₂.storage)) a =
        some ⟨0, 0⟩ := by
  obtain ⟨sp, rest, ss, x1, -, -, -, x2, -⟩ := spawn_success_steps h₁ hs₁
  rw [hd₁] at x1
  cases x1
  obtain ⟨sp', rest', ss', y1, -, -, y2, y3, y4⟩ := spawn_success_steps h₂ hs₂
  rw [hd₂] at y1
  cases y1
  have ha : computeAccountAddr h sp₁ = computeAccountAddr h sp₂ := by
    unfold computeAccountAddr
    rw [ht]
  refine ⟨by rw [x2, y3, ha], _, y3, ?_⟩
  have hi1 : Inv (after h (createAccount chk (computeAccountAddr h sp₂) sp₂.templateAddr sp₂.name
      0 0) rs₂.storage) := inv_prog (h := h) _ (hr.ok hc).1
  have hk : info (view h rs₃.storage) (computeAccountAddr h sp₂) =
      info (view h (after h (createAccount chk (computeAccountAddr h sp₂) sp₂.templateAddr sp₂.name
        0 0) rs₂.storage)) (computeAccountAddr h sp₂) := by
    unfold info
    rw [y4, view_execCall hi1, view_after hc, (does_exec chk eng _).writes.eval]
    rintro (⟨b, e⟩ | ⟨i, e⟩) <;> cases e
  rw [hk]
  clear hk
  rw [out_eval hc] at y2
  have hev : (createAccount chk (computeAccountAddr h sp₂) sp₂.templateAddr sp₂.name 0 0).eval
      (view h rs₂.storage) = (_, .ok ()) := Prod.ext rfl y2
  unfold createAccount at hev
  obtain ⟨w1, acc, c1, c2⟩ := eval_bind_eq_ok hev
  have c3 := unwrap_ok.1 c1
  have hcr : out h (create chk (computeAccountAddr h sp₂) sp₂.name sp₂.templateAddr 0 0)
      rs₂.storage = .ok acc := by rw [out_eval hc, c3]
  have hview : view h (after h (createAccount chk (computeAccountAddr h sp₂) sp₂.templateAddr
      sp₂.name 0 0) rs₂.storage) = view h (after h (create chk (computeAccountAddr h sp₂) sp₂.name
        sp₂.templateAddr 0 0) rs₂.storage) := by
    rw [view_after hc, view_after hc, c3]
    unfold createAccount
    rw [Prog.bind_eq, Prog.eval_bind_ok c1]
    rfl
  rw [hview]
  exact (create_info hc hcr).2

/-- C31, what does hold: a spawn changes the name or template of no account other than the one at the
computed address; so if there is no account at that address, no account is overwritten. Missing: the
code does not check that there is none. -/
theorem C31_free_address_partial {h : Hasher} (hc : NoCollision h) {rs : RState}
    (hr : Reach h rs.storage) (chk : Bool) (o : Orders) (eng : Engine) (pr : Pricer)
    (envelope : Envelope) (message rest : Bytes) (sp : SpawnAccount)
    (hd : decSpawn message = .ok (sp, rest))
    (hfree : info (view h rs.storage) (computeAccountAddr h sp) = none) (a : Addr) (d : AccountData)
    (ha : info (view h rs.storage) a = some d) :
    info (view h (spawn chk h o eng pr envelope message rs).1.storage) a = some d := by
  have hne : a ≠ computeAccountAddr h sp := by
    rintro rfl
    rw [hfree] at ha
    cases ha
  rw [← ha]
  unfold info
  rw [C69_spawn_isolation hc hr chk o eng pr envelope message rest sp hd (.accData a)
    (by simpa using hne) (by simp) (by simp)]

/-! ## Concrete spawns -/

/-- A module whose functions do nothing. -/
def idleModule : Module :=
  { σ := Unit, linkError := none, start := .ret () [], hasMemory := true
    sig := fun _ => some .nullary, invoke := fun _ _ _ mem => .ret ((), []) mem }

/-- Every code section is compiled to `idleModule`. -/
def idleEngine : Engine := fun _ => .ok idleModule

/-- Every function costs 7 units. -/
def flatPricer : Pricer := { parse := fun _ => some fun _ => some 0, price := fun _ => some fun _ => some 7 }

/-- A spawn of the demo template with the constructor `in`. -/
def demoSpawn (nm : Str) : SpawnAccount :=
  { version := 0, templateAddr := demoTemplate, name := nm, ctorName := inName, calldata := [] }

/-- Its encoding. -/
def demoSpawnMsg (nm : Str) : Bytes := (encSpawn (demoSpawn nm)).getD []

/-- An envelope without gas limit. -/
def demoEnvelope : Envelope :=
  { principal := exampleAddr 1, amount := 0, nonce := 0, gasLimit := none, gasFee := 0 }

/-- The stored bytes of the demo template. -/
def demoBytes : Bytes := (encSections demoSections).getD []

/-- The demo template is readable, and the genesis layer exists. -/
structure Ready (h : Hasher) (s : Storage) : Prop where
  reach : Reach h s
  id : 0 ≤ s.next.id
  core : view h s (.core demoTemplate) = some demoBytes
  noncore : view h s (.noncore demoTemplate) = some demoBytes

theorem eval_demoSections {w : View} (h1 : w (.core demoTemplate) = some demoBytes)
    (h2 : w (.noncore demoTemplate) = some demoBytes) :
    (readSections true demoTemplate).eval w = (w, .ok demoSections) := by
  have hd : decSections true none demoBytes = .ok (demoSections, []) := by decide +kernel
  unfold readSections
  rw [Prog.bind_eq, Prog.eval_bind_ok (readAndDecode_ok h1 hd), Prog.bind_eq,
    Prog.eval_bind_ok (readAndDecode_ok h2 hd)]
  rfl

theorem eval_demoLayout {w : View} (h1 : w (.core demoTemplate) = some demoBytes)
    (h2 : w (.noncore demoTemplate) = some demoBytes) :
    (templateLayout true demoTemplate).eval w = (w, .ok demoLayout) := by
  unfold templateLayout
  rw [Prog.bind_eq, Prog.eval_bind_ok (eval_demoSections h1 h2)]
  rfl

theorem eval_unwrap_ok {α : Type} {p : Prog α} {w : View} {a : α} (h : p.eval w = (w, .ok a)) :
    p.unwrap.eval w = (w, .ok a) := unwrap_ok.2 h

theorem eval_exec_idle {w : View} (h1 : w (.core demoTemplate) = some demoBytes)
    (h2 : w (.noncore demoTemplate) = some demoBytes) (a : Addr) (nm : Str)
    (hi : info w a = some ⟨nm, demoTemplate⟩) :
    (exec true idleEngine
      { funcName := inName, funcInput := [], target := a, templateAddr := demoTemplate
        withinSpawn := true, mode := .fullAccess }).eval w =
      (w, .ok ({ Env.new ⟨a, demoTemplate, demoLayout⟩ demoTemplate a .fullAccess with
        memorySet := true }, .ok ([], []))) := by
  have hr : (readAndDecode decAccountData (.accData a)).eval w = (w, .ok ⟨nm, demoTemplate⟩) := by
    unfold info at hi
    split at hi
    · cases hi
    · rename_i bs hbs
      split at hi
      · rename_i d rest hdec
        cases hi
        exact readAndDecode_ok hbs hdec
      · cases hi
  have hl : (load true a).eval w = (w, .ok ⟨a, demoTemplate, demoLayout⟩) := by
    unfold load
    rw [Prog.bind_eq, Prog.eval_bind_ok hr, Prog.bind_eq, Prog.eval_bind_ok (eval_demoLayout h1 h2)]
    rfl
  have ht : (templateAddr ⟨a, demoTemplate, demoLayout⟩).eval w = (w, .ok demoTemplate) := by
    unfold templateAddr
    rw [Prog.bind_eq, Prog.eval_bind_ok hr]
    rfl
  unfold exec
  rw [Prog.bind_eq, Prog.eval_bind_ok (eval_unwrap_ok hl), Prog.bind_eq,
    Prog.eval_bind_ok (eval_unwrap_ok ht), Prog.bind_eq,
    Prog.eval_bind_ok (p := loadTemplate true demoTemplate)
      (eval_unwrap_ok (eval_demoSections h1 h2)), Prog.bind_eq,
    Prog.eval_bind_ok (eval_unwrap_ok hl)]
  rfl

theorem demo_spawn_succeeds {h : Hasher} (hc : NoCollision h) {rs : RState} (hr : Ready h rs.storage)
    (hcache : rs.cache = [] ∨ rs.cache = [(demoTemplate, fun _ => some 7)]) (nm : Str)
    (hn : nm.1.length ≤ 255) {m rest : Bytes} (hd : decSpawn m = .ok (demoSpawn nm, rest))
    (hm : m.length ≤ 1000) :
    ∃ rs' r, spawn true h ⟨.id, .id⟩ idleEngine flatPricer demoEnvelope m rs = (rs', some r) ∧
      r.success = true ∧ Ready h rs'.storage ∧ rs'.cache = [(demoTemplate, fun _ => some 7)] := by
  have hload : out h (loadTemplate true demoTemplate) rs.storage = .ok demoSections := by
    rw [out_eval hc]
    exact congrArg Prod.snd (eval_unwrap_ok (eval_demoSections hr.core hr.noncore))
  have hgas : ∃ g, checkGasForPayload m (GasTank.new none) = .nonEmpty g ∧ 7 < g.toNat := by
    have hp : (payloadPrice m).toNat = 1000 * m.length := by
      unfold payloadPrice
      rw [BitVec.toNat_ofNat]
      omega
    have hnew : GasTank.new none = .nonEmpty (BitVec.allOnes 64) := by decide
    have hall : (BitVec.allOnes 64).toNat = 18446744073709551615 := by decide
    refine ⟨BitVec.allOnes 64 - payloadPrice m, ?_, ?_⟩
    · unfold checkGasForPayload
      rw [hnew]
      simp only [GasTank.isEmpty, GasTank.consume, Bool.false_eq_true, if_false]
      rw [if_pos (by omega)]
    · rw [toNat_sub (by omega)]
      omega
  obtain ⟨g, hg1, hg2⟩ := hgas
  have hfunc : checkGasForFunc flatPricer rs.cache demoTemplate demoSections inName (.nonEmpty g) =
      ([(demoTemplate, fun _ => some 7)], some (.nonEmpty (g - 7))) := by
    have hcons : GasTank.consume (.nonEmpty g) 7 = .nonEmpty (g - 7) := by
      simp only [GasTank.consume]
      rw [if_pos (by simpa using hg2)]
    rw [← hcons]
    rcases hcache with e | e <;> rw [e] <;> rfl
  -- the account is created
  have hlay : ∃ l, out h (templateLayout true demoTemplate) rs.storage = .ok l := by
    refine ⟨demoLayout, ?_⟩
    rw [out_eval hc, eval_demoLayout hr.core hr.noncore]
  obtain ⟨acc, hacc⟩ := (C18_create_ok_iff hc (s := rs.storage) true (b := 0) (c := 0)
    (a := computeAccountAddr h (demoSpawn nm))).2 ⟨hlay, hn⟩
  have hcreate : out h (createAccount true (computeAccountAddr h (demoSpawn nm)) demoTemplate nm 0 0)
      rs.storage = .ok () := by
    rw [out_eval hc] at hacc ⊢
    unfold createAccount
    rw [Prog.bind_eq, Prog.eval_bind_ok (unwrap_ok.2 (Prod.ext rfl hacc))]
    rfl
  have hview : view h (after h (createAccount true (computeAccountAddr h (demoSpawn nm))
      demoTemplate nm 0 0) rs.storage) = view h (after h (create true
        (computeAccountAddr h (demoSpawn nm)) nm demoTemplate 0 0) rs.storage) := by
    rw [out_eval hc] at hacc
    rw [view_after hc, view_after hc]
    unfold createAccount
    rw [Prog.bind_eq, Prog.eval_bind_ok (unwrap_ok.2 (Prod.ext rfl hacc))]
    rfl
  have hinfo := (create_info hc hacc).2.1
  rw [← hview] at hinfo
  have hsafe : Prog.Safe (createAccount true (computeAccountAddr h (demoSpawn nm)) demoTemplate nm
      0 0) := (safe_create _ _ _ _ _ _).unwrap.bind fun _ => trivial
  have hreach1 : Reach h (after h (createAccount true (computeAccountAddr h (demoSpawn nm))
      demoTemplate nm 0 0) rs.storage) := .prog _ hsafe hr.reach
  have hkeep : ∀ k, ¬ (k = .accData (computeAccountAddr h (demoSpawn nm)) ∨
      k = .accMut (computeAccountAddr h (demoSpawn nm))) →
      view h (after h (createAccount true (computeAccountAddr h (demoSpawn nm)) demoTemplate nm 0 0)
        rs.storage) k = view h rs.storage k := by
    intro k hk
    rw [hview, view_after hc]
    exact (writes_create _ _ _ _ _ _).eval _ k hk
  have hid1 : (after h (createAccount true (computeAccountAddr h (demoSpawn nm)) demoTemplate nm 0 0)
      rs.storage).next = rs.storage.next := (Prog.run_frame h _ rs.storage).2
  have hrun1 := run_out h (createAccount true (computeAccountAddr h (demoSpawn nm)) demoTemplate nm
    0 0) rs.storage
  rw [hcreate] at hrun1
  generalize after h (createAccount true (computeAccountAddr h (demoSpawn nm)) demoTemplate nm 0 0)
    rs.storage = s1 at *
  have hcore := hkeep (.core demoTemplate) (by simp)
  have hnoncore := hkeep (.noncore demoTemplate) (by simp)
  rw [hr.core] at hcore
  rw [hr.noncore] at hnoncore
  have hx := eval_exec_idle hcore hnoncore _ nm hinfo
  generalize hcall : Call.mk inName [] (computeAccountAddr h (demoSpawn nm)) demoTemplate true
    .fullAccess = cl at hx
  have hrun2 := run_out h (exec true idleEngine cl) s1
  rw [out_eval hc, hx] at hrun2
  have hi2 : Inv (after h (exec true idleEngine cl) s1) := inv_prog (h := h) _ (hreach1.ok hc).1
  have hid2 : (after h (exec true idleEngine cl) s1).next = s1.next := (Prog.run_frame h _ s1).2
  obtain ⟨s2, fp, hp1, hp2⟩ := publish hi2 h .id .id
  have hex : ∃ c, execCall true h ⟨.id, .id⟩ idleEngine cl s1 = (s2, some c) ∧ c.success = true := by
    unfold execCall
    rw [hrun2]
    simp only
    unfold outcomeToReceipt takeReturndata commitChanges
    simp only [Env.new, Env.canWrite, decide_true, if_true]
    rw [hp1]
    simp only
    rw [hid2, hid1, if_pos hr.id]
    exact ⟨_, rfl, rfl⟩
  obtain ⟨c, hex1, hex2⟩ := hex
  have hreach2 : Reach h s2 := by
    have := reach_execCall hreach1 true ⟨.id, .id⟩ idleEngine cl
    rwa [hex1] at this
  have hv2 : view h s2 = view h s1 := by
    have := view_execCall (h := h) (hreach1.ok hc).1 true ⟨.id, .id⟩ idleEngine cl
    rw [hex1, view_after hc, hx] at this
    exact this
  have hid3 : 0 ≤ s2.next.id := by
    have hl := hp2.last
    rw [hid2, hid1] at hl
    have h0 := hr.id
    unfold Svm.Storage.lastLayer at hl
    simp only at hl
    split at hl
    · simp only [Outcome.ok.injEq, Prod.mk.injEq] at hl
      omega
    · cases hl
  have hsp : ∃ r, spawnAccount true h ⟨.id, .id⟩ idleEngine (demoSpawn nm) (exampleAddr 1)
      rs.storage = (s2, some r) ∧ r.success = true := by
    unfold spawnAccount
    simp only [demoSpawn] at hrun1 ⊢
    rw [hrun1]
    simp only [callCtor]
    simp only [demoSpawn] at hcall
    rw [hcall, hex1]
    simp only [Option.bind_some, intoSpawnReceipt, hex2, if_true]
    exact ⟨_, rfl, rfl⟩
  obtain ⟨r, hsp1, hsp2⟩ := hsp
  refine ⟨⟨s2, [(demoTemplate, fun _ => some 7)]⟩, r, ?_, hsp2, ⟨hreach2, hid3, ?_, ?_⟩, rfl⟩
  · unfold spawn
    rw [hd]
    simp only
    rw [run_out, show (demoSpawn nm).templateAddr = demoTemplate from rfl, hload,
      show after h (loadTemplate true demoTemplate) rs.storage = rs.storage from
        (readOnly_loadTemplate _ _).run h _]
    simp only
    rw [show isCtor demoSections (demoSpawn nm).ctorName = some true from rfl,
      show demoEnvelope.gasLimit = none from rfl, hg1,
      show (demoSpawn nm).ctorName = inName from rfl, hfunc]
    simp only [GasTank.isEmpty, Bool.false_eq_true, if_false]
    rw [show demoEnvelope.principal = exampleAddr 1 from rfl, hsp1]
  · rw [hv2]; exact hcore
  · rw [hv2]; exact hnoncore

theorem ready_demo {h : Hasher} (hc : NoCollision h) : Ready h (demoCommitted h) := by
  obtain ⟨fp, hp, h0⟩ := demoCommitted_published hc
  refine ⟨reach_demoCommitted h, by omega, ?_, ?_⟩ <;> rw [view_demoCommitted hc] <;>
    decide +kernel

/-- A second name. -/
def aName : Str := ⟨[97], by decide⟩

/-- C31 is violated; also the hypotheses of `C31_same_address` can be met. -/
theorem C31_two_spawns : ∃ h, NoCollision h ∧ ∃ rs₁ rs₂ rs₃ r₁ r₂, Reach h rs₂.storage ∧
    spawn true h ⟨.id, .id⟩ idleEngine flatPricer demoEnvelope (demoSpawnMsg ⟨[], rfl⟩) rs₁ =
      (rs₂, some r₁) ∧ r₁.success = true ∧
    spawn true h ⟨.id, .id⟩ idleEngine flatPricer demoEnvelope (demoSpawnMsg aName) rs₂ =
      (rs₃, some r₂) ∧ r₂.success = true ∧
    decSpawn (demoSpawnMsg ⟨[], rfl⟩) = .ok (demoSpawn ⟨[], rfl⟩, []) ∧
    decSpawn (demoSpawnMsg aName) = .ok (demoSpawn aName, []) ∧
    info (view h rs₂.storage) (computeAccountAddr h (demoSpawn aName)) =
      some ⟨⟨[], rfl⟩, demoTemplate⟩ ∧
    info (view h rs₃.storage) (computeAccountAddr h (demoSpawn aName)) =
      some ⟨aName, demoTemplate⟩ := by
  obtain ⟨h, hc⟩ := exists_noCollision
  have d1 : decSpawn (demoSpawnMsg ⟨[], rfl⟩) = .ok (demoSpawn ⟨[], rfl⟩, []) := by decide +kernel
  have d2 : decSpawn (demoSpawnMsg aName) = .ok (demoSpawn aName, []) := by decide +kernel
  obtain ⟨rs1, r0, a1, a2, a3, a4⟩ := demo_spawn_succeeds hc (rs := ⟨demoCommitted h, []⟩)
    (ready_demo hc) (.inl rfl) aName (by decide) d2 (by decide +kernel)
  obtain ⟨rs2, r1, b1, b2, b3, b4⟩ := demo_spawn_succeeds hc a3 (.inr a4) ⟨[], rfl⟩ (by decide) d1
    (by decide +kernel)
  obtain ⟨rs3, r2, c1, c2, c3, c4⟩ := demo_spawn_succeeds hc b3 (.inr b4) aName (by decide) d2
    (by decide +kernel)
  refine ⟨h, hc, rs1, rs2, rs3, r1, r2, b3.reach, b1, b2, c1, c2, d1, d2, ?_, ?_⟩
  · obtain ⟨-, a, e1, e2, -⟩ := C31_same_address hc true _ _ idleEngine flatPricer _ _ _ _ _ _ _ _ _ _
      a3.reach d2 d1 rfl a1 a2 b1 b2
    obtain ⟨sp, rest, ss, x1, -, -, -, x2, -⟩ := spawn_success_steps b1 b2
    rw [d1] at x1
    cases x1
    rw [e1] at x2
    cases x2
    exact e2
  · obtain ⟨-, a, e1, e2, -⟩ := C31_same_address hc true _ _ idleEngine flatPricer _ _ _ _ _ _ _ _ _ _
      b3.reach d1 d2 rfl b1 b2 c1 c2
    obtain ⟨sp, rest, ss, x1, -, -, -, x2, -⟩ := spawn_success_steps c1 c2
    rw [d2] at x1
    cases x1
    rw [e1] at x2
    cases x2
    exact e2

/-- C31 is violated. -/
theorem C31_claim_false : ¬ C31_claim := by
  intro hcl
  obtain ⟨h, hc, rs1, rs2, rs3, r1, r2, h1, h2, h3, h4, h5, h6, h7, h8, h9⟩ := C31_two_spawns
  have := hcl h hc rs2 h1 true _ idleEngine flatPricer demoEnvelope _ rs3 r2 h4 h5 _ _ h8
  rw [h9] at this
  revert this
  decide

/-- Non-vacuity of the partial theorem of C31: an account elsewhere, none at the address. -/
example : ∃ h, NoCollision h ∧ ∃ s a d, Reach h s ∧
    decSpawn (demoSpawnMsg aName) = .ok (demoSpawn aName, []) ∧
    info (view h s) (computeAccountAddr h (demoSpawn aName)) = none ∧ info (view h s) a = some d := by
  obtain ⟨h, hc⟩ := exists_noCollision
  have ha : ∃ b : Addr, b ≠ computeAccountAddr h (demoSpawn aName) := by
    by_cases e : exampleAddr 1 = computeAccountAddr h (demoSpawn aName)
    · exact ⟨exampleAddr 2, by rw [← e]; decide⟩
    · exact ⟨exampleAddr 1, e⟩
  obtain ⟨b, hb⟩ := ha
  have hw : view h (after h (createStub b aName 3 0) Svm.Storage.fresh) =
      View.set (View.set (fun _ => none) (.accData b)
        ((encAccountData ⟨aName, stubTemplate⟩).getD [])) (.accMut b) (mutBytes ⟨3, 0⟩) := by
    rw [view_after hc]
    rfl
  refine ⟨h, hc, after h (createStub b aName 3 0) Svm.Storage.fresh, b, ⟨aName, stubTemplate⟩,
    .prog _ (safe_createStub _ _ _ _) .fresh, by decide +kernel, ?_, ?_⟩
  · unfold info
    rw [hw, View.set_ne _ _ (by simp), View.set_ne _ _ (by simpa using hb.symm)]
  · unfold info
    rw [hw, View.set_ne _ _ (by simp), View.set_self]
    decide +kernel

/-- Non-vacuity of C68: a call that changes a variable of account 2, and a key that stays. -/
example : ∃ h, NoCollision h ∧ Reach h (demo h 10 5) ∧
    decTransaction (demoMessage noName) = .ok (demoTx noName, []) ∧
    view h (call true h ⟨.id, .id⟩ demoEngine (demoMessage noName) (demo h 10 5)).1
      (.seg (exampleAddr 2) 0) ≠ none ∧
    view h (demo h 10 5) (.core demoTemplate) = some demoBytes := by
  obtain ⟨h, hc⟩ := exists_noCollision
  obtain ⟨s', r, h1, h2, h3⟩ := demo_fails hc
  refine ⟨h, hc, reach_demo h 10 5, demo_decode_no, by rw [h1]; exact h3, ?_⟩
  rw [view_demo hc]
  decide +kernel

end Svm.Runtime
