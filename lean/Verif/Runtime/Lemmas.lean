import Verif.Runtime.Model

/-!
# Lemmas about host calls and the execution of programs
-/

namespace Svm.Runtime

open Svm.Codec Svm.Account
open Svm.Storage (Hasher Storage)

/-! ## Programs that write nothing, and programs that neither read nor write -/

/-- No writes. -/
def ReadOnly {α : Type} : Prog α → Prop
  | .ret _ => True
  | .err _ => True
  | .panic _ => True
  | .get _ f => ∀ v, ReadOnly (f v)
  | .set _ _ _ => False

theorem ReadOnly.run {α : Type} {p : Prog α} (hp : ReadOnly p) (h : Hasher) (s : Storage) :
    (p.run h s).1 = s := by
  induction p with
  | ret | err | panic => rfl
  | get k f ih => simp only [Prog.run, get_view]; exact ih _ (hp _)
  | set k v p => exact hp.elim

theorem ReadOnly.eval {α : Type} {p : Prog α} (hp : ReadOnly p) (w : View) : (p.eval w).1 = w := by
  induction p with
  | ret | err | panic => rfl
  | get k f ih => exact ih _ (hp _)
  | set k v p => exact hp.elim

theorem ReadOnly.bind {α β : Type} {p : Prog α} {f : α → Prog β} (hp : ReadOnly p)
    (hf : ∀ a, ReadOnly (f a)) : ReadOnly (p.bind f) := by
  induction p with
  | ret a => exact hf a
  | err | panic => trivial
  | get k g ih => exact fun v => ih v (hp v)
  | set k v p => exact hp.elim

theorem ReadOnly.unwrap {α : Type} {p : Prog α} (hp : ReadOnly p) : ReadOnly p.unwrap := by
  induction p with
  | ret | err | panic => trivial
  | get k g ih => exact fun v => ih v (hp v)
  | set k v p => exact hp.elim

theorem ReadOnly.ofOption {α : Type} (o : Option α) : ReadOnly (Prog.ofOption o) := by
  cases o <;> trivial

theorem ReadOnly.attempt {α : Type} {p : Prog α} (hp : ReadOnly p) : ReadOnly (attempt p) := by
  induction p with
  | ret | err | panic => trivial
  | get k g ih => exact fun v => ih v (hp v)
  | set k v p => exact hp.elim

theorem readOnly_readAndDecode {α : Type} (d : Dec α) (k : Key) : ReadOnly (readAndDecode d k) := by
  intro v
  cases v with
  | none => trivial
  | some bs =>
    show ReadOnly (match d bs with | .ok (a, _) => .ret a | .err _ => .err .illegalData
                                    | .panic => .panic)
    split <;> trivial

theorem readOnly_readSections (chk : Bool) (t : Addr) : ReadOnly (readSections chk t) :=
  (readOnly_readAndDecode _ _).bind fun _ => (readOnly_readAndDecode _ _).bind fun _ => trivial

theorem readOnly_templateLayout (chk : Bool) (t : Addr) : ReadOnly (templateLayout chk t) := by
  refine (readOnly_readSections _ _).bind fun ss => ?_
  split <;> trivial

theorem readOnly_load (chk : Bool) (a : Addr) : ReadOnly (load chk a) :=
  (readOnly_readAndDecode _ _).bind fun _ => (readOnly_templateLayout _ _).bind fun _ => trivial

theorem readOnly_balance (acc : Acc) : ReadOnly (balance acc) :=
  (readOnly_readAndDecode _ _).bind fun _ => trivial

theorem readOnly_counter (acc : Acc) : ReadOnly (counter acc) :=
  (readOnly_readAndDecode _ _).bind fun _ => trivial

theorem readOnly_templateAddr (acc : Acc) : ReadOnly (templateAddr acc) :=
  (readOnly_readAndDecode _ _).bind fun _ => trivial

/-- Neither reads nor writes: the result is a constant. -/
def Silent {α : Type} : Prog α → Prop
  | .ret _ => True
  | .err _ => True
  | .panic _ => True
  | .get _ _ => False
  | .set _ _ _ => False

theorem Silent.bind {α β : Type} {p : Prog α} {f : α → Prog β} (hp : Silent p)
    (hf : ∀ a, p = .ret a → Silent (f a)) : Silent (p.bind f) := by
  cases p with
  | ret a => exact hf a rfl
  | err | panic => trivial
  | get | set => exact hp.elim

theorem Silent.ofOption {α : Type} (o : Option α) : Silent (Prog.ofOption o) := by
  cases o <;> trivial

theorem Silent.run {α : Type} {p : Prog α} (hp : Silent p) :
    ∃ o, ∀ (h : Hasher) (s : Storage), p.run h s = (s, o) := by
  cases p with
  | ret a => exact ⟨_, fun _ _ => rfl⟩
  | err e => exact ⟨_, fun _ _ => rfl⟩
  | panic => exact ⟨_, fun _ _ => rfl⟩
  | get | set => exact hp.elim

theorem Silent.readOnly {α : Type} {p : Prog α} (hp : Silent p) : ReadOnly p := by
  cases p <;> first | trivial | exact hp.elim

/-! ## What holds when a program returns -/

/-- If the program returns, `Q` holds of the final view and the result. -/
def Post {α : Type} (p : Prog α) (w : View) (Q : View → α → Prop) : Prop :=
  ∀ w' a, p.eval w = (w', .ok a) → Q w' a

theorem Post.bind {α β : Type} {p : Prog α} {f : α → Prog β} {w : View} {R : View → α → Prop}
    {Q : View → β → Prop} (hp : Post p w R) (hf : ∀ w' a, R w' a → Post (f a) w' Q) :
    Post (p.bind f) w Q := by
  intro w' b h
  obtain ⟨w1, a, h1, h2⟩ := eval_bind_eq_ok h
  exact hf w1 a (hp _ _ h1) _ _ h2

theorem Post.ret {α : Type} {a : α} {w : View} {Q : View → α → Prop} (h : Q w a) :
    Post (.ret a) w Q := by
  intro w' b e
  cases e
  exact h

theorem Post.panic {α : Type} {w : View} {Q : View → α → Prop} : Post (.panic : Prog α) w Q := by
  intro w' b e
  cases e

theorem Post.ofOption {α : Type} {o : Option α} {w : View} {Q : View → α → Prop}
    (h : ∀ a, o = some a → Q w a) : Post (Prog.ofOption o) w Q := by
  cases o with
  | none => exact Post.panic
  | some a => exact Post.ret (h a rfl)

theorem Post.readOnly {α : Type} {p : Prog α} (hp : ReadOnly p) (w : View) :
    Post p w fun w' a => w' = w ∧ p.eval w = (w, .ok a) := by
  intro w' a h
  have := hp.eval w
  rw [h] at this
  simp only at this
  subst this
  exact ⟨rfl, h⟩

theorem Post.mono {α : Type} {p : Prog α} {w : View} {R Q : View → α → Prop} (hp : Post p w R)
    (h : ∀ w' a, R w' a → Q w' a) : Post p w Q := fun w' a e => h w' a (hp w' a e)

theorem Post.and {α : Type} {p : Prog α} {w : View} {R Q : View → α → Prop} (hp : Post p w R)
    (hq : Post p w Q) : Post p w fun w' a => R w' a ∧ Q w' a :=
  fun w' a e => ⟨hp w' a e, hq w' a e⟩

/-- `unwrap` returns exactly when the program returns. -/
theorem unwrap_ok {α : Type} {p : Prog α} {w w' : View} {a : α} :
    p.unwrap.eval w = (w', .ok a) ↔ p.eval w = (w', .ok a) := by
  rw [Prog.eval_unwrap]
  cases p.eval w with
  | mk w1 o => cases o <;> simp

theorem Post.unwrap {α : Type} {p : Prog α} {w : View} {Q : View → α → Prop} (hp : Post p w Q) :
    Post p.unwrap w Q := fun w' a e => hp w' a (unwrap_ok.1 e)

/-! ## Which keys a program writes -/

/-- All writes go to keys with `P`. -/
def Writes {α : Type} (P : Key → Prop) : Prog α → Prop
  | .ret _ => True
  | .err _ => True
  | .panic _ => True
  | .get _ f => ∀ v, Writes P (f v)
  | .set k _ p => P k ∧ Writes P p

theorem Writes.eval {α : Type} {P : Key → Prop} {p : Prog α} (hp : Writes P p) (w : View) (k : Key)
    (hk : ¬ P k) : (p.eval w).1 k = w k := by
  induction p generalizing w with
  | ret | err | panic => rfl
  | get k' f ih => exact ih _ (hp _) w
  | set k' v p ih =>
    simp only [Prog.eval]
    rw [ih hp.2, View.set_ne _ _ (fun e => hk (by rw [e]; exact hp.1))]

theorem Writes.bind {α β : Type} {P : Key → Prop} {p : Prog α} {f : α → Prog β} (hp : Writes P p)
    (hf : ∀ a, Writes P (f a)) : Writes P (p.bind f) := by
  induction p with
  | ret a => exact hf a
  | err | panic => trivial
  | get k g ih => exact fun v => ih v (hp v)
  | set k v p ih => exact ⟨hp.1, ih hp.2⟩

theorem Writes.unwrap {α : Type} {P : Key → Prop} {p : Prog α} (hp : Writes P p) :
    Writes P p.unwrap := by
  induction p with
  | ret | err | panic => trivial
  | get k g ih => exact fun v => ih v (hp v)
  | set k v p ih => exact ⟨hp.1, ih hp.2⟩

theorem Writes.mono {α : Type} {P Q : Key → Prop} (h : ∀ k, P k → Q k) {p : Prog α}
    (hp : Writes P p) : Writes Q p := by
  induction p with
  | ret | err | panic => trivial
  | get k g ih => exact fun v => ih v (hp v)
  | set k v p ih => exact ⟨h _ hp.1, ih hp.2⟩

theorem ReadOnly.writes {α : Type} {P : Key → Prop} {p : Prog α} (hp : ReadOnly p) :
    Writes P p := by
  induction p with
  | ret | err | panic => trivial
  | get k g ih => exact fun v => ih v (hp v)
  | set k v p => exact hp.elim

theorem writes_setBalance (acc : Acc) (b : U64) :
    Writes (fun k => k = .accMut acc.addr) (setBalance acc b) := by
  refine Writes.bind (readOnly_readAndDecode _ _).writes fun d => ?_
  exact ⟨rfl, trivial⟩

theorem readOnly_readSegment (a : Addr) (s : Segment) : ReadOnly (readSegment a s) := by
  intro v
  show ReadOnly (if (v.getD zeroSegment).length = segmentSize then pure (v.getD zeroSegment)
    else Prog.panic true)
  split <;> trivial

theorem readOnly_getLoop (chk : Bool) (a : Addr) (segs : List Segment) (var : Bytes) :
    ReadOnly (getLoop chk a segs var) := by
  induction segs generalizing var with
  | nil => trivial
  | cons s ss ih =>
    unfold getLoop
    refine (readOnly_readSegment a s).bind fun seg => (ReadOnly.ofOption _).bind fun n => ?_
    split
    · exact (ih _).bind fun _ => trivial
    · trivial

theorem writes_setLoop (chk : Bool) (a : Addr) (segs : List Segment) (value : Bytes) :
    Writes (fun k => ∃ i, k = .seg a i) (setLoop chk a segs value) := by
  induction segs generalizing value with
  | nil => trivial
  | cons s ss ih =>
    unfold setLoop
    refine (readOnly_readSegment a s).writes.bind fun seg =>
      (ReadOnly.ofOption _).writes.bind fun n => ?_
    split
    · exact ⟨⟨_, rfl⟩, ih _⟩
    · trivial

theorem readOnly_getVar (chk : Bool) (acc : Acc) (id : BitVec 32) (buf : Bytes) :
    ReadOnly (getVar chk acc id buf) := by
  unfold getVar
  refine (ReadOnly.ofOption _).bind fun v => ?_
  split
  · trivial
  · exact (ReadOnly.ofOption _).bind fun _ => (ReadOnly.ofOption _).bind fun _ =>
      (readOnly_getLoop _ _ _ _).bind fun _ => trivial

theorem readOnly_getVarI64 (chk : Bool) (acc : Acc) (id : BitVec 32) :
    ReadOnly (getVarI64 chk acc id) := (readOnly_getVar _ _ _ _).bind fun _ => trivial

theorem writes_setVarBytes (chk : Bool) (acc : Acc) (id : BitVec 32) (value : Bytes) :
    Writes (fun k => ∃ i, k = .seg acc.addr i) (setVarBytes chk acc id value) := by
  unfold setVarBytes
  refine (ReadOnly.ofOption _).writes.bind fun v => ?_
  split
  · trivial
  · exact (ReadOnly.ofOption _).writes.bind fun _ => (ReadOnly.ofOption _).writes.bind fun _ =>
      writes_setLoop _ _ _ _

/-! ## Values written are well formed -/

theorem safe_moveCoins (src dst : Acc) (a b amount : U64) : (moveCoins src dst a b amount).Safe := by
  unfold moveCoins
  split
  · trivial
  · refine (safe_setBalance _ _).unwrap.bind fun _ => ?_
    split
    · exact (safe_setBalance _ _).unwrap
    · trivial

theorem ReadOnly.safe {α : Type} {p : Prog α} (hp : ReadOnly p) : p.Safe := by
  induction p with
  | ret | err | panic => trivial
  | get k g ih => exact fun v => ih v (hp v)
  | set k v p => exact hp.elim

theorem safe_svmTransfer (chk : Bool) (env : Env) (mem : Bytes) (src dst : U32) (amount : U64) :
    (svmTransfer chk env mem src dst amount).Safe := by
  unfold svmTransfer
  split
  · trivial
  · refine (Prog.Safe.ofOption _).bind fun a => (Prog.Safe.ofOption _).bind fun b => ?_
    split
    · exact (readOnly_load _ _).unwrap.safe.bind fun _ => (readOnly_load _ _).unwrap.safe.bind fun _ =>
        (readOnly_balance _).unwrap.safe.bind fun _ => (readOnly_balance _).unwrap.safe.bind fun _ =>
        (safe_moveCoins _ _ _ _ _).bind fun _ => trivial
    · trivial

theorem safe_host (chk : Bool) (env : Env) (mem : Bytes) (c : HostCall) :
    (host chk env mem c).Safe := by
  have key : ∀ {α : Type} (b : Bool) (p : Prog α), p.Safe → (if b then p else .panic).Safe := by
    intro α b p hp
    split
    · exact hp
    · trivial
  cases c with
  | staticAlloc | calldataOffset | calldataLen | setReturndata | log =>
    exact (Prog.Safe.ofOption _).bind fun _ => trivial
  | get32 var =>
    refine Prog.Safe.bind (key _ _ ?_) fun _ => trivial
    exact (readOnly_getVarI64 _ _ _).unwrap.safe.bind fun _ => trivial
  | get64 var =>
    exact Prog.Safe.bind (key _ _ (readOnly_getVarI64 _ _ _).unwrap.safe) fun _ => trivial
  | set32 var value =>
    exact Prog.Safe.bind (key _ _ (safe_setVarBytes _ _ _ _).unwrap) fun _ => trivial
  | set64 var value =>
    exact Prog.Safe.bind (key _ _ (safe_setVarBytes _ _ _ _).unwrap) fun _ => trivial
  | load160 var ptr =>
    refine Prog.Safe.bind (key _ _ ?_) fun _ => trivial
    exact (Prog.Safe.ofOption _).bind fun _ => (readOnly_getVar _ _ _ _).unwrap.safe.bind fun _ =>
      trivial
  | store160 ptr var =>
    refine Prog.Safe.bind ?_ fun _ => trivial
    exact (Prog.Safe.ofOption _).bind fun _ => key _ _ (safe_setVarBytes _ _ _ _).unwrap
  | transfer src dst amount => exact (safe_svmTransfer _ _ _ _ _ _).bind fun _ => trivial

theorem safe_guest {α : Type} (chk : Bool) (g : Guest α) (env : Env) : (g.run chk env).Safe := by
  induction g generalizing env with
  | ret | trap => trivial
  | call mem c k ih => exact (safe_host _ _ _ _).bind fun r => ih _ _ _

theorem safe_wasmerCall {α : Type} (chk : Bool) (env : Env) (func : Str) (g : Guest α) :
    (wasmerCall chk env func g).Safe := by
  refine (safe_guest _ _ _).bind fun r => ?_
  split <;> trivial

theorem safe_callAlloc (chk : Bool) (m : Module) (st : m.σ) (env : Env) (mem : Bytes) (n : Nat) :
    (callAlloc chk m st env mem n).Safe := by
  unfold callAlloc
  simp only
  split
  · refine (safe_wasmerCall _ _ _ _).bind fun r => ?_
    split
    · trivial
    · split <;> trivial
  · trivial

theorem safe_runFunc (chk : Bool) (m : Module) (call : Call) (env : Env) (st : m.σ) (mem : Bytes) :
    (runFunc chk m call env st mem).Safe := by
  unfold runFunc
  split
  · trivial
  · split
    · refine (safe_callAlloc _ _ _ _ _ _).bind fun r => ?_
      split
      · trivial
      · split
        · refine (Prog.Safe.ofOption _).bind fun me => (safe_wasmerCall _ _ _ _).bind fun r => ?_
          split <;> trivial
        · trivial
    · refine (safe_wasmerCall _ _ _ _).bind fun r => ?_
      split <;> trivial

theorem safe_instantiate (chk : Bool) (m : Module) (env : Env) : (instantiate chk m env).Safe := by
  unfold instantiate
  split
  · trivial
  · refine (safe_guest _ _ _).bind fun r => ?_
    split <;> trivial

theorem readOnly_validate (call : Call) (ss : Sections) : ReadOnly (validateFuncUsage call ss) := by
  refine (ReadOnly.ofOption _).bind fun b => ?_
  split <;> split <;> trivial

theorem safe_runCall (chk : Bool) (eng : Engine) (call : Call) (ss : Sections) (env : Env) :
    (runCall chk eng call ss env).Safe := by
  refine (readOnly_validate _ _).safe.bind fun r => ?_
  split
  · trivial
  · refine (Prog.Safe.ofOption _).bind fun code => ?_
    split
    · trivial
    · refine (safe_instantiate _ _ _).bind fun r => ?_
      split
      · trivial
      · split
        · exact safe_runFunc _ _ _ _ _ _
        · trivial

theorem readOnly_loadTemplate (chk : Bool) (t : Addr) : ReadOnly (loadTemplate chk t) :=
  (readOnly_readSections _ _).unwrap

theorem safe_exec (chk : Bool) (eng : Engine) (call : Call) : (exec chk eng call).Safe :=
  (readOnly_load _ _).unwrap.safe.bind fun _ => (readOnly_templateAddr _).unwrap.safe.bind fun _ =>
    (readOnly_loadTemplate _ _).safe.bind fun _ => (readOnly_load _ _).unwrap.safe.bind fun _ =>
    safe_runCall _ _ _ _ _

theorem readOnly_buildCall (chk : Bool) (tx : Transaction) (mode : AccessMode) (func : Str)
    (input : Bytes) : ReadOnly (buildCall chk tx mode func input) :=
  (readOnly_load _ _).unwrap.bind fun _ => (readOnly_templateAddr _).unwrap.bind fun _ => trivial

/-! ## Reachable states -/

theorem reach_checkpoint {h : Hasher} {s : Storage} (hr : Reach h s) (ord : Svm.Storage.Ord) :
    Reach h (Svm.Storage.checkpoint h ord s) := hr.op (.checkpoint ord) trivial

theorem reach_commit {h : Hasher} {s : Storage} (hr : Reach h s) (ord : Svm.Storage.Ord) :
    Reach h (Svm.Storage.commit ord s).1 := hr.op (.commit ord) trivial

theorem reach_commitChanges {h : Hasher} {s : Storage} (hr : Reach h s) (o : Orders) (env : Env) :
    Reach h (commitChanges h o env s).1 := by
  have := reach_commit (reach_checkpoint hr o.checkpoint) o.commit
  unfold commitChanges
  split
  · simp only
    split
    · split <;> exact this
    · exact this
  · exact hr

theorem reach_execCall {h : Hasher} {s : Storage} (hr : Reach h s) (chk : Bool) (o : Orders)
    (eng : Engine) (call : Call) : Reach h (execCall chk h o eng call s).1 := by
  have h1 : Reach h ((exec chk eng call).run h s).1 := .prog _ (safe_exec _ _ _) hr
  unfold execCall
  simp only
  split
  · unfold outcomeToReceipt
    split
    · exact h1
    · exact reach_commitChanges h1 o _
  · exact h1
  · exact h1

end Svm.Runtime
