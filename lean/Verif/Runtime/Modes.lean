import Verif.Runtime.Isolation
import Verif.Runtime.Demo

/-!
# Access modes (C152 and C153)

`AccessMode` (`crates/host/runtime/src/func_env.rs:133-144`) says what the executing account may do with the
storage. The modes are checked by `storage` and `storage_mut` (func_env.rs:177-185) in the host functions,
whose model is `Runtime.host`; programs are `Guest`s.
-/

namespace Svm.Runtime.Modes

open Svm.Codec Svm.Account Svm.Runtime
open Svm.Storage (Hasher Storage)

/-! ## Spec -/

/-- C152: a program with read access only (func_env.rs:139-140) changes nothing, in any storage, with any
memory and host calls. -/
def C152_claim : Prop :=
  ∀ (chk : Bool) (α : Type) (g : Guest α) (env : Env), env.mode = .immutableOnly →
    ∀ (h : Hasher) (s : Storage), ((g.run chk env).run h s).1 = s

/-- The program calls `svm_transfer` on no path. -/
def NoTransfer {α : Type} : Guest α → Prop
  | .ret _ _ => True
  | .trap _ => True
  | .call _ c k => (∀ src dst amount, c ≠ .transfer src dst amount) ∧ ∀ v mem, NoTransfer (k v mem)

/-- How much a mode allows. -/
def rank : AccessMode → Nat
  | .accessDenied => 0
  | .immutableOnly => 1
  | .fullAccess => 2

/-! ## C152 -/

/-- What a host function can write with some mode; it keeps the mode. -/
theorem does_host {P : Key → Prop} {m : AccessMode} (chk : Bool) (env : Env) (hm : env.mode = m) (mem : Bytes)
    (c : HostCall) (hP : ∀ src dst amount, c = .transfer src dst amount → ∀ a, P (.accMut a))
    (hS : m = .fullAccess → ∀ i, P (.seg env.storage.addr i)) :
    Does P (fun r => r.2.2.mode = m) (host chk env mem c) := by
  have hset : ∀ id value, Does P (fun _ => True)
      (if env.canWrite then (setVarBytes chk env.storage id value).unwrap else .panic) := by
    intro id value
    split
    · rename_i hw
      have hf : m = .fullAccess := by rw [← hm]; simpa [Env.canWrite] using hw
      refine (Does.of_writes ((writes_setVarBytes chk env.storage id value).mono ?_)).unwrap
      rintro k ⟨i, rfl⟩
      exact hS hf i
    · trivial
  have key : ∀ {α : Type} (b : Bool) (p : Prog α), ReadOnly p → Does P (fun _ => True) (if b then p else .panic) := by
    intro α b p hp
    split
    · exact Does.of_writes hp.writes
    · trivial
  cases c with
  | staticAlloc size =>
    refine Does.bind (R := fun r : U32 × Env => r.2.mode = m) (Does.ofOption ?_) fun r hr => hr
    intro r hr
    unfold staticAlloc at hr
    split at hr
    · simp only at hr
      split at hr
      · cases hr
      · cases hr; exact hm
    · cases hr
  | calldataOffset | calldataLen | log =>
    exact Does.bind (Does.ofOption (Q := fun _ => True) fun _ _ => trivial) fun _ _ => hm
  | setReturndata o l =>
    refine Does.bind (R := fun r : Env => r.mode = m) (Does.ofOption ?_) fun r hr => hr
    intro r hr
    unfold setReturndata at hr
    split at hr
    · cases hr; exact hm
    · cases hr
  | get32 var =>
    exact Does.bind (key _ _ ((readOnly_getVarI64 _ _ _).unwrap.bind fun _ => trivial)) fun _ _ => hm
  | get64 var =>
    exact Does.bind (key _ _ (readOnly_getVarI64 _ _ _).unwrap) fun _ _ => hm
  | set32 var value =>
    exact Does.bind (hset _ _) fun _ _ => hm
  | set64 var value =>
    exact Does.bind (hset _ _) fun _ _ => hm
  | load160 var ptr =>
    exact Does.bind (key _ _ ((ReadOnly.ofOption _).bind fun _ =>
      (readOnly_getVar _ _ _ _).unwrap.bind fun _ => trivial)) fun _ _ => hm
  | store160 ptr var =>
    exact Does.bind (Does.bind (Does.ofOption (Q := fun _ => True) fun _ _ => trivial) fun _ _ => hset _ _)
      fun _ _ => hm
  | transfer src dst amount =>
    refine Does.bind (R := fun e : Env => e.mode = m) ?_ fun _ h => h
    unfold svmTransfer
    split
    · exact hm
    · have ht : ∀ {α : Type} {p : Prog α}, ReadOnly p → Does P (fun _ => True) p :=
        fun hp => Does.of_writes hp.writes
      have hb : ∀ (acc : Acc) (b : U64), Writes P (setBalance acc b) := fun acc b =>
        (writes_setBalance acc b).mono fun k hk => by rw [hk]; exact hP _ _ _ rfl _
      refine (ht (ReadOnly.ofOption _)).bind fun _ _ => (ht (ReadOnly.ofOption _)).bind fun _ _ => ?_
      split
      · refine (ht (readOnly_load _ _).unwrap).bind fun _ _ =>
          (ht (readOnly_load _ _).unwrap).bind fun _ _ =>
          (ht (readOnly_balance _).unwrap).bind fun _ _ =>
          (ht (readOnly_balance _).unwrap).bind fun _ _ =>
          (Does.of_writes ?_).bind fun _ _ => hm
        unfold moveCoins
        split
        · trivial
        · refine (hb _ _).unwrap.bind fun _ => ?_
          split
          · exact (hb _ _).unwrap
          · trivial
      · trivial

/-- With read access only, a program can change no names, templates or variables of accounts and no
templates: only the balances, which are kept with the counters. -/
theorem C152_balances_partial {α : Type} (chk : Bool) (g : Guest α) (env : Env) (hm : env.mode = .immutableOnly)
    {h : Hasher} (hc : NoCollision h) (s : Storage) (k : Key) (hk : ∀ a, k ≠ .accMut a) :
    view h (after h (g.run chk env) s) k = view h s k := by
  have hw : Does (fun k => ∃ a, k = .accMut a) (fun r => r.1.mode = .immutableOnly) (g.run chk env) := by
    induction g generalizing env with
    | ret | trap => exact hm
    | call mem c k ih => exact (does_host chk env hm mem c (fun _ _ _ _ a => ⟨a, rfl⟩) (fun e => by cases e)).bind fun r hr => ih _ _ _ hr
  rw [view_after hc]
  exact hw.writes.eval _ _ fun ⟨a, ha⟩ => hk a ha

/-- Without transfers nothing changes. -/
theorem C152_partial {α : Type} (chk : Bool) (g : Guest α) (hg : NoTransfer g) (env : Env)
    (hm : env.mode = .immutableOnly) (h : Hasher) (s : Storage) : ((g.run chk env).run h s).1 = s := by
  have hw : Does (fun _ => False) (fun r => r.1.mode = .immutableOnly) (g.run chk env) := by
    induction g generalizing env with
    | ret | trap => exact hm
    | call mem c k ih =>
      exact (does_host chk env hm mem c (fun _ _ _ e => absurd e (hg.1 _ _ _)) (fun e => by cases e)).bind
        fun r hr => ih _ _ (hg.2 _ _) _ hr
  have hro : ReadOnly (g.run chk env) := by
    generalize g.run chk env = p at hw
    induction p with
    | ret | err | panic => trivial
    | get k f ih => exact fun v => ih v (hw v)
    | set k v p => exact hw.1.elim
  rw [hro.run]

/-! ## C153 -/

/-- The environment with another mode. -/
def withMode (m : AccessMode) (env : Env) : Env := { env with mode := m }

/-- Whenever `p` returns, `q` does the same to the storage and returns `f` of the result. -/
def Up {α β : Type} (f : α → β) (p : Prog α) (q : Prog β) : Prop :=
  ∀ (h : Hasher) (s s' : Storage) (a : α), p.run h s = (s', .ok a) → q.run h s = (s', .ok (f a))

theorem Up.refl {α : Type} (p : Prog α) : Up id p p := fun _ _ _ _ e => e

theorem Up.panic {α β : Type} {f : α → β} {q : Prog β} {held : Bool} : Up f (.panic held) q :=
  fun _ _ _ _ e => by cases e

theorem Up.ret {α β : Type} {f : α → β} (a : α) : Up f (.ret a) (.ret (f a)) :=
  fun _ _ _ _ e => by cases e; rfl

theorem Up.bind {α β γ δ : Type} {f : α → β} {f' : γ → δ} {p : Prog α} {q : Prog β} {k : α → Prog γ}
    {k' : β → Prog δ} (hp : Up f p q) (hk : ∀ a, Up f' (k a) (k' (f a))) : Up f' (p.bind k) (q.bind k') := by
  intro h s s' c e
  rw [Prog.run_bind] at e ⊢
  cases hr : p.run h s with
  | mk s1 o =>
    rw [hr] at e
    cases o with
    | ok a =>
      rw [hp h s s1 a hr]
      exact hk a h s1 s' c e
    | err | panic => cases e

theorem Up.guard {α β : Type} {f : α → β} {b b' : Bool} (hb : b = true → b' = true) {p : Prog α} {q : Prog β}
    (h : Up f p q) : Up f (if b then p else .panic) (if b' then q else .panic) := by
  cases b with
  | false => exact Up.panic
  | true => rw [hb rfl]; exact h

theorem Up.ofOption {α β : Type} {f : α → β} {o : Option α} {o' : Option β} (h : o.map f = o') :
    Up f (Prog.ofOption o) (Prog.ofOption o') := by
  subst h
  cases o with
  | none => exact Up.panic
  | some a => exact Up.ret a

theorem Does.result {α : Type} {P : Key → Prop} {Q : α → Prop} {p : Prog α} (hp : Does P Q p) {h : Hasher}
    {s s' : Storage} {a : α} (e : p.run h s = (s', .ok a)) : Q a := by
  induction p generalizing s with
  | ret b => cases e; exact hp
  | err | panic => cases e
  | get k f ih =>
    rw [Prog.run, get_view] at e
    exact ih _ (hp _) e
  | set k v p ih => exact ih hp.2 e

/-- With more rights a host function that returns does the same. -/
theorem host_up (chk : Bool) (env : Env) (m : AccessMode) (hle : rank env.mode ≤ rank m) (mem : Bytes)
    (c : HostCall) : Up (fun r : HostVal × Bytes × Env => (r.1, r.2.1, withMode m r.2.2)) (host chk env mem c)
      (host chk (withMode m env) mem c) := by
  have hr : env.canRead = true → (withMode m env).canRead = true := by
    unfold withMode Env.canRead
    revert hle
    cases env.mode <;> cases m <;> simp [rank]
  have hw : env.canWrite = true → (withMode m env).canWrite = true := by
    unfold withMode Env.canWrite
    revert hle
    cases env.mode <;> cases m <;> simp [rank]
  cases c with
  | staticAlloc size =>
    refine Up.bind (f := fun r : U32 × Env => (r.1, withMode m r.2)) (Up.ofOption ?_) fun r => Up.ret _
    unfold staticAlloc withMode
    split
    · simp only
      split <;> rfl
    · rfl
  | calldataOffset | calldataLen => exact Up.bind (Up.refl _) fun r => Up.ret _
  | log o l => exact Up.bind (Up.refl _) fun r => Up.ret _
  | setReturndata o l =>
    refine Up.bind (f := withMode m) (Up.ofOption ?_) fun r => Up.ret _
    unfold setReturndata withMode
    simp only
    split <;> rfl
  | get32 var | get64 var | set32 var value | set64 var value | load160 var ptr =>
    first
      | exact Up.bind (Up.guard hr (Up.refl _)) fun r => Up.ret _
      | exact Up.bind (Up.guard hw (Up.refl _)) fun r => Up.ret _
  | store160 ptr var =>
    exact Up.bind (f := id) (Up.bind (Up.refl _) fun r => Up.guard hw (Up.refl _)) fun r => Up.ret _
  | transfer src dst amount =>
    refine Up.bind (f := withMode m) ?_ fun r => Up.ret _
    unfold svmTransfer
    split
    · exact Up.ret _
    · refine Up.bind (Up.refl _) fun _ => Up.bind (Up.refl _) fun _ => Up.guard hr ?_
      refine Up.bind (Up.refl _) fun _ => Up.bind (Up.refl _) fun _ => Up.bind (Up.refl _) fun _ =>
        Up.bind (Up.refl _) fun _ => Up.bind (Up.refl _) fun _ => Up.ret _

theorem guest_up {α : Type} (chk : Bool) (g : Guest α) (env : Env) (m : AccessMode)
    (hle : rank env.mode ≤ rank m) : Up (fun r : Env × Except Str (α × Bytes) => (withMode m r.1, r.2))
      (g.run chk env) (g.run chk (withMode m env)) := by
  induction g generalizing env with
  | ret | trap => exact Up.ret _
  | call mem c k ih =>
    intro h s s' a e
    have e : ((host chk env mem c).bind fun r => (k r.1 r.2.1).run chk r.2.2).run h s = (s', .ok a) := e
    show ((host chk (withMode m env) mem c).bind fun r => (k r.1 r.2.1).run chk r.2.2).run h s = _
    rw [Prog.run_bind] at e ⊢
    cases hr : (host chk env mem c).run h s with
    | mk s1 o =>
      rw [hr] at e
      cases o with
      | ok r =>
        rw [host_up chk env m hle mem c h s s1 r hr]
        have hmode : r.2.2.mode = env.mode := Does.result (does_host (P := fun _ => True) chk env rfl mem c
          (fun _ _ _ _ _ => trivial) fun _ _ => trivial) hr
        refine ih _ _ _ ?_ h s1 s' a e
        rw [hmode]
        exact hle
      | err | panic => cases e

/-- C153: a program that returns or traps with some rights does exactly the same with more: the same
changes, the same result and the same environment apart from the mode. -/
theorem C153_more_rights {α : Type} (chk : Bool) (g : Guest α) (env : Env) (m : AccessMode)
    (hle : rank env.mode ≤ rank m) (h : Hasher) (s s' : Storage) (env' : Env) (r : Except Str (α × Bytes))
    (hrun : (g.run chk env).run h s = (s', .ok (env', r))) :
    (g.run chk { env with mode := m }).run h s = (s', .ok ({ env' with mode := m }, r)) :=
  guest_up chk g env m hle h s s' _ hrun

/-! ## What goes wrong -/

/-- `q` does the same as `p` and returns `f` of the result. -/
def Like {α β : Type} (f : α → β) (p : Prog α) (q : Prog β) : Prop :=
  ∀ (h : Hasher) (s : Storage), q.run h s = (p.bind fun a => .ret (f a)).run h s

theorem Like.refl {α : Type} (p : Prog α) : Like id p p := by
  intro h s
  rw [Prog.run_bind]
  cases hr : p.run h s with
  | mk s1 o => cases o <;> rfl

theorem Like.bind {α β γ δ : Type} {f : α → β} {f' : γ → δ} {p : Prog α} {q : Prog β} {k : α → Prog γ}
    {k' : β → Prog δ} (hp : Like f p q) (hk : ∀ a, Like f' (k a) (k' (f a))) :
    Like f' (p.bind k) (q.bind k') := by
  intro h s
  rw [Prog.run_bind, Prog.run_bind, Prog.run_bind, hp h s, Prog.run_bind]
  cases hr : p.run h s with
  | mk s1 o =>
    cases o with
    | ok a =>
      simp only [Prog.run]
      rw [hk a h s1, Prog.run_bind]
      rfl
    | err | panic => rfl

theorem Like.ret {α β : Type} {f : α → β} (a : α) : Like f (.ret a) (.ret (f a)) := fun _ _ => rfl

/-- C152, what goes wrong: with read access only, `svm_transfer` does all that it does with full access, and
panics only if it does so with full access. -/
theorem C152_transfer (chk : Bool) (env : Env) (hm : env.mode = .immutableOnly) (mem : Bytes) (src dst : U32)
    (amount : U64) (h : Hasher) (s : Storage) :
    after h (host chk env mem (.transfer src dst amount)) s =
      after h (host chk { env with mode := .fullAccess } mem (.transfer src dst amount)) s ∧
    (out h (host chk env mem (.transfer src dst amount)) s = .panic ↔
      out h (host chk { env with mode := .fullAccess } mem (.transfer src dst amount)) s = .panic) := by
  have key : Like (fun r : HostVal × Bytes × Env => (r.1, r.2.1, withMode .fullAccess r.2.2))
      (host chk env mem (.transfer src dst amount))
      (host chk (withMode .fullAccess env) mem (.transfer src dst amount)) := by
    refine Like.bind (f := withMode .fullAccess) ?_ fun r => Like.ret _
    unfold svmTransfer
    split
    · exact Like.ret _
    · refine Like.bind (Like.refl _) fun _ => Like.bind (Like.refl _) fun _ => ?_
      rw [if_pos (by simp [Env.canRead, hm]), if_pos (by simp [Env.canRead, withMode])]
      refine Like.bind (Like.refl _) fun _ => Like.bind (Like.refl _) fun _ => Like.bind (Like.refl _) fun _ =>
        Like.bind (Like.refl _) fun _ => Like.bind (Like.refl _) fun _ => Like.ret _
  have e := key h s
  rw [Prog.run_bind] at e
  unfold after out
  have e' : (host chk { env with mode := .fullAccess } mem (.transfer src dst amount)).run h s = _ := e
  rw [e']
  cases (host chk env mem (.transfer src dst amount)).run h s with
  | mk s1 o => cases o <;> simp [Prog.run]

/-- The claim is false: the coins of account 1 go to account 2. -/
theorem C152_claim_false : ¬ C152_claim := by
  intro hcl
  obtain ⟨h, hc⟩ := exists_noCollision
  have h1 := hcl true Unit (.call demoMem (.transfer 0 20 3) fun _ mem => .ret () mem)
    { demoEnv with mode := .immutableOnly } rfl h (demo h 10 5)
  have h2 : bal h (after h ((Guest.call demoMem (.transfer 0 20 3) fun _ mem => Guest.ret () mem).run true
      { demoEnv with mode := .immutableOnly }) (demo h 10 5)) (exampleAddr 1) = some 7 := by
    rw [bal_money hc, view_after hc, view_demo hc]
    decide +kernel
  have h3 : bal h (demo h 10 5) (exampleAddr 1) = some 10 := by
    rw [bal_money hc, view_demo hc]
    decide +kernel
  unfold after at h2
  rw [h1, h3] at h2
  cases h2

/-- Non-vacuity of C153: a program that logs without any rights; and read access is enough to read. -/
example : ∃ h, NoCollision h ∧
    out h ((Guest.call demoMem (.log 0 2) fun _ m => Guest.ret () m).run true
      { demoEnv with mode := .accessDenied }) (demo h 10 5) =
        .ok ({ demoEnv with mode := .accessDenied, logs := [[1, 1]] }, .ok ((), demoMem)) ∧
    out h (host true { demoEnv with mode := .immutableOnly } demoMem (.get32 4)) (demo h 10 5) =
      .ok (.i32 0, demoMem, { demoEnv with mode := .immutableOnly }) := by
  obtain ⟨h, hc⟩ := exists_noCollision
  refine ⟨h, hc, ?_, ?_⟩
  · rw [out_eval hc]; rfl
  · rw [out_eval hc, view_demo hc]
    decide +kernel

/-- Non-vacuity of `C152_partial`. -/
example : NoTransfer (Guest.call demoMem (.get32 4) fun _ mem => Guest.ret () mem) :=
  ⟨fun _ _ _ => by simp, fun _ _ => trivial⟩

end Svm.Runtime.Modes
