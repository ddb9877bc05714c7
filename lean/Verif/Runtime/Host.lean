import Verif.Runtime.Demo

/-!
# Properties C19, C24, C25 and C64: host calls of running programs
-/

namespace Svm.Runtime

open Svm.Codec Svm.Account
open Svm.Storage (Hasher Storage)
open Svm.Layout (FixedLayout RawVar)

/-! ## C19 -/

theorem leNat_zeros (n : Nat) : leNat (List.replicate n 0) = 0 := by
  induction n with
  | zero => rfl
  | succ n ih => simp [List.replicate_succ, leNat, ih]

theorem natLE_length (n x : Nat) : (natLE n x).length = n := by
  induction n generalizing x with
  | zero => rfl
  | succ n ih => simp [natLE, ih]

theorem leNat_take (n k x m : Nat) (hk : k ≤ n) :
    leNat ((natLE n x).take k ++ List.replicate m 0) = x % 256 ^ k := by
  induction k generalizing n x with
  | zero => simp [leNat_zeros, Nat.mod_one]
  | succ k ih =>
    obtain ⟨n, rfl⟩ : ∃ n', n = n' + 1 := ⟨n - 1, by omega⟩
    simp only [natLE, List.take_succ_cons, List.cons_append, leNat]
    rw [ih n (x / 256) (by omega),
      show (UInt8.ofNat (x % 256)).toNat = x % 256 by simp [UInt8.toNat_ofNat']]
    rw [show 256 ^ (k + 1) = 256 * 256 ^ k by rw [Nat.pow_succ, Nat.mul_comm], Nat.mod_mul]

theorem setWidth_ofNat_mod (x n : Nat) :
    (BitVec.ofNat 64 (x % 256 ^ n)).setWidth 32 = BitVec.ofNat 32 (x % 256 ^ n) := by
  apply BitVec.eq_of_toNat_eq
  simp only [BitVec.toNat_setWidth, BitVec.toNat_ofNat]
  exact Nat.mod_mod_of_dvd _ (by decide)

theorem set_get_eval {h : Hasher} (hc : NoCollision h) {s : Storage} (hr : Reach h s) (chk : Bool)
    {acc : Acc} (hl : LayoutOk acc.layout) {id : U32} {v : RawVar} (hg : acc.layout.get id = some v)
    (hpos : 0 < v.byteSize.toNat) (n x : Nat) (hn : v.byteSize.toNat ≤ n)
    (h8 : v.byteSize.toNat ≤ 8) :
    ∃ w', (setVarBytes chk acc id (natLE n x)).eval (view h s) = (w', .ok ()) ∧
      (getVarI64 chk acc id).eval w' = (w', .ok (BitVec.ofNat 64 (x % 256 ^ v.byteSize.toNat))) := by
  obtain ⟨h1, h2⟩ := C15_read_after_write hc hr chk hl hg hpos (natLE n x)
    (List.replicate 8 0) (by rw [natLE_length]; exact hn) (by simp; omega)
  rw [out_eval hc] at h1 h2
  rw [view_after hc] at h2
  refine ⟨((setVarBytes chk acc id (natLE n x)).eval (view h s)).1, Prod.ext rfl h1, ?_⟩
  generalize ((setVarBytes chk acc id (natLE n x)).eval (view h s)).1 = w' at h2
  have e3 : (getVar chk acc id (List.replicate 8 0)).eval w' = (w', .ok _) :=
    Prod.ext (getVar_view _ _ _ _ _) h2
  unfold getVarI64
  rw [Prog.bind_eq, Prog.eval_bind_ok e3, List.drop_replicate, leNat_take _ _ _ _ hn]
  rfl

/-- C19, 32 bits: for every account layout coming from a template, every variable of 1 to 4 bytes and
every integer, `set32` succeeds and a later `get32` (with whatever memory) returns the integer modulo
256 to the number of bytes of the variable. -/
theorem C19_roundtrip32 {h : Hasher} (hc : NoCollision h) {s : Storage} (hr : Reach h s)
    (chk : Bool) (env : Env) (hm : env.mode = .fullAccess) (hl : LayoutOk env.storage.layout)
    {id : U32} {v : RawVar} (hg : env.storage.layout.get id = some v)
    (hpos : 0 < v.byteSize.toNat) (hle : v.byteSize.toNat ≤ 4) (x : U32) (mem mem' : Bytes) :
    out h (host chk env mem (.set32 id x)) s = .ok (.unit, mem, env) ∧
    out h (host chk env mem' (.get32 id)) (after h (host chk env mem (.set32 id x)) s) =
      .ok (.i32 (BitVec.ofNat 32 (x.toNat % 256 ^ v.byteSize.toNat)), mem', env) := by
  obtain ⟨w', e1, e2⟩ := set_get_eval hc hr chk hl hg hpos 4 x.toNat hle (by omega)
  have e3 : (host chk env mem (.set32 id x)).eval (view h s) = (w', .ok (.unit, mem, env)) := by
    show ((set32 chk env id x).bind _).eval (view h s) = _
    unfold set32 setVarI32
    rw [if_pos (by simp [Env.canWrite, hm]), Prog.eval_bind_ok (unwrap_ok.2 e1)]
    rfl
  refine ⟨by rw [out_eval hc, e3], ?_⟩
  rw [out_eval hc, view_after hc, e3]
  have e5 : (get32 chk env id).eval w' =
      (w', .ok (BitVec.ofNat 32 (x.toNat % 256 ^ v.byteSize.toNat))) := by
    unfold get32
    rw [if_pos (by simp [Env.canRead, hm]), Prog.bind_eq, Prog.eval_bind_ok (unwrap_ok.2 e2),
      setWidth_ofNat_mod]
    rfl
  show (((get32 chk env id).bind _).eval w').2 = _
  rw [Prog.eval_bind_ok e5]
  rfl

/-- C19, 64 bits: the same for variables of 1 to 8 bytes. -/
theorem C19_roundtrip64 {h : Hasher} (hc : NoCollision h) {s : Storage} (hr : Reach h s)
    (chk : Bool) (env : Env) (hm : env.mode = .fullAccess) (hl : LayoutOk env.storage.layout)
    {id : U32} {v : RawVar} (hg : env.storage.layout.get id = some v)
    (hpos : 0 < v.byteSize.toNat) (hle : v.byteSize.toNat ≤ 8) (x : U64) (mem mem' : Bytes) :
    out h (host chk env mem (.set64 id x)) s = .ok (.unit, mem, env) ∧
    out h (host chk env mem' (.get64 id)) (after h (host chk env mem (.set64 id x)) s) =
      .ok (.i64 (BitVec.ofNat 64 (x.toNat % 256 ^ v.byteSize.toNat)), mem', env) := by
  obtain ⟨w', e1, e2⟩ := set_get_eval hc hr chk hl hg hpos 8 x.toNat hle hle
  have e3 : (host chk env mem (.set64 id x)).eval (view h s) = (w', .ok (.unit, mem, env)) := by
    show ((set64 chk env id x).bind _).eval (view h s) = _
    unfold set64 setVarI64
    rw [if_pos (by simp [Env.canWrite, hm]), Prog.eval_bind_ok (unwrap_ok.2 e1)]
    rfl
  refine ⟨by rw [out_eval hc, e3], ?_⟩
  rw [out_eval hc, view_after hc, e3]
  have e5 : (get64 chk env id).eval w' =
      (w', .ok (BitVec.ofNat 64 (x.toNat % 256 ^ v.byteSize.toNat))) := by
    unfold get64
    rw [if_pos (by simp [Env.canRead, hm])]
    exact unwrap_ok.2 e2
  show (((get64 chk env id).bind _).eval w').2 = _
  rw [Prog.eval_bind_ok e5]
  rfl

/-- C19 for the functions of `AccountStorage` themselves, which other parts of the node use: what
`set_var_i32` (`set_var_i64`) stores, `get_var_i32` (`get_var_i64`) loads. -/
theorem C19_storage {h : Hasher} (hc : NoCollision h) {s : Storage} (hr : Reach h s) (chk : Bool) {acc : Acc}
    (hl : LayoutOk acc.layout) {id : U32} {v : RawVar} (hg : acc.layout.get id = some v)
    (hpos : 0 < v.byteSize.toNat) :
    (v.byteSize.toNat ≤ 4 → ∀ x : U32, out h (setVarI32 chk acc id x) s = .ok () ∧
      out h (getVarI32 chk acc id) (after h (setVarI32 chk acc id x) s) =
        .ok (BitVec.ofNat 32 (x.toNat % 256 ^ v.byteSize.toNat))) ∧
    (v.byteSize.toNat ≤ 8 → ∀ x : U64, out h (setVarI64 chk acc id x) s = .ok () ∧
      out h (getVarI64 chk acc id) (after h (setVarI64 chk acc id x) s) =
        .ok (BitVec.ofNat 64 (x.toNat % 256 ^ v.byteSize.toNat))) := by
  constructor
  · intro h4 x
    obtain ⟨h1, h2⟩ := C15_read_after_write hc hr chk hl hg hpos (natLE 4 x.toNat)
      (List.replicate 4 0) (by rw [natLE_length]; exact h4) (by simp; omega)
    refine ⟨h1, ?_⟩
    rw [out_eval hc] at h2 ⊢
    unfold getVarI32 setVarI32
    generalize view h (after h (setVarBytes chk acc id (natLE 4 x.toNat)) s) = w' at h2
    have e3 : (getVar chk acc id (List.replicate 4 0)).eval w' = (w', .ok _) :=
      Prod.ext (getVar_view _ _ _ _ _) h2
    rw [Prog.bind_eq, Prog.eval_bind_ok e3, List.drop_replicate, leNat_take _ _ _ _ h4]
    rfl
  · intro h8 x
    obtain ⟨w', e1, e2⟩ := set_get_eval hc hr chk hl hg hpos 8 x.toNat h8 h8
    have e3 : (setVarI64 chk acc id x).eval (view h s) = (w', .ok ()) := e1
    refine ⟨by rw [out_eval hc, e3], ?_⟩
    rw [out_eval hc, view_after hc, e3, e2]

/-- Non-vacuity of C19: a variable of 4 bytes of an account in a reachable state. -/
example : ∃ h, NoCollision h ∧ Reach h (demo h 10 5) ∧ demoEnv.mode = .fullAccess ∧
    LayoutOk demoEnv.storage.layout ∧ demoEnv.storage.layout.get 4 = some ⟨4, 20, 4⟩ := by
  obtain ⟨h, hc⟩ := exists_noCollision
  refine ⟨h, hc, reach_demo h _ _, rfl, ?_, by decide⟩
  refine (load_layoutOk (chk := true) (acc := demoEnv.storage) hc (s := demo h 10 5)
    (a := exampleAddr 2) ?_).1
  rw [out_eval hc, view_demo hc]
  rfl

/-! ## C24 -/

/-- A host function called with access denied reads and writes no key, and leaves the mode. -/
theorem silent_host (chk : Bool) (env : Env) (hm : env.mode = .accessDenied) (mem : Bytes)
    (c : HostCall) : Silent (host chk env mem c) ∧
      ∀ r, host chk env mem c = .ret r → r.2.2.mode = .accessDenied := by
  have hread : env.canRead = false := by simp [Env.canRead, hm]
  have hwrite : env.canWrite = false := by simp [Env.canWrite, hm]
  have key : ∀ {α : Type} {p : Prog α} (f : α → HostVal × Bytes × Env), Silent p →
      (∀ x, p = .ret x → (f x).2.2.mode = .accessDenied) →
      Silent (p.bind fun x => .ret (f x)) ∧
        ∀ r, (p.bind fun x => .ret (f x)) = .ret r → r.2.2.mode = .accessDenied := by
    intro α p f hp hf
    cases p with
    | ret x => exact ⟨trivial, fun r hr => by cases hr; exact hf x rfl⟩
    | err | panic => exact ⟨trivial, fun r hr => by cases hr⟩
    | get | set => exact hp.elim
  have hopt : ∀ {α : Type} {o : Option α} {x : α}, Prog.ofOption o = .ret x → o = some x := by
    intro α o x ho
    cases o with
    | none => cases ho
    | some y => cases ho; rfl
  cases c with
  | staticAlloc size =>
    refine key _ (Silent.ofOption _) fun r hr => ?_
    have hr := hopt hr
    unfold staticAlloc at hr
    split at hr
    · simp only at hr
      split at hr
      · cases hr
      · cases hr; exact hm
    · cases hr
  | calldataOffset => exact key _ (Silent.ofOption _) fun r hr => hm
  | calldataLen => exact key _ (Silent.ofOption _) fun r hr => hm
  | setReturndata offset length =>
    refine key _ (Silent.ofOption _) fun r hr => ?_
    have hr := hopt hr
    unfold setReturndata at hr
    split at hr
    · cases hr; exact hm
    · cases hr
  | get32 var =>
    refine key (p := get32 chk env var) _ ?_ fun r hr => hm
    unfold get32; rw [hread]; trivial
  | set32 var value =>
    refine key (p := set32 chk env var value) _ ?_ fun r hr => hm
    unfold set32; rw [hwrite]; trivial
  | get64 var =>
    refine key (p := get64 chk env var) _ ?_ fun r hr => hm
    unfold get64; rw [hread]; trivial
  | set64 var value =>
    refine key (p := set64 chk env var value) _ ?_ fun r hr => hm
    unfold set64; rw [hwrite]; trivial
  | load160 var ptr =>
    refine key (p := load160 chk env mem var ptr) _ ?_ fun r hr => hm
    unfold load160; rw [hread]; trivial
  | store160 ptr var =>
    refine key (p := store160 chk env mem ptr var) _ ?_ fun r hr => hm
    unfold store160
    rw [hwrite]
    exact (Silent.ofOption _).bind fun _ _ => trivial
  | log offset length => exact key _ (Silent.ofOption _) fun r hr => hm
  | transfer src dst amount =>
    refine key (p := svmTransfer chk env mem src dst amount) _ ?_ fun r hr => ?_
    · unfold svmTransfer
      rw [hread]
      split
      · trivial
      · exact (Silent.ofOption _).bind fun _ _ => (Silent.ofOption _).bind fun _ _ => trivial
    · unfold svmTransfer at hr
      rw [hread] at hr
      split at hr
      · cases hr; exact hm
      · cases h1 : readAddr env mem src with
        | none => rw [h1] at hr; cases hr
        | some a =>
          cases h2 : readAddr env mem dst with
          | none => rw [h1, h2] at hr; cases hr
          | some b => rw [h1, h2] at hr; cases hr

theorem silent_guest {α : Type} (chk : Bool) (g : Guest α) (env : Env)
    (hm : env.mode = .accessDenied) : Silent (g.run chk env) ∧
      ∀ r, g.run chk env = .ret r → r.1.mode = .accessDenied := by
  induction g generalizing env with
  | ret a mem => exact ⟨trivial, fun r hr => by cases hr; exact hm⟩
  | trap msg => exact ⟨trivial, fun r hr => by cases hr; exact hm⟩
  | call mem c k ih =>
    obtain ⟨h1, h2⟩ := silent_host chk env hm mem c
    have e : (Guest.call mem c k).run chk env =
      (host chk env mem c).bind fun r => (k r.1 r.2.1).run chk r.2.2 := rfl
    constructor
    · rw [e]
      exact h1.bind fun r hr => (ih _ _ _ (h2 r hr)).1
    · intro r hr
      rw [e] at hr
      cases hp : host chk env mem c with
      | ret x =>
        rw [hp] at hr
        exact (ih _ _ _ (h2 x hp)).2 r hr
      | err | panic => rw [hp] at hr; cases hr
      | get | set => rw [hp] at h1; exact h1.elim

/-- C24: a program running with access denied, whatever host calls it makes with whatever arguments
and memory. There is one outcome for all storages (so nothing stored is observed), and every storage
is left as it is. -/
theorem C24_denied {α : Type} (chk : Bool) (g : Guest α) (env : Env)
    (hm : env.mode = .accessDenied) :
    ∃ o, ∀ (h : Hasher) (s : Storage), (g.run chk env).run h s = (s, o) :=
  (silent_guest chk g env hm).1.run

/-- C24: the calls that read or write the account do not return at all. -/
theorem C24_denied_call (chk : Bool) (env : Env) (hm : env.mode = .accessDenied) (mem : Bytes)
    (h : Hasher) (s : Storage) (var ptr x : U32) (y : U64) (c : HostCall)
    (hcall : c ∈ [HostCall.get32 var, .set32 var x, .get64 var, .set64 var y, .load160 var ptr,
      .store160 ptr var]) : (host chk env mem c).run h s = (s, .panic) := by
  have hread : env.canRead = false := by simp [Env.canRead, hm]
  have hwrite : env.canWrite = false := by simp [Env.canWrite, hm]
  simp only [List.mem_cons, List.not_mem_nil, or_false] at hcall
  rcases hcall with rfl | rfl | rfl | rfl | rfl | rfl
  · simp only [host, get32, hread]; rfl
  · simp only [host, set32, hwrite]; rfl
  · simp only [host, get64, hread]; rfl
  · simp only [host, set64, hwrite]; rfl
  · simp only [host, load160, hread]; rfl
  · simp only [host, store160, hwrite]
    cases readMem env mem ptr.toNat 20 <;> rfl

/-- C24 for the only use of the mode inside of a call: the allocation function of the program always
runs with access denied, and the previous mode is back when it has returned. -/
theorem C24_alloc (chk : Bool) (m : Module) (st : m.σ) (env : Env) (mem : Bytes) (n : Nat) :
    ∃ o, (∀ (h : Hasher) (s : Storage), (callAlloc chk m st env mem n).run h s = (s, o)) ∧
      ∀ env' x, o = .ok (env', .ok x) → env'.mode = env.mode := by
  obtain ⟨h1, h2⟩ : Silent (callAlloc chk m st env mem n) ∧
      ∀ env' x, callAlloc chk m st env mem n = .ret (env', .ok x) → env'.mode = env.mode := by
    unfold callAlloc
    simp only
    split
    · have hg := silent_guest chk (m.invoke st svmAlloc [.i32 (BitVec.ofNat 32 n)] mem)
        { env with mode := .accessDenied } rfl
      unfold wasmerCall
      simp only [Prog.bind_eq]
      cases hr : (m.invoke st svmAlloc [.i32 (BitVec.ofNat 32 n)] mem).run chk
          { env with mode := .accessDenied } with
      | ret r =>
        obtain ⟨e1, r⟩ := r
        cases r with
        | error msg => exact ⟨trivial, fun env' x hx => by cases hx⟩
        | ok y =>
          obtain ⟨⟨st', vals⟩, mem'⟩ := y
          simp only [Prog.bind, Prog.pure_eq]
          split
          · exact ⟨trivial, fun env' x hx => by cases hx; rfl⟩
          · exact ⟨trivial, fun env' x hx => by cases hx⟩
      | err | panic => exact ⟨trivial, fun env' x hx => by cases hx⟩
      | get | set => rw [hr] at hg; exact hg.1.elim
    · exact ⟨trivial, fun env' x hx => by cases hx⟩
  cases hp : callAlloc chk m st env mem n with
  | ret r =>
    refine ⟨.ok r, fun h s => rfl, fun env' x hx => ?_⟩
    cases hx
    exact h2 env' x hp
  | err e => exact ⟨.err e, fun h s => rfl, fun env' x hx => by cases hx⟩
  | panic => exact ⟨.panic, fun h s => rfl, fun env' x hx => by cases hx⟩
  | get | set => rw [hp] at h1; exact h1.elim

/-- Non-vacuity of C24: with access denied a program may log and return; with full access the same
environment lets it read. -/
example : ∃ h, NoCollision h ∧
    out h ((Guest.call demoMem (.log 0 2) fun _ m => Guest.ret () m).run true
      { demoEnv with mode := .accessDenied }) (demo h 10 5) =
        .ok ({ demoEnv with mode := .accessDenied, logs := [[1, 1]] }, .ok ((), demoMem)) ∧
    out h (host true demoEnv demoMem (.get32 4)) (demo h 10 5) = .ok (.i32 0, demoMem, demoEnv) := by
  obtain ⟨h, hc⟩ := exists_noCollision
  refine ⟨h, hc, ?_, ?_⟩
  · rw [out_eval hc]; rfl
  · rw [out_eval hc, view_demo hc]
    decide +kernel

/-! ## C25 -/

/-- From `env` and `w` to `env'` and `w'`: touched accounts are only added, and every account whose
balance record has changed is among them. -/
structure Grow (env : Env) (w : View) (env' : Env) (w' : View) : Prop where
  mono : ∀ a ∈ env.touched, a ∈ env'.touched
  changed : ∀ a, a ∉ env'.touched → w' (.accMut a) = w (.accMut a)

theorem Grow.refl (env : Env) (w : View) : Grow env w env w := ⟨fun _ h => h, fun _ _ => rfl⟩

theorem Grow.trans {e1 e2 e3 : Env} {w1 w2 w3 : View} (h1 : Grow e1 w1 e2 w2)
    (h2 : Grow e2 w2 e3 w3) : Grow e1 w1 e3 w3 :=
  ⟨fun a h => h2.mono a (h1.mono a h),
    fun a h => (h2.changed a h).trans (h1.changed a fun h' => h (h2.mono a h'))⟩

theorem Grow.same {e1 e2 : Env} (h : e2.touched = e1.touched) {w1 w2 : View}
    (hw : ∀ a, w2 (.accMut a) = w1 (.accMut a)) : Grow e1 w1 e2 w2 :=
  ⟨fun a ha => by rw [h]; exact ha, fun a _ => hw a⟩

theorem mem_setInsert {l : List Addr} {a b : Addr} :
    b ∈ setInsert l a ↔ b ∈ l ∨ b = a := by
  unfold setInsert
  split
  · rename_i h
    exact ⟨.inl, fun h' => h'.elim id fun e => by rw [e]; exact h⟩
  · simp

theorem Post.of_readOnly {α : Type} {p : Prog α} (hp : ReadOnly p) {w : View} {Q : View → α → Prop}
    (h : ∀ a, Q w a) : Post p w Q := by
  intro w' a e
  have := hp.eval w
  rw [e] at this
  simp only at this
  subst this
  exact h a

theorem Post.of_writes {α : Type} {P : Key → Prop} {p : Prog α} (hp : Writes P p) {w : View} :
    Post p w fun w' _ => ∀ k, ¬ P k → w' k = w k := by
  intro w' a e k hk
  have := hp.eval w k hk
  rwa [e] at this

theorem grow_host (chk : Bool) (env : Env) (mem : Bytes) (c : HostCall) (w : View) :
    Post (host chk env mem c) w fun w' r => Grow env w r.2.2 w' := by
  have hseg : ∀ {p : Prog Unit} {a : Addr}, Writes (fun k => ∃ i, k = .seg a i) p →
      ∀ m : Bytes, Post ((if env.canWrite then p.unwrap else .panic).bind fun _ =>
        (pure (HostVal.unit, m, env) : Prog (HostVal × Bytes × Env))) w
          fun w' r => Grow env w r.2.2 w' := by
    intro p a hp m
    split
    · refine Post.bind (Post.of_writes hp.unwrap) fun w1 u h1 => ?_
      exact Post.ret (Grow.same rfl fun b => h1 _ (by simp))
    · exact Post.bind Post.panic (R := fun _ _ => False) fun w1 u h1 => h1.elim
  have hro : ∀ {α : Type} {p : Prog α} (f : α → HostVal × Bytes), ReadOnly p →
      Post (p.bind fun x => (pure ((f x).1, (f x).2, env) : Prog (HostVal × Bytes × Env))) w
          fun w' r => Grow env w r.2.2 w' := by
    intro α p f hp
    refine Post.bind (Post.of_readOnly hp (Q := fun w' _ => w' = w) fun _ => rfl) fun w1 x h1 => ?_
    exact Post.ret (Grow.same rfl fun b => by rw [h1])
  cases c with
  | staticAlloc size =>
    refine Post.bind (Post.ofOption (Q := fun w' r => w' = w ∧ r.2.touched = env.touched) fun r hr =>
      ⟨rfl, ?_⟩) fun w1 r h1 => Post.ret (Grow.same h1.2 fun b => by rw [h1.1])
    unfold staticAlloc at hr
    split at hr
    · simp only at hr
      split at hr
      · cases hr
      · cases hr; rfl
    · cases hr
  | calldataOffset => exact hro (fun c : Nat × Nat => (.i32 (BitVec.ofNat 32 c.1), mem)) (ReadOnly.ofOption _)
  | calldataLen => exact hro (fun c : Nat × Nat => (.i32 (BitVec.ofNat 32 c.2), mem)) (ReadOnly.ofOption _)
  | setReturndata offset length =>
    refine Post.bind (Post.ofOption (Q := fun w' e => w' = w ∧ e.touched = env.touched) fun r hr =>
      ⟨rfl, ?_⟩) fun w1 r h1 => Post.ret (Grow.same h1.2 fun b => by rw [h1.1])
    unfold setReturndata at hr
    split at hr
    · cases hr; rfl
    · cases hr
  | log offset length =>
    exact Post.bind (Post.ofOption (Q := fun w' _ => w' = w) fun r hr => rfl)
      fun w1 r h1 => Post.ret (by subst h1; exact ⟨fun _ h => h, fun _ _ => rfl⟩)
  | get32 var =>
    refine hro (p := get32 chk env var) (fun x => (.i32 x, mem)) ?_
    unfold get32
    split
    · exact (readOnly_getVarI64 _ _ _).unwrap.bind fun _ => trivial
    · trivial
  | get64 var =>
    refine hro (p := get64 chk env var) (fun x => (.i64 x, mem)) ?_
    unfold get64
    split
    · exact (readOnly_getVarI64 _ _ _).unwrap
    · trivial
  | load160 var ptr =>
    refine hro (p := load160 chk env mem var ptr) (fun x => (.unit, x)) ?_
    unfold load160
    split
    · exact (ReadOnly.ofOption _).bind fun _ => (readOnly_getVar _ _ _ _).unwrap.bind fun _ => trivial
    · trivial
  | set32 var value => exact hseg (writes_setVarBytes _ _ _ _) mem
  | set64 var value => exact hseg (writes_setVarBytes _ _ _ _) mem
  | store160 ptr var =>
    simp only [host, store160]
    cases readMem env mem ptr.toNat 20 with
    | none => exact Post.panic
    | some bs => exact hseg (writes_setVarBytes chk env.storage var bs) mem
  | transfer src dst amount =>
    refine Post.bind (p := svmTransfer chk env mem src dst amount)
      (R := fun w' e => Grow env w e w') ?_ fun w1 e h1 => Post.ret h1
    unfold svmTransfer
    split
    · exact Post.ret (Grow.refl _ _)
    · refine Post.bind (Post.ofOption (Q := fun w' _ => w' = w) fun r hr => rfl) fun w1 a h1 => ?_
      refine Post.bind (Post.ofOption (Q := fun w' _ => w' = w1) fun r hr => rfl) fun w2 b h2 => ?_
      subst h1 h2
      split
      · refine Post.bind (Post.mono (Post.readOnly (readOnly_load chk a).unwrap w2)
          (Q := fun w' acc => w' = w2 ∧ acc.addr = a) fun w' acc hx =>
            ⟨hx.1, unwrap_load_addr hx.2⟩) fun w3 accA h3 => ?_
        obtain ⟨rfl, ha⟩ := h3
        refine Post.bind (Post.mono (Post.readOnly (readOnly_load chk b).unwrap w3)
          (Q := fun w' acc => w' = w3 ∧ acc.addr = b) fun w' acc hx =>
            ⟨hx.1, unwrap_load_addr hx.2⟩) fun w4 accB h4 => ?_
        obtain ⟨rfl, hb⟩ := h4
        refine Post.bind (Post.of_readOnly (readOnly_balance accA).unwrap
          (Q := fun w' _ => w' = w4) fun _ => rfl) fun w5 x h5 => ?_
        subst h5
        refine Post.bind (Post.of_readOnly (readOnly_balance accB).unwrap
          (Q := fun w' _ => w' = w5) fun _ => rfl) fun w6 y h6 => ?_
        subst h6
        have hw : Writes (fun k => k = .accMut a ∨ k = .accMut b) (moveCoins accA accB x y amount) := by
          unfold moveCoins
          split
          · trivial
          · refine ((writes_setBalance accA _).unwrap.mono (fun k hk => .inl (by rw [hk, ha]))).bind
              fun _ => ?_
            split
            · exact (writes_setBalance accB _).unwrap.mono (fun k hk => .inr (by rw [hk, hb]))
            · trivial
        refine Post.bind (Post.of_writes hw) fun w7 u h7 => Post.ret ⟨?_, ?_⟩
        · intro c hcm
          exact mem_setInsert.2 (.inl (mem_setInsert.2 (.inl hcm)))
        · intro c hcm
          apply h7
          rintro (hk | hk)
          · cases hk
            exact hcm (mem_setInsert.2 (.inl (mem_setInsert.2 (.inr rfl))))
          · cases hk
            exact hcm (mem_setInsert.2 (.inr rfl))
      · exact Post.panic

theorem grow_guest {α : Type} (chk : Bool) (g : Guest α) (env : Env) (w : View) :
    Post (g.run chk env) w fun w' r => Grow env w r.1 w' := by
  induction g generalizing env w with
  | ret | trap => exact Post.ret (Grow.refl _ _)
  | call mem c k ih =>
    exact Post.bind (grow_host chk env mem c w) fun w1 r h1 =>
      Post.mono (ih r.1 r.2.1 r.2.2 w1) fun w2 x h2 => h1.trans h2

theorem grow_wasmerCall {α : Type} (chk : Bool) (env : Env) (func : Str) (g : Guest α) (w : View) :
    Post (wasmerCall chk env func g) w fun w' r => Grow env w r.1 w' := by
  refine Post.bind (grow_guest chk g env w) fun w1 r h1 => ?_
  have : Grow env w { r.1 with logs := [] } w1 := ⟨h1.mono, h1.changed⟩
  split <;> exact Post.ret this

theorem grow_callAlloc (chk : Bool) (m : Module) (st : m.σ) (env : Env) (mem : Bytes) (n : Nat)
    (w : View) : Post (callAlloc chk m st env mem n) w fun w' r => Grow env w r.1 w' := by
  unfold callAlloc
  simp only
  split
  · refine Post.bind (grow_wasmerCall chk _ _ _ w) fun w1 r h1 => ?_
    have h2 : Grow env w r.1 w1 := ⟨h1.mono, h1.changed⟩
    split
    · exact Post.ret h2
    · split
      · exact Post.ret ⟨h2.mono, h2.changed⟩
      · exact Post.panic
  · exact Post.ret ⟨fun _ h => h, fun _ _ => rfl⟩

theorem grow_runFunc (chk : Bool) (m : Module) (call : Call) (env : Env) (st : m.σ) (mem : Bytes)
    (w : View) : Post (runFunc chk m call env st mem) w fun w' r => Grow env w r.1 w' := by
  unfold runFunc
  split
  · exact Post.ret (Grow.refl _ _)
  · split
    · refine Post.bind (grow_callAlloc chk m st env mem _ w) fun w1 r h1 => ?_
      split
      · exact Post.ret h1
      · split
        · refine Post.bind (Post.ofOption (Q := fun w' me => w' = w1 ∧ me.2.touched = r.1.touched)
            fun me hme => ⟨rfl, ?_⟩) fun w2 me h2 => ?_
          · unfold setCalldata at hme
            split at hme
            · cases hme; rfl
            · cases hme
          · obtain ⟨rfl, ht⟩ := h2
            refine Post.bind (grow_wasmerCall chk me.2 _ _ w2) fun w3 r' h3 => ?_
            have h4 : Grow env w r'.1 w3 :=
              (h1.trans (Grow.same (e2 := me.2) ht (w2 := w2) fun _ => rfl)).trans h3
            split <;> exact Post.ret h4
        · exact Post.panic
    · refine Post.bind (grow_wasmerCall chk env _ _ w) fun w1 r h1 => ?_
      split <;> exact Post.ret h1

theorem grow_runCall (chk : Bool) (eng : Engine) (call : Call) (ss : Sections) (env : Env)
    (w : View) : Post (runCall chk eng call ss env) w fun w' r => Grow env w r.1 w' := by
  refine Post.bind (Post.of_readOnly (readOnly_validate call ss) (Q := fun w' _ => w' = w)
    fun _ => rfl) fun w1 r h1 => ?_
  subst h1
  split
  · exact Post.ret (Grow.refl _ _)
  · refine Post.bind (Post.ofOption (Q := fun w' _ => w' = w1) fun r hr => rfl) fun w2 c h2 => ?_
    subst h2
    split
    · exact Post.ret (Grow.refl _ _)
    · rename_i m _
      have hi : Post (instantiate chk m env) w2 fun w' r => Grow env w2 r.1 w' := by
        unfold instantiate
        split
        · exact Post.ret (Grow.refl _ _)
        · refine Post.bind (grow_guest chk _ env w2) fun w3 r h3 => ?_
          split <;> exact Post.ret h3
      refine Post.bind hi fun w3 r h3 => ?_
      split
      · exact Post.ret h3
      · split
        · exact Post.mono (grow_runFunc chk m call _ _ _ w3) fun w4 x h4 =>
            h3.trans ⟨h4.mono, h4.changed⟩
        · exact Post.panic

theorem money_accMut {w w' : View} {a : Addr} (h : w' (.accMut a) = w (.accMut a)) :
    money w' a = money w a := by
  unfold money
  rw [h]

/-- C25: for every program, whatever host calls it makes, when it ends (with or without trap) the set
of touched accounts contains the accounts that were in it before - to begin with, the executing
account - and every account whose balance differs from the start. -/
theorem C25_touched {h : Hasher} (hc : NoCollision h) {α : Type} (s : Storage) (chk : Bool)
    (g : Guest α) (env env' : Env) (r : Except Str (α × Bytes))
    (hok : out h (g.run chk env) s = .ok (env', r)) :
    (∀ a ∈ env.touched, a ∈ env'.touched) ∧
    ∀ a, bal h (after h (g.run chk env) s) a ≠ bal h s a → a ∈ env'.touched := by
  rw [out_eval hc] at hok
  have hg := grow_guest chk g env (view h s) _ _ (Prod.ext rfl hok)
  refine ⟨hg.mono, fun a ha => ?_⟩
  by_cases hm : a ∈ env'.touched
  · exact hm
  · refine absurd ?_ ha
    rw [bal_money hc, bal_money hc, view_after hc, money_accMut (hg.changed a hm)]

/-- C25: the executing account is touched from the start. -/
theorem C25_start (storage : Acc) (t target : Addr) (mode : AccessMode) :
    storage.addr ∈ (Env.new storage t target mode).touched := by
  simp [Env.new]

/-- C25, for a whole execution including the instantiation, the allocation function and the called
function, and the environment set up by the runtime. -/
theorem C25_touched_exec {h : Hasher} (hc : NoCollision h) (s : Storage) (chk : Bool) (eng : Engine)
    (call : Call) (env' : Env) (r : Except Failure (Bytes × List Bytes))
    (hok : out h (exec chk eng call) s = .ok (env', r)) :
    call.target ∈ env'.touched ∧
    ∀ a, bal h (after h (exec chk eng call) s) a ≠ bal h s a → a ∈ env'.touched := by
  rw [out_eval hc] at hok
  have hp : Post (exec chk eng call) (view h s) fun w' r =>
      call.target ∈ r.1.touched ∧ ∀ a, a ∉ r.1.touched → w' (.accMut a) = view h s (.accMut a) := by
    generalize view h s = w
    refine Post.bind (Post.of_readOnly (readOnly_load chk _).unwrap (Q := fun w' _ => w' = w)
      fun _ => rfl) fun w1 acc h1 => ?_
    refine Post.bind (Post.of_readOnly (readOnly_templateAddr _).unwrap (Q := fun w' _ => w' = w1)
      fun _ => rfl) fun w2 t h2 => ?_
    refine Post.bind (Post.of_readOnly (readOnly_loadTemplate chk t) (Q := fun w' _ => w' = w2)
      fun _ => rfl) fun w3 ss h3 => ?_
    refine Post.bind (Post.mono (Post.readOnly (readOnly_load chk call.target).unwrap w3)
      (Q := fun w' acc => w' = w3 ∧ acc.addr = call.target) fun w' acc hx =>
        ⟨hx.1, unwrap_load_addr hx.2⟩) fun w4 accA h4 => ?_
    obtain ⟨rfl, ha⟩ := h4
    subst h1 h2 h3
    refine Post.mono (grow_runCall chk eng call ss _ w4) fun w5 r h5 => ⟨h5.mono _ ?_, h5.changed⟩
    simp [Env.new, ha]
  obtain ⟨h1, h2⟩ := hp _ _ (Prod.ext rfl hok)
  refine ⟨h1, fun a ha => ?_⟩
  by_cases hm : a ∈ env'.touched
  · exact hm
  · refine absurd ?_ ha
    rw [bal_money hc, bal_money hc, view_after hc, money_accMut (h2 a hm)]

/-- Non-vacuity of C25: a program that transfers, and a balance that differs. -/
example : ∃ h, NoCollision h ∧
    out h ((Guest.call demoMem (.transfer 0 20 3) fun _ m => Guest.ret () m).run true demoEnv)
      (demo h 10 5) =
      .ok ((demoEnv.touch (exampleAddr 1)).touch (exampleAddr 2), .ok ((), demoMem)) ∧
    bal h (after h ((Guest.call demoMem (.transfer 0 20 3) fun _ m => Guest.ret () m).run true demoEnv)
      (demo h 10 5)) (exampleAddr 1) = some 7 := by
  obtain ⟨h, hc⟩ := exists_noCollision
  refine ⟨h, hc, ?_, ?_⟩
  · rw [out_eval hc, view_demo hc]
    rfl
  · rw [bal_money hc, view_after hc, view_demo hc]
    rfl

/-! ## C64 -/

/-- Successive static allocations: each with the memory of the program at that time and the requested
size. Returns the addresses handed out. -/
def allocAll : Env → List (Bytes × U32) → Option (List U32)
  | _, [] => some []
  | env, (mem, size) :: rest => do
    let r ← staticAlloc env mem size
    let ps ← allocAll r.2 rest
    return r.1 :: ps

/-- Two regions of memory, given by first address and size, have no byte in common. -/
def Disjoint (p q : Nat × Nat) : Prop := ∀ x, ¬ (p.1 ≤ x ∧ x < p.1 + p.2 ∧ q.1 ≤ x ∧ x < q.1 + q.2)

/-- The claim C64: the returned addresses are the starts of pairwise disjoint regions of the requested
sizes, each inside of the memory. Memory of a program is at most 4 GiB and does not shrink. -/
def C64_claim : Prop :=
  ∀ (env : Env) (reqs : List (Bytes × U32)) (ps : List U32),
    env.usedMemory = 0 → (∀ q ∈ reqs, q.1.length ≤ 2 ^ 32) → allocAll env reqs = some ps →
    ((ps.zip reqs).map fun x => (x.1.toNat, x.2.2.toNat)).Pairwise Disjoint ∧
    ∀ x ∈ ps.zip reqs, x.1.toNat + x.2.2.toNat ≤ x.2.1.length

theorem allocAll_spec {env : Env} {reqs : List (Bytes × U32)} {ps : List U32}
    (hlen : ∀ q ∈ reqs, q.1.length < 2 ^ 32) (h : allocAll env reqs = some ps) :
    ((ps.zip reqs).map fun x => (x.1.toNat - x.2.2.toNat, x.2.2.toNat)).Pairwise Disjoint ∧
    ∀ x ∈ ps.zip reqs, env.usedMemory + x.2.2.toNat ≤ x.1.toNat ∧ x.1.toNat ≤ x.2.1.length := by
  induction reqs generalizing env ps with
  | nil =>
    simp only [allocAll, Option.some.injEq] at h
    subst h
    exact ⟨.nil, by simp⟩
  | cons q reqs ih =>
    obtain ⟨mem, size⟩ := q
    simp only [allocAll, Option.bind_eq_bind, Option.bind_eq_some_iff] at h
    obtain ⟨r, h1, ps', h2, h3⟩ := h
    cases h3
    obtain ⟨g1, g2⟩ := ih (fun q hq => hlen q (List.mem_cons_of_mem _ hq)) h2
    have hml : mem.length < 2 ^ 32 := hlen (mem, size) (List.mem_cons_self ..)
    unfold staticAlloc at h1
    split at h1
    · simp only at h1
      split at h1
      · cases h1
      · rename_i hx
        cases h1
        have hv : (BitVec.ofNat 32 (env.usedMemory + size.toNat)).toNat =
            env.usedMemory + size.toNat := by
          rw [BitVec.toNat_ofNat, Nat.mod_eq_of_lt (by omega)]
        simp only at g2 g1
        refine ⟨List.Pairwise.cons ?_ g1, ?_⟩
        · intro y hy
          rw [List.mem_map] at hy
          obtain ⟨x, hx1, rfl⟩ := hy
          have := g2 x hx1
          intro z
          simp only
          rw [hv]
          omega
        · intro x hx1
          rw [List.zip_cons_cons, List.mem_cons] at hx1
          rcases hx1 with rfl | hx1
          · simp only
            rw [hv]
            omega
          · have := g2 x hx1
            omega
    · cases h1

/-- C64, what holds (memory below 4 GiB): the regions that end at the returned addresses are pairwise
disjoint and inside of the memory. Missing: the function returns the end of the new region, not its
start, so regions that start at the returned addresses overlap. -/
theorem C64_regions_partial (env : Env) (reqs : List (Bytes × U32)) (ps : List U32)
    (hlen : ∀ q ∈ reqs, q.1.length < 2 ^ 32) (h : allocAll env reqs = some ps) :
    ((ps.zip reqs).map fun x => (x.1.toNat - x.2.2.toNat, x.2.2.toNat)).Pairwise Disjoint ∧
    ∀ x ∈ ps.zip reqs, x.2.2.toNat ≤ x.1.toNat ∧ x.1.toNat ≤ x.2.1.length := by
  obtain ⟨h1, h2⟩ := allocAll_spec hlen h
  exact ⟨h1, fun x hx => ⟨by have := h2 x hx; omega, (h2 x hx).2⟩⟩

/-- C64, universal violation: of two successive allocations where the first is larger than the
second, the regions starting at the returned addresses overlap. -/
theorem C64_overlap (env : Env) (m1 m2 : Bytes) (s1 s2 p1 p2 : U32) (hlen : m2.length < 2 ^ 32)
    (hlt : s2.toNat < s1.toNat) (h : allocAll env [(m1, s1), (m2, s2)] = some [p1, p2]) :
    ¬ Disjoint (p1.toNat, s1.toNat) (p2.toNat, s2.toNat) := by
  simp only [allocAll, Option.bind_eq_bind, Option.bind_eq_some_iff] at h
  obtain ⟨r, h1, ps, ⟨r2, h2, ps', h3, h4⟩, h5⟩ := h
  cases h3
  cases h4
  cases h5
  unfold staticAlloc at h1 h2
  simp only at h1 h2
  split at h1
  · split at h1
    · cases h1
    · cases h1
      split at h2
      · rename_i hp
        split at h2
        · cases h2
        · cases h2
          simp only [Bool.and_eq_true, decide_eq_true_eq] at hp
          simp only at *
          intro hd
          refine hd (env.usedMemory + s1.toNat + s2.toNat) ?_
          simp only
          rw [BitVec.toNat_ofNat, BitVec.toNat_ofNat, Nat.mod_eq_of_lt (by omega),
            Nat.mod_eq_of_lt (by omega)]
          omega
      · cases h2
  · cases h1

/-- C64 is violated: a request for all of the memory gets an address behind it. -/
theorem C64_claim_false : ¬ C64_claim := by
  intro hcl
  have := (hcl demoEnv [([0, 0], 2)] [2] rfl (by simp) (by decide)).2 (2, [0, 0], 2) (by simp)
  revert this
  decide

/-- Non-vacuity: three allocations; the first two regions overlap when taken from the addresses. -/
example : allocAll demoEnv [(List.replicate 100 0, 8), (List.replicate 100 0, 4),
    (List.replicate 200 0, 100)] = some [8, 12, 112] := by decide +kernel

end Svm.Runtime
