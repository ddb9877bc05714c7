import Verif.Sdk.Call

/-!
# The code around an endpoint does not touch the storage

`svm_alloc`, the prologue that reads the arguments, and the epilogue that writes the result: whatever the calldata are,
the storage after a call is as the body of the endpoint left it.
-/

namespace Svm.Sdk

open Svm.Codec Svm.Account Svm.Runtime
open Svm.Abi (Ty)
open Svm.Storage (Hasher Storage Inv)

/-- Host functions that work on the memory and on the call only. -/
def StillCall : HostCall → Prop
  | .staticAlloc _ => True
  | .calldataOffset => True
  | .calldataLen => True
  | .setReturndata _ _ => True
  | .log _ _ => True
  | _ => False

/-- Programs that call no other host functions. -/
def Still {α : Type} : Guest α → Prop
  | .ret _ _ => True
  | .trap _ => True
  | .call _ c k => StillCall c ∧ ∀ v mem, Still (k v mem)

/-- The same account and the same access. -/
def Kept {α : Type} (env : Env) (r : Env × α) : Prop := r.1.storage = env.storage ∧ r.1.mode = env.mode

theorem quiet_ofOption {α : Type} {Q : α → Prop} (x : Option α) (hq : ∀ a, x = some a → Q a) :
    Quiet Q (Prog.ofOption x) := by
  cases x with
  | none => trivial
  | some a => exact hq a rfl

theorem Quiet.eval {α : Type} {Q : α → Prop} {p : Prog α} (hp : Quiet Q p) (w : View) :
    (p.eval w).1 = w ∧ ∀ w' a, p.eval w = (w', .ok a) → Q a := by
  induction p with
  | ret a => exact ⟨rfl, fun w' b hb => by cases hb; exact hp⟩
  | err | panic => exact ⟨rfl, fun w' b hb => by cases hb⟩
  | get k f ih => exact ih _ (hp _)
  | set k v p => exact hp.elim

theorem still_host (chk : Bool) {c : HostCall} (hs : StillCall c) (env : Env) (mem : Bytes) :
    Quiet (fun r => r.2.2.storage = env.storage ∧ r.2.2.mode = env.mode) (host chk env mem c) := by
  cases c with
  | staticAlloc size =>
    refine (quiet_ofOption (Q := fun r => r.2.storage = env.storage ∧ r.2.mode = env.mode) _ ?_).bind fun r hr => ?_
    rotate_left
    · exact hr
    intro a ha
    unfold staticAlloc at ha
    split at ha
    · simp only at ha
      split at ha
      · cases ha
      · cases ha; exact ⟨rfl, rfl⟩
    · cases ha
  | calldataOffset =>
    exact (quiet_ofOption (Q := fun _ => True) _ fun _ _ => trivial).bind fun r _ => ⟨rfl, rfl⟩
  | calldataLen =>
    exact (quiet_ofOption (Q := fun _ => True) _ fun _ _ => trivial).bind fun r _ => ⟨rfl, rfl⟩
  | setReturndata a b =>
    refine (quiet_ofOption (Q := fun r => r.storage = env.storage ∧ r.mode = env.mode) _ ?_).bind fun r hr => ?_
    rotate_left
    · exact hr
    intro a ha
    unfold setReturndata at ha
    split at ha
    · cases ha; exact ⟨rfl, rfl⟩
    · cases ha
  | log a b =>
    exact (quiet_ofOption (Q := fun _ => True) _ fun _ _ => trivial).bind fun r _ => ⟨rfl, rfl⟩
  | _ => exact hs.elim

theorem still_run {α : Type} (chk : Bool) {g : Guest α} (hs : Still g) (env : Env) : Quiet (Kept env) (g.run chk env) := by
  induction g generalizing env with
  | ret a mem => exact ⟨rfl, rfl⟩
  | trap msg => exact ⟨rfl, rfl⟩
  | call mem c k ih =>
    refine (still_host chk hs.1 env mem).bind fun r hr => ?_
    have := ih r.1 r.2.1 (hs.2 _ _) r.2.2
    unfold Kept at this ⊢
    rw [hr.1, hr.2] at this
    exact this

theorem still_andThen {α β : Type} {g : Guest α} {k : α → Bytes → Guest β} (hg : Still g)
    (hk : ∀ a mem, Still (k a mem)) : Still (andThen g k) := by
  induction g with
  | ret a mem => exact hk a mem
  | trap msg => trivial
  | call mem c f ih => exact ⟨hg.1, fun v mem => ih v mem (hg.2 v mem)⟩

theorem still_next (chk : Bool) (R : ValueRepr) (pos stop : Nat) (mem : Bytes) : Still (nextAt chk R pos stop mem) := by
  unfold nextAt
  split
  · trivial
  · split
    · trivial
    · refine ⟨trivial, fun v mem => ?_⟩
      cases v with
      | i32 ptr =>
        dsimp only
        split
        · split <;> trivial
        · trivial
      | _ => trivial
    · split <;> trivial

theorem still_args (chk : Bool) (R : ValueRepr) (stop : Nat) : ∀ (ts : List Ty) (pos : Nat) (mem : Bytes),
    Still (argsAt chk R stop ts pos mem)
  | [], _, _ => trivial
  | t :: ts, pos, mem => by
    unfold argsAt
    refine still_andThen (still_next chk R pos stop mem) fun v mem => ?_
    split
    · trivial
    · exact still_andThen (still_args chk R stop ts _ _) fun _ _ => trivial

theorem still_prologue (chk : Bool) (R : ValueRepr) (ts : List Ty) (mem : Bytes) : Still (prologue chk R ts mem) := by
  unfold prologue
  split
  · trivial
  · refine ⟨trivial, fun v mem => ?_⟩
    cases v with
    | i32 ptr =>
      refine ⟨trivial, fun v mem => ?_⟩
      cases v with
      | i32 len => exact still_args _ _ _ _ _ _
      | _ => trivial
    | _ => trivial

theorem still_epilogue : ∀ (res : Option Ty) (v : ResultOf res) (mem : Bytes), Still (epilogue res v mem)
  | none, _, _ => trivial
  | some t, v, mem => by
    unfold epilogue
    refine ⟨trivial, fun v mem => ?_⟩
    cases v with
    | i32 ptr =>
      dsimp only
      split
      · trivial
      · split
        · exact ⟨trivial, fun _ _ => trivial⟩
        · trivial
    | _ => trivial

theorem still_alloc (chk : Bool) (R : ValueRepr) (f : Str → Option Endpoint) (args : List Val) (mem : Bytes) :
    Still (sdkInvoke chk R f svmAlloc args mem) := by
  unfold sdkInvoke
  rw [if_pos rfl]
  split
  · refine still_andThen ?_ fun _ _ => trivial
    refine ⟨trivial, fun v mem => ?_⟩
    cases v <;> trivial
  · trivial

/-! ## What the storage is afterwards -/

theorem bind_ends {α β : Type} {Q : View → Prop} {p : Prog α} {k : α → Prog β} {w : View} (h1 : Q (p.eval w).1)
    (h2 : ∀ a w', p.eval w = (w', .ok a) → Q ((k a).eval w').1) : Q ((p.bind k).eval w).1 := by
  rw [Prog.eval_bind]
  cases hp : p.eval w with
  | mk w' r =>
    rw [hp] at h1
    cases r with
    | ok a => exact h2 a w' hp
    | err e => exact h1
    | panic => exact h1

theorem quiet_bind_ends {α β : Type} {Q : View → Prop} {P : α → Prop} {p : Prog α} {k : α → Prog β} {w : View}
    (hp : Quiet P p) (hw : Q w) (h2 : ∀ a, P a → Q ((k a).eval w).1) : Q ((p.bind k).eval w).1 := by
  obtain ⟨e1, e2⟩ := Quiet.eval hp w
  refine bind_ends (by rw [e1]; exact hw) fun a w' ha => ?_
  have hw' : w' = w := by rw [ha] at e1; exact e1
  rw [hw']
  exact h2 a (e2 _ _ ha)

theorem andThen_ends {α β : Type} {Q : View → Prop} {chk : Bool} {g : Guest α} {k : α → Bytes → Guest β} {env : Env}
    {w : View} (h1 : Q ((g.run chk env).eval w).1)
    (h2 : ∀ a mem env' w', (g.run chk env).eval w = (w', .ok (env', .ok (a, mem))) →
      Q (((k a mem).run chk env').eval w').1) : Q (((andThen g k).run chk env).eval w).1 := by
  cases hp : (g.run chk env).eval w with
  | mk w' r =>
    rw [hp] at h1
    cases r with
    | ok r =>
      obtain ⟨env', r⟩ := r
      cases r with
      | ok r => rw [run_andThen hp]; exact h2 _ _ _ _ hp
      | error msg => rw [run_andThen_trap hp]; exact h1
    | err e => rw [run_andThen_err hp]; exact h1
    | panic => rw [run_andThen_panic hp]; exact h1

theorem still_andThen_ends {α β : Type} {Q : View → Prop} {chk : Bool} {g : Guest α} {k : α → Bytes → Guest β}
    {env : Env} {w : View} (hs : Still g) (hw : Q w)
    (h2 : ∀ a mem env', (g.run chk env).eval w = (w, .ok (env', .ok (a, mem))) → env'.storage = env.storage →
      env'.mode = env.mode → Q (((k a mem).run chk env').eval w).1) : Q (((andThen g k).run chk env).eval w).1 := by
  obtain ⟨e1, e2⟩ := Quiet.eval (still_run chk hs env) w
  refine andThen_ends (by rw [e1]; exact hw) fun a mem env' w' ha => ?_
  have hw' : w' = w := by rw [ha] at e1; exact e1
  subst hw'
  exact h2 a mem env' ha (e2 _ _ ha).1 (e2 _ _ ha).2

/-- The arguments that are read have the types of the parameters. -/
theorem argsAt_types {chk chk' : Bool} {R : ValueRepr} {stop : Nat} : ∀ (ts : List Ty) {pos : Nat} {mem : Bytes} {env : Env}
    {w w' : View} {env' : Env} {raw : RawArgs} {mem' : Bytes},
    ((argsAt chk R stop ts pos mem).run chk' env).eval w = (w', .ok (env', .ok (raw, mem'))) → raw.map (·.1) = ts
  | [], _, _, _, _, _, _, _, _, h => by cases h; rfl
  | t :: ts, pos, mem, env, w, w', env', raw, mem', h => by
    unfold argsAt at h
    cases hp : ((nextAt chk R pos stop mem).run chk' env).eval w with
    | mk w1 r =>
      cases r with
      | ok r =>
        obtain ⟨env1, r⟩ := r
        cases r with
        | ok r =>
          rw [run_andThen hp] at h
          split at h
          · cases h
          · rename_i x hx
            cases hq : ((argsAt chk R stop ts r.1.2 r.2).run chk' env1).eval w1 with
            | mk w2 q =>
              cases q with
              | ok q =>
                obtain ⟨env2, q⟩ := q
                cases q with
                | ok q =>
                  rw [run_andThen hq] at h
                  cases h
                  rw [List.map_cons, argsAt_types ts hq]
                | error msg => rw [run_andThen_trap hq] at h; cases h
              | err e => rw [run_andThen_err hq] at h; cases h
              | panic => rw [run_andThen_panic hq] at h; cases h
        | error msg => rw [run_andThen_trap hp] at h; cases h
      | err e => rw [run_andThen_err hp] at h; cases h
      | panic => rw [run_andThen_panic hp] at h; cases h

theorem prologue_types {chk chk' : Bool} {R : ValueRepr} {ts : List Ty} {mem : Bytes} {env env' : Env} {w w' : View}
    {raw : RawArgs} {mem' : Bytes}
    (h : ((prologue chk R ts mem).run chk' env).eval w = (w', .ok (env', .ok (raw, mem')))) : raw.map (·.1) = ts := by
  unfold prologue at h
  split at h
  · cases h; rfl
  · obtain ⟨w1, r, h1, h2⟩ := eval_bind_eq_ok h
    obtain ⟨v, mem1, env1⟩ := r
    cases v with
    | i32 ptr =>
      obtain ⟨w2, r, h3, h4⟩ := eval_bind_eq_ok h2
      obtain ⟨v, mem2, env2⟩ := r
      cases v with
      | i32 len => exact argsAt_types _ h4
      | _ => cases h4
    | _ => cases h2

/-- What holds of the storage before a call of an endpoint and after its body, holds after the call. -/
theorem guest_ends {Q : View → Prop} {chk chk' : Bool} {R : ValueRepr} {e : Endpoint} {mem : Bytes} {env : Env} {w : View}
    (hw : Q w) (hb : ∀ raw mem env', raw.map (·.1) = e.params → env'.storage = env.storage → env'.mode = env.mode →
      Q (((e.body raw mem).run chk' env').eval w).1) : Q (((e.guest chk R mem).run chk' env).eval w).1 := by
  unfold Endpoint.guest
  refine still_andThen_ends (still_prologue chk R e.params mem) hw fun raw mem env' h1 h2 h3 => ?_
  have hb := hb raw mem env' (prologue_types h1) h2 h3
  refine andThen_ends hb fun v mem env'' w' h4 => ?_
  rw [h4] at hb
  rw [(Quiet.eval (still_run chk' (still_epilogue e.result v mem) env'') w').1]
  exact hb

theorem wasmerCall_ends {α : Type} {Q : View → Prop} {chk : Bool} {env : Env} {name : Str} {g : Guest α} {w : View}
    (h : Q ((g.run chk env).eval w).1) : Q ((wasmerCall chk env name g).eval w).1 := by
  refine bind_ends h fun r w' hr => ?_
  rw [hr] at h
  split <;> exact h

theorem quiet_still_wasmerCall {α : Type} {chk : Bool} {env : Env} {name : Str} {g : Guest α} (hs : Still g) :
    Quiet (Kept env) (wasmerCall chk env name g) := by
  refine (still_run chk hs env).bind fun r hr => ?_
  split <;> exact hr

theorem runFunc_ends {Q : View → Prop} {chk chk' : Bool} {R : ValueRepr} {f : Str → Option Endpoint} {memory mem : Bytes}
    {c : Call} {env : Env} {w : View} (hw : Q w)
    (hb : ∀ e, IsEndpoint f c.funcName e → ∀ raw mem env', raw.map (·.1) = e.params → env'.storage = env.storage →
      env'.mode = env.mode → Q (((e.body raw mem).run chk' env').eval w).1) :
    Q ((runFunc chk' (sdkModule chk R memory f) c env () mem).eval w).1 := by
  have key : ∀ e, IsEndpoint f c.funcName e → ∀ mem env', env'.storage = env.storage → env'.mode = env.mode →
      Q ((wasmerCall chk' env' c.funcName ((sdkModule chk R memory f).invoke () c.funcName [] mem)).eval w).1 := by
    intro e he mem env' h1 h2
    refine wasmerCall_ends ?_
    change Q (((sdkInvoke chk R f c.funcName [] mem).run chk' env').eval w).1
    rw [he.invoke]
    have hg : Q (((e.guest chk R mem).run chk' env').eval w).1 :=
      guest_ends hw fun raw mem env'' h3 h4 h5 => hb e he raw mem env'' h3 (h4.trans h1) (h5.trans h2)
    refine andThen_ends hg fun _ _ _ w' h3 => ?_
    rw [h3] at hg
    exact hg
  unfold runFunc
  split
  · exact hw
  · rename_i hl
    obtain ⟨e, he⟩ : ∃ e, IsEndpoint f c.funcName e := by
      unfold lookupFunc at hl
      split at hl
      · cases hl
      · rename_i hsig
        change (if c.funcName = svmAlloc then some Sig.alloc else if c.funcName = svmVerify then some Sig.other else
          (f c.funcName).map fun _ => Sig.nullary) = some .nullary at hsig
        split at hsig
        · cases hsig
        · split at hsig
          · cases hsig
          · obtain ⟨e, h1, -⟩ := Option.map_eq_some_iff.1 hsig
            exact ⟨e, h1, by assumption, by assumption⟩
      · cases hl
    split
    · unfold callWithAlloc
      have hq : Quiet (fun r : Env × Except Failure (Unit × Bytes × U32) => ∀ x, r.2 = .ok x → Kept env r)
          (callAlloc chk' (sdkModule chk R memory f) () env mem c.funcInput.length) := by
        unfold callAlloc
        simp only
        split
        · refine Quiet.bind (R := Kept { env with mode := .accessDenied }) (quiet_still_wasmerCall
            (still_alloc chk R f [Val.i32 (BitVec.ofNat 32 c.funcInput.length)] mem)) fun r hr => ?_
          split
          · exact nofun
          · split
            · exact fun _ _ => ⟨hr.1, rfl⟩
            · trivial
        · exact nofun
      refine quiet_bind_ends hq hw fun r hr => ?_
      split
      · exact hw
      · rename_i x hx
        obtain ⟨k1, k2⟩ := hr x hx
        split
        · refine quiet_bind_ends (quiet_ofOption (Q := fun me => me.2.storage = env.storage ∧ me.2.mode = env.mode) _ ?_) hw
            fun me hme => ?_
          · intro me hme
            unfold setCalldata at hme
            split at hme
            · cases hme; exact ⟨k1, k2⟩
            · cases hme
          · have hk : Q ((wasmerCall chk' me.2 c.funcName
                ((sdkModule chk R memory f).invoke x.1 c.funcName [] me.1)).eval w).1 := key e he me.1 me.2 hme.1 hme.2
            refine bind_ends hk fun r' w' hr' => ?_
            rw [hr'] at hk
            split <;> exact hk
        · exact hw
    · have hk := key e he mem env rfl rfl
      refine bind_ends hk fun r' w' hr' => ?_
      rw [hr'] at hk
      split <;> exact hk

/-- A call of an account of a template written with the SDK leaves the storage as it was or as the body of the called
endpoint left it. -/
theorem exec_ends {h : Hasher} (hc : NoCollision h) {chk chk' : Bool} {R : ValueRepr} {eng : Engine} {s : Storage}
    {c : Call} {acc : Acc} {memory : Bytes} {f : Str → Option Endpoint} (hl : out h (load chk' c.target) s = .ok acc)
    {ss : Sections} (hss : out h (readSections chk' acc.template) s = .ok ss) {code : CodeSection}
    (hcode : ss.tryGet .code = some (.code code)) (heng : eng code.code = .ok (sdkModule chk R memory f))
    {Q : View → Prop} (hw : Q (view h s))
    (hb : ∀ e, IsEndpoint f c.funcName e → isCtor ss c.funcName = some c.withinSpawn → ∀ raw mem env',
      raw.map (·.1) = e.params → env'.storage = acc → env'.mode = c.mode →
        Q (((e.body raw mem).run chk' env').eval (view h s)).1) :
    Q ((exec chk' eng c).eval (view h s)).1 := by
  rw [out_eval hc] at hl hss
  have p1 : (load chk' c.target).eval (view h s) = (_, .ok acc) := Prod.ext rfl hl
  obtain ⟨e1, -, e2⟩ := Runtime.load_ok p1
  rw [e1] at p1
  have p2 : (readSections chk' acc.template).eval (view h s) = (view h s, .ok ss) :=
    Prod.ext ((readOnly_readSections chk' acc.template).eval _) hss
  unfold exec loadTemplate
  simp only [Prog.bind_eq]
  rw [Prog.eval_bind_ok (unwrap_ok.2 p1), Prog.eval_bind_ok (unwrap_ok.2 e2), Prog.eval_bind_ok (unwrap_ok.2 p2),
    Prog.eval_bind_ok (unwrap_ok.2 p1)]
  unfold runCall
  have hu : Quiet (fun r => r = .ok () → isCtor ss c.funcName = some c.withinSpawn) (validateFuncUsage c ss) := by
    unfold validateFuncUsage
    refine (quiet_ofOption (Q := fun b => isCtor ss c.funcName = some b) _ fun _ h => h).bind fun b hb => ?_
    split
    · rename_i hwi
      split
      · rename_i hbt
        intro _
        rw [hb, hwi, hbt]
      · exact nofun
    · rename_i hwi
      split
      · exact nofun
      · rename_i hbt
        intro _
        rw [hb, Bool.eq_false_iff.2 hwi, Bool.eq_false_iff.2 hbt]
  refine quiet_bind_ends hu hw fun r hr => ?_
  split
  · exact hw
  · have hct := hr rfl
    unfold codeSection
    rw [hcode]
    simp only [Prog.bind_eq]
    rw [Prog.eval_bind_ok (Prog.eval_ofOption_some _ _), heng]
    simp only
    have hi : (instantiate chk' (sdkModule chk R memory f) (Env.new acc c.templateAddr c.target c.mode)).eval (view h s) =
        (view h s, .ok (Env.new acc c.templateAddr c.target c.mode, .ok ((), memory))) := rfl
    rw [Prog.eval_bind_ok hi]
    simp only
    rw [if_pos (show (sdkModule chk R memory f).hasMemory = true from rfl)]
    exact runFunc_ends hw fun e he raw mem env' h1 h2 h3 => hb e he hct raw mem env' h1 h2 h3

end Svm.Sdk
