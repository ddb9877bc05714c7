import Verif.Sdk.Endpoint
import Verif.Runtime.Receipt

/-!
# C124: calls of endpoints of templates written with the SDK, from the message to the receipt

A call message with the encoding of arguments goes through the runtime (`call`, `build_call`, `exec_call`), the
generated `svm_alloc` and endpoint, the body of the endpoint, and back to the receipt.
-/

namespace Svm.Sdk

open Svm.Codec Svm.Account Svm.Runtime
open Svm.Abi (Ty)
open Svm.Storage (Hasher Storage Inv)

/-! ## Spec -/

/-- The values of a declared result. -/
@[reducible] def ResultVal : Option Ty → Type
  | none => Unit
  | some t => t.Val

/-- What a result in memory means. -/
def resultMeaning : (res : Option Ty) → ResultOf res → Bytes → Option (ResultVal res)
  | none, _, _ => some ()
  | some t, v, mem => meaning t v mem

/-- The encoding of a result; no result takes no bytes. -/
def encodeResult : (res : Option Ty) → ResultVal res → Option Bytes
  | none, _ => some []
  | some t, x => t.encode x

/-- The room for a result. -/
def resultSize : Option Ty → Nat
  | none => 0
  | some t => t.maxByteSize

/-- The body of an endpoint, on values that mean `args` and on the storage `w`, ends with a value that means `x` and
with the storage `w'`, allocates at most `budget` bytes and sets no returndata itself. -/
def Computes (chk : Bool) (e : Endpoint) (acc : Acc) (target : Addr) (args : Args) (w w' : View)
    (x : ResultVal e.result) (budget : Nat) : Prop :=
  ∀ (raw : RawArgs) (mem : Bytes) (env : Env), meanings mem raw = some args →
    env = { Env.new acc acc.template target .fullAccess with
      memorySet := true, usedMemory := env.usedMemory, calldata := env.calldata } →
    env.usedMemory + budget ≤ mem.length →
    ∃ v mem' env', ((e.body raw mem).run chk env).eval w = (w', .ok (env', .ok (v, mem'))) ∧
      resultMeaning e.result v mem' = some x ∧ mem'.length = mem.length ∧
      env'.usedMemory ≤ env.usedMemory + budget ∧ env'.returndata = none

/-- The account of a call message has the template `ss`, whose code compiles to `m`, and the function is not a
constructor. -/
def Callable (chk : Bool) (h : Hasher) (eng : Engine) (s : Storage) (tx : Transaction) (acc : Acc) (m : Module) :
    Prop :=
  Starts chk h eng s ⟨tx.funcName, tx.calldata, tx.target, acc.template, false, .fullAccess⟩ acc m

/-- The receipt of a call of an endpoint and the storage afterwards. -/
def Answers (chk : Bool) (h : Hasher) (o : Orders) (eng : Engine) (message : Bytes) (s : Storage) (bs : Bytes)
    (w : View) : Prop :=
  ∃ s' r, call chk h o eng message s = (s', some r) ∧ r.success = true ∧ r.returndata = some bs ∧ view h s' = w

/-- C124: a call of an endpoint with the encoding of arguments succeeds, returns the encoding of what the body computes
from these arguments, and leaves the storage as the body did. -/
def C124_claim (R : ValueRepr) : Prop :=
  ∀ (h : Hasher), NoCollision h → ∀ (chk chk' : Bool) (o : Orders) (eng : Engine) (s : Storage)
    (message rest : Bytes) (tx : Transaction) (acc : Acc) (memory : Bytes) (f : Str → Option Endpoint) (e : Endpoint)
    (args : Args) (x : ResultVal e.result) (bs : Bytes) (w' : View) (budget : Nat),
    Reach h s → 0 ≤ s.next.id → decTransaction message = .ok (tx, rest) →
    Callable chk' h eng s tx acc (sdkModule chk R memory f) → IsEndpoint f tx.funcName e →
    (∀ a ∈ args, a.1.Arg) → (∀ a ∈ args, ∀ u, a.1 ≠ .arr u 8) → e.params = args.map (·.1) →
    Abi.encodeArgs args = some tx.calldata → Computes chk' e acc tx.target args (view h s) w' x budget →
    encodeResult e.result x = some bs →
    2 * tx.calldata.length + 2 * vecSizes R e.params + budget + 2 * resultSize e.result ≤ memory.length →
    memory.length < 2 ^ 32 → Answers chk' h o eng message s bs w'

/-- Types without addresses. -/
def Plain : Ty → Prop
  | .address => False
  | .option t => Plain t
  | .arr t _ => Plain t
  | .pair a b => Plain a ∧ Plain b
  | _ => True

/-! ## Lemmas -/

theorem plain_pointers : ∀ (t : Ty), Plain t → ∀ v : RawOf t, pointers t v = []
  | .unit, _, _ => rfl
  | .bool, _, _ => rfl
  | .address, h, _ => h.elim
  | .amount, _, _ => rfl
  | .int _ _, _, _ => rfl
  | .option _, _, none => rfl
  | .option t, h, some v => plain_pointers t h v
  | .arr t _, h, l => by
    unfold pointers
    exact List.flatMap_eq_nil_iff.2 fun v _ => plain_pointers t h v
  | .pair a b, h, v => by
    unfold pointers
    rw [plain_pointers a h.1 v.1, plain_pointers b h.2 v.2]
    rfl

/-- The execution of a call of an account whose code is instantiated and has no start function. -/
theorem exec_started {h : Hasher} (hc : NoCollision h) {chk : Bool} {eng : Engine} {s : Storage} {c : Call} {acc : Acc}
    {m : Module} {st : m.σ} {mem : Bytes} (hs : Starts chk h eng s c acc m) (h1 : m.start = .ret st mem)
    (h2 : m.hasMemory = true) : (exec chk eng c).eval (view h s) =
      (runFunc chk m c { Env.new acc c.templateAddr c.target c.mode with memorySet := true } st mem).eval
        (view h s) := by
  obtain ⟨p1, ss, cs, code, p2, p3, p4, p5, p6, p7⟩ := hs
  rw [out_eval hc] at p1 p2
  have p1 : (load chk c.target).eval (view h s) = (_, .ok acc) := Prod.ext rfl p1
  obtain ⟨e1, -, e2⟩ := Runtime.load_ok p1
  rw [e1] at p1
  have p2 : (readSections chk acc.template).eval (view h s) = (view h s, .ok ss) :=
    Prod.ext ((readOnly_readSections chk acc.template).eval _) p2
  unfold exec loadTemplate
  simp only [Prog.bind_eq]
  rw [Prog.eval_bind_ok (unwrap_ok.2 p1), Prog.eval_bind_ok (unwrap_ok.2 e2), Prog.eval_bind_ok (unwrap_ok.2 p2),
    Prog.eval_bind_ok (unwrap_ok.2 p1)]
  unfold runCall
  simp only [Prog.bind_eq]
  have hu : (validateFuncUsage c ss).eval (view h s) = (view h s, .ok (.ok ())) := by
    unfold validateFuncUsage
    rw [isCtor_some p3, Prog.bind_eq, Prog.eval_bind_ok (Prog.eval_ofOption_some _ _)]
    by_cases hw : c.withinSpawn = true
    · rw [if_pos hw, if_pos (decide_eq_true (p4.2 hw))]
      rfl
    · rw [if_neg hw, if_neg (by simp [mt p4.1 hw])]
      rfl
  rw [Prog.eval_bind_ok hu]
  simp only
  unfold codeSection
  rw [p5]
  simp only
  rw [Prog.eval_bind_ok (Prog.eval_ofOption_some _ _), p6]
  simp only
  have hi : (instantiate chk m (Env.new acc c.templateAddr c.target c.mode)).eval (view h s) =
      (view h s, .ok (Env.new acc c.templateAddr c.target c.mode, .ok (st, mem))) := by
    unfold instantiate
    rw [p7, h1]
    rfl
  rw [Prog.eval_bind_ok hi]
  simp only
  rw [if_pos h2]

/-- A program that returns gives a success receipt. -/
theorem execCall_returns {h : Hasher} (hc : NoCollision h) {s : Storage} (hi : Inv s) (h0 : 0 ≤ s.next.id) {chk : Bool}
    {o : Orders} {eng : Engine} {c : Call} {env : Env} {mem data : Bytes} {logs : List Bytes} {w : View}
    (hok : (exec chk eng c).eval (view h s) = (w, .ok (env, .ok (mem, logs)))) (hw : env.canWrite = true)
    (hdata : takeReturndata env mem = some data) :
    ∃ s' r, execCall chk h o eng c s = (s', some r) ∧ r.success = true ∧ r.returndata = some data ∧ r.logs = logs ∧
      view h s' = w := by
  have hi1 := inv_prog (h := h) (exec chk eng c) hi
  obtain ⟨s1, fp, h1, h2⟩ := publish (s := after h (exec chk eng c) s) hi1 h o.checkpoint o.commit
  have hn : (after h (exec chk eng c) s).next = s.next := (Prog.run_frame h (exec chk eng c) s).2
  have hv := view_execCall (h := h) hi chk o eng c
  rw [view_after hc, hok] at hv
  have hx : ∃ s' r, execCall chk h o eng c s = (s', some r) ∧ r.success = true ∧ r.returndata = some data ∧
      r.logs = logs := by
    unfold execCall
    rw [run_out, out_of_eval hc hok]
    simp only
    unfold outcomeToReceipt commitChanges
    rw [hdata, if_pos hw, h1]
    simp only
    rw [hn, if_pos h0]
    exact ⟨_, _, rfl, rfl, rfl, rfl⟩
  obtain ⟨s', r, g1, g2, g3, g4⟩ := hx
  rw [g1] at hv
  exact ⟨s', r, g1, g2, g3, g4, hv⟩

/-- The end of an endpoint. -/
theorem epilogue_ends (chk : Bool) {res : Option Ty} {v : ResultOf res} {x : ResultVal res} {bs mem : Bytes}
    {env : Env} (w : View) (hv : resultMeaning res v mem = some x) (he : encodeResult res x = some bs)
    (hset : env.memorySet = true) (hret : env.returndata = none)
    (hroom : env.usedMemory + 2 * resultSize res ≤ mem.length) (h32 : mem.length < 2 ^ 32)
    (hp : ∀ t, res = some t → Plain t) :
    ∃ env' mem', ((epilogue res v mem).run chk env).eval w = (w, .ok (env', .ok ((), mem'))) ∧
      takeReturndata env' mem' = some bs := by
  cases res with
  | none =>
    cases he
    exact ⟨env, mem, rfl, by unfold takeReturndata; rw [hret]⟩
  | some t =>
    obtain ⟨env', mem', h1, -, h3⟩ := C97_result_partial chk (t := t) w hv he hset hret hroom h32
      (fun p hm => by rw [plain_pointers t (hp t rfl) v] at hm; cases hm)
    exact ⟨env', mem', h1, h3⟩

/-- The mode does not change while a program runs. -/
theorem run_mode {α : Type} {chk : Bool} {g : Guest α} {env env' : Env} {w w' : View} {r : Except Str (α × Bytes)}
    (h : (g.run chk env).eval w = (w', .ok (env', r))) : env'.mode = env.mode ∧ env'.memorySet = env.memorySet := by
  obtain ⟨tr, ht⟩ := runs_iff.1 h
  exact ⟨ht.recorded.mode, ht.recorded.memorySet⟩

/-- The rest of an endpoint, once it has its arguments. -/
theorem rest_ends {chk : Bool} {e : Endpoint} {acc : Acc} {target : Addr} {args : Args} {w w' : View}
    {x : ResultVal e.result} {budget : Nat} (hcomp : Computes chk e acc target args w w' x budget) {raw : RawArgs}
    {mem bs : Bytes} {env : Env} (hm : meanings mem raw = some args)
    (henv : env = { Env.new acc acc.template target .fullAccess with
      memorySet := true, usedMemory := env.usedMemory, calldata := env.calldata })
    (hroom : env.usedMemory + budget + 2 * resultSize e.result ≤ mem.length) (h32 : mem.length < 2 ^ 32)
    (he : encodeResult e.result x = some bs) (hp : ∀ t, e.result = some t → Plain t) :
    ∃ env' mem', ((e.rest raw mem).run chk env).eval w = (w', .ok (env', .ok ((), mem'))) ∧
      takeReturndata env' mem' = some bs ∧ env'.mode = .fullAccess := by
  obtain ⟨v, mem₁, env₁, h1, h2, h3, h4, h5⟩ := hcomp raw mem env hm henv (by omega)
  obtain ⟨m1, m2⟩ := run_mode h1
  have e1 : env.mode = .fullAccess := by rw [henv]; rfl
  have e2 : env.memorySet = true := by rw [henv]
  obtain ⟨env₂, mem₂, g1, g2⟩ := epilogue_ends chk w' h2 he (m2.trans e2) h5 (by omega) (by omega) hp
  refine ⟨env₂, mem₂, ?_, g2, ?_⟩
  · unfold Endpoint.rest
    rw [run_andThen h1]
    exact g1
  · rw [(run_mode g1).1, m1, e1]

/-- The execution of an endpoint on the encoding of arguments, by a call or within a spawn. -/
theorem exec_endpoint {h : Hasher} (hc : NoCollision h) (chk chk' : Bool) (R : ValueRepr) {eng : Engine} {s : Storage}
    {name : Str} {calldata : Bytes} {target : Addr} {within : Bool} {acc : Acc} {memory : Bytes}
    {f : Str → Option Endpoint} {e : Endpoint} {args : Args} {x : ResultVal e.result} {bs : Bytes} {w' : View}
    {budget : Nat}
    (hcall : Starts chk' h eng s ⟨name, calldata, target, acc.template, within, .fullAccess⟩ acc
      (sdkModule chk R memory f)) (hend : IsEndpoint f name e)
    (ht : ∀ a ∈ args, a.1.Arg) (h8 : ∀ a ∈ args, ∀ u, a.1 ≠ .arr u 8) (hpar : e.params = args.map (·.1))
    (henc : Abi.encodeArgs args = some calldata)
    (hcomp : Computes chk' e acc target args (view h s) w' x budget)
    (hres : encodeResult e.result x = some bs)
    (hroom : 2 * calldata.length + 2 * vecSizes R e.params + budget + 2 * resultSize e.result ≤ memory.length)
    (h32 : memory.length < 2 ^ 32)
    (hfar : ∀ t ∈ e.params, 0 < vecSize R t → calldata.length ≤ vecSize R t)
    (hplain : ∀ t, e.result = some t → Plain t) :
    ∃ env' mem' logs, (exec chk' eng ⟨name, calldata, target, acc.template, within, .fullAccess⟩).eval (view h s) =
      (w', .ok (env', .ok (mem', logs))) ∧ takeReturndata env' mem' = some bs ∧ env'.mode = .fullAccess := by
  have key : ∃ env' mem', (runFunc chk' (sdkModule chk R memory f)
      ⟨name, calldata, target, acc.template, within, .fullAccess⟩
      { Env.new acc acc.template target .fullAccess with memorySet := true } () memory).eval (view h s) =
        (w', .ok (report { Env.new acc acc.template target .fullAccess with memorySet := true } name
          (env', .ok ((), mem')))) ∧ takeReturndata env' mem' = some bs ∧ env'.mode = .fullAccess := by
    by_cases hne : args = []
    · subst hne
      cases henc' : calldata with
      | cons b l => rw [henc'] at henc; cases henc
      | nil =>
        obtain ⟨env', mem', g1, g2, g3⟩ := rest_ends hcomp (raw := []) (mem := memory) (bs := bs)
          (env := { Env.new acc acc.template target .fullAccess with memorySet := true }) rfl rfl
          (by change 0 + budget + _ ≤ _; omega) h32 hres hplain
        refine ⟨env', mem', ?_, g2, g3⟩
        rw [C98_no_parameters_partial chk chk' R memory (call := ⟨name, [], target, acc.template, within, .fullAccess⟩)
          (view h s) hend rfl hpar, Prog.eval_bind_ok g1]
        rfl
    · obtain ⟨raw, mem₁, g1, g2, g3⟩ := C96_args_partial chk chk' R memory
        (call := ⟨name, calldata, target, acc.template, within, .fullAccess⟩)
        (env := { Env.new acc acc.template target .fullAccess with memorySet := true }) (mem := memory) (view h s)
        hend ht h8 hpar hne henc rfl rfl hfar
        (by change 0 + 2 * calldata.length + _ ≤ _; omega) h32
      have hu : ∀ n, ({ startEnv { Env.new acc acc.template target .fullAccess with memorySet := true } n with
          usedMemory := 0 + n + vecSizes R e.params } : Env).usedMemory = 0 + n + vecSizes R e.params := fun _ => rfl
      obtain ⟨env', mem', k1, k2, k3⟩ := rest_ends hcomp (raw := raw) (mem := mem₁) (bs := bs)
        (env := { startEnv { Env.new acc acc.template target .fullAccess with memorySet := true }
          calldata.length with usedMemory := 0 + calldata.length + vecSizes R e.params }) g1 rfl
        (by rw [hu]; omega) (by omega) hres hplain
      refine ⟨env', mem', ?_, k2, k3⟩
      rw [g3]
      exact Prog.eval_bind_ok k1
  obtain ⟨env', mem', k1, k2, k3⟩ := key
  have hx := exec_started hc (c := ⟨name, calldata, target, acc.template, within, .fullAccess⟩) hcall rfl rfl
  exact ⟨_, _, _, hx.trans k1, k2, k3⟩

/-- The body of an endpoint, on values that mean `args` and on the storage `w`, traps and leaves the storage `w'`. -/
def Traps (chk : Bool) (e : Endpoint) (acc : Acc) (target : Addr) (args : Args) (w w' : View) : Prop :=
  ∀ (raw : RawArgs) (mem : Bytes) (env : Env), meanings mem raw = some args →
    env = { Env.new acc acc.template target .fullAccess with
      memorySet := true, usedMemory := env.usedMemory, calldata := env.calldata } →
    ∃ msg env', ((e.body raw mem).run chk env).eval w = (w', .ok (env', .error msg))

/-- The execution of an endpoint whose body traps. -/
theorem exec_traps {h : Hasher} (hc : NoCollision h) (chk chk' : Bool) (R : ValueRepr) {eng : Engine} {s : Storage}
    {name : Str} {calldata : Bytes} {target : Addr} {within : Bool} {acc : Acc} {memory : Bytes}
    {f : Str → Option Endpoint} {e : Endpoint} {args : Args} {w' : View}
    (hcall : Starts chk' h eng s ⟨name, calldata, target, acc.template, within, .fullAccess⟩ acc
      (sdkModule chk R memory f)) (hend : IsEndpoint f name e)
    (ht : ∀ a ∈ args, a.1.Arg) (h8 : ∀ a ∈ args, ∀ u, a.1 ≠ .arr u 8) (hpar : e.params = args.map (·.1))
    (hne : args ≠ []) (henc : Abi.encodeArgs args = some calldata)
    (htrap : Traps chk' e acc target args (view h s) w')
    (hroom : 2 * calldata.length + 2 * vecSizes R e.params ≤ memory.length) (h32 : memory.length < 2 ^ 32)
    (hfar : ∀ t ∈ e.params, 0 < vecSize R t → calldata.length ≤ vecSize R t) :
    ∃ env' f, (exec chk' eng ⟨name, calldata, target, acc.template, within, .fullAccess⟩).eval (view h s) =
      (w', .ok (env', .error f)) := by
  obtain ⟨raw, mem₁, g1, -, g3⟩ := C96_args_partial chk chk' R memory
    (call := ⟨name, calldata, target, acc.template, within, .fullAccess⟩)
    (env := { Env.new acc acc.template target .fullAccess with memorySet := true }) (mem := memory) (view h s)
    hend ht h8 hpar hne henc rfl rfl hfar
    (by change 0 + 2 * calldata.length + _ ≤ _; omega) h32
  obtain ⟨msg, env', k1⟩ := htrap raw mem₁ { startEnv { Env.new acc acc.template target .fullAccess with memorySet := true }
    calldata.length with usedMemory := 0 + calldata.length + vecSizes R e.params } g1 rfl
  have k2 := run_andThen_trap (k := fun v mem => epilogue e.result v mem) k1
  have key : (runFunc chk' (sdkModule chk R memory f)
      ⟨name, calldata, target, acc.template, within, .fullAccess⟩
      { Env.new acc acc.template target .fullAccess with memorySet := true } () memory).eval (view h s) =
        (w', .ok (report { Env.new acc acc.template target .fullAccess with memorySet := true } name
          (env', .error msg))) := by
    rw [g3]
    exact Prog.eval_bind_ok k2
  have hx := exec_started hc (c := ⟨name, calldata, target, acc.template, within, .fullAccess⟩) hcall rfl rfl
  exact ⟨_, _, hx.trans key⟩

/-- A program that fails gives a failure receipt. -/
theorem execCall_fails {h : Hasher} (hc : NoCollision h) {s : Storage} (hi : Inv s) {chk : Bool} {o : Orders}
    {eng : Engine} {c : Call} {env : Env} {f : Failure} {w : View}
    (hok : (exec chk eng c).eval (view h s) = (w, .ok (env, .error f))) :
    ∃ s' r, execCall chk h o eng c s = (s', some r) ∧ r.success = false ∧ view h s' = w := by
  have hv := view_execCall (h := h) hi chk o eng c
  rw [view_after hc, hok] at hv
  have hx : execCall chk h o eng c s = (after h (exec chk eng c) s, some (CallReceipt.fromErr f.1 f.2)) := by
    unfold execCall
    rw [run_out, out_of_eval hc hok]
  rw [hx] at hv
  exact ⟨_, _, hx, rfl, hv⟩

/-! ## C124 -/

/-- C124, for results without addresses, and arrays whose vectors are at least as large as the calldata. -/
theorem C124_answers_partial {h : Hasher} (hc : NoCollision h) (chk chk' : Bool) (R : ValueRepr) (o : Orders)
    (eng : Engine) (s : Storage) (message rest : Bytes) (tx : Transaction) (acc : Acc) (memory : Bytes)
    (f : Str → Option Endpoint) (e : Endpoint) (args : Args) (x : ResultVal e.result) (bs : Bytes) (w' : View)
    (budget : Nat) (hr : Reach h s) (h0 : 0 ≤ s.next.id) (hd : decTransaction message = .ok (tx, rest))
    (hcall : Callable chk' h eng s tx acc (sdkModule chk R memory f)) (hend : IsEndpoint f tx.funcName e)
    (ht : ∀ a ∈ args, a.1.Arg) (h8 : ∀ a ∈ args, ∀ u, a.1 ≠ .arr u 8) (hpar : e.params = args.map (·.1))
    (henc : Abi.encodeArgs args = some tx.calldata)
    (hcomp : Computes chk' e acc tx.target args (view h s) w' x budget)
    (hres : encodeResult e.result x = some bs)
    (hroom : 2 * tx.calldata.length + 2 * vecSizes R e.params + budget + 2 * resultSize e.result ≤ memory.length)
    (h32 : memory.length < 2 ^ 32)
    (hfar : ∀ t ∈ e.params, 0 < vecSize R t → tx.calldata.length ≤ vecSize R t)
    (hplain : ∀ t, e.result = some t → Plain t) : Answers chk' h o eng message s bs w' := by
  unfold Answers
  rw [call_eq hc hd hcall.1]
  obtain ⟨env', mem', logs, hx, k2, k3⟩ := exec_endpoint hc chk chk' R hcall hend ht h8 hpar henc hcomp hres hroom h32
    hfar hplain
  obtain ⟨s', r, q1, q2, q3, -, q5⟩ := execCall_returns hc (o := o) (hr.ok hc).1 h0 hx
    (show (decide (env'.mode = .fullAccess)) = true from decide_eq_true k3) (data := bs) k2
  exact ⟨s', r, q1, q2, q3, q5⟩

/-! ## Concrete calls -/

/-- The engine that knows one template. -/
def oneEngine (m : Module) : Engine := fun _ => .ok m

/-- A call of `go` of account 2 of the demo world. -/
theorem demo_callable {h : Hasher} (hc : NoCollision h) (m : Module) (hl : m.linkError = none) (data : Bytes) :
    Callable true h (oneEngine m) (demoCommitted h) (chattyTx data) demoAcc m := by
  refine ⟨demo_acc hc, demoSections, [inName],
    { code := [0, 97, 115, 109], flags := 1, gasMode := .fixed, svmVersion := 0 }, ?_, rfl, ?_, rfl, rfl, hl⟩
  · have hr := ready_demo hc
    exact out_of_eval hc (eval_demoSections hr.core hr.noncore)
  · show goName ∈ [inName] ↔ false = true
    decide

theorem go_endpoint (e : Endpoint) : IsEndpoint (fun _ => some e) goName e :=
  ⟨rfl, by decide +kernel, by decide +kernel⟩

/-- `fn go(b: bool) -> bool`, which stores 7 in a variable and returns the opposite. -/
def flip : Endpoint where
  params := [.bool]
  result := some .bool
  body raw mem :=
    match raw with
    | [⟨.bool, b⟩] => .call mem (.set32 4 7) fun _ mem => .ret (!b) mem
    | _ => .trap unreachableMsg

theorem meanings_cons {mem : Bytes} {raw : RawArgs} {t : Ty} {v : t.Val} {args : Args}
    (h : meanings mem raw = some (⟨t, v⟩ :: args)) :
    ∃ x raw', raw = ⟨t, x⟩ :: raw' ∧ meaning t x mem = some v ∧ meanings mem raw' = some args := by
  cases raw with
  | nil => cases h
  | cons y raw' =>
    obtain ⟨u, y⟩ := y
    simp only [meanings] at h
    obtain ⟨z, h1, h2⟩ := Option.bind_eq_some_iff.1 h
    obtain ⟨l, h3, h4⟩ := Option.bind_eq_some_iff.1 h2
    simp only [Option.some.injEq, List.cons.injEq, Sigma.mk.injEq] at h4
    obtain ⟨⟨rfl, h5⟩, rfl⟩ := h4
    cases h5
    exact ⟨y, raw', rfl, h1, h3⟩

theorem meanings_nil {mem : Bytes} {raw : RawArgs} (h : meanings mem raw = some []) : raw = [] := by
  cases raw with
  | nil => rfl
  | cons y raw' =>
    simp only [meanings] at h
    obtain ⟨z, h1, h2⟩ := Option.bind_eq_some_iff.1 h
    obtain ⟨l, h3, h4⟩ := Option.bind_eq_some_iff.1 h2
    cases h4

/-- The storage after `set32 4 7`. -/
def flipView (w : View) : View := ((set32 true demoEnv 4 7).eval w).1

theorem flip_set : (set32 true demoEnv 4 7).eval (demoView 10 5) = (flipView (demoView 10 5), .ok ()) :=
  Prod.ext rfl (by decide +kernel)

theorem flip_computes (b : Bool) : Computes true flip demoAcc (exampleAddr 2) [⟨.bool, b⟩] (demoView 10 5)
    (flipView (demoView 10 5)) (!b) 0 := by
  intro raw mem env hm henv hroom
  obtain ⟨x, raw', rfl, h1, h2⟩ := meanings_cons hm
  cases meanings_nil h2
  cases h1
  refine ⟨!b, mem, env, ?_, rfl, rfl, Nat.le_refl _, by rw [henv]; rfl⟩
  have e : set32 true env 4 7 = set32 true demoEnv 4 7 := by
    rw [henv]
    rfl
  change (((set32 true env 4 7).bind _).bind _).eval _ = _
  rw [Prog.eval_bind, Prog.eval_bind, e, flip_set]
  rfl

/-- Non-vacuity of C124: a call of `flip`. -/
example (R : ValueRepr) : ∃ h, NoCollision h ∧ ∃ message, Answers true h ⟨.id, .id⟩
    (oneEngine (sdkModule true R (List.replicate 64 0) fun _ => some flip)) message (demoCommitted h)
    [Abi.BOOL_FALSE] (flipView (demoView 10 5)) ∧
    flipView (demoView 10 5) (.seg (exampleAddr 2) 0) ≠ demoView 10 5 (.seg (exampleAddr 2) 0) := by
  obtain ⟨h, hc⟩ := exists_noCollision
  obtain ⟨fp, hp, h0⟩ := demoCommitted_published hc
  refine ⟨h, hc, (encTransaction (chattyTx [Abi.BOOL_TRUE])).getD [], ?_, by decide +kernel⟩
  refine C124_answers_partial hc true true R _ _ _ _ [] (chattyTx [Abi.BOOL_TRUE]) demoAcc _ _ flip
    [⟨.bool, true⟩] false _ _ 0 (reach_demoCommitted h) (by omega) (by decide +kernel)
    (demo_callable hc _ rfl _) (go_endpoint _) ?_ ?_ rfl rfl ?_ rfl ?_ ?_ ?_ ?_
  · intro a ha
    cases List.mem_singleton.1 ha
    trivial
  · intro a ha
    cases List.mem_singleton.1 ha
    exact fun u => nofun
  · rw [view_demoCommitted hc]
    exact flip_computes true
  · change 2 * 1 + 2 * 0 + 0 + 2 * _ ≤ _
    decide
  · decide
  · intro t ht' hv
    cases List.mem_singleton.1 ht'
    exact absurd hv (Nat.lt_irrefl 0)
  · intro t ht'
    cases ht'
    trivial

/-- The endpoint that returns its last argument computes it. -/
theorem echo_computes (b : Bool) (a : Addr) (w : View) : Computes true (echo [.bool]) demoAcc (exampleAddr 2)
    [⟨.bool, b⟩, ⟨.address, a⟩] w w a 0 := by
  intro raw mem env hm henv hroom
  obtain ⟨x, raw', rfl, h1, h2⟩ := meanings_cons hm
  obtain ⟨p, raw', rfl, h3, h4⟩ := meanings_cons h2
  cases meanings_nil h4
  exact ⟨p, mem, env, rfl, h3, rfl, Nat.le_refl _, by rw [henv]; rfl⟩

/-- C124 fails: `fn go(b: bool, a: Address) -> Address { a }` returns another address. -/
theorem C124_claim_false (R : ValueRepr) : ¬ C124_claim R := by
  intro hcl
  obtain ⟨h, hc⟩ := exists_noCollision
  obtain ⟨fp, hp, h0⟩ := demoCommitted_published hc
  have hd : decTransaction ((encTransaction (chattyTx (0x10 :: 0x40 :: demoLast.1))).getD []) =
      .ok (chattyTx (0x10 :: 0x40 :: demoLast.1), []) := by decide +kernel
  have hcall := demo_callable hc (sdkModule true R (List.replicate 200 0) fun _ => some (echo [.bool])) rfl
    (0x10 :: 0x40 :: demoLast.1)
  obtain ⟨s', r, h1, h2, h3, -⟩ := hcl h hc true true ⟨.id, .id⟩ _ _ _ [] _ demoAcc (List.replicate 200 0) _ (echo [.bool])
    [⟨.bool, true⟩, ⟨.address, demoLast⟩] demoLast (0x40 :: demoLast.1) _ 0 (reach_demoCommitted h) (by omega) hd hcall
    (go_endpoint _) (by
      intro a ha
      simp only [List.mem_cons, List.not_mem_nil, or_false] at ha
      rcases ha with rfl | rfl <;> trivial) (by
      intro a ha
      simp only [List.mem_cons, List.not_mem_nil, or_false] at ha
      rcases ha with rfl | rfl <;> exact fun u => nofun) rfl rfl (echo_computes true demoLast _) rfl
    (by change 2 * 22 + 2 * 0 + 0 + 2 * 21 ≤ _; rw [List.length_replicate]; decide)
    (by rw [List.length_replicate]; decide)
  obtain ⟨env', mem2, l, g1, g2, g3, g4, g5⟩ := C97_echo_wrong true true R (List.replicate 200 0)
    (f := fun _ => some (echo [.bool]))
    (call := ⟨goName, 0x10 :: 0x40 :: demoLast.1, exampleAddr 2, demoTemplate, false, .fullAccess⟩)
    (env := { Env.new demoAcc demoTemplate (exampleAddr 2) .fullAccess with memorySet := true })
    (mem := List.replicate 200 0) (pre := [⟨.bool, true⟩]) (pb := [0x10]) (a := demoLast) (view h (demoCommitted h))
    (go_endpoint _) (by
      intro a ha
      cases List.mem_singleton.1 ha
      trivial) (by
      intro a ha
      cases List.mem_singleton.1 ha
      exact fun u n => nofun) rfl rfl rfl rfl
      (by rw [List.length_replicate]; decide) (by rw [List.length_replicate]; decide) (by decide) (by decide)
  have hx := exec_started hc hcall (st := ()) (mem := List.replicate 200 0) rfl rfl
  have hx := hx.trans g1
  obtain ⟨res, k1, k2⟩ := receipt_of (by rw [call_eq hc hd hcall.1] at h1; exact congrArg Prod.snd h1)
  have k3 := out_of_eval hc hx
  rw [k3] at k1
  cases k1
  rcases k2 with ⟨f, k4, -⟩ | ⟨mem, logs, data, k4, k5, -, k6, -⟩
  · cases k4
  · cases k4
    rw [g2] at k5
    cases k5
    rw [h3] at k6
    have k7 := (List.cons.inj (Option.some.inj k6)).2
    rw [← k7] at g5
    revert g5
    decide

end Svm.Sdk
