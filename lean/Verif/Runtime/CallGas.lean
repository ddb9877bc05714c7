import Verif.Runtime.Receipt
import Verif.Runtime.Machine
import Verif.Runtime.GasProps

/-!
# C146: the gas limit of a call
-/

namespace Svm.Runtime

open Svm.Codec Svm.Account
open Svm.Storage (Hasher Storage Inv)

/-! ## Calls with gas

`Runtime.Model` leaves out the gas of calls. Here it is carried to where the code carries it. -/

/-- `Call`, runtime/call.rs:9-24, with `gas_left`. -/
structure PaidCall extends Call where
  gasLeft : GasTank

/-- `compile_template`, runtime.rs:346-355; the parameter `_gas_left` is not used. -/
def compileTemplate (eng : Engine) (code : Bytes) (_gasLeft : GasTank) : Except Str Module := eng code

/-- `run`, runtime.rs:117-159. -/
def runPaid (chk : Bool) (eng : Engine) (call : PaidCall) (sections : Sections) (env : Env) :
    Prog (Env × Except Failure (Bytes × List Bytes)) := do
  match ← validateFuncUsage call.toCall sections with
  | .error f => return (env, .error f)
  | .ok () => do
    let code ← Prog.ofOption (codeSection sections)
    match compileTemplate eng code.code call.gasLeft with
    | .error msg =>
      return (env, .error (.compilationFailed env.targetAddr env.templateAddr msg, []))
    | .ok m => do
      let r ← instantiate chk m env
      match r.2 with
      | .error f => return (r.1, .error f)
      | .ok x =>
        if m.hasMemory then
          runFunc chk m call.toCall { r.1 with memorySet := true } x.1 x.2
        else .panic

/-- `exec`, runtime.rs:88-113. -/
def execPaid (chk : Bool) (eng : Engine) (call : PaidCall) :
    Prog (Env × Except Failure (Bytes × List Bytes)) := do
  let acc ← (load chk call.target).unwrap
  let t ← (templateAddr acc).unwrap
  let sections ← loadTemplate chk t
  let storage ← (load chk call.target).unwrap
  runPaid chk eng call sections (Env.new storage call.templateAddr call.target call.mode)

/-- `exec_call`, runtime.rs:83-86. -/
def execCallPaid (chk : Bool) (h : Hasher) (o : Orders) (eng : Engine) (call : PaidCall) (s : Storage) :
    Storage × Option CallReceipt :=
  let r := (execPaid chk eng call).run h s
  match r.2 with
  | .ok (env, .ok (mem, logs)) => outcomeToReceipt h o env mem logs r.1
  | .ok (_, .error f) => (r.1, some (CallReceipt.fromErr f.1 f.2))
  | _ => (r.1, none)

/-- `build_call`, runtime.rs:449-482, followed by `exec_call`. -/
def buildAndExecPaid (chk : Bool) (h : Hasher) (o : Orders) (eng : Engine) (tx : Transaction) (mode : AccessMode)
    (func : Str) (input : Bytes) (gasLeft : GasTank) (s : Storage) : Storage × Option CallReceipt :=
  let r := (buildCall chk tx mode func input).run h s
  match r.2 with
  | .ok call => execCallPaid chk h o eng ⟨call, gasLeft⟩ r.1
  | _ => (r.1, none)

/-- `Runtime::verify`, runtime.rs:667-695. -/
def verifyPaid (chk : Bool) (h : Hasher) (o : Orders) (eng : Engine) (envelope : Envelope) (message : Bytes)
    (s : Storage) : Storage × Option CallReceipt :=
  match decTransaction message with
  | .ok (tx, _) =>
    buildAndExecPaid chk h o eng tx .accessDenied svmVerify tx.verifydata (GasTank.new envelope.gasLimit) s
  | _ => (s, none)

/-- `Runtime::call`, runtime.rs:700-714. -/
def callPaid (chk : Bool) (h : Hasher) (o : Orders) (eng : Engine) (envelope : Envelope) (message : Bytes)
    (s : Storage) : Storage × Option CallReceipt :=
  match decTransaction message with
  | .ok (tx, _) =>
    buildAndExecPaid chk h o eng tx .fullAccess tx.funcName tx.calldata (GasTank.new envelope.gasLimit) s
  | _ => (s, none)

/-! ## Specification -/

/-- What a call of a host function costs, gas/src/pricing/resolvers/v0.rs:24-37. -/
def HostCall.cost : HostCall → Nat
  | .staticAlloc _ => 100
  | .calldataOffset => 10
  | .calldataLen => 10
  | .setReturndata _ _ => 20
  | .get32 _ => 100
  | .set32 _ _ => 1000000
  | .get64 _ => 200
  | .set64 _ _ => 2000000
  | .load160 _ _ => 500
  | .store160 _ _ => 5000000
  | .log _ _ => 3000
  | .transfer _ _ _ => 1000

/-- What the calls of host functions of an execution cost. -/
def hostCost (tr : List Step) : Nat := (tr.map fun st => st.call.cost).sum

/-- C146: a call succeeds only if its gas limit covers the calls of host functions that it makes. -/
def C146_claim : Prop :=
  ∀ (h : Hasher), NoCollision h → ∀ (chk : Bool) (o : Orders) (eng : Engine) (e : Envelope) (message rest : Bytes)
    (tx : Transaction) (s s' : Storage) (r : CallReceipt), decTransaction message = .ok (tx, rest) →
    callPaid chk h o eng e message s = (s', some r) → r.success = true →
    ∀ acc m tr₁ tr₂ tr₃ done fin,
      Starts chk h eng s ⟨tx.funcName, tx.calldata, tx.target, acc.template, false, .fullAccess⟩ acc m →
      Executes chk m ⟨tx.funcName, tx.calldata, tx.target, acc.template, false, .fullAccess⟩
        (Env.new acc acc.template tx.target .fullAccess) (view h s) tr₁ tr₂ tr₃ done fin →
      hostCost (tr₁ ++ tr₂ ++ tr₃) ≤ limitOf e.gasLimit

/-! ## The gas is not looked at -/

theorem callPaid_eq (chk : Bool) (h : Hasher) (o : Orders) (eng : Engine) (e : Envelope) (message : Bytes)
    (s : Storage) : callPaid chk h o eng e message s = call chk h o eng message s := rfl

theorem verifyPaid_eq (chk : Bool) (h : Hasher) (o : Orders) (eng : Engine) (e : Envelope) (message : Bytes)
    (s : Storage) : verifyPaid chk h o eng e message s = verify chk h o eng message s := rfl

/-- C146 is violated: whatever their gas limits, calls and verifications with the same message do the same. -/
theorem C146_blind (chk : Bool) (h : Hasher) (o : Orders) (eng : Engine) (e e' : Envelope) (message : Bytes)
    (s : Storage) : callPaid chk h o eng e message s = callPaid chk h o eng e' message s ∧
      verifyPaid chk h o eng e message s = verifyPaid chk h o eng e' message s := ⟨rfl, rfl⟩

/-! ## A call that logs as often as it wants -/

/-- Log the first byte of the memory `n` times. -/
def logs (mem : Bytes) : Nat → Guest (Unit × List Val)
  | 0 => .ret ((), []) mem
  | n + 1 => .call mem (.log 0 1) fun _ _ => logs mem n

/-- A module with 1 byte of memory, whose functions log it `n` times. -/
def noisyModule (n : Nat) : Module :=
  { σ := Unit
    linkError := none
    start := .ret () [1]
    hasMemory := true
    sig := fun _ => some .nullary
    invoke := fun _ _ _ _ => logs [1] n }

/-- Every code section is compiled to it. -/
def noisyEngine (n : Nat) : Engine := fun _ => .ok (noisyModule n)

/-- The calls that it makes. -/
def noise (n : Nat) : List Step := List.replicate n ⟨[1], .log 0 1⟩

theorem logs_runs (env : Env) (hm : env.memorySet = true) (w : View) (n : Nat) :
    Runs true (logs [1] n) env w (noise n) (.ok (((), []), [1]))
      { env with logs := env.logs ++ List.replicate n [1] } w := by
  induction n generalizing env with
  | zero =>
    rw [List.replicate_zero, List.append_nil]
    exact .ret
  | succ n ih =>
    have := ih { env with logs := env.logs ++ [[1]] } hm
    rw [List.append_assoc, List.singleton_append, ← List.replicate_succ] at this
    refine .call (v := .unit) (mem' := [1]) ?_ this
    unfold host readMem
    rw [hm]
    rfl

theorem noisy_starts {h : Hasher} (hc : NoCollision h) (n : Nat) :
    Starts true h (noisyEngine n) (demoCommitted h) (chattyCall []) demoAcc (noisyModule n) := by
  refine ⟨demo_acc hc, demoSections, [inName], { code := [0, 97, 115, 109], flags := 1, gasMode := .fixed, svmVersion := 0 },
    ?_, rfl, ?_, rfl, rfl, rfl⟩
  · have hr := ready_demo hc
    exact out_of_eval hc (eval_demoSections hr.core hr.noncore)
  · show goName ∈ [inName] ↔ false = true
    decide

theorem noisy_executes (n : Nat) (w : View) : Executes true (noisyModule n) (chattyCall [])
    (Env.new demoAcc demoTemplate (exampleAddr 2) .fullAccess) w [] [] (noise n) false (some [1]) := by
  have h := logs_runs { Env.new demoAcc demoTemplate (exampleAddr 2) .fullAccess with memorySet := true } rfl w n
  exact Executes.plain (m := noisyModule n) (st := ()) (mem := [1]) (r := .ok (((), []), [1])) .ret rfl rfl h

theorem hostCost_noise (n : Nat) : hostCost (noise n) = 3000 * n := by
  induction n with
  | zero => rfl
  | succ n ih =>
    show 3000 + hostCost (noise n) = _
    omega

theorem logged_noise (n : Nat) : logged (noise n) = List.replicate n [1] := by
  induction n with
  | zero => rfl
  | succ n ih => exact congrArg (List.cons [1]) ih

theorem noisy_returns {h : Hasher} (hc : NoCollision h) (n : Nat) :
    ∃ s' r, call true h ⟨.id, .id⟩ (noisyEngine n) (demoMessage goName) (demoCommitted h) = (s', some r) ∧
      r.success = true := by
  obtain ⟨fp, hp, h0⟩ := demoCommitted_published hc
  have hr := ready_demo hc
  have hinfo : ∃ nm, info (view h (demoCommitted h)) (exampleAddr 2) = some ⟨nm, demoTemplate⟩ := by
    have hm : (info (view h (demoCommitted h)) (exampleAddr 2)).map (·.template) = some demoTemplate := by
      rw [view_demoCommitted hc]
      decide +kernel
    obtain ⟨⟨nm, t⟩, h1, rfl⟩ := Option.map_eq_some_iff.1 hm
    exact ⟨nm, h1⟩
  obtain ⟨nm, hinfo⟩ := hinfo
  refine call_returns ((reach_demoCommitted h).ok hc).1 (by omega) demo_decode_go
    (env := { Env.new demoAcc demoTemplate (exampleAddr 2) .fullAccess with memorySet := true }) (mem := [1])
    (logs := List.replicate n [1]) (data := []) ?_ rfl rfl
  rw [out_eval hc, eval_txProg_demo hr.core hr.noncore (noisyEngine n) (demoTx goName) hinfo]
  rw [show (demoTx goName).target = exampleAddr 2 from rfl, show (demoTx goName).funcName = goName from rfl,
    show (demoTx goName).calldata = [] from rfl]
  have hrun := runs_iff.2 ⟨_, logs_runs { Env.new demoAcc demoTemplate (exampleAddr 2) .fullAccess with memorySet := true }
    rfl (view h (demoCommitted h)) n⟩
  have hfun : (runFunc true (noisyModule n) (chattyCall [])
      { Env.new demoAcc demoTemplate (exampleAddr 2) .fullAccess with memorySet := true } () [1]).eval
        (view h (demoCommitted h)) = (view h (demoCommitted h), .ok
          ({ Env.new demoAcc demoTemplate (exampleAddr 2) .fullAccess with memorySet := true },
            .ok ([1], List.replicate n [1]))) := by
    unfold runFunc
    rw [show lookupFunc (noisyModule n) _ (chattyCall []).funcName = .ok () from rfl]
    simp only [show (chattyCall []).funcInput.length = 0 from rfl, Nat.lt_irrefl, if_false]
    unfold wasmerCall
    rw [show (noisyModule n).invoke () (chattyCall []).funcName [] [1] = logs [1] n from rfl]
    simp only [Prog.bind_eq]
    rw [Prog.eval_bind_ok (Prog.eval_bind_ok hrun)]
    rfl
  have hrc : runCall true (noisyEngine n) (chattyCall []) demoSections
      (Env.new demoAcc demoTemplate (exampleAddr 2) .fullAccess) = runFunc true (noisyModule n) (chattyCall [])
        { Env.new demoAcc demoTemplate (exampleAddr 2) .fullAccess with memorySet := true } () [1] := rfl
  have := congrArg Prod.snd hfun
  rw [← hrc] at this
  exact this

/-- C146 is violated without limit: for every `n` there is a call that logs `n` times and succeeds, with every gas limit. -/
theorem C146_unpaid (n : Nat) : ∃ h, NoCollision h ∧ Reach h (demoCommitted h) ∧ ∀ e, ∃ s' r,
    callPaid true h ⟨.id, .id⟩ (noisyEngine n) e (demoMessage goName) (demoCommitted h) = (s', some r) ∧
      r.success = true ∧ r.logs = List.replicate n [1] := by
  obtain ⟨h, hc⟩ := exists_noCollision
  refine ⟨h, hc, reach_demoCommitted h, fun e => ?_⟩
  obtain ⟨s', r, h1, h2⟩ := noisy_returns hc n
  have := C123_call_partial hc true _ _ _ _ _ _ _ r demo_decode_go h1 demoAcc (noisyModule n) _ _ _ _ _
    (noisy_starts hc n) (noisy_executes n _) nofun
  exact ⟨s', r, h1, h2, this.logs.trans (logged_noise n)⟩

/-- C146 is violated. -/
theorem C146_claim_false : ¬ C146_claim := by
  intro hcl
  obtain ⟨h, hc⟩ := exists_noCollision
  obtain ⟨s', r, h1, h2⟩ := noisy_returns hc 1
  have h4 : callPaid true h ⟨.id, .id⟩ (noisyEngine 1) { demoEnvelope with gasLimit := some 0 } (demoMessage goName)
      (demoCommitted h) = (s', some r) := (callPaid_eq _ _ _ _ _ _ _).trans h1
  have h3 := hcl h hc true ⟨.id, .id⟩ (noisyEngine 1) { demoEnvelope with gasLimit := some 0 } (demoMessage goName) []
    (demoTx goName) (demoCommitted h) s' r demo_decode_go h4 h2 demoAcc (noisyModule 1) [] [] (noise 1) false (some [1])
    (noisy_starts hc 1) (noisy_executes 1 _)
  rw [List.append_nil, List.nil_append] at h3
  have h3 : hostCost (noise 1) ≤ 0 := h3
  rw [hostCost_noise] at h3
  omega

end Svm.Runtime
