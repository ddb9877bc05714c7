import Verif.Runtime.Frame
import Verif.Runtime.Templates
import Verif.Storage.GlobalState

/-!
# C139: a panic and the lock of the storage

`GlobalState` (crates/host/state/src/global_state.rs) keeps the storage behind a mutex. A panic while the guard
is held poisons the mutex, and `GlobalState::storage` (global_state.rs:164-168) panics on a poisoned mutex. The
functions of the runtime are executed here on the storage together with that flag; the C API catches the panics
(crates/host/runtime-ffi/src/c_api.rs:670-689) and goes on with the same runtime.
-/

namespace Svm.Runtime

open Svm.Codec Svm.Account
open Svm.Storage (Hasher Storage GlobalState Inv)

/-! ## Model -/

/-- Execution of a program on the storage behind its lock: a read or a write takes the lock, and panics if it is
poisoned (global_state.rs:164-168); a panic with the guard held poisons it. -/
def Prog.runLocked {α : Type} (h : Hasher) : Prog α → GlobalState → GlobalState × Outcome SErr α
  | .ret a, g => (g, .ok a)
  | .err e, g => (g, .err e)
  | .panic held, g => (⟨g.storage, g.poisoned || held⟩, .panic)
  | .get k f, g =>
    if g.poisoned then (g, .panic)
    else
      match Storage.get h g.storage k.text none with
      | .ok v => Prog.runLocked h (f v) g
      | .err e => (g, .err (.storage e))
      | .panic => (⟨g.storage, true⟩, .panic)
  | .set k v p, g =>
    if g.poisoned then (g, .panic)
    else Prog.runLocked h p ⟨Storage.upsert h g.storage k.text v, false⟩

/-- `commit_changes`, runtime.rs:858-867; `GlobalState.commit` includes the conversion of the layer number, which
happens after the guard is dropped (global_state.rs:119-122). -/
def commitChangesL (h : Hasher) (o : Orders) (env : Env) (g : GlobalState) : GlobalState × Option Hash :=
  if env.canWrite then
    let r := g.checkpoint h o.checkpoint
    match r.2 with
    | .ok () =>
      let c := r.1.commit o.commit
      match c.2 with
      | .ok x => (c.1, some (stateHash x.2))
      | _ => (c.1, none)
    | _ => (r.1, none)
  else (g, none)

/-- `outcome_to_receipt`, runtime.rs:869-880. -/
def outcomeToReceiptL (h : Hasher) (o : Orders) (env : Env) (mem : Bytes) (logs : List Bytes)
    (g : GlobalState) : GlobalState × Option CallReceipt :=
  match takeReturndata env mem with
  | none => (g, none)
  | some data =>
    let r := commitChangesL h o env g
    (r.1, r.2.map fun st =>
      { version := 0, success := true, error := none, newState := some st, returndata := some data
        gasUsed := none, touched := env.touched, logs })

/-- `exec_call`, runtime.rs:83-86. -/
def execCallL (chk : Bool) (h : Hasher) (o : Orders) (eng : Engine) (call : Call) (g : GlobalState) :
    GlobalState × Option CallReceipt :=
  let r := Prog.runLocked h (exec chk eng call) g
  match r.2 with
  | .ok (env, .ok (mem, logs)) => outcomeToReceiptL h o env mem logs r.1
  | .ok (_, .error f) => (r.1, some (CallReceipt.fromErr f.1 f.2))
  | _ => (r.1, none)

/-- `build_call` followed by `exec_call`, runtime.rs:449-482 and 83-86. -/
def buildAndExecL (chk : Bool) (h : Hasher) (o : Orders) (eng : Engine) (tx : Transaction)
    (mode : AccessMode) (func : Str) (input : Bytes) (g : GlobalState) : GlobalState × Option CallReceipt :=
  let r := Prog.runLocked h (buildCall chk tx mode func input) g
  match r.2 with
  | .ok call => execCallL chk h o eng call r.1
  | _ => (r.1, none)

/-- `Runtime::verify`, runtime.rs:667-695. -/
def verifyL (chk : Bool) (h : Hasher) (o : Orders) (eng : Engine) (message : Bytes) (g : GlobalState) :
    GlobalState × Option CallReceipt :=
  match decTransaction message with
  | .ok (tx, _) => buildAndExecL chk h o eng tx .accessDenied svmVerify tx.verifydata g
  | _ => (g, none)

/-- `Runtime::call`, runtime.rs:700-714. -/
def callL (chk : Bool) (h : Hasher) (o : Orders) (eng : Engine) (message : Bytes) (g : GlobalState) :
    GlobalState × Option CallReceipt :=
  match decTransaction message with
  | .ok (tx, _) => buildAndExecL chk h o eng tx .fullAccess tx.funcName tx.calldata g
  | _ => (g, none)

/-- `call_ctor`, runtime.rs:50-81. -/
def callCtorL (chk : Bool) (h : Hasher) (o : Orders) (eng : Engine) (spawn : SpawnAccount)
    (target principal : Addr) (g : GlobalState) : GlobalState × Option SpawnReceipt :=
  let r := execCallL chk h o eng
    { funcName := spawn.ctorName, funcInput := spawn.calldata, target
      templateAddr := spawn.templateAddr, withinSpawn := true, mode := .fullAccess } g
  (r.1, r.2.bind fun receipt =>
    intoSpawnReceipt
      { receipt with touched := setInsert (setInsert receipt.touched target) principal } target)

/-- The part of `spawn` after the gas checks, runtime.rs:649-663. -/
def spawnAccountL (chk : Bool) (h : Hasher) (o : Orders) (eng : Engine) (sp : SpawnAccount)
    (principal : Addr) (g : GlobalState) : GlobalState × Option SpawnReceipt :=
  let target := computeAccountAddr h sp
  let r := Prog.runLocked h (createAccount chk target sp.templateAddr sp.name 0 0) g
  match r.2 with
  | .ok () => callCtorL chk h o eng sp target principal r.1
  | _ => (r.1, none)

/-- The runtime, with the lock. -/
structure LState where
  gs : GlobalState
  cache : PriceCache

/-- `Runtime::spawn`, runtime.rs:620-664. -/
def spawnL (chk : Bool) (h : Hasher) (o : Orders) (eng : Engine) (pr : Pricer) (envelope : Envelope)
    (message : Bytes) (ls : LState) : LState × Option SpawnReceipt :=
  match decSpawn message with
  | .ok (sp, _) =>
    let r := Prog.runLocked h (loadTemplate chk sp.templateAddr) ls.gs
    match r.2 with
    | .ok sections =>
      match isCtor sections sp.ctorName with
      | none => (⟨r.1, ls.cache⟩, none)
      | some false =>
        (⟨r.1, ls.cache⟩, some (SpawnReceipt.fromErr (.funcNotCtor sp.templateAddr sp.ctorName) []))
      | some true =>
        let gas := checkGasForPayload message (GasTank.new envelope.gasLimit)
        let g := checkGasForFunc pr ls.cache sp.templateAddr sections sp.ctorName gas
        match g.2 with
        | none => (⟨r.1, g.1⟩, none)
        | some gas =>
          if gas.isEmpty then (⟨r.1, g.1⟩, some (SpawnReceipt.fromErr .oog []))
          else
            let x := spawnAccountL chk h o eng sp envelope.principal r.1
            (⟨x.1, g.1⟩, x.2)
    | _ => (⟨r.1, ls.cache⟩, none)
  | _ => (ls, none)

/-- `Runtime::deploy`, runtime.rs:581-617. -/
def deployL (chk : Bool) (h : Hasher) (envelope : Envelope) (message : Bytes) (g : GlobalState) :
    GlobalState × Option DeployReceipt :=
  match decSections chk none message with
  | .ok (sections, _) =>
    let price := payloadPrice message
    if gasLt envelope.gasLimit price then (g, some (DeployReceipt.fromErr .oog []))
    else
      match codeSection sections with
      | none => (g, none)
      | some c =>
        let addr := computeTemplateAddr h c
        let r := Prog.runLocked h (createTemplate addr sections sections) g
        match r.2 with
        | .ok () =>
          (r.1, some { version := 0, success := true, error := none, addr := some addr
                       gasUsed := some price, logs := [] })
        | _ => (r.1, none)
  | _ => (g, none)

/-- A program with its answer, as in `Node.step`. -/
def askL {α : Type} (h : Hasher) (f : α → Answer) (p : Prog α) (ls : LState) : LState × Answer :=
  let r := Prog.runLocked h p ls.gs
  (⟨r.1, ls.cache⟩, answerOf f r.2)

/-- The answer to an operation on layers. -/
def answerOp {ε α : Type} (f : α → Answer) : Outcome ε α → Answer
  | .ok a => f a
  | .err _ => .refused
  | .panic => .panic

/-- A receipt, or none if the runtime panicked. -/
def receiptOf {α : Type} (f : α → TxReceipt) : Option α → Answer
  | some r => .receipt (f r)
  | none => .panic

/-- One call of a public function of `Runtime`, with the lock (the functions cited at `Node.step`;
`current_layer` unwraps errors, runtime.rs:485-487). -/
def LNode.step (chk : Bool) (h : Hasher) (eng : Engine) (pr : Pricer) (o : Orders) (ls : LState) :
    Event → LState × Answer
  | .tx (.deploy e m) =>
    let r := deployL chk h e m ls.gs
    (⟨r.1, ls.cache⟩, receiptOf .deploy r.2)
  | .tx (.spawn e m) =>
    let r := spawnL chk h o eng pr e m ls
    (r.1, receiptOf .spawn r.2)
  | .tx (.call m) =>
    let r := callL chk h o eng m ls.gs
    (⟨r.1, ls.cache⟩, receiptOf .call r.2)
  | .tx (.verify m) =>
    let r := verifyL chk h o eng m ls.gs
    (⟨r.1, ls.cache⟩, receiptOf .verify r.2)
  | .create a t name b c => askL h (fun _ => .done) (createAccount chk a t name b c) ls
  | .credit a amount => askL h (fun _ => .done) (increaseBalance chk a amount) ls
  | .pay src dst amount => askL h (fun _ => .done) (transfer chk src dst amount) ls
  | .account a => askL h .account (getAccount chk a) ls
  | .commit =>
    let r := ls.gs.commit o.commit
    (⟨r.1, ls.cache⟩, answerOp (fun _ => .done) r.2)
  | .rewind l =>
    let r := ls.gs.rewind l
    (⟨r.1, ls.cache⟩, answerOp (fun _ => .done) r.2)
  | .layer =>
    let r := ls.gs.currentLayer
    (⟨r.1, ls.cache⟩, match r.2 with
      | .ok x => .layer x.1 x.2
      | _ => .panic)
  | .uncommitted =>
    let r := ls.gs.hasUncommitted
    (⟨r.1, ls.cache⟩, answerOp .flag r.2)

/-- Many calls. -/
def LNode.run (chk : Bool) (h : Hasher) (eng : Engine) (pr : Pricer) (ls : LState) :
    List Event → (Nat → Orders) → LState × List Answer
  | [], _ => (ls, [])
  | e :: es, os =>
    let r := LNode.step chk h eng pr (os 0) ls e
    let r' := LNode.run chk h eng pr r.1 es fun n => os (n + 1)
    (r'.1, r.2 :: r'.2)

/-- A runtime whose lock is fine. -/
def healthy (rs : RState) : LState := ⟨⟨rs.storage, false⟩, rs.cache⟩

/-- A runtime whose lock is poisoned. -/
def poisonedAt (rs : RState) : LState := ⟨⟨rs.storage, true⟩, rs.cache⟩

/-! ## Spec -/

/-- The calls that poison the lock: a deploy with enough gas of sections that can be decoded but not encoded, the
creation of an account with a name of more than 255 bytes, and a rewind to a layer that does not exist. -/
def Event.Poisons (chk : Bool) (h : Hasher) (s : Storage) : Event → Prop
  | .tx (.deploy e m) => ∃ ss rest, decSections chk none m = .ok (ss, rest) ∧
      (∀ l, e.gasLimit = some l → 1000 * m.length % 2 ^ 64 ≤ l.toNat) ∧ (∃ c, Section.code c ∈ ss) ∧
      encSections ss = none
  | .create _ t name _ _ => 255 < name.1.length ∧ ∃ l, out h (templateLayout chk t) s = .ok l
  | .rewind l => s.next.id ≤ l ∨ 2 ^ 63 ≤ l
  | _ => False

/-- The calls that a runtime with a poisoned lock still answers: deploys without enough gas. -/
def Event.Broke (chk : Bool) : Event → Prop
  | .tx (.deploy e m) => ∃ ss rest l, decSections chk none m = .ok (ss, rest) ∧ e.gasLimit = some l ∧
      l.toNat < 1000 * m.length % 2 ^ 64
  | _ => False

/-- C139 in full: a panic concerns only the call that panics. Every history of calls on a new runtime is answered
as if the lock did not exist. -/
def C139_claim : Prop :=
  ∀ (h : Hasher), NoCollision h → ∀ (chk : Bool) (eng : Engine) (pr : Pricer) (o : Orders)
    (ts : List (Addr × Sections)) (rs : RState), GenesisOk h ts → Node.start h o ts = some rs →
    ∀ (es : List Event) (os : Nat → Orders),
      (LNode.run chk h eng pr (healthy rs) es os).2 = (Node.run chk h eng pr rs es os).2

/-! ## Programs that do not panic with the guard held -/

/-- No panic with the guard held, as long as the values read are ones the code writes. -/
def Prog.Calm {α : Type} : Prog α → Prop
  | .ret _ => True
  | .err _ => True
  | .panic held => held = false
  | .get k f => ∀ v, (∀ bs, v = some bs → ValueOk k bs) → Prog.Calm (f v)
  | .set _ _ p => Prog.Calm p

theorem Prog.Calm.bind {α β : Type} {p : Prog α} {f : α → Prog β} (hp : Prog.Calm p)
    (hf : ∀ a, Prog.Calm (f a)) : Prog.Calm (p.bind f) := by
  induction p with
  | ret a => exact hf a
  | err => trivial
  | panic held => exact hp
  | get k g ih => exact fun v hv => ih v (hp v hv)
  | set k v p ih => exact ih hp

theorem Prog.Calm.ofOption {α : Type} (o : Option α) : Prog.Calm (Prog.ofOption o) := by
  cases o
  · rfl
  · trivial

theorem Prog.Calm.unwrap {α : Type} {p : Prog α} (hp : Prog.Calm p) : Prog.Calm p.unwrap := by
  induction p with
  | ret => trivial
  | err => rfl
  | panic held => exact hp
  | get k g ih => exact fun v hv => ih v (hp v hv)
  | set k v p ih => exact ih hp

theorem Prog.Calm.attempt {α : Type} {p : Prog α} (hp : Prog.Calm p) : Prog.Calm (attempt p) := by
  induction p with
  | ret | err => trivial
  | panic held => exact hp
  | get k g ih => exact fun v hv => ih v (hp v hv)
  | set k v p ih => exact ih hp

/-- Execution with the lock and without. -/
theorem Prog.Calm.run {h : Hasher} (hc : NoCollision h) {α : Type} {p : Prog α} (hp : Prog.Calm p) (hs : p.Safe)
    {s : Storage} (ho : StoreOk h s) :
    Prog.runLocked h p ⟨s, false⟩ = (⟨(p.run h s).1, false⟩, (p.run h s).2) := by
  induction p generalizing s with
  | ret | err => rfl
  | panic held => cases held <;> first | rfl | cases hp
  | get k f ih =>
    simp only [Prog.runLocked, Prog.run, get_view, Bool.false_eq_true, if_false]
    exact ih _ (hp _ fun bs e => ho.view k bs e) (hs _) ho
  | set k v p ih => exact ih hp hs.2 (storeOk_upsert hc ho k hs.1)

theorem calm_readAndDecode {α : Type} (d : Dec α) (k : Key) : Prog.Calm (readAndDecode d k) := by
  intro v _
  cases v with
  | none => trivial
  | some bs =>
    show Prog.Calm (match d bs with | .ok (a, _) => .ret a | .err _ => .err .illegalData
                                    | .panic => .panic)
    split <;> trivial

theorem calm_encodeAndWrite {e : Enc} (he : e.isSome = true) (k : Key) : Prog.Calm (encodeAndWrite e k) := by
  cases e with
  | none => cases he
  | some bs => trivial

theorem encAccountMut_isSome (d : AccountMut) : (encAccountMut d).isSome = true := rfl

theorem calm_setBalance (acc : Acc) (b : U64) : Prog.Calm (setBalance acc b) :=
  (calm_readAndDecode _ _).bind fun _ => calm_encodeAndWrite (encAccountMut_isSome _) _

theorem calm_readSections (chk : Bool) (t : Addr) : Prog.Calm (readSections chk t) :=
  (calm_readAndDecode _ _).bind fun _ => (calm_readAndDecode _ _).bind fun _ => trivial

theorem calm_templateLayout (chk : Bool) (t : Addr) : Prog.Calm (templateLayout chk t) := by
  refine (calm_readSections chk t).bind fun s => ?_
  split <;> trivial

theorem calm_load (chk : Bool) (a : Addr) : Prog.Calm (load chk a) :=
  (calm_readAndDecode _ _).bind fun _ => (calm_templateLayout _ _).bind fun _ => trivial

theorem calm_balance (acc : Acc) : Prog.Calm (balance acc) := (calm_readAndDecode _ _).bind fun _ => trivial

theorem calm_counter (acc : Acc) : Prog.Calm (counter acc) := (calm_readAndDecode _ _).bind fun _ => trivial

theorem calm_templateAddr (acc : Acc) : Prog.Calm (templateAddr acc) :=
  (calm_readAndDecode _ _).bind fun _ => trivial

theorem calm_readSegment (a : Addr) (g : Segment) : Prog.Calm (readSegment a g) := by
  intro v hv
  show Prog.Calm (if (v.getD zeroSegment).length = segmentSize then pure (v.getD zeroSegment)
    else Prog.panic true)
  rw [if_pos]
  · trivial
  · cases v with
    | none => rfl
    | some bs => exact hv bs rfl

theorem calm_getLoop (chk : Bool) (a : Addr) (segs : List Segment) (var : Bytes) :
    Prog.Calm (getLoop chk a segs var) := by
  induction segs generalizing var with
  | nil => trivial
  | cons g segs ih =>
    refine (calm_readSegment _ _).bind fun bytes => (Prog.Calm.ofOption _).bind fun n => ?_
    show Prog.Calm (if _ then _ else _)
    split
    · exact (ih _).bind fun _ => trivial
    · rfl

theorem calm_setLoop (chk : Bool) (a : Addr) (segs : List Segment) (value : Bytes) :
    Prog.Calm (setLoop chk a segs value) := by
  induction segs generalizing value with
  | nil => trivial
  | cons g segs ih =>
    refine (calm_readSegment _ _).bind fun bytes => (Prog.Calm.ofOption _).bind fun n => ?_
    show Prog.Calm (if _ then _ else _)
    split
    · exact ih _
    · rfl

theorem calm_getVar (chk : Bool) (acc : Acc) (id : BitVec 32) (buf : Bytes) :
    Prog.Calm (getVar chk acc id buf) := by
  refine (Prog.Calm.ofOption _).bind fun v => ?_
  show Prog.Calm (if _ then _ else _)
  split
  · rfl
  · exact (Prog.Calm.ofOption _).bind fun _ => (Prog.Calm.ofOption _).bind fun _ =>
      (calm_getLoop _ _ _ _).bind fun _ => trivial

theorem calm_setVarBytes (chk : Bool) (acc : Acc) (id : BitVec 32) (value : Bytes) :
    Prog.Calm (setVarBytes chk acc id value) := by
  refine (Prog.Calm.ofOption _).bind fun v => ?_
  show Prog.Calm (if _ then _ else _)
  split
  · rfl
  · exact (Prog.Calm.ofOption _).bind fun _ => (Prog.Calm.ofOption _).bind fun _ => calm_setLoop _ _ _ _

theorem calm_getVarI64 (chk : Bool) (acc : Acc) (id : BitVec 32) : Prog.Calm (getVarI64 chk acc id) :=
  (calm_getVar _ _ _ _).bind fun _ => trivial

theorem calm_moveCoins (src dst : Acc) (a b amount : U64) : Prog.Calm (moveCoins src dst a b amount) := by
  unfold moveCoins
  split
  · rfl
  · refine (calm_setBalance _ _).unwrap.bind fun _ => ?_
    split
    · exact (calm_setBalance _ _).unwrap
    · rfl

theorem calm_svmTransfer (chk : Bool) (env : Env) (mem : Bytes) (src dst : U32) (amount : U64) :
    Prog.Calm (svmTransfer chk env mem src dst amount) := by
  unfold svmTransfer
  split
  · trivial
  · refine (Prog.Calm.ofOption _).bind fun a => (Prog.Calm.ofOption _).bind fun b => ?_
    split
    · exact (calm_load _ _).unwrap.bind fun _ => (calm_load _ _).unwrap.bind fun _ =>
        (calm_balance _).unwrap.bind fun _ => (calm_balance _).unwrap.bind fun _ =>
        (calm_moveCoins _ _ _ _ _).bind fun _ => trivial
    · rfl

theorem calm_host (chk : Bool) (env : Env) (mem : Bytes) (c : HostCall) : Prog.Calm (host chk env mem c) := by
  have key : ∀ {α : Type} (b : Bool) (p : Prog α), Prog.Calm p → Prog.Calm (if b then p else .panic) := by
    intro α b p hp
    split
    · exact hp
    · rfl
  cases c with
  | staticAlloc | calldataOffset | calldataLen | setReturndata | log =>
    exact (Prog.Calm.ofOption _).bind fun _ => trivial
  | get32 var =>
    refine Prog.Calm.bind (key _ _ ?_) fun _ => trivial
    exact (calm_getVarI64 _ _ _).unwrap.bind fun _ => trivial
  | get64 var => exact Prog.Calm.bind (key _ _ (calm_getVarI64 _ _ _).unwrap) fun _ => trivial
  | set32 var value => exact Prog.Calm.bind (key _ _ (calm_setVarBytes _ _ _ _).unwrap) fun _ => trivial
  | set64 var value => exact Prog.Calm.bind (key _ _ (calm_setVarBytes _ _ _ _).unwrap) fun _ => trivial
  | load160 var ptr =>
    refine Prog.Calm.bind (key _ _ ?_) fun _ => trivial
    exact (Prog.Calm.ofOption _).bind fun _ => (calm_getVar _ _ _ _).unwrap.bind fun _ => trivial
  | store160 ptr var =>
    refine Prog.Calm.bind ?_ fun _ => trivial
    exact (Prog.Calm.ofOption _).bind fun _ => key _ _ (calm_setVarBytes _ _ _ _).unwrap
  | transfer src dst amount => exact (calm_svmTransfer _ _ _ _ _ _).bind fun _ => trivial

theorem calm_guest {α : Type} (chk : Bool) (g : Guest α) (env : Env) : Prog.Calm (g.run chk env) := by
  induction g generalizing env with
  | ret | trap => trivial
  | call mem c k ih => exact (calm_host _ _ _ _).bind fun r => ih _ _ _

theorem calm_wasmerCall {α : Type} (chk : Bool) (env : Env) (func : Str) (g : Guest α) :
    Prog.Calm (wasmerCall chk env func g) := by
  refine (calm_guest _ _ _).bind fun r => ?_
  split <;> trivial

theorem calm_callAlloc (chk : Bool) (m : Module) (st : m.σ) (env : Env) (mem : Bytes) (n : Nat) :
    Prog.Calm (callAlloc chk m st env mem n) := by
  unfold callAlloc
  simp only
  split
  · refine (calm_wasmerCall _ _ _ _).bind fun r => ?_
    split
    · trivial
    · split <;> trivial
  · trivial

theorem calm_runFunc (chk : Bool) (m : Module) (call : Call) (env : Env) (st : m.σ) (mem : Bytes) :
    Prog.Calm (runFunc chk m call env st mem) := by
  unfold runFunc
  split
  · trivial
  · split
    · refine (calm_callAlloc _ _ _ _ _ _).bind fun r => ?_
      split
      · trivial
      · split
        · refine (Prog.Calm.ofOption _).bind fun me => (calm_wasmerCall _ _ _ _).bind fun r => ?_
          split <;> trivial
        · rfl
    · refine (calm_wasmerCall _ _ _ _).bind fun r => ?_
      split <;> trivial

theorem calm_instantiate (chk : Bool) (m : Module) (env : Env) : Prog.Calm (instantiate chk m env) := by
  unfold instantiate
  split
  · trivial
  · refine (calm_guest _ _ _).bind fun r => ?_
    split <;> trivial

theorem calm_validate (call : Call) (ss : Sections) : Prog.Calm (validateFuncUsage call ss) := by
  refine (Prog.Calm.ofOption _).bind fun b => ?_
  split <;> split <;> trivial

theorem calm_runCall (chk : Bool) (eng : Engine) (call : Call) (ss : Sections) (env : Env) :
    Prog.Calm (runCall chk eng call ss env) := by
  refine (calm_validate _ _).bind fun r => ?_
  split
  · trivial
  · refine (Prog.Calm.ofOption _).bind fun code => ?_
    split
    · trivial
    · refine (calm_instantiate _ _ _).bind fun r => ?_
      split
      · trivial
      · split
        · exact calm_runFunc _ _ _ _ _ _
        · rfl

theorem calm_exec (chk : Bool) (eng : Engine) (call : Call) : Prog.Calm (exec chk eng call) :=
  (calm_load _ _).unwrap.bind fun _ => (calm_templateAddr _).unwrap.bind fun _ =>
    (calm_readSections _ _).unwrap.bind fun _ => (calm_load _ _).unwrap.bind fun _ => calm_runCall _ _ _ _ _

theorem calm_buildCall (chk : Bool) (tx : Transaction) (mode : AccessMode) (func : Str) (input : Bytes) :
    Prog.Calm (buildCall chk tx mode func input) :=
  (calm_load _ _).unwrap.bind fun _ => (calm_templateAddr _).unwrap.bind fun _ => trivial

theorem encAccountData_isSome {name : Str} (hn : name.1.length ≤ 255) (t : Addr) :
    (encAccountData { name, template := t }).isSome = true := by
  obtain ⟨bs, hb⟩ := Option.isSome_iff_exists.1 ((encStr_isSome name).2 hn)
  simp [encAccountData, hb, Enc.seq, encByte, encArr]

theorem calm_create (chk : Bool) (a t : Addr) {name : Str} (hn : name.1.length ≤ 255) (b : U64) (c : U128) :
    Prog.Calm (create chk a name t b c) :=
  (calm_templateLayout _ _).bind fun _ => (calm_encodeAndWrite (encAccountData_isSome hn t) _).bind fun _ =>
    (calm_encodeAndWrite (encAccountMut_isSome _) _).bind fun _ => trivial

theorem calm_createAccount (chk : Bool) (a t : Addr) {name : Str} (hn : name.1.length ≤ 255) (b : U64)
    (c : U128) : Prog.Calm (createAccount chk a t name b c) :=
  (calm_create _ _ _ hn _ _).unwrap.bind fun _ => trivial

theorem calm_increaseBalance (chk : Bool) (a : Addr) (amount : U64) :
    Prog.Calm (increaseBalance chk a amount) := by
  refine (calm_load _ _).unwrap.bind fun acc => (calm_balance _).unwrap.bind fun b => ?_
  split
  · exact (calm_setBalance _ _).unwrap
  · rfl

theorem calm_getAccount (chk : Bool) (a : Addr) : Prog.Calm (getAccount chk a) :=
  Prog.Calm.attempt ((calm_load _ _).bind fun _ => (calm_balance _).bind fun _ => (calm_counter _).bind fun _ =>
    (calm_templateAddr _).bind fun _ => trivial)

theorem calm_transfer (chk : Bool) (src dst : Addr) (amount : U64) : Prog.Calm (transfer chk src dst amount) := by
  refine (calm_load _ _).unwrap.bind fun acc => (calm_getAccount _ _).bind fun x => ?_
  cases x with
  | none => rfl
  | some _ =>
    exact (calm_load _ _).unwrap.bind fun _ => (calm_balance _).unwrap.bind fun _ =>
      (calm_balance _).unwrap.bind fun _ => calm_moveCoins _ _ _ _ _

/-! ## With a lock that is fine -/

theorem commit_no_panic (ord : Svm.Storage.Ord) (s : Storage) : (Svm.Storage.commit ord s).2 ≠ .panic := by
  unfold Svm.Storage.commit
  split
  · nofun
  · dsimp only
    repeat' split
    all_goals simp

theorem commit_healthy (ord : Svm.Storage.Ord) (s : Storage) : GlobalState.commit ord ⟨s, false⟩ =
    (⟨(Svm.Storage.commit ord s).1, false⟩, GlobalState.layerOfId (Svm.Storage.commit ord s).2) := by
  have := commit_no_panic ord s
  simp only [GlobalState.commit, GlobalState.withStorage]
  revert this
  generalize Svm.Storage.commit ord s = r
  obtain ⟨s', r⟩ := r
  cases r <;> simp

theorem checkpoint_healthy (h : Hasher) (ord : Svm.Storage.Ord) (s : Storage) :
    GlobalState.checkpoint h ord ⟨s, false⟩ = (⟨Svm.Storage.checkpoint h ord s, false⟩, .ok ()) := rfl

theorem commitChanges_healthy (h : Hasher) (o : Orders) (env : Env) (s : Storage) :
    commitChangesL h o env ⟨s, false⟩ = (⟨(commitChanges h o env s).1, false⟩, (commitChanges h o env s).2) := by
  unfold commitChangesL commitChanges
  split
  · simp only [checkpoint_healthy, commit_healthy]
    cases (Svm.Storage.commit o.commit (Svm.Storage.checkpoint h o.checkpoint s)).2 with
    | ok x =>
      by_cases hx : 0 ≤ x.1 <;> simp only [GlobalState.layerOfId, hx, if_true, if_false]
    | err | panic => rfl
  · rfl

theorem outcomeToReceipt_healthy (h : Hasher) (o : Orders) (env : Env) (mem : Bytes) (logs : List Bytes)
    (s : Storage) : outcomeToReceiptL h o env mem logs ⟨s, false⟩ =
      (⟨(outcomeToReceipt h o env mem logs s).1, false⟩, (outcomeToReceipt h o env mem logs s).2) := by
  unfold outcomeToReceiptL outcomeToReceipt
  cases takeReturndata env mem with
  | none => rfl
  | some data => simp only [commitChanges_healthy]

theorem execCall_healthy {h : Hasher} (hc : NoCollision h) {s : Storage} (ho : StoreOk h s) (chk : Bool)
    (o : Orders) (eng : Engine) (call : Call) : execCallL chk h o eng call ⟨s, false⟩ =
      (⟨(execCall chk h o eng call s).1, false⟩, (execCall chk h o eng call s).2) := by
  unfold execCallL execCall
  simp only [(calm_exec chk eng call).run hc (safe_exec chk eng call) ho]
  cases ((exec chk eng call).run h s).2 with
  | ok x =>
    obtain ⟨env, r⟩ := x
    cases r with
    | ok r => exact outcomeToReceipt_healthy _ _ _ _ _ _
    | error => rfl
  | err | panic => rfl

theorem buildAndExec_healthy {h : Hasher} (hc : NoCollision h) {s : Storage} (hr : Reach h s) (chk : Bool)
    (o : Orders) (eng : Engine) (tx : Transaction) (mode : AccessMode) (func : Str) (input : Bytes) :
    buildAndExecL chk h o eng tx mode func input ⟨s, false⟩ =
      (⟨(buildAndExec chk h o eng tx mode func input s).1, false⟩,
        (buildAndExec chk h o eng tx mode func input s).2) := by
  have hs := readOnly_buildCall chk tx mode func input
  unfold buildAndExecL buildAndExec
  simp only [(calm_buildCall chk tx mode func input).run hc hs.safe (hr.ok hc).2, hs.run]
  cases ((buildCall chk tx mode func input).run h s).2 with
  | ok x => exact execCall_healthy hc (hr.ok hc).2 _ _ _ _
  | err | panic => rfl

theorem spawnAccount_healthy {h : Hasher} (hc : NoCollision h) {s : Storage} (hr : Reach h s) (chk : Bool)
    (o : Orders) (eng : Engine) (sp : SpawnAccount) (hn : sp.name.1.length ≤ 255) (principal : Addr) :
    spawnAccountL chk h o eng sp principal ⟨s, false⟩ =
      (⟨(spawnAccount chk h o eng sp principal s).1, false⟩, (spawnAccount chk h o eng sp principal s).2) := by
  have hsafe := safe_createAccount chk (computeAccountAddr h sp) sp.templateAddr sp.name 0 0
  have hr' := Reach.prog _ hsafe hr
  unfold spawnAccountL spawnAccount
  simp only [(calm_createAccount chk (computeAccountAddr h sp) sp.templateAddr hn 0 0).run hc hsafe (hr.ok hc).2]
  cases ((createAccount chk (computeAccountAddr h sp) sp.templateAddr sp.name 0 0).run h s).2 with
  | ok x =>
    simp only
    unfold callCtorL callCtor
    simp only [execCall_healthy hc (hr'.ok hc).2]
  | err | panic => rfl

theorem decSpawn_name {m rest : Bytes} {sp : SpawnAccount} (hd : decSpawn m = .ok (sp, rest)) :
    sp.name.1.length ≤ 255 := by
  have ht : Takes decSpawn fun _ sp => sp.name.1.length ≤ 255 :=
    (takes_num 2).bind fun _ _ _ => (takes_arr 20).bind fun _ _ _ => takes_str.bind fun _ _ hn =>
      takes_str.bind fun _ _ _ => (takes_data 1).bind fun _ _ _ => Takes.pure hn.2
  obtain ⟨-, -, h⟩ := ht _ _ _ hd
  exact h

theorem spawn_healthy {h : Hasher} (hc : NoCollision h) {rs : RState} (hr : Reach h rs.storage) (chk : Bool)
    (o : Orders) (eng : Engine) (pr : Pricer) (e : Envelope) (m : Bytes) :
    spawnL chk h o eng pr e m (healthy rs) =
      (healthy (spawn chk h o eng pr e m rs).1, (spawn chk h o eng pr e m rs).2) := by
  unfold spawnL spawn
  cases hd : decSpawn m with
  | ok x =>
    obtain ⟨sp, rest⟩ := x
    have hs := readOnly_loadTemplate chk sp.templateAddr
    have hcalm : Prog.Calm (loadTemplate chk sp.templateAddr) := (calm_readSections _ _).unwrap
    simp only [healthy, hcalm.run hc hs.safe (hr.ok hc).2, hs.run]
    cases ((loadTemplate chk sp.templateAddr).run h rs.storage).2 with
    | ok sections =>
      simp only
      cases isCtor sections sp.ctorName with
      | none => rfl
      | some b =>
        cases b with
        | false => rfl
        | true =>
          simp only
          cases (checkGasForFunc pr rs.cache sp.templateAddr sections sp.ctorName
            (checkGasForPayload m (GasTank.new e.gasLimit))).2 with
          | none => rfl
          | some gas =>
            simp only
            by_cases hg : gas.isEmpty = true
            · simp only [hg, if_true]
            · simp only [hg, Bool.false_eq_true, if_false,
                spawnAccount_healthy hc hr chk o eng sp (decSpawn_name hd)]
    | err | panic => rfl
  | err | panic => rfl

theorem gasLt_false {g : Gas} {m : Bytes} : gasLt g (payloadPrice m) = false ↔
    ∀ l, g = some l → 1000 * m.length % 2 ^ 64 ≤ l.toNat := by
  rw [Bool.eq_false_iff, Ne, gasLt_iff]
  unfold payloadPrice
  rw [BitVec.toNat_ofNat]
  constructor
  · intro hn l hl
    exact Nat.le_of_not_lt fun hlt => hn ⟨l, hl, hlt⟩
  · rintro hn ⟨l, hl, hlt⟩
    have := hn l hl
    omega

theorem createTemplate_calm {t : Addr} {ss : Sections} (he : (encSections ss).isSome = true) :
    Prog.Calm (createTemplate t ss ss) :=
  (calm_encodeAndWrite he _).bind fun _ => calm_encodeAndWrite he _

theorem deploy_healthy {h : Hasher} (hc : NoCollision h) {s : Storage} (hr : Reach h s) (chk : Bool)
    (e : Envelope) (m : Bytes) (hp : ¬ (Event.tx (.deploy e m)).Poisons chk h s) :
    deployL chk h e m ⟨s, false⟩ = (⟨(deploy chk h e m s).1, false⟩, (deploy chk h e m s).2) := by
  unfold deployL deploy
  cases hd : decSections chk none m with
  | ok x =>
    obtain ⟨ss, rest⟩ := x
    simp only
    by_cases hg : gasLt e.gasLimit (payloadPrice m) = true
    · simp only [hg, if_true]
    · simp only [hg, Bool.false_eq_true, if_false]
      cases hcs : codeSection ss with
      | none => rfl
      | some c =>
        have he : (encSections ss).isSome = true := by
          rw [Option.isSome_iff_ne_none]
          exact fun he => hp ⟨ss, rest, hd, gasLt_false.1 (by simpa using hg), ⟨c, codeSection_mem hcs⟩, he⟩
        simp only [(createTemplate_calm he).run hc (safe_createTemplate _ _ _) (hr.ok hc).2]
        cases ((createTemplate (computeTemplateAddr h c) ss ss).run h s).2 <;> rfl
  | err | panic => rfl

theorem ask_healthy {h : Hasher} (hc : NoCollision h) {rs : RState} (hr : Reach h rs.storage) {α : Type}
    (f : α → Answer) {p : Prog α} (hp : Prog.Calm p) (hs : p.Safe) :
    askL h f p (healthy rs) =
      (healthy ⟨(p.run h rs.storage).1, rs.cache⟩, answerOf f (p.run h rs.storage).2) := by
  unfold askL healthy
  simp only [hp.run hc hs (hr.ok hc).2]

theorem runLocked_bind {α β : Type} (h : Hasher) (p : Prog α) (f : α → Prog β) (g : GlobalState) :
    Prog.runLocked h (p.bind f) g = match Prog.runLocked h p g with
      | (g', .ok a) => Prog.runLocked h (f a) g'
      | (g', .err e) => (g', .err e)
      | (g', .panic) => (g', .panic) := by
  induction p generalizing g with
  | ret | err | panic => rfl
  | get k q ih =>
    simp only [Prog.bind, Prog.runLocked]
    split
    · rfl
    · cases Svm.Storage.get h g.storage k.text none with
      | ok v => exact ih v g
      | err | panic => rfl
  | set k v q ih =>
    simp only [Prog.bind, Prog.runLocked]
    split
    · rfl
    · exact ih _

/-- The creation of an account with a long name, on a lock that is fine. -/
theorem createAccount_long {h : Hasher} (hc : NoCollision h) {s : Storage} (hr : Reach h s) (chk : Bool)
    (a t : Addr) {name : Str} (hn : 255 < name.1.length) (b : U64) (c : U128) :
    (createAccount chk a t name b c).run h s = (s, .panic) ∧
    ((∃ l, out h (templateLayout chk t) s = .ok l) →
      Prog.runLocked h (createAccount chk a t name b c) ⟨s, false⟩ = (⟨s, true⟩, .panic)) ∧
    ((¬ ∃ l, out h (templateLayout chk t) s = .ok l) →
      Prog.runLocked h (createAccount chk a t name b c) ⟨s, false⟩ = (⟨s, false⟩, .panic)) := by
  have he : encAccountData { name, template := t } = none := by
    have : encStr name = none := by
      rw [← Option.not_isSome_iff_eq_none, encStr_isSome]
      omega
    simp [encAccountData, this, Enc.seq, encByte, encArr]
  have hp : createAccount chk a t name b c =
      (templateLayout chk t).unwrap.bind fun _ => (.panic true : Prog Unit) := by
    unfold createAccount create
    show (((templateLayout chk t).bind fun layout => _).unwrap).bind _ = _
    generalize templateLayout chk t = p
    induction p with
    | ret =>
      simp only [Prog.bind, Prog.unwrap, encodeAndWrite, he]
      rfl
    | err | panic => rfl
    | get k f ih => exact congrArg (Prog.get k) (funext fun v => ih v)
    | set k v q ih => exact congrArg (Prog.set k v) ih
  have hro := (readOnly_templateLayout chk t).unwrap
  have h1 := hro.run h s
  have h3 : (Prog.run h (templateLayout chk t).unwrap s).2 =
      match out h (templateLayout chk t) s with | .ok a => .ok a | _ => .panic := by
    rw [out_eval hc]
    refine ((templateLayout chk t).unwrap.run_eval hc s).1.trans ?_
    rw [Prog.eval_unwrap]
    generalize (templateLayout chk t).eval (view h s) = r
    obtain ⟨_, r⟩ := r
    cases r <;> rfl
  have h2 := (calm_templateLayout chk t).unwrap.run hc hro.safe (hr.ok hc).2
  rw [hp, runLocked_bind, Prog.run_bind, h2]
  rw [show Prog.run h (templateLayout chk t).unwrap s =
    ((Prog.run h (templateLayout chk t).unwrap s).1, (Prog.run h (templateLayout chk t).unwrap s).2) from rfl, h1, h3]
  cases out h (templateLayout chk t) s with
  | ok l => exact ⟨rfl, fun _ => rfl, fun hx => absurd ⟨l, rfl⟩ hx⟩
  | err | panic => exact ⟨rfl, fun hx => (nomatch hx.choose_spec), fun _ => rfl⟩

theorem receiptOf_map {α : Type} (f : α → TxReceipt) (x : Option α) : receiptOf f x =
    match x.map f with | some x => .receipt x | none => .panic := by
  cases x <;> rfl

/-! ## C139 -/

/-- C139: a call that does not poison the lock, on a lock that is fine, has the state and the answer that it has
without the lock, and leaves the lock fine. -/
theorem C139_step {h : Hasher} (hc : NoCollision h) {rs : RState} (hr : Reach h rs.storage) (chk : Bool)
    (eng : Engine) (pr : Pricer) (o : Orders) (e : Event) (hp : ¬ e.Poisons chk h rs.storage) :
    LNode.step chk h eng pr o (healthy rs) e =
      (healthy (Node.step chk h eng pr o rs e).1, (Node.step chk h eng pr o rs e).2) := by
  cases e with
  | tx t =>
    cases t with
    | deploy e m =>
      simp only [LNode.step, Node.step, perform, receiptOf_map]
      rw [show (healthy rs).gs = ⟨rs.storage, false⟩ from rfl, deploy_healthy hc hr chk e m hp]
      rfl
    | spawn e m =>
      simp only [LNode.step, Node.step, perform, receiptOf_map]
      rw [spawn_healthy hc hr]
      rfl
    | call m =>
      simp only [LNode.step, Node.step, perform, receiptOf_map]
      have : callL chk h o eng m ⟨rs.storage, false⟩ =
          (⟨(call chk h o eng m rs.storage).1, false⟩, (call chk h o eng m rs.storage).2) := by
        unfold callL call
        cases decTransaction m with
        | ok x => exact buildAndExec_healthy hc hr _ _ _ _ _ _ _
        | err | panic => rfl
      rw [show (healthy rs).gs = ⟨rs.storage, false⟩ from rfl, this]
      rfl
    | verify m =>
      simp only [LNode.step, Node.step, perform, receiptOf_map]
      have : verifyL chk h o eng m ⟨rs.storage, false⟩ =
          (⟨(verify chk h o eng m rs.storage).1, false⟩, (verify chk h o eng m rs.storage).2) := by
        unfold verifyL verify
        cases decTransaction m with
        | ok x => exact buildAndExec_healthy hc hr _ _ _ _ _ _ _
        | err | panic => rfl
      rw [show (healthy rs).gs = ⟨rs.storage, false⟩ from rfl, this]
      rfl
  | create a t name b c =>
    by_cases hn : name.1.length ≤ 255
    · exact ask_healthy hc hr _ (calm_createAccount chk a t hn b c) (safe_createAccount _ _ _ _ _ _)
    · have hn : 255 < name.1.length := by omega
      obtain ⟨h1, -, h3⟩ := createAccount_long hc hr chk a t hn b c
      have h3 := h3 fun hl => hp ⟨hn, hl⟩
      simp only [LNode.step, Node.step, askL]
      rw [show (healthy rs).gs = ⟨rs.storage, false⟩ from rfl, h1, h3]
      rfl
  | credit a amount =>
    exact ask_healthy hc hr _ (calm_increaseBalance chk a amount) (safe_increaseBalance _ _ _)
  | pay src dst amount =>
    exact ask_healthy hc hr _ (calm_transfer chk src dst amount) (safe_transfer _ _ _ _)
  | account a => exact ask_healthy hc hr _ (calm_getAccount chk a) (readOnly_getAccount _ _).safe
  | commit =>
    simp only [LNode.step, Node.step, commitLayer]
    rw [show (healthy rs).gs = ⟨rs.storage, false⟩ from rfl, commit_healthy]
    cases (Svm.Storage.commit o.commit rs.storage).2 with
    | ok x => by_cases hx : 0 ≤ x.1 <;> simp [GlobalState.layerOfId, hx, answerOp, healthy]
    | err | panic => rfl
  | rewind l =>
    have hp : ¬ (rs.storage.next.id ≤ l ∨ 2 ^ 63 ≤ l) := hp
    have h1 : l < 2 ^ 63 := by omega
    have h2 : (l : Int) < rs.storage.next.id := by omega
    have h3 : (Svm.Storage.rewind rs.storage l).2 ≠ .panic := by
      unfold Svm.Storage.rewind
      rw [if_pos h2]
      split
      · simp
      · split <;> simp
    simp only [LNode.step, Node.step, rewindTo, GlobalState.rewind, GlobalState.withStorage, healthy, h1, if_true,
      Bool.false_eq_true, if_false]
    revert h3
    generalize Svm.Storage.rewind rs.storage l = r
    obtain ⟨s', r⟩ := r
    cases r with
    | ok | err => exact fun _ => rfl
    | panic => exact fun hx => absurd rfl hx
  | layer =>
    simp only [LNode.step, Node.step, GlobalState.currentLayer, GlobalState.withStorage, healthy,
      Bool.false_eq_true, if_false, currentLayer, Svm.Storage.lastLayer]
    cases Svm.Storage.queryFingerprint rs.storage.db (rs.storage.next.id - 1) true with
    | none => rfl
    | some fp =>
      by_cases hx : 0 ≤ rs.storage.next.id - 1
      · simp only [GlobalState.layerOfId, hx, if_true]
        rw [Int.toNat_of_nonneg hx]
      · simp only [GlobalState.layerOfId, hx, if_false]
  | uncommitted => rfl

/-- C139: a call that poisons the lock panics and leaves the storage and the cache, with and without the lock. -/
theorem C139_poisons {h : Hasher} (hc : NoCollision h) {rs : RState} (hr : Reach h rs.storage) (chk : Bool)
    (eng : Engine) (pr : Pricer) (o : Orders) (e : Event) (hp : e.Poisons chk h rs.storage) :
    LNode.step chk h eng pr o (healthy rs) e = (poisonedAt rs, .panic) ∧
      Node.step chk h eng pr o rs e = (rs, .panic) := by
  cases e with
  | tx t =>
    cases t with
    | deploy e m =>
      obtain ⟨ss, rest, hd, hg, ⟨c, hcs⟩, he⟩ := hp
      have hg := gasLt_false.2 hg
      have hcs := codeSection_of_mem (decSections_decoded hd).1 hcs
      have h1 : deployL chk h e m ⟨rs.storage, false⟩ = (⟨rs.storage, true⟩, none) := by
        simp only [deployL, hd, hg, hcs, Bool.false_eq_true, if_false, eval_createTemplate_none he]
        rfl
      have h2 : deploy chk h e m rs.storage = (rs.storage, none) := by
        simp only [deploy, hd, hg, hcs, Bool.false_eq_true, if_false, eval_createTemplate_none he]
        rfl
      simp only [LNode.step, Node.step, perform, h2]
      rw [show (healthy rs).gs = ⟨rs.storage, false⟩ from rfl, h1]
      exact ⟨rfl, rfl⟩
    | spawn | call | verify => exact absurd hp (by simp [Event.Poisons])
  | create a t name b c =>
    obtain ⟨h1, h2, -⟩ := createAccount_long hc hr chk a t hp.1 b c
    simp only [LNode.step, Node.step, askL, h1]
    rw [show (healthy rs).gs = ⟨rs.storage, false⟩ from rfl, h2 hp.2]
    exact ⟨rfl, rfl⟩
  | rewind l =>
    have hp : rs.storage.next.id ≤ l ∨ 2 ^ 63 ≤ l := hp
    by_cases h1 : l < 2 ^ 63
    · have h2 : ¬ (l : Int) < rs.storage.next.id := by omega
      have h3 : Svm.Storage.rewind rs.storage l = (rs.storage, .panic) := by
        unfold Svm.Storage.rewind
        rw [if_neg h2]
      simp only [LNode.step, Node.step, rewindTo, GlobalState.rewind, GlobalState.withStorage, healthy, h1, if_true,
        Bool.false_eq_true, if_false, h3]
      exact ⟨rfl, trivial⟩
    · simp only [LNode.step, Node.step, rewindTo, GlobalState.rewind, GlobalState.withStorage, healthy, h1,
        Bool.false_eq_true, if_false]
      exact ⟨rfl, trivial⟩
  | credit | pay | account | commit | layer | uncommitted => exact absurd hp (by simp [Event.Poisons])

/-- The answer of a runtime with a poisoned lock. -/
def DeadAnswer (chk : Bool) (e : Event) (a : Answer) : Prop :=
  (e.Broke chk → a = .receipt (.deploy (DeployReceipt.fromErr .oog []))) ∧ (¬ e.Broke chk → a = .panic)

/-- C139: no program, whatever it does, changes the storage behind a poisoned lock or heals the lock. -/
theorem C139_forever {α : Type} (h : Hasher) (p : Prog α) (s : Storage) :
    (Prog.runLocked h p ⟨s, true⟩).1 = ⟨s, true⟩ := by
  cases p <;> simp [Prog.runLocked]

/-- The program begins with an access to the storage. -/
def _root_.Svm.Account.Prog.Needs {α : Type} : Prog α → Prop
  | .get _ _ => True
  | .set _ _ _ => True
  | _ => False

theorem _root_.Svm.Account.Prog.Needs.bind {α β : Type} {p : Prog α} (hp : p.Needs) (f : α → Prog β) : (p.bind f).Needs := by
  cases p <;> trivial

theorem _root_.Svm.Account.Prog.Needs.unwrap {α : Type} {p : Prog α} (hp : p.Needs) : p.unwrap.Needs := by
  cases p <;> trivial

theorem _root_.Svm.Account.Prog.Needs.attempt {α : Type} {p : Prog α} (hp : p.Needs) : (Svm.Runtime.attempt p).Needs := by
  cases p <;> trivial

theorem _root_.Svm.Account.Prog.Needs.poisoned {α : Type} {p : Prog α} (hp : p.Needs) (h : Hasher) (s : Storage) :
    Prog.runLocked h p ⟨s, true⟩ = (⟨s, true⟩, .panic) := by
  cases p <;> simp_all [Prog.runLocked, Prog.Needs]

theorem needs_readSections (chk : Bool) (t : Addr) : (readSections chk t).Needs := trivial

theorem needs_load (chk : Bool) (a : Addr) : (load chk a).Needs := trivial

theorem buildAndExec_poisoned (chk : Bool) (h : Hasher) (o : Orders) (eng : Engine) (tx : Transaction)
    (mode : AccessMode) (func : Str) (input : Bytes) (s : Storage) :
    buildAndExecL chk h o eng tx mode func input ⟨s, true⟩ = (⟨s, true⟩, none) := by
  have hn : (buildCall chk tx mode func input).Needs := (needs_load chk tx.target).unwrap.bind _
  simp only [buildAndExecL, hn.poisoned]

theorem createTemplate_poisoned (h : Hasher) (t : Addr) (ss : Sections) (s : Storage) :
    Prog.runLocked h (createTemplate t ss ss) ⟨s, true⟩ = (⟨s, true⟩, .panic) := by
  unfold createTemplate encodeAndWrite
  cases encSections ss <;> rfl

/-- C139: with a poisoned lock every call leaves the state and panics, except for deploys without enough gas. -/
theorem C139_poisoned (h : Hasher) (rs : RState) (chk : Bool) (eng : Engine) (pr : Pricer) (o : Orders) (e : Event) :
    ∃ a, LNode.step chk h eng pr o (poisonedAt rs) e = (poisonedAt rs, a) ∧ DeadAnswer chk e a := by
  have hdead : (¬ e.Broke chk) → DeadAnswer chk e .panic := fun hn => ⟨fun hb => absurd hb hn, fun _ => rfl⟩
  cases e with
  | tx t =>
    cases t with
    | deploy e m =>
      simp only [LNode.step]
      rw [show (poisonedAt rs).gs = ⟨rs.storage, true⟩ from rfl]
      unfold deployL
      cases hd : decSections chk none m with
      | ok x =>
        obtain ⟨ss, rest⟩ := x
        simp only
        by_cases hg : gasLt e.gasLimit (payloadPrice m) = true
        · simp only [hg, if_true]
          refine ⟨_, rfl, fun _ => rfl, fun hn => absurd ?_ hn⟩
          obtain ⟨l, h1, h2⟩ := (gasLt_iff _ _).1 hg
          unfold payloadPrice at h2
          rw [BitVec.toNat_ofNat] at h2
          exact ⟨ss, rest, l, hd, h1, h2⟩
        · simp only [hg, Bool.false_eq_true, if_false]
          have hn : ¬ (Event.tx (.deploy e m)).Broke chk := by
            rintro ⟨_, _, l, -, h1, h2⟩
            have := gasLt_false.1 (by simpa using hg) l h1
            omega
          cases codeSection ss with
          | none => exact ⟨_, rfl, hdead hn⟩
          | some c =>
            simp only [createTemplate_poisoned]
            exact ⟨_, rfl, hdead hn⟩
      | err | panic =>
        refine ⟨_, rfl, hdead ?_⟩
        rintro ⟨_, _, l, h1, -, -⟩
        rw [hd] at h1
        cases h1
    | spawn e m =>
      refine ⟨.panic, ?_, hdead (by simp [Event.Broke])⟩
      simp only [LNode.step]
      unfold spawnL
      cases decSpawn m with
      | ok x =>
        have hn : (loadTemplate chk x.1.templateAddr).Needs := (needs_readSections chk x.1.templateAddr).unwrap
        simp only [show (poisonedAt rs).gs = ⟨rs.storage, true⟩ from rfl, hn.poisoned]
        rfl
      | err | panic => rfl
    | call m =>
      refine ⟨.panic, ?_, hdead (by simp [Event.Broke])⟩
      simp only [LNode.step]
      unfold callL
      cases decTransaction m with
      | ok x =>
        simp only [show (poisonedAt rs).gs = ⟨rs.storage, true⟩ from rfl, buildAndExec_poisoned]
        rfl
      | err | panic => rfl
    | verify m =>
      refine ⟨.panic, ?_, hdead (by simp [Event.Broke])⟩
      simp only [LNode.step]
      unfold verifyL
      cases decTransaction m with
      | ok x =>
        simp only [show (poisonedAt rs).gs = ⟨rs.storage, true⟩ from rfl, buildAndExec_poisoned]
        rfl
      | err | panic => rfl
  | create a t name b c =>
    have hn : (createAccount chk a t name b c).Needs :=
      (((needs_readSections chk t).bind _).bind _).unwrap.bind _
    refine ⟨.panic, ?_, hdead (by simp [Event.Broke])⟩
    simp only [LNode.step, askL, show (poisonedAt rs).gs = ⟨rs.storage, true⟩ from rfl, hn.poisoned]
    rfl
  | credit a amount =>
    have hn : (increaseBalance chk a amount).Needs := (needs_load chk a).unwrap.bind _
    refine ⟨.panic, ?_, hdead (by simp [Event.Broke])⟩
    simp only [LNode.step, askL, show (poisonedAt rs).gs = ⟨rs.storage, true⟩ from rfl, hn.poisoned]
    rfl
  | pay src dst amount =>
    have hn : (transfer chk src dst amount).Needs := (needs_load chk src).unwrap.bind _
    refine ⟨.panic, ?_, hdead (by simp [Event.Broke])⟩
    simp only [LNode.step, askL, show (poisonedAt rs).gs = ⟨rs.storage, true⟩ from rfl, hn.poisoned]
    rfl
  | account a =>
    have hn : (getAccount chk a).Needs := Prog.Needs.attempt ((needs_load chk a).bind _)
    refine ⟨.panic, ?_, hdead (by simp [Event.Broke])⟩
    simp only [LNode.step, askL, show (poisonedAt rs).gs = ⟨rs.storage, true⟩ from rfl, hn.poisoned]
    rfl
  | commit | rewind | layer | uncommitted => exact ⟨.panic, rfl, hdead (by simp [Event.Broke])⟩

theorem poisoned_run (h : Hasher) (rs : RState) (chk : Bool) (eng : Engine) (pr : Pricer) (es : List Event)
    (os : Nat → Orders) :
    (LNode.run chk h eng pr (poisonedAt rs) es os).1 = poisonedAt rs ∧
      List.Forall₂ (DeadAnswer chk) es (LNode.run chk h eng pr (poisonedAt rs) es os).2 := by
  induction es generalizing os with
  | nil => exact ⟨rfl, .nil⟩
  | cons e es ih =>
    obtain ⟨a, h1, h2⟩ := C139_poisoned h rs chk eng pr (os 0) e
    simp only [LNode.run, h1]
    exact ⟨(ih _).1, .cons h2 (ih _).2⟩

/-- No call of the history poisons the lock, each in the state in which it is made. -/
def Calls.Calm (chk : Bool) (h : Hasher) (eng : Engine) (pr : Pricer) :
    RState → List Event → (Nat → Orders) → Prop
  | _, [], _ => True
  | rs, e :: es, os => ¬ e.Poisons chk h rs.storage ∧
      Calls.Calm chk h eng pr (Node.step chk h eng pr (os 0) rs e).1 es fun n => os (n + 1)

/-- C139: if no call of a history poisons the lock, the history is answered as if the lock did not exist. Missing:
the histories with such a call. -/
theorem C139_lock_partial {h : Hasher} (hc : NoCollision h) {rs : RState} (hr : Reach h rs.storage) (chk : Bool)
    (eng : Engine) (pr : Pricer) (es : List Event) (os : Nat → Orders) (hes : Calls.Calm chk h eng pr rs es os) :
    LNode.run chk h eng pr (healthy rs) es os =
      (healthy (Node.run chk h eng pr rs es os).1, (Node.run chk h eng pr rs es os).2) := by
  induction es generalizing rs os with
  | nil => rfl
  | cons e es ih =>
    simp only [LNode.run, Node.run, C139_step hc hr chk eng pr (os 0) e hes.1]
    rw [ih (reach_step hr chk eng pr (os 0) e) _ hes.2]

theorem lnode_run_append (chk : Bool) (h : Hasher) (eng : Engine) (pr : Pricer) (ls : LState) (es es' : List Event)
    (os : Nat → Orders) :
    LNode.run chk h eng pr ls (es ++ es') os =
      ((LNode.run chk h eng pr (LNode.run chk h eng pr ls es os).1 es' fun n => os (es.length + n)).1,
        (LNode.run chk h eng pr ls es os).2 ++
          (LNode.run chk h eng pr (LNode.run chk h eng pr ls es os).1 es' fun n => os (es.length + n)).2) := by
  induction es generalizing ls os with
  | nil => simp [LNode.run]
  | cons e es ih =>
    simp only [List.cons_append, LNode.run, ih, List.length_cons]
    simp only [Nat.add_right_comm]

/-- C139: after the first call that poisons the lock the runtime is dead. It keeps the storage of that moment, and
every later call panics, except for deploys without enough gas; so nothing is ever committed, rewound or read
again. -/
theorem C139_dead {h : Hasher} (hc : NoCollision h) {rs : RState} (hr : Reach h rs.storage) (chk : Bool)
    (eng : Engine) (pr : Pricer) (es : List Event) (e : Event) (es' : List Event) (os : Nat → Orders)
    (hes : Calls.Calm chk h eng pr rs es os)
    (he : e.Poisons chk h (Node.run chk h eng pr rs es os).1.storage) :
    (LNode.run chk h eng pr (healthy rs) (es ++ e :: es') os).1 = poisonedAt (Node.run chk h eng pr rs es os).1 ∧
    ∃ as, (LNode.run chk h eng pr (healthy rs) (es ++ e :: es') os).2 =
        (Node.run chk h eng pr rs es os).2 ++ .panic :: as ∧ List.Forall₂ (DeadAnswer chk) es' as := by
  have hr' := reach_history hr chk eng pr es os
  rw [lnode_run_append, C139_lock_partial hc hr chk eng pr es os hes]
  simp only [LNode.run, (C139_poisons hc hr' chk eng pr _ e he).1]
  have hd := poisoned_run h (Node.run chk h eng pr rs es os).1 chk eng pr es' fun n => os (es.length + (n + 1))
  exact ⟨hd.1, _, rfl, hd.2⟩

/-- C139: any sender can do that. A deploy message (of less than 4 GiB) with code that decodes to 255 constructors
or to a layout of 65535 variables, sent with enough gas, poisons the lock in every state. -/
theorem C139_by_message (h : Hasher) (s : Storage) (chk : Bool) (envelope : Envelope) (message rest : Bytes)
    (ss : Sections) (hlen : message.length < 4294967295) (hd : decSections chk none message = .ok (ss, rest))
    (hg : ∀ l, envelope.gasLimit = some l → 1000 * message.length ≤ l.toNat) (hcode : ∃ c, Section.code c ∈ ss)
    (hbad : (∃ cs, Section.ctors cs ∈ ss ∧ cs.length = 255) ∨
      ∃ ls, Section.data ls ∈ ss ∧ ∃ l ∈ ls, l.vars.length = 65535) :
    (Event.tx (.deploy envelope message)).Poisons chk h s := by
  refine ⟨ss, rest, hd, fun l hl => ?_, hcode, ?_⟩
  · have := hg l hl
    omega
  · cases he : encSections ss with
    | none => rfl
    | some bs =>
      have hf := (C43_encodes_iff ss (decSections_decoded hd).1).1 ⟨bs, he⟩
      rcases hbad with ⟨cs, h2, h3⟩ | ⟨ls, h2, l, h3, h4⟩
      · have := (hf _ h2).1.1
        omega
      · have := ((hf _ h2).1.2 l h3).1
        omega

/-- A deploy message with code and 255 empty names of constructors. -/
def ctorsMessage : Bytes :=
  [0, 2] ++ ([0, 3, 0, 0, 0, 0, 255] ++ List.replicate 255 0) ++
    [0, 1, 0, 0, 0, 0, 0, 1, 0, 0, 0, 0, 0, 0, 0, 1, 0, 0, 0, 0, 0, 0, 0, 1, 0, 0, 0, 0, 0, 0, 0, 0]

/-- Its sections. -/
def ctorsSections : Sections :=
  [.ctors (List.replicate 255 ⟨[], by decide⟩),
    .code { code := [], flags := 1, gasMode := .fixed, svmVersion := 0 }]

theorem ctorsMessage_decodes : decSections true none ctorsMessage = .ok (ctorsSections, []) := by decide +kernel

theorem ctorsMessage_poisons (h : Hasher) (s : Storage) :
    (Event.tx (.deploy demoEnvelope ctorsMessage)).Poisons true h s :=
  C139_by_message h s true demoEnvelope ctorsMessage [] ctorsSections (by decide +kernel) ctorsMessage_decodes
    (fun l hl => nomatch hl) ⟨_, List.mem_cons_of_mem _ List.mem_cons_self⟩
    (.inl ⟨_, List.mem_cons_self, List.length_replicate⟩)

/-- C139 as stated is false: after a deploy of 255 constructors the runtime does not even answer whether it has
uncommitted changes. -/
theorem C139_claim_false : ¬ C139_claim := by
  intro hcl
  obtain ⟨h, hc⟩ := exists_noCollision
  obtain ⟨rs, hs⟩ := demoGenesis_starts hc ⟨.id, .id⟩
  have hx := hcl h hc true idleEngine flatPricer ⟨.id, .id⟩ _ rs (demoGenesis_ok h) hs
    [.tx (.deploy demoEnvelope ctorsMessage), .uncommitted] (fun _ => ⟨.id, .id⟩)
  obtain ⟨h1, h2⟩ := C139_poisons hc (reach_start hs) true idleEngine flatPricer ⟨.id, .id⟩ _
    (ctorsMessage_poisons h rs.storage)
  simp only [LNode.run, Node.run, h1, h2] at hx
  cases hx

/-- Non-vacuity of C139: on a new runtime the history of three calls before the deploy is calm, and the deploy
poisons the lock. -/
example {h : Hasher} (hc : NoCollision h) (zero : Addr) : ∃ rs, Node.start h ⟨.id, .id⟩ (demoGenesis h) = some rs ∧
    Calls.Calm true h idleEngine flatPricer rs
      [.uncommitted, .commit, .account zero] (fun _ => ⟨.id, .id⟩) ∧
    (Event.tx (.deploy demoEnvelope ctorsMessage)).Poisons true h
      (Node.run true h idleEngine flatPricer rs
      [.uncommitted, .commit, .account zero] (fun _ => ⟨.id, .id⟩)).1.storage := by
  obtain ⟨rs, hs⟩ := demoGenesis_starts hc ⟨.id, .id⟩
  exact ⟨rs, hs, ⟨by simp [Event.Poisons], by simp [Event.Poisons], by simp [Event.Poisons], trivial⟩,
    ctorsMessage_poisons h _⟩

/-- Non-vacuity of `Event.Broke`. -/
example : (Event.tx (.deploy { demoEnvelope with gasLimit := some 7 } ctorsMessage)).Broke true :=
  ⟨_, _, 7, ctorsMessage_decodes, rfl, by decide +kernel⟩

end Svm.Runtime
