import Verif.Account.Props
import Verif.Codec.Receipts

/-!
# Model of `crates/host/runtime/src`

Wasm execution (Wasmer) is not modelled: a compiled program is an arbitrary interaction with the host
functions (`Guest`), with an arbitrary memory at every interaction. Everything the host does -
`vmcalls/*`, `func_env.rs`, `runtime/runtime.rs` - is modelled. `none` / `panic` is a Rust panic; a
panic inside a host function unwinds through Wasmer to the caller of the runtime.

`chk` says whether overflow checks and debug assertions are compiled in.
-/

namespace Svm.Runtime

open Svm.Codec Svm.Account
open Svm.Storage (Hasher Storage)

/-! ## The environment of a running transaction: func_env.rs -/

/-- `AccessMode`, func_env.rs:133-144. -/
inductive AccessMode where
  | accessDenied
  | immutableOnly
  | fullAccess
  deriving DecidableEq, Repr

/-- `FuncEnv` and `Inner`, func_env.rs:13-26 and 107-131. The set of touched accounts is a list
without repetitions; `memorySet` says whether `set_memory` was called (the memory itself is passed
with every host call); `used_memory` is a `u64` that never exceeds the size of the memory. Envelope
and context, which no host function reads, are left out. -/
structure Env where
  storage : Acc
  templateAddr : Addr
  targetAddr : Addr
  mode : AccessMode
  memorySet : Bool
  usedMemory : Nat
  calldata : Option (Nat × Nat)
  returndata : Option (Nat × Nat)
  logs : List Bytes
  touched : List Addr
  deriving DecidableEq

/-- `FuncEnv::new` and `Inner::new`, func_env.rs:30-53 and 147-162. -/
def Env.new (storage : Acc) (templateAddr targetAddr : Addr) (mode : AccessMode) : Env :=
  { storage, templateAddr, targetAddr, mode, memorySet := false, usedMemory := 0, calldata := none
    returndata := none, logs := [], touched := [storage.addr] }

/-- `can_read`, func_env.rs:245-248. -/
def Env.canRead (env : Env) : Bool := env.mode ≠ .accessDenied

/-- `can_write`, func_env.rs:250-253. -/
def Env.canWrite (env : Env) : Bool := env.mode = .fullAccess

/-- `touch_account`, func_env.rs:165-167. -/
def Env.touch (env : Env) (a : Addr) : Env := { env with touched := setInsert env.touched a }

/-! ## Host functions: vmcalls/*.rs -/

/-- The registered host functions with their arguments, vmcalls/mod.rs:32-50. -/
inductive HostCall where
  | staticAlloc (size : U32)
  | calldataOffset
  | calldataLen
  | setReturndata (offset length : U32)
  | get32 (var : U32)
  | set32 (var value : U32)
  | get64 (var : U32)
  | set64 (var : U32) (value : U64)
  | load160 (var ptr : U32)
  | store160 (ptr var : U32)
  | log (offset length : U32)
  | transfer (src dst : U32) (amount : U64)
  deriving DecidableEq, Repr

/-- What a host function returns. -/
inductive HostVal where
  | unit
  | i32 (v : U32)
  | i64 (v : U64)
  deriving DecidableEq, Repr

/-- `memory()` and a slice of it: func_env.rs:224-227 and the slicing expressions of
storage.rs:77-110, logs.rs:11-19. `none` is a panic (memory not set yet, or out of range). -/
def readMem (env : Env) (mem : Bytes) (offset length : Nat) : Option Bytes :=
  if env.memorySet && decide (offset + length ≤ mem.length) then
    some ((mem.drop offset).take length)
  else none

/-- Writing of bytes to the memory. -/
def writeMem (mem : Bytes) (offset : Nat) (bs : Bytes) : Bytes :=
  mem.take offset ++ (bs ++ mem.drop (offset + bs.length))

/-- `read_addr` and `read_memory_bytes`, transfer.rs:8-12, mod.rs:58-63. -/
def readAddr (env : Env) (mem : Bytes) (ptr : U32) : Option Addr :=
  if h : ((mem.drop ptr.toNat).take 20).length = 20 then
    if env.memorySet then some ⟨(mem.drop ptr.toNat).take 20, h⟩ else none
  else none

/-- The balances part of `svm_transfer`, transfer.rs:34-50, which is also the end of
`Runtime::transfer`, runtime.rs:783-791. -/
def moveCoins (src dst : Acc) (srcBal dstBal amount : U64) : Prog Unit :=
  if srcBal.toNat < amount.toNat then .panic
  else do
    (setBalance src (srcBal - amount)).unwrap
    if dstBal.toNat + amount.toNat < 2 ^ 64 then (setBalance dst (dstBal + amount)).unwrap
    else .panic

/-- `svm_transfer`, transfer.rs:19-54. -/
def svmTransfer (chk : Bool) (env : Env) (mem : Bytes) (src dst : U32) (amount : U64) :
    Prog Env :=
  if amount = 0 then return env
  else do
    let srcAddr ← Prog.ofOption (readAddr env mem src)
    let dstAddr ← Prog.ofOption (readAddr env mem dst)
    if env.canRead then do
      let srcAcc ← (load chk srcAddr).unwrap
      let dstAcc ← (load chk dstAddr).unwrap
      let srcBal ← (balance srcAcc).unwrap
      let dstBal ← (balance dstAcc).unwrap
      moveCoins srcAcc dstAcc srcBal dstBal amount
      return (env.touch srcAddr).touch dstAddr
    else .panic

/-- `static_alloc`, alloc.rs:9-26. -/
def staticAlloc (env : Env) (mem : Bytes) (size : U32) : Option (U32 × Env) :=
  if env.memorySet && decide (0 < size.toNat) then
    let newUsed := env.usedMemory + size.toNat
    if mem.length < newUsed then none
    else some (BitVec.ofNat 32 newUsed, { env with usedMemory := newUsed })
  else none

/-- `Inner::set_returndata`, func_env.rs:205-214. -/
def setReturndata (chk : Bool) (env : Env) (offset length : Nat) : Option Env :=
  if 0 < length ∧ (chk = false ∨ env.returndata = none) then
    some { env with returndata := some (offset, length) }
  else none

/-- `get32`, storage.rs:10-15. -/
def get32 (chk : Bool) (env : Env) (var : U32) : Prog U32 :=
  if env.canRead then do
    let x ← (getVarI64 chk env.storage var).unwrap
    return x.setWidth 32
  else .panic

/-- `set32`, storage.rs:23-29. -/
def set32 (chk : Bool) (env : Env) (var value : U32) : Prog Unit :=
  if env.canWrite then (setVarI32 chk env.storage var value).unwrap else .panic

/-- `get64`, storage.rs:36-41. -/
def get64 (chk : Bool) (env : Env) (var : U32) : Prog U64 :=
  if env.canRead then (getVarI64 chk env.storage var).unwrap else .panic

/-- `set64`, storage.rs:49-55. -/
def set64 (chk : Bool) (env : Env) (var : U32) (value : U64) : Prog Unit :=
  if env.canWrite then (setVarI64 chk env.storage var value).unwrap else .panic

/-- `store160`, storage.rs:62-64 and 77-96. -/
def store160 (chk : Bool) (env : Env) (mem : Bytes) (ptr var : U32) : Prog Unit := do
  let bytes ← Prog.ofOption (readMem env mem ptr.toNat 20)
  if env.canWrite then (setVarBytes chk env.storage var bytes).unwrap else .panic

/-- `load160`, storage.rs:73-75 and 98-110. Returns the memory afterwards. -/
def load160 (chk : Bool) (env : Env) (mem : Bytes) (var ptr : U32) : Prog Bytes :=
  if env.canRead then do
    let _ ← Prog.ofOption (readMem env mem ptr.toNat 20)
    let bytes ← (getVarArray chk 20 env.storage var).unwrap
    return writeMem mem ptr.toNat bytes
  else .panic

/-- A host function called with memory `mem`: its result, the memory and the environment
afterwards. -/
def host (chk : Bool) (env : Env) (mem : Bytes) : HostCall → Prog (HostVal × Bytes × Env)
  | .staticAlloc size => do
    let r ← Prog.ofOption (staticAlloc env mem size)
    return (.i32 r.1, mem, r.2)
  | .calldataOffset => do
    -- calldata.rs:4-6
    let c ← Prog.ofOption env.calldata
    return (.i32 (BitVec.ofNat 32 c.1), mem, env)
  | .calldataLen => do
    -- calldata.rs:9-11
    let c ← Prog.ofOption env.calldata
    return (.i32 (BitVec.ofNat 32 c.2), mem, env)
  | .setReturndata offset length => do
    -- returndata.rs:5-10
    let env' ← Prog.ofOption (setReturndata chk env offset.toNat length.toNat)
    return (.unit, mem, env')
  | .get32 var => do return (.i32 (← get32 chk env var), mem, env)
  | .set32 var value => do
    set32 chk env var value
    return (.unit, mem, env)
  | .get64 var => do return (.i64 (← get64 chk env var), mem, env)
  | .set64 var value => do
    set64 chk env var value
    return (.unit, mem, env)
  | .load160 var ptr => do return (.unit, ← load160 chk env mem var ptr, env)
  | .store160 ptr var => do
    store160 chk env mem ptr var
    return (.unit, mem, env)
  | .log offset length => do
    -- logs.rs:6-24
    let bytes ← Prog.ofOption (readMem env mem offset.toNat length.toNat)
    return (.unit, mem, { env with logs := env.logs ++ [bytes] })
  | .transfer src dst amount => do return (.unit, mem, ← svmTransfer chk env mem src dst amount)

/-! ## Wasm programs -/

/-- The rest of a Wasm execution: it returns with the final memory, traps with a message, or calls a
host function; `mem` is the memory at the call, which the program gets back, possibly changed.
Simplification: executions that never end are not represented. -/
inductive Guest (α : Type) : Type where
  | ret (a : α) (mem : Bytes)
  | trap (msg : Str)
  | call (mem : Bytes) (c : HostCall) (k : HostVal → Bytes → Guest α)

/-- Execution of a program with the host functions of `env`. -/
def Guest.run {α : Type} (chk : Bool) : Guest α → Env → Prog (Env × Except Str (α × Bytes))
  | .ret a mem, env => return (env, .ok (a, mem))
  | .trap msg, env => return (env, .error msg)
  | .call mem c k, env => do
    let r ← host chk env mem c
    (k r.1 r.2.1).run chk r.2.2

/-- Wasm values, as far as the runtime looks at them. -/
inductive Val where
  | i32 (v : U32)
  | other
  deriving DecidableEq, Repr

/-- Signatures of exported functions, as far as the runtime looks at them. -/
inductive Sig where
  /-- No arguments, no results. -/
  | nullary
  /-- One `i32` to one `i32`. -/
  | alloc
  | other
  deriving DecidableEq, Repr

/-- A compiled module, as seen through Wasmer: whether its imports are satisfied (`Instance::new`),
its start function, whether it exports a memory, the signatures of its exported functions, and their
behaviour. `σ` is the state of an instance apart from its memory. -/
structure Module where
  σ : Type
  linkError : Option Str
  start : Guest σ
  hasMemory : Bool
  sig : Str → Option Sig
  invoke : σ → Str → List Val → Bytes → Guest (σ × List Val)

/-- `Module::from_binary`: compilation of a code section, or an error message. -/
abbrev Engine := Bytes → Except Str Module

/-! ## Execution of one function: runtime.rs -/

/-- `RuntimeFailure`, types/src/error.rs. -/
abbrev Failure := RuntimeError × List Bytes

/-- `Call`, runtime/call.rs:10-22, without the fields that are not read. -/
structure Call where
  funcName : Str
  funcInput : Bytes
  target : Addr
  templateAddr : Addr
  withinSpawn : Bool
  mode : AccessMode
  deriving DecidableEq

/-- `Template::is_ctor`, types/src/template/mod.rs:186-189; `none` is the panic without a ctors
section. -/
def isCtor (sections : Sections) (func : Str) : Option Bool :=
  match sections.tryGet .ctors with
  | some (.ctors cs) => some (decide (func ∈ cs))
  | _ => none

/-- `Template::code_section`, types/src/template/mod.rs:119-122. -/
def codeSection (sections : Sections) : Option CodeSection :=
  match sections.tryGet .code with
  | some (.code c) => some c
  | _ => none

/-- The message of `ensure_not_ctor`, runtime.rs:398. -/
def notCtorMsg : Str :=
  ⟨ascii "expected function not to be a constructor".toList, by decide⟩

/-- `validate_func_usage`, `ensure_ctor` and `ensure_not_ctor`, runtime.rs:357-404. -/
def validateFuncUsage (call : Call) (sections : Sections) : Prog (Except Failure Unit) := do
  let b ← Prog.ofOption (isCtor sections call.funcName)
  if call.withinSpawn then
    if b then return .ok () else return .error (.funcNotCtor call.templateAddr call.funcName, [])
  else
    if b then
      return .error (.funcNotAllowed call.target call.templateAddr call.funcName notCtorMsg, [])
    else return .ok ()

/-- `wasmer_call`, runtime.rs:229-259. The logs collected so far are taken out of the environment. -/
def wasmerCall {α : Type} (chk : Bool) (env : Env) (func : Str) (g : Guest α) :
    Prog (Env × Except Failure (α × Bytes × List Bytes)) := do
  let r ← g.run chk env
  let env' := { r.1 with logs := [] }
  match r.2 with
  | .ok x => return (env', .ok (x.1, x.2, r.1.logs))
  | .error msg =>
    return (env', .error (.funcFailed env.targetAddr env.templateAddr func msg, r.1.logs))

/-- The name `svm_alloc`. -/
def svmAlloc : Str := ⟨ascii "svm_alloc".toList, by decide⟩

/-- The name `svm_verify`. -/
def svmVerify : Str := ⟨ascii "svm_verify".toList, by decide⟩

/-- `call_alloc`, runtime.rs:187-227. The mode is not restored on failure. -/
def callAlloc (chk : Bool) (m : Module) (st : m.σ) (env : Env) (mem : Bytes) (size : Nat) :
    Prog (Env × Except Failure (m.σ × Bytes × U32)) := do
  let origin := env.mode
  let env := { env with mode := .accessDenied }
  if m.sig svmAlloc = some .alloc then do
    let r ← wasmerCall chk env svmAlloc (m.invoke st svmAlloc [.i32 (BitVec.ofNat 32 size)] mem)
    match r.2 with
    | .error f => return (r.1, .error f)
    | .ok x =>
      match x.1.2 with
      | .i32 ptr :: _ => return ({ r.1 with mode := origin }, .ok (x.1.1, x.2.1, ptr))
      | _ => .panic
  else return (env, .error (.funcNotFound env.targetAddr env.templateAddr svmAlloc, []))

/-- `set_calldata`, runtime.rs:823-856: new memory and environment. -/
def setCalldata (env : Env) (mem calldata : Bytes) (ptr : U32) : Option (Bytes × Env) :=
  if ptr.toNat + calldata.length - 1 < mem.length then
    some (writeMem mem ptr.toNat calldata, { env with calldata := some (ptr.toNat, calldata.length) })
  else none

/-- `call_with_alloc`, runtime.rs:161-185. -/
def callWithAlloc (chk : Bool) (m : Module) (st : m.σ) (env : Env) (mem calldata : Bytes)
    (func : Str) : Prog (Env × Except Failure (Bytes × List Bytes)) := do
  let r ← callAlloc chk m st env mem calldata.length
  match r.2 with
  | .error f => return (r.1, .error f)
  | .ok x =>
    if r.1.returndata = none then do
      let me ← Prog.ofOption (setCalldata r.1 x.2.1 calldata x.2.2)
      let r' ← wasmerCall chk me.2 func (m.invoke x.1 func [] me.1)
      match r'.2 with
      | .error f => return (r'.1, .error f)
      | .ok y => return (r'.1, .ok (y.2.1, y.2.2))
    else .panic

/-- `func::<(), ()>`, runtime.rs:273-299. -/
def lookupFunc (m : Module) (env : Env) (func : Str) : Except Failure Unit :=
  match m.sig func with
  | none => .error (.funcNotFound env.targetAddr env.templateAddr func, [])
  | some .nullary => .ok ()
  | some _ => .error (.funcInvalidSignature env.targetAddr env.templateAddr func, [])

/-- `instantiate`, runtime.rs:261-271: a link error or a trap of the start function; the logs stay in
the environment and are dropped with it. -/
def instantiate (chk : Bool) (m : Module) (env : Env) :
    Prog (Env × Except Failure (m.σ × Bytes)) :=
  match m.linkError with
  | some msg => return (env, .error (.instantiationFailed env.targetAddr env.templateAddr msg, []))
  | none => do
    let r ← m.start.run chk env
    match r.2 with
    | .ok x => return (r.1, .ok x)
    | .error msg =>
      return (r.1, .error (.instantiationFailed env.targetAddr env.templateAddr msg, []))

/-- `run` from the lookup of the function on, runtime.rs:138-144. -/
def runFunc (chk : Bool) (m : Module) (call : Call) (env : Env) (st : m.σ) (mem : Bytes) :
    Prog (Env × Except Failure (Bytes × List Bytes)) :=
  match lookupFunc m env call.funcName with
  | .error f => return (env, .error f)
  | .ok () =>
    if 0 < call.funcInput.length then
      callWithAlloc chk m st env mem call.funcInput call.funcName
    else do
      let r ← wasmerCall chk env call.funcName (m.invoke st call.funcName [] mem)
      match r.2 with
      | .error f => return (r.1, .error f)
      | .ok y => return (r.1, .ok (y.2.1, y.2.2))

/-- `run`, runtime.rs:117-159: the environment, and the final memory and the logs or a failure.
`instance_gas_used` (runtime.rs:896-899) always answers "absent". -/
def runCall (chk : Bool) (eng : Engine) (call : Call) (sections : Sections) (env : Env) :
    Prog (Env × Except Failure (Bytes × List Bytes)) := do
  match ← validateFuncUsage call sections with
  | .error f => return (env, .error f)
  | .ok () => do
    let code ← Prog.ofOption (codeSection sections)
    match eng code.code with
    | .error msg =>
      return (env, .error (.compilationFailed env.targetAddr env.templateAddr msg, []))
    | .ok m => do
      let r ← instantiate chk m env
      match r.2 with
      | .error f => return (r.1, .error f)
      | .ok x =>
        if m.hasMemory then
          runFunc chk m call { r.1 with memorySet := true } x.1 x.2
        else .panic

/-- `load_template`, runtime.rs:330-344. -/
def loadTemplate (chk : Bool) (t : Addr) : Prog Sections := (readSections chk t).unwrap

/-- `exec` up to the conversion of the outcome, runtime.rs:88-113. -/
def exec (chk : Bool) (eng : Engine) (call : Call) :
    Prog (Env × Except Failure (Bytes × List Bytes)) := do
  let acc ← (load chk call.target).unwrap
  let t ← (templateAddr acc).unwrap
  let sections ← loadTemplate chk t
  let storage ← (load chk call.target).unwrap
  runCall chk eng call sections (Env.new storage call.templateAddr call.target call.mode)

/-- The iteration orders of the hash maps during one checkpoint and commit. -/
structure Orders where
  checkpoint : Svm.Storage.Ord
  commit : Svm.Storage.Ord

/-- 32 bytes of a `State`. -/
def stateHash (s : Svm.Storage.State) : Hash := ⟨Svm.Storage.State.bytes s, by
  simp [Svm.Storage.State.bytes]⟩

/-- `commit_changes`, runtime.rs:858-867, with `GlobalState::commit` (global_state.rs:119-122). -/
def commitChanges (h : Hasher) (o : Orders) (env : Env) (s : Storage) : Storage × Option Hash :=
  if env.canWrite then
    let r := Svm.Storage.commit o.commit (Svm.Storage.checkpoint h o.checkpoint s)
    match r.2 with
    | .ok x => if 0 ≤ x.1 then (r.1, some (stateHash x.2)) else (r.1, none)
    | _ => (r.1, none)
  else (s, none)

/-- `take_returndata` and `read_memory`, runtime.rs:803-814 and 886-893. -/
def takeReturndata (env : Env) (mem : Bytes) : Option Bytes :=
  match env.returndata with
  | none => some []
  | some (offset, length) =>
    if 0 < length ∧ offset + length - 1 < mem.length then some ((mem.drop offset).take length)
    else none

/-- `outcome_to_receipt`, runtime.rs:869-880. `none` is a panic. -/
def outcomeToReceipt (h : Hasher) (o : Orders) (env : Env) (mem : Bytes) (logs : List Bytes)
    (s : Storage) : Storage × Option CallReceipt :=
  match takeReturndata env mem with
  | none => (s, none)
  | some data =>
    let r := commitChanges h o env s
    (r.1, r.2.map fun st =>
      { version := 0, success := true, error := none, newState := some st, returndata := some data
        gasUsed := none, touched := env.touched, logs })

/-- `exec_call`, runtime.rs:83-86. -/
def execCall (chk : Bool) (h : Hasher) (o : Orders) (eng : Engine) (call : Call) (s : Storage) :
    Storage × Option CallReceipt :=
  let r := (exec chk eng call).run h s
  match r.2 with
  | .ok (env, .ok (mem, logs)) => outcomeToReceipt h o env mem logs r.1
  | .ok (_, .error f) => (r.1, some (CallReceipt.fromErr f.1 f.2))
  | _ => (r.1, none)

/-! ## Transactions -/

/-- `build_call`, runtime.rs:449-482. -/
def buildCall (chk : Bool) (tx : Transaction) (mode : AccessMode) (func : Str) (input : Bytes) :
    Prog Call := do
  let acc ← (load chk tx.target).unwrap
  let t ← (templateAddr acc).unwrap
  return { funcName := func, funcInput := input, target := tx.target, templateAddr := t
           withinSpawn := false, mode }

/-- `build_call` followed by `exec_call`. -/
def buildAndExec (chk : Bool) (h : Hasher) (o : Orders) (eng : Engine) (tx : Transaction)
    (mode : AccessMode) (func : Str) (input : Bytes) (s : Storage) : Storage × Option CallReceipt :=
  let r := (buildCall chk tx mode func input).run h s
  match r.2 with
  | .ok call => execCall chk h o eng call r.1
  | _ => (r.1, none)

/-- `Runtime::verify`, runtime.rs:667-695. The envelope and the context play no role (there is no gas
check). -/
def verify (chk : Bool) (h : Hasher) (o : Orders) (eng : Engine) (message : Bytes) (s : Storage) :
    Storage × Option CallReceipt :=
  match decTransaction message with
  | .ok (tx, _) => buildAndExec chk h o eng tx .accessDenied svmVerify tx.verifydata s
  | _ => (s, none)

/-- `Runtime::call`, runtime.rs:700-714. -/
def call (chk : Bool) (h : Hasher) (o : Orders) (eng : Engine) (message : Bytes) (s : Storage) :
    Storage × Option CallReceipt :=
  match decTransaction message with
  | .ok (tx, _) => buildAndExec chk h o eng tx .fullAccess tx.funcName tx.calldata s
  | _ => (s, none)

/-! ### Gas -/

/-- `GasTank`, runtime/gas_tank.rs:3-7. -/
inductive GasTank where
  | nonEmpty (gas : U64)
  | empty
  deriving DecidableEq, Repr

/-- `GasTank::new`, gas_tank.rs:10-18. -/
def GasTank.new (gas : Gas) : GasTank :=
  let g := gas.getD (BitVec.allOnes 64)
  if 0 < g.toNat then .nonEmpty g else .empty

/-- `GasTank::is_empty`, gas_tank.rs:20-22. -/
def GasTank.isEmpty : GasTank → Bool
  | .empty => true
  | .nonEmpty _ => false

/-- `GasTank::consume`, gas_tank.rs:24-35. -/
def GasTank.consume (t : GasTank) (gas : U64) : GasTank :=
  match t with
  | .empty => .empty
  | .nonEmpty left => if gas.toNat < left.toNat then .nonEmpty (left - gas) else .empty

/-- `GasTank::unwrap`, gas_tank.rs:37-42. -/
def GasTank.unwrap : GasTank → U64
  | .empty => 0
  | .nonEmpty gas => gas

/-- `svm_gas::transaction::{deploy, spawn}`, crates/host/gas/src/lib.rs:35-47, as a `u64`
multiplication without the overflow check (a message of 2^54 bytes is out of reach). -/
def payloadPrice (message : Bytes) : U64 := BitVec.ofNat 64 (1000 * message.length)

/-- Prices of the functions of a program; `none` is the panic of `FuncPrice::get`,
crates/host/gas/src/pricing/func_price.rs:32-34. -/
abbrev FuncPrice := Nat → Option U64

/-- What the runtime needs from `svm-program` and `svm-gas`: a parameter here. `parse` is
`Program::new(code, false)`, with the exports of the program; `price` is
`ProgramPricing::visit(&program).unwrap()`. -/
structure Pricer where
  parse : Bytes → Option (Str → Option Nat)
  price : Bytes → Option FuncPrice

/-- `TemplatePriceCache`, runtime/price_cache.rs:15-18. -/
abbrev PriceCache := AMap Addr FuncPrice

/-- `TemplatePriceCache::price_of`, runtime/price_cache.rs:32-46. -/
def priceOf (pr : Pricer) (cache : PriceCache) (t : Addr) (code : Bytes) :
    PriceCache × Option FuncPrice :=
  match cache.get t with
  | some p => (cache, some p)
  | none =>
    match pr.price code with
    | some p => (cache.insert t p, some p)
    | none => (cache, none)

/-- `check_gas_for_payload`, runtime.rs:406-419. -/
def checkGasForPayload (message : Bytes) (gas : GasTank) : GasTank :=
  if gas.isEmpty then .empty else gas.consume (payloadPrice message)

/-- `check_gas_for_func`, runtime.rs:421-447. -/
def checkGasForFunc (pr : Pricer) (cache : PriceCache) (t : Addr) (sections : Sections) (func : Str)
    (gas : GasTank) : PriceCache × Option GasTank :=
  if gas.isEmpty then (cache, some .empty)
  else
    match codeSection sections with
    | none => (cache, none)
    | some c =>
      match pr.parse c.code with
      | none => (cache, none)
      | some exports =>
        match c.gasMode with
        | .metering => (cache, none)
        | .fixed =>
          match exports func with
          | none => (cache, none)
          | some i =>
            let r := priceOf pr cache t c.code
            match r.2 with
            | none => (r.1, none)
            | some prices =>
              match prices i with
              | none => (r.1, none)
              | some price => (r.1, some (gas.consume price))

/-! ### The runtime -/

/-- `Runtime`, runtime.rs:31-35. -/
structure RState where
  storage : Storage
  cache : PriceCache

/-- The first 20 bytes of a hash. -/
def hashAddr (h : Hasher) (bs : Bytes) : Addr :=
  ⟨(Svm.Storage.State.bytes (h.hash bs)).take 20, by simp [Svm.Storage.State.bytes]⟩

/-- `compute_template_addr`, types/src/template/mod.rs:242-246. -/
def computeTemplateAddr (h : Hasher) (c : CodeSection) : Addr := hashAddr h c.code

/-- `compute_account_addr`, runtime.rs:796-801. -/
def computeAccountAddr (h : Hasher) (spawn : SpawnAccount) : Addr :=
  hashAddr h spawn.templateAddr.1

/-- `into_spawn_receipt`, types/src/receipt/spawn.rs:107-139. -/
def intoSpawnReceipt (r : CallReceipt) (a : Addr) : Option SpawnReceipt :=
  if r.success then
    some { version := 0, success := true, error := none, accountAddr := some a
           initState := r.newState, returndata := r.returndata, gasUsed := r.gasUsed
           touched := r.touched, logs := r.logs }
  else
    match r.error with
    | some e => some (SpawnReceipt.fromErr e r.logs)
    | none => none

/-- `call_ctor`, runtime.rs:50-81. -/
def callCtor (chk : Bool) (h : Hasher) (o : Orders) (eng : Engine) (spawn : SpawnAccount)
    (target principal : Addr) (s : Storage) : Storage × Option SpawnReceipt :=
  let r := execCall chk h o eng
    { funcName := spawn.ctorName, funcInput := spawn.calldata, target
      templateAddr := spawn.templateAddr, withinSpawn := true, mode := .fullAccess } s
  (r.1, r.2.bind fun receipt =>
    intoSpawnReceipt
      { receipt with touched := setInsert (setInsert receipt.touched target) principal } target)

/-- `create_account`, runtime.rs:531-551 (the caller unwraps). -/
def createAccount (chk : Bool) (a t : Addr) (nm : Str) (b : U64) (c : U128) : Prog Unit := do
  let _ ← (create chk a nm t b c).unwrap
  return ()

/-- The part of `spawn` after the gas checks, runtime.rs:649-663. -/
def spawnAccount (chk : Bool) (h : Hasher) (o : Orders) (eng : Engine) (sp : SpawnAccount)
    (principal : Addr) (s : Storage) : Storage × Option SpawnReceipt :=
  let target := computeAccountAddr h sp
  let r := (createAccount chk target sp.templateAddr sp.name 0 0).run h s
  match r.2 with
  | .ok () => callCtor chk h o eng sp target principal r.1
  | _ => (r.1, none)

/-- `Runtime::spawn`, runtime.rs:620-664. -/
def spawn (chk : Bool) (h : Hasher) (o : Orders) (eng : Engine) (pr : Pricer) (envelope : Envelope)
    (message : Bytes) (rs : RState) : RState × Option SpawnReceipt :=
  match decSpawn message with
  | .ok (sp, _) =>
    let r := (loadTemplate chk sp.templateAddr).run h rs.storage
    match r.2 with
    | .ok sections =>
      match isCtor sections sp.ctorName with
      | none => (⟨r.1, rs.cache⟩, none)
      | some false =>
        (⟨r.1, rs.cache⟩, some (SpawnReceipt.fromErr (.funcNotCtor sp.templateAddr sp.ctorName) []))
      | some true =>
        let gas := checkGasForPayload message (GasTank.new envelope.gasLimit)
        let g := checkGasForFunc pr rs.cache sp.templateAddr sections sp.ctorName gas
        match g.2 with
        | none => (⟨r.1, g.1⟩, none)
        | some gas =>
          if gas.isEmpty then (⟨r.1, g.1⟩, some (SpawnReceipt.fromErr .oog []))
          else
            let x := spawnAccount chk h o eng sp envelope.principal r.1
            (⟨x.1, g.1⟩, x.2)
    | _ => (⟨r.1, rs.cache⟩, none)
  | _ => (rs, none)

/-- `partial_cmp`, types/src/gas/mod.rs:115-123. -/
def gasCmp (g : Gas) (x : U64) : Ordering :=
  match g with
  | none => .gt
  | some g => compare g.toNat x.toNat

/-- `gas_left < deploy_price`, from `partial_cmp`. -/
def gasLt (g : Gas) (x : U64) : Bool := gasCmp g x == .lt

/-- `Runtime::deploy`, runtime.rs:581-617, with `DeployReceipt::new` and `new_oog`. -/
def deploy (chk : Bool) (h : Hasher) (envelope : Envelope) (message : Bytes) (s : Storage) :
    Storage × Option DeployReceipt :=
  match decSections chk none message with
  | .ok (sections, _) =>
    let price := payloadPrice message
    if gasLt envelope.gasLimit price then (s, some (DeployReceipt.fromErr .oog []))
    else
      match codeSection sections with
      | none => (s, none)
      | some c =>
        let addr := computeTemplateAddr h c
        let r := (createTemplate addr sections sections).run h s
        match r.2 with
        | .ok () =>
          (r.1, some { version := 0, success := true, error := none, addr := some addr
                       gasUsed := some price, logs := [] })
        | _ => (r.1, none)
  | _ => (s, none)

/-! ### Direct access for the node -/

/-- `.ok()`: an error becomes `none`. -/
def attempt {α : Type} : Prog α → Prog (Option α)
  | .ret a => .ret (some a)
  | .err _ => .ret none
  | .panic held => .panic held
  | .get k f => .get k fun v => attempt (f v)
  | .set k v p => .set k v (attempt p)

/-- `Runtime::get_account`, runtime.rs:745-759. -/
def getAccount (chk : Bool) (a : Addr) : Prog (Option (U64 × U128 × Addr)) :=
  attempt do
    let acc ← load chk a
    let b ← balance acc
    let c ← counter acc
    let t ← templateAddr acc
    return (b, c, t)

/-- `Runtime::transfer`, runtime.rs:766-792. -/
def transfer (chk : Bool) (src dst : Addr) (amount : U64) : Prog Unit := do
  let srcAcc ← (load chk src).unwrap
  match ← getAccount chk dst with
  | none => .panic
  | some _ => do
    let dstAcc ← (load chk dst).unwrap
    let srcBal ← (balance srcAcc).unwrap
    let dstBal ← (balance dstAcc).unwrap
    moveCoins srcAcc dstAcc srcBal dstBal amount

/-- `Runtime::increase_balance`, runtime.rs:490-505. -/
def increaseBalance (chk : Bool) (a : Addr) (amount : U64) : Prog Unit := do
  let acc ← (load chk a).unwrap
  let b ← (balance acc).unwrap
  if b.toNat + amount.toNat < 2 ^ 64 then (setBalance acc (b + amount)).unwrap else .panic

/-! ### Optional gas: types/src/gas/mod.rs -/

/-- `Gas + u64` and `Gas += u64`, types/src/gas/mod.rs:80-95; `none` is the overflow panic of builds
with overflow checks. -/
def gasAdd (chk : Bool) (g : Gas) (x : U64) : Option Gas :=
  match g with
  | none => some none
  | some g => if chk && decide (2 ^ 64 ≤ g.toNat + x.toNat) then none else some (some (g + x))

/-- `Gas - u64`, types/src/gas/mod.rs:97-113; `none` is `OOGError`. -/
def gasSub (g : Gas) (x : U64) : Option Gas :=
  match g with
  | none => some none
  | some g => if x.toNat ≤ g.toNat then some (some (g - x)) else none

/-- `Gas == u64`, types/src/gas/mod.rs:125-133. -/
def gasEq (g : Gas) (x : U64) : Bool :=
  match g with
  | none => false
  | some g => decide (g = x)

end Svm.Runtime
