import Verif.Gas.Cycle
import Verif.Runtime.Model

/-!
# Programs and their validation (crates/host/program, crates/host/gas/src/validation.rs)

The Wasm parser (parity-wasm 0.42) is not modelled: `Module` is what it returns. Immediates of
instructions that no modelled function looks at are left out.
-/

namespace Svm.Wasm

open Svm.Codec (Str)
open Svm.Gas (SortRes)
open Svm.Gas.Graph (Cmd build trySort)
open Svm.Runtime (svmAlloc svmVerify)

/-! ## Instructions -/

/-- The instructions of parity-wasm's `Instruction` that only move or compute values, in the order of
its declaration. -/
inductive Plain where
  | drop | select | getLocal | setLocal | teeLocal | getGlobal | setGlobal | nop | i32Load
  | i64Load | f32Load | f64Load | i32Load8S | i32Load8U | i32Load16S | i32Load16U | i64Load8S
  | i64Load8U | i64Load16S | i64Load16U | i64Load32S | i64Load32U | i32Store | i64Store | f32Store
  | f64Store | i32Store8 | i32Store16 | i64Store8 | i64Store16 | i64Store32 | currentMemory
  | growMemory | i32Const | i64Const | f32Const | f64Const | i32Eqz | i32Eq | i32Ne | i32LtS
  | i32LtU | i32GtS | i32GtU | i32LeS | i32LeU | i32GeS | i32GeU | i64Eqz | i64Eq | i64Ne | i64LtS
  | i64LtU | i64GtS | i64GtU | i64LeS | i64LeU | i64GeS | i64GeU | f32Eq | f32Ne | f32Lt | f32Gt
  | f32Le | f32Ge | f64Eq | f64Ne | f64Lt | f64Gt | f64Le | f64Ge | i32Clz | i32Ctz | i32Popcnt
  | i32Add | i32Sub | i32Mul | i32DivS | i32DivU | i32RemS | i32RemU | i32And | i32Or | i32Xor
  | i32Shl | i32ShrS | i32ShrU | i32Rotl | i32Rotr | i64Clz | i64Ctz | i64Popcnt | i64Add | i64Sub
  | i64Mul | i64DivS | i64DivU | i64RemS | i64RemU | i64And | i64Or | i64Xor | i64Shl | i64ShrS
  | i64ShrU | i64Rotl | i64Rotr | f32Abs | f32Neg | f32Ceil | f32Floor | f32Trunc | f32Nearest
  | f32Sqrt | f32Add | f32Sub | f32Mul | f32Div | f32Min | f32Max | f32Copysign | f64Abs | f64Neg
  | f64Ceil | f64Floor | f64Trunc | f64Nearest | f64Sqrt | f64Add | f64Sub | f64Mul | f64Div
  | f64Min | f64Max | f64Copysign | i32WrapI64 | i32TruncSF32 | i32TruncUF32 | i32TruncSF64
  | i32TruncUF64 | i64ExtendSI32 | i64ExtendUI32 | i64TruncSF32 | i64TruncUF32 | i64TruncSF64
  | i64TruncUF64 | f32ConvertSI32 | f32ConvertUI32 | f32ConvertSI64 | f32ConvertUI64
  | f32DemoteF64 | f64ConvertSI32 | f64ConvertUI32 | f64ConvertSI64 | f64ConvertUI64
  | f64PromoteF32 | i32ReinterpretF32 | i64ReinterpretF64 | f32ReinterpretI32 | f64ReinterpretI64
  deriving Repr, DecidableEq

/-- `parity_wasm::elements::Instruction`, with the instructions that steer the control flow. -/
inductive Op where
  | unreachable
  | block
  | loop
  | if_
  | else_
  | end_
  | br (label : Nat)
  | brIf (label : Nat)
  | brTable (labels : List Nat) (default : Nat)
  | ret
  | call (func : Nat)
  | callIndirect
  | plain (p : Plain)
  deriving Repr, DecidableEq

/-- `ValueType`. -/
inductive Ty where
  | i32 | i64 | f32 | f64
  deriving Repr, DecidableEq

/-- `FunctionType`. -/
structure FuncType where
  params : List Ty
  results : List Ty
  deriving Repr, DecidableEq

/-- `External`: what is imported. -/
structure Import where
  module : Str
  field : Str
  isFunc : Bool
  deriving DecidableEq

/-- `ExportEntry`; `func` is the index of `Internal::Function`, `none` any other kind. -/
structure Export where
  field : Str
  func : Option Nat
  deriving DecidableEq

/-- `Module`: a missing section is an empty one, except for the code section. -/
structure Module where
  types : List FuncType
  imports : List Import
  functions : List Nat
  exports : List Export
  code : Option (List (List Op))

/-- `enum ProgramError`, program/src/error.rs:7-31. -/
inductive ProgramError where
  | invalidWasm
  | functionNotFound (name : Str)
  | floatsNotAllowed
  | tooManyFunctionImports
  | functionIndexTooLarge
  | missingCodeSection
  | invalidExportKind
  | invalidExportFunctionSignature (name : Str)
  deriving DecidableEq

/-- `struct Program`, program.rs:30-34. The functions are stored under consecutive indices beginning
with the number of imports. -/
structure Program where
  imports : List (Str × Str)
  exports : List (Str × Nat)
  functions : List (List Op)

/-! ## Construction of a program -/

/-- The instructions listed in `validate_opcode`, lib.rs:37-94. -/
def Plain.listed : Plain → Bool
  | .f32Load | .f64Load | .f32Store | .f64Store | .f32Const | .f64Const | .f32Eq | .f32Ne
  | .f32Lt | .f32Gt | .f32Le | .f32Ge | .f64Eq | .f64Ne | .f64Lt | .f64Gt | .f64Le | .f64Ge
  | .f32Abs | .f32Neg | .f32Ceil | .f32Floor | .f32Trunc | .f32Nearest | .f32Sqrt | .f32Add
  | .f32Sub | .f32Mul | .f32Div | .f32Min | .f32Max | .f32Copysign | .f64Abs | .f64Neg
  | .f64Ceil | .f64Floor | .f64Trunc | .f64Nearest | .f64Sqrt | .f64Add | .f64Sub | .f64Mul
  | .f64Div | .f64Min | .f64Max | .f64Copysign | .f32ConvertSI32 | .f32ConvertUI32
  | .f32ConvertSI64 | .f32ConvertUI64 | .f32DemoteF64 | .f64ConvertSI32 | .f64ConvertUI32
  | .f64ConvertSI64 | .f64ConvertUI64 | .f64PromoteF32 | .f32ReinterpretI32 | .f64ReinterpretI64 => true
  | _ => false

/-- `validate_opcode`, lib.rs:35-97. -/
def validateOpcode : Op → Except ProgramError Unit
  | .plain p => if p.listed then .error .floatsNotAllowed else .ok ()
  | _ => .ok ()

/-- `validate_no_floats`, lib.rs:31-33: visits the instructions of all functions. -/
def validateNoFloats (p : Program) : Except ProgramError Unit :=
  p.functions.forM fun ops => ops.forM validateOpcode

/-- `Imports::read`, import.rs:13-38, and `module_import_count`, 79-87. -/
def readImports (m : Module) : Except ProgramError (List (Str × Str)) :=
  let fs := m.imports.filter (·.isFunc)
  if fs.length ≤ 65535 then .ok (fs.map fun i => (i.module, i.field))
  else .error .tooManyFunctionImports

/-- `Exports::read`, exports.rs:13-33: an `IndexMap`, a later entry of the same name replaces the
value of an earlier one. -/
def readExports (m : Module) : List (Str × Nat) :=
  (m.exports.filterMap fun e => e.func.map fun f => (e.field, f)).foldl
    (fun acc e => if acc.any (fun x => x.1 = e.1) then acc.map (fun x => if x.1 = e.1 then e else x)
      else acc ++ [e]) []

/-- `validate_func_signature` (program.rs:255-278) and `export_func_signature` (280-299). The
subtraction of the number of imports panics when the exported function is imported; in release
builds it wraps around, and the index is then out of bounds. -/
def validateFuncSignature (m : Module) (name : Str) (e : Export) (params results : List Ty) :
    Outcome ProgramError Unit :=
  match e.func with
  | none => .err .invalidExportKind
  | some global =>
    let importCount := (m.imports.filter (·.isFunc)).length
    if global < importCount then .panic
    else
      match m.functions[global - importCount]? with
      | none => .panic
      | some typeRef =>
        match m.types[typeRef]? with
        | none => .panic
        | some f =>
          if f.params = params ∧ f.results = results then .ok ()
          else .err (.invalidExportFunctionSignature name)

/-- The loop of `module_validate_exports`, program.rs:189-204. -/
def validateExportsLoop (m : Module) : List Export → Outcome ProgramError Unit
  | [] => .ok ()
  | e :: es => do
    if e.field = svmAlloc then validateFuncSignature m svmAlloc e [.i32] [.i32]
    else if e.field = svmVerify then validateFuncSignature m svmVerify e [] [.i32]
    else .ok ()
    validateExportsLoop m es

/-- `module_validate_exports`, program.rs:177-215. -/
def moduleValidateExports (m : Module) : Outcome ProgramError Unit := do
  validateExportsLoop m m.exports
  if ¬ m.exports.any (·.field = svmAlloc) then .err (.functionNotFound svmAlloc)
  else if ¬ m.exports.any (·.field = svmVerify) then .err (.functionNotFound svmVerify)
  else .ok ()

/-- A `Result` that cannot panic. -/
def lift {ε α : Type} : Except ε α → Outcome ε α
  | .ok a => .ok a
  | .error e => .err e

/-- `Program::new`, program.rs:38-68, with `count_functions_in_program` (141-164), which counts the
functions that are visited: those with code. -/
def programNew (read : Bytes → Option Module) (wasm : Bytes) (checkExports : Bool) :
    Outcome ProgramError Program := do
  let m ← Outcome.ofOption .invalidWasm (read wasm)
  let code ← Outcome.ofOption .missingCodeSection m.code
  let imports ← lift (readImports m)
  let p : Program := ⟨imports, readExports m, code⟩
  lift (validateNoFloats p)
  if checkExports then moduleValidateExports m
  if p.functions.length > 65535 then .err .functionIndexTooLarge else .ok p

/-! ## Fixed gas validation -/

/-- `enum FixedGasError`, gas/src/errors.rs:11-27. The offset of `RecursiveCall` is left out. -/
inductive FixedGasError where
  | loopNotAllowed
  | callIndirectNotAllowed
  | callCycle (l : List Nat)
  | recursiveCall (func : Nat)
  deriving Repr, DecidableEq

/-- `Program::is_imported`, program.rs:102-104. -/
def Program.isImported (p : Program) (f : Nat) : Bool := f < p.imports.length

/-- `Program::func_indexes`, program.rs:123-125. -/
def Program.funcIndexes (p : Program) : List Nat :=
  (List.range p.functions.length).map (· + p.imports.length)

/-- `Program::get_func`, program.rs:117-120; `none` is the panic of `unwrap`. -/
def Program.getFunc (p : Program) (f : Nat) : Option (List Op) :=
  if f < p.imports.length then none else p.functions[f - p.imports.length]?

/-- `ProgramValidator::on_op`, validation.rs:113-133, with `add_call` (44-59) and
`validate_func_index` (62-68): the call of the graph builder that is made, if any. -/
def onOp (p : Program) (origin : Nat) : Op → Except FixedGasError (List (Cmd Nat))
  | .loop => .error .loopNotAllowed
  | .callIndirect => .error .callIndirectNotAllowed
  | .call target =>
    if target ≤ 65535 then
      if p.isImported target then .ok []
      else if origin = target then .error (.recursiveCall origin)
      else .ok [.edge origin target]
    else .error .loopNotAllowed
  | _ => .ok []

/-- The instructions of one function. -/
def visitOps (p : Program) (origin : Nat) : List Op → Except FixedGasError (List (Cmd Nat))
  | [] => .ok []
  | op :: ops => do
    let c ← onOp p origin op
    let cs ← visitOps p origin ops
    .ok (c ++ cs)

/-- `ProgramVisitor::visit`, visitor.rs:12-30, with `on_func_start`, validation.rs:91-101: the calls
of the graph builder. -/
def visitFuncs (p : Program) : List Nat → List (List Op) → Except FixedGasError (List (Cmd Nat))
  | i :: is, ops :: bodies => do
    let cs ← visitOps p i ops
    let rest ← visitFuncs p is bodies
    .ok (.node i :: cs ++ rest)
  | _, _ => .ok []

/-- `validate_wasm`, validation.rs:19-21, with `on_end` (80-89) and `find_cycles`,
call_graph/mod.rs:30-37. The calls of the graph builder are collected first; the builder has no
other state. `FuncIndex` is ordered by its number. -/
def validateWasm (chk returnCycles : Bool) (p : Program) : Outcome FixedGasError Unit := do
  let cs ← lift (visitFuncs p p.funcIndexes p.functions)
  let g ← Outcome.unwrapOpt (build () cs (Gas.Graph.empty ()))
  let r ← Outcome.unwrapOpt (trySort chk returnCycles (fun a b => decide (a ≤ b)) g)
  match r with
  | .sorted _ => .ok ()
  | .cycles l => .err (.callCycle l)

/-- Errors of `validate_deploy`. -/
inductive DeployError where
  | program (e : ProgramError)
  | gas (e : FixedGasError)
  deriving DecidableEq

/-- The program checks of `Runtime::validate_deploy`, runtime/src/runtime/runtime.rs:554-566. -/
def validateDeploy (chk : Bool) (read : Bytes → Option Module) (wasm : Bytes) :
    Outcome DeployError Program :=
  match programNew read wasm true with
  | .ok p =>
    match validateWasm chk false p with
    | .ok _ => .ok p
    | .err e => .err (.gas e)
    | .panic => .panic
  | .err e => .err (.program e)
  | .panic => .panic

/-! ## Specification -/

/-- The operand and result types of an instruction in the WebAssembly specification; `none` for the
instructions that work on values of any type. -/
def Plain.sig : Plain → Option (List Ty × List Ty)
  | .drop | .select | .getLocal | .setLocal | .teeLocal | .getGlobal | .setGlobal => none
  | .nop => some ([], [])
  | .i32Load | .i32Load8S | .i32Load8U | .i32Load16S | .i32Load16U | .growMemory | .i32Eqz
  | .i32Clz | .i32Ctz | .i32Popcnt => some ([.i32], [.i32])
  | .i64Load | .i64Load8S | .i64Load8U | .i64Load16S | .i64Load16U | .i64Load32S | .i64Load32U
  | .i64ExtendSI32 | .i64ExtendUI32 => some ([.i32], [.i64])
  | .f32Load | .f32ConvertSI32 | .f32ConvertUI32 | .f32ReinterpretI32 => some ([.i32], [.f32])
  | .f64Load | .f64ConvertSI32 | .f64ConvertUI32 => some ([.i32], [.f64])
  | .i32Store | .i32Store8 | .i32Store16 => some ([.i32, .i32], [])
  | .i64Store | .i64Store8 | .i64Store16 | .i64Store32 => some ([.i32, .i64], [])
  | .f32Store => some ([.i32, .f32], [])
  | .f64Store => some ([.i32, .f64], [])
  | .currentMemory | .i32Const => some ([], [.i32])
  | .i64Const => some ([], [.i64])
  | .f32Const => some ([], [.f32])
  | .f64Const => some ([], [.f64])
  | .i32Eq | .i32Ne | .i32LtS | .i32LtU | .i32GtS | .i32GtU | .i32LeS | .i32LeU | .i32GeS
  | .i32GeU | .i32Add | .i32Sub | .i32Mul | .i32DivS | .i32DivU | .i32RemS | .i32RemU | .i32And
  | .i32Or | .i32Xor | .i32Shl | .i32ShrS | .i32ShrU | .i32Rotl | .i32Rotr => some ([.i32, .i32], [.i32])
  | .i64Eqz | .i32WrapI64 => some ([.i64], [.i32])
  | .i64Eq | .i64Ne | .i64LtS | .i64LtU | .i64GtS | .i64GtU | .i64LeS | .i64LeU | .i64GeS
  | .i64GeU => some ([.i64, .i64], [.i32])
  | .f32Eq | .f32Ne | .f32Lt | .f32Gt | .f32Le | .f32Ge => some ([.f32, .f32], [.i32])
  | .f64Eq | .f64Ne | .f64Lt | .f64Gt | .f64Le | .f64Ge => some ([.f64, .f64], [.i32])
  | .i64Clz | .i64Ctz | .i64Popcnt => some ([.i64], [.i64])
  | .i64Add | .i64Sub | .i64Mul | .i64DivS | .i64DivU | .i64RemS | .i64RemU | .i64And | .i64Or
  | .i64Xor | .i64Shl | .i64ShrS | .i64ShrU | .i64Rotl | .i64Rotr => some ([.i64, .i64], [.i64])
  | .f32Abs | .f32Neg | .f32Ceil | .f32Floor | .f32Trunc | .f32Nearest | .f32Sqrt => some ([.f32], [.f32])
  | .f32Add | .f32Sub | .f32Mul | .f32Div | .f32Min | .f32Max | .f32Copysign => some ([.f32, .f32], [.f32])
  | .f64Abs | .f64Neg | .f64Ceil | .f64Floor | .f64Trunc | .f64Nearest | .f64Sqrt => some ([.f64], [.f64])
  | .f64Add | .f64Sub | .f64Mul | .f64Div | .f64Min | .f64Max | .f64Copysign => some ([.f64, .f64], [.f64])
  | .i32TruncSF32 | .i32TruncUF32 | .i32ReinterpretF32 => some ([.f32], [.i32])
  | .i32TruncSF64 | .i32TruncUF64 => some ([.f64], [.i32])
  | .i64TruncSF32 | .i64TruncUF32 => some ([.f32], [.i64])
  | .i64TruncSF64 | .i64TruncUF64 | .i64ReinterpretF64 => some ([.f64], [.i64])
  | .f32ConvertSI64 | .f32ConvertUI64 => some ([.i64], [.f32])
  | .f32DemoteF64 => some ([.f64], [.f32])
  | .f64ConvertSI64 | .f64ConvertUI64 | .f64ReinterpretI64 => some ([.i64], [.f64])
  | .f64PromoteF32 => some ([.f32], [.f64])

/-- An instruction that computes with floating point numbers: one of its operands or results is
one. -/
def Op.IsFloat : Op → Prop
  | .plain p => ∃ s, p.sig = some s ∧ (.f32 ∈ s.1 ++ s.2 ∨ .f64 ∈ s.1 ++ s.2)
  | _ => False

/-- Function `a` has a call of function `b`, which is not imported. -/
def Calls (p : Program) (a b : Nat) : Prop :=
  ∃ ops, p.getFunc a = some ops ∧ .call b ∈ ops ∧ p.imports.length ≤ b

end Svm.Wasm
