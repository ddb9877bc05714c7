import Verif.Wasm.Exec
import Verif.Gas.Weight

/-!
# Control flow graphs (crates/host/gas/src/cfg)

Depths and block numbers are natural numbers (a function has less than 2^32 instructions). The
edges carry no kind: it is only used for printing.
-/

namespace Svm.Wasm

open Svm.Gas (upd)

/-- `struct DepthUnresolvedCont`, cfg/cont.rs:107-113. -/
structure Unres where
  onIfFalse : Option Nat
  afterIf : Option Nat
  afterThen : Option Nat
  deriving Repr, DecidableEq

/-- `struct CFGBuilder`, cfg/builder.rs:18-28. The blocks are numbered `0` to `num`, the current one
is the last; `ops` has their instructions. `edges` has all edges in the order of their creation (the
code keeps them at both end points), `jumps` the unresolved ones with their target depth. -/
structure Builder where
  depth : Nat
  num : Nat
  ops : Nat → List Op
  edges : List (Nat × Nat)
  jumps : List (Nat × Nat)
  cont : Nat → Option Unres

namespace Builder

/-- `create_block`, cfg/builder.rs:170-183. -/
def createBlock (s : Builder) : Builder := { s with num := s.num + 1, ops := upd s.ops (s.num + 1) [] }

/-- `add_cont`, cfg/builder.rs:202-218, and `add_edge`, 317-323. -/
def addEdge (s : Builder) (a b : Nat) : Builder := { s with edges := s.edges ++ [(a, b)] }

/-- `add_jump`, cfg/builder.rs:186-199. -/
def addJump (s : Builder) (origin depth : Nat) : Builder := { s with jumps := s.jumps ++ [(depth, origin)] }

/-- `append`, cfg/builder.rs:75-81. -/
def append (s : Builder) (op : Op) : Builder := { s with ops := upd s.ops s.num (s.ops s.num ++ [op]) }

/-- `enter_scope`, cfg/builder.rs:84-99. -/
def enterScope (s : Builder) (op : Option Op) : Builder :=
  let s := { s with depth := s.depth + 1 }
  match op with
  | some op => s.append op
  | none => s

/-- `CFGBuilder::new`, cfg/builder.rs:32-53. -/
def new : Builder :=
  let s : Builder := ⟨0, 0, fun _ => [], [], [], fun _ => none⟩
  ((s.enterScope none).createBlock).addEdge 0 1

/-- `enter_if`, cfg/builder.rs:102-124. -/
def enterIf (s : Builder) : Builder :=
  let block := s.num
  let s := { s with cont := upd s.cont s.depth (some ((s.cont s.depth).getD ⟨some block, some block, none⟩)) }
  let s := s.createBlock
  let s := s.addEdge block s.num
  s.enterScope none

/-- `enter_else`, cfg/builder.rs:127-150; `none` is a panic. -/
def enterElse (chk : Bool) (s : Builder) : Option Builder :=
  let block := s.num
  if chk ∧ s.depth ≤ 1 then none
  else if s.depth = 0 then none
  else
    match s.cont (s.depth - 1) with
    | none => none
    | some u =>
      match u.onIfFalse with
      | none => none
      | some onFalse =>
        if chk ∧ u.afterThen ≠ none then none
        else
          let s := { s with cont := upd s.cont (s.depth - 1) (some ⟨none, none, some block⟩) }
          let s := s.createBlock
          some (s.addEdge onFalse s.num)

/-- `resolve_jumps`, cfg/builder.rs:220-256. -/
def resolveJumps (s : Builder) (depth : Nat) (newBlock : Bool) : Builder :=
  let js := s.jumps.filter (fun j => j.1 = depth)
  if js.isEmpty then s
  else
    let s := { s with jumps := s.jumps.filter (fun j => j.1 ≠ depth) }
    let s := if newBlock then (s.createBlock).addEdge s.num (s.num + 1) else s
    { s with edges := s.edges ++ js.map fun j => (j.2, s.num) }

/-- `do_exit_scope`, cfg/builder.rs:389-397. -/
def doExitScope (s : Builder) (newBlock : Bool) : Builder :=
  let s := { s with depth := s.depth - 1 }
  s.resolveJumps s.depth newBlock

/-- `exit_else`, cfg/builder.rs:345-365. -/
def exitElse (chk : Bool) (s : Builder) (u : Unres) : Option Builder :=
  let old := s.num
  match u.afterThen with
  | none => none
  | some afterThen =>
    if chk ∧ ¬ (u.onIfFalse = none ∧ u.afterIf = none) then none
    else
      let s := { s.createBlock with cont := upd s.cont (s.depth - 1) none }
      some (((s.addEdge old s.num).addEdge afterThen s.num).doExitScope false)

/-- `exit_then`, cfg/builder.rs:367-387. -/
def exitThen (chk : Bool) (s : Builder) (u : Unres) : Option Builder :=
  let old := s.num
  match u.afterIf with
  | none => none
  | some afterIf =>
    if chk ∧ u.afterThen ≠ none then none
    else
      let s := { s.createBlock with cont := upd s.cont (s.depth - 1) none }
      some (((s.addEdge old s.num).addEdge afterIf s.num).doExitScope false)

/-- `exit_scope`, cfg/builder.rs:153-167, with `is_within_else` and `is_within_then`, 325-343. -/
def exitScope (chk : Bool) (s : Builder) : Option Builder :=
  if s.depth = 0 then none
  else
    match s.cont (s.depth - 1) with
    | none => some (s.doExitScope true)
    | some u =>
      if u.afterThen.isSome then s.exitElse chk u
      else if u.afterIf.isSome then s.exitThen chk u
      else some (s.doExitScope true)

/-- `target_depth`, cfg/mod.rs:377-381. -/
def targetDepth (depth label : Nat) : Option Nat := if label < depth then some (depth - label - 1) else none

/-- The jumps of `on_jump`, cfg/mod.rs:395-413. -/
def addJumps (s : Builder) (depth origin : Nat) : List Nat → Option Builder
  | [] => some s
  | l :: ls => do
    let t ← targetDepth depth l
    addJumps (s.addJump origin t) depth origin ls

/-- One instruction of `build_func_cfg`, cfg/mod.rs:323-332, with `op_kind`, 454-502, and `on_jump`,
376-414. -/
def step (chk : Bool) (s : Builder) : Op → Option Builder
  | .ret | .unreachable => some (s.createBlock.addJump s.num 0)
  | .br l => s.createBlock.addJumps s.depth s.num [l]
  | .brIf l => do
    let s' ← s.createBlock.addJumps s.depth s.num [l]
    some (s'.addEdge s.num (s.num + 1))
  | .brTable ls d => s.createBlock.addJumps s.depth s.num (d :: ls)
  | .if_ => some s.enterIf
  | .else_ => s.enterElse chk
  | .block => some (s.enterScope (some .block))
  | .end_ => s.exitScope chk
  | op => some (s.append op)

/-- The loop of `build_func_cfg`, cfg/mod.rs:323-332. -/
def steps (chk : Bool) (s : Builder) : List Op → Option Builder
  | [] => some s
  | op :: ops => do
    let s ← s.step chk op
    s.steps chk ops

end Builder

/-- `build_func_cfg`, cfg/mod.rs:315-340, and `CFGBuilder::build`, cfg/builder.rs:271-290. The blocks
of the finished graph are those of the builder. -/
def buildCfg (chk : Bool) (ops : List Op) : Option Builder := do
  let s ← Builder.new.steps chk ops
  if chk ∧ ¬ (s.jumps = [] ∧ s.depth = 0) then none else some s

end Svm.Wasm
