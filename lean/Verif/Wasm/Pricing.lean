import Verif.Wasm.Labels

/-!
# Prices of functions (crates/host/gas/src/pricing)

Prices are `usize`, 64 bits. `none` is a panic. The calls of the graph builders are collected as
lists of commands first; the builders have no other state.
-/

namespace Svm.Wasm

open Svm.Codec (Str)
open Svm.Account (ascii)
open Svm.Gas (upd add64 buildWeighted)
open Svm.Gas.Graph (Cmd build topoSort maxPath)

/-- `trait PriceResolver`, pricing/resolver.rs:5-11; `none` is a panic. -/
structure Resolver where
  op : Op → Nat
  imp : Str × Str → Option Nat

/-- The prices of host functions in both resolvers, pricing/resolvers/v0.rs:24-35 and
example.rs:22-32. -/
def hostPrices : List (String × Nat) :=
  [("svm_static_alloc", 100), ("svm_calldata_offset", 10), ("svm_calldata_len", 10),
   ("svm_set_returndata", 20), ("svm_get32", 100), ("svm_set32", 1000000), ("svm_get64", 200),
   ("svm_set64", 2000000), ("svm_load160", 500), ("svm_store160", 5000000), ("svm_log", 3000)]

/-- The price of a listed host function. -/
def hostPrice (i : Str × Str) : Option Nat :=
  if i.1.val = ascii "svm".toList then
    (hostPrices.find? fun x => ascii x.1.toList = i.2.val).map (·.2)
  else none

/-- `V0PriceResolver`, pricing/resolvers/v0.rs:18-39, the resolver of version 0 in
runtime/src/price_registry.rs:36-42. -/
def v0 : Resolver := ⟨fun _ => 1, fun i => some ((hostPrice i).getD 1000)⟩

/-- `ExampleResolver`, pricing/resolvers/example.rs:15-36, the resolver of the command line tool. -/
def example_ : Resolver := ⟨fun _ => 1, hostPrice⟩

/-- `ProgramPricing::on_op`, pricing/mod.rs:133-145, with `add_call`, 84-88. The assertion in
`add_call` is left out: the graph builder panics on such an edge. -/
def callCmds (p : Program) (origin : Nat) (ops : List Op) : List (Cmd Nat) :=
  ops.filterMap fun
    | .call target => if p.isImported target then none else some (.edge origin target)
    | _ => none

/-- `ProgramVisitor::visit`, visitor.rs:12-30, with `on_func_start`, pricing/mod.rs:115-125. -/
def pricingCmds (p : Program) : List (Cmd Nat) :=
  (p.funcIndexes.zip p.functions).flatMap fun x => .node x.1 :: callCmds p x.1 x.2

/-- `resolve_op` and `resolve_call_price`, pricing/cfg.rs:71-103, with `Imports::try_resolve`,
program/src/import.rs:58-62, and `FuncPrice::get`, pricing/func_price.rs:32-34. -/
def opPrice (res : Resolver) (p : Program) (prices : Nat → Option Nat) : Op → Option Nat
  | .call f =>
    match p.imports[f]? with
    | some i => res.imp i
    | none => prices f
  | op => some (res.op op)

/-- `compute_block_price`, pricing/cfg.rs:60-69. -/
def blockPrice (chk : Bool) (res : Resolver) (p : Program) (prices : Nat → Option Nat) (ops : List Op) :
    Option Nat :=
  ops.foldlM (fun acc op => do add64 chk acc (← opPrice res p prices op)) 0

/-- The edges added by `build_weighted_graph`, pricing/cfg.rs:34-55. -/
def flowCmds (num : Nat) (edges : List (Nat × Nat)) : List (Cmd Nat) :=
  (List.range (num + 1)).map .node ++
    (List.range (num + 1)).flatMap fun b => (edges.filter fun e => e.1 = b).map fun e => .edge e.1 e.2

/-- The part of `compute_func_price` after the control flow graph is built, pricing/mod.rs:158-165,
with `build_weighted_graph`, pricing/cfg.rs:28-58. -/
def flowPrice (chk : Bool) (res : Resolver) (p : Program) (prices : Nat → Option Nat) (g : Flow) :
    Option Nat :=
  let w := fun b => blockPrice chk res p prices (g.ops b)
  if (List.range (g.num + 1)).all fun b => (w b).isSome then do
    let wg ← buildWeighted (flowCmds g.num g.edges) fun b => if b ≤ g.num then (w b).getD 0 else 0
    let r ← maxPath chk wg 0 g.num
    some r.2
  else none

/-- `compute_func_price`, pricing/mod.rs:148-166. -/
def funcPrice (chk : Bool) (res : Resolver) (p : Program) (prices : Nat → Option Nat) (f : Nat) :
    Option Nat := do
  let ops ← p.getFunc f
  let s ← buildCfg chk ops
  flowPrice chk res p prices s.flow

/-- One iteration of the loop in `on_end`, pricing/mod.rs:106-110. -/
def setPrice (chk : Bool) (res : Resolver) (p : Program) (prices : Nat → Option Nat) (f : Nat) :
    Option (Nat → Option Nat) := do
  let x ← funcPrice chk res p prices f
  some (upd prices f (some x))

/-- `ProgramPricing::on_end`, pricing/mod.rs:99-113: the prices of the functions. -/
def priceProgram (chk : Bool) (res : Resolver) (p : Program) : Option (Nat → Option Nat) := do
  let g ← build () (pricingCmds p) (Gas.Graph.empty ())
  let sorted ← topoSort chk (fun a b => decide (a ≤ b)) g
  sorted.reverse.foldlM (setPrice chk res p) fun _ => none

end Svm.Wasm
