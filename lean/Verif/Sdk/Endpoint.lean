import Verif.Sdk.Access
import Verif.Abi.Decode

/-!
# Endpoints of templates written with the SDK, run by the runtime (C96 - C98)

The functions that the macro generates around the body of an endpoint
(`crates/wasm/sdk-macros/src/function/endpoint.rs:10-157`) and `svm_alloc`
(`crates/wasm/sdk-macros/src/template.rs:278-297`), with the encoder and the decoder of the ABI working on
the memory of the Wasm instance: in Wasm an `Address` is a pointer (`sdk-types/src/blob.rs:9-12`), vectors
live at the place that `svm_static_alloc` answers, and the arguments are read in place.

Left out: the `#[fundable]` hook, which needs the import `sm_value` that the runtime does not provide; the
stack and the static data of the instance, which the memory here does not overlap with; and the width of
`usize`, except where pointers pass the host.
-/

namespace Svm.Sdk

open Svm.Codec Svm.Account Svm.Runtime
open Svm.Abi (Width Ty Prim Value)
open Svm.Storage (Hasher Storage)

/-! ## Sequencing of programs -/

/-- Run `g`, then what follows from its result and memory. -/
def andThen {α β : Type} : Guest α → (α → Bytes → Guest β) → Guest β
  | .ret a mem, k => k a mem
  | .trap msg, _ => .trap msg
  | .call mem c f, k => .call mem c fun v mem => andThen (f v mem) k

/-! ## Values in memory -/

/-- Values of Rust types in a Wasm instance; an address is a pointer, blob.rs:9-12. -/
@[reducible] def RawOf : Ty → Type
  | .unit => Unit
  | .bool => Bool
  | .address => U32
  | .amount => BitVec 64
  | .int w _ => BitVec (8 * w.bytes)
  | .option t => Option (RawOf t)
  | .arr t n => { l : List (RawOf t) // l.length = n }
  | .pair a b => RawOf a × RawOf b

/-- `enum Primitive`, sdk-types/src/value.rs:9-23. -/
inductive RawPrim where
  | none_
  | unit
  | bool (b : Bool)
  | address (ptr : U32)
  | amount (x : BitVec 64)
  | int (w : Width) (signed : Bool) (x : BitVec (8 * w.bytes))

/-- `enum Value` as the decoder makes it, sdk-types/src/value.rs:36-46: arrays hold primitives only. -/
inductive RawValue where
  | prim (p : RawPrim)
  | vec (l : List RawPrim)

/-- How the compiler lays out a primitive `Value` in memory: left open. -/
structure ValueRepr where
  size : Nat
  bytes : RawPrim → Bytes
  pos : 0 < size
  small : 255 * size < 2 ^ 32
  length : ∀ p, (bytes p).length = size

/-- The bytes of the memory from `pos` to `stop`. -/
def slice (mem : Bytes) (pos stop : Nat) : Bytes := (mem.take stop).drop pos

/-! ## Reading arguments -/

/-- A decoded primitive; the payload of an address is `ptr`, decoder.rs:52-62. -/
def rawPrim (ptr : Nat) : Prim → RawPrim
  | .none_ => .none_
  | .unit => .unit
  | .bool b => .bool b
  | .address _ => .address (BitVec.ofNat 32 ptr)
  | .amount x => .amount x
  | .int w s x => .int w s x

/-- `decode_primitive` on the memory from `pos` to `stop`, decoder.rs:87-108: the primitive and the
position behind it. `none` is a trap, to which `CallData::next` (calldata.rs:42-53) turns errors. -/
def primAt (chk : Bool) (mem : Bytes) (pos stop : Nat) : Option (RawPrim × Nat) :=
  match Abi.decodePrim chk (slice mem pos stop) with
  | .ok (.prim p, r) => some (rawPrim (pos + 1) p, stop - r.length)
  | _ => none

/-- The items of `decode_array`, decoder.rs:284-289, which go to the vector at `ptr` of capacity `cap`
(`Vec::push`, sdk-std/src/vec.rs:50-59): the items, and the memory and the position afterwards. -/
def itemsAt (chk : Bool) (R : ValueRepr) (ptr cap stop : Nat) :
    Nat → List RawPrim → Bytes → Nat → Option (List RawPrim × Bytes × Nat)
  | 0, acc, mem, pos => some (acc, mem, pos)
  | n + 1, acc, mem, pos =>
    match primAt chk mem pos stop with
    | none => none
    | some (p, pos) =>
      if acc.length < cap ∧ ptr + (acc.length + 1) * R.size ≤ mem.length then
        itemsAt chk R ptr cap stop n (acc ++ [p]) (writeMem mem (ptr + acc.length * R.size) (R.bytes p)) pos
      else none

/-- `CallData::next().unwrap()`, calldata.rs:42-53, with `decode_value` and `decode_array`,
decoder.rs:75-85 and 263-294: the value and the position behind it. The vector of an array is allocated
with the marker as capacity. -/
def nextAt (chk : Bool) (R : ValueRepr) (pos stop : Nat) (mem : Bytes) : Guest (RawValue × Nat) :=
  match slice mem pos stop with
  | [] => .trap unreachableMsg
  | b :: _ =>
    match Abi.kindOf b with
    | none => .trap unreachableMsg
    | some .array =>
      .call mem (.staticAlloc (BitVec.ofNat 32 (b.toNat * R.size))) fun
        | .i32 ptr, mem =>
          match Abi.sizeOf Abi.ARR b with
          | .ok n =>
            match itemsAt chk R ptr.toNat b.toNat stop (n - 1) [] mem (pos + 1) with
            | some (l, mem, pos) => .ret (.vec l, pos) mem
            | none => .trap unreachableMsg
          | _ => .trap unreachableMsg
        | _, _ => .trap unreachableMsg
    | some _ =>
      match primAt chk mem pos stop with
      | some (p, pos) => .ret (.prim p, pos) mem
      | none => .trap unreachableMsg

/-- `impl_from_value_to_rust!` for `$T`, value.rs:126-133, and for `()`, 147-154; `none` is a trap. -/
def rawFromPrim : (t : Ty) → RawPrim → Option (RawOf t)
  | .unit, .unit => some ()
  | .bool, .bool b => some b
  | .address, .address a => some a
  | .amount, .amount x => some x
  | .int w s, .int w' s' x => if h : w' = w ∧ s' = s then some (h.1 ▸ x) else none
  | _, _ => none

/-- `From<Value>`, value.rs:124-222, with options, 135-143, and arrays, 186-209. -/
def rawFrom : (t : Ty) → RawValue → Option (RawOf t)
  | .option _, .prim .none_ => some none
  | .option t, .prim p => (rawFromPrim t p).map some
  | .arr t n, .vec l =>
    if l.length = n then do
      let xs ← l.mapM (rawFromPrim t)
      if h : xs.length = n then some ⟨xs, h⟩ else none
    else none
  | t, .prim p => rawFromPrim t p
  | _, _ => none

/-- Values with their types. -/
abbrev Args := List (Σ t : Ty, t.Val)

/-- Values in memory with their types. -/
abbrev RawArgs := List (Σ t : Ty, RawOf t)

/-- `calldata.next_1()` for every parameter, endpoint.rs:72-82. -/
def argsAt (chk : Bool) (R : ValueRepr) (stop : Nat) : List Ty → Nat → Bytes → Guest RawArgs
  | [], _, mem => .ret [] mem
  | t :: ts, pos, mem =>
    andThen (nextAt chk R pos stop mem) fun v mem =>
      match rawFrom t v.1 with
      | none => .trap unreachableMsg
      | some x => andThen (argsAt chk R stop ts v.2 mem) fun xs mem => .ret (⟨t, x⟩ :: xs) mem

/-- `expand_prologue`, endpoint.rs:57-96, with `Node.calldata()`, sdk-host-ffi/src/ext.rs:167-176. -/
def prologue (chk : Bool) (R : ValueRepr) (ts : List Ty) (mem : Bytes) : Guest RawArgs :=
  match ts with
  | [] => .ret [] mem
  | ts =>
    .call mem .calldataOffset fun
      | .i32 offset, mem => .call mem .calldataLen fun
        | .i32 len, mem => argsAt chk R (offset.toNat + len.toNat) ts offset.toNat mem
        | _, _ => .trap unreachableMsg
      | _, _ => .trap unreachableMsg

/-! ## Writing the result -/

/-- `Vec::push` for the vector of bytes at `ptr`, sdk-std/src/vec.rs:50-59: the memory and the length
afterwards; `none` is a trap. -/
def pushByte (ptr cap : Nat) (b : UInt8) (s : Bytes × Nat) : Option (Bytes × Nat) :=
  if s.2 < cap ∧ ptr + s.2 < s.1.length then some (writeMem s.1 (ptr + s.2) [b], s.2 + 1) else none

/-- Several pushes. -/
def pushAll (ptr cap : Nat) : Bytes → Bytes × Nat → Option (Bytes × Nat)
  | [], s => some s
  | b :: bs, s => (pushByte ptr cap b s).bind (pushAll ptr cap bs)

/-- `w.push(bytes[N])` for the `n` bytes from `src` on, abi-encoder/src/types/address.rs:8-15. Every byte
is read from the memory as it is then. -/
def pushFrom (ptr cap : Nat) : Nat → Nat → Bytes × Nat → Option (Bytes × Nat)
  | _, 0, s => some s
  | src, n + 1, s => do
    let b ← s.1[src]?
    pushFrom ptr cap (src + 1) n (← pushByte ptr cap b s)

/-- `Encoder::encode` into the vector at `ptr`: see `Ty.encode`, of which this is the version in
memory. -/
def encodeAt (ptr cap : Nat) : (t : Ty) → RawOf t → Bytes × Nat → Option (Bytes × Nat)
  | .unit, _, s => pushByte ptr cap Abi.UNIT s
  | .bool, b, s => pushByte ptr cap (if (show Bool from b) then Abi.BOOL_TRUE else Abi.BOOL_FALSE) s
  | .address, a, s => do
    let s ← pushByte ptr cap Abi.ADDRESS s
    pushFrom ptr cap (show U32 from a).toNat 20 s
  | .amount, x, s => pushAll ptr cap (Abi.encodeAmount x) s
  | .int w sg, x, s => do pushAll ptr cap (← Abi.encodeInt w sg x) s
  | .option _, none, s => pushByte ptr cap Abi.NONE s
  | .option t, some v, s => encodeAt ptr cap t v s
  | .arr t n, l, s =>
    if n < 11 then do
      let s ← pushByte ptr cap (Abi.layoutArray n) s
      l.1.foldlM (fun s v => encodeAt ptr cap t v s) s
    else none
  | .pair a b, v, s => do encodeAt ptr cap b v.2 (← encodeAt ptr cap a v.1 s)

/-- The declared result of a function: nothing or a type, endpoint.rs:120-157. -/
@[reducible] def ResultOf : Option Ty → Type
  | none => Unit
  | some t => RawOf t

/-- `expand_epilogue`, endpoint.rs:120-157, from the result on, with `Node.set_returndata`,
sdk-host-ffi/src/ext.rs:178-186, and `Vec::with_capacity`, sdk-std/src/vec.rs:33-38. -/
def epilogue : (res : Option Ty) → ResultOf res → Bytes → Guest Unit
  | none, _, mem => .ret () mem
  | some t, v, mem =>
    .call mem (.staticAlloc (BitVec.ofNat 32 t.maxByteSize)) fun
      | .i32 ptr, mem =>
        match encodeAt ptr.toNat t.maxByteSize t v (mem, 0) with
        | none => .trap unreachableMsg
        | some (mem, len) =>
          if 0 < len then .call mem (.setReturndata ptr (BitVec.ofNat 32 len)) fun _ mem => .ret () mem
          else .ret () mem
      | _, _ => .trap unreachableMsg

/-- An endpoint as written by the author of a template: parameter types, result, and body. -/
structure Endpoint where
  params : List Ty
  result : Option Ty
  body : RawArgs → Bytes → Guest (ResultOf result)

/-- The exported function, endpoint.rs:39-52. -/
def Endpoint.guest (chk : Bool) (R : ValueRepr) (e : Endpoint) (mem : Bytes) : Guest Unit :=
  andThen (prologue chk R e.params mem) fun args mem =>
    andThen (e.body args mem) fun v mem => epilogue e.result v mem

/-- The generated `svm_alloc`, template.rs:288-296, with `svm_sdk::alloc`, sdk-alloc/src/lib.rs:59-64. -/
def sdkAlloc (size : U32) (mem : Bytes) : Guest (List Val) :=
  .call mem (.staticAlloc size) fun
    | .i32 ptr, mem => .ret [.i32 ptr] mem
    | _, _ => .trap unreachableMsg

/-- The exported functions of a template with the endpoints `f`, template.rs:55-83: `svm_alloc`, the
endpoints, and `svm_verify`, which answers 0 (template.rs:299-311). -/
def sdkInvoke (chk : Bool) (R : ValueRepr) (f : Str → Option Endpoint) (name : Str) (args : List Val)
    (mem : Bytes) : Guest (Unit × List Val) :=
  if name = svmAlloc then
    match args with
    | [.i32 size] => andThen (sdkAlloc size mem) fun vs mem => .ret ((), vs) mem
    | _ => .trap unreachableMsg
  else
    match f name with
    | some e => andThen (e.guest chk R mem) fun _ mem => .ret ((), []) mem
    | none => .ret ((), [.i32 0]) mem

/-- The module of a template that exports the endpoints `f`: `svm_verify` has a result
(template.rs:299-311), endpoints have none. `memory` is the memory when the instance starts. -/
def sdkModule (chk : Bool) (R : ValueRepr) (memory : Bytes) (f : Str → Option Endpoint) : Module where
  σ := Unit
  linkError := none
  start := .ret () memory
  hasMemory := true
  sig name :=
    if name = svmAlloc then some .alloc
    else if name = svmVerify then some .other
    else (f name).map fun _ => .nullary
  invoke _ name args mem := sdkInvoke chk R f name args mem

/-! ## Spec -/

/-- What a value in memory means: addresses are the bytes they point to. `none` if they point out of the
memory. -/
def meaning : (t : Ty) → RawOf t → Bytes → Option t.Val
  | .unit, _, _ => some ()
  | .bool, b, _ => some b
  | .address, p, mem =>
    if h : ((mem.drop (show U32 from p).toNat).take 20).length = 20 then some ⟨_, h⟩ else none
  | .amount, x, _ => some x
  | .int _ _, x, _ => some x
  | .option _, none, _ => some none
  | .option t, some v, mem => (meaning t v mem).map some
  | .arr t n, l, mem => do
    let xs ← l.1.mapM fun v => meaning t v mem
    if h : xs.length = n then some ⟨xs, h⟩ else none
  | .pair a b, v, mem => do some (← meaning a v.1 mem, ← meaning b v.2 mem)

/-- What arguments in memory mean. -/
def meanings (mem : Bytes) : RawArgs → Option Args
  | [] => some []
  | a :: l => do some (⟨a.1, ← meaning a.1 a.2 mem⟩ :: (← meanings mem l))

/-! ## Lemmas -/

theorem run_andThen {α β : Type} {chk : Bool} {g : Guest α} {k : α → Bytes → Guest β} {env env' : Env}
    {a : α} {mem : Bytes} {w w' : View} (h : (g.run chk env).eval w = (w', .ok (env', .ok (a, mem)))) :
    ((andThen g k).run chk env).eval w = ((k a mem).run chk env').eval w' := by
  induction g generalizing env w with
  | ret b m => cases h; rfl
  | trap msg => cases h
  | call m c f ih =>
    change ((host chk env m c).bind _).eval w = _
    change ((host chk env m c).bind _).eval w = _ at h
    rw [Prog.eval_bind] at h ⊢
    cases hh : (host chk env m c).eval w with
    | mk w1 o =>
      rw [hh] at h
      cases o with
      | ok r => exact ih r.1 r.2.1 h
      | err e => cases h
      | panic => cases h

theorem run_andThen_trap {α β : Type} {chk : Bool} {g : Guest α} {k : α → Bytes → Guest β} {env env' : Env}
    {msg : Str} {w w' : View} (h : (g.run chk env).eval w = (w', .ok (env', .error msg))) :
    ((andThen g k).run chk env).eval w = (w', .ok (env', .error msg)) := by
  induction g generalizing env w with
  | ret b m => cases h
  | trap msg => cases h; rfl
  | call m c f ih =>
    change ((host chk env m c).bind _).eval w = _
    change ((host chk env m c).bind _).eval w = _ at h
    rw [Prog.eval_bind] at h ⊢
    cases hh : (host chk env m c).eval w with
    | mk w1 o =>
      rw [hh] at h
      cases o with
      | ok r => exact ih r.1 r.2.1 h
      | err e => cases h
      | panic => cases h

theorem run_andThen_panic {α β : Type} {chk : Bool} {g : Guest α} {k : α → Bytes → Guest β} {env : Env}
    {w w' : View} (h : (g.run chk env).eval w = (w', .panic)) :
    ((andThen g k).run chk env).eval w = (w', .panic) := by
  induction g generalizing env w with
  | ret b m => cases h
  | trap msg => cases h
  | call m c f ih =>
    change ((host chk env m c).bind _).eval w = _
    change ((host chk env m c).bind _).eval w = _ at h
    rw [Prog.eval_bind] at h ⊢
    cases hh : (host chk env m c).eval w with
    | mk w1 o =>
      rw [hh] at h
      cases o with
      | ok r => exact ih r.1 r.2.1 h
      | err e => cases h
      | panic => cases h; rfl

theorem run_andThen_err {α β : Type} {chk : Bool} {g : Guest α} {k : α → Bytes → Guest β} {env : Env}
    {w w' : View} {e : SErr} (h : (g.run chk env).eval w = (w', .err e)) :
    ((andThen g k).run chk env).eval w = (w', .err e) := by
  induction g generalizing env w with
  | ret b m => cases h
  | trap msg => cases h
  | call m c f ih =>
    change ((host chk env m c).bind _).eval w = _
    change ((host chk env m c).bind _).eval w = _ at h
    rw [Prog.eval_bind] at h ⊢
    cases hh : (host chk env m c).eval w with
    | mk w1 o =>
      rw [hh] at h
      cases o with
      | ok r => exact ih r.1 r.2.1 h
      | err e => cases h; rfl
      | panic => cases h

theorem andThen_assoc {α β γ : Type} (g : Guest α) (k : α → Bytes → Guest β) (l : β → Bytes → Guest γ) :
    andThen (andThen g k) l = andThen g fun a mem => andThen (k a mem) l := by
  induction g with
  | ret a m => rfl
  | trap msg => rfl
  | call m c f ih =>
    change Guest.call m c _ = Guest.call m c _
    congr 1
    funext v mem
    exact ih v mem

theorem length_writeMem {mem bs : Bytes} {o : Nat} (h : o + bs.length ≤ mem.length) :
    (writeMem mem o bs).length = mem.length := by
  unfold writeMem
  simp
  omega

theorem take_writeMem {mem bs : Bytes} {o n : Nat} (h : n ≤ o) (ho : o ≤ mem.length) :
    (writeMem mem o bs).take n = mem.take n := by
  unfold writeMem
  rw [List.take_append_of_le_length (by simp; omega), List.take_take, Nat.min_eq_left h]

theorem writeMem_append (mem bs : Bytes) (b : UInt8) (o : Nat) (h : o + bs.length < mem.length) :
    writeMem (writeMem mem o bs) (o + bs.length) [b] = writeMem mem o (bs ++ [b]) := by
  unfold writeMem
  have h1 : (mem.take o).length = o := by simp; omega
  rw [List.take_append, List.drop_append]
  simp only [h1]
  have h2 : o + bs.length - o = bs.length := by omega
  have h3 : o + bs.length + [b].length - o = bs.length + 1 := by simp; omega
  rw [h2, h3, List.take_append, List.drop_append]
  have h4 : (mem.take o).take (o + bs.length) = mem.take o := List.take_of_length_le (by omega)
  have h5 : (mem.take o).drop (o + bs.length + [b].length) = [] := List.drop_eq_nil_of_le (by simp; omega)
  rw [h4, h5]
  simp
  rw [show o + (bs.length + 1) = o + bs.length + 1 by omega, List.drop_eq_nil_of_le (by omega)]
  rfl

theorem writeMem_nil (mem : Bytes) (o : Nat) : writeMem mem o [] = mem := by
  unfold writeMem
  simp

theorem getElem?_writeMem {mem bs : Bytes} {o i : Nat} (h : o + bs.length ≤ mem.length)
    (hi : i < o ∨ o + bs.length ≤ i) : (writeMem mem o bs)[i]? = mem[i]? := by
  unfold writeMem
  have h1 : (mem.take o).length = o := by simp; omega
  rcases hi with hi | hi
  · rw [List.getElem?_append_left (by omega), List.getElem?_take_of_lt hi]
  · rw [List.getElem?_append_right (by omega), List.getElem?_append_right (by omega), List.getElem?_drop]
    congr 1
    omega

theorem alloc_eval {chk : Bool} {env : Env} {mem : Bytes} {n : Nat} (hm : env.memorySet = true) (h0 : 0 < n)
    (hn : n < 2 ^ 32) (h : env.usedMemory + n ≤ mem.length) (w : View) :
    (host chk env mem (.staticAlloc (BitVec.ofNat 32 n))).eval w =
      (w, .ok (.i32 (BitVec.ofNat 32 (env.usedMemory + n)), mem,
        { env with usedMemory := env.usedMemory + n })) := by
  have hv : (BitVec.ofNat 32 n).toNat = n := by rw [BitVec.toNat_ofNat, Nat.mod_eq_of_lt hn]
  have e : staticAlloc env mem (BitVec.ofNat 32 n) =
      some (BitVec.ofNat 32 (env.usedMemory + n), { env with usedMemory := env.usedMemory + n }) := by
    unfold staticAlloc
    rw [hv, if_pos (by simp [hm, h0])]
    dsimp only
    rw [if_neg (by omega)]
  change ((Prog.ofOption (staticAlloc env mem (BitVec.ofNat 32 n))).bind _).eval w = _
  rw [e]
  rfl

theorem ofNat_toNat {n : Nat} (h : n < 2 ^ 32) : (BitVec.ofNat 32 n).toNat = n := by
  rw [BitVec.toNat_ofNat, Nat.mod_eq_of_lt h]

/-! ### Reading -/

theorem slice_length {mem : Bytes} {pos stop : Nat} (h : stop ≤ mem.length) :
    (slice mem pos stop).length = stop - pos := by
  unfold slice
  simp
  omega

theorem slice_drop {mem bs r : Bytes} {pos stop : Nat} (h : slice mem pos stop = bs ++ r) :
    slice mem (pos + bs.length) stop = r := by
  unfold slice at h ⊢
  rw [← List.drop_drop, h]
  exact List.drop_left

theorem slice_congr {mem m : Bytes} {stop : Nat} (h : m.take stop = mem.take stop) (pos : Nat) :
    slice m pos stop = slice mem pos stop := by
  unfold slice
  rw [h]

theorem primAt_encode (chk : Bool) {p : Prim} {bs r mem : Bytes} {pos stop : Nat}
    (hp : Abi.encodePrim p = some bs) (hs : slice mem pos stop = bs ++ r) (hl : stop ≤ mem.length) :
    primAt chk mem pos stop = some (rawPrim (pos + 1) p, pos + bs.length) := by
  unfold primAt
  rw [hs, Abi.decodePrim_encode chk hp r]
  have h1 := slice_length (pos := pos) hl
  obtain ⟨b, t, hb, -⟩ := Abi.encodePrim_cons p
  rw [hp] at hb
  cases hb
  rw [hs, List.length_append, List.length_cons] at h1
  dsimp only
  rw [List.length_cons]
  congr 2
  omega

theorem bytes_at {m bs r : Bytes} {pos stop : Nat} {b : UInt8} (h : slice m pos stop = b :: bs ++ r) :
    (m.drop (pos + 1)).take bs.length = bs := by
  have h1 : slice m (pos + [b].length) stop = bs ++ r := slice_drop (by rw [h]; rfl)
  unfold slice at h1
  have h2 := congrArg (List.take bs.length) h1
  rw [List.take_left, List.drop_take, List.take_take] at h2
  have h3 := congrArg List.length h1
  rw [List.length_drop, List.length_take, List.length_append] at h3
  rw [Nat.min_eq_left (by simp at h3 ⊢; omega)] at h2
  exact h2

/-- Primitive arguments. -/
theorem elem_at {t : Ty} (ht : t.Elem ∨ t = .unit) (v : t.Val) {bs : Bytes} (he : t.encode v = some bs)
    {pos : Nat} (hp : pos + 1 < 2 ^ 32) : Abi.encodePrim (Abi.toPrim t v) = some bs ∧
    ∃ x, rawFromPrim t (rawPrim (pos + 1) (Abi.toPrim t v)) = some x ∧
      ∀ (m r : Bytes) (stop : Nat), slice m pos stop = bs ++ r → meaning t x m = some v := by
  match t, v, ht with
  | .unit, _, _ => exact ⟨he, (), rfl, fun _ _ _ _ => rfl⟩
  | .bool, b, _ => exact ⟨he, b, rfl, fun _ _ _ _ => rfl⟩
  | .amount, x, _ => exact ⟨he, x, rfl, fun _ _ _ _ => rfl⟩
  | .int w s, x, _ =>
    refine ⟨he, x, ?_, fun _ _ _ _ => rfl⟩
    change (if h : w = w ∧ s = s then some (h.1 ▸ x) else none) = some x
    rw [dif_pos ⟨rfl, rfl⟩]
  | .address, a, _ =>
    refine ⟨he, BitVec.ofNat 32 (pos + 1), rfl, fun m r stop hs => ?_⟩
    cases he
    have h1 := bytes_at hs
    rw [a.2] at h1
    unfold meaning
    have h2 : (show U32 from BitVec.ofNat 32 (pos + 1)).toNat = pos + 1 := ofNat_toNat hp
    simp only [h2, h1, a.2, dite_true]
  | .option t, _, .inl h => exact h.elim
  | .arr t n, _, .inl h => exact h.elim
  | .pair a b, _, .inl h => exact h.elim

/-- The room that the vector of an argument takes: the marker times the size of a value. -/
def vecSize (R : ValueRepr) : Ty → Nat
  | .arr _ n => (Abi.layoutArray n).toNat * R.size
  | _ => 0

theorem items_at (chk : Bool) (R : ValueRepr) {t : Ty} (ht : t.Elem) {ptr cap stop : Nat} (hps : stop ≤ ptr)
    (hs32 : stop < 2 ^ 32) :
    ∀ (l : List t.Val) (bss : List Bytes) (acc : List RawPrim) (mem r : Bytes) (pos : Nat),
      l.mapM t.encode = some bss → slice mem pos stop = bss.flatten ++ r → stop ≤ mem.length →
      acc.length + l.length ≤ cap → ptr + (acc.length + l.length) * R.size ≤ mem.length →
      ∃ ps xs mem', itemsAt chk R ptr cap stop l.length acc mem pos =
          some (acc ++ ps, mem', pos + bss.flatten.length) ∧
        mem'.length = mem.length ∧ mem'.take stop = mem.take stop ∧ ps.length = l.length ∧
        ps.mapM (rawFromPrim t) = some xs ∧ xs.length = l.length ∧
        ∀ m : Bytes, m.take stop = mem.take stop → xs.mapM (fun x => meaning t x m) = some l
  | [], bss, acc, mem, r, pos, hb, hs, hl, hc, hm => by
    cases hb
    exact ⟨[], [], mem, by simp [itemsAt], rfl, rfl, rfl, rfl, rfl, fun _ _ => rfl⟩
  | v :: l, bss, acc, mem, r, pos, hb, hs, hl, hc, hm => by
    obtain ⟨y, ys, hy, hys, rfl⟩ := Abi.mapM_cons_some hb
    rw [List.flatten_cons, List.append_assoc] at hs
    have hlen := slice_length (pos := pos) hl
    rw [hs, List.length_append] at hlen
    have hy0 : 0 < y.length := by
      obtain ⟨b, bs, hb', -⟩ := Abi.encodePrim_cons (Abi.toPrim t v)
      have he := Abi.encode_toPrim ht v
      unfold Abi.encode at he
      rw [he, hy] at hb'
      cases hb'
      simp
    obtain ⟨hep, x, hx, hmean⟩ := elem_at (.inl ht) v hy (pos := pos) (by omega)
    have hprim := primAt_encode chk hep hs hl
    rw [List.length_cons] at hc hm
    have hsz : acc.length * R.size + R.size ≤ (acc.length + (l.length + 1)) * R.size := by
      have := Nat.mul_le_mul_right R.size (show acc.length + 1 ≤ acc.length + (l.length + 1) by omega)
      rwa [Nat.add_mul, Nat.one_mul] at this
    have hroom : ptr + acc.length * R.size + (R.bytes (rawPrim (pos + 1) (Abi.toPrim t v))).length ≤
        mem.length := by
      rw [R.length]
      omega
    have hml := length_writeMem hroom
    have htk : (writeMem mem (ptr + acc.length * R.size) (R.bytes (rawPrim (pos + 1) (Abi.toPrim t v)))).take
        stop = mem.take stop := take_writeMem (by omega) (by omega)
    have hs' : slice (writeMem mem (ptr + acc.length * R.size)
        (R.bytes (rawPrim (pos + 1) (Abi.toPrim t v)))) (pos + y.length) stop = ys.flatten ++ r := by
      rw [slice_congr htk]
      exact slice_drop hs
    obtain ⟨ps, xs, mem', h1, h2, h3, h4, h5, h6, h7⟩ := items_at chk R ht (cap := cap) hps hs32 l ys
      (acc ++ [rawPrim (pos + 1) (Abi.toPrim t v)]) _ r (pos + y.length) hys hs' (by omega)
      (by rw [List.length_append, List.length_singleton]; omega)
      (by
        rw [List.length_append, List.length_singleton, hml]
        rw [show acc.length + 1 + l.length = acc.length + (l.length + 1) by omega]
        exact hm)
    refine ⟨rawPrim (pos + 1) (Abi.toPrim t v) :: ps, x :: xs, mem', ?_, by rw [h2, hml], by rw [h3, htk],
      by simp [h4], ?_, by simp [h6], fun m hmt => ?_⟩
    · rw [List.length_cons, itemsAt, hprim]
      dsimp only
      rw [if_pos ⟨by omega, by
        rw [Nat.add_mul, Nat.one_mul]
        omega⟩, h1]
      simp
      omega
    · simp [hx, h5]
    · have e1 : meaning t x m = some v := hmean m (ys.flatten ++ r) stop (by rw [slice_congr hmt, hs])
      have e2 := h7 m (by rw [hmt, htk])
      simp [e1, e2]

theorem nextAt_prim (chk : Bool) (R : ValueRepr) {p : Prim} {bs r mem : Bytes} {pos stop : Nat}
    (hp : Abi.encodePrim p = some bs) (hs : slice mem pos stop = bs ++ r) (hl : stop ≤ mem.length) :
    nextAt chk R pos stop mem = .ret (.prim (rawPrim (pos + 1) p), pos + bs.length) mem := by
  have h1 := primAt_encode chk hp hs hl
  obtain ⟨b, t, hb, k, hk, hka⟩ := Abi.encodePrim_cons p
  rw [hp] at hb
  cases hb
  unfold nextAt
  rw [hs, List.cons_append]
  dsimp only
  rw [hk]
  cases k <;> first | exact absurd rfl hka | (dsimp only; rw [h1])

/-- The next argument. -/
theorem next_at (chk chk' : Bool) (R : ValueRepr) {t : Ty} (ht : t.Arg) (h8 : ∀ u, t ≠ .arr u 8) (v : t.Val)
    {bs r mem : Bytes} {pos stop : Nat} {env : Env} (he : t.encode v = some bs)
    (hs : slice mem pos stop = bs ++ r) (hl : stop ≤ mem.length) (h32 : mem.length < 2 ^ 32)
    (hset : env.memorySet = true) (hfar : 0 < vecSize R t → stop ≤ env.usedMemory + vecSize R t)
    (hroom : env.usedMemory + 2 * vecSize R t ≤ mem.length) (w : View) :
    ∃ rv x mem', ((nextAt chk R pos stop mem).run chk' env).eval w =
        (w, .ok ({ env with usedMemory := env.usedMemory + vecSize R t },
          .ok ((rv, pos + bs.length), mem'))) ∧
      rawFrom t rv = some x ∧ mem'.length = mem.length ∧ mem'.take stop = mem.take stop ∧
      ∀ m : Bytes, m.take stop = mem.take stop → meaning t x m = some v := by
  have hlen := slice_length (pos := pos) hl
  rw [hs, List.length_append] at hlen
  have hprim : ∀ (u : Ty) (y : u.Val), u.Elem ∨ u = .unit → u.encode y = some bs → 0 < bs.length := by
    intro u y hu hy
    obtain ⟨hep, -⟩ := elem_at hu y hy (pos := 0) (by omega)
    obtain ⟨b, l, hb', -⟩ := Abi.encodePrim_cons (Abi.toPrim u y)
    rw [hep] at hb'
    cases hb'
    simp
  by_cases hsimple : t.Elem ∨ t = .unit
  · have h0 := hprim t v hsimple he
    obtain ⟨hep, x, hx, hmean⟩ := elem_at hsimple v he (pos := pos) (by omega)
    refine ⟨.prim (rawPrim (pos + 1) (Abi.toPrim t v)), x, mem, ?_, ?_, rfl, rfl, fun m hm => ?_⟩
    · rw [nextAt_prim chk R hep hs hl]
      have hv : vecSize R t = 0 := by
        rcases hsimple with h | rfl
        · cases t <;> first | rfl | exact h.elim
        · rfl
      rw [hv]
      rfl
    · rcases hsimple with h | rfl
      · cases t <;> first | exact hx | exact h.elim
      · exact hx
    · exact hmean m r stop (by rw [slice_congr hm, hs])
  · match t, v, ht, he with
    | .unit, _, _, _ => exact absurd (.inr rfl) hsimple
    | .bool, _, _, _ | .address, _, _, _ | .amount, _, _, _ | .int _ _, _, _, _ =>
      exact absurd (.inl trivial) hsimple
    | .pair a b, _, h, _ => exact h.elim
    | .option u, none, h, he =>
      refine ⟨.prim .none_, none, mem, ?_, rfl, rfl, rfl, fun _ _ => rfl⟩
      rw [nextAt_prim chk R (p := .none_) he hs hl]
      rfl
    | .option u, some y, hu, he =>
      have h0 := hprim u y (.inl hu) he
      obtain ⟨hep, x, hx, hmean⟩ := elem_at (.inl hu) y he (pos := pos) (by omega)
      refine ⟨.prim (rawPrim (pos + 1) (Abi.toPrim u y)), some x, mem, ?_, ?_, rfl, rfl, fun m hm => ?_⟩
      · rw [nextAt_prim chk R hep hs hl]
        rfl
      · have hne : rawPrim (pos + 1) (Abi.toPrim u y) ≠ .none_ := by
          cases u <;> first | exact hu.elim | (intro h; cases h)
        have : rawFrom (.option u) (.prim (rawPrim (pos + 1) (Abi.toPrim u y))) =
            (rawFromPrim u (rawPrim (pos + 1) (Abi.toPrim u y))).map some := by
          generalize rawPrim (pos + 1) (Abi.toPrim u y) = q at hne
          cases q <;> first | rfl | exact absurd rfl hne
        rw [this, hx]
        rfl
      · change (meaning u x m).map some = _
        rw [hmean m r stop (by rw [slice_congr hm, hs])]
        rfl
    | .arr u n, l, ⟨hu, hn1, hn⟩, he =>
      obtain ⟨hn11, bss, hbss, rfl⟩ := Abi.Ty.encode_arr he
      rw [List.cons_append] at hs
      rw [List.length_cons] at hlen
      have hk := Abi.kindOf_array hn11
      have hcap := (Abi.layoutArray_cap hn11).2 fun h => h8 u (by rw [h])
      have hmul := Nat.mul_le_mul_right R.size hcap
      have hvec : vecSize R (.arr u n) = (Abi.layoutArray n).toNat * R.size := rfl
      have hvpos : 0 < vecSize R (.arr u n) := by
        rw [hvec]
        exact Nat.mul_pos (by omega) R.pos
      have hv32 : vecSize R (.arr u n) < 2 ^ 32 := by
        have h1 := Nat.mul_le_mul_right R.size (show (Abi.layoutArray n).toNat ≤ 255 by
          have := UInt8.toNat_lt (Abi.layoutArray n)
          omega)
        have := R.small
        omega
      have hfar := hfar hvpos
      have hs1 : slice mem (pos + 1) stop = bss.flatten ++ r :=
        slice_drop (bs := [Abi.layoutArray n]) (by rw [hs]; rfl)
      obtain ⟨ps, xs, mem', h1, h2, h3, h4, h5, h6, h7⟩ := items_at chk R hu
        (ptr := env.usedMemory + vecSize R (.arr u n)) (cap := (Abi.layoutArray n).toNat) hfar (by omega)
        l.1 bss [] mem r (pos + 1) hbss hs1 hl (by rw [l.2, List.length_nil]; omega)
        (by
          rw [l.2, List.length_nil, Nat.zero_add]
          omega)
      rw [l.2] at h1 h4 h6
      refine ⟨.vec ps, ⟨xs, h6⟩, mem', ?_, ?_, h2, h3, fun m hm => ?_⟩
      · unfold nextAt
        rw [hs]
        dsimp only
        rw [hk.1]
        dsimp only
        refine (run_call (alloc_eval hset hvpos hv32 (by omega) w)).trans ?_
        dsimp only
        rw [hk.2]
        dsimp only
        rw [Nat.add_sub_cancel, ofNat_toNat (by omega), h1]
        dsimp only
        rw [List.nil_append, List.length_cons]
        change (w, Outcome.ok _) = _
        rw [show pos + 1 + bss.flatten.length = pos + (bss.flatten.length + 1) by omega]
      · change (if ps.length = n then (ps.mapM (rawFromPrim u)).bind _ else none) = _
        rw [if_pos h4, h5]
        rw [Option.bind_some, dif_pos h6]
      · change (xs.mapM fun v => meaning u v m).bind _ = _
        rw [h7 m hm]
        rw [Option.bind_some, dif_pos l.2]

/-- All vectors of the arguments. -/
def vecSizes (R : ValueRepr) (ts : List Ty) : Nat := (ts.map (vecSize R)).sum

/-- All arguments. -/
theorem args_at (chk chk' : Bool) (R : ValueRepr) {start stop : Nat} :
    ∀ (args : Args) (bs mem : Bytes) (pos : Nat) (env : Env), (∀ a ∈ args, a.1.Arg) →
      (∀ a ∈ args, ∀ u, a.1 ≠ .arr u 8) → Abi.encodeArgs args = some bs →
      slice mem pos stop = bs → stop ≤ mem.length → mem.length < 2 ^ 32 → env.memorySet = true →
      start ≤ env.usedMemory →
      (∀ a ∈ args, 0 < vecSize R a.1 → stop ≤ start + vecSize R a.1) →
      env.usedMemory + 2 * vecSizes R (args.map (·.1)) ≤ mem.length → ∀ w : View,
      ∃ raw mem', ((argsAt chk R stop (args.map (·.1)) pos mem).run chk' env).eval w =
          (w, .ok ({ env with usedMemory := env.usedMemory + vecSizes R (args.map (·.1)) },
            .ok (raw, mem'))) ∧
        mem'.length = mem.length ∧ mem'.take stop = mem.take stop ∧
        ∀ m : Bytes, m.take stop = mem.take stop → meanings m raw = some args
  | [], bs, mem, pos, env, _, _, _, _, _, _, _, _, _, _, w =>
    ⟨[], mem, rfl, rfl, rfl, fun _ _ => rfl⟩
  | ⟨t, v⟩ :: args, bs, mem, pos, env, ht, h8, he, hs, hl, h32, hset, hst, hfar, hroom, w => by
    have hsum : vecSizes R ((⟨t, v⟩ :: args : Args).map (·.1)) =
        vecSize R t + vecSizes R (args.map (·.1)) := by
      unfold vecSizes
      simp
    rw [hsum] at hroom ⊢
    obtain ⟨x, y, hx, hy, rfl⟩ : ∃ x y, t.encode v = some x ∧ Abi.encodeArgs args = some y ∧
        bs = x ++ y := by
      unfold Abi.encodeArgs at he
      cases hx : t.encode v with
      | none => rw [hx] at he; cases he
      | some x =>
        rw [hx] at he
        cases hy : Abi.encodeArgs args with
        | none => rw [hy] at he; cases he
        | some y => rw [hy] at he; cases he; exact ⟨x, y, rfl, rfl, rfl⟩
    have hfar1 := hfar ⟨t, v⟩ (by simp)
    obtain ⟨rv, z, mem1, e1, e2, e3, e4, e5⟩ := next_at chk chk' R (t := t) (ht ⟨t, v⟩ (by simp)) (h8 ⟨t, v⟩ (by simp)) v
      (env := env) hx hs hl h32 hset (fun h => by have := hfar1 h; dsimp only at this; omega) (by omega) w
    obtain ⟨raw, mem2, f1, f2, f3, f4⟩ := args_at chk chk' R (start := start) args y mem1 (pos + x.length)
      { env with usedMemory := env.usedMemory + vecSize R t } (fun a ha => ht a (by simp [ha]))
      (fun a ha => h8 a (by simp [ha])) hy (by rw [slice_congr e4]; exact slice_drop hs) (by omega) (by omega)
      hset (by dsimp only; omega) (fun a ha => hfar a (by simp [ha])) (by dsimp only; omega) w
    refine ⟨⟨t, z⟩ :: raw, mem2, ?_, by omega, by rw [f3, e4], fun m hm => ?_⟩
    · rw [List.map_cons, argsAt, run_andThen e1]
      dsimp only
      rw [e2]
      dsimp only
      rw [run_andThen f1]
      change (w, Outcome.ok _) = _
      rw [Nat.add_assoc]
    · rw [meanings, e5 m hm, f4 m (by rw [hm, e4])]
      rfl

/-! ### Calling an endpoint -/

/-- The environment when an endpoint starts that got `len` bytes. -/
def startEnv (env : Env) (len : Nat) : Env :=
  { env with usedMemory := env.usedMemory + len, logs := [], calldata := some (env.usedMemory + len, len) }

/-- What `run` makes of the end of an exported function. -/
def report (env : Env) (name : Str) (r : Env × Except Str (Unit × Bytes)) :
    Env × Except Failure (Bytes × List Bytes) :=
  ({ r.1 with logs := [] },
    match r.2 with
    | .ok x => .ok (x.2, r.1.logs)
    | .error msg => .error (.funcFailed env.targetAddr env.templateAddr name msg, r.1.logs))

/-- A successful step of a sequence. -/
theorem eval_bind_congr {α β : Type} {p q : Prog α} {f : α → Prog β} {w : View} (h : p.eval w = q.eval w) :
    (p.bind f).eval w = (q.bind f).eval w := by
  rw [Prog.eval_bind, Prog.eval_bind, h]

theorem wasmerCall_sdk (chk : Bool) (env : Env) (name : Str) (g : Guest Unit) (w : View)
    (k : Env × Except Failure ((Unit × List Val) × Bytes × List Bytes) →
      Prog (Env × Except Failure (Bytes × List Bytes)))
    (h1 : ∀ e f, k (e, .error f) = .ret (e, .error f))
    (h2 : ∀ e y, k (e, .ok y) = .ret (e, .ok (y.2.1, y.2.2))) :
    ((wasmerCall chk env name (andThen g fun _ mem => .ret ((), ([] : List Val)) mem)).bind k).eval w =
    ((g.run chk env).bind fun r => .ret (report env name r)).eval w := by
  rw [Prog.eval_bind, Prog.eval_bind (g.run chk env)]
  unfold wasmerCall
  rw [Prog.bind_eq, Prog.eval_bind]
  cases hg : (g.run chk env).eval w with
  | mk w' o =>
    cases o with
    | ok r =>
      obtain ⟨env', e⟩ := r
      cases e with
      | ok x =>
        obtain ⟨u, mem⟩ := x
        rw [run_andThen hg]
        change (k (_, .ok _)).eval w' = _
        rw [h2]
        rfl
      | error msg =>
        rw [run_andThen_trap hg]
        change (k (_, .error _)).eval w' = _
        rw [h1]
        rfl
    | err e =>
      rw [run_andThen_err hg]
    | panic =>
      rw [run_andThen_panic hg]

/-- The name of an endpoint `e` of the template. -/
structure IsEndpoint (f : Str → Option Endpoint) (name : Str) (e : Endpoint) : Prop where
  found : f name = some e
  notAlloc : name ≠ svmAlloc
  notVerify : name ≠ svmVerify

theorem IsEndpoint.sig {f : Str → Option Endpoint} {name : Str} {e : Endpoint} (h : IsEndpoint f name e)
    (chk : Bool) (R : ValueRepr) (memory : Bytes) : (sdkModule chk R memory f).sig name = some .nullary := by
  change (if name = svmAlloc then _ else if name = svmVerify then _ else _) = _
  rw [if_neg h.notAlloc, if_neg h.notVerify, h.found]
  rfl

theorem IsEndpoint.invoke {f : Str → Option Endpoint} {name : Str} {e : Endpoint} (h : IsEndpoint f name e)
    (chk : Bool) (R : ValueRepr) (mem : Bytes) : sdkInvoke chk R f name [] mem =
      andThen (e.guest chk R mem) fun _ mem => .ret ((), []) mem := by
  unfold sdkInvoke
  rw [if_neg h.notAlloc, h.found]

theorem sdkInvoke_alloc (chk : Bool) (R : ValueRepr) (f : Str → Option Endpoint) (size : U32) (mem : Bytes) :
    sdkInvoke chk R f svmAlloc [.i32 size] mem = .call mem (.staticAlloc size) fun
      | .i32 ptr, mem => .ret ((), [.i32 ptr]) mem
      | _, _ => .trap unreachableMsg := by
  unfold sdkInvoke
  rw [if_pos rfl]
  change Guest.call mem _ _ = Guest.call mem _ _
  congr 1
  funext v m
  cases v <;> rfl

theorem wasmerCall_alloc {chk chk' : Bool} {R : ValueRepr} {f : Str → Option Endpoint} {env : Env} {name : Str}
    {mem : Bytes} {n : Nat} (hm : env.memorySet = true) (h0 : 0 < n) (hn : n < 2 ^ 32)
    (h : env.usedMemory + n ≤ mem.length) (w : View) :
    (wasmerCall chk' env name (sdkInvoke chk R f svmAlloc [.i32 (BitVec.ofNat 32 n)] mem)).eval w =
      (w, .ok ({ env with usedMemory := env.usedMemory + n, logs := [] },
        .ok (((), [.i32 (BitVec.ofNat 32 (env.usedMemory + n))]), mem, env.logs))) := by
  unfold wasmerCall
  rw [sdkInvoke_alloc, Prog.bind_eq, Prog.eval_bind, run_call (alloc_eval hm h0 hn h w)]
  rfl

/-- The call of an endpoint with calldata: the runtime asks the template for memory, which the template
asks the host for, and copies the calldata there. -/
theorem runFunc_sdk {chk chk' : Bool} {R : ValueRepr} {memory mem : Bytes} {f : Str → Option Endpoint}
    {call : Call} {e : Endpoint} {env : Env} (he : IsEndpoint f call.funcName e) (hne : call.funcInput ≠ [])
    (hset : env.memorySet = true) (hret : env.returndata = none)
    (hroom : env.usedMemory + 2 * call.funcInput.length ≤ mem.length) (h32 : mem.length < 2 ^ 32) (w : View) :
    (runFunc chk' (sdkModule chk R memory f) call env () mem).eval w =
      (((e.guest chk R (writeMem mem (env.usedMemory + call.funcInput.length) call.funcInput)).run chk'
        (startEnv env call.funcInput.length)).bind fun r => .ret (report env call.funcName r)).eval w := by
  have hlen : 0 < call.funcInput.length := List.length_pos_iff.2 hne
  unfold runFunc lookupFunc
  rw [he.sig chk R memory]
  dsimp only
  rw [if_pos hlen]
  unfold callWithAlloc
  rw [Prog.bind_eq]
  have h1 : (callAlloc chk' (sdkModule chk R memory f) () env mem call.funcInput.length).eval w =
      (w, .ok ({ env with usedMemory := env.usedMemory + call.funcInput.length, logs := [] },
        .ok ((), mem, BitVec.ofNat 32 (env.usedMemory + call.funcInput.length)))) := by
    unfold callAlloc
    dsimp only
    rw [if_pos (show (sdkModule chk R memory f).sig svmAlloc = some .alloc from
      (by simp [sdkModule]))]
    exact Prog.eval_bind_ok (wasmerCall_alloc (chk := chk) (R := R) (f := f) (name := svmAlloc)
      (env := { env with mode := .accessDenied }) hset hlen (by omega) (by dsimp only; omega) w)
  rw [Prog.eval_bind_ok h1]
  dsimp only
  rw [if_pos hret]
  have h2 : setCalldata { env with usedMemory := env.usedMemory + call.funcInput.length, logs := [] } mem
      call.funcInput (BitVec.ofNat 32 (env.usedMemory + call.funcInput.length)) =
      some (writeMem mem (env.usedMemory + call.funcInput.length) call.funcInput,
        startEnv env call.funcInput.length) := by
    unfold setCalldata
    rw [ofNat_toNat (by omega), if_pos (by omega)]
    rfl
  rw [h2, Prog.bind_eq, Prog.eval_bind_ok (Prog.eval_ofOption_some _ _), Prog.bind_eq]
  dsimp only
  change ((wasmerCall chk' _ _ (sdkInvoke chk R f call.funcName [] _)).bind _).eval w = _
  rw [he.invoke chk R]
  exact wasmerCall_sdk chk' (startEnv env call.funcInput.length) call.funcName (e.guest chk R _) w _
    (fun _ _ => rfl) (fun _ _ => rfl)

theorem prologue_cons (chk : Bool) (R : ValueRepr) (t : Ty) (ts : List Ty) (mem : Bytes) :
    prologue chk R (t :: ts) mem = .call mem .calldataOffset fun
      | .i32 offset, mem => .call mem .calldataLen fun
        | .i32 len, mem => argsAt chk R (offset.toNat + len.toNat) (t :: ts) offset.toNat mem
        | _, _ => .trap unreachableMsg
      | _, _ => .trap unreachableMsg := rfl

/-- The prologue of a function with parameters reads from the place where the calldata is. -/
theorem prologue_run {chk chk' : Bool} {R : ValueRepr} {ts : List Ty} (hts : ts ≠ []) {mem : Bytes} {env : Env}
    {offset len : Nat} (hc : env.calldata = some (offset, len)) (ho : offset < 2 ^ 32) (hl : len < 2 ^ 32)
    (w : View) : ((prologue chk R ts mem).run chk' env).eval w =
      ((argsAt chk R (offset + len) ts offset mem).run chk' env).eval w := by
  cases ts with
  | nil => exact absurd rfl hts
  | cons t ts =>
    rw [prologue_cons]
    have h1 : (host chk' env mem .calldataOffset).eval w =
        (w, .ok (.i32 (BitVec.ofNat 32 offset), mem, env)) := by
      change ((Prog.ofOption env.calldata).bind _).eval w = _
      rw [hc]
      rfl
    have h2 : (host chk' env mem .calldataLen).eval w =
        (w, .ok (.i32 (BitVec.ofNat 32 len), mem, env)) := by
      change ((Prog.ofOption env.calldata).bind _).eval w = _
      rw [hc]
      rfl
    rw [run_call h1]
    dsimp only
    rw [run_call h2]
    dsimp only
    rw [ofNat_toNat ho, ofNat_toNat hl]

/-! ## C96: an endpoint gets the arguments that were sent -/

/-- The rest of an endpoint, once it has its arguments. -/
def Endpoint.rest (e : Endpoint) (raw : RawArgs) (mem : Bytes) : Guest Unit :=
  andThen (e.body raw mem) fun v mem => epilogue e.result v mem

/-- The call of the endpoint `e` runs its body on values that mean `args`. -/
def Delivers (chk chk' : Bool) (R : ValueRepr) (memory : Bytes) (f : Str → Option Endpoint) (call : Call)
    (e : Endpoint) (env : Env) (mem : Bytes) (w : View) (args : Args) : Prop :=
  ∃ raw mem' env', meanings mem' raw = some args ∧
    (runFunc chk' (sdkModule chk R memory f) call env () mem).eval w =
      (((e.rest raw mem').run chk' env').bind fun r => .ret (report env call.funcName r)).eval w

/-- What C96 says, for the layout `R` of values: an endpoint gets the arguments that were sent, if there is
enough memory. -/
def C96_claim (R : ValueRepr) : Prop :=
  ∀ (chk chk' : Bool) (memory : Bytes) (f : Str → Option Endpoint) (call : Call)
    (e : Endpoint) (env : Env) (mem : Bytes) (w : View) (args : Args),
    IsEndpoint f call.funcName e → (∀ a ∈ args, a.1.Arg) → (∀ a ∈ args, ∀ u, a.1 ≠ .arr u 8) →
    e.params = args.map (·.1) → args ≠ [] →
    Abi.encodeArgs args = some call.funcInput → env.memorySet = true → env.returndata = none →
    env.usedMemory + 2 * call.funcInput.length + 2 * vecSizes R e.params ≤ mem.length →
    mem.length < 2 ^ 32 → Delivers chk chk' R memory f call e env mem w args

/-- **C96, partial.** An endpoint gets the arguments that were sent, if there is enough memory and the
vector of every array parameter reserves at least as many bytes as the calldata has. -/
theorem C96_args_partial (chk chk' : Bool) (R : ValueRepr) (memory : Bytes) {f : Str → Option Endpoint}
    {call : Call} {e : Endpoint} {env : Env} {mem : Bytes} (w : View) {args : Args}
    (he : IsEndpoint f call.funcName e) (ht : ∀ a ∈ args, a.1.Arg) (h8 : ∀ a ∈ args, ∀ u, a.1 ≠ .arr u 8)
    (hp : e.params = args.map (·.1)) (hne : args ≠ [])
    (henc : Abi.encodeArgs args = some call.funcInput) (hset : env.memorySet = true)
    (hret : env.returndata = none)
    (hfar : ∀ t ∈ e.params, 0 < vecSize R t → call.funcInput.length ≤ vecSize R t)
    (hroom : env.usedMemory + 2 * call.funcInput.length + 2 * vecSizes R e.params ≤ mem.length)
    (h32 : mem.length < 2 ^ 32) :
    ∃ raw mem', meanings mem' raw = some args ∧ mem'.length = mem.length ∧
      (runFunc chk' (sdkModule chk R memory f) call env () mem).eval w =
        (((e.rest raw mem').run chk' { startEnv env call.funcInput.length with
            usedMemory := env.usedMemory + call.funcInput.length + vecSizes R e.params }).bind
          fun r => .ret (report env call.funcName r)).eval w := by
  have hin : call.funcInput ≠ [] := by
    cases args with
    | nil => exact absurd rfl hne
    | cons a args =>
      intro h0
      have hb : ∀ bs, a.1.encode a.2 = some bs → bs ≠ [] := fun bs hbs =>
        Abi.encode_ne_nil (v := Abi.toValue a.1 a.2) (by rw [Abi.encode_toValue (ht a (by simp)), hbs])
      rw [h0] at henc
      unfold Abi.encodeArgs at henc
      cases hx : a.1.encode a.2 with
      | none => rw [hx] at henc; cases henc
      | some x =>
        rw [hx] at henc
        cases hy : Abi.encodeArgs args with
        | none => rw [hy] at henc; cases henc
        | some y =>
          rw [hy] at henc
          have : x ++ y = [] := Option.some.inj henc
          exact hb x hx (List.append_eq_nil_iff.1 this).1
  have hpn : e.params ≠ [] := by
    rw [hp]
    simpa using hne
  rw [runFunc_sdk he hin hset hret (by omega) h32]
  have hw : env.usedMemory + call.funcInput.length + call.funcInput.length ≤ mem.length := by omega
  have hml := length_writeMem hw
  have hsl : slice (writeMem mem (env.usedMemory + call.funcInput.length) call.funcInput)
      (env.usedMemory + call.funcInput.length)
      (env.usedMemory + call.funcInput.length + call.funcInput.length) = call.funcInput := by
    unfold slice
    rw [List.drop_take, Nat.add_sub_cancel_left]
    exact drop_take_writeMem _ _ _ hw
  obtain ⟨raw, mem', h1, h2, h3, h4⟩ := args_at chk chk' R (start := env.usedMemory + call.funcInput.length)
    (stop := env.usedMemory + call.funcInput.length + call.funcInput.length) args call.funcInput
    (writeMem mem (env.usedMemory + call.funcInput.length) call.funcInput)
    (env.usedMemory + call.funcInput.length) (startEnv env call.funcInput.length) ht h8 henc hsl
    (by omega) (by omega) hset (le_refl _)
    (fun a ha h0 => by
      have := hfar a.1 (by rw [hp]; exact List.mem_map_of_mem ha) h0
      omega)
    (by
      rw [hml, ← hp]
      change env.usedMemory + call.funcInput.length + _ ≤ _
      omega) w
  refine ⟨raw, mem', h4 mem' h3, by omega, ?_⟩
  refine eval_bind_congr ?_
  unfold Endpoint.guest
  rw [← hp] at h1
  refine (run_andThen ((prologue_run hpn rfl (by omega) (by omega) w).trans h1)).trans ?_
  rfl

theorem items_written (chk : Bool) (R : ValueRepr) {ptr cap stop : Nat} :
    ∀ (n : Nat) (acc l : List RawPrim) (mem mem' : Bytes) (pos pos' : Nat),
      itemsAt chk R ptr cap stop n acc mem pos = some (l, mem', pos') →
      (∀ i (hi : i < acc.length), (mem.drop (ptr + i * R.size)).take R.size = R.bytes acc[i]) →
      ∀ i (hi : i < l.length), (mem'.drop (ptr + i * R.size)).take R.size = R.bytes l[i]
  | 0, acc, l, mem, mem', pos, pos', h, hacc => by
    cases h
    exact hacc
  | n + 1, acc, l, mem, mem', pos, pos', h, hacc => by
    unfold itemsAt at h
    split at h
    · cases h
    · rename_i p q hp
      split at h
      · rename_i hc
        have hr : ptr + acc.length * R.size + (R.bytes p).length ≤ mem.length := by
          have := hc.2
          rw [Nat.add_mul, Nat.one_mul] at this
          rw [R.length]
          omega
        refine items_written chk R n (acc ++ [p]) l _ mem' q pos' h fun i hi => ?_
        by_cases hia : i < acc.length
        · rw [List.getElem_append_left hia, ← hacc i hia]
          have h1 : i * R.size + R.size ≤ acc.length * R.size := by
            have := Nat.mul_le_mul_right R.size (show i + 1 ≤ acc.length by omega)
            rwa [Nat.add_mul, Nat.one_mul] at this
          rw [List.take_drop, List.take_drop, take_writeMem (by omega) (by omega)]
        · have hi' : i = acc.length := by
            rw [List.length_append, List.length_singleton] at hi
            omega
          subst hi'
          rw [List.getElem_append_right (le_refl _)]
          have := drop_take_writeMem _ _ _ hr
          rw [R.length] at this
          simpa using this
      · cases h

/-- Reading an array argument writes its items into the block that ends where the host says, which is
`marker * size` bytes behind the memory in use. If this is an endpoint's first argument then the memory
in use ends where the calldata starts (`runFunc_sdk`): the items replace the calldata from its byte
`marker * size` on. -/
theorem C96_overwritten {chk chk' : Bool} {R : ValueRepr} {pos stop pos' : Nat} {mem mem' : Bytes} {env env' : Env}
    {w w' : View} {l : List RawPrim} {marker : UInt8} {r : Bytes} (hs : slice mem pos stop = marker :: r)
    (h32 : mem.length < 2 ^ 32)
    (h : ((nextAt chk R pos stop mem).run chk' env).eval w = (w', .ok (env', .ok ((.vec l, pos'), mem'))))
    (i : Nat) (hi : i < l.length) :
    (mem'.drop (env.usedMemory + marker.toNat * R.size + i * R.size)).take R.size = R.bytes l[i] := by
  unfold nextAt at h
  rw [hs] at h
  dsimp only at h
  have hprim : ∀ g : Guest (RawValue × Nat), g = (match primAt chk mem pos stop with
      | some (p, pos) => .ret (.prim p, pos) mem
      | none => .trap unreachableMsg) →
      (g.run chk' env).eval w = (w', .ok (env', .ok ((.vec l, pos'), mem'))) → False := by
    intro g hg hr
    subst hg
    split at hr <;> cases hr
  cases hk : Abi.kindOf marker with
  | none => rw [hk] at h; cases h
  | some k =>
    rw [hk] at h
    by_cases hka : k = .array
    · subst hka
      dsimp only at h
      have hm32 : marker.toNat * R.size < 2 ^ 32 := by
        have h1 := Nat.mul_le_mul_right R.size (show marker.toNat ≤ 255 by
          have := UInt8.toNat_lt marker
          omega)
        have := R.small
        omega
      by_cases ha : env.memorySet = true ∧ 0 < marker.toNat * R.size ∧
          env.usedMemory + marker.toNat * R.size ≤ mem.length
      · rw [run_call (alloc_eval ha.1 ha.2.1 hm32 ha.2.2 w)] at h
        dsimp only at h
        cases hn : Abi.sizeOf Abi.ARR marker with
        | ok n =>
          rw [hn] at h
          dsimp only at h
          rw [ofNat_toNat (by omega)] at h
          cases hx : itemsAt chk R (env.usedMemory + marker.toNat * R.size) marker.toNat stop (n - 1) [] mem
              (pos + 1) with
          | none => rw [hx] at h; cases h
          | some x =>
            obtain ⟨l', m', p'⟩ := x
            rw [hx] at h
            cases h
            exact items_written chk R _ _ _ _ _ _ _ hx (fun i hi => absurd hi (by simp)) i hi
        | err e => rw [hn] at h; cases h
        | panic => rw [hn] at h; cases h
      · exfalso
        have hnone : staticAlloc env mem (BitVec.ofNat 32 (marker.toNat * R.size)) = none := by
          unfold staticAlloc
          rw [ofNat_toNat hm32]
          split
          · rename_i hc
            simp only [Bool.and_eq_true, decide_eq_true_eq] at hc
            dsimp only
            rw [if_pos (by
              by_contra hh
              exact ha ⟨hc.1, hc.2, by omega⟩)]
          · rfl
        have hp : (host chk' env mem (.staticAlloc (BitVec.ofNat 32 (marker.toNat * R.size)))).eval w =
            (w, .panic) := by
          change ((Prog.ofOption (staticAlloc env mem _)).bind _).eval w = _
          rw [hnone]
          rfl
        change ((host chk' env mem (.staticAlloc (BitVec.ofNat 32 (marker.toNat * R.size)))).bind _).eval w = _ at h
        rw [Prog.eval_bind, hp] at h
        cases h
    · exfalso
      cases k <;> first | exact hka rfl | exact hprim _ rfl h

theorem slice_writeMem {m y : Bytes} {pos q stop : Nat} (h1 : pos ≤ q) (h2 : q ≤ stop) (h3 : q ≤ m.length) :
    slice (writeMem m q y) pos stop = slice m pos q ++ (y ++ m.drop (q + y.length)).take (stop - q) := by
  unfold slice writeMem
  have hq : (m.take q).length = q := by simp; omega
  rw [List.take_append, List.take_of_length_le (by omega), hq, List.drop_append_of_le_length (by omega)]

theorem slice_prefix {m u v : Bytes} {pos stop : Nat} (h : slice m pos stop = u ++ v) :
    slice m pos (pos + u.length) = u := by
  unfold slice at h ⊢
  rw [List.drop_take, Nat.add_sub_cancel_left]
  have h2 := congrArg (List.take u.length) h
  rw [List.take_left, List.drop_take, List.take_take] at h2
  by_cases hu : u.length = 0
  · have : u = [] := List.eq_nil_of_length_eq_zero hu
    subst this
    simp
  · have h3 := congrArg List.length h
    rw [List.length_drop, List.length_take, List.length_append] at h3
    rwa [Nat.min_eq_left (by omega)] at h2

/-- As many flags as bring an address behind `[bool; 1]` to the place of the vector. -/
def fillers (R : ValueRepr) : Args := List.replicate (22 * R.size - 3) ⟨.bool, true⟩

/-- An array of one flag, flags, and an address. -/
def spoiledArgs (R : ValueRepr) (b : Bool) (a : Addr) : Args :=
  ⟨.arr .bool 1, ⟨[b], rfl⟩⟩ :: (fillers R ++ [⟨.address, a⟩])

/-- The address with its first bytes replaced by those of the flag in memory. -/
def spoiled (R : ValueRepr) (b : Bool) (a : Addr) : Addr :=
  ⟨(R.bytes (.bool b)).take 20 ++ a.1.drop R.size, by
    have := a.2
    have := R.length (.bool b)
    simp
    omega⟩

theorem encode_fillers : ∀ (n : Nat) (a : Addr),
    Abi.encodeArgs (List.replicate n ⟨.bool, true⟩ ++ [⟨.address, a⟩]) =
      some (List.replicate n Abi.BOOL_TRUE ++ Abi.ADDRESS :: a.1)
  | 0, a => by
    change some (Abi.ADDRESS :: a.1 ++ []) = _
    rw [List.append_nil]
    rfl
  | n + 1, a => by
    rw [List.replicate_succ, List.cons_append, Abi.encodeArgs, encode_fillers n a]
    rfl

theorem fillers_arg (R : ValueRepr) (a : Addr) : ∀ x ∈ fillers R ++ [(⟨.address, a⟩ : Σ t : Ty, t.Val)],
    x.1 = .bool ∨ x.1 = .address := by
  intro x hx
  rcases List.mem_append.1 hx with h | h
  · rw [(List.mem_replicate.1 h).2]
    exact .inl rfl
  · rw [List.mem_singleton.1 h]
    exact .inr rfl

theorem fillers_vecSizes (R : ValueRepr) (a : Addr) :
    vecSizes R ((fillers R ++ [(⟨.address, a⟩ : Σ t : Ty, t.Val)]).map (·.1)) = 0 := by
  unfold vecSizes
  rw [List.sum_eq_zero_iff_forall_eq_nat]
  intro n hn
  rw [List.mem_map] at hn
  obtain ⟨t, ht, rfl⟩ := hn
  rw [List.mem_map] at ht
  obtain ⟨x, hx, rfl⟩ := ht
  rcases fillers_arg R a x hx with h | h <;> rw [h] <;> rfl

theorem fillers_types (R : ValueRepr) (a a' : Addr) :
    (fillers R ++ [(⟨.address, a⟩ : Σ t : Ty, t.Val)]).map (·.1) =
      (fillers R ++ [(⟨.address, a'⟩ : Σ t : Ty, t.Val)]).map (·.1) := by
  simp

/-- Reading `[bool; 1]` writes one value into the block. -/
theorem next_flag (chk chk' : Bool) (R : ValueRepr) {b : Bool} {r mem : Bytes} {pos stop : Nat} {env : Env}
    (hs : slice mem pos stop = [Abi.layoutArray 1, if b then Abi.BOOL_TRUE else Abi.BOOL_FALSE] ++ r)
    (hl : stop ≤ mem.length) (h32 : mem.length < 2 ^ 32) (hset : env.memorySet = true)
    (hroom : env.usedMemory + 23 * R.size ≤ mem.length) (w : View) :
    ((nextAt chk R pos stop mem).run chk' env).eval w =
      (w, .ok ({ env with usedMemory := env.usedMemory + 22 * R.size },
        .ok ((.vec [.bool b], pos + 2), writeMem mem (env.usedMemory + 22 * R.size) (R.bytes (.bool b))))) := by
  have hm : (Abi.layoutArray 1).toNat = 22 := by decide
  have hk := Abi.kindOf_array (n := 1) (by omega)
  have h22 : 22 * R.size < 2 ^ 32 := by
    have := R.small
    omega
  have hpos := R.pos
  unfold nextAt
  rw [hs, List.cons_append]
  dsimp only
  rw [hk.1, hm]
  dsimp only
  refine (run_call (alloc_eval hset (by omega) h22 (by omega) w)).trans ?_
  dsimp only
  rw [hk.2]
  dsimp only
  have hp : primAt chk mem (pos + 1) stop = some (.bool b, pos + 2) := by
    have := primAt_encode chk (p := .bool b) (bs := [if b then Abi.BOOL_TRUE else Abi.BOOL_FALSE]) (r := r)
      (mem := mem) (pos := pos + 1) (stop := stop) rfl
      (slice_drop (bs := [Abi.layoutArray 1]) (by rw [hs]; rfl)) hl
    exact this
  rw [ofNat_toNat (by omega)]
  change ((match itemsAt chk R (env.usedMemory + 22 * R.size) 22 stop 1 [] mem (pos + 1) with
    | some (l, mem, pos) => (.ret (.vec l, pos) mem : Guest (RawValue × Nat))
    | none => .trap unreachableMsg).run chk' _).eval w = _
  rw [itemsAt, hp]
  dsimp only
  rw [if_pos ⟨by simp, by rw [List.length_nil, Nat.zero_add, Nat.one_mul]; omega⟩, itemsAt, List.length_nil,
    Nat.zero_mul, Nat.add_zero]
  rfl

/-- **C96 is wrong** for an endpoint that takes `[bool; 1]`, flags and an address such that the address is
at the byte `22 * size` of the calldata: whatever the address, its first bytes are replaced by those of the
array's item, as the compiler lays it out in memory. -/
theorem C96_spoiled (chk chk' : Bool) (R : ValueRepr) (memory : Bytes) {f : Str → Option Endpoint} {call : Call}
    {e : Endpoint} {env : Env} {mem : Bytes} (w : View) {b : Bool} {a : Addr}
    (he : IsEndpoint f call.funcName e) (hp : e.params = (spoiledArgs R b a).map (·.1))
    (henc : Abi.encodeArgs (spoiledArgs R b a) = some call.funcInput) (hset : env.memorySet = true)
    (hret : env.returndata = none)
    (hroom : env.usedMemory + 2 * call.funcInput.length + 2 * vecSizes R e.params ≤ mem.length)
    (h32 : mem.length < 2 ^ 32) :
    Delivers chk chk' R memory f call e env mem w (spoiledArgs R b (spoiled R b a)) := by
  have hpos := R.pos
  have ha := a.2
  have hin : call.funcInput = [Abi.layoutArray 1, if b then Abi.BOOL_TRUE else Abi.BOOL_FALSE] ++
      (List.replicate (22 * R.size - 3) Abi.BOOL_TRUE ++ Abi.ADDRESS :: a.1) := by
    unfold spoiledArgs fillers at henc
    rw [Abi.encodeArgs, encode_fillers] at henc
    have h1 : (Ty.arr .bool 1).encode ⟨[b], rfl⟩ =
        some [Abi.layoutArray 1, if b then Abi.BOOL_TRUE else Abi.BOOL_FALSE] := by
      cases b <;> decide +kernel
    dsimp only at henc
    rw [h1] at henc
    exact (Option.some.inj henc).symm
  have hlen : call.funcInput.length = 22 * R.size + 20 := by
    rw [hin]
    simp [ha]
    omega
  have hvs : vecSizes R e.params = 22 * R.size := by
    rw [hp]
    have := fillers_vecSizes R a
    unfold spoiledArgs
    unfold vecSizes at this ⊢
    rw [List.map_cons, List.map_cons, List.sum_cons, this]
    rfl
  have hne : call.funcInput ≠ [] := by rw [hin]; simp
  have hpn : e.params ≠ [] := by rw [hp]; simp [spoiledArgs]
  have hw : env.usedMemory + call.funcInput.length + call.funcInput.length ≤ mem.length := by omega
  have hml := length_writeMem hw
  generalize hm2 : writeMem mem (env.usedMemory + call.funcInput.length) call.funcInput = m2 at hml
  have hsl : slice m2 (env.usedMemory + call.funcInput.length)
      (env.usedMemory + call.funcInput.length + call.funcInput.length) = call.funcInput := by
    unfold slice
    rw [List.drop_take, Nat.add_sub_cancel_left, ← hm2]
    exact drop_take_writeMem _ _ _ hw
  generalize hst : env.usedMemory + call.funcInput.length = start at *
  have hsl2 := hsl
  rw [hin] at hsl2
  have hnext := next_flag chk chk' R (env := startEnv env call.funcInput.length)
    (stop := start + call.funcInput.length) (hsl.trans hin) (by omega) (by omega) hset
    (by change env.usedMemory + call.funcInput.length + _ ≤ _; omega) w
  have hu : (startEnv env call.funcInput.length).usedMemory = start := hst
  rw [hu] at hnext
  have hRl := R.length (.bool b)
  have hw1 : start + 22 * R.size + (R.bytes (.bool b)).length ≤ m2.length := by omega
  have hml1 := length_writeMem hw1
  -- the rest of the calldata after the array has been read
  have hs3 : slice m2 (start + 2) (start + call.funcInput.length) =
      (List.replicate (22 * R.size - 3) Abi.BOOL_TRUE ++ [Abi.ADDRESS]) ++ a.1 := by
    have := slice_drop (hsl.trans hin)
    rw [List.append_assoc]
    exact this
  have hs4 : slice m2 (start + 2) (start + 22 * R.size) =
      List.replicate (22 * R.size - 3) Abi.BOOL_TRUE ++ [Abi.ADDRESS] := by
    have := slice_prefix hs3
    rw [List.length_append, List.length_replicate, List.length_singleton] at this
    rwa [show start + 2 + (22 * R.size - 3 + 1) = start + 22 * R.size by omega] at this
  have hs5 : (m2.drop (start + 22 * R.size)).take 20 = a.1 := by
    have := slice_drop hs3
    rw [List.length_append, List.length_replicate, List.length_singleton,
      show start + 2 + (22 * R.size - 3 + 1) = start + 22 * R.size by omega] at this
    unfold slice at this
    rwa [List.drop_take, show start + call.funcInput.length - (start + 22 * R.size) = 20 by omega] at this
  have hs6 : slice (writeMem m2 (start + 22 * R.size) (R.bytes (.bool b))) (start + 2)
      (start + call.funcInput.length) =
      List.replicate (22 * R.size - 3) Abi.BOOL_TRUE ++ Abi.ADDRESS :: (spoiled R b a).1 := by
    rw [slice_writeMem (by omega) (by omega) (by omega), hs4, List.append_assoc]
    congr 1
    rw [List.singleton_append]
    congr 1
    rw [show start + call.funcInput.length - (start + 22 * R.size) = 20 by omega, List.take_append, hRl]
    change _ = (R.bytes (.bool b)).take 20 ++ a.1.drop R.size
    congr 1
    rw [← hs5, List.drop_take, List.drop_drop]
  obtain ⟨raw, mem', h1, h2, h3, h4⟩ := args_at chk chk' R (start := start + 22 * R.size)
    (stop := start + call.funcInput.length) (fillers R ++ [⟨.address, spoiled R b a⟩])
    (List.replicate (22 * R.size - 3) Abi.BOOL_TRUE ++ Abi.ADDRESS :: (spoiled R b a).1)
    (writeMem m2 (start + 22 * R.size) (R.bytes (.bool b))) (start + 2)
    { startEnv env call.funcInput.length with usedMemory := start + 22 * R.size }
    (fun x hx => by rcases fillers_arg R _ x hx with h | h <;> rw [h] <;> trivial)
    (fun x hx u => by rcases fillers_arg R _ x hx with h | h <;> rw [h] <;> simp)
    (encode_fillers _ _) hs6 (by omega) (by omega) hset (le_refl _)
    (fun x hx h0 => by rcases fillers_arg R _ x hx with h | h <;> rw [h] at h0 <;> cases h0)
    (by rw [fillers_vecSizes]; change start + 22 * R.size + _ ≤ _; omega) w
  refine ⟨⟨.arr .bool 1, ⟨[b], rfl⟩⟩ :: raw, mem',
    { startEnv env call.funcInput.length with usedMemory := start + 22 * R.size }, ?_, ?_⟩
  · rw [meanings, h4 mem' h3]
    rfl
  · rw [runFunc_sdk he hne hset hret (by omega) h32, hst, hm2]
    refine eval_bind_congr ?_
    unfold Endpoint.guest
    have hargs : ((argsAt chk R (start + call.funcInput.length) e.params start m2).run chk'
        (startEnv env call.funcInput.length)).eval w = (w, .ok ({ startEnv env call.funcInput.length with
          usedMemory := start + 22 * R.size }, .ok (⟨.arr .bool 1, ⟨[b], rfl⟩⟩ :: raw, mem'))) := by
      rw [hp]
      unfold spoiledArgs
      rw [List.map_cons, argsAt, run_andThen hnext]
      have hf : rawFrom (.arr .bool 1) (.vec [.bool b]) = some ⟨[b], rfl⟩ := rfl
      dsimp only
      rw [hf]
      dsimp only
      rw [fillers_types R a (spoiled R b a), run_andThen h1, fillers_vecSizes]
      rfl
    rw [run_andThen ((prologue_run hpn (env := startEnv env call.funcInput.length)
      (offset := start) (len := call.funcInput.length) (by rw [← hst]; rfl) (by omega) (by omega) w).trans hargs)]
    rfl

/-- An endpoint that fails if its arguments do not mean `args`. -/
noncomputable def checker (args : Args) : Endpoint where
  params := args.map (·.1)
  result := none
  body raw mem := open Classical in
    if meanings mem raw = some args then .ret () mem else .trap unreachableMsg

/-- A call finished. -/
def Finished (r : View × Outcome SErr (Env × Except Failure (Bytes × List Bytes))) : Prop :=
  ∃ w env x, r = (w, .ok (env, .ok x))

theorem checker_finished {chk chk' : Bool} {R : ValueRepr} {memory : Bytes} {f : Str → Option Endpoint} {call : Call}
    {env : Env} {mem : Bytes} {w : View} {args args' : Args}
    (h : Delivers chk chk' R memory f call (checker args) env mem w args') :
    Finished ((runFunc chk' (sdkModule chk R memory f) call env () mem).eval w) ↔ args' = args := by
  classical
  obtain ⟨raw, mem', env', h1, h2⟩ := h
  rw [h2]
  unfold Endpoint.rest checker
  dsimp only
  rw [h1]
  by_cases ha : args' = args
  · subst ha
    rw [if_pos rfl]
    exact ⟨fun _ => rfl, fun _ => ⟨_, _, _, rfl⟩⟩
  · rw [if_neg (fun h => ha (Option.some.inj h))]
    refine ⟨fun hf => ?_, fun h => absurd h ha⟩
    obtain ⟨w1, env1, x, hx⟩ := hf
    cases hx

/-- **C96 is wrong**, however the compiler lays out values. -/
theorem C96_claim_false (R : ValueRepr) : ¬ C96_claim R := by
  intro hc
  have hpos := R.pos
  have hsmall := R.small
  have hRl := R.length (.bool true)
  obtain ⟨c, r, hcr⟩ : ∃ c r, R.bytes (.bool true) = c :: r := by
    cases hb : R.bytes (.bool true) with
    | nil => rw [hb] at hRl; simp at hRl; omega
    | cons c r => exact ⟨c, r, rfl⟩
  let a : Addr := ⟨List.replicate 20 (c + 1), by simp⟩
  let args := spoiledArgs R true a
  obtain ⟨input, hin, hlen⟩ : ∃ input, Abi.encodeArgs args = some input ∧ input.length = 22 * R.size + 20 := by
    refine ⟨[Abi.layoutArray 1, Abi.BOOL_TRUE] ++
      (List.replicate (22 * R.size - 3) Abi.BOOL_TRUE ++ Abi.ADDRESS :: a.1), ?_, by simp [a]; omega⟩
    have h1 : (Ty.arr .bool 1).encode ⟨[true], rfl⟩ = some [Abi.layoutArray 1, Abi.BOOL_TRUE] := by
      decide +kernel
    change Abi.encodeArgs (⟨.arr .bool 1, ⟨[true], rfl⟩⟩ ::
      (List.replicate (22 * R.size - 3) ⟨.bool, true⟩ ++ [⟨.address, a⟩])) = _
    rw [Abi.encodeArgs, encode_fillers]
    dsimp only
    rw [h1]
    rfl
  let name : Str := ⟨[], by decide⟩
  let call : Call := ⟨name, input, exampleAddr 1, exampleAddr 9, false, .fullAccess⟩
  let f : Str → Option Endpoint := fun _ => some (checker args)
  have he : IsEndpoint f call.funcName (checker args) := 
    ⟨rfl, (show name ≠ svmAlloc by decide +kernel), (show name ≠ svmVerify by decide +kernel)⟩
  let env : Env := { Env.new ⟨exampleAddr 1, exampleAddr 9, ⟨none, []⟩⟩ (exampleAddr 9) (exampleAddr 1) .fullAccess with
    memorySet := true }
  have hvs : vecSizes R (checker args).params = 22 * R.size := by
    have := fillers_vecSizes R a
    change vecSizes R (args.map (·.1)) = _
    unfold vecSizes at this ⊢
    change ((Ty.arr .bool 1 :: (fillers R ++ [(⟨.address, a⟩ : Σ t : Ty, t.Val)]).map (·.1)).map (vecSize R)).sum = _
    rw [List.map_cons, List.sum_cons, this]
    rfl
  have hml : (List.replicate (88 * R.size + 40) (0 : UInt8)).length = 88 * R.size + 40 := List.length_replicate
  have hroom : env.usedMemory + 2 * call.funcInput.length + 2 * vecSizes R (checker args).params ≤
      (List.replicate (88 * R.size + 40) (0 : UInt8)).length := by
    rw [hvs, hml]
    change 0 + 2 * input.length + _ ≤ _
    omega
  have h32 : (List.replicate (88 * R.size + 40) (0 : UInt8)).length < 2 ^ 32 := by
    rw [hml]
    omega
  have hty : ∀ x ∈ args, x.1 = .arr .bool 1 ∨ x.1 = .bool ∨ x.1 = .address := by
    intro x hx
    rcases List.mem_cons.1 hx with h | h
    · rw [h]
      exact .inl rfl
    · exact .inr (fillers_arg R a x h)
  have h1 := hc true true [] f call (checker args) env _ (fun _ => none) args he
    (fun x hx => by
      rcases hty x hx with h | h | h <;> rw [h]
      · exact ⟨trivial, by omega, by omega⟩
      · trivial
      · trivial)
    (fun x hx u => by rcases hty x hx with h | h | h <;> rw [h] <;> simp)
    rfl (by simp [args, spoiledArgs]) hin rfl rfl hroom h32
  have h2 := C96_spoiled true true R [] (fun _ => none) he rfl hin rfl rfl hroom h32
  have h3 := (checker_finished h2).1 ((checker_finished h1).2 rfl)
  have h4 : (spoiled R true a).1 = a.1 := by
    have h5 := congrArg (fun l : Args => l.getLast?) h3
    simp only [args, spoiledArgs] at h5
    rw [List.getLast?_cons_of_ne_nil (by simp), List.getLast?_cons_of_ne_nil (by simp), List.getLast?_concat,
      List.getLast?_concat] at h5
    have h6 := Option.some.inj h5
    simp only [Sigma.mk.injEq, heq_eq_eq, true_and] at h6
    rw [h6]
  have h7 : (spoiled R true a).1 = (R.bytes (.bool true)).take 20 ++ a.1.drop R.size := rfl
  rw [h7, hcr] at h4
  have h8 := congrArg List.head? h4
  change some c = some (c + 1) at h8
  have h9 := congrArg UInt8.toNat (Option.some.inj h8)
  rw [UInt8.toNat_add] at h9
  have := UInt8.toNat_lt c
  change c.toNat = (c.toNat + 1) % 256 at h9
  omega

/-! ## C97: the returndata is the encoding of the result -/

/-- The addresses in memory that a value contains. -/
def pointers : (t : Ty) → RawOf t → List Nat
  | .unit, _ => []
  | .bool, _ => []
  | .address, p => [(show U32 from p).toNat]
  | .amount, _ => []
  | .int _ _, _ => []
  | .option _, none => []
  | .option t, some v => pointers t v
  | .arr t _, l => l.1.flatMap fun v => pointers t v
  | .pair a b, v => pointers a v.1 ++ pointers b v.2

/-- The call of an endpoint whose body ended with the value `v` in the memory `mem` ends with the
returndata `bs`. -/
def Returns (chk' : Bool) (t : Ty) (v : RawOf t) (mem : Bytes) (env : Env) (w : View) (bs : Bytes) : Prop :=
  ∃ env' mem', ((epilogue (some t) v mem).run chk' env).eval w = (w, .ok (env', .ok ((), mem'))) ∧
    env'.logs = env.logs ∧ takeReturndata env' mem' = some bs

/-- What C97 says: an endpoint's returndata is the encoding of the value that its result means. -/
def C97_claim : Prop :=
  ∀ (chk' : Bool) (t : Ty) (v : RawOf t) (x : t.Val) (bs mem : Bytes) (env : Env) (w : View),
    meaning t v mem = some x → t.encode x = some bs → env.memorySet = true → env.returndata = none →
    env.usedMemory + 2 * t.maxByteSize ≤ mem.length → mem.length < 2 ^ 32 →
    Returns chk' t v mem env w bs

theorem pushByte_eval {ptr cap : Nat} {m0 bs : Bytes} {b : UInt8} (hc : bs.length < cap)
    (hm : ptr + cap ≤ m0.length) : pushByte ptr cap b (writeMem m0 ptr bs, bs.length) =
      some (writeMem m0 ptr (bs ++ [b]), (bs ++ [b]).length) := by
  unfold pushByte
  dsimp only
  rw [length_writeMem (by omega), if_pos ⟨hc, by omega⟩, writeMem_append _ _ _ _ (by omega)]
  simp

theorem pushAll_eval {ptr cap : Nat} {m0 : Bytes} (hm : ptr + cap ≤ m0.length) :
    ∀ (bs bs0 : Bytes), bs0.length + bs.length ≤ cap →
      pushAll ptr cap bs (writeMem m0 ptr bs0, bs0.length) =
        some (writeMem m0 ptr (bs0 ++ bs), (bs0 ++ bs).length)
  | [], bs0, _ => by rw [List.append_nil]; rfl
  | b :: bs, bs0, h => by
    rw [List.length_cons] at h
    unfold pushAll
    rw [pushByte_eval (by omega) hm, Option.bind_some, pushAll_eval hm bs (bs0 ++ [b])
      (by rw [List.length_append, List.length_singleton]; omega), List.append_assoc]
    rfl

theorem getElem?_of_drop {m : Bytes} {src n : Nat} {b : UInt8} {l : Bytes}
    (h : (m.drop src).take (n + 1) = b :: l) : m[src]? = some b ∧ (m.drop (src + 1)).take n = l := by
  cases hd : m.drop src with
  | nil => rw [hd] at h; cases h
  | cons c r =>
    rw [hd, List.take_succ_cons] at h
    cases h
    refine ⟨?_, ?_⟩
    · have := congrArg (fun l : Bytes => l[0]?) hd
      simpa using this
    · rw [← List.drop_drop, hd]
      rfl

/-- Bytes are copied from apart of what has been written until then. -/
theorem pushFrom_eval {ptr cap : Nat} {m0 : Bytes} (hm : ptr + cap ≤ m0.length) :
    ∀ (n src : Nat) (bs bs0 : Bytes), (m0.drop src).take n = bs → bs.length = n → bs0.length + n ≤ cap →
      (src + n ≤ ptr ∨ ptr + bs0.length ≤ src) →
      pushFrom ptr cap src n (writeMem m0 ptr bs0, bs0.length) =
        some (writeMem m0 ptr (bs0 ++ bs), (bs0 ++ bs).length)
  | 0, src, bs, bs0, h, hl, _, _ => by
    have : bs = [] := List.eq_nil_of_length_eq_zero hl
    subst this
    rw [List.append_nil]
    rfl
  | n + 1, src, bs, bs0, h, hl, hc, ha => by
    cases bs with
    | nil => cases hl
    | cons b bs =>
      obtain ⟨h1, h2⟩ := getElem?_of_drop h
      rw [List.length_cons] at hl
      have hg : (writeMem m0 ptr bs0)[src]? = some b := by
        rw [getElem?_writeMem (by omega) (by omega), h1]
      rw [pushFrom]
      dsimp only
      rw [hg]
      change (pushByte ptr cap b (writeMem m0 ptr bs0, bs0.length)).bind _ = _
      rw [pushByte_eval (by omega) hm, Option.bind_some, pushFrom_eval hm n (src + 1) bs (bs0 ++ [b]) h2
        (by omega) (by rw [List.length_append, List.length_singleton]; omega)
        (by rw [List.length_append, List.length_singleton]; omega), List.append_assoc]
      rfl

/-- The encoder in memory writes what the encoder writes. -/
theorem encodeAt_eval {ptr cap : Nat} {m0 : Bytes} (hm : ptr + cap ≤ m0.length) :
    ∀ (t : Ty) (v : RawOf t) (x : t.Val) (bs bs0 : Bytes), meaning t v m0 = some x → t.encode x = some bs →
      bs0.length + bs.length ≤ cap → (∀ p ∈ pointers t v, p + 20 ≤ ptr ∨ ptr + cap ≤ p) →
      encodeAt ptr cap t v (writeMem m0 ptr bs0, bs0.length) =
        some (writeMem m0 ptr (bs0 ++ bs), (bs0 ++ bs).length)
  | .unit, v, x, bs, bs0, hv, he, hc, _ => by
    cases he
    exact pushByte_eval (by simp at hc; omega) hm
  | .bool, v, x, bs, bs0, hv, he, hc, _ => by
    cases hv
    cases he
    exact pushByte_eval (by simp at hc; omega) hm
  | .address, v, x, bs, bs0, hv, he, hc, hp => by
    cases he
    have hx := x.2
    unfold meaning at hv
    split at hv
    · cases hv
      have hp : BitVec.toNat (w := 32) v + 20 ≤ ptr ∨ ptr + cap ≤ BitVec.toNat (w := 32) v :=
        hp _ (by unfold pointers; exact List.mem_singleton.2 rfl)
      rw [List.length_cons] at hc
      dsimp only at hx hc
      unfold encodeAt
      change (pushByte ptr cap Abi.ADDRESS (writeMem m0 ptr bs0, bs0.length)).bind _ = _
      rw [pushByte_eval (by omega) hm, Option.bind_some, pushFrom_eval hm 20 _ _ (bs0 ++ [Abi.ADDRESS]) rfl hx
        (by rw [List.length_append, List.length_singleton]; omega)
        (by rw [List.length_append, List.length_singleton]; omega), List.append_assoc]
      rfl
    · cases hv
  | .amount, v, x, bs, bs0, hv, he, hc, _ => by
    cases hv
    cases he
    exact pushAll_eval hm _ _ hc
  | .int w s, v, x, bs, bs0, hv, he, hc, _ => by
    have hvx : v = x := Option.some.inj hv
    subst hvx
    unfold encodeAt
    change (Abi.encodeInt w s v).bind _ = _
    have he' : Abi.encodeInt w s v = some bs := he
    rw [he', Option.bind_some]
    exact pushAll_eval hm _ _ hc
  | .option t, none, x, bs, bs0, hv, he, hc, _ => by
    cases hv
    cases he
    exact pushByte_eval (by simp at hc; omega) hm
  | .option t, some v, x, bs, bs0, hv, he, hc, hp => by
    unfold meaning at hv
    cases hy : meaning t v m0 with
    | none => rw [hy] at hv; cases hv
    | some y =>
      rw [hy] at hv
      cases hv
      exact encodeAt_eval hm t v y bs bs0 hy he hc hp
  | .arr t n, l, x, bs, bs0, hv, he, hc, hp => by
    obtain ⟨hn, xs, hxs, rfl⟩ := Abi.Ty.encode_arr he
    unfold meaning at hv
    obtain ⟨l, hl⟩ := l
    cases hys : l.mapM fun v => meaning t v m0 with
    | none => dsimp only at hv; rw [hys] at hv; cases hv
    | some ys =>
      dsimp only at hv
      rw [hys] at hv
      rw [Option.bind_eq_bind, Option.bind_some] at hv
      split at hv
      · cases hv
        dsimp only at hxs
        rw [List.length_cons] at hc
        have key : ∀ (l : List (RawOf t)) (ys : List t.Val) (xs : List Bytes) (bs0 : Bytes),
            (l.mapM fun v => meaning t v m0) = some ys → ys.mapM t.encode = some xs →
            bs0.length + xs.flatten.length ≤ cap →
            (∀ p ∈ l.flatMap (fun v => pointers t v), p + 20 ≤ ptr ∨ ptr + cap ≤ p) →
            l.foldlM (fun s v => encodeAt ptr cap t v s) (writeMem m0 ptr bs0, bs0.length) =
              some (writeMem m0 ptr (bs0 ++ xs.flatten), (bs0 ++ xs.flatten).length) := by
          intro l
          induction l with
          | nil =>
            intro ys xs bs0 h1 h2 h3 h4
            cases h1
            cases h2
            simp
          | cons v l ih =>
            intro ys xs bs0 h1 h2 h3 h4
            obtain ⟨y, ys, hy, hys, rfl⟩ := Abi.mapM_cons_some h1
            obtain ⟨z, zs, hz, hzs, rfl⟩ := Abi.mapM_cons_some h2
            rw [List.flatten_cons, List.length_append] at h3
            rw [List.foldlM_cons, encodeAt_eval hm t v y z bs0 hy hz (by omega)
              (fun p hp => h4 p (by rw [List.flatMap_cons]; exact List.mem_append_left _ hp))]
            rw [Option.bind_eq_bind, Option.bind_some, ih ys zs (bs0 ++ z) hys hzs
              (by rw [List.length_append]; omega)
              (fun p hp => h4 p (by rw [List.flatMap_cons]; exact List.mem_append_right _ hp)),
              List.flatten_cons, List.append_assoc]
        unfold encodeAt
        rw [if_pos hn, pushByte_eval (by omega) hm, Option.bind_eq_bind, Option.bind_some, key l ys xs _ hys hxs
          (by rw [List.length_append, List.length_singleton]; omega) hp, List.append_assoc]
        rfl
      · cases hv
  | .pair a b, v, x, bs, bs0, hv, he, hc, hp => by
    obtain ⟨y, z, hy, hz, rfl⟩ := Abi.Ty.encode_pair he
    unfold meaning at hv
    cases ha : meaning a v.1 m0 with
    | none => rw [ha] at hv; cases hv
    | some xa =>
      cases hb : meaning b v.2 m0 with
      | none => rw [ha, hb] at hv; cases hv
      | some xb =>
        rw [ha, hb] at hv
        cases hv
        rw [List.length_append] at hc
        unfold encodeAt
        rw [encodeAt_eval hm a v.1 xa y bs0 ha hy (by omega)
          (fun p h => hp p (by unfold pointers; exact List.mem_append_left _ h)), Option.bind_eq_bind, Option.bind_some,
          encodeAt_eval hm b v.2 xb z (bs0 ++ y) hb hz (by rw [List.length_append]; omega)
          (fun p h => hp p (by unfold pointers; exact List.mem_append_right _ h)), List.append_assoc]

/-- The epilogue, once the result has been encoded. -/
theorem epilogue_eval {chk' : Bool} {t : Ty} {v : RawOf t} {mem out : Bytes} {env : Env}
    (hset : env.memorySet = true) (hret : env.returndata = none)
    (hroom : env.usedMemory + 2 * t.maxByteSize ≤ mem.length) (h32 : mem.length < 2 ^ 32)
    (h0 : 0 < out.length) (hl : out.length ≤ t.maxByteSize)
    (h : encodeAt (env.usedMemory + t.maxByteSize) t.maxByteSize t v (mem, 0) =
      some (writeMem mem (env.usedMemory + t.maxByteSize) out, out.length)) (w : View) :
    ((epilogue (some t) v mem).run chk' env).eval w =
      (w, .ok ({ env with
          usedMemory := env.usedMemory + t.maxByteSize
          returndata := some (env.usedMemory + t.maxByteSize, out.length) },
        .ok ((), writeMem mem (env.usedMemory + t.maxByteSize) out))) := by
  have hpos := t.maxByteSize_pos
  unfold epilogue
  refine (run_call (alloc_eval hset hpos (by omega) (by omega) w)).trans ?_
  dsimp only
  rw [ofNat_toNat (by omega), h]
  dsimp only
  rw [if_pos h0]
  have hr : (host chk' { env with usedMemory := env.usedMemory + t.maxByteSize }
      (writeMem mem (env.usedMemory + t.maxByteSize) out)
      (.setReturndata (BitVec.ofNat 32 (env.usedMemory + t.maxByteSize)) (BitVec.ofNat 32 out.length))).eval w =
      (w, .ok (.unit, writeMem mem (env.usedMemory + t.maxByteSize) out, { env with
        usedMemory := env.usedMemory + t.maxByteSize
        returndata := some (env.usedMemory + t.maxByteSize, out.length) })) := by
    change ((Prog.ofOption (setReturndata chk' _ (BitVec.ofNat 32 _).toNat (BitVec.ofNat 32 _).toNat)).bind _).eval
      w = _
    rw [ofNat_toNat (by omega), ofNat_toNat (by omega)]
    unfold setReturndata
    rw [if_pos ⟨h0, .inr hret⟩]
    rfl
  rw [run_call hr]
  rfl

theorem takeReturndata_eval {env : Env} {mem out : Bytes} {o : Nat} (h : env.returndata = some (o, out.length))
    (h0 : 0 < out.length) (hl : o + out.length ≤ mem.length) :
    takeReturndata env (writeMem mem o out) = some out := by
  unfold takeReturndata
  rw [h]
  dsimp only
  rw [length_writeMem hl, if_pos ⟨h0, by omega⟩, drop_take_writeMem _ _ _ hl]

theorem returns_of {chk' : Bool} {t : Ty} {v : RawOf t} {mem out : Bytes} {env : Env}
    (hset : env.memorySet = true) (hret : env.returndata = none)
    (hroom : env.usedMemory + 2 * t.maxByteSize ≤ mem.length) (h32 : mem.length < 2 ^ 32)
    (h0 : 0 < out.length) (hl : out.length ≤ t.maxByteSize)
    (h : encodeAt (env.usedMemory + t.maxByteSize) t.maxByteSize t v (mem, 0) =
      some (writeMem mem (env.usedMemory + t.maxByteSize) out, out.length)) (w : View) :
    Returns chk' t v mem env w out :=
  ⟨_, _, epilogue_eval hset hret hroom h32 h0 hl h w, rfl, takeReturndata_eval rfl h0 (by omega)⟩

theorem encode_pos : ∀ (t : Ty) (x : t.Val) (bs : Bytes), t.encode x = some bs → 0 < bs.length
  | .unit, _, _, h => by cases h; simp
  | .bool, _, _, h => by cases h; simp
  | .address, _, _, h => by cases h; simp
  | .amount, x, bs, h => by
    have := Abi.encodePrim_cons (.amount x)
    obtain ⟨b, l, h1, -⟩ := this
    have h2 : Abi.encodePrim (.amount x) = some bs := h
    rw [h2] at h1
    cases h1
    simp
  | .int w s, x, bs, h => by
    obtain ⟨b, l, h1, -⟩ := Abi.encodePrim_cons (.int w s x)
    have h2 : Abi.encodePrim (.int w s x) = some bs := h
    rw [h2] at h1
    cases h1
    simp
  | .option _, none, _, h => by cases h; simp
  | .option t, some v, bs, h => encode_pos t v bs h
  | .arr t n, l, bs, h => by
    obtain ⟨-, xs, -, rfl⟩ := Abi.Ty.encode_arr h
    simp
  | .pair a b, v, bs, h => by
    obtain ⟨x, y, hx, -, rfl⟩ := Abi.Ty.encode_pair h
    have := encode_pos a v.1 x hx
    simp
    omega

/-- **C97, partial.** The returndata is the encoding of the value that the result means, if there is
enough memory and no address in the result points to less than 20 bytes before the buffer of the
returndata, or into it. -/
theorem C97_result_partial (chk' : Bool) {t : Ty} {v : RawOf t} {x : t.Val} {bs mem : Bytes} {env : Env} (w : View)
    (hv : meaning t v mem = some x) (he : t.encode x = some bs) (hset : env.memorySet = true)
    (hret : env.returndata = none) (hroom : env.usedMemory + 2 * t.maxByteSize ≤ mem.length)
    (h32 : mem.length < 2 ^ 32)
    (hfar : ∀ p ∈ pointers t v, p + 20 ≤ env.usedMemory + t.maxByteSize ∨
      env.usedMemory + 2 * t.maxByteSize ≤ p) : Returns chk' t v mem env w bs := by
  have hmax := Abi.C59_max t x bs he
  have h := encodeAt_eval (ptr := env.usedMemory + t.maxByteSize) (cap := t.maxByteSize) (m0 := mem) (by omega)
    t v x bs [] hv he (by simpa using hmax) (fun p hp => by have := hfar p hp; omega)
  rw [writeMem_nil, List.nil_append] at h
  exact returns_of hset hret hroom h32 (encode_pos t x bs he) hmax h w

theorem address_meaning {p : U32} {mem : Bytes} {a : Addr} (h : (mem.drop p.toNat).take 20 = a.1) :
    meaning .address p mem = some a := by
  unfold meaning
  have h1 : ((mem.drop (show U32 from p).toNat).take 20).length = 20 := by
    change ((mem.drop p.toNat).take 20).length = 20
    rw [h, a.2]
  rw [dif_pos h1]
  congr 1
  exact Subtype.ext h

/-- An address is returned right, wherever it is, except just before or at the start of the buffer. -/
theorem C97_address (chk' : Bool) {p : U32} {a : Addr} {mem : Bytes} {env : Env} (w : View)
    (hv : (mem.drop p.toNat).take 20 = a.1) (hset : env.memorySet = true) (hret : env.returndata = none)
    (hroom : env.usedMemory + 42 ≤ mem.length) (h32 : mem.length < 2 ^ 32)
    (hfar : p.toNat + 20 ≤ env.usedMemory + 21 ∨ env.usedMemory + 22 ≤ p.toNat) :
    Returns chk' .address p mem env w (Abi.ADDRESS :: a.1) := by
  have hmax : Ty.address.maxByteSize = 21 := rfl
  have h1 : pushByte (env.usedMemory + 21) 21 Abi.ADDRESS (mem, 0) =
      some (writeMem mem (env.usedMemory + 21) [Abi.ADDRESS], 1) := by
    have := pushByte_eval (ptr := env.usedMemory + 21) (cap := 21) (m0 := mem) (bs := []) (b := Abi.ADDRESS)
      (by simp) (by omega)
    rwa [writeMem_nil] at this
  refine returns_of hset hret (by omega) h32 (by simp) (by simp [a.2, hmax]) ?_ w
  rw [hmax]
  unfold encodeAt
  change (pushByte (env.usedMemory + 21) 21 Abi.ADDRESS (mem, 0)).bind _ = _
  rw [h1, Option.bind_some]
  exact pushFrom_eval (ptr := env.usedMemory + 21) (cap := 21) (by omega) 20 p.toNat a.1 [Abi.ADDRESS] hv a.2
    (by simp) (by simp; omega)

theorem pushFrom_add (ptr cap : Nat) : ∀ (m n src : Nat) (s : Bytes × Nat),
    pushFrom ptr cap src (m + n) s = (pushFrom ptr cap src m s).bind (pushFrom ptr cap (src + m) n)
  | 0, n, src, s => by rw [Nat.zero_add]; rfl
  | m + 1, n, src, s => by
    rw [show m + 1 + n = (m + n) + 1 by omega, pushFrom, pushFrom]
    cases hb : s.1[src]? with
    | none => rfl
    | some b =>
      change (pushByte ptr cap b s).bind _ = ((pushByte ptr cap b s).bind _).bind _
      cases hp : pushByte ptr cap b s with
      | none => rfl
      | some s' =>
        rw [Option.bind_some, Option.bind_some, pushFrom_add ptr cap m n (src + 1) s',
          show src + 1 + m = src + (m + 1) by omega]

/-- Copying succeeds. -/
theorem pushFrom_some {ptr cap : Nat} {m0 : Bytes} (hm : ptr + cap ≤ m0.length) :
    ∀ (n src : Nat) (bs0 : Bytes), src + n ≤ m0.length → bs0.length + n ≤ cap →
      ∃ bs, bs.length = n ∧ pushFrom ptr cap src n (writeMem m0 ptr bs0, bs0.length) =
        some (writeMem m0 ptr (bs0 ++ bs), (bs0 ++ bs).length)
  | 0, src, bs0, _, _ => ⟨[], rfl, by rw [List.append_nil]; rfl⟩
  | n + 1, src, bs0, hs, hc => by
    have hl : (writeMem m0 ptr bs0).length = m0.length := length_writeMem (by omega)
    have hb : (writeMem m0 ptr bs0)[src]? = some ((writeMem m0 ptr bs0)[src]'(by omega)) :=
      List.getElem?_eq_getElem (by omega)
    obtain ⟨bs, h1, h2⟩ := pushFrom_some hm n (src + 1) (bs0 ++ [(writeMem m0 ptr bs0)[src]'(by omega)])
      (by omega) (by rw [List.length_append, List.length_singleton]; omega)
    refine ⟨(writeMem m0 ptr bs0)[src]'(by omega) :: bs, by rw [List.length_cons, h1], ?_⟩
    rw [pushFrom]
    dsimp only
    rw [hb]
    change (pushByte ptr cap _ (writeMem m0 ptr bs0, bs0.length)).bind _ = _
    rw [pushByte_eval (by omega) hm, Option.bind_some, h2, List.append_assoc]
    rfl

/-- **C97 is wrong** for every address that is less than 20 bytes before the start of the buffer, or at
it: the byte that was where the buffer starts is returned as the marker 0x40. -/
theorem C97_overwritten (chk' : Bool) {p : U32} {a : Addr} {mem : Bytes} {env : Env} (w : View)
    (hv : (mem.drop p.toNat).take 20 = a.1) (hset : env.memorySet = true) (hret : env.returndata = none)
    (hroom : env.usedMemory + 42 ≤ mem.length) (h32 : mem.length < 2 ^ 32)
    (h1 : p.toNat ≤ env.usedMemory + 21) (h2 : env.usedMemory + 21 < p.toNat + 20) :
    ∃ l : Bytes, l.length = 20 ∧ Returns chk' .address p mem env w (Abi.ADDRESS :: l) ∧
      l.take (env.usedMemory + 21 - p.toNat) = a.1.take (env.usedMemory + 21 - p.toNat) ∧
      l[env.usedMemory + 21 - p.toNat]? = some Abi.ADDRESS := by
  have hmax : Ty.address.maxByteSize = 21 := rfl
  have ha := a.2
  obtain ⟨k, hk⟩ : ∃ k, env.usedMemory + 21 = p.toNat + k := ⟨env.usedMemory + 21 - p.toNat, by omega⟩
  have hkk : env.usedMemory + 21 - p.toNat = k := by omega
  have hb : pushByte (env.usedMemory + 21) 21 Abi.ADDRESS (mem, 0) =
      some (writeMem mem (env.usedMemory + 21) [Abi.ADDRESS], 1) := by
    have := pushByte_eval (ptr := env.usedMemory + 21) (cap := 21) (m0 := mem) (bs := []) (b := Abi.ADDRESS)
      (by simp) (by omega)
    rwa [writeMem_nil] at this
  have hm : env.usedMemory + 21 + 21 ≤ mem.length := by omega
  have htk : (a.1.take k).length = k := by simp; omega
  have hf1 := pushFrom_eval hm k p.toNat (a.1.take k) [Abi.ADDRESS]
    (by rw [← hv, List.take_take, Nat.min_eq_left (by omega)]) htk (by simp; omega) (.inl (by omega))
  have hg : (writeMem mem (env.usedMemory + 21) ([Abi.ADDRESS] ++ a.1.take k))[env.usedMemory + 21]? =
      some Abi.ADDRESS := by
    unfold writeMem
    have hq : (mem.take (env.usedMemory + 21)).length = env.usedMemory + 21 := by simp; omega
    rw [List.getElem?_append_right (by omega), hq, Nat.sub_self]
    rfl
  have hf2 : pushFrom (env.usedMemory + 21) 21 (p.toNat + k) 1
      (writeMem mem (env.usedMemory + 21) ([Abi.ADDRESS] ++ a.1.take k), ([Abi.ADDRESS] ++ a.1.take k).length) =
      some (writeMem mem (env.usedMemory + 21) ([Abi.ADDRESS] ++ a.1.take k ++ [Abi.ADDRESS]),
        ([Abi.ADDRESS] ++ a.1.take k ++ [Abi.ADDRESS]).length) := by
    rw [pushFrom]
    dsimp only
    rw [← hk, hg]
    change (pushByte (env.usedMemory + 21) 21 _ _).bind _ = _
    rw [pushByte_eval (by rw [List.length_append, htk, List.length_singleton]; omega) hm]
    rfl
  obtain ⟨bs, hbl, hf3⟩ := pushFrom_some hm (19 - k) (p.toNat + (k + 1))
    ([Abi.ADDRESS] ++ a.1.take k ++ [Abi.ADDRESS]) (by omega)
    (by simp [htk]; omega)
  refine ⟨a.1.take k ++ [Abi.ADDRESS] ++ bs, by simp [hbl, htk]; omega, ?_, ?_, ?_⟩
  · refine returns_of hset hret (by omega) h32 (by simp) (by simp [hbl, hmax]; omega) ?_ w
    rw [hmax]
    unfold encodeAt
    change (pushByte (env.usedMemory + 21) 21 Abi.ADDRESS (mem, 0)).bind
      (fun s => pushFrom (env.usedMemory + 21) 21 p.toNat 20 s) = _
    have hsp := pushFrom_add (env.usedMemory + 21) 21 k (1 + (19 - k)) p.toNat
      (writeMem mem (env.usedMemory + 21) [Abi.ADDRESS], 1)
    rw [show k + (1 + (19 - k)) = 20 by omega] at hsp
    rw [hb, Option.bind_some, hsp]
    refine (congrArg (fun o => Option.bind o _) hf1).trans ?_
    rw [Option.bind_some, pushFrom_add, hf2, Option.bind_some, Nat.add_assoc, hf3]
    simp
  · rw [hkk, List.append_assoc, List.take_append_of_le_length (by omega), List.take_of_length_le (by omega)]
  · rw [hkk, List.append_assoc, List.getElem?_append_right (by omega), htk, Nat.sub_self]
    rfl

/-! ### An endpoint that returns its last argument -/

/-- `fn f(.., a: Address) -> Address { a }`. -/
def echo (ts : List Ty) : Endpoint where
  params := ts ++ [.address]
  result := some .address
  body raw mem :=
    match raw.getLast? with
    | some ⟨.address, p⟩ => .ret p mem
    | _ => .trap unreachableMsg

/-- Reading arguments without arrays, the last of which is an address. -/
theorem args_last (chk chk' : Bool) (R : ValueRepr) {stop : Nat} {a : Addr} :
    ∀ (pre : Args) (bs mem : Bytes) (pos : Nat) (env : Env), (∀ x ∈ pre, x.1.Arg) →
      (∀ x ∈ pre, ∀ u n, x.1 ≠ .arr u n) → Abi.encodeArgs pre = some bs →
      slice mem pos stop = bs ++ Abi.ADDRESS :: a.1 → stop ≤ mem.length → mem.length < 2 ^ 32 →
      env.memorySet = true → env.usedMemory ≤ mem.length → ∀ w : View,
      ∃ raw mem', ((argsAt chk R stop (pre.map (·.1) ++ [.address]) pos mem).run chk' env).eval w =
          (w, .ok (env, .ok (raw ++ [⟨.address, BitVec.ofNat 32 (pos + bs.length + 1)⟩], mem'))) ∧
        mem'.length = mem.length ∧ mem'.take stop = mem.take stop
  | [], bs, mem, pos, env, _, _, he, hs, hl, h32, _, _, w => by
    cases he
    refine ⟨[], mem, ?_, rfl, rfl⟩
    rw [List.nil_append] at hs
    rw [List.map_nil, List.nil_append, argsAt, nextAt_prim chk R (p := .address a) (r := []) rfl
      (by rw [List.append_nil]; exact hs) hl]
    rfl
  | ⟨t, v⟩ :: pre, bs, mem, pos, env, ht, hn, he, hs, hl, h32, hset, hroom, w => by
    obtain ⟨x, y, hx, hy, rfl⟩ : ∃ x y, t.encode v = some x ∧ Abi.encodeArgs pre = some y ∧
        bs = x ++ y := by
      unfold Abi.encodeArgs at he
      cases hx : t.encode v with
      | none => rw [hx] at he; cases he
      | some x =>
        rw [hx] at he
        cases hy : Abi.encodeArgs pre with
        | none => rw [hy] at he; cases he
        | some y => rw [hy] at he; cases he; exact ⟨x, y, rfl, rfl, rfl⟩
    rw [List.append_assoc] at hs
    have hv0 : vecSize R t = 0 := by
      have := hn ⟨t, v⟩ (by simp)
      cases t <;> first | rfl | exact absurd rfl (this _ _)
    obtain ⟨rv, z, mem1, e1, e2, e3, e4, -⟩ := next_at chk chk' R (t := t) (ht ⟨t, v⟩ (by simp))
      (fun u => hn ⟨t, v⟩ (by simp) u 8) v (env := env) hx hs hl h32 hset (fun h => by omega) (by omega) w
    rw [hv0, Nat.add_zero] at e1
    obtain ⟨raw, mem2, f1, f2, f3⟩ := args_last chk chk' R pre y mem1 (pos + x.length) env
      (fun a ha => ht a (by simp [ha])) (fun a ha => hn a (by simp [ha])) hy
      (by rw [slice_congr e4]; exact slice_drop hs) (by omega) (by omega) hset (by omega) w
    refine ⟨⟨t, z⟩ :: raw, mem2, ?_, by omega, by rw [f3, e4]⟩
    rw [List.map_cons, List.cons_append, argsAt, run_andThen e1]
    dsimp only
    rw [e2]
    dsimp only
    rw [run_andThen f1, List.length_append, Nat.add_assoc pos]
    rfl

/-- What comes back from the endpoint that returns its last argument: `l`. -/
theorem echo_eval (chk chk' : Bool) (R : ValueRepr) (memory : Bytes) {f : Str → Option Endpoint} {call : Call}
    {env : Env} {mem : Bytes} (w : View) {pre : Args} {pb : Bytes} {a : Addr}
    (he : IsEndpoint f call.funcName (echo (pre.map (·.1)))) (ht : ∀ x ∈ pre, x.1.Arg)
    (hn : ∀ x ∈ pre, ∀ u n, x.1 ≠ .arr u n) (hpb : Abi.encodeArgs pre = some pb)
    (henc : call.funcInput = pb ++ Abi.ADDRESS :: a.1) (hset : env.memorySet = true) (hret : env.returndata = none)
    (hroom : env.usedMemory + 2 * call.funcInput.length + 42 ≤ mem.length) (h32 : mem.length < 2 ^ 32) :
    ∃ (mem' : Bytes) (p : U32) (env1 : Env), env1 = startEnv env call.funcInput.length ∧ mem'.length = mem.length ∧
      p.toNat = env.usedMemory + call.funcInput.length + pb.length + 1 ∧
      (mem'.drop p.toNat).take 20 = a.1 ∧
      ∀ l, Returns chk' .address p mem' env1 w l → ∃ env' mem2,
        (runFunc chk' (sdkModule chk R memory f) call env () mem).eval w = (w, .ok (env', .ok (mem2, []))) ∧
        takeReturndata env' mem2 = some l := by
  have hal := a.2
  have hin : call.funcInput ≠ [] := by rw [henc]; simp
  have hlen : call.funcInput.length = pb.length + 21 := by rw [henc]; simp [hal]
  have hw : env.usedMemory + call.funcInput.length + call.funcInput.length ≤ mem.length := by omega
  have hml := length_writeMem hw
  have hsl : slice (writeMem mem (env.usedMemory + call.funcInput.length) call.funcInput)
      (env.usedMemory + call.funcInput.length)
      (env.usedMemory + call.funcInput.length + call.funcInput.length) = call.funcInput := by
    unfold slice
    rw [List.drop_take, Nat.add_sub_cancel_left]
    exact drop_take_writeMem _ _ _ hw
  obtain ⟨raw, mem', h1, h2, h3⟩ := args_last chk chk' R (a := a)
    (stop := env.usedMemory + call.funcInput.length + call.funcInput.length) pre pb
    (writeMem mem (env.usedMemory + call.funcInput.length) call.funcInput)
    (env.usedMemory + call.funcInput.length) (startEnv env call.funcInput.length) ht hn hpb
    (hsl.trans henc) (by omega) (by omega) hset (by
      change env.usedMemory + call.funcInput.length ≤ _
      omega) w
  have hp : (BitVec.ofNat 32 (env.usedMemory + call.funcInput.length + pb.length + 1)).toNat =
      env.usedMemory + call.funcInput.length + pb.length + 1 := ofNat_toNat (by omega)
  refine ⟨mem', BitVec.ofNat 32 (env.usedMemory + call.funcInput.length + pb.length + 1), _, rfl, by omega, hp, ?_, ?_⟩
  · rw [hp]
    have h5 := slice_drop (hsl.trans henc)
    rw [← slice_congr h3] at h5
    have h6 := bytes_at (bs := a.1) (r := []) (by rw [List.append_nil]; exact h5)
    rwa [hal] at h6
  · intro l hl
    obtain ⟨env', mem2, g1, g2, g3⟩ := hl
    have hg : (((echo (pre.map (·.1))).guest chk R
        (writeMem mem (env.usedMemory + call.funcInput.length) call.funcInput)).run chk'
        (startEnv env call.funcInput.length)).eval w = (w, .ok (env', .ok ((), mem2))) := by
      unfold Endpoint.guest
      refine (run_andThen ((prologue_run (by simp) rfl (by omega) (by omega) w).trans h1)).trans ?_
      unfold echo
      dsimp only
      rw [List.getLast?_concat]
      exact g1
    refine ⟨{ env' with logs := [] }, mem2, ?_, g3⟩
    rw [runFunc_sdk he hin hset hret (by omega) h32, Prog.eval_bind_ok hg]
    unfold report
    rw [g2]
    rfl

/-- The endpoint that returns its last argument returns it, if the arguments before it (without arrays)
take no bytes or more than 20. -/
theorem C97_echo_right (chk chk' : Bool) (R : ValueRepr) (memory : Bytes) {f : Str → Option Endpoint} {call : Call}
    {env : Env} {mem : Bytes} (w : View) {pre : Args} {pb : Bytes} {a : Addr}
    (he : IsEndpoint f call.funcName (echo (pre.map (·.1)))) (ht : ∀ x ∈ pre, x.1.Arg)
    (hn : ∀ x ∈ pre, ∀ u n, x.1 ≠ .arr u n) (hpb : Abi.encodeArgs pre = some pb)
    (henc : call.funcInput = pb ++ Abi.ADDRESS :: a.1) (hset : env.memorySet = true) (hret : env.returndata = none)
    (hroom : env.usedMemory + 2 * call.funcInput.length + 42 ≤ mem.length) (h32 : mem.length < 2 ^ 32)
    (hk : pb.length = 0 ∨ 20 < pb.length) : ∃ env' mem2,
      (runFunc chk' (sdkModule chk R memory f) call env () mem).eval w = (w, .ok (env', .ok (mem2, []))) ∧
      takeReturndata env' mem2 = some (Abi.ADDRESS :: a.1) := by
  obtain ⟨mem', p, env1, rfl, h1, h2, h3, h4⟩ :=
    echo_eval chk chk' R memory w he ht hn hpb henc hset hret hroom h32
  have hu : (startEnv env call.funcInput.length).usedMemory = env.usedMemory + call.funcInput.length := rfl
  exact h4 _ (C97_address chk' w h3 hset hret (by omega) (by omega) (by omega))

/-- **C97 is wrong** for the endpoint that returns its last argument, if the arguments before it (without
arrays) take between 1 and 20 bytes, say `k`: the byte `20 - k` of the address comes back as 0x40. -/
theorem C97_echo_wrong (chk chk' : Bool) (R : ValueRepr) (memory : Bytes) {f : Str → Option Endpoint} {call : Call}
    {env : Env} {mem : Bytes} (w : View) {pre : Args} {pb : Bytes} {a : Addr}
    (he : IsEndpoint f call.funcName (echo (pre.map (·.1)))) (ht : ∀ x ∈ pre, x.1.Arg)
    (hn : ∀ x ∈ pre, ∀ u n, x.1 ≠ .arr u n) (hpb : Abi.encodeArgs pre = some pb)
    (henc : call.funcInput = pb ++ Abi.ADDRESS :: a.1) (hset : env.memorySet = true) (hret : env.returndata = none)
    (hroom : env.usedMemory + 2 * call.funcInput.length + 42 ≤ mem.length) (h32 : mem.length < 2 ^ 32)
    (h1k : 1 ≤ pb.length) (hk : pb.length ≤ 20) : ∃ env' mem2 l,
      (runFunc chk' (sdkModule chk R memory f) call env () mem).eval w = (w, .ok (env', .ok (mem2, []))) ∧
      takeReturndata env' mem2 = some (Abi.ADDRESS :: l) ∧ l.length = 20 ∧
      l.take (20 - pb.length) = a.1.take (20 - pb.length) ∧ l[20 - pb.length]? = some 0x40 := by
  obtain ⟨mem', p, env1, rfl, h1, h2, h3, h4⟩ :=
    echo_eval chk chk' R memory w he ht hn hpb henc hset hret hroom h32
  have hu : (startEnv env call.funcInput.length).usedMemory = env.usedMemory + call.funcInput.length := rfl
  obtain ⟨l, g1, g2, g3, g4⟩ := C97_overwritten chk' w h3 (env := startEnv env call.funcInput.length) hset hret
    (by omega) (by omega) (by omega) (by omega)
  obtain ⟨env', mem2, e1, e2⟩ := h4 _ g2
  have hd : (startEnv env call.funcInput.length).usedMemory + 21 - p.toNat = 20 - pb.length := by omega
  rw [hd] at g3 g4
  exact ⟨env', mem2, l, e1, e2, g1, g3, g4⟩

/-- **C97 is wrong.** -/
theorem C97_claim_false : ¬ C97_claim := by
  intro hc
  let mem : Bytes := List.replicate 64 0
  let env : Env := { Env.new ⟨exampleAddr 1, exampleAddr 9, ⟨none, []⟩⟩ (exampleAddr 9) (exampleAddr 1)
    .fullAccess with memorySet := true }
  let a : Addr := ⟨List.replicate 20 0, by decide⟩
  have hv : (mem.drop (21#32 : U32).toNat).take 20 = a.1 := by decide
  obtain ⟨env1, mem1, h1, -, h2⟩ := hc true .address (21#32 : U32) a (Abi.ADDRESS :: a.1) mem env (fun _ => none)
    (address_meaning hv) rfl rfl rfl (by decide) (by decide)
  obtain ⟨l, -, ⟨env2, mem2, g1, -, g2⟩, -, g4⟩ := C97_overwritten true (p := 21#32) (env := env) (fun _ => none) hv
    rfl rfl (by decide) (by decide) (by decide) (by decide)
  rw [h1] at g1
  cases g1
  rw [h2] at g2
  cases g2
  exact absurd g4 (by decide)

/-! ## C98: no calldata crashes the runtime -/

/-- The endpoint's own code and the encoding of its result never crash the runtime. -/
def Endpoint.Safe (e : Endpoint) (chk' : Bool) : Prop :=
  ∀ raw mem env w, (((e.rest raw mem).run chk' env).eval w).2 ≠ .panic

/-- What C98 says: if an endpoint's own code does not crash the runtime then calling it does not. -/
def C98_claim (R : ValueRepr) : Prop :=
  ∀ (chk chk' : Bool) (memory : Bytes) (f : Str → Option Endpoint) (call : Call) (e : Endpoint)
    (env : Env) (mem : Bytes) (w : View), IsEndpoint f call.funcName e → e.Safe chk' →
    env.memorySet = true → env.returndata = none → env.calldata = none → mem.length < 2 ^ 32 →
    ((runFunc chk' (sdkModule chk R memory f) call env () mem).eval w).2 ≠ .panic

/-- **C98 is wrong** without calldata: every endpoint with parameters then crashes the runtime. -/
theorem C98_empty (chk chk' : Bool) (R : ValueRepr) (memory : Bytes) {f : Str → Option Endpoint} {call : Call}
    {e : Endpoint} {env : Env} {mem : Bytes} (w : View) (he : IsEndpoint f call.funcName e)
    (hp : e.params ≠ []) (hin : call.funcInput = []) (hcd : env.calldata = none) :
    (runFunc chk' (sdkModule chk R memory f) call env () mem).eval w = (w, .panic) := by
  have hg : ((e.guest chk R mem).run chk' env).eval w = (w, .panic) := by
    unfold Endpoint.guest
    refine run_andThen_panic ?_
    cases hps : e.params with
    | nil => exact absurd hps hp
    | cons t ts =>
      rw [prologue_cons]
      change ((host chk' env mem .calldataOffset).bind _).eval w = _
      refine Prog.eval_bind_panic ?_
      change ((Prog.ofOption env.calldata).bind _).eval w = _
      rw [hcd]
      rfl
  unfold runFunc lookupFunc
  rw [he.sig chk R memory]
  dsimp only
  rw [if_neg (by rw [hin]; simp)]
  change ((wasmerCall chk' _ _ (sdkInvoke chk R f call.funcName [] _)).bind _).eval w = _
  rw [he.invoke chk R]
  refine Prog.eval_bind_panic ?_
  unfold wasmerCall
  exact Prog.eval_bind_panic (run_andThen_panic hg)

/-- **C98 is wrong** for calldata for which there is no room: it crashes the runtime. Only half of the
memory can be used, as `svm_static_alloc` answers the end of the block. -/
theorem C98_too_long (chk chk' : Bool) (R : ValueRepr) (memory : Bytes) {f : Str → Option Endpoint} {call : Call}
    {e : Endpoint} {env : Env} {mem : Bytes} (w : View) (he : IsEndpoint f call.funcName e)
    (hset : env.memorySet = true) (hret : env.returndata = none) (h32 : mem.length < 2 ^ 32)
    (hlen : call.funcInput.length < 2 ^ 32) (hne : call.funcInput ≠ [])
    (hroom : mem.length < env.usedMemory + 2 * call.funcInput.length) :
    (runFunc chk' (sdkModule chk R memory f) call env () mem).eval w = (w, .panic) := by
  have hpos : 0 < call.funcInput.length := List.length_pos_iff.2 hne
  unfold runFunc lookupFunc
  rw [he.sig chk R memory]
  dsimp only
  rw [if_pos hpos]
  unfold callWithAlloc
  rw [Prog.bind_eq]
  have hsig : (sdkModule chk R memory f).sig svmAlloc = some .alloc := by simp [sdkModule]
  by_cases hu : env.usedMemory + call.funcInput.length ≤ mem.length
  · have h1 : (callAlloc chk' (sdkModule chk R memory f) () env mem call.funcInput.length).eval w =
        (w, .ok ({ env with usedMemory := env.usedMemory + call.funcInput.length, logs := [] },
          .ok ((), mem, BitVec.ofNat 32 (env.usedMemory + call.funcInput.length)))) := by
      unfold callAlloc
      dsimp only
      rw [if_pos hsig]
      exact Prog.eval_bind_ok (wasmerCall_alloc (chk := chk) (R := R) (f := f) (name := svmAlloc)
        (env := { env with mode := .accessDenied }) hset hpos (by omega) (by dsimp only; omega) w)
    rw [Prog.eval_bind_ok h1]
    dsimp only
    rw [if_pos hret]
    have h2 : setCalldata { env with usedMemory := env.usedMemory + call.funcInput.length, logs := [] } mem
        call.funcInput (BitVec.ofNat 32 (env.usedMemory + call.funcInput.length)) = none := by
      unfold setCalldata
      rw [ofNat_toNat (by omega), if_neg (by omega)]
    rw [h2]
    rfl
  · refine Prog.eval_bind_panic ?_
    unfold callAlloc
    dsimp only
    rw [if_pos hsig]
    refine Prog.eval_bind_panic ?_
    change (wasmerCall chk' { env with mode := .accessDenied } svmAlloc (sdkInvoke chk R f svmAlloc
      [.i32 (BitVec.ofNat 32 call.funcInput.length)] mem)).eval w = _
    unfold wasmerCall
    rw [sdkInvoke_alloc]
    refine Prog.eval_bind_panic ?_
    change ((host chk' _ mem (.staticAlloc (BitVec.ofNat 32 call.funcInput.length))).bind _).eval w = _
    refine Prog.eval_bind_panic ?_
    change ((Prog.ofOption (staticAlloc { env with mode := .accessDenied } mem _)).bind _).eval w = _
    unfold staticAlloc
    rw [ofNat_toNat hlen, if_pos (by simp [hset, hpos])]
    dsimp only
    rw [if_pos (by omega)]
    rfl

theorem itemsAt_length (chk : Bool) (R : ValueRepr) {ptr cap stop : Nat} :
    ∀ (n : Nat) (acc l : List RawPrim) (mem mem' : Bytes) (pos pos' : Nat),
      itemsAt chk R ptr cap stop n acc mem pos = some (l, mem', pos') → mem'.length = mem.length
  | 0, acc, l, mem, mem', pos, pos', h => by cases h; rfl
  | n + 1, acc, l, mem, mem', pos, pos', h => by
    unfold itemsAt at h
    split at h
    · cases h
    · rename_i p q hp
      split at h
      · rename_i hc
        have := itemsAt_length chk R n _ l _ mem' q pos' h
        rw [this, length_writeMem]
        have := hc.2
        rw [Nat.add_mul, Nat.one_mul] at this
        rw [R.length]
        omega
      · cases h

/-- Reading one argument traps or succeeds, whatever the bytes are. -/
theorem nextAt_safe (chk chk' : Bool) (R : ValueRepr) {pos stop : Nat} {mem : Bytes} {env : Env}
    (hset : env.memorySet = true) (hroom : env.usedMemory + 255 * R.size ≤ mem.length) (w : View) :
    ∃ u, u ≤ env.usedMemory + 255 * R.size ∧
      (((nextAt chk R pos stop mem).run chk' env).eval w =
          (w, .ok ({ env with usedMemory := u }, .error unreachableMsg)) ∨
        ∃ v mem', mem'.length = mem.length ∧ ((nextAt chk R pos stop mem).run chk' env).eval w =
          (w, .ok ({ env with usedMemory := u }, .ok (v, mem')))) := by
  have hstay : ∃ u, u ≤ env.usedMemory + 255 * R.size ∧ { env with usedMemory := u } = env :=
    ⟨env.usedMemory, by omega, rfl⟩
  unfold nextAt
  split
  · obtain ⟨u, h1, h2⟩ := hstay
    exact ⟨u, h1, .inl (by rw [h2]; rfl)⟩
  · rename_i b r hb
    have hmul := Nat.mul_le_mul_right R.size (show b.toNat ≤ 255 by have := UInt8.toNat_lt b; omega)
    have hsm := R.small
    split
    · obtain ⟨u, h1, h2⟩ := hstay
      exact ⟨u, h1, .inl (by rw [h2]; rfl)⟩
    · rename_i hk
      have hb0 : 0 < b.toNat := by
        by_contra h0
        have : b = 0 := by
          apply UInt8.toNat_inj.1
          change b.toNat = 0
          omega
        subst this
        exact absurd hk (by decide)
      have hpos := Nat.mul_pos hb0 R.pos
      refine ⟨env.usedMemory + b.toNat * R.size, by omega, ?_⟩
      rw [run_call (alloc_eval hset hpos (by omega) (by omega) w)]
      dsimp only
      split
      · split
        · rename_i l m' p' hx
          exact .inr ⟨_, m', itemsAt_length chk R _ _ _ _ _ _ _ hx, rfl⟩
        · exact .inl rfl
      · exact .inl rfl
    · obtain ⟨u, h1, h2⟩ := hstay
      refine ⟨u, h1, ?_⟩
      rw [h2]
      split
      · exact .inr ⟨_, mem, rfl, rfl⟩
      · exact .inl rfl

/-- Reading the arguments traps or succeeds, whatever the bytes are. -/
theorem argsAt_safe (chk chk' : Bool) (R : ValueRepr) {stop : Nat} :
    ∀ (ts : List Ty) (pos : Nat) (mem : Bytes) (env : Env), env.memorySet = true → mem.length < 2 ^ 32 →
      env.usedMemory + ts.length * (255 * R.size) ≤ mem.length → ∀ w : View,
      ∃ u, (((argsAt chk R stop ts pos mem).run chk' env).eval w =
          (w, .ok ({ env with usedMemory := u }, .error unreachableMsg)) ∨
        ∃ v mem', mem'.length = mem.length ∧ ((argsAt chk R stop ts pos mem).run chk' env).eval w =
          (w, .ok ({ env with usedMemory := u }, .ok (v, mem'))))
  | [], pos, mem, env, _, _, _, w => ⟨env.usedMemory, .inr ⟨[], mem, rfl, rfl⟩⟩
  | t :: ts, pos, mem, env, hset, h32, hroom, w => by
    rw [List.length_cons, Nat.add_mul, Nat.one_mul] at hroom
    obtain ⟨u, hu, h | ⟨v, m1, hl, h⟩⟩ := nextAt_safe chk chk' R (pos := pos) (stop := stop) (mem := mem) hset
      (by omega) w
    · exact ⟨u, .inl (by rw [argsAt, run_andThen_trap h])⟩
    · cases hf : rawFrom t v.1 with
      | none =>
        refine ⟨u, .inl ?_⟩
        rw [argsAt, run_andThen h]
        rw [hf]
        rfl
      | some x =>
        obtain ⟨u', h' | ⟨v', m', hl', h'⟩⟩ := argsAt_safe chk chk' R (stop := stop) ts v.2 m1
          { env with usedMemory := u } hset (by omega) (by dsimp only; omega) w
        · refine ⟨u', .inl ?_⟩
          rw [argsAt, run_andThen h]
          rw [hf]
          dsimp only
          rw [run_andThen_trap h']
        · refine ⟨u', .inr ⟨⟨t, x⟩ :: v', m', by omega, ?_⟩⟩
          rw [argsAt, run_andThen h]
          rw [hf]
          dsimp only
          rw [run_andThen h']
          rfl

/-- **C98, partial.** If there is calldata and enough memory for it twice and for a vector per parameter
then calling an endpoint crashes the runtime only if the endpoint's own code does: whatever the calldata
is, the call fails with the trap of the decoder, or the endpoint's code runs. -/
theorem C98_safe_partial (chk chk' : Bool) (R : ValueRepr) (memory : Bytes) {f : Str → Option Endpoint} {call : Call}
    {e : Endpoint} {env : Env} {mem : Bytes} (w : View) (he : IsEndpoint f call.funcName e)
    (hset : env.memorySet = true) (hret : env.returndata = none) (h32 : mem.length < 2 ^ 32)
    (hne : call.funcInput ≠ [])
    (hroom : env.usedMemory + 2 * call.funcInput.length ≤ mem.length)
    (hroom' : env.usedMemory + call.funcInput.length + e.params.length * (255 * R.size) ≤ mem.length) :
    (∃ env', (runFunc chk' (sdkModule chk R memory f) call env () mem).eval w =
      (w, .ok (env', .error (.funcFailed env.targetAddr env.templateAddr call.funcName unreachableMsg, [])))) ∨
    ∃ raw mem' env', (runFunc chk' (sdkModule chk R memory f) call env () mem).eval w =
      (((e.rest raw mem').run chk' env').bind fun r => .ret (report env call.funcName r)).eval w := by
  rw [runFunc_sdk he hne hset hret hroom h32]
  have hw : env.usedMemory + call.funcInput.length + call.funcInput.length ≤ mem.length := by omega
  have hml := length_writeMem hw
  have hg : ∀ m, e.guest chk R m = andThen (prologue chk R e.params m) e.rest := fun _ => rfl
  rw [hg]
  by_cases hp : e.params = []
  · rw [hp]
    exact .inr ⟨[], _, _, rfl⟩
  · have hpr := prologue_run (chk := chk) (chk' := chk') (R := R) hp
      (mem := writeMem mem (env.usedMemory + call.funcInput.length) call.funcInput)
      (env := startEnv env call.funcInput.length) rfl (by omega) (by omega) w
    obtain ⟨u, h | ⟨v, m1, hl, h⟩⟩ := argsAt_safe chk chk' R
      (stop := env.usedMemory + call.funcInput.length + call.funcInput.length) e.params
      (env.usedMemory + call.funcInput.length)
      (writeMem mem (env.usedMemory + call.funcInput.length) call.funcInput) (startEnv env call.funcInput.length)
      hset (by omega) (by
        change env.usedMemory + call.funcInput.length + _ ≤ _
        omega) w
    · left
      refine ⟨{ startEnv env call.funcInput.length with usedMemory := u }, ?_⟩
      rw [Prog.eval_bind, run_andThen_trap (hpr.trans h)]
      rfl
    · right
      refine ⟨v, m1, { startEnv env call.funcInput.length with usedMemory := u }, ?_⟩
      exact eval_bind_congr (run_andThen (hpr.trans h))

/-- The same without parameters or calldata: the endpoint's code runs. -/
theorem C98_no_parameters_partial (chk chk' : Bool) (R : ValueRepr) (memory : Bytes) {f : Str → Option Endpoint}
    {call : Call} {e : Endpoint} {env : Env} {mem : Bytes} (w : View) (he : IsEndpoint f call.funcName e)
    (hin : call.funcInput = []) (hp : e.params = []) :
    (runFunc chk' (sdkModule chk R memory f) call env () mem).eval w =
      (((e.rest [] mem).run chk' env).bind fun r => .ret (report env call.funcName r)).eval w := by
  unfold runFunc lookupFunc
  rw [he.sig chk R memory]
  dsimp only
  rw [if_neg (by rw [hin]; simp)]
  change ((wasmerCall chk' _ _ (sdkInvoke chk R f call.funcName [] _)).bind _).eval w = _
  rw [he.invoke chk R]
  refine (wasmerCall_sdk chk' env call.funcName (e.guest chk R mem) w _ (fun _ _ => rfl) (fun _ _ => rfl)).trans ?_
  have : e.guest chk R mem = e.rest [] mem := by
    unfold Endpoint.guest
    rw [hp]
    rfl
  rw [this]

/-- **C98 is wrong**, however the compiler lays out values. -/
theorem C98_claim_false (R : ValueRepr) : ¬ C98_claim R := by
  intro hc
  let e : Endpoint := ⟨[.bool], none, fun _ mem => .ret () mem⟩
  let name : Str := ⟨[], by decide⟩
  let call : Call := ⟨name, [], exampleAddr 1, exampleAddr 9, false, .fullAccess⟩
  have he : IsEndpoint (fun _ => some e) call.funcName e :=
    ⟨rfl, (show name ≠ svmAlloc by decide +kernel), (show name ≠ svmVerify by decide +kernel)⟩
  let env : Env := { Env.new ⟨exampleAddr 1, exampleAddr 9, ⟨none, []⟩⟩ (exampleAddr 9) (exampleAddr 1)
    .fullAccess with memorySet := true }
  refine hc true true [] _ call e env [] (fun _ => none) he (fun raw mem env w h => by cases h) rfl rfl rfl
    (by decide) ?_
  rw [C98_empty true true R [] (fun _ => none) he (by simp [e]) rfl rfl]

/-! ## Cases that meet the hypotheses -/

/-- Values of 16 bytes. -/
def demoRepr : ValueRepr where
  size := 16
  bytes _ := List.replicate 16 0xee
  pos := by decide
  small := by decide
  length _ := by simp

/-- The address 1, 2, .., 20. -/
def demoLast : Addr := ⟨(List.range' 1 20).map UInt8.ofNat, by decide⟩

/-- `[true, false]`. -/
def demoFlags : (Ty.arr .bool 2).Val := ⟨[true, false], rfl⟩

/-- A flag, an array of flags and an address. -/
def demoArgs : Args := [⟨.bool, true⟩, ⟨.arr .bool 2, demoFlags⟩, ⟨.address, demoLast⟩]

/-- The environment of the examples. -/
def demoCallEnv : Env :=
  { Env.new ⟨exampleAddr 1, exampleAddr 9, ⟨none, []⟩⟩ (exampleAddr 9) (exampleAddr 1) .fullAccess with
    memorySet := true }

/-- The call of the examples. -/
def demoCall (input : Bytes) : Call :=
  ⟨⟨ascii "f".toList, by decide⟩, input, exampleAddr 1, exampleAddr 9, false, .fullAccess⟩

/-- The encoding of the arguments of the example. -/
def demoInput : Bytes := [0x10, 0x26, 0x10, 0x00, 0x40] ++ demoLast.1

/-- Non-vacuity of C96: the arguments are sent, they are of supported types, and the vector of 608 bytes
is larger than the calldata of 25 bytes. -/
example : Abi.encodeArgs demoArgs = some demoInput ∧ (∀ a ∈ demoArgs, a.1.Arg) ∧
    (∀ a ∈ demoArgs, ∀ u, a.1 ≠ .arr u 8) ∧
    (∀ t ∈ demoArgs.map (·.1), 0 < vecSize demoRepr t → demoInput.length ≤ vecSize demoRepr t) ∧
    demoCallEnv.usedMemory + 2 * demoInput.length + 2 * vecSizes demoRepr (demoArgs.map (·.1)) ≤
      (List.replicate 2000 (0 : UInt8)).length := by
  refine ⟨by decide +kernel, ?_, ?_, ?_, by decide +kernel⟩
  · simp only [demoArgs, List.forall_mem_cons]
    exact ⟨trivial, ⟨trivial, by omega, by omega⟩, trivial, by simp⟩
  · simp only [demoArgs, List.forall_mem_cons]
    exact ⟨by simp, by simp, by simp, by simp⟩
  · decide +kernel

theorem demoCall_echo (ts : List Ty) (input : Bytes) :
    IsEndpoint (fun _ => some (echo ts)) (demoCall input).funcName (echo ts) :=
  ⟨rfl, (show (demoCall []).funcName ≠ svmAlloc by decide +kernel),
    (show (demoCall []).funcName ≠ svmVerify by decide +kernel)⟩

/-- What the runtime takes as returndata of the call. -/
def demoReturndata (ts : List Ty) (input : Bytes) : Option Bytes :=
  match ((runFunc true (sdkModule true demoRepr [] fun _ => some (echo ts)) (demoCall input) demoCallEnv ()
      (List.replicate 200 0)).eval fun _ => none).2 with
  | .ok (env, .ok (mem, _)) => takeReturndata env mem
  | _ => none

/-- `fn f(a: Address) -> Address { a }` is right. -/
example : demoReturndata [] (0x40 :: demoLast.1) = some (0x40 :: demoLast.1) := by decide +kernel

/-- `fn f(x: bool, a: Address) -> Address { a }` returns 1, 2, .., 19, 64. -/
example : demoReturndata [.bool] (0x10 :: 0x40 :: demoLast.1) =
    some (0x40 :: (demoLast.1.take 19 ++ [0x40])) := by decide +kernel

/-- `fn f(x: u16, a: Address) -> Address { a }` with a large number. -/
example : demoReturndata [.int .w16 false] (0x52 :: 0xab :: 0xcd :: 0x40 :: demoLast.1) =
    some (0x40 :: (demoLast.1.take 17 ++ [0x40, 1, 2])) := by decide +kernel

/-- The call fails in the template, without logs. -/
def demoTraps (ts : List Ty) (input : Bytes) : Bool :=
  match ((runFunc true (sdkModule true demoRepr [] fun _ => some (echo ts)) (demoCall input) demoCallEnv ()
      (List.replicate 200 0)).eval fun _ => none).2 with
  | .ok (_, .error (.funcFailed _ _ _ msg, [])) => msg = unreachableMsg
  | _ => false

/-- Calldata that is no encoding, and an address that is too short. -/
example : demoTraps [] [0xff] = true ∧ demoTraps [] [0x40, 1, 2, 3] = true := by decide +kernel

end Svm.Sdk
