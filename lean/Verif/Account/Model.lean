import Verif.Account.Prog
import Verif.Codec.Sections

/-!
# Model of `crates/host/state/src/account_storage.rs` and `template_storage.rs`

`chk` says whether overflow checks and debug assertions are compiled in (see `Svm.Layout.addW`).
-/

namespace Svm.Account

open Svm.Codec
open Svm.Layout (FixedLayout RawVar addW)

/-! ## Typed access to the global state -/

/-- `GlobalState::read_and_decode`, crates/host/state/src/global_state.rs:170-188. Here
`layer_query_parameter` is `None`; handles with a layer are in `Runtime/History`. -/
def readAndDecode {α : Type} (d : Dec α) (k : Key) : Prog α := do
  match ← Prog.read k with
  | none => .err .notFound
  | some bs =>
    match d bs with
    | .ok (a, _) => .ret a
    | .err _ => .err .illegalData
    | .panic => .panic

/-- `GlobalState::encode_and_write`, global_state.rs:190-197. `none` is a panicking encoder, which runs
while the guard is held. -/
def encodeAndWrite (e : Enc) (k : Key) : Prog Unit :=
  match e with
  | some bs => Prog.write k bs
  | none => .panic true

/-- `GlobalState::replace`, global_state.rs:199-208. -/
def replace {α : Type} (d : Dec α) (e : α → Enc) (k : Key) (f : α → α) : Prog Unit := do
  let old ← readAndDecode d k
  encodeAndWrite (e (f old)) k

/-! ## Records of an account -/

/-- `AccountData`, account_storage.rs:389-392. -/
structure AccountData where
  name : Str
  template : Addr
  deriving DecidableEq

/-- `Codec for AccountData`, account_storage.rs:408-414. -/
def encAccountData (d : AccountData) : Enc := encByte 0 +++ encArr d.template +++ encStr d.name

/-- `Codec for AccountData`, account_storage.rs:416-430. -/
def decAccountData : Dec AccountData := do
  let version ← readByte
  if version ≠ 0 then Dec.fail (.badByte version)
  else
    let template ← decArr 20
    let name ← decStr
    return { name, template }

/-- `AccountMut`, account_storage.rs:433-436. -/
structure AccountMut where
  balance : U64
  counter : U128
  deriving DecidableEq

/-- `Codec for AccountMut`, account_storage.rs:447-453. -/
def encAccountMut (d : AccountMut) : Enc := encByte 0 +++ encNum 8 d.balance +++ encNum 16 d.counter

/-- `Codec for AccountMut`, account_storage.rs:455-466. -/
def decAccountMut : Dec AccountMut := do
  let version ← readByte
  if version ≠ 0 then Dec.fail (.badByte version)
  else
    let balance ← decNum 8
    let counter ← decNum 16
    return { balance, counter }

/-! ## Templates -/

/-- `TemplateStorage::create`, template_storage.rs:27-42. -/
def createTemplate (t : Addr) (core noncore : Sections) : Prog Unit := do
  encodeAndWrite (encSections core) (.core t)
  encodeAndWrite (encSections noncore) (.noncore t)

/-- `TemplateStorage::set_core`, template_storage.rs:51-56. -/
def setCore (t : Addr) (s : Sections) : Prog Unit := encodeAndWrite (encSections s) (.core t)

/-- `TemplateStorage::set_noncore`, template_storage.rs:60-65. -/
def setNoncore (t : Addr) (s : Sections) : Prog Unit := encodeAndWrite (encSections s) (.noncore t)

/-- `read_sections`, template_storage.rs:76-84. -/
def readSections (chk : Bool) (t : Addr) : Prog Sections := do
  let core ← readAndDecode (decSections chk none) (.core t)
  let noncore ← readAndDecode (decSections chk none) (.noncore t)
  return noncore.foldl (fun acc s => Sections.insert s acc) core

/-- `template_layout`, account_storage.rs:331-340: panics without a data section or without a
layout in it. -/
def templateLayout (chk : Bool) (t : Addr) : Prog FixedLayout := do
  let sections ← readSections chk t
  match sections.tryGet .data with
  | some (.data (l :: _)) => return l
  | _ => .panic

/-! ## Accounts -/

/-- `AccountStorage`, account_storage.rs:16-26. The global state it shares is the state the programs
run on. -/
structure Acc where
  addr : Addr
  template : Addr
  layout : FixedLayout
  deriving DecidableEq

/-- `TemplateAddr::stub`, crates/host/types/src/address.rs:16-22. -/
def stubTemplate : Addr := ⟨List.replicate 20 0, by simp⟩

/-- `AccountStorage::create_stub`, account_storage.rs:32-60. -/
def createStub (a : Addr) (name : Str) (balance : U64) (counter : U128) : Prog Acc := do
  encodeAndWrite (encAccountData { name, template := stubTemplate }) (.accData a)
  encodeAndWrite (encAccountMut { balance, counter }) (.accMut a)
  return { addr := a, template := stubTemplate, layout := FixedLayout.default }

/-- `AccountStorage::create`, account_storage.rs:63-91. -/
def create (chk : Bool) (a : Addr) (name : Str) (template : Addr) (balance : U64) (counter : U128) :
    Prog Acc := do
  let layout ← templateLayout chk template
  encodeAndWrite (encAccountData { name, template }) (.accData a)
  encodeAndWrite (encAccountMut { balance, counter }) (.accMut a)
  return { addr := a, template, layout }

/-- `AccountStorage::load`, account_storage.rs:94-104. -/
def load (chk : Bool) (a : Addr) : Prog Acc := do
  let data ← readAndDecode decAccountData (.accData a)
  let layout ← templateLayout chk data.template
  return { addr := a, template := data.template, layout }

/-- `AccountStorage::name`, account_storage.rs:268-276. -/
def name (acc : Acc) : Prog Str := do
  return (← readAndDecode decAccountData (.accData acc.addr)).name

/-- `AccountStorage::template_addr`, account_storage.rs:279-284. -/
def templateAddr (acc : Acc) : Prog Addr := do
  return (← readAndDecode decAccountData (.accData acc.addr)).template

/-- `AccountStorage::balance`, account_storage.rs:287-292. -/
def balance (acc : Acc) : Prog U64 := do
  return (← readAndDecode decAccountMut (.accMut acc.addr)).balance

/-- `AccountStorage::counter`, account_storage.rs:295-300. -/
def counter (acc : Acc) : Prog U128 := do
  return (← readAndDecode decAccountMut (.accMut acc.addr)).counter

/-- `AccountStorage::set_balance`, account_storage.rs:303-310. -/
def setBalance (acc : Acc) (b : U64) : Prog Unit :=
  replace decAccountMut encAccountMut (.accMut acc.addr) fun d => { d with balance := b }

/-- `AccountStorage::set_counter`, account_storage.rs:313-320. -/
def setCounter (acc : Acc) (c : U128) : Prog Unit :=
  replace decAccountMut encAccountMut (.accMut acc.addr) fun d => { d with counter := c }

/-! ## Variables -/

/-- `SEGMENT_SIZE`, account_storage.rs:11. -/
def segmentSize : Nat := 32

/-- `Segment`, account_storage.rs:342-346. The key is determined by the account and `index`; the
inclusive range is `start ..= stop`. -/
structure Segment where
  index : BitVec 32
  start : Nat
  stop : Nat
  deriving DecidableEq, Repr

/-- `Segment::len`, account_storage.rs:348-353. With overflow checks `end - start` panics on an
empty range; without them `start - 1 - start + 1` wraps around to 0. -/
def Segment.len (chk : Bool) (s : Segment) : Option Nat :=
  if s.stop < s.start ∧ chk then none else some (s.stop + 1 - s.start)

/-- The loop of `var_segments`, account_storage.rs:370-379. `segment_index as u32` truncates. -/
def segmentsFrom (index remaining : Nat) : List Segment :=
  if remaining = 0 then []
  else
    ⟨BitVec.ofNat 32 (index + 1), 0, min (segmentSize - 1) (remaining - 1)⟩ ::
      segmentsFrom (index + 1) (remaining - segmentSize)
termination_by remaining
decreasing_by simp only [segmentSize]; omega

/-- `usize` subtraction `x - 1` (64 bits). -/
def predUsize (chk : Bool) (x : Nat) : Option Nat :=
  if x = 0 then (if chk then none else some (2 ^ 64 - 1)) else some (x - 1)

/-- `var_segments`, account_storage.rs:355-387. `none` is a panic. -/
def varSegments (chk : Bool) (offset size : BitVec 32) : Option (List Segment) := do
  let index := offset.toNat / segmentSize
  let start := offset.toNat % segmentSize
  let last ← predUsize chk (start + size.toNat)
  let stop := min last (segmentSize - 1)
  let segments := ⟨BitVec.ofNat 32 index, start, stop⟩ ::
    segmentsFrom index (size.toNat - (stop + 1 - start))
  if chk then
    let lens ← segments.mapM (Segment.len chk)
    if lens.sum = size.toNat then some segments else none
  else some segments

/-- 32 zero bytes, the default of a segment that was never written. -/
def zeroSegment : Bytes := List.replicate segmentSize 0

/-- The read of a segment, account_storage.rs:133-141 and 221-229. The guard lives until the end of the
statement, after `expect`. -/
def readSegment (a : Addr) (s : Segment) : Prog Bytes := do
  let bytes := (← Prog.read (.seg a s.index)).getD zeroSegment
  if bytes.length = segmentSize then return bytes else .panic true

/-- The loop of `get_var`, account_storage.rs:132-144; `var` is the part of the buffer still to be
filled, the result is its new contents. Indexing and slicing out of range panics. -/
def getLoop (chk : Bool) (a : Addr) : List Segment → Bytes → Prog Bytes
  | [], var => return var
  | s :: segments, var => do
    let bytes ← readSegment a s
    let n ← Prog.ofOption (s.len chk)
    if n ≤ var.length ∧ s.stop < segmentSize then do
      let tail ← getLoop chk a segments (var.drop n)
      return (bytes.drop s.start).take n ++ tail
    else .panic

/-- The offset passed to `var_segments`, account_storage.rs:128 and 214:
`offset + byte_size - len` where `len = byte_size`. -/
def segmentsOffset (chk : Bool) (v : RawVar) : Option (BitVec 32) := do
  let e ← addW chk v.offset v.byteSize
  return e - v.byteSize

/-- `AccountStorage::get_var`, account_storage.rs:115-147. `buf` is the buffer before, the result is
the buffer after the call. -/
def getVar (chk : Bool) (acc : Acc) (id : BitVec 32) (buf : Bytes) : Prog Bytes := do
  let v ← Prog.ofOption (acc.layout.get id)
  if buf.length < v.byteSize.toNat then .panic
  else do
    let off ← Prog.ofOption (segmentsOffset chk v)
    let segments ← Prog.ofOption (varSegments chk off v.byteSize)
    let out ← getLoop chk acc.addr segments (buf.take v.byteSize.toNat)
    return out ++ buf.drop v.byteSize.toNat

/-- `AccountStorage::get_var_vec`, account_storage.rs:150-157. -/
def getVarVec (chk : Bool) (acc : Acc) (id : BitVec 32) : Prog Bytes := do
  let v ← Prog.ofOption (acc.layout.get id)
  getVar chk acc id (List.replicate v.byteSize.toNat 0)

/-- `AccountStorage::get_var_array`, account_storage.rs:168-173. -/
def getVarArray (chk : Bool) (n : Nat) (acc : Acc) (id : BitVec 32) : Prog Bytes :=
  getVar chk acc id (List.replicate n 0)

/-- The loop of `set_var_bytes`, account_storage.rs:220-235. -/
def setLoop (chk : Bool) (a : Addr) : List Segment → Bytes → Prog Unit
  | [], _ => return ()
  | s :: segments, value => do
    let bytes ← readSegment a s
    let n ← Prog.ofOption (s.len chk)
    if n ≤ value.length ∧ s.stop < segmentSize then do
      Prog.write (.seg a s.index)
        (bytes.take s.start ++ (value.take n ++ bytes.drop (s.start + n)))
      setLoop chk a segments (value.drop n)
    else .panic

/-- `AccountStorage::set_var_bytes`, account_storage.rs:201-238. -/
def setVarBytes (chk : Bool) (acc : Acc) (id : BitVec 32) (value : Bytes) : Prog Unit := do
  let v ← Prog.ofOption (acc.layout.get id)
  if value.length < v.byteSize.toNat then .panic
  else do
    let off ← Prog.ofOption (segmentsOffset chk v)
    let segments ← Prog.ofOption (varSegments chk off v.byteSize)
    setLoop chk acc.addr segments (value.take v.byteSize.toNat)

/-- `to_le_bytes`. -/
def natLE : Nat → Nat → Bytes
  | 0, _ => []
  | n + 1, x => UInt8.ofNat (x % 256) :: natLE n (x / 256)

/-- `from_le_bytes`. -/
def leNat : Bytes → Nat
  | [] => 0
  | b :: bs => b.toNat + 256 * leNat bs

/-- `AccountStorage::get_var_i64`, account_storage.rs:176-181. -/
def getVarI64 (chk : Bool) (acc : Acc) (id : BitVec 32) : Prog (BitVec 64) := do
  let bytes ← getVar chk acc id (List.replicate 8 0)
  return BitVec.ofNat 64 (leNat bytes)

/-- `AccountStorage::get_var_i32`, account_storage.rs:184-189. -/
def getVarI32 (chk : Bool) (acc : Acc) (id : BitVec 32) : Prog (BitVec 32) := do
  let bytes ← getVar chk acc id (List.replicate 4 0)
  return BitVec.ofNat 32 (leNat bytes)

/-- `AccountStorage::set_var_i64`, account_storage.rs:241-244. -/
def setVarI64 (chk : Bool) (acc : Acc) (id : BitVec 32) (x : BitVec 64) : Prog Unit :=
  setVarBytes chk acc id (natLE 8 x.toNat)

/-- `AccountStorage::set_var_i32`, account_storage.rs:247-250. -/
def setVarI32 (chk : Bool) (acc : Acc) (id : BitVec 32) (x : BitVec 32) : Prog Unit :=
  setVarBytes chk acc id (natLE 4 x.toNat)

end Svm.Account
