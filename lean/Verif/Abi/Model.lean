import Verif.Codec.Basic

/-!
# Model of the ABI (crates/wasm/abi-layout, abi-encoder, abi-decoder)

Values of function arguments and results. An encoder returns the bytes it writes, or `none` when it
panics. The decoder's state is the unread rest of the input: the code keeps an offset into it, which
may run past the end after a failed read (cursor.rs:50-56), but every later read then fails too.
Sizes are natural numbers (`usize` in the code).
-/

namespace Svm.Abi

open Svm.Codec (natBE beNat Arr Addr)

/-! ## Markers -/

/-- abi-layout/src/lib.rs:82-89. -/
def BOOL_FALSE : UInt8 := 0b00000000
def BOOL_TRUE : UInt8 := 0b00010000
def NONE : UInt8 := 0b00100000
def UNIT : UInt8 := 0b00110000
def ADDRESS : UInt8 := 0b01000000

/-- `AMOUNT_1B` to `AMOUNT_8B`, abi-layout/src/lib.rs:91-98. -/
def AMOUNT : List UInt8 :=
  [0b00000001, 0b00010001, 0b00100001, 0b00110001, 0b01000001, 0b01010001, 0b01100001, 0b01110001]

/-- abi-layout/src/lib.rs:100-101. -/
def I8 : UInt8 := 0b00000010
def U8 : UInt8 := 0b00010010

/-- `I16_1B`, `I16_2B`, `U16_1B`, `U16_2B`, abi-layout/src/lib.rs:103-106. -/
def I16 : List UInt8 := [0b00100010, 0b00110010]
def U16 : List UInt8 := [0b01000010, 0b01010010]

/-- `I32_1B` to `U32_4B`, abi-layout/src/lib.rs:108-115. -/
def I32 : List UInt8 := [0b00000011, 0b00010011, 0b00100011, 0b00110011]
def U32 : List UInt8 := [0b01000011, 0b01010011, 0b01100011, 0b01110011]

/-- `I64_1B` to `U64_8B`, abi-layout/src/lib.rs:117-132. -/
def I64 : List UInt8 :=
  [0b00000100, 0b00010100, 0b00100100, 0b00110100, 0b01000100, 0b01010100, 0b01100100, 0b01110100]
def U64 : List UInt8 :=
  [0b00000101, 0b00010101, 0b00100101, 0b00110101, 0b01000101, 0b01010101, 0b01100101, 0b01110101]

/-- `ARR_0` to `ARR_10`, abi-layout/src/lib.rs:135-145. -/
def ARR : List UInt8 :=
  [0b00000110, 0b00010110, 0b00100110, 0b00110110, 0b01000110, 0b01010110, 0b01100110, 0b01110110,
   0b00000111, 0b00010111, 0b00100111]

/-! ## Values -/

/-- The widths of integers. -/
inductive Width where
  | w8 | w16 | w32 | w64
  deriving Repr, DecidableEq

/-- The number of bytes of an integer type. -/
def Width.bytes : Width → Nat
  | .w8 => 1
  | .w16 => 2
  | .w32 => 4
  | .w64 => 8

/-- `enum Primitive`, sdk-types/src/value.rs:9-23. Integers are their bits, which both `i8` and `u8`
consist of; an address, a pointer to 20 bytes in the code, is those bytes. -/
inductive Prim where
  | none_
  | unit
  | bool (b : Bool)
  | address (a : Addr)
  | amount (x : BitVec 64)
  | int (w : Width) (signed : Bool) (x : BitVec (8 * w.bytes))
  deriving DecidableEq

/-- `enum Value` and `enum Composite`, sdk-types/src/value.rs:30-46. -/
inductive Value where
  | prim (p : Prim)
  | vec (l : List Value)

/-! ## Encoder -/

/-- `ByteSize::byte_size` of integers, abi-encoder/src/types/numeric.rs:51-65; `x` is the value cast to
the unsigned type and to `u64`. -/
def numByteSize (x : Nat) : Nat :=
  if x ≤ 0xFF then 2
  else if x ≤ 0xFFFF then 3
  else if x ≤ 0xFFFFFF then 4
  else if x ≤ 0xFFFFFFFF then 5
  else if x ≤ 0xFFFFFFFFFF then 6
  else if x ≤ 0xFFFFFFFFFFFF then 7
  else if x ≤ 0xFFFFFFFFFFFFFF then 8
  else 9

/-- `ByteSize::max_byte_size` of integers, numeric.rs:67-69: the size of `max_value`. -/
def numMaxByteSize (w : Width) (signed : Bool) : Nat :=
  numByteSize (if signed then 2 ^ (8 * w.bytes - 1) - 1 else 2 ^ (8 * w.bytes) - 1)

/-- `layout_integer`, numeric.rs:106-123; `none` is a panic. The two debug assertions follow from the
match. -/
def layoutInteger (maxWidth width : Nat) (signed : Bool) : Option UInt8 :=
  let n := UInt8.ofNat (width - 1)
  match maxWidth, signed with
  | 1, true => if n = 0 then some I8 else none
  | 1, false => if n = 0 then some U8 else none
  | 2, true => some ((0b00100010 : UInt8) ||| ((n &&& 1) <<< 4))
  | 2, false => some ((0b01000010 : UInt8) ||| ((n &&& 1) <<< 4))
  | 4, true => some ((0b00000011 : UInt8) ||| ((n &&& 3) <<< 4))
  | 4, false => some ((0b01000011 : UInt8) ||| ((n &&& 3) <<< 4))
  | 8, true => some ((0b00000100 : UInt8) ||| ((n &&& 7) <<< 4))
  | 8, false => some ((0b00000101 : UInt8) ||| ((n &&& 7) <<< 4))
  | _, _ => none

/-- The last `n` of the eight big endian bytes: `if n >= 8 - i { w.push(bytes[i]) }` for `i` in `0..8`,
numeric.rs:39-43 and amount.rs:13-17. -/
def lastBytes (n x : Nat) : Bytes := (natBE 8 x).drop (8 - n)

/-- `Encoder` for integers, numeric.rs:10-44. -/
def encodeInt (w : Width) (signed : Bool) (x : BitVec (8 * w.bytes)) : Option Bytes := do
  let size := numByteSize x.toNat - 1
  let marker ← layoutInteger (numMaxByteSize w signed - 1) size signed
  some (marker :: lastBytes size x.toNat)

/-- `Encoder for Amount`, amount.rs:6-19, with `layout_amount_b`, 33-35. -/
def encodeAmount (x : BitVec 64) : Bytes :=
  let size := numByteSize x.toNat
  (((UInt8.ofNat (size - 2)) <<< 4) ||| 1) :: lastBytes (size - 1) x.toNat

/-- `encode_primitive`, types/mod.rs:60-76, with boolean.rs:5-13, unit.rs:3-7, address.rs:7-16 and
option.rs:9-16. -/
def encodePrim : Prim → Option Bytes
  | .none_ => some [NONE]
  | .unit => some [UNIT]
  | .bool b => some [if b then BOOL_TRUE else BOOL_FALSE]
  | .address a => some (ADDRESS :: a.1)
  | .amount x => some (encodeAmount x)
  | .int w s x => encodeInt w s x

/-- `layout_array`, small_array.rs:56-62. -/
def layoutArray (len : Nat) : UInt8 :=
  if len < 8 then (0b00000110 : UInt8) ||| (UInt8.ofNat len <<< 4) else (0b00000111 : UInt8) ||| (UInt8.ofNat (len - 8) <<< 4)

mutual

/-- `Encoder for Value`, types/mod.rs:50-84, and for slices, small_array.rs:4-19. -/
def encode : Value → Option Bytes
  | .prim p => encodePrim p
  | .vec l => if l.length < 11 then do some (layoutArray l.length :: (← encodeList l)) else none

/-- The items of a slice, small_array.rs:13-17, or of a sequence of arguments. -/
def encodeList : List Value → Option Bytes
  | [] => some []
  | v :: l => do some ((← encode v) ++ (← encodeList l))

end

/-! ## Decoder -/

/-- `enum DecodeError`, abi-decoder/src/decoder.rs:8-42. `InvalidTypeKind` is never used. -/
inductive DecodeError where
  | missingTypeKind
  | notEnoughBytes
  deriving Repr, DecidableEq

/-- A decoder on a `Cursor`, abi-decoder/src/cursor.rs:12-15. -/
abbrev Dec (α : Type) := Bytes → Outcome DecodeError (α × Bytes)

/-- `enum TypeKind`, decoder.rs:14-29. -/
inductive Kind where
  | none_ | unit | bool | address | amount
  | int (w : Width) (signed : Bool)
  | array
  deriving Repr, DecidableEq

/-- The match of `peek_kind`, decoder.rs:342-397; `none` is a panic. -/
def kindOf (b : UInt8) : Option Kind :=
  if b = NONE then some .none_
  else if b = UNIT then some .unit
  else if b = BOOL_FALSE ∨ b = BOOL_TRUE then some .bool
  else if b = ADDRESS then some .address
  else if b ∈ AMOUNT then some .amount
  else if b = I8 then some (.int .w8 true)
  else if b = U8 then some (.int .w8 false)
  else if b ∈ I16 then some (.int .w16 true)
  else if b ∈ U16 then some (.int .w16 false)
  else if b ∈ I32 then some (.int .w32 true)
  else if b ∈ U32 then some (.int .w32 false)
  else if b ∈ I64 then some (.int .w64 true)
  else if b ∈ U64 then some (.int .w64 false)
  else if b ∈ ARR then some .array
  else none

/-- `peek_kind`, decoder.rs:338-400, with `peek`, 331-336. -/
def peekKind : Bytes → Outcome DecodeError Kind
  | [] => .err .notEnoughBytes
  | b :: _ => .unwrapOpt (kindOf b)

/-- `read_byte`, decoder.rs:296-301. -/
def readByte : Dec UInt8
  | [] => .err .notEnoughBytes
  | b :: r => .ok (b, r)

/-- `read_bytes`, decoder.rs:320-329, with cursor.rs:63-71. -/
def readBytes (n : Nat) : Dec Bytes := fun inp =>
  if n ≤ inp.length then .ok (inp.take n, inp.drop n) else .err .notEnoughBytes

/-- `read_num`, decoder.rs:303-318: big endian, padded with zeros on the left. The numbers of bytes are
1 to 8. -/
def readNum (n : Nat) : Dec Nat := fun inp => do
  let (bs, r) ← readBytes n inp
  .ok (beNat bs, r)

/-- The position of a marker in a list, counted from 1; `none` is a panic. -/
def sizeOf (l : List UInt8) (b : UInt8) : Outcome DecodeError Nat :=
  .unwrapOpt ((l.idxOf? b).map (· + 1))

/-- The number of bytes of an integer, decoder.rs:182, 198-202, 218-224 and 240-250. The markers of the
signed and the unsigned type are both accepted. -/
def intSize (chk : Bool) (w : Width) (b : UInt8) : Outcome DecodeError Nat :=
  match w with
  | .w8 => if chk ∧ ¬ (b = I8 ∨ b = U8) then .panic else .ok 1
  | .w16 => if b ∈ I16 then sizeOf I16 b else sizeOf U16 b
  | .w32 => if b ∈ I32 then sizeOf I32 b else sizeOf U32 b
  | .w64 => if b ∈ I64 then sizeOf I64 b else sizeOf U64 b

/-- `decode_primitive`, decoder.rs:87-108, with `decode_none` to `decode_u64`, 122-261; `chk` for the
debug assertions. -/
def decodePrim (chk : Bool) : Dec Value := fun inp => do
  let kind ← peekKind inp
  match kind with
  | .none_ =>
    let (b, r) ← readByte inp
    if chk ∧ b ≠ NONE then .panic else .ok (.prim .none_, r)
  | .unit =>
    let (b, r) ← readByte inp
    if chk ∧ b ≠ UNIT then .panic else .ok (.prim .unit, r)
  | .bool =>
    let (b, r) ← readByte inp
    if b = BOOL_FALSE then .ok (.prim (.bool false), r)
    else if b = BOOL_TRUE then .ok (.prim (.bool true), r)
    else .panic
  | .address =>
    let (b, r) ← readByte inp
    if chk ∧ b ≠ ADDRESS then .panic
    else do
      let (bs, r) ← readBytes 20 r
      if h : bs.length = 20 then .ok (.prim (.address ⟨bs, h⟩), r) else .panic
  | .amount =>
    let (b, r) ← readByte inp
    let n ← sizeOf AMOUNT b
    let (x, r) ← readNum n r
    .ok (.prim (.amount (BitVec.ofNat _ x)), r)
  | .int w s =>
    let (b, r) ← readByte inp
    let n ← intSize chk w b
    let (x, r) ← readNum n r
    .ok (.prim (.int w s (BitVec.ofNat _ x)), r)
  | .array => .panic

/-- The items of `decode_array`, decoder.rs:284-289, with `Vec::push`, sdk-std/src/vec.rs:50-59. -/
def decodeItems (chk : Bool) (cap : Nat) : Nat → List Value → Dec (List Value)
  | 0, acc, inp => .ok (acc, inp)
  | n + 1, acc, inp => do
    let (v, r) ← decodePrim chk inp
    if acc.length < cap then decodeItems chk cap n (acc ++ [v]) r else .panic

/-- `decode_array`, decoder.rs:263-294. The capacity of the vector is the marker itself. -/
def decodeArray (chk : Bool) : Dec Value := fun inp => do
  if inp = [] then .err .missingTypeKind
  else
    let (b, r) ← readByte inp
    let n ← sizeOf ARR b
    let (l, r) ← decodeItems chk b.toNat (n - 1) [] r
    .ok (.vec l, r)

/-- `decode_value`, decoder.rs:75-85, and `decode_composite`, 110-120. -/
def decodeValue (chk : Bool) : Dec Value := fun inp => do
  if inp = [] then .err .missingTypeKind
  else
    let kind ← peekKind inp
    match kind with
    | .array => decodeArray chk inp
    | _ => decodePrim chk inp

/-- `CallData::next`, calldata.rs:42-53: `none` at the end; errors become panics. -/
def next (chk : Bool) (inp : Bytes) : Outcome Empty (Option Value × Bytes) :=
  if inp = [] then .ok (none, inp)
  else
    match decodeValue chk inp with
    | .ok (v, r) => .ok (some v, r)
    | _ => .panic

/-- Calling `next` until the end, at most `n` times. -/
def nextAll (chk : Bool) : Nat → Bytes → Outcome Empty (List Value)
  | 0, _ => .ok []
  | n + 1, inp => do
    match ← next chk inp with
    | (none, _) => .ok []
    | (some v, r) => do
      let l ← nextAll chk n r
      .ok (v :: l)

end Svm.Abi
