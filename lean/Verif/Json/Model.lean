import Verif.Abi.Props

/-!
# Model of the JSON API: input data (crates/host/codec/src/api/json)

`inputdata.rs`, `serde_types.rs`, and `get_field` of `mod.rs`. The functions take parsed JSON: the text
parser and printer of `serde_json` are not modelled, and the printed text of a value is taken to parse
to the same value (call.rs:67 and 71 rely on this).

Serde's derived parsers are modelled on the values the documentation describes. An enumeration such as
`TySigPrim` is given as a string; that serde also accepts `{"bool": null}` for `"bool"` is left out.
-/

namespace Svm.JsonApi

open Svm.Codec (Str Addr utf8Valid utf8Run utf8Step)
open Svm.Abi (Width Prim Value)

/-! ## JSON values -/

/-- `serde_json::Value`. A number is an integer or a floating point number, of which the functions below
only ask whether it is an integer that fits (`as_i64`, `as_u64`). Keys of objects are distinct in the
code; the first one counts here. -/
inductive Json where
  | null
  | bool (b : Bool)
  | int (i : Int)
  | float (bits : BitVec 64)
  | str (s : Str)
  | arr (l : List Json)
  | obj (l : List (String × Json))

/-- `Value::as_bool`. -/
def Json.asBool : Json → Option Bool
  | .bool b => some b
  | _ => none

/-- `Value::as_i64`. -/
def Json.asI64 : Json → Option Int
  | .int i => if -2 ^ 63 ≤ i ∧ i < 2 ^ 63 then some i else none
  | _ => none

/-- `Value::as_u64`. -/
def Json.asU64 : Json → Option Int
  | .int i => if 0 ≤ i ∧ i < 2 ^ 64 then some i else none
  | _ => none

/-- `Value::as_array`. -/
def Json.asArray : Json → Option (List Json)
  | .arr l => some l
  | _ => none

/-- `Value::as_str`; what `String` is parsed from. -/
def Json.asStr : Json → Option Str
  | .str s => some s
  | _ => none

/-- `Value::as_object`. -/
def Json.asObject : Json → Option (List (String × Json))
  | .obj l => some l
  | _ => none

/-- The field of an object. -/
def Json.field (j : Json) (name : String) : Option Json := do (← j.asObject).lookup name

/-- `enum JsonError`, error.rs:5-32, without the errors of the text parser. -/
inductive JsonError where
  | missingField (name : String)
  | invalidField (path : String)
  | notAnObject
  deriving Repr, DecidableEq

/-- `get_field`, mod.rs:41-55; `parse` is the parser of the field's type. -/
def getField {α : Type} (parse : Json → Option α) (j : Json) (name : String) : Outcome JsonError α :=
  match j.asObject with
  | none => .err .notAnObject
  | some l => match l.lookup name with
    | none => .err (.missingField name)
    | some v => match parse v with
      | none => .err (.invalidField name)
      | some a => .ok a

/-! ## Hexadecimal strings -/

/-- A digit as `hex::encode_upper` writes it. -/
def hexDigit (n : Nat) : UInt8 := UInt8.ofNat (if n < 10 then 48 + n else 55 + n)

/-- `hex::encode_upper`. -/
def hexEncode : Bytes → Bytes
  | [] => []
  | b :: bs => hexDigit (b.toNat / 16) :: hexDigit (b.toNat % 16) :: hexEncode bs

/-- The digits `hex::decode` accepts. -/
def hexVal (c : UInt8) : Option Nat :=
  if 48 ≤ c ∧ c ≤ 57 then some (c.toNat - 48)
  else if 65 ≤ c ∧ c ≤ 70 then some (c.toNat - 55)
  else if 97 ≤ c ∧ c ≤ 102 then some (c.toNat - 87)
  else none

/-- `hex::decode`. -/
def hexDecode : Bytes → Option Bytes
  | [] => some []
  | [_] => none
  | a :: b :: r => do
    let x ← hexVal a
    let y ← hexVal b
    let bs ← hexDecode r
    some (UInt8.ofNat (16 * x + y) :: bs)

theorem hexDigit_lt {n : Nat} (h : n < 16) : hexDigit n < 0x80 := by
  unfold hexDigit
  rw [UInt8.lt_iff_toNat_lt]
  split <;> simp <;> omega

theorem utf8Valid_ascii : ∀ {bs : Bytes}, (∀ b ∈ bs, b < 0x80) → utf8Valid bs = true := by
  intro bs h
  have : utf8Run .start bs = some .start := by
    induction bs with
    | nil => rfl
    | cons b bs ih =>
      have hb : utf8Step .start b = some .start := by
        unfold utf8Step
        exact if_pos (h b (by simp))
      unfold utf8Run
      rw [hb]
      exact ih fun b hb => h b (by simp [hb])
  unfold utf8Valid
  rw [this]
  rfl

theorem hexEncode_ascii : ∀ (bs : Bytes), ∀ c ∈ hexEncode bs, c < 0x80
  | [], _, h => absurd h (by simp [hexEncode])
  | b :: bs, c, h => by
    have hb := b.toNat_lt
    simp only [hexEncode, List.mem_cons] at h
    rcases h with rfl | rfl | h
    · exact hexDigit_lt (by omega)
    · exact hexDigit_lt (by omega)
    · exact hexEncode_ascii bs c h

/-- `Serialize for HexBlob`, serde_types.rs:11-21. -/
def hexStr (bs : Bytes) : Str := ⟨hexEncode bs, utf8Valid_ascii (hexEncode_ascii bs)⟩

/-- `Deserialize for HexBlob<Vec<u8>>`, serde_types.rs:23-35. -/
def parseHex (j : Json) : Option Bytes := do hexDecode (← j.asStr).1

/-- `Deserialize for AddressWrapper`, serde_types.rs:53-68, and `TemplateAddrWrapper`, 80-95. -/
def parseAddr (j : Json) : Option Addr := do
  let bs ← parseHex j
  if h : bs.length = 20 then some ⟨bs, h⟩ else none

/-- `Serialize for AddressWrapper`, serde_types.rs:43-51, and `TemplateAddrWrapper`, 70-78. -/
def addrJson (a : Addr) : Json := .str (hexStr a.1)

/-! ## Types -/

/-- `enum TySigPrim`, inputdata.rs:249-263. -/
inductive PrimTy where
  | bool | amount | address
  | int (w : Width) (signed : Bool)
  deriving DecidableEq

/-- The names of the types: lower case, inputdata.rs:250, also written by `ty_sig_of_sdk_value`,
142-156. -/
def PrimTy.name : PrimTy → Str
  | .bool => ⟨[0x62, 0x6f, 0x6f, 0x6c], by decide⟩
  | .amount => ⟨[0x61, 0x6d, 0x6f, 0x75, 0x6e, 0x74], by decide⟩
  | .address => ⟨[0x61, 0x64, 0x64, 0x72, 0x65, 0x73, 0x73], by decide⟩
  | .int .w8 true => ⟨[0x69, 0x38], by decide⟩
  | .int .w8 false => ⟨[0x75, 0x38], by decide⟩
  | .int .w16 true => ⟨[0x69, 0x31, 0x36], by decide⟩
  | .int .w16 false => ⟨[0x75, 0x31, 0x36], by decide⟩
  | .int .w32 true => ⟨[0x69, 0x33, 0x32], by decide⟩
  | .int .w32 false => ⟨[0x75, 0x33, 0x32], by decide⟩
  | .int .w64 true => ⟨[0x69, 0x36, 0x34], by decide⟩
  | .int .w64 false => ⟨[0x75, 0x36, 0x34], by decide⟩

/-- All of them. -/
def PrimTy.all : List PrimTy :=
  [.bool, .int .w8 true, .int .w8 false, .int .w16 true, .int .w16 false, .int .w32 true,
   .int .w32 false, .int .w64 true, .int .w64 false, .amount, .address]

/-- `Deserialize for TySigPrim`, inputdata.rs:249-250. -/
def PrimTy.ofName (s : Str) : Option PrimTy := PrimTy.all.find? fun t => t.name = s

/-- `enum TySig`, inputdata.rs:203-208. `TySig::Array` with other than one type is `bad`: the code
asserts that there is one wherever it uses the array (inputdata.rs:214 and 293). -/
inductive TySig where
  | prim (p : PrimTy)
  | arr (t : TySig)
  | bad
  deriving DecidableEq

/-- `TySig::Array(types)`. -/
def TySig.array : List TySig → TySig
  | [t] => .arr t
  | _ => .bad

mutual

/-- `Deserialize for TySig`, inputdata.rs:203-208: a string or an array. -/
def TySig.ofJson : Json → Option TySig
  | .str s => (PrimTy.ofName s).map .prim
  | .arr l => (TySig.listOfJson l).map TySig.array
  | _ => none

/-- `Vec<TySig>`. -/
def TySig.listOfJson : List Json → Option (List TySig)
  | [] => some []
  | j :: l => do some ((← TySig.ofJson j) :: (← TySig.listOfJson l))

end

/-- `Deserialize for Vec<TySig>`. -/
def parseTypes (j : Json) : Option (List TySig) := do TySig.listOfJson (← j.asArray)

/-! ## Encoding -/

/-- `max_byte_size` of the primitives, inputdata.rs:231-243; the sizes are those of abi-encoder
(boolean.rs:23-25, address.rs:26-28, amount.rs:28-30, numeric.rs:67-69). -/
def PrimTy.maxByteSize : PrimTy → Nat
  | .bool => 1
  | .amount => 9
  | .address => 21
  | .int w s => Abi.numMaxByteSize w s

/-- The sum of sizes, stopping at the first error. -/
def sumSizes (f : Json → Outcome JsonError Nat) : List Json → Outcome JsonError Nat
  | [] => .ok 0
  | j :: l => do
    let a ← f j
    let b ← sumSizes f l
    .ok (a + b)

/-- The error of inputdata.rs:221-223, 285-287 and 298-300. -/
def badCalldata {α : Type} : Outcome JsonError α := .err (.invalidField "calldata")

/-- `TySig::value_byte_size`, inputdata.rs:211-246. -/
def TySig.valueByteSize : TySig → Json → Outcome JsonError Nat
  | .prim p, _ => .ok p.maxByteSize
  | .arr t, v => match v.asArray with
    | none => badCalldata
    | some l => do
      let n ← sumSizes t.valueByteSize l
      .ok (1 + n)
  | .bad, _ => .panic

/-- Whether an integer is in the range of a type: `N::try_from`. -/
def inRange (w : Width) (signed : Bool) (i : Int) : Prop :=
  if signed then -2 ^ (8 * w.bytes - 1) ≤ i ∧ i < 2 ^ (8 * w.bytes - 1)
  else 0 ≤ i ∧ i < 2 ^ (8 * w.bytes)

instance (w : Width) (s : Bool) (i : Int) : Decidable (inRange w s i) := by
  unfold inRange; infer_instance

/-- `sdk_value_from_json`, inputdata.rs:168-200. Only `u64` is read by `as_u64`, the other integers by
`as_i64`. -/
def primOfJson (j : Json) : PrimTy → Option Prim
  | .bool => j.asBool.map .bool
  | .amount => j.asU64.map fun i => .amount (BitVec.ofInt _ i)
  | .address => (parseAddr j).map .address
  | .int .w64 false => j.asU64.map fun i => .int .w64 false (BitVec.ofInt _ i)
  | .int w s => do
    let i ← j.asI64
    if inRange w s i then some (.int w s (BitVec.ofInt _ i)) else none

/-- The loop of `encode_array`, inputdata.rs:302-308, with a vector of capacity `cap`. -/
def encodeItems (f : Json → Outcome JsonError Value) (cap : Nat) :
    List Value → List Json → Outcome JsonError (List Value)
  | acc, [] => .ok acc
  | acc, j :: l => do
    let v ← f j
    if acc.length < cap then encodeItems f cap (acc ++ [v]) l else .panic

/-- `encode_value`, inputdata.rs:281-290, and `encode_array`, 292-313. -/
def TySig.encodeValue : TySig → Json → Outcome JsonError Value
  | .prim p, j => match primOfJson j p with
    | some x => .ok (.prim x)
    | none => badCalldata
  | .arr t, j => match j.asArray with
    | none => badCalldata
    | some l => do
      let vs ← encodeItems t.encodeValue 10 [] l
      .ok (.vec vs)
  | .bad, _ => .panic

/-- `struct DecodedInputData`, inputdata.rs:44-49. -/
structure InputData where
  abi : List TySig
  data : List Json

/-- `DecodedInputData::new`, inputdata.rs:52-64. -/
def InputData.new (j : Json) : Outcome JsonError InputData := do
  let abi ← getField parseTypes j "abi"
  let data ← getField Json.asArray j "data"
  if abi.length ≠ data.length then .err (.invalidField "data") else .ok { abi, data }

/-- `DecodedInputData::cap`, inputdata.rs:75-79. -/
def cap : List (TySig × Json) → Outcome JsonError Nat
  | [] => .ok 0
  | (t, j) :: l => do
    let a ← t.valueByteSize j
    let b ← cap l
    .ok (a + b)

/-- The loop of `DecodedInputData::encode`, inputdata.rs:85-86, with a vector of capacity `size`. -/
def encodeValues (size : Nat) : Bytes → List (TySig × Json) → Outcome JsonError Bytes
  | buf, [] => .ok buf
  | buf, (t, j) :: l => do
    let v ← t.encodeValue j
    let bs ← .unwrapOpt (Abi.encode v)
    if buf.length + bs.length ≤ size then encodeValues size (buf ++ bs) l else .panic

/-- `DecodedInputData::encode`, inputdata.rs:81-89. -/
def InputData.encode (d : InputData) : Outcome JsonError Bytes := do
  let size ← cap (d.abi.zip d.data)
  encodeValues size [] (d.abi.zip d.data)

/-- `encode_inputdata`, inputdata.rs:25-29. -/
def encodeInputData (j : Json) : Outcome JsonError Json := do
  let d ← InputData.new j
  let bs ← .unwrapRes d.encode
  .ok (.obj [("data", .str (hexStr bs))])

/-! ## Decoding -/

/-- `ty_sig_of_sdk_value` for primitives, inputdata.rs:142-156; `none` is a panic. -/
def primTyOf : Prim → Option PrimTy
  | .none_ => none
  | .unit => none
  | .bool _ => some .bool
  | .address _ => some .address
  | .amount _ => some .amount
  | .int w s _ => some (.int w s)

/-- The number an integer stands for. -/
def intOf (w : Width) (signed : Bool) (x : BitVec (8 * w.bytes)) : Int :=
  if signed then x.toInt else x.toNat

/-- `sdk_value_to_json` for primitives, inputdata.rs:115-128; `none` is a panic. -/
def primToJson : Prim → Option Json
  | .none_ => none
  | .unit => none
  | .bool b => some (.bool b)
  | .address a => some (addrJson a)
  | .amount x => some (.int x.toNat)
  | .int w s x => some (.int (intOf w s x))

mutual

/-- `ty_sig_of_sdk_value`, inputdata.rs:140-166. -/
def typeOf : Value → Option Json
  | .prim p => (primTyOf p).map fun t => .str t.name
  | .vec l => typeOfLast l

/-- The type of an array: none if it is empty, else that of its last item, inputdata.rs:157-164. -/
def typeOfLast : List Value → Option Json
  | [] => some .null
  | [v] => (typeOf v).map fun t => .arr [t]
  | _ :: v :: l => typeOfLast (v :: l)

end

mutual

/-- `sdk_value_to_json`, inputdata.rs:113-136. -/
def valueToJson : Value → Option Json
  | .prim p => primToJson p
  | .vec l => (valuesToJson l).map .arr

/-- The items of an array, inputdata.rs:129-134. -/
def valuesToJson : List Value → Option (List Json)
  | [] => some []
  | v :: l => do some ((← valueToJson v) :: (← valuesToJson l))

end

/-- The types of a list of values. -/
def typesOf : List Value → Option (List Json)
  | [] => some []
  | v :: l => do some ((← typeOf v) :: (← typesOf l))

/-- `calldata_to_json`, inputdata.rs:92-102, and `decode_raw_input`, 31-34. Every call of `next` that
returns a value consumes at least a byte, so that the loop ends within as many turns as there are
bytes. -/
def calldataToJson (chk : Bool) (bs : Bytes) : Outcome JsonError Json := do
  let vs ← .unwrapRes (Abi.nextAll chk bs.length bs)
  let abi ← .unwrapOpt (typesOf vs)
  let data ← .unwrapOpt (valuesToJson vs)
  .ok (.obj [("abi", .arr abi), ("data", .arr data)])

/-- `decode_inputdata`, inputdata.rs:37-42. -/
def decodeInputData (chk : Bool) (j : Json) : Outcome JsonError Json := do
  let bs ← getField parseHex j "data"
  calldataToJson chk bs

end Svm.JsonApi
