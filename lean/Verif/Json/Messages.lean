import Verif.Json.RoundTrip
import Verif.Codec.Props

/-!
# C87 and C88: calls and spawns as JSON

`crates/host/codec/src/api/json/call.rs` and `spawn.rs`.
-/

namespace Svm.JsonApi

open Svm.Codec (Str Addr Transaction SpawnAccount encTransaction decTransaction encSpawn decSpawn)
open Svm.Abi (Width Prim Value)

/-! ## Model -/

/-- `u16` parsed from JSON. -/
def parseU16 : Json → Option (BitVec 16)
  | .int i => if 0 ≤ i ∧ i < 65536 then some (BitVec.ofInt _ i) else none
  | _ => none

/-- `enum EncodedOrDecodedCalldata`, call.rs:85-91. -/
inductive Arg where
  | encoded (bs : Bytes)
  | decoded (d : InputData)

/-- The derived parser of `DecodedInputData`, inputdata.rs:44-49: an object with the fields, or an array
of the two. It does not compare the lengths. -/
def parseInputData : Json → Option InputData
  | .obj l => do
    let abi ← parseTypes (← l.lookup "abi")
    let data ← (← l.lookup "data").asArray
    some { abi, data }
  | .arr [a, d] => do
    let abi ← parseTypes a
    let data ← d.asArray
    some { abi, data }
  | _ => none

/-- `Deserialize for EncodedOrDecodedCalldata`, call.rs:85-91: the first that matches. -/
def parseArg (j : Json) : Option Arg :=
  match parseHex j with
  | some bs => some (.encoded bs)
  | none => (parseInputData j).map .decoded

/-- `EncodedOrDecodedCalldata::encode`, call.rs:93-100. -/
def Arg.encode : Arg → Outcome JsonError Bytes
  | .encoded bs => .ok bs
  | .decoded d => .unwrapRes d.encode

/-- `encode_call_raw`, call.rs:39-50. The fields of the structure are computed in this order. -/
def encodeCallRaw (j : Json) : Outcome JsonError Bytes := do
  let version ← getField parseU16 j "version"
  let target ← getField parseAddr j "target"
  let funcName ← getField Json.asStr j "func_name"
  let varg ← getField parseArg j "verifydata"
  let verifydata ← varg.encode
  let carg ← getField parseArg j "calldata"
  let calldata ← carg.encode
  .unwrapOpt (encTransaction { version, target, funcName, verifydata, calldata })

/-- `encode_call`, call.rs:31-35. -/
def encodeCall (j : Json) : Outcome JsonError Json := do
  let bs ← encodeCallRaw j
  .ok (.obj [("data", .str (hexStr bs))])

/-- `Serialize for TySig`, inputdata.rs:203-208. The value `bad` is not shown as in the code, but no
decoded input data contains it. -/
def TySig.toJson : TySig → Json
  | .prim p => .str p.name
  | .arr t => .arr [t.toJson]
  | .bad => .null

/-- `Serialize for DecodedInputData`, inputdata.rs:44-49. -/
def InputData.toJson (d : InputData) : Json :=
  .obj [("abi", .arr (d.abi.map TySig.toJson)), ("data", .arr d.data)]

/-- The input data of a decoded call, call.rs:66-72: it is shown, and parsed again. -/
def showArg (chk : Bool) (bs : Bytes) : Outcome JsonError Json := do
  let k ← .unwrapRes (calldataToJson chk bs)
  let d ← .unwrapRes (InputData.new k)
  .ok d.toJson

/-- `decode_call`, call.rs:60-81. The path in the error is the printed JSON. -/
def decodeCall (chk : Bool) (j : Json) : Outcome JsonError Json := do
  let bs ← getField parseHex j "data"
  let tx ← match decTransaction bs with
    | .ok (tx, _) => .ok tx
    | .err _ => .err (.invalidField "{\"data\":null}")
    | .panic => .panic
  let verifydata ← showArg chk tx.verifydata
  let calldata ← showArg chk tx.calldata
  .ok (.obj [("version", .int tx.version.toNat), ("target", addrJson tx.target),
    ("func_name", .str tx.funcName), ("verifydata", verifydata), ("calldata", calldata)])

/-- `encode_spawn`, spawn.rs:20-37. -/
def encodeSpawnRaw (j : Json) : Outcome JsonError Bytes := do
  let version ← getField parseU16 j "version"
  let templateAddr ← getField parseAddr j "template"
  let name ← getField Json.asStr j "name"
  let ctorName ← getField Json.asStr j "ctor_name"
  let carg ← getField parseArg j "calldata"
  let calldata ← carg.encode
  .unwrapOpt (encSpawn { version, templateAddr, name, ctorName, calldata })

/-- `decode_spawn`, spawn.rs:41-56. -/
def decodeSpawn (chk : Bool) (j : Json) : Outcome JsonError Json := do
  let bs ← getField parseHex j "data"
  let (s, _) ← .unwrapRes (decSpawn bs)
  let calldata ← .unwrapRes (calldataToJson chk s.calldata)
  .ok (.obj [("version", .int s.version.toNat), ("template", addrJson s.templateAddr),
    ("name", .str s.name), ("ctor_name", .str s.ctorName), ("calldata", calldata)])

/-! ## Lemmas -/

theorem asStr_some {j : Json} {s : Str} : j.asStr = some s ↔ j = .str s := by
  cases j with
  | str k => exact ⟨fun h => by cases h; rfl, fun h => by cases h; rfl⟩
  | _ => exact ⟨fun h => (by cases h), fun h => (by cases h)⟩

theorem parseU16_some {j : Json} {x : BitVec 16} (h : parseU16 j = some x) : j = .int x.toNat := by
  cases j with
  | int i =>
    unfold parseU16 at h
    dsimp only at h
    split at h
    · cases h
      rw [show (((BitVec.ofInt 16 i).toNat : Nat) : Int) = i by rw [BitVec.toNat_ofInt]; omega]
    · cases h
  | _ => cases h

theorem parseAddr_some {j : Json} {a : Addr} (h : parseAddr j = some a) : InUpperCase j (addrJson a) := by
  have : primOfJson j .address = some (.address a) := by
    change (parseAddr j).map Prim.address = _
    rw [h]
    rfl
  obtain ⟨-, j', h1, h2⟩ := primTyOf_primOfJson this
  cases h1
  exact h2

theorem toJson_of_shown {v : Value} {a : Json} {t : TySig} (hf : Abi.Flat v) (h : typeOf v = some a)
    (ht : TySig.ofJson a = some t) : t.toJson = a := by
  have prim : ∀ p a, typeOf (.prim p) = some a → ∃ q, a = .str (PrimTy.name q) := fun p a h => by
    unfold typeOf at h
    obtain ⟨q, -, rfl⟩ := Option.map_eq_some_iff.1 h
    exact ⟨q, rfl⟩
  cases v with
  | prim p =>
    obtain ⟨q, rfl⟩ := prim p a h
    rw [ofJson_name] at ht
    cases ht
    rfl
  | vec l =>
    unfold typeOf at h
    by_cases hl : l = []
    · subst hl
      unfold typeOfLast at h
      cases h
      unfold TySig.ofJson at ht
      cases ht
    · obtain ⟨v, hv, ty, h1, rfl⟩ := typeOfLast_ok hl h
      have hp : ∀ v ∈ l, ∃ p, v = .prim p := by cases hf; assumption
      obtain ⟨p, rfl⟩ := hp v hv
      obtain ⟨q, rfl⟩ := prim p ty h1
      unfold TySig.ofJson TySig.listOfJson at ht
      rw [ofJson_name] at ht
      unfold TySig.listOfJson at ht
      cases ht
      rfl

/-- Parsing what is shown of input data: refused if an array is empty, otherwise it is the same. -/
theorem new_shown {vs : List Value} {abi data : List Json} (hf : ∀ v ∈ vs, Abi.Flat v)
    (ha : typesOf vs = some abi) (hd : valuesToJson vs = some data) :
    (.vec [] ∈ vs → InputData.new (.obj [("abi", .arr abi), ("data", .arr data)]) =
        .err (.invalidField "abi")) ∧
      (.vec [] ∉ vs → ∃ d, InputData.new (.obj [("abi", .arr abi), ("data", .arr data)]) = .ok d ∧
        d.toJson = .obj [("abi", .arr abi), ("data", .arr data)]) := by
  constructor
  · intro he
    have : TySig.listOfJson abi = none := by
      clear hd hf
      induction vs generalizing abi with
      | nil => cases he
      | cons v vs ih =>
        unfold typesOf at ha
        obtain ⟨a, ha1, ha⟩ := opt_bind ha
        obtain ⟨as, ha2, ha⟩ := opt_bind ha
        cases ha
        unfold TySig.listOfJson
        rcases List.mem_cons.1 he with rfl | he
        · unfold typeOf typeOfLast at ha1
          cases ha1
          unfold TySig.ofJson
          rfl
        · rw [ih ha2 he]
          cases TySig.ofJson a <;> rfl
    unfold InputData.new
    rw [getField_invalid (v := .arr abi) rfl this]
    rfl
  · intro he
    have : ∃ ts, TySig.listOfJson abi = some ts ∧ ts.map TySig.toJson = abi ∧
        ts.length = data.length := by
      induction vs generalizing abi data with
      | nil =>
        unfold typesOf at ha
        unfold valuesToJson at hd
        cases ha; cases hd
        exact ⟨[], by unfold TySig.listOfJson; rfl, rfl, rfl⟩
      | cons v vs ih =>
        unfold typesOf at ha
        unfold valuesToJson at hd
        obtain ⟨a, ha1, ha⟩ := opt_bind ha
        obtain ⟨as, ha2, ha⟩ := opt_bind ha
        cases ha
        obtain ⟨d, hd1, hd⟩ := opt_bind hd
        obtain ⟨ds, hd2, hd⟩ := opt_bind hd
        cases hd
        obtain ⟨ts, e1, e2, e3⟩ := ih (fun v hv => hf v (by simp [hv])) ha2 hd2 (by simp_all)
        have : ∃ t, TySig.ofJson a = some t := by
          have hfv := hf v (by simp)
          cases v with
          | prim p =>
            unfold typeOf at ha1
            obtain ⟨t, ht, rfl⟩ := Option.map_eq_some_iff.1 ha1
            exact ⟨_, ofJson_name t⟩
          | vec l =>
            have hl : l ≠ [] := fun h => he (by rw [h]; exact List.mem_cons_self)
            unfold typeOf at ha1
            obtain ⟨v, hv, ty, h1, rfl⟩ := typeOfLast_ok hl ha1
            have hp : ∀ v ∈ l, ∃ p, v = .prim p := by cases hfv; assumption
            obtain ⟨p, rfl⟩ := hp v hv
            unfold typeOf at h1
            obtain ⟨t, ht, rfl⟩ := Option.map_eq_some_iff.1 h1
            refine ⟨.arr (.prim t), ?_⟩
            unfold TySig.ofJson TySig.listOfJson
            rw [ofJson_name]
            unfold TySig.listOfJson
            rfl
        obtain ⟨t, ht⟩ := this
        refine ⟨t :: ts, ?_, ?_, by simp [e3]⟩
        · unfold TySig.listOfJson
          rw [ht, e1]
          rfl
        · rw [List.map_cons, e2, toJson_of_shown (hf v (by simp)) ha1 ht]
    obtain ⟨ts, e1, e2, e3⟩ := this
    refine ⟨{ abi := ts, data }, new_ok.2 ⟨⟨abi, rfl, e1⟩, rfl, e3⟩, ?_⟩
    unfold InputData.toJson
    rw [e2]

/-- What `decode_call` shows of input data: nothing if it contains an empty array. -/
theorem showArg_eq (chk : Bool) (bs : Bytes) :
    (∀ k, calldataToJson chk bs = .ok k → (∃ vs, Abi.nextAll chk bs.length bs = .ok vs ∧ .vec [] ∈ vs) →
        showArg chk bs = .panic) ∧
      (∀ k, calldataToJson chk bs = .ok k → (¬ ∃ vs, Abi.nextAll chk bs.length bs = .ok vs ∧ .vec [] ∈ vs) →
        showArg chk bs = .ok k) ∧
      ((∀ k, calldataToJson chk bs ≠ .ok k) → showArg chk bs = .panic) := by
  have hp := (C86_shown chk bs).2
  by_cases hk : ∃ k, calldataToJson chk bs = .ok k
  · obtain ⟨k, hk⟩ := hk
    have hk0 := hk
    unfold calldataToJson at hk
    obtain ⟨vs, hv', h1⟩ := bind_ok hk
    obtain ⟨abi, ha', h2⟩ := bind_ok h1
    obtain ⟨data, hd', h3⟩ := bind_ok h2
    cases h3
    have hv := unwrapRes_ok hv'
    obtain ⟨n1, n2⟩ := new_shown (fun v h => (nextAll_ok hv v h).1) (unwrapOpt_ok ha') (unwrapOpt_ok hd')
    refine ⟨fun k hk' ⟨ws, hw, he⟩ => ?_, fun k hk' he => ?_, fun h => absurd hk0 (h _)⟩
    · rw [hv] at hw
      cases hw
      unfold showArg
      rw [hk0]
      change ((Outcome.unwrapRes (InputData.new _) : Outcome JsonError _) >>= _) = _
      rw [n1 he]
      rfl
    · rw [hk0] at hk'
      cases hk'
      obtain ⟨d, hd1, hd2⟩ := n2 fun h => he ⟨vs, hv, h⟩
      unfold showArg
      rw [hk0]
      change ((Outcome.unwrapRes (InputData.new _) : Outcome JsonError _) >>= _) = _
      rw [hd1]
      change Outcome.ok d.toJson = _
      rw [hd2]
  · have := hp hk
    refine ⟨fun k h => absurd ⟨k, h⟩ hk, fun k h => absurd ⟨k, h⟩ hk, fun _ => ?_⟩
    unfold showArg
    rw [this]
    rfl

/-! ## C87 -/

/-- Input data given as an object of types and items. -/
def ArgObject (j abi data : Json) : Prop := j.field "abi" = some abi ∧ j.field "data" = some data

/-- Two ways to write a call: the same numbers and names, addresses alike up to the case of digits, and
input data of the same types and items. -/
def SameCall (j k : Json) : Prop :=
  k.field "version" = j.field "version" ∧ k.field "func_name" = j.field "func_name" ∧
  (∃ a b, j.field "target" = some a ∧ k.field "target" = some b ∧ InUpperCase a b) ∧
  ∀ name, name = "verifydata" ∨ name = "calldata" → ∃ a b, j.field name = some a ∧ k.field name = some b ∧
    ∀ abi data, ArgObject a abi data → ∃ data', ArgObject b abi data' ∧ InUpperCase data data'

/-- C87: decoding an encoded call returns the call. -/
def C87_claim : Prop := ∀ (chk : Bool) (j out : Json), encodeCall j = .ok out →
  ∃ k, decodeCall chk out = .ok k ∧ SameCall j k

/-- Input data that comes back: an object whose lists have the same length, and whose arrays are not
empty, do not have eight items and contain no arrays. -/
def PlainArg (a : Json) : Prop := ∃ as ds, ArgObject a (.arr as) (.arr ds) ∧ as.length = ds.length ∧
  ∀ l, .arr l ∈ ds → l ≠ [] ∧ l.length ≠ 8 ∧ ∀ m, .arr m ∉ l

theorem field_obj {j v : Json} {name : String} (h : j.field name = some v) :
    ∃ l, j = .obj l ∧ l.lookup name = some v := by
  unfold Json.field at h
  obtain ⟨l, hl, h⟩ := opt_bind h
  cases j with
  | obj _ => cases hl; exact ⟨_, rfl, h⟩
  | _ => cases hl

/-- The bytes of plain input data. -/
theorem plainArg_encode {a : Json} {g : Arg} {bs : Bytes} (hp : PlainArg a) (ha : parseArg a = some g)
    (h : g.encode = .ok bs) : encodeInputData a = .ok (.obj [("data", .str (hexStr bs))]) := by
  obtain ⟨as, ds, ⟨h1, h2⟩, hl, -⟩ := hp
  obtain ⟨l, rfl, h1'⟩ := field_obj h1
  have h2' : l.lookup "data" = some (.arr ds) := h2
  change (match (none : Option Bytes) with
    | some bs => some (Arg.encoded bs)
    | none => (parseInputData (.obj l)).map Arg.decoded) = some g at ha
  dsimp only at ha
  obtain ⟨d, hd, rfl⟩ := Option.map_eq_some_iff.1 ha
  unfold parseInputData at hd
  dsimp only at hd
  rw [h1', h2'] at hd
  obtain ⟨ts, hts, hd⟩ := opt_bind (show (parseTypes (.arr as) >>= _) = some d from hd)
  cases hd
  obtain ⟨vs, hv, hb⟩ := encode_ok_iff.1 (unwrapRes_ok h)
  refine encodeInputData_ok.2 ⟨ts, ds, vs, bs, ⟨⟨as, h1, hts⟩, h2, ?_⟩, hv, hb, rfl⟩
  rw [listOfJson_length hts, hl]

/-- What `decode_call` shows of plain input data. -/
theorem plainArg_show (chk : Bool) {a : Json} {g : Arg} {bs : Bytes} (hp : PlainArg a)
    (ha : parseArg a = some g) (h : g.encode = .ok bs) :
    ∃ b, showArg chk bs = .ok b ∧
      ∀ abi data, ArgObject a abi data → ∃ data', ArgObject b abi data' ∧ InUpperCase data data' := by
  have he := plainArg_encode hp ha h
  obtain ⟨as, ds, hao, hl, hpl⟩ := hp
  obtain ⟨abi, data, data', g1, g2, g3, g4⟩ := C84_roundtrip_partial chk he fun ds' l hds' hm => by
    rw [hao.2] at hds'
    cases hds'
    exact hpl l hm
  rw [hao.1] at g1
  rw [hao.2] at g2
  cases g1
  cases g2
  rw [decode_hex] at g4
  refine ⟨_, (showArg_eq chk bs).2.1 _ g4 ?_, fun abi' data2 hao2 => ?_⟩
  · rintro ⟨vs, hvs, hmem⟩
    have := C86_empty g4 hvs hmem
    -- the types shown are those given, which the encoder accepts
    obtain ⟨ts, ds2, vs2, bs2, ⟨⟨as2, k1, k2⟩, -, -⟩, -⟩ := encodeInputData_ok.1 he
    rw [hao.1] at k1
    cases k1
    unfold encodeInputData InputData.new at this
    rw [getField_ok.2 ⟨.arr as, rfl, parseTypes_some.2 ⟨as, rfl, k2⟩⟩, Outcome.ok_bind] at this
    cases hdat : getField Json.asArray (.obj [("abi", .arr as), ("data", data')]) "data" with
    | panic => exact getField_ne_panic hdat
    | err e =>
      rw [hdat] at this
      cases this
      cases g3 with
      | arr hl' h' => cases hdat
    | ok dd =>
      rw [hdat, Outcome.ok_bind] at this
      split at this
      · injection this with this
        injection this with this
        exact absurd this (by decide)
      · rw [Outcome.ok_bind] at this
        revert this
        cases ({ abi := ts, data := dd } : InputData).encode <;> nofun
  · obtain ⟨e1, e2⟩ := hao2
    rw [hao.1] at e1
    rw [hao.2] at e2
    cases e1
    cases e2
    exact ⟨data', ⟨rfl, rfl⟩, g3⟩

/-- The parts of an encoded call. -/
theorem encodeCall_ok {j out : Json} (h : encodeCall j = .ok out) :
    ∃ tx varg carg bs, getField parseU16 j "version" = .ok tx.version ∧
      getField parseAddr j "target" = .ok tx.target ∧ getField Json.asStr j "func_name" = .ok tx.funcName ∧
      getField parseArg j "verifydata" = .ok varg ∧ varg.encode = .ok tx.verifydata ∧
      getField parseArg j "calldata" = .ok carg ∧ carg.encode = .ok tx.calldata ∧
      encTransaction tx = some bs ∧ out = .obj [("data", .str (hexStr bs))] := by
  unfold encodeCall at h
  obtain ⟨bs, h1, h2⟩ := bind_ok h
  cases h2
  unfold encodeCallRaw at h1
  obtain ⟨version, e1, h3⟩ := bind_ok h1
  obtain ⟨target, e2, h4⟩ := bind_ok h3
  obtain ⟨funcName, e3, h5⟩ := bind_ok h4
  obtain ⟨varg, e4, h6⟩ := bind_ok h5
  obtain ⟨verifydata, e5, h7⟩ := bind_ok h6
  obtain ⟨carg, e6, h8⟩ := bind_ok h7
  obtain ⟨calldata, e7, h9⟩ := bind_ok h8
  exact ⟨⟨version, target, funcName, verifydata, calldata⟩, varg, carg, bs, e1, e2, e3, e4, e5, e6, e7,
    unwrapOpt_ok h9, rfl⟩

theorem decode_enc_transaction {tx : Transaction} {bs : Bytes} (h : encTransaction tx = some bs) :
    decTransaction bs = .ok (tx, []) := by
  have := Codec.roundTrip_transaction tx bs [] h
  rwa [List.append_nil] at this

/-- **C87, partial.** Decoding an encoded call returns the call if its two lists of input data are given
as objects, plain ones. -/
theorem C87_roundtrip_partial (chk : Bool) {j out a c : Json} (h : encodeCall j = .ok out)
    (hv : j.field "verifydata" = some a) (hc : j.field "calldata" = some c) (hpa : PlainArg a)
    (hpc : PlainArg c) : ∃ k, decodeCall chk out = .ok k ∧ SameCall j k := by
  obtain ⟨tx, varg, carg, bs, e1, e2, e3, e4, e5, e6, e7, e8, rfl⟩ := encodeCall_ok h
  obtain ⟨v1, hv1, hp1⟩ := getField_ok.1 e1
  obtain ⟨v2, hv2, hp2⟩ := getField_ok.1 e2
  obtain ⟨v3, hv3, hp3⟩ := getField_ok.1 e3
  obtain ⟨v4, hv4, hp4⟩ := getField_ok.1 e4
  obtain ⟨v6, hv6, hp6⟩ := getField_ok.1 e6
  rw [hv] at hv4
  cases hv4
  rw [hc] at hv6
  cases hv6
  obtain ⟨b, s1, s2⟩ := plainArg_show chk hpa hp4 e5
  obtain ⟨d, t1, t2⟩ := plainArg_show chk hpc hp6 e7
  refine ⟨.obj [("version", .int tx.version.toNat), ("target", addrJson tx.target),
    ("func_name", .str tx.funcName), ("verifydata", b), ("calldata", d)], ?_, ?_⟩
  · unfold decodeCall
    rw [getField_ok.2 ⟨_, rfl, parseHex_hexStr bs⟩, Outcome.ok_bind, decode_enc_transaction e8]
    dsimp only
    rw [Outcome.ok_bind, s1, Outcome.ok_bind, t1]
    rfl
  · refine ⟨?_, ?_, ⟨v2, _, hv2, rfl, parseAddr_some hp2⟩, fun name hn => ?_⟩
    · rw [hv1, parseU16_some hp1]
      rfl
    · rw [hv3, asStr_some.1 hp3]
      rfl
    · rcases hn with rfl | rfl
      · exact ⟨a, b, hv, rfl, s2⟩
      · exact ⟨c, d, hc, rfl, t2⟩

/-- **C87 fails**: a call is encoded although the numbers of types and of items of its input data differ.
What exceeds the other is dropped. `encode_inputdata` refuses the same object. -/
theorem C87_mismatch {a : Json} {as ds : List Json} {ts : List TySig} (ha : ArgObject a (.arr as) (.arr ds))
    (hts : TySig.listOfJson as = some ts) (hl : as.length ≠ ds.length) :
    encodeInputData a = .err (.invalidField "data") ∧
      ∃ g, parseArg a = some g ∧ g.encode = (Arg.decoded
        { abi := ts.take (min as.length ds.length), data := ds.take (min as.length ds.length) }).encode := by
  obtain ⟨h1, h2⟩ := ha
  have htl := listOfJson_length hts
  constructor
  · unfold encodeInputData InputData.new
    rw [getField_ok.2 ⟨_, h1, parseTypes_some.2 ⟨as, rfl, hts⟩⟩, Outcome.ok_bind,
      getField_ok.2 ⟨_, h2, asArray_some.2 rfl⟩, Outcome.ok_bind, if_pos (by rw [htl]; exact hl)]
    rfl
  · obtain ⟨l, rfl, h1'⟩ := field_obj h1
    have h2' : l.lookup "data" = some (.arr ds) := h2
    refine ⟨.decoded { abi := ts, data := ds }, ?_, ?_⟩
    · change (parseInputData (.obj l)).map Arg.decoded = _
      unfold parseInputData
      dsimp only
      rw [h1', h2']
      change Option.map Arg.decoded (parseTypes (.arr as) >>= _) = _
      rw [show parseTypes (.arr as) = some ts from hts]
      rfl
    · unfold Arg.encode InputData.encode
      dsimp only
      have : (ts.take (min as.length ds.length)).zip (ds.take (min as.length ds.length)) = ts.zip ds := by
        change List.zipWith Prod.mk _ _ = List.zipWith Prod.mk _ _
        rw [← List.take_zipWith, List.take_of_length_le]
        rw [List.length_zipWith, htl]
      rw [this]

/-! ### Examples -/

/-- An address of twenty bytes `0xAB`, in lower case. -/
def exAddr : Str := ⟨(List.replicate 20 [0x61, 0x62]).flatten, by decide +kernel⟩

/-- The name `do`. -/
def exName : Str := ⟨[0x64, 0x6f], by decide⟩

/-- A call with the given input data, and empty verify data. -/
def exCall (calldata : Json) : Json :=
  .obj [("version", .int 0), ("target", .str exAddr), ("func_name", .str exName),
    ("verifydata", .obj [("abi", .arr []), ("data", .arr [])]), ("calldata", calldata)]

/-- `{"abi": ["u8", "u8"], "data": [7]}`. -/
def exShort : Json := .obj [("abi", .arr [.str (PrimTy.name (.int .w8 false)), .str (PrimTy.name (.int .w8 false))]),
  ("data", .arr [.int 7])]

/-- The transaction of that call. -/
def exTx : Transaction :=
  { version := 0, target := ⟨List.replicate 20 0xAB, rfl⟩, funcName := exName, verifydata := [],
    calldata := [0x12, 7] }

theorem exCall_raw : encodeCallRaw (exCall exShort) = .unwrapOpt (encTransaction exTx) := by rfl

theorem exCall_shows (chk : Bool) (bs : Bytes) (h : encTransaction exTx = some bs) :
    decodeCall chk (.obj [("data", .str (hexStr bs))]) =
      .ok (.obj [("version", .int 0), ("target", addrJson exTx.target), ("func_name", .str exName),
        ("verifydata", .obj [("abi", .arr []), ("data", .arr [])]),
        ("calldata", .obj [("abi", .arr [.str (PrimTy.name (.int .w8 false))]), ("data", .arr [.int 7])])]) := by
  unfold decodeCall
  rw [getField_ok.2 ⟨_, rfl, parseHex_hexStr bs⟩, Outcome.ok_bind, decode_enc_transaction h]
  cases chk <;> rfl

/-- **C87 fails.** -/
theorem C87_claim_false : ¬ C87_claim := by
  intro hc
  obtain ⟨bs, hb, -⟩ := (Codec.C38_transaction_lossless exTx []).1 (by decide)
  have h1 : encodeCall (exCall exShort) = .ok (.obj [("data", .str (hexStr bs))]) := by
    unfold encodeCall
    rw [exCall_raw, hb]
    rfl
  obtain ⟨k, h2, h3⟩ := hc true _ _ h1
  rw [exCall_shows true bs hb] at h2
  cases h2
  obtain ⟨-, -, -, h4⟩ := h3
  obtain ⟨a, b, ha, hb, h5⟩ := h4 "calldata" (.inr rfl)
  cases ha
  cases hb
  obtain ⟨data', ⟨h6, -⟩, -⟩ := h5 _ _ ⟨rfl, rfl⟩
  injection h6 with h6
  injection h6 with h6
  injection h6 with _ h6
  cases h6

/-- `{"abi": ["u8"], "data": [7]}`. -/
def exPlain : Json := .obj [("abi", .arr [.str (PrimTy.name (.int .w8 false))]), ("data", .arr [.int 7])]

theorem exPlain_plain : PlainArg exPlain :=
  ⟨_, _, ⟨rfl, rfl⟩, rfl, fun l h => by simp at h⟩

/-- `C87_roundtrip_partial` applies to a call with plain input data. -/
example : ∃ bs, encodeCall (exCall exPlain) = .ok (.obj [("data", .str (hexStr bs))]) ∧
    ∃ k, decodeCall true (.obj [("data", .str (hexStr bs))]) = .ok k ∧ SameCall (exCall exPlain) k := by
  obtain ⟨bs, hb, -⟩ := (Codec.C38_transaction_lossless exTx []).1 (by decide)
  have h1 : encodeCall (exCall exPlain) = .ok (.obj [("data", .str (hexStr bs))]) := by
    unfold encodeCall
    rw [show encodeCallRaw (exCall exPlain) = .unwrapOpt (encTransaction exTx) by rfl, hb]
    rfl
  exact ⟨bs, h1, C87_roundtrip_partial true h1 rfl rfl ⟨_, _, ⟨rfl, rfl⟩, rfl, fun l h => by simp at h⟩
    exPlain_plain⟩

/-! ## C88 -/

/-- C88: whatever bytes they are given, the decoders of calls and of spawns return JSON or an error. -/
def C88_claim : Prop := ∀ (chk : Bool) (bs : Bytes),
  decodeCall chk (.obj [("data", .str (hexStr bs))]) ≠ .panic ∧
    decodeSpawn chk (.obj [("data", .str (hexStr bs))]) ≠ .panic

/-- Input data that can be shown: the ABI decoder returns all values, none of them `None` or the unit
value. -/
def CanShow (chk : Bool) (bs : Bytes) (vs : List Value) : Prop :=
  Abi.nextAll chk bs.length bs = .ok vs ∧ ∀ v ∈ vs, Showable v

theorem showArg_isOk (chk : Bool) (bs : Bytes) :
    ((∃ k, showArg chk bs = .ok k) ↔ ∃ vs, CanShow chk bs vs ∧ .vec [] ∉ vs) ∧
      ((¬ ∃ k, showArg chk bs = .ok k) → showArg chk bs = .panic) := by
  obtain ⟨s1, s2, s3⟩ := showArg_eq chk bs
  have hs := (C86_shown chk bs).1
  by_cases hk : ∃ k, calldataToJson chk bs = .ok k
  · obtain ⟨vs, hv, hvs⟩ := hs.1 hk
    obtain ⟨k, hk⟩ := hk
    by_cases he : .vec [] ∈ vs
    · have hp := s1 k hk ⟨vs, hv, he⟩
      refine ⟨⟨fun ⟨k, h⟩ => (by rw [hp] at h; cases h), fun ⟨ws, ⟨hw, _⟩, hn⟩ => ?_⟩, fun _ => hp⟩
      rw [hv] at hw
      cases hw
      exact absurd he hn
    · have hp := s2 k hk fun ⟨ws, hw, h⟩ => by
        rw [hv] at hw
        cases hw
        exact he h
      exact ⟨⟨fun _ => ⟨vs, ⟨hv, hvs⟩, he⟩, fun _ => ⟨k, hp⟩⟩, fun h => absurd ⟨k, hp⟩ h⟩
  · have hp := s3 fun k h => hk ⟨k, h⟩
    refine ⟨⟨fun ⟨k, h⟩ => (by rw [hp] at h; cases h), fun ⟨ws, hw, _⟩ => ?_⟩, fun _ => hp⟩
    exact absurd (hs.2 ⟨ws, hw⟩) hk

/-- **C88, partial.** Of the bytes of a call, those that are no transaction are refused with an error.
The decoder panics when it cannot show the input data of the transaction, or when that contains an empty
array. -/
theorem C88_call_partial (chk : Bool) (bs : Bytes) :
    ((∃ e, decodeCall chk (.obj [("data", .str (hexStr bs))]) = .err e) ↔
      ∀ tx r, decTransaction bs ≠ .ok (tx, r)) ∧
    ((∃ k, decodeCall chk (.obj [("data", .str (hexStr bs))]) = .ok k) ↔
      ∃ tx r vs ws, decTransaction bs = .ok (tx, r) ∧ CanShow chk tx.verifydata vs ∧ .vec [] ∉ vs ∧
        CanShow chk tx.calldata ws ∧ .vec [] ∉ ws) := by
  unfold decodeCall
  rw [getField_ok.2 ⟨_, rfl, parseHex_hexStr bs⟩, Outcome.ok_bind]
  cases ht : decTransaction bs with
  | panic => exact absurd ht (Codec.C41_decode_untrusted bs).1.2.2.1
  | err e =>
    exact ⟨⟨fun _ tx r h => (by cases h), fun _ => ⟨_, rfl⟩⟩,
      ⟨fun ⟨k, h⟩ => (by cases h), fun ⟨tx, r, vs, ws, h, _⟩ => (by cases h)⟩⟩
  | ok p =>
    obtain ⟨tx, r⟩ := p
    dsimp only
    rw [Outcome.ok_bind]
    obtain ⟨v1, v2⟩ := showArg_isOk chk tx.verifydata
    obtain ⟨c1, c2⟩ := showArg_isOk chk tx.calldata
    by_cases hv : ∃ k, showArg chk tx.verifydata = .ok k
    · obtain ⟨vs, hvs, hve⟩ := v1.1 hv
      obtain ⟨k, hk⟩ := hv
      rw [hk, Outcome.ok_bind]
      by_cases hc : ∃ k, showArg chk tx.calldata = .ok k
      · obtain ⟨ws, hws, hwe⟩ := c1.1 hc
        obtain ⟨k', hk'⟩ := hc
        rw [hk']
        exact ⟨⟨fun ⟨e, h⟩ => (by cases h), fun h => absurd rfl (h tx r)⟩,
          ⟨fun _ => ⟨tx, r, vs, ws, rfl, hvs, hve, hws, hwe⟩, fun _ => ⟨_, rfl⟩⟩⟩
      · rw [c2 hc]
        refine ⟨⟨fun ⟨e, h⟩ => (by cases h), fun h => absurd rfl (h tx r)⟩,
          ⟨fun ⟨e, h⟩ => (by cases h), fun ⟨tx', r', vs, ws, he, _, _, h1, h2⟩ => ?_⟩⟩
        cases he
        exact absurd (c1.2 ⟨ws, h1, h2⟩) hc
    · rw [v2 hv]
      refine ⟨⟨fun ⟨e, h⟩ => (by cases h), fun h => absurd rfl (h tx r)⟩,
        ⟨fun ⟨e, h⟩ => (by cases h), fun ⟨tx', r', vs, ws, he, h1, h2, _⟩ => ?_⟩⟩
      cases he
      exact absurd (v1.2 ⟨vs, h1, h2⟩) hv

/-- **C88, partial.** The decoder of spawns never returns an error for bytes: it panics if they are no
spawn, or if their input data cannot be shown. Empty arrays do not make it panic. -/
theorem C88_spawn_partial (chk : Bool) (bs : Bytes) :
    ((∃ k, decodeSpawn chk (.obj [("data", .str (hexStr bs))]) = .ok k) ↔
      ∃ s r vs, decSpawn bs = .ok (s, r) ∧ CanShow chk s.calldata vs) ∧
    ((¬ ∃ k, decodeSpawn chk (.obj [("data", .str (hexStr bs))]) = .ok k) →
      decodeSpawn chk (.obj [("data", .str (hexStr bs))]) = .panic) := by
  unfold decodeSpawn
  rw [getField_ok.2 ⟨_, rfl, parseHex_hexStr bs⟩, Outcome.ok_bind]
  cases ht : decSpawn bs with
  | panic => exact absurd ht (Codec.C41_decode_untrusted bs).1.2.2.2
  | err e =>
    exact ⟨⟨fun ⟨k, h⟩ => (by cases h), fun ⟨s, r, vs, h, _⟩ => (by cases h)⟩, fun _ => rfl⟩
  | ok p =>
    obtain ⟨s, r⟩ := p
    obtain ⟨c1, c2⟩ := C86_shown chk s.calldata
    have hw : (Outcome.unwrapRes (Outcome.ok (ε := Codec.ParseError) (s, r)) : Outcome JsonError _) =
      .ok (s, r) := rfl
    rw [hw, Outcome.ok_bind]
    dsimp only
    by_cases hc : ∃ j, calldataToJson chk s.calldata = .ok j
    · obtain ⟨vs, hvs⟩ := c1.1 hc
      obtain ⟨j, hj⟩ := hc
      rw [hj]
      exact ⟨⟨fun _ => ⟨s, r, vs, rfl, hvs⟩, fun _ => ⟨_, rfl⟩⟩, fun h => absurd ⟨_, rfl⟩ h⟩
    · rw [c2 hc]
      refine ⟨⟨fun ⟨k, h⟩ => (by cases h), fun ⟨s', r', vs, he, h⟩ => ?_⟩, fun _ => rfl⟩
      cases he
      exact absurd (c1.2 ⟨vs, h⟩) hc

/-- **C88 fails.** No bytes at all make the decoder of spawns panic. -/
theorem C88_claim_false : ¬ C88_claim := fun h => (h true []).2 rfl

/-- A call whose input data is an empty array makes the decoder of calls panic. -/
theorem C88_empty_array (chk : Bool) {tx : Transaction} {bs : Bytes} (h : encTransaction tx = some bs)
    (hc : tx.calldata = [0x06]) : decodeCall chk (.obj [("data", .str (hexStr bs))]) = .panic := by
  have hs : showArg chk tx.calldata = .panic := by rw [hc]; cases chk <;> rfl
  obtain ⟨-, v2⟩ := showArg_isOk chk tx.verifydata
  unfold decodeCall
  rw [getField_ok.2 ⟨_, rfl, parseHex_hexStr bs⟩, Outcome.ok_bind, decode_enc_transaction h]
  dsimp only
  rw [Outcome.ok_bind]
  by_cases hv : ∃ k, showArg chk tx.verifydata = .ok k
  · obtain ⟨k, hk⟩ := hv
    rw [hk, Outcome.ok_bind, hs]
    rfl
  · rw [v2 hv]
    rfl

end Svm.JsonApi
