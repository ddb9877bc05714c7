import Verif.Json.Messages

/-!
# C118: transactions crafted by the command line tool

`crates/host/cli/src/subcmd_tx.rs`: `svm-cli tx` reads the JSON specification of a call or of a spawn,
encodes the input data, encodes the transaction and writes it to a file.
-/

namespace Svm.JsonApi

open Svm.Codec (Str Addr Transaction SpawnAccount encTransaction decTransaction encSpawn decSpawn)
open Svm.Abi (Width Prim Value)

/-! ## Model -/

/-- `encode_input`, subcmd_tx.rs:89-101. The assertions and the last `panic!` are the `none` of
`unwrapOpt`; so is `data["data"]` if there is no such key (it would be `null`), which never happens. -/
def encodeInput (object : Json) (key : String) : Outcome JsonError Json := do
  let input ← .unwrapOpt (object.field key)
  let v ← .unwrapOpt input.asObject
  let _ ← .unwrapOpt (v.lookup "abi")
  let _ ← .unwrapOpt (v.lookup "data")
  let data ← .unwrapRes (encodeInputData input)
  .unwrapOpt (data.field "data")

/-- `Map::insert`, as `update_key` calls it, subcmd_tx.rs:80-87: the key has one value. -/
def insertKey (l : List (String × Json)) (key : String) (v : Json) : List (String × Json) :=
  (key, v) :: l.filter fun p => p.1 != key

/-- `update_key`, subcmd_tx.rs:80-87, with `encode_input`. -/
def updateKey (object : Json) (key : String) : Outcome JsonError Json := do
  let new ← encodeInput object key
  let l ← .unwrapOpt object.asObject
  .ok (.obj (insertKey l key new))

/-- The loop of `encode_inputs`, subcmd_tx.rs:74-76. -/
def updateKeys (object : Json) : List String → Outcome JsonError Json
  | [] => .ok object
  | k :: ks => do updateKeys (← updateKey object k) ks

/-- `encode_inputs`, subcmd_tx.rs:67-78; `none` is text that is not JSON. -/
def encodeInputs (text : Option Json) (keys : List String) : Outcome JsonError Json := do
  let object ← .unwrapOpt text
  let _ ← .unwrapOpt object.asObject
  updateKeys object keys

/-- `--tx-type`, subcmd_tx.rs:31-37. -/
inductive TxType where
  | spawn
  | call

/-- `encode_spawn` and `encode_call`, subcmd_tx.rs:57-65. The object is printed and parsed again, which
returns the same object. -/
def cliEncode (ty : TxType) (text : Option Json) : Outcome JsonError Bytes :=
  match ty with
  | .spawn => do
    let object ← encodeInputs text ["calldata"]
    .unwrapRes (encodeSpawnRaw object)
  | .call => do
    let object ← encodeInputs text ["verifydata", "calldata"]
    .unwrapRes (encodeCallRaw object)

/-- `subcmd_tx`, subcmd_tx.rs:41-55: how it ends, and the contents of the output file (`none`: there is no
such file), which are `old` before. The input can be read and the output can be written. -/
def subcmdTx (ty : TxType) (text : Option Json) (old : Option Bytes) :
    Outcome JsonError Unit × Option Bytes :=
  match cliEncode ty text with
  | .ok bs => (.ok (), some bs)
  | .err e => (.err e, old)
  | .panic => (.panic, old)

/-! ## Specification -/

/-- The value a JSON item stands for. -/
inductive Means : TySig → Json → Value → Prop
  | bool (b : Bool) : Means (.prim .bool) (.bool b) (.prim (.bool b))
  | amount (x : BitVec 64) : Means (.prim .amount) (.int x.toNat) (.prim (.amount x))
  | address {s : Str} {a : Addr} (h : InUpperCase (.str s) (addrJson a)) :
      Means (.prim .address) (.str s) (.prim (.address a))
  | unsigned {w : Width} (x : BitVec (8 * w.bytes)) :
      Means (.prim (.int w false)) (.int x.toNat) (.prim (.int w false x))
  | signed {w : Width} (x : BitVec (8 * w.bytes)) :
      Means (.prim (.int w true)) (.int x.toInt) (.prim (.int w true x))
  | arr {t : TySig} {l : List Json} {vs : List Value} (h : l.length ≤ 10) (hl : l.length = vs.length)
      (h' : ∀ (i : Nat) (hi : i < l.length), Means t l[i] (vs[i]'(hl ▸ hi))) : Means (.arr t) (.arr l) (.vec vs)

/-- The field is an object of types and as many items, and `bs` are the bytes of the values they stand
for, by the rules of the ABI. -/
def Carries (j : Json) (name : String) (bs : Bytes) : Prop :=
  ∃ a as ds ts vs, j.field name = some a ∧ a.field "abi" = some (.arr as) ∧
    a.field "data" = some (.arr ds) ∧ TySig.listOfJson as = some ts ∧ ts.length = ds.length ∧
    ds.length = vs.length ∧
    (∀ (i : Nat) (t : TySig) (d : Json) (v : Value), ts[i]? = some t → ds[i]? = some d → vs[i]? = some v →
      Means t d v) ∧
    Abi.encodeList vs = some bs

/-- The call the JSON describes. -/
def DescribesCall (j : Json) (tx : Transaction) : Prop :=
  j.field "version" = some (.int tx.version.toNat) ∧
  (∃ a, j.field "target" = some a ∧ InUpperCase a (addrJson tx.target)) ∧
  j.field "func_name" = some (.str tx.funcName) ∧
  Carries j "verifydata" tx.verifydata ∧ Carries j "calldata" tx.calldata

/-- The spawn the JSON describes. -/
def DescribesSpawn (j : Json) (s : SpawnAccount) : Prop :=
  j.field "version" = some (.int s.version.toNat) ∧
  (∃ a, j.field "template" = some a ∧ InUpperCase a (addrJson s.templateAddr)) ∧
  j.field "name" = some (.str s.name) ∧ j.field "ctor_name" = some (.str s.ctorName) ∧
  Carries j "calldata" s.calldata

/-! ## Values -/

theorem hexVal_upper {c : UInt8} {n : Nat} (hn : n < 16) (h : hexDigit n = upperByte c) :
    hexVal c = some n := by
  have key : ∀ i < 256, ∀ n < 16, hexDigit n = upperByte (UInt8.ofNat i) →
      hexVal (UInt8.ofNat i) = some n := by decide +kernel
  have := key c.toNat c.toNat_lt n hn
  rw [UInt8.ofNat_toNat] at this
  exact this h

theorem hexDecode_upper : ∀ {s bs : Bytes}, hexEncode bs = s.map upperByte → hexDecode s = some bs
  | [], [], _ => rfl
  | [], b :: bs, h => by unfold hexEncode at h; cases h
  | [_], [], h => by cases h
  | [_], b :: bs, h => by unfold hexEncode at h; simp at h
  | _ :: _ :: _, [], h => by cases h
  | a :: c :: r, b :: bs, h => by
    have hb := b.toNat_lt
    unfold hexEncode at h
    simp only [List.map_cons, List.cons.injEq] at h
    obtain ⟨h1, h2, h3⟩ := h
    unfold hexDecode
    rw [hexVal_upper (by omega) h1, hexVal_upper (by omega) h2, hexDecode_upper h3]
    change some (UInt8.ofNat (16 * (b.toNat / 16) + b.toNat % 16) :: bs) = _
    rw [Nat.div_add_mod, UInt8.ofNat_toNat]

theorem parseAddr_iff {j : Json} {a : Addr} : parseAddr j = some a ↔ InUpperCase j (addrJson a) := by
  refine ⟨parseAddr_some, fun h => ?_⟩
  cases j with
  | str s =>
    have h' : hexEncode a.1 = s.1.map upperByte := by
      generalize hk : addrJson a = k at h
      cases h with
      | str h =>
        unfold addrJson at hk
        injection hk with hk
        rw [← hk] at h
        exact h
    unfold parseAddr parseHex
    change ((hexDecode s.1) >>= _) = _
    rw [hexDecode_upper h']
    exact dif_pos a.2
  | _ => unfold addrJson at h; cases h

theorem parseU16_iff {j : Json} {x : BitVec 16} : parseU16 j = some x ↔ j = .int x.toNat := by
  refine ⟨parseU16_some, ?_⟩
  rintro rfl
  have := x.isLt
  unfold parseU16
  dsimp only
  rw [if_pos (by omega)]
  congr 1
  apply BitVec.eq_of_toNat_eq
  rw [BitVec.toNat_ofInt]
  omega

theorem primOfJson_iff {j : Json} {p : PrimTy} {x : Prim} :
    primOfJson j p = some x ↔ Means (.prim p) j (.prim x) := by
  cases p with
  | bool =>
    change j.asBool.map Prim.bool = some x ↔ _
    constructor
    · intro h
      obtain ⟨b, hb, rfl⟩ := Option.map_eq_some_iff.1 h
      rw [asBool_some.1 hb]
      exact .bool b
    · intro h
      cases h
      rfl
  | amount =>
    change (j.asU64.map fun i => Prim.amount (BitVec.ofInt _ i)) = some x ↔ _
    constructor
    · intro h
      obtain ⟨i, hi, rfl⟩ := Option.map_eq_some_iff.1 h
      obtain ⟨rfl, h1, h2⟩ := asU64_some.1 hi
      have := Means.amount (BitVec.ofInt 64 i)
      rwa [show (((BitVec.ofInt 64 i).toNat : Nat) : Int) = i from
        intOf_ofInt (w := .w64) (s := false) (show inRange .w64 false i from ⟨h1, h2⟩)] at this
    · intro h
      cases h with
      | amount y =>
        have := y.isLt
        rw [asU64_some.2 ⟨rfl, by omega, by omega⟩]
        have := ofInt_intOf (w := .w64) (s := false) y
        exact congrArg (fun z => some (Prim.amount z)) this
  | address =>
    change (parseAddr j).map Prim.address = some x ↔ _
    constructor
    · intro h
      obtain ⟨a, ha, rfl⟩ := Option.map_eq_some_iff.1 h
      have := parseAddr_iff.1 ha
      cases j with
      | str s => exact .address this
      | _ => unfold addrJson at this; cases this
    · intro h
      cases h with
      | address h => rw [parseAddr_iff.2 h]; rfl
  | int w s =>
    rw [primOfJson_int]
    constructor
    · rintro ⟨i, rfl, hr, rfl⟩
      cases s with
      | true =>
        have := Means.signed (BitVec.ofInt (8 * w.bytes) i)
        rwa [show (BitVec.ofInt (8 * w.bytes) i).toInt = i from intOf_ofInt (s := true) hr] at this
      | false =>
        have := Means.unsigned (BitVec.ofInt (8 * w.bytes) i)
        rwa [show (((BitVec.ofInt (8 * w.bytes) i).toNat : Nat) : Int) = i from
          intOf_ofInt (s := false) hr] at this
    · intro h
      cases h with
      | unsigned y => exact ⟨_, rfl, inRange_intOf (s := false) y, by rw [show ((y.toNat : Nat) : Int) =
          intOf w false y from rfl, ofInt_intOf]⟩
      | signed y => exact ⟨_, rfl, inRange_intOf (s := true) y, by rw [show y.toInt =
          intOf w true y from rfl, ofInt_intOf]⟩

theorem means_arr {t : TySig} {j : Json} {v : Value} : Means (.arr t) j v ↔
    ∃ l vs, j = .arr l ∧ v = .vec vs ∧ l.length ≤ 10 ∧ List.Forall₂ (Means t) l vs := by
  constructor
  · intro h
    cases h with
    | arr h hl h' => exact ⟨_, _, rfl, rfl, h, List.forall₂_iff_get.2 ⟨hl, fun i h1 h2 => h' i h1⟩⟩
  · rintro ⟨l, vs, rfl, rfl, h, hf⟩
    exact .arr h hf.length_eq fun i hi => List.Forall₂.get hf hi (hf.length_eq ▸ hi)

/-- The encoder of values reads what the items stand for. -/
theorem encodeValue_iff : ∀ {t : TySig} {j : Json} {v : Value}, t.encodeValue j = .ok v ↔ Means t j v
  | .prim p, j, v => by
    constructor
    · intro h
      obtain ⟨x, rfl, hx⟩ := encodeValue_prim h
      exact primOfJson_iff.1 hx
    · intro h
      have : ∃ x, v = .prim x := by cases h <;> exact ⟨_, rfl⟩
      obtain ⟨x, rfl⟩ := this
      have := primOfJson_iff.2 h
      unfold TySig.encodeValue
      rw [this]
  | .bad, j, v => ⟨fun h => (by cases h), fun h => (by cases h)⟩
  | .arr t, j, v => by
    have ih := fun (j : Json) (v : Value) => encodeValue_iff (t := t) (j := j) (v := v)
    have ih' : (fun j v => t.encodeValue j = .ok v) = Means t := by
      funext j v
      exact propext (ih j v)
    rw [means_arr]
    unfold TySig.encodeValue
    constructor
    · intro h
      split at h
      · cases h
      · rename_i l hl
        obtain ⟨vs, he, h'⟩ := bind_ok h
        cases h'
        obtain ⟨ws, h1, h2, h3⟩ := encodeItems_ok.1 he
        rw [List.nil_append] at h2
        subst h2
        rw [ih'] at h1
        refine ⟨l, _, asArray_some.1 hl, rfl, ?_, h1⟩
        by_cases hn : l = []
        · subst hn; exact Nat.zero_le _
        · have := h3 hn
          simpa using this
    · rintro ⟨l, vs, rfl, rfl, hl, h1⟩
      rw [← ih'] at h1
      rw [asArray_some.2 rfl]
      dsimp only
      rw [encodeItems_ok.2 ⟨vs, h1, (List.nil_append _).symm, fun _ => by simpa using hl⟩]
      rfl

/-! ## Input data -/

/-- Reading the fields of an object after one is set. -/
theorem lookup_insertKey {l : List (String × Json)} {k name : String} {v : Json} :
    (insertKey l k v).lookup name = if name = k then some v else l.lookup name := by
  unfold insertKey
  by_cases h : name = k
  · subst h
    rw [if_pos rfl, List.lookup_cons_self]
  · rw [if_neg h, List.lookup_cons, show (name == k) = false by simpa using h]
    dsimp only
    induction l with
    | nil => rfl
    | cons p l ih =>
      obtain ⟨a, b⟩ := p
      by_cases ha : a = k
      · subst ha
        rw [List.filter_cons_of_neg (by simp), List.lookup_cons, ih,
          show (name == a) = false by simpa using h]
      · rw [List.filter_cons_of_pos (by simpa using ha), List.lookup_cons, List.lookup_cons, ih]

theorem carries_iff {j a : Json} {name : String} {bs : Bytes} (h : j.field name = some a) :
    Carries j name bs ↔ encodeInputData a = .ok (.obj [("data", .str (hexStr bs))]) := by
  have hv : ∀ {ts : List TySig} {ds : List Json} {vs : List Value}, ts.length = ds.length →
      (Values (ts.zip ds) vs ↔ ds.length = vs.length ∧ ∀ (i : Nat) (t : TySig) (d : Json) (v : Value),
        ts[i]? = some t → ds[i]? = some d → vs[i]? = some v → Means t d v) := by
    intro ts ds vs hl
    rw [Values, List.forall₂_iff_get]
    have hz : (ts.zip ds).length = ds.length := by rw [List.length_zip, hl, min_self]
    refine and_congr (by rw [hz]) ⟨fun h i t d v ht hd hv => ?_, fun h i h1 h2 => ?_⟩
    · obtain ⟨i1, rfl⟩ := List.getElem?_eq_some_iff.1 ht
      obtain ⟨i2, rfl⟩ := List.getElem?_eq_some_iff.1 hd
      obtain ⟨i3, rfl⟩ := List.getElem?_eq_some_iff.1 hv
      have := h i (hz ▸ i2) i3
      simp only [List.get_eq_getElem, List.getElem_zip] at this
      exact encodeValue_iff.1 this
    · simp only [List.get_eq_getElem, List.getElem_zip]
      exact encodeValue_iff.2 (h i _ _ _ (List.getElem?_eq_getElem _) (List.getElem?_eq_getElem (hz ▸ h1))
        (List.getElem?_eq_getElem h2))
  rw [encodeInputData_ok]
  constructor
  · rintro ⟨b, as, ds, ts, vs, e0, e1, e2, e3, e4, e5, e6, e7⟩
    rw [h] at e0
    cases e0
    exact ⟨ts, ds, vs, bs, ⟨⟨as, e1, e3⟩, e2, e4⟩, (hv e4).2 ⟨e5, e6⟩, e7, rfl⟩
  · rintro ⟨ts, ds, vs, bs', ⟨⟨as, e1, e3⟩, e2, e4⟩, e5, e7, e8⟩
    injection e8 with e8
    injection e8 with e8
    injection e8 with _ e8
    injection e8 with e8
    have : bs' = bs := by
      have h1 := parseHex_hexStr bs
      rw [e8, parseHex_hexStr] at h1
      exact Option.some.inj h1
    subst this
    obtain ⟨f1, f2⟩ := (hv e4).1 e5
    exact ⟨a, as, ds, ts, vs, h, e1, e2, e3, e4, f1, f2, e7⟩

/-- What replaces a field: the bytes it carries, in hexadecimal digits. -/
theorem updateKey_ok {l : List (String × Json)} {k : String} {out : Json} :
    updateKey (.obj l) k = .ok out ↔
      ∃ bs, Carries (.obj l) k bs ∧ out = .obj (insertKey l k (.str (hexStr bs))) := by
  constructor
  · intro h
    unfold updateKey at h
    obtain ⟨new, h1, h2⟩ := bind_ok h
    cases h2
    unfold encodeInput at h1
    obtain ⟨input, e1, h1⟩ := bind_ok h1
    obtain ⟨v, e2, h1⟩ := bind_ok h1
    obtain ⟨_, e3, h1⟩ := bind_ok h1
    obtain ⟨_, e4, h1⟩ := bind_ok h1
    obtain ⟨data, e5, h1⟩ := bind_ok h1
    have e5 := unwrapRes_ok e5
    obtain ⟨ts, ds, vs, bs, f1, f2, f3, rfl⟩ := encodeInputData_ok.1 e5
    have := unwrapOpt_ok h1
    cases this
    exact ⟨bs, (carries_iff (unwrapOpt_ok e1)).2 e5, rfl⟩
  · rintro ⟨bs, hc, rfl⟩
    have hc0 := hc
    obtain ⟨a, as, ds, ts, vs, e0, e1, e2, -⟩ := hc
    have he := (carries_iff e0).1 hc0
    unfold updateKey encodeInput
    rw [e0]
    obtain ⟨m, rfl, e1'⟩ := field_obj e1
    have e2' : m.lookup "data" = some (.arr ds) := e2
    change ((do
      let _ ← Outcome.unwrapOpt (m.lookup "abi")
      let _ ← Outcome.unwrapOpt (m.lookup "data")
      let data ← Outcome.unwrapRes (encodeInputData (.obj m))
      Outcome.unwrapOpt (data.field "data") : Outcome JsonError Json) >>= _) = _
    rw [e1', e2', he]
    rfl

/-- The parts of a call with input data in hexadecimal digits. -/
theorem encodeCallRaw_iff {j : Json} {v c bs : Bytes} (hv : j.field "verifydata" = some (.str (hexStr v)))
    (hc : j.field "calldata" = some (.str (hexStr c))) :
    encodeCallRaw j = .ok bs ↔ ∃ tx : Transaction, j.field "version" = some (.int tx.version.toNat) ∧
      (∃ a, j.field "target" = some a ∧ InUpperCase a (addrJson tx.target)) ∧
      j.field "func_name" = some (.str tx.funcName) ∧ tx.verifydata = v ∧ tx.calldata = c ∧
      encTransaction tx = some bs := by
  have hp : ∀ b, parseArg (.str (hexStr b)) = some (.encoded b) := fun b => by
    unfold parseArg
    rw [parseHex_hexStr]
  constructor
  · intro h
    unfold encodeCallRaw at h
    obtain ⟨version, e1, h⟩ := bind_ok h
    obtain ⟨target, e2, h⟩ := bind_ok h
    obtain ⟨funcName, e3, h⟩ := bind_ok h
    rw [getField_ok.2 ⟨_, hv, hp v⟩, getField_ok.2 ⟨_, hc, hp c⟩] at h
    have h := unwrapOpt_ok h
    obtain ⟨v1, f1, g1⟩ := getField_ok.1 e1
    obtain ⟨v2, f2, g2⟩ := getField_ok.1 e2
    obtain ⟨v3, f3, g3⟩ := getField_ok.1 e3
    exact ⟨_, by rw [f1, parseU16_some g1], ⟨v2, f2, parseAddr_some g2⟩, by rw [f3, asStr_some.1 g3], rfl,
      rfl, h⟩
  · rintro ⟨tx, e1, ⟨a, e2, e3⟩, e4, rfl, rfl, e5⟩
    unfold encodeCallRaw
    rw [getField_ok.2 ⟨_, e1, parseU16_iff.2 rfl⟩, getField_ok.2 ⟨_, e2, parseAddr_iff.2 e3⟩,
      getField_ok.2 ⟨_, e4, asStr_some.2 rfl⟩, getField_ok.2 ⟨_, hv, hp _⟩, getField_ok.2 ⟨_, hc, hp _⟩]
    change Outcome.unwrapOpt (encTransaction tx) = _
    rw [e5]
    rfl

/-- The parts of a spawn with input data in hexadecimal digits. -/
theorem encodeSpawnRaw_iff {j : Json} {c bs : Bytes} (hc : j.field "calldata" = some (.str (hexStr c))) :
    encodeSpawnRaw j = .ok bs ↔ ∃ s : SpawnAccount, j.field "version" = some (.int s.version.toNat) ∧
      (∃ a, j.field "template" = some a ∧ InUpperCase a (addrJson s.templateAddr)) ∧
      j.field "name" = some (.str s.name) ∧ j.field "ctor_name" = some (.str s.ctorName) ∧
      s.calldata = c ∧ encSpawn s = some bs := by
  have hp : ∀ b, parseArg (.str (hexStr b)) = some (.encoded b) := fun b => by
    unfold parseArg
    rw [parseHex_hexStr]
  constructor
  · intro h
    unfold encodeSpawnRaw at h
    obtain ⟨version, e1, h⟩ := bind_ok h
    obtain ⟨target, e2, h⟩ := bind_ok h
    obtain ⟨name, e3, h⟩ := bind_ok h
    obtain ⟨ctor, e4, h⟩ := bind_ok h
    rw [getField_ok.2 ⟨_, hc, hp c⟩] at h
    have h := unwrapOpt_ok h
    obtain ⟨v1, f1, g1⟩ := getField_ok.1 e1
    obtain ⟨v2, f2, g2⟩ := getField_ok.1 e2
    obtain ⟨v3, f3, g3⟩ := getField_ok.1 e3
    obtain ⟨v4, f4, g4⟩ := getField_ok.1 e4
    exact ⟨_, by rw [f1, parseU16_some g1], ⟨v2, f2, parseAddr_some g2⟩, by rw [f3, asStr_some.1 g3],
      by rw [f4, asStr_some.1 g4], rfl, h⟩
  · rintro ⟨s, e1, ⟨a, e2, e3⟩, e4, e4', rfl, e5⟩
    unfold encodeSpawnRaw
    rw [getField_ok.2 ⟨_, e1, parseU16_iff.2 rfl⟩, getField_ok.2 ⟨_, e2, parseAddr_iff.2 e3⟩,
      getField_ok.2 ⟨_, e4, asStr_some.2 rfl⟩, getField_ok.2 ⟨_, e4', asStr_some.2 rfl⟩,
      getField_ok.2 ⟨_, hc, hp _⟩]
    change Outcome.unwrapOpt (encSpawn s) = _
    rw [e5]
    rfl

theorem field_insertKey {l : List (String × Json)} {k name : String} {v : Json} :
    (Json.obj (insertKey l k v)).field name = if name = k then some v else (Json.obj l).field name :=
  lookup_insertKey

theorem carries_insertKey {l : List (String × Json)} {k name : String} {v : Json} {bs : Bytes}
    (h : name ≠ k) : Carries (.obj (insertKey l k v)) name bs ↔ Carries (.obj l) name bs := by
  unfold Carries
  rw [field_insertKey, if_neg h]

theorem encodeInputs_obj {j : Json} {keys : List String} {out : Json}
    (h : encodeInputs (some j) keys = .ok out) : ∃ l, j = .obj l ∧ updateKeys (.obj l) keys = .ok out := by
  cases j with
  | obj l => exact ⟨l, rfl, h⟩
  | _ => cases h

/-- The bytes `svm-cli tx` computes for a call. -/
theorem cliCall_iff {j : Json} {bs : Bytes} : cliEncode .call (some j) = .ok bs ↔
    ∃ tx, DescribesCall j tx ∧ encTransaction tx = some bs := by
  constructor
  · intro h
    unfold cliEncode at h
    dsimp only at h
    obtain ⟨object, h1, h2⟩ := bind_ok h
    have h2 := unwrapRes_ok h2
    obtain ⟨l, rfl, h3⟩ := encodeInputs_obj h1
    unfold updateKeys at h3
    obtain ⟨o1, k1, h4⟩ := bind_ok h3
    obtain ⟨v, hv, rfl⟩ := updateKey_ok.1 k1
    unfold updateKeys at h4
    obtain ⟨o2, k2, h5⟩ := bind_ok h4
    obtain ⟨c, hc, rfl⟩ := updateKey_ok.1 k2
    unfold updateKeys at h5
    cases h5
    rw [encodeCallRaw_iff (v := v) (c := c) (by simp [field_insertKey]) (by simp [field_insertKey])] at h2
    obtain ⟨tx, e1, e2, e3, rfl, rfl, e4⟩ := h2
    simp only [field_insertKey, String.reduceEq, if_false] at e1 e2 e3
    exact ⟨tx, ⟨e1, e2, e3, hv, (carries_insertKey (by decide)).1 hc⟩, e4⟩
  · rintro ⟨tx, ⟨e1, e2, e3, hv, hc⟩, e4⟩
    obtain ⟨l, rfl, -⟩ := field_obj e1
    have k1 := updateKey_ok.2 ⟨_, hv, rfl⟩
    have k2 := updateKey_ok.2 ⟨_, (carries_insertKey (k := "verifydata")
      (v := .str (hexStr tx.verifydata)) (by decide)).2 hc, rfl⟩
    have k3 : encodeInputs (some (.obj l)) ["verifydata", "calldata"] =
        .ok (.obj (insertKey (insertKey l "verifydata" (.str (hexStr tx.verifydata))) "calldata"
          (.str (hexStr tx.calldata)))) := by
      change updateKeys (.obj l) ["verifydata", "calldata"] = _
      unfold updateKeys
      rw [k1, Outcome.ok_bind]
      unfold updateKeys
      rw [k2, Outcome.ok_bind]
      rfl
    unfold cliEncode
    dsimp only
    rw [k3, Outcome.ok_bind, (encodeCallRaw_iff (v := tx.verifydata) (c := tx.calldata) (bs := bs)
      (by simp [field_insertKey]) (by simp [field_insertKey])).2]
    · rfl
    · refine ⟨tx, ?_, ?_, ?_, rfl, rfl, e4⟩ <;>
        simp only [field_insertKey, String.reduceEq, if_false] <;> assumption

/-- The bytes `svm-cli tx` computes for a spawn. -/
theorem cliSpawn_iff {j : Json} {bs : Bytes} : cliEncode .spawn (some j) = .ok bs ↔
    ∃ s, DescribesSpawn j s ∧ encSpawn s = some bs := by
  constructor
  · intro h
    unfold cliEncode at h
    dsimp only at h
    obtain ⟨object, h1, h2⟩ := bind_ok h
    have h2 := unwrapRes_ok h2
    obtain ⟨l, rfl, h3⟩ := encodeInputs_obj h1
    unfold updateKeys at h3
    obtain ⟨o1, k1, h4⟩ := bind_ok h3
    obtain ⟨c, hc, rfl⟩ := updateKey_ok.1 k1
    unfold updateKeys at h4
    cases h4
    rw [encodeSpawnRaw_iff (c := c) (by simp [field_insertKey])] at h2
    obtain ⟨s, e1, e2, e3, e3', rfl, e4⟩ := h2
    simp only [field_insertKey, String.reduceEq, if_false] at e1 e2 e3 e3'
    exact ⟨s, ⟨e1, e2, e3, e3', hc⟩, e4⟩
  · rintro ⟨s, ⟨e1, e2, e3, e3', hc⟩, e4⟩
    obtain ⟨l, rfl, -⟩ := field_obj e1
    have k1 := updateKey_ok.2 ⟨_, hc, rfl⟩
    have k3 : encodeInputs (some (.obj l)) ["calldata"] =
        .ok (.obj (insertKey l "calldata" (.str (hexStr s.calldata)))) := by
      change updateKeys (.obj l) ["calldata"] = _
      unfold updateKeys
      rw [k1, Outcome.ok_bind]
      rfl
    unfold cliEncode
    dsimp only
    rw [k3, Outcome.ok_bind, (encodeSpawnRaw_iff (c := s.calldata) (bs := bs)
      (by simp [field_insertKey])).2]
    · rfl
    · refine ⟨s, ?_, ?_, ?_, ?_, rfl, e4⟩ <;>
        simp only [field_insertKey, String.reduceEq, if_false] <;> assumption

/-! ## No errors -/

theorem bind_ne_err {ε α β : Type} {x : Outcome ε α} {f : α → Outcome ε β} (h : ∀ e, x ≠ .err e)
    (h' : ∀ a e, f a ≠ .err e) : ∀ e, (x >>= f) ≠ .err e := by
  intro e
  cases x with
  | ok a => exact h' a e
  | err e' => exact absurd rfl (h e')
  | panic => intro h; cases h

theorem unwrapOpt_ne_err {ε α : Type} {x : Option α} (e : ε) : Outcome.unwrapOpt x ≠ .err e := by
  cases x <;> nofun

theorem unwrapRes_ne_err {ε ε' α : Type} {x : Outcome ε' α} (e : ε) : Outcome.unwrapRes x ≠ .err e := by
  cases x <;> nofun

theorem updateKeys_ne_err : ∀ {keys : List String} {j : Json} (e : JsonError), updateKeys j keys ≠ .err e
  | [], _, _ => nofun
  | k :: ks, j, e => by
    unfold updateKeys
    refine bind_ne_err ?_ (fun _ => updateKeys_ne_err) e
    unfold updateKey encodeInput
    exact bind_ne_err (bind_ne_err unwrapOpt_ne_err fun _ => bind_ne_err unwrapOpt_ne_err fun _ =>
      bind_ne_err unwrapOpt_ne_err fun _ => bind_ne_err unwrapOpt_ne_err fun _ =>
      bind_ne_err unwrapRes_ne_err fun _ => unwrapOpt_ne_err) fun _ => bind_ne_err unwrapOpt_ne_err nofun

theorem cliEncode_ne_err {ty : TxType} {text : Option Json} (e : JsonError) :
    cliEncode ty text ≠ .err e := by
  cases ty
  · exact bind_ne_err (bind_ne_err unwrapOpt_ne_err fun _ => bind_ne_err unwrapOpt_ne_err fun _ =>
      updateKeys_ne_err) (fun _ => unwrapRes_ne_err) e
  · exact bind_ne_err (bind_ne_err unwrapOpt_ne_err fun _ => bind_ne_err unwrapOpt_ne_err fun _ =>
      updateKeys_ne_err) (fun _ => unwrapRes_ne_err) e

/-! ## C118 -/

/-- What the bytes of the output file are, once the tool succeeds. -/
def Crafted (ty : TxType) (j : Json) (bs : Bytes) : Prop :=
  match ty with
  | .call => ∃ tx, DescribesCall j tx ∧ decTransaction bs = .ok (tx, [])
  | .spawn => ∃ s, DescribesSpawn j s ∧ decSpawn bs = .ok (s, [])

/-- The JSON describes a transaction whose names and lists fit in the encoding. -/
def CanCraft (ty : TxType) (j : Json) : Prop :=
  match ty with
  | .call => ∃ tx, DescribesCall j tx ∧ tx.funcName.1.length ≤ 255 ∧ tx.verifydata.length ≤ 255 ∧
      tx.calldata.length ≤ 255
  | .spawn => ∃ s, DescribesSpawn j s ∧ s.name.1.length ≤ 255 ∧ s.ctorName.1.length ≤ 255 ∧
      s.calldata.length ≤ 255

/-- **C118.** `svm-cli tx` succeeds exactly on the JSON objects that describe a transaction; the file it
writes is read by the node as the transaction described, with nothing left over. -/
theorem C118_crafts (ty : TxType) (j : Json) (old : Option Bytes) :
    ((subcmdTx ty (some j) old).1 = .ok () ↔ CanCraft ty j) ∧
    ((subcmdTx ty (some j) old).1 = .ok () →
      ∃ bs, (subcmdTx ty (some j) old).2 = some bs ∧ Crafted ty j bs) := by
  have hok : (subcmdTx ty (some j) old).1 = .ok () ↔ ∃ bs, cliEncode ty (some j) = .ok bs := by
    unfold subcmdTx
    cases cliEncode ty (some j) with
    | ok bs => exact ⟨fun _ => ⟨bs, rfl⟩, fun _ => rfl⟩
    | err e => exact ⟨fun h => (by cases h), fun ⟨_, h⟩ => by cases h⟩
    | panic => exact ⟨fun h => (by cases h), fun ⟨_, h⟩ => by cases h⟩
  have hfile : ∀ bs, cliEncode ty (some j) = .ok bs → (subcmdTx ty (some j) old).2 = some bs := by
    intro bs h
    unfold subcmdTx
    rw [h]
  rw [hok]
  cases ty with
  | call =>
    constructor
    · constructor
      · rintro ⟨bs, h⟩
        obtain ⟨tx, h1, h2⟩ := cliCall_iff.1 h
        refine ⟨tx, h1, Decidable.of_not_not fun hn => ?_⟩
        rw [(Codec.C38_transaction_lossless tx []).2 hn] at h2
        cases h2
      · rintro ⟨tx, h1, h2⟩
        obtain ⟨bs, h2, -⟩ := (Codec.C38_transaction_lossless tx []).1 h2
        exact ⟨bs, cliCall_iff.2 ⟨tx, h1, h2⟩⟩
    · rintro ⟨bs, h⟩
      obtain ⟨tx, h1, h2⟩ := cliCall_iff.1 h
      exact ⟨bs, hfile bs h, tx, h1, decode_enc_transaction h2⟩
  | spawn =>
    constructor
    · constructor
      · rintro ⟨bs, h⟩
        obtain ⟨s, h1, h2⟩ := cliSpawn_iff.1 h
        refine ⟨s, h1, Decidable.of_not_not fun hn => ?_⟩
        rw [(Codec.C39_spawn_context_lossless.1 s []).2 hn] at h2
        cases h2
      · rintro ⟨s, h1, h2⟩
        obtain ⟨bs, h2, -⟩ := (Codec.C39_spawn_context_lossless.1 s []).1 h2
        exact ⟨bs, cliSpawn_iff.2 ⟨s, h1, h2⟩⟩
    · rintro ⟨bs, h⟩
      obtain ⟨s, h1, h2⟩ := cliSpawn_iff.1 h
      have := Codec.roundTrip_spawn s bs [] h2
      rw [List.append_nil] at this
      exact ⟨bs, hfile bs h, s, h1, this⟩

/-- **C118**: otherwise it panics (it never returns an error), and leaves the output file as it was. -/
theorem C118_refuses (ty : TxType) (text : Option Json) (old : Option Bytes)
    (h : ¬ ∃ j, text = some j ∧ CanCraft ty j) : subcmdTx ty text old = (.panic, old) := by
  have hne : ¬ ∃ bs, cliEncode ty text = .ok bs := by
    rintro ⟨bs, hb⟩
    cases text with
    | none => cases ty <;> cases hb
    | some j =>
      refine h ⟨j, rfl, (C118_crafts ty j old).1.1 ?_⟩
      unfold subcmdTx
      rw [hb]
  unfold subcmdTx
  cases hc : cliEncode ty text with
  | ok bs => exact absurd ⟨bs, hc⟩ hne
  | err e => exact absurd hc (cliEncode_ne_err e)
  | panic => rfl

/-- A call whose input data has more types than items is refused here, although `encode_call` encodes it
(`C87_mismatch`). -/
theorem C118_mismatch {j a : Json} {as ds : List Json} (old : Option Bytes)
    (hj : j.field "calldata" = some a) (ha : ArgObject a (.arr as) (.arr ds))
    (hl : as.length ≠ ds.length) :
    subcmdTx .call (some j) old = (.panic, old) := by
  refine C118_refuses .call _ old ?_
  rintro ⟨j', hj', tx, ⟨-, -, -, -, b, as', ds', ts', vs, e0, e1, e2, e3, e4, -⟩, -⟩
  cases hj'
  rw [hj] at e0
  cases e0
  rw [ha.1] at e1
  cases e1
  rw [ha.2] at e2
  cases e2
  rw [listOfJson_length e3] at e4
  exact hl e4

/-! ## A case -/

theorem exCall_describes : DescribesCall (exCall exPlain) exTx := by
  refine ⟨rfl, ⟨_, rfl, parseAddr_iff.1 (by rfl)⟩, rfl, ?_, ?_⟩
  · exact (carries_iff rfl).2 (by rfl)
  · exact (carries_iff rfl).2 (by rfl)

/-- A call with one argument is crafted, and replaces what was in the file; the same call with a type too
many is refused and the file is left. -/
example : (subcmdTx .call (some (exCall exPlain)) (some [1, 2, 3])).1 = .ok () ∧
    subcmdTx .call (some (exCall exShort)) (some [1, 2, 3]) = (.panic, some [1, 2, 3]) := by
  constructor
  · exact (C118_crafts .call _ _).1.2 ⟨exTx, exCall_describes, by decide⟩
  · exact C118_mismatch (a := exShort) _ rfl ⟨rfl, rfl⟩ (by decide)

end Svm.JsonApi
