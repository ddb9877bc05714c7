import Verif.Json.Lemmas
import Mathlib.Data.List.Forall2

/-!
# C85: encoding input data given as JSON
-/

namespace Svm.JsonApi

open Svm.Codec (Str Addr)
open Svm.Abi (Width Prim Value)

/-! ## Specification -/

/-- The least and the greatest number of an integer type. -/
def bounds : Width → Bool → Int × Int
  | .w8, true => (-128, 127)
  | .w8, false => (0, 255)
  | .w16, true => (-32768, 32767)
  | .w16, false => (0, 65535)
  | .w32, true => (-2147483648, 2147483647)
  | .w32, false => (0, 4294967295)
  | .w64, true => (-9223372036854775808, 9223372036854775807)
  | .w64, false => (0, 18446744073709551615)

/-- `0`-`9`, `A`-`F`, `a`-`f`. -/
def IsHexDigit (c : UInt8) : Prop := 48 ≤ c ∧ c ≤ 57 ∨ 65 ≤ c ∧ c ≤ 70 ∨ 97 ≤ c ∧ c ≤ 102

/-- The JSON values of a type: arrays have at most ten items. -/
inductive HasType : TySig → Json → Prop
  | bool (b : Bool) : HasType (.prim .bool) (.bool b)
  | amount {i : Int} (h : 0 ≤ i) (h' : i ≤ 18446744073709551615) : HasType (.prim .amount) (.int i)
  | address {s : Str} (h : s.1.length = 40) (h' : ∀ c ∈ s.1, IsHexDigit c) :
      HasType (.prim .address) (.str s)
  | int {w : Width} {s : Bool} {i : Int} (h : (bounds w s).1 ≤ i) (h' : i ≤ (bounds w s).2) :
      HasType (.prim (.int w s)) (.int i)
  | arr {t : TySig} {l : List Json} (h : l.length ≤ 10) (h' : ∀ j ∈ l, HasType t j) :
      HasType (.arr t) (.arr l)

/-! ## Lemmas -/

theorem inRange_iff {w : Width} {s : Bool} {i : Int} :
    inRange w s i ↔ (bounds w s).1 ≤ i ∧ i ≤ (bounds w s).2 := by
  unfold inRange
  cases w <;> cases s <;> simp [bounds, Width.bytes] <;> omega

theorem hexVal_isSome {c : UInt8} : (∃ n, hexVal c = some n) ↔ IsHexDigit c := by
  unfold hexVal IsHexDigit
  constructor
  · rintro ⟨n, h⟩
    repeat' split at h
    · left; assumption
    · right; left; assumption
    · right; right; assumption
    · cases h
  · intro h
    repeat' split
    · exact ⟨_, rfl⟩
    · exact ⟨_, rfl⟩
    · exact ⟨_, rfl⟩
    · tauto

theorem hexDecode_isSome : ∀ {s : Bytes} (n : Nat), (∃ bs, hexDecode s = some bs ∧ bs.length = n) ↔
    s.length = 2 * n ∧ ∀ c ∈ s, IsHexDigit c
  | [], n => by
    constructor
    · rintro ⟨bs, h, hn⟩
      cases h
      exact ⟨by rw [← hn]; rfl, fun c hc => absurd hc (by simp)⟩
    · rintro ⟨h, -⟩
      refine ⟨[], rfl, ?_⟩
      simp only [List.length_nil] at h ⊢
      omega
  | [c], n => by
    constructor
    · rintro ⟨bs, h, -⟩; cases h
    · rintro ⟨h, -⟩
      simp only [List.length_cons, List.length_nil] at h
      omega
  | a :: b :: r, 0 => by
    constructor
    · rintro ⟨bs, h, hn⟩
      unfold hexDecode at h
      obtain ⟨x, hx, h⟩ := opt_bind h
      obtain ⟨y, hy, h⟩ := opt_bind h
      obtain ⟨t, ht, h⟩ := opt_bind h
      cases h
      cases hn
    · rintro ⟨h, -⟩
      simp only [List.length_cons] at h
      omega
  | a :: b :: r, n + 1 => by
    have ih := hexDecode_isSome (s := r) n
    constructor
    · rintro ⟨bs, h, hn⟩
      unfold hexDecode at h
      obtain ⟨x, hx, h⟩ := opt_bind h
      obtain ⟨y, hy, h⟩ := opt_bind h
      obtain ⟨t, ht, h⟩ := opt_bind h
      cases h
      obtain ⟨h1, h2⟩ := ih.1 ⟨t, ht, Nat.succ.inj hn⟩
      refine ⟨by simp only [List.length_cons]; omega, fun c hc => ?_⟩
      simp only [List.mem_cons] at hc
      rcases hc with rfl | rfl | hc
      · exact hexVal_isSome.1 ⟨_, hx⟩
      · exact hexVal_isSome.1 ⟨_, hy⟩
      · exact h2 c hc
    · rintro ⟨hl, hc⟩
      simp only [List.length_cons] at hl
      obtain ⟨bs, hb, hbl⟩ := ih.2 ⟨by omega, fun c h => hc c (by simp [h])⟩
      obtain ⟨x, hx⟩ := hexVal_isSome.2 (hc a (by simp))
      obtain ⟨y, hy⟩ := hexVal_isSome.2 (hc b (by simp))
      refine ⟨UInt8.ofNat (16 * x + y) :: bs, ?_, by simp [hbl]⟩
      unfold hexDecode
      rw [hx, hy, hb]
      rfl

theorem parseAddr_isSome {j : Json} : (∃ a, parseAddr j = some a) ↔ HasType (.prim .address) j := by
  constructor
  · rintro ⟨a, h⟩
    unfold parseAddr at h
    obtain ⟨bs, hb, h⟩ := opt_bind h
    split at h
    · rename_i hl
      obtain ⟨s, rfl, hs⟩ := parseHex_some hb
      obtain ⟨h1, h2⟩ := (hexDecode_isSome 20).1 ⟨bs, hs, hl⟩
      exact .address h1 h2
    · cases h
  · intro h
    cases h with
    | @address s h1 h2 =>
      obtain ⟨bs, hb, hl⟩ := (hexDecode_isSome (s := s.1) 20).2 ⟨h1, h2⟩
      refine ⟨⟨bs, hl⟩, ?_⟩
      unfold parseAddr
      rw [show parseHex (.str s) = some bs from hb]
      exact dif_pos hl

theorem primOfJson_isSome {p : PrimTy} {j : Json} :
    (∃ x, primOfJson j p = some x) ↔ HasType (.prim p) j := by
  cases p with
  | bool =>
    change (∃ x, j.asBool.map Prim.bool = some x) ↔ _
    constructor
    · rintro ⟨x, h⟩
      obtain ⟨b, hb, -⟩ := Option.map_eq_some_iff.1 h
      rw [asBool_some.1 hb]
      exact .bool b
    · intro h
      cases h with
      | bool b => exact ⟨_, rfl⟩
  | amount =>
    change (∃ x, (j.asU64.map fun i => Prim.amount (BitVec.ofInt _ i)) = some x) ↔ _
    constructor
    · rintro ⟨x, h⟩
      obtain ⟨i, hi, -⟩ := Option.map_eq_some_iff.1 h
      obtain ⟨rfl, h1, h2⟩ := asU64_some.1 hi
      exact .amount h1 (by omega)
    · intro h
      cases h with
      | amount h1 h2 => rw [asU64_some.2 ⟨rfl, h1, by omega⟩]; exact ⟨_, rfl⟩
  | address =>
    change (∃ x, (parseAddr j).map Prim.address = some x) ↔ _
    rw [← parseAddr_isSome]
    constructor
    · rintro ⟨x, h⟩
      obtain ⟨a, ha, -⟩ := Option.map_eq_some_iff.1 h
      exact ⟨a, ha⟩
    · rintro ⟨a, ha⟩
      rw [ha]
      exact ⟨_, rfl⟩
  | int w s =>
    constructor
    · rintro ⟨x, h⟩
      obtain ⟨i, rfl, hr, -⟩ := primOfJson_int.1 h
      obtain ⟨h1, h2⟩ := inRange_iff.1 hr
      exact .int h1 h2
    · intro h
      cases h with
      | int h1 h2 => exact ⟨_, primOfJson_int.2 ⟨_, rfl, inRange_iff.2 ⟨h1, h2⟩, rfl⟩⟩

theorem encodeItems_ok {f : Json → Outcome JsonError Value} {cap : Nat} :
    ∀ {l : List Json} {acc vs : List Value}, encodeItems f cap acc l = .ok vs ↔
      ∃ ws, List.Forall₂ (fun j v => f j = .ok v) l ws ∧ vs = acc ++ ws ∧
        (l ≠ [] → acc.length + l.length ≤ cap)
  | [], acc, vs => by
    constructor
    · intro h
      cases h
      exact ⟨[], .nil, by simp, by simp⟩
    · rintro ⟨ws, h, rfl, -⟩
      cases h
      simp [encodeItems]
  | j :: l, acc, vs => by
    unfold encodeItems
    constructor
    · intro h
      obtain ⟨v, hv, h⟩ := bind_ok h
      split at h
      · rename_i hlt
        obtain ⟨ws, h1, h2, h3⟩ := encodeItems_ok.1 h
        refine ⟨v :: ws, .cons hv h1, by simp [h2], fun _ => ?_⟩
        simp only [List.length_cons, List.length_append, List.length_nil] at h3 ⊢
        by_cases hl : l = []
        · subst hl; simp; omega
        · have := h3 hl; omega
      · cases h
    · rintro ⟨ws, h1, rfl, h3⟩
      cases h1 with
      | @cons _ v _ ws hv h1 =>
        have h4 := h3 (by simp)
        simp only [List.length_cons] at h4
        rw [hv, Outcome.ok_bind, if_pos (by omega)]
        refine encodeItems_ok.2 ⟨ws, h1, by simp, fun _ => ?_⟩
        simp only [List.length_append, List.length_cons, List.length_nil]
        omega

/-- What `encode_value` accepts. -/
theorem encodeValue_isOk : ∀ {t : TySig} {j : Json}, (∃ v, t.encodeValue j = .ok v) ↔ HasType t j
  | .prim p, j => by
    rw [← primOfJson_isSome]
    change (∃ v, (match primOfJson j p with
      | some x => Outcome.ok (Value.prim x)
      | none => badCalldata) = .ok v) ↔ _
    cases hp : primOfJson j p with
    | none => exact ⟨fun ⟨v, h⟩ => (by cases h), fun ⟨x, h⟩ => (by cases h)⟩
    | some x => exact ⟨fun _ => ⟨x, rfl⟩, fun _ => ⟨_, rfl⟩⟩
  | .bad, j => ⟨fun ⟨v, h⟩ => (by cases h), fun h => (by cases h)⟩
  | .arr t, j => by
    have ih := fun j => encodeValue_isOk (t := t) (j := j)
    unfold TySig.encodeValue
    cases j with
    | arr l =>
      change (∃ v, ((encodeItems t.encodeValue 10 [] l) >>= fun vs => .ok (Value.vec vs)) = .ok v) ↔ _
      constructor
      · rintro ⟨v, h⟩
        obtain ⟨vs, he, -⟩ := bind_ok h
        obtain ⟨ws, h1, -, h3⟩ := encodeItems_ok.1 he
        refine .arr ?_ fun j hj => ?_
        · by_cases hl : l = []
          · subst hl; simp
          · simpa using h3 hl
        · refine (ih j).1 ?_
          clear h he h3
          induction h1 with
          | nil => cases hj
          | cons hv _ ih1 =>
            rcases List.mem_cons.1 hj with rfl | hj
            · exact ⟨_, hv⟩
            · exact ih1 hj
      · intro h
        cases h with
        | arr hl h =>
          have : ∃ ws, List.Forall₂ (fun j v => t.encodeValue j = .ok v) l ws := by
            clear hl
            induction l with
            | nil => exact ⟨[], .nil⟩
            | cons j l ihl =>
              obtain ⟨v, hv⟩ := (ih j).2 (h j (by simp))
              obtain ⟨ws, hws⟩ := ihl fun j hj => h j (by simp [hj])
              exact ⟨v :: ws, .cons hv hws⟩
          obtain ⟨ws, hws⟩ := this
          rw [encodeItems_ok.2 ⟨ws, hws, rfl, fun _ => by simpa using hl⟩]
          exact ⟨_, rfl⟩
    | _ => exact ⟨fun ⟨v, h⟩ => (by cases h), fun h => (by cases h)⟩

theorem maxByteSize_prim {p : PrimTy} {j : Json} {x : Prim} {bs : Bytes}
    (h : primOfJson j p = some x) (hb : Abi.encodePrim x = some bs) : bs.length ≤ p.maxByteSize := by
  cases p with
  | bool =>
    obtain ⟨b, -, rfl⟩ := Option.map_eq_some_iff.1 (show j.asBool.map Prim.bool = some x from h)
    cases hb
    exact le_refl _
  | amount =>
    obtain ⟨i, -, rfl⟩ := Option.map_eq_some_iff.1
      (show (j.asU64.map fun i => Prim.amount (BitVec.ofInt _ i)) = some x from h)
    cases hb
    rw [Abi.encodeAmount_length]
    exact (Abi.numByteSize_bounds _).2
  | address =>
    obtain ⟨a, -, rfl⟩ := Option.map_eq_some_iff.1 (show (parseAddr j).map Prim.address = some x from h)
    cases hb
    have := a.2
    simp only [List.length_cons, PrimTy.maxByteSize]
    omega
  | int w s =>
    obtain ⟨i, -, -, rfl⟩ := primOfJson_int.1 h
    have := Abi.encodeInt_length (show Abi.encodeInt w s _ = some bs from hb)
    rw [this]
    change _ ≤ Abi.numMaxByteSize w s
    rw [Abi.numMaxByteSize_eq]
    exact Abi.numByteSize_le (BitVec.isLt _)

/-- The encoding of a value of the type fits in the room computed for it. -/
theorem encodeValue_fits : ∀ {t : TySig} {j : Json} {v : Value}, t.encodeValue j = .ok v →
    ∃ n bs, t.valueByteSize j = .ok n ∧ Abi.encode v = some bs ∧ bs.length ≤ n
  | .prim p, j, v, h => by
    unfold TySig.encodeValue at h
    split at h
    · rename_i x hx
      cases h
      obtain ⟨b, bs, hb, -⟩ := Abi.encodePrim_cons x
      exact ⟨_, _, rfl, by unfold Abi.encode; exact hb, maxByteSize_prim hx hb⟩
    · cases h
  | .bad, j, v, h => by cases h
  | .arr t, j, v, h => by
    have ih := fun (j : Json) (v : Value) (h : t.encodeValue j = .ok v) => encodeValue_fits h
    unfold TySig.encodeValue at h
    split at h
    · cases h
    · rename_i l hl
      obtain ⟨vs, he, h'⟩ := bind_ok h
      cases h'
      obtain ⟨ws, h1, h2, h3⟩ := encodeItems_ok.1 he
      rw [List.nil_append] at h2
      subst h2
      have hlen := h1.length_eq
      have key : ∃ n bs, sumSizes t.valueByteSize l = .ok n ∧ Abi.encodeList vs = some bs ∧
          bs.length ≤ n := by
        clear h he h3 hl hlen
        induction h1 with
        | nil => exact ⟨0, [], rfl, by unfold Abi.encodeList; rfl, le_refl _⟩
        | @cons j v l vs hv _ ih1 =>
          obtain ⟨n, bs, e1, e2, e3⟩ := ih1
          obtain ⟨m, cs, f1, f2, f3⟩ := ih j v hv
          refine ⟨m + n, cs ++ bs, ?_, ?_, ?_⟩
          · unfold sumSizes
            rw [f1, e1]
            rfl
          · unfold Abi.encodeList
            rw [f2, e2]
            rfl
          · rw [List.length_append]; omega
      obtain ⟨n, bs, e1, e2, e3⟩ := key
      refine ⟨1 + n, Abi.layoutArray vs.length :: bs, ?_, ?_, ?_⟩
      · unfold TySig.valueByteSize
        rw [hl]
        dsimp only
        rw [e1]
        rfl
      · unfold Abi.encode
        rw [if_pos, e2]
        · rfl
        · by_cases hn : l = []
          · subst hn
            simp only [List.length_nil] at hlen
            omega
          · have := h3 hn
            simp only [List.length_nil] at this
            omega
      · rw [List.length_cons]
        omega

/-- The values of a list of arguments. -/
abbrev Values (l : List (TySig × Json)) (vs : List Value) : Prop :=
  List.Forall₂ (fun p v => p.1.encodeValue p.2 = .ok v) l vs

theorem encodeValues_ok {size : Nat} : ∀ {l : List (TySig × Json)} {buf out : Bytes},
    encodeValues size buf l = .ok out →
    ∃ vs bs, Values l vs ∧ Abi.encodeList vs = some bs ∧ out = buf ++ bs
  | [], buf, out, h => by
    cases h
    exact ⟨[], [], .nil, by unfold Abi.encodeList; rfl, by simp⟩
  | (t, j) :: l, buf, out, h => by
    unfold encodeValues at h
    obtain ⟨v, hv, h⟩ := bind_ok h
    obtain ⟨bs, hb, h⟩ := bind_ok h
    have hb := unwrapOpt_ok hb
    split at h
    · obtain ⟨vs, cs, h1, h2, h3⟩ := encodeValues_ok h
      refine ⟨v :: vs, bs ++ cs, .cons hv h1, ?_, by simp [h3]⟩
      unfold Abi.encodeList
      rw [hb, h2]
      rfl
    · cases h

theorem encodeValues_of {size : Nat} : ∀ {l : List (TySig × Json)} {vs : List Value} (buf : Bytes),
    Values l vs → ∃ n bs, cap l = .ok n ∧ Abi.encodeList vs = some bs ∧
      (buf.length + n ≤ size → encodeValues size buf l = .ok (buf ++ bs))
  | [], _, buf, h => by
    cases h
    exact ⟨0, [], rfl, by unfold Abi.encodeList; rfl, fun _ => by simp [encodeValues]⟩
  | (t, j) :: l, _, buf, h => by
    cases h with
    | @cons _ v _ vs hv h =>
      obtain ⟨m, bs, f1, f2, f3⟩ := encodeValue_fits hv
      obtain ⟨n, cs, e1, e2, e3⟩ := encodeValues_of (size := size) (buf ++ bs) h
      refine ⟨m + n, bs ++ cs, ?_, ?_, fun hle => ?_⟩
      · unfold cap
        dsimp only at f1
        rw [f1, e1]
        rfl
      · unfold Abi.encodeList
        rw [f2, e2]
        rfl
      · unfold encodeValues
        dsimp only at hv
        rw [hv, Outcome.ok_bind, f2]
        change (if buf.length + bs.length ≤ size then encodeValues size (buf ++ bs) l else .panic) = _
        rw [if_pos (by omega), e3 (by rw [List.length_append]; omega), List.append_assoc]

/-- `DecodedInputData::encode` succeeds when every item has its type. -/
theorem encode_ok_iff {d : InputData} {bs : Bytes} : d.encode = .ok bs ↔
    ∃ vs, Values (d.abi.zip d.data) vs ∧ Abi.encodeList vs = some bs := by
  unfold InputData.encode
  constructor
  · intro h
    obtain ⟨n, -, h⟩ := bind_ok h
    obtain ⟨vs, cs, h1, h2, h3⟩ := encodeValues_ok h
    exact ⟨vs, h1, by rw [h2, h3]; rfl⟩
  · rintro ⟨vs, h1, h2⟩
    obtain ⟨n, cs, e1, -, -⟩ := encodeValues_of (size := 0) [] h1
    obtain ⟨n', cs', e1', e2', e3⟩ := encodeValues_of (size := n) [] h1
    rw [e1] at e1'
    cases e1'
    rw [h2] at e2'
    cases e2'
    rw [e1, Outcome.ok_bind, e3 (by simp)]
    rfl

theorem encode_isOk {d : InputData} : (∃ bs, d.encode = .ok bs) ↔
    ∀ p ∈ d.abi.zip d.data, HasType p.1 p.2 := by
  constructor
  · rintro ⟨bs, h⟩
    obtain ⟨vs, h1, -⟩ := encode_ok_iff.1 h
    intro p hp
    refine encodeValue_isOk.1 ?_
    clear h
    generalize d.abi.zip d.data = l at h1 hp
    induction h1 with
    | nil => cases hp
    | cons hv _ ih =>
      rcases List.mem_cons.1 hp with rfl | hp
      · exact ⟨_, hv⟩
      · exact ih hp
  · intro h
    have : ∃ vs, Values (d.abi.zip d.data) vs := by
      generalize d.abi.zip d.data = l at h
      induction l with
      | nil => exact ⟨[], .nil⟩
      | cons p l ih =>
        obtain ⟨v, hv⟩ := encodeValue_isOk.2 (h p (by simp))
        obtain ⟨vs, hvs⟩ := ih fun p hp => h p (by simp [hp])
        exact ⟨v :: vs, .cons hv hvs⟩
    obtain ⟨vs, hvs⟩ := this
    obtain ⟨n, bs, -, hb, -⟩ := encodeValues_of (size := 0) [] hvs
    exact ⟨bs, encode_ok_iff.2 ⟨vs, hvs, hb⟩⟩

/-! ## C85 -/

/-- The object has a list of types and a list of as many items. -/
def Shaped (j : Json) (ts : List TySig) (ds : List Json) : Prop :=
  (∃ as, j.field "abi" = some (.arr as) ∧ TySig.listOfJson as = some ts) ∧
    j.field "data" = some (.arr ds) ∧ ts.length = ds.length

theorem parseTypes_some {j : Json} {ts : List TySig} :
    parseTypes j = some ts ↔ ∃ as, j = .arr as ∧ TySig.listOfJson as = some ts := by
  unfold parseTypes
  constructor
  · intro h
    obtain ⟨as, ha, h⟩ := opt_bind h
    exact ⟨as, asArray_some.1 ha, h⟩
  · rintro ⟨as, rfl, h⟩
    exact h

theorem new_ok {j : Json} {d : InputData} : InputData.new j = .ok d ↔ Shaped j d.abi d.data := by
  unfold InputData.new Shaped
  constructor
  · intro h
    obtain ⟨abi, ha, h⟩ := bind_ok h
    obtain ⟨data, hd, h⟩ := bind_ok h
    split at h
    · cases h
    · rename_i hl
      cases h
      obtain ⟨a, ha1, ha2⟩ := getField_ok.1 ha
      obtain ⟨as, rfl, ha3⟩ := parseTypes_some.1 ha2
      obtain ⟨b, hb1, hb2⟩ := getField_ok.1 hd
      rw [asArray_some.1 hb2] at hb1
      exact ⟨⟨as, ha1, ha3⟩, hb1, not_not.1 hl⟩
  · rintro ⟨⟨as, h1, h2⟩, h3, h4⟩
    rw [getField_ok.2 ⟨_, h1, parseTypes_some.2 ⟨as, rfl, h2⟩⟩, Outcome.ok_bind,
      getField_ok.2 ⟨_, h3, asArray_some.2 rfl⟩, Outcome.ok_bind, if_neg (not_not.2 h4)]

theorem new_ne_panic (j : Json) : InputData.new j ≠ .panic := by
  unfold InputData.new
  cases h : getField parseTypes j "abi" with
  | err e => nofun
  | panic => exact absurd h getField_ne_panic
  | ok a =>
    rw [Outcome.ok_bind]
    cases h' : getField Json.asArray j "data" with
    | err e => nofun
    | panic => exact absurd h' getField_ne_panic
    | ok b =>
      rw [Outcome.ok_bind]
      split <;> nofun

theorem encodeInputData_ok {j out : Json} : encodeInputData j = .ok out ↔
    ∃ ts ds vs bs, Shaped j ts ds ∧ Values (ts.zip ds) vs ∧ Abi.encodeList vs = some bs ∧
      out = .obj [("data", .str (hexStr bs))] := by
  unfold encodeInputData
  constructor
  · intro h
    obtain ⟨d, hd, h⟩ := bind_ok h
    obtain ⟨bs, hb, h⟩ := bind_ok h
    cases h
    obtain ⟨vs, h1, h2⟩ := encode_ok_iff.1 (unwrapRes_ok hb)
    exact ⟨_, _, vs, bs, new_ok.1 hd, h1, h2, rfl⟩
  · rintro ⟨ts, ds, vs, bs, h1, h2, h3, rfl⟩
    rw [(new_ok (d := { abi := ts, data := ds })).2 h1, Outcome.ok_bind,
      (encode_ok_iff (d := { abi := ts, data := ds })).2 ⟨vs, h2, h3⟩]
    rfl

/-- C85: whatever JSON it is given, the encoder returns the encoding or an error. -/
def C85_claim : Prop := ∀ j, encodeInputData j ≠ .panic

/-- **C85, partial.** The encoder succeeds on an object that has a list of types and as many items, each
of the type in its place. On JSON without such lists it returns an error. -/
theorem C85_encode_partial (j : Json) :
    ((∃ out, encodeInputData j = .ok out) ↔ ∃ ts ds, Shaped j ts ds ∧ ∀ p ∈ ts.zip ds, HasType p.1 p.2) ∧
      ((∃ e, encodeInputData j = .err e) ↔ ¬ ∃ ts ds, Shaped j ts ds) := by
  constructor
  · constructor
    · rintro ⟨out, h⟩
      obtain ⟨ts, ds, vs, bs, h1, h2, h3, -⟩ := encodeInputData_ok.1 h
      refine ⟨ts, ds, h1, ?_⟩
      exact (encode_isOk (d := { abi := ts, data := ds })).1 ⟨bs, encode_ok_iff.2 ⟨vs, h2, h3⟩⟩
    · rintro ⟨ts, ds, h1, h2⟩
      obtain ⟨bs, hb⟩ := (encode_isOk (d := { abi := ts, data := ds })).2 h2
      obtain ⟨vs, h3, h4⟩ := encode_ok_iff.1 hb
      exact ⟨_, encodeInputData_ok.2 ⟨ts, ds, vs, bs, h1, h3, h4, rfl⟩⟩
  · unfold encodeInputData
    cases hn : InputData.new j with
    | panic => exact absurd hn (new_ne_panic j)
    | err e =>
      refine ⟨fun _ ⟨ts, ds, h⟩ => ?_, fun _ => ⟨e, rfl⟩⟩
      rw [(new_ok (d := { abi := ts, data := ds })).2 h] at hn
      cases hn
    | ok d =>
      refine ⟨fun ⟨e, h⟩ => ?_, fun h => absurd ⟨_, _, new_ok.1 hn⟩ h⟩
      rw [Outcome.ok_bind] at h
      cases hd : d.encode <;> rw [hd] at h <;> cases h

/-- **C85 fails.** An item that does not have the type given for it makes the encoder panic. -/
theorem C85_panics {j : Json} {ts : List TySig} {ds : List Json} (h : Shaped j ts ds) :
    encodeInputData j = .panic ↔ ∃ p ∈ ts.zip ds, ¬ HasType p.1 p.2 := by
  unfold encodeInputData
  rw [(new_ok (d := { abi := ts, data := ds })).2 h, Outcome.ok_bind]
  have key := encode_isOk (d := { abi := ts, data := ds })
  cases hd : ({ abi := ts, data := ds } : InputData).encode with
  | ok bs =>
    refine ⟨fun h => (by cases h), fun ⟨p, hp, hn⟩ => absurd (key.1 ⟨bs, hd⟩ p hp) hn⟩
  | err e =>
    refine ⟨fun _ => ?_, fun _ => rfl⟩
    by_contra hc
    push Not at hc
    obtain ⟨bs, hb⟩ := key.2 hc
    rw [hd] at hb
    cases hb
  | panic =>
    refine ⟨fun _ => ?_, fun _ => rfl⟩
    by_contra hc
    push Not at hc
    obtain ⟨bs, hb⟩ := key.2 hc
    rw [hd] at hb
    cases hb

/-! ### Examples -/

/-- `{"abi": ["u8", ["bool"]], "data": [200, [true, false]]}`. -/
def exGood : Json := .obj [("abi", .arr [.str (PrimTy.name (.int .w8 false)), .arr [.str PrimTy.bool.name]]),
  ("data", .arr [.int 200, .arr [.bool true, .bool false]])]

example : encodeInputData exGood = .ok (.obj [("data", .str (hexStr [0x12, 200, 0x26, 0x10, 0x00]))]) := rfl

/-- `{"abi": ["u8"], "data": [256]}`. -/
def exBad : Json := .obj [("abi", .arr [.str (PrimTy.name (.int .w8 false))]), ("data", .arr [.int 256])]

example : encodeInputData exBad = .panic := rfl

theorem exBad_shaped : Shaped exBad [.prim (.int .w8 false)] [.int 256] :=
  ⟨⟨_, rfl, rfl⟩, rfl, rfl⟩

/-- **C85 fails.** -/
theorem C85_claim_false : ¬ C85_claim := fun h =>
  h exBad ((C85_panics exBad_shaped).2 ⟨_, List.mem_cons_self, fun ht => by
    cases ht with
    | int h1 h2 => exact absurd h2 (by decide)⟩)

end Svm.JsonApi
