import Verif.Json.Encode

/-!
# C84 and C86: input data to JSON and back
-/

namespace Svm.JsonApi

open Svm.Codec (Str Addr)
open Svm.Abi (Width Prim Value)

/-! ## Specification -/

/-- The same JSON, with letters of strings in upper case. -/
inductive InUpperCase : Json → Json → Prop
  | bool (b : Bool) : InUpperCase (.bool b) (.bool b)
  | int (i : Int) : InUpperCase (.int i) (.int i)
  | str {s t : Str} (h : t.1 = s.1.map upperByte) : InUpperCase (.str s) (.str t)
  | arr {l m : List Json} (hl : l.length = m.length)
      (h : ∀ (i : Nat) (hi : i < l.length), InUpperCase l[i] (m[i]'(hl ▸ hi))) : InUpperCase (.arr l) (.arr m)

/-- An array of eight items, or with an array among its items. -/
def Unreadable (j : Json) : Prop := ∃ l, j = .arr l ∧ (l.length = 8 ∨ ∃ m, .arr m ∈ l)

/-- The type shown for an item: that of an empty array is lost. -/
def shownType (ty item : Json) : Json :=
  match item with
  | .arr [] => .null
  | _ => ty

/-! ## From JSON to values -/

theorem forall₂_upper {l m : List Json} (h : List.Forall₂ InUpperCase l m) :
    InUpperCase (.arr l) (.arr m) :=
  .arr h.length_eq fun _ hi => List.Forall₂.get h hi (h.length_eq ▸ hi)

theorem primTyOf_primOfJson {p : PrimTy} {j : Json} {x : Prim} (h : primOfJson j p = some x) :
    primTyOf x = some p ∧ ∃ j', primToJson x = some j' ∧ InUpperCase j j' := by
  cases p with
  | bool =>
    obtain ⟨b, hb, rfl⟩ := Option.map_eq_some_iff.1 (show j.asBool.map Prim.bool = some x from h)
    rw [asBool_some.1 hb]
    exact ⟨rfl, _, rfl, .bool b⟩
  | amount =>
    obtain ⟨i, hi, rfl⟩ := Option.map_eq_some_iff.1
      (show (j.asU64.map fun i => Prim.amount (BitVec.ofInt _ i)) = some x from h)
    obtain ⟨rfl, h1, h2⟩ := asU64_some.1 hi
    refine ⟨rfl, _, rfl, ?_⟩
    have : (((BitVec.ofInt 64 i).toNat : Nat) : Int) = i :=
      intOf_ofInt (w := .w64) (s := false) (show inRange .w64 false i from ⟨h1, h2⟩)
    rw [this]
    exact .int i
  | address =>
    obtain ⟨a, ha, rfl⟩ := Option.map_eq_some_iff.1 (show (parseAddr j).map Prim.address = some x from h)
    unfold parseAddr at ha
    obtain ⟨bs, hb, ha⟩ := opt_bind ha
    split at ha
    · cases ha
      obtain ⟨s, rfl, hs⟩ := parseHex_some hb
      exact ⟨rfl, _, rfl, .str (hexEncode_hexDecode hs).1⟩
    · cases ha
  | int w s =>
    obtain ⟨i, rfl, hr, rfl⟩ := primOfJson_int.1 h
    refine ⟨rfl, _, rfl, ?_⟩
    rw [intOf_ofInt hr]
    exact .int i

theorem valuesToJson_of {f : Json → Value → Prop} {l : List Json} {vs : List Value}
    (h : List.Forall₂ f l vs) (hf : ∀ j v, f j v → ∃ j', valueToJson v = some j' ∧ InUpperCase j j') :
    ∃ l', valuesToJson vs = some l' ∧ List.Forall₂ InUpperCase l l' := by
  induction h with
  | nil => exact ⟨[], by unfold valuesToJson; rfl, .nil⟩
  | @cons j v l vs hv _ ih =>
    obtain ⟨l', h1, h2⟩ := ih
    obtain ⟨j', h3, h4⟩ := hf j v hv
    refine ⟨j' :: l', ?_, .cons h4 h2⟩
    unfold valuesToJson
    rw [h3, h1]
    rfl

theorem encodeValue_arr {t : TySig} {j : Json} {v : Value} (h : (TySig.arr t).encodeValue j = .ok v) :
    ∃ l vs, j = .arr l ∧ v = .vec vs ∧ List.Forall₂ (fun j v => t.encodeValue j = .ok v) l vs := by
  unfold TySig.encodeValue at h
  split at h
  · cases h
  · rename_i l hl
    obtain ⟨vs, he, h'⟩ := bind_ok h
    cases h'
    obtain ⟨ws, h1, h2, -⟩ := encodeItems_ok.1 he
    rw [List.nil_append] at h2
    subst h2
    exact ⟨l, _, asArray_some.1 hl, rfl, h1⟩

theorem encodeValue_prim {p : PrimTy} {j : Json} {v : Value}
    (h : (TySig.prim p).encodeValue j = .ok v) : ∃ x, v = .prim x ∧ primOfJson j p = some x := by
  unfold TySig.encodeValue at h
  split at h
  · rename_i x hx
    cases h
    exact ⟨x, rfl, hx⟩
  · cases h

/-- Reading a value and writing it again changes at most the case of letters. -/
theorem valueToJson_encodeValue : ∀ {t : TySig} {j : Json} {v : Value}, t.encodeValue j = .ok v →
    ∃ j', valueToJson v = some j' ∧ InUpperCase j j'
  | .prim p, j, v, h => by
    obtain ⟨x, rfl, hx⟩ := encodeValue_prim h
    unfold valueToJson
    exact (primTyOf_primOfJson hx).2
  | .bad, j, v, h => by cases h
  | .arr t, j, v, h => by
    obtain ⟨l, vs, rfl, rfl, h1⟩ := encodeValue_arr h
    obtain ⟨l', h2, h3⟩ := valuesToJson_of h1 fun j v hv => valueToJson_encodeValue hv
    refine ⟨.arr l', ?_, forall₂_upper h3⟩
    unfold valueToJson
    rw [h2]
    rfl

theorem primOfJson_arr {l : List Json} {p : PrimTy} : primOfJson (.arr l) p = none := by
  cases p with
  | int w s => cases w <;> cases s <;> rfl
  | _ => rfl

/-- The values the ABI decoder returns, seen from the JSON they are read from. -/
theorem good_iff {t : TySig} {j : Json} {v : Value} (h : t.encodeValue j = .ok v) :
    Abi.Good v ↔ ¬ Unreadable j := by
  cases t with
  | bad => cases h
  | prim p =>
    obtain ⟨x, rfl, hx⟩ := encodeValue_prim h
    refine ⟨fun _ ⟨l, hl, _⟩ => ?_, fun _ => .prim x⟩
    rw [hl, primOfJson_arr] at hx
    cases hx
  | arr t =>
    obtain ⟨l, vs, rfl, rfl, h1⟩ := encodeValue_arr h
    rw [Abi.good_vec_iff, ← h1.length_eq]
    have items : (∀ v ∈ vs, v.IsPrim) ↔ ¬ ∃ m, .arr m ∈ l := by
      clear h
      induction h1 with
      | nil => simp
      | @cons j v l vs hv _ ih =>
        have hj : v.IsPrim ↔ ¬ ∃ m, j = .arr m := by
          cases t with
          | bad => cases hv
          | prim p =>
            obtain ⟨x, rfl, hx⟩ := encodeValue_prim hv
            refine ⟨fun _ ⟨m, hm⟩ => ?_, fun _ => ⟨x, rfl⟩⟩
            rw [hm, primOfJson_arr] at hx
            cases hx
          | arr t =>
            obtain ⟨m, ws, rfl, rfl, -⟩ := encodeValue_arr hv
            exact ⟨fun h => absurd h (Abi.not_isPrim_vec ws), fun h => absurd ⟨m, rfl⟩ h⟩
        simp only [List.mem_cons, forall_eq_or_imp, hj, ih]
        constructor
        · rintro ⟨h1, h2⟩ ⟨m, rfl | hm⟩
          · exact h1 ⟨m, rfl⟩
          · exact h2 ⟨m, hm⟩
        · intro h
          exact ⟨fun ⟨m, hm⟩ => h ⟨m, .inl hm.symm⟩, fun ⟨m, hm⟩ => h ⟨m, .inr hm⟩⟩
    rw [items]
    constructor
    · rintro ⟨h1, h2⟩ ⟨l', hl', h3⟩
      cases hl'
      rcases h3 with h3 | h3
      · exact h1 h3
      · exact h2 h3
    · intro h
      exact ⟨fun h8 => h ⟨l, rfl, .inl h8⟩, fun hm => h ⟨l, rfl, .inr hm⟩⟩

/-! ## Types -/

theorem listOfJson_cons {j : Json} {l : List Json} {ts : List TySig}
    (h : TySig.listOfJson (j :: l) = some ts) :
    ∃ t ts', TySig.ofJson j = some t ∧ TySig.listOfJson l = some ts' ∧ ts = t :: ts' := by
  unfold TySig.listOfJson at h
  obtain ⟨t, h1, h⟩ := opt_bind h
  obtain ⟨ts', h2, h⟩ := opt_bind h
  cases h
  exact ⟨t, ts', h1, h2, rfl⟩

theorem listOfJson_length : ∀ {l : List Json} {ts : List TySig}, TySig.listOfJson l = some ts →
    ts.length = l.length
  | [], ts, h => by unfold TySig.listOfJson at h; cases h; rfl
  | j :: l, ts, h => by
    obtain ⟨t, ts', -, h2, rfl⟩ := listOfJson_cons h
    rw [List.length_cons, List.length_cons, listOfJson_length h2]

theorem ofJson_prim {a : Json} {p : PrimTy} (h : TySig.ofJson a = some (.prim p)) :
    a = .str p.name := by
  cases a with
  | str s =>
    unfold TySig.ofJson at h
    obtain ⟨q, hq, hp⟩ := Option.map_eq_some_iff.1 h
    cases hp
    rw [name_ofName hq]
  | arr l =>
    unfold TySig.ofJson at h
    obtain ⟨ts, -, ht⟩ := Option.map_eq_some_iff.1 h
    unfold TySig.array at ht
    split at ht <;> cases ht
  | _ => unfold TySig.ofJson at h; cases h

theorem ofJson_arr {a : Json} {t : TySig} (h : TySig.ofJson a = some (.arr t)) :
    ∃ b, a = .arr [b] ∧ TySig.ofJson b = some t := by
  cases a with
  | str s =>
    unfold TySig.ofJson at h
    obtain ⟨q, -, hp⟩ := Option.map_eq_some_iff.1 h
    cases hp
  | arr l =>
    unfold TySig.ofJson at h
    obtain ⟨ts, hts, ht⟩ := Option.map_eq_some_iff.1 h
    unfold TySig.array at ht
    split at ht
    · rename_i t'
      cases ht
      cases l with
      | nil => unfold TySig.listOfJson at hts; cases hts
      | cons b l =>
        obtain ⟨t, ts', h1, h2, h3⟩ := listOfJson_cons hts
        cases h3
        have := listOfJson_length h2
        cases l with
        | nil => exact ⟨b, rfl, h1⟩
        | cons c l => cases this
    · cases ht
  | _ => unfold TySig.ofJson at h; cases h

theorem typeOfLast_of {ty : Json} : ∀ {vs : List Value}, vs ≠ [] → (∀ v ∈ vs, typeOf v = some ty) →
    typeOfLast vs = some (.arr [ty])
  | [], h, _ => absurd rfl h
  | [v], _, h => by
    unfold typeOfLast
    rw [h v (by simp)]
    rfl
  | v :: w :: vs, _, h => by
    unfold typeOfLast
    exact typeOfLast_of (by simp) fun u hu => h u (by simp [hu])

theorem typeOf_prim {p : PrimTy} {j : Json} {v : Value} (h : (TySig.prim p).encodeValue j = .ok v) :
    typeOf v = some (.str p.name) := by
  obtain ⟨x, rfl, hx⟩ := encodeValue_prim h
  unfold typeOf
  rw [(primTyOf_primOfJson hx).1]
  rfl

theorem shownType_prim {p : PrimTy} {ty j : Json} {x : Prim} (h : primOfJson j p = some x) :
    shownType ty j = ty := by
  cases j with
  | arr l => rw [primOfJson_arr] at h; cases h
  | _ => rfl

/-- The type shown for what was read as an item. -/
theorem typeOf_encodeValue {t : TySig} {a j : Json} {v : Value} (ha : TySig.ofJson a = some t)
    (h : t.encodeValue j = .ok v) (hr : ¬ Unreadable j) : typeOf v = some (shownType a j) := by
  cases t with
  | bad => cases h
  | prim p =>
    obtain ⟨x, -, hx⟩ := encodeValue_prim h
    rw [typeOf_prim h, shownType_prim hx, ofJson_prim ha]
  | arr t =>
    obtain ⟨l, vs, rfl, rfl, h1⟩ := encodeValue_arr h
    obtain ⟨b, rfl, hb⟩ := ofJson_arr ha
    unfold typeOf
    cases h1 with
    | nil => unfold typeOfLast; rfl
    | @cons j v l vs hv h1 =>
      cases t with
      | bad => cases hv
      | arr t =>
        obtain ⟨m, -, rfl, -⟩ := encodeValue_arr hv
        exact absurd ⟨_, rfl, .inr ⟨m, by simp⟩⟩ hr
      | prim p =>
        rw [ofJson_prim hb]
        refine typeOfLast_of (by simp) fun w hw => ?_
        rcases List.mem_cons.1 hw with rfl | hw
        · exact typeOf_prim hv
        · clear h hr hv
          induction h1 with
          | nil => cases hw
          | cons hv _ ih =>
            rcases List.mem_cons.1 hw with rfl | hw
            · exact typeOf_prim hv
            · exact ih (by simp [hw]) hw

/-! ## Reading encoded values -/

open Classical in
theorem nextAll_encode (chk : Bool) : ∀ {vs : List Value} {bs : Bytes} {n : Nat},
    Abi.encodeList vs = some bs → vs.length ≤ n →
    Abi.nextAll chk n bs = if ∀ v ∈ vs, Abi.Good v then .ok vs else .panic
  | [], bs, n, h, _ => by
    unfold Abi.encodeList at h
    cases h
    rw [if_pos (by simp)]
    cases n with
    | zero => rfl
    | succ n => rfl
  | v :: vs, bs, 0, _, hn => absurd hn (by simp)
  | v :: vs, bs, n + 1, h, hn => by
    obtain ⟨a, b, h1, h2, rfl⟩ := Abi.encodeList_cons h
    have ih := nextAll_encode chk h2 (n := n) (by simpa using hn)
    unfold Abi.nextAll
    rw [Abi.next_encode chk h1 b]
    by_cases hg : Abi.Good v
    · rw [if_pos hg, Outcome.ok_bind]
      dsimp only
      rw [ih]
      by_cases hall : ∀ v ∈ vs, Abi.Good v
      · rw [if_pos hall, if_pos]
        · rfl
        · intro w hw
          rcases List.mem_cons.1 hw with rfl | hw
          · exact hg
          · exact hall w hw
      · rw [if_neg hall, if_neg]
        · rfl
        · exact fun hc => hall fun w hw => hc w (by simp [hw])
    · rw [if_neg hg, if_neg]
      · rfl
      · exact fun hc => hg (hc v (by simp))

theorem length_le_encodeList : ∀ {vs : List Value} {bs : Bytes}, Abi.encodeList vs = some bs →
    vs.length ≤ bs.length
  | [], _, _ => by simp
  | v :: vs, bs, h => by
    obtain ⟨a, b, h1, h2, rfl⟩ := Abi.encodeList_cons h
    have := length_le_encodeList h2
    have := List.length_pos_iff.2 (Abi.encode_ne_nil h1)
    rw [List.length_cons, List.length_append]
    omega

theorem decode_hex (chk : Bool) (bs : Bytes) :
    decodeInputData chk (.obj [("data", .str (hexStr bs))]) = calldataToJson chk bs := by
  unfold decodeInputData
  rw [getField_ok.2 ⟨_, rfl, parseHex_hexStr bs⟩]
  rfl

/-- What is shown of encoded values. -/
theorem calldataToJson_encode (chk : Bool) {vs : List Value} {bs : Bytes}
    (h : Abi.encodeList vs = some bs) : ((¬ ∀ v ∈ vs, Abi.Good v) → calldataToJson chk bs = .panic) ∧
      ∀ abi data, (∀ v ∈ vs, Abi.Good v) → typesOf vs = some abi → valuesToJson vs = some data →
        calldataToJson chk bs = .ok (.obj [("abi", .arr abi), ("data", .arr data)]) := by
  unfold calldataToJson
  rw [nextAll_encode chk h (length_le_encodeList h)]
  refine ⟨fun hg => by rw [if_neg hg]; rfl, fun abi data hg h1 h2 => ?_⟩
  rw [if_pos hg]
  change ((Outcome.unwrapOpt (typesOf vs) : Outcome JsonError _) >>= _) = _
  rw [h1]
  change ((Outcome.unwrapOpt (valuesToJson vs) : Outcome JsonError _) >>= _) = _
  rw [h2]
  rfl

/-! ## C84 -/

/-- C84: decoding encoded input data returns the types and the items that were encoded, up to the case
of the hexadecimal digits of addresses. -/
def C84_claim : Prop := ∀ (chk : Bool) (j out : Json), encodeInputData j = .ok out →
  ∃ abi data data', j.field "abi" = some abi ∧ j.field "data" = some data ∧ InUpperCase data data' ∧
    decodeInputData chk out = .ok (.obj [("abi", abi), ("data", data')])

/-- **C84.** What becomes of encoded input data. The decoder panics if an item is an array of eight items
or contains an array. Otherwise it returns the items, and their types except for those of empty arrays,
for which it shows `null`. -/
theorem C84_decode (chk : Bool) {j out : Json} (h : encodeInputData j = .ok out) :
    ∃ as ds, j.field "abi" = some (.arr as) ∧ j.field "data" = some (.arr ds) ∧ as.length = ds.length ∧
      ((∃ d ∈ ds, Unreadable d) → decodeInputData chk out = .panic) ∧
      ((∀ d ∈ ds, ¬ Unreadable d) → ∃ ds', InUpperCase (.arr ds) (.arr ds') ∧ decodeInputData chk out =
        .ok (.obj [("abi", .arr (List.zipWith shownType as ds)), ("data", .arr ds')])) := by
  obtain ⟨ts, ds, vs, bs, ⟨⟨as, ha, hts⟩, hd, hl⟩, hv, hb, rfl⟩ := encodeInputData_ok.1 h
  refine ⟨as, ds, ha, hd, by rw [← hl, listOfJson_length hts], ?_⟩
  rw [decode_hex]
  obtain ⟨c1, c2⟩ := calldataToJson_encode chk hb
  clear h ha hd hb
  have key : ((∀ v ∈ vs, Abi.Good v) ↔ ∀ d ∈ ds, ¬ Unreadable d) ∧
      (∃ ds', valuesToJson vs = some ds' ∧ List.Forall₂ InUpperCase ds ds') ∧
      ((∀ d ∈ ds, ¬ Unreadable d) → typesOf vs = some (List.zipWith shownType as ds)) := by
    clear c1 c2
    induction as generalizing ts ds vs with
    | nil =>
      unfold TySig.listOfJson at hts
      cases hts
      cases ds with
      | nil =>
        cases hv
        exact ⟨by simp, ⟨[], by unfold valuesToJson; rfl, .nil⟩, fun _ => by unfold typesOf; rfl⟩
      | cons d ds => cases hl
    | cons a as ih =>
      obtain ⟨t, ts', ht, hts', rfl⟩ := listOfJson_cons hts
      cases ds with
      | nil => cases hl
      | cons d ds =>
        cases hv with
        | @cons _ v _ vs hv1 hv =>
          obtain ⟨e1, ⟨ds', e2, e3⟩, e4⟩ := ih ts' ds vs hts' (Nat.succ.inj hl) hv
          obtain ⟨d', f1, f2⟩ := valueToJson_encodeValue hv1
          refine ⟨?_, ⟨d' :: ds', ?_, .cons f2 e3⟩, fun hr => ?_⟩
          · simp only [List.mem_cons, forall_eq_or_imp, e1, good_iff hv1]
          · unfold valuesToJson
            rw [f1, e2]
            rfl
          · unfold typesOf
            rw [typeOf_encodeValue ht hv1 (hr d (by simp)), e4 fun d hd => hr d (by simp [hd])]
            rfl
  obtain ⟨k1, ⟨ds', k2, k3⟩, k4⟩ := key
  refine ⟨fun ⟨d, hd, hu⟩ => c1 fun hg => k1.1 hg d hd hu, fun hr => ⟨ds', forall₂_upper k3, ?_⟩⟩
  exact c2 _ _ (k1.2 hr) (k4 hr) k2

/-- **C84, partial.** The types and the items come back if the arrays among the items are not empty, do
not have eight items and contain no arrays. -/
theorem C84_roundtrip_partial (chk : Bool) {j out : Json} (h : encodeInputData j = .ok out)
    (hd : ∀ ds l, j.field "data" = some (.arr ds) → .arr l ∈ ds →
      l ≠ [] ∧ l.length ≠ 8 ∧ ∀ m, .arr m ∉ l) :
    ∃ abi data data', j.field "abi" = some abi ∧ j.field "data" = some data ∧ InUpperCase data data' ∧
      decodeInputData chk out = .ok (.obj [("abi", abi), ("data", data')]) := by
  obtain ⟨as, ds, h1, h2, h3, -, h5⟩ := C84_decode chk h
  obtain ⟨ds', h6, h7⟩ := h5 fun d hd' ⟨l, hl, hu⟩ => by
    subst hl
    obtain ⟨-, g2, g3⟩ := hd ds l h2 hd'
    rcases hu with hu | ⟨m, hm⟩
    · exact g2 hu
    · exact g3 m hm
  refine ⟨_, _, _, h1, h2, h6, ?_⟩
  have : List.zipWith shownType as ds = as := by
    have hne : ∀ d ∈ ds, d ≠ .arr [] := fun d hd' he => by
      subst he
      exact (hd ds [] h2 hd').1 rfl
    clear h h1 h2 h5 h6 h7 hd
    induction as generalizing ds with
    | nil => rfl
    | cons a as ih =>
      cases ds with
      | nil => cases h3
      | cons d ds =>
        rw [List.zipWith_cons_cons, ih ds (Nat.succ.inj h3) fun d hd => hne d (by simp [hd])]
        have : shownType a d = a := by
          unfold shownType
          split
          · exact absurd rfl (hne _ (by simp))
          · rfl
        rw [this]
  rw [h7, this]

/-- Addresses in upper case come back as they are. -/
theorem InUpperCase.eq {j j' : Json} (h : InUpperCase j j') :
    (∀ s, j = .str s → ∀ c ∈ s.1, ¬ (97 ≤ c ∧ c ≤ 122)) → (∀ l, j ≠ .arr l) → j' = j := by
  intro hs ha
  cases h with
  | bool b => rfl
  | int i => rfl
  | @str s t ht =>
    have : s.1.map upperByte = s.1 := by
      have := hs s rfl
      generalize s.1 = l at this
      induction l with
      | nil => rfl
      | cons c l ih =>
        rw [List.map_cons, ih fun c hc => this c (by simp [hc])]
        unfold upperByte
        rw [if_neg (this c (by simp))]
    rw [this] at ht
    rw [Subtype.ext ht]
  | arr hl h => exact absurd rfl (ha _)

/-- **C84 fails** for empty arrays: what is decoded is refused when encoded again. -/
theorem C84_empty (chk : Bool) {j out : Json} (h : encodeInputData j = .ok out) {ds : List Json}
    (hd : j.field "data" = some (.arr ds)) (he : .arr [] ∈ ds) (hr : ∀ d ∈ ds, ¬ Unreadable d) :
    ∃ k, decodeInputData chk out = .ok k ∧ encodeInputData k = .err (.invalidField "abi") := by
  obtain ⟨as, ds', h1, h2, h3, -, h5⟩ := C84_decode chk h
  rw [hd] at h2
  cases h2
  obtain ⟨ds', -, h7⟩ := h5 hr
  refine ⟨_, h7, ?_⟩
  have : TySig.listOfJson (List.zipWith shownType as ds) = none := by
    clear h h1 h5 h7 hd hr
    induction as generalizing ds with
    | nil =>
      cases ds with
      | nil => cases he
      | cons d ds => cases h3
    | cons a as ih =>
      cases ds with
      | nil => cases h3
      | cons d ds =>
        rw [List.zipWith_cons_cons]
        unfold TySig.listOfJson
        rcases List.mem_cons.1 he with rfl | he
        · unfold shownType TySig.ofJson
          rfl
        · rw [ih he (Nat.succ.inj h3)]
          cases TySig.ofJson (shownType a d) <;> rfl
  unfold encodeInputData InputData.new
  rw [getField_invalid (v := .arr (List.zipWith shownType as ds)) rfl this]
  rfl

/-- `{"abi": [["u8"]], "data": [[]]}`. -/
def exEmpty : Json := .obj [("abi", .arr [.arr [.str (PrimTy.name (.int .w8 false))]]), ("data", .arr [.arr []])]

example : encodeInputData exEmpty = .ok (.obj [("data", .str (hexStr [0x06]))]) := rfl

example : decodeInputData true (.obj [("data", .str (hexStr [0x06]))]) =
    .ok (.obj [("abi", .arr [.null]), ("data", .arr [.arr []])]) := rfl

/-- `C84_roundtrip_partial` applies to `exGood`. -/
example : decodeInputData true (.obj [("data", .str (hexStr [0x12, 200, 0x26, 0x10, 0x00]))]) =
    .ok exGood := rfl

/-- **C84 fails.** -/
theorem C84_claim_false : ¬ C84_claim := by
  intro hc
  obtain ⟨abi, data, data', h1, -, -, h4⟩ := hc true exEmpty (.obj [("data", .str (hexStr [0x06]))]) rfl
  cases h1
  have h5 : decodeInputData true (.obj [("data", .str (hexStr [0x06]))]) =
    .ok (.obj [("abi", .arr [.null]), ("data", .arr [.arr []])]) := rfl
  rw [h5] at h4
  injection h4 with h4
  injection h4 with h4
  injection h4 with h4
  injection h4 with _ h4
  injection h4 with h4
  injection h4 with h4
  cases h4

/-! ## C86 -/

/-- C86: what is shown of input data can be encoded, and is shown alike again. -/
def C86_claim : Prop := ∀ (chk : Bool) (bs : Bytes) (j : Json), calldataToJson chk bs = .ok j →
  ∃ out, encodeInputData j = .ok out ∧ decodeInputData chk out = .ok j

/-- The kinds of the items of an array: the type of a primitive. -/
def SameType (v w : Value) : Prop := ∃ p q, v = .prim p ∧ w = .prim q ∧ primTyOf p = primTyOf q

theorem primOfJson_primToJson {p : Prim} {t : PrimTy} {j : Json} (h1 : primTyOf p = some t)
    (h2 : primToJson p = some j) : primOfJson j t = some p := by
  cases p with
  | none_ => cases h1
  | unit => cases h1
  | bool b => cases h1; cases h2; rfl
  | address a =>
    cases h1; cases h2
    change (parseAddr (addrJson a)).map Prim.address = _
    rw [parseAddr_addrJson]
    rfl
  | amount x =>
    cases h1; cases h2
    change ((Json.int x.toNat).asU64.map fun i => Prim.amount (BitVec.ofInt _ i)) = _
    have h := x.isLt
    rw [asU64_some.2 ⟨rfl, by omega, by exact_mod_cast h⟩]
    have := ofInt_intOf (w := .w64) (s := false) x
    exact congrArg (fun y => some (Prim.amount y)) this
  | int w s x =>
    cases h1; cases h2
    exact primOfJson_int.2 ⟨_, rfl, inRange_intOf x, by rw [ofInt_intOf]⟩

theorem primToJson_of_ty {p : Prim} {t : PrimTy} (h : primTyOf p = some t) :
    ∃ j, primToJson p = some j := by
  cases p <;> first | exact ⟨_, rfl⟩ | cases h

/-- The values `next` returns, until the end: each is flat and good. -/
theorem nextAll_ok {chk : Bool} : ∀ {n : Nat} {bs : Bytes} {vs : List Value},
    Abi.nextAll chk n bs = .ok vs → ∀ v ∈ vs, Abi.Flat v ∧ Abi.Good v
  | 0, bs, vs, h, v, hv => by cases h; cases hv
  | n + 1, bs, vs, h, v, hv => by
    unfold Abi.nextAll at h
    obtain ⟨⟨o, r⟩, h1, h2⟩ := bind_ok h
    cases o with
    | none => cases h2; cases hv
    | some w =>
      dsimp only at h2
      obtain ⟨l, h3, h4⟩ := bind_ok h2
      cases h4
      rcases List.mem_cons.1 hv with rfl | hv
      · unfold Abi.next at h1
        split at h1
        · cases h1
        · split at h1
          · rename_i hd
            cases h1
            exact ⟨(Abi.C75_decode_partial hd).1, (Abi.C75_decode_partial hd).2.1⟩
          · cases h1
      · exact nextAll_ok h3 v hv

/-- A value all of whose parts have the type shown for it. -/
def Uniform (v : Value) : Prop :=
  ∀ l, v = .vec l → l ≠ [] ∧ ∀ x ∈ l, ∀ y ∈ l, SameType x y

theorem typeOfLast_ok {ty : Json} : ∀ {l : List Value}, l ≠ [] → typeOfLast l = some ty →
    ∃ v ∈ l, ∃ t, typeOf v = some t ∧ ty = .arr [t]
  | [], h, _ => absurd rfl h
  | [v], _, h => by
    unfold typeOfLast at h
    obtain ⟨t, ht, rfl⟩ := Option.map_eq_some_iff.1 h
    exact ⟨v, by simp, t, ht, rfl⟩
  | v :: w :: l, _, h => by
    unfold typeOfLast at h
    obtain ⟨u, hu, t, h1, h2⟩ := typeOfLast_ok (by simp) h
    exact ⟨u, by simp [hu], t, h1, h2⟩

theorem ofJson_name (p : PrimTy) : TySig.ofJson (.str p.name) = some (.prim p) := by
  unfold TySig.ofJson
  rw [ofName_name]
  rfl

theorem encodeValue_of_prim {p : Prim} {t : PrimTy} {j : Json} (h1 : primTyOf p = some t)
    (h2 : primToJson p = some j) : (TySig.prim t).encodeValue j = .ok (.prim p) := by
  unfold TySig.encodeValue
  rw [primOfJson_primToJson h1 h2]

/-- A uniform value is read back from what is shown of it. -/
theorem encodeValue_of_shown {v : Value} {a j : Json} (hf : Abi.Flat v) (hu : Uniform v)
    (h1 : typeOf v = some a) (h2 : valueToJson v = some j) :
    ∃ t, TySig.ofJson a = some t ∧ t.encodeValue j = .ok v := by
  cases v with
  | prim p =>
    unfold typeOf at h1
    unfold valueToJson at h2
    obtain ⟨t, ht, rfl⟩ := Option.map_eq_some_iff.1 h1
    exact ⟨.prim t, ofJson_name t, encodeValue_of_prim ht h2⟩
  | vec l =>
    obtain ⟨hne, hs⟩ := hu l rfl
    unfold typeOf at h1
    unfold valueToJson at h2
    obtain ⟨js, hjs, rfl⟩ := Option.map_eq_some_iff.1 h2
    obtain ⟨v, hv, ty, hty, rfl⟩ := typeOfLast_ok hne h1
    obtain ⟨p, -, rfl, -, -⟩ := hs v hv v hv
    unfold typeOf at hty
    obtain ⟨t, ht, rfl⟩ := Option.map_eq_some_iff.1 hty
    refine ⟨.arr (.prim t), ?_, ?_⟩
    · unfold TySig.ofJson TySig.listOfJson
      rw [ofJson_name]
      unfold TySig.listOfJson
      rfl
    · have hall : ∀ x ∈ l, ∃ q, x = .prim q ∧ primTyOf q = some t := fun x hx => by
        obtain ⟨q, r, rfl, hr, he⟩ := hs x hx _ hv
        cases hr
        exact ⟨q, rfl, by rw [he, ht]⟩
      have h2 : List.Forall₂ (fun j v => (TySig.prim t).encodeValue j = .ok v) js l := by
        clear hf hu h1 h2 hne hs hv
        induction l generalizing js with
        | nil => unfold valuesToJson at hjs; cases hjs; exact .nil
        | cons x l ih =>
          unfold valuesToJson at hjs
          obtain ⟨j, hj, hjs⟩ := opt_bind hjs
          obtain ⟨js', hjs', hjs⟩ := opt_bind hjs
          cases hjs
          obtain ⟨q, rfl, hq⟩ := hall x (by simp)
          unfold valueToJson at hj
          exact .cons (encodeValue_of_prim hq hj) (ih js' hjs' fun x hx => hall x (by simp [hx]))
      unfold TySig.encodeValue
      change ((encodeItems (TySig.prim t).encodeValue 10 [] js) >>= fun vs => Outcome.ok (Value.vec vs)) = _
      have hlen := h2.length_eq
      rw [encodeItems_ok.2 ⟨l, h2, rfl, fun _ => ?_⟩]
      · rfl
      · cases hf with
        | vec hl _ => simp only [List.length_nil]; omega

/-- **C86, partial.** If the bytes decode to values of which no array is empty or has items of different
types, what is shown of them can be encoded, into bytes of the same values, and is shown alike. -/
theorem C86_reencode_partial {chk : Bool} {bs : Bytes} {j : Json} {vs : List Value}
    (h : calldataToJson chk bs = .ok j) (hn : Abi.nextAll chk bs.length bs = .ok vs)
    (hu : ∀ v ∈ vs, Uniform v) : ∃ cs, Abi.encodeList vs = some cs ∧
      encodeInputData j = .ok (.obj [("data", .str (hexStr cs))]) ∧
      decodeInputData chk (.obj [("data", .str (hexStr cs))]) = .ok j := by
  have hok := nextAll_ok hn
  obtain ⟨cs, hcs⟩ := Abi.encodeList_of_flat fun v hv => (hok v hv).1
  unfold calldataToJson at h
  rw [hn] at h
  change ((Outcome.unwrapOpt (typesOf vs) : Outcome JsonError _) >>= _) = _ at h
  obtain ⟨abi, ha', h1⟩ := bind_ok h
  obtain ⟨data, hd', h2⟩ := bind_ok h1
  cases h2
  have ha := unwrapOpt_ok ha'
  have hd := unwrapOpt_ok hd'
  clear h h1 ha' hd'
  refine ⟨cs, hcs, ?_, ?_⟩
  · have key : ∃ ts, TySig.listOfJson abi = some ts ∧ ts.length = data.length ∧
        Values (ts.zip data) vs := by
      clear hcs hn
      induction vs generalizing abi data with
      | nil =>
        unfold typesOf at ha
        unfold valuesToJson at hd
        cases ha; cases hd
        exact ⟨[], by unfold TySig.listOfJson; rfl, rfl, .nil⟩
      | cons v vs ih =>
        unfold typesOf at ha
        unfold valuesToJson at hd
        obtain ⟨a, ha1, ha⟩ := opt_bind ha
        obtain ⟨as, ha2, ha⟩ := opt_bind ha
        cases ha
        obtain ⟨d, hd1, hd⟩ := opt_bind hd
        obtain ⟨ds, hd2, hd⟩ := opt_bind hd
        cases hd
        obtain ⟨ts, e1, e2, e3⟩ := ih (fun v hv => hu v (by simp [hv])) (fun v hv => hok v (by simp [hv]))
          as ds ha2 hd2
        obtain ⟨t, f1, f2⟩ := encodeValue_of_shown (hok v (by simp)).1 (hu v (by simp)) ha1 hd1
        refine ⟨t :: ts, ?_, by simp [e2], .cons f2 e3⟩
        unfold TySig.listOfJson
        rw [f1, e1]
        rfl
    obtain ⟨ts, e1, e2, e3⟩ := key
    exact encodeInputData_ok.2 ⟨ts, data, vs, cs, ⟨⟨abi, rfl, e1⟩, rfl, e2⟩, e3, hcs, rfl⟩
  · rw [decode_hex]
    exact (calldataToJson_encode chk hcs).2 _ _ (fun v hv => (hok v hv).2) ha hd

/-- The values that can be shown: none is, or contains, `None` or the unit value. -/
def Showable (v : Value) : Prop :=
  v ≠ .prim .none_ ∧ v ≠ .prim .unit ∧ ∀ l, v = .vec l → .prim .none_ ∉ l ∧ .prim .unit ∉ l

theorem primTyOf_isSome {p : Prim} : (∃ t, primTyOf p = some t) ↔ p ≠ .none_ ∧ p ≠ .unit := by
  cases p <;> simp [primTyOf]

theorem valuesToJson_isSome : ∀ {l : List Value},
    (∃ js, valuesToJson l = some js) ↔ ∀ v ∈ l, ∃ j, valueToJson v = some j
  | [] => ⟨fun _ v hv => absurd hv (by simp), fun _ => ⟨[], by unfold valuesToJson; rfl⟩⟩
  | v :: l => by
    have ih := valuesToJson_isSome (l := l)
    rw [List.forall_mem_cons, ← ih, valuesToJson]
    constructor
    · rintro ⟨js, h⟩
      obtain ⟨j, h1, h⟩ := opt_bind h
      obtain ⟨js', h2, -⟩ := opt_bind h
      exact ⟨⟨j, h1⟩, ⟨js', h2⟩⟩
    · rintro ⟨⟨j, h1⟩, ⟨js, h2⟩⟩
      rw [h1, h2]
      exact ⟨_, rfl⟩

theorem typesOf_isSome : ∀ {l : List Value},
    (∃ js, typesOf l = some js) ↔ ∀ v ∈ l, ∃ j, typeOf v = some j
  | [] => ⟨fun _ v hv => absurd hv (by simp), fun _ => ⟨[], by unfold typesOf; rfl⟩⟩
  | v :: l => by
    have ih := typesOf_isSome (l := l)
    rw [List.forall_mem_cons, ← ih, typesOf]
    constructor
    · rintro ⟨js, h⟩
      obtain ⟨j, h1, h⟩ := opt_bind h
      obtain ⟨js', h2, -⟩ := opt_bind h
      exact ⟨⟨j, h1⟩, ⟨js', h2⟩⟩
    · rintro ⟨⟨j, h1⟩, ⟨js, h2⟩⟩
      rw [h1, h2]
      exact ⟨_, rfl⟩

theorem primToJson_isSome {p : Prim} : (∃ j, primToJson p = some j) ↔ p ≠ .none_ ∧ p ≠ .unit := by
  cases p <;> simp [primToJson]

theorem typeOfLast_isSome : ∀ {l : List Value}, (∀ v ∈ l, ∃ p, v = .prim p ∧ p ≠ .none_ ∧ p ≠ .unit) →
    ∃ t, typeOfLast l = some t
  | [], _ => ⟨.null, by unfold typeOfLast; rfl⟩
  | [v], h => by
    obtain ⟨p, rfl, hp⟩ := h v (by simp)
    obtain ⟨t, ht⟩ := primTyOf_isSome.2 hp
    unfold typeOfLast typeOf
    rw [ht]
    exact ⟨_, rfl⟩
  | v :: w :: l, h => by
    unfold typeOfLast
    exact typeOfLast_isSome fun u hu => h u (by simp [hu])

theorem showable_iff {v : Value} (hf : Abi.Flat v) :
    ((∃ a, typeOf v = some a) ∧ ∃ j, valueToJson v = some j) ↔ Showable v := by
  cases v with
  | prim p =>
    unfold typeOf valueToJson Showable
    rw [primToJson_isSome]
    simp only [Option.map_eq_some_iff]
    constructor
    · rintro ⟨-, h1, h2⟩
      exact ⟨fun h => h1 (by cases h; rfl), fun h => h2 (by cases h; rfl), fun l h => by cases h⟩
    · rintro ⟨h1, h2, -⟩
      have hp : p ≠ .none_ ∧ p ≠ .unit := ⟨fun h => h1 (by rw [h]), fun h => h2 (by rw [h])⟩
      obtain ⟨t, ht⟩ := primTyOf_isSome.2 hp
      exact ⟨⟨_, t, ht, rfl⟩, hp⟩
  | vec l =>
    have hp : ∀ v ∈ l, ∃ p, v = .prim p := by cases hf; assumption
    unfold typeOf valueToJson Showable
    constructor
    · rintro ⟨-, j, h⟩
      obtain ⟨js, hjs, -⟩ := Option.map_eq_some_iff.1 h
      have := valuesToJson_isSome.1 ⟨js, hjs⟩
      refine ⟨nofun, nofun, fun l' hl' => ?_⟩
      cases hl'
      constructor
      · intro hm
        obtain ⟨j, hj⟩ := this _ hm
        unfold valueToJson at hj
        cases hj
      · intro hm
        obtain ⟨j, hj⟩ := this _ hm
        unfold valueToJson at hj
        cases hj
    · rintro ⟨-, -, h⟩
      obtain ⟨h1, h2⟩ := h l rfl
      have hall : ∀ v ∈ l, ∃ p, v = .prim p ∧ p ≠ .none_ ∧ p ≠ .unit := fun v hv => by
        obtain ⟨p, rfl⟩ := hp v hv
        exact ⟨p, rfl, fun h => h1 (h ▸ hv), fun h => h2 (h ▸ hv)⟩
      refine ⟨typeOfLast_isSome hall, ?_⟩
      obtain ⟨js, hjs⟩ := valuesToJson_isSome.2 fun v hv => by
        obtain ⟨p, rfl, hpp⟩ := hall v hv
        unfold valueToJson
        exact primToJson_isSome.2 hpp
      rw [hjs]
      exact ⟨_, rfl⟩

/-- **C86.** Which input data can be shown: that of which the ABI decoder returns every value, none of
them being or containing `None` or the unit value. Showing any other panics. -/
theorem C86_shown (chk : Bool) (bs : Bytes) :
    ((∃ j, calldataToJson chk bs = .ok j) ↔
      ∃ vs, Abi.nextAll chk bs.length bs = .ok vs ∧ ∀ v ∈ vs, Showable v) ∧
    ((¬ ∃ j, calldataToJson chk bs = .ok j) → calldataToJson chk bs = .panic) := by
  unfold calldataToJson
  cases hn : Abi.nextAll chk bs.length bs with
  | err e => exact e.elim
  | panic =>
    exact ⟨⟨fun ⟨j, h⟩ => (by cases h), fun ⟨vs, h, _⟩ => (by cases h)⟩, fun _ => rfl⟩
  | ok vs =>
    have hok := nextAll_ok hn
    have hw : (Outcome.unwrapRes (Outcome.ok (ε := Empty) vs) : Outcome JsonError _) = .ok vs := rfl
    rw [hw, Outcome.ok_bind]
    have key : (∀ v ∈ vs, Showable v) ↔ (∃ a, typesOf vs = some a) ∧ ∃ d, valuesToJson vs = some d := by
      rw [typesOf_isSome, valuesToJson_isSome]
      constructor
      · intro h
        exact ⟨fun v hv => ((showable_iff (hok v hv).1).2 (h v hv)).1,
          fun v hv => ((showable_iff (hok v hv).1).2 (h v hv)).2⟩
      · rintro ⟨h1, h2⟩ v hv
        exact (showable_iff (hok v hv).1).1 ⟨h1 v hv, h2 v hv⟩
    have hex : (∃ ws, Outcome.ok (ε := Empty) vs = .ok ws ∧ ∀ v ∈ ws, Showable v) ↔
        ∀ v ∈ vs, Showable v :=
      ⟨fun ⟨ws, h, hs⟩ => by cases h; exact hs, fun h => ⟨vs, rfl, h⟩⟩
    rw [hex, key]
    cases ha : typesOf vs with
    | none => exact ⟨⟨fun ⟨j, h⟩ => (by cases h), fun ⟨⟨a, h⟩, _⟩ => (by cases h)⟩, fun _ => rfl⟩
    | some a =>
      cases hd : valuesToJson vs with
      | none => exact ⟨⟨fun ⟨j, h⟩ => (by cases h), fun ⟨_, ⟨d, h⟩⟩ => (by cases h)⟩, fun _ => rfl⟩
      | some d =>
        exact ⟨⟨fun _ => ⟨⟨a, rfl⟩, ⟨d, rfl⟩⟩, fun _ => ⟨_, rfl⟩⟩, fun h => absurd ⟨_, rfl⟩ h⟩

/-- The loop of `calldata_to_json` ends at the end of the bytes: more turns do not change the result. -/
theorem nextAll_more {chk : Bool} (k : Nat) : ∀ {n : Nat} {bs : Bytes}, bs.length ≤ n →
    Abi.nextAll chk (n + k) bs = Abi.nextAll chk n bs
  | n, [], _ => by
    cases n with
    | zero => cases k <;> rfl
    | succ n => rw [Nat.succ_add]; rfl
  | 0, b :: bs, h => absurd h (by simp)
  | n + 1, b :: bs, h => by
    rw [Nat.succ_add]
    unfold Abi.nextAll
    have step : ∀ v r, Abi.next chk (b :: bs) = .ok (some v, r) → r.length ≤ n := fun v r hn => by
      unfold Abi.next at hn
      rw [if_neg (by simp)] at hn
      split at hn
      · rename_i hd
        cases hn
        obtain ⟨-, -, pre, -, hp, he, -, -⟩ := Abi.C75_decode_partial hd
        have h1 := congrArg List.length he
        have h2 := List.length_pos_iff.2 hp
        rw [List.length_append] at h1
        omega
      · cases hn
    cases hn : Abi.next chk (b :: bs) with
    | err e => exact e.elim
    | panic => rfl
    | ok o =>
      obtain ⟨o, r⟩ := o
      rw [Outcome.ok_bind, Outcome.ok_bind]
      cases o with
      | none => rfl
      | some v =>
        dsimp only
        rw [nextAll_more k (step v r hn)]

/-- **C86 fails** for empty arrays: what is shown of one is not accepted. -/
theorem C86_empty {chk : Bool} {bs : Bytes} {j : Json} {vs : List Value}
    (h : calldataToJson chk bs = .ok j) (hn : Abi.nextAll chk bs.length bs = .ok vs)
    (he : .vec [] ∈ vs) : encodeInputData j = .err (.invalidField "abi") := by
  unfold calldataToJson at h
  rw [hn] at h
  change ((Outcome.unwrapOpt (typesOf vs) : Outcome JsonError _) >>= _) = _ at h
  obtain ⟨abi, ha', h1⟩ := bind_ok h
  obtain ⟨data, hd', h2⟩ := bind_ok h1
  cases h2
  have ha := unwrapOpt_ok ha'
  clear h h1 ha' hd'
  have : TySig.listOfJson abi = none := by
    clear hn
    induction vs generalizing abi with
    | nil => cases he
    | cons v vs ih =>
      unfold typesOf at ha
      obtain ⟨a, ha1, ha⟩ := opt_bind ha
      obtain ⟨as, ha2, ha⟩ := opt_bind ha
      cases ha
      unfold TySig.listOfJson
      rcases List.mem_cons.1 he with rfl | he
      · unfold typeOf typeOfLast at ha1
        cases ha1
        unfold TySig.ofJson
        rfl
      · rw [ih he as ha2]
        cases TySig.ofJson a <;> rfl
  unfold encodeInputData InputData.new
  rw [getField_invalid (v := .arr abi) rfl this]
  rfl

/-! ### Examples -/

/-- The bytes of an array of `true` and the `u8` 5. -/
def exMixed : Bytes := [0x26, 0x10, 0x12, 5]

/-- They are shown as an array of `u8`, -/
example : calldataToJson true exMixed = .ok (.obj [("abi", .arr [.arr [.str (PrimTy.name (.int .w8 false))]]),
    ("data", .arr [.arr [.bool true, .int 5]])]) := rfl

/-- which the encoder panics on. -/
example : (calldataToJson true exMixed >>= encodeInputData) = .panic := rfl

/-- An array of an `i8` and an `i16` is shown, and encoded again, as one of two `i16`. -/
example : (calldataToJson true [0x26, 0x02, 5, 0x22, 7] >>= encodeInputData) =
    .ok (.obj [("data", .str (hexStr [0x26, 0x22, 5, 0x22, 7]))]) := rfl

/-- `None` cannot be shown. -/
example : calldataToJson true [Abi.NONE] = .panic := rfl

/-- `C86_reencode_partial` applies to padded numbers, which come back in fewer bytes. -/
example : calldataToJson true [0x52, 0, 5] =
    .ok (.obj [("abi", .arr [.str (PrimTy.name (.int .w16 false))]), ("data", .arr [.int 5])]) := rfl

example : encodeInputData (.obj [("abi", .arr [.str (PrimTy.name (.int .w16 false))]),
    ("data", .arr [.int 5])]) = .ok (.obj [("data", .str (hexStr [0x42, 5]))]) := rfl

/-- **C86 fails.** -/
theorem C86_claim_false : ¬ C86_claim := by
  intro hc
  have h0 : calldataToJson true exMixed = .ok (.obj [("abi", .arr [.arr [.str (PrimTy.name (.int .w8 false))]]),
    ("data", .arr [.arr [.bool true, .int 5]])]) := rfl
  obtain ⟨out, h, -⟩ := hc true exMixed _ h0
  have : encodeInputData (.obj [("abi", .arr [.arr [.str (PrimTy.name (.int .w8 false))]]),
    ("data", .arr [.arr [.bool true, .int 5]])]) = .panic := rfl
  rw [this] at h
  cases h

end Svm.JsonApi
