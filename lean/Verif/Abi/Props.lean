import Verif.Abi.Lemmas

/-! # Round trips of ABI values (C58, C60) -/

namespace Svm.Abi

open Svm.Codec (natBE beNat Arr Addr)

/-! ## Encoding and decoding values -/

/-- Primitives. -/
def Value.IsPrim (v : Value) : Prop := ∃ p, v = .prim p

/-- The values of C58: primitives, and arrays of at most ten primitives. -/
inductive Flat : Value → Prop
  | prim (p : Prim) : Flat (.prim p)
  | vec {l : List Value} (hl : l.length ≤ 10) (h : ∀ v ∈ l, v.IsPrim) : Flat (.vec l)

/-- The values the encoder accepts: arrays, also nested ones, have at most ten items. -/
inductive Accepted : Value → Prop
  | prim (p : Prim) : Accepted (.prim p)
  | vec {l : List Value} (hl : l.length ≤ 10) (h : ∀ v ∈ l, Accepted v) : Accepted (.vec l)

/-- The values the decoder returns: primitives, and arrays of primitives other than those of exactly
eight items. -/
inductive Good : Value → Prop
  | prim (p : Prim) : Good (.prim p)
  | vec {l : List Value} (hl : l.length ≠ 8) (h : ∀ v ∈ l, v.IsPrim) : Good (.vec l)

/-- `n` calls of `CallData::next`. -/
def nextN (chk : Bool) : Nat → Bytes → Outcome Empty (List (Option Value))
  | 0, _ => .ok []
  | n + 1, inp => do
    let (v, r) ← next chk inp
    let l ← nextN chk n r
    .ok (v :: l)

theorem isPrim_prim (p : Prim) : (Value.prim p).IsPrim := ⟨p, rfl⟩

theorem not_isPrim_vec (l : List Value) : ¬ (Value.vec l).IsPrim := fun ⟨_, h⟩ => nomatch h

theorem encode_vec {l : List Value} {bs : Bytes} (h : encode (.vec l) = some bs) :
    l.length < 11 ∧ ∃ b, encodeList l = some b ∧ bs = layoutArray l.length :: b := by
  unfold encode at h
  split at h
  · rename_i hl
    refine ⟨hl, ?_⟩
    cases hb : encodeList l with
    | none => rw [hb] at h; cases h
    | some b => rw [hb] at h; cases h; exact ⟨b, rfl, rfl⟩
  · cases h

theorem encodeList_cons {v : Value} {l : List Value} {bs : Bytes} (h : encodeList (v :: l) = some bs) :
    ∃ a b, encode v = some a ∧ encodeList l = some b ∧ bs = a ++ b := by
  unfold encodeList at h
  cases ha : encode v with
  | none => rw [ha] at h; cases h
  | some a =>
    rw [ha] at h
    cases hb : encodeList l with
    | none => rw [hb] at h; cases h
    | some b => rw [hb] at h; cases h; exact ⟨a, b, rfl, rfl, rfl⟩

open Classical in
/-- Decoding the encoded items of an array. -/
theorem decodeItems_encode (chk : Bool) (cap : Nat) {l : List Value} : ∀ {bs : Bytes} (acc : List Value),
    encodeList l = some bs → ∀ r, decodeItems chk cap l.length acc (bs ++ r) =
      if (∀ v ∈ l, v.IsPrim) ∧ (l ≠ [] → acc.length + l.length ≤ cap) then .ok (acc ++ l, r)
      else .panic := by
  induction l with
  | nil =>
    intro bs acc h r
    unfold encodeList at h
    cases h
    rw [if_pos ⟨fun _ h => absurd h (by simp), fun h => absurd rfl h⟩, List.append_nil]
    rfl
  | cons v l ih =>
    intro bs acc h r
    obtain ⟨a, b, ha, hb, rfl⟩ := encodeList_cons h
    rw [List.append_assoc]
    cases v with
    | prim p =>
      have hp := decodePrim_encode chk (p := p) (by unfold encode at ha; exact ha) (b ++ r)
      change (decodePrim chk _).bind _ = _
      rw [hp]
      change (if acc.length < cap then decodeItems chk cap l.length (acc ++ [.prim p]) (b ++ r)
        else .panic) = _
      rw [ih _ hb r]
      simp only [List.length_append, List.length_cons, List.length_nil, List.append_assoc,
        List.cons_append, List.nil_append, List.forall_mem_cons, isPrim_prim, true_and]
      by_cases hc : acc.length < cap
      · rw [if_pos hc]
        refine if_congr (and_congr_right fun _ => ?_) rfl rfl
        constructor
        · intro h1 _
          rcases eq_or_ne l [] with rfl | hl
          · simp only [List.length_nil]; omega
          · have := h1 hl; omega
        · intro h1 _
          have := h1 (by simp); omega
      · rw [if_neg hc, if_neg]
        rintro ⟨-, h1⟩
        have := h1 (by simp)
        omega
    | vec l' =>
      obtain ⟨hl, b', -, rfl⟩ := encode_vec ha
      change (decodePrim chk _).bind _ = _
      rw [List.cons_append, decodePrim_array chk hl, if_neg]
      · rfl
      · rintro ⟨h1, -⟩
        exact not_isPrim_vec l' (h1 _ (by simp))

theorem good_vec_iff {l : List Value} : Good (.vec l) ↔ l.length ≠ 8 ∧ ∀ v ∈ l, v.IsPrim :=
  ⟨fun h => by cases h; constructor <;> assumption, fun h => .vec h.1 h.2⟩

open Classical in
/-- What the decoder makes of encoded values: good ones come back, all others panic. -/
theorem decodeValue_encode (chk : Bool) {v : Value} {bs : Bytes} (h : encode v = some bs) (r : Bytes) :
    decodeValue chk (bs ++ r) = if Good v then .ok (v, r) else .panic := by
  cases v with
  | prim p =>
    unfold encode at h
    have hd := decodePrim_encode chk h r
    obtain ⟨b, t, hb, k, hk, hka⟩ := encodePrim_cons p
    rw [h] at hb
    cases hb
    rw [if_pos (.prim p), ← hd]
    unfold decodeValue
    rw [List.cons_append, if_neg (by simp), peekKind_of _ hk]
    cases k <;> first | rfl | exact absurd rfl hka
  | vec l =>
    obtain ⟨hl, b, hb, rfl⟩ := encode_vec h
    have ha := kindOf_array hl
    unfold decodeValue
    rw [List.cons_append, if_neg (by simp), peekKind_of _ ha.1]
    refine Eq.trans (show _ = decodeArray chk (layoutArray l.length :: (b ++ r)) from rfl) ?_
    unfold decodeArray
    rw [if_neg (by simp)]
    change (sizeOf ARR _).bind _ = _
    rw [ha.2]
    change (decodeItems chk _ l.length [] (b ++ r)).bind _ = _
    rw [decodeItems_encode chk _ [] hb r]
    have hcap := layoutArray_cap hl
    by_cases hg : Good (.vec l)
    · rw [if_pos hg, if_pos]
      · rfl
      · rw [good_vec_iff] at hg
        refine ⟨hg.2, fun _ => ?_⟩
        simp only [List.length_nil, Nat.zero_add]
        exact hcap.2 hg.1
    · rw [if_neg hg, if_neg]
      · rfl
      · rintro ⟨h1, h2⟩
        refine hg (good_vec_iff.2 ⟨fun h8 => ?_, h1⟩)
        have h0 : l ≠ [] := fun h0 => by rw [h0] at h8; simp at h8
        have := h2 h0
        simp only [List.length_nil, Nat.zero_add] at this
        exact hcap.1 this h8

theorem encode_ne_nil {v : Value} {bs : Bytes} (h : encode v = some bs) : bs ≠ [] := by
  cases v with
  | prim p =>
    unfold encode at h
    obtain ⟨b, t, hb, -⟩ := encodePrim_cons p
    rw [h] at hb
    cases hb
    simp
  | vec l =>
    obtain ⟨-, b, -, rfl⟩ := encode_vec h
    simp

theorem encode_of_accepted {v : Value} (h : Accepted v) : ∃ bs, encode v = some bs := by
  induction h with
  | prim p =>
    obtain ⟨b, t, hb, -⟩ := encodePrim_cons p
    exact ⟨_, by unfold encode; exact hb⟩
  | @vec l hl h ih =>
    have : ∃ b, encodeList l = some b := by
      clear hl h
      induction l with
      | nil => exact ⟨_, by unfold encodeList; rfl⟩
      | cons v l ih' =>
        obtain ⟨a, ha⟩ := ih v (by simp)
        obtain ⟨b, hb⟩ := ih' fun v hv => ih v (by simp [hv])
        exact ⟨a ++ b, by unfold encodeList; rw [ha, hb]; rfl⟩
    obtain ⟨b, hb⟩ := this
    refine ⟨layoutArray l.length :: b, ?_⟩
    unfold encode
    rw [if_pos (by omega), hb]
    rfl

mutual

theorem accepted_of_encode : ∀ {v : Value} {bs : Bytes}, encode v = some bs → Accepted v
  | .prim p, _, _ => .prim p
  | .vec l, _, h => by
    obtain ⟨hl, b, hb, -⟩ := encode_vec h
    exact .vec (by omega) (accepted_of_encodeList hb)

theorem accepted_of_encodeList : ∀ {l : List Value} {bs : Bytes}, encodeList l = some bs →
    ∀ v ∈ l, Accepted v
  | [], _, _, _, hv => absurd hv (by simp)
  | w :: l, _, h, v, hv => by
    obtain ⟨a, b, ha, hb, -⟩ := encodeList_cons h
    have hw := accepted_of_encode ha
    have hl := accepted_of_encodeList hb
    rcases List.mem_cons.1 hv with rfl | hv
    · exact hw
    · exact hl v hv

end

theorem Flat.accepted {v : Value} (h : Flat v) : Accepted v := by
  cases h with
  | prim p => exact .prim p
  | vec hl h => exact .vec hl fun v hv => by obtain ⟨p, rfl⟩ := h v hv; exact .prim p

theorem encodeList_of_flat {l : List Value} (h : ∀ v ∈ l, Flat v) : ∃ bs, encodeList l = some bs := by
  induction l with
  | nil => exact ⟨_, by unfold encodeList; rfl⟩
  | cons v l ih =>
    obtain ⟨a, ha⟩ := encode_of_accepted (h v (by simp)).accepted
    obtain ⟨b, hb⟩ := ih fun v hv => h v (by simp [hv])
    exact ⟨a ++ b, by unfold encodeList; rw [ha, hb]; rfl⟩

open Classical in
theorem next_encode (chk : Bool) {v : Value} {bs : Bytes} (h : encode v = some bs) (r : Bytes) :
    next chk (bs ++ r) = if Good v then .ok (some v, r) else .panic := by
  unfold next
  rw [if_neg (by have := encode_ne_nil h; simp [this]), decodeValue_encode chk h r]
  by_cases hg : Good v
  · rw [if_pos hg, if_pos hg]
  · rw [if_neg hg, if_neg hg]

/-! ## C58: sequences of values round trip -/

/-- **C58, as stated.** -/
def C58_claim : Prop := ∀ (chk : Bool) (vs : List Value), (∀ v ∈ vs, Flat v) →
  ∃ bs, encodeList vs = some bs ∧ ∀ k, nextN chk (vs.length + k) bs =
    .ok (vs.map some ++ List.replicate k none)

theorem nextN_nil (chk : Bool) : ∀ k, nextN chk k [] = .ok (List.replicate k none)
  | 0 => rfl
  | k + 1 => by
    change (nextN chk k []).bind _ = _
    rw [nextN_nil chk k]
    rfl

/-- **C58, partial.** Sequences of primitives and of arrays of at most ten primitives round trip, and
then the end is reported for ever, if no array has exactly eight items. -/
theorem C58_roundtrip_partial (chk : Bool) {vs : List Value} (h : ∀ v ∈ vs, Flat v)
    (h8 : ∀ l, .vec l ∈ vs → l.length ≠ 8) : ∃ bs, encodeList vs = some bs ∧
      ∀ k, nextN chk (vs.length + k) bs = .ok (vs.map some ++ List.replicate k none) := by
  induction vs with
  | nil => exact ⟨[], by unfold encodeList; rfl, fun k => by rw [List.length_nil, Nat.zero_add, nextN_nil]; rfl⟩
  | cons v vs ih =>
    obtain ⟨a, ha⟩ := encode_of_accepted (h v (by simp)).accepted
    obtain ⟨b, hb, hn⟩ := ih (fun v hv => h v (by simp [hv])) fun l hl => h8 l (by simp [hl])
    refine ⟨a ++ b, by unfold encodeList; rw [ha, hb]; rfl, fun k => ?_⟩
    have hg : Good v := by
      cases h v (by simp) with
      | prim p => exact .prim p
      | vec hl hp => exact .vec (h8 _ (by simp)) hp
    rw [List.length_cons, Nat.add_right_comm]
    change (next chk (a ++ b)).bind _ = _
    rw [next_encode chk ha b, if_pos hg]
    change (nextN chk (vs.length + k) b).bind _ = _
    rw [hn k]
    rfl

/-- **C58.** An array of exactly eight primitives never comes back: the program reading it panics. -/
theorem C58_eight (chk : Bool) {l : List Value} (h8 : l.length = 8) (h : ∀ v ∈ l, v.IsPrim) :
    ∃ bs, encode (.vec l) = some bs ∧ ∀ r, next chk (bs ++ r) = .panic := by
  obtain ⟨bs, hb⟩ := encode_of_accepted (Flat.vec (by omega) h).accepted
  refine ⟨bs, hb, fun r => ?_⟩
  rw [next_encode chk hb r, if_neg]
  rw [good_vec_iff]
  exact fun hg => hg.1 h8

/-- **C58 fails.** -/
theorem C58_claim_false : ¬ C58_claim := by
  intro hc
  have hp : ∀ v ∈ List.replicate 8 (Value.prim .unit), v.IsPrim := fun v hv => by
    rw [List.eq_of_mem_replicate hv]
    exact ⟨_, rfl⟩
  obtain ⟨bs, hb, hn⟩ := hc true [.vec (List.replicate 8 (.prim .unit))] fun v hv => by
    rw [List.mem_singleton.1 hv]
    exact .vec (by simp) hp
  obtain ⟨bs', hb', hn'⟩ := C58_eight true (by simp) hp
  obtain ⟨a, b, ha, hb2, rfl⟩ := encodeList_cons hb
  rw [ha] at hb'
  obtain rfl := Option.some.inj hb'
  have := hn 0
  change (next true (a ++ b)).bind _ = _ at this
  rw [hn'] at this
  cases this

/-! ## C60: which accepted values the decoder accepts -/

/-- **C60, as stated.** -/
def C60_claim : Prop := ∀ (chk : Bool) (v : Value) (bs : Bytes), encode v = some bs →
  ∃ r, decodeValue chk bs = .ok r

/-- **C60.** The encoder accepts the values whose arrays have at most ten items, however nested. -/
theorem C60_accepted (v : Value) : (∃ bs, encode v = some bs) ↔ Accepted v :=
  ⟨fun ⟨_, h⟩ => accepted_of_encode h, encode_of_accepted⟩

/-- **C60, partial.** Of the accepted values the decoder returns the primitives and the arrays of
primitives that do not have eight items. It never reports an error for an encoded value. -/
theorem C60_decodes_partial (chk : Bool) {v : Value} {bs : Bytes} (h : encode v = some bs) (r : Bytes) :
    (Good v → decodeValue chk (bs ++ r) = .ok (v, r)) ∧
      (¬ Good v → decodeValue chk (bs ++ r) = .panic) := by
  rw [decodeValue_encode chk h r]
  exact ⟨fun hg => if_pos hg, fun hg => if_neg hg⟩

/-- **C60.** Every array holding an array is accepted by the encoder and makes the decoder panic. -/
theorem C60_nested (chk : Bool) {l m : List Value} {bs : Bytes} (h : encode (.vec l) = some bs)
    (hm : .vec m ∈ l) (r : Bytes) : decodeValue chk (bs ++ r) = .panic :=
  (C60_decodes_partial chk h r).2 fun hg => not_isPrim_vec m ((good_vec_iff.1 hg).2 _ hm)

/-- **C60 fails.** -/
theorem C60_claim_false : ¬ C60_claim := by
  intro hc
  obtain ⟨bs, hb⟩ := encode_of_accepted (v := .vec [.vec []])
    (.vec (by simp) fun v hv => by
      rw [List.mem_singleton.1 hv]
      exact .vec (by simp) fun _ h => absurd h (by simp))
  obtain ⟨r, hr⟩ := hc true _ bs hb
  have := C60_nested true hb (m := []) (by simp) []
  rw [List.append_nil, hr] at this
  cases this

/-! ## Examples -/

/-- A signed number, an amount and an array of three. -/
def exValues : List Value :=
  [.prim (.int .w16 true (-2#16)), .prim (.amount 1000#64),
   .vec [.prim .none_, .prim (.bool true), .prim (.int .w32 false 70000#32)]]

example : encodeList exValues =
    some [0x32, 0xff, 0xfe, 0x11, 0x03, 0xe8, 0x36, 0x20, 0x10, 0x63, 0x01, 0x11, 0x70] := by
  decide +kernel

example : (∀ v ∈ exValues, Flat v) ∧ ∀ l, Value.vec l ∈ exValues → l.length ≠ 8 := by
  refine ⟨?_, ?_⟩
  · simp only [exValues, List.forall_mem_cons]
    refine ⟨.prim _, .prim _, .vec (by decide) ?_, fun _ h => absurd h (by simp)⟩
    simp only [List.forall_mem_cons]
    exact ⟨⟨_, rfl⟩, ⟨_, rfl⟩, ⟨_, rfl⟩, fun _ h => absurd h (by simp)⟩
  · intro l hl
    simp only [exValues, List.mem_cons, List.not_mem_nil, or_false, reduceCtorEq, false_or,
      Value.vec.injEq] at hl
    subst hl
    decide

/-- Eight booleans. -/
example : encode (.vec (List.replicate 8 (.prim (.bool true)))) =
    some [0x07, 0x10, 0x10, 0x10, 0x10, 0x10, 0x10, 0x10, 0x10] := by decide +kernel

end Svm.Abi
