import Verif.Abi.Typed

/-!
# Decoding arbitrary bytes (C75)
-/

namespace Svm.Abi

open Svm.Codec (natBE beNat Arr Addr beNat_lt)

/-- The step of a sequence that succeeded. -/
theorem bind_ok {α β : Type} {x : Outcome DecodeError α} {f : α → Outcome DecodeError β} {b : β}
    (h : x.bind f = .ok b) : ∃ a, x = .ok a ∧ f a = .ok b := by
  cases x with
  | ok a => exact ⟨a, rfl, h⟩
  | err e => cases h
  | panic => cases h

theorem readBytes_ok {n : Nat} {inp bs r : Bytes} (h : readBytes n inp = .ok (bs, r)) :
    inp = bs ++ r ∧ bs.length = n := by
  unfold readBytes at h
  split at h
  · rename_i hn
    cases h
    exact ⟨(List.take_append_drop _ _).symm, by rw [List.length_take]; omega⟩
  · cases h

theorem readNum_ok {n x : Nat} {inp r : Bytes} (h : readNum n inp = .ok (x, r)) :
    ∃ bs, inp = bs ++ r ∧ bs.length = n ∧ x = beNat bs := by
  unfold readNum at h
  obtain ⟨⟨bs, r'⟩, h1, h2⟩ := bind_ok h
  cases h2
  obtain ⟨h3, h4⟩ := readBytes_ok h1
  exact ⟨bs, h3, h4, rfl⟩

theorem numByteSize_lt {x n : Nat} (h1 : 1 ≤ n) (h : x < 256 ^ n) :
    numByteSize x ≤ n + 1 := by
  by_cases hn : n ≤ 7
  · unfold numByteSize
    interval_cases n <;> norm_num at h <;> repeat' split
    all_goals omega
  · have := (numByteSize_bounds x).2
    omega

theorem sizeOf_pos {l : List UInt8} {b : UInt8} {n : Nat} (h : sizeOf l b = .ok n) : 1 ≤ n := by
  unfold sizeOf at h
  cases hi : l.idxOf? b with
  | none => rw [hi] at h; cases h
  | some i => rw [hi] at h; cases h; exact Nat.succ_le_succ (Nat.zero_le i)

theorem intSize_pos {chk : Bool} {w : Width} {b : UInt8} {n : Nat} (h : intSize chk w b = .ok n) :
    1 ≤ n := by
  cases w with
  | w8 =>
    dsimp only [intSize] at h
    split at h
    · cases h
    · cases h; omega
  | _ =>
    dsimp only [intSize] at h
    split at h <;> exact sizeOf_pos h

/-- A decoded number is at most as long when encoded again. -/
theorem size_ofNat_le {n w : Nat} {bs : Bytes} (hl : bs.length = n) (hn : 1 ≤ n) :
    numByteSize (BitVec.ofNat w (beNat bs)).toNat ≤ n + 1 := by
  refine le_trans (numByteSize_mono (y := beNat bs) ?_) (numByteSize_lt hn ?_)
  · rw [BitVec.toNat_ofNat]
    exact Nat.mod_le _ _
  · have := beNat_lt bs
    rwa [hl] at this

/-- What reading a primitive does when it succeeds. -/
theorem decodePrim_ok {chk : Bool} {inp r : Bytes} {v : Value} (h : decodePrim chk inp = .ok (v, r)) :
    ∃ p pre bs, v = .prim p ∧ inp = pre ++ r ∧ encodePrim p = some bs ∧ bs.length ≤ pre.length ∧
      pre ≠ [] := by
  unfold decodePrim at h
  obtain ⟨k, hk, h⟩ := bind_ok h
  cases inp with
  | nil => cases hk
  | cons b t =>
  cases k with
  | none_ =>
    change (if chk = true ∧ b ≠ NONE then .panic else .ok (Value.prim .none_, t) : Outcome DecodeError (Value × Bytes)) = _ at h
    split at h
    · cases h
    · cases h; exact ⟨.none_, [b], _, rfl, rfl, rfl, by simp, by simp⟩
  | unit =>
    change (if chk = true ∧ b ≠ UNIT then .panic else .ok (Value.prim .unit, t) : Outcome DecodeError (Value × Bytes)) = _ at h
    split at h
    · cases h
    · cases h; exact ⟨.unit, [b], _, rfl, rfl, rfl, by simp, by simp⟩
  | bool =>
    change (if b = BOOL_FALSE then .ok (Value.prim (.bool false), t)
      else if b = BOOL_TRUE then .ok (Value.prim (.bool true), t) else .panic :
        Outcome DecodeError (Value × Bytes)) = _ at h
    split at h
    · cases h; exact ⟨.bool false, [b], _, rfl, rfl, rfl, by simp, by simp⟩
    · split at h
      · cases h; exact ⟨.bool true, [b], _, rfl, rfl, rfl, by simp, by simp⟩
      · cases h
  | address =>
    change (if chk = true ∧ b ≠ ADDRESS then .panic else (readBytes 20 t).bind _) = _ at h
    split at h
    · cases h
    · obtain ⟨⟨bs, r'⟩, hr, h2⟩ := bind_ok h
      obtain ⟨rfl, hl⟩ := readBytes_ok hr
      change (if h : bs.length = 20 then _ else _) = _ at h2
      rw [dif_pos hl] at h2
      cases h2
      exact ⟨.address ⟨bs, hl⟩, b :: bs, _, rfl, rfl, rfl, by simp, by simp⟩
  | amount =>
    change (sizeOf AMOUNT b).bind _ = _ at h
    obtain ⟨n, hs, h⟩ := bind_ok h
    obtain ⟨⟨x, r'⟩, hr, h⟩ := bind_ok h
    obtain ⟨bs, rfl, hl, rfl⟩ := readNum_ok hr
    cases h
    refine ⟨.amount _, b :: bs, _, rfl, rfl, rfl, ?_, by simp⟩
    rw [encodeAmount_length, List.length_cons, hl]
    exact size_ofNat_le hl (sizeOf_pos hs)
  | int w s =>
    change (intSize chk w b).bind _ = _ at h
    obtain ⟨n, hs, h⟩ := bind_ok h
    obtain ⟨⟨x, r'⟩, hr, h⟩ := bind_ok h
    obtain ⟨bs, rfl, hl, rfl⟩ := readNum_ok hr
    cases h
    obtain ⟨m, h1, -⟩ := encodeInt_eq w s (BitVec.ofNat _ (beNat bs))
    refine ⟨.int w s _, b :: bs, _, rfl, rfl, h1, ?_, by simp⟩
    rw [encodeInt_length h1, List.length_cons, hl]
    exact size_ofNat_le hl (intSize_pos hs)
  | array => cases h

theorem decodeItems_ok {chk : Bool} {cap : Nat} : ∀ {n : Nat} {acc l : List Value} {inp r : Bytes},
    decodeItems chk cap n acc inp = .ok (l, r) →
    ∃ m pre bs, l = acc ++ m ∧ m.length = n ∧ inp = pre ++ r ∧ encodeList m = some bs ∧
      bs.length ≤ pre.length ∧ (∀ v ∈ m, v.IsPrim) ∧ (m ≠ [] → acc.length + n ≤ cap)
  | 0, acc, l, inp, r, h => by
    cases h
    exact ⟨[], [], [], by simp, rfl, rfl, by unfold encodeList; rfl, le_refl _,
      fun _ h => absurd h (by simp), fun h => absurd rfl h⟩
  | n + 1, acc, l, inp, r, h => by
    obtain ⟨⟨v, r'⟩, hd, h2⟩ := bind_ok (x := decodePrim chk inp) h
    clear h
    dsimp only at h2
    split at h2
    · rename_i hc
      obtain ⟨p, pre, bs, rfl, rfl, he, hl, -⟩ := decodePrim_ok hd
      obtain ⟨m, pre', bs', rfl, hm, rfl, he', hl', hp, hcap⟩ := decodeItems_ok h2
      refine ⟨.prim p :: m, pre ++ pre', bs ++ bs', by simp, by simp [hm], by simp, ?_, ?_, ?_, ?_⟩
      · unfold encodeList encode
        rw [he, he']
        rfl
      · rw [List.length_append, List.length_append]
        omega
      · intro v hv
        rcases List.mem_cons.1 hv with rfl | hv
        · exact ⟨p, rfl⟩
        · exact hp v hv
      · intro _
        rcases eq_or_ne m [] with rfl | hne
        · simp only [List.length_nil] at hm
          omega
        · have := hcap hne
          simp only [List.length_append, List.length_singleton] at this
          omega
    · cases h2

theorem sizeOf_arr {b : UInt8} {n : Nat} (h : sizeOf ARR b = .ok n) : n ≤ 11 ∧ b = layoutArray (n - 1) := by
  have hb : b ∈ ARR := by
    by_contra hb
    unfold sizeOf at h
    rw [List.idxOf?_eq_none_iff.2 hb] at h
    cases h
  have key : ∀ c ∈ ARR, ∀ m ≤ 11, sizeOf ARR c = .ok m → c = layoutArray (m - 1) := by decide +kernel
  have hle : n ≤ 11 := by
    unfold sizeOf at h
    cases hi : ARR.idxOf? b with
    | none => rw [hi] at h; cases h
    | some i =>
      rw [hi] at h
      cases h
      have := (List.idxOf?_eq_some_iff.1 hi).1
      change i < 11 at this
      change i + 1 ≤ 11
      omega
  exact ⟨hle, key b hb n hle h⟩

/-! ## C75 -/

/-- **C75, as stated.** -/
def C75_claim : Prop := ∀ (chk : Bool) (inp r : Bytes) (v : Value), decodeValue chk inp = .ok (v, r) →
  ∃ bs, encode v = some bs ∧ inp = bs ++ r

/-- **C75, partial.** Whatever bytes are decoded: the value is a primitive or an array of at most ten
primitives, but not of eight; at least one byte is consumed; what is left is the rest of the input; and
the value has an encoding that is no longer than the bytes consumed. -/
theorem C75_decode_partial {chk : Bool} {inp r : Bytes} {v : Value}
    (h : decodeValue chk inp = .ok (v, r)) : Flat v ∧ Good v ∧
    ∃ pre bs, pre ≠ [] ∧ inp = pre ++ r ∧ encode v = some bs ∧ bs.length ≤ pre.length := by
  unfold decodeValue at h
  split at h
  · cases h
  · obtain ⟨k, hk, h⟩ := bind_ok h
    by_cases ha : k = .array
    · subst ha
      change decodeArray chk inp = _ at h
      unfold decodeArray at h
      split at h
      · cases h
      · obtain ⟨⟨b, t⟩, hb, h2⟩ := bind_ok h
        clear h
        cases inp with
        | nil => cases hb
        | cons b' t' =>
          cases hb
          obtain ⟨n, hs, h3⟩ := bind_ok h2
          obtain ⟨⟨l, r'⟩, hd, h4⟩ := bind_ok h3
          cases h4
          obtain ⟨m, pre, bs, rfl, hm, rfl, he, hl, hp, hc⟩ := decodeItems_ok hd
          obtain ⟨hn, rfl⟩ := sizeOf_arr hs
          have hn1 := sizeOf_pos hs
          refine ⟨.vec ?_ hp, .vec ?_ hp, layoutArray (n - 1) :: pre, layoutArray (n - 1) :: bs,
            by simp, by simp, ?_, by simpa using hl⟩
          · rw [hm]
            omega
          · rw [hm]
            rcases eq_or_ne l [] with rfl | hne
            · simp only [List.length_nil] at hm
              omega
            · have := hc hne
              rw [List.length_nil, Nat.zero_add] at this
              exact (layoutArray_cap (by omega)).1 this
          · unfold encode
            rw [if_pos (by omega), he, hm]
            rfl
    · have h' : decodePrim chk inp = .ok (v, r) := by
        cases k <;> first | exact h | exact absurd rfl ha
      obtain ⟨p, pre, bs, rfl, rfl, he, hl, hne⟩ := decodePrim_ok h'
      exact ⟨.prim p, .prim p, pre, bs, hne, rfl, by unfold encode; exact he, hl⟩

/-- **C75.** Every integer that fits in fewer bytes than its type has a second encoding. -/
theorem C75_padded (chk : Bool) (w : Width) (s : Bool) (x : BitVec (8 * w.bytes))
    (hx : numByteSize x.toNat ≤ w.bytes) : ∃ bs pre, encode (.prim (.int w s x)) = some bs ∧ pre ≠ bs ∧
      ∀ r, decodeValue chk (pre ++ r) = .ok (.prim (.int w s x), r) := by
  obtain ⟨m, h1, -⟩ := encodeInt_eq w s x
  obtain ⟨b, h2, h3, h4⟩ := kindOf_int (w := w) (s := s) (n := w.bytes) w.bytes_pos (le_refl _)
  have hb := numByteSize_bounds x.toNat
  refine ⟨_, b :: lastBytes w.bytes x.toNat, by unfold encode; exact h1, ?_, fun r => ?_⟩
  · intro he
    have := congrArg List.length he
    rw [List.length_cons, List.length_cons, lastBytes_length w.bytes_le,
      lastBytes_length (by omega)] at this
    omega
  · have hlt : x.toNat < 256 ^ w.bytes := by
      have := x.isLt
      rwa [pow_mul] at this
    unfold decodeValue
    rw [List.cons_append, if_neg (by simp), peekKind_of _ h3]
    refine Eq.trans (show _ = decodePrim chk (b :: (lastBytes w.bytes x.toNat ++ r)) from rfl) ?_
    unfold decodePrim
    rw [peekKind_of _ h3]
    change (intSize chk w b).bind _ = _
    rw [h4]
    change (readNum _ _).bind _ = _
    rw [readNum_append r w.bytes_le hlt]
    change Outcome.ok (Value.prim (.int w s (BitVec.ofNat _ x.toNat)), r) = _
    rw [BitVec.ofNat_toNat, BitVec.setWidth_eq]

/-- **C75.** The end is reported when all bytes have been read, and only then: bytes that do not decode
make the program panic, they are not skipped. -/
theorem C75_end (chk : Bool) (inp r : Bytes) : next chk inp = .ok (none, r) ↔ inp = [] ∧ r = [] := by
  unfold next
  split
  · rename_i h
    subst h
    constructor
    · intro h; cases h; exact ⟨rfl, rfl⟩
    · rintro ⟨-, rfl⟩; rfl
  · rename_i h
    constructor
    · intro h'
      split at h' <;> cases h'
    · rintro ⟨rfl, -⟩
      exact absurd rfl h

/-- **C75 fails.** -/
theorem C75_claim_false : ¬ C75_claim := by
  intro hc
  obtain ⟨bs, pre, he, hne, hd⟩ := C75_padded true .w16 false (5#16) (by decide)
  have h := hd []
  obtain ⟨bs', he', hi⟩ := hc _ _ _ _ h
  rw [he] at he'
  cases he'
  simp only [List.append_nil] at hi
  exact hne hi

/-- Two encodings of the same number. -/
example : (∀ chk, decodeValue chk [0x52, 0x00, 0x05] = .ok (.prim (.int .w16 false 5#16), [])) ∧
    ∀ chk, decodeValue chk [0x42, 0x05] = .ok (.prim (.int .w16 false 5#16), []) :=
  ⟨fun chk => by cases chk <;> rfl, fun chk => by cases chk <;> rfl⟩

end Svm.Abi
