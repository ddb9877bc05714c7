import Verif.Sdk.Text

/-!
# The texts of amounts, layers and addresses (C148), crates/wasm/sdk-types/src

`chk` for overflow checks and debug assertions.
-/

namespace Svm.Sdk

/-- `HexDigit::to_string`, sdk-std/src/string/digit.rs:11-24. -/
def hexStr (chk : Bool) (d : UInt8) : Res Str :=
  if chk ∧ ¬ d < 16 then .panic
  else if d < 10 then digitStr chk d
  else fromByte chk (d - 10 + 65)

/-- The characters ` coins`. -/
def coinsText : Bytes := [32, 99, 111, 105, 110, 115]

/-- The characters `[Layer `. -/
def layerText : Bytes := [91, 76, 97, 121, 101, 114, 32]

/-- `ToString for Amount`, amount.rs:125-134. -/
def amountStr (chk : Bool) (a : BitVec 64) : Res Str := do
  let sb := SVec.withCapacity 26
  let s ← intToString chk .w64 false a
  let sb ← pushStr sb s
  let sb ← pushStr sb (← newShort chk coinsText true)
  newUnchecked chk sb

/-- `ToString for LayerId`, layer_id.rs:15-25. -/
def layerStr (chk : Bool) (l : BitVec 64) : Res Str := do
  let sb := SVec.withCapacity (20 + 6)
  let s ← intToString chk .w64 false l
  let sb ← pushStr sb (← newShort chk layerText true)
  let sb ← pushStr sb s
  let sb ← pushStr sb (← fromByte chk 93)
  newUnchecked chk sb

/-- The loop over the bytes, blob.rs:141-151. -/
def pushHex (chk : Bool) : SVec UInt8 → Bytes → Res (SVec UInt8)
  | sb, [] => .ok sb
  | sb, b :: bs => do
    let sb ← pushStr sb (← hexStr chk ((b &&& 0xF0) >>> 4))
    let sb ← pushStr sb (← hexStr chk (b &&& 0x0F))
    pushHex chk sb bs

/-- `ToString for Address`, blob.rs:133-155, for an address that points to the given bytes. Simplification: the
unrolled loop reads exactly the twenty bytes of the address. -/
def addressStr (chk : Bool) (bs : Bytes) : Res Str := do
  let sb := SVec.withCapacity (2 + 20 * 2)
  let sb ← pushStr sb (← newShort chk [48, 120] true)
  let sb ← pushHex chk sb bs
  newUnchecked chk sb

/-! ## Spec -/

/-- The value of an upper case hexadecimal digit. -/
def HexChar (n : Nat) (c : UInt8) : Prop :=
  n < 10 ∧ c.toNat = 48 + n ∨ 10 ≤ n ∧ n < 16 ∧ c.toNat = 55 + n

/-- Two digits for every byte, the higher one first. -/
inductive HexText : Bytes → Bytes → Prop where
  | nil : HexText [] []
  | cons {b c d : UInt8} {bs cs : Bytes} {hi lo : Nat} : HexChar hi c → HexChar lo d →
    b.toNat = 16 * hi + lo → HexText bs cs → HexText (b :: bs) (c :: d :: cs)

/-- The text that a computation returns. -/
def Says (r : Res Str) (bs : Bytes) : Prop := ∃ s, r = .ok s ∧ s.asBytes = .ok bs

/-- **C148**, the claim: every amount, layer and address can be shown, and the text shows its value. -/
def C148_claim : Prop := ∀ chk : Bool,
  (∀ a : BitVec 64, ∃ ds, Decimal a.toNat ds ∧ Says (amountStr chk a) (ds ++ coinsText)) ∧
  (∀ l : BitVec 64, ∃ ds, Decimal l.toNat ds ∧ Says (layerStr chk l) (layerText ++ ds ++ [93])) ∧
  ∀ bs : Bytes, bs.length = 20 → ∃ cs, HexText bs cs ∧ Says (addressStr chk bs) ([48, 120] ++ cs)

/-! ## Proofs -/

theorem ok_bind {α β : Type} (a : α) (f : α → Res β) : (Outcome.ok a : Res α).bind f = f a := rfl

theorem pushStr_ok {v : SVec UInt8} {cap : Nat} {l bs : Bytes} (h : Holds v cap l) {s : Str}
    (hs : s.asBytes = .ok bs) (h1 : bs.length < 256) (h2 : ∀ b ∈ bs, b.toNat < 128)
    (h3 : l.length + bs.length ≤ cap) : ∃ v', pushStr v s = .ok v' ∧ Holds v' cap (l ++ bs) := by
  obtain ⟨v', h4, h5⟩ := pushBytes_ok bs h h2 h3
  refine ⟨v', ?_, h5⟩
  show s.asBytes.bind _ = _
  rw [hs]
  show (if bs.length < 256 then pushBytes v bs else .panic) = _
  rw [if_pos h1, h4]

theorem push_full {v : SVec UInt8} {cap : Nat} {l : Bytes} (h : Holds v cap l) (x : UInt8) (hl : cap ≤ l.length) :
    v.push x = .panic := by
  rcases h.step (.push x) with ⟨-, h1⟩ | ⟨o, l', v', h1, -, -⟩
  · change (v.push x).bind _ = _ at h1
    cases hp : v.push x with
    | ok w => rw [hp] at h1; cases h1
    | err e => rw [hp] at h1; cases h1
    | panic => rfl
  · unfold listStep at h1
    dsimp only at h1
    rw [if_neg (by omega)] at h1
    cases h1

theorem pushBytes_full : ∀ (bs : Bytes) {v : SVec UInt8} {cap : Nat} {l : Bytes}, Holds v cap l →
    (∀ b ∈ bs, b.toNat < 128) → cap < l.length + bs.length → pushBytes v bs = .panic
  | [], v, cap, l, h, _, hl => by
    have := h.le
    simp at hl
    omega
  | b :: bs, v, cap, l, h, ha, hl => by
    have hb : ensureAscii b = .ok () := by
      unfold ensureAscii
      rw [if_pos]
      have key : ∀ n : Fin 128, UInt8.ofNat n &&& 0b10000000 = 0 := by decide +kernel
      have := key ⟨b.toNat, ha b List.mem_cons_self⟩
      rwa [UInt8.ofNat_toNat] at this
    show (ensureAscii b).bind _ = _
    rw [hb]
    show (v.push b).bind _ = _
    by_cases hc : l.length < cap
    · obtain ⟨v1, h1, h2⟩ := h.push b hc
      rw [h1]
      exact pushBytes_full bs h2 (fun x hx => ha x (List.mem_cons_of_mem _ hx)) (by
        rw [List.length_append, List.length_singleton]; rw [List.length_cons] at hl; omega)
    · rw [push_full h b (by omega)]
      rfl

theorem pushStr_full {v : SVec UInt8} {cap : Nat} {l bs : Bytes} (h : Holds v cap l) {s : Str}
    (hs : s.asBytes = .ok bs) (h2 : ∀ b ∈ bs, b.toNat < 128) (h3 : cap < l.length + bs.length) :
    pushStr v s = .panic := by
  show s.asBytes.bind _ = _
  rw [hs]
  show (if bs.length < 256 then pushBytes v bs else .panic) = _
  rw [pushBytes_full bs h h2 h3]
  split <;> rfl

theorem Decimal.ascii {n : Nat} {ds : Bytes} (h : Decimal n ds) : ∀ b ∈ ds, b.toNat < 128 := fun b hb => by
  have := h.digits b hb
  omega

/-- How many digits a number has. -/
theorem Decimal.length_le_iff {n : Nat} {ds : Bytes} (h : Decimal n ds) {k : Nat} (hk : 1 ≤ k) :
    ds.length ≤ k ↔ n < 10 ^ k := by
  constructor
  · intro hl
    have := decValue_lt h.digits
    rw [h.value] at this
    exact lt_of_lt_of_le this (Nat.pow_le_pow_right (by omega) hl)
  · intro hn
    by_contra hc
    match ds, h with
    | [], h => exact h.nonempty rfl
    | a :: t, h =>
      have h1 := h.value
      rw [decValue_cons] at h1
      have h2 := h.digits a (by simp)
      have h3 : a.toNat ≠ 48 := by
        intro h48
        have : a = 48 := UInt8.toNat_inj.1 h48
        have := h.noLeadingZero (by rw [this]; rfl)
        simp only [List.length_cons] at this hc
        omega
      have h4 : 10 ^ k ≤ 10 ^ t.length := Nat.pow_le_pow_right (by omega) (by
        simp only [List.length_cons] at hc; omega)
      have h5 : 1 * 10 ^ t.length ≤ (a.toNat - 48) * 10 ^ t.length := Nat.mul_le_mul_right _ (by omega)
      omega

theorem u64Str (chk : Bool) (x : BitVec 64) : ∃ s ds, intToString chk .w64 false x = .ok s ∧ s.asBytes = .ok ds ∧
    Decimal x.toNat ds ∧ ds.length ≤ 20 := by
  obtain ⟨s, ds, h1, h2, h3⟩ := C62_to_string chk .w64 false x
  have h4 : Decimal x.toNat ds := by
    unfold DecimalInt at h3
    rw [if_neg (by simp), if_neg (by simp)] at h3
    exact h3
  refine ⟨s, ds, h1, h2, h4, (h4.length_le_iff (by omega)).2 ?_⟩
  have := x.isLt
  have h5 : 8 * Svm.Abi.Width.w64.bytes = 64 := rfl
  have h6 : (2 : Nat) ^ 64 ≤ 10 ^ 20 := by norm_num
  exact lt_of_lt_of_le this h6

/-- **C148**, amounts: every amount is shown as its decimal representation and ` coins`. -/
theorem C148_amount (chk : Bool) (a : BitVec 64) :
    ∃ ds, Decimal a.toNat ds ∧ Says (amountStr chk a) (ds ++ coinsText) := by
  obtain ⟨s, ds, h1, h2, h3, h4⟩ := u64Str chk a
  obtain ⟨v1, e1, k1⟩ := pushStr_ok (holds_withCapacity 26) h2 (by omega) h3.ascii (by simp; omega)
  have hc : newShort chk coinsText true = .ok (.short (coinsText ++ [0, 0]) 6) := by cases chk <;> rfl
  obtain ⟨v2, e2, k2⟩ := pushStr_ok (s := .short (coinsText ++ [0, 0]) 6) (bs := coinsText) k1 rfl (by decide)
    (by decide) (by simp [coinsText]; omega)
  obtain ⟨t, e3, h5⟩ := newUnchecked_ok chk k2
  refine ⟨ds, h3, t, ?_, by simpa using h5⟩
  unfold amountStr
  show (intToString chk .w64 false a).bind _ = _
  rw [h1]
  show (pushStr _ s).bind _ = _
  rw [e1]
  show (newShort chk coinsText true).bind _ = _
  rw [hc]
  show (pushStr v1 _).bind _ = _
  rw [e2]
  exact e3

/-- The beginning of the text of a layer. -/
theorem layerStr_eq (chk : Bool) (l : BitVec 64) : ∃ s ds v, s.asBytes = .ok ds ∧ Decimal l.toNat ds ∧
    ds.length ≤ 20 ∧ Holds v 26 layerText ∧ layerStr chk l =
      ((pushStr v s).bind fun v => (pushStr v (.short (93 :: List.replicate 7 0) 1)).bind (newUnchecked chk)) := by
  obtain ⟨s, ds, h1, h2, h3, h4⟩ := u64Str chk l
  have hc : newShort chk layerText true = .ok (.short (layerText ++ [0]) 7) := by cases chk <;> rfl
  obtain ⟨v1, e1, k1⟩ := pushStr_ok (s := .short (layerText ++ [0]) 7) (bs := layerText)
    (holds_withCapacity (20 + 6)) rfl (by decide) (by decide) (by decide)
  refine ⟨s, ds, v1, h2, h3, h4, by simpa using k1, ?_⟩
  unfold layerStr
  show (intToString chk .w64 false l).bind _ = _
  rw [h1]
  show (newShort chk layerText true).bind _ = _
  rw [hc, ok_bind, e1]
  show (pushStr v1 s).bind _ = (pushStr v1 s).bind _
  congr 1
  funext v
  show (fromByte chk 93).bind _ = _
  rw [fromByte_ok chk (by decide)]
  rfl

/-- **C148**, partial: the layers below 10^18 are shown as `[Layer `, the decimal representation and `]`. -/
theorem C148_layer_partial (chk : Bool) (l : BitVec 64) (h : l.toNat < 10 ^ 18) :
    ∃ ds, Decimal l.toNat ds ∧ Says (layerStr chk l) (layerText ++ ds ++ [93]) := by
  obtain ⟨s, ds, v, h2, h3, h4, hv, e⟩ := layerStr_eq chk l
  have hl := (h3.length_le_iff (by omega)).2 h
  obtain ⟨v1, e1, k1⟩ := pushStr_ok hv h2 (by omega) h3.ascii (by simp [layerText]; omega)
  obtain ⟨v2, e2, k2⟩ := pushStr_byte k1 (b := 93) (by decide) (by simp [layerText]; omega)
  obtain ⟨t, e3, h5⟩ := newUnchecked_ok chk k2
  refine ⟨ds, h3, t, ?_, h5⟩
  rw [e, e1]
  show (pushStr v1 _).bind _ = _
  rw [e2]
  exact e3

/-- **C148**, what happens instead: from layer 10^18 on showing a layer panics, because the builder has room for 18
digits only. -/
theorem C148_layer_panics (chk : Bool) (l : BitVec 64) (h : 10 ^ 18 ≤ l.toNat) : layerStr chk l = .panic := by
  obtain ⟨s, ds, v, h2, h3, h4, hv, e⟩ := layerStr_eq chk l
  have hl : ¬ ds.length ≤ 18 := fun hc => by
    have := (h3.length_le_iff (by omega)).1 hc
    omega
  rw [e]
  by_cases h19 : ds.length ≤ 19
  · obtain ⟨v1, e1, k1⟩ := pushStr_ok hv h2 (by omega) h3.ascii (by simp [layerText]; omega)
    rw [e1]
    show (pushStr v1 _).bind _ = _
    rw [pushStr_full (s := .short (93 :: List.replicate 7 0) 1) (bs := [93]) k1 rfl (by decide)
      (by simp [layerText]; omega)]
    rfl
  · rw [pushStr_full hv h2 h3.ascii (by simp [layerText]; omega)]
    rfl

theorem hexStr_ok (chk : Bool) {d : UInt8} (h : d.toNat < 16) : ∃ c, HexChar d.toNat c ∧
    ensureAscii c = .ok () ∧ hexStr chk d = .ok (.short (c :: List.replicate 7 0) 1) := by
  have h16 : d < 16 := UInt8.lt_iff_toNat_lt.2 h
  unfold hexStr
  rw [if_neg (by rintro ⟨-, h'⟩; exact h' h16)]
  by_cases h10 : d.toNat < 10
  · refine ⟨chr d, .inl ⟨h10, by rw [chr_toNat h10]; omega⟩, chr_ascii h10, ?_⟩
    rw [if_pos (UInt8.lt_iff_toNat_lt.2 h10)]
    exact digitStr_ok chk h10
  · have key : ∀ n : Fin 16, 10 ≤ n.val → (UInt8.ofNat n - 10 + 65).toNat = 55 + n.val ∧
        (UInt8.ofNat n - 10 + 65) &&& 0b10000000 = 0 := by decide +kernel
    have hk := key ⟨d.toNat, h⟩ (by show 10 ≤ d.toNat; omega)
    dsimp only at hk
    rw [UInt8.ofNat_toNat] at hk
    have ha : ensureAscii (d - 10 + 65) = .ok () := by
      unfold ensureAscii
      rw [if_pos hk.2]
    refine ⟨d - 10 + 65, .inr ⟨by omega, h, hk.1⟩, ha, ?_⟩
    rw [if_neg (fun h' => h10 (UInt8.lt_iff_toNat_lt.1 h'))]
    exact fromByte_ok chk ha

theorem nibbles (b : UInt8) : ((b &&& 0xF0) >>> 4).toNat = b.toNat / 16 ∧ (b &&& 0x0F).toNat = b.toNat % 16 := by
  have key : ∀ n : Fin 256, ((UInt8.ofNat n &&& 0xF0) >>> 4).toNat = n.val / 16 ∧
      (UInt8.ofNat n &&& 0x0F).toNat = n.val % 16 := by decide +kernel
  have := key ⟨b.toNat, b.toNat_lt⟩
  rwa [UInt8.ofNat_toNat] at this

theorem pushHex_ok (chk : Bool) : ∀ (bs : Bytes) {v : SVec UInt8} {cap : Nat} {l : Bytes}, Holds v cap l →
    l.length + 2 * bs.length ≤ cap → ∃ cs v', HexText bs cs ∧ pushHex chk v bs = .ok v' ∧ Holds v' cap (l ++ cs)
  | [], v, cap, l, h, _ => ⟨[], v, .nil, rfl, by simpa using h⟩
  | b :: bs, v, cap, l, h, hl => by
    simp only [List.length_cons] at hl
    obtain ⟨n1, n2⟩ := nibbles b
    have hb := b.toNat_lt
    obtain ⟨c, hc, ac, ec⟩ := hexStr_ok chk (d := (b &&& 0xF0) >>> 4) (by rw [n1]; omega)
    obtain ⟨d, hd, ad, ed⟩ := hexStr_ok chk (d := b &&& 0x0F) (by rw [n2]; omega)
    obtain ⟨v1, e1, k1⟩ := pushStr_byte h ac (by omega)
    obtain ⟨v2, e2, k2⟩ := pushStr_byte k1 ad (by simp; omega)
    obtain ⟨cs, v3, h3, e3, k3⟩ := pushHex_ok chk bs k2 (by simp; omega)
    refine ⟨c :: d :: cs, v3, .cons hc hd (by rw [n1, n2]; omega) h3, ?_, by simpa using k3⟩
    show (hexStr chk _).bind _ = _
    rw [ec]
    show (pushStr v _).bind _ = _
    rw [e1]
    show (hexStr chk _).bind _ = _
    rw [ed]
    show (pushStr v1 _).bind _ = _
    rw [e2]
    exact e3

/-- **C148**, addresses: every address is shown as `0x` and two digits for every byte. -/
theorem C148_address (chk : Bool) (bs : Bytes) (h : bs.length = 20) :
    ∃ cs, HexText bs cs ∧ Says (addressStr chk bs) ([48, 120] ++ cs) := by
  have hc : newShort chk [48, 120] true = .ok (.short ([48, 120] ++ List.replicate 6 0) 2) := by cases chk <;> rfl
  obtain ⟨v1, e1, k1⟩ := pushStr_ok (s := .short ([48, 120] ++ List.replicate 6 0) 2) (bs := [48, 120])
    (holds_withCapacity (2 + 20 * 2)) rfl (by decide) (by decide) (by decide)
  obtain ⟨cs, v2, h2, e2, k2⟩ := pushHex_ok chk bs k1 (by simp [h])
  obtain ⟨t, e3, h5⟩ := newUnchecked_ok chk k2
  refine ⟨cs, h2, t, ?_, by simpa using h5⟩
  unfold addressStr
  show (newShort chk [48, 120] true).bind _ = _
  rw [hc, ok_bind, e1]
  show (pushHex chk v1 bs).bind _ = _
  rw [e2]
  exact e3

theorem HexChar.inj {n m : Nat} {c : UInt8} (h : HexChar n c) (h' : HexChar m c) : n = m := by
  rcases h with ⟨_, _⟩ | ⟨_, _, _⟩ <;> rcases h' with ⟨_, _⟩ | ⟨_, _, _⟩ <;> omega

theorem HexText.inj {a b cs : Bytes} (h : HexText a cs) : HexText b cs → a = b := by
  induction h generalizing b with
  | nil => intro h'; cases h'; rfl
  | cons h1 h2 h3 _ ih =>
    intro h'
    cases h' with
    | cons g1 g2 g3 g4 =>
      rw [ih g4]
      congr 1
      apply UInt8.toNat_inj.1
      rw [h3, g3, h1.inj g1, h2.inj g2]

theorem Says.inj {r : Res Str} {a b : Bytes} (h : Says r a) (h' : Says r b) : a = b := by
  obtain ⟨s, h1, h2⟩ := h
  obtain ⟨t, h3, h4⟩ := h'
  cases h1.symm.trans h3
  cases h2.symm.trans h4
  rfl

/-- **C148.** Different values have different texts: amounts, layers that can be shown, and addresses. -/
theorem C148_distinct (chk chk' : Bool) :
    (∀ (a b : BitVec 64) (t : Bytes), Says (amountStr chk a) t → Says (amountStr chk' b) t → a = b) ∧
    (∀ (a b : BitVec 64) (t : Bytes), Says (layerStr chk a) t → Says (layerStr chk' b) t → a = b) ∧
    ∀ (a b t : Bytes), a.length = 20 → b.length = 20 → Says (addressStr chk a) t → Says (addressStr chk' b) t →
      a = b := by
  refine ⟨fun a b t ha hb => ?_, fun a b t ha hb => ?_, fun a b t la lb ha hb => ?_⟩
  · obtain ⟨da, h1, h2⟩ := C148_amount chk a
    obtain ⟨db, h3, h4⟩ := C148_amount chk' b
    have e := (h2.inj ha).trans (hb.inj h4)
    have e' := List.append_cancel_right e
    apply BitVec.eq_of_toNat_eq
    rw [← h1.value, ← h3.value, e']
  · have small : ∀ {c : Bool} {l : BitVec 64}, Says (layerStr c l) t → l.toNat < 10 ^ 18 := fun {c l} h => by
      by_contra hc
      obtain ⟨s, h1, -⟩ := h
      rw [C148_layer_panics c l (by omega)] at h1
      cases h1
    obtain ⟨da, h1, h2⟩ := C148_layer_partial chk a (small ha)
    obtain ⟨db, h3, h4⟩ := C148_layer_partial chk' b (small hb)
    have e := (h2.inj ha).trans (hb.inj h4)
    have e' := List.append_cancel_left (List.append_cancel_right e)
    apply BitVec.eq_of_toNat_eq
    rw [← h1.value, ← h3.value, e']
  · obtain ⟨da, h1, h2⟩ := C148_address chk a la
    obtain ⟨db, h3, h4⟩ := C148_address chk' b lb
    have e := List.append_cancel_left ((h2.inj ha).trans (hb.inj h4))
    rw [← e] at h3
    exact h1.inj h3

/-- The claim is false: layer 10^18 cannot be shown. -/
theorem C148_claim_false : ¬ C148_claim := by
  intro h
  obtain ⟨ds, -, s, h1, -⟩ := (h false).2.1 (BitVec.ofNat 64 (10 ^ 18))
  rw [C148_layer_panics false _ (by decide +kernel)] at h1
  cases h1

/-- `[Layer 123]`. -/
example : (layerStr true 123#64).bind Str.asBytes = .ok [91, 76, 97, 121, 101, 114, 32, 49, 50, 51, 93] := by
  decide +kernel

/-- `18446744073709551615 coins`. -/
example : (amountStr true (BitVec.allOnes 64)).bind Str.asBytes =
    .ok ([49, 56, 52, 52, 54, 55, 52, 52, 48, 55, 51, 55, 48, 57, 53, 53, 49, 54, 49, 53] ++ coinsText) := by
  decide +kernel

/-- Non-vacuity of `HexText`: 0x1F. -/
example : HexText [0x1F] [49, 70] :=
  .cons (hi := 1) (lo := 15) (.inl ⟨by decide, rfl⟩) (.inr ⟨by decide, by decide, rfl⟩) rfl .nil

example : (addressStr false (List.replicate 20 0xA0)).bind Str.asBytes =
    .ok ([48, 120] ++ (List.replicate 20 [65, 48]).flatten) := by
  decide +kernel

end Svm.Sdk
