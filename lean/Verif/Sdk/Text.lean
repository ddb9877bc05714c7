import Verif.Sdk.Vec
import Verif.Abi.Model
import Mathlib.Tactic.Ring
import Mathlib.Tactic.NormNum

/-!
# The SDK's strings and printing of integers (C62), crates/wasm/sdk-std/src/string

`chk` for overflow checks and debug assertions.
-/

namespace Svm.Sdk

open Svm.Abi (Width)

/-- `enum String`, string/mod.rs:12-27. -/
inductive Str where
  | long (v : SVec UInt8)
  | short (bytes : Bytes) (length : Nat)

/-- `ensure_ascii`, string/mod.rs:133-136. -/
def ensureAscii (b : UInt8) : Res Unit := if b &&& 0b10000000 = 0 then .ok () else .panic

/-- `new_short_inner`, string/mod.rs:80-103. The array is filled with zeros up to eight bytes. -/
def newShort (chk : Bool) (data : Bytes) (safe : Bool) : Res Str :=
  if chk ∧ ¬ data.length ≤ 8 then .panic
  else do
    if safe then (data.take 8).forM ensureAscii
    .ok (.short (data.take 8 ++ List.replicate (8 - data.length) 0) data.length)

/-- `from_byte`, string/mod.rs:36-38. -/
def fromByte (chk : Bool) (b : UInt8) : Res Str := newShort chk [b] true

/-- `new_unchecked`, string/mod.rs:55-61. -/
def newUnchecked (chk : Bool) (v : SVec UInt8) : Res Str :=
  if v.len ≤ 8 then do newShort chk (← v.asSlice) false else .ok (.long v)

/-- `as_bytes`, string/mod.rs:69-74. -/
def Str.asBytes : Str → Res Bytes
  | .long v => v.asSlice
  | .short bytes length => if length ≤ bytes.length then .ok (bytes.take length) else .panic

/-- The bytes of `push_str`, string/builder.rs:23-33, one after the other. -/
def pushBytes : SVec UInt8 → Bytes → Res (SVec UInt8)
  | v, [] => .ok v
  | v, b :: bs => do
    ensureAscii b
    let v ← v.push b
    pushBytes v bs

/-- `StringBuilder::push_str`, string/builder.rs:19-34. -/
def pushStr (sb : SVec UInt8) (s : Str) : Res (SVec UInt8) := do
  let bytes ← s.asBytes
  if bytes.length < 256 then pushBytes sb bytes else .panic

/-- `DecDigit::to_string`, string/digit.rs:27-35. -/
def digitStr (chk : Bool) (d : UInt8) : Res Str :=
  if chk ∧ ¬ d < 10 then .panic else fromByte chk (d + 48)

/-- `next_digit`, string/traits.rs:33-41. -/
def nextDigit (value : Nat) : UInt8 × Nat × Bool :=
  (UInt8.ofNat (value % 10), value / 10, value / 10 == 0)

/-- The loop of `num_as_string`, string/traits.rs:12-30: at most `n` more rounds. `digits` is the used
part of the array of twenty digits; writing behind the array panics. -/
def digitLoop : Nat → Nat → List UInt8 → Res (List UInt8)
  | 0, _, _ => .panic
  | n + 1, value, digits =>
    let (digit, value, completed) := nextDigit value
    if digits.length < 20 then
      if completed then .ok (digits ++ [digit]) else digitLoop n value (digits ++ [digit])
    else .panic

/-- Pushing digits, string/traits.rs:51-60. -/
def pushDigits (chk : Bool) : SVec UInt8 → List UInt8 → Res (SVec UInt8)
  | sb, [] => .ok sb
  | sb, d :: ds => do
    let s ← digitStr chk d
    let sb ← pushStr sb s
    pushDigits chk sb ds

/-- The builder with the sign, string/traits.rs:45-49. -/
def signPrefix (chk : Bool) (neg : Bool) : Res (SVec UInt8) :=
  if neg then do pushStr (SVec.withCapacity 21) (← fromByte chk 45) else .ok (SVec.withCapacity 21)

/-- `concat_digits`, string/traits.rs:43-63: the digits from the last to the first. -/
def concatDigits (chk : Bool) (digits : List UInt8) (neg : Bool) : Res Str := do
  let sb ← signPrefix chk neg
  let sb ← pushDigits chk sb digits.reverse
  newUnchecked chk sb

/-- `num_as_string`, string/traits.rs:9-31. -/
def numAsString (chk : Bool) (num : Nat) (neg : Bool) : Res Str := do
  let digits ← digitLoop 21 num []
  concatDigits chk digits neg

/-- `ToString` of the integers, string/traits.rs:65-119. Absolute values are taken in `i64`, or in `i128`
for `i64`, and cast to `u64`. -/
def intToString (chk : Bool) (w : Width) (signed : Bool) (x : BitVec (8 * w.bytes)) : Res Str :=
  if signed then numAsString chk (x.toInt.natAbs % 2 ^ 64) (decide (x.toInt < 0))
  else numAsString chk x.toNat false

/-! ## Spec: decimal representations -/

/-- The number written by a list of digits. -/
def decValue (bs : Bytes) : Nat := bs.foldl (fun acc b => 10 * acc + (b.toNat - 48)) 0

/-- A decimal representation of a natural number: digits, without a leading zero unless it is the only
digit. -/
structure Decimal (n : Nat) (bs : Bytes) : Prop where
  nonempty : bs ≠ []
  digits : ∀ b ∈ bs, 48 ≤ b.toNat ∧ b.toNat ≤ 57
  noLeadingZero : bs.head? = some 48 → bs.length = 1
  value : decValue bs = n

/-- The decimal representation of an integer: a minus sign for negative ones and then the absolute
value. -/
def DecimalInt (z : Int) (bs : Bytes) : Prop :=
  if z < 0 then ∃ ds, bs = 45 :: ds ∧ Decimal z.natAbs ds else Decimal z.natAbs bs

/-! ## Proofs -/

theorem decValue_append (a : Bytes) (b : UInt8) :
    decValue (a ++ [b]) = 10 * decValue a + (b.toNat - 48) := by
  simp [decValue]

/-- The character of a digit. -/
def chr (d : UInt8) : UInt8 := d + 48

theorem chr_toNat {d : UInt8} (h : d.toNat < 10) : (chr d).toNat = d.toNat + 48 := by
  unfold chr
  rw [UInt8.toNat_add]
  change (d.toNat + 48) % 256 = _
  omega

theorem chr_ascii {d : UInt8} (h : d.toNat < 10) : ensureAscii (chr d) = .ok () := by
  unfold ensureAscii
  rw [if_pos]
  have key : ∀ n : Fin 10, chr (UInt8.ofNat n) &&& 0b10000000 = 0 := by decide
  have := key ⟨d.toNat, h⟩
  rwa [UInt8.ofNat_toNat] at this

/-- What the loop collects, from the lowest digit on. -/
theorem digitLoop_ok : ∀ (k fuel value : Nat) (acc : List UInt8), value < 10 ^ k → 1 ≤ k → k ≤ fuel →
    acc.length + k ≤ 20 → ∃ ds, digitLoop fuel value acc = .ok (acc ++ ds) ∧ ds.length ≤ k ∧
      (∀ d ∈ ds, d.toNat < 10) ∧ Decimal value (ds.reverse.map chr)
  | 0, _, _, _, _, h, _, _ => absurd h (by omega)
  | k + 1, 0, _, _, _, _, h, _ => absurd h (by omega)
  | k + 1, fuel + 1, value, acc, hv, _, hf, hl => by
    have hd : (UInt8.ofNat (value % 10)).toNat = value % 10 := by
      rw [UInt8.toNat_ofNat']
      omega
    have hd10 : (UInt8.ofNat (value % 10)).toNat < 10 := by omega
    unfold digitLoop nextDigit
    dsimp only
    rw [if_pos (by omega)]
    by_cases hz : value / 10 = 0
    · rw [if_pos (by simpa using hz)]
      refine ⟨[UInt8.ofNat (value % 10)], rfl, by simp, by simpa using hd10, by simp, ?_, ?_, ?_⟩
      · intro b hb
        simp only [List.reverse_singleton, List.map_singleton, List.mem_singleton] at hb
        subst hb
        rw [chr_toNat hd10]
        omega
      · intro _; simp
      · simp only [List.reverse_singleton, List.map_singleton, decValue, List.foldl_cons, List.foldl_nil]
        rw [chr_toNat hd10, hd]
        omega
    · rw [if_neg (by simpa using hz)]
      have hk : 1 ≤ k := by
        rcases Nat.eq_zero_or_pos k with rfl | h
        · exfalso; omega
        · exact h
      have hv' : value / 10 < 10 ^ k := by
        rw [pow_succ] at hv
        omega
      obtain ⟨ds, h1, h2, h3, h4⟩ := digitLoop_ok k fuel (value / 10) (acc ++ [UInt8.ofNat (value % 10)])
        hv' hk (by omega) (by simp; omega)
      refine ⟨UInt8.ofNat (value % 10) :: ds, by rw [h1]; simp, by simp; omega, ?_, ?_⟩
      · intro d hd'
        rcases List.mem_cons.1 hd' with rfl | hd'
        · exact hd10
        · exact h3 d hd'
      · rw [List.reverse_cons, List.map_append, List.map_singleton]
        refine ⟨by simp, ?_, ?_, ?_⟩
        · intro b hb
          rcases List.mem_append.1 hb with hb | hb
          · exact h4.digits b hb
          · rw [List.mem_singleton.1 hb, chr_toNat hd10]
            omega
        · intro hh
          exfalso
          have hne := h4.nonempty
          have hh' : (ds.reverse.map chr).head? = some 48 := by
            revert hh
            cases he : ds.reverse.map chr with
            | nil => exact absurd he hne
            | cons a t => simp
          have hone := h4.noLeadingZero hh'
          have hval := h4.value
          revert hh' hone hval
          cases he : ds.reverse.map chr with
          | nil => exact absurd he hne
          | cons a t =>
            intro hh' hone hval
            have ht : t = [] := by simpa using hone
            subst ht
            have ha : a = 48 := by simpa using hh'
            subst ha
            simp [decValue] at hval
            omega
        · rw [decValue_append, h4.value, chr_toNat hd10, hd]
          omega

theorem fromByte_ok (chk : Bool) {b : UInt8} (h : ensureAscii b = .ok ()) :
    fromByte chk b = .ok (.short (b :: List.replicate 7 0) 1) := by
  unfold fromByte newShort
  rw [if_neg (by simp)]
  change (Outcome.bind (Outcome.bind (ensureAscii b) _) _) = _
  rw [h]
  rfl

theorem Holds.push {T : Type} {v : SVec T} {cap : Nat} {l : List T} (h : Holds v cap l) (x : T)
    (hl : l.length < cap) : ∃ v', v.push x = .ok v' ∧ Holds v' cap (l ++ [x]) := by
  rcases h.step (.push x) with ⟨h1, -⟩ | ⟨o, l', v', h1, h2, h3⟩
  · unfold listStep at h1
    dsimp only at h1
    rw [if_pos hl] at h1
    cases h1
  · unfold listStep at h1
    dsimp only at h1
    rw [if_pos hl] at h1
    cases h1
    refine ⟨v', ?_, h3⟩
    change (v.push x).bind _ = _ at h2
    cases hp : v.push x with
    | ok w => rw [hp] at h2; cases h2; rfl
    | err e => rw [hp] at h2; cases h2
    | panic => rw [hp] at h2; cases h2

theorem pushStr_byte {v : SVec UInt8} {cap : Nat} {l : Bytes} (h : Holds v cap l) {b : UInt8}
    (hb : ensureAscii b = .ok ()) (hl : l.length < cap) :
    ∃ v', pushStr v (.short (b :: List.replicate 7 0) 1) = .ok v' ∧ Holds v' cap (l ++ [b]) := by
  obtain ⟨v', h1, h2⟩ := h.push b hl
  refine ⟨v', ?_, h2⟩
  change (ensureAscii b).bind _ = _
  rw [hb]
  change (v.push b).bind _ = _
  rw [h1]
  rfl

theorem digitStr_ok (chk : Bool) {d : UInt8} (h : d.toNat < 10) :
    digitStr chk d = .ok (.short (chr d :: List.replicate 7 0) 1) := by
  unfold digitStr
  rw [if_neg]
  · exact fromByte_ok chk (chr_ascii h)
  · rintro ⟨-, h'⟩
    exact h' (UInt8.lt_iff_toNat_lt.2 h)

theorem pushDigits_ok (chk : Bool) : ∀ (ds : List UInt8) {v : SVec UInt8} {cap : Nat} {l : Bytes},
    Holds v cap l → (∀ d ∈ ds, d.toNat < 10) → l.length + ds.length ≤ cap →
    ∃ v', pushDigits chk v ds = .ok v' ∧ Holds v' cap (l ++ ds.map chr)
  | [], v, cap, l, h, _, _ => ⟨v, rfl, by simpa using h⟩
  | d :: ds, v, cap, l, h, hd, hl => by
    simp only [List.length_cons] at hl
    obtain ⟨v1, h1, h2⟩ := pushStr_byte h (chr_ascii (hd d (by simp))) (by omega)
    obtain ⟨v2, h3, h4⟩ := pushDigits_ok chk ds h2 (fun e he => hd e (by simp [he])) (by simp; omega)
    refine ⟨v2, ?_, by simpa using h4⟩
    change (digitStr chk d).bind _ = _
    rw [digitStr_ok chk (hd d (by simp))]
    change (pushStr v _).bind _ = _
    rw [h1]
    exact h3

theorem Holds.asSlice {T : Type} {v : SVec T} {cap : Nat} {l : List T} (h : Holds v cap l) :
    v.asSlice = .ok l := by
  change v.readN v.len 0 = _
  rw [h.readN v.len 0 (by have := h.len; omega), List.drop_zero]

theorem pushBytes_ok : ∀ (bs : Bytes) {v : SVec UInt8} {cap : Nat} {l : Bytes}, Holds v cap l →
    (∀ b ∈ bs, b.toNat < 128) → l.length + bs.length ≤ cap →
    ∃ v', pushBytes v bs = .ok v' ∧ Holds v' cap (l ++ bs)
  | [], v, cap, l, h, _, _ => ⟨v, rfl, by rw [List.append_nil]; exact h⟩
  | b :: bs, v, cap, l, h, ha, hl => by
    simp only [List.length_cons] at hl
    obtain ⟨v1, h1, h2⟩ := h.push b (by omega)
    obtain ⟨v2, h3, h4⟩ := pushBytes_ok bs h2 (fun x hx => ha x (List.mem_cons_of_mem _ hx)) (by
      rw [List.length_append, List.length_singleton]; omega)
    have hb : ensureAscii b = .ok () := by
      unfold ensureAscii
      rw [if_pos]
      have key : ∀ n : Fin 128, UInt8.ofNat n &&& 0b10000000 = 0 := by decide +kernel
      have := key ⟨b.toNat, ha b List.mem_cons_self⟩
      rwa [UInt8.ofNat_toNat] at this
    refine ⟨v2, ?_, by rw [List.append_assoc] at h4; exact h4⟩
    show (ensureAscii b).bind _ = _
    rw [hb]
    show (v.push b).bind _ = _
    rw [h1]
    exact h3

/-- **C62**, the string builder: a string of fewer than 256 ASCII bytes for which there is room is appended; a longer
one is refused with a panic. -/
theorem C62_push_str {v : SVec UInt8} {cap : Nat} {l bs : Bytes} (h : Holds v cap l) {s : Str}
    (hs : s.asBytes = .ok bs) :
    (bs.length < 256 → (∀ b ∈ bs, b.toNat < 128) → l.length + bs.length ≤ cap →
      ∃ v', pushStr v s = .ok v' ∧ v'.asSlice = .ok (l ++ bs)) ∧
    (256 ≤ bs.length → pushStr v s = .panic) := by
  have e : pushStr v s = if bs.length < 256 then pushBytes v bs else .panic := by
    show s.asBytes.bind _ = _
    rw [hs]
    rfl
  rw [e]
  constructor
  · intro h1 h2 h3
    obtain ⟨v', h4, h5⟩ := pushBytes_ok bs h h2 h3
    exact ⟨v', by rw [if_pos h1]; exact h4, h5.asSlice⟩
  · intro h1
    rw [if_neg (by omega)]

theorem newUnchecked_ok (chk : Bool) {v : SVec UInt8} {cap : Nat} {l : Bytes} (h : Holds v cap l) :
    ∃ s, newUnchecked chk v = .ok s ∧ s.asBytes = .ok l := by
  unfold newUnchecked
  rw [h.len]
  split
  · rename_i hl
    rw [h.asSlice]
    refine ⟨.short (l.take 8 ++ List.replicate (8 - l.length) 0) l.length, ?_, ?_⟩
    · change newShort chk l false = _
      unfold newShort
      rw [if_neg (by rintro ⟨-, h⟩; exact h hl)]
      rfl
    · unfold Str.asBytes
      dsimp only
      rw [List.take_of_length_le hl, if_pos (by simp), List.take_left']
      rfl
  · exact ⟨_, rfl, h.asSlice⟩

theorem numAsString_ok (chk : Bool) {n : Nat} (hn : n < 2 ^ 64) (neg : Bool) :
    ∃ s ds, numAsString chk n neg = .ok s ∧ s.asBytes = .ok (if neg then 45 :: ds else ds) ∧
      Decimal n ds := by
  obtain ⟨ds, h1, h2, h3, h4⟩ := digitLoop_ok 20 21 n [] (by norm_num; omega) (by omega) (by omega)
    (by simp)
  have hstart : ∃ v l, signPrefix chk neg = .ok v ∧ Holds v 21 l ∧ l = if neg then [45] else [] := by
    cases neg with
    | false => exact ⟨_, _, rfl, holds_withCapacity 21, rfl⟩
    | true =>
      obtain ⟨v, hv, hh⟩ := pushStr_byte (holds_withCapacity (T := UInt8) 21) (b := 45) (by decide)
        (by simp)
      refine ⟨v, [45], ?_, hh, rfl⟩
      change (fromByte chk 45).bind _ = _
      rw [fromByte_ok chk (by decide)]
      exact hv
  obtain ⟨v, l, hv, hh, hl⟩ := hstart
  obtain ⟨v', hp, hh'⟩ := pushDigits_ok chk ds.reverse hh (fun d hd => h3 d (List.mem_reverse.1 hd))
    (by rw [List.length_reverse, hl]; cases neg <;> simp <;> omega)
  obtain ⟨s, hs, hb⟩ := newUnchecked_ok chk hh'
  refine ⟨s, ds.reverse.map chr, ?_, ?_, h4⟩
  · unfold numAsString
    change (digitLoop 21 n []).bind _ = _
    rw [h1]
    unfold concatDigits
    change (signPrefix chk neg).bind _ = _
    rw [hv]
    change (pushDigits chk v ds.reverse).bind _ = _
    rw [hp]
    exact hs
  · rw [hb, hl]
    cases neg <;> rfl

/-- **C62.** The text of every integer of every width is its decimal representation. No step panics. -/
theorem C62_to_string (chk : Bool) (w : Width) (signed : Bool) (x : BitVec (8 * w.bytes)) :
    ∃ s bs, intToString chk w signed x = .ok s ∧ s.asBytes = .ok bs ∧
      DecimalInt (if signed then x.toInt else (x.toNat : Int)) bs := by
  have hw : 8 * w.bytes ≤ 64 := by cases w <;> simp [Width.bytes]
  have hx : x.toNat < 2 ^ 64 := lt_of_lt_of_le x.isLt (Nat.pow_le_pow_right (by omega) hw)
  unfold intToString
  cases signed with
  | false =>
    obtain ⟨s, ds, h1, h2, h3⟩ := numAsString_ok chk hx false
    refine ⟨s, ds, h1, h2, ?_⟩
    unfold DecimalInt
    rw [if_neg (by simp), if_neg (by simp)]
    exact h3
  | true =>
    have ha : x.toInt.natAbs < 2 ^ 64 := by
      rw [BitVec.toInt_eq_toNat_cond]
      have h2 : (2 : Nat) ^ (8 * w.bytes) ≤ 2 ^ 64 := Nat.pow_le_pow_right (by omega) hw
      have h3 := x.isLt
      split <;> omega
    obtain ⟨s, ds, h1, h2, h3⟩ := numAsString_ok chk ha (decide (x.toInt < 0))
    rw [if_pos rfl, if_pos rfl, Nat.mod_eq_of_lt ha]
    refine ⟨s, _, h1, h2, ?_⟩
    unfold DecimalInt
    by_cases hn : x.toInt < 0
    · rw [if_pos hn, if_pos (by simpa using hn)]
      exact ⟨ds, rfl, h3⟩
    · rw [if_neg hn, if_neg (by simpa using hn)]
      exact h3

theorem decValue_cons (a : UInt8) (t : Bytes) :
    decValue (a :: t) = (a.toNat - 48) * 10 ^ t.length + decValue t := by
  have key : ∀ (t : Bytes) (c : Nat),
      t.foldl (fun acc b => 10 * acc + (b.toNat - 48)) c = c * 10 ^ t.length + decValue t := by
    intro t
    induction t with
    | nil => intro c; simp [decValue]
    | cons b t ih =>
      intro c
      unfold decValue
      rw [List.foldl_cons, List.foldl_cons, ih, ih (10 * 0 + (b.toNat - 48)), List.length_cons, pow_succ]
      ring
  unfold decValue
  rw [List.foldl_cons, key]
  simp [decValue]

theorem decValue_lt {bs : Bytes} (h : ∀ b ∈ bs, 48 ≤ b.toNat ∧ b.toNat ≤ 57) :
    decValue bs < 10 ^ bs.length := by
  induction bs with
  | nil => simp [decValue]
  | cons a t ih =>
    have h1 := ih fun b hb => h b (by simp [hb])
    have h2 := h a (by simp)
    rw [decValue_cons, List.length_cons, pow_succ]
    have : (a.toNat - 48) * 10 ^ t.length ≤ 9 * 10 ^ t.length := Nat.mul_le_mul_right _ (by omega)
    omega

/-- Digits of the same length with the same value are the same. -/
theorem decValue_inj {a b : Bytes} (ha : ∀ x ∈ a, 48 ≤ x.toNat ∧ x.toNat ≤ 57)
    (hb : ∀ x ∈ b, 48 ≤ x.toNat ∧ x.toNat ≤ 57) (hl : a.length = b.length)
    (h : decValue a = decValue b) : a = b := by
  induction a generalizing b with
  | nil =>
    cases b with
    | nil => rfl
    | cons y t => simp at hl
  | cons x s ih =>
    cases b with
    | nil => simp at hl
    | cons y t =>
      have hl' : s.length = t.length := by simpa using hl
      have h1 := decValue_lt fun z hz => ha z (List.mem_cons_of_mem x hz)
      have h2 := decValue_lt fun z hz => hb z (List.mem_cons_of_mem y hz)
      have hx := ha x (by simp)
      have hy := hb y (by simp)
      rw [decValue_cons, decValue_cons, hl'] at h
      rw [hl'] at h1
      have hxy : x.toNat - 48 = y.toNat - 48 := by
        rcases Nat.lt_trichotomy (x.toNat - 48) (y.toNat - 48) with hlt | heq | hlt
        · have := Nat.mul_le_mul_right (10 ^ t.length) hlt
          rw [Nat.succ_mul] at this
          omega
        · exact heq
        · have := Nat.mul_le_mul_right (10 ^ t.length) hlt
          rw [Nat.succ_mul] at this
          omega
      rw [hxy] at h
      have hxe : x = y := UInt8.toNat_inj.1 (by omega)
      rw [hxe, ih (fun z hz => ha z (by simp [hz])) (fun z hz => hb z (by simp [hz])) hl' (by omega)]

theorem decimal_length_le {n : Nat} {a b : Bytes} (ha : Decimal n a) (hb : Decimal n b) :
    a.length ≤ b.length := by
  by_contra hlt
  cases a with
  | nil => exact ha.nonempty rfl
  | cons x s =>
    have hx := ha.digits x (by simp)
    have h1 := decValue_lt hb.digits
    have hbl : b.length ≤ s.length := by simp at hlt; omega
    have hpow : 10 ^ b.length ≤ 10 ^ s.length := Nat.pow_le_pow_right (by omega) hbl
    have hbpos : 0 < b.length := List.length_pos_of_ne_nil hb.nonempty
    have hne : x ≠ 48 := by
      rintro rfl
      have := ha.noLeadingZero rfl
      have hs : s.length = 0 := by simpa using this
      omega
    have hx48 : x.toNat ≠ 48 := fun h => hne (UInt8.toNat_inj.1 h)
    have hv := ha.value
    rw [decValue_cons] at hv
    have hm : 1 * 10 ^ s.length ≤ (x.toNat - 48) * 10 ^ s.length := Nat.mul_le_mul_right _ (by omega)
    rw [hb.value] at h1
    omega

/-- **C62.** An integer has one decimal representation only, so C62_to_string fixes every byte. -/
theorem C62_unique {z : Int} {a b : Bytes} (ha : DecimalInt z a) (hb : DecimalInt z b) : a = b := by
  have key : ∀ {n : Nat} {a b : Bytes}, Decimal n a → Decimal n b → a = b := fun ha hb =>
    decValue_inj ha.digits hb.digits
      (Nat.le_antisymm (decimal_length_le ha hb) (decimal_length_le hb ha)) (ha.value.trans hb.value.symm)
  unfold DecimalInt at ha hb
  by_cases hz : z < 0
  · rw [if_pos hz] at ha hb
    obtain ⟨s, rfl, hs⟩ := ha
    obtain ⟨t, rfl, ht⟩ := hb
    rw [key hs ht]
  · rw [if_neg hz] at ha hb
    exact key ha hb

example : (intToString true .w8 true (-128#8)).bind Str.asBytes = .ok [45, 49, 50, 56] := by
  decide +kernel

example : DecimalInt (-128) [45, 49, 50, 56] :=
  ⟨[49, 50, 56], rfl, by simp, by decide, by decide, rfl⟩

end Svm.Sdk
