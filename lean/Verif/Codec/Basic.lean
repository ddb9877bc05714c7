import Verif.Prelude

/-!
# Model of the primitives of `crates/host/codec` (`codec.rs`, `ext.rs`, `error.rs`)

A decoder consumes a prefix of the remaining bytes of the cursor. An encoder returns the bytes it
writes, or `none` when it panics.
-/

namespace Svm.Codec

/-- `ParseError`, error.rs:9-29. Simplification: the payload of `FromUtf8Error` is dropped;
`UnexpectedLayout` is never produced by the modelled code. -/
inductive ParseError where
  | eof
  | badByte (b : UInt8)
  | string
  | invalidSection
  | other
  deriving Repr, DecidableEq

/-- A decoder on a `Cursor<&[u8]>` (ext.rs:46-61): the state is the unread rest of the input. -/
def Dec (α : Type) := Bytes → Outcome ParseError (α × Bytes)

/-- Result of an encoder: the bytes appended to the writer (ext.rs:63-71), `none` for a panic. -/
abbrev Enc := Option Bytes

/-- Writing one thing after the other. -/
def Enc.seq (x y : Enc) : Enc :=
  match x, y with
  | some a, some b => some (a ++ b)
  | _, _ => none

@[inherit_doc] infixr:60 " +++ " => Enc.seq

/-- The `?` operator on decoders. -/
instance : Monad Dec where
  pure a := fun inp => .ok (a, inp)
  bind d f := fun inp =>
    match d inp with
    | .ok (a, rest) => f a rest
    | .err e => .err e
    | .panic => .panic

/-- Return an error. -/
def Dec.fail {α : Type} (e : ParseError) : Dec α := fun _ => .err e

/-- Panic. -/
def Dec.panic {α : Type} : Dec α := fun _ => .panic

/-- `.unwrap()` on the result of a decoder. -/
def Dec.unwrap {α : Type} (d : Dec α) : Dec α := fun inp =>
  match d inp with
  | .ok r => .ok r
  | _ => .panic

/-! ## Bytes and numbers -/

/-- `read_byte`, ext.rs:55-60. -/
def readByte : Dec UInt8
  | [] => .err .eof
  | b :: rest => .ok (b, rest)

/-- `read_bytes`, ext.rs:26-30 (via `read_fill`, ext.rs:11-17). -/
def readBytes (n : Nat) : Dec Bytes := fun inp =>
  if n ≤ inp.length then .ok (inp.take n, inp.drop n) else .err .eof

/-- `to_be_bytes` for a number of `n` bytes. -/
def natBE : Nat → Nat → Bytes
  | 0, _ => []
  | n + 1, x => UInt8.ofNat (x / 256 ^ n % 256) :: natBE n x

/-- `from_be_bytes`. -/
def beNat : Bytes → Nat
  | [] => 0
  | b :: bs => b.toNat * 256 ^ bs.length + beNat bs

/-- `impl_codec_for_number!`, codec.rs:444-465, for `u16` (n = 2), `u32`, `u64`, `u128`. -/
def encNum (n : Nat) (x : BitVec (8 * n)) : Enc := some (natBE n x.toNat)

/-- `impl_codec_for_number!`, codec.rs:444-465. -/
def decNum (n : Nat) : Dec (BitVec (8 * n)) := do
  let bs ← readBytes n
  return BitVec.ofNat (8 * n) (beNat bs)

abbrev U16 := BitVec (8 * 2)
abbrev U32 := BitVec (8 * 4)
abbrev U64 := BitVec (8 * 8)
abbrev U128 := BitVec (8 * 16)

/-- `Codec for u8`, codec.rs:343-353. -/
def encByte (b : UInt8) : Enc := some [b]

/-- `Codec for bool`, codec.rs:355-370. -/
def encBool (b : Bool) : Enc := some [if b then 1 else 0]

/-- `Codec for bool`, codec.rs:355-370. -/
def decBool : Dec Bool := do
  let b ← readByte
  if b = 1 then return true else if b = 0 then return false else Dec.fail (.badByte b)

/-- `[u8; N]`. -/
abbrev Arr (n : Nat) := { b : Bytes // b.length = n }

/-- `Codec for [u8; N]`, codec.rs:179-193, and `impl_codec_for_bytes_prim!`, codec.rs:467-486. -/
def encArr {n : Nat} (a : Arr n) : Enc := some a.1

/-- `Codec for [u8; N]`, codec.rs:179-193, and `impl_codec_for_bytes_prim!`, codec.rs:467-486. The
conversion of line 187 cannot fail because `read_bytes` returns exactly `N` bytes. -/
def decArr (n : Nat) : Dec (Arr n) := do
  let bs ← readBytes n
  if h : bs.length = n then return ⟨bs, h⟩ else Dec.panic

/-- `Address`, `TemplateAddr`: 20 bytes (types/src/address.rs). -/
abbrev Addr := Arr 20

/-- `State`, `TransactionId`: 32 bytes (types/src/state.rs, types/src/transaction/id.rs). -/
abbrev Hash := Arr 32

/-- `DataWithPrefix<P>` for a prefix of `n` bytes, codec.rs:102-122. -/
def encData (n : Nat) (data : Bytes) : Enc :=
  if data.length < 256 ^ n then encNum n (BitVec.ofNat _ data.length) +++ some data else none

/-- `DataWithPrefix<P>`, codec.rs:116-121. -/
def decData (n : Nat) : Dec Bytes := do
  let len ← decNum n
  readBytes len.toNat

/-! ## Strings -/

/-- State of the UTF-8 automaton: what the next byte must be. -/
inductive Utf8State where
  | start | c1 | c2 | c3 | e0 | ed | f0 | f4
  deriving Repr, DecidableEq

/-- One step of UTF-8 validation (the table of `core::str::from_utf8`, RFC 3629). -/
def utf8Step (s : Utf8State) (b : UInt8) : Option Utf8State :=
  match s with
  | .start =>
    if b < 0x80 then some .start
    else if 0xC2 ≤ b && b ≤ 0xDF then some .c1
    else if b = 0xE0 then some .e0
    else if b = 0xED then some .ed
    else if 0xE1 ≤ b && b ≤ 0xEF then some .c2
    else if b = 0xF0 then some .f0
    else if 0xF1 ≤ b && b ≤ 0xF3 then some .c3
    else if b = 0xF4 then some .f4
    else none
  | .c1 => if 0x80 ≤ b && b ≤ 0xBF then some .start else none
  | .c2 => if 0x80 ≤ b && b ≤ 0xBF then some .c1 else none
  | .c3 => if 0x80 ≤ b && b ≤ 0xBF then some .c2 else none
  | .e0 => if 0xA0 ≤ b && b ≤ 0xBF then some .c1 else none
  | .ed => if 0x80 ≤ b && b ≤ 0x9F then some .c1 else none
  | .f0 => if 0x90 ≤ b && b ≤ 0xBF then some .c2 else none
  | .f4 => if 0x80 ≤ b && b ≤ 0x8F then some .c2 else none

/-- Run of the automaton. -/
def utf8Run (s : Utf8State) : Bytes → Option Utf8State
  | [] => some s
  | b :: bs => match utf8Step s b with
    | some s' => utf8Run s' bs
    | none => none

/-- Whether the bytes are valid UTF-8 (`String::from_utf8` succeeds). -/
def utf8Valid (bs : Bytes) : Bool := utf8Run .start bs == some .start

/-- `String`: valid UTF-8 bytes. -/
abbrev Str := { b : Bytes // utf8Valid b = true }

/-- `Codec for String`, codec.rs:325-333: at most 255 bytes. -/
def encStr (s : Str) : Enc :=
  if s.1.length < 256 then some (UInt8.ofNat s.1.length :: s.1) else none

/-- `Codec for String`, codec.rs:335-340. -/
def decStr : Dec Str := do
  let len ← readByte
  let bs ← readBytes len.toNat
  if h : utf8Valid bs = true then return ⟨bs, h⟩ else Dec.fail .string

/-- Reading `n` items, e.g. codec.rs:391-393. -/
def decMany {α : Type} (d : Dec α) : Nat → Dec (List α)
  | 0 => pure []
  | n + 1 => do
    let a ← d
    let as ← decMany d n
    return a :: as

/-- Writing a list of items, e.g. codec.rs:382-384. -/
def encMany {α : Type} (e : α → Enc) : List α → Enc
  | [] => some []
  | a :: as => e a +++ encMany e as

/-- `Codec for Vec<T>`, codec.rs:372-385. -/
def encVec {α : Type} (e : α → Enc) (l : List α) : Enc :=
  if l.length < 65536 then encNum 2 (BitVec.ofNat _ l.length) +++ encMany e l else none

/-- `Codec for Vec<T>`, codec.rs:387-396. -/
def decVec {α : Type} (d : Dec α) : Dec (List α) := do
  let n ← decNum 2
  decMany d n.toNat

/-! ## Laws -/

/-- Decoding what has been encoded, followed by anything, returns the value and leaves the rest. -/
def RoundTrip {α : Type} (e : α → Enc) (d : Dec α) : Prop :=
  ∀ a bs rest, e a = some bs → d (bs ++ rest) = .ok (a, rest)

/-- Whatever the decoder accepts is the encoding of the value returned. -/
def Canonical {α : Type} (e : α → Enc) (d : Dec α) : Prop :=
  ∀ inp a rest, d inp = .ok (a, rest) → ∃ bs, e a = some bs ∧ inp = bs ++ rest

/-- The decoder never panics. -/
def NoPanic {α : Type} (d : Dec α) : Prop := ∀ inp, d inp ≠ .panic

/-! ## Lemmas -/

@[simp] theorem Dec.pure_apply {α : Type} (a : α) (inp : Bytes) :
    (pure a : Dec α) inp = .ok (a, inp) := rfl

theorem Dec.bind_apply {α β : Type} (d : Dec α) (f : α → Dec β) (inp : Bytes) :
    (d >>= f) inp = (match d inp with
      | .ok (a, rest) => f a rest
      | .err e => .err e
      | .panic => .panic) := rfl

theorem Dec.bind_ok {α β : Type} {d : Dec α} {f : α → Dec β} {inp rest : Bytes} {a : α}
    (h : d inp = .ok (a, rest)) : (d >>= f) inp = f a rest := by
  rw [Dec.bind_apply, h]

theorem Dec.bind_eq_ok {α β : Type} {d : Dec α} {f : α → Dec β} {inp : Bytes} {r : β × Bytes}
    (h : (d >>= f) inp = .ok r) : ∃ a mid, d inp = .ok (a, mid) ∧ f a mid = .ok r := by
  rw [Dec.bind_apply] at h
  split at h
  · rename_i a rest heq; exact ⟨a, rest, heq, h⟩
  · cases h
  · cases h

theorem Dec.bind_eq_panic {α β : Type} {d : Dec α} {f : α → Dec β} {inp : Bytes}
    (h : (d >>= f) inp = .panic) :
    d inp = .panic ∨ ∃ a mid, d inp = .ok (a, mid) ∧ f a mid = .panic := by
  rw [Dec.bind_apply] at h
  split at h
  · rename_i a rest heq; exact .inr ⟨a, rest, heq, h⟩
  · cases h
  · rename_i heq; exact .inl heq

theorem NoPanic.pure {α : Type} (a : α) : NoPanic (pure a : Dec α) := by
  intro inp h; cases h

theorem NoPanic.fail {α : Type} (e : ParseError) : NoPanic (Dec.fail e : Dec α) := by
  intro inp h; cases h

theorem NoPanic.bind {α β : Type} {d : Dec α} {f : α → Dec β} (hd : NoPanic d)
    (hf : ∀ a, NoPanic (f a)) : NoPanic (d >>= f) := by
  intro inp h
  rcases Dec.bind_eq_panic h with h | ⟨a, mid, _, h⟩
  · exact hd _ h
  · exact hf a _ h

theorem Enc.seq_eq_some {x y : Enc} {z : Bytes} :
    x +++ y = some z ↔ ∃ a b, x = some a ∧ y = some b ∧ z = a ++ b := by
  unfold Enc.seq
  cases x <;> cases y <;> simp [eq_comm]

/-- One step of a round trip proof. -/
theorem RoundTrip.step {α β : Type} {e : α → Enc} {d : Dec α} (h : RoundTrip e d) {a : α}
    {bs rest : Bytes} (he : e a = some bs) (f : α → Dec β) :
    (d >>= f) (bs ++ rest) = f a rest :=
  Dec.bind_ok (h a bs rest he)

/-- Round trip gives injectivity, and more: no encoding is a proper prefix of another. -/
theorem RoundTrip.prefix_free {α : Type} {e : α → Enc} {d : Dec α} (h : RoundTrip e d)
    {a b : α} {x y s t : Bytes} (ha : e a = some x) (hb : e b = some y) (hxy : x ++ s = y ++ t) :
    a = b ∧ s = t := by
  have h1 := h a x s ha
  have h2 := h b y t hb
  rw [hxy, h2] at h1
  simp only [Outcome.ok.injEq, Prod.mk.injEq] at h1
  exact ⟨h1.1.symm, h1.2.symm⟩

theorem natBE_length (n x : Nat) : (natBE n x).length = n := by
  induction n with
  | zero => rfl
  | succ n ih => simp [natBE, ih]

theorem beNat_lt (bs : Bytes) : beNat bs < 256 ^ bs.length := by
  induction bs with
  | nil => simp [beNat]
  | cons b bs ih =>
    simp only [beNat, List.length_cons, Nat.pow_succ]
    have hb : b.toNat < 256 := b.toNat_lt
    have h1 : b.toNat * 256 ^ bs.length ≤ 255 * 256 ^ bs.length :=
      Nat.mul_le_mul_right _ (by omega)
    omega

theorem toNat_ofNat_mod (x : Nat) : (UInt8.ofNat (x % 256)).toNat = x % 256 := by
  rw [UInt8.toNat_ofNat']; omega

theorem beNat_natBE (n x : Nat) : beNat (natBE n x) = x % 256 ^ n := by
  induction n with
  | zero => simp [natBE, beNat, Nat.mod_one]
  | succ n ih =>
    simp only [natBE, beNat, natBE_length, ih, toNat_ofNat_mod]
    rw [Nat.pow_succ, Nat.mod_mul, Nat.mul_comm]
    omega

theorem natBE_mod (n x m : Nat) (h : n ≤ m) : natBE n (x % 256 ^ m) = natBE n x := by
  induction n with
  | zero => rfl
  | succ n ih =>
    simp only [natBE]
    rw [ih (by omega)]
    congr 2
    have : 256 ^ m = 256 ^ n * (256 * 256 ^ (m - n - 1)) := by
      rw [← Nat.mul_assoc, ← Nat.pow_succ, ← Nat.pow_add]; congr 1; omega
    rw [this, Nat.mod_mul_right_div_self, Nat.mod_mul_right_mod]

theorem natBE_beNat (bs : Bytes) : natBE bs.length (beNat bs) = bs := by
  induction bs with
  | nil => rfl
  | cons b bs ih =>
    have hlt := beNat_lt bs
    have hb : b.toNat < 256 := b.toNat_lt
    have hpos : 0 < 256 ^ bs.length := Nat.pow_pos (by omega)
    simp only [List.length_cons, natBE, beNat]
    have h1 : (b.toNat * 256 ^ bs.length + beNat bs) / 256 ^ bs.length % 256 = b.toNat := by
      rw [Nat.mul_comm, Nat.mul_add_div hpos, Nat.div_eq_of_lt hlt]
      omega
    rw [h1]
    have h2 : natBE bs.length (b.toNat * 256 ^ bs.length + beNat bs) = bs := by
      rw [← natBE_mod bs.length _ bs.length (Nat.le_refl _)]
      have : (b.toNat * 256 ^ bs.length + beNat bs) % 256 ^ bs.length = beNat bs := by
        rw [Nat.mul_comm, Nat.mul_add_mod, Nat.mod_eq_of_lt hlt]
      rw [this, ih]
    rw [h2]
    simp

theorem two_pow_eight (n : Nat) : 2 ^ (8 * n) = 256 ^ n := by
  rw [Nat.pow_mul]

/-! ### Readers -/

theorem readBytes_append {n : Nat} {a rest : Bytes} (h : a.length = n) :
    readBytes n (a ++ rest) = .ok (a, rest) := by
  unfold readBytes
  rw [if_pos (by simp; omega)]
  subst h
  simp

theorem readBytes_ok {n : Nat} {inp a rest : Bytes} (h : readBytes n inp = .ok (a, rest)) :
    a.length = n ∧ inp = a ++ rest := by
  unfold readBytes at h
  split at h
  · rename_i hn
    simp only [Outcome.ok.injEq, Prod.mk.injEq] at h
    obtain ⟨rfl, rfl⟩ := h
    simp [hn]
  · cases h

theorem noPanic_readByte : NoPanic readByte := by
  intro inp h; cases inp <;> cases h

theorem noPanic_readBytes (n : Nat) : NoPanic (readBytes n) := by
  intro inp h; unfold readBytes at h; split at h <;> cases h

theorem roundTrip_byte : RoundTrip encByte readByte := by
  intro a bs rest h; cases h; rfl

theorem canonical_byte : Canonical encByte readByte := by
  intro inp a rest h
  cases inp with
  | nil => cases h
  | cons b inp => cases h; exact ⟨[_], rfl, rfl⟩

theorem roundTrip_num (n : Nat) : RoundTrip (encNum n) (decNum n) := by
  intro a bs rest h
  cases h
  unfold decNum
  rw [Dec.bind_ok (readBytes_append (natBE_length n _))]
  simp only [Dec.pure_apply, beNat_natBE]
  have ha : a.toNat < 256 ^ n := by rw [← two_pow_eight]; exact a.isLt
  rw [Nat.mod_eq_of_lt ha]
  simp

theorem canonical_num (n : Nat) : Canonical (encNum n) (decNum n) := by
  intro inp a rest h
  obtain ⟨bs, mid, h1, h2⟩ := Dec.bind_eq_ok h
  obtain ⟨hl, rfl⟩ := readBytes_ok h1
  cases h2
  refine ⟨bs, ?_, rfl⟩
  unfold encNum
  have := beNat_lt bs
  rw [hl, ← two_pow_eight] at this
  rw [BitVec.toNat_ofNat, Nat.mod_eq_of_lt this, ← hl, natBE_beNat]

theorem noPanic_num (n : Nat) : NoPanic (decNum n) :=
  NoPanic.bind (noPanic_readBytes n) (fun _ => NoPanic.pure _)

theorem encNum_length {n : Nat} {x : BitVec (8 * n)} {bs : Bytes} (h : encNum n x = some bs) :
    bs.length = n := by
  cases h; exact natBE_length n _

theorem roundTrip_bool : RoundTrip encBool decBool := by
  intro a bs rest h; cases h; cases a <;> rfl

theorem canonical_bool : Canonical encBool decBool := by
  intro inp a rest h
  obtain ⟨b, mid, h1, h2⟩ := Dec.bind_eq_ok h
  obtain ⟨bs, hb, rfl⟩ := canonical_byte _ _ _ h1
  cases hb
  split at h2
  · rename_i hb; cases h2; exact ⟨[1], rfl, by simp [hb]⟩
  · split at h2
    · rename_i hb; cases h2; exact ⟨[0], rfl, by simp [hb]⟩
    · cases h2

theorem noPanic_bool : NoPanic decBool := by
  refine NoPanic.bind noPanic_readByte (fun b => ?_)
  intro inp h
  split at h
  · cases h
  · split at h <;> cases h

theorem roundTrip_arr (n : Nat) : RoundTrip (encArr (n := n)) (decArr n) := by
  intro a bs rest h
  cases h
  unfold decArr
  rw [Dec.bind_ok (readBytes_append a.2)]
  rw [dif_pos a.2]
  rfl

theorem canonical_arr (n : Nat) : Canonical (encArr (n := n)) (decArr n) := by
  intro inp a rest h
  obtain ⟨bs, mid, h1, h2⟩ := Dec.bind_eq_ok h
  obtain ⟨hl, rfl⟩ := readBytes_ok h1
  rw [dif_pos hl] at h2
  cases h2
  exact ⟨bs, rfl, rfl⟩

theorem noPanic_arr (n : Nat) : NoPanic (decArr n) := by
  intro inp h
  rcases Dec.bind_eq_panic h with h | ⟨a, mid, h1, h⟩
  · exact noPanic_readBytes n _ h
  · rw [dif_pos (readBytes_ok h1).1] at h
    cases h

theorem roundTrip_data (n : Nat) : RoundTrip (encData n) (decData n) := by
  intro a bs rest h
  unfold encData at h
  split at h
  · rename_i hlt
    obtain ⟨x, y, hx, hy, rfl⟩ := Enc.seq_eq_some.1 h
    cases hy
    unfold decData
    rw [List.append_assoc, (roundTrip_num n).step hx]
    apply readBytes_append
    rw [← two_pow_eight] at hlt
    rw [BitVec.toNat_ofNat, Nat.mod_eq_of_lt hlt]
  · cases h

theorem canonical_data (n : Nat) : Canonical (encData n) (decData n) := by
  intro inp a rest h
  obtain ⟨len, mid, h1, h2⟩ := Dec.bind_eq_ok h
  obtain ⟨x, hx, rfl⟩ := canonical_num n _ _ _ h1
  obtain ⟨hl, rfl⟩ := readBytes_ok h2
  refine ⟨x ++ a, ?_, by simp⟩
  unfold encData
  have hlt : a.length < 256 ^ n := by rw [hl, ← two_pow_eight]; exact len.isLt
  rw [if_pos hlt, hl]
  simp only [BitVec.ofNat_toNat, BitVec.setWidth_eq]
  rw [hx]; rfl

theorem noPanic_data (n : Nat) : NoPanic (decData n) :=
  NoPanic.bind (noPanic_num n) (fun _ => noPanic_readBytes _)

theorem roundTrip_str : RoundTrip encStr decStr := by
  intro a bs rest h
  unfold encStr at h
  split at h
  · rename_i hlt
    cases h
    unfold decStr
    rw [List.cons_append, Dec.bind_ok (rfl : readByte (UInt8.ofNat a.1.length :: (a.1 ++ rest))
      = .ok (UInt8.ofNat a.1.length, a.1 ++ rest))]
    have hn : (UInt8.ofNat a.1.length).toNat = a.1.length := by
      rw [UInt8.toNat_ofNat']; omega
    rw [Dec.bind_ok (readBytes_append hn.symm), dif_pos a.2]
    rfl
  · cases h

theorem canonical_str : Canonical encStr decStr := by
  intro inp a rest h
  obtain ⟨len, mid, h1, h2⟩ := Dec.bind_eq_ok h
  obtain ⟨x, hx, rfl⟩ := canonical_byte _ _ _ h1
  cases hx
  obtain ⟨bs, mid', h3, h4⟩ := Dec.bind_eq_ok h2
  obtain ⟨hl, rfl⟩ := readBytes_ok h3
  split at h4
  · rename_i hv
    cases h4
    have : len.toNat < 256 := len.toNat_lt
    refine ⟨len :: bs, ?_, rfl⟩
    unfold encStr
    rw [if_pos (by simp only; omega)]
    simp [hl]
  · cases h4

theorem noPanic_str : NoPanic decStr := by
  refine NoPanic.bind noPanic_readByte (fun n => NoPanic.bind (noPanic_readBytes _) (fun bs => ?_))
  intro inp h
  split at h <;> cases h

theorem roundTrip_many {α : Type} {e : α → Enc} {d : Dec α} (h : RoundTrip e d) (l : List α)
    (bs rest : Bytes) (he : encMany e l = some bs) :
    decMany d l.length (bs ++ rest) = .ok (l, rest) := by
  induction l generalizing bs with
  | nil => cases he; rfl
  | cons a l ih =>
    obtain ⟨x, y, hx, hy, rfl⟩ := Enc.seq_eq_some.1 he
    simp only [List.length_cons, decMany]
    rw [List.append_assoc, h.step hx, Dec.bind_ok (ih y hy)]
    rfl

theorem canonical_many {α : Type} {e : α → Enc} {d : Dec α} (h : Canonical e d) (n : Nat)
    (inp rest : Bytes) (l : List α) (hd : decMany d n inp = .ok (l, rest)) :
    l.length = n ∧ ∃ bs, encMany e l = some bs ∧ inp = bs ++ rest := by
  induction n generalizing inp l with
  | zero => cases hd; exact ⟨rfl, [], rfl, rfl⟩
  | succ n ih =>
    obtain ⟨a, mid, h1, h2⟩ := Dec.bind_eq_ok hd
    obtain ⟨as, mid', h3, h4⟩ := Dec.bind_eq_ok h2
    cases h4
    obtain ⟨x, hx, rfl⟩ := h _ _ _ h1
    obtain ⟨hl, y, hy, rfl⟩ := ih _ _ h3
    refine ⟨by simp [hl], x ++ y, ?_, by simp⟩
    simp only [encMany, hx, hy, Enc.seq]

theorem noPanic_many {α : Type} {d : Dec α} (h : NoPanic d) (n : Nat) : NoPanic (decMany d n) := by
  induction n with
  | zero => exact NoPanic.pure _
  | succ n ih => exact NoPanic.bind h (fun a => NoPanic.bind ih (fun as => NoPanic.pure _))

theorem roundTrip_vec {α : Type} {e : α → Enc} {d : Dec α} (h : RoundTrip e d) :
    RoundTrip (encVec e) (decVec d) := by
  intro l bs rest he
  unfold encVec at he
  split at he
  · rename_i hlt
    obtain ⟨x, y, hx, hy, rfl⟩ := Enc.seq_eq_some.1 he
    unfold decVec
    rw [List.append_assoc, (roundTrip_num 2).step hx]
    have : (BitVec.ofNat (8 * 2) l.length).toNat = l.length := by
      rw [BitVec.toNat_ofNat]; omega
    rw [this]
    exact roundTrip_many h l y rest hy
  · cases he

end Svm.Codec
