import Verif.Abi.Props

/-!
# Rust types in the ABI: sizes (C59) and reading arguments (C74)

The types a program encodes directly, without going through `Value`, and the conversions from decoded
values. Tuples of three to six fields (tuples.rs:55-195) are nested pairs here: encodings are
concatenated and sizes added in the same order. One-field tuples are their field.
-/

namespace Svm.Abi

open Svm.Codec (natBE beNat Arr Addr)

/-- The types implementing `Encoder` and `ByteSize`, abi-encoder/src/types. -/
inductive Ty where
  | unit | bool | address | amount
  | int (w : Width) (signed : Bool)
  | option (t : Ty)
  | arr (t : Ty) (n : Nat)
  | pair (a b : Ty)
  deriving DecidableEq

/-- The values of a type. -/
@[reducible] def Ty.Val : Ty → Type
  | .unit => Unit
  | .bool => Bool
  | .address => Addr
  | .amount => BitVec 64
  | .int w _ => BitVec (8 * w.bytes)
  | .option t => Option t.Val
  | .arr t n => { l : List t.Val // l.length = n }
  | .pair a b => a.Val × b.Val

/-- `Encoder::encode`: boolean.rs:5-13, unit.rs:3-7, address.rs:7-16, amount.rs:6-19, numeric.rs:6-45,
option.rs:5-17, small_array.rs:4-29, tuples.rs; `none` is a panic. -/
def Ty.encode : (t : Ty) → t.Val → Option Bytes
  | .unit, _ => some [UNIT]
  | .bool, b => some [if (show Bool from b) then BOOL_TRUE else BOOL_FALSE]
  | .address, a => some (ADDRESS :: a.1)
  | .amount, x => some (encodeAmount x)
  | .int w s, x => encodeInt w s x
  | .option _, none => some [NONE]
  | .option t, some v => t.encode v
  | .arr t n, l => if n < 11 then do some (layoutArray n :: (← l.1.mapM t.encode).flatten) else none
  | .pair a b, v => do some ((← a.encode v.1) ++ (← b.encode v.2))

/-- `ByteSize::byte_size`: boolean.rs:16-18, unit.rs:10-12, address.rs:18-22, amount.rs:21-25,
numeric.rs:51-65, option.rs:19-28, small_array.rs:35-49, tuples.rs; `none` is a panic. For arrays the
loop visits the indices 0 to 10 and reads the item at each index up to the length, inclusively. -/
def Ty.byteSize : (t : Ty) → t.Val → Option Nat
  | .unit, _ => some 1
  | .bool, _ => some 1
  | .address, _ => some 21
  | .amount, x => some (numByteSize x.toNat)
  | .int _ _, x => some (numByteSize x.toNat)
  | .option _, none => some 1
  | .option t, some v => t.byteSize v
  | .arr t n, l =>
    if n < 11 then do
      let payload ← (List.range 11).foldlM (fun size i =>
        if n ≥ i then do
          let v ← l.1[i]?
          some (size + (← t.byteSize v))
        else some size) 0
      some (1 + payload)
    else none
  | .pair a b, v => do some ((← a.byteSize v.1) + (← b.byteSize v.2))

/-- `ByteSize::max_byte_size`: boolean.rs:20-22, unit.rs:14-16, address.rs:24-26, amount.rs:27-29,
numeric.rs:67-69, option.rs:30-32, small_array.rs:51-53, tuples.rs. -/
def Ty.maxByteSize : Ty → Nat
  | .unit => 1
  | .bool => 1
  | .address => 21
  | .amount => numByteSize (2 ^ 64 - 1)
  | .int w s => numMaxByteSize w s
  | .option t => t.maxByteSize
  | .arr t n => 1 + t.maxByteSize * n
  | .pair a b => a.maxByteSize + b.maxByteSize

/-! ## Spec -/

/-- A value whose size computation meets an array. -/
def Ty.Reaches : (t : Ty) → t.Val → Prop
  | .option t, some v => t.Reaches v
  | .arr _ _, _ => True
  | .pair a b, v => a.Reaches v.1 ∨ b.Reaches v.2
  | _, _ => False

/-- Every array met in the value has at most ten items. -/
def Ty.Small : (t : Ty) → t.Val → Prop
  | .option t, some v => t.Small v
  | .arr t n, l => n ≤ 10 ∧ ∀ v ∈ l.1, t.Small v
  | .pair a b, v => a.Small v.1 ∧ b.Small v.2
  | _, _ => True

/-! ## C59 -/

/-- **C59, as stated.** -/
def C59_claim : Prop := ∀ (t : Ty) (v : t.Val) (bs : Bytes), t.encode v = some bs →
  t.byteSize v = some bs.length ∧ bs.length ≤ t.maxByteSize

theorem encodeInt_length {w : Width} {s : Bool} {x : BitVec (8 * w.bytes)} {bs : Bytes}
    (h : encodeInt w s x = some bs) : bs.length = numByteSize x.toNat := by
  obtain ⟨b, h1, -, -⟩ := encodeInt_eq w s x
  rw [h1] at h
  cases h
  have := numByteSize_bounds x.toNat
  rw [List.length_cons, lastBytes_length (by omega)]
  omega

theorem encodeAmount_length (x : BitVec 64) : (encodeAmount x).length = numByteSize x.toNat := by
  have := numByteSize_bounds x.toNat
  unfold encodeAmount
  rw [List.length_cons, lastBytes_length (by omega)]
  omega

theorem Ty.maxByteSize_pos : ∀ t : Ty, 0 < t.maxByteSize
  | .unit => by simp [maxByteSize]
  | .bool => by simp [maxByteSize]
  | .address => by simp [maxByteSize]
  | .amount => by simp [maxByteSize]; decide
  | .int w s => by rw [maxByteSize, numMaxByteSize_eq]; omega
  | .option t => by rw [maxByteSize]; exact t.maxByteSize_pos
  | .arr t n => by rw [maxByteSize]; omega
  | .pair a b => by rw [maxByteSize]; have := a.maxByteSize_pos; omega

theorem Ty.encode_pair {a b : Ty} {v : (Ty.pair a b).Val} {bs : Bytes}
    (h : (Ty.pair a b).encode v = some bs) :
    ∃ x y, a.encode v.1 = some x ∧ b.encode v.2 = some y ∧ bs = x ++ y := by
  unfold Ty.encode at h
  cases hx : a.encode v.1 with
  | none => rw [hx] at h; cases h
  | some x =>
    rw [hx] at h
    cases hy : b.encode v.2 with
    | none => rw [hy] at h; cases h
    | some y => rw [hy] at h; cases h; exact ⟨x, y, rfl, rfl, rfl⟩

theorem Ty.encode_arr {t : Ty} {n : Nat} {l : (Ty.arr t n).Val} {bs : Bytes}
    (h : (Ty.arr t n).encode l = some bs) :
    n < 11 ∧ ∃ xs, l.1.mapM t.encode = some xs ∧ bs = layoutArray n :: xs.flatten := by
  unfold Ty.encode at h
  split at h
  · rename_i hn
    refine ⟨hn, ?_⟩
    cases hx : l.1.mapM t.encode with
    | none => rw [hx] at h; cases h
    | some xs => rw [hx] at h; cases h; exact ⟨xs, rfl, rfl⟩
  · cases h

theorem mapM_cons_some {α β : Type} {f : α → Option β} {a : α} {l : List α} {ys : List β}
    (h : (a :: l).mapM f = some ys) : ∃ y t, f a = some y ∧ l.mapM f = some t ∧ ys = y :: t := by
  rw [List.mapM_cons] at h
  cases hy : f a with
  | none => rw [hy] at h; cases h
  | some y =>
    rw [hy] at h
    cases ht : l.mapM f with
    | none => rw [ht] at h; cases h
    | some t => rw [ht] at h; cases h; exact ⟨y, t, rfl, rfl, rfl⟩

/-- **C59.** The encoding of a value never exceeds the maximum of its type, so it fits the buffer that
an endpoint allocates for its result (sdk-macros/src/function/endpoint.rs:113). -/
theorem C59_max : ∀ (t : Ty) (v : t.Val) (bs : Bytes), t.encode v = some bs →
    bs.length ≤ t.maxByteSize
  | .unit, _, _, h => by cases h; simp [Ty.maxByteSize]
  | .bool, _, _, h => by cases h; simp [Ty.maxByteSize]
  | .address, a, _, h => by
    cases h
    have := a.2
    simp [Ty.maxByteSize, this]
  | .amount, x, _, h => by
    cases h
    rw [encodeAmount_length]
    exact numByteSize_mono (by have := BitVec.isLt (w := 64) x; omega)
  | .int w s, x, _, h => by
    rw [encodeInt_length h]
    change _ ≤ numMaxByteSize w s
    rw [numMaxByteSize_eq]
    exact numByteSize_le x.isLt
  | .option t, none, _, h => by
    cases h
    exact t.maxByteSize_pos
  | .option t, some v, _, h => C59_max t v _ h
  | .arr t n, l, _, h => by
    obtain ⟨-, xs, hx, rfl⟩ := Ty.encode_arr h
    obtain ⟨l, hl⟩ := l
    have key : ∀ (l : List t.Val) (xs : List Bytes), l.mapM t.encode = some xs →
        xs.flatten.length ≤ t.maxByteSize * l.length := by
      intro l
      induction l with
      | nil => intro xs h; cases h; simp
      | cons v l ih =>
        intro xs h
        obtain ⟨y, t', hy, ht, rfl⟩ := mapM_cons_some h
        have h1 := C59_max t v y hy
        have h2 := ih t' ht
        rw [List.flatten_cons, List.length_append, List.length_cons, Nat.mul_succ]
        omega
    have := key l xs hx
    rw [hl] at this
    rw [List.length_cons]
    change _ ≤ 1 + t.maxByteSize * n
    omega
  | .pair a b, v, _, h => by
    obtain ⟨x, y, hx, hy, rfl⟩ := Ty.encode_pair h
    have h1 := C59_max a _ _ hx
    have h2 := C59_max b _ _ hy
    rw [List.length_append]
    change _ ≤ a.maxByteSize + b.maxByteSize
    omega

theorem foldlM_none {α β : Type} {f : β → α → Option β} {l : List α} {b : β}
    (h : ∃ i ∈ l, ∀ c, f c i = none) : l.foldlM f b = none := by
  induction l generalizing b with
  | nil => obtain ⟨_, h, _⟩ := h; cases h
  | cons a l ih =>
    rw [List.foldlM_cons]
    obtain ⟨i, hi, hn⟩ := h
    rcases List.mem_cons.1 hi with rfl | hi
    · rw [hn]; rfl
    · cases hf : f b a with
      | none => rfl
      | some c => exact ih ⟨i, hi, hn⟩

/-- **C59.** Asking any array for its size panics. -/
theorem C59_array_panics (t : Ty) (n : Nat) (l : (Ty.arr t n).Val) :
    (Ty.arr t n).byteSize l = none := by
  unfold Ty.byteSize
  split
  · rename_i hn
    rw [foldlM_none]
    · rfl
    · refine ⟨n, List.mem_range.2 hn, fun c => ?_⟩
      have hnone : l.1[n]? = none := List.getElem?_eq_none (by rw [l.2])
      rw [if_pos (le_refl n), hnone]
      rfl
  · rfl

/-- **C59, partial.** For every value that has an encoding, the announced size is the length of the
encoding if no array is met, and the announcement panics otherwise. -/
theorem C59_size_partial : ∀ (t : Ty) (v : t.Val) (bs : Bytes), t.encode v = some bs →
    (¬ t.Reaches v → t.byteSize v = some bs.length) ∧ (t.Reaches v → t.byteSize v = none)
  | .unit, _, _, h => by cases h; exact ⟨fun _ => rfl, fun h => h.elim⟩
  | .bool, _, _, h => by cases h; exact ⟨fun _ => rfl, fun h => h.elim⟩
  | .address, a, _, h => by
    cases h
    refine ⟨fun _ => ?_, fun h => h.elim⟩
    rw [List.length_cons, a.2]
    rfl
  | .amount, x, _, h => by
    cases h
    refine ⟨fun _ => ?_, fun h => h.elim⟩
    rw [encodeAmount_length]
    rfl
  | .int w s, x, _, h => by
    refine ⟨fun _ => ?_, fun h => h.elim⟩
    rw [encodeInt_length h]
    rfl
  | .option t, none, _, h => by cases h; exact ⟨fun _ => rfl, fun h => h.elim⟩
  | .option t, some v, _, h => C59_size_partial t v _ h
  | .arr t n, l, _, h => ⟨fun hr => (hr trivial).elim, fun _ => C59_array_panics t n l⟩
  | .pair a b, v, _, h => by
    obtain ⟨x, y, hx, hy, rfl⟩ := Ty.encode_pair h
    have h1 := C59_size_partial a _ _ hx
    have h2 := C59_size_partial b _ _ hy
    refine ⟨fun hr => ?_, fun hr => ?_⟩
    · have ha : ¬ a.Reaches v.1 := fun h => hr (Or.inl h)
      have hb : ¬ b.Reaches v.2 := fun h => hr (Or.inr h)
      unfold Ty.byteSize
      rw [h1.1 ha, h2.1 hb, List.length_append]
      rfl
    · unfold Ty.byteSize
      by_cases ha : a.Reaches v.1
      · rw [h1.2 ha]; rfl
      · rw [h1.1 ha, h2.2 (hr.resolve_left ha)]; rfl

theorem mapM_some_of {α β : Type} {f : α → Option β} {l : List α} (h : ∀ a ∈ l, ∃ b, f a = some b) :
    ∃ ys, l.mapM f = some ys := by
  induction l with
  | nil => exact ⟨[], rfl⟩
  | cons a l ih =>
    obtain ⟨y, hy⟩ := h a (by simp)
    obtain ⟨ys, hys⟩ := ih fun b hb => h b (by simp [hb])
    exact ⟨y :: ys, by rw [List.mapM_cons, hy, hys]; rfl⟩

/-- **C59.** Values whose arrays have at most ten items have an encoding. -/
theorem C59_encodes : ∀ (t : Ty) (v : t.Val), t.Small v → ∃ bs, t.encode v = some bs
  | .unit, _, _ => ⟨_, rfl⟩
  | .bool, _, _ => ⟨_, rfl⟩
  | .address, _, _ => ⟨_, rfl⟩
  | .amount, _, _ => ⟨_, rfl⟩
  | .int w s, x, _ => by
    obtain ⟨b, h, -⟩ := encodeInt_eq w s x
    exact ⟨_, h⟩
  | .option t, none, _ => ⟨_, rfl⟩
  | .option t, some v, h => C59_encodes t v h
  | .arr t n, l, h => by
    obtain ⟨xs, hx⟩ := mapM_some_of fun v hv => C59_encodes t v (h.2 v hv)
    refine ⟨layoutArray n :: xs.flatten, ?_⟩
    unfold Ty.encode
    rw [if_pos (by have := h.1; omega), hx]
    rfl
  | .pair a b, v, h => by
    obtain ⟨x, hx⟩ := C59_encodes a v.1 h.1
    obtain ⟨y, hy⟩ := C59_encodes b v.2 h.2
    refine ⟨x ++ y, ?_⟩
    unfold Ty.encode
    rw [hx, hy]
    rfl

/-- **C59 fails.** -/
theorem C59_claim_false : ¬ C59_claim := by
  intro hc
  have h := (hc (.arr .bool 1) ⟨[true], rfl⟩ [0x16, 0x10] (by decide +kernel)).1
  rw [C59_array_panics] at h
  cases h

/-! ## C74: reading arguments back -/

/-- The types an element of an array or an option may have when read. -/
def Ty.Elem : Ty → Prop
  | .bool | .address | .amount | .int _ _ => True
  | _ => False

/-- The types for which `From<Value>` is implemented, sdk-types/src/value.rs:127-222: unit, the element
types, options of them, and arrays of one to ten of them. -/
def Ty.Arg : Ty → Prop
  | .unit => True
  | .option t => t.Elem
  | .arr t n => t.Elem ∧ 1 ≤ n ∧ n ≤ 10
  | t => t.Elem

/-- `impl_from_value_to_rust!` for `$T`, value.rs:127-137, and `From<Value> for ()`, 151-158; `none` is a
panic. Only used at unit and element types. -/
def fromPrim : (t : Ty) → Value → Option t.Val
  | .unit, .prim .unit => some ()
  | .bool, .prim (.bool b) => some b
  | .address, .prim (.address a) => some a
  | .amount, .prim (.amount x) => some x
  | .int w s, .prim (.int w' s' x) => if h : w' = w ∧ s' = s then some (h.1 ▸ x) else none
  | _, _ => none

/-- `From<Value>`, value.rs:127-222: also for options, 139-147, and arrays, 187-211. -/
def fromValue : (t : Ty) → Value → Option t.Val
  | .option _, .prim .none_ => some none
  | .option t, v => (fromPrim t v).map some
  | .arr t n, .vec l =>
    if l.length = n then do
      let xs ← l.mapM (fromPrim t)
      if h : xs.length = n then some ⟨xs, h⟩ else none
    else none
  | t, v => fromPrim t v

/-- `next_1` to `next_6`, calldata.rs:70-160: read as many values as there are types and convert them.
The code converts them after reading the last one, but a failure is a panic either way. -/
def nextTyped (chk : Bool) : List Ty → Bytes → Outcome Empty (List (Σ t : Ty, t.Val) × Bytes)
  | [], inp => .ok ([], inp)
  | t :: ts, inp => do
    let (o, r) ← next chk inp
    let v ← .unwrapOpt o
    let x ← .unwrapOpt (fromValue t v)
    let (xs, r) ← nextTyped chk ts r
    .ok (⟨t, x⟩ :: xs, r)

/-- The bytes of a sequence of arguments. -/
def encodeArgs : List (Σ t : Ty, t.Val) → Option Bytes
  | [] => some []
  | a :: l => do some ((← a.1.encode a.2) ++ (← encodeArgs l))

/-- The ABI value of a Rust value, value.rs:60-125. -/
def toPrim : (t : Ty) → t.Val → Prim
  | .bool, b => .bool b
  | .address, a => .address a
  | .amount, x => .amount x
  | .int w s, x => .int w s x
  | _, _ => .unit

def toValue : (t : Ty) → t.Val → Value
  | .option _, none => .prim .none_
  | .option t, some v => .prim (toPrim t v)
  | .arr t _, l => .vec (l.1.map fun v => .prim (toPrim t v))
  | t, v => .prim (toPrim t v)

theorem fromPrim_toPrim {t : Ty} (ht : t.Elem) (v : t.Val) : fromPrim t (.prim (toPrim t v)) = some v := by
  cases t <;> first | exact ht.elim | rfl | skip
  rename_i w s
  change (if h : w = w ∧ s = s then _ else none) = _
  rw [dif_pos ⟨rfl, rfl⟩]

theorem encode_toPrim {t : Ty} (ht : t.Elem) (v : t.Val) :
    encode (.prim (toPrim t v)) = t.encode v := by
  cases t <;> first | exact ht.elim | (unfold encode; rfl)

theorem encodeList_map {t : Ty} (ht : t.Elem) (l : List t.Val) :
    encodeList (l.map fun v => .prim (toPrim t v)) = (l.mapM t.encode).map List.flatten := by
  induction l with
  | nil => unfold encodeList; rfl
  | cons v l ih =>
    rw [List.map_cons, List.mapM_cons]
    unfold encodeList
    rw [encode_toPrim ht, ih]
    cases t.encode v with
    | none => rfl
    | some x => cases l.mapM t.encode <;> rfl

/-- Encoding a Rust value and encoding its ABI value give the same bytes. -/
theorem encode_toValue {t : Ty} (ht : t.Arg) (v : t.Val) : encode (toValue t v) = t.encode v := by
  cases t with
  | unit => unfold encode; rfl
  | bool => exact encode_toPrim (t := .bool) trivial v
  | address => exact encode_toPrim (t := .address) trivial v
  | amount => exact encode_toPrim (t := .amount) trivial v
  | int w s => exact encode_toPrim (t := .int w s) trivial v
  | option t =>
    cases v with
    | none => unfold toValue encode; rfl
    | some v => exact encode_toPrim (t := t) ht v
  | arr t n =>
    obtain ⟨l, hl⟩ := v
    change encode (.vec (l.map _)) = _
    unfold encode Ty.encode
    rw [List.length_map, hl]
    refine if_congr Iff.rfl ?_ rfl
    rw [encodeList_map ht.1]
    cases l.mapM t.encode <;> rfl
  | pair a b => exact ht.elim

theorem mapM_fromPrim {t : Ty} (ht : t.Elem) (l : List t.Val) :
    (l.map fun v => Value.prim (toPrim t v)).mapM (fromPrim t) = some l := by
  induction l with
  | nil => rfl
  | cons v l ih => rw [List.map_cons, List.mapM_cons, fromPrim_toPrim ht, ih]; rfl

theorem fromValue_toValue {t : Ty} (ht : t.Arg) (v : t.Val) : fromValue t (toValue t v) = some v := by
  cases t with
  | unit => rfl
  | bool => exact fromPrim_toPrim (t := .bool) trivial v
  | address => exact fromPrim_toPrim (t := .address) trivial v
  | amount => exact fromPrim_toPrim (t := .amount) trivial v
  | int w s => exact fromPrim_toPrim (t := .int w s) trivial v
  | option t =>
    cases v with
    | none => rfl
    | some v =>
      have h : fromValue (.option t) (.prim (toPrim t v)) = (fromPrim t (.prim (toPrim t v))).map some := by
        cases t <;> first | exact (show False from ht).elim | rfl
      change fromValue (.option t) (.prim (toPrim t v)) = _
      rw [h, fromPrim_toPrim ht]
      rfl
  | arr t n =>
    obtain ⟨l, hl⟩ := v
    change (if (l.map fun v => Value.prim (toPrim t v)).length = n then
      ((l.map fun v => Value.prim (toPrim t v)).mapM (fromPrim t)).bind _ else none) = _
    rw [List.length_map, if_pos hl, mapM_fromPrim ht.1]
    change (if h : l.length = n then _ else _) = _
    rw [dif_pos hl]
  | pair a b => exact ht.elim

theorem toValue_good {t : Ty} (ht : t.Arg) (v : t.Val) (h8 : ∀ u, t ≠ .arr u 8) : Good (toValue t v) := by
  cases t with
  | option t => cases v <;> exact .prim _
  | arr t n =>
    obtain ⟨l, hl⟩ := v
    refine .vec ?_ ?_
    · rw [List.length_map, hl]
      rintro rfl
      exact h8 t rfl
    · intro v hv
      obtain ⟨x, -, rfl⟩ := List.mem_map.1 hv
      exact ⟨_, rfl⟩
  | pair a b => exact ht.elim
  | _ => exact .prim _

/-- Types of arguments that can be passed. -/
theorem arg_small {t : Ty} (ht : t.Arg) (v : t.Val) : t.Small v := by
  have he : ∀ (t : Ty) (v : t.Val), t.Elem → t.Small v := fun t v ht => by
    cases t <;> first | exact ht.elim | trivial
  cases t with
  | option t => cases v with
    | none => trivial
    | some v => exact he t v ht
  | arr t n => exact ⟨ht.2.2, fun v _ => he _ _ ht.1⟩
  | pair a b => exact ht.elim
  | _ => trivial

/-- **C74, as stated.** -/
def C74_claim : Prop := ∀ (chk : Bool) (args : List (Σ t : Ty, t.Val)), (∀ a ∈ args, a.1.Arg) →
  ∃ bs, encodeArgs args = some bs ∧ ∀ r, nextTyped chk (args.map (·.1)) (bs ++ r) = .ok (args, r)

/-- **C74, partial.** Arguments of supported types are encoded, and reading them at the same types
returns them and leaves what follows, if none is an array of eight. -/
theorem C74_roundtrip_partial (chk : Bool) {args : List (Σ t : Ty, t.Val)} (h : ∀ a ∈ args, a.1.Arg)
    (h8 : ∀ a ∈ args, ∀ u, a.1 ≠ .arr u 8) :
    ∃ bs, encodeArgs args = some bs ∧
      ∀ r, nextTyped chk (args.map (·.1)) (bs ++ r) = .ok (args, r) := by
  induction args with
  | nil => exact ⟨[], rfl, fun r => rfl⟩
  | cons a args ih =>
    obtain ⟨t, v⟩ := a
    have ht : t.Arg := h ⟨t, v⟩ (by simp)
    obtain ⟨x, hx⟩ := C59_encodes t v (arg_small ht v)
    obtain ⟨y, hy, hn⟩ := ih (fun a ha => h a (by simp [ha])) fun a ha => h8 a (by simp [ha])
    refine ⟨x ++ y, by unfold encodeArgs; rw [hx, hy]; rfl, fun r => ?_⟩
    rw [List.append_assoc]
    have he : encode (toValue t v) = some x := by rw [encode_toValue ht, hx]
    change (next chk (x ++ (y ++ r))).bind _ = _
    rw [next_encode chk he, if_pos (toValue_good ht v (h8 ⟨t, v⟩ (by simp)))]
    change (Outcome.unwrapOpt (fromValue t (toValue t v))).bind _ = _
    rw [fromValue_toValue ht]
    change (nextTyped chk (args.map (·.1)) (y ++ r)).bind _ = _
    rw [hn r]
    rfl

/-- **C74.** Reading an array of eight panics, whatever type is asked for. -/
theorem C74_eight (chk : Bool) {t : Ty} (ht : t.Elem) (v : (Ty.arr t 8).Val) {bs : Bytes}
    (h : (Ty.arr t 8).encode v = some bs) (t' : Ty) (ts : List Ty) (r : Bytes) :
    nextTyped chk (t' :: ts) (bs ++ r) = .panic := by
  have ha : (Ty.arr t 8).Arg := ⟨ht, by omega, by omega⟩
  have he : encode (toValue (.arr t 8) v) = some bs := by rw [encode_toValue ha, h]
  change (next chk (bs ++ r)).bind _ = _
  rw [next_encode chk he, if_neg]
  · rfl
  · intro hg
    refine (good_vec_iff.1 (show Good (.vec _) from hg)).1 ?_
    rw [List.length_map, v.2]

/-- **C74 fails.** -/
theorem C74_claim_false : ¬ C74_claim := by
  intro hc
  let v : (Ty.arr .bool 8).Val := ⟨List.replicate 8 true, rfl⟩
  obtain ⟨bs, hb, hn⟩ := hc true [⟨.arr .bool 8, v⟩] fun a ha => by
    rw [List.mem_singleton.1 ha]
    exact ⟨trivial, by omega, by omega⟩
  obtain ⟨x, hx⟩ := C59_encodes (.arr .bool 8) v
    (arg_small (t := .arr .bool 8) ⟨trivial, by omega, by omega⟩ v)
  have hbx : bs = x := by
    unfold encodeArgs at hb
    rw [hx] at hb
    have : some (x ++ []) = some bs := hb
    rw [List.append_nil] at this
    exact (Option.some.inj this).symm
  subst hbx
  have := hn []
  rw [List.map_cons, C74_eight true (t := .bool) trivial v hx] at this
  cases this

theorem fromPrim_inj {t : Ty} {v : Value} {x : t.Val} (ht : t.Elem)
    (h : fromPrim t v = some x) : v = .prim (toPrim t x) := by
  cases v with
  | vec l => cases t <;> cases h
  | prim p =>
    cases t <;> try exact ht.elim
    all_goals cases p <;> first | (cases h; done) | (cases h; rfl) | skip
    rename_i w s w' s' y
    change (if h : w' = w ∧ s' = s then some (h.1 ▸ y) else none) = some x at h
    split at h
    · rename_i hw
      obtain ⟨rfl, rfl⟩ := hw
      cases h
      rfl
    · cases h

/-- **C74.** No type confusion: when reading a value at a type succeeds, the ABI value of the result is
the value that was read. In particular an `i16` is never read as a `u16`, nor an amount as an integer. -/
theorem C74_no_confusion {t : Ty} (ht : t.Arg) {v : Value} {x : t.Val} (h : fromValue t v = some x) :
    toValue t x = v := by
  cases t with
  | unit =>
    cases v with
    | vec l => cases h
    | prim p => cases p <;> first | (cases h; done) | (cases h; rfl)
  | bool => exact (fromPrim_inj (t := .bool) trivial h).symm
  | address => exact (fromPrim_inj (t := .address) trivial h).symm
  | amount => exact (fromPrim_inj (t := .amount) trivial h).symm
  | int w s => exact (fromPrim_inj (t := .int w s) trivial h).symm
  | option t =>
    by_cases hv : v = .prim .none_
    · subst hv
      cases h
      rfl
    · have hh : fromValue (.option t) v = (fromPrim t v).map some := by
        cases v with
        | vec l => rfl
        | prim p => cases p <;> first | rfl | exact absurd rfl hv
      rw [hh] at h
      cases hf : fromPrim t v with
      | none => rw [hf] at h; cases h
      | some y =>
        rw [hf] at h
        cases h
        exact (fromPrim_inj ht hf).symm
  | arr t n =>
    cases v with
    | prim p => cases h
    | vec l =>
      have hd : fromValue (.arr t n) (.vec l) = if l.length = n then
        (l.mapM (fromPrim t)).bind (fun xs => if h : xs.length = n then some ⟨xs, h⟩ else none)
          else none := rfl
      rw [hd] at h
      split at h
      · cases hm : l.mapM (fromPrim t) with
        | none => rw [hm] at h; cases h
        | some xs =>
          rw [hm] at h
          change (if h : xs.length = n then _ else _) = _ at h
          split at h
          · cases h
            change Value.vec _ = _
            congr 1
            change xs.map _ = l
            clear hd
            have key : ∀ (l : List Value) (xs : List t.Val), l.mapM (fromPrim t) = some xs →
                xs.map (fun v => Value.prim (toPrim t v)) = l := by
              intro l
              induction l with
              | nil => intro xs h; cases h; rfl
              | cons v l ih =>
                intro xs h
                obtain ⟨y, ys, hy, hys, rfl⟩ := mapM_cons_some h
                rw [List.map_cons, ih ys hys, ← fromPrim_inj ht.1 hy]
            exact key l xs hm
          · cases h
      · cases h
  | pair a b => exact ht.elim

/-! ## Examples -/

/-- An optional amount, a small negative number and three flags. -/
def exArgs : List (Σ t : Ty, t.Val) :=
  [⟨.option .amount, (some (300#64) : Option (BitVec 64))⟩, ⟨.int .w64 true, (-1#64 : BitVec 64)⟩,
   ⟨.arr .bool 3, ⟨[true, false, true], rfl⟩⟩]

example : encodeArgs exArgs = some [0x11, 0x01, 0x2c, 0x74, 0xff, 0xff, 0xff, 0xff, 0xff, 0xff, 0xff, 0xff,
    0x36, 0x10, 0x00, 0x10] := by decide +kernel

example : ∀ a ∈ exArgs, a.1.Arg ∧ ∀ u, a.1 ≠ .arr u 8 := by
  simp only [exArgs, List.forall_mem_cons]
  exact ⟨⟨trivial, by simp⟩, ⟨trivial, by simp⟩, ⟨⟨trivial, by omega, by omega⟩, by simp⟩,
    fun _ h => absurd h (by simp)⟩

example : ¬ (Ty.pair .amount (.option .bool)).Reaches ((5#64 : BitVec 64), (none : Option Bool)) := by
  rintro (h | h) <;> exact h

example : (Ty.pair .amount (.option .bool)).byteSize ((5#64 : BitVec 64), (none : Option Bool)) =
    some 3 := by decide +kernel

end Svm.Abi
