import Verif.Codec.Basic
import Mathlib.Tactic.Ring

/-!
# Exchange buffers of the codec's Wasm API (C66)

`crates/host/codec/src/api/wasm/buffer.rs` and `crates/host/codec/src/api/wasm/mod.rs`. A pointer is
represented by the bytes of the allocation it points to. Allocation succeeds unless the size is more than
`isize::MAX`, in which case `Vec` panics; running out of memory is not modelled. `usz` is the width of
`usize`, 32 in Wasm; `chk` for overflow checks and debug assertions.
-/

namespace Svm.Ffi

open Svm.Codec

/-! ## Model -/

/-- `.panic` is a panic, `.err ()` an access outside of the allocation. -/
abbrev BRes (α : Type) := Outcome Unit α

/-- `struct Buffer`, buffer.rs:52-60, by the bytes of its vector and the capacity of the vector. Whether
they are leaked or freed in the end plays no role here. -/
structure Buffer where
  bytes : Bytes
  capacity : Nat
  deriving DecidableEq, Repr

namespace Buffer

/-- A range of the vector; out of range panics. -/
def slice (b : Buffer) (i j : Nat) : BRes Bytes :=
  if j ≤ b.bytes.length then .ok ((b.bytes.drop i).take (j - i)) else .panic

/-- `len`, buffer.rs:163-165. -/
def len (b : Buffer) : BRes Nat := (b.slice 0 4).map beNat

/-- `capacity`, buffer.rs:167-169. -/
def cap (b : Buffer) : BRes Nat := (b.slice 4 8).map beNat

/-- `clone_from_slice` on the range that starts at `i`. -/
def put (b : Buffer) (i : Nat) (bs : Bytes) : BRes Buffer :=
  if i + bs.length ≤ b.bytes.length then
    .ok { b with bytes := b.bytes.take i ++ (bs ++ b.bytes.drop (i + bs.length)) }
  else .panic

/-- `assert!`. -/
def assert (p : Prop) [Decidable p] : BRes Unit := if p then .ok () else .panic

/-- `set_len`, buffer.rs:171-175. -/
def setLen (b : Buffer) (len : Nat) : BRes Buffer := do
  let c ← b.cap
  assert (len ≤ c)
  b.put 0 (natBE 4 len)

/-- `self.vec().len() - Self::HEADER_SIZE`, buffer.rs:179. -/
def room (usz : Nat) (chk : Bool) (b : Buffer) : BRes Nat :=
  if 8 ≤ b.bytes.length then .ok (b.bytes.length - 8)
  else if chk then .panic else .ok (b.bytes.length + 2 ^ usz - 8)

/-- `set_capacity`, buffer.rs:177-182. -/
def setCap (usz : Nat) (chk : Bool) (b : Buffer) (capacity : Nat) : BRes Buffer := do
  let l ← b.len
  assert (capacity ≥ l)
  let r ← b.room usz chk
  assert (capacity ≤ r)
  b.put 4 (natBE 4 capacity)

/-- `len as usize + Self::HEADER_SIZE`, buffer.rs:73. -/
def withHeader (usz : Nat) (chk : Bool) (len : Nat) : BRes Nat :=
  if len + 8 < 2 ^ usz then .ok (len + 8) else if chk then .panic else .ok (len + 8 - 2 ^ usz)

/-- `vec![0; n]` and `shrink_to_fit`. -/
def zeros (usz n : Nat) : BRes Buffer :=
  if n < 2 ^ (usz - 1) then .ok ⟨List.replicate n 0, n⟩ else .panic

/-- `alloc`, buffer.rs:72-88; `len` is a `u32`. -/
def alloc (usz : Nat) (chk : Bool) (len : Nat) : BRes Buffer := do
  let n ← withHeader usz chk len
  let b ← zeros usz n
  let b ← b.setCap usz chk len
  b.setLen len

/-- `as_ref`, buffer.rs:185-189. -/
def data (b : Buffer) : BRes Bytes := if 8 ≤ b.bytes.length then .ok (b.bytes.drop 8) else .panic

/-- `u32::try_from(n).unwrap() + 1u32`, buffer.rs:101, 112. -/
def lenWithMarker (chk : Bool) (n : Nat) : BRes Nat :=
  if n < 2 ^ 32 then (if n + 1 < 2 ^ 32 then .ok (n + 1) else if chk then .panic else .ok 0) else .panic

/-- Writing the marker and the data, buffer.rs:104-105, 115-116: the second slice must have the same
length as the data. -/
def fill (b : Buffer) (marker : UInt8) (data : Bytes) : BRes Buffer := do
  let d ← b.data
  assert (1 ≤ d.length)
  let b ← b.put 8 [marker]
  assert (d.length - 1 = data.length)
  b.put 9 data

/-- `alloc_ok`, buffer.rs:100-108, with marker 1, and `alloc_err`, 110-119, with marker 0. -/
def allocMarked (usz : Nat) (chk : Bool) (marker : UInt8) (data : Bytes) : BRes Buffer := do
  let len ← lenWithMarker chk data.length
  let b ← alloc usz chk len
  b.fill marker data

/-- `from_ptr`, buffer.rs:134-153. -/
def fromPtr (block : Bytes) : BRes Buffer :=
  if block.length < 8 then .err ()
  else do
    let header : Buffer := ⟨block.take 8, 8⟩
    let l ← header.len
    let c ← header.cap
    if l + 8 ≤ block.length ∧ c + 8 ≤ block.length ∧ l ≤ c then .ok ⟨block.take (l + 8), c + 8⟩ else .err ()

end Buffer

/-- `OK_MARKER` and `ERR_MARKER`, buffer.rs:69-70. -/
def okMarker : UInt8 := 1

/-- See `okMarker`. -/
def errMarker : UInt8 := 0

/-- `wasm_alloc`, mod.rs:62-64: the allocation that the pointer points to. -/
def wasmAlloc (usz : Nat) (chk : Bool) (length : Int) : BRes Bytes :=
  if 0 ≤ length then (Buffer.alloc usz chk length.toNat).map Buffer.bytes else .panic

/-- `wasm_buffer_length`, mod.rs:80-82. -/
def wasmBufferLength (block : Bytes) : BRes Nat := do
  let b ← Buffer.fromPtr block
  let l ← b.len
  if l < 2 ^ 31 then .ok l else .panic

/-- `wasm_free`, mod.rs:72-74: how many bytes the allocator is told to free. -/
def wasmFree (block : Bytes) : BRes Nat := do
  let b ← Buffer.fromPtr block
  .ok b.capacity

/-- The caller copies its data behind the pointer of `wasm_buffer_data`, mod.rs:88-90. -/
def hostWrite (block data : Bytes) : Bytes := block.take 8 ++ (data ++ block.drop (8 + data.length))

/-- The caller reads the data of a buffer: `wasm_buffer_length` bytes from `wasm_buffer_data` on. -/
def hostRead (block : Bytes) : BRes Bytes := do
  let l ← wasmBufferLength block
  .ok ((block.drop 8).take l)

/-- The result of an API function as a buffer, mod.rs:184-187. -/
def resultBuffer (usz : Nat) (chk : Bool) (r : Except Bytes Bytes) : BRes Buffer :=
  match r with
  | .ok bytes => Buffer.allocMarked usz chk okMarker bytes
  | .error msg => Buffer.allocMarked usz chk errMarker msg

/-- `wasm_call_raw`, mod.rs:176-188; `f` is a function of the JSON API. -/
def wasmCallRaw (usz : Nat) (chk : Bool) (f : Bytes → Except Bytes Bytes) (block : Bytes) : BRes Bytes := do
  let b ← Buffer.fromPtr block
  let s ← b.data
  Buffer.assert (utf8Valid s = true)
  let r ← resultBuffer usz chk (f s)
  .ok r.bytes

/-! ## Spec -/

/-- The allocation of a buffer that holds `data`: eight bytes of header, big-endian length and capacity,
and then the data. -/
def layout (data : Bytes) : Bytes := natBE 4 data.length ++ (natBE 4 data.length ++ data)

/-- A buffer for `n` bytes can be allocated. -/
def Fits (usz n : Nat) : Prop := n + 8 < 2 ^ (usz - 1) ∧ n < 2 ^ 32

/-! ## Proofs -/

open Buffer

theorem natBE4 {n : Nat} (h : n < 2 ^ 32) : beNat (natBE 4 n) = n := by
  rw [beNat_natBE, Nat.mod_eq_of_lt]
  simpa using h

theorem natBE4_zero : natBE 4 0 = List.replicate 4 0 := by decide

theorem layout_length (data : Bytes) : (layout data).length = data.length + 8 := by
  simp [layout, natBE_length]
  omega

theorem len_bytes (hd bs : Bytes) (c : Nat) (h : hd.length = 4) :
    (⟨hd ++ bs, c⟩ : Buffer).len = .ok (beNat hd) := by
  unfold len slice
  rw [if_pos (by simp [h])]
  have : ((hd ++ bs).drop 0).take (4 - 0) = hd := by
    simp [← h]
  dsimp only
  rw [this]
  rfl

theorem cap_bytes (a hd bs : Bytes) (c : Nat) (ha : a.length = 4) (h : hd.length = 4) :
    (⟨a ++ (hd ++ bs), c⟩ : Buffer).cap = .ok (beNat hd) := by
  unfold cap slice
  rw [if_pos (by simp [h, ha]; omega)]
  have : ((a ++ (hd ++ bs)).drop 4).take (8 - 4) = hd := by
    rw [List.drop_left' ha, List.take_left' h]
  dsimp only
  rw [this]
  rfl

theorem alloc_ok {usz : Nat} (hu : 1 < usz) (chk : Bool) {n : Nat} (h : Fits usz n) :
    alloc usz chk n = .ok ⟨layout (List.replicate n 0), n + 8⟩ := by
  obtain ⟨h1, h2⟩ := h
  have hle : 2 ^ (usz - 1) ≤ 2 ^ usz := Nat.pow_le_pow_right (by omega) (by omega)
  have e1 : withHeader usz chk n = .ok (n + 8) := by
    unfold withHeader
    rw [if_pos (by omega)]
  have e2 : zeros usz (n + 8) = .ok ⟨natBE 4 0 ++ (natBE 4 0 ++ List.replicate n 0), n + 8⟩ := by
    unfold zeros
    rw [if_pos h1, natBE4_zero]
    congr 2
  have e3 : (⟨natBE 4 0 ++ (natBE 4 0 ++ List.replicate n 0), n + 8⟩ : Buffer).setCap usz chk n =
      .ok ⟨natBE 4 0 ++ (natBE 4 n ++ List.replicate n 0), n + 8⟩ := by
    have er : (⟨natBE 4 0 ++ (natBE 4 0 ++ List.replicate n 0), n + 8⟩ : Buffer).room usz chk = .ok n := by
      unfold room
      rw [if_pos (by simp [natBE_length]; omega)]
      simp [natBE_length]
      omega
    unfold setCap
    rw [len_bytes _ _ _ (natBE_length _ _), Outcome.ok_bind,
      show assert (n ≥ beNat (natBE 4 0)) = .ok () from if_pos (by rw [natBE4 (by decide)]; omega),
      Outcome.ok_bind, er, Outcome.ok_bind, show assert (n ≤ n) = .ok () from if_pos (Nat.le_refl _),
      Outcome.ok_bind]
    unfold put
    rw [if_pos (by simp [natBE_length]; omega)]
    dsimp only
    rw [List.take_left' (natBE_length _ _), natBE_length]
    congr 4
  have e4 : (⟨natBE 4 0 ++ (natBE 4 n ++ List.replicate n 0), n + 8⟩ : Buffer).setLen n =
      .ok ⟨natBE 4 n ++ (natBE 4 n ++ List.replicate n 0), n + 8⟩ := by
    unfold setLen
    rw [cap_bytes _ _ _ _ (natBE_length _ _) (natBE_length _ _), natBE4 h2, Outcome.ok_bind,
      show assert (n ≤ n) = .ok () from if_pos (Nat.le_refl _), Outcome.ok_bind]
    unfold put
    rw [if_pos (by simp [natBE_length])]
    dsimp only
    rw [natBE_length, Nat.zero_add, List.drop_left' (natBE_length _ _)]
    rfl
  unfold alloc
  rw [e1, Outcome.ok_bind, e2, Outcome.ok_bind, e3, Outcome.ok_bind, e4]
  simp [layout]

/-- Allocation succeeds exactly when the size fits. -/
theorem alloc_fails {usz : Nat} (hu : 8 ≤ usz) (chk : Bool) {n : Nat} (hn : n < 2 ^ 32)
    (hw : n < 2 ^ usz) (h : ¬ Fits usz n) : alloc usz chk n = .panic := by
  have h1 : 2 ^ (usz - 1) ≤ n + 8 := by
    unfold Fits at h
    omega
  change (withHeader usz chk n).bind _ = _
  unfold withHeader
  split
  · change (zeros usz (n + 8)).bind _ = _
    unfold zeros
    rw [if_neg (by omega)]
    rfl
  · split
    · rfl
    · change (zeros usz (n + 8 - 2 ^ usz)).bind _ = _
      rename_i hge _
      have hp : 2 ^ 7 ≤ 2 ^ (usz - 1) := Nat.pow_le_pow_right (by omega) (by omega)
      have hs : n + 8 - 2 ^ usz < 8 := by omega
      generalize n + 8 - 2 ^ usz = m at hs
      unfold zeros
      rw [if_pos (by omega)]
      change (setCap usz chk ⟨List.replicate m 0, m⟩ n).bind _ = _
      have : setCap usz chk ⟨List.replicate m 0, m⟩ n = .panic := by
        change (len _).bind _ = _
        cases hl : (⟨List.replicate m 0, m⟩ : Buffer).len with
        | panic => rfl
        | err e =>
          unfold len slice at hl
          split at hl <;> cases hl
        | ok l =>
          change (assert (n ≥ l)).bind _ = _
          by_cases hnl : n ≥ l
          · rw [show assert (n ≥ l) = .ok () from if_pos hnl]
            change (room _ _ _).bind _ = _
            unfold room
            rw [if_neg (by simp; omega)]
            split
            · rfl
            · change (assert _).bind _ = _
              unfold assert
              split
              · change put _ _ _ = _
                unfold put
                rw [if_neg (by simp [natBE_length]; omega)]
              · rfl
          · rw [show assert (n ≥ l) = .panic from if_neg hnl]
            rfl
      rw [this]
      rfl

theorem put_mid {a b c d : Bytes} {k i : Nat} (hi : a.length = i) (h : b.length = c.length) :
    (⟨a ++ (b ++ d), k⟩ : Buffer).put i c = .ok ⟨a ++ (c ++ d), k⟩ := by
  unfold put
  rw [if_pos (by simp [hi, h])]
  dsimp only
  rw [List.take_left' hi, ← List.append_assoc a b d, List.drop_left' (by simp [hi, h])]

/-- **C66**, results: a buffer for a result carries exactly the marker and the data, and its length and
capacity are the number of these bytes. It is allocated whenever the data fit; otherwise the call
panics. -/
theorem C66_result {usz : Nat} (hu : 8 ≤ usz) (chk : Bool) (marker : UInt8) (data : Bytes)
    (hd : data.length < 2 ^ usz) :
    (Fits usz (data.length + 1) → ∃ b, allocMarked usz chk marker data = .ok b ∧
      b.bytes = layout (marker :: data) ∧ b.data = .ok (marker :: data) ∧ b.len = .ok (data.length + 1) ∧
      b.cap = .ok (data.length + 1) ∧ b.capacity = b.bytes.length) ∧
    (¬ Fits usz (data.length + 1) → allocMarked usz chk marker data = .panic) := by
  constructor
  · intro h
    have hn : data.length + 1 < 2 ^ 32 := h.2
    have e : allocMarked usz chk marker data = .ok ⟨layout (marker :: data), data.length + 1 + 8⟩ := by
      have : lenWithMarker chk data.length = .ok (data.length + 1) := by
        unfold lenWithMarker
        rw [if_pos (by omega), if_pos hn]
      unfold allocMarked
      rw [this, Outcome.ok_bind, alloc_ok (by omega) chk h, Outcome.ok_bind]
      unfold fill
      have hdat : (⟨layout (List.replicate (data.length + 1) 0), data.length + 1 + 8⟩ : Buffer).data =
          .ok (List.replicate (data.length + 1) 0) := by
        unfold Buffer.data
        rw [if_pos (by rw [layout_length]; omega)]
        unfold layout
        rw [← List.append_assoc, List.drop_left' (by simp [natBE_length])]
      rw [hdat, Outcome.ok_bind, show assert (1 ≤ (List.replicate (data.length + 1) (0 : UInt8)).length) =
        .ok () from if_pos (by simp), Outcome.ok_bind]
      have s1 : layout (List.replicate (data.length + 1) 0) =
          (natBE 4 (data.length + 1) ++ natBE 4 (data.length + 1)) ++
            ([0] ++ List.replicate data.length 0) := by
        simp [layout, List.replicate_succ]
      rw [s1, put_mid (by simp [natBE_length]) (by simp), Outcome.ok_bind,
        show assert ((List.replicate (data.length + 1) (0 : UInt8)).length - 1 = data.length) = .ok () from
          if_pos (by simp), Outcome.ok_bind]
      have s2 : (natBE 4 (data.length + 1) ++ natBE 4 (data.length + 1)) ++
            ([marker] ++ List.replicate data.length 0) =
          (natBE 4 (data.length + 1) ++ natBE 4 (data.length + 1) ++ [marker]) ++
            (List.replicate data.length 0 ++ []) := by simp
      rw [s2, put_mid (by simp [natBE_length]) (by simp)]
      simp [layout]
    refine ⟨_, e, rfl, ?_, ?_, ?_, ?_⟩
    · unfold Buffer.data
      rw [if_pos (by rw [layout_length]; omega)]
      unfold layout
      rw [← List.append_assoc, List.drop_left' (by simp [natBE_length])]
    · unfold layout
      rw [len_bytes _ _ _ (natBE_length _ _), List.length_cons, natBE4 hn]
    · unfold layout
      rw [cap_bytes _ _ _ _ (natBE_length _ _) (natBE_length _ _), List.length_cons, natBE4 hn]
    · rw [layout_length, List.length_cons]
  · intro h
    unfold allocMarked lenWithMarker
    split
    · split
      · rename_i h1 h2
        rw [Outcome.ok_bind]
        by_cases hw : data.length + 1 < 2 ^ usz
        · rw [alloc_fails hu chk h2 hw h]
          rfl
        · have he : data.length + 1 = 2 ^ usz := by omega
          -- the size of the vector wraps to 8
          unfold alloc withHeader
          rw [if_neg (by omega)]
          split
          · rfl
          · rw [he, Nat.add_sub_cancel_left]
            have hp : 2 ^ 7 ≤ 2 ^ (usz - 1) := Nat.pow_le_pow_right (by omega) (by omega)
            rw [Outcome.ok_bind]
            unfold zeros
            rw [if_pos (by omega)]
            rw [Outcome.ok_bind]
            have hq : 0 < 2 ^ usz := Nat.pos_of_ne_zero (by simp)
            have : setCap usz chk ⟨List.replicate 8 0, 8⟩ (2 ^ usz) = .panic := by
              unfold setCap
              rw [show len ⟨List.replicate 8 0, 8⟩ = .ok 0 by decide, Outcome.ok_bind,
                show assert (2 ^ usz ≥ 0) = .ok () from if_pos (by omega), Outcome.ok_bind,
                show room usz chk ⟨List.replicate 8 0, 8⟩ = .ok 0 from rfl, Outcome.ok_bind,
                show assert (2 ^ usz ≤ 0) = .panic from if_neg (by omega), Outcome.panic_bind]
            rw [this]
            rfl
      · split
        · rfl
        · rw [Outcome.ok_bind]
          have hp : 2 ^ 7 ≤ 2 ^ (usz - 1) := Nat.pow_le_pow_right (by omega) (by omega)
          rw [alloc_ok (by omega) chk ⟨by omega, by omega⟩]
          rfl
    · rfl

/-- **C66**, pointers: reading a buffer back from its pointer gives the same buffer, the length is within
the capacity, and freeing it frees the whole allocation. -/
theorem C66_pointer {data : Bytes} (h : data.length < 2 ^ 32) :
    ∃ b, fromPtr (layout data) = .ok b ∧ b.bytes = layout data ∧ b.data = .ok data ∧
      b.len = .ok data.length ∧ b.cap = .ok data.length ∧ wasmFree (layout data) = .ok (layout data).length := by
  have e : fromPtr (layout data) = .ok ⟨layout data, data.length + 8⟩ := by
    unfold fromPtr
    rw [if_neg (by rw [layout_length]; omega)]
    have ht : (layout data).take 8 = natBE 4 data.length ++ (natBE 4 data.length ++ []) := by
      unfold layout
      rw [← List.append_assoc, List.take_left' (by simp [natBE_length])]
      simp
    dsimp only
    rw [ht, len_bytes _ _ _ (natBE_length _ _), Outcome.ok_bind,
      cap_bytes _ _ _ _ (natBE_length _ _) (natBE_length _ _), natBE4 h, Outcome.ok_bind]
    rw [if_pos (by rw [layout_length]; omega), List.take_of_length_le (by rw [layout_length])]
  refine ⟨_, e, rfl, ?_, ?_, ?_, ?_⟩
  · unfold Buffer.data
    rw [if_pos (by rw [layout_length]; omega)]
    unfold layout
    rw [← List.append_assoc, List.drop_left' (by simp [natBE_length])]
  · unfold layout
    rw [len_bytes _ _ _ (natBE_length _ _), natBE4 h]
  · unfold layout
    rw [cap_bytes _ _ _ _ (natBE_length _ _) (natBE_length _ _), natBE4 h]
  · change (fromPtr (layout data)).bind _ = _
    rw [e, layout_length]
    rfl

/-- C66, pointers in general: the header of the buffer is trusted. The library stays within the allocation if and
only if the length is at most the capacity and the capacity is at most what follows the header. -/
theorem C66_header {l c : Nat} (hl : l < 2 ^ 32) (hc : c < 2 ^ 32) (rest : Bytes) :
    fromPtr (natBE 4 l ++ (natBE 4 c ++ rest)) =
      if l ≤ c ∧ c ≤ rest.length then .ok ⟨natBE 4 l ++ (natBE 4 c ++ rest.take l), c + 8⟩ else .err () := by
  have hlen : (natBE 4 l ++ (natBE 4 c ++ rest)).length = rest.length + 8 := by
    simp [natBE_length]; omega
  unfold fromPtr
  rw [if_neg (by rw [hlen]; omega)]
  have ht : (natBE 4 l ++ (natBE 4 c ++ rest)).take 8 = natBE 4 l ++ (natBE 4 c ++ []) := by
    rw [← List.append_assoc, List.take_left' (by simp [natBE_length])]
    simp
  dsimp only
  rw [ht, len_bytes _ _ _ (natBE_length _ _), Outcome.ok_bind,
    cap_bytes _ _ _ _ (natBE_length _ _) (natBE_length _ _), natBE4 hl, natBE4 hc, Outcome.ok_bind, hlen]
  by_cases h : l ≤ c ∧ c ≤ rest.length
  · rw [if_pos (by omega), if_pos h]
    have : (natBE 4 l ++ (natBE 4 c ++ rest)).take (l + 8) = natBE 4 l ++ (natBE 4 c ++ rest.take l) := by
      rw [← List.append_assoc, ← List.append_assoc, List.take_append,
        List.take_of_length_le (by simp [natBE_length])]
      simp [natBE_length]
    rw [this]
  · rw [if_neg (by omega), if_neg h]

/-- **C66**, arguments: what the caller copies into a buffer of the same size from `wasm_alloc` is what
the library sees. -/
theorem C66_argument {usz : Nat} (hu : 1 < usz) (chk : Bool) (data : Bytes) (h : Fits usz data.length) :
    ∃ block, wasmAlloc usz chk data.length = .ok block ∧ hostWrite block data = layout data := by
  refine ⟨layout (List.replicate data.length 0), ?_, ?_⟩
  · unfold wasmAlloc
    rw [if_pos (by omega), show (data.length : Int).toNat = data.length by omega, alloc_ok hu chk h]
    rfl
  · unfold hostWrite layout
    rw [← List.append_assoc (natBE 4 (List.replicate data.length 0).length),
      List.take_left' (by simp [natBE_length]), List.drop_of_length_le (by simp [natBE_length]; omega)]
    simp

theorem hostRead_layout {data : Bytes} (h : data.length < 2 ^ 31) : hostRead (layout data) = .ok data := by
  obtain ⟨b, hb, _, _, hl, _⟩ := C66_pointer (data := data) (by omega)
  have e : wasmBufferLength (layout data) = .ok data.length := by
    change (fromPtr (layout data)).bind _ = _
    rw [hb]
    change b.len.bind _ = _
    rw [hl]
    change (if data.length < 2 ^ 31 then _ else _) = _
    rw [if_pos h]
  change (wasmBufferLength (layout data)).bind _ = _
  rw [e]
  change Outcome.ok (((layout data).drop 8).take data.length) = _
  unfold layout
  rw [← List.append_assoc, List.drop_left' (by simp [natBE_length]), List.take_length]

/-- **C66**, a whole call from Wasm's host: the caller allocates a buffer, copies its JSON text, calls an
API function and reads the result. It sees the marker and the bytes or the message of the function. -/
theorem C66_call {usz : Nat} (hu : 32 ≤ usz) (chk : Bool) (f : Bytes → Except Bytes Bytes) (text : Bytes)
    (ht : utf8Valid text = true) (h : Fits usz text.length) {marker : UInt8} {out : Bytes}
    (hf : (f text = .ok out ∧ marker = 1) ∨ (f text = .error out ∧ marker = 0))
    (ho : out.length + 9 < 2 ^ 31) :
    ∃ block result, wasmAlloc usz chk text.length = .ok block ∧
      wasmCallRaw usz chk f (hostWrite block text) = .ok result ∧
      hostRead result = .ok (marker :: out) := by
  obtain ⟨block, h1, h2⟩ := C66_argument (by omega) chk text h
  have hp : 2 ^ 31 ≤ 2 ^ (usz - 1) := Nat.pow_le_pow_right (by omega) (by omega)
  have hp2 : 2 ^ (usz - 1) ≤ 2 ^ usz := Nat.pow_le_pow_right (by omega) (by omega)
  obtain ⟨b, hb, hbytes, _⟩ := (C66_result (by omega) chk marker out (lt_of_lt_of_le (by omega) (hp.trans hp2))).1 ⟨by omega, by omega⟩
  refine ⟨block, b.bytes, h1, ?_, ?_⟩
  · rw [h2]
    obtain ⟨c, hc, _, hdat, _⟩ := C66_pointer h.2
    change (fromPtr (layout text)).bind _ = _
    rw [hc]
    change c.data.bind _ = _
    rw [hdat]
    change (assert (utf8Valid text = true)).bind _ = _
    rw [show assert (utf8Valid text = true) = .ok () from if_pos ht]
    change (resultBuffer usz chk (f text)).bind _ = _
    have : resultBuffer usz chk (f text) = .ok b := by
      rcases hf with ⟨h3, rfl⟩ | ⟨h3, rfl⟩
      · rw [h3]; exact hb
      · rw [h3]; exact hb
    rw [this]
    rfl
  · rw [hbytes]
    exact hostRead_layout (by simp; omega)

/-! Non-vacuity. -/

example : allocMarked 32 true okMarker [7, 8] = .ok ⟨[0, 0, 0, 3, 0, 0, 0, 3, 1, 7, 8], 11⟩ := by decide

example : Fits 32 5 := by unfold Fits; decide

example : fromPtr [0, 0, 0, 3, 0, 0, 0, 3, 1, 7, 8] = .ok ⟨[0, 0, 0, 3, 0, 0, 0, 3, 1, 7, 8], 11⟩ := by
  decide

/-- Malformed headers are not detected. -/
example : fromPtr [0, 0, 0, 9, 0, 0, 0, 3, 1, 7, 8] = .err () := by decide

end Svm.Ffi
