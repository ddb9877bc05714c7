import Verif.Codec.Basic
import Mathlib.Data.Finset.Basic

/-!
# Memory of results of the C API (C81)

`crates/host/runtime-ffi/src/result.rs` and `svm_free_result`, c_api.rs:34-36. A result owns at most one
buffer, the bytes of a receipt or of an error. The allocator hands out blocks; releasing anything but a
block it has handed out, and has not got back, breaks its contract, and is recorded as a violation.
-/

namespace Svm.Ffi

open Svm.Codec

/-! ## Model -/

/-- Pointers: null, the dangling pointer of an empty `Vec`, or a block of the allocator. -/
inductive Ptr where
  | null
  | dangling
  | block (id : Nat)
  deriving DecidableEq

/-- Breaches of the contract of the allocator. -/
inductive Violation where
  /-- the null pointer was released as if it were a block -/
  | nullFree
  /-- a block was released that is not allocated -/
  | doubleFree
  /-- a pointer that never was a block was released -/
  | wildFree
  deriving DecidableEq

/-- The allocator: blocks with their contents, those handed out so far, and the violations. -/
structure Heap where
  live : Finset Nat
  contents : Nat → Bytes
  next : Nat
  violations : List Violation

/-- `Vec::with_capacity`, `extend_from_slice` and `leak` (result.rs:43-44, 55-56): an empty vector
allocates nothing. The capacity is taken to be the length asked for. -/
def leak (h : Heap) (data : Bytes) : Heap × Ptr :=
  if data.length = 0 then (h, .dangling)
  else ({ h with
    live := insert h.next h.live
    contents := fun i => if i = h.next then data else h.contents i
    next := h.next + 1 }, .block h.next)

/-- Drop of a `Vec` made by `Vec::from_raw_parts(p, len, len)`: a capacity of zero releases nothing. -/
def dropVec (h : Heap) (p : Ptr) (len : Nat) : Heap :=
  if len = 0 then h
  else match p with
    | .null => { h with violations := .nullFree :: h.violations }
    | .dangling => { h with violations := .wildFree :: h.violations }
    | .block i =>
      if i ∈ h.live then { h with live := h.live.erase i }
      else { h with violations := .doubleFree :: h.violations }

/-- `svm_result_t`, result.rs:26-32. -/
structure SvmResult where
  receipt : Ptr
  error : Ptr
  bufSize : U32
  deriving DecidableEq

/-- `svm_result_t::OK`, result.rs:36-40. -/
def SvmResult.OK : SvmResult := ⟨.null, .null, 0⟩

/-- `svm_result_t::new_error`, result.rs:43-52; panics (`none`) when the length does not fit 32 bits. -/
def newErrorResult (h : Heap) (data : Bytes) : Heap × Option SvmResult :=
  let r := leak h data
  (r.1, if data.length < 2 ^ 32 then some ⟨.null, r.2, BitVec.ofNat 32 data.length⟩ else none)

/-- `svm_result_t::new_receipt`, result.rs:55-64; panics (`none`) when the length does not fit 32 bits. -/
def newReceiptResult (h : Heap) (data : Bytes) : Heap × Option SvmResult :=
  let r := leak h data
  (r.1, if data.length < 2 ^ 32 then some ⟨r.2, .null, BitVec.ofNat 32 data.length⟩ else none)

/-- `Drop for svm_result_t`, result.rs:124-132: locals are dropped in reverse order. Also
`svm_free_result`, c_api.rs:34-36, which only drops its argument. -/
def dropResult (h : Heap) (r : SvmResult) : Heap :=
  dropVec (dropVec h r.receipt r.bufSize.toNat) r.error r.bufSize.toNat

/-- A returned `Vec`: its pointer and its length, equal to the capacity. -/
structure OwnedVec where
  ptr : Ptr
  len : Nat
  deriving DecidableEq

/-- `svm_result_t::unwrap`, result.rs:68-80: the outer `none` is the panic on errors. The result is consumed:
it is dropped when the function ends, also by unwinding. -/
def unwrapResult (h : Heap) (r : SvmResult) : Heap × Option (Option OwnedVec) :=
  (dropResult h r,
    if r.error = .null ∧ r.receipt = .null then some none
    else if r.error = .null then some (some ⟨r.receipt, r.bufSize.toNat⟩)
    else none)

/-- `svm_result_t::receipt`, result.rs:83-94: the bytes read. -/
def receiptBytes (h : Heap) (r : SvmResult) : Option Bytes :=
  match r.receipt with
  | .null => none
  | .dangling => some []
  | .block i => some ((h.contents i).take r.bufSize.toNat)

/-- `svm_result_t::is_ok`, result.rs:107-109. -/
def isOk (r : SvmResult) : Bool := r.error == .null

/-! ## Spec -/

/-- Blocks that will be handed out are not handed out yet. -/
def Heap.Good (h : Heap) : Prop := ∀ i ∈ h.live, i < h.next

/-- A result made from `data`, of either kind. -/
def Makes (h : Heap) (data : Bytes) (h' : Heap) (r : SvmResult) : Prop :=
  newReceiptResult h data = (h', some r) ∨ newErrorResult h data = (h', some r)

/-- C81 in full: making a result and dropping it breaks no contract and gives all its memory back; and a
receipt that has been unwrapped is still allocated. -/
def C81_claim : Prop :=
  ∀ (h h' : Heap) (data : Bytes) (r : SvmResult), h.Good → Makes h data h' r →
    (dropResult h' r).violations = h.violations ∧ (dropResult h' r).live = h.live ∧
    ∀ v, (unwrapResult h' r).2 = some (some v) → v.len ≠ 0 →
      ∃ i, v.ptr = .block i ∧ i ∈ (unwrapResult h' r).1.live

/-! ## Proofs -/

theorem makes_cases {h h' : Heap} {data : Bytes} {r : SvmResult} (hm : Makes h data h' r) :
    h' = (leak h data).1 ∧ data.length < 2 ^ 32 ∧ r.bufSize.toNat = data.length ∧
      ((r.receipt = (leak h data).2 ∧ r.error = .null ∧ newReceiptResult h data = (h', some r)) ∨
        (r.error = (leak h data).2 ∧ r.receipt = .null ∧ newErrorResult h data = (h', some r))) := by
  have key : ∀ n, n < 2 ^ 32 → (BitVec.ofNat 32 n : U32).toNat = n := fun n hn => by
    rw [BitVec.toNat_ofNat]; exact Nat.mod_eq_of_lt hn
  rcases hm with hm | hm
  · have hm0 := hm
    unfold newReceiptResult at hm
    by_cases hl : data.length < 2 ^ 32
    · simp only [if_pos hl, Prod.mk.injEq, Option.some.injEq] at hm
      obtain ⟨rfl, rfl⟩ := hm
      exact ⟨rfl, hl, key _ hl, .inl ⟨rfl, rfl, hm0⟩⟩
    · simp [if_neg hl] at hm
  · have hm0 := hm
    unfold newErrorResult at hm
    by_cases hl : data.length < 2 ^ 32
    · simp only [if_pos hl, Prod.mk.injEq, Option.some.injEq] at hm
      obtain ⟨rfl, rfl⟩ := hm
      exact ⟨rfl, hl, key _ hl, .inr ⟨rfl, rfl, hm0⟩⟩
    · simp [if_neg hl] at hm

theorem leak_pos {h : Heap} {data : Bytes} (hd : data ≠ []) :
    leak h data = ({ h with
      live := insert h.next h.live
      contents := fun i => if i = h.next then data else h.contents i
      next := h.next + 1 }, .block h.next) := if_neg (by simpa using hd)

theorem next_not_live {h : Heap} (hg : h.Good) : h.next ∉ h.live := fun hm => Nat.lt_irrefl _ (hg _ hm)

/-- The heap after a nonempty result has been made and dropped. -/
theorem drop_made {h h' : Heap} {data : Bytes} {r : SvmResult} (hm : Makes h data h' r) (hd : data ≠ []) :
    dropResult h' r = { h' with live := h'.live.erase h.next, violations := .nullFree :: h.violations } := by
  obtain ⟨rfl, _, hb, hc⟩ := makes_cases hm
  have hl : data.length ≠ 0 := by simpa using hd
  have hmem : h.next ∈ (leak h data).1.live := by rw [leak_pos hd]; exact Finset.mem_insert_self _ _
  have hv : (leak h data).1.violations = h.violations := by rw [leak_pos hd]
  have hp : (leak h data).2 = .block h.next := by rw [leak_pos hd]
  unfold dropResult
  rw [hb]
  rcases hc with ⟨h1, h2, _⟩ | ⟨h1, h2, _⟩
  · rw [h1, h2, hp]
    simp only [dropVec, if_neg hl, if_pos hmem, hv]
  · rw [h1, h2, hp]
    simp only [dropVec, if_neg hl, if_pos hmem, hv]

/-- C81, dropping: whoever drops a result made from any bytes gets back exactly the memory of the result,
once, and no other block is touched. Missing: the drop also releases a null pointer (`C81_null`). -/
theorem C81_drop_partial {h h' : Heap} (hg : h.Good) {data : Bytes} {r : SvmResult}
    (hm : Makes h data h' r) :
    (dropResult h' r).live = h.live ∧
      (∀ i ∈ h.live, (dropResult h' r).contents i = h.contents i) ∧
      (.doubleFree ∈ (dropResult h' r).violations → .doubleFree ∈ h.violations) ∧
      (.wildFree ∈ (dropResult h' r).violations → .wildFree ∈ h.violations) := by
  by_cases hd : data = []
  · obtain ⟨rfl, _, hb, hc⟩ := makes_cases hm
    subst hd
    have hb : r.bufSize.toNat = 0 := hb
    have : dropResult (leak h []).1 r = h := by
      unfold dropResult dropVec
      rw [if_pos hb, if_pos hb]
      rfl
    rw [this]
    exact ⟨rfl, fun _ _ => rfl, id, id⟩
  · rw [drop_made hm hd]
    obtain ⟨rfl, _⟩ := makes_cases hm
    rw [leak_pos hd]
    refine ⟨?_, fun i hi => ?_, fun hv => ?_, fun hv => ?_⟩
    · exact Finset.erase_insert (next_not_live hg)
    · exact if_neg (by rintro rfl; exact next_not_live hg hi)
    · rcases List.mem_cons.1 hv with h | h
      · cases h
      · exact h
    · rcases List.mem_cons.1 hv with h | h
      · cases h
      · exact h

/-- C81, the bytes: a result carries exactly the bytes it was made from, until it is dropped. -/
theorem C81_bytes {h h' : Heap} {data : Bytes} {r : SvmResult}
    (hm : newReceiptResult h data = (h', some r)) : receiptBytes h' r = some data ∧ isOk r = true := by
  obtain ⟨rfl, hlt, hb, hc⟩ := makes_cases (.inl hm)
  have he : r.error = .null ∧ r.receipt = (leak h data).2 := by
    unfold newReceiptResult at hm
    simp only [if_pos hlt] at hm
    cases hm
    exact ⟨rfl, rfl⟩
  refine ⟨?_, by unfold isOk; rw [he.1]; rfl⟩
  unfold receiptBytes
  rw [he.2]
  by_cases hd : data = []
  · subst hd; rfl
  · rw [leak_pos hd]
    simp only [if_true, hb, List.take_length]

/-- C81, what goes wrong: whoever drops a result with a nonempty receipt or error releases a null pointer
of the same length. -/
theorem C81_null {h h' : Heap} {data : Bytes} {r : SvmResult} (hm : Makes h data h' r) (hd : data ≠ []) :
    (dropResult h' r).violations = .nullFree :: h.violations := by
  rw [drop_made hm hd]

/-- The result of a function that returns nothing owns nothing: it reports success, carries no receipt, and dropping
it releases nothing. -/
theorem C81_ok (h : Heap) : isOk .OK = true ∧ receiptBytes h .OK = none ∧ dropResult h .OK = h ∧
    unwrapResult h .OK = (h, some none) := ⟨rfl, rfl, rfl, rfl⟩

/-- C81, `unwrap`: the receipt that `unwrap` returns has been released already, so that its own drop
releases it a second time. -/
theorem C81_unwrap {h h' : Heap} {data : Bytes} {r : SvmResult}
    (hm : newReceiptResult h data = (h', some r)) (hd : data ≠ []) :
    ∃ i, (unwrapResult h' r).2 = some (some ⟨.block i, data.length⟩) ∧
      i ∉ (unwrapResult h' r).1.live ∧
      .doubleFree ∈ (dropVec (unwrapResult h' r).1 (.block i) data.length).violations := by
  have hdrop := drop_made (.inl hm) hd
  obtain ⟨rfl, hlt, hb, _⟩ := makes_cases (.inl hm)
  have he : r.error = .null ∧ r.receipt = (leak h data).2 := by
    unfold newReceiptResult at hm
    simp only [if_pos hlt] at hm
    cases hm
    exact ⟨rfl, rfl⟩
  rw [leak_pos hd] at he
  have hl : data.length ≠ 0 := by simpa using hd
  have hnot : h.next ∉ (unwrapResult (leak h data).1 r).1.live := by
    show h.next ∉ (dropResult _ r).live
    rw [hdrop]
    exact Finset.notMem_erase _ _
  refine ⟨h.next, ?_, hnot, ?_⟩
  · unfold unwrapResult
    rw [he.1, he.2, hb]
    rfl
  · unfold dropVec
    rw [if_neg hl]
    simp only [if_neg hnot]
    exact List.mem_cons_self

/-- An allocator that has handed out nothing. -/
def emptyHeap : Heap := ⟨∅, fun _ => [], 0, []⟩

theorem good_emptyHeap : emptyHeap.Good := fun i hi => by cases hi

/-- Non-vacuity: a receipt of three bytes can be made. -/
theorem demo_makes : ∃ h' r, newReceiptResult emptyHeap [1, 2, 3] = (h', some r) := ⟨_, _, rfl⟩

/-- C81 is violated by the code. -/
theorem C81_claim_false : ¬ C81_claim := by
  intro hcl
  obtain ⟨h', r, hm⟩ := demo_makes
  have h1 := (hcl _ _ _ _ good_emptyHeap (.inl hm)).1
  rw [C81_null (.inl hm) (by simp)] at h1
  cases h1

end Svm.Ffi
