import Verif.Runtime.Host
import Mathlib.Logic.Function.Basic

/-!
# C142: the heap of a template

The global allocator of the SDK, `StaticAlloc` (crates/wasm/sdk-alloc/src/lib.rs), on top of the host function
`svm_static_alloc`, and programs that allocate, enlarge, write and free objects.
-/

namespace Svm.Sdk

open Svm.Codec Svm.Runtime

/-! ## Model -/

/-- What the allocator was asked for, and the address it gave. -/
structure Block where
  ptr : Nat
  size : Nat
  align : Nat
  deriving DecidableEq

/-- A running program: the host's environment, the memory, and the objects that the program holds. -/
structure Heap where
  env : Env
  mem : Bytes
  objs : Nat → Option Block
  next : Nat

/-- Uses of the global allocator, and of the objects. `alloc` and `free` are `GlobalAlloc::alloc` and `dealloc` of
sdk-alloc/src/lib.rs:73-87; `zeroed` and `realloc` are the provided methods of the trait (core::alloc::global). `write`
stores one byte in an object. -/
inductive HeapOp where
  | alloc (size : U32) (align : Nat)
  | zeroed (size : U32) (align : Nat)
  | realloc (i : Nat) (size : U32)
  | free (i : Nat)
  | write (i off : Nat) (x : UInt8)

/-- Bytes written to the memory by Wasm code; out of range it traps. -/
def fill (mem : Bytes) (p : Nat) (bs : Bytes) : Option Bytes :=
  if p + bs.length ≤ mem.length then some (writeMem mem p bs) else none

/-- Bytes read from the memory by Wasm code; out of range it traps. -/
def readBack (mem : Bytes) (p n : Nat) : Option Bytes :=
  if p + n ≤ mem.length then some ((mem.drop p).take n) else none

/-- One operation; `none` is a trap, a panic of the host, or an object that is not there. The allocator passes on the
size and ignores the alignment, lib.rs:74-79. -/
def Heap.step (h : Heap) : HeapOp → Option Heap
  | .alloc size align => do
    let r ← staticAlloc h.env h.mem size
    return { h with env := r.2, next := h.next + 1
                    objs := Function.update h.objs h.next (some ⟨r.1.toNat, size.toNat, align⟩) }
  | .zeroed size align => do
    let r ← staticAlloc h.env h.mem size
    let mem ← fill h.mem r.1.toNat (List.replicate size.toNat 0)
    return { env := r.2, mem, next := h.next + 1
             objs := Function.update h.objs h.next (some ⟨r.1.toNat, size.toNat, align⟩) }
  | .realloc i size => do
    let b ← h.objs i
    let r ← staticAlloc h.env h.mem size
    let old ← readBack h.mem b.ptr (min b.size size.toNat)
    let mem ← fill h.mem r.1.toNat old
    return { h with env := r.2, mem, objs := Function.update h.objs i (some ⟨r.1.toNat, size.toNat, b.align⟩) }
  | .free i => do
    let _ ← h.objs i
    return { h with objs := Function.update h.objs i none }
  | .write i off x => do
    let b ← h.objs i
    let mem ← fill h.mem (b.ptr + off) [x]
    return { h with mem }

/-- Many operations. -/
def Heap.run (h : Heap) : List HeapOp → Option Heap
  | [] => some h
  | op :: ops => do (← h.step op).run ops

/-- A program without objects. -/
def Heap.start (env : Env) (mem : Bytes) : Heap := ⟨env, mem, fun _ => none, 0⟩

/-! ## Spec -/

/-- An object: its size, its alignment and the bytes that are known. -/
structure Obj where
  size : Nat
  align : Nat
  bytes : Nat → Option UInt8

/-- The objects of a program that does not know addresses. -/
structure Objs where
  objs : Nat → Option Obj
  next : Nat

/-- What an operation does to the objects; `none` if the program breaks the rules: an object that does not exist, a byte
outside of it, a size of zero. -/
def Objs.step (s : Objs) : HeapOp → Option Objs
  | .alloc size align =>
    if 0 < size.toNat then some ⟨Function.update s.objs s.next (some ⟨size.toNat, align, fun _ => none⟩), s.next + 1⟩
    else none
  | .zeroed size align =>
    if 0 < size.toNat then some ⟨Function.update s.objs s.next (some ⟨size.toNat, align, fun _ => some 0⟩), s.next + 1⟩
    else none
  | .realloc i size =>
    match s.objs i with
    | some o =>
      if 0 < size.toNat then
        some ⟨Function.update s.objs i (some ⟨size.toNat, o.align, fun j => if j < o.size then o.bytes j else none⟩), s.next⟩
      else none
    | none => none
  | .free i => if (s.objs i).isSome then some ⟨Function.update s.objs i none, s.next⟩ else none
  | .write i off x =>
    match s.objs i with
    | some o =>
      if off < o.size then some ⟨Function.update s.objs i (some ⟨o.size, o.align, Function.update o.bytes off (some x)⟩), s.next⟩
      else none
    | none => none

/-- Many operations. -/
def Objs.run (s : Objs) : List HeapOp → Option Objs
  | [] => some s
  | op :: ops => do (← s.step op).run ops

/-- No objects. -/
def Objs.start : Objs := ⟨fun _ => none, 0⟩

/-- Every object is in the memory, where it is aligned and has the bytes that are known. -/
def Intact (h : Heap) (s : Objs) : Prop :=
  ∀ i o, s.objs i = some o → ∃ b, h.objs i = some b ∧ b.size = o.size ∧ b.ptr + b.size ≤ h.mem.length ∧ o.align ∣ b.ptr ∧
    ∀ j x, j < o.size → o.bytes j = some x → h.mem[b.ptr + j]? = some x

/-- C142 in full: whatever a program that follows the rules does with its objects, unless it is stopped, each is in the
memory where it is aligned and contains what was written last. -/
def C142_claim : Prop :=
  ∀ (env : Env) (mem : Bytes) (ops : List HeapOp) (h : Heap) (s : Objs), env.usedMemory = 0 → mem.length < 2 ^ 32 →
    (Heap.start env mem).run ops = some h → Objs.start.run ops = some s → Intact h s

/-- The sizes that are requested. -/
def sizes : List HeapOp → List Nat
  | [] => []
  | .alloc size _ :: ops | .zeroed size _ :: ops | .realloc _ size :: ops => size.toNat :: sizes ops
  | _ :: ops => sizes ops

/-- The alignments that are requested. -/
def aligns : List HeapOp → List Nat
  | [] => []
  | .alloc _ align :: ops | .zeroed _ align :: ops => align :: aligns ops
  | _ :: ops => aligns ops

/-! ## Memory -/

theorem fill_length {mem mem' bs : Bytes} {p : Nat} (h : fill mem p bs = some mem') : mem'.length = mem.length := by
  unfold fill at h
  split at h
  · cases h
    simp only [writeMem, List.length_append, List.length_take, List.length_drop]
    omega
  · cases h

theorem fill_in {mem mem' bs : Bytes} {p j : Nat} (h : fill mem p bs = some mem') (hj : j < bs.length) :
    mem'[p + j]? = bs[j]? := by
  unfold fill at h
  split at h
  · cases h
    rw [writeMem, List.getElem?_append_right (by simp; omega), List.getElem?_append_left (by simp; omega)]
    congr 1
    simp only [List.length_take]
    omega
  · cases h

theorem fill_out {mem mem' bs : Bytes} {p q : Nat} (h : fill mem p bs = some mem') (hq : q < p ∨ p + bs.length ≤ q) :
    mem'[q]? = mem[q]? := by
  unfold fill at h
  split at h
  · cases h
    rcases hq with hq | hq
    · rw [writeMem, List.getElem?_append_left (by simp; omega), List.getElem?_take_of_lt hq]
    · rw [writeMem, List.getElem?_append_right (by simp; omega), List.getElem?_append_right (by simp; omega),
        List.getElem?_drop]
      congr 1
      simp only [List.length_take]
      omega
  · cases h

theorem fill_ok {mem bs : Bytes} {p : Nat} (h : p + bs.length ≤ mem.length) : ∃ mem', fill mem p bs = some mem' :=
  ⟨_, if_pos h⟩

/-- The host's allocation. -/
theorem alloc_ok {env : Env} {mem : Bytes} {size : U32} (hs : env.memorySet = true) (hp : 0 < size.toNat)
    (hm : env.usedMemory + size.toNat ≤ mem.length) (hl : mem.length < 2 ^ 32) :
    ∃ p : U32, staticAlloc env mem size = some (p, { env with usedMemory := env.usedMemory + size.toNat }) ∧
      p.toNat = env.usedMemory + size.toNat := by
  refine ⟨BitVec.ofNat 32 (env.usedMemory + size.toNat), ?_, ?_⟩
  · simp only [staticAlloc, hs, hp, decide_true, Bool.and_self, if_true]
    rw [if_neg (by omega)]
  · rw [BitVec.toNat_ofNat, Nat.mod_eq_of_lt (by omega)]

theorem alloc_some {env env' : Env} {mem : Bytes} {size p : U32} (h : staticAlloc env mem size = some (p, env'))
    (hl : mem.length < 2 ^ 32) : p.toNat = env.usedMemory + size.toNat ∧ 0 < size.toNat ∧
      env.usedMemory + size.toNat ≤ mem.length ∧ env' = { env with usedMemory := env.usedMemory + size.toNat } := by
  unfold staticAlloc at h
  split at h
  · rename_i hc
    simp only [Bool.and_eq_true, decide_eq_true_eq] at hc
    simp only at h
    split at h
    · cases h
    · cases h
      refine ⟨?_, hc.2, by omega, rfl⟩
      rw [BitVec.toNat_ofNat, Nat.mod_eq_of_lt (by omega)]
  · cases h

/-! ## Sizes that do not decrease -/

/-- The heap holds the objects, they are below `top`, and they have no byte in common. -/
structure Sound (h : Heap) (s : Objs) (top : Nat) : Prop where
  set : h.env.memorySet = true
  len : h.mem.length < 2 ^ 32
  next : h.next = s.next
  objs : ∀ i, (h.objs i).isSome = (s.objs i).isSome
  holds : Intact h s
  below : ∀ i b, h.objs i = some b → b.ptr + b.size ≤ top
  apart : ∀ i j b c, i ≠ j → h.objs i = some b → h.objs j = some c → b.ptr + b.size ≤ c.ptr ∨ c.ptr + c.size ≤ b.ptr
  fresh : ∀ i o, s.objs i = some o → i < s.next
  aligns : ∀ i b o, h.objs i = some b → s.objs i = some o → b.align = o.align

/-- A new block above all others. -/
theorem sound_new {h : Heap} {s : Objs} {top : Nat} (hs : Sound h s top) {mem' : Bytes} {env' : Env} {p n a : Nat}
    (hset : env'.memorySet = true) (hp : top ≤ p) (hm : p + n ≤ h.mem.length) (ha : a ∣ p)
    (hlen : mem'.length = h.mem.length) (hmem : ∀ q < top, mem'[q]? = h.mem[q]?) {i next' next'' : Nat}
    (hn : next' = next'') (hi : i < next'') (hmono : s.next ≤ next'') {f : Nat → Option UInt8}
    (hf : ∀ j x, j < n → f j = some x → mem'[p + j]? = some x) :
    Sound ⟨env', mem', Function.update h.objs i (some ⟨p, n, a⟩), next'⟩
      ⟨Function.update s.objs i (some ⟨n, a, f⟩), next''⟩ (p + n) := by
  refine ⟨hset, by rw [hlen]; exact hs.len, hn, fun j => ?_, fun j o ho => ?_, fun j b hb => ?_,
    fun j k b c hjk hb hc => ?_, fun j o ho => ?_, fun j b o hb ho => ?_⟩
  · by_cases e : j = i
    · subst e
      simp only [Function.update_self, Option.isSome_some]
    · simp only
      rw [Function.update_of_ne e, Function.update_of_ne e]
      exact hs.objs j
  · by_cases e : j = i
    · subst e
      simp only [Function.update_self, Option.some.injEq] at ho
      subst ho
      exact ⟨_, Function.update_self .., rfl, by rw [hlen]; exact hm, ha, hf⟩
    · simp only at ho
      rw [Function.update_of_ne e] at ho
      obtain ⟨b, h1, h2, h3, h4, h5⟩ := hs.holds j o ho
      refine ⟨b, ?_, h2, by rw [hlen]; exact h3, h4, fun k x hk hx => ?_⟩
      · simp only
        rw [Function.update_of_ne e, h1]
      · rw [hmem _ (by have := hs.below j b h1; omega)]
        exact h5 k x hk hx
  · simp only at hb
    by_cases e : j = i
    · subst e
      rw [Function.update_self] at hb
      cases hb
      exact Nat.le_refl _
    · rw [Function.update_of_ne e] at hb
      have := hs.below j b hb
      omega
  · simp only at hb hc
    by_cases e : j = i
    · subst e
      rw [Function.update_self] at hb
      rw [Function.update_of_ne hjk.symm] at hc
      cases hb
      have := hs.below k c hc
      right
      simp only
      omega
    · rw [Function.update_of_ne e] at hb
      by_cases e' : k = i
      · subst e'
        rw [Function.update_self] at hc
        cases hc
        have := hs.below j b hb
        left
        simp only
        omega
      · rw [Function.update_of_ne e'] at hc
        exact hs.apart j k b c hjk hb hc
  · by_cases e : j = i
    · subst e
      exact hi
    · simp only at ho
      rw [Function.update_of_ne e] at ho
      exact Nat.lt_of_lt_of_le (hs.fresh j o ho) hmono
  · by_cases e : j = i
    · subst e
      simp only [Function.update_self, Option.some.injEq] at ho hb
      subst ho hb
      rfl
    · simp only at ho hb
      rw [Function.update_of_ne e] at ho hb
      exact hs.aligns j b o hb ho

/-- The size that an operation requests. -/
def HeapOp.request : HeapOp → Option Nat
  | .alloc size _ | .zeroed size _ | .realloc _ size => some size.toNat
  | _ => none

/-- The alignment that an operation requests. -/
def HeapOp.align : HeapOp → Option Nat
  | .alloc _ align | .zeroed _ align => some align
  | _ => none

/-- One operation whose request is at least as large as the last one. -/
theorem sound_step {h : Heap} {s s' : Objs} {last : Nat} {op : HeapOp} (hs : Sound h s (h.env.usedMemory + last))
    (hop : s.step op = some s') (hle : ∀ n, op.request = some n → last ≤ n)
    (hroom : ∀ n, op.request = some n → h.env.usedMemory + n + n ≤ h.mem.length)
    (halign : ∀ a n, op.request = some n → (op.align = some a ∨ ∃ i o, s.objs i = some o ∧ a = o.align) →
      a ∣ h.env.usedMemory ∧ a ∣ n) :
    ∃ h', h.step op = some h' ∧ Sound h' s' (h'.env.usedMemory + op.request.getD last) ∧
      h'.env.usedMemory = h.env.usedMemory + op.request.getD 0 ∧ h'.mem.length = h.mem.length ∧
      ∀ i o, s'.objs i = some o → op.align = some o.align ∨ ∃ i o', s.objs i = some o' ∧ o.align = o'.align := by
  cases op with
  | alloc size align =>
    simp only [Objs.step] at hop
    split at hop
    · rename_i hp
      cases hop
      have hle := hle _ rfl
      have hroom := hroom _ rfl
      obtain ⟨p, ha, hpe⟩ := alloc_ok (mem := h.mem) hs.set hp (by omega) hs.len
      have hal := halign align _ rfl (.inl rfl)
      have key := sound_new hs (mem' := h.mem) (i := s.next) (next' := h.next + 1) (next'' := s.next + 1) (p := p.toNat)
        (n := size.toNat) (a := align) (env' := { h.env with usedMemory := h.env.usedMemory + size.toNat })
        (f := fun _ => none) hs.set (by omega) (by omega) (hpe ▸ Nat.dvd_add hal.1 hal.2) rfl (fun _ _ => rfl)
        (by rw [hs.next]) (Nat.lt_succ_self _) (Nat.le_succ _) (fun _ _ _ hx => by cases hx)
      rw [hpe, ← hs.next] at key
      refine ⟨⟨{ h.env with usedMemory := h.env.usedMemory + size.toNat }, h.mem,
        Function.update h.objs h.next (some ⟨p.toNat, size.toNat, align⟩), h.next + 1⟩,
        by simp only [Heap.step, ha, Option.bind_eq_bind, Option.bind_some, Option.pure_def], ?_, rfl, rfl, ?_⟩
      · simp only [HeapOp.request, Option.getD_some]
        rw [hpe, ← hs.next]
        exact key
      · intro i o ho
        by_cases e : i = s.next
        · subst e
          simp only [Function.update_self, Option.some.injEq] at ho
          subst ho
          exact .inl rfl
        · simp only at ho
          rw [Function.update_of_ne e] at ho
          exact .inr ⟨i, o, ho, rfl⟩
    · cases hop
  | zeroed size align =>
    simp only [Objs.step] at hop
    split at hop
    · rename_i hp
      cases hop
      have hle := hle _ rfl
      have hroom := hroom _ rfl
      obtain ⟨p, ha, hpe⟩ := alloc_ok (mem := h.mem) hs.set hp (by omega) hs.len
      have hal := halign align _ rfl (.inl rfl)
      obtain ⟨mem', hm'⟩ := fill_ok (mem := h.mem) (bs := List.replicate size.toNat 0) (p := p.toNat) (by simp; omega)
      have key := sound_new hs (mem' := mem') (i := s.next) (next' := h.next + 1) (next'' := s.next + 1) (p := p.toNat)
        (n := size.toNat) (a := align) (env' := { h.env with usedMemory := h.env.usedMemory + size.toNat })
        (f := fun _ => some 0) hs.set (by omega) (by omega) (hpe ▸ Nat.dvd_add hal.1 hal.2) (fill_length hm')
        (fun q hq => fill_out hm' (.inl (by omega))) (by rw [hs.next]) (Nat.lt_succ_self _) (Nat.le_succ _)
        (fun j x hj hx => by
          rw [fill_in hm' (by simpa using hj), List.getElem?_replicate, if_pos hj]
          exact hx)
      rw [← hs.next] at key
      refine ⟨_, by simp only [Heap.step, ha, hm', Option.bind_eq_bind, Option.bind_some, Option.pure_def]; rfl, ?_, rfl,
        fill_length hm', ?_⟩
      · simp only [HeapOp.request, Option.getD_some]
        rw [← hpe, ← hs.next]
        rw [← hpe] at key
        exact key
      · intro i o ho
        by_cases e : i = s.next
        · subst e
          simp only [Function.update_self, Option.some.injEq] at ho
          subst ho
          exact .inl rfl
        · simp only at ho
          rw [Function.update_of_ne e] at ho
          exact .inr ⟨i, o, ho, rfl⟩
    · cases hop
  | realloc i size =>
    simp only [Objs.step] at hop
    split at hop
    · rename_i o ho
      split at hop
      · rename_i hp
        cases hop
        have hle := hle _ rfl
        have hroom := hroom _ rfl
        obtain ⟨p, ha, hpe⟩ := alloc_ok (mem := h.mem) hs.set hp (by omega) hs.len
        obtain ⟨b, hb, hbs, hbl, hba, hbx⟩ := hs.holds i o ho
        have hal := halign o.align _ rfl (.inr ⟨i, o, ho, rfl⟩)
        have hbt := hs.below i b hb
        have hsl : readBack h.mem b.ptr (min b.size size.toNat) = some ((h.mem.drop b.ptr).take (min b.size size.toNat)) :=
          if_pos (by omega)
        have hlen : ((h.mem.drop b.ptr).take (min b.size size.toNat)).length = min b.size size.toNat := by
          rw [List.length_take, List.length_drop]
          omega
        obtain ⟨mem', hm'⟩ := fill_ok (mem := h.mem) (bs := (h.mem.drop b.ptr).take (min b.size size.toNat))
          (p := p.toNat) (by omega)
        have hbal : b.align = o.align := hs.aligns i b o hb ho
        have key := sound_new hs (mem' := mem') (i := i) (next' := h.next) (next'' := s.next) (p := p.toNat)
          (n := size.toNat) (a := o.align) (env' := { h.env with usedMemory := h.env.usedMemory + size.toNat })
          (f := fun j => if j < o.size then o.bytes j else none) hs.set (by omega) (by omega)
          (hpe ▸ Nat.dvd_add hal.1 hal.2) (fill_length hm') (fun q hq => fill_out hm' (.inl (by omega))) hs.next
          (hs.fresh i o ho) (Nat.le_refl _) (by
            intro j x hj hx
            split at hx
            · rename_i hjo
              rw [fill_in hm' (by omega), List.getElem?_take_of_lt (by omega), List.getElem?_drop]
              exact hbx j x hjo hx
            · cases hx)
        refine ⟨_, by
          simp only [Heap.step, hb, ha, hsl, hm', hbal, Option.bind_eq_bind, Option.bind_some, Option.pure_def]; rfl, ?_,
          rfl, fill_length hm', ?_⟩
        · simp only [HeapOp.request, Option.getD_some]
          rw [← hpe]
          rw [← hpe] at key
          exact key
        · intro j o' ho'
          by_cases e : j = i
          · subst e
            simp only [Function.update_self, Option.some.injEq] at ho'
            subst ho'
            exact .inr ⟨j, o, ho, rfl⟩
          · simp only at ho'
            rw [Function.update_of_ne e] at ho'
            exact .inr ⟨j, o', ho', rfl⟩
      · cases hop
    · cases hop
  | free i =>
    simp only [Objs.step] at hop
    split at hop
    · rename_i ho
      cases hop
      obtain ⟨b, hb⟩ := Option.isSome_iff_exists.1 ((hs.objs i).trans ho)
      have old : ∀ {α : Type} {g : Nat → Option α} {j : Nat} {x : α}, Function.update g i none j = some x →
          j ≠ i ∧ g j = some x := by
        intro α g j x hx
        by_cases e : j = i
        · subst e
          rw [Function.update_self] at hx
          cases hx
        · rw [Function.update_of_ne e] at hx
          exact ⟨e, hx⟩
      refine ⟨{ h with objs := Function.update h.objs i none },
        by simp only [Heap.step, hb, Option.bind_eq_bind, Option.bind_some, Option.pure_def],
        ⟨hs.set, hs.len, hs.next, fun j => ?_, fun j o hj => ?_, fun j c hj => ?_,
          fun j k c d hjk hj hk => ?_, fun j o hj => ?_, fun j b o h1 h2 => ?_⟩, rfl, rfl,
        fun j o hj => .inr ⟨j, o, (old hj).2, rfl⟩⟩
      · by_cases e : j = i
        · subst e
          simp only [Function.update_self]
          rfl
        · simp only
          rw [Function.update_of_ne e, Function.update_of_ne e]
          exact hs.objs j
      · obtain ⟨e, hj⟩ := old hj
        obtain ⟨c, h1, h2⟩ := hs.holds j o hj
        exact ⟨c, by simp only; rw [Function.update_of_ne e, h1], h2⟩
      · exact hs.below j c (old hj).2
      · exact hs.apart j k c d hjk (old hj).2 (old hk).2
      · exact hs.fresh j o (old hj).2
      · exact hs.aligns j b o (old h1).2 (old h2).2
    · cases hop
  | write i off x =>
    simp only [Objs.step] at hop
    split at hop
    · rename_i o ho
      split at hop
      · rename_i hoff
        cases hop
        obtain ⟨b, hb, hbs, hbl, hba, hbx⟩ := hs.holds i o ho
        obtain ⟨mem', hm'⟩ := fill_ok (mem := h.mem) (bs := [x]) (p := b.ptr + off) (by simp; omega)
        refine ⟨{ h with mem := mem' },
          by simp only [Heap.step, hb, hm', Option.bind_eq_bind, Option.bind_some, Option.pure_def],
          ⟨hs.set, by simp only; rw [fill_length hm']; exact hs.len, hs.next, fun j => ?_, fun j o' hj => ?_, hs.below,
            hs.apart, fun j o' hj => ?_, fun j b' o' h1 h2 => ?_⟩, rfl, fill_length hm', fun j o' hj => ?_⟩
        · by_cases e : j = i
          · subst e
            simp only [Function.update_self, hb, Option.isSome_some]
          · simp only
            rw [Function.update_of_ne e]
            exact hs.objs j
        · by_cases e : j = i
          · subst e
            simp only [Function.update_self, Option.some.injEq] at hj
            subst hj
            refine ⟨b, hb, hbs, by simp only; rw [fill_length hm']; exact hbl, hba, fun k y hk hy => ?_⟩
            simp only at hy hk ⊢
            by_cases e : k = off
            · subst e
              rw [Function.update_self] at hy
              have := fill_in (j := 0) hm' (by simp)
              rw [Nat.add_zero] at this
              rw [this]
              exact hy
            · rw [Function.update_of_ne e] at hy
              rw [fill_out hm' (by simp; omega)]
              exact hbx k y hk hy
          · simp only at hj
            rw [Function.update_of_ne e] at hj
            obtain ⟨c, hc, hcs, hcl, hca, hcx⟩ := hs.holds j o' hj
            refine ⟨c, hc, hcs, by simp only; rw [fill_length hm']; exact hcl, hca, fun k y hk hy => ?_⟩
            simp only
            have := hs.apart j i c b e hc hb
            rw [fill_out hm' (by simp; omega)]
            exact hcx k y hk hy
        · by_cases e : j = i
          · subst e
            exact hs.fresh j o ho
          · simp only at hj
            rw [Function.update_of_ne e] at hj
            exact hs.fresh j o' hj
        · by_cases e : j = i
          · subst e
            simp only [Function.update_self, Option.some.injEq] at h2
            subst h2
            exact hs.aligns j b' o h1 ho
          · simp only at h2
            rw [Function.update_of_ne e] at h2
            exact hs.aligns j b' o' h1 h2
        · by_cases e : j = i
          · subst e
            simp only [Function.update_self, Option.some.injEq] at hj
            subst hj
            exact .inr ⟨j, o, ho, rfl⟩
          · simp only at hj
            rw [Function.update_of_ne e] at hj
            exact .inr ⟨j, o', hj, rfl⟩
      · cases hop
    · cases hop

theorem sizes_cons (op : HeapOp) (ops : List HeapOp) : sizes (op :: ops) = op.request.toList ++ sizes ops := by
  cases op <;> rfl

theorem aligns_cons (op : HeapOp) (ops : List HeapOp) : aligns (op :: ops) = op.align.toList ++ aligns ops := by
  cases op <;> rfl

theorem sound_run {ops : List HeapOp} {h : Heap} {s s' : Objs} {last : Nat}
    (hs : Sound h s (h.env.usedMemory + last))
    (hrun : s.run ops = some s') (hgrow : (last :: sizes ops).Pairwise (· ≤ ·))
    (hroom : ∀ n ∈ sizes ops, h.env.usedMemory + (sizes ops).sum + n ≤ h.mem.length)
    (halign : ∀ a, (a ∈ aligns ops ∨ ∃ i o, s.objs i = some o ∧ a = o.align) →
      ∀ n ∈ sizes ops, a ∣ h.env.usedMemory ∧ a ∣ n) :
    ∃ h', h.run ops = some h' ∧ ∃ top, Sound h' s' top := by
  induction ops generalizing h s last with
  | nil =>
    cases hrun
    exact ⟨h, rfl, _, hs⟩
  | cons op ops ih =>
    simp only [Objs.run, Option.bind_eq_bind, Option.bind_eq_some_iff] at hrun
    obtain ⟨s1, h1, hrun⟩ := hrun
    have hmem : ∀ n, op.request = some n → n ∈ sizes (op :: ops) := by
      intro n hn
      simp [sizes_cons, hn]
    obtain ⟨h', g1, g2, g3, g4, g5⟩ := sound_step hs h1
      (fun n hn => List.rel_of_pairwise_cons hgrow (hmem n hn))
      (fun n hn => by
        have := hroom n (hmem n hn)
        simp only [sizes_cons, hn, Option.toList_some, List.singleton_append, List.sum_cons] at this
        omega)
      (fun a n hn ha => halign a (ha.imp_left (fun e => by simp [aligns_cons, e])) n (hmem n hn))
    obtain ⟨h'', g6, g7⟩ := ih g2 hrun
      (by
        cases hr : op.request with
        | none => simpa [sizes_cons, hr] using hgrow
        | some n =>
          rw [sizes_cons, hr] at hgrow
          exact hgrow.of_cons)
      (fun n hn => by
        have := hroom n (by simp [sizes_cons, hn])
        rw [g3, g4]
        cases hr : op.request with
        | none => simpa [sizes_cons, hr] using this
        | some m =>
          simp only [sizes_cons, hr, Option.toList_some, List.singleton_append, List.sum_cons] at this
          simp only [Option.getD_some]
          omega)
      (fun a ha n hn => by
        have key : a ∈ aligns (op :: ops) ∨ ∃ i o, s.objs i = some o ∧ a = o.align := by
          rcases ha with ha | ⟨i, o, ho, rfl⟩
          · exact .inl (by simp [aligns_cons, ha])
          · rcases g5 i o ho with e | e
            · exact .inl (by simp [aligns_cons, e])
            · exact .inr e
        refine ⟨?_, (halign a key n (by simp [sizes_cons, hn])).2⟩
        rw [g3]
        have h0 := (halign a key n (by simp [sizes_cons, hn])).1
        cases hr : op.request with
        | none => simpa using h0
        | some m => exact Nat.dvd_add h0 (halign a key m (hmem m hr)).2)
    exact ⟨h'', by simp only [Heap.run, g1, Option.bind_eq_bind, Option.bind_some, g6], g7⟩

/-- C142 for programs that never request less than before, with sizes that are multiples of all alignments, if there is
room for all objects and for the largest once more: the program is not stopped, and every object is in the memory, aligned,
with the bytes that were written last. Missing: all other programs (`C142_alias`, `C142_outside`, `C142_aligned`). -/
theorem C142_growing_partial (env : Env) (mem : Bytes) (ops : List HeapOp) (s : Objs) (hset : env.memorySet = true)
    (hlen : mem.length < 2 ^ 32) (hrun : Objs.start.run ops = some s) (hgrow : (sizes ops).Pairwise (· ≤ ·))
    (hroom : ∀ n ∈ sizes ops, env.usedMemory + (sizes ops).sum + n ≤ mem.length)
    (halign : ∀ a ∈ aligns ops, ∀ n ∈ sizes ops, a ∣ env.usedMemory ∧ a ∣ n) :
    ∃ h, (Heap.start env mem).run ops = some h ∧ Intact h s := by
  obtain ⟨h, h1, top, h2⟩ := sound_run (h := .start env mem) (s := .start) (last := 0)
    ⟨hset, hlen, rfl, fun _ => rfl, fun _ _ h => (by cases h), fun _ _ h => (by cases h), fun _ _ _ _ _ h => (by cases h),
      fun _ _ h => (by cases h), fun _ _ _ h => (by cases h)⟩ hrun
    (List.pairwise_cons.2 ⟨fun _ _ => Nat.zero_le _, hgrow⟩) hroom
    (by
      rintro a (ha | ⟨i, o, ho, -⟩) n hn
      · exact halign a ha n hn
      · cases ho)
  exact ⟨h, h1, h2.holds⟩

/-! ## What goes wrong -/

/-- An allocation in any state: it starts where the region that the host reserved ends. -/
theorem step_alloc {h h' : Heap} {size : U32} {align : Nat} (hlen : h.mem.length < 2 ^ 32)
    (hs : h.step (.alloc size align) = some h') :
    h'.objs h.next = some ⟨h.env.usedMemory + size.toNat, size.toNat, align⟩ ∧ h'.mem = h.mem ∧ h'.next = h.next + 1 ∧
      h'.env.usedMemory = h.env.usedMemory + size.toNat ∧ (∀ i ≠ h.next, h'.objs i = h.objs i) ∧
      h.env.usedMemory + size.toNat ≤ h.mem.length := by
  simp only [Heap.step, Option.bind_eq_bind, Option.bind_eq_some_iff] at hs
  obtain ⟨⟨p, env'⟩, h1, h2⟩ := hs
  obtain ⟨e1, -, e3, e4⟩ := alloc_some h1 hlen
  cases h2
  refine ⟨?_, rfl, rfl, by simp only [e4], fun i hi => Function.update_of_ne hi .., e3⟩
  simp only [Function.update_self, e1]

/-- Whatever happened before: an object that is smaller than the one allocated directly before it is part of it. Writing
to the second changes the first. -/
theorem C142_alias {h h1 h2 h3 : Heap} {size size' : U32} {align align' : Nat} (hlen : h.mem.length < 2 ^ 32)
    (hs1 : h.step (.alloc size align) = some h1) (hs2 : h1.step (.alloc size' align') = some h2) (off : Nat)
    (hoff : size'.toNat + off < size.toNat) (x : UInt8) (hs3 : h2.step (.write (h.next + 1) off x) = some h3) :
    ∃ b, h3.objs h.next = some b ∧ size'.toNat + off < b.size ∧ h3.mem[b.ptr + (size'.toNat + off)]? = some x := by
  obtain ⟨e1, e2, e3, e4, -, -⟩ := step_alloc hlen hs1
  obtain ⟨f1, f2, -, -, f5, -⟩ := step_alloc (e2 ▸ hlen) hs2
  simp only [Heap.step, Option.bind_eq_bind, Option.bind_eq_some_iff] at hs3
  obtain ⟨b, hb, mem', hm, h3e⟩ := hs3
  cases h3e
  rw [← e3, f1] at hb
  cases hb
  refine ⟨_, (f5 _ (by omega)).trans e1, hoff, ?_⟩
  have := fill_in (j := 0) hm (by simp)
  simp only [Nat.add_zero, List.getElem?_cons_zero] at this
  rw [e4] at this
  rw [← this]
  congr 1
  simp only
  omega

/-- Whatever happened before: of an object for which there is no room twice, the last byte cannot be written. -/
theorem C142_outside {h h1 : Heap} {size : U32} {align : Nat} (hlen : h.mem.length < 2 ^ 32)
    (hs1 : h.step (.alloc size align) = some h1) (hm : h.mem.length < h.env.usedMemory + 2 * size.toNat) (x : UInt8) :
    h1.step (.write h.next (size.toNat - 1) x) = none := by
  obtain ⟨e1, e2, -, -, -, e6⟩ := step_alloc hlen hs1
  simp only [Heap.step, e1, Option.bind_eq_bind, Option.bind_some, Option.bind_eq_none_iff]
  intro mem' hf
  exfalso
  unfold fill at hf
  split at hf
  · rename_i hle
    rw [e2] at hle
    simp only [List.length_singleton] at hle
    omega
  · cases hf

/-- An object is aligned exactly if the bytes requested so far, with its own, are a multiple of the alignment. -/
theorem C142_aligned {h h1 : Heap} {size : U32} {align : Nat} (hlen : h.mem.length < 2 ^ 32)
    (hs1 : h.step (.alloc size align) = some h1) :
    ∃ b, h1.objs h.next = some b ∧ (align ∣ b.ptr ↔ align ∣ h.env.usedMemory + size.toNat) :=
  ⟨_, (step_alloc hlen hs1).1, Iff.rfl⟩

/-- The first object of a program is written over the static data: the bytes from the address `size` on, which the module
may have filled with its own data. -/
theorem C142_data (env : Env) (mem : Bytes) {h1 h2 : Heap} {size : U32} {align off : Nat} (h0 : env.usedMemory = 0)
    (hlen : mem.length < 2 ^ 32) (hs1 : (Heap.start env mem).step (.alloc size align) = some h1) (x : UInt8)
    (hs2 : h1.step (.write 0 off x) = some h2) : h2.mem[size.toNat + off]? = some x := by
  obtain ⟨e1, -⟩ := step_alloc hlen hs1
  simp only [Heap.step, Option.bind_eq_bind, Option.bind_eq_some_iff] at hs2
  obtain ⟨b, hb, mem', hm, h3e⟩ := hs2
  cases h3e
  have e1 : h1.objs 0 = some ⟨env.usedMemory + size.toNat, size.toNat, align⟩ := e1
  rw [e1] at hb
  cases hb
  have := fill_in (j := 0) hm (by simp)
  simp only [Nat.add_zero, List.getElem?_cons_zero, h0, Nat.zero_add] at this
  exact this

/-- C142 does not hold: an object of two bytes and one of one byte. -/
theorem C142_claim_false : ¬ C142_claim := by
  intro hcl
  have hx := hcl { demoEnv with memorySet := true, usedMemory := 0 } (List.replicate 16 0)
    [.alloc 2 1, .write 0 1 7, .alloc 1 1, .write 1 0 9]
  obtain ⟨h, hh⟩ : ∃ h, (Heap.start { demoEnv with memorySet := true, usedMemory := 0 } (List.replicate 16 0)).run
      [.alloc 2 1, .write 0 1 7, .alloc 1 1, .write 1 0 9] = some h := ⟨_, rfl⟩
  obtain ⟨s, hs⟩ : ∃ s, Objs.start.run [.alloc 2 1, .write 0 1 7, .alloc 1 1, .write 1 0 9] = some s := ⟨_, rfl⟩
  have hy := hx h s rfl (by simp) hh hs
  cases hh
  cases hs
  obtain ⟨b, h1, -, -, -, h5⟩ := hy 0 _ rfl
  cases h1
  have := h5 1 7 (by decide) rfl
  revert this
  decide

/-- Non-vacuity of `C142_growing_partial`: two objects, the first is written to and enlarged, the second is freed. -/
example : ∃ s, Objs.start.run [.alloc 2 2, .write 0 1 7, .zeroed 4 2, .realloc 0 6, .free 1] = some s ∧
    ∃ o, s.objs 0 = some o ∧ o.size = 6 ∧ o.bytes 1 = some 7 :=
  ⟨_, rfl, _, rfl, rfl, rfl⟩

example : (sizes [.alloc 2 2, .write 0 1 7, .zeroed 4 2, .realloc 0 6, .free 1]).Pairwise (· ≤ ·) ∧
    (∀ n ∈ sizes [.alloc 2 2, .write 0 1 7, .zeroed 4 2, .realloc 0 6, .free 1], 0 + 12 + n ≤ 18) ∧
    ∀ a ∈ aligns [.alloc 2 2, .write 0 1 7, .zeroed 4 2, .realloc 0 6, .free 1],
      ∀ n ∈ sizes [.alloc 2 2, .write 0 1 7, .zeroed 4 2, .realloc 0 6, .free 1], a ∣ 0 ∧ a ∣ n := by
  decide

end Svm.Sdk
