import Verif.Prelude
import Mathlib.Data.Finset.Card
import Mathlib.Data.Finset.Erase

/-!
# Handles of runtimes in the C API (C65, C79, C80)

`crates/host/runtime-ffi/src/c_api.rs` and `crates/host/runtime-ffi/src/resource_tracker.rs`. The mutex of
the tracker makes each of its operations atomic, so executions of several threads are sequences of these
operations. The contents of the runtimes play no role here.
-/

namespace Svm.Ffi

/-! ## Model -/

/-- The global variables, c_api.rs:21-24, and the memory in use. -/
structure State where
  /-- `INITIALIZED`. -/
  initialized : Bool
  /-- Whether the mutex of `INITIALIZED` is poisoned. -/
  poisoned : Bool
  /-- `RUNTIME_TRACKER`, resource_tracker.rs:6-11. -/
  pointers : Finset Nat
  /-- The boxes that were allocated and not yet freed. -/
  boxes : Finset Nat

/-- The library after loading. -/
def State.start : State := ⟨false, false, ∅, ∅⟩

/-- What happens to the body of `svm_runtime_create` after the check of `INITIALIZED`, c_api.rs:73-92:
either the runtime is built and boxed at an address that the allocator chooses, or the body panics, because
the path is no UTF-8 (c_api.rs:79) or the database cannot be opened (state/src/global_state.rs:32, 40-42) or
the executor not be started (c_api.rs:74). -/
inductive Attempt where
  | builds (ptr : Nat)
  | panics
  deriving DecidableEq, Repr

/-- Calls of the C API. `use` stands for all functions that get the runtime from the tracker
(c_api.rs:152-607, all through lines 664-668, or 559 and 580). -/
inductive Call where
  | init
  | create (attempt : Attempt)
  | destroy (ptr : Nat)
  | use (ptr : Nat)
  | count
  deriving DecidableEq, Repr

/-- What the caller sees. `accepted` for `use`: the runtime was found, whatever it answers. `unwinds` is a
panic that leaves the function. -/
inductive Answer where
  | ok
  | created (ptr : Nat)
  | accepted
  | number (n : Nat)
  | error
  | unwinds
  deriving DecidableEq, Repr

/-- `ResourceTracker::get`, resource_tracker.rs:18-26: is there a runtime? -/
def State.get (s : State) (ptr : Nat) : Bool := decide (ptr ∈ s.pointers)

/-- `ResourceTracker::alloc`, resource_tracker.rs:28-35. -/
def State.alloc (s : State) (ptr : Nat) : State :=
  { s with pointers := insert ptr s.pointers, boxes := insert ptr s.boxes }

/-- `ResourceTracker::free`, resource_tracker.rs:37-45. The box is not freed. -/
def State.free (s : State) (ptr : Nat) : Option State :=
  if ptr ∈ s.pointers then some { s with pointers := s.pointers.erase ptr } else none

/-- One call. Panics are caught by `catch_unwind_or_fail`, c_api.rs:670-689, except in `svm_init`,
29-32, `svm_runtime_destroy`, 117-123, and `svm_runtimes_count`, 127-129. The guard of `INITIALIZED` lives
until the end of `svm_runtime_create`, 62-95: a panic poisons it. -/
def step (s : State) : Call → Answer × State
  | .init => if s.poisoned then (.unwinds, s) else (.ok, { s with initialized := true })
  | .create attempt =>
    if s.poisoned then (.error, s)
    else if !s.initialized then (.error, s)
    else match attempt with
      | .builds ptr => (.created ptr, s.alloc ptr)
      | .panics => (.error, { s with poisoned := true })
  | .destroy ptr =>
    match s.free ptr with
    | some s => (.ok, s)
    | none => (.error, s)
  | .use ptr => if s.get ptr then (.accepted, s) else (.error, s)
  | .count => (.number s.pointers.card, s)

/-- A sequence of calls. -/
def run : State → List Call → List Answer × State
  | s, [] => ([], s)
  | s, c :: cs => ((step s c).1 :: (run (step s c).2 cs).1, (run (step s c).2 cs).2)

/-- The allocator returns memory that is not in use. -/
def Honest : State → List Call → Prop
  | _, [] => True
  | s, c :: cs => (∀ ptr, c = .create (.builds ptr) → ptr ∉ s.boxes) ∧ Honest (step s c).2 cs

/-- The state after a sequence of calls. -/
abbrev after (cs : List Call) : State := (run .start cs).2

/-- What a further call answers. -/
abbrev answer (cs : List Call) (c : Call) : Answer := (step (after cs) c).1

/-! ## Spec -/

/-- The `i`-th call created the runtime `ptr`. -/
def CreatedAt (cs : List Call) (i ptr : Nat) : Prop := (run .start cs).1[i]? = some (.created ptr)

/-- The runtime was created and no later call asked for its destruction. -/
def Live (cs : List Call) (ptr : Nat) : Prop :=
  ∃ i, CreatedAt cs i ptr ∧ ∀ j, i < j → cs[j]? ≠ some (.destroy ptr)

/-- The number of calls that created a runtime. -/
def numCreated (cs : List Call) : Nat :=
  ((run .start cs).1.filter fun | .created _ => true | _ => false).length

/-- The number of calls that destroyed a runtime. -/
def numDestroyed (cs : List Call) : Nat :=
  ((cs.zip (run .start cs).1).filter fun
    | (.destroy _, .ok) => true
    | _ => false).length

/-- C79 in full: after `svm_init`, creating a runtime succeeds unless this very creation panics, and
`svm_init` can always be called. -/
def C79_claim : Prop :=
  ∀ cs : List Call, Honest .start cs → (answer cs .init = .ok) ∧
    (.init ∈ cs → ∀ ptr, ptr ∉ (after cs).boxes → answer cs (.create (.builds ptr)) = .created ptr)

/-- C80 in full: destroying a runtime frees its memory. -/
def C80_claim : Prop :=
  ∀ (cs : List Call) (ptr : Nat), Honest .start cs → answer cs (.destroy ptr) = .ok →
    ptr ∉ (after (cs ++ [.destroy ptr])).boxes

/-! ## Proofs -/

theorem run_append (s : State) (a b : List Call) :
    run s (a ++ b) = ((run s a).1 ++ (run (run s a).2 b).1, (run (run s a).2 b).2) := by
  induction a generalizing s with
  | nil => rfl
  | cons c cs ih =>
    show ((step s c).1 :: (run (step s c).2 (cs ++ b)).1, (run (step s c).2 (cs ++ b)).2) = _
    rw [ih]
    rfl

theorem run_length (s : State) (cs : List Call) : (run s cs).1.length = cs.length := by
  induction cs generalizing s with
  | nil => rfl
  | cons c cs ih => simp [run, ih]

theorem after_snoc (cs : List Call) (c : Call) : after (cs ++ [c]) = (step (after cs) c).2 := by
  rw [after, run_append]
  rfl

theorem honest_snoc {s : State} {cs : List Call} {c : Call} (h : Honest s (cs ++ [c])) :
    Honest s cs ∧ ∀ ptr, c = .create (.builds ptr) → ptr ∉ (run s cs).2.boxes := by
  induction cs generalizing s with
  | nil => exact ⟨trivial, h.1⟩
  | cons d ds ih => exact ⟨⟨h.1, (ih h.2).1⟩, (ih h.2).2⟩

theorem createdAt_snoc {cs : List Call} {c : Call} {i ptr : Nat} :
    CreatedAt (cs ++ [c]) i ptr ↔
      CreatedAt cs i ptr ∨ (i = cs.length ∧ answer cs c = .created ptr) := by
  unfold CreatedAt answer
  rw [run_append]
  rcases Nat.lt_trichotomy i cs.length with h | h | h
  · rw [List.getElem?_append_left (by rw [run_length]; exact h)]
    constructor
    · exact Or.inl
    · rintro (h1 | ⟨h1, _⟩)
      · exact h1
      · omega
  · subst h
    rw [List.getElem?_append_right (by rw [run_length]), run_length, Nat.sub_self]
    constructor
    · intro h
      exact Or.inr ⟨rfl, by simpa [run] using h⟩
    · rintro (h | ⟨_, h⟩)
      · rw [List.getElem?_eq_none (by rw [run_length])] at h
        cases h
      · simpa [run] using h
  · rw [List.getElem?_eq_none (by simp [run_length, run]; omega)]
    constructor
    · intro h; cases h
    · rintro (h1 | ⟨h1, _⟩)
      · rw [List.getElem?_eq_none (by rw [run_length]; omega)] at h1
        cases h1
      · omega

theorem createdAt_lt {cs : List Call} {i ptr : Nat} (h : CreatedAt cs i ptr) : i < cs.length := by
  rw [← run_length .start cs]
  exact (List.getElem?_eq_some_iff.1 h).1

theorem step_created {s : State} {c : Call} {ptr : Nat} (h : (step s c).1 = .created ptr) :
    c = .create (.builds ptr) ∧ (step s c).2 = s.alloc ptr := by
  cases c with
  | create a =>
    unfold step at h ⊢
    dsimp only at h ⊢
    split at h
    · cases h
    · split at h
      · cases h
      · cases a with
        | builds p =>
          cases h
          rename_i h1 h2
          rw [if_neg h1, if_neg h2]
          exact ⟨rfl, rfl⟩
        | panics => cases h
  | init => unfold step at h; dsimp only at h; split at h <;> cases h
  | destroy p => unfold step at h; dsimp only at h; split at h <;> cases h
  | use p => unfold step at h; dsimp only at h; split at h <;> cases h
  | count => cases h

/-- What a call does to the tracker. -/
theorem step_pointers (s : State) (c : Call) (ptr : Nat) :
    ptr ∈ (step s c).2.pointers ↔
      (step s c).1 = .created ptr ∨ (ptr ∈ s.pointers ∧ c ≠ .destroy ptr) := by
  cases c with
  | init => unfold step; dsimp only; split <;> simp
  | create a =>
    unfold step
    dsimp only
    split
    · simp
    · split
      · simp
      · cases a with
        | builds p => simp [State.alloc, eq_comm]
        | panics => simp
  | destroy p =>
    unfold step State.free
    dsimp only
    by_cases hp : p ∈ s.pointers
    · rw [if_pos hp]
      simp only [Finset.mem_erase, ne_eq, Call.destroy.injEq, reduceCtorEq, false_or]
      exact ⟨fun h => ⟨h.2, fun e => h.1 e.symm⟩, fun h => ⟨fun e => h.2 e.symm, h.1⟩⟩
    · rw [if_neg hp]
      simp only [reduceCtorEq, ne_eq, Call.destroy.injEq, false_or]
      exact ⟨fun h => ⟨h, fun e => hp (e ▸ h)⟩, fun h => h.1⟩
  | use p => unfold step; dsimp only; split <;> simp
  | count => simp [step]

theorem step_boxes (s : State) (c : Call) (ptr : Nat) :
    ptr ∈ (step s c).2.boxes ↔ (step s c).1 = .created ptr ∨ ptr ∈ s.boxes := by
  cases c with
  | init => unfold step; dsimp only; split <;> simp
  | create a =>
    unfold step
    dsimp only
    split
    · simp
    · split
      · simp
      · cases a with
        | builds p => simp [State.alloc, eq_comm]
        | panics => simp
  | destroy p =>
    unfold step State.free
    dsimp only
    by_cases hp : p ∈ s.pointers
    · rw [if_pos hp]; simp
    · rw [if_neg hp]; simp
  | use p => unfold step; dsimp only; split <;> simp
  | count => simp [step]

/-- Boxes in use are those of all runtimes ever created. -/
theorem boxes_created (cs : List Call) (ptr : Nat) :
    ptr ∈ (after cs).boxes ↔ ∃ i, CreatedAt cs i ptr := by
  induction cs using List.reverseRecOn with
  | nil => simp [after, run, State.start, CreatedAt]
  | append_singleton cs c ih =>
    rw [after_snoc, step_boxes, ih]
    constructor
    · rintro (h | ⟨i, h⟩)
      · exact ⟨cs.length, createdAt_snoc.2 (Or.inr ⟨rfl, h⟩)⟩
      · exact ⟨i, createdAt_snoc.2 (Or.inl h)⟩
    · rintro ⟨i, h⟩
      rcases createdAt_snoc.1 h with h | ⟨_, h⟩
      · exact Or.inr ⟨i, h⟩
      · exact Or.inl h

theorem live_snoc {cs : List Call} {c : Call} {ptr : Nat} :
    Live (cs ++ [c]) ptr ↔ answer cs c = .created ptr ∨ (Live cs ptr ∧ c ≠ .destroy ptr) := by
  constructor
  · rintro ⟨i, hi, hd⟩
    rcases createdAt_snoc.1 hi with h | ⟨_, h⟩
    · have hlt := createdAt_lt h
      refine Or.inr ⟨⟨i, h, fun j hj e => hd j hj ?_⟩, fun e => hd cs.length hlt ?_⟩
      · rw [List.getElem?_append_left (List.getElem?_eq_some_iff.1 e).1]
        exact e
      · simp [e]
    · exact Or.inl h
  · rintro (h | ⟨⟨i, hi, hd⟩, hc⟩)
    · refine ⟨cs.length, createdAt_snoc.2 (Or.inr ⟨rfl, h⟩), fun j hj e => ?_⟩
      rw [List.getElem?_eq_none (by simp; omega)] at e
      cases e
    · refine ⟨i, createdAt_snoc.2 (Or.inl hi), fun j hj e => ?_⟩
      rcases Nat.lt_trichotomy j cs.length with h | h | h
      · rw [List.getElem?_append_left h] at e
        exact hd j hj e
      · subst h
        simp at e
        exact hc e
      · rw [List.getElem?_eq_none (by simp; omega)] at e
        cases e

/-- The tracker holds the live runtimes. -/
theorem pointers_live (cs : List Call) (ptr : Nat) : ptr ∈ (after cs).pointers ↔ Live cs ptr := by
  induction cs using List.reverseRecOn with
  | nil => simp [after, run, State.start, Live, CreatedAt]
  | append_singleton cs c ih => rw [after_snoc, step_pointers, ih, live_snoc]

/-- **C65**, use: after any calls, a runtime pointer is accepted exactly when the runtime was created and
its destruction was not asked for since. -/
theorem C65_accepted (cs : List Call) (ptr : Nat) :
    (answer cs (.use ptr) = .accepted ↔ Live cs ptr) ∧
      (answer cs (.use ptr) = .error ↔ ¬ Live cs ptr) ∧ after (cs ++ [.use ptr]) = after cs := by
  rw [← pointers_live, after_snoc]
  unfold answer step State.get
  by_cases h : ptr ∈ (after cs).pointers
  · simp [h]
  · simp [h]

/-- **C65**, destruction: it succeeds exactly for live runtimes; otherwise it is an error and changes
nothing. -/
theorem C65_destroy (cs : List Call) (ptr : Nat) :
    (answer cs (.destroy ptr) = .ok ↔ Live cs ptr) ∧
      (¬ Live cs ptr → answer cs (.destroy ptr) = .error ∧ after (cs ++ [.destroy ptr]) = after cs) := by
  rw [← pointers_live, after_snoc]
  unfold answer step State.free
  by_cases h : ptr ∈ (after cs).pointers
  · simp [h]
  · simp [h]

/-- **C65**, no resurrection: when the allocator is honest, every runtime is created once, so a destroyed
one is never accepted again. -/
theorem C65_once {cs : List Call} (hh : Honest .start cs) {i j ptr : Nat} (hi : CreatedAt cs i ptr)
    (hj : CreatedAt cs j ptr) : i = j := by
  induction cs using List.reverseRecOn with
  | nil => simp [CreatedAt, run] at hi
  | append_singleton cs c ih =>
    obtain ⟨hh, hc⟩ := honest_snoc hh
    have key : ∀ k, CreatedAt cs k ptr → answer cs c = .created ptr → False := by
      intro k hk ha
      exact hc ptr (step_created ha).1 ((boxes_created cs ptr).2 ⟨k, hk⟩)
    rcases createdAt_snoc.1 hi with h1 | ⟨h1, h1'⟩ <;> rcases createdAt_snoc.1 hj with h2 | ⟨h2, h2'⟩
    · exact ih hh h1 h2
    · exact (key _ h1 h2').elim
    · exact (key _ h2 h1').elim
    · rw [h1, h2]

theorem pointers_subset (cs : List Call) {ptr : Nat} (h : ptr ∈ (after cs).pointers) :
    ptr ∈ (after cs).boxes := by
  obtain ⟨i, hi, _⟩ := (pointers_live cs ptr).1 h
  exact (boxes_created cs ptr).2 ⟨i, hi⟩

/-- **C65**, counting: the number of runtimes is the number created minus the number destroyed. -/
theorem C65_count {cs : List Call} (hh : Honest .start cs) :
    answer cs .count = .number (numCreated cs - numDestroyed cs) ∧ numDestroyed cs ≤ numCreated cs := by
  suffices h : (after cs).pointers.card + numDestroyed cs = numCreated cs by
    refine ⟨?_, by omega⟩
    show Answer.number (after cs).pointers.card = _
    rw [← h, Nat.add_sub_cancel]
  induction cs using List.reverseRecOn with
  | nil => rfl
  | append_singleton cs c ih =>
    obtain ⟨hh, hc⟩ := honest_snoc hh
    have ih := ih hh
    have e1 : numCreated (cs ++ [c]) = numCreated cs +
        ([answer cs c].filter fun | .created _ => true | _ => false).length := by
      unfold numCreated
      rw [run_append, List.filter_append, List.length_append]
      rfl
    have e2 : numDestroyed (cs ++ [c]) = numDestroyed cs +
        ([(c, answer cs c)].filter fun | (.destroy _, .ok) => true | _ => false).length := by
      unfold numDestroyed
      rw [run_append, List.zip_append (by rw [run_length]), List.filter_append, List.length_append]
      rfl
    rw [e1, e2, after_snoc]
    cases c with
    | init => unfold answer step; dsimp only; split <;> simpa using ih
    | create a =>
      unfold answer step
      dsimp only
      split
      · simpa using ih
      · split
        · simpa using ih
        · cases a with
          | builds p =>
            have hn : p ∉ (after cs).pointers := fun h => hc p rfl (pointers_subset cs h)
            simp [State.alloc, Finset.card_insert_of_notMem hn]
            omega
          | panics => simpa using ih
    | destroy p =>
      unfold answer step State.free
      dsimp only
      by_cases hp : p ∈ (after cs).pointers
      · rw [if_pos hp]
        have := Finset.card_pos.2 ⟨p, hp⟩
        simp [Finset.card_erase_of_mem hp]
        omega
      · rw [if_neg hp]
        simpa using ih
    | use p => unfold answer step; dsimp only; split <;> simpa using ih
    | count => simpa [answer, step] using ih

/-- **C80**: memory is never freed. After any calls, the boxes in use are as many as runtimes were ever
created. -/
theorem C80_leaks {cs : List Call} (hh : Honest .start cs) : (after cs).boxes.card = numCreated cs := by
  induction cs using List.reverseRecOn with
  | nil => rfl
  | append_singleton cs c ih =>
    obtain ⟨hh, hc⟩ := honest_snoc hh
    have ih := ih hh
    have e1 : numCreated (cs ++ [c]) = numCreated cs +
        ([answer cs c].filter fun | .created _ => true | _ => false).length := by
      unfold numCreated
      rw [run_append, List.filter_append, List.length_append]
      rfl
    rw [e1, after_snoc]
    cases c with
    | init => unfold answer step; dsimp only; split <;> simpa using ih
    | create a =>
      unfold answer step
      dsimp only
      split
      · simpa using ih
      · split
        · simpa using ih
        · cases a with
          | builds p =>
            have hn : p ∉ (after cs).boxes := hc p rfl
            simp [State.alloc, Finset.card_insert_of_notMem hn]
            omega
          | panics => simpa using ih
    | destroy p =>
      unfold answer step State.free
      dsimp only
      by_cases hp : p ∈ (after cs).pointers
      · rw [if_pos hp]; simpa using ih
      · rw [if_neg hp]; simpa using ih
    | use p => unfold answer step; dsimp only; split <;> simpa using ih
    | count => simpa [answer, step] using ih

/-- C80 is violated. -/
theorem C80_claim_false : ¬ C80_claim := by
  intro h
  have := h [.init, .create (.builds 8)] 8
    ⟨by simp, ⟨fun ptr _ => by simp [step, State.start], trivial⟩⟩ (by decide)
  exact this (by decide)

/-- A creation of the calls panicked. -/
def Failed (cs : List Call) : Prop := ∃ pre post, cs = pre ++ .create .panics :: post ∧ .init ∈ pre

theorem step_poisoned {s : State} (h : s.poisoned = true) (c : Call) : (step s c).2.poisoned = true := by
  cases c with
  | init => unfold step; dsimp only; rw [if_pos h]; exact h
  | create a => unfold step; dsimp only; rw [if_pos h]; exact h
  | destroy p =>
    unfold step State.free
    dsimp only
    by_cases hp : p ∈ s.pointers
    · rw [if_pos hp]; exact h
    · rw [if_neg hp]; exact h
  | use p => unfold step; dsimp only; split <;> exact h
  | count => exact h

theorem run_poisoned {s : State} (h : s.poisoned = true) (cs : List Call) :
    (run s cs).2.poisoned = true := by
  induction cs generalizing s with
  | nil => exact h
  | cons c cs ih => exact ih (step_poisoned h c)

/-- What `svm_init` leaves behind. -/
theorem initialized_iff (cs : List Call) :
    (after cs).poisoned = true ∨ ((after cs).initialized = true ↔ .init ∈ cs) := by
  induction cs using List.reverseRecOn with
  | nil => simp [after, run, State.start]
  | append_singleton cs c ih =>
    rw [after_snoc]
    rcases ih with h | ih
    · exact Or.inl (step_poisoned h c)
    · by_cases hp : (after cs).poisoned = true
      · exact Or.inl (step_poisoned hp c)
      · right
        cases c with
        | init => simp [step, hp]
        | create a =>
          unfold step
          dsimp only
          rw [if_neg hp]
          split
          · simpa using ih
          · cases a <;> simpa [State.alloc] using ih
        | destroy p =>
          unfold step State.free
          dsimp only
          by_cases hp : p ∈ (after cs).pointers
          · rw [if_pos hp]; simpa using ih
          · rw [if_neg hp]; simpa using ih
        | use p => unfold step; dsimp only; split <;> simpa using ih
        | count => simpa [step] using ih

/-- The mutex is poisoned exactly after a panic. -/
theorem poisoned_iff (cs : List Call) : (after cs).poisoned = true ↔ Failed cs := by
  induction cs using List.reverseRecOn with
  | nil =>
    constructor
    · intro h; cases h
    · rintro ⟨pre, post, h, _⟩
      simp at h
  | append_singleton cs c ih =>
    constructor
    · intro h
      by_cases hp : (after cs).poisoned = true
      · obtain ⟨pre, post, rfl, hi⟩ := ih.1 hp
        exact ⟨pre, post ++ [c], by simp, hi⟩
      · rw [after_snoc] at h
        have hi := (initialized_iff cs).resolve_left hp
        cases c with
        | create a =>
          unfold step at h
          dsimp only at h
          rw [if_neg hp] at h
          split at h
          · exact (hp h).elim
          · rename_i hin
            cases a with
            | builds p => exact (hp h).elim
            | panics => exact ⟨cs, [], rfl, hi.1 (by simpa using hin)⟩
        | init => simp [step, hp] at h
        | destroy p =>
          unfold step State.free at h
          dsimp only at h
          by_cases hq : p ∈ (after cs).pointers
          · rw [if_pos hq] at h; exact (hp h).elim
          · rw [if_neg hq] at h; exact (hp h).elim
        | use p => unfold step at h; dsimp only at h; split at h <;> exact (hp h).elim
        | count => exact (hp h).elim
    · rintro ⟨pre, post, h, hi⟩
      rcases List.eq_nil_or_concat post with rfl | ⟨post', d, rfl⟩
      · obtain ⟨rfl, h2⟩ := List.append_inj' h rfl
        cases h2
        rw [after_snoc]
        by_cases hp : (after cs).poisoned = true
        · exact step_poisoned hp _
        · have := ((initialized_iff cs).resolve_left hp).2 hi
          simp [step, hp, this]
      · rw [List.concat_eq_append, ← List.cons_append, ← List.append_assoc] at h
        obtain ⟨rfl, h2⟩ := List.append_inj' h rfl
        rw [after_snoc]
        exact step_poisoned (ih.2 ⟨pre, post', rfl, hi⟩) c

/-- **C79**, universal violation: once a creation failed, for instance because of a path that is no UTF-8,
no runtime can be created any more, and `svm_init` panics, which leaves the library. -/
theorem C79_disabled {cs : List Call} (h : Failed cs) :
    answer cs .init = .unwinds ∧ ∀ a, answer cs (.create a) = .error := by
  have hp := (poisoned_iff cs).2 h
  unfold answer step
  simp [hp]

/-- **C79**, partial: as long as no creation failed, `svm_init` and creations succeed. Missing: after a
failure. -/
theorem C79_creates_partial {cs : List Call} (h : ¬ Failed cs) :
    answer cs .init = .ok ∧
      (.init ∈ cs → ∀ ptr, answer cs (.create (.builds ptr)) = .created ptr) ∧
      (.init ∉ cs → ∀ a, answer cs (.create a) = .error) := by
  have hp : ¬ (after cs).poisoned = true := fun e => h ((poisoned_iff cs).1 e)
  have hi := (initialized_iff cs).resolve_left hp
  unfold answer step
  refine ⟨by simp [hp], fun hc ptr => ?_, fun hc a => ?_⟩
  · have := hi.2 hc
    simp [hp, this]
  · have : (after cs).initialized = false := by
      cases e : (after cs).initialized
      · rfl
      · exact (hc (hi.1 e)).elim
    simp [hp, this]

/-- C79 is violated. -/
theorem C79_claim_false : ¬ C79_claim := by
  intro h
  have := (h [.init, .create .panics] ⟨by simp, ⟨by simp, trivial⟩⟩).1
  exact absurd this (by decide)

/-! Non-vacuity. -/

theorem demo_honest : Honest .start [.init, .create (.builds 8), .create (.builds 24), .destroy 8,
    .destroy 8, .use 8, .use 24, .count] := by
  simp [Honest, step, State.start, State.alloc, State.free, State.get]

example : (run .start [.init, .create (.builds 8), .create (.builds 24), .destroy 8, .destroy 8, .use 8,
    .use 24, .count]).1 =
    [.ok, .created 8, .created 24, .ok, .error, .error, .accepted, .number 1] := by decide

example : (run .start [.create (.builds 8), .init, .create .panics, .create (.builds 8), .init, .count]).1 =
    [.error, .ok, .error, .error, .unwinds, .number 0] := by decide

end Svm.Ffi
