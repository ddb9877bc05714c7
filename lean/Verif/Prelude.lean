/-!
# Shared vocabulary of the model

`Outcome` is the result of a Rust function that may return an error or panic.
`AMap` is the model of `std::collections::HashMap` / `indexmap::IndexMap`: an association list.
-/

namespace Svm

/-- Bytes (`Vec<u8>`, `&[u8]`). -/
abbrev Bytes := List UInt8

/-- Result of a Rust function: a value, an `Err`, or a panic (`assert!`, `unwrap`, `unreachable!`,
arithmetic overflow in a checked position, slice index out of range). -/
inductive Outcome (ε α : Type _) where
  | ok (a : α)
  | err (e : ε)
  | panic
  deriving Repr, DecidableEq

namespace Outcome

variable {ε α β : Type _}

/-- The `?` operator. -/
@[inline] def bind (x : Outcome ε α) (f : α → Outcome ε β) : Outcome ε β :=
  match x with
  | ok a => f a
  | err e => err e
  | panic => panic

instance : Monad (Outcome ε) where
  pure := ok
  bind := bind

@[simp] theorem pure_eq (a : α) : (pure a : Outcome ε α) = ok a := rfl
@[simp] theorem ok_bind (a : α) (f : α → Outcome ε β) : (ok a >>= f) = f a := rfl
@[simp] theorem err_bind (e : ε) (f : α → Outcome ε β) : ((err e : Outcome ε α) >>= f) = err e := rfl
@[simp] theorem panic_bind (f : α → Outcome ε β) : ((panic : Outcome ε α) >>= f) = panic := rfl

/-- `Result::map`. -/
@[inline] def map (f : α → β) : Outcome ε α → Outcome ε β
  | ok a => ok (f a)
  | err e => err e
  | panic => panic

/-- The value, if the function returned `Ok`. -/
def toOption : Outcome ε α → Option α
  | ok a => some a
  | _ => none

/-- `Option::ok_or`. -/
def ofOption (e : ε) : Option α → Outcome ε α
  | some a => ok a
  | none => err e

/-- `unwrap`/`expect` on an `Option`. -/
def unwrapOpt : Option α → Outcome ε α
  | some a => ok a
  | none => panic

/-- `unwrap`/`expect` on a `Result`: the error becomes a panic. -/
def unwrapRes {ε' : Type _} : Outcome ε' α → Outcome ε α
  | ok a => ok a
  | _ => panic

/-- Whether the function returned normally with `Ok`. -/
def isOk : Outcome ε α → Bool
  | ok _ => true
  | _ => false

end Outcome

/-! ## Maps -/

/-- Model of `HashMap<K, V>`: an association list. The functions below keep the keys distinct. -/
abbrev AMap (K V : Type _) := List (K × V)

namespace AMap

variable {K V : Type _} [DecidableEq K]

/-- `HashMap::get`. -/
def get (m : AMap K V) (k : K) : Option V :=
  match m with
  | [] => none
  | (k', v) :: t => if k' = k then some v else AMap.get t k

/-- `HashMap::insert`: replaces the value of an existing key. -/
def insert (m : AMap K V) (k : K) (v : V) : AMap K V :=
  (k, v) :: m.filter (fun p => p.1 ≠ k)

/-- The keys, in list order. -/
def keys (m : AMap K V) : List K := m.map (·.1)

/-- Insert all pairs of `l`, first to last. -/
def insertAll (m : AMap K V) (l : List (K × V)) : AMap K V :=
  l.foldl (fun m p => m.insert p.1 p.2) m

@[simp] theorem get_nil (k : K) : AMap.get ([] : AMap K V) k = none := rfl

@[simp] theorem get_cons (p : K × V) (m : AMap K V) (k : K) :
    AMap.get (p :: m) k = if p.1 = k then some p.2 else AMap.get m k := rfl

theorem get_filter_ne (m : AMap K V) (k k' : K) (h : k ≠ k') :
    AMap.get (m.filter (fun p => p.1 ≠ k)) k' = AMap.get m k' := by
  induction m with
  | nil => rfl
  | cons p m ih =>
    by_cases hp : p.1 = k
    · have hne : p.1 ≠ k' := fun h' => h (hp ▸ h')
      simp only [List.filter_cons, hp, ne_eq, not_true, decide_false, Bool.false_eq_true, if_false,
        get_cons]
      rw [if_neg h]
      exact ih
    · simp only [List.filter_cons, hp, ne_eq, not_false_eq_true, decide_true, if_true, get_cons]
      split
      · rfl
      · exact ih

theorem get_insert (m : AMap K V) (k : K) (v : V) (k' : K) :
    (m.insert k v).get k' = if k = k' then some v else m.get k' := by
  unfold insert
  rw [get_cons]
  split
  · rfl
  · rename_i h
    exact get_filter_ne m k k' h

@[simp] theorem get_insert_self (m : AMap K V) (k : K) (v : V) :
    (m.insert k v).get k = some v := by
  simp [get_insert]

theorem get_insert_ne (m : AMap K V) {k k' : K} (v : V) (h : k ≠ k') :
    (m.insert k v).get k' = m.get k' := by
  simp [get_insert, h]

theorem nodup_insert {m : AMap K V} (h : m.keys.Nodup) (k : K) (v : V) :
    (m.insert k v).keys.Nodup := by
  unfold insert keys
  simp only [List.map_cons, List.nodup_cons, List.mem_map, List.mem_filter, ne_eq,
    decide_not, Bool.not_eq_eq_eq_not, Bool.not_true, decide_eq_false_iff_not]
  refine ⟨?_, ?_⟩
  · rintro ⟨p, ⟨_, hne⟩, he⟩
    exact hne he
  · have hs : (m.filter (fun p => !decide (p.1 = k))).Sublist m := List.filter_sublist
    exact (hs.map _).nodup h

theorem get_eq_none_iff {m : AMap K V} {k : K} : m.get k = none ↔ k ∉ m.keys := by
  induction m with
  | nil => simp [keys]
  | cons p m ih =>
    simp only [get_cons, keys, List.map_cons, List.mem_cons, not_or]
    by_cases h : p.1 = k
    · simp [h]
    · simp only [h, if_false]
      rw [ih]
      constructor
      · intro h'; exact ⟨fun e => h e.symm, h'⟩
      · intro h'; exact h'.2

theorem mem_of_get {m : AMap K V} {k : K} {v : V} (h : m.get k = some v) : (k, v) ∈ m := by
  induction m with
  | nil => simp at h
  | cons p m ih =>
    simp only [get_cons] at h
    split at h
    · rename_i hk
      cases h; subst hk; exact List.mem_cons_self
    · exact List.mem_cons_of_mem _ (ih h)

theorem get_of_mem {m : AMap K V} (hn : m.keys.Nodup) {k : K} {v : V} (h : (k, v) ∈ m) :
    m.get k = some v := by
  induction m with
  | nil => simp at h
  | cons p m ih =>
    simp only [keys, List.map_cons, List.nodup_cons] at hn
    simp only [get_cons]
    rcases List.mem_cons.1 h with h | h
    · subst h; simp
    · have : p.1 ≠ k := by
        intro e; apply hn.1; subst e
        exact List.mem_map.2 ⟨_, h, rfl⟩
      simp only [this, if_false]
      exact ih hn.2 h

/-- With distinct keys, lookups do not depend on the iteration order. -/
theorem get_perm {m m' : AMap K V} (hn : m.keys.Nodup) (hp : m.Perm m') (k : K) :
    m.get k = m'.get k := by
  have hn' : m'.keys.Nodup := (hp.map Prod.fst).nodup_iff.1 hn
  cases h : m.get k with
  | some v => exact (get_of_mem hn' (hp.mem_iff.1 (mem_of_get h))).symm
  | none =>
    cases h' : m'.get k with
    | none => rfl
    | some v =>
      have := get_of_mem hn (hp.mem_iff.2 (mem_of_get h'))
      rw [h] at this; cases this

theorem nodup_insertAll {m : AMap K V} (h : m.keys.Nodup) (l : List (K × V)) :
    (m.insertAll l).keys.Nodup := by
  unfold insertAll
  induction l generalizing m with
  | nil => exact h
  | cons p l ih => exact ih (nodup_insert h _ _)

/-- Inserting a list with distinct keys: the list takes precedence. -/
theorem get_insertAll (m : AMap K V) {l : List (K × V)} (hl : AMap.keys l |>.Nodup) (k : K) :
    (m.insertAll l).get k = (AMap.get l k).or (m.get k) := by
  unfold insertAll
  induction l generalizing m with
  | nil => simp
  | cons p l ih =>
    have hl' : (AMap.keys l).Nodup := by
      simp only [keys, List.map_cons, List.nodup_cons] at hl; exact hl.2
    simp only [List.foldl_cons]
    rw [ih (m.insert p.1 p.2) hl', get_cons, get_insert]
    by_cases hk : p.1 = k
    · have hnone : AMap.get l k = none := by
        rw [get_eq_none_iff]
        simp only [keys, List.map_cons, List.nodup_cons] at hl
        exact hk ▸ hl.1
      simp [hk, hnone]
    · simp [hk]

end AMap

/-- An iteration order of a hash map: `HashMap` iteration visits the entries in an unspecified
order, so the model takes the order as a parameter that is any permutation. -/
structure Order (α : Type _) where
  /-- The list of entries in the order they are visited. -/
  run : List α → List α
  /-- Every entry is visited exactly once. -/
  perm : ∀ l, (run l).Perm l

/-- The identity order. -/
def Order.id {α : Type _} : Order α := ⟨fun l => l, fun l => List.Perm.refl l⟩

/-- The reversed order. -/
def Order.rev {α : Type _} : Order α := ⟨List.reverse, fun l => List.reverse_perm l⟩

end Svm
