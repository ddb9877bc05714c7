import Verif.Storage.Lemmas
import Mathlib.Algebra.Order.BigOperators.Group.List
import Mathlib.Data.List.Nodup
import Mathlib.Data.List.Perm.Subperm
import Mathlib.Tactic.Ring

/-!
# How much the database holds and how much a read looks at (C149, C150), crates/host/state/src/storage.rs
-/

namespace Svm.Storage.Growth

/-! ## Spec -/

/-- What the writes of a history weigh: 1 for each write, or its number of bytes, or any other measure. -/
def spent (w : State × Bytes → Nat) : List Op → Nat
  | [] => 0
  | .upsert k v :: ops => w (k, v) + spent w ops
  | _ :: ops => spent w ops

/-- The number of commits of a history. -/
def commits : List Op → Nat
  | [] => 0
  | .commit _ :: ops => 1 + commits ops
  | _ :: ops => commits ops

/-- What a list of keys and values weighs. -/
def weight (w : State × Bytes → Nat) (l : List (State × Bytes)) : Nat := (l.map w).sum

/-- The keys and values in the table `values`. -/
def rows (db : Db) : List (State × Bytes) := db.values.map fun v => (v.keyHash, v.value)

/-- The versions of a key in the table `values`. -/
def versions (db : Db) (k : State) : List ValueRow := db.values.filter fun v => decide (v.keyHash = k)

/-- The complete layers. -/
def completeLayers (db : Db) : List LayerRow := db.layers.filter fun r => r.complete

/-- `"values" INNER JOIN "layers" ON` a condition: the pairs of rows that satisfy it. Simplification: the rows of
the join by the semantics of SQL; how SQLite finds them is not modelled. -/
def join (db : Db) (on : ValueRow → LayerRow → Bool) : List (ValueRow × LayerRow) :=
  db.values.flatMap fun v => (db.layers.filter (on v)).map fun r => (v, r)

/-- The join of `get_by_hash`, storage.rs:178-187. -/
def currentJoin (db : Db) (k : State) : List (ValueRow × LayerRow) :=
  join db fun v r => r.complete && decide (v.keyHash = k)

/-- The join of `get_by_hash_historical`, storage.rs:198-211. -/
def historicalJoin (db : Db) (k : State) (layer : Int) : List (ValueRow × LayerRow) :=
  join db fun v r => decide (v.layerId ≤ layer) && (r.complete && decide (v.keyHash = k))

/-- **C150**, the claim: a read looks at each version of its key at most once. -/
def C150_claim : Prop := ∀ (h : Hasher) (ops : List Op) (k : State), RewindsFrom (-2) ops →
  (currentJoin (run h fresh ops).1.db k).length ≤ (versions (run h fresh ops).1.db k).length

/-- The same key written in each of `n` layers. -/
def overwrites (k : State) (v : Bytes) : Nat → List Op
  | 0 => []
  | n + 1 => overwrites k v n ++ [.upsert k v, .checkpoint .id, .commit .id]

/-! ## C149: what is stored -/

theorem weight_cons (w : State × Bytes → Nat) (p : State × Bytes) (l : List (State × Bytes)) :
    weight w (p :: l) = w p + weight w l := by simp [weight]

theorem weight_append (w : State × Bytes → Nat) (a b : List (State × Bytes)) :
    weight w (a ++ b) = weight w a + weight w b := by simp [weight]

theorem weight_sublist (w : State × Bytes → Nat) {a b : List (State × Bytes)} (h : a.Sublist b) :
    weight w a ≤ weight w b := by
  unfold weight
  induction h with
  | slnil => exact Nat.le_refl _
  | cons p _ ih => simp only [List.map_cons, List.sum_cons]; omega
  | cons_cons p _ ih => simp only [List.map_cons, List.sum_cons]; omega

theorem weight_perm (w : State × Bytes → Nat) {a b : List (State × Bytes)} (h : a.Perm b) :
    weight w a = weight w b := (h.map w).sum_eq

theorem weight_insert (w : State × Bytes → Nat) (m : Changes) (k : State) (v : Bytes) :
    weight w (m.insert k v) ≤ w (k, v) + weight w m := by
  unfold AMap.insert
  rw [weight_cons]
  exact Nat.add_le_add_left (weight_sublist w List.filter_sublist) _

theorem weight_insertAll (w : State × Bytes → Nat) : ∀ (l : List (State × Bytes)) (m : Changes),
    weight w (m.insertAll l) ≤ weight w l + weight w m
  | [], m => by simp [AMap.insertAll, weight]
  | p :: l, m => by
    have h1 := weight_insertAll w l (m.insert p.1 p.2)
    have h2 := weight_insert w m p.1 p.2
    rw [weight_cons]
    have e : (m.insertAll (p :: l)) = (m.insert p.1 p.2).insertAll l := rfl
    rw [e]
    have e2 : w p = w (p.1, p.2) := rfl
    omega

/-- What the storage holds, in the database and in memory. -/
def stored (w : State × Bytes → Nat) (s : Storage) : Nat :=
  weight w (rows s.db) + weight w s.next.changes + weight w s.dirty

theorem rows_committed (db : Db) (layer : Int) (fp : State) (l : List (State × Bytes)) :
    rows (committedDb db layer fp l) = rows db ++ l := by
  unfold rows committedDb
  rw [List.map_append, List.map_map]
  congr 1
  exact List.map_id'' (fun _ => rfl) l

theorem stored_step (hh : Hasher) (w : State × Bytes → Nat) {s : Storage} (h : Inv s) (op : Op) :
    stored w (step hh s op).1 ≤ stored w s + spent w [op] := by
  cases op with
  | upsert k v =>
    have := weight_insert w s.dirty k v
    show weight w (rows s.db) + weight w s.next.changes + weight w (s.dirty.insert k v) ≤
      weight w (rows s.db) + weight w s.next.changes + weight w s.dirty + (w (k, v) + 0)
    omega
  | checkpoint ord =>
    simp only [step, checkpoint_eq]
    have h1 := weight_insertAll w (ord.run s.dirty) s.next.changes
    have h2 := weight_perm w (ord.perm s.dirty)
    show weight w (rows s.db) + weight w (s.next.changes.insertAll (ord.run s.dirty)) + 0 ≤
      weight w (rows s.db) + weight w s.next.changes + weight w s.dirty + 0
    omega
  | commit ord =>
    simp only [step]
    by_cases hd : s.dirty = []
    · obtain ⟨prev, _, he⟩ := commit_ok h hd ord
      rw [he]
      unfold stored
      dsimp only
      rw [rows_committed, weight_append, weight_perm w (ord.perm _)]
      show weight w (rows s.db) + weight w s.next.changes + 0 + 0 ≤ _
      omega
    · rw [commit_dirty hd]; exact Nat.le_add_right _ _
  | rollback =>
    show weight w (rows s.db) + weight w s.next.changes + 0 ≤ _
    unfold stored
    omega
  | rewind l =>
    simp only [step]
    by_cases hl : l < s.next.id
    · by_cases hd : s.dirty = []
      · rw [rewind_ok h hd hl]
        unfold stored
        dsimp only
        have : weight w (rows { layers := s.db.layers.filter fun r => decide (r.id ≤ l)
                                values := s.db.values.filter fun v => decide (v.layerId ≤ l) }) ≤
            weight w (rows s.db) := weight_sublist w (List.filter_sublist.map _)
        show _ + 0 + 0 ≤ _
        omega
      · have : rewind s l = (s, .err .dirtyChanges) := by
          unfold rewind
          cases hd' : s.dirty with
          | nil => exact absurd hd' hd
          | cons a b => simp [hl]
        rw [this]; exact Nat.le_add_right _ _
    · have : rewind s l = (s, .panic) := by
        unfold rewind; simp [hl]
      rw [this]; exact Nat.le_add_right _ _
  | get k l => exact Nat.le_add_right _ _
  | lastLayer => exact Nat.le_add_right _ _
  | hasUncommitted => exact Nat.le_add_right _ _

theorem spent_cons (w : State × Bytes → Nat) (op : Op) (ops : List Op) :
    spent w (op :: ops) = spent w [op] + spent w ops := by
  cases op <;> simp [spent]

theorem stored_run (hh : Hasher) (w : State × Bytes → Nat) : ∀ (ops : List Op) {s : Storage}, Inv s →
    RewindsFrom (-2) ops → stored w (run hh s ops).1 ≤ stored w s + spent w ops
  | [], s, _, _ => Nat.le_add_right _ _
  | op :: ops, s, h, hops => by
    have h1 := stored_step hh w h op
    have h2 := stored_run hh w ops (inv_step hh h op (hops op List.mem_cons_self))
      (fun o ho => hops o (List.mem_cons_of_mem _ ho))
    rw [spent_cons]
    show stored w (run hh (step hh s op).1 ops).1 ≤ _
    omega

/-- **C149.** The rows of the database and the pending changes together weigh at most what was written, by any
measure: there are at most as many rows as writes, and they have at most as many bytes. -/
theorem C149_rows (h : Hasher) (w : State × Bytes → Nat) (ops : List Op) (hops : RewindsFrom (-2) ops) :
    weight w (rows (run h fresh ops).1.db) + weight w (run h fresh ops).1.next.changes +
      weight w (run h fresh ops).1.dirty ≤ spent w ops := by
  have := stored_run h w ops inv_fresh hops
  have e : stored w fresh = 0 := rfl
  rw [e, Nat.zero_add] at this
  exact this

theorem layers_length {s : Storage} (h : Inv s) : s.db.layers.length = (s.next.id + 2).toNat := by
  have := congrArg List.length h.ids
  simpa using this

theorem next_step (hh : Hasher) {s : Storage} (h : Inv s) (op : Op) :
    (step hh s op).1.next.id ≤ s.next.id + commits [op] := by
  have hz : s.next.id ≤ s.next.id + ((0 : Nat) : Int) := by simp
  cases op with
  | upsert k v => exact hz
  | checkpoint ord =>
    simp only [step, checkpoint_eq]
    exact hz
  | commit ord =>
    simp only [step]
    by_cases hd : s.dirty = []
    · obtain ⟨prev, _, he⟩ := commit_ok h hd ord
      rw [he]
      exact Int.le_refl (s.next.id + 1)
    · rw [commit_dirty hd]
      simp [commits]
  | rollback => exact hz
  | rewind l =>
    simp only [step]
    unfold rewind
    by_cases hl : l < s.next.id
    · rw [if_pos hl]
      split
      · exact hz
      · cases (Stmt.deleteLayersAbove l).exec s.db with
        | none => exact hz
        | some db => show l + 1 ≤ s.next.id + 0; omega
    · rw [if_neg hl]
      exact hz
  | get k l => exact hz
  | lastLayer => exact hz
  | hasUncommitted => exact hz

theorem commits_cons (op : Op) (ops : List Op) : commits (op :: ops) = commits [op] + commits ops := by
  cases op <;> simp [commits]

theorem next_run (hh : Hasher) : ∀ (ops : List Op) {s : Storage}, Inv s → RewindsFrom (-2) ops →
    (run hh s ops).1.next.id ≤ s.next.id + commits ops
  | [], s, _, _ => by simp [run, commits]
  | op :: ops, s, h, hops => by
    have h1 := next_step hh h op
    have h2 := next_run hh ops (inv_step hh h op (hops op List.mem_cons_self))
      (fun o ho => hops o (List.mem_cons_of_mem _ ho))
    rw [commits_cons]
    show (run hh (step hh s op).1 ops).1.next.id ≤ _
    push_cast
    omega

/-- **C149.** There is one layer for each commit that was not rewound, and the initial one. -/
theorem C149_layers (h : Hasher) (ops : List Op) (hops : RewindsFrom (-2) ops) :
    ((run h fresh ops).1.db.layers.length : Int) = (run h fresh ops).1.next.id + 2 ∧
    (run h fresh ops).1.db.layers.length ≤ 1 + commits ops := by
  have h1 := inv_run h inv_fresh ops hops
  have h2 := next_run h ops inv_fresh hops
  have h3 := layers_length h1
  have h4 := h1.next_gt
  have e : fresh.next.id = -1 := rfl
  rw [e] at h2
  constructor <;> omega

/-- **C149.** A commit without dirty changes adds one row for each key that was changed in the layer. -/
theorem C149_commit (h : Hasher) (ops : List Op) (hops : RewindsFrom (-2) ops) (ord : Ord)
    (hd : (run h fresh ops).1.dirty = []) :
    ∃ new, rows (commit ord (run h fresh ops).1).1.db = rows (run h fresh ops).1.db ++ new ∧
      new.Perm (run h fresh ops).1.next.changes ∧ (new.map (·.1)).Nodup := by
  have h1 := inv_run h inv_fresh ops hops
  obtain ⟨prev, _, he⟩ := commit_ok h1 hd ord
  refine ⟨_, by rw [he]; exact rows_committed _ _ _ _, ord.perm _, ?_⟩
  exact ((ord.perm _).map _).nodup_iff.2 h1.changes

/-! ## C150: what a read looks at -/

theorem join_length (db : Db) (p : ValueRow → Bool) :
    (join db fun v r => r.complete && p v).length = (db.values.filter p).length * (completeLayers db).length := by
  unfold join completeLayers
  induction db.values with
  | nil => simp
  | cons v vs ih =>
    rw [List.flatMap_cons, List.length_append, ih, List.length_map, List.filter_cons]
    by_cases hp : p v = true
    · simp only [hp, Bool.and_true, if_true, List.length_cons]
      ring
    · rw [Bool.not_eq_true] at hp
      simp [hp]

theorem selectMax_replicate (v : ValueRow) : ∀ n, selectMax (List.replicate (n + 1) v) = some v
  | 0 => rfl
  | n + 1 => by
    rw [List.replicate_succ]
    unfold selectMax
    rw [selectMax_replicate v n]
    simp

theorem selectMax_dup (n : Nat) : ∀ l : List ValueRow,
    selectMax (l.flatMap fun v => List.replicate (n + 1) v) = selectMax l
  | [] => rfl
  | v :: l => by
    have e : selectMax (v :: l) = selectMax ([v] ++ l) := rfl
    rw [List.flatMap_cons, e, selectMax_append, selectMax_append, selectMax_replicate, selectMax_dup n l]
    rfl

/-- **C150**, the join is what the query selects from. -/
theorem C150_selects (db : Db) (k : State) :
    (selectMax ((currentJoin db k).map (·.1))).map (·.value) = queryCurrent db k := by
  unfold queryCurrent currentJoin join
  congr 1
  cases hc : completeLayers db with
  | nil =>
    have h1 : ∀ r ∈ db.layers, r.complete = false := by
      intro r hr
      by_contra hn
      have : r ∈ completeLayers db := List.mem_filter.2 ⟨hr, by simpa using hn⟩
      rw [hc] at this
      cases this
    have h2 : ∀ v : ValueRow, (db.layers.filter fun r => r.complete && decide (v.keyHash = k)) = [] := by
      intro v
      rw [List.filter_eq_nil_iff]
      intro r hr
      simp [h1 r hr]
    have h3 : (db.layers.any fun r => r.complete) = false := by
      rw [List.any_eq_false]
      intro r hr
      simp [h1 r hr]
    have h4 : ∀ l : List ValueRow, (l.flatMap fun _ => ([] : List (ValueRow × LayerRow))) = [] := by
      intro l
      induction l with
      | nil => rfl
      | cons v l ih => rw [List.flatMap_cons, ih]; rfl
    simp only [h2, List.map_nil, h4, h3, Bool.and_false, List.filter_false]
  | cons r0 rs =>
    have h3 : (db.layers.any fun r => r.complete) = true := by
      have : r0 ∈ completeLayers db := by rw [hc]; exact List.mem_cons_self
      have := List.mem_filter.1 this
      exact List.any_eq_true.2 ⟨r0, this.1, this.2⟩
    rw [h3, ← selectMax_dup rs.length (db.values.filter _)]
    congr 1
    simp only [Bool.and_true]
    induction db.values with
    | nil => rfl
    | cons v vs ih =>
      rw [List.flatMap_cons, List.map_append, ih, List.filter_cons]
      by_cases hk : v.keyHash = k
      · simp only [hk, decide_true, Bool.and_true, if_true, List.flatMap_cons]
        congr 1
        have : (db.layers.filter fun r => r.complete) = r0 :: rs := hc
        rw [this, List.map_map]
        exact List.map_const' ..
      · simp [hk]

/-- **C150**, what happens instead: a read looks at each version of its key once for every complete layer. -/
theorem C150_product (h : Hasher) (ops : List Op) (hops : RewindsFrom (-2) ops) (k : State) :
    ((currentJoin (run h fresh ops).1.db k).length : Int) =
      (versions (run h fresh ops).1.db k).length * ((run h fresh ops).1.next.id + 2) := by
  have h1 := inv_run h inv_fresh ops hops
  have h2 := (C149_layers h ops hops).1
  have h3 : completeLayers (run h fresh ops).1.db = (run h fresh ops).1.db.layers := by
    unfold completeLayers
    rw [List.filter_eq_self]
    exact h1.complete
  unfold currentJoin versions
  rw [join_length, h3, ← h2]
  push_cast
  rfl

/-- **C150**, what happens instead: a read of the past looks at each version up to that layer once for every complete
layer, also for the layers after it. -/
theorem C150_historical (h : Hasher) (ops : List Op) (hops : RewindsFrom (-2) ops) (k : State) (l : Int) :
    ((historicalJoin (run h fresh ops).1.db k l).length : Int) =
      ((versions (run h fresh ops).1.db k).filter fun v => decide (v.layerId ≤ l)).length *
        ((run h fresh ops).1.next.id + 2) := by
  have h1 := inv_run h inv_fresh ops hops
  have h2 := (C149_layers h ops hops).1
  have h3 : completeLayers (run h fresh ops).1.db = (run h fresh ops).1.db.layers := by
    unfold completeLayers
    rw [List.filter_eq_self]
    exact h1.complete
  have e : historicalJoin (run h fresh ops).1.db k l = join (run h fresh ops).1.db fun v r =>
      r.complete && (decide (v.layerId ≤ l) && decide (v.keyHash = k)) := by
    unfold historicalJoin
    congr 1
    funext v r
    cases r.complete <;> simp
  unfold versions
  rw [e, join_length, h3, ← h2, List.filter_filter]
  push_cast
  rfl

/-- **C150**, partial: a key has at most one version in each layer, so the join has fewer rows than the square of the
number of layers. -/
theorem C150_bound_partial (h : Hasher) (ops : List Op) (hops : RewindsFrom (-2) ops) (k : State) :
    ((versions (run h fresh ops).1.db k).length : Int) ≤ (run h fresh ops).1.next.id + 1 := by
  have h1 := inv_run h inv_fresh ops hops
  have hn := h1.next_gt
  set s := (run h fresh ops).1
  have nd : ((versions s.db k).map (·.layerId)).Nodup := by
    have hs : (versions s.db k).Sublist s.db.values := List.filter_sublist
    have h2 : ((versions s.db k).map fun v => (v.keyHash, v.layerId)).Nodup := (hs.map _).nodup h1.rowsNodup
    have e : ((versions s.db k).map fun v => (v.keyHash, v.layerId)) =
        ((versions s.db k).map (·.layerId)).map fun l => (k, l) := by
      rw [List.map_map]
      apply List.map_congr_left
      intro v hv
      have := (List.mem_filter.1 hv).2
      simp only [decide_eq_true_eq] at this
      simp [this]
    rw [e] at h2
    exact h2.of_map _
  have sub : (versions s.db k).map (·.layerId) ⊆ (List.range (s.next.id + 1).toNat).map fun i : Nat => (i : Int) - 1 := by
    intro l hl
    obtain ⟨v, hv, rfl⟩ := List.mem_map.1 hl
    have := h1.vals v (List.mem_filter.1 hv).1
    exact List.mem_map.2 ⟨(v.layerId + 1).toNat, List.mem_range.2 (by omega), by omega⟩
  have := (List.subperm_of_subset nd sub).length_le
  simp only [List.length_map, List.length_range] at this
  omega

theorem overwrites_rewinds (k : State) (v : Bytes) : ∀ n, RewindsFrom (-2) (overwrites k v n)
  | 0 => fun op hop => by cases hop
  | n + 1 => fun op hop => by
    rcases List.mem_append.1 hop with hop | hop
    · exact overwrites_rewinds k v n op hop
    · simp only [List.mem_cons, List.not_mem_nil, or_false] at hop
      rcases hop with rfl | rfl | rfl <;> trivial

theorem overwrites_run (h : Hasher) (k : State) (v : Bytes) : ∀ n,
    (run h fresh (overwrites k v n)).1.dirty = [] ∧ (run h fresh (overwrites k v n)).1.next.changes = [] ∧
    (run h fresh (overwrites k v n)).1.next.id = (n : Int) - 1 ∧
    (versions (run h fresh (overwrites k v n)).1.db k).length = n
  | 0 => ⟨rfl, rfl, rfl, rfl⟩
  | n + 1 => by
    obtain ⟨i1, i2, i3, i4⟩ := overwrites_run h k v n
    have hi := inv_run h inv_fresh _ (overwrites_rewinds k v n)
    unfold overwrites
    rw [run_append]
    set s := (run h fresh (overwrites k v n)).1
    have e : (run h s [.upsert k v, .checkpoint .id, .commit .id]).1 =
        (commit .id (checkpoint h .id (upsertByHash s k v))).1 := rfl
    rw [e, checkpoint_eq]
    have e2 : ({ upsertByHash s k v with
        dirty := [],
        next := { (upsertByHash s k v).next with
          changes := (upsertByHash s k v).next.changes.insertAll (Order.id.run (upsertByHash s k v).dirty) } } : Storage) =
        { db := s.db, dirty := [], next := { s.next with changes := [(k, v)] } } := by
      unfold upsertByHash
      simp only [i1, i2]
      rfl
    rw [e2]
    have hi' : Inv { db := s.db, dirty := [], next := { s.next with changes := [(k, v)] } } :=
      ⟨hi.next_gt, hi.ids, hi.complete, hi.vals, hi.rowsNodup, by simp [AMap.keys], by simp [AMap.keys]⟩
    obtain ⟨prev, _, he⟩ := commit_ok hi' rfl .id
    rw [he]
    refine ⟨rfl, rfl, ?_, ?_⟩
    · show s.next.id + 1 = _
      push_cast
      omega
    · unfold versions committedDb
      dsimp only
      rw [List.filter_append, List.length_append]
      unfold versions at i4
      rw [i4]
      show n + (List.filter _ [(⟨k, v, s.next.id⟩ : ValueRow)]).length = n + 1
      simp

/-- **C150**, what happens instead: if a key is written in each of n layers, reading it looks at n (n + 1) rows. -/
theorem C150_square (h : Hasher) (k : State) (v : Bytes) (n : Nat) :
    (versions (run h fresh (overwrites k v n)).1.db k).length = n ∧
    (currentJoin (run h fresh (overwrites k v n)).1.db k).length = n * (n + 1) := by
  obtain ⟨-, -, h3, h4⟩ := overwrites_run h k v n
  have h5 := C150_product h _ (overwrites_rewinds k v n) k
  rw [h3, h4] at h5
  refine ⟨h4, ?_⟩
  have e : ((n : Int) - 1 + 2) = ((n + 1 : Nat) : Int) := by push_cast; ring
  rw [e] at h5
  exact_mod_cast h5

/-- The claim is false. -/
theorem C150_claim_false : ¬ C150_claim := by
  intro hc
  have h : Hasher := ⟨fun _ => 0⟩
  have h1 := hc h (overwrites 0 [] 1) 0 (overwrites_rewinds 0 [] 1)
  obtain ⟨h2, h3⟩ := C150_square h 0 [] 1
  rw [h2, h3] at h1
  omega

/-- Non-vacuity: two writes of one key in a layer give one row. -/
example : (rows (run ⟨fun _ => 0⟩ fresh [.upsert 1 [1], .upsert 1 [2], .upsert 2 [], .checkpoint .id, .commit .id]).1.db).length =
    2 ∧ spent (fun _ => 1) [.upsert 1 [1], .upsert 1 [2], .upsert 2 [], .checkpoint .id, .commit .id] = 3 := by
  decide +kernel

example : RewindsFrom (-2) [.upsert 1 [1], .checkpoint .id, .commit .id, .rewind 0] := by
  intro op hop
  simp only [List.mem_cons, List.not_mem_nil, or_false] at hop
  rcases hop with rfl | rfl | rfl | rfl <;> simp [Op.RewindsFrom]

example : (run ⟨fun _ => 0⟩ fresh [.upsert 1 [1], .checkpoint .id]).1.dirty = [] := rfl

end Svm.Storage.Growth
