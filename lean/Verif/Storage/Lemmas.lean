import Verif.Storage.Spec

/-! # Invariants of the storage model and the simulation -/

namespace Svm.Storage

/-! ## Reading the values table -/

/-- Rows of key `k` in layers up to `l`. -/
def rowsUpTo (vals : List ValueRow) (k : State) (l : Int) : List ValueRow :=
  vals.filter fun v => decide (v.layerId ≤ l) && decide (v.keyHash = k)

/-- The value of `k` in the newest row up to `l`. -/
def readUpTo (vals : List ValueRow) (k : State) (l : Int) : Option Bytes :=
  (selectMax (rowsUpTo vals k l)).map (·.value)

theorem selectMax_append (a b : List ValueRow) :
    selectMax (a ++ b) =
      match selectMax a, selectMax b with
      | none, y => y
      | some x, none => some x
      | some x, some y => if x.layerId < y.layerId then some y else some x := by
  induction a with
  | nil => simp [selectMax]
  | cons r a ih =>
    simp only [List.cons_append, selectMax]
    rw [ih]
    cases ha : selectMax a with
    | none =>
      cases hb : selectMax b with
      | none => simp
      | some y => simp
    | some x =>
      cases hb : selectMax b with
      | none => simp only; split <;> simp
      | some y =>
        simp only
        by_cases h1 : x.layerId < y.layerId
        · simp only [h1, if_true]
          by_cases h2 : r.layerId < y.layerId
          · simp only [h2, if_true]
            by_cases h3 : r.layerId < x.layerId
            · simp [h3, h1]
            · simp [h3, h2]
          · simp only [h2, if_false]
            have : ¬ r.layerId < x.layerId := by omega
            simp [this, h2]
        · simp only [h1, if_false]
          by_cases h2 : r.layerId < x.layerId
          · simp [h2, h1]
          · simp only [h2, if_false]
            have : ¬ r.layerId < y.layerId := by omega
            simp [this]

theorem selectMax_mem {l : List ValueRow} {r : ValueRow} (h : selectMax l = some r) : r ∈ l := by
  induction l generalizing r with
  | nil => simp [selectMax] at h
  | cons x l ih =>
    simp only [selectMax] at h
    cases hl : selectMax l with
    | none => rw [hl] at h; simp at h; simp [h]
    | some y =>
      rw [hl] at h; simp only at h
      split at h
      · cases h; exact List.mem_cons_of_mem _ (ih hl)
      · cases h; exact List.mem_cons_self

/-- Rows all in one layer with distinct keys: selection is a lookup. -/
theorem readUpTo_new (c : List (State × Bytes)) (n l : Int) (k : State) (h : n ≤ l)
    (hn : (AMap.keys c).Nodup) :
    (selectMax (rowsUpTo (c.map fun p => ⟨p.1, p.2, n⟩) k l)).map (·.value) = AMap.get c k := by
  induction c with
  | nil => rfl
  | cons p c ih =>
    have hn' : (AMap.keys c).Nodup := by
      simp only [AMap.keys, List.map_cons, List.nodup_cons] at hn; exact hn.2
    by_cases hk : p.1 = k
    · have hnone : AMap.get c k = none := by
        rw [AMap.get_eq_none_iff]
        simp only [AMap.keys, List.map_cons, List.nodup_cons] at hn
        exact hk ▸ hn.1
      have ih' := ih hn'
      rw [hnone] at ih'
      simp only [Option.map_eq_none_iff] at ih'
      simp only [rowsUpTo, List.map_cons, List.filter_cons, h, hk, decide_true, Bool.and_self,
        if_true, AMap.get_cons, selectMax]
      simp only [rowsUpTo] at ih'
      rw [ih']
      rfl
    · simp only [rowsUpTo, List.map_cons, List.filter_cons, h, hk, decide_true, decide_false,
        Bool.and_false, Bool.false_eq_true, if_false, AMap.get_cons]
      exact ih hn'

theorem readUpTo_append (vals : List ValueRow) (c : List (State × Bytes)) (n l : Int) (k : State)
    (hv : ∀ v ∈ vals, v.layerId < n) (hl : n ≤ l) (hn : (AMap.keys c).Nodup) :
    readUpTo (vals ++ c.map fun p => ⟨p.1, p.2, n⟩) k l
      = (AMap.get c k).or (readUpTo vals k l) := by
  rw [← readUpTo_new c n l k hl hn]
  unfold readUpTo
  have : rowsUpTo (vals ++ c.map fun p => ⟨p.1, p.2, n⟩) k l
      = rowsUpTo vals k l ++ rowsUpTo (c.map fun p => ⟨p.1, p.2, n⟩) k l := by
    simp [rowsUpTo]
  rw [this, selectMax_append]
  cases ha : selectMax (rowsUpTo vals k l) with
  | none => simp
  | some x =>
    cases hb : selectMax (rowsUpTo (c.map fun p => (⟨p.1, p.2, n⟩ : ValueRow)) k l) with
    | none => simp
    | some y =>
      have hx : x.layerId < n := hv x (List.mem_filter.1 (selectMax_mem ha)).1
      have hy : y.layerId = n := by
        have := (List.mem_filter.1 (selectMax_mem hb)).1
        obtain ⟨p, _, rfl⟩ := List.mem_map.1 this
        rfl
      simp [hx, hy]

theorem readUpTo_append_old (vals : List ValueRow) (c : List (State × Bytes)) (n l : Int)
    (k : State) (hl : l < n) :
    readUpTo (vals ++ c.map fun p => ⟨p.1, p.2, n⟩) k l = readUpTo vals k l := by
  unfold readUpTo rowsUpTo
  rw [List.filter_append]
  have : List.filter (fun v : ValueRow => decide (v.layerId ≤ l) && decide (v.keyHash = k))
      (c.map fun p => ⟨p.1, p.2, n⟩) = [] := by
    rw [List.filter_eq_nil_iff]
    intro a ha
    obtain ⟨p, _, rfl⟩ := List.mem_map.1 ha
    have : ¬ n ≤ l := by omega
    simp [this]
  rw [this, List.append_nil]

theorem readUpTo_filter (vals : List ValueRow) (m l : Int) (k : State) (h : l ≤ m) :
    readUpTo (vals.filter fun v => decide (v.layerId ≤ m)) k l = readUpTo vals k l := by
  unfold readUpTo rowsUpTo
  rw [List.filter_filter]
  congr 2
  apply List.filter_congr
  intro v _
  by_cases h1 : v.layerId ≤ l
  · have : v.layerId ≤ m := by omega
    simp [h1, this]
  · simp [h1]

theorem readUpTo_of_all_le (vals : List ValueRow) (l l' : Int) (k : State)
    (h : ∀ v ∈ vals, v.layerId ≤ l) (hl : l ≤ l') : readUpTo vals k l' = readUpTo vals k l := by
  unfold readUpTo rowsUpTo
  congr 2
  apply List.filter_congr
  intro v hv
  have h1 := h v hv
  have h2 : v.layerId ≤ l' := by omega
  simp [h1, h2]

theorem readUpTo_of_all_gt (vals : List ValueRow) (l : Int) (k : State)
    (h : ∀ v ∈ vals, l < v.layerId) : readUpTo vals k l = none := by
  unfold readUpTo rowsUpTo
  have : vals.filter (fun v => decide (v.layerId ≤ l) && decide (v.keyHash = k)) = [] := by
    rw [List.filter_eq_nil_iff]
    intro v hv
    have := h v hv
    have : ¬ v.layerId ≤ l := by omega
    simp [this]
  rw [this]; rfl

/-! ## The invariant of crash-free histories -/

/-- Invariant of every state reachable without crash from the empty database. -/
structure Inv (s : Storage) : Prop where
  next_gt : -2 < s.next.id
  ids : s.db.layers.map (·.id) = (List.range (s.next.id + 2).toNat).map (fun (i : Nat) => (i : Int) - 2)
  complete : ∀ r ∈ s.db.layers, r.complete = true
  vals : ∀ v ∈ s.db.values, -2 < v.layerId ∧ v.layerId < s.next.id
  rowsNodup : (s.db.values.map fun v => (v.keyHash, v.layerId)).Nodup
  dirty : s.dirty.keys.Nodup
  changes : s.next.changes.keys.Nodup

theorem Inv.mem_id {s : Storage} (h : Inv s) {l : Int} :
    (∃ r ∈ s.db.layers, r.id = l) ↔ -2 ≤ l ∧ l < s.next.id := by
  have h1 : (∃ r ∈ s.db.layers, r.id = l) ↔ l ∈ s.db.layers.map (·.id) := by
    simp [List.mem_map]
  rw [h1, h.ids]
  have := h.next_gt
  simp only [List.mem_map, List.mem_range]
  constructor
  · rintro ⟨i, hi, rfl⟩; omega
  · intro hl; exact ⟨(l + 2).toNat, by omega, by omega⟩

theorem Inv.any_complete {s : Storage} (h : Inv s) : (s.db.layers.any fun r => r.complete) = true := by
  obtain ⟨r, hr, _⟩ := (h.mem_id (l := -2)).2 ⟨by omega, h.next_gt⟩
  exact List.any_eq_true.2 ⟨r, hr, h.complete r hr⟩

theorem Inv.queryHistorical {s : Storage} (h : Inv s) (k : State) (l : Int) :
    queryHistorical s.db k l = readUpTo s.db.values k l := by
  unfold Storage.queryHistorical readUpTo rowsUpTo
  rw [h.any_complete]
  simp

theorem Inv.queryCurrent {s : Storage} (h : Inv s) (k : State) :
    queryCurrent s.db k = readUpTo s.db.values k (s.next.id - 1) := by
  unfold Storage.queryCurrent readUpTo rowsUpTo
  rw [h.any_complete]
  congr 2
  apply List.filter_congr
  intro v hv
  have := (h.vals v hv).2
  have : v.layerId ≤ s.next.id - 1 := by omega
  simp [this]

theorem Inv.fingerprint_isSome {s : Storage} (h : Inv s) {l : Int} (h1 : -2 ≤ l)
    (h2 : l < s.next.id) : ∃ fp, queryFingerprint s.db l true = some fp := by
  obtain ⟨r, hr, hid⟩ := h.mem_id.2 ⟨h1, h2⟩
  unfold queryFingerprint
  cases hf : s.db.layers.find? (fun r => decide (r.id = l ∧ r.complete = true)) with
  | some r => exact ⟨_, rfl⟩
  | none =>
    exfalso
    have := List.find?_eq_none.1 hf r hr
    simp [hid, h.complete r hr] at this

theorem inv_fresh : Inv fresh := by
  constructor <;> simp [fresh, initialLayerId, AMap.keys, List.range, List.range.loop]

theorem fresh_is_open : openDb Db.empty = (fresh.db, .ok fresh) := by
  rfl

theorem execAll_append (db : Db) (a b : List Stmt) :
    execAll db (a ++ b) =
      match execAll db a with
      | (db', true) => execAll db' b
      | (db', false) => (db', false) := by
  induction a generalizing db with
  | nil => rfl
  | cons st a ih =>
    simp only [List.cons_append, execAll]
    cases st.exec db with
    | none => rfl
    | some db' => exact ih db'

/-- Inserting value rows of an existing layer always succeeds. -/
theorem execAll_insertValues (db : Db) (c : List (State × Bytes)) (layer : Int)
    (h : (db.layers.any fun r => r.id = layer) = true) :
    execAll db (c.map fun p => Stmt.insertValue p.1 p.2 layer) =
      ({ db with values := db.values ++ c.map fun p => ⟨p.1, p.2, layer⟩ }, true) := by
  induction c generalizing db with
  | nil => simp [execAll]
  | cons p c ih =>
    simp only [List.map_cons, execAll, Stmt.exec, h, if_true]
    rw [ih]
    · simp
    · exact h

/-- The database after a successful commit. -/
def committedDb (db : Db) (layer : Int) (fp : State) (rows : List (State × Bytes)) : Db :=
  { layers := db.layers ++ [⟨layer, fp, true⟩]
    values := db.values ++ rows.map fun p => ⟨p.1, p.2, layer⟩ }

theorem exec_commitStmts {s : Storage} (h : Inv s) (ord : Ord) (fp : State) (changes : Changes) :
    execAll s.db (commitStmts ord s.next.id fp changes) =
      (committedDb s.db s.next.id fp (ord.run changes), true) := by
  have hno : (s.db.layers.any fun r => decide (r.id = s.next.id)) = false := by
    rw [Bool.eq_false_iff]
    intro hany
    obtain ⟨r, hr, hid⟩ := List.any_eq_true.1 hany
    have := (h.mem_id (l := s.next.id)).1 ⟨r, hr, by simpa using hid⟩
    omega
  unfold commitStmts
  simp only [execAll, Stmt.exec, hno, Bool.false_eq_true, if_false]
  rw [execAll_append, execAll_insertValues]
  · simp only [execAll, Stmt.exec, committedDb]
    congr 2
    rw [List.map_append]
    congr 1
    · conv => rhs; rw [← List.map_id s.db.layers]
      apply List.map_congr_left
      intro r hr
      simp [h.complete r hr]
    · simp
  · simp

/-- Commit with no dirty changes, in a reachable state. -/
theorem commit_ok {s : Storage} (h : Inv s) (hd : s.dirty = []) (ord : Ord) :
    ∃ prev, queryFingerprint s.db (s.next.id - 1) true = some prev ∧
      commit ord s =
        ({ db := committedDb s.db s.next.id (prev ^^^ s.next.xorFingerprint)
                  (ord.run s.next.changes)
           dirty := []
           next := ⟨s.next.id + 1, [], stateOnes⟩ },
         .ok (s.next.id, prev ^^^ s.next.xorFingerprint)) := by
  have hng := h.next_gt
  obtain ⟨prev, hprev⟩ := h.fingerprint_isSome (l := s.next.id - 1) (by omega) (by omega)
  refine ⟨prev, hprev, ?_⟩
  unfold commit
  simp only [hd, List.isEmpty_nil, Bool.not_true, Bool.false_eq_true, if_false, hprev]
  rw [exec_commitStmts h]

theorem commit_dirty {s : Storage} (hd : s.dirty ≠ []) (ord : Ord) :
    commit ord s = (s, .err .dirtyChanges) := by
  unfold commit
  cases h : s.dirty with
  | nil => exact absurd h hd
  | cons a b => simp

theorem range_succ_ids (n : Nat) :
    (List.range (n + 1)).map (fun (i : Nat) => (i : Int) - 2)
      = (List.range n).map (fun (i : Nat) => (i : Int) - 2) ++ [(n : Int) - 2] := by
  rw [List.range_succ, List.map_append]; rfl

theorem inv_committed {s : Storage} (h : Inv s) (fp : State) (ord : Ord) :
    Inv { db := committedDb s.db s.next.id fp (ord.run s.next.changes), dirty := [],
          next := ⟨s.next.id + 1, [], stateOnes⟩ } := by
  have hng := h.next_gt
  have hkn : (AMap.keys (ord.run s.next.changes)).Nodup :=
    ((ord.perm s.next.changes).map Prod.fst).nodup_iff.2 h.changes
  constructor
  · simp only; omega
  · simp only [committedDb, List.map_append, h.ids, List.map_cons, List.map_nil]
    have : (s.next.id + 1 + 2).toNat = (s.next.id + 2).toNat + 1 := by omega
    rw [this, range_succ_ids]
    congr 2
    omega
  · intro r hr
    simp only [committedDb, List.mem_append, List.mem_singleton] at hr
    rcases hr with hr | rfl
    · exact h.complete r hr
    · rfl
  · intro v hv
    simp only [committedDb, List.mem_append, List.mem_map] at hv ⊢
    rcases hv with hv | ⟨p, _, rfl⟩
    · have := h.vals v hv; omega
    · simp only; omega
  · simp only [committedDb, List.map_append, List.map_map]
    rw [List.nodup_append]
    refine ⟨h.rowsNodup, ?_, ?_⟩
    · have : ((ord.run s.next.changes).map
          ((fun v : ValueRow => (v.keyHash, v.layerId)) ∘ fun p => ⟨p.1, p.2, s.next.id⟩))
          = (AMap.keys (ord.run s.next.changes)).map fun k => (k, s.next.id) := by
        simp [AMap.keys, Function.comp_def]
      rw [this]
      unfold List.Nodup at hkn ⊢
      rw [List.pairwise_map]
      exact hkn.imp (fun hne heq => hne (by simpa using heq))
    · intro a ha b hb hab
      obtain ⟨v, hv, rfl⟩ := List.mem_map.1 ha
      obtain ⟨p, _, rfl⟩ := List.mem_map.1 hb
      have hlt := (h.vals v hv).2
      simp only [Function.comp_apply, Prod.mk.injEq] at hab
      omega
  · simp [AMap.keys]
  · simp [AMap.keys]

/-- What `checkpoint` does to the pending changes. -/
theorem checkpoint_eq (h : Hasher) (ord : Ord) (s : Storage) :
    checkpoint h ord s =
      { s with dirty := [],
               next := { s.next with changes := s.next.changes.insertAll (ord.run s.dirty) } } := by
  unfold checkpoint AMap.insertAll
  have : ∀ (l : List (State × Bytes)) (x : State) (c : Changes),
      (l.foldl (fun (acc : State × Changes) (c : State × Bytes) =>
        (acc.1 ^^^ hashKeyValuePair h c.1 c.2, acc.2.insert c.1 c.2)) (x, c)).2
        = l.foldl (fun m p => AMap.insert m p.1 p.2) c := by
    intro l
    induction l with
    | nil => intros; rfl
    | cons p l ih => intro x c; simp only [List.foldl_cons]; exact ih _ _
  simp only [this]

/-- Rows kept by a rewind are those of layers up to `l`. -/
theorem rewind_exec {s : Storage} (h : Inv s) (l : Int) :
    (Stmt.deleteLayersAbove l).exec s.db =
      some { layers := s.db.layers.filter fun r => r.id ≤ l
             values := s.db.values.filter fun v => v.layerId ≤ l } := by
  simp only [Stmt.exec]
  congr 2
  apply List.filter_congr
  intro v hv
  have hvl := h.vals v hv
  by_cases hle : v.layerId ≤ l
  · simp only [hle, decide_true, Bool.not_eq_eq_eq_not, Bool.not_true]
    rw [Bool.eq_false_iff]
    intro hany
    obtain ⟨r, _, hr⟩ := List.any_eq_true.1 hany
    simp only [gt_iff_lt, Bool.and_eq_true, decide_eq_true_eq] at hr
    omega
  · simp only [hle, decide_false, Bool.not_eq_eq_eq_not, Bool.not_false]
    obtain ⟨r, hr, hid⟩ := (h.mem_id (l := v.layerId)).2 ⟨by omega, hvl.2⟩
    apply List.any_eq_true.2
    refine ⟨r, hr, ?_⟩
    simp only [gt_iff_lt, Bool.and_eq_true, decide_eq_true_eq]
    omega

theorem rewind_ok {s : Storage} (h : Inv s) (hd : s.dirty = []) {l : Int} (hl : l < s.next.id) :
    rewind s l =
      ({ db := { layers := s.db.layers.filter fun r => r.id ≤ l
                 values := s.db.values.filter fun v => v.layerId ≤ l }
         dirty := [], next := ⟨l + 1, [], stateOnes⟩ }, .ok ()) := by
  unfold rewind
  simp only [hl, if_true, hd, List.isEmpty_nil, Bool.not_true, Bool.false_eq_true, if_false,
    rewind_exec h l]

theorem filter_range_ids (n m : Nat) (h : m ≤ n) :
    ((List.range n).map (fun (i : Nat) => (i : Int) - 2)).filter (fun i => decide (i ≤ (m : Int) - 3))
      = (List.range m).map (fun (i : Nat) => (i : Int) - 2) := by
  induction n with
  | zero =>
    have : m = 0 := by omega
    subst this; rfl
  | succ n ih =>
    rw [range_succ_ids, List.filter_append]
    by_cases hm : m ≤ n
    · rw [ih hm]
      have : ¬ ((n : Int) - 2 ≤ (m : Int) - 3) := by omega
      simp [this]
    · have : m = n + 1 := by omega
      subst this
      rw [range_succ_ids]
      congr 1
      · apply List.filter_eq_self.2
        intro a ha
        obtain ⟨i, hi, rfl⟩ := List.mem_map.1 ha
        have := List.mem_range.1 hi
        simp only [decide_eq_true_eq]; omega
      · have : ((n : Int) - 2 ≤ (n : Int) + 1 - 3) := by omega
        simp [this]

theorem inv_rewound {s : Storage} (h : Inv s) {l : Int} (hl : l < s.next.id) (h2 : -2 ≤ l) :
    Inv { db := { layers := s.db.layers.filter fun r => r.id ≤ l
                  values := s.db.values.filter fun v => v.layerId ≤ l }
          dirty := [], next := ⟨l + 1, [], stateOnes⟩ } := by
  have hng := h.next_gt
  constructor
  · simp only; omega
  · simp only
    have h1 : (s.db.layers.filter fun r => decide (r.id ≤ l)).map (·.id)
        = (s.db.layers.map (·.id)).filter (fun i => decide (i ≤ l)) := by
      rw [List.filter_map]; rfl
    rw [h1, h.ids]
    have h3 : l = (((l + 3).toNat : Nat) : Int) - 3 := by omega
    have h4 : (l + 1 + 2).toNat = (l + 3).toNat := by omega
    rw [h4]
    conv => lhs; rw [h3]
    exact filter_range_ids _ _ (by omega)
  · intro r hr; exact h.complete r (List.mem_filter.1 hr).1
  · intro v hv
    have hm := List.mem_filter.1 hv
    have := h.vals v hm.1
    have := hm.2
    simp only [decide_eq_true_eq] at this
    simp only
    omega
  · exact ((List.filter_sublist).map _).nodup h.rowsNodup
  · simp [AMap.keys]
  · simp [AMap.keys]

/-- The invariant is preserved by every operation. -/
theorem inv_step (hh : Hasher) {s : Storage} (h : Inv s) (op : Op) (hop : op.RewindsFrom (-2)) :
    Inv (step hh s op).1 := by
  cases op with
  | upsert k v =>
    exact ⟨h.next_gt, h.ids, h.complete, h.vals, h.rowsNodup, AMap.nodup_insert h.dirty k v,
      h.changes⟩
  | checkpoint ord =>
    simp only [step, checkpoint_eq]
    exact ⟨h.next_gt, h.ids, h.complete, h.vals, h.rowsNodup, by simp [AMap.keys],
      AMap.nodup_insertAll h.changes _⟩
  | commit ord =>
    simp only [step]
    by_cases hd : s.dirty = []
    · obtain ⟨prev, _, he⟩ := commit_ok h hd ord
      rw [he]
      exact inv_committed h _ ord
    · rw [commit_dirty hd]; exact h
  | rollback =>
    exact ⟨h.next_gt, h.ids, h.complete, h.vals, h.rowsNodup, by simp [step, rollback, AMap.keys],
      h.changes⟩
  | rewind l =>
    simp only [step]
    by_cases hl : l < s.next.id
    · by_cases hd : s.dirty = []
      · rw [rewind_ok h hd hl]
        exact inv_rewound h hl hop
      · have : rewind s l = (s, .err .dirtyChanges) := by
          unfold rewind
          cases hd' : s.dirty with
          | nil => exact absurd hd' hd
          | cons a b => simp [hl]
        rw [this]; exact h
    · have : rewind s l = (s, .panic) := by
        unfold rewind; simp [hl]
      rw [this]; exact h
  | get k l => exact h
  | lastLayer => exact h
  | hasUncommitted => exact h

theorem inv_run (hh : Hasher) {s : Storage} (h : Inv s) (ops : List Op)
    (hops : RewindsFrom (-2) ops) : Inv (run hh s ops).1 := by
  induction ops generalizing s with
  | nil => exact h
  | cons op ops ih =>
    simp only [run]
    exact ih (inv_step hh h op (hops op List.mem_cons_self))
      (fun o ho => hops o (List.mem_cons_of_mem _ ho))

theorem RewindsFrom.mono {m m' : Int} (h : m' ≤ m) {ops : List Op} (hops : RewindsFrom m ops) :
    RewindsFrom m' ops := by
  intro op hop
  have := hops op hop
  cases op <;> simp_all [Op.RewindsFrom]
  omega

theorem run_append (hh : Hasher) (s : Storage) (a b : List Op) :
    (run hh s (a ++ b)).1 = (run hh (run hh s a).1 b).1 := by
  induction a generalizing s with
  | nil => rfl
  | cons op a ih => simp only [List.cons_append, run]; exact ih _

/-! ## Simulation -/

theorem lastWrite_append (k : State) (a b : List (State × Bytes)) :
    lastWrite k (a ++ b) = (lastWrite k a).or (lastWrite k b) := by
  induction a with
  | nil => simp [lastWrite]
  | cons p a ih =>
    obtain ⟨k', v⟩ := p
    simp only [List.cons_append, lastWrite]
    split
    · simp
    · exact ih

/-- Simulation relation between the tables and the specification. -/
structure Sim (s : Storage) (a : Spec) : Prop where
  inv : Inv s
  next : s.next.id = a.nextLayer
  dirty : ∀ k, s.dirty.get k = lastWrite k a.dirty
  dirtyNil : s.dirty = [] ↔ a.dirty = []
  pending : ∀ k, s.next.changes.get k = lastWrite k a.pending
  hist : ∀ l k, l < s.next.id → readUpTo s.db.values k l = a.snapAt l k

theorem sim_fresh : Sim fresh Spec.init := by
  refine ⟨inv_fresh, rfl, fun k => rfl, ⟨fun _ => rfl, fun _ => rfl⟩, fun k => rfl, ?_⟩
  intro l k hl
  have hl' : l < -1 := hl
  have : readUpTo fresh.db.values k l = none := rfl
  rw [this]
  unfold Spec.snapAt
  split
  · rfl
  · have : (l + 2).toNat = 0 := by omega
    rw [this]; rfl

theorem Spec.top_eq (a : Spec) (h : -2 < a.nextLayer) : a.top = a.snapAt (a.nextLayer - 1) := by
  unfold Spec.nextLayer at h
  have hlen : 0 < a.snaps.length := by omega
  unfold Spec.snapAt Spec.top Spec.nextLayer
  have : ¬ ((a.snaps.length : Int) - 2 - 1 < -2) := by omega
  rw [if_neg this]
  have hi : ((a.snaps.length : Int) - 2 - 1 + 2).toNat = a.snaps.length - 1 := by omega
  rw [hi]
  cases hs : a.snaps with
  | nil => rw [hs] at hlen; simp at hlen
  | cons x t => simp

theorem Sim.top {s : Storage} {a : Spec} (h : Sim s a) (k : State) :
    queryCurrent s.db k = a.top k := by
  rw [h.inv.queryCurrent, h.hist _ _ (by omega), Spec.top_eq _ (by rw [← h.next]; exact h.inv.next_gt),
    h.next]

theorem Sim.get {s : Storage} {a : Spec} (h : Sim s a) (k : State) :
    getByHash s k none = .ok (a.current k) := by
  unfold getByHash Spec.current
  simp only
  rw [← h.dirty k, ← h.pending k]
  cases s.dirty.get k with
  | some v => simp
  | none =>
    cases s.next.changes.get k with
    | some v => simp
    | none => simp [h.top k]

/-- Every operation preserves the simulation and is observed in the same way. -/
theorem sim_step (hh : Hasher) {s : Storage} {a : Spec} (h : Sim s a) (op : Op)
    (hop : op.RewindsFrom (-2)) :
    Sim (step hh s op).1 (a.step op).1 ∧ (step hh s op).2 = (a.step op).2 := by
  have hinv' := inv_step hh h.inv op hop
  cases op with
  | upsert k v =>
    refine ⟨⟨hinv', h.next, ?_, ?_, h.pending, h.hist⟩, rfl⟩
    · intro k'
      simp only [step, upsertByHash, Spec.step, lastWrite]
      rw [AMap.get_insert, h.dirty k']
    · simp [step, upsertByHash, Spec.step, AMap.insert]
  | checkpoint ord =>
    refine ⟨⟨hinv', ?_, ?_, ?_, ?_, ?_⟩, rfl⟩
    · simp only [step, checkpoint_eq]; exact h.next
    · intro k; simp [step, checkpoint_eq, Spec.step, lastWrite]
    · simp [step, checkpoint_eq, Spec.step]
    · intro k
      simp only [step, checkpoint_eq, Spec.step]
      have hkn : (AMap.keys (ord.run s.dirty)).Nodup :=
        ((ord.perm s.dirty).map Prod.fst).nodup_iff.2 h.inv.dirty
      rw [AMap.get_insertAll _ hkn, lastWrite_append, h.pending k,
        AMap.get_perm hkn (ord.perm s.dirty), h.dirty k]
    · simp only [step, checkpoint_eq]; exact h.hist
  | commit ord =>
    by_cases hd : s.dirty = []
    · have ha : a.dirty = [] := h.dirtyNil.1 hd
      obtain ⟨prev, _, he⟩ := commit_ok h.inv hd ord
      have hkn : (AMap.keys (ord.run s.next.changes)).Nodup :=
        ((ord.perm s.next.changes).map Prod.fst).nodup_iff.2 h.inv.changes
      simp only [step, he, Spec.step, ha, ne_eq, not_true, if_false, obsOf] at hinv' ⊢
      refine ⟨⟨hinv', ?_, ?_, ?_, ?_, ?_⟩, ?_⟩
      · simp only [Spec.nextLayer, List.length_cons]
        have := h.next; unfold Spec.nextLayer at this; omega
      · intro k; simp [lastWrite]
      · simp
      · intro k; simp [lastWrite]
      · intro l k hl
        simp only [committedDb] at hl ⊢
        have hlen : s.next.id + 2 = (a.snaps.length : Int) := by
          have := h.next; unfold Spec.nextLayer at this; omega
        have hng := h.inv.next_gt
        by_cases hln : l = s.next.id
        · subst hln
          rw [readUpTo_append _ _ _ _ _ (fun v hv => (h.inv.vals v hv).2) (by omega) hkn,
            AMap.get_perm hkn (ord.perm s.next.changes), h.pending k]
          unfold Spec.snapAt
          have h1 : ¬ (s.next.id < -2) := by omega
          have h2 : (s.next.id + 2).toNat = a.snaps.length := by omega
          rw [if_neg h1, h2]
          simp only [List.reverse_cons]
          rw [List.getElem?_append_right (by simp)]
          simp only [List.length_reverse, Nat.sub_self, List.getElem?_cons_zero, Option.getD_some]
          rw [← h.top k, h.inv.queryCurrent]
          rw [readUpTo_of_all_le _ (s.next.id - 1) _ _ (fun v hv => ?_) (by omega)]
          have := (h.inv.vals v hv).2
          omega
        · have hl2 : l < s.next.id := by omega
          rw [readUpTo_append_old _ _ _ _ _ hl2, h.hist l k hl2]
          unfold Spec.snapAt
          split
          · rfl
          · simp only [List.reverse_cons]
            rw [List.getElem?_append_left (by simp; omega)]
      · rw [h.next]
    · have ha : a.dirty ≠ [] := fun e => hd (h.dirtyNil.2 e)
      simp only [step, commit_dirty hd, Spec.step, ha, ne_eq, not_false_eq_true, if_true, obsOf]
      exact ⟨h, trivial⟩
  | rollback =>
    refine ⟨⟨hinv', h.next, ?_, ?_, h.pending, h.hist⟩, rfl⟩
    · intro k; simp [step, rollback, Spec.step, lastWrite]
    · simp [step, rollback, Spec.step]
  | rewind l =>
    have hl2 : -2 ≤ l := hop
    by_cases hl : l < s.next.id
    · have hl' : ¬ a.nextLayer ≤ l := by rw [← h.next]; omega
      by_cases hd : s.dirty = []
      · have ha : a.dirty = [] := h.dirtyNil.1 hd
        simp only [step, rewind_ok h.inv hd hl, Spec.step, hl', ha, if_false, ne_eq, not_true,
          obsOf] at hinv' ⊢
        have hlen : s.next.id + 2 = (a.snaps.length : Int) := by
          have := h.next; unfold Spec.nextLayer at this; omega
        refine ⟨⟨hinv', ?_, ?_, ?_, ?_, ?_⟩, trivial⟩
        · simp only [Spec.nextLayer, List.length_drop]; omega
        · intro k; simp [lastWrite]
        · simp
        · intro k; simp [lastWrite]
        · intro l' k hl3
          simp only at hl3 ⊢
          rw [readUpTo_filter _ _ _ _ (by omega), h.hist l' k (by omega)]
          unfold Spec.snapAt
          split
          · rfl
          · simp only [List.reverse_drop]
            rw [List.getElem?_take_of_lt]
            unfold Spec.nextLayer; omega
      · have ha : a.dirty ≠ [] := fun e => hd (h.dirtyNil.2 e)
        have : rewind s l = (s, .err .dirtyChanges) := by
          unfold rewind
          cases hd' : s.dirty with
          | nil => exact absurd hd' hd
          | cons a b => simp [hl]
        simp only [step, this, Spec.step, hl', ha, if_false, ne_eq, not_false_eq_true, if_true,
          obsOf]
        exact ⟨h, trivial⟩
    · have hl' : a.nextLayer ≤ l := by rw [← h.next]; omega
      have : rewind s l = (s, .panic) := by unfold rewind; simp [hl]
      simp only [step, this, Spec.step, hl', if_true, obsOf]
      exact ⟨h, trivial⟩
  | get k l =>
    cases l with
    | none =>
      simp only [step, Spec.step, h.get k, obsOf]
      exact ⟨h, trivial⟩
    | some l =>
      by_cases hl : l < s.next.id
      · have hl' : ¬ a.nextLayer ≤ l := by rw [← h.next]; omega
        simp only [step, Spec.step, getByHash, hl, hl', if_true, if_false, obsOf]
        refine ⟨h, ?_⟩
        rw [h.inv.queryHistorical, h.hist l k hl]
      · have hl' : a.nextLayer ≤ l := by rw [← h.next]; omega
        simp only [step, Spec.step, getByHash, hl, hl', if_true, if_false, obsOf]
        exact ⟨h, trivial⟩
  | lastLayer =>
    have hng := h.inv.next_gt
    obtain ⟨fp, hfp⟩ := h.inv.fingerprint_isSome (l := s.next.id - 1) (by omega) (by omega)
    rw [h.next] at hfp
    simp only [step, Spec.step, lastLayer, h.next, hfp, obsOf]
    exact ⟨h, trivial⟩
  | hasUncommitted =>
    refine ⟨h, ?_⟩
    simp only [step, Spec.step, hasUncommittedChanges]
    by_cases hd : s.dirty = []
    · have ha : a.dirty = [] := h.dirtyNil.1 hd
      simp [hd, ha]
    · have ha : a.dirty ≠ [] := fun e => hd (h.dirtyNil.2 e)
      simp [hd, ha]

theorem sim_run (hh : Hasher) {s : Storage} {a : Spec} (h : Sim s a) (ops : List Op)
    (hops : RewindsFrom (-2) ops) :
    Sim (run hh s ops).1 (a.run ops).1 ∧ (run hh s ops).2 = (a.run ops).2 := by
  induction ops generalizing s a with
  | nil => exact ⟨h, rfl⟩
  | cons op ops ih =>
    have h1 := sim_step hh h op (hops op List.mem_cons_self)
    have h2 := ih h1.1 (fun o ho => hops o (List.mem_cons_of_mem _ ho))
    simp only [run, Spec.run]
    exact ⟨h2.1, by rw [h1.2, h2.2]⟩

/-! ## Layers up to `L` are never touched by histories that do not rewind below `L` -/

/-- The rows of layers up to `L` in `s2` are those of `s1`. -/
structure Kept (L : Int) (s1 s2 : Storage) : Prop where
  lt : L < s2.next.id
  layers : (s2.db.layers.filter fun r => r.id ≤ L) = s1.db.layers.filter fun r => r.id ≤ L
  values : (s2.db.values.filter fun v => v.layerId ≤ L)
    = s1.db.values.filter fun v => v.layerId ≤ L

theorem kept_step (hh : Hasher) {L : Int} {s1 s2 : Storage} (h : Inv s2)
    (hk : Kept L s1 s2) (op : Op) (hop : op.RewindsFrom L) : Kept L s1 (step hh s2 op).1 := by
  cases op with
  | upsert k v => exact ⟨hk.lt, hk.layers, hk.values⟩
  | checkpoint ord =>
    simp only [step, checkpoint_eq]; exact ⟨hk.lt, hk.layers, hk.values⟩
  | commit ord =>
    by_cases hd : s2.dirty = []
    · obtain ⟨prev, _, he⟩ := commit_ok h hd ord
      simp only [step, he]
      have hlt := hk.lt
      refine ⟨?_, ?_, ?_⟩
      · simp only; omega
      · simp only [committedDb, List.filter_append]
        have : ¬ s2.next.id ≤ L := by omega
        simp [this, hk.layers]
      · simp only [committedDb, List.filter_append]
        rw [hk.values]
        have : List.filter (fun v : ValueRow => decide (v.layerId ≤ L))
            ((ord.run s2.next.changes).map fun p => ⟨p.1, p.2, s2.next.id⟩) = [] := by
          rw [List.filter_eq_nil_iff]
          intro a ha
          obtain ⟨p, _, rfl⟩ := List.mem_map.1 ha
          have : ¬ s2.next.id ≤ L := by omega
          simp [this]
        rw [this, List.append_nil]
    · simp only [step, commit_dirty hd]; exact hk
  | rollback => exact ⟨hk.lt, hk.layers, hk.values⟩
  | rewind l =>
    have hl2 : L ≤ l := hop
    by_cases hl : l < s2.next.id
    · by_cases hd : s2.dirty = []
      · simp only [step, rewind_ok h hd hl]
        refine ⟨by simp only; omega, ?_, ?_⟩
        · simp only
          rw [← hk.layers, List.filter_filter]
          apply List.filter_congr
          intro r _
          by_cases h1 : r.id ≤ L
          · have : r.id ≤ l := by omega
            simp [h1, this]
          · simp [h1]
        · simp only
          rw [← hk.values, List.filter_filter]
          apply List.filter_congr
          intro r _
          by_cases h1 : r.layerId ≤ L
          · have : r.layerId ≤ l := by omega
            simp [h1, this]
          · simp [h1]
      · have : rewind s2 l = (s2, .err .dirtyChanges) := by
          unfold rewind
          cases hd' : s2.dirty with
          | nil => exact absurd hd' hd
          | cons a b => simp [hl]
        simp only [step, this]; exact hk
    · have : rewind s2 l = (s2, .panic) := by unfold rewind; simp [hl]
      simp only [step, this]; exact hk
  | get k l => exact hk
  | lastLayer => exact hk
  | hasUncommitted => exact hk

theorem kept_run (hh : Hasher) {L : Int} (hL : -2 ≤ L) {s1 s2 : Storage} (h : Inv s2)
    (hk : Kept L s1 s2) (ops : List Op) (hops : RewindsFrom L ops) :
    Kept L s1 (run hh s2 ops).1 := by
  induction ops generalizing s2 with
  | nil => exact hk
  | cons op ops ih =>
    have hop := hops op List.mem_cons_self
    have hop2 : op.RewindsFrom (-2) := by
      cases op <;> simp_all [Op.RewindsFrom]
      omega
    exact ih (inv_step hh h op hop2) (kept_step hh h hk op hop)
      (fun o ho => hops o (List.mem_cons_of_mem _ ho))

/-- In a reachable state every row is below the next layer, so filtering keeps everything. -/
theorem Inv.filter_all {s : Storage} (h : Inv s) {L : Int} (hL : s.next.id ≤ L + 1) :
    (s.db.layers.filter fun r => r.id ≤ L) = s.db.layers ∧
    (s.db.values.filter fun v => v.layerId ≤ L) = s.db.values := by
  refine ⟨List.filter_eq_self.2 ?_, List.filter_eq_self.2 ?_⟩
  · intro r hr
    have := (h.mem_id (l := r.id)).1 ⟨r, hr, rfl⟩
    simp only [decide_eq_true_eq]; omega
  · intro v hv
    have := h.vals v hv
    simp only [decide_eq_true_eq]; omega

/-- The fingerprint of the layer just committed. -/
theorem queryFingerprint_committed {s : Storage} (h : Inv s) (fp : State)
    (rows : List (State × Bytes)) :
    queryFingerprint (committedDb s.db s.next.id fp rows) s.next.id true = some fp := by
  unfold queryFingerprint committedDb
  simp only
  rw [List.find?_append]
  have : s.db.layers.find? (fun r => decide (r.id = s.next.id ∧ r.complete = true)) = none := by
    rw [List.find?_eq_none]
    intro r hr hc
    simp only [decide_eq_true_eq] at hc
    have := (h.mem_id (l := r.id)).1 ⟨r, hr, rfl⟩
    omega
  rw [this]
  simp

end Svm.Storage
