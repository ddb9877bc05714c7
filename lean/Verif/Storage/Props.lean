import Verif.Storage.Lemmas

/-!
# Properties C01 - C08 and C11 of the storage

`run hh fresh ops` is the state after an arbitrary history `ops` from an empty database; the hasher
`hh` is arbitrary, and every `checkpoint`/`commit` carries an arbitrary hash-map iteration order.
-/

namespace Svm.Storage

/-- A history used to show that the hypotheses of the theorems are satisfiable: two layers with
different values of one key, then a dirty write. -/
def demoHistory : List Op :=
  [.upsert 7 [1], .checkpoint .id, .commit .rev, .upsert 7 [2], .upsert 8 [3], .checkpoint .rev,
   .commit .id, .rewind (-1), .upsert 9 [4], .checkpoint .id, .commit .id]

/-- A hasher for examples. -/
def demoHasher : Hasher := ⟨fun b => BitVec.ofNat 256 b.length⟩

theorem demoHistory_valid : RewindsFrom (-1) demoHistory := by
  intro op hop
  simp only [demoHistory, List.mem_cons, List.not_mem_nil, or_false] at hop
  rcases hop with rfl | rfl | rfl | rfl | rfl | rfl | rfl | rfl | rfl | rfl | rfl <;>
    simp [Op.RewindsFrom]

/-! ## C01 -/

/-- **C01** Reads see the latest write; a write changes no other key and no historical read. -/
theorem C01_read_after_write (hh : Hasher) (ops : List Op) (k : State) (v : Bytes) :
    let s := (run hh fresh ops).1
    getByHash (upsertByHash s k v) k none = .ok (some v) ∧
    (∀ k', k' ≠ k → getByHash (upsertByHash s k v) k' none = getByHash s k' none) ∧
    (∀ k' l, getByHash (upsertByHash s k v) k' (some l) = getByHash s k' (some l)) := by
  intro s
  refine ⟨?_, ?_, ?_⟩
  · simp [getByHash, upsertByHash]
  · intro k' hk'
    simp only [getByHash, upsertByHash]
    rw [AMap.get_insert_ne _ _ (Ne.symm hk')]
  · intro k' l; rfl

/-- The same for keys instead of key hashes: only keys with the same hash can interfere. -/
theorem C01_read_after_write_keys (hh : Hasher) (ops : List Op) (key : Bytes) (v : Bytes) :
    let s := (run hh fresh ops).1
    get hh (upsert hh s key v) key none = .ok (some v) ∧
    ∀ key', hh.hash key' ≠ hh.hash key →
      get hh (upsert hh s key v) key' none = get hh s key' none := by
  intro s
  have h := C01_read_after_write hh ops (hh.hash key) v
  exact ⟨h.1, fun key' hne => h.2.1 _ hne⟩

example : get demoHasher (upsert demoHasher (run demoHasher fresh demoHistory).1 [1, 2] [42])
    [3, 4, 5] none = get demoHasher (run demoHasher fresh demoHistory).1 [3, 4, 5] none :=
  (C01_read_after_write_keys demoHasher demoHistory [1, 2] [42]).2 [3, 4, 5] (by decide)

/-! ## C02 -/

/-- **C02** Refinement: every observation of every crash-free history from an empty database is the
one of the abstract layered store. -/
theorem C02_refines_layered_map (hh : Hasher) (ops : List Op) (hops : RewindsFrom (-2) ops) :
    (run hh fresh ops).2 = (Spec.init.run ops).2 :=
  (sim_run hh sim_fresh ops hops).2

example : (run demoHasher fresh (demoHistory ++ [.get 7 none, .get 8 none, .get 7 (some (-2))])).2
    = (Spec.init.run (demoHistory ++ [.get 7 none, .get 8 none, .get 7 (some (-2))])).2 := by
  apply C02_refines_layered_map
  intro op hop
  rcases List.mem_append.1 hop with h | h
  · have := demoHistory_valid op h
    cases op <;> simp_all [Op.RewindsFrom]
    omega
  · simp only [List.mem_cons, List.not_mem_nil, or_false] at h
    rcases h with rfl | rfl | rfl <;> simp [Op.RewindsFrom]

/-! ## C03 -/

/-- **C03** After layer `L` has been committed, reading at layer `L` forever returns what a plain
read returned right after the commit, as long as no rewind goes below `L`. -/
theorem C03_historical_reads_stable (hh : Hasher) (ops₁ ops₂ : List Op) (ord : Ord) (L : Int)
    (fp : State)
    (h₁ : RewindsFrom (-2) ops₁)
    (hc : (commit ord (run hh fresh ops₁).1).2 = .ok (L, fp))
    (h₂ : RewindsFrom L ops₂) (k : State) :
    let s₁ := (commit ord (run hh fresh ops₁).1).1
    let s₂ := (run hh s₁ ops₂).1
    getByHash s₂ k (some L) = getByHash s₁ k none := by
  intro s₁ s₂
  have hinv := inv_run hh inv_fresh ops₁ h₁
  have hd : (run hh fresh ops₁).1.dirty = [] := by
    apply Classical.byContradiction
    intro hne
    rw [commit_dirty hne] at hc
    cases hc
  obtain ⟨prev, hprev, he⟩ := commit_ok hinv hd ord
  rw [he] at hc
  simp only [Outcome.ok.injEq, Prod.mk.injEq] at hc
  have hs₁ : s₁ = _ := congrArg Prod.fst he
  have hinv₁ : Inv s₁ := by rw [hs₁]; exact inv_committed hinv _ ord
  have hn₁ : s₁.next.id = L + 1 := by rw [hs₁]; simp only; omega
  have hL : -2 ≤ L := by have := hinv.next_gt; omega
  have hkept : Kept L s₁ s₂ :=
    kept_run hh hL hinv₁ ⟨by omega, rfl, rfl⟩ ops₂ h₂
  have hinv₂ : Inv s₂ := inv_run hh hinv₁ ops₂ (RewindsFrom.mono hL h₂)
  have e1 : getByHash s₁ k none = .ok (readUpTo s₁.db.values k L) := by
    have : getByHash s₁ k none = .ok (queryCurrent s₁.db k) := by
      rw [hs₁]; simp [getByHash]
    rw [this, hinv₁.queryCurrent, hn₁]
    congr 2
    omega
  have e2 : getByHash s₂ k (some L) = .ok (readUpTo s₂.db.values k L) := by
    unfold getByHash
    simp only [hkept.lt, if_true]
    rw [hinv₂.queryHistorical]
  rw [e1, e2]
  congr 1
  rw [← readUpTo_filter s₂.db.values L L k (by omega), hkept.values,
    readUpTo_filter s₁.db.values L L k (by omega)]

example : ∃ fp, (commit .id (run demoHasher fresh (demoHistory ++
    [.upsert 7 [5], .checkpoint .id])).1).2 = .ok (1, fp) := ⟨_, by rfl⟩

/-! ## C04 -/

/-- **C04** Rewinding to a layer `L` restores exactly the state right after `L` was committed. -/
theorem C04_rewind_restores (hh : Hasher) (ops₁ ops₂ : List Op) (ord : Ord) (L : Int)
    (fp : State)
    (h₁ : RewindsFrom (-2) ops₁)
    (hc : (commit ord (run hh fresh ops₁).1).2 = .ok (L, fp))
    (h₂ : RewindsFrom L ops₂) :
    let s₁ := (commit ord (run hh fresh ops₁).1).1
    let s₂ := (run hh s₁ ops₂).1
    s₂.dirty = [] → rewind s₂ L = (s₁, .ok ()) := by
  intro s₁ s₂ hd₂
  have hinv := inv_run hh inv_fresh ops₁ h₁
  have hd : (run hh fresh ops₁).1.dirty = [] := by
    apply Classical.byContradiction
    intro hne
    rw [commit_dirty hne] at hc
    cases hc
  obtain ⟨prev, hprev, he⟩ := commit_ok hinv hd ord
  rw [he] at hc
  simp only [Outcome.ok.injEq, Prod.mk.injEq] at hc
  have hs₁ : s₁ = _ := congrArg Prod.fst he
  have hinv₁ : Inv s₁ := by rw [hs₁]; exact inv_committed hinv _ ord
  have hn₁ : s₁.next.id = L + 1 := by rw [hs₁]; simp only; omega
  have hL : -2 ≤ L := by have := hinv.next_gt; omega
  have hkept : Kept L s₁ s₂ :=
    kept_run hh hL hinv₁ ⟨by omega, rfl, rfl⟩ ops₂ h₂
  have hinv₂ : Inv s₂ := inv_run hh hinv₁ ops₂ (RewindsFrom.mono hL h₂)
  rw [rewind_ok hinv₂ hd₂ hkept.lt, hkept.layers, hkept.values]
  have hall := hinv₁.filter_all (L := L) (by omega)
  rw [hall.1, hall.2]
  have hnext : s₁.next = ⟨L + 1, [], stateOnes⟩ := by
    rw [hs₁]; simp only [hc.1]
  have hdirty : s₁.dirty = [] := by rw [hs₁]
  rw [← hnext]
  congr 1
  cases hs : s₁ with
  | mk db dirty next => simp_all

/-- Consequence: every later history gives the same answers after the rewind as it would have given
right after layer `L`. -/
theorem C04_rewind_same_future (hh : Hasher) (ops₁ ops₂ ops₃ : List Op) (ord : Ord) (L : Int)
    (fp : State)
    (h₁ : RewindsFrom (-2) ops₁)
    (hc : (commit ord (run hh fresh ops₁).1).2 = .ok (L, fp))
    (h₂ : RewindsFrom L ops₂) :
    let s₁ := (commit ord (run hh fresh ops₁).1).1
    let s₂ := (run hh s₁ ops₂).1
    s₂.dirty = [] → (run hh (rewind s₂ L).1 ops₃).2 = (run hh s₁ ops₃).2 := by
  intro s₁ s₂ hd₂
  have := C04_rewind_restores hh ops₁ ops₂ ord L fp h₁ hc h₂ hd₂
  rw [this]

example : rewind (run demoHasher (commit .id (run demoHasher fresh
      [.upsert 7 [1], .checkpoint .id]).1).1
    [.upsert 7 [2], .checkpoint .id, .commit .id, .upsert 9 [9], .rollback]).1 (-1)
    = ((commit .id (run demoHasher fresh [.upsert 7 [1], .checkpoint .id]).1).1, .ok ()) := by
  refine C04_rewind_restores demoHasher _ _ .id (-1) 0#256 ?_ ?_ ?_ ?_
  · intro op hop; simp at hop; rcases hop with rfl | rfl <;> simp [Op.RewindsFrom]
  · rfl
  · intro op hop; simp at hop
    rcases hop with rfl | rfl | rfl | rfl | rfl <;> simp [Op.RewindsFrom]
  · rfl

/-! ## C05 -/

/-- Operations that do not checkpoint, commit, roll back or rewind. -/
def Op.Volatile : Op → Prop
  | .upsert _ _ | .get _ _ | .lastLayer | .hasUncommitted => True
  | _ => False

/-- **C05** Rollback discards exactly the writes since the last checkpoint: from a state without
dirty writes, any writes and reads followed by a rollback lead back to the identical state (hence to
identical behaviour of every later history). -/
theorem C05_rollback_discards (hh : Hasher) (s : Storage) (hs : s.dirty = []) (ops : List Op)
    (hops : ∀ op ∈ ops, op.Volatile) : rollback (run hh s ops).1 = s := by
  have key : ∀ (ops : List Op) (s' : Storage), (∀ op ∈ ops, op.Volatile) →
      rollback s' = s → rollback (run hh s' ops).1 = s := by
    intro ops
    induction ops with
    | nil => intro s' _ h; exact h
    | cons op ops ih =>
      intro s' hv h
      apply ih _ (fun o ho => hv o (List.mem_cons_of_mem _ ho))
      have := hv op List.mem_cons_self
      cases op <;> simp_all [Op.Volatile, step, upsertByHash, rollback]
  apply key ops s hops
  cases s
  simp_all [rollback]

/-- Checkpointed data survives a rollback: reads of the rolled back state are reads of the state
right after the checkpoint. -/
theorem C05_rollback_keeps_checkpoint (hh : Hasher) (ops₁ ops₂ : List Op) (ord : Ord)
    (hops : ∀ op ∈ ops₂, op.Volatile) :
    let s := checkpoint hh ord (run hh fresh ops₁).1
    rollback (run hh s ops₂).1 = s := by
  intro s
  exact C05_rollback_discards hh s (by simp [s, checkpoint_eq]) ops₂ hops

example : ∀ op ∈ [Op.upsert 1 [2], .get 3 none, .upsert 4 []], op.Volatile := by
  simp [Op.Volatile]

/-! ## C06 -/

/-- **C06** With unsaved writes, commit and rewind refuse and change nothing; the flag tells exactly
whether there are unsaved writes. -/
theorem C06_dirty_refused (s : Storage) (ord : Ord) (l : Int) :
    (s.dirty ≠ [] →
      commit ord s = (s, .err .dirtyChanges) ∧
      (l < s.next.id → rewind s l = (s, .err .dirtyChanges))) ∧
    (hasUncommittedChanges s = true ↔ s.dirty ≠ []) := by
  refine ⟨fun hd => ⟨commit_dirty hd ord, fun hl => ?_⟩, ?_⟩
  · unfold rewind
    cases hd' : s.dirty with
    | nil => exact absurd hd' hd
    | cons a b => simp [hl]
  · unfold hasUncommittedChanges
    cases s.dirty <;> simp

/-- In terms of the history: the flag is raised exactly when a write happened after the last
checkpoint, rollback (the refinement of C02 relates this to the log of dirty writes). -/
theorem C06_flag_after_write (hh : Hasher) (ops : List Op) (k : State) (v : Bytes) :
    hasUncommittedChanges (run hh fresh (ops ++ [.upsert k v])).1 = true ∧
    hasUncommittedChanges (run hh fresh (ops ++ [.rollback])).1 = false ∧
    ∀ ord, hasUncommittedChanges (run hh fresh (ops ++ [.checkpoint ord])).1 = false := by
  refine ⟨?_, ?_, fun ord => ?_⟩ <;> rw [run_append] <;>
    simp [run, step, upsertByHash, rollback, checkpoint_eq, hasUncommittedChanges, AMap.insert]

example : (run demoHasher fresh (demoHistory ++ [.upsert 1 [1]])).1.dirty ≠ [] := by
  rw [run_append]; simp [run, step, upsertByHash, AMap.insert]

/-! ## C07 -/

/-- **C07** In normal operation a commit without dirty writes always succeeds; its layer number is
one above the number `last_layer` reports before, and `last_layer` reports it (with its fingerprint)
afterwards. -/
theorem C07_commit_consecutive (hh : Hasher) (ops : List Op) (hops : RewindsFrom (-2) ops)
    (ord : Ord) (hd : (run hh fresh ops).1.dirty = []) :
    ∃ L fp₀ fp, lastLayer (run hh fresh ops).1 = .ok (L, fp₀) ∧
      (commit ord (run hh fresh ops).1).2 = .ok (L + 1, fp) ∧
      lastLayer (commit ord (run hh fresh ops).1).1 = .ok (L + 1, fp) := by
  have hinv := inv_run hh inv_fresh ops hops
  obtain ⟨prev, hprev, he⟩ := commit_ok hinv hd ord
  refine ⟨(run hh fresh ops).1.next.id - 1, prev, prev ^^^ (run hh fresh ops).1.next.xorFingerprint,
    ?_, ?_, ?_⟩
  · unfold lastLayer; simp only [hprev]
  · rw [he]
    have : (run hh fresh ops).1.next.id - 1 + 1 = (run hh fresh ops).1.next.id := by omega
    rw [this]
  · rw [he]
    unfold lastLayer
    have : (run hh fresh ops).1.next.id + 1 - 1 = (run hh fresh ops).1.next.id := by omega
    simp only [this, queryFingerprint_committed hinv]
    congr 2
    omega

/-- The first commit creates layer -1, and after a rewind to `l` the next commit creates `l + 1`. -/
theorem C07_numbers (hh : Hasher) (ops : List Op) (hops : RewindsFrom (-2) ops) (ord : Ord) :
    (commit ord fresh).2 = .ok (-1, 0#256) ∧
    (∀ l, -2 ≤ l → (rewind (run hh fresh ops).1 l).2 = .ok () →
      ∃ fp, (commit ord (rewind (run hh fresh ops).1 l).1).2 = .ok (l + 1, fp)) := by
  have hinv := inv_run hh inv_fresh ops hops
  refine ⟨?_, fun l hl2 h => ?_⟩
  · obtain ⟨prev, hprev, he⟩ := commit_ok inv_fresh rfl ord
    rw [he]
    have : prev = 0#256 := by
      have h0 : queryFingerprint fresh.db (fresh.next.id - 1) true = some 0#256 := rfl
      rw [h0] at hprev; exact (Option.some.inj hprev).symm
    subst this
    rfl
  · have hl : l < (run hh fresh ops).1.next.id := by
      apply Classical.byContradiction
      intro hn
      unfold rewind at h
      simp [hn] at h
    have hd : (run hh fresh ops).1.dirty = [] := by
      apply Classical.byContradiction
      intro hne
      have := ((C06_dirty_refused (run hh fresh ops).1 ord l).1 hne).2 hl
      rw [this] at h; cases h
    rw [rewind_ok hinv hd hl] at h ⊢
    obtain ⟨prev, _, he⟩ := commit_ok (inv_rewound hinv hl hl2) rfl ord
    exact ⟨_, by rw [he]⟩

example : (run demoHasher fresh demoHistory).1.dirty = [] := by rfl
example : (rewind (run demoHasher fresh demoHistory).1 (-1)).2 = .ok () := by rfl

/-! ## C08 -/

/-- The full claim of C08: a crash inside commit is invisible to reads. -/
def CrashInvisible (hh : Hasher) : Prop :=
  ∀ ops, RewindsFrom (-2) ops → (run hh fresh ops).1.dirty = [] → ∀ ord n,
    n < (commitStmts ord 0 0 (run hh fresh ops).1.next.changes).length → ∀ k,
      queryCurrent (commitCrash ord (run hh fresh ops).1 n) k
        = queryCurrent (run hh fresh ops).1.db k

/-- **C08 is false**, for every hash function: the read query joins values with *any* complete
layer, so the rows of an interrupted commit are returned. -/
theorem C08_crash_invisible_false (hh : Hasher) : ¬ CrashInvisible hh := by
  intro h
  have h1 := h [.upsert 7 [1], .checkpoint .id] ?_ rfl .id 2 ?_ 7
  · have e1 : queryCurrent (commitCrash .id (run hh fresh [.upsert 7 [1], .checkpoint .id]).1 2) 7
        = some [1] := by rfl
    have e2 : queryCurrent (run hh fresh [.upsert 7 [1], .checkpoint .id]).1.db 7 = none := by rfl
    rw [e1, e2] at h1
    cases h1
  · intro op hop; simp at hop; rcases hop with rfl | rfl <;> simp [Op.RewindsFrom]
  · have : (commitStmts .id 0 0 (run hh fresh [.upsert 7 [1], .checkpoint .id]).1.next.changes).length
        = 3 := by rfl
    omega

/-- How the crash database looks like: all layers and values of before the commit, plus possibly an
incomplete layer row and some values of that layer. -/
theorem commitCrash_shape {s : Storage} (h : Inv s) (ord : Ord) (n : Nat)
    (hn : n < (commitStmts ord 0 0 s.next.changes).length) :
    (commitCrash ord s n = s.db ∧ n = 0) ∨
    ∃ fp, commitCrash ord s n =
      { layers := s.db.layers ++ [⟨s.next.id, fp, false⟩]
        values := s.db.values ++
          ((ord.run s.next.changes).take (n - 1)).map fun p => ⟨p.1, p.2, s.next.id⟩ } := by
  have hng := h.next_gt
  obtain ⟨prev, hprev⟩ := h.fingerprint_isSome (l := s.next.id - 1) (by omega) (by omega)
  unfold commitCrash
  rw [hprev]
  simp only
  cases n with
  | zero => left; exact ⟨by simp [execAll], rfl⟩
  | succ n =>
    right
    refine ⟨prev ^^^ s.next.xorFingerprint, ?_⟩
    have hno : (s.db.layers.any fun r => decide (r.id = s.next.id)) = false := by
      rw [Bool.eq_false_iff]
      intro hany
      obtain ⟨r, hr, hid⟩ := List.any_eq_true.1 hany
      have := (h.mem_id (l := s.next.id)).1 ⟨r, hr, by simpa using hid⟩
      omega
    have hlen : n ≤ ((ord.run s.next.changes).map
        fun c => Stmt.insertValue c.1 c.2 s.next.id).length := by
      simp [commitStmts] at hn ⊢; omega
    unfold commitStmts
    simp only [List.take_succ_cons, execAll, Stmt.exec, hno, Bool.false_eq_true, if_false]
    rw [List.take_append_of_le_length hlen, ← List.map_take]
    rw [execAll_insertValues _ _ _ (by simp)]
    simp

/-- **C08, what does hold**: at every crash point the rows that belong to complete layers are exactly
those of before the commit, and the cleanup statement of `delete_bad_layers` makes every read return
what it returned before the commit. Missing for the full claim: the read query must relate
`values.layer_id` to `layers.id`, or the cleanup must be reachable (see C09). -/
theorem C08_crash_cleanup_partial (hh : Hasher) (ops : List Op) (hops : RewindsFrom (-2) ops)
    (ord : Ord) (n : Nat)
    (hn : n < (commitStmts ord 0 0 (run hh fresh ops).1.next.changes).length) :
    let s := (run hh fresh ops).1
    let db := commitCrash ord s n
    ((db.values.filter fun v => db.layers.any fun r => r.complete && decide (r.id = v.layerId))
      = s.db.values) ∧
    ∃ db', Stmt.deleteBadValues.exec db = some db' ∧
      (∀ k, queryCurrent db' k = queryCurrent s.db k) ∧
      (∀ k l, queryHistorical db' k l = queryHistorical s.db k l) := by
  intro s db
  have hinv : Inv s := inv_run hh inv_fresh ops hops
  -- rows of old layers are complete, rows of the new one are not
  have hold : ∀ v ∈ s.db.values, ∃ r ∈ s.db.layers, r.complete = true ∧ r.id = v.layerId := by
    intro v hv
    have := hinv.vals v hv
    obtain ⟨r, hr, hid⟩ := (hinv.mem_id (l := v.layerId)).2 ⟨by omega, this.2⟩
    exact ⟨r, hr, hinv.complete r hr, hid⟩
  have hnew : ∀ r ∈ s.db.layers, r.id ≠ s.next.id := by
    intro r hr he
    have := (hinv.mem_id (l := s.next.id)).1 ⟨r, hr, he⟩
    omega
  rcases commitCrash_shape hinv ord n hn with ⟨hdb, _⟩ | ⟨fp, hdb⟩
  · have hdb' : db = s.db := hdb
    rw [hdb']
    refine ⟨?_, ⟨s.db.layers, s.db.values⟩, ?_, fun k => rfl, fun k l => rfl⟩
    · apply List.filter_eq_self.2
      intro v hv
      obtain ⟨r, hr, hc, hid⟩ := hold v hv
      exact List.any_eq_true.2 ⟨r, hr, by simp [hc, hid]⟩
    · simp only [Stmt.exec]
      congr 2
      apply List.filter_eq_self.2
      intro v _
      simp only [Bool.not_eq_eq_eq_not, Bool.not_true]
      rw [Bool.eq_false_iff]
      intro hany
      obtain ⟨r, hr, hc⟩ := List.any_eq_true.1 hany
      simp [hinv.complete r hr] at hc
  · have hdb' : db = _ := hdb
    rw [hdb']
    have hbad : ∀ v ∈ s.db.values,
        ((s.db.layers ++ [(⟨s.next.id, fp, false⟩ : LayerRow)]).any fun r =>
          decide (r.complete = false) && decide (r.id = v.layerId)) = false := by
      intro v hv
      rw [Bool.eq_false_iff]
      intro hany
      obtain ⟨r, hr, hc⟩ := List.any_eq_true.1 hany
      simp only [Bool.and_eq_true, decide_eq_true_eq] at hc
      rcases List.mem_append.1 hr with hr | hr
      · rw [hinv.complete r hr] at hc; simp at hc
      · simp only [List.mem_singleton] at hr
        have := (hinv.vals v hv).2
        subst hr
        simp only at hc
        omega
    refine ⟨?_, ⟨s.db.layers ++ [⟨s.next.id, fp, false⟩], s.db.values⟩, ?_, ?_, ?_⟩
    · simp only [List.filter_append]
      have e1 : s.db.values.filter (fun v =>
          (s.db.layers ++ [(⟨s.next.id, fp, false⟩ : LayerRow)]).any fun r =>
            r.complete && decide (r.id = v.layerId)) = s.db.values := by
        apply List.filter_eq_self.2
        intro v hv
        obtain ⟨r, hr, hc, hid⟩ := hold v hv
        exact List.any_eq_true.2 ⟨r, List.mem_append_left _ hr, by simp [hc, hid]⟩
      have e2 : List.filter (fun v : ValueRow =>
          (s.db.layers ++ [(⟨s.next.id, fp, false⟩ : LayerRow)]).any fun r =>
            r.complete && decide (r.id = v.layerId))
          (((ord.run s.next.changes).take (n - 1)).map fun p => ⟨p.1, p.2, s.next.id⟩) = [] := by
        rw [List.filter_eq_nil_iff]
        intro v hv hany
        obtain ⟨p, _, rfl⟩ := List.mem_map.1 hv
        obtain ⟨r, hr, hc⟩ := List.any_eq_true.1 hany
        simp only [Bool.and_eq_true, decide_eq_true_eq] at hc
        rcases List.mem_append.1 hr with hr | hr
        · exact hnew r hr hc.2
        · simp only [List.mem_singleton] at hr
          subst hr; simp at hc
      rw [e1, e2, List.append_nil]
    · simp only [Stmt.exec]
      congr 2
      rw [List.filter_append]
      have e1 : s.db.values.filter (fun v =>
          !((s.db.layers ++ [(⟨s.next.id, fp, false⟩ : LayerRow)]).any fun r =>
            decide (r.complete = false) && decide (r.id = v.layerId))) = s.db.values := by
        apply List.filter_eq_self.2
        intro v hv
        rw [hbad v hv]; rfl
      have e2 : List.filter (fun v : ValueRow =>
          !((s.db.layers ++ [(⟨s.next.id, fp, false⟩ : LayerRow)]).any fun r =>
            decide (r.complete = false) && decide (r.id = v.layerId)))
          (((ord.run s.next.changes).take (n - 1)).map fun p => ⟨p.1, p.2, s.next.id⟩) = [] := by
        rw [List.filter_eq_nil_iff]
        intro v hv
        obtain ⟨p, _, rfl⟩ := List.mem_map.1 hv
        simp
      rw [e1, e2, List.append_nil]
    · intro k
      unfold queryCurrent
      have : ((s.db.layers ++ [(⟨s.next.id, fp, false⟩ : LayerRow)]).any fun r => r.complete)
          = s.db.layers.any fun r => r.complete := by simp
      simp only [this]
    · intro k l
      unfold queryHistorical
      have : ((s.db.layers ++ [(⟨s.next.id, fp, false⟩ : LayerRow)]).any fun r => r.complete)
          = s.db.layers.any fun r => r.complete := by simp
      simp only [this]

example : 2 < (commitStmts .id 0 0 (run demoHasher fresh
    [.upsert 7 [1], .upsert 8 [2], .checkpoint .id]).1.next.changes).length := by decide

/-! ## C11 -/

/-- Write-only histories: writes and checkpoints. -/
def Op.WriteOnly : Op → Prop
  | .upsert _ _ | .checkpoint _ => True
  | _ => False

/-- The writes of a history, newest first. -/
def writesOf : List Op → List (State × Bytes)
  | [] => []
  | .upsert k v :: ops => writesOf ops ++ [(k, v)]
  | _ :: ops => writesOf ops

theorem writeOnly_spec (a : Spec) (ops : List Op) (hw : ∀ op ∈ ops, op.WriteOnly) :
    (a.run ops).1.snaps = a.snaps ∧
    ∀ k, (lastWrite k (a.run ops).1.dirty).or (lastWrite k (a.run ops).1.pending)
      = (lastWrite k (writesOf ops)).or ((lastWrite k a.dirty).or (lastWrite k a.pending)) := by
  induction ops generalizing a with
  | nil => exact ⟨rfl, fun k => by simp [Spec.run, writesOf, lastWrite]⟩
  | cons op ops ih =>
    have hop := hw op List.mem_cons_self
    have ih' := ih (a.step op).1 (fun o ho => hw o (List.mem_cons_of_mem _ ho))
    simp only [Spec.run]
    cases op with
    | upsert k v =>
      refine ⟨ih'.1, fun k' => ?_⟩
      rw [ih'.2 k']
      simp only [Spec.step, writesOf, lastWrite_append, lastWrite]
      cases lastWrite k' (writesOf ops) with
      | some x => simp
      | none => split <;> simp
    | checkpoint ord =>
      refine ⟨ih'.1, fun k' => ?_⟩
      rw [ih'.2 k']
      simp only [Spec.step, writesOf, lastWrite_append, lastWrite, Option.none_or]
    | commit _ => exact absurd hop (by simp [Op.WriteOnly])
    | rollback => exact absurd hop (by simp [Op.WriteOnly])
    | rewind _ => exact absurd hop (by simp [Op.WriteOnly])
    | get _ _ => exact absurd hop (by simp [Op.WriteOnly])
    | lastLayer => exact absurd hop (by simp [Op.WriteOnly])
    | hasUncommitted => exact absurd hop (by simp [Op.WriteOnly])

theorem writeOnly_keeps (hh : Hasher) (s : Storage) (ops : List Op)
    (hw : ∀ op ∈ ops, op.WriteOnly) :
    (run hh s ops).1.db = s.db ∧ (run hh s ops).1.next.id = s.next.id ∧
    (run hh s ops).1.next.xorFingerprint = s.next.xorFingerprint := by
  induction ops generalizing s with
  | nil => exact ⟨rfl, rfl, rfl⟩
  | cons op ops ih =>
    have hop := hw op List.mem_cons_self
    have ih' := ih (step hh s op).1 (fun o ho => hw o (List.mem_cons_of_mem _ ho))
    simp only [run]
    cases op <;> simp_all [Op.WriteOnly, step, upsertByHash, checkpoint_eq]

theorem writeOnly_valid {ops : List Op} (hw : ∀ op ∈ ops, op.WriteOnly) (m : Int) :
    RewindsFrom m ops := by
  intro op hop
  have := hw op hop
  cases op <;> simp_all [Op.WriteOnly, Op.RewindsFrom]

/-- **C11** Only the net effect of the writes of a layer matters: two write sequences (with
checkpoints anywhere, and any hash-map iteration orders) that leave the same last value for every
key lead, after a final checkpoint and commit, to the same layer number, the same fingerprint and
the same answer for every read, current or historical. -/
theorem C11_order_independent (hh : Hasher) (ops₀ ops₁ ops₂ : List Op)
    (h₀ : RewindsFrom (-2) ops₀)
    (hw₁ : ∀ op ∈ ops₁, op.WriteOnly) (hw₂ : ∀ op ∈ ops₂, op.WriteOnly)
    (hnet : ∀ k, lastWrite k (writesOf ops₁) = lastWrite k (writesOf ops₂))
    (o₁ o₂ o₁' o₂' : Ord) :
    let s := (run hh fresh ops₀).1
    let r₁ := commit o₁' (checkpoint hh o₁ (run hh s ops₁).1)
    let r₂ := commit o₂' (checkpoint hh o₂ (run hh s ops₂).1)
    r₁.2 = r₂.2 ∧ ∀ k l, getByHash r₁.1 k l = getByHash r₂.1 k l := by
  intro s r₁ r₂
  have hs := (sim_run hh sim_fresh ops₀ h₀).1
  -- one lemma for both sides
  have key : ∀ ops (o o' : Ord), (∀ op ∈ ops, op.WriteOnly) →
      let t := checkpoint hh o (run hh s ops).1
      let r := commit o' t
      ∃ prev, queryFingerprint s.db (s.next.id - 1) true = some prev ∧
        r.2 = .ok (s.next.id, prev ^^^ s.next.xorFingerprint) ∧
        Sim r.1 { snaps := (fun k => (lastWrite k (writesOf ops)).or
                    (((lastWrite k (Spec.init.run ops₀).1.dirty).or
                      (lastWrite k (Spec.init.run ops₀).1.pending)).or
                        ((Spec.init.run ops₀).1.top k))) :: (Spec.init.run ops₀).1.snaps
                  pending := [], dirty := [] } := by
    intro ops o o' hw t r
    have h1 := (sim_run hh hs ops (writeOnly_valid hw _)).1
    have h2 := (sim_step hh h1 (.checkpoint o) trivial).1
    have h3 := (sim_step hh h2 (.commit o') trivial).1
    have hk := writeOnly_keeps hh s ops hw
    have htd : t.dirty = [] := by simp [t, checkpoint_eq]
    have htdb : t.db = s.db := by simp [t, checkpoint_eq, hk.1]
    have htid : t.next.id = s.next.id := by simp [t, checkpoint_eq, hk.2.1]
    have htx : t.next.xorFingerprint = s.next.xorFingerprint := by simp [t, checkpoint_eq, hk.2.2]
    obtain ⟨prev, hprev, he⟩ := commit_ok (s := t) h2.inv htd o'
    rw [htdb, htid] at hprev
    refine ⟨prev, hprev, ?_, ?_⟩
    · simp only [r]; rw [he, htid, htx]
    · have hspec := writeOnly_spec (Spec.init.run ops₀).1 ops hw
      have e : ((((Spec.init.run ops₀).1.run ops).1.step (.checkpoint o)).1.step (.commit o')).1
          = { snaps := (fun k => (lastWrite k (writesOf ops)).or
                    (((lastWrite k (Spec.init.run ops₀).1.dirty).or
                      (lastWrite k (Spec.init.run ops₀).1.pending)).or
                        ((Spec.init.run ops₀).1.top k))) :: (Spec.init.run ops₀).1.snaps
              pending := [], dirty := [] } := by
        simp only [Spec.step, ne_eq, not_true, if_false]
        congr 1
        rw [hspec.1]
        congr 1
        funext k
        rw [lastWrite_append, hspec.2 k]
        simp only [Spec.top]
        cases lastWrite k (writesOf ops) <;> simp
      rw [← e]
      exact h3
  obtain ⟨p₁, hp₁, hr₁, hs₁⟩ := key ops₁ o₁ o₁' hw₁
  obtain ⟨p₂, hp₂, hr₂, hs₂⟩ := key ops₂ o₂ o₂' hw₂
  refine ⟨?_, ?_⟩
  · rw [hp₁] at hp₂
    cases hp₂
    exact hr₁.trans hr₂.symm
  · intro k l
    have hfun : (fun k => (lastWrite k (writesOf ops₁)).or
                    (((lastWrite k (Spec.init.run ops₀).1.dirty).or
                      (lastWrite k (Spec.init.run ops₀).1.pending)).or
                        ((Spec.init.run ops₀).1.top k)))
        = (fun k => (lastWrite k (writesOf ops₂)).or
                    (((lastWrite k (Spec.init.run ops₀).1.dirty).or
                      (lastWrite k (Spec.init.run ops₀).1.pending)).or
                        ((Spec.init.run ops₀).1.top k))) := by
      funext k; rw [hnet k]
    rw [← hfun] at hs₂
    cases l with
    | none => rw [hs₁.get k, hs₂.get k]
    | some l =>
      have hn : r₁.1.next.id = r₂.1.next.id := by rw [hs₁.next, hs₂.next]
      by_cases hl : l < r₁.1.next.id
      · have hl' : l < r₂.1.next.id := by omega
        simp only [getByHash, hl, hl', if_true]
        rw [hs₁.inv.queryHistorical, hs₂.inv.queryHistorical, hs₁.hist l k hl, hs₂.hist l k hl']
      · have hl' : ¬ l < r₂.1.next.id := by omega
        simp only [getByHash, hl, hl', if_false]

example : ∀ k, lastWrite k (writesOf [.upsert 1 [1], .upsert 2 [2], .checkpoint .id, .upsert 1 [3]])
    = lastWrite k (writesOf [.upsert 1 [3], .checkpoint .rev, .upsert 2 [2]]) := by
  intro k
  simp only [writesOf, List.nil_append, List.cons_append, lastWrite]
  by_cases h1 : 1#256 = k
  · subst h1; decide
  · simp [h1]

end Svm.Storage
