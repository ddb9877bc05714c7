import Verif.Storage.Props
import Mathlib.Data.List.Basic

/-!
# C140: commits that the database does not finish

The statements of `Storage::commit` and `Storage::rewind` (crates/host/state/src/storage.rs:253-301, 354-377) can
fail: a full disk, a locked file, an I/O error. Such a statement has no effect, the function returns the error, and
the process goes on with the same `Storage`.
-/

namespace Svm.Storage

/-! ## Model -/

/-- The statement of `commit` that the database does not execute. -/
inductive Fault where
  /-- the `SELECT` of `layer_fingerprint`, storage.rs:260. -/
  | query
  /-- the `INSERT` of the layer, storage.rs:262. -/
  | layer
  /-- one of the `INSERT`s of values, storage.rs:266-281. They are futures joined by `try_join_all`: `done` are
  those that have been executed nevertheless. -/
  | values (done : List (State × Bytes))
  /-- the `UPDATE` that completes the layer, storage.rs:283-294. -/
  | complete

/-- `commit`, storage.rs:253-301, with a statement that fails. The pending changes are moved out before the first
statement (`std::mem::take`, line 259).
Simplification: no statement is still executed after `commit` has returned. -/
def commitFault (ord : Ord) (f : Fault) (s : Storage) : Storage × Outcome StorageError (Int × State) :=
  if !s.dirty.isEmpty then (s, .err .dirtyChanges)
  else
    let layer := s.next.id
    let s1 := { s with next := { s.next with changes := [] } }
    match f, queryFingerprint s.db (layer - 1) true with
    | .query, _ => (s1, .err .sqlite)
    | _, none => (s1, .err .sqlite)
    | .layer, some _ => (s1, .err .sqlite)
    | .values done, some prev =>
      ({ s1 with db := (execAll s.db (.insertLayer layer (prev ^^^ s.next.xorFingerprint) false ::
          done.map fun c => Stmt.insertValue c.1 c.2 layer)).1 }, .err .sqlite)
    | .complete, some prev =>
      ({ s1 with db := (execAll s.db (.insertLayer layer (prev ^^^ s.next.xorFingerprint) false ::
          (ord.run s.next.changes).map fun c => Stmt.insertValue c.1 c.2 layer)).1 }, .err .sqlite)

/-- `rewind`, storage.rs:354-377, if the `DELETE` fails. -/
def rewindFault (layer : Int) (s : Storage) : Storage × Outcome StorageError Unit :=
  if layer < s.next.id then
    if !s.dirty.isEmpty then (s, .err .dirtyChanges) else (s, .err .sqlite)
  else (s, .panic)

/-- An operation, or one during which the database fails. -/
inductive FOp where
  | op (o : Op)
  | commit (ord : Ord) (f : Fault)
  | rewind (layer : Int)

/-- One operation. -/
def fstep (h : Hasher) (s : Storage) : FOp → Storage × Obs
  | .op o => step h s o
  | .commit ord f => let r := commitFault ord f s; (r.1, obsOf (fun x => .layer x.1) r.2)
  | .rewind l => let r := rewindFault l s; (r.1, obsOf (fun _ => .unit) r.2)

/-- A whole history. -/
def frun (h : Hasher) (s : Storage) : List FOp → Storage × List Obs
  | [] => (s, [])
  | o :: os =>
    let r := fstep h s o
    let r' := frun h r.1 os
    (r'.1, r.2 :: r'.2)

/-! ## Spec -/

/-- The fault can happen: the executed insertions are some, but not all, of the pending changes. -/
def Fault.Fits (s : Storage) : Fault → Prop
  | .values done => done.Subperm s.next.changes ∧ done.length < s.next.changes.length
  | _ => True

/-- The faults of a history can happen, and no rewind goes below layer -2. -/
def Fits (h : Hasher) : Storage → List FOp → Prop
  | _, [] => True
  | s, o :: os =>
    (match o with
      | .op o => o.RewindsFrom (-2)
      | .commit _ f => f.Fits s
      | .rewind _ => True) ∧ Fits h (fstep h s o).1 os

/-- The store with failing commits: the layered map of `Spec`, and the values of a layer that was begun and not
completed. -/
structure FSpec where
  base : Spec
  begun : Option Snapshot

namespace FSpec

/-- The empty store. -/
def init : FSpec := ⟨Spec.init, none⟩

/-- What a read of `k` without a layer returns: the newest of the uncommitted values, the values of the begun
layer, and the values of the newest layer. -/
def current (a : FSpec) (k : State) : Option Bytes :=
  (lastWrite k a.base.dirty).or ((lastWrite k a.base.pending).or
    ((a.begun.bind fun g => g k).or (a.base.top k)))

/-- The pending changes are gone. -/
def forget (a : FSpec) : FSpec := { a with base := { a.base with pending := [] } }

/-- One operation. -/
def step (a : FSpec) : FOp → FSpec × Obs
  | .op (.get k none) => (a, .value (a.current k))
  | .op (.commit ord) =>
    if a.base.dirty = [] ∧ a.begun.isSome then (a.forget, .sqliteError)
    else ({ a with base := (a.base.step (.commit ord)).1 }, (a.base.step (.commit ord)).2)
  | .op (.rewind l) =>
    (⟨(a.base.step (.rewind l)).1, if (a.base.step (.rewind l)).2 = .unit then none else a.begun⟩,
      (a.base.step (.rewind l)).2)
  | .op o => ({ a with base := (a.base.step o).1 }, (a.base.step o).2)
  | .commit _ f =>
    if a.base.dirty ≠ [] then (a, .dirtyError)
    else ({ a.forget with begun := match a.begun, f with
        | some g, _ => some g
        | none, .query => none
        | none, .layer => none
        | none, .values done => some fun k => lastWrite k done
        | none, .complete => some fun k => lastWrite k a.base.pending }, .sqliteError)
  | .rewind l =>
    (a, if a.base.nextLayer ≤ l then .panic else if a.base.dirty ≠ [] then .dirtyError else .sqliteError)

/-- A whole history. -/
def run (a : FSpec) : List FOp → FSpec × List Obs
  | [] => (a, [])
  | o :: os =>
    let r := a.step o
    let r' := run r.1 os
    (r'.1, r.2 :: r'.2)

end FSpec

/-- C140 in full: a commit that fails can be repeated. Whatever statement fails, the values that can be read
without a layer stay, and the next commit that the database executes stores them in the layer that failed. -/
def C140_claim (h : Hasher) : Prop :=
  ∀ ops, RewindsFrom (-2) ops → (run h fresh ops).1.dirty = [] → ∀ (ord ord' : Ord) (f : Fault),
    f.Fits (run h fresh ops).1 →
    (∀ k, getByHash (commitFault ord f (run h fresh ops).1).1 k none = getByHash (run h fresh ops).1 k none) ∧
    ∃ fp, (commit ord' (commitFault ord f (run h fresh ops).1).1).2 = .ok ((run h fresh ops).1.next.id, fp)

/-! ## Simulation -/

/-- The tables, with the rows of a layer that was begun. -/
def begunDb (db : Db) (layer : Int) (fp : State) (rows : List (State × Bytes)) : Db :=
  { layers := db.layers ++ [⟨layer, fp, false⟩]
    values := db.values ++ rows.map fun p => ⟨p.1, p.2, layer⟩ }

/-- Simulation relation. -/
def FSim (s : Storage) (a : FSpec) : Prop :=
  ∃ db, Sim { s with db } a.base ∧ match a.begun with
    | none => s.db = db
    | some g => ∃ fp rows, (AMap.keys rows).Nodup ∧ (∀ k, g k = AMap.get rows k) ∧
        s.db = begunDb db s.next.id fp rows

theorem lastWrite_get (k : State) (c : List (State × Bytes)) : lastWrite k c = AMap.get c k := by
  induction c with
  | nil => rfl
  | cons p c ih =>
    obtain ⟨k', v⟩ := p
    simp only [lastWrite, AMap.get_cons, ih]

theorem no_layer {s : Storage} (h : Inv s) : (s.db.layers.any fun r => decide (r.id = s.next.id)) = false := by
  rw [Bool.eq_false_iff]
  intro hany
  obtain ⟨r, hr, hid⟩ := List.any_eq_true.1 hany
  have := (h.mem_id (l := s.next.id)).1 ⟨r, hr, by simpa using hid⟩
  omega

theorem exec_begin {s : Storage} (h : Inv s) (fp : State) (rows : List (State × Bytes)) :
    (execAll s.db (.insertLayer s.next.id fp false ::
      rows.map fun c => Stmt.insertValue c.1 c.2 s.next.id)).1 = begunDb s.db s.next.id fp rows := by
  simp only [execAll, Stmt.exec, no_layer h, Bool.false_eq_true, if_false]
  rw [execAll_insertValues _ _ _ (by simp)]
  rfl

theorem exec_begun (db : Db) (layer : Int) (fp fp' : State) (rows : List (State × Bytes)) (sts : List Stmt) :
    execAll (begunDb db layer fp rows) (.insertLayer layer fp' false :: sts) = (begunDb db layer fp rows, false) := by
  have : ((begunDb db layer fp rows).layers.any fun r => decide (r.id = layer)) = true := by
    simp [begunDb]
  simp only [execAll, Stmt.exec, this, if_true]

theorem fingerprint_begun (db : Db) (layer : Int) (fp : State) (rows : List (State × Bytes)) (l : Int) :
    queryFingerprint (begunDb db layer fp rows) l true = queryFingerprint db l true := by
  unfold queryFingerprint begunDb
  simp only
  rw [List.find?_append]
  simp

theorem rewind_begun {s : Storage} (h : Inv s) (fp : State) (rows : List (State × Bytes)) {l : Int}
    (hl : l < s.next.id) :
    (Stmt.deleteLayersAbove l).exec (begunDb s.db s.next.id fp rows) = (Stmt.deleteLayersAbove l).exec s.db := by
  rw [rewind_exec h]
  have hn : ¬ s.next.id ≤ l := by omega
  simp only [Stmt.exec, begunDb]
  congr 2
  · rw [List.filter_append]
    simp [hn]
  · rw [List.filter_append]
    have h2 : (rows.map fun p => (⟨p.1, p.2, s.next.id⟩ : ValueRow)).filter (fun v =>
        !((s.db.layers ++ [(⟨s.next.id, fp, false⟩ : LayerRow)]).any fun r =>
          decide (r.id > l) && decide (r.id = v.layerId))) = [] := by
      rw [List.filter_eq_nil_iff]
      intro v hv
      obtain ⟨p, -, rfl⟩ := List.mem_map.1 hv
      simp [hl]
    rw [h2, List.append_nil]
    apply List.filter_congr
    intro v hv
    have hvl := h.vals v hv
    by_cases hle : v.layerId ≤ l
    · simp only [hle, decide_true, Bool.not_eq_eq_eq_not, Bool.not_true]
      rw [Bool.eq_false_iff]
      intro hany
      obtain ⟨r, _, hr⟩ := List.any_eq_true.1 hany
      simp only [gt_iff_lt, Bool.and_eq_true, decide_eq_true_eq] at hr
      omega
    · simp only [hle, decide_false, Bool.not_eq_eq_eq_not, Bool.not_false]
      obtain ⟨r, hr, hid⟩ := (h.mem_id (l := v.layerId)).2 ⟨by omega, hvl.2⟩
      apply List.any_eq_true.2
      refine ⟨r, List.mem_append_left _ hr, ?_⟩
      simp only [gt_iff_lt, Bool.and_eq_true, decide_eq_true_eq]
      omega

theorem any_begun {s : Storage} (h : Inv s) (fp : State) (rows : List (State × Bytes)) :
    ((begunDb s.db s.next.id fp rows).layers.any fun r => r.complete) = true := by
  simp [begunDb, h.any_complete]

theorem current_begun {s : Storage} (h : Inv s) (fp : State) {rows : List (State × Bytes)}
    (hn : (AMap.keys rows).Nodup) (k : State) :
    queryCurrent (begunDb s.db s.next.id fp rows) k = (AMap.get rows k).or (queryCurrent s.db k) := by
  rw [h.queryCurrent, ← readUpTo_of_all_le s.db.values (s.next.id - 1) s.next.id k
    (fun v hv => by have := (h.vals v hv).2; omega) (by omega),
    ← readUpTo_append s.db.values rows s.next.id s.next.id k (fun v hv => (h.vals v hv).2) (by omega) hn]
  unfold queryCurrent readUpTo rowsUpTo
  rw [any_begun h]
  congr 2
  apply List.filter_congr
  intro v hv
  have : v.layerId ≤ s.next.id := by
    rcases List.mem_append.1 hv with hv | hv
    · have := (h.vals v hv).2; omega
    · obtain ⟨p, -, rfl⟩ := List.mem_map.1 hv
      exact Int.le_refl _
  simp [this]

theorem historical_begun {s : Storage} (h : Inv s) (fp : State) (rows : List (State × Bytes)) (k : State) {l : Int}
    (hl : l < s.next.id) :
    queryHistorical (begunDb s.db s.next.id fp rows) k l = queryHistorical s.db k l := by
  rw [h.queryHistorical, ← readUpTo_append_old s.db.values rows s.next.id l k hl]
  unfold queryHistorical readUpTo rowsUpTo
  rw [any_begun h]
  simp [begunDb]

/-- Lookup of the current value, with any tables. -/
theorem get_current {s : Storage} {a : Spec} {db : Db} (h : Sim { s with db } a) (k : State) :
    getByHash s k none =
      .ok ((lastWrite k a.dirty).or ((lastWrite k a.pending).or (queryCurrent s.db k))) := by
  unfold getByHash
  simp only
  rw [← h.dirty k, ← h.pending k]
  cases hd : s.dirty.get k with
  | some v => simp
  | none =>
    cases hp : s.next.changes.get k with
    | some v => simp
    | none => simp

/-- A storage without pending changes. -/
theorem sim_forget {s : Storage} {a : Spec} (h : Sim s a) :
    Sim { s with next := { s.next with changes := [] } } { a with pending := [] } :=
  ⟨⟨h.inv.next_gt, h.inv.ids, h.inv.complete, h.inv.vals, h.inv.rowsNodup, h.inv.dirty, by simp [AMap.keys]⟩,
    h.next, h.dirty, h.dirtyNil, fun k => by simp [lastWrite], h.hist⟩

theorem fsim_fresh : FSim fresh FSpec.init := ⟨fresh.db, sim_fresh, rfl⟩

/-- Every operation preserves the simulation and is observed in the same way. -/
theorem fsim_step (hh : Hasher) {s : Storage} {a : FSpec} (h : FSim s a) (o : FOp) (ho : Fits hh s [o]) :
    FSim (fstep hh s o).1 (a.step o).1 ∧ (fstep hh s o).2 = (a.step o).2 := by
  obtain ⟨db, hs, hb⟩ := h
  obtain ⟨a, begun⟩ := a
  simp only at hs hb
  cases o with
  | op o =>
    have ho : o.RewindsFrom (-2) := ho.1
    have hst := sim_step hh hs o ho
    cases begun with
    | none =>
      simp only at hb
      subst hb
      have hstep : FSpec.step ⟨a, none⟩ (.op o) = (⟨(a.step o).1, none⟩, (a.step o).2) := by
        cases o with
        | get k l => cases l <;> simp [FSpec.step, Spec.step, FSpec.current, Spec.current]
        | commit ord => simp [FSpec.step]
        | rewind l => simp [FSpec.step]
        | upsert | checkpoint | rollback | lastLayer | hasUncommitted => rfl
      rw [hstep]
      exact ⟨⟨_, hst.1, rfl⟩, hst.2⟩
    | some g =>
      obtain ⟨fp, rows, hn, hg, hdb⟩ := hb
      have inv : Inv { s with db } := hs.inv
      cases o with
      | upsert k v => exact ⟨⟨db, hst.1, fp, rows, hn, hg, hdb⟩, rfl⟩
      | checkpoint ord =>
        refine ⟨⟨db, hst.1, fp, rows, hn, hg, ?_⟩, rfl⟩
        simp only [fstep, step, checkpoint_eq]
        exact hdb
      | rollback => exact ⟨⟨db, hst.1, fp, rows, hn, hg, hdb⟩, rfl⟩
      | hasUncommitted => exact ⟨⟨db, hst.1, fp, rows, hn, hg, hdb⟩, hst.2⟩
      | lastLayer =>
        refine ⟨⟨db, hst.1, fp, rows, hn, hg, hdb⟩, ?_⟩
        refine Eq.trans ?_ hst.2
        simp only [fstep, step, lastLayer, hdb, fingerprint_begun]
      | get k l =>
        cases l with
        | none =>
          refine ⟨⟨db, hs, fp, rows, hn, hg, hdb⟩, ?_⟩
          simp only [fstep, step, FSpec.step, FSpec.current, get_current hs, hdb, current_begun inv fp hn, obsOf,
            Option.bind_some, hg, show queryCurrent db k = a.top k from hs.top k]
        | some l =>
          refine ⟨⟨db, hst.1, fp, rows, hn, hg, hdb⟩, ?_⟩
          refine Eq.trans ?_ hst.2
          simp only [fstep, step, getByHash]
          by_cases hl : l < s.next.id
          · simp only [hl, if_true, hdb, historical_begun inv fp rows k hl]
          · simp only [hl, if_false]
      | commit ord =>
        by_cases hd : s.dirty = []
        · have ha : a.dirty = [] := hs.dirtyNil.1 hd
          obtain ⟨prev, hprev, -⟩ := commit_ok inv hd ord
          have hc : commit ord s = ({ s with next := { s.next with changes := [] } }, .err .sqlite) := by
            unfold commit
            simp only [hd, List.isEmpty_nil, Bool.not_true, Bool.false_eq_true, if_false, hdb,
              fingerprint_begun]
            rw [show queryFingerprint db (s.next.id - 1) true = some prev from hprev]
            simp only [commitStmts, exec_begun]
          simp only [fstep, step, hc, FSpec.step, ha, Option.isSome_some, and_self, if_true, obsOf]
          exact ⟨⟨db, sim_forget hs, fp, rows, hn, hg, hdb⟩, trivial⟩
        · have ha : a.dirty ≠ [] := fun e => hd (hs.dirtyNil.2 e)
          simp only [fstep, step, commit_dirty hd, FSpec.step, Spec.step, ha, false_and, if_false, ne_eq,
            not_false_eq_true, if_true, obsOf]
          exact ⟨⟨db, hs, fp, rows, hn, hg, hdb⟩, trivial⟩
      | rewind l =>
        by_cases hl : l < s.next.id
        · by_cases hd : s.dirty = []
          · have hrw : rewind s l = rewind { s with db } l := by
              rw [rewind_ok inv hd hl]
              unfold rewind
              simp only [hl, if_true, hd, List.isEmpty_nil, Bool.not_true, Bool.false_eq_true, if_false]
              rw [hdb, rewind_begun inv fp rows hl, rewind_exec inv]
            have hobs : (a.step (.rewind l)).2 = .unit := by
              rw [← hst.2]
              simp only [step, rewind_ok inv hd hl, obsOf]
            simp only [fstep, FSpec.step, hobs, if_true]
            have he : step hh s (.rewind l) = step hh { s with db } (.rewind l) := by simp only [step, hrw]
            rw [he]
            exact ⟨⟨_, hst.1, rfl⟩, hst.2.trans hobs⟩
          · have ha : a.dirty ≠ [] := fun e => hd (hs.dirtyNil.2 e)
            have hl' : ¬ a.nextLayer ≤ l := by have := hs.next; simp only at this; omega
            have hr : rewind s l = (s, .err .dirtyChanges) := by
              unfold rewind
              cases hd' : s.dirty with
              | nil => exact absurd hd' hd
              | cons a b => simp [hl]
            simp only [fstep, step, hr, FSpec.step, Spec.step, hl', ha, if_false, ne_eq, not_false_eq_true, if_true,
              obsOf]
            exact ⟨⟨db, hs, fp, rows, hn, hg, hdb⟩, trivial⟩
        · have hl' : a.nextLayer ≤ l := by have := hs.next; simp only at this; omega
          have hr : rewind s l = (s, .panic) := by unfold rewind; simp [hl]
          simp only [fstep, step, hr, FSpec.step, Spec.step, hl', if_true, obsOf]
          exact ⟨⟨db, hs, fp, rows, hn, hg, hdb⟩, trivial⟩
  | commit ord f =>
    have hf : f.Fits s := ho.1
    by_cases hd : s.dirty = []
    · have ha : a.dirty = [] := hs.dirtyNil.1 hd
      have inv : Inv { s with db } := hs.inv
      obtain ⟨prev, hprev, -⟩ := commit_ok inv hd ord
      have hprev : queryFingerprint db (s.next.id - 1) true = some prev := hprev
      have hkn : (AMap.keys (ord.run s.next.changes)).Nodup :=
        ((ord.perm s.next.changes).map Prod.fst).nodup_iff.2 inv.changes
      cases begun with
      | none =>
        simp only at hb
        subst hb
        cases f with
        | query =>
          have hc : commitFault ord .query s = ({ s with next := { s.next with changes := [] } }, .err .sqlite) := by
            unfold commitFault
            simp [hd]
          simp only [fstep, hc, FSpec.step, ha, ne_eq, not_true, if_false, obsOf]
          exact ⟨⟨s.db, sim_forget hs, rfl⟩, trivial⟩
        | layer =>
          have hc : commitFault ord .layer s = ({ s with next := { s.next with changes := [] } }, .err .sqlite) := by
            unfold commitFault
            simp [hd, hprev]
          simp only [fstep, hc, FSpec.step, ha, ne_eq, not_true, if_false, obsOf]
          exact ⟨⟨s.db, sim_forget hs, rfl⟩, trivial⟩
        | values done =>
          have hc : commitFault ord (.values done) s =
              ({ s with next := { s.next with changes := [] }
                        db := begunDb s.db s.next.id (prev ^^^ s.next.xorFingerprint) done }, .err .sqlite) := by
            unfold commitFault
            simp only [hd, List.isEmpty_nil, Bool.not_true, Bool.false_eq_true, if_false, hprev]
            rw [exec_begin inv]
          simp only [fstep, hc, FSpec.step, ha, ne_eq, not_true, if_false, obsOf]
          refine ⟨⟨s.db, sim_forget hs, _, done, ?_, fun k => lastWrite_get k done, rfl⟩, trivial⟩
          obtain ⟨l, hp, hsub⟩ := hf.1
          exact ((hp.map Prod.fst).nodup_iff).1 ((hsub.map Prod.fst).nodup inv.changes)
        | complete =>
          have hc : commitFault ord .complete s =
              ({ s with next := { s.next with changes := [] }
                        db := begunDb s.db s.next.id (prev ^^^ s.next.xorFingerprint) (ord.run s.next.changes) },
                .err .sqlite) := by
            unfold commitFault
            simp only [hd, List.isEmpty_nil, Bool.not_true, Bool.false_eq_true, if_false, hprev]
            rw [exec_begin inv]
          simp only [fstep, hc, FSpec.step, ha, ne_eq, not_true, if_false, obsOf]
          refine ⟨⟨s.db, sim_forget hs, _, _, hkn, fun k => ?_, rfl⟩, trivial⟩
          rw [AMap.get_perm hkn (ord.perm s.next.changes)]
          exact (hs.pending k).symm
      | some g =>
        obtain ⟨fp, rows, hn, hg, hdb⟩ := hb
        have hc : commitFault ord f s = ({ s with next := { s.next with changes := [] } }, .err .sqlite) := by
          unfold commitFault
          simp only [hd, List.isEmpty_nil, Bool.not_true, Bool.false_eq_true, if_false, hdb, fingerprint_begun, hprev]
          cases f <;> simp only [exec_begun]
        simp only [fstep, hc, FSpec.step, ha, ne_eq, not_true, if_false, obsOf]
        exact ⟨⟨db, sim_forget hs, fp, rows, hn, hg, hdb⟩, trivial⟩
    · have ha : a.dirty ≠ [] := fun e => hd (hs.dirtyNil.2 e)
      have hc : commitFault ord f s = (s, .err .dirtyChanges) := by
        unfold commitFault
        cases hd' : s.dirty with
        | nil => exact absurd hd' hd
        | cons a b => simp
      simp only [fstep, hc, FSpec.step, ha, ne_eq, not_false_eq_true, if_true, obsOf]
      exact ⟨⟨db, hs, hb⟩, trivial⟩
  | rewind l =>
    have hs1 : (fstep hh s (.rewind l)).1 = s := by
      simp only [fstep, rewindFault]
      split
      · split <;> rfl
      · rfl
    refine ⟨by rw [hs1]; exact ⟨db, hs, hb⟩, ?_⟩
    have hn : s.next.id = a.nextLayer := hs.next
    simp only [fstep, rewindFault, FSpec.step, ← hn]
    by_cases hl : l < s.next.id
    · have hl' : ¬ s.next.id ≤ l := by omega
      by_cases hd : s.dirty = []
      · have ha : a.dirty = [] := hs.dirtyNil.1 hd
        simp [hl, hl', hd, ha, obsOf]
      · have ha : a.dirty ≠ [] := fun e => hd (hs.dirtyNil.2 e)
        simp [hl, hl', hd, ha, obsOf]
    · have hl' : s.next.id ≤ l := by omega
      simp [hl, hl', obsOf]

theorem fsim_run (hh : Hasher) {s : Storage} {a : FSpec} (h : FSim s a) (os : List FOp) (ho : Fits hh s os) :
    FSim (frun hh s os).1 (a.run os).1 ∧ (frun hh s os).2 = (a.run os).2 := by
  induction os generalizing s a with
  | nil => exact ⟨h, rfl⟩
  | cons o os ih =>
    have h1 := fsim_step hh h o ⟨ho.1, trivial⟩
    have h2 := ih h1.1 ho.2
    simp only [frun, FSpec.run]
    exact ⟨h2.1, by rw [h1.2, h2.2]⟩

/-! ## C140 -/

/-- C140: what a client sees of a store whose database fails now and then, for every history: the operations on the
layered map, except that a commit that fails forgets the pending changes, and that a layer that was begun and not
completed is read and stops all commits until a rewind. -/
theorem C140_refines (hh : Hasher) (os : List FOp) (ho : Fits hh fresh os) :
    (frun hh fresh os).2 = (FSpec.init.run os).2 :=
  (fsim_run hh fsim_fresh os ho).2

/-- C140: if the database fails before the row of the layer is inserted, the pending changes are lost without a
trace: every key has the value of the newest layer, and the next commit succeeds with the number and the fingerprint
that the layer would have had with the changes. -/
theorem C140_lost (hh : Hasher) (ops : List Op) (hops : RewindsFrom (-2) ops) (ord ord' : Ord) (f : Fault)
    (hf : f = .query ∨ f = .layer) (hd : (run hh fresh ops).1.dirty = []) :
    let s := (run hh fresh ops).1
    let s' := (commitFault ord f s).1
    (commitFault ord f s).2 = .err .sqlite ∧
    (∀ k, getByHash s' k none = .ok (queryCurrent s.db k)) ∧
    (∃ fp, (commit ord' s').2 = .ok (s.next.id, fp) ∧ (commit ord' s).2 = .ok (s.next.id, fp)) ∧
    ∀ k, getByHash (commit ord' s').1 k none = .ok (queryCurrent s.db k) := by
  intro s s'
  have hinv : Inv s := inv_run hh inv_fresh ops hops
  obtain ⟨prev, hprev, he⟩ := commit_ok hinv hd ord'
  have hc : commitFault ord f s = ({ s with next := { s.next with changes := [] } }, .err .sqlite) := by
    unfold commitFault
    rcases hf with rfl | rfl <;>
      simp only [show s.dirty = [] from hd, List.isEmpty_nil, Bool.not_true, Bool.false_eq_true, if_false, hprev]
  have hs' : s' = { s with next := { s.next with changes := [] } } := congrArg Prod.fst hc
  have hinv' : Inv s' := by
    rw [hs']
    exact ⟨hinv.next_gt, hinv.ids, hinv.complete, hinv.vals, hinv.rowsNodup, hinv.dirty, by simp [AMap.keys]⟩
  have hd' : s'.dirty = [] := by rw [hs']; exact hd
  obtain ⟨prev', hprev', he'⟩ := commit_ok hinv' hd' ord'
  have hpp : prev' = prev := by
    rw [hs'] at hprev'
    exact Option.some.inj (hprev'.symm.trans hprev)
  subst hpp
  refine ⟨by rw [hc], fun k => ?_, ⟨_, by rw [he', hs'], by rw [he]⟩, fun k => ?_⟩
  · rw [hs']
    unfold getByHash
    simp [show s.dirty = [] from hd]
  · rw [he']
    unfold getByHash
    simp only [AMap.get_nil]
    congr 1
    rw [hs']
    have hrun : ord'.run ([] : Changes) = [] := List.perm_nil.1 (ord'.perm [])
    simp only [committedDb, hrun, List.map_nil, List.append_nil]
    unfold queryCurrent
    simp [hinv.any_complete]

/-- A store with a begun layer does not commit. -/
theorem FSim.stuck {s : Storage} {a : FSpec} (h : FSim s a) (hb : a.begun.isSome) (ord : Ord) :
    ∀ x, (commit ord s).2 ≠ .ok x := by
  obtain ⟨db, hs, hm⟩ := h
  obtain ⟨a, begun⟩ := a
  cases begun with
  | none => cases hb
  | some g =>
    obtain ⟨fp, rows, hn, hg, hdb⟩ := hm
    intro x hx
    by_cases hd : s.dirty = []
    · obtain ⟨prev, hprev, -⟩ := commit_ok hs.inv hd ord
      have hprev : queryFingerprint db (s.next.id - 1) true = some prev := hprev
      unfold commit at hx
      simp only [hd, List.isEmpty_nil, Bool.not_true, Bool.false_eq_true, if_false, hdb, fingerprint_begun, hprev,
        commitStmts, exec_begun] at hx
      cases hx
    · rw [commit_dirty hd] at hx
      cases hx

/-- Not a rewind. -/
def FOp.Stays : FOp → Prop
  | .op (.rewind _) => False
  | _ => True

theorem begun_step {a : FSpec} (hb : a.begun.isSome) (o : FOp) (ho : o.Stays) : (a.step o).1.begun.isSome := by
  obtain ⟨a, begun⟩ := a
  cases begun with
  | none => cases hb
  | some g =>
    cases o with
    | op o =>
      cases o with
      | get k l => cases l <;> rfl
      | commit ord =>
        simp only [FSpec.step]
        split <;> rfl
      | rewind => exact ho.elim
      | upsert | checkpoint | rollback | lastLayer | hasUncommitted => rfl
    | commit ord f =>
      simp only [FSpec.step]
      split <;> rfl
    | rewind => rfl

theorem begun_run {a : FSpec} (hb : a.begun.isSome) (os : List FOp) (ho : ∀ o ∈ os, o.Stays) :
    (a.run os).1.begun.isSome := by
  induction os generalizing a with
  | nil => exact hb
  | cons o os ih =>
    exact ih (begun_step hb o (ho o List.mem_cons_self)) fun o' h' => ho o' (List.mem_cons_of_mem _ h')

/-- C140: if the database fails after the row of the layer is inserted, no later commit succeeds, whatever is done
in between, except for a rewind. -/
theorem C140_stuck (hh : Hasher) (ops : List Op) (hops : RewindsFrom (-2) ops)
    (hd : (run hh fresh ops).1.dirty = []) (ord ord' : Ord) (f : Fault) (hf : f.Fits (run hh fresh ops).1)
    (hl : f ≠ .query ∧ f ≠ .layer) (os : List FOp)
    (ho : Fits hh (commitFault ord f (run hh fresh ops).1).1 os) (hs : ∀ o ∈ os, o.Stays) :
    ∀ x, (commit ord' (frun hh (commitFault ord f (run hh fresh ops).1).1 os).1).2 ≠ .ok x := by
  obtain ⟨hsim, -⟩ := sim_run hh sim_fresh ops hops
  have h0 : FSim (run hh fresh ops).1 ⟨(Spec.init.run ops).1, none⟩ := ⟨_, hsim, rfl⟩
  have h1 := (fsim_step hh h0 (.commit ord f) ⟨hf, trivial⟩).1
  have hb : ((⟨(Spec.init.run ops).1, none⟩ : FSpec).step (.commit ord f)).1.begun.isSome := by
    have ha : (Spec.init.run ops).1.dirty = [] := hsim.dirtyNil.1 hd
    simp only [FSpec.step, ha, ne_eq, not_true, if_false]
    cases f with
    | query => exact absurd rfl hl.1
    | layer => exact absurd rfl hl.2
    | values | complete => rfl
  exact (fsim_run hh h1 os ho).1.stuck (begun_run hb os hs) ord'

/-- C140: in between, the store shows a mixture of the two layers: a key has its new value if its row was inserted,
and its old value otherwise. -/
theorem C140_mixture (hh : Hasher) (ops : List Op) (hops : RewindsFrom (-2) ops)
    (hd : (run hh fresh ops).1.dirty = []) (ord : Ord) (done : List (State × Bytes))
    (hf : (Fault.values done).Fits (run hh fresh ops).1) (k : State) :
    getByHash (commitFault ord (.values done) (run hh fresh ops).1).1 k none =
      .ok ((lastWrite k done).or (queryCurrent (run hh fresh ops).1.db k)) := by
  obtain ⟨hsim, -⟩ := sim_run hh sim_fresh ops hops
  have h0 : FSim (run hh fresh ops).1 ⟨(Spec.init.run ops).1, none⟩ := ⟨_, hsim, rfl⟩
  have h1 := (fsim_step hh h0 (.commit ord (.values done)) ⟨hf, trivial⟩).1
  have h2 := (fsim_step hh h1 (.op (.get k none)) ⟨trivial, trivial⟩).2
  have ha : (Spec.init.run ops).1.dirty = [] := hsim.dirtyNil.1 hd
  simp only [fstep, step, FSpec.step, FSpec.current, ha, ne_eq, not_true, if_false, FSpec.forget, lastWrite,
    Option.none_or, Option.bind_some] at h2
  rw [show (⟨(Spec.init.run ops).1.snaps, [], []⟩ : Spec).top k = queryCurrent (run hh fresh ops).1.db k from
    (hsim.top k).symm] at h2
  cases hg : getByHash (commitFault ord (.values done) (run hh fresh ops).1).1 k none with
  | ok x => rw [hg] at h2; simpa [obsOf] using h2
  | err e => rw [hg] at h2; cases e <;> simp [obsOf] at h2
  | panic => rw [hg] at h2; simp [obsOf] at h2

/-- C140: a rewind repairs the store. After any history with failing commits, a rewind to any layer (without dirty
changes) succeeds, and the next commit succeeds with the following number. -/
theorem C140_repair (hh : Hasher) (os : List FOp) (ho : Fits hh fresh os) (l : Int) (hl2 : -2 ≤ l)
    (hl : l < (frun hh fresh os).1.next.id) (hd : (frun hh fresh os).1.dirty = []) (ord : Ord) :
    (rewind (frun hh fresh os).1 l).2 = .ok () ∧
    (∃ fp, (commit ord (rewind (frun hh fresh os).1 l).1).2 = .ok (l + 1, fp)) ∧
    ∀ k, getByHash (rewind (frun hh fresh os).1 l).1 k none = getByHash (frun hh fresh os).1 k (some l) := by
  have hsim := (fsim_run hh fsim_fresh os ho).1
  generalize (frun hh fresh os).1 = s at *
  generalize (FSpec.init.run os).1 = a at *
  obtain ⟨a, begun⟩ := a
  obtain ⟨db, hs, hb⟩ := hsim
  have inv : Inv { s with db } := hs.inv
  have hrw : rewind s l = rewind { s with db } l ∧
      (fun k => getByHash s k (some l)) = fun k => getByHash { s with db } k (some l) := by
    cases begun with
    | none => subst hb; exact ⟨rfl, rfl⟩
    | some g =>
      obtain ⟨fp, rows, hn, hg, hdb⟩ := hb
      constructor
      · rw [rewind_ok inv hd hl]
        unfold rewind
        simp only [hl, if_true, hd, List.isEmpty_nil, Bool.not_true, Bool.false_eq_true, if_false]
        rw [hdb, rewind_begun inv fp rows hl, rewind_exec inv]
      · funext k
        simp only [getByHash, hl, if_true, hdb, historical_begun inv fp rows k hl]
  have hinv := inv_rewound inv hl hl2
  rw [hrw.1, rewind_ok inv hd hl]
  refine ⟨rfl, ?_, fun k => ?_⟩
  · obtain ⟨prev, -, he⟩ := commit_ok hinv rfl ord
    exact ⟨_, by rw [he]⟩
  · rw [show getByHash s k (some l) = _ from congrFun hrw.2 k]
    simp only [getByHash, hl, if_true, AMap.get_nil]
    rw [hinv.queryCurrent, inv.queryHistorical]
    simp only
    rw [show l + 1 - 1 = l by omega, readUpTo_filter _ _ _ _ (Int.le_refl l)]

/-- The operation does not discard layer `m`. -/
def FOp.RewindsFrom (m : Int) : FOp → Prop
  | .op o => o.RewindsFrom m
  | _ => True

theorem snap_step {a : Spec} {L : Int} (hL : L < a.nextLayer) (hL2 : -2 ≤ L) (o : Op) (ho : o.RewindsFrom L) :
    L < (a.step o).1.nextLayer ∧ ∀ l ≤ L, (a.step o).1.snapAt l = a.snapAt l := by
  cases o with
  | upsert | checkpoint | rollback | lastLayer | hasUncommitted => exact ⟨hL, fun _ _ => rfl⟩
  | get k l =>
    cases l with
    | none => exact ⟨hL, fun _ _ => rfl⟩
    | some l => simp only [Spec.step]; split <;> exact ⟨hL, fun _ _ => rfl⟩
  | commit ord =>
    simp only [Spec.step]
    split
    · exact ⟨hL, fun _ _ => rfl⟩
    · unfold Spec.nextLayer at hL
      refine ⟨by simp only [Spec.nextLayer, List.length_cons]; omega, fun l hl => ?_⟩
      unfold Spec.snapAt
      split
      · rfl
      · simp only [List.reverse_cons]
        rw [List.getElem?_append_left (by simp; omega)]
  | rewind m =>
    have hm : L ≤ m := ho
    simp only [Spec.step]
    split
    · exact ⟨hL, fun _ _ => rfl⟩
    · split
      · exact ⟨hL, fun _ _ => rfl⟩
      · unfold Spec.nextLayer at *
        refine ⟨by simp only [List.length_drop]; omega, fun l hl => ?_⟩
        unfold Spec.snapAt
        split
        · rfl
        · simp only [List.reverse_drop]
          rw [List.getElem?_take_of_lt]
          omega

theorem fsnap_step {a : FSpec} {L : Int} (hL : L < a.base.nextLayer) (hL2 : -2 ≤ L) (o : FOp)
    (ho : o.RewindsFrom L) :
    L < (a.step o).1.base.nextLayer ∧ ∀ l ≤ L, (a.step o).1.base.snapAt l = a.base.snapAt l := by
  cases o with
  | op o =>
    have h := snap_step hL hL2 o ho
    cases o with
    | commit ord =>
      simp only [FSpec.step]
      split
      · exact ⟨hL, fun _ _ => rfl⟩
      · exact h
    | get k l => cases l <;> exact h
    | upsert | checkpoint | rollback | lastLayer | hasUncommitted | rewind => exact h
  | commit ord f =>
    simp only [FSpec.step]
    split <;> exact ⟨hL, fun _ _ => rfl⟩
  | rewind => exact ⟨hL, fun _ _ => rfl⟩

theorem fsnap_run {a : FSpec} {L : Int} (hL : L < a.base.nextLayer) (hL2 : -2 ≤ L) (os : List FOp)
    (ho : ∀ o ∈ os, o.RewindsFrom L) :
    L < (a.run os).1.base.nextLayer ∧ ∀ l ≤ L, (a.run os).1.base.snapAt l = a.base.snapAt l := by
  induction os generalizing a with
  | nil => exact ⟨hL, fun _ _ => rfl⟩
  | cons o os ih =>
    have h1 := fsnap_step hL hL2 o (ho o List.mem_cons_self)
    have h2 := ih h1.1 fun o' h' => ho o' (List.mem_cons_of_mem _ h')
    exact ⟨h2.1, fun l hl => (h2.2 l hl).trans (h1.2 l hl)⟩

theorem FSim.historical {s : Storage} {a : FSpec} (h : FSim s a) (k : State) (l : Int) :
    getByHash s k (some l) = if l < a.base.nextLayer then .ok (a.base.snapAt l k) else .panic := by
  obtain ⟨a, begun⟩ := a
  obtain ⟨db, hs, hb⟩ := h
  have inv : Inv { s with db } := hs.inv
  have hn : s.next.id = a.nextLayer := hs.next
  by_cases hl : l < s.next.id
  · have hl' : l < a.nextLayer := by omega
    simp only [getByHash, hl, hl', if_true]
    rw [← hs.hist l k hl, ← inv.queryHistorical]
    cases begun with
    | none => rw [show s.db = db from hb]
    | some g =>
      obtain ⟨fp, rows, -, -, hdb⟩ := hb
      rw [hdb, historical_begun inv fp rows k hl]
  · have hl' : ¬ l < a.nextLayer := by omega
    simp only [getByHash, hl, hl', if_false]

/-- C140: the layers that were committed are never touched: for every history with failing statements and all later
ones that do not rewind to a layer below `L`, the reads at all layers up to `L` return what they returned. -/
theorem C140_layers (hh : Hasher) (os os' : List FOp) (ho : Fits hh fresh os)
    (ho' : Fits hh (frun hh fresh os).1 os') (L : Int) (hL2 : -2 ≤ L) (hL : L < (frun hh fresh os).1.next.id)
    (hr : ∀ o ∈ os', o.RewindsFrom L) (l : Int) (hl : l ≤ L) (k : State) :
    ∃ v, getByHash (frun hh fresh os).1 k (some l) = .ok v ∧
      getByHash (frun hh (frun hh fresh os).1 os').1 k (some l) = .ok v := by
  have h1 := (fsim_run hh fsim_fresh os ho).1
  have h2 := (fsim_run hh h1 os' ho').1
  have hn : L < (FSpec.init.run os).1.base.nextLayer := by
    obtain ⟨db, hs, -⟩ := h1
    rw [← hs.next]
    exact hL
  have h3 := fsnap_run hn hL2 os' hr
  refine ⟨(FSpec.init.run os).1.base.snapAt l k, ?_, ?_⟩
  · rw [h1.historical, if_pos (by omega)]
  · rw [h2.historical, if_pos (by omega), h3.2 l hl]

theorem C140_claim_false (hh : Hasher) : ¬ C140_claim hh := by
  intro h
  have h1 := (h [.upsert 7 [1], .checkpoint .id] (by intro o ho; simp at ho; rcases ho with rfl | rfl <;> trivial)
    rfl .id .id .query trivial).1 7
  cases h1

/-- C140 for what holds: with nothing pending, a commit that fails before the row of the layer is inserted changes
no value, and it can be repeated.
Missing: pending changes, and a failure after the row is inserted. There it is false (`C140_lost`, `C140_stuck`,
`C140_mixture`). -/
theorem C140_retry_partial (hh : Hasher) (ops : List Op) (hops : RewindsFrom (-2) ops)
    (hd : (run hh fresh ops).1.dirty = []) (hp : (run hh fresh ops).1.next.changes = []) (ord ord' : Ord) (f : Fault)
    (hf : f = .query ∨ f = .layer) :
    (∀ k, getByHash (commitFault ord f (run hh fresh ops).1).1 k none = getByHash (run hh fresh ops).1 k none) ∧
    ∃ fp, (commit ord' (commitFault ord f (run hh fresh ops).1).1).2 = .ok ((run hh fresh ops).1.next.id, fp) := by
  have h := C140_lost hh ops hops ord ord' f hf hd
  refine ⟨fun k => ?_, h.2.2.1.imp fun _ hfp => hfp.1⟩
  rw [h.2.1 k]
  simp [getByHash, hd, hp]

/-! Non-vacuity. -/

/-- A hash function for the examples. -/
private def h0 : Hasher := ⟨fun _ => 0⟩

-- A commit that fails at its first statement loses the change; the repeated commit makes an empty layer.
example : (frun h0 fresh [.op (.upsert 7 [1]), .op (.checkpoint .id), .op (.get 7 none), .commit .id .query,
      .op (.get 7 none), .op (.commit .id), .op (.get 7 (some (-1)))]).2 =
    [.unit, .unit, .value (some [1]), .sqliteError, .value none, .layer (-1), .value none] := by
  decide

-- One that fails at the second value shows half of the layer and stops all commits until a rewind.
example : (frun h0 fresh [.op (.upsert 7 [1]), .op (.upsert 8 [2]), .op (.checkpoint .id),
      .commit .id (.values [(8, [2])]), .op (.get 7 none), .op (.get 8 none), .op (.commit .id),
      .op (.rewind (-2)), .op (.get 8 none), .op (.commit .id)]).2 =
    [.unit, .unit, .unit, .sqliteError, .value none, .value (some [2]), .sqliteError, .unit, .value none,
      .layer (-1)] := by
  decide

example : Fits h0 fresh [.op (.upsert 7 [1]), .op (.upsert 8 [2]), .op (.checkpoint .id),
    .commit .id (.values [(8, [2])])] := by
  refine ⟨trivial, trivial, trivial, ⟨⟨[(8, [2])], .refl _, ?_⟩, ?_⟩, trivial⟩ <;> decide

end Svm.Storage
