import Verif.Storage.Props
import Verif.Storage.GlobalState

/-!
# Properties C09, C10 and C12 (storage claims that the code violates)
-/

namespace Svm.Storage

/-! ## C09 -/

/-- The full claim of C09: opening the database again works and shows the committed layers. -/
def ReopenRestores (hh : Hasher) : Prop :=
  ∀ ops, RewindsFrom (-2) ops → (run hh fresh ops).1.dirty = [] →
    (run hh fresh ops).1.next.changes = [] →
      ∃ s', (openDb (run hh fresh ops).1.db).2 = .ok s' ∧
        ∀ ops', (run hh s' ops').2 = (run hh (run hh fresh ops).1 ops').2

/-- Every database that contains layer -2 fails to open, with its content untouched. -/
theorem openDb_of_initial {db : Db} (h : db.layers.any (fun r => decide (r.id = -2)) = true) :
    openDb db = (db, .err .sqlite) := by
  have h1 : Stmt.exec db (.insertLayer initialLayerId initialLayerState true) = none := by
    unfold Stmt.exec
    exact if_pos h
  unfold openDb
  simp only [execAll, h1]

theorem Inv.has_initial {s : Storage} (h : Inv s) :
    s.db.layers.any (fun r => decide (r.id = -2)) = true := by
  obtain ⟨r, hr, hid⟩ := (h.mem_id (l := -2)).2 ⟨by omega, h.next_gt⟩
  exact List.any_eq_true.2 ⟨r, hr, by simpa using hid⟩

/-- **C09 is false** in the strongest way: after *every* history, re-opening the database fails. -/
theorem C09_reopen_always_fails (hh : Hasher) (ops : List Op) (hops : RewindsFrom (-2) ops) :
    (openDb (run hh fresh ops).1.db).2 = .err .sqlite := by
  rw [openDb_of_initial (inv_run hh inv_fresh ops hops).has_initial]

/-- Also after a crash at any point inside a commit, so the cleanup of incomplete layers is never
reached. -/
theorem C09_reopen_after_crash_fails (hh : Hasher) (ops : List Op) (hops : RewindsFrom (-2) ops)
    (ord : Ord) (n : Nat)
    (hn : n < (commitStmts ord 0 0 (run hh fresh ops).1.next.changes).length) :
    (openDb (commitCrash ord (run hh fresh ops).1 n)).2 = .err .sqlite := by
  have hinv := inv_run hh inv_fresh ops hops
  have h0 := hinv.has_initial
  rcases commitCrash_shape hinv ord n hn with ⟨hdb, _⟩ | ⟨fp, hdb⟩
  · rw [hdb, openDb_of_initial h0]
  · rw [hdb, openDb_of_initial (by simp only [List.any_append, h0, Bool.true_or])]

theorem C09_reopen_restores_false (hh : Hasher) : ¬ ReopenRestores hh := by
  intro h
  obtain ⟨s', hs', _⟩ := h [] (by intro op hop; cases hop) rfl rfl
  rw [C09_reopen_always_fails hh [] (by intro op hop; cases hop)] at hs'
  cases hs'

/-- **C09, what does hold**: opening an empty file works, and the failing re-open leaves the database
file as it was (no committed data is destroyed). Missing: the insertion of layer -2 must be skipped
when it exists, and the next layer id must be one above the maximum. -/
theorem C09_reopen_keeps_data_partial (hh : Hasher) (ops : List Op) (hops : RewindsFrom (-2) ops) :
    openDb Db.empty = (fresh.db, .ok fresh) ∧
    (openDb (run hh fresh ops).1.db).1 = (run hh fresh ops).1.db :=
  ⟨fresh_is_open, by rw [openDb_of_initial (inv_run hh inv_fresh ops hops).has_initial]⟩

/-! ## C10 -/

/-- The full claim of C10: if two histories lead to the same layer number with different data
readable at that layer, then the fingerprints of that layer differ. (Stated for the reads of the
layer itself; for a hash function without collisions it is what "state root" means.) -/
def FingerprintDependsOnData (hh : Hasher) : Prop :=
  ∀ ops₁ ops₂, RewindsFrom (-1) ops₁ → RewindsFrom (-1) ops₂ →
    ∀ L fp₁ fp₂, lastLayer (run hh fresh ops₁).1 = .ok (L, fp₁) →
      lastLayer (run hh fresh ops₂).1 = .ok (L, fp₂) →
      (∃ k, getByHash (run hh fresh ops₁).1 k (some L) ≠ getByHash (run hh fresh ops₂).1 k (some L)) →
      fp₁ ≠ fp₂

/-- The fingerprint that the code gives to layer `i`. -/
def fingerprintOf (i : Int) : State :=
  if 0 ≤ i ∧ i % 2 = 0 then stateOnes else stateZeros

theorem fp_next (i : Int) (hi : -1 ≤ i) :
    fingerprintOf (i - 1) ^^^ (if i = -1 then stateZeros else stateOnes) = fingerprintOf i := by
  have hz : ∀ x : State, x ^^^ stateZeros = x := by intro x; simp [stateZeros]
  have hoo : stateOnes ^^^ stateOnes = stateZeros := by simp [stateOnes, stateZeros]
  have hzo : stateZeros ^^^ stateOnes = stateOnes := by simp [stateZeros]
  unfold fingerprintOf
  by_cases h1 : i = -1
  · subst h1; rfl
  · rw [if_neg h1]
    by_cases h2 : i % 2 = 0
    · rw [if_neg (by omega), if_pos (by omega), hzo]
    · by_cases h0 : i = 0
      · subst h0; omega
      · rw [if_pos (by omega), if_neg (by omega), hoo]

/-- The invariant of the fingerprints. -/
def FpOk (s : Storage) : Prop :=
  (∀ r ∈ s.db.layers, r.fingerprint = fingerprintOf r.id) ∧
  s.next.xorFingerprint = if s.next.id = -1 then stateZeros else stateOnes

theorem fpOk_step (hh : Hasher) {s : Storage} (h : Inv s) (hf : FpOk s) (op : Op)
    (hop : op.RewindsFrom (-1)) : FpOk (step hh s op).1 := by
  cases op with
  | upsert k v => exact hf
  | checkpoint ord => simp only [step, checkpoint_eq]; exact hf
  | commit ord =>
    by_cases hd : s.dirty = []
    · obtain ⟨prev, hprev, he⟩ := commit_ok h hd ord
      have hng := h.next_gt
      have hp : prev = fingerprintOf (s.next.id - 1) := by
        unfold queryFingerprint at hprev
        cases hfind : s.db.layers.find? (fun r => decide (r.id = s.next.id - 1 ∧ r.complete = true)) with
        | none => rw [hfind] at hprev; cases hprev
        | some r =>
          rw [hfind] at hprev
          have hm := List.mem_of_find?_eq_some hfind
          have hid := List.find?_some hfind
          simp only [decide_eq_true_eq] at hid
          simp only [Option.map_some, Option.some.injEq] at hprev
          rw [← hprev, hf.1 r hm, hid.1]
      simp only [step, he]
      refine ⟨?_, ?_⟩
      · intro r hr
        simp only [committedDb] at hr
        rcases List.mem_append.1 hr with hr | hr
        · exact hf.1 r hr
        · simp only [List.mem_singleton] at hr
          subst hr
          simp only
          rw [hp, hf.2]
          exact fp_next _ (by omega)
      · simp only
        rw [if_neg (by omega)]
    · simp only [step, commit_dirty hd]; exact hf
  | rollback => exact hf
  | rewind l =>
    have hl2 : -1 ≤ l := hop
    by_cases hl : l < s.next.id
    · by_cases hd : s.dirty = []
      · simp only [step, rewind_ok h hd hl]
        refine ⟨?_, ?_⟩
        · intro r hr
          exact hf.1 r (List.mem_filter.1 hr).1
        · simp only
          rw [if_neg (by omega)]
      · have : rewind s l = (s, .err .dirtyChanges) := ((C06_dirty_refused s .id l).1 hd).2 hl
        simp only [step, this]; exact hf
    · have : rewind s l = (s, .panic) := by unfold rewind; simp [hl]
      simp only [step, this]; exact hf
  | get k l => exact hf
  | lastLayer => exact hf
  | hasUncommitted => exact hf

theorem fpOk_run (hh : Hasher) {s : Storage} (h : Inv s) (hf : FpOk s) (ops : List Op)
    (hops : RewindsFrom (-1) ops) : FpOk (run hh s ops).1 := by
  induction ops generalizing s with
  | nil => exact hf
  | cons op ops ih =>
    have hop := hops op List.mem_cons_self
    have hop2 : op.RewindsFrom (-2) := by
      cases op <;> simp_all [Op.RewindsFrom]
      omega
    exact ih (inv_step hh h op hop2) (fpOk_step hh h hf op hop)
      (fun o ho => hops o (List.mem_cons_of_mem _ ho))

/-- **C10 is false** in the strongest way: the fingerprint of the current layer is a function of the
layer number alone, whatever has been written (for histories that do not rewind to the layer
before genesis). -/
theorem C10_fingerprint_is_constant (hh : Hasher) (ops : List Op) (hops : RewindsFrom (-1) ops) :
    ∃ L, lastLayer (run hh fresh ops).1 = .ok (L, fingerprintOf L) := by
  have hops2 : RewindsFrom (-2) ops := RewindsFrom.mono (by omega) hops
  have hinv := inv_run hh inv_fresh ops hops2
  have hf : FpOk fresh := by
    refine ⟨?_, rfl⟩
    intro r hr
    simp only [fresh, List.mem_singleton] at hr
    subst hr
    rfl
  have hfp := fpOk_run hh inv_fresh hf ops hops
  refine ⟨(run hh fresh ops).1.next.id - 1, ?_⟩
  have hng := hinv.next_gt
  obtain ⟨fp, hq⟩ := hinv.fingerprint_isSome (l := (run hh fresh ops).1.next.id - 1)
    (by omega) (by omega)
  unfold lastLayer
  simp only [hq, Outcome.ok.injEq, Prod.mk.injEq, true_and]
  unfold queryFingerprint at hq
  cases hfind : (run hh fresh ops).1.db.layers.find?
      (fun r => decide (r.id = (run hh fresh ops).1.next.id - 1 ∧ r.complete = true)) with
  | none => rw [hfind] at hq; cases hq
  | some r =>
    rw [hfind] at hq
    have hm := List.mem_of_find?_eq_some hfind
    have hid := List.find?_some hfind
    simp only [decide_eq_true_eq] at hid
    simp only [Option.map_some, Option.some.injEq] at hq
    rw [← hq, hfp.1 r hm, hid.1]

theorem C10_fingerprint_depends_on_data_false (hh : Hasher) : ¬ FingerprintDependsOnData hh := by
  intro h
  have v1 : RewindsFrom (-1) [.upsert 7 [1], .checkpoint .id, .commit .id] := by
    intro op hop; simp at hop; rcases hop with rfl | rfl | rfl <;> simp [Op.RewindsFrom]
  have v2 : RewindsFrom (-1) [.upsert 7 [2], .checkpoint .id, .commit .id] := by
    intro op hop; simp at hop; rcases hop with rfl | rfl | rfl <;> simp [Op.RewindsFrom]
  have := h [.upsert 7 [1], .checkpoint .id, .commit .id]
    [.upsert 7 [2], .checkpoint .id, .commit .id] v1 v2 (-1) (stateZeros ^^^ stateZeros)
    (stateZeros ^^^ stateZeros) (by rfl) (by rfl) ⟨7, ?_⟩
  · exact this rfl
  · have e1 : getByHash (run hh fresh [.upsert 7 [1], .checkpoint .id, .commit .id]).1 7 (some (-1))
        = .ok (some [1]) := by rfl
    have e2 : getByHash (run hh fresh [.upsert 7 [2], .checkpoint .id, .commit .id]).1 7 (some (-1))
        = .ok (some [2]) := by rfl
    rw [e1, e2]
    simp

/-- **C10, what does hold**: consecutive layers from layer 0 on have different fingerprints
(so a missing commit is noticed). Missing: the accumulated hash of the changes is dropped in
`checkpoint`, so the data never reaches the fingerprint. -/
theorem C10_consecutive_fingerprints_differ_partial (hh : Hasher) (ops : List Op)
    (hops : RewindsFrom (-1) ops) (ord : Ord) (hd : (run hh fresh ops).1.dirty = [])
    (L : Int) (fp : State) (hL : lastLayer (run hh fresh ops).1 = .ok (L, fp)) (h0 : -1 ≤ L) :
    ∃ fp', (commit ord (run hh fresh ops).1).2 = .ok (L + 1, fp') ∧ fp' ≠ fp := by
  have hv : RewindsFrom (-1) (ops ++ [.commit ord]) := by
    intro op hop
    rcases List.mem_append.1 hop with h | h
    · exact hops op h
    · simp only [List.mem_singleton] at h; subst h; trivial
  obtain ⟨L₀, fp₀, fp', hl, hc, hl'⟩ :=
    C07_commit_consecutive hh ops (RewindsFrom.mono (by omega) hops) ord hd
  rw [hL] at hl
  simp only [Outcome.ok.injEq, Prod.mk.injEq] at hl
  obtain ⟨rfl, rfl⟩ := hl
  refine ⟨fp', hc, ?_⟩
  obtain ⟨L₁, h1⟩ := C10_fingerprint_is_constant hh ops hops
  rw [hL] at h1
  simp only [Outcome.ok.injEq, Prod.mk.injEq] at h1
  obtain ⟨L₂, h2⟩ := C10_fingerprint_is_constant hh _ hv
  rw [run_append] at h2
  simp only [run, step] at h2
  rw [hl'] at h2
  simp only [Outcome.ok.injEq, Prod.mk.injEq] at h2
  obtain ⟨rfl, rfl⟩ := h1
  obtain ⟨rfl, rfl⟩ := h2
  have hne : stateOnes ≠ stateZeros := by decide
  unfold fingerprintOf
  by_cases he : L % 2 = 0
  · rw [if_neg (by omega), if_pos (by omega)]; exact Ne.symm hne
  · rw [if_pos (by omega), if_neg (by omega)]; exact hne

example : lastLayer (run demoHasher fresh demoHistory).1 = .ok (0, stateOnes) := by rfl

/-! ## C12 -/

namespace GlobalState

/-- The full claim of C12: a call that panics leaves the runtime usable, i.e. a later rollback (which
cannot fail by itself) does not panic. -/
def PanicLeavesUsable (hh : Hasher) : Prop :=
  ∀ cs ord ord' writes c,
    (call hh (calls hh (genesis hh ord ord' writes) cs).1 c).2 = true →
    (call hh (call hh (calls hh (genesis hh ord ord' writes) cs).1 c).1 .rollback).2 = false

/-- A poisoned lock makes every call panic. -/
theorem call_poisoned (hh : Hasher) {gs : GlobalState} (h : gs.poisoned = true) (c : Call) :
    call hh gs c = (gs, true) := by
  cases c <;>
    simp [call, checkpoint, commit, currentLayer, rollback, rewind, hasUncommitted, read, write,
      withStorage, h, layerOfId]

/-- **C12 is false**: after any panic while the lock is held, every later call panics, forever. -/
theorem C12_poisoned_forever (hh : Hasher) (gs : GlobalState) (h : gs.poisoned = true)
    (cs : List Call) : (calls hh gs cs).1 = gs ∧ ∀ b ∈ (calls hh gs cs).2, b = true := by
  induction cs with
  | nil => exact ⟨rfl, by simp [calls]⟩
  | cons c cs ih =>
    simp only [calls, call_poisoned hh h]
    refine ⟨ih.1, ?_⟩
    intro b hb
    rcases List.mem_cons.1 hb with rfl | hb
    · rfl
    · exact ih.2 b hb

/-- Requesting a layer that does not exist yet is enough: every client can do it, in every state. -/
theorem C12_future_layer_poisons (hh : Hasher) (gs : GlobalState) (h : gs.poisoned = false)
    (l : Nat) (hl : gs.storage.next.id ≤ l) (hl' : l < 2 ^ 63) (key : Bytes) :
    (call hh gs (.read key (some l))).2 = true ∧
    (call hh gs (.read key (some l))).1.poisoned = true ∧
    (call hh gs (.rewind l)).2 = true ∧
    (call hh gs (.rewind l)).1.poisoned = true := by
  have hn : ¬ (l : Int) < gs.storage.next.id := by omega
  simp only [call, read, rewind, withStorage, h, Storage.get, Option.map_some, getByHash, hl',
    Storage.rewind, hn, if_true, if_false, Bool.false_eq_true, decide_true, and_self]

theorem C12_panic_leaves_usable_false (hh : Hasher) : ¬ PanicLeavesUsable hh := by
  intro h
  have h1 := h [] .id .id [] (.rewind 5) (by rfl)
  have h2 : (call hh (call hh (calls hh (genesis hh .id .id []) []).1 (.rewind 5)).1 .rollback).2
      = true := by rfl
  rw [h2] at h1
  cases h1

/-- **C12, what does hold**: a call that does not panic under the lock never poisons it; in
particular errors (dirty changes) do not. Missing: `lock().expect(..)` must recover a poisoned
lock. -/
theorem C12_no_poison_without_panic_partial (hh : Hasher) (gs : GlobalState)
    (h : gs.poisoned = false) (c : Call) (hc : (call hh gs c).2 = false) :
    (call hh gs c).1.poisoned = false := by
  have key : ∀ {α : Type} (f : Storage → Storage × Outcome StorageError α),
      (gs.withStorage f).2 ≠ .panic → (gs.withStorage f).1.poisoned = false := by
    intro α f hne
    unfold withStorage at hne ⊢
    rw [h] at hne ⊢
    simp only [Bool.false_eq_true, if_false] at hne ⊢
    split
    · rename_i heq; rw [heq] at hne; simp at hne
    · rfl
  have key2 : ∀ (f : Storage → Storage × Outcome StorageError (Int × State)),
      layerOfId (gs.withStorage f).2 ≠ .panic → (gs.withStorage f).1.poisoned = false := by
    intro f hne
    apply key
    intro he
    rw [he] at hne
    exact hne rfl
  cases c <;> simp only [call, decide_eq_false_iff_not] at hc ⊢
  case checkpoint ord => exact key _ hc
  case commit ord => exact key2 _ hc
  case currentLayer => exact key2 _ hc
  case rollback => exact key _ hc
  case rewind l => exact key _ hc
  case hasUncommitted => exact key _ hc
  case read k l => exact key _ hc
  case write k v => exact key _ hc

/-- The conversion of the layer id happens outside of the lock: asking for the current layer right
after genesis panics (layer -1 is not a `u64`) but does not poison. -/
theorem C12_current_layer_after_genesis (hh : Hasher) (ord : Ord) :
    (call hh (genesis hh ord ord []) .currentLayer).2 = true ∧
    (call hh (genesis hh ord ord []) .currentLayer).1.poisoned = false := by
  have e : Storage.checkpoint hh ord fresh = fresh := by
    rw [checkpoint_eq]
    have : ord.run fresh.dirty = [] := List.Perm.eq_nil (ord.perm [])
    rw [this]; rfl
  obtain ⟨prev, _, he⟩ := commit_ok inv_fresh rfl ord
  have hq := queryFingerprint_committed inv_fresh (prev ^^^ fresh.next.xorFingerprint)
    (ord.run fresh.next.changes)
  have hl : lastLayer (Storage.commit ord fresh).1
      = .ok (-1, prev ^^^ fresh.next.xorFingerprint) := by
    rw [he]
    unfold lastLayer
    have : fresh.next.id + 1 - 1 = fresh.next.id := by omega
    simp only [this, hq]
    rfl
  simp only [genesis, List.foldl_nil, e, call, currentLayer, withStorage, Bool.false_eq_true,
    if_false, hl]
  simp [layerOfId]

example : (call demoHasher (genesis demoHasher .id .rev [([1], [2])]) .rollback).2 = false := by rfl
example : (genesis demoHasher .id .rev [([1], [2])]).storage.next.id ≤ (5 : Nat) := by decide

end GlobalState
end Svm.Storage
