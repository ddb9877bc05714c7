import Verif.Runtime.Demo
import Verif.Runtime.History
import Verif.Runtime.Books

/-!
# C130 - C133: several threads on one global state

`GlobalState` is a cloneable handle of an `Arc<Mutex<Storage>>` (crates/host/state/src/global_state.rs:16-21)
and the tracker of runtimes of the C API hands out the same runtime to every caller
(crates/host/runtime-ffi/src/resource_tracker.rs:19-27, c_api.rs:664-668). The lock is taken for one read or
one write at a time (`gs.storage().get(..)`, `gs.storage().upsert(..)`), not for a whole operation. So a
schedule is a sequence of such steps of any number of threads, with the steps of checkpoints and commits of
other clients between them.

Simplification: a step that panics while it holds the lock would poison it (C12); reads without a layer and
writes never panic, so the programs below never do.
-/

namespace Svm.Runtime

open Svm.Codec Svm.Account
open Svm.Storage (Hasher Storage Op Inv Kept)

/-! ## The model -/

/-- One critical section of a thread: the lock taken by `GlobalState::storage` (global_state.rs:164-168) for
one `get` or one `upsert`. A finished thread does nothing.
Simplification: a panic with the guard held (`Runtime/Poison`) does not stop the other threads. -/
def section_ {α : Type} (h : Hasher) : Prog α → Storage → Storage × Prog α
  | .ret a, s => (s, .ret a)
  | .err e, s => (s, .err e)
  | .panic held, s => (s, .panic held)
  | .get k f, s =>
    match Storage.get h s k.text none with
    | .ok v => (s, f v)
    | .err e => (s, .err (.storage e))
    | .panic => (s, .panic)
  | .set k v p, s => (Storage.upsert h s k.text v, p)

/-- What a finished thread returned. -/
def result {α : Type} : Prog α → Option (Outcome SErr α)
  | .ret a => some (.ok a)
  | .err e => some (.err e)
  | .panic _ => some .panic
  | .get _ _ => none
  | .set _ _ _ => none

/-- One turn of a schedule: a step of a thread, or an operation on the layers by another client (each is
one critical section, global_state.rs:110-158). -/
inductive Turn (ι : Type) where
  | step (i : ι)
  | op (o : Op)

/-- The threads and the storage after a schedule. -/
def runThreads {ι α : Type} [DecidableEq ι] (h : Hasher) :
    List (Turn ι) → (ι → Prog α) → Storage → Storage × (ι → Prog α)
  | [], t, s => (s, t)
  | .step i :: es, t, s =>
    runThreads h es (fun j => if j = i then (section_ h (t i) s).2 else t j) (section_ h (t i) s).1
  | .op o :: es, t, s => runThreads h es t (Svm.Storage.step h s o).1

/-- Operations that only save: checkpoints, commits and questions. -/
def SavesOnly : Op → Prop
  | .upsert _ _ => False
  | .rollback => False
  | .rewind _ => False
  | _ => True

/-- A schedule without rollbacks, rewinds and foreign writes. -/
def Saving {ι : Type} (es : List (Turn ι)) : Prop := ∀ o, .op o ∈ es → SavesOnly o

/-- All reads are of keys in `R`, all writes of keys in `W`. -/
def Within {α : Type} (R W : Key → Prop) : Prog α → Prop
  | .ret _ => True
  | .err _ => True
  | .panic _ => True
  | .get k f => R k ∧ ∀ v, Within R W (f v)
  | .set k _ p => W k ∧ Within R W p

/-! ## Lemmas -/

theorem Within.bind {α β : Type} {R W : Key → Prop} {p : Prog α} {f : α → Prog β}
    (hp : Within R W p) (hf : ∀ a, Within R W (f a)) : Within R W (p.bind f) := by
  induction p with
  | ret a => exact hf a
  | err | panic => trivial
  | get k g ih => exact ⟨hp.1, fun v => ih v (hp.2 v)⟩
  | set k v p ih => exact ⟨hp.1, ih hp.2⟩

theorem Within.unwrap {α : Type} {R W : Key → Prop} {p : Prog α} (hp : Within R W p) :
    Within R W p.unwrap := by
  induction p with
  | ret | err | panic => trivial
  | get k g ih => exact ⟨hp.1, fun v => ih v (hp.2 v)⟩
  | set k v p ih => exact ⟨hp.1, ih hp.2⟩

theorem Within.attempt {α : Type} {R W : Key → Prop} {p : Prog α} (hp : Within R W p) :
    Within R W (attempt p) := by
  induction p with
  | ret | err | panic => trivial
  | get k g ih => exact ⟨hp.1, fun v => ih v (hp.2 v)⟩
  | set k v p ih => exact ⟨hp.1, ih hp.2⟩

theorem Within.ofOption {α : Type} {R W : Key → Prop} (o : Option α) :
    Within R W (Prog.ofOption o) := by
  cases o <;> trivial

theorem Within.reads {α : Type} {P R W : Key → Prop} {p : Prog α} (hp : p.Reads P)
    (h : ∀ k, P k → R k) : Within R W p := by
  induction p with
  | ret | err | panic => trivial
  | get k g ih => exact ⟨h _ hp.1, fun v => ih v (hp.2 v)⟩
  | set k v p => exact hp.elim

theorem within_readAndDecode {α : Type} {R W : Key → Prop} (d : Dec α) {k : Key} (hk : R k) :
    Within R W (readAndDecode d k) := Within.reads (reads_readAndDecode d hk) fun _ h => h

/-- A program depends only on what it may read. -/
theorem Within.eval_congr {α : Type} {R W : Key → Prop} {p : Prog α} (hp : Within R W p)
    {w w' : View} (hr : ∀ k, R k → w k = w' k) :
    (p.eval w).2 = (p.eval w').2 ∧
      ∀ k, w k = w' k → (p.eval w).1 k = (p.eval w').1 k := by
  induction p generalizing w w' with
  | ret | err | panic => exact ⟨rfl, fun k h => h⟩
  | get k f ih =>
    simp only [Prog.eval]
    rw [hr k hp.1]
    exact ih _ (hp.2 _) hr
  | set k v p ih =>
    simp only [Prog.eval]
    have h2 := ih hp.2 (w := w.set k v) (w' := w'.set k v) (fun k' hk' => by
      unfold View.set
      split
      · rfl
      · exact hr k' hk')
    refine ⟨h2.1, fun k' hk' => h2.2 k' ?_⟩
    unfold View.set
    split
    · rfl
    · exact hk'

theorem Within.eval_frame {α : Type} {R W : Key → Prop} {p : Prog α} (hp : Within R W p) (w : View)
    {k : Key} (hk : ¬ W k) : (p.eval w).1 k = w k := by
  induction p generalizing w with
  | ret | err | panic => rfl
  | get k' f ih => exact ih _ (hp.2 _) w
  | set k' v p ih =>
    simp only [Prog.eval]
    rw [ih hp.2, View.set_ne _ _ (fun e => hk (by rw [e]; exact hp.1))]

/-- The critical sections on the map of current values. -/
def sectionV {α : Type} : Prog α → View → View × Prog α
  | .ret a, w => (w, .ret a)
  | .err e, w => (w, .err e)
  | .panic held, w => (w, .panic held)
  | .get k f, w => (w, f (w k))
  | .set k v p, w => (w.set k v, p)

theorem section_view {α : Type} {h : Hasher} (hc : NoCollision h) (p : Prog α) (s : Storage) :
    view h (section_ h p s).1 = (sectionV p (view h s)).1 ∧
      (section_ h p s).2 = (sectionV p (view h s)).2 := by
  cases p with
  | ret | err | panic => exact ⟨rfl, rfl⟩
  | get k f =>
    simp only [section_, get_view, sectionV, and_self]
  | set k v p => exact ⟨view_upsert hc s k v, rfl⟩

theorem section_frame {α : Type} (h : Hasher) (p : Prog α) (s : Storage) :
    (section_ h p s).1.db = s.db ∧ (section_ h p s).1.next = s.next := by
  cases p with
  | ret | err | panic => exact ⟨rfl, rfl⟩
  | get k f =>
    simp only [section_, get_view, and_self]
  | set k v p => exact ⟨rfl, rfl⟩

/-- A step is a program, so reachable states stay reachable. -/
theorem section_reach {α : Type} {h : Hasher} {p : Prog α} (hp : p.Safe) {s : Storage}
    (hr : Reach h s) : Reach h (section_ h p s).1 ∧ (section_ h p s).2.Safe := by
  cases p with
  | ret | err | panic => exact ⟨hr, trivial⟩
  | get k f =>
    simp only [section_, get_view]
    exact ⟨hr, hp _⟩
  | set k v p =>
    exact ⟨.prog (Prog.write k v) ⟨hp.1, trivial⟩ hr, hp.2⟩

theorem section_inv {α : Type} {h : Hasher} (p : Prog α) {s : Storage} (hi : Inv s) :
    Inv (section_ h p s).1 := by
  cases p with
  | ret | err | panic => exact hi
  | get k f =>
    simp only [section_, get_view]
    exact hi
  | set k v p => exact Svm.Storage.inv_step h hi (.upsert (h.hash k.text) v) trivial

theorem sectionV_within {α : Type} {R W : Key → Prop} {p : Prog α} (hp : Within R W p) (w : View) :
    Within R W (sectionV p w).2 := by
  cases p with
  | ret | err | panic => trivial
  | get k f => exact hp.2 _
  | set k v p => exact hp.2

theorem sectionV_eval {α : Type} (p : Prog α) (w : View) :
    (sectionV p w).2.eval (sectionV p w).1 = p.eval w := by
  cases p <;> rfl

theorem sectionV_frame {α : Type} {R W : Key → Prop} {p : Prog α} (hp : Within R W p) (w : View)
    {k : Key} (hk : ¬ W k) : (sectionV p w).1 k = w k := by
  cases p with
  | ret | err | panic | get => rfl
  | set k' v p => exact View.set_ne _ _ (fun e => hk (by rw [e]; exact hp.1))

theorem result_eval {α : Type} {p : Prog α} {o : Outcome SErr α} (h : result p = some o) (w : View) :
    p.eval w = (w, o) := by
  cases p <;> simp only [result, Option.some.injEq, reduceCtorEq] at h <;> subst h <;> rfl

theorem saves_view {h : Hasher} {s : Storage} (hi : Inv s) {o : Op} (ho : SavesOnly o) :
    Inv (Svm.Storage.step h s o).1 ∧ view h (Svm.Storage.step h s o).1 = view h s := by
  refine ⟨Svm.Storage.inv_step h hi o (by cases o <;> first | exact ho.elim | trivial), ?_⟩
  cases o with
  | upsert | rollback | rewind => exact ho.elim
  | get | lastLayer | hasUncommitted => rfl
  | checkpoint ord =>
    show view h (Svm.Storage.checkpoint h ord s) = _
    rw [Svm.Storage.checkpoint_eq]
    funext k
    unfold view
    simp only [AMap.get_nil, Option.none_or]
    have hp := ord.perm s.dirty
    rw [AMap.get_insertAll, AMap.get_perm hi.dirty hp.symm]
    exact (hp.map _).nodup_iff.2 hi.dirty
  | commit ord =>
    show view h (Svm.Storage.commit ord s).1 = _
    by_cases hd : s.dirty = []
    · exact view_commit hi hd ord
    · rw [Svm.Storage.commit_dirty hd]

/-! ## C130 -/

/-- No thread writes what another one reads or writes. -/
def Apart {ι : Type} (R W : ι → Key → Prop) : Prop :=
  ∀ i j, i ≠ j → ∀ k, W i k → ¬ R j k ∧ ¬ W j k

/-- The invariant: what is left of every thread, run from here, ends as the whole thread run from the
beginning. -/
theorem runThreads_inv {ι α : Type} [DecidableEq ι] {h : Hasher} (hc : NoCollision h)
    {R W : ι → Key → Prop} (ha : Apart R W) (es : List (Turn ι)) (hs : Saving es)
    (t t₀ : ι → Prog α) (s : Storage) (w₀ : View) (hi : Inv s)
    (hw : ∀ i, Within (R i) (W i) (t i))
    (h1 : ∀ i, ((t i).eval (view h s)).2 = ((t₀ i).eval w₀).2)
    (h2 : ∀ i k, W i k → ((t i).eval (view h s)).1 k = ((t₀ i).eval w₀).1 k)
    (h3 : ∀ k, (∀ i, ¬ W i k) → view h s k = w₀ k) :
    let r := runThreads h es t s
    Inv r.1 ∧ (∀ i, Within (R i) (W i) (r.2 i)) ∧
    (∀ i, ((r.2 i).eval (view h r.1)).2 = ((t₀ i).eval w₀).2) ∧
    (∀ i k, W i k → ((r.2 i).eval (view h r.1)).1 k = ((t₀ i).eval w₀).1 k) ∧
    (∀ k, (∀ i, ¬ W i k) → view h r.1 k = w₀ k) := by
  induction es generalizing t s with
  | nil => exact ⟨hi, hw, h1, h2, h3⟩
  | cons e es ih =>
    have hs' : Saving es := fun o ho => hs o (List.mem_cons_of_mem _ ho)
    cases e with
    | op o =>
      obtain ⟨i1, v1⟩ := saves_view (h := h) hi (hs o List.mem_cons_self)
      exact ih hs' t _ i1 hw (by rw [v1]; exact h1) (by rw [v1]; exact h2) (by rw [v1]; exact h3)
    | step i =>
      obtain ⟨v1, v2⟩ := section_view hc (t i) s
      have fr : ∀ k, ¬ W i k → (sectionV (t i) (view h s)).1 k = view h s k :=
        fun k hk => sectionV_frame (hw i) _ hk
      refine ih hs' _ _ (section_inv _ hi) ?_ ?_ ?_ ?_
      · intro j
        split
        · rename_i e; subst e; rw [v2]; exact sectionV_within (hw j) _
        · exact hw j
      · intro j
        rw [v1]
        split
        · rename_i e; subst e; rw [v2, sectionV_eval]; exact h1 j
        · rename_i hne
          rw [← h1 j]
          exact ((hw j).eval_congr fun k hk => fr k fun hW =>
            (ha i j (fun e => hne e.symm) k hW).1 hk).1
      · intro j k hk
        rw [v1]
        split
        · rename_i e; subst e; rw [v2, sectionV_eval]; exact h2 j k hk
        · rename_i hne
          have hne' : i ≠ j := fun e => hne e.symm
          rw [← h2 j k hk]
          exact ((hw j).eval_congr fun k hk => fr k fun hW => (ha i j hne' k hW).1 hk).2 k
            (fr k fun hW => (ha i j hne' k hW).2 hk)
      · intro k hk
        rw [v1, fr k (hk i)]
        exact h3 k hk

/-- C130: threads of which none writes what another one reads or writes. For every schedule, with
checkpoints and commits anywhere, a finished thread has returned what it returns when it runs alone, the
keys it may write hold what they hold after it ran alone, and keys that no thread may write are unchanged.
-/
theorem C130_apart {ι α : Type} [DecidableEq ι] {h : Hasher} (hc : NoCollision h)
    {R W : ι → Key → Prop} (ha : Apart R W) {s : Storage} (hr : Reach h s) (t : ι → Prog α)
    (hw : ∀ i, Within (R i) (W i) (t i)) (es : List (Turn ι)) (hs : Saving es) :
    let r := runThreads h es t s
    (∀ i o, result (r.2 i) = some o → o = out h (t i) s ∧
      ∀ k, W i k → view h r.1 k = view h (after h (t i) s) k) ∧
    (∀ k, (∀ i, ¬ W i k) → view h r.1 k = view h s k) := by
  intro r
  obtain ⟨-, -, h1, h2, h3⟩ := runThreads_inv hc ha es hs t t s (view h s) (hr.ok hc).1 hw
    (fun _ => rfl) (fun _ _ _ => rfl) (fun _ _ => rfl)
  refine ⟨fun i o ho => ?_, h3⟩
  have g1 := h1 i
  have g2 := h2 i
  rw [result_eval ho] at g1
  refine ⟨by rw [out_eval hc]; exact g1, fun k hk => ?_⟩
  have := g2 k hk
  rw [result_eval ho] at this
  rw [view_after hc]
  exact this

/-- C130, the order does not matter: all schedules in which all threads finish leave the same readable
state and the same results. -/
theorem C130_any_order {ι α : Type} [DecidableEq ι] {h : Hasher} (hc : NoCollision h)
    {R W : ι → Key → Prop} (ha : Apart R W) {s : Storage} (hr : Reach h s) (t : ι → Prog α)
    (hw : ∀ i, Within (R i) (W i) (t i)) (es es' : List (Turn ι)) (hs : Saving es) (hs' : Saving es')
    (hf : ∀ i, (result ((runThreads h es t s).2 i)).isSome)
    (hf' : ∀ i, (result ((runThreads h es' t s).2 i)).isSome) :
    view h (runThreads h es t s).1 = view h (runThreads h es' t s).1 ∧
    ∀ i, result ((runThreads h es t s).2 i) = result ((runThreads h es' t s).2 i) := by
  obtain ⟨a1, a2⟩ := C130_apart hc ha hr t hw es hs
  obtain ⟨b1, b2⟩ := C130_apart hc ha hr t hw es' hs'
  constructor
  · funext k
    by_cases hk : ∃ i, W i k
    · obtain ⟨i, hk⟩ := hk
      obtain ⟨o, ho⟩ := Option.isSome_iff_exists.1 (hf i)
      obtain ⟨o', ho'⟩ := Option.isSome_iff_exists.1 (hf' i)
      rw [(a1 i o ho).2 k hk, (b1 i o' ho').2 k hk]
    · have hk' : ∀ i, ¬ W i k := fun i hi => hk ⟨i, hi⟩
      rw [a2 k hk', b2 k hk']
  · intro i
    obtain ⟨o, ho⟩ := Option.isSome_iff_exists.1 (hf i)
    obtain ⟨o', ho'⟩ := Option.isSome_iff_exists.1 (hf' i)
    rw [ho, ho', (a1 i o ho).1, (b1 i o' ho').1]

/-- Running a thread to its end, without a switch, is running its program. -/
theorem C130_alone {ι α : Type} [DecidableEq ι] (h : Hasher) (t : ι → Prog α) (i : ι) (s : Storage) :
    ∃ n, (runThreads h (List.replicate n (.step i)) t s).1 = after h (t i) s ∧
      result ((runThreads h (List.replicate n (.step i)) t s).2 i) = some (out h (t i) s) ∧
      ∀ j, j ≠ i → (runThreads h (List.replicate n (.step i)) t s).2 j = t j := by
  generalize hp : t i = p
  induction p generalizing t s with
  | ret | err | panic => exact ⟨0, rfl, by simp only [List.replicate, runThreads, hp]; rfl, fun _ _ => rfl⟩
  | get k f ih =>
    obtain ⟨n, h1, h2, h3⟩ := ih (view h s k) (fun j => if j = i then f (view h s k) else t j) s (by simp)
    refine ⟨n + 1, ?_⟩
    simp only [List.replicate_succ, runThreads, hp, section_, get_view]
    refine ⟨?_, ?_, fun j hj => ?_⟩
    · rw [h1]; simp only [after, Prog.run, get_view]
    · rw [h2]; simp only [out, Prog.run, get_view]
    · rw [h3 j hj, if_neg hj]
  | set k v p ih =>
    obtain ⟨n, h1, h2, h3⟩ := ih (fun j => if j = i then p else t j) (Storage.upsert h s k.text v) (by simp)
    refine ⟨n + 1, ?_⟩
    simp only [List.replicate_succ, runThreads, hp, section_]
    refine ⟨?_, ?_, fun j hj => ?_⟩
    · rw [h1]; rfl
    · rw [h2]; rfl
    · rw [h3 j hj, if_neg hj]

/-! ## Single threads -/

/-- Some critical sections of a thread, without a switch, lead from one point to another. -/
inductive Leads {α : Type} (h : Hasher) : Prog α → Storage → Prog α → Storage → Prop where
  | refl (p : Prog α) (s : Storage) : Leads h p s p s
  | get {k : Key} {f : Option Bytes → Prog α} {s : Storage} {q : Prog α} {s' : Storage} :
      Leads h (f (view h s k)) s q s' → Leads h (.get k f) s q s'
  | set {k : Key} {v : Bytes} {p : Prog α} {s : Storage} {q : Prog α} {s' : Storage} :
      Leads h p (Storage.upsert h s k.text v) q s' → Leads h (.set k v p) s q s'

theorem Leads.trans {α : Type} {h : Hasher} {p q r : Prog α} {s s' s'' : Storage}
    (h1 : Leads h p s q s') (h2 : Leads h q s' r s'') : Leads h p s r s'' := by
  induction h1 with
  | refl => exact h2
  | get _ ih => exact .get (ih h2)
  | set _ ih => exact .set (ih h2)

theorem Leads.of_ok {α : Type} {h : Hasher} {p : Prog α} {s : Storage} {a : α}
    (ho : out h p s = .ok a) : Leads h p s (.ret a) (after h p s) := by
  unfold out at ho
  unfold after
  induction p generalizing s with
  | ret b => cases ho; exact .refl _ _
  | err | panic => cases ho
  | get k f ih =>
    simp only [Prog.run, get_view] at ho ⊢
    exact .get (ih _ ho)
  | set k v p ih => exact .set (ih ho)

theorem Leads.bind {α β : Type} {h : Hasher} {p q : Prog α} {s s' : Storage}
    (hl : Leads h p s q s') (f : α → Prog β) : Leads h (p.bind f) s (q.bind f) s' := by
  induction hl with
  | refl => exact .refl _ _
  | get _ ih => exact .get ih
  | set _ ih => exact .set ih

/-- A read-only first part that succeeds. -/
theorem Leads.past {α β : Type} {h : Hasher} (hc : NoCollision h) {p : Prog α} (hp : ReadOnly p)
    {s : Storage} {a : α} (ho : (p.eval (view h s)).2 = .ok a) (f : α → Prog β) :
    Leads h (p.bind f) s (f a) s := by
  have h1 := Leads.of_ok (h := h) (p := p) (s := s) (a := a) (by rw [out_eval hc]; exact ho)
  have h2 : after h p s = s := hp.run h s
  rw [h2] at h1
  exact h1.bind f

theorem runThreads_append {ι α : Type} [DecidableEq ι] (h : Hasher) (es es' : List (Turn ι))
    (t : ι → Prog α) (s : Storage) :
    runThreads h (es ++ es') t s =
      runThreads h es' (runThreads h es t s).2 (runThreads h es t s).1 := by
  induction es generalizing t s with
  | nil => rfl
  | cons e es ih => cases e <;> exact ih _ _

theorem Leads.runs {ι α : Type} [DecidableEq ι] {h : Hasher} {p q : Prog α} {s s' : Storage}
    (hl : Leads h p s q s') (t : ι → Prog α) (i : ι) (hi : t i = p) :
    ∃ n, runThreads h (List.replicate n (.step i)) t s = (s', fun j => if j = i then q else t j) := by
  induction hl generalizing t with
  | refl p s =>
    refine ⟨0, Prod.ext rfl ?_⟩
    funext j
    show t j = if j = i then p else t j
    split
    · rename_i e; rw [e, hi]
    · rfl
  | @get k f s q s' _ ih =>
    obtain ⟨n, hn⟩ := ih (fun j => if j = i then f (view h s k) else t j) (by simp)
    refine ⟨n + 1, ?_⟩
    simp only [List.replicate_succ, runThreads, hi, section_, get_view]
    rw [hn]
    refine Prod.ext rfl ?_
    funext j
    by_cases e : j = i <;> simp [e]
  | @set k v p s q s' _ ih =>
    obtain ⟨n, hn⟩ := ih (fun j => if j = i then p else t j) (by simp)
    refine ⟨n + 1, ?_⟩
    simp only [List.replicate_succ, runThreads, hi, section_]
    rw [hn]
    refine Prod.ext rfl ?_
    funext j
    by_cases e : j = i <;> simp [e]

theorem saving_replicate {ι : Type} (n : Nat) (i : ι) : Saving (List.replicate n (Turn.step i)) :=
  fun o ho => by cases List.eq_of_mem_replicate ho

theorem Saving.append {ι : Type} {es es' : List (Turn ι)} (h1 : Saving es) (h2 : Saving es') :
    Saving (es ++ es') := fun o ho => (List.mem_append.1 ho).elim (h1 o) (h2 o)

/-! ## C131 -/

/-- A payment: from, to, how much. -/
structure Payment where
  src : Addr
  dst : Addr
  amount : U64

/-- The threads that make these payments with `Runtime::transfer`. -/
def payments {ι : Type} (chk : Bool) (ps : ι → Payment) : ι → Prog Unit :=
  fun i => transfer chk (ps i).src (ps i).dst (ps i).amount

/-- The sum of what two payments take from or bring to an account. -/
def paid (ps : Bool → Payment) (side : Payment → Addr) (a : Addr) : Nat :=
  (if side (ps false) = a then (ps false).amount.toNat else 0) +
    (if side (ps true) = a then (ps true).amount.toNat else 0)

/-- C131 as claimed, for two payments: when both have returned, every account has what it had, less what it
paid, plus what it was paid. -/
def ConcurrentPayments (h : Hasher) : Prop :=
  ∀ (s : Storage) (chk : Bool) (ps : Bool → Payment) (es : List (Turn Bool)), Reach h s → Saving es →
    (∀ i, (ps i).src ≠ (ps i).dst) →
    (∀ i, result ((runThreads h es (payments chk ps) s).2 i) = some (.ok ())) →
    ∀ a b b', bal h s a = some b → bal h (runThreads h es (payments chk ps) s).1 a = some b' →
      b'.toNat + paid ps (·.src) a = b.toNat + paid ps (·.dst) a

/-- What a transfer may read. -/
def TransferReads (src dst : Addr) (k : Key) : Prop :=
  k = .accMut src ∨ k = .accMut dst ∨ (∃ a, k = .accData a) ∨ (∃ a, k = .core a) ∨ ∃ a, k = .noncore a

/-- What a transfer may write. -/
def TransferWrites (src dst : Addr) (k : Key) : Prop := k = .accMut src ∨ k = .accMut dst

theorem within_load {R W : Key → Prop} (chk : Bool) (a : Addr) (h1 : ∀ a, R (.accData a))
    (h2 : ∀ a, R (.core a)) (h3 : ∀ a, R (.noncore a)) : Within R W (load chk a) := by
  refine (within_readAndDecode _ (h1 _)).bind fun d => Within.bind ?_ fun _ => trivial
  refine Within.bind ?_ fun ss => ?_
  · exact (within_readAndDecode _ (h2 _)).bind fun _ => (within_readAndDecode _ (h3 _)).bind fun _ => trivial
  · split <;> trivial

theorem within_setBalance {R W : Key → Prop} (acc : Acc) (b : U64) (h1 : R (.accMut acc.addr))
    (h2 : W (.accMut acc.addr)) : Within R W (setBalance acc b) := by
  refine (within_readAndDecode _ h1).bind fun d => ?_
  show Within R W (encodeAndWrite _ _)
  unfold encodeAndWrite
  split
  · exact ⟨h2, trivial⟩
  · trivial

theorem within_moveCoins {R W : Key → Prop} (src dst : Acc) (x y amount : U64)
    (h1 : R (.accMut src.addr)) (h2 : W (.accMut src.addr)) (h3 : R (.accMut dst.addr))
    (h4 : W (.accMut dst.addr)) : Within R W (moveCoins src dst x y amount) := by
  unfold moveCoins
  split
  · trivial
  · refine (within_setBalance src _ h1 h2).unwrap.bind fun _ => ?_
    split
    · exact (within_setBalance dst _ h3 h4).unwrap
    · trivial

/-- The value of a program, if it returns. -/
def Returns {α : Type} (Q : α → Prop) : Prog α → Prop
  | .ret a => Q a
  | .err _ => True
  | .panic _ => True
  | .get _ f => ∀ v, Returns Q (f v)
  | .set _ _ p => Returns Q p

theorem Returns.bind {α β : Type} {Q : α → Prop} {Q' : β → Prop} {p : Prog α} {f : α → Prog β}
    (hp : Returns Q p) (hf : ∀ a, Q a → Returns Q' (f a)) : Returns Q' (p.bind f) := by
  induction p with
  | ret a => exact hf a hp
  | err | panic => trivial
  | get k g ih => exact fun v => ih v (hp v)
  | set k v p ih => exact ih hp

theorem Returns.any {α : Type} (p : Prog α) : Returns (fun _ => True) p := by
  induction p with
  | ret | err | panic => trivial
  | get k g ih => exact fun v => ih v
  | set k v p ih => exact ih

theorem Returns.unwrap {α : Type} {Q : α → Prop} {p : Prog α} (hp : Returns Q p) :
    Returns Q p.unwrap := by
  induction p with
  | ret => exact hp
  | err | panic => trivial
  | get k g ih => exact fun v => ih v (hp v)
  | set k v p ih => exact ih hp

theorem Within.bindR {α β : Type} {R W : Key → Prop} {Q : α → Prop} {p : Prog α} {f : α → Prog β}
    (hp : Within R W p) (hq : Returns Q p) (hf : ∀ a, Q a → Within R W (f a)) :
    Within R W (p.bind f) := by
  induction p with
  | ret a => exact hf a hq
  | err | panic => trivial
  | get k g ih => exact ⟨hp.1, fun v => ih v (hp.2 v) (hq v)⟩
  | set k v p ih => exact ⟨hp.1, ih hp.2 hq⟩

theorem returns_load (chk : Bool) (a : Addr) : Returns (fun acc => acc.addr = a) (load chk a) :=
  (Returns.any _).bind fun _ _ => (Returns.any _).bind fun _ _ => rfl

/-- A transfer stays within its footprint. -/
theorem within_transfer (chk : Bool) (src dst : Addr) (amount : U64) :
    Within (TransferReads src dst) (TransferWrites src dst) (transfer chk src dst amount) := by
  have r1 : ∀ a, TransferReads src dst (.accData a) := fun a => .inr (.inr (.inl ⟨a, rfl⟩))
  have r2 : ∀ a, TransferReads src dst (.core a) := fun a => .inr (.inr (.inr (.inl ⟨a, rfl⟩)))
  have r3 : ∀ a, TransferReads src dst (.noncore a) := fun a => .inr (.inr (.inr (.inr ⟨a, rfl⟩)))
  have hl : ∀ a, Within (TransferReads src dst) (TransferWrites src dst) (load chk a) :=
    fun a => within_load chk a r1 r2 r3
  have hs : TransferReads src dst (.accMut src) := .inl rfl
  have hd : TransferReads src dst (.accMut dst) := .inr (.inl rfl)
  unfold transfer
  refine (hl src).unwrap.bindR (returns_load chk src).unwrap fun sa hsa => ?_
  refine Within.bind ?_ fun x => ?_
  · unfold getAccount
    refine Within.attempt ((hl dst).bindR (returns_load chk dst) fun da hda => ?_)
    have hk : TransferReads src dst (.accMut da.addr) := by rw [hda]; exact hd
    refine Within.bind ((within_readAndDecode _ hk).bind fun _ => trivial) fun _ => ?_
    refine Within.bind ((within_readAndDecode _ hk).bind fun _ => trivial) fun _ => ?_
    exact Within.bind ((within_readAndDecode _ (r1 _)).bind fun _ => trivial) fun _ => trivial
  · cases x with
    | none => trivial
    | some _ =>
      refine (hl dst).unwrap.bindR (returns_load chk dst).unwrap fun da hda => ?_
      refine Within.bind (Within.unwrap ((within_readAndDecode _ (by rw [hsa]; exact hs)).bind
        fun _ => trivial)) fun sb => ?_
      refine Within.bind (Within.unwrap ((within_readAndDecode _ (by rw [hda]; exact hd)).bind
        fun _ => trivial)) fun db => ?_
      exact within_moveCoins _ _ _ _ _ (by rw [hsa]; exact hs) (by rw [hsa]; exact .inl rfl)
        (by rw [hda]; exact hd) (by rw [hda]; exact .inr rfl)

/-- Payments on accounts that are all different. -/
def AllDifferent {ι : Type} (ps : ι → Payment) : Prop :=
  (∀ i, (ps i).src ≠ (ps i).dst) ∧
  ∀ i j, i ≠ j → (ps i).src ≠ (ps j).src ∧ (ps i).src ≠ (ps j).dst ∧ (ps i).dst ≠ (ps j).dst

theorem AllDifferent.apart {ι : Type} {ps : ι → Payment} (hd : AllDifferent ps) :
    Apart (fun i => TransferReads (ps i).src (ps i).dst) fun i => TransferWrites (ps i).src (ps i).dst := by
  intro i j hij k hk
  obtain ⟨d1, d2, d3⟩ := hd.2 i j hij
  obtain ⟨e1, e2, e3⟩ := hd.2 j i (Ne.symm hij)
  rcases hk with rfl | rfl
  · simp [TransferReads, TransferWrites, d1, d2]
  · simp [TransferReads, TransferWrites, d3, Ne.symm e2]

/-- C131, what holds: any number of threads, payments on accounts that are all different, any schedule with
checkpoints and commits. A payment that has ended, ended as if it ran alone; if it returned, its coins have
moved; if all have ended, accounts without a payment have what they had, and no other field, variable or
template has changed. Missing: payments that share an account. -/
theorem C131_partial {ι : Type} [DecidableEq ι] {h : Hasher} (hc : NoCollision h) {s : Storage}
    (hr : Reach h s) (chk : Bool) (ps : ι → Payment) (hd : AllDifferent ps) (es : List (Turn ι))
    (hs : Saving es) :
    let r := runThreads h es (payments chk ps) s
    (∀ i o, result (r.2 i) = some o → o = out h (payments chk ps i) s) ∧
    (∀ i, result (r.2 i) = some (.ok ()) →
      (∃ b b', bal h s (ps i).src = some b ∧ bal h r.1 (ps i).src = some b' ∧
        b'.toNat + (ps i).amount.toNat = b.toNat) ∧
      ∃ b b', bal h s (ps i).dst = some b ∧ bal h r.1 (ps i).dst = some b' ∧
        b'.toNat = b.toNat + (ps i).amount.toNat) ∧
    (∀ a, (∀ i, a ≠ (ps i).src ∧ a ≠ (ps i).dst) → bal h r.1 a = bal h s a) ∧
    ((∀ i, (result (r.2 i)).isSome) → OnlyBalances h s r.1) := by
  intro r
  obtain ⟨h1, h2⟩ := C130_apart hc hd.apart hr (payments chk ps)
    (fun i => within_transfer chk _ _ _) es hs
  have hcase := fun i => transfer_cases chk (ps i).src (ps i).dst (ps i).amount (view h s)
  have balEq : ∀ {s1 s2 : Storage} {a : Addr}, view h s1 (.accMut a) = view h s2 (.accMut a) →
      bal h s1 a = bal h s2 a := by
    intro s1 s2 a e
    rw [bal_money hc, bal_money hc]
    unfold money
    rw [e]
  refine ⟨fun i o ho => (h1 i o ho).1, fun i ho => ?_, fun a ha => ?_, fun hf => ?_⟩
  · obtain ⟨ho1, ho2⟩ := h1 i _ ho
    have hm : Moved h s (after h (payments chk ps i) s) (ps i).src (ps i).dst (ps i).amount := by
      refine Cases.moved hc ?_ (hd.1 i)
      have := hcase i
      rw [view_after hc]
      rw [out_eval hc] at ho1
      unfold payments at ho1 ⊢
      rw [← ho1] at this
      exact this
    obtain ⟨b, b', m1, m2, m3⟩ := hm.source
    obtain ⟨c, c', m4, m5, m6⟩ := hm.destination
    exact ⟨⟨b, b', m1, (balEq (ho2 _ (.inl rfl))).trans m2, m3⟩,
      ⟨c, c', m4, (balEq (ho2 _ (.inr rfl))).trans m5, m6⟩⟩
  · refine balEq (h2 _ fun i hi => ?_)
    rcases hi with e | e <;> cases e
    · exact (ha i).1 rfl
    · exact (ha i).2 rfl
  · refine onlyBalances hc ⟨fun k hk => h2 k fun i hi => ?_, fun acc => ?_⟩
    · rcases hi with e | e
      · exact hk _ e
      · exact hk _ e
    · have cong : ∀ {w w' : View}, w (.accMut acc.addr) = w' (.accMut acc.addr) →
          ((counter acc).eval w).2 = ((counter acc).eval w').2 := fun e =>
        map_congr _ (readAndDecode_congr _ _ e)
      by_cases hk : ∃ i, TransferWrites (ps i).src (ps i).dst (.accMut acc.addr)
      · obtain ⟨i, hi⟩ := hk
        obtain ⟨o, ho⟩ := Option.isSome_iff_exists.1 (hf i)
        rw [cong ((h1 i o ho).2 _ hi), view_after hc]
        exact (hcase i).only.counters acc
      · exact cong (h2 _ fun i hi => hk ⟨i, hi⟩)

/-- A transfer that returns when it runs alone gets, by reads only, to the point where it has both balances
and has written nothing. -/
theorem transfer_leads {h : Hasher} (hc : NoCollision h) {chk : Bool} {src dst : Addr} {amount : U64}
    {s : Storage} (ho : out h (transfer chk src dst amount) s = .ok ()) :
    ∃ (sa da : Acc) (ds dd : AccountMut), sa.addr = src ∧ da.addr = dst ∧
      money (view h s) src = some ds ∧ money (view h s) dst = some dd ∧
      amount.toNat ≤ ds.balance.toNat ∧ dd.balance.toNat + amount.toNat < 2 ^ 64 ∧
      Leads h (transfer chk src dst amount) s (moveCoins sa da ds.balance dd.balance amount) s := by
  rw [out_eval hc] at ho
  have split : ∀ {α β : Type} {p : Prog α} {f : α → Prog β} {b : β}, ReadOnly p →
      ((p.bind f).eval (view h s)).2 = .ok b →
      ∃ a, p.eval (view h s) = (view h s, .ok a) ∧ ((f a).eval (view h s)).2 = .ok b := by
    intro α β p f b hp hb
    have hv := hp.eval (view h s)
    rw [Prog.eval_bind] at hb
    cases e : p.eval (view h s) with
    | mk w' o =>
      rw [e] at hv hb
      simp only at hv
      subst hv
      cases o with
      | ok a => exact ⟨a, rfl, hb⟩
      | err | panic => cases hb
  unfold transfer at ho ⊢
  simp only [Prog.bind_eq] at ho ⊢
  obtain ⟨sa, e1, ho⟩ := split (readOnly_load chk src).unwrap ho
  obtain ⟨x, e2, ho⟩ := split (readOnly_getAccount chk dst) ho
  cases x with
  | none => cases ho
  | some x =>
    obtain ⟨da, e3, ho⟩ := split (readOnly_load chk dst).unwrap ho
    obtain ⟨sb, e4, ho⟩ := split (readOnly_balance sa).unwrap ho
    obtain ⟨db, e5, ho⟩ := split (readOnly_balance da).unwrap ho
    obtain ⟨ds, hs, rfl⟩ := unwrap_balance e4
    obtain ⟨dd, hd, rfl⟩ := unwrap_balance e5
    have a1 := unwrap_load_addr e1
    have a2 := unwrap_load_addr e3
    have hm := moveCoins_eval (amount := amount) hs hd
    rw [hm] at ho
    refine ⟨sa, da, ds, dd, a1, a2, by rw [← a1]; exact hs, by rw [← a2]; exact hd, ?_, ?_, ?_⟩
    · split at ho
      · cases ho
      · omega
    · split at ho
      · cases ho
      · split at ho
        · assumption
        · cases ho
    · exact (Leads.past hc (readOnly_load chk src).unwrap (congrArg Prod.snd e1) _).trans
        ((Leads.past hc (readOnly_getAccount chk dst) (congrArg Prod.snd e2) _).trans
        ((Leads.past hc (readOnly_load chk dst).unwrap (congrArg Prod.snd e3) _).trans
        ((Leads.past hc (readOnly_balance sa).unwrap (congrArg Prod.snd e4) _).trans
        (Leads.past hc (readOnly_balance da).unwrap (congrArg Prod.snd e5) _))))

/-- One `set_balance`, as steps of a thread. -/
theorem setBalance_leads {β : Type} {h : Hasher} (hc : NoCollision h) {s : Storage} {acc : Acc}
    {d : AccountMut} (hm : money (view h s) acc.addr = some d) (b : U64) (f : Unit → Prog β) :
    ∃ s', Leads h ((setBalance acc b).unwrap.bind f) s (f ()) s' ∧
      view h s' = (view h s).set (.accMut acc.addr) (mutBytes { d with balance := b }) := by
  have e := unwrap_ok.2 (setBalance_eval hm b)
  refine ⟨after h (setBalance acc b).unwrap s, ?_, ?_⟩
  · exact (Leads.of_ok (a := ()) (by rw [out_eval hc, e])).bind f
  · rw [view_after hc, e]

/-- Some schedule leads from one point of all threads to another. -/
def Reaches {ι α : Type} [DecidableEq ι] (h : Hasher) (t : ι → Prog α) (s : Storage) (t' : ι → Prog α)
    (s' : Storage) : Prop := ∃ es, Saving es ∧ runThreads h es t s = (s', t')

theorem Reaches.refl {ι α : Type} [DecidableEq ι] (h : Hasher) (t : ι → Prog α) (s : Storage) :
    Reaches h t s t s := ⟨[], (by intro o ho; cases ho), rfl⟩

theorem Reaches.trans {ι α : Type} [DecidableEq ι] {h : Hasher} {t t' t'' : ι → Prog α}
    {s s' s'' : Storage} (h1 : Reaches h t s t' s') (h2 : Reaches h t' s' t'' s'') :
    Reaches h t s t'' s'' := by
  obtain ⟨e1, a1, b1⟩ := h1
  obtain ⟨e2, a2, b2⟩ := h2
  exact ⟨e1 ++ e2, a1.append a2, by rw [runThreads_append, b1]; exact b2⟩

theorem Reaches.run {ι α : Type} [DecidableEq ι] {h : Hasher} {t t' : ι → Prog α} {s s' s'' : Storage}
    {q : Prog α} (h1 : Reaches h t s t' s') (i : ι) (hl : Leads h (t' i) s' q s'') :
    Reaches h t s (fun j => if j = i then q else t' j) s'' := by
  obtain ⟨n, hn⟩ := hl.runs t' i rfl
  exact h1.trans ⟨_, saving_replicate n i, hn⟩

theorem Reaches.op {ι α : Type} [DecidableEq ι] {h : Hasher} {t t' : ι → Prog α} {s s' : Storage}
    (h1 : Reaches h t s t' s') (o : Op) (ho : SavesOnly o) :
    Reaches h t s t' (Svm.Storage.step h s' o).1 :=
  h1.trans ⟨[.op o], (by
    intro o' hm
    cases hm with
    | head => exact ho
    | tail _ hm => cases hm), rfl⟩

/-- The two writes of a transfer. -/
theorem moveCoins_eq {sa da : Acc} {x y amount : U64} (h1 : amount.toNat ≤ x.toNat)
    (h2 : y.toNat + amount.toNat < 2 ^ 64) :
    moveCoins sa da x y amount =
      (setBalance sa (x - amount)).unwrap.bind fun _ => (setBalance da (y + amount)).unwrap.bind .ret := by
  unfold moveCoins
  rw [if_neg (by omega)]
  simp only [Prog.bind_eq, if_pos h2]
  congr 1
  funext u
  exact (bind_ret _).symm

/-- C131, for every state: if two payments from one account to another can be made, there is a schedule in
which both return, but the payer is only charged the first amount and the other account only gets the
second: the difference is made or lost. -/
theorem C131_lost_update {h : Hasher} (hc : NoCollision h) {s : Storage} {chk : Bool} {src dst : Addr}
    (hne : src ≠ dst) {x y : U64} (hx : out h (transfer chk src dst x) s = .ok ())
    (hy : out h (transfer chk src dst y) s = .ok ()) :
    ∃ es : List (Turn Bool), Saving es ∧
      let r := runThreads h es (payments chk fun i => ⟨src, dst, if i then y else x⟩) s
      (∀ i, result (r.2 i) = some (.ok ())) ∧
      ∃ b d b' d' : U64, bal h s src = some b ∧ bal h s dst = some d ∧
        bal h r.1 src = some b' ∧ bal h r.1 dst = some d' ∧
        b'.toNat + x.toNat = b.toNat ∧ d'.toNat = d.toNat + y.toNat := by
  obtain ⟨sa, da, ds, dd, a1, a2, m1, m2, l1, l2, L0⟩ := transfer_leads hc hx
  obtain ⟨sa', da', ds', dd', a1', a2', m1', m2', l1', l2', L1⟩ := transfer_leads hc hy
  rw [m1] at m1'; cases m1'
  rw [m2] at m2'; cases m2'
  rw [moveCoins_eq l1 l2] at L0
  rw [moveCoins_eq l1' l2'] at L1
  obtain ⟨s1, K1, v1⟩ := setBalance_leads hc (s := s) (acc := sa') (d := ds) (by rw [a1', m1]) (ds.balance - y)
    fun _ => (setBalance da' (dd.balance + y)).unwrap.bind .ret
  rw [a1'] at v1
  obtain ⟨s2, K2, v2⟩ := setBalance_leads hc (s := s1) (acc := sa)
    (d := { ds with balance := ds.balance - y })
    (by rw [v1, money_set, a1, if_pos rfl]) (ds.balance - x)
    fun _ => (setBalance da (dd.balance + x)).unwrap.bind .ret
  rw [a1] at v2
  obtain ⟨s3, K3, v3⟩ := setBalance_leads hc (s := s2) (acc := da) (d := dd)
    (by rw [v2, money_set, v1, money_set, a2, if_neg (Ne.symm hne), if_neg (Ne.symm hne), m2])
    (dd.balance + x) (.ret : Unit → Prog Unit)
  rw [a2] at v3
  obtain ⟨s4, K4, v4⟩ := setBalance_leads hc (s := s3) (acc := da')
    (d := { dd with balance := dd.balance + x })
    (by rw [v3, money_set, a2', if_pos rfl]) (dd.balance + y) (.ret : Unit → Prog Unit)
  rw [a2'] at v4
  have R := Reaches.refl h (payments chk fun i : Bool => ⟨src, dst, if i then y else x⟩) s
  have R := R.run false L0
  have R := R.run true L1
  have R := R.run true K1
  have R := R.run false K2
  have R := R.run false K3
  have R := R.run true K4
  obtain ⟨es, hs, he⟩ := R
  refine ⟨es, hs, ?_⟩
  simp only [he]
  refine ⟨fun i => by cases i <;> rfl, ds.balance, dd.balance, ds.balance - x, dd.balance + y, ?_, ?_, ?_, ?_, ?_, ?_⟩
  · rw [bal_money hc, m1]; rfl
  · rw [bal_money hc, m2]; rfl
  · rw [bal_money hc, v4, money_set, if_neg hne, v3, money_set, if_neg hne, v2, money_set, if_pos rfl]; rfl
  · rw [bal_money hc, v4, money_set, if_pos rfl]; rfl
  · rw [toNat_sub l1]; omega
  · rw [toNat_add l2']

/-- The demo world: two payments from account 1 to account 2 are possible. -/
theorem demo_transfers {h : Hasher} (hc : NoCollision h) (x : U64) (hx : x = 3 ∨ x = 4) :
    out h (transfer true (exampleAddr 1) (exampleAddr 2) x) (demo h 10 5) = .ok () := by
  rw [out_eval hc, view_demo hc]
  rcases hx with rfl | rfl <;> rfl

/-- C131 is violated. -/
theorem C131_claim_false {h : Hasher} (hc : NoCollision h) : ¬ ConcurrentPayments h := by
  intro hcl
  obtain ⟨es, hs, hf, b, d, b', d', e1, e2, e3, e4, e5, e6⟩ := C131_lost_update hc (chk := true)
    (show exampleAddr 1 ≠ exampleAddr 2 by decide) (demo_transfers hc 3 (.inl rfl)) (demo_transfers hc 4 (.inr rfl))
  have := hcl _ true _ es (reach_demo h 10 5) hs (fun i => by cases i <;> decide) hf (exampleAddr 1) b b' e1 e3
  have p1 : paid (fun i => ⟨exampleAddr 1, exampleAddr 2, if i then 4 else 3⟩) (·.src) (exampleAddr 1) = 7 := by
    decide
  have p2 : paid (fun i => ⟨exampleAddr 1, exampleAddr 2, if i then 4 else 3⟩) (·.dst) (exampleAddr 1) = 0 := by
    decide
  have h3 : (3 : U64).toNat = 3 := rfl
  rw [p1, p2] at this
  rw [h3] at e5
  omega

/-- The demo world with four accounts. -/
def demoFour (h : Hasher) : Storage :=
  after h (do
    let _ ← create true (exampleAddr 3) ⟨[], rfl⟩ demoTemplate 8 0
    let _ ← create true (exampleAddr 4) ⟨[], rfl⟩ demoTemplate 1 0
    return ()) (demo h 10 5)

/-- Non-vacuity of C130 and C131: a payment from 1 to 2, another one from 3 to 4, and a schedule in which
both return, with a checkpoint when the first has read the balances. -/
example : ∃ h, NoCollision h ∧ Reach h (demoFour h) ∧
    ∃ ps : Bool → Payment, AllDifferent ps ∧ ∃ es, Saving es ∧ .op (.checkpoint .id) ∈ es ∧
      ∀ i, result ((runThreads h es (payments true ps) (demoFour h)).2 i) = some (.ok ()) := by
  obtain ⟨h, hc⟩ := exists_noCollision
  have hr : Reach h (demoFour h) := .prog _ ((safe_create _ _ _ _ _ _).bind fun _ =>
    (safe_create _ _ _ _ _ _).bind fun _ => trivial) (reach_demo h 10 5)
  have hv : view h (demoFour h) = ((do
    let _ ← create true (exampleAddr 3) ⟨[], rfl⟩ demoTemplate 8 0
    let _ ← create true (exampleAddr 4) ⟨[], rfl⟩ demoTemplate 1 0
    return () : Prog Unit).eval (demoView 10 5)).1 := by
    unfold demoFour
    rw [view_after hc, view_demo hc]
  let ps : Bool → Payment := fun i =>
    if i then ⟨exampleAddr 3, exampleAddr 4, 7⟩ else ⟨exampleAddr 1, exampleAddr 2, 3⟩
  have hd : AllDifferent ps := ⟨by intro i; cases i <;> decide, by
    intro i j hij; cases i <;> cases j <;> first | exact absurd rfl hij | decide⟩
  have ho : ∀ i, out h (payments true ps i) (demoFour h) = .ok () := by
    intro i
    rw [out_eval hc, hv]
    cases i <;> rfl
  let e0 : List (Turn Bool) := List.replicate 14 (.step false) ++ [.op (.checkpoint .id)]
  obtain ⟨n, -, f1, -⟩ := C130_alone h (runThreads h e0 (payments true ps) (demoFour h)).2 false
    (runThreads h e0 (payments true ps) (demoFour h)).1
  rw [← runThreads_append] at f1
  generalize he1 : e0 ++ List.replicate n (.step false) = e1 at f1
  obtain ⟨m, -, f2, f3⟩ := C130_alone h (runThreads h e1 (payments true ps) (demoFour h)).2 true
    (runThreads h e1 (payments true ps) (demoFour h)).1
  simp only [← runThreads_append] at f2 f3
  have hs : Saving (e1 ++ List.replicate m (.step true)) := by
    rw [← he1]
    refine Saving.append (Saving.append (Saving.append (saving_replicate _ _) ?_) (saving_replicate _ _))
      (saving_replicate _ _)
    intro o hm
    simp only [List.mem_singleton, Turn.op.injEq] at hm
    subst hm
    trivial
  refine ⟨h, hc, hr, ps, hd, _, hs, by simp [← he1, e0], fun i => ?_⟩
  obtain ⟨h1, -⟩ := C131_partial hc hr true ps hd _ hs
  have hf : ∃ o, result ((runThreads h (e1 ++ List.replicate m (.step true)) (payments true ps)
      (demoFour h)).2 i) = some o := by
    cases i with
    | true => exact ⟨_, f2⟩
    | false => exact ⟨_, by rw [f3 false (by decide)]; exact f1⟩
  obtain ⟨o, hf⟩ := hf
  rw [hf, h1 i o hf, ho i]

end Svm.Runtime
