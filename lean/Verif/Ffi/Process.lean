import Verif.Ffi.Handles
import Verif.Runtime.Poison
import Mathlib.Logic.Function.Basic

/-!
# C141: several runtimes in one process

The functions of the C API (crates/host/runtime-ffi/src/c_api.rs) with the runtimes behind the handles, and with the
databases behind the runtimes. Two runtimes can be asked to open the same file.
-/

namespace Svm.Ffi

open Svm.Codec Svm.Runtime
open Svm.Storage (Hasher Storage Db GlobalState NextLayer Changes Stmt)

/-! ## Model -/

/-- Where a database is: in memory, one for each runtime without a path (c_api.rs:75-76,
state/src/global_state.rs:46-48), or in a file. -/
inductive Place where
  | memory (n : Nat)
  | file (n : Nat)
  deriving DecidableEq

/-- A runtime without its database: the other fields of `Storage`, storage.rs:53-57, the flag of the mutex and the
cache of prices. -/
structure Rt where
  place : Place
  dirty : Changes
  next : NextLayer
  poisoned : Bool
  cache : PriceCache

/-- The runtime with its database. -/
def Rt.load (r : Rt) (db : Db) : LState := ⟨⟨⟨db, r.dirty, r.next⟩, r.poisoned⟩, r.cache⟩

/-- The runtime after a call. -/
def Rt.save (place : Place) (ls : LState) : Rt :=
  ⟨place, ls.gs.storage.dirty, ls.gs.storage.next, ls.gs.poisoned, ls.cache⟩

/-- The process: the handles, the contents of the databases, the number of databases in memory, and the runtimes.
Destroyed runtimes stay in memory (resource_tracker.rs:37-45). -/
structure Process where
  handles : State
  dbs : Place → Db
  mems : Nat
  rts : Nat → Option Rt

/-- The surroundings: the file that sqlx opens for a path (none if the path is no UTF-8 or cannot be opened), and the
templates of `GenesisConfig::mainnet`. -/
structure Surroundings where
  hasher : Hasher
  file : Bytes → Option Nat
  genesis : List (Addr × Sections)
  chk : Bool
  engine : Engine
  pricer : Pricer

/-- Calls of the C API. `use` is a call of one of the functions of the runtime. For `create`, `ptr` is the address that
the allocator chooses, and a path that names a database in memory (`:memory:`) is written as no path. -/
inductive PCall where
  | init
  | create (path : Option Bytes) (ptr : Nat) (o : Orders)
  | destroy (ptr : Nat)
  | use (ptr : Nat) (o : Orders) (e : Event)
  | count

/-- What the caller sees. -/
inductive PAnswer where
  | api (a : Answer)
  | reply (a : Svm.Runtime.Answer)

/-- `GlobalState::new`, state/src/global_state.rs:23-42, with `init_genesis`, 50-95: the database that is left, and the
runtime. `none` is a panic.
Simplification: the `debug_assert`s of `init_genesis` are left out; they hold for files without layers. -/
def openRuntime (w : Surroundings) (o : Orders) (db : Db) : Db × Option LState :=
  match Svm.Storage.openDb db with
  | (_, .ok s) =>
    if (Svm.Storage.genesisFingerprint s).isSome then (s.db, some ⟨⟨s, false⟩, []⟩)
    else
      let r := (genesisProg w.genesis).run w.hasher s
      match r.2 with
      | .ok () =>
        let c := Svm.Storage.commit o.commit (Svm.Storage.checkpoint w.hasher o.checkpoint r.1)
        match c.2 with
        | .ok _ => (c.1.db, some ⟨⟨c.1, false⟩, []⟩)
        | _ => (c.1.db, none)
      | _ => (r.1.db, none)
  | (db', _) => (db', none)

/-- `svm_runtime_create` behind the checks, c_api.rs:73-92. -/
def Process.build (w : Surroundings) (p : Process) (place : Place) (ptr : Nat) (o : Orders) : PAnswer × Process :=
  let r := openRuntime w o (p.dbs place)
  let dbs := Function.update p.dbs place r.1
  match r.2 with
  | some ls =>
    let x := step p.handles (.create (.builds ptr))
    (.api x.1, { p with handles := x.2, dbs, rts := Function.update p.rts ptr (some (Rt.save place ls)) })
  | none =>
    let x := step p.handles (.create .panics)
    (.api x.1, { p with handles := x.2, dbs })

/-- One call. `svm_runtime_create`, c_api.rs:62-95; the others get the runtime from the tracker, c_api.rs:664-668. -/
def Process.step (w : Surroundings) (p : Process) : PCall → PAnswer × Process
  | .init => let x := Ffi.step p.handles .init; (.api x.1, { p with handles := x.2 })
  | .create path ptr o =>
    if p.handles.poisoned || !p.handles.initialized then (.api .error, p)
    else
      match path with
      | none => Process.build w { p with mems := p.mems + 1 } (.memory p.mems) ptr o
      | some path =>
        match w.file path with
        | none => let x := Ffi.step p.handles (.create .panics); (.api x.1, { p with handles := x.2 })
        | some n => Process.build w p (.file n) ptr o
  | .destroy ptr => let x := Ffi.step p.handles (.destroy ptr); (.api x.1, { p with handles := x.2 })
  | .use ptr o e =>
    if p.handles.get ptr then
      match p.rts ptr with
      | some r =>
        let x := LNode.step w.chk w.hasher w.engine w.pricer o (r.load (p.dbs r.place)) e
        (.reply x.2, { p with
          dbs := Function.update p.dbs r.place x.1.gs.storage.db
          rts := Function.update p.rts ptr (some (Rt.save r.place x.1)) })
      | none => (.api .unwinds, p)
    else (.api .error, p)
  | .count => (.api (Ffi.step p.handles .count).1, p)

/-- Many calls. -/
def Process.run (w : Surroundings) : Process → List PCall → List PAnswer × Process
  | p, [] => ([], p)
  | p, c :: cs =>
    let r := Process.step w p c
    let r' := Process.run w r.2 cs
    (r.1 :: r'.1, r'.2)

/-- A new process. The files have the contents `files`. -/
def Process.start (files : Nat → Db) : Process :=
  ⟨.start, fun | .memory _ => .empty | .file n => files n, 0, fun _ => none⟩

/-! ## Spec -/

/-- The call is about this runtime. -/
def PCall.about (q : Nat) : PCall → Bool
  | .create _ ptr _ => ptr == q
  | .destroy ptr => ptr == q
  | .use ptr _ _ => ptr == q
  | _ => false

/-- The call is about this runtime, or is `svm_init`. -/
def PCall.kept (q : Nat) (c : PCall) : Bool :=
  match c with
  | .init => true
  | c => c.about q

/-- The answers to the calls about a runtime. -/
def answersTo (q : Nat) : List PCall → List PAnswer → List PAnswer
  | c :: cs, a :: as => if c.about q then a :: answersTo q cs as else answersTo q cs as
  | _, _ => []

/-- The allocator chooses addresses that are not in use. -/
def PHonest (w : Surroundings) : Process → List PCall → Prop
  | _, [] => True
  | p, c :: cs => (∀ path ptr o, c = .create path ptr o → ptr ∉ p.handles.boxes) ∧ PHonest w (p.step w c).2 cs

/-- C141 in full: the runtimes of a process do not influence each other. The calls about a runtime are answered as if
there were no others. -/
def C141_claim (w : Surroundings) : Prop :=
  ∀ (files : Nat → Db) (cs : List PCall) (q : Nat), PHonest w (.start files) cs →
    answersTo q cs (Process.run w (.start files) cs).1 =
      answersTo q (cs.filter (PCall.kept q)) (Process.run w (.start files) (cs.filter (PCall.kept q))).1

/-! ## Databases that were opened -/

/-- The database has the row of layer -2. -/
def Rooted (db : Db) : Prop := db.layers.any (fun r => decide (r.id = -2)) = true

theorem rooted_exec {db db' : Db} {st : Stmt} (hst : ∀ l, st = .deleteLayersAbove l → -2 ≤ l)
    (h : Rooted db) (he : st.exec db = some db') : Rooted db' := by
  unfold Rooted at *
  cases st with
  | insertLayer id fp c =>
    simp only [Stmt.exec] at he
    split at he
    · cases he
    · cases he
      simp only [List.any_append, h, Bool.true_or]
  | insertValue k v l =>
    simp only [Stmt.exec] at he
    split at he
    · cases he; exact h
    · cases he
  | completeLayer id fp =>
    cases he
    obtain ⟨r, hr, hid⟩ := List.any_eq_true.1 h
    refine List.any_eq_true.2 ⟨_, List.mem_map_of_mem hr, ?_⟩
    split <;> exact hid
  | deleteLayersAbove l =>
    cases he
    obtain ⟨r, hr, hid⟩ := List.any_eq_true.1 h
    have := hst l rfl
    refine List.any_eq_true.2 ⟨r, List.mem_filter.2 ⟨hr, ?_⟩, hid⟩
    simp only [decide_eq_true_eq] at hid ⊢
    omega
  | deleteBadValues => cases he; exact h

theorem rooted_execAll {sts : List Stmt} {db : Db} (hst : ∀ st ∈ sts, ∀ l, st = .deleteLayersAbove l → -2 ≤ l)
    (h : Rooted db) : Rooted (Svm.Storage.execAll db sts).1 := by
  induction sts generalizing db with
  | nil => exact h
  | cons st sts ih =>
    simp only [Svm.Storage.execAll]
    cases he : st.exec db with
    | none => exact h
    | some db' =>
      exact ih (fun st' h' => hst st' (List.mem_cons_of_mem _ h')) (rooted_exec (hst st List.mem_cons_self) h he)

theorem rooted_commit (ord : Svm.Storage.Ord) {s : Storage} (h : Rooted s.db) :
    Rooted (Svm.Storage.commit ord s).1.db := by
  unfold Svm.Storage.commit
  split
  · exact h
  · simp only
    split
    · exact h
    · rename_i prev hp
      have := rooted_execAll (sts := Svm.Storage.commitStmts ord s.next.id (prev ^^^ s.next.xorFingerprint) s.next.changes)
        (by
          intro st hst l hl
          subst hl
          simp [Svm.Storage.commitStmts] at hst) h
      split <;> rename_i heq <;> rw [heq] at this <;> exact this

theorem rooted_rewind {s : Storage} {l : Int} (hl : -2 ≤ l) (h : Rooted s.db) :
    Rooted (Svm.Storage.rewind s l).1.db := by
  unfold Svm.Storage.rewind
  split
  · split
    · exact h
    · split
      · exact h
      · rename_i db' he
        exact rooted_exec (by intro l' e; cases e; exact hl) h he
  · exact h

theorem runLocked_db {α : Type} (h : Hasher) (p : Svm.Account.Prog α) (g : GlobalState) :
    (Prog.runLocked h p g).1.storage.db = g.storage.db := by
  induction p generalizing g with
  | ret a => rfl
  | err e => rfl
  | panic held => rfl
  | get k f ih =>
    unfold Prog.runLocked
    split
    · rfl
    · split
      · exact ih _ _
      · rfl
      · rfl
  | set k v p ih =>
    unfold Prog.runLocked
    split
    · rfl
    · rw [ih]
      rfl

/-- An operation of the lock keeps what the operation of the storage keeps. -/
theorem rooted_withStorage {α : Type} {g : GlobalState}
    {f : Storage → Storage × Outcome Svm.Storage.StorageError α} (h : Rooted g.storage.db)
    (hf : Rooted (f g.storage).1.db) : Rooted (g.withStorage f).1.storage.db := by
  unfold GlobalState.withStorage
  split
  · exact h
  · simp only
    split <;> exact hf

theorem rooted_checkpointG (h : Hasher) (ord : Svm.Storage.Ord) {g : GlobalState} (hr : Rooted g.storage.db) :
    Rooted (g.checkpoint h ord).1.storage.db := rooted_withStorage hr hr

theorem rooted_commitG (ord : Svm.Storage.Ord) {g : GlobalState} (hr : Rooted g.storage.db) :
    Rooted (g.commit ord).1.storage.db := rooted_withStorage hr (rooted_commit ord hr)

theorem rooted_commitChanges (h : Hasher) (o : Orders) (env : Env) {g : GlobalState} (hr : Rooted g.storage.db) :
    Rooted (commitChangesL h o env g).1.storage.db := by
  unfold commitChangesL
  split
  · simp only
    have h1 := rooted_checkpointG h o.checkpoint hr
    split
    · have h2 := rooted_commitG o.commit h1
      split <;> exact h2
    · exact h1
  · exact hr

theorem rooted_execCall (chk : Bool) (h : Hasher) (o : Orders) (eng : Engine) (c : Svm.Runtime.Call) {g : GlobalState}
    (hr : Rooted g.storage.db) : Rooted (execCallL chk h o eng c g).1.storage.db := by
  unfold execCallL
  have h1 : Rooted (Prog.runLocked h (exec chk eng c) g).1.storage.db := by rw [runLocked_db]; exact hr
  simp only
  split
  · unfold outcomeToReceiptL
    split
    · exact h1
    · exact rooted_commitChanges h o _ h1
  · exact h1
  · exact h1

theorem rooted_buildAndExec (chk : Bool) (h : Hasher) (o : Orders) (eng : Engine) (tx : Transaction) (m : AccessMode)
    (f : Str) (i : Bytes) {g : GlobalState} (hr : Rooted g.storage.db) :
    Rooted (buildAndExecL chk h o eng tx m f i g).1.storage.db := by
  unfold buildAndExecL
  have h1 : Rooted (Prog.runLocked h (buildCall chk tx m f i) g).1.storage.db := by rw [runLocked_db]; exact hr
  simp only
  split
  · exact rooted_execCall chk h o eng _ h1
  · exact h1

theorem rooted_step (chk : Bool) (h : Hasher) (eng : Engine) (pr : Pricer) (o : Orders) {ls : LState} (e : Event)
    (hr : Rooted ls.gs.storage.db) : Rooted (LNode.step chk h eng pr o ls e).1.gs.storage.db := by
  have run : ∀ {α : Type} (p : Svm.Account.Prog α), Rooted (Prog.runLocked h p ls.gs).1.storage.db := by
    intro α p
    rw [runLocked_db]
    exact hr
  cases e with
  | tx t =>
    cases t with
    | deploy e m =>
      simp only [LNode.step, deployL]
      split
      · split
        · exact hr
        · split
          · exact hr
          · split <;> exact run _
      · exact hr
    | spawn e m =>
      simp only [LNode.step, spawnL]
      split
      · split
        · split
          · exact run _
          · exact run _
          · split
            · exact run _
            · split
              · exact run _
              · simp only [spawnAccountL]
                split
                · unfold callCtorL
                  refine rooted_execCall chk h o eng _ ?_
                  rw [runLocked_db]
                  exact run _
                · rw [runLocked_db]
                  exact run _
        · exact run _
      · exact hr
    | call m =>
      simp only [LNode.step, callL]
      split
      · exact rooted_buildAndExec chk h o eng _ _ _ _ hr
      · exact hr
    | verify m =>
      simp only [LNode.step, verifyL]
      split
      · exact rooted_buildAndExec chk h o eng _ _ _ _ hr
      · exact hr
  | create | credit | pay | account => exact run _
  | commit => exact rooted_commitG _ hr
  | rewind l =>
    refine rooted_withStorage hr ?_
    split
    · exact rooted_rewind (by omega) hr
    · exact hr
  | layer => exact rooted_withStorage hr hr
  | uncommitted => exact rooted_withStorage hr hr

/-- A database that was opened is not opened again. -/
theorem open_rooted (w : Surroundings) (o : Orders) {db : Db} (h : Rooted db) : openRuntime w o db = (db, none) := by
  unfold openRuntime
  rw [Svm.Storage.openDb_of_initial h]

theorem open_ok (w : Surroundings) (o : Orders) {db db' : Db} {ls : LState} (h : openRuntime w o db = (db', some ls)) :
    db' = ls.gs.storage.db ∧ Rooted db' ∧ ¬ Rooted db := by
  refine ⟨?_, ?_, fun hr => by rw [open_rooted w o hr] at h; cases h⟩
  · unfold openRuntime at h
    split at h
    · split at h
      · cases h; rfl
      · simp only at h
        split at h
        · split at h
          · cases h; rfl
          · cases h
        · cases h
    · cases h
  · unfold openRuntime at h
    have key : ∀ db1 s, Svm.Storage.openDb db = (db1, .ok s) → Rooted s.db := by
      intro db1 s hs
      unfold Svm.Storage.openDb at hs
      simp only at hs
      have h1 : Svm.Storage.execAll db [.insertLayer Svm.Storage.initialLayerId Svm.Storage.initialLayerState true,
          .deleteBadValues] = (s.db, true) := by
        split at hs
        · rename_i db2 he
          cases hs
          exact he
        · cases hs
      simp only [Svm.Storage.execAll] at h1
      split at h1
      · cases h1
      · rename_i db2 he
        simp only [Stmt.exec] at he
        split at he
        · cases he
        · cases he
          simp only [Stmt.exec, Prod.mk.injEq, and_true] at h1
          rw [← h1]
          simp [Rooted, Svm.Storage.initialLayerId]
    split at h
    · rename_i s hs
      have hs := key _ _ hs
      split at h
      · cases h; exact hs
      · simp only at h
        have h1 : Rooted ((genesisProg w.genesis).run w.hasher s).1.db := by
          rw [(Svm.Account.Prog.run_frame _ _ _).1]
          exact hs
        split at h
        · split at h
          · cases h
            exact rooted_commit _ h1
          · cases h
        · cases h
    · cases h

/-! ## Invariant -/

/-- Every runtime has a database of its own, which was opened. -/
structure Good (p : Process) : Prop where
  rooted : ∀ ptr r, p.rts ptr = some r → Rooted (p.dbs r.place)
  mems : ∀ ptr r n, p.rts ptr = some r → r.place = .memory n → n < p.mems
  empty : ∀ n, p.mems ≤ n → p.dbs (.memory n) = .empty
  apart : ∀ a b r r', p.rts a = some r → p.rts b = some r' → r.place = r'.place → a = b
  boxes : ∀ ptr r, p.rts ptr = some r → ptr ∈ p.handles.boxes
  pointers : ∀ ptr ∈ p.handles.pointers, ptr ∈ p.handles.boxes ∧ (p.rts ptr).isSome

theorem good_start (files : Nat → Db) : Good (.start files) where
  rooted := fun _ _ h => by cases h
  mems := fun _ _ _ h => by cases h
  empty := fun _ _ => rfl
  apart := fun _ _ _ _ h => by cases h
  boxes := fun _ _ h => by cases h
  pointers := fun _ h => by simp [Process.start, State.start] at h

/-- What building a runtime does. -/
theorem build_cases (w : Surroundings) {p : Process} (hp : p.handles.poisoned = false)
    (hi : p.handles.initialized = true) (place : Place) (ptr : Nat) (o : Orders) :
    (∃ ls, openRuntime w o (p.dbs place) = (ls.gs.storage.db, some ls) ∧
      p.build w place ptr o = (.api (.created ptr),
        { p with handles := p.handles.alloc ptr, dbs := Function.update p.dbs place ls.gs.storage.db
                 rts := Function.update p.rts ptr (some (Rt.save place ls)) })) ∨
    ∃ db, openRuntime w o (p.dbs place) = (db, none) ∧ p.build w place ptr o = (.api .error,
      { p with handles := { p.handles with poisoned := true }, dbs := Function.update p.dbs place db }) := by
  cases hop : openRuntime w o (p.dbs place) with
  | mk db r =>
    cases r with
    | some ls =>
      obtain ⟨rfl, -, -⟩ := open_ok w o hop
      refine .inl ⟨ls, rfl, ?_⟩
      unfold Process.build
      rw [hop]
      simp [Ffi.step, hp, hi]
    | none =>
      refine .inr ⟨db, rfl, ?_⟩
      unfold Process.build
      rw [hop]
      simp [Ffi.step, hp, hi]

theorem good_build (w : Surroundings) {p : Process} (g : Good p) (hp : p.handles.poisoned = false)
    (hi : p.handles.initialized = true) {place : Place} (hm : ∀ n, place = .memory n → n < p.mems) {ptr : Nat}
    (hh : ptr ∉ p.handles.boxes) (o : Orders) : Good (p.build w place ptr o).2 := by
  have hempty : ∀ db n, p.mems ≤ n → Function.update p.dbs place db (.memory n) = .empty := by
    intro db n hn
    rw [Function.update_of_ne]
    · exact g.empty n hn
    · rintro rfl
      have := hm n rfl
      omega
  rcases build_cases w hp hi place ptr o with ⟨ls, hop, he⟩ | ⟨db, hop, he⟩
  · rw [he]
    obtain ⟨-, hroot, hnew⟩ := open_ok w o hop
    have hold : ∀ a r, p.rts a = some r → r.place ≠ place := by
      intro a r ha hpl
      exact hnew (hpl ▸ g.rooted a r ha)
    have hrts : ∀ a r, Function.update p.rts ptr (some (Rt.save place ls)) a = some r →
        (a = ptr ∧ r = Rt.save place ls) ∨ (a ≠ ptr ∧ p.rts a = some r) := by
      intro a r ha
      by_cases e : a = ptr
      · subst e
        rw [Function.update_self] at ha
        cases ha
        exact .inl ⟨rfl, rfl⟩
      · rw [Function.update_of_ne e] at ha
        exact .inr ⟨e, ha⟩
    refine ⟨fun a r ha => ?_, fun a r n ha hpl => ?_, fun n hn => hempty _ n hn, fun a b r r' ha hb hpl => ?_,
      fun a r ha => ?_, fun a ha => ?_⟩
    · rcases hrts a r ha with ⟨-, rfl⟩ | ⟨-, ha⟩
      · simp only [Rt.save, Function.update_self]
        exact hroot
      · simp only
        rw [Function.update_of_ne (hold a r ha)]
        exact g.rooted a r ha
    · rcases hrts a r ha with ⟨-, rfl⟩ | ⟨-, ha⟩
      · exact hm n hpl
      · exact g.mems a r n ha hpl
    · rcases hrts a r ha with ⟨ea, rfl⟩ | ⟨-, ha⟩ <;> rcases hrts b r' hb with ⟨eb, rfl⟩ | ⟨-, hb⟩
      · rw [ea, eb]
      · exact absurd hpl.symm (hold b r' hb)
      · exact absurd hpl (hold a r ha)
      · exact g.apart a b r r' ha hb hpl
    · simp only [State.alloc, Finset.mem_insert]
      rcases hrts a r ha with ⟨ea, -⟩ | ⟨-, ha⟩
      · exact .inl ea
      · exact .inr (g.boxes a r ha)
    · simp only [State.alloc, Finset.mem_insert] at ha ⊢
      by_cases e : a = ptr
      · exact ⟨.inl e, by simp [e]⟩
      · rcases ha with ha | ha
        · exact absurd ha e
        · rw [Function.update_of_ne e]
          exact ⟨.inr (g.pointers a ha).1, (g.pointers a ha).2⟩
  · rw [he]
    refine ⟨fun a r ha => ?_, g.mems, fun n hn => hempty _ n hn, g.apart, g.boxes, g.pointers⟩
    have hr := g.rooted a r ha
    by_cases e : r.place = place
    · subst e
      rw [open_rooted w o hr] at hop
      cases hop
      simp only [Function.update_self]
      exact hr
    · simp only
      rw [Function.update_of_ne e]
      exact hr

theorem good_mems {p : Process} (g : Good p) : Good { p with mems := p.mems + 1 } :=
  ⟨g.rooted, fun ptr r n h1 h2 => Nat.lt_succ_of_lt (g.mems ptr r n h1 h2), fun n hn => g.empty n (by simp only at hn; omega),
    g.apart, g.boxes, g.pointers⟩

/-- Only the handles change, and none is added. -/
theorem good_handles {p : Process} (g : Good p) {s : State} (hb : s.boxes = p.handles.boxes)
    (hp : s.pointers ⊆ p.handles.pointers) : Good { p with handles := s } :=
  ⟨g.rooted, g.mems, g.empty, g.apart, fun ptr r h => by simp only [hb]; exact g.boxes ptr r h,
    fun ptr h => by simp only [hb]; exact g.pointers ptr (hp h)⟩

theorem init_frame (s : State) : (Ffi.step s .init).2.boxes = s.boxes ∧ (Ffi.step s .init).2.pointers = s.pointers ∧
    (Ffi.step s .init).2.poisoned = s.poisoned := by
  unfold Ffi.step
  simp only
  split <;> exact ⟨rfl, rfl, rfl⟩

theorem destroy_frame (s : State) (ptr : Nat) : (Ffi.step s (.destroy ptr)).2.boxes = s.boxes ∧
    (Ffi.step s (.destroy ptr)).2.pointers = s.pointers.erase ptr ∧
    (Ffi.step s (.destroy ptr)).2.poisoned = s.poisoned ∧
    (Ffi.step s (.destroy ptr)).2.initialized = s.initialized ∧
    (Ffi.step s (.destroy ptr)).1 = if ptr ∈ s.pointers then .ok else .error := by
  unfold Ffi.step State.free
  by_cases h : ptr ∈ s.pointers
  · simp [h]
  · simp [h]

/-- A call of a function of a runtime. -/
theorem use_eq (w : Surroundings) (p : Process) {ptr : Nat} {r : Rt} (hg : ptr ∈ p.handles.pointers)
    (hr : p.rts ptr = some r) (o : Orders) (e : Event) :
    p.step w (.use ptr o e) =
      (.reply (LNode.step w.chk w.hasher w.engine w.pricer o (r.load (p.dbs r.place)) e).2, { p with
        dbs := Function.update p.dbs r.place
          (LNode.step w.chk w.hasher w.engine w.pricer o (r.load (p.dbs r.place)) e).1.gs.storage.db
        rts := Function.update p.rts ptr
          (some (Rt.save r.place (LNode.step w.chk w.hasher w.engine w.pricer o (r.load (p.dbs r.place)) e).1)) }) := by
  simp [Process.step, State.get, hg, hr]

theorem use_error (w : Surroundings) (p : Process) {ptr : Nat} (hg : ptr ∉ p.handles.pointers) (o : Orders) (e : Event) :
    p.step w (.use ptr o e) = (.api .error, p) := by
  simp [Process.step, State.get, hg]

theorem good_use (w : Surroundings) {p : Process} (g : Good p) (ptr : Nat) (o : Orders) (e : Event) :
    Good (p.step w (.use ptr o e)).2 := by
  by_cases hg : ptr ∈ p.handles.pointers
  · obtain ⟨r, hr⟩ := Option.isSome_iff_exists.1 (g.pointers ptr hg).2
    rw [use_eq w p hg hr]
    have hroot := rooted_step w.chk w.hasher w.engine w.pricer o (ls := r.load (p.dbs r.place)) e (g.rooted ptr r hr)
    generalize (LNode.step w.chk w.hasher w.engine w.pricer o (r.load (p.dbs r.place)) e).1 = ls at *
    have hrts : ∀ a x, Function.update p.rts ptr (some (Rt.save r.place ls)) a = some x →
        (a = ptr ∧ x = Rt.save r.place ls) ∨ (a ≠ ptr ∧ p.rts a = some x) := by
      intro a x ha
      by_cases e : a = ptr
      · subst e
        rw [Function.update_self] at ha
        cases ha
        exact .inl ⟨rfl, rfl⟩
      · rw [Function.update_of_ne e] at ha
        exact .inr ⟨e, ha⟩
    refine ⟨fun a x ha => ?_, fun a x n ha hpl => ?_, fun n hn => ?_, fun a b x y ha hb hpl => ?_, fun a x ha => ?_,
      fun a ha => ?_⟩
    · rcases hrts a x ha with ⟨-, rfl⟩ | ⟨hne, ha⟩
      · simp only [Rt.save, Function.update_self]
        exact hroot
      · simp only
        rw [Function.update_of_ne (fun e => hne (g.apart a ptr x r ha hr e))]
        exact g.rooted a x ha
    · rcases hrts a x ha with ⟨-, rfl⟩ | ⟨-, ha⟩
      · exact g.mems ptr r n hr hpl
      · exact g.mems a x n ha hpl
    · simp only
      rw [Function.update_of_ne]
      · exact g.empty n hn
      · intro e
        have := g.mems ptr r n hr e.symm
        simp only at hn
        omega
    · rcases hrts a x ha with ⟨ea, rfl⟩ | ⟨-, ha⟩ <;> rcases hrts b y hb with ⟨eb, rfl⟩ | ⟨-, hb⟩
      · rw [ea, eb]
      · rw [ea]; exact g.apart ptr b r y hr hb hpl
      · rw [eb]; exact g.apart a ptr x r ha hr hpl
      · exact g.apart a b x y ha hb hpl
    · rcases hrts a x ha with ⟨ea, -⟩ | ⟨-, ha⟩
      · rw [ea]; exact g.boxes ptr r hr
      · exact g.boxes a x ha
    · refine ⟨(g.pointers a ha).1, ?_⟩
      by_cases e : a = ptr
      · simp [e]
      · simp only
        rw [Function.update_of_ne e]
        exact (g.pointers a ha).2
  · rw [use_error w p hg]
    exact g

/-- What a call of `svm_runtime_create` does. -/
theorem create_cases (w : Surroundings) (p : Process) (path : Option Bytes) (ptr : Nat) (o : Orders) :
    ((p.handles.poisoned = true ∨ p.handles.initialized = false) ∧ p.step w (.create path ptr o) = (.api .error, p)) ∨
    (p.handles.poisoned = false ∧ p.handles.initialized = true ∧
      ((path.bind w.file = none ∧ path ≠ none ∧ p.step w (.create path ptr o) = (.api .error,
          { p with handles := { p.handles with poisoned := true } })) ∨
        (path = none ∧ p.step w (.create path ptr o) =
          Process.build w { p with mems := p.mems + 1 } (.memory p.mems) ptr o) ∨
        ∃ n, path.bind w.file = some n ∧ p.step w (.create path ptr o) = p.build w (.file n) ptr o)) := by
  cases hp : p.handles.poisoned with
  | true => exact .inl ⟨.inl rfl, by simp [Process.step, hp]⟩
  | false =>
    cases hi : p.handles.initialized with
    | false => exact .inl ⟨.inr rfl, by simp [Process.step, hp, hi]⟩
    | true =>
      refine .inr ⟨rfl, rfl, ?_⟩
      cases path with
      | none => exact .inr (.inl ⟨rfl, by simp [Process.step, hp, hi]⟩)
      | some path =>
        cases hf : w.file path with
        | none => exact .inl ⟨by simpa using hf, by simp, by simp [Process.step, Ffi.step, hp, hi, hf]⟩
        | some n => exact .inr (.inr ⟨n, by simpa using hf, by simp [Process.step, hp, hi, hf]⟩)

theorem good_step (w : Surroundings) {p : Process} (g : Good p) (c : PCall)
    (hh : ∀ path ptr o, c = .create path ptr o → ptr ∉ p.handles.boxes) : Good (p.step w c).2 := by
  cases c with
  | init => exact good_handles g (init_frame _).1 (by rw [(init_frame _).2.1])
  | create path ptr o =>
    have hh := hh path ptr o rfl
    rcases create_cases w p path ptr o with ⟨-, he⟩ | ⟨hp, hi, ⟨-, -, he⟩ | ⟨-, he⟩ | ⟨n, -, he⟩⟩
    · rw [he]; exact g
    · rw [he]; exact good_handles g rfl (fun _ h => h)
    · rw [he]
      exact good_build w (good_mems g) hp hi (fun n e => by cases e; exact Nat.lt_succ_self _) hh o
    · rw [he]
      exact good_build w g hp hi (fun n e => by cases e) hh o
  | destroy ptr =>
    exact good_handles g (destroy_frame _ _).1 (by rw [(destroy_frame _ _).2.1]; exact Finset.erase_subset _ _)
  | use ptr o e => exact good_use w g ptr o e
  | count => exact g

theorem good_run (w : Surroundings) {p : Process} (g : Good p) (cs : List PCall) (hh : PHonest w p cs) :
    Good (Process.run w p cs).2 := by
  induction cs generalizing p with
  | nil => exact g
  | cons c cs ih => exact ih (good_step w g c hh.1) hh.2

/-! ## Isolation -/

/-- Two processes in which the runtime `q` is the same. -/
structure Alike (q : Nat) (p p' : Process) : Prop where
  good : Good p
  good' : Good p'
  pointers : q ∈ p.handles.pointers ↔ q ∈ p'.handles.pointers
  rt : ∃ r r', p.rts q = some r ∧ p'.rts q = some r' ∧ p.dbs r.place = p'.dbs r'.place ∧
    r' = { r with place := r'.place }

theorem Alike.symm {q : Nat} {p p' : Process} (h : Alike q p p') : Alike q p' p := by
  obtain ⟨r, r', h1, h2, h3, h4⟩ := h.rt
  exact ⟨h.good', h.good, h.pointers.symm, r', r, h2, h1, h3.symm, by rw [h4]⟩

/-- A call that builds a runtime somewhere else. -/
theorem alike_build (w : Surroundings) {q : Nat} {p p' : Process} (h : Alike q p p') (hp : p.handles.poisoned = false)
    (hi : p.handles.initialized = true) {place : Place} (hm : ∀ n, place = .memory n → n < p.mems) {ptr : Nat}
    (hq : ptr ≠ q) (hh : ptr ∉ p.handles.boxes) (o : Orders) : Alike q (p.build w place ptr o).2 p' := by
  have hgood := good_build w h.good hp hi hm hh o
  obtain ⟨r, r', h1, h2, h3, h4⟩ := h.rt
  have hroot := h.good.rooted q r h1
  rcases build_cases w hp hi place ptr o with ⟨ls, hop, he⟩ | ⟨db, hop, he⟩
  · rw [he] at hgood ⊢
    have hpl : r.place ≠ place := fun e => (open_ok w o hop).2.2 (e ▸ hroot)
    refine ⟨hgood, h.good', ?_, r, r', ?_, h2, ?_, h4⟩
    · simp only [State.alloc, Finset.mem_insert, hq.symm, false_or]
      exact h.pointers
    · simp only
      rw [Function.update_of_ne hq.symm, h1]
    · simp only
      rw [Function.update_of_ne hpl, h3]
  · rw [he] at hgood ⊢
    refine ⟨hgood, h.good', h.pointers, r, r', h1, h2, ?_, h4⟩
    by_cases e : r.place = place
    · subst e
      rw [open_rooted w o hroot] at hop
      cases hop
      simp only [Function.update_self]
      exact h3
    · simp only
      rw [Function.update_of_ne e, h3]

/-- A call that is not about `q` changes nothing for `q`. -/
theorem alike_left (w : Surroundings) {q : Nat} {p p' : Process} (h : Alike q p p') {c : PCall}
    (hc : c.about q = false) (hh : ∀ path ptr o, c = .create path ptr o → ptr ∉ p.handles.boxes) :
    Alike q (p.step w c).2 p' := by
  have hgood := good_step w h.good c hh
  obtain ⟨r, r', h1, h2, h3, h4⟩ := h.rt
  cases c with
  | init => exact ⟨hgood, h.good', by simp only [Process.step, (init_frame _).2.1]; exact h.pointers, r, r', h1, h2, h3, h4⟩
  | create path ptr o =>
    have hh := hh path ptr o rfl
    have hq : ptr ≠ q := by simpa [PCall.about] using hc
    rcases create_cases w p path ptr o with ⟨-, he⟩ | ⟨hp, hi, ⟨-, -, he⟩ | ⟨-, he⟩ | ⟨n, -, he⟩⟩
    · rw [he]; exact h
    · rw [he] at hgood ⊢
      exact ⟨hgood, h.good', h.pointers, r, r', h1, h2, h3, h4⟩
    · rw [he]
      exact alike_build w (p := { p with mems := p.mems + 1 })
        ⟨good_mems h.good, h.good', h.pointers, r, r', h1, h2, h3, h4⟩ hp hi
        (fun n e => by cases e; exact Nat.lt_succ_self _) hq hh o
    · rw [he]
      exact alike_build w h hp hi (fun n e => by cases e) hq hh o
  | destroy ptr =>
    have hq : ptr ≠ q := by simpa [PCall.about] using hc
    refine ⟨hgood, h.good', ?_, r, r', h1, h2, h3, h4⟩
    simp only [Process.step, (destroy_frame _ _).2.1, Finset.mem_erase, ne_eq, hq.symm, not_false_eq_true, true_and]
    exact h.pointers
  | use ptr o e =>
    have hq : ptr ≠ q := by simpa [PCall.about] using hc
    by_cases hg : ptr ∈ p.handles.pointers
    · obtain ⟨x, hx⟩ := Option.isSome_iff_exists.1 (h.good.pointers ptr hg).2
      rw [use_eq w p hg hx] at hgood ⊢
      refine ⟨hgood, h.good', h.pointers, r, r', ?_, h2, ?_, h4⟩
      · simp only
        rw [Function.update_of_ne hq.symm, h1]
      · simp only
        rw [Function.update_of_ne (fun e => hq (h.good.apart ptr q x r hx h1 e.symm)), h3]
    · rw [use_error w p hg]
      exact h
  | count => exact ⟨hgood, h.good', h.pointers, r, r', h1, h2, h3, h4⟩

/-- A call about `q` is answered in the same way. -/
theorem alike_about (w : Surroundings) {q : Nat} {p p' : Process} (h : Alike q p p') {c : PCall}
    (hc : c.about q = true) (hh : ∀ path ptr o, c = .create path ptr o → ptr ∉ p.handles.boxes) :
    (p.step w c).1 = (p'.step w c).1 ∧ Alike q (p.step w c).2 (p'.step w c).2 := by
  obtain ⟨r, r', h1, h2, h3, h4⟩ := h.rt
  cases c with
  | init | count => cases hc
  | create path ptr o =>
    have e : ptr = q := by simpa [PCall.about] using hc
    subst e
    exact absurd (h.good.boxes _ r h1) (hh path ptr o rfl)
  | destroy ptr =>
    have e : ptr = q := by simpa [PCall.about] using hc
    subst e
    have hg := good_step w h.good (.destroy ptr) (fun _ _ _ e => by cases e)
    have hg' := good_step w h.good' (.destroy ptr) (fun _ _ _ e => by cases e)
    refine ⟨?_, hg, hg', ?_, r, r', h1, h2, h3, h4⟩
    · simp only [Process.step, (destroy_frame _ _).2.2.2.2, h.pointers]
    · simp only [Process.step, (destroy_frame _ _).2.1, Finset.mem_erase, ne_eq, not_true, false_and]
  | use ptr o e =>
    have e' : ptr = q := by simpa [PCall.about] using hc
    subst e'
    have hg := good_use w h.good ptr o e
    have hg' := good_use w h.good' ptr o e
    by_cases hq : ptr ∈ p.handles.pointers
    · have hq' := h.pointers.1 hq
      have hl : r'.load (p'.dbs r'.place) = r.load (p.dbs r.place) := by rw [h4, h3]; rfl
      rw [use_eq w p hq h1] at hg ⊢
      rw [use_eq w p' hq' h2, hl] at hg' ⊢
      refine ⟨rfl, hg, hg', h.pointers, _, _, Function.update_self .., Function.update_self .., ?_, rfl⟩
      simp only [Rt.save, Function.update_self]
    · have hq' : ptr ∉ p'.handles.pointers := fun x => hq (h.pointers.2 x)
      rw [use_error w p hq, use_error w p' hq']
      exact ⟨rfl, h⟩

theorem alike_run (w : Surroundings) {q : Nat} (cs : List PCall) {p p' : Process} (h : Alike q p p')
    (hh : PHonest w p cs) : answersTo q cs (Process.run w p cs).1 =
      answersTo q (cs.filter (PCall.kept q)) (Process.run w p' (cs.filter (PCall.kept q))).1 := by
  induction cs generalizing p p' with
  | nil => rfl
  | cons c cs ih =>
    cases hc : c.about q with
    | true =>
      obtain ⟨h1, h2⟩ := alike_about w h hc hh.1
      have hk : c.kept q = true := by cases c <;> first | rfl | exact hc
      rw [List.filter_cons_of_pos hk]
      simp only [Process.run, answersTo, hc, if_true, h1, ih h2 hh.2]
    | false =>
      have h1 := alike_left w h hc hh.1
      cases hk : c.kept q with
      | true =>
        have : c = .init := by
          cases c <;> first | rfl | exact absurd (hc.symm.trans hk) (by simp)
        subst this
        rw [List.filter_cons_of_pos hk]
        simp only [Process.run, answersTo, hc, Bool.false_eq_true, if_false]
        exact ih (alike_left w h1.symm hc (fun _ _ _ e => by cases e)).symm hh.2
      | false =>
        rw [List.filter_cons_of_neg (by simp [hk])]
        simp only [Process.run, answersTo, hc, Bool.false_eq_true, if_false]
        exact ih h1 hh.2

/-- Two processes before the runtime `q` is created; in the second no file was touched. -/
structure Before (q : Nat) (start : Nat → Db) (p p' : Process) : Prop where
  good : Good p
  good' : Good p'
  poisoned : p.handles.poisoned = false
  poisoned' : p'.handles.poisoned = false
  initialized : p.handles.initialized = p'.handles.initialized
  boxes : q ∉ p.handles.boxes
  boxes' : q ∉ p'.handles.boxes
  files : ∀ n, p.dbs (.file n) = start n ∨ Rooted (p.dbs (.file n))
  files' : ∀ n, p'.dbs (.file n) = start n

/-- After a failed creation no creation succeeds. -/
theorem poisoned_create (w : Surroundings) {q : Nat} (cs : List PCall) {p : Process} (hp : p.handles.poisoned = true) :
    PAnswer.api (.created q) ∉ (Process.run w p cs).1 := by
  induction cs generalizing p with
  | nil => simp [Process.run]
  | cons c cs ih =>
    have key : (p.step w c).1 ≠ .api (.created q) ∧ (p.step w c).2.handles.poisoned = true := by
      cases c with
      | init => simp [Process.step, Ffi.step, hp]
      | create path ptr o => simp [Process.step, hp]
      | destroy ptr =>
        simp only [Process.step, (destroy_frame _ _).2.2.1, (destroy_frame _ _).2.2.2.2, hp, and_true]
        split <;> simp
      | use ptr o e =>
        simp only [Process.step]
        split
        · split <;> simp [hp]
        · simp [hp]
      | count => simp [Process.step, Ffi.step, hp]
    simp only [Process.run, List.mem_cons, not_or]
    exact ⟨key.1.symm, ih key.2⟩

theorem before_run (w : Surroundings) {q : Nat} {files : Nat → Db} (cs : List PCall) {p p' : Process}
    (h : Before q files p p') (hh : PHonest w p cs) (hq : .api (.created q) ∈ (Process.run w p cs).1) :
    answersTo q cs (Process.run w p cs).1 =
      answersTo q (cs.filter (PCall.kept q)) (Process.run w p' (cs.filter (PCall.kept q))).1 := by
  induction cs generalizing p p' with
  | nil => rfl
  | cons c cs ih =>
    -- the call is answered in the same way and nothing is created
    have same : ∀ {r r' : PAnswer × Process}, c.kept q = true → p.step w c = r → p'.step w c = r' →
        (c.about q = true → r.1 = r'.1) → r.1 ≠ .api (.created q) → Before q files r.2 r'.2 →
        answersTo q (c :: cs) (Process.run w p (c :: cs)).1 =
          answersTo q ((c :: cs).filter (PCall.kept q)) (Process.run w p' ((c :: cs).filter (PCall.kept q))).1 := by
      intro r r' hk e e' ha hne hb
      rw [List.filter_cons_of_pos hk]
      have hq' : .api (.created q) ∈ (Process.run w r.2 cs).1 := by
        simp only [Process.run, List.mem_cons, e] at hq
        exact hq.resolve_left fun x => hne x.symm
      have := ih hb (e ▸ hh.2) hq'
      simp only [Process.run, answersTo, e, e', this]
      split
      · rw [ha ‹_›]
      · rfl
    -- the call is not about `q`
    have other : ∀ {r : PAnswer × Process}, c.kept q = false → p.step w c = r → r.1 ≠ .api (.created q) →
        Before q files r.2 p' →
        answersTo q (c :: cs) (Process.run w p (c :: cs)).1 =
          answersTo q ((c :: cs).filter (PCall.kept q)) (Process.run w p' ((c :: cs).filter (PCall.kept q))).1 := by
      intro r hk e hne hb
      rw [List.filter_cons_of_neg (by simp [hk])]
      have hq' : .api (.created q) ∈ (Process.run w r.2 cs).1 := by
        simp only [Process.run, List.mem_cons, e] at hq
        exact hq.resolve_left fun x => hne x.symm
      have := ih hb (e ▸ hh.2) hq'
      have ha : c.about q = false := by cases c <;> first | rfl | exact hk
      simp only [Process.run, answersTo, e, this, ha, Bool.false_eq_true, if_false]
    -- the creation fails
    have fails : ∀ {r : PAnswer × Process}, p.step w c = r → r.1 = .api .error → r.2.handles.poisoned = true → False := by
      intro r e hne hp
      simp only [Process.run, List.mem_cons, e, hne] at hq
      exact poisoned_create w cs hp (hq.resolve_left (by simp))
    have hgood := good_step w h.good c hh.1
    have hnp : q ∉ p.handles.pointers := fun x => h.boxes (h.good.pointers q x).1
    have hnp' : q ∉ p'.handles.pointers := fun x => h.boxes' (h.good'.pointers q x).1
    cases c with
    | init =>
      refine same rfl rfl rfl (by intro x; cases x) ?_ ⟨hgood, good_step w h.good' .init (fun _ _ _ e => by cases e), ?_,
        ?_, ?_, ?_, ?_, h.files, h.files'⟩
      · simp [Process.step, Ffi.step, h.poisoned]
      · simp [Process.step, Ffi.step, h.poisoned]
      · simp [Process.step, Ffi.step, h.poisoned']
      · simp [Process.step, Ffi.step, h.poisoned, h.poisoned']
      · simp [Process.step, Ffi.step, h.poisoned, h.boxes]
      · simp [Process.step, Ffi.step, h.poisoned', h.boxes']
    | count => exact other rfl rfl (by simp [Process.step, Ffi.step]) h
    | destroy ptr =>
      by_cases e : ptr = q
      · subst e
        have hd : p.step w (.destroy ptr) = (.api .error, p) := by
          simp [Process.step, Ffi.step, State.free, hnp]
        have hd' : p'.step w (.destroy ptr) = (.api .error, p') := by
          simp [Process.step, Ffi.step, State.free, hnp']
        exact same (by simp [PCall.kept, PCall.about]) hd hd' (fun _ => rfl) (by simp) h
      · refine other (by simpa [PCall.kept, PCall.about] using e) rfl ?_ ⟨hgood, h.good', ?_, h.poisoned', ?_, ?_, h.boxes',
          h.files, h.files'⟩
        · simp only [Process.step, (destroy_frame _ _).2.2.2.2]
          split <;> simp
        · simp only [Process.step, (destroy_frame _ _).2.2.1, h.poisoned]
        · simp only [Process.step, (destroy_frame _ _).2.2.2.1, h.initialized]
        · simp only [Process.step, (destroy_frame _ _).1]
          exact h.boxes
    | use ptr o e =>
      by_cases e' : ptr = q
      · subst e'
        exact same (by simp [PCall.kept, PCall.about]) (use_error w p hnp o e) (use_error w p' hnp' o e) (fun _ => rfl)
          (by simp) h
      · have hk : (PCall.use ptr o e).kept q = false := by simpa [PCall.kept, PCall.about] using e'
        by_cases hg : ptr ∈ p.handles.pointers
        · obtain ⟨x, hx⟩ := Option.isSome_iff_exists.1 (h.good.pointers ptr hg).2
          rw [use_eq w p hg hx] at hgood
          refine other hk (use_eq w p hg hx o e) (by simp) ⟨hgood, h.good', h.poisoned, h.poisoned', h.initialized,
            h.boxes, h.boxes', fun n => ?_, h.files'⟩
          by_cases hpl : Place.file n = x.place
          · right
            have := hgood.rooted ptr _ (Function.update_self ..)
            simp only [Rt.save] at this
            rw [hpl]
            exact this
          · simp only
            rw [Function.update_of_ne hpl]
            exact h.files n
        · exact other hk (use_error w p hg o e) (by simp) h
    | create path ptr o =>
      have hh1 := hh.1 path ptr o rfl
      -- a runtime is built
      have build : ∀ (m m' : Nat) (place place' : Place), Good { p with mems := m } → Good { p' with mems := m' } →
          (∀ n, place = .memory n → n < m) → (∀ n, place' = .memory n → n < m') →
          p.handles.initialized = true →
          p.step w (.create path ptr o) = Process.build w { p with mems := m } place ptr o →
          p'.step w (.create path ptr o) = Process.build w { p' with mems := m' } place' ptr o →
          (¬ Rooted (p.dbs place) → p.dbs place = p'.dbs place') →
          answersTo q (.create path ptr o :: cs) (Process.run w p (.create path ptr o :: cs)).1 =
            answersTo q ((PCall.create path ptr o :: cs).filter (PCall.kept q))
              (Process.run w p' ((PCall.create path ptr o :: cs).filter (PCall.kept q))).1 := by
        intro m m' place place' hg hg' hm hm' hi e e' hdb
        rcases build_cases w (p := { p with mems := m }) h.poisoned hi place ptr o with ⟨ls, hop, he⟩ | ⟨db, hop, he⟩
        · have hop' : openRuntime w o (p.dbs place) = (ls.gs.storage.db, some ls) := hop
          have hnr := (open_ok w o hop').2.2
          rw [e, he] at hgood
          by_cases hpq : ptr = q
          · subst hpq
            have hi' : p'.handles.initialized = true := h.initialized ▸ hi
            have hb' : Good (p'.step w (.create path ptr o)).2 := by
              rw [e']
              exact good_build w hg' h.poisoned' hi' hm' h.boxes' o
            rcases build_cases w (p := { p' with mems := m' }) h.poisoned' hi' place' ptr o with
              ⟨ls', hop2, he'⟩ | ⟨db, hop2, he'⟩
            · simp only at hop2
              rw [← hdb hnr, hop'] at hop2
              obtain rfl : ls = ls' := Option.some.inj (congrArg Prod.snd hop2)
              rw [e', he'] at hb'
              have hal : Alike ptr (p.step w (.create path ptr o)).2 (p'.step w (.create path ptr o)).2 := by
                rw [e, e', he, he']
                refine ⟨hgood, hb', ?_, _, _, Function.update_self .., Function.update_self .., ?_, rfl⟩
                · simp [State.alloc]
                · simp only [Rt.save, Function.update_self]
              rw [List.filter_cons_of_pos (by simp [PCall.kept, PCall.about])]
              have hrun := alike_run w cs hal hh.2
              simp only [Process.run, answersTo, PCall.about, beq_self_eq_true, if_true, hrun]
              rw [e, e', he, he']
            · simp only at hop2
              rw [← hdb hnr, hop'] at hop2
              cases hop2
          · refine other (by simpa [PCall.kept, PCall.about] using hpq) (e.trans he) (by simpa using hpq)
              ⟨hgood, h.good', h.poisoned, h.poisoned', h.initialized, ?_, h.boxes', fun n => ?_, h.files'⟩
            · simp only [State.alloc, Finset.mem_insert, not_or]
              exact ⟨fun x => hpq x.symm, h.boxes⟩
            · by_cases hpl : Place.file n = place
              · right
                simp only [hpl, Function.update_self]
                exact (open_ok w o hop').2.1
              · simp only
                rw [Function.update_of_ne hpl]
                exact h.files n
        · exact (fails (e.trans he) rfl rfl).elim
      rcases create_cases w p path ptr o with ⟨hx, he⟩ | ⟨hp, hi, hx⟩
      · have hi : p.handles.initialized = false := hx.resolve_left (by simp [h.poisoned])
        by_cases e : ptr = q
        · subst e
          have he' : p'.step w (.create path ptr o) = (.api .error, p') := by
            simp [Process.step, ← h.initialized, hi]
          exact same (by simp [PCall.kept, PCall.about]) he he' (fun _ => rfl) (by simp) h
        · exact other (by simpa [PCall.kept, PCall.about] using e) he (by simp) h
      · have hi' : p'.handles.initialized = true := h.initialized ▸ hi
        rcases hx with ⟨-, -, he⟩ | ⟨rfl, he⟩ | ⟨n, hn, he⟩
        · exact (fails he rfl rfl).elim
        · refine build (p.mems + 1) (p'.mems + 1) (.memory p.mems) (.memory p'.mems) (good_mems h.good)
            (good_mems h.good') (fun n e => by cases e; exact Nat.lt_succ_self _)
            (fun n e => by cases e; exact Nat.lt_succ_self _) hi he ?_ (fun _ => ?_)
          · simp [Process.step, h.poisoned', hi']
          · rw [h.good.empty _ (Nat.le_refl _), h.good'.empty _ (Nat.le_refl _)]
        · refine build p.mems p'.mems (.file n) (.file n) h.good h.good' (fun n e => by cases e) (fun n e => by cases e) hi he
            ?_ (fun hnr => ?_)
          · obtain ⟨path, rfl⟩ : ∃ x, path = some x := by
              cases path with
              | none => cases hn
              | some x => exact ⟨x, rfl⟩
            have hn : w.file path = some n := hn
            simp [Process.step, h.poisoned', hi', hn]
          · rw [h.files', (h.files n).resolve_right hnr]

/-- C141 for every runtime that is created successfully: whatever calls are made in the process, in whatever order,
whatever files they name and whatever the files contain, the calls about the runtime are answered as if there were no
other runtimes. Missing: the creation itself can fail because of the others (`C141_same_file`,
`C141_after_failure`). -/
theorem C141_isolated_partial (w : Surroundings) (files : Nat → Db) (cs : List PCall) (q : Nat)
    (hh : PHonest w (.start files) cs) (hq : .api (.created q) ∈ (Process.run w (.start files) cs).1) :
    answersTo q cs (Process.run w (.start files) cs).1 =
      answersTo q (cs.filter (PCall.kept q)) (Process.run w (.start files) (cs.filter (PCall.kept q))).1 :=
  before_run w cs ⟨good_start files, good_start files, rfl, rfl, rfl, by simp [Process.start, State.start],
    by simp [Process.start, State.start], fun _ => .inl rfl, fun _ => rfl⟩ hh hq

/-! ## Influence -/

/-- The runtime on an empty database is the runtime of `Node.start`. -/
theorem open_empty (w : Surroundings) (o : Orders) : (openRuntime w o .empty).2 =
    (Node.start w.hasher o w.genesis).map fun rs => ⟨⟨rs.storage, false⟩, rs.cache⟩ := by
  have hf : (Svm.Storage.genesisFingerprint Svm.Storage.fresh).isSome = false := rfl
  simp only [openRuntime, Svm.Storage.fresh_is_open, hf, Bool.false_eq_true, if_false, Node.start]
  generalize ((genesisProg w.genesis).run w.hasher Svm.Storage.fresh) = r
  rcases r with ⟨s, _ | _ | _⟩
  · simp only
    generalize Svm.Storage.commit o.commit (Svm.Storage.checkpoint w.hasher o.checkpoint s) = c
    rcases c with ⟨s', _ | _ | _⟩ <;> rfl
  · rfl
  · rfl

/-- A database that was opened stays one that cannot be opened again. -/
theorem rooted_dbs (w : Surroundings) {p : Process} {place : Place} (h : Rooted (p.dbs place)) (c : PCall) :
    Rooted ((p.step w c).2.dbs place) := by
  have build : ∀ (m : Nat) (pl : Place) (ptr : Nat) (o : Orders), p.handles.poisoned = false →
      p.handles.initialized = true → Rooted ((Process.build w { p with mems := m } pl ptr o).2.dbs place) := by
    intro m pl ptr o hp hi
    rcases build_cases w (p := { p with mems := m }) hp hi pl ptr o with ⟨ls, hop, he⟩ | ⟨db, hop, he⟩ <;> rw [he] <;>
      simp only at hop ⊢
    · by_cases e : place = pl
      · subst e
        rw [Function.update_self]
        exact (open_ok w o hop).2.1
      · rw [Function.update_of_ne e]
        exact h
    · by_cases e : place = pl
      · subst e
        rw [open_rooted w o h] at hop
        cases hop
        rw [Function.update_self]
        exact h
      · rw [Function.update_of_ne e]
        exact h
  cases c with
  | init | destroy | count => exact h
  | create path ptr o =>
    rcases create_cases w p path ptr o with ⟨-, he⟩ | ⟨hp, hi, ⟨-, -, he⟩ | ⟨-, he⟩ | ⟨n, -, he⟩⟩ <;> rw [he]
    · exact h
    · exact h
    · exact build _ _ _ _ hp hi
    · exact build p.mems _ _ _ hp hi
  | use ptr o e =>
    by_cases hg : ptr ∈ p.handles.pointers
    · cases hr : p.rts ptr with
      | none => simpa [Process.step, State.get, hg, hr] using h
      | some r =>
        rw [use_eq w p hg hr]
        by_cases e' : place = r.place
        · subst e'
          simp only [Function.update_self]
          exact rooted_step w.chk w.hasher w.engine w.pricer o (ls := r.load (p.dbs r.place)) e h
        · simp only
          rw [Function.update_of_ne e']
          exact h
    · rw [use_error w p hg]
      exact h

theorem rooted_run (w : Surroundings) (cs : List PCall) {p : Process} {place : Place} (h : Rooted (p.dbs place)) :
    Rooted ((Process.run w p cs).2.dbs place) := by
  induction cs generalizing p with
  | nil => exact h
  | cons c cs ih => exact ih (rooted_dbs w h c)

theorem initialized_run (w : Surroundings) (cs : List PCall) {p : Process} (h : p.handles.initialized = true) :
    (Process.run w p cs).2.handles.initialized = true := by
  induction cs generalizing p with
  | nil => exact h
  | cons c cs ih =>
    refine ih ?_
    cases c with
    | init =>
      simp only [Process.step, Ffi.step]
      split
      · exact h
      · rfl
    | create path ptr o =>
      have build : ∀ (m : Nat) (pl : Place), p.handles.poisoned = false →
          (Process.build w { p with mems := m } pl ptr o).2.handles.initialized = true := by
        intro m pl hp
        rcases build_cases w (p := { p with mems := m }) hp h pl ptr o with ⟨ls, hop, he⟩ | ⟨db, hop, he⟩ <;> rw [he] <;>
          exact h
      rcases create_cases w p path ptr o with ⟨-, he⟩ | ⟨hp, hi, ⟨-, -, he⟩ | ⟨-, he⟩ | ⟨n, -, he⟩⟩ <;> rw [he]
      · exact h
      · exact h
      · exact build _ _ hp
      · exact build p.mems _ hp
    | destroy ptr => simp only [Process.step, (destroy_frame _ _).2.2.2.1, h]
    | use ptr o e =>
      simp only [Process.step]
      split
      · split <;> exact h
      · exact h
    | count => exact h

/-- After `svm_init` a creation that fails makes all later ones fail, on other databases too: whatever calls follow,
none creates a runtime. -/
theorem C141_after_failure (w : Surroundings) (p : Process) (path : Option Bytes) (ptr : Nat) (o : Orders)
    (hi : p.handles.initialized = true) (he : (p.step w (.create path ptr o)).1 = .api .error) (cs : List PCall) (q : Nat) :
    .api (.created q) ∉ (Process.run w (p.step w (.create path ptr o)).2 cs).1 := by
  have build : ∀ (m : Nat) (pl : Place), p.handles.poisoned = false →
      (Process.build w { p with mems := m } pl ptr o).1 = .api .error →
      (Process.build w { p with mems := m } pl ptr o).2.handles.poisoned = true := by
    intro m pl hp hx
    rcases build_cases w (p := { p with mems := m }) hp hi pl ptr o with ⟨ls, hop, e⟩ | ⟨db, hop, e⟩ <;> rw [e] at hx ⊢
    cases hx
  refine poisoned_create w cs ?_
  rcases create_cases w p path ptr o with ⟨hx, e⟩ | ⟨hp, -, ⟨-, -, e⟩ | ⟨-, e⟩ | ⟨n, -, e⟩⟩ <;> rw [e] at he ⊢
  · exact hx.resolve_right (by simp [hi])
  · exact build _ _ hp he
  · exact build p.mems _ hp he

/-- Once a runtime was created on a file, every later creation on a path of the file fails, in whatever state the
process is by then and also if the first runtime was destroyed; and after it no creation succeeds at all. -/
theorem C141_same_file (w : Surroundings) (p : Process) {path path' : Bytes} (hw : w.file path = w.file path')
    (ptr ptr' : Nat) (o o' : Orders) (hc : (p.step w (.create (some path) ptr o)).1 = .api (.created ptr))
    (mid cs : List PCall) (q : Nat) :
    ((Process.run w (p.step w (.create (some path) ptr o)).2 mid).2.step w (.create (some path') ptr' o')).1 = .api .error ∧
      .api (.created q) ∉ (Process.run w
        ((Process.run w (p.step w (.create (some path) ptr o)).2 mid).2.step w (.create (some path') ptr' o')).2 cs).1 := by
  obtain ⟨n, hn, hr, hi⟩ : ∃ n, w.file path = some n ∧
      Rooted ((p.step w (.create (some path) ptr o)).2.dbs (.file n)) ∧
      (p.step w (.create (some path) ptr o)).2.handles.initialized = true := by
    rcases create_cases w p (some path) ptr o with ⟨-, e⟩ | ⟨hp, hi, ⟨-, -, e⟩ | ⟨h, -⟩ | ⟨n, hn, e⟩⟩
    · rw [e] at hc; cases hc
    · rw [e] at hc; cases hc
    · cases h
    · refine ⟨n, hn, ?_⟩
      rcases build_cases w hp hi (.file n) ptr o with ⟨ls, hop, he⟩ | ⟨db, hop, he⟩ <;> rw [e, he] at hc ⊢
      · simp only [Function.update_self]
        exact ⟨(open_ok w o hop).2.1, hi⟩
      · cases hc
  have hr' := rooted_run w mid hr
  have hi' := initialized_run w mid hi
  generalize (Process.run w (p.step w (.create (some path) ptr o)).2 mid).2 = p' at hr' hi' ⊢
  have he : (p'.step w (.create (some path') ptr' o')).1 = .api .error := by
    rcases create_cases w p' (some path') ptr' o' with ⟨-, e⟩ | ⟨hp, hi, ⟨-, -, e⟩ | ⟨h, -⟩ | ⟨m, hm, e⟩⟩
    · rw [e]
    · rw [e]
    · cases h
    · have hm : w.file path' = some m := hm
      rw [← hw, hn] at hm
      cases hm
      rcases build_cases w hp hi (.file n) ptr' o' with ⟨ls, hop, he⟩ | ⟨db, hop, he⟩ <;> rw [e, he]
      rw [open_rooted w o' hr'] at hop
      cases congrArg Prod.snd hop
  exact ⟨he, C141_after_failure w p' (some path') ptr' o' hi' he cs q⟩

/-- The first creation after `svm_init` on an empty file. -/
theorem first_create (w : Surroundings) {path : Bytes} {n : Nat} (hn : w.file path = some n) (o : Orders)
    {rs : RState} (hs : Node.start w.hasher o w.genesis = some rs) (ptr : Nat) :
    ((Process.step w (Process.step w (.start fun _ => .empty) .init).2 (.create (some path) ptr o))).1 =
      .api (.created ptr) := by
  have hop : (openRuntime w o .empty).2.isSome := by rw [open_empty, hs]; rfl
  rcases create_cases w (Process.step w (.start fun _ => .empty) .init).2 (some path) ptr o with
    ⟨h, -⟩ | ⟨hp, hi, ⟨h, -⟩ | ⟨h, -⟩ | ⟨m, hm, e⟩⟩
  · simp [Process.step, Ffi.step, Process.start, State.start] at h
  · have h : w.file path = none := h
    rw [hn] at h; cases h
  · cases h
  · rw [e]
    rcases build_cases w hp hi (.file m) ptr o with ⟨ls, -, he⟩ | ⟨db, hop', he⟩ <;> rw [he]
    have : openRuntime w o .empty = (db, none) := hop'
    rw [this] at hop
    cases hop

/-- C141 does not hold, wherever a runtime can be created on a file at all: of two runtimes on the same file the
second one is not created. -/
theorem C141_claim_false (w : Surroundings) {path : Bytes} {n : Nat} (hn : w.file path = some n) (o : Orders)
    {rs : RState} (hs : Node.start w.hasher o w.genesis = some rs) : ¬ C141_claim w := by
  intro hcl
  have h1 := first_create w hn o hs 0
  have h2 := first_create w hn o hs 1
  have h3 := (C141_same_file w _ (path := path) (path' := path) rfl 0 1 o o h1 [] [] 0).1
  have hx := hcl (fun _ => .empty) [.init, .create (some path) 0 o, .create (some path) 1 o] 1 ⟨by simp,
    by simp [Process.step, Ffi.step, Process.start, State.start], by
      intro p' q o' e
      cases e
      rcases create_cases w (Process.step w (.start fun _ => .empty) .init).2 (some path) 0 o with
        ⟨-, e⟩ | ⟨hp, hi, ⟨-, -, e⟩ | ⟨h, -⟩ | ⟨m, hm, e⟩⟩
      · rw [e] at h1; cases h1
      · rw [e] at h1; cases h1
      · cases h
      · rcases build_cases w hp hi (.file m) 0 o with ⟨ls, -, he⟩ | ⟨db, -, he⟩ <;> rw [e, he] at h1 ⊢
        · simp [State.alloc, Process.step, Ffi.step, Process.start, State.start]
        · (cases h1), trivial⟩
  simp only [Process.run] at h3
  simp [List.filter, PCall.kept, PCall.about, Process.run, answersTo, h2, h3] at hx

/-- A node whose paths are all one file. -/
def oneFile (h : Hasher) : Surroundings := ⟨h, fun _ => some 0, demoGenesis h, true, idleEngine, flatPricer⟩

/-- Non-vacuity of `C141_claim_false`. -/
example : ∃ h : Hasher, ¬ C141_claim (oneFile h) := by
  obtain ⟨h, hc⟩ := Svm.Account.exists_noCollision
  obtain ⟨rs, hs⟩ := demoGenesis_starts hc ⟨.id, .id⟩
  exact ⟨h, C141_claim_false (oneFile h) (path := []) rfl ⟨.id, .id⟩ hs⟩

/-- Non-vacuity of `C141_isolated_partial`: a runtime on the file and one in memory, with calls in between. -/
example : ∃ h : Hasher, PHonest (oneFile h) (.start fun _ => .empty) [.init, .create (some []) 0 ⟨.id, .id⟩,
      .use 0 ⟨.id, .id⟩ .uncommitted, .create none 1 ⟨.id, .id⟩, .use 1 ⟨.id, .id⟩ .uncommitted] ∧
    .api (.created 1) ∈ (Process.run (oneFile h) (.start fun _ => .empty) [.init, .create (some []) 0 ⟨.id, .id⟩,
      .use 0 ⟨.id, .id⟩ .uncommitted, .create none 1 ⟨.id, .id⟩, .use 1 ⟨.id, .id⟩ .uncommitted]).1 := by
  obtain ⟨h, hc⟩ := Svm.Account.exists_noCollision
  obtain ⟨rs, hs⟩ := demoGenesis_starts hc ⟨.id, .id⟩
  have hop : (openRuntime (oneFile h) ⟨.id, .id⟩ .empty).2 = some ⟨⟨rs.storage, false⟩, rs.cache⟩ := by
    rw [open_empty]
    exact congrArg _ hs
  have hf : ∀ x, (oneFile h).file x = some 0 := fun _ => rfl
  refine ⟨h, ⟨by simp, ?_, by simp, ?_, by simp, trivial⟩, ?_⟩
  · intro _ _ _ e
    cases e
    simp [Process.step, Ffi.step, Process.start, State.start]
  · intro _ _ _ e
    cases e
    simp [Process.step, Ffi.step, Process.start, State.start, Process.build, hop, hf, State.alloc, State.get]
  · simp [Process.run, Process.step, Ffi.step, Process.start, State.start, Process.build, hop, hf, State.alloc,
      State.get, Rt.save]

end Svm.Ffi
