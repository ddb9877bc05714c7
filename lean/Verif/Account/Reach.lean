import Verif.Account.Lemmas

/-!
# Storage states reachable through the account and template code

The keys of the global state are written by the functions of `Account/Model` only (the `upsert` of
`Storage` is not public outside of the crate). `Reach` is the set of states of histories of such
programs, checkpoints, commits, rollbacks and rewinds.
-/

namespace Svm.Account

open Svm.Codec
open Svm.Layout (FixedLayout RawVar addW)
open Svm.Storage (Hasher Storage Op Inv)

/-- The values the code writes for a key. -/
def ValueOk : Key → Bytes → Prop
  | .accData _, v => ∃ d, encAccountData d = some v
  | .accMut _, v => ∃ d, encAccountMut d = some v
  | .seg _ _, v => v.length = 32
  | .core _, v => ∃ s : Sections, encSections s = some v
  | .noncore _, v => ∃ s : Sections, encSections s = some v

/-- All writes of a program are of that form, whatever it reads. -/
def Prog.Safe {α : Type} : Prog α → Prop
  | .ret _ => True
  | .err _ => True
  | .panic _ => True
  | .get _ f => ∀ v, (f v).Safe
  | .set k v p => ValueOk k v ∧ p.Safe

/-- The operations on whole layers. -/
def LayerOp : Op → Prop
  | .upsert _ _ => False
  | .rewind l => -2 ≤ l
  | _ => True

/-- States of histories. -/
inductive Reach (h : Hasher) : Storage → Prop where
  | fresh : Reach h Svm.Storage.fresh
  | prog {s : Storage} {α : Type} (p : Prog α) : p.Safe → Reach h s → Reach h (p.run h s).1
  | op {s : Storage} (o : Op) : LayerOp o → Reach h s → Reach h (Svm.Storage.step h s o).1

/-! ## The invariant of reachable states -/

/-- A stored pair is one the code writes. -/
def PairOk (h : Hasher) (p : Svm.Storage.State × Bytes) : Prop :=
  ∀ k : Key, p.1 = h.hash k.text → ValueOk k p.2

/-- All stored pairs are. -/
structure StoreOk (h : Hasher) (s : Storage) : Prop where
  dirty : ∀ p ∈ s.dirty, PairOk h p
  changes : ∀ p ∈ s.next.changes, PairOk h p
  rows : ∀ r ∈ s.db.values, PairOk h (r.keyHash, r.value)

/-- All current values are ones the code writes. -/
def ViewOk (w : View) : Prop := ∀ k v, w k = some v → ValueOk k v

theorem ViewOk.segOk {w : View} (hw : ViewOk w) : SegOk w := fun a i v h => hw (.seg a i) v h

theorem StoreOk.view {h : Hasher} {s : Storage} (hs : StoreOk h s) : ViewOk (view h s) := by
  intro k v hv
  unfold Account.view at hv
  cases h1 : s.dirty.get (h.hash k.text) with
  | some u =>
    rw [h1] at hv
    simp at hv
    subst hv
    exact hs.dirty _ (AMap.mem_of_get h1) k rfl
  | none =>
    cases h2 : s.next.changes.get (h.hash k.text) with
    | some u =>
      rw [h1, h2] at hv
      simp at hv
      subst hv
      exact hs.changes _ (AMap.mem_of_get h2) k rfl
    | none =>
      rw [h1, h2] at hv
      simp only [Option.or_none, Option.none_or, Svm.Storage.queryCurrent,
        Option.map_eq_some_iff] at hv
      obtain ⟨r, hr, rfl⟩ := hv
      have hm := List.mem_filter.1 (Svm.Storage.selectMax_mem hr)
      simp only [Bool.and_eq_true, decide_eq_true_eq] at hm
      exact hs.rows r hm.1 k hm.2.1

theorem storeOk_upsert {h : Hasher} (hc : NoCollision h) {s : Storage} (hs : StoreOk h s) (k : Key)
    {v : Bytes} (hv : ValueOk k v) : StoreOk h (Storage.upsert h s k.text v) := by
  refine ⟨?_, hs.changes, hs.rows⟩
  intro p hp
  simp only [Storage.upsert, Svm.Storage.upsertByHash, AMap.insert, List.mem_cons,
    List.mem_filter] at hp
  rcases hp with hp | hp
  · subst hp
    intro k' hk'
    rw [← hc k k' hk']
    exact hv
  · exact hs.dirty p hp.1

theorem storeOk_run {h : Hasher} (hc : NoCollision h) {α : Type} (p : Prog α) (hp : p.Safe)
    {s : Storage} (hs : StoreOk h s) : StoreOk h (p.run h s).1 := by
  induction p generalizing s with
  | ret | err | panic => exact hs
  | get k f ih =>
    simp only [Prog.run, get_view]
    exact ih _ (hp _) hs
  | set k v p ih => exact ih hp.2 (storeOk_upsert hc hs k hp.1)

theorem mem_insertAll {m : Svm.Storage.Changes} {l : List (Svm.Storage.State × Bytes)}
    {p : Svm.Storage.State × Bytes} (h : p ∈ AMap.insertAll m l) : p ∈ m ∨ p ∈ l := by
  unfold AMap.insertAll at h
  induction l generalizing m with
  | nil => exact .inl h
  | cons q l ih =>
    rcases ih h with h | h
    · simp only [AMap.insert, List.mem_cons, List.mem_filter] at h
      rcases h with h | h
      · subst h; exact .inr List.mem_cons_self
      · exact .inl h.1
    · exact .inr (List.mem_cons_of_mem _ h)

theorem storeOk_checkpoint {h : Hasher} {s : Storage} (hs : StoreOk h s) (ord : Svm.Storage.Ord) :
    StoreOk h (Svm.Storage.checkpoint h ord s) := by
  rw [Svm.Storage.checkpoint_eq]
  refine ⟨by simp, ?_, hs.rows⟩
  intro p hp
  rcases mem_insertAll hp with hp | hp
  · exact hs.changes p hp
  · exact hs.dirty p ((ord.perm _).mem_iff.1 hp)

theorem storeOk_commit {h : Hasher} {s : Storage} (hi : Inv s) (hs : StoreOk h s)
    (ord : Svm.Storage.Ord) : StoreOk h (Svm.Storage.commit ord s).1 := by
  by_cases hd : s.dirty = []
  · obtain ⟨fp, he⟩ := Svm.Storage.commit_ok hi hd ord
    rw [he.2]
    refine ⟨by simp, by simp, ?_⟩
    intro r hr
    simp only [Svm.Storage.committedDb, List.mem_append, List.mem_map] at hr
    rcases hr with hr | ⟨c, hc, rfl⟩
    · exact hs.rows r hr
    · exact hs.changes c ((ord.perm _).mem_iff.1 hc)
  · rw [Svm.Storage.commit_dirty hd]
    exact hs

theorem storeOk_rewind {h : Hasher} {s : Storage} (hi : Inv s) (hs : StoreOk h s) (l : Int) :
    StoreOk h (Svm.Storage.rewind s l).1 := by
  by_cases hl : l < s.next.id
  · by_cases hd : s.dirty = []
    · rw [Svm.Storage.rewind_ok hi hd hl]
      refine ⟨by simp, by simp, ?_⟩
      intro r hr
      exact hs.rows r (List.mem_filter.1 hr).1
    · unfold Svm.Storage.rewind
      rw [if_pos hl, if_pos (by simpa using hd)]
      exact hs
  · unfold Svm.Storage.rewind
    rw [if_neg hl]
    exact hs

theorem inv_prog {h : Hasher} {α : Type} (p : Prog α) {s : Storage} (hi : Inv s) :
    Inv (p.run h s).1 := by
  induction p generalizing s with
  | ret | err | panic => exact hi
  | get k f ih =>
    simp only [Prog.run, get_view]
    exact ih _ hi
  | set k v p ih =>
    exact ih (Svm.Storage.inv_step h hi (.upsert (h.hash k.text) v) trivial)

/-- Reachable states satisfy the invariant of `Storage` and store only what the code writes. -/
theorem Reach.ok {h : Hasher} (hc : NoCollision h) {s : Storage} (hr : Reach h s) :
    Inv s ∧ StoreOk h s := by
  induction hr with
  | fresh =>
    refine ⟨Svm.Storage.inv_fresh, ?_, ?_, ?_⟩ <;> simp [Svm.Storage.fresh]
  | prog p hp _ ih => exact ⟨inv_prog p ih.1, storeOk_run hc p hp ih.2⟩
  | @op s o ho _ ih =>
    obtain ⟨hi, hs⟩ := ih
    refine ⟨Svm.Storage.inv_step h hi o ?_, ?_⟩
    · cases o <;> first | exact ho | trivial
    · cases o with
      | upsert => exact ho.elim
      | checkpoint ord => exact storeOk_checkpoint hs ord
      | commit ord => exact storeOk_commit hi hs ord
      | rollback => exact ⟨by simp [Svm.Storage.step, Svm.Storage.rollback], hs.changes, hs.rows⟩
      | rewind l => exact storeOk_rewind hi hs l
      | get | lastLayer | hasUncommitted => exact hs

theorem Reach.view {h : Hasher} (hc : NoCollision h) {s : Storage} (hr : Reach h s) :
    ViewOk (view h s) := (hr.ok hc).2.view

/-! ## The functions of the code are safe programs -/

theorem Prog.Safe.bind {α β : Type} {p : Prog α} {f : α → Prog β} (hp : p.Safe)
    (hf : ∀ a, (f a).Safe) : (p.bind f).Safe := by
  induction p with
  | ret a => exact hf a
  | err | panic => trivial
  | get k g ih => exact fun v => ih v (hp v)
  | set k v p ih => exact ⟨hp.1, ih hp.2⟩

theorem Prog.Safe.ofOption {α : Type} (o : Option α) : (Prog.ofOption o).Safe := by
  cases o <;> trivial

theorem Prog.Safe.unwrap {α : Type} {p : Prog α} (hp : p.Safe) : p.unwrap.Safe := by
  induction p with
  | ret | err | panic => trivial
  | get k g ih => exact fun v => ih v (hp v)
  | set k v p ih => exact ⟨hp.1, ih hp.2⟩

theorem safe_readAndDecode {α : Type} (d : Dec α) (k : Key) : (readAndDecode d k).Safe := by
  intro v
  cases v with
  | none => trivial
  | some bs =>
    show Prog.Safe (match d bs with | .ok (a, _) => .ret a | .err _ => .err .illegalData
                                    | .panic => .panic)
    split <;> trivial

theorem safe_encodeAndWrite {e : Enc} {k : Key} (h : ∀ bs, e = some bs → ValueOk k bs) :
    (encodeAndWrite e k).Safe := by
  cases e with
  | none => trivial
  | some bs => exact ⟨h bs rfl, trivial⟩

theorem safe_setBalance (acc : Acc) (b : U64) : (setBalance acc b).Safe :=
  (safe_readAndDecode _ _).bind fun _ => safe_encodeAndWrite fun _ h => ⟨_, h⟩

theorem safe_setCounter (acc : Acc) (c : U128) : (setCounter acc c).Safe :=
  (safe_readAndDecode _ _).bind fun _ => safe_encodeAndWrite fun _ h => ⟨_, h⟩

theorem safe_createTemplate (t : Addr) (core noncore : Sections) :
    (createTemplate t core noncore).Safe :=
  (safe_encodeAndWrite (k := .core t) fun _ h => ⟨_, h⟩).bind fun _ =>
    safe_encodeAndWrite fun _ h => ⟨_, h⟩

theorem safe_setCore (t : Addr) (s : Sections) : (setCore t s).Safe :=
  safe_encodeAndWrite fun _ h => ⟨_, h⟩

theorem safe_setNoncore (t : Addr) (s : Sections) : (setNoncore t s).Safe :=
  safe_encodeAndWrite fun _ h => ⟨_, h⟩

theorem safe_readSections (chk : Bool) (t : Addr) : (readSections chk t).Safe :=
  (safe_readAndDecode _ _).bind fun _ => (safe_readAndDecode _ _).bind fun _ => trivial

theorem safe_templateLayout (chk : Bool) (t : Addr) : (templateLayout chk t).Safe := by
  refine (safe_readSections chk t).bind fun s => ?_
  split <;> trivial

theorem safe_createStub (a : Addr) (name : Str) (b : U64) (c : U128) :
    (createStub a name b c).Safe :=
  (safe_encodeAndWrite (k := .accData a) fun _ h => ⟨_, h⟩).bind fun _ =>
    (safe_encodeAndWrite (k := .accMut a) fun _ h => ⟨_, h⟩).bind fun _ => trivial

theorem safe_create (chk : Bool) (a : Addr) (name : Str) (t : Addr) (b : U64) (c : U128) :
    (create chk a name t b c).Safe :=
  (safe_templateLayout chk t).bind fun _ =>
    (safe_encodeAndWrite (k := .accData a) fun _ h => ⟨_, h⟩).bind fun _ =>
      (safe_encodeAndWrite (k := .accMut a) fun _ h => ⟨_, h⟩).bind fun _ => trivial

theorem safe_load (chk : Bool) (a : Addr) : (load chk a).Safe :=
  (safe_readAndDecode _ _).bind fun _ => (safe_templateLayout chk _).bind fun _ => trivial

theorem safe_balance (acc : Acc) : (balance acc).Safe :=
  (safe_readAndDecode _ _).bind fun _ => trivial

theorem safe_counter (acc : Acc) : (counter acc).Safe :=
  (safe_readAndDecode _ _).bind fun _ => trivial

theorem safe_name (acc : Acc) : (name acc).Safe :=
  (safe_readAndDecode _ _).bind fun _ => trivial

theorem safe_templateAddr (acc : Acc) : (templateAddr acc).Safe :=
  (safe_readAndDecode _ _).bind fun _ => trivial

theorem safe_readSegment (a : Addr) (s : Segment) : (readSegment a s).Safe := by
  intro v
  show Prog.Safe (if _ then _ else _)
  split <;> trivial

theorem safe_bind_readSegment {α : Type} {a : Addr} {s : Segment} {f : Bytes → Prog α}
    (hf : ∀ bytes, bytes.length = 32 → (f bytes).Safe) : ((readSegment a s).bind f).Safe := by
  intro v
  show Prog.Safe (Prog.bind (if _ then _ else _) _)
  split
  · rename_i h
    exact hf _ h
  · trivial

theorem safe_getLoop (chk : Bool) (a : Addr) (segs : List Segment) (var : Bytes) :
    (getLoop chk a segs var).Safe := by
  induction segs generalizing var with
  | nil => trivial
  | cons s segs ih =>
    refine (safe_readSegment a s).bind fun bytes => (Prog.Safe.ofOption _).bind fun n => ?_
    show Prog.Safe (if _ then _ else _)
    split
    · exact (ih _).bind fun _ => trivial
    · trivial

theorem safe_setLoop (chk : Bool) (a : Addr) (segs : List Segment)
    (hs : ∀ s ∈ segs, s.start ≤ s.stop + 1) (value : Bytes) : (setLoop chk a segs value).Safe := by
  induction segs generalizing value with
  | nil => trivial
  | cons s segs ih =>
    have h1 := hs s List.mem_cons_self
    refine safe_bind_readSegment fun bytes hb => ?_
    simp only [Segment.len]
    split
    · trivial
    · show Prog.Safe (if _ then _ else _)
      split
      · rename_i hc
        refine ⟨?_, ih (fun s h => hs s (List.mem_cons_of_mem _ h)) _⟩
        have := hc.2
        simp only [segmentSize] at this
        show List.length _ = 32
        simp only [List.length_append, List.length_take, List.length_drop, hb]
        omega
      · trivial

theorem segmentsFrom_start {index r : Nat} : ∀ s ∈ segmentsFrom index r, s.start ≤ s.stop + 1 := by
  induction r using Nat.strongRecOn generalizing index with
  | ind r ih =>
    rw [segmentsFrom]
    split
    · simp
    · intro s hs
      rcases List.mem_cons.1 hs with hs | hs
      · subst hs; exact Nat.zero_le _
      · exact ih _ (by simp only [segmentSize]; omega) s hs

theorem varSegments_start {chk : Bool} {o n : BitVec 32} {segs : List Segment}
    (h : varSegments chk o n = some segs) : ∀ s ∈ segs, s.start ≤ s.stop + 1 := by
  unfold varSegments at h
  simp only [Option.bind_eq_bind, Option.bind_eq_some_iff] at h
  obtain ⟨last, hl, h⟩ := h
  have hb : o.toNat % segmentSize ≤ last + 1 := by
    unfold predUsize at hl
    have : o.toNat % segmentSize < 32 := Nat.mod_lt _ (by decide)
    split at hl
    · split at hl
      · cases hl
      · cases hl; omega
    · cases hl; omega
  have : o.toNat % segmentSize < 32 := Nat.mod_lt _ (by decide)
  have hsegs : segs = ⟨BitVec.ofNat 32 (o.toNat / segmentSize), o.toNat % segmentSize,
      min last (segmentSize - 1)⟩ :: segmentsFrom (o.toNat / segmentSize)
        (n.toNat - (min last (segmentSize - 1) + 1 - o.toNat % segmentSize)) := by
    split at h
    · obtain ⟨_, _, h⟩ := Option.bind_eq_some_iff.1 h
      split at h
      · cases h; rfl
      · cases h
    · cases h; rfl
  subst hsegs
  intro s hs
  rcases List.mem_cons.1 hs with hs | hs
  · subst hs
    show o.toNat % segmentSize ≤ min last (segmentSize - 1) + 1
    simp only [segmentSize] at *
    omega
  · exact segmentsFrom_start s hs

theorem safe_getVar (chk : Bool) (acc : Acc) (id : BitVec 32) (buf : Bytes) :
    (getVar chk acc id buf).Safe := by
  refine (Prog.Safe.ofOption _).bind fun v => ?_
  split
  · trivial
  · exact (Prog.Safe.ofOption _).bind fun _ => (Prog.Safe.ofOption _).bind fun _ =>
      (safe_getLoop _ _ _ _).bind fun _ => trivial

theorem safe_setVarBytes (chk : Bool) (acc : Acc) (id : BitVec 32) (value : Bytes) :
    (setVarBytes chk acc id value).Safe := by
  refine (Prog.Safe.ofOption _).bind fun v => ?_
  split
  · trivial
  · refine (Prog.Safe.ofOption _).bind fun off => ?_
    cases h : varSegments chk off v.byteSize with
    | none => trivial
    | some segs => exact safe_setLoop _ _ _ (varSegments_start h) _

theorem safe_getVarVec (chk : Bool) (acc : Acc) (id : BitVec 32) : (getVarVec chk acc id).Safe :=
  (Prog.Safe.ofOption _).bind fun _ => safe_getVar _ _ _ _

theorem safe_setVarI64 (chk : Bool) (acc : Acc) (id : BitVec 32) (x : BitVec 64) :
    (setVarI64 chk acc id x).Safe := safe_setVarBytes _ _ _ _

theorem safe_setVarI32 (chk : Bool) (acc : Acc) (id : BitVec 32) (x : BitVec 32) :
    (setVarI32 chk acc id x).Safe := safe_setVarBytes _ _ _ _

theorem safe_getVarI64 (chk : Bool) (acc : Acc) (id : BitVec 32) : (getVarI64 chk acc id).Safe :=
  (safe_getVar _ _ _ _).bind fun _ => trivial

theorem safe_getVarI32 (chk : Bool) (acc : Acc) (id : BitVec 32) : (getVarI32 chk acc id).Safe :=
  (safe_getVar _ _ _ _).bind fun _ => trivial

end Svm.Account
