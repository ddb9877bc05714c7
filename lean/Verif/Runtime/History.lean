import Verif.Runtime.Exec

/-!
# C128 and C129: accounts as of an earlier layer

`GlobalState::layer_query_parameter_mut` (crates/host/state/src/global_state.rs:97-104) promises that the
layer set there is used "in *all* read operations". It is a field of one handle of the global state; an
`AccountStorage` carries such a handle (`gs`, account_storage.rs:18). `Prog.runAt` executes the programs of
`Account/Model` on a handle with that parameter.
-/

namespace Svm.Account

open Svm.Codec
open Svm.Layout (FixedLayout RawVar addW)
open Svm.Storage (Hasher Storage Op Inv Kept)

/-! ## The model -/

/-- The layer with which a key is read through a handle with the query parameter `q`. Everything but the
segments of variables is read by `read_and_decode` (global_state.rs:170-188), which passes
`layer.0 as i64`; the segments are read with `None` (account_storage.rs:133-137 and 221-225). -/
def queryFor (q : Option (BitVec 64)) : Key → Option Int
  | .seg _ _ => none
  | .accData _ => q.map BitVec.toInt
  | .accMut _ => q.map BitVec.toInt
  | .core _ => q.map BitVec.toInt
  | .noncore _ => q.map BitVec.toInt

/-- Execution through a handle with the query parameter `q`; writes ignore it (global_state.rs:190-197,
account_storage.rs:231-235). -/
def Prog.runAt {α : Type} (h : Hasher) (q : Option (BitVec 64)) :
    Prog α → Storage → Storage × Outcome SErr α
  | .ret a, s => (s, .ok a)
  | .err e, s => (s, .err e)
  | .panic _, s => (s, .panic)
  | .get k f, s =>
    match Storage.get h s k.text (queryFor q k) with
    | .ok v => (f v).runAt h q s
    | .err e => (s, .err (.storage e))
    | .panic => (s, .panic)
  | .set k v p, s => p.runAt h q (Storage.upsert h s k.text v)

/-- What a program returns. -/
def outAt {α : Type} (h : Hasher) (q : Option (BitVec 64)) (p : Prog α) (s : Storage) :
    Outcome SErr α := (p.runAt h q s).2

/-- The storage after it. -/
def afterAt {α : Type} (h : Hasher) (q : Option (BitVec 64)) (p : Prog α) (s : Storage) : Storage :=
  (p.runAt h q s).1

/-- The four fields of an account as the getters of a handle report them. -/
def fieldsAt (h : Hasher) (q : Option (BitVec 64)) (s : Storage) (acc : Acc) :
    Outcome SErr Str × Outcome SErr Addr × Outcome SErr U64 × Outcome SErr U128 :=
  (outAt h q (name acc) s, outAt h q (templateAddr acc) s, outAt h q (balance acc) s,
    outAt h q (counter acc) s)

/-- What can happen after layer `L` without going back beyond it: programs through handles with any
parameter, and operations on layers. -/
inductive Later (h : Hasher) (L : Int) (s : Storage) : Storage → Prop where
  | refl : Later h L s s
  | prog {s' : Storage} {α : Type} (q : Option (BitVec 64)) (p : Prog α) :
      p.Safe → Later h L s s' → Later h L s (afterAt h q p s')
  | op {s' : Storage} (o : Op) : LayerOp o → o.RewindsFrom L → Later h L s s' →
      Later h L s (Svm.Storage.step h s' o).1

/-! ## Lemmas -/

/-- A handle without a query parameter is what the rest of the model uses. -/
theorem Prog.runAt_none {α : Type} (h : Hasher) (p : Prog α) (s : Storage) :
    p.runAt h none s = p.run h s := by
  induction p generalizing s with
  | ret | err | panic => rfl
  | get k f ih =>
    have : queryFor none k = none := by cases k <;> rfl
    simp only [runAt, run, this, get_view]
    exact ih _ s
  | set k v p ih => exact ih _

theorem Prog.runAt_get {α : Type} {h : Hasher} {q : Option (BitVec 64)} {k : Key} {s : Storage}
    (f : Option Bytes → Prog α) :
    (Prog.get k f).runAt h q s =
      match Storage.get h s k.text (queryFor q k) with
      | .ok v => (f v).runAt h q s
      | .err e => (s, .err (.storage e))
      | .panic => (s, .panic) := by
  simp only [runAt]

theorem Prog.runAt_bind {α β : Type} (h : Hasher) (q : Option (BitVec 64)) (p : Prog α)
    (f : α → Prog β) (s : Storage) :
    (p.bind f).runAt h q s =
      match p.runAt h q s with
      | (s', .ok a) => (f a).runAt h q s'
      | (s', .err e) => (s', .err e)
      | (s', .panic) => (s', .panic) := by
  induction p generalizing s with
  | ret | err | panic => rfl
  | get k g ih =>
    simp only [Prog.bind, runAt]
    split
    · exact ih _ s
    · rfl
    · rfl
  | set k v p ih => exact ih _

/-- No writes, and all reads are of keys in `P`. -/
def Prog.Reads {α : Type} (P : Key → Prop) : Prog α → Prop
  | .ret _ => True
  | .err _ => True
  | .panic _ => True
  | .get k f => P k ∧ ∀ v, (f v).Reads P
  | .set _ _ _ => False

theorem Prog.Reads.bind {α β : Type} {P : Key → Prop} {p : Prog α} {f : α → Prog β}
    (hp : p.Reads P) (hf : ∀ a, (f a).Reads P) : (p.bind f).Reads P := by
  induction p with
  | ret a => exact hf a
  | err | panic => trivial
  | get k g ih => exact ⟨hp.1, fun v => ih v (hp.2 v)⟩
  | set k v p ih => exact hp.elim

theorem Prog.Reads.ofOption {α : Type} {P : Key → Prop} (o : Option α) :
    (Prog.ofOption o).Reads P := by
  cases o <;> trivial

/-- Programs that read the same values from two states return the same. -/
theorem Prog.Reads.outAt_eq {α : Type} {P : Key → Prop} {p : Prog α} (hp : p.Reads P) {h : Hasher}
    {q q' : Option (BitVec 64)} {s s' : Storage}
    (he : ∀ k, P k → Storage.get h s k.text (queryFor q k) = Storage.get h s' k.text (queryFor q' k)) :
    outAt h q p s = outAt h q' p s' := by
  unfold outAt
  induction p with
  | ret | err | panic => rfl
  | get k f ih =>
    simp only [runAt, he k hp.1]
    split
    · exact ih _ (hp.2 _)
    · rfl
    · rfl
  | set k v p ih => exact hp.elim

/-- Programs that only read leave the storage as it is. -/
theorem Prog.Reads.afterAt_eq {α : Type} {P : Key → Prop} {p : Prog α} (hp : p.Reads P) (h : Hasher)
    (q : Option (BitVec 64)) (s : Storage) : afterAt h q p s = s := by
  unfold afterAt
  induction p with
  | ret | err | panic => rfl
  | get k f ih =>
    simp only [runAt]
    split
    · exact ih _ (hp.2 _)
    · rfl
    · rfl
  | set k v p ih => exact hp.elim

/-- A key that is read by `read_and_decode`. -/
def Key.Record (k : Key) : Prop := ∀ a i, k ≠ .seg a i

/-- A segment of variables. -/
def Key.IsSeg (k : Key) : Prop := ∃ a i, k = .seg a i

theorem queryFor_record {k : Key} (hk : k.Record) (q : Option (BitVec 64)) :
    queryFor q k = q.map BitVec.toInt := by
  cases k with
  | seg a i => exact absurd rfl (hk a i)
  | _ => rfl

theorem queryFor_seg {k : Key} (hk : k.IsSeg) (q : Option (BitVec 64)) : queryFor q k = none := by
  obtain ⟨a, i, rfl⟩ := hk
  rfl

theorem reads_readAndDecode {α : Type} {P : Key → Prop} (d : Dec α) {k : Key} (hk : P k) :
    (readAndDecode d k).Reads P := by
  refine ⟨hk, fun v => ?_⟩
  cases v with
  | none => trivial
  | some bs =>
    show Prog.Reads P (match d bs with | .ok (a, _) => .ret a | .err _ => .err .illegalData
                                       | .panic => .panic)
    split <;> trivial

theorem reads_name (acc : Acc) : (name acc).Reads Key.Record :=
  (reads_readAndDecode _ (by intro _ _ h; cases h)).bind fun _ => trivial

theorem reads_templateAddr (acc : Acc) : (templateAddr acc).Reads Key.Record :=
  (reads_readAndDecode _ (by intro _ _ h; cases h)).bind fun _ => trivial

theorem reads_balance (acc : Acc) : (balance acc).Reads Key.Record :=
  (reads_readAndDecode _ (by intro _ _ h; cases h)).bind fun _ => trivial

theorem reads_counter (acc : Acc) : (counter acc).Reads Key.Record :=
  (reads_readAndDecode _ (by intro _ _ h; cases h)).bind fun _ => trivial

theorem reads_readSections (chk : Bool) (t : Addr) : (readSections chk t).Reads Key.Record :=
  (reads_readAndDecode _ (by intro _ _ h; cases h)).bind fun _ =>
    (reads_readAndDecode _ (by intro _ _ h; cases h)).bind fun _ => trivial

theorem reads_templateLayout (chk : Bool) (t : Addr) :
    (templateLayout chk t).Reads Key.Record := by
  refine (reads_readSections chk t).bind fun s => ?_
  split <;> trivial

theorem reads_load (chk : Bool) (a : Addr) : (load chk a).Reads Key.Record :=
  (reads_readAndDecode _ (by intro _ _ h; cases h)).bind fun _ =>
    (reads_templateLayout chk _).bind fun _ => trivial

theorem reads_getLoop (chk : Bool) (a : Addr) (segs : List Segment) (var : Bytes) :
    (getLoop chk a segs var).Reads fun k => ∃ i, k = .seg a i := by
  induction segs generalizing var with
  | nil => trivial
  | cons s segs ih =>
    refine Prog.Reads.bind ⟨⟨_, rfl⟩, fun v => ?_⟩ fun bytes => (Prog.Reads.ofOption _).bind fun n => ?_
    · show Prog.Reads _ (if _ then _ else _)
      split <;> trivial
    · show Prog.Reads _ (if _ then _ else _)
      split
      · exact (ih _).bind fun _ => trivial
      · trivial

theorem reads_getVar (chk : Bool) (acc : Acc) (id : BitVec 32) (buf : Bytes) :
    (getVar chk acc id buf).Reads fun k => ∃ i, k = .seg acc.addr i := by
  refine (Prog.Reads.ofOption _).bind fun v => ?_
  split
  · trivial
  · exact (Prog.Reads.ofOption _).bind fun _ => (Prog.Reads.ofOption _).bind fun _ =>
      (reads_getLoop _ _ _ _).bind fun _ => trivial

/-- All programs change only the dirty overlay, whatever the query parameter. -/
theorem Prog.runAt_frame {α : Type} (h : Hasher) (q : Option (BitVec 64)) (p : Prog α)
    (s : Storage) : (afterAt h q p s).db = s.db ∧ (afterAt h q p s).next = s.next := by
  unfold afterAt
  induction p generalizing s with
  | ret | err | panic => exact ⟨rfl, rfl⟩
  | get k f ih =>
    simp only [runAt]
    split
    · exact ih _ s
    · exact ⟨rfl, rfl⟩
    · exact ⟨rfl, rfl⟩
  | set k v p ih => exact ih _

theorem inv_runAt {h : Hasher} {α : Type} (q : Option (BitVec 64)) (p : Prog α) {s : Storage}
    (hi : Inv s) : Inv (afterAt h q p s) := by
  unfold afterAt
  induction p generalizing s with
  | ret | err | panic => exact hi
  | get k f ih =>
    simp only [Prog.runAt]
    split
    · exact ih _ hi
    · exact hi
    · exact hi
  | set k v p ih =>
    exact ih (Svm.Storage.inv_step h hi (.upsert (h.hash k.text) v) trivial)

theorem kept_later {h : Hasher} {L : Int} {s s' : Storage} (hi : Inv s) (hL : L < s.next.id)
    (hl : Later h L s s') : Inv s' ∧ Kept L s s' := by
  induction hl with
  | refl => exact ⟨hi, hL, rfl, rfl⟩
  | @prog s' α q p _ _ ih =>
    refine ⟨inv_runAt q p ih.1, ?_⟩
    obtain ⟨e1, e2⟩ := Prog.runAt_frame h q p s'
    exact ⟨by rw [e2]; exact ih.2.lt, by rw [e1]; exact ih.2.layers, by rw [e1]; exact ih.2.values⟩
  | op o ho hr _ ih =>
    refine ⟨Svm.Storage.inv_step h ih.1 o ?_, Svm.Storage.kept_step h ih.1 ih.2 o hr⟩
    cases o <;> first | exact ho | trivial

/-- Reads of a kept layer. -/
theorem get_later {h : Hasher} {L : Int} {fp : Svm.Storage.State} {s₀ s₁ s₂ : Storage}
    (hi : Inv s₀) {ord : Svm.Storage.Ord} (hcm : Svm.Storage.commit ord s₀ = (s₁, .ok (L, fp)))
    (hl : Later h L s₁ s₂) (key : Bytes) :
    Storage.get h s₂ key (some L) = Storage.get h s₁ key none := by
  have hd : s₀.dirty = [] := by
    apply Classical.byContradiction
    intro hne
    rw [Svm.Storage.commit_dirty hne] at hcm
    cases hcm
  obtain ⟨prev, _, he⟩ := Svm.Storage.commit_ok hi hd ord
  rw [he] at hcm
  have h1 := congrArg Prod.fst hcm
  have h2 := congrArg Prod.snd hcm
  simp only [Outcome.ok.injEq, Prod.mk.injEq] at h1 h2
  have hi1 : Inv s₁ := by rw [← h1]; exact Svm.Storage.inv_committed hi _ ord
  have hn1 : s₁.next.id = L + 1 := by rw [← h1]; simp only; omega
  obtain ⟨hi2, hk⟩ := kept_later hi1 (by omega) hl
  have e1 : Storage.get h s₁ key none = .ok (Svm.Storage.readUpTo s₁.db.values (h.hash key) L) := by
    have : Storage.get h s₁ key none = .ok (Svm.Storage.queryCurrent s₁.db (h.hash key)) := by
      rw [← h1]; simp [Storage.get, Svm.Storage.getByHash]
    rw [this, hi1.queryCurrent, hn1]
    congr 2
    omega
  have e2 : Storage.get h s₂ key (some L) =
      .ok (Svm.Storage.readUpTo s₂.db.values (h.hash key) L) := by
    unfold Storage.get Svm.Storage.getByHash
    simp only [hk.lt, if_true]
    rw [hi2.queryHistorical]
  rw [e1, e2]
  congr 1
  rw [← Svm.Storage.readUpTo_filter s₂.db.values L L _ (by omega), hk.values,
    Svm.Storage.readUpTo_filter s₁.db.values L L _ (by omega)]

/-! ## C128 -/

/-- C128 as claimed: a handle whose query parameter is a committed layer `q` reads, for ever after, what
was read right after the commit of that layer: the fields, the account itself with its layout, and every
variable. -/
def HistoricalAccounts (h : Hasher) : Prop :=
  ∀ (s₀ s₁ s₂ : Storage) (ord : Svm.Storage.Ord) (q : BitVec 64) (fp : Svm.Storage.State),
    Reach h s₀ → Svm.Storage.commit ord s₀ = (s₁, .ok (q.toInt, fp)) → Later h q.toInt s₁ s₂ →
    ∀ (chk : Bool) (acc : Acc) (id : BitVec 32) (buf : Bytes),
      fieldsAt h (some q) s₂ acc = fields h s₁ acc ∧
      outAt h (some q) (load chk acc.addr) s₂ = out h (load chk acc.addr) s₁ ∧
      outAt h (some q) (getVar chk acc id buf) s₂ = out h (getVar chk acc id buf) s₁

/-- C128, what holds: fields, loading (with the layout of that time) and the sections of templates, after
any later history that does not rewind beyond the layer; and the reads change nothing. Missing: the
variables. -/
theorem C128_records_partial {h : Hasher} (hc : NoCollision h) {s₀ s₁ s₂ : Storage}
    {ord : Svm.Storage.Ord} {q : BitVec 64} {fp : Svm.Storage.State} (hr : Reach h s₀)
    (hcm : Svm.Storage.commit ord s₀ = (s₁, .ok (q.toInt, fp))) (hl : Later h q.toInt s₁ s₂)
    (chk : Bool) (acc : Acc) (t : Addr) :
    fieldsAt h (some q) s₂ acc = fields h s₁ acc ∧
    outAt h (some q) (load chk acc.addr) s₂ = out h (load chk acc.addr) s₁ ∧
    outAt h (some q) (readSections chk t) s₂ = out h (readSections chk t) s₁ ∧
    afterAt h (some q) (load chk acc.addr) s₂ = s₂ := by
  have key : ∀ {α : Type} {p : Prog α}, p.Reads Key.Record → outAt h (some q) p s₂ = out h p s₁ := by
    intro α p hp
    have : outAt h (some q) p s₂ = outAt h none p s₁ := by
      refine hp.outAt_eq fun k hk => ?_
      rw [queryFor_record hk, queryFor_record hk]
      exact get_later (hr.ok hc).1 hcm hl k.text
    rw [this]
    unfold outAt out
    rw [Prog.runAt_none]
  refine ⟨?_, key (reads_load chk _), key (reads_readSections chk t),
    (reads_load chk _).afterAt_eq h _ _⟩
  unfold fieldsAt fields
  rw [key (reads_name acc), key (reads_templateAddr acc), key (reads_balance acc),
    key (reads_counter acc)]

/-- C128, the variables: the query parameter is ignored; the current value is returned, for every
parameter (also one that names no layer). -/
theorem C128_variables_current (h : Hasher) (q : Option (BitVec 64)) (chk : Bool) (acc : Acc)
    (id : BitVec 32) (buf : Bytes) (s : Storage) :
    outAt h q (getVar chk acc id buf) s = out h (getVar chk acc id buf) s := by
  have : outAt h q (getVar chk acc id buf) s = outAt h none (getVar chk acc id buf) s := by
    refine (reads_getVar chk acc id buf).outAt_eq fun k hk => ?_
    obtain ⟨i, rfl⟩ := hk
    rfl
  rw [this]
  unfold outAt out
  rw [Prog.runAt_none]

/-- C128, the variables of an account that were not written since: they read as they did. -/
theorem C128_variables_partial {h : Hasher} {s₁ s₂ : Storage} (q : Option (BitVec 64)) (acc : Acc)
    (hs : ∀ i, view h s₂ (.seg acc.addr i) = view h s₁ (.seg acc.addr i))
    (chk : Bool) (id : BitVec 32) (buf : Bytes) :
    outAt h q (getVar chk acc id buf) s₂ = out h (getVar chk acc id buf) s₁ := by
  have : outAt h q (getVar chk acc id buf) s₂ = outAt h none (getVar chk acc id buf) s₁ := by
    refine (reads_getVar chk acc id buf).outAt_eq fun k hk => ?_
    obtain ⟨i, rfl⟩ := hk
    show Storage.get h s₂ _ none = Storage.get h s₁ _ none
    rw [get_view, get_view, hs]
  rw [this]
  unfold outAt out
  rw [Prog.runAt_none]

/-- C128, a layer that was not committed yet: the fields panic, the variables are still answered. -/
theorem C128_future_layer (h : Hasher) {s : Storage} {q : BitVec 64} (hq : s.next.id ≤ q.toInt)
    (acc : Acc) :
    fieldsAt h (some q) s acc = (.panic, .panic, .panic, .panic) := by
  have hg : ∀ key, Storage.get h s key (some q.toInt) = .panic := by
    intro key
    unfold Storage.get Svm.Storage.getByHash
    simp only
    rw [if_neg (by omega)]
  have hp : ∀ {α β : Type} (d : Dec α) (k : Key) (g : α → Prog β), k.Record →
      outAt h (some q) ((readAndDecode d k).bind g) s = .panic := by
    intro α β d k g hk
    have := Prog.runAt_get (q := some q) (k := k) (s := s) (h := h) fun v =>
      ((match v with
        | none => .err .notFound
        | some bs => match d bs with
          | .ok (a, _) => .ret a
          | .err _ => .err .illegalData
          | .panic => .panic : Prog α).bind g)
    rw [queryFor_record hk, Option.map_some, hg] at this
    exact congrArg Prod.snd this
  unfold fieldsAt
  have r1 : (Key.accData acc.addr).Record := by intro _ _ h; cases h
  have r2 : (Key.accMut acc.addr).Record := by intro _ _ h; cases h
  refine Prod.ext (hp _ _ _ r1) (Prod.ext (hp _ _ _ r1) (Prod.ext (hp _ _ _ r2) (hp _ _ _ r2)))

theorem fresh_commit (ord : Svm.Storage.Ord) :
    Inv (Svm.Storage.commit ord Svm.Storage.fresh).1 ∧
      (Svm.Storage.commit ord Svm.Storage.fresh).1.dirty = [] ∧
      (Svm.Storage.commit ord Svm.Storage.fresh).1.next.id = 0 := by
  obtain ⟨prev, _, he⟩ := Svm.Storage.commit_ok Svm.Storage.inv_fresh rfl ord
  rw [he]
  exact ⟨Svm.Storage.inv_committed Svm.Storage.inv_fresh _ ord, rfl, rfl⟩

/-- C128 is violated: a variable written after layer 0 reads, at layer 0, as the new value. -/
theorem C128_claim_false {h : Hasher} (hc : NoCollision h) : ¬ HistoricalAccounts h := by
  intro hcl
  have hr0 : Reach h (Svm.Storage.commit .id Svm.Storage.fresh).1 :=
    .op (.commit .id) trivial .fresh
  obtain ⟨hi, hd, hn⟩ := fresh_commit .id
  obtain ⟨prev, _, he⟩ := Svm.Storage.commit_ok hi hd .id
  rw [hn] at he
  have hr1 : Reach h (Svm.Storage.commit .id (Svm.Storage.commit .id Svm.Storage.fresh).1).1 :=
    .op (.commit .id) trivial hr0
  have hg : exampleAcc.layout.get 6 = some ⟨6, 20, 4⟩ := by decide
  have key : ∀ v : Bytes, v.length = 4 → _ := fun v hv =>
    (hcl _ _ (afterAt h none (setVarBytes true exampleAcc 6 v) _) .id 0 _ hr0 he
      (.prog none _ (safe_setVarBytes _ _ _ _) .refl) true exampleAcc 6 [0, 0, 0, 0]).2.2
  have val : ∀ v : Bytes, v.length = 4 →
      out h (getVar true exampleAcc 6 [0, 0, 0, 0])
        (afterAt h none (setVarBytes true exampleAcc 6 v)
          (Svm.Storage.commit .id (Svm.Storage.commit .id Svm.Storage.fresh).1).1) = .ok v := by
    intro v hv
    have := (C15_read_after_write hc hr1 true exampleLayout_ok hg (by decide) v [0, 0, 0, 0]
      (by rw [hv]; decide) (by decide)).2
    unfold afterAt
    rw [Prog.runAt_none]
    rw [show (⟨6, 20, 4⟩ : RawVar).byteSize.toNat = 4 from rfl, List.take_of_length_le (by omega)] at this
    simpa [after] using this
  have e1 := key [1, 2, 3, 4] rfl
  have e2 := key [5, 6, 7, 8] rfl
  rw [C128_variables_current] at e1 e2
  rw [he] at val
  rw [val _ rfl] at e1
  rw [val _ rfl, ← e1] at e2
  revert e2
  decide

/-- C128, the parameter is cast to a signed number: the largest number stands for the genesis layer (-1)
and the one below for the layer before, so that these are answered although no such layer was ever
committed. -/
theorem C128_wraps (k : Key) (hk : k.Record) (q : BitVec 64) :
    queryFor (some q) k = some (if q.toNat < 2 ^ 63 then (q.toNat : Int) else (q.toNat : Int) - 2 ^ 64) := by
  rw [queryFor_record hk, Option.map_some, BitVec.toInt_eq_toNat_cond]
  congr 1
  split <;> split <;> first | rfl | omega

/-! ## C129 -/

/-- The decoded record of a key at the layer of a handle. -/
def recordAt {α : Type} (h : Hasher) (q : Option (BitVec 64)) (d : Dec α) (k : Key) (s : Storage) :
    Outcome SErr α := outAt h q (readAndDecode d k) s

theorem runAt_readAndDecode {α : Type} (h : Hasher) (q : Option (BitVec 64)) (d : Dec α) (k : Key)
    (s : Storage) : (readAndDecode d k).runAt h q s = (s, recordAt h q d k s) :=
  Prod.ext ((reads_readAndDecode (P := fun _ => True) d trivial).afterAt_eq h q s) rfl

theorem outAt_map {α β : Type} (h : Hasher) (q : Option (BitVec 64)) (d : Dec α) (k : Key)
    (s : Storage) (g : α → β) :
    outAt h q ((readAndDecode d k).bind fun x => .ret (g x)) s = (recordAt h q d k s).map g := by
  unfold outAt
  rw [Prog.runAt_bind, runAt_readAndDecode]
  cases recordAt h q d k s <;> rfl

theorem runAt_setMut (h : Hasher) (q : Option (BitVec 64)) (acc : Acc) (f : AccountMut → AccountMut)
    (s : Storage) :
    (replace decAccountMut encAccountMut (.accMut acc.addr) f).runAt h q s =
      match recordAt h q decAccountMut (.accMut acc.addr) s with
      | .ok d => (Storage.upsert h s (Key.accMut acc.addr).text (mutBytes (f d)), .ok ())
      | .err e => (s, .err e)
      | .panic => (s, .panic) := by
  unfold replace
  simp only [Prog.bind_eq]
  rw [Prog.runAt_bind, runAt_readAndDecode]
  cases recordAt h q decAccountMut (.accMut acc.addr) s <;> rfl

/-- C129 as claimed: through any handle, `set_balance` and `set_counter` change the balance and the
counter, and nothing else. -/
def SettersKeepRest (h : Hasher) : Prop :=
  ∀ (s : Storage) (q : Option (BitVec 64)) (acc : Acc) (b : U64) (c : U128), Reach h s →
    (outAt h q (setBalance acc b) s = .ok () →
      fields h (afterAt h q (setBalance acc b) s) acc =
        ((fields h s acc).1, (fields h s acc).2.1, .ok b, (fields h s acc).2.2.2)) ∧
    (outAt h q (setCounter acc c) s = .ok () →
      fields h (afterAt h q (setCounter acc c) s) acc =
        ((fields h s acc).1, (fields h s acc).2.1, (fields h s acc).2.2.1, .ok c))

/-- C129, exactly what happens: `set_balance` writes the counter that the handle reads (the one of its
layer), `set_counter` the balance that it reads; no other account and no variable changes. -/
theorem C129_writes_stale {h : Hasher} (hc : NoCollision h) (s : Storage) (q : Option (BitVec 64))
    (acc : Acc) {b0 : U64} {c0 : U128} (hb : outAt h q (balance acc) s = .ok b0)
    (hn : outAt h q (counter acc) s = .ok c0) (b : U64) (c : U128) :
    (outAt h q (setBalance acc b) s = .ok () ∧
      fields h (afterAt h q (setBalance acc b) s) acc =
        ((fields h s acc).1, (fields h s acc).2.1, .ok b, .ok c0)) ∧
    (outAt h q (setCounter acc c) s = .ok () ∧
      fields h (afterAt h q (setCounter acc c) s) acc =
        ((fields h s acc).1, (fields h s acc).2.1, .ok b0, .ok c)) ∧
    (∀ acc' : Acc, acc'.addr ≠ acc.addr →
      fields h (afterAt h q (setBalance acc b) s) acc' = fields h s acc' ∧
      fields h (afterAt h q (setCounter acc c) s) acc' = fields h s acc') ∧
    (∀ chk (acc' : Acc) id buf,
      out h (getVar chk acc' id buf) (afterAt h q (setBalance acc b) s) =
        out h (getVar chk acc' id buf) s ∧
      out h (getVar chk acc' id buf) (afterAt h q (setCounter acc c) s) =
        out h (getVar chk acc' id buf) s) := by
  have hb' : (recordAt h q decAccountMut (.accMut acc.addr) s).map (·.balance) = .ok b0 := by
    rw [← outAt_map]; exact hb
  have hn' : (recordAt h q decAccountMut (.accMut acc.addr) s).map (·.counter) = .ok c0 := by
    rw [← outAt_map]; exact hn
  obtain ⟨d, hd⟩ : ∃ d, recordAt h q decAccountMut (.accMut acc.addr) s = .ok d := by
    cases hd : recordAt h q decAccountMut (.accMut acc.addr) s with
    | ok d => exact ⟨d, rfl⟩
    | err e => rw [hd] at hb'; cases hb'
    | panic => rw [hd] at hb'; cases hb'
  rw [hd] at hb' hn'
  simp only [Outcome.map, Outcome.ok.injEq] at hb' hn'
  subst hb'
  subst hn'
  have r1 := runAt_setMut h q acc (fun d => { d with balance := b }) s
  have r2 := runAt_setMut h q acc (fun d => { d with counter := c }) s
  rw [hd] at r1 r2
  have w1 : view h (afterAt h q (setBalance acc b) s) =
      (view h s).set (.accMut acc.addr) (mutBytes { d with balance := b }) := by
    rw [← view_upsert hc]; exact congrArg (view h) (congrArg Prod.fst r1)
  have w2 : view h (afterAt h q (setCounter acc c) s) =
      (view h s).set (.accMut acc.addr) (mutBytes { d with counter := c }) := by
    rw [← view_upsert hc]; exact congrArg (view h) (congrArg Prod.fst r2)
  refine ⟨⟨congrArg Prod.snd r1, name_setMut hc w1⟩, ⟨congrArg Prod.snd r2, name_setMut hc w2⟩, ?_, ?_⟩
  · intro acc' hne
    constructor
    · refine fields_congr hc ?_ ?_
      · rw [w1, View.set_ne _ _ (by simp)]
      · rw [w1, View.set_ne _ _ (by simp [hne])]
    · refine fields_congr hc ?_ ?_
      · rw [w2, View.set_ne _ _ (by simp)]
      · rw [w2, View.set_ne _ _ (by simp [hne])]
  · intro chk acc' id buf
    constructor
    · rw [out_eval hc, out_eval hc]
      exact getVar_congr _ _ _ _ fun i => by rw [w1, View.set_ne _ _ (by simp)]
    · rw [out_eval hc, out_eval hc]
      exact getVar_congr _ _ _ _ fun i => by rw [w2, View.set_ne _ _ (by simp)]

/-- C129, if the handle reads no balance, the setters return what the getter returns and write nothing. -/
theorem C129_no_record (h : Hasher) (s : Storage) (q : Option (BitVec 64)) (acc : Acc) (b : U64)
    (c : U128) (hb : ∀ x, outAt h q (balance acc) s ≠ .ok x) :
    afterAt h q (setBalance acc b) s = s ∧ afterAt h q (setCounter acc c) s = s ∧
    outAt h q (setBalance acc b) s = (outAt h q (balance acc) s).map (fun _ => ()) ∧
    outAt h q (setCounter acc c) s = (outAt h q (balance acc) s).map (fun _ => ()) := by
  have e : outAt h q (balance acc) s =
      (recordAt h q decAccountMut (.accMut acc.addr) s).map (·.balance) := by
    rw [← outAt_map]; rfl
  rw [e] at hb ⊢
  have r1 := runAt_setMut h q acc (fun d => { d with balance := b }) s
  have r2 := runAt_setMut h q acc (fun d => { d with counter := c }) s
  cases hd : recordAt h q decAccountMut (.accMut acc.addr) s with
  | ok d => rw [hd] at hb; exact absurd rfl (hb d.balance)
  | err e =>
    rw [hd] at r1 r2
    exact ⟨congrArg Prod.fst r1, congrArg Prod.fst r2, congrArg Prod.snd r1, congrArg Prod.snd r2⟩
  | panic =>
    rw [hd] at r1 r2
    exact ⟨congrArg Prod.fst r1, congrArg Prod.fst r2, congrArg Prod.snd r1, congrArg Prod.snd r2⟩

/-- C129, what holds: if the handle reads the current balance and counter (as without a parameter), the
setters change one field only. Missing: handles of an earlier layer with another balance or counter. -/
theorem C129_current_partial {h : Hasher} (hc : NoCollision h) (s : Storage)
    (q : Option (BitVec 64)) (acc : Acc) {b0 : U64} {c0 : U128}
    (hb : outAt h q (balance acc) s = .ok b0) (hn : outAt h q (counter acc) s = .ok c0)
    (hb' : out h (balance acc) s = .ok b0) (hn' : out h (counter acc) s = .ok c0)
    (b : U64) (c : U128) :
    fields h (afterAt h q (setBalance acc b) s) acc =
      ((fields h s acc).1, (fields h s acc).2.1, .ok b, (fields h s acc).2.2.2) ∧
    fields h (afterAt h q (setCounter acc c) s) acc =
      ((fields h s acc).1, (fields h s acc).2.1, (fields h s acc).2.2.1, .ok c) := by
  obtain ⟨⟨_, h1⟩, ⟨_, h2⟩, _⟩ := C129_writes_stale hc s q acc hb hn b c
  refine ⟨?_, ?_⟩
  · rw [h1]; unfold fields; simp only [hn']
  · rw [h2]; unfold fields; simp only [hb']

/-- C129, variables: `set_var_bytes` does the same through every handle. -/
theorem C129_variables (h : Hasher) (q : Option (BitVec 64)) (chk : Bool) (acc : Acc)
    (id : BitVec 32) (value : Bytes) (s : Storage) :
    (setVarBytes chk acc id value).runAt h q s = (setVarBytes chk acc id value).run h s := by
  have key : ∀ {α : Type} (p : Prog α), (∀ s, p.runAt h q s = p.runAt h none s) →
      ∀ {β : Type} (f : α → Prog β), (∀ a s, (f a).runAt h q s = (f a).runAt h none s) →
      ∀ s, (p.bind f).runAt h q s = (p.bind f).runAt h none s := by
    intro α p hp β f hf s
    rw [Prog.runAt_bind, Prog.runAt_bind, hp]
    split <;> first | exact hf _ _ | rfl
  have hopt : ∀ {α : Type} (o : Option α) s,
      (Prog.ofOption o).runAt h q s = (Prog.ofOption o).runAt h none s := by
    intro α o s; cases o <;> rfl
  have hloop : ∀ segs value s, (setLoop chk acc.addr segs value).runAt h q s =
      (setLoop chk acc.addr segs value).runAt h none s := by
    intro segs
    induction segs with
    | nil => intro value s; rfl
    | cons g segs ih =>
      intro value s
      refine key _ ?_ _ ?_ s
      · intro s
        unfold readSegment
        refine key _ (fun s => ?_) _ (fun a s => ?_) s
        · unfold Prog.read
          rw [Prog.runAt_get, Prog.runAt_get]
          simp only [queryFor, get_view]
          rfl
        · simp only; split <;> rfl
      · intro bytes s
        refine key _ (hopt _) _ (fun n s => ?_) s
        split
        · exact key _ (fun s => rfl) _ (fun _ s => ih _ s) s
        · rfl
  rw [← Prog.runAt_none]
  refine key _ (hopt _) _ (fun v s => ?_) s
  split
  · rfl
  · exact key _ (hopt _) _ (fun o s => key _ (hopt _) _ (fun segs s => hloop _ _ s) s) s

/-- A node with one account, committed as layer 0, whose counter then went up and whose balance went
down. -/
def spentState (h : Hasher) : Storage :=
  after h (setCounter ⟨exampleAddr 1, stubTemplate, .default⟩ 5)
    (after h (setBalance ⟨exampleAddr 1, stubTemplate, .default⟩ 3) (paidState h))
where
  /-- The state at layer 0. -/
  paidState (h : Hasher) : Storage :=
    (Svm.Storage.commit .id (Svm.Storage.checkpoint h .id
      (after h (createStub (exampleAddr 1) ⟨[0x61], by decide⟩ 10 4)
        (Svm.Storage.commit .id Svm.Storage.fresh).1))).1

theorem spentState_spec {h : Hasher} (hc : NoCollision h) :
    Reach h (spentState h) ∧
    fields h (spentState h) ⟨exampleAddr 1, stubTemplate, .default⟩ =
      (.ok ⟨[0x61], by decide⟩, .ok stubTemplate, .ok 3, .ok 5) ∧
    outAt h (some 0) (balance ⟨exampleAddr 1, stubTemplate, .default⟩) (spentState h) = .ok 10 ∧
    outAt h (some 0) (counter ⟨exampleAddr 1, stubTemplate, .default⟩) (spentState h) = .ok 4 := by
  obtain ⟨hi, hd, hn⟩ := fresh_commit .id
  have hr0 : Reach h (Svm.Storage.commit .id Svm.Storage.fresh).1 :=
    .op (.commit .id) trivial .fresh
  have hr1 : Reach h (after h (createStub (exampleAddr 1) ⟨[0x61], by decide⟩ 10 4)
      (Svm.Storage.commit .id Svm.Storage.fresh).1) := .prog _ (safe_createStub _ _ _ _) hr0
  have hr2 : Reach h (Svm.Storage.checkpoint h .id
      (after h (createStub (exampleAddr 1) ⟨[0x61], by decide⟩ 10 4)
        (Svm.Storage.commit .id Svm.Storage.fresh).1)) := .op (.checkpoint .id) trivial hr1
  have hr3 : Reach h (spentState.paidState h) := .op (.commit .id) trivial hr2
  have hr4 : Reach h (spentState h) :=
    .prog _ (safe_setCounter _ _) (.prog _ (safe_setBalance _ _) hr3)
  have hfr := Prog.run_frame h (createStub (exampleAddr 1) ⟨[0x61], by decide⟩ 10 4)
    (Svm.Storage.commit .id Svm.Storage.fresh).1
  obtain ⟨s1, fp, he, hp⟩ := Svm.Runtime.publish (hr1.ok hc).1 h .id .id
  have hs1 : spentState.paidState h = s1 := congrArg Prod.fst he
  have hnx : (after h (createStub (exampleAddr 1) ⟨[0x61], by decide⟩ 10 4)
      (Svm.Storage.commit .id Svm.Storage.fresh).1).next.id = 0 := by
    unfold after
    rw [hfr.2, hn]
  rw [hnx] at he
  have hv : view h s1 = view h
      (after h (createStub (exampleAddr 1) ⟨[0x61], by decide⟩ 10 4)
        (Svm.Storage.commit .id Svm.Storage.fresh).1) := by
    funext k
    exact hp.now _
  have hok : out h (createStub (exampleAddr 1) ⟨[0x61], by decide⟩ 10 4)
      (Svm.Storage.commit .id Svm.Storage.fresh).1 =
      .ok ⟨exampleAddr 1, stubTemplate, FixedLayout.default⟩ := rfl
  have hf1 : fields h s1 ⟨exampleAddr 1, stubTemplate, .default⟩ =
      (.ok ⟨[0x61], by decide⟩, .ok stubTemplate, .ok 10, .ok 4) := by
    rw [fields_congr hc (congrFun hv _) (congrFun hv _)]
    exact (C18_createStub hc hok).2.1
  have hl : Later h 0 s1 (spentState h) := by
    unfold spentState
    rw [hs1]
    have e1 : ∀ {α : Type} (p : Prog α) s, after h p s = afterAt h none p s := fun p s => by
      unfold after afterAt
      rw [Prog.runAt_none]
    rw [e1, e1]
    exact .prog none _ (safe_setCounter _ _) (.prog none _ (safe_setBalance _ _) .refl)
  have hat := (C128_records_partial hc (q := 0) hr2 he hl true ⟨exampleAddr 1, stubTemplate, .default⟩
    stubTemplate).1
  rw [hf1] at hat
  have hb : out h (balance ⟨exampleAddr 1, stubTemplate, .default⟩) s1 = .ok 10 :=
    congrArg (fun x => x.2.2.1) hf1
  have h1 := (C18_set_balance hc hb 3).2.1
  rw [hf1] at h1
  have h2 := (C18_set_counter hc (congrArg (fun x => x.2.2.1) h1) 5).2.1
  rw [h1] at h2
  unfold fieldsAt at hat
  simp only [Prod.mk.injEq] at hat
  refine ⟨hr4, ?_, hat.2.2.1, hat.2.2.2⟩
  unfold spentState
  rw [hs1]
  exact h2

/-- C129 is violated: an account had 10 coins and the counter 4 at layer 0; it spent coins and its counter
is now 5. Setting the balance through a handle of layer 0 brings the counter back to 4, and setting the
counter brings the 10 coins back. -/
theorem C129_claim_false {h : Hasher} (hc : NoCollision h) : ¬ SettersKeepRest h := by
  intro hcl
  obtain ⟨hr, hf, hb, hn⟩ := spentState_spec hc
  generalize spentState h = s at hr hf hb hn
  generalize hacc : (⟨exampleAddr 1, stubTemplate, .default⟩ : Acc) = acc at hf hb hn
  obtain ⟨⟨o1, h1⟩, -, -⟩ := C129_writes_stale hc s (some 0)
    acc hb hn 1 6
  have h2 := (hcl s (some 0) acc 1 6 hr).1 o1
  rw [h1, hf] at h2
  have := congrArg (fun x => x.2.2.2) h2
  simp only [Outcome.ok.injEq] at this
  revert this
  decide

/-- C129, the coins that come back. -/
theorem C129_coins_return : ∃ h, NoCollision h ∧ ∃ s acc, Reach h s ∧
    out h (balance acc) s = .ok 3 ∧
    out h (balance acc) (afterAt h (some 0) (setCounter acc 6) s) = .ok 10 := by
  obtain ⟨h, hc⟩ := exists_noCollision
  obtain ⟨hr, hf, hb, hn⟩ := spentState_spec hc
  generalize spentState h = s at hr hf hb hn
  generalize hacc : (⟨exampleAddr 1, stubTemplate, .default⟩ : Acc) = acc at hf hb hn
  obtain ⟨-, ⟨-, h1⟩, -⟩ := C129_writes_stale hc s (some 0)
    acc hb hn 1 6
  exact ⟨h, hc, s, acc, hr,
    congrArg (fun x => x.2.2.1) hf, congrArg (fun x => x.2.2.1) h1⟩

end Svm.Account
