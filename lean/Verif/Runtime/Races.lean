import Verif.Runtime.Threads

/-!
# C132 - C134: variables and layers under concurrent use

Over the schedules of `Runtime/Threads`: writers of different variables, readers of a variable, and commits
by other clients.
-/

namespace Svm.Runtime

open Svm.Codec Svm.Account
open Svm.Storage (Hasher Storage Op Inv)
open Svm.Layout (RawVar)

/-! ## Specification -/

/-- A write to a variable through `AccountStorage::set_var_bytes`. -/
structure VarWrite where
  acc : Acc
  id : BitVec 32
  value : Bytes

/-- The writer threads. -/
def writers {ι : Type} (chk : Bool) (ws : ι → VarWrite) : ι → Prog Unit :=
  fun i => setVarBytes chk (ws i).acc (ws i).id (ws i).value

/-- A write of exactly the bytes of a variable of a proper layout. -/
structure VarWrite.Ok (w : VarWrite) (v : RawVar) : Prop where
  layout : LayoutOk w.acc.layout
  var : w.acc.layout.get w.id = some v
  size : w.value.length = v.byteSize.toNat
  pos : 0 < w.value.length

/-- The bytes of a variable, if it can be read. -/
def varOf (h : Hasher) (chk : Bool) (acc : Acc) (id : BitVec 32) (s : Storage) : Outcome SErr Bytes :=
  out h (getVarVec chk acc id) s

/-- C132 as claimed: two threads write to different variables of an account; when both have returned, both
variables have the written values. -/
def BothWritten (h : Hasher) : Prop :=
  ∀ (s : Storage) (chk : Bool) (acc : Acc) (ws : Bool → VarWrite) (vs : Bool → RawVar)
    (es : List (Turn Bool)), Reach h s → Saving es →
    (∀ i, (ws i).acc = acc ∧ (ws i).Ok (vs i)) → (ws false).id ≠ (ws true).id →
    (∀ i, result ((runThreads h es (writers chk ws) s).2 i) = some (.ok ())) →
    ∀ i, varOf h chk acc (ws i).id (runThreads h es (writers chk ws) s).1 = .ok (ws i).value

/-- The numbers of the 32-byte segments that a variable touches. -/
def Blocks (v : RawVar) (i : BitVec 32) : Prop :=
  v.offset.toNat / 32 ≤ i.toNat ∧ i.toNat ≤ (v.offset.toNat + v.byteSize.toNat - 1) / 32

/-! ## Lemmas -/

/-- The keys of the segments of a variable. -/
def VarKeys (a : Addr) (v : RawVar) (k : Key) : Prop := ∃ i, k = .seg a i ∧ Blocks v i

theorem blocks_of_segment {chk : Bool} {v : RawVar} (hpos : 0 < v.byteSize.toNat) {segs : List Segment}
    (h : varSegments chk v.offset v.byteSize = some segs) {g : Segment} (hg : g ∈ segs) :
    Blocks v g.index := by
  obtain ⟨segs', h1, h2, h3⟩ := varSegments_spec chk v.offset v.byteSize hpos
  rw [h] at h1
  cases h1
  have hok := h2 g hg
  have hm : 32 * g.index.toNat + g.start ∈ segs.flatMap Segment.positions := by
    refine List.mem_flatMap.2 ⟨g, hg, List.mem_map.2 ⟨0, List.mem_range.2 ?_, rfl⟩⟩
    have := hok.1
    omega
  rw [h3] at hm
  obtain ⟨j, hj, e⟩ := List.mem_map.1 hm
  have hj := List.mem_range.1 hj
  have := hok.1
  have := hok.2
  unfold Blocks
  omega

theorem within_readSegment {R W : Key → Prop} (a : Addr) (g : Segment) (hk : R (.seg a g.index)) :
    Within R W (readSegment a g) := by
  refine ⟨hk, fun v => ?_⟩
  show Within R W (if _ then _ else _)
  split <;> trivial

theorem within_setLoop {R W : Key → Prop} (chk : Bool) (a : Addr) (segs : List Segment) (value : Bytes)
    (hr : ∀ g ∈ segs, R (.seg a g.index)) (hw : ∀ g ∈ segs, W (.seg a g.index)) :
    Within R W (setLoop chk a segs value) := by
  induction segs generalizing value with
  | nil => trivial
  | cons g segs ih =>
    refine (within_readSegment a g (hr g List.mem_cons_self)).bind fun b =>
      (Within.ofOption _).bind fun n => ?_
    split
    · exact ⟨hw g List.mem_cons_self, ih _ (fun g hg => hr g (List.mem_cons_of_mem _ hg))
        fun g hg => hw g (List.mem_cons_of_mem _ hg)⟩
    · trivial

theorem within_getLoop {R W : Key → Prop} (chk : Bool) (a : Addr) (segs : List Segment) (var : Bytes)
    (hr : ∀ g ∈ segs, R (.seg a g.index)) : Within R W (getLoop chk a segs var) := by
  induction segs generalizing var with
  | nil => trivial
  | cons g segs ih =>
    refine (within_readSegment a g (hr g List.mem_cons_self)).bind fun b =>
      (Within.ofOption _).bind fun n => ?_
    split
    · exact (ih _ fun g hg => hr g (List.mem_cons_of_mem _ hg)).bind fun _ => trivial
    · trivial

theorem within_setVarBytes (chk : Bool) {acc : Acc} {id : BitVec 32} {v : RawVar}
    (hl : LayoutOk acc.layout) (hg : acc.layout.get id = some v) (hpos : 0 < v.byteSize.toNat)
    (value : Bytes) :
    Within (VarKeys acc.addr v) (VarKeys acc.addr v) (setVarBytes chk acc id value) := by
  unfold setVarBytes
  rw [hg]
  show Within _ _ (if _ then _ else _)
  split
  · trivial
  · rw [segmentsOffset_ok chk v (hl.bound id v hg)]
    show Within _ _ ((Prog.ofOption (varSegments chk v.offset v.byteSize)).bind _)
    cases hs : varSegments chk v.offset v.byteSize with
    | none => trivial
    | some segs =>
      exact within_setLoop chk _ segs _ (fun g hg => ⟨_, rfl, blocks_of_segment hpos hs hg⟩)
        fun g hg => ⟨_, rfl, blocks_of_segment hpos hs hg⟩

theorem within_getVar {W : Key → Prop} (chk : Bool) {acc : Acc} {id : BitVec 32} {v : RawVar}
    (hl : LayoutOk acc.layout) (hg : acc.layout.get id = some v) (hpos : 0 < v.byteSize.toNat)
    (buf : Bytes) : Within (VarKeys acc.addr v) W (getVar chk acc id buf) := by
  unfold getVar
  rw [hg]
  show Within _ _ (if _ then _ else _)
  split
  · trivial
  · rw [segmentsOffset_ok chk v (hl.bound id v hg)]
    show Within _ _ ((Prog.ofOption (varSegments chk v.offset v.byteSize)).bind _)
    cases hs : varSegments chk v.offset v.byteSize with
    | none => trivial
    | some segs =>
      exact (within_getLoop chk _ segs _ fun g hg => ⟨_, rfl, blocks_of_segment hpos hs hg⟩).bind
        fun _ => trivial

theorem within_getVarVec {W : Key → Prop} (chk : Bool) {acc : Acc} {id : BitVec 32} {v : RawVar}
    (hl : LayoutOk acc.layout) (hg : acc.layout.get id = some v) (hpos : 0 < v.byteSize.toNat) :
    Within (VarKeys acc.addr v) W (getVarVec chk acc id) := by
  unfold getVarVec
  rw [hg]
  exact within_getVar chk hl hg hpos _

/-! ## C132 -/

/-- C132, what holds: any number of writers, to variables of any accounts, no two of which share a 32-byte
segment. In every schedule every writer that has returned has written its variable, and what nobody writes
is unchanged. Missing: variables of one account that share a segment. -/
theorem C132_partial {ι : Type} [DecidableEq ι] {h : Hasher} (hc : NoCollision h) {s : Storage}
    (hr : Reach h s) (chk : Bool) (ws : ι → VarWrite) (vs : ι → RawVar) (hok : ∀ i, (ws i).Ok (vs i))
    (hd : ∀ i j, i ≠ j → (ws i).acc.addr = (ws j).acc.addr → ∀ b, ¬ (Blocks (vs i) b ∧ Blocks (vs j) b))
    (es : List (Turn ι)) (hs : Saving es) :
    let r := runThreads h es (writers chk ws) s
    (∀ i o, result (r.2 i) = some o →
      o = .ok () ∧ varOf h chk (ws i).acc (ws i).id r.1 = .ok (ws i).value) ∧
    (∀ k, (∀ i b, Blocks (vs i) b → k ≠ .seg (ws i).acc.addr b) → view h r.1 k = view h s k) := by
  intro r
  have ha : Apart (fun i => VarKeys (ws i).acc.addr (vs i)) fun i => VarKeys (ws i).acc.addr (vs i) := by
    intro i j hij k hk
    have : ¬ VarKeys (ws j).acc.addr (vs j) k := by
      rintro ⟨b, e, hb⟩
      obtain ⟨b', e', hb'⟩ := hk
      rw [e] at e'
      simp only [Key.seg.injEq] at e'
      obtain ⟨e1, rfl⟩ := e'
      exact hd i j hij e1.symm b ⟨hb', hb⟩
    exact ⟨this, this⟩
  have hp : ∀ i, 0 < (vs i).byteSize.toNat := fun i => by rw [← (hok i).size]; exact (hok i).pos
  obtain ⟨h1, h2⟩ := C130_apart hc ha hr (writers chk ws)
    (fun i => within_setVarBytes chk (hok i).layout (hok i).var (hp i) _) es hs
  refine ⟨fun i o ho => ?_, fun k hk => h2 k fun i ⟨b, e, hb⟩ => hk i b hb e⟩
  obtain ⟨a1, a2⟩ := h1 i o ho
  obtain ⟨c1, -⟩ := C15_read_after_write hc hr chk (hok i).layout (hok i).var (hp i) (ws i).value
    (ws i).value (by rw [(hok i).size]) (by rw [(hok i).size])
  refine ⟨a1.trans c1, ?_⟩
  have c2 := C15_read_after_write_vec hc hr chk (hok i).layout (hok i).var (hp i) (ws i).value (hok i).size
  rw [← c2]
  unfold varOf
  rw [out_eval hc, out_eval hc]
  exact ((within_getVarVec (W := fun _ => False) chk (hok i).layout (hok i).var (hp i)).eval_congr
    fun k hk => a2 k hk).1

/-- A variable inside of one segment. -/
def OneBlock (v : RawVar) : Prop := v.offset.toNat % 32 + v.byteSize.toNat ≤ 32

theorem varSegments_one (chk : Bool) {v : RawVar} (hpos : 0 < v.byteSize.toNat) (h1 : OneBlock v) :
    varSegments chk v.offset v.byteSize =
      some [⟨BitVec.ofNat 32 (v.offset.toNat / 32), v.offset.toNat % 32,
        v.offset.toNat % 32 + v.byteSize.toNat - 1⟩] := by
  unfold OneBlock at h1
  unfold varSegments
  have hp : predUsize chk (v.offset.toNat % segmentSize + v.byteSize.toNat) =
      some (v.offset.toNat % 32 + v.byteSize.toNat - 1) := by
    unfold predUsize segmentSize
    rw [if_neg (by omega)]
  have hm : min (v.offset.toNat % 32 + v.byteSize.toNat - 1) (segmentSize - 1) =
      v.offset.toNat % 32 + v.byteSize.toNat - 1 := by unfold segmentSize; omega
  have hz : v.byteSize.toNat - (v.offset.toNat % 32 + v.byteSize.toNat - 1 + 1 - v.offset.toNat % 32) = 0 := by
    omega
  have hl : Segment.len true ⟨BitVec.ofNat 32 (v.offset.toNat / 32), v.offset.toNat % 32,
      v.offset.toNat % 32 + v.byteSize.toNat - 1⟩ = some v.byteSize.toNat := by
    unfold Segment.len
    rw [if_neg (by simp only [not_and]; omega)]
    simp only [Option.some.injEq]
    omega
  have hn : ∀ i, segmentsFrom i 0 = [] := fun i => by rw [segmentsFrom, if_pos rfl]
  simp only [hp, Option.bind_eq_bind, Option.bind_some, hm]
  rw [show v.offset.toNat % segmentSize = v.offset.toNat % 32 from rfl,
    show v.offset.toNat / segmentSize = v.offset.toNat / 32 from rfl, hz, hn]
  cases chk with
  | false => rfl
  | true =>
    simp only [if_true, List.mapM_cons, List.mapM_nil, hl]
    simp

/-- The write of a small variable: one read, one write. -/
theorem setVarBytes_one (chk : Bool) {acc : Acc} {id : BitVec 32} {v : RawVar} (hl : LayoutOk acc.layout)
    (hg : acc.layout.get id = some v) (hpos : 0 < v.byteSize.toNat) (h1 : OneBlock v) {value : Bytes}
    (hv : value.length = v.byteSize.toNat) :
    ∃ f : Bytes → Bytes, setVarBytes chk acc id value =
      (readSegment acc.addr ⟨BitVec.ofNat 32 (v.offset.toNat / 32), v.offset.toNat % 32,
        v.offset.toNat % 32 + v.byteSize.toNat - 1⟩).bind fun bytes =>
      .set (.seg acc.addr (BitVec.ofNat 32 (v.offset.toNat / 32))) (f bytes) (.ret ()) := by
  unfold OneBlock at h1
  have hn : Segment.len chk ⟨BitVec.ofNat 32 (v.offset.toNat / 32), v.offset.toNat % 32,
      v.offset.toNat % 32 + v.byteSize.toNat - 1⟩ = some v.byteSize.toNat := by
    unfold Segment.len
    rw [if_neg (by simp only [not_and]; omega)]
    simp only [Option.some.injEq]
    omega
  refine ⟨fun bytes => bytes.take (v.offset.toNat % 32) ++ ((value.take v.byteSize.toNat).take v.byteSize.toNat ++
    bytes.drop (v.offset.toNat % 32 + v.byteSize.toNat)), ?_⟩
  unfold setVarBytes
  rw [hg]
  show (if _ then _ else _) = _
  rw [if_neg (by omega), segmentsOffset_ok chk v (hl.bound id v hg)]
  show (Prog.ofOption (varSegments chk v.offset v.byteSize)).bind _ = _
  rw [varSegments_one chk hpos h1]
  show setLoop chk acc.addr [_] _ = _
  unfold setLoop
  simp only [Prog.bind_eq, hn]
  congr 1
  funext bytes
  show (if _ then _ else _) = _
  rw [if_pos ⟨by rw [List.length_take]; omega, by unfold segmentSize; omega⟩]
  rfl

/-- C132, for every state and any two small variables of an account in the same segment: there is a schedule
in which both writers return and the write of the second one is lost; its variable, like all others, reads
as before. -/
theorem C132_lost_write {h : Hasher} (hc : NoCollision h) {s : Storage} (hr : Reach h s) (chk : Bool)
    {acc : Acc} (ws : Bool → VarWrite) (vs : Bool → RawVar)
    (hok : ∀ i, (ws i).acc = acc ∧ (ws i).Ok (vs i)) (hone : ∀ i, OneBlock (vs i))
    (hsame : (vs false).offset.toNat / 32 = (vs true).offset.toNat / 32) :
    ∃ es : List (Turn Bool), Saving es ∧
      let r := runThreads h es (writers chk ws) s
      (∀ i, result (r.2 i) = some (.ok ())) ∧
      varOf h chk acc (ws false).id r.1 = .ok (ws false).value ∧
      ∀ id, id ≠ (ws false).id → varOf h chk acc id r.1 = varOf h chk acc id s := by
  have hp : ∀ i, 0 < (vs i).byteSize.toNat := fun i => by rw [← (hok i).2.size]; exact (hok i).2.pos
  have hsw := (hr.view hc).segOk
  obtain ⟨f, ef⟩ := setVarBytes_one chk (hok false).2.layout (hok false).2.var (hp false) (hone false)
    (hok false).2.size
  obtain ⟨g, eg⟩ := setVarBytes_one chk (hok true).2.layout (hok true).2.var (hp true) (hone true)
    (hok true).2.size
  rw [(hok false).1] at ef
  rw [(hok true).1, ← hsame] at eg
  have L0 : Leads h (writers chk ws false) s
      (.set (.seg acc.addr (BitVec.ofNat 32 ((vs false).offset.toNat / 32)))
        (f ((view h s (.seg acc.addr (BitVec.ofNat 32 ((vs false).offset.toNat / 32)))).getD zeroSegment))
        (.ret ())) s := by
    unfold writers
    rw [(hok false).1, ef]
    exact Leads.past hc (readOnly_readSegment _ _) (congrArg Prod.snd (readSegment_eval hsw _ _)) _
  have L1 : Leads h (writers chk ws true) s
      (.set (.seg acc.addr (BitVec.ofNat 32 ((vs false).offset.toNat / 32)))
        (g ((view h s (.seg acc.addr (BitVec.ofNat 32 ((vs false).offset.toNat / 32)))).getD zeroSegment))
        (.ret ())) s := by
    unfold writers
    rw [(hok true).1, eg]
    exact Leads.past hc (readOnly_readSegment _ _) (congrArg Prod.snd (readSegment_eval hsw _ _)) _
  have R := Reaches.refl h (writers chk ws) s
  have R := R.run false L0
  have R := R.run true L1
  have R := R.run true (Leads.set (Leads.refl (.ret ()) _))
  have R := R.run false (Leads.set (Leads.refl (.ret ()) _))
  obtain ⟨es, hs, he⟩ := R
  refine ⟨es, hs, ?_⟩
  have hview : view h (runThreads h es (writers chk ws) s).1 =
      view h (after h (setVarBytes chk acc (ws false).id (ws false).value) s) := by
    rw [he, view_after hc, ef, Prog.eval_bind_ok (readSegment_eval hsw _ _)]
    simp only [view_upsert hc, Prog.eval]
    funext k
    unfold View.set
    split <;> rfl
  have hvar : ∀ id, varOf h chk acc id (runThreads h es (writers chk ws) s).1 =
      varOf h chk acc id (after h (setVarBytes chk acc (ws false).id (ws false).value) s) := by
    intro id
    unfold varOf
    rw [out_eval hc, out_eval hc, hview]
  have hacc := (hok false).1
  refine ⟨?_, ?_, fun id hid => ?_⟩
  · rw [he]
    intro i
    cases i <;> rfl
  · rw [hvar]
    have := C15_read_after_write_vec hc hr chk (hok false).2.layout (hok false).2.var (hp false)
      (ws false).value (hok false).2.size
    rw [hacc] at this
    exact this
  · rw [hvar]
    have h16 := (C16_isolation hc hr chk (hacc ▸ (hok false).2.layout) (ws false).id (ws false).value).1
      acc id
    unfold varOf
    rw [out_eval hc, out_eval hc]
    unfold getVarVec
    cases hg : acc.layout.get id with
    | none => rfl
    | some v =>
      have := h16 (List.replicate v.byteSize.toNat 0) (.inr ⟨rfl, hid⟩)
      rw [out_eval hc, out_eval hc] at this
      exact this

/-- C132 is violated. -/
theorem C132_claim_false {h : Hasher} (hc : NoCollision h) : ¬ BothWritten h := by
  intro hcl
  let ws : Bool → VarWrite := fun i =>
    if i then ⟨exampleAcc, 6, [1, 2, 3, 4]⟩ else ⟨exampleAcc, 5, List.replicate 20 9⟩
  let vs : Bool → RawVar := fun i => if i then ⟨6, 20, 4⟩ else ⟨5, 0, 20⟩
  have hok : ∀ i, (ws i).acc = exampleAcc ∧ (ws i).Ok (vs i) := by
    intro i
    cases i
    · exact ⟨rfl, exampleLayout_ok, by decide, by decide, by decide⟩
    · exact ⟨rfl, exampleLayout_ok, by decide, by decide, by decide⟩
  obtain ⟨es, hs, hf, -, hlost⟩ := C132_lost_write hc .fresh true ws vs hok
    (by intro i; cases i <;> (show _ ≤ _) <;> decide) (by decide)
  have h1 := hcl _ true exampleAcc ws vs es .fresh hs hok (by decide) hf true
  rw [show (ws true).id = 6 from rfl, hlost 6 (by decide)] at h1
  unfold varOf at h1
  rw [out_eval hc, view_fresh] at h1
  revert h1
  decide +kernel

/-- Non-vacuity of C132_partial: the same variable of two accounts, and a checkpoint between the steps. -/
example {h : Hasher} (hc : NoCollision h) :
    let ws : Bool → VarWrite := fun i =>
      ⟨{ exampleAcc with addr := if i then exampleAddr 1 else exampleAddr 2 }, 6, [1, 2, 3, 4]⟩
    ∀ o, result ((runThreads h [.step true, .step false, .step true, .op (.checkpoint .id), .step false]
        (writers true ws) Svm.Storage.fresh).2 true) = some o → o = .ok () := by
  intro ws o ho
  refine ((C132_partial hc .fresh true ws (fun _ => ⟨6, 20, 4⟩)
    (fun i => ⟨exampleLayout_ok, by cases i <;> decide, rfl, by cases i <;> decide⟩) ?_ _ ?_).1 true o ho).1
  · intro i j hij e
    exfalso
    revert hij e
    cases i <;> cases j <;> decide
  · intro o ho
    simp only [List.mem_cons, reduceCtorEq, Turn.op.injEq, List.not_mem_nil, or_false, false_or] at ho
    subst ho
    trivial

/-! ## C133 -/

/-- A reader of a variable and a writer of it. -/
def readerWriter (chk : Bool) (acc : Acc) (id : BitVec 32) (value : Bytes) : Bool → Prog Bytes
  | false => getVarVec chk acc id
  | true => (setVarBytes chk acc id value).bind fun _ => .ret []

/-- C133 as claimed: a reader sees the variable as it was before or as it was after a write that happens at
the same time. -/
def OldOrNew (h : Hasher) : Prop :=
  ∀ (s : Storage) (chk : Bool) (w : VarWrite) (v : RawVar) (es : List (Turn Bool)) (old bytes : Bytes),
    Reach h s → Saving es → w.Ok v → varOf h chk w.acc w.id s = .ok old →
    result ((runThreads h es (readerWriter chk w.acc w.id w.value) s).2 false) = some (.ok bytes) →
    bytes = old ∨ bytes = w.value

/-- Programs of one read. -/
def OneRead {α : Type} (p : Prog α) : Prop := ∃ k f, p = .get k f ∧ ∀ v, (result (f v)).isSome

theorem section_done {α : Type} {h : Hasher} {p : Prog α} {o : Outcome SErr α} (hp : result p = some o)
    (s : Storage) : section_ h p s = (s, p) := by
  cases p with
  | ret | err | panic => rfl
  | get | set => cases hp

theorem done_stays {ι α : Type} [DecidableEq ι] (h : Hasher) (es : List (Turn ι)) (t : ι → Prog α)
    (s : Storage) (i : ι) {o : Outcome SErr α} (hp : result (t i) = some o) :
    (runThreads h es t s).2 i = t i := by
  induction es generalizing t s with
  | nil => rfl
  | cons e es ih =>
    cases e with
    | op => exact ih t _ hp
    | step j =>
      unfold runThreads
      have : (if i = j then (section_ h (t j) s).2 else t i) = t i := by
        by_cases e : i = j
        · subst e
          simp only [if_true, section_done hp]
        · exact if_neg e
      rw [ih _ _ (by rw [this]; exact hp), this]

/-- C133, any threads and any schedule, also with rollbacks and rewinds: what a program of one read returns
is what it returns alone at some moment of the schedule. -/
theorem C133_one_read {ι α : Type} [DecidableEq ι] (h : Hasher) (es : List (Turn ι)) (t : ι → Prog α)
    (s : Storage) (i : ι) (h1 : OneRead (t i)) {o : Outcome SErr α}
    (ho : result ((runThreads h es t s).2 i) = some o) :
    ∃ es₁ es₂, es = es₁ ++ es₂ ∧ o = out h (t i) (runThreads h es₁ t s).1 := by
  induction es generalizing t s with
  | nil =>
    obtain ⟨k, f, e, -⟩ := h1
    simp only [runThreads] at ho
    rw [e] at ho
    cases ho
  | cons e es ih =>
    cases e with
    | op p =>
      obtain ⟨a, b, e, r⟩ := ih t _ h1 ho
      exact ⟨.op p :: a, b, by rw [e]; rfl, r⟩
    | step j =>
      by_cases hj : i = j
      · subst hj
        obtain ⟨k, f, e, hf⟩ := h1
        refine ⟨[], .step i :: es, rfl, ?_⟩
        obtain ⟨o', ho'⟩ := Option.isSome_iff_exists.1 (hf (view h s k))
        have hsec : section_ h (t i) s = (s, f (view h s k)) := by
          rw [e]; simp only [section_, get_view]
        simp only [runThreads, hsec] at ho ⊢
        rw [done_stays h es _ s i (o := o') (by simp only [if_true]; exact ho')] at ho
        simp only [if_true] at ho
        have : out h (t i) s = o := by
          rw [e]
          unfold out
          simp only [Prog.run, get_view]
          revert ho
          cases f (view h s k) <;> intro ho <;> simp only [result, reduceCtorEq, Option.some.injEq] at ho <;>
            exact ho
        exact this.symm
      · have e1 : (if i = j then (section_ h (t j) s).2 else t i) = t i := if_neg hj
        obtain ⟨a, b, e, r⟩ := ih (fun k => if k = j then (section_ h (t j) s).2 else t k) _
          (by rw [e1]; exact h1) ho
        exact ⟨.step j :: a, b, by rw [e]; rfl, by rw [e1] at r; exact r⟩

theorem oneRead_map {α β : Type} (d : Dec α) (k : Key) (f : α → β) :
    OneRead ((readAndDecode d k).bind fun x => .ret (f x)) := by
  refine ⟨k, _, rfl, fun v => ?_⟩
  cases v with
  | none => rfl
  | some bs =>
    show (result (Prog.bind (match d bs with | .ok (a, _) => .ret a | .err _ => .err .illegalData
                                             | .panic => .panic) _)).isSome = true
    split <;> rfl

/-- C133, the getters are such programs. -/
theorem C133_getters (acc : Acc) :
    OneRead (name acc) ∧ OneRead (templateAddr acc) ∧ OneRead (balance acc) ∧ OneRead (counter acc) :=
  ⟨oneRead_map _ _ _, oneRead_map _ _ _, oneRead_map _ _ _, oneRead_map _ _ _⟩

theorem segment_len_one (chk : Bool) {v : RawVar} (hpos : 0 < v.byteSize.toNat) (i : BitVec 32) :
    Segment.len chk ⟨i, v.offset.toNat % 32, v.offset.toNat % 32 + v.byteSize.toNat - 1⟩ =
      some v.byteSize.toNat := by
  unfold Segment.len
  rw [if_neg (by simp only [not_and]; omega)]
  simp only [Option.some.injEq]
  omega

/-- C133, what holds: so is the reader of a variable inside of one segment. Missing: variables that reach
over the border of a segment. -/
theorem C133_partial (chk : Bool) {acc : Acc} {id : BitVec 32} {v : RawVar} (hl : LayoutOk acc.layout)
    (hg : acc.layout.get id = some v) (hpos : 0 < v.byteSize.toNat) (h1 : OneBlock v) (buf : Bytes)
    (hb : v.byteSize.toNat ≤ buf.length) : OneRead (getVar chk acc id buf) := by
  have hn := segment_len_one chk hpos (BitVec.ofNat 32 (v.offset.toNat / 32))
  unfold getVar
  rw [hg]
  show OneRead (if _ then _ else _)
  rw [if_neg (by omega), segmentsOffset_ok chk v (hl.bound id v hg)]
  show OneRead ((Prog.ofOption (varSegments chk v.offset v.byteSize)).bind _)
  rw [varSegments_one chk hpos h1]
  show OneRead ((getLoop chk acc.addr [_] _).bind _)
  refine ⟨_, _, rfl, fun b => ?_⟩
  show (result (((if _ then _ else _ : Prog Bytes).bind _).bind _)).isSome = true
  by_cases hb : (b.getD zeroSegment).length = segmentSize
  · rw [if_pos hb]
    show (result (((Prog.ofOption _).bind _).bind _)).isSome = true
    rw [hn]
    show (result ((if _ then _ else _ : Prog Bytes).bind _)).isSome = true
    split <;> rfl
  · rw [if_neg hb]; rfl

/-- C133, together: a reader of a small variable sees the bytes that the variable had at some moment. -/
theorem C133_small_partial {ι : Type} [DecidableEq ι] (h : Hasher) (chk : Bool) {acc : Acc}
    {id : BitVec 32} {v : RawVar} (hl : LayoutOk acc.layout) (hg : acc.layout.get id = some v)
    (hpos : 0 < v.byteSize.toNat) (h1 : OneBlock v) (es : List (Turn ι)) (t : ι → Prog Bytes)
    (s : Storage) (i : ι) (ht : t i = getVarVec chk acc id) {o : Outcome SErr Bytes}
    (ho : result ((runThreads h es t s).2 i) = some o) :
    ∃ es₁ es₂, es = es₁ ++ es₂ ∧ o = varOf h chk acc id (runThreads h es₁ t s).1 := by
  have : OneRead (t i) := by
    rw [ht]
    unfold getVarVec
    rw [hg]
    exact C133_partial chk hl hg hpos h1 _ (by simp)
  obtain ⟨a, b, e, r⟩ := C133_one_read h es t s i this ho
  exact ⟨a, b, e, by rw [r, ht]; rfl⟩

theorem varSegments_two (chk : Bool) {v : RawVar} (h2 : 32 < v.offset.toNat % 32 + v.byteSize.toNat) :
    ∃ rest, varSegments chk v.offset v.byteSize =
      some (⟨BitVec.ofNat 32 (v.offset.toNat / 32), v.offset.toNat % 32, 31⟩ :: rest) := by
  obtain ⟨segs, h1, -, -⟩ := varSegments_spec chk v.offset v.byteSize (by omega)
  have hp : predUsize chk (v.offset.toNat % segmentSize + v.byteSize.toNat) =
      some (v.offset.toNat % 32 + v.byteSize.toNat - 1) := by
    unfold predUsize segmentSize
    rw [if_neg (by omega)]
  have hm : min (v.offset.toNat % 32 + v.byteSize.toNat - 1) (segmentSize - 1) = 31 := by
    unfold segmentSize; omega
  have e := h1
  unfold varSegments at e
  simp only [hp, Option.bind_eq_bind, Option.bind_some, hm] at e
  rw [h1]
  cases chk with
  | false =>
    simp only [Bool.false_eq_true, if_false, Option.some.injEq] at e
    exact ⟨_, congrArg some e.symm⟩
  | true =>
    simp only [if_true, Option.bind_eq_some_iff] at e
    obtain ⟨lens, -, e⟩ := e
    split at e
    · simp only [Option.some.injEq] at e
      exact ⟨_, congrArg some e.symm⟩
    · cases e

/-- C133, for every state, every variable that reaches over the border of a segment and every new value:
there is a schedule in which the reader returns the old bytes up to the border and the new ones after it. -/
theorem C133_torn {h : Hasher} (hc : NoCollision h) {s : Storage} (hr : Reach h s) (chk : Bool)
    {w : VarWrite} {v : RawVar} (hok : w.Ok v) (h2 : 32 < v.offset.toNat % 32 + v.byteSize.toNat)
    {old : Bytes} (hold : varOf h chk w.acc w.id s = .ok old) :
    ∃ es : List (Turn Bool), Saving es ∧
      let r := runThreads h es (readerWriter chk w.acc w.id w.value) s
      result (r.2 true) = some (.ok []) ∧
      result (r.2 false) = some (.ok (old.take (32 - v.offset.toNat % 32) ++
        w.value.drop (32 - v.offset.toNat % 32))) := by
  have hpos : 0 < v.byteSize.toNat := by rw [← hok.size]; exact hok.pos
  have hbd := hok.layout.bound _ _ hok.var
  have hsw := (hr.view hc).segOk
  obtain ⟨w', ew, hsw', -, hcell⟩ := setVarBytes_eval chk hsw hok.var hpos hbd w.value (by rw [hok.size])
  obtain ⟨rest, hseg⟩ := varSegments_two chk (v := v) h2
  obtain ⟨segs, hs1, hs2, hs3⟩ := varSegments_spec chk v.offset v.byteSize hpos
  rw [hseg] at hs1
  cases hs1
  generalize hgdef : (⟨BitVec.ofNat 32 (v.offset.toNat / 32), v.offset.toNat % 32, 31⟩ : Segment) = g at *
  have hgok := hs2 g List.mem_cons_self
  have hn : g.positions.length = 32 - v.offset.toNat % 32 := by
    rw [← hgdef]; simp [Segment.positions]
  have hlen : g.len chk = some (32 - v.offset.toNat % 32) := by
    rw [← hgdef]
    unfold Segment.len
    rw [if_neg (by simp only [not_and]; omega)]
  generalize hN : 32 - v.offset.toNat % 32 = n at *
  have hnle : n ≤ v.byteSize.toNat := by omega
  have hrl : (rest.flatMap Segment.positions).length = v.byteSize.toNat - n := by
    have := congrArg List.length hs3
    simp only [List.flatMap_cons, List.length_append, List.length_map, List.length_range] at this
    omega
  have hcells : ∀ u : View, cells u w.acc.addr v.offset.toNat v.byteSize.toNat =
      g.positions.map (cell u w.acc.addr) ++ (rest.flatMap Segment.positions).map (cell u w.acc.addr) := by
    intro u
    rw [← List.map_append, ← List.flatMap_cons, hs3, List.map_map]
    rfl
  -- the old value
  have hold' : old = cells (view h s) w.acc.addr v.offset.toNat v.byteSize.toNat := by
    unfold varOf at hold
    rw [out_eval hc] at hold
    unfold getVarVec at hold
    rw [hok.var, Prog.bind_eq, Prog.eval_bind_ok (Prog.eval_ofOption_some _ _),
      getVar_eval chk hsw hok.var hpos hbd _ (by simp)] at hold
    simp only [Outcome.ok.injEq] at hold
    rw [← hold]
    simp
  -- the new value
  have hnew : w.value = cells w' w.acc.addr v.offset.toNat v.byteSize.toNat := by
    apply List.ext_getElem
    · simp [cells, hok.size]
    · intro j hj _
      have hj' : j < v.byteSize.toNat := by rw [← hok.size]; exact hj
      simp only [cells, List.getElem_map, List.getElem_range]
      rw [hcell _ (by omega), if_pos (by omega), List.getD_eq_getElem?_getD,
        Nat.add_sub_cancel_left, List.getElem?_eq_getElem hj]
      rfl
  -- the reader, past the first segment
  have L0 : Leads h (getVarVec chk w.acc w.id) s
      (((getLoop chk w.acc.addr rest ((List.replicate v.byteSize.toNat 0).drop n)).bind fun tail =>
        .ret ((((view h s (.seg w.acc.addr g.index)).getD zeroSegment).drop g.start).take n ++ tail)).bind
        fun out => .ret (out ++ [])) s := by
    unfold getVarVec
    rw [hok.var]
    show Leads h (getVar chk w.acc w.id _) s _ s
    unfold getVar
    rw [hok.var]
    show Leads h (if _ then _ else _) s _ s
    rw [if_neg (by simp), segmentsOffset_ok chk v hbd]
    show Leads h ((Prog.ofOption (varSegments chk v.offset v.byteSize)).bind _) s _ s
    rw [hseg]
    show Leads h ((getLoop chk w.acc.addr (g :: rest) _).bind _) s _ s
    have e1 : (List.replicate v.byteSize.toNat (0 : UInt8)).take v.byteSize.toNat =
        List.replicate v.byteSize.toNat 0 := List.take_of_length_le (by simp)
    have e2 : (List.replicate v.byteSize.toNat (0 : UInt8)).drop v.byteSize.toNat = [] :=
      List.drop_eq_nil_of_le (by simp)
    rw [e1, e2]
    refine Leads.bind ?_ _
    have := Leads.past hc (readOnly_readSegment w.acc.addr g) (congrArg Prod.snd (readSegment_eval hsw _ g))
      fun bytes => (Prog.ofOption (g.len chk)).bind fun n =>
        if n ≤ (List.replicate v.byteSize.toNat (0 : UInt8)).length ∧ g.stop < segmentSize then
          (getLoop chk w.acc.addr rest ((List.replicate v.byteSize.toNat 0).drop n)).bind fun tail =>
            .ret ((bytes.drop g.start).take n ++ tail)
        else .panic
    have e3 : n ≤ (List.replicate v.byteSize.toNat (0 : UInt8)).length ∧ g.stop < segmentSize :=
      ⟨by simpa using hnle, hgok.2⟩
    have e4 : ∀ bytes : Bytes, ((Prog.ofOption (g.len chk)).bind fun n =>
        if n ≤ (List.replicate v.byteSize.toNat (0 : UInt8)).length ∧ g.stop < segmentSize then
          (getLoop chk w.acc.addr rest ((List.replicate v.byteSize.toNat 0).drop n)).bind fun tail =>
            .ret ((bytes.drop g.start).take n ++ tail)
        else .panic : Prog Bytes) =
        (getLoop chk w.acc.addr rest ((List.replicate v.byteSize.toNat 0).drop n)).bind fun tail =>
            .ret ((bytes.drop g.start).take n ++ tail) := fun bytes => by
      rw [hlen]; exact if_pos e3
    rw [e4] at this
    exact this
  -- the writer
  have L1 : Leads h (readerWriter chk w.acc w.id w.value true) s (.ret [])
      (after h (setVarBytes chk w.acc w.id w.value) s) :=
    (Leads.of_ok (a := ()) (by rw [out_eval hc, ew])).bind fun _ => .ret []
  have hv1 : view h (after h (setVarBytes chk w.acc w.id w.value) s) = w' := by
    rw [view_after hc, ew]
  -- the rest of the reader
  have L2 := (Leads.past hc (readOnly_getLoop chk w.acc.addr rest
      ((List.replicate v.byteSize.toNat 0).drop n)) (s := after h (setVarBytes chk w.acc w.id w.value) s)
      (by
        rw [hv1, getLoop_eval chk hsw' w.acc.addr rest (fun g hg => hs2 g (List.mem_cons_of_mem _ hg)) _
          (by rw [hrl]; simp)])
      (fun tail => .ret ((((view h s (.seg w.acc.addr g.index)).getD zeroSegment).drop g.start).take n ++
        tail))).bind fun out => .ret (out ++ [])
  have R := Reaches.refl h (readerWriter chk w.acc w.id w.value) s
  have R := R.run false L0
  have R := R.run true L1
  have R := R.run false L2
  obtain ⟨es, hs, he⟩ := R
  refine ⟨es, hs, ?_⟩
  simp only [he]
  refine ⟨rfl, ?_⟩
  show some (Outcome.ok _) = _
  congr 2
  have hseg1 := segment_cells hsw w.acc.addr hgok
  rw [hn] at hseg1
  have hd : ((List.replicate v.byteSize.toNat (0 : UInt8)).drop n).drop
      (rest.flatMap Segment.positions).length = [] := List.drop_eq_nil_of_le (by rw [hrl]; simp)
  rw [hseg1, hd, List.append_nil, List.append_nil, hold', hnew, hcells, hcells,
    List.take_left' (by rw [List.length_map, hn]), List.drop_left' (by rw [List.length_map, hn])]

/-- C133 is violated. -/
theorem C133_claim_false {h : Hasher} (hc : NoCollision h) : ¬ OldOrNew h := by
  intro hcl
  have hok : (⟨exampleAcc, 7, List.replicate 50 1⟩ : VarWrite).Ok ⟨7, 24, 50⟩ :=
    ⟨exampleLayout_ok, by decide, by decide, by decide⟩
  have hold : varOf h true exampleAcc 7 Svm.Storage.fresh = .ok (List.replicate 50 0) := by
    unfold varOf
    rw [out_eval hc, view_fresh]
    decide +kernel
  obtain ⟨es, hs, -, hf⟩ := C133_torn hc .fresh true hok (by decide) hold
  have := hcl _ true _ _ es _ _ .fresh hs hok hold hf
  revert this
  decide +kernel

/-! ## C134 -/

/-- The balance of an account at a layer (C128). -/
def balAt (h : Hasher) (q : BitVec 64) (s : Storage) (a : Addr) : Option U64 :=
  match outAt h (some q) (balance (handle a)) s with
  | .ok b => some b
  | _ => none

/-- C134 as claimed: while one thread makes a payment, another client makes layers. In each new layer the two
accounts together have what they had. -/
def WholePayments (h : Hasher) : Prop :=
  ∀ (s : Storage) (chk : Bool) (src dst : Addr) (amount : U64) (es : List (Turn Unit)) (q : BitVec 64)
    (b d b' d' : U64), Reach h s → Saving es → src ≠ dst →
    result ((runThreads h es (fun _ => transfer chk src dst amount) s).2 ()) = some (.ok ()) →
    s.next.id ≤ q.toInt →
    q.toInt < (runThreads h es (fun _ => transfer chk src dst amount) s).1.next.id →
    bal h s src = some b → bal h s dst = some d →
    balAt h q (runThreads h es (fun _ => transfer chk src dst amount) s).1 src = some b' →
    balAt h q (runThreads h es (fun _ => transfer chk src dst amount) s).1 dst = some d' →
    b'.toNat + d'.toNat = b.toNat + d.toNat

/-- C134, for every state in which a payment can be made: there is a schedule in which the payment returns
and another client has made a layer with the debit and without the credit. -/
theorem C134_half {h : Hasher} (hc : NoCollision h) {s : Storage} (hr : Reach h s) {chk : Bool}
    {src dst : Addr} (hne : src ≠ dst) {amount : U64}
    (ho : out h (transfer chk src dst amount) s = .ok ()) {q : BitVec 64} (hq : q.toInt = s.next.id) :
    ∃ es : List (Turn Unit), Saving es ∧
      let r := runThreads h es (fun _ => transfer chk src dst amount) s
      result (r.2 ()) = some (.ok ()) ∧ q.toInt < r.1.next.id ∧
      ∃ b d b' : U64, bal h s src = some b ∧ bal h s dst = some d ∧
        balAt h q r.1 src = some b' ∧ balAt h q r.1 dst = some d ∧ b'.toNat + amount.toNat = b.toNat := by
  obtain ⟨sa, da, ds, dd, a1, a2, m1, m2, l1, l2, L0⟩ := transfer_leads hc ho
  rw [moveCoins_eq l1 l2] at L0
  have e1 := unwrap_ok.2 (setBalance_eval (acc := sa) (show money (view h s) sa.addr = some ds by
    rw [a1, m1]) (ds.balance - amount))
  have hsafe : ∀ acc b, ((setBalance acc b).unwrap).Safe := fun acc b => (safe_setBalance acc b).unwrap
  have hr1 : Reach h (after h (setBalance sa (ds.balance - amount)).unwrap s) := .prog _ (hsafe _ _) hr
  have v1 := view_after hc (setBalance sa (ds.balance - amount)).unwrap s
  rw [e1, a1] at v1
  have n1 : (after h (setBalance sa (ds.balance - amount)).unwrap s).next.id = s.next.id := by
    have := (Prog.runAt_frame h none (setBalance sa (ds.balance - amount)).unwrap s).2
    unfold afterAt at this
    rw [Prog.runAt_none] at this
    unfold after
    rw [this]
  have L1 := (Leads.of_ok (h := h) (p := (setBalance sa (ds.balance - amount)).unwrap) (s := s) (a := ())
    (by rw [out_eval hc, e1])).bind fun _ => (setBalance da (dd.balance + amount)).unwrap.bind .ret
  generalize hs1 : after h (setBalance sa (ds.balance - amount)).unwrap s = s1 at *
  obtain ⟨s2, fp, hcm, hpub⟩ := publish (hr1.ok hc).1 h .id .id
  have hr2 : Reach h s2 := by
    have := reach_commit (reach_checkpoint hr1 .id) .id
    rw [hcm] at this
    exact this
  have v2 : view h s2 = view h s1 := by funext k; exact hpub.now _
  have e2 := unwrap_ok.2 (setBalance_eval (acc := da) (show money (view h s2) da.addr = some dd by
    rw [v2, v1, a2, money_set, if_neg (Ne.symm hne), m2]) (dd.balance + amount))
  have L2 := (Leads.of_ok (h := h) (p := (setBalance da (dd.balance + amount)).unwrap) (s := s2) (a := ())
    (by rw [out_eval hc, e2])).bind (.ret : Unit → Prog Unit)
  have R := Reaches.refl h (fun _ : Unit => transfer chk src dst amount) s
  have R := R.run () L0
  have R := R.run () L1
  have R := R.op (.checkpoint .id) trivial
  have R := R.op (.commit .id) trivial
  have hst : (Svm.Storage.step h (Svm.Storage.step h s1 (.checkpoint .id)).1 (.commit .id)).1 = s2 := by
    show (Svm.Storage.commit .id (Svm.Storage.checkpoint h .id s1)).1 = s2
    rw [hcm]
  rw [hst] at R
  have R := R.run () L2
  obtain ⟨es, hs, he⟩ := R
  refine ⟨es, hs, ?_⟩
  simp only [he]
  have hlater : Later h s1.next.id s2 (after h (setBalance da (dd.balance + amount)).unwrap s2) := by
    have := Later.prog (h := h) (L := s1.next.id) none (setBalance da (dd.balance + amount)).unwrap
      (hsafe _ _) (.refl (s := s2))
    unfold afterAt at this
    rw [Prog.runAt_none] at this
    exact this
  have hq1 : q.toInt = s1.next.id := by rw [n1, hq]
  have hat : ∀ a, balAt h q (after h (setBalance da (dd.balance + amount)).unwrap s2) a = bal h s2 a := by
    intro a
    unfold balAt bal
    rw [← hq1] at hcm hlater
    have := (C128_records_partial hc (reach_checkpoint hr1 .id) hcm hlater true (handle a) a).1
    unfold fieldsAt fields at this
    simp only [Prod.mk.injEq] at this
    rw [this.2.2.1]
    cases out h (balance (handle a)) s2 <;> rfl
  refine ⟨rfl, ?_, ds.balance, dd.balance, ds.balance - amount, ?_, ?_, ?_, ?_, ?_⟩
  · have h1 := (kept_later (hr2.ok hc).1 (L := s1.next.id) ?_ hlater).2.lt
    · rw [hq1]; exact h1
    · have hn2 : s2.next.id = s1.next.id + 1 := by
        have hd : (Svm.Storage.checkpoint h .id s1).dirty = [] := by rw [Svm.Storage.checkpoint_eq]
        have hi := Svm.Storage.inv_step h (hr1.ok hc).1 (.checkpoint .id) trivial
        obtain ⟨prev, _, hx⟩ := Svm.Storage.commit_ok hi hd .id
        have hx' : Svm.Storage.commit .id (Svm.Storage.checkpoint h .id s1) = _ := hx
        rw [hcm] at hx'
        have := congrArg Prod.fst hx'
        simp only at this
        rw [this]
        show (Svm.Storage.checkpoint h .id s1).next.id + 1 = _
        rw [Svm.Storage.checkpoint_eq]
      omega
  · rw [bal_money hc, m1]; rfl
  · rw [bal_money hc, m2]; rfl
  · rw [hat, bal_money hc, v2, v1, money_set, if_pos rfl]; rfl
  · rw [hat, bal_money hc, v2, v1, money_set, if_neg (Ne.symm hne), m2]; rfl
  · rw [toNat_sub l1]; omega

/-- C134 is violated. -/
theorem C134_claim_false {h : Hasher} (hc : NoCollision h) : ¬ WholePayments h := by
  intro hcl
  have hn : (demo h 10 5).next.id = -1 := by
    have := (Prog.runAt_frame h none (demoSetup 10 5) Svm.Storage.fresh).2
    unfold afterAt at this
    rw [Prog.runAt_none] at this
    unfold demo after
    rw [this]
    rfl
  obtain ⟨es, hs, hf, hlt, b, d, b', e1, e2, e3, e4, e5⟩ := C134_half hc (reach_demo h 10 5) (chk := true)
    (show exampleAddr 1 ≠ exampleAddr 2 by decide) (demo_transfers hc 3 (.inl rfl))
    (q := 0xFFFFFFFFFFFFFFFF) (by rw [hn]; decide)
  have := hcl _ true _ _ 3 es _ b d b' d (reach_demo h 10 5) hs (by decide) hf (by rw [hn]; decide) hlt e1 e2 e3 e4
  have h3 : (3 : U64).toNat = 3 := rfl
  omega

/-- Operations of a client that commits but does not make checkpoints. -/
def CommitsOnly : Op → Prop
  | .commit _ => True
  | .get _ _ => True
  | .lastLayer => True
  | .hasUncommitted => True
  | _ => False

/-- C134, what holds: any threads with any programs, and clients that commit without a checkpoint. Every
layer made during the schedule holds what could be read at its beginning, so nothing of the threads; and
after any write no layer is made. Missing: clients that make checkpoints. -/
theorem C134_partial {ι α : Type} [DecidableEq ι] {h : Hasher} (hc : NoCollision h) {s : Storage}
    (hr : Reach h s) (t : ι → Prog α) (es : List (Turn ι)) (hs : ∀ o, .op o ∈ es → CommitsOnly o) :
    let r := (runThreads h es t s).1
    (∀ l, s.next.id ≤ l → l < r.next.id → ∀ k : Key, Storage.get h r k.text (some l) = .ok (view h s k)) ∧
    (∀ l, l < s.next.id → ∀ key, Storage.get h r key (some l) = Storage.get h s key (some l)) := by
  intro r
  have key : ∀ (es : List (Turn ι)) (t : ι → Prog α) (s' : Storage), (∀ o, .op o ∈ es → CommitsOnly o) →
      Inv s' → s.next.id ≤ s'.next.id → (s'.dirty = [] → view h s' = view h s) →
      (∀ l, s.next.id ≤ l → l < s'.next.id → ∀ k : Key, Storage.get h s' k.text (some l) = .ok (view h s k)) →
      (∀ l, l < s.next.id → ∀ key, Storage.get h s' key (some l) = Storage.get h s key (some l)) →
      (∀ l, s.next.id ≤ l → l < (runThreads h es t s').1.next.id → ∀ k : Key,
        Storage.get h (runThreads h es t s').1 k.text (some l) = .ok (view h s k)) ∧
      (∀ l, l < s.next.id → ∀ key,
        Storage.get h (runThreads h es t s').1 key (some l) = Storage.get h s key (some l)) := by
    intro es
    induction es with
    | nil => exact fun t s' _ _ _ _ h1 h2 => ⟨h1, h2⟩
    | cons e es ih =>
      intro t s' hs hi hn hd h1 h2
      have hs' : ∀ o, .op o ∈ es → CommitsOnly o := fun o ho => hs o (List.mem_cons_of_mem _ ho)
      cases e with
      | op o =>
        have ho := hs o List.mem_cons_self
        cases o with
        | get | lastLayer | hasUncommitted => exact ih t s' hs' hi hn hd h1 h2
        | upsert | rollback | rewind | checkpoint => exact ho.elim
        | commit ord =>
          have hrun : runThreads h (.op (.commit ord) :: es) t s' =
              runThreads h es t (Svm.Storage.commit ord s').1 := rfl
          rw [hrun]
          by_cases hdd : s'.dirty = []
          · have hcp : Svm.Storage.checkpoint h .id s' = s' := by
              rw [Svm.Storage.checkpoint_eq, hdd]
              obtain ⟨db, d, n⟩ := s'
              simp only at hdd
              subst hdd
              rfl
            obtain ⟨s2, fp, hcm, hpub⟩ := publish hi h .id ord
            rw [hcp] at hcm
            obtain ⟨prev, _, hx⟩ := Svm.Storage.commit_ok hi hdd ord
            have hn2 : s2.next.id = s'.next.id + 1 := by
              rw [hcm] at hx
              have := congrArg Prod.fst hx
              simp only at this
              rw [this]
            have hi2 : Inv s2 := by
              have := Svm.Storage.inv_step h hi (.commit ord) trivial
              have e : (Svm.Storage.step h s' (.commit ord)).1 = (Svm.Storage.commit ord s').1 := rfl
              rw [e, hcm] at this
              exact this
            have hv2 : view h s2 = view h s' := by funext k; exact hpub.now _
            rw [hcm]
            refine ih t s2 hs' hi2 (by omega) (fun _ => by rw [hv2, hd hdd]) ?_ ?_
            · intro l hl hl2 k
              by_cases hlast : l = s'.next.id
              · subst hlast
                have := hpub.newLayer (h.hash k.text)
                show Svm.Storage.getByHash s2 (h.hash k.text) (some s'.next.id) = _
                rw [this, ← hd hdd]
                rfl
              · have := hpub.old (h.hash k.text) l (by omega)
                show Svm.Storage.getByHash s2 (h.hash k.text) (some l) = _
                rw [this]
                exact h1 l hl (by omega) k
            · intro l hl key
              have := hpub.old (h.hash key) l (by omega)
              show Svm.Storage.getByHash s2 (h.hash key) (some l) = _
              rw [this]
              exact h2 l hl key
          · rw [Svm.Storage.commit_dirty hdd]
            exact ih t s' hs' hi hn hd h1 h2
      | step i =>
        unfold runThreads
        obtain ⟨f1, f2⟩ := section_frame h (t i) s'
        have hget : ∀ key l, Storage.get h (section_ h (t i) s').1 key (some l) =
            Storage.get h s' key (some l) := by
          intro key l
          unfold Storage.get Svm.Storage.getByHash
          simp only [f1, f2]
        refine ih _ _ hs' (section_inv _ hi) (by rw [f2]; exact hn) ?_ ?_ ?_
        · cases hp : t i with
          | ret | err | panic => exact hd
          | get k f =>
            simp only [section_, get_view]
            exact hd
          | set k v p =>
            intro hdd
            exact absurd hdd (List.cons_ne_nil _ _)
        · intro l hl hl2 k
          rw [hget]
          exact h1 l hl (by rw [f2] at hl2; exact hl2) k
        · intro l hl key
          rw [hget]
          exact h2 l hl key
  exact key es t s hs (hr.ok hc).1 (Int.le_refl _) (fun _ => rfl) (fun l h1 h2 => by omega) fun _ _ _ => rfl

end Svm.Runtime
