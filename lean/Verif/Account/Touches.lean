import Verif.Account.Props

/-!
# Keys that an access to a variable touches (C154)

`get_var` and `set_var_bytes` (`crates/host/state/src/account_storage.rs:115-147` and 203-238) read and write
whole segments of 32 bytes. Their model is in `Account.Model`; here are the keys that they touch, in order.
-/

namespace Svm.Account.Touches

open Svm.Codec Svm.Account
open Svm.Layout (FixedLayout RawVar)
open Svm.Storage (Hasher Storage)

/-! ## Spec -/

/-- A call of `get` or `upsert` of the storage. -/
inductive Access where
  | read (k : Key)
  | write (k : Key)
  deriving DecidableEq

/-- The accesses of a program, in order. -/
def trace {α : Type} : Prog α → View → List Access
  | .ret _, _ => []
  | .err _, _ => []
  | .panic _, _ => []
  | .get k f, w => .read k :: trace (f (w k)) w
  | .set k v p, w => .write k :: trace p (w.set k v)

/-- Byte `q` of the variables of an account is in segment `q / 32`: the segments of a range of bytes, in
order, without repetitions. -/
def IsSegments (offset size : Nat) (l : List (BitVec 32)) : Prop :=
  l.Pairwise (· < ·) ∧ ∀ i, i ∈ l ↔ ∃ q, offset ≤ q ∧ q < offset + size ∧ i.toNat = q / 32

/-! ## Lemmas -/

theorem trace_bind {α β : Type} (p : Prog α) (f : α → Prog β) (w : View) :
    trace (p.bind f) w = trace p w ++
      match p.eval w with
      | (w', .ok a) => trace (f a) w'
      | _ => [] := by
  induction p generalizing w with
  | ret | err | panic => rfl
  | get k g ih => exact congrArg _ (ih _ w)
  | set k v p ih => exact congrArg _ (ih _)

theorem trace_bind_ok {α β : Type} {p : Prog α} {f : α → Prog β} {w w' : View} {a : α}
    (h : p.eval w = (w', .ok a)) : trace (p.bind f) w = trace p w ++ trace (f a) w' := by
  rw [trace_bind, h]

theorem trace_ofOption {α β : Type} {o : Option α} {a : α} {f : α → Prog β} {w : View} (h : o = some a) :
    trace ((Prog.ofOption o).bind f) w = trace (f a) w := by
  subst h
  rfl

theorem trace_readSegment (a : Addr) (s : Segment) (w : View) :
    trace (readSegment a s) w = [.read (.seg a s.index)] := by
  show _ :: trace (if _ then _ else _) w = _
  split <;> rfl

theorem trace_getLoop (chk : Bool) {w : View} (hw : SegOk w) (a : Addr) (segs : List Segment)
    (hs : ∀ s ∈ segs, s.Ok) (var : Bytes) (hlen : (segs.flatMap Segment.positions).length ≤ var.length) :
    trace (getLoop chk a segs var) w = segs.map fun s => .read (.seg a s.index) := by
  induction segs generalizing var with
  | nil => rfl
  | cons s segs ih =>
    have hok := hs s List.mem_cons_self
    simp only [List.flatMap_cons, List.length_append] at hlen
    have hpl : s.positions.length = s.stop + 1 - s.start := by simp [Segment.positions]
    unfold getLoop
    simp only [Prog.bind_eq]
    rw [trace_bind_ok (readSegment_eval hw a s), trace_readSegment, trace_ofOption (len_ok hok),
      if_pos ⟨by omega, hok.2⟩]
    have hs' := fun t h => hs t (List.mem_cons_of_mem s h)
    have hl' : (segs.flatMap Segment.positions).length ≤ (var.drop (s.positions.length)).length := by
      rw [List.length_drop]; omega
    rw [trace_bind_ok (getLoop_eval chk hw a segs hs' _ hl'), ih hs' _ hl']
    simp [trace]

theorem trace_setLoop (chk : Bool) {w : View} (hw : SegOk w) (a : Addr) (segs : List Segment)
    (hs : ∀ s ∈ segs, s.Ok) (value : Bytes)
    (hlen : (segs.flatMap Segment.positions).length ≤ value.length) :
    trace (setLoop chk a segs value) w =
      segs.flatMap fun s => [.read (.seg a s.index), .write (.seg a s.index)] := by
  induction segs generalizing w value with
  | nil => rfl
  | cons s segs ih =>
    have hok := hs s List.mem_cons_self
    simp only [List.flatMap_cons, List.length_append] at hlen
    have hpl : s.positions.length = s.stop + 1 - s.start := by simp [Segment.positions]
    unfold setLoop
    simp only [Prog.bind_eq]
    rw [trace_bind_ok (readSegment_eval hw a s), trace_readSegment, trace_ofOption (len_ok hok),
      if_pos ⟨by omega, hok.2⟩, trace_bind_ok (Prog.eval_write _ _ _)]
    have hs' := fun t h => hs t (List.mem_cons_of_mem s h)
    rw [ih (segOk_set hw _ _ ?_) hs' _ (by rw [List.length_drop]; omega)]
    · rfl
    · have h1 := segment_length hw a s.index
      have h2 := hok.1
      have h3 := hok.2
      simp only [List.length_append, List.length_take, List.length_drop] at *
      omega

theorem segmentsFrom_index (index remaining : Nat) :
    (segmentsFrom index remaining).map (·.index) =
      (List.range ((remaining + 31) / 32)).map fun j => BitVec.ofNat 32 (index + 1 + j) := by
  induction remaining using Nat.strongRecOn generalizing index with
  | ind r ih =>
    rw [segmentsFrom]
    split
    · rename_i h0
      subst h0
      rfl
    · rename_i h0
      rw [List.map_cons, ih (r - segmentSize) (by simp only [segmentSize]; omega)]
      have e : (r + 31) / 32 = (r - segmentSize + 31) / 32 + 1 := by simp only [segmentSize]; omega
      rw [e, List.range_succ_eq_map, List.map_cons, List.map_map]
      congr 1
      apply List.map_congr_left
      intro j _
      simp only [Function.comp]
      congr 1
      omega

theorem varSegments_index {chk : Bool} {offset size : BitVec 32} (hpos : 0 < size.toNat) {segs : List Segment}
    (h : varSegments chk offset size = some segs) :
    segs.map (·.index) = (List.range ((offset.toNat + size.toNat - 1) / 32 - offset.toNat / 32 + 1)).map fun j =>
      BitVec.ofNat 32 (offset.toNat / 32 + j) := by
  have hp : predUsize chk (offset.toNat % segmentSize + size.toNat) =
      some (offset.toNat % segmentSize + size.toNat - 1) := by
    unfold predUsize
    rw [if_neg (by omega)]
  unfold varSegments at h
  simp only [hp, Option.bind_eq_bind, Option.bind_some] at h
  have hs : segs = ⟨BitVec.ofNat 32 (offset.toNat / segmentSize), offset.toNat % segmentSize,
      min (offset.toNat % segmentSize + size.toNat - 1) (segmentSize - 1)⟩ ::
    segmentsFrom (offset.toNat / segmentSize) (size.toNat -
      (min (offset.toNat % segmentSize + size.toNat - 1) (segmentSize - 1) + 1 - offset.toNat % segmentSize)) := by
    split at h
    · obtain ⟨lens, -, h⟩ := Option.bind_eq_some_iff.1 h
      split at h
      · exact (Option.some.inj h).symm
      · cases h
    · exact (Option.some.inj h).symm
  subst hs
  rw [List.map_cons, segmentsFrom_index]
  simp only [segmentSize]
  rw [List.range_succ_eq_map, List.map_cons, List.map_map]
  have e : (size.toNat - (min (offset.toNat % 32 + size.toNat - 1) (32 - 1) + 1 - offset.toNat % 32) + 31) / 32 =
      (offset.toNat + size.toNat - 1) / 32 - offset.toNat / 32 := by omega
  rw [e]
  congr 1
  apply List.map_congr_left
  intro j _
  simp only [Function.comp]
  congr 1
  omega

/-- The indices of the segments of a variable. -/
def touched (v : RawVar) : List (BitVec 32) :=
  (List.range ((v.offset.toNat + v.byteSize.toNat - 1) / 32 - v.offset.toNat / 32 + 1)).map fun j =>
    BitVec.ofNat 32 (v.offset.toNat / 32 + j)

/-! ## C154 -/

/-- The list is the specified one, and has at most `(n + 30) / 32 + 1` elements for `n` bytes. -/
theorem C154_segments (v : RawVar) (hpos : 0 < v.byteSize.toNat)
    (hb : v.offset.toNat + v.byteSize.toNat < 2 ^ 32) :
    IsSegments v.offset.toNat v.byteSize.toNat (touched v) ∧
      (touched v).length ≤ (v.byteSize.toNat + 30) / 32 + 1 := by
  have hi : ∀ j < (v.offset.toNat + v.byteSize.toNat - 1) / 32 - v.offset.toNat / 32 + 1,
      (BitVec.ofNat 32 (v.offset.toNat / 32 + j)).toNat = v.offset.toNat / 32 + j := by
    intro j hj
    rw [BitVec.toNat_ofNat]
    exact Nat.mod_eq_of_lt (by omega)
  refine ⟨⟨?_, ?_⟩, by simp [touched]; omega⟩
  · unfold touched
    rw [List.pairwise_map]
    refine List.Pairwise.imp_of_mem ?_ List.pairwise_lt_range
    intro a b ha hb' hab
    rw [BitVec.lt_def, hi a (List.mem_range.1 ha), hi b (List.mem_range.1 hb')]
    omega
  · intro i
    unfold touched
    rw [List.mem_map]
    constructor
    · rintro ⟨j, hj, rfl⟩
      rw [List.mem_range] at hj
      rw [hi j hj]
      by_cases h0 : j = 0
      · exact ⟨v.offset.toNat, by omega, by omega, by omega⟩
      · exact ⟨32 * (v.offset.toNat / 32 + j), by omega, by omega, by omega⟩
    · rintro ⟨q, h1, h2, h3⟩
      have hj : i.toNat - v.offset.toNat / 32 <
          (v.offset.toNat + v.byteSize.toNat - 1) / 32 - v.offset.toNat / 32 + 1 := by omega
      refine ⟨i.toNat - v.offset.toNat / 32, List.mem_range.2 hj, ?_⟩
      apply BitVec.eq_of_toNat_eq
      rw [hi _ hj]
      omega

section
variable {h : Hasher} (hc : NoCollision h) {s : Storage} (hr : Reach h s) (chk : Bool) {acc : Acc}
  (hl : LayoutOk acc.layout) {id : BitVec 32} {v : RawVar} (hg : acc.layout.get id = some v)
  (hpos : 0 < v.byteSize.toNat)
include hc hr hl hg hpos

/-- A read of a variable reads each of its segments once, and nothing else, whatever they contain. -/
theorem C154_read (buf : Bytes) (hb : v.byteSize.toNat ≤ buf.length) :
    trace (getVar chk acc id buf) (view h s) = (touched v).map fun i => .read (.seg acc.addr i) := by
  have hw := (hr.view hc).segOk
  have hbd := hl.bound id v hg
  obtain ⟨segs, h1, h2, h3⟩ := varSegments_spec chk v.offset v.byteSize hpos
  have hlen : (segs.flatMap Segment.positions).length = v.byteSize.toNat := by rw [h3]; simp
  have hl' : (segs.flatMap Segment.positions).length ≤ (buf.take v.byteSize.toNat).length := by
    rw [hlen, List.length_take]; omega
  unfold getVar
  simp only [Prog.bind_eq]
  rw [trace_ofOption hg, if_neg (by omega), trace_ofOption (segmentsOffset_ok chk v hbd), trace_ofOption h1,
    trace_bind_ok (getLoop_eval chk hw acc.addr segs h2 _ hl'), trace_getLoop chk hw acc.addr segs h2 _ hl']
  show _ ++ [] = _
  unfold touched
  rw [List.append_nil, ← varSegments_index hpos h1, List.map_map]
  rfl

/-- A write of a variable reads and writes each of its segments once, one after the other, and nothing
else. -/
theorem C154_write (value : Bytes) (hv : v.byteSize.toNat ≤ value.length) :
    trace (setVarBytes chk acc id value) (view h s) =
      (touched v).flatMap fun i => [.read (.seg acc.addr i), .write (.seg acc.addr i)] := by
  have hw := (hr.view hc).segOk
  have hbd := hl.bound id v hg
  obtain ⟨segs, h1, h2, h3⟩ := varSegments_spec chk v.offset v.byteSize hpos
  have hlen : (segs.flatMap Segment.positions).length = v.byteSize.toNat := by rw [h3]; simp
  have hl' : (segs.flatMap Segment.positions).length ≤ (value.take v.byteSize.toNat).length := by
    rw [hlen, List.length_take]; omega
  unfold setVarBytes
  simp only [Prog.bind_eq]
  rw [trace_ofOption hg, if_neg (by omega), trace_ofOption (segmentsOffset_ok chk v hbd), trace_ofOption h1,
    trace_setLoop chk hw acc.addr segs h2 _ hl']
  unfold touched
  rw [← varSegments_index hpos h1, List.flatMap_map]

end

/-- A call that panics because the variable does not exist or the buffer is too short touches nothing. -/
theorem C154_refused (chk : Bool) {acc : Acc} {id : BitVec 32} {buf : Bytes} (w : View)
    (h : acc.layout.get id = none ∨ ∃ v, acc.layout.get id = some v ∧ buf.length < v.byteSize.toNat) :
    trace (getVar chk acc id buf) w = [] ∧ trace (setVarBytes chk acc id buf) w = [] := by
  unfold getVar setVarBytes
  simp only [Prog.bind_eq]
  rcases h with h | ⟨v, h, hn⟩
  · rw [h]; exact ⟨rfl, rfl⟩
  · rw [trace_ofOption h, trace_ofOption h, if_pos hn, if_pos hn]; exact ⟨rfl, rfl⟩

/-- The trace counts: the keys that it does not write keep their values. -/
theorem trace_complete {α : Type} (p : Prog α) (w : View) (k : Key) (hk : .write k ∉ trace p w) :
    (p.eval w).1 k = w k := by
  induction p generalizing w with
  | ret | err | panic => rfl
  | get k' f ih => exact ih _ w fun h => hk (List.mem_cons_of_mem _ h)
  | set k' v p ih =>
    have h1 : k ≠ k' := fun e => hk (by rw [e]; exact List.mem_cons_self)
    exact (ih _ fun h => hk (List.mem_cons_of_mem _ h)).trans (View.set_ne _ _ h1)

/-- Two views that agree on the keys that are read give the same outcome and the same trace. -/
theorem trace_reads {α : Type} (p : Prog α) (w w' : View) (hk : ∀ k, .read k ∈ trace p w → w k = w' k)
    (hr : ∀ k, .write k ∉ trace p w) : (p.eval w).2 = (p.eval w').2 ∧ trace p w = trace p w' := by
  induction p generalizing w w' with
  | ret | err | panic => exact ⟨rfl, rfl⟩
  | get k f ih =>
    have e := hk k List.mem_cons_self
    obtain ⟨h1, h2⟩ := ih (w k) w w' (fun k' h => hk k' (List.mem_cons_of_mem _ h))
      fun k' h => hr k' (List.mem_cons_of_mem _ h)
    refine ⟨?_, ?_⟩
    · show ((f (w k)).eval w).2 = ((f (w' k)).eval w').2
      rw [← e]; exact h1
    · show _ :: trace (f (w k)) w = _ :: trace (f (w' k)) w'
      rw [← e, h2]
  | set k v p ih => exact absurd List.mem_cons_self (hr k)

/-- Non-vacuity: a variable of 50 bytes from byte 24 on has three segments. -/
example : touched ⟨7, 24, 50⟩ = [0, 1, 2] ∧ (touched ⟨7, 24, 50⟩).length = (50 + 30) / 32 + 1 ∧
    exampleLayout.get 7 = some ⟨7, 24, 50⟩ := by decide

end Svm.Account.Touches
