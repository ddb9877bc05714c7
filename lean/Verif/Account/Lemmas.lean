import Verif.Account.Model

/-!
# Lemmas about accounts: segments, byte cells, records
-/

namespace Svm.Account

open Svm.Codec
open Svm.Layout (FixedLayout RawVar addW)

/-! ## Segments -/

/-- The absolute byte positions of a segment range. -/
def Segment.positions (s : Segment) : List Nat :=
  (List.range (s.stop + 1 - s.start)).map fun j => 32 * s.index.toNat + s.start + j

/-- A range inside of a segment with at least one byte. -/
def Segment.Ok (s : Segment) : Prop := s.start ≤ s.stop ∧ s.stop < 32

theorem range_map_append (o m n : Nat) :
    (List.range m).map (fun j => o + j) ++ (List.range n).map (fun j => o + m + j) =
      (List.range (m + n)).map (fun j => o + j) := by
  rw [List.range_add, List.map_append, List.map_map]
  congr 1
  apply List.map_congr_left
  intro a _
  simp only [Function.comp_apply]
  omega

theorem segmentsFrom_positions (index remaining : Nat) 
    (h : 0 < remaining → index + (remaining - 1) / 32 + 1 < 2 ^ 32) :
    (segmentsFrom index remaining).flatMap Segment.positions =
      (List.range remaining).map (fun j => 32 * (index + 1) + j) ∧
    ∀ s ∈ segmentsFrom index remaining, s.Ok := by
  induction remaining using Nat.strongRecOn generalizing index with
  | ind r ih =>
    rw [segmentsFrom]
    split
    · rename_i h0
      subst h0
      simp
    · rename_i h0
      have hidx : (BitVec.ofNat 32 (index + 1)).toNat = index + 1 := by
        rw [BitVec.toNat_ofNat]; exact Nat.mod_eq_of_lt (by omega)
      simp only [segmentSize]
      obtain ⟨ih1, ih2⟩ := ih (r - 32) (by omega) (index + 1) (by omega)
      constructor
      · rw [List.flatMap_cons, ih1]
        simp only [Segment.positions, hidx]
        by_cases hr : r ≤ 32
        · have e1 : r - 32 = 0 := by omega
          have e2 : min (32 - 1) (r - 1) + 1 - 0 = r := by omega
          rw [e1, e2]
          simp
        · have e2 : min (32 - 1) (r - 1) + 1 - 0 = 32 := by omega
          rw [e2]
          have e3 : r = 32 + (r - 32) := by omega
          conv => rhs; rw [e3]
          rw [← range_map_append (32 * (index + 1)) 32 (r - 32)]
          rfl
      · intro s hs
        rcases List.mem_cons.1 hs with hs | hs
        · subst hs
          exact ⟨Nat.zero_le _, by show min (32 - 1) (r - 1) < 32; omega⟩
        · exact ih2 s hs

theorem mapM_len {chk : Bool} {l : List Segment} (h : ∀ s ∈ l, s.Ok) :
    l.mapM (Segment.len chk) = some (l.map fun s => s.positions.length) := by
  induction l with
  | nil => rfl
  | cons s l ih =>
    have hs := h s List.mem_cons_self
    have : Segment.len chk s = some s.positions.length := by
      unfold Segment.len
      rw [if_neg (by intro hh; have := hs.1; omega)]
      simp [Segment.positions]
    rw [List.mapM_cons, this, ih fun s hs => h s (List.mem_cons_of_mem _ hs)]
    rfl

theorem sum_positions (l : List Segment) :
    (l.map fun s => s.positions.length).sum = (l.flatMap Segment.positions).length := by
  rw [List.length_flatMap]

/-- Splitting a non-empty range: the segments enumerate exactly its positions. -/
theorem varSegments_spec (chk : Bool) (offset size : BitVec 32) (hpos : 0 < size.toNat) :
    ∃ segs, varSegments chk offset size = some segs ∧ (∀ s ∈ segs, s.Ok) ∧
      segs.flatMap Segment.positions =
        (List.range size.toNat).map (fun j => offset.toNat + j) := by
  have ho := offset.isLt
  have hs := size.isLt
  have hp : predUsize chk (offset.toNat % 32 + size.toNat) =
      some (offset.toNat % 32 + size.toNat - 1) := by
    unfold predUsize; rw [if_neg (by omega)]
  have hidx : (BitVec.ofNat 32 (offset.toNat / 32)).toNat = offset.toNat / 32 := by
    rw [BitVec.toNat_ofNat]; exact Nat.mod_eq_of_lt (by omega)
  -- the number of bytes in the first segment
  obtain ⟨m, hm⟩ : ∃ m, m = min (offset.toNat % 32 + size.toNat - 1) (32 - 1) + 1 -
      offset.toNat % 32 := ⟨_, rfl⟩
  have hstart : 32 * (offset.toNat / 32) + offset.toNat % 32 = offset.toNat := by omega
  have hrest : (segmentsFrom (offset.toNat / 32) (size.toNat - m)).flatMap Segment.positions =
      (List.range (size.toNat - m)).map (fun j => offset.toNat + m + j) ∧
      ∀ s ∈ segmentsFrom (offset.toNat / 32) (size.toNat - m), s.Ok := by
    by_cases hz : size.toNat - m = 0
    · rw [hz, segmentsFrom]
      simp
    · have h32 : offset.toNat + m = 32 * (offset.toNat / 32 + 1) := by omega
      rw [h32]
      exact segmentsFrom_positions _ _ (by omega)
  obtain ⟨hr1, hr2⟩ := hrest
  let first : Segment := ⟨BitVec.ofNat 32 (offset.toNat / 32), offset.toNat % 32,
    min (offset.toNat % 32 + size.toNat - 1) (32 - 1)⟩
  have hok : ∀ s ∈ first :: segmentsFrom (offset.toNat / 32) (size.toNat - m), s.Ok := by
    intro s hs
    rcases List.mem_cons.1 hs with hs | hs
    · subst hs
      constructor
      · show offset.toNat % 32 ≤ min _ _
        omega
      · show min _ _ < 32
        omega
    · exact hr2 s hs
  have hall : (first :: segmentsFrom (offset.toNat / 32) (size.toNat - m)).flatMap
      Segment.positions = (List.range size.toNat).map (fun j => offset.toNat + j) := by
    rw [List.flatMap_cons, hr1]
    have e : size.toNat = m + (size.toNat - m) := by omega
    conv => rhs; rw [e]
    rw [← range_map_append]
    congr 1
    simp only [Segment.positions, first, hidx, hstart, hm]
  refine ⟨_, ?_, hok, hall⟩
  unfold varSegments
  simp only [segmentSize, hp, Option.bind_eq_bind, Option.bind_some, ← hm]
  cases chk with
  | false => rfl
  | true =>
    have := mapM_len (chk := true) hok
    simp only [first] at this hall
    simp only [if_true, this, Option.bind_some, sum_positions, hall]
    simp [first]

/-! ## Byte cells -/

/-- Every stored segment has 32 bytes. -/
def SegOk (w : View) : Prop := ∀ a i v, w (.seg a i) = some v → v.length = 32

/-- The byte at absolute position `p` of the variables of an account. -/
def cell (w : View) (a : Addr) (p : Nat) : UInt8 :=
  ((w (.seg a (BitVec.ofNat 32 (p / 32)))).getD zeroSegment).getD (p % 32) 0

/-- Write bytes at positions, first to last. -/
def writeCells (f : Nat → UInt8) : List Nat → Bytes → Nat → UInt8
  | [], _ => f
  | _ :: _, [] => f
  | p :: ps, v :: vs => writeCells (fun q => if q = p then v else f q) ps vs

theorem writeCells_append (f : Nat → UInt8) (ps qs : List Nat) (vs : Bytes)
    (h : ps.length ≤ vs.length) :
    writeCells f (ps ++ qs) vs = writeCells (writeCells f ps vs) qs (vs.drop ps.length) := by
  induction ps generalizing f vs with
  | nil => rfl
  | cons p ps ih =>
    cases vs with
    | nil => simp at h
    | cons v vs =>
      simp only [List.length_cons, Nat.add_le_add_iff_right] at h
      simp only [List.cons_append, writeCells, List.length_cons, List.drop_succ_cons]
      exact ih _ _ h

theorem writeCells_range' (f : Nat → UInt8) (o n : Nat) (vs : Bytes) (h : n ≤ vs.length) (q : Nat) :
    writeCells f (List.range' o n) vs q =
      if o ≤ q ∧ q < o + n then vs.getD (q - o) 0 else f q := by
  induction n generalizing f o vs with
  | zero => rw [if_neg (by omega)]; rfl
  | succ n ih =>
    cases vs with
    | nil => simp at h
    | cons v vs =>
      simp only [List.length_cons, Nat.add_le_add_iff_right] at h
      rw [List.range'_succ, writeCells, ih _ _ _ h]
      by_cases hq : q = o
      · subst hq
        rw [if_neg (by omega), if_pos rfl, if_pos (by omega), Nat.sub_self]
        rfl
      · by_cases h2 : o + 1 ≤ q ∧ q < o + 1 + n
        · rw [if_pos h2, if_pos (by omega)]
          have : q - o = (q - (o + 1)) + 1 := by omega
          rw [this, List.getD_cons_succ]
        · rw [if_neg h2, if_neg hq, if_neg (by omega)]

theorem writeCells_range (f : Nat → UInt8) (o n : Nat) (vs : Bytes) (h : n ≤ vs.length) (q : Nat) :
    writeCells f ((List.range n).map fun j => o + j) vs q =
      if o ≤ q ∧ q < o + n then vs.getD (q - o) 0 else f q := by
  rw [← List.range'_eq_map_range, writeCells_range' f o n vs h]

theorem len_ok {chk : Bool} {s : Segment} (h : s.Ok) :
    s.len chk = some s.positions.length := by
  unfold Segment.len
  rw [if_neg (by intro hh; have := h.1; omega)]
  simp [Segment.positions]

theorem positions_length (s : Segment) : s.positions.length = s.stop + 1 - s.start := by
  simp [Segment.positions]

theorem segIndex (s : Segment) (x : Nat) (h : x < 32) :
    BitVec.ofNat 32 ((32 * s.index.toNat + x) / 32) = s.index ∧ (32 * s.index.toNat + x) % 32 = x := by
  constructor
  · have : (32 * s.index.toNat + x) / 32 = s.index.toNat := by omega
    rw [this, BitVec.ofNat_toNat, BitVec.setWidth_eq]
  · omega

theorem zeroSegment_length : zeroSegment.length = 32 := by simp [zeroSegment, segmentSize]

theorem segment_length {w : View} (hw : SegOk w) (a : Addr) (i : BitVec 32) :
    ((w (.seg a i)).getD zeroSegment).length = 32 := by
  cases h : w (.seg a i) with
  | none => exact zeroSegment_length
  | some v => exact hw a i v h

theorem readSegment_eval {w : View} (hw : SegOk w) (a : Addr) (s : Segment) :
    (readSegment a s).eval w = (w, .ok ((w (.seg a s.index)).getD zeroSegment)) := by
  unfold readSegment
  rw [Prog.bind_eq, Prog.eval_bind_ok (Prog.eval_read _ _),
    if_pos (show _ = segmentSize from segment_length hw a s.index)]
  rfl

theorem segment_cells {w : View} (hw : SegOk w) (a : Addr) {s : Segment} (hs : s.Ok) :
    (((w (.seg a s.index)).getD zeroSegment).drop s.start).take s.positions.length =
      s.positions.map (cell w a) := by
  have hl := segment_length hw a s.index
  have := hs.1
  have := hs.2
  apply List.ext_getElem
  · simp only [List.length_take, List.length_drop, hl, List.length_map, positions_length]
    omega
  · intro i h1 h2
    simp only [List.length_map, positions_length] at h2
    simp only [List.getElem_take, List.getElem_drop, List.getElem_map, Segment.positions,
      List.getElem_range, cell]
    obtain ⟨e1, e2⟩ := segIndex s (s.start + i) (by omega)
    rw [Nat.add_assoc, e1, e2, List.getD_eq_getElem?_getD, List.getElem?_eq_getElem (by omega)]
    rfl

theorem getLoop_eval (chk : Bool) {w : View} (hw : SegOk w) (a : Addr) (segs : List Segment)
    (hs : ∀ s ∈ segs, s.Ok) (var : Bytes)
    (hlen : (segs.flatMap Segment.positions).length ≤ var.length) :
    (getLoop chk a segs var).eval w =
      (w, .ok ((segs.flatMap Segment.positions).map (cell w a) ++
        var.drop (segs.flatMap Segment.positions).length)) := by
  induction segs generalizing var with
  | nil => rfl
  | cons s segs ih =>
    have hok := hs s List.mem_cons_self
    simp only [List.flatMap_cons, List.length_append] at hlen ⊢
    unfold getLoop
    simp only [Prog.bind_eq]
    rw [Prog.eval_bind_ok (readSegment_eval hw a s), len_ok hok,
      Prog.eval_bind_ok (Prog.eval_ofOption_some _ _),
      if_pos ⟨by omega, hok.2⟩, Prog.eval_bind_ok (ih (fun s h => hs s (List.mem_cons_of_mem _ h)) _
        (by rw [List.length_drop]; omega))]
    rw [Prog.pure_eq, Prog.eval_ret, segment_cells hw a hok, List.drop_drop, List.map_append,
      List.append_assoc]

/-- Effect of a write of one segment on the cells. -/
theorem cell_set {w : View} (hw : SegOk w) (a : Addr) {s : Segment} (hs : s.Ok) (value : Bytes)
    (hlen : s.positions.length ≤ value.length) (b : Addr) (q : Nat) (hq : q < 2 ^ 37) :
    cell (w.set (.seg a s.index) (((w (.seg a s.index)).getD zeroSegment).take s.start ++
        (value.take s.positions.length ++
          ((w (.seg a s.index)).getD zeroSegment).drop (s.start + s.positions.length)))) b q =
      if b = a then writeCells (cell w a) s.positions value q else cell w b q := by
  have hl := segment_length hw a s.index
  have h1 := hs.1
  have h2 := hs.2
  by_cases hb : b = a
  · subst hb
    rw [if_pos rfl]
    have hp : s.positions = (List.range (s.stop + 1 - s.start)).map
      (fun j => (32 * s.index.toNat + s.start) + j) := rfl
    have hn := positions_length s
    rw [hn] at hlen ⊢
    rw [hp, writeCells_range _ _ _ _ hlen]
    have hi := s.index.isLt
    have hq2 : (BitVec.ofNat 32 (q / 32)).toNat = q / 32 := by
      rw [BitVec.toNat_ofNat]; exact Nat.mod_eq_of_lt (by omega)
    unfold cell
    by_cases hk : BitVec.ofNat 32 (q / 32) = s.index
    · have hk' : q / 32 = s.index.toNat := by rw [← hk, hq2]
      rw [hk, View.set_self, Option.getD_some]
      generalize (w (.seg b s.index)).getD zeroSegment = bytes at hl
      simp only [List.getD_eq_getElem?_getD, List.getElem?_append, List.length_take, hl,
        List.getElem?_take, List.getElem?_drop]
      by_cases c1 : q % 32 < s.start
      · rw [if_pos (by omega), if_pos c1, if_neg (by omega)]
      · rw [if_neg (by omega)]
        by_cases c2 : q % 32 ≤ s.stop
        · rw [if_pos (by omega), if_pos (by omega), if_pos (by omega)]
          congr 2
          omega
        · rw [if_neg (by omega), if_neg (by omega)]
          congr 2
          omega
    · rw [View.set_ne _ _ (by simp [hk]), if_neg]
      intro hh
      apply hk
      apply BitVec.eq_of_toNat_eq
      rw [hq2]
      omega
  · rw [if_neg hb]
    unfold cell
    rw [View.set_ne _ _ (by simp [hb])]

theorem segOk_set {w : View} (hw : SegOk w) (a : Addr) (i : BitVec 32) {v : Bytes}
    (hv : v.length = 32) : SegOk (w.set (.seg a i) v) := by
  intro b j u hu
  by_cases h : Key.seg b j = Key.seg a i
  · rw [h, View.set_self] at hu
    cases hu; exact hv
  · rw [View.set_ne _ _ h] at hu
    exact hw b j u hu

theorem segOk_set_other {w : View} (hw : SegOk w) {k : Key} (hk : ∀ a i, k ≠ .seg a i) (v : Bytes) :
    SegOk (w.set k v) := by
  intro b j u hu
  rw [View.set_ne _ _ (fun h => hk b j h.symm)] at hu
  exact hw b j u hu

theorem setLoop_eval (chk : Bool) {w : View} (hw : SegOk w) (a : Addr) (segs : List Segment)
    (hs : ∀ s ∈ segs, s.Ok) (value : Bytes)
    (hlen : (segs.flatMap Segment.positions).length ≤ value.length) :
    ∃ w', (setLoop chk a segs value).eval w = (w', .ok ()) ∧ SegOk w' ∧
      (∀ k, (∀ i, k ≠ .seg a i) → w' k = w k) ∧
      ∀ q, q < 2 ^ 37 →
        cell w' a q = writeCells (cell w a) (segs.flatMap Segment.positions) value q := by
  induction segs generalizing w value with
  | nil => exact ⟨w, rfl, hw, fun _ _ => rfl, fun _ _ => rfl⟩
  | cons s segs ih =>
    have hok := hs s List.mem_cons_self
    have h1 := hok.1
    have h2 := hok.2
    simp only [List.flatMap_cons, List.length_append] at hlen ⊢
    have hl := segment_length hw a s.index
    have hp := positions_length s
    have hw1 := segOk_set hw a s.index (v := ((w (.seg a s.index)).getD zeroSegment).take s.start ++
        (value.take s.positions.length ++
          ((w (.seg a s.index)).getD zeroSegment).drop (s.start + s.positions.length))) (by
      simp only [List.length_append, List.length_take, List.length_drop, hl]; omega)
    obtain ⟨w', e, k1, k2, k3⟩ := ih hw1 (fun s h => hs s (List.mem_cons_of_mem _ h))
      (value.drop s.positions.length) (by rw [List.length_drop]; omega)
    refine ⟨w', ?_, k1, ?_, ?_⟩
    · unfold setLoop
      simp only [Prog.bind_eq]
      rw [Prog.eval_bind_ok (readSegment_eval hw a s), len_ok hok,
        Prog.eval_bind_ok (Prog.eval_ofOption_some _ _), if_pos ⟨by omega, hok.2⟩,
        Prog.eval_bind_ok (Prog.eval_write _ _ _)]
      exact e
    · intro k hk
      rw [k2 k hk, View.set_ne _ _ (hk _)]
    · intro q hq
      rw [k3 q hq, writeCells_append _ _ _ _ (by omega)]
      -- the cells agree on all positions that matter
      have key : ∀ (f g : Nat → UInt8) (ps : List Nat) (vs : Bytes), f q = g q →
          writeCells f ps vs q = writeCells g ps vs q := by
        intro f g ps
        induction ps generalizing f g with
        | nil => intro vs h; exact h
        | cons p ps ihp =>
          intro vs h
          cases vs with
          | nil => exact h
          | cons v vs =>
            simp only [writeCells]
            apply ihp
            by_cases hqp : q = p
            · simp [hqp]
            · simp [hqp, h]
      apply key
      have := cell_set hw a hok value (by omega) a q hq
      rw [if_pos rfl] at this
      exact this

end Svm.Account
