import Verif.Account.Lemmas2

/-!
# Properties C14 - C18 and C67: accounts, their fields and variables
-/

namespace Svm.Account

open Svm.Codec
open Svm.Layout (FixedLayout RawVar addW)
open Svm.Storage (Hasher Storage)

/-- What a program returns when run on a storage. -/
def out {α : Type} (h : Hasher) (p : Prog α) (s : Storage) : Outcome SErr α := (p.run h s).2

/-- The storage after a program. -/
def after {α : Type} (h : Hasher) (p : Prog α) (s : Storage) : Storage := (p.run h s).1

/-- The four fields of an account as its getters report them. -/
def fields (h : Hasher) (s : Storage) (acc : Acc) :
    Outcome SErr Str × Outcome SErr Addr × Outcome SErr U64 × Outcome SErr U128 :=
  (out h (name acc) s, out h (templateAddr acc) s, out h (balance acc) s, out h (counter acc) s)

/-! ## Lemmas -/

theorem out_eval {h : Hasher} (hc : NoCollision h) {α : Type} (p : Prog α) (s : Storage) :
    out h p s = (p.eval (view h s)).2 := (p.run_eval hc s).1

theorem view_after {h : Hasher} (hc : NoCollision h) {α : Type} (p : Prog α) (s : Storage) :
    view h (after h p s) = (p.eval (view h s)).1 := (p.run_eval hc s).2

/-- The number that identifies a key. -/
def Key.code : Key → Nat
  | .accData a => 8 * (beNat a.1 * 2 ^ 32)
  | .accMut a => 8 * (beNat a.1 * 2 ^ 32) + 1
  | .seg a i => 8 * (beNat a.1 * 2 ^ 32 + i.toNat) + 2
  | .core t => 8 * (beNat t.1 * 2 ^ 32) + 3
  | .noncore t => 8 * (beNat t.1 * 2 ^ 32) + 4

theorem beNat_addr_inj {a b : Addr} (h : beNat a.1 = beNat b.1) : a = b := by
  apply Subtype.ext
  rw [← natBE_beNat a.1, ← natBE_beNat b.1, a.2, b.2, h]

theorem Key.code_inj {k k' : Key} (h : k.code = k'.code) : k = k' := by
  cases k <;> cases k' <;> simp only [Key.code] at h <;> first
    | (exfalso; omega)
    | (rename_i a b
       rw [beNat_addr_inj (a := a) (b := b) (by omega)])
    | (rename_i a i b j
       have hi := i.isLt
       have hj := j.isLt
       rw [beNat_addr_inj (a := a) (b := b) (by omega),
         BitVec.eq_of_toNat_eq (x := i) (y := j) (by omega)])

theorem Key.code_lt (k : Key) : k.code < 2 ^ 256 := by
  have hb : ∀ a : Addr, beNat a.1 < 2 ^ 160 := by
    intro a
    have := beNat_lt a.1
    rw [a.2] at this
    have e : (256 : Nat) ^ 20 = 2 ^ 160 := by decide
    omega
  cases k with
  | seg a i => have := hb a; have := i.isLt; simp only [Key.code]; omega
  | accData a | accMut a | core a | noncore a => have := hb a; simp only [Key.code]; omega

/-- Hash functions without collisions between keys of the global state exist. -/
theorem exists_noCollision : ∃ h : Hasher, NoCollision h := by
  classical
  refine ⟨⟨fun bs => if hk : ∃ k : Key, k.text = bs then BitVec.ofNat 256 hk.choose.code else 0⟩, ?_⟩
  intro k k' hh
  have e : ∀ k : Key, ∃ hk : (∃ k0 : Key, k0.text = k.text), hk.choose = k :=
    fun k => ⟨⟨k, rfl⟩, text_inj (Exists.choose_spec (⟨k, rfl⟩ : ∃ k0 : Key, k0.text = k.text))⟩
  obtain ⟨h1, e1⟩ := e k
  obtain ⟨h2, e2⟩ := e k'
  simp only [dif_pos h1, dif_pos h2, e1, e2] at hh
  apply Key.code_inj
  have := congrArg BitVec.toNat hh
  simp only [BitVec.toNat_ofNat] at this
  rwa [Nat.mod_eq_of_lt k.code_lt, Nat.mod_eq_of_lt k'.code_lt] at this

theorem bind_view {α β : Type} {p : Prog α} {f : α → Prog β} {w : View}
    (hp : (p.eval w).1 = w) (hf : ∀ a, ((f a).eval w).1 = w) : ((p.bind f).eval w).1 = w := by
  rw [Prog.eval_bind]
  cases e : p.eval w with
  | mk w1 o =>
    rw [e] at hp
    simp only at hp
    subst hp
    cases o with
    | ok a => exact hf a
    | err | panic => rfl

theorem bind_congr {α β : Type} {p : Prog α} {f : α → Prog β} {w w' : View}
    (h1 : (p.eval w).1 = w) (h1' : (p.eval w').1 = w') (h2 : (p.eval w).2 = (p.eval w').2)
    (hf : ∀ a, ((f a).eval w).2 = ((f a).eval w').2) :
    ((p.bind f).eval w).2 = ((p.bind f).eval w').2 := by
  rw [Prog.eval_bind, Prog.eval_bind]
  cases e : p.eval w with
  | mk w1 o =>
    cases e' : p.eval w' with
    | mk w1' o' =>
      rw [e] at h1 h2
      rw [e'] at h1' h2
      simp only at h1 h1' h2
      subst h1
      subst h1'
      subst h2
      cases o with
      | ok a => exact hf a
      | err | panic => rfl

theorem map_congr {α β : Type} {p : Prog α} (f : α → β) {w w' : View}
    (he : (p.eval w).2 = (p.eval w').2) :
    ((p.bind fun x => .ret (f x)).eval w).2 = ((p.bind fun x => .ret (f x)).eval w').2 := by
  rw [Prog.eval_bind, Prog.eval_bind]
  cases e1 : p.eval w with
  | mk a o1 =>
    cases e2 : p.eval w' with
    | mk b o2 =>
      rw [e1, e2] at he
      simp only at he
      subst he
      cases o1 <;> rfl

theorem ofOption_view {α : Type} (o : Option α) (w : View) : ((Prog.ofOption o).eval w).1 = w := by
  cases o <;> rfl

theorem ofOption_congr {α : Type} (o : Option α) (w w' : View) :
    ((Prog.ofOption o).eval w).2 = ((Prog.ofOption o).eval w').2 := by
  cases o <;> rfl

theorem readSegment_view (a : Addr) (s : Segment) (w : View) :
    ((readSegment a s).eval w).1 = w := by
  unfold readSegment
  refine bind_view rfl fun b => ?_
  cases b with
  | none => rfl
  | some b => simp only; split <;> rfl

theorem readSegment_congr (a : Addr) (s : Segment) {w w' : View}
    (h : ∀ i, w (.seg a i) = w' (.seg a i)) :
    ((readSegment a s).eval w).2 = ((readSegment a s).eval w').2 := by
  unfold readSegment
  refine bind_congr rfl rfl ?_ fun b => ?_
  · rw [Prog.eval_read, Prog.eval_read, h]
  · simp only; split <;> rfl

theorem getLoop_view (chk : Bool) (a : Addr) (segs : List Segment) (var : Bytes) (w : View) :
    ((getLoop chk a segs var).eval w).1 = w := by
  induction segs generalizing var with
  | nil => rfl
  | cons s segs ih =>
    unfold getLoop
    refine bind_view (readSegment_view _ _ _) fun b => bind_view (ofOption_view _ _) fun n => ?_
    split
    · exact bind_view (ih _) fun _ => rfl
    · rfl

theorem getLoop_congr (chk : Bool) (a : Addr) (segs : List Segment) (var : Bytes) {w w' : View}
    (h : ∀ i, w (.seg a i) = w' (.seg a i)) :
    ((getLoop chk a segs var).eval w).2 = ((getLoop chk a segs var).eval w').2 := by
  induction segs generalizing var with
  | nil => rfl
  | cons s segs ih =>
    unfold getLoop
    refine bind_congr (readSegment_view _ _ _) (readSegment_view _ _ _) (readSegment_congr _ _ h)
      fun b => bind_congr (ofOption_view _ _) (ofOption_view _ _) (ofOption_congr _ _ _) fun n => ?_
    split
    · exact bind_congr (getLoop_view _ _ _ _ _) (getLoop_view _ _ _ _ _) (ih _) fun _ => rfl
    · rfl

theorem getVar_view (chk : Bool) (acc : Acc) (id : BitVec 32) (buf : Bytes) (w : View) :
    ((getVar chk acc id buf).eval w).1 = w := by
  unfold getVar
  refine bind_view (ofOption_view _ _) fun v => ?_
  split
  · rfl
  · exact bind_view (ofOption_view _ _) fun o => bind_view (ofOption_view _ _) fun segs =>
      bind_view (getLoop_view _ _ _ _ _) fun _ => rfl

theorem getVar_congr (chk : Bool) (acc : Acc) (id : BitVec 32) (buf : Bytes) {w w' : View}
    (h : ∀ i, w (.seg acc.addr i) = w' (.seg acc.addr i)) :
    ((getVar chk acc id buf).eval w).2 = ((getVar chk acc id buf).eval w').2 := by
  unfold getVar
  refine bind_congr (ofOption_view _ _) (ofOption_view _ _) (ofOption_congr _ _ _) fun v => ?_
  split
  · rfl
  · exact bind_congr (ofOption_view _ _) (ofOption_view _ _) (ofOption_congr _ _ _) fun o =>
      bind_congr (ofOption_view _ _) (ofOption_view _ _) (ofOption_congr _ _ _) fun segs =>
      bind_congr (getLoop_view _ _ _ _ _) (getLoop_view _ _ _ _ _) (getLoop_congr _ _ _ _ h)
        fun _ => rfl

/-- The only segment of a variable of size 0 (when `var_segments` returns at all). -/
theorem varSegments_zero {chk : Bool} {o : BitVec 32} {segs : List Segment}
    (h : varSegments chk o 0 = some segs) :
    chk = false ∧ ∃ s : Segment, segs = [s] ∧ s.stop < 32 ∧
      ((o.toNat % 32 = 0 ∧ s.start = 0 ∧ s.stop = 31) ∨
       (0 < o.toNat % 32 ∧ s.start = o.toNat % 32 ∧ s.stop + 1 = s.start)) := by
  unfold varSegments at h
  simp only [Option.bind_eq_bind, Option.bind_eq_some_iff] at h
  obtain ⟨last, hl, h⟩ := h
  have h0 : (0 : BitVec 32).toNat = 0 := rfl
  have hnil : ∀ i m, segmentsFrom i (0 - m) = [] := by
    intro i m; rw [Nat.zero_sub, segmentsFrom, if_pos rfl]
  have hm : o.toNat % 32 < 32 := Nat.mod_lt _ (by decide)
  simp only [h0, hnil, segmentSize] at h hl
  unfold predUsize at hl
  cases chk with
  | true =>
    exfalso
    split at hl
    · cases hl
    · cases hl
      simp only [if_true, Option.bind_eq_some_iff] at h
      obtain ⟨lens, hlens, _⟩ := h
      simp only [List.mapM_cons, Segment.len] at hlens
      rw [if_pos ⟨by omega, trivial⟩] at hlens
      simp at hlens
  | false =>
    refine ⟨rfl, ?_⟩
    simp only [Bool.false_eq_true, if_false] at h hl
    cases h
    refine ⟨_, rfl, ?_, ?_⟩
    · show min last (32 - 1) < 32
      omega
    · split at hl
      · cases hl
        left
        refine ⟨by omega, by show o.toNat % 32 = 0; omega, by show min _ _ = _; omega⟩
      · cases hl
        right
        refine ⟨by omega, rfl, ?_⟩
        show min _ _ + 1 = o.toNat % 32
        omega

/-- Reading a variable of size 0 does not depend on what is stored. -/
theorem getVar_zero (chk : Bool) {acc : Acc} {id : BitVec 32} {v : RawVar}
    (hg : acc.layout.get id = some v) (hz : v.byteSize = 0) (buf : Bytes) {w w' : View}
    (hw : SegOk w) (hw' : SegOk w') :
    ((getVar chk acc id buf).eval w).2 = ((getVar chk acc id buf).eval w').2 := by
  unfold getVar
  simp only [Prog.bind_eq]
  rw [hg, Prog.eval_bind_ok (Prog.eval_ofOption_some _ _),
    Prog.eval_bind_ok (Prog.eval_ofOption_some _ _)]
  split
  · rfl
  · cases segmentsOffset chk v with
    | none => rfl
    | some o =>
      rw [Prog.eval_bind_ok (Prog.eval_ofOption_some _ _),
        Prog.eval_bind_ok (Prog.eval_ofOption_some _ _), hz]
      cases hs : varSegments chk o 0 with
      | none => rfl
      | some segs =>
        obtain ⟨_, s, rfl, _, _⟩ := varSegments_zero hs
        rw [Prog.eval_bind_ok (Prog.eval_ofOption_some _ _),
          Prog.eval_bind_ok (Prog.eval_ofOption_some _ _)]
        have e : ∀ u : View, SegOk u →
            (getLoop chk acc.addr [s] (buf.take (0 : BitVec 32).toNat)).eval u =
              (u, if s.len chk = some 0 ∧ s.stop < 32 then .ok [] else .panic) := by
          intro u hu
          unfold getLoop
          simp only [Prog.bind_eq]
          rw [Prog.eval_bind_ok (readSegment_eval hu acc.addr s)]
          cases hn : s.len chk with
          | none => rw [if_neg (by simp)]; rfl
          | some n =>
            rw [Prog.eval_bind_ok (Prog.eval_ofOption_some _ _)]
            have h0 : (buf.take (0 : BitVec 32).toNat) = [] := rfl
            simp only [h0, List.length_nil, Nat.le_zero_eq, segmentSize, Option.some.injEq]
            split
            · rename_i hh
              simp [hh.1, getLoop, Prog.eval_bind]
            · rfl
        exact map_congr (fun d : Bytes => d ++ buf.drop (0 : BitVec 32).toNat)
          (by rw [e w hw, e w' hw'])

/-- Any write to a variable: whatever its outcome, only segments of that account change, and only
the bytes of that variable. -/
theorem setVarBytes_frame (chk : Bool) {w : View} (hw : SegOk w) {acc : Acc}
    (hl : LayoutOk acc.layout) (id : BitVec 32) (value : Bytes) :
    SegOk ((setVarBytes chk acc id value).eval w).1 ∧
    (∀ k, (∀ i, k ≠ .seg acc.addr i) → ((setVarBytes chk acc id value).eval w).1 k = w k) ∧
    ∀ q, q < 2 ^ 37 → (∀ v, acc.layout.get id = some v →
        q < v.offset.toNat ∨ v.offset.toNat + v.byteSize.toNat ≤ q) →
      cell ((setVarBytes chk acc id value).eval w).1 acc.addr q = cell w acc.addr q := by
  have same : ∀ {o : Outcome SErr Unit}, (setVarBytes chk acc id value).eval w = (w, o) →
      SegOk ((setVarBytes chk acc id value).eval w).1 ∧
      (∀ k, (∀ i, k ≠ .seg acc.addr i) → ((setVarBytes chk acc id value).eval w).1 k = w k) ∧
      ∀ q, q < 2 ^ 37 → (∀ v, acc.layout.get id = some v →
          q < v.offset.toNat ∨ v.offset.toNat + v.byteSize.toNat ≤ q) →
        cell ((setVarBytes chk acc id value).eval w).1 acc.addr q = cell w acc.addr q := by
    intro o h
    rw [h]
    exact ⟨hw, fun _ _ => rfl, fun _ _ _ => rfl⟩
  cases hg : acc.layout.get id with
  | none =>
    have e : (setVarBytes chk acc id value).eval w = (w, .panic) := by
      unfold setVarBytes
      simp only [Prog.bind_eq]
      rw [hg]
      rfl
    have := same e
    rw [hg] at this
    exact this
  | some v =>
    by_cases hlen : value.length < v.byteSize.toNat
    · have e : (setVarBytes chk acc id value).eval w = (w, .panic) := by
        unfold setVarBytes
        simp only [Prog.bind_eq]
        rw [hg, Prog.eval_bind_ok (Prog.eval_ofOption_some _ _), if_pos hlen]
        rfl
      have := same e
      rw [hg] at this
      exact this
    · by_cases hpos : 0 < v.byteSize.toNat
      · obtain ⟨w', e, k1, k2, k3⟩ := setVarBytes_eval chk hw hg hpos (hl.bound id v hg) value
          (by omega)
        rw [e]
        refine ⟨k1, k2, ?_⟩
        intro q hq hout
        have := hout v rfl
        rw [k3 q hq, if_neg (by omega)]
      · have hz : v.byteSize = 0 := by
          apply BitVec.eq_of_toNat_eq
          rw [show (0 : BitVec 32).toNat = 0 from rfl]
          omega
        cases hs : varSegments chk v.offset v.byteSize with
        | none =>
          have e : (setVarBytes chk acc id value).eval w = (w, .panic) := by
            unfold setVarBytes
            simp only [Prog.bind_eq]
            rw [hg, Prog.eval_bind_ok (Prog.eval_ofOption_some _ _), if_neg hlen,
              segmentsOffset_ok chk v (hl.bound id v hg),
              Prog.eval_bind_ok (Prog.eval_ofOption_some _ _), hs]
            rfl
          have := same e
          rw [hg] at this
          exact this
        | some segs =>
          have hs' := hs
          rw [hz] at hs'
          obtain ⟨hchk, s, rfl, hstop, hcase⟩ := varSegments_zero hs'
          have hpre : (setVarBytes chk acc id value).eval w =
              (setLoop chk acc.addr [s] []).eval w := by
            unfold setVarBytes
            simp only [Prog.bind_eq]
            rw [hg, Prog.eval_bind_ok (Prog.eval_ofOption_some _ _), if_neg hlen,
              segmentsOffset_ok chk v (hl.bound id v hg),
              Prog.eval_bind_ok (Prog.eval_ofOption_some _ _), hs,
              Prog.eval_bind_ok (Prog.eval_ofOption_some _ _), hz]
            rfl
          have hn : s.len chk = some (s.stop + 1 - s.start) := by
            unfold Segment.len
            rw [if_neg (by simp [hchk])]
          rw [hpre]
          unfold setLoop
          simp only [Prog.bind_eq]
          rw [Prog.eval_bind_ok (readSegment_eval hw acc.addr s), hn,
            Prog.eval_bind_ok (Prog.eval_ofOption_some _ _)]
          rcases hcase with ⟨_, c1, c2⟩ | ⟨_, c1, c2⟩
          · rw [c1, c2, if_neg (by simp)]
            exact ⟨hw, fun _ _ => rfl, fun _ _ _ => rfl⟩
          · have h0 : s.stop + 1 - s.start = 0 := by omega
            rw [h0, if_pos ⟨by simp, by simpa [segmentSize] using hstop⟩,
              Prog.eval_bind_ok (Prog.eval_write _ _ _)]
            have hid : ((w (.seg acc.addr s.index)).getD zeroSegment).take s.start ++
                (([] : Bytes).take 0 ++ ((w (.seg acc.addr s.index)).getD zeroSegment).drop
                  (s.start + 0)) = (w (.seg acc.addr s.index)).getD zeroSegment := by
              simp
            rw [hid]
            simp only [setLoop, Prog.pure_eq, Prog.eval_ret]
            refine ⟨segOk_set hw _ _ (segment_length hw _ _), ?_, ?_⟩
            · intro k hk
              rw [View.set_ne _ _ (hk _)]
            · intro q _ _
              unfold cell
              by_cases hk : BitVec.ofNat 32 (q / 32) = s.index
              · rw [hk, View.set_self]; rfl
              · rw [View.set_ne _ _ (by simp [hk])]

theorem fields_congr {h : Hasher} (hc : NoCollision h) {s s' : Storage} {acc : Acc}
    (h1 : view h s' (.accData acc.addr) = view h s (.accData acc.addr))
    (h2 : view h s' (.accMut acc.addr) = view h s (.accMut acc.addr)) :
    fields h s' acc = fields h s acc := by
  have k1 := readAndDecode_congr decAccountData (.accData acc.addr) h1
  have k2 := readAndDecode_congr decAccountMut (.accMut acc.addr) h2
  have v1 := readAndDecode_view decAccountData (.accData acc.addr)
  have v2 := readAndDecode_view decAccountMut (.accMut acc.addr)
  unfold fields
  simp only [out_eval hc]
  refine Prod.ext (map_congr _ k1) (Prod.ext (map_congr _ k1) (Prod.ext (map_congr _ k2)
    (map_congr _ k2)))

/-! ## C14 -/

/-- C14: for every offset and every non-zero size (and with or without overflow checks), the
segments, read in order, enumerate exactly the absolute positions `offset, ..., offset + size - 1`;
each range lies inside its 32-byte segment. -/
theorem C14_segments_cover (chk : Bool) (offset size : BitVec 32) (hpos : 0 < size.toNat) :
    ∃ segs, varSegments chk offset size = some segs ∧
      (∀ s ∈ segs, s.start ≤ s.stop ∧ s.stop < 32) ∧
      (segs.flatMap fun s =>
        (List.range (s.stop + 1 - s.start)).map fun j => 32 * s.index.toNat + s.start + j) =
      (List.range size.toNat).map fun j => offset.toNat + j :=
  varSegments_spec chk offset size hpos

/-- Non-vacuity: a range of 70 bytes from position 30 needs four segments. -/
example : varSegments true 30 70 =
    some [⟨0, 30, 31⟩, ⟨1, 0, 31⟩, ⟨2, 0, 31⟩, ⟨3, 0, 3⟩] := by decide +kernel

/-! ## C15 -/

/-- C15: in every reachable state, for every account whose layout comes from a decoded template
(`load_layoutOk` below), every variable of it with at least one byte and every buffer of at least
that many bytes: the write succeeds, and a later read returns the written bytes, followed by the
untouched rest of the read buffer. -/
theorem C15_read_after_write {h : Hasher} (hc : NoCollision h) {s : Storage} (hr : Reach h s)
    (chk : Bool) {acc : Acc} (hl : LayoutOk acc.layout) {id : BitVec 32} {v : RawVar}
    (hg : acc.layout.get id = some v) (hpos : 0 < v.byteSize.toNat) (value buf : Bytes)
    (hv : v.byteSize.toNat ≤ value.length) (hb : v.byteSize.toNat ≤ buf.length) :
    out h (setVarBytes chk acc id value) s = .ok () ∧
    out h (getVar chk acc id buf) (after h (setVarBytes chk acc id value) s) =
      .ok (value.take v.byteSize.toNat ++ buf.drop v.byteSize.toNat) := by
  have hw := (hr.view hc).segOk
  have hbd := hl.bound id v hg
  obtain ⟨w', e, k1, k2, k3⟩ := setVarBytes_eval chk hw hg hpos hbd value hv
  constructor
  · rw [out_eval hc, e]
  · rw [out_eval hc, view_after hc, e, getVar_eval chk k1 hg hpos hbd buf hb]
    simp only
    congr 2
    apply List.ext_getElem
    · simp [cells]; omega
    · intro i h1 h2
      simp only [cells, List.length_map, List.length_range] at h1
      simp only [cells, List.getElem_map, List.getElem_range, List.getElem_take]
      rw [k3 _ (by omega), if_pos (by omega), Nat.add_sub_cancel_left,
        List.getD_eq_getElem?_getD, List.getElem?_eq_getElem (by omega)]
      rfl

/-- C15, for `get_var_vec`: the bytes come back exactly. -/
theorem C15_read_after_write_vec {h : Hasher} (hc : NoCollision h) {s : Storage} (hr : Reach h s)
    (chk : Bool) {acc : Acc} (hl : LayoutOk acc.layout) {id : BitVec 32} {v : RawVar}
    (hg : acc.layout.get id = some v) (hpos : 0 < v.byteSize.toNat) (value : Bytes)
    (hv : value.length = v.byteSize.toNat) :
    out h (getVarVec chk acc id) (after h (setVarBytes chk acc id value) s) = .ok value := by
  have := (C15_read_after_write hc hr chk hl hg hpos value (List.replicate v.byteSize.toNat 0)
    (by omega) (by simp)).2
  rw [List.take_of_length_le (by omega), List.drop_eq_nil_of_le (by simp), List.append_nil] at this
  rw [← this, out_eval hc, out_eval hc]
  unfold getVarVec
  rw [hg, Prog.bind_eq, Prog.eval_bind_ok (Prog.eval_ofOption_some _ _)]

/-- Layouts of loaded accounts satisfy the hypothesis of C15 and C16. -/
theorem load_layoutOk {h : Hasher} (hc : NoCollision h) {s : Storage} {chk : Bool} {a : Addr}
    {acc : Acc} (hl : out h (load chk a) s = .ok acc) : LayoutOk acc.layout ∧ acc.addr = a := by
  rw [out_eval hc] at hl
  obtain ⟨_, h1, h2, _⟩ := load_ok (w' := ((load chk a).eval (view h s)).1) (acc := acc)
    (Prod.ext rfl hl)
  exact ⟨h1, h2⟩

/-- A layout with variables of 20, 4 and 50 bytes and first id 5. -/
def exampleLayout : FixedLayout :=
  { first := some 5, vars := [⟨5, 0, 20⟩, ⟨6, 20, 4⟩, ⟨7, 24, 50⟩] }

theorem exampleLayout_eq : FixedLayout.fromByteSizes true 5 [20, 4, 50] = some exampleLayout := by
  decide

theorem exampleLayout_ok : LayoutOk exampleLayout :=
  layoutOk_of_sizes (by decide) exampleLayout_eq

/-- An account address. -/
def exampleAddr (b : UInt8) : Addr := ⟨List.replicate 20 b, by simp⟩

/-- An account with that layout. -/
def exampleAcc : Acc := ⟨exampleAddr 1, exampleAddr 9, exampleLayout⟩

/-- Non-vacuity: a write of 50 bytes at offset 24 (three segments) in a state that already has an
account and an earlier value of a neighbouring variable. -/
example (h : Hasher) :
    Reach h (after h (setVarBytes true exampleAcc 6 [1, 2, 3, 4])
      (after h (createStub (exampleAddr 1) ⟨[], rfl⟩ 10 0) Svm.Storage.fresh)) ∧
    exampleAcc.layout.get 7 = some ⟨7, 24, 50⟩ ∧
    0 < (⟨7, 24, 50⟩ : RawVar).byteSize.toNat ∧
    (⟨7, 24, 50⟩ : RawVar).byteSize.toNat ≤ (List.replicate 50 (7 : UInt8)).length :=
  ⟨.prog _ (safe_setVarBytes _ _ _ _) (.prog _ (safe_createStub _ _ _ _) .fresh), by decide, by decide,
    by decide⟩

/-! ## C16 -/

/-- C16: whatever a write to a variable does (also when it panics), it changes no other variable of
the same account, no variable of another account (with any layout), no field of any account, and no
template. -/
theorem C16_isolation {h : Hasher} (hc : NoCollision h) {s : Storage} (hr : Reach h s)
    (chk : Bool) {acc : Acc} (hl : LayoutOk acc.layout) (id : BitVec 32) (value : Bytes) :
    (∀ (acc' : Acc) (id' : BitVec 32) (buf : Bytes),
      acc'.addr ≠ acc.addr ∨ (acc'.layout = acc.layout ∧ id' ≠ id) →
      out h (getVar chk acc' id' buf) (after h (setVarBytes chk acc id value) s) =
        out h (getVar chk acc' id' buf) s) ∧
    (∀ acc' : Acc, fields h (after h (setVarBytes chk acc id value) s) acc' = fields h s acc') ∧
    (∀ t : Addr, out h (readSections chk t) (after h (setVarBytes chk acc id value) s) =
      out h (readSections chk t) s) := by
  have hw := (hr.view hc).segOk
  obtain ⟨f1, f2, f3⟩ := setVarBytes_frame chk hw hl id value
  rw [← view_after hc] at f1 f2 f3
  refine ⟨?_, ?_, ?_⟩
  · intro acc' id' buf hne
    rw [out_eval hc, out_eval hc]
    by_cases ha : acc'.addr = acc.addr
    · rcases hne with hne | ⟨hlay, hid⟩
      · exact absurd ha hne
      · cases hg' : acc'.layout.get id' with
        | none =>
          unfold getVar
          simp only [Prog.bind_eq]
          rw [hg']
          rfl
        | some v' =>
          by_cases hbuf : buf.length < v'.byteSize.toNat
          · unfold getVar
            simp only [Prog.bind_eq]
            rw [hg', Prog.eval_bind_ok (Prog.eval_ofOption_some _ _),
              Prog.eval_bind_ok (Prog.eval_ofOption_some _ _), if_pos hbuf]
            rfl
          · have hg2 : acc.layout.get id' = some v' := hlay ▸ hg'
            have hbd := hl.bound id' v' hg2
            by_cases hpos : 0 < v'.byteSize.toNat
            · rw [getVar_eval chk f1 hg' hpos hbd buf (by omega),
                getVar_eval chk hw hg' hpos hbd buf (by omega)]
              simp only
              congr 2
              unfold cells
              apply List.map_congr_left
              intro j hj
              rw [List.mem_range] at hj
              rw [ha]
              apply f3 _ (by omega)
              intro v hv
              rcases hl.disjoint id' id v' v hg2 hv hid with hd | hd <;> omega
            · exact getVar_zero chk hg' (BitVec.eq_of_toNat_eq (by
                rw [show (0 : BitVec 32).toNat = 0 from rfl]; omega)) buf f1 hw
    · apply getVar_congr
      intro i
      exact f2 _ (by simp [ha])
  · intro acc'
    exact fields_congr hc (f2 _ (by simp)) (f2 _ (by simp))
  · intro t
    rw [out_eval hc, out_eval hc]
    unfold readSections
    exact bind_congr (readAndDecode_view _ _ _) (readAndDecode_view _ _ _)
      (readAndDecode_congr _ _ (f2 (.core t) (by simp))) fun core =>
      map_congr _ (readAndDecode_congr _ _ (f2 (.noncore t) (by simp)))

/-! ## C17 -/

/-- C17: the textual keys of two different objects (account data, account balance, variable segment,
core and noncore sections of a template; for any addresses and segment numbers) are different. -/
theorem C17_keys_injective (k k' : Key) (hne : k ≠ k') : k.text ≠ k'.text :=
  fun h => hne (text_inj h)

/-- Non-vacuity: two keys that share a long prefix. -/
example : Key.seg (exampleAddr 1) 1 ≠ Key.seg (exampleAddr 1) 12 := by decide

/-- The text is the expected one. -/
example : (Key.seg ⟨List.replicate 19 0xA0 ++ [0x0f], rfl⟩ 120).text =
    ascii ("accounts:" ++ String.join (List.replicate 19 "A0") ++ "0F:var_segments:120").toList := by
  decide +kernel

/-! ## C18 -/

/-- C18, creation from a template: if `create` succeeds, the four fields read back with the given
values, no field of another account and no variable of any account changed. -/
theorem C18_create {h : Hasher} (hc : NoCollision h) {s : Storage} (chk : Bool) {a t : Addr}
    {nm : Str} {b : U64} {c : U128} {acc : Acc} (hok : out h (create chk a nm t b c) s = .ok acc) :
    acc.addr = a ∧ acc.template = t ∧
    fields h (after h (create chk a nm t b c) s) acc = (.ok nm, .ok t, .ok b, .ok c) ∧
    (∀ acc' : Acc, acc'.addr ≠ a →
      fields h (after h (create chk a nm t b c) s) acc' = fields h s acc') ∧
    (∀ (acc' : Acc) id buf, out h (getVar chk acc' id buf) (after h (create chk a nm t b c) s) =
      out h (getVar chk acc' id buf) s) := by
  rw [out_eval hc] at hok
  have hev : (create chk a nm t b c).eval (view h s) =
      (((create chk a nm t b c).eval (view h s)).1, .ok acc) := Prod.ext rfl hok
  unfold create at hev
  obtain ⟨w1, l, hl, hev1⟩ := eval_bind_eq_ok hev
  obtain ⟨e1, _⟩ := templateLayout_ok hl
  subst e1
  obtain ⟨w2, _, h2, hev2⟩ := eval_bind_eq_ok hev1
  obtain ⟨w3, _, h3, hev3⟩ := eval_bind_eq_ok hev2
  cases hd : encAccountData ⟨nm, t⟩ with
  | none => rw [hd] at h2; cases h2
  | some bs =>
    rw [hd] at h2
    cases h2
    cases h3
    have hw : view h (after h (create chk a nm t b c) s) =
        ((view h s).set (.accData a) bs).set (.accMut a) (mutBytes ⟨b, c⟩) := by
      rw [view_after hc]
      unfold create
      exact (congrArg Prod.fst hev3).symm
    have hacc := congrArg Prod.snd hev3
    simp only [Prog.pure_eq, Prog.eval_ret, Outcome.ok.injEq] at hacc
    subst hacc
    clear hev3 hev2 hev1 hev hok
    have hdec : decAccountData bs = .ok (⟨nm, t⟩, []) := by
      have := roundTrip_accountData _ bs [] hd
      rwa [List.append_nil] at this
    have hi : info (view h (after h (create chk a nm t b c) s)) a = some ⟨nm, t⟩ := by
      unfold info
      rw [hw, View.set_ne _ _ (by simp), View.set_self]
      simp only [hdec]
    have hm : money (view h (after h (create chk a nm t b c) s)) a = some ⟨b, c⟩ := by
      rw [hw, money_set, if_pos rfl]
    refine ⟨rfl, rfl, ?_, ?_, ?_⟩
    · unfold fields
      simp only [out_eval hc]
      rw [balance_eval (acc := ⟨a, t, l⟩) hm, counter_eval (acc := ⟨a, t, l⟩) hm]
      unfold name templateAddr
      simp only [Prog.bind_eq]
      rw [Prog.eval_bind_ok (info_read hi), Prog.eval_bind_ok (info_read hi)]
      rfl
    · intro acc' hne
      apply fields_congr hc
      · rw [hw, View.set_ne _ _ (by simp), View.set_ne _ _ (by simp [hne])]
      · rw [hw, View.set_ne _ _ (by simp [hne]), View.set_ne _ _ (by simp)]
    · intro acc' id buf
      rw [out_eval hc, out_eval hc]
      apply getVar_congr
      intro i
      rw [hw, View.set_ne _ _ (by simp), View.set_ne _ _ (by simp)]

/-- C18, when `create` succeeds: exactly when the template has a readable layout and the name has at
most 255 bytes. -/
theorem C18_create_ok_iff {h : Hasher} (hc : NoCollision h) {s : Storage} (chk : Bool) {a t : Addr}
    {nm : Str} {b : U64} {c : U128} :
    (∃ acc, out h (create chk a nm t b c) s = .ok acc) ↔
      (∃ l, out h (templateLayout chk t) s = .ok l) ∧ nm.1.length ≤ 255 := by
  simp only [out_eval hc]
  have henc : ∀ {bs : Bytes}, encAccountData ⟨nm, t⟩ = some bs → nm.1.length ≤ 255 := by
    intro bs hd
    obtain ⟨b1, r1, h1, g1, rfl⟩ := Enc.seq_eq_some.1 hd
    obtain ⟨b2, r2, h2, h3, rfl⟩ := Enc.seq_eq_some.1 g1
    unfold encStr at h3
    split at h3
    · rename_i hlt
      exact Nat.le_of_lt_succ hlt
    · cases h3
  have henc' : nm.1.length ≤ 255 → ∃ bs, encAccountData ⟨nm, t⟩ = some bs := by
    intro hle
    have hs : encStr nm = some (UInt8.ofNat nm.1.length :: nm.1) := by
      unfold encStr
      rw [if_pos (Nat.lt_succ_of_le hle)]
    exact ⟨_, Enc.seq_eq_some.2 ⟨_, _, rfl, Enc.seq_eq_some.2 ⟨_, _, rfl, hs, rfl⟩, rfl⟩⟩
  unfold create
  constructor
  · rintro ⟨acc, hok⟩
    obtain ⟨w1, l, hl, hev1⟩ := eval_bind_eq_ok (w' := _) (b := acc) (Prod.ext rfl hok)
    obtain ⟨w2, _, h2, _⟩ := eval_bind_eq_ok hev1
    refine ⟨⟨l, by rw [hl]⟩, ?_⟩
    cases hd : encAccountData ⟨nm, t⟩ with
    | none => rw [hd] at h2; cases h2
    | some bs => exact henc hd
  · rintro ⟨⟨l, hl⟩, hle⟩
    obtain ⟨bs, hd⟩ := henc' hle
    refine ⟨⟨a, t, l⟩, ?_⟩
    have hl' : (templateLayout chk t).eval (view h s) =
      (((templateLayout chk t).eval (view h s)).1, .ok l) := Prod.ext rfl hl
    simp only [Prog.bind_eq]
    rw [Prog.eval_bind_ok hl', hd]
    rfl

/-- C18, stub accounts (genesis): the fields read back; the template is 20 zero bytes. -/
theorem C18_createStub {h : Hasher} (hc : NoCollision h) {s : Storage} {a : Addr} {nm : Str}
    {b : U64} {c : U128} {acc : Acc} (hok : out h (createStub a nm b c) s = .ok acc) :
    acc.addr = a ∧
    fields h (after h (createStub a nm b c) s) acc =
      (.ok nm, .ok ⟨List.replicate 20 0, rfl⟩, .ok b, .ok c) ∧
    (∀ acc' : Acc, acc'.addr ≠ a →
      fields h (after h (createStub a nm b c) s) acc' = fields h s acc') ∧
    (∀ chk (acc' : Acc) id buf, out h (getVar chk acc' id buf) (after h (createStub a nm b c) s) =
      out h (getVar chk acc' id buf) s) := by
  rw [out_eval hc] at hok
  have hev : (createStub a nm b c).eval (view h s) =
      (((createStub a nm b c).eval (view h s)).1, .ok acc) := Prod.ext rfl hok
  unfold createStub at hev
  obtain ⟨w2, _, h2, hev2⟩ := eval_bind_eq_ok hev
  obtain ⟨w3, _, h3, hev3⟩ := eval_bind_eq_ok hev2
  cases hd : encAccountData ⟨nm, stubTemplate⟩ with
  | none => rw [hd] at h2; cases h2
  | some bs =>
    rw [hd] at h2
    cases h2
    cases h3
    have hw : view h (after h (createStub a nm b c) s) =
        ((view h s).set (.accData a) bs).set (.accMut a) (mutBytes ⟨b, c⟩) := by
      rw [view_after hc]
      unfold createStub
      exact (congrArg Prod.fst hev3).symm
    have hacc := congrArg Prod.snd hev3
    simp only [Prog.pure_eq, Prog.eval_ret, Outcome.ok.injEq] at hacc
    subst hacc
    clear hev3 hev2 hev hok
    have hdec : decAccountData bs = .ok (⟨nm, stubTemplate⟩, []) := by
      have := roundTrip_accountData _ bs [] hd
      rwa [List.append_nil] at this
    have hi : info (view h (after h (createStub a nm b c) s)) a = some ⟨nm, stubTemplate⟩ := by
      unfold info
      rw [hw, View.set_ne _ _ (by simp), View.set_self]
      simp only [hdec]
    have hm : money (view h (after h (createStub a nm b c) s)) a = some ⟨b, c⟩ := by
      rw [hw, money_set, if_pos rfl]
    refine ⟨rfl, ?_, ?_, ?_⟩
    · unfold fields
      simp only [out_eval hc]
      rw [balance_eval (acc := ⟨a, stubTemplate, FixedLayout.default⟩) hm,
        counter_eval (acc := ⟨a, stubTemplate, FixedLayout.default⟩) hm]
      unfold name templateAddr
      simp only [Prog.bind_eq]
      rw [Prog.eval_bind_ok (info_read hi), Prog.eval_bind_ok (info_read hi)]
      rfl
    · intro acc' hne
      apply fields_congr hc
      · rw [hw, View.set_ne _ _ (by simp), View.set_ne _ _ (by simp [hne])]
      · rw [hw, View.set_ne _ _ (by simp [hne]), View.set_ne _ _ (by simp)]
    · intro chk acc' id buf
      rw [out_eval hc, out_eval hc]
      apply getVar_congr
      intro i
      rw [hw, View.set_ne _ _ (by simp), View.set_ne _ _ (by simp)]

theorem name_setMut {h : Hasher} (hc : NoCollision h) {s s' : Storage} {acc : Acc} {d : AccountMut}
    (hw : view h s' = (view h s).set (.accMut acc.addr) (mutBytes d)) :
    fields h s' acc = ((fields h s acc).1, (fields h s acc).2.1, .ok d.balance, .ok d.counter) := by
  have hm : money (view h s') acc.addr = some d := by rw [hw, money_set, if_pos rfl]
  have h1 : view h s' (.accData acc.addr) = view h s (.accData acc.addr) := by
    rw [hw, View.set_ne _ _ (by simp)]
  -- the same accounts, except for the balance record
  have k := fields_congr hc (s := s) (s' := s') (acc := acc) h1
  unfold fields at k ⊢
  simp only [out_eval hc] at k ⊢
  rw [balance_eval hm, counter_eval hm]
  have k1 := readAndDecode_congr decAccountData (.accData acc.addr) h1
  exact Prod.ext (map_congr _ k1) (Prod.ext (map_congr _ k1) rfl)

/-- C18, `set_balance`: if the account has a readable balance the call succeeds and changes exactly
the balance: the other three fields, every other account and all variables stay the same. -/
theorem C18_set_balance {h : Hasher} (hc : NoCollision h) {s : Storage} {acc : Acc} {b0 : U64}
    (hb : out h (balance acc) s = .ok b0) (b : U64) :
    out h (setBalance acc b) s = .ok () ∧
    fields h (after h (setBalance acc b) s) acc =
      ((fields h s acc).1, (fields h s acc).2.1, .ok b, (fields h s acc).2.2.2) ∧
    (∀ acc' : Acc, acc'.addr ≠ acc.addr →
      fields h (after h (setBalance acc b) s) acc' = fields h s acc') ∧
    (∀ chk (acc' : Acc) id buf, out h (getVar chk acc' id buf) (after h (setBalance acc b) s) =
      out h (getVar chk acc' id buf) s) := by
  rw [out_eval hc] at hb
  obtain ⟨_, d, hm, _⟩ := balance_ok (w' := ((balance acc).eval (view h s)).1) (Prod.ext rfl hb)
  have he := setBalance_eval hm b
  have hw : view h (after h (setBalance acc b) s) =
      (view h s).set (.accMut acc.addr) (mutBytes { d with balance := b }) := by
    rw [view_after hc, he]
  refine ⟨by rw [out_eval hc, he], ?_, ?_, ?_⟩
  · rw [name_setMut hc hw]
    have : (fields h s acc).2.2.2 = .ok d.counter := by
      unfold fields; simp only [out_eval hc]; rw [counter_eval hm]
    rw [this]
  · intro acc' hne
    apply fields_congr hc
    · rw [hw, View.set_ne _ _ (by simp)]
    · rw [hw, View.set_ne _ _ (by simp [hne])]
  · intro chk acc' id buf
    rw [out_eval hc, out_eval hc]
    apply getVar_congr
    intro i
    rw [hw, View.set_ne _ _ (by simp)]

/-- C18, `set_counter`: changes exactly the counter. -/
theorem C18_set_counter {h : Hasher} (hc : NoCollision h) {s : Storage} {acc : Acc} {b0 : U64}
    (hb : out h (balance acc) s = .ok b0) (c : U128) :
    out h (setCounter acc c) s = .ok () ∧
    fields h (after h (setCounter acc c) s) acc =
      ((fields h s acc).1, (fields h s acc).2.1, (fields h s acc).2.2.1, .ok c) ∧
    (∀ acc' : Acc, acc'.addr ≠ acc.addr →
      fields h (after h (setCounter acc c) s) acc' = fields h s acc') ∧
    (∀ chk (acc' : Acc) id buf, out h (getVar chk acc' id buf) (after h (setCounter acc c) s) =
      out h (getVar chk acc' id buf) s) := by
  rw [out_eval hc] at hb
  obtain ⟨_, d, hm, _⟩ := balance_ok (w' := ((balance acc).eval (view h s)).1) (Prod.ext rfl hb)
  have he := setCounter_eval hm c
  have hw : view h (after h (setCounter acc c) s) =
      (view h s).set (.accMut acc.addr) (mutBytes { d with counter := c }) := by
    rw [view_after hc, he]
  refine ⟨by rw [out_eval hc, he], ?_, ?_, ?_⟩
  · rw [name_setMut hc hw]
    have : (fields h s acc).2.2.1 = .ok d.balance := by
      unfold fields; simp only [out_eval hc]; rw [balance_eval hm]
    rw [this]
  · intro acc' hne
    apply fields_congr hc
    · rw [hw, View.set_ne _ _ (by simp)]
    · rw [hw, View.set_ne _ _ (by simp [hne])]
  · intro chk acc' id buf
    rw [out_eval hc, out_eval hc]
    apply getVar_congr
    intro i
    rw [hw, View.set_ne _ _ (by simp)]

/-- Non-vacuity of C18: a stub account is created on the fresh storage and its balance is readable,
for any hash function without collisions (`exists_noCollision`). -/
example (h : Hasher) (hc : NoCollision h) :
    ∃ acc, out h (createStub (exampleAddr 1) ⟨[0x61], by decide⟩ 10 3) Svm.Storage.fresh = .ok acc ∧
      out h (balance acc) (after h (createStub (exampleAddr 1) ⟨[0x61], by decide⟩ 10 3)
        Svm.Storage.fresh) = .ok 10 := by
  have hok : out h (createStub (exampleAddr 1) ⟨[0x61], by decide⟩ 10 3) Svm.Storage.fresh =
      .ok ⟨exampleAddr 1, stubTemplate, FixedLayout.default⟩ := rfl
  refine ⟨_, hok, ?_⟩
  have := (C18_createStub hc hok).2.1
  exact congrArg (fun x => x.2.2.1) this

/-! ## C67: variables of size zero -/

/-- The claim: a variable of size 0 can be written and read like any other. -/
def C67_claim : Prop :=
  ∀ (h : Hasher), NoCollision h → ∀ (s : Storage), Reach h s → ∀ (chk : Bool) (acc : Acc),
    LayoutOk acc.layout → ∀ (id : BitVec 32) (v : RawVar), acc.layout.get id = some v →
    v.byteSize = 0 → out h (getVarVec chk acc id) s = .ok []

/-- C67, what the code does instead: the read (and in the same way the write) of a variable of size 0
panics in builds with overflow checks, and in builds without them exactly when the variable starts
at a segment boundary. -/
theorem C67_zero_size_read {h : Hasher} (hc : NoCollision h) {s : Storage} (hr : Reach h s)
    (chk : Bool) {acc : Acc} (hl : LayoutOk acc.layout) {id : BitVec 32} {v : RawVar}
    (hg : acc.layout.get id = some v) (hz : v.byteSize = 0) :
    out h (getVarVec chk acc id) s =
      if chk = true ∨ v.offset.toNat % 32 = 0 then .panic else .ok [] := by
  have hw := (hr.view hc).segOk
  rw [out_eval hc]
  unfold getVarVec getVar
  simp only [Prog.bind_eq]
  rw [hg, Prog.eval_bind_ok (Prog.eval_ofOption_some _ _),
    Prog.eval_bind_ok (Prog.eval_ofOption_some _ _), if_neg (by simp),
    segmentsOffset_ok chk v (hl.bound id v hg), Prog.eval_bind_ok (Prog.eval_ofOption_some _ _), hz]
  cases chk with
  | true =>
    rw [if_pos (.inl rfl)]
    cases hs : varSegments true v.offset 0 with
    | none => rfl
    | some segs =>
      obtain ⟨hf, _⟩ := varSegments_zero hs
      cases hf
  | false =>
    have hsome : ∃ segs, varSegments false v.offset 0 = some segs := by
      unfold varSegments predUsize
      simp only [Bool.false_eq_true, if_false, Option.bind_eq_bind]
      split <;> exact ⟨_, rfl⟩
    obtain ⟨segs, hs⟩ := hsome
    obtain ⟨_, seg, rfl, hstop, hcase⟩ := varSegments_zero hs
    rw [hs, Prog.eval_bind_ok (Prog.eval_ofOption_some _ _), Prog.eval_bind]
    unfold getLoop
    simp only [Prog.bind_eq]
    rw [Prog.eval_bind_ok (readSegment_eval hw acc.addr seg)]
    simp only [Segment.len, Bool.false_eq_true, and_false, if_false]
    rw [Prog.eval_bind_ok (Prog.eval_ofOption_some _ _)]
    rcases hcase with ⟨c0, c1, c2⟩ | ⟨c0, c1, c2⟩
    · rw [c1, c2, if_neg (by simp), if_pos (.inr c0)]
      rfl
    · have h0 : seg.stop + 1 - seg.start = 0 := by omega
      rw [h0, if_pos ⟨by simp, by simpa [segmentSize] using hstop⟩,
        if_neg (by simp; omega)]
      rfl

theorem C67_zero_size_write {h : Hasher} (hc : NoCollision h) {s : Storage} (hr : Reach h s)
    (chk : Bool) {acc : Acc} (hl : LayoutOk acc.layout) {id : BitVec 32} {v : RawVar}
    (hg : acc.layout.get id = some v) (hz : v.byteSize = 0) (value : Bytes) :
    out h (setVarBytes chk acc id value) s =
      if chk = true ∨ v.offset.toNat % 32 = 0 then .panic else .ok () := by
  have hw := (hr.view hc).segOk
  rw [out_eval hc]
  unfold setVarBytes
  simp only [Prog.bind_eq]
  rw [hg, Prog.eval_bind_ok (Prog.eval_ofOption_some _ _), if_neg (by simp [hz]),
    segmentsOffset_ok chk v (hl.bound id v hg), Prog.eval_bind_ok (Prog.eval_ofOption_some _ _), hz]
  cases chk with
  | true =>
    rw [if_pos (.inl rfl)]
    cases hs : varSegments true v.offset 0 with
    | none => rfl
    | some segs =>
      obtain ⟨hf, _⟩ := varSegments_zero hs
      cases hf
  | false =>
    have hsome : ∃ segs, varSegments false v.offset 0 = some segs := by
      unfold varSegments predUsize
      simp only [Bool.false_eq_true, if_false, Option.bind_eq_bind]
      split <;> exact ⟨_, rfl⟩
    obtain ⟨segs, hs⟩ := hsome
    obtain ⟨_, seg, rfl, hstop, hcase⟩ := varSegments_zero hs
    rw [hs, Prog.eval_bind_ok (Prog.eval_ofOption_some _ _)]
    unfold setLoop
    simp only [Prog.bind_eq]
    rw [Prog.eval_bind_ok (readSegment_eval hw acc.addr seg)]
    simp only [Segment.len, Bool.false_eq_true, and_false, if_false]
    rw [Prog.eval_bind_ok (Prog.eval_ofOption_some _ _)]
    rcases hcase with ⟨c0, c1, c2⟩ | ⟨c0, c1, c2⟩
    · rw [c1, c2, if_neg (by simp), if_pos (.inr c0)]
      rfl
    · have h0 : seg.stop + 1 - seg.start = 0 := by omega
      rw [h0, if_pos ⟨by simp, by simpa [segmentSize] using hstop⟩,
        if_neg (by simp; omega)]
      rfl

/-- C67 is false: a layout with one variable of size 0 on the fresh storage. -/
theorem C67_claim_false : ¬ C67_claim := by
  intro hcl
  obtain ⟨h, hc⟩ := exists_noCollision
  have hlay : FixedLayout.fromByteSizes true 0 [0] = some ⟨some 0, [⟨0, 0, 0⟩]⟩ := by decide
  have hl : LayoutOk ⟨some 0, [⟨0, 0, 0⟩]⟩ := layoutOk_of_sizes (by decide) hlay
  have hg : FixedLayout.get ⟨some 0, [⟨0, 0, 0⟩]⟩ 0 = some ⟨0, 0, 0⟩ := by decide
  have h1 := hcl h hc _ .fresh true ⟨exampleAddr 1, exampleAddr 2, ⟨some 0, [⟨0, 0, 0⟩]⟩⟩ hl 0
    ⟨0, 0, 0⟩ hg rfl
  have h2 := C67_zero_size_read hc .fresh true
    (acc := ⟨exampleAddr 1, exampleAddr 2, ⟨some 0, [⟨0, 0, 0⟩]⟩⟩) hl hg rfl
  rw [if_pos (.inl rfl)] at h2
  rw [h2] at h1
  cases h1

end Svm.Account
