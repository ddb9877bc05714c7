import Verif.Codec.Props2
import Verif.Codec.Props3
import Mathlib.Data.List.Perm.Subperm

/-!
# C43, C45, C46: which values the encoders accept

The round trip theorems start from "the encoder returned bytes". These theorems say exactly when it
does (it panics otherwise).
-/

namespace Svm.Codec

open Svm.Layout (FixedLayout RawVar)

theorem encNum_isSome (n : Nat) (x : BitVec (8 * n)) : (encNum n x).isSome = true := rfl

theorem encArr_isSome {n : Nat} (a : Arr n) : (encArr a).isSome = true := rfl

theorem encByte_isSome (b : UInt8) : (encByte b).isSome = true := rfl

theorem encBool_isSome (b : Bool) : (encBool b).isSome = true := rfl

theorem encGas_isSome (g : Gas) : (encGas g).isSome = true := rfl

theorem encData_isSome (n : Nat) (d : Bytes) : (encData n d).isSome ↔ d.length < 256 ^ n := by
  unfold encData
  split
  · rename_i h
    rw [Enc.isSome_seq]
    exact ⟨fun _ => h, fun _ => ⟨rfl, rfl⟩⟩
  · rename_i h; simp [h]

theorem encMany_isSome {α : Type} (e : α → Enc) (l : List α) :
    (encMany e l).isSome ↔ ∀ a ∈ l, (e a).isSome := by
  induction l with
  | nil => simp [encMany]
  | cons a l ih => simp [encMany, Enc.isSome_seq, ih]

theorem encVec_isSome {α : Type} (e : α → Enc) (l : List α) :
    (encVec e l).isSome ↔ l.length < 65536 ∧ ∀ a ∈ l, (e a).isSome := by
  unfold encVec
  split
  · rename_i h
    rw [Enc.isSome_seq, encMany_isSome]
    simp [h, encNum_isSome]
  · rename_i h; simp [h]

/-! ## Receipts -/

/-- Logs that fit their prefixes. -/
def LogsFit (logs : List Bytes) : Prop := logs.length ≤ 255 ∧ ∀ l ∈ logs, l.length ≤ 65535

theorem encLogs_isSome (logs : List Bytes) : (encLogs logs).isSome ↔ LogsFit logs := by
  unfold encLogs LogsFit
  split
  · rename_i h
    rw [Enc.isSome_seq, encMany_isSome]
    simp only [encByte_isSome, true_and, h, encData_isSome]
    constructor
    · intro h1 l hl; have := h1 l hl; omega
    · intro h1 l hl; have := h1 l hl; omega
  · rename_i h; simp [h]

theorem encTouched_isSome (ord : Order Addr) (s : List Addr) :
    (encTouched ord s).isSome ↔ s.length ≤ 65535 := by
  unfold encTouched
  split
  · rename_i h
    rw [Enc.isSome_seq, encMany_isSome]
    simp only [encNum_isSome, true_and, encArr_isSome, implies_true, true_iff]; omega
  · rename_i h; simp only [Option.isSome_none, Bool.false_eq_true, false_iff]; omega

/-- Fields of a successful receipt that fit their prefixes. -/
def Receipt.Fits : Receipt → Prop
  | .deploy r => LogsFit r.logs
  | .spawn r => LogsFit r.logs ∧ r.touched.length ≤ 65535 ∧
      ∀ d, r.returndata = some d → d.length ≤ 65535
  | .call r => LogsFit r.logs ∧ r.touched.length ≤ 65535 ∧
      ∀ d, r.returndata = some d → d.length ≤ 65535

/-- The encoder accepts a successful receipt exactly when its fields fit their prefixes. -/
theorem C45_encodes_iff (ord : Order Addr) (r : Receipt) (hs : r.Successful) :
    (∃ bs, encReceipt ord r = some bs) ↔ r.Fits := by
  rw [← Option.isSome_iff_exists]
  cases r with
  | deploy r =>
    obtain ⟨hsucc, herr, a, ha⟩ := hs
    simp only [encReceipt, encDeployReceipt, hsucc, ha, encOpt, if_true, Enc.isSome_seq,
      encLogs_isSome, encByte_isSome, encNum_isSome, encBool_isSome, encArr_isSome, encGas_isSome,
      true_and, Receipt.Fits]
  | spawn r =>
    obtain ⟨hsucc, herr, hnd, ⟨ad, had⟩, ⟨st, hst⟩, d, hd⟩ := hs
    simp only [encReceipt, encSpawnReceipt, hsucc, had, hst, hd, encOpt, if_true, Enc.isSome_seq,
      encLogs_isSome, encByte_isSome, encNum_isSome, encBool_isSome, encArr_isSome, encGas_isSome,
      true_and, Receipt.Fits, encTouched_isSome, encData_isSome, Option.some.injEq, forall_eq']
    constructor
    · rintro ⟨h1, h2, h3⟩; exact ⟨h3, h2, by omega⟩
    · rintro ⟨h1, h2, h3⟩; exact ⟨by omega, h2, h1⟩
  | call r =>
    obtain ⟨hsucc, herr, hnd, ⟨st, hst⟩, d, hd⟩ := hs
    simp only [encReceipt, encCallReceipt, hsucc, hst, hd, encOpt, if_true, Enc.isSome_seq,
      encLogs_isSome, encByte_isSome, encNum_isSome, encBool_isSome, encArr_isSome, encGas_isSome,
      true_and, Receipt.Fits, encTouched_isSome, encData_isSome, Option.some.injEq, forall_eq']
    constructor
    · rintro ⟨h1, h2, h3⟩; exact ⟨h3, h2, by omega⟩
    · rintro ⟨h1, h2, h3⟩; exact ⟨by omega, h2, h1⟩

/-- Non-vacuity. -/
example : (Receipt.call demoCallReceipt).Fits :=
  ⟨⟨by decide, by decide⟩, by decide, by intro d hd; cases hd; decide⟩

/-- Errors whose strings fit their prefixes. The messages of `FuncFailed` and `FuncNotAllowed` may
be longer, if a character ends at byte 255. -/
def RuntimeError.Fits : RuntimeError → Prop
  | .compilationFailed _ _ msg => msg.1.length ≤ 255
  | .instantiationFailed _ _ msg => msg.1.length ≤ 255
  | .funcNotFound _ _ func => func.1.length ≤ 255
  | .funcNotCtor _ func => func.1.length ≤ 255
  | .funcInvalidSignature _ _ func => func.1.length ≤ 255
  | .funcFailed _ _ func msg => func.1.length ≤ 255 ∧
      (255 < msg.1.length → utf8Valid (msg.1.take 255) = true)
  | .funcNotAllowed _ _ func msg => func.1.length ≤ 255 ∧
      (255 < msg.1.length → utf8Valid (msg.1.take 255) = true)
  | _ => True

theorem encMsg_isSome (msg : Str) :
    (encMsg msg).isSome ↔ (255 < msg.1.length → utf8Valid (msg.1.take 255) = true) := by
  unfold encMsg
  by_cases hl : 255 < msg.1.length
  · rw [if_pos hl]
    split
    · rename_i hv
      rw [encStr_isSome]
      simp only [hv, implies_true, iff_true, List.length_take]
      omega
    · rename_i hv; simp [hl, hv]
  · rw [if_neg hl, encStr_isSome]
    constructor
    · intro _ h; exact absurd h hl
    · intro _; omega

theorem encErrBlob_isSome (e : RuntimeError) : (encErrBlob e).isSome ↔ e.Fits := by
  cases e <;>
    simp [encErrBlob, RuntimeError.Fits, Enc.isSome_seq, encArr_isSome, encStr_isSome,
      encMsg_isSome]

/-- The encoder accepts a failure receipt exactly when it has an error that fits and, except for
deploys (whose logs are dropped), logs that fit. In particular the error of a failed compilation with
a message of more than 255 bytes makes the encoder panic. -/
theorem C46_encodes_iff (ord : Order Addr) (r : Receipt) (hf : r.success = false) :
    (∃ bs, encReceipt ord r = some bs) ↔ ∃ e, r.error = some e ∧ e.Fits ∧
      ((∀ d, r ≠ .deploy d) → LogsFit r.logs) := by
  rw [← Option.isSome_iff_exists]
  have key : ∀ (o : Option RuntimeError) (logs : List Bytes),
      (encOpt (encFailure · logs) o).isSome ↔ ∃ e, o = some e ∧ e.Fits ∧ LogsFit logs := by
    intro o logs
    cases o with
    | none => simp [encOpt]
    | some e =>
      simp only [encOpt, encFailure, Enc.isSome_seq, encByte_isSome, encLogs_isSome,
        encErrBlob_isSome, true_and, Option.some.injEq, exists_eq_left']
      exact And.comm
  cases r with
  | deploy r =>
    simp only [Receipt.success] at hf
    simp only [encReceipt, encDeployReceipt, hf, Enc.isSome_seq, encByte_isSome, encNum_isSome,
      encBool_isSome, true_and, Bool.false_eq_true, if_false, key, Receipt.error]
    simp [LogsFit]
  | spawn r =>
    simp only [Receipt.success] at hf
    simp only [encReceipt, encSpawnReceipt, hf, Enc.isSome_seq, encByte_isSome, encNum_isSome,
      encBool_isSome, true_and, Bool.false_eq_true, if_false, key, Receipt.error, Receipt.logs]
    simp
  | call r =>
    simp only [Receipt.success] at hf
    simp only [encReceipt, encCallReceipt, hf, Enc.isSome_seq, encByte_isSome, encNum_isSome,
      encBool_isSome, true_and, Bool.false_eq_true, if_false, key, Receipt.error, Receipt.logs]
    simp

/-! ## Sections -/

/-- Number of bytes of an encoded layout. -/
def layoutSize (l : FixedLayout) : Nat := 4 + if l.vars = [] then 0 else 4 + 2 * l.vars.length

/-- Number of bytes of an encoded section. -/
def Section.size : Section → Nat
  | .header s => 6 + s.name.1.length + s.desc.1.length
  | .code s => 26 + s.code.length
  | .data ls => 2 + (ls.map layoutSize).sum
  | .ctors cs => 1 + (cs.map fun c => 1 + c.1.length).sum
  | .schema => 0
  | .api => 0
  | .deploy _ => 80

/-- Sections whose parts fit their prefixes and whose codec exists. -/
def Section.Fits : Section → Prop
  | .header s => s.name.1.length ≤ 255 ∧ s.desc.1.length ≤ 255
  | .code s => s.gasMode = .fixed
  | .data ls => ls.length ≤ 65535 ∧
      ∀ l ∈ ls, l.vars.length < 65535 ∧ (l.vars ≠ [] → ∃ f, l.first = some f)
  | .ctors cs => cs.length < 255 ∧ ∀ c ∈ cs, c.1.length ≤ 255
  | .schema => False
  | .api => False
  | .deploy _ => True

theorem encStr_length {s : Str} {bs : Bytes} (h : encStr s = some bs) :
    bs.length = 1 + s.1.length := by
  unfold encStr at h
  split at h
  · cases h; simp; omega
  · cases h

theorem encArr_length {n : Nat} {a : Arr n} {bs : Bytes} (h : encArr a = some bs) :
    bs.length = n := by
  cases h; exact a.2

theorem encMany_length {α : Type} {e : α → Enc} {sz : α → Nat}
    (h : ∀ a bs, e a = some bs → bs.length = sz a) (l : List α) (bs : Bytes)
    (he : encMany e l = some bs) : bs.length = (l.map sz).sum := by
  induction l generalizing bs with
  | nil => cases he; rfl
  | cons a l ih =>
    obtain ⟨x, y, hx, hy, rfl⟩ := Enc.seq_eq_some.1 he
    rw [List.length_append, h a x hx, ih y hy]; simp

theorem encLayout_length {l : FixedLayout} {bs : Bytes} (h : encLayout l = some bs) :
    bs.length = layoutSize l := by
  obtain ⟨b1, r1, h1, g1, rfl⟩ := Enc.seq_eq_some.1 h
  obtain ⟨b2, r2, h2, h3, rfl⟩ := Enc.seq_eq_some.1 g1
  have l1 := encNum_length h1
  have l2 : b2.length = 2 := by
    split at h2
    · exact encNum_length h2
    · cases h2
  unfold layoutSize
  by_cases h0 : l.vars = []
  · rw [if_neg (by simp [h0])] at h3
    cases h3
    simp [h0, l1, l2]
  · have hpos : 0 < l.vars.length := List.length_pos_iff.2 h0
    rw [if_pos hpos] at h3
    obtain ⟨b3, b4, h4, h5, rfl⟩ := Enc.seq_eq_some.1 h3
    have l3 : b3.length = 4 := by
      split at h4
      · exact encNum_length h4
      · cases h4
    have l4 := encMany_length (e := encVarSize) (sz := fun _ => 2)
      (fun a bs h => encNum_length h) _ _ h5
    have l5 : (l.vars.map fun _ => 2).sum = 2 * l.vars.length := by
      generalize l.vars = vs
      induction vs with
      | nil => rfl
      | cons v vs ih => simp only [List.map_cons, List.sum_cons, List.length_cons, ih]; omega
    rw [if_neg h0]
    simp only [List.length_append, l1, l2, l3, l4, l5]
    omega

theorem encSection_length {s : Section} {bs : Bytes} (h : encSection s = some bs) :
    bs.length = s.size := by
  cases s with
  | header s =>
    obtain ⟨b1, r1, h1, g1, rfl⟩ := Enc.seq_eq_some.1 (show encHeader s = some bs from h)
    obtain ⟨b2, b3, h2, h3, rfl⟩ := Enc.seq_eq_some.1 g1
    have l1 := encNum_length h1
    have l2 := encStr_length h2
    have l3 := encStr_length h3
    simp [Section.size, l1, l2, l3]; omega
  | code s =>
    obtain ⟨b1, r1, h1, g1, rfl⟩ := Enc.seq_eq_some.1 (show encCode s = some bs from h)
    obtain ⟨b2, r2, h2, g2, rfl⟩ := Enc.seq_eq_some.1 g1
    obtain ⟨b3, r3, h3, g3, rfl⟩ := Enc.seq_eq_some.1 g2
    obtain ⟨b4, b5, h4, h5, rfl⟩ := Enc.seq_eq_some.1 g3
    have l1 := encNum_length h1
    have l2 := encNum_length h2
    have l3 : b3.length = 8 := by
      cases hm : s.gasMode with
      | fixed => rw [hm] at h3; exact encNum_length h3
      | metering => rw [hm] at h3; cases h3
    have l4 := encNum_length h4
    have l5 : b5.length = 4 + s.code.length := by
      unfold encData at h5
      split at h5
      · obtain ⟨x, y, hx, hy, rfl⟩ := Enc.seq_eq_some.1 h5
        cases hy
        have := encNum_length hx
        simp [this]
      · cases h5
    simp [Section.size, l1, l2, l3, l4, l5]; omega
  | data ls =>
    have h' : encVec encLayout ls = some bs := h
    unfold encVec at h'
    split at h'
    · obtain ⟨x, y, hx, hy, rfl⟩ := Enc.seq_eq_some.1 h'
      have l1 := encNum_length hx
      have l2 := encMany_length (e := encLayout) (sz := layoutSize)
        (fun a bs h => encLayout_length h) _ _ hy
      simp [Section.size, l1, l2]
    · cases h'
  | ctors cs =>
    have h' : encCtors cs = some bs := h
    unfold encCtors at h'
    split at h'
    · obtain ⟨x, y, hx, hy, rfl⟩ := Enc.seq_eq_some.1 h'
      cases hx
      have l2 := encMany_length (e := encStr) (sz := fun c => 1 + c.1.length)
        (fun a bs h => encStr_length h) _ _ hy
      simp only [Section.size, List.length_append, l2]; rfl
    · cases h'
  | schema => cases h
  | api => cases h
  | deploy s =>
    obtain ⟨b1, r1, h1, g1, rfl⟩ := Enc.seq_eq_some.1 (show encDeploy s = some bs from h)
    obtain ⟨b2, r2, h2, g2, rfl⟩ := Enc.seq_eq_some.1 g1
    obtain ⟨b3, b4, h3, h4, rfl⟩ := Enc.seq_eq_some.1 g2
    have l1 := encArr_length h1
    have l2 := encNum_length h2
    have l3 := encArr_length h3
    have l4 := encArr_length h4
    simp [Section.size, l1, l2, l3, l4]

theorem encLayout_isSome (l : FixedLayout) :
    (encLayout l).isSome ↔ l.vars.length < 65535 ∧ (l.vars ≠ [] → ∃ f, l.first = some f) := by
  unfold encLayout
  rw [Enc.isSome_seq, Enc.isSome_seq]
  by_cases hl : l.vars.length < 65535
  · by_cases h0 : l.vars = []
    · simp [h0, encLayoutKind, encNum_isSome]
    · have hpos : 0 < l.vars.length := List.length_pos_iff.2 h0
      rw [if_pos hl, if_pos hpos, Enc.isSome_seq, encMany_isSome]
      cases hf : l.first with
      | none => simp [h0]
      | some f => simp [hl, encLayoutKind, encNum_isSome, encVarSize]
  · simp [hl]

theorem encSection_isSome (s : Section) (hsz : s.size < 4294967295) :
    (encSection s).isSome ↔ s.Fits := by
  cases s with
  | header s =>
    simp [encSection, encHeader, Enc.isSome_seq, encNum_isSome, encStr_isSome, Section.Fits]
  | code s =>
    have : s.code.length < 256 ^ 4 := by
      simp only [Section.size] at hsz
      omega
    cases hm : s.gasMode <;>
      simp [encSection, encCode, Enc.isSome_seq, encNum_isSome, encData_isSome, Section.Fits,
        encCodeKind, hm, encGasMode]; omega
  | data ls =>
    simp only [encSection, encDataSection, encVec_isSome, encLayout_isSome, Section.Fits]
    constructor
    · intro h; exact ⟨by omega, h.2⟩
    · intro h; exact ⟨by omega, h.2⟩
  | ctors cs =>
    simp only [encSection, encCtors, Section.Fits]
    split
    · rename_i h
      simp [Enc.isSome_seq, encByte_isSome, encMany_isSome, encStr_isSome, h]
    · rename_i h; simp [h]
  | schema => simp [encSection, Section.Fits]
  | api => simp [encSection, Section.Fits]
  | deploy s =>
    simp [encSection, encDeploy, Enc.isSome_seq, encNum_isSome, encArr_isSome, Section.Fits]

/-- The encoder accepts sections (one of each kind at most) exactly when every section has a codec,
its parts fit their prefixes and it has fewer than 2^32 - 1 bytes. -/
theorem C43_encodes_iff (s : Sections) (hv : (s.map Section.kind).Nodup)  :
    (∃ bs, encSections s = some bs) ↔ ∀ x ∈ s, x.Fits ∧ x.size < 4294967295 := by
  have hlen : s.length < 65535 := by
    have hsub : (s.map Section.kind) ⊆ [.header, .code, .data, .ctors, .schema, .api, .deploy] := by
      intro k _; cases k <;> simp
    have := (List.subperm_of_subset hv hsub).length_le
    simp at this
    omega
  rw [← Option.isSome_iff_exists]
  unfold encSections
  rw [if_pos hlen, Enc.isSome_seq, encMany_isSome]
  simp only [encNum_isSome, true_and]
  have key : ∀ x : Section, (encWithPreview x).isSome ↔ x.Fits ∧ x.size < 4294967295 := by
    intro x
    unfold encWithPreview
    by_cases hsz : x.size < 4294967295
    · cases he : encSection x with
      | none =>
        have := (encSection_isSome x hsz)
        rw [he] at this
        simpa [hsz] using this
      | some bs =>
        have h1 := (encSection_isSome x hsz).1 (by rw [he]; rfl)
        have h2 := encSection_length he
        simp only [h2, hsz, if_true, and_true, h1, iff_true, Enc.isSome_seq]
        exact ⟨rfl, rfl, rfl⟩
    · cases he : encSection x with
      | none => simp [hsz]
      | some bs =>
        have h2 := encSection_length he
        simp [h2, hsz]
  constructor
  · intro h x hx; exact (key x).1 (h x hx)
  · intro h x hx; exact (key x).2 (h x hx)

/-- Non-vacuity. -/
example : ∀ x ∈ demoSections, x.size < 4294967295 := by decide

end Svm.Codec
