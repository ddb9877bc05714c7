import Verif.Codec.Sections
import Verif.Codec.Props

/-!
# C42 - C44: template encodings
-/

namespace Svm.Codec

open Svm.Layout (FixedLayout RawVar)

/-! ## C42 -/

/-- The full claim C42: decoding a deploy message (`interests = none`, runtime.rs:554-557) never
panics. -/
def C42_claim (chk : Bool) : Prop := ∀ inp, decTemplate chk none inp ≠ .panic

/-- C42 is violated by the code: every message that starts with these eight bytes (one section, of
kind schema) panics, in every build. -/
theorem C42_schema_panics (chk : Bool) (rest : Bytes) :
    decTemplate chk none ([0, 1, 0, 4, 0, 0, 0, 0] ++ rest) = .panic := by
  have h : decSections chk none ([0, 1] ++ ([0, 4] ++ ([0, 0, 0, 0] ++ rest))) = .panic := by
    unfold decSections
    rw [(roundTrip_num 2).step (show encNum 2 1 = some [0, 1] from rfl)]
    show decSectionsLoop chk none 1 [] _ = _
    unfold decSectionsLoop
    rw [roundTrip_kind.step (show encKind .schema = some [0, 4] from rfl),
      (roundTrip_num 4).step (show encNum 4 0 = some [0, 0, 0, 0] from rfl)]
    rfl
  have e : ([0, 1, 0, 4, 0, 0, 0, 0] ++ rest : Bytes) = [0, 1] ++ ([0, 4] ++ ([0, 0, 0, 0] ++ rest)) := by
    simp
  rw [e]
  unfold decTemplate
  rw [Dec.bind_apply, h]

/-- C42 is violated by the code. -/
theorem C42_no_panic_false (chk : Bool) : ¬ C42_claim chk := by
  intro h
  exact h _ (C42_schema_panics chk [])

theorem take_append_of_length {a b : Bytes} {n : Nat} (h : a.length = n) : (a ++ b).take n = a := by
  subst h; simp

theorem drop_append_of_length {a b : Bytes} {n : Nat} (h : a.length = n) : (a ++ b).drop n = b := by
  subst h; simp

/-- A number decoded from `n` bytes is 1 exactly when the bytes are those of 1. -/
theorem decNum_eq_one {n : Nat} {x : BitVec (8 * n)} {bs : Bytes} (h : encNum n x = some bs) :
    x = 1 ↔ bs = natBE n (1 : BitVec (8 * n)).toNat := by
  constructor
  · intro hx; subst hx; exact (Option.some.inj h).symm
  · intro hb
    subst hb
    exact ((roundTrip_num n).prefix_free (s := []) (t := []) h
      (show encNum n (1 : BitVec (8 * n)) = some _ from rfl) rfl).1

/-- Exactly which bytes make the code section decoder panic: a Wasm code kind followed by flags and
a gas mode other than 1. -/
theorem C42_code_panics_iff (inp : Bytes) :
    decCode inp = .panic ↔ inp.take 2 = [0, 1] ∧ 18 ≤ inp.length ∧
      (inp.drop 10).take 8 ≠ [0, 0, 0, 0, 0, 0, 0, 1] := by
  constructor
  · intro h
    rcases Dec.bind_eq_panic h with h | ⟨⟨⟩, m1, h1, hg⟩
    · rcases Dec.bind_eq_panic h with h | ⟨n, m, hn, h⟩
      · exact absurd h (noPanic_num 2 _)
      · split at h <;> cases h
    clear h
    obtain ⟨n, m, hn, h1'⟩ := Dec.bind_eq_ok h1
    obtain ⟨b1, e1, rfl⟩ := canonical_num 2 _ _ _ hn
    have hl1 := encNum_length e1
    split at h1'
    · rename_i hn1
      cases h1'
      have hb1 := (decNum_eq_one e1).1 hn1
      rcases Dec.bind_eq_panic hg with hp | ⟨fl, m2, h2, hg2⟩
      · exact absurd hp (noPanic_num 8 _)
      obtain ⟨b2, e2, rfl⟩ := canonical_num 8 _ _ _ h2
      have hl2 := encNum_length e2
      rcases Dec.bind_eq_panic hg2 with hp | ⟨gm, m3, h3, hg3⟩
      · rcases Dec.bind_eq_panic hp with hp2 | ⟨g, m4, h4, hp3⟩
        · exact absurd hp2 (noPanic_num 8 _)
        · obtain ⟨b3, e3, rfl⟩ := canonical_num 8 _ _ _ h4
          have hl3 := encNum_length e3
          split at hp3
          · cases hp3
          · rename_i hg
            refine ⟨?_, ?_, ?_⟩
            · rw [take_append_of_length hl1, hb1]; rfl
            · simp only [List.length_append, hl1, hl2, hl3]; omega
            · rw [← List.append_assoc, drop_append_of_length (by
                rw [List.length_append, hl1, hl2]), take_append_of_length hl3]
              intro hb
              exact hg ((decNum_eq_one e3).2 hb)
      · rcases Dec.bind_eq_panic hg3 with hp | ⟨v, m4, h4, hg4⟩
        · exact absurd hp (noPanic_num 4 _)
        · rcases Dec.bind_eq_panic hg4 with hp | ⟨c, m5, h5, hg5⟩
          · exact absurd hp (noPanic_data 4 _)
          · cases hg5
    · cases h1'
  · rintro ⟨h1, h2, h3⟩
    -- split the input in its first 18 bytes
    obtain ⟨b2, b3, rest, rfl, l2, l3⟩ : ∃ b2 b3 rest, inp = [0, 1] ++ (b2 ++ (b3 ++ rest)) ∧
        b2.length = 8 ∧ b3.length = 8 := by
      refine ⟨(inp.drop 2).take 8, (inp.drop 10).take 8, inp.drop 18, ?_, ?_, ?_⟩
      · rw [← h1]
        have e1 : inp.drop 18 = (inp.drop 10).drop 8 := by rw [List.drop_drop]
        have e2 : inp.drop 10 = (inp.drop 2).drop 8 := by rw [List.drop_drop]
        rw [e1, List.take_append_drop, e2, List.take_append_drop, List.take_append_drop]
      · rw [List.length_take, List.length_drop]; omega
      · rw [List.length_take, List.length_drop]; omega
    have hb3 : b3 ≠ [0, 0, 0, 0, 0, 0, 0, 1] := by
      rw [← List.append_assoc, drop_append_of_length (by simp [l2]), take_append_of_length l3] at h3
      exact h3
    have k2 : ∀ r, decNum 8 (b2 ++ r) = .ok (BitVec.ofNat _ (beNat b2), r) := by
      intro r; unfold decNum; rw [Dec.bind_ok (readBytes_append l2)]; rfl
    have k3 : ∀ r, decNum 8 (b3 ++ r) = .ok (BitVec.ofNat _ (beNat b3), r) := by
      intro r; unfold decNum; rw [Dec.bind_ok (readBytes_append l3)]; rfl
    have hne : ¬ BitVec.ofNat (8 * 8) (beNat b3) = 1 := by
      intro he
      obtain ⟨bs, e, hbs⟩ := canonical_num 8 _ _ _ (k3 [])
      rw [List.append_nil, List.append_nil] at hbs
      subst hbs
      exact hb3 ((decNum_eq_one e).1 he)
    unfold decCode
    have k1 : decCodeKind ([0, 1] ++ (b2 ++ (b3 ++ rest))) = .ok ((), b2 ++ (b3 ++ rest)) := by
      unfold decCodeKind
      rw [(roundTrip_num 2).step (show encNum 2 1 = some [0, 1] from rfl)]
      rfl
    rw [Dec.bind_ok k1, Dec.bind_ok (k2 _)]
    have k4 : decGasMode (b3 ++ rest) = .panic := by
      unfold decGasMode
      rw [Dec.bind_ok (k3 _), if_neg hne]
      rfl
    rw [Dec.bind_apply, k4]

/-- Exactly when a layout decoder panics in a build without overflow checks: when there are two
bytes of layout kind and they are not 0, 1. -/
theorem C42_layout_panics_iff (inp : Bytes) :
    decLayout false inp = .panic ↔ 2 ≤ inp.length ∧ inp.take 2 ≠ [0, 1] := by
  have total : ∀ first i off sizes, ∃ vars,
      Svm.Layout.fromSizesLoop false first i off sizes = some vars := by
    intro first i off sizes
    induction sizes generalizing i off with
    | nil => exact ⟨[], rfl⟩
    | cons s ss ih =>
      obtain ⟨vars, hv⟩ := ih (i + 1) (off + s)
      exact ⟨_, by simp [Svm.Layout.fromSizesLoop, Svm.Layout.addW, hv]; rfl⟩
  have ntotal : ∀ first sizes, FixedLayout.fromByteSizes false first sizes ≠ none := by
    intro first sizes h
    obtain ⟨vars, hv⟩ := total first 0 0 sizes
    simp only [FixedLayout.fromByteSizes, hv] at h
    cases h
  constructor
  · intro h
    rcases Dec.bind_eq_panic h with h | ⟨⟨⟩, m1, h1, h⟩
    · rcases Dec.bind_eq_panic h with h | ⟨n, m, hn, h⟩
      · exact absurd h (noPanic_num 2 _)
      · have h' := h
        obtain ⟨b1, e1, rfl⟩ := canonical_num 2 _ _ _ hn
        have hl := encNum_length e1
        split at h'
        · cases h'
        · rename_i hne
          refine ⟨by simp [hl], ?_⟩
          rw [take_append_of_length hl]
          intro hb
          exact hne ((decNum_eq_one e1).2 hb)
    · exfalso
      rcases Dec.bind_eq_panic h with h | ⟨n, m2, h2, h⟩
      · exact noPanic_num 2 _ h
      rcases Dec.bind_eq_panic h with h | ⟨p, m3, h3, h⟩
      · split at h
        · rcases Dec.bind_eq_panic h with h | ⟨f, m4, h4, h⟩
          · exact noPanic_num 4 _ h
          rcases Dec.bind_eq_panic h with h | ⟨ss, m5, h5, h⟩
          · refine noPanic_many ?_ _ _ h
            exact NoPanic.bind (noPanic_num 2) fun _ => NoPanic.pure _
          · cases h
        · cases h
      · obtain ⟨f, ss⟩ := p
        change (match FixedLayout.fromByteSizes false f ss with
          | some l => (pure l : Dec FixedLayout)
          | none => Dec.panic) m3 = .panic at h
        cases hx : FixedLayout.fromByteSizes false f ss with
        | some l => rw [hx] at h; cases h
        | none => exact ntotal _ _ hx
  · rintro ⟨h1, h2⟩
    obtain ⟨b1, rest, rfl, l1⟩ : ∃ b1 rest, inp = b1 ++ rest ∧ b1.length = 2 :=
      ⟨inp.take 2, inp.drop 2, (List.take_append_drop 2 inp).symm, by
        rw [List.length_take]; omega⟩
    rw [take_append_of_length l1] at h2
    have k : decNum 2 (b1 ++ rest) = .ok (BitVec.ofNat _ (beNat b1), rest) := by
      unfold decNum; rw [Dec.bind_ok (readBytes_append l1)]; rfl
    have hne : ¬ BitVec.ofNat (8 * 2) (beNat b1) = 1 := by
      intro he
      obtain ⟨bs, e, hbs⟩ := canonical_num 2 _ _ _ k
      have := List.append_cancel_right hbs
      subst this
      exact h2 ((decNum_eq_one e).1 he)
    have k2 : decLayoutKind (b1 ++ rest) = .panic := by
      unfold decLayoutKind
      rw [Dec.bind_ok k, if_neg hne]
      rfl
    unfold decLayout
    rw [Dec.bind_apply, k2]

/-- C42 for a decoder asked for header, constructor and deploy sections only: no bytes make it
panic. Missing: code, data, schema and API sections, whose decoders do panic (see
`C42_schema_panics`, `C42_code_panics_iff`, `C42_layout_panics_iff`). -/
theorem C42_no_panic_partial (chk : Bool) (ks : List Kind)
    (h : ∀ k ∈ ks, k = .header ∨ k = .ctors ∨ k = .deploy) (inp : Bytes) :
    decTemplate chk (some ks) inp ≠ .panic := by
  have hloop : NoPanic (decSections chk (some ks)) := by
    refine NoPanic.bind (noPanic_num 2) fun n => noPanic_loop chk _ ?_ _ _
    intro k hk
    have hk' : k ∈ ks := by simpa [interested] using hk
    rcases h k hk' with rfl | rfl | rfl
    · exact NoPanic.bind noPanic_header fun _ => NoPanic.pure _
    · exact NoPanic.bind noPanic_ctors fun _ => NoPanic.pure _
    · exact NoPanic.bind noPanic_deploy fun _ => NoPanic.pure _
  refine NoPanic.bind hloop (fun s => ?_) inp
  intro i hi
  split at hi <;> cases hi

/-- Non-vacuity: a list of kinds that meets the hypothesis, on bytes with a (skipped) schema
section. -/
example : (∀ k ∈ [Kind.header, .ctors], k = .header ∨ k = .ctors ∨ k = .deploy) ∧
    decTemplate true (some [.header, .ctors]) [0, 1, 0, 4, 0, 0, 0, 0] = .err .invalidSection :=
  ⟨by decide, rfl⟩

/-! ## C43 -/

/-- The full claim C43: sections with distinct kinds that are accepted by the encoder decode to
themselves, in the same order, leaving the bytes that follow. -/
def C43_claim (chk : Bool) : Prop :=
  ∀ (s : Sections) (bs suffix : Bytes), (s.map Section.kind).Nodup → encSections s = some bs →
    decSections chk none (bs ++ suffix) = .ok (s, suffix)

/-- A layout with one variable of 65536 bytes. -/
def bigVarLayout : FixedLayout :=
  { first := some 0, vars := [{ id := 0, offset := 0, byteSize := 65536 }] }

/-- C43 is violated by the code: the size of a variable of 65536 bytes is encoded as 0. -/
theorem C43_lossless_false (chk : Bool) : ¬ C43_claim chk := by
  intro h
  have h1 := h [.data [bigVarLayout]] _ [] (by decide) rfl
  cases chk
  · exact absurd h1 (by decide)
  · exact absurd h1 (by decide)

theorem fromSizesLoop_checked {first : Svm.Layout.Id} {i : Nat} {off : BitVec 32}
    {sizes : List (BitVec 32)} {vars : List RawVar} (hi : i + sizes.length < 2 ^ 32)
    (h : Svm.Layout.fromSizesLoop true first i off sizes = some vars) :
    vars.map RawVar.byteSize = sizes ∧
    ∀ j v, vars[j]? = some v → v.id.toNat = first.toNat + i + j ∧
      v.offset.toNat = off.toNat + Svm.Layout.total (sizes.take j) := by
  induction sizes generalizing i off vars with
  | nil => cases h; exact ⟨rfl, by simp⟩
  | cons s ss ih =>
    simp only [Svm.Layout.fromSizesLoop, Option.bind_eq_bind, Option.bind_eq_some_iff] at h
    obtain ⟨id, h1, off', h2, vs, h3, h4⟩ := h
    cases h4
    simp only [List.length_cons] at hi
    have hi' : (BitVec.ofNat 32 i).toNat = i := by
      rw [BitVec.toNat_ofNat]; exact Nat.mod_eq_of_lt (by omega)
    have a1 : id.toNat = first.toNat + i := by
      unfold Svm.Layout.addW at h1
      split at h1
      · cases h1
      · rename_i hn
        cases h1
        simp only [Bool.true_and, decide_eq_true_eq, Nat.not_le] at hn
        rw [BitVec.toNat_add, Nat.mod_eq_of_lt hn, hi']
    have a2 : off'.toNat = off.toNat + s.toNat := by
      unfold Svm.Layout.addW at h2
      split at h2
      · cases h2
      · rename_i hn
        cases h2
        simp only [Bool.true_and, decide_eq_true_eq, Nat.not_le] at hn
        rw [BitVec.toNat_add, Nat.mod_eq_of_lt hn]
    obtain ⟨b1, b2⟩ := ih (by omega) h3
    refine ⟨by simp [b1], ?_⟩
    intro j v hj
    cases j with
    | zero =>
      simp only [List.getElem?_cons_zero, Option.some.injEq] at hj
      subst hj
      exact ⟨by simpa using a1, by simp⟩
    | succ j =>
      simp only [List.getElem?_cons_succ] at hj
      obtain ⟨c1, c2⟩ := b2 j v hj
      simp only [List.take_succ_cons, Svm.Layout.total_cons]
      exact ⟨by omega, by omega⟩

/-- In a build with overflow checks a layout survives encoding exactly when it is representable:
sizes below 2^16, consecutive ids and offsets, first id 0 if there are no variables. -/
theorem C43_layout_lossless_iff (l : FixedLayout) (bs suffix : Bytes)
    (h : encLayout l = some bs) :
    decLayout true (bs ++ suffix) = .ok (l, suffix) ↔ Representable l := by
  constructor
  · intro hd
    rw [decLayout_enc true l bs suffix h] at hd
    split at hd
    · rename_i l' hl'
      simp only [Outcome.ok.injEq, Prod.mk.injEq, and_true] at hd
      subst hd
      unfold FixedLayout.fromByteSizes at hl'
      simp only [Option.bind_eq_bind, Option.bind_eq_some_iff] at hl'
      obtain ⟨vars, hv, heq⟩ := hl'
      have hlen := encLayout_len h
      have hl : (truncSizes l'.vars).length = l'.vars.length := by simp [truncSizes]
      obtain ⟨c1, c2⟩ := fromSizesLoop_checked (by rw [hl]; omega) hv
      have heq' := Option.some.inj heq
      have hvars : vars = l'.vars := congrArg FixedLayout.vars heq'
      subst hvars
      refine ⟨_, (congrArg FixedLayout.first heq').symm, fun he => by simp [he], ?_⟩
      intro i v hi
      obtain ⟨d1, d2⟩ := c2 i v hi
      refine ⟨by omega, ?_, ?_⟩
      · rw [d2, ← c1]
        unfold Svm.Layout.total
        rw [← List.map_take, List.map_map]
        simp only [BitVec.ofNat_eq_ofNat, BitVec.toNat_ofNat, Nat.zero_mod, Nat.zero_add]
        rfl
      · have hmem := List.mem_of_getElem? hi
        have : v.byteSize ∈ truncSizes l'.vars := by
          rw [← c1]; exact List.mem_map.2 ⟨v, hmem, rfl⟩
        obtain ⟨w, _, hw⟩ := List.mem_map.1 this
        rw [← hw, BitVec.toNat_setWidth, BitVec.toNat_setWidth]
        have : w.byteSize.toNat % 2 ^ 16 < 65536 := Nat.mod_lt _ (by decide)
        exact Nat.lt_of_le_of_lt (Nat.mod_le _ _) this
    · cases hd
  · intro hr
    exact decLayout_representable true l hr bs suffix h

/-- C43 for sections whose layouts are representable (`Representable`); all other sections without
condition. Missing: layouts with sizes of 65536 or more, non-consecutive ids or offsets, or no
variables and a first id other than 0. -/
theorem C43_lossless_partial (chk : Bool) (s : Sections) (bs suffix : Bytes)
    (hv : (s.map Section.kind).Nodup)
    (hr : ∀ ls, .data ls ∈ s → ∀ l ∈ ls, Representable l) (h : encSections s = some bs) :
    decSections chk none (bs ++ suffix) = .ok (s, suffix) := by
  obtain ⟨x, y, hx, hy, rfl, hn⟩ := encSections_some h
  unfold decSections
  rw [List.append_assoc, (roundTrip_num 2).step hx, hn]
  have hr' : ∀ z ∈ s, Section.Representable z := by
    intro z hz
    cases z with
    | data ls => exact hr ls hz
    | _ => trivial
  have := decSectionsLoop_representable chk s [] hv hr' y suffix hy
  simpa using this

/-- The layout without variables made by `FixedLayout::default` also comes back different (its first
id becomes 0). -/
theorem C43_default_layout_changes (chk : Bool) (suffix : Bytes) : ∃ bs,
    encSections [.data [FixedLayout.default]] = some bs ∧
    decSections chk none (bs ++ suffix)
      = .ok ([.data [{ first := some 0, vars := [] }]], suffix) := by
  obtain ⟨bs, hb⟩ := Option.isSome_iff_exists.1
    (show (encSections [.data [FixedLayout.default]]).isSome by decide)
  refine ⟨bs, hb, C43_lossless_partial chk _ bs suffix (by decide) ?_ hb⟩
  intro ls hls l hl
  simp only [List.mem_cons, List.not_mem_nil, or_false, Section.data.injEq] at hls
  subst hls
  simp only [List.mem_cons, List.not_mem_nil, or_false] at hl
  subst hl
  exact ⟨0, rfl, fun _ => rfl, by simp⟩

/-- Sections for the examples: a template with two variables. -/
def demoSections : Sections :=
  [ .code { code := [0, 97, 115, 109], flags := 1, gasMode := .fixed, svmVersion := 0 }
  , .data [{ first := some 3, vars :=
      [{ id := 3, offset := 0, byteSize := 20 }, { id := 4, offset := 20, byteSize := 4 }] }]
  , .ctors [⟨[0x69, 0x6e], by decide⟩]
  , .header { codeVersion := 0, name := ⟨[0x61], by decide⟩, desc := ⟨[], by decide⟩ } ]

theorem demo_representable : ∀ ls, .data ls ∈ demoSections → ∀ l ∈ ls, Representable l := by
  intro ls hls l hl
  simp only [demoSections, List.mem_cons, List.not_mem_nil, or_false, Section.data.injEq,
    reduceCtorEq, false_or] at hls
  subst hls
  simp only [List.mem_cons, List.not_mem_nil, or_false] at hl
  subst hl
  refine ⟨3, rfl, by simp, ?_⟩
  intro i v hi
  match i with
  | 0 => simp at hi; subst hi; decide
  | 1 => simp at hi; subst hi; decide
  | n + 2 => simp at hi

/-- Non-vacuity: these sections meet the hypotheses. -/
example : (demoSections.map Section.kind).Nodup ∧ (encSections demoSections).isSome ∧
    (∀ ls, .data ls ∈ demoSections → ∀ l ∈ ls, Representable l) :=
  ⟨by decide, by decide, demo_representable⟩

/-! ## C44 -/

/-- C44: on every encoded list of sections, if decoding all sections returns `full`, then decoding
only the kinds `ks` returns the sections of `full` whose kind is in `ks`, and stops at the same
position. -/
theorem C44_selective_decode (chk : Bool) (s : Sections) (bs suffix : Bytes) (ks : List Kind)
    (hv : (s.map Section.kind).Nodup) (h : encSections s = some bs) (full : Sections) (rest : Bytes)
    (hfull : decSections chk none (bs ++ suffix) = .ok (full, rest)) :
    decSections chk (some ks) (bs ++ suffix)
      = .ok (full.filter (fun x => decide (x.kind ∈ ks)), rest) := by
  obtain ⟨x, y, hx, hy, rfl, hn⟩ := encSections_some h
  unfold decSections at hfull ⊢
  rw [List.append_assoc, (roundTrip_num 2).step hx, hn] at hfull ⊢
  have := decSectionsLoop_filter chk ks s [] hv y suffix hy full rest hfull
  simpa using this

/-- Non-vacuity: the full decode of the demo sections succeeds. -/
example : ∃ bs, encSections demoSections = some bs ∧
    decSections true none (bs ++ []) = .ok (demoSections, []) := by
  obtain ⟨bs, hb⟩ := Option.isSome_iff_exists.1 (show (encSections demoSections).isSome by decide)
  exact ⟨bs, hb, C43_lossless_partial true demoSections bs [] (by decide) demo_representable hb⟩

end Svm.Codec
