import Verif.Runtime.Templates

/-!
# Replacing the sections of a template (C155)

`TemplateStorage::set_core` and `set_noncore` (`crates/host/state/src/template_storage.rs:49-65`) overwrite one
of the two groups of sections of a template. `sections` (lines 44-47 and 76-84) reads both groups, and a
deployment (`crates/host/runtime/src/runtime/runtime.rs:602-615`) stores all sections in both of them. The model of
all this is in `Account.Model` and `Runtime.Model`.
-/

namespace Svm.Runtime.Renew

open Svm.Codec Svm.Account Svm.Runtime
open Svm.Storage (Hasher Storage)

/-! ## Spec -/

/-- Sections of distinct kinds that can be stored and come back as they are (C43). -/
def Storable (new : Sections) : Prop :=
  (new.map Section.kind).Nodup ∧ (∀ ls, Section.data ls ∈ new → ∀ l ∈ ls, Representable l) ∧
    (encSections new).isSome = true

/-- `sections()` of the template gives all these sections. -/
def Shows (chk : Bool) (h : Hasher) (t : Addr) (s : Storage) (new : Sections) : Prop :=
  ∃ ss, out h (readSections chk t) s = .ok ss ∧ ∀ x ∈ new, ss.tryGet x.kind = some x

/-- The claim of C155: after the core or the non-core sections of a template are overwritten, the new ones are
the sections of the template. -/
def C155_claim : Prop :=
  ∀ (h : Hasher), NoCollision h → ∀ s, Reach h s → ∀ (chk : Bool) (t : Addr) (ss new : Sections),
    out h (readSections chk t) s = .ok ss → Storable new →
      Shows chk h t (after h (setCore t new) s) new ∧ Shows chk h t (after h (setNoncore t new) s) new

/-! ## Lemmas -/

theorem tryGet_mem {s : Sections} (hv : (s.map Section.kind).Nodup) {x : Section} (hx : x ∈ s) :
    s.tryGet x.kind = some x := (tryGet_iff hv).2 ⟨hx, rfl⟩

theorem tryGet_none {s : Sections} {k : Kind} (h : ∀ y ∈ s, y.kind ≠ k) : s.tryGet k = none := by
  unfold Sections.tryGet
  rw [List.find?_eq_none]
  intro y hy
  simpa using h y hy

theorem sections_iff {h : Hasher} (hc : NoCollision h) {chk : Bool} {s : Storage} {t : Addr} {ss : Sections} :
    out h (readSections chk t) s = .ok ss ↔ out h (loadTemplate chk t) s = .ok ss := by
  rw [out_eval hc, out_eval hc]
  unfold loadTemplate
  rw [Prog.eval_unwrap]
  rcases (readSections chk t).eval (view h s) with ⟨w, o⟩
  cases o <;> simp

theorem Storable.bytes {new : Sections} (hn : Storable new) (chk : Bool) :
    ∃ bs, encSections new = some bs ∧ decSections chk none bs = .ok (new, []) := by
  obtain ⟨bs, hb⟩ := Option.isSome_iff_exists.1 hn.2.2
  have := C43_lossless_partial chk new bs [] hn.1 hn.2.1 hb
  rw [List.append_nil] at this
  exact ⟨bs, hb, this⟩

theorem view_setCore {h : Hasher} (hc : NoCollision h) {s : Storage} {t : Addr} {new : Sections} {bs : Bytes}
    (hb : encSections new = some bs) : view h (after h (setCore t new) s) = (view h s).set (.core t) bs := by
  rw [view_after hc]
  unfold setCore encodeAndWrite
  rw [hb]
  rfl

theorem view_setNoncore {h : Hasher} (hc : NoCollision h) {s : Storage} {t : Addr} {new : Sections} {bs : Bytes}
    (hb : encSections new = some bs) :
    view h (after h (setNoncore t new) s) = (view h s).set (.noncore t) bs := by
  rw [view_after hc]
  unfold setNoncore encodeAndWrite
  rw [hb]
  rfl

/-! ## Theorems -/

/-- C155 holds for `set_noncore`: every new section is shown. Missing: `set_core` (`C155_core`). -/
theorem C155_noncore_partial {h : Hasher} (hc : NoCollision h) {s : Storage} {chk : Bool} {t : Addr}
    {ss new : Sections} (hs : out h (readSections chk t) s = .ok ss) (hn : Storable new) :
    Shows chk h t (after h (setNoncore t new) s) new := by
  obtain ⟨core, rest, b1, b2, r1, r2, v1, v2, d1, d2, -⟩ := load_cases hc ((sections_iff hc).1 hs)
  obtain ⟨bs, hb, hd⟩ := hn.bytes chk
  have hv := view_setNoncore hc (s := s) (t := t) hb
  refine ⟨_, (sections_iff hc).2 (load_parts hc (b1 := b1) (b2 := bs) ?_ ?_ d1 hd), fun x hx => ?_⟩
  · rw [hv, View.set_ne _ _ (by simp), v1]
  · rw [hv, View.set_self]
  · rw [tryGet_merge hn.1, tryGet_mem hn.1 hx]
    rfl

/-- What `set_core` does: the template gets the new section of a kind if and only if the record of the non-core
sections has none of this kind, and keeps the one of that record otherwise. -/
theorem C155_core {h : Hasher} (hc : NoCollision h) {s : Storage} {chk : Bool} {t : Addr} {b rest : Bytes}
    {ss new noncore : Sections} (hs : out h (readSections chk t) s = .ok ss) (hn : Storable new)
    (hb : view h s (.noncore t) = some b) (hd : decSections chk none b = .ok (noncore, rest)) :
    ∃ ss', out h (readSections chk t) (after h (setCore t new) s) = .ok ss' ∧
      (∀ x ∈ noncore, ss'.tryGet x.kind = some x) ∧
      ∀ k, (∀ y ∈ noncore, y.kind ≠ k) → ss'.tryGet k = new.tryGet k := by
  obtain ⟨core, rest', b1, b2, r1, r2, v1, v2, d1, d2, -⟩ := load_cases hc ((sections_iff hc).1 hs)
  rw [hb] at v2
  cases v2
  obtain ⟨bs, hbs, hd'⟩ := hn.bytes chk
  have hv := view_setCore hc (s := s) (t := t) hbs
  have hm := (decSections_decoded hd).1
  refine ⟨_, (sections_iff hc).2 (load_parts hc (b1 := bs) (b2 := b) ?_ ?_ hd' hd), fun x hx => ?_, fun k hk => ?_⟩
  · rw [hv, View.set_self]
  · rw [hv, View.set_ne _ _ (by simp), hb]
  · rw [tryGet_merge hm, tryGet_mem hm hx]
    rfl
  · rw [tryGet_merge hm, tryGet_none hk]
    rfl

/-- C155 for `set_core`, if no new section is of a kind that the record of the non-core sections has. Missing: the
other kinds, which keep their old section (`C155_core`). -/
theorem C155_core_partial {h : Hasher} (hc : NoCollision h) {s : Storage} {chk : Bool} {t : Addr} {b rest : Bytes}
    {ss new noncore : Sections} (hs : out h (readSections chk t) s = .ok ss) (hn : Storable new)
    (hb : view h s (.noncore t) = some b) (hd : decSections chk none b = .ok (noncore, rest))
    (hk : ∀ x ∈ new, ∀ y ∈ noncore, y.kind ≠ x.kind) : Shows chk h t (after h (setCore t new) s) new := by
  obtain ⟨ss', h1, -, h2⟩ := C155_core hc hs hn hb hd
  exact ⟨ss', h1, fun x hx => by rw [h2 x.kind (hk x hx), tryGet_mem hn.1 hx]⟩

/-- How the claim fails: of a deployed template, `set_core` replaces nothing. Whatever sections it is given, the
template keeps every section that was deployed, among them its code, its constructors and its layout. -/
theorem C155_deployed {h : Hasher} (hc : NoCollision h) {chk : Bool} {envelope : Envelope} {message rest : Bytes}
    {ss new : Sections} {s s' : Storage} {r : DeployReceipt} {a : Addr}
    (hm : decSections chk none message = .ok (ss, rest)) (hdep : deploy chk h envelope message s = (s', some r))
    (ha : r.addr = some a) (hn : Storable new) :
    ∃ ss', out h (readSections chk a) (after h (setCore a new) s') = .ok ss' ∧
      (∀ x ∈ ss, ss'.tryGet x.kind = some x) ∧ ∀ k, (∀ y ∈ ss, y.kind ≠ k) → ss'.tryGet k = new.tryGet k := by
  unfold deploy at hdep
  rw [hm] at hdep
  simp only at hdep
  split at hdep
  · cases hdep
    cases ha
  · split at hdep
    · cases hdep
    · rename_i c hcs
      rw [run_out] at hdep
      cases he : encSections ss with
      | none =>
        rw [eval_createTemplate_none he] at hdep
        cases hdep
      | some bs =>
        have ho : out h (createTemplate (computeTemplateAddr h c) ss ss) s = .ok () := by
          rw [out_eval hc, eval_createTemplate he]
        rw [ho] at hdep
        cases hdep
        cases ha
        have hdec := decSections_again hm [] he
        rw [List.append_nil] at hdec
        have hw := view_after hc (createTemplate (computeTemplateAddr h c) ss ss) s
        rw [eval_createTemplate he] at hw
        dsimp only at hw
        have h2 : view h (after h (createTemplate (computeTemplateAddr h c) ss ss) s)
            (.noncore (computeTemplateAddr h c)) = some bs := by rw [hw, View.set_self]
        refine C155_core hc (ss := ss) ?_ hn h2 hdec
        rw [out_eval hc, readSections_eval hdec (decSections_decoded hm).1 ?_ h2]
        rw [hw, View.set_ne _ _ (by simp), View.set_self]

/-- Sections that differ from the demo template in their constructors. -/
def newCtors : Sections := [.ctors []]

theorem newCtors_storable : Storable newCtors := by
  refine ⟨by decide, fun ls hls => ?_, by decide⟩
  simp [newCtors] at hls

/-- C155 is violated: the constructors of a deployed template cannot be replaced. -/
theorem C155_claim_false : ¬ C155_claim := by
  intro hcl
  obtain ⟨h, hc, s, -, r, -, hr, h1, h2, -⟩ := C32_two_deploys
  have hd : decSections true none demoBytes = .ok (demoSections, []) := by decide +kernel
  have ha : ∃ a, r.addr = some a := by
    unfold deploy at h1
    rw [hd] at h1
    simp only at h1
    split at h1
    · cases h1
      cases h2
    · split at h1
      · cases h1
      · split at h1
        · cases h1
          exact ⟨_, rfl⟩
        · cases h1
  obtain ⟨a, ha⟩ := ha
  obtain ⟨ss', e1, e2, -⟩ := C155_deployed hc hd h1 ha newCtors_storable
  have hs : ∃ ss, out h (readSections true a) s = .ok ss := by
    obtain ⟨s₁, r₁, a₁, g, k1, -, k2, -, -, k3, -⟩ := (C33_deploy_partial hc (s := Svm.Storage.fresh) true demoEnvelope
      demoBytes [] demoSections (by decide +kernel) hd (by decide) (by
        intro cs hcs
        simp only [demoSections, List.mem_cons, List.not_mem_nil, or_false, Section.ctors.injEq, reduceCtorEq,
          false_or] at hcs
        subst hcs
        decide) (by
        intro ls hls l hl
        simp only [demoSections, List.mem_cons, List.not_mem_nil, or_false, Section.data.injEq, reduceCtorEq,
          false_or] at hls
        subst hls
        simp only [List.mem_cons, List.not_mem_nil, or_false] at hl
        subst hl
        decide)).2 (fun l hl => by cases hl)
    rw [h1] at k1
    cases k1
    rw [ha] at k2
    cases k2
    exact ⟨_, k3⟩
  obtain ⟨ss, hs⟩ := hs
  obtain ⟨ss2, e3, e4⟩ := (hcl h hc s hr true a ss newCtors hs newCtors_storable).1
  rw [e1] at e3
  cases e3
  have f1 := e4 (.ctors []) (by simp [newCtors])
  have f2 := e2 (.ctors [⟨[0x69, 0x6e], by decide⟩]) (by simp [demoSections])
  have f1 : ss'.tryGet .ctors = some (.ctors []) := f1
  have f2 : ss'.tryGet .ctors = some (.ctors [⟨[0x69, 0x6e], by decide⟩]) := f2
  rw [f1] at f2
  simp at f2

/-- Non-vacuity: sections that can be stored, and a template whose non-core record has no constructors. -/
example : Storable newCtors ∧ Storable demoSections ∧ ∃ bs, encSections [] = some bs ∧
    decSections true none bs = .ok ([], []) ∧ ∀ x ∈ newCtors, ∀ y ∈ ([] : Sections), y.kind ≠ x.kind :=
  ⟨newCtors_storable, ⟨by decide, demo_representable, by decide⟩, [0, 0], rfl, rfl, by simp⟩

end Svm.Runtime.Renew
