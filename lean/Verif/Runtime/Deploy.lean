import Verif.Runtime.Isolation
import Verif.Runtime.GasProps
import Verif.Codec.Decoded

/-!
# Properties C32, C33 and C34: deploying templates, and gas at spawn
-/

namespace Svm.Runtime

open Svm.Codec Svm.Account
open Svm.Storage (Hasher Storage Inv)

theorem payloadPrice_toNat {m : Bytes} (hm : m.length < 4294967295) :
    (payloadPrice m).toNat = 1000 * m.length := by
  unfold payloadPrice
  rw [BitVec.toNat_ofNat]
  omega

theorem gasLt_iff (g : Gas) (x : U64) :
    gasLt g x = true ↔ ∃ l, g = some l ∧ l.toNat < x.toNat := by
  unfold gasLt gasCmp
  cases g with
  | none => simp
  | some l =>
    simp only [beq_iff_eq, Nat.compare_eq_lt, Option.some.injEq, exists_eq_left']

/-- Creation of a template from encodable sections. -/
theorem eval_createTemplate {t : Addr} {ss : Sections} {bs : Bytes} (h : encSections ss = some bs)
    (w : View) : (createTemplate t ss ss).eval w =
      ((w.set (.core t) bs).set (.noncore t) bs, .ok ()) := by
  unfold createTemplate encodeAndWrite
  rw [h]
  rfl

theorem eval_createTemplate_none {t : Addr} {ss : Sections} (h : encSections ss = none) :
    createTemplate t ss ss = .panic true := by
  unfold createTemplate encodeAndWrite
  rw [h]
  rfl

theorem readSections_eval {chk : Bool} {t : Addr} {ss : Sections} {bs : Bytes} {w : View}
    (hd : decSections chk none bs = .ok (ss, [])) (hn : (ss.map Section.kind).Nodup)
    (h1 : w (.core t) = some bs) (h2 : w (.noncore t) = some bs) :
    (readSections chk t).eval w = (w, .ok ss) := by
  unfold readSections
  rw [Prog.bind_eq, Prog.eval_bind_ok (readAndDecode_ok h1 hd), Prog.bind_eq,
    Prog.eval_bind_ok (readAndDecode_ok h2 hd), foldl_insert_self hn ss fun _ hx => hx]
  rfl

theorem readSections_congr (chk : Bool) (t : Addr) {w w' : View} (h1 : w (.core t) = w' (.core t))
    (h2 : w (.noncore t) = w' (.noncore t)) :
    ((readSections chk t).eval w).2 = ((readSections chk t).eval w').2 := by
  unfold readSections
  simp only [Prog.bind_eq, Prog.eval_bind]
  have a1 := readAndDecode_view (decSections chk none) (.core t) w
  have a2 := readAndDecode_view (decSections chk none) (.core t) w'
  have a3 := readAndDecode_congr (decSections chk none) (.core t) h1
  have b1 := readAndDecode_view (decSections chk none) (.noncore t) w
  have b2 := readAndDecode_view (decSections chk none) (.noncore t) w'
  have b3 := readAndDecode_congr (decSections chk none) (.noncore t) h2
  generalize (readAndDecode (decSections chk none) (.core t)).eval w = x at *
  generalize (readAndDecode (decSections chk none) (.core t)).eval w' = y at *
  obtain ⟨x1, x2⟩ := x
  obtain ⟨y1, y2⟩ := y
  simp only at a1 a2 a3
  subst a1 a2 a3
  cases x2 with
  | ok core =>
    simp only
    generalize (readAndDecode (decSections chk none) (.noncore t)).eval x1 = x at *
    generalize (readAndDecode (decSections chk none) (.noncore t)).eval y1 = y at *
    obtain ⟨x3, x4⟩ := x
    obtain ⟨y3, y4⟩ := y
    simp only at b1 b2 b3
    subst b3
    cases x4 <;> rfl
  | err | panic => rfl

/-! ## C33 -/

/-- The claim of C33: for every message that decodes, with 1000 units per byte: a limit below the
price gives an out-of-gas receipt and no change, and any other limit a success receipt with exactly
that gas, after which the sections of the message are read at the reported address. -/
def C33_claim : Prop :=
  ∀ (h : Hasher), NoCollision h → ∀ s, Reach h s → ∀ (chk : Bool) (envelope : Envelope)
    (message rest : Bytes) (ss : Sections), decSections chk none message = .ok (ss, rest) →
    ((∃ l, envelope.gasLimit = some l ∧ l.toNat < 1000 * message.length) →
      deploy chk h envelope message s = (s, some (DeployReceipt.fromErr .oog []))) ∧
    ((∀ l, envelope.gasLimit = some l → 1000 * message.length ≤ l.toNat) →
      ∃ s' r a g, deploy chk h envelope message s = (s', some r) ∧ r.success = true ∧
        r.addr = some a ∧ r.gasUsed = some g ∧ g.toNat = 1000 * message.length ∧
        out h (readSections chk a) s' = .ok ss)

/-- C33, when the code panics instead: a message without code section, with 255 constructors or with
a layout of 65535 variables, if the gas suffices. Nothing is written. -/
theorem C33_panics (h : Hasher) (s : Storage) (chk : Bool) (envelope : Envelope)
    (message rest : Bytes) (ss : Sections) (hlen : message.length < 4294967295)
    (hd : decSections chk none message = .ok (ss, rest))
    (hg : ∀ l, envelope.gasLimit = some l → 1000 * message.length ≤ l.toNat)
    (hbad : codeSection ss = none ∨ (∃ cs, Section.ctors cs ∈ ss ∧ cs.length = 255) ∨
      ∃ ls, Section.data ls ∈ ss ∧ ∃ l ∈ ls, l.vars.length = 65535) :
    deploy chk h envelope message s = (s, none) := by
  have hlt : gasLt envelope.gasLimit (payloadPrice message) = false := by
    rw [Bool.eq_false_iff]
    intro hx
    obtain ⟨l, h1, h2⟩ := (gasLt_iff _ _).1 hx
    rw [payloadPrice_toNat hlen] at h2
    have := hg l h1
    omega
  unfold deploy
  rw [hd]
  simp only
  rw [hlt]
  simp only [Bool.false_eq_true, if_false]
  split
  · rfl
  · rename_i c hc
    have henc : encSections ss = none := by
      rcases hbad with h0 | h1
      · rw [hc] at h0; cases h0
      · cases he : encSections ss with
        | none => rfl
        | some bs =>
          have hf := (C43_encodes_iff ss (decSections_decoded hd).1).1 ⟨bs, he⟩
          rcases h1 with ⟨cs, h2, h3⟩ | ⟨ls, h2, l, h3, h4⟩
          · have := (hf _ h2).1.1
            omega
          · have := ((hf _ h2).1.2 l h3).1
            omega
    rw [eval_createTemplate_none henc]
    rfl

/-- C33: a deploy is all or nothing and charges 1000 units per byte. For every message (of less than
4 GiB) that decodes to a code section, not 255 constructors, and no layout of 65535 variables: a limit
below the price gives out-of-gas and no change, and otherwise the deploy succeeds, reports that gas,
and exactly the sections of the message are read at the reported address. Missing: the messages of
`C33_panics`. -/
theorem C33_deploy_partial {h : Hasher} (hc : NoCollision h) {s : Storage} (chk : Bool)
    (envelope : Envelope) (message rest : Bytes) (ss : Sections)
    (hlen : message.length < 4294967295) (hd : decSections chk none message = .ok (ss, rest))
    (hcode : codeSection ss ≠ none) (hctors : ∀ cs, Section.ctors cs ∈ ss → cs.length ≠ 255)
    (hvars : ∀ ls, Section.data ls ∈ ss → ∀ l ∈ ls, l.vars.length ≠ 65535) :
    ((∃ l, envelope.gasLimit = some l ∧ l.toNat < 1000 * message.length) →
      deploy chk h envelope message s = (s, some (DeployReceipt.fromErr .oog []))) ∧
    ((∀ l, envelope.gasLimit = some l → 1000 * message.length ≤ l.toNat) →
      ∃ s' r a g, deploy chk h envelope message s = (s', some r) ∧ r.success = true ∧
        r.addr = some a ∧ r.gasUsed = some g ∧ g.toNat = 1000 * message.length ∧
        out h (readSections chk a) s' = .ok ss ∧
        ∀ k, k ≠ .core a → k ≠ .noncore a → view h s' k = view h s k) := by
  have hp := payloadPrice_toNat hlen
  refine ⟨?_, ?_⟩
  · rintro ⟨l, h1, h2⟩
    unfold deploy
    rw [hd]
    simp only
    rw [if_pos ((gasLt_iff _ _).2 ⟨l, h1, by omega⟩)]
  · intro hg
    have hlt : gasLt envelope.gasLimit (payloadPrice message) = false := by
      rw [Bool.eq_false_iff]
      intro hx
      obtain ⟨l, h1, h2⟩ := (gasLt_iff _ _).1 hx
      have := hg l h1
      omega
    obtain ⟨c, hcs⟩ := Option.ne_none_iff_exists'.1 hcode
    obtain ⟨bs, hbs⟩ := decSections_encodes hd hlen hctors hvars
    have hdec := decSections_again hd [] hbs
    rw [List.append_nil] at hdec
    have hw : view h (after h (createTemplate (computeTemplateAddr h c) ss ss) s) =
        ((view h s).set (.core (computeTemplateAddr h c)) bs).set
          (.noncore (computeTemplateAddr h c)) bs := by
      rw [view_after hc, eval_createTemplate hbs]
    have ho : out h (createTemplate (computeTemplateAddr h c) ss ss) s = .ok () := by
      rw [out_eval hc, eval_createTemplate hbs]
    refine ⟨after h (createTemplate (computeTemplateAddr h c) ss ss) s,
      { version := 0, success := true, error := none, addr := some (computeTemplateAddr h c)
        gasUsed := some (payloadPrice message), logs := [] },
      computeTemplateAddr h c, payloadPrice message, ?_, rfl, rfl, rfl, hp, ?_, ?_⟩
    · unfold deploy
      rw [hd]
      simp only
      rw [hlt]
      simp only [Bool.false_eq_true, if_false]
      rw [hcs]
      simp only
      rw [run_out, ho]
    · rw [out_eval hc, readSections_eval hdec (decSections_decoded hd).1]
      · rw [hw, View.set_ne _ _ (by simp), View.set_self]
      · rw [hw, View.set_self]
    · intro k h1 h2
      rw [hw, View.set_ne _ _ h2, View.set_ne _ _ h1]

/-- C33 is violated: a message of two zero bytes decodes (to no section), and panics. -/
theorem C33_claim_false : ¬ C33_claim := by
  intro hcl
  obtain ⟨h, hc⟩ := exists_noCollision
  have hd : decSections true none [0, 0] = .ok ([], []) := rfl
  obtain ⟨s', r, a, g, h1, -⟩ := (hcl h hc _ .fresh true demoEnvelope [0, 0] [] [] hd).2
    (fun l hl => by cases hl)
  rw [C33_panics h _ true demoEnvelope [0, 0] [] [] (by decide) hd (fun l hl => by cases hl)
    (.inl rfl)] at h1
  cases h1

/-- Non-vacuity of the partial theorem of C33. -/
example : decSections true none demoBytes = .ok (demoSections, []) ∧
    codeSection demoSections ≠ none ∧
    (∀ cs, Section.ctors cs ∈ demoSections → cs.length ≠ 255) ∧
    (∀ ls, Section.data ls ∈ demoSections → ∀ l ∈ ls, l.vars.length ≠ 65535) := by
  refine ⟨by decide +kernel, by decide, ?_, ?_⟩
  · intro cs hcs
    simp only [demoSections, List.mem_cons, List.not_mem_nil, or_false, Section.ctors.injEq,
      reduceCtorEq, false_or] at hcs
    subst hcs
    decide
  · intro ls hls l hl
    simp only [demoSections, List.mem_cons, List.not_mem_nil, or_false, Section.data.injEq,
      reduceCtorEq, false_or] at hls
    subst hls
    simp only [List.mem_cons, List.not_mem_nil, or_false] at hl
    subst hl
    decide

/-! ## C32 -/

/-- The claim of C32: a deploy replaces no readable template by another one. -/
def C32_claim : Prop :=
  ∀ (h : Hasher), NoCollision h → ∀ s, Reach h s → ∀ (chk : Bool) (envelope : Envelope)
    (message : Bytes) (s' : Storage) (r : DeployReceipt),
    deploy chk h envelope message s = (s', some r) → r.success = true →
    ∀ (t : Addr) (ss : Sections), out h (readSections chk t) s = .ok ss →
      out h (readSections chk t) s' = .ok ss

/-- However a deploy ends, at most the records of the template at the address of the code change. -/
theorem deploy_view {h : Hasher} (hc : NoCollision h) {s : Storage} (chk : Bool)
    (envelope : Envelope) (message rest : Bytes) (ss : Sections) (c : CodeSection)
    (hd : decSections chk none message = .ok (ss, rest)) (hcs : codeSection ss = some c) (k : Key)
    (h1 : k ≠ .core (computeTemplateAddr h c)) (h2 : k ≠ .noncore (computeTemplateAddr h c)) :
    view h (deploy chk h envelope message s).1 k = view h s k := by
  have hw : view h ((createTemplate (computeTemplateAddr h c) ss ss).run h s).1 k = view h s k := by
    cases he : encSections ss with
    | none => rw [eval_createTemplate_none he]; rfl
    | some bs =>
      show view h (after h (createTemplate (computeTemplateAddr h c) ss ss) s) k = _
      rw [view_after hc, eval_createTemplate he]
      simp only
      rw [View.set_ne _ _ h2, View.set_ne _ _ h1]
  unfold deploy
  rw [hd]
  simp only
  split
  · rfl
  · rw [hcs]
    simp only
    split <;> exact hw

/-- C32, what does hold: a deploy, however it ends, leaves every template readable as before except
the one at the address made from the code; and different codes have different addresses unless the
first 20 bytes of their hashes agree. Missing: templates with the same code but other sections share
their address. -/
theorem C32_other_addresses_partial {h : Hasher} (hc : NoCollision h) {s : Storage} (chk : Bool)
    (envelope : Envelope) (message rest : Bytes) (ss : Sections) (c : CodeSection)
    (hd : decSections chk none message = .ok (ss, rest)) (hcs : codeSection ss = some c) :
    (∀ t, t ≠ computeTemplateAddr h c →
      out h (readSections chk t) (deploy chk h envelope message s).1 =
        out h (readSections chk t) s) ∧
    ∀ c' : CodeSection, computeTemplateAddr h c' = computeTemplateAddr h c →
      (Svm.Storage.State.bytes (h.hash c'.code)).take 20 =
        (Svm.Storage.State.bytes (h.hash c.code)).take 20 := by
  refine ⟨?_, fun c' he => congrArg Subtype.val he⟩
  intro t ht
  rw [out_eval hc, out_eval hc]
  have hv := fun k h1 h2 => deploy_view hc (s := s) chk envelope message rest ss c hd hcs k h1 h2
  exact readSections_congr chk t (hv (.core t) (by simpa using ht) (by simp))
    (hv (.noncore t) (by simp) (by simpa using ht))

/-- C32, what the code does: two deploys of one code, whatever their other sections, report the same
address, where after the second one its sections are read. -/
theorem C32_same_code {h : Hasher} (hc : NoCollision h) {s₁ s₂ s₃ : Storage} (chk : Bool)
    (e₁ e₂ : Envelope) (m₁ m₂ rest₁ rest₂ : Bytes) (ss₁ ss₂ : Sections) (c₁ c₂ : CodeSection)
    (r₁ r₂ : DeployReceipt) (hd₁ : decSections chk none m₁ = .ok (ss₁, rest₁))
    (hd₂ : decSections chk none m₂ = .ok (ss₂, rest₂)) (hc₁ : codeSection ss₁ = some c₁)
    (hc₂ : codeSection ss₂ = some c₂) (hcode : c₁.code = c₂.code)
    (h₁ : deploy chk h e₁ m₁ s₁ = (s₂, some r₁)) (hs₁ : r₁.success = true)
    (h₂ : deploy chk h e₂ m₂ s₂ = (s₃, some r₂)) (hs₂ : r₂.success = true) :
    ∃ a, r₁.addr = some a ∧ r₂.addr = some a ∧ out h (readSections chk a) s₂ = .ok ss₁ ∧
      out h (readSections chk a) s₃ = .ok ss₂ := by
  have key : ∀ {s s' : Storage} {e : Envelope} {m rest : Bytes} {ss : Sections} {c : CodeSection}
      {r : DeployReceipt}, decSections chk none m = .ok (ss, rest) → codeSection ss = some c →
      deploy chk h e m s = (s', some r) → r.success = true →
      r.addr = some (computeTemplateAddr h c) ∧
        out h (readSections chk (computeTemplateAddr h c)) s' = .ok ss := by
    intro s s' e m rest ss c r hd hcs hdep hsucc
    unfold deploy at hdep
    rw [hd] at hdep
    simp only at hdep
    split at hdep
    · cases hdep; cases hsucc
    · rw [hcs] at hdep
      simp only at hdep
      cases he : encSections ss with
      | none =>
        rw [eval_createTemplate_none he] at hdep
        cases hdep
      | some bs =>
        have ho : out h (createTemplate (computeTemplateAddr h c) ss ss) s = .ok () := by
          rw [out_eval hc, eval_createTemplate he]
        rw [run_out, ho] at hdep
        simp only at hdep
        cases hdep
        refine ⟨rfl, ?_⟩
        have hdec := decSections_again hd [] he
        rw [List.append_nil] at hdec
        rw [out_eval hc, readSections_eval hdec (decSections_decoded hd).1] <;>
          rw [view_after hc, eval_createTemplate he] <;> simp only
        · rw [View.set_ne _ _ (by simp), View.set_self]
        · rw [View.set_self]
  obtain ⟨a1, a2⟩ := key hd₁ hc₁ h₁ hs₁
  obtain ⟨b1, b2⟩ := key hd₂ hc₂ h₂ hs₂
  have e : computeTemplateAddr h c₁ = computeTemplateAddr h c₂ := by
    unfold computeTemplateAddr
    rw [hcode]
  rw [e] at a1 a2
  exact ⟨_, a1, b1, a2, b2⟩

/-- The demo sections with one more constructor. -/
def otherSections : Sections :=
  [ .code { code := [0, 97, 115, 109], flags := 1, gasMode := .fixed, svmVersion := 0 }
  , .data [{ first := some 3, vars := [{ id := 3, offset := 0, byteSize := 20 }] }]
  , .ctors [inName, goName]
  , .header { codeVersion := 0, name := ⟨[0x61], by decide⟩, desc := ⟨[], by decide⟩ } ]

/-- Their encoding. -/
def otherBytes : Bytes := (encSections otherSections).getD []

/-- Two deploys of the same code, both successful. -/
theorem C32_two_deploys : ∃ h, NoCollision h ∧ ∃ s₂ s₃ r₁ r₂, Reach h s₂ ∧
    deploy true h demoEnvelope demoBytes Svm.Storage.fresh = (s₂, some r₁) ∧ r₁.success = true ∧
    deploy true h demoEnvelope otherBytes s₂ = (s₃, some r₂) ∧ r₂.success = true := by
  obtain ⟨h, hc⟩ := exists_noCollision
  have hd1 : decSections true none demoBytes = .ok (demoSections, []) := by decide +kernel
  have hd2 : decSections true none otherBytes = .ok (otherSections, []) := by decide +kernel
  have key : ∀ (s : Storage) (m : Bytes) (ss : Sections) (bs : Bytes) (c : CodeSection),
      decSections true none m = .ok (ss, []) → codeSection ss = some c →
      encSections ss = some bs →
      ∃ r, deploy true h demoEnvelope m s =
        (after h (createTemplate (computeTemplateAddr h c) ss ss) s, some r) ∧ r.success = true := by
    intro s m ss bs c hd hcs he
    have ho : out h (createTemplate (computeTemplateAddr h c) ss ss) s = .ok () := by
      rw [out_eval hc, eval_createTemplate he]
    unfold deploy
    rw [hd]
    simp only
    rw [show gasLt demoEnvelope.gasLimit (payloadPrice m) = false from rfl]
    simp only [Bool.false_eq_true, if_false]
    rw [hcs]
    simp only
    rw [run_out, ho]
    exact ⟨_, rfl, rfl⟩
  obtain ⟨r1, a1, a2⟩ := key Svm.Storage.fresh _ _ demoBytes _ hd1 rfl (by decide +kernel)
  obtain ⟨r2, b1, b2⟩ := key (deploy true h demoEnvelope demoBytes Svm.Storage.fresh).1 _ _
    otherBytes _ hd2 rfl (by decide +kernel)
  rw [a1] at b1
  exact ⟨h, hc, _, _, r1, r2, .prog _ (safe_createTemplate _ _ _) .fresh, a1, a2, b1, b2⟩

/-- C32 is violated. -/
theorem C32_claim_false : ¬ C32_claim := by
  intro hcl
  obtain ⟨h, hc, s2, s3, r1, r2, h0, h1, h2, h3, h4⟩ := C32_two_deploys
  have hd1 : decSections true none demoBytes = .ok (demoSections, []) := by decide +kernel
  have hd2 : decSections true none otherBytes = .ok (otherSections, []) := by decide +kernel
  obtain ⟨a, -, -, h5, h6⟩ := C32_same_code hc true demoEnvelope demoEnvelope demoBytes otherBytes
    [] [] demoSections otherSections _ _ r1 r2 hd1 hd2 rfl rfl rfl h1 h2 h3 h4
  have h7 := hcl h hc s2 h0 true demoEnvelope otherBytes s3 r2 h3 h4 a demoSections h5
  rw [h6] at h7
  revert h7
  decide

/-! ## C34 -/

/-- Pricing succeeds: the code of the template parses, exports the constructor, and the (cached or
computed) price of it is `price`. -/
def PricedAt (pr : Pricer) (cache : PriceCache) (t : Addr) (ss : Sections) (func : Str)
    (price : U64) : Prop :=
  ∃ c exports i prices, codeSection ss = some c ∧ c.gasMode = .fixed ∧
    pr.parse c.code = some exports ∧ exports func = some i ∧
    (priceOf pr cache t c.code).2 = some prices ∧ prices i = some price

theorem checkGas_priced {pr : Pricer} {cache : PriceCache} {t : Addr} {ss : Sections} {func : Str}
    {price : U64} (hp : PricedAt pr cache t ss func price) (message : Bytes)
    (hlen : message.length < 4294967295) (limit : Gas) :
    ∃ g, (checkGasForFunc pr cache t ss func (checkGasForPayload message (GasTank.new limit))).2 =
        some g ∧
      (g.isEmpty = true ↔ limitOf limit ≤ 1000 * message.length + price.toNat) := by
  obtain ⟨c, exports, i, prices, h1, h2, h3, h4, h5, h6⟩ := hp
  have hpay := payloadPrice_toNat hlen
  have e1 : checkGasForPayload message (GasTank.new limit) =
      consumeAll (GasTank.new limit) [payloadPrice message] := by
    unfold checkGasForPayload
    cases hn : GasTank.new limit with
    | empty => rfl
    | nonEmpty g => rfl
  have e2 : ∀ g : GasTank, (checkGasForFunc pr cache t ss func g).2 =
      some (consumeAll g [price]) := by
    intro g
    unfold checkGasForFunc
    cases g with
    | empty => rfl
    | nonEmpty x =>
      simp only [GasTank.isEmpty, Bool.false_eq_true, if_false]
      rw [h1]
      simp only
      rw [h3, h2]
      simp only
      rw [h4]
      simp only
      rw [h5]
      simp only
      rw [h6]
      rfl
  refine ⟨_, e2 _, ?_⟩
  have hc := (C35_consume limit [payloadPrice message, price]).1
  have e3 : consumeAll (checkGasForPayload message (GasTank.new limit)) [price] =
      consumeAll (GasTank.new limit) [payloadPrice message, price] := by
    rw [e1]
    rfl
  have e4 : sumOf [payloadPrice message, price] = 1000 * message.length + price.toNat := by
    simp [sumOf, hpay]
  rw [e3]
  rw [e4] at hc
  constructor
  · intro he
    by_contra hlt
    have := hc.2 (by omega)
    rw [he] at this
    cases this
  · intro hle
    by_contra hne
    have := hc.1 (by simpa using hne)
    omega

/-- C34: a spawn of a constructor with a known price, whose gas limit (no limit stands for 2^64 - 1)
does not exceed the payload price plus the constructor price, gives exactly an out-of-gas receipt and
leaves the storage exactly as it was. With a greater limit, the account is created and the constructor
runs. -/
theorem C34_spawn_gas {h : Hasher} {rs : RState} (chk : Bool) (o : Orders) (eng : Engine)
    (pr : Pricer) (envelope : Envelope) (message rest : Bytes) (sp : SpawnAccount) (ss : Sections)
    (price : U64) (hlen : message.length < 4294967295) (hd : decSpawn message = .ok (sp, rest))
    (hl : out h (loadTemplate chk sp.templateAddr) rs.storage = .ok ss)
    (hct : isCtor ss sp.ctorName = some true)
    (hp : PricedAt pr rs.cache sp.templateAddr ss sp.ctorName price) :
    (limitOf envelope.gasLimit ≤ 1000 * message.length + price.toNat →
      (spawn chk h o eng pr envelope message rs).2 = some (SpawnReceipt.fromErr .oog []) ∧
      (spawn chk h o eng pr envelope message rs).1.storage = rs.storage) ∧
    (1000 * message.length + price.toNat < limitOf envelope.gasLimit →
      (spawn chk h o eng pr envelope message rs).2 =
        (spawnAccount chk h o eng sp envelope.principal rs.storage).2 ∧
      (spawn chk h o eng pr envelope message rs).1.storage =
        (spawnAccount chk h o eng sp envelope.principal rs.storage).1) := by
  obtain ⟨g, h1, h2⟩ := checkGas_priced hp message hlen envelope.gasLimit
  have hro : after h (loadTemplate chk sp.templateAddr) rs.storage = rs.storage :=
    (readOnly_loadTemplate _ _).run h _
  have e : spawn chk h o eng pr envelope message rs =
      if g.isEmpty then
        (⟨rs.storage, (checkGasForFunc pr rs.cache sp.templateAddr ss sp.ctorName
          (checkGasForPayload message (GasTank.new envelope.gasLimit))).1⟩,
          some (SpawnReceipt.fromErr .oog []))
      else (⟨(spawnAccount chk h o eng sp envelope.principal rs.storage).1,
          (checkGasForFunc pr rs.cache sp.templateAddr ss sp.ctorName
            (checkGasForPayload message (GasTank.new envelope.gasLimit))).1⟩,
          (spawnAccount chk h o eng sp envelope.principal rs.storage).2) := by
    unfold spawn
    rw [hd]
    simp only
    rw [run_out, hl, hro]
    simp only
    rw [hct]
    simp only
    rw [h1]
  constructor
  · intro hle
    rw [e, if_pos (h2.2 hle)]
    exact ⟨rfl, rfl⟩
  · intro hlt
    rw [e, if_neg (fun hx => by have := h2.1 hx; omega)]
    exact ⟨rfl, rfl⟩

/-- Non-vacuity of C34: the demo template with a constructor price of 7. -/
example : ∃ h, NoCollision h ∧
    decSpawn (demoSpawnMsg aName) = .ok (demoSpawn aName, []) ∧
    out h (loadTemplate true (demoSpawn aName).templateAddr) (demo h 10 5) = .ok demoSections ∧
    isCtor demoSections (demoSpawn aName).ctorName = some true ∧
    PricedAt flatPricer [] demoTemplate demoSections inName 7 ∧
    limitOf (some 500) ≤ 1000 * (demoSpawnMsg aName).length + 7 ∧
    1000 * (demoSpawnMsg aName).length + 7 < limitOf (some 1000000) := by
  obtain ⟨h, hc⟩ := exists_noCollision
  refine ⟨h, hc, by decide +kernel, ?_, rfl, ⟨_, _, _, _, rfl, rfl, rfl, rfl, rfl, rfl⟩,
    by decide +kernel, by decide +kernel⟩
  rw [out_eval hc, view_demo hc]
  rfl

end Svm.Runtime
