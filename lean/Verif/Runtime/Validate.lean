import Verif.Runtime.Templates
import Verif.Wasm.Valid

/-!
# Property C125: what the validation of messages promises

`Runtime::validate_deploy`, `validate_spawn` and `validate_call` (runtime.rs:554-578) are called by the node
before the message is executed; the executing functions panic with "Should have called `validate_..` first".
-/

namespace Svm.Runtime

open Svm.Codec Svm.Account
open Svm.Storage (Hasher Storage Inv)
open Svm.Layout (FixedLayout)

/-- `ValidateError`, runtime/src/error.rs: an error of the decoder or of the program checks. -/
inductive ValidateError where
  | parse (e : ParseError)
  | program (e : Svm.Wasm.DeployError)

/-- `Runtime::validate_deploy`, runtime.rs:554-566: the template is decoded, its code is taken
(`Template::code`, types/src/template/mod.rs:124-126) and checked. `read` is the reader of Wasm modules. -/
def validateDeploy (chk : Bool) (read : Bytes → Option Svm.Wasm.Module) (message : Bytes) :
    Outcome ValidateError Unit :=
  match decTemplate chk none message with
  | .ok (sections, _) =>
    match codeSection sections with
    | none => .panic
    | some c =>
      match Svm.Wasm.validateDeploy chk read c.code with
      | .ok _ => .ok ()
      | .err e => .err (.program e)
      | .panic => .panic
  | .err e => .err (.parse e)
  | .panic => .panic

/-- `Runtime::validate_spawn`, runtime.rs:569-572. -/
def validateSpawn (message : Bytes) : Outcome ValidateError Unit :=
  match decSpawn message with
  | .ok _ => .ok ()
  | .err e => .err (.parse e)
  | .panic => .panic

/-- `Runtime::validate_call`, runtime.rs:575-578. -/
def validateCall (message : Bytes) : Outcome ValidateError Unit :=
  match decTransaction message with
  | .ok _ => .ok ()
  | .err e => .err (.parse e)
  | .panic => .panic

/-! ## Spec -/

/-- Accounts can be created of the template at `t`: with any name that a message can carry, any balance and
any counter, at any address. -/
def Creatable (chk : Bool) (h : Hasher) (s : Storage) (t : Addr) : Prop :=
  ∀ (a : Addr) (name : Str) (b : U64) (c : U128), name.1.length ≤ 255 →
    out h (createAccount chk a t name b c) s = .ok ()

/-- The deployment of `message` succeeds; then the template can be loaded at the reported address, has its code
and its constructors, so that a spawn with another function is refused, and accounts can be created of it. -/
def Usable (chk : Bool) (h : Hasher) (envelope : Envelope) (message : Bytes) (s : Storage) : Prop :=
  ∃ s' r t ss, deploy chk h envelope message s = (s', some r) ∧ r.success = true ∧ r.addr = some t ∧
    out h (loadTemplate chk t) s' = .ok ss ∧ (∃ c, codeSection ss = some c) ∧
    (∃ ctors : List Str, ∀ name, isCtor ss name = some (decide (name ∈ ctors))) ∧ Creatable chk h s' t

/-- C125: a message that passed `validate_deploy` can be deployed with enough gas, and then be used. -/
def C125_claim : Prop :=
  ∀ (h : Hasher), NoCollision h → ∀ s, Reach h s → ∀ (chk : Bool) (read : Bytes → Option Svm.Wasm.Module)
    (envelope : Envelope) (message : Bytes), message.length < 4294967295 →
    (∀ l, envelope.gasLimit = some l → 1000 * message.length ≤ l.toNat) →
    validateDeploy chk read message = .ok () → Usable chk h envelope message s

/-- The shape of the sections in the message: not 255 constructors, no layout of 65535 variables, and there is a
layout. -/
def Shaped (chk : Bool) (message : Bytes) : Prop :=
  ∃ ss rest ctors layouts, decSections chk none message = .ok (ss, rest) ∧
    .ctors ctors ∈ ss ∧ ctors.length ≠ 255 ∧ .data layouts ∈ ss ∧ layouts ≠ [] ∧
    ∀ l ∈ layouts, l.vars.length ≠ 65535

/-! ## Proofs -/

theorem contains_iff {s : Sections} {k : Kind} : s.contains k = true ↔ ∃ x ∈ s, x.kind = k := by
  unfold Sections.contains
  simp

/-- **C125, the decoder**: what is decoded as a template has code, data and constructors, and what is decoded as
sections and has them is decoded as a template. -/
theorem C125_required (chk : Bool) (message rest : Bytes) (ss : Sections) :
    decTemplate chk none message = .ok (ss, rest) ↔ decSections chk none message = .ok (ss, rest) ∧
      (∃ c, .code c ∈ ss) ∧ (∃ ls, .data ls ∈ ss) ∧ ∃ cs, .ctors cs ∈ ss := by
  have hk : (∃ c, Section.code c ∈ ss) ∧ (∃ ls, Section.data ls ∈ ss) ∧ (∃ cs, Section.ctors cs ∈ ss) ↔
      (ss.contains .code && ss.contains .data && ss.contains .ctors) = true := by
    simp only [Bool.and_eq_true, contains_iff, and_assoc]
    refine and_congr ⟨fun ⟨c, hm⟩ => ⟨_, hm, rfl⟩, fun ⟨x, hm, hx⟩ => ?_⟩ (and_congr
      ⟨fun ⟨c, hm⟩ => ⟨_, hm, rfl⟩, fun ⟨x, hm, hx⟩ => ?_⟩
      ⟨fun ⟨c, hm⟩ => ⟨_, hm, rfl⟩, fun ⟨x, hm, hx⟩ => ?_⟩) <;>
    · cases x <;> first | exact ⟨_, hm⟩ | cases hx
  rw [hk]
  constructor
  · intro h
    obtain ⟨ss', mid, h1, h2⟩ := Dec.bind_eq_ok h
    split at h2
    · rename_i hx
      cases h2
      exact ⟨h1, hx⟩
    · cases h2
  · rintro ⟨h1, h2⟩
    unfold decTemplate
    rw [Dec.bind_ok h1]
    rw [if_pos h2]
    rfl

/-- **C125, what is accepted**: calls and spawns that start with the encoding of a call or spawn, and templates with
code, data and constructors whose code passes the checks of the program. -/
theorem C125_accepts (chk : Bool) (read : Bytes → Option Svm.Wasm.Module) (message : Bytes) :
    (validateCall message = .ok () ↔ ∃ tx bs rest, encTransaction tx = some bs ∧ message = bs ++ rest) ∧
    (validateSpawn message = .ok () ↔ ∃ sp bs rest, encSpawn sp = some bs ∧ message = bs ++ rest) ∧
    (validateDeploy chk read message = .ok () ↔ ∃ ss rest c p, decSections chk none message = .ok (ss, rest) ∧
      .code c ∈ ss ∧ (∃ ls, .data ls ∈ ss) ∧ (∃ cs, .ctors cs ∈ ss) ∧
      Svm.Wasm.validateDeploy chk read c.code = .ok p) := by
  refine ⟨?_, ?_, ?_⟩
  · have hx : validateCall message = .ok () ↔ ∃ x, decTransaction message = .ok x := by
      unfold validateCall
      split <;> simp_all
    rw [hx]
    constructor
    · rintro ⟨⟨tx, rest⟩, h⟩
      obtain ⟨bs, h1, h2⟩ := canonical_transaction _ _ _ h
      exact ⟨tx, bs, rest, h1, h2⟩
    · rintro ⟨tx, bs, rest, h1, rfl⟩
      exact ⟨_, roundTrip_transaction _ _ rest h1⟩
  · have hx : validateSpawn message = .ok () ↔ ∃ x, decSpawn message = .ok x := by
      unfold validateSpawn
      split <;> simp_all
    rw [hx]
    constructor
    · rintro ⟨⟨sp, rest⟩, h⟩
      obtain ⟨bs, h1, h2⟩ := canonical_spawn _ _ _ h
      exact ⟨sp, bs, rest, h1, h2⟩
    · rintro ⟨sp, bs, rest, h1, rfl⟩
      exact ⟨_, roundTrip_spawn _ _ rest h1⟩
  · constructor
    · intro h
      unfold validateDeploy at h
      split at h
      · rename_i ss rest hd
        split at h
        · cases h
        · rename_i c hc
          obtain ⟨h1, -, h3, h4⟩ := (C125_required _ _ _ _).1 hd
          split at h
          · rename_i p hp
            refine ⟨ss, rest, c, p, h1, ?_, h3, h4, hp⟩
            unfold codeSection at hc
            split at hc
            · rename_i c' hg
              cases hc
              exact ((tryGet_iff (decSections_decoded h1).1).1 hg).1
            · cases hc
          · cases h
          · cases h
      · cases h
      · cases h
    · rintro ⟨ss, rest, c, p, h1, h2, h3, h4, h5⟩
      have hc : codeSection ss = some c := by
        have : ss.tryGet .code = some (.code c) := (tryGet_iff (decSections_decoded h1).1).2 ⟨h2, rfl⟩
        unfold codeSection
        rw [this]
      unfold validateDeploy
      rw [(C125_required _ _ _ _).2 ⟨h1, ⟨c, h2⟩, h3, h4⟩]
      simp only [hc, h5]

/-- **C125, refusals**: a message that is not accepted by `validate_call` or `validate_spawn` is refused with the
parse error of the decoder. -/
theorem C125_refuses (message : Bytes) :
    (validateCall message ≠ .ok () → ∃ e, decTransaction message = .err e ∧ validateCall message = .err (.parse e)) ∧
    (validateSpawn message ≠ .ok () → ∃ e, decSpawn message = .err e ∧ validateSpawn message = .err (.parse e)) := by
  constructor
  · unfold validateCall
    cases h : decTransaction message with
    | ok => exact fun h => absurd rfl h
    | err e => exact fun _ => ⟨e, rfl, rfl⟩
    | panic => exact absurd h (noPanic_transaction _)
  · unfold validateSpawn
    cases h : decSpawn message with
    | ok => exact fun h => absurd rfl h
    | err e => exact fun _ => ⟨e, rfl, rfl⟩
    | panic => exact absurd h (noPanic_spawn _)

theorem validateDeploy_sections {chk : Bool} {read : Bytes → Option Svm.Wasm.Module} {message : Bytes}
    (h : validateDeploy chk read message = .ok ()) : ∃ ss rest c cs ls,
      decSections chk none message = .ok (ss, rest) ∧ codeSection ss = some c ∧
      ss.tryGet .ctors = some (.ctors cs) ∧ ss.tryGet .data = some (.data ls) := by
  unfold validateDeploy at h
  cases hd : decTemplate chk none message with
  | err e => rw [hd] at h; cases h
  | panic => rw [hd] at h; cases h
  | ok x =>
    obtain ⟨ss, rest⟩ := x
    rw [hd] at h
    obtain ⟨h1, -, ⟨ls, h3⟩, cs, h4⟩ := (C125_required _ _ _ _).1 hd
    cases hc : codeSection ss with
    | none => simp only [hc] at h; cases h
    | some c =>
      have hv := (decSections_decoded h1).1
      exact ⟨ss, rest, c, cs, ls, h1, hc, (tryGet_iff hv).2 ⟨h4, rfl⟩, (tryGet_iff hv).2 ⟨h3, rfl⟩⟩

/-- C125, why a deployment is refused: its message cannot be decoded, or its code is not valid; validation itself
does not panic on a message that can be decoded unless the check of the code does. -/
theorem C125_deploy_refuses (chk : Bool) (read : Bytes → Option Svm.Wasm.Module) (message : Bytes) :
    (∀ e, decTemplate chk none message = .err e → validateDeploy chk read message = .err (.parse e)) ∧
    ∀ ss rest, decTemplate chk none message = .ok (ss, rest) → ∃ c, .code c ∈ ss ∧
      (∀ e, Svm.Wasm.validateDeploy chk read c.code = .err e → validateDeploy chk read message = .err (.program e)) ∧
      (Svm.Wasm.validateDeploy chk read c.code = .panic ↔ validateDeploy chk read message = .panic) := by
  refine ⟨fun e h => by unfold validateDeploy; rw [h], fun ss rest h => ?_⟩
  obtain ⟨h1, ⟨c, hm⟩, -⟩ := (C125_required _ _ _ _).1 h
  have hcs : codeSection ss = some c := by
    have : ss.tryGet .code = some (.code c) := (tryGet_iff (decSections_decoded h1).1).2 ⟨hm, rfl⟩
    unfold codeSection
    rw [this]
  refine ⟨c, hm, fun e he => by unfold validateDeploy; rw [h]; simp only [hcs, he], ?_⟩
  unfold validateDeploy
  rw [h]
  simp only [hcs]
  cases Svm.Wasm.validateDeploy chk read c.code <;> simp

/-- The first layout; without one the code panics. -/
def firstLayout : List FixedLayout → Outcome SErr FixedLayout
  | l :: _ => .ok l
  | [] => .panic

/-- The layout of a stored template. -/
theorem templateLayout_eval {chk : Bool} {t : Addr} {ss : Sections} {ls : List FixedLayout} {w : View}
    (hr : (readSections chk t).eval w = (w, .ok ss)) (hd : ss.tryGet .data = some (.data ls)) :
    (templateLayout chk t).eval w = (w, firstLayout ls) := by
  unfold templateLayout
  rw [Prog.bind_eq, Prog.eval_bind_ok hr, hd]
  cases ls <;> rfl

theorem createAccount_iff {h : Hasher} (hc : NoCollision h) {chk : Bool} {s : Storage} {t : Addr} {ss : Sections}
    {ls : List FixedLayout} (hr : out h (readSections chk t) s = .ok ss)
    (hd : ss.tryGet .data = some (.data ls)) : Creatable chk h s t ↔ ls ≠ [] := by
  have hr' : (readSections chk t).eval (view h s) = (view h s, .ok ss) :=
    Prod.ext ((readOnly_readSections chk t).eval _) (by rw [← out_eval hc]; exact hr)
  have hl := templateLayout_eval hr' hd
  constructor
  · intro hcr he
    have h1 := hcr t aName 0 0 (by decide)
    rw [out_eval hc] at h1
    unfold createAccount create at h1
    simp only [Prog.bind_eq] at h1
    rw [Prog.eval_bind, Prog.eval_unwrap, Prog.eval_bind, hl, he] at h1
    cases h1
  · intro hne a name b c hn
    obtain ⟨l, ls', rfl⟩ := List.exists_cons_of_ne_nil hne
    obtain ⟨bs, hbs⟩ : ∃ bs, encAccountData ⟨name, t⟩ = some bs := by
      obtain ⟨x, hx⟩ := Option.isSome_iff_exists.1 ((encStr_isSome name).2 hn)
      unfold encAccountData
      rw [hx]
      exact ⟨_, rfl⟩
    rw [out_eval hc]
    unfold createAccount create
    simp only [Prog.bind_eq]
    rw [Prog.eval_bind, Prog.eval_unwrap, Prog.eval_bind, hl, hbs]
    rfl

/-- **C125, when it holds**: a message that passed the validation can be deployed and used exactly if it has not
255 constructors, no layout of 65535 variables and at least one layout. Missing: these cases, in which the
code panics. -/
theorem C125_usable_partial {h : Hasher} (hc : NoCollision h) (s : Storage) (chk : Bool)
    (read : Bytes → Option Svm.Wasm.Module) (envelope : Envelope) (message : Bytes)
    (hlen : message.length < 4294967295)
    (hg : ∀ l, envelope.gasLimit = some l → 1000 * message.length ≤ l.toNat)
    (hv : validateDeploy chk read message = .ok ()) :
    Usable chk h envelope message s ↔ Shaped chk message := by
  obtain ⟨ss, rest, c, cs, ls, hd, hcode, hcs, hls⟩ := validateDeploy_sections hv
  have hn := (decSections_decoded hd).1
  have hcm := ((tryGet_iff hn).1 hcs).1
  have hlm := ((tryGet_iff hn).1 hls).1
  have uc : ∀ cs', .ctors cs' ∈ ss → cs' = cs := by
    intro cs' hm
    have : ss.tryGet .ctors = some (.ctors cs') := (tryGet_iff hn).2 ⟨hm, rfl⟩
    rw [hcs] at this
    cases this
    rfl
  have ul : ∀ ls', .data ls' ∈ ss → ls' = ls := by
    intro ls' hm
    have : ss.tryGet .data = some (.data ls') := (tryGet_iff hn).2 ⟨hm, rfl⟩
    rw [hls] at this
    cases this
    rfl
  have hp := C33_panics h s chk envelope message rest ss hlen hd hg
  constructor
  · rintro ⟨s', r, t, ss', h1, h2, h3, h4, -, -, h7⟩
    have hc1 : cs.length ≠ 255 := by
      intro h255
      rw [hp (.inr (.inl ⟨cs, hcm, h255⟩))] at h1
      cases h1
    have hl1 : ∀ l ∈ ls, l.vars.length ≠ 65535 := by
      intro l hl hx
      rw [hp (.inr (.inr ⟨ls, hlm, l, hl, hx⟩))] at h1
      cases h1
    obtain ⟨s2, r2, a2, g2, e1, -, e3, -, -, e6, -⟩ := (C33_deploy_partial hc (s := s) chk envelope message rest ss hlen hd
      (by rw [hcode]; nofun) (fun cs' hm => by rw [uc _ hm]; exact hc1)
      (fun ls' hm => by rw [ul _ hm]; exact hl1)).2 hg
    rw [h1] at e1
    cases e1
    rw [h3] at e3
    cases e3
    exact ⟨ss, rest, cs, ls, hd, hcm, hc1, hlm, (createAccount_iff hc e6 hls).1 h7, hl1⟩
  · rintro ⟨ss', rest', cs', ls', h1, h2, h3, h4, h5, h6⟩
    rw [hd] at h1
    cases h1
    cases uc _ h2
    cases ul _ h4
    obtain ⟨s', r, t, g, e1, e2, e3, -, -, e6, -⟩ := (C33_deploy_partial hc (s := s) chk envelope message rest ss hlen hd
      (by rw [hcode]; nofun) (fun cs' hm => by rw [uc _ hm]; exact h3)
      (fun ls' hm => by rw [ul _ hm]; exact h6)).2 hg
    refine ⟨s', r, t, ss, e1, e2, e3, ?_, ⟨c, hcode⟩, ⟨_, isCtor_some hcs⟩, (createAccount_iff hc e6 hls).2 h5⟩
    unfold loadTemplate
    rw [out_eval hc] at e6 ⊢
    rw [Prog.eval_unwrap]
    cases hx : (readSections chk t).eval (view h s') with
    | mk w o =>
      rw [hx] at e6
      cases e6
      rfl

/-- **C125, messages that are not validated**: a message that the validation cannot decode makes the executing
function panic; nothing is changed. -/
theorem C125_unvalidated (chk : Bool) (h : Hasher) (o : Orders) (eng : Engine) (pr : Pricer) (envelope : Envelope)
    (message : Bytes) (rs : RState) :
    (validateCall message ≠ .ok () → call chk h o eng message rs.storage = (rs.storage, none) ∧
      verify chk h o eng message rs.storage = (rs.storage, none)) ∧
    (validateSpawn message ≠ .ok () → spawn chk h o eng pr envelope message rs = (rs, none)) := by
  constructor
  · intro hv
    unfold validateCall at hv
    unfold call verify
    split at hv
    · exact absurd rfl hv
    · rename_i he; rw [he]; exact ⟨rfl, rfl⟩
    · rename_i he; rw [he]; exact ⟨rfl, rfl⟩
  · intro hv
    unfold validateSpawn at hv
    unfold spawn
    split at hv
    · exact absurd rfl hv
    · rename_i he; rw [he]
    · rename_i he; rw [he]

/-- A template with code and constructors, and a data section without a layout. -/
def hollow : Sections :=
  [ .code { code := [0, 97, 115, 109], flags := 1, gasMode := .fixed, svmVersion := 0 }, .data [],
    .ctors [⟨[0x69, 0x6e], by decide⟩] ]

/-- **C125 fails**: a data section without a layout passes the validation, but no account can be created of the
template. -/
theorem C125_claim_false : ¬ C125_claim := by
  intro hcl
  obtain ⟨h, hc⟩ := exists_noCollision
  have hd : decSections true none ((encSections hollow).getD []) = .ok (hollow, []) := by decide +kernel
  have hv : validateDeploy true (fun _ => some Svm.Wasm.floatModule) ((encSections hollow).getD []) = .ok () := by
    have h1 := (C125_required true ((encSections hollow).getD []) [] hollow).2
      ⟨hd, ⟨_, List.mem_cons_self⟩, ⟨[], by simp [hollow]⟩, ⟨_, by simp [hollow]; rfl⟩⟩
    unfold validateDeploy
    rw [h1]
    rfl
  have hl : ((encSections hollow).getD []).length < 4294967295 := by decide +kernel
  have hg : ∀ l, demoEnvelope.gasLimit = some l → 1000 * ((encSections hollow).getD []).length ≤ l.toNat :=
    fun l hl => by cases hl
  have h1 := hcl h hc _ .fresh true _ demoEnvelope _ hl hg hv
  obtain ⟨ss, rest, cs, ls, e1, -, -, e4, e5, -⟩ :=
    (C125_usable_partial hc _ true _ demoEnvelope _ hl hg hv).1 h1
  rw [hd] at e1
  cases e1
  simp [hollow] at e4
  exact e5 e4

/-- Messages as in `C125_usable_partial`: the demo template passes the validation and can be used. -/
example : ∃ h, NoCollision h ∧ validateDeploy true (fun _ => some Svm.Wasm.floatModule) demoBytes = .ok () ∧
    Usable true h demoEnvelope demoBytes Svm.Storage.fresh := by
  obtain ⟨h, hc⟩ := exists_noCollision
  have hd : decSections true none demoBytes = .ok (demoSections, []) := by decide +kernel
  have hv : validateDeploy true (fun _ => some Svm.Wasm.floatModule) demoBytes = .ok () := by
    have h1 := (C125_required true demoBytes [] demoSections).2
      ⟨hd, ⟨_, List.mem_cons_self⟩, ⟨_, by simp [demoSections]; rfl⟩, ⟨_, by simp [demoSections]; rfl⟩⟩
    unfold validateDeploy
    rw [h1]
    rfl
  refine ⟨h, hc, hv, (C125_usable_partial hc _ true _ demoEnvelope _ (by decide +kernel)
    (fun l hl => by cases hl) hv).2 ⟨_, _, _, _, hd, by simp [demoSections]; rfl, by decide, by simp [demoSections]; rfl,
      by simp, ?_⟩⟩
  intro l hl
  simp only [List.mem_cons, List.not_mem_nil, or_false] at hl
  subst hl
  decide

end Svm.Runtime
