import Verif.Runtime.Templates
import Verif.Wasm.Crash
import Verif.Wasm.Exports

/-!
# What the gas limit of a spawn pays for: properties C107 and C108

The two halves of the model meet here: the runtime (whose pricing was a parameter so far) and the
pricing of programs.
-/

namespace Svm.Runtime

open Svm.Codec Svm.Account
open Svm.Storage (Hasher Storage Inv)
open Svm.Wasm (Program programNew validateDeploy validateWasm priceProgram v0 IsBody Run runCost Ev Exit Code
  Structured IsPrices Priceable)

/-- `Exports::get`, program/src/exports.rs:48-50. -/
def exportOf (p : Program) (name : Str) : Option Nat := (p.exports.find? fun x => x.1 = name).map (·.2)

/-- The program parser and the pricing that the runtime uses, runtime/src/runtime/runtime.rs:431-443 and
price_cache.rs:38-41, with the resolver of version 0 (price_registry.rs:36-42). `usize` has 64 bits. The Wasm
parser stays a parameter. -/
def nodePricer (chk : Bool) (read : Bytes → Option Svm.Wasm.Module) : Pricer where
  parse code :=
    match programNew read code false with
    | .ok p => some (exportOf p)
    | _ => none
  price code :=
    match programNew read code false with
    | .ok p => (priceProgram chk v0 p).map fun prices f => (prices f).map (BitVec.ofNat 64)
    | _ => none

/-! ## Lemmas -/

theorem mem_exports_iff {read : Bytes → Option Svm.Wasm.Module} {code : Bytes} {ce : Bool} {p : Program}
    (h : programNew read code ce = .ok p) (n : Str) (f : Nat) : (n, f) ∈ p.exports ↔ exportOf p n = some f := by
  obtain ⟨m, -, -, -, h4, -⟩ := Svm.Wasm.programNew_ok h
  have hn : (p.exports.map (·.1)).Nodup := by
    rw [h4]
    exact (Svm.Wasm.readExports_spec m).2.2
  unfold exportOf
  generalize p.exports = l at hn
  induction l with
  | nil => simp
  | cons x l ih =>
    obtain ⟨a, b⟩ := x
    simp only [List.map_cons, List.nodup_cons] at hn
    by_cases e : a = n
    · subst e
      simp only [List.mem_cons, Prod.mk.injEq, true_and, List.find?_cons, decide_true, Option.map_some,
        Option.some.injEq]
      constructor
      · rintro (rfl | hm)
        · rfl
        · exact absurd (List.mem_map.2 ⟨_, hm, rfl⟩) hn.1
      · rintro rfl
        exact .inl rfl
    · rw [List.find?_cons_of_neg (by simpa using e)]
      refine Iff.trans ?_ (ih hn.2)
      simp [Ne.symm e]

/-- The check of the exports does not change the program. -/
theorem programNew_weaken {read : Bytes → Option Svm.Wasm.Module} {code : Bytes} {p : Program}
    (h : programNew read code true = .ok p) : programNew read code false = .ok p := by
  obtain ⟨m, h1, h2, h3, h4, h5, -, h7⟩ := Svm.Wasm.programNew_ok h
  obtain ⟨i, e, f⟩ := p
  simp only at h2 h3 h4 h7
  subst h4
  unfold programNew
  simp only [h1, Outcome.ofOption, Outcome.ok_bind, h2, h3, Svm.Wasm.lift, h5, Bool.false_eq_true, if_false]
  rw [if_neg (by omega)]

theorem validated_program {chk : Bool} {read : Bytes → Option Svm.Wasm.Module} {code : Bytes} {p : Program}
    (h : validateDeploy chk read code = .ok p) :
    programNew read code false = .ok p ∧ validateWasm chk false p = .ok () :=
  ⟨programNew_weaken (Svm.Wasm.validateDeploy_ok h).1, (Svm.Wasm.validateDeploy_ok h).2⟩

/-- A spawn whose gas check does not let it pass leaves the storage alone. -/
theorem spawn_stopped {h : Hasher} {chk : Bool} {o : Orders} {eng : Engine} {pr : Pricer} {e : Envelope}
    {m rest : Bytes} {sp : SpawnAccount} {rs : RState} {ss : Sections} (hd : decSpawn m = .ok (sp, rest))
    (hl : out h (loadTemplate chk sp.templateAddr) rs.storage = .ok ss)
    (hg : ∀ g, (checkGasForFunc pr rs.cache sp.templateAddr ss sp.ctorName
      (checkGasForPayload m (GasTank.new e.gasLimit))).2 = some g → g.isEmpty = true) :
    (spawn chk h o eng pr e m rs).1.storage = rs.storage := by
  have hro : after h (loadTemplate chk sp.templateAddr) rs.storage = rs.storage :=
    (readOnly_loadTemplate _ _).run h _
  unfold spawn
  simp only [hd, run_out, hl, hro]
  split
  · rfl
  · rfl
  · split
    · rfl
    · rename_i g hge
      rw [if_pos (hg g hge)]

/-- When there is gas left after the payload, the check of the function does not panic exactly when the function has
a price. -/
theorem checkGas_iff {pr : Pricer} {cache : PriceCache} {t : Addr} {ss : Sections} {func : Str} {gas : GasTank}
    (hg : gas.isEmpty = false) :
    (∃ g, (checkGasForFunc pr cache t ss func gas).2 = some g) ↔ ∃ price, PricedAt pr cache t ss func price := by
  unfold checkGasForFunc PricedAt
  rw [hg]
  simp only [Bool.false_eq_true, if_false]
  cases h1 : codeSection ss with
  | none => simp
  | some c =>
    cases h2 : pr.parse c.code with
    | none => simp [h2]
    | some exports =>
      cases h3 : c.gasMode with
      | metering => simp [h2, h3]
      | fixed =>
        cases h4 : exports func with
        | none => simp [h2, h3, h4]
        | some i =>
          cases h5 : (priceOf pr cache t c.code).2 with
          | none => simp [h2, h3, h4, h5]
          | some prices =>
            cases h6 : prices i with
            | none => simp [h2, h3, h4, h5, h6]
            | some price => simp [h2, h3, h4, h5, h6]

/-- The cache has no wrong prices for this code. -/
def Right (pr : Pricer) (cache : PriceCache) (t : Addr) (code : Bytes) : Prop :=
  ∀ P, cache.get t = some P → pr.price code = some P

theorem priceOf_right {pr : Pricer} {cache : PriceCache} {t : Addr} {code : Bytes} (h : Right pr cache t code) :
    (priceOf pr cache t code).2 = pr.price code := by
  unfold priceOf
  split
  · rename_i p hp
    exact (h p hp).symm
  · split
    · rename_i p hp
      exact hp.symm
    · rename_i hp
      exact hp.symm

/-- The price of a constructor, from its program. -/
theorem pricedAt_iff {chk : Bool} {read : Bytes → Option Svm.Wasm.Module} {cache : PriceCache} {t : Addr}
    {ss : Sections} {c : CodeSection} {p : Program} (func : Str) (price : U64) (hcs : codeSection ss = some c)
    (hp : programNew read c.code false = .ok p) (hr : Right (nodePricer chk read) cache t c.code) :
    PricedAt (nodePricer chk read) cache t ss func price ↔ c.gasMode = .fixed ∧ ∃ f prices x,
      (func, f) ∈ p.exports ∧ priceProgram chk v0 p = some prices ∧ prices f = some x ∧
      price = BitVec.ofNat 64 x := by
  have e1 : (nodePricer chk read).parse c.code = some (exportOf p) := by
    simp only [nodePricer, hp]
  have e2 : (nodePricer chk read).price c.code =
      (priceProgram chk v0 p).map fun prices f => (prices f).map (BitVec.ofNat 64) := by
    simp only [nodePricer, hp]
  constructor
  · rintro ⟨c', exports, i, P, h1, h2, h3, h4, h5, h6⟩
    rw [hcs] at h1
    cases h1
    rw [e1] at h3
    cases h3
    rw [priceOf_right hr, e2] at h5
    obtain ⟨prices, h7, rfl⟩ := Option.map_eq_some_iff.1 h5
    obtain ⟨x, h8, h9⟩ := Option.map_eq_some_iff.1 h6
    exact ⟨h2, i, prices, x, (mem_exports_iff hp _ _).2 h4, h7, h8, h9.symm⟩
  · rintro ⟨h2, f, prices, x, h3, h4, h5, rfl⟩
    refine ⟨c, _, f, fun f => (prices f).map (BitVec.ofNat 64), hcs, h2, e1, (mem_exports_iff hp _ _).1 h3, ?_, ?_⟩
    · rw [priceOf_right hr, e2, h4]
      rfl
    · simp only [h5, Option.map_some]

/-- A spawn is stopped when every price that is computed for its constructor reaches the limit. -/
theorem stopped_of_prices {h : Hasher} {chk : Bool} {read : Bytes → Option Svm.Wasm.Module} {o : Orders}
    {eng : Engine} {e : Envelope} {m rest : Bytes} {sp : SpawnAccount} {rs : RState} {ss : Sections}
    {c : CodeSection} {p : Program} {f cost : Nat} (hd : decSpawn m = .ok (sp, rest))
    (hlen : m.length < 4294967295)
    (hl : out h (loadTemplate chk sp.templateAddr) rs.storage = .ok ss) (hcs : codeSection ss = some c)
    (hp : programNew read c.code false = .ok p)
    (hr : Right (nodePricer chk read) rs.cache sp.templateAddr c.code) (hf : (sp.ctorName, f) ∈ p.exports)
    (hx : ∀ prices, priceProgram chk v0 p = some prices → ∃ x, prices f = some x ∧ cost ≤ x ∧ x < 2 ^ 64)
    (hlim : limitOf e.gasLimit ≤ 1000 * m.length + cost) :
    (spawn chk h o eng (nodePricer chk read) e m rs).1.storage = rs.storage := by
  refine spawn_stopped hd hl fun g hg => ?_
  cases he : (checkGasForPayload m (GasTank.new e.gasLimit)).isEmpty with
  | true =>
    unfold checkGasForFunc at hg
    rw [he] at hg
    cases hg
    rfl
  | false =>
    obtain ⟨price, hpr⟩ := (checkGas_iff he).1 ⟨g, hg⟩
    obtain ⟨g', h1, h2⟩ := checkGas_priced hpr m hlen e.gasLimit
    rw [h1] at hg
    cases hg
    refine h2.2 ?_
    obtain ⟨-, f', prices, x, h3, h4, h5, rfl⟩ := (pricedAt_iff _ _ hcs hp hr).1 hpr
    obtain ⟨x', h6, h7, h8⟩ := hx prices h4
    have : f' = f := by
      have a := (mem_exports_iff hp _ _).1 hf
      rw [(mem_exports_iff hp _ _).1 h3] at a
      exact Option.some.inj a
    subst this
    rw [h5] at h6
    cases h6
    rw [BitVec.toNat_ofNat, Nat.mod_eq_of_lt h8]
    omega

/-! ## C107 -/

/-- All codes that were brought in passed the checks of `validate_deploy`. -/
def AllValidated (chk : Bool) (read : Bytes → Option Svm.Wasm.Module) (ts : List (Addr × Sections))
    (es : List Event) : Prop := ∀ c, Brought chk ts es c → ∃ p, validateDeploy chk read c.code = .ok p

/-- A spawn that reaches a node after a history of validated templates: its message, the code that the node loads for
it, and its constructor. -/
structure SpawnAt (chk : Bool) (h : Hasher) (read : Bytes → Option Svm.Wasm.Module) (m : Bytes) (rs : RState)
    (sp : SpawnAccount) (p : Program) (f : Nat) : Prop where
  len : m.length < 4294967295
  dec : ∃ rest, decSpawn m = .ok (sp, rest)
  code : ∃ ss c, out h (loadTemplate chk sp.templateAddr) rs.storage = .ok ss ∧ codeSection ss = some c ∧
    programNew read c.code false = .ok p
  ctor : (sp.ctorName, f) ∈ p.exports

/-- A node that started with a genesis configuration and got these events. -/
structure Grown (chk : Bool) (h : Hasher) (read : Bytes → Option Svm.Wasm.Module) (eng : Engine) (rs : RState) :
    Prop where
  history : ∃ ts o rs0 es os, GenesisOk h ts ∧ Node.start h o ts = some rs0 ∧ Distinct chk h ts es ∧
    AllValidated chk read ts es ∧ rs = (Node.run chk h eng (nodePricer chk read) rs0 es os).1

/-- C107, for the constructor alone. -/
def C107_ctor_claim (chk : Bool) : Prop :=
  ∀ h : Hasher, NoCollision h → ∀ read eng rs, Grown chk h read eng rs → ∀ m sp p f, SpawnAt chk h read m rs sp p f →
    ∀ body tr ex, IsBody p f body → Run p [f] body tr ex → ∀ o e,
      limitOf e.gasLimit ≤ 1000 * m.length + runCost v0 p tr →
        (spawn chk h o eng (nodePricer chk read) e m rs).1.storage = rs.storage

/-- C107: the gas limit of a spawn covers everything that the spawn executes: when it does not exceed the price of
the message plus the cost of some execution of `svm_alloc` (which runs when there is calldata) and of the
constructor, nothing is changed. -/
def C107_claim (chk : Bool) : Prop :=
  ∀ h : Hasher, NoCollision h → ∀ read eng rs, Grown chk h read eng rs → ∀ m sp p f, SpawnAt chk h read m rs sp p f →
    ∀ body tr ex, IsBody p f body → Run p [f] body tr ex →
    ∀ a abody atr aex, (svmAlloc, a) ∈ p.exports → IsBody p a abody → Run p [a] abody atr aex →
    ∀ o e, limitOf e.gasLimit ≤ 1000 * m.length + runCost v0 p tr + (if sp.calldata = [] then 0 else runCost v0 p atr) →
        (spawn chk h o eng (nodePricer chk read) e m rs).1.storage = rs.storage

/-- What is known about the code of a spawn. -/
theorem Grown.facts {chk : Bool} {h : Hasher} (hc : NoCollision h) {read : Bytes → Option Svm.Wasm.Module}
    {eng : Engine} {rs : RState} (hg : Grown chk h read eng rs) {t : Addr} {ss : Sections} {c : CodeSection}
    {p : Program} (hl : out h (loadTemplate chk t) rs.storage = .ok ss) (hcs : codeSection ss = some c)
    (hp : programNew read c.code false = .ok p) :
    validateWasm chk false p = .ok () ∧ Right (nodePricer chk read) rs.cache t c.code := by
  obtain ⟨ts, o, rs0, es, os, h1, h2, h3, h4, rfl⟩ := hg.history
  obtain ⟨-, hb⟩ := C104_content_addressed hc h1 h2 eng _ es os hl hcs
  obtain ⟨q, hq⟩ := h4 c hb
  obtain ⟨q1, q2⟩ := validated_program hq
  rw [hp] at q1
  cases q1
  exact ⟨q2, fun P hP => C104_cached_prices hc h1 h2 eng _ es os h3 hl hcs hP⟩

/-- C107 for the constructor, in builds with overflow checks. Missing: `svm_alloc` is not paid for, and in release
builds prices wrap around. -/
theorem C107_checked_partial : C107_ctor_claim true := by
  intro h hc read eng rs hg m sp p f hs body tr ex hb hr o e hlim
  obtain ⟨rest, hd⟩ := hs.dec
  obtain ⟨ss, c, hl, hcs, hp⟩ := hs.code
  obtain ⟨hv, hright⟩ := hg.facts hc hl hcs hp
  refine stopped_of_prices hd hs.len hl hcs hp hright hs.ctor (fun prices hpr => ?_) hlim
  obtain ⟨x, h1, h2⟩ := Svm.Wasm.C52_bounds_checked hv hpr hb hr
  obtain ⟨x', h3, h4⟩ := (Svm.Wasm.prices_checked hv hpr).2 f body hb
  rw [h1] at h3
  cases h3
  exact ⟨x, h1, h2, h4⟩

/-- C107 for the constructor, in every build, when the prices of the functions of the program are below 2^64. -/
theorem C107_fits_partial {chk : Bool} {h : Hasher} (hc : NoCollision h) {read : Bytes → Option Svm.Wasm.Module}
    {eng : Engine} {rs : RState} (hg : Grown chk h read eng rs) {m : Bytes} {sp : SpawnAccount} {p : Program} {f : Nat}
    (hs : SpawnAt chk h read m rs sp p f) (hst : Structured p) {P : Nat → Nat} (hP : IsPrices v0 p P)
    (hfit : ∀ f c, IsBody p f c → P f < 2 ^ 64) {body : Code} {tr : List Ev} {ex : Exit} (hb : IsBody p f body)
    (hr : Run p [f] body tr ex) (o : Orders) (e : Envelope)
    (hlim : limitOf e.gasLimit ≤ 1000 * m.length + runCost v0 p tr) :
    (spawn chk h o eng (nodePricer chk read) e m rs).1.storage = rs.storage := by
  obtain ⟨rest, hd⟩ := hs.dec
  obtain ⟨ss, c, hl, hcs, hp⟩ := hs.code
  obtain ⟨hv, hright⟩ := hg.facts hc hl hcs hp
  refine stopped_of_prices hd hs.len hl hcs hp hright hs.ctor (fun prices hpr => ?_) hlim
  have hx := Svm.Wasm.C55_exact_partial hv hst hpr hP hfit hb
  exact ⟨P f, hx, Svm.Wasm.run_le_price (Svm.Wasm.C48_sound chk false p hv).1 hP hb hr, hfit f body hb⟩

/-! ## C108 -/

/-- The constructor of this name can be priced: the gas mode is the fixed one, the pricing of the program succeeds,
and the name is exported and stands for a function with code. -/
def Chargeable (chk : Bool) (p : Program) (c : CodeSection) (name : Str) : Prop :=
  c.gasMode = .fixed ∧ (priceProgram chk v0 p).isSome ∧ ∃ f ops, (name, f) ∈ p.exports ∧ p.getFunc f = some ops

theorem pricedAt_chargeable {chk : Bool} {read : Bytes → Option Svm.Wasm.Module} {cache : PriceCache} {t : Addr}
    {ss : Sections} {c : CodeSection} {p : Program} (name : Str) (hcs : codeSection ss = some c)
    (hp : programNew read c.code false = .ok p) (hv : validateWasm chk false p = .ok ())
    (hr : Right (nodePricer chk read) cache t c.code) :
    (∃ price, PricedAt (nodePricer chk read) cache t ss name price) ↔ Chargeable chk p c name := by
  obtain ⟨-, ha⟩ := Svm.Wasm.C48_sound chk false p hv
  constructor
  · rintro ⟨price, h⟩
    obtain ⟨h1, f, prices, x, h2, h3, h4, -⟩ := (pricedAt_iff _ _ hcs hp hr).1 h
    refine ⟨h1, by rw [h3]; rfl, f, ?_⟩
    rcases ((Svm.Wasm.price_fix ha h3).1 f).1 (by rw [h4]; rfl) with ⟨ops, ho⟩ | ⟨b, hb⟩
    · exact ⟨ops, h2, ho⟩
    · obtain ⟨ops, ho⟩ := Svm.Wasm.priced_defined ha h3 _ _ hb
      exact ⟨ops, h2, ho⟩
  · rintro ⟨h1, h2, f, ops, h3, h4⟩
    obtain ⟨prices, hpr⟩ := Option.isSome_iff_exists.1 h2
    obtain ⟨x, hx⟩ := Option.isSome_iff_exists.1 (((Svm.Wasm.price_fix ha hpr).1 f).2 (.inl ⟨ops, h4⟩))
    exact ⟨_, (pricedAt_iff _ _ hcs hp hr).2 ⟨h1, f, prices, x, h3, hpr, hx, rfl⟩⟩

/-- There is gas left after the payload. -/
theorem payload_nonempty {m : Bytes} (hlen : m.length < 4294967295) {limit : Gas}
    (h : 1000 * m.length < limitOf limit) : (checkGasForPayload m (GasTank.new limit)).isEmpty = false := by
  have e1 : checkGasForPayload m (GasTank.new limit) = consumeAll (GasTank.new limit) [payloadPrice m] := by
    unfold checkGasForPayload
    cases hn : GasTank.new limit with
    | empty => rfl
    | nonEmpty g => rfl
  rw [e1]
  refine (C35_consume limit [payloadPrice m]).1.2 ?_
  simpa [sumOf, payloadPrice_toNat hlen] using h

/-- C108: the gas check of a spawn does not panic, when the code of the template passed `validate_deploy` and the name
is one of the constructors of the template. -/
def C108_claim (chk : Bool) : Prop :=
  ∀ h : Hasher, NoCollision h → ∀ read eng rs, Grown chk h read eng rs → ∀ (m rest : Bytes) (sp : SpawnAccount)
    (ss : Sections), decSpawn m = .ok (sp, rest) → out h (loadTemplate chk sp.templateAddr) rs.storage = .ok ss →
    isCtor ss sp.ctorName = some true → ∀ gas,
      ((checkGasForFunc (nodePricer chk read) rs.cache sp.templateAddr ss sp.ctorName gas).2).isSome

/-- C108: with enough gas for the message, the check passes or answers out of gas exactly when the constructor can be
priced. -/
theorem C108_iff {chk : Bool} {h : Hasher} (hc : NoCollision h) {read : Bytes → Option Svm.Wasm.Module} {eng : Engine}
    {rs : RState} (hg : Grown chk h read eng rs) {t : Addr} {ss : Sections} {c : CodeSection} {p : Program}
    (hl : out h (loadTemplate chk t) rs.storage = .ok ss) (hcs : codeSection ss = some c)
    (hp : programNew read c.code false = .ok p) (name : Str) {gas : GasTank} (hgas : gas.isEmpty = false) :
    ((checkGasForFunc (nodePricer chk read) rs.cache t ss name gas).2).isSome ↔ Chargeable chk p c name := by
  obtain ⟨hv, hright⟩ := hg.facts hc hl hcs hp
  rw [← pricedAt_chargeable name hcs hp hv hright, ← checkGas_iff hgas, Option.isSome_iff_exists]

/-- C108: otherwise every spawn that pays for its message panics, and leaves the storage as it was. -/
theorem C108_crashes {chk : Bool} {h : Hasher} (hc : NoCollision h) {read : Bytes → Option Svm.Wasm.Module}
    {eng : Engine} {rs : RState} (hg : Grown chk h read eng rs) {m rest : Bytes} {sp : SpawnAccount} {ss : Sections}
    {c : CodeSection} {p : Program} (hlen : m.length < 4294967295) (hd : decSpawn m = .ok (sp, rest))
    (hl : out h (loadTemplate chk sp.templateAddr) rs.storage = .ok ss) (hcs : codeSection ss = some c)
    (hp : programNew read c.code false = .ok p) (hct : isCtor ss sp.ctorName = some true)
    (hn : ¬ Chargeable chk p c sp.ctorName) (o : Orders) (e : Envelope) (hlim : 1000 * m.length < limitOf e.gasLimit) :
    (spawn chk h o eng (nodePricer chk read) e m rs).2 = none ∧
      (spawn chk h o eng (nodePricer chk read) e m rs).1.storage = rs.storage := by
  have hi := C108_iff hc hg hl hcs hp sp.ctorName (payload_nonempty hlen hlim)
  rw [← hi] at hn
  have hnone : (checkGasForFunc (nodePricer chk read) rs.cache sp.templateAddr ss sp.ctorName
      (checkGasForPayload m (GasTank.new e.gasLimit))).2 = none := by
    simpa using hn
  have hro : after h (loadTemplate chk sp.templateAddr) rs.storage = rs.storage :=
    (readOnly_loadTemplate _ _).run h _
  unfold spawn
  simp only [hd, run_out, hl, hro, hct, hnone]
  exact ⟨trivial, trivial⟩

/-- C108, in release builds: for structured code the condition is one on the program alone. -/
theorem C108_release_iff {p : Program} (hv : validateWasm false false p = .ok ()) (hs : Structured p) (c : CodeSection)
    (name : Str) : Chargeable false p c name ↔
      c.gasMode = .fixed ∧ Priceable v0 p ∧ ∃ f body, (name, f) ∈ p.exports ∧ IsBody p f body := by
  unfold Chargeable
  rw [Svm.Wasm.C54_release_iff hv hs]
  refine and_congr_right fun _ => and_congr_right fun _ => exists_congr fun f => ?_
  constructor
  · rintro ⟨ops, h1, h2⟩
    obtain ⟨body, hb⟩ := hs f ops h2
    exact ⟨body, h1, hb⟩
  · rintro ⟨body, h1, hb⟩
    exact ⟨_, h1, hb⟩

/-! ## Concrete spawns -/

/-- A spawn that passes the gas check creates the account, whatever its constructor does then. -/
theorem spawn_created {h : Hasher} (hc : NoCollision h) {chk : Bool} {read : Bytes → Option Svm.Wasm.Module}
    {o : Orders} {eng : Engine} {e : Envelope} {m rest : Bytes} {sp : SpawnAccount} {rs : RState} {ss : Sections}
    {c : CodeSection} {p : Program} {f x : Nat} {prices : Nat → Option Nat} {l : Svm.Layout.FixedLayout}
    {ls : List Svm.Layout.FixedLayout} (hi : Inv rs.storage)
    (hd : decSpawn m = .ok (sp, rest)) (hlen : m.length < 4294967295) (hnm : sp.name.1.length ≤ 255)
    (hl : out h (loadTemplate chk sp.templateAddr) rs.storage = .ok ss) (hcs : codeSection ss = some c)
    (hdata : ss.tryGet .data = some (.data (l :: ls)))
    (hp : programNew read c.code false = .ok p) (hr : Right (nodePricer chk read) rs.cache sp.templateAddr c.code)
    (hf : (sp.ctorName, f) ∈ p.exports) (hct : isCtor ss sp.ctorName = some true) (hgm : c.gasMode = .fixed)
    (hpr : priceProgram chk v0 p = some prices) (hx : prices f = some x) (hx64 : x < 2 ^ 64)
    (hlim : 1000 * m.length + x < limitOf e.gasLimit) :
    view h (spawn chk h o eng (nodePricer chk read) e m rs).1.storage (.accData (computeAccountAddr h sp)) ≠ none := by
  have hpa : PricedAt (nodePricer chk read) rs.cache sp.templateAddr ss sp.ctorName (BitVec.ofNat 64 x) :=
    (pricedAt_iff _ _ hcs hp hr).2 ⟨hgm, f, prices, x, hf, hpr, hx, rfl⟩
  have hgo := ((C34_spawn_gas (rs := rs) chk o eng (nodePricer chk read) e m rest sp ss _ hlen hd hl hct hpa).2 (by
    rw [BitVec.toNat_ofNat, Nat.mod_eq_of_lt hx64]
    exact hlim)).2
  rw [hgo]
  have hlay : ∃ l, out h (templateLayout chk sp.templateAddr) rs.storage = .ok l := by
    refine ⟨l, ?_⟩
    rw [out_eval hc] at hl ⊢
    have hl' : (readSections chk sp.templateAddr).eval (view h rs.storage) =
        (((loadTemplate chk sp.templateAddr).eval (view h rs.storage)).1, .ok ss) :=
      unwrap_ok.1 (Prod.ext rfl hl)
    unfold templateLayout
    rw [Prog.bind_eq, Prog.eval_bind_ok hl', hdata]
    rfl
  obtain ⟨acc, hacc⟩ := (C18_create_ok_iff hc (s := rs.storage) chk (b := 0) (c := 0)
    (a := computeAccountAddr h sp)).2 ⟨hlay, hnm⟩
  have hinfo := (create_info hc hacc).2.1
  have hacc' := hacc
  rw [out_eval hc] at hacc'
  have hev : (createAccount chk (computeAccountAddr h sp) sp.templateAddr sp.name 0 0).eval (view h rs.storage) =
      (((create chk (computeAccountAddr h sp) sp.name sp.templateAddr 0 0).eval (view h rs.storage)).1, .ok ()) := by
    unfold createAccount
    rw [Prog.bind_eq, Prog.eval_bind_ok (unwrap_ok.2 (Prod.ext rfl hacc'))]
    rfl
  have hcreate : out h (createAccount chk (computeAccountAddr h sp) sp.templateAddr sp.name 0 0) rs.storage =
      .ok () := by
    rw [out_eval hc, hev]
  have hview : view h (after h (createAccount chk (computeAccountAddr h sp) sp.templateAddr sp.name 0 0)
      rs.storage) (.accData (computeAccountAddr h sp)) ≠ none := by
    rw [view_after hc, hev]
    rw [view_after hc] at hinfo
    intro hno
    simp only at hno
    unfold info at hinfo
    rw [hno] at hinfo
    cases hinfo
  unfold spawnAccount
  simp only [run_out, hcreate]
  unfold callCtor
  simp only
  have hi1 : Inv (after h (createAccount chk (computeAccountAddr h sp) sp.templateAddr sp.name 0 0) rs.storage) :=
    inv_prog (h := h) _ hi
  rw [view_execCall hi1, view_after hc, (does_exec chk eng _).writes.eval _ _ (by
    rintro (⟨b, hb⟩ | ⟨i, hb⟩) <;> cases hb)]
  exact hview

/-- A module that exports the two required functions and the functions `0`, `1`, ... under these names. -/
def testModule (names : List (Str × Nat)) (code : List (List Svm.Wasm.Op)) : Svm.Wasm.Module :=
  { types := [⟨[.i32], [.i32]⟩, ⟨[], [.i32]⟩], imports := [], functions := [0, 1, 1]
    exports := ⟨svmAlloc, some 0⟩ :: ⟨svmVerify, some 1⟩ :: names.map fun n => ⟨n.1, some n.2⟩
    code := some code }

/-- A spawn from the genesis template, with calldata. -/
def pricedSpawn (h : Hasher) : SpawnAccount := { genesisSpawn h with calldata := [5] }

theorem pricedSpawn_msg (h : Hasher) : ∃ m, decSpawn m = .ok (pricedSpawn h, []) ∧ m.length = 29 := by
  have hem : encSpawn (pricedSpawn h) = some ([0, 0] ++ ((computeTemplateAddr h demoCode).1 ++
      ([1, 0x61] ++ ([2, 0x69, 0x6e] ++ [1, 5])))) := by
    have e1 : encNum 2 (0 : U16) = some [0, 0] := by decide +kernel
    have e2 : encData 1 [5] = some [1, 5] := by decide +kernel
    have e3 : encStr ⟨[0x61], by decide⟩ = some [1, 0x61] := by decide +kernel
    have e4 : encStr inName = some [2, 0x69, 0x6e] := by decide +kernel
    unfold encSpawn pricedSpawn genesisSpawn
    simp only [e1, e2, e3, e4, encArr]
    rfl
  refine ⟨[0, 0] ++ ((computeTemplateAddr h demoCode).1 ++ ([1, 0x61] ++ ([2, 0x69, 0x6e] ++ [1, 5]))), ?_, ?_⟩
  · have := roundTrip_spawn (pricedSpawn h) _ [] hem
    rwa [List.append_nil] at this
  · simp [(computeTemplateAddr h demoCode).2]

/-- A node with the demo template, whose code is this program. -/
theorem demo_grown {h : Hasher} (hc : NoCollision h) {chk : Bool} {read : Bytes → Option Svm.Wasm.Module} {p : Program}
    (hv : validateDeploy chk read demoCode.code = .ok p) (eng : Engine) :
    ∃ rs ss, Grown chk h read eng rs ∧ Inv rs.storage ∧ rs.cache = [] ∧
      (∀ a, view h rs.storage (.accData a) = none) ∧
      out h (loadTemplate chk (computeTemplateAddr h demoCode)) rs.storage = .ok ss ∧
      ∀ k, ss.tryGet k = demoSections.tryGet k := by
  obtain ⟨rs, hs⟩ := demoGenesis_starts hc ⟨.id, .id⟩
  obtain ⟨hst, hcache⟩ := stored_start (Q := fun k _ => ∀ a, k ≠ .accData a) hc (fun _ _ _ _ _ =>
    ⟨fun _ _ _ hk => (by cases hk), fun _ _ _ hk => (by cases hk)⟩) hs
  obtain ⟨ss, h1, h2⟩ := C105_loads_partial (chk := chk) hc (demoGenesis_ok h).valid (by simp [demoGenesis]) hs
    (List.mem_singleton.2 rfl) demo_representable eng (nodePricer chk read) [] (by simp) (fun _ => ⟨.id, .id⟩)
  have one : ∀ c, Brought chk (demoGenesis h) [] c → c = demoCode := by
    rintro c (⟨q, hq, hcs⟩ | ⟨e, m', ss', rest, hmem, -⟩)
    · cases List.mem_singleton.1 hq
      cases hcs
      rfl
    · cases hmem
  refine ⟨rs, ss, ⟨demoGenesis h, _, rs, [], fun _ => ⟨.id, .id⟩, demoGenesis_ok h, hs, ?_, ?_, rfl⟩, hst.inv, hcache,
    ?_, h1, h2⟩
  · intro c c' hb hb' _
    rw [one c hb, one c' hb']
  · intro c hb
    rw [one c hb]
    exact ⟨p, hv⟩
  · intro a
    cases hva : view h rs.storage (.accData a) with
    | none => rfl
    | some v => exact absurd rfl (hst.value hva a)

/-- All three functions of this module do nothing. -/
def idleWasm : Svm.Wasm.Module :=
  testModule [(inName, 2)] (List.replicate 3 [.plain .nop, .end_])

def idleProgram : Program :=
  ⟨[], [(svmAlloc, 0), (svmVerify, 1), (inName, 2)], List.replicate 3 [.plain .nop, .end_]⟩

theorem idle_validated (chk : Bool) : validateDeploy chk (fun _ => some idleWasm) demoCode.code = .ok idleProgram := by
  cases chk <;> rfl

theorem idle_prices (chk : Bool) : ∃ prices, priceProgram chk v0 idleProgram = some prices ∧ prices 2 = some 1 := by
  have h : (priceProgram chk v0 idleProgram).bind (fun prices => prices 2) = some 1 := by
    cases chk <;> decide +kernel
  cases hp : priceProgram chk v0 idleProgram with
  | none => rw [hp] at h; cases h
  | some prices => rw [hp] at h; exact ⟨prices, rfl, h⟩

def idleBody : Code := .op (.plain .nop) .nil

theorem idle_run (f : Nat) : ∃ tr, Run idleProgram [f] idleBody tr .next ∧ runCost v0 idleProgram tr = 1 :=
  ⟨_, .fall _ _ _ [] _ (by simp [Svm.Wasm.Basic.jumps]) (.nil _), rfl⟩

/-- An envelope with this gas limit. -/
def limited (g : U64) : Envelope := { demoEnvelope with gasLimit := some g }

/-- The spawn of `pricedSpawn` on a node with the demo template, with this program as its code. -/
theorem demo_spawnAt {h : Hasher} {chk : Bool} {read : Bytes → Option Svm.Wasm.Module} {p : Program}
    (hv : validateDeploy chk read demoCode.code = .ok p) {rs : RState} {ss : Sections}
    (hl : out h (loadTemplate chk (computeTemplateAddr h demoCode)) rs.storage = .ok ss)
    (hk : ∀ k, ss.tryGet k = demoSections.tryGet k) {m : Bytes} (hd : decSpawn m = .ok (pricedSpawn h, []))
    (hm : m.length = 29) {f : Nat} (hf : (inName, f) ∈ p.exports) :
    codeSection ss = some demoCode ∧ SpawnAt chk h read m rs (pricedSpawn h) p f := by
  have hcs : codeSection ss = some demoCode := by
    unfold codeSection
    rw [hk]
    rfl
  exact ⟨hcs, by omega, ⟨_, hd⟩, ⟨ss, demoCode, hl, hcs, (validated_program hv).1⟩, hf⟩

/-- With this limit it creates the account. -/
theorem demo_created {h : Hasher} (hc : NoCollision h) {chk : Bool} {read : Bytes → Option Svm.Wasm.Module} {p : Program}
    (hv : validateDeploy chk read demoCode.code = .ok p) {rs : RState} {ss : Sections} (hi : Inv rs.storage)
    (hcache : rs.cache = []) (hnew : ∀ a, view h rs.storage (.accData a) = none)
    (hl : out h (loadTemplate chk (computeTemplateAddr h demoCode)) rs.storage = .ok ss)
    (hk : ∀ k, ss.tryGet k = demoSections.tryGet k) {m : Bytes} (hd : decSpawn m = .ok (pricedSpawn h, []))
    (hm : m.length = 29) {f x : Nat} (hf : (inName, f) ∈ p.exports) {prices : Nat → Option Nat}
    (hpr : priceProgram chk v0 p = some prices) (hx : prices f = some x) (o : Orders) (eng : Engine) (g : U64)
    (hg : 29000 + x < g.toNat) :
    (spawn chk h o eng (nodePricer chk read) (limited g) m rs).1.storage ≠ rs.storage := by
  obtain ⟨hcs, hs⟩ := demo_spawnAt hv hl hk hd hm hf
  intro he
  have hlt : g.toNat < 2 ^ 64 := g.isLt
  refine spawn_created hc (o := o) (eng := eng) (e := limited g) hi hd hs.len (by simp [pricedSpawn, genesisSpawn]) hl
    hcs (l := demoLayout) (ls := []) ?_ (validated_program hv).1 ?_ hf ?_ rfl hpr hx (by omega) ?_ ?_
  · rw [hk]; rfl
  · intro P hP
    rw [hcache] at hP
    cases hP
  · unfold isCtor
    rw [hk]
    rfl
  · rw [hm]
    exact hg
  · rw [he]
    exact hnew _

/-- C107 is violated in every build: `svm_alloc` runs before the constructor when there is calldata, and is not paid
for. -/
theorem C107_claim_false (chk : Bool) : ¬ C107_claim chk := by
  intro hcl
  obtain ⟨h, hc⟩ := exists_noCollision
  obtain ⟨m, hd, hm⟩ := pricedSpawn_msg h
  obtain ⟨rs, ss, hg, hi, hcache, hnew, hl, hk⟩ := demo_grown hc (idle_validated chk) idleEngine
  obtain ⟨prices, hpr, hx⟩ := idle_prices chk
  obtain ⟨tr, hr, hcost⟩ := idle_run 2
  obtain ⟨atr, har, hacost⟩ := idle_run 0
  have hf : (inName, 2) ∈ idleProgram.exports := by simp [idleProgram]
  refine demo_created hc (idle_validated chk) hi hcache hnew hl hk hd hm hf hpr hx ⟨.id, .id⟩ idleEngine 29002
    (by decide) (hcl h hc _ _ rs hg m _ _ 2 (demo_spawnAt (idle_validated chk) hl hk hd hm hf).2 idleBody tr _ rfl hr 0 idleBody atr _
      (by simp [idleProgram]) rfl har _ _ ?_)
  rw [hcost, hacost, hm, if_neg (by simp [pricedSpawn])]
  decide

/-- The program `powers 16` with exports; the constructor is its last function. -/
def powersWasm : Svm.Wasm.Module := testModule [(inName, 16)] (Svm.Wasm.powers 16).functions

def powersProgram : Program :=
  ⟨[], [(svmAlloc, 0), (svmVerify, 1), (inName, 16)], (Svm.Wasm.powers 16).functions⟩

theorem powers_validated : validateDeploy false (fun _ => some powersWasm) demoCode.code = .ok powersProgram := by
  have h1 : programNew (fun _ => some powersWasm) demoCode.code true = .ok powersProgram := rfl
  have h2 : validateWasm false false powersProgram = .ok () := Svm.Wasm.powers_accepted false false
  unfold validateDeploy
  rw [h1]
  simp only
  rw [h2]

theorem powersProgram_run : ∀ f, f ≤ 16 → ∀ stk, ∃ tr, Run powersProgram stk (Svm.Wasm.powersCode f) tr .stop ∧
    runCost v0 powersProgram tr = 1
  | 0, _, stk => ⟨_, .fall stk _ _ [] _ (by simp [Svm.Wasm.Basic.jumps]) (.stop _ _), rfl⟩
  | i + 1, h, stk => by
    obtain ⟨tr, hr, hc⟩ := powersProgram_run i (by omega) (i :: stk)
    refine ⟨_, .callStop stk (.call i) i (Svm.Wasm.powersCode i) (Svm.Wasm.callsCode i 15) tr rfl
      (Svm.Wasm.powers_body (n := 16) (by omega)) hr, ?_⟩
    rw [Svm.Wasm.runCost_cons, hc]
    rfl

/-- C107 is violated in release builds even for the constructor alone: the price of a constructor that executes 2^64
instructions is 0. -/
theorem C107_release_false : ¬ C107_ctor_claim false := by
  intro hcl
  obtain ⟨h, hc⟩ := exists_noCollision
  obtain ⟨m, hd, hm⟩ := pricedSpawn_msg h
  obtain ⟨rs, ss, hg, hi, hcache, hnew, hl, hk⟩ := demo_grown hc powers_validated idleEngine
  obtain ⟨prices, hpr, hx⟩ := Svm.Wasm.powers_wrap_prices
  obtain ⟨tr, hr, hcost⟩ := powersProgram_run 16 (Nat.le_refl _) [16]
  have hf : (inName, 16) ∈ powersProgram.exports := by simp [powersProgram]
  refine demo_created hc powers_validated hi hcache hnew hl hk hd hm hf (prices := prices) hpr hx ⟨.id, .id⟩ idleEngine
    29001 (by decide) (hcl h hc _ _ rs hg m _ _ 16 (demo_spawnAt powers_validated hl hk hd hm hf).2 _ tr _
      (Svm.Wasm.powers_body (n := 16) (Nat.le_refl _)) hr _ _ ?_)
  rw [hcost, hm]
  decide

/-- A module without the constructor. -/
def bareWasm : Svm.Wasm.Module := testModule [] (List.replicate 3 [.plain .nop, .end_])

def bareProgram : Program := ⟨[], [(svmAlloc, 0), (svmVerify, 1)], List.replicate 3 [.plain .nop, .end_]⟩

theorem bare_validated (chk : Bool) : validateDeploy chk (fun _ => some bareWasm) demoCode.code = .ok bareProgram := by
  cases chk <;> rfl

/-- C108 is violated: validation does not look at the constructors. -/
theorem C108_claim_false (chk : Bool) : ¬ C108_claim chk := by
  intro hcl
  obtain ⟨h, hc⟩ := exists_noCollision
  obtain ⟨m, hd, hm⟩ := pricedSpawn_msg h
  obtain ⟨rs, ss, hg, hi, hcache, hnew, hl, hk⟩ := demo_grown hc (bare_validated chk) idleEngine
  have hcs : codeSection ss = some demoCode := by
    unfold codeSection
    rw [hk]
    rfl
  have := hcl h hc _ _ rs hg m [] (pricedSpawn h) ss hd hl (by
    unfold isCtor
    rw [hk]
    rfl) (.nonEmpty 1)
  have := (C108_iff hc hg hl hcs (validated_program (bare_validated chk)).1 inName (gas := .nonEmpty 1) rfl).1 this
  obtain ⟨-, -, f, ops, hmem, -⟩ := this
  have h1 : inName ≠ svmAlloc := fun e => absurd (congrArg Subtype.val e) (by decide)
  have h2 : inName ≠ svmVerify := fun e => absurd (congrArg Subtype.val e) (by decide)
  simp only [bareProgram, List.mem_cons, Prod.mk.injEq, List.not_mem_nil, or_false] at hmem
  rcases hmem with ⟨e, -⟩ | ⟨e, -⟩
  · exact h1 e
  · exact h2 e

/-- Non-vacuity of C107 and C108: a node, a spawn, an execution of its constructor, and limits on both sides. -/
example (chk : Bool) : ∃ h, NoCollision h ∧ ∃ read rs m sp p body tr ex, Grown chk h read idleEngine rs ∧
    SpawnAt chk h read m rs sp p 2 ∧ IsBody p 2 body ∧ Run p [2] body tr ex ∧ runCost v0 p tr = 1 ∧
    Chargeable chk p demoCode sp.ctorName ∧
    limitOf (limited 29001).gasLimit ≤ 1000 * m.length + runCost v0 p tr ∧
    (spawn chk h ⟨.id, .id⟩ idleEngine (nodePricer chk read) (limited 29002) m rs).1.storage ≠ rs.storage := by
  obtain ⟨h, hc⟩ := exists_noCollision
  obtain ⟨m, hd, hm⟩ := pricedSpawn_msg h
  obtain ⟨rs, ss, hg, hi, hcache, hnew, hl, hk⟩ := demo_grown hc (idle_validated chk) idleEngine
  obtain ⟨prices, hpr, hx⟩ := idle_prices chk
  obtain ⟨tr, hr, hcost⟩ := idle_run 2
  have hf : (inName, 2) ∈ idleProgram.exports := by simp [idleProgram]
  refine ⟨h, hc, _, rs, m, _, _, idleBody, tr, _, hg, (demo_spawnAt (idle_validated chk) hl hk hd hm hf).2, rfl, hr, hcost,
    ⟨rfl, by rw [hpr]; rfl, 2, _, hf, rfl⟩, ?_, demo_created hc (idle_validated chk) hi hcache hnew hl hk hd hm hf hpr hx _ _ _
      (by decide)⟩
  rw [hcost, hm]
  decide

end Svm.Runtime
