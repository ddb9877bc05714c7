import Verif.Runtime.Host

/-!
# Properties C35, C36 and C57: gas arithmetic and the price cache
-/

namespace Svm.Runtime

open Svm.Codec Svm.Account

/-! ## C35 -/

/-- Consume charges one after another. -/
def consumeAll (t : GasTank) (charges : List U64) : GasTank := charges.foldl GasTank.consume t

/-- The amount that a limit stands for: no limit is the largest amount. -/
def limitOf (g : Gas) : Nat := match g with | none => 2 ^ 64 - 1 | some x => x.toNat

/-- The sum of charges, as a mathematical integer. -/
def sumOf (charges : List U64) : Nat := (charges.map BitVec.toNat).sum

theorem consumeAll_empty (charges : List U64) : consumeAll .empty charges = .empty := by
  induction charges with
  | nil => rfl
  | cons c cs ih => exact ih

theorem consumeAll_nonEmpty (charges : List U64) (g : U64) (hg : 0 < g.toNat) :
    (sumOf charges < g.toNat ∧ ∃ g', consumeAll (.nonEmpty g) charges = .nonEmpty g' ∧
      g'.toNat + sumOf charges = g.toNat) ∨
    (g.toNat ≤ sumOf charges ∧ consumeAll (.nonEmpty g) charges = .empty) := by
  induction charges generalizing g with
  | nil => exact .inl ⟨hg, g, rfl, rfl⟩
  | cons c cs ih =>
    have hsum : sumOf (c :: cs) = c.toNat + sumOf cs := rfl
    by_cases hc : c.toNat < g.toNat
    · have e : consumeAll (.nonEmpty g) (c :: cs) = consumeAll (.nonEmpty (g - c)) cs := by
        show consumeAll (GasTank.consume (.nonEmpty g) c) cs = _
        simp only [GasTank.consume]
        rw [if_pos hc]
      have hs : (g - c).toNat = g.toNat - c.toNat := toNat_sub (by omega)
      rcases ih (g - c) (by omega) with ⟨h1, g', h2, h3⟩ | ⟨h1, h2⟩
      · exact .inl ⟨by omega, g', by rw [e, h2], by omega⟩
      · exact .inr ⟨by omega, by rw [e, h2]⟩
    · refine .inr ⟨by omega, ?_⟩
      show consumeAll (GasTank.consume (.nonEmpty g) c) cs = _
      simp only [GasTank.consume]
      rw [if_neg hc, consumeAll_empty]

/-- C35: for every limit and every finite sequence of charges, gas is left exactly when the limit is
strictly greater than the (mathematical) sum, and then the rest is limit minus sum. -/
theorem C35_consume (limit : Gas) (charges : List U64) :
    ((consumeAll (GasTank.new limit) charges).isEmpty = false ↔ sumOf charges < limitOf limit) ∧
    (consumeAll (GasTank.new limit) charges).unwrap.toNat = limitOf limit - sumOf charges := by
  have hl : limitOf limit = (limit.getD (BitVec.allOnes 64)).toNat := by
    cases limit <;> rfl
  unfold GasTank.new
  simp only
  split
  · rename_i hpos
    rw [hl]
    rcases consumeAll_nonEmpty charges _ hpos with ⟨h1, g', h2, h3⟩ | ⟨h1, h2⟩
    · rw [h2]
      refine ⟨⟨fun _ => h1, fun _ => rfl⟩, ?_⟩
      simp only [GasTank.unwrap]
      omega
    · rw [h2]
      refine ⟨⟨fun h => by simp [GasTank.isEmpty] at h, fun h => by omega⟩, ?_⟩
      simp only [GasTank.unwrap]
      rw [show BitVec.toNat (0 : BitVec 64) = 0 from rfl]
      omega
  · rw [consumeAll_empty, hl]
    refine ⟨⟨fun h => by simp [GasTank.isEmpty] at h, fun h => by omega⟩, ?_⟩
    simp only [GasTank.unwrap]
    rw [show BitVec.toNat (0 : BitVec 64) = 0 from rfl]
    omega

/-- C35: an empty tank never becomes non-empty. -/
theorem C35_empty_stays (t : GasTank) (charges : List U64) (h : t.isEmpty = true) :
    (consumeAll t charges).isEmpty = true := by
  cases t with
  | empty => rw [consumeAll_empty]; rfl
  | nonEmpty g => cases h

/-- Some charges, with and without gas left. -/
example : (consumeAll (GasTank.new (some 10)) [3, 6]).unwrap = 1 ∧
    (consumeAll (GasTank.new (some 10)) [3, 7]).isEmpty = true := by decide

/-! ## C36 -/

/-- What optional gas stands for: `none` is "unlimited". Addition and subtraction as specified:
unlimited stays unlimited, and otherwise the integers are added or subtracted; a result that does not
fit is reported (`none`). -/
def specAdd (g : Option Nat) (x : Nat) : Option (Option Nat) :=
  match g with
  | none => some none
  | some g => if g + x < 2 ^ 64 then some (some (g + x)) else none

/-- Subtraction as specified. -/
def specSub (g : Option Nat) (x : Nat) : Option (Option Nat) :=
  match g with
  | none => some none
  | some g => if x ≤ g then some (some (g - x)) else none

/-- Comparison as specified: unlimited is greater than every amount. -/
def specCmp (g : Option Nat) (x : Nat) : Ordering :=
  match g with
  | none => .gt
  | some g => if g < x then .lt else if g = x then .eq else .gt

/-- The integer of an optional gas value. -/
def gasNat (g : Gas) : Option Nat := g.map BitVec.toNat

/-- The claim C36 for one build of the program. -/
def C36_claim (chk : Bool) : Prop :=
  ∀ (g : Gas) (x : U64),
    (gasAdd chk g x).map gasNat = specAdd (gasNat g) x.toNat ∧
    (gasSub g x).map gasNat = specSub (gasNat g) x.toNat ∧
    gasCmp g x = specCmp (gasNat g) x.toNat ∧
    (gasEq g x = true ↔ gasNat g = some x.toNat)

theorem sub_cmp_spec (g : Gas) (x : U64) :
    (gasSub g x).map gasNat = specSub (gasNat g) x.toNat ∧
    gasCmp g x = specCmp (gasNat g) x.toNat ∧
    (gasEq g x = true ↔ gasNat g = some x.toNat) := by
  cases g with
  | none => exact ⟨rfl, rfl, by simp [gasEq, gasNat]⟩
  | some g =>
    refine ⟨?_, ?_, ?_⟩
    · simp only [gasSub, gasNat, specSub, Option.map_some]
      split
      · rename_i h
        simp [gasNat, toNat_sub h]
      · rfl
    · simp only [gasCmp, gasNat, specCmp, Option.map_some]
      rw [Nat.compare_eq_ite_lt]
      split
      · rfl
      · split
        · rw [if_neg (by omega)]
        · rw [if_pos (by omega)]
    · simp [gasEq, gasNat, BitVec.toNat_inj]

/-- C36 for builds with overflow checks: an addition that does not fit panics. -/
theorem C36_checked_build : C36_claim true := by
  intro g x
  refine ⟨?_, sub_cmp_spec g x⟩
  cases g with
  | none => rfl
  | some g =>
    simp only [gasAdd, specAdd, gasNat, Option.map_some, Bool.true_and, decide_eq_true_eq]
    by_cases h : g.toNat + x.toNat < 2 ^ 64
    · rw [if_neg (by omega), if_pos h]
      simp only [Option.map_some, toNat_add h, gasNat]
    · rw [if_pos (by omega), if_neg h]
      rfl

/-- C36 is violated in builds without overflow checks (release builds): an addition wraps silently. -/
theorem C36_release_false : ¬ C36_claim false := by
  intro h
  have := (h (some (BitVec.allOnes 64)) 1).1
  revert this
  decide +kernel

/-- C36 for release builds, what holds: all of it except additions that do not fit. Those wrap to the
sum minus 2^64. -/
theorem C36_release_partial (g : Gas) (x : U64) :
    ((∀ y, g = some y → y.toNat + x.toNat < 2 ^ 64) →
      (gasAdd false g x).map gasNat = specAdd (gasNat g) x.toNat) ∧
    (∀ y, g = some y → 2 ^ 64 ≤ y.toNat + x.toNat →
      (gasAdd false g x).map gasNat = some (some (y.toNat + x.toNat - 2 ^ 64))) ∧
    (gasSub g x).map gasNat = specSub (gasNat g) x.toNat ∧
    gasCmp g x = specCmp (gasNat g) x.toNat ∧
    (gasEq g x = true ↔ gasNat g = some x.toNat) := by
  refine ⟨fun h => ?_, fun y hy hle => ?_, sub_cmp_spec g x⟩
  · cases g with
    | none => rfl
    | some g =>
      have h := h g rfl
      simp only [gasAdd, specAdd, gasNat, Option.map_some, Bool.false_and]
      rw [if_neg (by simp), if_pos h]
      simp only [Option.map_some, toNat_add h, gasNat]
  · subst hy
    have e : (y + x).toNat = y.toNat + x.toNat - 2 ^ 64 := by
      rw [BitVec.toNat_add]
      have := y.isLt
      have := x.isLt
      omega
    rw [← e]
    rfl

/-! ## C57 -/

/-- A price query: template address and code. -/
abbrev PriceQuery := Addr × Bytes

/-- Answer queries one after another, starting with this cache. -/
def priceAll (pr : Pricer) : PriceCache → List PriceQuery → PriceCache × List (Option FuncPrice)
  | cache, [] => (cache, [])
  | cache, (t, code) :: qs =>
    let r := priceOf pr cache t code
    let rest := priceAll pr r.1 qs
    (rest.1, r.2 :: rest.2)

/-- Everything in the cache is what the code of its address costs. -/
def CacheOk (pr : Pricer) (codeOf : Addr → Bytes) (cache : PriceCache) : Prop :=
  ∀ t p, cache.get t = some p → pr.price (codeOf t) = some p

theorem priceOf_ok {pr : Pricer} {codeOf : Addr → Bytes} {cache : PriceCache}
    (hc : CacheOk pr codeOf cache) (t : Addr) :
    CacheOk pr codeOf (priceOf pr cache t (codeOf t)).1 ∧
      (priceOf pr cache t (codeOf t)).2 = pr.price (codeOf t) := by
  unfold priceOf
  split
  · rename_i p hp
    exact ⟨hc, (hc t p hp).symm⟩
  · split
    · rename_i p hp
      refine ⟨fun t' p' h' => ?_, hp.symm⟩
      simp only [AMap.get_insert] at h'
      split at h'
      · rename_i e
        cases h'
        rw [← e]
        exact hp
      · exact hc t' p' h'
    · rename_i hp
      exact ⟨hc, hp.symm⟩

/-- C57: for every sequence of price queries, starting with an empty cache, every answer (also "not
priceable") is the price computed from the program of the queried template. -/
theorem C57_cached_prices (pr : Pricer) (codeOf : Addr → Bytes) (ts : List Addr) :
    (priceAll pr [] (ts.map fun t => (t, codeOf t))).2 = ts.map fun t => pr.price (codeOf t) := by
  suffices h : ∀ cache, CacheOk pr codeOf cache →
      (priceAll pr cache (ts.map fun t => (t, codeOf t))).2 = ts.map fun t => pr.price (codeOf t) from
    h [] (fun t p hp => by cases hp)
  induction ts with
  | nil => intro cache _; rfl
  | cons t ts ih =>
    intro cache hc
    obtain ⟨h1, h2⟩ := priceOf_ok hc t
    simp only [List.map_cons, priceAll, h2]
    rw [ih _ h1]

/-- Two queries for one template and one for another. -/
example : (priceAll ⟨fun _ => none, fun code => some fun _ => some (BitVec.ofNat 64 code.length)⟩ []
    [(exampleAddr 1, [0, 0]), (exampleAddr 2, [0]), (exampleAddr 1, [0, 0])]).2.map
      (fun o => o.bind fun f => f 0) = [some 2, some 1, some 2] := by decide

end Svm.Runtime
