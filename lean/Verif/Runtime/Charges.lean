import Verif.Runtime.Priced
import Verif.Wasm.Tool
import Mathlib.Algebra.BigOperators.Fin
import Mathlib.Algebra.Order.BigOperators.Group.Finset

/-!
# C137 and C138: gas in receipts, and how many host calls a gas limit allows
-/

namespace Svm.Runtime

open Svm.Codec Svm.Account
open Svm.Storage (Hasher Storage Inv)
open Svm.Wasm (Program programNew validateDeploy validateWasm priceProgram v0 IsBody Run runCost Ev Exit Code
  Structured IsPrices Listed evCost)

/-! ## Specification -/

/-- The events of an execution that call the host function `i` of the program. -/
def CallOf (p : Program) (i : Str × Str) (ev : Ev) : Prop := ∃ f, ev.2 = .call f ∧ p.imports[f]? = some i

/-- There are `n` different moments of the execution at which `i` is called. -/
def CallsHost (p : Program) (i : Str × Str) (tr : List Ev) (n : Nat) : Prop :=
  ∃ at_ : Fin n → Fin tr.length, Function.Injective at_ ∧ ∀ k, CallOf p i (tr[at_ k])

/-- What one call of the host function costs: the price of the list, or 1000. -/
def HostCosts (i : Str × Str) (x : Nat) : Prop := Listed i x ∨ ((∀ y, ¬ Listed i y) ∧ x = 1000)

/-- C137 as claimed: the receipt of every successful transaction says how much gas was used. -/
def C137_claim (chk : Bool) : Prop :=
  ∀ (h : Hasher) (o : Orders) (eng : Engine) (pr : Pricer) (e : Envelope) (m : Bytes) (rs : RState),
    (∀ r, (deploy chk h e m rs.storage).2 = some r → r.success = true → r.gasUsed ≠ none) ∧
    (∀ r, (spawn chk h o eng pr e m rs).2 = some r → r.success = true → r.gasUsed ≠ none) ∧
    ∀ r, (call chk h o eng m rs.storage).2 = some r → r.success = true → r.gasUsed ≠ none

/-! ## C137 -/

theorem execCall_gas {chk : Bool} {h : Hasher} {o : Orders} {eng : Engine} {c : Call} {s : Storage} {r : CallReceipt}
    (hr : (execCall chk h o eng c s).2 = some r) : r.gasUsed = none := by
  unfold execCall at hr
  simp only at hr
  split at hr
  · unfold outcomeToReceipt at hr
    split at hr
    · cases hr
    · obtain ⟨st, -, rfl⟩ := Option.map_eq_some_iff.1 hr
      rfl
  · cases hr
    rfl
  · cases hr

theorem buildAndExec_gas {chk : Bool} {h : Hasher} {o : Orders} {eng : Engine} {tx : Transaction} {mode : AccessMode}
    {f : Str} {input : Bytes} {s : Storage} {r : CallReceipt}
    (hr : (buildAndExec chk h o eng tx mode f input s).2 = some r) : r.gasUsed = none := by
  unfold buildAndExec at hr
  simp only at hr
  split at hr
  · exact execCall_gas hr
  · cases hr

/-- C137, calls and verifications: no receipt says how much gas was used, whatever the program did. -/
theorem C137_calls (chk : Bool) (h : Hasher) (o : Orders) (eng : Engine) (m : Bytes) (s : Storage) :
    (∀ r, (call chk h o eng m s).2 = some r → r.gasUsed = none) ∧
      ∀ r, (verify chk h o eng m s).2 = some r → r.gasUsed = none := by
  constructor <;> intro r hr
  · unfold call at hr
    split at hr
    · exact buildAndExec_gas hr
    · cases hr
  · unfold verify at hr
    split at hr
    · exact buildAndExec_gas hr
    · cases hr

/-- C137, spawns: no receipt says how much gas was used. -/
theorem C137_spawns (chk : Bool) (h : Hasher) (o : Orders) (eng : Engine) (pr : Pricer) (e : Envelope) (m : Bytes)
    (rs : RState) {r : SpawnReceipt} (hr : (spawn chk h o eng pr e m rs).2 = some r) : r.gasUsed = none := by
  unfold spawn at hr
  split at hr
  · simp only at hr
    split at hr
    · split at hr
      · cases hr
      · cases hr; rfl
      · split at hr
        · cases hr
        · split at hr
          · cases hr; rfl
          · unfold spawnAccount at hr
            simp only at hr
            split at hr
            · unfold callCtor at hr
              obtain ⟨r', h1, h2⟩ := Option.bind_eq_some_iff.1 hr
              have h3 := execCall_gas h1
              unfold intoSpawnReceipt at h2
              simp only at h2
              split at h2
              · cases h2; exact h3
              · split at h2
                · cases h2; rfl
                · cases h2
            · cases hr
    · cases hr
  · cases hr

/-- C137, deployments: the gas used is 1000 for each byte of the message. Missing: calls and spawns. -/
theorem C137_deploys_partial (chk : Bool) (h : Hasher) (e : Envelope) (m : Bytes) (s : Storage) {r : DeployReceipt}
    (hr : (deploy chk h e m s).2 = some r) (hs : r.success = true) :
    ∃ g, r.gasUsed = some g ∧ g.toNat = 1000 * m.length % 2 ^ 64 := by
  unfold deploy at hr
  split at hr
  · simp only at hr
    split at hr
    · cases hr; cases hs
    · split at hr
      · cases hr
      · split at hr
        · cases hr
          exact ⟨_, rfl, by unfold payloadPrice; rw [BitVec.toNat_ofNat]⟩
        · cases hr
  · cases hr

/-- The code violates C137, in every build: the receipt of this call says nothing about gas. -/
theorem C137_claim_false (chk : Bool) : ¬ C137_claim chk := by
  intro hcl
  obtain ⟨h, hc⟩ := exists_noCollision
  obtain ⟨fp, hp, h0⟩ := demoCommitted_published hc
  have key : ∃ s' r, call chk h ⟨.id, .id⟩ demoEngine (demoMessage goName) (demoCommitted h) = (s', some r) ∧
      r.success = true := by
    refine call_returns ((reach_demoCommitted h).ok hc).1 (by omega) demo_decode_go
      (env := { demoEnv with logs := [] }) (mem := []) (logs := []) (data := []) ?_ rfl rfl
    rw [out_eval hc, view_demoCommitted hc]
    cases chk <;> decide +kernel
  obtain ⟨s', r, h1, h2⟩ := key
  have h3 : (call chk h ⟨.id, .id⟩ demoEngine (demoMessage goName) (demoCommitted h)).2 = some r := by rw [h1]
  exact (hcl h ⟨.id, .id⟩ demoEngine flatPricer demoEnvelope (demoMessage goName) ⟨demoCommitted h, []⟩).2.2 r h3 h2
    ((C137_calls chk h _ _ _ _).1 r h3)

/-! ## C138 -/

theorem v0_imp (i : Str × Str) {x : Nat} (h : HostCosts i x) : v0.imp i = some x := by
  change some ((Svm.Wasm.hostPrice i).getD 1000) = some x
  rcases h with h | ⟨h, rfl⟩
  · rw [(Svm.Wasm.hostPrice_listed i x).2 h]; rfl
  · cases hp : Svm.Wasm.hostPrice i with
    | none => rfl
    | some y => exact absurd ((Svm.Wasm.hostPrice_listed i y).1 hp) (h y)

theorem evCost_host {p : Program} {i : Str × Str} {x : Nat} (hx : HostCosts i x) {ev : Ev} (h : CallOf p i ev) :
    evCost v0 p ev = x := by
  obtain ⟨f, h1, h2⟩ := h
  obtain ⟨stk, o⟩ := ev
  cases h1
  unfold evCost Svm.Wasm.importCost
  simp only [h2, Option.bind_some, v0_imp i hx, Option.getD_some]

/-- What the execution costs is at least what its calls of one host function cost. -/
theorem runCost_host {p : Program} {i : Str × Str} {x : Nat} (hx : HostCosts i x) {tr : List Ev} {n : Nat}
    (h : CallsHost p i tr n) : x * n ≤ runCost v0 p tr := by
  obtain ⟨at_, hinj, hall⟩ := h
  have e : runCost v0 p tr = ∑ k : Fin tr.length, evCost v0 p tr[k] := by
    unfold runCost
    exact (Fin.sum_univ_fun_getElem tr (evCost v0 p)).symm
  rw [e]
  calc x * n = ∑ _k : Fin n, x := by simp [Nat.mul_comm]
    _ = ∑ k : Fin n, evCost v0 p tr[at_ k] := Finset.sum_congr rfl fun k _ => (evCost_host hx (hall k)).symm
    _ = ∑ k ∈ Finset.univ.map ⟨at_, hinj⟩, evCost v0 p tr[k] := by rw [Finset.sum_map]; rfl
    _ ≤ ∑ k : Fin tr.length, evCost v0 p tr[k] := Finset.sum_le_sum_of_subset (Finset.subset_univ _)

/-- C138: a spawn whose constructor has an execution with `n` calls of a host function changes nothing, unless its gas
limit is more than the price of the message and of these calls. -/
def C138_claim (chk : Bool) : Prop :=
  ∀ h : Hasher, NoCollision h → ∀ read eng rs, Grown chk h read eng rs → ∀ m sp p f, SpawnAt chk h read m rs sp p f →
    ∀ body tr ex, IsBody p f body → Run p [f] body tr ex → ∀ i x n, HostCosts i x → CallsHost p i tr n → ∀ o e,
      limitOf e.gasLimit ≤ 1000 * m.length + x * n →
        (spawn chk h o eng (nodePricer chk read) e m rs).1.storage = rs.storage

/-- **C138**, in builds with overflow checks. -/
theorem C138_checked : C138_claim true := by
  intro h hc read eng rs hg m sp p f hs body tr ex hb hr i x n hx hn o e hlim
  exact C107_checked_partial h hc read eng rs hg m sp p f hs body tr ex hb hr o e
    (Nat.le_trans hlim (Nat.add_le_add_left (runCost_host hx hn) _))

/-- C138 in every build, when the prices of the functions of the program are below 2^64. Missing: in release builds
prices wrap around. -/
theorem C138_fits_partial {chk : Bool} {h : Hasher} (hc : NoCollision h) {read : Bytes → Option Svm.Wasm.Module}
    {eng : Engine} {rs : RState} (hg : Grown chk h read eng rs) {m : Bytes} {sp : SpawnAccount} {p : Program} {f : Nat}
    (hs : SpawnAt chk h read m rs sp p f) (hst : Structured p) {P : Nat → Nat} (hP : IsPrices v0 p P)
    (hfit : ∀ f c, IsBody p f c → P f < 2 ^ 64) {body : Code} {tr : List Ev} {ex : Exit} (hb : IsBody p f body)
    (hr : Run p [f] body tr ex) {i : Str × Str} {x n : Nat} (hx : HostCosts i x) (hn : CallsHost p i tr n)
    (o : Orders) (e : Envelope) (hlim : limitOf e.gasLimit ≤ 1000 * m.length + x * n) :
    (spawn chk h o eng (nodePricer chk read) e m rs).1.storage = rs.storage :=
  C107_fits_partial hc hg hs hst hP hfit hb hr o e
    (Nat.le_trans hlim (Nat.add_le_add_left (runCost_host hx hn) _))

/-- The name of a host function. -/
def set64Import : Str × Str := (⟨ascii "svm".toList, by decide⟩, ⟨ascii "svm_set64".toList, by decide⟩)

/-- A module whose constructor writes a variable twice. -/
def writerWasm : Svm.Wasm.Module :=
  { types := [⟨[.i32], [.i32]⟩, ⟨[], [.i32]⟩], imports := [⟨set64Import.1, set64Import.2, true⟩]
    functions := [0, 1, 1], exports := [⟨svmAlloc, some 1⟩, ⟨svmVerify, some 2⟩, ⟨inName, some 3⟩]
    code := some [[.plain .nop, .end_], [.plain .nop, .end_], [.call 0, .call 0, .end_]] }

def writerProgram : Program :=
  ⟨[set64Import], [(svmAlloc, 1), (svmVerify, 2), (inName, 3)],
    [[.plain .nop, .end_], [.plain .nop, .end_], [.call 0, .call 0, .end_]]⟩

theorem writer_validated (chk : Bool) :
    validateDeploy chk (fun _ => some writerWasm) demoCode.code = .ok writerProgram := by
  cases chk <;> rfl

theorem writer_prices (chk : Bool) :
    ∃ prices, priceProgram chk v0 writerProgram = some prices ∧ prices 3 = some 4000000 := by
  have h : (priceProgram chk v0 writerProgram).bind (fun prices => prices 3) = some 4000000 := by
    cases chk <;> decide +kernel
  cases hp : priceProgram chk v0 writerProgram with
  | none => rw [hp] at h; cases h
  | some prices => rw [hp] at h; exact ⟨prices, rfl, h⟩

/-- Non-vacuity of C138: the bound is attained. A spawn with a gas limit of 4029000 changes nothing, one more is
enough. -/
example : ∃ h, NoCollision h ∧ ∃ read rs m sp p body tr ex, Grown true h read idleEngine rs ∧
    SpawnAt true h read m rs sp p 3 ∧ IsBody p 3 body ∧ Run p [3] body tr ex ∧ HostCosts set64Import 2000000 ∧
    CallsHost p set64Import tr 2 ∧ limitOf (limited 4029000).gasLimit ≤ 1000 * m.length + 2000000 * 2 ∧
    (spawn true h ⟨.id, .id⟩ idleEngine (nodePricer true read) (limited 4029001) m rs).1.storage ≠ rs.storage := by
  obtain ⟨h, hc⟩ := exists_noCollision
  obtain ⟨m, hd, hm⟩ := pricedSpawn_msg h
  obtain ⟨rs, ss, hg, hi, hcache, hnew, hl, hk⟩ := demo_grown hc (writer_validated true) idleEngine
  obtain ⟨prices, hpr, hx⟩ := writer_prices true
  have hf : (inName, 3) ∈ writerProgram.exports := by simp [writerProgram]
  refine ⟨h, hc, _, rs, m, _, _, .op (.call 0) (.op (.call 0) .nil), _, _, hg,
    (demo_spawnAt (writer_validated true) hl hk hd hm hf).2, rfl,
    .callImport _ _ 0 _ _ _ rfl (by decide) (.callImport _ _ 0 _ _ _ rfl (by decide) (.nil _)),
    .inl ⟨rfl, by simp [set64Import]⟩, ⟨fun k => ⟨k.1, by simp⟩, fun a b hab => by simpa [Fin.ext_iff] using hab, ?_⟩, ?_,
    demo_created hc (writer_validated true) hi hcache hnew hl hk hd hm hf hpr hx _ _ _ (by decide)⟩
  · intro k
    refine ⟨0, ?_, rfl⟩
    obtain ⟨k, hk⟩ := k
    match k, hk with
    | 0, _ => rfl
    | 1, _ => rfl
  · rw [hm]
    decide

/-! ### A flood of host calls in release builds -/

theorem callsHost_here {p : Program} {i : Str × Str} {ev : Ev} (h : CallOf p i ev) : CallsHost p i [ev] 1 :=
  ⟨fun _ => ⟨0, by simp⟩, fun a b _ => Subsingleton.elim a b, fun _ => h⟩

theorem callsHost_later {p : Program} {i : Str × Str} (ev : Ev) {tr : List Ev} {n : Nat} (h : CallsHost p i tr n) :
    CallsHost p i (ev :: tr) n := by
  obtain ⟨at_, hinj, hall⟩ := h
  exact ⟨fun k => (at_ k).succ, fun a b hab => hinj (Fin.succ_injective _ hab), fun k => hall k⟩

theorem callsHost_append {p : Program} {i : Str × Str} {tr₁ tr₂ : List Ev} {n₁ n₂ : Nat} (h₁ : CallsHost p i tr₁ n₁)
    (h₂ : CallsHost p i tr₂ n₂) : CallsHost p i (tr₁ ++ tr₂) (n₁ + n₂) := by
  obtain ⟨at₁, hinj₁, hall₁⟩ := h₁
  obtain ⟨at₂, hinj₂, hall₂⟩ := h₂
  refine ⟨fun k => if hk : k.1 < n₁ then ⟨(at₁ ⟨k, hk⟩).1, by rw [List.length_append]; omega⟩
      else ⟨tr₁.length + (at₂ ⟨k - n₁, by omega⟩).1, by rw [List.length_append]; omega⟩, ?_, ?_⟩
  · intro a b hab
    have hab := congrArg Fin.val hab
    simp only at hab
    by_cases ha : a.1 < n₁ <;> by_cases hb : b.1 < n₁ <;> simp only [ha, hb, dite_true, dite_false] at hab
    · have := congrArg Fin.val (hinj₁ (Fin.ext hab))
      exact Fin.ext this
    · have := (at₁ ⟨a, ha⟩).isLt
      omega
    · have := (at₁ ⟨b, hb⟩).isLt
      omega
    · have := congrArg Fin.val (hinj₂ (Fin.ext (Nat.add_left_cancel hab)))
      simp only at this
      exact Fin.ext (by omega)
  · intro k
    by_cases hk : k.1 < n₁
    · have := hall₁ ⟨k, hk⟩
      simp only [hk, dite_true, Fin.getElem_fin] at this ⊢
      rwa [List.getElem_append_left]
    · have := hall₂ ⟨k - n₁, by omega⟩
      simp only [hk, dite_false, Fin.getElem_fin] at this ⊢
      rw [List.getElem_append_right (by omega)]
      simpa using this

/-- Function 1 calls `svm_set64` once, function `i + 2` calls function `i + 1` sixteen times. -/
def floodCode : Nat → Code
  | 0 => .nil
  | 1 => .op (.call 0) .nil
  | i + 2 => Svm.Wasm.callsCode (i + 1) 16

def floodFunctions : List (List Svm.Wasm.Op) :=
  (List.range 16).map fun i => (floodCode (i + 1)).flatten ++ [.end_]

def floodWasm : Svm.Wasm.Module :=
  { types := [⟨[.i32], [.i32]⟩, ⟨[], [.i32]⟩], imports := [⟨set64Import.1, set64Import.2, true⟩]
    functions := [0, 1, 1], exports := [⟨svmAlloc, some 1⟩, ⟨svmVerify, some 2⟩, ⟨inName, some 16⟩]
    code := some floodFunctions }

def floodProgram : Program :=
  ⟨[set64Import], [(svmAlloc, 1), (svmVerify, 2), (inName, 16)], floodFunctions⟩

theorem flood_validated : validateDeploy false (fun _ => some floodWasm) demoCode.code = .ok floodProgram := by
  have h1 : programNew (fun _ => some floodWasm) demoCode.code true = .ok floodProgram := rfl
  have h2 : validateWasm false false floodProgram = .ok () := by decide +kernel
  unfold validateDeploy
  rw [h1]
  simp only
  rw [h2]

theorem flood_prices : ∃ prices, priceProgram false v0 floodProgram = some prices ∧ prices 16 = some 0 := by
  have h : (priceProgram false v0 floodProgram).bind (fun prices => prices 16) = some 0 := by decide +kernel
  cases hp : priceProgram false v0 floodProgram with
  | none => rw [hp] at h; cases h
  | some prices => rw [hp] at h; exact ⟨prices, rfl, h⟩

theorem flood_body {f : Nat} (h1 : 1 ≤ f) (h : f ≤ 16) : IsBody floodProgram f (floodCode f) := by
  unfold IsBody
  rw [show floodProgram.getFunc f = floodFunctions[f - 1]? by
    exact if_neg (show ¬ f < 1 by omega)]
  unfold floodFunctions
  rw [List.getElem?_map, List.getElem?_range (by omega)]
  simp only [Option.map_some]
  rw [show f - 1 + 1 = f by omega]

theorem flood_calls {i n : Nat} (h1 : 1 ≤ i) (h : i ≤ 16) {stk : List Nat}
    (hr : ∃ tr, Run floodProgram (i :: stk) (floodCode i) tr .next ∧ CallsHost floodProgram set64Import tr n) :
    ∀ m, ∃ tr, Run floodProgram stk (Svm.Wasm.callsCode i m) tr .next ∧ CallsHost floodProgram set64Import tr (m * n)
  | 0 => ⟨[], .nil _, ⟨fun k => absurd k.2 (by omega), fun a => absurd a.2 (by omega), fun a => absurd a.2 (by omega)⟩⟩
  | m + 1 => by
    obtain ⟨tr₂, hr₂, hn₂⟩ := flood_calls h1 h hr m
    obtain ⟨tr₁, hr₁, hn₁⟩ := hr
    refine ⟨_, .callDone stk (.call i) i (floodCode i) _ tr₁ tr₂ .next .next rfl (flood_body h1 h) hr₁ (.inl rfl) hr₂, ?_⟩
    rw [Nat.add_mul, Nat.one_mul, Nat.add_comm]
    exact callsHost_later _ (callsHost_append hn₁ hn₂)

/-- Function `i + 1` calls the host 16^i times, and returns. -/
theorem flood_run : ∀ i, i < 16 → ∀ stk, ∃ tr, Run floodProgram stk (floodCode (i + 1)) tr .next ∧
    CallsHost floodProgram set64Import tr (16 ^ i)
  | 0, _, stk => ⟨_, .callImport _ _ 0 _ _ _ rfl (by decide) (.nil _), callsHost_here ⟨0, rfl, rfl⟩⟩
  | i + 1, h, stk => by
    have := flood_calls (i := i + 1) (by omega) (by omega) (flood_run i (by omega) ((i + 1) :: stk)) 16
    rw [← Nat.pow_succ'] at this
    exact this

/-- C138 is violated in release builds, without limit: there is a template, which passed validation and is loaded by
the node, whose constructor calls `svm_set64` 2^60 times and returns, and a spawn from it costs no more than its
message. -/
theorem C138_flood : ∃ h, NoCollision h ∧ ∃ read rs m sp p body tr, Grown false h read idleEngine rs ∧
    SpawnAt false h read m rs sp p 16 ∧ IsBody p 16 body ∧ Run p [16] body tr .next ∧
    CallsHost p set64Import tr (2 ^ 60) ∧ ∀ o g, 1000 * m.length < g.toNat →
      (spawn false h o idleEngine (nodePricer false read) (limited g) m rs).1.storage ≠ rs.storage := by
  obtain ⟨h, hc⟩ := exists_noCollision
  obtain ⟨m, hd, hm⟩ := pricedSpawn_msg h
  obtain ⟨rs, ss, hg, hi, hcache, hnew, hl, hk⟩ := demo_grown hc flood_validated idleEngine
  obtain ⟨prices, hpr, hx⟩ := flood_prices
  obtain ⟨tr, hr, hn⟩ := flood_run 15 (by decide) [16]
  have hf : (inName, 16) ∈ floodProgram.exports := by simp [floodProgram]
  refine ⟨h, hc, _, rs, m, _, _, _, tr, hg, (demo_spawnAt flood_validated hl hk hd hm hf).2,
    flood_body (by decide) (Nat.le_refl _), hr, hn, fun o g hlt => ?_⟩
  exact demo_created hc flood_validated hi hcache hnew hl hk hd hm hf hpr hx o idleEngine g (by rw [hm] at hlt; omega)

/-- C138 is violated in release builds. -/
theorem C138_release_false : ¬ C138_claim false := by
  intro hcl
  obtain ⟨h, hc, read, rs, m, sp, p, body, tr, hg, hs, hb, hr, hn, hgo⟩ := C138_flood
  have hlen := hs.len
  refine hgo ⟨.id, .id⟩ (BitVec.ofNat 64 (1000 * m.length + 1)) ?_ (hcl h hc read idleEngine rs hg m sp p 16 hs body tr
    _ hb hr set64Import 2000000 (2 ^ 60) (.inl ⟨rfl, by simp [set64Import]⟩) hn _ _ ?_)
  · rw [BitVec.toNat_ofNat, Nat.mod_eq_of_lt (by omega)]
    omega
  · simp only [limited, limitOf, BitVec.toNat_ofNat]
    rw [Nat.mod_eq_of_lt (by omega)]
    omega

end Svm.Runtime
