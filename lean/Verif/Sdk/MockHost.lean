import Verif.Runtime.Transfer
import Verif.Runtime.Demo

/-!
# The mock of the host (C112, C113, C114)

`crates/wasm/sdk-host-mock/src/lib.rs`. The singleton is a value here. An `Address` of the SDK is a pointer to
20 bytes that are never freed (`sdk-types/src/blob.rs:9-12`): two addresses are equal if the bytes are
(blob.rs:129-133), but what is hashed is the pointer (`derive(Hash)`, blob.rs:11).
-/

namespace Svm.Sdk

open Svm.Codec Svm.Account Svm.Runtime
open Svm.Storage (Hasher Storage)

/-! ## Model -/

/-- What the pointers of a test point to, and how its hash map works: with which of the stored keys the map
compares a pointer that is looked up. That depends on the hashes of the two pointers (with random keys) and on
the table; all that is known is that a pointer is found by itself. -/
structure World where
  addrAt : U64 → Addr
  probe : U64 → U64 → Bool
  self : ∀ p, probe p p = true

/-- `HashMap<Address, Amount>`. -/
abbrev Accounts := List (U64 × U64)

/-- A stored key that is found. -/
def World.hit (W : World) (p q : U64) : Bool := W.probe p q && decide (W.addrAt q = W.addrAt p)

/-- `HashMap::get` and `balance_of`, lib.rs:276-278. -/
def balanceOf (W : World) (accounts : Accounts) (p : U64) : U64 :=
  match accounts.find? fun e => W.hit p e.1 with
  | none => 0
  | some e => e.2

/-- `HashMap::insert` and `set_balance`, lib.rs:252-254: a key that is there stays and gets the new value. -/
def putBalance (W : World) : Accounts → U64 → U64 → Accounts
  | [], p, a => [(p, a)]
  | e :: es, p, a => if W.hit p e.1 then (e.1, a) :: es else e :: putBalance W es p a

/-- `struct InnerHost`, lib.rs:195-211. -/
structure MockHost where
  calldata : Option Bytes
  returndata : Option Bytes
  accounts : Accounts
  value : Option U64
  principal : Option U64
  target : Option U64
  layerId : Option U64
  logs : List (Bytes × UInt8)
  deriving DecidableEq, Repr

/-- `InnerHost::new`, lib.rs:214-225. -/
def MockHost.new : MockHost := ⟨none, none, [], none, none, none, none, []⟩

/-- `InnerHost::reset`, lib.rs:280-288. -/
def MockHost.reset (m : MockHost) : MockHost :=
  { m with calldata := none, returndata := none, value := none, principal := none, target := none,
           layerId := none, logs := [] }

/-- `InnerHost::balance`, lib.rs:316-319. `none` is a panic. -/
def MockHost.balance (W : World) (m : MockHost) : Option U64 := m.target.map (balanceOf W m.accounts)

/-- `InnerHost::transfer`, lib.rs:321-335, with the addition of amounts, sdk-types/src/amount.rs:28-34
(`chk` for overflow checks). `none` is a panic. -/
def MockHost.transfer (chk : Bool) (W : World) (m : MockHost) (dst : U64) (amount : U64) : Option MockHost :=
  match m.target with
  | none => none
  | some src =>
    if (balanceOf W m.accounts src).toNat < amount.toNat then none
    else if chk ∧ 2 ^ 64 ≤ (balanceOf W m.accounts dst).toNat + amount.toNat then none
    else some { m with
      accounts := putBalance W (putBalance W m.accounts src (balanceOf W m.accounts src - amount)) dst
        (balanceOf W m.accounts dst + amount) }

/-- The functions of a test that change the mock, lib.rs:227-288 and 291-342. -/
inductive MockOp where
  | setCalldata (bs : Bytes)
  | setReturndata (bs : Bytes)
  | setBalance (p : U64) (amount : U64)
  | setValue (amount : U64)
  | setPrincipal (p : U64)
  | setTarget (p : U64)
  | setLayerId (id : U64)
  | log (msg : Bytes) (code : UInt8)
  | transfer (dst : U64) (amount : U64)
  | reset

/-- A function of the mock. `none` is a panic. -/
def MockHost.step (chk : Bool) (W : World) (m : MockHost) : MockOp → Option MockHost
  | .setCalldata bs => some { m with calldata := some bs }
  | .setReturndata bs => some { m with returndata := some bs }
  | .setBalance p a => some { m with accounts := putBalance W m.accounts p a }
  | .setValue a => some { m with value := some a }
  | .setPrincipal p => some { m with principal := some p }
  | .setTarget p => some { m with target := some p }
  | .setLayerId id => some { m with layerId := some id }
  | .log msg code => some { m with logs := m.logs ++ [(msg, code)] }
  | .transfer dst a => m.transfer chk W dst a
  | .reset => some m.reset

/-- What happened in the tests before; a test that panics leaves the mock as it was. The hash map may compare
differently each time. -/
def MockHost.history (chk : Bool) : List (World × MockOp) → MockHost → MockHost
  | [], m => m
  | (W, op) :: ops, m => MockHost.history chk ops ((m.step chk W op).getD m)

/-! ## C112 -/

/-- **C112 (as stated).** The balance that was set for an address is the balance of that address. -/
def C112_claim : Prop :=
  ∀ (W : World) (accounts : Accounts) (p q amount : U64), W.addrAt q = W.addrAt p →
    balanceOf W (putBalance W accounts p amount) q = amount

theorem hit_addr {W : World} {p q : U64} (h : W.hit p q = true) : W.addrAt q = W.addrAt p := by
  unfold World.hit at h
  simp only [Bool.and_eq_true, decide_eq_true_eq] at h
  exact h.2

theorem balanceOf_cons (W : World) (e : U64 × U64) (es : Accounts) (p : U64) :
    balanceOf W (e :: es) p = if W.hit p e.1 then e.2 else balanceOf W es p := by
  unfold balanceOf
  rw [List.find?_cons]
  cases W.hit p e.1 <;> rfl

/-- **C112.** The balance that was set for a pointer is the balance of that pointer. -/
theorem C112_same_pointer (W : World) (accounts : Accounts) (p amount : U64) :
    balanceOf W (putBalance W accounts p amount) p = amount := by
  induction accounts with
  | nil =>
    rw [putBalance, balanceOf_cons, if_pos]
    simp [World.hit, W.self]
  | cons e es ih =>
    rw [putBalance]
    split
    · rename_i h
      rw [balanceOf_cons, if_pos h]
    · rename_i h
      rw [balanceOf_cons, if_neg h, ih]

/-- **C112, the violation.** An address that is looked up through another pointer than the one it was set with
has the balance zero, whatever was set, unless the map happens to compare the two. -/
theorem C112_lost (W : World) {accounts : Accounts} {p q : U64} (amount : U64)
    (hnew : ∀ e ∈ accounts, W.addrAt e.1 ≠ W.addrAt q) (hq : W.addrAt q = W.addrAt p)
    (hmiss : W.probe q p = false) : balanceOf W (putBalance W accounts p amount) q = 0 := by
  induction accounts with
  | nil =>
    rw [putBalance, balanceOf_cons, if_neg]
    · rfl
    · simp [World.hit, hmiss]
  | cons e es ih =>
    have he := hnew e (by simp)
    have hq' : ¬ W.hit q e.1 = true := fun h => he (hit_addr h)
    have hp' : ¬ W.hit p e.1 = true := fun h => he ((hit_addr h).trans hq.symm)
    rw [putBalance, if_neg hp', balanceOf_cons, if_neg hq', ih fun e he => hnew e (by simp [he])]

/-- **C112, exactly**, for an address without an earlier entry. -/
theorem C112_iff (W : World) {accounts : Accounts} {p q amount : U64} (ha : amount ≠ 0)
    (hnew : ∀ e ∈ accounts, W.addrAt e.1 ≠ W.addrAt q) (hq : W.addrAt q = W.addrAt p) :
    balanceOf W (putBalance W accounts p amount) q = amount ↔ W.probe q p = true := by
  constructor
  · intro h
    cases hmiss : W.probe q p with
    | true => rfl
    | false =>
      rw [C112_lost W amount hnew hq hmiss] at h
      exact absurd h.symm ha
  · intro hprobe
    induction accounts with
    | nil =>
      rw [putBalance, balanceOf_cons, if_pos]
      simp [World.hit, hprobe, hq]
    | cons e es ih =>
      have he := hnew e (by simp)
      have hq' : ¬ W.hit q e.1 = true := fun h => he (hit_addr h)
      have hp' : ¬ W.hit p e.1 = true := fun h => he ((hit_addr h).trans hq.symm)
      rw [putBalance, if_neg hp', balanceOf_cons, if_neg hq', ih fun e he => hnew e (by simp [he])]

/-- In a test that uses every address through one pointer. -/
def Interned (W : World) (used : U64 → Prop) : Prop :=
  ∀ p q, used p → used q → W.addrAt p = W.addrAt q → p = q

theorem hit_iff {W : World} {used : U64 → Prop} (hi : Interned W used) {p q : U64} (hp : used p) (hq : used q) :
    W.hit p q = true ↔ q = p := by
  constructor
  · intro h
    exact hi q p hq hp (hit_addr h)
  · rintro rfl
    simp [World.hit, W.self]

/-- **C112, the part that holds.** In a test that uses every address through one pointer, the balances are a
map from addresses. -/
theorem C112_interned_partial {W : World} {used : U64 → Prop} (hi : Interned W used) {accounts : Accounts}
    (hk : ∀ e ∈ accounts, used e.1) {p q : U64} (hp : used p) (hq : used q) (amount : U64) :
    balanceOf W (putBalance W accounts p amount) q = if q = p then amount else balanceOf W accounts q := by
  induction accounts with
  | nil =>
    rw [putBalance, balanceOf_cons]
    simp only [hit_iff hi hq hp, eq_comm]
  | cons e es ih =>
    have he := hk e (by simp)
    rw [putBalance]
    by_cases hpe : W.hit p e.1 = true
    · rw [if_pos hpe, balanceOf_cons, balanceOf_cons]
      have hep := (hit_iff hi hp he).1 hpe
      simp only [hit_iff hi hq he]
      by_cases hqp : q = p
      · rw [if_pos (hep.trans hqp.symm), if_pos hqp]
      · have hne : ¬ e.1 = q := fun h => hqp (h.symm.trans hep)
        rw [if_neg hne, if_neg hqp, if_neg hne]
    · rw [if_neg hpe, balanceOf_cons, balanceOf_cons, ih fun e he => hk e (by simp [he])]
      by_cases hqe : W.hit q e.1 = true
      · rw [if_pos hqe, if_pos hqe, if_neg]
        rintro rfl
        exact hpe hqe
      · rw [if_neg hqe, if_neg hqe]

theorem putBalance_keys {W : World} {used : U64 → Prop} {accounts : Accounts}
    (hk : ∀ e ∈ accounts, used e.1) {p : U64} (hp : used p) (amount : U64) :
    ∀ e ∈ putBalance W accounts p amount, used e.1 := by
  induction accounts with
  | nil =>
    intro e he
    simp only [putBalance, List.mem_singleton] at he
    rw [he]
    exact hp
  | cons a as ih =>
    intro e he
    rw [putBalance] at he
    split at he
    · rcases List.mem_cons.1 he with rfl | he
      · exact hk a (by simp)
      · exact hk e (by simp [he])
    · rcases List.mem_cons.1 he with rfl | he
      · exact hk _ (by simp)
      · exact ih (fun e he => hk e (by simp [he])) e he

/-- A map that compares a pointer only with itself, as any map does when the hashes differ. -/
def missing (a : Addr) : World := ⟨fun _ => a, fun p q => p == q, fun p => by simp⟩

/-- C112 is violated. -/
theorem C112_claim_false : ¬ C112_claim := by
  intro h
  have := h (missing (exampleAddr 1)) [] 1 2 5 rfl
  revert this
  decide

/-- Non-vacuity of `C112_lost`, `C112_iff` and `C112_interned_partial`. -/
example : (missing (exampleAddr 1)).probe 2 1 = false ∧
    (∀ e ∈ ([] : Accounts), (missing (exampleAddr 1)).addrAt e.1 ≠ (missing (exampleAddr 1)).addrAt 2) ∧
    Interned (missing (exampleAddr 1)) (· = 7) := by
  refine ⟨rfl, fun e he => by simp at he, fun p q hp hq _ => hp.trans hq.symm⟩

/-! ## C113 -/

/-- The mock knows the balances of the chain. -/
def Mirror (h : Hasher) (s : Storage) (W : World) (used : U64 → Prop) (m : MockHost) : Prop :=
  (∀ e ∈ m.accounts, used e.1) ∧
    ∀ p, used p → ∀ b, bal h s (W.addrAt p) = some b → balanceOf W m.accounts p = b

/-- **C113 (as stated).** If the mock knows the balances of the chain, a transfer that succeeds in the test
succeeds on the chain, and afterwards the mock knows the balances again. The target of the test is the account
that pays. -/
def C113_claim (chk chkM : Bool) : Prop :=
  ∀ (h : Hasher) (s : Storage) (W : World) (used : U64 → Prop) (m m' : MockHost) (src dst amount : U64)
    (env : Env) (mem : Bytes) (ps pd : U32), NoCollision h → Reach h s → Interned W used → Mirror h s W used m →
    used src → used dst → m.target = some src → env.canRead = true →
    readAddr env mem ps = some (W.addrAt src) → readAddr env mem pd = some (W.addrAt dst) →
    m.transfer chkM W dst amount = some m' →
    (∃ r, out h (host chk env mem (.transfer ps pd amount)) s = .ok r) ∧
      Mirror h (after h (host chk env mem (.transfer ps pd amount)) s) W used m'

section
variable {h : Hasher} (hc : NoCollision h) (s : Storage) (chk chkM : Bool) {W : World} {used : U64 → Prop}
  (hi : Interned W used) {m : MockHost} (hmir : Mirror h s W used m) {src dst : U64} (hsrc : used src)
  (hdst : used dst) (ht : m.target = some src) {env : Env} {mem : Bytes} {ps pd : U32}
  (hps : readAddr env mem ps = some (W.addrAt src)) (hpd : readAddr env mem pd = some (W.addrAt dst))
  {amount : U64}

include hc hps hpd in
/-- What a transfer that returns has done. -/
theorem transfer_done (ha : amount ≠ 0) {r : HostVal × Bytes × Env}
    (hok : out h (host chk env mem (.transfer ps pd amount)) s = .ok r) :
    ∃ ds dd, money (view h s) (W.addrAt src) = some ds ∧ money (view h s) (W.addrAt dst) = some dd ∧
      amount.toNat ≤ ds.balance.toNat ∧ dd.balance.toNat + amount.toNat < 2 ^ 64 ∧
      view h (after h (host chk env mem (.transfer ps pd amount)) s) =
        moved (view h s) (W.addrAt src) (W.addrAt dst) ds dd amount := by
  rw [out_eval hc] at hok
  obtain ⟨w1, env', h1, h2⟩ := eval_bind_eq_ok (p := svmTransfer chk env mem ps pd amount)
    (w := view h s) (w' := ((host chk env mem (.transfer ps pd amount)).eval (view h s)).1)
    (Prod.ext rfl hok)
  have hx := svmTransfer_cases chk env mem ps pd amount hps hpd ha (view h s)
  rw [h1] at hx
  have hv : view h (after h (host chk env mem (.transfer ps pd amount)) s) = w1 := by
    rw [view_after hc]
    show (((svmTransfer chk env mem ps pd amount).bind _).eval (view h s)).1 = w1
    rw [Prog.eval_bind_ok h1]
    rfl
  rw [hv]
  generalize hb : isOk (w1, (Outcome.ok env' : Outcome SErr Env)).2 = b at hx
  generalize hw : (w1, (Outcome.ok env' : Outcome SErr Env)).1 = w2 at hx
  cases hx with
  | early => cases hb
  | overflow => cases hb
  | done ds dd g1 g2 g3 g4 => exact ⟨ds, dd, g1, g2, g3, g4, hw⟩

include hi hmir hsrc hdst in
/-- The balances of the mock after the two writes of a transfer. -/
theorem mirror_moved {s' : Storage} {bs bd : U64}
    (hb : ∀ p, used p → ∀ b, bal h s' (W.addrAt p) = some b →
      b = if p = dst then bd else if p = src then bs else balanceOf W m.accounts p) :
    Mirror h s' W used { m with accounts := putBalance W (putBalance W m.accounts src bs) dst bd } := by
  have hk := putBalance_keys (W := W) hmir.1 hsrc bs
  refine ⟨putBalance_keys hk hdst _, fun p hp b e => ?_⟩
  show balanceOf W (putBalance W (putBalance W m.accounts src bs) dst bd) p = b
  rw [C112_interned_partial hi hk hdst hp, C112_interned_partial hi hmir.1 hsrc hp, hb p hp b e]

include hc hi hmir hsrc hdst ht hps hpd

/-- **C113, the part that holds.** A transfer that succeeds on the chain succeeds in the test, and afterwards
the mock knows the balances again; also for a transfer of an account to itself, which creates coins in both
(see C21). -/
theorem C113_chain_partial {r : HostVal × Bytes × Env}
    (hok : out h (host chk env mem (.transfer ps pd amount)) s = .ok r) :
    ∃ m', m.transfer chkM W dst amount = some m' ∧
      Mirror h (after h (host chk env mem (.transfer ps pd amount)) s) W used m' := by
  by_cases ha : amount = 0
  · subst ha
    have hrun := (C20_host_transfer_conserves hc s chk env mem ps pd 0).2 rfl
    have haft : after h (host chk env mem (.transfer ps pd 0)) s = s := congrArg Prod.fst hrun
    refine ⟨_, by
      unfold MockHost.transfer
      rw [ht]
      simp only
      rw [if_neg (by simp), if_neg]
      have := (balanceOf W m.accounts dst).isLt
      simp
      omega, ?_⟩
    rw [haft]
    refine mirror_moved s hi hmir hsrc hdst fun p hp b e => ?_
    rw [hmir.2 p hp b e]
    have e1 : balanceOf W m.accounts dst + 0 = balanceOf W m.accounts dst := by simp
    have e2 : balanceOf W m.accounts src - 0 = balanceOf W m.accounts src := by simp
    rw [e1, e2]
    split
    · rename_i hp'
      rw [← hp', hmir.2 p hp b e]
    · split
      · rename_i hp'
        rw [← hp', hmir.2 p hp b e]
      · rfl
  · obtain ⟨ds, dd, g1, g2, g3, g4, g5⟩ := transfer_done hc s chk hps hpd ha hok
    have bs : balanceOf W m.accounts src = ds.balance :=
      hmir.2 src hsrc _ (by rw [bal_money hc, g1]; rfl)
    have bd : balanceOf W m.accounts dst = dd.balance :=
      hmir.2 dst hdst _ (by rw [bal_money hc, g2]; rfl)
    refine ⟨_, by
      unfold MockHost.transfer
      rw [ht]
      simp only
      rw [bs, bd, if_neg (by omega), if_neg (by omega)], ?_⟩
    refine mirror_moved s hi hmir hsrc hdst fun p hp b e => ?_
    rw [bal_money hc, g5, money_moved] at e
    by_cases hpd' : p = dst
    · rw [if_pos hpd']
      rw [hpd', if_pos rfl] at e
      exact (Option.some.inj e).symm
    · rw [if_neg hpd']
      rw [if_neg fun e => hpd' (hi p dst hp hdst e)] at e
      by_cases hps' : p = src
      · rw [if_pos hps']
        rw [hps', if_pos rfl] at e
        exact (Option.some.inj e).symm
      · rw [if_neg hps']
        rw [if_neg fun e => hps' (hi p src hp hsrc e)] at e
        exact (hmir.2 p hp b (by rw [bal_money hc]; exact e)).symm

/-- **C113, the guard.** A transfer that succeeds in the test succeeds on the chain if both accounts exist
there and the sum fits in 64 bits. -/
theorem C113_test_partial (hread : env.canRead = true) {accS accD : Acc}
    (h1 : out h (load chk (W.addrAt src)) s = .ok accS) (h2 : out h (load chk (W.addrAt dst)) s = .ok accD)
    {bs bd : U64} (h3 : bal h s (W.addrAt src) = some bs) (h4 : bal h s (W.addrAt dst) = some bd)
    (hfit : bd.toNat + amount.toNat < 2 ^ 64) {m' : MockHost}
    (hm : m.transfer chkM W dst amount = some m') :
    (∃ r, out h (host chk env mem (.transfer ps pd amount)) s = .ok r) ∧
      Mirror h (after h (host chk env mem (.transfer ps pd amount)) s) W used m' := by
  have hex : ∃ r, out h (host chk env mem (.transfer ps pd amount)) s = .ok r := by
    by_cases ha : amount = 0
    · subst ha
      exact ⟨_, congrArg Prod.snd ((C20_host_transfer_conserves hc s chk env mem ps pd 0).2 rfl)⟩
    · have hle : amount.toNat ≤ bs.toNat := by
        unfold MockHost.transfer at hm
        rw [ht] at hm
        simp only at hm
        rw [hmir.2 src hsrc bs h3] at hm
        refine Nat.not_lt.1 fun hlt => ?_
        rw [if_pos hlt] at hm
        cases hm
      rw [out_eval hc] at h1 h2
      have e1 : (load chk (W.addrAt src)).eval (view h s) = (view h s, .ok accS) :=
        Prod.ext ((readOnly_load chk _).eval _) h1
      have e2 : (load chk (W.addrAt dst)).eval (view h s) = (view h s, .ok accD) :=
        Prod.ext ((readOnly_load chk _).eval _) h2
      rw [bal_money hc, Option.map_eq_some_iff] at h3 h4
      obtain ⟨ds, m1, rfl⟩ := h3
      obtain ⟨dd, m2, rfl⟩ := h4
      obtain ⟨_, _, a1, _⟩ := Account.load_ok e1
      obtain ⟨_, _, a2, _⟩ := Account.load_ok e2
      have hev : (svmTransfer chk env mem ps pd amount).eval (view h s) =
          (moved (view h s) (W.addrAt src) (W.addrAt dst) ds dd amount,
            .ok ((env.touch (W.addrAt src)).touch (W.addrAt dst))) := by
        unfold svmTransfer
        rw [if_neg ha]
        simp only [Prog.bind_eq]
        rw [hps, hpd, Prog.eval_bind_ok (Prog.eval_ofOption_some _ _),
          Prog.eval_bind_ok (Prog.eval_ofOption_some _ _), if_pos hread,
          Prog.eval_bind_ok (unwrap_ok.2 e1), Prog.eval_bind_ok (unwrap_ok.2 e2),
          Prog.eval_bind_ok (unwrap_ok.2 (balance_eval (by rw [a1]; exact m1))),
          Prog.eval_bind_ok (unwrap_ok.2 (balance_eval (by rw [a2]; exact m2)))]
        have := moveCoins_eval (src := accS) (dst := accD) (amount := amount) (w := view h s)
          (by rw [a1]; exact m1) (by rw [a2]; exact m2)
        rw [if_neg (by omega), if_pos hfit, a1, a2] at this
        rw [Prog.eval_bind_ok this]
        rfl
      refine ⟨(.unit, mem, (env.touch (W.addrAt src)).touch (W.addrAt dst)), ?_⟩
      rw [out_eval hc]
      show (((svmTransfer chk env mem ps pd amount).bind _).eval (view h s)).2 = _
      rw [Prog.eval_bind_ok hev]
      rfl
  refine ⟨hex, ?_⟩
  obtain ⟨r, hr⟩ := hex
  obtain ⟨m2, e1, e2⟩ := C113_chain_partial hc s chk chkM hi hmir hsrc hdst ht hps hpd hr
  rw [hm] at e1
  cases e1
  exact e2

omit hi hmir hsrc hdst in
/-- **C113, what happens otherwise.** Coins that are sent to an address without an account are a success in
the test and a panic on the chain. In release builds of the test the same holds for sums that do not fit. -/
theorem C113_differs (ha : amount ≠ 0) (hle : amount.toNat ≤ (balanceOf W m.accounts src).toNat)
    (hcase : (bal h s (W.addrAt dst) = none ∧ (balanceOf W m.accounts dst).toNat + amount.toNat < 2 ^ 64) ∨
      (chkM = false ∧ ∃ b, bal h s (W.addrAt dst) = some b ∧ 2 ^ 64 ≤ b.toNat + amount.toNat)) :
    (∃ m', m.transfer chkM W dst amount = some m') ∧
      ¬ ∃ r, out h (host chk env mem (.transfer ps pd amount)) s = .ok r := by
  constructor
  · unfold MockHost.transfer
    rw [ht]
    simp only
    rw [if_neg (by omega), if_neg]
    · exact ⟨_, rfl⟩
    · rintro ⟨hk, hov⟩
      rcases hcase with ⟨-, hfit⟩ | ⟨hk', -⟩
      · omega
      · rw [hk] at hk'
        cases hk'
  · rintro ⟨r, hr⟩
    obtain ⟨ds, dd, g1, g2, g3, g4, g5⟩ := transfer_done hc s chk hps hpd ha hr
    have e : bal h s (W.addrAt dst) = some dd.balance := by rw [bal_money hc, g2]; rfl
    rcases hcase with ⟨hn, -⟩ | ⟨-, b, hb, hov⟩
    · rw [e] at hn
      cases hn
    · rw [e] at hb
      cases hb
      omega

end

/-- The pointers 1 and 2, for account 1 and for another address. -/
def demoWorld (a : Addr) : World :=
  ⟨fun p => if p = 1 then exampleAddr 1 else a, fun _ _ => true, fun _ => rfl⟩

theorem demoWorld_interned {a : Addr} (ha : exampleAddr 1 ≠ a) :
    Interned (demoWorld a) fun p => p = 1 ∨ p = 2 := by
  intro p q hp hq e
  rcases hp with rfl | rfl <;> rcases hq with rfl | rfl
  · rfl
  · exact absurd e ha
  · exact absurd e.symm ha
  · rfl

/-- A mock that knows the balances of the accounts 1 and 2 of the demo. -/
def demoMock : MockHost := { MockHost.new with accounts := [(1, 10), (2, 5)], target := some 1 }

theorem demoMock_mirror {h : Hasher} (hc : NoCollision h) :
    Mirror h (demo h 10 5) (demoWorld (exampleAddr 2)) (fun p => p = 1 ∨ p = 2) demoMock := by
  refine ⟨fun e he => ?_, fun p hp b e => ?_⟩
  · rcases List.mem_cons.1 he with rfl | he
    · exact .inl rfl
    · rw [List.mem_singleton.1 he]
      exact .inr rfl
  · rw [bal_money hc, view_demo hc] at e
    rcases hp with rfl | rfl <;> exact Option.some.inj e

/-- Non-vacuity of `C113_chain_partial` and `C113_test_partial`. -/
example : ∃ h, NoCollision h ∧
    Mirror h (demo h 10 5) (demoWorld (exampleAddr 2)) (fun p => p = 1 ∨ p = 2) demoMock ∧
    Interned (demoWorld (exampleAddr 2)) (fun p => p = 1 ∨ p = 2) ∧
    readAddr demoEnv demoMem 0 = some ((demoWorld (exampleAddr 2)).addrAt 1) ∧
    readAddr demoEnv demoMem 20 = some ((demoWorld (exampleAddr 2)).addrAt 2) ∧
    (∃ r, out h (host true demoEnv demoMem (.transfer 0 20 3)) (demo h 10 5) = .ok r) ∧
    ∃ m', demoMock.transfer true (demoWorld (exampleAddr 2)) 2 3 = some m' ∧
      m'.accounts = [(1, 7), (2, 8)] := by
  obtain ⟨h, hc⟩ := exists_noCollision
  refine ⟨h, hc, demoMock_mirror hc, demoWorld_interned (by decide), by decide +kernel, by decide +kernel,
    ⟨_, by rw [out_eval hc, view_demo hc]; rfl⟩, _, rfl, by decide +kernel⟩

/-- A memory with address 1 and address 3. -/
def strayMem : Bytes := List.replicate 20 1 ++ List.replicate 20 3

/-- C113 is violated in every build of the runtime and of the test: account 1 pays an address without an
account. -/
theorem C113_claim_false (chk chkM : Bool) : ¬ C113_claim chk chkM := by
  intro hcl
  obtain ⟨h, hc⟩ := exists_noCollision
  have hnone : bal h (demo h 10 5) (exampleAddr 3) = none := by
    rw [bal_money hc, view_demo hc]
    rfl
  have r1 : readAddr demoEnv strayMem 0 = some ((demoWorld (exampleAddr 3)).addrAt 1) := by decide +kernel
  have r2 : readAddr demoEnv strayMem 20 = some ((demoWorld (exampleAddr 3)).addrAt 2) := by decide +kernel
  obtain ⟨⟨m', hm⟩, hno⟩ := C113_differs (amount := 3) hc (demo h 10 5) chk chkM (m := demoMock)
    (dst := 2) rfl r1 r2 (by decide) (by decide +kernel) (.inl ⟨hnone, by decide +kernel⟩)
  refine hno (hcl h (demo h 10 5) (demoWorld (exampleAddr 3)) (fun p => p = 1 ∨ p = 2) demoMock m' 1 2 3
    demoEnv strayMem 0 20 hc (reach_demo h 10 5) (demoWorld_interned (by decide)) ⟨?_, ?_⟩ (.inl rfl) (.inr rfl)
    rfl rfl r1 r2 hm).1
  · exact (demoMock_mirror hc).1
  · intro p hp b e
    rcases hp with rfl | rfl
    · rw [bal_money hc, view_demo hc] at e
      exact Option.some.inj e
    · rw [show (demoWorld (exampleAddr 3)).addrAt 2 = exampleAddr 3 from rfl, hnone] at e
      cases e

/-! ## C114 -/

/-- **C114 (as stated).** Tests start by resetting the mock; then nothing that happened before can be seen. -/
def C114_claim (chk : Bool) : Prop :=
  ∀ (W : World) (before : List (World × MockOp)) (p : U64),
    balanceOf W (MockHost.history chk before .new).reset.accounts p = 0

/-- C114 is violated: balances stay. -/
theorem C114_claim_false (chk : Bool) : ¬ C114_claim chk := by
  intro h
  have := h (missing (exampleAddr 1)) [(missing (exampleAddr 1), .setBalance 1 5)] 1
  revert this
  cases chk <;> decide +kernel

/-- **C114, what `reset` does.** It leaves the balances as they are, and everything else as in a new mock. -/
theorem C114_reset_partial (m : MockHost) :
    m.reset = { MockHost.new with accounts := m.accounts } ∧
      (m.reset = MockHost.new ↔ m.accounts = []) := by
  refine ⟨rfl, fun h => ?_, fun h => ?_⟩
  · exact congrArg MockHost.accounts h
  · show ({ MockHost.new with accounts := m.accounts } : MockHost) = MockHost.new
    rw [h]
    rfl

/-- Is this an operation that stores a balance? -/
def MockOp.pays : MockOp → Bool
  | .setBalance .. | .transfer .. => true
  | _ => false

theorem history_accounts (chk : Bool) (before : List (World × MockOp)) (m : MockHost)
    (hno : ∀ e ∈ before, e.2.pays = false) : (m.history chk before).accounts = m.accounts := by
  induction before generalizing m with
  | nil => rfl
  | cons e es ih =>
    obtain ⟨W, op⟩ := e
    rw [MockHost.history, ih _ fun e he => hno e (by simp [he])]
    have := hno (W, op) (by simp)
    cases op <;> first | rfl | cases this

theorem putBalance_ne_nil (W : World) (accounts : Accounts) (p a : U64) : putBalance W accounts p a ≠ [] := by
  cases accounts with
  | nil => simp [putBalance]
  | cons e es =>
    rw [putBalance]
    split <;> simp

theorem history_accounts_ne (chk : Bool) (before : List (World × MockOp)) (m : MockHost)
    (hm : m.accounts ≠ []) : (m.history chk before).accounts ≠ [] := by
  induction before generalizing m with
  | nil => exact hm
  | cons e es ih =>
    obtain ⟨W, op⟩ := e
    rw [MockHost.history]
    apply ih
    cases op <;> try exact hm
    · exact putBalance_ne_nil _ _ _ _
    · rename_i dst a
      show ((m.transfer chk W dst a).getD m).accounts ≠ []
      unfold MockHost.transfer
      split
      · exact hm
      · split
        · exact hm
        · split
          · exact hm
          · exact putBalance_ne_nil _ _ _ _

/-- **C114, the exact condition.** After a reset the mock is as new if no test before stored a balance, and
it is not if one set a balance. -/
theorem C114_history (chk : Bool) (before : List (World × MockOp)) :
    ((∀ e ∈ before, e.2.pays = false) → (MockHost.history chk before .new).reset = .new) ∧
      ∀ W p a, (W, MockOp.setBalance p a) ∈ before → (MockHost.history chk before .new).reset ≠ .new := by
  refine ⟨fun hno => (C114_reset_partial _).2.2 (history_accounts chk before .new hno), fun W p a hin he => ?_⟩
  have hnil := (C114_reset_partial _).2.1 he
  obtain ⟨l1, l2, rfl⟩ := List.append_of_mem hin
  have happ : ∀ (l1 l2 : List (World × MockOp)) (m : MockHost),
      m.history chk (l1 ++ l2) = (m.history chk l1).history chk l2 := by
    intro l1
    induction l1 with
    | nil => exact fun _ _ => rfl
    | cons e es ih =>
      intro l2 m
      obtain ⟨W, op⟩ := e
      exact ih l2 _
  rw [happ, MockHost.history] at hnil
  exact history_accounts_ne chk l2 _ (putBalance_ne_nil _ _ _ _) hnil

/-- Non-vacuity of `C114_history`: logs, call data and a target are forgotten, balances are not. -/
example (W : World) : (MockHost.history true [(W, .setTarget 1), (W, .log [104] 2)] .new) ≠ .new ∧
    (MockHost.history true [(W, .setTarget 1), (W, .log [104] 2)] .new).reset = .new ∧
    (MockHost.history true [(W, .setBalance 1 5)] .new).reset ≠ .new :=
  ⟨by simp [MockHost.history, MockHost.step, MockHost.new], (C114_history true _).1 (by simp [MockOp.pays]),
    (C114_history true _).2 W 1 5 (by simp)⟩

end Svm.Sdk
