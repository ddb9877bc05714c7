import Verif.Runtime.Isolation
import Verif.Runtime.Deploy

/-!
# Properties C91 and C92: coins and counters over whole transactions
-/

namespace Svm.Runtime

open Svm.Codec Svm.Account
open Svm.Storage (Hasher Storage Inv)

/-! ## Specification -/

/-- A transaction as the runtime gets it. -/
inductive Tx where
  | deploy (envelope : Envelope) (message : Bytes)
  | spawn (envelope : Envelope) (message : Bytes)
  | call (message : Bytes)
  | verify (message : Bytes)

/-- The receipt of a transaction. -/
inductive TxReceipt where
  | deploy (r : DeployReceipt)
  | spawn (r : SpawnReceipt)
  | call (r : CallReceipt)
  | verify (r : CallReceipt)

/-- Execution of one transaction; without receipt when the runtime panics. -/
def perform (chk : Bool) (h : Hasher) (eng : Engine) (pr : Pricer) (o : Orders) (rs : RState) :
    Tx → RState × Option TxReceipt
  | .deploy e m =>
    (⟨(deploy chk h e m rs.storage).1, rs.cache⟩, (deploy chk h e m rs.storage).2.map .deploy)
  | .spawn e m =>
    ((spawn chk h o eng pr e m rs).1, (spawn chk h o eng pr e m rs).2.map .spawn)
  | .call m =>
    (⟨(call chk h o eng m rs.storage).1, rs.cache⟩, (call chk h o eng m rs.storage).2.map .call)
  | .verify m =>
    (⟨(verify chk h o eng m rs.storage).1, rs.cache⟩,
      (verify chk h o eng m rs.storage).2.map .verify)

/-- A list of all accounts with a balance, before and after something: each once. -/
structure AllHolders (h : Hasher) (s s' : Storage) (accounts : List Addr) : Prop where
  nodup : accounts.Nodup
  before : ∀ a b, bal h s a = some b → a ∈ accounts
  after : ∀ a b, bal h s' a = some b → a ∈ accounts

/-- The claim of C91: every transaction that gives a receipt leaves the total of all balances as it
is. -/
def C91_claim : Prop :=
  ∀ (h : Hasher), NoCollision h → ∀ (chk : Bool) (eng : Engine) (pr : Pricer) (o : Orders)
    (rs rs' : RState) (tx : Tx) (r : TxReceipt), Reach h rs.storage →
    perform chk h eng pr o rs tx = (rs', some r) →
    ∀ accounts, AllHolders h rs.storage rs'.storage accounts →
      supply h rs'.storage accounts = supply h rs.storage accounts

/-- A program all of whose transfers (whatever it gets from the host) are from and to addresses
related by `P`. -/
def Guest.Pays {α : Type} (P : Addr → Addr → Prop) : Guest α → Prop
  | .ret _ _ => True
  | .trap _ => True
  | .call mem c k =>
    (∀ src dst amount, c = .transfer src dst amount → amount ≠ 0 → ∀ a b : Addr,
      a.1 = (mem.drop src.toNat).take 20 → b.1 = (mem.drop dst.toNat).take 20 → P a b) ∧
    ∀ v m, (k v m).Pays P

/-- All programs that the engine makes are such. -/
def Engine.Pays (P : Addr → Addr → Prop) (eng : Engine) : Prop :=
  ∀ code m, eng code = .ok m → m.start.Pays P ∧
    ∀ st f args mem, (m.invoke st f args mem).Pays P

/-! ## Flows of coins -/

/-- How the balance records of `w` become those of `w'` (with `true`: the program returned): some
transfers between accounts related by `P`, and at the end of a program that does not return possibly
a debit without credit. -/
inductive Flow (P : Addr → Addr → Prop) : View → Bool → View → Prop where
  | same {w w' : View} {b : Bool} : (∀ a, w' (.accMut a) = w (.accMut a)) → Flow P w b w'
  | pay {w w1 w2 : View} {b : Bool} (src dst : Addr) (ds dd : AccountMut) (amount : U64) :
      P src dst → money w src = some ds → money w dst = some dd →
      amount.toNat ≤ ds.balance.toNat → dd.balance.toNat + amount.toNat < 2 ^ 64 →
      (∀ a, w1 (.accMut a) = moved w src dst ds dd amount (.accMut a)) → Flow P w1 b w2 →
      Flow P w b w2
  | lost {w w' : View} (src dst : Addr) (ds : AccountMut) (amount : U64) : P src dst →
      money w src = some ds → amount.toNat ≤ ds.balance.toNat →
      (∀ a, w' (.accMut a) = debited w src ds amount (.accMut a)) → Flow P w false w'

theorem debited_congr {w w' : View} (hw : ∀ a, w' (.accMut a) = w (.accMut a)) (src : Addr)
    (ds : AccountMut) (amount : U64) (a : Addr) :
    debited w' src ds amount (.accMut a) = debited w src ds amount (.accMut a) := by
  unfold debited View.set
  rw [hw]

theorem moved_congr {w w' : View} (hw : ∀ a, w' (.accMut a) = w (.accMut a)) (src dst : Addr)
    (ds dd : AccountMut) (amount : U64) (a : Addr) :
    moved w' src dst ds dd amount (.accMut a) = moved w src dst ds dd amount (.accMut a) := by
  unfold moved View.set
  simp only [debited_congr hw]

theorem Flow.congr {P : Addr → Addr → Prop} {w w1 w2 : View} {b : Bool}
    (hw : ∀ a, w1 (.accMut a) = w (.accMut a)) (h : Flow P w1 b w2) : Flow P w b w2 := by
  cases h with
  | same h => exact .same fun a => (h a).trans (hw a)
  | pay src dst ds dd amount hp h1 h2 h3 h4 h5 h6 =>
    exact .pay src dst ds dd amount hp (by rw [← money_accMut (hw src)]; exact h1)
      (by rw [← money_accMut (hw dst)]; exact h2) h3 h4
      (fun a => (h5 a).trans (moved_congr hw _ _ _ _ _ a)) h6
  | lost src dst ds amount hp h1 h2 h3 =>
    exact .lost src dst ds amount hp (by rw [← money_accMut (hw src)]; exact h1) h2
      (fun a => (h3 a).trans (debited_congr hw _ _ _ a))

theorem Flow.trans {P : Addr → Addr → Prop} {w w1 w2 : View} {b : Bool} (h1 : Flow P w true w1)
    (h2 : Flow P w1 b w2) : Flow P w b w2 := by
  generalize ht : true = t at h1
  induction h1 with
  | same h => exact h2.congr h
  | pay src dst ds dd amount hp g1 g2 g3 g4 g5 _ ih =>
    exact .pay src dst ds dd amount hp g1 g2 g3 g4 g5 (ih h2 ht)
  | lost => cases ht

theorem Flow.end {P : Addr → Addr → Prop} {w w' : View} (h : Flow P w true w') (b : Bool) :
    Flow P w b w' := h.trans (.same fun _ => rfl)

theorem Flow.mono {P Q : Addr → Addr → Prop} (hpq : ∀ a b, P a b → Q a b) {w w' : View} {b : Bool}
    (h : Flow P w b w') : Flow Q w b w' := by
  induction h with
  | same h => exact .same h
  | pay src dst ds dd amount hp g1 g2 g3 g4 g5 _ ih =>
    exact .pay src dst ds dd amount (hpq _ _ hp) g1 g2 g3 g4 g5 ih
  | lost src dst ds amount hp h1 h2 h3 => exact .lost src dst ds amount (hpq _ _ hp) h1 h2 h3

/-- A program has only such effects on balances. -/
def Flows {α : Type} (P : Addr → Addr → Prop) (p : Prog α) : Prop :=
  ∀ w, Flow P w (isOk (p.eval w).2) (p.eval w).1

theorem Flows.bind {α β : Type} {P : Addr → Addr → Prop} {p : Prog α} {f : α → Prog β}
    (hp : Flows P p) (hf : ∀ a, Flows P (f a)) : Flows P (p.bind f) := by
  intro w
  have h1 := hp w
  rw [Prog.eval_bind]
  cases e : p.eval w with
  | mk w1 o =>
    rw [e] at h1
    cases o with
    | ok a => exact Flow.trans h1 (hf a w1)
    | err | panic => exact h1

theorem Flows.of_writes {α : Type} {P : Addr → Addr → Prop} {K : Key → Prop} {p : Prog α}
    (hp : Writes K p) (hk : ∀ a, ¬ K (.accMut a)) : Flows P p :=
  fun w => .same fun a => hp.eval w _ (hk a)

theorem Flows.of_readOnly {α : Type} {P : Addr → Addr → Prop} {p : Prog α} (hp : ReadOnly p) :
    Flows P p := Flows.of_writes (K := fun _ => False) hp.writes fun _ h => h

theorem Flows.ret {α : Type} {P : Addr → Addr → Prop} (a : α) : Flows P (.ret a : Prog α) :=
  Flows.of_readOnly trivial

theorem Flows.panic {α : Type} {P : Addr → Addr → Prop} : Flows P (.panic : Prog α) :=
  Flows.of_readOnly trivial

theorem Cases.flow {P : Addr → Addr → Prop} {w w' : View} {src dst : Addr} {amount : U64} {b : Bool}
    (h : Cases w src dst amount w' b) (hp : P src dst) : Flow P w b w' := by
  cases h with
  | early => exact .same fun _ => rfl
  | overflow ds dd h1 h2 h3 h4 => exact .lost src dst ds amount hp h1 h3 fun _ => rfl
  | done ds dd h1 h2 h3 h4 =>
    exact .pay src dst ds dd amount hp h1 h2 h3 h4 (fun _ => rfl) (.same fun _ => rfl)

theorem readAddr_some {env : Env} {mem : Bytes} {p : U32} {a : Addr}
    (h : readAddr env mem p = some a) : a.1 = (mem.drop p.toNat).take 20 := by
  unfold readAddr at h
  split at h
  · split at h
    · cases h; rfl
    · cases h
  · cases h

theorem flows_host {P : Addr → Addr → Prop} (chk : Bool) (env : Env) (mem : Bytes) (c : HostCall)
    (hp : ∀ src dst amount, c = .transfer src dst amount → amount ≠ 0 → ∀ a b : Addr,
      a.1 = (mem.drop src.toNat).take 20 → b.1 = (mem.drop dst.toNat).take 20 → P a b) :
    Flows P (host chk env mem c) := by
  have key : ∀ {α : Type} (b : Bool) (p : Prog α), Flows P p →
      Flows P (if b then p else .panic) := by
    intro α b p hp
    split
    · exact hp
    · exact Flows.panic
  have hset : ∀ id value, Flows P (setVarBytes chk env.storage id value).unwrap := by
    intro id value
    exact Flows.of_writes (writes_setVarBytes chk env.storage id value).unwrap (by simp)
  cases c with
  | staticAlloc size => exact (Flows.of_readOnly (ReadOnly.ofOption _)).bind fun _ => Flows.ret _
  | calldataOffset | calldataLen | log | setReturndata =>
    exact (Flows.of_readOnly (ReadOnly.ofOption _)).bind fun _ => Flows.ret _
  | get32 var =>
    refine Flows.bind (key _ _ (Flows.of_readOnly ?_)) fun _ => Flows.ret _
    exact (readOnly_getVarI64 _ _ _).unwrap.bind fun _ => trivial
  | get64 var =>
    exact Flows.bind (key _ _ (Flows.of_readOnly (readOnly_getVarI64 _ _ _).unwrap)) fun _ =>
      Flows.ret _
  | set32 var value => exact Flows.bind (key _ _ (hset _ _)) fun _ => Flows.ret _
  | set64 var value => exact Flows.bind (key _ _ (hset _ _)) fun _ => Flows.ret _
  | load160 var ptr =>
    refine Flows.bind (key _ _ (Flows.of_readOnly ?_)) fun _ => Flows.ret _
    exact (ReadOnly.ofOption _).bind fun _ => (readOnly_getVar _ _ _ _).unwrap.bind fun _ => trivial
  | store160 ptr var =>
    refine Flows.bind ?_ fun _ => Flows.ret _
    exact (Flows.of_readOnly (ReadOnly.ofOption _)).bind fun _ => key _ _ (hset _ _)
  | transfer src dst amount =>
    refine Flows.bind (p := svmTransfer chk env mem src dst amount) ?_ fun _ => Flows.ret _
    by_cases h0 : amount = 0
    · unfold svmTransfer
      rw [if_pos h0]
      exact Flows.ret _
    · intro w
      cases hs : readAddr env mem src with
      | none =>
        unfold svmTransfer
        rw [if_neg h0, hs]
        exact .same fun _ => rfl
      | some a =>
        cases hd : readAddr env mem dst with
        | none =>
          unfold svmTransfer
          rw [if_neg h0, hs, hd]
          exact .same fun _ => rfl
        | some b =>
          exact (svmTransfer_cases chk env mem src dst amount hs hd h0 w).flow
            (hp src dst amount rfl h0 a b (readAddr_some hs) (readAddr_some hd))

theorem flows_guest {α : Type} {P : Addr → Addr → Prop} (chk : Bool) (g : Guest α) (hg : g.Pays P)
    (env : Env) : Flows P (g.run chk env) := by
  induction g generalizing env with
  | ret | trap => exact Flows.ret _
  | call mem c k ih =>
    exact (flows_host chk env mem c hg.1).bind fun r => ih _ _ (hg.2 _ _) _

theorem flows_wasmerCall {α : Type} {P : Addr → Addr → Prop} (chk : Bool) (env : Env) (func : Str)
    (g : Guest α) (hg : g.Pays P) : Flows P (wasmerCall chk env func g) := by
  refine (flows_guest chk g hg env).bind fun r => ?_
  split <;> exact Flows.ret _

theorem flows_callAlloc {P : Addr → Addr → Prop} (chk : Bool) (m : Module)
    (hm : ∀ st f args mem, (m.invoke st f args mem).Pays P) (st : m.σ) (env : Env) (mem : Bytes)
    (n : Nat) : Flows P (callAlloc chk m st env mem n) := by
  unfold callAlloc
  simp only
  split
  · refine (flows_wasmerCall chk _ _ _ (hm _ _ _ _)).bind fun r => ?_
    split
    · exact Flows.ret _
    · split
      · exact Flows.ret _
      · exact Flows.panic
  · exact Flows.ret _

theorem flows_runFunc {P : Addr → Addr → Prop} (chk : Bool) (m : Module)
    (hm : ∀ st f args mem, (m.invoke st f args mem).Pays P) (call : Call) (env : Env) (st : m.σ)
    (mem : Bytes) : Flows P (runFunc chk m call env st mem) := by
  unfold runFunc
  split
  · exact Flows.ret _
  · split
    · refine (flows_callAlloc chk m hm st env mem _).bind fun r => ?_
      split
      · exact Flows.ret _
      · split
        · refine (Flows.of_readOnly (ReadOnly.ofOption _)).bind fun me => ?_
          refine (flows_wasmerCall chk _ _ _ (hm _ _ _ _)).bind fun r' => ?_
          split <;> exact Flows.ret _
        · exact Flows.panic
    · refine (flows_wasmerCall chk _ _ _ (hm _ _ _ _)).bind fun r => ?_
      split <;> exact Flows.ret _

theorem flows_runCall {P : Addr → Addr → Prop} (chk : Bool) (eng : Engine) (he : eng.Pays P)
    (call : Call) (ss : Sections) (env : Env) : Flows P (runCall chk eng call ss env) := by
  refine (Flows.of_readOnly (readOnly_validate _ _)).bind fun r => ?_
  split
  · exact Flows.ret _
  · refine (Flows.of_readOnly (ReadOnly.ofOption _)).bind fun code => ?_
    split
    · exact Flows.ret _
    · rename_i m hm
      obtain ⟨hs, hi⟩ := he _ _ hm
      have hinst : Flows P (instantiate chk m env) := by
        unfold instantiate
        split
        · exact Flows.ret _
        · refine (flows_guest chk _ hs _).bind fun r => ?_
          split <;> exact Flows.ret _
      refine hinst.bind fun r => ?_
      split
      · exact Flows.ret _
      · split
        · exact flows_runFunc chk m hi call _ _ _
        · exact Flows.panic

theorem flows_exec {P : Addr → Addr → Prop} (chk : Bool) (eng : Engine) (he : eng.Pays P)
    (call : Call) : Flows P (exec chk eng call) :=
  (Flows.of_readOnly (readOnly_load _ _).unwrap).bind fun _ =>
    (Flows.of_readOnly (readOnly_templateAddr _).unwrap).bind fun _ =>
    (Flows.of_readOnly (readOnly_loadTemplate _ _)).bind fun _ =>
    (Flows.of_readOnly (readOnly_load _ _).unwrap).bind fun _ => flows_runCall _ _ he _ _ _

theorem flows_txProg {P : Addr → Addr → Prop} (chk : Bool) (eng : Engine) (he : eng.Pays P)
    (tx : Transaction) (mode : AccessMode) (func : Str) (input : Bytes) :
    Flows P (txProg chk eng tx mode func input) :=
  (Flows.of_readOnly (readOnly_buildCall _ _ _ _ _)).bind fun c => flows_exec chk eng he c

/-- Every program pays between some addresses. -/
theorem Guest.pays_any {α : Type} (g : Guest α) : g.Pays fun _ _ => True := by
  induction g with
  | ret | trap => trivial
  | call mem c k ih => exact ⟨fun _ _ _ _ _ _ _ _ _ => trivial, ih⟩

theorem Engine.pays_any (eng : Engine) : eng.Pays fun _ _ => True :=
  fun _ _ _ => ⟨Guest.pays_any _, fun _ _ _ _ => Guest.pays_any _⟩

/-! ## The total of all balances -/

/-- The coins in the record of an account. -/
def coins (w : View) (a : Addr) : Nat := ((money w a).map fun d => d.balance.toNat).getD 0

/-- The sum for some accounts. -/
def total (w : View) (l : List Addr) : Nat := (l.map (coins w)).sum

theorem supply_total {h : Hasher} (hc : NoCollision h) (s : Storage) (l : List Addr) :
    supply h s l = total (view h s) l := by
  unfold supply total
  congr 1
  apply List.map_congr_left
  intro a _
  rw [bal_money hc]
  unfold coins
  cases money (view h s) a <;> rfl

theorem total_congr {w w' : View} {l : List Addr} (h : ∀ a, money w' a = money w a) :
    total w' l = total w l := by
  unfold total
  congr 1
  apply List.map_congr_left
  intro a _
  unfold coins
  rw [h]

theorem total_update {w w' : View} {l : List Addr} {a : Addr} (hn : l.Nodup) (ha : a ∈ l)
    (h : ∀ b, b ≠ a → money w' b = money w b) : total w' l + coins w a = total w l + coins w' a := by
  have e : ∀ v : View, total v l = coins v a + total v (l.erase a) := by
    intro v
    have := ((List.perm_cons_erase ha).map (coins v)).sum_nat
    unfold total
    simpa using this
  have hr : total w' (l.erase a) = total w (l.erase a) := by
    unfold total
    congr 1
    apply List.map_congr_left
    intro b hb
    unfold coins
    rw [h b ((List.Nodup.mem_erase_iff hn).1 hb).1]
  rw [e w', e w, hr]
  omega

theorem coins_some {w : View} {a : Addr} {d : AccountMut} (h : money w a = some d) :
    coins w a = d.balance.toNat := by
  unfold coins
  rw [h]
  rfl

theorem total_debited {w : View} {l : List Addr} (hn : l.Nodup) {src : Addr} (hs : src ∈ l)
    {ds : AccountMut} {amount : U64} (h1 : money w src = some ds)
    (h2 : amount.toNat ≤ ds.balance.toNat) :
    total (debited w src ds amount) l + amount.toNat = total w l := by
  have e := total_update (w := w) (w' := debited w src ds amount) hn hs (fun b hb => by
    unfold debited; rw [money_set, if_neg hb])
  rw [coins_some h1, coins_some (d := { ds with balance := ds.balance - amount })
    (by unfold debited; rw [money_set, if_pos rfl])] at e
  simp only at e
  rw [toNat_sub h2] at e
  omega

theorem total_moved {w : View} {l : List Addr} (hn : l.Nodup) {src dst : Addr} (hs : src ∈ l)
    (hd : dst ∈ l) {ds dd : AccountMut} {amount : U64} (h1 : money w src = some ds)
    (h2 : money w dst = some dd) (h3 : amount.toNat ≤ ds.balance.toNat)
    (h4 : dd.balance.toNat + amount.toNat < 2 ^ 64) :
    total (moved w src dst ds dd amount) l =
      total w l + (if src = dst then amount.toNat else 0) := by
  have e1 := total_debited hn hs h1 h3
  have e2 := total_update (w := debited w src ds amount) (w' := moved w src dst ds dd amount) hn hd
    (fun b hb => by unfold moved; rw [money_set, if_neg hb])
  rw [coins_some (w := moved w src dst ds dd amount) (a := dst)
    (d := { dd with balance := dd.balance + amount })
    (by rw [money_moved, if_pos rfl])] at e2
  simp only at e2
  rw [toNat_add h4] at e2
  by_cases e : src = dst
  · subst e
    rw [h1] at h2
    cases h2
    rw [coins_some (d := { ds with balance := ds.balance - amount })
      (by unfold debited; rw [money_set, if_pos rfl])] at e2
    simp only at e2
    rw [toNat_sub h3] at e2
    rw [if_pos rfl]
    omega
  · rw [coins_some (w := debited w src ds amount) (a := dst) (d := dd)
      (by unfold debited; rw [money_set, if_neg (Ne.symm e), h2])] at e2
    rw [if_neg e]
    omega

/-- All accounts with a balance are in the list. -/
def Lists (w : View) (l : List Addr) : Prop := ∀ a d, money w a = some d → a ∈ l

theorem money_isSome_debited {w : View} {src : Addr} {ds : AccountMut} {amount : U64}
    (h1 : money w src = some ds) (a : Addr) :
    (money (debited w src ds amount) a).isSome = (money w a).isSome := by
  unfold debited
  rw [money_set]
  split
  · rename_i e; rw [e, h1]; rfl
  · rfl

theorem money_isSome_moved {w : View} {src dst : Addr} {ds dd : AccountMut} {amount : U64}
    (h1 : money w src = some ds) (h2 : money w dst = some dd) (a : Addr) :
    (money (moved w src dst ds dd amount) a).isSome = (money w a).isSome := by
  rw [money_moved]
  split
  · rename_i e; rw [e, h2]; rfl
  · split
    · rename_i e; rw [e, h1]; rfl
    · rfl

/-- Programs neither create nor remove balance records. -/
theorem Flow.holders {P : Addr → Addr → Prop} {w w' : View} {b : Bool} (h : Flow P w b w')
    (a : Addr) : (money w' a).isSome = (money w a).isSome := by
  induction h with
  | same h => rw [money_accMut (h a)]
  | pay src dst ds dd amount hp g1 g2 g3 g4 g5 _ ih =>
    rw [ih, money_accMut (g5 a), money_isSome_moved g1 g2]
  | lost src dst ds amount hp h1 h2 h3 => rw [money_accMut (h3 a), money_isSome_debited h1]

theorem Lists.of_isSome {w w' : View} {l : List Addr} (hl : Lists w l)
    (h : ∀ a, (money w' a).isSome = (money w a).isSome) : Lists w' l := by
  intro a d hd
  have := h a
  rw [hd] at this
  obtain ⟨d', hd'⟩ := Option.isSome_iff_exists.1 this.symm
  exact hl a d' hd'

/-- Counters stay. -/
theorem Flow.counters {P : Addr → Addr → Prop} {w w' : View} {b : Bool} (h : Flow P w b w')
    (a : Addr) : (money w' a).map AccountMut.counter = (money w a).map AccountMut.counter := by
  induction h with
  | same h => rw [money_accMut (h a)]
  | pay src dst ds dd amount hp g1 g2 g3 g4 g5 _ ih =>
    rw [ih, money_accMut (g5 a), money_moved]
    split
    · rename_i e; rw [e, g2]; rfl
    · split
      · rename_i e; rw [e, g1]; rfl
      · rfl
  | lost src dst ds amount hp h1 h2 h3 =>
    rw [money_accMut (h3 a)]
    unfold debited
    rw [money_set]
    split
    · rename_i e; rw [e, h1]; rfl
    · rfl

/-- No program that returns destroys coins. -/
theorem Flow.total_ge {P : Addr → Addr → Prop} {w w' : View} (h : Flow P w true w') {l : List Addr}
    (hn : l.Nodup) (hl : Lists w l) : total w l ≤ total w' l := by
  generalize ht : true = t at h
  induction h with
  | same h => exact Nat.le_of_eq (total_congr fun a => money_accMut (h a)).symm
  | pay src dst ds dd amount hp g1 g2 g3 g4 g5 _ ih =>
    have hm : ∀ a, money _ a = money _ a := fun a => money_accMut (g5 a)
    have := ih (hl.of_isSome fun a => by rw [hm, money_isSome_moved g1 g2]) ht
    rw [total_congr hm, total_moved hn (hl _ _ g1) (hl _ _ g2) g1 g2 g3 g4] at this
    omega
  | lost => cases ht

/-- A program that does not pay to itself creates no coins, and conserves them when it returns. -/
theorem Flow.total_le {w w' : View} {b : Bool} (h : Flow (· ≠ ·) w b w') {l : List Addr}
    (hn : l.Nodup) (hl : Lists w l) :
    total w' l ≤ total w l ∧ (b = true → total w' l = total w l) := by
  induction h with
  | same h =>
    have e := total_congr (l := l) fun a => money_accMut (h a)
    exact ⟨Nat.le_of_eq e, fun _ => e⟩
  | pay src dst ds dd amount hp g1 g2 g3 g4 g5 _ ih =>
    have hm : ∀ a, money _ a = money _ a := fun a => money_accMut (g5 a)
    have := ih (hl.of_isSome fun a => by rw [hm, money_isSome_moved g1 g2])
    rwa [total_congr hm, total_moved hn (hl _ _ g1) (hl _ _ g2) g1 g2 g3 g4, if_neg hp] at this
  | lost src dst ds amount hp h1 h2 h3 =>
    rw [total_congr fun a => money_accMut (h3 a)]
    have := total_debited hn (hl _ _ h1) h1 h2
    exact ⟨by omega, fun h => by cases h⟩

/-! ## The steps of transactions -/

/-- What a call does to the view, with or without receipt. -/
theorem call_view {h : Hasher} (hc : NoCollision h) {s : Storage} (hi : Inv s) (chk : Bool)
    (o : Orders) (eng : Engine) (message : Bytes) :
    (∃ tx rest, decTransaction message = .ok (tx, rest) ∧
      view h (call chk h o eng message s).1 =
        ((txProg chk eng tx .fullAccess tx.funcName tx.calldata).eval (view h s)).1 ∧
      ((call chk h o eng message s).2.isSome = true →
        isOk ((txProg chk eng tx .fullAccess tx.funcName tx.calldata).eval (view h s)).2 = true)) ∨
    ((∀ x, decTransaction message ≠ .ok x) ∧ call chk h o eng message s = (s, none)) := by
  unfold call
  split
  · rename_i tx rest hd
    refine .inl ⟨tx, rest, hd, ?_⟩
    have hi1 := inv_prog (h := h) (txProg chk eng tx .fullAccess tx.funcName tx.calldata) hi
    rw [buildAndExec_eq, run_out, ← view_after hc, ← out_eval hc]
    cases ho : out h (txProg chk eng tx .fullAccess tx.funcName tx.calldata) s with
    | ok r =>
      obtain ⟨env, r⟩ := r
      cases r with
      | ok x => exact ⟨view_outcome hi1 o _ _ _, fun _ => rfl⟩
      | error f => exact ⟨rfl, fun _ => rfl⟩
    | err e => exact ⟨rfl, fun h => by cases h⟩
    | panic => exact ⟨rfl, fun h => by cases h⟩
  · rename_i hne
    exact .inr ⟨fun x hx => hne x.1 x.2 hx, rfl⟩

/-- The constructor call of a spawn. -/
def ctorCall (h : Hasher) (sp : SpawnAccount) : Call :=
  { funcName := sp.ctorName, funcInput := sp.calldata, target := computeAccountAddr h sp
    templateAddr := sp.templateAddr, withinSpawn := true, mode := .fullAccess }

/-- The program of a spawn after the gas checks. -/
def spawnProg (chk : Bool) (h : Hasher) (eng : Engine) (sp : SpawnAccount) :
    Prog (Env × Except Failure (Bytes × List Bytes)) :=
  (createAccount chk (computeAccountAddr h sp) sp.templateAddr sp.name 0 0).bind fun _ =>
    exec chk eng (ctorCall h sp)

theorem ctorCall_view {h : Hasher} (hc : NoCollision h) {s : Storage} (hi : Inv s) (chk : Bool)
    (o : Orders) (eng : Engine) (sp : SpawnAccount) (principal : Addr) :
    view h (callCtor chk h o eng sp (computeAccountAddr h sp) principal s).1 =
      ((exec chk eng (ctorCall h sp)).eval (view h s)).1 ∧
    ((callCtor chk h o eng sp (computeAccountAddr h sp) principal s).2.isSome = true →
      isOk ((exec chk eng (ctorCall h sp)).eval (view h s)).2 = true) := by
  have e : callCtor chk h o eng sp (computeAccountAddr h sp) principal s =
      ((execCall chk h o eng (ctorCall h sp) s).1,
        (execCall chk h o eng (ctorCall h sp) s).2.bind fun receipt => intoSpawnReceipt
          { receipt with
            touched := setInsert (setInsert receipt.touched (computeAccountAddr h sp)) principal }
          (computeAccountAddr h sp)) := rfl
  rw [e]
  clear e
  generalize ctorCall h sp = cl
  refine ⟨(view_execCall hi chk o eng cl).trans (view_after hc _ _), fun hsome => ?_⟩
  obtain ⟨r, hr⟩ := Option.isSome_iff_exists.1 hsome
  obtain ⟨c, hc1, -⟩ := Option.bind_eq_some_iff.1 hr
  rw [← out_eval hc]
  unfold execCall at hc1
  simp only [run_out] at hc1
  split at hc1
  · rename_i heq; rw [heq]; rfl
  · rename_i heq; rw [heq]; rfl
  · cases hc1

theorem spawnAccount_view {h : Hasher} (hc : NoCollision h) {s : Storage} (hi : Inv s) (chk : Bool)
    (o : Orders) (eng : Engine) (sp : SpawnAccount) (principal : Addr) :
    view h (spawnAccount chk h o eng sp principal s).1 =
      ((spawnProg chk h eng sp).eval (view h s)).1 ∧
    ((spawnAccount chk h o eng sp principal s).2.isSome = true →
      isOk ((spawnProg chk h eng sp).eval (view h s)).2 = true) := by
  unfold spawnProg spawnAccount
  simp only [run_out]
  rw [Prog.eval_bind]
  generalize hp : createAccount chk (computeAccountAddr h sp) sp.templateAddr sp.name 0 0 = p
  have hi1 : Inv (after h p s) := inv_prog (h := h) p hi
  have e1 := out_eval hc p s
  have e2 := view_after hc p s
  generalize after h p s = s1 at *
  generalize out h p s = o1 at *
  cases hev : p.eval (view h s) with
  | mk w1 o2 =>
    rw [hev] at e1 e2
    simp only at e1 e2
    subst e1 e2
    cases o1 with
    | ok u => exact ctorCall_view hc hi1 chk o eng sp principal
    | err e => exact ⟨rfl, fun h => (by cases h)⟩
    | panic => exact ⟨rfl, fun h => (by cases h)⟩

/-- What a spawn does to the view, with or without receipt. -/
theorem spawn_view {h : Hasher} (hc : NoCollision h) {rs : RState} (hi : Inv rs.storage) (chk : Bool)
    (o : Orders) (eng : Engine) (pr : Pricer) (envelope : Envelope) (message : Bytes) :
    ((spawn chk h o eng pr envelope message rs).1.storage = rs.storage ∧
      ∀ r, (spawn chk h o eng pr envelope message rs).2 = some r → r.success = false) ∨
    ∃ sp rest, decSpawn message = .ok (sp, rest) ∧
      view h (spawn chk h o eng pr envelope message rs).1.storage =
        ((spawnProg chk h eng sp).eval (view h rs.storage)).1 ∧
      ((spawn chk h o eng pr envelope message rs).2.isSome = true →
        isOk ((spawnProg chk h eng sp).eval (view h rs.storage)).2 = true) := by
  unfold spawn
  split
  · rename_i sp rest hd
    have hs := (readOnly_loadTemplate chk sp.templateAddr).run h rs.storage
    simp only
    split
    · split
      · exact .inl ⟨hs, fun r hr => (by cases hr)⟩
      · exact .inl ⟨hs, fun r hr => (by cases hr; rfl)⟩
      · split
        · exact .inl ⟨hs, fun r hr => (by cases hr)⟩
        · split
          · exact .inl ⟨hs, fun r hr => (by cases hr; rfl)⟩
          · refine .inr ⟨sp, rest, hd, ?_⟩
            rw [hs]
            exact spawnAccount_view hc hi chk o eng sp _
    · exact .inl ⟨hs, fun r hr => (by cases hr)⟩
  · exact .inl ⟨rfl, fun r hr => (by cases hr)⟩

/-- The creation of an account without coins. -/
theorem createAccount_cases (chk : Bool) (a t : Addr) (nm : Str) (w : View) :
    (((createAccount chk a t nm 0 0).eval w).2 = .ok () ∧
      ∀ b, money ((createAccount chk a t nm 0 0).eval w).1 b =
        if b = a then some ⟨0, 0⟩ else money w b) ∨
    (isOk ((createAccount chk a t nm 0 0).eval w).2 = false ∧
      ((createAccount chk a t nm 0 0).eval w).1 = w) := by
  unfold createAccount create
  simp only [Prog.bind_eq]
  rw [Prog.eval_bind, Prog.eval_unwrap, Prog.eval_bind]
  have hro := (readOnly_templateLayout chk t).eval w
  cases hl : (templateLayout chk t).eval w with
  | mk w1 o =>
    rw [hl] at hro
    simp only at hro
    subst hro
    cases o with
    | ok l =>
      simp only
      cases hd : encAccountData ⟨nm, t⟩ with
      | none => exact .inr ⟨rfl, rfl⟩
      | some bs =>
        refine .inl ⟨rfl, fun b => ?_⟩
        show money ((w1.set (.accData a) bs).set (.accMut a) (mutBytes ⟨0, 0⟩)) b = _
        rw [money_set]
        split
        · rfl
        · exact money_accMut (View.set_ne _ _ (by simp))
    | err e => exact .inr ⟨rfl, rfl⟩
    | panic => exact .inr ⟨rfl, rfl⟩

/-- The effect of a spawn on the coins. -/
theorem spawnProg_total {chk : Bool} {h : Hasher} {eng : Engine} (sp : SpawnAccount) (w : View)
    {l : List Addr} (hn : l.Nodup) (hl : Lists w l)
    (hl' : Lists ((spawnProg chk h eng sp).eval w).1 l) :
    (isOk ((spawnProg chk h eng sp).eval w).2 = true →
      total w l ≤ total ((spawnProg chk h eng sp).eval w).1 l + coins w (computeAccountAddr h sp)) ∧
    (eng.Pays (· ≠ ·) →
      total ((spawnProg chk h eng sp).eval w).1 l ≤ total w l ∧
      (isOk ((spawnProg chk h eng sp).eval w).2 = true →
        total ((spawnProg chk h eng sp).eval w).1 l + coins w (computeAccountAddr h sp) =
          total w l)) := by
  unfold spawnProg at hl' ⊢
  rw [Prog.eval_bind] at hl' ⊢
  rcases createAccount_cases chk (computeAccountAddr h sp) sp.templateAddr sp.name w with
    ⟨h1, h2⟩ | ⟨h1, h2⟩
  · generalize (createAccount chk (computeAccountAddr h sp) sp.templateAddr sp.name 0 0).eval w =
      r at *
    obtain ⟨w1, o1⟩ := r
    simp only at h1 h2
    subst h1
    simp only at hl' ⊢
    have hf := fun P (he : eng.Pays P) => flows_exec chk eng he (ctorCall h sp) w1
    have hany := hf _ eng.pays_any
    have hl1 : Lists w1 l := hl'.of_isSome fun a => (hany.holders a).symm
    have hm : money w1 (computeAccountAddr h sp) = some ⟨0, 0⟩ := by rw [h2, if_pos rfl]
    have e := total_update (w := w) (w' := w1) hn (hl1 _ _ hm) (fun b hb => by rw [h2, if_neg hb])
    rw [coins_some hm] at e
    have h0 : BitVec.toNat (⟨0, 0⟩ : AccountMut).balance = 0 := rfl
    rw [h0, Nat.add_zero] at e
    refine ⟨fun hok => ?_, fun he => ⟨?_, fun hok => ?_⟩⟩
    · rw [hok] at hany
      have := hany.total_ge hn hl1
      omega
    · have := ((hf _ he).total_le hn hl1).1
      omega
    · have := ((hf _ he).total_le hn hl1).2 hok
      omega
  · generalize (createAccount chk (computeAccountAddr h sp) sp.templateAddr sp.name 0 0).eval w =
      r at *
    obtain ⟨w1, o1⟩ := r
    simp only at h1 h2
    subst h2
    cases o1 with
    | ok u => cases h1
    | err e => exact ⟨fun h => (by cases h), fun _ => ⟨Nat.le_refl _, fun h => (by cases h)⟩⟩
    | panic => exact ⟨fun h => (by cases h), fun _ => ⟨Nat.le_refl _, fun h => (by cases h)⟩⟩

theorem writes_createTemplate (t : Addr) (core noncore : Sections) :
    Writes (fun k => k = .core t ∨ k = .noncore t) (createTemplate t core noncore) := by
  have he : ∀ e k, (k = .core t ∨ k = .noncore t) →
      Writes (fun k => k = .core t ∨ k = .noncore t) (encodeAndWrite e k) := by
    intro e k hk
    unfold encodeAndWrite
    split
    · exact ⟨hk, trivial⟩
    · trivial
  exact (he _ _ (.inl rfl)).bind fun _ => he _ _ (.inr rfl)

/-- However a deploy ends, nothing but templates is written. -/
theorem deploy_keeps {h : Hasher} (hc : NoCollision h) (s : Storage) (chk : Bool)
    (envelope : Envelope) (message : Bytes) (k : Key) (h1 : ∀ t, k ≠ .core t)
    (h2 : ∀ t, k ≠ .noncore t) : view h (deploy chk h envelope message s).1 k = view h s k := by
  unfold deploy
  split
  · simp only
    split
    · rfl
    · split
      · rfl
      · rename_i c _
        have hw : ∀ ss, view h ((createTemplate (computeTemplateAddr h c) ss ss).run h s).1 k =
            view h s k := by
          intro ss
          show view h (after h _ s) k = _
          rw [view_after hc]
          exact (writes_createTemplate _ _ _).eval _ k fun hk => hk.elim (h1 _) (h2 _)
        split <;> exact hw _
  · rfl

theorem reach_perform {h : Hasher} {rs : RState} (hr : Reach h rs.storage) (chk : Bool)
    (eng : Engine) (pr : Pricer) (o : Orders) (tx : Tx) :
    Reach h (perform chk h eng pr o rs tx).1.storage := by
  cases tx with
  | deploy e m =>
    show Reach h (deploy chk h e m rs.storage).1
    unfold deploy
    split
    · simp only
      split
      · exact hr
      · split
        · exact hr
        · split <;> exact .prog _ (safe_createTemplate _ _ _) hr
    · exact hr
  | spawn e m =>
    show Reach h (spawn chk h o eng pr e m rs).1.storage
    unfold spawn
    split
    · rename_i sp rest hd
      have hs := (readOnly_loadTemplate chk sp.templateAddr).run h rs.storage
      simp only [hs]
      split
      · split
        · exact hr
        · exact hr
        · split
          · exact hr
          · split
            · exact hr
            · show Reach h (spawnAccount chk h o eng sp e.principal rs.storage).1
              unfold spawnAccount
              have hsafe : Prog.Safe (createAccount chk (computeAccountAddr h sp) sp.templateAddr
                sp.name 0 0) := (safe_create _ _ _ _ _ _).unwrap.bind fun _ => trivial
              simp only
              split
              · exact reach_execCall (.prog _ hsafe hr) chk o eng _
              · exact .prog _ hsafe hr
      · exact hr
    · exact hr
  | call m =>
    show Reach h (call chk h o eng m rs.storage).1
    unfold call
    split
    · rename_i tx rest hd
      have hs := (readOnly_buildCall chk tx .fullAccess tx.funcName tx.calldata).run h rs.storage
      unfold buildAndExec
      simp only [hs]
      split
      · exact reach_execCall hr chk o eng _
      · exact hr
    · exact hr
  | verify m =>
    show Reach h (verify chk h o eng m rs.storage).1
    rw [C28_verify_pure]
    exact hr

/-! ## C91 -/

/-- The address at which a transaction creates an account. -/
def Tx.spawns (h : Hasher) : Tx → Addr → Prop
  | .spawn _ m, a => ∃ sp rest, decSpawn m = .ok (sp, rest) ∧ a = computeAccountAddr h sp
  | _, _ => False

/-- What one transaction does to the balance records. -/
theorem perform_total {h : Hasher} (hc : NoCollision h) {rs : RState} (hi : Inv rs.storage)
    (chk : Bool) (eng : Engine) (pr : Pricer) (o : Orders) (tx : Tx) {l : List Addr} (hn : l.Nodup)
    (hl : Lists (view h rs.storage) l)
    (hl' : Lists (view h (perform chk h eng pr o rs tx).1.storage) l) :
    ∃ burnt, (burnt = 0 ∨ ∃ a, tx.spawns h a ∧ burnt = coins (view h rs.storage) a) ∧
      ((perform chk h eng pr o rs tx).2.isSome = true →
        total (view h rs.storage) l ≤
          total (view h (perform chk h eng pr o rs tx).1.storage) l + burnt) ∧
      (eng.Pays (· ≠ ·) →
        total (view h (perform chk h eng pr o rs tx).1.storage) l ≤ total (view h rs.storage) l ∧
        ((perform chk h eng pr o rs tx).2.isSome = true →
          total (view h (perform chk h eng pr o rs tx).1.storage) l + burnt =
            total (view h rs.storage) l)) := by
  have hsame : (∀ a, money (view h (perform chk h eng pr o rs tx).1.storage) a =
      money (view h rs.storage) a) → ∃ burnt, (burnt = 0 ∨ ∃ a, tx.spawns h a ∧
        burnt = coins (view h rs.storage) a) ∧
      ((perform chk h eng pr o rs tx).2.isSome = true →
        total (view h rs.storage) l ≤
          total (view h (perform chk h eng pr o rs tx).1.storage) l + burnt) ∧
      (eng.Pays (· ≠ ·) →
        total (view h (perform chk h eng pr o rs tx).1.storage) l ≤ total (view h rs.storage) l ∧
        ((perform chk h eng pr o rs tx).2.isSome = true →
          total (view h (perform chk h eng pr o rs tx).1.storage) l + burnt =
            total (view h rs.storage) l)) := by
    intro e
    have := total_congr (l := l) e
    exact ⟨0, .inl rfl, fun _ => by omega, fun _ => ⟨by omega, fun _ => by omega⟩⟩
  cases tx with
  | deploy e m =>
    exact hsame fun a => money_accMut
      (deploy_keeps hc rs.storage chk e m _ (fun _ h => by cases h) (fun _ h => by cases h))
  | verify m =>
    refine hsame fun a => ?_
    show money (view h (verify chk h o eng m rs.storage).1) a = _
    rw [C28_verify_pure]
  | call m =>
    rcases call_view hc hi chk o eng m with ⟨tx, rest, hd, h1, h2⟩ | ⟨h1, h2⟩
    · have e : view h (perform chk h eng pr o rs (.call m)).1.storage = _ := h1
      have hsome : (perform chk h eng pr o rs (.call m)).2.isSome =
        (call chk h o eng m rs.storage).2.isSome := Option.isSome_map
      rw [e, hsome]
      refine ⟨0, .inl rfl, fun hok => ?_, fun he => ⟨?_, fun hok => ?_⟩⟩
      · have hf := flows_txProg chk eng eng.pays_any tx .fullAccess tx.funcName tx.calldata
          (view h rs.storage)
        rw [h2 hok] at hf
        exact hf.total_ge hn hl
      · exact ((flows_txProg chk eng he tx .fullAccess tx.funcName tx.calldata
          (view h rs.storage)).total_le hn hl).1
      · exact ((flows_txProg chk eng he tx .fullAccess tx.funcName tx.calldata
          (view h rs.storage)).total_le hn hl).2 (h2 hok)
    · refine hsame fun a => ?_
      show money (view h (call chk h o eng m rs.storage).1) a = _
      rw [h2]
  | spawn e m =>
    rcases spawn_view hc hi chk o eng pr e m with ⟨h1, h2⟩ | ⟨sp, rest, hd, h1, h2⟩
    · refine hsame fun a => ?_
      show money (view h (spawn chk h o eng pr e m rs).1.storage) a = _
      rw [h1]
    · have e1 : view h (perform chk h eng pr o rs (.spawn e m)).1.storage = _ := h1
      have hsome : (perform chk h eng pr o rs (.spawn e m)).2.isSome =
        (spawn chk h o eng pr e m rs).2.isSome := Option.isSome_map
      rw [e1] at hl'
      rw [e1, hsome]
      obtain ⟨g1, g2⟩ := spawnProg_total sp (view h rs.storage) hn hl hl'
      exact ⟨coins (view h rs.storage) (computeAccountAddr h sp), .inr ⟨_, ⟨sp, rest, hd, rfl⟩, rfl⟩,
        fun hok => g1 (h2 hok), fun he => ⟨(g2 he).1, fun hok => (g2 he).2 (h2 hok)⟩⟩

theorem lists_of {h : Hasher} (hc : NoCollision h) {s : Storage} {l : List Addr}
    (hl : ∀ a b, bal h s a = some b → a ∈ l) : Lists (view h s) l := by
  intro a d hd
  exact hl a d.balance (by rw [bal_money hc, hd]; rfl)

theorem coins_bal {h : Hasher} (hc : NoCollision h) (s : Storage) (a : Addr) :
    coins (view h s) a = ((bal h s a).map BitVec.toNat).getD 0 := by
  rw [bal_money hc]
  unfold coins
  cases money (view h s) a <;> rfl

/-- C91, what holds for all programs: a transaction with a receipt destroys no coins, except that a
spawn may destroy those that the account at the computed address had before. -/
theorem C91_not_lost {h : Hasher} (hc : NoCollision h) {rs rs' : RState} (hr : Reach h rs.storage)
    (chk : Bool) (eng : Engine) (pr : Pricer) (o : Orders) (tx : Tx) (r : TxReceipt)
    (hx : perform chk h eng pr o rs tx = (rs', some r)) (accounts : List Addr)
    (hl : AllHolders h rs.storage rs'.storage accounts)
    (hfree : ∀ a b, tx.spawns h a → bal h rs.storage a = some b → b = 0) :
    supply h rs.storage accounts ≤ supply h rs'.storage accounts := by
  obtain ⟨burnt, h1, h2, -⟩ := perform_total hc (hr.ok hc).1 chk eng pr o tx hl.nodup (lists_of hc hl.before)
    (by rw [hx]; exact lists_of hc hl.after)
  rw [hx] at h2
  rw [supply_total hc, supply_total hc]
  have := h2 rfl
  rcases h1 with rfl | ⟨a, ha, rfl⟩
  · exact this
  · have h0 : coins (view h rs.storage) a = 0 := by
      rw [coins_bal hc]
      cases hb : bal h rs.storage a with
      | none => rfl
      | some b => rw [hfree a b ha hb]; rfl
    rw [h0] at this
    exact this

/-- C91 under the two conditions that it needs: no program ever transfers to the account it transfers
from, and accounts are not spawned over an account with coins. Then every transaction with a receipt
conserves the total, and one without receipt (a panic) does not increase it. Missing: the code checks
neither condition. -/
theorem C91_conserved_partial {h : Hasher} (hc : NoCollision h) {rs rs' : RState}
    (hr : Reach h rs.storage) (chk : Bool) (eng : Engine) (he : eng.Pays (· ≠ ·)) (pr : Pricer)
    (o : Orders) (tx : Tx) (r : Option TxReceipt)
    (hx : perform chk h eng pr o rs tx = (rs', r)) (accounts : List Addr)
    (hl : AllHolders h rs.storage rs'.storage accounts) :
    supply h rs'.storage accounts ≤ supply h rs.storage accounts ∧
    (r.isSome = true → (∀ a b, tx.spawns h a → bal h rs.storage a = some b → b = 0) →
      supply h rs'.storage accounts = supply h rs.storage accounts) := by
  obtain ⟨burnt, h1, -, h2⟩ := perform_total hc (hr.ok hc).1 chk eng pr o tx hl.nodup (lists_of hc hl.before)
    (by rw [hx]; exact lists_of hc hl.after)
  rw [hx] at h2
  rw [supply_total hc, supply_total hc]
  refine ⟨(h2 he).1, fun hsome hfree => ?_⟩
  have := (h2 he).2 hsome
  rcases h1 with rfl | ⟨a, ha, rfl⟩
  · exact this
  · have h0 : coins (view h rs.storage) a = 0 := by
      rw [coins_bal hc]
      cases hb : bal h rs.storage a with
      | none => rfl
      | some b => rw [hfree a b ha hb]; rfl
    rw [h0] at this
    exact this

/-- C91, what a spawn with a success receipt does, for programs that do not transfer to the account
they transfer from: the coins that the account at the computed address had are gone. -/
theorem C91_spawn_burns {h : Hasher} (hc : NoCollision h) {rs rs' : RState}
    (hr : Reach h rs.storage) (chk : Bool) (eng : Engine) (he : eng.Pays (· ≠ ·)) (pr : Pricer)
    (o : Orders) (envelope : Envelope) (message rest : Bytes) (sp : SpawnAccount) (r : SpawnReceipt)
    (hd : decSpawn message = .ok (sp, rest))
    (hx : spawn chk h o eng pr envelope message rs = (rs', some r)) (hs : r.success = true)
    (accounts : List Addr) (hl : AllHolders h rs.storage rs'.storage accounts) :
    supply h rs'.storage accounts +
      ((bal h rs.storage (computeAccountAddr h sp)).map BitVec.toNat).getD 0 =
        supply h rs.storage accounts := by
  rcases spawn_view hc (hr.ok hc).1 chk o eng pr envelope message with
    ⟨-, h2⟩ | ⟨sp', rest', hd', h1, h2⟩
  · rw [hx] at h2
    rw [h2 r rfl] at hs
    cases hs
  · rw [hd] at hd'
    cases hd'
    rw [hx] at h1 h2
    have hl' := lists_of hc hl.after
    rw [h1] at hl'
    have := ((spawnProg_total sp (view h rs.storage) hl.nodup (lists_of hc hl.before) hl').2 he).2
      (h2 rfl)
    rw [supply_total hc, supply_total hc, ← coins_bal hc, h1]
    exact this

/-- Transactions one after another, all with receipts, whose spawns do not hit an account with
coins. -/
inductive Hist (chk : Bool) (h : Hasher) (eng : Engine) (pr : Pricer) : RState → RState → Prop where
  | nil (rs : RState) : Hist chk h eng pr rs rs
  | step {rs rs1 rs2 : RState} (o : Orders) (tx : Tx) (r : TxReceipt) :
      perform chk h eng pr o rs tx = (rs1, some r) →
      (∀ a b, tx.spawns h a → bal h rs.storage a = some b → b = 0) →
      Hist chk h eng pr rs1 rs2 → Hist chk h eng pr rs rs2

/-- Accounts do not disappear. -/
theorem perform_holders {h : Hasher} (hc : NoCollision h) {rs : RState} (hi : Inv rs.storage)
    (chk : Bool) (eng : Engine) (pr : Pricer) (o : Orders) (tx : Tx) (a : Addr)
    (ha : (money (view h rs.storage) a).isSome = true) :
    (money (view h (perform chk h eng pr o rs tx).1.storage) a).isSome = true := by
  cases tx with
  | deploy e m =>
    show (money (view h (deploy chk h e m rs.storage).1) a).isSome = true
    rw [money_accMut (deploy_keeps hc rs.storage chk e m _ (fun _ h => by cases h)
      (fun _ h => by cases h))]
    exact ha
  | verify m =>
    show (money (view h (verify chk h o eng m rs.storage).1) a).isSome = true
    rw [C28_verify_pure]
    exact ha
  | call m =>
    show (money (view h (call chk h o eng m rs.storage).1) a).isSome = true
    rcases call_view hc hi chk o eng m with ⟨tx, rest, hd, h1, -⟩ | ⟨-, h2⟩
    · rw [h1, (flows_txProg chk eng eng.pays_any tx .fullAccess tx.funcName tx.calldata
        (view h rs.storage)).holders]
      exact ha
    · rw [h2]; exact ha
  | spawn e m =>
    show (money (view h (spawn chk h o eng pr e m rs).1.storage) a).isSome = true
    rcases spawn_view hc hi chk o eng pr e m with ⟨h1, -⟩ | ⟨sp, rest, hd, h1, -⟩
    · rw [h1]; exact ha
    · rw [h1]
      unfold spawnProg
      rw [Prog.eval_bind]
      rcases createAccount_cases chk (computeAccountAddr h sp) sp.templateAddr sp.name
        (view h rs.storage) with ⟨g1, g2⟩ | ⟨g1, g2⟩
      · generalize (createAccount chk (computeAccountAddr h sp) sp.templateAddr sp.name 0 0).eval
          (view h rs.storage) = x at *
        obtain ⟨w1, o1⟩ := x
        simp only at g1 g2
        subst g1
        simp only
        rw [(flows_exec chk eng eng.pays_any (ctorCall h sp) w1).holders, g2]
        split
        · rfl
        · exact ha
      · generalize (createAccount chk (computeAccountAddr h sp) sp.templateAddr sp.name 0 0).eval
          (view h rs.storage) = x at *
        obtain ⟨w1, o1⟩ := x
        simp only at g1 g2
        subst g2
        cases o1 with
        | ok u => cases g1
        | err | panic => exact ha

theorem Hist.holders {chk : Bool} {h : Hasher} (hc : NoCollision h) {eng : Engine} {pr : Pricer}
    {rs rs' : RState} (hh : Hist chk h eng pr rs rs') (hr : Reach h rs.storage) (a : Addr)
    (ha : (money (view h rs.storage) a).isSome = true) :
    (money (view h rs'.storage) a).isSome = true := by
  induction hh with
  | nil => exact ha
  | step o tx r hx _ _ ih =>
    have h1 := perform_holders hc (hr.ok hc).1 chk eng pr o tx a ha
    have h2 := reach_perform hr chk eng pr o tx
    rw [hx] at h1 h2
    exact ih h2 h1

/-- C91 over a whole history: any number of transactions of any kind, under the same two conditions,
leaves the total of all balances as it was. -/
theorem C91_history_partial {h : Hasher} (hc : NoCollision h) {rs rs' : RState}
    (hr : Reach h rs.storage) (chk : Bool) (eng : Engine) (he : eng.Pays (· ≠ ·)) (pr : Pricer)
    (hh : Hist chk h eng pr rs rs') (accounts : List Addr)
    (hl : AllHolders h rs.storage rs'.storage accounts) :
    supply h rs'.storage accounts = supply h rs.storage accounts := by
  induction hh with
  | nil => rfl
  | @step rs rs1 rs2 o tx r hx hfree hrest ih =>
    have h2 := reach_perform hr chk eng pr o tx
    rw [hx] at h2
    have hmid : ∀ a b, bal h rs1.storage a = some b → a ∈ accounts := by
      intro a b hb
      rw [bal_money hc] at hb
      obtain ⟨d, hd, -⟩ := Option.map_eq_some_iff.1 hb
      have := hrest.holders hc h2 a (by rw [hd]; rfl)
      obtain ⟨d', hd'⟩ := Option.isSome_iff_exists.1 this
      exact lists_of hc hl.after a d' hd'
    rw [ih h2 ⟨hl.nodup, hmid, hl.after⟩]
    exact (C91_conserved_partial hc hr chk eng he pr o tx (some r) hx accounts
      ⟨hl.nodup, hl.before, hmid⟩).2 rfl hfree

/-- A module whose function `go` transfers coins between accounts 1 and 2 (whose addresses are at 0
and 20 of the memory); all others return. -/
def payModule (src dst : U32) (amount : U64) : Module :=
  { σ := Unit
    linkError := none
    start := .ret () []
    hasMemory := true
    sig := fun _ => some .nullary
    invoke := fun _ f _ mem =>
      if f.1 = [103, 111] then .call demoMem (.transfer src dst amount) fun _ m => .ret ((), []) m
      else .ret ((), []) mem }

/-- Every code section is compiled to this module. -/
def payEngine (src dst : U32) (amount : U64) : Engine := fun _ => .ok (payModule src dst amount)

theorem demo_pays {h : Hasher} (hc : NoCollision h) (dst : U32) (hdst : dst = 0 ∨ dst = 20) :
    ∃ s' r, call true h ⟨.id, .id⟩ (payEngine 0 dst 3) (demoMessage goName) (demoCommitted h) =
      (s', some r) ∧ r.success = true := by
  obtain ⟨fp, hp, h0⟩ := demoCommitted_published hc
  rcases hdst with rfl | rfl
  · refine call_returns ((reach_demoCommitted h).ok hc).1 (by omega) demo_decode_go
      (env := { demoEnv.touch (exampleAddr 1) with logs := [] }) (mem := demoMem) (logs := [])
      (data := []) ?_ rfl rfl
    rw [out_eval hc, view_demoCommitted hc]
    decide +kernel
  · refine call_returns ((reach_demoCommitted h).ok hc).1 (by omega) demo_decode_go
      (env := { (demoEnv.touch (exampleAddr 1)).touch (exampleAddr 2) with logs := [] })
      (mem := demoMem) (logs := []) (data := []) ?_ rfl rfl
    rw [out_eval hc, view_demoCommitted hc]
    decide +kernel

theorem payEngine_pays : (payEngine 0 20 3).Pays (· ≠ ·) := by
  intro code m hm
  cases hm
  refine ⟨trivial, fun st f args mem => ?_⟩
  simp only [payModule]
  split
  · refine ⟨fun src dst amount hx _ a b ha hb hab => ?_, fun _ _ => trivial⟩
    cases hx
    rw [hab, hb] at ha
    revert ha
    decide
  · trivial

theorem demo_holders {h : Hasher} (hc : NoCollision h) (a : Addr) (b : U64)
    (hb : bal h (demoCommitted h) a = some b) : a ∈ [exampleAddr 1, exampleAddr 2] := by
  rw [bal_money hc, view_demoCommitted hc] at hb
  by_cases h1 : a = exampleAddr 1
  · simp [h1]
  · by_cases h2 : a = exampleAddr 2
    · simp [h2]
    · exfalso
      have : demoView 10 5 (.accMut a) = none := by
        have hw : Writes (fun k => k ≠ .accMut a) (demoSetup 10 5) := by
          have hcr : ∀ x b, a ≠ x → Writes (fun k => k ≠ .accMut a)
              (create true x ⟨[], rfl⟩ demoTemplate b 0) := fun x b hx =>
            (writes_create _ _ _ _ _ _).mono fun k hk e => by
              subst e
              rcases hk with hk | hk
              · cases hk
              · cases hk; exact hx rfl
          refine ((writes_createTemplate _ _ _).mono fun k hk e => by
            subst e; rcases hk with hk | hk <;> cases hk).bind fun _ => ?_
          exact (hcr _ _ h1).bind fun _ => (hcr _ _ h2).bind fun _ => trivial
        exact hw.eval _ _ (fun hk => hk rfl)
      unfold money at hb
      rw [this] at hb
      cases hb

/-- A call of `go`, with the accounts that have coins. -/
theorem demo_perform {h : Hasher} (hc : NoCollision h) (dst : U32) (hdst : dst = 0 ∨ dst = 20) :
    ∃ s' r, perform true h (payEngine 0 dst 3) flatPricer ⟨.id, .id⟩ ⟨demoCommitted h, []⟩
      (.call (demoMessage goName)) = (⟨s', []⟩, some r) ∧
    view h s' = ((txProg true (payEngine 0 dst 3) (demoTx goName) .fullAccess goName []).eval
      (demoView 10 5)).1 ∧
    AllHolders h (demoCommitted h) s' [exampleAddr 1, exampleAddr 2] := by
  obtain ⟨s', r, h1, h2⟩ := demo_pays hc dst hdst
  have hv : view h s' = ((txProg true (payEngine 0 dst 3) (demoTx goName) .fullAccess goName []).eval
      (demoView 10 5)).1 := by
    rcases call_view hc ((reach_demoCommitted h).ok hc).1 true ⟨.id, .id⟩ (payEngine 0 dst 3)
      (demoMessage goName) with ⟨tx, rest, hd, g1, -⟩ | ⟨g1, -⟩
    · rw [demo_decode_go] at hd
      cases hd
      rw [h1, view_demoCommitted hc] at g1
      exact g1
    · exact absurd demo_decode_go (g1 _)
  have hx : perform true h (payEngine 0 dst 3) flatPricer ⟨.id, .id⟩ ⟨demoCommitted h, []⟩
      (.call (demoMessage goName)) = (⟨s', []⟩, some (.call r)) := by
    unfold perform
    simp only [h1]
    rfl
  have hw := flows_txProg true (payEngine 0 dst 3) (Engine.pays_any _) (demoTx goName) .fullAccess
    goName [] (demoView 10 5)
  refine ⟨s', _, hx, hv, by decide, demo_holders hc, fun a b hb => ?_⟩
  rw [bal_money hc] at hb
  obtain ⟨d, hd, -⟩ := Option.map_eq_some_iff.1 hb
  have e := hw.holders a
  rw [← hv, hd, ← view_demoCommitted hc] at e
  obtain ⟨d', hd'⟩ := Option.isSome_iff_exists.1 e.symm
  exact demo_holders hc a d'.balance (by rw [bal_money hc, hd']; rfl)

/-- C91 is violated. -/
theorem C91_claim_false : ¬ C91_claim := by
  intro hcl
  obtain ⟨h, hc⟩ := exists_noCollision
  obtain ⟨s', r, hx, hv, hl⟩ := demo_perform hc 0 (.inl rfl)
  have := hcl h hc true (payEngine 0 0 3) flatPricer ⟨.id, .id⟩ _ _ _ _ (reach_demoCommitted h) hx _
    hl
  rw [supply_total hc, supply_total hc, view_demoCommitted hc, hv] at this
  revert this
  decide +kernel


/-- Non-vacuity of C91: a history of one call that pays three coins to another account. -/
example : ∃ h, NoCollision h ∧ (payEngine 0 20 3).Pays (· ≠ ·) ∧ ∃ s',
    Reach h (demoCommitted h) ∧
    Hist true h (payEngine 0 20 3) flatPricer ⟨demoCommitted h, []⟩ ⟨s', []⟩ ∧
    AllHolders h (demoCommitted h) s' [exampleAddr 1, exampleAddr 2] ∧
    bal h (demoCommitted h) (exampleAddr 1) = some 10 ∧ bal h s' (exampleAddr 1) = some 7 := by
  obtain ⟨h, hc⟩ := exists_noCollision
  obtain ⟨s', r, hx, hv, hl⟩ := demo_perform hc 20 (.inr rfl)
  refine ⟨h, hc, payEngine_pays, s', reach_demoCommitted h,
    .step _ _ _ hx (fun a b ha => ha.elim) (.nil _), hl, ?_, ?_⟩
  · rw [bal_money hc, view_demoCommitted hc]
    decide +kernel
  · rw [bal_money hc, hv]
    decide +kernel

/-- The demo world with an account at the address of `demoSpawn`, with 3 coins and the counter 5. -/
def demoTaken (h : Hasher) : Storage :=
  after h (createStub (computeAccountAddr h (demoSpawn aName)) aName 3 5) (demoCommitted h)

theorem writes_createStub (a : Addr) (nm : Str) (b : U64) (c : U128) :
    Writes (fun k => k = .accData a ∨ k = .accMut a) (createStub a nm b c) := by
  refine Writes.bind ?_ fun _ => Writes.bind ?_ fun _ => trivial
  · unfold encodeAndWrite
    split
    · exact ⟨.inl rfl, trivial⟩
    · trivial
  · unfold encodeAndWrite
    split
    · exact ⟨.inr rfl, trivial⟩
    · trivial

theorem ready_demoTaken {h : Hasher} (hc : NoCollision h) : Ready h (demoTaken h) := by
  have hr := ready_demo hc
  refine ⟨.prog _ (safe_createStub _ _ _ _) hr.reach, ?_, ?_, ?_⟩
  · show 0 ≤ (after h _ (demoCommitted h)).next.id
    rw [show (after h (createStub (computeAccountAddr h (demoSpawn aName)) aName 3 5)
      (demoCommitted h)).next = (demoCommitted h).next from (Prog.run_frame h _ _).2]
    exact hr.id
  · unfold demoTaken
    rw [view_after hc, (writes_createStub _ _ _ _).eval _ _ (by simp)]
    exact hr.core
  · unfold demoTaken
    rw [view_after hc, (writes_createStub _ _ _ _).eval _ _ (by simp)]
    exact hr.noncore

theorem money_demoTaken {h : Hasher} (hc : NoCollision h) :
    money (view h (demoTaken h)) (computeAccountAddr h (demoSpawn aName)) = some ⟨3, 5⟩ := by
  unfold demoTaken
  rw [view_after hc]
  have e : ∀ (a : Addr) (w : View), ((createStub a aName 3 5).eval w).1 (.accMut a) =
      some (mutBytes ⟨3, 5⟩) := by
    intro a w
    show View.set (View.set w (.accData a) ((encAccountData ⟨aName, stubTemplate⟩).getD []))
      (.accMut a) (mutBytes ⟨3, 5⟩) (.accMut a) = _
    rw [View.set_self]
  unfold money
  rw [e]
  decide +kernel

theorem demo_spawn_taken {h : Hasher} (hc : NoCollision h) :
    decSpawn (demoSpawnMsg aName) = .ok (demoSpawn aName, []) ∧ ∃ rs' r,
    spawn true h ⟨.id, .id⟩ idleEngine flatPricer demoEnvelope (demoSpawnMsg aName)
      ⟨demoTaken h, []⟩ = (rs', some r) ∧ r.success = true ∧ Reach h rs'.storage := by
  have d2 : decSpawn (demoSpawnMsg aName) = .ok (demoSpawn aName, []) := by decide +kernel
  obtain ⟨rs1, r0, a1, a2, a3, a4⟩ := demo_spawn_succeeds hc (rs := ⟨demoTaken h, []⟩)
    (ready_demoTaken hc) (.inl rfl) aName (by decide) d2 (by decide +kernel)
  exact ⟨d2, rs1, r0, a1, a2, a3.reach⟩

/-- Non-vacuity of the burning spawn: it succeeds over an account with coins. -/
example : ∃ h, NoCollision h ∧ Reach h (demoTaken h) ∧ idleEngine.Pays (· ≠ ·) ∧
    bal h (demoTaken h) (computeAccountAddr h (demoSpawn aName)) = some 3 ∧
    decSpawn (demoSpawnMsg aName) = .ok (demoSpawn aName, []) ∧ ∃ rs' r,
    spawn true h ⟨.id, .id⟩ idleEngine flatPricer demoEnvelope (demoSpawnMsg aName)
      ⟨demoTaken h, []⟩ = (rs', some r) ∧ r.success = true := by
  obtain ⟨h, hc⟩ := exists_noCollision
  obtain ⟨d, rs', r, h1, h2, -⟩ := demo_spawn_taken hc
  refine ⟨h, hc, (ready_demoTaken hc).reach, ?_, ?_, d, rs', r, h1, h2⟩
  · intro code m hm
    cases hm
    exact ⟨trivial, fun _ _ _ _ => trivial⟩
  · rw [bal_money hc, money_demoTaken hc]
    rfl

/-! ## C92 -/

/-- The counter of an account as the getter reports it. -/
def ctr (h : Hasher) (s : Storage) (a : Addr) : Option U128 :=
  match out h (counter (handle a)) s with
  | .ok c => some c
  | _ => none

/-- The claim of C92: no transaction, whatever its outcome, lowers the nonce counter of an account. -/
def C92_claim : Prop :=
  ∀ (h : Hasher), NoCollision h → ∀ (chk : Bool) (eng : Engine) (pr : Pricer) (o : Orders)
    (rs : RState) (tx : Tx), Reach h rs.storage → ∀ a c, ctr h rs.storage a = some c →
    ∃ c', ctr h (perform chk h eng pr o rs tx).1.storage a = some c' ∧ c.toNat ≤ c'.toNat

theorem ctr_money {h : Hasher} (hc : NoCollision h) (s : Storage) (a : Addr) :
    ctr h s a = (money (view h s) a).map AccountMut.counter := by
  unfold ctr
  rw [out_eval hc]
  cases hm : money (view h s) a with
  | some d => rw [counter_eval (acc := handle a) hm]; rfl
  | none =>
    cases hb : ((counter (handle a)).eval (view h s)).2 with
    | ok c =>
      exfalso
      unfold counter at hb
      rw [Prog.bind_eq, Prog.eval_bind] at hb
      cases hr : (readAndDecode decAccountMut (.accMut (handle a).addr)).eval (view h s) with
      | mk w1 x =>
        rw [hr] at hb
        cases x with
        | ok d =>
          have e : money (view h s) a = some d := (read_money hr).2
          rw [hm] at e
          cases e
        | err | panic => cases hb
    | err | panic => rfl

/-- What a transaction does to the balance records: transfers, and at most one new record. -/
theorem perform_flow {P : Addr → Addr → Prop} {h : Hasher} (hc : NoCollision h) {rs : RState}
    (hi : Inv rs.storage) (chk : Bool) (eng : Engine) (he : eng.Pays P) (pr : Pricer)
    (o : Orders) (tx : Tx) :
    ∃ w1 b, Flow P w1 b (view h (perform chk h eng pr o rs tx).1.storage) ∧
      ((∀ a, money w1 a = money (view h rs.storage) a) ∨ ∃ x, tx.spawns h x ∧
        ∀ a, money w1 a = if a = x then some ⟨0, 0⟩ else money (view h rs.storage) a) := by
  have hsame : (∀ a, view h (perform chk h eng pr o rs tx).1.storage (.accMut a) =
      view h rs.storage (.accMut a)) → ∃ w1 b,
        Flow P w1 b (view h (perform chk h eng pr o rs tx).1.storage) ∧
      ((∀ a, money w1 a = money (view h rs.storage) a) ∨ ∃ x, tx.spawns h x ∧
        ∀ a, money w1 a = if a = x then some ⟨0, 0⟩ else money (view h rs.storage) a) :=
    fun e => ⟨view h rs.storage, true, .same e, .inl fun _ => rfl⟩
  cases tx with
  | deploy e m =>
    exact hsame fun a => deploy_keeps hc rs.storage chk e m _ (fun _ h => by cases h)
      (fun _ h => by cases h)
  | verify m =>
    refine hsame fun a => ?_
    show view h (verify chk h o eng m rs.storage).1 _ = _
    rw [C28_verify_pure]
  | call m =>
    rcases call_view hc hi chk o eng m with ⟨tx, rest, hd, h1, h2⟩ | ⟨h1, h2⟩
    · refine ⟨view h rs.storage, isOk ((txProg chk eng tx .fullAccess tx.funcName
        tx.calldata).eval (view h rs.storage)).2, ?_, .inl fun _ => rfl⟩
      · show Flow P _ _ (view h (call chk h o eng m rs.storage).1)
        rw [h1]
        exact flows_txProg chk eng he tx .fullAccess tx.funcName tx.calldata (view h rs.storage)
    · refine hsame fun a => ?_
      show view h (call chk h o eng m rs.storage).1 _ = _
      rw [h2]
  | spawn e m =>
    rcases spawn_view hc hi chk o eng pr e m with ⟨h1, h2⟩ | ⟨sp, rest, hd, h1, h2⟩
    · refine hsame fun a => ?_
      show view h (spawn chk h o eng pr e m rs).1.storage _ = _
      rw [h1]
    · show ∃ w1 b, Flow P w1 b (view h (spawn chk h o eng pr e m rs).1.storage) ∧ _
      rw [h1]
      unfold spawnProg
      rw [Prog.eval_bind]
      rcases createAccount_cases chk (computeAccountAddr h sp) sp.templateAddr sp.name
        (view h rs.storage) with ⟨g1, g2⟩ | ⟨g1, g2⟩
      · generalize (createAccount chk (computeAccountAddr h sp) sp.templateAddr sp.name 0 0).eval
          (view h rs.storage) = x at *
        obtain ⟨w1, o1⟩ := x
        simp only at g1 g2
        subst g1
        exact ⟨w1, _, flows_exec chk eng he (ctorCall h sp) w1,
          .inr ⟨_, ⟨sp, rest, hd, rfl⟩, g2⟩⟩
      · generalize (createAccount chk (computeAccountAddr h sp) sp.templateAddr sp.name 0 0).eval
          (view h rs.storage) = x at *
        obtain ⟨w1, o1⟩ := x
        simp only at g1 g2
        subst g2
        cases o1 with
        | ok u => cases g1
        | err | panic => exact ⟨_, true, .same fun _ => rfl, .inl fun _ => rfl⟩

/-- C92, what every transaction does, whatever its outcome and for all programs: no counter changes
(calls, verifications and deploys never advance one), except that a spawn may set that of the account
at the computed address to zero. -/
theorem C92_counters {h : Hasher} (hc : NoCollision h) {rs : RState} (hr : Reach h rs.storage)
    (chk : Bool) (eng : Engine) (pr : Pricer) (o : Orders) (tx : Tx) (a : Addr) :
    ctr h (perform chk h eng pr o rs tx).1.storage a = ctr h rs.storage a ∨
    (tx.spawns h a ∧ ctr h (perform chk h eng pr o rs tx).1.storage a = some 0) := by
  obtain ⟨w1, b, h1, h2⟩ := perform_flow hc (hr.ok hc).1 chk eng eng.pays_any pr o tx
  rw [ctr_money hc, ctr_money hc, h1.counters a]
  rcases h2 with h2 | ⟨x, hx, h2⟩
  · exact .inl (by rw [h2])
  · by_cases e : a = x
    · subst e
      exact .inr ⟨hx, by rw [h2, if_pos rfl]; rfl⟩
    · exact .inl (by rw [h2, if_neg e])

/-- C92 under the condition that it needs: the transaction does not spawn over the account, or its
counter is zero. Missing: the code does not check whether the computed address is taken. -/
theorem C92_monotone_partial {h : Hasher} (hc : NoCollision h) {rs : RState}
    (hr : Reach h rs.storage) (chk : Bool) (eng : Engine) (pr : Pricer) (o : Orders) (tx : Tx)
    (a : Addr) (c : U128) (ha : ctr h rs.storage a = some c) (hfree : tx.spawns h a → c = 0) :
    ctr h (perform chk h eng pr o rs tx).1.storage a = some c := by
  rcases C92_counters hc hr chk eng pr o tx a with h1 | ⟨h1, h2⟩
  · rw [h1, ha]
  · rw [h2, hfree h1]

/-- C92, universal violation: after every spawn with a success receipt, the counter of the account is
zero, whatever it was before. -/
theorem C92_spawn_resets {h : Hasher} (hc : NoCollision h) {rs rs' : RState}
    (hr : Reach h rs.storage) (chk : Bool) (eng : Engine) (pr : Pricer) (o : Orders)
    (envelope : Envelope) (message rest : Bytes) (sp : SpawnAccount) (r : SpawnReceipt)
    (hd : decSpawn message = .ok (sp, rest))
    (hx : spawn chk h o eng pr envelope message rs = (rs', some r)) (hs : r.success = true) :
    ctr h rs'.storage (computeAccountAddr h sp) = some 0 := by
  rcases spawn_view hc (hr.ok hc).1 chk o eng pr envelope message with
    ⟨-, h2⟩ | ⟨sp', rest', hd', h1, h2⟩
  · rw [hx] at h2
    rw [h2 r rfl] at hs
    cases hs
  · rw [hd] at hd'
    cases hd'
    rw [hx] at h1 h2
    rw [ctr_money hc, h1]
    have h3 := h2 rfl
    unfold spawnProg at h3 ⊢
    rw [Prog.eval_bind] at h3 ⊢
    rcases createAccount_cases chk (computeAccountAddr h sp) sp.templateAddr sp.name
      (view h rs.storage) with ⟨g1, g2⟩ | ⟨g1, g2⟩
    · generalize (createAccount chk (computeAccountAddr h sp) sp.templateAddr sp.name 0 0).eval
        (view h rs.storage) = x at *
      obtain ⟨w1, o1⟩ := x
      simp only at g1 g2
      subst g1
      simp only
      rw [(flows_exec chk eng eng.pays_any (ctorCall h sp) w1).counters, g2, if_pos rfl]
      rfl
    · generalize (createAccount chk (computeAccountAddr h sp) sp.templateAddr sp.name 0 0).eval
        (view h rs.storage) = x at *
      obtain ⟨w1, o1⟩ := x
      cases o1 with
      | ok u => cases g1
      | err | panic => cases h3

/-- C92 is violated. -/
theorem C92_claim_false : ¬ C92_claim := by
  intro hcl
  obtain ⟨h, hc⟩ := exists_noCollision
  obtain ⟨d, rs', r, h1, h2, -⟩ := demo_spawn_taken hc
  have h3 := C92_spawn_resets hc (ready_demoTaken hc).reach true idleEngine flatPricer _ _ _ _ _ _ d
    h1 h2
  obtain ⟨c', h4, h5⟩ := hcl h hc true idleEngine flatPricer ⟨.id, .id⟩ ⟨demoTaken h, []⟩
    (.spawn demoEnvelope (demoSpawnMsg aName)) (ready_demoTaken hc).reach
    (computeAccountAddr h (demoSpawn aName)) 5 (by rw [ctr_money hc, money_demoTaken hc]; rfl)
  unfold perform at h4
  simp only [h1] at h4
  rw [h3] at h4
  cases h4
  revert h5
  decide

/-- Non-vacuity of C92: a counter that is not zero, in a world where a call returns. -/
example : ∃ h, NoCollision h ∧ Reach h (demoTaken h) ∧ ∃ a, ctr h (demoTaken h) a = some 5 := by
  obtain ⟨h, hc⟩ := exists_noCollision
  exact ⟨h, hc, (ready_demoTaken hc).reach, computeAccountAddr h (demoSpawn aName), by
    rw [ctr_money hc, money_demoTaken hc]; rfl⟩

/-! ## C93 -/

/-- The claim of C93: the balance of an account that no program ever transfers from does not
decrease by a transaction, whatever its outcome. -/
def C93_claim : Prop :=
  ∀ (h : Hasher), NoCollision h → ∀ (chk : Bool) (eng : Engine) (pr : Pricer) (o : Orders)
    (rs : RState) (tx : Tx) (a : Addr), Reach h rs.storage → eng.Pays (fun src _ => src ≠ a) →
    ∀ b, bal h rs.storage a = some b →
    ∃ b', bal h (perform chk h eng pr o rs tx).1.storage a = some b' ∧ b.toNat ≤ b'.toNat

theorem Flow.kept {v : Addr} {w w' : View} {b : Bool} (h : Flow (fun src _ => src ≠ v) w b w') :
    ∀ d, money w v = some d → ∃ d', money w' v = some d' ∧ d.balance.toNat ≤ d'.balance.toNat := by
  induction h with
  | same h => exact fun d hd => ⟨d, by rw [money_accMut (h v)]; exact hd, Nat.le_refl _⟩
  | pay src dst ds dd amount hp g1 g2 g3 g4 g5 _ ih =>
    intro d hd
    have hm := money_accMut (g5 v)
    rw [money_moved] at hm
    by_cases e : v = dst
    · subst e
      rw [if_pos rfl] at hm
      rw [hd] at g2
      cases g2
      obtain ⟨d', h1, h2⟩ := ih _ hm
      refine ⟨d', h1, ?_⟩
      simp only [BitVec.toNat_add] at h2
      rw [Nat.mod_eq_of_lt g4] at h2
      omega
    · rw [if_neg e, if_neg (Ne.symm hp), hd] at hm
      exact ih d hm
  | lost src dst ds amount hp h1 h2 h3 =>
    intro d hd
    refine ⟨d, ?_, Nat.le_refl _⟩
    rw [money_accMut (h3 v)]
    unfold debited
    rw [money_set, if_neg (Ne.symm hp)]
    exact hd

/-- C93 under the condition that it needs: the transaction does not spawn over the account. -/
theorem C93_kept_partial {h : Hasher} (hc : NoCollision h) {rs : RState}
    (hr : Reach h rs.storage) (chk : Bool) (eng : Engine) (pr : Pricer) (o : Orders) (tx : Tx)
    (a : Addr) (he : eng.Pays (fun src _ => src ≠ a)) (b : U64)
    (ha : bal h rs.storage a = some b) (hfree : ¬ tx.spawns h a) :
    ∃ b', bal h (perform chk h eng pr o rs tx).1.storage a = some b' ∧ b.toNat ≤ b'.toNat := by
  obtain ⟨w1, t, h1, h2⟩ := perform_flow hc (hr.ok hc).1 chk eng he pr o tx
  rw [bal_money hc] at ha ⊢
  obtain ⟨d, hd, rfl⟩ := Option.map_eq_some_iff.1 ha
  have hm : money w1 a = some d := by
    rcases h2 with h2 | ⟨x, hx, h2⟩
    · rw [h2, hd]
    · rw [h2, if_neg (fun e : a = x => hfree (by rw [e]; exact hx)), hd]
  obtain ⟨d', g1, g2⟩ := h1.kept d hm
  exact ⟨_, by rw [g1]; rfl, g2⟩

/-- C93 is violated: a spawn takes all coins of the account at the computed address. -/
theorem C93_claim_false : ¬ C93_claim := by
  intro hcl
  obtain ⟨h, hc⟩ := exists_noCollision
  obtain ⟨d, rs', r, h1, h2, -⟩ := demo_spawn_taken hc
  obtain ⟨b', h4, h5⟩ := hcl h hc true idleEngine flatPricer ⟨.id, .id⟩ ⟨demoTaken h, []⟩
    (.spawn demoEnvelope (demoSpawnMsg aName)) (computeAccountAddr h (demoSpawn aName))
    (ready_demoTaken hc).reach (by intro code m hm; cases hm; exact ⟨trivial, fun _ _ _ _ => trivial⟩)
    3 (by rw [bal_money hc, money_demoTaken hc]; rfl)
  rcases spawn_view hc ((ready_demoTaken hc).reach.ok hc).1 true ⟨.id, .id⟩ idleEngine flatPricer
    demoEnvelope (demoSpawnMsg aName) (rs := ⟨demoTaken h, []⟩) with
    ⟨-, g2⟩ | ⟨sp', rest', hd', g1, g2⟩
  · rw [h1] at g2
    rw [g2 r rfl] at h2
    cases h2
  · rw [d] at hd'
    cases hd'
    unfold perform at h4
    simp only [h1] at h4
    rw [h1] at g1 g2
    rw [bal_money hc, g1] at h4
    have g3 := g2 rfl
    unfold spawnProg at g3 h4
    rw [Prog.eval_bind] at g3 h4
    rcases createAccount_cases true (computeAccountAddr h (demoSpawn aName))
      (demoSpawn aName).templateAddr (demoSpawn aName).name (view h (demoTaken h)) with
      ⟨k1, k2⟩ | ⟨k1, k2⟩
    · generalize (createAccount true (computeAccountAddr h (demoSpawn aName))
        (demoSpawn aName).templateAddr (demoSpawn aName).name 0 0).eval
        (view h (demoTaken h)) = x at *
      obtain ⟨w1, o1⟩ := x
      simp only at k1 k2
      subst k1
      simp only at h4
      have hfl : ∀ {w b w'}, Flow (fun _ _ => False) w b w' → ∀ a, money w' a = money w a := by
        intro w b w' hf a
        cases hf with
        | same h => exact money_accMut (h a)
        | pay _ _ _ _ _ hp => exact hp.elim
        | lost _ _ _ _ hp => exact hp.elim
      rw [hfl (flows_exec true idleEngine
        (by intro code m hm; cases hm; exact ⟨trivial, fun _ _ _ _ => trivial⟩) _ w1), k2,
        if_pos rfl] at h4
      cases h4
      revert h5
      decide
    · generalize (createAccount true (computeAccountAddr h (demoSpawn aName))
        (demoSpawn aName).templateAddr (demoSpawn aName).name 0 0).eval
        (view h (demoTaken h)) = x at *
      obtain ⟨w1, o1⟩ := x
      cases o1 with
      | ok u => cases k1
      | err | panic => cases g3

/-- Non-vacuity of C93: no transfer from account 2, which has coins; a call pays it. -/
example : ∃ h, NoCollision h ∧ Reach h (demoCommitted h) ∧
    (payEngine 0 20 3).Pays (fun src _ => src ≠ exampleAddr 2) ∧
    bal h (demoCommitted h) (exampleAddr 2) = some 5 ∧
    ¬ (Tx.call (demoMessage goName)).spawns h (exampleAddr 2) := by
  obtain ⟨h, hc⟩ := exists_noCollision
  refine ⟨h, hc, reach_demoCommitted h, ?_, ?_, fun hs => hs⟩
  · intro code m hm
    cases hm
    refine ⟨trivial, fun st f args mem => ?_⟩
    simp only [payModule]
    split
    · refine ⟨fun src dst amount hx _ a b ha hb hab => ?_, fun _ _ => trivial⟩
      cases hx
      rw [hab] at ha
      revert ha
      decide
    · trivial
  · rw [bal_money hc, view_demoCommitted hc]
    decide +kernel

end Svm.Runtime
