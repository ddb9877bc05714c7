import Verif.Runtime.Lemmas

/-!
# Properties C20 - C23: transfers of coins
-/

namespace Svm.Runtime

open Svm.Codec Svm.Account
open Svm.Storage (Hasher Storage)
open Svm.Layout (FixedLayout)

/-! ## Specification -/

/-- A handle to an account, only to call its getters. -/
def handle (a : Addr) : Acc := ⟨a, stubTemplate, FixedLayout.default⟩

/-- The balance of an account as the getter reports it. -/
def bal (h : Hasher) (s : Storage) (a : Addr) : Option U64 :=
  match out h (balance (handle a)) s with
  | .ok b => some b
  | _ => none

/-- The sum of the balances of some accounts. -/
def supply (h : Hasher) (s : Storage) (accounts : List Addr) : Nat :=
  (accounts.map fun a => ((bal h s a).map BitVec.toNat).getD 0).sum

/-- Nothing readable has changed except balances: names, templates, counters, variables and deployed
templates. -/
structure OnlyBalances (h : Hasher) (s s' : Storage) : Prop where
  names : ∀ acc, (fields h s' acc).1 = (fields h s acc).1
  templates : ∀ acc, (fields h s' acc).2.1 = (fields h s acc).2.1
  counters : ∀ acc, (fields h s' acc).2.2.2 = (fields h s acc).2.2.2
  vars : ∀ chk acc id buf, out h (getVar chk acc id buf) s' = out h (getVar chk acc id buf) s
  sections : ∀ chk t, out h (readSections chk t) s' = out h (readSections chk t) s

/-- Exactly `amount` coins have moved from `src` to `dst`. -/
structure Moved (h : Hasher) (s s' : Storage) (src dst : Addr) (amount : U64) : Prop where
  source : ∃ b b', bal h s src = some b ∧ bal h s' src = some b' ∧
    b'.toNat + amount.toNat = b.toNat
  destination : ∃ b b', bal h s dst = some b ∧ bal h s' dst = some b' ∧
    b'.toNat = b.toNat + amount.toNat
  others : ∀ a, a ≠ src → a ≠ dst → bal h s' a = bal h s a
  rest : OnlyBalances h s s'

/-! ## Lemmas -/

theorem bal_money {h : Hasher} (hc : NoCollision h) (s : Storage) (a : Addr) :
    bal h s a = (money (view h s) a).map AccountMut.balance := by
  unfold bal
  rw [out_eval hc]
  cases hm : money (view h s) a with
  | some d => rw [balance_eval (acc := handle a) hm]; rfl
  | none =>
    cases hb : ((balance (handle a)).eval (view h s)).2 with
    | ok b =>
      obtain ⟨_, d, hd, _⟩ := balance_ok (w' := ((balance (handle a)).eval (view h s)).1)
        (Prod.ext rfl hb)
      rw [show (handle a).addr = a from rfl, hm] at hd
      cases hd
    | err | panic => rfl

/-- Views that differ at most in balances: same keys except balance records, which have the same
counters. -/
structure SameButBalances (w w' : View) : Prop where
  keys : ∀ k, (∀ a, k ≠ .accMut a) → w' k = w k
  counters : ∀ acc, ((counter acc).eval w').2 = ((counter acc).eval w).2

theorem SameButBalances.refl (w : View) : SameButBalances w w := ⟨fun _ _ => rfl, fun _ => rfl⟩

theorem SameButBalances.trans {a b c : View} (h1 : SameButBalances a b) (h2 : SameButBalances b c) :
    SameButBalances a c :=
  ⟨fun k hk => (h2.keys k hk).trans (h1.keys k hk),
    fun acc => (h2.counters acc).trans (h1.counters acc)⟩

theorem sameButBalances_set {w : View} {a : Addr} {d : AccountMut} (hm : money w a = some d)
    (b : U64) : SameButBalances w (w.set (.accMut a) (mutBytes { d with balance := b })) := by
  constructor
  · intro k hk
    rw [View.set_ne _ _ (hk a)]
  · intro acc
    by_cases ha : acc.addr = a
    · have h1 : money w acc.addr = some d := by rw [ha]; exact hm
      have h2 := money_set w a acc.addr { d with balance := b }
      rw [if_pos ha] at h2
      rw [counter_eval h1, counter_eval h2]
    · exact map_congr _ (readAndDecode_congr _ _ (by rw [View.set_ne _ _ (by simp [ha])]))

theorem onlyBalances {h : Hasher} (hc : NoCollision h) {s s' : Storage}
    (hs : SameButBalances (view h s) (view h s')) : OnlyBalances h s s' := by
  have hk : ∀ acc : Acc, view h s' (.accData acc.addr) = view h s (.accData acc.addr) :=
    fun acc => hs.keys _ (by simp)
  constructor
  · intro acc
    show out h (name acc) s' = out h (name acc) s
    rw [out_eval hc, out_eval hc]
    exact map_congr _ (readAndDecode_congr _ _ (hk acc))
  · intro acc
    show out h (templateAddr acc) s' = out h (templateAddr acc) s
    rw [out_eval hc, out_eval hc]
    exact map_congr _ (readAndDecode_congr _ _ (hk acc))
  · intro acc
    show out h (counter acc) s' = out h (counter acc) s
    rw [out_eval hc, out_eval hc]
    exact hs.counters acc
  · intro chk acc id buf
    rw [out_eval hc, out_eval hc]
    exact getVar_congr _ _ _ _ fun i => hs.keys _ (by simp)
  · intro chk t
    rw [out_eval hc, out_eval hc]
    unfold readSections
    exact bind_congr (readAndDecode_view _ _ _) (readAndDecode_view _ _ _)
      (readAndDecode_congr _ _ (hs.keys _ (by simp))) fun core =>
      map_congr _ (readAndDecode_congr _ _ (hs.keys _ (by simp)))

/-- The view after the source was debited. -/
def debited (w : View) (src : Addr) (ds : AccountMut) (amount : U64) : View :=
  w.set (.accMut src) (mutBytes { ds with balance := ds.balance - amount })

/-- The view after source and destination were changed. -/
def moved (w : View) (src dst : Addr) (ds dd : AccountMut) (amount : U64) : View :=
  (debited w src ds amount).set (.accMut dst) (mutBytes { dd with balance := dd.balance + amount })

theorem money_debited {w : View} {src dst : Addr} {ds dd : AccountMut} {amount : U64}
    (h1 : money w src = some ds) (h2 : money w dst = some dd) :
    ∃ d, money (debited w src ds amount) dst = some d ∧ d.counter = dd.counter := by
  unfold debited
  rw [money_set]
  by_cases e : dst = src
  · subst e
    rw [h1] at h2
    cases h2
    exact ⟨_, if_pos rfl, rfl⟩
  · exact ⟨dd, by rw [if_neg e, h2], rfl⟩

theorem moveCoins_eval {w : View} {src dst : Acc} {ds dd : AccountMut} {amount : U64}
    (h1 : money w src.addr = some ds) (h2 : money w dst.addr = some dd) :
    (moveCoins src dst ds.balance dd.balance amount).eval w =
      if ds.balance.toNat < amount.toNat then (w, .panic)
      else if dd.balance.toNat + amount.toNat < 2 ^ 64 then
        (moved w src.addr dst.addr ds dd amount, .ok ())
      else (debited w src.addr ds amount, .panic) := by
  unfold moveCoins
  split
  · rfl
  · rw [Prog.bind_eq, Prog.eval_bind_ok (unwrap_ok.2 (setBalance_eval h1 _))]
    split
    · obtain ⟨d, hd, hcnt⟩ := money_debited (amount := amount) h1 h2
      have e := unwrap_ok.2 (setBalance_eval (acc := dst) hd (dd.balance + amount))
      unfold moved
      have : ({ d with balance := dd.balance + amount } : AccountMut) =
          { dd with balance := dd.balance + amount } := by
        cases d; cases dd; simp_all
      rw [this] at e
      exact e
    · rfl

/-- What can happen in a transfer: it stops before any write, or it gets to the two writes. -/
inductive Cases (w : View) (src dst : Addr) (amount : U64) :
    View → Bool → Prop where
  /-- Stopped before any write. -/
  | early : Cases w src dst amount w false
  /-- The source was debited, then the addition overflowed. -/
  | overflow (ds dd : AccountMut) : money w src = some ds → money w dst = some dd →
      amount.toNat ≤ ds.balance.toNat → 2 ^ 64 ≤ dd.balance.toNat + amount.toNat →
      Cases w src dst amount (debited w src ds amount) false
  /-- Completed. -/
  | done (ds dd : AccountMut) : money w src = some ds → money w dst = some dd →
      amount.toNat ≤ ds.balance.toNat → dd.balance.toNat + amount.toNat < 2 ^ 64 →
      Cases w src dst amount (moved w src dst ds dd amount) true

/-- Whether a program returned. -/
def isOk {ε α : Type} : Outcome ε α → Bool
  | .ok _ => true
  | _ => false

theorem Cases.bind {α β : Type} {w : View} {src dst : Addr} {amount : U64} {p : Prog α}
    {f : α → Prog β} (hp : ReadOnly p)
    (hf : ∀ a, p.eval w = (w, .ok a) →
      Cases w src dst amount ((f a).eval w).1 (isOk ((f a).eval w).2)) :
    Cases w src dst amount ((p.bind f).eval w).1 (isOk ((p.bind f).eval w).2) := by
  have hv := hp.eval w
  rw [Prog.eval_bind]
  cases e : p.eval w with
  | mk w' o =>
    rw [e] at hv
    simp only at hv
    subst hv
    cases o with
    | ok a => exact hf a e
    | err | panic => exact .early

theorem unwrap_load_addr {chk : Bool} {a : Addr} {w : View} {acc : Acc}
    (h : (load chk a).unwrap.eval w = (w, .ok acc)) : acc.addr = a :=
  (load_ok (unwrap_ok.1 h)).2.2.1

theorem unwrap_balance {w : View} {acc : Acc} {b : U64}
    (h : (balance acc).unwrap.eval w = (w, .ok b)) :
    ∃ d, money w acc.addr = some d ∧ d.balance = b :=
  (balance_ok (unwrap_ok.1 h)).2

/-- The common end of both transfer functions. -/
theorem move_cases {α : Type} {w : View} {src dst : Acc} (amount : U64) (a : α) :
    let p := ((balance src).unwrap.bind fun sb => (balance dst).unwrap.bind fun db =>
      (moveCoins src dst sb db amount).bind fun _ => .ret a)
    Cases w src.addr dst.addr amount (p.eval w).1 (isOk (p.eval w).2) := by
  intro p
  refine Cases.bind (readOnly_balance src).unwrap fun sb h1 => ?_
  refine Cases.bind (readOnly_balance dst).unwrap fun db h3 => ?_
  obtain ⟨ds, hs, rfl⟩ := unwrap_balance h1
  obtain ⟨dd, hd, rfl⟩ := unwrap_balance h3
  rw [Prog.eval_bind, moveCoins_eval hs hd]
  split
  · rename_i w1 _ e
    split at e
    · cases e
    · split at e
      · cases e
        exact .done ds dd hs hd (by omega) (by omega)
      · cases e
  · rename_i w1 _ e
    split at e
    · cases e
    · split at e <;> cases e
  · rename_i w1 e
    split at e
    · cases e; exact .early
    · split at e
      · cases e
      · cases e
        exact .overflow ds dd hs hd (by omega) (by omega)

theorem readOnly_getAccount (chk : Bool) (a : Addr) : ReadOnly (getAccount chk a) :=
  ReadOnly.attempt ((readOnly_load _ _).bind fun _ => (readOnly_balance _).bind fun _ =>
    (readOnly_counter _).bind fun _ => (readOnly_templateAddr _).bind fun _ => trivial)

theorem bind_ret (p : Prog Unit) : (p.bind fun _ => .ret ()) = p := by
  induction p with
  | ret | err | panic => rfl
  | get k f ih => simp only [Prog.bind, ih]
  | set k v p ih => simp only [Prog.bind, ih]

theorem transfer_cases (chk : Bool) (src dst : Addr) (amount : U64) (w : View) :
    Cases w src dst amount ((transfer chk src dst amount).eval w).1
      (isOk ((transfer chk src dst amount).eval w).2) := by
  unfold transfer
  simp only [Prog.bind_eq]
  refine Cases.bind (readOnly_load chk src).unwrap fun srcAcc h1 => ?_
  refine Cases.bind (readOnly_getAccount chk dst) fun x _ => ?_
  cases x with
  | none => exact .early
  | some x =>
    refine Cases.bind (readOnly_load chk dst).unwrap fun dstAcc h5 => ?_
    have := move_cases (w := w) (src := srcAcc) (dst := dstAcc) amount ()
    simp only [bind_ret] at this
    rwa [unwrap_load_addr h1, unwrap_load_addr h5] at this

theorem svmTransfer_cases (chk : Bool) (env : Env) (mem : Bytes) (ps pd : U32) (amount : U64)
    {src dst : Addr} (hs : readAddr env mem ps = some src) (hd : readAddr env mem pd = some dst)
    (hne : amount ≠ 0) (w : View) :
    Cases w src dst amount ((svmTransfer chk env mem ps pd amount).eval w).1
      (isOk ((svmTransfer chk env mem ps pd amount).eval w).2) := by
  unfold svmTransfer
  rw [if_neg hne]
  simp only [Prog.bind_eq]
  rw [hs, hd, Prog.eval_bind_ok (Prog.eval_ofOption_some _ _),
    Prog.eval_bind_ok (Prog.eval_ofOption_some _ _)]
  by_cases hr : env.canRead = true
  · rw [if_pos hr]
    refine Cases.bind (readOnly_load chk src).unwrap fun srcAcc h1 => ?_
    refine Cases.bind (readOnly_load chk dst).unwrap fun dstAcc h3 => ?_
    have := move_cases (w := w) (src := srcAcc) (dst := dstAcc) amount ((env.touch src).touch dst)
    rwa [unwrap_load_addr h1, unwrap_load_addr h3] at this
  · rw [if_neg hr]; exact .early

theorem money_moved {w : View} {src dst : Addr} {ds dd : AccountMut} {amount : U64} (a : Addr) :
    money (moved w src dst ds dd amount) a =
      if a = dst then some { dd with balance := dd.balance + amount }
      else if a = src then some { ds with balance := ds.balance - amount } else money w a := by
  unfold moved debited
  rw [money_set, money_set]

theorem sameButBalances_debited {w : View} {src : Addr} {ds : AccountMut} (amount : U64)
    (h1 : money w src = some ds) : SameButBalances w (debited w src ds amount) :=
  sameButBalances_set h1 _

theorem sameButBalances_moved {w : View} {src dst : Addr} {ds dd : AccountMut} (amount : U64)
    (h1 : money w src = some ds) (h2 : money w dst = some dd) :
    SameButBalances w (moved w src dst ds dd amount) := by
  refine (sameButBalances_debited amount h1).trans ?_
  obtain ⟨d, hd, hcnt⟩ := money_debited (amount := amount) h1 h2
  have := sameButBalances_set hd (dd.balance + amount)
  have e : ({ d with balance := dd.balance + amount } : AccountMut) =
      { dd with balance := dd.balance + amount } := by
    cases d; cases dd; simp_all
  rw [e] at this
  exact this

theorem Cases.only {w w' : View} {src dst : Addr} {amount : U64} {b : Bool}
    (h : Cases w src dst amount w' b) : SameButBalances w w' := by
  cases h with
  | early => exact .refl w
  | overflow ds dd h1 => exact sameButBalances_debited amount h1
  | done ds dd h1 h2 => exact sameButBalances_moved amount h1 h2

theorem toNat_sub {a b : U64} (h : b.toNat ≤ a.toNat) : (a - b).toNat = a.toNat - b.toNat :=
  BitVec.toNat_sub_of_le (by rw [BitVec.le_def]; exact h)

theorem toNat_add {a b : U64} (h : a.toNat + b.toNat < 2 ^ 64) :
    (a + b).toNat = a.toNat + b.toNat := by
  rw [BitVec.toNat_add, Nat.mod_eq_of_lt h]

theorem Cases.moved {h : Hasher} (hc : NoCollision h) {s s' : Storage} {src dst : Addr}
    {amount : U64} (hx : Cases (view h s) src dst amount (view h s') true) (hne : src ≠ dst) :
    Moved h s s' src dst amount := by
  have hrest := onlyBalances hc hx.only
  generalize hw : view h s' = w' at hx
  generalize hb : true = b at hx
  cases hx with
  | early => cases hb
  | overflow => cases hb
  | done ds dd h1 h2 h3 h4 =>
    refine ⟨⟨ds.balance, ds.balance - amount, ?_, ?_, ?_⟩,
      ⟨dd.balance, dd.balance + amount, ?_, ?_, ?_⟩, ?_, hrest⟩
    · rw [bal_money hc, h1]; rfl
    · rw [bal_money hc, hw, money_moved, if_neg hne, if_pos rfl]; rfl
    · rw [toNat_sub h3]; omega
    · rw [bal_money hc, h2]; rfl
    · rw [bal_money hc, hw, money_moved, if_pos rfl]; rfl
    · rw [toNat_add h4]
    · intro a ha1 ha2
      rw [bal_money hc, bal_money hc, hw, money_moved, if_neg ha2, if_neg ha1]

/-! ## C20 -/

/-- C20 for `Runtime::transfer`: a transfer that returns, between two different accounts. -/
theorem C20_transfer_conserves {h : Hasher} (hc : NoCollision h) (s : Storage) (chk : Bool)
    (src dst : Addr) (amount : U64) (hne : src ≠ dst)
    (hok : out h (transfer chk src dst amount) s = .ok ()) :
    Moved h s (after h (transfer chk src dst amount) s) src dst amount := by
  have hx := transfer_cases chk src dst amount (view h s)
  rw [← view_after hc, ← out_eval hc, hok] at hx
  exact hx.moved hc hne

/-- C20 for the host call `svm_transfer` of a running program: `src` and `dst` are the addresses it
reads at the given places of the memory. (An amount of 0 changes nothing: second part.) -/
theorem C20_host_transfer_conserves {h : Hasher} (hc : NoCollision h) (s : Storage) (chk : Bool)
    (env : Env) (mem : Bytes) (ps pd : U32) (amount : U64) :
    (amount ≠ 0 → ∀ r, out h (host chk env mem (.transfer ps pd amount)) s = .ok r →
      ∃ src dst, readAddr env mem ps = some src ∧ readAddr env mem pd = some dst ∧
        (src ≠ dst → Moved h s (after h (host chk env mem (.transfer ps pd amount)) s) src dst
          amount)) ∧
    (amount = 0 → (host chk env mem (.transfer ps pd amount)).run h s = (s, .ok (.unit, mem, env))) := by
  constructor
  · intro ha r hok
    rw [out_eval hc] at hok
    have hok' := eval_bind_eq_ok (p := svmTransfer chk env mem ps pd amount)
      (w := view h s) (w' := ((host chk env mem (.transfer ps pd amount)).eval (view h s)).1)
      (Prod.ext rfl hok)
    obtain ⟨w1, env', h1, h2⟩ := hok'
    have hr : ∃ src dst, readAddr env mem ps = some src ∧ readAddr env mem pd = some dst := by
      unfold svmTransfer at h1
      rw [if_neg ha] at h1
      obtain ⟨_, src, g1, g2⟩ := eval_bind_eq_ok h1
      obtain ⟨_, dst, g3, _⟩ := eval_bind_eq_ok g2
      cases e1 : readAddr env mem ps with
      | none => rw [e1] at g1; cases g1
      | some a =>
        cases e2 : readAddr env mem pd with
        | none => rw [e2] at g3; cases g3
        | some b => exact ⟨a, b, rfl, rfl⟩
    obtain ⟨src, dst, hs, hd⟩ := hr
    refine ⟨src, dst, hs, hd, fun hne => ?_⟩
    have hx := svmTransfer_cases chk env mem ps pd amount hs hd ha (view h s)
    rw [h1] at hx
    have hv : view h (after h (host chk env mem (.transfer ps pd amount)) s) = w1 := by
      rw [view_after hc]
      show (((svmTransfer chk env mem ps pd amount).bind _).eval (view h s)).1 = w1
      rw [Prog.eval_bind_ok h1]
      rfl
    rw [← hv] at hx
    exact hx.moved hc hne
  · intro ha
    subst ha
    rfl

/-! ## C21 -/

theorem supply_cons (h : Hasher) (s : Storage) (a : Addr) (l : List Addr) :
    supply h s (a :: l) = ((bal h s a).map BitVec.toNat).getD 0 + supply h s l := by
  simp [supply]

theorem supply_congr {h : Hasher} {s s' : Storage} {l : List Addr}
    (hl : ∀ a ∈ l, bal h s' a = bal h s a) : supply h s' l = supply h s l := by
  unfold supply
  congr 1
  apply List.map_congr_left
  intro a ha
  rw [hl a ha]

theorem supply_erase {h : Hasher} (s : Storage) {a : Addr} {l : List Addr} (ha : a ∈ l) :
    supply h s l = ((bal h s a).map BitVec.toNat).getD 0 + supply h s (l.erase a) := by
  have := ((List.perm_cons_erase ha).map
    fun a => ((bal h s a).map BitVec.toNat).getD 0).sum_nat
  unfold supply
  simpa using this

/-- The claim C21: the total of the balances of any list of accounts that includes source and
destination does not increase. -/
def C21_claim : Prop :=
  ∀ (h : Hasher), NoCollision h → ∀ (s : Storage), Reach h s → ∀ (chk : Bool) (src dst : Addr)
    (amount : U64) (accounts : List Addr), accounts.Nodup → src ∈ accounts → dst ∈ accounts →
    supply h (after h (transfer chk src dst amount) s) accounts ≤ supply h s accounts

/-- C21, universal violation: every transfer of an account to itself that returns adds the amount
to its balance. -/
theorem C21_self_transfer_mints {h : Hasher} (hc : NoCollision h) (s : Storage) (chk : Bool)
    (a : Addr) (amount : U64) (hok : out h (transfer chk a a amount) s = .ok ()) :
    ∃ b b', bal h s a = some b ∧ bal h (after h (transfer chk a a amount) s) a = some b' ∧
      b'.toNat = b.toNat + amount.toNat := by
  have hx := transfer_cases chk a a amount (view h s)
  rw [← view_after hc, ← out_eval hc, hok] at hx
  generalize hw : view h (after h (transfer chk a a amount) s) = w' at hx
  generalize hb : isOk (Outcome.ok () : Outcome SErr Unit) = b at hx
  cases hx with
  | early => cases hb
  | overflow => cases hb
  | done ds dd h1 h2 h3 h4 =>
    refine ⟨dd.balance, dd.balance + amount, ?_, ?_, toNat_add h4⟩
    · rw [bal_money hc, h2]; rfl
    · rw [bal_money hc, hw, money_moved, if_pos rfl]; rfl

theorem Cases.supply_le {h : Hasher} (hc : NoCollision h) {s s' : Storage} {src dst : Addr}
    {amount : U64} {b : Bool} (hx : Cases (view h s) src dst amount (view h s') b) (hne : src ≠ dst)
    {l : List Addr} (hs : src ∈ l) (hd : dst ∈ l) (hn : l.Nodup) :
    supply h s' l ≤ supply h s l ∧ (b = true → supply h s' l = supply h s l) := by
  have hd' : dst ∈ l.erase src := (List.mem_erase_of_ne (Ne.symm hne)).2 hd
  have hbal : ∀ a, a ≠ src → a ≠ dst → bal h s' a = bal h s a := by
    intro a h1 h2
    rw [bal_money hc, bal_money hc]
    generalize view h s' = w' at hx
    cases hx with
    | early => rfl
    | overflow => unfold debited; rw [money_set, if_neg h1]
    | done => rw [money_moved, if_neg h2, if_neg h1]
  have hrest : supply h s' ((l.erase src).erase dst) = supply h s ((l.erase src).erase dst) := by
    apply supply_congr
    intro a ha
    have hn1 := hn.erase src
    apply hbal
    · rintro rfl
      exact (List.Nodup.mem_erase_iff hn).1 ((List.mem_of_mem_erase ha)) |>.1 rfl
    · rintro rfl
      exact ((List.Nodup.mem_erase_iff hn1).1 ha).1 rfl
  rw [supply_erase s' hs, supply_erase s hs, supply_erase s' hd', supply_erase s hd', hrest]
  rw [bal_money hc, bal_money hc, bal_money hc, bal_money hc]
  generalize view h s' = w' at hx
  cases hx with
  | early => exact ⟨Nat.le_refl _, fun _ => rfl⟩
  | overflow ds dd h1 h2 h3 h4 =>
    have e1 : money (debited (view h s) src ds amount) dst = some dd := by
      unfold debited; rw [money_set, if_neg (Ne.symm hne), h2]
    have e2 : money (debited (view h s) src ds amount) src =
        some { ds with balance := ds.balance - amount } := by
      unfold debited; rw [money_set, if_pos rfl]
    rw [e1, e2, h1, h2]
    simp only [Option.map_some, Option.getD_some]
    rw [toNat_sub h3]
    exact ⟨by omega, by simp⟩
  | done ds dd h1 h2 h3 h4 =>
    rw [money_moved, money_moved, if_pos rfl, if_neg hne, if_pos rfl, h1, h2]
    simp only [Option.map_some, Option.getD_some]
    rw [toNat_sub h3, toNat_add h4]
    exact ⟨by omega, fun _ => by omega⟩

/-- C21 for two different accounts, for any outcome of the transfer (also a panic half way), and
with equality when it returns. Missing for the full claim: `src = dst`, where it is false. -/
theorem C21_distinct_partial {h : Hasher} (hc : NoCollision h) (s : Storage) (chk : Bool)
    (src dst : Addr) (amount : U64) (hne : src ≠ dst) (accounts : List Addr)
    (hn : accounts.Nodup) (hs : src ∈ accounts) (hd : dst ∈ accounts) :
    supply h (after h (transfer chk src dst amount) s) accounts ≤ supply h s accounts ∧
    (out h (transfer chk src dst amount) s = .ok () →
      supply h (after h (transfer chk src dst amount) s) accounts = supply h s accounts) := by
  have hx := transfer_cases chk src dst amount (view h s)
  rw [← view_after hc, ← out_eval hc] at hx
  have := hx.supply_le hc hne hs hd hn
  exact ⟨this.1, fun e => this.2 (by rw [e]; rfl)⟩

/-- C21 for the host call, in the same way: any outcome, different addresses. -/
theorem C21_host_distinct_partial {h : Hasher} (hc : NoCollision h) (s : Storage) (chk : Bool)
    (env : Env) (mem : Bytes) (ps pd : U32) (amount : U64) (accounts : List Addr)
    (hn : accounts.Nodup)
    (haddr : ∀ src dst, readAddr env mem ps = some src → readAddr env mem pd = some dst →
      src ≠ dst ∧ src ∈ accounts ∧ dst ∈ accounts) :
    supply h (after h (host chk env mem (.transfer ps pd amount)) s) accounts ≤
      supply h s accounts := by
  have hv : view h (after h (host chk env mem (.transfer ps pd amount)) s) =
      ((svmTransfer chk env mem ps pd amount).eval (view h s)).1 := by
    rw [view_after hc]
    show (((svmTransfer chk env mem ps pd amount).bind _).eval (view h s)).1 = _
    rw [Prog.eval_bind]
    cases (svmTransfer chk env mem ps pd amount).eval (view h s) with
    | mk w o => cases o <;> rfl
  by_cases ha : amount = 0
  · subst ha
    exact Nat.le_refl _
  · have key : ((svmTransfer chk env mem ps pd amount).eval (view h s)).1 = view h s →
        supply h (after h (host chk env mem (.transfer ps pd amount)) s) accounts ≤
          supply h s accounts := by
      intro e
      rw [e] at hv
      refine Nat.le_of_eq (supply_congr fun a _ => ?_)
      rw [bal_money hc, bal_money hc, hv]
    cases hs : readAddr env mem ps with
    | none =>
      apply key
      unfold svmTransfer
      rw [if_neg ha, hs]
      rfl
    | some src =>
      cases hd : readAddr env mem pd with
      | none =>
        apply key
        unfold svmTransfer
        rw [if_neg ha, hs, hd]
        rfl
      | some dst =>
        obtain ⟨h1, h2, h3⟩ := haddr src dst hs hd
        have hx := svmTransfer_cases chk env mem ps pd amount hs hd ha (view h s)
        rw [← hv] at hx
        exact (hx.supply_le hc h1 h2 h3 hn).1

/-! ## C22 -/

/-- The claim C22: a transfer that does not return has changed no balance. -/
def C22_claim : Prop :=
  ∀ (h : Hasher), NoCollision h → ∀ (s : Storage), Reach h s → ∀ (chk : Bool) (src dst : Addr)
    (amount : U64), out h (transfer chk src dst amount) s ≠ .ok () →
    ∀ a, bal h (after h (transfer chk src dst amount) s) a = bal h s a

/-- C22 up to the one exception: a transfer that does not return has changed nothing at all that can
be read, unless the destination balance overflows. Missing for the full claim: that exception, see
`C22_overflow_debits`. -/
theorem C22_all_or_nothing_partial {h : Hasher} (hc : NoCollision h) (s : Storage) (chk : Bool)
    (src dst : Addr) (amount : U64) (hfail : out h (transfer chk src dst amount) s ≠ .ok ())
    (hno : ∀ b, bal h s dst = some b → b.toNat + amount.toNat < 2 ^ 64) :
    (∀ a, bal h (after h (transfer chk src dst amount) s) a = bal h s a) ∧
    OnlyBalances h s (after h (transfer chk src dst amount) s) := by
  have hx := transfer_cases chk src dst amount (view h s)
  rw [← view_after hc, ← out_eval hc] at hx
  refine ⟨fun a => ?_, onlyBalances hc hx.only⟩
  rw [bal_money hc, bal_money hc]
  generalize hw : view h (after h (transfer chk src dst amount) s) = w' at hx
  generalize hb : isOk (out h (transfer chk src dst amount) s) = b at hx
  cases hx with
  | early => rfl
  | overflow ds dd h1 h2 h3 h4 =>
    have := hno dd.balance (by rw [bal_money hc, h2]; rfl)
    omega
  | done =>
    cases ho : out h (transfer chk src dst amount) s with
    | ok u => exact absurd ho hfail
    | err | panic => rw [ho] at hb; cases hb

/-- C22, the exception: with enough balance at the source, and a destination that overflows, the
transfer panics after it has debited the source. -/
theorem C22_overflow_debits {h : Hasher} (hc : NoCollision h) (s : Storage) (chk : Bool)
    {src dst : Addr} {accS accD : Acc} {amount b b' : U64}
    (h1 : out h (load chk src) s = .ok accS) (h2 : out h (load chk dst) s = .ok accD)
    (h3 : bal h s src = some b) (h4 : bal h s dst = some b') (hle : amount.toNat ≤ b.toNat)
    (hov : 2 ^ 64 ≤ b'.toNat + amount.toNat) :
    out h (transfer chk src dst amount) s = .panic ∧
    bal h (after h (transfer chk src dst amount) s) src = some (b - amount) ∧
    (src ≠ dst → bal h (after h (transfer chk src dst amount) s) dst = some b') := by
  rw [out_eval hc] at h1 h2
  have e1 : (load chk src).eval (view h s) = (view h s, .ok accS) :=
    Prod.ext ((readOnly_load chk src).eval _) h1
  have e2 : (load chk dst).eval (view h s) = (view h s, .ok accD) :=
    Prod.ext ((readOnly_load chk dst).eval _) h2
  rw [bal_money hc, Option.map_eq_some_iff] at h3 h4
  obtain ⟨ds, m1, rfl⟩ := h3
  obtain ⟨dd, m2, rfl⟩ := h4
  obtain ⟨_, _, a1, _⟩ := load_ok e1
  obtain ⟨_, _, a2, di, hi, _⟩ := load_ok e2
  have hatt : ∀ {α : Type} {p : Prog α} {w w' : View} {a : α}, p.eval w = (w', .ok a) →
      (attempt p).eval w = (w', .ok (some a)) := by
    intro α p
    induction p with
    | ret x => intro w w' a e; cases e; rfl
    | err | panic => intro w w' a e; cases e
    | get k f ih => intro w w' a e; exact ih _ e
    | set k v p ih => intro w w' a e; exact ih e
  have e3 : (getAccount chk dst).eval (view h s) =
      (view h s, .ok (some (dd.balance, dd.counter, di.template))) := by
    apply hatt
    simp only [Prog.bind_eq]
    rw [Prog.eval_bind_ok e2, Prog.eval_bind_ok (balance_eval (by rw [a2]; exact m2)),
      Prog.eval_bind_ok (counter_eval (by rw [a2]; exact m2))]
    unfold templateAddr
    simp only [Prog.bind_eq]
    rw [a2]
    have : ((readAndDecode decAccountData (.accData dst)).bind fun x =>
        (pure x.template : Prog Addr)).eval (view h s) = (view h s, .ok di.template) := by
      rw [Prog.eval_bind_ok (info_read hi)]; rfl
    rw [Prog.eval_bind_ok this]
    rfl
  have hev : (transfer chk src dst amount).eval (view h s) =
      (debited (view h s) src ds amount, .panic) := by
    unfold transfer
    simp only [Prog.bind_eq]
    rw [Prog.eval_bind_ok (unwrap_ok.2 e1), Prog.eval_bind_ok e3]
    simp only
    rw [Prog.eval_bind_ok (unwrap_ok.2 e2),
      Prog.eval_bind_ok (unwrap_ok.2 (balance_eval (by rw [a1]; exact m1))),
      Prog.eval_bind_ok (unwrap_ok.2 (balance_eval (by rw [a2]; exact m2))),
      moveCoins_eval (by rw [a1]; exact m1) (by rw [a2]; exact m2), if_neg (by omega),
      if_neg (by omega), a1]
  refine ⟨by rw [out_eval hc, hev], ?_, ?_⟩
  · rw [bal_money hc, view_after hc, hev]
    unfold debited
    rw [money_set, if_pos rfl]
    rfl
  · intro hne
    rw [bal_money hc, view_after hc, hev]
    unfold debited
    rw [money_set, if_neg (Ne.symm hne), m2]
    rfl

/-! ## C23 -/

/-- The claim C23: a transfer made by a program running for account `env.storage.addr` does not lower
the balance of another account. -/
def C23_claim : Prop :=
  ∀ (h : Hasher), NoCollision h → ∀ (s : Storage), Reach h s → ∀ (chk : Bool) (env : Env)
    (mem : Bytes) (ps pd : U32) (amount : U64) (a : Addr), a ≠ env.storage.addr →
    ∀ b, bal h s a = some b →
    ∃ b', bal h (after h (host chk env mem (.transfer ps pd amount)) s) a = some b' ∧
      b.toNat ≤ b'.toNat

/-- C23, what holds: only the account whose address the program passes as source can lose money
(also when the call panics half way), and nothing changes when access to the storage is denied. Missing: that the source is the account of the program; nothing checks it. -/
theorem C23_only_source_partial {h : Hasher} (hc : NoCollision h) (s : Storage) (chk : Bool)
    (env : Env) (mem : Bytes) (ps pd : U32) (amount : U64) (a : Addr) (b : U64)
    (hb : bal h s a = some b)
    (ha : readAddr env mem ps ≠ some a ∨ env.mode = .accessDenied) :
    ∃ b', bal h (after h (host chk env mem (.transfer ps pd amount)) s) a = some b' ∧
      b.toNat ≤ b'.toNat := by
  have hv : view h (after h (host chk env mem (.transfer ps pd amount)) s) =
      ((svmTransfer chk env mem ps pd amount).eval (view h s)).1 := by
    rw [view_after hc]
    show (((svmTransfer chk env mem ps pd amount).bind _).eval (view h s)).1 = _
    rw [Prog.eval_bind]
    cases (svmTransfer chk env mem ps pd amount).eval (view h s) with
    | mk w o => cases o <;> rfl
  have key : ((svmTransfer chk env mem ps pd amount).eval (view h s)).1 = view h s →
      ∃ b', bal h (after h (host chk env mem (.transfer ps pd amount)) s) a = some b' ∧
        b.toNat ≤ b'.toNat := by
    intro e
    rw [e] at hv
    exact ⟨b, by rw [bal_money hc, hv, ← bal_money hc, hb], Nat.le_refl _⟩
  by_cases h0 : amount = 0
  · subst h0; exact key rfl
  cases hs : readAddr env mem ps with
  | none => apply key; unfold svmTransfer; rw [if_neg h0, hs]; rfl
  | some src =>
    cases hd : readAddr env mem pd with
    | none => apply key; unfold svmTransfer; rw [if_neg h0, hs, hd]; rfl
    | some dst =>
      rcases ha with ha | ha
      · have hx := svmTransfer_cases chk env mem ps pd amount hs hd h0 (view h s)
        have hne : a ≠ src := by rintro rfl; exact ha hs
        rw [← hv] at hx
        rw [bal_money hc] at hb ⊢
        rw [Option.map_eq_some_iff] at hb
        obtain ⟨d, hd1, rfl⟩ := hb
        generalize view h (after h (host chk env mem (.transfer ps pd amount)) s) = w' at hx ⊢
        generalize isOk ((svmTransfer chk env mem ps pd amount).eval (view h s)).2 = ok at hx
        cases hx with
        | early => exact ⟨d.balance, by rw [hd1]; rfl, Nat.le_refl _⟩
        | overflow ds dd h1 h2 h3 h4 =>
          refine ⟨d.balance, ?_, Nat.le_refl _⟩
          unfold debited
          rw [money_set, if_neg hne, hd1]
          rfl
        | done ds dd h1 h2 h3 h4 =>
          rw [money_moved, if_neg hne]
          by_cases e : a = dst
          · subst e
            rw [hd1] at h2
            cases h2
            rw [if_pos rfl]
            exact ⟨_, rfl, by rw [toNat_add h4]; omega⟩
          · rw [if_neg e]
            exact ⟨d.balance, by rw [hd1]; rfl, Nat.le_refl _⟩
      · apply key
        unfold svmTransfer
        rw [if_neg h0, hs, hd]
        simp only [Env.canRead, ha]
        rfl

/-- C23, universal violation: whatever account the program runs for, if the addresses of two existing
accounts are in its memory and the first has enough money, the call succeeds and takes the money
from the first. -/
theorem C23_spends_any_account {h : Hasher} (hc : NoCollision h) (s : Storage) (chk : Bool)
    (env : Env) (mem : Bytes) (ps pd : U32) (amount : U64) {src dst : Addr} {accS accD : Acc}
    {b b' : U64} (hm : env.mode ≠ .accessDenied) (hs : readAddr env mem ps = some src)
    (hd : readAddr env mem pd = some dst) (hne : src ≠ dst) (h0 : amount ≠ 0)
    (h1 : out h (load chk src) s = .ok accS) (h2 : out h (load chk dst) s = .ok accD)
    (h3 : bal h s src = some b) (h4 : bal h s dst = some b') (hle : amount.toNat ≤ b.toNat)
    (hov : b'.toNat + amount.toNat < 2 ^ 64) :
    out h (host chk env mem (.transfer ps pd amount)) s =
      .ok (.unit, mem, (env.touch src).touch dst) ∧
    bal h (after h (host chk env mem (.transfer ps pd amount)) s) src = some (b - amount) := by
  rw [out_eval hc] at h1 h2
  have e1 : (load chk src).eval (view h s) = (view h s, .ok accS) :=
    Prod.ext ((readOnly_load chk src).eval _) h1
  have e2 : (load chk dst).eval (view h s) = (view h s, .ok accD) :=
    Prod.ext ((readOnly_load chk dst).eval _) h2
  rw [bal_money hc, Option.map_eq_some_iff] at h3 h4
  obtain ⟨ds, m1, rfl⟩ := h3
  obtain ⟨dd, m2, rfl⟩ := h4
  obtain ⟨_, _, a1, _⟩ := load_ok e1
  obtain ⟨_, _, a2, _⟩ := load_ok e2
  have hev : (svmTransfer chk env mem ps pd amount).eval (view h s) =
      (moved (view h s) src dst ds dd amount, .ok ((env.touch src).touch dst)) := by
    unfold svmTransfer
    rw [if_neg h0, hs, hd]
    simp only [Prog.bind_eq]
    rw [Prog.eval_bind_ok (Prog.eval_ofOption_some _ _),
      Prog.eval_bind_ok (Prog.eval_ofOption_some _ _), if_pos (by simp [Env.canRead, hm]),
      Prog.eval_bind_ok (unwrap_ok.2 e1), Prog.eval_bind_ok (unwrap_ok.2 e2),
      Prog.eval_bind_ok (unwrap_ok.2 (balance_eval (by rw [a1]; exact m1))),
      Prog.eval_bind_ok (unwrap_ok.2 (balance_eval (by rw [a2]; exact m2)))]
    have := moveCoins_eval (w := view h s) (src := accS) (dst := accD) (amount := amount)
      (by rw [a1]; exact m1) (by rw [a2]; exact m2)
    rw [if_neg (by omega), if_pos hov, a1, a2] at this
    rw [Prog.eval_bind_ok this]
    rfl
  have hev' : (host chk env mem (.transfer ps pd amount)).eval (view h s) =
      (moved (view h s) src dst ds dd amount, .ok (.unit, mem, (env.touch src).touch dst)) := by
    show ((svmTransfer chk env mem ps pd amount).bind _).eval (view h s) = _
    rw [Prog.eval_bind_ok hev]
    rfl
  refine ⟨by rw [out_eval hc, hev'], ?_⟩
  rw [bal_money hc, view_after hc, hev', money_moved, if_neg hne, if_pos rfl]
  rfl

end Svm.Runtime
