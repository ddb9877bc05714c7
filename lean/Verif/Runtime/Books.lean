import Verif.Runtime.Rewind
import Verif.Ffi.Api

/-!
# C121 and C122: where the coins of a node come from

`Runtime::increase_balance`, and the total of all balances over whole histories of a node with its layers.
-/

namespace Svm.Runtime

open Svm.Codec Svm.Account
open Svm.Storage (Hasher Storage Inv Kept stateOnes)

/-! ## C121 -/

/-- Account `a` has `amount` coins more, and nothing else has changed. -/
structure Credited (h : Hasher) (s s' : Storage) (a : Addr) (amount : U64) : Prop where
  account : ∃ b b', bal h s a = some b ∧ bal h s' a = some b' ∧ b'.toNat = b.toNat + amount.toNat
  others : ∀ x, x ≠ a → bal h s' x = bal h s x
  rest : OnlyBalances h s s'

/-- An account to which the amount can be added: it can be loaded, and the sum fits in 64 bits. -/
def Creditable (chk : Bool) (h : Hasher) (s : Storage) (a : Addr) (amount : U64) : Prop :=
  (∃ acc, out h (load chk a) s = .ok acc) ∧ ∃ b, bal h s a = some b ∧ b.toNat + amount.toNat < 2 ^ 64

/-- A read that is unwrapped: it goes on with the value, or panics where it is. -/
theorem run_unwrap_read {h : Hasher} (hc : NoCollision h) {α β : Type} {p : Prog α} (hp : ReadOnly p)
    (f : α → Prog β) (s : Storage) :
    (∃ a, out h p s = .ok a ∧ (p.unwrap.bind f).run h s = (f a).run h s) ∨
      ((∀ a, out h p s ≠ .ok a) ∧ (p.unwrap.bind f).run h s = (s, .panic)) := by
  have h1 := hp.unwrap.run h s
  have h2 : (p.unwrap.run h s).2 = match out h p s with | .ok a => .ok a | _ => .panic := by
    rw [out_eval hc]
    refine (p.unwrap.run_eval hc s).1.trans ?_
    rw [Prog.eval_unwrap]
    cases p.eval (view h s) with
    | mk w o => cases o <;> rfl
  have h3 : p.unwrap.run h s = (s, match out h p s with | .ok a => .ok a | _ => .panic) := Prod.ext h1 h2
  rw [Prog.run_bind, h3]
  cases ho : out h p s with
  | ok a => exact .inl ⟨a, rfl, rfl⟩
  | err e => exact .inr ⟨fun a => nofun, rfl⟩
  | panic => exact .inr ⟨fun a => nofun, rfl⟩

theorem balance_bal {h : Hasher} {s : Storage} {acc : Acc} (b : U64) :
    out h (balance acc) s = .ok b ↔ bal h s acc.addr = some b := by
  have e : out h (balance acc) s = out h (balance (handle acc.addr)) s := rfl
  unfold bal
  rw [e]
  cases out h (balance (handle acc.addr)) s <;> simp

/-- What `increase_balance` does. -/
theorem increaseBalance_run {h : Hasher} (hc : NoCollision h) (s : Storage) (chk : Bool) (a : Addr) (amount : U64) :
    (Creditable chk h s a amount ∧ (out h (increaseBalance chk a amount) s = .ok ()) ∧
      ∃ d, money (view h s) a = some d ∧ d.balance.toNat + amount.toNat < 2 ^ 64 ∧
        view h (after h (increaseBalance chk a amount) s) =
          (view h s).set (.accMut a) (mutBytes { d with balance := d.balance + amount })) ∨
      (¬ Creditable chk h s a amount ∧ (increaseBalance chk a amount).run h s = (s, .panic)) := by
  have hl : ∀ acc, out h (load chk a) s = .ok acc → acc.addr = a := by
    intro acc ha
    rw [out_eval hc] at ha
    exact (load_ok (w' := ((load chk a).eval (view h s)).1) (Prod.ext rfl ha)).2.2.1
  rcases run_unwrap_read hc (readOnly_load chk a) (fun acc => (balance acc).unwrap.bind fun b =>
    if b.toNat + amount.toNat < 2 ^ 64 then (setBalance acc (b + amount)).unwrap else .panic) s with
    ⟨acc, h1, h2⟩ | ⟨h1, h2⟩
  · rcases run_unwrap_read hc (readOnly_balance acc) (fun b =>
      if b.toNat + amount.toNat < 2 ^ 64 then (setBalance acc (b + amount)).unwrap else .panic) s with
      ⟨b, h3, h4⟩ | ⟨h3, h4⟩
    · have e : (increaseBalance chk a amount).run h s = _ := h2.trans h4
      have hb : bal h s a = some b := by rw [← hl acc h1]; exact (balance_bal b).1 h3
      by_cases hf : b.toNat + amount.toNat < 2 ^ 64
      · rw [if_pos hf] at e
        obtain ⟨d, hd, rfl⟩ := Option.map_eq_some_iff.1 ((bal_money hc s a).symm.trans hb)
        have ev := setBalance_eval (acc := acc) (w := view h s) (by rw [hl acc h1]; exact hd) (d.balance + amount)
        have ev' := (unwrap_ok (p := setBalance acc (d.balance + amount))).2 ev
        have hr := (setBalance acc (d.balance + amount)).unwrap.run_eval hc s
        rw [ev', hl acc h1] at hr
        refine .inl ⟨⟨⟨acc, h1⟩, _, hb, hf⟩, ?_, d, hd, hf, ?_⟩
        · exact (congrArg Prod.snd e).trans hr.1
        · exact (congrArg (fun x => view h x.1) e).trans hr.2
      · rw [if_neg hf] at e
        exact .inr ⟨fun ⟨_, b', hb', hf'⟩ => hf (by rw [hb] at hb'; cases hb'; exact hf'), e⟩
    · refine .inr ⟨fun ⟨_, b', hb', _⟩ => h3 b' ?_, h2.trans h4⟩
      rw [← hl acc h1] at hb'
      exact (balance_bal b').2 hb'
  · exact .inr ⟨fun ⟨⟨acc, ha⟩, _⟩ => h1 acc ha, h2⟩

/-- **C121**: `increase_balance` adds exactly the amount to the account and changes nothing else. -/
theorem C121_credits {h : Hasher} (hc : NoCollision h) (s : Storage) (chk : Bool) (a : Addr) (amount : U64)
    (hok : out h (increaseBalance chk a amount) s = .ok ()) :
    Credited h s (after h (increaseBalance chk a amount) s) a amount := by
  rcases increaseBalance_run hc s chk a amount with ⟨-, -, d, h1, h2, h3⟩ | ⟨-, h1⟩
  · refine ⟨⟨d.balance, d.balance + amount, ?_, ?_, toNat_add h2⟩, fun x hx => ?_, onlyBalances hc ?_⟩
    · rw [bal_money hc, h1]; rfl
    · rw [bal_money hc, h3, money_set, if_pos rfl]; rfl
    · rw [bal_money hc, bal_money hc, h3, money_set, if_neg hx]
    · rw [h3]; exact sameButBalances_set h1 _
  · rw [show out h (increaseBalance chk a amount) s = _ from congrArg Prod.snd h1] at hok
    cases hok

/-- **C121**: it does so exactly if the account exists and the sum fits; otherwise it panics, and nothing has
changed. -/
theorem C121_iff {h : Hasher} (hc : NoCollision h) (s : Storage) (chk : Bool) (a : Addr) (amount : U64) :
    (out h (increaseBalance chk a amount) s = .ok () ↔ Creditable chk h s a amount) ∧
      (¬ Creditable chk h s a amount → (increaseBalance chk a amount).run h s = (s, .panic)) := by
  rcases increaseBalance_run hc s chk a amount with ⟨h1, h2, -⟩ | ⟨h1, h2⟩
  · exact ⟨⟨fun _ => h1, fun _ => h2⟩, fun hn => absurd h1 hn⟩
  · refine ⟨⟨fun ho => ?_, fun hcr => absurd hcr h1⟩, fun _ => h2⟩
    rw [show out h (increaseBalance chk a amount) s = _ from congrArg Prod.snd h2] at ho
    cases ho

/-! ## C122: the books -/

/-- The coins of all accounts together. -/
def Holds (h : Hasher) (s : Storage) (n : Nat) : Prop :=
  ∃ l : List Addr, l.Nodup ∧ (∀ a b, bal h s a = some b → a ∈ l) ∧ supply h s l = n

/-- The books of an observer of a node: the coins now, and at each layer from 0 on. -/
structure Book where
  now : Nat
  layers : List Nat

/-- The coins that an event brings in. -/
def minted : Event → Answer → Nat
  | .create _ _ _ b _, .done => b.toNat
  | .credit _ amount, .done => amount.toNat
  | _, _ => 0

/-- The books after an event. -/
def Book.after (b : Book) (e : Event) (ans : Answer) : Book :=
  match e, ans with
  | .tx _, .receipt (.call r) => if r.success then ⟨b.now, b.layers ++ [b.now]⟩ else b
  | .tx _, .receipt (.spawn r) => if r.success then ⟨b.now, b.layers ++ [b.now]⟩ else b
  | .commit, .done => ⟨b.now, b.layers ++ [b.now]⟩
  | .rewind n, .done => ⟨b.layers.getD n 0, b.layers.take (n + 1)⟩
  | e, ans => ⟨b.now + minted e ans, b.layers⟩

/-- The books after a history. -/
def Book.afterAll : Book → List Event → List Answer → Book
  | b, e :: es, a :: as => (b.after e a).afterAll es as
  | b, _, _ => b

/-- C122: the coins of all accounts are those that were brought in by the creation of accounts and by credits, less
what was rewound. -/
def C122_claim : Prop :=
  ∀ (h : Hasher), NoCollision h → ∀ (chk : Bool) (ts : List (Addr × Sections)) (o : Orders) (rs : RState)
    (eng : Engine) (pr : Pricer) (es : List Event) (os : Nat → Orders), Node.start h o ts = some rs →
    (∀ a ∈ (Node.run chk h eng pr rs es os).2, a ≠ .panic) →
    Holds h (Node.run chk h eng pr rs es os).1.storage
      ((⟨0, []⟩ : Book).afterAll es (Node.run chk h eng pr rs es os).2).now

/-- The event creates an account at this address. -/
def Event.makes (h : Hasher) : Event → Addr → Prop
  | .tx t, a => t.spawns h a
  | .create x _ _ _ _, a => a = x
  | _, _ => False

/-- An account is never made over one with coins, and `Runtime::transfer` is not asked to pay an account from
itself. -/
def Orderly (chk : Bool) (h : Hasher) (eng : Engine) (pr : Pricer) : RState → List Event → (Nat → Orders) → Prop
  | _, [], _ => True
  | rs, e :: es, os =>
    (∀ a b, e.makes h a → bal h rs.storage a = some b → b = 0) ∧
    (∀ src dst amount, e = .pay src dst amount → src ≠ dst) ∧
    Orderly chk h eng pr (Node.step chk h eng pr (os 0) rs e).1 es fun n => os (n + 1)

/-! ### Lemmas -/

/-- `Holds`, for the records. -/
theorem holds_iff {h : Hasher} (hc : NoCollision h) (s : Storage) (n : Nat) :
    Holds h s n ↔ ∃ l : List Addr, l.Nodup ∧ Lists (view h s) l ∧ total (view h s) l = n := by
  have e : ∀ l : List Addr, (∀ a b, bal h s a = some b → a ∈ l) ↔ Lists (view h s) l := by
    intro l
    refine ⟨lists_of hc, fun hl a b hb => ?_⟩
    obtain ⟨d, hd, -⟩ := Option.map_eq_some_iff.1 ((bal_money hc s a).symm.trans hb)
    exact hl a d hd
  unfold Holds
  simp only [e, supply_total hc]

theorem Holds.congr {h : Hasher} {s s' : Storage} {n : Nat} (hs : Holds h s n)
    (hv : ∀ a, bal h s' a = bal h s a) : Holds h s' n := by
  obtain ⟨l, h1, h2, h3⟩ := hs
  refine ⟨l, h1, fun a b hb => h2 a b (by rw [← hv]; exact hb), ?_⟩
  rw [← h3]
  unfold supply
  simp only [hv]

theorem Holds.of_view {h : Hasher} {s s' : Storage} {n : Nat} (hc : NoCollision h) (hs : Holds h s n)
    (hv : view h s' = view h s) : Holds h s' n :=
  hs.congr fun a => by rw [bal_money hc, bal_money hc, hv]

/-- A list with one more account. -/
theorem lists_add {w : View} {l : List Addr} (hn : l.Nodup) (hl : Lists w l) (x : Addr) :
    ∃ l' : List Addr, l'.Nodup ∧ Lists w l' ∧ x ∈ l' ∧ (∀ y ∈ l, y ∈ l') ∧ total w l' = total w l := by
  by_cases hx : x ∈ l
  · exact ⟨l, hn, hl, hx, fun _ h => h, rfl⟩
  · refine ⟨x :: l, List.nodup_cons.2 ⟨hx, hn⟩, fun a d hd => List.mem_cons_of_mem _ (hl a d hd),
      List.mem_cons_self, fun y hy => List.mem_cons_of_mem _ hy, ?_⟩
    have h0 : coins w x = 0 := by
      unfold coins
      cases hm : money w x with
      | none => rfl
      | some d => exact absurd (hl x d hm) hx
    show coins w x + total w l = total w l
    omega

/-- The creation of an account with coins. -/
theorem createAccount_general (chk : Bool) (a t : Addr) (nm : Str) (x : U64) (y : U128) (w : View) :
    (((createAccount chk a t nm x y).eval w).2 = .ok () ∧
      ∀ b, money ((createAccount chk a t nm x y).eval w).1 b =
        if b = a then some ⟨x, y⟩ else money w b) ∨
    (((createAccount chk a t nm x y).eval w).2 ≠ .ok () ∧
      ((createAccount chk a t nm x y).eval w).1 = w) := by
  unfold createAccount create
  simp only [Prog.bind_eq]
  rw [Prog.eval_bind, Prog.eval_unwrap, Prog.eval_bind]
  have hro := (readOnly_templateLayout chk t).eval w
  cases hl : (templateLayout chk t).eval w with
  | mk w1 o =>
    rw [hl] at hro
    simp only at hro
    subst hro
    cases o with
    | ok l =>
      simp only
      cases hd : encAccountData ⟨nm, t⟩ with
      | none => exact .inr ⟨nofun, rfl⟩
      | some bs =>
        refine .inl ⟨rfl, fun b => ?_⟩
        show money ((w1.set (.accData a) bs).set (.accMut a) (mutBytes ⟨x, y⟩)) b = _
        rw [money_set]
        split
        · rfl
        · exact money_accMut (View.set_ne _ _ (by simp))
    | err e => exact .inr ⟨nofun, rfl⟩
    | panic => exact .inr ⟨nofun, rfl⟩

/-- What the creation of an account does to the coins: those of an account that was there before are gone. -/
theorem holds_create {h : Hasher} (hc : NoCollision h) {s : Storage} {n : Nat} (hs : Holds h s n) (chk : Bool)
    (a t : Addr) (nm : Str) (x : U64) (y : U128) :
    (out h (createAccount chk a t nm x y) s = .ok () →
      ∃ n', Holds h (after h (createAccount chk a t nm x y) s) n' ∧
        n' + ((bal h s a).map BitVec.toNat).getD 0 = n + x.toNat) ∧
    (out h (createAccount chk a t nm x y) s ≠ .ok () → Holds h (after h (createAccount chk a t nm x y) s) n) := by
  rw [out_eval hc]
  rcases createAccount_general chk a t nm x y (view h s) with ⟨h1, h2⟩ | ⟨h1, h2⟩
  · refine ⟨fun _ => ?_, fun hn => absurd h1 hn⟩
    rw [← view_after hc] at h2
    obtain ⟨l0, n0, l1, rfl⟩ := (holds_iff hc s n).1 hs
    obtain ⟨l, g1, g2, g3, g4, g5⟩ := lists_add n0 l1 a
    have e := total_update (w := view h s) (w' := view h (after h (createAccount chk a t nm x y) s)) g1 g3
      fun b hb => by rw [h2, if_neg hb]
    rw [coins_some ((h2 a).trans (if_pos rfl)), g5, coins_bal hc] at e
    refine ⟨_, (holds_iff hc _ _).2 ⟨l, g1, fun b d hd => ?_, rfl⟩, e⟩
    rw [h2] at hd
    split at hd
    · rename_i hb; subst hb; exact g3
    · exact g2 b d hd
  · refine ⟨fun ho => absurd ho h1, fun _ => hs.of_view hc ?_⟩
    rw [view_after hc, h2]

theorem holds_credit {h : Hasher} (hc : NoCollision h) {s : Storage} {n : Nat} (hs : Holds h s n) (chk : Bool)
    (a : Addr) (amount : U64) :
    (out h (increaseBalance chk a amount) s = .ok () →
      Holds h (after h (increaseBalance chk a amount) s) (n + amount.toNat)) ∧
    (out h (increaseBalance chk a amount) s ≠ .ok () → Holds h (after h (increaseBalance chk a amount) s) n) := by
  rcases increaseBalance_run hc s chk a amount with ⟨-, h1, d, h2, h3, h4⟩ | ⟨-, h1⟩
  · refine ⟨fun _ => ?_, fun hn => absurd h1 hn⟩
    obtain ⟨l, n0, l1, rfl⟩ := (holds_iff hc s n).1 hs
    have hm : ∀ b, money (view h (after h (increaseBalance chk a amount) s)) b =
        if b = a then some { d with balance := d.balance + amount } else money (view h s) b := by
      intro b; rw [h4, money_set]
    have e := total_update (w := view h s) (w' := view h (after h (increaseBalance chk a amount) s)) n0 (l1 a d h2)
      fun b hb => by rw [hm, if_neg hb]
    rw [coins_some h2, coins_some ((hm a).trans (if_pos rfl))] at e
    have e2 := toNat_add h3
    refine (holds_iff hc _ _).2 ⟨l, n0, fun b d' hd => ?_, ?_⟩
    · rw [hm] at hd
      split at hd
      · rename_i hb; subst hb; exact l1 _ d h2
      · exact l1 b d' hd
    · simp only at e
      omega
  · have e1 : after h (increaseBalance chk a amount) s = s := congrArg Prod.fst h1
    have e2 : out h (increaseBalance chk a amount) s = .panic := congrArg Prod.snd h1
    rw [e1, e2]
    exact ⟨nofun, fun _ => hs⟩

/-- When `Runtime::transfer` returns an error, it has written nothing. -/
theorem transfer_err (chk : Bool) (src dst : Addr) (amount : U64) (w : View) (e : SErr)
    (he : ((transfer chk src dst amount).eval w).2 = .err e) : ((transfer chk src dst amount).eval w).1 = w := by
  have hro : ∀ {α : Type} {p : Prog α} (f : α → Prog Unit), ReadOnly p →
      (∀ a, ((f a).eval w).2 = .err e → ((f a).eval w).1 = w) → ((p.bind f).eval w).2 = .err e →
      ((p.bind f).eval w).1 = w := by
    intro α p f hp hf h1
    have hv := hp.eval w
    rw [Prog.eval_bind] at h1 ⊢
    cases hx : p.eval w with
    | mk w' o =>
      rw [hx] at h1 hv
      simp only at hv
      subst hv
      cases o with
      | ok a => exact hf a h1
      | err => rfl
      | panic => rfl
  unfold transfer at he ⊢
  simp only [Prog.bind_eq] at he ⊢
  refine hro _ (readOnly_load chk src).unwrap (fun srcAcc => hro _ (readOnly_getAccount chk dst) fun x => ?_) he
  cases x with
  | none => exact fun _ => rfl
  | some x =>
    refine hro _ (readOnly_load chk dst).unwrap fun dstAcc => ?_
    refine hro _ (readOnly_balance srcAcc).unwrap fun sb => hro _ (readOnly_balance dstAcc).unwrap fun db h1 => ?_
    exfalso
    unfold moveCoins at h1
    split at h1
    · cases h1
    · have hu : ∀ (p : Prog Unit) (w : View), (p.unwrap.eval w).2 ≠ .err e := by
        intro p w
        rw [Prog.eval_unwrap]
        split <;> simp
      simp only [Prog.bind_eq] at h1
      rw [Prog.eval_bind] at h1
      split at h1
      · split at h1
        · exact hu _ _ h1
        · cases h1
      · rename_i w1 e1 h2
        cases h1
        exact hu _ _ (congrArg Prod.snd h2)
      · cases h1

theorem holds_transfer {h : Hasher} (hc : NoCollision h) {s : Storage} {n : Nat} (hs : Holds h s n) (chk : Bool)
    (src dst : Addr) (amount : U64) (hne : src ≠ dst) (hp : out h (transfer chk src dst amount) s ≠ .panic) :
    Holds h (after h (transfer chk src dst amount) s) n := by
  have hcs := transfer_cases chk src dst amount (view h s)
  rw [out_eval hc] at hp
  cases ho : ((transfer chk src dst amount).eval (view h s)).2 with
  | panic => exact absurd ho hp
  | err e => exact hs.of_view hc ((view_after hc _ _).trans (transfer_err chk src dst amount _ e ho))
  | ok u =>
    rw [ho, ← view_after hc] at hcs
    obtain ⟨l, n0, l1, rfl⟩ := (holds_iff hc s n).1 hs
    generalize hw : view h (after h (transfer chk src dst amount) s) = w' at hcs
    generalize hb : isOk (Outcome.ok u : Outcome SErr Unit) = b at hcs
    cases hcs with
    | early => cases hb
    | overflow => cases hb
    | done ds dd h1 h2 h3 h4 =>
      refine (holds_iff hc _ _).2 ⟨l, n0, ?_, ?_⟩
      · rw [hw]
        exact l1.of_isSome fun a => money_isSome_moved h1 h2 a
      · rw [hw, total_moved n0 (l1 _ _ h1) (l1 _ _ h2) h1 h2 h3 h4, if_neg hne]
        omega

theorem holds_perform {h : Hasher} (hc : NoCollision h) {rs : RState} (hi : Inv rs.storage) {n : Nat}
    (hs : Holds h rs.storage n) (chk : Bool) (eng : Engine) (he : eng.Pays (· ≠ ·)) (pr : Pricer) (o : Orders) (tx : Tx)
    (hfree : ∀ a b, tx.spawns h a → bal h rs.storage a = some b → b = 0)
    (hr : (perform chk h eng pr o rs tx).2.isSome = true) :
    Holds h (perform chk h eng pr o rs tx).1.storage n := by
  obtain ⟨l0, n0, l1, rfl⟩ := (holds_iff hc _ n).1 hs
  -- a list for both states
  have hlist : ∃ l : List Addr, l.Nodup ∧ Lists (view h rs.storage) l ∧
      Lists (view h (perform chk h eng pr o rs tx).1.storage) l ∧
      total (view h rs.storage) l = total (view h rs.storage) l0 := by
    obtain ⟨w1, b, f1, f2⟩ := perform_flow hc hi chk eng he pr o tx
    rcases f2 with f2 | ⟨x, -, f2⟩
    · refine ⟨l0, n0, l1, ?_, rfl⟩
      exact l1.of_isSome fun a => by rw [f1.holders, f2]
    · obtain ⟨l, g1, g2, g3, g4, g5⟩ := lists_add n0 l1 x
      refine ⟨l, g1, g2, ?_, g5⟩
      have : Lists w1 l := by
        intro a d hd
        rw [f2] at hd
        split at hd
        · rename_i hb; subst hb; exact g3
        · exact g2 a d hd
      exact this.of_isSome fun a => f1.holders a
  obtain ⟨l, g1, g2, g3, g4⟩ := hlist
  obtain ⟨burnt, h1, -, h2⟩ := perform_total hc hi chk eng pr o tx g1 g2 g3
  have h3 := (h2 he).2 hr
  refine (holds_iff hc _ _).2 ⟨l, g1, g3, ?_⟩
  rcases h1 with rfl | ⟨a, ha, rfl⟩
  · omega
  · have h0 : coins (view h rs.storage) a = 0 := by
      rw [coins_bal hc]
      cases hb : bal h rs.storage a with
      | none => rfl
      | some b => rw [hfree a b ha hb]; rfl
    omega

/-! ### Layers -/

/-- A commit keeps what is readable. -/
theorem view_commit {h : Hasher} {s : Storage} (hi : Inv s) (hd : s.dirty = []) (o : Svm.Storage.Ord) :
    view h (Svm.Storage.commit o s).1 = view h s := by
  have hcp : Svm.Storage.checkpoint h .id s = s := by
    rw [Svm.Storage.checkpoint_eq, hd]
    obtain ⟨db, d, n⟩ := s
    simp only at hd
    subst hd
    rfl
  obtain ⟨s', fp, h1, h2⟩ := publish hi h .id o
  rw [hcp] at h1
  rw [h1]
  funext k
  exact h2.now _

/-- The books agree with a node. -/
structure BookOk (h : Hasher) (b : Book) (s : Storage) : Prop where
  newest : At (b.layers.length - 1) s
  now : Holds h s b.now
  layers : ∀ (i n : Nat), b.layers[i]? = some n → ∃ s₁, Settled i s₁ ∧ Kept i s₁ s ∧ Holds h s₁ n

/-- One more layer. -/
theorem BookOk.push {h : Hasher} {b : Book} {s s' : Storage} (hb : BookOk h b s) (ha : At b.layers.length s')
    (hs : ∃ n, Settled n s') (hh : Holds h s' b.now) (hk : ∀ (i : Nat) s₁, Kept i s₁ s → Kept i s₁ s') :
    BookOk h ⟨b.now, b.layers ++ [b.now]⟩ s' := by
  refine ⟨?_, hh, fun i n hi => ?_⟩
  · simp only [List.length_append, List.length_cons, List.length_nil]
    have : ((b.layers.length + (0 + 1) : Nat) : Int) - 1 = b.layers.length := by omega
    rw [this]
    exact ha
  · simp only at hi
    by_cases hl : i < b.layers.length
    · rw [List.getElem?_append_left hl] at hi
      obtain ⟨s₁, h1, h2, h3⟩ := hb.layers i n hi
      exact ⟨s₁, h1, hk i s₁ h2, h3⟩
    · rw [List.getElem?_append_right (by omega)] at hi
      have h0 : i - b.layers.length = 0 := by
        cases hx : i - b.layers.length with
        | zero => rfl
        | succ => rw [hx] at hi; simp at hi
      rw [h0] at hi
      simp only [List.getElem?_cons_zero, Option.some.injEq] at hi
      subst hi
      have hil : i = b.layers.length := by omega
      subst hil
      obtain ⟨m, hm⟩ := hs
      have : m = b.layers.length := by
        have e1 := ha.next
        rw [hm.next] at e1
        simp only at e1
        omega
      subst this
      exact ⟨s', hm, ⟨by rw [hm.next]; simp only; omega, rfl, rfl⟩, hh⟩

/-- No new layer. -/
theorem BookOk.stay {h : Hasher} {b : Book} {s s' : Storage} (hb : BookOk h b s) (m : Nat)
    (ha : At (b.layers.length - 1) s') (hh : Holds h s' m) (hk : ∀ (i : Nat) s₁, Kept i s₁ s → Kept i s₁ s') :
    BookOk h ⟨m, b.layers⟩ s' :=
  ⟨ha, hh, fun i n hi => by
    obtain ⟨s₁, h1, h2, h3⟩ := hb.layers i n hi
    exact ⟨s₁, h1, hk i s₁ h2, h3⟩⟩

theorem BookOk.step {h : Hasher} (hc : NoCollision h) {b : Book} {rs : RState} (hb : BookOk h b rs.storage)
    (chk : Bool) (o : Orders) (eng : Engine) (he : eng.Pays (· ≠ ·)) (pr : Pricer) (e : Event)
    (hm : ∀ a x, e.makes h a → bal h rs.storage a = some x → x = 0)
    (hp : ∀ src dst amount, e = .pay src dst amount → src ≠ dst)
    (hn : (Node.step chk h eng pr o rs e).2 ≠ .panic) :
    BookOk h (b.after e (Node.step chk h eng pr o rs e).2) (Node.step chk h eng pr o rs e).1.storage := by
  have hl : (-1 : Int) ≤ b.layers.length - 1 := by omega
  have ha := (hb.newest.step (h := h) hl chk o eng pr e).1
  have hset := settled_step (h := h) hb.newest hl chk o eng pr e
  have hkept : ∀ (i : Nat) s₁, e.RewindsFrom i → Kept i s₁ rs.storage →
      Kept i s₁ (Node.step chk h eng pr o rs e).1.storage :=
    fun i s₁ hr hk => kept_event hk hb.newest hl chk o eng pr e hr
  cases e with
  | tx t =>
    have hk : ∀ (i : Nat) s₁, Kept i s₁ rs.storage → Kept i s₁ (Node.step chk h eng pr o rs (.tx t)).1.storage :=
      fun i s₁ => hkept i s₁ trivial
    have hh : Holds h (Node.step chk h eng pr o rs (.tx t)).1.storage b.now := by
      refine holds_perform hc hb.newest.inv hb.now chk eng he pr o t hm ?_
      simp only [Node.step] at hn
      cases hx : (perform chk h eng pr o rs t).2 with
      | none => rw [hx] at hn; exact absurd rfl hn
      | some => rfl
    have hlen : (b.layers.length : Int) - 1 + 1 = b.layers.length := by omega
    generalize Node.step chk h eng pr o rs (.tx t) = r at *
    obtain ⟨rs', ans⟩ := r
    simp only at *
    cases ans with
    | receipt r =>
      cases r with
      | call r =>
        simp only [Book.after, layerAfter, Makes, Answer.Saves] at ha hset ⊢
        by_cases hsu : r.success = true
        · rw [if_pos hsu, hlen] at ha
          rw [if_pos hsu]
          exact hb.push ha (hset hsu) hh hk
        · rw [if_neg hsu] at ha ⊢
          exact hb.stay _ ha hh hk
      | spawn r =>
        simp only [Book.after, layerAfter, Makes, Answer.Saves] at ha hset ⊢
        by_cases hsu : r.success = true
        · rw [if_pos hsu, hlen] at ha
          rw [if_pos hsu]
          exact hb.push ha (hset hsu) hh hk
        · rw [if_neg hsu] at ha ⊢
          exact hb.stay _ ha hh hk
      | deploy r => exact hb.stay _ ha hh hk
      | verify r => exact hb.stay _ ha hh hk
    | panic => exact absurd rfl hn
    | _ => exact hb.stay _ ha hh hk
  | create a t nm x y =>
    have hh := holds_create hc hb.now chk a t nm x y
    have hr : Node.step chk h eng pr o rs (.create a t nm x y) =
      (⟨after h (createAccount chk a t nm x y) rs.storage, rs.cache⟩,
        answerOf (fun _ => .done) (out h (createAccount chk a t nm x y) rs.storage)) := rfl
    rw [hr] at ha hkept ⊢
    cases ho : out h (createAccount chk a t nm x y) rs.storage with
    | ok u =>
      rw [ho] at ha
      obtain ⟨n', h1, h2⟩ := hh.1 ho
      have h0 : ((bal h rs.storage a).map BitVec.toNat).getD 0 = 0 := by
        cases hx : bal h rs.storage a with
        | none => rfl
        | some v => rw [hm a v rfl hx]; rfl
      have h3 : n' = b.now + x.toNat := by omega
      subst h3
      exact hb.stay _ ha h1 fun i s₁ => hkept i s₁ trivial
    | err e =>
      rw [ho] at ha
      exact hb.stay _ ha (hh.2 (by rw [ho]; nofun)) fun i s₁ => hkept i s₁ trivial
    | panic =>
      rw [ho] at ha
      exact hb.stay _ ha (hh.2 (by rw [ho]; nofun)) fun i s₁ => hkept i s₁ trivial
  | credit a amount =>
    have hh := holds_credit hc hb.now chk a amount
    have hr : Node.step chk h eng pr o rs (.credit a amount) =
      (⟨after h (increaseBalance chk a amount) rs.storage, rs.cache⟩,
        answerOf (fun _ => .done) (out h (increaseBalance chk a amount) rs.storage)) := rfl
    rw [hr] at ha hkept ⊢
    cases ho : out h (increaseBalance chk a amount) rs.storage with
    | ok u =>
      rw [ho] at ha
      exact hb.stay _ ha (hh.1 ho) fun i s₁ => hkept i s₁ trivial
    | err e =>
      rw [ho] at ha
      exact hb.stay _ ha (hh.2 (by rw [ho]; nofun)) fun i s₁ => hkept i s₁ trivial
    | panic =>
      rw [ho] at ha
      exact hb.stay _ ha (hh.2 (by rw [ho]; nofun)) fun i s₁ => hkept i s₁ trivial
  | pay src dst amount =>
    have hr : Node.step chk h eng pr o rs (.pay src dst amount) =
      (⟨after h (transfer chk src dst amount) rs.storage, rs.cache⟩,
        answerOf (fun _ => .done) (out h (transfer chk src dst amount) rs.storage)) := rfl
    rw [hr] at ha hkept hn ⊢
    have hnp : out h (transfer chk src dst amount) rs.storage ≠ .panic := by
      intro hx
      rw [hx] at hn
      exact hn rfl
    have hh := holds_transfer hc hb.now chk src dst amount (hp _ _ _ rfl) hnp
    cases ho : out h (transfer chk src dst amount) rs.storage with
    | ok u =>
      rw [ho] at ha
      exact hb.stay _ ha hh fun i s₁ => hkept i s₁ trivial
    | err e =>
      rw [ho] at ha
      exact hb.stay _ ha hh fun i s₁ => hkept i s₁ trivial
    | panic => exact absurd ho hnp
  | account a =>
    have hr : Node.step chk h eng pr o rs (.account a) =
      (⟨after h (getAccount chk a) rs.storage, rs.cache⟩,
        answerOf .account (out h (getAccount chk a) rs.storage)) := rfl
    have hs : after h (getAccount chk a) rs.storage = rs.storage := (readOnly_getAccount chk a).run h _
    rw [hr, hs]
    cases out h (getAccount chk a) rs.storage <;> exact hb
  | layer =>
    show BookOk h (b.after .layer (currentLayer rs.storage)) rs.storage
    cases currentLayer rs.storage <;> exact hb
  | uncommitted => exact hb
  | commit =>
    by_cases hd : rs.storage.dirty = []
    · obtain ⟨rs', h1, h2, -⟩ := step_commit_done (h := h) hb.newest hl hd chk o eng pr
      have h3 : rs'.storage = (Svm.Storage.commit o.commit rs.storage).1 := (congrArg (·.1.storage) h1).symm
      rw [h1] at ha hkept hset ⊢
      have hlen : (b.layers.length : Int) - 1 + 1 = b.layers.length := by omega
      rw [hlen] at h2
      refine hb.push h2 (hset rfl) (hb.now.of_view hc ?_) fun i s₁ => hkept i s₁ trivial
      rw [h3]
      exact view_commit hb.newest.inv hd o.commit
    · have h1 : Node.step chk h eng pr o rs .commit = (rs, .refused) := by
        simp only [Node.step, commitLayer, Svm.Storage.commit_dirty hd]
      rw [h1]
      exact hb
  | rewind n =>
    by_cases hb63 : n < 2 ^ 63
    · rcases rewind_cases hb.newest.inv n with ⟨h1, h2, h3⟩ | ⟨h1, h2⟩
      · rw [hb.newest.next] at h1
        have hlt : n < b.layers.length := by omega
        obtain ⟨s₁, g1, g2, g3⟩ := hb.layers n _ (List.getElem?_eq_getElem hlt)
        have hr := rewind_settled g1 hb.newest.inv h2 g2
        have hstep : Node.step chk h eng pr o rs (.rewind n) = (⟨s₁, rs.cache⟩, .done) := by
          simp only [Node.step, rewindTo, if_pos hb63, hr]
        rw [hstep] at ha hkept ⊢
        refine ⟨?_, ?_, fun i m hi => ?_⟩
        · simp only [Book.after, List.length_take, Nat.min_eq_left (Nat.succ_le_of_lt hlt)]
          have : ((n + 1 : Nat) : Int) - 1 = n := by omega
          rw [this]
          exact ha
        · simp only [Book.after, List.getD_eq_getElem?_getD, List.getElem?_eq_getElem hlt, Option.getD_some]
          exact g3
        · simp only [Book.after, List.getElem?_take] at hi
          split at hi
          · rename_i hin
            obtain ⟨s₂, k1, k2, k3⟩ := hb.layers i m hi
            exact ⟨s₂, k1, hkept i s₂ (show (i : Int) ≤ n by omega) k2, k3⟩
          · cases hi
      · have hstep : (Node.step chk h eng pr o rs (.rewind n)).1 = rs := by
          simp only [Node.step, rewindTo, if_pos hb63, h1]
        have hans : (Node.step chk h eng pr o rs (.rewind n)).2 = .refused := by
          simp only [Node.step, rewindTo, if_pos hb63] at hn ⊢
          cases hx : (Svm.Storage.rewind rs.storage n).2 with
          | ok u => exact absurd hx (h2 u)
          | err => rfl
          | panic => rw [hx] at hn; exact absurd rfl hn
        rw [hstep, hans]
        exact hb
    · have hstep : Node.step chk h eng pr o rs (.rewind n) = (rs, .panic) := by
        simp only [Node.step, rewindTo, if_neg hb63]
      rw [hstep] at hn
      exact absurd rfl hn

theorem BookOk.history {h : Hasher} (hc : NoCollision h) (chk : Bool) {eng : Engine} (he : eng.Pays (· ≠ ·))
    (pr : Pricer) (es : List Event) {b : Book} {rs : RState} (hb : BookOk h b rs.storage) (os : Nat → Orders)
    (ho : Orderly chk h eng pr rs es os) (hn : ∀ a ∈ (Node.run chk h eng pr rs es os).2, a ≠ .panic) :
    BookOk h (b.afterAll es (Node.run chk h eng pr rs es os).2) (Node.run chk h eng pr rs es os).1.storage := by
  induction es generalizing b rs os with
  | nil => exact hb
  | cons e es ih =>
    simp only [Node.run, List.mem_cons, forall_eq_or_imp] at hn
    simp only [Node.run, Book.afterAll]
    exact ih (hb.step hc chk (os 0) eng he pr e ho.1 ho.2.1 hn.1) _ ho.2.2 hn.2

/-- A new node has no coins. -/
theorem holds_start {h : Hasher} (hc : NoCollision h) {ts : List (Addr × Sections)} {o : Orders} {rs : RState}
    (hs : Node.start h o ts = some rs) : Holds h rs.storage 0 := by
  have hst := (stored_start (Q := fun k _ => ∀ a, k ≠ .accMut a) hc
    (fun p _ core rest _ => ⟨fun _ _ => by simp, fun _ _ => by simp⟩) hs).1
  refine (holds_iff hc _ _).2 ⟨[], List.nodup_nil, fun a d hd => ?_, rfl⟩
  unfold money at hd
  cases hx : view h rs.storage (.accMut a) with
  | none => rw [hx] at hd; cases hd
  | some v => exact absurd rfl (hst.value hx a)

/-- **C122 (partial)**: over every history of deployments, spawns, calls, verifications, creations of accounts,
credits, payments, commits and rewinds from a new node, the coins of all accounts together are exactly those that
the creations and the credits brought in, less what was rewound. Calls and spawns, whatever their templates do, and
whether they succeed or fail, neither make nor burn a coin.

What is missing from `C122_claim`: no account is made over one that has coins (`C122_replaces`), and no account pays
itself, neither through `Runtime::transfer` nor through the host function of its template. -/
theorem C122_books_partial {h : Hasher} (hc : NoCollision h) {chk : Bool} {ts : List (Addr × Sections)} {o : Orders}
    {rs : RState} (hs : Node.start h o ts = some rs) {eng : Engine} (he : eng.Pays (· ≠ ·)) (pr : Pricer)
    (es : List Event) (os : Nat → Orders) (ho : Orderly chk h eng pr rs es os)
    (hn : ∀ a ∈ (Node.run chk h eng pr rs es os).2, a ≠ .panic) :
    Holds h (Node.run chk h eng pr rs es os).1.storage
      ((⟨0, []⟩ : Book).afterAll es (Node.run chk h eng pr rs es os).2).now :=
  (BookOk.history hc chk he pr es (b := ⟨0, []⟩) ⟨at_start hs, holds_start hc hs, fun i n hi => by cases hi⟩ os ho
    hn).now

/-- **C122, what the code does**: the creation of an account over another one succeeds, and the coins of the old one
are gone. -/
theorem C122_replaces {h : Hasher} (hc : NoCollision h) {s : Storage} {n : Nat} (hs : Holds h s n) (chk : Bool)
    (a t : Addr) (nm : Str) (x : U64) (y : U128) (hok : out h (createAccount chk a t nm x y) s = .ok ()) :
    ∃ n', Holds h (after h (createAccount chk a t nm x y) s) n' ∧
      n' + ((bal h s a).map BitVec.toNat).getD 0 = n + x.toNat :=
  (holds_create hc hs chk a t nm x y).1 hok

/-- There is only one such number. -/
theorem Holds.unique {h : Hasher} (hc : NoCollision h) {s : Storage} {n m : Nat} (hn : Holds h s n)
    (hm : Holds h s m) : n = m := by
  obtain ⟨l, n0, l1, rfl⟩ := (holds_iff hc s n).1 hn
  obtain ⟨l', n0', l1', rfl⟩ := (holds_iff hc s m).1 hm
  have hf : ∀ l : List Addr, total (view h s) l =
      total (view h s) (l.filter fun a => (money (view h s) a).isSome) := by
    intro l
    induction l with
    | nil => rfl
    | cons a l ih =>
      simp only [List.filter_cons]
      split
      · show coins _ a + total _ l = coins _ a + total _ _
        rw [ih]
      · rename_i hx
        show coins _ a + total _ l = total _ _
        rw [ih]
        have : coins (view h s) a = 0 := by
          unfold coins
          cases hm : money (view h s) a with
          | none => rfl
          | some d => rw [hm] at hx; exact absurd rfl hx
        omega
  rw [hf l, hf l']
  have hp : (l.filter fun a => (money (view h s) a).isSome).Perm
      (l'.filter fun a => (money (view h s) a).isSome) := by
    refine (List.perm_ext_iff_of_nodup (n0.filter _) (n0'.filter _)).2 fun a => ?_
    simp only [List.mem_filter]
    constructor
    · rintro ⟨-, ha⟩
      obtain ⟨d, hd⟩ := Option.isSome_iff_exists.1 ha
      exact ⟨l1' a d hd, ha⟩
    · rintro ⟨-, ha⟩
      obtain ⟨d, hd⟩ := Option.isSome_iff_exists.1 ha
      exact ⟨l1 a d hd, ha⟩
  exact (hp.map (coins (view h s))).sum_nat

/-- A node of the main network, on which accounts of its only template can be created. -/
theorem create_mainnet {h : Hasher} (hc : NoCollision h) (chk : Bool) {rs : RState}
    (hs : Node.start h ⟨.id, .id⟩ (mainnet h [0]) = some rs) (es : List Event)
    (he : ∀ e ∈ es, ∀ p ∈ mainnet h [0], e.Avoids chk h p.1) (eng : Engine) (pr : Pricer) (os : Nat → Orders)
    (a : Addr) (x : U64) (y : U128) : ∀ p ∈ mainnet h [0],
    out h (createAccount chk a p.1 aName x y) (Node.run chk h eng pr rs es os).1.storage = .ok () := by
  intro p hp
  have h1 := (C105_mainnet hc (chk := chk) hs eng pr es he os p hp).1
  rw [out_eval hc] at h1 ⊢
  generalize view h (Node.run chk h eng pr rs es os).1.storage = w at h1
  have h2 : (readSections chk p.1).eval w = (w, .ok (sctLoaded [0])) := by
    have hv := (readOnly_readSections chk p.1).eval w
    unfold loadTemplate at h1
    rw [Prog.eval_unwrap] at h1
    cases hx : (readSections chk p.1).eval w with
    | mk w' o =>
      rw [hx] at hv h1
      simp only at hv
      subst hv
      cases o <;> simp at h1
      rw [h1]
  unfold createAccount create templateLayout
  simp only [Prog.bind_eq]
  rw [Prog.eval_bind, Prog.eval_unwrap, Prog.eval_bind, Prog.eval_bind, h2]
  rfl

/-- A new account loads with the layout of its template. -/
theorem created_account {h : Hasher} (hc : NoCollision h) {chk : Bool} {a t : Addr} {nm : Str} {x : U64} {y : U128}
    {s : Storage} (hok : out h (createAccount chk a t nm x y) s = .ok ()) :
    ∃ l, ((templateLayout chk t).eval (view h s)).2 = .ok l ∧
      out h (load chk a) (after h (createAccount chk a t nm x y) s) = .ok ⟨a, t, l⟩ := by
  rw [out_eval hc] at hok
  have hev : (createAccount chk a t nm x y).eval (view h s) =
      (((createAccount chk a t nm x y).eval (view h s)).1, .ok ()) := Prod.ext rfl hok
  unfold createAccount at hev
  obtain ⟨w1, acc, h1, h2⟩ := eval_bind_eq_ok hev
  have h1' := unwrap_ok.1 h1
  unfold create at h1'
  obtain ⟨w2, l, h3, h4⟩ := eval_bind_eq_ok h1'
  have hro := (readOnly_templateLayout chk t).eval (view h s)
  rw [h3] at hro
  simp only at hro
  subst hro
  cases hd : encAccountData ⟨nm, t⟩ with
  | none => rw [hd] at h4; cases h4
  | some bs =>
    rw [hd] at h4
    have hw : view h (after h (createAccount chk a t nm x y) s) =
        ((view h s).set (.accData a) bs).set (.accMut a) (mutBytes ⟨x, y⟩) := by
      rw [view_after hc]
      have e1 : w1 = ((view h s).set (.accData a) bs).set (.accMut a) (mutBytes ⟨x, y⟩) :=
        (congrArg Prod.fst h4).symm
      have e2 : ((createAccount chk a t nm x y).eval (view h s)).1 = w1 := (congrArg Prod.fst h2).symm
      rw [e2, e1]
    have hi : info (view h (after h (createAccount chk a t nm x y) s)) a = some ⟨nm, t⟩ := by
      unfold info
      have hdec := roundTrip_accountData _ bs [] hd
      rw [List.append_nil] at hdec
      rw [hw, View.set_ne _ _ (by simp), View.set_self]
      simp only [hdec]
    have hl : ((templateLayout chk t).eval (view h (after h (createAccount chk a t nm x y) s))).2 = .ok l := by
      rw [Svm.Ffi.templateLayout_congr chk t (w' := view h s), h3]
      · rw [hw, View.set_ne _ _ (by simp), View.set_ne _ _ (by simp)]
      · rw [hw, View.set_ne _ _ (by simp), View.set_ne _ _ (by simp)]
    refine ⟨l, by rw [h3], ?_⟩
    rw [out_eval hc]
    unfold load
    simp only [Prog.bind_eq]
    rw [Prog.eval_bind_ok (info_read hi), Prog.eval_bind]
    generalize (templateLayout chk t).eval _ = q at hl
    obtain ⟨q1, q2⟩ := q
    simp only at hl
    subst hl
    rfl

/-- An account that was just created can be loaded. -/
theorem created_loads {h : Hasher} (hc : NoCollision h) {chk : Bool} {a t : Addr} {nm : Str} {x : U64} {y : U128}
    {s : Storage} (hok : out h (createAccount chk a t nm x y) s = .ok ()) :
    (∃ acc, out h (load chk a) (after h (createAccount chk a t nm x y) s) = .ok acc) ∧
      bal h (after h (createAccount chk a t nm x y) s) a = some x := by
  constructor
  · obtain ⟨l, -, h1⟩ := created_account hc hok
    exact ⟨_, h1⟩
  · rw [out_eval hc] at hok
    rcases createAccount_general chk a t nm x y (view h s) with ⟨-, h2⟩ | ⟨h1, -⟩
    · rw [bal_money hc, view_after hc, h2, if_pos rfl]
      rfl
    · exact absurd hok h1

/-- Running one event after another. -/
theorem run_two (chk : Bool) (h : Hasher) (eng : Engine) (pr : Pricer) (rs : RState) (e e' : Event)
    (os : Nat → Orders) : Node.run chk h eng pr rs [e, e'] os =
      ((Node.step chk h eng pr (os 1) (Node.step chk h eng pr (os 0) rs e).1 e').1,
        [(Node.step chk h eng pr (os 0) rs e).2,
          (Node.step chk h eng pr (os 1) (Node.step chk h eng pr (os 0) rs e).1 e').2]) := rfl

theorem step_create {chk : Bool} {h : Hasher} {rs : RState} {a t : Addr} {nm : Str} {x : U64} {y : U128}
    (hok : out h (createAccount chk a t nm x y) rs.storage = .ok ()) (o : Orders) (eng : Engine) (pr : Pricer) :
    Node.step chk h eng pr o rs (.create a t nm x y) =
      (⟨after h (createAccount chk a t nm x y) rs.storage, rs.cache⟩, .done) :=
  Prod.ext rfl (congrArg (answerOf fun _ => Answer.done) hok)

theorem step_credit {chk : Bool} {h : Hasher} {rs : RState} {a : Addr} {amount : U64}
    (hok : out h (increaseBalance chk a amount) rs.storage = .ok ()) (o : Orders) (eng : Engine) (pr : Pricer) :
    Node.step chk h eng pr o rs (.credit a amount) =
      (⟨after h (increaseBalance chk a amount) rs.storage, rs.cache⟩, .done) :=
  Prod.ext rfl (congrArg (answerOf fun _ => Answer.done) hok)

theorem start_mainnet {h : Hasher} (hc : NoCollision h) :
    ∃ rs, Node.start h ⟨.id, .id⟩ (mainnet h [0]) = some rs :=
  (C105_starts_iff hc (C104_mainnet h [0]).valid ⟨.id, .id⟩).2 (by
    intro p hp
    cases List.mem_singleton.1 hp
    refine ⟨⟨_, List.mem_cons_self⟩, ⟨[], by simp [sctSections]⟩, ⟨_, by simp [sctSections]; rfl⟩, ?_⟩
    show ∀ x ∈ sctSections [0], (encWithPreview x).isSome
    decide)

/-- **C122 fails**: an account with 5 coins is created, and then another one with 7 at the same address. -/
theorem C122_claim_false : ¬ C122_claim := by
  intro hcl
  obtain ⟨h, hc⟩ := exists_noCollision
  obtain ⟨rs, hs⟩ := start_mainnet hc
  have hmem : (computeTemplateAddr h { code := [0], flags := 0, gasMode := .fixed, svmVersion := 0 },
    sctSections [0]) ∈ mainnet h [0] := List.mem_singleton.2 rfl
  generalize computeTemplateAddr h { code := [0], flags := 0, gasMode := .fixed, svmVersion := 0 } = t at hmem
  have c1 := create_mainnet hc true hs [] (by simp) idleEngine flatPricer (fun _ => ⟨.id, .id⟩) (exampleAddr 1) 5 0
    _ hmem
  have s1 := step_create (rs := rs) c1 ⟨.id, .id⟩ idleEngine flatPricer
  have c2 := create_mainnet hc true hs [.create (exampleAddr 1) t aName 5 0] (by simp [Event.Avoids]) idleEngine
    flatPricer (fun _ => ⟨.id, .id⟩) (exampleAddr 1) 7 0 _ hmem
  simp only [Node.run, s1] at c2
  have s2 := step_create (rs := ⟨after h (createAccount true (exampleAddr 1) t aName 5 0) rs.storage, rs.cache⟩) c2
    ⟨.id, .id⟩ idleEngine flatPricer
  obtain ⟨n1, h1, h2⟩ := C122_replaces hc (holds_start hc hs) true (exampleAddr 1) t aName 5 0 c1
  have hb := (created_loads hc c1).2
  obtain ⟨n2, h3, h4⟩ := C122_replaces hc h1 true (exampleAddr 1) t aName 7 0 c2
  rw [show bal h (after h (createAccount true (exampleAddr 1) t aName 5 0) rs.storage) (exampleAddr 1) = some 5
    from hb] at h4
  have h5 := hcl h hc true _ _ rs idleEngine flatPricer
    [.create (exampleAddr 1) t aName 5 0, .create (exampleAddr 1) t aName 7 0] (fun _ => ⟨.id, .id⟩) hs
  rw [run_two, s1] at h5
  simp only at h5
  rw [s2] at h5
  have h6 := (h5 (by simp)).unique hc h3
  have e : ((⟨0, []⟩ : Book).afterAll [.create (exampleAddr 1) t aName 5 0, .create (exampleAddr 1) t aName 7 0]
    [.done, .done]).now = 12 := rfl
  rw [e] at h6
  have e5 : BitVec.toNat (5 : U64) = 5 := rfl
  have e7 : BitVec.toNat (7 : U64) = 7 := rfl
  simp only [Option.map_some, Option.getD_some] at h4
  omega

/-- Non-vacuity of C121 and C122: an account with 5 coins on the main network gets 3 more. -/
example : ∃ h rs t, NoCollision h ∧ Node.start h ⟨.id, .id⟩ (mainnet h [0]) = some rs ∧
    idleEngine.Pays (· ≠ ·) ∧ ∃ s,
      Creditable true h s (exampleAddr 1) 3 ∧
      Node.run true h idleEngine flatPricer rs [.create (exampleAddr 1) t aName 5 0, .credit (exampleAddr 1) 3]
        (fun _ => ⟨.id, .id⟩) = (⟨after h (increaseBalance true (exampleAddr 1) 3) s, rs.cache⟩, [.done, .done]) ∧
      Orderly true h idleEngine flatPricer rs
        [.create (exampleAddr 1) t aName 5 0, .credit (exampleAddr 1) 3] (fun _ => ⟨.id, .id⟩) ∧
      ((⟨0, []⟩ : Book).afterAll [.create (exampleAddr 1) t aName 5 0, .credit (exampleAddr 1) 3]
        [.done, .done]).now = 8 := by
  obtain ⟨h, hc⟩ := exists_noCollision
  obtain ⟨rs, hs⟩ := start_mainnet hc
  have hmem : (computeTemplateAddr h { code := [0], flags := 0, gasMode := .fixed, svmVersion := 0 },
    sctSections [0]) ∈ mainnet h [0] := List.mem_singleton.2 rfl
  generalize computeTemplateAddr h { code := [0], flags := 0, gasMode := .fixed, svmVersion := 0 } = t at hmem
  have c1 := create_mainnet hc true hs [] (by simp) idleEngine flatPricer (fun _ => ⟨.id, .id⟩) (exampleAddr 1) 5 0
    _ hmem
  have s1 := step_create (rs := rs) c1 ⟨.id, .id⟩ idleEngine flatPricer
  obtain ⟨l1, b1⟩ := created_loads hc c1
  have hcr : Creditable true h (after h (createAccount true (exampleAddr 1) t aName 5 0) rs.storage)
    (exampleAddr 1) 3 := ⟨l1, 5, b1, by decide⟩
  have s2 := step_credit (rs := ⟨after h (createAccount true (exampleAddr 1) t aName 5 0) rs.storage, rs.cache⟩)
    ((C121_iff hc _ true _ _).1.2 hcr) ⟨.id, .id⟩ idleEngine flatPricer
  refine ⟨h, rs, t, hc, hs, ?_, _, hcr, ?_, ?_, rfl⟩
  · rintro code m hm
    cases hm
    exact ⟨trivial, fun _ _ _ _ => trivial⟩
  · rw [run_two, s1]
    simp only
    rw [s2]
  · refine ⟨fun a b ha hb => ?_, nofun, ?_, nofun, trivial⟩
    · obtain ⟨l, -, h2, h3⟩ := holds_start hc hs
      have hz : ∀ l : List Addr, supply h rs.storage l = 0 → ∀ a ∈ l, ∀ b, bal h rs.storage a = some b → b = 0 := by
        intro l
        induction l with
        | nil => exact fun _ a ha => by cases ha
        | cons c l ih =>
          intro hz a ha b hb
          unfold supply at hz ih
          simp only [List.map_cons, List.sum_cons] at hz
          rcases List.mem_cons.1 ha with rfl | ha
          · rw [hb] at hz
            have : b.toNat = 0 := by simpa using (Nat.add_eq_zero_iff.1 hz).1
            exact BitVec.eq_of_toNat_eq (by simpa using this)
          · exact ih (Nat.add_eq_zero_iff.1 hz).2 a ha b hb
      exact hz l h3 a (h2 a b hb) b hb
    · exact fun a b ha => by cases ha

end Svm.Runtime
