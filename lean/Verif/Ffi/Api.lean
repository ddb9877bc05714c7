import Verif.Runtime.Deploy
import Verif.Runtime.Isolation
import Verif.Codec.Props

/-!
# Functions of the C API on a runtime (C82, C83)

`crates/host/runtime-ffi/src/c_api.rs`. A panic of a function is caught and becomes an error result
(c_api.rs:670-689); what it wrote before stays. Pointers of arguments are represented by the bytes they
point to, as many as the caller provides.
-/

namespace Svm.Ffi

open Svm.Codec Svm.Account Svm.Runtime
open Svm.Storage (Hasher Storage)
open Svm.Layout (FixedLayout)

/-! ## Model: accounts -/

/-- `struct svm_account`, c_api.rs:505-515. -/
structure SvmAccount where
  address : Addr
  balance : U64
  counterUpper : U64
  counterLower : U64
  templateAddr : Addr
  deriving DecidableEq

/-- `svm_account::counter`, c_api.rs:519-521. -/
def SvmAccount.counter (a : SvmAccount) : U128 :=
  (a.counterUpper.setWidth 128 <<< 64) ||| a.counterLower.setWidth 128

/-- `svm_get_account`, c_api.rs:527-548: the structure of the caller afterwards. Whether the pointer to it
is null is not modelled. -/
def svmGetAccount (chk : Bool) (a : Addr) (account : SvmAccount) : Prog SvmAccount := do
  let data ← getAccount chk a
  let d ← .ofOption data
  return { account with
    balance := d.1
    counterUpper := (d.2.1 >>> 64).setWidth 64
    counterLower := d.2.1.setWidth 64
    templateAddr := d.2.2 }

/-- `svm_create_genesis_account`, c_api.rs:553-569, and `Runtime::create_genesis_account`,
runtime.rs:508-528; `sct` is the address of the template of `svm_genesis_config::sct`. -/
def svmCreateGenesisAccount (chk : Bool) (sct a : Addr) (balance upper lower : U64) : Prog Unit := do
  let counter : U128 := (upper.setWidth 128 <<< 64) ||| lower.setWidth 128
  let _ ← (create chk a ⟨[], by decide⟩ sct balance counter).unwrap
  return ()

/-! ## Spec: accounts -/

/-- C82 in full: `svm_get_account` fills in all fields of the structure. -/
def C82_claim : Prop :=
  ∀ (h : Hasher) (s : Storage) (chk : Bool) (a : Addr) (before account : SvmAccount), NoCollision h →
    out h (svmGetAccount chk a before) s = .ok account →
    account.address = a ∧ out h (balance (handle a)) s = .ok account.balance ∧
      out h (counter (handle a)) s = .ok account.counter ∧
      out h (templateAddr (handle a)) s = .ok account.templateAddr

/-! ## Proofs: accounts -/

theorem merge_split (c : U128) :
    (((c >>> 64).setWidth 64).setWidth 128 <<< 64) ||| (c.setWidth 64).setWidth 128 = c := by
  apply BitVec.eq_of_getElem_eq
  intro i hi
  simp only [BitVec.getElem_or, BitVec.getElem_shiftLeft, BitVec.getElem_setWidth,
    BitVec.getLsbD_setWidth, BitVec.getLsbD_ushiftRight]
  by_cases h : i < 64
  · simp [h, BitVec.getLsbD_eq_getElem hi]
  · have : 64 + (i - 64) = i := by omega
    simp [h, this, BitVec.getLsbD_eq_getElem hi, show i - 64 < 64 by omega]

theorem split_upper (u l : U64) :
    (((u.setWidth 128 <<< 64) ||| l.setWidth 128 : U128) >>> 64).setWidth 64 = u := by
  apply BitVec.eq_of_getElem_eq
  intro i hi
  simp only [BitVec.getElem_setWidth, BitVec.getLsbD_ushiftRight, BitVec.getLsbD_or,
    BitVec.getLsbD_shiftLeft, BitVec.getLsbD_setWidth]
  have : 64 + i - 64 = i := by omega
  simp [this, show 64 + i < 128 by omega, show i < 128 by omega, BitVec.getLsbD_eq_getElem hi]

theorem split_lower (u l : U64) :
    ((u.setWidth 128 <<< 64) ||| l.setWidth 128 : U128).setWidth 64 = l := by
  apply BitVec.eq_of_getElem_eq
  intro i hi
  simp only [BitVec.getElem_setWidth, BitVec.getLsbD_or, BitVec.getLsbD_shiftLeft,
    BitVec.getLsbD_setWidth]
  simp [hi, show i < 128 by omega]

theorem attempt_eval {α : Type} (p : Prog α) (w : View) : (attempt p).eval w =
    ((p.eval w).1, match (p.eval w).2 with
      | .ok a => .ok (some a)
      | .err _ => .ok none
      | .panic => .panic) := by
  induction p generalizing w with
  | ret a => rfl
  | err e => rfl
  | panic => rfl
  | get k f ih => exact ih _ _
  | set k v p ih => exact ih _

theorem templateLayout_congr (chk : Bool) (t : Addr) {w w' : View} (h1 : w (.core t) = w' (.core t))
    (h2 : w (.noncore t) = w' (.noncore t)) :
    ((templateLayout chk t).eval w).2 = ((templateLayout chk t).eval w').2 := by
  unfold templateLayout
  refine Account.bind_congr (readOnly_readSections chk t |>.eval w)
    (readOnly_readSections chk t |>.eval w') (readSections_congr chk t h1 h2) fun ss => ?_
  split <;> rfl

/-- What `getAccount` finds. -/
theorem getAccount_some {chk : Bool} {a : Addr} {w w' : View} {b : U64} {c : U128} {t : Addr}
    (h0 : (getAccount chk a).eval w = (w', .ok (some (b, c, t)))) :
    w' = w ∧ money w a = some ⟨b, c⟩ ∧ ∃ nm, info w a = some ⟨nm, t⟩ := by
  unfold getAccount at h0
  rw [attempt_eval] at h0
  generalize hp : Prog.eval _ w = r at h0
  obtain ⟨w1, o⟩ := r
  cases o with
  | err | panic => cases h0
  | ok x =>
    cases h0
    obtain ⟨v1, acc, e1, hp⟩ := eval_bind_eq_ok hp
    obtain ⟨v2, b', e2, hp⟩ := eval_bind_eq_ok hp
    obtain ⟨v3, c', e3, hp⟩ := eval_bind_eq_ok hp
    obtain ⟨v4, t', e4, hp⟩ := eval_bind_eq_ok hp
    cases hp
    obtain ⟨rfl, _, rfl, _⟩ := load_ok e1
    obtain ⟨rfl, d, hm, rfl⟩ := balance_ok e2
    rw [counter_eval hm] at e3
    cases e3
    unfold templateAddr at e4
    obtain ⟨v5, di, e5, e6⟩ := eval_bind_eq_ok e4
    obtain ⟨rfl, hi⟩ := read_info e5
    clear e4 e5
    cases e6
    exact ⟨rfl, hm, di.name, hi⟩

theorem templateAddr_eval {w : View} {acc : Acc} {d : AccountData} (h : info w acc.addr = some d) :
    (templateAddr acc).eval w = (w, .ok d.template) := by
  unfold templateAddr
  rw [Prog.bind_eq, Prog.eval_bind_ok (info_read h)]
  rfl

theorem getAccount_eval {chk : Bool} {a : Addr} {w : View} {acc : Acc} {m : AccountMut}
    {d : AccountData} (h1 : (load chk a).eval w = (w, .ok acc)) (h2 : money w a = some m)
    (h3 : info w a = some d) :
    (getAccount chk a).eval w = (w, .ok (some (m.balance, m.counter, d.template))) := by
  obtain ⟨_, _, rfl, _⟩ := load_ok h1
  unfold getAccount
  rw [attempt_eval]
  simp only [Prog.bind_eq]
  rw [Prog.eval_bind_ok h1, Prog.eval_bind_ok (balance_eval h2), Prog.eval_bind_ok (counter_eval h2),
    Prog.eval_bind_ok (templateAddr_eval h3)]
  rfl

theorem svmGetAccount_ok {chk : Bool} {a : Addr} {before account : SvmAccount} {w w' : View}
    (h0 : (svmGetAccount chk a before).eval w = (w', .ok account)) :
    ∃ c nm, account.address = before.address ∧ account.counter = c ∧
      money w a = some ⟨account.balance, c⟩ ∧ info w a = some ⟨nm, account.templateAddr⟩ := by
  unfold svmGetAccount at h0
  obtain ⟨v1, o, e1, h1⟩ := eval_bind_eq_ok h0
  clear h0
  cases o with
  | none => cases h1
  | some d =>
    obtain ⟨b, c, t⟩ := d
    obtain ⟨rfl, hm, nm, hi⟩ := getAccount_some e1
    clear e1
    cases h1
    exact ⟨c, nm, rfl, merge_split c, hm, hi⟩

/-- C82, all but the address: what `svm_get_account` fills in is what the getters of the account report;
both halves of the counter make up the whole counter. Missing: the address, see `C82_address`. -/
theorem C82_reports_partial {h : Hasher} (hc : NoCollision h) {s : Storage} {chk : Bool} {a : Addr}
    {before account : SvmAccount} (hok : out h (svmGetAccount chk a before) s = .ok account) :
    out h (balance (handle a)) s = .ok account.balance ∧
      out h (counter (handle a)) s = .ok account.counter ∧
      out h (templateAddr (handle a)) s = .ok account.templateAddr := by
  rw [out_eval hc] at hok
  obtain ⟨c, nm, _, h2, h3, h4⟩ := svmGetAccount_ok (w' := _) (Prod.ext rfl hok)
  simp only [out_eval hc]
  rw [balance_eval (acc := handle a) h3, counter_eval (acc := handle a) h3,
    templateAddr_eval (acc := handle a) h4, h2]
  exact ⟨rfl, rfl, rfl⟩

/-- C82, the address: it keeps whatever value it had before the call. -/
theorem C82_address {h : Hasher} (hc : NoCollision h) {s : Storage} {chk : Bool} {a : Addr}
    {before account : SvmAccount} (hok : out h (svmGetAccount chk a before) s = .ok account) :
    account.address = before.address := by
  rw [out_eval hc] at hok
  obtain ⟨_, _, h1, _⟩ := svmGetAccount_ok (w' := _) (Prod.ext rfl hok)
  exact h1

/-- C82, accounts of the genesis: an account created by `svm_create_genesis_account` is reported with the
balance, both halves of the counter and the template it was created with. -/
theorem C82_genesis {h : Hasher} (hc : NoCollision h) {s : Storage} {chk : Bool} {sct a : Addr}
    {b upper lower : U64} (before : SvmAccount)
    (hok : out h (svmCreateGenesisAccount chk sct a b upper lower) s = .ok ()) :
    out h (svmGetAccount chk a before) (after h (svmCreateGenesisAccount chk sct a b upper lower) s) =
      .ok ⟨before.address, b, upper, lower, sct⟩ := by
  rw [out_eval hc] at hok ⊢
  rw [view_after hc]
  obtain ⟨w, hev⟩ : ∃ w, (svmCreateGenesisAccount chk sct a b upper lower).eval (view h s) =
      (w, .ok ()) := ⟨_, Prod.ext rfl hok⟩
  rw [hev]
  clear hok
  unfold svmCreateGenesisAccount at hev
  obtain ⟨w1, acc, e1, hev1⟩ := eval_bind_eq_ok hev
  clear hev
  cases hev1
  rw [unwrap_ok] at e1
  have hcr : out h (create chk a ⟨[], by decide⟩ sct b
      ((upper.setWidth 128 <<< 64) ||| lower.setWidth 128)) s = .ok acc := by
    rw [out_eval hc, e1]
  obtain ⟨_, hi, hm⟩ := create_info hc hcr
  rw [view_after hc, e1] at hi hm
  have hload : (load chk a).eval w = (w, .ok acc) := by
    unfold create at e1
    obtain ⟨w2, l, hl, e2⟩ := eval_bind_eq_ok e1
    obtain ⟨rfl, _⟩ := templateLayout_ok hl
    obtain ⟨w3, _, h3, e3⟩ := eval_bind_eq_ok e2
    obtain ⟨w4, _, h4, e4⟩ := eval_bind_eq_ok e3
    clear e1 e2 e3
    cases hd : encAccountData ⟨⟨[], by decide⟩, sct⟩ with
    | none => rw [hd] at h3; cases h3
    | some bs =>
      rw [hd] at h3
      cases h3
      cases h4
      cases e4
      unfold load
      have hl3 : ∀ v, (templateLayout chk sct).eval (((view h s).set (.accData a) bs).set (.accMut a) v)
          = (((view h s).set (.accData a) bs).set (.accMut a) v, .ok l) := by
        intro v
        refine Prod.ext (readOnly_templateLayout chk sct |>.eval _) ?_
        rw [← templateLayout_congr chk sct (w := view h s), hl]
        · rw [View.set_ne _ _ (by simp), View.set_ne _ _ (by simp)]
        · rw [View.set_ne _ _ (by simp), View.set_ne _ _ (by simp)]
      simp only [Prog.bind_eq]
      rw [Prog.eval_bind_ok (info_read hi), Prog.eval_bind_ok (hl3 _)]
      rfl
  unfold svmGetAccount
  simp only [Prog.bind_eq]
  rw [Prog.eval_bind_ok (getAccount_eval hload hm hi), Prog.eval_bind_ok (Prog.eval_ofOption_some _ _)]
  exact congrArg₂ (fun u l => Outcome.ok (SvmAccount.mk before.address b u l sct))
    (split_upper upper lower) (split_lower upper lower)

/-- The genesis account of the demo template can be created. -/
theorem demo_genesis {h : Hasher} (hc : NoCollision h) (a : Addr) (b upper lower : U64) :
    out h (svmCreateGenesisAccount true demoTemplate a b upper lower) (demoCommitted h) = .ok () := by
  have hr := ready_demo hc
  obtain ⟨acc, hacc⟩ := (C18_create_ok_iff hc (s := demoCommitted h) true (t := demoTemplate) (a := a)
    (nm := ⟨[], by decide⟩) (b := b) (c := (upper.setWidth 128 <<< 64) ||| lower.setWidth 128)).2
    ⟨⟨demoLayout, by rw [out_eval hc, eval_demoLayout hr.core hr.noncore]⟩, by decide⟩
  rw [out_eval hc] at hacc ⊢
  unfold svmCreateGenesisAccount
  rw [Prog.bind_eq, Prog.eval_bind_ok (unwrap_ok.2 (Prod.ext rfl hacc))]
  rfl

/-- C82 is violated by the code: the address is not filled in. -/
theorem C82_claim_false : ¬ C82_claim := by
  intro hcl
  obtain ⟨h, hc⟩ := exists_noCollision
  have := (hcl h _ true (exampleAddr 1) ⟨exampleAddr 2, 0, 0, 0, exampleAddr 2⟩ _ hc
    (C82_genesis hc _ (demo_genesis hc (exampleAddr 1) 10 1 2))).1
  exact absurd this (by decide +kernel)

/-- Non-vacuity: an account with balance 10 and counter `2 ^ 64 + 2` is created and reported. -/
example : ∃ h s, NoCollision h ∧ out h (svmGetAccount true (exampleAddr 1)
    ⟨exampleAddr 2, 0, 0, 0, exampleAddr 2⟩) s =
      .ok ⟨exampleAddr 2, 10, 1, 2, demoTemplate⟩ := by
  obtain ⟨h, hc⟩ := exists_noCollision
  exact ⟨h, _, hc, C82_genesis hc _ (demo_genesis hc (exampleAddr 1) 10 1 2)⟩

example : (SvmAccount.mk (exampleAddr 2) 10 1 2 demoTemplate).counter.toNat = 2 ^ 64 + 2 := by
  decide +kernel

/-! ## Model: actions -/

/-- The three kinds of `svm_result_t`, runtime-ffi/src/result.rs:4-12; the text of errors is left out. -/
inductive Result where
  | ok
  | receipt (bytes : Bytes)
  | error
  deriving DecidableEq

/-- `svm_result_t::new_receipt`, result.rs:54-63, within `catch_unwind_or_fail`: the length must fit 32
bits. `none` stands for a panic of the encoder. -/
def newReceipt : Option Bytes → Result
  | some bs => if bs.length < 2 ^ 32 then .receipt bs else .error
  | none => .error

/-- `svm_runtime_action`, c_api.rs:610-635. `known` says whether the tracker knows the runtime pointer,
`σ` are the states of a runtime, `f` is the action (`none` when it panics) and `enc` the encoder of its
receipts. -/
def runtimeAction {σ R : Type} (f : Envelope → Bytes → Context → σ → σ × Option R) (enc : R → Enc)
    (known : Bool) (envelope message : Bytes) (messageSize : U32) (context : Bytes) (s : σ) :
    σ × Result :=
  if known then
    match decEnvelope (envelope.take envelopeSize) with
    | .ok (e, _) =>
      match decContext (context.take contextSize) with
      | .ok (c, _) =>
        match f e (message.take messageSize.toNat) c s with
        | (s', some r) => (s', newReceipt (enc r))
        | (s', none) => (s', .error)
      | _ => (s, .error)
    | _ => (s, .error)
  else (s, .error)

/-! ## Spec: actions -/

/-- What the caller gets when the action ends in `after`: the encoding of its receipt if there is one that
can be encoded and has less than 4 GiB, an error otherwise, and the runtime is as the action left it. -/
def Replies {σ R : Type} (enc : R → Option Bytes) (after : σ × Option R) (answer : σ × Result) : Prop :=
  answer.1 = after.1 ∧
    ∀ bs, answer.2 = .receipt bs ↔ bs.length < 2 ^ 32 ∧ ∃ r, after.2 = some r ∧ enc r = some bs

/-- C83 in full: the action runs on exactly the envelope, message and context that the caller has encoded,
whatever follows them in memory, and its receipt is returned. -/
def C83_claim : Prop :=
  ∀ (σ R : Type) (f : Envelope → Bytes → Context → σ → σ × Option R) (enc : R → Option Bytes)
    (e : Envelope) (m : Bytes) (c : Context) (s : σ) (eb cb x y z : Bytes), m.length < 2 ^ 32 →
    encEnvelope e = some eb → encContext c = some cb →
    Replies enc (f e m c s)
      (runtimeAction f enc true (eb ++ x) (m ++ y) (BitVec.ofNat 32 m.length) (cb ++ z) s)

/-! ## Proofs: actions -/

theorem replies_action {σ R : Type} (enc : R → Option Bytes) (after : σ × Option R) :
    Replies enc after (match after with
      | (s', some r) => (s', newReceipt (enc r))
      | (s', none) => (s', .error)) := by
  obtain ⟨s', o⟩ := after
  cases o with
  | none => exact ⟨rfl, fun bs => by simp⟩
  | some r =>
    refine ⟨rfl, fun bs => ?_⟩
    cases he : enc r with
    | none => simp [newReceipt, he]
    | some b =>
      by_cases hb : b.length < 2 ^ 32
      · simp only [newReceipt, if_pos hb, Result.receipt.injEq, Option.some.injEq, exists_eq_left', he]
        constructor
        · rintro rfl; exact ⟨hb, rfl⟩
        · exact fun h => h.2
      · simp only [newReceipt, if_neg hb, Option.some.injEq, exists_eq_left', he, reduceCtorEq,
          false_iff]
        rintro ⟨h1, rfl⟩
        exact hb h1

/-- C83 for every envelope whose gas limit is not zero. Missing: gas limit zero, which the action sees as
no limit (`C83_zero_gas`). -/
theorem C83_action_partial {σ R : Type} (f : Envelope → Bytes → Context → σ → σ × Option R)
    (enc : R → Option Bytes) (e : Envelope) (hgas : e.gasLimit ≠ some 0) (m : Bytes) (c : Context)
    (s : σ) {eb cb : Bytes} (x y z : Bytes) (hm : m.length < 2 ^ 32) (he : encEnvelope e = some eb)
    (hcx : encContext c = some cb) :
    Replies enc (f e m c s)
      (runtimeAction f enc true (eb ++ x) (m ++ y) (BitVec.ofNat 32 m.length) (cb ++ z) s) := by
  obtain ⟨eb', he', hl, hd⟩ := C37_envelope_lossless_partial e []
  obtain ⟨cb', hc', hl', hd'⟩ := C39_spawn_context_lossless.2 c []
  rw [he] at he'
  rw [hcx] at hc'
  cases he'
  cases hc'
  have hd := hd hgas
  rw [List.append_nil] at hd hd'
  have hs : (BitVec.ofNat 32 m.length : U32).toNat = m.length := by
    rw [BitVec.toNat_ofNat]; exact Nat.mod_eq_of_lt hm
  unfold runtimeAction
  rw [if_pos rfl, List.take_append_of_le_length (by rw [hl]; decide),
    List.take_of_length_le (by rw [hl]; decide), hd,
    List.take_append_of_le_length (l₁ := cb) (by rw [hl']; decide),
    List.take_of_length_le (l := cb) (by rw [hl']; decide), hd', hs, List.take_left]
  exact replies_action enc _

/-- C83, gas limit zero: the action runs with an unlimited gas limit instead. -/
theorem C83_zero_gas {σ R : Type} (f : Envelope → Bytes → Context → σ → σ × Option R)
    (enc : R → Option Bytes) (e : Envelope) (hgas : e.gasLimit = some 0) (m : Bytes) (c : Context)
    (s : σ) {eb cb : Bytes} (x y z : Bytes) (hm : m.length < 2 ^ 32) (he : encEnvelope e = some eb)
    (hcx : encContext c = some cb) :
    Replies enc (f { e with gasLimit := none } m c s)
      (runtimeAction f enc true (eb ++ x) (m ++ y) (BitVec.ofNat 32 m.length) (cb ++ z) s) := by
  refine C83_action_partial f enc { e with gasLimit := none } (by simp) m c s x y z hm ?_ hcx
  rw [← he]
  unfold encEnvelope
  rw [hgas]
  rfl

/-- C83 is violated by the code. -/
theorem C83_claim_false : ¬ C83_claim := by
  intro hcl
  obtain ⟨eb, he, _⟩ := C37_envelope_lossless_partial zeroGasEnvelope []
  let c : Context := ⟨⟨List.replicate 32 1, rfl⟩, 5, ⟨List.replicate 32 2, rfl⟩⟩
  obtain ⟨cb, hc, _⟩ := C39_spawn_context_lossless.2 c []
  have h1 := hcl Gas Unit (fun e _ _ _ => (e.gasLimit, none)) (fun _ => none) zeroGasEnvelope [] c none
    eb cb [] [] [] (by decide) he hc
  have h2 := C83_zero_gas (σ := Gas) (R := Unit) (fun e _ _ _ => (e.gasLimit, none)) (fun _ => none)
    zeroGasEnvelope rfl [] c none [] [] [] (by decide) he hc
  have := h1.1.symm.trans h2.1
  exact absurd this (by decide)

theorem readBytes_long {n : Nat} {inp : Bytes} (h : n ≤ inp.length) :
    readBytes n inp = .ok (inp.take n, inp.drop n) := if_pos h

theorem decNum_long {n : Nat} {inp : Bytes} (h : n ≤ inp.length) :
    ∃ x, decNum n inp = .ok (x, inp.drop n) := by
  unfold decNum
  rw [Dec.bind_apply, readBytes_long h]
  exact ⟨_, rfl⟩

theorem decArr_long {n : Nat} {inp : Bytes} (h : n ≤ inp.length) :
    ∃ x, decArr n inp = .ok (x, inp.drop n) := by
  have hl : (inp.take n).length = n := by rw [List.length_take]; omega
  refine ⟨⟨inp.take n, hl⟩, ?_⟩
  unfold decArr
  rw [Dec.bind_ok (readBytes_long h), dif_pos hl]
  rfl

theorem decGas_long {inp : Bytes} (h : 8 ≤ inp.length) :
    ∃ x, decGas inp = .ok (x, inp.drop 8) := by
  obtain ⟨x, hx⟩ := decNum_long (n := 8) h
  unfold decGas
  rw [Dec.bind_ok hx]
  split <;> exact ⟨_, rfl⟩

/-- Any 60 bytes are an envelope. -/
theorem decEnvelope_long {inp : Bytes} (h : 60 ≤ inp.length) :
    ∃ x, decEnvelope inp = .ok (x, inp.drop 60) := by
  obtain ⟨a, h1⟩ := decArr_long (n := 20) (inp := inp) (by omega)
  obtain ⟨b, h2⟩ := decNum_long (n := 8) (inp := inp.drop 20) (by rw [List.length_drop]; omega)
  obtain ⟨c, h3⟩ := decNum_long (n := 16) (inp := inp.drop 28) (by rw [List.length_drop]; omega)
  obtain ⟨d, h4⟩ := decGas_long (inp := inp.drop 44) (by rw [List.length_drop]; omega)
  obtain ⟨e, h5⟩ := decNum_long (n := 8) (inp := inp.drop 52) (by rw [List.length_drop]; omega)
  rw [List.drop_drop] at h2 h3 h4 h5
  unfold decEnvelope
  rw [Dec.bind_ok h1, Dec.bind_ok h2, Dec.bind_ok h3, Dec.bind_ok h4, Dec.bind_ok h5]
  exact ⟨_, rfl⟩

/-- Any 72 bytes are a context. -/
theorem decContext_long {inp : Bytes} (h : 72 ≤ inp.length) :
    ∃ x, decContext inp = .ok (x, inp.drop 72) := by
  obtain ⟨a, h1⟩ := decArr_long (n := 32) (inp := inp) (by omega)
  obtain ⟨b, h2⟩ := decNum_long (n := 8) (inp := inp.drop 32) (by rw [List.length_drop]; omega)
  obtain ⟨c, h3⟩ := decArr_long (n := 32) (inp := inp.drop 40) (by rw [List.length_drop]; omega)
  rw [List.drop_drop] at h2 h3
  unfold decContext
  rw [Dec.bind_ok h1, Dec.bind_ok h2, Dec.bind_ok h3]
  exact ⟨_, rfl⟩

/-- C83, arbitrary bytes: whatever 60 and 72 bytes the caller passes as envelope and context, the action
runs, on the message of the stated length, and its receipt is returned: no bytes are refused. -/
theorem C83_total {σ R : Type} (f : Envelope → Bytes → Context → σ → σ × Option R)
    (enc : R → Option Bytes) (envelope message context : Bytes) (size : U32) (s : σ)
    (he : 60 ≤ envelope.length) (hcx : 72 ≤ context.length) :
    ∃ e c, Replies enc (f e (message.take size.toNat) c s)
      (runtimeAction f enc true envelope message size context s) := by
  obtain ⟨e, h1⟩ := decEnvelope_long (inp := envelope.take envelopeSize)
    (by rw [List.length_take]; simp only [envelopeSize]; omega)
  obtain ⟨c, h2⟩ := decContext_long (inp := context.take contextSize)
    (by rw [List.length_take]; simp only [contextSize]; omega)
  refine ⟨e, c, ?_⟩
  unfold runtimeAction
  rw [if_pos rfl, h1, h2]
  exact replies_action enc _

/-- C83, unknown runtimes: an action on a pointer the tracker does not know is an error, and changes
nothing. -/
theorem C83_unknown {σ R : Type} (f : Envelope → Bytes → Context → σ → σ × Option R) (enc : R → Option Bytes)
    (envelope message context : Bytes) (size : U32) (s : σ) :
    runtimeAction f enc false envelope message size context s = (s, .error) := rfl

/-- Non-vacuity: an action that counts its runs and returns the message. -/
example : runtimeAction (σ := Nat) (fun _ m _ n => (n + 1, some m)) some true (List.replicate 61 7)
    [1, 2, 3, 4] 3 (List.replicate 80 9) 5 = (6, .receipt [1, 2, 3]) := by decide +kernel

end Svm.Ffi
