import Verif.Sdk.Still
import Verif.Sdk.Craft
import Verif.Runtime.Frame
import Verif.Runtime.Validate

/-!
# C127: the counter template, from its source to the receipts of its calls

The template `crates/host/runtime-ffi/tests/wasm/counter/src/lib.rs`, with everything around it: the macro, the deploy
message, the deployment, the spawn, and the calls, between which the node may do anything else.
-/

namespace Svm.Sdk

open Svm.Codec Svm.Account Svm.Runtime
open Svm.Abi (Ty)
open Svm.Storage (Hasher Storage Inv)
open Svm.Layout (FixedLayout RawVar)
open Svm.Sdk.Macro (Item Meta)

/-! ## The template -/

def initName : Str := ⟨[105, 110, 105, 116, 105, 97, 108, 105, 122, 101], by decide⟩
def addName : Str := ⟨[97, 100, 100], by decide⟩
def mulName : Str := ⟨[109, 117, 108], by decide⟩

/-- The type of the counter. -/
abbrev u32 : Ty := .int .w32 false

/-- The two endpoints. -/
inductive Op where
  | add
  | mul
  deriving DecidableEq

def Op.name : Op → Str
  | .add => addName
  | .mul => mulName

/-- The numbers that `add` and `mul` mean. -/
def Op.nat : Op → Nat → Nat → Nat
  | .add, a, b => a + b
  | .mul, a, b => a * b

/-- `a + n` and `a * n` of `u32`, counter/src/lib.rs:18 and 28; `none` is the overflow panic of builds with overflow
checks. -/
def Op.u32 (chk : Bool) (op : Op) (a n : U32) : Option U32 :=
  if chk && decide (2 ^ 32 ≤ op.nat a.toNat n.toNat) then none else some (BitVec.ofNat 32 (op.nat a.toNat n.toNat))

/-- `counter: u32`, counter/src/lib.rs:5-8. -/
def counterVar : Var := ⟨0, 0, .int .w32 false, 4, none⟩

/-- `initialize`, counter/src/lib.rs:10-13. -/
def ctorEndpoint (chk : Bool) : Endpoint where
  params := [u32]
  result := none
  body raw mem :=
    match raw with
    | [⟨.int .w32 false, init⟩] => andThen (counterVar.setter chk 0 init mem) fun _ mem => .ret () mem
    | _ => .trap unreachableMsg

/-- `add` and `mul`, counter/src/lib.rs:15-33. -/
def opEndpoint (chk : Bool) (op : Op) : Endpoint where
  params := [u32]
  result := some (.arr u32 2)
  body raw mem :=
    match raw with
    | [⟨.int .w32 false, n⟩] =>
      andThen (counterVar.getter chk 0 mem) fun a mem =>
        match op.u32 chk a n with
        | none => .trap unreachableMsg
        | some b => andThen (counterVar.setter chk 0 b mem) fun _ mem => .ret ⟨[a, b], rfl⟩ mem
    | _ => .trap unreachableMsg

/-- The exported functions of the template. -/
def counterFns (chk : Bool) (name : Str) : Option Endpoint :=
  if name = initName then some (ctorEndpoint chk)
  else if name = addName then some (opEndpoint chk .add)
  else if name = mulName then some (opEndpoint chk .mul)
  else none

/-- The module as written, counter/src/lib.rs:3-34, without the bodies. -/
def counterItems : List Item :=
  [ .struct ⟨[⟨Macro.word "storage", .none⟩], true, [⟨false, .prim (.int .w32 false)⟩]⟩,
    .func ⟨initName, [⟨Macro.word "ctor", .none⟩], true, true, false⟩,
    .func ⟨addName, [⟨Macro.word "endpoint", .none⟩], true, true, false⟩,
    .func ⟨mulName, [⟨Macro.word "endpoint", .none⟩], true, true, false⟩ ]

/-- The layout of the storage: one variable of four bytes. -/
def counterLayout : FixedLayout := ⟨some 0, [⟨0, 0, 4⟩]⟩

/-! ## Spec -/

/-- The template at `t` is the counter: `initialize` is its constructor, its code compiles to `m`, it has the
variable, and gas is charged before it runs. -/
def CounterTemplate (chk : Bool) (h : Hasher) (eng : Engine) (m : Module) (s : Storage) (t : Addr) : Prop :=
  ∃ ss code, out h (readSections chk t) s = .ok ss ∧ ss.tryGet .ctors = some (.ctors [initName]) ∧
    ss.tryGet .code = some (.code code) ∧ eng code.code = .ok m ∧ ss.tryGet .data = some (.data [counterLayout]) ∧
    code.gasMode = .fixed

/-- The account at `a` loads as `acc`, is a counter, and its variable has the value `v`. -/
structure IsCounter (chk : Bool) (h : Hasher) (eng : Engine) (m : Module) (s : Storage) (a : Addr) (acc : Acc)
    (v : U32) : Prop where
  loads : out h (load chk a) s = .ok acc
  layout : acc.layout = counterLayout
  template : CounterTemplate chk h eng m s acc.template
  value : out h (getVarVec chk acc 0) s = .ok (natLE 4 v.toNat)

/-- A message that calls `op` of the account at `a` with the number `n`. -/
def Asks (message : Bytes) (a : Addr) (op : Op) (n : U32) : Prop :=
  ∃ tx rest, decTransaction message = .ok (tx, rest) ∧ tx.target = a ∧ tx.funcName = op.name ∧
    Abi.encodeArgs [⟨u32, n⟩] = some tx.calldata

/-- How a counter with the value `v` answers a call of `op` with `n`: the value becomes `v'`. -/
def Replies (chk : Bool) (op : Op) (v n : U32) (r : CallReceipt) (v' : U32) : Prop :=
  if chk = true ∧ 2 ^ 32 ≤ op.nat v.toNat n.toNat then r.success = false ∧ v' = v
  else r.success = true ∧ v'.toNat = op.nat v.toNat n.toNat % 2 ^ 32 ∧
    ∃ bs, Ty.encode (.arr u32 2) ⟨[v, v'], rfl⟩ = some bs ∧ r.returndata = some bs

/-- The value stays, or is one that an operation makes of it. -/
def Moves (chk : Bool) (v v' : U32) : Prop :=
  v' = v ∨ ∃ (op : Op) (n : U32), (chk = true → op.nat v.toNat n.toNat < 2 ^ 32) ∧
    v'.toNat = op.nat v.toNat n.toNat % 2 ^ 32

/-- An event that neither creates an account at `a` nor deploys a template at `t` nor rewinds. -/
def Event.Around (chk : Bool) (h : Hasher) (a t : Addr) : Event → Prop
  | .tx (.spawn _ m) => ∀ sp rest, decSpawn m = .ok (sp, rest) → computeAccountAddr h sp ≠ a
  | .create b _ _ _ _ => b ≠ a
  | .tx (.deploy _ m) => ∀ ss rest c, decSections chk none m = .ok (ss, rest) → codeSection ss = some c →
      computeTemplateAddr h c ≠ t
  | .rewind _ => False
  | _ => True

/-- The event calls the account at `a`. -/
def Event.Calls (a : Addr) : Event → Prop
  | .tx (.call m) => ∃ tx rest, decTransaction m = .ok (tx, rest) ∧ tx.target = a
  | _ => False

/-- What happens to the value of the counter at `a`, with these events and answers: other events do not change it, calls
of its endpoints are answered, and other calls leave it or change it as an operation would. -/
inductive Counts (chk : Bool) (a : Addr) : U32 → List Event → List Answer → U32 → Prop
  | nil (v : U32) : Counts chk a v [] [] v
  | other {v v' : U32} {e : Event} {ans : Answer} {es : List Event} {as : List Answer} :
    ¬ Event.Calls a e → Counts chk a v es as v' → Counts chk a v (e :: es) (ans :: as) v'
  | asked {v v₁ v' n : U32} {op : Op} {m : Bytes} {r : CallReceipt} {es : List Event} {as : List Answer} :
    Asks m a op n → Replies chk op v n r v₁ → Counts chk a v₁ es as v' →
      Counts chk a v (.tx (.call m) :: es) (.receipt (.call r) :: as) v'
  | odd {v v₁ v' : U32} {m : Bytes} {ans : Answer} {es : List Event} {as : List Answer} :
    Event.Calls a (.tx (.call m)) → (∀ op n, ¬ Asks m a op n) → Moves chk v v₁ → Counts chk a v₁ es as v' →
      Counts chk a v (.tx (.call m) :: es) (ans :: as) v'

/-! ## Lemmas -/

theorem counter_schema (chk : Bool) : ∃ e, Macro.expand chk counterItems = .ok e ∧ e.schema = [counterVar] := by
  have h : (Macro.expand chk counterItems).toOption.map (·.schema) = some [counterVar] := by
    cases chk <;> decide +kernel
  cases he : Macro.expand chk counterItems with
  | ok e => rw [he] at h; exact ⟨e, rfl, Option.some.inj h⟩
  | err _ => rw [he] at h; cases h
  | panic => rw [he] at h; cases h

theorem counter_layout (chk : Bool) : dataSection chk [counterVar] = some counterLayout := by
  cases chk <;> decide

theorem layoutOk_counter : LayoutOk counterLayout := by
  have h : ∀ id v, counterLayout.get id = some v → id = 0 ∧ v = ⟨0, 0, 4⟩ := by
    intro id v hv
    unfold FixedLayout.get at hv
    obtain ⟨i, h1, h2⟩ := Option.bind_eq_some_iff.1 hv
    have hi : i = 0 := by
      obtain ⟨hlt, -⟩ := List.getElem?_eq_some_iff.1 h2
      exact Nat.lt_one_iff.1 hlt
    subst hi
    have h3 : (if (0 : U32) ≤ id then (if (id - 0).toNat < 1 then some (id - 0).toNat else none) else none) =
      some 0 := h1
    split at h3
    · split at h3
      · have : (id - 0).toNat = 0 := Option.some.inj h3
        refine ⟨?_, (Option.some.inj h2).symm⟩
        apply BitVec.eq_of_toNat_eq
        simpa using this
      · cases h3
    · cases h3
  constructor
  · intro id v hv
    obtain ⟨-, rfl⟩ := h id v hv
    decide
  · intro id id' v v' h1 h2 hne
    exact absurd ((h id v h1).1.trans (h id' v' h2).1.symm) hne

theorem counter_get : counterLayout.get 0 = some ⟨0, 0, 4⟩ := by decide

/-- The variable is read the same into every buffer. -/
theorem counter_reads {h : Hasher} (hc : NoCollision h) {s : Storage} (hr : Reach h s) {chk : Bool} {acc : Acc}
    (hl : acc.layout = counterLayout) {bs : Bytes} (hv : out h (getVarVec chk acc 0) s = .ok bs) (buf : Bytes)
    (hb : 4 ≤ buf.length) : (getVar chk acc 0 buf).eval (view h s) = (view h s, .ok (bs ++ buf.drop 4)) := by
  have hg : acc.layout.get 0 = some ⟨0, 0, 4⟩ := by rw [hl]; exact counter_get
  have hw := ViewOk.segOk ((hr.ok hc).2.view)
  rw [out_eval hc] at hv
  unfold getVarVec at hv
  rw [hg, Prog.bind_eq, Prog.eval_bind_ok (Prog.eval_ofOption_some _ _),
    getVar_eval chk hw hg (by decide) (by decide) _ (by decide)] at hv
  rw [getVar_eval chk hw hg (by decide) (by decide) buf hb]
  have : (List.replicate (RawVar.byteSize ⟨0, 0, 4⟩).toNat 0 : Bytes).drop (RawVar.byteSize ⟨0, 0, 4⟩).toNat = [] := by
    decide
  rw [this, List.append_nil] at hv
  rw [Outcome.ok.inj hv]
  rfl

theorem leNat_natLE (v : U32) : leNat (natLE 4 v.toNat) = v.toNat := by
  have := take_natLE 4 4 v.toNat (Nat.le_refl 4)
  rw [List.take_of_length_le (by rw [natLE_length])] at this
  rw [this]
  exact Nat.mod_eq_of_lt v.isLt

/-- The setter of the counter. -/
theorem counter_set {h : Hasher} (hc : NoCollision h) {s : Storage} (hr : Reach h s) (chk chk' : Bool) {acc : Acc}
    (hl : acc.layout = counterLayout) (b : U32) : ∃ w',
      (∀ (mem : Bytes) (env : Env), env.mode = .fullAccess → env.storage = acc →
        ((counterVar.setter chk 0 b mem).run chk' env).eval (view h s) = (w', .ok (env, .ok ((), mem)))) ∧
      ∀ s', view h s' = w' → out h (getVarVec chk' acc 0) s' = .ok (natLE 4 b.toNat) := by
  have hg : acc.layout.get 0 = some ⟨0, 0, 4⟩ := by rw [hl]; exact counter_get
  obtain ⟨w', h1, h2⟩ := set_get_bytes hc hr chk' (by rw [hl]; exact layoutOk_counter) hg (by decide)
    (natLE 4 b.toNat) (by rw [natLE_length]; decide)
  refine ⟨w', ?_, ?_⟩
  · rintro mem env hm rfl
    change ((setCell (.int .w32 false) 0 b mem).run chk' env).eval _ = _
    refine setCell_eval hm (t := .int .w32 false) trivial ?_
    have : cellBytes (.int .w32 false) b mem = natLE 4 b.toNat := by
      show natLE 4 (BitVec.setWidth 32 b).toNat = _
      rw [BitVec.setWidth_eq]
    exact this ▸ h1
  · intro s' hs
    rw [out_eval hc, hs]
    unfold getVarVec
    rw [hg, Prog.bind_eq, Prog.eval_bind_ok (Prog.eval_ofOption_some _ _), h2 _ (by decide)]
    show Outcome.ok (List.take 4 (natLE 4 b.toNat) ++ []) = _
    rw [List.append_nil, List.take_of_length_le (by rw [natLE_length])]

/-- The getter of the counter. -/
theorem counter_getter {h : Hasher} (hc : NoCollision h) {s : Storage} (hr : Reach h s) (chk chk' : Bool) {acc : Acc}
    (hl : acc.layout = counterLayout) {v : U32} (hv : out h (getVarVec chk' acc 0) s = .ok (natLE 4 v.toNat))
    (mem : Bytes) (env : Env) (hm : env.mode = .fullAccess) (he : env.storage = acc) :
    ((counterVar.getter chk 0 mem).run chk' env).eval (view h s) = (view h s, .ok (env, .ok (v, mem))) := by
  subst he
  change ((getCell (.int .w32 false) 0 mem).run chk' env).eval _ = _
  obtain ⟨env', mem', x, h1, h2, -, h4⟩ := getCell_eval (t := .int .w32 false) (mem := mem) (id := 0) hm trivial
    (bs := natLE 4 v.toNat) (natLE_length 4 _) (by rw [natLE_length]; rfl)
    (fun buf hb => counter_reads hc hr hl hv buf hb)
  obtain ⟨rfl, rfl⟩ := h4 nofun
  have : x = v := by
    have h3 : x = BitVec.ofNat 32 (leNat (natLE 4 v.toNat)) := h2
    rw [h3, leNat_natLE, BitVec.ofNat_toNat, BitVec.setWidth_eq]
  rw [this] at h1
  exact h1

theorem op_computes {h : Hasher} (hc : NoCollision h) {s : Storage} (hr : Reach h s) (chk chk' : Bool) {acc : Acc}
    (hl : acc.layout = counterLayout) {v n b : U32} (hv : out h (getVarVec chk' acc 0) s = .ok (natLE 4 v.toNat))
    {op : Op} (hop : op.u32 chk v n = some b) (target : Addr) : ∃ w',
      Computes chk' (opEndpoint chk op) acc target [⟨u32, n⟩] (view h s) w' ⟨[v, b], rfl⟩ 0 ∧
      ∀ s', view h s' = w' → out h (getVarVec chk' acc 0) s' = .ok (natLE 4 b.toNat) := by
  obtain ⟨w', h1, h2⟩ := counter_set hc hr chk chk' hl b
  refine ⟨w', ?_, h2⟩
  intro raw mem env hm henv hroom
  obtain ⟨x, raw', rfl, m1, m2⟩ := meanings_cons hm
  cases meanings_nil m2
  cases m1
  have e1 : env.mode = .fullAccess := by rw [henv]; rfl
  have e2 : env.storage = acc := by rw [henv]; rfl
  refine ⟨⟨[v, b], rfl⟩, mem, env, ?_, rfl, rfl, Nat.le_refl _, by rw [henv]; rfl⟩
  refine (run_andThen (counter_getter hc hr chk chk' hl hv mem env e1 e2)).trans ?_
  rw [hop]
  exact run_andThen (h1 mem env e1 e2)

theorem op_traps {h : Hasher} (hc : NoCollision h) {s : Storage} (hr : Reach h s) (chk chk' : Bool) {acc : Acc}
    (hl : acc.layout = counterLayout) {v n : U32} (hv : out h (getVarVec chk' acc 0) s = .ok (natLE 4 v.toNat))
    {op : Op} (hop : op.u32 chk v n = none) (target : Addr) :
    Traps chk' (opEndpoint chk op) acc target [⟨u32, n⟩] (view h s) (view h s) := by
  intro raw mem env hm henv
  obtain ⟨x, raw', rfl, m1, m2⟩ := meanings_cons hm
  cases meanings_nil m2
  cases m1
  have e1 : env.mode = .fullAccess := by rw [henv]; rfl
  have e2 : env.storage = acc := by rw [henv]; rfl
  refine ⟨unreachableMsg, env, ?_⟩
  refine (run_andThen (counter_getter hc hr chk chk' hl hv mem env e1 e2)).trans ?_
  rw [hop]
  rfl

theorem ctor_computes {h : Hasher} (hc : NoCollision h) {s : Storage} (hr : Reach h s) (chk chk' : Bool) {acc : Acc}
    (hl : acc.layout = counterLayout) (b : U32) (target : Addr) : ∃ w',
      Computes chk' (ctorEndpoint chk) acc target [⟨u32, b⟩] (view h s) w' () 0 ∧
      ∀ s', view h s' = w' → out h (getVarVec chk' acc 0) s' = .ok (natLE 4 b.toNat) := by
  obtain ⟨w', h1, h2⟩ := counter_set hc hr chk chk' hl b
  refine ⟨w', ?_, h2⟩
  intro raw mem env hm henv hroom
  obtain ⟨x, raw', rfl, m1, m2⟩ := meanings_cons hm
  cases meanings_nil m2
  cases m1
  have e1 : env.mode = .fullAccess := by rw [henv]; rfl
  have e2 : env.storage = acc := by rw [henv]; rfl
  refine ⟨(), mem, env, ?_, rfl, rfl, Nat.le_refl _, by rw [henv]; rfl⟩
  exact run_andThen (h1 mem env e1 e2)

/-- Numbers have encodings. -/
theorem encode_u32 (n : U32) : ∃ bs, Ty.encode u32 n = some bs := by
  obtain ⟨b, h1, -⟩ := Abi.encodeInt_eq .w32 false n
  exact ⟨_, h1⟩

theorem encode_pair (a b : u32.Val) : ∃ bs, Ty.encode (.arr u32 2) ⟨[a, b], rfl⟩ = some bs := by
  obtain ⟨x, h1⟩ := encode_u32 a
  obtain ⟨y, h2⟩ := encode_u32 b
  have hm : [a, b].mapM (Ty.encode u32) = some [x, y] := by
    rw [List.mapM_cons, List.mapM_cons, List.mapM_nil, h1]
    show (do let bs ← (do let y' ← Ty.encode u32 b; let ys ← some []; some (y' :: ys)); some (x :: bs)) = _
    rw [h2]
    rfl
  refine ⟨Abi.layoutArray 2 :: [x, y].flatten, ?_⟩
  show (do let l ← [a, b].mapM (Ty.encode u32); some (Abi.layoutArray 2 :: l.flatten)) = _
  rw [hm]
  rfl

theorem encode_one {n : U32} {bs : Bytes} (h : Abi.encodeArgs [⟨u32, n⟩] = some bs) : bs.length ≤ 5 := by
  obtain ⟨x, h1⟩ := encode_u32 n
  have := Abi.C59_max u32 n x h1
  simp only [Abi.encodeArgs, h1] at h
  cases h
  rw [List.append_nil]
  exact this

theorem u32_none {chk : Bool} {op : Op} {v n : U32} :
    op.u32 chk v n = none ↔ chk = true ∧ 2 ^ 32 ≤ op.nat v.toNat n.toNat := by
  unfold Op.u32
  split
  · rename_i h
    rw [Bool.and_eq_true, decide_eq_true_iff] at h
    exact ⟨fun _ => h, fun _ => rfl⟩
  · rename_i h
    rw [Bool.and_eq_true, decide_eq_true_iff] at h
    exact ⟨nofun, fun h' => absurd h' h⟩

theorem u32_some {chk : Bool} {op : Op} {v n b : U32} (h : op.u32 chk v n = some b) :
    ¬ (chk = true ∧ 2 ^ 32 ≤ op.nat v.toNat n.toNat) ∧ b.toNat = op.nat v.toNat n.toNat % 2 ^ 32 := by
  refine ⟨fun hx => ?_, ?_⟩
  · rw [u32_none.2 hx] at h
    cases h
  · unfold Op.u32 at h
    split at h
    · cases h
    · cases h
      exact BitVec.toNat_ofNat _ _

theorem op_endpoint (chk : Bool) : ∀ op : Op, IsEndpoint (counterFns chk) op.name (opEndpoint chk op)
  | .add => ⟨rfl, by decide, by decide⟩
  | .mul => ⟨rfl, by decide, by decide⟩

theorem init_endpoint (chk : Bool) : IsEndpoint (counterFns chk) initName (ctorEndpoint chk) :=
  ⟨rfl, by decide, by decide⟩

theorem endpoint_cases {chk : Bool} {name : Str} {e : Endpoint} (h : IsEndpoint (counterFns chk) name e) :
    (name = initName ∧ e = ctorEndpoint chk) ∨ ∃ op : Op, name = op.name ∧ e = opEndpoint chk op := by
  have := h.found
  unfold counterFns at this
  split at this
  · exact .inl ⟨by assumption, (Option.some.inj this).symm⟩
  · split at this
    · exact .inr ⟨.add, by assumption, (Option.some.inj this).symm⟩
    · split at this
      · exact .inr ⟨.mul, by assumption, (Option.some.inj this).symm⟩
      · cases this

/-- A counter stays one where account, template and code read as before. -/
theorem IsCounter.frame {chk : Bool} {h : Hasher} (hc : NoCollision h) {eng : Engine} {m : Module} {s s' : Storage}
    {a : Addr} {acc : Acc} {v v' : U32} (hI : IsCounter chk h eng m s a acc v)
    (h1 : view h s' (.accData a) = view h s (.accData a))
    (h2 : view h s' (.core acc.template) = view h s (.core acc.template))
    (h3 : view h s' (.noncore acc.template) = view h s (.noncore acc.template))
    (hv : out h (getVarVec chk acc 0) s' = .ok (natLE 4 v'.toNat)) : IsCounter chk h eng m s' a acc v' := by
  refine ⟨same_load hc h1 hI.loads h2 h3, hI.layout, ?_, hv⟩
  obtain ⟨ss, code, g1, g2⟩ := hI.template
  refine ⟨ss, code, ?_, g2⟩
  rw [out_eval hc] at g1 ⊢
  rw [← g1]
  exact readSections_congr chk _ h2 h3

/-- The value is the same where the variables are. -/
theorem IsCounter.value_congr {chk : Bool} {h : Hasher} (hc : NoCollision h) {eng : Engine} {m : Module} {s s' : Storage}
    {a : Addr} {acc : Acc} {v : U32} (hI : IsCounter chk h eng m s a acc v)
    (h4 : ∀ i, view h s' (.seg a i) = view h s (.seg a i)) : out h (getVarVec chk acc 0) s' = .ok (natLE 4 v.toNat) := by
  have ha : acc.addr = a := by
    have := hI.loads
    rw [out_eval hc] at this
    obtain ⟨-, e, -⟩ := Runtime.load_ok (Prod.ext rfl this : (load chk a).eval (view h s) = (_, .ok acc))
    exact e
  have hv := hI.value
  rw [out_eval hc] at hv ⊢
  rw [← hv]
  unfold getVarVec
  rw [hI.layout, counter_get]
  simp only [Prog.bind_eq]
  rw [Prog.eval_bind_ok (Prog.eval_ofOption_some _ _), Prog.eval_bind_ok (Prog.eval_ofOption_some _ _)]
  exact getVar_congr chk acc _ _ (by rw [ha]; exact h4)

/-- What a call of a counter keeps. -/
theorem call_kept {h : Hasher} (hc : NoCollision h) {s : Storage} (hr : Reach h s) {chk : Bool} {o : Orders} {eng : Engine}
    {m : Module} {message rest : Bytes} {tx : Transaction} {acc : Acc} {v v' : U32}
    (hd : decTransaction message = .ok (tx, rest)) (hI : IsCounter chk h eng m s tx.target acc v)
    (hv : out h (getVarVec chk acc 0) (call chk h o eng message s).1 = .ok (natLE 4 v'.toNat)) :
    IsCounter chk h eng m (call chk h o eng message s).1 tx.target acc v' := by
  refine hI.frame hc ?_ ?_ ?_ hv <;>
    exact C68_call_isolation hc hr chk o eng message rest tx hd _ (fun _ => nofun) (fun _ => nofun)

/-- A counter answers calls of its endpoints. -/
theorem counter_call {h : Hasher} (hc : NoCollision h) {s : Storage} (hr : Reach h s) (h0 : 0 ≤ s.next.id)
    (chk chk' : Bool) (R : ValueRepr) (o : Orders) {eng : Engine} {memory : Bytes} (hmem : 32 ≤ memory.length)
    (h32 : memory.length < 2 ^ 32) {message : Bytes} {a : Addr} {acc : Acc} {v n : U32} {op : Op}
    (hI : IsCounter chk' h eng (sdkModule chk R memory (counterFns chk)) s a acc v) (hask : Asks message a op n) :
    ∃ s' r v', call chk' h o eng message s = (s', some r) ∧ Replies chk op v n r v' ∧
      IsCounter chk' h eng (sdkModule chk R memory (counterFns chk)) s' a acc v' := by
  obtain ⟨tx, rest, hd, rfl, hname, henc⟩ := hask
  obtain ⟨ss, code, t1, t2, t3, t4, t5, t6⟩ := hI.template
  have hlen := encode_one henc
  have hcall : Starts chk' h eng s ⟨tx.funcName, tx.calldata, tx.target, acc.template, false, .fullAccess⟩ acc
      (sdkModule chk R memory (counterFns chk)) := by
    refine ⟨hI.loads, ss, _, code, t1, t2, ?_, t3, t4, rfl⟩
    show tx.funcName ∈ [initName] ↔ false = true
    rw [hname]
    cases op <;> decide
  have hend : IsEndpoint (counterFns chk) tx.funcName (opEndpoint chk op) := hname ▸ op_endpoint chk op
  have harg : ∀ x ∈ [(⟨u32, n⟩ : Σ t : Ty, t.Val)], x.1.Arg := by
    intro x hx
    cases List.mem_singleton.1 hx
    trivial
  have h8 : ∀ x ∈ [(⟨u32, n⟩ : Σ t : Ty, t.Val)], ∀ u, x.1 ≠ .arr u 8 := by
    intro x hx
    cases List.mem_singleton.1 hx
    exact fun u => nofun
  have hfar : ∀ t ∈ (opEndpoint chk op).params, 0 < vecSize R t → tx.calldata.length ≤ vecSize R t := by
    intro t ht hv
    cases List.mem_singleton.1 ht
    exact absurd hv (Nat.lt_irrefl 0)
  cases hop : op.u32 chk v n with
  | none =>
    obtain ⟨env', f, hx⟩ := exec_traps hc chk chk' R hcall hend harg h8 rfl (by simp) henc
      (op_traps hc hr chk chk' hI.layout hI.value hop tx.target)
      (by change 2 * tx.calldata.length + 2 * 0 ≤ _; omega) h32 hfar
    obtain ⟨s', r, q1, q2, q3⟩ := execCall_fails hc (o := o) (hr.ok hc).1 hx
    rw [← call_eq hc hd hI.loads] at q1
    refine ⟨s', r, v, q1, ?_, ?_⟩
    · unfold Replies
      rw [if_pos (u32_none.1 hop)]
      exact ⟨q2, rfl⟩
    · have := call_kept hc hr (o := o) (v' := v) hd hI (by
        rw [q1, out_eval hc, q3, ← out_eval hc]
        exact hI.value)
      rw [q1] at this
      exact this
  | some b =>
    obtain ⟨w', c1, c2⟩ := op_computes hc hr chk chk' hI.layout hI.value hop tx.target
    obtain ⟨bs, hbs⟩ := encode_pair v b
    obtain ⟨env', mem', logs, hx, k2, k3⟩ := exec_endpoint hc chk chk' R hcall hend harg h8 rfl henc c1 hbs
      (by change 2 * tx.calldata.length + 2 * 0 + 0 + 2 * 11 ≤ _; omega) h32 hfar
      (by intro t ht; cases ht; trivial)
    obtain ⟨s', r, q1, q2, q3, -, q5⟩ := execCall_returns hc (o := o) (hr.ok hc).1 h0 hx
      (show (decide (env'.mode = .fullAccess)) = true from decide_eq_true k3) (data := bs) k2
    rw [← call_eq hc hd hI.loads] at q1
    refine ⟨s', r, b, q1, ?_, ?_⟩
    · unfold Replies
      rw [if_neg (u32_some hop).1]
      exact ⟨q2, (u32_some hop).2, bs, hbs, q3⟩
    · have := call_kept hc hr (o := o) (v' := b) hd hI (by
        rw [q1]
        exact c2 s' q5)
      rw [q1] at this
      exact this

/-- Whatever a call of a counter is, the value stays or is one that an operation makes of it. -/
theorem counter_moves {h : Hasher} (hc : NoCollision h) {s : Storage} (hr : Reach h s)
    (chk chk' : Bool) (R : ValueRepr) (o : Orders) {eng : Engine} {memory message rest : Bytes} {tx : Transaction}
    {acc : Acc} {v : U32} (hd : decTransaction message = .ok (tx, rest))
    (hI : IsCounter chk' h eng (sdkModule chk R memory (counterFns chk)) s tx.target acc v) :
    ∃ v', Moves chk v v' ∧ IsCounter chk' h eng (sdkModule chk R memory (counterFns chk))
      (call chk' h o eng message s).1 tx.target acc v' := by
  obtain ⟨ss, code, t1, t2, t3, t4, t5, t6⟩ := hI.template
  have hset := fun b => counter_set hc hr chk chk' hI.layout b
  have hQ := exec_ends hc (c := ⟨tx.funcName, tx.calldata, tx.target, acc.template, false, .fullAccess⟩) hI.loads t1 t3 t4
    (Q := fun w => ∃ v', Moves chk v v' ∧ ∀ s', view h s' = w → out h (getVarVec chk' acc 0) s' = .ok (natLE 4 v'.toNat))
    ⟨v, .inl rfl, fun s' hs => by rw [out_eval hc, hs, ← out_eval hc]; exact hI.value⟩ (by
      intro e he hct raw mem env' h1 h2 h3
      have hstay : ∃ v', Moves chk v v' ∧ ∀ s', view h s' = view h s →
          out h (getVarVec chk' acc 0) s' = .ok (natLE 4 v'.toNat) :=
        ⟨v, .inl rfl, fun s' hs => by rw [out_eval hc, hs, ← out_eval hc]; exact hI.value⟩
      rcases endpoint_cases he with ⟨hn, rfl⟩ | ⟨op, hn, rfl⟩
      · rw [isCtor_some t2] at hct
        have hn' : tx.funcName = initName := hn
        simp only [hn'] at hct
        exact absurd hct (by decide)
      · obtain ⟨x, rfl⟩ : ∃ x : U32, raw = [⟨u32, x⟩] := by
          cases raw with
          | nil => cases h1
          | cons y l =>
            obtain ⟨t, y⟩ := y
            obtain ⟨e1, e2⟩ := List.cons.inj h1
            cases e1
            cases List.map_eq_nil_iff.1 e2
            exact ⟨y, rfl⟩
        have hg : (((opEndpoint chk op).body [⟨u32, x⟩] mem).run chk' env').eval (view h s) = _ :=
          run_andThen (counter_getter hc hr chk chk' hI.layout hI.value mem env' h3 h2)
        rw [hg]
        cases hop : op.u32 chk v x with
        | none => exact hstay
        | some b =>
          obtain ⟨w', c1, c2⟩ := hset b
          have hs := run_andThen (k := fun _ mem => Guest.ret (⟨[v, b], rfl⟩ : RawOf (.arr u32 2)) mem) (c1 mem env' h3 h2)
          refine ⟨b, .inr ⟨op, x, fun hck => ?_, (u32_some hop).2⟩, fun s' hs' => c2 s' ?_⟩
          · have := (u32_some hop).1
            exact Nat.lt_of_not_le fun hx => this ⟨hck, hx⟩
          · exact hs'.trans (congrArg Prod.fst hs))
  obtain ⟨v', m1, m2⟩ := hQ
  refine ⟨v', m1, call_kept hc hr hd hI (m2 _ ?_)⟩
  rw [call_eq hc hd hI.loads, view_execCall (hr.ok hc).1, view_after hc]

/-- A template stays the counter where it reads as before. -/
theorem CounterTemplate.frame {chk : Bool} {h : Hasher} (hc : NoCollision h) {eng : Engine} {m : Module} {s s' : Storage}
    {t : Addr} (hT : CounterTemplate chk h eng m s t) (h2 : view h s' (.core t) = view h s (.core t))
    (h3 : view h s' (.noncore t) = view h s (.noncore t)) : CounterTemplate chk h eng m s' t := by
  obtain ⟨ss, code, g1, g2⟩ := hT
  refine ⟨ss, code, ?_, g2⟩
  rw [out_eval hc] at g1 ⊢
  rw [← g1]
  exact readSections_congr chk _ h2 h3

/-- The execution of `initialize`. -/
theorem init_exec {h : Hasher} (hc : NoCollision h) {s : Storage} (hr : Reach h s) (chk chk' : Bool) (R : ValueRepr)
    {eng : Engine} {memory : Bytes} (hmem : 32 ≤ memory.length) (h32 : memory.length < 2 ^ 32) {sp : SpawnAccount}
    {a : Addr} {init : U32} (hname : sp.ctorName = initName) (henc : Abi.encodeArgs [⟨u32, init⟩] = some sp.calldata)
    (hload : out h (load chk' a) s = .ok ⟨a, sp.templateAddr, counterLayout⟩)
    (hT : CounterTemplate chk' h eng (sdkModule chk R memory (counterFns chk)) s sp.templateAddr) :
    ∃ w' env' mem' logs, (exec chk' eng ⟨sp.ctorName, sp.calldata, a, sp.templateAddr, true, .fullAccess⟩).eval (view h s) =
        (w', .ok (env', .ok (mem', logs))) ∧ takeReturndata env' mem' = some [] ∧ env'.mode = .fullAccess ∧
      ∀ s', view h s' = w' → out h (getVarVec chk' ⟨a, sp.templateAddr, counterLayout⟩ 0) s' = .ok (natLE 4 init.toNat) := by
  obtain ⟨w', c1, c2⟩ := ctor_computes hc hr chk chk' (acc := ⟨a, sp.templateAddr, counterLayout⟩) rfl init a
  obtain ⟨ss', code, t1, t2, t3, t4, t5, t6⟩ := hT
  have hcall : Starts chk' h eng s ⟨sp.ctorName, sp.calldata, a, sp.templateAddr, true, .fullAccess⟩
      ⟨a, sp.templateAddr, counterLayout⟩ (sdkModule chk R memory (counterFns chk)) := by
    refine ⟨hload, ss', _, code, t1, t2, ?_, t3, t4, rfl⟩
    show sp.ctorName ∈ [initName] ↔ true = true
    rw [hname]
    decide
  have hlen := encode_one henc
  obtain ⟨env', mem', logs, hx, k2, k3⟩ := exec_endpoint hc chk chk' R hcall (hname ▸ init_endpoint chk)
    (args := [⟨u32, init⟩]) (by
      intro x hx
      cases List.mem_singleton.1 hx
      trivial) (by
      intro x hx
      cases List.mem_singleton.1 hx
      exact fun u => nofun) rfl henc c1 rfl
    (by change 2 * sp.calldata.length + 2 * 0 + 0 + 2 * 0 ≤ _; omega) h32 (by
      intro t ht hv
      cases List.mem_singleton.1 ht
      exact absurd hv (Nat.lt_irrefl 0)) nofun
  exact ⟨w', env', mem', logs, hx, k2, k3, c2⟩

/-- A spawn of the counter with `initialize` makes a counter. -/
theorem counter_spawn {h : Hasher} (hc : NoCollision h) {rs rs' : RState} (hr : Reach h rs.storage) (chk chk' : Bool) (R : ValueRepr) (o : Orders) {eng : Engine} {pr : Pricer}
    {envelope : Envelope} {memory : Bytes} (hmem : 32 ≤ memory.length) (h32 : memory.length < 2 ^ 32)
    {message rest : Bytes} {sp : SpawnAccount} {init : U32} {r : SpawnReceipt}
    (hsp : spawn chk' h o eng pr envelope message rs = (rs', some r)) (hs : r.success = true)
    (hd : decSpawn message = .ok (sp, rest)) (hname : sp.ctorName = initName)
    (henc : Abi.encodeArgs [⟨u32, init⟩] = some sp.calldata)
    (hT : CounterTemplate chk' h eng (sdkModule chk R memory (counterFns chk)) rs.storage sp.templateAddr) :
    IsCounter chk' h eng (sdkModule chk R memory (counterFns chk)) rs'.storage (computeAccountAddr h sp)
      ⟨computeAccountAddr h sp, sp.templateAddr, counterLayout⟩ init := by
  obtain ⟨sp', rest', ss, g1, g2, g3, g4, g5, g6⟩ := spawn_success_steps hsp hs
  rw [hd] at g1
  cases g1
  obtain ⟨l, hl, hload⟩ := created_account hc g4
  have hr1 : Reach h (after h (createAccount chk' (computeAccountAddr h sp) sp.templateAddr sp.name 0 0) rs.storage) :=
    .prog _ (safe_createAccount _ _ _ _ _ _) hr
  have hn1 : (after h (createAccount chk' (computeAccountAddr h sp) sp.templateAddr sp.name 0 0) rs.storage).next =
      rs.storage.next := (Prog.run_frame h _ _).2
  have hv1 : ∀ k, k ≠ .accData (computeAccountAddr h sp) → k ≠ .accMut (computeAccountAddr h sp) →
      view h (after h (createAccount chk' (computeAccountAddr h sp) sp.templateAddr sp.name 0 0) rs.storage) k =
        view h rs.storage k := by
    intro k k1 k2
    have hw : Writes (fun k => k = .accData (computeAccountAddr h sp) ∨ k = .accMut (computeAccountAddr h sp))
        (createAccount chk' (computeAccountAddr h sp) sp.templateAddr sp.name 0 0) :=
      Writes.bind (Writes.unwrap (writes_create chk' _ _ _ _ _)) fun _ => trivial
    rw [view_after hc]
    refine hw.eval _ k ?_
    rintro (rfl | rfl)
    · exact k1 rfl
    · exact k2 rfl
  generalize after h (createAccount chk' (computeAccountAddr h sp) sp.templateAddr sp.name 0 0) rs.storage = s1
    at hload hr1 hn1 hv1 g6
  have hll : l = counterLayout := by
    obtain ⟨ss', code, t1, -, -, -, t5, -⟩ := hT
    rw [out_eval hc] at t1
    rw [templateLayout_eval (Prod.ext ((readOnly_readSections chk' _).eval _) t1) t5] at hl
    exact (Outcome.ok.inj hl).symm
  subst hll
  have hT1 := hT.frame hc (hv1 (.core sp.templateAddr) nofun nofun) (hv1 (.noncore sp.templateAddr) nofun nofun)
  obtain ⟨w', env', mem', logs, hx, -, -, c2⟩ := init_exec hc hr1 chk chk' R hmem h32 hname henc hload hT1
  have hv2 : view h rs'.storage = w' := by
    rw [g6, view_execCall (hr1.ok hc).1, view_after hc]
    exact congrArg Prod.fst hx
  have hv3 : ∀ k, (∀ b, k ≠ .accMut b) → (∀ i, k ≠ .seg (computeAccountAddr h sp) i) →
      view h rs'.storage k = view h s1 k := by
    intro k k1 k2
    rw [g6, view_execCall (hr1.ok hc).1, view_after hc]
    refine (does_exec chk' eng _).writes.eval _ k ?_
    rintro (⟨b, rfl⟩ | ⟨i, rfl⟩)
    · exact k1 b rfl
    · exact k2 i rfl
  refine ⟨?_, rfl, ?_, c2 _ hv2⟩
  · exact same_load hc (hv3 _ (fun _ => nofun) (fun _ => nofun)) hload (hv3 _ (fun _ => nofun) (fun _ => nofun))
      (hv3 _ (fun _ => nofun) (fun _ => nofun))
  · exact hT1.frame hc (hv3 _ (fun _ => nofun) (fun _ => nofun))
      (hv3 _ (fun _ => nofun) (fun _ => nofun))

/-- A spawn of the counter with `initialize` and enough gas succeeds. -/
theorem counter_spawns {h : Hasher} (hc : NoCollision h) {rs : RState} (hr : Reach h rs.storage)
    (h0 : 0 ≤ rs.storage.next.id) (chk chk' : Bool) (R : ValueRepr) (o : Orders) {eng : Engine} {pr : Pricer}
    {envelope : Envelope} {memory : Bytes} (hmem : 32 ≤ memory.length) (h32 : memory.length < 2 ^ 32)
    {message rest : Bytes} {sp : SpawnAccount} {init : U32} (hd : decSpawn message = .ok (sp, rest))
    (hname : sp.ctorName = initName) (hn : sp.name.1.length ≤ 255)
    (henc : Abi.encodeArgs [⟨u32, init⟩] = some sp.calldata)
    (hT : CounterTemplate chk' h eng (sdkModule chk R memory (counterFns chk)) rs.storage sp.templateAddr)
    (hgas : ∀ ss, out h (readSections chk' sp.templateAddr) rs.storage = .ok ss → ∃ g, (checkGasForFunc pr rs.cache
      sp.templateAddr ss sp.ctorName (checkGasForPayload message (GasTank.new envelope.gasLimit))).2 = some g ∧
        g.isEmpty = false) :
    ∃ rs' r, spawn chk' h o eng pr envelope message rs = (rs', some r) ∧ r.success = true := by
  obtain ⟨ss, code, t1, t2, t3, t4, t5, t6⟩ := hT
  have hT : CounterTemplate chk' h eng (sdkModule chk R memory (counterFns chk)) rs.storage sp.templateAddr :=
    ⟨ss, code, t1, t2, t3, t4, t5, t6⟩
  have g4 := (createAccount_iff hc t1 t5).2 (by simp) (computeAccountAddr h sp) sp.name 0 0 hn
  obtain ⟨l, hl, hload⟩ := created_account hc g4
  have hll : l = counterLayout := by
    rw [out_eval hc] at t1
    rw [templateLayout_eval (Prod.ext ((readOnly_readSections chk' _).eval _) t1) t5] at hl
    exact (Outcome.ok.inj hl).symm
  subst hll
  have hr1 : Reach h (after h (createAccount chk' (computeAccountAddr h sp) sp.templateAddr sp.name 0 0) rs.storage) :=
    .prog _ (safe_createAccount _ _ _ _ _ _) hr
  have hn1 : (after h (createAccount chk' (computeAccountAddr h sp) sp.templateAddr sp.name 0 0) rs.storage).next =
      rs.storage.next := (Prog.run_frame h _ _).2
  have hw : Writes (fun k => k = .accData (computeAccountAddr h sp) ∨ k = .accMut (computeAccountAddr h sp))
      (createAccount chk' (computeAccountAddr h sp) sp.templateAddr sp.name 0 0) :=
    Writes.bind (Writes.unwrap (writes_create chk' _ _ _ _ _)) fun _ => trivial
  have hv1 : ∀ k, k ≠ .accData (computeAccountAddr h sp) → k ≠ .accMut (computeAccountAddr h sp) →
      view h (after h (createAccount chk' (computeAccountAddr h sp) sp.templateAddr sp.name 0 0) rs.storage) k =
        view h rs.storage k := by
    intro k k1 k2
    rw [view_after hc]
    refine hw.eval _ k ?_
    rintro (rfl | rfl)
    · exact k1 rfl
    · exact k2 rfl
  have hT1 := hT.frame hc (hv1 (.core sp.templateAddr) nofun nofun) (hv1 (.noncore sp.templateAddr) nofun nofun)
  obtain ⟨w', env', mem', logs, hx, x2, x3, -⟩ := init_exec hc hr1 chk chk' R hmem h32 hname henc hload hT1
  obtain ⟨s', r, q1, q2, -⟩ := execCall_returns hc (o := o) (hr1.ok hc).1 (by rw [hn1]; exact h0) hx
    (show (decide (env'.mode = .fullAccess)) = true from decide_eq_true x3) (data := []) x2
  obtain ⟨g, hg1, hg2⟩ := hgas ss t1
  have hload2 : (loadTemplate chk' sp.templateAddr).run h rs.storage = (rs.storage, .ok ss) := by
    have e1 := (readOnly_loadTemplate chk' sp.templateAddr).run h rs.storage
    refine Prod.ext e1 ?_
    have t1' : (readSections chk' sp.templateAddr).eval (view h rs.storage) = (view h rs.storage, .ok ss) :=
      Prod.ext ((readOnly_readSections chk' _).eval _) (by rw [← out_eval hc]; exact t1)
    exact out_of_eval hc (unwrap_ok.2 t1')
  have hcr : (createAccount chk' (computeAccountAddr h sp) sp.templateAddr sp.name 0 0).run h rs.storage =
      (after h (createAccount chk' (computeAccountAddr h sp) sp.templateAddr sp.name 0 0) rs.storage, .ok ()) :=
    Prod.ext rfl g4
  unfold spawn
  rw [hd]
  simp only [hload2]
  rw [isCtor_some t2, hname]
  simp only [List.mem_singleton, decide_true]
  rw [← hname, hg1]
  simp only [hg2]
  unfold spawnAccount callCtor
  simp only [hcr, q1]
  have : ∃ y, intoSpawnReceipt { r with touched := setInsert (setInsert r.touched (computeAccountAddr h sp)) envelope.principal }
      (computeAccountAddr h sp) = some y ∧ y.success = true := by
    unfold intoSpawnReceipt
    simp only [q2]
    exact ⟨_, rfl, rfl⟩
  obtain ⟨y, y1, y2⟩ := this
  refine ⟨_, y, Prod.ext rfl ?_, y2⟩
  simpa using y1

/-! ## Histories -/

theorem around_spares {chk : Bool} {h : Hasher} {a t : Addr} {e : Event} (he : Event.Around chk h a t e)
    (hn : ¬ Event.Calls a e) : e.Spares h 0 a ∧ e.Avoids chk h t ∧ ∀ n, e ≠ .rewind n := by
  cases e with
  | tx x =>
    cases x with
    | call m =>
      refine ⟨?_, trivial, fun _ => nofun⟩
      intro tx rest hd ht
      exact hn ⟨tx, rest, hd, ht⟩
    | spawn e m => exact ⟨he, trivial, fun _ => nofun⟩
    | deploy e m => exact ⟨trivial, he, fun _ => nofun⟩
    | verify m => exact ⟨trivial, trivial, fun _ => nofun⟩
  | create b t' nm x y => exact ⟨he, trivial, fun _ => nofun⟩
  | rewind n => exact he.elim
  | _ => exact ⟨trivial, trivial, fun _ => nofun⟩

/-- C127, from a counter on: whatever the node executes, the value changes by the calls only. -/
theorem counter_history {h : Hasher} (hc : NoCollision h) (chk chk' : Bool) (R : ValueRepr) {eng : Engine} (pr : Pricer)
    {memory : Bytes} (hmem : 32 ≤ memory.length) (h32 : memory.length < 2 ^ 32) {a : Addr} {acc : Acc} :
    ∀ (es : List Event) (os : Nat → Orders) (rs : RState) (l : Int) (v : U32), Reach h rs.storage → At l rs.storage →
      -1 ≤ l → IsCounter chk' h eng (sdkModule chk R memory (counterFns chk)) rs.storage a acc v →
      (∀ e ∈ es, Event.Around chk' h a acc.template e) →
      ∃ v', Counts chk a v es (Node.run chk' h eng pr rs es os).2 v' ∧
        IsCounter chk' h eng (sdkModule chk R memory (counterFns chk)) (Node.run chk' h eng pr rs es os).1.storage a acc v'
  | [], _, rs, _, v, _, _, _, hI, _ => ⟨v, .nil v, hI⟩
  | e :: es, os, rs, l, v, hr, ha, h0, hI, he => by
    have hr' := reach_step hr chk' eng pr (os 0) e
    obtain ⟨ha', h0'⟩ := ha.step (h := h) h0 chk' (os 0) eng pr e
    have ih := fun v hI' => counter_history (eng := eng) hc chk chk' R pr hmem h32 es (fun n => os (n + 1)) _ _ v hr' ha' h0' hI'
      fun e hm => he e (List.mem_cons_of_mem _ hm)
    have hadv := he e (List.mem_cons_self ..)
    by_cases hcl : Event.Calls a e
    · cases e with
      | tx x =>
        cases x with
        | call m =>
          by_cases hask : ∃ op n, Asks m a op n
          · obtain ⟨op, n, hask⟩ := hask
            obtain ⟨s', r, v₁, h1, h2, h3⟩ := counter_call hc hr (by rw [ha.next]; omega) chk chk' R (os 0) hmem h32 hI hask
            have hst : Node.step chk' h eng pr (os 0) rs (.tx (.call m)) = (⟨s', rs.cache⟩, .receipt (.call r)) := by
              simp only [Node.step, perform, h1]
              rfl
            rw [hst] at ih
            obtain ⟨v', g1, g2⟩ := ih v₁ h3
            refine ⟨v', ?_, ?_⟩
            · simp only [Node.run, hst]
              exact .asked hask h2 g1
            · simp only [Node.run, hst]
              exact g2
          · obtain ⟨tx, rest, hd, rfl⟩ := hcl
            obtain ⟨v₁, h1, h2⟩ := counter_moves hc hr chk chk' R (os 0) hd hI
            obtain ⟨v', g1, g2⟩ := ih v₁ h2
            exact ⟨v', .odd ⟨tx, rest, hd, rfl⟩ (fun op n hx => hask ⟨op, n, hx⟩) h1 g1, g2⟩
        | _ => exact hcl.elim
      | _ => exact hcl.elim
    · obtain ⟨k1, k2, k3⟩ := around_spares hadv hcl
      have hv := fun k hk => step_leaves hc hr chk' eng pr (os 0) e k3 0 k hk
      have hI' := hI.frame hc (v' := v) (hv (.accData a) k1) (hv (.core acc.template) k2) (hv (.noncore acc.template) k2)
        (hI.value_congr hc fun i => hv (.seg a i) k1)
      obtain ⟨v', g1, g2⟩ := ih v hI'
      exact ⟨v', .other hcl g1, g2⟩

/-! ## Deployment -/

/-- The file that the CLI makes of the template deploys the counter. -/
theorem counter_deploy {chk : Bool} {e : Macro.Expanded} (he : Macro.expand chk counterItems = .ok e) {mt : Meta}
    (hm : Macro.Listing e mt) {chk₁ : Bool} {code bs : Bytes} (hb : Macro.craft chk₁ code mt = some bs)
    (hlen : bs.length < 4294967295) {h : Hasher} (hc : NoCollision h) (s : Storage) (chk' : Bool) (envelope : Envelope)
    (hg : ∀ g, envelope.gasLimit = some g → 1000 * bs.length ≤ g.toNat) {eng : Engine} {m : Module}
    (heng : eng code = .ok m) :
    ∃ s' r t, deploy chk' h envelope bs s = (s', some r) ∧ r.success = true ∧ r.addr = some t ∧
      CounterTemplate chk' h eng m s' t := by
  have hn : ((Macro.functions counterItems).map Macro.Func.name).Nodup := by decide
  obtain ⟨l, h1, -, -, h4⟩ := Macro.craft_some he hn hm hb
  obtain ⟨e', he', hsch⟩ := counter_schema chk
  rw [he] at he'
  cases he'
  rw [hm.1, hsch, counter_layout] at h1
  cases h1
  have hct : mt.ctors = [initName] := List.perm_singleton.1 (Macro.ctors_perm he hn hm)
  have hdec := h4 chk' []
  rw [List.append_nil, hct] at hdec
  obtain ⟨s', r, t, g, k1, k2, k3, -, -, k6, -⟩ := (C33_deploy_partial hc (s := s) chk' envelope bs [] _ hlen hdec
    (fun hx => by cases hx) (by
      intro cs hcs
      simp only [List.mem_cons, List.not_mem_nil, or_false, reduceCtorEq, false_or, Section.ctors.injEq] at hcs
      subst hcs
      decide) (by
      intro ls hls l' hl'
      simp only [List.mem_cons, List.not_mem_nil, or_false, reduceCtorEq, false_or, Section.data.injEq] at hls
      subst hls
      simp only [List.mem_cons, List.not_mem_nil, or_false] at hl'
      subst hl'
      decide)).2 hg
  exact ⟨s', r, t, k1, k2, k3, _, _, k6, rfl, rfl, heng, rfl, rfl⟩

theorem template_kept {h : Hasher} (hc : NoCollision h) (chk : Bool) {eng : Engine} (pr : Pricer) {m : Module} {t : Addr} :
    ∀ (es : List Event) (os : Nat → Orders) (rs : RState), Reach h rs.storage →
      (∀ e ∈ es, e.Avoids chk h t ∧ ∀ n, e ≠ .rewind n) → CounterTemplate chk h eng m rs.storage t →
      CounterTemplate chk h eng m (Node.run chk h eng pr rs es os).1.storage t
  | [], _, _, _, _, hT => hT
  | e :: es, os, rs, hr, he, hT => by
    obtain ⟨h1, h2⟩ := he e (List.mem_cons_self ..)
    have hv := fun k hk => step_leaves hc hr chk eng pr (os 0) e h2 0 k hk
    exact template_kept hc chk pr es _ _ (reach_step hr chk eng pr (os 0) e)
      (fun e hm => he e (List.mem_cons_of_mem _ hm)) (hT.frame hc (hv (.core t) h1) (hv (.noncore t) h1))

/-! ## C127 -/

/-- C127: the CLI's file of the counter template deploys. An account that is then spawned with `initialize(init)` is a
counter with the value `init`, and from then on, whatever the node executes and as long as nobody replaces the account
or the template or rewinds, its value is what the calls of `add` and `mul` make of it, and their receipts show it. -/
theorem C127_counter {h : Hasher} (hc : NoCollision h) (chk chk₁ chk' : Bool) (R : ValueRepr) {memory : Bytes}
    (hmem : 32 ≤ memory.length) (h32 : memory.length < 2 ^ 32) {e : Macro.Expanded}
    (he : Macro.expand chk₁ counterItems = .ok e) {mt : Meta} (hm : Macro.Listing e mt) {code bs : Bytes}
    (hb : Macro.craft chk₁ code mt = some bs) (hlen : bs.length < 4294967295) {eng : Engine}
    (heng : eng code = .ok (sdkModule chk R memory (counterFns chk))) (pr : Pricer) {ts : List (Addr × Sections)}
    {o o₁ : Orders} {rs node₀ node₁ : RState} (hs : Node.start h o ts = some rs) (before : List Event) {as₀ : List Answer}
    {os₀ : Nat → Orders} (h₀ : Node.run chk' h eng pr rs before os₀ = (node₀, as₀)) (envelope : Envelope)
    (hg : ∀ g, envelope.gasLimit = some g → 1000 * bs.length ≤ g.toNat) {ans : Answer}
    (h₁ : Node.step chk' h eng pr o₁ node₀ (.tx (.deploy envelope bs)) = (node₁, ans)) :
    ∃ r t, ans = .receipt (.deploy r) ∧ r.success = true ∧ r.addr = some t ∧
      ∀ (mid : List Event) (os₁ : Nat → Orders) (node₂ node₃ : RState) (as₁ : List Answer) (envelope' : Envelope)
        (o₂ : Orders) (message rest : Bytes) (sp : SpawnAccount) (init : U32) (r' : SpawnReceipt),
      Node.run chk' h eng pr node₁ mid os₁ = (node₂, as₁) → (∀ e ∈ mid, e.Avoids chk' h t ∧ ∀ n, e ≠ .rewind n) →
      Node.step chk' h eng pr o₂ node₂ (.tx (.spawn envelope' message)) = (node₃, .receipt (.spawn r')) →
      r'.success = true → decSpawn message = .ok (sp, rest) → sp.templateAddr = t → sp.ctorName = initName →
      Abi.encodeArgs [⟨u32, init⟩] = some sp.calldata →
      r'.accountAddr = some (computeAccountAddr h sp) ∧ ∃ acc,
        IsCounter chk' h eng (sdkModule chk R memory (counterFns chk)) node₃.storage (computeAccountAddr h sp) acc init ∧
        ∀ (evs : List Event) (os₂ : Nat → Orders) (node₄ : RState) (as₂ : List Answer),
          Node.run chk' h eng pr node₃ evs os₂ = (node₄, as₂) →
          (∀ e ∈ evs, Event.Around chk' h (computeAccountAddr h sp) t e) →
          ∃ v, Counts chk (computeAccountAddr h sp) init evs as₂ v ∧
            IsCounter chk' h eng (sdkModule chk R memory (counterFns chk)) node₄.storage (computeAccountAddr h sp) acc v := by
  obtain ⟨a₀, l₀⟩ := (at_start hs).history (h := h) (by omega) chk' eng pr before os₀
  have hr₀ := reach_history (reach_start hs) chk' eng pr before os₀
  rw [h₀] at a₀ l₀ hr₀
  obtain ⟨s', r, t, d1, d2, d3, d4⟩ := counter_deploy he hm hb hlen hc node₀.storage chk' envelope hg heng
  have a₁ := a₀.step (h := h) l₀ chk' o₁ eng pr (.tx (.deploy envelope bs))
  have hr₁ := reach_step hr₀ chk' eng pr o₁ (.tx (.deploy envelope bs))
  rw [h₁] at a₁ hr₁
  have hst : Node.step chk' h eng pr o₁ node₀ (.tx (.deploy envelope bs)) =
      (⟨s', node₀.cache⟩, .receipt (.deploy r)) := by
    simp only [Node.step, perform, d1]
    rfl
  rw [hst] at h₁
  cases h₁
  refine ⟨r, t, rfl, d2, d3, ?_⟩
  intro mid os₁ node₂ node₃ as₁ envelope' o₂ message rest sp init r' h₂ hmid h₃ hs' hd ht hname henc
  subst ht
  have hT := template_kept hc chk' pr mid os₁ _ hr₁ hmid d4
  have a₂ := a₁.1.history (h := h) a₁.2 chk' eng pr mid os₁
  have hr₂ := reach_history hr₁ chk' eng pr mid os₁
  rw [h₂] at hT a₂ hr₂
  have a₃ := a₂.1.step (h := h) a₂.2 chk' o₂ eng pr (.tx (.spawn envelope' message))
  have hr₃ := reach_step hr₂ chk' eng pr o₂ (.tx (.spawn envelope' message))
  rw [h₃] at a₃ hr₃
  have hsp : spawn chk' h o₂ eng pr envelope' message node₂ = (node₃, some r') := by
    simp only [Node.step, perform] at h₃
    obtain ⟨e1, e2⟩ := Prod.mk.inj h₃
    refine Prod.ext e1 ?_
    cases hx : (spawn chk' h o₂ eng pr envelope' message node₂).2 with
    | none => rw [hx] at e2; cases e2
    | some y => rw [hx] at e2; cases e2; rfl
  have hI := counter_spawn hc hr₂ chk chk' R o₂ hmem h32 hsp hs' hd hname henc hT
  obtain ⟨sp', rest', ss, q1, -, -, -, q5, -⟩ := spawn_success_steps hsp hs'
  rw [hd] at q1
  cases q1
  refine ⟨q5, _, hI, ?_⟩
  intro evs os₂ node₄ as₂ h₄ hevs
  have := counter_history hc chk chk' R pr hmem h32 evs os₂ _ _ _ hr₃ a₃.1 a₃.2 hI hevs
  rw [h₄] at this
  exact this

/-- C127, when the spawn succeeds: the message fits, the constructor has a price, and the gas is more than the price of the
message and the constructor together. -/
theorem C127_spawns {h : Hasher} (hc : NoCollision h) {rs : RState} (hr : Reach h rs.storage)
    (h0 : 0 ≤ rs.storage.next.id) (chk chk' : Bool) (R : ValueRepr) (o : Orders) {eng : Engine} {pr : Pricer}
    {envelope : Envelope} {memory : Bytes} (hmem : 32 ≤ memory.length) (h32 : memory.length < 2 ^ 32)
    {message rest : Bytes} {sp : SpawnAccount} {init : U32} (hd : decSpawn message = .ok (sp, rest))
    (hm : message.length < 4294967295) (hname : sp.ctorName = initName) (hn : sp.name.1.length ≤ 255)
    (henc : Abi.encodeArgs [⟨u32, init⟩] = some sp.calldata)
    (hT : CounterTemplate chk' h eng (sdkModule chk R memory (counterFns chk)) rs.storage sp.templateAddr)
    {ss : Sections} (hss : out h (readSections chk' sp.templateAddr) rs.storage = .ok ss) {price : U64}
    (hp : PricedAt pr rs.cache sp.templateAddr ss initName price)
    (hgas : 1000 * message.length + price.toNat < limitOf envelope.gasLimit) :
    ∃ rs' r, spawn chk' h o eng pr envelope message rs = (rs', some r) ∧ r.success = true := by
  refine counter_spawns hc hr h0 chk chk' R o hmem h32 hd hname hn henc hT ?_
  intro ss' h1
  rw [hss] at h1
  cases h1
  obtain ⟨g, g1, g2⟩ := checkGas_priced (hname ▸ hp) message hm envelope.gasLimit
  refine ⟨g, g1, ?_⟩
  cases hg : g.isEmpty with
  | false => rfl
  | true => exact absurd (g2.1 hg) (by omega)

/-! ## A life of a counter -/

theorem counter_small {chk : Bool} {e : Macro.Expanded} (he : Macro.expand chk counterItems = .ok e) :
    Macro.Small (Macro.ctorNames counterItems) e.schema [0, 97, 115, 109] := by
  obtain ⟨e', he', hsch⟩ := counter_schema chk
  rw [he] at he'
  cases he'
  rw [hsch]
  exact ⟨by decide, by decide, by decide, by decide⟩

theorem asks_some (a : Addr) (op : Op) (n : U32) : ∃ m, Asks m a op n := by
  obtain ⟨bs, hb⟩ : ∃ bs, Abi.encodeArgs [⟨u32, n⟩] = some bs := by
    obtain ⟨bs, hb⟩ := encode_u32 n
    exact ⟨bs ++ [], by simp only [Abi.encodeArgs, hb]; rfl⟩
  obtain ⟨m, -, hm⟩ := (C38_transaction_lossless ⟨0, a, op.name, [], bs⟩ []).1
    ⟨by cases op <;> exact Nat.le_of_ble_eq_true rfl, Nat.zero_le _, by have := encode_one hb; change bs.length ≤ 255; omega⟩
  exact ⟨m ++ [], _, _, hm, rfl, rfl, hb⟩

theorem counter_file : ∃ e mt bs, Macro.expand true counterItems = .ok e ∧ Macro.Listing e mt ∧
    Macro.craft true [0, 97, 115, 109] mt = some bs ∧ bs.length ≤ 100 := by
  have h : ((Macro.expand true counterItems).toOption.bind fun e =>
      Macro.craft true [0, 97, 115, 109] ⟨e.exports.map Prod.snd, e.schema⟩).map (fun bs => decide (bs.length ≤ 100)) = some true := by
    decide +kernel
  cases he : Macro.expand true counterItems with
  | ok e =>
    rw [he] at h
    obtain ⟨bs, h1, h2⟩ := Option.map_eq_some_iff.1 h
    exact ⟨e, _, bs, rfl, ⟨rfl, .refl _⟩, h1, of_decide_eq_true h2⟩
  | err _ => rw [he] at h; cases h
  | panic => rw [he] at h; cases h

/-- Non-vacuity of C127: a counter that starts with 7 becomes 12, and then `mul(2 ^ 31)` fails. -/
example (R : ValueRepr) : ∃ h e mt bs rs node₁ dr t message sp node₂ sr node₃ add mul r₁ r₂, NoCollision h ∧
    Macro.expand true counterItems = .ok e ∧ Macro.Listing e mt ∧ Macro.craft true [0, 97, 115, 109] mt = some bs ∧
    Node.start h ⟨.id, .id⟩ (mainnet h [0]) = some rs ∧
    Node.step true h (oneEngine (sdkModule true R (List.replicate 64 0) (counterFns true))) flatPricer ⟨.id, .id⟩ rs
      (.tx (.deploy ⟨exampleAddr 1, 0, 0, none, 0⟩ bs)) = (node₁, .receipt (.deploy dr)) ∧ dr.addr = some t ∧
    decSpawn message = .ok (sp, []) ∧ sp.templateAddr = t ∧ sp.ctorName = initName ∧
    Abi.encodeArgs [⟨u32, (7 : U32)⟩] = some sp.calldata ∧
    Node.step true h (oneEngine (sdkModule true R (List.replicate 64 0) (counterFns true))) flatPricer ⟨.id, .id⟩ node₁
      (.tx (.spawn ⟨exampleAddr 1, 0, 0, none, 0⟩ message)) = (node₂, .receipt (.spawn sr)) ∧ sr.success = true ∧
    Asks add (computeAccountAddr h sp) .add 5 ∧ Asks mul (computeAccountAddr h sp) .mul (2 ^ 31) ∧
    Node.run true h (oneEngine (sdkModule true R (List.replicate 64 0) (counterFns true))) flatPricer node₂
      [.tx (.call add), .tx (.call mul)] (fun _ => ⟨.id, .id⟩) =
        (node₃, [.receipt (.call r₁), .receipt (.call r₂)]) ∧
    Replies true .add 7 5 r₁ 12 ∧ r₁.success = true ∧ Replies true .mul 12 (2 ^ 31) r₂ 12 ∧ r₂.success = false := by
  obtain ⟨h, hc⟩ := exists_noCollision
  obtain ⟨rs, hs⟩ := start_mainnet hc
  obtain ⟨e, mt, bs, he, hm, hb, hl⟩ := counter_file
  obtain ⟨s₁, dr, t, d1, d2, d3, d4⟩ := counter_deploy he hm hb (by omega) hc rs.storage true ⟨exampleAddr 1, 0, 0, none, 0⟩
    nofun (eng := oneEngine (sdkModule true R (List.replicate 64 0) (counterFns true))) rfl
  have hst : Node.step true h (oneEngine (sdkModule true R (List.replicate 64 0) (counterFns true))) flatPricer ⟨.id, .id⟩
      rs (.tx (.deploy ⟨exampleAddr 1, 0, 0, none, 0⟩ bs)) = (⟨s₁, rs.cache⟩, .receipt (.deploy dr)) := by
    simp only [Node.step, perform, d1]
    rfl
  have hr₁ := reach_step (reach_start hs) true (oneEngine (sdkModule true R (List.replicate 64 0) (counterFns true)))
    flatPricer ⟨.id, .id⟩ (.tx (.deploy ⟨exampleAddr 1, 0, 0, none, 0⟩ bs))
  have a₁ := (at_start hs).step (h := h) (by omega) true ⟨.id, .id⟩
    (oneEngine (sdkModule true R (List.replicate 64 0) (counterFns true))) flatPricer
    (.tx (.deploy ⟨exampleAddr 1, 0, 0, none, 0⟩ bs))
  rw [hst] at hr₁ a₁
  have hcache : rs.cache = [] := by
    obtain ⟨-, rfl⟩ := start_storage hs
    rfl
  obtain ⟨init, hinit⟩ : ∃ bs, Abi.encodeArgs [⟨u32, (7 : U32)⟩] = some bs := by
    obtain ⟨bs, hb⟩ := encode_u32 7
    exact ⟨bs ++ [], by simp only [Abi.encodeArgs, hb]; rfl⟩
  have hil := encode_one hinit
  obtain ⟨m, hm1, hm2⟩ := (C39_spawn_context_lossless.1 ⟨0, t, aName, initName, init⟩ []).1
    ⟨Nat.le_of_ble_eq_true rfl, Nat.le_of_ble_eq_true rfl, by change init.length ≤ 255; omega⟩
  rw [List.append_nil] at hm2
  have hml : m.length < 1000 := by
    have he1 : ∀ d : Bytes, d.length ≤ 5 → ∀ x, encData 1 d = some x → x.length ≤ 6 := by
      intro d hd x hx
      unfold encData at hx
      split at hx
      · cases hx
        simp only [List.length_append, natBE_length]
        omega
      · cases hx
    have hs' : encStr aName = some [1, 97] := by decide +kernel
    have hi' : encStr initName = some [10, 105, 110, 105, 116, 105, 97, 108, 105, 122, 101] := by decide +kernel
    unfold encSpawn at hm1
    simp only [hs', hi'] at hm1
    obtain ⟨x1, x2, y1, y2, rfl⟩ := Enc.seq_eq_some.1 hm1
    obtain ⟨x3, x4, y3, y4, rfl⟩ := Enc.seq_eq_some.1 y2
    obtain ⟨x5, x6, y5, y6, rfl⟩ := Enc.seq_eq_some.1 y4
    obtain ⟨x7, x8, y7, y8, rfl⟩ := Enc.seq_eq_some.1 y6
    have z1 := encNum_length y1
    have z2 := he1 _ hil _ y8
    have z3 : x3.length = 20 := by cases y3; exact t.2
    cases y5
    cases y7
    simp only [List.length_append, List.length_cons, List.length_nil]
    omega
  obtain ⟨ss, code, t1, t2, t3, t4, t5, t6⟩ := d4
  have d4 : CounterTemplate true h (oneEngine (sdkModule true R (List.replicate 64 0) (counterFns true)))
      (sdkModule true R (List.replicate 64 0) (counterFns true)) s₁ t := ⟨ss, code, t1, t2, t3, t4, t5, t6⟩
  have hp : PricedAt flatPricer rs.cache t ss initName 7 := by
    rw [hcache]
    refine ⟨code, _, 0, _, ?_, t6, rfl, rfl, rfl, rfl⟩
    unfold codeSection
    rw [t3]
  obtain ⟨rs₂, sr, p1, p2⟩ := C127_spawns hc (rs := ⟨s₁, rs.cache⟩) hr₁ (by have := a₁.2; rw [a₁.1.next]; omega) true true R ⟨.id, .id⟩
    (pr := flatPricer) (envelope := ⟨exampleAddr 1, 0, 0, none, 0⟩) (memory := List.replicate 64 0)
    (by simp) (by simp) hm2 (by omega) rfl (Nat.le_of_ble_eq_true rfl) hinit d4 t1 hp
    (by change 1000 * m.length + 7 < 2 ^ 64 - 1; omega)
  have hst₂ : Node.step true h (oneEngine (sdkModule true R (List.replicate 64 0) (counterFns true))) flatPricer ⟨.id, .id⟩
      ⟨s₁, rs.cache⟩ (.tx (.spawn ⟨exampleAddr 1, 0, 0, none, 0⟩ m)) = (rs₂, .receipt (.spawn sr)) := by
    simp only [Node.step, perform, p1]
    rfl
  obtain ⟨r', t', e1, e2, e3, hlife⟩ := C127_counter hc true true true R (memory := List.replicate 64 0) (by simp)
    (by simp) he hm hb (by omega) (eng := oneEngine (sdkModule true R (List.replicate 64 0) (counterFns true))) rfl
    flatPricer hs [] (os₀ := fun _ => ⟨.id, .id⟩) rfl _
    (by intro g hg; cases hg) hst
  cases e1
  rw [d3] at e3
  cases e3
  obtain ⟨-, acc, hI, hrun⟩ := hlife [] (fun _ => ⟨.id, .id⟩) _ rs₂ [] ⟨exampleAddr 1, 0, 0, none, 0⟩ ⟨.id, .id⟩ m [] _ 7 sr
    rfl nofun hst₂ p2 hm2 rfl rfl hinit
  obtain ⟨ma, hma⟩ := asks_some (computeAccountAddr h ⟨0, t, aName, initName, init⟩) .add 5
  obtain ⟨mm, hmm⟩ := asks_some (computeAccountAddr h ⟨0, t, aName, initName, init⟩) .mul (2 ^ 31)
  have hr₂ := reach_step hr₁ true (oneEngine (sdkModule true R (List.replicate 64 0) (counterFns true)))
    flatPricer ⟨.id, .id⟩ (.tx (.spawn ⟨exampleAddr 1, 0, 0, none, 0⟩ m))
  have a₂ := a₁.1.step (h := h) a₁.2 true ⟨.id, .id⟩
    (oneEngine (sdkModule true R (List.replicate 64 0) (counterFns true))) flatPricer
    (.tx (.spawn ⟨exampleAddr 1, 0, 0, none, 0⟩ m))
  rw [hst₂] at hr₂ a₂
  obtain ⟨s₃, r₁, v₁, c1, c2, c3⟩ := counter_call hc hr₂ (by have := a₂.2; rw [a₂.1.next]; omega) true true R ⟨.id, .id⟩
    (by simp) (by simp) hI hma
  have hst₃ : Node.step true h (oneEngine (sdkModule true R (List.replicate 64 0) (counterFns true))) flatPricer ⟨.id, .id⟩
      rs₂ (.tx (.call ma)) = (⟨s₃, rs₂.cache⟩, .receipt (.call r₁)) := by
    simp only [Node.step, perform, c1]
    rfl
  have hr₃ := reach_step hr₂ true (oneEngine (sdkModule true R (List.replicate 64 0) (counterFns true)))
    flatPricer ⟨.id, .id⟩ (.tx (.call ma))
  have a₃ := a₂.1.step (h := h) a₂.2 true ⟨.id, .id⟩
    (oneEngine (sdkModule true R (List.replicate 64 0) (counterFns true))) flatPricer (.tx (.call ma))
  rw [hst₃] at hr₃ a₃
  have hc2 := c2
  unfold Replies at c2
  rw [if_neg (by decide)] at c2
  have hv₁ : v₁ = 12 := BitVec.eq_of_toNat_eq (c2.2.1.trans (by decide))
  subst hv₁
  obtain ⟨s₄, r₂, v₂, f1, f2, f3⟩ := counter_call hc hr₃ (by have := a₃.2; rw [a₃.1.next]; omega) true true R ⟨.id, .id⟩
    (by simp) (by simp) c3 hmm
  have hst₄ : Node.step true h (oneEngine (sdkModule true R (List.replicate 64 0) (counterFns true))) flatPricer ⟨.id, .id⟩
      ⟨s₃, rs₂.cache⟩ (.tx (.call mm)) = (⟨s₄, rs₂.cache⟩, .receipt (.call r₂)) := by
    simp only [Node.step, perform, f1]
    rfl
  have hf2 := f2
  unfold Replies at f2
  rw [if_pos (by decide)] at f2
  obtain ⟨f4, rfl⟩ := f2
  refine ⟨h, e, mt, bs, rs, _, dr, t, m, _, rs₂, sr, ⟨s₄, rs₂.cache⟩, ma, mm, r₁, r₂, hc, he, hm, hb, hs, hst, d3, hm2, rfl,
    rfl, hinit, hst₂, p2, hma, hmm, ?_, hc2, c2.1, hf2, f4⟩
  simp only [Node.run, hst₃, hst₄]

end Svm.Sdk
