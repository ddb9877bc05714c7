import Verif.Json.Messages
import Verif.Codec.Props4

/-!
# C89 and C90: receipts as JSON

`crates/host/codec/src/api/json/receipt.rs`, with `gas_to_json` and `logs_to_json` of `mod.rs`.
-/

namespace Svm.JsonApi

open Svm.Codec (Str Addr Gas Hash utf8Valid RuntimeError CallReceipt SpawnReceipt DeployReceipt Receipt
  encReceipt decReceipt)

/-! ## Model -/

/-- `gas_to_json`, mod.rs:21-27: `as i64` turns the upper half of the `u64` into negative numbers. -/
def gasToJson : Gas → Json
  | some x => .int (BitVec.toInt x)
  | none => .int (-1)

/-- `logs_to_json`, mod.rs:29-39. -/
def logsToJson : List Bytes → Option (List Json)
  | [] => some []
  | log :: logs => do
    let l ← logsToJson logs
    if h : utf8Valid log = true then some (.obj [("data", .str ⟨log, h⟩)] :: l) else none

/-- `receipt_type`, receipt.rs:38-44: `deploy-template`, `spawn-account` and `call-account`. -/
def receiptType : Receipt → Str
  | .deploy _ =>
    ⟨[0x64, 0x65, 0x70, 0x6c, 0x6f, 0x79, 0x2d, 0x74, 0x65, 0x6d, 0x70, 0x6c, 0x61, 0x74, 0x65], by decide⟩
  | .spawn _ =>
    ⟨[0x73, 0x70, 0x61, 0x77, 0x6e, 0x2d, 0x61, 0x63, 0x63, 0x6f, 0x75, 0x6e, 0x74], by decide⟩
  | .call _ =>
    ⟨[0x63, 0x61, 0x6c, 0x6c, 0x2d, 0x61, 0x63, 0x63, 0x6f, 0x75, 0x6e, 0x74], by decide⟩

/-- The values of `err_type`, receipt.rs:48-133: `oog`, `template-not-found`, `account-not-found`, `compilation-failed`, `instantiation-failed`, `function-not-found`, `function-failed`, `function-not-ctor`, `function-not-allowed`, `function-invalid-signature`. -/
def errType : RuntimeError → Str
  | .oog .. =>
    ⟨[0x6f, 0x6f, 0x67], by decide⟩
  | .templateNotFound .. =>
    ⟨[0x74, 0x65, 0x6d, 0x70, 0x6c, 0x61, 0x74, 0x65, 0x2d, 0x6e, 0x6f, 0x74, 0x2d, 0x66, 0x6f, 0x75, 0x6e, 0x64], by decide⟩
  | .accountNotFound .. =>
    ⟨[0x61, 0x63, 0x63, 0x6f, 0x75, 0x6e, 0x74, 0x2d, 0x6e, 0x6f, 0x74, 0x2d, 0x66, 0x6f, 0x75, 0x6e, 0x64], by decide⟩
  | .compilationFailed .. =>
    ⟨[0x63, 0x6f, 0x6d, 0x70, 0x69, 0x6c, 0x61, 0x74, 0x69, 0x6f, 0x6e, 0x2d, 0x66, 0x61, 0x69, 0x6c, 0x65, 0x64], by decide⟩
  | .instantiationFailed .. =>
    ⟨[0x69, 0x6e, 0x73, 0x74, 0x61, 0x6e, 0x74, 0x69, 0x61, 0x74, 0x69, 0x6f, 0x6e, 0x2d, 0x66, 0x61, 0x69, 0x6c, 0x65, 0x64], by decide⟩
  | .funcNotFound .. =>
    ⟨[0x66, 0x75, 0x6e, 0x63, 0x74, 0x69, 0x6f, 0x6e, 0x2d, 0x6e, 0x6f, 0x74, 0x2d, 0x66, 0x6f, 0x75, 0x6e, 0x64], by decide⟩
  | .funcFailed .. =>
    ⟨[0x66, 0x75, 0x6e, 0x63, 0x74, 0x69, 0x6f, 0x6e, 0x2d, 0x66, 0x61, 0x69, 0x6c, 0x65, 0x64], by decide⟩
  | .funcNotCtor .. =>
    ⟨[0x66, 0x75, 0x6e, 0x63, 0x74, 0x69, 0x6f, 0x6e, 0x2d, 0x6e, 0x6f, 0x74, 0x2d, 0x63, 0x74, 0x6f, 0x72], by decide⟩
  | .funcNotAllowed .. =>
    ⟨[0x66, 0x75, 0x6e, 0x63, 0x74, 0x69, 0x6f, 0x6e, 0x2d, 0x6e, 0x6f, 0x74, 0x2d, 0x61, 0x6c, 0x6c, 0x6f, 0x77, 0x65, 0x64], by decide⟩
  | .funcInvalidSignature .. =>
    ⟨[0x66, 0x75, 0x6e, 0x63, 0x74, 0x69, 0x6f, 0x6e, 0x2d, 0x69, 0x6e, 0x76, 0x61, 0x6c, 0x69, 0x64, 0x2d, 0x73, 0x69, 0x67, 0x6e, 0x61, 0x74, 0x75, 0x72, 0x65], by decide⟩

/-- The other fields of an error, receipt.rs:48-133. -/
def errFields : RuntimeError → List (String × Json)
  | .oog => []
  | .templateNotFound t => [("template_addr", addrJson t)]
  | .accountNotFound a => [("account_addr", addrJson a)]
  | .compilationFailed a t msg =>
    [("template_addr", addrJson t), ("account_addr", addrJson a), ("message", .str msg)]
  | .instantiationFailed a t msg =>
    [("template_addr", addrJson t), ("account_addr", addrJson a), ("message", .str msg)]
  | .funcNotFound a t func =>
    [("template_addr", addrJson t), ("account_addr", addrJson a), ("func", .str func)]
  | .funcFailed a t func msg =>
    [("template_addr", addrJson t), ("account_addr", addrJson a), ("func", .str func),
      ("message", .str msg)]
  | .funcNotCtor t func => [("template_addr", addrJson t), ("func", .str func)]
  | .funcNotAllowed a t func msg =>
    [("template_addr", addrJson t), ("account_addr", addrJson a), ("func", .str func),
      ("message", .str msg)]
  | .funcInvalidSignature a t func =>
    [("template_addr", addrJson t), ("account_addr", addrJson a), ("func", .str func)]

/-- `decode_error`, receipt.rs:46-145. -/
def errorToJson (ty : Str) (e : RuntimeError) (logs : List Bytes) : Outcome JsonError Json := do
  let l ← .unwrapOpt (logsToJson logs)
  .ok (.obj (("err_type", .str (errType e)) :: errFields e ++
    [("type", .str ty), ("success", .bool false), ("logs", .arr l)]))

/-- `decode_deploy`, receipt.rs:147-165; `chk` for the debug assertions. -/
def deployToJson (chk : Bool) (ty : Str) (r : DeployReceipt) : Outcome JsonError Json :=
  if chk ∧ ¬ (r.success ∧ r.error = none) then .panic
  else do
    let addr ← .unwrapOpt r.addr
    let l ← .unwrapOpt (logsToJson r.logs)
    .ok (.obj [("type", .str ty), ("success", .bool true), ("addr", addrJson addr),
      ("gas_used", gasToJson r.gasUsed), ("logs", .arr l)])

/-- `decode_spawn`, receipt.rs:167-191. The touched accounts are listed in the order of the set. -/
def spawnToJson (chk : Bool) (ord : Order Addr) (ty : Str) (r : SpawnReceipt) : Outcome JsonError Json :=
  if chk ∧ ¬ (r.success ∧ r.error = none) then .panic
  else do
    let addr ← .unwrapOpt r.accountAddr
    let state ← .unwrapOpt r.initState
    let returndata ← .unwrapOpt r.returndata
    let l ← .unwrapOpt (logsToJson r.logs)
    .ok (.obj [("type", .str ty), ("success", .bool true), ("account", addrJson addr),
      ("state", .str (hexStr state.1)), ("returndata", .str (hexStr returndata)),
      ("gas_used", gasToJson r.gasUsed), ("touched_accounts", .arr ((ord.run r.touched).map addrJson)),
      ("logs", .arr l)])

/-- `decode_call`, receipt.rs:193-215. -/
def callToJson (chk : Bool) (ord : Order Addr) (ty : Str) (r : CallReceipt) : Outcome JsonError Json :=
  if chk ∧ ¬ (r.success ∧ r.error = none) then .panic
  else do
    let state ← .unwrapOpt r.newState
    let returndata ← .unwrapOpt r.returndata
    let l ← .unwrapOpt (logsToJson r.logs)
    .ok (.obj [("type", .str ty), ("success", .bool true),
      ("new_state", .str (hexStr state.1)), ("returndata", .str (hexStr returndata)),
      ("gas_used", gasToJson r.gasUsed), ("touched_accounts", .arr ((ord.run r.touched).map addrJson)),
      ("logs", .arr l)])

/-- The second half of `decode_receipt`, receipt.rs:19-34. -/
def showReceipt (chk : Bool) (ord : Order Addr) (r : Receipt) : Outcome JsonError Json :=
  if r.success then
    match r with
    | .deploy d => deployToJson chk (receiptType r) d
    | .spawn s => spawnToJson chk ord (receiptType r) s
    | .call c => callToJson chk ord (receiptType r) c
  else do
    let e ← .unwrapOpt r.error
    errorToJson (receiptType r) e r.logs

/-- `decode_receipt`, receipt.rs:12-36. -/
def decodeReceipt (chk : Bool) (ord : Order Addr) (j : Json) : Outcome JsonError Json := do
  let bs ← getField parseHex j "data"
  if bs = [] then .panic
  else do
    let (r, _) ← .unwrapRes (decReceipt chk bs)
    showReceipt chk ord r

/-! ## Lemmas -/

theorem hexStr_inj {a b : Bytes} (h : hexStr a = hexStr b) : a = b := by
  have h1 := hexDecode_hexEncode a
  have h2 := hexDecode_hexEncode b
  have h3 : hexEncode a = hexEncode b := congrArg Subtype.val h
  rw [h3, h2] at h1
  cases h1
  rfl

theorem addrJson_inj {a b : Addr} (h : addrJson a = addrJson b) : a = b := by
  unfold addrJson at h
  injection h with h
  exact Subtype.ext (hexStr_inj h)

theorem map_addrJson_inj : ∀ {l m : List Addr}, l.map addrJson = m.map addrJson → l = m
  | [], [], _ => rfl
  | [], b :: m, h => by cases h
  | a :: l, [], h => by cases h
  | a :: l, b :: m, h => by
    rw [List.map_cons, List.map_cons] at h
    injection h with h1 h2
    rw [addrJson_inj h1, map_addrJson_inj h2]

theorem logsToJson_isSome : ∀ {logs : List Bytes},
    (∃ l, logsToJson logs = some l) ↔ ∀ log ∈ logs, utf8Valid log = true
  | [] => ⟨fun _ log h => absurd h (by simp), fun _ => ⟨[], rfl⟩⟩
  | log :: logs => by
    have ih := logsToJson_isSome (logs := logs)
    rw [List.forall_mem_cons, ← ih, logsToJson]
    constructor
    · rintro ⟨l, h⟩
      obtain ⟨m, hm, h⟩ := opt_bind h
      split at h
      · rename_i hv; exact ⟨hv, m, hm⟩
      · cases h
    · rintro ⟨hv, m, hm⟩
      rw [hm]
      exact ⟨_, dif_pos hv⟩

theorem logsToJson_inj : ∀ {a b : List Bytes} {l : List Json}, logsToJson a = some l →
    logsToJson b = some l → a = b
  | [], [], _, _, _ => rfl
  | [], y :: b, l, h1, h2 => by
    cases h1
    unfold logsToJson at h2
    obtain ⟨m, -, h2⟩ := opt_bind h2
    split at h2 <;> cases h2
  | x :: a, [], l, h1, h2 => by
    cases h2
    unfold logsToJson at h1
    obtain ⟨m, -, h1⟩ := opt_bind h1
    split at h1 <;> cases h1
  | x :: a, y :: b, l, h1, h2 => by
    unfold logsToJson at h1 h2
    obtain ⟨m, hm, h3⟩ := opt_bind h1
    obtain ⟨n, hn, h4⟩ := opt_bind h2
    clear h1 h2
    split at h3
    · split at h4
      · cases h3
        injection h4 with h4
        injection h4 with h2 h3
        subst h3
        have e := logsToJson_inj hm hn
        simp only [Json.obj.injEq, List.cons.injEq, Prod.mk.injEq, true_and, and_true, Json.str.injEq,
          Subtype.mk.injEq] at h2
        rw [h2, e]
      · cases h4
    · cases h3

theorem gasToJson_inj {g g' : Gas} (h : ∀ x, g = some x → x.toNat < 2 ^ 63)
    (h' : ∀ x, g' = some x → x.toNat < 2 ^ 63) (he : gasToJson g = gasToJson g') : g = g' := by
  have key : ∀ x : BitVec 64, x.toNat < 2 ^ 63 → x.toInt = x.toNat := fun x hx => by
    rw [BitVec.toInt_eq_toNat_cond, if_pos (by omega)]
  cases g with
  | none =>
    cases g' with
    | none => rfl
    | some y =>
      have e := key y (h' y rfl)
      injection he with he
      have : (-1 : Int) = (BitVec.toInt y : Int) := he
      omega
  | some x =>
    have e := key x (h x rfl)
    cases g' with
    | none =>
      injection he with he
      have : (BitVec.toInt x : Int) = -1 := he
      omega
    | some y =>
      injection he with he
      exact congrArg some (BitVec.toInt_inj.1 he)

/-! ## C89 -/

/-- Two receipts that agree in everything but their versions. -/
def Agree : Receipt → Receipt → Prop
  | .deploy a, .deploy b => { a with version := 0 } = { b with version := 0 }
  | .spawn a, .spawn b => { a with version := 0, touched := [] } = { b with version := 0, touched := [] } ∧
      a.touched.Perm b.touched
  | .call a, .call b => { a with version := 0, touched := [] } = { b with version := 0, touched := [] } ∧
      a.touched.Perm b.touched
  | _, _ => False

/-- C89: receipts of successful transactions shown alike are the same. -/
def C89_claim : Prop := ∀ (chk : Bool) (ord ord' : Order Addr) (r r' : Receipt) (j : Json),
  r.Successful → r'.Successful → showReceipt chk ord r = .ok j → showReceipt chk ord' r' = .ok j →
    Agree r r'

/-- The gas a receipt reports, if any, is less than 2^63. -/
def SmallGas (r : Receipt) : Prop := ∀ x, r.gasUsed = some x → x.toNat < 2 ^ 63

theorem deployToJson_ok {chk : Bool} {ty : Str} {r : DeployReceipt} {j : Json}
    (h : deployToJson chk ty r = .ok j) : ∃ a l, r.addr = some a ∧ logsToJson r.logs = some l ∧
      j = .obj [("type", .str ty), ("success", .bool true), ("addr", addrJson a),
        ("gas_used", gasToJson r.gasUsed), ("logs", .arr l)] := by
  unfold deployToJson at h
  split at h
  · cases h
  · obtain ⟨a, h1, h2⟩ := bind_ok h
    obtain ⟨l, h3, h4⟩ := bind_ok h2
    cases h4
    exact ⟨a, l, unwrapOpt_ok h1, unwrapOpt_ok h3, rfl⟩

theorem spawnToJson_ok {chk : Bool} {ord : Order Addr} {ty : Str} {r : SpawnReceipt} {j : Json}
    (h : spawnToJson chk ord ty r = .ok j) : ∃ a s d l, r.accountAddr = some a ∧ r.initState = some s ∧
      r.returndata = some d ∧ logsToJson r.logs = some l ∧
      j = .obj [("type", .str ty), ("success", .bool true), ("account", addrJson a),
        ("state", .str (hexStr s.1)), ("returndata", .str (hexStr d)),
        ("gas_used", gasToJson r.gasUsed), ("touched_accounts", .arr ((ord.run r.touched).map addrJson)),
        ("logs", .arr l)] := by
  unfold spawnToJson at h
  split at h
  · cases h
  · obtain ⟨a, h1, h2⟩ := bind_ok h
    obtain ⟨s, h3, h4⟩ := bind_ok h2
    obtain ⟨d, h5, h6⟩ := bind_ok h4
    obtain ⟨l, h7, h8⟩ := bind_ok h6
    cases h8
    exact ⟨a, s, d, l, unwrapOpt_ok h1, unwrapOpt_ok h3, unwrapOpt_ok h5, unwrapOpt_ok h7, rfl⟩

theorem callToJson_ok {chk : Bool} {ord : Order Addr} {ty : Str} {r : CallReceipt} {j : Json}
    (h : callToJson chk ord ty r = .ok j) : ∃ s d l, r.newState = some s ∧
      r.returndata = some d ∧ logsToJson r.logs = some l ∧
      j = .obj [("type", .str ty), ("success", .bool true),
        ("new_state", .str (hexStr s.1)), ("returndata", .str (hexStr d)),
        ("gas_used", gasToJson r.gasUsed), ("touched_accounts", .arr ((ord.run r.touched).map addrJson)),
        ("logs", .arr l)] := by
  unfold callToJson at h
  split at h
  · cases h
  · obtain ⟨s, h3, h4⟩ := bind_ok h
    obtain ⟨d, h5, h6⟩ := bind_ok h4
    obtain ⟨l, h7, h8⟩ := bind_ok h6
    cases h8
    exact ⟨s, d, l, unwrapOpt_ok h3, unwrapOpt_ok h5, unwrapOpt_ok h7, rfl⟩

theorem successful_success {r : Receipt} (h : r.Successful) : r.success = true := by
  cases r <;> exact h.1

theorem successful_error {r : Receipt} (h : r.Successful) : r.error = none := by
  cases r <;> exact h.2.1

/-- The types of receipts are told apart. -/
theorem type_of_shown {chk : Bool} {ord : Order Addr} {r : Receipt} {j : Json} (hs : r.success = true)
    (h : showReceipt chk ord r = .ok j) : j.field "type" = some (.str (receiptType r)) := by
  unfold showReceipt at h
  rw [if_pos hs] at h
  cases r with
  | deploy d => obtain ⟨_, _, _, _, rfl⟩ := deployToJson_ok h; rfl
  | spawn s => obtain ⟨_, _, _, _, _, _, _, _, rfl⟩ := spawnToJson_ok h; rfl
  | call c => obtain ⟨_, _, _, _, _, _, rfl⟩ := callToJson_ok h; rfl

theorem perm_of_run {ord ord' : Order Addr} {l m : List Addr} (h : ord.run l = ord'.run m) : l.Perm m :=
  (ord.perm l).symm.trans (h ▸ ord'.perm m)

/-- **C89, partial.** Receipts of successful transactions shown alike are the same if the gas they report
is less than 2^63. -/
theorem C89_faithful_partial {chk : Bool} {ord ord' : Order Addr} {r r' : Receipt} {j : Json}
    (hs : r.Successful) (hs' : r'.Successful) (h : showReceipt chk ord r = .ok j)
    (h' : showReceipt chk ord' r' = .ok j) (hg : SmallGas r) (hg' : SmallGas r') : Agree r r' := by
  have ht := type_of_shown (successful_success hs) h
  rw [type_of_shown (successful_success hs') h'] at ht
  injection ht with ht
  injection ht with ht
  unfold showReceipt at h h'
  rw [if_pos (successful_success hs)] at h
  rw [if_pos (successful_success hs')] at h'
  cases r with
  | deploy a =>
    cases r' with
    | deploy b =>
      obtain ⟨x, l, e1, e2, rfl⟩ := deployToJson_ok h
      obtain ⟨y, m, f1, f2, hj⟩ := deployToJson_ok h'
      injection hj with hj
      simp only [List.cons.injEq, Prod.mk.injEq, true_and, and_true] at hj
      obtain ⟨-, j1, j2, j3⟩ := hj
      injection j3 with j3
      subst j3
      obtain ⟨s1, s2, -⟩ := hs
      obtain ⟨t1, t2, -⟩ := hs'
      have g := gasToJson_inj hg hg' j2
      have lg := logsToJson_inj e2 f2
      have ad := addrJson_inj j1
      cases a; cases b
      simp only [Receipt.gasUsed] at g s1 s2 t1 t2 e1 f1 lg
      subst g s1 s2 t1 t2 e1 f1 lg ad
      rfl
    | spawn b => exact absurd ht (by simp [receiptType])
    | call b => exact absurd ht (by simp [receiptType])
  | spawn a =>
    cases r' with
    | deploy b => exact absurd ht (by simp [receiptType])
    | spawn b =>
      obtain ⟨x, s, d, l, e1, e2, e3, e4, rfl⟩ := spawnToJson_ok h
      obtain ⟨y, s', d', m, f1, f2, f3, f4, hj⟩ := spawnToJson_ok h'
      injection hj with hj
      simp only [List.cons.injEq, Prod.mk.injEq, true_and, and_true] at hj
      obtain ⟨-, j1, j2, j3, j4, j5, j6⟩ := hj
      injection j2 with j2
      injection j3 with j3
      injection j5 with j5
      injection j6 with j6
      subst j6
      obtain ⟨s1, s2, -⟩ := hs
      obtain ⟨t1, t2, -⟩ := hs'
      have g := gasToJson_inj hg hg' j4
      have lg := logsToJson_inj e4 f4
      have ad := addrJson_inj j1
      have st : s = s' := Subtype.ext (hexStr_inj j2)
      have rd := hexStr_inj j3
      refine ⟨?_, perm_of_run (map_addrJson_inj j5)⟩
      cases a; cases b
      simp only [Receipt.gasUsed] at g s1 s2 t1 t2 e1 f1 e2 f2 e3 f3 lg
      subst g s1 s2 t1 t2 e1 f1 e2 f2 e3 f3 lg ad st rd
      rfl
    | call b => exact absurd ht (by simp [receiptType])
  | call a =>
    cases r' with
    | deploy b => exact absurd ht (by simp [receiptType])
    | spawn b => exact absurd ht (by simp [receiptType])
    | call b =>
      obtain ⟨s, d, l, e2, e3, e4, rfl⟩ := callToJson_ok h
      obtain ⟨s', d', m, f2, f3, f4, hj⟩ := callToJson_ok h'
      injection hj with hj
      simp only [List.cons.injEq, Prod.mk.injEq, true_and, and_true] at hj
      obtain ⟨-, j2, j3, j4, j5, j6⟩ := hj
      injection j2 with j2
      injection j3 with j3
      injection j5 with j5
      injection j6 with j6
      subst j6
      obtain ⟨s1, s2, -⟩ := hs
      obtain ⟨t1, t2, -⟩ := hs'
      have g := gasToJson_inj hg hg' j4
      have lg := logsToJson_inj e4 f4
      have st : s = s' := Subtype.ext (hexStr_inj j2)
      have rd := hexStr_inj j3
      refine ⟨?_, perm_of_run (map_addrJson_inj j5)⟩
      cases a; cases b
      simp only [Receipt.gasUsed] at g s1 s2 t1 t2 e2 f2 e3 f3 lg
      subst g s1 s2 t1 t2 e2 f2 e3 f3 lg st rd
      rfl

/-- **C89 fails**: gas of 2^63 or more is shown as a negative number, and the greatest as the number for
no gas. -/
theorem C89_gas (x : BitVec 64) : gasToJson (some x) =
    .int (if x.toNat < 2 ^ 63 then (x.toNat : Int) else x.toNat - 2 ^ 64) := by
  unfold gasToJson
  change Json.int (BitVec.toInt x) = _
  rw [BitVec.toInt_eq_toNat_cond]
  by_cases h : x.toNat < 2 ^ 63
  · rw [if_pos (by omega), if_pos h]
  · rw [if_neg (by omega), if_neg h]
    rfl

/-- A deploy receipt that reports the given gas. -/
def exDeploy (g : Gas) : Receipt :=
  .deploy { version := 0, success := true, error := none, addr := some ⟨List.replicate 20 1, rfl⟩,
            gasUsed := g, logs := [] }

theorem exDeploy_successful (g : Gas) : (exDeploy g).Successful := ⟨rfl, rfl, _, rfl⟩

/-- The JSON it is shown as. -/
theorem show_exDeploy (g : Gas) : showReceipt true Order.id (exDeploy g) =
    .ok (.obj [("type", .str (receiptType (exDeploy none))), ("success", .bool true),
      ("addr", addrJson ⟨List.replicate 20 1, rfl⟩), ("gas_used", gasToJson g), ("logs", .arr [])]) := rfl

/-- **C89 fails.** -/
theorem C89_claim_false : ¬ C89_claim := by
  intro hc
  have h1 := show_exDeploy none
  have h2 := show_exDeploy (some (BitVec.allOnes 64))
  rw [show gasToJson (some (BitVec.allOnes 64)) = gasToJson none from
    (C89_gas _).trans (congrArg Json.int (by decide +kernel))] at h2
  have := hc true Order.id Order.id _ _ _ (exDeploy_successful _) (exDeploy_successful _) h1 h2
  unfold Agree exDeploy at this
  simp at this

/-! ## C90 -/

/-- The text of a string that consists of ASCII characters. -/
def ascii (name : String) : Bytes := name.toList.map fun c => UInt8.ofNat c.toNat

/-- The JSON shows the bytes in hexadecimal. -/
def ShowsBytes (j : Option Json) (bs : Bytes) : Prop := ∃ s, j = some (.str s) ∧ hexDecode s.1 = some bs

/-- The JSON is the given text. -/
def ShowsText (j : Option Json) (bs : Bytes) : Prop := ∃ s, j = some (.str s) ∧ s.1 = bs

/-- The JSON is the gas that was used, -1 if none is reported. -/
def ShowsGas (j : Option Json) (g : Gas) : Prop :=
  j = some (.int (match g with | none => -1 | some x => x.toNat))

/-- The JSON is a list of objects whose only field is a log. -/
def ShowsLogs (j : Option Json) (logs : List Bytes) : Prop :=
  ∃ l, j = some (.arr l) ∧
    List.Forall₂ (fun x log => ∃ s, x = .obj [("data", .str s)] ∧ s.1 = log) l logs

/-- The JSON is a list of the addresses in any order. -/
def ShowsAddrs (j : Option Json) (as : List Addr) : Prop :=
  ∃ l bs, j = some (.arr l) ∧ as.Perm bs ∧ List.Forall₂ (fun x a => ShowsBytes (some x) a.1) l bs

/-- The JSON of the receipt of a successful transaction. -/
def Shows (r : Receipt) (j : Json) : Prop :=
  j.field "success" = some (.bool true) ∧ ShowsGas (j.field "gas_used") r.gasUsed ∧
  ShowsLogs (j.field "logs") r.logs ∧
  match r with
  | .deploy r => ShowsText (j.field "type") (ascii "deploy-template") ∧
      ∃ a, r.addr = some a ∧ ShowsBytes (j.field "addr") a.1
  | .spawn r => ShowsText (j.field "type") (ascii "spawn-account") ∧
      (∃ a, r.accountAddr = some a ∧ ShowsBytes (j.field "account") a.1) ∧
      (∃ s, r.initState = some s ∧ ShowsBytes (j.field "state") s.1) ∧
      (∃ d, r.returndata = some d ∧ ShowsBytes (j.field "returndata") d) ∧
      ShowsAddrs (j.field "touched_accounts") r.touched
  | .call r => ShowsText (j.field "type") (ascii "call-account") ∧
      (∃ s, r.newState = some s ∧ ShowsBytes (j.field "new_state") s.1) ∧
      (∃ d, r.returndata = some d ∧ ShowsBytes (j.field "returndata") d) ∧
      ShowsAddrs (j.field "touched_accounts") r.touched

theorem showsGas_gasToJson {g : Gas} (h : ∀ x, g = some x → x.toNat < 2 ^ 63) :
    ShowsGas (some (gasToJson g)) g := by
  cases g with
  | none => rfl
  | some x =>
    have := C89_gas x
    rw [if_pos (h x rfl)] at this
    rw [this]
    rfl

theorem showsLogs_logsToJson : ∀ {logs : List Bytes} {l : List Json}, logsToJson logs = some l →
    ShowsLogs (some (.arr l)) logs
  | [], l, h => by
    cases h
    exact ⟨[], rfl, .nil⟩
  | log :: logs, l, h => by
    rw [logsToJson] at h
    obtain ⟨m, hm, h1⟩ := opt_bind h
    clear h
    split at h1
    · rename_i hv
      cases h1
      obtain ⟨k, hk, hf⟩ := showsLogs_logsToJson hm
      cases hk
      exact ⟨_, rfl, .cons ⟨⟨log, hv⟩, rfl, rfl⟩ hf⟩
    · cases h1

theorem showsBytes_hexStr (bs : Bytes) : ShowsBytes (some (.str (hexStr bs))) bs :=
  ⟨_, rfl, hexDecode_hexEncode bs⟩

theorem showsAddrs_run (ord : Order Addr) (l : List Addr) :
    ShowsAddrs (some (.arr ((ord.run l).map addrJson))) l := by
  refine ⟨_, ord.run l, rfl, (ord.perm l).symm, ?_⟩
  rw [List.forall₂_map_left_iff]
  exact List.forall₂_same.2 fun a _ => showsBytes_hexStr a.1

/-- What is shown of a receipt shows it. -/
theorem shows_of_shown {chk : Bool} {ord : Order Addr} {r : Receipt} {j : Json} (hs : r.Successful)
    (h : showReceipt chk ord r = .ok j) (hg : SmallGas r) : Shows r j := by
  unfold showReceipt at h
  rw [if_pos (successful_success hs)] at h
  cases r with
  | deploy r =>
    obtain ⟨a, l, h1, h2, rfl⟩ := deployToJson_ok h
    exact ⟨rfl, showsGas_gasToJson hg, showsLogs_logsToJson h2, ⟨_, rfl, rfl⟩, a, h1,
      showsBytes_hexStr _⟩
  | spawn r =>
    obtain ⟨a, s, d, l, h1, h2, h3, h4, rfl⟩ := spawnToJson_ok h
    exact ⟨rfl, showsGas_gasToJson hg, showsLogs_logsToJson h4, ⟨_, rfl, rfl⟩,
      ⟨a, h1, showsBytes_hexStr _⟩, ⟨s, h2, showsBytes_hexStr _⟩, ⟨d, h3, showsBytes_hexStr _⟩,
      showsAddrs_run _ _⟩
  | call r =>
    obtain ⟨s, d, l, h2, h3, h4, rfl⟩ := callToJson_ok h
    exact ⟨rfl, showsGas_gasToJson hg, showsLogs_logsToJson h4, ⟨_, rfl, rfl⟩,
      ⟨s, h2, showsBytes_hexStr _⟩, ⟨d, h3, showsBytes_hexStr _⟩, showsAddrs_run _ _⟩

theorem ShowsAddrs.perm {j : Option Json} {as bs : List Addr} (h : ShowsAddrs j as) (hp : as.Perm bs) :
    ShowsAddrs j bs := by
  obtain ⟨l, cs, h1, h2, h3⟩ := h
  exact ⟨l, cs, h1, hp.symm.trans h2, h3⟩

/-- C90: the decoder shows the receipt it is given the encoding of. -/
def C90_claim : Prop := ∀ (chk : Bool) (ord ord' : Order Addr) (r : Receipt) (bs : Bytes),
  r.Successful → r.version = 0 → encReceipt ord r = some bs →
    ∃ j, Shows r j ∧ decodeReceipt chk ord' (.obj [("data", .str (hexStr bs))]) = .ok j

theorem decodeReceipt_hex (chk : Bool) (ord : Order Addr) (bs : Bytes) :
    decodeReceipt chk ord (.obj [("data", .str (hexStr bs))]) =
      if bs = [] then .panic
      else (.unwrapRes (decReceipt chk bs) : Outcome JsonError _) >>= fun p => showReceipt chk ord p.1 := by
  unfold decodeReceipt
  rw [getField_ok.2 ⟨_, rfl, parseHex_hexStr bs⟩]
  rfl

theorem showReceipt_isOk {chk : Bool} {ord : Order Addr} {r : Receipt} (hs : r.Successful) :
    ((∃ j, showReceipt chk ord r = .ok j) ↔ ∀ log ∈ r.logs, utf8Valid log = true) ∧
      ((¬ ∃ j, showReceipt chk ord r = .ok j) → showReceipt chk ord r = .panic) := by
  have hl := logsToJson_isSome (logs := r.logs)
  unfold showReceipt
  rw [if_pos (successful_success hs)]
  cases r with
  | deploy a =>
    obtain ⟨s1, s2, x, s3⟩ := hs
    change ((∃ j, deployToJson chk _ a = .ok j) ↔ _) ∧ ((¬ ∃ j, deployToJson chk _ a = .ok j) →
      deployToJson chk _ a = .panic)
    unfold deployToJson
    rw [if_neg (by rw [s1, s2]; simp), s3]
    change (_ ↔ ∀ log ∈ a.logs, utf8Valid log = true) ∧ _
    change (∃ l, logsToJson a.logs = some l) ↔ (∀ log ∈ a.logs, utf8Valid log = true) at hl
    rw [← hl]
    cases logsToJson a.logs with
    | none => exact ⟨⟨fun ⟨j, h⟩ => (by cases h), fun ⟨l, h⟩ => (by cases h)⟩, fun _ => rfl⟩
    | some l => exact ⟨⟨fun _ => ⟨l, rfl⟩, fun _ => ⟨_, rfl⟩⟩, fun h => absurd ⟨_, rfl⟩ h⟩
  | spawn a =>
    obtain ⟨s1, s2, -, ⟨x, s3⟩, ⟨y, s4⟩, z, s5⟩ := hs
    change ((∃ j, spawnToJson chk ord _ a = .ok j) ↔ _) ∧ ((¬ ∃ j, spawnToJson chk ord _ a = .ok j) →
      spawnToJson chk ord _ a = .panic)
    unfold spawnToJson
    rw [if_neg (by rw [s1, s2]; simp), s3, s4, s5]
    change (_ ↔ ∀ log ∈ a.logs, utf8Valid log = true) ∧ _
    change (∃ l, logsToJson a.logs = some l) ↔ (∀ log ∈ a.logs, utf8Valid log = true) at hl
    rw [← hl]
    cases logsToJson a.logs with
    | none => exact ⟨⟨fun ⟨j, h⟩ => (by cases h), fun ⟨l, h⟩ => (by cases h)⟩, fun _ => rfl⟩
    | some l => exact ⟨⟨fun _ => ⟨l, rfl⟩, fun _ => ⟨_, rfl⟩⟩, fun h => absurd ⟨_, rfl⟩ h⟩
  | call a =>
    obtain ⟨s1, s2, -, ⟨y, s4⟩, z, s5⟩ := hs
    change ((∃ j, callToJson chk ord _ a = .ok j) ↔ _) ∧ ((¬ ∃ j, callToJson chk ord _ a = .ok j) →
      callToJson chk ord _ a = .panic)
    unfold callToJson
    rw [if_neg (by rw [s1, s2]; simp), s4, s5]
    change (_ ↔ ∀ log ∈ a.logs, utf8Valid log = true) ∧ _
    change (∃ l, logsToJson a.logs = some l) ↔ (∀ log ∈ a.logs, utf8Valid log = true) at hl
    rw [← hl]
    cases logsToJson a.logs with
    | none => exact ⟨⟨fun ⟨j, h⟩ => (by cases h), fun ⟨l, h⟩ => (by cases h)⟩, fun _ => rfl⟩
    | some l => exact ⟨⟨fun _ => ⟨l, rfl⟩, fun _ => ⟨_, rfl⟩⟩, fun h => absurd ⟨_, rfl⟩ h⟩

theorem same_shows {a b : Receipt} {j : Json} (h : a.Same b) (hs : Shows a j) : Shows b j := by
  cases a with
  | deploy a =>
    cases b with
    | deploy b => cases h; exact hs
    | _ => exact h.elim
  | spawn a =>
    cases b with
    | spawn b =>
      obtain ⟨h1, h2⟩ := h
      obtain ⟨k1, k2, k3, k4, k5, k6, k7, k8⟩ := hs
      have k9 := k8.perm h2
      cases a; cases b
      cases h1
      exact ⟨k1, k2, k3, k4, k5, k6, k7, k9⟩
    | _ => exact h.elim
  | call a =>
    cases b with
    | call b =>
      obtain ⟨h1, h2⟩ := h
      obtain ⟨k1, k2, k3, k4, k6, k7, k8⟩ := hs
      have k9 := k8.perm h2
      cases a; cases b
      cases h1
      exact ⟨k1, k2, k3, k4, k6, k7, k9⟩
    | _ => exact h.elim

theorem same_fields {a b : Receipt} (h : a.Same b) : b.logs = a.logs ∧ b.gasUsed = a.gasUsed := by
  cases a with
  | deploy a =>
    cases b with
    | deploy b => cases h; exact ⟨rfl, rfl⟩
    | _ => exact h.elim
  | spawn a =>
    cases b with
    | spawn b =>
      obtain ⟨h1, -⟩ := h
      cases a; cases b; cases h1; exact ⟨rfl, rfl⟩
    | _ => exact h.elim
  | call a =>
    cases b with
    | call b =>
      obtain ⟨h1, -⟩ := h
      cases a; cases b; cases h1; exact ⟨rfl, rfl⟩
    | _ => exact h.elim

theorem same_successful {a b : Receipt} (h : a.Same b) (hs : b.Successful) : a.Successful := by
  cases a with
  | deploy a =>
    cases b with
    | deploy b => cases h; exact hs
    | _ => exact h.elim
  | spawn a =>
    cases b with
    | spawn b =>
      obtain ⟨h1, h2⟩ := h
      obtain ⟨s1, s2, s3, s4, s5, s6⟩ := hs
      have h3 := h2.nodup_iff.2 s3
      cases a; cases b
      simp_all [Receipt.Successful]
    | _ => exact h.elim
  | call a =>
    cases b with
    | call b =>
      obtain ⟨h1, h2⟩ := h
      obtain ⟨s1, s2, s3, s5, s6⟩ := hs
      have h3 := h2.nodup_iff.2 s3
      cases a; cases b
      simp_all [Receipt.Successful]
    | _ => exact h.elim

theorem encReceipt_ne_nil {ord : Order Addr} {r : Receipt} {bs : Bytes} (h : encReceipt ord r = some bs) :
    bs ≠ [] := by
  intro he
  subst he
  have := Codec.decReceipt_dispatch false ord r [] [0] h
  cases r with
  | deploy r =>
    obtain ⟨b1, r1, h1, g1, he⟩ := Codec.Enc.seq_eq_some.1 (show Codec.encDeployReceipt r = some [] from h)
    cases h1; cases he
  | spawn r =>
    obtain ⟨b1, r1, h1, g1, he⟩ := Codec.Enc.seq_eq_some.1 (show Codec.encSpawnReceipt ord r = some [] from h)
    cases h1; cases he
  | call r =>
    obtain ⟨b1, r1, h1, g1, he⟩ := Codec.Enc.seq_eq_some.1 (show Codec.encCallReceipt ord r = some [] from h)
    cases h1; cases he

/-- **C90, partial.** The encoding of a receipt of a successful transaction that reports no gas, or gas
other than zero and less than 2^63, is shown as the receipt if the logs are UTF-8. It makes the decoder
panic if they are not. -/
theorem C90_shown_partial (chk : Bool) (ord ord' : Order Addr) {r : Receipt} {bs : Bytes}
    (hs : r.Successful) (hv : r.version = 0) (hg : r.gasUsed ≠ some 0) (hg' : SmallGas r)
    (h : encReceipt ord r = some bs) :
    ((∀ log ∈ r.logs, utf8Valid log = true) →
        ∃ j, Shows r j ∧ decodeReceipt chk ord' (.obj [("data", .str (hexStr bs))]) = .ok j) ∧
      ((¬ ∀ log ∈ r.logs, utf8Valid log = true) →
        decodeReceipt chk ord' (.obj [("data", .str (hexStr bs))]) = .panic) := by
  obtain ⟨r', h1, h2⟩ := Codec.C45_lossless_partial chk ord r bs [] hs hg (fun _ => hv) h
  rw [List.append_nil] at h1
  obtain ⟨hl, hgas⟩ := same_fields h2
  obtain ⟨k1, k2⟩ := showReceipt_isOk (chk := chk) (ord := ord') (same_successful h2 hs)
  rw [decodeReceipt_hex, if_neg (encReceipt_ne_nil h), h1, hl]
  change (_ → ∃ j, _ ∧ showReceipt chk ord' _ = _) ∧ (_ → showReceipt chk ord' r' = .panic)
  refine ⟨fun hu => ?_, fun hu => k2 fun hj => hu (k1.1 hj)⟩
  obtain ⟨j, hj⟩ := k1.2 hu
  refine ⟨j, same_shows h2 (shows_of_shown (same_successful h2 hs) hj fun x hx => ?_), hj⟩
  exact hg' x (hgas.trans hx)

/-- **C90 fails** for zero gas: it is shown as -1, the number for no gas. -/
theorem C90_zero_gas (chk : Bool) (ord ord' : Order Addr) {r : DeployReceipt} {bs : Bytes} {j : Json}
    (hs : (Receipt.deploy r).Successful) (hv : r.version = 0) (hg : r.gasUsed = some 0)
    (h : encReceipt ord (.deploy r) = some bs)
    (hj : decodeReceipt chk ord' (.obj [("data", .str (hexStr bs))]) = .ok j) :
    j.field "gas_used" = some (.int (-1)) := by
  have h1 := Codec.C45_deploy chk r bs [] hs (fun _ => hv) h
  have h2 := Codec.decReceipt_dispatch chk ord (.deploy r) bs [] h
  have h3 := h2.trans (Codec.Dec.bind_ok h1)
  rw [List.append_nil, if_pos hg] at h3
  rw [decodeReceipt_hex, if_neg (encReceipt_ne_nil h), h3] at hj
  change showReceipt chk ord' (.deploy { r with gasUsed := none }) = .ok j at hj
  unfold showReceipt at hj
  rw [if_pos (show (Receipt.deploy { r with gasUsed := none }).success = true from hs.1)] at hj
  obtain ⟨_, _, _, _, rfl⟩ := deployToJson_ok hj
  rfl

/-- A deploy receipt with the log `FF`, which is not UTF-8. -/
def exBadLog : Receipt :=
  .deploy { version := 0, success := true, error := none, addr := some ⟨List.replicate 20 1, rfl⟩,
            gasUsed := some 5, logs := [[0xff]] }

/-- **C90 fails.** -/
theorem C90_claim_false : ¬ C90_claim := by
  intro hc
  obtain ⟨bs, hb⟩ : ∃ bs, encReceipt Order.id exBadLog = some bs := ⟨_, rfl⟩
  have hs : exBadLog.Successful := ⟨rfl, rfl, _, rfl⟩
  obtain ⟨j, -, hj⟩ := hc true Order.id Order.id exBadLog bs hs rfl hb
  rw [(C90_shown_partial true Order.id Order.id hs rfl (by decide) (fun x hx => by cases hx; decide) hb).2
    (by decide)] at hj
  cases hj

/-- `C90_shown_partial` applies to a receipt with readable logs. -/
example : ∃ bs j, encReceipt Order.id (exDeploy (some 5)) = some bs ∧
    decodeReceipt true Order.id (.obj [("data", .str (hexStr bs))]) = .ok j := by
  obtain ⟨bs, hb⟩ : ∃ bs, encReceipt Order.id (exDeploy (some 5)) = some bs := ⟨_, rfl⟩
  obtain ⟨j, -, hj⟩ := (C90_shown_partial true Order.id Order.id (exDeploy_successful _) rfl
    (by decide) (fun x hx => by cases hx; decide) hb).1 (by decide)
  exact ⟨bs, j, hb, hj⟩

/-! ## Failures -/

/-- The name of an error in JSON. -/
def errorName : RuntimeError → Bytes
  | .oog => ascii "oog"
  | .templateNotFound .. => ascii "template-not-found"
  | .accountNotFound .. => ascii "account-not-found"
  | .compilationFailed .. => ascii "compilation-failed"
  | .instantiationFailed .. => ascii "instantiation-failed"
  | .funcNotFound .. => ascii "function-not-found"
  | .funcFailed .. => ascii "function-failed"
  | .funcNotCtor .. => ascii "function-not-ctor"
  | .funcNotAllowed .. => ascii "function-not-allowed"
  | .funcInvalidSignature .. => ascii "function-invalid-signature"

/-- The name of a kind of receipt. -/
def kindName : Receipt → Bytes
  | .deploy _ => ascii "deploy-template"
  | .spawn _ => ascii "spawn-account"
  | .call _ => ascii "call-account"

/-- The JSON shows the error: of its parts, all that it has. -/
def ShowsError (e : RuntimeError) (j : Json) : Prop :=
  ShowsText (j.field "err_type") (errorName e) ∧
  match e with
  | .oog => True
  | .templateNotFound t => ShowsBytes (j.field "template_addr") t.1
  | .accountNotFound a => ShowsBytes (j.field "account_addr") a.1
  | .compilationFailed a t msg | .instantiationFailed a t msg =>
      ShowsBytes (j.field "template_addr") t.1 ∧ ShowsBytes (j.field "account_addr") a.1 ∧
      ShowsText (j.field "message") msg.1
  | .funcNotFound a t func | .funcInvalidSignature a t func =>
      ShowsBytes (j.field "template_addr") t.1 ∧ ShowsBytes (j.field "account_addr") a.1 ∧
      ShowsText (j.field "func") func.1
  | .funcFailed a t func msg | .funcNotAllowed a t func msg =>
      ShowsBytes (j.field "template_addr") t.1 ∧ ShowsBytes (j.field "account_addr") a.1 ∧
      ShowsText (j.field "func") func.1 ∧ ShowsText (j.field "message") msg.1
  | .funcNotCtor t func => ShowsBytes (j.field "template_addr") t.1 ∧ ShowsText (j.field "func") func.1

/-- **C90**, for failures: what is shown of a receipt of a failed transaction is its kind, its error and
its logs. It is shown if the logs are UTF-8; otherwise the decoder panics. -/
theorem C90_failure (chk : Bool) (ord : Order Addr) {r : Receipt} {e : RuntimeError}
    (hs : r.success = false) (he : r.error = some e) :
    ((∀ log ∈ r.logs, utf8Valid log = true) → ∃ j, showReceipt chk ord r = .ok j ∧
        ShowsText (j.field "type") (kindName r) ∧ j.field "success" = some (.bool false) ∧
        ShowsLogs (j.field "logs") r.logs ∧ ShowsError e j) ∧
      ((¬ ∀ log ∈ r.logs, utf8Valid log = true) → showReceipt chk ord r = .panic) := by
  unfold showReceipt
  rw [if_neg (by simp [hs]), he, ← logsToJson_isSome]
  change (_ → ∃ j, errorToJson _ e r.logs = _ ∧ _) ∧ (_ → errorToJson _ e r.logs = _)
  unfold errorToJson
  constructor
  · rintro ⟨l, hl⟩
    rw [hl]
    have hlog := showsLogs_logsToJson hl
    have hk : (receiptType r).1 = kindName r := by cases r <;> rfl
    refine ⟨_, rfl, ?_⟩
    cases e <;>
      exact ⟨⟨_, rfl, hk⟩, rfl, hlog, ⟨_, rfl, rfl⟩,
        by first
          | trivial
          | exact showsBytes_hexStr _
          | exact ⟨showsBytes_hexStr _, showsBytes_hexStr _, ⟨_, rfl, rfl⟩⟩
          | exact ⟨showsBytes_hexStr _, showsBytes_hexStr _, ⟨_, rfl, rfl⟩, ⟨_, rfl, rfl⟩⟩
          | exact ⟨showsBytes_hexStr _, ⟨_, rfl, rfl⟩⟩⟩
  · intro hl
    cases hl' : logsToJson r.logs with
    | none => rfl
    | some l => exact absurd ⟨l, hl'⟩ hl

theorem errType_inj {e e' : RuntimeError} (h : errType e = errType e')
    (hf : errFields e = errFields e') : e = e' := by
  cases e <;> cases e' <;> first
    | exact absurd h (by simp only [errType]; decide)
    | (simp only [errFields, List.cons.injEq, Prod.mk.injEq, true_and, and_true, Json.str.injEq] at hf
       first
        | rfl
        | (obtain ⟨h1, h2, h3, h4⟩ := hf; rw [addrJson_inj h1, addrJson_inj h2, h3, h4])
        | (obtain ⟨h1, h2, h3⟩ := hf; rw [addrJson_inj h1, addrJson_inj h2, h3])
        | (obtain ⟨h1, h2⟩ := hf; rw [addrJson_inj h1, h2])
        | rw [addrJson_inj hf])

/-- **C89**, for failures: receipts of failed transactions shown alike have the same kind, error and
logs. -/
theorem C89_failure {chk : Bool} {ord ord' : Order Addr} {r r' : Receipt} {j : Json}
    (hs : r.success = false) (hs' : r'.success = false) (h : showReceipt chk ord r = .ok j)
    (h' : showReceipt chk ord' r' = .ok j) :
    receiptType r = receiptType r' ∧ r.error = r'.error ∧ r.logs = r'.logs := by
  unfold showReceipt at h h'
  rw [if_neg (by simp [hs])] at h
  rw [if_neg (by simp [hs'])] at h'
  obtain ⟨e, he, h1⟩ := bind_ok h
  obtain ⟨e', he', h1'⟩ := bind_ok h'
  unfold errorToJson at h1 h1'
  obtain ⟨l, hl, h2⟩ := bind_ok h1
  obtain ⟨l', hl', h2'⟩ := bind_ok h1'
  cases h2
  injection h2' with h2'
  injection h2' with h2'
  rw [List.cons_append, List.cons_append] at h2'
  injection h2' with h3 h4
  injection h3 with _ h3
  injection h3 with h3
  have h5 := List.append_inj' h4 rfl
  obtain ⟨h5, h6⟩ := h5
  simp only [List.cons.injEq, Prod.mk.injEq, true_and, and_true, Json.str.injEq, Json.arr.injEq] at h6
  obtain ⟨h6, h7⟩ := h6
  subst h7
  have := errType_inj h3.symm h5.symm
  subst this
  exact ⟨h6.symm, by rw [unwrapOpt_ok he, unwrapOpt_ok he'],
    logsToJson_inj (unwrapOpt_ok hl) (unwrapOpt_ok hl')⟩

end Svm.JsonApi
