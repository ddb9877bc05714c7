import Verif.Codec.Messages

/-!
# Model of the receipt codecs

`crates/host/codec/src/receipt/*`, with the receipt types of `crates/host/types/src/receipt/*` and
`crates/host/types/src/error.rs`.

The parameter `chk` says whether debug assertions are compiled in. `ord` is the iteration order of
the `HashSet` of touched accounts.
-/

namespace Svm.Codec

/-- `RuntimeError`, types/src/error.rs:7-47. -/
inductive RuntimeError where
  | oog
  | templateNotFound (template : Addr)
  | accountNotFound (target : Addr)
  | compilationFailed (target template : Addr) (msg : Str)
  | instantiationFailed (target template : Addr) (msg : Str)
  | funcNotFound (target template : Addr) (func : Str)
  | funcFailed (target template : Addr) (func msg : Str)
  | funcNotCtor (template : Addr) (func : Str)
  | funcNotAllowed (target template : Addr) (func msg : Str)
  | funcInvalidSignature (target template : Addr) (func : Str)
  deriving DecidableEq

/-- `CallReceipt`, types/src/receipt/call.rs:9-33. The set of touched accounts is a list without
repetitions (`touched.Nodup`), two sets being equal when the lists are permutations. -/
structure CallReceipt where
  version : U16
  success : Bool
  error : Option RuntimeError
  newState : Option Hash
  returndata : Option Bytes
  gasUsed : Gas
  touched : List Addr
  logs : List Bytes
  deriving DecidableEq

/-- `SpawnReceipt`, types/src/receipt/spawn.rs:8-35. -/
structure SpawnReceipt where
  version : U16
  success : Bool
  error : Option RuntimeError
  accountAddr : Option Addr
  initState : Option Hash
  returndata : Option Bytes
  gasUsed : Gas
  touched : List Addr
  logs : List Bytes
  deriving DecidableEq

/-- `DeployReceipt`, types/src/receipt/deploy.rs:10-28. -/
structure DeployReceipt where
  version : U16
  success : Bool
  error : Option RuntimeError
  addr : Option Addr
  gasUsed : Gas
  logs : List Bytes
  deriving DecidableEq

/-- `CallReceipt::from_err`, types/src/receipt/call.rs:48-59. -/
def CallReceipt.fromErr (e : RuntimeError) (logs : List Bytes) : CallReceipt :=
  { version := 0, success := false, error := some e, newState := none, returndata := none
    gasUsed := none, touched := [], logs }

/-- `SpawnReceipt::from_err`, types/src/receipt/spawn.rs:44-56. -/
def SpawnReceipt.fromErr (e : RuntimeError) (logs : List Bytes) : SpawnReceipt :=
  { version := 0, success := false, error := some e, accountAddr := none, initState := none
    returndata := none, gasUsed := none, touched := [], logs }

/-- `DeployReceipt::from_err`, types/src/receipt/deploy.rs:50-59. -/
def DeployReceipt.fromErr (e : RuntimeError) (logs : List Bytes) : DeployReceipt :=
  { version := 0, success := false, error := some e, addr := none, gasUsed := none, logs }

/-! ## Codecs -/

/-- `Vec<ReceiptLog>::encode`, receipt/logs.rs:21-38. -/
def encLogs (logs : List Bytes) : Enc :=
  if logs.length ≤ 255 then
    encByte (UInt8.ofNat logs.length) +++ encMany (encData 2) logs
  else none

/-- `Vec<ReceiptLog>::decode`, receipt/logs.rs:40-61. -/
def decLogs : Dec (List Bytes) := do
  let n ← readByte
  decMany (decData 2) n.toNat

/-- `HashSet::insert`. -/
def setInsert (s : List Addr) (a : Addr) : List Addr := if a ∈ s then s else s ++ [a]

/-- `HashSet<Address>::encode`, receipt/touched_accounts.rs:10-16. -/
def encTouched (ord : Order Addr) (s : List Addr) : Enc :=
  if s.length < 65536 then encNum 2 (BitVec.ofNat _ s.length) +++ encMany encArr (ord.run s)
  else none

/-- `HashSet<Address>::decode`, receipt/touched_accounts.rs:18-27. -/
def decTouched : Dec (List Addr) := do
  let n ← decNum 2
  let l ← decMany (decArr 20) n.toNat
  return l.foldl setInsert []

/-- `encode_err_type`, receipt/error.rs:198-213. -/
def RuntimeError.code : RuntimeError → UInt8
  | .oog => 0
  | .templateNotFound .. => 1
  | .accountNotFound .. => 2
  | .compilationFailed .. => 3
  | .instantiationFailed .. => 4
  | .funcNotFound .. => 5
  | .funcFailed .. => 6
  | .funcNotCtor .. => 7
  | .funcNotAllowed .. => 8
  | .funcInvalidSignature .. => 9

/-- `encode_msg`, receipt/error.rs:188-196: messages of more than 255 bytes are cut to 255 bytes;
a panic if the cut is inside a character. -/
def encMsg (msg : Str) : Enc :=
  if 255 < msg.1.length then
    if h : utf8Valid (msg.1.take 255) = true then encStr ⟨msg.1.take 255, h⟩ else none
  else encStr msg

/-- The body of `RuntimeFailure::encode`, receipt/error.rs:99-161. -/
def encErrBlob : RuntimeError → Enc
  | .oog => some []
  | .templateNotFound template => encArr template
  | .accountNotFound target => encArr target
  | .compilationFailed target template msg => encArr template +++ encArr target +++ encStr msg
  | .instantiationFailed target template msg => encArr template +++ encArr target +++ encStr msg
  | .funcNotFound target template func => encArr template +++ encArr target +++ encStr func
  | .funcFailed target template func msg =>
    encArr template +++ encArr target +++ encStr func +++ encMsg msg
  | .funcNotCtor template func => encArr template +++ encStr func
  | .funcNotAllowed target template func msg =>
    encArr template +++ encArr target +++ encStr func +++ encMsg msg
  | .funcInvalidSignature target template func =>
    encArr template +++ encArr target +++ encStr func

/-- `RuntimeFailure::encode`, receipt/error.rs:94-162. -/
def encFailure (e : RuntimeError) (logs : List Bytes) : Enc :=
  encByte e.code +++ encLogs logs +++ encErrBlob e

/-- The functions of receipt/error.rs:215-313, selected by the type byte (169-181). -/
def decErrBlob (ty : UInt8) : Dec RuntimeError :=
  if ty = 0 then return .oog
  else if ty = 1 then do return .templateNotFound (← (decArr 20).unwrap)
  else if ty = 2 then do return .accountNotFound (← (decArr 20).unwrap)
  else if ty = 3 then do
    let template ← (decArr 20).unwrap
    let target ← (decArr 20).unwrap
    let msg ← decStr.unwrap
    return .compilationFailed target template msg
  else if ty = 4 then do
    let template ← (decArr 20).unwrap
    let target ← (decArr 20).unwrap
    let msg ← decStr.unwrap
    return .instantiationFailed target template msg
  else if ty = 5 then do
    let template ← (decArr 20).unwrap
    let target ← (decArr 20).unwrap
    let func ← decStr.unwrap
    return .funcNotFound target template func
  else if ty = 6 then do
    let template ← (decArr 20).unwrap
    let target ← (decArr 20).unwrap
    let func ← decStr.unwrap
    let msg ← decStr.unwrap
    return .funcFailed target template func msg
  else if ty = 7 then do
    let template ← (decArr 20).unwrap
    let func ← decStr.unwrap
    return .funcNotCtor template func
  else if ty = 8 then do
    let template ← (decArr 20).unwrap
    let target ← (decArr 20).unwrap
    let func ← decStr.unwrap
    let msg ← decStr.unwrap
    return .funcNotAllowed target template func msg
  else if ty = 9 then do
    let template ← (decArr 20).unwrap
    let target ← (decArr 20).unwrap
    let func ← decStr.unwrap
    return .funcInvalidSignature target template func
  else Dec.panic

/-- `RuntimeFailure::decode`, receipt/error.rs:164-185. -/
def decFailure : Dec (RuntimeError × List Bytes) := do
  let ty ← readByte.unwrap
  let logs ← decLogs.unwrap
  let e ← decErrBlob ty
  return (e, logs)

/-- A debug assertion. -/
def debugAssert (chk cond : Bool) : Dec Unit := if chk && !cond then Dec.panic else return ()

/-- `.unwrap()` on an optional field while encoding. -/
def encOpt {α : Type} (e : α → Enc) : Option α → Enc
  | some a => e a
  | none => none

/-- `TY_DEPLOY`, `TY_SPAWN`, `TY_CALL`, receipt/mod.rs:51-53. -/
def tyDeploy : UInt8 := 0
@[inherit_doc tyDeploy] def tySpawn : UInt8 := 1
@[inherit_doc tyDeploy] def tyCall : UInt8 := 2

/-- `CallReceipt::encode`, receipt/call.rs:44-59. -/
def encCallReceipt (ord : Order Addr) (r : CallReceipt) : Enc :=
  encByte tyCall +++ encNum 2 r.version +++ encBool r.success +++
    (if r.success then
      encOpt encArr r.newState +++ encOpt (encData 2) r.returndata +++ encGas r.gasUsed +++
        encTouched ord r.touched +++ encLogs r.logs
    else encOpt (encFailure · r.logs) r.error)

/-- `CallReceipt::decode`, receipt/call.rs:61-91. -/
def decCallReceipt (chk : Bool) : Dec CallReceipt := do
  let ty ← readByte
  debugAssert chk (ty == tyCall)
  let version ← decNum 2
  debugAssert chk (version == 0)
  let success ← decBool
  if success then do
    let newState ← decArr 32
    let returndata ← decData 2
    let gasUsed ← decGas
    let touched ← decTouched
    let logs ← decLogs
    return { version, success := true, error := none, newState := some newState
             returndata := some returndata, gasUsed, touched, logs }
  else do
    let x ← decFailure
    return CallReceipt.fromErr x.1 x.2

/-- `SpawnReceipt::encode`, receipt/spawn.rs:45-60. -/
def encSpawnReceipt (ord : Order Addr) (r : SpawnReceipt) : Enc :=
  encByte tySpawn +++ encNum 2 r.version +++ encBool r.success +++
    (if r.success then
      encOpt encArr r.accountAddr +++ encOpt encArr r.initState +++
        encOpt (encData 2) r.returndata +++ encGas r.gasUsed +++
        encTouched ord r.touched +++ encLogs r.logs
    else encOpt (encFailure · r.logs) r.error)

/-- `SpawnReceipt::decode`, receipt/spawn.rs:62-94. -/
def decSpawnReceipt (chk : Bool) : Dec SpawnReceipt := do
  let ty ← readByte
  debugAssert chk (ty == tySpawn)
  let version ← decNum 2
  debugAssert chk (version == 0)
  let success ← decBool
  if success then do
    let addr ← decArr 20
    let initState ← decArr 32
    let returndata ← decData 2
    let gasUsed ← decGas
    let touched ← decTouched
    let logs ← decLogs
    return { version, success := true, error := none, accountAddr := some addr
             initState := some initState, returndata := some returndata, gasUsed, touched, logs }
  else do
    let x ← decFailure.unwrap
    return SpawnReceipt.fromErr x.1 x.2

/-- `DeployReceipt::encode`, receipt/deploy.rs:27-39: the logs of a failure are not written. -/
def encDeployReceipt (r : DeployReceipt) : Enc :=
  encByte tyDeploy +++ encNum 2 r.version +++ encBool r.success +++
    (if r.success then
      encOpt encArr r.addr +++ encGas r.gasUsed +++ encLogs r.logs
    else encOpt (encFailure · []) r.error)

/-- `DeployReceipt::decode`, receipt/deploy.rs:41-67. -/
def decDeployReceipt (chk : Bool) : Dec DeployReceipt := do
  let ty ← readByte
  debugAssert chk (ty == tyDeploy)
  let version ← decNum 2
  debugAssert chk (version == 0)
  let success ← decBool
  if success then do
    let addr ← decArr 20
    let gasUsed ← decGas
    let logs ← decLogs
    return { version, success := true, error := none, addr := some addr, gasUsed, logs }
  else do
    let x ← decFailure
    return DeployReceipt.fromErr x.1 x.2

/-- `Receipt`, types/src/receipt/mod.rs:67-76. -/
inductive Receipt where
  | deploy (r : DeployReceipt)
  | spawn (r : SpawnReceipt)
  | call (r : CallReceipt)
  deriving DecidableEq

/-- `Receipt::encode`, receipt/mod.rs:18-30. -/
def encReceipt (ord : Order Addr) : Receipt → Enc
  | .deploy r => encDeployReceipt r
  | .spawn r => encSpawnReceipt ord r
  | .call r => encCallReceipt ord r

/-- `Receipt::decode`, receipt/mod.rs:32-48; `peek_byte` does not consume (ext.rs:47-49). -/
def decReceipt (chk : Bool) : Dec Receipt := fun inp =>
  match inp with
  | [] => .panic
  | b :: _ =>
    if b = tyDeploy then (do return .deploy (← decDeployReceipt chk) : Dec Receipt) inp
    else if b = tySpawn then (do return .spawn (← decSpawnReceipt chk) : Dec Receipt) inp
    else if b = tyCall then (do return .call (← decCallReceipt chk) : Dec Receipt) inp
    else .err (.badByte b)

/-! ## Lemmas -/

theorem Dec.unwrap_ok {α : Type} {d : Dec α} {inp : Bytes} {r : α × Bytes} (h : d inp = .ok r) :
    d.unwrap inp = .ok r := by
  unfold Dec.unwrap; rw [h]

theorem RoundTrip.unwrap {α : Type} {e : α → Enc} {d : Dec α} (h : RoundTrip e d) :
    RoundTrip e d.unwrap :=
  fun a bs rest he => Dec.unwrap_ok (h a bs rest he)

theorem roundTrip_logs : RoundTrip encLogs decLogs := by
  intro a bs rest h
  unfold encLogs at h
  split at h
  · rename_i hlt
    obtain ⟨b1, b2, h1, h2, rfl⟩ := Enc.seq_eq_some.1 h
    unfold decLogs
    rw [List.append_assoc, roundTrip_byte.step h1]
    have : (UInt8.ofNat a.length).toNat = a.length := by rw [UInt8.toNat_ofNat']; omega
    rw [this]
    exact roundTrip_many (roundTrip_data 2) a b2 rest h2
  · cases h

theorem foldl_setInsert (l acc : List Addr) (h : (acc ++ l).Nodup) :
    l.foldl setInsert acc = acc ++ l := by
  induction l generalizing acc with
  | nil => simp
  | cons a l ih =>
    have ha : a ∉ acc := by
      intro hmem
      rw [List.nodup_append] at h
      exact h.2.2 a hmem a (by simp) rfl
    simp only [List.foldl_cons, setInsert, if_neg ha]
    rw [ih (acc ++ [a]) (by simpa using h)]
    simp

theorem decTouched_enc (ord : Order Addr) (s : List Addr) (hs : s.Nodup) (bs rest : Bytes)
    (h : encTouched ord s = some bs) : decTouched (bs ++ rest) = .ok (ord.run s, rest) := by
  unfold encTouched at h
  split at h
  · rename_i hlt
    obtain ⟨b1, b2, h1, h2, rfl⟩ := Enc.seq_eq_some.1 h
    unfold decTouched
    have hn : (BitVec.ofNat (8 * 2) s.length).toNat = (ord.run s).length := by
      rw [BitVec.toNat_ofNat, (ord.perm s).length_eq]; exact Nat.mod_eq_of_lt (by omega)
    rw [List.append_assoc, (roundTrip_num 2).step h1, hn,
      Dec.bind_ok (roundTrip_many (roundTrip_arr 20) _ _ _ h2)]
    have hnd : (ord.run s).Nodup := (ord.perm s).nodup_iff.2 hs
    rw [foldl_setInsert _ [] (by simpa using hnd)]
    rfl
  · cases h

theorem debugAssert_true (chk : Bool) (inp : Bytes) : debugAssert chk true inp = .ok ((), inp) := by
  cases chk <;> rfl

theorem debugAssert_false (cond : Bool) (inp : Bytes) :
    debugAssert false cond inp = .ok ((), inp) := rfl

/-- The message that the decoder gets for `encMsg msg`. -/
def cutMsg (msg : Bytes) : Bytes := if 255 < msg.length then msg.take 255 else msg

theorem decStr_encMsg (msg : Str) (bs rest : Bytes) (h : encMsg msg = some bs) :
    ∃ hv, decStr (bs ++ rest) = .ok (⟨cutMsg msg.1, hv⟩, rest) := by
  unfold encMsg at h
  by_cases hl : 255 < msg.1.length
  · rw [if_pos hl] at h
    split at h
    · rename_i hv
      have e : cutMsg msg.1 = msg.1.take 255 := if_pos hl
      refine ⟨by rw [e]; exact hv, ?_⟩
      have := roundTrip_str _ _ rest h
      rw [this]
      simp only [e]
    · cases h
  · rw [if_neg hl] at h
    have e : cutMsg msg.1 = msg.1 := if_neg hl
    refine ⟨by rw [e]; exact msg.2, ?_⟩
    rw [roundTrip_str _ _ rest h]
    simp only [e]

/-- The error as it comes out of the decoder: long messages of `FuncFailed` and `FuncNotAllowed` are
cut. -/
inductive CutTo : RuntimeError → RuntimeError → Prop where
  | same (e : RuntimeError) : CutTo e e
  | failed (target template : Addr) (func msg msg' : Str) (h : msg'.1 = cutMsg msg.1) :
      CutTo (.funcFailed target template func msg) (.funcFailed target template func msg')
  | notAllowed (target template : Addr) (func msg msg' : Str) (h : msg'.1 = cutMsg msg.1) :
      CutTo (.funcNotAllowed target template func msg) (.funcNotAllowed target template func msg')

theorem decErrBlob_enc (e : RuntimeError) (bs rest : Bytes) (h : encErrBlob e = some bs) :
    ∃ e', CutTo e e' ∧ decErrBlob e.code (bs ++ rest) = .ok (e', rest) := by
  cases e with
  | oog => cases h; exact ⟨_, .same _, rfl⟩
  | templateNotFound t =>
    refine ⟨_, .same _, ?_⟩
    show (do return RuntimeError.templateNotFound (← (decArr 20).unwrap) : Dec RuntimeError) _ = _
    rw [(roundTrip_arr 20).unwrap.step h]; rfl
  | accountNotFound t =>
    refine ⟨_, .same _, ?_⟩
    show (do return RuntimeError.accountNotFound (← (decArr 20).unwrap) : Dec RuntimeError) _ = _
    rw [(roundTrip_arr 20).unwrap.step h]; rfl
  | compilationFailed a t m =>
    refine ⟨_, .same _, ?_⟩
    obtain ⟨b1, r1, h1, g1, rfl⟩ := Enc.seq_eq_some.1 h
    obtain ⟨b2, r2, h2, h3, rfl⟩ := Enc.seq_eq_some.1 g1
    show (do
      let template ← (decArr 20).unwrap
      let target ← (decArr 20).unwrap
      let msg ← decStr.unwrap
      return RuntimeError.compilationFailed target template msg : Dec RuntimeError) _ = _
    simp only [List.append_assoc]
    rw [(roundTrip_arr 20).unwrap.step h1, (roundTrip_arr 20).unwrap.step h2,
      roundTrip_str.unwrap.step h3]; rfl
  | instantiationFailed a t m =>
    refine ⟨_, .same _, ?_⟩
    obtain ⟨b1, r1, h1, g1, rfl⟩ := Enc.seq_eq_some.1 h
    obtain ⟨b2, r2, h2, h3, rfl⟩ := Enc.seq_eq_some.1 g1
    show (do
      let template ← (decArr 20).unwrap
      let target ← (decArr 20).unwrap
      let msg ← decStr.unwrap
      return RuntimeError.instantiationFailed target template msg : Dec RuntimeError) _ = _
    simp only [List.append_assoc]
    rw [(roundTrip_arr 20).unwrap.step h1, (roundTrip_arr 20).unwrap.step h2,
      roundTrip_str.unwrap.step h3]; rfl
  | funcNotFound a t m =>
    refine ⟨_, .same _, ?_⟩
    obtain ⟨b1, r1, h1, g1, rfl⟩ := Enc.seq_eq_some.1 h
    obtain ⟨b2, r2, h2, h3, rfl⟩ := Enc.seq_eq_some.1 g1
    show (do
      let template ← (decArr 20).unwrap
      let target ← (decArr 20).unwrap
      let msg ← decStr.unwrap
      return RuntimeError.funcNotFound target template msg : Dec RuntimeError) _ = _
    simp only [List.append_assoc]
    rw [(roundTrip_arr 20).unwrap.step h1, (roundTrip_arr 20).unwrap.step h2,
      roundTrip_str.unwrap.step h3]; rfl
  | funcInvalidSignature a t m =>
    refine ⟨_, .same _, ?_⟩
    obtain ⟨b1, r1, h1, g1, rfl⟩ := Enc.seq_eq_some.1 h
    obtain ⟨b2, r2, h2, h3, rfl⟩ := Enc.seq_eq_some.1 g1
    show (do
      let template ← (decArr 20).unwrap
      let target ← (decArr 20).unwrap
      let msg ← decStr.unwrap
      return RuntimeError.funcInvalidSignature target template msg : Dec RuntimeError) _ = _
    simp only [List.append_assoc]
    rw [(roundTrip_arr 20).unwrap.step h1, (roundTrip_arr 20).unwrap.step h2,
      roundTrip_str.unwrap.step h3]; rfl
  | funcNotCtor t m =>
    refine ⟨_, .same _, ?_⟩
    obtain ⟨b1, r1, h1, h2, rfl⟩ := Enc.seq_eq_some.1 h
    show (do
      let template ← (decArr 20).unwrap
      let func ← decStr.unwrap
      return RuntimeError.funcNotCtor template func : Dec RuntimeError) _ = _
    simp only [List.append_assoc]
    rw [(roundTrip_arr 20).unwrap.step h1, roundTrip_str.unwrap.step h2]; rfl
  | funcFailed a t f m =>
    obtain ⟨b1, r1, h1, g1, rfl⟩ := Enc.seq_eq_some.1 h
    obtain ⟨b2, r2, h2, g2, rfl⟩ := Enc.seq_eq_some.1 g1
    obtain ⟨b3, b4, h3, h4, rfl⟩ := Enc.seq_eq_some.1 g2
    obtain ⟨hv, h5⟩ := decStr_encMsg m b4 rest h4
    refine ⟨_, .failed a t f m ⟨cutMsg m.1, hv⟩ rfl, ?_⟩
    show (do
      let template ← (decArr 20).unwrap
      let target ← (decArr 20).unwrap
      let func ← decStr.unwrap
      let msg ← decStr.unwrap
      return RuntimeError.funcFailed target template func msg : Dec RuntimeError) _ = _
    simp only [List.append_assoc]
    rw [(roundTrip_arr 20).unwrap.step h1, (roundTrip_arr 20).unwrap.step h2,
      roundTrip_str.unwrap.step h3, Dec.bind_ok (Dec.unwrap_ok h5)]; rfl
  | funcNotAllowed a t f m =>
    obtain ⟨b1, r1, h1, g1, rfl⟩ := Enc.seq_eq_some.1 h
    obtain ⟨b2, r2, h2, g2, rfl⟩ := Enc.seq_eq_some.1 g1
    obtain ⟨b3, b4, h3, h4, rfl⟩ := Enc.seq_eq_some.1 g2
    obtain ⟨hv, h5⟩ := decStr_encMsg m b4 rest h4
    refine ⟨_, .notAllowed a t f m ⟨cutMsg m.1, hv⟩ rfl, ?_⟩
    show (do
      let template ← (decArr 20).unwrap
      let target ← (decArr 20).unwrap
      let func ← decStr.unwrap
      let msg ← decStr.unwrap
      return RuntimeError.funcNotAllowed target template func msg : Dec RuntimeError) _ = _
    simp only [List.append_assoc]
    rw [(roundTrip_arr 20).unwrap.step h1, (roundTrip_arr 20).unwrap.step h2,
      roundTrip_str.unwrap.step h3, Dec.bind_ok (Dec.unwrap_ok h5)]; rfl

theorem decFailure_enc (e : RuntimeError) (logs : List Bytes) (bs rest : Bytes)
    (h : encFailure e logs = some bs) :
    ∃ e', CutTo e e' ∧ decFailure (bs ++ rest) = .ok ((e', logs), rest) := by
  obtain ⟨b1, r1, h1, g1, rfl⟩ := Enc.seq_eq_some.1 h
  obtain ⟨b2, b3, h2, h3, rfl⟩ := Enc.seq_eq_some.1 g1
  obtain ⟨e', hc, he⟩ := decErrBlob_enc e b3 rest h3
  refine ⟨e', hc, ?_⟩
  unfold decFailure
  simp only [List.append_assoc]
  rw [roundTrip_byte.unwrap.step h1, roundTrip_logs.unwrap.step h2, Dec.bind_ok he]
  rfl

/-- The common start of the three receipt decoders. -/
theorem decHead {α : Type} (chk : Bool) (ty : UInt8) (v : U16) (s : Bool) (b1 b2 b3 rest : Bytes)
    (h1 : encByte ty = some b1) (h2 : encNum 2 v = some b2) (h3 : encBool s = some b3)
    (hv : chk = true → v = 0) (k : U16 → Bool → Dec α) :
    (do
      let t ← readByte
      debugAssert chk (t == ty)
      let version ← decNum 2
      debugAssert chk (version == 0)
      let success ← decBool
      k version success : Dec α) (b1 ++ (b2 ++ (b3 ++ rest))) = k v s rest := by
  have hd : ∀ inp, debugAssert chk (v == 0) inp = .ok ((), inp) := by
    intro inp
    cases chk with
    | false => rfl
    | true => rw [hv rfl]; rfl
  rw [roundTrip_byte.step h1, beq_self_eq_true, Dec.bind_ok (debugAssert_true chk _),
    (roundTrip_num 2).step h2, Dec.bind_ok (hd _), roundTrip_bool.step h3]

end Svm.Codec
