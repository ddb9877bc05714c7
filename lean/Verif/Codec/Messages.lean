import Verif.Codec.Basic

/-!
# Model of the message codecs: envelope, context, call transaction, spawn

`crates/host/codec/src/codec.rs`.
-/

namespace Svm.Codec

/-- `Gas`: an optional `u64`, types/src/gas/mod.rs:20-22. -/
abbrev Gas := Option U64

/-- `Codec for Gas`, codec.rs:167-169: the absent value is written as 0. -/
def encGas (g : Gas) : Enc := encNum 8 (g.getD 0)

/-- `Codec for Gas`, codec.rs:171-176: 0 is read as the absent value. -/
def decGas : Dec Gas := do
  let x ← decNum 8
  if x = 0 then return none else return some x

/-- `Envelope`, types/src/transaction/envelope.rs. -/
structure Envelope where
  principal : Addr
  amount : U64
  nonce : U128
  gasLimit : Gas
  gasFee : U64
  deriving DecidableEq

/-- `Envelope::encode`, codec.rs:140-146. -/
def encEnvelope (e : Envelope) : Enc :=
  encArr e.principal +++ encNum 8 e.amount +++ encNum 16 e.nonce +++ encGas e.gasLimit +++
    encNum 8 e.gasFee

/-- `Envelope::decode`, codec.rs:148-157. -/
def decEnvelope : Dec Envelope := do
  let principal ← decArr 20
  let amount ← decNum 8
  let nonce ← decNum 16
  let gasLimit ← decGas
  let gasFee ← decNum 8
  return { principal, amount, nonce, gasLimit, gasFee }

/-- `Envelope::fixed_size`, codec.rs:159-161. -/
def envelopeSize : Nat := 20 + 8 + 16 + 8 + 8

/-- `Context`, types/src/transaction/context.rs. -/
structure Context where
  txId : Hash
  layer : U64
  state : Hash
  deriving DecidableEq

/-- `Context::encode`, codec.rs:258-262. -/
def encContext (c : Context) : Enc :=
  encArr c.txId +++ encNum 8 c.layer +++ encArr c.state

/-- `Context::decode`, codec.rs:264-271. -/
def decContext : Dec Context := do
  let txId ← decArr 32
  let layer ← decNum 8
  let state ← decArr 32
  return { txId, layer, state }

/-- `Context::fixed_size`, codec.rs:273-275. -/
def contextSize : Nat := 32 + 8 + 32

/-- `Transaction`, types/src/transaction/mod.rs:16-32. -/
structure Transaction where
  version : U16
  target : Addr
  funcName : Str
  verifydata : Bytes
  calldata : Bytes
  deriving DecidableEq

/-- `Transaction::encode`, codec.rs:215-221; `InputData` has a one byte prefix, codec.rs:90. -/
def encTransaction (t : Transaction) : Enc :=
  encNum 2 t.version +++ encArr t.target +++ encStr t.funcName +++ encData 1 t.verifydata +++
    encData 1 t.calldata

/-- `Transaction::decode`, codec.rs:223-237. -/
def decTransaction : Dec Transaction := do
  let version ← decNum 2
  let target ← decArr 20
  let funcName ← decStr
  let verifydata ← decData 1
  let calldata ← decData 1
  return { version, target, funcName, verifydata, calldata }

/-- `SpawnAccount` with its `Account`, types/src/spawn_account.rs:7-20, types/src/account.rs. -/
structure SpawnAccount where
  version : U16
  templateAddr : Addr
  name : Str
  ctorName : Str
  calldata : Bytes
  deriving DecidableEq

/-- `SpawnAccount::encode`, codec.rs:298-304. -/
def encSpawn (s : SpawnAccount) : Enc :=
  encNum 2 s.version +++ encArr s.templateAddr +++ encStr s.name +++ encStr s.ctorName +++
    encData 1 s.calldata

/-- `SpawnAccount::decode`, codec.rs:306-322. -/
def decSpawn : Dec SpawnAccount := do
  let version ← decNum 2
  let templateAddr ← decArr 20
  let name ← decStr
  let ctorName ← decStr
  let calldata ← decData 1
  return { version, templateAddr, name, ctorName, calldata }

/-! ## Lemmas -/

theorem encGas_length {g : Gas} {bs : Bytes} (h : encGas g = some bs) : bs.length = 8 :=
  encNum_length h

theorem decGas_enc (g : Gas) (bs rest : Bytes) (h : encGas g = some bs) :
    decGas (bs ++ rest) = .ok (if g = some 0 then none else g, rest) := by
  unfold decGas
  rw [(roundTrip_num 8).step h]
  cases g with
  | none => rfl
  | some x =>
    by_cases hx : x = 0
    · subst hx; rfl
    · have h' : ¬ (some x : Gas) = some 0 := by simpa using hx
      rw [if_neg h']
      simp only [Option.getD_some]
      rw [if_neg hx]
      rfl

theorem canonical_gas : Canonical encGas decGas := by
  intro inp a rest h
  obtain ⟨x, mid, h1, h2⟩ := Dec.bind_eq_ok h
  obtain ⟨bs, hb, rfl⟩ := canonical_num _ _ _ _ h1
  split at h2
  · rename_i hx; cases h2; subst hx; exact ⟨bs, hb, rfl⟩
  · cases h2; exact ⟨bs, hb, rfl⟩

theorem decGas_ne_zero {inp rest : Bytes} {g : Gas} (h : decGas inp = .ok (g, rest)) :
    g ≠ some 0 := by
  obtain ⟨x, mid, h1, h2⟩ := Dec.bind_eq_ok h
  split at h2
  · cases h2; simp
  · rename_i hx; cases h2; simpa using hx

theorem noPanic_gas : NoPanic decGas := by
  refine NoPanic.bind (noPanic_num 8) (fun x => ?_)
  intro inp h
  split at h <;> cases h

/-- The gas limit as it comes out of the decoder. -/
theorem decEnvelope_enc (e : Envelope) (bs rest : Bytes) (h : encEnvelope e = some bs) :
    decEnvelope (bs ++ rest)
      = .ok ({ e with gasLimit := if e.gasLimit = some 0 then none else e.gasLimit }, rest) := by
  obtain ⟨b1, r1, h1, g1, rfl⟩ := Enc.seq_eq_some.1 h
  obtain ⟨b2, r2, h2, g2, rfl⟩ := Enc.seq_eq_some.1 g1
  obtain ⟨b3, r3, h3, g3, rfl⟩ := Enc.seq_eq_some.1 g2
  obtain ⟨b4, r4, h4, h5, rfl⟩ := Enc.seq_eq_some.1 g3
  unfold decEnvelope
  simp only [List.append_assoc]
  rw [(roundTrip_arr 20).step h1, (roundTrip_num 8).step h2, (roundTrip_num 16).step h3,
    Dec.bind_ok (decGas_enc _ _ _ h4), (roundTrip_num 8).step h5]
  rfl

theorem canonical_envelope : Canonical encEnvelope decEnvelope := by
  intro inp a rest h
  obtain ⟨x1, m1, h1, h⟩ := Dec.bind_eq_ok h
  obtain ⟨x2, m2, h2, h⟩ := Dec.bind_eq_ok h
  obtain ⟨x3, m3, h3, h⟩ := Dec.bind_eq_ok h
  obtain ⟨x4, m4, h4, h⟩ := Dec.bind_eq_ok h
  obtain ⟨x5, m5, h5, h⟩ := Dec.bind_eq_ok h
  cases h
  obtain ⟨b1, e1, rfl⟩ := canonical_arr 20 _ _ _ h1
  obtain ⟨b2, e2, rfl⟩ := canonical_num 8 _ _ _ h2
  obtain ⟨b3, e3, rfl⟩ := canonical_num 16 _ _ _ h3
  obtain ⟨b4, e4, rfl⟩ := canonical_gas _ _ _ h4
  obtain ⟨b5, e5, rfl⟩ := canonical_num 8 _ _ _ h5
  refine ⟨b1 ++ (b2 ++ (b3 ++ (b4 ++ b5))), ?_, by simp⟩
  simp only [encEnvelope, e1, e2, e3, e4, e5, Enc.seq]

theorem noPanic_envelope : NoPanic decEnvelope :=
  NoPanic.bind (noPanic_arr 20) fun _ => NoPanic.bind (noPanic_num 8) fun _ =>
    NoPanic.bind (noPanic_num 16) fun _ => NoPanic.bind noPanic_gas fun _ =>
      NoPanic.bind (noPanic_num 8) fun _ => NoPanic.pure _

theorem encEnvelope_some (e : Envelope) : ∃ bs, encEnvelope e = some bs ∧ bs.length = 60 := by
  refine ⟨_, rfl, ?_⟩
  simp only [List.length_append, natBE_length, e.principal.2]

theorem roundTrip_context : RoundTrip encContext decContext := by
  intro a bs rest h
  obtain ⟨b1, r1, h1, g1, rfl⟩ := Enc.seq_eq_some.1 h
  obtain ⟨b2, r2, h2, h3, rfl⟩ := Enc.seq_eq_some.1 g1
  unfold decContext
  simp only [List.append_assoc]
  rw [(roundTrip_arr 32).step h1, (roundTrip_num 8).step h2, (roundTrip_arr 32).step h3]
  rfl

theorem canonical_context : Canonical encContext decContext := by
  intro inp a rest h
  obtain ⟨x1, m1, h1, h⟩ := Dec.bind_eq_ok h
  obtain ⟨x2, m2, h2, h⟩ := Dec.bind_eq_ok h
  obtain ⟨x3, m3, h3, h⟩ := Dec.bind_eq_ok h
  cases h
  obtain ⟨b1, e1, rfl⟩ := canonical_arr 32 _ _ _ h1
  obtain ⟨b2, e2, rfl⟩ := canonical_num 8 _ _ _ h2
  obtain ⟨b3, e3, rfl⟩ := canonical_arr 32 _ _ _ h3
  refine ⟨b1 ++ (b2 ++ b3), ?_, by simp⟩
  simp only [encContext, e1, e2, e3, Enc.seq]

theorem noPanic_context : NoPanic decContext :=
  NoPanic.bind (noPanic_arr 32) fun _ => NoPanic.bind (noPanic_num 8) fun _ =>
    NoPanic.bind (noPanic_arr 32) fun _ => NoPanic.pure _

theorem encContext_some (c : Context) : ∃ bs, encContext c = some bs ∧ bs.length = 72 := by
  refine ⟨_, rfl, ?_⟩
  simp only [List.length_append, natBE_length, c.txId.2, c.state.2]

theorem roundTrip_transaction : RoundTrip encTransaction decTransaction := by
  intro a bs rest h
  obtain ⟨b1, r1, h1, g1, rfl⟩ := Enc.seq_eq_some.1 h
  obtain ⟨b2, r2, h2, g2, rfl⟩ := Enc.seq_eq_some.1 g1
  obtain ⟨b3, r3, h3, g3, rfl⟩ := Enc.seq_eq_some.1 g2
  obtain ⟨b4, r4, h4, h5, rfl⟩ := Enc.seq_eq_some.1 g3
  unfold decTransaction
  simp only [List.append_assoc]
  rw [(roundTrip_num 2).step h1, (roundTrip_arr 20).step h2, roundTrip_str.step h3,
    (roundTrip_data 1).step h4, (roundTrip_data 1).step h5]
  rfl

theorem canonical_transaction : Canonical encTransaction decTransaction := by
  intro inp a rest h
  obtain ⟨x1, m1, h1, h⟩ := Dec.bind_eq_ok h
  obtain ⟨x2, m2, h2, h⟩ := Dec.bind_eq_ok h
  obtain ⟨x3, m3, h3, h⟩ := Dec.bind_eq_ok h
  obtain ⟨x4, m4, h4, h⟩ := Dec.bind_eq_ok h
  obtain ⟨x5, m5, h5, h⟩ := Dec.bind_eq_ok h
  cases h
  obtain ⟨b1, e1, rfl⟩ := canonical_num 2 _ _ _ h1
  obtain ⟨b2, e2, rfl⟩ := canonical_arr 20 _ _ _ h2
  obtain ⟨b3, e3, rfl⟩ := canonical_str _ _ _ h3
  obtain ⟨b4, e4, rfl⟩ := canonical_data 1 _ _ _ h4
  obtain ⟨b5, e5, rfl⟩ := canonical_data 1 _ _ _ h5
  refine ⟨b1 ++ (b2 ++ (b3 ++ (b4 ++ b5))), ?_, by simp⟩
  simp only [encTransaction, e1, e2, e3, e4, e5, Enc.seq]

theorem noPanic_transaction : NoPanic decTransaction :=
  NoPanic.bind (noPanic_num 2) fun _ => NoPanic.bind (noPanic_arr 20) fun _ =>
    NoPanic.bind noPanic_str fun _ => NoPanic.bind (noPanic_data 1) fun _ =>
      NoPanic.bind (noPanic_data 1) fun _ => NoPanic.pure _

theorem roundTrip_spawn : RoundTrip encSpawn decSpawn := by
  intro a bs rest h
  obtain ⟨b1, r1, h1, g1, rfl⟩ := Enc.seq_eq_some.1 h
  obtain ⟨b2, r2, h2, g2, rfl⟩ := Enc.seq_eq_some.1 g1
  obtain ⟨b3, r3, h3, g3, rfl⟩ := Enc.seq_eq_some.1 g2
  obtain ⟨b4, r4, h4, h5, rfl⟩ := Enc.seq_eq_some.1 g3
  unfold decSpawn
  simp only [List.append_assoc]
  rw [(roundTrip_num 2).step h1, (roundTrip_arr 20).step h2, roundTrip_str.step h3,
    roundTrip_str.step h4, (roundTrip_data 1).step h5]
  rfl

theorem canonical_spawn : Canonical encSpawn decSpawn := by
  intro inp a rest h
  obtain ⟨x1, m1, h1, h⟩ := Dec.bind_eq_ok h
  obtain ⟨x2, m2, h2, h⟩ := Dec.bind_eq_ok h
  obtain ⟨x3, m3, h3, h⟩ := Dec.bind_eq_ok h
  obtain ⟨x4, m4, h4, h⟩ := Dec.bind_eq_ok h
  obtain ⟨x5, m5, h5, h⟩ := Dec.bind_eq_ok h
  cases h
  obtain ⟨b1, e1, rfl⟩ := canonical_num 2 _ _ _ h1
  obtain ⟨b2, e2, rfl⟩ := canonical_arr 20 _ _ _ h2
  obtain ⟨b3, e3, rfl⟩ := canonical_str _ _ _ h3
  obtain ⟨b4, e4, rfl⟩ := canonical_str _ _ _ h4
  obtain ⟨b5, e5, rfl⟩ := canonical_data 1 _ _ _ h5
  refine ⟨b1 ++ (b2 ++ (b3 ++ (b4 ++ b5))), ?_, by simp⟩
  simp only [encSpawn, e1, e2, e3, e4, e5, Enc.seq]

theorem noPanic_spawn : NoPanic decSpawn :=
  NoPanic.bind (noPanic_num 2) fun _ => NoPanic.bind (noPanic_arr 20) fun _ =>
    NoPanic.bind noPanic_str fun _ => NoPanic.bind noPanic_str fun _ =>
      NoPanic.bind (noPanic_data 1) fun _ => NoPanic.pure _

theorem encStr_isSome (s : Str) : (encStr s).isSome ↔ s.1.length ≤ 255 := by
  unfold encStr; split <;> simp <;> omega

theorem encData1_isSome (d : Bytes) : (encData 1 d).isSome ↔ d.length ≤ 255 := by
  unfold encData
  split
  · rename_i h; simp only [encNum, Enc.seq, Option.isSome_some, true_iff]; omega
  · rename_i h; simp only [Option.isSome_none, Bool.false_eq_true, false_iff]; omega

theorem Enc.isSome_seq (x y : Enc) : (x +++ y).isSome ↔ x.isSome ∧ y.isSome := by
  unfold Enc.seq; cases x <;> cases y <;> simp

end Svm.Codec
