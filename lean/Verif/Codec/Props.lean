import Verif.Codec.Messages

/-!
# C37 - C41: message encodings

The spec of a lossless encoding is the small set of definitions below: they speak only of an encoder
and a decoder as functions on byte strings.
-/

namespace Svm.Codec

/-- Encoding and decoding, followed by anything, gives the value back and leaves the rest. -/
def Lossless {α : Type} (e : α → Option Bytes) (d : Dec α) : Prop :=
  ∀ a suffix bs, e a = some bs → d (bs ++ suffix) = .ok (a, suffix)

/-- No encoding of a value is a prefix of the encoding of another value (in particular different
values have different encodings). -/
def Unambiguous {α : Type} (e : α → Option Bytes) : Prop :=
  ∀ a b x y, e a = some x → e b = some y → x <+: y → a = b

theorem unambiguous_of_roundTrip {α : Type} {e : α → Enc} {d : Dec α} (h : RoundTrip e d) :
    Unambiguous e := by
  intro a b x y ha hb ⟨t, ht⟩
  exact (h.prefix_free (s := t) (t := []) ha hb (by simpa using ht)).1

/-! ## C37 -/

/-- The full claim C37: every envelope encodes to 60 bytes, losslessly. -/
def C37_claim : Prop :=
  Lossless encEnvelope decEnvelope ∧ ∀ e, ∃ bs, encEnvelope e = some bs ∧ bs.length = 60

/-- An address for examples. -/
def demoAddr : Addr := ⟨List.replicate 20 7, rfl⟩

/-- An envelope with gas limit 0. -/
def zeroGasEnvelope : Envelope :=
  { principal := demoAddr, amount := 10, nonce := 3, gasLimit := some 0, gasFee := 1 }

/-- C37 is violated by the code: a gas limit of zero comes back as "no limit". -/
theorem C37_lossless_false : ¬ C37_claim := by
  intro ⟨h, _⟩
  obtain ⟨bs, hb, _⟩ := encEnvelope_some zeroGasEnvelope
  have h1 := h zeroGasEnvelope [] bs hb
  rw [decEnvelope_enc _ _ _ hb] at h1
  simp [zeroGasEnvelope] at h1

/-- For every envelope with gas limit zero the decoded envelope has an unlimited gas limit. -/
theorem C37_zero_gas_becomes_unlimited (e : Envelope) (h0 : e.gasLimit = some 0) (suffix : Bytes) :
    ∃ bs, encEnvelope e = some bs ∧
      decEnvelope (bs ++ suffix) = .ok ({ e with gasLimit := none }, suffix) := by
  obtain ⟨bs, hb, _⟩ := encEnvelope_some e
  refine ⟨bs, hb, ?_⟩
  rw [decEnvelope_enc _ _ _ hb, if_pos h0]

/-- C37 for every envelope whose gas limit is not zero; the length holds for all. Missing: gas limit
zero (see `C37_zero_gas_becomes_unlimited`). -/
theorem C37_envelope_lossless_partial (e : Envelope) (suffix : Bytes) :
    ∃ bs, encEnvelope e = some bs ∧ bs.length = 60 ∧
      (e.gasLimit ≠ some 0 → decEnvelope (bs ++ suffix) = .ok (e, suffix)) := by
  obtain ⟨bs, hb, hl⟩ := encEnvelope_some e
  refine ⟨bs, hb, hl, fun h0 => ?_⟩
  rw [decEnvelope_enc _ _ _ hb, if_neg h0]

example : ({ zeroGasEnvelope with gasLimit := some 5 } : Envelope).gasLimit ≠ some 0 := by decide
example : ({ zeroGasEnvelope with gasLimit := none } : Envelope).gasLimit ≠ some 0 := by decide

/-! ## C38 -/

/-- C38: a call transaction is encoded exactly when its name and data fit a one byte length, and
then it is lossless. -/
theorem C38_transaction_lossless (t : Transaction) (suffix : Bytes) :
    (t.funcName.1.length ≤ 255 ∧ t.verifydata.length ≤ 255 ∧ t.calldata.length ≤ 255 →
      ∃ bs, encTransaction t = some bs ∧ decTransaction (bs ++ suffix) = .ok (t, suffix)) ∧
    (¬ (t.funcName.1.length ≤ 255 ∧ t.verifydata.length ≤ 255 ∧ t.calldata.length ≤ 255) →
      encTransaction t = none) := by
  have key : (encTransaction t).isSome ↔
      t.funcName.1.length ≤ 255 ∧ t.verifydata.length ≤ 255 ∧ t.calldata.length ≤ 255 := by
    unfold encTransaction
    rw [Enc.isSome_seq, Enc.isSome_seq, Enc.isSome_seq, Enc.isSome_seq, encStr_isSome,
      encData1_isSome, encData1_isSome]
    simp [encNum, encArr]
  constructor
  · intro h
    obtain ⟨bs, hb⟩ := Option.isSome_iff_exists.1 (key.2 h)
    exact ⟨bs, hb, roundTrip_transaction t bs suffix hb⟩
  · intro h
    rw [← key] at h
    simpa using h

/-- Non-vacuity: a transaction with a two byte character in its name and data of length 3. -/
def demoTransaction : Transaction :=
  { version := 1, target := demoAddr, funcName := ⟨[0x66, 0xC3, 0xA9], by decide⟩
    verifydata := [1, 2, 3], calldata := [] }

example : demoTransaction.funcName.1.length ≤ 255 ∧ demoTransaction.verifydata.length ≤ 255 ∧
    demoTransaction.calldata.length ≤ 255 := by decide

/-! ## C39 -/

/-- C39: spawn messages whose names and data fit a one byte length, and all contexts (72 bytes), are
encoded without loss. -/
theorem C39_spawn_context_lossless :
    (∀ (s : SpawnAccount) (suffix : Bytes),
      (s.name.1.length ≤ 255 ∧ s.ctorName.1.length ≤ 255 ∧ s.calldata.length ≤ 255 →
        ∃ bs, encSpawn s = some bs ∧ decSpawn (bs ++ suffix) = .ok (s, suffix)) ∧
      (¬ (s.name.1.length ≤ 255 ∧ s.ctorName.1.length ≤ 255 ∧ s.calldata.length ≤ 255) →
        encSpawn s = none)) ∧
    (∀ (c : Context) (suffix : Bytes), ∃ bs, encContext c = some bs ∧ bs.length = 72 ∧
      decContext (bs ++ suffix) = .ok (c, suffix)) := by
  constructor
  · intro s suffix
    have key : (encSpawn s).isSome ↔
        s.name.1.length ≤ 255 ∧ s.ctorName.1.length ≤ 255 ∧ s.calldata.length ≤ 255 := by
      unfold encSpawn
      rw [Enc.isSome_seq, Enc.isSome_seq, Enc.isSome_seq, Enc.isSome_seq, encStr_isSome,
        encStr_isSome, encData1_isSome]
      simp [encNum, encArr]
    constructor
    · intro h
      obtain ⟨bs, hb⟩ := Option.isSome_iff_exists.1 (key.2 h)
      exact ⟨bs, hb, roundTrip_spawn s bs suffix hb⟩
    · intro h
      rw [← key] at h
      simpa using h
  · intro c suffix
    obtain ⟨bs, hb, hl⟩ := encContext_some c
    exact ⟨bs, hb, hl, roundTrip_context c bs suffix hb⟩

/-- Non-vacuity of the spawn part. -/
def demoSpawn : SpawnAccount :=
  { version := 0, templateAddr := demoAddr, name := ⟨[0x41], by decide⟩
    ctorName := ⟨[0x42, 0x43], by decide⟩, calldata := [9, 9] }

example : demoSpawn.name.1.length ≤ 255 ∧ demoSpawn.ctorName.1.length ≤ 255 ∧
    demoSpawn.calldata.length ≤ 255 := by decide

/-! ## C40 -/

/-- The full claim C40. -/
def C40_claim : Prop :=
  Unambiguous encEnvelope ∧ Unambiguous encContext ∧ Unambiguous encTransaction ∧
    Unambiguous encSpawn

/-- C40 is violated by the code: the envelope with gas limit 0 and the one without gas limit have
the same bytes. -/
theorem C40_unambiguous_false : ¬ C40_claim := by
  intro ⟨h, _⟩
  obtain ⟨bs, hb, _⟩ := encEnvelope_some zeroGasEnvelope
  have := h zeroGasEnvelope { zeroGasEnvelope with gasLimit := none } bs bs hb hb
    (List.prefix_rfl)
  simp [zeroGasEnvelope] at this

/-- C40 for contexts, call transactions and spawn messages in full, and for envelopes up to
identifying gas limit 0 with no gas limit. Missing: telling these two apart. -/
theorem C40_unambiguous_partial :
    Unambiguous encContext ∧ Unambiguous encTransaction ∧ Unambiguous encSpawn ∧
    (∀ a b x y, encEnvelope a = some x → encEnvelope b = some y → x <+: y →
      { a with gasLimit := some (a.gasLimit.getD 0) } =
        ({ b with gasLimit := some (b.gasLimit.getD 0) } : Envelope)) := by
  refine ⟨unambiguous_of_roundTrip roundTrip_context,
    unambiguous_of_roundTrip roundTrip_transaction, unambiguous_of_roundTrip roundTrip_spawn, ?_⟩
  intro a b x y ha hb ⟨t, ht⟩
  have h1 := decEnvelope_enc a x t ha
  have h2 := decEnvelope_enc b y [] hb
  rw [List.append_nil] at h2
  rw [ht, h2] at h1
  simp only [Outcome.ok.injEq, Prod.mk.injEq, Envelope.mk.injEq] at h1
  obtain ⟨⟨e1, e2, e3, e4, e5⟩, _⟩ := h1
  have key : ∀ g : Gas, g.getD 0 = (if g = some 0 then none else g).getD 0 := by
    intro g; split
    · rename_i h; subst h; rfl
    · rfl
  have e4' : a.gasLimit.getD 0 = b.gasLimit.getD 0 := by
    rw [key a.gasLimit, key b.gasLimit, e4]
  rw [e1, e2, e3, e5, e4']

/-- Non-vacuity: encodings exist. -/
example : (encTransaction demoTransaction).isSome ∧ (encSpawn demoSpawn).isSome := by decide

/-! ## C41 -/

/-- C41: the decoders of envelopes, contexts, call and spawn messages never panic, whatever the
bytes; and what they accept is what the encoder writes for the value returned, followed by the
unread rest. (For envelopes the decoder returns only the canonical form "no limit" for 0, and both
forms are encoded alike, so nothing has to be excepted here.) -/
theorem C41_decode_untrusted (inp : Bytes) :
    (decEnvelope inp ≠ .panic ∧ decContext inp ≠ .panic ∧ decTransaction inp ≠ .panic ∧
      decSpawn inp ≠ .panic) ∧
    (∀ v rest, decEnvelope inp = .ok (v, rest) →
      v.gasLimit ≠ some 0 ∧ ∃ bs, encEnvelope v = some bs ∧ inp = bs ++ rest) ∧
    (∀ v rest, decContext inp = .ok (v, rest) →
      ∃ bs, encContext v = some bs ∧ inp = bs ++ rest) ∧
    (∀ v rest, decTransaction inp = .ok (v, rest) →
      ∃ bs, encTransaction v = some bs ∧ inp = bs ++ rest) ∧
    (∀ v rest, decSpawn inp = .ok (v, rest) →
      ∃ bs, encSpawn v = some bs ∧ inp = bs ++ rest) := by
  refine ⟨⟨noPanic_envelope inp, noPanic_context inp, noPanic_transaction inp, noPanic_spawn inp⟩,
    fun v rest h => ⟨?_, canonical_envelope _ _ _ h⟩, fun v rest h => canonical_context _ _ _ h,
    fun v rest h => canonical_transaction _ _ _ h, fun v rest h => canonical_spawn _ _ _ h⟩
  obtain ⟨x1, m1, h1, h⟩ := Dec.bind_eq_ok h
  obtain ⟨x2, m2, h2, h⟩ := Dec.bind_eq_ok h
  obtain ⟨x3, m3, h3, h⟩ := Dec.bind_eq_ok h
  obtain ⟨x4, m4, h4, h⟩ := Dec.bind_eq_ok h
  obtain ⟨x5, m5, h5, h⟩ := Dec.bind_eq_ok h
  cases h
  exact decGas_ne_zero h4

/-- Non-vacuity: 72 bytes do decode as a context. -/
example : ∃ v, decContext (List.replicate 72 1) = .ok (v, []) := ⟨_, rfl⟩

end Svm.Codec
