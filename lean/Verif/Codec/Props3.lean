import Verif.Codec.Receipts
import Verif.Codec.Props

/-!
# C45, C46: receipts
-/

namespace Svm.Codec

/-! ## C45 -/

/-- A well formed receipt of a successful transaction, as the runtime builds them. -/
def Receipt.Successful : Receipt → Prop
  | .deploy r => r.success = true ∧ r.error = none ∧ ∃ a, r.addr = some a
  | .spawn r => r.success = true ∧ r.error = none ∧ r.touched.Nodup ∧
      (∃ a, r.accountAddr = some a) ∧ (∃ s, r.initState = some s) ∧ ∃ d, r.returndata = some d
  | .call r => r.success = true ∧ r.error = none ∧ r.touched.Nodup ∧
      (∃ s, r.newState = some s) ∧ ∃ d, r.returndata = some d

/-- The gas field of a receipt. -/
def Receipt.gasUsed : Receipt → Gas
  | .deploy r => r.gasUsed
  | .spawn r => r.gasUsed
  | .call r => r.gasUsed

/-- The version field of a receipt. -/
def Receipt.version : Receipt → U16
  | .deploy r => r.version
  | .spawn r => r.version
  | .call r => r.version

/-- Equality of receipts: all fields equal, the touched accounts as sets. -/
def Receipt.Same : Receipt → Receipt → Prop
  | .deploy a, .deploy b => a = b
  | .spawn a, .spawn b => { a with touched := [] } = { b with touched := [] } ∧
      a.touched.Perm b.touched
  | .call a, .call b => { a with touched := [] } = { b with touched := [] } ∧
      a.touched.Perm b.touched
  | _, _ => False

/-- The full claim C45. -/
def C45_claim (chk : Bool) : Prop :=
  ∀ (ord : Order Addr) (r : Receipt) (bs suffix : Bytes), r.Successful →
    encReceipt ord r = some bs →
    ∃ r', decReceipt chk (bs ++ suffix) = .ok (r', suffix) ∧ r'.Same r

/-- A deploy receipt with gas 0. -/
def zeroGasReceipt : Receipt :=
  .deploy { version := 0, success := true, error := none, addr := some demoAddr
            gasUsed := some 0, logs := [] }

theorem C45_deploy (chk : Bool) (r : DeployReceipt) (bs suffix : Bytes)
    (hs : (Receipt.deploy r).Successful) (hv : chk = true → r.version = 0)
    (h : encDeployReceipt r = some bs) :
    decDeployReceipt chk (bs ++ suffix)
      = .ok ({ r with gasUsed := if r.gasUsed = some 0 then none else r.gasUsed }, suffix) := by
  obtain ⟨hsucc, herr, a, ha⟩ := hs
  obtain ⟨b1, r1, h1, g1, rfl⟩ := Enc.seq_eq_some.1 h
  obtain ⟨b2, r2, h2, g2, rfl⟩ := Enc.seq_eq_some.1 g1
  obtain ⟨b3, r3, h3, g3, rfl⟩ := Enc.seq_eq_some.1 g2
  rw [if_pos hsucc, ha] at g3
  obtain ⟨b4, r4, h4, g4, rfl⟩ := Enc.seq_eq_some.1 g3
  obtain ⟨b5, b6, h5, h6, rfl⟩ := Enc.seq_eq_some.1 g4
  unfold decDeployReceipt
  simp only [List.append_assoc]
  rw [decHead chk _ _ _ _ _ _ _ h1 h2 h3 hv, hsucc, if_pos rfl]
  rw [(roundTrip_arr 20).step h4, Dec.bind_ok (decGas_enc _ _ _ h5), roundTrip_logs.step h6]
  cases r
  simp only at hsucc herr ha
  subst hsucc herr ha
  rfl

theorem C45_call (chk : Bool) (ord : Order Addr) (r : CallReceipt) (bs suffix : Bytes)
    (hs : (Receipt.call r).Successful) (hv : chk = true → r.version = 0)
    (h : encCallReceipt ord r = some bs) :
    decCallReceipt chk (bs ++ suffix)
      = .ok ({ r with gasUsed := if r.gasUsed = some 0 then none else r.gasUsed
                      touched := ord.run r.touched }, suffix) := by
  obtain ⟨hsucc, herr, hnd, ⟨st, hst⟩, d, hd⟩ := hs
  obtain ⟨b1, r1, h1, g1, rfl⟩ := Enc.seq_eq_some.1 h
  obtain ⟨b2, r2, h2, g2, rfl⟩ := Enc.seq_eq_some.1 g1
  obtain ⟨b3, r3, h3, g3, rfl⟩ := Enc.seq_eq_some.1 g2
  rw [if_pos hsucc, hst, hd] at g3
  obtain ⟨b4, r4, h4, g4, rfl⟩ := Enc.seq_eq_some.1 g3
  obtain ⟨b5, r5, h5, g5, rfl⟩ := Enc.seq_eq_some.1 g4
  obtain ⟨b6, r6, h6, g6, rfl⟩ := Enc.seq_eq_some.1 g5
  obtain ⟨b7, b8, h7, h8, rfl⟩ := Enc.seq_eq_some.1 g6
  unfold decCallReceipt
  simp only [List.append_assoc]
  rw [decHead chk _ _ _ _ _ _ _ h1 h2 h3 hv, hsucc, if_pos rfl]
  rw [(roundTrip_arr 32).step h4, (roundTrip_data 2).step h5, Dec.bind_ok (decGas_enc _ _ _ h6),
    Dec.bind_ok (decTouched_enc ord _ hnd _ _ h7), roundTrip_logs.step h8]
  cases r
  simp only at hsucc herr hst hd
  subst hsucc herr hst hd
  rfl

theorem C45_spawn (chk : Bool) (ord : Order Addr) (r : SpawnReceipt) (bs suffix : Bytes)
    (hs : (Receipt.spawn r).Successful) (hv : chk = true → r.version = 0)
    (h : encSpawnReceipt ord r = some bs) :
    decSpawnReceipt chk (bs ++ suffix)
      = .ok ({ r with gasUsed := if r.gasUsed = some 0 then none else r.gasUsed
                      touched := ord.run r.touched }, suffix) := by
  obtain ⟨hsucc, herr, hnd, ⟨ad, had⟩, ⟨st, hst⟩, d, hd⟩ := hs
  obtain ⟨b1, r1, h1, g1, rfl⟩ := Enc.seq_eq_some.1 h
  obtain ⟨b2, r2, h2, g2, rfl⟩ := Enc.seq_eq_some.1 g1
  obtain ⟨b3, r3, h3, g3, rfl⟩ := Enc.seq_eq_some.1 g2
  rw [if_pos hsucc, hst, hd, had] at g3
  obtain ⟨b4, r4, h4, g4, rfl⟩ := Enc.seq_eq_some.1 g3
  obtain ⟨b5, r5, h5, g5, rfl⟩ := Enc.seq_eq_some.1 g4
  obtain ⟨b6, r6, h6, g6, rfl⟩ := Enc.seq_eq_some.1 g5
  obtain ⟨b7, r7, h7, g7, rfl⟩ := Enc.seq_eq_some.1 g6
  obtain ⟨b8, b9, h8, h9, rfl⟩ := Enc.seq_eq_some.1 g7
  unfold decSpawnReceipt
  simp only [List.append_assoc]
  rw [decHead chk _ _ _ _ _ _ _ h1 h2 h3 hv, hsucc, if_pos rfl]
  rw [(roundTrip_arr 20).step h4, (roundTrip_arr 32).step h5, (roundTrip_data 2).step h6,
    Dec.bind_ok (decGas_enc _ _ _ h7),
    Dec.bind_ok (decTouched_enc ord _ hnd _ _ h8), roundTrip_logs.step h9]
  cases r
  simp only at hsucc herr hst hd had
  subst hsucc herr hst hd had
  rfl

/-- The dispatch of `Receipt::decode` on what `Receipt::encode` wrote. -/
theorem decReceipt_dispatch (chk : Bool) (ord : Order Addr) (r : Receipt) (bs suffix : Bytes)
    (h : encReceipt ord r = some bs) :
    decReceipt chk (bs ++ suffix) =
      match r with
      | .deploy _ => (do return .deploy (← decDeployReceipt chk) : Dec Receipt) (bs ++ suffix)
      | .spawn _ => (do return .spawn (← decSpawnReceipt chk) : Dec Receipt) (bs ++ suffix)
      | .call _ => (do return .call (← decCallReceipt chk) : Dec Receipt) (bs ++ suffix) := by
  cases r with
  | deploy r =>
    obtain ⟨b1, r1, h1, g1, rfl⟩ := Enc.seq_eq_some.1 (show encDeployReceipt r = some bs from h)
    cases h1; rfl
  | spawn r =>
    obtain ⟨b1, r1, h1, g1, rfl⟩ := Enc.seq_eq_some.1 (show encSpawnReceipt ord r = some bs from h)
    cases h1; rfl
  | call r =>
    obtain ⟨b1, r1, h1, g1, rfl⟩ := Enc.seq_eq_some.1 (show encCallReceipt ord r = some bs from h)
    cases h1; rfl

/-- C45 is violated by the code: a receipt reporting zero gas used decodes as one that does not
report gas. -/
theorem C45_lossless_false (chk : Bool) : ¬ C45_claim chk := by
  intro h
  have hs : zeroGasReceipt.Successful := ⟨rfl, rfl, demoAddr, rfl⟩
  obtain ⟨bs, hb⟩ : ∃ bs, encReceipt Order.id zeroGasReceipt = some bs := ⟨_, rfl⟩
  obtain ⟨r', h1, h2⟩ := h Order.id zeroGasReceipt bs [] hs hb
  have h3 := decReceipt_dispatch chk Order.id zeroGasReceipt bs [] hb
  rw [h1] at h3
  have h4 := h3.trans (Dec.bind_ok (C45_deploy chk _ bs [] hs (fun _ => rfl) hb))
  have h5 := (Prod.mk.inj (Outcome.ok.inj h4)).1
  rw [h5] at h2
  simp [Receipt.Same, zeroGasReceipt] at h2

/-- C45 for every successful receipt whose gas is not `Some(0)` (and, in builds with debug
assertions, whose version is 0): decoding the encoding gives the same receipt, for every iteration
order of the touched accounts. Missing: gas `Some(0)`, which decodes as `None`. -/
theorem C45_lossless_partial (chk : Bool) (ord : Order Addr) (r : Receipt) (bs suffix : Bytes)
    (hs : r.Successful) (hg : r.gasUsed ≠ some 0) (hv : chk = true → r.version = 0)
    (h : encReceipt ord r = some bs) :
    ∃ r', decReceipt chk (bs ++ suffix) = .ok (r', suffix) ∧ r'.Same r := by
  rw [decReceipt_dispatch chk ord r bs suffix h]
  cases r with
  | deploy r =>
    refine ⟨_, Dec.bind_ok (C45_deploy chk r bs suffix hs hv h), ?_⟩
    simp only [Receipt.gasUsed] at hg
    simp only [Receipt.Same, if_neg hg]
  | spawn r =>
    refine ⟨_, Dec.bind_ok (C45_spawn chk ord r bs suffix hs hv h), ?_⟩
    simp only [Receipt.gasUsed] at hg
    simp only [Receipt.Same, if_neg hg, true_and]
    exact ord.perm _
  | call r =>
    refine ⟨_, Dec.bind_ok (C45_call chk ord r bs suffix hs hv h), ?_⟩
    simp only [Receipt.gasUsed] at hg
    simp only [Receipt.Same, if_neg hg, true_and]
    exact ord.perm _

/-- A call receipt with two touched accounts and a log. -/
def demoCallReceipt : CallReceipt :=
  { version := 0, success := true, error := none, newState := some ⟨List.replicate 32 1, rfl⟩
    returndata := some [1, 2], gasUsed := none
    touched := [demoAddr, ⟨List.replicate 20 8, rfl⟩], logs := [[5, 6]] }

/-- Non-vacuity. -/
example : (Receipt.call demoCallReceipt).Successful ∧
    (Receipt.call demoCallReceipt).gasUsed ≠ some 0 ∧
    (Receipt.call demoCallReceipt).version = 0 ∧
    (encReceipt Order.rev (.call demoCallReceipt)).isSome :=
  ⟨⟨rfl, rfl, by decide, ⟨_, rfl⟩, _, rfl⟩, by decide, rfl, rfl⟩

/-- Which receipts the encoder accepts: those whose fields fit their prefixes (shown for call
receipts; the other two have the same fields). -/
theorem C45_call_encodes (ord : Order Addr) (r : CallReceipt) (hs : (Receipt.call r).Successful)
    (h1 : ∀ d, r.returndata = some d → d.length ≤ 65535) (h2 : r.touched.length ≤ 65535)
    (h3 : r.logs.length ≤ 255) (h4 : ∀ l ∈ r.logs, l.length ≤ 65535) :
    ∃ bs, encReceipt ord (.call r) = some bs := by
  obtain ⟨hsucc, herr, hnd, ⟨st, hst⟩, d, hd⟩ := hs
  have many : ∀ logs : List Bytes, (∀ l ∈ logs, l.length ≤ 65535) →
      (encMany (encData 2) logs).isSome := by
    intro logs hl
    induction logs with
    | nil => rfl
    | cons a as ih =>
      simp only [encMany]
      rw [Enc.isSome_seq]
      refine ⟨?_, ih (fun l hl' => hl l (by simp [hl']))⟩
      unfold encData
      rw [if_pos (by have := hl a (by simp); omega)]
      rfl
  have many2 : ∀ l : List Addr, (encMany encArr l).isSome := by
    intro l
    induction l with
    | nil => rfl
    | cons a as ih => simp only [encMany]; rw [Enc.isSome_seq]; exact ⟨rfl, ih⟩
  apply Option.isSome_iff_exists.1
  unfold encReceipt encCallReceipt
  simp only [hsucc, if_true, hst, hd, encOpt]
  rw [Enc.isSome_seq, Enc.isSome_seq, Enc.isSome_seq, Enc.isSome_seq, Enc.isSome_seq,
    Enc.isSome_seq, Enc.isSome_seq]
  refine ⟨rfl, rfl, rfl, rfl, ?_, rfl, ?_, ?_⟩
  · unfold encData
    rw [if_pos (by have := h1 d hd; omega)]
    rfl
  · unfold encTouched
    rw [if_pos (by omega), Enc.isSome_seq]
    exact ⟨rfl, many2 _⟩
  · unfold encLogs
    rw [if_pos h3, Enc.isSome_seq]
    exact ⟨rfl, many _ h4⟩

/-! ## C46 -/

/-- The error of a receipt. -/
def Receipt.error : Receipt → Option RuntimeError
  | .deploy r => r.error
  | .spawn r => r.error
  | .call r => r.error

/-- The logs of a receipt. -/
def Receipt.logs : Receipt → List Bytes
  | .deploy r => r.logs
  | .spawn r => r.logs
  | .call r => r.logs

/-- Whether a receipt is a success. -/
def Receipt.success : Receipt → Bool
  | .deploy r => r.success
  | .spawn r => r.success
  | .call r => r.success

/-- The full claim C46: encoding a failure receipt and decoding it gives back the same error and
logs. -/
def C46_claim (chk : Bool) : Prop :=
  ∀ (ord : Order Addr) (r : Receipt) (bs suffix : Bytes), r.success = false → r.version = 0 →
    encReceipt ord r = some bs →
    ∃ r', decReceipt chk (bs ++ suffix) = .ok (r', suffix) ∧ r'.success = false ∧
      r'.error = r.error ∧ r'.logs = r.logs

theorem decode_failure (chk : Bool) (ord : Order Addr) (r : Receipt) (bs suffix : Bytes)
    (hf : r.success = false) (hv : chk = true → r.version = 0)
    (h : encReceipt ord r = some bs) :
    ∃ r' e e', decReceipt chk (bs ++ suffix) = .ok (r', suffix) ∧ r'.success = false ∧
      r.error = some e ∧ r'.error = some e' ∧ CutTo e e' ∧
      r'.logs = (match r with | .deploy _ => [] | .spawn r => r.logs | .call r => r.logs) := by
  rw [decReceipt_dispatch chk ord r bs suffix h]
  cases r with
  | deploy r =>
    obtain ⟨b1, r1, h1, g1, rfl⟩ := Enc.seq_eq_some.1 (show encDeployReceipt r = some bs from h)
    obtain ⟨b2, r2, h2, g2, rfl⟩ := Enc.seq_eq_some.1 g1
    obtain ⟨b3, r3, h3, g3, rfl⟩ := Enc.seq_eq_some.1 g2
    simp only [Receipt.success] at hf
    rw [if_neg (by simp [hf])] at g3
    cases he : r.error with
    | none => rw [he] at g3; cases g3
    | some e =>
      rw [he] at g3
      obtain ⟨e', hc, hd⟩ := decFailure_enc e [] r3 suffix g3
      refine ⟨.deploy (DeployReceipt.fromErr e' []), e, e', ?_, rfl, he, rfl, hc, rfl⟩
      have : decDeployReceipt chk (b1 ++ (b2 ++ (b3 ++ (r3 ++ suffix))))
          = .ok (DeployReceipt.fromErr e' [], suffix) := by
        unfold decDeployReceipt
        rw [decHead chk _ _ _ _ _ _ _ h1 h2 h3 hv, hf, if_neg (by simp), Dec.bind_ok hd]
        rfl
      simp only [List.append_assoc]
      rw [Dec.bind_ok this]
      rfl
  | spawn r =>
    obtain ⟨b1, r1, h1, g1, rfl⟩ := Enc.seq_eq_some.1 (show encSpawnReceipt ord r = some bs from h)
    obtain ⟨b2, r2, h2, g2, rfl⟩ := Enc.seq_eq_some.1 g1
    obtain ⟨b3, r3, h3, g3, rfl⟩ := Enc.seq_eq_some.1 g2
    simp only [Receipt.success] at hf
    rw [if_neg (by simp [hf])] at g3
    cases he : r.error with
    | none => rw [he] at g3; cases g3
    | some e =>
      rw [he] at g3
      obtain ⟨e', hc, hd⟩ := decFailure_enc e r.logs r3 suffix g3
      refine ⟨.spawn (SpawnReceipt.fromErr e' r.logs), e, e', ?_, rfl, he, rfl, hc, rfl⟩
      have : decSpawnReceipt chk (b1 ++ (b2 ++ (b3 ++ (r3 ++ suffix))))
          = .ok (SpawnReceipt.fromErr e' r.logs, suffix) := by
        unfold decSpawnReceipt
        rw [decHead chk _ _ _ _ _ _ _ h1 h2 h3 hv, hf, if_neg (by simp),
          Dec.bind_ok (Dec.unwrap_ok hd)]
        rfl
      simp only [List.append_assoc]
      rw [Dec.bind_ok this]
      rfl
  | call r =>
    obtain ⟨b1, r1, h1, g1, rfl⟩ := Enc.seq_eq_some.1 (show encCallReceipt ord r = some bs from h)
    obtain ⟨b2, r2, h2, g2, rfl⟩ := Enc.seq_eq_some.1 g1
    obtain ⟨b3, r3, h3, g3, rfl⟩ := Enc.seq_eq_some.1 g2
    simp only [Receipt.success] at hf
    rw [if_neg (by simp [hf])] at g3
    cases he : r.error with
    | none => rw [he] at g3; cases g3
    | some e =>
      rw [he] at g3
      obtain ⟨e', hc, hd⟩ := decFailure_enc e r.logs r3 suffix g3
      refine ⟨.call (CallReceipt.fromErr e' r.logs), e, e', ?_, rfl, he, rfl, hc, rfl⟩
      have : decCallReceipt chk (b1 ++ (b2 ++ (b3 ++ (r3 ++ suffix))))
          = .ok (CallReceipt.fromErr e' r.logs, suffix) := by
        unfold decCallReceipt
        rw [decHead chk _ _ _ _ _ _ _ h1 h2 h3 hv, hf, if_neg (by simp), Dec.bind_ok hd]
        rfl
      simp only [List.append_assoc]
      rw [Dec.bind_ok this]
      rfl

/-- Every failed deploy receipt loses its logs. -/
theorem C46_deploy_drops_logs (chk : Bool) (ord : Order Addr) (r : DeployReceipt)
    (bs suffix : Bytes) (hf : r.success = false) (hv : r.version = 0)
    (h : encReceipt ord (.deploy r) = some bs) :
    ∃ r', decReceipt chk (bs ++ suffix) = .ok (r', suffix) ∧ r'.logs = [] := by
  obtain ⟨r', e, e', h1, _, _, _, _, h2⟩ := decode_failure chk ord (.deploy r) bs suffix hf (fun _ => hv) h
  exact ⟨r', h1, h2⟩

/-- C46 is violated by the code: failed deploy receipts lose their logs. -/
theorem C46_lossless_false (chk : Bool) : ¬ C46_claim chk := by
  intro h
  have h0 : ∃ bs, encReceipt Order.id (.deploy (DeployReceipt.fromErr .oog [[1]])) = some bs :=
    ⟨_, rfl⟩
  obtain ⟨bs, hb⟩ := h0
  obtain ⟨r', h1, _, _, h2⟩ := h Order.id _ bs [] rfl rfl hb
  obtain ⟨r'', h3, h4⟩ := C46_deploy_drops_logs chk Order.id _ bs [] rfl rfl hb
  rw [h1] at h3
  simp only [Outcome.ok.injEq, Prod.mk.injEq, and_true] at h3
  rw [h3, h4] at h2
  simp [Receipt.logs, DeployReceipt.fromErr] at h2

/-- Every failed call whose error message has more than 255 bytes cannot be encoded at all (the
encoder panics) if the 255th byte is inside a character. -/
theorem C46_long_message_panics (ord : Order Addr) (target template : Addr) (func msg : Str)
    (logs : List Bytes) (hlen : 255 < msg.1.length) (hcut : utf8Valid (msg.1.take 255) = false) :
    encReceipt ord (.call (CallReceipt.fromErr (.funcFailed target template func msg) logs))
      = none := by
  have h1 : encMsg msg = none := by
    unfold encMsg
    rw [if_pos hlen, dif_neg (by simp [hcut])]
  have hs : ∀ x : Enc, x +++ none = none := by intro x; cases x <;> rfl
  unfold encReceipt encCallReceipt CallReceipt.fromErr encOpt encFailure encErrBlob
  simp only [Bool.false_eq_true, if_false, h1, hs]

/-- Non-vacuity: 254 letters followed by a two byte character. -/
example : utf8Valid (List.replicate 254 0x61 ++ [0xC3, 0xA9]) = true ∧
    utf8Valid ((List.replicate 254 (0x61 : UInt8) ++ [0xC3, 0xA9]).take 255) = false := by decide +kernel

/-- Every failed call whose error message has more than 255 bytes and can be encoded comes back with
the message cut to 255 bytes. -/
theorem C46_long_message_cut (chk : Bool) (ord : Order Addr) (target template : Addr)
    (func msg : Str) (logs : List Bytes) (bs suffix : Bytes) (hlen : 255 < msg.1.length)
    (h : encReceipt ord (.call (CallReceipt.fromErr (.funcFailed target template func msg) logs))
      = some bs) :
    ∃ r' msg', decReceipt chk (bs ++ suffix) = .ok (r', suffix) ∧
      r'.error = some (.funcFailed target template func msg') ∧ msg'.1 = msg.1.take 255 := by
  have hcut : cutMsg msg.1 = msg.1.take 255 := if_pos hlen
  -- the encoder accepted the message, so its first 255 bytes are valid
  obtain ⟨b1, r1, h1, g1, rfl⟩ := Enc.seq_eq_some.1 (show encCallReceipt ord _ = some bs from h)
  obtain ⟨b2, r2, h2, g2, rfl⟩ := Enc.seq_eq_some.1 g1
  obtain ⟨b3, r3, h3, g3, rfl⟩ := Enc.seq_eq_some.1 g2
  have g3' : encFailure (.funcFailed target template func msg) logs = some r3 := g3
  obtain ⟨b4, r4, h4, g4, rfl⟩ := Enc.seq_eq_some.1 g3'
  obtain ⟨b5, r5, h5, g5, rfl⟩ := Enc.seq_eq_some.1 g4
  obtain ⟨b6, r6, h6, g6, rfl⟩ := Enc.seq_eq_some.1 g5
  obtain ⟨b7, r7, h7, g7, rfl⟩ := Enc.seq_eq_some.1 g6
  obtain ⟨b8, b9, h8, h9, rfl⟩ := Enc.seq_eq_some.1 g7
  obtain ⟨hv, hm⟩ := decStr_encMsg msg b9 suffix h9
  refine ⟨.call (CallReceipt.fromErr (.funcFailed target template func ⟨cutMsg msg.1, hv⟩) logs),
    ⟨cutMsg msg.1, hv⟩, ?_, rfl, hcut⟩
  rw [decReceipt_dispatch chk ord _ _ suffix h]
  simp only [List.append_assoc]
  have hblob : decErrBlob 6 (b6 ++ (b7 ++ (b8 ++ (b9 ++ suffix))))
      = .ok (.funcFailed target template func ⟨cutMsg msg.1, hv⟩, suffix) := by
    show (do
      let template ← (decArr 20).unwrap
      let target ← (decArr 20).unwrap
      let func ← decStr.unwrap
      let msg ← decStr.unwrap
      return RuntimeError.funcFailed target template func msg : Dec RuntimeError) _ = _
    rw [(roundTrip_arr 20).unwrap.step h6, (roundTrip_arr 20).unwrap.step h7,
      roundTrip_str.unwrap.step h8, Dec.bind_ok (Dec.unwrap_ok hm)]; rfl
  have hfail : decFailure (b4 ++ (b5 ++ (b6 ++ (b7 ++ (b8 ++ (b9 ++ suffix))))))
      = .ok ((.funcFailed target template func ⟨cutMsg msg.1, hv⟩, logs), suffix) := by
    unfold decFailure
    rw [roundTrip_byte.unwrap.step h4, roundTrip_logs.unwrap.step h5]
    have : (RuntimeError.funcFailed target template func msg).code = 6 := rfl
    rw [this, Dec.bind_ok hblob]
    rfl
  have hcall : decCallReceipt chk
      (b1 ++ (b2 ++ (b3 ++ (b4 ++ (b5 ++ (b6 ++ (b7 ++ (b8 ++ (b9 ++ suffix)))))))))
      = .ok (CallReceipt.fromErr (.funcFailed target template func ⟨cutMsg msg.1, hv⟩) logs,
          suffix) := by
    unfold decCallReceipt
    rw [decHead chk _ _ _ _ _ _ _ h1 h2 h3 (fun _ => rfl)]
    show (decFailure >>= _) _ = _
    rw [Dec.bind_ok hfail]
    rfl
  rw [Dec.bind_ok hcall]
  rfl

/-- Errors whose message is not cut by the encoder. -/
def RuntimeError.ShortMessage : RuntimeError → Prop
  | .funcFailed _ _ _ msg => msg.1.length ≤ 255
  | .funcNotAllowed _ _ _ msg => msg.1.length ≤ 255
  | _ => True

/-- C46 for every failed spawn and call, and for failed deploys without logs, whose error message
has at most 255 bytes. Missing: logs of failed deploys and longer messages (see
`C46_deploy_drops_logs`, `C46_long_message_cut`, `C46_long_message_panics`). -/
theorem C46_lossless_partial (chk : Bool) (ord : Order Addr) (r : Receipt) (bs suffix : Bytes)
    (hf : r.success = false) (hv : chk = true → r.version = 0)
    (hd : ∀ d, r = .deploy d → d.logs = [])
    (hm : ∀ e, r.error = some e → e.ShortMessage) (h : encReceipt ord r = some bs) :
    ∃ r', decReceipt chk (bs ++ suffix) = .ok (r', suffix) ∧ r'.success = false ∧
      r'.error = r.error ∧ r'.logs = r.logs := by
  obtain ⟨r', e, e', h1, h2, h3, h4, h5, h6⟩ := decode_failure chk ord r bs suffix hf hv h
  refine ⟨r', h1, h2, ?_, ?_⟩
  · rw [h3, h4]
    have hs := hm e h3
    have key : ∀ (msg msg' : Str), msg.1.length ≤ 255 → msg'.1 = cutMsg msg.1 → msg' = msg := by
      intro msg msg' hle heq
      apply Subtype.ext
      rw [heq]
      exact if_neg (by omega)
    cases h5 with
    | same => rfl
    | failed a t f msg msg' heq => rw [key msg msg' hs heq]
    | notAllowed a t f msg msg' heq => rw [key msg msg' hs heq]
  · rw [h6]
    cases r with
    | deploy d => exact (hd d rfl).symm
    | spawn d => rfl
    | call d => rfl

/-- Non-vacuity: a failed call with a log and a message. -/
example : (Receipt.call (CallReceipt.fromErr
      (.funcFailed demoAddr demoAddr ⟨[0x66], by decide⟩ ⟨[0x6f, 0x68], by decide⟩) [[1, 2]])).success
        = false ∧
    (encReceipt Order.id (.call (CallReceipt.fromErr
      (.funcFailed demoAddr demoAddr ⟨[0x66], by decide⟩ ⟨[0x6f, 0x68], by decide⟩)
        [[1, 2]]))).isSome :=
  ⟨rfl, rfl⟩

end Svm.Codec
