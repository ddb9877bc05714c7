import Verif.Codec.Sections
import Verif.Codec.Messages

/-!
# C145: how much memory the decoding of a message asks for

`MDec` is `Dec` with a count of the memory that is asked for in one piece before it is filled: `vec![0; n]`, `to_vec` and
`with_capacity`, one for each byte or element. Left out is the growth of a `Vec` or `IndexMap` while elements are pushed.
-/

namespace Svm.Codec

open Svm.Layout

/-! ## Model -/

/-- A decoder with the memory that it has asked for. -/
def MDec (α : Type) := Bytes → Nat × Outcome ParseError (α × Bytes)

instance : Monad MDec where
  pure a := fun inp => (0, .ok (a, inp))
  bind d f := fun inp =>
    match d inp with
    | (n, .ok (a, rest)) => (n + (f a rest).1, (f a rest).2)
    | (n, .err e) => (n, .err e)
    | (n, .panic) => (n, .panic)

theorem MDec.bind_apply {α β : Type} (d : MDec α) (f : α → MDec β) (inp : Bytes) : (d >>= f) inp =
    match d inp with
    | (n, .ok (a, rest)) => (n + (f a rest).1, (f a rest).2)
    | (n, .err e) => (n, .err e)
    | (n, .panic) => (n, .panic) := rfl

/-- A decoder that asks for no memory. -/
def MDec.lift {α : Type} (d : Dec α) : MDec α := fun inp => (0, d inp)

/-- Ask for memory. -/
def ask (n : Nat) : MDec Unit := fun inp => (n, .ok ((), inp))

/-- What a decoder returns. -/
def MDec.result {α : Type} (d : MDec α) : Dec α := fun inp => (d inp).2

/-- The memory that the decoding of a message asks for. -/
def MDec.memory {α : Type} (d : MDec α) (inp : Bytes) : Nat := (d inp).1

/-- `read_bytes`, ext.rs:26-30: the buffer is created before it is filled. -/
def readBytesM (n : Nat) : MDec Bytes := do
  ask n
  .lift (readBytes n)

/-- `Codec for [u8; N]`, codec.rs:186-188. -/
def decArrM (n : Nat) : MDec (Arr n) := do
  let bs ← readBytesM n
  if h : bs.length = n then return ⟨bs, h⟩ else .lift Dec.panic

/-- `DataWithPrefix<P>`, codec.rs:116-121. -/
def decDataM (n : Nat) : MDec Bytes := do
  let len ← .lift (decNum n)
  readBytesM len.toNat

/-- `Codec for String`, codec.rs:335-340: `to_vec` copies the bytes. -/
def decStrM : MDec Str := do
  let len ← .lift readByte
  let bs ← readBytesM len.toNat
  ask bs.length
  if h : utf8Valid bs = true then return ⟨bs, h⟩ else .lift (Dec.fail .string)

/-- Reading `n` items. -/
def decManyM {α : Type} (d : MDec α) : Nat → MDec (List α)
  | 0 => pure []
  | n + 1 => do
    let a ← d
    let as ← decManyM d n
    return a :: as

/-- `Envelope::decode`, codec.rs:148-157. -/
def decEnvelopeM : MDec Envelope := do
  let principal ← decArrM 20
  let amount ← .lift (decNum 8)
  let nonce ← .lift (decNum 16)
  let gasLimit ← .lift decGas
  let gasFee ← .lift (decNum 8)
  return { principal, amount, nonce, gasLimit, gasFee }

/-- `Context::decode`, codec.rs:264-271. -/
def decContextM : MDec Context := do
  let txId ← decArrM 32
  let layer ← .lift (decNum 8)
  let state ← decArrM 32
  return { txId, layer, state }

/-- `Transaction::decode`, codec.rs:223-237. -/
def decTransactionM : MDec Transaction := do
  let version ← .lift (decNum 2)
  let target ← decArrM 20
  let funcName ← decStrM
  let verifydata ← decDataM 1
  let calldata ← decDataM 1
  return { version, target, funcName, verifydata, calldata }

/-- `SpawnAccount::decode`, codec.rs:306-322. -/
def decSpawnM : MDec SpawnAccount := do
  let version ← .lift (decNum 2)
  let templateAddr ← decArrM 20
  let name ← decStrM
  let ctorName ← decStrM
  let calldata ← decDataM 1
  return { version, templateAddr, name, ctorName, calldata }

/-- `CodeSection::decode`, section/sections/code.rs:32-40. -/
def decCodeM : MDec CodeSection := do
  let _ ← .lift decCodeKind
  let flags ← .lift (decNum 8)
  let gasMode ← .lift decGasMode
  let svmVersion ← .lift (decNum 4)
  let code ← decDataM 4
  return { code, flags, gasMode, svmVersion }

/-- `CtorsSection::decode`, section/sections/ctors.rs:34-44. -/
def decCtorsM : MDec (List Str) := do
  let n ← .lift readByte
  ask n.toNat
  decManyM decStrM n.toNat

/-- `Layout::decode`, section/sections/data.rs:110-137. -/
def decLayoutM (chk : Bool) : MDec FixedLayout := do
  let _ ← .lift decLayoutKind
  let n ← .lift (decNum 2)
  ask n.toNat
  let (first, sizes) ← (if 0 < n.toNat then do
      let first ← .lift (decNum 4)
      let sizes ← decManyM (.lift decVarSize) n.toNat
      return (first, sizes)
    else return (0, []) : MDec (U32 × List (BitVec 32)))
  match FixedLayout.fromByteSizes chk first sizes with
  | some l => return l
  | none => .lift Dec.panic

/-- `DataSection::decode`, section/sections/data.rs:66-79. -/
def decDataSectionM (chk : Bool) : MDec (List FixedLayout) := do
  let n ← .lift (decNum 2)
  ask n.toNat
  decManyM (decLayoutM chk) n.toNat

/-- `HeaderSection::decode`, section/sections/header.rs:25-31. -/
def decHeaderM : MDec HeaderSection := do
  let codeVersion ← .lift (decNum 4)
  let name ← decStrM
  let desc ← decStrM
  return { codeVersion, name, desc }

/-- `DeploySection::decode`, section/sections/deploy.rs:26-33. -/
def decDeployM : MDec DeploySection := do
  let txId ← decArrM 32
  let layer ← .lift (decNum 8)
  let deployer ← decArrM 20
  let template ← decArrM 20
  return { txId, layer, deployer, template }

/-- `SectionsDecoder::decode_section`, section/decode.rs:73-92. -/
def decSectionM (chk : Bool) : Kind → MDec Section
  | .header => do return .header (← decHeaderM)
  | .code => do return .code (← decCodeM)
  | .data => do return .data (← decDataSectionM chk)
  | .ctors => do return .ctors (← decCtorsM)
  | .schema => .lift Dec.panic
  | .api => .lift Dec.panic
  | .deploy => do return .deploy (← decDeployM)

/-- The loop of `decode_sections`, section/decode.rs:130-141: a section is skipped by reading it. -/
def decSectionsLoopM (chk : Bool) (interests : Option (List Kind)) : Nat → Sections → MDec Sections
  | 0, acc => pure acc
  | n + 1, acc => do
    let kind ← .lift decKind
    let size ← .lift (decNum 4)
    if interested interests kind then do
      let s ← decSectionM chk kind
      decSectionsLoopM chk interests n (Sections.insert s acc)
    else do
      let _ ← readBytesM size.toNat
      decSectionsLoopM chk interests n acc

/-- `template::decode`, template.rs:73-88, with `decode_sections`, section/decode.rs:118-144. -/
def decTemplateM (chk : Bool) (interests : Option (List Kind)) : MDec Sections := do
  let n ← .lift (decNum 2)
  ask n.toNat
  let s ← decSectionsLoopM chk interests n.toNat []
  if s.contains .code && s.contains .data && s.contains .ctors then return s
  else .lift (Dec.fail .invalidSection)

/-! ## The results are those of the model -/

theorem result_pure {α : Type} (a : α) : (pure a : MDec α).result = pure a := rfl

theorem result_lift {α : Type} (d : Dec α) : (MDec.lift d).result = d := rfl

theorem result_bind {α β : Type} (d : MDec α) (f : α → MDec β) :
    (d >>= f).result = d.result >>= fun a => (f a).result := by
  funext inp
  show (match d inp with
    | (n, .ok (a, rest)) => (n + (f a rest).1, (f a rest).2)
    | (n, .err e) => (n, .err e)
    | (n, .panic) => (n, .panic)).2 = (match (d inp).2 with
    | .ok (a, rest) => (f a rest).2
    | .err e => .err e
    | .panic => .panic)
  rcases d inp with ⟨n, _ | _ | _⟩ <;> rfl

theorem result_ask (n : Nat) : (ask n).result = pure () := rfl

theorem Dec.pure_bind {α β : Type} (a : α) (f : α → Dec β) : (pure a >>= f : Dec β) = f a := rfl

theorem Dec.bind_assoc {α β γ : Type} (d : Dec α) (f : α → Dec β) (g : β → Dec γ) :
    (d >>= f) >>= g = d >>= fun a => f a >>= g := by
  funext inp
  show (match (match d inp with
    | .ok (a, rest) => f a rest
    | .err e => .err e
    | .panic => .panic) with
    | .ok (b, rest) => g b rest
    | .err e => .err e
    | .panic => .panic) = (match d inp with
    | .ok (a, rest) => (f a >>= g) rest
    | .err e => .err e
    | .panic => .panic)
  cases d inp <;> rfl

theorem result_readBytes (n : Nat) : (readBytesM n).result = readBytes n := rfl

theorem result_ite {α : Type} (c : Prop) [Decidable c] (a b : MDec α) :
    (if c then a else b).result = if c then a.result else b.result := by
  split <;> rfl

theorem result_dite {α : Type} (c : Prop) [Decidable c] (a : c → MDec α) (b : ¬ c → MDec α) :
    (if h : c then a h else b h).result = if h : c then (a h).result else (b h).result := by
  split <;> rfl

theorem result_arr (n : Nat) : (decArrM n).result = decArr n := by
  unfold decArrM decArr
  simp only [result_bind, result_readBytes, result_dite, result_pure, result_lift]

theorem result_data (n : Nat) : (decDataM n).result = decData n := by
  unfold decDataM decData
  simp only [result_bind, result_readBytes, result_lift]

theorem result_str : decStrM.result = decStr := by
  unfold decStrM decStr
  simp only [result_bind, result_ask, Dec.pure_bind, result_readBytes, result_dite, result_pure, result_lift]

theorem result_many {α : Type} (d : MDec α) : ∀ n, (decManyM d n).result = decMany d.result n
  | 0 => rfl
  | n + 1 => by
    unfold decManyM decMany
    simp only [result_bind, result_pure, result_many d n]

theorem result_envelope : decEnvelopeM.result = decEnvelope := by
  unfold decEnvelopeM decEnvelope
  simp only [result_bind, result_arr, result_pure, result_lift]

theorem result_context : decContextM.result = decContext := by
  unfold decContextM decContext
  simp only [result_bind, result_arr, result_pure, result_lift]

theorem result_transaction : decTransactionM.result = decTransaction := by
  unfold decTransactionM decTransaction
  simp only [result_bind, result_arr, result_str, result_data, result_pure, result_lift]

theorem result_spawn : decSpawnM.result = decSpawn := by
  unfold decSpawnM decSpawn
  simp only [result_bind, result_arr, result_str, result_data, result_pure, result_lift]

theorem result_code : decCodeM.result = decCode := by
  unfold decCodeM decCode
  simp only [result_bind, result_data, result_pure, result_lift]

theorem result_ctors : decCtorsM.result = decCtors := by
  unfold decCtorsM decCtors
  simp only [result_bind, result_ask, Dec.pure_bind, result_many, result_str, result_lift]

theorem result_layout (chk : Bool) : (decLayoutM chk).result = decLayout chk := by
  unfold decLayoutM decLayout
  simp only [result_bind, result_ask, Dec.pure_bind, result_lift, result_ite, result_many, result_pure]
  congr 1
  funext _
  congr 1
  funext n
  congr 1
  funext x
  split
  · rename_i h; rw [h]; rfl
  · rename_i h; rw [h]; rfl

theorem result_dataSection (chk : Bool) : (decDataSectionM chk).result = decDataSection chk := by
  unfold decDataSectionM decDataSection decVec
  simp only [result_bind, result_ask, Dec.pure_bind, result_many, result_layout, result_lift]

theorem result_header : decHeaderM.result = decHeader := by
  unfold decHeaderM decHeader
  simp only [result_bind, result_str, result_pure, result_lift]

theorem result_deploy : decDeployM.result = decDeploy := by
  unfold decDeployM decDeploy
  simp only [result_bind, result_arr, result_pure, result_lift]

theorem result_section (chk : Bool) (k : Kind) : (decSectionM chk k).result = decSection chk k := by
  cases k <;> simp only [decSectionM, decSection, result_bind, result_pure, result_lift, result_header, result_code,
    result_dataSection, result_ctors, result_deploy]

theorem result_loop (chk : Bool) (interests : Option (List Kind)) : ∀ (n : Nat) (acc : Sections),
    (decSectionsLoopM chk interests n acc).result = decSectionsLoop chk interests n acc
  | 0, _ => rfl
  | n + 1, acc => by
    unfold decSectionsLoopM decSectionsLoop
    simp only [result_bind, result_ite, result_lift, result_section, result_readBytes, result_loop chk interests n]

/-- The decoder that counts returns what the decoder returns. -/
theorem result_template (chk : Bool) (interests : Option (List Kind)) :
    (decTemplateM chk interests).result = decTemplate chk interests := by
  unfold decTemplateM decTemplate decSections
  simp only [result_bind, result_ask, Dec.pure_bind, Dec.bind_assoc, result_ite, result_lift, result_loop, result_pure]

/-! ## What is asked for is read, or the decoding ends -/

/-- A decoder that succeeds has asked for at most four times what it has read, less `s`; whatever it returns, it has asked
for at most four times what there is to read, and `c`. -/
structure Frugal {α : Type} (s c : Nat) (d : MDec α) : Prop where
  ok : ∀ inp a rest, (d inp).2 = .ok (a, rest) → (d inp).1 + s + 4 * rest.length ≤ 4 * inp.length
  any : ∀ inp, (d inp).1 ≤ 4 * inp.length + c

theorem Frugal.mono {α : Type} {s s' c c' : Nat} {d : MDec α} (h : Frugal s c d) (hs : s' ≤ s) (hc : c ≤ c') :
    Frugal s' c' d :=
  ⟨fun inp a rest hr => by have := h.ok inp a rest hr; omega, fun inp => by have := h.any inp; omega⟩

theorem Frugal.pure {α : Type} (a : α) (c : Nat) : Frugal 0 c (pure a : MDec α) := by
  refine ⟨fun inp b rest h => ?_, fun inp => Nat.zero_le _⟩
  cases h
  show 0 + 0 + _ ≤ _
  omega

theorem Frugal.bind {α β : Type} {s s' c : Nat} {d : MDec α} {f : α → MDec β} (hd : Frugal s c d)
    (hf : ∀ a, Frugal s' c (f a)) : Frugal (s + s') c (d >>= f) := by
  have key : ∀ inp, (d >>= f) inp = (match d inp with
    | (n, .ok (a, rest)) => (n + (f a rest).1, (f a rest).2)
    | (n, .err e) => (n, .err e)
    | (n, .panic) => (n, .panic)) := fun _ => rfl
  refine ⟨fun inp b rest h => ?_, fun inp => ?_⟩
  · rw [key] at h ⊢
    rcases hx : d inp with ⟨n, ⟨a, r⟩ | e | _⟩
    · rw [hx] at h
      have h1 := hd.ok inp a r (by rw [hx])
      have h2 := (hf a).ok r b rest h
      rw [hx] at h1
      dsimp only at h1 ⊢
      omega
    · rw [hx] at h; cases h
    · rw [hx] at h; cases h
  · rw [key]
    have h0 := hd.any inp
    rcases hx : d inp with ⟨n, ⟨a, r⟩ | e | _⟩
    · have h1 := hd.ok inp a r (by rw [hx])
      have h2 := (hf a).any r
      rw [hx] at h1
      dsimp only at h1 ⊢
      omega
    · rw [hx] at h0; exact h0
    · rw [hx] at h0; exact h0

theorem Frugal.step {α β : Type} {s s' c c' : Nat} {d : MDec α} {f : α → MDec β} (hd : Frugal s c' d) (hc : c' ≤ c)
    (hf : ∀ a, Frugal s' c (f a)) : Frugal s' c (d >>= f) :=
  ((hd.mono (Nat.le_refl _) hc).bind hf).mono (Nat.le_add_left _ _) (Nat.le_refl _)

/-- Memory for `n` elements, if at least as much is read afterwards. -/
theorem Frugal.ask {β : Type} {s c : Nat} {n : Nat} {f : Unit → MDec β} (hf : Frugal (n + s) c (f ())) :
    Frugal s (c + n) (ask n >>= f) := by
  have key : ∀ inp, (Svm.Codec.ask n >>= f) inp = (n + (f () inp).1, (f () inp).2) := fun _ => rfl
  refine ⟨fun inp b rest h => ?_, fun inp => ?_⟩
  · rw [key] at h ⊢
    have := hf.ok inp b rest h
    dsimp only
    omega
  · rw [key]
    have := hf.any inp
    dsimp only
    omega

theorem Frugal.fail {α : Type} (s c : Nat) (e : ParseError) : Frugal s c (MDec.lift (Dec.fail e) : MDec α) :=
  ⟨fun inp a rest h => (by cases h), fun inp => Nat.zero_le _⟩

theorem Frugal.panic {α : Type} (s c : Nat) : Frugal s c (MDec.lift Dec.panic : MDec α) :=
  ⟨fun inp a rest h => (by cases h), fun inp => Nat.zero_le _⟩

theorem Frugal.ite {α : Type} {s c : Nat} {p : Prop} [Decidable p] {a b : MDec α} (ha : Frugal s c a)
    (hb : Frugal s c b) : Frugal s c (if p then a else b) := by
  split
  · exact ha
  · exact hb

theorem Frugal.dite {α : Type} {s c : Nat} {p : Prop} [Decidable p] {a : p → MDec α} {b : ¬ p → MDec α}
    (ha : ∀ h, Frugal s c (a h)) (hb : ∀ h, Frugal s c (b h)) : Frugal s c (if h : p then a h else b h) := by
  split
  · exact ha _
  · exact hb _

/-- A decoder without memory that reads at least `k` bytes. -/
theorem Frugal.lift {α : Type} {k : Nat} {d : Dec α} (c : Nat)
    (h : ∀ inp a rest, d inp = .ok (a, rest) → k + rest.length ≤ inp.length) : Frugal (4 * k) c (MDec.lift d) :=
  ⟨fun inp a rest hr => by
    have := h inp a rest hr
    show 0 + _ + _ ≤ _
    omega, fun inp => Nat.zero_le _⟩

theorem readBytes_length {n : Nat} {inp bs rest : Bytes} (h : readBytes n inp = .ok (bs, rest)) :
    n + rest.length = inp.length ∧ bs.length = n := by
  unfold readBytes at h
  split at h
  · cases h
    simp
    omega
  · cases h

theorem decNum_length {n : Nat} {inp rest : Bytes} {x : BitVec (8 * n)} (h : decNum n inp = .ok (x, rest)) :
    n + rest.length = inp.length := by
  obtain ⟨bs, r, h1, h2⟩ := Dec.bind_eq_ok h
  cases h2
  exact (readBytes_length h1).1

theorem frugal_num (n c : Nat) : Frugal (4 * n) c (MDec.lift (decNum n)) :=
  Frugal.lift c fun _ _ _ h => Nat.le_of_eq (decNum_length h)

theorem frugal_byte (c : Nat) : Frugal 4 c (MDec.lift readByte) := by
  refine Frugal.lift (k := 1) c fun inp a rest h => ?_
  cases inp with
  | nil => cases h
  | cons b inp =>
    cases h
    simp only [List.length_cons]
    omega

/-- Decoders that read a number first and then nothing. -/
theorem frugal_num_then {α : Type} (n c : Nat) (f : BitVec (8 * n) → Dec α)
    (hf : ∀ x inp a rest, f x inp = .ok (a, rest) → rest = inp) : Frugal (4 * n) c (MDec.lift (decNum n >>= f)) := by
  refine Frugal.lift c fun inp a rest h => ?_
  obtain ⟨x, r, h1, h2⟩ := Dec.bind_eq_ok h
  rw [hf x r a rest h2]
  exact Nat.le_of_eq (decNum_length h1)

theorem frugal_gas (c : Nat) : Frugal 32 c (MDec.lift decGas) := by
  refine frugal_num_then 8 c _ fun x inp a rest h => ?_
  split at h <;> cases h <;> rfl

theorem frugal_kind (c : Nat) : Frugal 8 c (MDec.lift decKind) := by
  refine frugal_num_then 2 c _ fun x inp a rest h => ?_
  repeat' split at h
  all_goals cases h
  all_goals rfl

theorem frugal_codeKind (c : Nat) : Frugal 8 c (MDec.lift decCodeKind) := by
  refine frugal_num_then 2 c _ fun x inp a rest h => ?_
  split at h <;> cases h
  rfl

theorem frugal_layoutKind (c : Nat) : Frugal 8 c (MDec.lift decLayoutKind) := by
  refine frugal_num_then 2 c _ fun x inp a rest h => ?_
  split at h <;> cases h
  rfl

theorem frugal_gasMode (c : Nat) : Frugal 32 c (MDec.lift decGasMode) := by
  refine frugal_num_then 8 c _ fun x inp a rest h => ?_
  split at h <;> cases h
  rfl

theorem frugal_varSize (c : Nat) : Frugal 8 c (MDec.lift decVarSize) := by
  refine frugal_num_then 2 c _ fun x inp a rest h => ?_
  cases h
  rfl

theorem frugal_bytes (n : Nat) : Frugal (3 * n) n (readBytesM n) := by
  refine ⟨fun inp a rest h => ?_, fun inp => ?_⟩
  · have := (readBytes_length h).1
    show n + 0 + _ + _ ≤ _
    omega
  · show n + 0 ≤ _
    omega

theorem frugal_arr (n : Nat) : Frugal 0 n (decArrM n) := by
  refine ((frugal_bytes n).bind (s' := 0) (fun bs => ?_)).mono (by omega) (Nat.le_refl _)
  exact Frugal.dite (fun h => Frugal.pure _ _) (fun h => Frugal.panic _ _)

theorem frugal_data (n : Nat) : Frugal 0 (256 ^ n - 1) (decDataM n) := by
  refine ((frugal_num n _).bind (s' := 0) (fun len => ?_)).mono (by omega) (Nat.le_refl _)
  refine (frugal_bytes _).mono (by omega) ?_
  have := len.isLt
  rw [Nat.pow_mul] at this
  have h : (2 ^ 8 : Nat) = 256 := rfl
  rw [h] at this
  omega

theorem frugal_str : Frugal 4 510 decStrM := by
  refine ((frugal_byte _).bind (s' := 0) (fun len => ?_)).mono (by omega) (Nat.le_refl _)
  -- reading and copying
  have key : ∀ inp, (readBytesM len.toNat >>= fun bs => (ask bs.length >>= fun _ =>
      if h : utf8Valid bs = true then (pure ⟨bs, h⟩ : MDec Str) else .lift (Dec.fail .string))) inp =
      (match readBytes len.toNat inp with
        | .ok (bs, rest) => (len.toNat + bs.length, if h : utf8Valid bs = true then .ok (⟨bs, h⟩, rest) else .err .string)
        | .err e => (len.toNat, .err e)
        | .panic => (len.toNat, .panic)) := by
    intro inp
    have h0 : readBytesM len.toNat inp = (len.toNat, readBytes len.toNat inp) := rfl
    rw [MDec.bind_apply]
    rw [h0]
    rcases hx : readBytes len.toNat inp with ⟨bs, rest⟩ | e | _
    · by_cases h : utf8Valid bs = true
      · simp only [h, dite_true]; rfl
      · simp only [h]; rfl
    · rfl
    · rfl
  have hlt : len.toNat < 256 := len.toNat_lt
  refine ⟨fun inp a rest h => ?_, fun inp => ?_⟩
  · rw [key] at h ⊢
    rcases hx : readBytes len.toNat inp with ⟨bs, r⟩ | e | _
    · rw [hx] at h
      obtain ⟨h1, h2⟩ := readBytes_length hx
      by_cases hv : utf8Valid bs = true
      · simp only [hv, dite_true] at h
        cases h
        dsimp only
        omega
      · simp only [hv] at h
        cases h
    · rw [hx] at h; cases h
    · rw [hx] at h; cases h
  · rw [key]
    rcases hx : readBytes len.toNat inp with ⟨bs, r⟩ | e | _
    · obtain ⟨h1, h2⟩ := readBytes_length hx
      dsimp only
      omega
    · dsimp only; omega
    · dsimp only; omega

theorem Frugal.many {α : Type} {s c : Nat} {d : MDec α} (h : Frugal s c d) : ∀ n, Frugal (n * s) c (decManyM d n)
  | 0 => (Frugal.pure _ _).mono (by omega) (Nat.le_refl _)
  | n + 1 => by
    unfold decManyM
    refine (h.bind (s' := n * s) (fun a => ?_)).mono (by rw [Nat.succ_mul]; omega) (Nat.le_refl _)
    exact ((h.many n).bind (s' := 0) (fun as => Frugal.pure _ _)).mono (by omega) (Nat.le_refl _)

/-! ## Messages -/

theorem frugal_envelope : Frugal 0 20 decEnvelopeM := by
  refine Frugal.step (frugal_arr 20) (by decide) fun _ => ?_
  refine Frugal.step (frugal_num 8 0) (by decide) fun _ => ?_
  refine Frugal.step (frugal_num 16 0) (by decide) fun _ => ?_
  refine Frugal.step (frugal_gas 0) (by decide) fun _ => ?_
  refine Frugal.step (frugal_num 8 0) (by decide) fun _ => ?_
  exact Frugal.pure _ _

theorem frugal_context : Frugal 0 32 decContextM := by
  refine Frugal.step (frugal_arr 32) (by decide) fun _ => ?_
  refine Frugal.step (frugal_num 8 0) (by decide) fun _ => ?_
  refine Frugal.step (frugal_arr 32) (by decide) fun _ => ?_
  exact Frugal.pure _ _

theorem frugal_transaction : Frugal 0 510 decTransactionM := by
  refine Frugal.step (frugal_num 2 0) (by decide) fun _ => ?_
  refine Frugal.step (frugal_arr 20) (by decide) fun _ => ?_
  refine Frugal.step (frugal_str) (by decide) fun _ => ?_
  refine Frugal.step (frugal_data 1) (by decide) fun _ => ?_
  refine Frugal.step (frugal_data 1) (by decide) fun _ => ?_
  exact Frugal.pure _ _

theorem frugal_spawn : Frugal 0 510 decSpawnM := by
  refine Frugal.step (frugal_num 2 0) (by decide) fun _ => ?_
  refine Frugal.step (frugal_arr 20) (by decide) fun _ => ?_
  refine Frugal.step (frugal_str) (by decide) fun _ => ?_
  refine Frugal.step (frugal_str) (by decide) fun _ => ?_
  refine Frugal.step (frugal_data 1) (by decide) fun _ => ?_
  exact Frugal.pure _ _

/-! ## Templates -/

theorem frugal_code : Frugal 0 (2 ^ 32 - 1) decCodeM := by
  refine Frugal.step (frugal_codeKind 0) (by decide) fun _ => ?_
  refine Frugal.step (frugal_num 8 0) (by decide) fun _ => ?_
  refine Frugal.step (frugal_gasMode 0) (by decide) fun _ => ?_
  refine Frugal.step (frugal_num 4 0) (by decide) fun _ => ?_
  refine Frugal.step (frugal_data 4) (by decide) fun _ => ?_
  exact Frugal.pure _ _

theorem frugal_ctors : Frugal 0 (510 + 255) decCtorsM := by
  refine (Frugal.bind (s' := 0) (frugal_byte _) fun n => ?_).mono (by omega) (Nat.le_refl _)
  have hlt : n.toNat < 256 := n.toNat_lt
  refine (Frugal.ask (c := 510) ?_).mono (Nat.le_refl _) (by omega)
  exact (frugal_str.many n.toNat).mono (by omega) (Nat.le_refl _)

theorem num2_le (n : U16) : n.toNat ≤ 65535 := by
  have := n.isLt
  omega

theorem frugal_layout (chk : Bool) : Frugal 8 65535 (decLayoutM chk) := by
  refine (Frugal.bind (s' := 0) (frugal_layoutKind _) fun _ => ?_).mono (by omega) (Nat.le_refl _)
  refine (Frugal.bind (s' := 0) (frugal_num 2 _) fun n => ?_).mono (by omega) (Nat.le_refl _)
  refine (Frugal.ask (c := 0) ?_).mono (Nat.le_refl _) (by have := num2_le n; omega)
  refine (Frugal.bind (s := n.toNat) (s' := 0) ?_ fun x => ?_).mono (by omega) (Nat.le_refl _)
  · by_cases h : 0 < n.toNat
    · rw [if_pos h]
      refine (Frugal.bind (s' := n.toNat) (frugal_num 4 _) fun _ => ?_).mono (by omega) (Nat.le_refl _)
      refine (Frugal.bind (s' := 0) ((frugal_varSize 0).many n.toNat) fun _ => ?_).mono (by omega) (Nat.le_refl _)
      exact Frugal.pure _ _
    · rw [if_neg h]
      exact (Frugal.pure _ _).mono (by omega) (Nat.le_refl _)
  · obtain ⟨first, sizes⟩ := x
    dsimp only
    split
    · exact Frugal.pure _ _
    · exact Frugal.panic _ _

theorem frugal_dataSection (chk : Bool) : Frugal 0 (65535 + 65535) (decDataSectionM chk) := by
  refine (Frugal.bind (s' := 0) (frugal_num 2 _) fun n => ?_).mono (by omega) (Nat.le_refl _)
  refine (Frugal.ask (c := 65535) ?_).mono (Nat.le_refl _) (by have := num2_le n; omega)
  exact ((frugal_layout chk).many n.toNat).mono (by omega) (Nat.le_refl _)

theorem frugal_header : Frugal 0 510 decHeaderM := by
  refine Frugal.step (frugal_num 4 0) (by decide) fun _ => ?_
  refine Frugal.step (frugal_str) (by decide) fun _ => ?_
  refine Frugal.step (frugal_str) (by decide) fun _ => ?_
  exact Frugal.pure _ _

theorem frugal_deploy : Frugal 0 32 decDeployM := by
  refine Frugal.step (frugal_arr 32) (by decide) fun _ => ?_
  refine Frugal.step (frugal_num 8 0) (by decide) fun _ => ?_
  refine Frugal.step (frugal_arr 20) (by decide) fun _ => ?_
  refine Frugal.step (frugal_arr 20) (by decide) fun _ => ?_
  exact Frugal.pure _ _

theorem frugal_section (chk : Bool) (k : Kind) : Frugal 0 (2 ^ 32 - 1) (decSectionM chk k) := by
  cases k
  case code => exact Frugal.step frugal_code (Nat.le_refl _) fun _ => Frugal.pure _ _
  case data => exact Frugal.step (frugal_dataSection chk) (by decide) fun _ => Frugal.pure _ _
  case ctors => exact Frugal.step frugal_ctors (by decide) fun _ => Frugal.pure _ _
  case schema => exact Frugal.panic _ _
  case api => exact Frugal.panic _ _
  case header => exact Frugal.step frugal_header (by decide) fun _ => Frugal.pure _ _
  case deploy => exact Frugal.step frugal_deploy (by decide) fun _ => Frugal.pure _ _

theorem frugal_loop (chk : Bool) (interests : Option (List Kind)) : ∀ (n : Nat) (acc : Sections),
    Frugal n (2 ^ 32 - 1) (decSectionsLoopM chk interests n acc)
  | 0, acc => Frugal.pure _ _
  | n + 1, acc => by
    unfold decSectionsLoopM
    refine (Frugal.bind (s' := n) (frugal_kind _) fun kind => ?_).mono (by omega) (Nat.le_refl _)
    refine (Frugal.bind (s' := n) (frugal_num 4 _) fun size => ?_).mono (by omega) (Nat.le_refl _)
    refine Frugal.ite ?_ ?_
    · exact (Frugal.bind (s' := n) (frugal_section chk kind) fun s => frugal_loop chk interests n _).mono (by omega)
        (Nat.le_refl _)
    · refine (Frugal.bind (s' := n) ((frugal_bytes size.toNat).mono (Nat.zero_le _) ?_) fun _ =>
        frugal_loop chk interests n acc).mono (by omega) (Nat.le_refl _)
      have := size.isLt
      omega

theorem frugal_template (chk : Bool) (interests : Option (List Kind)) :
    Frugal 0 (2 ^ 32 - 1 + 65535) (decTemplateM chk interests) := by
  refine (Frugal.bind (s' := 0) (frugal_num 2 _) fun n => ?_).mono (by omega) (Nat.le_refl _)
  refine (Frugal.ask (c := 2 ^ 32 - 1) ?_).mono (Nat.le_refl _) (by have := num2_le n; omega)
  refine (Frugal.bind (s' := 0) (frugal_loop chk interests n.toNat []) fun s => ?_).mono (by omega) (Nat.le_refl _)
  exact Frugal.ite (Frugal.pure _ _) (Frugal.fail _ _ _)

/-! ## C145 -/

/-- **C145** Decoding a message asks for at most eight times the length of the message, and a million bytes. -/
def C145_claim : Prop := ∀ (chk : Bool) (interests : Option (List Kind)) (msg : Bytes),
  decEnvelopeM.memory msg ≤ 8 * msg.length + 1000000 ∧ decContextM.memory msg ≤ 8 * msg.length + 1000000 ∧
  decTransactionM.memory msg ≤ 8 * msg.length + 1000000 ∧ decSpawnM.memory msg ≤ 8 * msg.length + 1000000 ∧
  (decTemplateM chk interests).memory msg ≤ 8 * msg.length + 1000000

/-- Envelopes, contexts, calls and spawns: at most four times the length and 510 bytes. Missing for C145: templates. -/
theorem C145_messages_partial (msg : Bytes) :
    decEnvelopeM.memory msg ≤ 4 * msg.length + 510 ∧ decContextM.memory msg ≤ 4 * msg.length + 510 ∧
    decTransactionM.memory msg ≤ 4 * msg.length + 510 ∧ decSpawnM.memory msg ≤ 4 * msg.length + 510 :=
  ⟨(frugal_envelope.mono (Nat.le_refl _) (by omega)).any msg, (frugal_context.mono (Nat.le_refl _) (by omega)).any msg,
    frugal_transaction.any msg, frugal_spawn.any msg⟩

/-- Templates that are decoded successfully: at most four times the length of the message. Missing for C145: messages that
are rejected. -/
theorem C145_accepted_partial (chk : Bool) (interests : Option (List Kind)) (msg rest : Bytes) (s : Sections)
    (h : decTemplate chk interests msg = .ok (s, rest)) : (decTemplateM chk interests).memory msg ≤ 4 * msg.length := by
  have := (frugal_template chk interests).ok msg s rest (by
    rw [← result_template] at h
    exact h)
  show ((decTemplateM chk interests) msg).1 ≤ _
  omega

/-- All messages: four times the length, 4 GiB and 64 K. -/
theorem C145_bound (chk : Bool) (interests : Option (List Kind)) (msg : Bytes) :
    (decTemplateM chk interests).memory msg < 4 * msg.length + 2 ^ 32 + 2 ^ 16 := by
  have := (frugal_template chk interests).any msg
  show ((decTemplateM chk interests) msg).1 < _
  omega

theorem readBytesM_memory (n : Nat) (inp : Bytes) : (readBytesM n inp).1 = n := rfl

theorem ask_memory {β : Type} (n : Nat) (f : Unit → MDec β) (inp : Bytes) :
    ((ask n >>= f) inp).1 = n + (f () inp).1 := rfl

/-- A message that ends at the length of its code: one section, which is a code section for Wasm with fixed gas. -/
def greedy (n : Nat) : Bytes :=
  natBE 2 1 ++ (natBE 2 1 ++ (natBE 4 0 ++ (natBE 2 1 ++ (natBE 8 0 ++ (natBE 8 1 ++ (natBE 4 0 ++ (natBE 4 n ++ [])))))))

theorem lift_memory {α β : Type} {d : Dec α} {f : α → MDec β} {inp rest : Bytes} {a : α} (hd : d inp = .ok (a, rest)) :
    ((MDec.lift d >>= f) inp).1 = (f a rest).1 := by
  rw [MDec.bind_apply]
  show (match (0, d inp) with
    | (n, .ok (a, rest)) => (n + (f a rest).1, (f a rest).2)
    | (n, .err e) => (n, .err e)
    | (n, .panic) => (n, .panic)).1 = _
  rw [hd]
  exact Nat.zero_add _

theorem memory_le_bind {α β : Type} (d : MDec α) (f : α → MDec β) (inp : Bytes) : (d inp).1 ≤ ((d >>= f) inp).1 := by
  rw [MDec.bind_apply]
  rcases d inp with ⟨m, ⟨a, rest⟩ | e | _⟩
  · exact Nat.le_add_right _ _
  · exact Nat.le_refl _
  · exact Nat.le_refl _

theorem decNum_natBE (k x : Nat) (rest : Bytes) (hx : x < 2 ^ (8 * k)) :
    decNum k (natBE k x ++ rest) = .ok (BitVec.ofNat _ x, rest) := by
  refine roundTrip_num k (BitVec.ofNat _ x) (natBE k x) rest ?_
  unfold encNum
  rw [BitVec.toNat_ofNat, Nat.mod_eq_of_lt hx]

theorem decKind_code {i r : Bytes} (h : decNum 2 i = .ok (1, r)) : decKind i = .ok (.code, r) := by
  unfold decKind
  rw [Dec.bind_ok h]
  rfl

theorem decCodeKind_wasm {i r : Bytes} (h : decNum 2 i = .ok (1, r)) : decCodeKind i = .ok ((), r) := by
  unfold decCodeKind
  rw [Dec.bind_ok h]
  rfl

theorem decGasMode_fixed {i r : Bytes} (h : decNum 8 i = .ok (1, r)) : decGasMode i = .ok (.fixed, r) := by
  unfold decGasMode
  rw [Dec.bind_ok h]
  rfl

theorem decDataM_memory {i r : Bytes} {len : BitVec (8 * 4)} (h : decNum 4 i = .ok (len, r)) :
    (decDataM 4 i).1 = len.toNat := by
  unfold decDataM
  rw [lift_memory h, readBytesM_memory]

theorem decCodeM_memory {i0 i1 i2 i3 i4 i5 : Bytes} {f : BitVec (8 * 8)} {v len : BitVec (8 * 4)}
    (h0 : decNum 2 i0 = .ok (1, i1)) (h1 : decNum 8 i1 = .ok (f, i2)) (h2 : decNum 8 i2 = .ok (1, i3))
    (h3 : decNum 4 i3 = .ok (v, i4)) (h4 : decNum 4 i4 = .ok (len, i5)) : len.toNat ≤ (decCodeM i0).1 := by
  unfold decCodeM
  rw [lift_memory (decCodeKind_wasm h0), lift_memory h1, lift_memory (decGasMode_fixed h2), lift_memory h3]
  exact Nat.le_trans (Nat.le_of_eq (decDataM_memory h4).symm) (memory_le_bind _ _ _)

theorem decSectionsLoopM_memory (chk : Bool) (interests : Option (List Kind)) (h : interested interests .code = true)
    {i0 i1 i2 : Bytes} {size : BitVec (8 * 4)} (n : Nat) (acc : Sections) (h0 : decNum 2 i0 = .ok (1, i1))
    (h1 : decNum 4 i1 = .ok (size, i2)) : (decCodeM i2).1 ≤ (decSectionsLoopM chk interests (n + 1) acc i0).1 := by
  unfold decSectionsLoopM
  rw [lift_memory (decKind_code h0), lift_memory h1, if_pos h]
  refine Nat.le_trans ?_ (memory_le_bind _ _ _)
  show (decCodeM i2).1 ≤ ((decCodeM >>= fun s => pure (Section.code s)) i2).1
  exact memory_le_bind _ _ _

theorem decTemplateM_memory (chk : Bool) (interests : Option (List Kind)) {i0 i1 : Bytes} {n : BitVec (8 * 2)}
    {m : Nat} (hm : n.toNat = m) (h0 : decNum 2 i0 = .ok (n, i1)) :
    (decSectionsLoopM chk interests m [] i1).1 ≤ (decTemplateM chk interests).memory i0 := by
  subst hm
  show _ ≤ (decTemplateM chk interests i0).1
  unfold decTemplateM
  rw [lift_memory h0, ask_memory]
  exact Nat.le_trans (memory_le_bind _ _ _) (Nat.le_add_left _ _)

/-- Whatever number below 2^32 a message of 34 bytes contains, that is how much memory its decoding asks for. -/
theorem C145_greedy (chk : Bool) (interests : Option (List Kind)) (h : interested interests .code = true) (n : Nat)
    (hn : n < 2 ^ 32) : (greedy n).length = 34 ∧ n ≤ (decTemplateM chk interests).memory (greedy n) := by
  constructor
  · unfold greedy
    simp only [List.length_append, natBE_length, List.length_nil]
  · have small : ∀ k : Nat, 0 < k → 1 < 2 ^ (8 * k) := fun k hk => Nat.one_lt_two_pow (by omega)
    have one : (BitVec.ofNat (8 * 2) 1).toNat = 1 := rfl
    have h3 := decCodeM_memory (decNum_natBE 2 1 _ (small 2 (by decide))) (decNum_natBE 8 0 _ (Nat.two_pow_pos _))
      (decNum_natBE 8 1 _ (small 8 (by decide))) (decNum_natBE 4 0 _ (Nat.two_pow_pos _)) (decNum_natBE 4 n [] hn)
    rw [BitVec.toNat_ofNat, Nat.mod_eq_of_lt hn] at h3
    refine Nat.le_trans h3 ?_
    refine Nat.le_trans (decSectionsLoopM_memory chk interests h 0 [] (decNum_natBE 2 1 _ (small 2 (by decide)))
      (decNum_natBE 4 0 _ (Nat.two_pow_pos _))) ?_
    exact decTemplateM_memory chk interests (m := 1) one (decNum_natBE 2 1 _ (small 2 (by decide)))

theorem C145_claim_false : ¬ C145_claim := by
  intro h
  obtain ⟨h1, h2⟩ := C145_greedy true none rfl (2 ^ 32 - 1) (by decide)
  have := (h true none (greedy (2 ^ 32 - 1))).2.2.2.2
  rw [h1] at this
  omega

/-- A message with the three sections that a template needs. -/
def modest : Bytes := [0, 3, 0, 1, 0, 0, 0, 28, 0, 1, 0, 0, 0, 0, 0, 0, 0, 0, 0, 0, 0, 0, 0, 0, 0, 1, 0, 0, 0, 0, 0, 0, 0, 2,
  7, 7, 0, 2, 0, 0, 0, 2, 0, 0, 0, 3, 0, 0, 0, 4, 1, 2, 97, 98]

/-- Non-vacuity of `C145_accepted_partial`. -/
example : (match decTemplate true none modest with | .ok (_, []) => true | _ => false) = true ∧
    (decTemplateM true none).memory modest = 10 := by decide +kernel

/-- A call with two pieces of data. -/
example : decTransactionM.memory ([0, 0] ++ List.replicate 20 1 ++ [2, 97, 98] ++ [1, 5] ++ [3, 6, 6, 6]) = 28 := by
  decide +kernel

/-- A layout with 65535 variables, none of which is there. -/
example : (decLayoutM true).memory [0, 1, 255, 255] = 65535 := by decide +kernel

end Svm.Codec
