import Verif.Codec.Messages
import Verif.Layout

/-!
# Model of the template and sections codecs

`crates/host/codec/src/section/*`, `crates/host/codec/src/template.rs` and the section types of
`crates/host/types/src/template/*`.

The parameter `chk` says whether overflow checks are compiled in (see `Svm.Layout.addW`).
-/

namespace Svm.Codec

open Svm.Layout (FixedLayout RawVar)

/-- `SectionKind`, types/src/template/section.rs:189-211. -/
inductive Kind where
  | header | code | data | ctors | schema | api | deploy
  deriving DecidableEq, Repr

/-- The numbers of codec.rs:399-405. -/
def Kind.num : Kind → U16
  | .code => 1 | .data => 2 | .ctors => 3 | .schema => 4 | .api => 5 | .header => 6 | .deploy => 7

/-- `Codec for SectionKind`, codec.rs:410-421. -/
def encKind (k : Kind) : Enc := encNum 2 k.num

/-- `Codec for SectionKind`, codec.rs:423-434. -/
def decKind : Dec Kind := do
  let n ← decNum 2
  if n = 1 then return .code else if n = 2 then return .data else if n = 3 then return .ctors
  else if n = 4 then return .schema else if n = 5 then return .api
  else if n = 6 then return .header else if n = 7 then return .deploy
  else Dec.fail .invalidSection

/-- `GasMode`, types/src/gas/mod.rs:9-17. -/
inductive GasMode where
  | fixed | metering
  deriving DecidableEq, Repr

/-- `CodeSection`, types/src/template/code.rs:5-13. `CodeKind` has one value and is left out. -/
structure CodeSection where
  code : Bytes
  flags : U64
  gasMode : GasMode
  svmVersion : U32
  deriving DecidableEq

/-- `Codec for GasMode`, section/sections/code.rs:63-68: metering is `todo!()`. -/
def encGasMode : GasMode → Enc
  | .fixed => encNum 8 1
  | .metering => none

/-- `Codec for GasMode`, section/sections/code.rs:70-75: anything but 1 is `unreachable!()`. -/
def decGasMode : Dec GasMode := do
  let n ← decNum 8
  if n = 1 then return .fixed else Dec.panic

/-- `Codec for CodeKind`, section/sections/code.rs:46-50. -/
def encCodeKind : Enc := encNum 2 1

/-- `Codec for CodeKind`, section/sections/code.rs:52-57. -/
def decCodeKind : Dec Unit := do
  let n ← decNum 2
  if n = 1 then return () else Dec.fail .invalidSection

/-- `CodeSection::encode`, section/sections/code.rs:24-30. -/
def encCode (s : CodeSection) : Enc :=
  encCodeKind +++ encNum 8 s.flags +++ encGasMode s.gasMode +++ encNum 4 s.svmVersion +++
    encData 4 s.code

/-- `CodeSection::decode`, section/sections/code.rs:32-40. -/
def decCode : Dec CodeSection := do
  let _ ← decCodeKind
  let flags ← decNum 8
  let gasMode ← decGasMode
  let svmVersion ← decNum 4
  let code ← decData 4
  return { code, flags, gasMode, svmVersion }

/-- `CtorsSection::encode`, section/sections/ctors.rs:20-32. -/
def encCtors (ctors : List Str) : Enc :=
  if ctors.length < 255 then encByte (UInt8.ofNat ctors.length) +++ encMany encStr ctors else none

/-- `CtorsSection::decode`, section/sections/ctors.rs:34-44. -/
def decCtors : Dec (List Str) := do
  let n ← readByte
  decMany decStr n.toNat

/-- `Codec for LayoutKind`, section/sections/data.rs:143-148. -/
def encLayoutKind : Enc := encNum 2 1

/-- `Codec for LayoutKind`, section/sections/data.rs:150-155: anything but 1 is `unreachable!()`. -/
def decLayoutKind : Dec Unit := do
  let n ← decNum 2
  if n = 1 then return () else Dec.panic

/-- `var.byte_size as u16`, section/sections/data.rs:103: keeps the low 16 bits. -/
def encVarSize (v : RawVar) : Enc := encNum 2 (v.byteSize.setWidth 16)

/-- `decode_var_byte_size`, section/sections/data.rs:158-160. -/
def decVarSize : Dec (BitVec 32) := do
  let n ← decNum 2
  return n.setWidth 32

/-- `Layout::encode`, section/sections/data.rs:85-108. `first()` unwraps (fixed.rs:81-83). -/
def encLayout (l : FixedLayout) : Enc :=
  encLayoutKind +++
    (if l.vars.length < 65535 then encNum 2 (BitVec.ofNat _ l.vars.length) else none) +++
    (if 0 < l.vars.length then
      (match l.first with
        | some f => encNum 4 f
        | none => none) +++ encMany encVarSize l.vars
    else some [])

/-- `Layout::decode`, section/sections/data.rs:110-137. -/
def decLayout (chk : Bool) : Dec FixedLayout := do
  let _ ← decLayoutKind
  let n ← decNum 2
  let (first, sizes) ← (if 0 < n.toNat then do
      let first ← decNum 4
      let sizes ← decMany decVarSize n.toNat
      return (first, sizes)
    else return (0, []) : Dec (U32 × List (BitVec 32)))
  match FixedLayout.fromByteSizes chk first sizes with
  | some l => return l
  | none => Dec.panic

/-- `DataSection::encode`, section/sections/data.rs:58-64. -/
def encDataSection (ls : List FixedLayout) : Enc := encVec encLayout ls

/-- `DataSection::decode`, section/sections/data.rs:66-79. -/
def decDataSection (chk : Bool) : Dec (List FixedLayout) := decVec (decLayout chk)

/-- `HeaderSection`, types/src/template/header.rs. -/
structure HeaderSection where
  codeVersion : U32
  name : Str
  desc : Str
  deriving DecidableEq

/-- `HeaderSection::encode`, section/sections/header.rs:19-23. -/
def encHeader (h : HeaderSection) : Enc :=
  encNum 4 h.codeVersion +++ encStr h.name +++ encStr h.desc

/-- `HeaderSection::decode`, section/sections/header.rs:25-31. -/
def decHeader : Dec HeaderSection := do
  let codeVersion ← decNum 4
  let name ← decStr
  let desc ← decStr
  return { codeVersion, name, desc }

/-- `DeploySection`, types/src/template/deploy.rs. -/
structure DeploySection where
  txId : Hash
  layer : U64
  deployer : Addr
  template : Addr
  deriving DecidableEq

/-- `DeploySection::encode`, section/sections/deploy.rs:19-24. -/
def encDeploy (d : DeploySection) : Enc :=
  encArr d.txId +++ encNum 8 d.layer +++ encArr d.deployer +++ encArr d.template

/-- `DeploySection::decode`, section/sections/deploy.rs:26-33. -/
def decDeploy : Dec DeploySection := do
  let txId ← decArr 32
  let layer ← decNum 8
  let deployer ← decArr 20
  let template ← decArr 20
  return { txId, layer, deployer, template }

/-- `Section`, types/src/template/section.rs:17-40. The contents of schema and API sections are left
out: both codecs are `todo!()`. -/
inductive Section where
  | header (s : HeaderSection)
  | code (s : CodeSection)
  | data (s : List FixedLayout)
  | ctors (s : List Str)
  | schema
  | api
  | deploy (s : DeploySection)
  deriving DecidableEq

/-- `Section::kind`, types/src/template/section.rs:44-54. -/
def Section.kind : Section → Kind
  | .header _ => .header
  | .code _ => .code
  | .data _ => .data
  | .ctors _ => .ctors
  | .schema => .schema
  | .api => .api
  | .deploy _ => .deploy

/-- `Sections`: an `IndexMap` from kinds to sections (types/src/template/section.rs:231-234), as
the list of its values in order. `Sections.Valid` is the invariant of the map. -/
abbrev Sections := List Section

/-- Each kind occurs once. -/
def Sections.Valid (s : Sections) : Prop := (s.map Section.kind).Nodup

/-- `Sections::insert`, types/src/template/section.rs:256-258: replaces in place or appends. -/
def Sections.insert (x : Section) : Sections → Sections
  | [] => [x]
  | y :: ys => if y.kind = x.kind then x :: ys else y :: Sections.insert x ys

/-- `Sections::try_get`, types/src/template/section.rs:282-284. -/
def Sections.tryGet (s : Sections) (k : Kind) : Option Section := s.find? (fun x => x.kind = k)

/-- `SectionsEncoder::encode_section`, section/encode.rs:69-82. The buffer written to is fresh since
the kinds in `Sections` are distinct. -/
def encSection : Section → Enc
  | .header s => encHeader s
  | .code s => encCode s
  | .data s => encDataSection s
  | .ctors s => encCtors s
  | .schema => none
  | .api => none
  | .deploy s => encDeploy s

/-- One iteration of `SectionsEncoder::finish`, section/encode.rs:54-64, with
`SectionPreview::encode`, section/preview.rs:32-35. -/
def encWithPreview (s : Section) : Enc :=
  match encSection s with
  | some bs =>
    if bs.length < 4294967295 then
      encKind s.kind +++ encNum 4 (BitVec.ofNat _ bs.length) +++ some bs
    else none
  | none => none

/-- `template::encode` = `SectionsEncoder::encode` and `finish`, template.rs:57-66,
section/encode.rs:33-67, and `Codec for Sections`, section/mod.rs:17-21. -/
def encSections (s : Sections) : Enc :=
  if s.length < 65535 then encNum 2 (BitVec.ofNat _ s.length) +++ encMany encWithPreview s else none

/-- `SectionsDecoder::decode_section`, section/decode.rs:73-92. Schema and API sections are
`todo!()` (section/sections/schema.rs:31-33, api.rs). The size of the preview is not looked at. -/
def decSection (chk : Bool) : Kind → Dec Section
  | .header => do return .header (← decHeader)
  | .code => do return .code (← decCode)
  | .data => do return .data (← decDataSection chk)
  | .ctors => do return .ctors (← decCtors)
  | .schema => Dec.panic
  | .api => Dec.panic
  | .deploy => do return .deploy (← decDeploy)

/-- Whether a kind is to be decoded, section/decode.rs:124-125 and 134. -/
def interested (interests : Option (List Kind)) (k : Kind) : Bool :=
  match interests with
  | none => true
  | some ks => ks.contains k

/-- The loop of `decode_sections`, section/decode.rs:130-141, with `next_preview` (54-70; the count
check cannot fail inside the loop) and `skip_section` (95-104, 110-115). -/
def decSectionsLoop (chk : Bool) (interests : Option (List Kind)) :
    Nat → Sections → Dec Sections
  | 0, acc => pure acc
  | n + 1, acc => do
    let kind ← decKind
    let size ← decNum 4
    if interested interests kind then do
      let s ← decSection chk kind
      decSectionsLoop chk interests n (Sections.insert s acc)
    else do
      let _ ← readBytes size.toNat
      decSectionsLoop chk interests n acc

/-- `decode_sections`, section/decode.rs:118-144. -/
def decSections (chk : Bool) (interests : Option (List Kind)) : Dec Sections := do
  let n ← decNum 2
  decSectionsLoop chk interests n.toNat []

/-- `Sections::contains`, types/src/template/section.rs:261-263. -/
def Sections.contains (s : Sections) (k : Kind) : Bool := s.any (fun x => x.kind = k)

/-- `template::decode`, template.rs:73-88. -/
def decTemplate (chk : Bool) (interests : Option (List Kind)) : Dec Sections := do
  let s ← decSections chk interests
  if s.contains .code && s.contains .data && s.contains .ctors then return s
  else Dec.fail .invalidSection

/-! ## Lemmas: single sections -/

theorem roundTrip_kind : RoundTrip encKind decKind := by
  intro k bs rest h
  unfold decKind
  rw [(roundTrip_num 2).step h]
  cases k <;> rfl

theorem noPanic_kind : NoPanic decKind := by
  refine NoPanic.bind (noPanic_num 2) (fun n => ?_)
  intro inp h
  repeat' split at h
  all_goals cases h

theorem roundTrip_code : RoundTrip encCode decCode := by
  intro a bs rest h
  obtain ⟨b1, r1, h1, g1, rfl⟩ := Enc.seq_eq_some.1 h
  obtain ⟨b2, r2, h2, g2, rfl⟩ := Enc.seq_eq_some.1 g1
  obtain ⟨b3, r3, h3, g3, rfl⟩ := Enc.seq_eq_some.1 g2
  obtain ⟨b4, r4, h4, h5, rfl⟩ := Enc.seq_eq_some.1 g3
  unfold decCode
  simp only [List.append_assoc]
  have k1 : ∀ r, decCodeKind (b1 ++ r) = .ok ((), r) := by
    intro r; unfold decCodeKind; rw [(roundTrip_num 2).step h1]; rfl
  have k3 : ∀ r, decGasMode (b3 ++ r) = .ok (a.gasMode, r) := by
    intro r
    unfold decGasMode
    cases hm : a.gasMode with
    | fixed => rw [hm] at h3; rw [(roundTrip_num 8).step h3]; rfl
    | metering => rw [hm] at h3; cases h3
  rw [Dec.bind_ok (k1 _), (roundTrip_num 8).step h2, Dec.bind_ok (k3 _), (roundTrip_num 4).step h4,
    (roundTrip_data 4).step h5]
  rfl

theorem roundTrip_ctors : RoundTrip encCtors decCtors := by
  intro a bs rest h
  unfold encCtors at h
  split at h
  · rename_i hlt
    obtain ⟨b1, b2, h1, h2, rfl⟩ := Enc.seq_eq_some.1 h
    unfold decCtors
    rw [List.append_assoc, roundTrip_byte.step h1]
    have : (UInt8.ofNat a.length).toNat = a.length := by rw [UInt8.toNat_ofNat']; omega
    rw [this]
    exact roundTrip_many roundTrip_str a b2 rest h2
  · cases h

theorem noPanic_ctors : NoPanic decCtors :=
  NoPanic.bind noPanic_readByte fun _ => noPanic_many noPanic_str _

theorem roundTrip_header : RoundTrip encHeader decHeader := by
  intro a bs rest h
  obtain ⟨b1, r1, h1, g1, rfl⟩ := Enc.seq_eq_some.1 h
  obtain ⟨b2, r2, h2, h3, rfl⟩ := Enc.seq_eq_some.1 g1
  unfold decHeader
  simp only [List.append_assoc]
  rw [(roundTrip_num 4).step h1, roundTrip_str.step h2, roundTrip_str.step h3]
  rfl

theorem noPanic_header : NoPanic decHeader :=
  NoPanic.bind (noPanic_num 4) fun _ => NoPanic.bind noPanic_str fun _ =>
    NoPanic.bind noPanic_str fun _ => NoPanic.pure _

theorem roundTrip_deploy : RoundTrip encDeploy decDeploy := by
  intro a bs rest h
  obtain ⟨b1, r1, h1, g1, rfl⟩ := Enc.seq_eq_some.1 h
  obtain ⟨b2, r2, h2, g2, rfl⟩ := Enc.seq_eq_some.1 g1
  obtain ⟨b3, r3, h3, h4, rfl⟩ := Enc.seq_eq_some.1 g2
  unfold decDeploy
  simp only [List.append_assoc]
  rw [(roundTrip_arr 32).step h1, (roundTrip_num 8).step h2, (roundTrip_arr 20).step h3,
    (roundTrip_arr 20).step h4]
  rfl

theorem noPanic_deploy : NoPanic decDeploy :=
  NoPanic.bind (noPanic_arr 32) fun _ => NoPanic.bind (noPanic_num 8) fun _ =>
    NoPanic.bind (noPanic_arr 20) fun _ => NoPanic.bind (noPanic_arr 20) fun _ => NoPanic.pure _

/-! ### Layouts -/

/-- What the decoder reads for the sizes of a layout. -/
def truncSizes (vars : List RawVar) : List (BitVec 32) :=
  vars.map (fun v => (v.byteSize.setWidth 16).setWidth 32)

theorem decVarSizes_enc (vars : List RawVar) (bs rest : Bytes)
    (h : encMany encVarSize vars = some bs) :
    decMany decVarSize vars.length (bs ++ rest) = .ok (truncSizes vars, rest) := by
  induction vars generalizing bs with
  | nil => cases h; rfl
  | cons v vs ih =>
    obtain ⟨x, y, hx, hy, rfl⟩ := Enc.seq_eq_some.1 h
    simp only [List.length_cons, decMany, truncSizes, List.map_cons]
    have k : ∀ r, decVarSize (x ++ r) = .ok ((v.byteSize.setWidth 16).setWidth 32, r) := by
      intro r
      unfold decVarSize
      rw [(roundTrip_num 2).step hx]
      rfl
    rw [List.append_assoc, Dec.bind_ok (k _), Dec.bind_ok (ih y hy)]
    rfl

/-- Decoding an encoded layout: the layout built from the truncated sizes, or a panic. -/
theorem decLayout_enc (chk : Bool) (l : FixedLayout) (bs rest : Bytes) (h : encLayout l = some bs) :
    decLayout chk (bs ++ rest) =
      match FixedLayout.fromByteSizes chk (if l.vars = [] then 0 else l.first.getD 0)
        (truncSizes l.vars) with
      | some l' => .ok (l', rest)
      | none => .panic := by
  obtain ⟨b1, r1, h1, g1, rfl⟩ := Enc.seq_eq_some.1 h
  obtain ⟨b2, r2, h2, h3, rfl⟩ := Enc.seq_eq_some.1 g1
  split at h2
  · rename_i hlt
    have hn : (BitVec.ofNat (8 * 2) l.vars.length).toNat = l.vars.length := by
      rw [BitVec.toNat_ofNat]; exact Nat.mod_eq_of_lt (by omega)
    have k1 : ∀ r, decLayoutKind (b1 ++ r) = .ok ((), r) := by
      intro r; unfold decLayoutKind; rw [(roundTrip_num 2).step h1]; rfl
    unfold decLayout
    simp only [List.append_assoc]
    rw [Dec.bind_ok (k1 _), (roundTrip_num 2).step h2, hn]
    have k2 : ∀ (first : U32) (sizes : List (BitVec 32)),
        (match FixedLayout.fromByteSizes chk first sizes with
          | some l => (pure l : Dec FixedLayout)
          | none => Dec.panic) rest =
        (match FixedLayout.fromByteSizes chk first sizes with
          | some l' => .ok (l', rest)
          | none => .panic) := by
      intro first sizes
      cases FixedLayout.fromByteSizes chk first sizes <;> rfl
    by_cases h0 : 0 < l.vars.length
    · have hne : ¬ l.vars = [] := by
        intro h'; rw [h'] at h0; simp at h0
      rw [if_pos h0] at h3
      obtain ⟨b3, b4, h4, h5, rfl⟩ := Enc.seq_eq_some.1 h3
      cases hf : l.first with
      | none => rw [hf] at h4; cases h4
      | some f =>
        rw [hf] at h4
        simp only [h0, if_true, hne, if_false, Option.getD_some]
        have k3 : ((do
            let first ← decNum 4
            let sizes ← decMany decVarSize l.vars.length
            return (first, sizes)) : Dec (U32 × List (BitVec 32))) (b3 ++ b4 ++ rest)
            = .ok ((f, truncSizes l.vars), rest) := by
          rw [List.append_assoc, (roundTrip_num 4).step h4, Dec.bind_ok (decVarSizes_enc _ _ _ h5)]
          rfl
        rw [Dec.bind_ok k3]
        exact k2 _ _
    · have he : l.vars = [] := List.eq_nil_of_length_eq_zero (by omega)
      rw [if_neg h0] at h3
      cases h3
      rw [if_neg h0, if_pos he]
      simp only [List.nil_append]
      rw [Dec.bind_ok (rfl : (pure (0, []) : Dec (U32 × List (BitVec 32))) rest
        = .ok ((0, []), rest))]
      rw [he]
      exact k2 0 []
  · cases h2

/-- Layouts that the format can represent: sizes below 2^16, consecutive ids and offsets starting at
`first` and 0, and the empty layout with first id 0. -/
structure Representable (l : FixedLayout) : Prop where
  first : ∃ f, l.first = some f ∧ (l.vars = [] → f = 0) ∧
    ∀ (i : Nat) (v : RawVar), l.vars[i]? = some v →
      v.id.toNat = f.toNat + i ∧
      v.offset.toNat = ((l.vars.take i).map (fun v => v.byteSize.toNat)).sum ∧
      v.byteSize.toNat < 65536

theorem truncSizes_eq {vars : List RawVar} (h : ∀ v ∈ vars, v.byteSize.toNat < 65536) :
    truncSizes vars = vars.map RawVar.byteSize := by
  unfold truncSizes
  apply List.map_congr_left
  intro v hv
  apply BitVec.eq_of_toNat_eq
  rw [BitVec.toNat_setWidth, BitVec.toNat_setWidth, Nat.mod_eq_of_lt (by omega)]
  exact Nat.mod_eq_of_lt (h v hv)

theorem total_le (sizes : List (BitVec 32)) (h : ∀ s ∈ sizes, s.toNat < 65536) :
    Svm.Layout.total sizes ≤ 65535 * sizes.length := by
  induction sizes with
  | nil => simp
  | cons s ss ih =>
    simp only [Svm.Layout.total_cons, List.length_cons]
    have := ih (fun x hx => h x (by simp [hx]))
    have := h s (by simp)
    omega

/-- A representable layout is exactly what the decoder rebuilds. -/
theorem fromByteSizes_representable (chk : Bool) (l : FixedLayout) (hr : Representable l)
    (hlen : l.vars.length < 65535) :
    FixedLayout.fromByteSizes chk (if l.vars = [] then 0 else l.first.getD 0) (truncSizes l.vars)
      = some l := by
  obtain ⟨f, hf, h0, hall⟩ := hr.first
  have hsz : ∀ v ∈ l.vars, v.byteSize.toNat < 65536 := by
    intro v hv
    obtain ⟨i, hi⟩ := List.getElem?_of_mem hv
    exact (hall i v hi).2.2
  rw [truncSizes_eq hsz]
  have hfirst : (if l.vars = [] then 0 else l.first.getD 0) = f := by
    by_cases hv : l.vars = []
    · rw [if_pos hv, h0 hv]
    · rw [if_neg hv, hf]; rfl
  rw [hfirst]
  have hid : f.toNat + (l.vars.map RawVar.byteSize).length ≤ 2 ^ 32 := by
    rw [List.length_map]
    by_cases hv : l.vars = []
    · have := h0 hv
      subst this
      simp [hv]
    · have hpos : 0 < l.vars.length := List.length_pos_iff.2 hv
      have hlast : l.vars[l.vars.length - 1]? = some (l.vars[l.vars.length - 1]'(by omega)) :=
        List.getElem?_eq_getElem _
      have h1 := (hall _ _ hlast).1
      have h2 := (l.vars[l.vars.length - 1]'(by omega)).id.isLt
      omega
  have htot : Svm.Layout.total (l.vars.map RawVar.byteSize) < 2 ^ 32 := by
    have := total_le (l.vars.map RawVar.byteSize) (by
      intro s hs
      obtain ⟨v, hv, rfl⟩ := List.mem_map.1 hs
      exact hsz v hv)
    rw [List.length_map] at this
    omega
  obtain ⟨l', hl', hf', hlen', hall'⟩ := Svm.Layout.fromByteSizes_ok chk f _ hid htot
  rw [hl', Option.some.injEq]
  have hvars : l'.vars = l.vars := by
    apply List.ext_getElem?
    intro i
    by_cases hi : i < l.vars.length
    · have e1 : l'.vars[i]? = some (l'.vars[i]'(by rw [hlen', List.length_map]; exact hi)) :=
        List.getElem?_eq_getElem _
      have e2 : l.vars[i]? = some (l.vars[i]'hi) := List.getElem?_eq_getElem _
      obtain ⟨a, b, c⟩ := hall' i _ e1
      obtain ⟨a', b', _⟩ := hall i _ e2
      rw [e1, e2, Option.some.injEq]
      rw [List.getElem?_map, e2, Option.map_some, Option.some.injEq] at c
      have hb : Svm.Layout.total ((l.vars.map RawVar.byteSize).take i)
          = ((l.vars.take i).map (fun v => v.byteSize.toNat)).sum := by
        unfold Svm.Layout.total
        rw [← List.map_take, List.map_map]
        rfl
      have hid' : (l'.vars[i]'(by rw [hlen', List.length_map]; exact hi)).id = (l.vars[i]'hi).id := by
        apply BitVec.eq_of_toNat_eq; omega
      have hoff : (l'.vars[i]'(by rw [hlen', List.length_map]; exact hi)).offset
          = (l.vars[i]'hi).offset := by
        apply BitVec.eq_of_toNat_eq; omega
      revert c hid' hoff
      generalize (l'.vars[i]'(by rw [hlen', List.length_map]; exact hi)) = v'
      generalize (l.vars[i]'hi) = v
      intro c hid' hoff
      cases v; cases v'
      simp_all
    · rw [List.getElem?_eq_none (by rw [hlen', List.length_map]; omega),
        List.getElem?_eq_none (by omega)]
  cases l; cases l'
  simp_all

theorem encLayout_len {l : FixedLayout} {bs : Bytes} (h : encLayout l = some bs) :
    l.vars.length < 65535 := by
  obtain ⟨b1, r1, h1, g1, rfl⟩ := Enc.seq_eq_some.1 h
  obtain ⟨b2, r2, h2, h3, rfl⟩ := Enc.seq_eq_some.1 g1
  split at h2
  · assumption
  · cases h2

theorem decLayout_representable (chk : Bool) (l : FixedLayout) (hr : Representable l)
    (bs rest : Bytes) (h : encLayout l = some bs) :
    decLayout chk (bs ++ rest) = .ok (l, rest) := by
  rw [decLayout_enc chk l bs rest h, fromByteSizes_representable chk l hr (encLayout_len h)]

theorem decMany_on {α : Type} {e : α → Enc} {d : Dec α} {P : α → Prop}
    (h : ∀ a bs rest, P a → e a = some bs → d (bs ++ rest) = .ok (a, rest)) (l : List α)
    (hp : ∀ a ∈ l, P a) (bs rest : Bytes) (he : encMany e l = some bs) :
    decMany d l.length (bs ++ rest) = .ok (l, rest) := by
  induction l generalizing bs with
  | nil => cases he; rfl
  | cons a l ih =>
    obtain ⟨x, y, hx, hy, rfl⟩ := Enc.seq_eq_some.1 he
    simp only [List.length_cons, decMany]
    rw [List.append_assoc, Dec.bind_ok (h a x _ (hp a (by simp)) hx),
      Dec.bind_ok (ih (fun b hb => hp b (by simp [hb])) y hy)]
    rfl

/-- Decoders that, on an encoded list, either panic or consume exactly the encoding. -/
theorem decMany_consumes {α : Type} {e : α → Enc} {d : Dec α}
    (h : ∀ a bs rest, e a = some bs →
      d (bs ++ rest) = .panic ∨ ∃ a', d (bs ++ rest) = .ok (a', rest)) (l : List α)
    (bs rest : Bytes) (he : encMany e l = some bs) :
    decMany d l.length (bs ++ rest) = .panic ∨
      ∃ l', decMany d l.length (bs ++ rest) = .ok (l', rest) := by
  induction l generalizing bs with
  | nil => cases he; exact .inr ⟨[], rfl⟩
  | cons a l ih =>
    obtain ⟨x, y, hx, hy, rfl⟩ := Enc.seq_eq_some.1 he
    simp only [List.length_cons, decMany, List.append_assoc]
    rcases h a x (y ++ rest) hx with h1 | ⟨a', h1⟩
    · left; rw [Dec.bind_apply, h1]
    · rw [Dec.bind_ok h1]
      rcases ih y hy with h2 | ⟨l', h2⟩
      · left; rw [Dec.bind_apply, h2]
      · right; rw [Dec.bind_ok h2]; exact ⟨_, rfl⟩

theorem vec_len {α : Type} {e : α → Enc} {l : List α} {bs : Bytes} (h : encVec e l = some bs) :
    ∃ x y, encNum 2 (BitVec.ofNat _ l.length) = some x ∧ encMany e l = some y ∧ bs = x ++ y ∧
      (BitVec.ofNat (8 * 2) l.length).toNat = l.length := by
  unfold encVec at h
  split at h
  · rename_i hlt
    obtain ⟨x, y, hx, hy, rfl⟩ := Enc.seq_eq_some.1 h
    exact ⟨x, y, hx, hy, rfl, by rw [BitVec.toNat_ofNat]; exact Nat.mod_eq_of_lt (by omega)⟩
  · cases h

theorem decDataSection_representable (chk : Bool) (ls : List FixedLayout)
    (hr : ∀ l ∈ ls, Representable l) (bs rest : Bytes) (h : encDataSection ls = some bs) :
    decDataSection chk (bs ++ rest) = .ok (ls, rest) := by
  obtain ⟨x, y, hx, hy, rfl, hn⟩ := vec_len h
  unfold decDataSection decVec
  rw [List.append_assoc, (roundTrip_num 2).step hx, hn]
  exact decMany_on (fun a bs rest hp he => decLayout_representable chk a hp bs rest he) ls hr y
    rest hy

/-- A section that the format can represent: its layouts are representable. The other conditions
(fixed gas mode, no schema or API section, sizes within the prefixes) are checked by the encoder
itself, which panics otherwise. -/
def Section.Representable : Section → Prop
  | .data ls => ∀ l ∈ ls, Codec.Representable l
  | _ => True

theorem decSection_representable (chk : Bool) (s : Section) (hr : s.Representable)
    (bs rest : Bytes) (h : encSection s = some bs) :
    decSection chk s.kind (bs ++ rest) = .ok (s, rest) := by
  cases s with
  | header s => simp only [decSection, Section.kind]; rw [roundTrip_header.step h]; rfl
  | code s => simp only [decSection, Section.kind]; rw [roundTrip_code.step h]; rfl
  | data s =>
    simp only [decSection, Section.kind]
    rw [Dec.bind_ok (decDataSection_representable chk s hr bs rest h)]; rfl
  | ctors s => simp only [decSection, Section.kind]; rw [roundTrip_ctors.step h]; rfl
  | schema => cases h
  | api => cases h
  | deploy s => simp only [decSection, Section.kind]; rw [roundTrip_deploy.step h]; rfl

/-- On an encoded section, the decoder panics or consumes exactly the encoding and returns a section
of the same kind. -/
theorem decSection_consumes (chk : Bool) (s : Section) (bs rest : Bytes)
    (h : encSection s = some bs) :
    decSection chk s.kind (bs ++ rest) = .panic ∨
      ∃ s', decSection chk s.kind (bs ++ rest) = .ok (s', rest) ∧ s'.kind = s.kind := by
  by_cases hd : s.Representable
  · exact .inr ⟨s, decSection_representable chk s hd bs rest h, rfl⟩
  · cases s with
    | data ls =>
      simp only [decSection, Section.kind]
      obtain ⟨x, y, hx, hy, rfl, hn⟩ := vec_len h
      have : decDataSection chk (x ++ y ++ rest) = .panic ∨
          ∃ l', decDataSection chk (x ++ y ++ rest) = .ok (l', rest) := by
        unfold decDataSection decVec
        rw [List.append_assoc, (roundTrip_num 2).step hx, hn]
        refine decMany_consumes (fun a bs rest he => ?_) ls y rest hy
        rw [decLayout_enc chk a bs rest he]
        split
        · exact .inr ⟨_, rfl⟩
        · exact .inl rfl
      rcases this with h1 | ⟨l', h1⟩
      · left; rw [Dec.bind_apply, h1]
      · right; rw [Dec.bind_ok h1]; exact ⟨_, rfl, rfl⟩
    | _ => exact absurd trivial hd

/-! ### Lists of sections -/

theorem Sections.insert_fresh (x : Section) (s : Sections) (h : x.kind ∉ s.map Section.kind) :
    Sections.insert x s = s ++ [x] := by
  induction s with
  | nil => rfl
  | cons y ys ih =>
    simp only [List.map_cons, List.mem_cons, not_or] at h
    unfold Sections.insert
    rw [if_neg (fun e => h.1 e.symm), ih h.2]
    rfl

theorem encWithPreview_some {s : Section} {bs : Bytes} (h : encWithPreview s = some bs) :
    ∃ k n b, encKind s.kind = some k ∧ encNum 4 (BitVec.ofNat _ b.length) = some n ∧
      encSection s = some b ∧ bs = k ++ (n ++ b) ∧
      (BitVec.ofNat (8 * 4) b.length).toNat = b.length := by
  unfold encWithPreview at h
  split at h
  · rename_i b hb
    split at h
    · rename_i hlt
      obtain ⟨k, r, hk, hr, rfl⟩ := Enc.seq_eq_some.1 h
      obtain ⟨n, b', hn, hb', rfl⟩ := Enc.seq_eq_some.1 hr
      cases hb'
      exact ⟨k, n, b, hk, hn, hb, rfl,
        by rw [BitVec.toNat_ofNat]; exact Nat.mod_eq_of_lt (by omega)⟩
    · cases h
  · cases h

theorem decSectionsLoop_representable (chk : Bool) (s : Sections) (acc : Sections)
    (hv : (acc ++ s).Valid) (hr : ∀ x ∈ s, x.Representable) (bs rest : Bytes)
    (h : encMany encWithPreview s = some bs) :
    decSectionsLoop chk none s.length acc (bs ++ rest) = .ok (acc ++ s, rest) := by
  induction s generalizing acc bs with
  | nil => cases h; simp [decSectionsLoop]
  | cons x xs ih =>
    obtain ⟨b, y, hb, hy, rfl⟩ := Enc.seq_eq_some.1 h
    obtain ⟨k, n, b', hk, hn, hb', rfl, _⟩ := encWithPreview_some hb
    simp only [List.length_cons, decSectionsLoop, List.append_assoc]
    rw [roundTrip_kind.step hk, (roundTrip_num 4).step hn,
      if_pos (show interested none x.kind = true from rfl),
      Dec.bind_ok (decSection_representable chk x (hr x (by simp)) b' _ hb')]
    have hfresh : x.kind ∉ acc.map Section.kind := by
      unfold Sections.Valid at hv
      rw [List.map_append, List.map_cons, List.nodup_append] at hv
      intro hmem
      exact hv.2.2 _ hmem _ (by simp) rfl
    rw [Sections.insert_fresh x acc hfresh]
    have := ih (acc ++ [x]) (by simpa using hv) (fun z hz => hr z (by simp [hz])) y hy
    simpa using this

/-- Loop invariant for the comparison of a full and a selective decode. -/
theorem decSectionsLoop_filter (chk : Bool) (ks : List Kind) (s : Sections) (acc : Sections)
    (hv : (acc ++ s).Valid) (bs rest : Bytes) (h : encMany encWithPreview s = some bs)
    (full : Sections) (rest' : Bytes)
    (hfull : decSectionsLoop chk none s.length acc (bs ++ rest) = .ok (full, rest')) :
    decSectionsLoop chk (some ks) s.length (acc.filter (fun x => ks.contains x.kind)) (bs ++ rest)
      = .ok (full.filter (fun x => ks.contains x.kind), rest') := by
  induction s generalizing acc bs with
  | nil => cases h; simp only [decSectionsLoop, List.length_nil] at hfull ⊢; cases hfull; rfl
  | cons x xs ih =>
    obtain ⟨b, y, hb, hy, rfl⟩ := Enc.seq_eq_some.1 h
    obtain ⟨k, n, b', hk, hn, hb', rfl, hlen⟩ := encWithPreview_some hb
    simp only [List.length_cons, decSectionsLoop, List.append_assoc] at hfull ⊢
    rw [roundTrip_kind.step hk, (roundTrip_num 4).step hn] at hfull ⊢
    rw [if_pos (show interested none x.kind = true from rfl)] at hfull
    have hfresh : ∀ z : Section, z.kind = x.kind → z.kind ∉ acc.map Section.kind := by
      unfold Sections.Valid at hv
      rw [List.map_append, List.map_cons, List.nodup_append] at hv
      intro z hz hmem
      exact hv.2.2 _ hmem _ (by simp) hz
    rcases decSection_consumes chk x b' (y ++ rest) hb' with hp | ⟨x', hx', hkind⟩
    · rw [Dec.bind_apply, hp] at hfull; cases hfull
    · rw [Dec.bind_ok hx', Sections.insert_fresh x' acc (hfresh x' hkind)] at hfull
      have hv' : ((acc ++ [x']) ++ xs).Valid := by
        unfold Sections.Valid at hv ⊢
        simpa [hkind] using hv
      have hrec := ih (acc ++ [x']) hv' y hy hfull
      by_cases hin : ks.contains x.kind = true
      · rw [if_pos (show interested (some ks) x.kind = true from hin), Dec.bind_ok hx',
          Sections.insert_fresh]
        · rw [← hrec, List.filter_append]
          have : List.filter (fun x => ks.contains x.kind) [x'] = [x'] := by
            simp only [List.filter_cons, hkind, hin, if_true, List.filter_nil]
          rw [this]
        · intro hmem
          obtain ⟨z, hz, hzk⟩ := List.mem_map.1 hmem
          exact hfresh x' hkind (List.mem_map.2 ⟨z, (List.mem_filter.1 hz).1, hzk⟩)
      · rw [if_neg (show ¬ interested (some ks) x.kind = true from hin)]
        rw [Dec.bind_ok (readBytes_append hlen.symm), ← hrec, List.filter_append]
        have : List.filter (fun x => ks.contains x.kind) [x'] = [] := by
          simp only [List.filter_cons, hkind, List.filter_nil]
          rw [if_neg hin]
        rw [this, List.append_nil]

theorem encSections_some {s : Sections} {bs : Bytes} (h : encSections s = some bs) :
    ∃ x y, encNum 2 (BitVec.ofNat _ s.length) = some x ∧ encMany encWithPreview s = some y ∧
      bs = x ++ y ∧ (BitVec.ofNat (8 * 2) s.length).toNat = s.length := by
  unfold encSections at h
  split at h
  · rename_i hlt
    obtain ⟨x, y, hx, hy, rfl⟩ := Enc.seq_eq_some.1 h
    exact ⟨x, y, hx, hy, rfl, by rw [BitVec.toNat_ofNat]; exact Nat.mod_eq_of_lt (by omega)⟩
  · cases h

theorem noPanic_loop (chk : Bool) (interests : Option (List Kind))
    (h : ∀ k, interested interests k = true → NoPanic (decSection chk k)) (n : Nat)
    (acc : Sections) : NoPanic (decSectionsLoop chk interests n acc) := by
  induction n generalizing acc with
  | zero => exact NoPanic.pure _
  | succ n ih =>
    refine NoPanic.bind noPanic_kind fun k => NoPanic.bind (noPanic_num 4) fun sz => ?_
    by_cases hk : interested interests k = true
    · rw [if_pos hk]
      exact NoPanic.bind (h k hk) fun s => ih _
    · rw [if_neg hk]
      exact NoPanic.bind (noPanic_readBytes _) fun s => ih _

end Svm.Codec
