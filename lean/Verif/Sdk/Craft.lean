import Verif.Sdk.Template
import Verif.Runtime.Deploy

/-!
# From the source of a template to the deploy message (C102, C103)

The subcommand `craft-deploy` of the CLI: it reads the Wasm file and the metadata that the macro
`#[template]` wrote, and writes a deploy message. The JSON text of the metadata is not modelled.
-/

namespace Svm.Sdk.Macro

open Svm.Codec Svm.Account Svm.Runtime Svm.Storage
open Svm.Layout (FixedLayout RawVar)

/-! ## Model -/

/-- The metadata as the CLI reads them, subcmd_craft_deploy/meta.rs:14-18. -/
structure Meta where
  api : List Export
  schema : List Var

/-- The metadata that the macro writes, json.rs:7-12, 26-43 and 102-115: the exports in the order in which
the `HashMap` of `TemplateMeta` (sdk-macros/src/meta.rs:12-16) is iterated, which is arbitrary. -/
def Listing (e : Expanded) (m : Meta) : Prop :=
  m.schema = e.schema ∧ m.api.Perm (e.exports.map Prod.snd)

/-- `TemplateMeta::ctors_section`, subcmd_craft_deploy/meta.rs:21-29. -/
def Meta.ctors (m : Meta) : List Str := (m.api.filter Export.isCtor).map Export.name

/-- The sections of `subcmd_craft_deploy`, subcmd_craft_deploy/mod.rs:57-70; `exec_flags` is 1
(types/src/template/code.rs:3 and 44-46). `none` is a panic. -/
def craftSections (chk : Bool) (code : Bytes) (m : Meta) : Option Sections :=
  match dataSection chk m.schema with
  | some l => some (Sections.insert (.data [l]) (Sections.insert (.ctors m.ctors)
      (Sections.insert (.code { code, flags := 1, gasMode := .fixed, svmVersion := 0 }) [])))
  | none => none

/-- The file that `subcmd_craft_deploy` writes, subcmd_craft_deploy/mod.rs:45-78. -/
def craft (chk : Bool) (code : Bytes) (m : Meta) : Option Bytes :=
  match craftSections chk code m with
  | some ss => encSections ss
  | none => none

/-- `assert_section`, subcmd_craft_deploy/mod.rs:100-111. -/
def assertSection (k : Kind) : Dec Unit := do
  let kind ← decKind
  let size ← decNum 4
  if kind = k then do
    let _ ← readBytes size.toNat
    return ()
  else Dec.panic

/-- `test_sections_encoding`, subcmd_craft_deploy/mod.rs:86-98, and `test_decode_as_template`, 113-119. Decoding
errors are ignored there; here they are reported. -/
def selfTest (chk : Bool) (bs : Bytes) : Bool :=
  let t1 : Dec Unit := do
    let n ← decNum 2
    if n.toNat = 3 then do
      assertSection .code
      assertSection .ctors
      assertSection .data
    else Dec.panic
  match t1 bs, decTemplate chk none bs with
  | .ok _, .ok _ => true
  | _, _ => false

/-! ## Spec -/

/-- The structs of the module. -/
def structs (items : List Item) : List StructItem := items.filterMap fun
  | .struct s => some s
  | _ => none

/-- The variables of the storage of a template: of its struct, or none. -/
def StorageOf (chk : Bool) (items : List Item) (vars : List Var) : Prop :=
  (structs items = [] ∧ vars = []) ∨
  ∃ s, structs items = [s] ∧ storageVars chk s.named s.fields = .ok vars

/-- The names of the functions that are marked `#[ctor]`. -/
def ctorNames (items : List Item) : List Str :=
  ((functions items).filter fun f => 0 < marks "ctor" f).map Func.name

/-- A message that decodes, in every build and before any bytes, to the template: to the Wasm file, to the
functions marked `#[ctor]` as constructors, and to a layout that matches the variables. -/
def Faithful (items : List Item) (vars : List Var) (code bs : Bytes) : Prop :=
  ∀ (chk : Bool) (rest : Bytes), ∃ ss l c, decTemplate chk none (bs ++ rest) = .ok (ss, rest) ∧
    codeSection ss = some c ∧ c.code = code ∧
    (∀ name, isCtor ss name = some (decide (name ∈ ctorNames items))) ∧
    ss.tryGet .data = some (.data [l]) ∧ Matches vars l

/-- What C102 says: for every accepted template and every Wasm file the CLI writes a faithful message. -/
def C102_claim : Prop :=
  ∀ (chk chk' : Bool) (items : List Item) (e : Expanded) (m : Meta) (code : Bytes),
    expand chk items = .ok e → ((functions items).map Func.name).Nodup → Listing e m →
    ∃ bs, craft chk' code m = some bs ∧ Faithful items e.schema code bs

/-- What C103 says: crafting the same template twice gives the same message. -/
def C103_claim : Prop :=
  ∀ (chk chk' : Bool) (items : List Item) (e : Expanded) (m m' : Meta) (code : Bytes),
    expand chk items = .ok e → ((functions items).map Func.name).Nodup → Listing e m → Listing e m' →
    craft chk' code m = craft chk' code m'

/-! ## Lemmas -/

theorem structs_parse : ∀ {items : List Item} {r : List Func × List Struct}, parseItems items = .ok r →
    List.Forall₂ (fun i s => Struct.new i = .ok s) (structs items) r.2
  | [], r, h => by cases h; exact .nil
  | .func f :: is, r, h => by
    rw [parseItems] at h
    obtain ⟨r', h1, h⟩ := bind_ok h
    cases h
    exact structs_parse (items := is) (r := r') h1
  | .struct s :: is, r, h => by
    rw [parseItems] at h
    obtain ⟨s', h0, h⟩ := bind_ok h
    obtain ⟨r', h1, h⟩ := bind_ok h
    cases h
    exact .cons h0 (structs_parse (items := is) (r := r') h1)
  | .use :: is, r, h => structs_parse (items := is) h
  | .alias :: is, r, h => structs_parse (items := is) h
  | .refused :: _, r, h => by cases h

theorem validate_seen : ∀ {ss : List Struct}, validateStructs true ss = .ok () →
    ∀ s ∈ ss, ∀ as, s.attrs = .ok as → as.any id = false
  | [], _, s, hs, _, _ => by simp at hs
  | t :: ss, h, s, hs, as, has => by
    rw [validateStructs] at h
    rcases List.mem_cons.1 hs with rfl | hs
    · rw [has] at h
      simp only at h
      split at h
      · cases h
      · rename_i hb
        simpa using hb
    · split at h
      · split at h
        · cases h
        · exact validate_seen h s hs as has
      · cases h

theorem expandStruct_ok {chk : Bool} {s : Struct} {vs : List Var} (h : expandStruct chk s = .ok vs) :
    ∃ as, s.attrs = .ok as ∧ as.any id = true ∧ storageVars chk s.named s.fields = .ok vs := by
  unfold expandStruct at h
  split at h
  · rename_i as has
    split at h
    · rename_i hb
      refine ⟨as, has, hb, ?_⟩
      split at h
      · rename_i hv; cases h; exact hv
      · cases h
      · cases h
    · cases h
  · cases h

/-- The schema of the metadata is that of the only struct. -/
theorem C102_schema {chk : Bool} {items : List Item} {e : Expanded} (h : expand chk items = .ok e) :
    StorageOf chk items e.schema := by
  obtain ⟨ss, d, exps, h1, -, h3, -, -, -, -, h7, vs, h8⟩ := expand_ok h
  have hp := structs_parse h1
  have hx := mapO_ok h8
  cases hp' : structs items with
  | nil =>
    rw [hp'] at hp
    cases hp
    rw [schema] at h3
    exact .inl ⟨hp', (Outcome.ok.inj h3).symm⟩
  | cons i is =>
    rw [hp'] at hp
    cases hp with
    | cons g1 g2 =>
      rename_i s ss
      cases hx with
      | cons x1 x2 =>
        obtain ⟨as, a1, a2, a3⟩ := expandStruct_ok x1
        rw [validateStructs, a1] at h7
        simp only [a2, if_true, Bool.false_eq_true, if_false] at h7
        have hs := validate_seen h7
        have hnil : ss = [] := by
          cases ss with
          | nil => rfl
          | cons s' ss' =>
            cases x2 with
            | cons y1 y2 =>
              obtain ⟨bs, b1, b2, -⟩ := expandStruct_ok y1
              have := hs s' (List.mem_cons_self ..) bs b1
              rw [b2] at this
              cases this
        subst hnil
        cases g2
        rw [schema, a1] at h3
        simp only [a2, if_true] at h3
        refine .inr ⟨i, hp', ?_⟩
        have hni : s.named = i.named ∧ s.fields = i.fields := by
          unfold Struct.new at g1
          split at g1 <;> cases g1 <;> exact ⟨rfl, rfl⟩
        rw [← hni.1, ← hni.2]
        exact unwrapRes_ok h3

theorem storage_vars {chk : Bool} {items : List Item} {vars : List Var} (h : StorageOf chk items vars) :
    ∃ named fields, storageVars chk named fields = .ok vars := by
  rcases h with ⟨-, rfl⟩ | ⟨s, -, h⟩
  · exact ⟨true, [], rfl⟩
  · exact ⟨_, _, h⟩

theorem vars_sizes {chk named : Bool} {fields : List Field} {vars : List Var}
    (h : storageVars chk named fields = .ok vars) : ∀ v ∈ vars, v.byteCount = v.ty.byteCount := by
  intro v hm
  obtain ⟨k, hk⟩ := List.mem_iff_getElem?.1 hm
  unfold storageVars at h
  split at h
  · exact (loop_vars h k v hk).2.2
  · cases h

theorem layout_length {chk : Bool} {vars : List Var} {l : FixedLayout} (h : dataSection chk vars = some l) :
    l.vars.length = cellTotal vars := by
  rw [← byteSizes_length]
  rw [← (fromByteSizes_some h).2, List.length_map]

/-- The layout of variables that fit can be stored. -/
theorem layout_ok {chk named : Bool} {fields : List Field} {vars : List Var}
    (h : storageVars chk named fields = .ok vars) (hc : cellTotal vars < 65535) (chk' : Bool) :
    ∃ l, dataSection chk' vars = some l ∧ Matches vars l ∧ Representable l ∧ l.first = some 0 := by
  have hs := vars_sizes h
  have hb : byteTotal vars < 2 ^ 32 := by
    have := byteTotal_le hs
    omega
  obtain ⟨l, h1, h2⟩ := C76_deployed_partial h hb chk'
  have hsz : ∀ s ∈ byteSizes vars, s.toNat < 65536 := by
    intro s hs'
    unfold byteSizes at hs'
    obtain ⟨v, hv, hr⟩ := List.mem_flatMap.1 hs'
    rw [List.mem_replicate] at hr
    have := byteCount_pos v.ty
    rw [hr.2, hs v hv, BitVec.toNat_ofNat]
    omega
  have hl := byteSizes_length vars
  obtain ⟨l', g1, g2, g3, g4⟩ := Svm.Layout.fromByteSizes_ok chk' 0 (byteSizes vars)
    (by rw [hl]; simp; omega) (by
      have := total_le _ hsz
      rw [hl] at this
      omega)
  unfold dataSection at h1
  rw [g1] at h1
  cases h1
  refine ⟨l, g1, h2, ⟨0, g2, fun _ => rfl, fun i v hi => ?_⟩, g2⟩
  obtain ⟨a, b, c⟩ := g4 i v hi
  refine ⟨a, ?_, hsz _ (List.mem_of_getElem? c)⟩
  rw [b, ← (fromByteSizes_some g1).2, ← List.map_take]
  unfold Svm.Layout.total
  rw [List.map_map]
  rfl

theorem ctors_perm {chk : Bool} {items : List Item} {e : Expanded} (h : expand chk items = .ok e)
    (hn : ((functions items).map Func.name).Nodup) {m : Meta} (hm : Listing e m) :
    m.ctors.Perm (ctorNames items) := by
  obtain ⟨xs, h1, -, h3⟩ := exports_list h hn
  have key : ∀ {fs : List Func} {xs : List Export}, List.Forall₂ IsExport fs xs →
      (xs.filter Export.isCtor).map Export.name = (fs.filter fun f => 0 < marks "ctor" f).map Func.name := by
    intro fs xs hf
    induction hf with
    | nil => rfl
    | cons hx _ ih =>
      rename_i f x fs xs hrest
      rw [List.filter_cons, List.filter_cons]
      by_cases hc : 0 < marks "ctor" f
      · rw [if_pos (hx.2.1.2 hc), if_pos (by simpa using hc), List.map_cons, List.map_cons, ih, hx.1]
      · rw [if_neg (fun h => hc (hx.2.1.1 h)), if_neg (by simpa using hc), ih]
  have hk := key h3
  rw [List.filter_filter] at hk
  have hff : (functions items).filter (fun f => decide (0 < marks "ctor" f) &&
      decide (0 < marks "ctor" f + marks "endpoint" f)) =
      (functions items).filter fun f => decide (0 < marks "ctor" f) := by
    apply List.filter_congr
    intro f _
    by_cases hc : 0 < marks "ctor" f
    · simp [hc]
    · simp [hc]
  rw [hff] at hk
  unfold ctorNames
  rw [← hk]
  unfold Meta.ctors
  refine List.Perm.map _ (List.Perm.filter _ (hm.2.trans ?_))
  rw [h1, List.map_reverse, List.map_map]
  refine (List.reverse_perm _).trans ?_
  rw [show (Prod.snd ∘ fun x : Export => (x.name, x)) = id from rfl, List.map_id]

/-- The three sections. -/
theorem craftSections_eq (chk : Bool) (code : Bytes) (m : Meta) : craftSections chk code m =
    (dataSection chk m.schema).map fun l =>
      [.code { code, flags := 1, gasMode := .fixed, svmVersion := 0 }, .ctors m.ctors, .data [l]] := by
  unfold craftSections
  cases dataSection chk m.schema <;> rfl

/-- What can be crafted. -/
structure Small (cs : List Str) (vars : List Var) (code : Bytes) : Prop where
  count : cs.length < 255
  names : ∀ c ∈ cs, c.1.length ≤ 255
  cells : cellTotal vars < 65535
  code : code.length + 26 < 4294967295

theorem sum_le {α : Type} (f : α → Nat) (b : Nat) : ∀ (l : List α), (∀ x ∈ l, f x ≤ b) →
    (l.map f).sum ≤ b * l.length
  | [], _ => by simp
  | a :: l, h => by
    have := sum_le f b l fun x hx => h x (List.mem_cons_of_mem _ hx)
    have := h a (List.mem_cons_self ..)
    simp only [List.map_cons, List.sum_cons, List.length_cons]
    rw [Nat.mul_succ]
    omega

theorem layoutSize_le (l : FixedLayout) : layoutSize l ≤ 8 + 2 * l.vars.length := by
  unfold layoutSize
  split <;> omega

/-- **C102, exactly when a message is written**: if and only if there are at most 254 constructors with names
of at most 255 bytes, at most 65534 cells in the storage, and the Wasm file is shorter than 4 GiB by 27 bytes. In
all other cases the CLI panics. -/
theorem C102_crafts_iff {chk : Bool} {items : List Item} {e : Expanded} (h : expand chk items = .ok e)
    (hn : ((functions items).map Func.name).Nodup) {m : Meta} (hm : Listing e m) (chk' : Bool) (code : Bytes) :
    (∃ bs, craft chk' code m = some bs) ↔ Small (ctorNames items) e.schema code := by
  have hp := ctors_perm h hn hm
  have hsmall : Small (ctorNames items) e.schema code ↔ Small m.ctors e.schema code := by
    constructor
    · rintro ⟨h1, h2, h3, h4⟩
      exact ⟨by rw [hp.length_eq]; exact h1, fun c hc => h2 c (hp.mem_iff.1 hc), h3, h4⟩
    · rintro ⟨h1, h2, h3, h4⟩
      exact ⟨by rw [← hp.length_eq]; exact h1, fun c hc => h2 c (hp.mem_iff.2 hc), h3, h4⟩
  rw [hsmall]
  obtain ⟨named, fields, hv⟩ := storage_vars (C102_schema h)
  unfold craft
  rw [craftSections_eq, hm.1]
  constructor
  · rintro ⟨bs, hb⟩
    cases hd : dataSection chk' e.schema with
    | none => rw [hd] at hb; cases hb
    | some l =>
      rw [hd] at hb
      have hf := (C43_encodes_iff _ (by simp [Section.kind])).1 ⟨bs, hb⟩
      have f1 := hf _ (List.mem_cons_self ..)
      have f2 := hf _ (List.mem_cons_of_mem _ (List.mem_cons_self ..))
      have f3 := hf _ (List.mem_cons_of_mem _ (List.mem_cons_of_mem _ (List.mem_cons_self ..)))
      refine ⟨f2.1.1, f2.1.2, ?_, ?_⟩
      · have := (f3.1.2 l (List.mem_cons_self ..)).1
        rw [layout_length hd] at this
        exact this
      · have := f1.2
        simp only [Section.size] at this
        omega
  · rintro ⟨h1, h2, h3, h4⟩
    obtain ⟨l, hd, -, -, hfst⟩ := layout_ok hv h3 chk'
    rw [hd]
    refine (C43_encodes_iff _ (by simp [Section.kind])).2 ?_
    have hlen := layout_length hd
    intro x hx
    simp only [List.mem_cons, List.not_mem_nil, or_false] at hx
    rcases hx with rfl | rfl | rfl
    · exact ⟨rfl, by simp only [Section.size]; omega⟩
    · refine ⟨⟨h1, h2⟩, ?_⟩
      simp only [Section.size]
      have := sum_le (fun c : Str => 1 + c.1.length) 256 m.ctors fun c hc => by
        have := h2 c hc
        omega
      omega
    · refine ⟨⟨by simp, fun l' hl' => ?_⟩, ?_⟩
      · simp only [List.mem_cons, List.not_mem_nil, or_false] at hl'
        subst hl'
        exact ⟨by omega, fun _ => ⟨_, hfst⟩⟩
      · simp only [Section.size, List.map_cons, List.map_nil, List.sum_cons, List.sum_nil]
        have := layoutSize_le l
        omega

/-- The sections of a written message. -/
theorem craft_some {chk : Bool} {items : List Item} {e : Expanded} (h : expand chk items = .ok e)
    (hn : ((functions items).map Func.name).Nodup) {m : Meta} (hm : Listing e m) {chk' : Bool} {code bs : Bytes}
    (hb : craft chk' code m = some bs) : ∃ l, dataSection chk' m.schema = some l ∧ Matches e.schema l ∧
      encSections [.code { code, flags := 1, gasMode := .fixed, svmVersion := 0 }, .ctors m.ctors, .data [l]] =
        some bs ∧ ∀ (c : Bool) (rest : Bytes), decSections c none (bs ++ rest) =
          .ok ([.code { code, flags := 1, gasMode := .fixed, svmVersion := 0 }, .ctors m.ctors, .data [l]], rest) := by
  have hs := (C102_crafts_iff h hn hm chk' code).1 ⟨bs, hb⟩
  obtain ⟨named, fields, hv⟩ := storage_vars (C102_schema h)
  obtain ⟨l, hd, h2, hr, -⟩ := layout_ok hv hs.cells chk'
  unfold craft at hb
  rw [craftSections_eq, hm.1, hd] at hb
  refine ⟨l, by rw [hm.1]; exact hd, h2, hb, fun c rest => ?_⟩
  refine C43_lossless_partial c _ bs rest (by simp [Section.kind]) ?_ hb
  intro ls hls l' hl'
  simp only [List.mem_cons, List.not_mem_nil, or_false, reduceCtorEq, false_or, Section.data.injEq] at hls
  subst hls
  simp only [List.mem_cons, List.not_mem_nil, or_false] at hl'
  subst hl'
  exact hr

/-- **C102, partial**: every message that is written is faithful, in whatever order the metadata list the
exports. -/
theorem C102_faithful_partial {chk : Bool} {items : List Item} {e : Expanded} (h : expand chk items = .ok e)
    (hn : ((functions items).map Func.name).Nodup) {m : Meta} (hm : Listing e m) {chk' : Bool} {code bs : Bytes}
    (hb : craft chk' code m = some bs) : Faithful items e.schema code bs := by
  obtain ⟨l, -, h2, -, h4⟩ := craft_some h hn hm hb
  intro c rest
  refine ⟨[.code { code, flags := 1, gasMode := .fixed, svmVersion := 0 }, .ctors m.ctors, .data [l]], l,
    { code, flags := 1, gasMode := .fixed, svmVersion := 0 }, ?_, rfl, rfl, fun name => ?_, rfl, h2⟩
  · unfold decTemplate
    rw [Dec.bind_ok (h4 c rest)]
    rfl
  · show some (decide (name ∈ m.ctors)) = _
    have := (ctors_perm h hn hm).mem_iff (a := name)
    simp only [this]

/-- After the deploy of a written message, with a gas limit that suffices or none, the stored template has the
Wasm file, the constructors and the layout of the source. -/
theorem C102_deployed {chk : Bool} {items : List Item} {e : Expanded} (h : expand chk items = .ok e)
    (hn : ((functions items).map Func.name).Nodup) {m : Meta} (hm : Listing e m) {chk' : Bool} {code bs : Bytes}
    (hb : craft chk' code m = some bs) (hlen : bs.length < 4294967295) {hs : Hasher} (hc : NoCollision hs)
    (s : Storage) (c : Bool) (envelope : Envelope)
    (hg : ∀ g, envelope.gasLimit = some g → 1000 * bs.length ≤ g.toNat) :
    ∃ s' r a ss cs l, deploy c hs envelope bs s = (s', some r) ∧ r.success = true ∧ r.addr = some a ∧
      out hs (readSections c a) s' = .ok ss ∧ codeSection ss = some cs ∧ cs.code = code ∧
      (∀ name, isCtor ss name = some (decide (name ∈ ctorNames items))) ∧
      ss.tryGet .data = some (.data [l]) ∧ Matches e.schema l := by
  obtain ⟨l, hd, h2, h3, h4⟩ := craft_some h hn hm hb
  have hsm := (C102_crafts_iff h hn hm chk' code).1 ⟨bs, hb⟩
  have hp := ctors_perm h hn hm
  have hdec := h4 c []
  rw [List.append_nil] at hdec
  obtain ⟨s', r, a, g, k1, k2, k3, -, -, k6, -⟩ := (C33_deploy_partial hc (s := s) c envelope bs [] _ hlen hdec
    (fun hx => by cases hx) (by
      intro cs hcs
      simp only [List.mem_cons, List.not_mem_nil, or_false, reduceCtorEq, false_or, Section.ctors.injEq] at hcs
      subst hcs
      have := hsm.count
      rw [hp.length_eq]
      omega) (by
      intro ls hls l' hl'
      simp only [List.mem_cons, List.not_mem_nil, or_false, reduceCtorEq, false_or, Section.data.injEq] at hls
      subst hls
      simp only [List.mem_cons, List.not_mem_nil, or_false] at hl'
      subst hl'
      rw [layout_length hd, hm.1]
      have := hsm.cells
      omega)).2 hg
  refine ⟨s', r, a, [.code { code, flags := 1, gasMode := .fixed, svmVersion := 0 }, .ctors m.ctors, .data [l]],
    { code, flags := 1, gasMode := .fixed, svmVersion := 0 }, l, k1, k2, k3, k6, rfl, rfl, fun name => ?_, rfl, h2⟩
  show some (decide (name ∈ m.ctors)) = _
  simp only [hp.mem_iff (a := name)]

theorem assertSection_ok {x : Section} {bs : Bytes} (h : encWithPreview x = some bs) (rest : Bytes) :
    assertSection x.kind (bs ++ rest) = .ok ((), rest) := by
  obtain ⟨k, n, b, hk, hn, -, rfl, hb⟩ := encWithPreview_some h
  unfold assertSection
  rw [List.append_assoc, List.append_assoc, roundTrip_kind.step hk, (roundTrip_num 4).step hn, if_pos rfl, hb,
    Dec.bind_ok (readBytes_append rfl)]
  rfl

/-- The tests that the CLI runs on the written file pass. -/
theorem C102_self_test {chk : Bool} {items : List Item} {e : Expanded} (h : expand chk items = .ok e)
    (hn : ((functions items).map Func.name).Nodup) {m : Meta} (hm : Listing e m) {chk' : Bool} {code bs : Bytes}
    (hb : craft chk' code m = some bs) (c : Bool) : selfTest c bs = true := by
  obtain ⟨ss, -, -, hd, -⟩ := C102_faithful_partial h hn hm hb c []
  rw [List.append_nil] at hd
  obtain ⟨l, -, -, h3, -⟩ := craft_some h hn hm hb
  obtain ⟨x, y, hx, hy, rfl, hnum⟩ := encSections_some h3
  obtain ⟨b1, r1, e1, g1, rfl⟩ := Enc.seq_eq_some.1 hy
  obtain ⟨b2, r2, e2, g2, rfl⟩ := Enc.seq_eq_some.1 g1
  obtain ⟨b3, r3, e3, g3, rfl⟩ := Enc.seq_eq_some.1 g2
  unfold selfTest
  rw [hd]
  dsimp only
  rw [(roundTrip_num 2).step hx, hnum, if_pos (show [Section.code { code, flags := 1, gasMode := .fixed, svmVersion := 0 },
    .ctors m.ctors, .data [l]].length = 3 from rfl)]
  have a1 := assertSection_ok e1 (b2 ++ (b3 ++ r3))
  have a2 := assertSection_ok e2 (b3 ++ r3)
  have a3 := assertSection_ok e3 r3
  simp only [Section.kind] at a1 a2 a3
  rw [Dec.bind_ok a1, Dec.bind_ok a2, a3]

/-- What the tests of the CLI accept is decoded as a template. -/
theorem C102_self_test_sound {c : Bool} {bs : Bytes} (h : selfTest c bs = true) :
    ∃ ss rest, decTemplate c none bs = .ok (ss, rest) := by
  unfold selfTest at h
  dsimp only at h
  split at h
  · rename_i x y hx hy
    exact ⟨_, _, hy⟩
  · cases h

/-! ## C103 -/

/-- **C103, exactly**: two crafted messages of the same template and the same Wasm file are equal if and only if
the metadata list the constructors in the same order. -/
theorem C103_equal_iff {chk : Bool} {items : List Item} {e : Expanded} (h : expand chk items = .ok e)
    (hn : ((functions items).map Func.name).Nodup) {m m' : Meta} (hm : Listing e m) (hm' : Listing e m')
    {chk' : Bool} {code : Bytes} {bs bs' : Bytes} (hb : craft chk' code m = some bs)
    (hb' : craft chk' code m' = some bs') : bs = bs' ↔ m.ctors = m'.ctors := by
  obtain ⟨l, h1, -, h3, h4⟩ := craft_some h hn hm hb
  obtain ⟨l', h1', -, h3', h4'⟩ := craft_some h hn hm' hb'
  constructor
  · rintro rfl
    have k1 := h4 true []
    rw [h4' true []] at k1
    simp only [Outcome.ok.injEq, Prod.mk.injEq, List.cons.injEq, Section.ctors.injEq] at k1
    exact k1.1.2.1.symm
  · intro hc
    rw [hm.1] at h1
    rw [hm'.1] at h1'
    rw [h1] at h1'
    cases h1'
    rw [hc, h3'] at h3
    exact (Option.some.inj h3).symm

/-- **C103, partial**: with at most one constructor the message does not depend on the order. Missing: templates
with several constructors. -/
theorem C103_reproducible_partial {chk : Bool} {items : List Item} {e : Expanded} (h : expand chk items = .ok e)
    (hn : ((functions items).map Func.name).Nodup) (h1 : (ctorNames items).length ≤ 1) {m m' : Meta}
    (hm : Listing e m) (hm' : Listing e m') (chk' : Bool) (code : Bytes) :
    craft chk' code m = craft chk' code m' := by
  have p := ctors_perm h hn hm
  have p' := ctors_perm h hn hm'
  have hc : m.ctors = m'.ctors := by
    match hx : ctorNames items with
    | [] =>
      rw [hx] at p p'
      rw [p.eq_nil, p'.eq_nil]
    | [a] =>
      rw [hx] at p p'
      rw [List.perm_singleton.1 p, List.perm_singleton.1 p']
    | a :: b :: l =>
      rw [hx] at h1
      simp at h1
  unfold craft
  rw [craftSections_eq, craftSections_eq, hm.1, hm'.1, hc]

theorem reverse_ne {α : Type} {l : List α} (hn : l.Nodup) (h2 : 2 ≤ l.length) : l.reverse ≠ l := by
  intro he
  have h0 : l[0]'(by omega) = l[l.length - 1]'(by omega) := by
    have : l.reverse[0]'(by rw [List.length_reverse]; omega) = l[l.length - 1]'(by omega) := by
      rw [List.getElem_reverse]
      rfl
    rw [← this]
    congr 1
    exact he.symm
  exact absurd h0 (List.pairwise_iff_getElem.1 hn 0 (l.length - 1) (by omega) (by omega) (by omega))

/-- **C103 is wrong for every template with two constructors**: two runs of the macro can list the exports in
different orders, and the messages are then different. -/
theorem C103_differs {chk : Bool} {items : List Item} {e : Expanded} (h : expand chk items = .ok e)
    (hn : ((functions items).map Func.name).Nodup) (h2 : 2 ≤ (ctorNames items).length) (chk' : Bool) (code : Bytes)
    (hs : Small (ctorNames items) e.schema code) : ∃ m m' bs bs', Listing e m ∧ Listing e m' ∧
      craft chk' code m = some bs ∧ craft chk' code m' = some bs' ∧ bs ≠ bs' := by
  let m : Meta := ⟨e.exports.map Prod.snd, e.schema⟩
  let m' : Meta := ⟨(e.exports.map Prod.snd).reverse, e.schema⟩
  have hm : Listing e m := ⟨rfl, .refl _⟩
  have hm' : Listing e m' := ⟨rfl, List.reverse_perm _⟩
  obtain ⟨bs, hb⟩ := (C102_crafts_iff h hn hm chk' code).2 hs
  obtain ⟨bs', hb'⟩ := (C102_crafts_iff h hn hm' chk' code).2 hs
  refine ⟨m, m', bs, bs', hm, hm', hb, hb', fun heq => ?_⟩
  have hc := (C103_equal_iff h hn hm hm' hb hb').1 heq
  have hr : m'.ctors = m.ctors.reverse := by
    simp only [Meta.ctors, m, m', List.filter_reverse, List.map_reverse]
  have p := ctors_perm h hn hm
  rw [hr] at hc
  refine reverse_ne ?_ ?_ hc.symm
  · refine p.nodup_iff.2 ?_
    unfold ctorNames
    exact hn.sublist (List.filter_sublist.map _)
  · rw [p.length_eq]
    exact h2

/-! ## Examples -/

/-- Two constructors, an endpoint and a storage struct. -/
def demoTwo : List Item :=
  [.struct ⟨[⟨word "storage", .none⟩], true, [⟨false, .prim .amount⟩, ⟨false, .array .address 3⟩]⟩,
    .func ⟨nameInit, [⟨word "ctor", .none⟩], true, true, true⟩,
    .func ⟨nameDefault, [⟨word "ctor", .doc nameInit⟩], true, true, true⟩,
    .func ⟨namePay, [⟨word "endpoint", .none⟩], true, true, true⟩]

def infoOf (items : List Item) : Option (List Var × List Export) :=
  (expand true items).toOption.map fun e => (e.schema, e.exports.map Prod.snd)

theorem demoTwo_info : infoOf demoTwo = some ([⟨0, 0, .amount, 8, none⟩, ⟨1, 8, .address, 20, some 3⟩],
    [⟨namePay, false, false, none⟩, ⟨nameDefault, true, false, some nameInit⟩, ⟨nameInit, true, false, none⟩]) := by
  decide +kernel

theorem demoTwo_ok : ∃ e, expand true demoTwo = .ok e ∧
    e.schema = [⟨0, 0, .amount, 8, none⟩, ⟨1, 8, .address, 20, some 3⟩] := by
  have h := demoTwo_info
  unfold infoOf at h
  cases he : expand true demoTwo with
  | ok e =>
    rw [he] at h
    exact ⟨e, rfl, (Prod.mk.inj (Option.some.inj h)).1⟩
  | err _ => rw [he] at h; cases h
  | panic => rw [he] at h; cases h

theorem demoTwo_names : ((functions demoTwo).map Func.name).Nodup ∧ ctorNames demoTwo = [nameInit, nameDefault] := by
  decide +kernel

theorem demoTwo_small {e : Expanded}
    (h : e.schema = [⟨0, 0, .amount, 8, none⟩, ⟨1, 8, .address, 20, some 3⟩]) (code : Bytes)
    (hc : code.length + 26 < 4294967295) : Small (ctorNames demoTwo) e.schema code := by
  rw [demoTwo_names.2, h]
  exact ⟨by decide, by decide +kernel, by decide +kernel, hc⟩

/-- **C103 is wrong.** -/
theorem C103_claim_false : ¬ C103_claim := by
  intro hc
  obtain ⟨e, he, hs⟩ := demoTwo_ok
  obtain ⟨hn, hx⟩ := demoTwo_names
  obtain ⟨m, m', bs, bs', h1, h2, h3, h4, h5⟩ := C103_differs he hn (by rw [hx]; decide) true [0]
    (demoTwo_small hs [0] (by decide))
  have := hc true true demoTwo e m m' [0] he hn h1 h2
  rw [h3, h4] at this
  exact h5 (Option.some.inj this)

/-- **C102 is wrong**: for a Wasm file of 4 GiB, and for 255 constructors or a large storage (`C102_crafts_iff`). -/
theorem C102_claim_false : ¬ C102_claim := by
  intro hc
  obtain ⟨e, he, hs⟩ := demoTwo_ok
  obtain ⟨hn, -⟩ := demoTwo_names
  have hm : Listing e ⟨e.exports.map Prod.snd, e.schema⟩ := ⟨rfl, .refl _⟩
  obtain ⟨bs, hb, -⟩ := hc true true demoTwo e _ (List.replicate 4294967295 0) he hn hm
  have := ((C102_crafts_iff he hn hm true _).1 ⟨bs, hb⟩).code
  rw [List.length_replicate] at this
  omega

/-- Non-vacuity of C102 and C103. -/
example : ∃ e m bs, expand true demoTwo = .ok e ∧ Listing e m ∧ craft true [0, 97, 115, 109] m = some bs := by
  obtain ⟨e, he, hs⟩ := demoTwo_ok
  have hm : Listing e ⟨e.exports.map Prod.snd, e.schema⟩ := ⟨rfl, .refl _⟩
  obtain ⟨bs, hb⟩ := (C102_crafts_iff he demoTwo_names.1 hm true [0, 97, 115, 109]).2
    (demoTwo_small hs _ (by decide))
  exact ⟨e, _, bs, he, hm, hb⟩

end Svm.Sdk.Macro
