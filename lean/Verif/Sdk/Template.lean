import Verif.Sdk.Link
import Verif.Sdk.Storage

/-!
# The macro `#[template]`: roles of functions and fundable hooks (C100, C101)

Attributes of functions and structs, their validation, the metadata and the functions that the macro
generates. Bodies of functions are not modelled, nor is what rustc checks afterwards, for instance that
the functions have different names.
-/

namespace Svm.Sdk.Macro

open Svm.Codec

/-! ## Model -/

/-- What follows the path of an attribute: nothing, `()`, `(x)`, `(doc = "..")`, `(x = ..` with another
`x`, anything else. -/
inductive Args where
  | none
  | unit
  | ident (x : Str)
  | doc (s : Str)
  | keyed
  | other
  deriving DecidableEq

/-- `syn::Attribute`. `path` is `none` for paths of more than one segment. -/
structure RawAttr where
  path : Option (List Char)
  args : Args
  deriving DecidableEq

/-- The errors that the macro reports. -/
inductive Err where
  | syntax
  | item
  | twoHooks
  | dup
  | ctorEndpoint
  | endpointHook
  | fundableHook
  | fundableAlone
  | order
  | sig
  | hookSig
  | twoStorage
  | storage (e : MacroError)
  deriving DecidableEq

/-- `FuncAttrKind`, function/attr.rs:48-55. -/
inductive AttrKind where
  | ctor
  | endpoint
  | fundable
  | fundableHook
  | other
  deriving DecidableEq

/-- `FuncAttr`, function/attr.rs:57-64. -/
inductive FuncAttr where
  | ctor (doc : Option Str)
  | endpoint (doc : Option Str)
  | fundable (hook : Option Str)
  | fundableHook (default : Bool)
  | other
  deriving DecidableEq

/-- `FuncAttr::kind`, function/attr.rs:66-76. -/
def FuncAttr.kind : FuncAttr → AttrKind
  | .ctor _ => .ctor
  | .endpoint _ => .endpoint
  | .fundable _ => .fundable
  | .fundableHook _ => .fundableHook
  | .other => .other

/-- `parse_attr_kind`, function/attr.rs:132-155. -/
def parseKind (path : Option (List Char)) : Outcome Err AttrKind :=
  match path with
  | none => .err .syntax
  | some p =>
    if p = "ctor".toList then .ok .ctor
    else if p = "endpoint".toList then .ok .endpoint
    else if p = "fundable".toList then .ok .fundable
    else if p = "fundable_hook".toList then .ok .fundableHook
    else .ok .other

/-- `parse_doc` with `Doc::parse`, function/attr.rs:29-46 and 90-96. -/
def parseDoc : Args → Outcome Err (Option Str)
  | .none => .ok none
  | .unit => .ok none
  | .doc s => .ok (some s)
  | .keyed => .panic
  | .ident _ => .err .syntax
  | .other => .err .syntax

/-- The arguments of `fundable_hook`, function/attr.rs:109-116: any identifier makes it the default. -/
def parseHook : Args → Outcome Err FuncAttr
  | .none => .ok (.fundableHook false)
  | .ident _ => .ok (.fundableHook true)
  | _ => .err .syntax

/-- The arguments of `fundable`, function/attr.rs:117-125. -/
def parseFundable : Args → Outcome Err FuncAttr
  | .none => .ok (.fundable none)
  | .ident x => .ok (.fundable (some x))
  | _ => .err .syntax

/-- `parse_attr`, function/attr.rs:89-130. -/
def parseAttr (a : RawAttr) : Outcome Err FuncAttr := do
  match ← parseKind a.path with
  | .ctor => do return .ctor (← parseDoc a.args)
  | .endpoint => do return .endpoint (← parseDoc a.args)
  | .fundableHook => parseHook a.args
  | .fundable => parseFundable a.args
  | .other => .ok .other

/-- A loop that stops at the first error or panic. -/
def mapO {α β : Type} (f : α → Outcome Err β) : List α → Outcome Err (List β)
  | [] => .ok []
  | a :: as => do
    let b ← f a
    let bs ← mapO f as
    return b :: bs

/-- `func_attrs`, function/attr.rs:78-87. -/
def funcAttrs (as : List RawAttr) : Outcome Err (List FuncAttr) := mapO parseAttr as

/-- `has_attr`, function/attr.rs:189-191. -/
def hasAttr (as : List FuncAttr) (k : AttrKind) : Bool := as.any fun a => a.kind = k

/-- `find_attr`, function/attr.rs:193-201. -/
def findAttr (as : List FuncAttr) (k : AttrKind) : Option FuncAttr := as.find? fun a => a.kind = k

/-- `has_default_fundable_hook_attr`, function/attr.rs:173-183. -/
def hasDefaultHook (as : List FuncAttr) : Bool := as.any fun a => a = .fundableHook true

/-- `validate_attrs_no_dups`, function/mod.rs:119-171; `seen` are the flags that are set. -/
def noDups : List AttrKind → List FuncAttr → Outcome Err Unit
  | _, [] => .ok ()
  | seen, a :: as =>
    if a.kind = .other then noDups seen as
    else if a.kind ∈ seen then .err .dup
    else noDups (a.kind :: seen) as

/-- `validate_attrs_usage`, function/mod.rs:173-219. -/
def usage (as : List FuncAttr) : Outcome Err Unit :=
  if hasAttr as .ctor && hasAttr as .endpoint then .err .ctorEndpoint
  else if hasAttr as .endpoint && hasAttr as .fundableHook then .err .endpointHook
  else if hasAttr as .fundable && hasAttr as .fundableHook then .err .fundableHook
  else if hasAttr as .fundable && !hasAttr as .endpoint && !hasAttr as .ctor then .err .fundableAlone
  else .ok ()

/-- `validate_attrs_order`, function/mod.rs:221-252; `seen` is `seen_ctor || seen_endpoint`. -/
def order : Bool → List FuncAttr → Outcome Err Unit
  | _, [] => .ok ()
  | seen, a :: as =>
    match a.kind with
    | .ctor => order true as
    | .endpoint => order true as
    | .fundable => if seen then .err .order else order seen as
    | _ => order seen as

/-- `validate_attrs`, function/mod.rs:87-93. -/
def validateAttrs (as : List FuncAttr) : Outcome Err Unit := do
  noDups [] as
  usage as
  order false as

/-- A function of the template. `sigOk`: `validate_sig` of endpoint.rs:168-216 accepts it; `typesOk`: the
types of parameters and result are known (`function_sig`, meta.rs:171-194); `hookSig`: it has neither
parameters nor a result (fundable_hook.rs:41-51). -/
structure Func where
  name : Str
  attrs : List RawAttr
  sigOk : Bool
  typesOk : Bool
  hookSig : Bool

/-- A struct of the template. -/
structure StructItem where
  attrs : List RawAttr
  named : Bool
  fields : List Field

/-- Items of the module; `refused` for all that `parse_template` refuses. -/
inductive Item where
  | func (f : Func)
  | struct (s : StructItem)
  | use
  | alias
  | refused

/-- `parse_struct_attr`, struct/attr.rs:41-78: whether it is `#[storage]`. -/
def structAttr (a : RawAttr) : Outcome Err Bool :=
  match a.path with
  | none => .err .syntax
  | some p => if p = "storage".toList then (if a.args = .none then .ok true else .panic) else .ok false

/-- `Struct`, struct/mod.rs:12-15. The attributes are `Ok` or `Err`. -/
structure Struct where
  attrs : Except Err (List Bool)
  named : Bool
  fields : List Field

/-- `Struct::new`, struct/mod.rs:18-25. -/
def Struct.new (s : StructItem) : Outcome Err Struct :=
  match mapO structAttr s.attrs with
  | .ok as => .ok ⟨.ok as, s.named, s.fields⟩
  | .err e => .ok ⟨.error e, s.named, s.fields⟩
  | .panic => .panic

/-- The loop of `parse_template`, template.rs:93-166. -/
def parseItems : List Item → Outcome Err (List Func × List Struct)
  | [] => .ok ([], [])
  | .func f :: is => do
    let r ← parseItems is
    return (f :: r.1, r.2)
  | .struct s :: is => do
    let s ← Struct.new s
    let r ← parseItems is
    return (r.1, s :: r.2)
  | .use :: is => parseItems is
  | .alias :: is => parseItems is
  | .refused :: _ => .err .item

/-- `extract_default_fundable_hook`, template.rs:187-210; the argument is the hook found so far. -/
def defaultHook : Option Str → List Func → Outcome Err (Option Str)
  | d, [] => .ok d
  | d, f :: fs => do
    let as ← .unwrapRes (funcAttrs f.attrs)
    if hasDefaultHook as then
      if d.isSome then .err .twoHooks else defaultHook (some f.name) fs
    else defaultHook d fs

/-- `Export`, meta.rs:18-25, without the signature. `wasm_name` is the name, since the macro is compiled
for the host (function/mod.rs:57-63). -/
structure Export where
  name : Str
  isCtor : Bool
  isFundable : Bool
  doc : Option Str
  deriving DecidableEq

/-- The iterator of `template_meta` and `export_schema`, meta.rs:100-113 and 138-169, for one function. -/
def exportOf (f : Func) : Outcome Err (Option Export) := do
  let as ← .unwrapRes (funcAttrs f.attrs)
  if hasAttr as .endpoint || hasAttr as .ctor then
    let doc := match findAttr as (if hasAttr as .ctor then .ctor else .endpoint) with
      | some (.ctor d) => d
      | some (.endpoint d) => d
      | _ => none
    if f.typesOk then return some ⟨f.name, hasAttr as .ctor, hasAttr as .fundable, doc⟩ else .panic
  else return none

/-- `template_schema`, meta.rs:124-136. -/
def schema (chk : Bool) : List Struct → Outcome Err (List Var)
  | [] => .ok []
  | s :: ss =>
    match s.attrs with
    | .ok as => if as.any id then .unwrapRes (storageVars chk s.named s.fields) else schema chk ss
    | .error _ => .panic

/-- `validate_structs`, template.rs:230-252. -/
def validateStructs : Bool → List Struct → Outcome Err Unit
  | _, [] => .ok ()
  | seen, s :: ss =>
    match s.attrs with
    | .ok as =>
      if as.any id then (if seen then .err .twoStorage else validateStructs true ss)
      else validateStructs seen ss
    | .error e => .err e

/-- `struct::expand`, struct/mod.rs:37-48, with `storage::expand`, storage.rs:10-31. -/
def expandStruct (chk : Bool) (s : Struct) : Outcome Err (List Var) :=
  match s.attrs with
  | .ok as =>
    if as.any id then
      match storageVars chk s.named s.fields with
      | .ok vs => .ok vs
      | .err e => .err (.storage e)
      | .panic => .panic
    else .panic
  | .error e => .err e

/-- What becomes of a function: exported without parameters, calling `hook` first if it got coins; a hook;
or unchanged. -/
inductive Role where
  | exported (hook : Option Str)
  | hook
  | plain
  deriving DecidableEq

/-- A generated function. -/
structure Gen where
  name : Str
  role : Role
  deriving DecidableEq

/-- `svm_fund`. -/
def svmFund : Str := ⟨[115, 118, 109, 95, 102, 117, 110, 100], by decide⟩

/-- The hook that the generated function calls, endpoint.rs:20-24 and `fundable::expand`,
fundable.rs:9-24. -/
def hookFor (dflt : Option Str) (as : List FuncAttr) : Option Str :=
  if hasAttr as .fundable then
    match findAttr as .fundable with
    | some (.fundable none) => some (dflt.getD svmFund)
    | some (.fundable (some h)) => some h
    | _ => none
  else none

/-- `endpoint::expand`, endpoint.rs:10-55, and `ctor::expand`, ctor.rs:7-13, which is the same. -/
def expandEndpoint (dflt : Option Str) (f : Func) (as : List FuncAttr) : Outcome Err Gen :=
  if f.sigOk then .ok ⟨f.name, .exported (hookFor dflt as)⟩ else .err .sig

/-- `function::expand`, function/mod.rs:67-85. -/
def expandFunc (dflt : Option Str) (f : Func) : Outcome Err Gen := do
  let as ← funcAttrs f.attrs
  validateAttrs as
  if hasAttr as .ctor then expandEndpoint dflt f as
  else if hasAttr as .endpoint then expandEndpoint dflt f as
  else if hasAttr as .fundableHook then
    if f.hookSig then .ok ⟨f.name, .hook⟩ else .err .hookSig
  else .ok ⟨f.name, .plain⟩

/-- What the macro makes of a template: the schema and the exports of the metadata, the functions, and
whether an empty `svm_fund` is added. -/
structure Expanded where
  schema : List Var
  exports : AMap Str Export
  gens : List Gen
  implicit : Bool

/-- `template::expand`, template.rs:55-83, with `parse_template` and `template_meta`. -/
def expand (chk : Bool) (items : List Item) : Outcome Err Expanded := do
  let r ← parseItems items
  let d ← defaultHook none r.1
  let vars ← schema chk r.2
  let exps ← mapO exportOf r.1
  validateStructs false r.2
  let _ ← mapO (expandStruct chk) r.2
  let gens ← mapO (expandFunc d) r.1
  return ⟨vars, AMap.insertAll [] ((exps.filterMap id).map fun x => (x.name, x)), gens, d.isNone⟩

/-- The functions of the host that the generated code itself calls because of hooks: `Node::value()` in
fundable.rs:26-42. -/
def Expanded.methods (e : Expanded) : List Method :=
  e.gens.flatMap fun g => match g.role with
    | .exported (some _) => [.value]
    | _ => []

/-! ## Spec -/

/-- The functions of the module, in order. -/
def functions (items : List Item) : List Func := items.filterMap fun
  | .func f => some f
  | _ => none

/-- How often `#[word]` or `#[word(..)]` is written above the function. -/
def marks (word : String) (f : Func) : Nat := (f.attrs.filter fun a => a.path = some word.toList).length

/-- At most one role, and coins are taken by constructors and endpoints only. -/
def OneRole (f : Func) : Prop :=
  marks "ctor" f + marks "endpoint" f + marks "fundable_hook" f ≤ 1 ∧
  marks "fundable" f ≤ marks "ctor" f + marks "endpoint" f

/-- What C100 says: in a template that the macro accepts, every function has at most one role. -/
def C100_claim : Prop :=
  ∀ (chk : Bool) (items : List Item) (e : Expanded), expand chk items = .ok e →
    ∀ f ∈ functions items, OneRole f

/-- What C101 says: the hook that a fundable function calls is marked as a hook, or is the empty hook that
the macro adds. -/
def C101_claim : Prop :=
  ∀ (chk : Bool) (items : List Item) (e : Expanded), expand chk items = .ok e →
    ∀ g ∈ e.gens, ∀ h, g.role = .exported (some h) →
      (h = svmFund ∧ e.implicit = true) ∨ ∃ f ∈ functions items, f.name = h ∧ 0 < marks "fundable_hook" f

/-! ## Lemmas -/

theorem mapO_ok {α β : Type} {f : α → Outcome Err β} : ∀ {as : List α} {bs : List β},
    mapO f as = .ok bs → List.Forall₂ (fun a b => f a = .ok b) as bs
  | [], bs, h => by cases h; exact .nil
  | a :: as, bs, h => by
    rw [mapO] at h
    obtain ⟨b, h1, h⟩ := bind_ok h
    obtain ⟨cs, h2, h⟩ := bind_ok h
    cases h
    exact .cons h1 (mapO_ok h2)

theorem unwrapRes_ok {ε ε' α : Type} {x : Outcome ε' α} {a : α}
    (h : (.unwrapRes x : Outcome ε α) = .ok a) : x = .ok a := by
  cases x with
  | ok b => cases h; rfl
  | err e => cases h
  | panic => cases h

theorem parseItems_functions : ∀ {items : List Item} {r : List Func × List Struct},
    parseItems items = .ok r → r.1 = functions items
  | [], r, h => by cases h; rfl
  | .func f :: is, r, h => by
    rw [parseItems] at h
    obtain ⟨s, h1, h⟩ := bind_ok h
    cases h
    simp only [functions, List.filterMap_cons]
    exact congrArg _ (parseItems_functions h1)
  | .struct s :: is, r, h => by
    rw [parseItems] at h
    obtain ⟨s', -, h⟩ := bind_ok h
    obtain ⟨r', h1, h⟩ := bind_ok h
    cases h
    exact (parseItems_functions h1 : r'.1 = functions is)
  | .use :: is, r, h => parseItems_functions (items := is) h
  | .alias :: is, r, h => parseItems_functions (items := is) h
  | .refused :: _, r, h => by cases h

/-- The steps of an expansion. -/
theorem expand_ok {chk : Bool} {items : List Item} {e : Expanded} (h : expand chk items = .ok e) :
    ∃ ss d exps, parseItems items = .ok (functions items, ss) ∧
      defaultHook none (functions items) = .ok d ∧ schema chk ss = .ok e.schema ∧
      mapO exportOf (functions items) = .ok exps ∧
      mapO (expandFunc d) (functions items) = .ok e.gens ∧ e.implicit = d.isNone ∧
      e.exports = AMap.insertAll [] ((exps.filterMap id).map fun x => (x.name, x)) ∧
      validateStructs false ss = .ok () ∧ ∃ vs, mapO (expandStruct chk) ss = .ok vs := by
  unfold expand at h
  obtain ⟨⟨fs, ss⟩, h1, h⟩ := bind_ok h
  obtain ⟨d, h2, h⟩ := bind_ok h
  obtain ⟨vars, h3, h⟩ := bind_ok h
  obtain ⟨exps, h4, h⟩ := bind_ok h
  obtain ⟨⟨⟩, h5, h⟩ := bind_ok h
  obtain ⟨vs, h6, h⟩ := bind_ok h
  obtain ⟨gens, h7, h⟩ := bind_ok h
  cases h
  have := parseItems_functions h1
  dsimp only at this
  subst this
  exact ⟨ss, d, exps, h1, h2, h3, h4, h7, rfl, rfl, h5, vs, h6⟩

/-- The word of an attribute. -/
def AttrKind.word : AttrKind → String
  | .ctor => "ctor"
  | .endpoint => "endpoint"
  | .fundable => "fundable"
  | .fundableHook => "fundable_hook"
  | .other => ""

theorem parseKind_ok {path : Option (List Char)} {k : AttrKind} (h : parseKind path = .ok k)
    {k' : AttrKind} (hk : k' ≠ .other) : k = k' ↔ path = some k'.word.toList := by
  unfold parseKind at h
  cases path with
  | none => cases h
  | some p =>
    simp only at h
    split at h
    · cases h; subst_vars; cases k' <;> simp [AttrKind.word] at hk ⊢
    split at h
    · cases h; subst_vars; cases k' <;> simp [AttrKind.word] at hk ⊢
    split at h
    · cases h; subst_vars; cases k' <;> simp [AttrKind.word] at hk ⊢
    split at h
    · cases h; subst_vars; cases k' <;> simp [AttrKind.word] at hk ⊢
    · cases h
      cases k' <;> simp_all [AttrKind.word]

theorem parseAttr_kind {a : RawAttr} {b : FuncAttr} (h : parseAttr a = .ok b) :
    parseKind a.path = .ok b.kind := by
  unfold parseAttr at h
  obtain ⟨k, h1, h⟩ := bind_ok h
  rw [h1]
  cases k with
  | ctor =>
    obtain ⟨d, -, h⟩ := bind_ok h
    cases h; rfl
  | endpoint =>
    obtain ⟨d, -, h⟩ := bind_ok h
    cases h; rfl
  | fundableHook =>
    simp only [parseHook] at h
    split at h <;> cases h <;> rfl
  | fundable =>
    simp only [parseFundable] at h
    split at h <;> cases h <;> rfl
  | other => cases h; rfl

/-- The kinds of the attributes, without others. -/
def kinds (as : List FuncAttr) : List AttrKind := (as.map FuncAttr.kind).filter fun k => k ≠ .other

theorem marks_eq {k : AttrKind} (hk : k ≠ .other) : ∀ {raw : List RawAttr} {as : List FuncAttr},
    List.Forall₂ (fun a b => parseAttr a = .ok b) raw as →
      (raw.filter fun a => a.path = some k.word.toList).length = (kinds as).count k
  | [], [], _ => rfl
  | a :: raw, b :: as, .cons h1 h2 => by
    have ih := marks_eq hk h2
    have hw := parseKind_ok (parseAttr_kind h1) hk
    unfold kinds at ih ⊢
    rw [List.map_cons, List.filter_cons, List.filter_cons]
    by_cases hb : b.kind = k
    · rw [if_pos (by simpa using hw.1 hb), if_pos (by simpa [hb] using hk), List.length_cons, ih, hb,
        List.count_cons_self]
    · rw [if_neg (by simpa using fun h => hb (hw.2 h)), ih]
      split
      · rw [List.count_cons_of_ne hb]
      · rfl

theorem hasAttr_iff {as : List FuncAttr} {k : AttrKind} (hk : k ≠ .other) :
    hasAttr as k = true ↔ k ∈ kinds as := by
  unfold hasAttr kinds
  simp only [List.any_eq_true, decide_eq_true_eq, List.mem_filter, List.mem_map, hk, ne_eq, not_false_eq_true,
    and_true]

theorem noDups_iff : ∀ {as : List FuncAttr} {seen : List AttrKind},
    noDups seen as = .ok () ↔ (kinds as).Nodup ∧ ∀ k ∈ kinds as, k ∉ seen
  | [], seen => by simp [noDups, kinds]
  | a :: as, seen => by
    rw [noDups]
    by_cases ha : a.kind = .other
    · have hk : kinds (a :: as) = kinds as := by simp [kinds, ha]
      rw [if_pos ha, hk]
      exact noDups_iff
    · have hk : kinds (a :: as) = a.kind :: kinds as := by simp [kinds, ha]
      rw [if_neg ha, hk]
      by_cases hs : a.kind ∈ seen
      · rw [if_pos hs]
        constructor
        · intro h; cases h
        · rintro ⟨-, h⟩
          exact absurd hs (h _ (List.mem_cons_self ..))
      · rw [if_neg hs, noDups_iff, List.nodup_cons]
        constructor
        · rintro ⟨h1, h2⟩
          refine ⟨⟨fun hm => h2 _ hm (List.mem_cons_self ..), h1⟩, fun k hm => ?_⟩
          rcases List.mem_cons.1 hm with rfl | hm
          · exact hs
          · exact fun h' => h2 k hm (List.mem_cons_of_mem _ h')
        · rintro ⟨⟨h1, h2⟩, h3⟩
          refine ⟨h2, fun k hm h' => ?_⟩
          rcases List.mem_cons.1 h' with rfl | h'
          · exact h1 hm
          · exact h3 k (List.mem_cons_of_mem _ hm) h'

/-- No `fundable` after a constructor or endpoint. -/
def ordered : Bool → List AttrKind → Bool
  | _, [] => true
  | seen, k :: ks =>
    match k with
    | .ctor => ordered true ks
    | .endpoint => ordered true ks
    | .fundable => !seen && ordered seen ks
    | _ => ordered seen ks

theorem order_iff : ∀ {as : List FuncAttr} {seen : Bool},
    order seen as = .ok () ↔ ordered seen (kinds as) = true
  | [], seen => by simp [order, ordered, kinds]
  | a :: as, seen => by
    rw [order]
    cases ha : a.kind with
    | ctor =>
      have hk : kinds (a :: as) = .ctor :: kinds as := by simp [kinds, ha]
      rw [hk]; exact order_iff
    | endpoint =>
      have hk : kinds (a :: as) = .endpoint :: kinds as := by simp [kinds, ha]
      rw [hk]; exact order_iff
    | fundable =>
      have hk : kinds (a :: as) = .fundable :: kinds as := by simp [kinds, ha]
      rw [hk]
      cases seen with
      | true => simp [ordered]
      | false => simp [ordered, order_iff]
    | fundableHook =>
      have hk : kinds (a :: as) = .fundableHook :: kinds as := by simp [kinds, ha]
      rw [hk]; exact order_iff
    | other =>
      have hk : kinds (a :: as) = kinds as := by simp [kinds, ha]
      rw [hk]; exact order_iff

/-- The check on kinds. -/
def fine (ks : List AttrKind) : Bool :=
  !(ks.contains .ctor && ks.contains .endpoint) && !(ks.contains .endpoint && ks.contains .fundableHook) &&
  !(ks.contains .fundable && ks.contains .fundableHook) &&
  !(ks.contains .fundable && !ks.contains .endpoint && !ks.contains .ctor) && ordered false ks

theorem usage_iff {as : List FuncAttr} : usage as = .ok () ∧ ordered false (kinds as) = true ↔
    fine (kinds as) = true := by
  have e (k) (hk : k ≠ AttrKind.other) : hasAttr as k = (kinds as).contains k := by
    rw [Bool.eq_iff_iff, hasAttr_iff hk, List.contains_iff_mem]
  unfold usage fine
  rw [e _ (by decide), e _ (by decide), e _ (by decide), e _ (by decide)]
  cases (kinds as).contains .ctor <;> cases (kinds as).contains .endpoint <;>
    cases (kinds as).contains .fundable <;> cases (kinds as).contains .fundableHook <;>
    cases ordered false (kinds as) <;> simp

/-- The attributes that a function may have, besides others, from top to bottom. -/
def allowed : List (List AttrKind) :=
  [[], [.ctor], [.endpoint], [.fundableHook], [.fundable, .ctor], [.fundable, .endpoint],
    [.ctor, .fundableHook], [.fundableHook, .ctor]]

theorem fine_iff {ks : List AttrKind} (ho : AttrKind.other ∉ ks) :
    ks.Nodup ∧ fine ks = true ↔ ks ∈ allowed := by
  have hlen : ks.Nodup → ks.length ≤ 4 := by
    intro hn
    have hsub : ks ⊆ [.ctor, .endpoint, .fundable, .fundableHook] := by
      intro k hk
      cases k <;> simp
      exact ho hk
    simpa using (List.subperm_of_subset hn hsub).length_le
  match ks with
  | [] => decide
  | [a] => revert ho; cases a <;> decide
  | [a, b] => revert ho; cases a <;> cases b <;> decide
  | [a, b, c] => revert ho; cases a <;> cases b <;> cases c <;> decide
  | [a, b, c, d] => revert ho; cases a <;> cases b <;> cases c <;> cases d <;> decide
  | a :: b :: c :: d :: x :: l =>
    constructor
    · rintro ⟨h, -⟩
      have := hlen h
      simp at this
    · intro h
      simp [allowed] at h

/-- `validate_attrs` accepts exactly these lists. -/
theorem validateAttrs_iff {as : List FuncAttr} : validateAttrs as = .ok () ↔ kinds as ∈ allowed := by
  have ho : AttrKind.other ∉ kinds as := by simp [kinds]
  rw [← fine_iff ho, ← usage_iff, ← order_iff, show (kinds as).Nodup ↔ noDups [] as = .ok () by
    rw [noDups_iff]; simp]
  unfold validateAttrs
  constructor
  · intro h
    obtain ⟨⟨⟩, h1, h⟩ := bind_ok h
    obtain ⟨⟨⟩, h2, h⟩ := bind_ok h
    exact ⟨h1, h2, h⟩
  · rintro ⟨h1, h2, h3⟩
    rw [h1, Outcome.ok_bind, h2, Outcome.ok_bind, h3]

theorem forall2_left {α β : Type} {R : α → β → Prop} : ∀ {as : List α} {bs : List β},
    List.Forall₂ R as bs → ∀ a ∈ as, ∃ b ∈ bs, R a b
  | _, _, .nil, a, h => by simp at h
  | _, _, .cons h1 h2, a, h => by
    rcases List.mem_cons.1 h with rfl | h
    · exact ⟨_, List.mem_cons_self .., h1⟩
    · obtain ⟨b, hb, hr⟩ := forall2_left h2 a h
      exact ⟨b, List.mem_cons_of_mem _ hb, hr⟩

theorem forall2_right {α β : Type} {R : α → β → Prop} : ∀ {as : List α} {bs : List β},
    List.Forall₂ R as bs → ∀ b ∈ bs, ∃ a ∈ as, R a b
  | _, _, .nil, a, h => by simp at h
  | _, _, .cons h1 h2, a, h => by
    rcases List.mem_cons.1 h with rfl | h
    · exact ⟨_, List.mem_cons_self .., h1⟩
    · obtain ⟨b, hb, hr⟩ := forall2_right h2 a h
      exact ⟨b, List.mem_cons_of_mem _ hb, hr⟩

theorem marks_kinds {f : Func} {as : List FuncAttr} (h : funcAttrs f.attrs = .ok as) {k : AttrKind}
    (hk : k ≠ .other) : marks k.word f = (kinds as).count k := marks_eq hk (mapO_ok h)

/-- What is known of the attributes of an accepted function. -/
theorem expandFunc_ok {d : Option Str} {f : Func} {g : Gen} (h : expandFunc d f = .ok g) :
    ∃ as, funcAttrs f.attrs = .ok as ∧ kinds as ∈ allowed ∧ g.name = f.name ∧
      g.role = if hasAttr as .ctor || hasAttr as .endpoint then .exported (hookFor d as)
        else if hasAttr as .fundableHook then .hook else .plain := by
  unfold expandFunc at h
  obtain ⟨as, h1, h⟩ := bind_ok h
  obtain ⟨⟨⟩, h2, h⟩ := bind_ok h
  refine ⟨as, h1, validateAttrs_iff.1 h2, ?_⟩
  unfold expandEndpoint at h
  cases hc : hasAttr as .ctor <;> cases he : hasAttr as .endpoint <;>
    cases hk : hasAttr as .fundableHook <;> simp [hc, he, hk] at h ⊢
  all_goals first
    | (split at h <;> cases h <;> exact ⟨rfl, rfl⟩)
    | (cases h; exact ⟨rfl, rfl⟩)

/-- The counts of the attributes of an accepted function. -/
theorem allowed_counts {ks : List AttrKind} (h : ks ∈ allowed) :
    (ks.count .ctor + ks.count .endpoint + ks.count .fundableHook ≤ 1 ∧
      ks.count .fundable ≤ ks.count .ctor + ks.count .endpoint ∨
      ks.count .ctor = 1 ∧ ks.count .fundableHook = 1 ∧ ks.count .endpoint = 0 ∧ ks.count .fundable = 0) := by
  revert h
  generalize hl : allowed = l
  unfold allowed at hl
  subst hl
  intro h
  simp only [List.mem_cons, List.not_mem_nil, or_false] at h
  rcases h with rfl | rfl | rfl | rfl | rfl | rfl | rfl | rfl <;> decide

/-- The words of the attributes that mean something to the macro. -/
def words (raw : List RawAttr) : List (List Char) :=
  (raw.filterMap RawAttr.path).filter fun p =>
    p = "ctor".toList ∨ p = "endpoint".toList ∨ p = "fundable".toList ∨ p = "fundable_hook".toList

theorem words_eq : ∀ {raw : List RawAttr} {as : List FuncAttr},
    List.Forall₂ (fun a b => parseAttr a = .ok b) raw as →
      words raw = (kinds as).map fun k => k.word.toList
  | [], [], _ => rfl
  | a :: raw, b :: as, .cons h1 h2 => by
    have ih := words_eq h2
    have hp := parseAttr_kind h1
    have hw := @parseKind_ok _ _ hp
    unfold words kinds at ih ⊢
    cases ha : a.path with
    | none => rw [ha] at hp; cases hp
    | some p =>
      rw [List.filterMap_cons, ha]
      simp only [List.filter_cons, List.map_cons]
      rw [ih]
      have w1 := @hw .ctor (by decide)
      have w2 := @hw .endpoint (by decide)
      have w3 := @hw .fundable (by decide)
      have w4 := @hw .fundableHook (by decide)
      rw [ha, Option.some.injEq] at w1 w2 w3 w4
      simp only [AttrKind.word] at w1 w2 w3 w4
      simp only [← w1, ← w2, ← w3, ← w4]
      cases hb : b.kind with
      | ctor => simp [AttrKind.word, w1.1 hb]
      | endpoint => simp [AttrKind.word, w2.1 hb]
      | fundable => simp [AttrKind.word, w3.1 hb]
      | fundableHook => simp [AttrKind.word, w4.1 hb]
      | other => simp

theorem map_word_mem {ks : List AttrKind} :
    ks.map (fun k => k.word.toList) ∈ allowed.map (fun ks => ks.map fun k => k.word.toList) ↔ ks ∈ allowed := by
  constructor
  · intro h
    obtain ⟨l, hl, he⟩ := List.mem_map.1 h
    have hinj : Function.Injective fun k : AttrKind => k.word.toList := by
      intro a b hab
      revert hab
      cases a <;> cases b <;> simp [AttrKind.word]
    rw [List.map_injective_iff.2 hinj he] at hl
    exact hl
  · exact fun h => List.mem_map_of_mem h

/-! ## C100 -/

/-- **C100, exactly**: attributes that can be parsed are accepted if and only if the ones that mean something
to the macro are, from top to bottom, one of these lists. -/
theorem C100_attrs_iff {raw : List RawAttr} {as : List FuncAttr} (h : funcAttrs raw = .ok as) :
    validateAttrs as = .ok () ↔ words raw ∈ [[], ["ctor".toList], ["endpoint".toList], ["fundable_hook".toList],
      ["fundable".toList, "ctor".toList], ["fundable".toList, "endpoint".toList],
      ["ctor".toList, "fundable_hook".toList], ["fundable_hook".toList, "ctor".toList]] := by
  rw [validateAttrs_iff, words_eq (mapO_ok h), ← map_word_mem]
  rfl

/-- **C100, partial.** Every function has at most one role, unless it is both a constructor and a hook. -/
theorem C100_roles_partial {chk : Bool} {items : List Item} {e : Expanded} (h : expand chk items = .ok e)
    {f : Func} (hf : f ∈ functions items) :
    OneRole f ∨ marks "ctor" f = 1 ∧ marks "fundable_hook" f = 1 ∧ marks "endpoint" f = 0 ∧
      marks "fundable" f = 0 := by
  obtain ⟨ss, d, exps, -, -, -, -, h5, -⟩ := expand_ok h
  obtain ⟨g, -, hg⟩ := forall2_left (mapO_ok h5) f hf
  obtain ⟨as, h1, h2, -⟩ := expandFunc_ok hg
  have := allowed_counts h2
  unfold OneRole
  have e1 := marks_kinds h1 (k := .ctor) (by decide)
  have e2 := marks_kinds h1 (k := .endpoint) (by decide)
  have e3 := marks_kinds h1 (k := .fundable) (by decide)
  have e4 := marks_kinds h1 (k := .fundableHook) (by decide)
  simp only [AttrKind.word] at e1 e2 e3 e4
  rw [e1, e2, e3, e4]
  exact this

theorem mem_count {as : List FuncAttr} {k : AttrKind} (hk : k ≠ .other) :
    hasAttr as k = true ↔ 0 < (kinds as).count k := by
  rw [hasAttr_iff hk, List.count_pos_iff]

/-- The function that is generated for `f` can be called from outside if and only if `f` is a constructor or
an endpoint, and the functions have the names of the template, in order. -/
theorem C100_exported {chk : Bool} {items : List Item} {e : Expanded} (h : expand chk items = .ok e) :
    List.Forall₂ (fun f g => g.name = f.name ∧
      ((∃ hook, g.role = .exported hook) ↔ 0 < marks "ctor" f + marks "endpoint" f)) (functions items) e.gens := by
  obtain ⟨ss, d, exps, -, -, -, -, h5, -⟩ := expand_ok h
  refine (mapO_ok h5).imp fun f g hg => ?_
  obtain ⟨as, h1, -, h3, h4⟩ := expandFunc_ok hg
  refine ⟨h3, ?_⟩
  have e1 := marks_kinds h1 (k := .ctor) (by decide)
  have e2 := marks_kinds h1 (k := .endpoint) (by decide)
  simp only [AttrKind.word] at e1 e2
  have m1 := mem_count (as := as) (k := .ctor) (by decide)
  have m2 := mem_count (as := as) (k := .endpoint) (by decide)
  rw [e1, e2, h4]
  by_cases hc : hasAttr as .ctor = true
  · have := m1.1 hc
    simp only [hc, Bool.true_or, if_true]
    exact ⟨fun _ => by omega, fun _ => ⟨_, rfl⟩⟩
  · by_cases he : hasAttr as .endpoint = true
    · have := m2.1 he
      simp only [he, Bool.or_true, if_true]
      exact ⟨fun _ => by omega, fun _ => ⟨_, rfl⟩⟩
    · have n1 : ¬ 0 < (kinds as).count .ctor := fun h => hc (m1.2 h)
      have n2 : ¬ 0 < (kinds as).count .endpoint := fun h => he (m2.2 h)
      rw [if_neg (by simp [hc, he])]
      constructor
      · rintro ⟨hook, hx⟩
        split at hx <;> cases hx
      · intro hx; omega

/-- **C101**, signatures: the functions that the macro exports have a signature that it can read calldata for, and
a hook has neither parameters nor a result. (A function that is both a constructor and a hook is exported; its
signature as a hook is not checked.) -/
theorem C101_signatures {chk : Bool} {items : List Item} {e : Expanded} (h : expand chk items = .ok e) :
    List.Forall₂ (fun f g => (∀ hook, g.role = .exported hook → f.sigOk = true) ∧
      (0 < marks "fundable_hook" f → marks "ctor" f = 0 → f.hookSig = true)) (functions items) e.gens := by
  obtain ⟨ss, d, exps, -, -, -, -, h5, -⟩ := expand_ok h
  refine (mapO_ok h5).imp fun f g hg => ?_
  obtain ⟨as, h1, h2, -, -⟩ := expandFunc_ok hg
  have e1 := marks_kinds h1 (k := .ctor) (by decide)
  have e4 := marks_kinds h1 (k := .fundableHook) (by decide)
  simp only [AttrKind.word] at e1 e4
  have m1 := mem_count (as := as) (k := .ctor) (by decide)
  have m2 := mem_count (as := as) (k := .endpoint) (by decide)
  have m3 := mem_count (as := as) (k := .fundableHook) (by decide)
  have ha := allowed_counts h2
  unfold expandFunc at hg
  obtain ⟨as', h1', hg⟩ := bind_ok hg
  rw [h1] at h1'
  cases h1'
  obtain ⟨⟨⟩, -, hg⟩ := bind_ok hg
  unfold expandEndpoint at hg
  rw [e1, e4]
  constructor
  · intro hook hr
    cases hs : f.sigOk with
    | true => rfl
    | false =>
      rw [hs] at hg
      split at hg
      · cases hg
      · split at hg
        · cases hg
        · split at hg
          · split at hg
            · cases hg; cases hr
            · cases hg
          · cases hg; cases hr
  · intro hh hc0
    have n1 : ¬ hasAttr as .ctor = true := fun hx => by have := m1.1 hx; omega
    have n2 : ¬ hasAttr as .endpoint = true := fun hx => by have := m2.1 hx; omega
    rw [if_neg n1, if_neg n2, if_pos (m3.2 hh)] at hg
    cases hs : f.hookSig with
    | true => rfl
    | false => rw [hs] at hg; cases hg

theorem insertAll_nodup {K V : Type} [DecidableEq K] : ∀ (l : List (K × V)) (m : AMap K V),
    (l.map Prod.fst ++ m.map Prod.fst).Nodup → AMap.insertAll m l = l.reverse ++ m
  | [], m, _ => rfl
  | p :: l, m, h => by
    have hp : m.filter (fun q => q.1 ≠ p.1) = m := by
      rw [List.filter_eq_self]
      intro q hq
      rw [List.map_cons, List.cons_append, List.nodup_cons] at h
      have : q.1 ≠ p.1 := fun hx => h.1 (List.mem_append_right _ (hx ▸ List.mem_map_of_mem hq))
      simpa using this
    have hi : m.insert p.1 p.2 = p :: m := by
      unfold AMap.insert
      rw [hp]
    have := insertAll_nodup l (p :: m) (by
      rw [List.map_cons, List.cons_append] at h
      rw [List.map_cons]
      exact (List.perm_middle.nodup_iff).2 h)
    unfold AMap.insertAll at this ⊢
    rw [List.foldl_cons, hi, this, List.reverse_cons, List.append_assoc]
    rfl

theorem get_mem {K V : Type} [DecidableEq K] : ∀ {m : AMap K V}, (m.map Prod.fst).Nodup → ∀ k v,
    m.get k = some v ↔ (k, v) ∈ m
  | [], _, k, v => by simp
  | p :: m, h, k, v => by
    rw [List.map_cons, List.nodup_cons] at h
    rw [AMap.get_cons]
    by_cases hk : p.1 = k
    · rw [if_pos hk]
      constructor
      · intro hx
        cases hx
        subst hk
        exact List.mem_cons_self ..
      · intro hx
        rcases List.mem_cons.1 hx with rfl | hx
        · rfl
        · exact absurd (List.mem_map_of_mem (f := Prod.fst) hx) (by rw [← hk]; exact h.1)
    · rw [if_neg hk, get_mem h.2 k v]
      constructor
      · exact fun hx => List.mem_cons_of_mem _ hx
      · intro hx
        rcases List.mem_cons.1 hx with rfl | hx
        · exact absurd rfl hk
        · exact hx

/-- The export of a function: the name and the two marks. -/
def IsExport (f : Func) (x : Export) : Prop :=
  x.name = f.name ∧ (x.isCtor = true ↔ 0 < marks "ctor" f) ∧ (x.isFundable = true ↔ 0 < marks "fundable" f)

theorem exportOf_ok {f : Func} {o : Option Export} (h : exportOf f = .ok o) :
    (marks "ctor" f + marks "endpoint" f = 0 ∧ o = none) ∨
      (0 < marks "ctor" f + marks "endpoint" f ∧ ∃ x, o = some x ∧ IsExport f x) := by
  unfold exportOf at h
  obtain ⟨as, h1, h⟩ := bind_ok h
  have h1 := unwrapRes_ok h1
  have e1 := marks_kinds h1 (k := .ctor) (by decide)
  have e2 := marks_kinds h1 (k := .endpoint) (by decide)
  have e3 := marks_kinds h1 (k := .fundable) (by decide)
  simp only [AttrKind.word] at e1 e2 e3
  unfold IsExport
  rw [e1, e2, e3]
  have m1 := mem_count (as := as) (k := .ctor) (by decide)
  have m2 := mem_count (as := as) (k := .endpoint) (by decide)
  have m3 := mem_count (as := as) (k := .fundable) (by decide)
  split at h
  · rename_i hb
    dsimp only at h
    split at h
    · cases h
      refine .inr ⟨?_, _, rfl, rfl, m1, m3⟩
      rw [Bool.or_eq_true, m1, m2] at hb
      omega
    · cases h
  · rename_i hb
    cases h
    rw [Bool.or_eq_true, m1, m2] at hb
    exact .inl ⟨by omega, rfl⟩

/-- The exports are those of the constructors and endpoints, in order. -/
theorem exports_forall : ∀ {fs : List Func} {exps : List (Option Export)},
    List.Forall₂ (fun f o => exportOf f = .ok o) fs exps →
      List.Forall₂ IsExport (fs.filter fun f => 0 < marks "ctor" f + marks "endpoint" f) (exps.filterMap id)
  | _, _, .nil => .nil
  | _, _, .cons h1 h2 => by
    have ih := exports_forall h2
    rcases exportOf_ok h1 with ⟨ha, rfl⟩ | ⟨ha, x, rfl, hx⟩
    · rw [List.filter_cons, if_neg (by simp [ha]), List.filterMap_cons]
      exact ih
    · rw [List.filter_cons, if_pos (by simpa using ha), List.filterMap_cons]
      exact .cons hx ih

theorem forall2_names : ∀ {fs : List Func} {xs : List Export}, List.Forall₂ IsExport fs xs →
    xs.map Export.name = fs.map Func.name
  | _, _, .nil => rfl
  | _, _, .cons h1 h2 => by rw [List.map_cons, List.map_cons, forall2_names h2, h1.1]

/-- The exports of the metadata in some order. -/
theorem exports_list {chk : Bool} {items : List Item} {e : Expanded} (h : expand chk items = .ok e)
    (hn : ((functions items).map Func.name).Nodup) : ∃ xs : List Export,
      e.exports = (xs.map fun x => (x.name, x)).reverse ∧ (xs.map Export.name).Nodup ∧
      List.Forall₂ IsExport ((functions items).filter fun f => 0 < marks "ctor" f + marks "endpoint" f) xs := by
  obtain ⟨ss, d, exps, -, -, -, h4, -, -, h6, -⟩ := expand_ok h
  have hx := exports_forall (mapO_ok h4)
  have hnx : ((exps.filterMap id).map Export.name).Nodup := by
    rw [forall2_names hx]
    exact hn.sublist (List.filter_sublist.map _)
  refine ⟨_, ?_, hnx, hx⟩
  rw [h6, insertAll_nodup _ _ (by rw [List.map_map, List.map_nil, List.append_nil]; exact hnx),
    List.append_nil]

/-- **C100, metadata**: if the functions have different names, the metadata list exactly the constructors and
endpoints, each with the right kind. -/
theorem C100_metadata {chk : Bool} {items : List Item} {e : Expanded} (h : expand chk items = .ok e)
    (hn : ((functions items).map Func.name).Nodup) :
    (∀ f ∈ functions items, 0 < marks "ctor" f + marks "endpoint" f →
      ∃ x, e.exports.get f.name = some x ∧ IsExport f x) ∧
    ∀ n x, e.exports.get n = some x →
      ∃ f ∈ functions items, f.name = n ∧ 0 < marks "ctor" f + marks "endpoint" f ∧ IsExport f x := by
  obtain ⟨xs, h1, h2, h3⟩ := exports_list h hn
  have hk : (e.exports.map Prod.fst).Nodup := by
    rw [h1, List.map_reverse, List.map_map]
    exact (List.reverse_perm _).nodup_iff.2 h2
  have hg := get_mem hk
  constructor
  · intro f hf hm
    obtain ⟨x, hx, hfx⟩ := forall2_left h3 f (List.mem_filter.2 ⟨hf, by simpa using hm⟩)
    refine ⟨x, (hg _ _).2 ?_, hfx⟩
    rw [h1, List.mem_reverse, List.mem_map]
    exact ⟨x, hx, by rw [hfx.1]⟩
  · intro n x hx
    have := (hg _ _).1 hx
    rw [h1, List.mem_reverse, List.mem_map] at this
    obtain ⟨y, hy, he⟩ := this
    cases he
    obtain ⟨f, hf, hfx⟩ := forall2_right h3 x hy
    rw [List.mem_filter] at hf
    exact ⟨f, hf.1, hfx.1.symm, by simpa using hf.2, hfx⟩

/-! ## C101 -/

/-- `#[fundable_hook(x)]` is written above the function. -/
def HasDefault (f : Func) : Prop := ∃ x, ⟨some "fundable_hook".toList, .ident x⟩ ∈ f.attrs

theorem parse_default {a : RawAttr} {b : FuncAttr} (h : parseAttr a = .ok b) :
    b = .fundableHook true ↔ ∃ x, a = ⟨some "fundable_hook".toList, .ident x⟩ := by
  have hw := parseKind_ok (parseAttr_kind h) (k' := .fundableHook) (by decide)
  obtain ⟨path, args⟩ := a
  constructor
  · rintro rfl
    have hp := hw.1 rfl
    have hk := parseAttr_kind h
    unfold parseAttr at h
    rw [hk, Outcome.ok_bind] at h
    simp only [FuncAttr.kind] at h
    cases args with
    | ident x => exact ⟨x, by rw [show path = _ from hp]; rfl⟩
    | _ => cases h
  · rintro ⟨x, hx⟩
    cases hx
    have hk := hw.2 rfl
    have hp := parseAttr_kind h
    unfold parseAttr at h
    rw [hp, Outcome.ok_bind, hk] at h
    cases h
    rfl

theorem parse_fundable {a : RawAttr} {b : FuncAttr} (h : parseAttr a = .ok b) :
    (b = .fundable none ↔ a = ⟨some "fundable".toList, .none⟩) ∧
    ∀ x, b = .fundable (some x) ↔ a = ⟨some "fundable".toList, .ident x⟩ := by
  have hw := parseKind_ok (parseAttr_kind h) (k' := .fundable) (by decide)
  obtain ⟨path, args⟩ := a
  have back : ∀ ar, (⟨path, args⟩ : RawAttr) = ⟨some "fundable".toList, ar⟩ → parseFundable ar = .ok b := by
    intro ar hx
    cases hx
    have hk := hw.2 rfl
    have hp := parseAttr_kind h
    unfold parseAttr at h
    rw [hp, Outcome.ok_bind, hk] at h
    exact h
  have forth : b.kind = .fundable → path = some "fundable".toList ∧ parseFundable args = .ok b := by
    intro hb
    have hk := parseAttr_kind h
    unfold parseAttr at h
    rw [hk, Outcome.ok_bind, hb] at h
    exact ⟨hw.1 hb, h⟩
  refine ⟨⟨?_, ?_⟩, fun x => ⟨?_, ?_⟩⟩
  · rintro rfl
    obtain ⟨rfl, h2⟩ := forth rfl
    cases args <;> cases h2
    rfl
  · intro hx
    have := back _ hx
    cases this
    rfl
  · rintro rfl
    obtain ⟨rfl, h2⟩ := forth rfl
    cases args <;> cases h2
    rfl
  · intro hx
    have := back _ hx
    cases this
    rfl

theorem hasDefault_iff {f : Func} {as : List FuncAttr} (h : funcAttrs f.attrs = .ok as) :
    hasDefaultHook as = true ↔ HasDefault f := by
  have hf := mapO_ok h
  unfold hasDefaultHook HasDefault
  simp only [List.any_eq_true, decide_eq_true_eq]
  constructor
  · rintro ⟨b, hb, rfl⟩
    obtain ⟨a, ha, hr⟩ := forall2_right hf _ hb
    obtain ⟨x, rfl⟩ := (parse_default hr).1 rfl
    exact ⟨x, ha⟩
  · rintro ⟨x, hx⟩
    obtain ⟨b, hb, hr⟩ := forall2_left hf _ hx
    exact ⟨b, hb, (parse_default hr).2 ⟨x, rfl⟩⟩

theorem defaultHook_ok : ∀ {fs : List Func} {d d' : Option Str}, defaultHook d fs = .ok d' →
    (d' = d ∧ ∀ f ∈ fs, ¬ HasDefault f) ∨ (d = none ∧ ∃ l f r, fs = l ++ f :: r ∧ d' = some f.name ∧
      HasDefault f ∧ (∀ f' ∈ l, ¬ HasDefault f') ∧ ∀ f' ∈ r, ¬ HasDefault f')
  | [], d, d', h => by
    cases h
    exact .inl ⟨rfl, by simp⟩
  | f :: fs, d, d', h => by
    rw [defaultHook] at h
    obtain ⟨as, h1, h⟩ := bind_ok h
    have hd := hasDefault_iff (unwrapRes_ok h1)
    split at h
    · rename_i hb
      split at h
      · cases h
      · rename_i hs
        have hs : d = none := by simpa using hs
        rcases defaultHook_ok h with ⟨rfl, hn⟩ | ⟨hx, -⟩
        · exact .inr ⟨hs, [], f, fs, rfl, rfl, hd.1 hb, by simp, hn⟩
        · cases hx
    · rename_i hb
      have hb : ¬ HasDefault f := fun hx => hb (hd.2 hx)
      rcases defaultHook_ok h with ⟨rfl, hn⟩ | ⟨hs, l, g, r, rfl, h2, h3, h4, h5⟩
      · refine .inl ⟨rfl, fun f' hf => ?_⟩
        rcases List.mem_cons.1 hf with rfl | hf
        · exact hb
        · exact hn f' hf
      · refine .inr ⟨hs, f :: l, g, r, rfl, h2, h3, fun f' hf => ?_, h5⟩
        rcases List.mem_cons.1 hf with rfl | hf
        · exact hb
        · exact h4 f' hf

/-- The hook of a template: `svm_fund` if no function has `#[fundable_hook(..)]` with an argument, and else
the only one that has it. -/
def DefaultHook (items : List Item) (e : Expanded) (h : Str) : Prop :=
  (e.implicit = true ∧ h = svmFund ∧ ∀ f ∈ functions items, ¬ HasDefault f) ∨
  (e.implicit = false ∧ ∃ l f r, functions items = l ++ f :: r ∧ h = f.name ∧ HasDefault f ∧
    ∀ f' ∈ l ++ r, ¬ HasDefault f')

theorem find_fundable {as : List FuncAttr} (hn : (kinds as).count .fundable ≤ 1) {b : FuncAttr} (hb : b ∈ as)
    (hk : b.kind = .fundable) : findAttr as .fundable = some b := by
  induction as with
  | nil => simp at hb
  | cons a as ih =>
    unfold findAttr at ih ⊢
    rw [List.find?_cons]
    by_cases ha : a.kind = .fundable
    · have hk' : kinds (a :: as) = .fundable :: kinds as := by simp [kinds, ha]
      rw [hk', List.count_cons_self] at hn
      rcases List.mem_cons.1 hb with rfl | hb
      · simp [ha]
      · have hm : AttrKind.fundable ∈ kinds as := by
          rw [← hasAttr_iff (by decide)]
          simp only [hasAttr, List.any_eq_true, decide_eq_true_eq]
          exact ⟨b, hb, hk⟩
        have := List.count_pos_iff.2 hm
        omega
    · simp only [ha, decide_false]
      have hb : b ∈ as := by
        rcases List.mem_cons.1 hb with rfl | hb
        · exact absurd hk ha
        · exact hb
      refine ih ?_ hb
      refine Nat.le_trans ?_ hn
      unfold kinds
      rw [List.map_cons, List.filter_cons]
      split
      · exact List.count_le_count_cons
      · exact Nat.le_refl _

/-- **C101, exactly**: what the generated function of a constructor or endpoint calls first if it got coins:
nothing if it is not marked `#[fundable]`, whatever is named by `#[fundable(x)]`, and the hook of the template
for `#[fundable]`. -/
theorem C101_hooks {chk : Bool} {items : List Item} {e : Expanded} (h : expand chk items = .ok e) :
    List.Forall₂ (fun f g => 0 < marks "ctor" f + marks "endpoint" f →
      (marks "fundable" f = 0 → g.role = .exported none) ∧
      (∀ x, ⟨some "fundable".toList, .ident x⟩ ∈ f.attrs → g.role = .exported (some x)) ∧
      (⟨some "fundable".toList, .none⟩ ∈ f.attrs →
        ∃ x, g.role = .exported (some x) ∧ DefaultHook items e x)) (functions items) e.gens := by
  obtain ⟨ss, d, exps, -, h2, -, -, h5, h6, -⟩ := expand_ok h
  have hd : DefaultHook items e (d.getD svmFund) := by
    unfold DefaultHook
    rcases defaultHook_ok h2 with ⟨rfl, hn⟩ | ⟨-, l, f, r, hl, rfl, hf, h3, h4⟩
    · exact .inl ⟨h6, rfl, hn⟩
    · refine .inr ⟨h6, l, f, r, hl, rfl, hf, fun f' hm => ?_⟩
      rcases List.mem_append.1 hm with hm | hm
      · exact h3 f' hm
      · exact h4 f' hm
  refine (mapO_ok h5).imp fun f g hg hm => ?_
  obtain ⟨as, h1, ha, -, h4⟩ := expandFunc_ok hg
  have e1 := marks_kinds h1 (k := .ctor) (by decide)
  have e2 := marks_kinds h1 (k := .endpoint) (by decide)
  have e3 := marks_kinds h1 (k := .fundable) (by decide)
  simp only [AttrKind.word] at e1 e2 e3
  rw [e1, e2] at hm
  have hexp : (hasAttr as .ctor || hasAttr as .endpoint) = true := by
    rw [Bool.or_eq_true, mem_count (by decide), mem_count (by decide)]
    omega
  rw [hexp, if_pos rfl] at h4
  have hcount : (kinds as).count .fundable ≤ 1 := by
    rcases allowed_counts ha with ⟨c1, c2⟩ | ⟨c1, c2, c3, c4⟩ <;> omega
  have hfa := mapO_ok h1
  have found : ∀ (b : FuncAttr), b ∈ as → b.kind = .fundable →
      hasAttr as .fundable = true ∧ findAttr as .fundable = some b := by
    intro b hb hk
    refine ⟨?_, find_fundable hcount hb hk⟩
    simp only [hasAttr, List.any_eq_true, decide_eq_true_eq]
    exact ⟨b, hb, hk⟩
  rw [h4]
  unfold hookFor
  refine ⟨fun hz => ?_, fun x hx => ?_, fun hx => ?_⟩
  · rw [e3] at hz
    rw [if_neg]
    rw [mem_count (by decide)]
    omega
  · obtain ⟨b, hb, hr⟩ := forall2_left hfa _ hx
    have hb' := ((parse_fundable hr).2 x).2 rfl
    subst hb'
    obtain ⟨k1, k2⟩ := found _ hb rfl
    rw [if_pos k1, k2]
  · obtain ⟨b, hb, hr⟩ := forall2_left hfa _ hx
    have hb' := (parse_fundable hr).1.2 rfl
    subst hb'
    obtain ⟨k1, k2⟩ := found _ hb rfl
    rw [if_pos k1, k2]
    exact ⟨_, rfl, hd⟩

theorem hasDefault_marks {f : Func} (h : HasDefault f) : 0 < marks "fundable_hook" f := by
  obtain ⟨x, hx⟩ := h
  unfold marks
  rw [List.length_pos_iff_exists_mem]
  exact ⟨_, List.mem_filter.2 ⟨hx, by simp⟩⟩

/-- **C101, partial**: the hook of functions that are marked `#[fundable]` without a name. Missing: functions
that name their hook. -/
theorem C101_unnamed_partial {chk : Bool} {items : List Item} {e : Expanded} (h : expand chk items = .ok e) :
    List.Forall₂ (fun f g => (∀ x, ⟨some "fundable".toList, .ident x⟩ ∉ f.attrs) →
      ∀ x, g.role = .exported (some x) →
        (x = svmFund ∧ e.implicit = true) ∨ ∃ f ∈ functions items, f.name = x ∧ 0 < marks "fundable_hook" f)
      (functions items) e.gens := by
  obtain ⟨ss, d, exps, -, -, -, -, h5, -⟩ := expand_ok h
  have key := C101_hooks h
  have hexp := C100_exported h
  have all : List.Forall₂ (fun f g => expandFunc d f = .ok g ∧ (g.name = f.name ∧
      ((∃ hook, g.role = .exported hook) ↔ 0 < marks "ctor" f + marks "endpoint" f)) ∧
      (0 < marks "ctor" f + marks "endpoint" f →
      (marks "fundable" f = 0 → g.role = .exported none) ∧
      (∀ x, ⟨some "fundable".toList, .ident x⟩ ∈ f.attrs → g.role = .exported (some x)) ∧
      (⟨some "fundable".toList, .none⟩ ∈ f.attrs →
        ∃ x, g.role = .exported (some x) ∧ DefaultHook items e x))) (functions items) e.gens := by
    have h5 := mapO_ok h5
    rw [List.forall₂_iff_get] at h5 key hexp ⊢
    exact ⟨h5.1, fun i a b => ⟨h5.2 i a b, hexp.2 i a b, key.2 i a b⟩⟩
  refine all.imp ?_
  rintro f g ⟨hg, ⟨-, k1⟩, k2⟩ hnot x hx
  have hm := k1.1 ⟨_, hx⟩
  obtain ⟨c1, -, c3⟩ := k2 hm
  obtain ⟨as, a1, a2, -, a4⟩ := expandFunc_ok hg
  have e3 := marks_kinds a1 (k := .fundable) (by decide)
  simp only [AttrKind.word] at e3
  by_cases hz : marks "fundable" f = 0
  · rw [c1 hz] at hx
    cases hx
  · rw [e3] at hz
    have hb := (mem_count (as := as) (k := .fundable) (by decide)).2 (by omega)
    simp only [hasAttr, List.any_eq_true, decide_eq_true_eq] at hb
    obtain ⟨b, hb, hk⟩ := hb
    obtain ⟨a, ha, hr⟩ := forall2_right (mapO_ok a1) _ hb
    have hp := parse_fundable hr
    cases b with
    | fundable o =>
      cases o with
      | some y => exact absurd (((hp.2 y).1 rfl) ▸ ha) (hnot y)
      | none =>
        obtain ⟨y, hy, hd⟩ := c3 ((hp.1.1 rfl) ▸ ha)
        rw [hy] at hx
        cases hx
        rcases hd with ⟨i1, i2, -⟩ | ⟨-, l, f', r, i1, i2, i3, -⟩
        · exact .inl ⟨i2, i1⟩
        · exact .inr ⟨f', by rw [i1]; simp, i2.symm, hasDefault_marks i3⟩
    | ctor _ => cases hk
    | endpoint _ => cases hk
    | fundableHook _ => cases hk
    | other => cases hk

/-- **Fundable templates cannot be linked**: the code that asks for the coins imports a function that the
runtime does not provide, so a template with a function that calls a hook has a link error, whatever else it
uses. -/
theorem C101_unlinkable {e : Expanded} {g : Gen} (hg : g ∈ e.gens) {x : Str} (hr : g.role = .exported (some x))
    {m : Svm.Runtime.Module} {methods : List Method} (hs : ∀ y ∈ e.methods, y ∈ methods)
    (hl : Linked m (importsOf methods)) : m.linkError ≠ none := by
  intro hn
  have hv : Method.value ∈ e.methods := by
    unfold Expanded.methods
    rw [List.mem_flatMap]
    exact ⟨g, hg, by rw [hr]; simp⟩
  exact (C99_links hl).1 hn _ (hs _ hv)

/-- C101: other templates ask for no coins by themselves: the code generated because of hooks calls a function of the
host if and only if there is a function with a hook. -/
theorem C101_asks (e : Expanded) : e.methods ≠ [] ↔ ∃ g ∈ e.gens, ∃ x, g.role = .exported (some x) := by
  unfold Expanded.methods
  rw [Ne, List.flatMap_eq_nil_iff]
  push Not
  refine exists_congr fun g => and_congr_right fun _ => ?_
  split
  · rename_i x hx
    simp [hx]
  · rename_i hx
    simp only [ne_eq, not_true_eq_false, false_iff, not_exists]
    exact hx

/-! ## Examples -/

def word (s : String) : Option (List Char) := some s.toList

def nameInit : Str := ⟨[105, 110, 105, 116], by decide⟩
def namePay : Str := ⟨[112, 97, 121], by decide⟩
def nameDefault : Str := ⟨[100], by decide⟩

/-- `#[ctor] #[fundable_hook(d)] fn init()` and `#[fundable] #[endpoint] fn pay()`. -/
def demoBoth : List Item :=
  [.use, .func ⟨nameInit, [⟨word "ctor", .none⟩, ⟨word "fundable_hook", .ident nameDefault⟩], true, true, true⟩,
    .func ⟨namePay, [⟨word "fundable", .none⟩, ⟨word "endpoint", .none⟩], true, true, true⟩]

/-- `#[ctor] fn init()` and `#[fundable(init)] #[endpoint] fn pay()`. -/
def demoNamed : List Item :=
  [.func ⟨nameInit, [⟨word "ctor", .none⟩], true, true, true⟩,
    .func ⟨namePay, [⟨word "fundable", .ident nameInit⟩, ⟨word "endpoint", .none⟩], true, true, true⟩]

def gensOf (items : List Item) : Option (List Gen) := (expand true items).toOption.map Expanded.gens

theorem demoBoth_gens : gensOf demoBoth = some [⟨nameInit, .exported none⟩, ⟨namePay, .exported (some nameInit)⟩] := by
  decide +kernel

theorem demoNamed_gens :
    gensOf demoNamed = some [⟨nameInit, .exported none⟩, ⟨namePay, .exported (some nameInit)⟩] := by
  decide +kernel

theorem gensOf_some {items : List Item} {gs : List Gen} (h : gensOf items = some gs) :
    ∃ e, expand true items = .ok e ∧ e.gens = gs := by
  unfold gensOf at h
  cases he : expand true items with
  | ok e => rw [he] at h; cases h; exact ⟨e, rfl, rfl⟩
  | err _ => rw [he] at h; cases h
  | panic => rw [he] at h; cases h

/-- **C100 is wrong**: a constructor may be a hook, and is then called by a transaction that calls an
endpoint with coins. -/
theorem C100_claim_false : ¬ C100_claim := by
  intro hc
  obtain ⟨e, he, -⟩ := gensOf_some demoBoth_gens
  have := hc true demoBoth e he _ (List.mem_cons_self ..)
  revert this
  show ¬ OneRole _
  unfold OneRole
  decide +kernel

/-- **C101 is wrong**: `#[fundable(x)]` may name any function, for instance a constructor. -/
theorem C101_claim_false : ¬ C101_claim := by
  intro hc
  obtain ⟨e, he, hg⟩ := gensOf_some demoNamed_gens
  rcases hc true demoNamed e he ⟨namePay, .exported (some nameInit)⟩ (by rw [hg]; simp) nameInit rfl with
    ⟨h, -⟩ | ⟨f, hf, -, hm⟩
  · revert h
    decide +kernel
  · have : ∀ f ∈ functions demoNamed, marks "fundable_hook" f = 0 := by decide +kernel
    have := this f hf
    omega

/-- Non-vacuity: both templates are accepted, and the functions have different names. -/
example : (∃ e, expand true demoBoth = .ok e) ∧ (∃ e, expand true demoNamed = .ok e) ∧
    ((functions demoBoth).map Func.name).Nodup :=
  ⟨(gensOf_some demoBoth_gens).imp fun _ h => h.1, (gensOf_some demoNamed_gens).imp fun _ h => h.1,
    by decide +kernel⟩

end Svm.Sdk.Macro
