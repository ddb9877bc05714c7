import Verif.Wasm.Valid

/-!
# The required exports and the number of functions: properties C71, C72 and C73
-/

namespace Svm.Wasm

open Svm.Codec (Str)
open Svm.Runtime (svmAlloc svmVerify)

/-- The number of imported functions. -/
def Module.importCount (m : Module) : Nat := (m.imports.filter (·.isFunc)).length

/-- The type of the function with index `f`, if it is defined in the module. -/
def Module.typeOf (m : Module) (f : Nat) : Option FuncType :=
  if f < m.importCount then none else (m.functions[f - m.importCount]?).bind fun t => m.types[t]?

/-- The types required of the two special exports. -/
def required : List (Str × FuncType) := [(svmAlloc, ⟨[.i32], [.i32]⟩), (svmVerify, ⟨[], [.i32]⟩)]

theorem svmAlloc_ne_svmVerify : svmAlloc ≠ svmVerify := by
  intro h; exact absurd (congrArg Subtype.val h) (by decide)

/-- An export that must have a certain type. -/
def Export.Special (e : Export) : Prop := e.field = svmAlloc ∨ e.field = svmVerify

/-- An export that must have a certain type and is a function without type: imported, or with an
index out of bounds. -/
def Export.Untyped (m : Module) (e : Export) : Prop :=
  e.Special ∧ ∃ f, e.func = some f ∧ m.typeOf f = none

/-- An export that is not special, or a function of the required type. -/
def Export.Fine (m : Module) (e : Export) : Prop :=
  ∀ t, (e.field, t) ∈ required → ∃ f, e.func = some f ∧ m.typeOf f = some t

theorem validateFuncSignature_ok (m : Module) (name : Str) (e : Export) (ps rs : List Ty) :
    validateFuncSignature m name e ps rs = .ok () ↔ ∃ f, e.func = some f ∧ m.typeOf f = some ⟨ps, rs⟩ := by
  unfold validateFuncSignature
  cases he : e.func with
  | none => simp
  | some f =>
    have hic : (m.imports.filter (·.isFunc)).length = m.importCount := rfl
    simp only [hic, Option.some.injEq, exists_eq_left', Module.typeOf]
    by_cases h1 : f < m.importCount
    · simp [h1]
    · simp only [h1, if_false]
      cases h2 : m.functions[f - m.importCount]? with
      | none => simp
      | some t =>
        simp only [Option.bind_some]
        cases h3 : m.types[t]? with
        | none => simp
        | some ft =>
          obtain ⟨a, b⟩ := ft
          simp

theorem validateFuncSignature_panic (m : Module) (name : Str) (e : Export) (ps rs : List Ty) :
    validateFuncSignature m name e ps rs = .panic ↔ ∃ f, e.func = some f ∧ m.typeOf f = none := by
  unfold validateFuncSignature
  cases he : e.func with
  | none => simp
  | some f =>
    have hic : (m.imports.filter (·.isFunc)).length = m.importCount := rfl
    simp only [hic, Option.some.injEq, exists_eq_left', Module.typeOf]
    by_cases h1 : f < m.importCount
    · simp [h1]
    · simp only [h1, if_false]
      cases h2 : m.functions[f - m.importCount]? with
      | none => simp
      | some t =>
        simp only [Option.bind_some]
        cases h3 : m.types[t]? with
        | none => simp
        | some ft =>
          dsimp only
          split <;> simp

/-- The check of one export. -/
def checkExport (m : Module) (e : Export) : Outcome ProgramError Unit :=
  if e.field = svmAlloc then validateFuncSignature m svmAlloc e [.i32] [.i32]
  else if e.field = svmVerify then validateFuncSignature m svmVerify e [] [.i32]
  else .ok ()

theorem checkExport_ok (m : Module) (e : Export) : checkExport m e = .ok () ↔ e.Fine m := by
  unfold checkExport Export.Fine required
  by_cases h1 : e.field = svmAlloc
  · rw [if_pos h1, validateFuncSignature_ok]
    simp [h1, svmAlloc_ne_svmVerify]
  · rw [if_neg h1]
    by_cases h2 : e.field = svmVerify
    · rw [if_pos h2, validateFuncSignature_ok]
      simp [h2, svmAlloc_ne_svmVerify.symm]
    · rw [if_neg h2]
      simp [h1, h2]

theorem checkExport_panic (m : Module) (e : Export) : checkExport m e = .panic ↔ e.Untyped m := by
  unfold checkExport Export.Untyped Export.Special
  by_cases h1 : e.field = svmAlloc
  · rw [if_pos h1, validateFuncSignature_panic]
    simp [h1]
  · rw [if_neg h1]
    by_cases h2 : e.field = svmVerify
    · rw [if_pos h2, validateFuncSignature_panic]
      simp [h2]
    · rw [if_neg h2]
      simp [h1, h2]

theorem validateExportsLoop_cons (m : Module) (e : Export) (es : List Export) :
    validateExportsLoop m (e :: es) = (do checkExport m e; validateExportsLoop m es) := by
  unfold checkExport
  conv => lhs; unfold validateExportsLoop
  split
  · rfl
  · split <;> rfl

theorem validateExportsLoop_ok (m : Module) (es : List Export) :
    validateExportsLoop m es = .ok () ↔ ∀ e ∈ es, e.Fine m := by
  induction es with
  | nil => simp [validateExportsLoop]
  | cons e es ih =>
    rw [validateExportsLoop_cons, List.forall_mem_cons, ← ih, ← checkExport_ok]
    cases h : checkExport m e with
    | ok u => simp
    | err x => simp
    | panic => simp

theorem validateExportsLoop_panic (m : Module) (es : List Export) :
    validateExportsLoop m es = .panic ↔
      ∃ pre e post, es = pre ++ e :: post ∧ (∀ x ∈ pre, x.Fine m) ∧ e.Untyped m := by
  induction es with
  | nil => simp [validateExportsLoop]
  | cons e es ih =>
    rw [validateExportsLoop_cons]
    constructor
    · intro hp
      cases h : checkExport m e with
      | ok u =>
        rw [h, Outcome.ok_bind] at hp
        obtain ⟨pre, x, post, rfl, h1, h2⟩ := ih.1 hp
        exact ⟨e :: pre, x, post, rfl, List.forall_mem_cons.2 ⟨(checkExport_ok m e).1 h, h1⟩, h2⟩
      | err x => rw [h] at hp; cases hp
      | panic => exact ⟨[], e, es, rfl, by simp, (checkExport_panic m e).1 h⟩
    · rintro ⟨pre, x, post, he, h1, h2⟩
      cases pre with
      | nil =>
        cases he
        rw [(checkExport_panic m e).2 h2]; rfl
      | cons y pre =>
        cases he
        rw [(checkExport_ok m e).2 (h1 e List.mem_cons_self), Outcome.ok_bind]
        exact ih.2 ⟨pre, x, post, rfl, fun z hz => h1 z (List.mem_cons_of_mem _ hz), h2⟩

/-! ## The table of exports -/

/-- The step of `readExports`. -/
def exportStep (acc : List (Str × Nat)) (e : Str × Nat) : List (Str × Nat) :=
  if acc.any (fun x => x.1 = e.1) then acc.map (fun x => if x.1 = e.1 then e else x) else acc ++ [e]

theorem exportStep_spec (acc : List (Str × Nat)) (e : Str × Nat) :
    (∀ x ∈ exportStep acc e, x = e ∨ x ∈ acc) ∧ e ∈ exportStep acc e ∧
    (∀ x ∈ acc, ∃ y ∈ exportStep acc e, y.1 = x.1) := by
  unfold exportStep
  split
  · rename_i h
    obtain ⟨z, hz, hz1⟩ := List.any_eq_true.1 h
    simp at hz1
    refine ⟨fun x hx => ?_, ?_, fun x hx => ?_⟩
    · obtain ⟨y, hy, rfl⟩ := List.mem_map.1 hx
      split
      · exact .inl rfl
      · exact .inr hy
    · exact List.mem_map.2 ⟨z, hz, by rw [if_pos hz1]⟩
    · refine ⟨_, List.mem_map.2 ⟨x, hx, rfl⟩, ?_⟩
      split
      · rename_i h; exact h.symm
      · rfl
  · refine ⟨fun x hx => ?_, by simp, fun x hx => ⟨x, by simp [hx], rfl⟩⟩
    rcases List.mem_append.1 hx with h | h
    · exact .inr h
    · exact .inl (by simpa using h)

theorem exportStep_nodup (acc : List (Str × Nat)) (e : Str × Nat) (h : (acc.map (·.1)).Nodup) :
    ((exportStep acc e).map (·.1)).Nodup := by
  unfold exportStep
  split
  · have : (acc.map (fun x => if x.1 = e.1 then e else x)).map (·.1) = acc.map (·.1) := by
      rw [List.map_map]
      apply List.map_congr_left
      intro x _
      simp only [Function.comp]
      split
      · rename_i h; exact h.symm
      · rfl
    rw [this]; exact h
  · rename_i hn
    rw [List.map_append, List.nodup_append]
    refine ⟨h, by simp, fun a ha b hb => ?_⟩
    simp at hb
    subst hb
    rintro rfl
    obtain ⟨x, hx, hx1⟩ := List.mem_map.1 ha
    exact hn (List.any_eq_true.2 ⟨x, hx, by simpa using hx1⟩)

theorem exportFold_spec (es acc : List (Str × Nat)) :
    (∀ x ∈ es.foldl exportStep acc, x ∈ es ∨ x ∈ acc) ∧
    (∀ x, x ∈ es ∨ x ∈ acc → ∃ y ∈ es.foldl exportStep acc, y.1 = x.1) ∧
    ((acc.map (·.1)).Nodup → ((es.foldl exportStep acc).map (·.1)).Nodup) := by
  induction es generalizing acc with
  | nil => exact ⟨fun x h => .inr h, fun x h => ⟨x, h.resolve_left (by simp), rfl⟩, id⟩
  | cons e es ih =>
    obtain ⟨h1, h2, h3⟩ := ih (exportStep acc e)
    obtain ⟨s1, s2, s3⟩ := exportStep_spec acc e
    rw [List.foldl_cons]
    refine ⟨fun x hx => ?_, fun x hx => ?_, fun h => h3 (exportStep_nodup acc e h)⟩
    · rcases h1 x hx with h | h
      · exact .inl (List.mem_cons_of_mem _ h)
      · rcases s1 x h with rfl | h
        · exact .inl List.mem_cons_self
        · exact .inr h
    · rcases hx with hx | hx
      · rcases List.mem_cons.1 hx with rfl | hx
        · exact h2 _ (.inr s2)
        · exact h2 _ (.inl hx)
      · obtain ⟨y, hy, hy1⟩ := s3 x hx
        obtain ⟨z, hz, hz1⟩ := h2 y (.inr hy)
        exact ⟨z, hz, hz1.trans hy1⟩

theorem readExports_spec (m : Module) :
    (∀ x ∈ readExports m, (⟨x.1, some x.2⟩ : Export) ∈ m.exports) ∧
    (∀ n f, (⟨n, some f⟩ : Export) ∈ m.exports → ∃ g, (n, g) ∈ readExports m) ∧
    ((readExports m).map (·.1)).Nodup := by
  obtain ⟨h1, h2, h3⟩ := exportFold_spec (m.exports.filterMap fun e => e.func.map fun f => (e.field, f)) []
  refine ⟨fun x hx => ?_, fun n f h => ?_, h3 (by simp)⟩
  · rcases h1 x hx with h | h
    · obtain ⟨e, he, hm⟩ := List.mem_filterMap.1 h
      obtain ⟨n, o⟩ := e
      cases o with
      | none => cases hm
      | some f => cases hm; exact he
    · cases h
  · obtain ⟨y, hy, hy1⟩ := h2 (n, f) (.inl (List.mem_filterMap.2 ⟨_, h, rfl⟩))
    obtain ⟨a, b⟩ := y
    simp only at hy1
    subst hy1
    exact ⟨b, hy⟩

/-! ## C72 -/

/-- **C72**: an accepted program exports each of the two required functions, once, as a function
that the module defines (does not import) with the required type. -/
theorem C72_required_exports {chk : Bool} {read : Bytes → Option Module} {wasm : Bytes} {p : Program}
    (h : validateDeploy chk read wasm = .ok p) :
    ∃ m, read wasm = some m ∧ (p.exports.map (·.1)).Nodup ∧
      ∀ n t, (n, t) ∈ required → ∃ f, (n, f) ∈ p.exports ∧ m.importCount ≤ f ∧ m.typeOf f = some t := by
  obtain ⟨m, h1, -, -, h4, -, h6, -⟩ := programNew_ok (validateDeploy_ok h).1
  obtain ⟨r1, r2, r3⟩ := readExports_spec m
  refine ⟨m, h1, by rw [h4]; exact r3, fun n t hn => ?_⟩
  have hv := h6 rfl
  unfold moduleValidateExports at hv
  cases hl : validateExportsLoop m m.exports with
  | err e => rw [hl] at hv; cases hv
  | panic => rw [hl] at hv; cases hv
  | ok u =>
    rw [hl, Outcome.ok_bind] at hv
    have hfine := (validateExportsLoop_ok m m.exports).1 hl
    have hex : ∃ e ∈ m.exports, e.field = n := by
      split at hv
      · cases hv
      · rename_i ha
        split at hv
        · cases hv
        · rename_i hb
          simp only [Decidable.not_not, List.any_eq_true, decide_eq_true_eq] at ha hb
          simp only [required, List.mem_cons, Prod.mk.injEq, List.not_mem_nil, or_false] at hn
          rcases hn with ⟨rfl, -⟩ | ⟨rfl, -⟩
          · exact ha
          · exact hb
    obtain ⟨e, he, rfl⟩ := hex
    obtain ⟨f, hf, hty⟩ := hfine e he t hn
    obtain ⟨g, hg⟩ := r2 e.field f (by obtain ⟨a, b⟩ := e; simp only at hf; subst hf; exact he)
    obtain ⟨g', hg', hty'⟩ := hfine _ (r1 _ hg) t hn
    cases hg'
    refine ⟨g, by rw [h4]; exact hg, ?_, hty'⟩
    unfold Module.typeOf at hty'
    split at hty'
    · cases hty'
    · omega

/-- Non-vacuity of C72: `floatModule` is accepted. -/
example : (validateDeploy true (fun _ => some floatModule) []).isOk = true := rfl

/-! ## C71 -/

/-- C71: deploy validation never crashes. -/
def C71_claim : Prop :=
  ∀ (chk : Bool) (read : Bytes → Option Module) (wasm : Bytes), validateDeploy chk read wasm ≠ .panic

/-- A module that exports an imported function as `svm_alloc`. -/
def reexport : Module where
  types := [⟨[.i32], [.i32]⟩]
  imports := [⟨svmVerify, svmAlloc, true⟩]
  functions := []
  exports := [⟨svmAlloc, some 0⟩]
  code := some []

/-- The code violates C71. -/
theorem C71_claim_false : ¬ C71_claim := fun h => h true (fun _ => some reexport) [] rfl

theorem validateWasm_false_ne_panic (chk : Bool) (p : Program) : validateWasm chk false p ≠ .panic := by
  by_cases hc : NoLoops p ∧ SmallCalls p ∧ (∀ a, ¬ Calls p a a)
  · obtain ⟨cs, e1, e2, -⟩ := (visit_spec p).1 hc
    obtain ⟨g, g1, g2, g3⟩ := Gas.graph_of_cmds (D := Unit) () cs (by
      intro a b hab e
      subst e
      exact hc.2.2 a ((e2 a a).1 hab))
    unfold validateWasm
    rw [e1]
    simp only [lift, Outcome.ok_bind, g1, Outcome.unwrapOpt]
    obtain ⟨s1, s2, -⟩ := Gas.Graph.trySort_spec chk false (fun a b => decide (a ≤ b)) g2
    by_cases ha : Gas.Acyclic (Gas.Graph.E g)
    · obtain ⟨l, hl⟩ := s1 ha
      rw [hl]; simp
    · rw [s2 ha]; simp
  · obtain ⟨e, e1, -⟩ := (visit_spec p).2 hc
    unfold validateWasm
    rw [e1]
    simp [lift]

/-- **C71**, exact behaviour: the module is parsed, has code, few enough imports and no listed
floating point instruction, and the first special export that is not fine is a function without a
type in the module. -/
theorem C71_panics_iff (chk : Bool) (read : Bytes → Option Module) (wasm : Bytes) :
    validateDeploy chk read wasm = .panic ↔
      ∃ m code, read wasm = some m ∧ m.code = some code ∧ m.importCount ≤ 65535 ∧
        (∀ ops ∈ code, ∀ op ∈ ops, validateOpcode op = .ok ()) ∧
        ∃ pre e post, m.exports = pre ++ e :: post ∧ (∀ x ∈ pre, x.Fine m) ∧ e.Untyped m := by
  have hpn : validateDeploy chk read wasm = .panic ↔ programNew read wasm true = .panic := by
    unfold validateDeploy
    cases hp : programNew read wasm true with
    | err e => simp
    | panic => simp
    | ok q =>
      have := validateWasm_false_ne_panic chk q
      dsimp only
      cases hv : validateWasm chk false q with
      | panic => exact absurd hv this
      | ok _ => simp
      | err _ => simp
  rw [hpn]
  unfold programNew
  cases hm : read wasm with
  | none => simp [Outcome.ofOption]
  | some m =>
    simp only [Outcome.ofOption, Outcome.ok_bind, Option.some.injEq, exists_and_left, exists_eq_left']
    cases hc : m.code with
    | none => simp
    | some code =>
      simp only [Outcome.ok_bind, Option.some.injEq, exists_eq_left']
      unfold readImports
      have hic : (m.imports.filter (·.isFunc)).length = m.importCount := rfl
      simp only [hic]
      by_cases hi : m.importCount ≤ 65535
      · rw [if_pos hi]
        simp only [lift, Outcome.ok_bind, hi, true_and]
        have hf := validateNoFloats_ok ⟨(m.imports.filter (·.isFunc)).map fun i => (i.module, i.field),
          readExports m, code⟩
        dsimp only at hf
        rw [← hf]
        cases hv : validateNoFloats ⟨(m.imports.filter (·.isFunc)).map fun i => (i.module, i.field),
          readExports m, code⟩ with
        | error e => simp
        | ok u =>
          simp only [Outcome.ok_bind, if_true, true_and]
          rw [← validateExportsLoop_panic]
          unfold moduleValidateExports
          cases hl : validateExportsLoop m m.exports with
          | err e => simp
          | panic => simp
          | ok u =>
            simp only [Outcome.ok_bind, reduceCtorEq, iff_false]
            split
            · simp
            · split
              · simp
              · simp only [Outcome.ok_bind]
                split <;> simp
      · rw [if_neg hi]
        simp [lift, hi]

/-- **C71**, the part that holds: deploy validation does not crash on modules whose special exports
are not imported and have an index and a type within bounds. Missing: other modules. -/
theorem C71_no_crash_partial (chk : Bool) (read : Bytes → Option Module) (wasm : Bytes)
    (h : ∀ m, read wasm = some m → ∀ e ∈ m.exports, ¬ e.Untyped m) :
    validateDeploy chk read wasm ≠ .panic := by
  intro hp
  obtain ⟨m, code, h1, -, -, -, pre, e, post, h2, -, h3⟩ := (C71_panics_iff chk read wasm).1 hp
  exact h m h1 e (by rw [h2]; simp) h3

/-! ## C73 -/

/-- C73: an accepted program has at most 65535 functions, imported and defined ones together. -/
def C73_claim : Prop :=
  ∀ (read : Bytes → Option Module) (wasm : Bytes) (ce : Bool) (p : Program),
    programNew read wasm ce = .ok p → p.imports.length + p.functions.length ≤ 65535

/-- **C73**, exact bound: up to 65535 of either kind. Missing: the documented bound on the sum. -/
theorem C73_function_count_partial {read : Bytes → Option Module} {wasm : Bytes} {ce : Bool} {p : Program}
    (h : programNew read wasm ce = .ok p) :
    p.imports.length ≤ 65535 ∧ p.functions.length ≤ 65535 := by
  obtain ⟨m, -, -, h3, -, -, -, h7⟩ := programNew_ok h
  refine ⟨?_, h7⟩
  unfold readImports at h3
  dsimp only at h3
  split at h3
  · rename_i hle
    have := Except.ok.inj h3
    rw [← this, List.length_map]; exact hle
  · cases h3

/-- The code violates C73: for every number of imports and of functions up to 65535 there is an
accepted module. -/
theorem C73_any_count (i n : Nat) (hi : i ≤ 65535) (hn : n ≤ 65535) :
    ∃ m p, programNew (fun _ => some m) [] false = .ok p ∧ p.imports.length = i ∧ p.functions.length = n := by
  have hf : (List.replicate i (⟨svmAlloc, svmAlloc, true⟩ : Import)).filter (·.isFunc) =
      List.replicate i ⟨svmAlloc, svmAlloc, true⟩ := by
    rw [List.filter_eq_self]
    intro a ha
    rw [List.mem_replicate] at ha
    rw [ha.2]
  have hnf : ∀ is es, validateNoFloats ⟨is, es, List.replicate n [.end_]⟩ = .ok () := by
    intro is es
    rw [validateNoFloats_ok]
    intro ops ho op hop
    have ho' := (List.mem_replicate.1 ho).2
    subst ho'
    rw [List.mem_singleton] at hop
    subst hop
    rfl
  refine ⟨⟨[], List.replicate i ⟨svmAlloc, svmAlloc, true⟩, [], [], some (List.replicate n [.end_])⟩,
    ⟨List.replicate i (svmAlloc, svmAlloc), [], List.replicate n [.end_]⟩, ?_, by simp, by simp⟩
  unfold programNew readImports
  simp only [Outcome.ofOption, Outcome.ok_bind, hf, List.length_replicate, hi, if_true, lift, hnf,
    List.map_replicate, Bool.false_eq_true, if_false]
  rw [if_neg (by omega)]
  rfl

theorem C73_claim_false : ¬ C73_claim := by
  intro h
  obtain ⟨m, p, h1, h2, h3⟩ := C73_any_count 65535 65535 (Nat.le_refl _) (Nat.le_refl _)
  have := h _ _ _ p h1
  omega

end Svm.Wasm
