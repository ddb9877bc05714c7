import Verif.Wasm.Crash
import Verif.Wasm.Exports

/-!
# C135 and C136: `svm-cli validate` (crates/host/cli/src/subcmd_validate.rs)

The verdict and the prices that the command line tool prints for a file, against what the runtime accepts and
charges.
-/

namespace Svm.Wasm

open Svm.Codec (Str utf8Valid)
open Svm.Account (ascii)
open Svm.Runtime (svmAlloc svmVerify)
open Svm.Gas (upd add64 Acyclic)

/-! ## Model -/

/-- Errors of the tool itself, host/cli/src/lib.rs: a text file that is not UTF-8, another file extension. -/
inductive ToolError where
  | utf8
  | unknownFileExtension
  deriving DecidableEq

/-- What is printed: an error of the program; or that it is valid, and then the prices of the functions, unless
there is a panic. -/
inductive Verdict where
  | invalid (e : ProgramError)
  | valid (prices : Option (List (Nat × Nat)))
  deriving DecidableEq

/-- `Display` of `FuncPrice`, gas/src/pricing/func_price.rs:38-51. The functions are numbered without gaps, so
`min..=max` are all of them; without any, `min` panics. -/
def showPrices (p : Program) (prices : Nat → Option Nat) : Option (List (Nat × Nat)) :=
  if p.functions = [] then none else p.funcIndexes.mapM fun i => (prices i).map fun x => (i, x)

/-- The `match` of `subcmd_validate`, subcmd_validate.rs:43-57. -/
def verdict (chk : Bool) : Outcome ProgramError Program → Outcome ToolError Verdict
  | .ok p => .ok (.valid ((priceProgram chk example_ p).bind (showPrices p)))
  | .err e => .ok (.invalid e)
  | .panic => .panic

/-- `subcmd_validate`, subcmd_validate.rs:26-59. `wat` is `wat::parse_str`; `Program::from_wat`,
program/src/program.rs:75-79. -/
def toolValidate (chk : Bool) (read : Bytes → Option Module) (wat : Str → Option Bytes) (path : Str)
    (contents : Bytes) : Outcome ToolError Verdict :=
  if (ascii ".wat".toList).isSuffixOf path.1 || (ascii ".wast".toList).isSuffixOf path.1 then
    if h : utf8Valid contents = true then
      match wat ⟨contents, h⟩ with
      | none => .ok (.invalid .invalidWasm)
      | some wasm => verdict chk (programNew read wasm false)
    else .err .utf8
  else if (ascii ".wasm".toList).isSuffixOf path.1 then verdict chk (programNew read contents false)
  else .err .unknownFileExtension

/-! ## Specification -/

/-- The tool says that the file contains a valid module. -/
def SaysValid (r : Outcome ToolError Verdict) : Prop := ∃ prices, r = .ok (.valid prices)

/-- The name of a binary file. -/
def IsWasm (path : Str) : Prop := ∃ stem, path.1 = stem ++ ascii ".wasm".toList

/-- C135 as claimed: the tool says that a module is valid if and only if the runtime accepts it in a template. -/
def C135_claim (chk : Bool) : Prop :=
  ∀ (read : Bytes → Option Module) (wat : Str → Option Bytes) (path : Str) (wasm : Bytes), IsWasm path →
    (SaysValid (toolValidate chk read wat path wasm) ↔ ∃ p, validateDeploy chk read wasm = .ok p)

/-- The host functions that have a price, with the price. -/
def Listed (i : Str × Str) (x : Nat) : Prop :=
  i.1.1 = ascii "svm".toList ∧
    ((i.2.1 = ascii "svm_static_alloc".toList ∧ x = 100) ∨ (i.2.1 = ascii "svm_calldata_offset".toList ∧ x = 10) ∨
     (i.2.1 = ascii "svm_calldata_len".toList ∧ x = 10) ∨ (i.2.1 = ascii "svm_set_returndata".toList ∧ x = 20) ∨
     (i.2.1 = ascii "svm_get32".toList ∧ x = 100) ∨ (i.2.1 = ascii "svm_set32".toList ∧ x = 1000000) ∨
     (i.2.1 = ascii "svm_get64".toList ∧ x = 200) ∨ (i.2.1 = ascii "svm_set64".toList ∧ x = 2000000) ∨
     (i.2.1 = ascii "svm_load160".toList ∧ x = 500) ∨ (i.2.1 = ascii "svm_store160".toList ∧ x = 5000000) ∨
     (i.2.1 = ascii "svm_log".toList ∧ x = 3000))

/-- The function calls an import without a price in the table. -/
def CallsUnlisted (p : Program) : Prop :=
  ∃ ops ∈ p.functions, ∃ f i, .call f ∈ ops ∧ p.imports[f]? = some i ∧ ∀ x, ¬ Listed i x

/-- C136 as claimed: for every template that the runtime accepts and can price, the tool shows the price of each
function. -/
def C136_claim (chk : Bool) : Prop :=
  ∀ (read : Bytes → Option Module) (wat : Str → Option Bytes) (path : Str) (wasm : Bytes) (p : Program)
    (prices : Nat → Option Nat), IsWasm path → validateDeploy chk read wasm = .ok p →
    priceProgram chk v0 p = some prices →
    ∃ lines, toolValidate chk read wat path wasm = .ok (.valid (some lines)) ∧
      lines.map (·.1) = p.funcIndexes ∧ ∀ l ∈ lines, prices l.1 = some l.2

/-! ## C135 -/

theorem isSuffixOf_false {a b s : Bytes} {x y : UInt8} (hxy : x ≠ y) :
    (a ++ [x]).isSuffixOf (s ++ (b ++ [y])) = false := by
  rw [Bool.eq_false_iff]
  intro h
  rw [List.isSuffixOf_iff_suffix] at h
  obtain ⟨t, ht⟩ := h
  have := congrArg List.getLast? ht
  simp only [← List.append_assoc, List.getLast?_append, List.getLast?_singleton, Option.some_or,
    Option.some.injEq] at this
  exact hxy this

theorem toolValidate_wasm (chk : Bool) (read : Bytes → Option Module) (wat : Str → Option Bytes) {path : Str}
    (hp : IsWasm path) (wasm : Bytes) :
    toolValidate chk read wat path wasm = verdict chk (programNew read wasm false) := by
  obtain ⟨stem, he⟩ := hp
  have e1 : ascii ".wasm".toList = ascii ".was".toList ++ [109] := by decide
  have e2 : ascii ".wat".toList = ascii ".wa".toList ++ [116] := by decide
  have e3 : ascii ".wast".toList = ascii ".was".toList ++ [116] := by decide
  unfold toolValidate
  rw [he]
  have h1 : (ascii ".wat".toList).isSuffixOf (stem ++ ascii ".wasm".toList) = false := by
    rw [e1, e2]; exact isSuffixOf_false (by decide)
  have h2 : (ascii ".wast".toList).isSuffixOf (stem ++ ascii ".wasm".toList) = false := by
    rw [e1, e3]; exact isSuffixOf_false (by decide)
  have h3 : (ascii ".wasm".toList).isSuffixOf (stem ++ ascii ".wasm".toList) = true := by
    rw [List.isSuffixOf_iff_suffix]; exact ⟨stem, rfl⟩
  rw [h1, h2, h3]
  rfl

theorem saysValid_verdict (chk : Bool) (o : Outcome ProgramError Program) :
    SaysValid (verdict chk o) ↔ ∃ p, o = .ok p := by
  cases o with
  | ok p => exact ⟨fun _ => ⟨p, rfl⟩, fun _ => ⟨_, rfl⟩⟩
  | err e => exact ⟨fun ⟨_, h⟩ => (nomatch h), fun ⟨_, h⟩ => (nomatch h)⟩
  | panic => exact ⟨fun ⟨_, h⟩ => (nomatch h), fun ⟨_, h⟩ => (nomatch h)⟩

/-- What `Program::new` without the exports accepts. -/
theorem programNew_false_iff (read : Bytes → Option Module) (wasm : Bytes) (p : Program) :
    programNew read wasm false = .ok p ↔ ∃ m, read wasm = some m ∧ m.code = some p.functions ∧
      readImports m = .ok p.imports ∧ p.exports = readExports m ∧
      (∀ ops ∈ p.functions, ∀ op ∈ ops, op.IsFloat → ∃ q, op = .plain q ∧ q.Escapes) ∧
      p.functions.length ≤ 65535 := by
  have hf : ∀ q : Program, validateNoFloats q = .ok () ↔
      ∀ ops ∈ q.functions, ∀ op ∈ ops, op.IsFloat → ∃ q, op = .plain q ∧ q.Escapes := by
    intro q
    rw [validateNoFloats_ok]
    exact forall_congr' fun _ => imp_congr_right fun _ => forall_congr' fun _ => imp_congr_right fun _ =>
      validateOpcode_ok _
  constructor
  · intro h
    obtain ⟨m, h1, h2, h3, h4, h5, -, h6⟩ := programNew_ok h
    exact ⟨m, h1, h2, h3, h4, (hf p).1 h5, h6⟩
  · rintro ⟨m, h1, h2, h3, h4, h5, h6⟩
    have h5' := (hf p).2 h5
    obtain ⟨i, e, f⟩ := p
    simp only at h2 h3 h4 h6
    subst h4
    unfold programNew
    rw [h1]
    simp only [Outcome.ofOption, Outcome.ok_bind, h2, h3, lift, h5', Bool.false_eq_true, if_false]
    exact if_neg (by show ¬ f.length > 65535; omega)

theorem programNew_unchecked {read : Bytes → Option Module} {wasm : Bytes} {p : Program}
    (h : programNew read wasm true = .ok p) : programNew read wasm false = .ok p := by
  obtain ⟨m, g1, g2, g3, g4, g5, -, g7⟩ := programNew_ok h
  exact (programNew_false_iff read wasm p).2 ⟨m, g1, g2, g3, g4, fun ops ho op hop =>
    (validateOpcode_ok op).1 ((validateNoFloats_ok p).1 g5 ops ho op hop), g7⟩

/-- C135, the verdict, exactly: the module can be read, has code, imports at most 65535 functions and has at most
65535 itself, and no floating point instructions but the ten of C47. -/
theorem C135_says_valid (chk : Bool) (read : Bytes → Option Module) (wat : Str → Option Bytes) {path : Str}
    (hp : IsWasm path) (wasm : Bytes) :
    SaysValid (toolValidate chk read wat path wasm) ↔ ∃ m code imports, read wasm = some m ∧
      m.code = some code ∧ readImports m = .ok imports ∧
      (∀ ops ∈ code, ∀ op ∈ ops, op.IsFloat → ∃ q, op = .plain q ∧ q.Escapes) ∧ code.length ≤ 65535 := by
  rw [toolValidate_wasm chk read wat hp, saysValid_verdict]
  constructor
  · rintro ⟨p, h⟩
    obtain ⟨m, h1, h2, h3, -, h5, h6⟩ := (programNew_false_iff read wasm p).1 h
    exact ⟨m, _, _, h1, h2, h3, h5, h6⟩
  · rintro ⟨m, code, imports, h1, h2, h3, h4, h5⟩
    exact ⟨⟨imports, readExports m, code⟩, (programNew_false_iff read wasm _).2 ⟨m, h1, h2, h3, rfl, h4, h5⟩⟩

/-- C135, what the runtime checks and the tool does not: the two exports, and that there are no loops, no
recursion, and no calls of functions past 65535. -/
theorem C135_missing (chk : Bool) (read : Bytes → Option Module) (wat : Str → Option Bytes) {path : Str}
    (hp : IsWasm path) (wasm : Bytes) (m : Module) (hm : read wasm = some m) :
    (∃ p, validateDeploy chk read wasm = .ok p) ↔ SaysValid (toolValidate chk read wat path wasm) ∧
      moduleValidateExports m = .ok () ∧ ∀ p, programNew read wasm false = .ok p →
        NoLoops p ∧ Acyclic (Calls p) ∧ SmallCalls p := by
  rw [toolValidate_wasm chk read wat hp, saysValid_verdict]
  constructor
  · rintro ⟨p, h⟩
    obtain ⟨h1, h2⟩ := validateDeploy_ok h
    obtain ⟨m', g1, g2, g3, g4, g5, g6, g7⟩ := programNew_ok h1
    rw [hm] at g1
    cases g1
    have hf := programNew_unchecked h1
    refine ⟨⟨p, hf⟩, g6 rfl, fun q hq => ?_⟩
    rw [hf] at hq
    cases hq
    exact (C48_accepts_iff chk false p).1 h2
  · rintro ⟨⟨p, hf⟩, he, hs⟩
    obtain ⟨m', g1, g2, g3, g4, g5, -, g7⟩ := programNew_ok hf
    rw [hm] at g1
    cases g1
    have ht : programNew read wasm true = .ok p := by
      obtain ⟨i, e, f⟩ := p
      simp only at g2 g3 g4 g7
      subst g4
      unfold programNew
      rw [hm]
      simp only [Outcome.ofOption, Outcome.ok_bind, g2, g3, lift, g5, if_true, he]
      exact if_neg (by show ¬ f.length > 65535; omega)
    refine ⟨p, ?_⟩
    unfold validateDeploy
    rw [ht]
    simp only
    rw [(C48_accepts_iff chk false p).2 (hs p hf)]

/-- C135, one direction: what the runtime accepts, the tool calls valid. Missing: the converse. -/
theorem C135_accepted_partial (chk : Bool) (read : Bytes → Option Module) (wat : Str → Option Bytes) {path : Str}
    (hp : IsWasm path) (wasm : Bytes) {p : Program} (h : validateDeploy chk read wasm = .ok p) :
    SaysValid (toolValidate chk read wat path wasm) := by
  obtain ⟨m, hm, -⟩ := programNew_ok (validateDeploy_ok h).1
  exact ((C135_missing chk read wat hp wasm m hm).1 ⟨p, h⟩).1

theorem validateNoFloats_error {p : Program} {ops : List Op} {op : Op} (ho : ops ∈ p.functions) (hop : op ∈ ops)
    (hf : op.IsFloat) (hn : ¬ ∃ q, op = .plain q ∧ q.Escapes) : validateNoFloats p = .error .floatsNotAllowed := by
  have one : ∀ o : Op, validateOpcode o = .ok () ∨ validateOpcode o = .error .floatsNotAllowed := by
    intro o
    cases o with
    | plain q => unfold validateOpcode; cases q.listed <;> simp
    | _ => exact .inl rfl
  have many : ∀ l : List Op, l.forM validateOpcode = .ok () ∨ l.forM validateOpcode = .error .floatsNotAllowed := by
    intro l
    induction l with
    | nil => exact .inl rfl
    | cons o l ih =>
      change (validateOpcode o >>= fun _ => l.forM validateOpcode) = _ ∨ (validateOpcode o >>= fun _ => _) = _
      rcases one o with h | h
      · rw [h]; exact ih
      · rw [h]; exact .inr rfl
  have all : ∀ l : List (List Op), (l.forM fun ops => ops.forM validateOpcode) = .ok () ∨
      (l.forM fun ops => ops.forM validateOpcode) = .error .floatsNotAllowed := by
    intro l
    induction l with
    | nil => exact .inl rfl
    | cons o l ih =>
      change (o.forM validateOpcode >>= fun _ => _) = _ ∨ (o.forM validateOpcode >>= fun _ => _) = _
      rcases many o with h | h
      · rw [h]; exact ih
      · rw [h]; exact .inr rfl
  rcases all p.functions with h | h
  · exact absurd ((validateOpcode_ok op).1 ((validateNoFloats_ok p).1 h ops ho op hop) hf) hn
  · exact h

/-- C135, the reasons that are shown for a binary file: which error, when a module is not valid. -/
theorem C135_reasons (chk : Bool) (read : Bytes → Option Module) (wat : Str → Option Bytes) {path : Str}
    (hp : IsWasm path) (wasm : Bytes) :
    (read wasm = none → toolValidate chk read wat path wasm = .ok (.invalid .invalidWasm)) ∧
    ∀ m, read wasm = some m →
      (m.code = none → toolValidate chk read wat path wasm = .ok (.invalid .missingCodeSection)) ∧
      ∀ code, m.code = some code →
        (65535 < (m.imports.filter (·.isFunc)).length →
          toolValidate chk read wat path wasm = .ok (.invalid .tooManyFunctionImports)) ∧
        ((m.imports.filter (·.isFunc)).length ≤ 65535 →
          (∀ ops ∈ code, ∀ op ∈ ops, op.IsFloat → ¬ (∃ q, op = .plain q ∧ q.Escapes) →
            toolValidate chk read wat path wasm = .ok (.invalid .floatsNotAllowed)) ∧
          ((∀ ops ∈ code, ∀ op ∈ ops, op.IsFloat → ∃ q, op = .plain q ∧ q.Escapes) → 65535 < code.length →
            toolValidate chk read wat path wasm = .ok (.invalid .functionIndexTooLarge))) := by
  rw [toolValidate_wasm chk read wat hp]
  refine ⟨fun h => by unfold programNew; rw [h]; rfl, fun m hm => ⟨fun h => by unfold programNew; rw [hm]; simp [h, Outcome.ofOption, verdict], fun code hcode => ⟨fun h => ?_, fun h => ⟨fun ops ho op hop hf hn => ?_, fun hf hl => ?_⟩⟩⟩⟩
  · unfold programNew readImports
    rw [hm]
    simp [Outcome.ofOption, hcode, lift, Nat.not_le.2 h, verdict]
  · unfold programNew readImports
    rw [hm]
    have := validateNoFloats_error (p := ⟨(m.imports.filter (·.isFunc)).map fun i => (i.module, i.field), readExports m, code⟩) ho hop hf hn
    simp [Outcome.ofOption, hcode, lift, h, this, verdict]
  · unfold programNew readImports
    rw [hm]
    have := (validateNoFloats_ok ⟨(m.imports.filter (·.isFunc)).map fun i => (i.module, i.field), readExports m, code⟩).2
      fun ops ho op hop => (validateOpcode_ok op).2 (hf ops ho op hop)
    simp [Outcome.ofOption, hcode, lift, h, this, hl, verdict]

/-- C135, the other files: a text is translated first, and everything else is refused. -/
theorem C135_files (chk : Bool) (read : Bytes → Option Module) (wat : Str → Option Bytes) (path bin : Str)
    (hb : IsWasm bin) (contents : Bytes) :
    ((∃ stem, path.1 = stem ++ ascii ".wat".toList ∨ path.1 = stem ++ ascii ".wast".toList) →
      (utf8Valid contents = false → toolValidate chk read wat path contents = .err .utf8) ∧
      ∀ h : utf8Valid contents = true,
        (wat ⟨contents, h⟩ = none → toolValidate chk read wat path contents = .ok (.invalid .invalidWasm)) ∧
        ∀ wasm, wat ⟨contents, h⟩ = some wasm →
          toolValidate chk read wat path contents = toolValidate chk read wat bin wasm) ∧
    ((∀ stem, path.1 ≠ stem ++ ascii ".wat".toList ∧ path.1 ≠ stem ++ ascii ".wast".toList ∧
        path.1 ≠ stem ++ ascii ".wasm".toList) →
      toolValidate chk read wat path contents = .err .unknownFileExtension) := by
  constructor
  · rintro ⟨stem, hs⟩
    have ht : ((ascii ".wat".toList).isSuffixOf path.1 || (ascii ".wast".toList).isSuffixOf path.1) = true := by
      rw [Bool.or_eq_true, List.isSuffixOf_iff_suffix, List.isSuffixOf_iff_suffix]
      exact hs.imp (fun h => ⟨stem, h.symm⟩) fun h => ⟨stem, h.symm⟩
    refine ⟨fun h => ?_, fun h => ⟨fun hw => ?_, fun wasm hw => ?_⟩⟩
    · unfold toolValidate
      rw [if_pos ht, dif_neg (by rw [h]; decide)]
    · unfold toolValidate
      rw [if_pos ht, dif_pos h, hw]
    · rw [toolValidate_wasm chk read wat hb]
      unfold toolValidate
      rw [if_pos ht, dif_pos h, hw]
  · intro hn
    have h1 : ((ascii ".wat".toList).isSuffixOf path.1 || (ascii ".wast".toList).isSuffixOf path.1) = false := by
      rw [Bool.or_eq_false_iff, Bool.eq_false_iff, Bool.eq_false_iff, ne_eq, ne_eq, List.isSuffixOf_iff_suffix,
        List.isSuffixOf_iff_suffix]
      exact ⟨fun ⟨t, ht⟩ => (hn t).1 ht.symm, fun ⟨t, ht⟩ => (hn t).2.1 ht.symm⟩
    have h2 : (ascii ".wasm".toList).isSuffixOf path.1 = false := by
      rw [Bool.eq_false_iff, ne_eq, List.isSuffixOf_iff_suffix]
      exact fun ⟨t, ht⟩ => (hn t).2.2 ht.symm
    unfold toolValidate
    rw [h1, h2]
    rfl

/-- A file name. -/
def examplePath : Str := ⟨ascii "a.wasm".toList, by decide⟩

theorem examplePath_wasm : IsWasm examplePath := ⟨ascii "a".toList, by decide⟩

/-- C135 is violated: a module without exports. -/
theorem C135_claim_false (chk : Bool) : ¬ C135_claim chk := by
  intro h
  obtain ⟨p, hp⟩ := (h (fun _ => some { floatModule with exports := [] }) (fun _ => none) examplePath []
    examplePath_wasm).1 ((C135_says_valid chk _ _ examplePath_wasm []).2
      ⟨_, _, _, rfl, rfl, rfl, fun ops ho op hop => (validateOpcode_ok op).1 (by
        revert op; revert ops; decide), by decide⟩)
  cases chk <;> cases hp

/-! ## C136 -/

theorem hostPrice_listed (i : Str × Str) (x : Nat) : hostPrice i = some x ↔ Listed i x := by
  unfold hostPrice Listed
  by_cases h : i.1.1 = ascii "svm".toList
  · simp only [h, if_true, true_and, hostPrices]
    constructor
    · intro hx
      obtain ⟨y, hy, rfl⟩ := Option.map_eq_some_iff.1 hx
      have hm := List.mem_of_find?_eq_some hy
      have he := List.find?_some hy
      simp only [decide_eq_true_eq] at he
      simp only [List.mem_cons, List.not_mem_nil, or_false] at hm
      rcases hm with rfl | rfl | rfl | rfl | rfl | rfl | rfl | rfl | rfl | rfl | rfl <;> simp [← he]
    · rintro (⟨h, rfl⟩ | ⟨h, rfl⟩ | ⟨h, rfl⟩ | ⟨h, rfl⟩ | ⟨h, rfl⟩ | ⟨h, rfl⟩ | ⟨h, rfl⟩ | ⟨h, rfl⟩ | ⟨h, rfl⟩ |
        ⟨h, rfl⟩ | ⟨h, rfl⟩) <;> rw [h] <;> decide
  · rw [if_neg h]
    exact ⟨fun h => (nomatch h), fun h' => absurd h'.1 h⟩

/-- `a` is `b` wherever it is defined. -/
def Below {α : Type} (a b : Option α) : Prop := ∀ x, a = some x → b = some x

theorem Below.bind {α β : Type} {a b : Option α} {f g : α → Option β} (h : Below a b)
    (hf : ∀ x, Below (f x) (g x)) : Below (a.bind f) (b.bind g) := by
  intro y hy
  obtain ⟨x, h1, h2⟩ := Option.bind_eq_some_iff.1 hy
  rw [h x h1]
  exact hf x y h2

theorem Below.refl {α : Type} (a : Option α) : Below a a := fun _ h => h

theorem Below.foldlM {α β : Type} {f g : β → α → Option β} (h : ∀ b a, Below (f b a) (g b a)) (l : List α)
    (b : β) : Below (l.foldlM f b) (l.foldlM g b) := by
  induction l generalizing b with
  | nil => exact .refl _
  | cons a l ih => exact (h b a).bind ih

theorem opPrice_below (p : Program) (prices : Nat → Option Nat) (o : Op) :
    Below (opPrice example_ p prices o) (opPrice v0 p prices o) := by
  intro x hx
  cases o with
  | call f =>
    simp only [opPrice] at hx ⊢
    split at hx
    · show some ((hostPrice _).getD 1000) = _
      have hx' : hostPrice _ = some x := hx
      rw [hx']
      rfl
    · exact hx
  | _ => exact hx

theorem blockPrice_below (chk : Bool) (p : Program) (prices : Nat → Option Nat) (ops : List Op) :
    Below (blockPrice chk example_ p prices ops) (blockPrice chk v0 p prices ops) :=
  Below.foldlM (fun _ o => (opPrice_below p prices o).bind fun _ => .refl _) _ _

theorem flowPrice_below (chk : Bool) (p : Program) (prices : Nat → Option Nat) (g : Flow) :
    Below (flowPrice chk example_ p prices g) (flowPrice chk v0 p prices g) := by
  intro x hx
  unfold flowPrice at hx ⊢
  simp only at hx ⊢
  split at hx
  · rename_i hall
    have he : ∀ b, b ≤ g.num → blockPrice chk example_ p prices (g.ops b) = blockPrice chk v0 p prices (g.ops b) := by
      intro b hb
      obtain ⟨y, hy⟩ := Option.isSome_iff_exists.1 (List.all_eq_true.1 hall b (List.mem_range.2 (by omega)))
      rw [hy, blockPrice_below chk p prices _ y hy]
    have hw : (fun b => if b ≤ g.num then (blockPrice chk example_ p prices (g.ops b)).getD 0 else 0) =
        fun b => if b ≤ g.num then (blockPrice chk v0 p prices (g.ops b)).getD 0 else 0 := by
      funext b
      split
      · rename_i hb; rw [he b hb]
      · rfl
    rw [hw] at hx
    rw [if_pos]
    · exact hx
    · rw [List.all_eq_true] at hall ⊢
      intro b hb
      rw [← he b (by have := List.mem_range.1 hb; omega)]
      exact hall b hb
  · cases hx

theorem priceProgram_below (chk : Bool) (p : Program) :
    Below (priceProgram chk example_ p) (priceProgram chk v0 p) :=
  (Below.refl _).bind fun _ => (Below.refl _).bind fun _ => Below.foldlM (fun prices _ =>
    Below.bind ((Below.refl _).bind fun _ => (Below.refl _).bind fun _ => flowPrice_below chk p prices _)
      fun _ => .refl _) _ _

theorem mapM_lines {l : List Nat} {prices : Nat → Option Nat} {lines : List (Nat × Nat)}
    (h : l.mapM (fun i => (prices i).map fun x => (i, x)) = some lines) :
    lines.map (·.1) = l ∧ ∀ y ∈ lines, prices y.1 = some y.2 := by
  induction l generalizing lines with
  | nil => cases h; exact ⟨rfl, nofun⟩
  | cons i l ih =>
    rw [List.mapM_cons] at h
    cases hi : prices i with
    | none => rw [hi] at h; cases h
    | some x =>
      cases hl : l.mapM (fun i => (prices i).map fun x => (i, x)) with
      | none => rw [hi, hl] at h; cases h
      | some rest =>
        rw [hi, hl] at h
        cases h
        obtain ⟨h1, h2⟩ := ih hl
        refine ⟨by simp [h1], fun y hy => ?_⟩
        rcases List.mem_cons.1 hy with rfl | hy
        · exact hi
        · exact h2 y hy

theorem mapM_some {l : List Nat} {prices : Nat → Option Nat} (h : ∀ i ∈ l, (prices i).isSome) :
    ∃ lines, l.mapM (fun i => (prices i).map fun x => (i, x)) = some lines := by
  induction l with
  | nil => exact ⟨[], rfl⟩
  | cons i l ih =>
    obtain ⟨x, hx⟩ := Option.isSome_iff_exists.1 (h i List.mem_cons_self)
    obtain ⟨rest, hr⟩ := ih fun j hj => h j (List.mem_cons_of_mem _ hj)
    exact ⟨(i, x) :: rest, by rw [List.mapM_cons, hx, hr]; rfl⟩

/-- C136, whatever the file: if the tool prints prices, they are for all functions in their order, and they are
those that the runtime computes for the program. -/
theorem C136_shown (chk : Bool) (read : Bytes → Option Module) (wat : Str → Option Bytes) {path : Str}
    (hp : IsWasm path) (wasm : Bytes) {lines : List (Nat × Nat)}
    (h : toolValidate chk read wat path wasm = .ok (.valid (some lines))) :
    ∃ p prices, programNew read wasm false = .ok p ∧ priceProgram chk v0 p = some prices ∧
      lines.map (·.1) = p.funcIndexes ∧ ∀ l ∈ lines, prices l.1 = some l.2 := by
  rw [toolValidate_wasm chk read wat hp] at h
  cases hn : programNew read wasm false with
  | err e => rw [hn] at h; cases h
  | panic => rw [hn] at h; cases h
  | ok p =>
    rw [hn] at h
    simp only [verdict, Outcome.ok.injEq, Verdict.valid.injEq] at h
    obtain ⟨prices, h1, h2⟩ := Option.bind_eq_some_iff.1 h
    unfold showPrices at h2
    split at h2
    · cases h2
    · exact ⟨p, prices, rfl, priceProgram_below chk p _ h1, mapM_lines h2⟩

/-- C136, the calls of other imports: the tool panics on a template that the runtime accepts, if one of its
functions calls an import that is not in the table. -/
theorem C136_crashes (chk : Bool) (read : Bytes → Option Module) (wat : Str → Option Bytes) {path : Str}
    (hp : IsWasm path) (wasm : Bytes) {p : Program} (h : validateDeploy chk read wasm = .ok p)
    (hs : Structured p) (hu : CallsUnlisted p) :
    toolValidate chk read wat path wasm = .ok (.valid none) := by
  obtain ⟨h1, h2⟩ := validateDeploy_ok h
  rw [toolValidate_wasm chk read wat hp, programNew_unchecked h1]
  simp only [verdict]
  rw [C54_crashes h2]
  · rfl
  · rintro ⟨-, hb⟩
    obtain ⟨ops, ho, f, i, hc, hi, hl⟩ := hu
    obtain ⟨k, hk⟩ := List.getElem?_of_mem ho
    have hg : p.getFunc (k + p.imports.length) = some ops := by
      unfold Program.getFunc
      rw [if_neg (by omega), Nat.add_sub_cancel]
      exact hk
    obtain ⟨c, hbody⟩ := hs _ _ hg
    have he : ops = c.flatten ++ [.end_] := by
      have := hbody
      unfold IsBody at this
      rw [hg] at this
      exact Option.some.inj this
    have hcf : .call f ∈ c.flatten := by
      rw [he] at hc
      rcases List.mem_append.1 hc with hc | hc
      · exact hc
      · simp at hc
    have hlt : f < p.imports.length := by
      rcases Nat.lt_or_ge f p.imports.length with h | h
      · exact h
      · rw [List.getElem?_eq_none h] at hi; cases hi
    have := (hb _ c hbody).2.2 f hcf hlt
    unfold importCost at this
    rw [hi] at this
    obtain ⟨x, hx⟩ := Option.isSome_iff_exists.1 this
    exact hl x ((hostPrice_listed i x).1 hx)

/-- Equal prices when all called imports are in the table. -/
theorem priceProgram_listed (chk : Bool) {p : Program} (hn : NoLoops p) (hs : Structured p)
    (hu : ¬ CallsUnlisted p) : priceProgram chk example_ p = priceProgram chk v0 p := by
  have hop : ∀ (prices : Nat → Option Nat) f c, IsBody p f c → ∀ o ∈ c.flatten,
      opPrice example_ p prices o = opPrice v0 p prices o := by
    intro prices f c hb o ho
    cases o with
    | call g =>
      simp only [opPrice]
      cases hi : p.imports[g]? with
      | none => rfl
      | some i =>
        have : ∃ x, Listed i x := by
          by_contra hx
          refine hu ⟨_, (mem_functions_iff p _).2 ⟨f, hb⟩, g, i, List.mem_append_left _ ho, hi, fun x h => hx ⟨x, h⟩⟩
        obtain ⟨x, hx⟩ := this
        have := (hostPrice_listed i x).2 hx
        show hostPrice i = some ((hostPrice i).getD 1000)
        rw [this]
        rfl
    | _ => rfl
  have hblock : ∀ (prices : Nat → Option Nat) f c, IsBody p f c → ∀ b,
      blockPrice chk example_ p prices (c.cfg.ops b) = blockPrice chk v0 p prices (c.cfg.ops b) := by
    intro prices f c hb b
    have hm := (cfg_within (fun _ => 0) c b).2
    unfold blockPrice
    generalize c.cfg.ops b = ops at hm
    generalize 0 = acc
    induction ops generalizing acc with
    | nil => rfl
    | cons o ops ih =>
      rw [List.foldlM_cons, List.foldlM_cons, hop prices f c hb o (hm o List.mem_cons_self)]
      exact congrArg _ (funext fun x => ih (fun o ho => hm o (List.mem_cons_of_mem _ ho)) x)
  have hfunc : ∀ prices f, funcPrice chk example_ p prices f = funcPrice chk v0 p prices f := by
    intro prices f
    cases hg : p.getFunc f with
    | none => unfold funcPrice; rw [hg]; rfl
    | some ops =>
      obtain ⟨c, hb⟩ := hs f ops hg
      have hl := loopFree_of_flatten c (calm_of_body hn hb).1
      obtain ⟨a1, a2⟩ := funcPrice_body (res := example_) chk prices hb hl
      obtain ⟨b1, b2⟩ := funcPrice_body (res := v0) chk prices hb hl
      by_cases hv : c.Valid 1
      · rw [a1 hv, b1 hv]
        unfold flowPrice
        simp only [hblock prices f c hb]
      · rw [a2 hv, b2 hv]
  unfold priceProgram
  have : setPrice chk example_ p = setPrice chk v0 p := by
    funext prices f
    unfold setPrice
    rw [hfunc]
  rw [this]

/-- C136, what holds: the tool shows the prices of all functions of a template, if they call no other imports
than those in the table and there are any functions. Missing: templates that call other imports, on which the
tool panics. -/
theorem C136_partial (chk : Bool) (read : Bytes → Option Module) (wat : Str → Option Bytes) {path : Str}
    (hp : IsWasm path) (wasm : Bytes) {p : Program} {prices : Nat → Option Nat}
    (h : validateDeploy chk read wasm = .ok p) (hpr : priceProgram chk v0 p = some prices) (hs : Structured p)
    (hu : ¬ CallsUnlisted p) (hne : p.functions ≠ []) :
    ∃ lines, toolValidate chk read wat path wasm = .ok (.valid (some lines)) ∧
      lines.map (·.1) = p.funcIndexes ∧ ∀ l ∈ lines, prices l.1 = some l.2 := by
  obtain ⟨h1, h2⟩ := validateDeploy_ok h
  obtain ⟨hn, ha⟩ := C48_sound chk false p h2
  rw [toolValidate_wasm chk read wat hp, programNew_unchecked h1]
  have he : priceProgram chk example_ p = some prices := by rw [priceProgram_listed chk hn hs hu, hpr]
  obtain ⟨f1, -⟩ := price_fix ha hpr
  obtain ⟨lines, hl⟩ := mapM_some (l := p.funcIndexes) (prices := prices) fun i hi => (f1 i).2 (.inl (by
    unfold Program.funcIndexes at hi
    obtain ⟨k, hk, rfl⟩ := List.mem_map.1 hi
    have hk := List.mem_range.1 hk
    unfold Program.getFunc
    rw [if_neg (by omega), Nat.add_sub_cancel]
    exact ⟨_, List.getElem?_eq_getElem hk⟩))
  refine ⟨lines, ?_, mapM_lines hl⟩
  simp only [verdict, he, Option.bind_some, showPrices, if_neg hne, hl]

/-- A template that calls a function of another namespace. -/
def foreignModule : Module where
  types := [⟨[.i32], [.i32]⟩, ⟨[], [.i32]⟩]
  imports := [⟨svmAlloc, svmAlloc, true⟩]
  functions := [0, 1]
  exports := [⟨svmAlloc, some 1⟩, ⟨svmVerify, some 2⟩]
  code := some [[.plain .getLocal, .end_], [.call 0, .plain .drop, .plain .i32Const, .end_]]

/-- C136 is violated. -/
theorem C136_claim_false (chk : Bool) : ¬ C136_claim chk := by
  intro h
  have hp : (priceProgram chk v0 ⟨[(svmAlloc, svmAlloc)], readExports foreignModule,
      [[.plain .getLocal, .end_], [.call 0, .plain .drop, .plain .i32Const, .end_]]⟩).isSome := by
    cases chk <;> decide +kernel
  obtain ⟨prices, hp⟩ := Option.isSome_iff_exists.1 hp
  obtain ⟨lines, h1, -⟩ := h (fun _ => some foreignModule) (fun _ => none) examplePath [] _ _ examplePath_wasm
    (by cases chk <;> rfl) hp
  rw [C136_crashes chk _ _ examplePath_wasm [] (p := ⟨[(svmAlloc, svmAlloc)], readExports foreignModule,
      [[.plain .getLocal, .end_], [.call 0, .plain .drop, .plain .i32Const, .end_]]⟩) (by cases chk <;> rfl)
    ?_ ?_] at h1
  · cases h1
  · intro f ops hf
    match f with
    | 0 => cases hf
    | 1 => exact ⟨.op (.plain .getLocal) .nil, rfl⟩
    | 2 => exact ⟨.op (.call 0) (.op (.plain .drop) (.op (.plain .i32Const) .nil)), rfl⟩
    | f + 3 => cases hf
  · refine ⟨_, List.mem_cons_of_mem _ List.mem_cons_self, 0, _, List.mem_cons_self, rfl, ?_⟩
    rintro x ⟨hx, -⟩
    exact absurd hx (by decide)

/-- Non-vacuity: a template that gets a variable, with the prices that the tool shows, in both builds. -/
example (chk : Bool) : toolValidate chk
    (fun _ => some { foreignModule with imports := [⟨⟨ascii "svm".toList, by decide⟩, ⟨ascii "svm_get32".toList,
      by decide⟩, true⟩] }) (fun _ => none) examplePath [] = .ok (.valid (some [(1, 1), (2, 102)])) := by
  cases chk <;> decide +kernel

end Svm.Wasm
