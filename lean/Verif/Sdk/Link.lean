import Verif.Runtime.Exec

/-!
# Host functions that the SDK imports and that the runtime provides (C99)

The `extern "C"` blocks of the SDK and the functions that the runtime registers for a Wasm instance, and
how Wasmer links a module: every import needs a registered function of the same namespace, name and type.
-/

namespace Svm.Sdk

open Svm.Codec Svm.Account Svm.Runtime

/-- Types of Wasm values that host functions take and return. -/
inductive Num where
  | i32
  | i64
  deriving DecidableEq

/-- An imported function. -/
structure Import where
  ns : List Char
  name : List Char
  params : List Num
  results : List Num
  deriving DecidableEq

/-- The namespace `svm`. -/
def svm : List Char := "svm".toList

/-- The namespace `sm`. -/
def sm : List Char := "sm".toList

/-- `wasmer_register`, vmcalls/mod.rs:32-50, under the namespace `svm` (runtime.rs:301-312), with the types
of alloc.rs:9, calldata.rs:4-11, returndata.rs:5, storage.rs:10-75, logs.rs:6 and transfer.rs:19. -/
def registered : List Import := [
  ⟨svm, "svm_static_alloc".toList, [.i32], [.i32]⟩,
  ⟨svm, "svm_calldata_offset".toList, [], [.i32]⟩,
  ⟨svm, "svm_calldata_len".toList, [], [.i32]⟩,
  ⟨svm, "svm_set_returndata".toList, [.i32, .i32], []⟩,
  ⟨svm, "svm_get32".toList, [.i32], [.i32]⟩,
  ⟨svm, "svm_set32".toList, [.i32, .i32], []⟩,
  ⟨svm, "svm_get64".toList, [.i32], [.i64]⟩,
  ⟨svm, "svm_set64".toList, [.i32, .i64], []⟩,
  ⟨svm, "svm_load160".toList, [.i32, .i32], []⟩,
  ⟨svm, "svm_store160".toList, [.i32, .i32], []⟩,
  ⟨svm, "svm_log".toList, [.i32, .i32], []⟩,
  ⟨svm, "svm_transfer".toList, [.i32, .i32, .i64], []⟩]

/-- Methods of the SDK that call the host: `Host`, `Storage` and the allocator, and `svm_sdk_std::log`. -/
inductive Method where
  | alloc
  | calldata
  | setReturndata
  | get32
  | set32
  | get64
  | set64
  | load160
  | store160
  | log
  | stdLog
  | value
  | balance
  | principal
  | target
  | layer
  | transfer
  deriving DecidableEq

/-- What the method imports: sdk-alloc/src/lib.rs:66-72, sdk-host-ffi/src/ext.rs:18-71,
sdk-storage-ffi/src/ext.rs:3-16, and sdk-std/src/log.rs:4-9, where `link_section` is not
`wasm_import_module`, so that the namespace is the default `env`. `principal` and `target` allocate an
address first (ext.rs:196-216). -/
def Method.imports : Method → List Import
  | .alloc => [⟨svm, "svm_static_alloc".toList, [.i32], [.i32]⟩]
  | .calldata => [⟨svm, "svm_calldata_offset".toList, [], [.i32]⟩, ⟨svm, "svm_calldata_len".toList, [], [.i32]⟩]
  | .setReturndata => [⟨svm, "svm_set_returndata".toList, [.i32, .i32], []⟩]
  | .get32 => [⟨svm, "svm_get32".toList, [.i32], [.i32]⟩]
  | .set32 => [⟨svm, "svm_set32".toList, [.i32, .i32], []⟩]
  | .get64 => [⟨svm, "svm_get64".toList, [.i32], [.i64]⟩]
  | .set64 => [⟨svm, "svm_set64".toList, [.i32, .i64], []⟩]
  | .load160 => [⟨svm, "svm_load160".toList, [.i32, .i32], []⟩]
  | .store160 => [⟨svm, "svm_store160".toList, [.i32, .i32], []⟩]
  | .log => [⟨svm, "svm_log".toList, [.i32, .i32, .i32], []⟩]
  | .stdLog => [⟨"env".toList, "svm_log".toList, [.i32, .i32], []⟩]
  | .value => [⟨sm, "sm_value".toList, [], [.i64]⟩]
  | .balance => [⟨sm, "sm_balance".toList, [], [.i64]⟩]
  | .principal => [⟨svm, "svm_static_alloc".toList, [.i32], [.i32]⟩, ⟨sm, "sm_principal".toList, [.i32], []⟩]
  | .target => [⟨svm, "svm_static_alloc".toList, [.i32], [.i32]⟩, ⟨sm, "sm_target".toList, [.i32], []⟩]
  | .layer => [⟨sm, "sm_layer".toList, [], [.i64]⟩]
  | .transfer => [⟨sm, "sm_transfer".toList, [.i32, .i64], []⟩]

/-- The imports of a template that uses these methods. -/
def importsOf (methods : List Method) : List Import := methods.flatMap Method.imports

/-- Wasmer's linking, as far as functions are concerned: `m`, which has these imports, has a link error
if and only if an import is not registered. -/
def Linked (m : Module) (imports : List Import) : Prop :=
  m.linkError = none ↔ ∀ i ∈ imports, i ∈ registered

/-! ## Spec -/

/-- The methods of the SDK that the runtime provides. -/
def Method.Works : Method → Prop
  | .alloc | .calldata | .setReturndata | .get32 | .set32 | .get64 | .set64 | .load160 | .store160 => True
  | .log | .stdLog | .value | .balance | .principal | .target | .layer | .transfer => False

/-- The host functions behind the methods. -/
def Method.hosts : Method → List String
  | .alloc => ["svm_static_alloc"]
  | .calldata => ["svm_calldata_offset", "svm_calldata_len"]
  | .setReturndata => ["svm_set_returndata"]
  | .get32 => ["svm_get32"]
  | .set32 => ["svm_set32"]
  | .get64 => ["svm_get64"]
  | .set64 => ["svm_set64"]
  | .load160 => ["svm_load160"]
  | .store160 => ["svm_store160"]
  | .log | .stdLog => ["svm_log"]
  | .value => ["sm_value"]
  | .balance => ["sm_balance"]
  | .principal => ["svm_static_alloc", "sm_principal"]
  | .target => ["svm_static_alloc", "sm_target"]
  | .layer => ["sm_layer"]
  | .transfer => ["sm_transfer"]

/-- A call of the runtime runs the code of the template. -/
def Instantiates (m : Module) : Prop :=
  ∀ (chk : Bool) (env : Env) (w : View), (instantiate chk m env).eval w = ((m.start.run chk env).bind fun r =>
    match r.2 with
    | .ok x => .ret (r.1, .ok x)
    | .error msg =>
      .ret (r.1, .error (.instantiationFailed env.targetAddr env.templateAddr msg, []))).eval w

/-- What C99 says: a template that is written with the SDK can be instantiated. -/
def C99_claim : Prop :=
  ∀ (m : Module) (methods : List Method), Linked m (importsOf methods) → Instantiates m

/-! ## Theorems -/

theorem registered_iff (x : Method) : (∀ i ∈ x.imports, i ∈ registered) ↔ x.Works := by
  cases x <;> simp only [Method.Works, iff_true, iff_false] <;> decide +kernel

/-- **C99, exactly**: a template has no link error if and only if it only uses the allocator, the calldata,
the returndata and the storage: it neither logs, nor asks for the value, a balance, an address or the
layer, nor transfers coins. -/
theorem C99_links {m : Module} {methods : List Method} (h : Linked m (importsOf methods)) :
    m.linkError = none ↔ ∀ x ∈ methods, x.Works := by
  refine h.trans ?_
  unfold importsOf
  simp only [List.mem_flatMap]
  constructor
  · intro hi x hx
    exact (registered_iff x).1 fun i hm => hi i ⟨x, hx, hm⟩
  · rintro hw i ⟨x, hx, hm⟩
    exact (registered_iff x).2 (hw x hx) i hm

/-- **C99, the functions**: which functions of the runtime a method that works calls; each is registered under
this name with the types of the import. -/
theorem C99_hosts (x : Method) : x.imports.map (fun i => String.ofList i.name) = x.hosts ∧
    (x.Works → ∀ n ∈ x.hosts, ∃ i ∈ registered, i ∈ x.imports ∧ i.ns = svm ∧ i.name = n.toList) := by
  cases x <;> refine ⟨by decide +kernel, fun hw => ?_⟩ <;> first | exact hw.elim | decide +kernel

/-- **C99, partial.** A template that only uses methods that work can be instantiated. -/
theorem C99_instantiates_partial {m : Module} {methods : List Method} (h : Linked m (importsOf methods))
    (hw : ∀ x ∈ methods, x.Works) : Instantiates m := by
  intro chk env w
  unfold instantiate
  rw [(C99_links h).2 hw]
  rfl

/-- **C99 is wrong** for every template that uses any other method: whichever of its functions is called,
and whatever the calldata, its code does not run, nothing is written, and the call fails. -/
theorem C99_fails {m : Module} {methods : List Method} (h : Linked m (importsOf methods)) {x : Method}
    (hx : x ∈ methods) (hw : ¬ x.Works) : ∃ msg, ∀ (chk : Bool) (eng : Engine) (call : Call) (sections : Sections)
      (env : Env) (w : View) (code : CodeSection), codeSection sections = some code → eng code.code = .ok m →
      (validateFuncUsage call sections).eval w = (w, .ok (.ok ())) →
      (runCall chk eng call sections env).eval w =
        (w, .ok (env, .error (.instantiationFailed env.targetAddr env.templateAddr msg, []))) := by
  cases hl : m.linkError with
  | none => exact absurd ((C99_links h).1 hl x hx) hw
  | some msg =>
    refine ⟨msg, fun chk eng call sections env w code hc he hv => ?_⟩
    unfold runCall
    rw [Prog.bind_eq, Prog.eval_bind_ok hv]
    dsimp only
    rw [hc, Prog.bind_eq, Prog.eval_bind_ok (Prog.eval_ofOption_some _ _), he]
    dsimp only
    have hi : (instantiate chk m env).eval w =
        (w, .ok (env, .error (.instantiationFailed env.targetAddr env.templateAddr msg, []))) := by
      unfold instantiate
      rw [hl]
      rfl
    rw [Prog.bind_eq, Prog.eval_bind_ok hi]
    rfl

/-- A module with these imports that does nothing. -/
def moduleWith (methods : List Method) : Module where
  σ := Unit
  linkError := if ∀ i ∈ importsOf methods, i ∈ registered then none else some ⟨[], by decide⟩
  start := .ret () []
  hasMemory := true
  sig _ := none
  invoke _ _ _ mem := .ret ((), []) mem

theorem moduleWith_linked (methods : List Method) : Linked (moduleWith methods) (importsOf methods) := by
  unfold Linked moduleWith
  dsimp only
  split
  · rename_i h
    exact ⟨fun _ => h, fun _ => rfl⟩
  · rename_i h
    exact ⟨fun h' => (by cases h'), fun h' => absurd h' h⟩

/-- **C99 is wrong.** -/
theorem C99_claim_false : ¬ C99_claim := by
  intro hc
  have h1 := hc _ [.transfer] (moduleWith_linked _) true
    (Env.new ⟨exampleAddr 1, exampleAddr 9, ⟨none, []⟩⟩ (exampleAddr 9) (exampleAddr 1) .fullAccess) (fun _ => none)
  have h2 : (moduleWith [.transfer]).linkError = some ⟨[], by decide⟩ := by
    have hn : ¬ ∀ i ∈ importsOf [.transfer], i ∈ registered := fun h =>
      (registered_iff .transfer).1 fun i hi => h i (by simpa [importsOf] using hi)
    simp only [moduleWith, if_neg hn]
  unfold instantiate at h1
  rw [h2] at h1
  cases h1

/-- Non-vacuity of C99: a template that stores what it gets, and one that transfers. -/
example : Linked (moduleWith [.alloc, .calldata, .set64]) (importsOf [.alloc, .calldata, .set64]) ∧
    (∀ x ∈ [Method.alloc, .calldata, .set64], x.Works) ∧ ¬ Method.transfer.Works :=
  ⟨moduleWith_linked _, by simp [Method.Works], id⟩

end Svm.Sdk
