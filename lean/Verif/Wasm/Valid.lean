import Verif.Wasm.Program

/-!
# What validation accepts: properties C47, C48 and C50 (programs)
-/

namespace Svm.Wasm

open Svm.Codec (Str)
open Svm.Gas (SortRes Acyclic IsCycle)
open Svm.Gas.Graph (Cmd build trySort IsEdge IsNode)
open Svm.Runtime (svmAlloc svmVerify)
open Relation (TransGen ReflTransGen)

/-! ## Floating point -/

theorem forM_ok {α ε : Type} (f : α → Except ε Unit) (l : List α) :
    l.forM f = .ok () ↔ ∀ x ∈ l, f x = .ok () := by
  induction l with
  | nil => exact ⟨fun _ x hx => absurd hx (by simp), fun _ => rfl⟩
  | cons a l ih =>
    have hu : (a :: l).forM f = (f a >>= fun _ => l.forM f) := rfl
    rw [hu]
    cases ha : f a with
    | error e =>
      constructor
      · intro h; cases h
      · intro h
        have := h a List.mem_cons_self
        rw [ha] at this; cases this
    | ok u =>
      show (l.forM f = _) ↔ _
      rw [ih, List.forall_mem_cons]
      exact ⟨fun h => ⟨ha, h⟩, fun h => h.2⟩

theorem validateNoFloats_ok (p : Program) :
    validateNoFloats p = .ok () ↔ ∀ ops ∈ p.functions, ∀ op ∈ ops, validateOpcode op = .ok () := by
  unfold validateNoFloats
  rw [forM_ok]
  exact forall_congr' fun ops => imp_congr_right fun _ => forM_ok _ _

/-- The instructions that compute with floating point numbers but are not rejected: the conversions
to integers and the reinterpretations as integers. -/
def Plain.Escapes : Plain → Prop
  | .i32TruncSF32 | .i32TruncUF32 | .i32TruncSF64 | .i32TruncUF64
  | .i64TruncSF32 | .i64TruncUF32 | .i64TruncSF64 | .i64TruncUF64
  | .i32ReinterpretF32 | .i64ReinterpretF64 => True
  | _ => False

/-- The list of rejected instructions, compared with the specification. -/
theorem listed_iff (p : Plain) : p.listed = true ↔ (Op.plain p).IsFloat ∧ ¬ p.Escapes := by
  cases p <;> simp [Plain.listed, Op.IsFloat, Plain.Escapes, Plain.sig]

theorem validateOpcode_ok (op : Op) :
    validateOpcode op = .ok () ↔ (op.IsFloat → ∃ p, op = .plain p ∧ p.Escapes) := by
  cases op with
  | plain p =>
    simp only [validateOpcode]
    have := listed_iff p
    by_cases h : p.listed = true
    · rw [if_pos h]
      obtain ⟨h1, h2⟩ := this.1 h
      constructor
      · intro h; cases h
      · intro h3
        obtain ⟨q, e, hq⟩ := h3 h1
        cases e
        exact absurd hq h2
    · rw [if_neg h]
      refine ⟨fun _ hf => ⟨p, rfl, ?_⟩, fun _ => rfl⟩
      by_contra hn
      exact h (this.2 ⟨hf, hn⟩)
  | _ => simp [validateOpcode, Op.IsFloat]

/-- What `Program::new` guarantees. -/
theorem programNew_ok {read : Bytes → Option Module} {wasm : Bytes} {ce : Bool} {p : Program}
    (h : programNew read wasm ce = .ok p) :
    ∃ m, read wasm = some m ∧ m.code = some p.functions ∧ readImports m = .ok p.imports ∧
      p.exports = readExports m ∧ validateNoFloats p = .ok () ∧
      (ce = true → moduleValidateExports m = .ok ()) ∧ p.functions.length ≤ 65535 := by
  unfold programNew at h
  cases hm : read wasm with
  | none => rw [hm] at h; cases h
  | some m =>
    rw [hm] at h
    simp only [Outcome.ofOption, Outcome.ok_bind] at h
    cases hc : m.code with
    | none => rw [hc] at h; cases h
    | some code =>
      rw [hc] at h
      simp only [Outcome.ok_bind] at h
      cases hi : readImports m with
      | error e => rw [hi] at h; cases h
      | ok imports =>
        rw [hi] at h
        simp only [lift, Outcome.ok_bind] at h
        cases hf : validateNoFloats ⟨imports, readExports m, code⟩ with
        | error e => rw [hf] at h; cases h
        | ok u =>
          rw [hf] at h
          simp only [Outcome.ok_bind] at h
          cases ce with
          | false =>
            simp only [Bool.false_eq_true, if_false] at h
            split at h
            · cases h
            · cases h
              exact ⟨m, rfl, hc, hi, rfl, hf, fun h => (nomatch h), by show code.length ≤ _; omega⟩
          | true =>
            simp only [if_true] at h
            cases he : moduleValidateExports m with
            | err e => rw [he] at h; cases h
            | panic => rw [he] at h; cases h
            | ok u =>
              rw [he] at h
              simp only [Outcome.ok_bind] at h
              split at h
              · cases h
              · cases h
                exact ⟨m, rfl, hc, hi, rfl, hf, fun _ => he, by show code.length ≤ _; omega⟩

theorem validateDeploy_ok {chk : Bool} {read : Bytes → Option Module} {wasm : Bytes} {p : Program}
    (h : validateDeploy chk read wasm = .ok p) :
    programNew read wasm true = .ok p ∧ validateWasm chk false p = .ok () := by
  unfold validateDeploy at h
  cases hp : programNew read wasm true with
  | err e => rw [hp] at h; cases h
  | panic => rw [hp] at h; cases h
  | ok q =>
    rw [hp] at h
    dsimp only at h
    cases hv : validateWasm chk false q with
    | err e => rw [hv] at h; cases h
    | panic => rw [hv] at h; cases h
    | ok u => rw [hv] at h; cases h; exact ⟨rfl, hv⟩

/-- C47: a program accepted by deploy validation has no instruction that computes with floating
point numbers. -/
def C47_claim : Prop :=
  ∀ (chk : Bool) (read : Bytes → Option Module) (wasm : Bytes) (p : Program),
    validateDeploy chk read wasm = .ok p → ∀ ops ∈ p.functions, ∀ op ∈ ops, ¬ op.IsFloat

/-- A module with a function that converts a global floating point constant to an integer. -/
def floatModule : Module where
  types := [⟨[.i32], [.i32]⟩, ⟨[], [.i32]⟩]
  imports := []
  functions := [0, 1]
  exports := [⟨svmAlloc, some 0⟩, ⟨svmVerify, some 1⟩]
  code := some [[.plain .getLocal, .end_], [.plain .getGlobal, .plain .i32TruncSF32, .end_]]

/-- The code violates C47. -/
theorem C47_claim_false : ¬ C47_claim := by
  intro h
  have hv : validateDeploy true (fun _ => some floatModule) [] =
      .ok ⟨[], readExports floatModule, [[.plain .getLocal, .end_],
        [.plain .getGlobal, .plain .i32TruncSF32, .end_]]⟩ := rfl
  exact h true _ [] _ hv [.plain .getGlobal, .plain .i32TruncSF32, .end_] (by simp) (.plain .i32TruncSF32)
    (by simp) ⟨_, rfl, by simp⟩

/-- **C47**, the part that holds: the only instructions with floating point operands or results in an
accepted program are the conversions and reinterpretations to integers (missing: those ten). In
particular no instruction produces a floating point number. -/
theorem C47_no_floats_partial {chk : Bool} {read : Bytes → Option Module} {wasm : Bytes} {p : Program}
    (h : validateDeploy chk read wasm = .ok p) (ops : List Op) (hops : ops ∈ p.functions) (op : Op)
    (hop : op ∈ ops) (hf : op.IsFloat) : ∃ q, op = .plain q ∧ q.Escapes ∧
      ∀ s, q.sig = some s → .f32 ∉ s.2 ∧ .f64 ∉ s.2 := by
  obtain ⟨m, -, -, -, -, h5, -⟩ := programNew_ok (validateDeploy_ok h).1
  have := (validateNoFloats_ok p).1 h5 ops hops op hop
  obtain ⟨q, e, hq⟩ := (validateOpcode_ok op).1 this hf
  refine ⟨q, e, hq, fun s hs => ?_⟩
  cases q <;> simp [Plain.Escapes] at hq <;> simp [Plain.sig] at hs <;> subst hs <;> simp

/-! ## Loops, indirect calls and recursion -/

/-- What the visitor accepts of one instruction. -/
def OkOp (p : Program) (origin : Nat) (op : Op) : Prop :=
  op ≠ .loop ∧ op ≠ .callIndirect ∧ ∀ f, op = .call f → f ≤ 65535 ∧ (p.imports.length ≤ f → origin ≠ f)

theorem onOp_spec (p : Program) (origin : Nat) (op : Op) :
    (OkOp p origin op → ∃ c, onOp p origin op = .ok c ∧
      ∀ x, x ∈ c ↔ ∃ f, op = .call f ∧ p.imports.length ≤ f ∧ x = .edge origin f) ∧
    (¬ OkOp p origin op → ∃ e, onOp p origin op = .error e ∧ ∀ l, e ≠ .callCycle l) := by
  cases op with
  | call f =>
    unfold onOp OkOp Program.isImported
    by_cases h1 : f ≤ 65535
    · by_cases h2 : f < p.imports.length
      · simp [h1, h2]
      · by_cases h3 : origin = f
        · simp [h1, h2, h3]; try omega
        · simp [h1, h2, h3]
          omega
    · simp [h1]
  | _ => simp [OkOp, onOp]

theorem visitOps_spec (p : Program) (origin : Nat) (ops : List Op) :
    ((∀ op ∈ ops, OkOp p origin op) → ∃ cs, visitOps p origin ops = .ok cs ∧
      ∀ x, x ∈ cs ↔ ∃ f, .call f ∈ ops ∧ p.imports.length ≤ f ∧ x = .edge origin f) ∧
    (¬ (∀ op ∈ ops, OkOp p origin op) → ∃ e, visitOps p origin ops = .error e ∧ ∀ l, e ≠ .callCycle l) := by
  induction ops with
  | nil => exact ⟨fun _ => ⟨[], rfl, by simp⟩, fun h => absurd (by simp) h⟩
  | cons op ops ih =>
    obtain ⟨h1, h2⟩ := onOp_spec p origin op
    rw [List.forall_mem_cons]
    constructor
    · rintro ⟨ha, hb⟩
      obtain ⟨c, e1, e2⟩ := h1 ha
      obtain ⟨cs, e3, e4⟩ := ih.1 hb
      refine ⟨c ++ cs, by simp only [visitOps, e1, e3]; rfl, fun x => ?_⟩
      rw [List.mem_append, e2, e4]
      simp only [List.mem_cons]
      constructor
      · rintro (⟨f, rfl, h⟩ | ⟨f, hf, h⟩)
        · exact ⟨f, .inl rfl, h⟩
        · exact ⟨f, .inr hf, h⟩
      · rintro ⟨f, hf | hf, h⟩
        · exact .inl ⟨f, hf.symm, h⟩
        · exact .inr ⟨f, hf, h⟩
    · intro hn
      by_cases ha : OkOp p origin op
      · obtain ⟨c, e1, -⟩ := h1 ha
        obtain ⟨e, e2, e3⟩ := ih.2 (fun hb => hn ⟨ha, hb⟩)
        exact ⟨e, by simp only [visitOps, e1, e2]; rfl, e3⟩
      · obtain ⟨e, e1, e2⟩ := h2 ha
        exact ⟨e, by simp only [visitOps, e1]; rfl, e2⟩

theorem visitFuncs_spec (p : Program) : ∀ (is : List Nat) (bodies : List (List Op)),
    is.length = bodies.length →
    ((∀ x ∈ is.zip bodies, ∀ op ∈ x.2, OkOp p x.1 op) → ∃ cs, visitFuncs p is bodies = .ok cs ∧
      (∀ a b, .edge a b ∈ cs ↔ ∃ x ∈ is.zip bodies, x.1 = a ∧ .call b ∈ x.2 ∧ p.imports.length ≤ b) ∧
      ∀ a, .node a ∈ cs ↔ a ∈ is) ∧
    (¬ (∀ x ∈ is.zip bodies, ∀ op ∈ x.2, OkOp p x.1 op) → ∃ e, visitFuncs p is bodies = .error e ∧
      ∀ l, e ≠ .callCycle l)
  | [], [], _ => ⟨fun _ => ⟨[], rfl, by simp, by simp⟩, fun h => absurd (by simp) h⟩
  | i :: is, ops :: bodies, hl => by
    obtain ⟨h1, h2⟩ := visitOps_spec p i ops
    obtain ⟨h3, h4⟩ := visitFuncs_spec p is bodies (by simpa using hl)
    rw [List.zip_cons_cons, List.forall_mem_cons]
    constructor
    · rintro ⟨ha, hb⟩
      obtain ⟨c, e1, e2⟩ := h1 ha
      obtain ⟨cs, e3, e4, e5⟩ := h3 hb
      refine ⟨.node i :: c ++ cs, by simp only [visitFuncs, e1, e3]; rfl, fun a b => ?_, fun a => ?_⟩
      · rw [List.cons_append, List.mem_cons, List.mem_append, e2, e4]
        simp only [reduceCtorEq, false_or, Cmd.edge.injEq, List.mem_cons]
        constructor
        · rintro (⟨f, h1, h2, rfl, rfl⟩ | ⟨x, hx, h⟩)
          · exact ⟨(a, ops), .inl rfl, rfl, h1, h2⟩
          · exact ⟨x, .inr hx, h⟩
        · rintro ⟨x, rfl | hx, h⟩
          · exact .inl ⟨b, h.2.1, h.2.2, h.1.symm, rfl⟩
          · exact .inr ⟨x, hx, h⟩
      · rw [List.cons_append, List.mem_cons, List.mem_append, e2, e5]
        simp
    · intro hn
      by_cases ha : ∀ op ∈ ops, OkOp p i op
      · obtain ⟨c, e1, -⟩ := h1 ha
        obtain ⟨e, e2, e3⟩ := h4 (fun hb => hn ⟨ha, hb⟩)
        exact ⟨e, by simp only [visitFuncs, e1, e2]; rfl, e3⟩
      · obtain ⟨e, e1, e2⟩ := h2 ha
        exact ⟨e, by simp only [visitFuncs, e1]; rfl, e2⟩

theorem mem_zip_funcs (p : Program) (a : Nat) (ops : List Op) :
    (a, ops) ∈ p.funcIndexes.zip p.functions ↔ p.getFunc a = some ops := by
  unfold Program.funcIndexes Program.getFunc
  rw [List.mem_iff_getElem?]
  constructor
  · rintro ⟨i, hi⟩
    rw [List.getElem?_zip_eq_some] at hi
    obtain ⟨h1, h2⟩ := hi
    rw [List.getElem?_map] at h1
    cases hr : (List.range p.functions.length)[i]? with
    | none => rw [hr] at h1; cases h1
    | some j =>
      rw [hr] at h1
      obtain ⟨hlt, rfl⟩ := List.getElem?_eq_some_iff.1 hr
      simp at h1
      subst h1
      rw [if_neg (by omega), Nat.add_sub_cancel]
      exact h2
  · intro h
    split at h
    · cases h
    · rename_i hge
      refine ⟨a - p.imports.length, ?_⟩
      rw [List.getElem?_zip_eq_some]
      refine ⟨?_, h⟩
      have hlt := (List.getElem?_eq_some_iff.1 h).1
      rw [List.getElem?_map, List.getElem?_range hlt]
      simp
      omega

theorem length_funcIndexes (p : Program) : p.funcIndexes.length = p.functions.length := by
  simp [Program.funcIndexes]

/-- No function has a loop or an indirect call. -/
def NoLoops (p : Program) : Prop := ∀ ops ∈ p.functions, .loop ∉ ops ∧ .callIndirect ∉ ops

/-- All calls are to functions with a 16 bit index. -/
def SmallCalls (p : Program) : Prop := ∀ ops ∈ p.functions, ∀ f, .call f ∈ ops → f ≤ 65535

theorem mem_functions_iff (p : Program) (ops : List Op) :
    ops ∈ p.functions ↔ ∃ a, p.getFunc a = some ops := by
  constructor
  · intro h
    obtain ⟨i, hi⟩ := List.mem_iff_getElem?.1 h
    refine ⟨i + p.imports.length, ?_⟩
    unfold Program.getFunc
    rw [if_neg (by omega), Nat.add_sub_cancel]
    exact hi
  · rintro ⟨a, h⟩
    unfold Program.getFunc at h
    split at h
    · cases h
    · exact List.mem_of_getElem? h

/-- The visitor succeeds exactly when there is no loop, no indirect call, no large index and no
direct recursion; the graph is then that of the calls. -/
theorem visit_spec (p : Program) :
    (NoLoops p ∧ SmallCalls p ∧ (∀ a, ¬ Calls p a a) → ∃ cs,
      visitFuncs p p.funcIndexes p.functions = .ok cs ∧ (∀ a b, IsEdge cs a b ↔ Calls p a b) ∧
      ∀ a, .node a ∈ cs ↔ a ∈ p.funcIndexes) ∧
    (¬ (NoLoops p ∧ SmallCalls p ∧ (∀ a, ¬ Calls p a a)) → ∃ e,
      visitFuncs p p.funcIndexes p.functions = .error e ∧ ∀ l, e ≠ .callCycle l) := by
  have hiff : (∀ x ∈ p.funcIndexes.zip p.functions, ∀ op ∈ x.2, OkOp p x.1 op) ↔
      (NoLoops p ∧ SmallCalls p ∧ (∀ a, ¬ Calls p a a)) := by
    constructor
    · intro h
      have h' : ∀ a ops, p.getFunc a = some ops → ∀ op ∈ ops, OkOp p a op := fun a ops ha =>
        h (a, ops) ((mem_zip_funcs p a ops).2 ha)
      refine ⟨fun ops ho => ?_, fun ops ho f hf => ?_, ?_⟩
      · obtain ⟨a, ha⟩ := (mem_functions_iff p ops).1 ho
        exact ⟨fun hc => (h' a ops ha _ hc).1 rfl, fun hc => (h' a ops ha _ hc).2.1 rfl⟩
      · obtain ⟨a, ha⟩ := (mem_functions_iff p ops).1 ho
        exact ((h' a ops ha _ hf).2.2 f rfl).1
      · rintro a ⟨ops, ha, hc, hi⟩
        exact ((h' a ops ha _ hc).2.2 a rfl).2 hi rfl
    · rintro ⟨h1, h2, h3⟩ ⟨a, ops⟩ hx op hop
      rw [mem_zip_funcs] at hx
      have hm := (mem_functions_iff p ops).2 ⟨a, hx⟩
      refine ⟨?_, ?_, ?_⟩
      · rintro rfl; exact (h1 ops hm).1 hop
      · rintro rfl; exact (h1 ops hm).2 hop
      · rintro f rfl
        refine ⟨h2 ops hm f hop, ?_⟩
        rintro hi rfl
        exact h3 a ⟨ops, hx, hop, hi⟩
  obtain ⟨h1, h2⟩ := visitFuncs_spec p p.funcIndexes p.functions (length_funcIndexes p)
  rw [hiff] at h1 h2
  refine ⟨fun h => ?_, h2⟩
  obtain ⟨cs, e1, e2, e3⟩ := h1 h
  refine ⟨cs, e1, fun a b => ?_, e3⟩
  unfold IsEdge
  rw [e2]
  constructor
  · rintro ⟨⟨a', ops⟩, hx, rfl, hc, hi⟩
    exact ⟨ops, (mem_zip_funcs p _ _).1 hx, hc, hi⟩
  · rintro ⟨ops, ha, hc, hi⟩
    exact ⟨(a, ops), (mem_zip_funcs p _ _).2 ha, rfl, hc, hi⟩

/-- **C48**, exact behaviour: a program is accepted exactly when it has no loop, no indirect call, no
recursion and no call of a function with a large index. -/
theorem C48_accepts_iff (chk rc : Bool) (p : Program) :
    validateWasm chk rc p = .ok () ↔
      NoLoops p ∧ Acyclic (Calls p) ∧ SmallCalls p := by
  obtain ⟨h1, h2⟩ := visit_spec p
  constructor
  · intro h
    by_cases hc : NoLoops p ∧ SmallCalls p ∧ (∀ a, ¬ Calls p a a)
    · obtain ⟨cs, e1, e2, -⟩ := h1 hc
      have hE : IsEdge cs = Calls p := by funext a b; exact propext (e2 a b)
      obtain ⟨g, g1, g2, g3⟩ := Gas.graph_of_cmds (D := Unit) () cs (by
        intro a b hab e
        subst e
        exact hc.2.2 a ((e2 a a).1 hab))
      refine ⟨hc.1, ?_, hc.2.1⟩
      rw [← hE, ← g3]
      unfold validateWasm at h
      rw [e1] at h
      simp only [lift, Outcome.ok_bind, g1, Outcome.unwrapOpt] at h
      obtain ⟨-, -, s3⟩ := Gas.Graph.trySort_spec chk rc (fun a b => decide (a ≤ b)) g2
      cases hs : trySort chk rc (fun a b => decide (a ≤ b)) g with
      | none => rw [hs] at h; cases h
      | some r =>
        rw [hs] at h
        cases r with
        | sorted l => exact (s3 l hs).1
        | cycles l => cases h
    · obtain ⟨e, e1, -⟩ := h2 hc
      unfold validateWasm at h
      rw [e1] at h
      cases h
  · rintro ⟨hn, ha, hs⟩
    obtain ⟨cs, e1, e2, -⟩ := h1 ⟨hn, hs, fun a h => ha a (.single h)⟩
    have hE : IsEdge cs = Calls p := by funext a b; exact propext (e2 a b)
    obtain ⟨g, g1, g2, g3⟩ := Gas.graph_of_cmds (D := Unit) () cs (by
      intro a b hab e
      subst e
      exact ha a (.single ((e2 a a).1 hab)))
    obtain ⟨s1, -, -⟩ := Gas.Graph.trySort_spec chk rc (fun a b => decide (a ≤ b)) g2
    obtain ⟨l, hl⟩ := s1 (by rw [g3, hE]; exact ha)
    unfold validateWasm
    rw [e1]
    simp only [lift, Outcome.ok_bind, g1, Outcome.unwrapOpt, hl]

/-- C48: acceptance means exactly no loops, no indirect calls and no recursion. -/
def C48_claim : Prop :=
  ∀ (chk rc : Bool) (p : Program), validateWasm chk rc p = .ok () ↔ NoLoops p ∧ Acyclic (Calls p)

/-- **C48**, the part that holds: for programs in which all calls have a 16 bit index. Missing: calls
of functions with a larger index, which a program accepted by `Program::new` may have. -/
theorem C48_accepts_iff_partial (chk rc : Bool) (p : Program) (hs : SmallCalls p) :
    validateWasm chk rc p = .ok () ↔ NoLoops p ∧ Acyclic (Calls p) := by
  rw [C48_accepts_iff]
  exact ⟨fun h => ⟨h.1, h.2.1⟩, fun h => ⟨h.1, h.2, hs⟩⟩

/-- **C48**, one direction for all programs: what is accepted has no loops and no recursion. -/
theorem C48_sound (chk rc : Bool) (p : Program) (h : validateWasm chk rc p = .ok ()) :
    NoLoops p ∧ Acyclic (Calls p) := by
  obtain ⟨h1, h2, -⟩ := (C48_accepts_iff chk rc p).1 h
  exact ⟨h1, h2⟩

/-- A program with two imports and 65535 functions, the first of which calls the last. -/
def bigProgram : Program where
  imports := [(svmAlloc, svmAlloc), (svmAlloc, svmVerify)]
  exports := []
  functions := [.call 65536, .end_] :: List.replicate 65534 [.end_]

theorem bigProgram_calls (a b : Nat) (h : Calls bigProgram a b) : a = 2 ∧ b = 65536 := by
  obtain ⟨ops, h1, h2, -⟩ := h
  unfold Program.getFunc at h1
  split at h1
  · cases h1
  · rename_i hge
    change ([Op.call 65536, Op.end_] :: List.replicate 65534 [Op.end_])[a - 2]? = some ops at h1
    change ¬ a < 2 at hge
    cases hk : a - 2 with
    | zero =>
      rw [hk, List.getElem?_cons_zero] at h1
      cases h1
      simp at h2
      exact ⟨by omega, h2⟩
    | succ k =>
      rw [hk, List.getElem?_cons_succ] at h1
      have := List.mem_of_getElem? h1
      rw [List.mem_replicate] at this
      rw [this.2] at h2
      simp at h2

/-- The code violates C48: a call of a function with an index above 65535 is rejected (with the error
for loops), although `Program::new` admits such functions. -/
theorem C48_claim_false : ¬ C48_claim := by
  intro h
  have := (h true false bigProgram).2 ⟨?_, ?_⟩
  · rw [C48_accepts_iff] at this
    have := this.2.2 [.call 65536, .end_] List.mem_cons_self 65536 (by simp)
    omega
  · intro ops ho
    rcases List.mem_cons.1 ho with rfl | ho
    · simp
    · rw [List.mem_replicate] at ho
      rw [ho.2]; simp
  · intro x hx
    have h1 : ∀ a b, TransGen (Calls bigProgram) a b → a = 2 ∧ b = 65536 := by
      intro a b hab
      induction hab with
      | single h => exact bigProgram_calls _ _ h
      | tail _ h ih => exact ⟨ih.1, (bigProgram_calls _ _ h).2⟩
    obtain ⟨e1, e2⟩ := h1 x x hx
    omega

/-- `Program::new` accepts a module with that program, so the counterexample to C48 is one that gets
to the validation. -/
example : ∃ m : Module, programNew (fun _ => some m) [] true = .ok ⟨bigProgram.imports,
    readExports m, bigProgram.functions⟩ := by
  refine ⟨⟨[⟨[.i32], [.i32]⟩, ⟨[], [.i32]⟩], bigProgram.imports.map fun i => ⟨i.1, i.2, true⟩, [0, 1],
    [⟨svmAlloc, some 2⟩, ⟨svmVerify, some 3⟩], some bigProgram.functions⟩, ?_⟩
  have hf : validateNoFloats ⟨bigProgram.imports, readExports ⟨[⟨[.i32], [.i32]⟩, ⟨[], [.i32]⟩],
      bigProgram.imports.map fun i => ⟨i.1, i.2, true⟩, [0, 1],
      [⟨svmAlloc, some 2⟩, ⟨svmVerify, some 3⟩], some bigProgram.functions⟩, bigProgram.functions⟩ = .ok () := by
    rw [validateNoFloats_ok]
    intro ops ho op hop
    change ops ∈ [Op.call 65536, Op.end_] :: List.replicate 65534 [Op.end_] at ho
    rcases List.mem_cons.1 ho with rfl | ho
    · simp at hop
      rcases hop with rfl | rfl <;> rfl
    · rw [List.mem_replicate] at ho
      rw [ho.2] at hop
      simp at hop
      subst hop
      rfl
  unfold programNew
  simp only [Outcome.ofOption, Outcome.ok_bind]
  have hi : readImports ⟨[⟨[.i32], [.i32]⟩, ⟨[], [.i32]⟩], bigProgram.imports.map fun i => ⟨i.1, i.2, true⟩,
    [0, 1], [⟨svmAlloc, some 2⟩, ⟨svmVerify, some 3⟩], some bigProgram.functions⟩ = .ok bigProgram.imports := rfl
  rw [hi]
  simp only [lift, Outcome.ok_bind]
  rw [hf]
  simp only [Outcome.ok_bind, if_true]
  have he : moduleValidateExports ⟨[⟨[.i32], [.i32]⟩, ⟨[], [.i32]⟩],
      bigProgram.imports.map fun i => ⟨i.1, i.2, true⟩, [0, 1],
      [⟨svmAlloc, some 2⟩, ⟨svmVerify, some 3⟩], some bigProgram.functions⟩ = .ok () := rfl
  rw [he]
  have hlen : bigProgram.functions.length = 65535 := by
    show (_ :: List.replicate 65534 _).length = _
    rw [List.length_cons, List.length_replicate]
  simp only [Outcome.ok_bind, hlen]
  rfl

/-- Non-vacuity: an accepted program in which `f` calls `g` twice and an import. -/
example : validateWasm true true ⟨[(svmAlloc, svmAlloc)], [], [[.call 0, .call 2, .call 2, .end_], [.end_]]⟩ =
    .ok () := rfl

/-- Non-vacuity: rejected programs. -/
example : validateWasm true true ⟨[], [], [[.call 1, .end_], [.call 0, .end_]]⟩ =
    .err (.callCycle [0, 1, 0]) := rfl
example : validateWasm true true ⟨[], [], [[.call 0, .end_]]⟩ = .err (.recursiveCall 0) := rfl

/-! ## C50 for programs -/

/-- **C50** for programs, exact behaviour: if the functions call each other in a cycle, and the
program is not rejected for another reason, the report is empty, the process crashes, or the report
is a chain of calls that ends in a cycle. -/
theorem C50_program (chk : Bool) (p : Program) (hn : NoLoops p) (hs : SmallCalls p)
    (hself : ∀ a, ¬ Calls p a a) (hc : ¬ Acyclic (Calls p)) :
    ∃ start, Gas.Graph.Least (fun a b => decide (a ≤ b)) (Gas.Graph.Behind (Calls p)) start ∧
      ((¬ ∃ c, ReflTransGen (Calls p) start c ∧ TransGen (Calls p) c c) →
        validateWasm chk true p = if chk then .panic else .err (.callCycle [])) ∧
      ((∃ c, ReflTransGen (Calls p) start c ∧ TransGen (Calls p) c c) → ∃ pre cyc,
        validateWasm chk true p = .err (.callCycle (pre ++ cyc)) ∧ (pre ++ cyc).IsChain (Calls p) ∧
        (pre ++ cyc).head? = some start ∧ IsCycle (Calls p) cyc) := by
  obtain ⟨cs, e1, e2, -⟩ := (visit_spec p).1 ⟨hn, hs, hself⟩
  have hE : IsEdge cs = Calls p := by funext a b; exact propext (e2 a b)
  obtain ⟨g, start, g1, g2, g3, g4⟩ := Gas.C50_report (D := Unit) chk (fun a b => decide (a ≤ b))
    (by simp; omega) (by simp; omega) () cs (by
      intro a b hab e
      subst e
      exact hself a ((e2 a a).1 hab)) (by rw [hE]; exact hc)
  rw [hE] at g2 g3 g4
  refine ⟨start, g2, fun h => ?_, fun h => ?_⟩
  · unfold validateWasm
    rw [e1]
    simp only [lift, Outcome.ok_bind, g1, Outcome.unwrapOpt]
    rw [g3 h]
    cases chk <;> rfl
  · obtain ⟨pre, cyc, f1, f2, f3, f4, -⟩ := g4 h
    refine ⟨pre, cyc, ?_, f2, f3, f4⟩
    unfold validateWasm
    rw [e1]
    simp only [lift, Outcome.ok_bind, g1, Outcome.unwrapOpt, f1]

end Svm.Wasm
