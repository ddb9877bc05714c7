import Verif.Wasm.Valid

/-!
# Executions of programs (specification), and property C51

The instructions of a function are stored as a flat list. WebAssembly code is structured; `Code` is
the structured form and `Code.flatten` the list. `Run` describes the executions of a program as far
as the order of the executed instructions is concerned: conditions, indices of branch tables and
targets of indirect calls are arbitrary, and an execution may be cut off or trap anywhere. So every
real execution is among them.
-/

namespace Svm.Wasm

open Svm.Codec (Str)
open Svm.Gas (Acyclic)
open Relation (TransGen ReflTransGen)

/-- The instructions without a body. -/
inductive Basic where
  | unreachable
  | br (label : Nat)
  | brIf (label : Nat)
  | brTable (labels : List Nat) (default : Nat)
  | ret
  | call (f : Nat)
  | callIndirect
  | plain (p : Plain)
  deriving Repr, DecidableEq

/-- The instruction in the flat form. -/
def Basic.toOp : Basic → Op
  | .unreachable => .unreachable
  | .br n => .br n
  | .brIf n => .brIf n
  | .brTable ls d => .brTable ls d
  | .ret => .ret
  | .call f => .call f
  | .callIndirect => .callIndirect
  | .plain p => .plain p

/-- Structured code: a sequence of instructions, some of which have bodies. -/
inductive Code where
  | nil
  | op (b : Basic) (rest : Code)
  | block (body rest : Code)
  | loop (body rest : Code)
  | ite (t e rest : Code)
  | ift (t rest : Code)
  deriving Repr, DecidableEq

/-- The flat form, in the binary format of WebAssembly. -/
def Code.flatten : Code → List Op
  | .nil => []
  | .op b rest => b.toOp :: rest.flatten
  | .block body rest => .block :: (body.flatten ++ .end_ :: rest.flatten)
  | .loop body rest => .loop :: (body.flatten ++ .end_ :: rest.flatten)
  | .ite t e rest => .if_ :: (t.flatten ++ .else_ :: (e.flatten ++ .end_ :: rest.flatten))
  | .ift t rest => .if_ :: (t.flatten ++ .end_ :: rest.flatten)

/-- Function `f` of the program has the code `c`. -/
def IsBody (p : Program) (f : Nat) (c : Code) : Prop := p.getFunc f = some (c.flatten ++ [.end_])

/-- How the execution of a sequence of instructions ends. -/
inductive Exit where
  /-- after the last one -/
  | next
  /-- a branch to the `n`-th label outside -/
  | br (n : Nat)
  /-- a return from the function -/
  | ret
  /-- a trap, or cut off -/
  | stop
  deriving Repr, DecidableEq

/-- What an exit from a body means outside: `none` to go on after it. -/
def Exit.leave : Exit → Option Exit
  | .next => none
  | .br 0 => none
  | .br (n + 1) => some (.br n)
  | .ret => some .ret
  | .stop => some .stop

/-- Possible effects of an instruction other than a call: `none` to go on with the next one. -/
def Basic.jumps : Basic → List (Option Exit)
  | .unreachable => [some .stop]
  | .br n => [some (.br n)]
  | .brIf n => [some (.br n), none]
  | .brTable ls d => (d :: ls).map fun n => some (.br n)
  | .ret => [some .ret]
  | .call _ => []
  | .callIndirect => []
  | .plain _ => [none]

/-- The bodies of a conditional or a block: the instruction, the body and what follows. -/
def Code.bodies : Code → List (Op × Code × Code)
  | .block b r => [(.block, b, r)]
  | .ite t e r => [(.if_, t, r), (.if_, e, r)]
  | .ift t r => [(.if_, t, r), (.if_, .nil, r)]
  | _ => []

/-- The functions a call may be of. -/
def Basic.Target : Basic → Nat → Prop
  | .call f, g => g = f
  | .callIndirect, _ => True
  | _, _ => False

/-- An executed instruction, with the functions being executed, innermost first. -/
abbrev Ev := List Nat × Op

/-- `Run p stk c tr e`: with the functions `stk` being executed, some execution of the code `c`
executes the instructions `tr` and ends as `e`. -/
inductive Run (p : Program) : List Nat → Code → List Ev → Exit → Prop
  | stop (stk : List Nat) (c : Code) : Run p stk c [] .stop
  | nil (stk : List Nat) : Run p stk .nil [] .next
  | jump (stk : List Nat) (b : Basic) (r : Code) (e : Exit) (h : some e ∈ b.jumps) :
      Run p stk (.op b r) [(stk, b.toOp)] e
  | fall (stk : List Nat) (b : Basic) (r : Code) (tr : List Ev) (e : Exit) (h : none ∈ b.jumps)
      (hr : Run p stk r tr e) : Run p stk (.op b r) ((stk, b.toOp) :: tr) e
  | callImport (stk : List Nat) (b : Basic) (f : Nat) (r : Code) (tr : List Ev) (e : Exit)
      (h : b.Target f) (hi : f < p.imports.length) (hr : Run p stk r tr e) :
      Run p stk (.op b r) ((stk, b.toOp) :: tr) e
  | callDone (stk : List Nat) (b : Basic) (f : Nat) (c r : Code) (tr₁ tr₂ : List Ev) (e₁ e : Exit)
      (h : b.Target f) (hc : IsBody p f c) (h₁ : Run p (f :: stk) c tr₁ e₁)
      (he : e₁ = .next ∨ e₁ = .ret ∨ e₁ = .br 0) (h₂ : Run p stk r tr₂ e) :
      Run p stk (.op b r) ((stk, b.toOp) :: (tr₁ ++ tr₂)) e
  | callStop (stk : List Nat) (b : Basic) (f : Nat) (c r : Code) (tr₁ : List Ev)
      (h : b.Target f) (hc : IsBody p f c) (h₁ : Run p (f :: stk) c tr₁ .stop) :
      Run p stk (.op b r) ((stk, b.toOp) :: tr₁) .stop
  | bodyDone (stk : List Nat) (c : Code) (o : Op) (b r : Code) (tr₁ tr₂ : List Ev) (e₁ e : Exit)
      (h : (o, b, r) ∈ c.bodies) (h₁ : Run p stk b tr₁ e₁) (he : e₁.leave = none)
      (h₂ : Run p stk r tr₂ e) : Run p stk c ((stk, o) :: (tr₁ ++ tr₂)) e
  | bodyOut (stk : List Nat) (c : Code) (o : Op) (b r : Code) (tr₁ : List Ev) (e₁ e : Exit)
      (h : (o, b, r) ∈ c.bodies) (h₁ : Run p stk b tr₁ e₁) (he : e₁.leave = some e) :
      Run p stk c ((stk, o) :: tr₁) e
  | loopDone (stk : List Nat) (b r : Code) (tr₁ tr₂ : List Ev) (e : Exit)
      (h₁ : Run p stk b tr₁ .next) (h₂ : Run p stk r tr₂ e) :
      Run p stk (.loop b r) ((stk, .loop) :: (tr₁ ++ tr₂)) e
  | loopAgain (stk : List Nat) (b r : Code) (tr₁ tr₂ : List Ev) (e : Exit)
      (h₁ : Run p stk b tr₁ (.br 0)) (h₂ : Run p stk (.loop b r) tr₂ e) :
      Run p stk (.loop b r) ((stk, .loop) :: (tr₁ ++ tr₂)) e
  | loopOut (stk : List Nat) (b r : Code) (tr₁ : List Ev) (e₁ e : Exit)
      (h₁ : Run p stk b tr₁ e₁) (he : e₁.leave = some e) :
      Run p stk (.loop b r) ((stk, .loop) :: tr₁) e

/-! ## C51 -/

/-- The number of instructions in the program. -/
def Program.size (p : Program) : Nat := (p.functions.map List.length).sum

/-- `s + s² + ... + sⁿ`. -/
def powerSum (s : Nat) : Nat → Nat
  | 0 => 0
  | n + 1 => s * (1 + powerSum s n)

theorem powerSum_mono (s : Nat) {m n : Nat} (h : m ≤ n) : powerSum s m ≤ powerSum s n := by
  induction n generalizing m with
  | zero => have : m = 0 := by omega
            subst this; exact Nat.le_refl _
  | succ n ih =>
    cases m with
    | zero => exact Nat.zero_le _
    | succ m => exact Nat.mul_le_mul_left _ (by have := ih (m := m) (by omega); omega)

/-- A possible stack of functions: each was called by the next one, and all are defined. -/
def Stack (p : Program) (stk : List Nat) : Prop :=
  stk.IsChain (fun a b => Calls p b a) ∧ ∀ f ∈ stk, f ∈ p.funcIndexes

theorem Stack.nodup {p : Program} (ha : Acyclic (Calls p)) {stk : List Nat} (h : Stack p stk) :
    stk.Nodup := by
  refine Gas.Graph.chain_nodup (E := fun a b => Calls p b a) (fun x hx => ha x ?_) h.1
  exact Relation.transGen_swap.1 hx

theorem Stack.length_le {p : Program} (ha : Acyclic (Calls p)) {stk : List Nat} (h : Stack p stk) :
    stk.length ≤ p.functions.length := by
  rw [← length_funcIndexes]
  exact (List.subperm_of_subset (h.nodup ha) (fun x hx => h.2 x hx)).length_le

theorem mem_funcIndexes {p : Program} {f : Nat} {ops : List Op} (h : p.getFunc f = some ops) :
    f ∈ p.funcIndexes :=
  (List.of_mem_zip ((mem_zip_funcs p f ops).2 h)).1

theorem length_le_size {p : Program} {f : Nat} {ops : List Op} (h : p.getFunc f = some ops) :
    ops.length ≤ p.size := by
  have hle : ∀ (l : List (List Op)), ops ∈ l → ops.length ≤ (l.map List.length).sum := by
    intro l hl
    induction l with
    | nil => cases hl
    | cons a l ih =>
      rw [List.map_cons, List.sum_cons]
      rcases List.mem_cons.1 hl with rfl | h
      · omega
      · have := ih h; omega
  exact hle _ ((mem_functions_iff p ops).2 ⟨f, h⟩)

theorem bodies_spec {c b r : Code} {o : Op} (h : (o, b, r) ∈ c.bodies) :
    (∀ x ∈ b.flatten, x ∈ c.flatten) ∧ (∀ x ∈ r.flatten, x ∈ c.flatten) ∧
      1 + b.flatten.length + r.flatten.length ≤ c.flatten.length := by
  cases c <;> simp only [Code.bodies, List.not_mem_nil, List.mem_cons, Prod.mk.injEq, or_false] at h
  · obtain ⟨-, rfl, rfl⟩ := h
    refine ⟨fun x hx => ?_, fun x hx => ?_, ?_⟩ <;> simp [Code.flatten]
    · exact .inr (.inl hx)
    · exact .inr (.inr (.inr hx))
    · omega
  · rcases h with ⟨-, rfl, rfl⟩ | ⟨-, rfl, rfl⟩
    · refine ⟨fun x hx => ?_, fun x hx => ?_, ?_⟩ <;> simp [Code.flatten]
      · exact .inr (.inl hx)
      · exact .inr (.inr (.inr (.inr (.inr hx))))
      · omega
    · refine ⟨fun x hx => ?_, fun x hx => ?_, ?_⟩ <;> simp [Code.flatten]
      · exact .inr (.inr (.inr (.inl hx)))
      · exact .inr (.inr (.inr (.inr (.inr hx))))
      · omega
  · rcases h with ⟨-, rfl, rfl⟩ | ⟨-, rfl, rfl⟩
    · refine ⟨fun x hx => ?_, fun x hx => ?_, ?_⟩ <;> simp [Code.flatten]
      · exact .inr (.inl hx)
      · exact .inr (.inr (.inr hx))
      · omega
    · refine ⟨fun x hx => absurd hx (by simp [Code.flatten]), fun x hx => ?_, ?_⟩ <;> simp [Code.flatten]
      · exact .inr (.inr (.inr hx))
      · omega

/-- Runs of programs without loops, indirect calls and recursion. -/
theorem run_bound {p : Program} (hn : NoLoops p) (ha : Acyclic (Calls p)) {stk : List Nat} {c : Code}
    {tr : List Ev} {e : Exit} (h : Run p stk c tr e) :
    ∀ (f : Nat) (stk' : List Nat) (ops : List Op) (n : Nat), stk = f :: stk' → Stack p stk →
      p.getFunc f = some ops → (∀ x ∈ c.flatten, x ∈ ops) → p.functions.length ≤ stk.length + n →
      (∀ ev ∈ tr, Stack p ev.1) ∧ tr.length ≤ c.flatten.length * (1 + powerSum p.size n) := by
  have hcall : ∀ {b : Basic} {g f : Nat} {ops : List Op} {c : Code} {stk : List Nat},
      b.Target g → p.getFunc f = some ops → b.toOp ∈ ops → IsBody p g c → Stack p (f :: stk) →
      Stack p (g :: f :: stk) := by
    intro b g f ops c stk ht hf hb hg hs
    have : b = .call g := by
      cases b with
      | call g' => rw [show g = g' from ht]
      | callIndirect => exact absurd hb (hn ops ((mem_functions_iff p ops).2 ⟨f, hf⟩)).2
      | _ => exact absurd ht id
    subst this
    have hge : p.imports.length ≤ g := by
      by_contra hlt
      unfold IsBody Program.getFunc at hg
      rw [if_pos (by omega)] at hg
      cases hg
    refine ⟨List.isChain_cons_cons.2 ⟨⟨ops, hf, hb, hge⟩, hs.1⟩, ?_⟩
    intro x hx
    rcases List.mem_cons.1 hx with rfl | hx
    · exact mem_funcIndexes hg
    · exact hs.2 x hx
  induction h with
  | stop => intros; simp
  | nil => intros; simp
  | jump stk b r e hj =>
    intro f stk' ops n hs hS hf hsub hlen
    refine ⟨by simpa using hS, ?_⟩
    simp only [List.length_cons, List.length_nil, Code.flatten]
    exact Nat.le_trans (by omega) (Nat.mul_le_mul (Nat.le_add_left 1 _) (Nat.le_add_right 1 _))
  | fall stk b r tr e hj _ ih =>
    intro f stk' ops n hs hS hf hsub hlen
    obtain ⟨i1, i2⟩ := ih f stk' ops n hs hS hf (fun x hx => hsub x (List.mem_cons_of_mem _ hx)) hlen
    refine ⟨List.forall_mem_cons.2 ⟨hS, i1⟩, ?_⟩
    simp only [List.length_cons, Code.flatten, Nat.add_mul]
    omega
  | callImport stk b g r tr e ht hi _ ih =>
    intro f stk' ops n hs hS hf hsub hlen
    obtain ⟨i1, i2⟩ := ih f stk' ops n hs hS hf (fun x hx => hsub x (List.mem_cons_of_mem _ hx)) hlen
    refine ⟨List.forall_mem_cons.2 ⟨hS, i1⟩, ?_⟩
    simp only [List.length_cons, Code.flatten, Nat.add_mul]
    omega
  | callDone stk b g c r tr₁ tr₂ e₁ e ht hc _ he _ ih₁ ih₂ =>
    intro f stk' ops n hs hS hf hsub hlen
    subst hs
    have hS' := hcall ht hf (hsub _ List.mem_cons_self) hc hS
    have hl := hS'.length_le ha
    simp only [List.length_cons] at hl hlen
    cases n with
    | zero => omega
    | succ n =>
      obtain ⟨j1, j2⟩ := ih₁ g (f :: stk') _ n rfl hS' hc (fun x hx => List.mem_append_left _ hx)
        (by simp only [List.length_cons]; omega)
      obtain ⟨i1, i2⟩ := ih₂ f stk' ops (n + 1) rfl hS hf
        (fun x hx => hsub x (List.mem_cons_of_mem _ hx)) (by simp only [List.length_cons]; omega)
      refine ⟨List.forall_mem_cons.2 ⟨hS, fun ev hev => ?_⟩, ?_⟩
      · rcases List.mem_append.1 hev with h | h
        · exact j1 ev h
        · exact i1 ev h
      · have h3 : tr₁.length ≤ powerSum p.size (n + 1) :=
          Nat.le_trans j2 (Nat.mul_le_mul_right _ (by
            have := length_le_size hc
            simp at this; omega))
        simp only [List.length_cons, List.length_append, Code.flatten, Nat.add_mul, Nat.one_mul] at i2 ⊢
        omega
  | callStop stk b g c r tr₁ ht hc _ ih₁ =>
    intro f stk' ops n hs hS hf hsub hlen
    subst hs
    have hS' := hcall ht hf (hsub _ List.mem_cons_self) hc hS
    have hl := hS'.length_le ha
    simp only [List.length_cons] at hl hlen
    cases n with
    | zero => omega
    | succ n =>
      obtain ⟨j1, j2⟩ := ih₁ g (f :: stk') _ n rfl hS' hc (fun x hx => List.mem_append_left _ hx)
        (by simp only [List.length_cons]; omega)
      refine ⟨List.forall_mem_cons.2 ⟨hS, j1⟩, ?_⟩
      have h3 : tr₁.length ≤ powerSum p.size (n + 1) :=
        Nat.le_trans j2 (Nat.mul_le_mul_right _ (by
          have := length_le_size hc
          simp at this; omega))
      simp only [List.length_cons, Code.flatten, Nat.add_mul, Nat.one_mul]
      omega
  | bodyDone stk c o b r tr₁ tr₂ e₁ e hb _ he _ ih₁ ih₂ =>
    intro f stk' ops n hs hS hf hsub hlen
    obtain ⟨b1, b2, b3⟩ := bodies_spec hb
    obtain ⟨j1, j2⟩ := ih₁ f stk' ops n hs hS hf (fun x hx => hsub x (b1 x hx)) hlen
    obtain ⟨i1, i2⟩ := ih₂ f stk' ops n hs hS hf (fun x hx => hsub x (b2 x hx)) hlen
    refine ⟨List.forall_mem_cons.2 ⟨hS, fun ev hev => ?_⟩, ?_⟩
    · rcases List.mem_append.1 hev with h | h
      · exact j1 ev h
      · exact i1 ev h
    · have := Nat.mul_le_mul_right (1 + powerSum p.size n) b3
      simp only [List.length_cons, List.length_append, Nat.add_mul, Nat.one_mul] at this i2 j2 ⊢
      omega
  | bodyOut stk c o b r tr₁ e₁ e hb _ he ih₁ =>
    intro f stk' ops n hs hS hf hsub hlen
    obtain ⟨b1, b2, b3⟩ := bodies_spec hb
    obtain ⟨j1, j2⟩ := ih₁ f stk' ops n hs hS hf (fun x hx => hsub x (b1 x hx)) hlen
    refine ⟨List.forall_mem_cons.2 ⟨hS, j1⟩, ?_⟩
    have := Nat.mul_le_mul_right (1 + powerSum p.size n) b3
    simp only [List.length_cons, Nat.add_mul, Nat.one_mul] at this j2 ⊢
    omega
  | loopDone stk b r =>
    intro f stk' ops n hs hS hf hsub hlen
    exact absurd (hsub .loop List.mem_cons_self) (hn ops ((mem_functions_iff p ops).2 ⟨f, hf⟩)).1
  | loopAgain stk b r =>
    intro f stk' ops n hs hS hf hsub hlen
    exact absurd (hsub .loop List.mem_cons_self) (hn ops ((mem_functions_iff p ops).2 ⟨f, hf⟩)).1
  | loopOut stk b r =>
    intro f stk' ops n hs hS hf hsub hlen
    exact absurd (hsub .loop List.mem_cons_self) (hn ops ((mem_functions_iff p ops).2 ⟨f, hf⟩)).1

/-- **C51**: in every execution of a function of an accepted program, the functions being executed
are always different from each other, and the number of executed instructions is at most
`s + s² + ... + sⁿ` for a program of `s` instructions in `n` functions. -/
theorem C51_terminates {chk rc : Bool} {p : Program} (hv : validateWasm chk rc p = .ok ()) {f : Nat}
    {c : Code} {tr : List Ev} {e : Exit} (hf : IsBody p f c) (h : Run p [f] c tr e) :
    (∀ ev ∈ tr, ev.1.Nodup) ∧ tr.length ≤ powerSum p.size p.functions.length := by
  obtain ⟨hn, ha⟩ := C48_sound chk rc p hv
  have hS : Stack p [f] := ⟨List.isChain_singleton _, by
    intro x hx
    rw [List.mem_singleton] at hx
    subst hx
    exact mem_funcIndexes hf⟩
  have hpos := hS.length_le ha
  simp only [List.length_singleton] at hpos
  obtain ⟨n, hn'⟩ := Nat.exists_eq_add_of_le hpos
  obtain ⟨h1, h2⟩ := run_bound hn ha h f [] _ n rfl hS hf (fun x hx => List.mem_append_left _ hx)
    (by simp only [List.length_singleton]; omega)
  refine ⟨fun ev hev => (h1 ev hev).nodup ha, Nat.le_trans h2 ?_⟩
  rw [hn', Nat.add_comm 1 n]
  exact Nat.mul_le_mul_right _ (by
    have := length_le_size hf
    simp at this; omega)

/-- Non-vacuity of C51: an execution with a nested call and a conditional branch. -/
def twoFuncs : Program := ⟨[], [], [[.plain .i32Const, .call 1, .end_],
  [.block, .plain .i32Const, .brIf 0, .plain .nop, .end_, .end_]]⟩

example : validateWasm true true twoFuncs = .ok () := rfl

example : Run twoFuncs [0] (.op (.plain .i32Const) (.op (.call 1) .nil))
    [([0], .plain .i32Const), ([0], .call 1), ([1, 0], .block), ([1, 0], .plain .i32Const),
      ([1, 0], .brIf 0)] .next := by
  refine .fall _ _ _ _ _ (by simp [Basic.jumps]) ?_
  refine .callDone _ _ 1 (.block (.op (.plain .i32Const) (.op (.brIf 0) (.op (.plain .nop) .nil))) .nil) _
    [([1, 0], .block), ([1, 0], .plain .i32Const), ([1, 0], .brIf 0)] [] .next .next rfl rfl ?_ (.inl rfl)
    (.nil _)
  refine .bodyDone _ _ _ _ _ [([1, 0], .plain .i32Const), ([1, 0], .brIf 0)] [] (.br 0) _
    List.mem_cons_self ?_ rfl (.nil _)
  refine .fall _ _ _ _ _ (by simp [Basic.jumps]) ?_
  exact .jump _ _ _ _ (by simp [Basic.jumps])

/-- The validation is needed: a program with a loop has executions of every length, -/
theorem loop_unbounded (n : Nat) : ∃ tr e, Run ⟨[], [], [[.loop, .br 0, .end_, .end_]]⟩ [0]
    (.loop (.op (.br 0) .nil) .nil) tr e ∧ n ≤ tr.length := by
  induction n with
  | zero => exact ⟨_, _, .stop _ _, Nat.le_refl _⟩
  | succ n ih =>
    obtain ⟨tr, e, h, hl⟩ := ih
    refine ⟨_, e, .loopAgain _ _ _ [([0], .br 0)] tr e (.jump _ _ _ _ (by simp [Basic.jumps])) h, ?_⟩
    simp only [List.length_cons, List.length_append, List.length_nil]
    omega

/-- and so has one with recursion. -/
theorem recursion_unbounded (n : Nat) (stk : List Nat) : ∃ tr, Run ⟨[], [], [[.call 0, .end_]]⟩ stk
    (.op (.call 0) .nil) tr .stop ∧ n ≤ tr.length := by
  induction n generalizing stk with
  | zero => exact ⟨_, .stop _ _, Nat.le_refl _⟩
  | succ n ih =>
    obtain ⟨tr, h, hl⟩ := ih (0 :: stk)
    refine ⟨_, .callStop _ _ 0 (.op (.call 0) .nil) _ tr rfl rfl h, ?_⟩
    simp only [List.length_cons]
    omega

end Svm.Wasm
