import Verif.Wasm.PriceProps

/-!
# A machine that executes programs: properties C115 and C116

`Run` (C51, C52) describes executions by what they may do. Here is a machine that executes programs: it
computes conditions, indices and call targets, calls host functions and gets their answers, and may run for
ever. What an instruction does with the data (the operand stack, locals, memory, ...) is a parameter, so that
the theorems hold for every such behaviour; `Wasm.Ints` has the one of WebAssembly.
-/

namespace Svm.Wasm

open Svm.Codec
open Svm.Runtime (HostCall HostVal Guest)

/-! ## The machine -/

/-- Structured code whose instructions carry immediates. -/
inductive ICode (I : Type) where
  | nil
  | op (b : Basic) (i : I) (rest : ICode I)
  | block (i : I) (body rest : ICode I)
  | loop (i : I) (body rest : ICode I)
  | ite (i : I) (t e rest : ICode I)
  | ift (i : I) (t rest : ICode I)

/-- The code without the immediates. -/
def ICode.erase {I : Type} : ICode I → Code
  | .nil => .nil
  | .op b _ r => .op b r.erase
  | .block _ b r => .block b.erase r.erase
  | .loop _ b r => .loop b.erase r.erase
  | .ite _ t e r => .ite t.erase e.erase r.erase
  | .ift _ t r => .ift t.erase r.erase

/-- What instructions do with the data `σ`. `none` is a trap. -/
structure Sem (I σ : Type) where
  /-- an instruction that only moves or computes values -/
  plain : Plain → I → σ → Option σ
  /-- take a condition or an index from the stack -/
  pop : σ → Option (Nat × σ)
  /-- the function that an indirect call finds -/
  table : I → σ → Option (Nat × σ)
  /-- enter a body (of a loop?) -/
  enter : Bool → I → σ → σ
  /-- leave a body -/
  leave : Exit → σ → σ
  /-- enter a function -/
  call : Nat → σ → Option σ
  /-- leave a function -/
  back : Exit → σ → σ
  /-- the call of a host function: the memory, the call, and how the answer is received -/
  host : Nat → σ → Option (Bytes × HostCall × (HostVal → Bytes → Option σ))

/-- What a machine does: it executes instructions (`tick`), calls host functions, and returns, traps, or
reaches the end of the fuel. -/
inductive Tree (α : Type) where
  | ret (a : α)
  | trap
  | fuel
  | tick (ev : Ev) (t : Tree α)
  | host (mem : Bytes) (c : HostCall) (k : HostVal → Bytes → Tree α)

/-- One execution after the other. -/
def Tree.bind {α β : Type} : Tree α → (α → Tree β) → Tree β
  | .ret a, k => k a
  | .trap, _ => .trap
  | .fuel, _ => .fuel
  | .tick ev t, k => .tick ev (t.bind k)
  | .host mem c f, k => .host mem c fun v m => (f v m).bind k

/-- A program for the machine: the code of its functions, and the number of its imports. -/
structure Image (I : Type) where
  funs : Nat → Option (ICode I)
  imports : Nat

/-- A trap unless there is a value. -/
def Tree.ofOption {α β : Type} (o : Option α) (k : α → Tree β) : Tree β :=
  match o with
  | none => .trap
  | some a => k a

/-- The call of a function and what follows; `self` executes code. -/
def invoke {I σ : Type} (M : Sem I σ) (im : Image I) (self : List Nat → Nat → ICode I → σ → Tree (Exit × σ))
    (stk : List Nat) (o : Op) (f : Nat) (s : σ) (next : σ → Tree (Exit × σ)) : Tree (Exit × σ) :=
  if f < im.imports then
    .tick (stk, o) (.ofOption (M.host f s) fun x => .host x.1 x.2.1 fun v m => .ofOption (x.2.2 v m) next)
  else
    .ofOption (im.funs f) fun c =>
      .tick (stk, o) (.ofOption (M.call f s) fun s' => (self (f :: stk) 0 c s').bind fun r => next (M.back r.1 r.2))

/-- A body and what follows. -/
def inBody {σ : Type} (leave : Exit → σ → σ) (t : Tree (Exit × σ)) (next : σ → Tree (Exit × σ)) :
    Tree (Exit × σ) :=
  t.bind fun r =>
    match r.1.leave with
    | none => next (leave r.1 r.2)
    | some e => .ret (e, leave r.1 r.2)

/-- The execution of code, with the functions `stk` being executed and `d` labels around the code; at most
`fuel` levels deep. An instruction for which there is nothing to do is not executed (code that was validated
never has one): a label that is missing, a condition that is missing, a function that is missing. -/
def exec {I σ : Type} (M : Sem I σ) (im : Image I) : Nat → List Nat → Nat → ICode I → σ → Tree (Exit × σ)
  | 0, _, _, _, _ => .fuel
  | _ + 1, _, _, .nil, s => .ret (.next, s)
  | n + 1, stk, d, .op b i r, s =>
    match b with
    | .unreachable => .tick (stk, .unreachable) .trap
    | .br l => if l ≤ d then .tick (stk, .br l) (.ret (.br l, s)) else .trap
    | .brIf l =>
      if l ≤ d then
        .ofOption (M.pop s) fun x =>
          .tick (stk, .brIf l) (if x.1 = 0 then exec M im n stk d r x.2 else .ret (.br l, x.2))
      else .trap
    | .brTable ls l =>
      if ∀ k ∈ l :: ls, k ≤ d then
        .ofOption (M.pop s) fun x => .tick (stk, .brTable ls l) (.ret (.br (ls.getD x.1 l), x.2))
      else .trap
    | .ret => .tick (stk, .ret) (.ret (.ret, s))
    | .call f => invoke M im (exec M im n) stk (.call f) f s (exec M im n stk d r)
    | .callIndirect =>
      .ofOption (M.table i s) fun x => invoke M im (exec M im n) stk .callIndirect x.1 x.2 (exec M im n stk d r)
    | .plain p => .tick (stk, .plain p) (.ofOption (M.plain p i s) (exec M im n stk d r))
  | n + 1, stk, d, .block i b r, s =>
    .tick (stk, .block) (inBody M.leave (exec M im n stk (d + 1) b (M.enter false i s)) (exec M im n stk d r))
  | n + 1, stk, d, .loop i b r, s =>
    .tick (stk, .loop) ((exec M im n stk (d + 1) b (M.enter true i s)).bind fun x =>
      match x.1 with
      | .next => exec M im n stk d r (M.leave .next x.2)
      | .br 0 => exec M im n stk d (.loop i b r) (M.leave (.br 0) x.2)
      | .br (l + 1) => .ret (.br l, M.leave (.br (l + 1)) x.2)
      | .ret => .ret (.ret, M.leave .ret x.2)
      | .stop => .trap)
  | n + 1, stk, d, .ite i t e r, s =>
    .ofOption (M.pop s) fun x =>
      .tick (stk, .if_) (inBody M.leave
        (exec M im n stk (d + 1) (if x.1 = 0 then e else t) (M.enter false i x.2)) (exec M im n stk d r))
  | n + 1, stk, d, .ift i t r, s =>
    .ofOption (M.pop s) fun x =>
      .tick (stk, .if_) (inBody M.leave
        (exec M im n stk (d + 1) (if x.1 = 0 then .nil else t) (M.enter false i x.2)) (exec M im n stk d r))

/-! ## Spec -/

/-- How an execution ends. -/
inductive End (α : Type) where
  | done (a : α)
  | trap
  | fuel

/-- `Path t tr e`: for some answers of the host, the instructions `tr` are executed and the end is `e`. -/
inductive Path {α : Type} : Tree α → List Ev → End α → Prop
  | ret (a : α) : Path (.ret a) [] (.done a)
  | trap : Path .trap [] .trap
  | fuel : Path .fuel [] .fuel
  | tick {t : Tree α} {tr : List Ev} {e : End α} (ev : Ev) (h : Path t tr e) : Path (.tick ev t) (ev :: tr) e
  | host {k : HostVal → Bytes → Tree α} {tr : List Ev} {e : End α} (mem : Bytes) (c : HostCall) (v : HostVal)
      (m : Bytes) (h : Path (k v m) tr e) : Path (.host mem c k) tr e

/-- The machine runs this program. -/
structure Loads {I : Type} (im : Image I) (p : Program) : Prop where
  funs : ∀ f c, im.funs f = some c → IsBody p f c.erase
  imports : im.imports = p.imports.length

/-! ## Lemmas -/

theorem path_bind {α β : Type} {t : Tree α} {k : α → Tree β} {tr : List Ev} {e : End β}
    (h : Path (t.bind k) tr e) :
    (∃ a tr₁ tr₂, Path t tr₁ (.done a) ∧ Path (k a) tr₂ e ∧ tr = tr₁ ++ tr₂) ∨
      (Path t tr .trap ∧ e = .trap) ∨ (Path t tr .fuel ∧ e = .fuel) := by
  induction t generalizing tr with
  | ret a => exact .inl ⟨a, [], tr, .ret a, h, rfl⟩
  | trap => cases h; exact .inr (.inl ⟨.trap, rfl⟩)
  | fuel => cases h; exact .inr (.inr ⟨.fuel, rfl⟩)
  | tick ev t ih =>
    rw [Tree.bind] at h
    cases h with
    | tick _ h =>
      rcases ih h with ⟨a, tr₁, tr₂, h₁, h₂, rfl⟩ | ⟨h₁, rfl⟩ | ⟨h₁, rfl⟩
      · exact .inl ⟨a, ev :: tr₁, tr₂, .tick ev h₁, h₂, rfl⟩
      · exact .inr (.inl ⟨.tick ev h₁, rfl⟩)
      · exact .inr (.inr ⟨.tick ev h₁, rfl⟩)
  | host mem c f ih =>
    rw [Tree.bind] at h
    cases h with
    | host _ _ v m h =>
      rcases ih v m h with ⟨a, tr₁, tr₂, h₁, h₂, rfl⟩ | ⟨h₁, rfl⟩ | ⟨h₁, rfl⟩
      · exact .inl ⟨a, tr₁, tr₂, .host mem c v m h₁, h₂, rfl⟩
      · exact .inr (.inl ⟨.host mem c v m h₁, rfl⟩)
      · exact .inr (.inr ⟨.host mem c v m h₁, rfl⟩)

theorem path_ofOption {α β : Type} {o : Option α} {k : α → Tree β} {tr : List Ev} {e : End β}
    (h : Path (.ofOption o k) tr e) : (∃ a, o = some a ∧ Path (k a) tr e) ∨ (tr = [] ∧ e = .trap) := by
  cases o with
  | none => cases h; exact .inr ⟨rfl, rfl⟩
  | some a => exact .inl ⟨a, rfl, h⟩

/-- What a path of the machine says about executions of the code `c`: it is one of them, and if it ends for lack
of fuel, as many instructions were executed. -/
def Sound (p : Program) {σ : Type} (n : Nat) (stk : List Nat) (d : Nat) (c : Code) (tr : List Ev) :
    End (Exit × σ) → Prop
  | .done r => Run p stk c tr r.1 ∧ (∀ l, r.1 = .br l → l ≤ d) ∧ r.1 ≠ .stop
  | .trap => Run p stk c tr .stop
  | .fuel => Run p stk c tr .stop ∧ n ≤ tr.length

section
variable {I σ : Type} {M : Sem I σ} {im : Image I} {p : Program}

theorem sound_fall {n : Nat} {stk : List Nat} {d : Nat} {b : Basic} {r : Code} {tr : List Ev} {e : End (Exit × σ)}
    (hj : none ∈ b.jumps) (h : Sound p n stk d r tr e) :
    Sound p (n + 1) stk d (.op b r) ((stk, b.toOp) :: tr) e := by
  cases e with
  | done x => exact ⟨.fall _ _ _ _ _ hj h.1, h.2⟩
  | trap => exact .fall _ _ _ _ _ hj h
  | fuel => exact ⟨.fall _ _ _ _ _ hj h.1, Nat.succ_le_succ h.2⟩

theorem sound_import {n : Nat} {stk : List Nat} {d : Nat} {b : Basic} {f : Nat} {r : Code} {tr : List Ev}
    {e : End (Exit × σ)} (ht : b.Target f) (hi : f < p.imports.length) (h : Sound p n stk d r tr e) :
    Sound p (n + 1) stk d (.op b r) ((stk, b.toOp) :: tr) e := by
  cases e with
  | done x => exact ⟨.callImport _ _ f _ _ _ ht hi h.1, h.2⟩
  | trap => exact .callImport _ _ f _ _ _ ht hi h
  | fuel => exact ⟨.callImport _ _ f _ _ _ ht hi h.1, Nat.succ_le_succ h.2⟩

theorem sound_body {n : Nat} {stk : List Nat} {d : Nat} {c : Code} {o : Op} {b r : Code}
    {leave : Exit → σ → σ} {t : Tree (Exit × σ)} {next : σ → Tree (Exit × σ)} {tr : List Ev}
    {e : End (Exit × σ)} (hb : (o, b, r) ∈ c.bodies)
    (ht : ∀ tr e, Path t tr e → Sound p n stk (d + 1) b tr e)
    (hn : ∀ s tr e, Path (next s) tr e → Sound p n stk d r tr e)
    (h : Path (inBody leave t next) tr e) : Sound p (n + 1) stk d c ((stk, o) :: tr) e := by
  rcases path_bind h with ⟨a, tr₁, tr₂, h₁, h₂, rfl⟩ | ⟨h₁, rfl⟩ | ⟨h₁, rfl⟩
  · have g₁ := ht _ _ h₁
    cases hl : a.1.leave with
    | none =>
      simp only [hl] at h₂
      have g₂ := hn _ _ _ h₂
      cases e with
      | done x => exact ⟨.bodyDone _ _ _ _ _ _ _ _ _ hb g₁.1 hl g₂.1, g₂.2⟩
      | trap => exact .bodyDone _ _ _ _ _ _ _ _ _ hb g₁.1 hl g₂
      | fuel =>
        refine ⟨.bodyDone _ _ _ _ _ _ _ _ _ hb g₁.1 hl g₂.1, ?_⟩
        have := g₂.2
        simp only [List.length_cons, List.length_append]
        omega
    | some x =>
      simp only [hl] at h₂
      cases h₂
      rw [List.append_nil]
      refine ⟨.bodyOut _ _ _ _ _ _ _ _ hb g₁.1 hl, ?_, ?_⟩
      · rintro l rfl
        cases ha : a.1 with
        | next => rw [ha] at hl; cases hl
        | ret => rw [ha] at hl; cases hl
        | stop => rw [ha] at hl; cases hl
        | br m =>
          rw [ha] at hl
          cases m with
          | zero => cases hl
          | succ m =>
            cases hl
            have := g₁.2.1 _ ha
            omega
      · rintro rfl
        cases ha : a.1 with
        | next => rw [ha] at hl; cases hl
        | ret => rw [ha] at hl; cases hl
        | stop => exact g₁.2.2 ha
        | br m =>
          rw [ha] at hl
          cases m <;> cases hl
  · exact .bodyOut _ _ _ _ _ _ .stop _ hb (ht _ _ h₁) rfl
  · have g := ht _ _ h₁
    exact ⟨.bodyOut _ _ _ _ _ _ .stop _ hb g.1 rfl, Nat.succ_le_succ g.2⟩

theorem sound_invoke (hl : Loads im p) {n : Nat} {stk : List Nat} {d : Nat} {b : Basic} {f : Nat} {r : Code}
    {s : σ} {next : σ → Tree (Exit × σ)} {tr : List Ev} {e : End (Exit × σ)} (hf : b.Target f)
    (ih : ∀ stk d (c : ICode I) (s : σ) tr e, Path (exec M im n stk d c s) tr e → Sound p n stk d c.erase tr e)
    (hn : ∀ s tr e, Path (next s) tr e → Sound p n stk d r tr e)
    (h : Path (invoke M im (exec M im n) stk b.toOp f s next) tr e) : Sound p (n + 1) stk d (.op b r) tr e := by
  unfold invoke at h
  split at h
  · rename_i hi
    rw [hl.imports] at hi
    cases h with
    | tick _ h =>
      rcases path_ofOption h with ⟨x, -, h⟩ | ⟨rfl, rfl⟩
      · cases h with
        | host _ _ v m h =>
          rcases path_ofOption h with ⟨s', -, h⟩ | ⟨rfl, rfl⟩
          · exact sound_import hf hi (hn _ _ _ h)
          · exact .callImport _ _ f _ _ _ hf hi (.stop _ _)
      · exact .callImport _ _ f _ _ _ hf hi (.stop _ _)
  · rcases path_ofOption h with ⟨c, hc, h⟩ | ⟨rfl, rfl⟩
    · have hb := hl.funs f c hc
      cases h with
      | tick _ h =>
        rcases path_ofOption h with ⟨s', -, h⟩ | ⟨rfl, rfl⟩
        · rcases path_bind h with ⟨a, tr₁, tr₂, h₁, h₂, rfl⟩ | ⟨h₁, rfl⟩ | ⟨h₁, rfl⟩
          · have g₁ := ih _ _ _ _ _ _ h₁
            have hex : a.1 = .next ∨ a.1 = .ret ∨ a.1 = .br 0 := by
              cases ha : a.1 with
              | next => exact .inl rfl
              | ret => exact .inr (.inl rfl)
              | stop => exact absurd ha g₁.2.2
              | br l =>
                have := g₁.2.1 l ha
                have : l = 0 := by omega
                subst this
                exact .inr (.inr rfl)
            have g₂ := hn _ _ _ h₂
            cases e with
            | done x => exact ⟨.callDone _ _ f _ _ _ _ _ _ hf hb g₁.1 hex g₂.1, g₂.2⟩
            | trap => exact .callDone _ _ f _ _ _ _ _ _ hf hb g₁.1 hex g₂
            | fuel =>
              refine ⟨.callDone _ _ f _ _ _ _ _ _ hf hb g₁.1 hex g₂.1, ?_⟩
              have := g₂.2
              simp only [List.length_cons, List.length_append]
              omega
          · exact .callStop _ _ f _ _ _ hf hb (ih _ _ _ _ _ _ h₁)
          · have g := ih _ _ _ _ _ _ h₁
            exact ⟨.callStop _ _ f _ _ _ hf hb g.1, Nat.succ_le_succ g.2⟩
        · exact .callStop _ _ f _ _ _ hf hb (.stop _ _)
    · exact .stop _ _

/-- Every path of the machine is one of the executions that C51 and C52 are about. -/
theorem path_run (hl : Loads im p) (n : Nat) : ∀ (stk : List Nat) (d : Nat) (c : ICode I) (s : σ) (tr : List Ev)
    (e : End (Exit × σ)), Path (exec M im n stk d c s) tr e → Sound p n stk d c.erase tr e := by
  induction n with
  | zero =>
    intro stk d c s tr e h
    rw [exec] at h
    cases h
    exact ⟨.stop _ _, Nat.le_refl _⟩
  | succ n ih =>
    intro stk d c s tr e h
    cases c with
    | nil =>
      rw [exec] at h
      cases h
      exact ⟨.nil _, by simp, by simp⟩
    | op b i r =>
      cases b with
      | unreachable =>
        rw [exec] at h
        cases h with
        | tick _ h =>
          cases h
          exact .jump _ .unreachable _ _ (by simp [Basic.jumps])
      | br l =>
        rw [exec] at h
        split at h
        · rename_i hd
          cases h with
          | tick _ h =>
            cases h
            exact ⟨.jump _ (.br l) _ _ (by simp [Basic.jumps]), fun l' h' => by cases h'; exact hd, by simp⟩
        · cases h
          exact .stop _ _
      | brIf l =>
        rw [exec] at h
        split at h
        · rename_i hd
          rcases path_ofOption h with ⟨x, -, h⟩ | ⟨rfl, rfl⟩
          · cases h with
            | tick _ h =>
              split at h
              · exact sound_fall (b := .brIf l) (by simp [Basic.jumps]) (ih _ _ _ _ _ _ h)
              · cases h
                exact ⟨.jump _ (.brIf l) _ _ (by simp [Basic.jumps]), fun l' h' => by cases h'; exact hd, by simp⟩
          · exact .stop _ _
        · cases h
          exact .stop _ _
      | brTable ls l =>
        rw [exec] at h
        split at h
        · rename_i hd
          rcases path_ofOption h with ⟨x, -, h⟩ | ⟨rfl, rfl⟩
          · have hmem : ls.getD x.1 l ∈ l :: ls := by
              rw [List.getD_eq_getElem?_getD]
              cases hg : ls[x.1]? with
              | none => simp
              | some y => simp [List.mem_of_getElem? hg]
            cases h with
            | tick _ h =>
              cases h
              refine ⟨.jump _ (.brTable ls l) _ _ ?_, fun l' h' => by cases h'; exact hd _ hmem, by simp⟩
              simp only [Basic.jumps, List.mem_map]
              exact ⟨_, hmem, rfl⟩
          · exact .stop _ _
        · cases h
          exact .stop _ _
      | ret =>
        rw [exec] at h
        cases h with
        | tick _ h =>
          cases h
          exact ⟨.jump _ .ret _ _ (by simp [Basic.jumps]), by simp, by simp⟩
      | call f =>
        rw [exec] at h
        exact sound_invoke (b := .call f) hl rfl ih (fun s tr e h => ih _ _ _ _ _ _ h) h
      | callIndirect =>
        rw [exec] at h
        rcases path_ofOption h with ⟨x, -, h⟩ | ⟨rfl, rfl⟩
        · exact sound_invoke (b := .callIndirect) hl trivial ih (fun s tr e h => ih _ _ _ _ _ _ h) h
        · exact .stop _ _
      | plain q =>
        rw [exec] at h
        cases h with
        | tick _ h =>
          rcases path_ofOption h with ⟨x, -, h⟩ | ⟨rfl, rfl⟩
          · exact sound_fall (b := .plain q) (by simp [Basic.jumps]) (ih _ _ _ _ _ _ h)
          · exact .fall _ (.plain q) _ _ _ (by simp [Basic.jumps]) (.stop _ _)
    | block i b r =>
      rw [exec] at h
      cases h with
      | tick _ h =>
        exact sound_body (c := .block b.erase r.erase) List.mem_cons_self (fun _ _ h => ih _ _ _ _ _ _ h)
          (fun _ _ _ h => ih _ _ _ _ _ _ h) h
    | loop i b r =>
      rw [exec] at h
      cases h with
      | tick _ h =>
        rcases path_bind h with ⟨a, tr₁, tr₂, h₁, h₂, rfl⟩ | ⟨h₁, rfl⟩ | ⟨h₁, rfl⟩
        · have g₁ := ih _ _ _ _ _ _ h₁
          obtain ⟨x, s'⟩ := a
          obtain ⟨g₁, g₁', g₁''⟩ := g₁
          cases x with
          | next =>
            have g₂ := ih _ _ _ _ _ _ h₂
            cases e with
            | done y => exact ⟨.loopDone _ _ _ _ _ _ g₁ g₂.1, g₂.2⟩
            | trap => exact .loopDone _ _ _ _ _ _ g₁ g₂
            | fuel =>
              refine ⟨.loopDone _ _ _ _ _ _ g₁ g₂.1, ?_⟩
              have := g₂.2
              simp only [List.length_cons, List.length_append]
              omega
          | br l =>
            cases l with
            | zero =>
              have g₂ := ih _ _ _ _ _ _ h₂
              cases e with
              | done y => exact ⟨.loopAgain _ _ _ _ _ _ g₁ g₂.1, g₂.2⟩
              | trap => exact .loopAgain _ _ _ _ _ _ g₁ g₂
              | fuel =>
                refine ⟨.loopAgain _ _ _ _ _ _ g₁ g₂.1, ?_⟩
                have := g₂.2
                simp only [List.length_cons, List.length_append]
                omega
            | succ l =>
              cases h₂
              rw [List.append_nil]
              refine ⟨.loopOut _ _ _ _ _ _ g₁ rfl, ?_, by simp⟩
              intro l' h'
              cases h'
              have := g₁' _ rfl
              omega
          | ret =>
            cases h₂
            rw [List.append_nil]
            exact ⟨.loopOut _ _ _ _ _ _ g₁ rfl, by simp, by simp⟩
          | stop => exact absurd rfl g₁''
        · exact .loopOut _ _ _ _ .stop _ (ih _ _ _ _ _ _ h₁) rfl
        · have g := ih _ _ _ _ _ _ h₁
          exact ⟨.loopOut _ _ _ _ .stop _ g.1 rfl, Nat.succ_le_succ g.2⟩
    | ite i t e' r =>
      rw [exec] at h
      rcases path_ofOption h with ⟨x, -, h⟩ | ⟨rfl, rfl⟩
      · cases h with
        | tick _ h =>
          split at h
          · exact sound_body (c := .ite t.erase e'.erase r.erase) (b := e'.erase) (by simp [Code.bodies])
              (fun _ _ h => ih _ _ _ _ _ _ h) (fun _ _ _ h => ih _ _ _ _ _ _ h) h
          · exact sound_body (c := .ite t.erase e'.erase r.erase) (b := t.erase) (by simp [Code.bodies])
              (fun _ _ h => ih _ _ _ _ _ _ h) (fun _ _ _ h => ih _ _ _ _ _ _ h) h
      · exact .stop _ _
    | ift i t r =>
      rw [exec] at h
      rcases path_ofOption h with ⟨x, -, h⟩ | ⟨rfl, rfl⟩
      · cases h with
        | tick _ h =>
          split at h
          · exact sound_body (c := .ift t.erase r.erase) (b := .nil) (by simp [Code.bodies])
              (fun _ _ h => ih _ _ (.nil : ICode I) _ _ _ h) (fun _ _ _ h => ih _ _ _ _ _ _ h) h
          · exact sound_body (c := .ift t.erase r.erase) (b := t.erase) (by simp [Code.bodies])
              (fun _ _ h => ih _ _ _ _ _ _ h) (fun _ _ _ h => ih _ _ _ _ _ _ h) h
      · exact .stop _ _

/-! ## More fuel -/

/-- The fuel is enough. -/
def Tree.Ends {α : Type} (t : Tree α) : Prop := ∀ tr, ¬ Path t tr .fuel

theorem Tree.Ends.tick {α : Type} {ev : Ev} {t : Tree α} (h : (Tree.tick ev t).Ends) : t.Ends :=
  fun tr hp => h (ev :: tr) (.tick ev hp)

theorem Tree.Ends.ofOption {α β : Type} {o : Option α} {k : α → Tree β} (h : (Tree.ofOption o k).Ends) {a : α}
    (ha : o = some a) : (k a).Ends := by
  subst ha
  exact h

theorem Tree.Ends.bind {α β : Type} {t : Tree α} {k : α → Tree β} (h : (t.bind k).Ends) :
    t.Ends ∧ ∀ a tr, Path t tr (.done a) → (k a).Ends := by
  induction t with
  | ret a =>
    refine ⟨fun tr hp => (by cases hp), fun a tr hp => ?_⟩
    cases hp
    exact h
  | trap => exact ⟨fun tr hp => (by cases hp), fun a tr hp => (by cases hp)⟩
  | fuel => exact absurd .fuel (h [])
  | tick ev t ih =>
    obtain ⟨h₁, h₂⟩ := ih (Tree.Ends.tick h)
    refine ⟨fun tr hp => ?_, fun a tr hp => ?_⟩
    · cases hp with
      | tick _ hp => exact h₁ _ hp
    · cases hp with
      | tick _ hp => exact h₂ a _ hp
  | host mem c f ih =>
    have h' : ∀ v m, ((f v m).bind k).Ends := fun v m tr hp => h tr (.host mem c v m hp)
    refine ⟨fun tr hp => ?_, fun a tr hp => ?_⟩
    · cases hp with
      | host _ _ v m hp => exact (ih v m (h' v m)).1 _ hp
    · cases hp with
      | host _ _ v m hp => exact (ih v m (h' v m)).2 a _ hp

theorem Tree.bind_congr {α β : Type} {t : Tree α} {k k' : α → Tree β}
    (h : ∀ a tr, Path t tr (.done a) → k a = k' a) : t.bind k = t.bind k' := by
  induction t with
  | ret a => exact h a [] (.ret a)
  | trap => rfl
  | fuel => rfl
  | tick ev t ih =>
    rw [Tree.bind, Tree.bind, ih fun a tr hp => h a _ (.tick ev hp)]
  | host mem c f ih =>
    rw [Tree.bind, Tree.bind]
    congr 1
    funext v m
    exact ih v m fun a tr hp => h a _ (.host mem c v m hp)

theorem Tree.ofOption_congr {α β : Type} {o : Option α} {k k' : α → Tree β}
    (h : ∀ a, o = some a → k a = k' a) : Tree.ofOption o k = Tree.ofOption o k' := by
  cases o with
  | none => rfl
  | some a => exact h a rfl

/-- Two continuations of which the second has more fuel. -/
def Extends {σ : Type} (k k' : σ → Tree (Exit × σ)) : Prop := ∀ s, (k s).Ends → k' s = k s

theorem inBody_more {leave : Exit → σ → σ} {t t' : Tree (Exit × σ)} {next next' : σ → Tree (Exit × σ)}
    (ht : t.Ends → t' = t) (hn : Extends next next') (h : (inBody leave t next).Ends) :
    inBody leave t' next' = inBody leave t next := by
  obtain ⟨h₁, h₂⟩ := Tree.Ends.bind h
  unfold inBody
  rw [ht h₁]
  refine Tree.bind_congr fun a tr hp => ?_
  have := h₂ a tr hp
  cases hl : a.1.leave with
  | none =>
    simp only [hl] at this
    exact hn _ this
  | some e => rfl

theorem invoke_more {self self' : List Nat → Nat → ICode I → σ → Tree (Exit × σ)} {stk : List Nat} {o : Op}
    {f : Nat} {s : σ} {next next' : σ → Tree (Exit × σ)}
    (hs : ∀ stk d c s, (self stk d c s).Ends → self' stk d c s = self stk d c s) (hn : Extends next next')
    (h : (invoke M im self stk o f s next).Ends) :
    invoke M im self' stk o f s next' = invoke M im self stk o f s next := by
  unfold invoke at h ⊢
  split
  · rename_i hi
    rw [if_pos hi] at h
    congr 1
    refine Tree.ofOption_congr fun x hx => ?_
    congr 1
    funext v m
    refine Tree.ofOption_congr fun s' hs' => hn s' ?_
    have := (Tree.Ends.ofOption (Tree.Ends.tick h) hx)
    exact Tree.Ends.ofOption (fun tr hp => this tr (.host _ _ v m hp)) hs'
  · rename_i hi
    rw [if_neg hi] at h
    refine Tree.ofOption_congr fun c hc => ?_
    congr 1
    refine Tree.ofOption_congr fun s' hs' => ?_
    obtain ⟨h₁, h₂⟩ := Tree.Ends.bind (Tree.Ends.ofOption (Tree.Ends.tick (Tree.Ends.ofOption h hc)) hs')
    rw [hs _ _ _ _ h₁]
    exact Tree.bind_congr fun a tr hp => hn _ (h₂ a tr hp)

/-- Fuel that is enough can be increased. -/
theorem exec_more (n : Nat) : ∀ (stk : List Nat) (d : Nat) (c : ICode I) (s : σ),
    (exec M im n stk d c s).Ends → exec M im (n + 1) stk d c s = exec M im n stk d c s := by
  induction n with
  | zero =>
    intro stk d c s h
    rw [exec] at h
    exact absurd .fuel (h [])
  | succ n ih =>
    intro stk d c s h
    cases c with
    | nil => rw [exec, exec]
    | op b i r =>
      cases b with
      | unreachable => rw [exec, exec]
      | br l => rw [exec, exec]
      | brIf l =>
        rw [exec] at h
        rw [exec, exec]
        split
        · rename_i hd
          rw [if_pos hd] at h
          refine Tree.ofOption_congr fun x hx => ?_
          congr 1
          split
          · rename_i h0
            have := Tree.Ends.tick (Tree.Ends.ofOption h hx)
            rw [if_pos h0] at this
            exact ih _ _ _ _ this
          · rfl
        · rfl
      | brTable ls l => rw [exec, exec]
      | ret => rw [exec, exec]
      | call f =>
        rw [exec] at h
        rw [exec, exec]
        exact invoke_more ih (fun s => ih _ _ _ s) h
      | callIndirect =>
        rw [exec] at h
        rw [exec, exec]
        exact Tree.ofOption_congr fun x hx => invoke_more ih (fun s => ih _ _ _ s) (Tree.Ends.ofOption h hx)
      | plain q =>
        rw [exec] at h
        rw [exec, exec]
        congr 1
        exact Tree.ofOption_congr fun x hx => ih _ _ _ _ (Tree.Ends.ofOption (Tree.Ends.tick h) hx)
    | block i b r =>
      rw [exec] at h
      rw [exec, exec]
      congr 1
      exact inBody_more (ih _ _ _ _) (fun s => ih _ _ _ s) (Tree.Ends.tick h)
    | loop i b r =>
      rw [exec] at h
      rw [exec, exec]
      congr 1
      obtain ⟨h₁, h₂⟩ := Tree.Ends.bind (Tree.Ends.tick h)
      rw [ih _ _ _ _ h₁]
      refine Tree.bind_congr fun a tr hp => ?_
      obtain ⟨x, s'⟩ := a
      have := h₂ _ tr hp
      cases x with
      | next => exact ih _ _ _ _ this
      | br l =>
        cases l with
        | zero => exact ih _ _ _ _ this
        | succ l => rfl
      | ret => rfl
      | stop => rfl
    | ite i t e r =>
      rw [exec] at h
      rw [exec, exec]
      refine Tree.ofOption_congr fun x hx => ?_
      congr 1
      exact inBody_more (ih _ _ _ _) (fun s => ih _ _ _ s) (Tree.Ends.tick (Tree.Ends.ofOption h hx))
    | ift i t r =>
      rw [exec] at h
      rw [exec, exec]
      refine Tree.ofOption_congr fun x hx => ?_
      congr 1
      exact inBody_more (ih _ _ _ _) (fun s => ih _ _ _ s) (Tree.Ends.tick (Tree.Ends.ofOption h hx))

theorem exec_le {n m : Nat} (hnm : n ≤ m) {stk : List Nat} {d : Nat} {c : ICode I} {s : σ}
    (h : (exec M im n stk d c s).Ends) : exec M im m stk d c s = exec M im n stk d c s := by
  induction m with
  | zero =>
    have : n = 0 := by omega
    rw [this]
  | succ m ih =>
    rcases Nat.lt_or_ge n (m + 1) with hlt | hge
    · have := ih (by omega)
      rw [exec_more _ _ _ _ _ (by rw [this]; exact h), this]
    · have : n = m + 1 := by omega
      rw [this]

/-! ## C115 -/

/-- The number of instructions that a call of a function of the program executes at most. -/
def Program.bound (p : Program) : Nat := powerSum p.size p.functions.length

/-- **C115.** A machine that calls a function of an accepted program stops, whatever its instructions do with the
data and whatever the host answers: it executes at most `p.bound` instructions, and with more than `p.bound` levels
of fuel the end of the fuel is never reached, so that more fuel changes nothing. -/
theorem C115_halts {chk rc : Bool} (hv : validateWasm chk rc p = .ok ()) (hl : Loads im p) {f : Nat} {c : ICode I}
    (hc : im.funs f = some c) (s : σ) :
    (∀ n tr e, Path (exec M im n [f] 0 c s) tr e → tr.length ≤ p.bound) ∧
      (exec M im (p.bound + 1) [f] 0 c s).Ends ∧
      ∀ n, p.bound < n → exec M im n [f] 0 c s = exec M im (p.bound + 1) [f] 0 c s := by
  have hlen : ∀ n tr e, Path (exec M im n [f] 0 c s) tr e → tr.length ≤ p.bound := by
    intro n tr e hp
    have hs := path_run hl n _ _ _ _ _ _ hp
    cases e with
    | done x => exact (C51_terminates hv (hl.funs f c hc) hs.1).2
    | trap => exact (C51_terminates hv (hl.funs f c hc) hs).2
    | fuel => exact (C51_terminates hv (hl.funs f c hc) hs.1).2
  have hend : (exec M im (p.bound + 1) [f] 0 c s).Ends := by
    intro tr hp
    have h₁ := hlen _ _ _ hp
    have h₂ := (path_run hl _ _ _ _ _ _ _ hp).2
    omega
  exact ⟨hlen, hend, fun n hn => exec_le hn hend⟩

/-! ## C116 -/

/-- **C116.** What a machine executes costs at most the static price, in builds with overflow checks. -/
theorem C116_cost_checked {rc : Bool} {res : Resolver} (hv : validateWasm true rc p = .ok ())
    {prices : Nat → Option Nat} (hp : priceProgram true res p = some prices) (hl : Loads im p) {f : Nat}
    {c : ICode I} (hc : im.funs f = some c) (s : σ) {n : Nat} {tr : List Ev} {e : End (Exit × σ)}
    (h : Path (exec M im n [f] 0 c s) tr e) : ∃ x, prices f = some x ∧ runCost res p tr ≤ x := by
  have hs := path_run hl n _ _ _ _ _ _ h
  cases e with
  | done x => exact C52_bounds_checked hv hp (hl.funs f c hc) hs.1
  | trap => exact C52_bounds_checked hv hp (hl.funs f c hc) hs
  | fuel => exact C52_bounds_checked hv hp (hl.funs f c hc) hs.1

/-- C116 in every build, when the prices of the functions of the program are below 2^64. -/
theorem C116_cost_partial {chk rc : Bool} {res : Resolver} (hv : validateWasm chk rc p = .ok ())
    (hst : Structured p) {prices : Nat → Option Nat} (hp : priceProgram chk res p = some prices) {P : Nat → Nat}
    (hP : IsPrices res p P) (hfit : ∀ f c, IsBody p f c → P f < 2 ^ 64) (hl : Loads im p) {f : Nat}
    {c : ICode I} (hc : im.funs f = some c) (s : σ) {n : Nat} {tr : List Ev} {e : End (Exit × σ)}
    (h : Path (exec M im n [f] 0 c s) tr e) : ∃ x, prices f = some x ∧ runCost res p tr ≤ x := by
  have hs := path_run hl n _ _ _ _ _ _ h
  cases e with
  | done x => exact C52_bounds_partial hv hst hp hP hfit (hl.funs f c hc) hs.1
  | trap => exact C52_bounds_partial hv hst hp hP hfit (hl.funs f c hc) hs
  | fuel => exact C52_bounds_partial hv hst hp hP hfit (hl.funs f c hc) hs.1

end

/-- C116, for every build: no machine that runs an accepted program executes more than its price. -/
def C116_claim : Prop :=
  ∀ (I σ : Type) (M : Sem I σ) (im : Image I) (chk rc : Bool) (res : Resolver) (p : Program)
    (prices : Nat → Option Nat), validateWasm chk rc p = .ok () → Structured p → priceProgram chk res p = some prices →
    Loads im p → ∀ f c s n tr e, im.funs f = some c → Path (exec M im n [f] 0 c s) tr e →
      ∃ x, prices f = some x ∧ runCost res p tr ≤ x

/-! ## A machine that executes 2^64 instructions for nothing -/

theorem path_bind_of {α β : Type} {t : Tree α} {k : α → Tree β} {a : α} {tr₁ tr₂ : List Ev} {e : End β}
    (h₁ : Path t tr₁ (.done a)) (h₂ : Path (k a) tr₂ e) : Path (t.bind k) (tr₁ ++ tr₂) e := by
  induction t generalizing tr₁ with
  | ret b => cases h₁; exact h₂
  | trap => cases h₁
  | fuel => cases h₁
  | tick ev t ih =>
    cases h₁ with
    | tick _ h => exact .tick ev (ih h)
  | host mem c f ih =>
    cases h₁ with
    | host _ _ v m h => exact .host mem c v m (ih v m h)

/-- A machine without data. -/
def unitSem : Sem Unit Unit where
  plain _ _ s := some s
  pop s := some (0, s)
  table _ _ := none
  enter _ _ s := s
  leave _ s := s
  call _ s := some s
  back _ s := s
  host _ _ := none

/-- `callsCode` for the machine. -/
def callsICode (i : Nat) : Nat → ICode Unit
  | 0 => .nil
  | n + 1 => .op (.call i) () (callsICode i n)

theorem erase_callsICode (i n : Nat) : (callsICode i n).erase = callsCode i n := by
  induction n with
  | zero => rfl
  | succ n ih => rw [callsICode, ICode.erase, ih, callsCode]

/-- `powersCode` for the machine. -/
def powersICode : Nat → ICode Unit
  | 0 => .op (.plain .nop) () .nil
  | i + 1 => callsICode i 16

/-- `powers n` for the machine. -/
def powersImage (n : Nat) : Image Unit := ⟨fun f => if f ≤ n then some (powersICode f) else none, 0⟩

theorem loads_powers (n : Nat) : Loads (powersImage n) (powers n) := by
  refine ⟨fun f c hc => ?_, rfl⟩
  simp only [powersImage] at hc
  split at hc
  · rename_i hf
    cases hc
    have : (powersICode f).erase = powersCode f := by
      cases f with
      | zero => rfl
      | succ i => exact erase_callsICode i 16
    rw [this]
    exact powers_body hf
  · cases hc

theorem powers_calls_path {n i : Nat} (hi : i ≤ n) {k : Nat}
    (h : ∀ j, k ≤ j → ∀ stk, ∃ tr, Path (exec unitSem (powersImage n) j stk 0 (powersICode i) ()) tr (.done (.next, ())) ∧
      runCost v0 (powers n) tr = 16 ^ i) (m : Nat) :
    ∀ j, k + m < j → ∀ stk, ∃ tr, Path (exec unitSem (powersImage n) j stk 0 (callsICode i m) ()) tr (.done (.next, ())) ∧
      runCost v0 (powers n) tr = m * 16 ^ i := by
  induction m with
  | zero =>
    intro j hj stk
    obtain ⟨j, rfl⟩ : ∃ j', j = j' + 1 := ⟨j - 1, by omega⟩
    exact ⟨[], by rw [callsICode, exec]; exact .ret _, by simp [runCost]⟩
  | succ m ih =>
    intro j hj stk
    obtain ⟨j, rfl⟩ : ∃ j', j = j' + 1 := ⟨j - 1, by omega⟩
    obtain ⟨tr₁, h₁, c₁⟩ := h j (by omega) (i :: stk)
    obtain ⟨tr₂, h₂, c₂⟩ := ih j (by omega) stk
    refine ⟨(stk, .call i) :: (tr₁ ++ tr₂), ?_, ?_⟩
    · rw [callsICode, exec]
      have hf : (powersImage n).funs i = some (powersICode i) := if_pos hi
      unfold invoke
      rw [if_neg (show ¬ i < (powersImage n).imports from Nat.not_lt_zero i), hf]
      exact .tick _ (path_bind_of h₁ h₂)
    · rw [runCost_cons, runCost_append, c₁, c₂]
      have : evCost v0 (powers n) (stk, .call i) = 0 := rfl
      rw [this, Nat.succ_mul]
      omega

theorem powers_path (n i : Nat) (hi : i ≤ n) : ∀ j, 17 * i + 2 ≤ j → ∀ stk, ∃ tr,
    Path (exec unitSem (powersImage n) j stk 0 (powersICode i) ()) tr (.done (.next, ())) ∧
      runCost v0 (powers n) tr = 16 ^ i := by
  induction i with
  | zero =>
    intro j hj stk
    obtain ⟨j, rfl⟩ : ∃ j', j = j' + 1 + 1 := ⟨j - 2, by omega⟩
    refine ⟨[(stk, .plain .nop)], ?_, rfl⟩
    rw [powersICode, exec]
    refine .tick _ ?_
    show Path (exec unitSem (powersImage n) (j + 1) stk 0 .nil ()) _ _
    rw [exec]
    exact .ret _
  | succ i ih =>
    intro j hj stk
    obtain ⟨tr, h, c⟩ := powers_calls_path (by omega) (ih (by omega)) 16 j (by omega) stk
    exact ⟨tr, h, by rw [c, Nat.pow_succ, Nat.mul_comm]⟩

/-- In builds without overflow checks a program is accepted and gets the price 0, of which the machine executes, to
the end, instructions that cost 2⁶⁴. -/
theorem C116_free : validateWasm false true (powers 16) = .ok () ∧
    (∃ prices, priceProgram false v0 (powers 16) = some prices ∧ prices 16 = some 0) ∧
    Loads (powersImage 16) (powers 16) ∧ (powersImage 16).funs 16 = some (powersICode 16) ∧
    ∃ n tr, Path (exec unitSem (powersImage 16) n [16] 0 (powersICode 16) ()) tr (.done (.next, ())) ∧
      runCost v0 (powers 16) tr = 2 ^ 64 := by
  refine ⟨powers_accepted _ _, powers_wrap_prices, loads_powers 16, rfl, 17 * 16 + 2, ?_⟩
  obtain ⟨tr, h, c⟩ := powers_path 16 16 (Nat.le_refl _) (17 * 16 + 2) (Nat.le_refl _) [16]
  exact ⟨tr, h, c⟩

theorem C116_claim_false : ¬ C116_claim := by
  intro h
  obtain ⟨hv, ⟨prices, hp, h16⟩, hl, hf, n, tr, ht, hc⟩ := C116_free
  obtain ⟨x, hx, hle⟩ := h _ _ unitSem _ false true v0 _ prices hv (powers_structured 16) hp hl 16 _ () n tr _ hf ht
  rw [h16] at hx
  cases hx
  rw [hc] at hle
  exact absurd hle (by decide)

/-! ## The hypotheses are met -/

/-- A machine whose data are a stack of numbers; the immediate of a constant is its value. -/
def stackSem : Sem Nat (List Nat) where
  plain q i s := if q = .i32Const then some (i :: s) else if q = .nop then some s else none
  pop s := match s with
    | [] => none
    | x :: s => some (x, s)
  table _ _ := none
  enter _ _ s := s
  leave _ s := s
  call _ s := some s
  back _ s := s
  host _ _ := none

/-- `twoFuncs` with immediates: function 1 branches, as its condition is 7. -/
def twoImage : Image Nat where
  imports := 0
  funs f := [.op (.plain .i32Const) 3 (.op (.call 1) 0 .nil),
    .block 0 (.op (.plain .i32Const) 7 (.op (.brIf 0) 0 (.op (.plain .nop) 0 .nil))) .nil][f]?

theorem loads_two : Loads twoImage twoFuncs := by
  refine ⟨fun f c hc => ?_, rfl⟩
  match f, hc with
  | 0, hc => cases hc; rfl
  | 1, hc => cases hc; rfl
  | _ + 2, hc => exact absurd hc (by simp [twoImage])

/-- Non-vacuity of C115: an accepted program, a machine that runs it, and what it does: the five instructions of
the example at C51, ending with 3 on the stack. -/
example : validateWasm true true twoFuncs = .ok () ∧ Loads twoImage twoFuncs ∧
    exec stackSem twoImage (twoFuncs.bound + 1) [0] 0 (.op (.plain .i32Const) 3 (.op (.call 1) 0 .nil)) [] =
      .tick ([0], .plain .i32Const) (.tick ([0], .call 1) (.tick ([1, 0], .block)
        (.tick ([1, 0], .plain .i32Const) (.tick ([1, 0], .brIf 0) (.ret (.next, [3])))))) :=
  ⟨rfl, loads_two, rfl⟩

/-- Non-vacuity of C116: the prices of this program. -/
example : (priceProgram true v0 twoFuncs).bind (fun prices => prices 0) = some 4 := by decide +kernel

/-- The validation is needed: a machine that executes `loop (br 0)` uses up every amount of fuel. -/
theorem machine_loops (n : Nat) : ∃ tr, Path (exec stackSem twoImage n [0] 0
    (.loop 0 (.op (.br 0) 0 .nil) .nil) []) tr .fuel ∧ n ≤ tr.length + 1 := by
  induction n with
  | zero => exact ⟨[], by rw [exec]; exact .fuel, by simp⟩
  | succ n ih =>
    obtain ⟨tr, hp, hn⟩ := ih
    cases n with
    | zero =>
      refine ⟨[([0], .loop)], ?_, by simp⟩
      rw [exec]
      exact .tick _ .fuel
    | succ n =>
      refine ⟨([0], .loop) :: ([0], .br 0) :: tr, ?_, by simp; omega⟩
      rw [exec, exec]
      exact .tick _ (.tick _ hp)

end Svm.Wasm
