import Verif.Wasm.Machine
import Verif.Runtime.Priced

/-!
# A node whose guests are executed by machines: property C117

The model of the runtime has guests that always end. Here the guests are executed by the machine of `Wasm.Machine`,
which has fuel: what happens when the fuel is used up is a parameter `dead`, as is the amount of fuel. A node hangs
if it depends on them.
-/

namespace Svm.Runtime

open Svm.Codec
open Svm.Account
open Svm.Storage (Hasher Storage)
open Svm.Wasm (Sem Image Tree Program Loads programNew validateDeploy)

/-! ## Modules made from machines -/

/-- A compiled module, as a machine: what its instructions do, its code, its exports (the function and the signature),
its start function, its first state, and how arguments, results and the memory are passed. -/
structure Machine where
  I : Type
  σ : Type
  sem : Sem I σ
  image : Image I
  linkError : Option Str
  hasMemory : Bool
  exports : Str → Option (Nat × Sig)
  start : Option Nat
  init : σ
  enter : Nat → List Val → Bytes → σ → σ
  results : σ → List Val
  memory : σ → Bytes

/-- What happens when the fuel is used up. -/
abbrev Dead := (α : Type) → Guest α

/-- What a machine does, as a guest: the executed instructions are not seen. -/
def treeGuest {α β : Type} (trap : Str) (dead : Guest β) (k : α → Guest β) : Tree α → Guest β
  | .ret a => k a
  | .trap => .trap trap
  | .fuel => dead
  | .tick _ t => treeGuest trap dead k t
  | .host mem c f => .call mem c fun v m => treeGuest trap dead k (f v m)

/-- The message of a trap. -/
def trapMsg : Str := ⟨ascii "trap".toList, by decide⟩

/-- The call of function `f` from outside: an imported function is called directly. -/
def Machine.enterFunc (m : Machine) (fuel : Nat) (f : Nat) (s : m.σ) : Tree m.σ :=
  if f < m.image.imports then
    .ofOption (m.sem.host f s) fun x => .host x.1 x.2.1 fun v b => .ofOption (x.2.2 v b) .ret
  else
    .ofOption (m.image.funs f) fun c =>
      (Svm.Wasm.exec m.sem m.image fuel [f] 0 c s).bind fun r => .ret (m.sem.back r.1 r.2)

/-- The module of a machine. -/
def Machine.module (m : Machine) (fuel : Nat) (dead : Dead) : Module where
  σ := m.σ
  linkError := m.linkError
  hasMemory := m.hasMemory
  sig name := (m.exports name).map Prod.snd
  start :=
    match m.start with
    | none => .ret m.init (m.memory m.init)
    | some f => treeGuest trapMsg (dead _) (fun s => .ret s (m.memory s))
        (m.enterFunc fuel f (m.enter f [] (m.memory m.init) m.init))
  invoke s name args mem :=
    match m.exports name with
    | none => .trap trapMsg
    | some (f, _) => treeGuest trapMsg (dead _) (fun s => .ret (s, m.results s) (m.memory s))
        (m.enterFunc fuel f (m.enter f args mem s))

/-- The engine that executes compiled machines, with so much fuel for each code. -/
def machineEngine (compile : Bytes → Except Str Machine) (fuel : Bytes → Nat) (dead : Dead) : Engine := fun code =>
  match compile code with
  | .error e => .error e
  | .ok m => .ok (m.module (fuel code) dead)

/-! ## Spec -/

/-- The machine that is made of a code executes the program that is read from it. -/
def Faithful (read : Bytes → Option Svm.Wasm.Module) (compile : Bytes → Except Str Machine) : Prop :=
  ∀ code m p, compile code = .ok m → programNew read code false = .ok p → Loads m.image p

/-- More fuel than instructions are executed by any program that was brought in. -/
def Enough (chk : Bool) (read : Bytes → Option Svm.Wasm.Module) (ts : List (Addr × Sections)) (es : List Event)
    (fuel : Bytes → Nat) : Prop :=
  ∀ c, Brought chk ts es c → ∀ p, programNew read c.code false = .ok p → p.bound < fuel c.code

/-- The fuel that is computed from the code. -/
def fuelOf (read : Bytes → Option Svm.Wasm.Module) (code : Bytes) : Nat :=
  match programNew read code false with
  | .ok p => p.bound + 1
  | _ => 0

theorem fuelOf_enough (chk : Bool) (read : Bytes → Option Svm.Wasm.Module) (ts : List (Addr × Sections))
    (es : List Event) : Enough chk read ts es (fuelOf read) := by
  intro c _ p hp
  unfold fuelOf
  rw [hp]
  exact Nat.lt_succ_self _

/-! ## Engines that agree on what was brought in -/

theorem run_bind_congr {α β : Type} {p : Prog α} {f g : α → Prog β} (hro : ReadOnly p) {h : Hasher} {s : Storage}
    (hfg : ∀ a, out h p s = .ok a → (f a).run h s = (g a).run h s) :
    (p.bind f).run h s = (p.bind g).run h s := by
  have hs := hro.run h s
  rw [Prog.run_bind, Prog.run_bind]
  have ho : out h p s = (p.run h s).2 := rfl
  cases hr : p.run h s with
  | mk s' r =>
    rw [hr] at hs ho
    simp only at hs ho
    subst hs
    cases r with
    | ok a => exact hfg a ho
    | err e => rfl
    | panic => rfl

theorem runCall_congr {chk : Bool} {eng eng' : Engine} {call : Call} {ss : Sections}
    (hc : ∀ c, codeSection ss = some c → eng c.code = eng' c.code) (env : Env) :
    runCall chk eng call ss env = runCall chk eng' call ss env := by
  unfold runCall
  congr 1
  funext r
  cases r with
  | error f => rfl
  | ok u =>
    cases hcs : codeSection ss with
    | none => rfl
    | some c =>
      have := hc c hcs
      show (match eng c.code with | .error _ => _ | .ok _ => _) = _
      rw [this]
      rfl

/-- Two engines that agree on the code sections of a storage. -/
def AgreeOn (chk : Bool) (h : Hasher) (eng eng' : Engine) (s : Storage) : Prop :=
  ∀ t ss c, out h (loadTemplate chk t) s = .ok ss → codeSection ss = some c → eng c.code = eng' c.code

theorem exec_congr {chk : Bool} {h : Hasher} {eng eng' : Engine} {s : Storage} (ha : AgreeOn chk h eng eng' s)
    (call : Call) : (exec chk eng call).run h s = (exec chk eng' call).run h s := by
  unfold exec
  refine run_bind_congr (readOnly_load chk _).unwrap fun acc _ => ?_
  refine run_bind_congr (readOnly_templateAddr _).unwrap fun t _ => ?_
  refine run_bind_congr (readOnly_loadTemplate chk t) fun ss hss => ?_
  refine run_bind_congr (readOnly_load chk _).unwrap fun st _ => ?_
  rw [runCall_congr fun c hc => ha t ss c hss hc]

theorem execCall_congr {chk : Bool} {h : Hasher} {eng eng' : Engine} {s : Storage} (ha : AgreeOn chk h eng eng' s)
    (o : Orders) (call : Call) : execCall chk h o eng call s = execCall chk h o eng' call s := by
  unfold execCall
  rw [exec_congr ha]

theorem buildAndExec_congr {chk : Bool} {h : Hasher} {eng eng' : Engine} {s : Storage}
    (ha : AgreeOn chk h eng eng' s) (o : Orders) (tx : Transaction) (mode : AccessMode) (func : Str) (input : Bytes) :
    buildAndExec chk h o eng tx mode func input s = buildAndExec chk h o eng' tx mode func input s := by
  unfold buildAndExec
  have hro := (readOnly_buildCall chk tx mode func input).run h s
  simp only [hro]
  split
  · exact execCall_congr ha o _
  · rfl

theorem spawn_congr {chk : Bool} {h : Hasher} {eng eng' : Engine} {rs : RState}
    (ha : ∀ a t nm, AgreeOn chk h eng eng' ((createAccount chk a t nm 0 0).run h rs.storage).1) (o : Orders)
    (pr : Pricer) (e : Envelope) (m : Bytes) :
    spawn chk h o eng pr e m rs = spawn chk h o eng' pr e m rs := by
  unfold spawn
  split
  · rename_i sp rest hd
    have hro := (readOnly_loadTemplate chk sp.templateAddr).run h rs.storage
    simp only [hro]
    have : spawnAccount chk h o eng sp e.principal rs.storage =
        spawnAccount chk h o eng' sp e.principal rs.storage := by
      unfold spawnAccount callCtor
      simp only
      split
      · rw [execCall_congr (ha _ _ _)]
      · rfl
    rw [this]
  · rfl

/-- Two engines that agree on the codes that were brought in. -/
def Agree (chk : Bool) (ts : List (Addr × Sections)) (es : List Event) (eng eng' : Engine) : Prop :=
  ∀ c, Brought chk ts es c → eng c.code = eng' c.code

theorem Stored.agree {h : Hasher} (hc : NoCollision h) {chk : Bool} {ts : List (Addr × Sections)} {es : List Event}
    {B : Key → Prop} {s : Storage} (hs : Stored h (TplOk chk (AtHome chk h ts es)) B s) {eng eng' : Engine}
    (ha : Agree chk ts es eng eng') : AgreeOn chk h eng eng' s := by
  intro t ss c hl hcs
  exact ha c (hs.sections hc hl _ (codeSection_mem hcs) c rfl).2

theorem step_congr {h : Hasher} (hc : NoCollision h) {chk : Bool} {ts : List (Addr × Sections)} {es : List Event}
    {B : Key → Prop} {rs : RState} (hs : Stored h (TplOk chk (AtHome chk h ts es)) B rs.storage) {eng eng' : Engine}
    (ha : Agree chk ts es eng eng') (pr : Pricer) (o : Orders) (e : Event) :
    Node.step chk h eng pr o rs e = Node.step chk h eng' pr o rs e := by
  cases e with
  | tx t =>
    cases t with
    | deploy e m => rfl
    | spawn e m =>
      simp only [Node.step, perform]
      rw [spawn_congr (eng := eng) (eng' := eng') fun a t nm => (hs.run hc (puts_create (free_tplOk _ _) chk a t nm 0 0)).agree hc ha]
    | call m =>
      have : call chk h o eng m rs.storage = call chk h o eng' m rs.storage := by
        unfold call
        split
        · exact buildAndExec_congr (hs.agree hc ha) ..
        · rfl
      simp only [Node.step, perform, this]
    | verify m =>
      have : verify chk h o eng m rs.storage = verify chk h o eng' m rs.storage := by
        unfold verify
        split
        · exact buildAndExec_congr (hs.agree hc ha) ..
        · rfl
      simp only [Node.step, perform, this]
  | _ => rfl

/-- A node depends on its engine only where the engine compiles codes that were brought in. -/
theorem run_congr {h : Hasher} (hc : NoCollision h) {chk : Bool} {ts : List (Addr × Sections)} {es : List Event}
    {B : Key → Prop} {eng eng' : Engine} (ha : Agree chk ts es eng eng') (pr : Pricer) :
    ∀ (l : List Event), (∀ e ∈ l, e ∈ es) → ∀ rs : RState, Stored h (TplOk chk (AtHome chk h ts es)) B rs.storage →
      ∀ os, Node.run chk h eng pr rs l os = Node.run chk h eng' pr rs l os := by
  intro l
  induction l with
  | nil => intros; rfl
  | cons e l ih =>
    intro hl rs hs os
    have hstep := step_congr hc hs ha pr (os 0) e
    have hs' := hs.step hc (free_tplOk _ _) eng pr (os 0) e (atHome_brings e (hl e List.mem_cons_self)).lays
    show ((Node.run chk h eng pr (Node.step chk h eng pr (os 0) rs e).1 l _).1, _ :: _) = _
    rw [ih (fun x hx => hl x (List.mem_cons_of_mem _ hx)) _ hs', hstep]
    rfl

/-! ## C117 -/

theorem treeGuest_ends {α β : Type} (trap : Str) (dead dead' : Guest β) (k : α → Guest β) {t : Tree α} (h : t.Ends) :
    treeGuest trap dead k t = treeGuest trap dead' k t := by
  induction t with
  | ret a => rfl
  | trap => rfl
  | fuel => exact absurd .fuel (h [])
  | tick ev t ih => exact ih (Tree.Ends.tick h)
  | host mem c f ih =>
    unfold treeGuest
    congr 1
    funext v m
    exact ih v m fun tr hp => h tr (.host mem c v m hp)

theorem enterFunc_ends {m : Machine} {p : Program} {chk rc : Bool} (hv : Svm.Wasm.validateWasm chk rc p = .ok ())
    (hl : Loads m.image p) (f : Nat) (s : m.σ) {n : Nat} (hn : p.bound < n) :
    (m.enterFunc n f s).Ends ∧ m.enterFunc n f s = m.enterFunc (p.bound + 1) f s := by
  unfold Machine.enterFunc
  split
  · refine ⟨fun tr hp => ?_, rfl⟩
    rcases Svm.Wasm.path_ofOption hp with ⟨x, -, hp⟩ | ⟨-, h⟩
    · cases hp with
      | host _ _ v b hp =>
        rcases Svm.Wasm.path_ofOption hp with ⟨x, -, hp⟩ | ⟨-, h⟩
        · cases hp
        · cases h
    · cases h
  · cases hf : m.image.funs f with
    | none => exact ⟨fun tr hp => (by cases hp), rfl⟩
    | some c =>
      obtain ⟨-, h2, h3⟩ := Svm.Wasm.C115_halts (M := m.sem) hv hl hf s
      have h4 := h3 n hn
      refine ⟨fun tr hp => ?_, ?_⟩
      · rcases Svm.Wasm.path_bind hp with ⟨a, tr₁, tr₂, -, hp, -⟩ | ⟨-, h⟩ | ⟨hp, -⟩
        · cases hp
        · cases h
        · rw [h4] at hp
          exact h2 _ hp
      · show Tree.bind _ _ = Tree.bind _ _
        rw [h4]

theorem module_eq {m : Machine} {p : Program} {chk rc : Bool} (hv : Svm.Wasm.validateWasm chk rc p = .ok ())
    (hl : Loads m.image p) {n n' : Nat} (hn : p.bound < n) (hn' : p.bound < n') (dead dead' : Dead) :
    m.module n dead = m.module n' dead' := by
  have key : ∀ {β : Type} (k : m.σ → Guest β) (f : Nat) (s : m.σ),
      treeGuest trapMsg (dead β) k (m.enterFunc n f s) = treeGuest trapMsg (dead' β) k (m.enterFunc n' f s) := by
    intro β k f s
    obtain ⟨h1, h2⟩ := enterFunc_ends hv hl f s hn
    obtain ⟨-, h3⟩ := enterFunc_ends hv hl f s hn'
    rw [treeGuest_ends trapMsg (dead β) (dead' β) k h1, h2, h3]
  unfold Machine.module
  congr 1
  · cases m.start with
    | none => rfl
    | some f => exact key _ _ _
  · funext s name args mem
    cases m.exports name with
    | none => rfl
    | some x => exact key _ _ _

/-- C117, without conditions on the templates. -/
def C117_claim : Prop :=
  ∀ (chk : Bool) (h : Hasher), NoCollision h → ∀ read compile, Faithful read compile → ∀ ts, GenesisOk h ts →
    ∀ o rs, Node.start h o ts = some rs → ∀ es os, ∃ enough : Bytes → Nat, ∀ fuel fuel',
      (∀ c, enough c ≤ fuel c) → (∀ c, enough c ≤ fuel' c) → ∀ dead dead',
        Node.run chk h (machineEngine compile fuel dead) (nodePricer chk read) rs es os =
          Node.run chk h (machineEngine compile fuel' dead') (nodePricer chk read) rs es os

/-- **C117.** A node all of whose templates passed `validate_deploy` never hangs: whatever transactions it gets, its
answers and its state do not depend on what happens when a machine uses up its fuel, if there is more fuel than the
programs have as their bound. Missing: the runtime does not validate what is deployed. -/
theorem C117_no_hang_partial {h : Hasher} (hc : NoCollision h) {chk : Bool} {read : Bytes → Option Svm.Wasm.Module}
    {compile : Bytes → Except Str Machine} (hf : Faithful read compile) {ts : List (Addr × Sections)}
    (hg : GenesisOk h ts) {o : Orders} {rs : RState} (hs : Node.start h o ts = some rs) (pr : Pricer)
    {es : List Event} (hv : AllValidated chk read ts es) (os : Nat → Orders) {fuel fuel' : Bytes → Nat}
    (hn : Enough chk read ts es fuel) (hn' : Enough chk read ts es fuel') (dead dead' : Dead) :
    Node.run chk h (machineEngine compile fuel dead) pr rs es os =
      Node.run chk h (machineEngine compile fuel' dead') pr rs es os := by
  refine run_congr hc (es := es) (fun c hb => ?_) pr es (fun _ h => h) rs (atHome_start hc hg es hs).1 os
  obtain ⟨p, hp⟩ := hv c hb
  obtain ⟨h1, h2⟩ := validated_program hp
  unfold machineEngine
  cases hm : compile c.code with
  | error e => rfl
  | ok m => exact congrArg Except.ok (module_eq h2 (hf _ _ _ hm h1) (hn c hb p h1) (hn' c hb p h1) dead dead')

/-! ## The claim is violated -/

/-- Function 2 is `loop (br 0)`. -/
def loopCode : Svm.Wasm.Code := .loop (.op (.br 0) .nil) .nil

/-- A module that exports it as `go`. -/
def loopWasm : Svm.Wasm.Module :=
  testModule [(goName, 2)] [[.plain .nop, .end_], [.plain .nop, .end_], loopCode.flatten ++ [.end_]]

/-- Its code for the machine. -/
def loopImage : Image Nat :=
  ⟨fun f => [.op (.plain .nop) 0 .nil, .op (.plain .nop) 0 .nil, .loop 0 (.op (.br 0) 0 .nil) .nil][f]?, 0⟩

/-- The machine of this module. -/
def loopMachine : Machine where
  I := Nat
  σ := List Nat
  sem := Svm.Wasm.stackSem
  image := loopImage
  linkError := none
  hasMemory := true
  exports name := if name = goName then some (2, .nullary) else none
  start := none
  init := []
  enter _ _ _ s := s
  results _ := []
  memory _ := []

theorem loop_faithful : Faithful (fun _ => some loopWasm) (fun _ => .ok loopMachine) := by
  intro code m p hm hp
  cases hm
  have : p = ⟨[], [(svmAlloc, 0), (svmVerify, 1), (goName, 2)], [[.plain .nop, .end_], [.plain .nop, .end_],
      loopCode.flatten ++ [.end_]]⟩ := by
    cases hp
    rfl
  subst this
  refine ⟨fun f c hc => ?_, rfl⟩
  match f, hc with
  | 0, hc => cases hc; rfl
  | 1, hc => cases hc; rfl
  | 2, hc => cases hc; rfl
  | _ + 3, hc => exact absurd hc (by simp [loopMachine, loopImage])

theorem loop_dead {β : Type} (dead : Guest β) (k : List Nat → Guest β) (s : List Nat) (n : Nat) :
    treeGuest trapMsg dead k ((Svm.Wasm.exec Svm.Wasm.stackSem loopImage n [2] 0
      (.loop 0 (.op (.br 0) 0 .nil) .nil) s).bind fun r => .ret (Svm.Wasm.stackSem.back r.1 r.2)) = dead := by
  induction n with
  | zero => rfl
  | succ n ih =>
    cases n with
    | zero => rfl
    | succ n =>
      rw [Svm.Wasm.exec, Svm.Wasm.exec]
      exact ih

theorem eval_txProg_demo {w : View} {T : Addr} (h1 : w (.core T) = some demoBytes) (h2 : w (.noncore T) = some demoBytes)
    {nm : Str} (eng : Engine) (tx : Transaction) (hi : info w tx.target = some ⟨nm, T⟩) (mode : AccessMode) (func : Str)
    (input : Bytes) :
    (txProg true eng tx mode func input).eval w =
      (runCall true eng { funcName := func, funcInput := input, target := tx.target, templateAddr := T
                          withinSpawn := false, mode } demoSections
        (Env.new ⟨tx.target, T, demoLayout⟩ T tx.target mode)).eval w := by
  have hr : (readAndDecode decAccountData (.accData tx.target)).eval w = (w, .ok ⟨nm, T⟩) := by
    unfold info at hi
    split at hi
    · cases hi
    · rename_i bs hbs
      split at hi
      · rename_i d rest hdec
        cases hi
        exact readAndDecode_ok hbs hdec
      · cases hi
  have hsec : (readSections true T).eval w = (w, .ok demoSections) := by
    have hd : decSections true none demoBytes = .ok (demoSections, []) := by decide +kernel
    unfold readSections
    rw [Prog.bind_eq, Prog.eval_bind_ok (readAndDecode_ok h1 hd), Prog.bind_eq,
      Prog.eval_bind_ok (readAndDecode_ok h2 hd)]
    rfl
  have hlay : (templateLayout true T).eval w = (w, .ok demoLayout) := by
    unfold templateLayout
    rw [Prog.bind_eq, Prog.eval_bind_ok hsec]
    rfl
  have hl : (load true tx.target).eval w = (w, .ok ⟨tx.target, T, demoLayout⟩) := by
    unfold load
    rw [Prog.bind_eq, Prog.eval_bind_ok hr, Prog.bind_eq, Prog.eval_bind_ok hlay]
    rfl
  have ht : (templateAddr ⟨tx.target, T, demoLayout⟩).eval w = (w, .ok T) := by
    unfold templateAddr
    rw [Prog.bind_eq, Prog.eval_bind_ok hr]
    rfl
  have hb : (buildCall true tx mode func input).eval w = (w, .ok
      { funcName := func, funcInput := input, target := tx.target, templateAddr := T, withinSpawn := false, mode }) := by
    unfold buildCall
    rw [Prog.bind_eq, Prog.eval_bind_ok (eval_unwrap_ok hl), Prog.bind_eq, Prog.eval_bind_ok (eval_unwrap_ok ht)]
    rfl
  unfold txProg
  rw [Prog.eval_bind_ok hb]
  unfold exec
  rw [Prog.bind_eq, Prog.eval_bind_ok (eval_unwrap_ok hl), Prog.bind_eq,
    Prog.eval_bind_ok (eval_unwrap_ok ht), Prog.bind_eq,
    Prog.eval_bind_ok (p := loadTemplate true T) (eval_unwrap_ok hsec), Prog.bind_eq,
    Prog.eval_bind_ok (eval_unwrap_ok hl)]

/-- The node gets this template, an account, and a call. -/
def loopEvents (h : Hasher) : List Event :=
  [.tx (.deploy demoEnvelope demoBytes), .create (exampleAddr 2) (computeTemplateAddr h demoCode) goName 0 0,
    .tx (.call (demoMessage goName))]

/-- The call fails with the message that was found at the end of the fuel. -/
theorem loop_answer {h : Hasher} (hc : NoCollision h) (rs : RState) (os : Nat → Orders) (pr : Pricer)
    (fuel : Bytes → Nat) (msg : Str) :
    (Node.run true h (machineEngine (fun _ => .ok loopMachine) fuel fun _ => .trap msg) pr rs (loopEvents h) os).2[2]? =
      some (.receipt (.call (CallReceipt.fromErr (.funcFailed (exampleAddr 2) (computeTemplateAddr h demoCode) goName msg)
        []))) := by
  have hdep : ∃ s1, deploy true h demoEnvelope demoBytes rs.storage = (s1, some
      { version := 0, success := true, error := none, addr := some (computeTemplateAddr h demoCode)
        gasUsed := some (payloadPrice demoBytes), logs := [] }) ∧
      view h s1 (.core (computeTemplateAddr h demoCode)) = some demoBytes ∧
      view h s1 (.noncore (computeTemplateAddr h demoCode)) = some demoBytes := by
    have he : encSections demoSections = some demoBytes := by decide +kernel
    have hd : decSections true none demoBytes = .ok (demoSections, []) := by decide +kernel
    have ho : out h (createTemplate (computeTemplateAddr h demoCode) demoSections demoSections) rs.storage = .ok () := by
      rw [out_eval hc, eval_createTemplate he]
    refine ⟨after h (createTemplate (computeTemplateAddr h demoCode) demoSections demoSections) rs.storage, ?_, ?_, ?_⟩
    · unfold deploy
      rw [hd]
      simp only
      rw [show gasLt demoEnvelope.gasLimit (payloadPrice demoBytes) = false from rfl]
      simp only [Bool.false_eq_true, if_false]
      rw [show codeSection demoSections = some demoCode from rfl]
      simp only
      rw [run_out, ho]
    · rw [view_after hc, eval_createTemplate he]
      simp only
      rw [View.set_ne _ _ (by simp), View.set_self]
    · rw [view_after hc, eval_createTemplate he]
      simp only
      rw [View.set_self]
  obtain ⟨s1, hdep, hcore, hnoncore⟩ := hdep
  generalize hT : computeTemplateAddr h demoCode = T at *
  have hlay : ∃ l, out h (templateLayout true T) s1 = .ok l := by
    refine ⟨demoLayout, ?_⟩
    have hd : decSections true none demoBytes = .ok (demoSections, []) := by decide +kernel
    rw [out_eval hc]
    unfold templateLayout readSections
    rw [Prog.bind_eq, Prog.eval_bind_ok (w' := view h s1) (a := demoSections)]
    · rfl
    · rw [Prog.bind_eq, Prog.eval_bind_ok (readAndDecode_ok hcore hd), Prog.bind_eq,
        Prog.eval_bind_ok (readAndDecode_ok hnoncore hd)]
      rfl
  obtain ⟨acc, hacc⟩ := (C18_create_ok_iff hc (s := s1) true (nm := goName) (b := 0) (c := 0)
    (a := exampleAddr 2) (t := T)).2 ⟨hlay, by decide⟩
  have hcreate : out h (createAccount true (exampleAddr 2) T goName 0 0) s1 = .ok () := by
    rw [out_eval hc] at hacc ⊢
    unfold createAccount
    rw [Prog.bind_eq, Prog.eval_bind_ok (unwrap_ok.2 (Prod.ext rfl hacc))]
    rfl
  have hview : view h (after h (createAccount true (exampleAddr 2) T goName 0 0) s1) =
      view h (after h (create true (exampleAddr 2) goName T 0 0) s1) := by
    rw [out_eval hc] at hacc
    rw [view_after hc, view_after hc]
    unfold createAccount
    rw [Prog.bind_eq, Prog.eval_bind_ok (unwrap_ok.2 (Prod.ext rfl hacc))]
    rfl
  have hinfo := (create_info hc hacc).2.1
  rw [← hview] at hinfo
  have hkeep : ∀ k, ¬ (k = .accData (exampleAddr 2) ∨ k = .accMut (exampleAddr 2)) →
      view h (after h (createAccount true (exampleAddr 2) T goName 0 0) s1) k = view h s1 k := by
    intro k hk
    rw [hview, view_after hc]
    exact (writes_create _ _ _ _ _ _).eval _ k hk
  have hcore2 := (hkeep (.core T) (by simp)).trans hcore
  have hnoncore2 := (hkeep (.noncore T) (by simp)).trans hnoncore
  have hrun := run_out h (createAccount true (exampleAddr 2) T goName 0 0) s1
  rw [hcreate] at hrun
  generalize after h (createAccount true (exampleAddr 2) T goName 0 0) s1 = s2 at *
  generalize hdead : (fun _ => .trap msg : Dead) = dead
  generalize heng : machineEngine (fun _ => .ok loopMachine) fuel dead = eng
  have hloop : (runCall true eng { funcName := goName, funcInput := [], target := exampleAddr 2, templateAddr := T
                                   withinSpawn := false, mode := .fullAccess } demoSections
      (Env.new ⟨exampleAddr 2, T, demoLayout⟩ T (exampleAddr 2) .fullAccess)).eval (view h s2) =
      (view h s2, .ok ({ Env.new ⟨exampleAddr 2, T, demoLayout⟩ T (exampleAddr 2) .fullAccess with memorySet := true },
        .error (.funcFailed (exampleAddr 2) T goName msg, []))) := by
    subst heng
    have hinv : (loopMachine.module (fuel demoCode.code) dead).invoke [] goName [] [] = .trap msg := by
      subst hdead
      exact loop_dead (.trap msg) _ [] _
    generalize hcl : Call.mk goName [] (exampleAddr 2) T false .fullAccess = cl
    have hval : validateFuncUsage cl demoSections = .ret (.ok ()) := by subst hcl; rfl
    have hrc : runCall true (machineEngine (fun _ => .ok loopMachine) fuel dead) cl demoSections
        (Env.new ⟨exampleAddr 2, T, demoLayout⟩ T (exampleAddr 2) .fullAccess) =
        runFunc true (loopMachine.module (fuel demoCode.code) dead) cl
          { Env.new ⟨exampleAddr 2, T, demoLayout⟩ T (exampleAddr 2) .fullAccess with memorySet := true } [] [] := by
      unfold runCall
      rw [hval]
      rfl
    rw [hrc]
    subst hcl
    unfold runFunc
    rw [show lookupFunc (loopMachine.module (fuel demoCode.code) dead) _ goName = .ok () from rfl]
    simp only [List.length_nil, Nat.lt_irrefl, if_false]
    rw [hinv]
    rfl
  have hcall : ∀ o, (call true h o eng (demoMessage goName) s2).2 =
      some (CallReceipt.fromErr (.funcFailed (exampleAddr 2) T goName msg) []) := by
    intro o
    unfold call
    rw [demo_decode_go]
    simp only
    rw [buildAndExec_eq, run_out, out_eval hc, eval_txProg_demo hcore2 hnoncore2 eng (demoTx goName) hinfo]
    rw [show (demoTx goName).target = exampleAddr 2 from rfl, show (demoTx goName).funcName = goName from rfl,
      show (demoTx goName).calldata = [] from rfl, hloop]
  show (Node.run true h eng pr rs [_, _, _] os).2[2]? = _
  simp only [Node.run, Node.step, perform, hdep, hT, hrun, hcall, List.getElem?_cons_succ, List.getElem?_cons_zero,
    Option.map_some]

/-- Without validation a node hangs. -/
theorem C117_claim_false : ¬ C117_claim := by
  intro hcl
  obtain ⟨h, hc⟩ := exists_noCollision
  have hs : ∃ rs, Node.start h ⟨.id, .id⟩ [] = some rs := ⟨_, rfl⟩
  obtain ⟨rs, hs⟩ := hs
  obtain ⟨enough, he⟩ := hcl true h hc _ _ loop_faithful [] ⟨by simp, by simp⟩ _ rs hs (loopEvents h)
    fun _ => ⟨.id, .id⟩
  have := he enough enough (fun _ => Nat.le_refl _) (fun _ => Nat.le_refl _) (fun _ => .trap goName)
    (fun _ => .trap inName)
  have h1 := loop_answer hc rs (fun _ => ⟨.id, .id⟩) (nodePricer true fun _ => some loopWasm) enough goName
  have h2 := loop_answer hc rs (fun _ => ⟨.id, .id⟩) (nodePricer true fun _ => some loopWasm) enough inName
  rw [this, h2] at h1
  revert h1
  simp [CallReceipt.fromErr, goName, inName]

/-! ## The hypotheses are met -/

/-- The code of `idleWasm` for the machine. -/
def idleImage : Image Nat := ⟨fun f => (List.replicate 3 (.op (.plain .nop) 0 .nil))[f]?, 0⟩

/-- The machine of `idleWasm`. -/
def idleMachine : Machine := { loopMachine with image := idleImage }

/-- Non-vacuity of C117: the same history, if the code is that of `idleWasm`. -/
example (h : Hasher) : Faithful (fun _ => some idleWasm) (fun _ => .ok idleMachine) ∧ GenesisOk h [] ∧
    (∃ rs, Node.start h ⟨.id, .id⟩ [] = some rs) ∧ AllValidated true (fun _ => some idleWasm) [] (loopEvents h) ∧
    Enough true (fun _ => some idleWasm) [] (loopEvents h) (fuelOf fun _ => some idleWasm) := by
  refine ⟨?_, ⟨by simp, by simp⟩, ⟨_, rfl⟩, ?_, fuelOf_enough _ _ _ _⟩
  · intro code m p hm hp
    cases hm
    have : p = idleProgram := by
      cases hp
      rfl
    subst this
    refine ⟨fun f c hc => ?_, rfl⟩
    match f, hc with
    | 0, hc => cases hc; rfl
    | 1, hc => cases hc; rfl
    | 2, hc => cases hc; rfl
    | n + 3, hc =>
      exact absurd hc (by simp [idleMachine, idleImage])
  · rintro c (⟨q, hq, -⟩ | ⟨e, m, ss, rest, hmem, hd, hcs⟩)
    · cases hq
    · have hm : m = demoBytes := by
        simp only [loopEvents, List.mem_cons, reduceCtorEq, Event.tx.injEq, Tx.deploy.injEq, List.not_mem_nil,
          or_false] at hmem
        exact hmem.2
      have hdd : decSections true none demoBytes = .ok (demoSections, []) := by decide +kernel
      rw [hm, hdd] at hd
      cases hd
      cases hcs
      exact ⟨_, idle_validated true⟩

end Svm.Runtime
