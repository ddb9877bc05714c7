import Verif.Runtime.Isolation

/-!
# C123: what a receipt shows of an execution

The logs, the returndata and the touched accounts in the receipts of calls and spawns, compared with what the
program did: the host functions it called, in order.
-/

namespace Svm.Runtime

open Svm.Codec Svm.Account
open Svm.Storage (Hasher Storage Inv)

/-! ## Executions -/

/-- A call of a host function, and the memory at that moment. -/
structure Step where
  mem : Bytes
  call : HostCall

/-- An execution of a program: the calls it makes, in order, and how it ends. -/
inductive Runs (chk : Bool) {α : Type} :
    Guest α → Env → View → List Step → Except Str (α × Bytes) → Env → View → Prop
  | ret {a mem env w} : Runs chk (.ret a mem) env w [] (.ok (a, mem)) env w
  | trap {msg env w} : Runs chk (.trap msg) env w [] (.error msg) env w
  | call {mem c k env w v mem' env₁ w₁ tr r env₂ w₂} :
      (host chk env mem c).eval w = (w₁, .ok (v, mem', env₁)) → Runs chk (k v mem') env₁ w₁ tr r env₂ w₂ →
      Runs chk (.call mem c k) env w (⟨mem, c⟩ :: tr) r env₂ w₂

/-- A part of the memory. -/
def part (mem : Bytes) (offset length : U32) : Bytes := (mem.drop offset.toNat).take length.toNat

/-- What was logged. -/
def logged : List Step → List Bytes
  | [] => []
  | ⟨mem, .log offset length⟩ :: tr => part mem offset length :: logged tr
  | _ :: tr => logged tr

/-- The last part of the memory that was declared to be the returndata. -/
def returned : List Step → Option (U32 × U32)
  | [] => none
  | ⟨_, .setReturndata offset length⟩ :: tr => some ((returned tr).getD (offset, length))
  | _ :: tr => returned tr

/-- The bytes of a part of the memory, none if there is no such part. -/
def bytesAt (mem : Bytes) : Option (U32 × U32) → Bytes
  | none => []
  | some (offset, length) => part mem offset length

/-- This account paid or was paid. -/
def Paid (tr : List Step) (a : Addr) : Prop :=
  ∃ st ∈ tr, ∃ src dst amount, st.call = .transfer src dst amount ∧ amount ≠ 0 ∧
    (a.1 = part st.mem src 20 ∨ a.1 = part st.mem dst 20)

/-- An execution of a function of a module for a call: the calls of the start function, of `svm_alloc` and of the
function, whether `svm_alloc` returned, and the memory at the end if the function returned. -/
inductive Executes (chk : Bool) (m : Module) (c : Call) (env : Env) (w : View) :
    List Step → List Step → List Step → Bool → Option Bytes → Prop
  | startTraps {tr msg env₁ w₁} : Runs chk m.start env w tr (.error msg) env₁ w₁ →
      Executes chk m c env w tr [] [] false none
  | noFunction {tr x env₁ w₁} : Runs chk m.start env w tr (.ok x) env₁ w₁ → m.sig c.funcName ≠ some .nullary →
      Executes chk m c env w tr [] [] false none
  | noAlloc {tr x env₁ w₁} : Runs chk m.start env w tr (.ok x) env₁ w₁ → m.sig c.funcName = some .nullary →
      c.funcInput ≠ [] → m.sig svmAlloc ≠ some .alloc → Executes chk m c env w tr [] [] false none
  | allocTraps {tr₁ st mem env₁ w₁ tr₂ msg env₂ w₂} : Runs chk m.start env w tr₁ (.ok (st, mem)) env₁ w₁ →
      m.sig c.funcName = some .nullary → c.funcInput ≠ [] → m.sig svmAlloc = some .alloc →
      Runs chk (m.invoke st svmAlloc [.i32 (BitVec.ofNat 32 c.funcInput.length)] mem)
        { env₁ with memorySet := true, mode := .accessDenied } w₁ tr₂ (.error msg) env₂ w₂ →
      Executes chk m c env w tr₁ tr₂ [] false none
  | plain {tr₁ st mem env₁ w₁ tr₃ r env₃ w₃} : Runs chk m.start env w tr₁ (.ok (st, mem)) env₁ w₁ →
      m.sig c.funcName = some .nullary → c.funcInput = [] →
      Runs chk (m.invoke st c.funcName [] mem) { env₁ with memorySet := true } w₁ tr₃ r env₃ w₃ →
      Executes chk m c env w tr₁ [] tr₃ false (r.toOption.map Prod.snd)
  | alloc {tr₁ st mem env₁ w₁ tr₂ st' ptr vs mem₂ env₂ w₂ tr₃ r env₃ w₃} :
      Runs chk m.start env w tr₁ (.ok (st, mem)) env₁ w₁ →
      m.sig c.funcName = some .nullary → c.funcInput ≠ [] → m.sig svmAlloc = some .alloc →
      Runs chk (m.invoke st svmAlloc [.i32 (BitVec.ofNat 32 c.funcInput.length)] mem)
        { env₁ with memorySet := true, mode := .accessDenied } w₁ tr₂ (.ok ((st', .i32 ptr :: vs), mem₂)) env₂ w₂ →
      Runs chk (m.invoke st' c.funcName [] (writeMem mem₂ ptr.toNat c.funcInput))
        { env₂ with logs := [], mode := env₁.mode, calldata := some (ptr.toNat, c.funcInput.length) } w₂
        tr₃ r env₃ w₃ →
      Executes chk m c env w tr₁ tr₂ tr₃ true (r.toOption.map Prod.snd)

/-- The code of an account is instantiated for a call: the account loads, the function may be called this way (a
constructor while spawning, another function otherwise), and the code compiles to a module that links. -/
def Starts (chk : Bool) (h : Hasher) (eng : Engine) (s : Storage) (c : Call) (acc : Acc) (m : Module) : Prop :=
  out h (load chk c.target) s = .ok acc ∧ ∃ ss cs code, out h (readSections chk acc.template) s = .ok ss ∧
    ss.tryGet .ctors = some (.ctors cs) ∧ (c.funcName ∈ cs ↔ c.withinSpawn = true) ∧
    ss.tryGet .code = some (.code code) ∧ eng code.code = .ok m ∧ m.linkError = none

/-- A receipt shows an execution: version 0, all its logs in order, and, if it succeeded, the returndata and exactly the account
that was called and those that paid or were paid. -/
structure Shows (r : CallReceipt) (target : Addr) (tr : List Step) (fin : Option Bytes) : Prop where
  version : r.version = 0
  logs : r.logs = logged tr
  success : r.success = fin.isSome
  failed : fin = none → r.returndata = none
  returndata : ∀ mem, fin = some mem → r.returndata = some (bytesAt mem (returned tr))
  touched : ∀ mem, fin = some mem → ∀ a, a ∈ r.touched ↔ a = target ∨ Paid tr a

/-- C123: the receipt of a call or of a constructor of an account whose code is instantiated shows its execution. -/
def C123_claim : Prop :=
  ∀ (h : Hasher), NoCollision h → ∀ (chk : Bool) (o : Orders) (eng : Engine) (c : Call) (s : Storage) (r : CallReceipt),
    (execCall chk h o eng c s).2 = some r →
    ∀ acc m tr₁ tr₂ tr₃ done fin, Starts chk h eng s c acc m →
      Executes chk m c (Env.new acc c.templateAddr c.target c.mode) (view h s) tr₁ tr₂ tr₃ done fin →
      Shows r c.target (tr₁ ++ tr₂ ++ tr₃) fin

/-! ## Lemmas -/

theorem logged_append (a b : List Step) : logged (a ++ b) = logged a ++ logged b := by
  induction a with
  | nil => rfl
  | cons x a ih =>
    obtain ⟨mem, c⟩ := x
    cases c <;> simp [logged, ih]

theorem returned_append (a b : List Step) : returned (a ++ b) = (returned b).or (returned a) := by
  induction a with
  | nil => simp [returned]
  | cons x a ih =>
    obtain ⟨mem, c⟩ := x
    cases c <;> simp only [List.cons_append, returned, ih]
    cases returned b <;> cases returned a <;> rfl

theorem paid_append (a b : List Step) (x : Addr) : Paid (a ++ b) x ↔ Paid a x ∨ Paid b x := by
  unfold Paid
  constructor
  · rintro ⟨st, h1, h2⟩
    rcases List.mem_append.1 h1 with h3 | h3
    · exact .inl ⟨st, h3, h2⟩
    · exact .inr ⟨st, h3, h2⟩
  · rintro (⟨st, h1, h2⟩ | ⟨st, h1, h2⟩)
    · exact ⟨st, List.mem_append_left _ h1, h2⟩
    · exact ⟨st, List.mem_append_right _ h1, h2⟩

/-- Offsets and lengths as numbers. -/
def nats (x : Option (U32 × U32)) : Option (Nat × Nat) := x.map fun p => (p.1.toNat, p.2.toNat)

/-- What a program changes in its environment. -/
structure Recorded (env env' : Env) (tr : List Step) : Prop where
  logs : env'.logs = env.logs ++ logged tr
  returndata : env'.returndata = (nats (returned tr)).or env.returndata
  touched : ∀ a, a ∈ env'.touched ↔ a ∈ env.touched ∨ Paid tr a
  memorySet : env'.memorySet = env.memorySet
  mode : env'.mode = env.mode
  target : env'.targetAddr = env.targetAddr
  silent : env.memorySet = false → logged tr = []

theorem readMem_ok {env : Env} {mem bs : Bytes} {o l : Nat} (h : readMem env mem o l = some bs) :
    bs = (mem.drop o).take l ∧ env.memorySet = true := by
  unfold readMem at h
  split at h
  · rename_i hx
    cases h
    rw [Bool.and_eq_true] at hx
    exact ⟨rfl, hx.1⟩
  · cases h

theorem readAddr_ok {env : Env} {mem : Bytes} {p : U32} {a : Addr} (h : readAddr env mem p = some a) :
    a.1 = part mem p 20 := by
  unfold readAddr at h
  split at h
  · split at h
    · cases h; rfl
    · cases h
  · cases h

theorem ofOption_ok {α : Type} {x : Option α} {w w' : View} {a : α} (h : (Prog.ofOption x).eval w = (w', .ok a)) :
    x = some a ∧ w' = w := by
  cases x with
  | none => cases h
  | some b => cases h; exact ⟨rfl, rfl⟩

/-- Recorded by a call that is not recorded. -/
theorem recorded_other {env env' : Env} {mem : Bytes} {c : HostCall} (h1 : env'.logs = env.logs)
    (h2 : env'.returndata = env.returndata) (h3 : env'.touched = env.touched) (h4 : env'.memorySet = env.memorySet)
    (h5 : env'.mode = env.mode) (h6 : env'.targetAddr = env.targetAddr)
    (hl : logged [⟨mem, c⟩] = []) (hr : returned [⟨mem, c⟩] = none) (hp : ∀ a, ¬ Paid [⟨mem, c⟩] a) :
    Recorded env env' [⟨mem, c⟩] :=
  ⟨by rw [h1, hl, List.append_nil], by rw [h2, hr]; rfl, fun a => by rw [h3]; simp [hp a], h4, h5, h6, fun _ => hl⟩

theorem not_paid {mem : Bytes} {c : HostCall} (h : ∀ s d a, c ≠ .transfer s d a) (x : Addr) :
    ¬ Paid [⟨mem, c⟩] x := by
  rintro ⟨st, h1, src, dst, amount, h2, -⟩
  cases List.mem_singleton.1 h1
  exact h _ _ _ h2

theorem host_recorded {chk : Bool} {env env' : Env} {mem mem' : Bytes} {c : HostCall} {w w' : View} {v : HostVal}
    (h : (host chk env mem c).eval w = (w', .ok (v, mem', env'))) : Recorded env env' [⟨mem, c⟩] := by
  cases c with
  | staticAlloc size =>
    simp only [host, Prog.bind_eq] at h
    obtain ⟨w1, r, h1, h2⟩ := eval_bind_eq_ok h
    obtain ⟨h1, -⟩ := ofOption_ok h1
    cases h2
    unfold staticAlloc at h1
    split at h1
    · simp only at h1
      split at h1
      · cases h1
      · cases h1
        exact recorded_other rfl rfl rfl rfl rfl rfl rfl rfl (not_paid nofun)
    · cases h1
  | calldataOffset =>
    simp only [host, Prog.bind_eq] at h
    obtain ⟨w1, r, h1, h2⟩ := eval_bind_eq_ok h
    cases h2
    exact recorded_other rfl rfl rfl rfl rfl rfl rfl rfl (not_paid nofun)
  | calldataLen =>
    simp only [host, Prog.bind_eq] at h
    obtain ⟨w1, r, h1, h2⟩ := eval_bind_eq_ok h
    cases h2
    exact recorded_other rfl rfl rfl rfl rfl rfl rfl rfl (not_paid nofun)
  | setReturndata offset length =>
    simp only [host, Prog.bind_eq] at h
    obtain ⟨w1, r, h1, h2⟩ := eval_bind_eq_ok h
    obtain ⟨h1, -⟩ := ofOption_ok h1
    cases h2
    unfold setReturndata at h1
    split at h1
    · cases h1
      exact ⟨(List.append_nil _).symm, rfl, fun a => by simp [not_paid], rfl, rfl, rfl, fun _ => rfl⟩
    · cases h1
  | get32 var =>
    simp only [host, Prog.bind_eq] at h
    obtain ⟨w1, r, h1, h2⟩ := eval_bind_eq_ok h
    cases h2
    exact recorded_other rfl rfl rfl rfl rfl rfl rfl rfl (not_paid nofun)
  | set32 var value =>
    simp only [host, Prog.bind_eq] at h
    obtain ⟨w1, r, h1, h2⟩ := eval_bind_eq_ok h
    cases h2
    exact recorded_other rfl rfl rfl rfl rfl rfl rfl rfl (not_paid nofun)
  | get64 var =>
    simp only [host, Prog.bind_eq] at h
    obtain ⟨w1, r, h1, h2⟩ := eval_bind_eq_ok h
    cases h2
    exact recorded_other rfl rfl rfl rfl rfl rfl rfl rfl (not_paid nofun)
  | set64 var value =>
    simp only [host, Prog.bind_eq] at h
    obtain ⟨w1, r, h1, h2⟩ := eval_bind_eq_ok h
    cases h2
    exact recorded_other rfl rfl rfl rfl rfl rfl rfl rfl (not_paid nofun)
  | load160 var ptr =>
    simp only [host, Prog.bind_eq] at h
    obtain ⟨w1, r, h1, h2⟩ := eval_bind_eq_ok h
    cases h2
    exact recorded_other rfl rfl rfl rfl rfl rfl rfl rfl (not_paid nofun)
  | store160 ptr var =>
    simp only [host, Prog.bind_eq] at h
    obtain ⟨w1, r, h1, h2⟩ := eval_bind_eq_ok h
    cases h2
    exact recorded_other rfl rfl rfl rfl rfl rfl rfl rfl (not_paid nofun)
  | log offset length =>
    simp only [host, Prog.bind_eq] at h
    obtain ⟨w1, r, h1, h2⟩ := eval_bind_eq_ok h
    have h5 := (ofOption_ok h1).1
    cases h2
    obtain ⟨h3, h4⟩ := readMem_ok h5
    subst h3
    exact ⟨rfl, rfl, fun a => by simp [not_paid], rfl, rfl, rfl, fun h5 => by rw [h4] at h5; cases h5⟩
  | transfer src dst amount =>
    simp only [host, Prog.bind_eq] at h
    obtain ⟨w1, r, h1, h2⟩ := eval_bind_eq_ok h
    cases h2
    unfold svmTransfer at h1
    split at h1
    · rename_i h0
      cases h1
      refine recorded_other rfl rfl rfl rfl rfl rfl rfl rfl fun a => ?_
      rintro ⟨st, g1, s, d, am, g2, g3, -⟩
      cases List.mem_singleton.1 g1
      cases g2
      exact g3 h0
    · rename_i h0
      simp only [Prog.bind_eq] at h1
      obtain ⟨_, sa, h3, h1⟩ := eval_bind_eq_ok h1
      obtain ⟨h3, -⟩ := ofOption_ok h3
      obtain ⟨_, da, h4, h1⟩ := eval_bind_eq_ok h1
      obtain ⟨h4, -⟩ := ofOption_ok h4
      split at h1
      · obtain ⟨_, _, _, h1⟩ := eval_bind_eq_ok h1
        obtain ⟨_, _, _, h1⟩ := eval_bind_eq_ok h1
        obtain ⟨_, _, _, h1⟩ := eval_bind_eq_ok h1
        obtain ⟨_, _, _, h1⟩ := eval_bind_eq_ok h1
        obtain ⟨_, _, _, h1⟩ := eval_bind_eq_ok h1
        cases h1
        refine ⟨(List.append_nil _).symm, rfl, fun a => ?_, rfl, rfl, rfl, fun _ => rfl⟩
        have e1 := readAddr_ok h3
        have e2 := readAddr_ok h4
        have hm : a ∈ ((env.touch sa).touch da).touched ↔ a ∈ env.touched ∨ a = sa ∨ a = da := by
          simp only [Env.touch, mem_setInsert]
          grind
        rw [hm]
        refine or_congr Iff.rfl ⟨fun hx => ?_, ?_⟩
        · refine ⟨_, List.mem_singleton.2 rfl, src, dst, amount, rfl, h0, ?_⟩
          rcases hx with rfl | rfl
          · exact .inl e1
          · exact .inr e2
        · rintro ⟨st, g1, s, d, am, g2, -, g3⟩
          cases List.mem_singleton.1 g1
          cases g2
          rcases g3 with g3 | g3
          · exact .inl (Subtype.ext (g3.trans e1.symm))
          · exact .inr (Subtype.ext (g3.trans e2.symm))
      · cases h1

theorem Recorded.nil (env : Env) : Recorded env env [] :=
  ⟨(List.append_nil _).symm, rfl, fun a => by simp [Paid], rfl, rfl, rfl, fun _ => rfl⟩

theorem Recorded.trans {e₁ e₂ e₃ : Env} {a b : List Step} (h1 : Recorded e₁ e₂ a) (h2 : Recorded e₂ e₃ b) :
    Recorded e₁ e₃ (a ++ b) := by
  refine ⟨?_, ?_, fun x => ?_, h2.memorySet.trans h1.memorySet, h2.mode.trans h1.mode, h2.target.trans h1.target,
    fun h0 => ?_⟩
  · rw [h2.logs, h1.logs, logged_append, List.append_assoc]
  · rw [h2.returndata, h1.returndata, returned_append]
    cases returned b <;> cases returned a <;> rfl
  · rw [h2.touched, h1.touched, paid_append, or_assoc]
  · rw [logged_append, h1.silent h0, h2.silent (by rw [h1.memorySet]; exact h0)]
    rfl

theorem Runs.recorded {chk : Bool} {α : Type} {g : Guest α} {env env' : Env} {w w' : View} {tr : List Step}
    {r : Except Str (α × Bytes)} (h : Runs chk g env w tr r env' w') : Recorded env env' tr := by
  induction h with
  | ret => exact Recorded.nil _
  | trap => exact Recorded.nil _
  | call h1 _ ih => exact (host_recorded h1).trans ih

/-- The executions are those of the model. -/
theorem runs_iff {chk : Bool} {α : Type} {g : Guest α} {env env' : Env} {w w' : View} {r : Except Str (α × Bytes)} :
    (g.run chk env).eval w = (w', .ok (env', r)) ↔ ∃ tr, Runs chk g env w tr r env' w' := by
  constructor
  · intro h
    induction g generalizing env w with
    | ret a mem => cases h; exact ⟨_, .ret⟩
    | trap msg => cases h; exact ⟨_, .trap⟩
    | call mem c k ih =>
      simp only [Guest.run, Prog.bind_eq] at h
      obtain ⟨w1, x, h1, h2⟩ := eval_bind_eq_ok h
      obtain ⟨tr, h3⟩ := ih _ _ h2
      exact ⟨_, .call (v := x.1) (mem' := x.2.1) (env₁ := x.2.2) h1 h3⟩
  · rintro ⟨tr, h⟩
    induction h with
    | ret => rfl
    | trap => rfl
    | call h1 _ ih =>
      simp only [Guest.run, Prog.bind_eq]
      rw [Prog.eval_bind_ok h1]
      exact ih

/-- An execution happens in one way only. -/
theorem Runs.unique {chk : Bool} {α : Type} {g : Guest α} {env env₁ env₂ : Env} {w w₁ w₂ : View} {tr₁ tr₂ : List Step}
    {r₁ r₂ : Except Str (α × Bytes)} (h1 : Runs chk g env w tr₁ r₁ env₁ w₁) (h2 : Runs chk g env w tr₂ r₂ env₂ w₂) :
    tr₁ = tr₂ ∧ r₁ = r₂ ∧ env₁ = env₂ ∧ w₁ = w₂ := by
  induction h1 generalizing tr₂ with
  | ret => cases h2; exact ⟨rfl, rfl, rfl, rfl⟩
  | trap => cases h2; exact ⟨rfl, rfl, rfl, rfl⟩
  | call g1 _ ih =>
    cases h2 with
    | call g3 g4 =>
      rw [g1] at g3
      cases g3
      obtain ⟨e1, e2, e3, e4⟩ := ih g4
      exact ⟨by rw [e1], e2, e3, e4⟩

/-- An execution of a call happens in one way only. -/
theorem Executes.unique {chk : Bool} {m : Module} {c : Call} {env : Env} {w : View}
    {a₁ a₂ a₃ b₁ b₂ b₃ : List Step} {d e : Bool} {f g : Option Bytes} (h1 : Executes chk m c env w a₁ a₂ a₃ d f)
    (h2 : Executes chk m c env w b₁ b₂ b₃ e g) : a₁ = b₁ ∧ a₂ = b₂ ∧ a₃ = b₃ ∧ d = e ∧ f = g := by
  cases h1 <;> cases h2 <;>
    (obtain ⟨rfl, u, rfl, rfl⟩ := Runs.unique ‹Runs chk m.start env w a₁ _ _ _› ‹Runs chk m.start env w b₁ _ _ _›
     cases u) <;>
    first
    | exact ⟨rfl, rfl, rfl, rfl, rfl⟩
    | contradiction
    | skip
  · obtain ⟨rfl, -, -, -⟩ := Runs.unique ‹Runs chk (m.invoke _ _ _ _) _ _ a₂ _ _ _›
      ‹Runs chk (m.invoke _ _ _ _) _ _ b₂ _ _ _›
    exact ⟨rfl, rfl, rfl, rfl, rfl⟩
  · obtain ⟨-, v, -, -⟩ := Runs.unique ‹Runs chk (m.invoke _ _ _ _) _ _ a₂ _ _ _›
      ‹Runs chk (m.invoke _ _ _ _) _ _ b₂ _ _ _›
    cases v
  · obtain ⟨rfl, rfl, -, -⟩ := Runs.unique ‹Runs chk (m.invoke _ _ _ _) _ _ a₃ _ _ _›
      ‹Runs chk (m.invoke _ _ _ _) _ _ b₃ _ _ _›
    exact ⟨rfl, rfl, rfl, rfl, rfl⟩
  · obtain ⟨-, v, -, -⟩ := Runs.unique ‹Runs chk (m.invoke _ _ _ _) _ _ a₂ _ _ _›
      ‹Runs chk (m.invoke _ _ _ _) _ _ b₂ _ _ _›
    cases v
  · obtain ⟨rfl, v, rfl, rfl⟩ := Runs.unique ‹Runs chk (m.invoke _ _ _ _) _ _ a₂ _ _ _›
      ‹Runs chk (m.invoke _ _ _ _) _ _ b₂ _ _ _›
    cases v
    obtain ⟨rfl, rfl, -, -⟩ := Runs.unique ‹Runs chk (m.invoke _ _ _ _) _ _ a₃ _ _ _›
      ‹Runs chk (m.invoke _ _ _ _) _ _ b₃ _ _ _›
    exact ⟨rfl, rfl, rfl, rfl, rfl⟩

/-- How the outcome of an execution fits what was done. -/
structure Fits (res : Env × Except Failure (Bytes × List Bytes)) (target : Addr) (tr₁ tr₂ tr₃ : List Step)
    (done : Bool) (fin : Option Bytes) : Prop where
  silent : logged tr₁ = []
  failed : ∀ f, res.2 = .error f → fin = none ∧ f.2 = (if done then [] else logged tr₂) ++ logged tr₃
  ok : ∀ mem logs, res.2 = .ok (mem, logs) → fin = some mem ∧
    logs = (if done then [] else logged tr₂) ++ logged tr₃ ∧
    res.1.returndata = nats (returned (tr₁ ++ tr₂ ++ tr₃)) ∧
    ∀ a, a ∈ res.1.touched ↔ a = target ∨ Paid (tr₁ ++ tr₂ ++ tr₃) a

/-- What happens in `wasmer_call`. -/
theorem wasmerCall_runs {α : Type} {chk : Bool} {env env' : Env} {func : Str} {g : Guest α} {w w' : View}
    {r : Except Failure (α × Bytes × List Bytes)}
    (h : (wasmerCall chk env func g).eval w = (w', .ok (env', r))) :
    ∃ tr env₁ r₁, Runs chk g env w tr r₁ env₁ w' ∧ env' = { env₁ with logs := [] } ∧
      ((∃ msg f, r₁ = .error msg ∧ r = .error f ∧ f.2 = env₁.logs) ∨
        ∃ a mem, r₁ = .ok (a, mem) ∧ r = .ok (a, mem, env₁.logs)) := by
  unfold wasmerCall at h
  simp only [Prog.bind_eq] at h
  obtain ⟨w1, x, h1, h2⟩ := eval_bind_eq_ok h
  obtain ⟨env₁, r₁⟩ := x
  obtain ⟨tr, h3⟩ := runs_iff.1 h1
  cases r₁ with
  | error msg => cases h2; exact ⟨tr, env₁, _, h3, rfl, .inl ⟨msg, _, rfl, rfl, rfl⟩⟩
  | ok y => cases h2; exact ⟨tr, env₁, _, h3, rfl, .inr ⟨y.1, y.2, rfl, rfl⟩⟩

/-- The touched accounts at the start. -/
theorem touched_new (acc : Acc) (t a : Addr) (mode : AccessMode) (x : Addr) :
    x ∈ (Env.new acc t a mode).touched ↔ x = acc.addr := by
  simp [Env.new]

/-- The outcome of the execution of a module. -/
theorem runFunc_executes {chk : Bool} {m : Module} {c : Call} {acc : Acc} {t : Addr} {w w₁ w' : View} {tr₁ : List Step}
    {st : m.σ} {mem : Bytes} {env₁ : Env} {res : Env × Except Failure (Bytes × List Bytes)}
    (hs : Runs chk m.start (Env.new acc t c.target c.mode) w tr₁ (.ok (st, mem)) env₁ w₁)
    (h : (runFunc chk m c { env₁ with memorySet := true } st mem).eval w₁ = (w', .ok res)) :
    ∃ tr₂ tr₃ done fin, Executes chk m c (Env.new acc t c.target c.mode) w tr₁ tr₂ tr₃ done fin ∧
      Fits res acc.addr tr₁ tr₂ tr₃ done fin := by
  have R₁ := hs.recorded
  have S₁ : logged tr₁ = [] := R₁.silent rfl
  have L₁ : env₁.logs = [] := by rw [R₁.logs, S₁]; rfl
  unfold runFunc at h
  cases hsig : m.sig c.funcName with
  | none =>
    simp only [lookupFunc, hsig] at h
    cases h
    exact ⟨[], [], false, none, .noFunction hs (by rw [hsig]; nofun), S₁,
      fun f hf => (by cases hf; exact ⟨rfl, rfl⟩), nofun⟩
  | some sg =>
    by_cases hn : sg = .nullary
    · subst hn
      simp only [lookupFunc, hsig] at h
      split at h
      · rename_i hlen
        have hne : c.funcInput ≠ [] := fun h0 => by rw [h0] at hlen; exact absurd hlen (by decide)
        unfold callWithAlloc callAlloc at h
        simp only [Prog.bind_eq] at h
        obtain ⟨w2, x, h1, h2⟩ := eval_bind_eq_ok h
        split at h1
        · rename_i hal
          obtain ⟨w3, y, h3, h4⟩ := eval_bind_eq_ok h1
          obtain ⟨env₂', ry⟩ := y
          obtain ⟨tr₂, env₂, r₂, g1, rfl, g2⟩ := wasmerCall_runs h3
          have R₂ := g1.recorded
          rcases g2 with ⟨msg, f, rfl, rfl, hf⟩ | ⟨⟨st', vs⟩, mem₂, rfl, rfl⟩
          · cases h4
            cases h2
            refine ⟨tr₂, [], false, none, .allocTraps hs hsig hne hal g1, S₁, fun f' hf' => ?_, nofun⟩
            cases hf'
            exact ⟨rfl, by rw [hf, R₂.logs]; simp [L₁, logged]⟩
          · simp only at h4
            cases vs with
            | nil => cases h4
            | cons v vs =>
              cases v with
              | other => cases h4
              | i32 ptr =>
                cases h4
                simp only at h2
                split at h2
                · rename_i hret
                  obtain ⟨w4, me, h5, h6⟩ := eval_bind_eq_ok h2
                  obtain ⟨h5, rfl⟩ := ofOption_ok h5
                  unfold setCalldata at h5
                  split at h5
                  · cases h5
                    obtain ⟨w5, z, h7, h8⟩ := eval_bind_eq_ok h6
                    obtain ⟨env₃', rz⟩ := z
                    obtain ⟨tr₃, env₃, r₃, g3, rfl, g4⟩ := wasmerCall_runs h7
                    have R₃ := g3.recorded
                    refine ⟨tr₂, tr₃, true, _, .alloc hs hsig hne hal g1 g3, S₁, ?_, ?_⟩
                    · intro f hf
                      rcases g4 with ⟨msg, f', rfl, rfl, hf'⟩ | ⟨y3, mem₃, rfl, rfl⟩
                      · cases h8
                        cases hf
                        exact ⟨rfl, by rw [hf', R₃.logs]; rfl⟩
                      · cases h8
                        cases hf
                    · intro mem' logs hf
                      rcases g4 with ⟨msg, f', rfl, rfl, hf'⟩ | ⟨y3, mem₃, rfl, rfl⟩
                      · cases h8
                        cases hf
                      · cases h8
                        cases hf
                        refine ⟨rfl, by rw [R₃.logs]; rfl, ?_, fun a => ?_⟩
                        · simp only [R₃.returndata, R₂.returndata, R₁.returndata, returned_append, Env.new]
                          cases returned tr₃ <;> cases returned tr₂ <;> cases returned tr₁ <;> rfl
                        · simp only [R₃.touched, R₂.touched, R₁.touched, touched_new, paid_append, or_assoc]
                  · cases h5
                · cases h2
        · rename_i hal
          cases h1
          cases h2
          exact ⟨[], [], false, none, .noAlloc hs hsig hne hal, S₁, fun f hf => (by cases hf; exact ⟨rfl, rfl⟩), nofun⟩
      · rename_i hlen
        have hnil : c.funcInput = [] := List.length_eq_zero_iff.1 (by omega)
        simp only [Prog.bind_eq] at h
        obtain ⟨w5, z, h7, h8⟩ := eval_bind_eq_ok h
        obtain ⟨env₃', rz⟩ := z
        obtain ⟨tr₃, env₃, r₃, g3, rfl, g4⟩ := wasmerCall_runs h7
        have R₃ := g3.recorded
        refine ⟨[], tr₃, false, _, .plain hs hsig hnil g3, S₁, ?_, ?_⟩
        · intro f hf
          rcases g4 with ⟨msg, f', rfl, rfl, hf'⟩ | ⟨y3, mem₃, rfl, rfl⟩
          · cases h8
            cases hf
            exact ⟨rfl, by rw [hf', R₃.logs]; simp [L₁, logged]⟩
          · cases h8
            cases hf
        · intro mem' logs hf
          rcases g4 with ⟨msg, f', rfl, rfl, hf'⟩ | ⟨y3, mem₃, rfl, rfl⟩
          · cases h8
            cases hf
          · cases h8
            cases hf
            refine ⟨rfl, by rw [R₃.logs]; simp [L₁, logged], ?_, fun a => ?_⟩
            · simp only [R₃.returndata, R₁.returndata, returned_append, Env.new]
              cases returned tr₃ <;> cases returned tr₁ <;> rfl
            · simp only [R₃.touched, R₁.touched, touched_new, paid_append, or_assoc, List.append_nil]
    · have : lookupFunc m { env₁ with memorySet := true } c.funcName =
          .error (.funcInvalidSignature env₁.targetAddr env₁.templateAddr c.funcName, []) := by
        unfold lookupFunc
        rw [hsig]
        cases sg <;> first | rfl | exact absurd rfl hn
      rw [this] at h
      cases h
      exact ⟨[], [], false, none, .noFunction hs (by rw [hsig]; exact fun h0 => hn (Option.some.inj h0)), S₁,
        fun f hf => (by cases hf; exact ⟨rfl, rfl⟩), nofun⟩

/-- A loaded account. -/
theorem load_ok {chk : Bool} {a : Addr} {w w' : View} {acc : Acc} (h : (load chk a).eval w = (w', .ok acc)) :
    w' = w ∧ acc.addr = a ∧ (templateAddr acc).eval w = (w, .ok acc.template) := by
  have hw : w' = w := by
    have := (readOnly_load chk a).eval w
    rw [h] at this
    exact this
  subst hw
  unfold load at h
  simp only [Prog.bind_eq] at h
  obtain ⟨w1, d, h1, h2⟩ := eval_bind_eq_ok h
  obtain ⟨w2, l, h3, h4⟩ := eval_bind_eq_ok h2
  cases h4
  have e1 := (readOnly_readAndDecode decAccountData (.accData a)).eval w'
  rw [h1] at e1
  simp only at e1
  subst e1
  refine ⟨rfl, rfl, ?_⟩
  unfold templateAddr
  simp only [Prog.bind_eq]
  rw [Prog.eval_bind_ok h1]
  rfl

theorem out_of_eval {h : Hasher} (hc : NoCollision h) {α : Type} {p : Prog α} {s : Storage} {w : View} {a : α}
    (he : p.eval (view h s) = (w, .ok a)) : out h p s = .ok a := by
  rw [out_eval hc, he]

/-- The outcome of the execution of a call. -/
theorem exec_executes {h : Hasher} (hc : NoCollision h) {chk : Bool} {eng : Engine} {c : Call} {s : Storage}
    {res : Env × Except Failure (Bytes × List Bytes)} (hx : out h (exec chk eng c) s = .ok res) :
    (∃ acc m, Starts chk h eng s c acc m ∧ ∃ tr₁ tr₂ tr₃ done fin,
      Executes chk m c (Env.new acc c.templateAddr c.target c.mode) (view h s) tr₁ tr₂ tr₃ done fin ∧
        Fits res c.target tr₁ tr₂ tr₃ done fin) ∨
      (∃ f, res.2 = .error f ∧ f.2 = []) ∧ ∀ acc m, ¬ Starts chk h eng s c acc m := by
  rw [out_eval hc] at hx
  obtain ⟨w', hx⟩ : ∃ w', (exec chk eng c).eval (view h s) = (w', .ok res) := ⟨_, Prod.ext rfl hx⟩
  unfold exec at hx
  simp only [Prog.bind_eq] at hx
  obtain ⟨w1, acc, h1, hx⟩ := eval_bind_eq_ok hx
  have h1 := unwrap_ok.1 h1
  obtain ⟨rfl, ha, ht⟩ := load_ok h1
  obtain ⟨w2, t, h2, hx⟩ := eval_bind_eq_ok hx
  have h2 := unwrap_ok.1 h2
  rw [ht] at h2
  cases h2
  obtain ⟨w3, ss, h3, hx⟩ := eval_bind_eq_ok hx
  have h3 := unwrap_ok.1 h3
  have e3 := (readOnly_readSections chk acc.template).eval (view h s)
  rw [h3] at e3
  simp only at e3
  subst e3
  obtain ⟨w4, acc', h4, hx⟩ := eval_bind_eq_ok hx
  have h4 := unwrap_ok.1 h4
  rw [h1] at h4
  cases h4
  have o1 := out_of_eval hc h1
  have o3 := out_of_eval hc h3
  unfold runCall validateFuncUsage isCtor codeSection at hx
  simp only [Prog.bind_eq] at hx
  obtain ⟨w5, u, h5, hx⟩ := eval_bind_eq_ok hx
  obtain ⟨w6, b, h6, h5⟩ := eval_bind_eq_ok h5
  obtain ⟨h6, rfl⟩ := ofOption_ok h6
  split at h6
  case h_2 => cases h6
  rename_i cs hcs
  cases h6
  by_cases hb : c.funcName ∈ cs ↔ c.withinSpawn = true
  · have hu : u = .ok () ∧ w5 = view h s := by
      by_cases hw : c.withinSpawn = true
      · rw [if_pos hw, if_pos (decide_eq_true (hb.2 hw))] at h5
        cases h5
        exact ⟨rfl, rfl⟩
      · rw [if_neg hw, if_neg (by simp [mt hb.1 hw])] at h5
        cases h5
        exact ⟨rfl, rfl⟩
    obtain ⟨rfl, rfl⟩ := hu
    simp only at hx
    obtain ⟨w7, code, h7, hx⟩ := eval_bind_eq_ok hx
    obtain ⟨h7, rfl⟩ := ofOption_ok h7
    split at h7
    case h_2 => cases h7
    rename_i code' hcode
    cases h7
    have only : ∀ acc' m, Starts chk h eng s c acc' m → acc' = acc ∧ eng code.code = .ok m ∧ m.linkError = none := by
      rintro acc' m ⟨p1, ss', cs', code', p2, p3, p4, p5, p6, p7⟩
      rw [o1] at p1
      cases p1
      rw [o3] at p2
      cases p2
      rw [hcode] at p5
      cases p5
      exact ⟨rfl, p6, p7⟩
    cases hm : eng code.code with
    | error msg =>
      rw [hm] at hx
      cases hx
      exact .inr ⟨⟨_, rfl, rfl⟩, fun acc' m hst => by rw [hm] at only; exact absurd (only acc' m hst).2.1 nofun⟩
    | ok m =>
      rw [hm] at hx
      simp only at hx
      obtain ⟨w8, x, h8, hx⟩ := eval_bind_eq_ok hx
      unfold instantiate at h8
      cases hl : m.linkError with
      | some msg =>
        rw [hl] at h8
        cases h8
        cases hx
        refine .inr ⟨⟨_, rfl, rfl⟩, fun acc' m' hst => ?_⟩
        obtain ⟨-, q2, q3⟩ := only acc' m' hst
        rw [hm] at q2
        cases q2
        rw [hl] at q3
        cases q3
      | none =>
        rw [hl] at h8
        simp only [Prog.bind_eq] at h8
        obtain ⟨w9, y, h9, h8⟩ := eval_bind_eq_ok h8
        obtain ⟨env₁, ry⟩ := y
        obtain ⟨tr₁, hs⟩ := runs_iff.1 h9
        have start : Starts chk h eng s c acc m := ⟨o1, ss, cs, code, o3, hcs, hb, hcode, hm, hl⟩
        refine .inl ⟨acc, m, start, tr₁, ?_⟩
        cases ry with
        | error msg =>
          cases h8
          cases hx
          exact ⟨[], [], false, none, .startTraps hs, hs.recorded.silent rfl,
            fun f hf => (by cases hf; exact ⟨rfl, rfl⟩), nofun⟩
        | ok x =>
          cases h8
          simp only at hx
          split at hx
          · have hf := runFunc_executes hs hx
            rw [ha] at hf
            exact hf
          · cases hx
  · refine .inr ⟨?_, ?_⟩
    · by_cases hw : c.withinSpawn = true
      · rw [if_pos hw] at h5
        rw [if_neg (by simpa [hw] using hb)] at h5
        cases h5
        cases hx
        exact ⟨_, rfl, rfl⟩
      · rw [if_neg hw] at h5
        rw [if_pos (by simpa [hw] using hb)] at h5
        cases h5
        cases hx
        exact ⟨_, rfl, rfl⟩
    · rintro acc' m ⟨p1, ss', cs', code', p2, p3, p4, p5, p6, p7⟩
      rw [o1] at p1
      cases p1
      rw [o3] at p2
      cases p2
      rw [hcs] at p3
      cases p3
      exact hb p4

/-- The receipt of an outcome. -/
theorem receipt_of {h : Hasher} {chk : Bool} {o : Orders} {eng : Engine} {c : Call} {s : Storage} {r : CallReceipt}
    (hx : (execCall chk h o eng c s).2 = some r) :
    ∃ res, out h (exec chk eng c) s = .ok res ∧
      ((∃ f, res.2 = .error f ∧ r = CallReceipt.fromErr f.1 f.2) ∨
        ∃ mem logs data, res.2 = .ok (mem, logs) ∧ takeReturndata res.1 mem = some data ∧ r.success = true ∧
          r.returndata = some data ∧ r.logs = logs ∧ r.touched = res.1.touched ∧ r.version = 0) := by
  unfold execCall at hx
  rw [run_out] at hx
  simp only at hx
  split at hx
  · rename_i env mem logs he
    refine ⟨_, he, .inr ⟨mem, logs, ?_⟩⟩
    unfold outcomeToReceipt at hx
    split at hx
    · cases hx
    · rename_i data hdata
      obtain ⟨st, -, rfl⟩ := Option.map_eq_some_iff.1 hx
      exact ⟨data, rfl, hdata, rfl, rfl, rfl, rfl, rfl⟩
  · rename_i env f he
    cases hx
    exact ⟨_, he, .inl ⟨f, rfl, rfl⟩⟩
  · cases hx

theorem takeReturndata_part {env : Env} {mem data : Bytes} {x : Option (U32 × U32)} (hr : env.returndata = nats x)
    (h : takeReturndata env mem = some data) :
    data = bytesAt mem x := by
  unfold takeReturndata at h
  rw [hr] at h
  cases x with
  | none => cases h; rfl
  | some p =>
    simp only [nats, Option.map_some] at h
    split at h
    · cases h; rfl
    · cases h

/-- The receipt of an execution shows everything but the logs of an `svm_alloc` that returned. -/
theorem fits_receipt {res : Env × Except Failure (Bytes × List Bytes)} {target : Addr} {tr₁ tr₂ tr₃ : List Step}
    {done : Bool} {fin : Option Bytes} {r : CallReceipt} (hf : Fits res target tr₁ tr₂ tr₃ done fin)
    (hr : (∃ f, res.2 = .error f ∧ r = CallReceipt.fromErr f.1 f.2) ∨
      ∃ mem logs data, res.2 = .ok (mem, logs) ∧ takeReturndata res.1 mem = some data ∧ r.success = true ∧
        r.returndata = some data ∧ r.logs = logs ∧ r.touched = res.1.touched ∧ r.version = 0) :
    r.logs = (if done then [] else logged tr₂) ++ logged tr₃ ∧
      ((done = true → logged tr₂ = []) → Shows r target (tr₁ ++ tr₂ ++ tr₃) fin) := by
  have key : r.logs = (if done then [] else logged tr₂) ++ logged tr₃ := by
    rcases hr with ⟨f, h1, rfl⟩ | ⟨mem, logs, data, h1, -, -, -, h5, -, -⟩
    · exact (hf.failed f h1).2
    · rw [h5]
      exact (hf.ok mem logs h1).2.1
  refine ⟨key, fun hg => ?_⟩
  have hl : r.logs = logged (tr₁ ++ tr₂ ++ tr₃) := by
    rw [key, logged_append, logged_append, hf.silent]
    cases done with
    | true => rw [hg rfl]; rfl
    | false => rfl
  rcases hr with ⟨f, h1, rfl⟩ | ⟨mem, logs, data, h1, h2, h3, h4, h5, h6, h7⟩
  · obtain ⟨rfl, -⟩ := hf.failed f h1
    exact ⟨rfl, hl, rfl, fun _ => rfl, nofun, nofun⟩
  · obtain ⟨rfl, -, g2, g3⟩ := hf.ok mem logs h1
    refine ⟨h7, hl, h3, nofun, fun mem' hm => ?_, fun mem' hm a => ?_⟩
    · cases hm
      rw [h4, takeReturndata_part g2 h2]
    · rw [h6]
      exact g3 a

/-! ## C123 -/

/-- C123, except that an `svm_alloc` that returns must not have logged anything: the receipt of a call or of a
constructor of an account whose code is instantiated shows its execution. -/
theorem C123_shows_partial {h : Hasher} (hc : NoCollision h) (chk : Bool) (o : Orders) (eng : Engine) (c : Call)
    (s : Storage) (r : CallReceipt) (hx : (execCall chk h o eng c s).2 = some r) (acc : Acc) (m : Module)
    (tr₁ tr₂ tr₃ : List Step) (done : Bool) (fin : Option Bytes) (hs : Starts chk h eng s c acc m)
    (he : Executes chk m c (Env.new acc c.templateAddr c.target c.mode) (view h s) tr₁ tr₂ tr₃ done fin)
    (hg : done = true → logged tr₂ = []) : Shows r c.target (tr₁ ++ tr₂ ++ tr₃) fin := by
  obtain ⟨res, h1, h2⟩ := receipt_of hx
  rcases exec_executes hc h1 with ⟨acc', m', g1, _, _, _, _, _, g2, g3⟩ | ⟨-, g⟩
  · obtain ⟨p1, ss, cs, code, p2, p3, p4, p5, p6, p7⟩ := hs
    obtain ⟨q1, ss', cs', code', q2, q3, q4, q5, q6, q7⟩ := g1
    rw [p1] at q1
    cases q1
    rw [p2] at q2
    cases q2
    rw [p5] at q5
    cases q5
    rw [p6] at q6
    cases q6
    obtain ⟨rfl, rfl, rfl, rfl, rfl⟩ := g2.unique he
    exact (fits_receipt g3 h2).2 hg
  · exact absurd hs (g acc m)

/-- C123, the part that fails: what `svm_alloc` logs is dropped whenever it returns. -/
theorem C123_dropped {h : Hasher} (hc : NoCollision h) (chk : Bool) (o : Orders) (eng : Engine) (c : Call)
    (s : Storage) (r : CallReceipt) (hx : (execCall chk h o eng c s).2 = some r) (acc : Acc) (m : Module)
    (tr₁ tr₂ tr₃ : List Step) (fin : Option Bytes) (hs : Starts chk h eng s c acc m)
    (he : Executes chk m c (Env.new acc c.templateAddr c.target c.mode) (view h s) tr₁ tr₂ tr₃ true fin) :
    r.logs = logged tr₃ := by
  obtain ⟨res, h1, h2⟩ := receipt_of hx
  rcases exec_executes hc h1 with ⟨acc', m', g1, _, _, _, _, _, g2, g3⟩ | ⟨-, g⟩
  · obtain ⟨p1, ss, cs, code, p2, p3, p4, p5, p6, p7⟩ := hs
    obtain ⟨q1, ss', cs', code', q2, q3, q4, q5, q6, q7⟩ := g1
    rw [p1] at q1
    cases q1
    rw [p2] at q2
    cases q2
    rw [p5] at q5
    cases q5
    rw [p6] at q6
    cases q6
    obtain ⟨rfl, rfl, rfl, rfl, rfl⟩ := g2.unique he
    exact (fits_receipt g3 h2).1
  · exact absurd hs (g acc m)

/-- C123: behind every receipt there is an execution, unless the code was not even instantiated; then the receipt
tells of a failure, without logs and returndata. -/
theorem C123_executed {h : Hasher} (hc : NoCollision h) (chk : Bool) (o : Orders) (eng : Engine) (c : Call)
    (s : Storage) (r : CallReceipt) (hx : (execCall chk h o eng c s).2 = some r) :
    (∃ acc m, Starts chk h eng s c acc m ∧ ∃ tr₁ tr₂ tr₃ done fin,
      Executes chk m c (Env.new acc c.templateAddr c.target c.mode) (view h s) tr₁ tr₂ tr₃ done fin) ∨
    r.success = false ∧ r.logs = [] ∧ r.returndata = none ∧ ∀ acc m, ¬ Starts chk h eng s c acc m := by
  obtain ⟨res, h1, h2⟩ := receipt_of hx
  rcases exec_executes hc h1 with ⟨acc, m, g1, tr₁, tr₂, tr₃, done, fin, g2, -⟩ | ⟨⟨f, g2, g3⟩, g⟩
  · exact .inl ⟨acc, m, g1, tr₁, tr₂, tr₃, done, fin, g2⟩
  · refine .inr ?_
    rcases h2 with ⟨f', q1, rfl⟩ | ⟨mem, logs, data, q1, -⟩
    · rw [g2] at q1
      cases q1
      exact ⟨rfl, g3, rfl, g⟩
    · rw [g2] at q1
      cases q1

/-- A call message to an account that loads. -/
theorem call_eq {h : Hasher} (hc : NoCollision h) {chk : Bool} {o : Orders} {eng : Engine} {message rest : Bytes}
    {tx : Transaction} {s : Storage} {acc : Acc} (hd : decTransaction message = .ok (tx, rest))
    (ha : out h (load chk tx.target) s = .ok acc) : call chk h o eng message s =
      execCall chk h o eng ⟨tx.funcName, tx.calldata, tx.target, acc.template, false, .fullAccess⟩ s := by
  rw [out_eval hc] at ha
  have ha : (load chk tx.target).eval (view h s) = (_, .ok acc) := Prod.ext rfl ha
  obtain ⟨e1, -, e2⟩ := load_ok ha
  rw [e1] at ha
  have hb : (buildCall chk tx .fullAccess tx.funcName tx.calldata).eval (view h s) = (view h s, .ok
      ⟨tx.funcName, tx.calldata, tx.target, acc.template, false, .fullAccess⟩) := by
    unfold buildCall
    simp only [Prog.bind_eq]
    rw [Prog.eval_bind_ok (unwrap_ok.2 ha), Prog.eval_bind_ok (unwrap_ok.2 e2)]
    rfl
  have hrun : (buildCall chk tx .fullAccess tx.funcName tx.calldata).run h s = (s, .ok
      ⟨tx.funcName, tx.calldata, tx.target, acc.template, false, .fullAccess⟩) := by
    rw [run_out, out_of_eval hc hb]
    exact Prod.ext ((readOnly_buildCall chk tx .fullAccess tx.funcName tx.calldata).run h s) rfl
  unfold call
  rw [hd]
  simp only
  unfold buildAndExec
  rw [hrun]

/-- C123 for call messages. -/
theorem C123_call_partial {h : Hasher} (hc : NoCollision h) (chk : Bool) (o : Orders) (eng : Engine)
    (message rest : Bytes) (tx : Transaction) (s s' : Storage) (r : CallReceipt)
    (hd : decTransaction message = .ok (tx, rest)) (hcall : call chk h o eng message s = (s', some r)) (acc : Acc)
    (m : Module) (tr₁ tr₂ tr₃ : List Step) (done : Bool) (fin : Option Bytes)
    (hs : Starts chk h eng s ⟨tx.funcName, tx.calldata, tx.target, acc.template, false, .fullAccess⟩ acc m)
    (he : Executes chk m ⟨tx.funcName, tx.calldata, tx.target, acc.template, false, .fullAccess⟩
      (Env.new acc acc.template tx.target .fullAccess) (view h s) tr₁ tr₂ tr₃ done fin)
    (hg : done = true → logged tr₂ = []) : Shows r tx.target (tr₁ ++ tr₂ ++ tr₃) fin := by
  rw [call_eq hc hd hs.1] at hcall
  exact C123_shows_partial hc chk o eng _ s r (by rw [hcall]) acc m tr₁ tr₂ tr₃ done fin hs he hg

/-- C123 for the constructors of spawned accounts: the same, with the principal among the touched accounts. -/
theorem C123_spawn_partial {h : Hasher} (hc : NoCollision h) (chk : Bool) (o : Orders) (eng : Engine)
    (spawn : SpawnAccount) (target principal : Addr) (s : Storage) (r : SpawnReceipt)
    (hx : (callCtor chk h o eng spawn target principal s).2 = some r) (acc : Acc)
    (m : Module) (tr₁ tr₂ tr₃ : List Step) (done : Bool) (fin : Option Bytes)
    (hs : Starts chk h eng s ⟨spawn.ctorName, spawn.calldata, target, spawn.templateAddr, true, .fullAccess⟩ acc m)
    (he : Executes chk m ⟨spawn.ctorName, spawn.calldata, target, spawn.templateAddr, true, .fullAccess⟩
      (Env.new acc spawn.templateAddr target .fullAccess) (view h s) tr₁ tr₂ tr₃ done fin)
    (hg : done = true → logged tr₂ = []) :
    r.version = 0 ∧ r.logs = logged (tr₁ ++ tr₂ ++ tr₃) ∧ r.success = fin.isSome ∧ (fin = none → r.returndata = none) ∧
      ∀ mem, fin = some mem → r.accountAddr = some target ∧
        r.returndata = some (bytesAt mem (returned (tr₁ ++ tr₂ ++ tr₃))) ∧
        ∀ a, a ∈ r.touched ↔ a = target ∨ a = principal ∨ Paid (tr₁ ++ tr₂ ++ tr₃) a := by
  unfold callCtor at hx
  simp only at hx
  obtain ⟨r0, h1, h2⟩ := Option.bind_eq_some_iff.1 hx
  obtain ⟨-, a1, a2, a3, a4, a5⟩ := C123_shows_partial hc chk o eng _ s r0 h1 acc m tr₁ tr₂ tr₃ done fin hs he hg
  unfold intoSpawnReceipt at h2
  split at h2
  · rename_i hsu
    cases h2
    simp only at hsu
    refine ⟨rfl, a1, hsu.symm.trans a2, fun h0 => ?_, fun mem hm => ⟨rfl, a4 mem hm, fun a => ?_⟩⟩
    · rw [a2, h0] at hsu
      cases hsu
    · simp only [mem_setInsert, a5 mem hm]
      grind
  · rename_i hsu
    simp only [a2] at hsu
    split at h2
    · cases h2
      refine ⟨rfl, a1, (Bool.not_eq_true _ ▸ hsu : fin.isSome = false).symm, fun _ => rfl, fun mem hm => ?_⟩
      rw [hm] at hsu
      exact absurd rfl hsu
    · cases h2

/-! ## Concrete calls -/

/-- A module with 8 bytes of memory: `svm_alloc` logs its first byte, all other functions log the byte after it and
declare the first two bytes to be the returndata. -/
def chattyModule : Module :=
  { σ := Unit
    linkError := none
    start := .ret () [1, 2, 3, 4, 5, 6, 7, 8]
    hasMemory := true
    sig := fun f => if f = svmAlloc then some .alloc else some .nullary
    invoke := fun _ f _ mem =>
      if f = svmAlloc then .call mem (.log 0 1) fun _ mem => .ret ((), [.i32 0]) mem
      else .call mem (.log 1 1) fun _ mem => .call mem (.setReturndata 0 2) fun _ mem => .ret ((), []) mem }

/-- Every code section is compiled to `chattyModule`. -/
def chattyEngine : Engine := fun _ => .ok chattyModule

/-- A call of `go` of account 2. -/
def chattyTx (data : Bytes) : Transaction :=
  { version := 0, target := exampleAddr 2, funcName := goName, verifydata := [], calldata := data }

/-- Account 2 of the demo world. -/
def demoAcc : Acc := demoEnv.storage

/-- This call. -/
def chattyCall (data : Bytes) : Call := ⟨goName, data, exampleAddr 2, demoTemplate, false, .fullAccess⟩

theorem demo_acc {h : Hasher} (hc : NoCollision h) : out h (load true (exampleAddr 2)) (demoCommitted h) = .ok demoAcc := by
  rw [out_eval hc, view_demoCommitted hc]
  decide +kernel

theorem chatty_starts {h : Hasher} (hc : NoCollision h) (data : Bytes) :
    Starts true h chattyEngine (demoCommitted h) (chattyCall data) demoAcc chattyModule := by
  refine ⟨demo_acc hc, demoSections, [inName], { code := [0, 97, 115, 109], flags := 1, gasMode := .fixed, svmVersion := 0 },
    ?_, rfl, ?_, rfl, rfl, rfl⟩
  · have hr := ready_demo hc
    exact out_of_eval hc (eval_demoSections hr.core hr.noncore)
  · show goName ∈ [inName] ↔ false = true
    decide

/-- The steps of `svm_alloc` and of `go`. -/
def allocSteps : List Step := [⟨[1, 2, 3, 4, 5, 6, 7, 8], .log 0 1⟩]
def goSteps (mem : Bytes) : List Step := [⟨mem, .log 1 1⟩, ⟨mem, .setReturndata 0 2⟩]

theorem chatty_plain (w : View) : Executes true chattyModule (chattyCall [])
    (Env.new demoAcc demoTemplate (exampleAddr 2) .fullAccess) w [] [] (goSteps [1, 2, 3, 4, 5, 6, 7, 8]) false
      (some [1, 2, 3, 4, 5, 6, 7, 8]) :=
  .plain (r := .ok (((), []), _)) .ret rfl rfl (.call rfl (.call rfl .ret))

theorem chatty_alloc (w : View) : Executes true chattyModule (chattyCall [9])
    (Env.new demoAcc demoTemplate (exampleAddr 2) .fullAccess) w [] allocSteps (goSteps [9, 2, 3, 4, 5, 6, 7, 8]) true
      (some [9, 2, 3, 4, 5, 6, 7, 8]) :=
  .alloc (r := .ok (((), []), _)) .ret rfl nofun rfl (.call rfl .ret) (.call rfl (.call rfl .ret))

/-- Both calls give a receipt. -/
theorem chatty_receipt {h : Hasher} (hc : NoCollision h) (data : Bytes) (hdata : data = [] ∨ data = [9]) :
    ∃ r, (execCall true h ⟨.id, .id⟩ chattyEngine (chattyCall data) (demoCommitted h)).2 = some r := by
  obtain ⟨msg, hd⟩ : ∃ msg, decTransaction msg = .ok (chattyTx data, []) := by
    rcases hdata with rfl | rfl
    · exact ⟨(encTransaction (chattyTx [])).getD [], by decide +kernel⟩
    · exact ⟨(encTransaction (chattyTx [9])).getD [], by decide +kernel⟩
  obtain ⟨fp, hp, h0⟩ := demoCommitted_published hc
  have key : ∃ s' r, call true h ⟨.id, .id⟩ chattyEngine msg (demoCommitted h) = (s', some r) ∧ r.success = true := by
    rcases hdata with rfl | rfl
    · refine call_returns ((reach_demoCommitted h).ok hc).1 (by omega) hd (rest := [])
        (env := { demoEnv with logs := [], returndata := some (0, 2) }) (mem := [1, 2, 3, 4, 5, 6, 7, 8])
        (logs := [[2]]) (data := [1, 2]) ?_ rfl rfl
      rw [out_eval hc, view_demoCommitted hc]
      decide +kernel
    · refine call_returns ((reach_demoCommitted h).ok hc).1 (by omega) hd (rest := [])
        (env := { demoEnv with logs := [], returndata := some (0, 2), calldata := some (0, 1) })
        (mem := [9, 2, 3, 4, 5, 6, 7, 8]) (logs := [[2]]) (data := [9, 2]) ?_ rfl rfl
      rw [out_eval hc, view_demoCommitted hc]
      decide +kernel
  obtain ⟨s', r, h1, -⟩ := key
  rw [call_eq hc hd (demo_acc hc)] at h1
  exact ⟨r, by rw [show chattyCall data = ⟨(chattyTx data).funcName, (chattyTx data).calldata, (chattyTx data).target,
    demoAcc.template, false, .fullAccess⟩ from rfl, h1]⟩

/-- Non-vacuity of C123: a call that logs the second byte of the memory and returns the first two. -/
example : ∃ h, NoCollision h ∧ ∃ r,
    (execCall true h ⟨.id, .id⟩ chattyEngine (chattyCall []) (demoCommitted h)).2 = some r ∧
    r.success = true ∧ r.logs = [[2]] ∧ r.returndata = some [1, 2] := by
  obtain ⟨h, hc⟩ := exists_noCollision
  obtain ⟨r, hr⟩ := chatty_receipt hc [] (.inl rfl)
  obtain ⟨-, a1, a2, -, a4, -⟩ := C123_shows_partial hc true _ _ _ _ r hr demoAcc chattyModule _ _ _ _ _
    (chatty_starts hc []) (chatty_plain _) nofun
  exact ⟨h, hc, r, hr, a2, a1, a4 _ rfl⟩

/-- C123 fails: the log of `svm_alloc` is missing. -/
theorem C123_claim_false : ¬ C123_claim := by
  intro hcl
  obtain ⟨h, hc⟩ := exists_noCollision
  obtain ⟨r, hr⟩ := chatty_receipt hc [9] (.inr rfl)
  have h1 := (hcl h hc true _ _ _ _ r hr _ _ _ _ _ _ _ (chatty_starts hc [9]) (chatty_alloc _)).logs
  rw [C123_dropped hc true _ _ _ _ r hr _ _ _ _ _ _ (chatty_starts hc [9]) (chatty_alloc _)] at h1
  revert h1
  decide

end Svm.Runtime
