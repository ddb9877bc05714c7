import Verif.Runtime.Templates
import Verif.Runtime.Priced

/-!
# C119 and C120: the layers of a node, and going back to one of them

`Runtime::{commit, rewind, current_layer}` (runtime.rs) over whole histories of a node. A call or a spawn
that succeeds makes a layer, too.
-/

namespace Svm.Runtime

open Svm.Codec Svm.Account
open Svm.Storage (Hasher Storage Inv Sim Spec FpOk fingerprintOf Kept stateOnes)

/-! ## What an event does to the storage -/

/-- The layer made by `commit_changes`. -/
def saved (h : Hasher) (o : Orders) (s : Storage) : Storage :=
  (Svm.Storage.commit o.commit (Svm.Storage.checkpoint h o.checkpoint s)).1

/-- A state right after layer `l` was made. -/
structure Settled (l : Int) (s : Storage) : Prop where
  inv : Inv s
  dirty : s.dirty = []
  next : s.next = ⟨l + 1, [], stateOnes⟩

theorem settled_commit {s : Storage} (hi : Inv s) (hd : s.dirty = []) (o : Svm.Storage.Ord) :
    Settled s.next.id (Svm.Storage.commit o s).1 := by
  have hi2 := Svm.Storage.inv_step ⟨fun _ => 0⟩ hi (.commit o) trivial
  obtain ⟨prev, -, he⟩ := Svm.Storage.commit_ok hi hd o
  simp only [Svm.Storage.step] at hi2
  rw [he] at hi2 ⊢
  exact ⟨hi2, rfl, rfl⟩

theorem settled_saved {h : Hasher} {s : Storage} (hi : Inv s) (o : Orders) :
    Settled s.next.id (saved h o s) := by
  have hi1 : Inv (Svm.Storage.checkpoint h o.checkpoint s) :=
    Svm.Storage.inv_step h hi (.checkpoint o.checkpoint) trivial
  have hcp := Svm.Storage.checkpoint_eq h o.checkpoint s
  have hd1 : (Svm.Storage.checkpoint h o.checkpoint s).dirty = [] := by rw [hcp]
  have hn1 : (Svm.Storage.checkpoint h o.checkpoint s).next.id = s.next.id := by rw [hcp]
  have := settled_commit hi1 hd1 o.commit
  rwa [hn1] at this

theorem commitChanges_saved {h : Hasher} {e : Storage} (hi : Inv e) (h0 : 0 ≤ e.next.id) (o : Orders)
    (env : Env) :
    ((commitChanges h o env e).1 = saved h o e ∧ (commitChanges h o env e).2.isSome) ∨
      ((commitChanges h o env e).1 = e ∧ (commitChanges h o env e).2 = none) := by
  rcases commitChanges_trace (h := h) hi h0 o env with ⟨-, h1⟩ | h1
  · refine .inl ⟨?_, h1⟩
    unfold commitChanges at h1 ⊢
    split
    · rename_i hw
      simp only [hw, if_true] at h1
      simp only
      split
      · split <;> rfl
      · rfl
    · rename_i hw
      rw [if_neg hw] at h1
      cases h1
  · exact .inr h1

/-- A new layer with the writes of a program, if `good`; otherwise just these writes. -/
def Traced (h : Hasher) (o : Orders) (s s' : Storage) (good : Prop) : Prop :=
  ((∃ (α : Type) (p : Prog α), s' = saved h o (after h p s)) ∧ good) ∨
    ((∃ (α : Type) (p : Prog α), s' = after h p s) ∧ ¬ good)

/-- The call succeeded. -/
def Good (r : Option CallReceipt) : Prop := ∃ x, r = some x ∧ x.success = true

theorem execCall_traced {h : Hasher} {s : Storage} (hi : Inv s) (h0 : 0 ≤ s.next.id) (chk : Bool)
    (o : Orders) (eng : Engine) (c : Call) :
    ((execCall chk h o eng c s).1 = saved h o (after h (exec chk eng c) s) ∧
      Good (execCall chk h o eng c s).2) ∨
    ((execCall chk h o eng c s).1 = after h (exec chk eng c) s ∧
      ∀ r, (execCall chk h o eng c s).2 = some r → r.success = false) := by
  have hi1 := inv_prog (h := h) (exec chk eng c) hi
  have hf := (Prog.run_frame h (exec chk eng c) s).2
  unfold execCall
  simp only
  split
  · rename_i env mem logs he
    unfold outcomeToReceipt
    split
    · exact .inr ⟨rfl, fun r hr => by cases hr⟩
    · have h1 : 0 ≤ (after h (exec chk eng c) s).next.id := by
        show 0 ≤ ((exec chk eng c).run h s).1.next.id
        rw [hf]
        exact h0
      rcases commitChanges_saved (h := h) hi1 h1 o env with ⟨h2, h3⟩ | ⟨h2, h3⟩
      · refine .inl ⟨h2, ?_⟩
        obtain ⟨st, hst⟩ := Option.isSome_iff_exists.1 h3
        exact ⟨_, congrArg (Option.map _) hst, rfl⟩
      · refine .inr ⟨h2, fun r hr => ?_⟩
        have h4 := hr.symm.trans (congrArg (Option.map _) h3)
        cases h4
  · exact .inr ⟨rfl, fun r hr => by cases hr; rfl⟩
  · exact .inr ⟨rfl, fun r hr => by cases hr⟩

theorem not_good {r : Option CallReceipt} (h : ∀ x, r = some x → x.success = false) : ¬ Good r := by
  rintro ⟨x, h1, h2⟩
  rw [h x h1] at h2
  cases h2

theorem buildAndExec_traced {h : Hasher} {s : Storage} (hi : Inv s) (h0 : 0 ≤ s.next.id) (chk : Bool)
    (o : Orders) (eng : Engine) (tx : Transaction) (mode : AccessMode) (func : Str) (input : Bytes) :
    Traced h o s (buildAndExec chk h o eng tx mode func input s).1
      (Good (buildAndExec chk h o eng tx mode func input s).2) := by
  have hs := (readOnly_buildCall chk tx mode func input).run h s
  unfold buildAndExec
  simp only
  split
  · rw [hs]
    rcases execCall_traced (h := h) hi h0 chk o eng _ with ⟨h1, h2⟩ | ⟨h1, h2⟩
    · exact .inl ⟨⟨_, _, h1⟩, h2⟩
    · exact .inr ⟨⟨_, _, h1⟩, not_good h2⟩
  · exact .inr ⟨⟨_, _, rfl⟩, by rintro ⟨x, h1, -⟩; cases h1⟩

theorem spawn_traced {h : Hasher} {rs : RState} (hi : Inv rs.storage) (h0 : 0 ≤ rs.storage.next.id)
    (chk : Bool) (o : Orders) (eng : Engine) (pr : Pricer) (e : Envelope) (m : Bytes) :
    Traced h o rs.storage (spawn chk h o eng pr e m rs).1.storage
      (∃ r, (spawn chk h o eng pr e m rs).2 = some r ∧ r.success = true) := by
  have same : ∃ (α : Type) (p : Prog α), rs.storage = after h p rs.storage := ⟨Unit, .ret (), rfl⟩
  unfold spawn
  split
  · rename_i sp rest hd
    have hs := (readOnly_loadTemplate chk sp.templateAddr).run h rs.storage
    simp only [hs]
    split
    · split
      · exact .inr ⟨same, by rintro ⟨x, h1, -⟩; cases h1⟩
      · exact .inr ⟨same, by rintro ⟨x, h1, h2⟩; cases h1; cases h2⟩
      · split
        · exact .inr ⟨same, by rintro ⟨x, h1, -⟩; cases h1⟩
        · split
          · exact .inr ⟨same, by rintro ⟨x, h1, h2⟩; cases h1; cases h2⟩
          · unfold spawnAccount
            simp only
            split
            · unfold callCtor
              simp only
              have hi1 := inv_prog (h := h)
                (createAccount chk (computeAccountAddr h sp) sp.templateAddr sp.name 0 0) hi
              have hf := (Prog.run_frame h
                (createAccount chk (computeAccountAddr h sp) sp.templateAddr sp.name 0 0)
                rs.storage).2
              rename_i hok
              rcases execCall_traced (h := h) hi1 (by rw [hf]; exact h0) chk o eng (ctorCall h sp) with
                ⟨h1, r, h2, h3⟩ | ⟨h1, h2⟩
              · refine .inl ⟨⟨_, (createAccount chk (computeAccountAddr h sp) sp.templateAddr sp.name
                  0 0).bind fun _ => exec chk eng (ctorCall h sp), ?_⟩, ?_⟩
                · exact h1.trans (congrArg (saved h o)
                    (after_of_ok hok fun _ => exec chk eng (ctorCall h sp)).symm)
                · have h4 := congrArg (fun r : Option CallReceipt => r.bind fun receipt =>
                    intoSpawnReceipt { receipt with
                      touched := setInsert (setInsert receipt.touched (computeAccountAddr h sp))
                        e.principal } (computeAccountAddr h sp)) h2
                  refine ⟨{ version := 0, success := true, error := none
                            accountAddr := some (computeAccountAddr h sp)
                            initState := r.newState, returndata := r.returndata, gasUsed := r.gasUsed
                            touched := setInsert (setInsert r.touched (computeAccountAddr h sp))
                              e.principal, logs := r.logs }, h4.trans ?_, rfl⟩
                  simp [intoSpawnReceipt, h3]
              · refine .inr ⟨⟨_, (createAccount chk (computeAccountAddr h sp) sp.templateAddr sp.name
                  0 0).bind fun _ => exec chk eng (ctorCall h sp), ?_⟩, ?_⟩
                · exact h1.trans (after_of_ok hok fun _ => exec chk eng (ctorCall h sp)).symm
                · rintro ⟨r, hr, hr2⟩
                  obtain ⟨c, hc1, hc2⟩ := Option.bind_eq_some_iff.1 hr
                  rw [spawnReceipt_failed (h2 c hc1) hc2] at hr2
                  cases hr2
            · exact .inr ⟨⟨_, _, rfl⟩, by rintro ⟨x, h1, -⟩; cases h1⟩
    · exact .inr ⟨same, by rintro ⟨x, h1, -⟩; cases h1⟩
  · exact .inr ⟨same, by rintro ⟨x, h1, -⟩; cases h1⟩

theorem Traced.of_iff {h : Hasher} {o : Orders} {s s' : Storage} {P Q : Prop} (ht : Traced h o s s' P)
    (hpq : P ↔ Q) : Traced h o s s' Q := by
  rcases ht with ⟨h1, h2⟩ | ⟨h1, h2⟩
  · exact .inl ⟨h1, hpq.1 h2⟩
  · exact .inr ⟨h1, fun hq => h2 (hpq.2 hq)⟩

/-- What a transaction does to the storage. -/
theorem tx_traced {h : Hasher} {rs : RState} (hi : Inv rs.storage) (h0 : 0 ≤ rs.storage.next.id)
    (chk : Bool) (o : Orders) (eng : Engine) (pr : Pricer) (t : Tx) :
    Traced h o rs.storage (Node.step chk h eng pr o rs (.tx t)).1.storage
      (Node.step chk h eng pr o rs (.tx t)).2.Saves := by
  have same : ∃ (α : Type) (p : Prog α), rs.storage = after h p rs.storage := ⟨Unit, .ret (), rfl⟩
  cases t with
  | deploy e m =>
    rcases perform_trace (h := h) hi h0 chk o eng pr (.deploy e m) with ⟨-, h1⟩ | h1
    · exfalso
      simp only [Node.step, perform] at h1
      cases hx : (deploy chk h e m rs.storage).2 <;> simp [hx, Answer.Saves] at h1
    · exact .inr h1
  | spawn e m =>
    refine (spawn_traced (h := h) hi h0 chk o eng pr e m).of_iff ?_
    simp only [Node.step, perform]
    cases hx : (spawn chk h o eng pr e m rs).2 <;> simp [Answer.Saves]
  | call m =>
    simp only [Node.step, perform]
    unfold call
    split
    · rename_i tx rest hd
      refine (buildAndExec_traced (h := h) hi h0 chk o eng tx .fullAccess tx.funcName tx.calldata).of_iff ?_
      cases hx : (buildAndExec chk h o eng tx .fullAccess tx.funcName tx.calldata rs.storage).2 <;>
        simp [Answer.Saves, Good]
    · exact .inr ⟨same, id⟩
  | verify m =>
    simp only [Node.step, perform]
    unfold verify
    split
    · rename_i tx rest hd
      refine (buildAndExec_traced (h := h) hi h0 chk o eng tx .accessDenied svmVerify tx.verifydata).of_iff ?_
      cases hx : (buildAndExec chk h o eng tx .accessDenied svmVerify tx.verifydata rs.storage).2 <;>
        simp [Answer.Saves, Good]
    · exact .inr ⟨same, id⟩

/-! ## C119 -/

/-- The number of the newest layer after an event, by its answer: a call, a spawn or a commit that succeeds
adds one, a rewind goes back to the given one. -/
def layerAfter (l : Int) (e : Event) (ans : Answer) : Int :=
  match e, ans with
  | .tx _, .receipt (.call r) => if r.success then l + 1 else l
  | .tx _, .receipt (.spawn r) => if r.success then l + 1 else l
  | .commit, .done => l + 1
  | .rewind n, .done => n
  | _, _ => l

/-- The same over a history. The layer of the genesis is -1. -/
def layerOf : Int → List Event → List Answer → Int
  | l, e :: es, a :: as => layerOf (layerAfter l e a) es as
  | l, _, _ => l

/-- A node in which layer `l` is the newest. -/
structure At (l : Int) (s : Storage) : Prop where
  inv : Inv s
  fp : FpOk s
  next : s.next.id = l + 1

theorem At.run {h : Hasher} {l : Int} {s : Storage} (ha : At l s) {α : Type} (p : Prog α) :
    At l (after h p s) := by
  have hf := Prog.run_frame h p s
  refine ⟨inv_prog p ha.inv, ?_, ?_⟩
  · show FpOk (p.run h s).1
    unfold FpOk
    rw [hf.1, hf.2]
    exact ha.fp
  · show (p.run h s).1.next.id = _
    rw [hf.2]
    exact ha.next

theorem At.commit {l : Int} {s : Storage} (ha : At l s) (o : Svm.Storage.Ord) (hd : s.dirty = []) :
    At (l + 1) (Svm.Storage.commit o s).1 := by
  have h1 := settled_commit ha.inv hd o
  refine ⟨h1.inv, Svm.Storage.fpOk_step ⟨fun _ => 0⟩ ha.inv ha.fp (.commit o) trivial, ?_⟩
  rw [h1.next, ha.next]

theorem At.saved {h : Hasher} {l : Int} {s : Storage} (ha : At l s) (o : Orders) :
    At (l + 1) (saved h o s) := by
  have hcp := Svm.Storage.checkpoint_eq h o.checkpoint s
  have h1 : At l (Svm.Storage.checkpoint h o.checkpoint s) :=
    ⟨Svm.Storage.inv_step h ha.inv (.checkpoint o.checkpoint) trivial,
      Svm.Storage.fpOk_step h ha.inv ha.fp (.checkpoint o.checkpoint) trivial, by rw [hcp]; exact ha.next⟩
  exact h1.commit o.commit (by rw [hcp])

theorem rewind_cases {s : Storage} (hi : Inv s) (l : Int) :
    (l < s.next.id ∧ s.dirty = [] ∧ (Svm.Storage.rewind s l).2 = .ok ()) ∨
      ((Svm.Storage.rewind s l).1 = s ∧ ∀ u, (Svm.Storage.rewind s l).2 ≠ .ok u) := by
  by_cases hl : l < s.next.id
  · by_cases hd : s.dirty = []
    · exact .inl ⟨hl, hd, by rw [Svm.Storage.rewind_ok hi hd hl]⟩
    · have := ((Svm.Storage.C06_dirty_refused s .id l).1 hd).2 hl
      exact .inr (by rw [this]; exact ⟨rfl, nofun⟩)
  · have : Svm.Storage.rewind s l = (s, .panic) := by unfold Svm.Storage.rewind; simp [hl]
    exact .inr (by rw [this]; exact ⟨rfl, nofun⟩)

theorem At.rewind {l : Int} {s : Storage} (ha : At l s) (n : Nat)
    (hok : (Svm.Storage.rewind s n).2 = .ok ()) : At n (Svm.Storage.rewind s n).1 := by
  rcases rewind_cases ha.inv n with ⟨h1, h2, -⟩ | ⟨-, h1⟩
  · have hl : (Svm.Storage.Op.rewind n).RewindsFrom (-1) := by
      show (-1 : Int) ≤ n
      omega
    have h3 := Svm.Storage.inv_step ⟨fun _ => 0⟩ ha.inv (.rewind n) (show (-2 : Int) ≤ n by omega)
    have h4 := Svm.Storage.fpOk_step ⟨fun _ => 0⟩ ha.inv ha.fp (.rewind n) hl
    refine ⟨h3, h4, ?_⟩
    rw [Svm.Storage.rewind_ok ha.inv h2 h1]
  · exact absurd hok (h1 ())

theorem layerAfter_tx {l : Int} {t : Tx} {ans : Answer} [Decidable ans.Saves]
    (hv : ∀ r, ans = .receipt (.verify r) → r.success = false) :
    layerAfter l (.tx t) ans = if ans.Saves then l + 1 else l := by
  cases ans with
  | receipt r =>
    cases r with
    | deploy r => simp [layerAfter, Answer.Saves]
    | spawn r => by_cases hs : r.success = true <;> simp [layerAfter, Answer.Saves, hs]
    | call r => by_cases hs : r.success = true <;> simp [layerAfter, Answer.Saves, hs]
    | verify r => simp [layerAfter, Answer.Saves, hv r rfl]
  | _ => simp [layerAfter, Answer.Saves]

open Classical in
/-- The number of the newest layer after one event. -/
theorem At.step {h : Hasher} {l : Int} {rs : RState} (ha : At l rs.storage) (h0 : -1 ≤ l) (chk : Bool)
    (o : Orders) (eng : Engine) (pr : Pricer) (e : Event) :
    At (layerAfter l e (Node.step chk h eng pr o rs e).2) (Node.step chk h eng pr o rs e).1.storage ∧
      -1 ≤ layerAfter l e (Node.step chk h eng pr o rs e).2 := by
  have hn : 0 ≤ rs.storage.next.id := by rw [ha.next]; omega
  cases e with
  | tx t =>
    have hv : ∀ r, (Node.step chk h eng pr o rs (.tx t)).2 = .receipt (.verify r) → r.success = false := by
      intro r hr
      simp only [Node.step] at hr
      cases hp : (perform chk h eng pr o rs t).2 with
      | none => rw [hp] at hr; cases hr
      | some x =>
        rw [hp] at hr
        cases hr
        cases t with
        | verify m =>
          obtain ⟨r', h1, h2⟩ := Option.map_eq_some_iff.1 hp
          cases h2
          exact C29_never_succeeds chk h o eng m _ _ h1
        | deploy | spawn | call =>
          obtain ⟨r', -, h2⟩ := Option.map_eq_some_iff.1 hp
          cases h2
    rw [layerAfter_tx hv]
    rcases tx_traced (h := h) ha.inv hn chk o eng pr t with ⟨⟨α, p, h1⟩, h2⟩ | ⟨⟨α, p, h1⟩, h2⟩
    · rw [if_pos h2, h1]
      exact ⟨(ha.run p).saved o, by omega⟩
    · rw [if_neg h2, h1]
      exact ⟨ha.run p, h0⟩
  | create | credit | pay | account => exact ⟨ha.run _, h0⟩
  | commit =>
    simp only [Node.step, commitLayer]
    by_cases hd : rs.storage.dirty = []
    · obtain ⟨prev, -, he⟩ := Svm.Storage.commit_ok ha.inv hd o.commit
      have e2 : (Svm.Storage.commit o.commit rs.storage).2 =
          .ok (rs.storage.next.id, prev ^^^ rs.storage.next.xorFingerprint) := by rw [he]
      rw [e2]
      simp only [hn, if_true, layerAfter]
      exact ⟨ha.commit o.commit hd, by omega⟩
    · rw [Svm.Storage.commit_dirty hd]
      exact ⟨ha, h0⟩
  | rewind n =>
    simp only [Node.step, rewindTo]
    split
    · simp only
      cases hx : (Svm.Storage.rewind rs.storage n).2 with
      | ok u =>
        simp only [layerAfter]
        exact ⟨ha.rewind n hx, by omega⟩
      | err =>
        rcases rewind_cases ha.inv n with ⟨-, -, h1⟩ | ⟨h1, -⟩
        · rw [hx] at h1; cases h1
        · rw [h1]; exact ⟨ha, h0⟩
      | panic =>
        rcases rewind_cases ha.inv n with ⟨-, -, h1⟩ | ⟨h1, -⟩
        · rw [hx] at h1; cases h1
        · rw [h1]; exact ⟨ha, h0⟩
    · exact ⟨ha, h0⟩
  | layer => exact ⟨ha, h0⟩
  | uncommitted => exact ⟨ha, h0⟩

theorem At.history {h : Hasher} {l : Int} {rs : RState} (ha : At l rs.storage) (h0 : -1 ≤ l) (chk : Bool)
    (eng : Engine) (pr : Pricer) (es : List Event) (os : Nat → Orders) :
    At (layerOf l es (Node.run chk h eng pr rs es os).2) (Node.run chk h eng pr rs es os).1.storage ∧
      -1 ≤ layerOf l es (Node.run chk h eng pr rs es os).2 := by
  induction es generalizing rs os l with
  | nil => exact ⟨ha, h0⟩
  | cons e es ih =>
    obtain ⟨h1, h2⟩ := ha.step h0 chk (os 0) eng pr e
    exact ih h1 h2 _

theorem at_fresh : At (-2) Svm.Storage.fresh := by
  refine ⟨Svm.Storage.inv_fresh, ⟨?_, rfl⟩, rfl⟩
  intro r hr
  simp only [Svm.Storage.fresh, List.mem_singleton] at hr
  subst hr
  rfl

theorem at_start {h : Hasher} {ts : List (Addr × Sections)} {o : Orders} {rs : RState}
    (hs : Node.start h o ts = some rs) : At (-1) rs.storage := by
  obtain ⟨-, rfl⟩ := start_storage hs
  exact (at_fresh.run (h := h) (genesisProg ts)).saved o

theorem currentLayer_at {l : Int} {s : Storage} (ha : At l s) :
    currentLayer s = if 0 ≤ l then .layer l (fingerprintOf l) else .panic := by
  unfold currentLayer
  rw [last_fp ha.inv ha.fp, ha.next, show l + 1 - 1 = l by omega]

/-- C119: the newest layer of a node can be asked for at any time, and has the number that the successful
calls, spawns, commits and rewinds give it. -/
def C119_claim : Prop :=
  ∀ (h : Hasher) (chk : Bool) (ts : List (Addr × Sections)) (o : Orders) (rs : RState) (eng : Engine)
    (pr : Pricer) (es : List Event) (os : Nat → Orders), Node.start h o ts = some rs →
    ∃ st, (Node.step chk h eng pr o (Node.run chk h eng pr rs es os).1 .layer).2 =
      .layer (layerOf (-1) es (Node.run chk h eng pr rs es os).2) st

/-- **C119, what the code does**: the layers are numbered consecutively. The newest one is reported with its
number once there is a layer 0; before, when only the layer of the genesis exists, the question panics. -/
theorem C119_layers {h : Hasher} {chk : Bool} {ts : List (Addr × Sections)} {o : Orders} {rs : RState}
    (hs : Node.start h o ts = some rs) (eng : Engine) (pr : Pricer) (es : List Event) (os : Nat → Orders)
    (o' : Orders) :
    (0 ≤ layerOf (-1) es (Node.run chk h eng pr rs es os).2 →
      (Node.step chk h eng pr o' (Node.run chk h eng pr rs es os).1 .layer).2 =
        .layer (layerOf (-1) es (Node.run chk h eng pr rs es os).2)
          (fingerprintOf (layerOf (-1) es (Node.run chk h eng pr rs es os).2))) ∧
    (¬ 0 ≤ layerOf (-1) es (Node.run chk h eng pr rs es os).2 →
      layerOf (-1) es (Node.run chk h eng pr rs es os).2 = -1 ∧
      (Node.step chk h eng pr o' (Node.run chk h eng pr rs es os).1 .layer).2 = .panic) := by
  obtain ⟨h1, h2⟩ := (at_start hs).history (h := h) (by omega) chk eng pr es os
  have h3 := currentLayer_at h1
  constructor
  · intro h4
    rw [if_pos h4] at h3
    exact h3
  · intro h4
    rw [if_neg h4] at h3
    exact ⟨by omega, h3⟩

/-- **C119**, the genesis: a new database has no layer of the genesis, which is why `init_genesis` writes it; at every
point of every history of a node it is there, with the same fingerprint. -/
theorem C119_genesis {h : Hasher} {chk : Bool} {ts : List (Addr × Sections)} {o : Orders} {rs : RState}
    (hs : Node.start h o ts = some rs) (eng : Engine) (pr : Pricer) (es : List Event) (os : Nat → Orders) :
    Svm.Storage.genesisFingerprint Svm.Storage.fresh = none ∧
      Svm.Storage.genesisFingerprint (Node.run chk h eng pr rs es os).1.storage = some (fingerprintOf (-1)) := by
  refine ⟨rfl, ?_⟩
  obtain ⟨h1, h2⟩ := (at_start hs).history (h := h) (by omega) chk eng pr es os
  generalize (Node.run chk h eng pr rs es os).1.storage = s at h1
  have hn := h1.next
  obtain ⟨fp, hfp⟩ := h1.inv.fingerprint_isSome (l := -1) (by omega) (by omega)
  show Svm.Storage.queryFingerprint s.db (-1) true = _
  rw [hfp]
  unfold Svm.Storage.queryFingerprint at hfp
  obtain ⟨r, hf, hr⟩ := Option.map_eq_some_iff.1 hfp
  have hid := List.find?_some hf
  simp only [decide_eq_true_eq] at hid
  rw [← hr, h1.fp.1 r (List.mem_of_find?_eq_some hf), hid.1]

/-- **C119 fails**: a new node panics when it is asked for its layer. -/
theorem C119_claim_false : ¬ C119_claim := by
  intro hc
  have hs : Node.start ⟨fun _ => 0⟩ ⟨.id, .id⟩ [] = some (Node.boot ⟨fun _ => 0⟩ ⟨.id, .id⟩ []) := by rfl
  obtain ⟨st, h1⟩ := hc _ true _ _ _ (fun _ => .error svmVerify) ⟨fun _ => none, fun _ => none⟩ []
    (fun _ => ⟨.id, .id⟩) hs
  have h2 := ((C119_layers (chk := true) hs (fun _ => .error svmVerify) ⟨fun _ => none, fun _ => none⟩ [] (fun _ => ⟨.id, .id⟩) ⟨.id, .id⟩).2 (by decide)).2
  rw [h2] at h1
  cases h1

/-! ## C120 -/

/-- This answer to this event means that a layer was just made, or gone back to. -/
def Makes (e : Event) (ans : Answer) : Prop :=
  match e with
  | .tx _ => ans.Saves
  | .commit => ans = .done
  | .rewind _ => ans = .done
  | _ => False

/-- The event does not go back behind layer `l`. -/
def Event.RewindsFrom (l : Int) : Event → Prop
  | .rewind n => l ≤ n
  | _ => True

/-- The state right after a layer was made has nothing but the layers. -/
theorem settled_step {h : Hasher} {l : Int} {rs : RState} (ha : At l rs.storage) (h0 : -1 ≤ l) (chk : Bool)
    (o : Orders) (eng : Engine) (pr : Pricer) (e : Event)
    (hm : Makes e (Node.step chk h eng pr o rs e).2) :
    ∃ n, Settled n (Node.step chk h eng pr o rs e).1.storage := by
  have hn : 0 ≤ rs.storage.next.id := by rw [ha.next]; omega
  cases e with
  | tx t =>
    rcases tx_traced (h := h) ha.inv hn chk o eng pr t with ⟨⟨α, p, h1⟩, h2⟩ | ⟨-, h2⟩
    · rw [h1]
      exact ⟨_, settled_saved (ha.run p).inv o⟩
    · exact absurd hm h2
  | commit =>
    simp only [Node.step, commitLayer, Makes] at hm ⊢
    by_cases hd : rs.storage.dirty = []
    · exact ⟨_, settled_commit ha.inv hd o.commit⟩
    · rw [Svm.Storage.commit_dirty hd] at hm
      cases hm
  | rewind n =>
    simp only [Node.step, rewindTo, Makes] at hm ⊢
    split at hm
    · rename_i hl
      rw [if_pos hl]
      simp only at hm ⊢
      rcases rewind_cases ha.inv n with ⟨h1, h2, -⟩ | ⟨-, h1⟩
      · have h3 := Svm.Storage.inv_step h ha.inv (.rewind n) (show (-2 : Int) ≤ n by omega)
        simp only [Svm.Storage.step] at h3
        rw [Svm.Storage.rewind_ok ha.inv h2 h1] at h3 ⊢
        exact ⟨n, h3, rfl, rfl⟩
      · cases hx : (Svm.Storage.rewind rs.storage n).2 with
        | ok u => exact absurd hx (h1 u)
        | err => rw [hx] at hm; cases hm
        | panic => rw [hx] at hm; cases hm
    · cases hm
  | create | credit | pay | account | layer | uncommitted => exact hm.elim

theorem kept_run' {h : Hasher} {l : Int} {s₁ s₂ : Storage} (hk : Kept l s₁ s₂) {α : Type} (p : Prog α) :
    Kept l s₁ (after h p s₂) := by
  have hf := Prog.run_frame h p s₂
  refine ⟨?_, ?_, ?_⟩
  · show _ < (p.run h s₂).1.next.id
    rw [hf.2]
    exact hk.lt
  · show ((p.run h s₂).1.db.layers.filter _) = _
    rw [hf.1]
    exact hk.layers
  · show ((p.run h s₂).1.db.values.filter _) = _
    rw [hf.1]
    exact hk.values

/-- Old layers are kept by an event that does not go back behind them. -/
theorem kept_event {h : Hasher} {l n : Int} {s₁ : Storage} {rs : RState} (hk : Kept l s₁ rs.storage)
    (ha : At n rs.storage) (h0 : -1 ≤ n) (chk : Bool) (o : Orders) (eng : Engine) (pr : Pricer) (e : Event)
    (he : e.RewindsFrom l) : Kept l s₁ (Node.step chk h eng pr o rs e).1.storage := by
  have hn : 0 ≤ rs.storage.next.id := by rw [ha.next]; omega
  cases e with
  | tx t =>
    rcases tx_traced (h := h) ha.inv hn chk o eng pr t with ⟨⟨α, p, h1⟩, -⟩ | ⟨⟨α, p, h1⟩, -⟩
    · rw [h1]
      have hi := (ha.run (h := h) p).inv
      have h2 := Svm.Storage.kept_step h hi (kept_run' hk p) (.checkpoint o.checkpoint) trivial
      exact Svm.Storage.kept_step h (Svm.Storage.inv_step h hi (.checkpoint o.checkpoint) trivial) h2
        (.commit o.commit) trivial
    · rw [h1]
      exact kept_run' hk p
  | create | credit | pay | account => exact kept_run' hk _
  | commit => exact Svm.Storage.kept_step h ha.inv hk (.commit o.commit) trivial
  | rewind n =>
    simp only [Node.step, rewindTo]
    split
    · exact Svm.Storage.kept_step h ha.inv hk (.rewind n) he
    · exact hk
  | layer => exact hk
  | uncommitted => exact hk

theorem kept_events {h : Hasher} {l n : Int} {s₁ : Storage} {rs : RState} (hk : Kept l s₁ rs.storage)
    (ha : At n rs.storage) (h0 : -1 ≤ n) (chk : Bool) (eng : Engine) (pr : Pricer) (es : List Event)
    (he : ∀ e ∈ es, e.RewindsFrom l) (os : Nat → Orders) :
    Kept l s₁ (Node.run chk h eng pr rs es os).1.storage := by
  induction es generalizing rs os n with
  | nil => exact hk
  | cons e es ih =>
    obtain ⟨h1, h2⟩ := ha.step (h := h) h0 chk (os 0) eng pr e
    exact ih (kept_event hk ha h0 chk (os 0) eng pr e (he e List.mem_cons_self)) h1 h2
      (fun x hx => he x (List.mem_cons_of_mem _ hx)) _

/-- Going back to a settled state. -/
theorem rewind_settled {l : Int} {s₁ s₂ : Storage} (h₁ : Settled l s₁) (hi : Inv s₂) (hd : s₂.dirty = [])
    (hk : Kept l s₁ s₂) : Svm.Storage.rewind s₂ l = (s₁, .ok ()) := by
  obtain ⟨f1, f2⟩ := h₁.inv.filter_all (L := l) (by rw [h₁.next])
  rw [Svm.Storage.rewind_ok hi hd hk.lt, hk.layers, hk.values, f1, f2, ← h₁.next]
  obtain ⟨⟨a, b⟩, d, n⟩ := s₁
  have := h₁.dirty
  simp only at this
  subst this
  rfl

theorem checkGas_right {pr : Pricer} {c₁ c₂ : PriceCache} {t : Addr} {ss : Sections}
    (h1 : ∀ c, codeSection ss = some c → Right pr c₁ t c.code)
    (h2 : ∀ c, codeSection ss = some c → Right pr c₂ t c.code) (func : Str) (gas : GasTank) :
    (checkGasForFunc pr c₁ t ss func gas).2 = (checkGasForFunc pr c₂ t ss func gas).2 := by
  unfold checkGasForFunc
  split
  · rfl
  · split
    · rfl
    · rename_i c hcs
      split
      · rfl
      · split
        · rfl
        · split
          · rfl
          · simp only [priceOf_right (h1 c hcs), priceOf_right (h2 c hcs)]
            split
            · rfl
            · split <;> rfl

/-- The caches that occur make no difference to an event. -/
theorem step_cache {h : Hasher} (hc : NoCollision h) {chk : Bool} {ts : List (Addr × Sections)} {es : List Event}
    (hd : Distinct chk h ts es) {s : Storage} {c₁ c₂ : PriceCache}
    (hs : Stored h (TplOk chk (AtHome chk h ts es)) (fun _ => False) s) {eng : Engine} {pr : Pricer}
    (h1 : Cached pr (fun t c => computeTemplateAddr h c = t ∧ Brought chk ts es c) c₁)
    (h2 : Cached pr (fun t c => computeTemplateAddr h c = t ∧ Brought chk ts es c) c₂) (o : Orders) (e : Event) :
    (Node.step chk h eng pr o ⟨s, c₁⟩ e).1.storage = (Node.step chk h eng pr o ⟨s, c₂⟩ e).1.storage ∧
      (Node.step chk h eng pr o ⟨s, c₁⟩ e).2 = (Node.step chk h eng pr o ⟨s, c₂⟩ e).2 := by
  cases e with
  | tx t =>
    cases t with
    | spawn e m =>
      suffices hx : (spawn chk h o eng pr e m ⟨s, c₁⟩).1.storage = (spawn chk h o eng pr e m ⟨s, c₂⟩).1.storage ∧
          (spawn chk h o eng pr e m ⟨s, c₁⟩).2 = (spawn chk h o eng pr e m ⟨s, c₂⟩).2 by
        refine ⟨hx.1, ?_⟩
        simp only [Node.step, perform, hx.2]
      unfold spawn
      split
      · rename_i sp rest hdec
        simp only [run_out]
        split
        · rename_i ss hl
          have hr : ∀ {cache}, Cached pr (fun t c => computeTemplateAddr h c = t ∧ Brought chk ts es c) cache →
              ∀ c, codeSection ss = some c → Right pr cache sp.templateAddr c.code := by
            intro cache hk c hcs P hP
            obtain ⟨g1, g2⟩ := hs.sections hc hl _ (codeSection_mem hcs) c rfl
            obtain ⟨c', ⟨g3, g4⟩, g5⟩ := hk _ _ hP
            rw [hd c c' g2 g4 (g1.trans g3.symm)]
            exact g5
          split
          · exact ⟨rfl, rfl⟩
          · exact ⟨rfl, rfl⟩
          · rw [checkGas_right (hr h1) (hr h2)]
            split
            · exact ⟨rfl, rfl⟩
            · split <;> exact ⟨rfl, rfl⟩
        · exact ⟨rfl, rfl⟩
      · exact ⟨rfl, rfl⟩
    | _ => exact ⟨rfl, rfl⟩
  | _ => exact ⟨rfl, rfl⟩

/-- Nor to a history. -/
theorem run_cache {h : Hasher} (hc : NoCollision h) {chk : Bool} {ts : List (Addr × Sections)} {es : List Event}
    (hd : Distinct chk h ts es) {eng : Engine} {pr : Pricer} (l : List Event) (hl : ∀ e ∈ l, e ∈ es) {s : Storage}
    {c₁ c₂ : PriceCache} (hs : Stored h (TplOk chk (AtHome chk h ts es)) (fun _ => False) s)
    (h1 : Cached pr (fun t c => computeTemplateAddr h c = t ∧ Brought chk ts es c) c₁)
    (h2 : Cached pr (fun t c => computeTemplateAddr h c = t ∧ Brought chk ts es c) c₂) (os : Nat → Orders) :
    (Node.run chk h eng pr ⟨s, c₁⟩ l os).1.storage = (Node.run chk h eng pr ⟨s, c₂⟩ l os).1.storage ∧
      (Node.run chk h eng pr ⟨s, c₁⟩ l os).2 = (Node.run chk h eng pr ⟨s, c₂⟩ l os).2 := by
  induction l generalizing s c₁ c₂ os with
  | nil => exact ⟨rfl, rfl⟩
  | cons e l ih =>
    obtain ⟨g1, g2⟩ := step_cache hc hd hs (eng := eng) h1 h2 (os 0) e
    have g3 := hs.step (rs := ⟨s, c₁⟩) hc (free_tplOk _ _) eng pr (os 0) e
      (atHome_brings e (hl e List.mem_cons_self)).lays
    have g4 := Cached.step (rs := ⟨s, c₁⟩) (eng := eng) hc hs h1 (os 0) e
    have g5 := Cached.step (rs := ⟨s, c₂⟩) (eng := eng) hc hs h2 (os 0) e
    simp only [Node.run]
    generalize Node.step chk h eng pr (os 0) ⟨s, c₁⟩ e = x at *
    generalize Node.step chk h eng pr (os 0) ⟨s, c₂⟩ e = y at *
    obtain ⟨⟨x1, x2⟩, x3⟩ := x
    obtain ⟨⟨y1, y2⟩, y3⟩ := y
    simp only at g1 g2 g3 g4 g5 ⊢
    subst g1 g2
    obtain ⟨k1, k2⟩ := ih (fun x hx => hl x (List.mem_cons_of_mem _ hx)) g3 g4 g5 fun n => os (n + 1)
    exact ⟨k1, by rw [k2]⟩

/-- A layer was made, or gone back to, by the last event of the history. -/
def JustMade : List Event → List Answer → Prop
  | [e], [a] => Makes e a
  | _ :: e :: es, _ :: a :: as => JustMade (e :: es) (a :: as)
  | _, _ => False

theorem settled_history {h : Hasher} {l : Int} {rs : RState} (ha : At l rs.storage) (h0 : -1 ≤ l) (chk : Bool)
    (eng : Engine) (pr : Pricer) (es : List Event) (os : Nat → Orders)
    (hm : JustMade es (Node.run chk h eng pr rs es os).2) :
    ∃ n, Settled n (Node.run chk h eng pr rs es os).1.storage := by
  induction es generalizing rs os l with
  | nil => exact hm.elim
  | cons e es ih =>
    obtain ⟨h1, h2⟩ := ha.step (h := h) h0 chk (os 0) eng pr e
    cases es with
    | nil =>
      simp only [Node.run, JustMade] at hm ⊢
      exact settled_step ha h0 chk (os 0) eng pr e hm
    | cons e' es =>
      refine ih h1 h2 (fun n => os (n + 1)) ?_
      simp only [Node.run, JustMade] at hm ⊢
      exact hm

theorem twin_start {h : Hasher} {ts : List (Addr × Sections)} {o : Orders} {rs : RState}
    (hs : Node.start h o ts = some rs) : Twin rs.storage rs.storage := by
  obtain ⟨-, rfl⟩ := start_storage hs
  have h0 : Twin Svm.Storage.fresh Svm.Storage.fresh :=
    ⟨⟨_, Svm.Storage.sim_fresh, Svm.Storage.sim_fresh⟩, at_fresh.fp, at_fresh.fp⟩
  have h1 := (h0.run (h := h) (genesisProg ts)).1
  have h2 := (h1.step (h := h) (.checkpoint o.checkpoint) (.checkpoint o.checkpoint) (fun _ => rfl) trivial
    trivial).1
  exact (h2.commit o.commit o.commit).1

theorem Twin.reads {h : Hasher} {s₁ s₂ : Storage} (t : Twin s₁ s₂) (key : Bytes) (layer : Option Int) :
    Svm.Storage.get h s₁ key layer = Svm.Storage.get h s₂ key layer := by
  unfold Svm.Storage.get
  cases layer with
  | none => exact t.get _
  | some l =>
    obtain ⟨a, g1, g2⟩ := t.spec
    have hn := t.next
    unfold Svm.Storage.getByHash
    simp only
    rw [hn]
    split
    · rename_i hl
      rw [g1.inv.queryHistorical, g2.inv.queryHistorical, g1.hist _ _ (by omega), g2.hist _ _ hl]
    · rfl

/-- **C120**: a node was at layer `n`, just made; then anything happened (deployments, spawns, calls, payments,
commits, rewinds, though not behind layer `n`), and there is nothing uncommitted. A rewind to layer `n` succeeds, and
afterwards the node answers to every further history as it would have done without all that happened since, and can
read the same at every layer, whatever the orders of its hash maps. This is so although the prices of templates that
were deployed since are still cached. -/
theorem C120_rewind_undoes {h : Hasher} (hc : NoCollision h) {chk : Bool} {ts : List (Addr × Sections)}
    (hg : GenesisOk h ts) {o : Orders} {rs : RState} (hs : Node.start h o ts = some rs) (eng : Engine) (pr : Pricer)
    (before since further : List Event) (os₁ os₂ os₃ os₄ : Nat → Orders) (o' : Orders) (n : Nat)
    (hd : Distinct chk h ts (before ++ since ++ further))
    (node₁ node₂ : RState) (as₁ as₂ : List Answer)
    (h₁ : Node.run chk h eng pr rs before os₁ = (node₁, as₁)) (hm : JustMade before as₁)
    (hn : layerOf (-1) before as₁ = n) (hb : n < 2 ^ 63)
    (h₂ : Node.run chk h eng pr node₁ since os₂ = (node₂, as₂)) (hr : ∀ l, Event.rewind l ∈ since → n ≤ l)
    (hu : (Node.step chk h eng pr o' node₂ .uncommitted).2 = .flag false) :
    ∃ node₃, Node.step chk h eng pr o' node₂ (.rewind n) = (node₃, .done) ∧
      (Node.run chk h eng pr node₃ further os₃).2 = (Node.run chk h eng pr node₁ further os₄).2 ∧
      ∀ key layer, Svm.Storage.get h (Node.run chk h eng pr node₃ further os₃).1.storage key layer =
        Svm.Storage.get h (Node.run chk h eng pr node₁ further os₄).1.storage key layer := by
  have hsub1 : ∀ e ∈ before, e ∈ before ++ since ++ further := fun e he => by simp [he]
  have hsub2 : ∀ e ∈ since, e ∈ before ++ since ++ further := fun e he => by simp [he]
  have hsub3 : ∀ e ∈ further, e ∈ before ++ since ++ further := fun e he => by simp [he]
  -- the templates and the cache
  obtain ⟨st0, c0⟩ := atHome_start (chk := chk) hc hg (before ++ since ++ further) hs
  have k0 : Cached pr (fun t c => computeTemplateAddr h c = t ∧ Brought chk ts (before ++ since ++ further) c)
      rs.cache := fun t p hp => by rw [c0] at hp; cases hp
  have st1 := Stored.history hc (free_tplOk _ _) eng pr before
    (fun e he => (atHome_brings e (hsub1 e he)).lays) rs st0 os₁
  have k1 := Cached.history (eng := eng) hc before hsub1 rs st0 k0 os₁
  rw [h₁] at st1 k1
  have k2 := Cached.history (eng := eng) hc since hsub2 node₁ st1 k1 os₂
  rw [h₂] at k2
  -- the layers
  obtain ⟨a1, b1⟩ := (at_start hs).history (h := h) (by omega) chk eng pr before os₁
  obtain ⟨m, hset⟩ := settled_history (h := h) (at_start hs) (by omega) chk eng pr before os₁ (by rw [h₁]; exact hm)
  rw [h₁] at a1 b1 hset
  simp only at a1 b1 hset
  rw [hn] at a1 b1
  have hmn : m = n := by
    have e1 := a1.next
    rw [hset.next] at e1
    simp only at e1
    omega
  subst hmn
  obtain ⟨a2, b2⟩ := a1.history (h := h) b1 chk eng pr since os₂
  have kp : Kept n node₁.storage node₁.storage := ⟨by rw [a1.next]; omega, rfl, rfl⟩
  have kp2 := kept_events (h := h) kp a1 b1 chk eng pr since (fun e he => by
    cases e with
    | rewind l => exact Int.ofNat_le.2 (hr l he)
    | _ => trivial) os₂
  rw [h₂] at a2 kp2
  simp only at a2 kp2
  have hdirty : node₂.storage.dirty = [] := by
    have hu' : Svm.Storage.hasUncommittedChanges node₂.storage = false := by
      injection hu
    unfold Svm.Storage.hasUncommittedChanges at hu'
    cases hx : node₂.storage.dirty with
    | nil => rfl
    | cons x xs => rw [hx] at hu'; cases hu'
  have hrw := rewind_settled hset a2.inv hdirty kp2
  have hstep : Node.step chk h eng pr o' node₂ (.rewind n) = (⟨node₁.storage, node₂.cache⟩, .done) := by
    simp only [Node.step, rewindTo, if_pos hb, hrw]
  -- what follows
  have t0 := twin_start hs
  have t1 := (t0.history (h := h) chk eng pr rs.cache before os₁ os₁).1
  have e1 : (⟨rs.storage, rs.cache⟩ : RState) = rs := rfl
  rw [e1, h₁] at t1
  obtain ⟨g1, g2⟩ := run_cache hc hd (eng := eng) further hsub3 st1 k2 k1 os₃
  obtain ⟨t2, g3⟩ := t1.history (h := h) chk eng pr node₁.cache further os₃ os₄
  refine ⟨_, hstep, g2.trans g3, fun key layer => ?_⟩
  rw [g1]
  exact t2.reads key layer

theorem step_commit_done {h : Hasher} {l : Int} {rs : RState} (ha : At l rs.storage) (h0 : -1 ≤ l)
    (hd : rs.storage.dirty = []) (chk : Bool) (o : Orders) (eng : Engine) (pr : Pricer) :
    ∃ rs', Node.step chk h eng pr o rs .commit = (rs', .done) ∧ At (l + 1) rs'.storage ∧ rs'.storage.dirty = [] := by
  refine ⟨⟨(Svm.Storage.commit o.commit rs.storage).1, rs.cache⟩, ?_, ha.commit o.commit hd,
    (settled_commit ha.inv hd o.commit).dirty⟩
  obtain ⟨prev, -, he⟩ := Svm.Storage.commit_ok ha.inv hd o.commit
  have e2 : (Svm.Storage.commit o.commit rs.storage).2 =
      .ok (rs.storage.next.id, prev ^^^ rs.storage.next.xorFingerprint) := by rw [he]
  have hn : 0 ≤ rs.storage.next.id := by rw [ha.next]; omega
  simp only [Node.step, commitLayer, e2, hn, if_true]

/-- Non-vacuity of C119 and C120: a node that makes layers 0, 1 and 2, and can go back to layer 0. -/
example : ∃ h rs, NoCollision h ∧ Node.start h ⟨.id, .id⟩ [] = some rs ∧ GenesisOk h [] ∧
    Distinct true h [] [.commit, .commit, .commit] ∧
    ∃ node₁ node₂, Node.run true h idleEngine flatPricer rs [.commit] (fun _ => ⟨.id, .id⟩) = (node₁, [.done]) ∧
      JustMade [.commit] [.done] ∧ layerOf (-1) [.commit] [.done] = (0 : Nat) ∧
      Node.run true h idleEngine flatPricer node₁ [.commit, .commit] (fun _ => ⟨.id, .id⟩) =
        (node₂, [.done, .done]) ∧
      (Node.step true h idleEngine flatPricer ⟨.id, .id⟩ node₂ .uncommitted).2 = .flag false ∧
      (Node.step true h idleEngine flatPricer ⟨.id, .id⟩ node₂ .layer).2 = .layer 2 (fingerprintOf 2) := by
  obtain ⟨h, hc⟩ := exists_noCollision
  have hs : ∃ rs, Node.start h ⟨.id, .id⟩ [] = some rs := ⟨_, rfl⟩
  obtain ⟨rs, hs⟩ := hs
  have a0 := at_start hs
  have d0 : rs.storage.dirty = [] := by
    obtain ⟨-, rfl⟩ := start_storage hs
    exact (settled_saved (at_fresh.run (h := h) (genesisProg [])).inv ⟨.id, .id⟩).dirty
  obtain ⟨r1, e1, a1, d1⟩ := step_commit_done (h := h) a0 (by omega) d0 true ⟨.id, .id⟩ idleEngine flatPricer
  obtain ⟨r2, e2, a2, d2⟩ := step_commit_done (h := h) a1 (by omega) d1 true ⟨.id, .id⟩ idleEngine flatPricer
  obtain ⟨r3, e3, a3, d3⟩ := step_commit_done (h := h) a2 (by omega) d2 true ⟨.id, .id⟩ idleEngine flatPricer
  refine ⟨h, rs, hc, hs, ⟨nofun, nofun⟩, ?_, r1, r3, ?_, rfl, rfl, ?_, ?_, ?_⟩
  · rintro c c' (⟨p, hp, -⟩ | ⟨e, m, ss, rest, he, -⟩)
    · cases hp
    · simp at he
  · simp only [Node.run, e1]
  · simp only [Node.run, e2, e3]
  · simp only [Node.step, Svm.Storage.hasUncommittedChanges, d3]
    rfl
  · exact currentLayer_at a3

end Svm.Runtime
