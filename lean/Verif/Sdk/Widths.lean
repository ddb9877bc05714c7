import Verif.Sdk.Access

/-!
# Documented panics of the host functions of the storage (C151)

The comments in `crates/host/runtime/src/vmcalls/storage.rs` say for each function when it panics: if the
variable does not exist, if it has the wrong number of bytes, or if it cannot hold the value. The model of
the functions is `Runtime.host`; here are the comments as a specification, and what the functions do
instead.
-/

namespace Svm.Sdk.Widths

open Svm.Codec Svm.Account Svm.Runtime
open Svm.Layout (FixedLayout RawVar)
open Svm.Storage (Hasher Storage)

/-! ## Spec -/

/-- The host functions of the storage, storage.rs:10, 23, 36, 49, 62 and 73. -/
inductive Fn where
  | get32 | set32 | get64 | set64 | store160 | load160
  deriving DecidableEq, Repr

/-- The function that is called. -/
def fnOf : HostCall → Option Fn
  | .get32 _ => some .get32
  | .set32 _ _ => some .set32
  | .get64 _ => some .get64
  | .set64 _ _ => some .set64
  | .store160 _ _ => some .store160
  | .load160 _ _ => some .load160
  | _ => none

/-- The variable that is accessed. -/
def varOf : HostCall → Option U32
  | .get32 id | .set32 id _ | .get64 id | .set64 id _ | .store160 _ id | .load160 id _ => some id
  | _ => none

/-- The calls which the comments refuse for a variable of `n` bytes, storage.rs:7-9, 19-22, 33-35, 45-48,
59-61 and 70-72. -/
def Refused (n : Nat) : HostCall → Prop
  | .get32 _ => 32 < 8 * n
  | .set32 _ x => 32 < 8 * n ∨ 2 ^ (8 * n) ≤ x.toNat
  | .get64 _ => 64 < 8 * n
  | .set64 _ x => 64 < 8 * n ∨ 2 ^ (8 * n) ≤ x.toNat
  | .store160 _ _ | .load160 _ _ => n ≠ 20
  | _ => False

/-- The calls which the comments refuse with a layout. -/
def Documented (l : FixedLayout) (c : HostCall) : Prop :=
  ∃ id, varOf c = some id ∧ (l.get id = none ∨ ∃ v, l.get id = some v ∧ Refused v.byteSize.toNat c)

/-- The pointers of `store160` and `load160` point to 20 bytes of the memory. -/
def Room (env : Env) (mem : Bytes) : HostCall → Prop
  | .store160 ptr _ | .load160 _ ptr => env.memorySet = true ∧ ptr.toNat + 20 ≤ mem.length
  | _ => True

/-- A function keeps to its comment: for every reachable state, build mode, account with a layout from a
template, memory and arguments, it panics for exactly the variables and values for which its comment says
so. Variables have at least one byte. -/
def Keeps (f : Fn) : Prop :=
  ∀ (h : Hasher), NoCollision h → ∀ s, Reach h s → ∀ (chk : Bool) (env : Env), env.mode = .fullAccess →
    LayoutOk env.storage.layout → (∀ id v, env.storage.layout.get id = some v → 0 < v.byteSize.toNat) →
    ∀ (mem : Bytes) (c : HostCall), fnOf c = some f → Room env mem c →
      (out h (host chk env mem c) s = .panic ↔ Documented env.storage.layout c)

/-- C151: all of them do. -/
def C151_claim : Prop := ∀ f, Keeps f

/-- The largest variable that each function really accepts. -/
def Fn.limit : Fn → Nat
  | .get32 | .get64 | .set64 => 8
  | .set32 => 4
  | .store160 | .load160 => 20

/-! ## Lemmas -/

theorem getVar_panic {chk : Bool} {acc : Acc} {id : U32} {buf : Bytes} {w : View}
    (h : acc.layout.get id = none ∨ ∃ v, acc.layout.get id = some v ∧ buf.length < v.byteSize.toNat) :
    (getVar chk acc id buf).eval w = (w, .panic) := by
  unfold getVar
  rcases h with h | ⟨v, h, hn⟩
  · rw [h]; rfl
  · rw [h, Prog.bind_eq, Prog.eval_bind_ok (Prog.eval_ofOption_some _ _), if_pos hn]
    rfl

theorem setVarBytes_panic {chk : Bool} {acc : Acc} {id : U32} {value : Bytes} {w : View}
    (h : acc.layout.get id = none ∨ ∃ v, acc.layout.get id = some v ∧ value.length < v.byteSize.toNat) :
    (setVarBytes chk acc id value).eval w = (w, .panic) := by
  unfold setVarBytes
  rcases h with h | ⟨v, h, hn⟩
  · rw [h]; rfl
  · rw [h, Prog.bind_eq, Prog.eval_bind_ok (Prog.eval_ofOption_some _ _), if_pos hn]
    rfl

theorem unwrap_panic {α : Type} {p : Prog α} {w w' : View} (h : p.eval w = (w', .panic)) :
    p.unwrap.eval w = (w', .panic) := by
  rw [Prog.eval_unwrap, h]

theorem getVarI64_panic {chk : Bool} {acc : Acc} {id : U32} {w : View}
    (h : (getVar chk acc id (List.replicate 8 0)).eval w = (w, .panic)) :
    (getVarI64 chk acc id).eval w = (w, .panic) := by
  unfold getVarI64
  rw [Prog.bind_eq, Prog.eval_bind_panic h]

theorem store160_eval {chk : Bool} {env : Env} (hm : env.mode = .fullAccess) {ptr id : U32} {mem : Bytes}
    (hroom : Room env mem (.store160 ptr id)) {w w' : View}
    (h : (setVarBytes chk env.storage id ((mem.drop ptr.toNat).take 20)).eval w = (w', .ok ())) :
    (host chk env mem (.store160 ptr id)).eval w = (w', .ok (.unit, mem, env)) := by
  show ((store160 chk env mem ptr id).bind _).eval w = _
  have e : (store160 chk env mem ptr id).eval w = (w', .ok ()) := by
    unfold store160
    have hr : readMem env mem ptr.toNat 20 = some ((mem.drop ptr.toNat).take 20) := by
      unfold readMem
      rw [if_pos (by simp [hroom.1, hroom.2])]
    rw [Prog.bind_eq, hr, Prog.eval_bind_ok (Prog.eval_ofOption_some _ _),
      if_pos (by simp [Env.canWrite, hm])]
    exact unwrap_ok.2 h
  rw [Prog.eval_bind_ok e]
  rfl

theorem load160_eval {chk : Bool} {env : Env} (hm : env.mode = .fullAccess) {ptr id : U32} {mem : Bytes}
    (hroom : Room env mem (.load160 id ptr)) {w : View} {bs : Bytes}
    (h : (getVar chk env.storage id (List.replicate 20 0)).eval w = (w, .ok bs)) :
    (host chk env mem (.load160 id ptr)).eval w = (w, .ok (.unit, writeMem mem ptr.toNat bs, env)) := by
  show ((load160 chk env mem id ptr).bind _).eval w = _
  have e : (load160 chk env mem id ptr).eval w = (w, .ok (writeMem mem ptr.toNat bs)) := by
    unfold load160
    have hr : readMem env mem ptr.toNat 20 = some ((mem.drop ptr.toNat).take 20) := by
      unfold readMem
      rw [if_pos (by simp [hroom.1, hroom.2])]
    rw [if_pos (by simp [Env.canRead, hm]), Prog.bind_eq, hr,
      Prog.eval_bind_ok (Prog.eval_ofOption_some _ _)]
    have hg' : (getVarArray chk 20 env.storage id).eval w = (w, .ok bs) := h
    rw [Prog.bind_eq, Prog.eval_bind_ok (unwrap_ok.2 hg')]
    rfl
  rw [Prog.eval_bind_ok e]
  rfl

/-- Calls with a variable that is missing or too large. -/
theorem host_panic {chk : Bool} {env : Env} {mem : Bytes} {c : HostCall} {f : Fn} (hm : env.mode = .fullAccess)
    (hf : fnOf c = some f) {id : U32} (hid : varOf c = some id) (hroom : Room env mem c) {w : View}
    (h : env.storage.layout.get id = none ∨
      ∃ v, env.storage.layout.get id = some v ∧ f.limit < v.byteSize.toNat) :
    (host chk env mem c).eval w = (w, .panic) := by
  have hrd : env.canRead = true := by simp [Env.canRead, hm]
  have hwr : env.canWrite = true := by simp [Env.canWrite, hm]
  cases c with
  | get32 i =>
    cases hf; cases hid
    refine Prog.eval_bind_panic ?_
    unfold get32
    rw [if_pos hrd, Prog.bind_eq]
    exact Prog.eval_bind_panic (unwrap_panic (getVarI64_panic (getVar_panic (by simpa [Fn.limit] using h))))
  | get64 i =>
    cases hf; cases hid
    refine Prog.eval_bind_panic ?_
    unfold get64
    rw [if_pos hrd]
    exact unwrap_panic (getVarI64_panic (getVar_panic (by simpa [Fn.limit] using h)))
  | set32 i x =>
    cases hf; cases hid
    refine Prog.eval_bind_panic ?_
    unfold set32 setVarI32
    rw [if_pos hwr]
    exact unwrap_panic (setVarBytes_panic (by rw [natLE_length]; exact h))
  | set64 i x =>
    cases hf; cases hid
    refine Prog.eval_bind_panic ?_
    unfold set64 setVarI64
    rw [if_pos hwr]
    exact unwrap_panic (setVarBytes_panic (by rw [natLE_length]; exact h))
  | store160 ptr i =>
    cases hf; cases hid
    refine Prog.eval_bind_panic ?_
    unfold store160
    have hr : readMem env mem ptr.toNat 20 = some ((mem.drop ptr.toNat).take 20) := by
      unfold readMem
      rw [if_pos (by simp [hroom.1, hroom.2])]
    have hl : ((mem.drop ptr.toNat).take 20).length = 20 := by
      have := hroom.2
      simp; omega
    rw [Prog.bind_eq, hr, Prog.eval_bind_ok (Prog.eval_ofOption_some _ _), if_pos hwr]
    exact unwrap_panic (setVarBytes_panic (by rw [hl]; exact h))
  | load160 i ptr =>
    cases hf; cases hid
    refine Prog.eval_bind_panic ?_
    unfold load160
    have hr : readMem env mem ptr.toNat 20 = some ((mem.drop ptr.toNat).take 20) := by
      unfold readMem
      rw [if_pos (by simp [hroom.1, hroom.2])]
    rw [if_pos hrd, Prog.bind_eq, hr, Prog.eval_bind_ok (Prog.eval_ofOption_some _ _), Prog.bind_eq]
    exact Prog.eval_bind_panic (unwrap_panic (getVar_panic (by simpa [Fn.limit] using h)))
  | _ => cases hf

/-! ## What the functions do -/

/-- What a successful call leaves: the result, the memory, and the bytes of the variable, from its bytes
before. -/
def effect (mem bs : Bytes) : HostCall → HostVal × Bytes × Bytes
  | .get32 _ => (.i32 (BitVec.ofNat 32 (leNat bs)), mem, bs)
  | .set32 _ x => (.unit, mem, (natLE 4 x.toNat).take bs.length)
  | .get64 _ => (.i64 (BitVec.ofNat 64 (leNat bs)), mem, bs)
  | .set64 _ x => (.unit, mem, (natLE 8 x.toNat).take bs.length)
  | .store160 ptr _ => (.unit, mem, ((mem.drop ptr.toNat).take 20).take bs.length)
  | .load160 _ ptr => (.unit, writeMem mem ptr.toNat (bs ++ List.replicate (20 - bs.length) 0), bs)
  | _ => (.unit, mem, bs)

section
variable {h : Hasher} (hc : NoCollision h) {s : Storage} (hr : Reach h s) (chk : Bool) {env : Env}
  (hm : env.mode = .fullAccess) (hl : LayoutOk env.storage.layout) {mem : Bytes} {c : HostCall} {f : Fn}
  (hf : fnOf c = some f) {id : U32} (hid : varOf c = some id) (hroom : Room env mem c)
include hc hr hm hl hf hid hroom

omit hr hl in
/-- A missing variable is refused, and so is a variable larger than `Fn.limit`; nothing changes. -/
theorem C151_refuses (h0 : env.storage.layout.get id = none ∨
      ∃ v, env.storage.layout.get id = some v ∧ f.limit < v.byteSize.toNat) :
    out h (host chk env mem c) s = .panic ∧ view h (after h (host chk env mem c) s) = view h s := by
  rw [out_eval hc, view_after hc, host_panic hm hf hid hroom h0]
  exact ⟨rfl, rfl⟩

/-- All other calls succeed, whatever the comment says: values are cut to the bytes of the variable, and
variables are cut to, or filled up with zeros to, what the function returns. -/
theorem C151_accepts {v : RawVar} (hg : env.storage.layout.get id = some v)
    (hpos : 0 < v.byteSize.toNat) (hle : v.byteSize.toNat ≤ f.limit) :
    ∃ bs, out h (getVarVec chk env.storage id) s = .ok bs ∧ bs.length = v.byteSize.toNat ∧
      out h (host chk env mem c) s = .ok ((effect mem bs c).1, (effect mem bs c).2.1, env) ∧
      out h (getVarVec chk env.storage id) (after h (host chk env mem c) s) = .ok (effect mem bs c).2.2 := by
  have hw := (hr.view hc).segOk
  have hbd := hl.bound id v hg
  have hread : ∀ n, v.byteSize.toNat ≤ n → (getVar chk env.storage id (List.replicate n 0)).eval (view h s) =
      (view h s, .ok (cells (view h s) env.storage.addr v.offset.toNat v.byteSize.toNat ++
        List.replicate (n - v.byteSize.toNat) 0)) := by
    intro n hn
    rw [getVar_eval chk hw hg hpos hbd _ (by simpa using hn), List.drop_replicate]
  have hvec : ∀ w, (getVarVec chk env.storage id).eval w =
      (getVar chk env.storage id (List.replicate v.byteSize.toNat 0)).eval w := by
    intro w
    unfold getVarVec
    rw [hg, Prog.bind_eq, Prog.eval_bind_ok (Prog.eval_ofOption_some _ _)]
  have hlen : (cells (view h s) env.storage.addr v.offset.toNat v.byteSize.toNat).length =
      v.byteSize.toNat := by simp [cells]
  have h0 := hread _ le_rfl
  rw [Nat.sub_self, List.replicate_zero, List.append_nil] at h0
  refine ⟨cells (view h s) env.storage.addr v.offset.toNat v.byteSize.toNat, ?_, hlen, ?_⟩
  · rw [out_eval hc, hvec, h0]
  have hwrite : ∀ value : Bytes, v.byteSize.toNat ≤ value.length →
      ∃ w', (setVarBytes chk env.storage id value).eval (view h s) = (w', .ok ()) ∧
        ((getVarVec chk env.storage id).eval w').2 = .ok (value.take v.byteSize.toNat) := by
    intro value hv
    obtain ⟨w', e1, e2⟩ := set_get_bytes hc hr chk hl hg hpos value hv
    refine ⟨w', e1, ?_⟩
    rw [hvec, e2 _ (by simp), List.drop_eq_nil_of_le (by simp), List.append_nil]
  generalize hbs : cells (view h s) env.storage.addr v.offset.toNat v.byteSize.toNat = bs at *
  rw [out_eval hc, out_eval hc, view_after hc]
  cases c with
  | get32 i =>
    cases hf; cases hid
    rw [get32_eval hm (hread 8 hle) mem, leNat_pad]
    refine ⟨?_, by rw [hvec, h0]; rfl⟩
    have : (BitVec.ofNat 64 (leNat bs)).setWidth 32 = BitVec.ofNat 32 (leNat bs) := by
      apply BitVec.eq_of_toNat_eq
      simp only [BitVec.toNat_setWidth, BitVec.toNat_ofNat]
      exact Nat.mod_mod_of_dvd _ (by decide)
    rw [this]
    rfl
  | get64 i =>
    cases hf; cases hid
    rw [get64_eval hm (hread 8 hle) mem, leNat_pad]
    exact ⟨rfl, by rw [hvec, h0]; rfl⟩
  | set32 i x =>
    cases hf; cases hid
    obtain ⟨w', e1, e2⟩ := hwrite (natLE 4 x.toNat) (by rw [natLE_length]; exact hle)
    rw [set32_eval hm e1 mem]
    refine ⟨rfl, ?_⟩
    rw [e2, ← hlen]
    rfl
  | set64 i x =>
    cases hf; cases hid
    obtain ⟨w', e1, e2⟩ := hwrite (natLE 8 x.toNat) (by rw [natLE_length]; exact hle)
    rw [set64_eval hm e1 mem]
    refine ⟨rfl, ?_⟩
    rw [e2, ← hlen]
    rfl
  | store160 ptr i =>
    cases hf; cases hid
    have h2 := hroom.2
    have h20 : Fn.store160.limit = 20 := rfl
    obtain ⟨w', e1, e2⟩ := hwrite ((mem.drop ptr.toNat).take 20) (by simp; omega)
    rw [store160_eval hm hroom e1]
    refine ⟨rfl, ?_⟩
    rw [e2, ← hlen]
    rfl
  | load160 i ptr =>
    cases hf; cases hid
    rw [load160_eval hm hroom (hread 20 hle)]
    refine ⟨?_, by rw [hvec, h0]; rfl⟩
    rw [← hlen]
    rfl
  | _ => cases hf

/-- So a function panics exactly if the variable is missing or larger than `Fn.limit`. -/
theorem C151_panics (hpos : ∀ v, env.storage.layout.get id = some v → 0 < v.byteSize.toNat) :
    out h (host chk env mem c) s = .panic ↔ env.storage.layout.get id = none ∨
      ∃ v, env.storage.layout.get id = some v ∧ f.limit < v.byteSize.toNat := by
  constructor
  · intro hp
    cases hg : env.storage.layout.get id with
    | none => exact .inl rfl
    | some v =>
      refine .inr ⟨v, rfl, ?_⟩
      by_contra hn
      obtain ⟨bs, -, -, h3, -⟩ := C151_accepts hc hr chk hm hl hf hid hroom hg (hpos v hg) (by omega)
      rw [hp] at h3
      cases h3
  · intro h0
    exact (C151_refuses hc chk hm hf hid hroom h0).1

end

/-! ## Which comments hold -/

theorem varOf_of {c : HostCall} {f : Fn} (hf : fnOf c = some f) : ∃ id, varOf c = some id := by
  cases c <;> first | exact ⟨_, rfl⟩ | cases hf

/-- Whatever a function refuses, its comment refuses: no panic is undocumented. -/
theorem C151_documented_partial {h : Hasher} (hc : NoCollision h) {s : Storage} (hr : Reach h s) (chk : Bool)
    {env : Env} (hm : env.mode = .fullAccess) (hl : LayoutOk env.storage.layout)
    (hpos : ∀ id v, env.storage.layout.get id = some v → 0 < v.byteSize.toNat) {mem : Bytes} {c : HostCall}
    {f : Fn} (hf : fnOf c = some f) (hroom : Room env mem c) (hp : out h (host chk env mem c) s = .panic) :
    Documented env.storage.layout c := by
  obtain ⟨id, hid⟩ := varOf_of hf
  refine ⟨id, hid, ?_⟩
  rcases (C151_panics hc hr chk hm hl hf hid hroom (hpos id)).1 hp with h0 | ⟨v, h0, h1⟩
  · exact .inl h0
  refine .inr ⟨v, h0, ?_⟩
  cases c with
  | get32 i | set32 i x | get64 i | set64 i x | store160 ptr i | load160 i ptr =>
    cases hf
    simp only [Fn.limit, Refused] at *
    omega
  | _ => cases hf

/-- A layout with one variable, of `n` bytes. -/
def single (n : U32) : FixedLayout := { first := some 0, vars := [⟨0, 0, n⟩] }

theorem single_get {n : U32} {id : U32} {v : RawVar} (h : (single n).get id = some v) :
    id = 0 ∧ v = ⟨0, 0, n⟩ := by
  obtain ⟨first, i, h1, h2, h3, h4⟩ := Svm.Layout.get_some h
  cases h1
  obtain ⟨hi, -⟩ := List.getElem?_eq_some_iff.1 h4
  have hi : i = 0 := Nat.lt_one_iff.1 hi
  subst hi
  refine ⟨?_, (Option.some.inj h4).symm⟩
  apply BitVec.eq_of_toNat_eq
  have : (0 : U32).toNat = 0 := rfl
  omega

theorem single_ok (n : U32) : LayoutOk (single n) := by
  constructor
  · intro id v h
    obtain ⟨-, rfl⟩ := single_get h
    simpa using n.isLt
  · intro id id' v v' h h' hne
    exact absurd ((single_get h).1.trans (single_get h').1.symm) hne

/-- An account with this layout, running with all rights and a memory. -/
def singleEnv (n : U32) : Env :=
  { demoEnv with storage := { demoEnv.storage with layout := single n } }

/-- A call that its comment refuses and that succeeds disproves `Keeps`. -/
theorem not_keeps {f : Fn} {n : U32} (hpos : 0 < n.toNat) (hle : n.toNat ≤ f.limit) {c : HostCall}
    (hf : fnOf c = some f) (hid : varOf c = some 0) (hroom : Room (singleEnv n) demoMem c)
    (href : Refused n.toNat c) : ¬ Keeps f := by
  intro hk
  obtain ⟨h, hc⟩ := exists_noCollision
  have hg : (singleEnv n).storage.layout.get 0 = some ⟨0, 0, n⟩ := by rfl
  have hl : LayoutOk (singleEnv n).storage.layout := single_ok n
  have h1 := (hk h hc _ (reach_demo h 10 5) true (singleEnv n) rfl hl
    (fun id v hv => by rw [(single_get hv).2]; exact hpos) demoMem c hf hroom).2
    ⟨0, hid, .inr ⟨_, hg, href⟩⟩
  obtain ⟨bs, -, -, h3, -⟩ := C151_accepts hc (reach_demo h 10 5) true (env := singleEnv n) rfl hl hf hid
    hroom hg hpos hle
  rw [h1] at h3
  cases h3

/-- Only the comment of `get64` holds. -/
theorem C151_which (f : Fn) : Keeps f ↔ f = .get64 := by
  constructor
  · intro hk
    cases f with
    | get64 => rfl
    | get32 => exact absurd hk (not_keeps (n := 8) (c := .get32 0) (by decide) (by decide) rfl rfl trivial
        (by simp [Refused]))
    | set32 => exact absurd hk (not_keeps (n := 1) (c := .set32 0 256) (by decide) (by decide) rfl rfl
        trivial (by simp [Refused]))
    | set64 => exact absurd hk (not_keeps (n := 1) (c := .set64 0 256) (by decide) (by decide) rfl rfl
        trivial (by simp [Refused]))
    | store160 => exact absurd hk (not_keeps (n := 1) (c := .store160 0 0) (by decide) (by decide) rfl rfl
        ⟨rfl, by decide⟩ (by simp [Refused]))
    | load160 => exact absurd hk (not_keeps (n := 1) (c := .load160 0 0) (by decide) (by decide) rfl rfl
        ⟨rfl, by decide⟩ (by simp [Refused]))
  · rintro rfl h hc s hr chk env hm hl hpos mem c hf hroom
    refine ⟨C151_documented_partial hc hr chk hm hl hpos hf hroom, ?_⟩
    rintro ⟨id, hid, h0⟩
    refine (C151_panics hc hr chk hm hl hf hid hroom (hpos id)).2 ?_
    rcases h0 with h0 | ⟨v, h0, h1⟩
    · exact .inl h0
    refine .inr ⟨v, h0, ?_⟩
    cases c with
    | get64 i => simp only [Fn.limit, Refused] at *; omega
    | _ => cases hf

/-- The claim is false. -/
theorem C151_claim_false : ¬ C151_claim := fun hc => by
  have := (C151_which .get32).1 (hc .get32)
  cases this

/-- Non-vacuity of `C151_accepts`: a variable of one byte and `set32` with 256, which it cannot hold. -/
example : ∃ h, NoCollision h ∧ Reach h (demo h 10 5) ∧ LayoutOk (singleEnv 1).storage.layout ∧
    Documented (singleEnv 1).storage.layout (.set32 0 256) ∧
    out h (host true (singleEnv 1) demoMem (.set32 0 256)) (demo h 10 5) = .ok (.unit, demoMem, singleEnv 1) := by
  obtain ⟨h, hc⟩ := exists_noCollision
  refine ⟨h, hc, reach_demo h _ _, single_ok 1, ⟨0, rfl, .inr ⟨⟨0, 0, 1⟩, rfl, by simp [Refused]⟩⟩, ?_⟩
  obtain ⟨bs, -, -, h3, -⟩ := C151_accepts hc (reach_demo h 10 5) true (env := singleEnv 1) rfl (single_ok 1)
    (mem := demoMem) (c := .set32 0 256) rfl rfl trivial (v := ⟨0, 0, 1⟩) rfl (by decide) (by decide)
  exact h3

/-- Non-vacuity of `C151_refuses`: a variable of 5 bytes and `set32`. -/
example : Fn.set32.limit < (5 : U32).toNat ∧ (singleEnv 5).storage.layout.get 0 = some ⟨0, 0, 5⟩ := by
  decide

end Svm.Sdk.Widths
