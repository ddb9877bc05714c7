import Verif.Sdk.Access

/-!
# The mock of the storage (C111)

`crates/wasm/sdk-storage-mock/src/lib.rs`, with the accessors of storage structs that are generated for tests
(`#[template_mock]`, `sdk-macros/src/struct/storage.rs:386-400`). Addresses are their 20 bytes here, instead of
pointers into the memory of the test.
-/

namespace Svm.Sdk

open Svm.Codec Svm.Account Svm.Runtime
open Svm.Abi (Width)
open Svm.Layout (FixedLayout RawVar)
open Svm.Storage (Hasher Storage)

/-! ## Model -/

/-- `enum Var`, sdk-storage-mock/src/lib.rs:20-25. -/
inductive MockVar where
  | i32 (v : U32)
  | i64 (v : U64)
  | blob (bs : Bytes)
  deriving DecidableEq, Repr

/-- `struct InnerStorage`, lib.rs:27-29: a hash map. -/
abbrev Mock := U32 → Option MockVar

/-- `InnerStorage::new`, lib.rs:32-36, and `clear`, lib.rs:110-112. -/
def Mock.empty : Mock := fun _ => none

/-- `set_var`, lib.rs:79-81. -/
def Mock.put (m : Mock) (id : U32) (v : MockVar) : Mock := fun k => if k = id then some v else m k

/-- `get32`, lib.rs:38-45, and `var`, 72-77. `none` is `unreachable!`. -/
def Mock.get32 (m : Mock) (id : U32) : Option U32 :=
  match m id with
  | none => some 0
  | some (.i32 v) => some v
  | some _ => none

/-- `get64`, lib.rs:47-54. -/
def Mock.get64 (m : Mock) (id : U32) : Option U64 :=
  match m id with
  | none => some 0
  | some (.i64 v) => some v
  | some _ => none

/-- `load160` and `load_vec`, lib.rs:68-70 and 90-104: the bytes that are copied. -/
def Mock.load160 (m : Mock) (id : U32) : Option Bytes :=
  match m id with
  | none => some (List.replicate 20 0)
  | some (.blob bs) => some bs
  | some _ => none

/-- The body of a setter (see `setCell`) on the mock: `set32`, `set64` and `store160`, lib.rs:56-66, 83-88. -/
def Mock.setCell (m : Mock) : (t : PrimTy) → U32 → t.Val → Mock
  | .bool, id, b => m.put id (.i32 (if b then 1 else 0))
  | .int .w64 s, id, x => m.put id (.i64 (castInt .w64 s 64 x))
  | .int w s, id, x => m.put id (.i32 (castInt w s 32 x))
  | .amount, id, x => m.put id (.i64 x)
  | .address, id, bs => m.put id (.blob bs)

/-- The body of a getter (see `getCell`) on the mock. `none` is a panic. -/
def Mock.getCell (m : Mock) : (t : PrimTy) → U32 → Option t.Val
  | .bool, id => (m.get32 id).bind fun v => if v = 0 then some false else if v = 1 then some true else none
  | .int .w64 _, id => (m.get64 id).map fun v => v.setWidth _
  | .int _ _, id => (m.get32 id).map fun v => v.setWidth _
  | .amount, id => m.get64 id
  | .address, id => m.load160 id

/-- The setter of a field in a test, where `usize` has 64 bits. `none` is a panic. -/
def Mock.set (chk : Bool) (m : Mock) (v : Var) (index : U32) (x : v.ty.Val) : Option Mock :=
  (v.cellId chk (index.setWidth 64)).map fun id => m.setCell v.ty id x

/-- The getter of a field in a test. -/
def Mock.get (chk : Bool) (m : Mock) (v : Var) (index : U32) : Option v.ty.Val :=
  (v.cellId chk (index.setWidth 64)).bind fun id => m.getCell v.ty id

/-! ## Spec: programs that use a storage struct -/

/-- A program that uses the fields of its storage struct; what it does may depend on what it has read. -/
inductive Script where
  | done
  | set (v : Var) (index : U32) (x : v.ty.Val) (next : Script)
  | get (v : Var) (index : U32) (next : v.ty.Val → Script)

/-- A value that a program has read. -/
abbrev Seen := (t : PrimTy) × t.Val

/-- What a program reads in a test. `none` is a panic. -/
def Script.test (chk : Bool) : Script → Mock → Option (List Seen)
  | .done, _ => some []
  | .set v index x next, m => (m.set chk v index x).bind fun m' => next.test chk m'
  | .get v index next, m => (m.get chk v index).bind fun x => ((next x).test chk m).map (⟨v.ty, x⟩ :: ·)

/-- The surroundings of an access: the environment of the call, the memory, and a place in the memory for
an address that is to be stored. -/
structure Place where
  env : Env
  mem : Bytes
  ptr : U32

/-- The account is that of the template, and the memory is large enough. -/
structure Place.Good (acc : Acc) (p : Place) : Prop where
  storage : p.env.storage = acc
  mode : p.env.mode = .fullAccess
  memorySet : p.env.memorySet = true
  room : p.env.usedMemory + 40 ≤ p.mem.length
  small : p.mem.length < 2 ^ 32
  ptr : p.ptr.toNat + 20 ≤ p.mem.length

/-- A value as the compiled program has it: addresses are pointers. -/
def rawVal : (t : PrimTy) → t.Val → U32 → t.Raw
  | .bool, b, _ => b
  | .int _ _, x, _ => x
  | .amount, x, _ => x
  | .address, _, ptr => ptr

/-- The memory with the value: addresses are put where the pointer points. -/
def putVal : (t : PrimTy) → t.Val → U32 → Bytes → Bytes
  | .address, bs, ptr, mem => writeMem mem ptr.toNat bs
  | _, _, _, mem => mem

/-- The setter of a field in a contract that runs. -/
def setAt (chk chk' : Bool) (p : Place) (v : Var) (index : U32) (x : v.ty.Val) :
    Prog (Env × Except Str (Unit × Bytes)) :=
  (v.setter chk' index (rawVal v.ty x p.ptr) (putVal v.ty x p.ptr p.mem)).run chk p.env

/-- The getter of a field in a contract that runs. -/
def getAt (chk chk' : Bool) (p : Place) (v : Var) (index : U32) : Prog (Env × Except Str (v.ty.Raw × Bytes)) :=
  (v.getter chk' index p.mem).run chk p.env

/-- What a program reads on the chain, with the `n`-th access in the surroundings `places n`; addresses count
as the bytes that the getter's pointer points to when it returns. `none`: an access has trapped or panicked. -/
def Script.chain (h : Hasher) (chk chk' : Bool) (places : Nat → Place) :
    Script → Nat → Storage → Option (List Seen)
  | .done, _, _ => some []
  | .set v index x next, n, s =>
    match out h (setAt chk chk' (places n) v index x) s with
    | .ok (_, .ok _) => next.chain h chk chk' places (n + 1) (after h (setAt chk chk' (places n) v index x) s)
    | _ => none
  | .get v index next, n, s =>
    match out h (getAt chk chk' (places n) v index) s with
    | .ok (_, .ok (y, mem')) =>
      ((next (denote v.ty y mem')).chain h chk chk' places (n + 1)
        (after h (getAt chk chk' (places n) v index) s)).map (⟨v.ty, denote v.ty y mem'⟩ :: ·)
    | _ => none

/-- Addresses have 20 bytes. -/
def ValOk : (t : PrimTy) → t.Val → Prop
  | .address, bs => bs.length = 20
  | _, _ => True

/-- An access as the struct allows it: any index for arrays, none (0) for other fields. -/
def Access (vars : List Var) (v : Var) (index : U32) : Prop := v ∈ vars ∧ (v.length = none → index = 0)

/-- A program that uses only the fields of this struct. -/
def Script.Over (vars : List Var) : Script → Prop
  | .done => True
  | .set v index x next => Access vars v index ∧ ValOk v.ty x ∧ next.Over vars
  | .get v index next => Access vars v index ∧ ∀ x, ValOk v.ty x → (next x).Over vars

/-! ## Lemmas -/

theorem cellId_64 (chk : Bool) (v : Var) (index : U32) :
    v.cellId chk (index.setWidth 64) = v.cellId chk index := by
  have : (index.setWidth 64).setWidth 32 = index := by
    apply BitVec.eq_of_toNat_eq
    have := index.isLt
    simp only [BitVec.toNat_setWidth]
    omega
  unfold Var.cellId cellOffset
  rw [this, BitVec.setWidth_eq]

theorem setWidth_castInt {w : Width} {s : Bool} {n : Nat} (x : BitVec (8 * w.bytes)) (h : 8 * w.bytes ≤ n) :
    (castInt w s n x).setWidth (8 * w.bytes) = x := by
  apply BitVec.eq_of_toNat_eq
  rw [BitVec.toNat_setWidth]
  have := congrArg BitVec.toNat (castInt_back (s := s) x h)
  rw [BitVec.toNat_ofNat, Nat.pow_mul] at this
  simpa [Nat.pow_mul] using this

theorem Mock.roundtrip (m : Mock) (t : PrimTy) (id : U32) (x : t.Val) :
    (m.setCell t id x).getCell t id = some x := by
  match t, x with
  | .bool, b => cases b <;> simp [Mock.setCell, Mock.getCell, Mock.get32, Mock.put]
  | .int .w8 s, x =>
    simp only [Mock.setCell, Mock.getCell, Mock.get32, Mock.put, if_true, Option.map_some]
    exact congrArg some (setWidth_castInt x (by decide))
  | .int .w16 s, x =>
    simp only [Mock.setCell, Mock.getCell, Mock.get32, Mock.put, if_true, Option.map_some]
    exact congrArg some (setWidth_castInt x (by decide))
  | .int .w32 s, x =>
    simp only [Mock.setCell, Mock.getCell, Mock.get32, Mock.put, if_true, Option.map_some]
    exact congrArg some (setWidth_castInt x (by decide))
  | .int .w64 s, x =>
    simp only [Mock.setCell, Mock.getCell, Mock.get64, Mock.put, if_true, Option.map_some]
    exact congrArg some (setWidth_castInt x (by decide))
  | .amount, x => simp [Mock.setCell, Mock.getCell, Mock.get64, Mock.put]
  | .address, x => simp [Mock.setCell, Mock.getCell, Mock.load160, Mock.put]

theorem Mock.setCell_ne (m : Mock) (t : PrimTy) {id id' : U32} (hne : id' ≠ id) (x : t.Val) :
    m.setCell t id x id' = m id' := by
  match t, x with
  | .bool, _ => simp [Mock.setCell, Mock.put, hne]
  | .int .w8 _, _ => simp [Mock.setCell, Mock.put, hne]
  | .int .w16 _, _ => simp [Mock.setCell, Mock.put, hne]
  | .int .w32 _, _ => simp [Mock.setCell, Mock.put, hne]
  | .int .w64 _, _ => simp [Mock.setCell, Mock.put, hne]
  | .amount, _ => simp [Mock.setCell, Mock.put, hne]
  | .address, _ => simp [Mock.setCell, Mock.put, hne]

theorem Mock.getCell_congr {m m' : Mock} (t : PrimTy) {id : U32} (h : m id = m' id) :
    m.getCell t id = m'.getCell t id := by
  match t with
  | .bool => simp only [Mock.getCell, Mock.get32, h]
  | .int .w8 _ => simp only [Mock.getCell, Mock.get32, h]
  | .int .w16 _ => simp only [Mock.getCell, Mock.get32, h]
  | .int .w32 _ => simp only [Mock.getCell, Mock.get32, h]
  | .int .w64 _ => simp only [Mock.getCell, Mock.get64, h]
  | .amount => simp only [Mock.getCell, Mock.get64, h]
  | .address => simp only [Mock.getCell, Mock.load160, h]

theorem Mock.getCell_empty (t : PrimTy) (id : U32) : Mock.empty.getCell t id = some (zeroVal t) := by
  match t with
  | .bool => rfl
  | .int .w8 _ => rfl
  | .int .w16 _ => rfl
  | .int .w32 _ => rfl
  | .int .w64 _ => rfl
  | .amount => rfl
  | .address => rfl

theorem Place.Good.setRoom {acc : Acc} {p : Place} (hp : p.Good acc) {t : PrimTy} {x : t.Val}
    (hx : ValOk t x) : SetRoom p.env (putVal t x p.ptr p.mem) t (rawVal t x p.ptr) ∧
      denote t (rawVal t x p.ptr) (putVal t x p.ptr p.mem) = x := by
  match t, x, hx with
  | .bool, _, _ => exact ⟨trivial, rfl⟩
  | .int _ _, _, _ => exact ⟨trivial, rfl⟩
  | .amount, _, _ => exact ⟨trivial, rfl⟩
  | .address, bs, hx =>
    have hx : bs.length = 20 := hx
    have hr := hp.ptr
    refine ⟨⟨hp.memorySet, ?_⟩, ?_⟩
    · simp only [rawVal, putVal, writeMem]
      simp
      omega
    · show ((writeMem p.mem p.ptr.toNat bs).drop p.ptr.toNat).take 20 = bs
      have := drop_take_writeMem p.mem bs p.ptr.toNat (by omega)
      rwa [hx] at this

theorem Place.Good.getRoom {acc : Acc} {p : Place} (hp : p.Good acc) (t : PrimTy) : GetRoom p.env p.mem t := by
  cases t with
  | address => exact ⟨hp.memorySet, hp.room, hp.small⟩
  | _ => trivial

/-- What getters return on the chain is what they return in the test. -/
def Agree (h : Hasher) (s : Storage) (chk chk' : Bool) (acc : Acc) (vars : List Var) (m : Mock) : Prop :=
  ∀ k i v, CellOf vars k i v → ∀ id, v.cellId chk' (BitVec.ofNat 32 i) = some id → ∀ p : Place, p.Good acc →
    ∃ env' mem' y, out h (getAt chk chk' p v (BitVec.ofNat 32 i)) s = .ok (env', .ok (y, mem')) ∧
      m.getCell v.ty id = some (denote v.ty y mem') ∧ ValOk v.ty (denote v.ty y mem')

theorem Deployed.place {vars : List Var} {env env' : Env} (hd : Deployed vars env)
    (he : env'.storage = env.storage) : Deployed vars env' :=
  ⟨hd.made, hd.small, by rw [he]; exact hd.layout⟩

theorem agree_zero {h : Hasher} (hc : NoCollision h) {s : Storage} (hr : Reach h s) (chk chk' : Bool)
    {env : Env} {vars : List Var} (hd : Deployed vars env) (hu : Untouched h s env.storage.addr) :
    Agree h s chk chk' env.storage vars Mock.empty := by
  intro k i v hcell id hid p hp
  obtain ⟨env', mem', y, e1, e2⟩ := C77_zero hc hr chk chk' (env := p.env) hp.mode (hd.place hp.storage) hcell
    (by rw [hp.storage]; exact hu) p.mem (hp.getRoom v.ty)
  refine ⟨env', mem', y, e1, by rw [Mock.getCell_empty, e2], ?_⟩
  rw [e2]
  cases v.ty with
  | address => simp [ValOk, zeroVal]
  | _ => trivial

theorem agree_set {h : Hasher} (hc : NoCollision h) {s : Storage} (hr : Reach h s) (chk chk' : Bool)
    {env : Env} {vars : List Var} (hd : Deployed vars env) {m : Mock}
    (ha : Agree h s chk chk' env.storage vars m) {k i : Nat} {v : Var} (hcell : CellOf vars k i v) {id : U32}
    (hid : v.cellId chk' (BitVec.ofNat 32 i) = some id) {p : Place} (hp : p.Good env.storage) {x : v.ty.Val}
    (hx : ValOk v.ty x) :
    (∃ e r, out h (setAt chk chk' p v (BitVec.ofNat 32 i) x) s = .ok (e, .ok r)) ∧
    Agree h (after h (setAt chk chk' p v (BitVec.ofNat 32 i) x) s) chk chk' env.storage vars
      (m.setCell v.ty id x) := by
  obtain ⟨hmt, hl, hdis⟩ := hd.matches
  obtain ⟨id', raw, g1, g2, -, -, g3⟩ := hmt.1 chk' k i v hcell
  rw [hid] at g1
  cases g1
  obtain ⟨hroom, hden⟩ := hp.setRoom hx
  have hpos := byteCount_pos v.ty
  have hlen := cellBytes_length hroom
  have hst := hp.storage
  obtain ⟨w', e1, e2⟩ := set_get_bytes hc hr chk (acc := p.env.storage) (by rw [hst]; exact hl)
    (by rw [hst]; exact g2) (by omega)
    (cellBytes v.ty (rawVal v.ty x p.ptr) (putVal v.ty x p.ptr p.mem)) (by omega)
  have e3 := setCell_eval hp.mode hroom e1
  rw [g3] at e2
  have hset : setAt chk chk' p v (BitVec.ofNat 32 i) x =
      (setCell v.ty id (rawVal v.ty x p.ptr) (putVal v.ty x p.ptr p.mem)).run chk p.env := by
    unfold setAt
    rw [setter_eq hid]
  refine ⟨⟨p.env, _, by rw [hset, out_eval hc, e3]⟩, ?_⟩
  intro k' i' v' hcell' id' hid' q hq
  by_cases heq : (k, i) = (k', i')
  · obtain ⟨rfl, rfl⟩ := Prod.mk.inj heq
    obtain rfl : v = v' := Option.some.inj (hcell.1.symm.trans hcell'.1)
    rw [hid] at hid'
    cases hid'
    obtain ⟨v1, v2⟩ := cellBytes_val hroom
    obtain ⟨env', mem', y, e4, e5, -⟩ := getCell_eval (env := q.env) hq.mode (hq.getRoom v.ty) v1
      (by simp; omega) (by rw [hq.storage, ← hst]; exact e2)
    refine ⟨env', mem', y, ?_, ?_, ?_⟩
    · unfold getAt
      rw [getter_eq hid, hset, out_eval hc, view_after hc, e3, e4]
    · rw [Mock.roundtrip, e5, v2, hden]
    · rw [e5, v2, hden]
      exact hx
  · obtain ⟨env', mem', y, f1, f2, f3⟩ := ha k' i' v' hcell' id' hid' q hq
    obtain ⟨a, b, d1, d2, hab, -⟩ := hdis chk' k i k' i' v v' hcell hcell' heq
    rw [hid] at d1
    rw [hid'] at d2
    cases d1
    cases d2
    refine ⟨env', mem', y, ?_, ?_, f3⟩
    · rw [← f1, hset]
      unfold getAt
      rw [getter_eq hid']
      exact cell_isolation hc hr chk p.env q.env (by rw [hst]; exact hl) (hq.storage.trans hst.symm) (Ne.symm hab)
        _ _ _ _ _
    · rw [Mock.getCell_congr v'.ty (m.setCell_ne v.ty (Ne.symm hab) x), f2]

theorem getAt_view {chk chk' : Bool} (p : Place) (v : Var) (index : U32) (w : View) :
    ((getAt chk chk' p v index).eval w).1 = w := by
  unfold getAt Var.getter
  cases v.cellId chk' index with
  | none => rfl
  | some id =>
    exact (same_getCell (acc := p.env.storage) (w' := w)
      (fun buf => ⟨getVar_view _ _ _ _ _, getVar_view _ _ _ _ _, rfl⟩) v.ty p.env rfl p.mem).1

theorem agree_congr {h : Hasher} (hc : NoCollision h) {s s' : Storage} (hv : view h s' = view h s)
    {chk chk' : Bool} {acc : Acc} {vars : List Var} {m : Mock} (ha : Agree h s chk chk' acc vars m) :
    Agree h s' chk chk' acc vars m := by
  intro k i v hcell id hid p hp
  obtain ⟨env', mem', y, f1, f2, f3⟩ := ha k i v hcell id hid p hp
  refine ⟨env', mem', y, ?_, f2, f3⟩
  rw [← f1, out_eval hc, out_eval hc, hv]

theorem access_cases {vars : List Var} {v : Var} {index : U32} (ha : Access vars v index) :
    (∃ k, CellOf vars k index.toNat v) ∨ ∃ n, v.length = some n ∧ n.toNat ≤ index.toNat := by
  obtain ⟨hv, h0⟩ := ha
  obtain ⟨k, hk⟩ := List.mem_iff_getElem?.1 hv
  cases hl : v.length with
  | none =>
    refine .inl ⟨k, hk, ?_⟩
    rw [h0 hl]
    simp [Var.count, hl]
  | some n =>
    by_cases hn : n.toNat ≤ index.toNat
    · exact .inr ⟨n, rfl, hn⟩
    · refine .inl ⟨k, hk, ?_⟩
      simp only [Var.count, hl]
      omega

theorem cellId_chk {vars : List Var} {env : Env} (hd : Deployed vars env) (chk chk' : Bool) {k i : Nat}
    {v : Var} (hcell : CellOf vars k i v) :
    ∃ id, v.cellId chk (BitVec.ofNat 32 i) = some id ∧ v.cellId chk' (BitVec.ofNat 32 i) = some id := by
  obtain ⟨⟨c, named, fields, hs⟩, hb, -⟩ := hd
  have hsz : ∀ u ∈ vars, u.byteCount = u.ty.byteCount := by
    intro u hu
    obtain ⟨k, hk⟩ := List.mem_iff_getElem?.1 hu
    unfold storageVars at hs
    split at hs
    · exact (loop_vars hs k u hk).2.2
    · cases hs
  have := byteTotal_le hsz
  have hp := placed_of_fits hs (by omega)
  exact ⟨_, (hp.cellId chk hcell).2, (hp.cellId chk' hcell).2⟩

theorem cellId_none (chk : Bool) {v : Var} {n index : U32} (hn : v.length = some n)
    (hi : n.toNat ≤ index.toNat) :
    v.cellId chk index = none := by
  unfold Var.cellId cellOffset
  rw [hn]
  show (if n ≤ index.setWidth 32 then none else _) = none
  rw [if_pos (by rw [BitVec.setWidth_eq, BitVec.le_def]; exact hi)]

/-! ## C111 -/

theorem agree_run {h : Hasher} (hc : NoCollision h) (chk chk' chkM : Bool) {env : Env} {vars : List Var}
    (hd : Deployed vars env) {places : Nat → Place} (hp : ∀ n, (places n).Good env.storage) :
    ∀ (sc : Script), sc.Over vars → ∀ (s : Storage), Reach h s → ∀ (m : Mock),
      Agree h s chk chk' env.storage vars m → ∀ n, sc.chain h chk chk' places n s = sc.test chkM m := by
  intro sc
  induction sc with
  | done => intro _ s _ m _ n; rfl
  | set v index x next ih =>
    intro ho s hr m ha n
    obtain ⟨hacc, hx, hover⟩ := ho
    have hidx : BitVec.ofNat 32 index.toNat = index := by simp
    rcases access_cases hacc with ⟨k, hcell⟩ | ⟨l, hl, hle⟩
    · obtain ⟨id, hid', hidM⟩ := cellId_chk hd chk' chkM hcell
      obtain ⟨⟨e, r, e1⟩, e2⟩ := agree_set hc hr chk chk' hd ha hcell hid' (hp n) hx
      rw [hidx] at e1 e2 hid' hidM
      have hr' : Reach h (after h (setAt chk chk' (places n) v index x) s) :=
        .prog _ (safe_guest chk _ _) hr
      show (match out h (setAt chk chk' (places n) v index x) s with
        | .ok (_, .ok _) => next.chain h chk chk' places (n + 1)
            (after h (setAt chk chk' (places n) v index x) s)
        | _ => none) = (m.set chkM v index x).bind fun m' => next.test chkM m'
      rw [e1]
      show next.chain h chk chk' places (n + 1) (after h (setAt chk chk' (places n) v index x) s) = _
      unfold Mock.set
      rw [cellId_64, hidM]
      exact ih hover _ hr' _ e2 (n + 1)
    · have hnone := cellId_none chk' hl hle
      have hnoneM := cellId_none chkM hl hle
      have e1 : out h (setAt chk chk' (places n) v index x) s = .ok ((places n).env, .error unreachableMsg) := by
        unfold setAt Var.setter
        rw [hnone]
        rfl
      show (match out h (setAt chk chk' (places n) v index x) s with
        | .ok (_, .ok _) => next.chain h chk chk' places (n + 1)
            (after h (setAt chk chk' (places n) v index x) s)
        | _ => none) = (m.set chkM v index x).bind fun m' => next.test chkM m'
      rw [e1]
      unfold Mock.set
      rw [cellId_64, hnoneM]
      rfl
  | get v index next ih =>
    intro ho s hr m ha n
    obtain ⟨hacc, hover⟩ := ho
    have hidx : BitVec.ofNat 32 index.toNat = index := by simp
    rcases access_cases hacc with ⟨k, hcell⟩ | ⟨l, hl, hle⟩
    · obtain ⟨id, hid', hidM⟩ := cellId_chk hd chk' chkM hcell
      obtain ⟨env', mem', y, f1, f2, f3⟩ := ha k _ v hcell id hid' (places n) (hp n)
      rw [hidx] at f1 hid' hidM
      have hr' : Reach h (after h (getAt chk chk' (places n) v index) s) :=
        .prog _ (safe_guest chk _ _) hr
      have hv : view h (after h (getAt chk chk' (places n) v index) s) = view h s := by
        rw [view_after hc, getAt_view]
      rw [Script.chain, Script.test, f1]
      have hm : m.get chkM v index = some (denote v.ty y mem') := by
        unfold Mock.get
        rw [cellId_64, hidM]
        exact f2
      rw [hm]
      show ((next (denote v.ty y mem')).chain h chk chk' places (n + 1)
        (after h (getAt chk chk' (places n) v index) s)).map _ = ((next (denote v.ty y mem')).test chkM m).map _
      rw [ih _ (hover _ f3) _ hr' m (agree_congr hc hv ha) (n + 1)]
    · have hnone := cellId_none chk' hl hle
      have hnoneM := cellId_none chkM hl hle
      have e1 : out h (getAt chk chk' (places n) v index) s = .ok ((places n).env, .error unreachableMsg) := by
        unfold getAt Var.getter
        rw [hnone]
        rfl
      rw [Script.chain, Script.test, e1]
      unfold Mock.get
      rw [cellId_64, hnoneM]
      rfl

/-- **C111.** A program that uses the fields of its storage struct reads the same values, and stops at the
same point, in a test with a cleared mock and in an account whose variables were never written: for every
struct of less than 4 GiB, every such program, all memories with room for the addresses, and all build
modes of the node, the contract, and the test. -/
theorem C111_test_is_chain {h : Hasher} (hc : NoCollision h) {s : Storage} (hr : Reach h s)
    (chk chk' chkM : Bool) {env : Env} {vars : List Var} (hd : Deployed vars env)
    (hu : Untouched h s env.storage.addr) {places : Nat → Place} (hp : ∀ n, (places n).Good env.storage)
    (sc : Script) (ho : sc.Over vars) :
    sc.chain h chk chk' places 0 s = sc.test chkM Mock.empty :=
  agree_run hc chk chk' chkM hd hp sc ho s hr _ (agree_zero hc hr chk chk' hd hu) 0

/-- **C111, beside the accessors.** For the functions of the trait `Storage` themselves this does not hold: the
mock returns from a 32 bit variable what was set, the chain only what fits the declared size; a variable that
was set with 32 bits and is read with 64 makes the mock panic, while the chain returns it. -/
theorem C111_raw_differs {h : Hasher} (hc : NoCollision h) {s : Storage} (hr : Reach h s)
    (chk : Bool) (env : Env) (hm : env.mode = .fullAccess) (hl : LayoutOk env.storage.layout)
    {id : U32} {v : RawVar} (hg : env.storage.layout.get id = some v)
    (hpos : 0 < v.byteSize.toNat) (hle : v.byteSize.toNat ≤ 4) (x : U32) (mem mem' : Bytes) (m : Mock) :
    (m.put id (.i32 x)).get32 id = some x ∧ (m.put id (.i32 x)).get64 id = none ∧
    (out h (host chk env mem' (.get32 id)) (after h (host chk env mem (.set32 id x)) s) =
      .ok (.i32 x, mem', env) ↔ x.toNat < 256 ^ v.byteSize.toNat) ∧
    ∃ y, out h (host chk env mem' (.get64 id)) (after h (host chk env mem (.set32 id x)) s) =
      .ok (.i64 y, mem', env) := by
  refine ⟨by simp [Mock.get32, Mock.put], by simp [Mock.get64, Mock.put], ?_, ?_⟩
  · rw [(C19_roundtrip32 hc hr chk env hm hl hg hpos hle x mem mem').2]
    constructor
    · intro e
      injection e with e
      have e := congrArg Prod.fst e
      injection e with e
      have e := congrArg BitVec.toNat e
      have hx := x.isLt
      have hlt : x.toNat % 256 ^ v.byteSize.toNat < 256 ^ v.byteSize.toNat :=
        Nat.mod_lt _ (Nat.pow_pos (by decide))
      have hle2 := Nat.mod_le x.toNat (256 ^ v.byteSize.toNat)
      rw [BitVec.toNat_ofNat, Nat.mod_eq_of_lt (by omega)] at e
      omega
    · intro e
      rw [Nat.mod_eq_of_lt e]
      simp
  · have hlen : v.byteSize.toNat ≤ (natLE 4 x.toNat).length := by rw [natLE_length]; exact hle
    obtain ⟨w', e1, e2⟩ := set_get_bytes hc hr chk hl hg hpos (natLE 4 x.toNat) hlen
    have e3 := set32_eval hm e1 mem
    have e4 := e2 (List.replicate 8 0) (by simp; omega)
    exact ⟨_, by rw [out_eval hc, view_after hc, e3, get64_eval hm e4 mem']⟩

/-- The account of C77 with a memory of 100 bytes. -/
def demoPlace : Place := ⟨demoStructEnv, List.replicate 100 7, 60⟩

/-- A program that stores an address in a cell whose index is the counter, reads it, and then uses an index
behind the end. -/
def demoScript : Script :=
  .set ⟨4, 68, .int .w16 true, 2, none⟩ 0 (2 : BitVec 16) <| .get ⟨4, 68, .int .w16 true, 2, none⟩ 0 fun n =>
    .set ⟨1, 8, .address, 20, some 3⟩ (BitVec.setWidth 32 (n : BitVec 16)) (List.replicate 20 9) <|
      .get ⟨1, 8, .address, 20, some 3⟩ 2 fun _ => .get ⟨1, 8, .address, 20, some 3⟩ 1 fun _ => .done

/-- Non-vacuity of C111. -/
example : demoPlace.Good demoStructEnv.storage ∧ demoScript.Over demoStruct ∧
    (∃ h, NoCollision h ∧ Reach h Svm.Storage.fresh ∧ Untouched h Svm.Storage.fresh demoStructEnv.storage.addr) ∧
    demoScript.test true Mock.empty = some [⟨.int .w16 true, (2 : BitVec 16)⟩,
      ⟨.address, List.replicate 20 9⟩, ⟨.address, List.replicate 20 0⟩] := by
  refine ⟨⟨rfl, rfl, rfl, by simp [demoPlace, demoStructEnv, Env.new], by simp [demoPlace],
    by simp [demoPlace]⟩, ?_, ?_, rfl⟩
  · refine ⟨⟨by decide, fun _ => rfl⟩, trivial, ⟨by decide, fun _ => rfl⟩, fun x _ => ?_⟩
    exact ⟨⟨by decide, fun e => by cases e⟩, by simp [ValOk], ⟨by decide, fun e => by cases e⟩,
      fun _ _ => ⟨⟨by decide, fun e => by cases e⟩, fun _ _ => trivial⟩⟩
  · obtain ⟨h, hc⟩ := exists_noCollision
    exact ⟨h, hc, Reach.fresh, fun i => rfl⟩

end Svm.Sdk
