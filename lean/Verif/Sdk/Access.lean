import Verif.Sdk.Storage
import Verif.Runtime.Host

/-!
# Getters and setters of storage structs on the host (C77)

The functions that the macro generates (`crates/wasm/sdk-macros/src/struct/storage.rs:147-392`), through
`crates/wasm/sdk-storage/src/lib.rs` and `crates/wasm/sdk-storage-ffi/src/ext.rs`, run with the host
functions of the runtime. They are pieces of Wasm programs, so they are `Guest`s: `mem` is the memory when
they start.
-/

namespace Svm.Sdk

open Svm.Codec Svm.Account Svm.Runtime
open Svm.Abi (Width)
open Svm.Layout (FixedLayout RawVar)
open Svm.Storage (Hasher Storage)

/-! ## Model -/

/-- Values of the Rust types; `Address` is a pointer, sdk-types/src/blob.rs:9-12. -/
@[reducible] def PrimTy.Raw : PrimTy → Type
  | .bool => Bool
  | .int w _ => BitVec (8 * w.bytes)
  | .amount => U64
  | .address => U32

/-- `value as u32` and `value as u64` of an integer. -/
def castInt (w : Width) (signed : Bool) (n : Nat) (x : BitVec (8 * w.bytes)) : BitVec n :=
  if signed then x.signExtend n else x.setWidth n

/-- The trap of `core::panic!` and `unreachable!` in Wasm. -/
def unreachableMsg : Codec.Str := ⟨ascii "unreachable".toList, by decide⟩

/-- The body of a setter: storage.rs:294-341, lib.rs:57-64, 72-76, 88-93, 101-105, and
ext.rs:22-42. -/
def setCell : (t : PrimTy) → U32 → t.Raw → Bytes → Guest Unit
  | .bool, id, b, mem => .call mem (.set32 id (if b then 1 else 0)) fun _ mem => .ret () mem
  | .int .w64 s, id, x, mem => .call mem (.set64 id (castInt .w64 s 64 x)) fun _ mem => .ret () mem
  | .int w s, id, x, mem => .call mem (.set32 id (castInt w s 32 x)) fun _ mem => .ret () mem
  | .amount, id, x, mem => .call mem (.set64 id x) fun _ mem => .ret () mem
  | .address, id, ptr, mem => .call mem (.store160 ptr id) fun _ mem => .ret () mem

/-- The body of a getter: storage.rs:155-203, lib.rs:47-55, 66-70, 78-86, 95-99, and ext.rs:22-42. The
last cases of the matches on results do not arise. -/
def getCell : (t : PrimTy) → U32 → Bytes → Guest t.Raw
  | .bool, id, mem => .call mem (.get32 id) fun
    | .i32 v, mem => if v = 0 then .ret false mem else if v = 1 then .ret true mem else .trap unreachableMsg
    | _, _ => .trap unreachableMsg
  | .int .w64 _, id, mem => .call mem (.get64 id) fun
    | .i64 v, mem => .ret (v.setWidth _) mem
    | _, _ => .trap unreachableMsg
  | .int _ _, id, mem => .call mem (.get32 id) fun
    | .i32 v, mem => .ret (v.setWidth _) mem
    | _, _ => .trap unreachableMsg
  | .amount, id, mem => .call mem (.get64 id) fun
    | .i64 v, mem => .ret v mem
    | _, _ => .trap unreachableMsg
  | .address, id, mem => .call mem (.staticAlloc 20) fun
    | .i32 ptr, mem => .call mem (.load160 id ptr) fun _ mem => .ret ptr mem
    | _, _ => .trap unreachableMsg

/-- The setter of a field, storage.rs:280-392; fields that are no arrays ignore the index. `chk` are the
checks of the contract. -/
def Var.setter (chk : Bool) (v : Var) (index : U32) (x : v.ty.Raw) (mem : Bytes) : Guest Unit :=
  match v.cellId chk index with
  | none => .trap unreachableMsg
  | some id => setCell v.ty id x mem

/-- The getter of a field, storage.rs:147-278. -/
def Var.getter (chk : Bool) (v : Var) (index : U32) (mem : Bytes) : Guest v.ty.Raw :=
  match v.cellId chk index with
  | none => .trap unreachableMsg
  | some id => getCell v.ty id mem

/-! ## Spec -/

/-- What a value means in a memory: addresses are the bytes they point to. -/
@[reducible] def PrimTy.Val : PrimTy → Type
  | .bool => Bool
  | .int w _ => BitVec (8 * w.bytes)
  | .amount => U64
  | .address => Bytes

/-- See `PrimTy.Val`. -/
def denote : (t : PrimTy) → t.Raw → Bytes → t.Val
  | .bool, b, _ => b
  | .int _ _, x, _ => x
  | .amount, x, _ => x
  | .address, ptr, mem => (mem.drop ptr.toNat).take 20

/-- There is room for what a setter reads: 20 bytes at the pointer of an address. -/
def SetRoom (env : Env) (mem : Bytes) : (t : PrimTy) → t.Raw → Prop
  | .address, ptr => env.memorySet = true ∧ ptr.toNat + 20 ≤ mem.length
  | _, _ => True

/-- There is room for what a getter writes: 20 bytes reserved, and 20 behind them. -/
def GetRoom (env : Env) (mem : Bytes) : PrimTy → Prop
  | .address => env.memorySet = true ∧ env.usedMemory + 40 ≤ mem.length ∧ mem.length < 2 ^ 32
  | _ => True

/-! ## Lemmas -/

/-- Any sufficiently large buffer reads back what was written. -/
theorem set_get_bytes {h : Hasher} (hc : NoCollision h) {s : Storage} (hr : Reach h s) (chk : Bool)
    {acc : Acc} (hl : LayoutOk acc.layout) {id : U32} {v : RawVar} (hg : acc.layout.get id = some v)
    (hpos : 0 < v.byteSize.toNat) (value : Bytes) (hv : v.byteSize.toNat ≤ value.length) :
    ∃ w', (setVarBytes chk acc id value).eval (view h s) = (w', .ok ()) ∧
      ∀ buf : Bytes, v.byteSize.toNat ≤ buf.length → (getVar chk acc id buf).eval w' =
        (w', .ok (value.take v.byteSize.toNat ++ buf.drop v.byteSize.toNat)) := by
  have h1 := (C15_read_after_write hc hr chk hl hg hpos value (List.replicate v.byteSize.toNat 0) hv
    (by simp)).1
  rw [out_eval hc] at h1
  refine ⟨((setVarBytes chk acc id value).eval (view h s)).1, Prod.ext rfl h1, ?_⟩
  intro buf hb
  have h2 := (C15_read_after_write hc hr chk hl hg hpos value buf hv hb).2
  rw [out_eval hc, view_after hc] at h2
  exact Prod.ext (getVar_view _ _ _ _ _) h2

theorem set32_eval {chk : Bool} {env : Env} (hm : env.mode = .fullAccess) {id x : U32} {w w' : View}
    (h : (setVarBytes chk env.storage id (natLE 4 x.toNat)).eval w = (w', .ok ())) (mem : Bytes) :
    (host chk env mem (.set32 id x)).eval w = (w', .ok (.unit, mem, env)) := by
  show ((set32 chk env id x).bind _).eval w = _
  unfold set32 setVarI32
  rw [if_pos (by simp [Env.canWrite, hm]), Prog.eval_bind_ok (unwrap_ok.2 h)]
  rfl

theorem set64_eval {chk : Bool} {env : Env} (hm : env.mode = .fullAccess) {id : U32} {x : U64}
    {w w' : View} (h : (setVarBytes chk env.storage id (natLE 8 x.toNat)).eval w = (w', .ok ()))
    (mem : Bytes) : (host chk env mem (.set64 id x)).eval w = (w', .ok (.unit, mem, env)) := by
  show ((set64 chk env id x).bind _).eval w = _
  unfold set64 setVarI64
  rw [if_pos (by simp [Env.canWrite, hm]), Prog.eval_bind_ok (unwrap_ok.2 h)]
  rfl

theorem get32_eval {chk : Bool} {env : Env} (hm : env.mode = .fullAccess) {id : U32} {bs : Bytes}
    {w w' : View} (h : (getVar chk env.storage id (List.replicate 8 0)).eval w = (w', .ok bs))
    (mem : Bytes) : (host chk env mem (.get32 id)).eval w =
      (w', .ok (.i32 ((BitVec.ofNat 64 (leNat bs)).setWidth 32), mem, env)) := by
  show ((get32 chk env id).bind _).eval w = _
  have e : (get32 chk env id).eval w = (w', .ok ((BitVec.ofNat 64 (leNat bs)).setWidth 32)) := by
    unfold get32
    rw [if_pos (by simp [Env.canRead, hm]), Prog.bind_eq]
    have : (getVarI64 chk env.storage id).eval w = (w', .ok (BitVec.ofNat 64 (leNat bs))) := by
      unfold getVarI64
      rw [Prog.bind_eq, Prog.eval_bind_ok h]
      rfl
    rw [Prog.eval_bind_ok (unwrap_ok.2 this)]
    rfl
  rw [Prog.eval_bind_ok e]
  rfl

theorem get64_eval {chk : Bool} {env : Env} (hm : env.mode = .fullAccess) {id : U32} {bs : Bytes}
    {w w' : View} (h : (getVar chk env.storage id (List.replicate 8 0)).eval w = (w', .ok bs))
    (mem : Bytes) : (host chk env mem (.get64 id)).eval w =
      (w', .ok (.i64 (BitVec.ofNat 64 (leNat bs)), mem, env)) := by
  show ((get64 chk env id).bind _).eval w = _
  have e : (get64 chk env id).eval w = (w', .ok (BitVec.ofNat 64 (leNat bs))) := by
    unfold get64
    rw [if_pos (by simp [Env.canRead, hm])]
    have : (getVarI64 chk env.storage id).eval w = (w', .ok (BitVec.ofNat 64 (leNat bs))) := by
      unfold getVarI64
      rw [Prog.bind_eq, Prog.eval_bind_ok h]
      rfl
    exact unwrap_ok.2 this
  rw [Prog.eval_bind_ok e]
  rfl

theorem run_call {α : Type} {chk : Bool} {env env' : Env} {mem mem' : Bytes} {c : HostCall}
    {k : HostVal → Bytes → Guest α} {w w' : View} {r : HostVal}
    (h : (host chk env mem c).eval w = (w', .ok (r, mem', env'))) :
    ((Guest.call mem c k).run chk env).eval w = ((k r mem').run chk env').eval w' := by
  show ((host chk env mem c).bind _).eval w = _
  rw [Prog.eval_bind_ok h]

/-- The bytes that a setter writes. -/
def cellBytes : (t : PrimTy) → t.Raw → Bytes → Bytes
  | .bool, b, _ => natLE 4 (if b then (1 : U32) else 0).toNat
  | .int .w64 s, x, _ => natLE 8 (castInt .w64 s 64 x).toNat
  | .int w s, x, _ => natLE 4 (castInt w s 32 x).toNat
  | .amount, x, _ => natLE 8 x.toNat
  | .address, ptr, mem => (mem.drop ptr.toNat).take 20

theorem cellBytes_length {t : PrimTy} {x : t.Raw} {env : Env} {mem : Bytes} (hroom : SetRoom env mem t x) :
    t.byteCount ≤ (cellBytes t x mem).length := by
  match t, x, hroom with
  | .bool, b, _ => simp [cellBytes, natLE_length, PrimTy.byteCount]
  | .int .w8 s, x, _ => simp [cellBytes, natLE_length, PrimTy.byteCount, Width.bytes]
  | .int .w16 s, x, _ => simp [cellBytes, natLE_length, PrimTy.byteCount, Width.bytes]
  | .int .w32 s, x, _ => simp [cellBytes, natLE_length, PrimTy.byteCount, Width.bytes]
  | .int .w64 s, x, _ => simp [cellBytes, natLE_length, PrimTy.byteCount, Width.bytes]
  | .amount, x, _ => simp [cellBytes, natLE_length, PrimTy.byteCount]
  | .address, ptr, ⟨_, h⟩ => simp [cellBytes, PrimTy.byteCount]; omega

theorem setCell_eval {chk : Bool} {env : Env} (hm : env.mode = .fullAccess) {id : U32} {t : PrimTy}
    {x : t.Raw} {mem : Bytes} (hroom : SetRoom env mem t x) {w w' : View}
    (h : (setVarBytes chk env.storage id (cellBytes t x mem)).eval w = (w', .ok ())) :
    ((setCell t id x mem).run chk env).eval w = (w', .ok (env, .ok ((), mem))) := by
  match t, x, hroom with
  | .bool, b, _ => exact run_call (set32_eval hm h mem)
  | .int .w8 s, x, _ => exact run_call (set32_eval hm h mem)
  | .int .w16 s, x, _ => exact run_call (set32_eval hm h mem)
  | .int .w32 s, x, _ => exact run_call (set32_eval hm h mem)
  | .int .w64 s, x, _ => exact run_call (set64_eval hm h mem)
  | .amount, x, _ => exact run_call (set64_eval hm h mem)
  | .address, ptr, ⟨h1, h2⟩ =>
    refine run_call (env' := env) (mem' := mem) (r := .unit) ?_
    show ((store160 chk env mem ptr id).bind _).eval w = _
    have e : (store160 chk env mem ptr id).eval w = (w', .ok ()) := by
      unfold store160
      have hr : readMem env mem ptr.toNat 20 = some ((mem.drop ptr.toNat).take 20) := by
        unfold readMem
        rw [if_pos (by simp [h1, h2])]
      rw [Prog.bind_eq, hr, Prog.eval_bind_ok (Prog.eval_ofOption_some _ _),
        if_pos (by simp [Env.canWrite, hm])]
      exact unwrap_ok.2 h
    rw [Prog.eval_bind_ok e]
    rfl

theorem drop_take_writeMem (mem bs : Bytes) (o : Nat) (h : o + bs.length ≤ mem.length) :
    ((writeMem mem o bs).drop o).take bs.length = bs := by
  unfold writeMem
  have hlen : (mem.take o).length = o := by simp; omega
  have hd : (mem.take o ++ (bs ++ mem.drop (o + bs.length))).drop o = bs ++ mem.drop (o + bs.length) :=
    List.drop_left' hlen
  rw [hd, List.take_left']
  rfl

/-- The value of the bytes of a cell. -/
def cellVal : (t : PrimTy) → Bytes → t.Val
  | .bool, bs => leNat bs == 1
  | .int _ _, bs => BitVec.ofNat _ (leNat bs)
  | .amount, bs => BitVec.ofNat _ (leNat bs)
  | .address, bs => bs

/-- Bytes that a getter accepts. -/
def CellOk : PrimTy → Bytes → Prop
  | .bool, bs => leNat bs ≤ 1
  | t, bs => bs.length = t.byteCount

theorem leNat_pad (bs : Bytes) (n : Nat) : leNat (bs ++ List.replicate n 0) = leNat bs := by
  induction bs with
  | nil => simp [leNat, leNat_zeros]
  | cons b bs ih => simp [leNat, ih]

theorem leNat_lt (bs : Bytes) : leNat bs < 256 ^ bs.length := by
  induction bs with
  | nil => simp [leNat]
  | cons b bs ih =>
    have hb : b.toNat < 256 := UInt8.toNat_lt b
    rw [leNat, List.length_cons, pow_succ]
    omega

/-- A getter of an address reserves 20 bytes and writes the address behind them. -/
theorem getAddr_eval {chk : Bool} {env : Env} (hm : env.mode = .fullAccess) {id : U32} {mem : Bytes}
    (hroom : GetRoom env mem .address) {w : View} {bs : Bytes}
    (h : (getVar chk env.storage id (List.replicate 20 0)).eval w = (w, .ok bs)) :
    ((getCell .address id mem).run chk env).eval w = (w, .ok ({ env with usedMemory := env.usedMemory + 20 },
      .ok (BitVec.ofNat 32 (env.usedMemory + 20), writeMem mem (env.usedMemory + 20) bs))) := by
  obtain ⟨h1, h2, h3⟩ := hroom
  have hp : (BitVec.ofNat 32 (env.usedMemory + 20)).toNat = env.usedMemory + 20 := by
    rw [BitVec.toNat_ofNat, Nat.mod_eq_of_lt (by omega)]
  have e1 : (host chk env mem (.staticAlloc 20)).eval w = (w, .ok (.i32 (BitVec.ofNat 32
      (env.usedMemory + 20)), mem, { env with usedMemory := env.usedMemory + 20 })) := by
    have : staticAlloc env mem 20 = some (BitVec.ofNat 32 (env.usedMemory + 20),
        { env with usedMemory := env.usedMemory + 20 }) := by
      unfold staticAlloc
      rw [if_pos (by simp [h1])]
      dsimp only
      rw [show BitVec.toNat (20 : U32) = 20 from rfl, if_neg (by omega)]
    show ((Prog.ofOption (staticAlloc env mem 20)).bind _).eval w = _
    rw [this, Prog.eval_bind_ok (Prog.eval_ofOption_some _ _)]
    rfl
  have e2 : ∀ p : U32, p.toNat = env.usedMemory + 20 →
      (host chk { env with usedMemory := env.usedMemory + 20 } mem (.load160 id p)).eval w =
      (w, .ok (.unit, writeMem mem p.toNat bs, { env with usedMemory := env.usedMemory + 20 })) := by
    intro p hpp
    show ((load160 chk _ mem id p).bind _).eval w = _
    have e : (load160 chk { env with usedMemory := env.usedMemory + 20 } mem id p).eval w =
        (w, .ok (writeMem mem p.toNat bs)) := by
      unfold load160
      rw [if_pos (by simp [Env.canRead, hm])]
      have hr : readMem { env with usedMemory := env.usedMemory + 20 } mem p.toNat 20 =
          some ((mem.drop p.toNat).take 20) := by
        unfold readMem
        rw [if_pos (by simp [h1]; omega)]
      rw [Prog.bind_eq, hr, Prog.eval_bind_ok (Prog.eval_ofOption_some _ _)]
      have hg' : (getVarArray chk 20 env.storage id).eval w = (w, .ok bs) := h
      rw [Prog.bind_eq, Prog.eval_bind_ok (unwrap_ok.2 hg')]
      rfl
    rw [Prog.eval_bind_ok e]
    rfl
  refine (run_call e1).trans ((run_call (e2 _ hp)).trans ?_)
  rw [hp]
  rfl

/-- A getter reads the bytes of the cell. -/
theorem getCell_eval {chk : Bool} {env : Env} (hm : env.mode = .fullAccess) {id : U32} {t : PrimTy}
    {mem : Bytes} (hroom : GetRoom env mem t) {w : View} {bs : Bytes} (hok : CellOk t bs)
    (hlen : bs.length = t.byteCount)
    (h : ∀ buf : Bytes, t.byteCount ≤ buf.length →
      (getVar chk env.storage id buf).eval w = (w, .ok (bs ++ buf.drop t.byteCount))) :
    ∃ env' mem' x, ((getCell t id mem).run chk env).eval w = (w, .ok (env', .ok (x, mem'))) ∧
      denote t x mem' = cellVal t bs ∧ mem'.length = mem.length ∧
      (t ≠ .address → env' = env ∧ mem' = mem) := by
  have h8 : t.byteCount ≤ 8 → (getVar chk env.storage id (List.replicate 8 0)).eval w =
      (w, .ok (bs ++ List.replicate (8 - t.byteCount) 0)) := by
    intro h8
    rw [h _ (by simpa using h8), List.drop_replicate]
  match t, hroom, hok, hlen, h, h8 with
  | .bool, _, hok, hlen, _, h8 =>
    have e := get32_eval hm (h8 (by simp [PrimTy.byteCount])) mem
    rw [leNat_pad] at e
    refine ⟨env, mem, leNat bs == 1, ?_, rfl, rfl, fun _ => ⟨rfl, rfl⟩⟩
    refine (run_call e).trans ?_
    have hle : leNat bs ≤ 1 := hok
    rcases Nat.le_one_iff_eq_zero_or_eq_one.1 hle with h0 | h0 <;> rw [h0] <;> rfl
  | .int .w8 _, _, _, hlen, _, h8 =>
    have e := get32_eval hm (h8 (by simp [PrimTy.byteCount, Width.bytes])) mem
    rw [leNat_pad] at e
    refine ⟨env, mem, _, run_call e, ?_, rfl, fun _ => ⟨rfl, rfl⟩⟩
    apply BitVec.eq_of_toNat_eq
    simp only [denote, cellVal, BitVec.toNat_setWidth, BitVec.toNat_ofNat, Width.bytes]
    omega
  | .int .w16 _, _, _, hlen, _, h8 =>
    have e := get32_eval hm (h8 (by simp [PrimTy.byteCount, Width.bytes])) mem
    rw [leNat_pad] at e
    refine ⟨env, mem, _, run_call e, ?_, rfl, fun _ => ⟨rfl, rfl⟩⟩
    apply BitVec.eq_of_toNat_eq
    simp only [denote, cellVal, BitVec.toNat_setWidth, BitVec.toNat_ofNat, Width.bytes]
    omega
  | .int .w32 _, _, _, hlen, _, h8 =>
    have e := get32_eval hm (h8 (by simp [PrimTy.byteCount, Width.bytes])) mem
    rw [leNat_pad] at e
    refine ⟨env, mem, _, run_call e, ?_, rfl, fun _ => ⟨rfl, rfl⟩⟩
    apply BitVec.eq_of_toNat_eq
    simp only [denote, cellVal, BitVec.toNat_setWidth, BitVec.toNat_ofNat, Width.bytes]
    omega
  | .int .w64 _, _, _, hlen, _, h8 =>
    have e := get64_eval hm (h8 (by simp [PrimTy.byteCount, Width.bytes])) mem
    rw [leNat_pad] at e
    refine ⟨env, mem, _, run_call e, ?_, rfl, fun _ => ⟨rfl, rfl⟩⟩
    apply BitVec.eq_of_toNat_eq
    simp only [denote, cellVal, BitVec.toNat_setWidth, BitVec.toNat_ofNat, Width.bytes]
    omega
  | .amount, _, _, hlen, _, h8 =>
    have e := get64_eval hm (h8 (by simp [PrimTy.byteCount])) mem
    rw [leNat_pad] at e
    exact ⟨env, mem, _, run_call e, rfl, rfl, fun _ => ⟨rfl, rfl⟩⟩
  | .address, hroom, _, hlen, h, _ =>
    have hlen : bs.length = 20 := hlen
    have hg := h (List.replicate 20 0) (by simp [PrimTy.byteCount])
    rw [show PrimTy.address.byteCount = 20 from rfl, List.drop_replicate, Nat.sub_self,
      List.replicate_zero, List.append_nil] at hg
    have hroom' : env.usedMemory + 40 ≤ mem.length ∧ mem.length < 2 ^ 32 := hroom.2
    refine ⟨_, _, _, getAddr_eval hm hroom hg, ?_, ?_, fun hne => absurd rfl hne⟩
    · show ((writeMem mem _ bs).drop _).take 20 = bs
      rw [BitVec.toNat_ofNat, Nat.mod_eq_of_lt (by omega)]
      have := drop_take_writeMem mem bs (env.usedMemory + 20) (by omega)
      rwa [hlen] at this
    · unfold writeMem
      simp
      omega

theorem take_natLE (n k x : Nat) (h : k ≤ n) : leNat ((natLE n x).take k) = x % 256 ^ k := by
  have := leNat_take n k x 0 h
  simpa using this

theorem signExtend_mod {m n : Nat} (h : m ≤ n) (x : BitVec m) : (x.signExtend n).toNat % 2 ^ m = x.toNat := by
  rw [← BitVec.toNat_setWidth]
  congr 1
  apply BitVec.eq_of_getLsbD_eq
  intro i hi
  rw [BitVec.getLsbD_setWidth, BitVec.getLsbD_signExtend]
  simp [hi]
  omega

theorem castInt_back {w : Width} {s : Bool} {n : Nat} (x : BitVec (8 * w.bytes)) (h : 8 * w.bytes ≤ n) :
    BitVec.ofNat (8 * w.bytes) ((castInt w s n x).toNat % 256 ^ w.bytes) = x := by
  have h256 : 256 ^ w.bytes = 2 ^ (8 * w.bytes) := by rw [Nat.pow_mul]
  rw [h256]
  apply BitVec.eq_of_toNat_eq
  rw [BitVec.toNat_ofNat, Nat.mod_mod]
  unfold castInt
  split
  · exact signExtend_mod h x
  · rw [BitVec.toNat_setWidth, Nat.mod_mod_of_dvd _ (Nat.pow_dvd_pow 2 h), Nat.mod_eq_of_lt x.isLt]

/-- What a setter writes is what a getter takes it for. -/
theorem cellBytes_val {t : PrimTy} {x : t.Raw} {env : Env} {mem : Bytes} (hroom : SetRoom env mem t x) :
    CellOk t ((cellBytes t x mem).take t.byteCount) ∧
      cellVal t ((cellBytes t x mem).take t.byteCount) = denote t x mem := by
  have hl := cellBytes_length hroom
  match t, x, hroom, hl with
  | .bool, b, _, _ =>
    have : leNat ((cellBytes .bool b mem).take PrimTy.bool.byteCount) = if b then 1 else 0 := by
      show leNat ((natLE 4 _).take 1) = _
      rw [take_natLE _ _ _ (by omega)]
      cases b <;> rfl
    constructor
    · show leNat _ ≤ 1
      rw [this]
      cases b <;> simp
    · show (leNat _ == 1) = b
      rw [this]
      cases b <;> rfl
  | .int .w8 s, x, _, hl =>
    refine ⟨by simpa [CellOk] using hl, ?_⟩
    show BitVec.ofNat _ (leNat ((natLE 4 _).take 1)) = x
    rw [take_natLE _ _ _ (by omega)]
    exact castInt_back x (by decide)
  | .int .w16 s, x, _, hl =>
    refine ⟨by simpa [CellOk] using hl, ?_⟩
    show BitVec.ofNat _ (leNat ((natLE 4 _).take 2)) = x
    rw [take_natLE _ _ _ (by omega)]
    exact castInt_back x (by decide)
  | .int .w32 s, x, _, hl =>
    refine ⟨by simpa [CellOk] using hl, ?_⟩
    show BitVec.ofNat _ (leNat ((natLE 4 _).take 4)) = x
    rw [take_natLE _ _ _ (by omega)]
    exact castInt_back x (by decide)
  | .int .w64 s, x, _, hl =>
    refine ⟨by simpa [CellOk] using hl, ?_⟩
    show BitVec.ofNat _ (leNat ((natLE 8 _).take 8)) = x
    rw [take_natLE _ _ _ (by omega)]
    exact castInt_back x (by decide)
  | .amount, x, _, hl =>
    refine ⟨by simpa [CellOk] using hl, ?_⟩
    show BitVec.ofNat _ (leNat ((natLE 8 _).take 8)) = x
    rw [take_natLE _ _ _ (by omega)]
    apply BitVec.eq_of_toNat_eq
    have hx := x.isLt
    rw [BitVec.toNat_ofNat]
    omega
  | .address, ptr, _, hl =>
    refine ⟨by simpa [CellOk] using hl, ?_⟩
    show (((mem.drop ptr.toNat).take 20).take 20) = _
    rw [List.take_take]
    rfl

/-- A setter followed by a getter of the same cell. -/
theorem cell_roundtrip {h : Hasher} (hc : NoCollision h) {s : Storage} (hr : Reach h s) (chk : Bool)
    (env : Env) (hm : env.mode = .fullAccess) (hl : LayoutOk env.storage.layout) {id : U32} {raw : RawVar}
    (hg : env.storage.layout.get id = some raw) {t : PrimTy} (hsz : raw.byteSize.toNat = t.byteCount)
    (x : t.Raw) (mem mem2 : Bytes) (h1 : SetRoom env mem t x) (h2 : GetRoom env mem2 t) :
    out h ((setCell t id x mem).run chk env) s = .ok (env, .ok ((), mem)) ∧
    ∃ env' mem' y, out h ((getCell t id mem2).run chk env) (after h ((setCell t id x mem).run chk env) s) =
      .ok (env', .ok (y, mem')) ∧ denote t y mem' = denote t x mem := by
  have hpos := byteCount_pos t
  have hlen := cellBytes_length h1
  obtain ⟨w', e1, e2⟩ := set_get_bytes hc hr chk hl hg (by omega) (cellBytes t x mem) (by omega)
  have e3 := setCell_eval hm h1 e1
  rw [hsz] at e2
  obtain ⟨v1, v2⟩ := cellBytes_val h1
  obtain ⟨env', mem', y, e4, e5, -⟩ := getCell_eval hm h2 v1 (by simp; omega) e2
  refine ⟨by rw [out_eval hc, e3], env', mem', y, ?_, e5.trans v2⟩
  rw [out_eval hc, view_after hc, e3, e4]

/-! ### Isolation -/

/-- A program that changes nothing and does the same in two views. -/
def Same {α : Type} (p : Prog α) (w w' : View) : Prop :=
  (p.eval w).1 = w ∧ (p.eval w').1 = w' ∧ (p.eval w).2 = (p.eval w').2

theorem Same.bind {α β : Type} {p : Prog α} {f : α → Prog β} {w w' : View} (hp : Same p w w')
    (hf : ∀ a, Same (f a) w w') : Same (p.bind f) w w' := by
  obtain ⟨h1, h2, h3⟩ := hp
  unfold Same
  rw [Prog.eval_bind, Prog.eval_bind]
  cases e1 : p.eval w with
  | mk u o =>
    cases e2 : p.eval w' with
    | mk u' o' =>
      rw [e1, e2] at h3
      rw [e1] at h1
      rw [e2] at h2
      dsimp only at h1 h2 h3
      subst h1 h2 h3
      cases o with
      | ok a => exact hf a
      | err e => exact ⟨rfl, rfl, rfl⟩
      | panic => exact ⟨rfl, rfl, rfl⟩

theorem Same.ret {α : Type} (a : α) (w w' : View) : Same (.ret a : Prog α) w w' := ⟨rfl, rfl, rfl⟩

theorem Same.panic {α : Type} (w w' : View) : Same (.panic : Prog α) w w' := ⟨rfl, rfl, rfl⟩

theorem Same.ofOption {α : Type} (o : Option α) (w w' : View) : Same (Prog.ofOption o) w w' := by
  cases o <;> exact ⟨rfl, rfl, rfl⟩

theorem Same.unwrap {α : Type} {p : Prog α} {w w' : View} (hp : Same p w w') : Same p.unwrap w w' := by
  obtain ⟨h1, h2, h3⟩ := hp
  unfold Same
  rw [Prog.eval_unwrap, Prog.eval_unwrap]
  cases e1 : p.eval w with
  | mk u o =>
    cases e2 : p.eval w' with
    | mk u' o' =>
      rw [e1, e2] at h3
      rw [e1] at h1
      rw [e2] at h2
      dsimp only at h1 h2 h3
      subst h1 h2 h3
      cases o <;> exact ⟨rfl, rfl, rfl⟩

theorem same_getCell {chk : Bool} {id : U32} {w w' : View} {acc : Acc}
    (hg : ∀ buf, Same (getVar chk acc id buf) w w') (t : PrimTy) (env : Env) (he : env.storage = acc)
    (mem : Bytes) : Same ((getCell t id mem).run chk env) w w' := by
  have h64 : ∀ env : Env, env.storage = acc → Same (getVarI64 chk env.storage id) w w' := by
    intro env he
    rw [he]
    exact (hg _).bind fun _ => Same.ret _ _ _
  have g32 : ∀ (env : Env), env.storage = acc → ∀ mem, Same (host chk env mem (.get32 id)) w w' := by
    intro env he mem
    refine Same.bind ?_ fun _ => Same.ret _ _ _
    unfold get32
    split
    · exact (h64 env he).unwrap.bind fun _ => Same.ret _ _ _
    · exact Same.panic _ _
  have g64 : ∀ (env : Env), env.storage = acc → ∀ mem, Same (host chk env mem (.get64 id)) w w' := by
    intro env he mem
    refine Same.bind ?_ fun _ => Same.ret _ _ _
    unfold get64
    split
    · exact (h64 env he).unwrap
    · exact Same.panic _ _
  have small : ∀ {α : Type} (c : HostCall) (k : HostVal → Bytes → Guest α),
      Same (host chk env mem c) w w' → (∀ v mem, (∃ a, k v mem = .ret a mem) ∨ ∃ m, k v mem = .trap m) →
      Same ((Guest.call mem c k).run chk env) w w' := by
    intro α c k hs hk
    refine hs.bind fun r => ?_
    rcases hk r.1 r.2.1 with ⟨a, e⟩ | ⟨m, e⟩ <;> rw [e] <;> exact Same.ret _ _ _
  match t with
  | .bool =>
    refine small _ _ (g32 env he mem) ?_
    intro v mem
    cases v with
    | i32 v =>
      dsimp only
      split
      · exact .inl ⟨_, rfl⟩
      · split
        · exact .inl ⟨_, rfl⟩
        · exact .inr ⟨_, rfl⟩
    | _ => exact .inr ⟨_, rfl⟩
  | .int .w8 _ | .int .w16 _ | .int .w32 _ =>
    refine small _ _ (g32 env he mem) ?_
    intro v mem
    cases v with
    | i32 v => exact .inl ⟨_, rfl⟩
    | _ => exact .inr ⟨_, rfl⟩
  | .int .w64 _ | .amount =>
    refine small _ _ (g64 env he mem) ?_
    intro v mem
    cases v with
    | i64 v => exact .inl ⟨_, rfl⟩
    | _ => exact .inr ⟨_, rfl⟩
  | .address =>
    show Same ((host chk env mem (.staticAlloc 20)).bind _) w w'
    have : host chk env mem (.staticAlloc 20) = (Prog.ofOption (staticAlloc env mem 20)).bind
      fun r => .ret (.i32 r.1, mem, r.2) := rfl
    rw [this]
    cases ha : staticAlloc env mem 20 with
    | none => exact Same.panic _ _
    | some r =>
      have hst : r.2.storage = acc := by
        unfold staticAlloc at ha
        split at ha
        · dsimp only at ha
          split at ha
          · cases ha
          · cases ha
            exact he
        · cases ha
      show Same ((host chk r.2 mem (.load160 id r.1)).bind _) w w'
      refine Same.bind ?_ fun r => Same.ret _ _ _
      refine Same.bind ?_ fun r => Same.ret _ _ _
      unfold load160
      split
      · refine (Same.ofOption _ _ _).bind fun _ => ?_
        refine Same.bind (Same.unwrap ?_) fun r => Same.ret _ _ _
        rw [hst]
        exact hg _
      · exact Same.panic _ _

theorem eval_bind_ret_view {α β : Type} (p : Prog α) (f : α → β) (w : View) :
    ((p.bind fun a => .ret (f a)).eval w).1 = (p.eval w).1 := by
  rw [Prog.eval_bind]
  cases p.eval w with
  | mk u o => cases o <;> rfl

theorem eval_unwrap_view {α : Type} (p : Prog α) (w : View) : (p.unwrap.eval w).1 = (p.eval w).1 := by
  rw [Prog.eval_unwrap]
  cases p.eval w with
  | mk u o => cases o <;> rfl

/-- Whatever a setter does, the view afterwards is the one before or the one after a write to its
variable. -/
theorem setCell_view (chk : Bool) (env : Env) (t : PrimTy) (id : U32) (x : t.Raw) (mem : Bytes) (w : View) :
    (((setCell t id x mem).run chk env).eval w).1 = w ∨
      ∃ value, (((setCell t id x mem).run chk env).eval w).1 =
        ((setVarBytes chk env.storage id value).eval w).1 := by
  have h32 : ∀ y : U32, (((Guest.call mem (.set32 id y) fun _ mem => Guest.ret () mem).run chk env).eval w).1
      = w ∨ ∃ value, (((Guest.call mem (.set32 id y) fun _ mem => Guest.ret () mem).run chk env).eval w).1 =
        ((setVarBytes chk env.storage id value).eval w).1 := by
    intro y
    have e : (((Guest.call mem (.set32 id y) fun _ mem => Guest.ret () mem).run chk env).eval w).1 =
        ((set32 chk env id y).eval w).1 := by
      refine (eval_bind_ret_view _ _ _).trans ?_
      exact eval_bind_ret_view (set32 chk env id y) _ _
    rw [e]
    unfold set32
    split
    · exact .inr ⟨natLE 4 y.toNat, eval_unwrap_view _ _⟩
    · exact .inl rfl
  have h64 : ∀ y : U64, (((Guest.call mem (.set64 id y) fun _ mem => Guest.ret () mem).run chk env).eval w).1
      = w ∨ ∃ value, (((Guest.call mem (.set64 id y) fun _ mem => Guest.ret () mem).run chk env).eval w).1 =
        ((setVarBytes chk env.storage id value).eval w).1 := by
    intro y
    have e : (((Guest.call mem (.set64 id y) fun _ mem => Guest.ret () mem).run chk env).eval w).1 =
        ((set64 chk env id y).eval w).1 := by
      refine (eval_bind_ret_view _ _ _).trans ?_
      exact eval_bind_ret_view (set64 chk env id y) _ _
    rw [e]
    unfold set64
    split
    · exact .inr ⟨natLE 8 y.toNat, eval_unwrap_view _ _⟩
    · exact .inl rfl
  match t, x with
  | .bool, b => exact h32 _
  | .int .w8 s, y => exact h32 _
  | .int .w16 s, y => exact h32 _
  | .int .w32 s, y => exact h32 _
  | .int .w64 s, y => exact h64 _
  | .amount, y => exact h64 _
  | .address, ptr =>
    have e : (((setCell .address id ptr mem).run chk env).eval w).1 =
        ((store160 chk env mem ptr id).eval w).1 := by
      refine (eval_bind_ret_view _ _ _).trans ?_
      exact eval_bind_ret_view (store160 chk env mem ptr id) _ _
    rw [e]
    unfold store160
    rw [Prog.bind_eq]
    cases readMem env mem ptr.toNat 20 with
    | none => exact .inl rfl
    | some bytes =>
      rw [Prog.eval_bind_ok (Prog.eval_ofOption_some _ _)]
      split
      · exact .inr ⟨bytes, eval_unwrap_view _ _⟩
      · exact .inl rfl

/-- A setter, whatever its outcome, is not seen by getters of other cells. -/
theorem cell_isolation {h : Hasher} (hc : NoCollision h) {s : Storage} (hr : Reach h s) (chk : Bool)
    (env env2 : Env) (hl : LayoutOk env.storage.layout) (he : env2.storage = env.storage) {id id' : U32}
    (hne : id' ≠ id) (t t' : PrimTy) (x : t.Raw) (mem mem2 : Bytes) :
    out h ((getCell t' id' mem2).run chk env2) (after h ((setCell t id x mem).run chk env) s) =
      out h ((getCell t' id' mem2).run chk env2) s := by
  rw [out_eval hc, out_eval hc, view_after hc]
  rcases setCell_view chk env t id x mem (view h s) with e | ⟨value, e⟩
  · rw [e]
  · rw [e]
    refine (same_getCell (acc := env.storage) (fun buf => ?_) t' env2 he mem2).2.2
    have hiso := (C16_isolation hc hr chk hl id value).1 env.storage id' buf (.inr ⟨rfl, hne⟩)
    rw [out_eval hc, out_eval hc, view_after hc] at hiso
    exact ⟨getVar_view _ _ _ _ _, getVar_view _ _ _ _ _, hiso⟩

/-! ## C77 -/

/-- An account of a template whose storage struct has these fields: its layout is the deployed one. -/
structure Deployed (vars : List Var) (env : Env) : Prop where
  made : ∃ chk named fields, storageVars chk named fields = .ok vars
  small : byteTotal vars < 2 ^ 32
  layout : ∃ chk, dataSection chk vars = some env.storage.layout

theorem Deployed.matches {vars : List Var} {env : Env} (hd : Deployed vars env) :
    Matches vars env.storage.layout ∧ LayoutOk env.storage.layout ∧ DisjointCells vars := by
  obtain ⟨⟨chk, named, fields, hs⟩, hb, chk', hl⟩ := hd
  obtain ⟨l, hl', hm⟩ := C76_deployed_partial hs hb chk'
  rw [hl, Option.some.injEq] at hl'
  rw [← hl'] at hm
  have hsz : ∀ v ∈ vars, v.byteCount = v.ty.byteCount := by
    intro v hv
    obtain ⟨k, hk⟩ := List.mem_iff_getElem?.1 hv
    unfold storageVars at hs
    split at hs
    · exact (loop_vars hs k v hk).2.2
    · cases hs
  refine ⟨hm, layoutOk_of_sizes (by rw [byteSizes_total hsz]; exact hb) hl, ?_⟩
  have := byteTotal_le hsz
  exact (C63_partial hs (by omega)).1

theorem getter_eq {chk : Bool} {v : Var} {index id : U32} (h : v.cellId chk index = some id) (mem : Bytes) :
    v.getter chk index mem = getCell v.ty id mem := by
  unfold Var.getter
  rw [h]

theorem setter_eq {chk : Bool} {v : Var} {index id : U32} (h : v.cellId chk index = some id) (x : v.ty.Raw)
    (mem : Bytes) : v.setter chk index x mem = setCell v.ty id x mem := by
  unfold Var.setter
  rw [h]

/-- **C77.** In every storage struct (of less than 4 GiB), setting a field or a cell of an array field
succeeds and getting it afterwards, with whatever memory, returns what was set: the integer including its
sign, the flag, the amount, or the bytes of the address. -/
theorem C77_roundtrip {h : Hasher} (hc : NoCollision h) {s : Storage} (hr : Reach h s) (chk chk' : Bool)
    {env : Env} (hm : env.mode = .fullAccess) {vars : List Var} (hd : Deployed vars env) {k i : Nat} {v : Var}
    (hcell : CellOf vars k i v) (x : v.ty.Raw) (mem mem2 : Bytes) (h1 : SetRoom env mem v.ty x)
    (h2 : GetRoom env mem2 v.ty) :
    out h ((v.setter chk' (BitVec.ofNat 32 i) x mem).run chk env) s = .ok (env, .ok ((), mem)) ∧
    ∃ env' mem' y, out h ((v.getter chk' (BitVec.ofNat 32 i) mem2).run chk env)
      (after h ((v.setter chk' (BitVec.ofNat 32 i) x mem).run chk env) s) = .ok (env', .ok (y, mem')) ∧
      denote v.ty y mem' = denote v.ty x mem := by
  obtain ⟨hmt, hl, -⟩ := hd.matches
  obtain ⟨id, raw, e1, e2, -, -, e3⟩ := hmt.1 chk' k i v hcell
  rw [getter_eq e1, setter_eq e1]
  exact cell_roundtrip hc hr chk env hm hl e2 e3 x mem mem2 h1 h2

/-- **C77.** Setting a cell, successfully or not, changes what the getter of no other cell does. -/
theorem C77_isolation {h : Hasher} (hc : NoCollision h) {s : Storage} (hr : Reach h s) (chk chk' : Bool)
    {env env2 : Env} (he : env2.storage = env.storage) {vars : List Var} (hd : Deployed vars env)
    {k i k' i' : Nat} {v v' : Var} (hcell : CellOf vars k i v) (hcell' : CellOf vars k' i' v')
    (hne : (k, i) ≠ (k', i')) (x : v.ty.Raw) (mem mem2 : Bytes) :
    out h ((v'.getter chk' (BitVec.ofNat 32 i') mem2).run chk env2)
      (after h ((v.setter chk' (BitVec.ofNat 32 i) x mem).run chk env) s) =
    out h ((v'.getter chk' (BitVec.ofNat 32 i') mem2).run chk env2) s := by
  obtain ⟨-, hl, hdis⟩ := hd.matches
  obtain ⟨a, b, e1, e2, hab, -⟩ := hdis chk' k i k' i' v v' hcell hcell' hne
  rw [getter_eq e2, setter_eq e1]
  exact cell_isolation hc hr chk env env2 hl he (Ne.symm hab) _ _ x mem mem2

/-- **C77.** Indices behind the end of an array trap before anything is read or written. -/
theorem C77_out_of_range (chk chk' : Bool) {env : Env} {vars : List Var} (hd : Deployed vars env) {v : Var}
    (hv : v ∈ vars) {n index : U32} (hn : v.length = some n) (hi : n.toNat ≤ index.toNat) (x : v.ty.Raw)
    (mem : Bytes) :
    (v.setter chk' index x mem).run chk env = .ret (env, .error unreachableMsg) ∧
      (v.getter chk' index mem).run chk env = .ret (env, .error unreachableMsg) := by
  obtain ⟨⟨c, named, fields, hs⟩, hb, -⟩ := hd
  have hsz : ∀ u ∈ vars, u.byteCount = u.ty.byteCount := by
    intro u hu
    obtain ⟨k, hk⟩ := List.mem_iff_getElem?.1 hu
    unfold storageVars at hs
    split at hs
    · exact (loop_vars hs k u hk).2.2
    · cases hs
  have := byteTotal_le hsz
  have hnone := ((C63_partial hs (by omega)).2 chk' v n index hv hn).2 hi
  unfold Var.setter Var.getter
  rw [hnone]
  exact ⟨rfl, rfl⟩

/-- Nothing was ever written to the variables of an account. -/
def Untouched (h : Hasher) (s : Storage) (a : Addr) : Prop := ∀ i, view h s (.seg a i) = none

/-- The zero of a type. -/
def zeroVal : (t : PrimTy) → t.Val
  | .bool => false
  | .int _ _ => 0
  | .amount => 0
  | .address => List.replicate 20 0

/-- **C77.** In an account whose variables were never written every field is zero: `0`, `false`, or the
address of twenty zeros. -/
theorem C77_zero {h : Hasher} (hc : NoCollision h) {s : Storage} (hr : Reach h s) (chk chk' : Bool)
    {env : Env} (hm : env.mode = .fullAccess) {vars : List Var} (hd : Deployed vars env) {k i : Nat} {v : Var}
    (hcell : CellOf vars k i v) (hu : Untouched h s env.storage.addr) (mem : Bytes)
    (h2 : GetRoom env mem v.ty) :
    ∃ env' mem' y, out h ((v.getter chk' (BitVec.ofNat 32 i) mem).run chk env) s =
      .ok (env', .ok (y, mem')) ∧ denote v.ty y mem' = zeroVal v.ty := by
  obtain ⟨hmt, hl, -⟩ := hd.matches
  obtain ⟨id, raw, e1, e2, -, -, e3⟩ := hmt.1 chk' k i v hcell
  rw [getter_eq e1]
  have hw := (hr.view hc).segOk
  have hpos := byteCount_pos v.ty
  have hcells : cells (view h s) env.storage.addr raw.offset.toNat raw.byteSize.toNat =
      List.replicate v.ty.byteCount 0 := by
    rw [e3]
    unfold cells
    rw [List.eq_replicate_iff]
    refine ⟨by simp, ?_⟩
    intro b hb
    obtain ⟨j, -, rfl⟩ := List.mem_map.1 hb
    unfold cell
    rw [hu]
    simp [zeroSegment, List.getElem?_replicate]
    split <;> rfl
  have hget : ∀ buf : Bytes, v.ty.byteCount ≤ buf.length →
      (getVar chk env.storage id buf).eval (view h s) =
        (view h s, .ok (List.replicate v.ty.byteCount 0 ++ buf.drop v.ty.byteCount)) := by
    intro buf hb
    rw [getVar_eval chk hw e2 (by omega) (hl.bound id raw e2) buf (by omega), hcells, e3]
  obtain ⟨env', mem', y, g1, g2, -⟩ := getCell_eval hm h2 (bs := List.replicate v.ty.byteCount 0)
    (by cases v.ty <;> simp [CellOk, leNat_zeros]) (by simp) hget
  refine ⟨env', mem', y, by rw [out_eval hc, g1], g2.trans ?_⟩
  cases v.ty with
  | bool => simp [cellVal, zeroVal, leNat_zeros]
  | int w s => simp [cellVal, zeroVal, leNat_zeros]
  | amount => simp [cellVal, zeroVal, leNat_zeros]
  | address => rfl

/-! ## C78 -/

theorem writeMem_other (mem bs : Bytes) (o p n : Nat) (hp : p + n ≤ o) (ho : o ≤ mem.length) :
    ((writeMem mem o bs).drop p).take n = (mem.drop p).take n := by
  unfold writeMem
  rw [List.drop_append, List.take_append_of_le_length (by simp; omega), List.drop_take, List.take_take,
    Nat.min_eq_left (by omega)]

/-- The address that a getter returned in environment `env` and memory `mem`: the pointer, and the
environment and the memory afterwards. -/
def Read (h : Hasher) (s : Storage) (chk : Bool) (env : Env) (id : U32) (mem : Bytes) (env1 : Env) (p : U32)
    (mem1 : Bytes) : Prop :=
  out h ((getCell .address id mem).run chk env) s = .ok (env1, .ok (p, mem1))

/-- C78 in full: an address that was read from the storage stays what it was when the program allocates
memory and fills what it got. -/
def C78_claim : Prop :=
  ∀ (h : Hasher) (s : Storage) (chk : Bool) (env : Env) (id : U32) (mem : Bytes) (env1 : Env) (p : U32)
    (mem1 : Bytes), NoCollision h → Reach h s → env.mode = .fullAccess → LayoutOk env.storage.layout →
    (∃ raw, env.storage.layout.get id = some raw ∧ raw.byteSize.toNat = 20) → GetRoom env mem .address →
    Read h s chk env id mem env1 p mem1 →
    ∀ (n q : U32) (env2 : Env) (bs : Bytes), staticAlloc env1 mem1 n = some (q, env2) →
      bs.length = n.toNat → q.toNat + n.toNat ≤ mem1.length →
      denote .address p (writeMem mem1 q.toNat bs) = denote .address p mem1

theorem read_eq {h : Hasher} (hc : NoCollision h) {s : Storage} (hr : Reach h s) {chk : Bool} {env : Env}
    (hm : env.mode = .fullAccess) (hl : LayoutOk env.storage.layout) {id : U32} {raw : RawVar}
    (hg : env.storage.layout.get id = some raw) (hsz : raw.byteSize.toNat = 20) {mem : Bytes}
    (hroom : GetRoom env mem .address) {env1 : Env} {p : U32} {mem1 : Bytes}
    (hread : Read h s chk env id mem env1 p mem1) :
    env1 = { env with usedMemory := env.usedMemory + 20 } ∧ p.toNat = env.usedMemory + 20 ∧
      mem1.length = mem.length := by
  have hlt : env.usedMemory + 40 ≤ mem.length ∧ mem.length < 2 ^ 32 := hroom.2
  have hlen : (cells (view h s) env.storage.addr raw.offset.toNat raw.byteSize.toNat).length = 20 := by
    simp [cells, hsz]
  have e := getVar_eval chk (hr.view hc).segOk hg (by omega) (hl.bound id raw hg) (List.replicate 20 0)
    (by simp [hsz])
  rw [List.drop_replicate, hsz, Nat.sub_self, List.replicate_zero, List.append_nil] at e
  rw [hsz] at hlen
  have e2 := getAddr_eval hm hroom e
  unfold Read at hread
  rw [out_eval hc, e2] at hread
  cases hread
  refine ⟨rfl, ?_, ?_⟩
  · rw [BitVec.toNat_ofNat, Nat.mod_eq_of_lt (by omega)]
  · unfold writeMem
    simp
    omega

/-- **C78**, partial: an address stays what it was when at least 20 bytes are allocated, and when the
program reads further addresses. Missing: smaller allocations. -/
theorem C78_stays_partial {h : Hasher} (hc : NoCollision h) {s : Storage} (hr : Reach h s) {chk : Bool}
    {env : Env} (hm : env.mode = .fullAccess) (hl : LayoutOk env.storage.layout) {id : U32} {raw : RawVar}
    (hg : env.storage.layout.get id = some raw) (hsz : raw.byteSize.toNat = 20) {mem : Bytes}
    (hroom : GetRoom env mem .address) {env1 : Env} {p : U32} {mem1 : Bytes}
    (hread : Read h s chk env id mem env1 p mem1) :
    (∀ (n q : U32) (env2 : Env) (bs : Bytes), staticAlloc env1 mem1 n = some (q, env2) → 20 ≤ n.toNat →
      denote .address p (writeMem mem1 q.toNat bs) = denote .address p mem1) ∧
    (∀ (id' : U32) (raw' : RawVar) (env2 : Env) (p' : U32) (mem2 : Bytes),
      env.storage.layout.get id' = some raw' → raw'.byteSize.toNat = 20 → GetRoom env1 mem1 .address →
      Read h s chk env1 id' mem1 env2 p' mem2 → denote .address p mem2 = denote .address p mem1) := by
  obtain ⟨rfl, hp, hlen⟩ := read_eq hc hr hm hl hg hsz hroom hread
  have hlt : env.usedMemory + 40 ≤ mem.length ∧ mem.length < 2 ^ 32 := hroom.2
  constructor
  · intro n q env2 bs ha hn
    unfold staticAlloc at ha
    split at ha
    · dsimp only at ha
      split at ha
      · cases ha
      · rename_i hge
        cases ha
        have hq : (BitVec.ofNat 32 (env.usedMemory + 20 + n.toNat)).toNat = env.usedMemory + 20 + n.toNat := by
          rw [BitVec.toNat_ofNat, Nat.mod_eq_of_lt (by omega)]
        unfold denote
        rw [hq]
        exact writeMem_other _ _ _ _ _ (by omega) (by omega)
    · cases ha
  · intro id' raw' env2 p' mem2 hg' hsz' hroom' hread'
    have hlt' : env.usedMemory + 20 + 40 ≤ mem1.length ∧ mem1.length < 2 ^ 32 := hroom'.2
    have hlen' : (cells (view h s) env.storage.addr raw'.offset.toNat raw'.byteSize.toNat).length = 20 := by
      simp [cells, hsz']
    have e := getVar_eval chk (hr.view hc).segOk hg' (by omega) (hl.bound id' raw' hg')
      (List.replicate 20 0) (by simp [hsz'])
    rw [List.drop_replicate, hsz', Nat.sub_self, List.replicate_zero, List.append_nil] at e
    rw [hsz'] at hlen'
    have e2 := getAddr_eval (env := { env with usedMemory := env.usedMemory + 20 }) hm hroom' e
    unfold Read at hread'
    rw [out_eval hc, e2] at hread'
    cases hread'
    unfold denote
    exact writeMem_other _ _ _ _ _ (by dsimp only; omega) (by dsimp only; omega)

/-- **C78**, universal violation: whenever less than 20 bytes are allocated after the address was read,
the memory that the program gets overlaps with the address: some content changes it. -/
theorem C78_overwritten {h : Hasher} (hc : NoCollision h) {s : Storage} (hr : Reach h s) {chk : Bool}
    {env : Env} (hm : env.mode = .fullAccess) (hl : LayoutOk env.storage.layout) {id : U32} {raw : RawVar}
    (hg : env.storage.layout.get id = some raw) (hsz : raw.byteSize.toNat = 20) {mem : Bytes}
    (hroom : GetRoom env mem .address) {env1 : Env} {p : U32} {mem1 : Bytes}
    (hread : Read h s chk env id mem env1 p mem1) {n q : U32} {env2 : Env}
    (ha : staticAlloc env1 mem1 n = some (q, env2)) (hn : n.toNat < 20) :
    ∃ bs : Bytes, bs.length = n.toNat ∧
      denote .address p (writeMem mem1 q.toNat bs) ≠ denote .address p mem1 := by
  obtain ⟨rfl, hp, hlen⟩ := read_eq hc hr hm hl hg hsz hroom hread
  have hlt : env.usedMemory + 40 ≤ mem.length ∧ mem.length < 2 ^ 32 := hroom.2
  unfold staticAlloc at ha
  split at ha
  · rename_i hpos
    have hpos : 0 < n.toNat := by simp at hpos; omega
    dsimp only at ha
    split at ha
    · cases ha
    · cases ha
      have hq : (BitVec.ofNat 32 (env.usedMemory + 20 + n.toNat)).toNat = env.usedMemory + 20 + n.toNat := by
        rw [BitVec.toNat_ofNat, Nat.mod_eq_of_lt (by omega)]
      rw [hq]
      have hin : env.usedMemory + 20 + n.toNat < mem1.length := by omega
      refine ⟨List.replicate n.toNat (mem1[env.usedMemory + 20 + n.toNat] + 1), by simp, ?_⟩
      intro he
      have h1 := congrArg (fun l : Bytes => l[n.toNat]?) he
      unfold denote at h1
      dsimp only at h1
      rw [List.getElem?_take_of_lt hn, List.getElem?_take_of_lt hn, List.getElem?_drop,
        List.getElem?_drop, hp, List.getElem?_eq_getElem hin] at h1
      have h2 : (writeMem mem1 (env.usedMemory + 20 + n.toNat)
          (List.replicate n.toNat (mem1[env.usedMemory + 20 + n.toNat] + 1)))[env.usedMemory + 20 + n.toNat]?
          = some (mem1[env.usedMemory + 20 + n.toNat] + 1) := by
        unfold writeMem
        rw [List.getElem?_append_right (by simp), List.getElem?_append_left (by simp; omega)]
        have hz : env.usedMemory + 20 + n.toNat - (mem1.take (env.usedMemory + 20 + n.toNat)).length = 0 := by
          simp; omega
        rw [hz]
        simp [hpos]
      rw [h2, Option.some.injEq] at h1
      have h3 := congrArg UInt8.toNat h1
      rw [UInt8.toNat_add] at h3
      have : (1 : UInt8).toNat = 1 := rfl
      have hlt8 := UInt8.toNat_lt mem1[env.usedMemory + 20 + n.toNat]
      omega
  · cases ha

/-- An account with an amount, three addresses and a negative counter, in a running call. -/
def demoStructEnv : Env :=
  { Env.new ⟨exampleAddr 1, exampleAddr 9,
      ⟨some 0, [⟨0, 0, 8⟩, ⟨1, 8, 20⟩, ⟨2, 28, 20⟩, ⟨3, 48, 20⟩, ⟨4, 68, 2⟩]⟩⟩ (exampleAddr 9) (exampleAddr 1)
      .fullAccess with memorySet := true }

/-- The struct of that account. -/
def demoStruct : List Var :=
  [⟨0, 0, .amount, 8, none⟩, ⟨1, 8, .address, 20, some 3⟩, ⟨4, 68, .int .w16 true, 2, none⟩]

theorem demo_deployed : Deployed demoStruct demoStructEnv :=
  ⟨⟨true, true, [⟨false, .prim .amount⟩, ⟨false, .array .address 3⟩, ⟨false, .prim (.int .w16 true)⟩], rfl⟩,
    by decide, true, by decide⟩

/-- Non-vacuity of C77: the last address of the array, and the counter. -/
example : CellOf demoStruct 1 2 ⟨1, 8, .address, 20, some 3⟩ ∧
    CellOf demoStruct 2 0 ⟨4, 68, .int .w16 true, 2, none⟩ ∧
    SetRoom demoStructEnv (List.replicate 100 7) .address 60 ∧
    GetRoom demoStructEnv (List.replicate 100 7) .address ∧
    (∃ h, NoCollision h ∧ Reach h Svm.Storage.fresh) := by
  refine ⟨⟨rfl, by decide⟩, ⟨rfl, by decide⟩, ⟨rfl, by simp⟩, ⟨rfl, by simp [demoStructEnv, Env.new], by simp⟩,
    ?_⟩
  obtain ⟨h, hc⟩ := exists_noCollision
  exact ⟨h, hc, Reach.fresh⟩

theorem demo_read (h : Hasher) (hc : NoCollision h) : ∃ env1 p mem1,
    Read h Svm.Storage.fresh true demoStructEnv 2 (List.replicate 100 7) env1 p mem1 ∧
      staticAlloc env1 mem1 8 = some (28, { env1 with usedMemory := 28 }) ∧ mem1.length = 100 := by
  have hl := demo_deployed.matches.2.1
  have hg : demoStructEnv.storage.layout.get 2 = some ⟨2, 28, 20⟩ := by decide
  have e := getVar_eval true ((Reach.fresh (h := h)).view hc).segOk hg (by decide) (hl.bound _ _ hg)
    (List.replicate 20 0) (by decide)
  have hroom : GetRoom demoStructEnv (List.replicate 100 7) .address :=
    ⟨rfl, by simp [demoStructEnv, Env.new], by simp⟩
  have e2 := getAddr_eval (env := demoStructEnv) rfl hroom e
  refine ⟨_, _, _, by unfold Read; rw [out_eval hc, e2], ?_, ?_⟩
  · unfold staticAlloc
    rw [if_pos (by rfl), if_neg]
    · rfl
    · simp [writeMem, demoStructEnv, Env.new, cells]
  · simp [writeMem, demoStructEnv, Env.new, cells]

/-- C78 is violated. -/
theorem C78_claim_false : ¬ C78_claim := by
  intro hclaim
  obtain ⟨h, hc⟩ := exists_noCollision
  obtain ⟨env1, p, mem1, hread, ha, hlen⟩ := demo_read h hc
  have hl := demo_deployed.matches.2.1
  have hg : demoStructEnv.storage.layout.get 2 = some ⟨2, 28, 20⟩ := by decide
  have hroom : GetRoom demoStructEnv (List.replicate 100 7) .address :=
    ⟨rfl, by simp [demoStructEnv, Env.new], by simp⟩
  obtain ⟨bs, hb, hne⟩ := C78_overwritten hc Reach.fresh rfl hl hg rfl hroom hread ha (by decide)
  exact hne (hclaim h _ true demoStructEnv 2 _ env1 p mem1 hc Reach.fresh rfl hl ⟨_, hg, rfl⟩ hroom hread 8
    28 _ bs ha hb (by rw [hlen]; decide))

end Svm.Sdk
