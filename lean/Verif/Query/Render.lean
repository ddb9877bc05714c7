import Verif.Sdk.Access
import Verif.Json.Lemmas

/-!
# Showing the variables of an account (C109, C110)

`crates/host/query/src/{schema,query,render}.rs`, with the storage of an account as its reader. The crate
declares the trait `StorageReader` for the storage of accounts (query.rs:38-40) but no implementation of it
exists; the reader of its tests returns `layout.length` bytes of the variable, and so do the readers here.
-/

namespace Svm.Query

open Svm.Codec Svm.Account Svm.Runtime Svm.Sdk
open Svm.JsonApi (Json hexStr hexEncode hexDecode utf8Valid_ascii hexEncode_ascii hexDecode_hexEncode)
open Svm.Abi (Width)
open Svm.Layout (RawVar)
open Svm.Storage (Hasher Storage)

/-! ## Model -/

/-- `enum VarType`, schema.rs:35-54. -/
inductive VarType where
  | bool
  | int (signed : Bool)
  | blob
  | balance
  | pubKey
  | address
  deriving DecidableEq, Repr

/-- `struct Var` and `struct VarLayout`, schema.rs:6-33, without the name and the description. The numbers
are `usize`, with which nothing is computed. -/
structure Var where
  id : Nat
  offset : Nat
  length : Nat
  ty : VarType
  deriving DecidableEq, Repr

/-- `struct Schema`, schema.rs:57-58: a hash map; the first entry counts. -/
abbrev Schema := List Var

/-- `Schema::add_var`, schema.rs:67-69. -/
def Schema.addVar (s : Schema) (v : Var) : Schema := v :: s

/-- `Schema::var`, schema.rs:72-74. -/
def Schema.var (s : Schema) (id : Nat) : Option Var := s.find? fun v => v.id == id

/-- `struct StorageReq`, query.rs:21-31; the kind has one value and the parameters are not used. -/
structure Req where
  varId : Nat
  deriving DecidableEq, Repr

/-- `BigEndian::read_uint(buf, buf.len())` of byteorder 1.4.3, with its assertion. -/
def readUint (buf : Bytes) : Option (BitVec 64) :=
  if 1 ≤ buf.length ∧ buf.length ≤ 8 then some (BitVec.ofNat 64 (beNat buf)) else none

/-- `extend_sign` of byteorder 1.4.3. -/
def extendSign (val : BitVec 64) (nbytes : Nat) : BitVec 64 :=
  (val <<< ((8 - nbytes) * 8)).sshiftRight ((8 - nbytes) * 8)

/-- `JsonVarRenderer::render_int`, render.rs:34-57. The error is the answer `None`. -/
def renderInt (v : Var) (bytes : Bytes) (signed : Bool) : Outcome Unit Json :=
  if 8 < v.length then .err ()
  else if bytes.length < v.length then .panic
  else
    match readUint (bytes.take v.length ++ List.replicate (bytes.length - v.length) 0) with
    | none => .panic
    | some num => .ok (.int (if signed then (extendSign num bytes.length).toInt else num.toNat))

/-- `JsonVarRenderer::render_bool`, render.rs:63-73. -/
def renderBool (bytes : Bytes) : Outcome Unit Json :=
  match bytes with
  | [b] => if b = 0 then .ok (.bool false) else if b = 1 then .ok (.bool true) else .err ()
  | _ => .panic

/-- The string `0x` and the digits of bytes. -/
def prefixed (bs : Bytes) : Str :=
  ⟨0x30 :: 0x78 :: hexEncode bs, utf8Valid_ascii fun c hc => by
    rcases List.mem_cons.1 hc with rfl | hc
    · decide
    · rcases List.mem_cons.1 hc with rfl | hc
      · decide
      · exact hexEncode_ascii bs c hc⟩

/-- `JsonVarRenderer::render`, render.rs:20-29; `render_balance`, 59-61, is `todo!()`; addresses, public
keys and blobs with `render_hex`, 75-92. -/
def render (v : Var) (bytes : Bytes) : Outcome Unit Json :=
  match v.ty with
  | .int signed => renderInt v bytes signed
  | .bool => renderBool bytes
  | .blob => .ok (.str (hexStr bytes))
  | .balance => .panic
  | .address => .ok (.str (prefixed bytes))
  | .pubKey => .ok (.str (prefixed bytes))

/-- `StorageReader::read_var`, query.rs:46-54; `read` is `read_var_raw`. -/
def readVar (read : Req → Var → Option Bytes) (schema : Schema) (req : Req) : Outcome Unit Json :=
  match schema.var req.varId with
  | none => .err ()
  | some v => match read req v with
    | none => .err ()
    | some b => render v b

/-- `StorageQuery::run`, query.rs:79-91: the answers in order; `none` is a panic. -/
def run (read : Req → Var → Option Bytes) (schema : Schema) : List Req → Option (List (Option Json))
  | [] => some []
  | req :: reqs => match readVar read schema req with
    | .panic => none
    | .ok j => (run read schema reqs).map (some j :: ·)
    | .err _ => (run read schema reqs).map (none :: ·)

/-! ## Spec -/

/-- The type of the schema for a type of the SDK. -/
def kindOf : PrimTy → VarType
  | .bool => .bool
  | .int _ s => .int s
  | .amount => .int false
  | .address => .address

/-- What a user should see. -/
def shown : (t : PrimTy) → t.Val → Json
  | .bool, b => .bool b
  | .int _ true, x => .int x.toInt
  | .int _ false, x => .int x.toNat
  | .amount, x => .int x.toNat
  | .address, bs => .str (prefixed bs)

/-- The integer whose bytes are those of another one in the opposite order. -/
def swap {n : Nat} (x : BitVec (8 * n)) : BitVec (8 * n) :=
  BitVec.ofNat _ ((List.range n).map fun i => (x.toNat / 256 ^ i % 256) * 256 ^ (n - 1 - i)).sum

/-- The variable `id` of a program, in a schema. -/
def varFor (id : U32) (raw : RawVar) (t : PrimTy) : Var :=
  ⟨id.toNat, raw.offset.toNat, raw.byteSize.toNat, kindOf t⟩

/-- What a query shows of a variable in a storage. -/
def Shows (h : Hasher) (s : Storage) (chk : Bool) (acc : Acc) (id : U32) (v : Var)
    (o : Outcome Unit Json) : Prop :=
  ∃ bs, out h (getVar chk acc id (List.replicate v.length 0)) s = .ok bs ∧
    readVar (fun _ _ => some bs) (Schema.addVar [] v) ⟨v.id⟩ = o

/-- **C109 (as stated).** After a program has set a variable, a query shows the value. -/
def C109_claim : Prop :=
  ∀ (h : Hasher) (s : Storage) (chk : Bool) (env : Env) (id : U32) (raw : RawVar) (t : PrimTy) (x : t.Raw)
    (mem : Bytes), NoCollision h → Reach h s → env.mode = .fullAccess → LayoutOk env.storage.layout →
    env.storage.layout.get id = some raw → raw.byteSize.toNat = t.byteCount → SetRoom env mem t x →
    Shows h (after h ((setCell t id x mem).run chk env) s) chk env.storage id (varFor id raw t)
      (.ok (shown t (denote t x mem)))

/-- **C110 (as stated).** A query whose reader returns as many bytes as the layout says answers each request, in
order. -/
def C110_claim : Prop :=
  ∀ (read : Req → Var → Option Bytes) (schema : Schema) (reqs : List Req),
    (∀ r v b, read r v = some b → b.length = v.length) → ∃ l, run read schema reqs = some l ∧
      l.length = reqs.length ∧ ∀ (i : Nat) (req : Req), reqs[i]? = some req →
        (∃ j, readVar read schema req = .ok j ∧ l[i]? = some (some j)) ∨
          (readVar read schema req = .err () ∧ l[i]? = some none)

/-! ## Lemmas -/

theorem beNat_append (a b : Bytes) : beNat (a ++ b) = beNat a * 256 ^ b.length + beNat b := by
  induction a with
  | nil => simp [beNat]
  | cons x a ih =>
    simp only [List.cons_append, beNat, List.length_append, ih, Nat.pow_add]
    ring

theorem extendSign_toInt {n v : Nat} (h1 : 1 ≤ n) (h8 : n ≤ 8) (hv : v < 256 ^ n) :
    (extendSign (BitVec.ofNat 64 v) n).toInt = (BitVec.ofNat (8 * n) v).toInt := by
  have key : ∀ n < 9, 1 ≤ n → ∀ v < 256 ^ n,
      (extendSign (BitVec.ofNat 64 v) n).toInt = (BitVec.ofNat (8 * n) v).toInt := by
    intro n hn h1 v hv
    unfold extendSign
    rw [BitVec.toInt_sshiftRight, BitVec.toInt_eq_toNat_cond, BitVec.toInt_eq_toNat_cond,
      Int.shiftRight_eq_div_pow]
    simp only [BitVec.toNat_shiftLeft, BitVec.toNat_ofNat, Nat.shiftLeft_eq]
    interval_cases n <;> norm_num at hv ⊢ <;> split <;> split <;> omega
  exact key n (by omega) h1 v hv

theorem beNat_natLE (n x : Nat) : beNat (natLE n x) =
    ((List.range n).map fun i => (x / 256 ^ i % 256) * 256 ^ (n - 1 - i)).sum := by
  induction n generalizing x with
  | zero => rfl
  | succ n ih =>
    rw [natLE, beNat, natLE_length, ih, List.range_succ_eq_map, List.map_cons, List.sum_cons, List.map_map]
    congr 1
    · simp
    · congr 1
      apply List.map_congr_left
      intro i _
      show (x / 256 / 256 ^ i % 256) * 256 ^ (n - 1 - i) =
        (x / 256 ^ (i + 1) % 256) * 256 ^ (n + 1 - 1 - (i + 1))
      rw [Nat.div_div_eq_div_mul, Nat.pow_succ, Nat.mul_comm 256]
      congr 2
      omega

theorem swap_eq {n : Nat} (x : BitVec (8 * n)) : swap x = BitVec.ofNat _ (beNat (natLE n x.toNat)) := by
  unfold swap
  rw [beNat_natLE]

theorem natLE_leNat (bs : Bytes) : natLE bs.length (leNat bs) = bs := by
  induction bs with
  | nil => rfl
  | cons b bs ih =>
    have hb := b.toNat_lt
    have h1 : (b.toNat + 256 * leNat bs) % 256 = b.toNat := by omega
    have h2 : (b.toNat + 256 * leNat bs) / 256 = leNat bs := by omega
    simp only [List.length_cons, leNat, natLE, h1, h2, ih]
    simp

/-- The bytes of a variable after a setter. -/
theorem stored {h : Hasher} (hc : NoCollision h) {s : Storage} (hr : Reach h s) (chk : Bool)
    (env : Env) (hm : env.mode = .fullAccess) (hl : LayoutOk env.storage.layout) {id : U32} {raw : RawVar}
    (hg : env.storage.layout.get id = some raw) {t : PrimTy} (hsz : raw.byteSize.toNat = t.byteCount)
    (x : t.Raw) (mem : Bytes) (h1 : SetRoom env mem t x) :
    out h (getVar chk env.storage id (List.replicate raw.byteSize.toNat 0))
      (after h ((setCell t id x mem).run chk env) s) = .ok ((cellBytes t x mem).take t.byteCount) := by
  have hpos := byteCount_pos t
  have hlen := cellBytes_length h1
  obtain ⟨w', e1, e2⟩ := set_get_bytes hc hr chk hl hg (by omega) (cellBytes t x mem) (by omega)
  rw [out_eval hc, view_after hc, setCell_eval hm h1 e1, e2 _ (by simp), hsz]
  simp

theorem shows_iff {h : Hasher} {s : Storage} {chk : Bool} {acc : Acc} {id : U32} {v : Var} {bs : Bytes}
    (hb : out h (getVar chk acc id (List.replicate v.length 0)) s = .ok bs) {o : Outcome Unit Json} :
    Shows h s chk acc id v o ↔ render v bs = o := by
  have hv : (Schema.addVar [] v).var v.id = some v := by simp [Schema.addVar, Schema.var]
  unfold Shows readVar
  rw [hv]
  constructor
  · rintro ⟨bs', e1, e2⟩
    rw [hb] at e1
    cases e1
    exact e2
  · exact fun e => ⟨bs, hb, e⟩

/-- What is shown of an integer of `n` bytes. -/
theorem render_int {v : Var} {signed : Bool} (ht : v.ty = .int signed) {n : Nat} (h1 : 1 ≤ n) (h8 : n ≤ 8)
    (hn : v.length = n) (x : BitVec (8 * n)) : render v (natLE n x.toNat) =
      .ok (.int (if signed then (swap x).toInt else (swap x).toNat)) := by
  have hlt := beNat_lt (natLE n x.toNat)
  rw [natLE_length] at hlt
  have hle : 256 ^ n ≤ 2 ^ 64 := by
    calc 256 ^ n ≤ 256 ^ 8 := Nat.pow_le_pow_right (by decide) h8
      _ = 2 ^ 64 := by norm_num
  unfold render
  rw [ht]
  show renderInt v _ signed = _
  have hread : readUint ((natLE n x.toNat).take v.length ++
      List.replicate ((natLE n x.toNat).length - v.length) 0) =
        some (BitVec.ofNat 64 (beNat (natLE n x.toNat))) := by
    rw [natLE_length, hn, Nat.sub_self, List.take_of_length_le (by rw [natLE_length])]
    unfold readUint
    rw [if_pos (by simp [natLE_length]; omega)]
    simp
  unfold renderInt
  rw [if_neg (by omega), if_neg (by rw [natLE_length]; omega), hread, natLE_length, swap_eq]
  show Outcome.ok (Json.int _) = _
  rw [extendSign_toInt h1 h8 hlt]
  have h3 : (BitVec.ofNat 64 (beNat (natLE n x.toNat))).toNat =
      (BitVec.ofNat (8 * n) (beNat (natLE n x.toNat))).toNat := by
    rw [BitVec.toNat_ofNat, BitVec.toNat_ofNat, Nat.mod_eq_of_lt (by omega), Nat.mod_eq_of_lt]
    rwa [Nat.pow_mul]
  rw [h3]

/-- The bytes of an integer. -/
theorem int_bytes {w : Width} {s : Bool} (x : BitVec (8 * w.bytes)) (mem : Bytes) :
    (cellBytes (.int w s) x mem).take w.bytes = natLE w.bytes x.toNat := by
  have hv : leNat ((cellBytes (.int w s) x mem).take w.bytes) = x.toNat ∧
      ((cellBytes (.int w s) x mem).take w.bytes).length = w.bytes := by
    have e : ∀ n k y, k ≤ n → ((natLE n y).take k).length = k := by
      intro n k y hk
      simp [natLE_length, hk]
    have b : ∀ n, w.bytes ≤ n → (castInt w s (8 * n) x).toNat % 256 ^ w.bytes = x.toNat := by
      intro n hn
      have := castInt_back (s := s) x (n := 8 * n) (by omega)
      have := congrArg BitVec.toNat this
      simpa [Nat.pow_mul, BitVec.toNat_ofNat] using this
    cases w with
    | w8 => exact ⟨(take_natLE 4 1 _ (by decide)).trans (b 4 (by decide)), e 4 1 _ (by decide)⟩
    | w16 => exact ⟨(take_natLE 4 2 _ (by decide)).trans (b 4 (by decide)), e 4 2 _ (by decide)⟩
    | w32 => exact ⟨(take_natLE 4 4 _ (by decide)).trans (b 4 (by decide)), e 4 4 _ (by decide)⟩
    | w64 => exact ⟨(take_natLE 8 8 _ (by decide)).trans (b 8 (by decide)), e 8 8 _ (by decide)⟩
  rw [← natLE_leNat ((cellBytes (.int w s) x mem).take w.bytes), hv.1, hv.2]

/-! ## C109 -/

section
variable {h : Hasher} (hc : NoCollision h) {s : Storage} (hr : Reach h s) (chk : Bool) {env : Env}
  (hm : env.mode = .fullAccess) (hl : LayoutOk env.storage.layout) {id : U32} {raw : RawVar}
  (hg : env.storage.layout.get id = some raw)
include hc hr hm hl hg

/-- **C109, what happens.** Of an integer that a program has set, a query shows the integer with the
bytes in the opposite order. -/
theorem C109_swapped {w : Width} {signed : Bool} (hsz : raw.byteSize.toNat = w.bytes)
    (x : BitVec (8 * w.bytes)) (mem : Bytes) :
    Shows h (after h ((setCell (.int w signed) id x mem).run chk env) s) chk env.storage id
      (varFor id raw (.int w signed)) (.ok (shown (.int w signed) (swap x))) := by
  have hst := stored hc hr chk env hm hl hg (t := .int w signed) hsz x mem trivial
  rw [show (cellBytes (.int w signed) x mem).take (PrimTy.int w signed).byteCount =
    natLE w.bytes x.toNat from int_bytes x mem] at hst
  refine (shows_iff (v := varFor id raw (.int w signed)) hst).2 ?_
  have hpos : 1 ≤ w.bytes := (byteCount_pos (.int w signed)).1
  rw [render_int (signed := signed) rfl hpos (by cases w <;> decide) hsz x]
  cases signed <;> rfl

/-- **C109, exactly.** The integer that is shown is the one that was set exactly if its bytes read the same
in both directions. -/
theorem C109_iff {w : Width} {signed : Bool} (hsz : raw.byteSize.toNat = w.bytes)
    (x : BitVec (8 * w.bytes)) (mem : Bytes) :
    Shows h (after h ((setCell (.int w signed) id x mem).run chk env) s) chk env.storage id
      (varFor id raw (.int w signed)) (.ok (shown (.int w signed) x)) ↔ swap x = x := by
  constructor
  · intro hs
    obtain ⟨bs, e1, e2⟩ := hs
    obtain ⟨bs', e3, e4⟩ := C109_swapped hc hr chk hm hl hg (signed := signed) hsz x mem
    rw [e1] at e3
    cases e3
    rw [e2] at e4
    cases signed with
    | true =>
      injection e4 with e4
      injection e4 with e4
      exact (BitVec.eq_of_toInt_eq e4).symm
    | false =>
      injection e4 with e4
      injection e4 with e4
      exact (BitVec.eq_of_toNat_eq (Int.ofNat.inj e4)).symm
  · intro e
    have := C109_swapped hc hr chk hm hl hg (signed := signed) hsz x mem
    rwa [e] at this

/-- **C109, amounts.** The same for amounts that the schema declares as integers. -/
theorem C109_amount (hsz : raw.byteSize.toNat = 8) (x : U64) (mem : Bytes) :
    Shows h (after h ((setCell .amount id x mem).run chk env) s) chk env.storage id
      (varFor id raw .amount) (.ok (.int (swap (n := 8) x).toNat)) := by
  exact C109_swapped hc hr chk hm hl hg (w := .w64) (signed := false) hsz x mem

/-- **C109, the part that holds.** Flags, integers of one byte, and addresses are shown as they were set. -/
theorem C109_partial {t : PrimTy} (ht : t.byteCount = 1 ∨ t = .address) (hsz : raw.byteSize.toNat = t.byteCount)
    (x : t.Raw) (mem : Bytes) (h1 : SetRoom env mem t x) :
    Shows h (after h ((setCell t id x mem).run chk env) s) chk env.storage id (varFor id raw t)
      (.ok (shown t (denote t x mem))) := by
  match t, x, h1, ht, hsz with
  | .bool, b, h1, _, hsz =>
    have hst := stored hc hr chk env hm hl hg (t := .bool) hsz b mem h1
    refine (shows_iff (v := varFor id raw .bool) hst).2 ?_
    cases b <;> rfl
  | .int .w8 signed, x, h1, _, hsz =>
    refine (C109_iff hc hr chk hm hl hg (w := .w8) (signed := signed) hsz x mem).2 ?_
    apply BitVec.eq_of_toNat_eq
    have := x.isLt
    unfold swap
    rw [BitVec.toNat_ofNat]
    simp [Width.bytes] at this ⊢
    exact this
  | .int .w16 _, _, _, ht, _ => exact absurd ht (by simp [PrimTy.byteCount, Width.bytes])
  | .int .w32 _, _, _, ht, _ => exact absurd ht (by simp [PrimTy.byteCount, Width.bytes])
  | .int .w64 _, _, _, ht, _ => exact absurd ht (by simp [PrimTy.byteCount, Width.bytes])
  | .amount, _, _, ht, _ => exact absurd ht (by simp [PrimTy.byteCount])
  | .address, ptr, h1, _, hsz =>
    have hst := stored hc hr chk env hm hl hg (t := .address) hsz ptr mem h1
    refine (shows_iff (v := varFor id raw .address) hst).2 ?_
    show Outcome.ok (Json.str (prefixed _)) = Outcome.ok (Json.str (prefixed _))
    rw [show (cellBytes .address ptr mem).take PrimTy.address.byteCount = denote .address ptr mem from by
      simp [cellBytes, denote, PrimTy.byteCount]]

end

/-- Different bytes are shown differently. -/
theorem C109_hex_injective (a b : Bytes) :
    (prefixed a = prefixed b → a = b) ∧ (hexStr a = hexStr b → a = b) := by
  have e : hexEncode a = hexEncode b → a = b := by
    intro e
    have := hexDecode_hexEncode a
    rw [e, hexDecode_hexEncode] at this
    exact (Option.some.inj this).symm
  constructor
  · intro h
    have := congrArg Subtype.val h
    exact e (by simpa [prefixed] using this)
  · intro h
    exact e (congrArg Subtype.val h)

/-- C109 is violated. -/
theorem C109_claim_false : ¬ C109_claim := by
  intro hclaim
  obtain ⟨h, hc⟩ := exists_noCollision
  have hl := demo_deployed.matches.2.1
  have hg : demoStructEnv.storage.layout.get 4 = some ⟨4, 68, 2⟩ := by decide
  have := (C109_iff hc Reach.fresh true (env := demoStructEnv) rfl hl hg (w := .w16) (signed := true) rfl
    1 []).1 (hclaim h _ true demoStructEnv 4 _ (.int .w16 true) 1 [] hc Reach.fresh rfl hl hg rfl trivial)
  exact absurd this (by decide)

/-- Non-vacuity of `C109_swapped`, `C109_iff` and `C109_partial`: the counter and an address of the account
of C77. -/
example : (∃ h, NoCollision h ∧ Reach h Svm.Storage.fresh) ∧ demoStructEnv.mode = .fullAccess ∧
    LayoutOk demoStructEnv.storage.layout ∧
    (∃ raw, demoStructEnv.storage.layout.get 4 = some raw ∧ raw.byteSize.toNat = Width.w16.bytes) ∧
    (∃ raw, demoStructEnv.storage.layout.get 2 = some raw ∧ raw.byteSize.toNat = PrimTy.address.byteCount) ∧
    SetRoom demoStructEnv (List.replicate 100 7) .address 60 := by
  refine ⟨?_, rfl, demo_deployed.matches.2.1, ⟨⟨4, 68, 2⟩, by decide, rfl⟩, ⟨⟨2, 28, 20⟩, by decide, rfl⟩, rfl,
    by simp⟩
  obtain ⟨h, hc⟩ := exists_noCollision
  exact ⟨h, hc, Reach.fresh⟩

/-- A counter that is 1 is shown as 256. -/
example : shown (.int .w16 true) (swap (n := 2) 1) = .int 256 := by
  exact congrArg Json.int (by decide : (swap (n := 2) 1).toInt = 256)

/-! ## C110 -/

/-- Requests that are not answered. -/
def Fatal (v : Var) (b : Bytes) : Prop :=
  match v.ty with
  | .balance => True
  | .bool => b.length ≠ 1
  | .int _ => v.length ≤ 8 ∧ (b.length < v.length ∨ b.length = 0 ∨ 8 < b.length)
  | _ => False

theorem render_panic {v : Var} {b : Bytes} : render v b = .panic ↔ Fatal v b := by
  unfold render Fatal
  cases v.ty with
  | bool =>
    match b with
    | [] => simp [renderBool]
    | [x] =>
      simp only [renderBool]
      split
      · simp
      · split <;> simp
    | _ :: _ :: _ => simp [renderBool]
  | int signed =>
    show renderInt v b signed = .panic ↔ v.length ≤ 8 ∧ (b.length < v.length ∨ b.length = 0 ∨ 8 < b.length)
    unfold renderInt
    split
    · constructor
      · intro e; cases e
      · omega
    · split
      · simp; omega
      · unfold readUint
        have hlen : (b.take v.length ++ List.replicate (b.length - v.length) 0).length = b.length := by
          simp; omega
        rw [hlen]
        by_cases hb : 1 ≤ b.length ∧ b.length ≤ 8
        · rw [if_pos hb]
          constructor
          · intro e; cases e
          · omega
        · rw [if_neg hb]
          simp only [true_iff]
          omega
  | blob => simp
  | balance => simp
  | pubKey => simp
  | address => simp

theorem run_none (read : Req → Var → Option Bytes) (schema : Schema) (reqs : List Req) :
    run read schema reqs = none ↔ ∃ req ∈ reqs, readVar read schema req = .panic := by
  induction reqs with
  | nil => simp [run]
  | cons req reqs ih =>
    rw [run]
    cases e : readVar read schema req with
    | panic => simp [e]
    | ok j => simp [e, ih]
    | err u => simp [e, ih]

/-- **C110, exactly.** A query panics, and loses all the answers, exactly if one of its requests is for a
variable that the schema declares as a balance, as a flag of which not exactly one byte is read, or as an
integer of at most 8 bytes of which fewer bytes than declared, none, or more than 8 are read. -/
theorem C110_iff (read : Req → Var → Option Bytes) (schema : Schema) (reqs : List Req) :
    run read schema reqs = none ↔ ∃ req ∈ reqs, ∃ v b, schema.var req.varId = some v ∧
      read req v = some b ∧ Fatal v b := by
  rw [run_none]
  refine exists_congr fun req => and_congr_right fun _ => ?_
  unfold readVar
  cases e : schema.var req.varId with
  | none => simp
  | some v =>
    cases e2 : read req v with
    | none => simp [e2]
    | some b => simp [e2, render_panic]

/-- **C110, the part that holds.** With a reader that returns as many bytes as the layout says, and a schema
without balances whose flags have one byte and whose integers are not empty, every query answers every
request. -/
theorem C110_answers_partial {read : Req → Var → Option Bytes} {schema : Schema}
    (hread : ∀ r v b, read r v = some b → b.length = v.length)
    (hok : ∀ v ∈ schema, v.ty ≠ .balance ∧ (v.ty = .bool → v.length = 1) ∧
      (∀ s, v.ty = .int s → v.length ≠ 0)) (reqs : List Req) :
    ∃ l, run read schema reqs = some l ∧ l.length = reqs.length := by
  have hnone : run read schema reqs ≠ none := by
    intro e
    obtain ⟨req, -, v, b, e1, e2, e3⟩ := (C110_iff _ _ _).1 e
    have hv := List.mem_of_find?_eq_some e1
    have hb := hread _ _ _ e2
    obtain ⟨o1, o2, o3⟩ := hok v hv
    unfold Fatal at e3
    cases ht : v.ty with
    | balance => exact o1 ht
    | bool => rw [ht] at e3; exact e3 (by rw [hb, o2 ht])
    | int s =>
      rw [ht] at e3
      have := o3 s ht
      simp only at e3
      omega
    | blob => rw [ht] at e3; exact e3
    | pubKey => rw [ht] at e3; exact e3
    | address => rw [ht] at e3; exact e3
  obtain ⟨l, hl⟩ := Option.ne_none_iff_exists'.1 hnone
  refine ⟨l, hl, ?_⟩
  clear hnone
  induction reqs generalizing l with
  | nil => simp [run] at hl; simp [← hl]
  | cons req reqs ih =>
    rw [run] at hl
    cases e : readVar read schema req with
    | panic => rw [e] at hl; cases hl
    | ok j =>
      rw [e] at hl
      obtain ⟨l', e1, e2⟩ := Option.map_eq_some_iff.1 hl
      rw [← e2, List.length_cons, List.length_cons, ih l' e1]
    | err u =>
      rw [e] at hl
      obtain ⟨l', e1, e2⟩ := Option.map_eq_some_iff.1 hl
      rw [← e2, List.length_cons, List.length_cons, ih l' e1]

/-- **C110.** The answers are in the order of the requests. -/
theorem C110_order {read : Req → Var → Option Bytes} {schema : Schema} {reqs : List Req}
    {l : List (Option Json)} (hrun : run read schema reqs = some l) {i : Nat} {req : Req}
    (hi : reqs[i]? = some req) :
    (∃ j, readVar read schema req = .ok j ∧ l[i]? = some (some j)) ∨
      (readVar read schema req = .err () ∧ l[i]? = some none) := by
  induction reqs generalizing l i with
  | nil => simp at hi
  | cons r reqs ih =>
    rw [run] at hrun
    cases e : readVar read schema r with
    | panic => rw [e] at hrun; cases hrun
    | ok j =>
      rw [e] at hrun
      obtain ⟨l', e1, rfl⟩ := Option.map_eq_some_iff.1 hrun
      cases i with
      | zero =>
        cases hi
        exact .inl ⟨j, e, rfl⟩
      | succ i => exact ih e1 hi
    | err u =>
      rw [e] at hrun
      obtain ⟨l', e1, rfl⟩ := Option.map_eq_some_iff.1 hrun
      cases i with
      | zero =>
        cases hi
        exact .inr ⟨e, rfl⟩
      | succ i => exact ih e1 hi

/-- C110 is violated: asking for a balance panics. -/
theorem C110_claim_false : ¬ C110_claim := by
  intro hclaim
  obtain ⟨l, hl, _⟩ := hclaim (fun _ v => some (List.replicate v.length 0)) [⟨0, 0, 8, .balance⟩] [⟨0⟩]
    (fun r v b e => by cases e; simp)
  cases hl

/-- A schema that meets the hypotheses of `C110_answers_partial`: a query for two variables and an unknown
one. -/
example : (∀ v ∈ ([⟨0, 0, 1, .bool⟩, ⟨1, 1, 4, .int true⟩] : Schema), v.ty ≠ .balance ∧
    (v.ty = .bool → v.length = 1) ∧ (∀ s, v.ty = .int s → v.length ≠ 0)) ∧
    (run (fun _ v => some (List.replicate v.length 0)) [⟨0, 0, 1, .bool⟩, ⟨1, 1, 4, .int true⟩]
      [⟨1⟩, ⟨7⟩, ⟨0⟩] = some [some (.int 0), none, some (.bool false)]) := by
  refine ⟨?_, rfl⟩
  intro v hv
  rcases List.mem_cons.1 hv with rfl | hv
  · simp
  · rcases List.mem_cons.1 hv with rfl | hv
    · simp
    · cases hv

end Svm.Query
