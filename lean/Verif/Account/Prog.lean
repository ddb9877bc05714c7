import Verif.Storage.Lemmas
import Verif.Codec.Basic

/-!
# Keys of the global state and programs over it

The account, template and runtime code reads and writes the storage only through textual keys. A
function of that code is modelled as a `Prog`: a sequence of reads and writes of keys that ends with
a value, an error or a panic. `Prog.run` executes it on the modelled storage of `Storage/Model`.
-/

namespace Svm.Account

open Svm.Storage (Hasher Storage StorageError)
open Svm.Codec (Addr)

/-! ## Textual keys -/

/-- ASCII text as bytes. -/
def ascii (cs : List Char) : Bytes := cs.map fun c => UInt8.ofNat c.toNat

/-- One upper case hexadecimal digit (`hex::encode_upper`, crates/host/types/src/lib.rs:142-144). -/
def hexDigit (d : Nat) : UInt8 := UInt8.ofNat (if d < 10 then 48 + d else 55 + d)

/-- Two upper case hexadecimal digits of a byte. -/
def hexByte (b : UInt8) : Bytes := [hexDigit (b.toNat / 16), hexDigit (b.toNat % 16)]

/-- `Address::to_string`, crates/host/types/src/lib.rs:142-144. -/
def hex (bs : Bytes) : Bytes := bs.flatMap hexByte

/-- Decimal rendering of an unsigned integer (`{}` of `format!`). -/
def decimal (n : Nat) : Bytes :=
  if n < 10 then [UInt8.ofNat (48 + n)]
  else decimal (n / 10) ++ [UInt8.ofNat (48 + n % 10)]
termination_by n

/-- The objects that have a key. -/
inductive Key where
  /-- `AccountData::key`, crates/host/state/src/account_storage.rs:395-397. -/
  | accData (a : Addr)
  /-- `AccountMut::key`, account_storage.rs:438-440. -/
  | accMut (a : Addr)
  /-- `key_account_var_segment`, account_storage.rs:323-329; the segment number is a `u32`. -/
  | seg (a : Addr) (i : BitVec 32)
  /-- `key_core`, crates/host/state/src/template_storage.rs:68-70. -/
  | core (t : Addr)
  /-- `key_noncore`, template_storage.rs:72-74. -/
  | noncore (t : Addr)
  deriving DecidableEq, Repr

/-- The text of a key (the `format!` calls cited at `Key`). -/
def Key.text : Key → Bytes
  | .accData a => ascii ['a','c','c','o','u','n','t','s',':'] ++ (hex a.1 ++
      ascii [':','i','m','m','u','t','a','b','l','e'])
  | .accMut a => ascii ['a','c','c','o','u','n','t','s',':'] ++ (hex a.1 ++
      ascii [':','m','u','t','a','b','l','e'])
  | .seg a i => ascii ['a','c','c','o','u','n','t','s',':'] ++ (hex a.1 ++
      (ascii [':','v','a','r','_','s','e','g','m','e','n','t','s',':'] ++ decimal i.toNat))
  | .core t => ascii ['t','e','m','p','l','a','t','e','s',':'] ++ (hex t.1 ++
      ascii [':','c','o','r','e'])
  | .noncore t => ascii ['t','e','m','p','l','a','t','e','s',':'] ++ (hex t.1 ++
      ascii [':','n','o','n','c','o','r','e'])

/-- The hash function has no collision between two keys of the global state. (There are fewer than
2^195 keys, so such functions exist; `Props.lean` exhibits one.) -/
def NoCollision (h : Hasher) : Prop :=
  ∀ k k' : Key, h.hash k.text = h.hash k'.text → k = k'

/-! ## Programs -/

/-- `StorageError`, crates/host/state/src/error.rs. -/
inductive SErr where
  | notFound
  | illegalData
  | storage (e : StorageError)
  deriving DecidableEq, Repr

/-- Code that reads and writes keys of the global state. -/
inductive Prog (α : Type) : Type where
  | ret (a : α)
  | err (e : SErr)
  /-- `held`: the guard of the lock of the storage is held, so the panic poisons it
  (crates/host/state/src/global_state.rs:164-168; see `Runtime/Poison`). -/
  | panic (held : Bool := false)
  /-- `gs.storage().get(key, None)`. -/
  | get (k : Key) (f : Option Bytes → Prog α)
  /-- `gs.storage().upsert(key, value)`. -/
  | set (k : Key) (v : Bytes) (p : Prog α)

namespace Prog

variable {α β : Type}

/-- Sequencing (`?` after each step). -/
def bind : Prog α → (α → Prog β) → Prog β
  | .ret a, f => f a
  | .err e, _ => .err e
  | .panic held, _ => .panic held
  | .get k g, f => .get k fun v => (g v).bind f
  | .set k v p, f => .set k v (p.bind f)

instance : Monad Prog where
  pure := .ret
  bind := Prog.bind

/-- Read a key. -/
def read (k : Key) : Prog (Option Bytes) := .get k .ret

/-- Write a key. -/
def write (k : Key) (v : Bytes) : Prog Unit := .set k v (.ret ())

/-- `unwrap` of an `Option`, or an explicit panic. -/
def ofOption : Option α → Prog α
  | some a => .ret a
  | none => .panic

/-- `unwrap` of the whole result: an error becomes a panic. -/
def unwrap : Prog α → Prog α
  | .ret a => .ret a
  | .err _ => .panic
  | .panic held => .panic held
  | .get k f => .get k fun v => (f v).unwrap
  | .set k v p => .set k v p.unwrap

/-- Execution on the storage. -/
def run (h : Hasher) : Prog α → Storage → Storage × Outcome SErr α
  | .ret a, s => (s, .ok a)
  | .err e, s => (s, .err e)
  | .panic _, s => (s, .panic)
  | .get k f, s =>
    match Storage.get h s k.text none with
    | .ok v => (f v).run h s
    | .err e => (s, .err (.storage e))
    | .panic => (s, .panic)
  | .set k v p, s => p.run h (Storage.upsert h s k.text v)

end Prog

/-! ## The same programs on an abstract map -/

/-- The current value of every key. -/
abbrev View := Key → Option Bytes

/-- Replace the value of one key. -/
def View.set (w : View) (k : Key) (v : Bytes) : View := fun k' => if k' = k then some v else w k'

/-- What a read without a layer returns for every key. -/
def view (h : Hasher) (s : Storage) : View := fun k =>
  ((s.dirty.get (h.hash k.text)).or (s.next.changes.get (h.hash k.text))).or
    (Svm.Storage.queryCurrent s.db (h.hash k.text))

namespace Prog

variable {α β : Type}

/-- Execution on a map. -/
def eval : Prog α → View → View × Outcome SErr α
  | .ret a, w => (w, .ok a)
  | .err e, w => (w, .err e)
  | .panic _, w => (w, .panic)
  | .get k f, w => (f (w k)).eval w
  | .set k v p, w => p.eval (w.set k v)

end Prog

/-! ## Lemmas -/

theorem get_view (h : Hasher) (s : Storage) (k : Key) :
    Storage.get h s k.text none = .ok (view h s k) := by
  unfold Storage.get Svm.Storage.getByHash view
  cases s.dirty.get (h.hash k.text) with
  | some v => rfl
  | none => cases s.next.changes.get (h.hash k.text) <;> rfl

theorem view_upsert {h : Hasher} (hc : NoCollision h) (s : Storage) (k : Key) (v : Bytes) :
    view h (Storage.upsert h s k.text v) = (view h s).set k v := by
  funext k'
  unfold view View.set Storage.upsert Svm.Storage.upsertByHash
  simp only [AMap.get_insert]
  by_cases hk : k' = k
  · subst hk; simp
  · rw [if_neg hk, if_neg (fun e => hk (hc _ _ e).symm)]

namespace Prog

variable {α β : Type}

/-- What a program can do to the storage: it only changes the dirty overlay. -/
theorem run_frame (h : Hasher) (p : Prog α) (s : Storage) :
    (p.run h s).1.db = s.db ∧ (p.run h s).1.next = s.next := by
  induction p generalizing s with
  | ret | err | panic => exact ⟨rfl, rfl⟩
  | get k f ih =>
    simp only [run, get_view]
    exact ih _ s
  | set k v p ih => exact ih _

/-- Execution on the storage agrees with execution on the map of current values. -/
theorem run_eval {h : Hasher} (hc : NoCollision h) (p : Prog α) (s : Storage) :
    (p.run h s).2 = (p.eval (view h s)).2 ∧
      view h (p.run h s).1 = (p.eval (view h s)).1 := by
  induction p generalizing s with
  | ret | err | panic => exact ⟨rfl, rfl⟩
  | get k f ih =>
    simp only [run, eval, get_view]
    exact ih _ s
  | set k v p ih =>
    simp only [run, eval]
    rw [← view_upsert hc]
    exact ih _

@[simp] theorem pure_eq (a : α) : (pure a : Prog α) = .ret a := rfl
@[simp] theorem bind_eq (p : Prog α) (f : α → Prog β) : (p >>= f) = p.bind f := rfl

theorem eval_bind (p : Prog α) (f : α → Prog β) (w : View) :
    (p.bind f).eval w =
      match p.eval w with
      | (w', .ok a) => (f a).eval w'
      | (w', .err e) => (w', .err e)
      | (w', .panic) => (w', .panic) := by
  induction p generalizing w with
  | ret | err | panic => rfl
  | get k g ih => exact ih _ w
  | set k v p ih => exact ih _

theorem run_bind (h : Hasher) (p : Prog α) (f : α → Prog β) (s : Storage) :
    (p.bind f).run h s =
      match p.run h s with
      | (s', .ok a) => (f a).run h s'
      | (s', .err e) => (s', .err e)
      | (s', .panic) => (s', .panic) := by
  induction p generalizing s with
  | ret | err | panic => rfl
  | get k g ih =>
    simp only [Prog.bind, run, get_view]
    exact ih _ s
  | set k v p ih => exact ih _

theorem eval_bind_ok {p : Prog α} {f : α → Prog β} {w w' : View} {a : α}
    (h : p.eval w = (w', .ok a)) : (p.bind f).eval w = (f a).eval w' := by
  rw [eval_bind, h]

theorem eval_bind_panic {p : Prog α} {f : α → Prog β} {w w' : View}
    (h : p.eval w = (w', .panic)) : (p.bind f).eval w = (w', .panic) := by
  rw [eval_bind, h]

theorem eval_bind_err {p : Prog α} {f : α → Prog β} {w w' : View} {e : SErr}
    (h : p.eval w = (w', .err e)) : (p.bind f).eval w = (w', .err e) := by
  rw [eval_bind, h]

theorem eval_unwrap (p : Prog α) (w : View) :
    p.unwrap.eval w =
      match p.eval w with
      | (w', .ok a) => (w', .ok a)
      | (w', .err _) => (w', .panic)
      | (w', .panic) => (w', .panic) := by
  induction p generalizing w with
  | ret | err | panic => rfl
  | get k g ih => exact ih _ w
  | set k v p ih => exact ih _

@[simp] theorem eval_read (k : Key) (w : View) : (read k).eval w = (w, .ok (w k)) := rfl
@[simp] theorem eval_write (k : Key) (v : Bytes) (w : View) :
    (write k v).eval w = (w.set k v, .ok ()) := rfl
@[simp] theorem eval_ret (a : α) (w : View) : (Prog.ret a).eval w = (w, .ok a) := rfl
@[simp] theorem eval_panic (held : Bool) (w : View) : (Prog.panic held : Prog α).eval w = (w, .panic) := rfl
@[simp] theorem eval_err (e : SErr) (w : View) : (Prog.err e : Prog α).eval w = (w, .err e) := rfl
@[simp] theorem eval_ofOption_some (a : α) (w : View) : (ofOption (some a)).eval w = (w, .ok a) := rfl
@[simp] theorem eval_ofOption_none (w : View) :
    (ofOption (none : Option α)).eval w = (w, .panic) := rfl

end Prog

@[simp] theorem View.set_self (w : View) (k : Key) (v : Bytes) : w.set k v k = some v := by
  simp [View.set]

theorem View.set_ne (w : View) {k k' : Key} (v : Bytes) (h : k' ≠ k) : w.set k v k' = w k' := by
  simp [View.set, h]

/-! ### Injectivity of keys -/

theorem hexDigit_inj : ∀ x < 16, ∀ y < 16, hexDigit x = hexDigit y → x = y := by decide

theorem hexByte_inj {b c : UInt8} (h : hexByte b = hexByte c) : b = c := by
  have hb := b.toNat_lt
  have hc := c.toNat_lt
  simp only [hexByte, List.cons.injEq, and_true] at h
  have h1 := hexDigit_inj _ (by omega) _ (by omega) h.1
  have h2 := hexDigit_inj _ (by omega) _ (by omega) h.2
  apply UInt8.toNat.inj
  omega

theorem hex_length (bs : Bytes) : (hex bs).length = 2 * bs.length := by
  induction bs with
  | nil => rfl
  | cons b bs ih =>
    simp only [hex, List.flatMap_cons, List.length_append, List.length_cons] at ih ⊢
    simp only [hexByte, List.length_cons, List.length_nil]
    omega

theorem hex_inj {a b : Bytes} (h : hex a = hex b) : a = b := by
  induction a generalizing b with
  | nil =>
    have := congrArg List.length h
    rw [hex_length, hex_length] at this
    cases b with
    | nil => rfl
    | cons x xs => simp at this
  | cons x xs ih =>
    cases b with
    | nil =>
      have := congrArg List.length h
      rw [hex_length, hex_length] at this
      simp at this
    | cons y ys =>
      simp only [hex, List.flatMap_cons] at h
      obtain ⟨h1, h2⟩ := List.append_inj h rfl
      rw [hexByte_inj h1, ih h2]

/-- Value of a decimal text. -/
def undecimal (bs : Bytes) : Nat := bs.foldl (fun n b => 10 * n + (b.toNat - 48)) 0

theorem undecimal_decimal (n : Nat) : undecimal (decimal n) = n := by
  induction n using Nat.strongRecOn with
  | ind n ih =>
    rw [decimal]
    split
    · rename_i h
      simp only [undecimal, List.foldl_cons, List.foldl_nil, UInt8.toNat_ofNat']
      omega
    · have ih := ih (n / 10) (by omega)
      simp only [undecimal, List.foldl_append, List.foldl_cons, List.foldl_nil,
        UInt8.toNat_ofNat'] at ih ⊢
      rw [ih]
      omega

theorem decimal_inj {m n : Nat} (h : decimal m = decimal n) : m = n := by
  rw [← undecimal_decimal m, h, undecimal_decimal]

theorem addr_split {a b : Addr} {x y : Bytes} (h : hex a.1 ++ x = hex b.1 ++ y) : a = b ∧ x = y := by
  obtain ⟨h1, h2⟩ := List.append_inj h (by rw [hex_length, hex_length, a.2, b.2])
  exact ⟨Subtype.ext (hex_inj h1), h2⟩

theorem text_inj {k k' : Key} (h : k.text = k'.text) : k = k' := by
  cases k <;> cases k' <;> simp only [Key.text] at h
  case accData.accData => rw [(addr_split (List.append_cancel_left h)).1]
  case accData.accMut => cases (addr_split (List.append_cancel_left h)).2
  case accData.seg => cases (addr_split (List.append_cancel_left h)).2
  case accData.core => cases h
  case accData.noncore => cases h
  case accMut.accData => cases (addr_split (List.append_cancel_left h)).2
  case accMut.accMut => rw [(addr_split (List.append_cancel_left h)).1]
  case accMut.seg => cases (addr_split (List.append_cancel_left h)).2
  case accMut.core => cases h
  case accMut.noncore => cases h
  case seg.accData => cases (addr_split (List.append_cancel_left h)).2
  case seg.accMut => cases (addr_split (List.append_cancel_left h)).2
  case seg.seg =>
    obtain ⟨h1, h2⟩ := addr_split (List.append_cancel_left h)
    rw [h1, BitVec.eq_of_toNat_eq (decimal_inj (List.append_cancel_left h2))]
  case seg.core => cases h
  case seg.noncore => cases h
  case core.accData => cases h
  case core.accMut => cases h
  case core.seg => cases h
  case core.core => rw [(addr_split (List.append_cancel_left h)).1]
  case core.noncore => cases (addr_split (List.append_cancel_left h)).2
  case noncore.accData => cases h
  case noncore.accMut => cases h
  case noncore.seg => cases h
  case noncore.core => cases (addr_split (List.append_cancel_left h)).2
  case noncore.noncore => rw [(addr_split (List.append_cancel_left h)).1]

end Svm.Account
