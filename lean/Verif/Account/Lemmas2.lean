import Verif.Account.Reach

/-!
# Lemmas: records of accounts, layouts read from the storage, whole variables
-/

namespace Svm.Account

open Svm.Codec
open Svm.Layout (FixedLayout RawVar addW)
open Svm.Storage (Hasher Storage)

/-! ## Codecs of the records -/

theorem roundTrip_accountData : RoundTrip encAccountData decAccountData := by
  intro a bs rest h
  obtain ⟨b1, r1, h1, g1, rfl⟩ := Enc.seq_eq_some.1 h
  obtain ⟨b2, r2, h2, h3, rfl⟩ := Enc.seq_eq_some.1 g1
  unfold decAccountData
  simp only [List.append_assoc]
  rw [roundTrip_byte.step h1, if_neg (by simp), (roundTrip_arr 20).step h2, roundTrip_str.step h3]
  rfl

theorem roundTrip_accountMut : RoundTrip encAccountMut decAccountMut := by
  intro a bs rest h
  obtain ⟨b1, r1, h1, g1, rfl⟩ := Enc.seq_eq_some.1 h
  obtain ⟨b2, r2, h2, h3, rfl⟩ := Enc.seq_eq_some.1 g1
  unfold decAccountMut
  simp only [List.append_assoc]
  rw [roundTrip_byte.step h1, if_neg (by simp), (roundTrip_num 8).step h2, (roundTrip_num 16).step h3]
  rfl

/-- The bytes of a balance/counter record. -/
def mutBytes (d : AccountMut) : Bytes := 0 :: (natBE 8 d.balance.toNat ++ natBE 16 d.counter.toNat)

theorem encAccountMut_eq (d : AccountMut) : encAccountMut d = some (mutBytes d) := rfl

theorem decAccountMut_mutBytes (d : AccountMut) : decAccountMut (mutBytes d) = .ok (d, []) := by
  have := roundTrip_accountMut d (mutBytes d) [] (encAccountMut_eq d)
  rwa [List.append_nil] at this

/-! ## Records in a view -/

/-- The balance and counter of an account, if there is a record that decodes. -/
def money (w : View) (a : Addr) : Option AccountMut :=
  match w (.accMut a) with
  | none => none
  | some bs => match decAccountMut bs with
    | .ok (d, _) => some d
    | _ => none

/-- The name and template of an account, if there is a record that decodes. -/
def info (w : View) (a : Addr) : Option AccountData :=
  match w (.accData a) with
  | none => none
  | some bs => match decAccountData bs with
    | .ok (d, _) => some d
    | _ => none

theorem readAndDecode_ok {α : Type} {d : Dec α} {k : Key} {w : View} {bs rest : Bytes} {x : α}
    (h1 : w k = some bs) (h2 : d bs = .ok (x, rest)) : (readAndDecode d k).eval w = (w, .ok x) := by
  unfold readAndDecode
  rw [Prog.bind_eq, Prog.eval_bind_ok (Prog.eval_read _ _), h1]
  simp only [h2]
  rfl

theorem readAndDecode_view {α : Type} (d : Dec α) (k : Key) (w : View) :
    ((readAndDecode d k).eval w).1 = w := by
  unfold readAndDecode
  rw [Prog.bind_eq, Prog.eval_bind_ok (Prog.eval_read _ _)]
  cases w k with
  | none => rfl
  | some bs =>
    simp only
    cases d bs <;> rfl

theorem readAndDecode_congr {α : Type} (d : Dec α) (k : Key) {w w' : View} (h : w k = w' k) :
    ((readAndDecode d k).eval w).2 = ((readAndDecode d k).eval w').2 := by
  unfold readAndDecode
  rw [Prog.bind_eq, Prog.eval_bind_ok (Prog.eval_read _ _),
    Prog.eval_bind_ok (Prog.eval_read _ _), h]
  cases w' k with
  | none => rfl
  | some bs =>
    simp only
    cases d bs <;> rfl

theorem money_read {w : View} {a : Addr} {d : AccountMut} (h : money w a = some d) :
    (readAndDecode decAccountMut (.accMut a)).eval w = (w, .ok d) := by
  unfold money at h
  cases hw : w (.accMut a) with
  | none => rw [hw] at h; cases h
  | some bs =>
    rw [hw] at h
    simp only at h
    cases hd : decAccountMut bs with
    | ok r =>
      rw [hd] at h
      cases h
      exact readAndDecode_ok hw (rest := r.2) (by rw [hd])
    | err | panic => rw [hd] at h; cases h

theorem info_read {w : View} {a : Addr} {d : AccountData} (h : info w a = some d) :
    (readAndDecode decAccountData (.accData a)).eval w = (w, .ok d) := by
  unfold info at h
  cases hw : w (.accData a) with
  | none => rw [hw] at h; cases h
  | some bs =>
    rw [hw] at h
    simp only at h
    cases hd : decAccountData bs with
    | ok r =>
      rw [hd] at h
      cases h
      exact readAndDecode_ok hw (rest := r.2) (by rw [hd])
    | err | panic => rw [hd] at h; cases h

theorem read_money {w w' : View} {a : Addr} {d : AccountMut}
    (h : (readAndDecode decAccountMut (.accMut a)).eval w = (w', .ok d)) :
    w' = w ∧ money w a = some d := by
  have hv := readAndDecode_view decAccountMut (.accMut a) w
  rw [h] at hv
  refine ⟨hv, ?_⟩
  unfold readAndDecode at h
  rw [Prog.bind_eq, Prog.eval_bind_ok (Prog.eval_read _ _)] at h
  unfold money
  cases hw : w (.accMut a) with
  | none => rw [hw] at h; cases h
  | some bs =>
    rw [hw] at h
    simp only at h ⊢
    cases hd : decAccountMut bs with
    | ok r => rw [hd] at h; cases h; rfl
    | err | panic => rw [hd] at h; cases h

theorem read_info {w w' : View} {a : Addr} {d : AccountData}
    (h : (readAndDecode decAccountData (.accData a)).eval w = (w', .ok d)) :
    w' = w ∧ info w a = some d := by
  have hv := readAndDecode_view decAccountData (.accData a) w
  rw [h] at hv
  refine ⟨hv, ?_⟩
  unfold readAndDecode at h
  rw [Prog.bind_eq, Prog.eval_bind_ok (Prog.eval_read _ _)] at h
  unfold info
  cases hw : w (.accData a) with
  | none => rw [hw] at h; cases h
  | some bs =>
    rw [hw] at h
    simp only at h ⊢
    cases hd : decAccountData bs with
    | ok r => rw [hd] at h; cases h; rfl
    | err | panic => rw [hd] at h; cases h

theorem money_set (w : View) (a b : Addr) (d : AccountMut) :
    money (w.set (.accMut a) (mutBytes d)) b = if b = a then some d else money w b := by
  unfold money
  by_cases h : b = a
  · subst h
    simp [decAccountMut_mutBytes]
  · rw [View.set_ne _ _ (by simp [h]), if_neg h]

theorem money_congr {w w' : View} {a : Addr} (h : w (.accMut a) = w' (.accMut a)) :
    money w a = money w' a := by
  unfold money; rw [h]

theorem info_congr {w w' : View} {a : Addr} (h : w (.accData a) = w' (.accData a)) :
    info w a = info w' a := by
  unfold info; rw [h]

/-- In a reachable view a stored record always decodes. -/
theorem ViewOk.money {w : View} (hw : ViewOk w) (a : Addr) :
    (w (.accMut a) = none ∧ Account.money w a = none) ∨ ∃ d, Account.money w a = some d := by
  cases h : w (.accMut a) with
  | none => left; unfold Account.money; rw [h]; exact ⟨rfl, rfl⟩
  | some bs =>
    right
    obtain ⟨d, hd⟩ := hw (.accMut a) bs h
    rw [encAccountMut_eq] at hd
    cases hd
    exact ⟨d, by unfold Account.money; rw [h]; simp only [decAccountMut_mutBytes]⟩

theorem ViewOk.info {w : View} (hw : ViewOk w) (a : Addr) :
    (w (.accData a) = none ∧ Account.info w a = none) ∨ ∃ d, Account.info w a = some d := by
  cases h : w (.accData a) with
  | none => left; unfold Account.info; rw [h]; exact ⟨rfl, rfl⟩
  | some bs =>
    right
    obtain ⟨d, hd⟩ := hw (.accData a) bs h
    have := roundTrip_accountData d bs [] hd
    rw [List.append_nil] at this
    exact ⟨d, by unfold Account.info; rw [h]; simp only [this]⟩

theorem balance_eval {w : View} {acc : Acc} {d : AccountMut} (h : money w acc.addr = some d) :
    (balance acc).eval w = (w, .ok d.balance) := by
  unfold balance
  rw [Prog.bind_eq, Prog.eval_bind_ok (money_read h)]
  rfl

theorem counter_eval {w : View} {acc : Acc} {d : AccountMut} (h : money w acc.addr = some d) :
    (counter acc).eval w = (w, .ok d.counter) := by
  unfold counter
  rw [Prog.bind_eq, Prog.eval_bind_ok (money_read h)]
  rfl

theorem setBalance_eval {w : View} {acc : Acc} {d : AccountMut} (h : money w acc.addr = some d)
    (b : U64) : (setBalance acc b).eval w =
      (w.set (.accMut acc.addr) (mutBytes { d with balance := b }), .ok ()) := by
  unfold setBalance replace
  rw [Prog.bind_eq, Prog.eval_bind_ok (money_read h)]
  rfl

theorem setCounter_eval {w : View} {acc : Acc} {d : AccountMut} (h : money w acc.addr = some d)
    (c : U128) : (setCounter acc c).eval w =
      (w.set (.accMut acc.addr) (mutBytes { d with counter := c }), .ok ()) := by
  unfold setCounter replace
  rw [Prog.bind_eq, Prog.eval_bind_ok (money_read h)]
  rfl

theorem balance_ok {w w' : View} {acc : Acc} {b : U64} (h : (balance acc).eval w = (w', .ok b)) :
    w' = w ∧ ∃ d, money w acc.addr = some d ∧ d.balance = b := by
  unfold balance at h
  rw [Prog.bind_eq, Prog.eval_bind] at h
  cases hr : (readAndDecode decAccountMut (.accMut acc.addr)).eval w with
  | mk w1 o =>
    rw [hr] at h
    cases o with
    | ok d =>
      obtain ⟨e1, e2⟩ := read_money hr
      cases h
      exact ⟨e1, d, e2, rfl⟩
    | err | panic => cases h

/-! ## Layouts read from the storage -/

/-- Ranges inside of the address space, and different variables do not overlap. -/
structure LayoutOk (l : FixedLayout) : Prop where
  bound : ∀ id v, l.get id = some v → v.offset.toNat + v.byteSize.toNat < 2 ^ 32
  disjoint : ∀ id id' v v', l.get id = some v → l.get id' = some v' → id ≠ id' →
    v.offset.toNat + v.byteSize.toNat ≤ v'.offset.toNat ∨
      v'.offset.toNat + v'.byteSize.toNat ≤ v.offset.toNat

theorem layoutOk_default : LayoutOk FixedLayout.default := by
  constructor
  · intro id v h; cases h
  · intro id id' v v' h; cases h

/-- The offsets of the loop of `from_byte_sizes` when the total fits; the ids may wrap. -/
theorem fromSizesLoop_offsets (chk : Bool) (first : BitVec 32) (sizes : List (BitVec 32)) (i : Nat)
    (offset : BitVec 32) (hoff : offset.toNat + Layout.total sizes < 2 ^ 32) {vars : List RawVar}
    (h : Layout.fromSizesLoop chk first i offset sizes = some vars) :
    ∀ j v, vars[j]? = some v → v.offset.toNat = offset.toNat + Layout.total (sizes.take j) ∧
      sizes[j]? = some v.byteSize := by
  induction sizes generalizing i offset vars with
  | nil => cases h; simp
  | cons s ss ih =>
    simp only [Layout.total_cons] at hoff
    simp only [Layout.fromSizesLoop, Option.bind_eq_bind, Option.bind_eq_some_iff] at h
    obtain ⟨id, _, off', ho, vs, hv, hr⟩ := h
    cases hr
    obtain ⟨h2, h2'⟩ := Layout.addW_ok chk offset s (by omega)
    rw [h2] at ho
    cases ho
    intro j v hj
    cases j with
    | zero =>
      simp only [List.getElem?_cons_zero, Option.some.injEq] at hj
      subst hj
      exact ⟨by simp, rfl⟩
    | succ j =>
      simp only [List.getElem?_cons_succ] at hj
      obtain ⟨a, b⟩ := ih (i + 1) (offset + s) (by omega) hv j v hj
      simp only [List.take_succ_cons, Layout.total_cons, List.getElem?_cons_succ]
      exact ⟨by omega, b⟩

theorem layoutOk_of_sizes {chk : Bool} {first : BitVec 32} {sizes : List (BitVec 32)}
    (htot : Layout.total sizes < 2 ^ 32) {l : FixedLayout}
    (h : FixedLayout.fromByteSizes chk first sizes = some l) : LayoutOk l := by
  unfold FixedLayout.fromByteSizes at h
  simp only [Option.bind_eq_bind, Option.bind_eq_some_iff] at h
  obtain ⟨vars, hv, hr⟩ := h
  cases hr
  have hall := fromSizesLoop_offsets chk first sizes 0 0 (by simpa using htot) hv
  have hmono : ∀ (i j : Nat) (v v' : RawVar), vars[i]? = some v → vars[j]? = some v' → i < j →
      v.offset.toNat + v.byteSize.toNat ≤ v'.offset.toNat := by
    intro i j v v' h1 h2 hij
    obtain ⟨a1, a2⟩ := hall i v h1
    obtain ⟨b1, _⟩ := hall j v' h2
    have := Layout.total_take_mono sizes i j v.byteSize hij a2
    rw [show BitVec.toNat (0 : BitVec 32) = 0 from rfl] at a1 b1
    omega
  constructor
  · intro id v hg
    obtain ⟨f, i, _, _, _, h4⟩ := Layout.get_some hg
    obtain ⟨a1, a2⟩ := hall i v h4
    have hlt := (List.getElem?_eq_some_iff.1 a2).1
    have := Layout.total_take_mono sizes i sizes.length v.byteSize hlt a2
    rw [List.take_length] at this
    rw [show BitVec.toNat (0 : BitVec 32) = 0 from rfl] at a1
    omega
  · intro id id' v v' hg hg' hne
    obtain ⟨f, i, f1, f2, f3, h4⟩ := Layout.get_some hg
    obtain ⟨f', j, g1, g2, g3, h4'⟩ := Layout.get_some hg'
    cases f1
    cases g1
    have hij : i ≠ j := by
      intro hij
      apply hne
      apply BitVec.eq_of_toNat_eq
      omega
    rcases Nat.lt_or_gt_of_ne hij with hlt | hgt
    · exact .inl (hmono i j v v' h4 h4' hlt)
    · exact .inr (hmono j i v' v h4' h4 hgt)

theorem decMany_sizes {n : Nat} {inp rest : Bytes} {sizes : List (BitVec 32)}
    (h : decMany decVarSize n inp = .ok (sizes, rest)) :
    sizes.length = n ∧ ∀ s ∈ sizes, s.toNat < 65536 := by
  induction n generalizing inp sizes with
  | zero => cases h; simp
  | succ n ih =>
    unfold decMany at h
    obtain ⟨x, r, hx, h⟩ := Dec.bind_eq_ok h
    obtain ⟨xs, r', hxs, h⟩ := Dec.bind_eq_ok h
    cases h
    obtain ⟨i1, i2⟩ := ih hxs
    refine ⟨by simp [i1], ?_⟩
    intro s hs
    rcases List.mem_cons.1 hs with hs | hs
    · subst hs
      unfold decVarSize at hx
      obtain ⟨y, r2, _, hx⟩ := Dec.bind_eq_ok hx
      cases hx
      have := y.isLt
      rw [BitVec.toNat_setWidth, Nat.mod_eq_of_lt (by omega)]
      exact this
    · exact i2 s hs

theorem total_bound {sizes : List (BitVec 32)} (h : ∀ s ∈ sizes, s.toNat < 65536) :
    Layout.total sizes ≤ 65535 * sizes.length := by
  induction sizes with
  | nil => simp
  | cons s ss ih =>
    have := ih fun s hs => h s (List.mem_cons_of_mem _ hs)
    have := h s List.mem_cons_self
    simp only [Layout.total_cons, List.length_cons]
    omega

theorem layoutOk_dec {chk : Bool} {inp rest : Bytes} {l : FixedLayout}
    (h : decLayout chk inp = .ok (l, rest)) : LayoutOk l := by
  unfold decLayout at h
  obtain ⟨_, r1, _, h⟩ := Dec.bind_eq_ok h
  obtain ⟨n, r2, _, h⟩ := Dec.bind_eq_ok h
  obtain ⟨⟨first, sizes⟩, r3, h3, h⟩ := Dec.bind_eq_ok h
  simp only at h
  have hsz : Layout.total sizes < 2 ^ 32 := by
    have hn := n.isLt
    split at h3
    · obtain ⟨f, r4, _, h3⟩ := Dec.bind_eq_ok h3
      obtain ⟨ss, r5, hss, h3⟩ := Dec.bind_eq_ok h3
      cases h3
      obtain ⟨k1, k2⟩ := decMany_sizes hss
      have := total_bound k2
      rw [k1] at this
      omega
    · cases h3; simp
  cases hf : FixedLayout.fromByteSizes chk first sizes with
  | none => rw [hf] at h; cases h
  | some l' =>
    rw [hf] at h
    cases h
    exact layoutOk_of_sizes hsz hf

/-- All layouts of a section are good. -/
def SectionOk : Section → Prop
  | .data ls => ∀ l ∈ ls, LayoutOk l
  | _ => True

theorem layoutOk_many {chk : Bool} {n : Nat} {inp rest : Bytes} {ls : List FixedLayout}
    (h : decMany (decLayout chk) n inp = .ok (ls, rest)) : ∀ l ∈ ls, LayoutOk l := by
  induction n generalizing inp ls with
  | zero => cases h; simp
  | succ n ih =>
    unfold decMany at h
    obtain ⟨x, r, hx, h⟩ := Dec.bind_eq_ok h
    obtain ⟨xs, r', hxs, h⟩ := Dec.bind_eq_ok h
    cases h
    intro l hl
    rcases List.mem_cons.1 hl with hl | hl
    · subst hl; exact layoutOk_dec hx
    · exact ih hxs l hl

theorem sectionOk_dec {chk : Bool} {k : Kind} {inp rest : Bytes} {s : Section}
    (h : decSection chk k inp = .ok (s, rest)) : SectionOk s := by
  cases k with
  | schema | api => cases h
  | header | code | ctors | deploy =>
    unfold decSection at h
    obtain ⟨x, r, _, h⟩ := Dec.bind_eq_ok h
    cases h
    trivial
  | data =>
    unfold decSection at h
    obtain ⟨x, r, hx, h⟩ := Dec.bind_eq_ok h
    cases h
    unfold decDataSection decVec at hx
    obtain ⟨n, r2, _, hx⟩ := Dec.bind_eq_ok hx
    exact layoutOk_many hx

theorem mem_insertSection {x s : Section} {l : Sections} (h : s ∈ Sections.insert x l) :
    s = x ∨ s ∈ l := by
  induction l with
  | nil => simpa [Sections.insert] using h
  | cons y ys ih =>
    unfold Sections.insert at h
    split at h
    · rcases List.mem_cons.1 h with h | h
      · exact .inl h
      · exact .inr (List.mem_cons_of_mem _ h)
    · rcases List.mem_cons.1 h with h | h
      · exact .inr (h ▸ List.mem_cons_self)
      · rcases ih h with h | h
        · exact .inl h
        · exact .inr (List.mem_cons_of_mem _ h)

theorem sectionsOk_loop {chk : Bool} {n : Nat} {acc : Sections} (hacc : ∀ s ∈ acc, SectionOk s)
    {inp rest : Bytes} {ss : Sections}
    (h : decSectionsLoop chk none n acc inp = .ok (ss, rest)) : ∀ s ∈ ss, SectionOk s := by
  induction n generalizing acc inp with
  | zero => cases h; exact hacc
  | succ n ih =>
    unfold decSectionsLoop at h
    obtain ⟨k, r1, _, h⟩ := Dec.bind_eq_ok h
    obtain ⟨sz, r2, _, h⟩ := Dec.bind_eq_ok h
    rw [if_pos (show interested none k = true from rfl)] at h
    obtain ⟨s, r3, hs, h⟩ := Dec.bind_eq_ok h
    refine ih ?_ h
    intro x hx
    rcases mem_insertSection hx with hx | hx
    · subst hx; exact sectionOk_dec hs
    · exact hacc x hx

theorem sectionsOk_dec {chk : Bool} {inp rest : Bytes} {ss : Sections}
    (h : decSections chk none inp = .ok (ss, rest)) : ∀ s ∈ ss, SectionOk s := by
  unfold decSections at h
  obtain ⟨n, r, _, h⟩ := Dec.bind_eq_ok h
  exact sectionsOk_loop (by simp) h

theorem readAndDecode_eq_ok {α : Type} {d : Dec α} {k : Key} {w w' : View} {x : α}
    (h : (readAndDecode d k).eval w = (w', .ok x)) :
    w' = w ∧ ∃ bs rest, w k = some bs ∧ d bs = .ok (x, rest) := by
  have hv := readAndDecode_view d k w
  rw [h] at hv
  refine ⟨hv, ?_⟩
  unfold readAndDecode at h
  rw [Prog.bind_eq, Prog.eval_bind_ok (Prog.eval_read _ _)] at h
  cases hw : w k with
  | none => rw [hw] at h; cases h
  | some bs =>
    rw [hw] at h
    simp only at h
    cases hd : d bs with
    | ok r => rw [hd] at h; cases h; exact ⟨bs, r.2, rfl, hd⟩
    | err | panic => rw [hd] at h; cases h

theorem eval_bind_eq_ok {α β : Type} {p : Prog α} {f : α → Prog β} {w w' : View} {b : β}
    (h : (p.bind f).eval w = (w', .ok b)) :
    ∃ w1 a, p.eval w = (w1, .ok a) ∧ (f a).eval w1 = (w', .ok b) := by
  rw [Prog.eval_bind] at h
  cases hp : p.eval w with
  | mk w1 o =>
    rw [hp] at h
    cases o with
    | ok a => exact ⟨w1, a, rfl, h⟩
    | err | panic => cases h

theorem foldl_insert_ok (l acc : Sections) (h1 : ∀ s ∈ acc, SectionOk s)
    (h2 : ∀ s ∈ l, SectionOk s) :
    ∀ s ∈ l.foldl (fun acc s => Sections.insert s acc) acc, SectionOk s := by
  induction l generalizing acc with
  | nil => exact h1
  | cons x l ih =>
    apply ih
    · intro s hs
      rcases mem_insertSection hs with hs | hs
      · subst hs; exact h2 _ List.mem_cons_self
      · exact h1 s hs
    · exact fun s hs => h2 s (List.mem_cons_of_mem _ hs)

theorem templateLayout_ok {chk : Bool} {t : Addr} {w w' : View} {l : FixedLayout}
    (h0 : (templateLayout chk t).eval w = (w', .ok l)) : w' = w ∧ LayoutOk l := by
  unfold templateLayout at h0
  obtain ⟨w1, ss, hs, h⟩ := eval_bind_eq_ok h0
  unfold readSections at hs
  obtain ⟨w2, core, hc, hs2⟩ := eval_bind_eq_ok hs
  obtain ⟨w3, non, hn, hs3⟩ := eval_bind_eq_ok hs2
  obtain ⟨e1, b1, r1, _, d1⟩ := readAndDecode_eq_ok hc
  obtain ⟨e2, b2, r2, _, d2⟩ := readAndDecode_eq_ok hn
  clear h0 hs hs2 hc hn
  cases hs3
  subst e1
  subst e2
  have hall := foldl_insert_ok non core (sectionsOk_dec d1) (sectionsOk_dec d2)
  split at h
  · rename_i l' ls hg
    cases h
    refine ⟨rfl, ?_⟩
    have := hall _ (List.mem_of_find?_eq_some hg)
    exact this l List.mem_cons_self
  · cases h

theorem load_ok {chk : Bool} {a : Addr} {w w' : View} {acc : Acc}
    (h0 : (load chk a).eval w = (w', .ok acc)) :
    w' = w ∧ LayoutOk acc.layout ∧ acc.addr = a ∧
      ∃ d, info w a = some d ∧ d.template = acc.template := by
  unfold load at h0
  obtain ⟨w1, d, hd, h1⟩ := eval_bind_eq_ok h0
  obtain ⟨e1, hi⟩ := read_info hd
  obtain ⟨w2, l, hl, h2⟩ := eval_bind_eq_ok h1
  obtain ⟨e2, hlo⟩ := templateLayout_ok hl
  clear h0 h1 hd
  subst e1
  cases h2
  exact ⟨e2, hlo, rfl, d, hi, rfl⟩

/-! ## Whole variables -/

theorem segmentsOffset_ok (chk : Bool) (v : RawVar)
    (h : v.offset.toNat + v.byteSize.toNat < 2 ^ 32) : segmentsOffset chk v = some v.offset := by
  unfold segmentsOffset
  rw [(Layout.addW_ok chk _ _ h).1]
  show some (v.offset + v.byteSize - v.byteSize) = _
  rw [BitVec.add_sub_cancel]

/-- The bytes of a range. -/
def cells (w : View) (a : Addr) (o n : Nat) : Bytes := (List.range n).map fun j => cell w a (o + j)

theorem getVar_eval (chk : Bool) {w : View} (hw : SegOk w) {acc : Acc} {id : BitVec 32} {v : RawVar}
    (hg : acc.layout.get id = some v) (hpos : 0 < v.byteSize.toNat)
    (hb : v.offset.toNat + v.byteSize.toNat < 2 ^ 32) (buf : Bytes)
    (hlen : v.byteSize.toNat ≤ buf.length) :
    (getVar chk acc id buf).eval w =
      (w, .ok (cells w acc.addr v.offset.toNat v.byteSize.toNat ++ buf.drop v.byteSize.toNat)) := by
  unfold getVar
  simp only [Prog.bind_eq]
  rw [hg, Prog.eval_bind_ok (Prog.eval_ofOption_some _ _), if_neg (by omega),
    segmentsOffset_ok chk v hb, Prog.eval_bind_ok (Prog.eval_ofOption_some _ _)]
  obtain ⟨segs, h1, h2, h3⟩ := varSegments_spec chk v.offset v.byteSize hpos
  have hl : (segs.flatMap Segment.positions).length = v.byteSize.toNat := by rw [h3]; simp
  rw [h1, Prog.eval_bind_ok (Prog.eval_ofOption_some _ _),
    Prog.eval_bind_ok (getLoop_eval chk hw acc.addr segs h2 _ (by rw [hl, List.length_take]; omega))]
  rw [Prog.pure_eq, Prog.eval_ret, hl, List.drop_eq_nil_of_le (by rw [List.length_take]; omega),
    List.append_nil, h3, List.map_map]
  rfl

theorem setVarBytes_eval (chk : Bool) {w : View} (hw : SegOk w) {acc : Acc} {id : BitVec 32}
    {v : RawVar} (hg : acc.layout.get id = some v) (hpos : 0 < v.byteSize.toNat)
    (hb : v.offset.toNat + v.byteSize.toNat < 2 ^ 32) (value : Bytes)
    (hlen : v.byteSize.toNat ≤ value.length) :
    ∃ w', (setVarBytes chk acc id value).eval w = (w', .ok ()) ∧ SegOk w' ∧
      (∀ k, (∀ i, k ≠ .seg acc.addr i) → w' k = w k) ∧
      ∀ q, q < 2 ^ 37 → cell w' acc.addr q =
        if v.offset.toNat ≤ q ∧ q < v.offset.toNat + v.byteSize.toNat then
          value.getD (q - v.offset.toNat) 0
        else cell w acc.addr q := by
  obtain ⟨segs, h1, h2, h3⟩ := varSegments_spec chk v.offset v.byteSize hpos
  have hl : (segs.flatMap Segment.positions).length = v.byteSize.toNat := by rw [h3]; simp
  obtain ⟨w', e, k1, k2, k3⟩ := setLoop_eval chk hw acc.addr segs h2 (value.take v.byteSize.toNat)
    (by rw [hl, List.length_take]; omega)
  refine ⟨w', ?_, k1, k2, ?_⟩
  · unfold setVarBytes
    simp only [Prog.bind_eq]
    rw [hg, Prog.eval_bind_ok (Prog.eval_ofOption_some _ _), if_neg (by omega),
      segmentsOffset_ok chk v hb, Prog.eval_bind_ok (Prog.eval_ofOption_some _ _), h1,
      Prog.eval_bind_ok (Prog.eval_ofOption_some _ _)]
    exact e
  · intro q hq
    rw [k3 q hq, h3, writeCells_range _ _ _ _ (by rw [List.length_take]; omega)]
    split
    · rw [List.getD_eq_getElem?_getD, List.getD_eq_getElem?_getD, List.getElem?_take,
        if_pos (by omega)]
    · rfl

end Svm.Account
