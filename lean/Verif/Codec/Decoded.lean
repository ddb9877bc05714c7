import Verif.Codec.Props4

/-!
# What decoded sections look like

Every list of sections that the decoder returns has distinct kinds, is not larger than the bytes it
was read from, and is read back unchanged whenever the encoder accepts it.
-/

namespace Svm.Codec

open Svm.Layout (FixedLayout RawVar)

/-- If the decoder succeeds, it has consumed `n` bytes and `P n` holds of the value. -/
def Takes {α : Type} (d : Dec α) (P : Nat → α → Prop) : Prop :=
  ∀ inp a rest, d inp = .ok (a, rest) → ∃ n, inp.length = n + rest.length ∧ P n a

theorem Takes.bind {α β : Type} {d : Dec α} {f : α → Dec β} {P : Nat → α → Prop}
    {Q : Nat → β → Prop} (hd : Takes d P)
    (hf : ∀ n a, P n a → Takes (f a) fun m b => Q (n + m) b) : Takes (d >>= f) Q := by
  intro inp b rest h
  obtain ⟨a, mid, h1, h2⟩ := Dec.bind_eq_ok h
  obtain ⟨n, e1, hp⟩ := hd _ _ _ h1
  obtain ⟨m, e2, hq⟩ := hf n a hp _ _ _ h2
  exact ⟨n + m, by omega, hq⟩

theorem Takes.pure {α : Type} {a : α} {P : Nat → α → Prop} (h : P 0 a) :
    Takes (Pure.pure a : Dec α) P := by
  intro inp b rest hb
  cases hb
  exact ⟨0, by omega, h⟩

theorem Takes.panic {α : Type} {P : Nat → α → Prop} : Takes (Dec.panic : Dec α) P := by
  intro inp b rest hb
  cases hb

theorem Takes.fail {α : Type} {e : ParseError} {P : Nat → α → Prop} :
    Takes (Dec.fail e : Dec α) P := by
  intro inp b rest hb
  cases hb

theorem Takes.mono {α : Type} {d : Dec α} {P Q : Nat → α → Prop} (hd : Takes d P)
    (h : ∀ n a, P n a → Q n a) : Takes d Q := by
  intro inp a rest he
  obtain ⟨n, e, hp⟩ := hd _ _ _ he
  exact ⟨n, e, h _ _ hp⟩

theorem takes_num (k : Nat) : Takes (decNum k) fun n _ => n = k := by
  intro inp a rest h
  obtain ⟨bs, e, rfl⟩ := canonical_num k _ _ _ h
  exact ⟨k, by rw [List.length_append, encNum_length e], rfl⟩

theorem takes_readByte : Takes readByte fun n _ => n = 1 := by
  intro inp a rest h
  obtain ⟨bs, e, rfl⟩ := canonical_byte _ _ _ h
  cases e
  exact ⟨1, by simp; omega, rfl⟩

theorem takes_readBytes (k : Nat) : Takes (readBytes k) fun n bs => n = k ∧ bs.length = k := by
  intro inp a rest h
  obtain ⟨hl, rfl⟩ := readBytes_ok h
  exact ⟨k, by rw [List.length_append, hl], rfl, hl⟩

theorem takes_arr (k : Nat) : Takes (decArr k) fun n _ => n = k := by
  refine (takes_readBytes k).bind fun n bs hn => ?_
  split
  · exact Takes.pure (by omega)
  · exact Takes.panic

theorem takes_str : Takes decStr fun n s => n = 1 + s.1.length ∧ s.1.length ≤ 255 := by
  refine takes_readByte.bind fun n len hn => (takes_readBytes _).bind fun m bs hm => ?_
  split
  · refine Takes.pure ⟨by simp only; omega, ?_⟩
    have := len.toNat_lt
    simp only; omega
  · exact Takes.fail

theorem takes_data (k : Nat) : Takes (decData k) fun n bs => n = k + bs.length := by
  refine (takes_num k).bind fun n len hn => (takes_readBytes _).mono fun m bs hm => ?_
  omega

theorem takes_many {α : Type} {d : Dec α} {size : α → Nat} {P : α → Prop}
    (hd : Takes d fun n a => n = size a ∧ P a) (k : Nat) :
    Takes (decMany d k) fun n l => n = (l.map size).sum ∧ l.length = k ∧ ∀ a ∈ l, P a := by
  induction k with
  | zero => exact Takes.pure ⟨rfl, rfl, by simp⟩
  | succ k ih =>
    refine hd.bind fun n a ha => ih.bind fun m as has => ?_
    refine Takes.pure ⟨?_, ?_, ?_⟩
    · simp only [List.map_cons, List.sum_cons]; omega
    · simp only [List.length_cons]; omega
    · intro b hb
      rcases List.mem_cons.1 hb with rfl | hb
      · exact ha.2
      · exact has.2.2 b hb

/-- The layouts that the decoder makes. -/
def Built (chk : Bool) (l : FixedLayout) : Prop :=
  ∃ first sizes, FixedLayout.fromByteSizes chk first sizes = some l ∧
    (∀ s ∈ sizes, s.toNat < 65536) ∧ (sizes = [] → first = 0) ∧ sizes.length ≤ 65535

theorem fromSizesLoop_sizes {chk : Bool} {first : Svm.Layout.Id} {i : Nat} {off : BitVec 32}
    {sizes : List (BitVec 32)} {vars : List RawVar}
    (h : Svm.Layout.fromSizesLoop chk first i off sizes = some vars) :
    vars.map RawVar.byteSize = sizes := by
  induction sizes generalizing i off vars with
  | nil => cases h; rfl
  | cons s ss ih =>
    simp only [Svm.Layout.fromSizesLoop, Option.bind_eq_bind, Option.bind_eq_some_iff] at h
    obtain ⟨id, h1, off', h2, vs, h3, h4⟩ := h
    cases h4
    simp [ih h3]

theorem fromByteSizes_some {chk : Bool} {first : Svm.Layout.Id} {sizes : List (BitVec 32)}
    {l : FixedLayout} (h : FixedLayout.fromByteSizes chk first sizes = some l) :
    l.first = some first ∧ l.vars.map RawVar.byteSize = sizes := by
  unfold FixedLayout.fromByteSizes at h
  simp only [Option.bind_eq_bind, Option.bind_eq_some_iff] at h
  obtain ⟨vars, hv, heq⟩ := h
  cases heq
  exact ⟨rfl, fromSizesLoop_sizes hv⟩

theorem takes_layout (chk : Bool) :
    Takes (decLayout chk) fun n l => n = layoutSize l ∧ Built chk l := by
  have hk : Takes decLayoutKind fun n _ => n = 2 := by
    refine (takes_num 2).bind fun n x hn => ?_
    split
    · exact Takes.pure (by omega)
    · exact Takes.panic
  have hs : Takes decVarSize fun n s => n = 2 ∧ s.toNat < 65536 := by
    refine (takes_num 2).bind fun n x hn => Takes.pure ⟨by omega, ?_⟩
    rw [BitVec.toNat_setWidth]
    have := x.isLt
    exact Nat.lt_of_le_of_lt (Nat.mod_le _ _) this
  refine hk.bind fun n1 _ h1 => (takes_num 2).bind fun n2 k h2 => ?_
  refine Takes.bind (P := fun m p => m = (if p.2 = [] then 0 else 4 + 2 * p.2.length) ∧
    (∀ s ∈ p.2, s.toNat < 65536) ∧ (p.2 = [] → p.1 = 0) ∧ p.2.length ≤ 65535) ?_ ?_
  · split
    · rename_i h0
      refine (takes_num 4).bind fun n3 first h3 =>
        (takes_many (size := fun _ => 2) hs k.toNat).bind fun n4 sizes h4 => ?_
      have hlt := k.isLt
      have hne : sizes ≠ [] := by
        intro e
        rw [e] at h4
        have := h4.2.1
        simp at this
        omega
      refine Takes.pure ⟨?_, h4.2.2, fun e => absurd e hne, by simp only; omega⟩
      simp only [hne, if_false]
      have := h4.1
      rw [List.map_const', List.sum_replicate_nat] at this
      omega
    · exact Takes.pure ⟨by simp, by simp, fun _ => rfl, by simp⟩
  · rintro n3 ⟨first, sizes⟩ ⟨h3, h4, h5, h6⟩
    simp only at h3 h4 h5 h6
    change Takes (match FixedLayout.fromByteSizes chk first sizes with
      | some l => (Pure.pure l : Dec FixedLayout)
      | none => Dec.panic) _
    cases hl : FixedLayout.fromByteSizes chk first sizes with
    | none => exact Takes.panic
    | some l =>
      refine Takes.pure ⟨?_, first, sizes, hl, h4, h5, h6⟩
      obtain ⟨-, e⟩ := fromByteSizes_some hl
      unfold layoutSize
      have hlen : l.vars.length = sizes.length := by rw [← e]; simp
      by_cases h0 : sizes = []
      · have : l.vars = [] := by rw [← List.length_eq_zero_iff, hlen, h0]; rfl
        rw [if_pos h0] at h3
        rw [if_pos this]
        omega
      · have : ¬ l.vars = [] := by
          rw [← List.length_eq_zero_iff, hlen, List.length_eq_zero_iff]; exact h0
        rw [if_neg h0] at h3
        rw [if_neg this]
        omega

/-- What the decoder guarantees of a section. -/
def Section.Decoded (chk : Bool) : Section → Prop
  | .header s => s.name.1.length ≤ 255 ∧ s.desc.1.length ≤ 255
  | .code s => s.gasMode = .fixed
  | .data ls => ls.length ≤ 65535 ∧ ∀ l ∈ ls, Built chk l
  | .ctors cs => cs.length ≤ 255 ∧ ∀ c ∈ cs, c.1.length ≤ 255
  | .schema => False
  | .api => False
  | .deploy _ => True

theorem takes_section (chk : Bool) (k : Kind) :
    Takes (decSection chk k) fun n x => n = x.size ∧ x.Decoded chk := by
  cases k with
  | schema | api => exact Takes.panic
  | header =>
    refine Takes.bind (P := fun n (s : HeaderSection) => n = 6 + s.name.1.length + s.desc.1.length ∧
      s.name.1.length ≤ 255 ∧ s.desc.1.length ≤ 255) ?_ fun n s hs => Takes.pure hs
    refine (takes_num 4).bind fun n1 _ h1 => takes_str.bind fun n2 _ h2 =>
      takes_str.bind fun n3 _ h3 => Takes.pure ⟨?_, h2.2, h3.2⟩
    simp only; omega
  | code =>
    refine Takes.bind (P := fun n (s : CodeSection) => n = 26 + s.code.length ∧
      s.gasMode = .fixed) ?_ fun n s hs => Takes.pure hs
    have hk : Takes decCodeKind fun n _ => n = 2 := by
      refine (takes_num 2).bind fun n x hn => ?_
      split
      · exact Takes.pure (by omega)
      · exact Takes.fail
    have hg : Takes decGasMode fun n g => n = 8 ∧ g = .fixed := by
      refine (takes_num 8).bind fun n x hn => ?_
      split
      · exact Takes.pure ⟨by omega, rfl⟩
      · exact Takes.panic
    refine hk.bind fun n1 _ h1 => (takes_num 8).bind fun n2 _ h2 => hg.bind fun n3 _ h3 =>
      (takes_num 4).bind fun n4 _ h4 => (takes_data 4).bind fun n5 _ h5 => Takes.pure ⟨?_, h3.2⟩
    simp only; omega
  | data =>
    refine Takes.bind (P := fun n (ls : List FixedLayout) => n = 2 + (ls.map layoutSize).sum ∧
      ls.length ≤ 65535 ∧ ∀ l ∈ ls, Built chk l) ?_ fun n s hs => Takes.pure hs
    refine (takes_num 2).bind fun n1 k h1 => (takes_many (takes_layout chk) k.toNat).mono
      fun n2 ls h2 => ⟨by omega, ?_, h2.2.2⟩
    have hlt := k.isLt
    omega
  | ctors =>
    refine Takes.bind (P := fun n (cs : List Str) => n = 1 + (cs.map fun c => 1 + c.1.length).sum ∧
      cs.length ≤ 255 ∧ ∀ c ∈ cs, c.1.length ≤ 255) ?_ fun n s hs => Takes.pure hs
    refine takes_readByte.bind fun n1 k h1 => (takes_many takes_str k.toNat).mono
      fun n2 ls h2 => ⟨by omega, ?_, h2.2.2⟩
    have := k.toNat_lt
    omega
  | deploy =>
    refine Takes.bind (P := fun n _ => n = 80) ?_ fun n s hs => Takes.pure ⟨hs, trivial⟩
    refine (takes_arr 32).bind fun n1 _ h1 => (takes_num 8).bind fun n2 _ h2 =>
      (takes_arr 20).bind fun n3 _ h3 => (takes_arr 20).bind fun n4 _ h4 => Takes.pure ?_
    omega

theorem mem_insert {x y : Section} {s : Sections} (h : y ∈ Sections.insert x s) : y = x ∨ y ∈ s := by
  induction s with
  | nil => simp only [Sections.insert, List.mem_singleton] at h; exact .inl h
  | cons z zs ih =>
    unfold Sections.insert at h
    split at h
    · rcases List.mem_cons.1 h with h | h
      · exact .inl h
      · exact .inr (List.mem_cons_of_mem _ h)
    · rcases List.mem_cons.1 h with h | h
      · exact .inr (by rw [h]; simp)
      · exact (ih h).imp id (List.mem_cons_of_mem _)

theorem kinds_insert (x : Section) (s : Sections) :
    (Sections.insert x s).map Section.kind =
      if x.kind ∈ s.map Section.kind then s.map Section.kind else s.map Section.kind ++ [x.kind] := by
  induction s with
  | nil => rfl
  | cons z zs ih =>
    unfold Sections.insert
    by_cases h : z.kind = x.kind
    · simp [h]
    · rw [if_neg h]
      simp only [List.map_cons, ih, List.mem_cons]
      have h' : ¬ x.kind = z.kind := fun e => h e.symm
      by_cases h2 : x.kind ∈ zs.map Section.kind
      · rw [if_pos h2, if_pos (.inr h2)]
      · rw [if_neg h2, if_neg (by simp only [not_or]; exact ⟨h', h2⟩)]
        rfl

theorem nodup_insert {x : Section} {s : Sections} (h : (s.map Section.kind).Nodup) :
    ((Sections.insert x s).map Section.kind).Nodup := by
  rw [kinds_insert]
  split
  · exact h
  · rename_i hx
    rw [List.nodup_append]
    refine ⟨h, by simp, ?_⟩
    intro a ha b hb
    simp only [List.mem_singleton] at hb
    subst hb
    exact fun e => hx (e ▸ ha)

theorem takes_loop (chk : Bool) (bound : Nat) (n : Nat) (acc : Sections)
    (hacc : (acc.map Section.kind).Nodup)
    (hdec : ∀ x ∈ acc, x.Decoded chk ∧ x.size ≤ bound) (inp rest : Bytes) (ss : Sections)
    (hb : inp.length ≤ bound) (h : decSectionsLoop chk none n acc inp = .ok (ss, rest)) :
    (ss.map Section.kind).Nodup ∧ ∀ x ∈ ss, x.Decoded chk ∧ x.size ≤ bound := by
  induction n generalizing acc inp with
  | zero => cases h; exact ⟨hacc, hdec⟩
  | succ n ih =>
    obtain ⟨k, m1, h1, h⟩ := Dec.bind_eq_ok h
    obtain ⟨sz, m2, h2, h⟩ := Dec.bind_eq_ok h
    have hk : Takes decKind fun n _ => n = 2 := by
      refine (takes_num 2).bind fun n x hn => ?_
      repeat' split
      all_goals first | exact Takes.pure (by omega) | exact Takes.fail
    obtain ⟨n1, e1, -⟩ := hk _ _ _ h1
    obtain ⟨n2, e2, -⟩ := takes_num 4 _ _ _ h2
    rw [if_pos (show interested none k = true from rfl)] at h
    obtain ⟨x, m3, h3, h⟩ := Dec.bind_eq_ok h
    obtain ⟨n3, e3, h4, h5⟩ := takes_section chk k _ _ _ h3
    refine ih (Sections.insert x acc) (nodup_insert hacc) ?_ m3 (by omega) h
    intro y hy
    rcases mem_insert hy with rfl | hy
    · exact ⟨h5, by omega⟩
    · exact hdec y hy

/-- Decoded sections have distinct kinds, each is as the decoder guarantees, and its encoding is not
longer than the input. -/
theorem decSections_decoded {chk : Bool} {inp rest : Bytes} {ss : Sections}
    (h : decSections chk none inp = .ok (ss, rest)) :
    (ss.map Section.kind).Nodup ∧ ∀ x ∈ ss, x.Decoded chk ∧ x.size ≤ inp.length := by
  obtain ⟨n, mid, h1, h2⟩ := Dec.bind_eq_ok h
  obtain ⟨n1, e1, -⟩ := takes_num 2 _ _ _ h1
  exact takes_loop chk inp.length _ [] List.nodup_nil (by simp) mid rest ss (by omega) h2

theorem decLayout_built {chk : Bool} {l : FixedLayout} (hl : Built chk l) {bs : Bytes}
    (rest : Bytes) (h : encLayout l = some bs) : decLayout chk (bs ++ rest) = .ok (l, rest) := by
  obtain ⟨first, sizes, h1, h2, h3, h4⟩ := hl
  obtain ⟨e1, e2⟩ := fromByteSizes_some h1
  have hsz : ∀ v ∈ l.vars, v.byteSize.toNat < 65536 := by
    intro v hv
    exact h2 _ (e2 ▸ List.mem_map.2 ⟨v, hv, rfl⟩)
  rw [decLayout_enc chk l bs rest h, truncSizes_eq hsz, e2]
  have hf : (if l.vars = [] then 0 else l.first.getD 0) = first := by
    split
    · rename_i hv
      rw [hv] at e2
      exact (h3 e2.symm).symm
    · rw [e1]; rfl
  rw [hf, h1]

theorem decSection_decoded {chk : Bool} {x : Section} (hx : x.Decoded chk) {bs : Bytes}
    (rest : Bytes) (h : encSection x = some bs) :
    decSection chk x.kind (bs ++ rest) = .ok (x, rest) := by
  cases x with
  | header s => simp only [decSection, Section.kind]; rw [roundTrip_header.step h]; rfl
  | code s => simp only [decSection, Section.kind]; rw [roundTrip_code.step h]; rfl
  | ctors s => simp only [decSection, Section.kind]; rw [roundTrip_ctors.step h]; rfl
  | deploy s => simp only [decSection, Section.kind]; rw [roundTrip_deploy.step h]; rfl
  | schema | api => cases h
  | data ls =>
    have hd : decDataSection chk (bs ++ rest) = .ok (ls, rest) := by
      obtain ⟨y, z, hy, hz, rfl, hn⟩ := vec_len h
      unfold decDataSection decVec
      rw [List.append_assoc, (roundTrip_num 2).step hy, hn]
      exact decMany_on (P := Built chk)
        (fun a bs rest hp he => decLayout_built hp rest he) ls hx.2 z rest hz
    simp only [decSection, Section.kind]
    rw [Dec.bind_ok hd]
    rfl

theorem decSectionsLoop_decoded (chk : Bool) (s : Sections) (acc : Sections)
    (hv : (acc ++ s).Valid) (hr : ∀ x ∈ s, x.Decoded chk) (bs rest : Bytes)
    (h : encMany encWithPreview s = some bs) :
    decSectionsLoop chk none s.length acc (bs ++ rest) = .ok (acc ++ s, rest) := by
  induction s generalizing acc bs with
  | nil => cases h; simp [decSectionsLoop]
  | cons x xs ih =>
    obtain ⟨u, w, hu, hw, rfl⟩ := Enc.seq_eq_some.1 h
    obtain ⟨k, n, b, hk, hn, hb, rfl, -⟩ := encWithPreview_some hu
    simp only [List.length_cons, decSectionsLoop, List.append_assoc]
    rw [roundTrip_kind.step hk, (roundTrip_num 4).step hn,
      if_pos (show interested none x.kind = true from rfl),
      Dec.bind_ok (decSection_decoded (hr x (by simp)) _ hb)]
    have hfresh : x.kind ∉ acc.map Section.kind := by
      unfold Sections.Valid at hv
      rw [List.map_append, List.map_cons, List.nodup_append] at hv
      intro hm
      exact hv.2.2 _ hm _ (by simp) rfl
    rw [Sections.insert_fresh x acc hfresh, ih (acc ++ [x]) (by simpa using hv)
      (fun y hy => hr y (by simp [hy])) w hw]
    simp

/-- Encoding decoded sections again (if the encoder accepts them) and decoding gives the same
sections. -/
theorem decSections_again {chk : Bool} {inp rest : Bytes} {ss : Sections}
    (hd : decSections chk none inp = .ok (ss, rest)) {bs : Bytes} (suffix : Bytes)
    (h : encSections ss = some bs) : decSections chk none (bs ++ suffix) = .ok (ss, suffix) := by
  obtain ⟨hv, hx⟩ := decSections_decoded hd
  obtain ⟨x, y, hx', hy, rfl, hn⟩ := encSections_some h
  unfold decSections
  rw [List.append_assoc, (roundTrip_num 2).step hx', hn]
  have := decSectionsLoop_decoded chk ss [] hv (fun z hz => (hx z hz).1) y suffix hy
  simpa using this

/-- When decoded sections can be encoded again: fewer than 255 constructors, and fewer than 65535
variables in every layout. -/
theorem decSections_encodes {chk : Bool} {inp rest : Bytes} {ss : Sections}
    (hd : decSections chk none inp = .ok (ss, rest)) (hlen : inp.length < 4294967295)
    (hctors : ∀ cs, Section.ctors cs ∈ ss → cs.length ≠ 255)
    (hvars : ∀ ls, Section.data ls ∈ ss → ∀ l ∈ ls, l.vars.length ≠ 65535) :
    ∃ bs, encSections ss = some bs := by
  obtain ⟨hv, hx⟩ := decSections_decoded hd
  refine (C43_encodes_iff ss hv).2 fun x hm => ?_
  obtain ⟨h1, h2⟩ := hx x hm
  refine ⟨?_, by omega⟩
  cases x with
  | header s => exact h1
  | code s => exact h1
  | deploy s => trivial
  | schema | api => exact h1
  | ctors cs =>
    have := hctors cs hm
    exact ⟨by have := h1.1; omega, h1.2⟩
  | data ls =>
    refine ⟨h1.1, fun l hl => ?_⟩
    obtain ⟨first, sizes, e1, -, -, e4⟩ := h1.2 l hl
    obtain ⟨e5, e6⟩ := fromByteSizes_some e1
    have hlen : l.vars.length = sizes.length := by rw [← e6]; simp
    have := hvars ls hm l hl
    exact ⟨by omega, fun _ => ⟨first, e5⟩⟩

theorem insert_mem {x : Section} {s : Sections} (hn : (s.map Section.kind).Nodup) (h : x ∈ s) :
    Sections.insert x s = s := by
  induction s with
  | nil => cases h
  | cons z zs ih =>
    unfold Sections.insert
    simp only [List.map_cons, List.nodup_cons] at hn
    rcases List.mem_cons.1 h with rfl | h
    · rw [if_pos rfl]
    · rw [if_neg (fun e : z.kind = x.kind => hn.1 (List.mem_map.2 ⟨x, h, e.symm⟩)), ih hn.2 h]

/-- Merging sections into themselves. -/
theorem foldl_insert_self {s : Sections} (hn : (s.map Section.kind).Nodup) (l : Sections)
    (hl : ∀ x ∈ l, x ∈ s) : l.foldl (fun acc x => Sections.insert x acc) s = s := by
  induction l with
  | nil => rfl
  | cons x xs ih =>
    simp only [List.foldl_cons]
    rw [insert_mem hn (hl x (by simp))]
    exact ih fun y hy => hl y (by simp [hy])

/-- C70: sections that were decoded from any byte string survive storing: if they encode, every
decoder reads them back; and they do encode unless there are 255 constructors or a layout of 65535
variables. -/
theorem C70_stored_sections {chk : Bool} {inp rest : Bytes} {ss : Sections}
    (hd : decSections chk none inp = .ok (ss, rest)) :
    (∀ bs suffix, encSections ss = some bs →
      decSections chk none (bs ++ suffix) = .ok (ss, suffix)) ∧
    (inp.length < 4294967295 → (∀ cs, Section.ctors cs ∈ ss → cs.length ≠ 255) →
      (∀ ls, Section.data ls ∈ ss → ∀ l ∈ ls, l.vars.length ≠ 65535) →
      ∃ bs, encSections ss = some bs) :=
  ⟨fun _ suffix h => decSections_again hd suffix h, fun h1 h2 h3 => decSections_encodes hd h1 h2 h3⟩

/-- A byte string that no encoder produces (two sections of one kind, wrong size fields), and yet
decodes. -/
example : ∃ ss rest, decSections true none ([0, 2] ++
    [0, 3, 0, 0, 0, 9, 1, 1, 105] ++ [0, 3, 0, 0, 0, 8, 1, 1, 106] ++ [77]) = .ok (ss, rest) ∧
    ss.length = 1 ∧ rest = [77] := ⟨_, _, rfl, rfl, rfl⟩

end Svm.Codec
