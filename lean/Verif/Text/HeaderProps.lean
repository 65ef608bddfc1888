import Verif.Text.Props

/-!
C83: field file headers.
-/

set_option autoImplicit false
set_option linter.unusedSectionVars false

namespace Verif.Text

open Verif Verif.Crystal

variable {K : Type} [Zero K] [IntCast K]

/-- A header that describes a field file in dimension `D`. -/
structure Header.Valid (D : Nat) (h : Header K) : Prop where
  dim : h.cell.lat.dim = some D
  params : h.cell.params.length = h.cell.lat.nParameter
  monomers : 0 < h.nMonomer

theorem ne_nmon : ¬ (some "N_monomer".toList = some "group_name".toList) := by decide

theorem readCellHeader_write (rd : K → K) (D : Nat) (c : Cell K) (j : Junk K) (lat0 : Lat)
    (rest : List (Tok K)) (hd : c.lat.dim = some D) (hn : c.params.length = c.lat.nParameter)
    (h0 : lat0 = .null ∨ lat0 = c.lat) :
    readCellHeader D j lat0 ⟨writeCellHeader rd c ++ rest, true⟩
      = .ok (⟨c.lat, c.params.map rd⟩, ⟨rest, true⟩) := by
  have h0' : lat0 = .null ∨ c.lat = lat0 := h0.imp_right Eq.symm
  unfold readCellHeader writeCellHeader
  simp only [List.cons_append, List.nil_append, rdWord_word, Lat.get, C67_lattice c.lat D hd,
    Res.bind, if_true, rdInt_int, if_pos h0']
  rw [rdNums_map _ _ _ _ (by simp [hn])]

/-- C83. A header that was written is read back with the same version numbers, lattice, group
name and number of monomers, and with the printed cell parameters.  What follows the header is
left in the stream.  It holds whatever the variables contained before, and whether the lattice
of the unit cell was unset or already the same. -/
theorem C83_roundtrip (rd : K → K) (D : Nat) (h : Header K) (j : Junk K) (lat0 : Lat)
    (toks rest : List (Tok K)) (hv : h.Valid D) (h0 : lat0 = .null ∨ lat0 = h.cell.lat)
    (hw : writeHeader rd D h = .ok toks) :
    readHeader D j lat0 ⟨toks ++ rest, true⟩
      = .ok (⟨h.ver1, h.ver2, ⟨h.cell.lat, h.cell.params.map rd⟩, h.group, h.nMonomer⟩,
          ⟨rest, true⟩) := by
  obtain ⟨hd, hn, hm⟩ := hv
  unfold writeHeader at hw
  simp only [if_neg hm.ne', if_pos hm] at hw
  injection hw with hw
  subst hw
  unfold readHeader
  simp only [List.cons_append, List.nil_append, List.append_assoc, rdWord_word, rdInt_int, if_true]
  rw [readCellHeader_write rd D h.cell j lat0 _ hd hn h0]
  simp only [Res.bind]
  by_cases hg : h.group = []
  · rw [if_pos hg]
    simp only [List.nil_append, rdWord_word, ne_nmon, if_false, rdInt_int, if_true, if_pos hm,
      Option.getD_some, hg]
  · rw [if_neg hg]
    simp only [List.cons_append, List.nil_append, rdWord_word, if_true, rdInt_int, if_pos hm,
      Option.getD_some]

/-- C83. Writing a header never fails for a positive number of monomers. -/
theorem C83_write_ok (rd : K → K) (D : Nat) (h : Header K) (hv : h.Valid D) :
    ∃ toks, writeHeader rd D h = .ok toks := by
  unfold writeHeader
  simp only [if_neg hv.monomers.ne', if_pos hv.monomers]
  exact ⟨_, rfl⟩

/-- C83. Number of cell parameters in a header: one for lamellar, square, hexagonal (2D) and cubic cells, ..., six
for triclinic ones. -/
theorem C83_nParameter :
    [Lat.d1 .lamellar, .d2 .square, .d2 .hexagonal, .d3 .cubic].map Lat.nParameter = [1, 1, 1, 1] ∧
    [Lat.d2 .rectangular, .d2 .rhombic, .d3 .tetragonal, .d3 .hexagonal, .d3 .rhombohedral].map
      Lat.nParameter = [2, 2, 2, 2, 2] ∧
    [Lat.d2 .oblique, .d3 .orthorhombic].map Lat.nParameter = [3, 3] ∧
    [Lat.d3 .monoclinic, .d3 .triclinic, .null].map Lat.nParameter = [4, 6, 0] := by decide

/-! ## Headers that do not fit -/

/-- C83. A header written for another space dimension is rejected. -/
theorem C83_reject_dim (rd : K → K) (D D' : Nat) (h : Header K) (j : Junk K) (lat0 : Lat)
    (toks rest : List (Tok K)) (hD : D' ≠ D) (hm : 0 < h.nMonomer)
    (hw : writeHeader rd D' h = .ok toks) :
    readHeader D j lat0 ⟨toks ++ rest, true⟩ = .throw := by
  unfold writeHeader at hw
  simp only [if_neg hm.ne', if_pos hm] at hw
  injection hw with hw
  subst hw
  unfold readHeader
  simp only [List.cons_append, List.nil_append, List.append_assoc, rdWord_word, rdInt_int, if_true]
  rw [if_neg (by exact_mod_cast hD)]

/-- C83. A header with another lattice system than that of the unit cell is rejected. -/
theorem C83_reject_lattice (rd : K → K) (D : Nat) (h : Header K) (j : Junk K) (lat0 : Lat)
    (toks rest : List (Tok K)) (hv : h.Valid D) (h0 : lat0 ≠ .null) (h1 : h.cell.lat ≠ lat0)
    (hw : writeHeader rd D h = .ok toks) :
    readHeader D j lat0 ⟨toks ++ rest, true⟩ = .throw := by
  obtain ⟨hd, hn, hm⟩ := hv
  unfold writeHeader at hw
  simp only [if_neg hm.ne', if_pos hm] at hw
  injection hw with hw
  subst hw
  unfold readHeader readCellHeader writeCellHeader
  simp only [List.cons_append, List.nil_append, List.append_assoc, rdWord_word, rdInt_int, if_true]
  simp only [Lat.get, rdWord_word, C67_lattice h.cell.lat D hd, Res.bind]
  rw [if_neg (by rintro (h | h); exacts [h0 h, h1 h])]

/-- C83. A header whose number of cell parameters does not fit its lattice system is rejected. -/
theorem C83_reject_nparam (D : Nat) (l : Lat) (v1 v2 k : Int) (j : Junk K) (lat0 : Lat)
    (rest : List (Tok K)) (hd : l.dim = some D) (hk : k ≠ l.nParameter) :
    readHeader D j lat0 ⟨[.word "format".toList, .int v1, .int v2, .word "dim".toList, .int D,
      .word "crystal_system".toList, .word l.write, .word "N_cell_param".toList, .int k] ++ rest,
      true⟩ = .throw := by
  unfold readHeader readCellHeader
  simp only [List.cons_append, List.nil_append, rdWord_word, rdInt_int, if_true]
  simp only [Lat.get, rdWord_word, C67_lattice l D hd, Res.bind, rdInt_int, if_true, hk, if_false, ite_self]

/-! ## Truncated headers -/

/-- Nothing more can be extracted from the stream. -/
def Dead (s : Strm K) : Prop := s.toks = [] ∨ s.good = false

theorem dead_rdWord {s : Strm K} (h : Dead s) (o : Option Word) :
    (rdWord s o).1 = o ∧ Dead (rdWord s o).2 := by
  obtain ⟨t, g⟩ := s
  cases g with
  | false => exact ⟨rfl, Or.inr rfl⟩
  | true =>
    have ht : t = [] := by rcases h with h | h; exact h; cases h
    subst ht
    exact ⟨rfl, Or.inl rfl⟩

theorem dead_rdInt {s : Strm K} (h : Dead s) (o : Int) :
    (rdInt s o).1 = o ∧ Dead (rdInt s o).2 := by
  obtain ⟨t, g⟩ := s
  cases g with
  | false => exact ⟨rfl, Or.inr rfl⟩
  | true =>
    have ht : t = [] := by rcases h with h | h; exact h; cases h
    subst ht
    exact ⟨rfl, Or.inl rfl⟩

theorem dead_rdNum {s : Strm K} (h : Dead s) (o : K) :
    (rdNum s o).1 = o ∧ Dead (rdNum s o).2 := by
  obtain ⟨t, g⟩ := s
  cases g with
  | false => exact ⟨rfl, Or.inr rfl⟩
  | true =>
    have ht : t = [] := by rcases h with h | h; exact h; cases h
    subst ht
    exact ⟨rfl, Or.inl rfl⟩

theorem dead_rdNums {s : Strm K} (h : Dead s) (os : List K) : Dead (rdNums s os).2 := by
  induction os generalizing s with
  | nil => exact h
  | cons o os ih => exact ih (dead_rdNum h o).2

theorem dead_nil : Dead (⟨[], true⟩ : Strm K) := Or.inl rfl

theorem rdWord_nil (o : Option Word) :
    rdWord (⟨[], true⟩ : Strm K) o = (o, ⟨[], false⟩) := rfl
theorem rdWord_bad (t : List (Tok K)) (o : Option Word) :
    rdWord (⟨t, false⟩ : Strm K) o = (o, ⟨t, false⟩) := rfl
theorem rdInt_nil (o : Int) :
    rdInt (⟨[], true⟩ : Strm K) o = (o, ⟨[], false⟩) := rfl
theorem ne_ncell : ¬ (some "crystal_system".toList = some "N_cell_param".toList) := by decide
theorem ne_cellp : ¬ (some "N_cell_param".toList = some "cell_param".toList) := by decide

theorem lat_read_nil (D : Nat) : Lat.read D [] = .throw := by
  unfold Lat.read
  by_cases h1 : D = 1
  · subst h1; decide
  by_cases h2 : D = 2
  · subst h2; decide
  by_cases h3 : D = 3
  · subst h3; decide
  simp [h1, h2, h3]

theorem dead_latGet {s : Strm K} (h : Dead s) (D : Nat) : Lat.get D s = .throw := by
  unfold Lat.get
  simp only [(dead_rdWord h (some [])).1, lat_read_nil, Res.bind]

theorem dead_cellHeader {s : Strm K} (h : Dead s) (D : Nat) (j : Junk K) (lat0 : Lat) :
    readCellHeader D j lat0 s = .throw := by
  unfold readCellHeader
  have : ¬ ((rdWord s (some [])).1 = some "crystal_system".toList) := by
    rw [(dead_rdWord h (some [])).1]; decide
  dsimp only
  rw [if_neg this]

/-- Reading the parameters from a truncated list leaves a dead stream. -/
theorem rdNums_short (f : K → K) (xs old : List K) (k : Nat) (hk : k < xs.length)
    (h : old.length = xs.length) :
    Dead (rdNums ⟨(xs.map fun x => Tok.num (f x)).take k, true⟩ old).2 := by
  induction xs generalizing old k with
  | nil => simp at hk
  | cons x xs ih =>
    cases old with
    | nil => simp at h
    | cons o os =>
      cases k with
      | zero => exact dead_rdNums dead_nil _
      | succ k =>
        simp only [List.map_cons, List.take_succ_cons, rdNums, rdNum_num]
        exact ih os k (by simpa using hk) (by simpa using h)

/-- The part of the reader after the unit cell, on a dead stream. -/
theorem readHeader_tail_dead {s : Strm K} (h : Dead s) (n : Int) (G : Option Word → Int → Strm K →
    Res (Header K × Strm K)) :
    (let l := rdWord s (some "dim".toList)
     let g := if l.1 = some "group_name".toList then rdWord l.2 (some []) else (some [], l.2)
     let l' := if l.1 = some "group_name".toList then rdWord g.2 l.1 else l
     if l'.1 = some "N_monomer".toList then
       let q := rdInt l'.2 n
       if 0 < q.1 then G g.1 q.1 q.2 else .throw
     else .throw) = .throw := by
  have h1 := (dead_rdWord h (some "dim".toList)).1
  have hne : ¬ ((rdWord s (some "dim".toList)).1 = some "group_name".toList) := by
    rw [h1]; decide
  dsimp only
  rw [if_neg hne, if_neg hne, h1, if_neg (by decide)]

/-- C83. A header cut off before the label of the number of monomers, or before any earlier
item, is rejected: the reader throws, whatever the variables contained before the call. -/
theorem C83_truncated (rd : K → K) (D : Nat) (h : Header K) (j : Junk K) (lat0 : Lat)
    (toks : List (Tok K)) (hv : h.Valid D) (h0 : lat0 = .null ∨ lat0 = h.cell.lat)
    (hw : writeHeader rd D h = .ok toks) (k : Nat) (hk : k + 1 < toks.length) :
    readHeader D j lat0 ⟨toks.take k, true⟩ = .throw := by
  obtain ⟨hd, hn, hm⟩ := hv
  have h0' : lat0 = .null ∨ h.cell.lat = lat0 := h0.imp_right Eq.symm
  unfold writeHeader at hw
  simp only [if_neg hm.ne', if_pos hm] at hw
  injection hw with hw
  subst hw
  unfold writeCellHeader at hk ⊢
  simp only [List.cons_append, List.nil_append, List.append_assoc] at hk ⊢
  match k, hk with
  | 0, _ => rfl
  | 1, _ => rfl
  | 2, _ => rfl
  | 3, _ => rfl
  | 4, _ =>
    simp only [List.take_succ_cons, List.take_zero]
    unfold readHeader
    simp only [rdWord_word, if_true, rdInt_int, rdInt_nil]
    simp only [dead_cellHeader (K := K) (s := ⟨[], false⟩) (Or.inr rfl), Res.bind, ite_self]
  | 5, _ =>
    simp only [List.take_succ_cons, List.take_zero]
    unfold readHeader
    simp only [rdWord_word, if_true, rdInt_int]
    rw [dead_cellHeader dead_nil]
    rfl
  | 6, _ =>
    simp only [List.take_succ_cons, List.take_zero]
    unfold readHeader readCellHeader
    simp only [rdWord_word, if_true, rdInt_int]
    rw [dead_latGet dead_nil]
    rfl
  | 7, _ =>
    simp only [List.take_succ_cons, List.take_zero]
    unfold readHeader readCellHeader
    simp only [rdWord_word, if_true, rdInt_int, Lat.get, C67_lattice h.cell.lat D hd, Res.bind,
      if_pos h0', rdWord_nil, ne_ncell, if_false]
  | 8, _ =>
    simp only [List.take_succ_cons, List.take_zero]
    unfold readHeader readCellHeader
    simp only [rdWord_word, if_true, rdInt_int, Lat.get, C67_lattice h.cell.lat D hd, Res.bind,
      if_pos h0', rdInt_nil, rdWord_bad, ne_cellp, if_false, ite_self]
  | 9, _ =>
    simp only [List.take_succ_cons, List.take_zero]
    unfold readHeader readCellHeader
    simp only [rdWord_word, if_true, rdInt_int, Lat.get, C67_lattice h.cell.lat D hd, Res.bind,
      if_pos h0', rdWord_nil, ne_cellp, if_false]
  | k + 10, hk =>
    simp only [List.take_succ_cons]
    unfold readHeader readCellHeader
    simp only [rdWord_word, if_true, rdInt_int, Lat.get, C67_lattice h.cell.lat D hd, Res.bind,
      if_pos h0']
    by_cases hkn : k < h.cell.params.length
    · have hdead := rdNums_short rd h.cell.params
        ((List.range h.cell.lat.nParameter).map j.par) k hkn (by simp [hn])
      rw [List.take_append_of_le_length (by simp; omega)]
      exact readHeader_tail_dead hdead j.nMonomer
        fun g n s => .ok (⟨h.ver1, h.ver2, ⟨h.cell.lat, _⟩, g.getD [], n⟩, s)
    · obtain ⟨m, rfl⟩ : ∃ m, k = h.cell.params.length + m := ⟨k - h.cell.params.length, by omega⟩
      have ht : ∀ T : List (Tok K),
          ((h.cell.params.map fun x => Tok.num (rd x)) ++ T).take (h.cell.params.length + m)
            = (h.cell.params.map fun x => Tok.num (rd x)) ++ T.take m := by
        intro T
        rw [List.take_append, List.take_of_length_le (by simp)]
        simp
      rw [ht, rdNums_map _ _ _ _ (by simp [hn])]
      by_cases hg : h.group = []
      · rw [if_pos hg] at hk ⊢
        have hm0 : m = 0 := by simp at hk; omega
        subst hm0
        exact readHeader_tail_dead dead_nil j.nMonomer
          fun g n s => .ok (⟨h.ver1, h.ver2, ⟨h.cell.lat, _⟩, g.getD [], n⟩, s)
      · rw [if_neg hg] at hk ⊢
        have hm3 : m < 3 := by simp at hk; omega
        match m, hm3 with
        | 0, _ =>
          exact readHeader_tail_dead dead_nil j.nMonomer
            fun g n s => .ok (⟨h.ver1, h.ver2, ⟨h.cell.lat, _⟩, g.getD [], n⟩, s)
        | 1, _ => rfl
        | 2, _ => rfl

/-- C83 has one gap: a header cut off just after the label `N_monomer` leaves the number of
monomers unset, so it is accepted when the variable of the caller, which no caller initialises,
happens to be positive. -/
theorem C83_truncated_last_violated (rd : K → K) (D : Nat) (h : Header K) (j : Junk K) (lat0 : Lat)
    (toks : List (Tok K)) (hv : h.Valid D) (h0 : lat0 = .null ∨ lat0 = h.cell.lat)
    (hw : writeHeader rd D h = .ok toks) :
    readHeader D j lat0 ⟨toks.dropLast, true⟩ =
      if 0 < j.nMonomer then
        .ok (⟨h.ver1, h.ver2, ⟨h.cell.lat, h.cell.params.map rd⟩, h.group, j.nMonomer⟩, ⟨[], false⟩)
      else .throw := by
  obtain ⟨hd, hn, hm⟩ := hv
  unfold writeHeader at hw
  simp only [if_neg hm.ne', if_pos hm] at hw
  injection hw with hw
  subst hw
  rw [List.dropLast_append_of_ne_nil (by simp)]
  unfold readHeader
  simp only [List.cons_append, List.nil_append, List.append_assoc, rdWord_word, rdInt_int, if_true]
  rw [readCellHeader_write rd D h.cell j lat0 _ hd hn h0]
  simp only [Res.bind]
  by_cases hg : h.group = []
  · rw [if_pos hg, hg]
    rfl
  · rw [if_neg hg]
    rfl

/-! ## Headers written and read by a `FieldIo` -/

/-- C83. What a `FieldIo` writes, a `FieldIo` with the same lattice and group reads back: the
number of monomers, the lattice, the printed parameters and the flag for a symmetric field;
the basis exists afterwards whenever there is a group. -/
theorem C83_fieldIo (rd : K → K) (D : Nat) (io : FieldIo) (mk : Cell K → Bool) (j : Junk K)
    (lat0 : Lat) (n : Int) (c : Cell K) (sym : Bool) (toks rest : List (Tok K))
    (hd : c.lat.dim = some D) (hp : c.params.length = c.lat.nParameter) (hn : 0 < n)
    (hl : c.lat = io.lattice) (h0 : lat0 = .null ∨ lat0 = io.lattice)
    (hgn : io.hasGroup = true → io.groupName ≠ [])
    (hb : io.hasGroup = true → io.hasBasis = false → mk ⟨c.lat, c.params.map rd⟩ = true)
    (hw : io.write rd D n c sym = .ok toks) :
    io.read D mk j lat0 ⟨toks ++ rest, true⟩ =
      .ok (⟨n, ⟨c.lat, c.params.map rd⟩, sym, io.hasGroup || io.hasBasis⟩, ⟨rest, true⟩) := by
  have hnull : c.lat ≠ .null := by
    intro h; rw [h] at hd; cases hd
  have h0' : lat0 = .null ∨ lat0 = c.lat := by rw [hl]; exact h0
  have hpre : ¬ (lat0 ≠ .null ∧ lat0 ≠ io.lattice) := by
    rintro ⟨a, b⟩; rcases h0 with h0 | h0
    · exact a h0
    · exact b h0
  have hgroup : ∃ g : Word, writeHeader rd D ⟨1, 0, c, g, n⟩ = .ok toks ∧
      decide (g ≠ []) = sym ∧ ¬ (decide (g ≠ []) = true ∧ io.hasGroup = true ∧ g ≠ io.groupName) := by
    unfold FieldIo.write at hw
    cases sym with
    | true =>
      rw [if_pos rfl] at hw
      by_cases hh : io.hasGroup = true
      · rw [if_pos hh] at hw
        exact ⟨io.groupName, hw, by simp [hgn hh], by simp⟩
      · rw [if_neg hh] at hw; cases hw
    | false =>
      rw [if_neg (by simp)] at hw
      exact ⟨[], hw, by simp, by simp⟩
  obtain ⟨g, hg1, hg2, hg3⟩ := hgroup
  have hr := C83_roundtrip rd D ⟨1, 0, c, g, n⟩ j lat0 toks rest ⟨hd, hp, hn⟩ h0' hg1
  unfold FieldIo.read
  rw [if_neg hpre, hr]
  simp only [Res.bind]
  rw [if_neg (by simp), if_neg hnull, if_neg (by simp [hl]), hg2]
  by_cases hh : io.hasGroup = true
  · rw [if_pos hh]
    rw [if_neg (by intro ⟨a, b⟩; exact hg3 ⟨by rw [hg2]; exact a, hh, b⟩)]
    by_cases hbas : io.hasBasis = true
    · rw [if_pos hbas, hh]; rfl
    · have hbas' : io.hasBasis = false := by simpa using hbas
      rw [if_neg hbas, if_pos (hb hh hbas'), hh]; rfl
  · have hh' : io.hasGroup = false := by simpa using hh
    rw [if_neg hh, hh']; rfl

/-- C83. A header accepted by a `FieldIo` has version 1, the lattice declared in the parameter
file, a positive number of monomers and, if it names a group and a group was declared, the
declared name. -/
theorem C83_accepted (D : Nat) (io : FieldIo) (mk : Cell K → Bool) (j : Junk K) (lat0 : Lat)
    (s s' : Strm K) (out : HeaderOut K) (h : io.read D mk j lat0 s = .ok (out, s')) :
    ∃ hd : Header K, readHeader D j lat0 s = .ok (hd, s') ∧ hd.ver1 = 1 ∧ 0 < hd.nMonomer ∧
      out.nMonomer = hd.nMonomer ∧ out.cell = hd.cell ∧ out.cell.lat = io.lattice ∧
      out.cell.lat ≠ .null ∧ out.cell.params.length = out.cell.lat.nParameter ∧
      (out.isSymmetric = true ↔ hd.group ≠ []) ∧
      (io.hasGroup = true → out.hasBasis = true ∧
        (out.isSymmetric = true → hd.group = io.groupName)) := by
  unfold FieldIo.read at h
  split at h
  · cases h
  cases hr : readHeader D j lat0 s with
  | throw => rw [hr] at h; cases h
  | ub => rw [hr] at h; cases h
  | ok p =>
    obtain ⟨hd, s1⟩ := p
    rw [hr] at h
    simp only [Res.bind] at h
    have hN : 0 < hd.nMonomer := by
      unfold readHeader at hr
      dsimp only at hr
      repeat' split at hr
      all_goals first
        | cases hr
        | skip
      all_goals
        cases hc : readCellHeader D j lat0 (rdInt (rdWord (rdInt (rdInt (rdWord s (some [])).2
          j.ver1).2 j.ver2).2 (rdWord s (some [])).1).2 j.dim).2 with
        | throw => rw [hc] at hr; cases hr
        | ub => rw [hc] at hr; cases hr
        | ok c =>
          rw [hc] at hr
          simp only [Res.bind] at hr
          repeat' split at hr
          all_goals first
            | cases hr; assumption
            | cases hr
    have hP : hd.cell.params.length = hd.cell.lat.nParameter := by
      unfold readHeader at hr
      dsimp only at hr
      repeat' split at hr
      all_goals first
        | cases hr
        | skip
      all_goals
        cases hc : readCellHeader D j lat0 (rdInt (rdWord (rdInt (rdInt (rdWord s (some [])).2
          j.ver1).2 j.ver2).2 (rdWord s (some [])).1).2 j.dim).2 with
        | throw => rw [hc] at hr; cases hr
        | ub => rw [hc] at hr; cases hr
        | ok c =>
          have hcp : c.1.params.length = c.1.lat.nParameter := by
            unfold readCellHeader at hc
            dsimp only at hc
            split at hc
            swap
            · cases hc
            cases hl : Lat.get D (rdWord (rdInt (rdWord (rdInt (rdInt (rdWord s (some [])).2
              j.ver1).2 j.ver2).2 (rdWord s (some [])).1).2 j.dim).2 (some [])).2 with
            | throw => rw [hl] at hc; cases hc
            | ub => rw [hl] at hc; cases hc
            | ok q =>
              rw [hl] at hc
              simp only [Res.bind] at hc
              repeat' split at hc
              all_goals first
                | (cases hc
                   have hlen : ∀ (s : Strm K) (os : List K), (rdNums s os).1.length = os.length := by
                     intro s os
                     induction os generalizing s with
                     | nil => rfl
                     | cons o os ih => simp [rdNums, ih]
                   simp [hlen])
                | cases hc
          rw [hc] at hr
          simp only [Res.bind] at hr
          repeat' split at hr
          all_goals first
            | (cases hr; exact hcp)
            | cases hr
    by_cases h1 : hd.ver1 ≠ 1
    · rw [if_pos h1] at h; cases h
    rw [if_neg h1] at h
    by_cases h2 : hd.cell.lat = .null
    · rw [if_pos h2] at h; cases h
    rw [if_neg h2] at h
    by_cases h3 : hd.cell.lat ≠ io.lattice
    · rw [if_pos h3] at h; cases h
    rw [if_neg h3] at h
    push Not at h1 h3
    by_cases hg : io.hasGroup = true
    · rw [if_pos hg] at h
      split at h
      · cases h
      · rename_i hmis
        have hout : out = ⟨hd.nMonomer, hd.cell, decide (hd.group ≠ []), true⟩ ∧ s' = s1 := by
          repeat' split at h
          all_goals first
            | (injection h with h; injection h with ha hb'; exact ⟨ha.symm, hb'.symm⟩)
            | cases h
        obtain ⟨rfl, rfl⟩ := hout
        refine ⟨hd, rfl, h1, hN, rfl, rfl, h3, h2, hP, by simp, fun _ => ⟨rfl, ?_⟩⟩
        intro hsym
        by_contra hne
        exact hmis ⟨hsym, hne⟩
    · rw [if_neg hg] at h
      injection h with h
      injection h with ha hb'
      subst ha hb'
      exact ⟨hd, rfl, h1, hN, rfl, rfl, h3, h2, hP, by simp, fun h' => absurd h' hg⟩

/-- The header of a field file for a hexagonal crystal. -/
def exHeader : Header ℤ where
  ver1 := 1
  ver2 := 0
  cell := ⟨.d2 .hexagonal, [4]⟩
  group := "p_6_m_m".toList
  nMonomer := 2

def exJunk : Junk ℤ where
  ver1 := 17
  ver2 := 17
  dim := 2
  nPar := 1
  par := fun _ => 17
  nMonomer := 17

example : exHeader.Valid 2 := ⟨rfl, rfl, by decide⟩
example : writeHeader (id : ℤ → ℤ) 2 exHeader = .ok
    [.word "format".toList, .int 1, .int 0, .word "dim".toList, .int 2,
     .word "crystal_system".toList, .word "hexagonal".toList, .word "N_cell_param".toList, .int 1,
     .word "cell_param".toList, .num 4, .word "group_name".toList, .word "p_6_m_m".toList,
     .word "N_monomer".toList, .int 2] := by decide
/-- Without its last item the header is accepted with 17 monomers. -/
example : readHeader 2 exJunk .null
    ⟨[.word "format".toList, .int 1, .int 0, .word "dim".toList, .int 2,
     .word "crystal_system".toList, .word "hexagonal".toList, .word "N_cell_param".toList, .int 1,
     .word "cell_param".toList, .num (4 : ℤ), .word "group_name".toList, .word "p_6_m_m".toList,
     .word "N_monomer".toList], true⟩ = .ok ({ exHeader with nMonomer := 17 }, ⟨[], false⟩) := by
  decide
/-- A `FieldIo` for another group rejects the header. -/
example : FieldIo.read 2 ⟨.d2 .hexagonal, true, "p_1".toList, true⟩ (fun _ => true) exJunk .null
    ⟨[.word "format".toList, .int 1, .int 0, .word "dim".toList, .int 2,
     .word "crystal_system".toList, .word "hexagonal".toList, .word "N_cell_param".toList, .int 1,
     .word "cell_param".toList, .num (4 : ℤ), .word "group_name".toList, .word "p_6_m_m".toList,
     .word "N_monomer".toList, .int 2], true⟩ = .throw := by decide

end Verif.Text
