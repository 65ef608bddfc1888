import Verif.Mesh.Lemmas

/-!
# Properties C01–C04, C07, C08: meshes, mesh iterators, integer vectors

Specification vocabulary (independent of the model's helpers):
* `InRange dims pos` – same length and `0 ≤ pos[i] < dims[i]` for every `i`;
* `List.prod` – number of points;
* `LexLt` – textbook lexicographic order;
* `fortranPos dims k` – `k`-th point when the first index varies fastest.
-/

namespace Verif.Mesh

/-- `pos` is a point of the mesh with the given dimensions. -/
def InRange (dims pos : List Int) : Prop :=
  List.Forall₂ (fun d p => 0 ≤ p ∧ p < d) dims pos

/-- Textbook lexicographic order on equally long lists. -/
inductive LexLt : List Int → List Int → Prop
  | head {a b : Int} {as bs : List Int} : a < b → LexLt (a :: as) (b :: bs)
  | tail {a : Int} {as bs : List Int} : LexLt as bs → LexLt (a :: as) (a :: bs)

/-- The `k`-th mesh point in column-major (first index fastest) order. -/
def fortranPos : List Int → Int → List Int
  | [], _ => []
  | d :: ds, k => (k % d) :: fortranPos ds (k / d)

theorem inMesh_iff {dims pos : List Int} : inMesh dims pos = true ↔ InRange dims pos := by
  unfold InRange
  induction dims generalizing pos with
  | nil => cases pos <;> simp [inMesh]
  | cons d ds ih =>
    cases pos with
    | nil => simp [inMesh]
    | cons p ps => rw [inMesh_cons, List.forall₂_cons, ih]

theorem fortranPos_eq (dims : List Int) (k : Int) : fortranPos dims k = fdigits dims k := by
  induction dims generalizing k with
  | nil => rfl
  | cons d ds ih => simp [fortranPos, fdigits, ih]

/-! ## C01 -/

/-- C01 (construction): a mesh is built exactly for non-empty positive dimension
lists, and its size is the number of points. -/
theorem C01_setDimensions_iff (dims : List Int) :
    (∃ m, Mesh.setDimensions dims = some m) ↔ (dims ≠ [] ∧ ∀ d ∈ dims, 0 < d) := by
  constructor
  · rintro ⟨m, h⟩
    obtain ⟨h1, h2, -⟩ := setDimensions_some h
    exact ⟨h1, h2⟩
  · rintro ⟨h1, h2⟩
    exact ⟨_, setDimensions_of_pos h1 h2⟩

/-- C01: `rank` and `position` are mutually inverse bijections between in-mesh
positions and `[0, size)`; `size` is the product of the dimensions; `isInMesh`
decides membership. -/
theorem C01_rank_position_bijection (dims : List Int) (m : Mesh)
    (h : Mesh.setDimensions dims = some m) :
    m.dims = dims ∧ m.size = dims.prod ∧
    (∀ p, m.isInMesh p = true ↔ InRange dims p) ∧
    (∀ r, 0 ≤ r → r < m.size → InRange dims (m.position r) ∧ m.rank (m.position r) = r) ∧
    (∀ p, InRange dims p → 0 ≤ m.rank p ∧ m.rank p < m.size ∧ m.position (m.rank p) = p) := by
  obtain ⟨hne, hpos, rfl⟩ := setDimensions_some h
  refine ⟨rfl, rfl, fun p => inMesh_iff, ?_, ?_⟩
  · intro r h0 h1
    obtain ⟨i0, i1⟩ := digits_inMesh hpos h0 h1
    simp only [Mesh.position, Mesh.rank]
    rw [positionLoop_eq dims hne hpos r h0]
    refine ⟨inMesh_iff.1 i0, ?_⟩
    rw [rankLoop_eq dims _ (inMesh_length i0), i1, zero_add]
  · intro p hp
    have hp' := inMesh_iff.2 hp
    obtain ⟨b0, b1⟩ := val_bounds hp'
    simp only [Mesh.position, Mesh.rank]
    rw [rankLoop_eq dims _ (inMesh_length hp'), zero_add]
    refine ⟨b0, b1, ?_⟩
    rw [positionLoop_eq dims hne hpos _ b0, digits_val hp']

theorem val_lt_of_lex {dims p q : List Int} (hp : inMesh dims p = true)
    (hq : inMesh dims q = true) (h : LexLt p q) : val dims p < val dims q := by
  induction h generalizing dims with
  | @head a b as bs hab =>
    cases dims with
    | nil => simp [inMesh] at hp
    | cons d ds =>
      rw [inMesh_cons] at hp hq
      have b1 := val_bounds hp.2
      have b2 := val_bounds hq.2
      simp only [val]
      nlinarith
  | @tail a as bs _ ih =>
    cases dims with
    | nil => simp [inMesh] at hp
    | cons d ds =>
      rw [inMesh_cons] at hp hq
      have := ih hp.2 hq.2
      simp only [val]; omega

theorem LexLt.trichotomy {p q : List Int} (h : p.length = q.length) :
    LexLt p q ∨ p = q ∨ LexLt q p := by
  induction p generalizing q with
  | nil => cases q <;> simp at h ⊢
  | cons a as ih =>
    cases q with
    | nil => simp at h
    | cons b bs =>
      rcases lt_trichotomy a b with hab | rfl | hab
      · exact Or.inl (.head hab)
      · simp at h
        rcases ih h with h | rfl | h
        · exact Or.inl (.tail h)
        · exact Or.inr (Or.inl rfl)
        · exact Or.inr (Or.inr (.tail h))
      · exact Or.inr (Or.inr (.head hab))

/-- C01: ranks follow C array order, i.e. the lexicographic order of positions. -/
theorem C01_rank_lexicographic (dims : List Int) (m : Mesh)
    (h : Mesh.setDimensions dims = some m) (p q : List Int)
    (hp : InRange dims p) (hq : InRange dims q) :
    m.rank p < m.rank q ↔ LexLt p q := by
  obtain ⟨hne, hpos, rfl⟩ := setDimensions_some h
  have hp' := inMesh_iff.2 hp
  have hq' := inMesh_iff.2 hq
  simp only [Mesh.rank]
  rw [rankLoop_eq dims _ (inMesh_length hp'), rankLoop_eq dims _ (inMesh_length hq')]
  constructor
  · intro hlt
    rcases LexLt.trichotomy (p := p) (q := q)
      (by rw [inMesh_length hp', inMesh_length hq']) with h | h | h
    · exact h
    · subst h; omega
    · have := val_lt_of_lex hq' hp' h; omega
  · intro hl
    have := val_lt_of_lex hp' hq' hl; omega

example : Mesh.setDimensions [2, 3, 4] = some ⟨[2, 3, 4], [12, 4, 1], 24⟩ := by decide
example : (Mesh.mk [2, 3, 4] [12, 4, 1] 24).rank [1, 2, 3] = 23 := by decide
example : (Mesh.mk [2, 3, 4] [12, 4, 1] 24).position 17 = [1, 1, 1] := by decide
example : InRange [2, 3, 4] [1, 1, 1] := inMesh_iff.1 (by decide)

/-! ## C02 -/

/-- C02: the shifted coordinate is in range, differs from the input by the
returned multiple of the dimension, and that multiple is the only one that works. -/
theorem C02_shift_coordinate (c d : Int) (hd : 0 < d) :
    0 ≤ (shift1 c d).2 ∧ (shift1 c d).2 < d ∧ (shift1 c d).2 = c - (shift1 c d).1 * d ∧
    (∀ s, 0 ≤ c - s * d → c - s * d < d → s = (shift1 c d).1) := by
  have key : (shift1 c d).1 = c / d := by
    unfold shift1
    by_cases hc : c ≥ 0
    · simp only [hc, if_true]
      exact Int.tdiv_eq_ediv_of_nonneg hc
    · simp only [hc, if_false]
      have hneg : 0 ≤ -(c + 1) := by omega
      have e1 : (c + 1).tdiv d = -((-(c + 1)) / d) := by
        rw [← Int.tdiv_eq_ediv_of_nonneg hneg, Int.neg_tdiv, neg_neg]
      rw [e1]
      have b1 := Int.mul_ediv_add_emod (-(c+1)) d
      have b2 := Int.emod_nonneg (-(c+1)) hd.ne'
      have b3 := Int.emod_lt_of_pos (-(c+1)) hd
      set q := (-(c + 1)) / d
      symm
      have : c = (d - 1 - (-(c + 1)) % d) + (-1 + -q) * d := by
        linear_combination b1
      rw [this, Int.add_mul_ediv_right _ _ hd.ne', Int.ediv_eq_zero_of_lt (by omega) (by omega)]
      ring
  have h2 : (shift1 c d).2 = c - (shift1 c d).1 * d := rfl
  have e1 := Int.mul_ediv_add_emod c d
  have e2 := Int.emod_nonneg c hd.ne'
  have e3 := Int.emod_lt_of_pos c hd
  have hmul : c / d * d = d * (c / d) := mul_comm _ _
  refine ⟨?_, ?_, h2, ?_⟩
  · rw [h2, key]; omega
  · rw [h2, key]; omega
  · intro s h0 h1
    rw [key]
    have : c = (c - s * d) + s * d := by ring
    rw [this, Int.add_mul_ediv_right _ _ hd.ne', Int.ediv_eq_zero_of_lt h0 h1]; ring

/-- C02: shifting a position puts it in the mesh and subtracts a lattice vector. -/
theorem C02_shift_position (dims : List Int) (m : Mesh) (h : Mesh.setDimensions dims = some m)
    (p : List Int) (hlen : p.length = dims.length) :
    InRange dims (m.shift p).2 ∧
    (m.shift p).2 = List.zipWith (fun x sd => x - sd) p (List.zipWith (· * ·) (m.shift p).1 dims) ∧
    (InRange dims p → (m.shift p).2 = p) := by
  obtain ⟨hne, hpos, rfl⟩ := setDimensions_some h
  simp only [Mesh.shift]
  clear h hne
  unfold InRange
  induction dims generalizing p with
  | nil => cases p <;> simp at hlen; simp [shiftVec]
  | cons d ds ih =>
    cases p with
    | nil => simp at hlen
    | cons x xs =>
      simp at hlen
      obtain ⟨a0, a1, a2⟩ := ih xs hlen hpos.tail
      obtain ⟨b0, b1, b2, b3⟩ := C02_shift_coordinate x d hpos.head
      simp only [shiftVec]
      refine ⟨List.Forall₂.cons ⟨b0, b1⟩ a0, ?_, ?_⟩
      · simp only [List.zipWith_cons_cons, ← a1, ← b2]
      · intro hf
        rw [List.forall₂_cons] at hf
        have := b3 0 (by simpa using hf.1.1) (by simpa using hf.1.2)
        rw [a2 hf.2, b2, ← this]; simp

example : shift1 (-7) 3 = (-3, 2) := by decide
example : (Mesh.mk [3, 4] [4, 1] 12).shift [-7, 9] = ([-3, 2], [2, 1]) := by decide

/-! ## C03 -/

/-- C03: after `begin()` and `n ≤ size` increments the iterator has rank `n`; it is
at the end iff `n = size`; before that its position is the mesh position of rank `n`.
The starting iterator may hold any stale position and rank. -/
theorem C03_iterator_state (dims : List Int) (m : Mesh) (h : Mesh.setDimensions dims = some m)
    (it0 it : Iter) (hit : it0.setDimensions dims = some it) (hlen : it0.pos.length = dims.length)
    (n : Nat) (hn : (n : Int) ≤ m.size) :
    (it.after n).rank = n ∧ ((it.after n).atEnd = true ↔ (n : Int) = m.size) ∧
    ((n : Int) < m.size → (it.after n).pos = m.position n) := by
  obtain ⟨hne, hpos, rfl⟩ := setDimensions_some h
  unfold Iter.setDimensions at hit
  split at hit
  · cases hit
  · simp only [Option.some.injEq] at hit
    have hd : it.dims = dims := by rw [← hit]
    have hs : it.size = dims.prod := by rw [← hit]; exact sizeLoop_eq dims
    have hl : it.pos.length = dims.length := by rw [← hit]; exact hlen
    have inv : ∀ n : Nat, (n : Int) ≤ dims.prod → (it.after n).rank = n ∧
        (it.after n).dims = dims ∧ (it.after n).size = dims.prod ∧
        ((n : Int) < dims.prod → inMesh dims (it.after n).pos = true ∧
          val dims (it.after n).pos = n) := by
      intro n
      induction n with
      | zero =>
        intro _
        simp only [Iter.after, Iter.begin]
        refine ⟨by simp, hd, hs, fun _ => ?_⟩
        have : it.pos.map (fun _ => (0:Int)) = dims.map (fun _ => (0:Int)) := by
          simp [List.map_const', hl]
        rw [this]
        exact ⟨inMesh_zero hpos, val_zero dims⟩
      | succ k ih =>
        intro hk
        push_cast at hk
        obtain ⟨r1, r2, r3, r4⟩ := ih (by omega)
        obtain ⟨q1, q2⟩ := r4 (by omega)
        simp only [Iter.after, Iter.next]
        refine ⟨by rw [r1]; push_cast; rfl, r2, r3, fun hlt => ?_⟩
        push_cast at hlt
        rw [r2]
        obtain ⟨i0, i1, i2⟩ := incr_val hpos q1
        refine ⟨i0, ?_⟩
        cases hc : (incr dims (it.after k).pos).2 with
        | false => rw [i1 hc, q2]; push_cast; rfl
        | true => have := (i2 hc).1; omega
    obtain ⟨r1, r2, r3, r4⟩ := inv n hn
    refine ⟨r1, ?_, ?_⟩
    · simp [Iter.atEnd, r1, r3]
    · intro hlt
      obtain ⟨q1, q2⟩ := r4 hlt
      simp only [Mesh.position]
      rw [positionLoop_eq dims hne hpos _ (by omega), ← q2, digits_val q1]

theorem iter_run_aux (it : Iter) (N : Nat) (hend : ∀ n : Nat, n ≤ N →
    ((it.after n).atEnd = true ↔ n = N)) (k : Nat) (hk : k ≤ N) (fuel : Nat) (hf : N - k < fuel) :
    Iter.run fuel (it.after k) = (List.range' k (N - k)).map it.after := by
  induction fuel generalizing k with
  | zero => omega
  | succ f ih =>
    rw [Iter.run]
    by_cases hkN : k = N
    · rw [if_pos ((hend k hk).2 hkN)]; simp [hkN]
    · rw [if_neg (fun hh => hkN ((hend k hk).1 hh))]
      have : N - k = (N - (k + 1)) + 1 := by omega
      rw [this, List.range'_succ, List.map_cons]
      congr 1
      exact ih (k + 1) (by omega) (by omega)

/-- C03: the whole loop `for (it.begin(); !it.atEnd(); ++it)` visits exactly the
mesh positions of ranks `0, 1, …, size-1`, in this order, once each, and stops. -/
theorem C03_iterator_enumerates (dims : List Int) (m : Mesh)
    (h : Mesh.setDimensions dims = some m)
    (it0 it : Iter) (hit : it0.setDimensions dims = some it) (hlen : it0.pos.length = dims.length)
    (fuel : Nat) (hf : m.size < fuel) :
    (Iter.run fuel it.begin).map (fun s => (s.rank, s.pos)) =
      (List.range m.size.toNat).map (fun n : Nat => ((n : Int), m.position n)) := by
  obtain ⟨_, hpos, hm⟩ := setDimensions_some h
  have hsz : 0 < m.size := by rw [hm]; exact prod_pos hpos
  have hcast : ((m.size.toNat : Nat) : Int) = m.size := by omega
  have key := fun n hn => C03_iterator_state dims m h it0 it hit hlen n hn
  have hr := iter_run_aux it m.size.toNat (fun n hn => by
    have := (key n (by omega)).2.1
    rw [this]; omega) 0 (by omega) fuel (by omega)
  have h0 : it.after 0 = it.begin := rfl
  rw [h0] at hr
  rw [hr, List.map_map, Nat.sub_zero, List.range_eq_range']
  apply List.map_congr_left
  intro n hn
  simp only [List.mem_range'_1] at hn
  obtain ⟨k1, _, k3⟩ := key n (by omega)
  simp only [Function.comp, k1, k3 (by omega)]

example : (Iter.empty 2).setDimensions [2, 3] = some ⟨[2, 3], [0, 0], 0, 6⟩ := by decide
example : (Iter.run 10 ((⟨[2, 3], [7, 7], 9, 6⟩ : Iter).begin)).map (fun s => (s.rank, s.pos)) =
    [(0, [0, 0]), (1, [0, 1]), (2, [0, 2]), (3, [1, 0]), (4, [1, 1]), (5, [1, 2])] := by decide

/-! ## C04 -/

theorem fiter_run_aux (dims : List Int) (hne : dims ≠ []) (hpos : Pos dims) (fuel k : Nat)
    (it : FIter) (hk : (k : Int) < dims.prod) (hd : it.dims = dims) (ho : it.offs = offsets dims)
    (hp : inMesh dims it.pos = true) (hv : fval dims it.pos = k) (hr : it.rank = val dims it.pos)
    (he : it.atEnd = false) (hf : dims.prod - k < fuel) :
    (FIter.run fuel it).map (fun s => (s.rank, s.pos)) =
      (List.range' k (dims.prod.toNat - k)).map
        (fun n : Nat => (val dims (fdigits dims n), fdigits dims n)) := by
  induction fuel generalizing k it with
  | zero => exfalso; push_cast at hf; omega
  | succ f ih =>
    rw [FIter.run, he]
    have e : dims.prod.toNat - k = (dims.prod.toNat - (k + 1)) + 1 := by omega
    rw [e, List.range'_succ, List.map_cons]
    simp only [Bool.false_eq_true, if_false, List.map_cons]
    have hpos' : it.pos = fdigits dims k := by rw [← hv, fdigits_fval hp]
    congr 1
    · rw [hr, hpos']
    · rw [FIter.next, he]
      simp only [Bool.false_eq_true, if_false]
      obtain ⟨i0, i1, i2⟩ := fincr_fval hpos hne hp
      rw [hd]
      cases hc : (fincr dims it.pos).2 with
      | false =>
        have hv' := i1 hc
        have hb := fval_bounds i0
        apply ih (k + 1)
        · push_cast; omega
        · rfl
        · simp [ho]
        · simp [i0]
        · simp only; rw [hv', hv]; push_cast; rfl
        · simp only [ho]; exact dot_eq dims _ (inMesh_length i0)
        · rfl
        · push_cast at hf ⊢; omega
      | true =>
        have := (i2 hc).1
        have hz : dims.prod.toNat - (k + 1) = 0 := by omega
        rw [hz]
        cases f with
        | zero => simp [FIter.run]
        | succ f => simp [FIter.run]

/-- C04: the loop `for (it.begin(); !it.atEnd(); ++it)` of the Fortran-order
iterator visits the points `fortranPos dims 0, 1, …, size-1` in this order, each
paired with its C-order rank, and stops without an error. -/
theorem C04_fortran_enumerates (dims : List Int) (m : Mesh)
    (h : Mesh.setDimensions dims = some m) :
    ∃ it, FIter.setDimensions dims = some it ∧ ∀ fuel : Nat, m.size < fuel →
      (FIter.run fuel it).map (fun s => (s.rank, s.pos)) =
        (List.range m.size.toNat).map
          (fun n : Nat => (m.rank (fortranPos dims n), fortranPos dims n)) := by
  obtain ⟨hne, hpos, rfl⟩ := setDimensions_some h
  have hall : dims.all (fun d => decide (d > 0)) = true := by
    rw [List.all_eq_true]; intro x hx; simpa using hpos x hx
  have hsz : sizeLoop dims > 0 := by rw [sizeLoop_eq]; exact prod_pos hpos
  refine ⟨⟨dims, offsets dims, dims.map (fun _ => 0), 0, sizeLoop dims, false⟩, ?_, ?_⟩
  · simp [FIter.setDimensions, FIter.begin, hall, hsz]
  · intro fuel hf
    have hf' : dims.prod < fuel := hf
    rw [fiter_run_aux dims hne hpos fuel 0 _ (by simpa using prod_pos hpos) rfl rfl
      (inMesh_zero hpos) (by simpa using fval_zero dims) (val_zero dims).symm rfl (by simpa using hf')]
    rw [List.range_eq_range', Nat.sub_zero]
    apply List.map_congr_left
    intro n hn
    simp only [List.mem_range'_1] at hn
    have hb := fdigits_inMesh hpos (r := n) (by omega) (by omega)
    simp only [Mesh.rank, fortranPos_eq]
    rw [rankLoop_eq dims _ (inMesh_length hb.1), zero_add]

/-- C04: the points visited are pairwise distinct and exhaust the mesh. -/
theorem C04_fortran_bijective (dims : List Int) (hpos : ∀ d ∈ dims, 0 < d) :
    (∀ k, 0 ≤ k → k < dims.prod → InRange dims (fortranPos dims k)) ∧
    (∀ p, InRange dims p → ∃! k, 0 ≤ k ∧ k < dims.prod ∧ fortranPos dims k = p) := by
  constructor
  · intro k h0 h1
    rw [fortranPos_eq]
    exact inMesh_iff.1 (fdigits_inMesh hpos h0 h1).1
  · intro p hp
    have hp' := inMesh_iff.2 hp
    have hb := fval_bounds hp'
    refine ⟨fval dims p, ⟨hb.1, hb.2, by rw [fortranPos_eq, fdigits_fval hp']⟩, ?_⟩
    rintro k ⟨k0, k1, k2⟩
    rw [← k2, fortranPos_eq, (fdigits_inMesh hpos k0 k1).2]

example : (FIter.run 10 ⟨[2, 3], [3, 1], [0, 0], 0, 6, false⟩).map (fun s => (s.rank, s.pos)) =
    [(0, [0, 0]), (3, [1, 0]), (1, [0, 1]), (4, [1, 1]), (2, [0, 2]), (5, [1, 2])] := by decide

/-! ## C07 -/

/-- C07 (text): writing a mesh and reading it back restores it and consumes
exactly the written tokens. -/
theorem C07_text_roundtrip (dims : List Int) (m : Mesh) (h : Mesh.setDimensions dims = some m)
    (rest : List Int) :
    Mesh.readText dims.length (m.writeText ++ rest) = some (m, rest) := by
  obtain ⟨hne, hpos, rfl⟩ := setDimensions_some h
  have hall : dims.all (fun d => decide (d > 0)) = true := by
    rw [List.all_eq_true]; intro x hx; simpa using hpos x hx
  have htake : (dims ++ rest).take dims.length = dims := by simp
  have hdrop : (dims ++ rest).drop dims.length = rest := by simp
  unfold Mesh.readText Mesh.writeText
  rw [if_neg (by simp)]
  simp only [htake, hdrop, hall, if_true, h, Option.map_some]

theorem foldl_loadOne (m : Mesh) (d : Int) (n : Nat) (hd : m.dims.headD 0 = d)
    (hne : m.dims ≠ []) : (List.replicate n d).foldl Mesh.loadOne m = m := by
  induction n with
  | zero => rfl
  | succ n ih =>
    rw [List.replicate_succ, List.foldl_cons]
    have : m.loadOne d = m := by
      cases m with
      | mk dims offs size =>
        cases dims with
        | nil => exact absurd rfl hne
        | cons a as => simp at hd; simp [Mesh.loadOne, hd]
    rw [this, ih]

/-- C07 (archive, partial): loading an archive saved from `m` restores `m` only when the
target object already is equal to `m`. What is missing for the full property:
`serialize` visits `dimensions_[0]` `D` times and never the other dimensions, the
offsets or the size. -/
theorem C07_archive_roundtrip_partial (dims : List Int) (m : Mesh)
    (h : Mesh.setDimensions dims = some m) : m.load m.save = some m := by
  obtain ⟨hne, hpos, rfl⟩ := setDimensions_some h
  unfold Mesh.load Mesh.save
  simp only [List.length_map]
  rw [if_neg (by omega)]
  have : (dims.map (fun _ => dims.headD 0)).take dims.length =
      List.replicate dims.length (dims.headD 0) := by
    rw [List.take_of_length_le (by simp), List.map_const']
  rw [this]
  rw [foldl_loadOne _ _ _ rfl hne]

/-- C07 (archive, violated): a freshly constructed mesh loaded from the archive of
any valid mesh is never equal to the saved mesh, in any dimension. -/
theorem C07_archive_violated (dims : List Int) (m : Mesh) (h : Mesh.setDimensions dims = some m) :
    (Mesh.empty dims.length).load m.save ≠ some m := by
  obtain ⟨hne, hpos, rfl⟩ := setDimensions_some h
  have hsize : ∀ (l : List Int) (m : Mesh), (l.foldl Mesh.loadOne m).size = m.size := by
    intro l
    induction l with
    | nil => intro m; rfl
    | cons a as ih => intro m; rw [List.foldl_cons, ih]; rfl
  unfold Mesh.load
  split
  · simp
  · intro hcon
    simp only [Option.some.injEq] at hcon
    have := congrArg Mesh.size hcon
    rw [hsize] at this
    simp [Mesh.empty] at this
    exact (prod_pos hpos).ne this

example : (Mesh.empty 2).load (Mesh.mk [4, 6] [6, 1] 24).save = some ⟨[4, 0], [0, 0], 0⟩ := by decide
example : Mesh.readText 2 [4, 6, 9] = some (⟨[4, 6], [6, 1], 24⟩, [9]) := by decide

/-! ## C08 -/

theorem vecLt_iff {a b : List Int} : vecLt a b = true ↔ LexLt a b := by
  induction a generalizing b with
  | nil =>
    simp only [vecLt]
    exact ⟨fun h => by simp at h, fun h => by cases h⟩
  | cons x xs ih =>
    cases b with
    | nil =>
      simp only [vecLt]
      exact ⟨fun h => by simp at h, fun h => by cases h⟩
    | cons y ys =>
      simp only [vecLt]
      rcases lt_trichotomy x y with h | rfl | h
      · rw [if_neg (by omega), if_pos h]
        exact ⟨fun _ => .head h, fun _ => rfl⟩
      · rw [if_neg (by omega), if_neg (by omega), ih]
        refine ⟨.tail, fun h => ?_⟩
        cases h with
        | head h => omega
        | tail h => exact h
      · rw [if_pos h]
        refine ⟨fun h => by simp at h, fun h' => ?_⟩
        cases h' with
        | head h => omega
        | tail h => omega

theorem vecEq_iff {a b : List Int} (h : a.length = b.length) : vecEq a b = true ↔ a = b := by
  induction a generalizing b with
  | nil => cases b <;> simp at h; simp [vecEq]
  | cons x xs ih =>
    cases b with
    | nil => simp at h
    | cons y ys =>
      simp at h
      simp only [vecEq]
      by_cases hxy : x = y
      · simp [hxy, ih h]
      · simp [hxy]

theorem vecLe_iff {a b : List Int} (h : a.length = b.length) :
    vecLe a b = true ↔ (LexLt a b ∨ a = b) := by
  induction a generalizing b with
  | nil => cases b <;> simp at h; simp [vecLe]
  | cons x xs ih =>
    cases b with
    | nil => simp at h
    | cons y ys =>
      simp at h
      simp only [vecLe]
      rcases lt_trichotomy x y with hxy | rfl | hxy
      · rw [if_neg (by omega), if_pos hxy]
        exact ⟨fun _ => Or.inl (.head hxy), fun _ => rfl⟩
      · rw [if_neg (by omega), if_neg (by omega), ih h]
        constructor
        · rintro (h | rfl)
          · exact Or.inl (.tail h)
          · exact Or.inr rfl
        · rintro (h | h)
          · cases h with
            | head h => omega
            | tail h => exact Or.inl h
          · simp at h; exact Or.inr h
      · rw [if_pos hxy]
        refine ⟨fun h => by simp at h, ?_⟩
        rintro (h | h)
        · cases h <;> omega
        · simp at h; omega

theorem LexLt.irrefl (a : List Int) : ¬ LexLt a a := by
  induction a with
  | nil => intro h; cases h
  | cons x xs ih =>
    intro h
    cases h with
    | head h => omega
    | tail h => exact ih h

theorem LexLt.trans {a b c : List Int} (h1 : LexLt a b) (h2 : LexLt b c) : LexLt a c := by
  induction h1 generalizing c with
  | head h =>
    cases h2 with
    | head h' => exact .head (by omega)
    | tail h' => exact .head h
  | tail h ih =>
    cases h2 with
    | head h' => exact .head h'
    | tail h' => exact .tail (ih h')

/-- C08: `<` on integer vectors is a strict total order, `==` is equality, and the
other three comparison operators agree with it. -/
theorem C08_intvec_total_order :
    (∀ a : List Int, vecLt a a = false) ∧
    (∀ a b c : List Int, vecLt a b = true → vecLt b c = true → vecLt a c = true) ∧
    (∀ a b : List Int, a.length = b.length →
      (vecEq a b = true ↔ a = b) ∧
      (vecLt a b = true ∨ a = b ∨ vecLt b a = true) ∧
      ¬ (vecLt a b = true ∧ a = b) ∧ ¬ (vecLt a b = true ∧ vecLt b a = true) ∧
      (vecLe a b = true ↔ (vecLt a b = true ∨ a = b)) ∧
      (vecGt a b = true ↔ vecLt b a = true) ∧
      (vecGe a b = true ↔ (vecLt b a = true ∨ a = b))) := by
  refine ⟨?_, ?_, ?_⟩
  · intro a
    rw [Bool.eq_false_iff, ne_eq, vecLt_iff]
    exact LexLt.irrefl a
  · intro a b c h1 h2
    rw [vecLt_iff] at *
    exact h1.trans h2
  · intro a b h
    have tri := LexLt.trichotomy h
    have irr := LexLt.irrefl
    refine ⟨vecEq_iff h, by simpa [vecLt_iff] using tri, ?_, ?_, ?_, ?_, ?_⟩
    · rintro ⟨h1, rfl⟩; exact irr _ (vecLt_iff.1 h1)
    · rintro ⟨h1, h2⟩; exact irr _ ((vecLt_iff.1 h1).trans (vecLt_iff.1 h2))
    · rw [vecLe_iff h, vecLt_iff]
    · simp only [vecGt, Bool.not_eq_true', Bool.eq_false_iff, ne_eq]
      rw [vecLe_iff h, vecLt_iff]
      constructor
      · intro hn; rcases tri with h | h | h
        · exact absurd (Or.inl h) hn
        · exact absurd (Or.inr h) hn
        · exact h
      · rintro h' (h1 | rfl)
        · exact irr _ (h'.trans h1)
        · exact irr _ h'
    · simp only [vecGe, Bool.not_eq_true', Bool.eq_false_iff, ne_eq]
      rw [vecLt_iff, vecLt_iff]
      constructor
      · intro hn; rcases tri with h | h | h
        · exact absurd h hn
        · exact Or.inr h
        · exact Or.inl h
      · rintro (h1 | rfl) h'
        · exact irr _ (h'.trans h1)
        · exact irr _ h'

/-- C08: the lowest index is the most significant one. -/
theorem C08_most_significant_first (a b : Int) (as bs : List Int) (h : a < b) :
    vecLt (a :: as) (b :: bs) = true := vecLt_iff.2 (.head h)

example : vecLt [1, 5, 0] [1, 6, -3] = true := by decide
example : vecLt [2, 0] [1, 9] = false := by decide

end Verif.Mesh
