import Verif.R1d.Lemmas
import Mathlib.Data.Rat.Floor

/-!
# C86, C87: the one-dimensional finite difference solver

C86: the partition function does not depend on the block it is computed from, and the spatial average
of a concentration is the volume fraction, exactly, in planar, cylindrical and spherical geometry, with
or without an inner boundary.
C87: the linear systems are well posed, positivity is kept for small enough steps, uniform fields give
uniform solutions.
-/

set_option autoImplicit false
set_option linter.unusedSectionVars false

namespace Verif.R1d

open Verif.Chem Verif.Solver Verif.Math

variable {K : Type} [Field K] [LinearOrder K] [IsStrictOrderedRing K]

/-- A sensible domain: what the documentation of `Domain` asks of its parameters. -/
structure DomOk (d : Domain K) : Prop where
  nx : 1 < d.nx
  lt : d.xMin < d.xMax
  dx : d.dx = (d.xMax - d.xMin) / ((d.nx : K) - 1)
  shell : d.mode ≠ .planar → d.isShell = true → 0 < d.xMin
  full : d.mode ≠ .planar → d.isShell = false → d.xMin = 0

theorem DomOk.nx1 {d : Domain K} (h : DomOk d) : (0 : K) < (d.nx : K) - 1 := by
  have : (1 : K) < (d.nx : K) := by exact_mod_cast h.nx
  linarith

theorem DomOk.dx_pos {d : Domain K} (h : DomOk d) : 0 < d.dx := by
  rw [h.dx]
  exact div_pos (sub_pos.2 h.lt) h.nx1

theorem DomOk.range {d : Domain K} (h : DomOk d) : d.xMax - d.xMin = d.dx * ((d.nx : K) - 1) := by
  rw [h.dx, div_mul_cancel₀ _ h.nx1.ne']

theorem DomOk.dx_le {d : Domain K} (h : DomOk d) : d.dx ≤ d.xMax - d.xMin := by
  have h1 : (2 : K) ≤ (d.nx : K) := by exact_mod_cast h.nx
  have := h.dx_pos
  rw [h.range]
  nlinarith

/-- Coordinate of grid point `i` in units of the grid spacing. -/
def coord (d : Domain K) (i : Nat) : K := d.xMin / d.dx + (i : K)

/-- Weight of grid point `i` in a spatial average: the Jacobian 1, x or x² of the geometry, halved at a
boundary; the innermost cell of a full cylinder or sphere has half a grid spacing as radius, so its
weight is 1/8 or 1/24. -/
def weight (d : Domain K) (i : Nat) : K :=
  match d.mode with
  | .planar => if i = 0 ∨ i = d.nx - 1 then 1 / 2 else 1
  | .cylindrical =>
    if i = 0 then (if d.isShell then coord d 0 / 2 else 1 / 8)
    else if i = d.nx - 1 then coord d i / 2 else coord d i
  | .spherical =>
    if i = 0 then (if d.isShell then (coord d 0) ^ 2 / 2 else 1 / 24)
    else if i = d.nx - 1 then (coord d i) ^ 2 / 2 else (coord d i) ^ 2

/-- Weighted mean. -/
def mean (d : Domain K) (f : Nat → K) : K :=
  (∑ i ∈ Finset.range d.nx, weight d i * f i) / ∑ i ∈ Finset.range d.nx, weight d i

theorem coord_nonneg {d : Domain K} (h : DomOk d) (hm : d.mode ≠ .planar) (i : Nat) :
    (i : K) ≤ coord d i := by
  have : 0 ≤ d.xMin / d.dx := by
    cases hs : d.isShell with
    | true => exact div_nonneg (h.shell hm hs).le h.dx_pos.le
    | false => rw [h.full hm hs, zero_div]
  unfold coord
  linarith

theorem coord_pos {d : Domain K} (h : DomOk d) (hm : d.mode ≠ .planar) {i : Nat} (hi : 0 < i) :
    0 < coord d i := by
  have h1 := coord_nonneg h hm i
  have : (0 : K) < (i : K) := by exact_mod_cast hi
  linarith

theorem coord_shell_pos {d : Domain K} (h : DomOk d) (hm : d.mode ≠ .planar)
    (hs : d.isShell = true) : 0 < coord d 0 := by
  unfold coord
  have := div_pos (h.shell hm hs) h.dx_pos
  simpa using this

theorem weight_pos {d : Domain K} (h : DomOk d) (i : Nat) : 0 < weight d i := by
  unfold weight
  split
  · split_ifs <;> norm_num
  · rename_i hm
    have hm : d.mode ≠ .planar := by rw [hm]; simp
    split_ifs with h0 h1 h2
    · have := coord_shell_pos h hm h1; positivity
    · norm_num
    · have := coord_pos h hm (Nat.pos_of_ne_zero h0); positivity
    · exact coord_pos h hm (Nat.pos_of_ne_zero h0)
  · rename_i hm
    have hm : d.mode ≠ .planar := by rw [hm]; simp
    split_ifs with h0 h1 h2
    · have := coord_shell_pos h hm h1; positivity
    · norm_num
    · have := coord_pos h hm (Nat.pos_of_ne_zero h0); positivity
    · have := coord_pos h hm (Nat.pos_of_ne_zero h0); positivity

theorem weights_pos {d : Domain K} (h : DomOk d) : 0 < ∑ i ∈ Finset.range d.nx, weight d i :=
  Finset.sum_pos (fun i _ => weight_pos h i) ⟨0, Finset.mem_range.2 (by have := h.nx; omega)⟩

/-- First, interior and last terms of a sum over the grid. -/
theorem sum_split (n : Nat) (hn : 1 < n) (f : Nat → K) :
    ∑ i ∈ Finset.range n, f i = f 0 + (∑ i ∈ Finset.range (n - 2), f (i + 1)) + f (n - 1) := by
  obtain ⟨m, rfl⟩ : ∃ m, n = m + 2 := ⟨n - 2, by omega⟩
  rw [Finset.sum_range_succ, Finset.sum_range_succ']
  simp only [Nat.add_sub_cancel]
  rw [show m + 2 - 1 = m + 1 by omega]
  ring

/-- **C86**, averages: for every sensible domain `spatialAverage` succeeds and returns the weighted mean of
the field. -/
theorem C86_average (d : Domain K) (h : DomOk d) (f : Nat → K) :
    d.spatialAverage f = .ok (mean d f) := by
  have hn := h.nx
  unfold Domain.spatialAverage mean
  rw [if_neg (not_not.2 h.nx), if_neg (not_not.2 h.dx_pos), if_neg (not_not.2 h.dx_le),
    sum_split d.nx h.nx, sum_split d.nx h.nx]
  have hw0 : ∀ i ∈ Finset.range (d.nx - 2), (i + 1 ≠ 0 ∧ i + 1 ≠ d.nx - 1) := fun i hi => by
    have := Finset.mem_range.1 hi; omega
  have hl : d.nx - 1 ≠ 0 := by omega
  cases hm : d.mode with
  | planar =>
    have e1 : ∀ i ∈ Finset.range (d.nx - 2), weight d (i + 1) = 1 := fun i hi => by
      simp [weight, hm, (hw0 i hi).2]
    have e0 : weight d 0 = 1 / 2 := by simp [weight, hm]
    have e2 : weight d (d.nx - 1) = 1 / 2 := by simp [weight, hm]
    rw [Finset.sum_congr rfl (fun i hi => by rw [e1 i hi, one_mul]), Finset.sum_congr rfl e1, e0, e2]
    simp only [accum_eq, Finset.sum_const, Finset.card_range, nsmul_eq_mul, mul_one]
    rw [Finset.sum_range]
    congr 1
    have e3 : ((d.nx - 1 : Nat) : K) = 1 / 2 + ((d.nx - 2 : Nat) : K) + 1 / 2 := by
      rw [show d.nx - 1 = (d.nx - 2) + 1 by omega]; push_cast; ring
    rw [e3]
    ring
  | cylindrical =>
    have e1 : ∀ i ∈ Finset.range (d.nx - 2), weight d (i + 1) = d.xMin / d.dx + ((i + 1 : Nat) : K) :=
      fun i hi => by simp [weight, hm, (hw0 i hi).2, coord]
    have e2 : weight d (d.nx - 1) = 1 / 2 * (d.xMin / d.dx + ((d.nx - 1 : Nat) : K)) := by
      simp only [weight, hm, if_neg hl, if_true, coord]; ring
    have e0 : weight d 0 = if d.isShell then 1 / 2 * (d.xMin / d.dx) else 1 / 8 := by
      simp only [weight, hm, if_true, coord, Nat.cast_zero, add_zero]
      split_ifs <;> ring
    rw [Finset.sum_congr rfl (fun i hi => by rw [e1 i hi]), Finset.sum_congr rfl e1, e0, e2]
    simp only [accum_eq, Finset.sum_range]
    congr 2
    · split_ifs <;> ring
    · split_ifs <;> ring
  | spherical =>
    have e1 : ∀ i ∈ Finset.range (d.nx - 2), weight d (i + 1) =
        (d.xMin / d.dx + ((i + 1 : Nat) : K)) * (d.xMin / d.dx + ((i + 1 : Nat) : K)) :=
      fun i hi => by simp [weight, hm, (hw0 i hi).2, coord, sq]
    have e2 : weight d (d.nx - 1) = 1 / 2 * (d.xMin / d.dx + ((d.nx - 1 : Nat) : K)) *
        (d.xMin / d.dx + ((d.nx - 1 : Nat) : K)) := by
      simp only [weight, hm, if_neg hl, if_true, coord]; ring
    have e0 : weight d 0 = if d.isShell then 1 / 2 * (d.xMin / d.dx) * (d.xMin / d.dx) else 1 / 24 := by
      simp only [weight, hm, if_true, coord, Nat.cast_zero, add_zero]
      split_ifs <;> ring
    rw [Finset.sum_congr rfl (fun i hi => by rw [e1 i hi]), Finset.sum_congr rfl e1, e0, e2]
    simp only [accum_eq, Finset.sum_range]
    congr 2
    · split_ifs <;> ring
    · split_ifs <;> ring

/-- The mean of a constant is the constant. -/
theorem C86_average_const (d : Domain K) (h : DomOk d) (c : K) :
    d.spatialAverage (fun _ => c) = .ok c := by
  rw [C86_average d h]
  unfold mean
  rw [← Finset.sum_mul, mul_div_assoc, mul_comm, div_mul_cancel₀ _ (weights_pos h).ne']

/-- The mean of a field lies between its bounds. -/
theorem C86_average_bounds (d : Domain K) (h : DomOk d) (f : Nat → K) (a b : K)
    (hf : ∀ i < d.nx, a ≤ f i ∧ f i ≤ b) : ∃ m, d.spatialAverage f = .ok m ∧ a ≤ m ∧ m ≤ b := by
  refine ⟨_, C86_average d h f, ?_, ?_⟩
  · unfold mean
    rw [le_div_iff₀ (weights_pos h), Finset.mul_sum]
    refine Finset.sum_le_sum fun i hi => ?_
    rw [mul_comm]
    exact mul_le_mul_of_nonneg_left (hf i (Finset.mem_range.1 hi)).1 (weight_pos h i).le
  · unfold mean
    rw [div_le_iff₀ (weights_pos h), Finset.mul_sum]
    refine Finset.sum_le_sum fun i hi => ?_
    rw [mul_comm b]
    exact mul_le_mul_of_nonneg_left (hf i (Finset.mem_range.1 hi)).2 (weight_pos h i).le

/-! ### The matrices -/

theorem matB_compl (d : Domain K) (ds kuhn : K) (w : Nat → K) :
    Compl (matA d ds kuhn w) (matB d ds kuhn w) := fun i => by
  refine ⟨?_, rfl, rfl⟩
  change -((matA d ds kuhn w).d i - 1) + 1 = _
  ring

theorem x_eq {d : Domain K} (h : DomOk d) (i : Nat) : d.xMin + d.dx * (i : K) = d.dx * coord d i := by
  unfold coord
  have := h.dx_pos.ne'
  field_simp

theorem xMax_eq {d : Domain K} (h : DomOk d) : d.xMax = d.dx * coord d (d.nx - 1) := by
  rw [← x_eq h, show ((d.nx - 1 : Nat) : K) = (d.nx : K) - 1 by
    rw [Nat.cast_sub h.nx.le, Nat.cast_one]]
  have := h.range
  linarith

theorem xMin_eq {d : Domain K} (h : DomOk d) : d.xMin = d.dx * coord d 0 := by
  rw [← x_eq h]; simp

theorem coord_succ (d : Domain K) (i : Nat) : coord d (i + 1) = coord d i + 1 := by
  unfold coord; push_cast; ring

/-- The finite difference Laplacian is symmetric with respect to the weights of the spatial average. -/
theorem matA_balanced (d : Domain K) (h : DomOk d) (ds kuhn : K) (w : Nat → K) :
    Balanced d.nx (weight d) (matA d ds kuhn w) := by
  intro i hi
  have hdx := h.dx_pos.ne'
  unfold matA
  cases hm : d.mode with
  | planar =>
    simp only [if_true, weight, hm, Nat.add_eq_zero_iff, one_ne_zero, and_false, false_or]
    rcases Nat.eq_zero_or_pos i with h0 | h0
    · subst h0
      by_cases h1 : d.nx = 2
      · simp [h1]
      · rw [if_neg (by omega : ¬ 0 + 1 = d.nx - 1), if_neg (by omega : ¬ 0 = d.nx - 2)]
        simp
    · rw [if_neg (by omega : ¬ (i = 0 ∨ i = d.nx - 1)), if_neg (by omega : ¬ i = 0)]
      by_cases h1 : i + 1 = d.nx - 1
      · rw [if_pos h1, if_pos (by omega : i = d.nx - 2)]; ring
      · rw [if_neg h1, if_neg (by omega : ¬ i = d.nx - 2)]
  | cylindrical =>
    have hne : d.mode ≠ .planar := by rw [hm]; simp
    have c1 := (coord_pos h hne (Nat.succ_pos i)).ne'
    rw [Nat.succ_eq_add_one, coord_succ] at c1
    simp only [reduceCtorEq, if_false, weight, hm, Nat.add_eq_zero_iff, one_ne_zero, and_false]
    have rmEq : rm d (i + 1) = 1 - 1 / 2 / (coord d i + 1) := by
      unfold rm sqIf; rw [if_neg (by rw [hm]; simp), x_eq h, coord_succ]; field_simp
    have rmLEq : i + 1 = d.nx - 1 → rmL d = 1 - 1 / 2 / (coord d i + 1) := fun e => by
      unfold rmL sqIf; rw [if_neg (by rw [hm]; simp), xMax_eq h, ← e, coord_succ]; field_simp
    have hl : (if i + 1 = d.nx - 1 then coord d (i + 1) / 2 else coord d (i + 1)) *
        (if i = d.nx - 2 then -2 * (rmL d * (1 / 2 * ds * (kuhn / d.dx) * (kuhn / d.dx) / 6))
          else -(rm d (i + 1) * (1 / 2 * ds * (kuhn / d.dx) * (kuhn / d.dx) / 6))) =
        -(coord d i + 1 / 2) * (1 / 2 * ds * (kuhn / d.dx) * (kuhn / d.dx) / 6) := by
      generalize 1 / 2 * ds * (kuhn / d.dx) * (kuhn / d.dx) / 6 = c
      by_cases h1 : i + 1 = d.nx - 1
      · rw [if_pos h1, if_pos (by omega : i = d.nx - 2), rmLEq h1, coord_succ]; field_simp; ring
      · rw [if_neg h1, if_neg (by omega : ¬ i = d.nx - 2), rmEq, coord_succ]; field_simp; ring
    rw [hl]
    generalize 1 / 2 * ds * (kuhn / d.dx) * (kuhn / d.dx) / 6 = c
    rcases Nat.eq_zero_or_pos i with h0 | h0
    · subst h0
      simp only [if_true]
      cases hs : d.isShell with
      | true =>
        have c0 := (coord_shell_pos h hne hs).ne'
        unfold rp0 sqIf
        simp only [hs, hm, reduceCtorEq, if_true, if_false]
        rw [xMin_eq h]
        field_simp
      | false =>
        unfold rp0
        rw [hs, hm]
        simp [coord, h.full hne hs]
        ring
    · have c0 := (coord_pos h hne h0).ne'
      rw [if_neg (by omega : ¬ i = 0), if_neg (by omega : ¬ i = d.nx - 1), if_neg (by omega : ¬ i = 0)]
      unfold rp sqIf
      rw [if_neg (by rw [hm]; simp), x_eq h]
      field_simp
  | spherical =>
    have hne : d.mode ≠ .planar := by rw [hm]; simp
    have c1 := (coord_pos h hne (Nat.succ_pos i)).ne'
    rw [Nat.succ_eq_add_one, coord_succ] at c1
    simp only [reduceCtorEq, if_false, weight, hm, Nat.add_eq_zero_iff, one_ne_zero, and_false]
    have rmEq : rm d (i + 1) = (1 - 1 / 2 / (coord d i + 1)) * (1 - 1 / 2 / (coord d i + 1)) := by
      unfold rm sqIf; rw [if_pos hm, x_eq h, coord_succ]; field_simp
    have rmLEq : i + 1 = d.nx - 1 →
        rmL d = (1 - 1 / 2 / (coord d i + 1)) * (1 - 1 / 2 / (coord d i + 1)) := fun e => by
      unfold rmL sqIf; rw [if_pos hm, xMax_eq h, ← e, coord_succ]; field_simp
    have hl : (if i + 1 = d.nx - 1 then coord d (i + 1) ^ 2 / 2 else coord d (i + 1) ^ 2) *
        (if i = d.nx - 2 then -2 * (rmL d * (1 / 2 * ds * (kuhn / d.dx) * (kuhn / d.dx) / 6))
          else -(rm d (i + 1) * (1 / 2 * ds * (kuhn / d.dx) * (kuhn / d.dx) / 6))) =
        -(coord d i + 1 / 2) ^ 2 * (1 / 2 * ds * (kuhn / d.dx) * (kuhn / d.dx) / 6) := by
      generalize 1 / 2 * ds * (kuhn / d.dx) * (kuhn / d.dx) / 6 = c
      by_cases h1 : i + 1 = d.nx - 1
      · rw [if_pos h1, if_pos (by omega : i = d.nx - 2), rmLEq h1, coord_succ]; field_simp; ring
      · rw [if_neg h1, if_neg (by omega : ¬ i = d.nx - 2), rmEq, coord_succ]; field_simp; ring
    rw [hl]
    generalize 1 / 2 * ds * (kuhn / d.dx) * (kuhn / d.dx) / 6 = c
    rcases Nat.eq_zero_or_pos i with h0 | h0
    · subst h0
      simp only [if_true]
      cases hs : d.isShell with
      | true =>
        have c0 := (coord_shell_pos h hne hs).ne'
        unfold rp0 sqIf
        rw [if_pos hm, xMin_eq h]
        simp only [hs, if_true]
        field_simp
      | false =>
        unfold rp0
        rw [hs, hm]
        simp [coord, h.full hne hs]
        ring
    · have c0 := (coord_pos h hne h0).ne'
      rw [if_neg (by omega : ¬ i = 0), if_neg (by omega : ¬ i = d.nx - 1), if_neg (by omega : ¬ i = 0)]
      unfold rp sqIf
      rw [if_pos hm, x_eq h]
      field_simp

/-- Row sums of `A`: the second derivative of a constant vanishes, including the boundary rows. -/
theorem matA_row (d : Domain K) (h : DomOk d) (ds kuhn : K) (w : Nat → K) (i : Nat)
    (hi : i < d.nx) (c : K) :
    triMul d.nx (matA d ds kuhn w).d (matA d ds kuhn w).u (matA d ds kuhn w).l (fun _ => c) i =
      (1 + ds * w i / 2) * c := by
  have hn := h.nx
  unfold triMul matA
  by_cases hm : d.mode = .planar
  · simp only [if_pos hm]
    rcases Nat.eq_zero_or_pos i with h0 | h0
    · subst h0; simp [hn]; ring
    · rw [if_pos h0, if_neg (by omega : ¬ i = 0)]
      by_cases h1 : i = d.nx - 1
      · rw [if_neg (by omega : ¬ i + 1 < d.nx), if_pos (by omega : i - 1 = d.nx - 2)]; ring
      · rw [if_pos (by omega : i + 1 < d.nx), if_neg (by omega : ¬ i - 1 = d.nx - 2)]; ring
  · simp only [if_neg hm]
    rcases Nat.eq_zero_or_pos i with h0 | h0
    · subst h0; simp [hn]; ring
    · rw [if_pos h0, if_neg (by omega : ¬ i = 0)]
      by_cases h1 : i = d.nx - 1
      · rw [if_neg (by omega : ¬ i + 1 < d.nx), if_pos (by omega : i - 1 = d.nx - 2), if_pos h1]; ring
      · rw [if_pos (by omega : i + 1 < d.nx), if_neg (by omega : ¬ i - 1 = d.nx - 2), if_neg h1,
          show i - 1 + 1 = i by omega, if_neg (by omega : ¬ i = 0)]; ring

theorem sqIf_nonneg (m : Mode) {r : K} (h : 0 ≤ r) : 0 ≤ sqIf m r := by
  unfold sqIf; split_ifs <;> positivity

/-- Off-diagonal elements of `A` are not positive. -/
theorem matA_off (d : Domain K) (h : DomOk d) (ds kuhn : K) (hds : 0 ≤ ds) (w : Nat → K) (i : Nat)
    (hi : i + 1 < d.nx) : (matA d ds kuhn w).u i ≤ 0 ∧ (matA d ds kuhn w).l i ≤ 0 := by
  have hdx := h.dx_pos
  have hc : 0 ≤ 1 / 2 * ds * (kuhn / d.dx) * (kuhn / d.dx) / 6 := by
    have : 1 / 2 * ds * (kuhn / d.dx) * (kuhn / d.dx) / 6 = 1 / 12 * ds * (kuhn / d.dx) ^ 2 := by ring
    rw [this]; positivity
  unfold matA
  by_cases hm : d.mode = .planar
  · simp only [if_pos hm]
    constructor <;> split_ifs <;> linarith
  · simp only [if_neg hm]
    generalize 1 / 2 * ds * (kuhn / d.dx) * (kuhn / d.dx) / 6 = c at *
    have hh : ∀ x : K, 0 < x → 0 ≤ 1 + 1 / 2 * d.dx / (d.dx * x) := fun x hx => by positivity
    have hh' : ∀ x : K, 1 ≤ x → 0 ≤ 1 - 1 / 2 * d.dx / (d.dx * x) := fun x hx => by
      rw [sub_nonneg, div_le_one (by positivity)]
      nlinarith
    have hx1 : (1 : K) ≤ coord d (i + 1) := by
      have := coord_nonneg h hm (i + 1)
      have h2 : (1 : K) ≤ ((i + 1 : Nat) : K) := by push_cast; linarith [Nat.cast_nonneg (α := K) i]
      linarith
    have r0 : 0 ≤ rp0 d := by
      unfold rp0
      split_ifs with hs
      · rw [xMin_eq h]; exact sqIf_nonneg _ (hh _ (coord_shell_pos h hm hs))
      · norm_num
      · norm_num
    have r2 : 0 ≤ rm d (i + 1) := by
      unfold rm; rw [x_eq h]; exact sqIf_nonneg _ (hh' _ hx1)
    have r3 : i = d.nx - 2 → 0 ≤ rmL d := fun e => by
      unfold rmL; rw [xMax_eq h, show d.nx - 1 = i + 1 by omega]; exact sqIf_nonneg _ (hh' _ hx1)
    constructor
    · split_ifs with h0
      · have := mul_nonneg r0 hc; linarith
      · have r1 : 0 ≤ rp d i := by
          unfold rp; rw [x_eq h]; exact sqIf_nonneg _ (hh _ (coord_pos h hm (Nat.pos_of_ne_zero h0)))
        have := mul_nonneg r1 hc; linarith
    · split_ifs with h0
      · have := mul_nonneg (r3 h0) hc; linarith
      · have := mul_nonneg r2 hc; linarith

/-- Diagonal of `A` in terms of its off-diagonal elements. -/
theorem matA_diag (d : Domain K) (h : DomOk d) (ds kuhn : K) (w : Nat → K) (i : Nat)
    (hi : i < d.nx) :
    (matA d ds kuhn w).d i = (1 + ds * w i / 2) - (if 0 < i then (matA d ds kuhn w).l (i - 1) else 0) -
      (if i + 1 < d.nx then (matA d ds kuhn w).u i else 0) := by
  have := matA_row d h ds kuhn w i hi 1
  unfold triMul at this
  simp only [mul_one] at this
  linarith

/-- **C87**, well posed: for every geometry, every field with `1 + ds w/2 > 0` at all grid points and every
step, all pivots of the linear system are positive, so no division by zero occurs. -/
theorem C87_pivots (d : Domain K) (h : DomOk d) (ds kuhn : K) (hds : 0 ≤ ds) (w : Nat → K)
    (hw : ∀ i < d.nx, 0 < 1 + ds * w i / 2) :
    ∀ i < d.nx, 0 < (matA d ds kuhn w).dLU i := by
  set t := matA d ds kuhn w with ht
  have key : ∀ i, i < d.nx → (if i + 1 < d.nx then -t.u i else 0) < t.dLU i := by
    intro i
    induction i with
    | zero =>
      intro hi
      have := matA_diag d h ds kuhn w 0 hi
      have h2 := hw 0 hi
      rw [← ht] at this
      change _ < t.d 0
      rw [this]
      simp only [lt_irrefl, if_false]
      split_ifs <;> linarith
    | succ i ih =>
      intro hi
      have h1 := ih (by omega)
      rw [if_pos hi] at h1
      have hoff := matA_off d h ds kuhn hds w i hi
      rw [← ht] at hoff
      have hdp : 0 < t.dLU i := by linarith [hoff.1]
      have h3 : t.l i / t.dLU i * t.u i ≤ -t.l i := by
        rw [div_mul_eq_mul_div, div_le_iff₀ hdp]
        nlinarith [hoff.1, hoff.2]
      have hd := matA_diag d h ds kuhn w (i + 1) hi
      rw [← ht] at hd
      have h2 := hw (i + 1) hi
      simp only [Nat.succ_pos, if_true, Nat.add_sub_cancel] at hd
      change _ < t.d (i + 1) - t.l i / t.dLU i * t.u i
      rw [hd]
      split_ifs <;> linarith
  intro i hi
  have h1 := key i hi
  split_ifs at h1 with h2
  · linarith [(matA_off d h ds kuhn hds w i h2).1]
  · exact h1

/-! ### Positivity -/

theorem fwd_pos (t : Tri K) (n : Nat) (hp : ∀ i < n, 0 < t.dLU i) (hl : ∀ i, i + 1 < n → t.l i ≤ 0)
    (b : Nat → K) (hb : ∀ i < n, 0 < b i) : ∀ i, i < n → 0 < t.fwd b i
  | 0, h => hb 0 h
  | i + 1, h => by
    have h1 := fwd_pos t n hp hl b hb i (by omega)
    have h2 : t.lLU i ≤ 0 := div_nonpos_of_nonpos_of_nonneg (hl i h) (hp i (by omega)).le
    have h3 := mul_nonneg (neg_nonneg.2 h2) h1.le
    have := hb (i + 1) h
    unfold Tri.fwd
    linarith

theorem back_pos (t : Tri K) (n : Nat) (hp : ∀ i < n, 0 < t.dLU i) (hu : ∀ i, i + 1 < n → t.u i ≤ 0)
    (y : Nat → K) (hy : ∀ i < n, 0 < y i) : ∀ k, k < n → 0 < t.back n y k
  | 0, h => div_pos (hy _ (by omega)) (hp _ (by omega))
  | k + 1, h => by
    have h1 := back_pos t n hp hu y hy k (by omega)
    have h2 := mul_nonneg (neg_nonneg.2 (hu (n - 2 - k) (by omega))) h1.le
    unfold Tri.back
    refine div_pos ?_ (hp _ (by omega))
    have := hy (n - 2 - k) (by omega)
    linarith

/-- Condition on the step under which positivity is kept: diagonal of `A` below two. -/
def SmallStep (d : Domain K) (ds kuhn : K) (w : Nat → K) : Prop :=
  ∀ i < d.nx, (matA d ds kuhn w).d i < 2

/-- **C87**, positivity: if moreover the diagonal of `B` is positive (step small compared with the square of
the grid spacing), a positive field stays positive. -/
theorem C87_step_positive (d : Domain K) (h : DomOk d) (ds kuhn : K) (hds : 0 ≤ ds) (w : Nat → K)
    (hw : ∀ i < d.nx, 0 < 1 + ds * w i / 2) (hs : SmallStep d ds kuhn w) (q : Nat → K)
    (hq : ∀ i < d.nx, 0 < q i) :
    ∀ i < d.nx, 0 < step d.nx (matA d ds kuhn w) (matB d ds kuhn w) q i := by
  intro i hi
  have hpiv := C87_pivots d h ds kuhn hds w hw
  have hoff := matA_off d h ds kuhn hds w
  unfold step Tri.solve
  refine back_pos _ d.nx hpiv (fun i hi => (hoff i hi).1) _ ?_ _ (by omega)
  refine fun i hi => fwd_pos _ d.nx hpiv (fun i hi => (hoff i hi).2) _ ?_ i hi
  intro i hi
  rw [step_rhs d.nx h.nx _ q i hi]
  have hc := matB_compl d ds kuhn w
  unfold triMul
  rw [(hc i).1, (hc i).2.1, (hc (i - 1)).2.2]
  have h1 : 0 < (2 - (matA d ds kuhn w).d i) * q i := mul_pos (by linarith [hs i hi]) (hq i hi)
  have h2 : 0 ≤ if 0 < i then -(matA d ds kuhn w).l (i - 1) * q (i - 1) else 0 := by
    split_ifs with h0
    · exact mul_nonneg (neg_nonneg.2 (hoff (i - 1) (by omega)).2) (hq _ (by omega)).le
    · exact le_refl _
  have h3 : 0 ≤ if i + 1 < d.nx then -(matA d ds kuhn w).u i * q (i + 1) else 0 := by
    split_ifs with h0
    · exact mul_nonneg (neg_nonneg.2 (hoff i h0).1) (hq _ h0).le
    · exact le_refl _
  linarith

/-- **C87**, uniform fields: in a uniform field a uniform propagator stays uniform, and each step multiplies
it by `(1 - ds w/2)/(1 + ds w/2)`, in every geometry. -/
theorem C87_uniform (d : Domain K) (h : DomOk d) (ds kuhn w c : K) (hds : 0 ≤ ds)
    (hw : 0 < 1 + ds * w / 2) (i : Nat) (hi : i < d.nx) :
    step d.nx (matA d ds kuhn (fun _ => w)) (matB d ds kuhn (fun _ => w)) (fun _ => c) i =
      (1 - ds * w / 2) / (1 + ds * w / 2) * c := by
  have hpiv := C87_pivots d h ds kuhn hds (fun _ => w) (fun _ _ => hw)
  refine tri_inj d.nx (matA d ds kuhn (fun _ => w)) (fun i hi => (hpiv i hi).ne')
    (y := fun _ => (1 - ds * w / 2) / (1 + ds * w / 2) * c) ?_ i hi
  intro j hj
  rw [step_spec d.nx h.nx _ _ (fun i hi => (hpiv i hi).ne') _ j hj,
    compl_mul _ _ _ (matB_compl d ds kuhn _), matA_row d h ds kuhn _ j hj, matA_row d h ds kuhn _ j hj,
    ← mul_assoc, mul_div_cancel₀ _ hw.ne']
  ring

theorem slices_congr (n : Nat) (b : Block K) (hn : 1 < n) {h h' : Nat → K} (e : ∀ i < n, h i = h' i) :
    ∀ j, ∀ i < n, slices n b h j i = slices n b h' j i
  | 0, i, hi => e i hi
  | j + 1, i, hi => by
    have ih := slices_congr n b hn e j
    change step n b.A b.B _ i = step n b.A b.B _ i
    unfold step
    refine solve_congr b.A n (fun k hk => ?_) i hi
    rw [step_rhs n hn b.B _ k hk, step_rhs n hn b.B _ k hk]
    exact tri_congr n b.B ih k hk

/-- **C87**, uniform fields, whole block. -/
theorem C87_uniform_block (d : Domain K) (h : DomOk d) (length kuhn w c : K) (ns : Nat) (hns : 1 < ns)
    (hl : 0 ≤ length) (hw : 0 < 1 + length / ((ns : K) - 1) * w / 2) (j i : Nat) (hi : i < d.nx) :
    slices d.nx (setupBlock d length kuhn ns (fun _ => w)) (fun _ => c) j i =
      ((1 - length / ((ns : K) - 1) * w / 2) / (1 + length / ((ns : K) - 1) * w / 2)) ^ j * c := by
  have hn1 : (0 : K) < (ns : K) - 1 := by
    have : (1 : K) < (ns : K) := by exact_mod_cast hns
    linarith
  have hds : 0 ≤ length / ((ns : K) - 1) := div_nonneg hl hn1.le
  induction j generalizing c i with
  | zero => simp [slices]
  | succ j ih =>
    have e : slices d.nx (setupBlock d length kuhn ns (fun _ => w)) (fun _ => c) (j + 1) i =
        step d.nx (matA d (length / ((ns : K) - 1)) kuhn (fun _ => w))
          (matB d (length / ((ns : K) - 1)) kuhn (fun _ => w))
          (fun _ => ((1 - length / ((ns : K) - 1) * w / 2) / (1 + length / ((ns : K) - 1) * w / 2)) ^ j * c)
          i := by
      change step _ _ _ _ i = _
      unfold step
      refine solve_congr _ d.nx (fun k hk => ?_) i hi
      rw [step_rhs _ h.nx _ _ k hk]
      refine Eq.trans ?_ (step_rhs d.nx h.nx (matB d (length / ((ns : K) - 1)) kuhn (fun _ => w))
        (fun _ => ((1 - length / ((ns : K) - 1) * w / 2) / (1 + length / ((ns : K) - 1) * w / 2)) ^ j * c) k hk).symm
      exact tri_congr _ _ (fun m hm => ih c m hm) k hk
    rw [e, C87_uniform d h _ kuhn w _ hds hw i hi]
    ring

/-! ### C86 -/

/-- A polymer on a one-dimensional domain: accepted topology, blocks as set up by `setupSolver`, at least
two contour points, no vanishing pivot (C87 gives a sufficient condition). -/
structure PolyOk (d : Domain K) (len kuhn : Nat → K) (ns : Nat → Nat) (w : Nat → Nat → K)
    (es : List Edge) (fuel : Nat) (P : Polymer) : Prop where
  dom : DomOk d
  read : readTopology es fuel = some (.ok P)
  ns2 : ∀ k < es.length, 2 ≤ ns k
  piv : ∀ k < es.length, ∀ i < d.nx, (matA d (len k / ((ns k : K) - 1)) (kuhn k) (w k)).dLU i ≠ 0

/-- All blocks of a polymer after `setupSolver`. -/
def blocks (d : Domain K) (len kuhn : Nat → K) (ns : Nat → Nat) (w : Nat → Nat → K) (k : Nat) : Block K :=
  setupBlock d (len k) (kuhn k) (ns k) (w k)

section Conservation

variable {d : Domain K} {len kuhn : Nat → K} {ns : Nat → Nat} {w : Nat → Nat → K} {es : List Edge}
  {fuel : Nat} {P : Polymer}

theorem PolyOk.adj (hP : PolyOk d len kuhn ns w es fuel P) :
    AdjAll d.nx (weight d) (blocks d len kuhn ns w) es := fun k hk x y =>
  step_adj d.nx hP.dom.nx (weight d) _ _ (hP.piv k hk) (matB_compl d _ _ _)
    (matA_balanced d hP.dom _ _ _) x y

theorem inner_eq (h : DomOk d) (f g : Nat → K) :
    d.innerProduct f g = .ok (dotW d.nx (weight d) f g / ∑ i ∈ Finset.range d.nx, weight d i) :=
  C86_average d h _

theorem done_of_solve {blk : Nat → Block K} (hread : readTopology es fuel = some (.ok P))
    {st : Pid → Option (Nat → Nat → K)}
    (h : solvePlan d.nx blk es P.vertices P.plan (fun _ => none) = .ok st) :
    Done d.nx blk es P.vertices P.plan st := by
  obtain ⟨_, hv, hs⟩ := plan_facts hread
  have := solvePlan_done (n := d.nx) (blk := blk) (es := es) (vs := P.vertices) P.plan []
    (fun _ => none) st (by simpa using hs.nodup) ⟨by simp, by simp, by simp⟩ h
  simpa using this

theorem computeQ_eq (h : DomOk d) {blk : Nat → Block K} {vs : List Vertex} {plan : List Pid}
    {st : Pid → Option (Nat → Nat → K)} (hd : Done d.nx blk es vs plan st) {p : Pid} (hp : p ∈ plan)
    (hp' : (p.1, !p.2) ∈ plan) : computeQ d blk st p =
      .ok (dotW d.nx (weight d) (headOf st p) (tailOf blk st (p.1, !p.2)) /
        ∑ i ∈ Finset.range d.nx, weight d i) := by
  obtain ⟨q, hq⟩ := Option.isSome_iff_exists.1 ((hd.iff p).2 hp)
  obtain ⟨q', hq'⟩ := Option.isSome_iff_exists.1 ((hd.iff _).2 hp')
  unfold computeQ headOf tailOf
  rw [hq, hq']
  exact inner_eq h _ _

/-- **C86**, partition function: for every accepted polymer, every geometry and all fields, solving succeeds
and `computeQ` gives the same value for all blocks and both directions. -/
theorem C86_Q_block_independent (hP : PolyOk d len kuhn ns w es fuel P) :
    ∃ st, solvePlan d.nx (blocks d len kuhn ns w) es P.vertices P.plan (fun _ => none) = .ok st ∧
      ∀ p p' : Pid, p.1 < es.length → p'.1 < es.length →
        ∃ Q, computeQ d (blocks d len kuhn ns w) st p = .ok Q ∧
          computeQ d (blocks d len kuhn ns w) st p' = .ok Q := by
  obtain ⟨_, hv, hs⟩ := plan_facts hP.read
  obtain ⟨st, hst⟩ := solvePlan_ok (n := d.nx) (blk := blocks d len kuhn ns w) (es := es)
    (vs := P.vertices) P.plan (fun _ => none) (by
      intro l1 p l2 he s hsrc
      have hp : p.1 < es.length := (hs.complete p).1 (by rw [he]; simp)
      exact Or.inr (hs.ordered l1 p l2 he s ((mem_sources hv hp).1 hsrc)))
  refine ⟨st, hst, fun p p' hp hp' => ?_⟩
  have hd := done_of_solve hP.read hst
  refine ⟨_, computeQ_eq hP.dom hd ((hs.complete p).2 hp) ((hs.complete _).2 hp), ?_⟩
  rw [computeQ_eq hP.dom hd ((hs.complete p').2 hp') ((hs.complete _).2 hp'),
    all_sums hP.read hP.adj hv hd hs.complete p p' hp hp']

theorem dotW_conc (b : Block K) (n : Nat) (W : Nat → K) (pre c : K) (q0 q1 : Nat → Nat → K)
    (hns : 2 ≤ b.ns) (h : ∀ j ≤ b.ns - 1, dotW n W (q0 j) (q1 (b.ns - 1 - j)) = c) :
    ∑ i ∈ Finset.range n, W i * conc b pre q0 q1 i = ((b.ns - 1 : Nat) : K) * c * (pre * b.ds) := by
  have e : ∀ i, W i * conc b pre q0 q1 i = (1 / 2 * (W i * (q0 0 i * q1 (b.ns - 1 - 0) i)) +
      (∑ j ∈ Finset.range (b.ns - 2), W i * (q0 (j + 1) i * q1 (b.ns - 1 - (j + 1)) i)) +
      1 / 2 * (W i * (q0 (b.ns - 1) i * q1 (b.ns - 1 - (b.ns - 1)) i))) * (pre * b.ds) := by
    intro i
    unfold conc
    simp only [accum_eq, Nat.sub_zero, Nat.sub_self]
    rw [← Finset.mul_sum, Finset.sum_range]
    ring
  rw [Finset.sum_congr rfl fun i _ => e i, ← Finset.sum_mul, Finset.sum_add_distrib,
    Finset.sum_add_distrib, ← Finset.mul_sum, ← Finset.mul_sum, Finset.sum_comm]
  have hd : ∀ j ≤ b.ns - 1, ∑ i ∈ Finset.range n, W i * (q0 j i * q1 (b.ns - 1 - j) i) = c := h
  rw [hd 0 (by omega), hd (b.ns - 1) (le_refl _),
    Finset.sum_congr rfl fun j hj => hd (j + 1) (by have := Finset.mem_range.1 hj; omega)]
  simp only [Finset.sum_const, Finset.card_range, nsmul_eq_mul]
  congr 1
  have : ((b.ns - 1 : Nat) : K) = ((b.ns - 2 : Nat) : K) + 1 := by
    rw [show b.ns - 1 = b.ns - 2 + 1 by omega]; push_cast; ring
  rw [this]; ring

/-- **C86**, material conservation: after `PolymerTmpl::solve`, for all fields and every geometry, the spatial
average of the concentration of block `k` is exactly `phi · length_k / length`. -/
theorem C86_block_conservation (hP : PolyOk d len kuhn ns w es fuel P) (hes : es ≠ [])
    (phi total Q : K) (st : Pid → Option (Nat → Nat → K))
    (h : polymerSolve d (blocks d len kuhn ns w) es P.vertices P.plan = .ok (st, Q)) (hQ : Q ≠ 0)
    (k : Nat) (hk : k < es.length) :
    ∃ c, blockConc (blocks d len kuhn ns w) st phi Q total k = some c ∧
      d.spatialAverage c = .ok (phi * (len k / total)) := by
  obtain ⟨_, hv, hs⟩ := plan_facts hP.read
  have h0 : 0 < es.length := List.length_pos_iff.2 hes
  unfold polymerSolve at h
  rw [Res.bind_eq_ok] at h
  obtain ⟨st', hst, h⟩ := h
  have hd := done_of_solve hP.read hst
  rw [computeQ_eq hP.dom hd ((hs.complete (0, false)).2 h0) ((hs.complete (0, true)).2 h0)] at h
  simp only [Bool.not_false] at h
  have h := h
  change Res.ok (st', _) = Res.ok (st, Q) at h
  simp only [Res.ok.injEq, Prod.mk.injEq, div_one] at h
  obtain ⟨rfl, hQd⟩ := h
  have hsum := all_sums hP.read hP.adj hv hd hs.complete (k, false) (0, false) hk h0
  simp only [Bool.not_false] at hsum
  rw [← hsum] at hQd
  obtain ⟨g0, _, g2⟩ := hd.eqn (k, false) ((hs.complete _).2 hk)
  obtain ⟨g1, _, g3⟩ := hd.eqn (k, true) ((hs.complete _).2 hk)
  unfold blockConc
  rw [g2, g3]
  refine ⟨_, rfl, ?_⟩
  rw [C86_average d hP.dom]
  unfold mean
  have hns := hP.ns2 k hk
  have hN := weights_pos hP.dom
  rw [dotW_conc (blocks d len kuhn ns w k) d.nx (weight d) _
    (dotW d.nx (weight d) (headOf st' (k, false)) (tailOf (blocks d len kuhn ns w) st' (k, true))) _ _ hns]
  · have e1 : ((blocks d len kuhn ns w k).ns - 1 : Nat) = ns k - 1 := rfl
    have e2 : (blocks d len kuhn ns w k).ds = len k / ((ns k : K) - 1) := rfl
    have e3 : ((ns k - 1 : Nat) : K) = (ns k : K) - 1 := by
      rw [Nat.cast_sub (by omega), Nat.cast_one]
    have e4 : (ns k : K) - 1 ≠ 0 := by
      have : (2 : K) ≤ (ns k : K) := by exact_mod_cast hns
      linarith
    rw [e1, e2, e3]
    rw [div_eq_iff hN.ne'] at hQd
    rw [hQd]
    congr 1
    by_cases ht : total = 0
    · simp [ht]
    · field_simp
  · intro j hj
    have := slices_const d.nx (weight d) (blocks d len kuhn ns w k) (hP.adj k hk) g0 g1 _ j hj
    rw [this]
    unfold headOf tailOf
    rw [g2, g3]
    rfl

/-- **C86**, whole molecule: the block averages add up to `phi`. -/
theorem C86_total_conservation (hP : PolyOk d len kuhn ns w es fuel P) (hes : es ≠ [])
    (phi Q : K) (st : Pid → Option (Nat → Nat → K))
    (h : polymerSolve d (blocks d len kuhn ns w) es P.vertices P.plan = .ok (st, Q)) (hQ : Q ≠ 0)
    (htot : ∑ k : Fin es.length, len k ≠ 0) :
    ∃ (c : Fin es.length → Nat → K) (m : Fin es.length → K),
      (∀ k : Fin es.length, blockConc (blocks d len kuhn ns w) st phi Q
        (∑ k : Fin es.length, len k) k = some (c k)) ∧
      (∀ k, d.spatialAverage (c k) = .ok (m k)) ∧ ∑ k, m k = phi := by
  choose c hc1 hc2 using fun k : Fin es.length =>
    C86_block_conservation hP hes phi (∑ k : Fin es.length, len k) Q st h hQ k k.2
  refine ⟨c, _, hc1, hc2, ?_⟩
  rw [← Finset.mul_sum, ← Finset.sum_div, div_self htot, mul_one]

/-- `polymerSolve` succeeds for every accepted polymer. -/
theorem C86_solve_succeeds (hP : PolyOk d len kuhn ns w es fuel P) (hes : es ≠ []) :
    ∃ st Q, polymerSolve d (blocks d len kuhn ns w) es P.vertices P.plan = .ok (st, Q) := by
  have h0 : 0 < es.length := List.length_pos_iff.2 hes
  obtain ⟨st, hst, hq⟩ := C86_Q_block_independent hP
  obtain ⟨Q, hQ, _⟩ := hq (0, false) (0, false) h0 h0
  refine ⟨st, Q / 1, ?_⟩
  unfold polymerSolve
  rw [hst, Res.ok_bind, hQ, Res.ok_bind]

/-- **C86**, solvent: the spatial average of the concentration is the volume fraction. -/
theorem C86_solvent (hd : DomOk d) (e : Nat → K) (he : ∀ i < d.nx, 0 < e i) (phiOf : K → K) :
    ∃ Q c, solventCompute d e phiOf = .ok (Q, c) ∧ 0 < Q ∧ d.spatialAverage c = .ok (phiOf Q) := by
  have hpos : 0 < mean d e := by
    unfold mean
    refine div_pos (Finset.sum_pos (fun i hi => mul_pos (weight_pos hd i)
      (he i (Finset.mem_range.1 hi))) ⟨0, Finset.mem_range.2 (by have := hd.nx; omega)⟩) (weights_pos hd)
  refine ⟨mean d e, fun i => e i * (phiOf (mean d e) / mean d e), ?_, hpos, ?_⟩
  · unfold solventCompute
    rw [C86_average d hd, Res.ok_bind]
  · rw [C86_average d hd]
    congr 1
    have : mean d (fun i => e i * (phiOf (mean d e) / mean d e)) =
        mean d e * (phiOf (mean d e) / mean d e) := by
      conv_rhs => rw [show mean d e = _ from rfl]
      unfold mean
      rw [div_mul_eq_mul_div, Finset.sum_mul]
      congr 1
      exact Finset.sum_congr rfl fun i _ => by ring
    rw [this, mul_div_cancel₀ _ hpos.ne']

/-- Positive propagators: condition of `C87_step_positive` for all blocks. -/
structure PosOk (d : Domain K) (len kuhn : Nat → K) (ns : Nat → Nat) (w : Nat → Nat → K)
    (es : List Edge) : Prop where
  lenPos : ∀ k < es.length, 0 < len k
  ns2 : ∀ k < es.length, 2 ≤ ns k
  wPos : ∀ k < es.length, ∀ i < d.nx, 0 < 1 + len k / ((ns k : K) - 1) * w k i / 2
  small : ∀ k < es.length, SmallStep d (len k / ((ns k : K) - 1)) (kuhn k) (w k)

theorem PosOk.ds (h : PosOk d len kuhn ns w es) {k : Nat} (hk : k < es.length) :
    0 < len k / ((ns k : K) - 1) := by
  have : (2 : K) ≤ (ns k : K) := by exact_mod_cast h.ns2 k hk
  exact div_pos (h.lenPos k hk) (by linarith)

/-- The pivot condition of C86 follows. -/
theorem PosOk.poly (h : PosOk d len kuhn ns w es) (hd : DomOk d)
    (hread : readTopology es fuel = some (.ok P)) : PolyOk d len kuhn ns w es fuel P :=
  ⟨hd, hread, h.ns2, fun k hk i hi =>
    (C87_pivots d hd _ (kuhn k) (h.ds hk).le (w k) (h.wPos k hk) i hi).ne'⟩

theorem foldHead_pos {blk : Nat → Block K} {st : Pid → Option (Nat → Nat → K)} {n : Nat} :
    ∀ (l : List Pid) (h0 h : Nat → K), (∀ i < n, 0 < h0 i) →
    (∀ s q, s ∈ l → st s = some q → ∀ j i, i < n → 0 < q j i) →
    l.foldl (fun acc s => match acc, st s with
      | some h, some q => some (fun i => h i * q ((blk s.1).ns - 1) i)
      | _, _ => none) (some h0) = some h → ∀ i < n, 0 < h i
  | [], h0, h, hp, _, e => by cases e; exact hp
  | s :: l, h0, h, hp, hq, e => by
    simp only [List.foldl_cons] at e
    cases hs : st s with
    | none =>
      rw [hs] at e
      have : ∀ l : List Pid, l.foldl (fun acc s => match acc, st s with
          | some h, some q => some (fun i => h i * q ((blk s.1).ns - 1) i)
          | _, _ => none) (none : Option (Nat → K)) = none := fun l => by
        induction l with
        | nil => rfl
        | cons a l ih => simpa using ih
      rw [this] at e
      cases e
    | some q =>
      rw [hs] at e
      exact foldHead_pos l _ h (fun i hi => mul_pos (hp i hi) (hq s q (by simp) hs _ i hi))
        (fun s' q' hs' => hq s' q' (by simp [hs'])) e

/-- **C87**, positivity of a whole polymer: for steps small enough, every propagator of every accepted
polymer is positive at every contour and grid point, the partition function is positive, and so is every
block concentration when `phi` and the total length are. -/
theorem C87_polymer_positive (h : PosOk d len kuhn ns w es) (hd : DomOk d)
    (hread : readTopology es fuel = some (.ok P)) (hes : es ≠ []) :
    ∃ st Q, polymerSolve d (blocks d len kuhn ns w) es P.vertices P.plan = .ok (st, Q) ∧ 0 < Q ∧
      (∀ p q, st p = some q → ∀ j i, i < d.nx → 0 < q j i) ∧
      ∀ phi total, 0 < phi → 0 < total → ∀ k < es.length, ∃ c,
        blockConc (blocks d len kuhn ns w) st phi Q total k = some c ∧ ∀ i < d.nx, 0 < c i := by
  have hP := h.poly hd hread
  obtain ⟨_, hv, hs⟩ := plan_facts hread
  have h0 : 0 < es.length := List.length_pos_iff.2 hes
  have hstep : ∀ k < es.length, ∀ g : Nat → K, (∀ i < d.nx, 0 < g i) → ∀ j i, i < d.nx →
      0 < slices d.nx (blocks d len kuhn ns w k) g j i := by
    intro k hk g hg j
    induction j with
    | zero => exact fun i hi => hg i hi
    | succ j ih => exact C87_step_positive d hd _ _ (h.ds hk).le _ (h.wPos k hk) (h.small k hk) _ ih
  obtain ⟨st, Q, hsol⟩ := C86_solve_succeeds hP hes
  have hsol' := hsol
  unfold polymerSolve at hsol'
  rw [Res.bind_eq_ok] at hsol'
  obtain ⟨st', hst, hsol'⟩ := hsol'
  have hdone := done_of_solve hread hst
  rw [computeQ_eq hd hdone ((hs.complete (0, false)).2 h0) ((hs.complete (0, true)).2 h0)] at hsol'
  simp only [Bool.not_false] at hsol'
  change Res.ok (st', _) = Res.ok (st, Q) at hsol'
  simp only [Res.ok.injEq, Prod.mk.injEq, div_one] at hsol'
  obtain ⟨rfl, hQd⟩ := hsol'
  have hpos : ∀ l1 l2, P.plan = l1 ++ l2 → ∀ p ∈ l1, ∀ q, st' p = some q →
      ∀ j i, i < d.nx → 0 < q j i := by
    intro l1
    induction l1 using List.reverseRecOn with
    | nil => intro l2 _ p hp; simp at hp
    | append_singleton l1 p0 ih =>
      intro l2 he p hp q hq
      rw [List.append_assoc] at he
      rw [List.mem_append] at hp
      rcases hp with hp | hp
      · exact ih _ he p hp q hq
      · rw [List.mem_singleton] at hp
        subst hp
        have hmem : p ∈ P.plan := by rw [he]; simp
        obtain ⟨g, hg1, hg2⟩ := hdone.eqn p hmem
        rw [hq] at hg2
        cases hg2
        refine hstep p.1 ((hs.complete p).1 hmem) g ?_
        refine foldHead_pos (st := st') (blk := blocks d len kuhn ns w) (n := d.nx) (sources es P.vertices p)
          (fun _ => 1) g (fun _ _ => one_pos) ?_ hg1
        intro s q' hsm hs'
        have hps := (hs.complete p).1 hmem
        exact ih _ he s (hs.ordered l1 p l2 he s ((mem_sources hv hps).1 hsm)) q' hs'
  have hall : ∀ p q, st' p = some q → ∀ j i, i < d.nx → 0 < q j i := fun p q hq =>
    hpos P.plan [] (by simp) p ((hdone.iff p).1 (by rw [hq]; rfl)) q hq
  have hnx : 0 < d.nx := by have := hd.nx; omega
  have hQpos : 0 < Q := by
    rw [← hQd]
    refine div_pos (Finset.sum_pos (fun i hi => mul_pos (weight_pos hd i) ?_)
      ⟨0, Finset.mem_range.2 hnx⟩) (weights_pos hd)
    have hi := Finset.mem_range.1 hi
    obtain ⟨g, _, g2⟩ := hdone.eqn (0, false) ((hs.complete _).2 h0)
    obtain ⟨g', _, g2'⟩ := hdone.eqn (0, true) ((hs.complete _).2 h0)
    unfold headOf tailOf
    rw [g2, g2']
    exact mul_pos (hall _ _ g2 _ i hi) (hall _ _ g2' _ i hi)
  refine ⟨st', Q, hsol, hQpos, hall, ?_⟩
  intro phi total hphi htot k hk
  obtain ⟨g, _, g2⟩ := hdone.eqn (k, false) ((hs.complete _).2 hk)
  obtain ⟨g', _, g2'⟩ := hdone.eqn (k, true) ((hs.complete _).2 hk)
  unfold blockConc
  rw [g2, g2']
  refine ⟨_, rfl, fun i hi => ?_⟩
  have hds : 0 < (blocks d len kuhn ns w k).ds := h.ds hk
  have p0 := fun j => hall _ _ g2 j i hi
  have p1 := fun j => hall _ _ g2' j i hi
  unfold conc
  simp only [accum_eq]
  have hsum := Finset.sum_nonneg (s := Finset.univ) (f := fun j : Fin ((blocks d len kuhn ns w k).ns - 2) =>
    slices d.nx (blocks d len kuhn ns w k) g (↑j + 1) i *
      slices d.nx (blocks d len kuhn ns w k) g' ((blocks d len kuhn ns w k).ns - 1 - (↑j + 1)) i)
    (fun j _ => (mul_pos (p0 _) (p1 _)).le)
  refine mul_pos ?_ (mul_pos (div_pos hphi (mul_pos hQpos htot)) hds)
  have a1 := mul_pos (p0 0) (p1 ((blocks d len kuhn ns w k).ns - 1))
  have a2 := mul_pos (p0 ((blocks d len kuhn ns w k).ns - 1)) (p1 0)
  have b1 : 0 + 1 / 2 * slices d.nx (blocks d len kuhn ns w k) g 0 i *
      slices d.nx (blocks d len kuhn ns w k) g' ((blocks d len kuhn ns w k).ns - 1) i =
      1 / 2 * (slices d.nx (blocks d len kuhn ns w k) g 0 i *
      slices d.nx (blocks d len kuhn ns w k) g' ((blocks d len kuhn ns w k).ns - 1) i) := by ring
  have b2 : 1 / 2 * slices d.nx (blocks d len kuhn ns w k) g ((blocks d len kuhn ns w k).ns - 1) i *
      slices d.nx (blocks d len kuhn ns w k) g' 0 i =
      1 / 2 * (slices d.nx (blocks d len kuhn ns w k) g ((blocks d len kuhn ns w k).ns - 1) i *
      slices d.nx (blocks d len kuhn ns w k) g' 0 i) := by ring
  rw [b1, b2]
  linarith

end Conservation

/-! ### Domains -/

/-- **C86**, domains: whatever the file asks for with two or more points and increasing coordinates, a domain
that is read successfully is one to which C86 and C87 apply. -/
theorem C86_read_domain (pi : K) (mode : Mode) (xMin : Option K) (xMax : K) (nx : Nat) (d : Domain K)
    (h : Domain.read pi mode xMin xMax nx = .ok d) (hn : 1 < nx) (hx : xMin.getD 0 < xMax) : DomOk d := by
  unfold Domain.read at h
  cases mode <;> cases xMin <;> simp at h
  · subst h; exact ⟨hn, hx, by simp, by simp, by simp⟩
  · subst h; exact ⟨hn, hx, by simp, by simp, by simp⟩
  · subst h; exact ⟨hn, hx, by simp, by simp, by simp⟩
  · split at h
    · cases h
    · rename_i h0
      cases h
      exact ⟨hn, hx, by simp, by simpa using h0, by simp⟩
  · subst h; exact ⟨hn, hx, by simp, by simp, by simp⟩
  · split at h
    · cases h
    · rename_i h0
      cases h
      exact ⟨hn, hx, by simp, by simpa using h0, by simp⟩

/-- Reading fails exactly for a cylindrical or spherical shell whose inner radius is not positive. -/
theorem C86_read_rejects (pi : K) (mode : Mode) (xMin : Option K) (xMax : K) (nx : Nat) :
    Domain.read pi mode xMin xMax nx = .throw ↔ mode ≠ .planar ∧ ∃ x, xMin = some x ∧ x ≤ 0 := by
  unfold Domain.read
  cases mode <;> cases xMin <;> simp

theorem C86_setters (pi xMin xMax : K) (nx : Nat) (hn : 1 < nx) :
    (xMin < xMax → DomOk (Domain.setPlanar pi xMin xMax nx)) ∧
    (0 < xMax → DomOk (Domain.setCylinder pi xMax nx)) ∧
    (0 < xMax → DomOk (Domain.setSphere pi xMax nx)) ∧
    (∀ mode, 0 < xMin → xMin < xMax → DomOk (Domain.setShell pi mode xMin xMax nx)) := by
  refine ⟨fun h => ⟨hn, h, rfl, ?_, ?_⟩, fun h => ⟨hn, h, ?_, ?_, ?_⟩, fun h => ⟨hn, h, ?_, ?_, ?_⟩,
    fun mode h0 h => ⟨hn, h, rfl, ?_, ?_⟩⟩
  all_goals simp_all [Domain.setPlanar, Domain.setCylinder, Domain.setSphere, Domain.setShell]

/-- Volume of the domain: length, area of the (hollow) disk, volume of the (hollow) ball. -/
theorem C86_volume (pi xMin xMax : K) (nx : Nat) :
    (Domain.setPlanar pi xMin xMax nx).volume = xMax - xMin ∧
    (Domain.setCylinder pi xMax nx).volume = pi * xMax ^ 2 ∧
    (Domain.setSphere pi xMax nx).volume = 4 / 3 * pi * xMax ^ 3 ∧
    (Domain.setShell pi .cylindrical xMin xMax nx).volume = pi * (xMax ^ 2 - xMin ^ 2) ∧
    (Domain.setShell pi .spherical xMin xMax nx).volume = 4 / 3 * pi * (xMax ^ 3 - xMin ^ 3) := by
  simp only [Domain.setPlanar, Domain.setCylinder, Domain.setSphere, Domain.setShell, computeVolume]
  refine ⟨trivial, ?_, ?_, ?_, ?_⟩ <;> simp <;> ring

/-! ### Contour discretisation -/

/-- **C87**, contour points (partial: blocks of at least half a step): the number of contour points is odd
and at least three, and the actual step is `length/(ns - 1)`. -/
theorem C87_contour_partial [FloorRing K] (length ds : K) (hds : 0 < ds) (hl : ds / 2 ≤ length) :
    ∃ m : Int, 1 ≤ m ∧ contourNs length ds = 2 * m + 1 := by
  have h1 : (1 : Int) ≤ ⌊length / ds + 1 / 2⌋ := by
    rw [Int.le_floor]
    have : 1 / 2 ≤ length / ds := by rw [le_div_iff₀ hds]; linarith
    push_cast
    linarith
  unfold contourNs
  simp only
  generalize ⌊length / ds + 1 / 2⌋ = n at *
  have e : (n + 1).tmod 2 = (n + 1) % 2 := Int.tmod_eq_emod_of_nonneg (by omega)
  split_ifs with h
  · rw [e] at h; exact ⟨(n + 1) / 2, by omega, by omega⟩
  · rw [e] at h; exact ⟨n / 2, by omega, by omega⟩

/-- **C87** is violated for every block shorter than half the target step: it gets a single contour point, so
`ds_ = length/(ns_ - 1)` divides by zero. (The periodic code `rpc` has a special case for short blocks.) -/
theorem C87_contour_violated [FloorRing K] (length ds : K) (hl : 0 < length) (h : length < ds / 2) :
    contourNs length ds = 1 ∧ ((contourNs length ds : K) - 1 = 0) := by
  have hds : 0 < ds := by linarith
  have e : ⌊length / ds + 1 / 2⌋ = 0 := by
    rw [Int.floor_eq_zero_iff]
    have h1 : length / ds < 1 / 2 := by rw [div_lt_iff₀ hds]; linarith
    have h2 : 0 < length / ds := div_pos hl hds
    constructor <;> linarith
  have : contourNs length ds = 1 := by
    unfold contourNs
    rw [e]
    rfl
  exact ⟨this, by rw [this]; simp⟩

/-! ### Instances -/

/-- A full sphere with three grid points. -/
def exSphere : Domain ℚ := Domain.setSphere 3 2 3

theorem exSphere_ok : DomOk exSphere := (C86_setters (3 : ℚ) 0 2 3 (by norm_num)).2.2.1 (by norm_num)

theorem exPos : PosOk exSphere (fun _ => 1) (fun _ => 1) (fun _ => 3) (fun _ i => (i : ℚ) / 4)
    [(0, 1), (1, 2), (3, 1)] := by
  refine ⟨fun _ _ => by norm_num, fun _ _ => by norm_num, fun k _ i hi => by positivity, ?_⟩
  intro k _ i hi
  change i < 3 at hi
  interval_cases i <;>
    simp [matA, exSphere, Domain.setSphere, rp0, rp, rm, rmL, sqIf] <;> norm_num

/-- A star of three blocks on a sphere in a non-uniform field meets all hypotheses: positive partition
function, and each block has a third of the volume fraction. -/
example : ∃ (P : Polymer) (st : Pid → Option (Nat → Nat → ℚ)) (Q : ℚ), polymerSolve exSphere (blocks exSphere (fun _ => 1) (fun _ => 1) (fun _ => 3)
      (fun _ i => (i : ℚ) / 4)) [(0, 1), (1, 2), (3, 1)] P.vertices P.plan = .ok (st, Q) ∧ 0 < Q ∧
    ∃ c, blockConc (blocks exSphere (fun _ => 1) (fun _ => 1) (fun _ => 3) (fun _ i => (i : ℚ) / 4))
      st (1 / 2) Q 3 1 = some c ∧ exSphere.spatialAverage c = .ok (1 / 6) := by
  obtain ⟨P, hP⟩ : ∃ P, readTopology [(0, 1), (1, 2), (3, 1)] 6 = some (.ok P) := ⟨_, rfl⟩
  obtain ⟨st, Q, h1, h2, _⟩ := C87_polymer_positive exPos exSphere_ok hP (by simp)
  refine ⟨P, st, Q, h1, h2, ?_⟩
  obtain ⟨c, h3, h4⟩ := C86_block_conservation (exPos.poly exSphere_ok hP) (by simp) (1 / 2) 3 Q st h1
    h2.ne' 1 (by simp)
  exact ⟨c, h3, by rw [h4]; norm_num⟩

/-- Means on a cylindrical shell and on a full sphere. -/
example : (Domain.setShell (3 : ℚ) .cylindrical 1 3 3).spatialAverage (fun i => (i : ℚ)) = .ok (5 / 4) ∧
    exSphere.spatialAverage (fun i => if i = 0 then 1 else 0) = .ok (1 / 73) := by
  constructor
  · rw [C86_average _ ((C86_setters (3 : ℚ) 1 3 3 (by norm_num)).2.2.2 _ (by norm_num) (by norm_num))]
    norm_num [mean, weight, coord, Domain.setShell, Finset.sum_range_succ]
  · rw [C86_average _ exSphere_ok]
    norm_num [mean, weight, coord, exSphere, Domain.setSphere, Finset.sum_range_succ]

/-- The condition of `C87_step_positive` is needed: with a large step a positive propagator turns negative. -/
theorem C87_large_step_negative : ∃ (d : Domain ℚ) (ds kuhn : ℚ) (q : Nat → ℚ), DomOk d ∧ 0 < ds ∧
    (∀ i < d.nx, 0 < q i) ∧
    ∃ i < d.nx, step d.nx (matA d ds kuhn (fun _ => 0)) (matB d ds kuhn (fun _ => 0)) q i < 0 := by
  refine ⟨Domain.setPlanar 3 0 2 3, 120, 1, fun i => if i = 0 then 100 else 1,
    (C86_setters (3 : ℚ) 0 2 3 (by norm_num)).1 (by norm_num), by norm_num, ?_, 0, by decide, ?_⟩
  · intro i _
    dsimp only
    split_ifs <;> norm_num
  · norm_num [step, matA, matB, Domain.setPlanar, Tri.solve, Tri.back, Tri.fwd, Tri.dLU, Tri.lLU]

example : contourNs (1 : ℚ) (1 / 10) = 11 ∧ contourNs (1 : ℚ) (1 / 5) = 7 ∧
    contourNs (1 / 100 : ℚ) (1 / 10) = 1 := by
  refine ⟨?_, ?_, ?_⟩ <;> norm_num [contourNs] <;> decide

end Verif.R1d
