import Verif.R1d.Thermo
import Verif.R1d.Uniform
import Verif.Thermo.Props
import Verif.FloryHuggins.Props
import Verif.Inter.Props
import Verif.Tac

/-!
# C108: thermodynamic output of the one-dimensional program

The free energy printed for a solution, its relation to the pressure, its value in uniform fields, the
comparison with a homogeneous mixture, and the commands after which the printed values belong to the
current state.
-/

set_option autoImplicit false
set_option linter.unusedSectionVars false

namespace Verif.R1d

open Verif Verif.Chem Verif.Solver

variable {M : Nat}

/-! ### Value of the free energy -/

theorem legendre_eq {d : Domain ℝ} (hd : DomOk d) (w c : Fin M → Nat → ℝ) :
    ∀ (l : List (Fin M)) (f : ℝ), legendre d w c l f =
      .ok (f - (l.map fun i => mean d fun x => w i x * c i x).sum)
  | [], f => by simp [legendre]
  | i :: l, f => by
    rw [legendre, show d.innerProduct (w i) (c i) = .ok (mean d fun x => w i x * c i x) from
      C86_average d hd _, Res.ok_bind, legendre_eq hd w c l]
    congr 1
    rw [List.map_cons, List.sum_cons]
    ring

theorem inter_eq (chi : Fin M → Fin M → ℝ) (c : Fin M → ℝ) :
    Inter.fHelmholtz chi c = 1 / 2 * ∑ i, ∑ j, chi i j * c i * c j := by
  unfold Inter.fHelmholtz
  have : (fun (s : ℝ) (i : Fin M) => accum M (fun j => chi i j * c i * c j) s) =
      fun s i => s + ∑ j, chi i j * c i * c j := by funext s i; rw [accum_eq]
  rw [this, foldl_add_eq, zero_add, ← List.ofFn_eq_map, List.sum_ofFn]

/-- **C108**, value: in every geometry the free energy is the sum over species of `phi (mu - 1) / N`, minus
the averages of `w_i c_i`, plus the average of `½ c·χ·c` over the shell-weighted grid; the printed ideal and
interaction parts add up to it; and `f + p = Σ mu phi / N` over the species that are counted. -/
theorem C108_value {d : Domain ℝ} (hd : DomOk d) (species : List Thermo.Spec)
    (hphi : ∀ s ∈ species, s.phi = 0 ∨ s.phi > 1 / 10 ^ 8) (chi : Fin M → Fin M → ℝ)
    (w c : Fin M → Nat → ℝ) :
    ∃ t, freeEnergy d species chi w c = .ok t ∧
      t.fHelmholtz = (species.map fun s => s.phi * (s.mu - 1) / s.len).sum -
        (∑ i, mean d fun x => w i x * c i x) +
        mean d (fun x => 1 / 2 * ∑ i, ∑ j, chi i j * c i x * c j x) ∧
      t.fIdeal + t.fInter = t.fHelmholtz ∧
      t.fInter = mean d (fun x => 1 / 2 * ∑ i, ∑ j, chi i j * c i x * c j x) ∧
      t.fHelmholtz + t.pressure = (species.map fun s => s.mu * s.phi / s.len).sum := by
  unfold freeEnergy
  rw [legendre_eq hd, Res.ok_bind, C86_average d hd, Res.ok_bind]
  refine ⟨_, rfl, ?_, ?_, ?_, ?_⟩
  · simp only [inter_eq]
    rw [Thermo.idealSpecies_eq, zero_add, ← List.ofFn_eq_map, List.sum_ofFn]
    congr 3
    apply List.map_congr_left
    intro s hs
    rcases hphi s hs with h0 | h0
    · rw [if_neg (by rw [h0]; norm_num), h0]; simp
    · rw [if_pos h0]
  · simp only; ring
  · simp only [inter_eq]; ring
  · simp only
    rw [Thermo.pressureSpecies_eq]
    rw [add_neg_cancel_left]
    congr 1
    apply List.map_congr_left
    intro s hs
    rcases hphi s hs with h0 | h0
    · rw [if_neg (by rw [h0]; norm_num), h0]; simp
    · rw [if_pos h0]

theorem mean_congr (d : Domain ℝ) {f g : Nat → ℝ} (h : ∀ i < d.nx, f i = g i) : mean d f = mean d g := by
  unfold mean
  rw [Finset.sum_congr rfl fun i hi => by rw [h i (Finset.mem_range.1 hi)]]

theorem mean_const {d : Domain ℝ} (hd : DomOk d) (c : ℝ) : mean d (fun _ => c) = c := by
  unfold mean
  rw [← Finset.sum_mul, mul_div_cancel_left₀ _ (weights_pos hd).ne']

theorem mean_add (d : Domain ℝ) (f g : Nat → ℝ) : mean d (fun i => f i + g i) = mean d f + mean d g := by
  unfold mean
  rw [← add_div, ← Finset.sum_add_distrib]
  congr 1
  exact Finset.sum_congr rfl fun i _ => by ring

theorem mean_smul (d : Domain ℝ) (a : ℝ) (f : Nat → ℝ) : mean d (fun i => a * f i) = a * mean d f := by
  unfold mean
  rw [mul_div_assoc', Finset.mul_sum]
  congr 1
  exact Finset.sum_congr rfl fun i _ => by ring

theorem mean_sum (d : Domain ℝ) {ι : Type} (s : Finset ι) (f : ι → Nat → ℝ) :
    mean d (fun x => ∑ i ∈ s, f i x) = ∑ i ∈ s, mean d (f i) := by
  classical
  induction s using Finset.induction_on with
  | empty => simp [mean]
  | insert a s ha ih => simp only [Finset.sum_insert ha]; rw [mean_add, ih]

/-- **C108**, pressure of a solution: if the fields satisfy `w_i = Σ_j χ_ij c_j + ξ(x)` and the concentrations
add up to one on the grid, the pressure is `Σ phi / N + ⟨½ c·χ·c⟩ + ⟨ξ⟩`: the chemical potentials drop out. -/
theorem C108_pressure_solution {d : Domain ℝ} (hd : DomOk d) (species : List Thermo.Spec)
    (hphi : ∀ s ∈ species, s.phi = 0 ∨ s.phi > 1 / 10 ^ 8) (chi : Fin M → Fin M → ℝ)
    (w c : Fin M → Nat → ℝ) (ξ : Nat → ℝ)
    (hw : ∀ x < d.nx, ∀ i, w i x = ∑ j, chi i j * c j x + ξ x)
    (hc : ∀ x < d.nx, ∑ i, c i x = 1) (t : ThermoOut) (h : freeEnergy d species chi w c = .ok t) :
    t.pressure = (species.map fun s => s.phi / s.len).sum +
      mean d (fun x => 1 / 2 * ∑ i, ∑ j, chi i j * c i x * c j x) + mean d ξ := by
  obtain ⟨t', h1, h2, _, _, h5⟩ := C108_value hd species hphi chi w c
  rw [h] at h1
  cases h1
  have e1 : (species.map fun s => s.mu * s.phi / s.len).sum =
      (species.map fun s => s.phi * (s.mu - 1) / s.len).sum + (species.map fun s => s.phi / s.len).sum := by
    rw [← List.sum_map_add]
    congr 1
    apply List.map_congr_left
    intro s _
    ring
  have e2 : (∑ i, mean d fun x => w i x * c i x) =
      2 * mean d (fun x => 1 / 2 * ∑ i, ∑ j, chi i j * c i x * c j x) + mean d ξ := by
    rw [← mean_sum, ← mean_smul, ← mean_add]
    refine mean_congr d fun x hx => ?_
    have : ∀ i, w i x * c i x = ∑ j, chi i j * c i x * c j x + ξ x * c i x := by
      intro i
      rw [hw x hx i, add_mul, Finset.sum_mul]
      congr 1
      exact Finset.sum_congr rfl fun j _ => by ring
    rw [Finset.sum_congr rfl fun i _ => this i, Finset.sum_add_distrib, ← Finset.mul_sum, hc x hx]
    ring
  linarith

/-! ### Uniform fields -/

/-- **C108**, uniform fields: for every accepted branched polymer and every geometry, constant fields `ω k`
in the blocks give `Q = Π_k ((1 - y_k)/(1 + y_k))^(ns_k - 1)` with `y_k = ds_k ω_k / 2`, and uniform
concentrations `phi L_k / L`. -/
theorem C108_uniform_polymer {d : Domain ℝ} {len kuhn : Nat → ℝ} {ns : Nat → Nat} {ω : Nat → ℝ}
    {es : List Edge} {fuel : Nat} {P : Polymer} (h : UniOk d len ns ω es fuel P) (hes : es ≠ [])
    (phi total : ℝ) :
    ∃ st Q, polymerSolve d (blocks d len kuhn ns (fun k _ => ω k)) es P.vertices P.plan = .ok (st, Q) ∧
      Q = ∏ k : Fin es.length, ((1 - halfStep (len k) (ns k) (ω k)) /
        (1 + halfStep (len k) (ns k) (ω k))) ^ (ns k - 1) ∧ 0 < Q ∧
      ∀ k < es.length, ∃ c, blockConc (blocks d len kuhn ns (fun k _ => ω k)) st phi Q total k
        = some c ∧ ∀ i < d.nx, c i = phi * (len k / total) := by
  obtain ⟨st, Q, hs⟩ := C86_solve_succeeds (h.poly (kuhn := kuhn)) hes
  exact ⟨st, Q, hs, uni_solution h hes phi total Q st hs⟩

/-- Deviation of a partition function from the exact one, as a contribution to the free energy. -/
noncomputable def devOf (Q work : ℝ) : ℝ := -(Real.log Q + work)

theorem log_cnFac {length ω : ℝ} {ns : Nat} (h : |halfStep length ns ω| < 1) :
    Real.log (cnFac length ns ω) = -(Real.log (1 + halfStep length ns ω) -
      Real.log (1 - halfStep length ns ω)) := by
  rw [abs_lt] at h
  unfold cnFac
  rw [Real.log_div (by linarith [h.2]) (by linarith [h.1])]
  ring

/-- Bounds of the deviation of one step for fields of either sign. -/
theorem log_dev_abs {y : ℝ} (h : |y| < 1) :
    |Real.log (1 + y) - Real.log (1 - y) - 2 * y| ≤ 2 / 3 * |y| ^ 3 / (1 - y ^ 2) := by
  rcases lt_trichotomy y 0 with h0 | h0 | h0
  · have hb := log_dev_bounds (y := -y) (by linarith) (by rw [abs_of_neg h0] at h; exact h)
    rw [show (1 : ℝ) + -y = 1 - y by ring, show (1 : ℝ) - -y = 1 + y by ring,
      show (-y) ^ 2 = y ^ 2 by ring] at hb
    rw [abs_of_neg h0]
    rw [abs_le]
    constructor <;> linarith [hb.1, hb.2]
  · subst h0; simp
  · have hb := log_dev_bounds h0 (by rw [abs_of_pos h0] at h; exact h)
    rw [abs_of_pos h0, abs_of_pos hb.1]
    exact hb.2

theorem dev_sum {len ω : Nat → ℝ} {ns : Nat → Nat} {n : Nat} (hns : ∀ k < n, 2 ≤ ns k)
    (hs : ∀ k < n, |halfStep (len k) (ns k) (ω k)| < 1) :
    devOf (∏ k : Fin n, cnFac (len k) (ns k) (ω k) ^ (ns k - 1)) (∑ k : Fin n, ω k * len k) =
      ∑ k : Fin n, ((ns k : ℝ) - 1) * (Real.log (1 + halfStep (len k) (ns k) (ω k)) -
        Real.log (1 - halfStep (len k) (ns k) (ω k)) - 2 * halfStep (len k) (ns k) (ω k)) := by
  unfold devOf
  rw [Real.log_prod (fun (k : Fin n) _ => (pow_pos (cnFac_pos (hs k k.2)) _).ne'), ← Finset.sum_add_distrib,
    ← Finset.sum_neg_distrib]
  refine Finset.sum_congr rfl fun k _ => ?_
  have hn := hns k k.2
  have e : ((ns k - 1 : Nat) : ℝ) = (ns k : ℝ) - 1 := by
    rw [Nat.cast_sub (by omega), Nat.cast_one]
  have hn1 : (ns k : ℝ) - 1 ≠ 0 := by
    have : (2 : ℝ) ≤ (ns k : ℝ) := by exact_mod_cast hn
    linarith
  rw [Real.log_pow, log_cnFac (hs k k.2), e]
  have : ((ns k : ℝ) - 1) * (2 * halfStep (len k) (ns k) (ω k)) = ω k * len k := by
    unfold halfStep
    field_simp
  rw [mul_sub, this]
  ring

/-- **C108**, size of the contour error: for uniform fields `ln Q` differs from its exact value `-Σ ω_k L_k` by
at most `Σ_k |ω_k L_k|³ / (12 (ns_k - 1)² (1 - y_k²))`: second order in the contour step. -/
theorem C108_uniform_second_order {len ω : Nat → ℝ} {ns : Nat → Nat} {n : Nat}
    (hns : ∀ k < n, 2 ≤ ns k) (hs : ∀ k < n, |halfStep (len k) (ns k) (ω k)| < 1) (Q : ℝ)
    (hQ : Q = ∏ k : Fin n, ((1 - halfStep (len k) (ns k) (ω k)) /
        (1 + halfStep (len k) (ns k) (ω k))) ^ (ns k - 1)) :
    |Real.log Q - -∑ k : Fin n, ω k * len k| ≤ ∑ k : Fin n, |ω k * len k| ^ 3 /
      (12 * ((ns k : ℝ) - 1) ^ 2 * (1 - halfStep (len k) (ns k) (ω k) ^ 2)) := by
  have e := dev_sum hns hs
  have hQ' : Q = ∏ k : Fin n, cnFac (len k) (ns k) (ω k) ^ (ns k - 1) := hQ
  rw [← hQ'] at e
  have : Real.log Q - -∑ k : Fin n, ω k * len k = -devOf Q (∑ k : Fin n, ω k * len k) := by
    unfold devOf; ring
  rw [this, abs_neg, e]
  refine (Finset.abs_sum_le_sum_abs _ _).trans (Finset.sum_le_sum fun k _ => ?_)
  have hn1 : (0 : ℝ) < (ns k : ℝ) - 1 := by
    have : (2 : ℝ) ≤ (ns k : ℝ) := by exact_mod_cast hns k k.2
    linarith
  have hy := hs k k.2
  have hy2 : (0 : ℝ) < 1 - halfStep (len k) (ns k) (ω k) ^ 2 := by
    have := abs_lt.1 hy
    nlinarith [this.1, this.2]
  rw [abs_mul, abs_of_pos hn1]
  refine (mul_le_mul_of_nonneg_left (log_dev_abs hy) hn1.le).trans (le_of_eq ?_)
  have ey : |ω k * len k| = 2 * ((ns k : ℝ) - 1) * |halfStep (len k) (ns k) (ω k)| := by
    have : ω k * len k = 2 * ((ns k : ℝ) - 1) * halfStep (len k) (ns k) (ω k) := by
      unfold halfStep; field_simp
    rw [this, abs_mul, abs_of_pos (by linarith)]
  rw [ey]
  field_simp
  ring

/-- **C108**, sign: for positive uniform fields the computed `ln Q` is strictly below its exact value, whatever
the number of steps. -/
theorem C108_uniform_sign {len ω : Nat → ℝ} {ns : Nat → Nat} {n : Nat} (hn : 0 < n)
    (hns : ∀ k < n, 2 ≤ ns k) (hs : ∀ k < n, |halfStep (len k) (ns k) (ω k)| < 1)
    (hω : ∀ k < n, 0 < ω k) (hl : ∀ k < n, 0 < len k) (Q : ℝ)
    (hQ : Q = ∏ k : Fin n, ((1 - halfStep (len k) (ns k) (ω k)) /
        (1 + halfStep (len k) (ns k) (ω k))) ^ (ns k - 1)) :
    Real.log Q < -∑ k : Fin n, ω k * len k := by
  have e := dev_sum hns hs
  have hQ' : Q = ∏ k : Fin n, cnFac (len k) (ns k) (ω k) ^ (ns k - 1) := hQ
  rw [← hQ'] at e
  have hpos : 0 < devOf Q (∑ k : Fin n, ω k * len k) := by
    rw [e]
    have : Nonempty (Fin n) := ⟨⟨0, hn⟩⟩
    refine Finset.sum_pos (fun k _ => ?_) Finset.univ_nonempty
    have hn1 : (0 : ℝ) < (ns k : ℝ) - 1 := by
      have : (2 : ℝ) ≤ (ns k : ℝ) := by exact_mod_cast hns k k.2
      linarith
    have hy : 0 < halfStep (len k) (ns k) (ω k) := by
      unfold halfStep
      have := hω k k.2
      have := hl k k.2
      positivity
    exact mul_pos hn1 (log_dev_bounds hy (abs_lt.1 (hs k k.2)).2).1
  unfold devOf at hpos
  linarith

/-- **C108**, free energy in uniform fields: for homogeneous fields `ω i`, species with partition functions
`Q` and chemical potentials `ln(phi/Q)`, and the homogeneous concentrations, the free energy of the program is
the Flory-Huggins free energy plus `Σ_s (phi_s/N_s) · (-(ln Q_s + Σ_i ω_i N_si))`. -/
theorem C108_uniform_free_energy {d : Domain ℝ} (hd : DomOk d) (fs : List (Thermo.FSpec M × ℝ))
    (ω : Fin M → ℝ) (chi : Fin M → Fin M → ℝ) (w c : Fin M → Nat → ℝ)
    (hphi : ∀ s ∈ fs, s.1.phi > 1 / 10 ^ 8) (hlen : ∀ s ∈ fs, s.1.total ≠ 0) (hQ : ∀ s ∈ fs, 0 < s.2)
    (hw : ∀ i, ∀ x < d.nx, w i x = ω i)
    (hc : ∀ i, ∀ x < d.nx, c i x = (fs.map fun s => s.1.phi * s.1.len i / s.1.total).sum)
    (t : ThermoOut)
    (h : freeEnergy d (fs.map fun s => ⟨s.1.phi, Real.log (s.1.phi / s.2), s.1.total⟩) chi w c = .ok t) :
    t.fHelmholtz = (fs.map fun s => s.1.phi * (Real.log s.1.phi - 1) / s.1.total).sum +
      1 / 2 * (∑ i, ∑ j, chi i j * (fs.map fun s => s.1.phi * s.1.len i / s.1.total).sum *
        (fs.map fun s => s.1.phi * s.1.len j / s.1.total).sum) +
      (fs.map fun s => s.1.phi / s.1.total * devOf s.2 (∑ i, ω i * s.1.len i)).sum := by
  obtain ⟨t', h1, h2, -, -, -⟩ := C108_value hd (fs.map fun s => (⟨s.1.phi, Real.log (s.1.phi / s.2),
    s.1.total⟩ : Thermo.Spec)) (by
      intro s hs
      obtain ⟨s0, hs0, rfl⟩ := List.mem_map.1 hs
      exact Or.inr (hphi s0 hs0)) chi w c
  rw [h] at h1
  cases h1
  rw [h2]
  set C : Fin M → ℝ := fun i => (fs.map fun s => s.1.phi * s.1.len i / s.1.total).sum with hC
  have e1 : (∑ i, mean d fun x => w i x * c i x) = ∑ i, ω i * C i := by
    refine Finset.sum_congr rfl fun i _ => ?_
    rw [mean_congr d (g := fun _ => ω i * C i) (fun x hx => by rw [hw i x hx, hc i x hx]), mean_const hd]
  have e2 : mean d (fun x => 1 / 2 * ∑ i, ∑ j, chi i j * c i x * c j x) =
      1 / 2 * ∑ i, ∑ j, chi i j * C i * C j := by
    rw [mean_congr d (g := fun _ => 1 / 2 * ∑ i, ∑ j, chi i j * C i * C j) (fun x hx => by
      congr 1
      refine Finset.sum_congr rfl fun i _ => Finset.sum_congr rfl fun j _ => ?_
      rw [hc i x hx, hc j x hx]), mean_const hd]
  rw [e1, e2]
  have key : ((fs.map fun s => (⟨s.1.phi, Real.log (s.1.phi / s.2), s.1.total⟩ : Thermo.Spec)).map
        fun s => s.phi * (s.mu - 1) / s.len).sum - ∑ i, ω i * C i =
      (fs.map fun s => s.1.phi * (Real.log s.1.phi - 1) / s.1.total).sum +
      (fs.map fun s => s.1.phi / s.1.total * devOf s.2 (∑ i, ω i * s.1.len i)).sum := by
    clear h h2 e1 e2 hc
    rw [hC]
    clear hC C
    induction fs with
    | nil => simp
    | cons s l ih =>
      have ih' := ih (fun s hs => hphi s (by simp [hs])) (fun s hs => hlen s (by simp [hs]))
        (fun s hs => hQ s (by simp [hs]))
      simp only [List.map_cons, List.sum_cons, mul_add, Finset.sum_add_distrib] at ih' ⊢
      have hs := hlen s (by simp)
      have hp : s.1.phi ≠ 0 := by
        have := hphi s (by simp)
        have h8 : (0 : ℝ) < 1 / 10 ^ 8 := by norm_num
        exact (h8.trans this).ne'
      have hq := (hQ s (by simp)).ne'
      have e : ∑ i, ω i * (s.1.phi * s.1.len i / s.1.total) =
          s.1.phi * (∑ i, ω i * s.1.len i) / s.1.total := by
        rw [Finset.mul_sum, Finset.sum_div]
        exact Finset.sum_congr rfl fun i _ => by ring
      rw [e, Real.log_div hp hq]
      unfold devOf
      have : s.1.phi * (Real.log s.1.phi - Real.log s.2 - 1) / s.1.total -
          s.1.phi * (∑ i, ω i * s.1.len i) / s.1.total =
          s.1.phi * (Real.log s.1.phi - 1) / s.1.total +
          s.1.phi / s.1.total * -(Real.log s.2 + ∑ i, ω i * s.1.len i) := by ring
      unfold devOf at ih'
      linarith
  linarith

/-- **C108 is violated** for the dependence on the zero of the fields: the free energy of a homopolymer melt
in a uniform field depends on the value of the field, in every geometry and for any number of contour steps,
although the composition does not. (In the periodic programs it does not, C71 and C82.) -/
theorem C108_gauge_violated {d : Domain ℝ} (hd : DomOk d) (length kuhn ω : ℝ) (ns : Nat)
    (hl : 0 < length) (hns : 2 ≤ ns) (hω : 0 < ω) (hs : halfStep length ns ω < 1) :
    ∃ (P : Polymer) (st : Pid → Option (Nat → Nat → ℝ)) (Q : ℝ) (c : Nat → ℝ) (t : ThermoOut),
      readTopology [(0, 1)] 2 = some (.ok P) ∧
      polymerSolve d (blocks d (fun _ => length) (fun _ => kuhn) (fun _ => ns) (fun _ _ => ω)) [(0, 1)]
        P.vertices P.plan = .ok (st, Q) ∧
      blockConc (blocks d (fun _ => length) (fun _ => kuhn) (fun _ => ns) (fun _ _ => ω)) st 1 Q length 0 =
        some c ∧ (∀ i < d.nx, c i = 1) ∧
      freeEnergy (M := 1) d [⟨1, Real.log (1 / Q), length⟩] (fun _ _ => 0) (fun _ _ => ω) (fun _ => c) =
        .ok t ∧
      -1 / length < t.fHelmholtz := by
  obtain ⟨P, hP⟩ : ∃ P, readTopology [(0, 1)] 2 = some (.ok P) := ⟨_, rfl⟩
  have hy : 0 < halfStep length ns ω := by
    have hn1 : (0 : ℝ) < (ns : ℝ) - 1 := by
      have : (2 : ℝ) ≤ (ns : ℝ) := by exact_mod_cast hns
      linarith
    unfold halfStep
    positivity
  have hu : UniOk d (fun _ => length) (fun _ => ns) (fun _ => ω) [(0, 1)] 2 P :=
    ⟨hd, hP, fun _ _ => hns, fun _ _ => hl.le, fun _ _ => by rw [abs_of_pos hy]; exact hs⟩
  obtain ⟨st, Q, h1, h2, h3, h4⟩ := C108_uniform_polymer (kuhn := fun _ => kuhn) hu (by simp) 1 length
  obtain ⟨c, h5, h6⟩ := h4 0 (by simp)
  have h6' : ∀ i < d.nx, c i = 1 := fun i hi => by rw [h6 i hi, one_mul, div_self hl.ne']
  obtain ⟨t, h7, _⟩ := C108_value (M := 1) hd [⟨1, Real.log (1 / Q), length⟩]
    (by intro s hs; right; rw [List.mem_singleton.1 hs]; norm_num) (fun _ _ => 0) (fun _ _ => ω) (fun _ => c)
  refine ⟨P, st, Q, c, t, hP, h1, h5, h6', h7, ?_⟩
  have hsgn := C108_uniform_sign (n := 1) (len := fun _ => length) (ω := fun _ => ω) (ns := fun _ => ns)
    one_pos (fun _ _ => hns) (fun _ _ => by rw [abs_of_pos hy]; exact hs) (fun _ _ => hω) (fun _ _ => hl)
    Q h2
  have hfe := C108_uniform_free_energy (M := 1) hd [(⟨1, fun _ => length⟩, Q)] (fun _ => ω) (fun _ _ => 0)
    (fun _ _ => ω) (fun _ => c) (by simp; norm_num) (by simp [Thermo.FSpec.total, hl.ne']) (by simpa using h3)
    (fun _ _ _ => rfl) (by
      intro i x hx
      rw [h6' x hx]
      simp [Thermo.FSpec.total, hl.ne']) t (by simpa [Thermo.FSpec.total] using h7)
  rw [hfe]
  simp only [List.map_cons, List.map_nil, List.sum_cons, List.sum_nil, add_zero, Thermo.FSpec.total,
    Finset.univ_unique, Fin.default_eq_zero, Finset.sum_singleton, Real.log_one, zero_mul, mul_zero, zero_sub]
  have hd1 : 0 < devOf Q (ω * length) := by
    unfold devOf
    simp at hsgn
    linarith
  have := mul_pos (div_pos one_pos hl) hd1
  have e : (1 : ℝ) * -1 / length = -1 / length := by ring
  linarith

/-! ### Comparison with a homogeneous mixture -/

section Compare

variable {m : Nat} (mols : FH.Mols m M) (chi : Matrix (Fin M) (Fin M) ℝ)
  (newton : FH.NState m M → Fin (m + 1) → ℝ) (np : Nat) (phi mu : Fin (m + 1) → ℝ)
  (guess : Int → Fin (m + 1) → ℝ)

theorem readAll_ok {n : Nat} {a : Fin n → Option ℝ} {v : Fin n → ℝ} (h : readAll a = .ok v) :
    ∀ i, a i = some (v i) := by
  unfold readAll at h
  split at h
  · cases h
  · rename_i hn
    cases h
    intro i
    cases e : a i with
    | none => exact absurd ⟨i, e⟩ hn
    | some x => simp [e]

theorem readAll_ub {n : Nat} {a : Fin n → Option ℝ} (i : Fin n) (h : a i = none) : readAll a = .ub := by
  unfold readAll
  rw [if_pos ⟨i, h⟩]

theorem readAll_some {n : Nat} (a : Fin n → Option ℝ) (v : Fin n → ℝ) (h : ∀ i, a i = some (v i)) :
    readAll a = .ok v := by
  unfold readAll
  rw [if_neg (by rintro ⟨i, hi⟩; rw [h i] at hi; cases hi)]
  congr 1
  funext i
  rw [h i]
  rfl

/-- `setComposition` does not read the last volume fraction. -/
theorem setComposition_congr {phi phi' : Fin (m + 1) → ℝ} (h : ∀ i : Fin m, phi i.castSucc = phi' i.castSucc) :
    FH.setComposition mols phi = FH.setComposition mols phi' := by
  unfold FH.setComposition
  have e' : ∀ s : ℝ, (fun i => if i = Fin.last m then s else phi i) =
      fun i => if i = Fin.last m then s else phi' i := by
    intro s
    funext i
    split
    · rfl
    · rename_i hi
      obtain ⟨j, rfl⟩ := Fin.exists_castSucc_eq.2 hi
      exact h j
  simp only [e', h]

/-- **C108**, mode 0: with at most one solvent and volume fractions adding up to one, the reference state has
exactly the composition of the system, and its free energy is the Flory-Huggins free energy of the molecules
with which the homogeneous mixture was initialised. -/
theorem C108_compare_same_composition (hnp : m ≤ np) (hsum : ∑ i, phi i = 1) (h : HomOut m)
    (hc : homCompute mols chi newton np phi mu guess 0 = .ok h) :
    h.phi = phi ∧ (∀ i, 0 < phi i) ∧
    h.fHelmholtz = (∑ i, phi i * (Real.log (phi i) - 1) / FH.molSize (mols i)) +
      1 / 2 * ∑ k, ∑ l, chi k l * (∑ i, phi i * (FH.content (mols i) k / FH.molSize (mols i))) *
        (∑ i, phi i * (FH.content (mols i) l / FH.molSize (mols i))) ∧
    h.fHelmholtz + h.pressure = ∑ i, phi i * h.mu i / FH.molSize (mols i) ∧
    ∀ i, h.mu i = Real.log (phi i) + ∑ k, FH.content (mols i) k *
      ∑ l, chi k l * ∑ j, phi j * (FH.content (mols j) l / FH.molSize (mols j)) := by
  unfold homCompute at hc
  rw [if_pos rfl] at hc
  obtain ⟨v, hv, hc⟩ := Res.bind_eq_ok.1 hc
  obtain ⟨pc, hpc, hc⟩ := Res.bind_eq_ok.1 hc
  obtain ⟨mu', hmu, hc⟩ := Res.bind_eq_ok.1 hc
  obtain ⟨fp, hfp, hc⟩ := Res.bind_eq_ok.1 hc
  cases hc
  obtain ⟨p, c⟩ := pc
  obtain ⟨f, pr⟩ := fp
  obtain ⟨h1, h2, h3, h4, h5⟩ := FH.C26_setComposition_complete mols _ p c hpc
  have hp : p = phi := by
    have hcast : ∀ i : Fin m, p i.castSucc = phi i.castSucc := by
      intro i
      rw [h3 i]
      unfold assignPolymers
      rw [if_pos (show ((i.castSucc : Fin (m + 1)) : Nat) < np by
        have := i.2; simp only [Fin.val_castSucc]; omega)]
      rfl
    have hl : p (Fin.last m) = phi (Fin.last m) := by
      rw [Fin.sum_univ_castSucc] at h1 hsum
      rw [Finset.sum_congr rfl fun i _ => hcast i] at h1
      linarith
    funext i
    refine Fin.lastCases hl (fun j => hcast j) i
  subst hp
  obtain ⟨e1, e2⟩ := FH.computeFreeEnergy_eq hfp
  refine ⟨rfl, (FH.computeMu_eq hmu).1, ?_, ?_, ?_⟩
  · simp only
    rw [e1]
    unfold FH.fInt
    simp only [← h5]
  · simp only
    rw [e2]
    ring
  · intro i
    simp only
    rw [(FH.computeMu_eq hmu).2 i]
    simp only [← h5]
    ring

/-- The hypotheses of the comparison can be met: any positive composition of molecules of positive size. -/
theorem C108_compare_accepts (hnp : m ≤ np) (hsum : ∑ i, phi i = 1) (hpos : ∀ i, 0 < phi i)
    (hcl : ∀ i, ∀ c ∈ mols i, 0 ≤ c.size) (hs : ∀ i, 0 < FH.molSize (mols i)) :
    ∃ h, homCompute mols chi newton np phi mu guess 0 = .ok h := by
  obtain ⟨c, hc⟩ := FH.C26_setComposition_accepts mols hcl hs phi (fun i => (hpos i).le) hsum
  unfold homCompute
  rw [if_pos rfl]
  have hp : ∀ i : Fin m, assignPolymers np phi i.castSucc = some (phi i.castSucc) := by
    intro i
    unfold assignPolymers
    rw [if_pos (show ((i.castSucc : Fin (m + 1)) : Nat) < np by
        have := i.2; simp only [Fin.val_castSucc]; omega)]
  have e : FH.setComposition mols (fun i => (assignPolymers np phi i).getD 0) = .ok (phi, c) := by
    rw [← hc]
    refine setComposition_congr mols fun i => ?_
    rw [hp i]
    rfl
  have hn : ¬ ∃ i, phi i ≤ 0 := by
    push Not
    exact hpos
  dsimp only
  rw [readAll_some _ _ hp, e]
  simp only [Res.bind, FH.computeMu, if_neg hn, FH.computeFreeEnergy]
  exact ⟨_, rfl⟩

/-- **C108**, modes 1 and 2: for a system without solvents, success of `computePhi` means that the reference
state has the chemical potentials of the system to within `10⁻¹⁰`. -/
theorem C108_compare_same_potential (mode : Int) (hm : mode = 1 ∨ mode = 2) (h : HomOut m)
    (hc : homCompute mols chi newton np phi mu guess mode = .ok h) :
    m + 1 ≤ np ∧ (∀ i, |h.mu i - mu i| < 1 / 10000000000) ∧ (∑ i, h.phi i = 1) ∧
    ∃ (xi : ℝ) (c : Fin M → ℝ), (∀ k, c k = ∑ i, h.phi i * (FH.content (mols i) k / FH.molSize (mols i))) ∧
      ∀ i, h.mu i = Real.log (h.phi i) + xi * FH.molSize (mols i) +
        ∑ k, FH.content (mols i) k * ∑ l, chi k l * c l := by
  unfold homCompute at hc
  have hm0 : mode ≠ 0 := by omega
  rw [if_neg hm0, if_pos hm] at hc
  obtain ⟨v, hv, hc⟩ := Res.bind_eq_ok.1 hc
  obtain ⟨target, ht, hc⟩ := Res.bind_eq_ok.1 hc
  obtain ⟨s, hs, hc⟩ := Res.bind_eq_ok.1 hc
  obtain ⟨fp, hfp, hc⟩ := Res.bind_eq_ok.1 hc
  cases hc
  have ht' := readAll_ok ht
  have hnp : m + 1 ≤ np := by
    have := ht' (Fin.last m)
    unfold assignPolymers at this
    split at this
    · rename_i hl
      simp only [Fin.val_last] at hl
      omega
    · cases this
  have htm : target = mu := by
    funext i
    have := ht' i
    unfold assignPolymers at this
    rw [if_pos (by have := i.2; omega)] at this
    exact (Option.some.inj this).symm
  subst htm
  obtain ⟨hS, hmu⟩ := FH.C26_computePhi mols chi newton target _ 0 s hs
  exact ⟨hnp, hmu, hS.1, s.xi, s.c, hS.2.2.2.1, hS.2.2.2.2⟩

/-- **C108 is violated** for solvents: with two or more solvents mode 0 uses volume fractions that were never
assigned, and with one or more solvents modes 1 and 2 use chemical potentials that were never assigned. -/
theorem C108_compare_solvent_violated :
    (np < m → homCompute mols chi newton np phi mu guess 0 = .ub) ∧
    (∀ mode : Int, (mode = 1 ∨ mode = 2) → np < m + 1 →
      homCompute mols chi newton np phi mu guess mode = .ub) := by
  constructor
  · intro h
    have e : readAll (fun i : Fin m => assignPolymers np phi i.castSucc) = .ub :=
      readAll_ub (⟨np, h⟩ : Fin m) (by
        unfold assignPolymers
        rw [if_neg (by simp)])
    unfold homCompute
    rw [if_pos rfl]
    dsimp only
    rw [e]
    rfl
  · intro mode hm h
    have hm0 : mode ≠ 0 := by omega
    unfold homCompute
    rw [if_neg hm0, if_pos hm]
    dsimp only
    have e2 : readAll (assignPolymers np mu) = .ub := readAll_ub (⟨np, h⟩ : Fin (m + 1)) (by
        unfold assignPolymers
        rw [if_neg (by simp)])
    rw [e2]
    cases e : readAll (fun i : Fin m => assignPolymers np (guess mode) i.castSucc) with
    | ok v => rfl
    | throw =>
      unfold readAll at e
      split at e <;> cases e
    | ub => rfl

/-- Printing in modes 1 and 2 reads polymers that do not exist if there are solvents. -/
theorem C108_print_solvent_violated (f p volume vMonomer : ℝ) (h : HomOut m) (mode : Int)
    (hm : mode = 1 ∨ mode = 2) (hnp : np < m + 1) : homOutput np phi f p volume vMonomer h mode = .ub := by
  have hm0 : mode ≠ 0 := by omega
  unfold homOutput
  rw [if_neg hm0, if_pos hm]
  exact if_pos ⟨⟨np, hnp⟩, by simp⟩

/-- **C108**, printed excess quantities for a system without solvents: `Phi (ex) = -(p - p_homo) V`,
`F (ex) = (f - f_homo) V`, and they are related by the excess chemical work:
`F (ex) - Phi (ex) = Σ_i mu_i deltaV_i / N_i` if both states have the same chemical potentials and
`f + p = Σ mu phi / N`. -/
theorem C108_excess (hnp : m + 1 ≤ np) (f p volume vMonomer : ℝ) (h : HomOut m) (mode : Int)
    (hm : mode = 1 ∨ mode = 2) (N : Fin (m + 1) → ℝ)
    (hsys : f + p = ∑ i, mu i * phi i / N i) (hhom : h.fHelmholtz + h.pressure = ∑ i, mu i * h.phi i / N i) :
    ∃ pr exc dV, homOutput np phi f p volume vMonomer h mode = .ok (some pr) ∧ pr.excess = some exc ∧
      pr.deltaV = some dV ∧ exc.2.2.1 = -(p - h.pressure) * (volume / vMonomer) ∧
      exc.2.2.2.1 = (f - h.fHelmholtz) * (volume / vMonomer) ∧
      exc.2.2.2.1 - exc.2.2.1 = ∑ i, mu i * dV i / N i := by
  have hm0 : mode ≠ 0 := by omega
  unfold homOutput
  simp only [if_neg hm0, if_pos hm]
  rw [if_neg (by rintro ⟨i, hi⟩; exact hi (by have := i.2; omega))]
  refine ⟨_, _, _, rfl, rfl, rfl, ?_, ?_, ?_⟩
  · simp only; ring
  · rfl
  · simp only
    have e : ∑ i, mu i * ((phi i - h.phi i) * (volume / vMonomer)) / N i =
        (∑ i, mu i * phi i / N i - ∑ i, mu i * h.phi i / N i) * (volume / vMonomer) := by
      rw [← Finset.sum_sub_distrib, Finset.sum_mul]
      exact Finset.sum_congr rfl fun i _ => by ring
    rw [e, ← hsys, ← hhom]
    ring

/-- **C108**, uniform system compared with itself: the printed `delta f` of mode 0 is exactly the contour error
`Σ_i (phi_i/N_i) · (-(ln Q_i + Σ_k ω_k N_ik))`, so it vanishes if and only if the weighted errors cancel. -/
theorem C108_compare_uniform {d : Domain ℝ} (hd : DomOk d) (hnp : m ≤ np) (hsum : ∑ i, phi i = 1)
    (hphi : ∀ i, phi i > 1 / 10 ^ 8) (Q : Fin (m + 1) → ℝ) (hQ : ∀ i, 0 < Q i) (ω : Fin M → ℝ)
    (hs : ∀ i, FH.molSize (mols i) ≠ 0)
    (w c : Fin M → Nat → ℝ) (hw : ∀ i, ∀ x < d.nx, w i x = ω i)
    (hc : ∀ k, ∀ x < d.nx, c k x = ∑ i, phi i * (FH.content (mols i) k / FH.molSize (mols i)))
    (t : ThermoOut) (ht : freeEnergy d (List.ofFn fun i => ⟨phi i, Real.log (phi i / Q i),
      FH.molSize (mols i)⟩) chi w c = .ok t)
    (h : HomOut m) (hh : homCompute mols chi newton np phi mu guess 0 = .ok h)
    (volume vMonomer : ℝ) :
    ∃ pr, homOutput np phi t.fHelmholtz t.pressure volume vMonomer h 0 = .ok (some pr) ∧
      pr.deltaF = ∑ i, phi i / FH.molSize (mols i) *
        -(Real.log (Q i) + ∑ k, ω k * FH.content (mols i) k) := by
  obtain ⟨_, _, h3, _⟩ := C108_compare_same_composition mols chi newton np phi mu guess hnp hsum h hh
  unfold homOutput
  rw [if_pos rfl]
  refine ⟨_, rfl, ?_⟩
  simp only
  let fs : List (Thermo.FSpec M × ℝ) := List.ofFn fun i => (⟨phi i, FH.content (mols i)⟩, Q i)
  have htot : ∀ i, (⟨phi i, FH.content (mols i)⟩ : Thermo.FSpec M).total = FH.molSize (mols i) :=
    fun i => FH.sum_content (mols i)
  have hfs : ∀ s ∈ fs, ∃ i, s = (⟨phi i, FH.content (mols i)⟩, Q i) := by
    intro s hs
    obtain ⟨i, hi⟩ := (List.mem_ofFn' _ _).1 hs
    exact ⟨i, hi.symm⟩
  have hC : ∀ k, (fs.map fun s => s.1.phi * s.1.len k / s.1.total).sum =
      ∑ i, phi i * (FH.content (mols i) k / FH.molSize (mols i)) := by
    intro k
    simp only [fs, List.map_ofFn, List.sum_ofFn, Function.comp_def, htot]
    exact Finset.sum_congr rfl fun i _ => by ring
  have main := C108_uniform_free_energy hd fs ω chi w c
    (fun s hs => by obtain ⟨i, rfl⟩ := hfs s hs; exact hphi i)
    (fun s hs' => by obtain ⟨i, rfl⟩ := hfs s hs'; rw [htot]; exact hs i)
    (fun s hs => by obtain ⟨i, rfl⟩ := hfs s hs; exact hQ i) hw
    (fun k x hx => by rw [hc k x hx, hC k]) t (by
      rw [← ht]
      simp only [fs, List.map_ofFn, Function.comp_def, htot])
  rw [main, h3]
  simp only [hC]
  simp only [fs, List.map_ofFn, List.sum_ofFn, Function.comp_def, htot, devOf]
  ring

end Compare

/-- **C108 is violated** in sweeps that change the length of a block: the homogeneous mixture keeps the sizes of
the parameter file. For a homopolymer melt without field the system is homogeneous, but after a change of the
length from `L` to `L'` the printed `delta f` is `1/L - 1/L'`. -/
theorem C108_stale_size_violated {d : Domain ℝ} (hd : DomOk d) (L L' kuhn : ℝ) (ns : Nat) (hL : 1 / 100000000 < L)
    (hL' : 0 < L') (hns : 2 ≤ ns) (newton : FH.NState 0 1 → Fin 1 → ℝ) (mu : Fin 1 → ℝ)
    (guess : Int → Fin 1 → ℝ) (volume vMonomer : ℝ) :
    ∃ (P : Polymer) (st : Pid → Option (Nat → Nat → ℝ)) (Q : ℝ) (c : Nat → ℝ) (t : ThermoOut)
      (h : HomOut 0) (pr : HomPrint 0),
      readTopology [(0, 1)] 2 = some (.ok P) ∧
      polymerSolve d (blocks d (fun _ => L') (fun _ => kuhn) (fun _ => ns) (fun _ _ => 0)) [(0, 1)]
        P.vertices P.plan = .ok (st, Q) ∧
      blockConc (blocks d (fun _ => L') (fun _ => kuhn) (fun _ => ns) (fun _ _ => 0)) st 1 Q L' 0 =
        some c ∧ (∀ i < d.nx, c i = 1) ∧
      freeEnergy (M := 1) d [⟨1, Real.log (1 / Q), L'⟩] (fun _ _ => 0) (fun _ _ => 0) (fun _ => c) =
        .ok t ∧
      homCompute (M := 1) (fun _ => FH.polymerClumps [(0, L)]) (fun _ _ => 0) newton 1 (fun _ => 1) mu guess 0 =
        .ok h ∧
      homOutput 1 (fun _ => 1) t.fHelmholtz t.pressure volume vMonomer h 0 = .ok (some pr) ∧
      pr.deltaF = 1 / L - 1 / L' := by
  obtain ⟨P, hP⟩ : ∃ P, readTopology [(0, 1)] 2 = some (.ok P) := ⟨_, rfl⟩
  have hz : halfStep L' ns (0 : ℝ) = 0 := by simp [halfStep]
  have hu : UniOk d (fun _ => L') (fun _ => ns) (fun _ => 0) [(0, 1)] 2 P :=
    ⟨hd, hP, fun _ _ => hns, fun _ _ => hL'.le, fun _ _ => by rw [hz]; simp⟩
  obtain ⟨st, Q, h1, h2, h3, h4⟩ := C108_uniform_polymer (kuhn := fun _ => kuhn) hu (by simp) 1 L'
  obtain ⟨c, h5, h6⟩ := h4 0 (by simp)
  have h6' : ∀ i < d.nx, c i = 1 := fun i hi => by rw [h6 i hi, one_mul, div_self hL'.ne']
  have hQ1 : Q = 1 := by rw [h2]; simp [hz]
  obtain ⟨t, h7, h8, _⟩ := C108_value (M := 1) hd [⟨1, Real.log (1 / Q), L'⟩]
    (by intro s hs; right; rw [List.mem_singleton.1 hs]; norm_num) (fun _ _ => 0) (fun _ _ => 0) (fun _ => c)
  have hsz : ∀ i : Fin 1, FH.molSize ((fun _ : Fin 1 => FH.polymerClumps (M := 1) [(0, L)]) i) = L := by
    intro i
    have := FH.C26_initialize_size (M := 1) [(0, L)] (by simpa using hL)
    simpa using this
  have hL0 : 0 < L := lt_trans (by norm_num) hL
  have hcl : ∀ i : Fin 1, ∀ cl ∈ (fun _ : Fin 1 => FH.polymerClumps (M := 1) [(0, L)]) i, 0 ≤ cl.size := by
    intro i cl hcl
    unfold FH.polymerClumps at hcl
    rw [List.mem_filterMap] at hcl
    obtain ⟨j, _, hj⟩ := hcl
    split at hj
    · rename_i hgt
      cases hj
      exact (lt_trans (by norm_num) hgt).le
    · cases hj
  obtain ⟨h, hh⟩ := C108_compare_accepts (m := 0) (fun _ => FH.polymerClumps (M := 1) [(0, L)]) (fun _ _ => 0)
    newton 1 (fun _ => 1) mu guess (by omega) (by simp) (fun _ => one_pos) hcl (fun i => by rw [hsz i]; exact hL0)
  obtain ⟨_, _, h9, _⟩ := C108_compare_same_composition (m := 0) (fun _ => FH.polymerClumps (M := 1) [(0, L)])
    (fun _ _ => 0) newton 1 (fun _ => 1) mu guess (by omega) (by simp) h hh
  refine ⟨P, st, Q, c, t, h, ⟨h.fHelmholtz, t.fHelmholtz - h.fHelmholtz, none, none⟩, hP, h1, h5, h6', h7, hh, ?_, ?_⟩
  · unfold homOutput
    rw [if_pos rfl]
  · simp only
    rw [h9, h8, hQ1]
    have hsz' : FH.molSize (FH.polymerClumps (M := 1) [(0, L)]) = L := hsz 0
    simp [mean, hsz']
    ring

/-! ### Which state the printed values belong to -/

section Commands

variable {Par Fld Sol Th : Type} (P : Prog Par Fld Sol Th)

/-- Contract of an iterator: after success, the mixture was last solved with the final fields (for the iterators
of the program: C107). -/
def IterOk : Prop := ∀ p w, (P.solve p w).1 = true → (P.solve p w).2.2 = P.mix p (P.solve p w).2.1

/-- **C108**, current state (part that holds): after a converged `ITERATE`, whatever happened before, the
concentrations and the free energy belong to the current fields and parameters. -/
theorem C108_current_partial (hI : IterOk P) (s : Sys Par Fld Sol Th) (l : List (Cmd Par Fld))
    (hconv : (P.solve (s.runs P l).par (s.runs P l).w).1 = true) :
    let s' := s.runs P (l ++ [.iterate])
    s'.sol = some (P.mix s'.par s'.w) ∧ s'.th = some (P.free s'.par s'.w (P.mix s'.par s'.w)) := by
  intro s'
  have e : s' = (s.runs P l).run P .iterate := by
    simp [s', Sys.runs, List.foldl_append]
  rw [e]
  simp only [Sys.run, hconv, if_true]
  rw [hI _ _ hconv]
  exact ⟨rfl, rfl⟩

/-- **C108**, current state: after `COMPUTE`, whatever happened before, the concentrations belong to the current
fields and parameters. -/
theorem C108_compute (s : Sys Par Fld Sol Th) (l : List (Cmd Par Fld)) :
    let s' := s.runs P (l ++ [.compute])
    s'.sol = some (P.mix s'.par s'.w) ∧ s'.w = (s.runs P l).w ∧ s'.par = (s.runs P l).par := by
  intro s'
  have e : s' = (s.runs P l).run P .compute := by
    simp [s', Sys.runs, List.foldl_append]
  rw [e]
  exact ⟨rfl, rfl, rfl⟩

/-- **C108**, current state: for iterators that leave consistent fields and concentrations also after failure, the
concentrations are always those of the last `COMPUTE` or `ITERATE`: they belong to the current fields and parameters
unless fields were read or parameters changed since. -/
theorem C108_concentrations (hI : ∀ p w, (P.solve p w).2.2 = P.mix p (P.solve p w).2.1) (s : Sys Par Fld Sol Th)
    (l : List (Cmd Par Fld)) (c : Cmd Par Fld) (hc : c = .compute ∨ c = .iterate) :
    let s' := s.runs P (l ++ [c])
    s'.sol = some (P.mix s'.par s'.w) := by
  intro s'
  have e : s' = (s.runs P l).run P c := by
    simp [s', Sys.runs, List.foldl_append]
  rw [e]
  rcases hc with rfl | rfl
  · rfl
  · simp only [Sys.run]
    split <;> simp only [hI]

/-- Is command `c`, given in state `s`, an iteration that converges? -/
def isConverged (s : Sys Par Fld Sol Th) : Cmd Par Fld → Prop
  | .iterate => (P.solve s.par s.w).1 = true
  | _ => False

/-- **C108**, every history: the stored free energy is that of the last converged `ITERATE` of the history, or was
never computed if there is none; no later command has changed it. -/
theorem C108_history (p : Par) (w : Fld) (l : List (Cmd Par Fld)) :
    let s0 : Sys Par Fld Sol Th := Sys.init p w
    ((s0.runs P l).th = none ∧ ∀ l1 c l2, l = l1 ++ c :: l2 → ¬ isConverged P (s0.runs P l1) c) ∨
    ∃ l1 l2, l = l1 ++ .iterate :: l2 ∧
      (s0.runs P l).th = some (P.free (s0.runs P l1).par (s0.runs P (l1 ++ [.iterate])).w
        (P.solve (s0.runs P l1).par (s0.runs P l1).w).2.2) ∧
      isConverged P (s0.runs P l1) .iterate ∧
      ∀ l3 c l4, l2 = l3 ++ c :: l4 → ¬ isConverged P (s0.runs P (l1 ++ .iterate :: l3)) c := by
  intro s0
  induction l using List.reverseRecOn with
  | nil => left; exact ⟨rfl, by simp⟩
  | append_singleton l c ih =>
    have erun : s0.runs P (l ++ [c]) = (s0.runs P l).run P c := by
      simp [Sys.runs, List.foldl_append]
    by_cases hc : isConverged P (s0.runs P l) c
    · right
      cases c with
      | readW w => exact absurd hc (by simp [isConverged])
      | compute => exact absurd hc (by simp [isConverged])
      | setPar q => exact absurd hc (by simp [isConverged])
      | iterate =>
        refine ⟨l, [], rfl, ?_, hc, by simp⟩
        rw [erun]
        have hc' : (P.solve (s0.runs P l).par (s0.runs P l).w).1 = true := hc
        simp only [Sys.run, hc', if_true]
    · have eth : (s0.runs P (l ++ [c])).th = (s0.runs P l).th := by
        rw [erun]
        cases c with
        | readW w => rfl
        | compute => rfl
        | setPar q => rfl
        | iterate =>
          have hc' : ¬ (P.solve (s0.runs P l).par (s0.runs P l).w).1 = true := hc
          simp only [Sys.run]
          rw [if_neg hc']
      rcases ih with ⟨h1, h2⟩ | ⟨l1, l2, h1, h2, h3, h4⟩
      · left
        refine ⟨by rw [eth, h1], ?_⟩
        intro k1 c' k2 he
        rcases List.eq_nil_or_concat k2 with rfl | ⟨k3, x, rfl⟩
        · obtain ⟨rfl, e2⟩ := List.append_inj' he rfl
          cases e2
          exact hc
        · have he' : l ++ [c] = (k1 ++ c' :: k3) ++ [x] := by rw [he]; simp
          obtain ⟨e1, _⟩ := List.append_inj' he' rfl
          exact h2 k1 c' k3 e1
      · right
        refine ⟨l1, l2 ++ [c], by rw [h1]; simp, by rw [eth, h2], h3, ?_⟩
        intro k1 c' k2 he
        rcases List.eq_nil_or_concat k2 with rfl | ⟨k3, x, rfl⟩
        · obtain ⟨e1, e2⟩ := List.append_inj' he rfl
          cases e2
          rw [← e1, ← h1]
          exact hc
        · have he' : l2 ++ [c] = (k1 ++ c' :: k3) ++ [x] := by rw [he]; simp
          obtain ⟨e1, _⟩ := List.append_inj' he' rfl
          exact h4 k1 c' k3 e1

/-- **C108 is violated** for `COMPUTE`: after a converged `ITERATE`, `READ_W` of other fields and `COMPUTE`, the
program prints volume fractions and chemical potentials of the new fields with the free energy of the old ones.
Whenever the two free energies differ the output is inconsistent. -/
theorem C108_stale_violated (hI : IterOk P) (p : Par) (w w2 : Fld) (hconv : (P.solve p w).1 = true)
    (hne : P.free p (P.solve p w).2.1 (P.mix p (P.solve p w).2.1) ≠ P.free p w2 (P.mix p w2)) :
    let s' := (Sys.init p w : Sys Par Fld Sol Th).runs P [.iterate, .readW w2, .compute]
    s'.w = w2 ∧ s'.sol = some (P.mix s'.par s'.w) ∧
      ∃ f, s'.th = some f ∧ f ≠ P.free s'.par s'.w (P.mix s'.par s'.w) := by
  intro s'
  simp only [s', Sys.runs, List.foldl_cons, List.foldl_nil, Sys.init, Sys.run, hconv, if_true]
  refine ⟨trivial, trivial, _, rfl, ?_⟩
  rw [hI _ _ hconv]
  exact hne

/-- The homogeneous mixture keeps the parameters of the parameter file through every history. -/
theorem C108_homogeneous_parameters (p : Par) (w : Fld) (l : List (Cmd Par Fld)) :
    ((Sys.init p w : Sys Par Fld Sol Th).runs P l).homPar = p := by
  induction l using List.reverseRecOn with
  | nil => rfl
  | append_singleton l c ih =>
    have erun : (Sys.init p w : Sys Par Fld Sol Th).runs P (l ++ [c]) =
        ((Sys.init p w : Sys Par Fld Sol Th).runs P l).run P c := by
      simp [Sys.runs, List.foldl_append]
    rw [erun]
    cases c with
    | readW w => exact ih
    | compute => exact ih
    | setPar q => exact ih
    | iterate =>
      simp only [Sys.run]
      split <;> exact ih

end Commands

/-! ### Examples -/

/-- A planar slab with three grid points. -/
noncomputable def exSlab : Domain ℝ := Domain.setPlanar 3 0 1 3

theorem exSlab_ok : DomOk exSlab := (C86_setters (3 : ℝ) 0 1 3 (by norm_num)).1 (by norm_num)

/-- A melt of a homopolymer with two contour steps in a field of value one: the free energy exceeds `-1`. -/
example : ∃ (P : Polymer) (st : Pid → Option (Nat → Nat → ℝ)) (Q : ℝ) (c : Nat → ℝ) (t : ThermoOut),
      readTopology [(0, 1)] 2 = some (.ok P) ∧
      polymerSolve exSlab (blocks exSlab (fun _ => 1) (fun _ => 1) (fun _ => 3) (fun _ _ => 1)) [(0, 1)]
        P.vertices P.plan = .ok (st, Q) ∧
      blockConc (blocks exSlab (fun _ => 1) (fun _ => 1) (fun _ => 3) (fun _ _ => 1)) st 1 Q 1 0 =
        some c ∧ (∀ i < exSlab.nx, c i = 1) ∧
      freeEnergy (M := 1) exSlab [⟨1, Real.log (1 / Q), 1⟩] (fun _ _ => 0) (fun _ _ => 1) (fun _ => c) =
        .ok t ∧ -1 / 1 < t.fHelmholtz :=
  C108_gauge_violated exSlab_ok 1 1 1 3 one_pos (by norm_num) one_pos (by norm_num [halfStep])

/-- A star of three blocks in uniform fields of both signs: `Q = (3/5)² · 1 · (5/3)²` with two steps per block. -/
example : ∃ (P : Polymer) (st : Pid → Option (Nat → Nat → ℝ)) (Q : ℝ),
    polymerSolve exSlab (blocks exSlab (fun _ => 2) (fun _ => 1) (fun _ => 3)
      (fun k _ => if k = 0 then 1 / 2 else if k = 1 then 0 else -(1 / 2))) [(0, 1), (1, 2), (3, 1)]
      P.vertices P.plan = .ok (st, Q) ∧ Q = (3 / 5) ^ 2 * 1 * (5 / 3) ^ 2 := by
  obtain ⟨P, hP⟩ : ∃ P, readTopology [(0, 1), (1, 2), (3, 1)] 6 = some (.ok P) := ⟨_, rfl⟩
  have hu : UniOk exSlab (fun _ => 2) (fun _ => 3)
      (fun k => if k = 0 then 1 / 2 else if k = 1 then 0 else -(1 / 2)) [(0, 1), (1, 2), (3, 1)] 6 P := by
    refine ⟨exSlab_ok, hP, fun _ _ => by norm_num, fun _ _ => by norm_num, fun k _ => ?_⟩
    unfold halfStep
    split
    · norm_num [abs_lt]
    · split <;> norm_num [abs_lt]
  obtain ⟨st, Q, h1, h2, _⟩ := C108_uniform_polymer (kuhn := fun _ => 1) hu (by simp) 1 6
  refine ⟨P, st, Q, h1, ?_⟩
  rw [h2]
  simp only [List.length_cons, List.length_nil, Nat.reduceAdd]
  norm_num [Fin.prod_univ_succ, halfStep]

/-- Comparison of a blend of two homopolymers of lengths 1 and 3. -/
example : ∃ h, homCompute (m := 1) (M := 2) ![[⟨0, 1⟩], [⟨1, 3⟩]] (fun i j => if i = j then 0 else 2)
    (fun _ _ => 0) 2 ![1 / 4, 3 / 4] (fun _ => 0) (fun _ _ => 0) 0 = .ok h ∧ h.phi = ![1 / 4, 3 / 4] := by
  obtain ⟨h, hh⟩ := C108_compare_accepts (m := 1) (M := 2) ![[⟨0, 1⟩], [⟨1, 3⟩]]
    (fun i j => if i = j then 0 else 2) (fun _ _ => 0) 2 ![1 / 4, 3 / 4] (fun _ => 0) (fun _ _ => 0)
    (by norm_num) (by simp [Fin.sum_univ_succ]; norm_num)
    (fun i => by fin_cases i <;> norm_num)
    (fun i c hc => by fin_cases i <;> simp at hc <;> subst hc <;> norm_num)
    (fun i => by fin_cases i <;> simp [FH.molSize])
  exact ⟨h, hh, (C108_compare_same_composition _ _ _ _ _ _ _ (by norm_num)
    (by simp [Fin.sum_univ_succ]; norm_num) h hh).1⟩

/-- Stale free energy: fields are numbers, the mixture doubles them, the free energy is the sum. -/
example : ((Sys.init () 1 : Sys Unit Nat Nat Nat).runs ⟨fun _ w => 2 * w, fun _ w s => w + s, fun _ w => (true, w, 2 * w)⟩
    [.iterate, .readW 5, .compute]).th = some 3 := rfl

end Verif.R1d
