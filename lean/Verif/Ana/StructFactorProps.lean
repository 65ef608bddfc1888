import Verif.Ana.StructFactor
import Verif.Ana.GaussLemmas
import Verif.Solver.DftProps
import Verif.Fts.EigenProps
import Verif.Tac

/-!
# C111: structure factors

The fields are distributed with the Hamiltonian of the simulator (`C111_hamiltonian`); molecules are represented by
a finite set of configurations with weights, whose partition function in given fields is the ideal part of the
Hamiltonian.
-/

set_option autoImplicit false
set_option linter.unusedSectionVars false
open MeasureTheory ProbabilityTheory

namespace Verif.Ana
open Verif.Solver Verif.Fts

section Field
variable {m n : Nat} {N : Fin (m + 1) → ℕ} [∀ d, NeZero (N d)]

theorem normSq_wave (k x : Grid N) : Complex.normSq (wave k x) = 1 := by
  have h : wave k x * (starRingEnd ℂ) (wave k x) = 1 := by
    rw [← wave_neg, ← wave_add, add_neg_cancel]
    simp [wave]
  rw [Complex.mul_conj] at h
  exact_mod_cast h

/-- Real and imaginary parts of the factors of the transform. -/
noncomputable def cRe (en : Fin n ≃ Grid N) (k : Half N) (r : Fin n) : ℝ := (wave k.1 (en r)).re / n
noncomputable def cIm (en : Fin n ≃ Grid N) (k : Half N) (r : Fin n) : ℝ := -(wave k.1 (en r)).im / n

theorem normSq_r2c (en : Fin n ≃ Grid N) (f : Fin n → ℝ) (k : Half N) :
    Complex.normSq (r2c en f k) = (∑ r, cRe en k r * f r) ^ 2 + (∑ r, cIm en k r * f r) ^ 2 := by
  rw [Complex.normSq_apply]
  have h1 : (r2c en f k).re = ∑ r, cRe en k r * f r := by
    unfold r2c cRe
    rw [Complex.re_mul_ofReal, Complex.re_sum, Finset.sum_mul]
    refine Finset.sum_congr rfl fun r _ => ?_
    rw [Complex.re_ofReal_mul, Complex.conj_re]
    ring
  have h2 : (r2c en f k).im = ∑ r, cIm en k r * f r := by
    unfold r2c cIm
    rw [Complex.im_mul_ofReal, Complex.im_sum, Finset.sum_mul]
    refine Finset.sum_congr rfl fun r _ => ?_
    rw [Complex.im_ofReal_mul, Complex.conj_im]
    ring
  rw [h1, h2]
  ring

theorem sum_c_sq (en : Fin n ≃ Grid N) (k : Half N) :
    ∑ r, cRe en k r ^ 2 + ∑ r, cIm en k r ^ 2 = 1 / n := by
  rw [← Finset.sum_add_distrib]
  have : ∀ r, cRe en k r ^ 2 + cIm en k r ^ 2 = 1 / (n : ℝ) ^ 2 := by
    intro r
    have h := normSq_wave k.1 (en r)
    rw [Complex.normSq_apply] at h
    unfold cRe cIm
    rw [div_pow, div_pow, ← add_div, ← h]
    ring
  rw [Finset.sum_congr rfl fun r _ => this r, Finset.sum_const, Finset.card_univ, Fintype.card_fin, nsmul_eq_mul]
  by_cases hn : (n : ℝ) = 0
  · rw [hn]; simp
  · field_simp

/-- Average of the sampled value for Gaussian fields. -/
theorem gW_mode {a : ℝ} (ha : 0 < a) (en : Fin n ≃ Grid N) (k : Half N) (mean : Fin n → ℝ) :
    ∫ W, Complex.normSq (r2c en W k) * gW a mean W =
      Real.sqrt (Real.pi / a) ^ n * (Complex.normSq (r2c en mean k) + 1 / (2 * a * n)) ∧
    Integrable (fun W : Fin n → ℝ => Complex.normSq (r2c en W k) * gW a mean W) := by
  obtain ⟨a1, a2⟩ := gW_lin ha mean (cRe en k)
  obtain ⟨b1, b2⟩ := gW_lin ha mean (cIm en k)
  simp only [normSq_r2c, add_mul]
  refine ⟨?_, a2.add b2⟩
  rw [integral_add a2 b2, a1, b1]
  have := sum_c_sq en k
  have e : (1 : ℝ) / (2 * a * n) = (∑ r, cRe en k r ^ 2 + ∑ r, cIm en k r ^ 2) / (2 * a) := by
    rw [this, div_div]
    ring_nf
  rw [e]
  ring

/-! ## Distribution of the fields of a binary system -/

/-- Effective interaction parameter of a binary system. -/
noncomputable def chiE (chi : Mat 1) : ℝ := chi 0 1 - (chi 0 0 + chi 1 1) / 2

/-- Shift of the exchange field. -/
noncomputable def sAB (chi : Mat 1) : ℝ := (chi 0 0 - chi 1 1) / 4

theorem sum2 (f : Fin (1 + 1) → ℝ) : ∑ i, f i = f 0 + f 1 := Fin.sum_univ_two f

/-- The Hamiltonian computed by the simulator for two monomer types is a quadratic function of `W-` with coefficient
`1/chiE`, apart from the part of the molecules. -/
theorem C111_hamiltonian {chi : Mat 1} (hs : chi 1 0 = chi 0 1) {e : Eig 1} (he : EigGood chi e) (V v : ℝ) (species : List Spec)
    (w : Flds 1 n) : hamiltonianF V v species e (computeWcF e w) =
      -(V / v) * (lnQSpecies species 0 + (∑ i, (w 0 i + w 1 i) / 2) / n) +
      V / v * ((∑ i, (wMinus (w 0) (w 1) i - sAB chi) ^ 2 / chiE chi) / n + (chi 0 0 + chi 1 1 + 2 * chi 0 1) / 8) := by
  have hl0 : e.vec 1 0 = 1 := he.last 0
  have hl1 : e.vec 1 1 = 1 := he.last 1
  have ho := he.ortho 0 1
  have hoo := he.ortho 0 0
  simp only [sum2, hl0, hl1, mul_one, nM] at ho hoo
  norm_num at ho hoo
  have hv1 : e.vec 0 1 = -e.vec 0 0 := by linarith
  have hv0 : e.vec 0 0 * e.vec 0 0 = 1 := by
    rw [hv1] at hoo
    nlinarith
  have hval : e.val 0 = -chiE chi := by
    have h0 := he.eig 0 0
    simp only [sum2, chiPM, chiT, accum_eq, projP, nM] at h0
    rw [hv1] at h0
    norm_num [hs] at h0
    unfold chiE
    have hne : e.vec 0 0 ≠ 0 := by
      intro h; rw [h] at hv0; norm_num at hv0
    refine mul_right_cancel₀ hne ?_
    rw [← h0]
    ring
  have hsc0 : e.sc 0 = e.vec 0 0 * sAB chi := by
    rw [he.sc 0]
    simp only [sum2, nM, hv1, hs, sAB]
    push_cast
    ring
  have hsc1 : e.sc 1 = (chi 0 0 + chi 1 1 + 2 * chi 0 1) / 4 := by
    rw [he.sc 1]
    simp only [sum2, nM, hl0, hl1, hs]
    push_cast
    ring
  unfold hamiltonianF
  simp only [accum_eq, Fin.sum_univ_one, zero_add]
  have e1 : ∀ i, computeWcF e w (Fin.last 1) i = (w 0 i + w 1 i) / 2 := by
    intro i
    simp only [computeWcF, accum_eq, sum2, zero_add, show (Fin.last 1 : Fin 2) = 1 from rfl, hl0, hl1, nM]
    push_cast
    ring
  have e0 : ∀ i, computeWcF e w 0 i = e.vec 0 0 * wMinus (w 0) (w 1) i := by
    intro i
    simp only [computeWcF, accum_eq, sum2, zero_add, hv1, nM, wMinus]
    push_cast
    ring
  simp only [show (Fin.castSucc (0 : Fin 1)) = (0 : Fin 2) from rfl, e1, e0, hsc0, hval]
  rw [show (Fin.last 1 : Fin 2) = 1 from rfl, hsc1]
  have e2 : ∀ i, (-(1 / 2) * nM 1 / -chiE chi) * (e.vec 0 0 * wMinus (w 0) (w 1) i - e.vec 0 0 * sAB chi) *
      (e.vec 0 0 * wMinus (w 0) (w 1) i - e.vec 0 0 * sAB chi) = (wMinus (w 0) (w 1) i - sAB chi) ^ 2 / chiE chi := by
    intro i
    have : (e.vec 0 0 * wMinus (w 0) (w 1) i - e.vec 0 0 * sAB chi) *
      (e.vec 0 0 * wMinus (w 0) (w 1) i - e.vec 0 0 * sAB chi) = (wMinus (w 0) (w 1) i - sAB chi) ^ 2 := by
      have : (e.vec 0 0 * wMinus (w 0) (w 1) i - e.vec 0 0 * sAB chi) *
        (e.vec 0 0 * wMinus (w 0) (w 1) i - e.vec 0 0 * sAB chi) = (e.vec 0 0 * e.vec 0 0) * (wMinus (w 0) (w 1) i - sAB chi) ^ 2 := by ring
      rw [this, hv0, one_mul]
    rw [mul_assoc, this, nM]
    push_cast
    rw [div_neg, neg_mul]
    ring
  simp only [e2]
  rw [← Finset.sum_div]
  ring

variable {Ω : Type} [Fintype Ω]

/-- Concentrations of an incompressible configuration with volume fractions `phi` of the first monomer. -/
def conc (phi : ℝ) : Fin 2 → ℝ := fun k => if k = 0 then phi else 1 - phi

/-- Statistical weight of molecular configuration `o`: weight `p` without interaction, `phi` volume fraction of the
first monomer type on the grid, `nm` number of monomers in the system. -/
noncomputable def boltz (nm : ℝ) (chi : Mat 1) (p : Ω → ℝ) (phi : Ω → Fin n → ℝ) (o : Ω) : ℝ :=
  p o * Real.exp (-(nm / n) * ∑ r, 1 / 2 * ∑ k, ∑ l, chi k l * conc (phi o r) k * conc (phi o r) l)

/-- Statistical weight of the exchange field `W`: Gaussian part of `C111_hamiltonian`, and partition function of the
molecules without interaction in the fields `±W`. -/
noncomputable def fieldWeight (nm : ℝ) (chi : Mat 1) (p : Ω → ℝ) (phi : Ω → Fin n → ℝ) (W : Fin n → ℝ) : ℝ :=
  Real.exp (-(nm * ((∑ r, (W r - sAB chi) ^ 2 / chiE chi) / n))) *
    ∑ o, p o * Real.exp (-(nm / n) * ∑ r, (W r * phi o r + -W r * (1 - phi o r)))

theorem fieldWeight_eq (en : Fin n ≃ Grid N) {nm : ℝ} {chi : Mat 1} (hs : chi 1 0 = chi 0 1) (hc : chiE chi ≠ 0) (p : Ω → ℝ)
    (phi : Ω → Fin n → ℝ) (W : Fin n → ℝ) :
    fieldWeight nm chi p phi W = ∑ o, Real.exp (nm * ((chi 0 0 + chi 1 1 + 2 * chi 0 1) / 8)) * boltz nm chi p phi o *
      gW (nm / (n * chiE chi)) (fun r => sAB chi - chiE chi * (phi o r - 1 / 2)) W := by
  have hn : (n : ℝ) ≠ 0 := n_ne en
  unfold fieldWeight boltz gW gw
  rw [Finset.mul_sum]
  refine Finset.sum_congr rfl fun o _ => ?_
  rw [← Real.exp_sum, show ∀ a b c d : ℝ, a * (b * c) * d = b * (a * c * d) by intros; ring,
    show ∀ a b c : ℝ, a * (b * c) = b * (a * c) by intros; ring, ← Real.exp_add, ← Real.exp_add, ← Real.exp_add]
  congr 2
  have hcst : nm * ((chi 0 0 + chi 1 1 + 2 * chi 0 1) / 8) = ∑ r : Fin n, nm / n * ((chi 0 0 + chi 1 1 + 2 * chi 0 1) / 8) := by
    rw [Finset.sum_const, Finset.card_univ, Fintype.card_fin, nsmul_eq_mul]
    field_simp
  rw [hcst, Finset.mul_sum, Finset.mul_sum, ← Finset.sum_add_distrib, ← Finset.sum_add_distrib]
  rw [Finset.sum_div, Finset.mul_sum, ← Finset.sum_neg_distrib]
  rw [← Finset.sum_add_distrib]
  refine Finset.sum_congr rfl fun r _ => ?_
  simp only [sum2, conc, if_true, Fin.isValue, one_ne_zero, if_false, hs]
  have hE : chi 0 1 = chiE chi + (chi 0 0 + chi 1 1) / 2 := by unfold chiE; ring
  rw [hE]
  unfold sAB
  field_simp
  ring

/-- Average over the distribution of the exchange field. -/
noncomputable def fieldAverage (nm : ℝ) (chi : Mat 1) (p : Ω → ℝ) (phi : Ω → Fin n → ℝ) (f : (Fin n → ℝ) → ℝ) : ℝ :=
  (∫ W, f W * fieldWeight nm chi p phi W) / ∫ W, fieldWeight nm chi p phi W

/-- Average over molecular configurations. -/
noncomputable def molAverage (nm : ℝ) (chi : Mat 1) (p : Ω → ℝ) (phi : Ω → Fin n → ℝ) (f : Ω → ℝ) : ℝ :=
  (∑ o, boltz nm chi p phi o * f o) / ∑ o, boltz nm chi p phi o

theorem boltz_sum_pos (nm : ℝ) (chi : Mat 1) {p : Ω → ℝ} (hp : ∀ o, 0 ≤ p o) (hp1 : ∃ o, 0 < p o) (phi : Ω → Fin n → ℝ) :
    0 < ∑ o, boltz nm chi p phi o := by
  obtain ⟨o, ho⟩ := hp1
  exact Finset.sum_pos' (fun o _ => mul_nonneg (hp o) (Real.exp_pos _).le) ⟨o, Finset.mem_univ _, mul_pos ho (Real.exp_pos _)⟩

/-- Average of the squared magnitude of a Fourier component of the exchange field. -/
theorem average_mode (en : Fin n ≃ Grid N) (k : Half N) {nm : ℝ} (hnm : 0 < nm) {chi : Mat 1} (hs : chi 1 0 = chi 0 1)
    (hc : 0 < chiE chi) {p : Ω → ℝ} (hp : ∀ o, 0 ≤ p o) (hp1 : ∃ o, 0 < p o) (phi : Ω → Fin n → ℝ) :
    fieldAverage nm chi p phi (fun W => Complex.normSq (r2c en W k)) =
      molAverage nm chi p phi (fun o => Complex.normSq (r2c en (fun r => sAB chi - chiE chi * (phi o r - 1 / 2)) k)) +
        chiE chi / (2 * nm) := by
  have hn : (n : ℝ) ≠ 0 := n_ne en
  have hn0 : (0 : ℝ) < n := lt_of_le_of_ne (Nat.cast_nonneg n) (Ne.symm hn)
  have ha : 0 < nm / (n * chiE chi) := by positivity
  set E := Real.exp (nm * ((chi 0 0 + chi 1 1 + 2 * chi 0 1) / 8)) with hE
  set mean : Ω → Fin n → ℝ := fun o r => sAB chi - chiE chi * (phi o r - 1 / 2) with hmean
  have hE0 : 0 < E := Real.exp_pos _
  have e0 : ∫ W, fieldWeight nm chi p phi W =
      E * Real.sqrt (Real.pi / (nm / (n * chiE chi))) ^ n * ∑ o, boltz nm chi p phi o := by
    simp only [fieldWeight_eq en hs hc.ne' p phi]
    rw [integral_finsetSum _ fun o _ => (gW_int0 ha (mean o)).const_mul _]
    rw [Finset.mul_sum]
    refine Finset.sum_congr rfl fun o _ => ?_
    rw [integral_const_mul, gW_zero ha]
    ring
  have e1 : ∫ W, Complex.normSq (r2c en W k) * fieldWeight nm chi p phi W =
      E * Real.sqrt (Real.pi / (nm / (n * chiE chi))) ^ n * (∑ o, boltz nm chi p phi o *
        (Complex.normSq (r2c en (mean o) k) + chiE chi / (2 * nm))) := by
    have e : ∀ W : Fin n → ℝ, Complex.normSq (r2c en W k) * fieldWeight nm chi p phi W =
        ∑ o, E * boltz nm chi p phi o * (Complex.normSq (r2c en W k) * gW (nm / (n * chiE chi)) (mean o) W) := by
      intro W
      rw [fieldWeight_eq en hs hc.ne' p phi, Finset.mul_sum]
      refine Finset.sum_congr rfl fun o _ => ?_
      ring
    simp only [e]
    rw [integral_finsetSum _ fun o _ => (gW_mode ha en k (mean o)).2.const_mul _, Finset.mul_sum]
    refine Finset.sum_congr rfl fun o _ => ?_
    rw [integral_const_mul, (gW_mode ha en k (mean o)).1]
    have : (1 : ℝ) / (2 * (nm / (n * chiE chi)) * n) = chiE chi / (2 * nm) := by field_simp
    rw [this]
    ring
  have hpos := boltz_sum_pos nm chi hp hp1 phi
  have hz : 0 < E * Real.sqrt (Real.pi / (nm / (n * chiE chi))) ^ n := by positivity
  unfold fieldAverage molAverage
  rw [e0, e1, mul_div_mul_left _ _ hz.ne']
  simp only [mul_add, Finset.sum_add_distrib]
  rw [← Finset.sum_mul, add_div, mul_div_assoc, mul_comm (∑ o, boltz nm chi p phi o), div_mul_cancel₀ _ hpos.ne']

/-- A constant has no Fourier component with nonzero wavevector. -/
theorem r2c_affine (en : Fin n ≃ Grid N) {k : Half N} (hk : k.1 ≠ 0) (a b : ℝ) (f : Fin n → ℝ) :
    Complex.normSq (r2c en (fun r => a - b * (f r - 1 / 2)) k) = b ^ 2 * Complex.normSq (r2c en f k) := by
  have h0 : ∑ i, (starRingEnd ℂ) (wave k.1 (en i)) = 0 := by
    rw [← map_sum, en.sum_comp (fun x => wave k.1 x)]
    have := sum_wave k.1
    rw [if_neg hk] at this
    rw [show ∑ x, wave k.1 x = ∑ x, wave x k.1 from Finset.sum_congr rfl fun x _ => wave_comm _ _, this, map_zero]
  have : r2c en (fun r => a - b * (f r - 1 / 2)) k = ((-b : ℝ) : ℂ) * r2c en f k := by
    unfold r2c
    have e : ∀ i, ((a - b * (f i - 1 / 2) : ℝ) : ℂ) * (starRingEnd ℂ) (wave k.1 (en i)) =
        ((a + b / 2 : ℝ) : ℂ) * (starRingEnd ℂ) (wave k.1 (en i)) +
          ((-b : ℝ) : ℂ) * ((f i : ℂ) * (starRingEnd ℂ) (wave k.1 (en i))) := by
      intro i
      push_cast
      ring
    simp only [e]
    rw [Finset.sum_add_distrib, ← Finset.mul_sum, h0, mul_zero, zero_add, ← Finset.mul_sum, mul_assoc]
  rw [this, Complex.normSq_mul, Complex.normSq_ofReal]
  ring

/-- **C111**, structure factor, any interaction: value computed for a wavevector other than zero, in terms of the
fluctuations of the volume fraction of the first monomer type. -/
theorem C111_structure_factor_general (en : Fin n ≃ Grid N) {k : Half N} (hk : k.1 ≠ 0) {V v : ℝ} (hV : 0 < V)
    (hv : 0 < v) {chi : Mat 1} (hs : chi 1 0 = chi 0 1) (hc : 0 < chiE chi) (h01 : chi 0 1 ≠ 0) {p : Ω → ℝ}
    (hp : ∀ o, 0 ≤ p o) (hp1 : ∃ o, 0 < p o) (phi : Ω → Fin n → ℝ) (wp : Fin n → ℝ) :
    structureFactor V v (chi 0 1) (fieldAverage (V / v) chi p phi fun W => sampleValue en (wp + W) (wp - W) k) =
      (chiE chi / chi 0 1) ^ 2 * (V / v ^ 2 * molAverage (V / v) chi p phi fun o => Complex.normSq (r2c en (phi o) k)) +
        (chiE chi - chi 0 1) / (2 * chi 0 1 ^ 2 * v) := by
  have e : ∀ W : Fin n → ℝ, sampleValue en (wp + W) (wp - W) k = Complex.normSq (r2c en W k) := by
    intro W
    unfold sampleValue
    congr 2
    funext i
    simp only [wMinus, Pi.add_apply, Pi.sub_apply]
    ring
  simp only [e]
  rw [average_mode en k (div_pos hV hv) hs hc hp hp1 phi]
  simp only [r2c_affine en hk]
  have : molAverage (V / v) chi p phi (fun o => chiE chi ^ 2 * Complex.normSq (r2c en (phi o) k)) =
      chiE chi ^ 2 * molAverage (V / v) chi p phi fun o => Complex.normSq (r2c en (phi o) k) := by
    unfold molAverage
    rw [← mul_div_assoc, Finset.mul_sum]
    congr 1
    refine Finset.sum_congr rfl fun o _ => ?_
    ring
  rw [this]
  unfold structureFactor
  simp only
  field_simp
  ring

/-- **C111**, structure factor: if the diagonal elements of chi vanish (or add up to zero), the value computed for a
wavevector other than zero from fields distributed according to the Hamiltonian is the structure factor
`(V/v²) <|phi_A(k)|²>` of the molecules, for any pressure field `wp`. -/
theorem C111_structure_factor_partial (en : Fin n ≃ Grid N) {k : Half N} (hk : k.1 ≠ 0) {V v : ℝ} (hV : 0 < V)
    (hv : 0 < v) {chi : Mat 1} (hs : chi 1 0 = chi 0 1) (hd : chi 0 0 + chi 1 1 = 0) (hc : 0 < chi 0 1) {p : Ω → ℝ}
    (hp : ∀ o, 0 ≤ p o) (hp1 : ∃ o, 0 < p o) (phi : Ω → Fin n → ℝ) (wp : Fin n → ℝ) :
    structureFactor V v (chi 0 1) (fieldAverage (V / v) chi p phi fun W => sampleValue en (wp + W) (wp - W) k) =
      V / v ^ 2 * molAverage (V / v) chi p phi fun o => Complex.normSq (r2c en (phi o) k) := by
  have he : chiE chi = chi 0 1 := by unfold chiE; rw [hd]; ring
  rw [C111_structure_factor_general en hk hV hv hs (he ▸ hc) hc.ne' hp hp1 phi wp, he]
  field_simp
  ring

/-- **C111 is violated** if the diagonal elements of chi do not add up to zero: for molecules without any fluctuation
the structure factor vanishes, but the value computed does not. -/
theorem C111_diagonal_violated (en : Fin n ≃ Grid N) {k : Half N} (hk : k.1 ≠ 0) {V v : ℝ} (hV : 0 < V)
    (hv : 0 < v) {chi : Mat 1} (hs : chi 1 0 = chi 0 1) (hd : chi 0 0 + chi 1 1 ≠ 0) (hc : 0 < chiE chi)
    (h01 : chi 0 1 ≠ 0) (wp : Fin n → ℝ) :
    (V / v ^ 2 * molAverage (V / v) chi (fun _ : Unit => 1) (fun _ (_ : Fin n) => 1 / 2) fun _ =>
      Complex.normSq (r2c en (fun _ => 1 / 2) k)) = 0 ∧
    structureFactor V v (chi 0 1) (fieldAverage (V / v) chi (fun _ : Unit => 1) (fun _ _ => 1 / 2)
      fun W => sampleValue en (wp + W) (wp - W) k) ≠ 0 := by
  have hz : Complex.normSq (r2c en (fun _ : Fin n => (1 / 2 : ℝ)) k) = 0 := by
    have := r2c_affine en hk (1 / 2) 0 (fun _ => 0)
    simpa using this
  have h1 : (V / v ^ 2 * molAverage (V / v) chi (fun _ : Unit => 1) (fun _ (_ : Fin n) => 1 / 2) fun _ =>
      Complex.normSq (r2c en (fun _ => 1 / 2) k)) = 0 := by
    unfold molAverage
    simp only [hz, mul_zero, Finset.sum_const_zero, zero_div]
  refine ⟨h1, ?_⟩
  rw [C111_structure_factor_general en hk hV hv hs hc h01 (fun _ => zero_le_one) ⟨(), zero_lt_one⟩ _ wp, h1, mul_zero, zero_add]
  refine div_ne_zero ?_ (by positivity)
  unfold chiE
  intro h
  apply hd
  linarith

/-- **C111**, any wavevector, without diagonal elements of chi: the fluctuations are those around equal volume
fractions; for the wavevector zero the mean composition is not subtracted. -/
theorem C111_all_waves (en : Fin n ≃ Grid N) (k : Half N) {V v : ℝ} (hV : 0 < V) (hv : 0 < v) {chi : Mat 1}
    (hs : chi 1 0 = chi 0 1) (hd0 : chi 0 0 = 0) (hd1 : chi 1 1 = 0) (hc : 0 < chi 0 1) {p : Ω → ℝ}
    (hp : ∀ o, 0 ≤ p o) (hp1 : ∃ o, 0 < p o) (phi : Ω → Fin n → ℝ) :
    structureFactor V v (chi 0 1) (fieldAverage (V / v) chi p phi fun W => sampleValue en W (-W) k) =
      V / v ^ 2 * molAverage (V / v) chi p phi fun o => Complex.normSq (r2c en (fun r => phi o r - 1 / 2) k) := by
  have he : chiE chi = chi 0 1 := by unfold chiE; rw [hd0, hd1]; ring
  have hs0 : sAB chi = 0 := by unfold sAB; rw [hd0, hd1]; ring
  have e : ∀ W : Fin n → ℝ, sampleValue en W (-W) k = Complex.normSq (r2c en W k) := by
    intro W
    unfold sampleValue
    congr 2
    funext i
    simp only [wMinus, Pi.neg_apply]
    ring
  simp only [e]
  rw [average_mode en k (div_pos hV hv) hs (he ▸ hc) hp hp1 phi, he, hs0]
  have e2 : ∀ o, Complex.normSq (r2c en (fun r => 0 - chi 0 1 * (phi o r - 1 / 2)) k) =
      chi 0 1 ^ 2 * Complex.normSq (r2c en (fun r => phi o r - 1 / 2) k) := by
    intro o
    have : r2c en (fun r => 0 - chi 0 1 * (phi o r - 1 / 2)) k =
        ((-chi 0 1 : ℝ) : ℂ) * r2c en (fun r => phi o r - 1 / 2) k := by
      unfold r2c
      rw [← mul_assoc, Finset.mul_sum]
      congr 1
      refine Finset.sum_congr rfl fun i _ => ?_
      push_cast
      ring
    rw [this, Complex.normSq_mul, Complex.normSq_ofReal]
    ring
  simp only [e2]
  have : molAverage (V / v) chi p phi (fun o => chi 0 1 ^ 2 * Complex.normSq (r2c en (fun r => phi o r - 1 / 2) k)) =
      chi 0 1 ^ 2 * molAverage (V / v) chi p phi fun o => Complex.normSq (r2c en (fun r => phi o r - 1 / 2) k) := by
    unfold molAverage
    rw [← mul_div_assoc, Finset.mul_sum]
    congr 1
    refine Finset.sum_congr rfl fun o _ => ?_
    ring
  rw [this]
  unfold structureFactor
  simp only
  field_simp
  ring_nf

/-- Two grid points, one wave, two configurations of the molecules. -/
example (wp : Fin 2 → ℝ) :
    structureFactor 10 1 2 (fieldAverage (n := 2) (10 / 1) (fun i j => if i = j then 0 else 2) (fun _ : Bool => 1)
        (fun o r => if (r = 0) = (o = true) then 1 else 0) fun W =>
          sampleValue (N := fun _ : Fin 1 => 2) (Equiv.funUnique (Fin 1) (ZMod 2)).symm (wp + W) (wp - W) ⟨1, by decide⟩) =
      10 / 1 ^ 2 * molAverage (n := 2) (10 / 1) (fun i j => if i = j then 0 else 2) (fun _ : Bool => 1)
        (fun o r => if (r = 0) = (o = true) then 1 else 0) fun o => Complex.normSq
          (r2c (N := fun _ : Fin 1 => 2) (Equiv.funUnique (Fin 1) (ZMod 2)).symm
            (fun r => if (r = 0) = (o = true) then 1 else 0) ⟨1, by decide⟩) :=
  C111_structure_factor_partial (chi := fun i j => if i = j then 0 else 2) _ (by decide) (by norm_num) (by norm_num) (by simp)
    (by simp) (by norm_num) (fun _ => zero_le_one) ⟨true, zero_lt_one⟩ _ wp

end Field

/-! ## Averages over shells of equal magnitude -/

section Shells

variable {K : Type} [Field K] [LinearOrder K] [IsStrictOrderedRing K]

/-- Waves whose magnitude is `q`. -/
def shell (waves : List (K × K)) (q : K) : List (K × K) := waves.filter fun w => w.1 = q

/-- Mean value of a list of waves. -/
def waveMean (l : List (K × K)) : K := (l.map Prod.snd).sum / (l.length : K)

/-- Keys increase. -/
def Inc (l : List (K × K)) : Prop := l.Pairwise fun a b => a.1 < b.1

theorem mem_mapAdd (q s : K) : ∀ (l : List (K × K)) (e : K × K), e ∈ mapAdd q s l →
    e.1 = q ∨ e ∈ l
  | [], e, h => by
    rw [mapAdd, List.mem_singleton] at h
    left; rw [h]
  | (q', t) :: l, e, h => by
    rw [mapAdd] at h
    split at h
    · rcases List.mem_cons.1 h with rfl | h
      · left; rfl
      · right; exact h
    · split at h
      · rename_i he
        rcases List.mem_cons.1 h with rfl | h
        · left; exact he.symm
        · right; exact List.mem_cons_of_mem _ h
      · rcases List.mem_cons.1 h with rfl | h
        · right; exact List.mem_cons_self ..
        · rcases mem_mapAdd q s l e h with h | h
          · left; exact h
          · right; exact List.mem_cons_of_mem _ h

theorem inc_mapAdd (q s : K) : ∀ (l : List (K × K)), Inc l → Inc (mapAdd q s l)
  | [], _ => by simp [mapAdd, Inc]
  | (q', t) :: l, h => by
    have h' := List.pairwise_cons.1 h
    rw [mapAdd]
    split
    · rename_i hlt
      refine List.pairwise_cons.2 ⟨fun e he => ?_, h⟩
      rcases List.mem_cons.1 he with rfl | he
      · exact hlt
      · exact hlt.trans (h'.1 e he)
    · split
      · exact List.pairwise_cons.2 ⟨h'.1, h'.2⟩
      · rename_i h1 h2
        refine List.pairwise_cons.2 ⟨fun e he => ?_, inc_mapAdd q s l h'.2⟩
        rcases mem_mapAdd q s l e he with he | he
        · rw [he]
          exact lt_of_le_of_ne (not_lt.1 h1) (Ne.symm h2)
        · exact h'.1 e he

/-- Sum of the values stored for key `k` (zero if there is none). -/
def valAt (l : List (K × K)) (k : K) : K := ((shell l k).map Prod.snd).sum

theorem valAt_mapAdd (q s k : K) : ∀ (l : List (K × K)),
    valAt (mapAdd q s l) k = valAt l k + if q = k then s else 0
  | [] => by
    simp only [mapAdd, valAt, shell]
    by_cases h : q = k <;> simp [h]
  | (q', t) :: l => by
    rw [mapAdd]
    split
    · simp only [valAt, shell, List.filter_cons]
      by_cases h : q = k <;> simp [h]
      ring
    · split
      · rename_i h2
        subst h2
        simp only [valAt, shell, List.filter_cons]
        by_cases h : q = k <;> simp [h]
        ring
      · have ih := valAt_mapAdd q s k l
        simp only [valAt, shell, List.filter_cons] at ih ⊢
        by_cases h : q' = k <;> simp [h]
        · rw [ih]; ring
        · simpa using ih

theorem key_mapAdd (q s k : K) : ∀ (l : List (K × K)),
    (∃ e ∈ mapAdd q s l, e.1 = k) ↔ (∃ e ∈ l, e.1 = k) ∨ q = k
  | [] => by simp [mapAdd]
  | (q', t) :: l => by
    rw [mapAdd]
    split
    · simp only [List.mem_cons, exists_eq_or_imp]
      exact or_comm
    · split
      · rename_i h
        subst h
        simp only [List.mem_cons, exists_eq_or_imp]
        rw [or_comm (b := q = k), ← or_assoc, or_self]
      · simp only [List.mem_cons, exists_eq_or_imp, key_mapAdd q s k l]
        exact or_assoc.symm

theorem foldl_mapAdd (waves : List (K × K)) : ∀ (acc : List (K × K)), Inc acc →
    let r := waves.foldl (fun m w => mapAdd w.1 w.2 m) acc
    Inc r ∧ (∀ k, valAt r k = valAt acc k + valAt waves k) ∧
    ∀ k, (∃ e ∈ r, e.1 = k) ↔ (∃ e ∈ acc, e.1 = k) ∨ ∃ w ∈ waves, w.1 = k := by
  induction waves with
  | nil => intro acc h; exact ⟨h, by simp [valAt, shell], by simp⟩
  | cons w ws ih =>
    intro acc h
    obtain ⟨h1, h2, h3⟩ := ih (mapAdd w.1 w.2 acc) (inc_mapAdd _ _ _ h)
    refine ⟨h1, fun k => ?_, fun k => ?_⟩
    · simp only [List.foldl_cons]
      rw [h2, valAt_mapAdd]
      simp only [valAt, shell, List.filter_cons]
      by_cases hk : w.1 = k <;> simp [hk]
      ring
    · simp only [List.foldl_cons]
      rw [h3, key_mapAdd]
      simp only [List.mem_cons, exists_eq_or_imp]
      exact or_assoc

theorem valAt_of_mem {l : List (K × K)} (h : Inc l) {e : K × K} (he : e ∈ l) : valAt l e.1 = e.2 := by
  induction l with
  | nil => cases he
  | cons a l ih =>
    have h' := List.pairwise_cons.1 h
    simp only [valAt, shell, List.filter_cons] at *
    rcases List.mem_cons.1 he with rfl | he
    · have : l.filter (fun w => decide (w.1 = e.1)) = [] := by
        rw [List.filter_eq_nil_iff]
        intro x hx
        simpa using (h'.1 x hx).ne'
      simp [this]
    · have hne : a.1 ≠ e.1 := (h'.1 e he).ne
      simp [hne]
      simpa using ih h'.2 he

/-- The map after the second loop: one entry for each magnitude, with the mean of its waves. -/
theorem meanMap_spec (waves : List (K × K)) :
    Inc (meanMap waves) ∧ (∀ e ∈ meanMap waves, e.2 = waveMean (shell waves e.1)) ∧
    ∀ k, (∃ e ∈ meanMap waves, e.1 = k) ↔ ∃ w ∈ waves, w.1 = k := by
  obtain ⟨h1, h2, h3⟩ := foldl_mapAdd waves [] (by simp [Inc])
  refine ⟨?_, ?_, ?_⟩
  · unfold meanMap Inc
    rw [List.pairwise_map]
    exact h1
  · intro e he
    unfold meanMap at he
    obtain ⟨x, hx, rfl⟩ := List.mem_map.1 he
    have := valAt_of_mem h1 hx
    rw [h2] at this
    simp only [waveMean]
    rw [← this]
    simp [valAt, shell, List.countP_eq_length_filter]
  · intro k
    have := h3 k
    simp only [List.not_mem_nil, false_and, exists_false, false_or] at this
    rw [← this]
    unfold meanMap sumMap
    constructor
    · rintro ⟨e, he, rfl⟩
      obtain ⟨x, hx, rfl⟩ := List.mem_map.1 he
      exact ⟨x, hx, rfl⟩
    · rintro ⟨e, he, rfl⟩
      exact ⟨_, List.mem_map_of_mem he, rfl⟩

/-- Entries with a magnitude from `key` to `key + tol`. -/
def window (tol key : K) (l : List (K × K)) : List (K × K) := l.filter fun e => key ≤ e.1 ∧ e.1 ≤ key + tol

theorem window_all {tol key : K} {l : List (K × K)} (h : ∀ e ∈ l, key ≤ e.1 ∧ e.1 ≤ key + tol) :
    window tol key l = l := by
  unfold window
  rw [List.filter_eq_self]
  intro e he
  simpa using h e he

theorem window_none {tol key : K} {l : List (K × K)} (h : ∀ e ∈ l, e.1 < key ∨ key + tol < e.1) :
    window tol key l = [] := by
  unfold window
  rw [List.filter_eq_nil_iff]
  intro e he hc
  simp only [decide_eq_true_eq] at hc
  rcases h e he with h | h
  · exact absurd hc.1 (not_le.2 h)
  · exact absurd hc.2 (not_le.2 h)

theorem window_append (tol key : K) (l l' : List (K × K)) :
    window tol key (l ++ l') = window tol key l ++ window tol key l' := by
  unfold window
  exact List.filter_append ..

theorem mergeLoop_spec (tol : K) (ht : 0 ≤ tol) : ∀ (l g : List (K × K)) (cur : K), Inc l →
    (∀ x ∈ g, ∀ y ∈ l, x.1 < y.1) → (∀ x ∈ g, cur ≤ x.1 ∧ x.1 ≤ cur + tol) → (∃ x ∈ g, x.1 = cur) →
    let r := mergeLoop tol l cur (g.map Prod.snd).sum g.length
    (∃ v r', r = (cur, v) :: r') ∧
    r.Pairwise (fun a b => a.1 + tol < b.1) ∧
    (∀ e ∈ r, cur ≤ e.1 ∧ (∃ x ∈ g ++ l, x.1 = e.1) ∧ e.2 = waveMean (window tol e.1 (g ++ l))) ∧
    ∀ x ∈ g ++ l, ∃ e ∈ r, e.1 ≤ x.1 ∧ x.1 ≤ e.1 + tol
  | [], g, cur, _, _, h2, h3 => by
    intro r
    refine ⟨⟨_, _, rfl⟩, by simp [r, mergeLoop], ?_, ?_⟩
    · intro e he
      simp only [r, mergeLoop, List.mem_singleton] at he
      subst he
      simp only [List.append_nil]
      exact ⟨le_rfl, h3, by rw [window_all h2, waveMean]⟩
    · intro x hx
      rw [List.append_nil] at hx
      exact ⟨(cur, (g.map Prod.snd).sum / (g.length : K)), by simp [r, mergeLoop], h2 x hx⟩
  | (key, s) :: l, g, cur, hi, h1, h2, h3 => by
    have hi' := List.pairwise_cons.1 hi
    have hck : cur < key := by
      obtain ⟨x, hx, rfl⟩ := h3
      exact h1 x hx (key, s) (List.mem_cons_self ..)
    intro r
    simp only [r, mergeLoop]
    rw [abs_of_pos (sub_pos.2 hck)]
    split
    · rename_i hle
      have hle' : key ≤ cur + tol := by linarith
      have ih := mergeLoop_spec tol ht l (g ++ [(key, s)]) cur hi'.2
        (by
          intro x hx y hy
          rcases List.mem_append.1 hx with hx | hx
          · exact h1 x hx y (List.mem_cons_of_mem _ hy)
          · rw [List.mem_singleton.1 hx]; exact hi'.1 y hy)
        (by
          intro x hx
          rcases List.mem_append.1 hx with hx | hx
          · exact h2 x hx
          · rw [List.mem_singleton.1 hx]; exact ⟨hck.le, hle'⟩)
        (by
          obtain ⟨x, hx, he⟩ := h3
          exact ⟨x, List.mem_append_left _ hx, he⟩)
      simpa using ih
    · rename_i hgt
      have hgt' : cur + tol < key := by linarith [not_le.1 hgt]
      obtain ⟨a1, a2, a3, a4⟩ := mergeLoop_spec tol ht l [(key, s)] key hi'.2
        (by intro x hx y hy; rw [List.mem_singleton.1 hx]; exact hi'.1 y hy)
        (by intro x hx; rw [List.mem_singleton.1 hx]; exact ⟨le_rfl, by linarith⟩)
        ⟨(key, s), by simp, rfl⟩
      simp only [List.map_cons, List.map_nil, List.sum_cons, List.sum_nil, add_zero, List.length_cons,
        List.length_nil, zero_add, List.singleton_append] at a1 a2 a3 a4
      refine ⟨⟨_, _, rfl⟩, List.pairwise_cons.2 ⟨fun e he => ?_, a2⟩, ?_, ?_⟩
      · exact lt_of_lt_of_le hgt' (a3 e he).1
      · intro e he
        rcases List.mem_cons.1 he with rfl | he
        · refine ⟨le_rfl, ?_, ?_⟩
          · obtain ⟨x, hx, he⟩ := h3
            exact ⟨x, List.mem_append_left _ hx, he⟩
          · rw [window_append, window_all h2, window_none (l := (key, s) :: l), List.append_nil, waveMean]
            intro x hx
            right
            rcases List.mem_cons.1 hx with rfl | hx
            · exact hgt'
            · exact hgt'.trans (hi'.1 x hx)
        · obtain ⟨b1, ⟨x, hx, hxe⟩, b3⟩ := a3 e he
          refine ⟨hck.le.trans b1, ⟨x, List.mem_append_right _ hx, hxe⟩, ?_⟩
          rw [window_append, window_none (l := g), List.nil_append]
          · exact b3
          · intro y hy
            left
            exact lt_of_lt_of_le (h1 y hy (key, s) (List.mem_cons_self ..)) b1
      · intro x hx
        rcases List.mem_append.1 hx with hx | hx
        · exact ⟨_, List.mem_cons_self .., h2 x hx⟩
        · obtain ⟨e, he, h⟩ := a4 x hx
          exact ⟨e, List.mem_cons_of_mem _ he, h⟩

theorem averageShells_eq {waves r : List (K × K)} (h : averageShells waves = .ok r) :
    r.Pairwise (fun a b => a.1 + 1 / 100000 < b.1) ∧
    (∀ e ∈ r, (∃ w ∈ waves, w.1 = e.1) ∧ e.2 = waveMean (window (1 / 100000) e.1 (meanMap waves))) ∧
    ∀ w ∈ waves, ∃ e ∈ r, e.1 ≤ w.1 ∧ w.1 ≤ e.1 + 1 / 100000 := by
  obtain ⟨m1, m2, m3⟩ := meanMap_spec waves
  unfold averageShells at h
  cases hm : meanMap waves with
  | nil => rw [hm] at h; cases h
  | cons qs l =>
    obtain ⟨q, s⟩ := qs
    rw [hm] at h m1 m3
    cases h
    have m1' := List.pairwise_cons.1 m1
    obtain ⟨_, a2, a3, a4⟩ := mergeLoop_spec (1 / 100000 : K) (by norm_num) l [(q, s)] q m1'.2
        (by intro x hx y hy; rw [List.mem_singleton.1 hx]; exact m1'.1 y hy)
        (by intro x hx; rw [List.mem_singleton.1 hx]; exact ⟨le_rfl, by simp⟩)
        ⟨(q, s), by simp, rfl⟩
    simp only [List.map_cons, List.map_nil, List.sum_cons, List.sum_nil, add_zero, List.length_cons,
      List.length_nil, zero_add, List.singleton_append] at a2 a3 a4
    refine ⟨a2, fun e he => ?_, fun w hw => ?_⟩
    · obtain ⟨_, ⟨x, hx, hxe⟩, b⟩ := a3 e he
      exact ⟨(m3 e.1).1 ⟨x, hx, hxe⟩, b⟩
    · obtain ⟨e, he, hew⟩ := (m3 w.1).2 ⟨w, hw, rfl⟩
      have := a4 e he
      rwa [hew] at this

/-- Bounds of a mean. -/
theorem waveMean_bounds {l : List (K × K)} (hl : l ≠ []) {lo hi : K} (h : ∀ w ∈ l, lo ≤ w.2 ∧ w.2 ≤ hi) :
    lo ≤ waveMean l ∧ waveMean l ≤ hi := by
  have hpos : (0 : K) < (l.length : K) := by exact_mod_cast List.length_pos_iff.2 hl
  have : ∀ l : List (K × K), (∀ w ∈ l, lo ≤ w.2 ∧ w.2 ≤ hi) →
      lo * (l.length : K) ≤ (l.map Prod.snd).sum ∧ (l.map Prod.snd).sum ≤ hi * (l.length : K) := by
    intro l
    induction l with
    | nil => simp
    | cons a l ih =>
      intro h
      obtain ⟨i1, i2⟩ := ih fun w hw => h w (List.mem_cons_of_mem _ hw)
      obtain ⟨j1, j2⟩ := h a (List.mem_cons_self ..)
      simp only [List.map_cons, List.sum_cons, List.length_cons, Nat.cast_add, Nat.cast_one]
      constructor <;> linarith
  obtain ⟨t1, t2⟩ := this l h
  unfold waveMean
  exact ⟨(le_div_iff₀ hpos).2 t1, (div_le_iff₀ hpos).2 t2⟩

theorem mem_shell {waves : List (K × K)} {q : K} {w : K × K} : w ∈ shell waves q ↔ w ∈ waves ∧ w.1 = q := by
  simp [shell]

/-- **C111**, shells: the magnitudes printed increase and differ by more than the tolerance, each belongs to a wave,
each wave belongs to exactly one of them (the printed magnitude is at most that of the wave, by no more than the
tolerance), and each printed value lies within the range of the values of the waves that belong to it. -/
theorem C111_shells {waves r : List (K × K)} (h : averageShells waves = .ok r) :
    r.Pairwise (fun a b => a.1 + 1 / 100000 < b.1) ∧
    (∀ e ∈ r, ∃ w ∈ waves, w.1 = e.1) ∧
    (∀ w ∈ waves, ∃ e ∈ r, (e.1 ≤ w.1 ∧ w.1 ≤ e.1 + 1 / 100000) ∧
      ∀ e' ∈ r, e'.1 ≤ w.1 ∧ w.1 ≤ e'.1 + 1 / 100000 → e' = e) ∧
    ∀ e ∈ r, ∀ lo hi, (∀ w ∈ waves, e.1 ≤ w.1 → w.1 ≤ e.1 + 1 / 100000 → lo ≤ w.2 ∧ w.2 ≤ hi) →
      lo ≤ e.2 ∧ e.2 ≤ hi := by
  obtain ⟨h1, h2, h3⟩ := averageShells_eq h
  obtain ⟨m1, m2, m3⟩ := meanMap_spec waves
  refine ⟨h1, fun e he => (h2 e he).1, fun w hw => ?_, fun e he lo hi hb => ?_⟩
  · obtain ⟨e, he, hew⟩ := h3 w hw
    refine ⟨e, he, hew, fun e' he' hew' => ?_⟩
    by_contra hne
    rcases List.pairwise_iff_getElem.1 h1 with hp
    obtain ⟨i, hi, rfl⟩ := List.mem_iff_getElem.1 he
    obtain ⟨j, hj, rfl⟩ := List.mem_iff_getElem.1 he'
    rcases lt_trichotomy i j with hij | hij | hij
    · have := hp i j hi hj hij
      linarith [hew.2, hew'.1]
    · subst hij; exact hne rfl
    · have := hp j i hj hi hij
      linarith [hew.1, hew'.2]
  · rw [(h2 e he).2]
    obtain ⟨w, hw, hwe⟩ := (h2 e he).1
    refine waveMean_bounds ?_ fun x hx => ?_
    · obtain ⟨x, hx, hxe⟩ := (m3 w.1).2 ⟨w, hw, rfl⟩
      have : x ∈ window (1 / 100000) e.1 (meanMap waves) := by
        unfold window
        rw [List.mem_filter]
        refine ⟨hx, ?_⟩
        simp only [decide_eq_true_eq]
        rw [hxe, hwe]
        exact ⟨le_rfl, by simp⟩
      exact List.ne_nil_of_mem this
    · unfold window at hx
      rw [List.mem_filter] at hx
      simp only [decide_eq_true_eq] at hx
      rw [m2 x hx.1]
      refine waveMean_bounds ?_ fun y hy => ?_
      · obtain ⟨y, hy, hyx⟩ := (m3 x.1).1 ⟨x, hx.1, rfl⟩
        exact List.ne_nil_of_mem (mem_shell.2 ⟨hy, hyx⟩)
      · obtain ⟨hy1, hy2⟩ := mem_shell.1 hy
        rw [← hy2] at hx
        exact hb y hy1 hx.2.1 hx.2.2

/-- **C111**, mean value: if the waves that belong to a printed magnitude all have exactly that magnitude, the printed
value is the mean over these waves. -/
theorem C111_mean_partial {waves r : List (K × K)} (h : averageShells waves = .ok r) (e : K × K) (he : e ∈ r)
    (hx : ∀ w ∈ waves, e.1 ≤ w.1 → w.1 ≤ e.1 + 1 / 100000 → w.1 = e.1) : e.2 = waveMean (shell waves e.1) := by
  obtain ⟨_, h2, _⟩ := averageShells_eq h
  obtain ⟨m1, m2, m3⟩ := meanMap_spec waves
  obtain ⟨⟨w, hw, hwe⟩, b⟩ := h2 e he
  obtain ⟨x, hx1, hx2⟩ := (m3 e.1).2 ⟨w, hw, hwe⟩
  have hwin : window (1 / 100000) e.1 (meanMap waves) = shell (meanMap waves) e.1 := by
    unfold window shell
    refine List.filter_congr fun y hy => ?_
    have hiff : (e.1 ≤ y.1 ∧ y.1 ≤ e.1 + 1 / 100000) ↔ y.1 = e.1 := by
      constructor
      · rintro ⟨y1, y2⟩
        obtain ⟨z, hz, hzy⟩ := (m3 y.1).1 ⟨y, hy, rfl⟩
        rw [← hzy] at y1 y2 ⊢
        exact hx z hz y1 y2
      · intro hy
        rw [hy]
        exact ⟨le_rfl, by simp⟩
    simp only [hiff]
  have hone : shell (meanMap waves) e.1 = [x] := by
    have hs : (shell (meanMap waves) e.1).Pairwise fun a b => a.1 < b.1 := m1.filter _
    have hxm : x ∈ shell (meanMap waves) e.1 := mem_shell.2 ⟨hx1, hx2⟩
    cases hl : shell (meanMap waves) e.1 with
    | nil => rw [hl] at hxm; cases hxm
    | cons a l =>
      rw [hl] at hs hxm
      cases l with
      | nil => rw [List.mem_singleton.1 hxm]
      | cons b l =>
        exfalso
        have ha : a.1 = e.1 := (mem_shell.1 (hl ▸ List.mem_cons_self .. : a ∈ shell (meanMap waves) e.1)).2
        have hb : b.1 = e.1 := (mem_shell.1
          (hl ▸ List.mem_cons_of_mem _ (List.mem_cons_self ..) : b ∈ shell (meanMap waves) e.1)).2
        have := (List.pairwise_cons.1 hs).1 b (List.mem_cons_self ..)
        rw [ha, hb] at this
        exact lt_irrefl _ this
  rw [b, hwin, hone]
  simp only [waveMean, List.map_cons, List.map_nil, List.sum_cons, List.sum_nil, add_zero, List.length_cons,
    List.length_nil, zero_add, Nat.cast_one, div_one]
  rw [m2 x hx1, hx2, waveMean]

/-- **C111 is violated** for magnitudes that differ by rounding: the printed value is the mean of means, not the mean
over waves. -/
theorem C111_rounding_violated (a b : K) (hab : a ≠ b) :
    averageShells [(1, a), (1, a), (1 + 1 / 200000, b)] = .ok [(1, (a + b) / 2)] ∧
    (a + b) / 2 ≠ waveMean [((1 : K), a), (1, a), (1 + 1 / 200000, b)] := by
  constructor
  · have h1 : ¬ ((1 : K) + 1 / 200000 < 1) := by norm_num
    have h2 : ¬ ((1 : K) + 1 / 200000 = 1) := by norm_num
    have h3 : ¬ ((1 : K) = 1 + 1 / 200000) := by norm_num
    have h4 : |(1 : K) + 1 / 200000 - 1| ≤ 1 / 100000 := by
      rw [add_sub_cancel_left, abs_of_pos (by norm_num)]
      norm_num
    unfold averageShells meanMap sumMap
    simp only [List.foldl_cons, List.foldl_nil, mapAdd, lt_irrefl, if_true, if_false, h1, h2, List.map_cons, List.map_nil,
      List.countP_cons, List.countP_nil, h3, decide_true, decide_false, mergeLoop, h4]
    norm_num
  · simp only [waveMean, List.map_cons, List.map_nil, List.sum_cons, List.sum_nil, List.length_cons, List.length_nil]
    intro h
    apply hab
    push_cast at h
    norm_num at h
    linarith

/-- **C111 is violated** on a half mesh: of the four shortest waves of a square mesh three are stored, so that values
along one axis have twice the weight of those along the other. The printed value is not the mean over all waves of that
magnitude. -/
theorem C111_half_mesh_violated {N : Fin 2 → ℕ} [∀ d, NeZero (N d)] (h0 : 3 ≤ N 0) (h1 : 3 ≤ N 1) (a b : K) (hab : a ≠ b) :
    Function.update (0 : Solver.Grid N) 0 1 ≠ Function.update (0 : Solver.Grid N) 0 (-1) ∧
    Solver.Stored (m := 1) (N := N) (Function.update 0 0 1) ∧ Solver.Stored (m := 1) (N := N) (Function.update 0 0 (-1)) ∧
    Solver.Stored (m := 1) (N := N) (Function.update 0 1 1) ∧ ¬ Solver.Stored (m := 1) (N := N) (Function.update 0 1 (-1)) ∧
    averageShells [((1 : K), a), (1, a), (1, b)] = .ok [(1, (a + a + b) / 3)] ∧
    averageShells [((1 : K), a), (1, a), (1, b), (1, b)] = .ok [(1, (a + a + b + b) / 4)] ∧
    (a + a + b) / 3 ≠ (a + a + b + b) / 4 := by
  have hv1 : (1 : ZMod (N 1)).val = 1 := by
    rw [ZMod.val_one_eq_one_mod, Nat.mod_eq_of_lt (by omega)]
  have hne : (1 : ZMod (N 1)) ≠ 0 := by
    intro h
    rw [h] at hv1
    simp at hv1
  refine ⟨?_, ?_, ?_, ?_, ?_, ?_, ?_, ?_⟩
  · intro h
    have h := congrFun h 0
    rw [Function.update_self, Function.update_self] at h
    have hv : (1 : ZMod (N 0)).val = 1 := by
      rw [ZMod.val_one_eq_one_mod, Nat.mod_eq_of_lt (by omega)]
    have hn : (1 : ZMod (N 0)) ≠ 0 := by
      intro h'
      rw [h'] at hv
      simp at hv
    have h := congrArg ZMod.val h
    rw [ZMod.neg_val, if_neg hn, hv] at h
    omega
  · simp [Solver.Stored, Function.update]
  · simp [Solver.Stored, Function.update]
  · show (Function.update (0 : Solver.Grid N) 1 1 1).val ≤ N 1 / 2
    rw [Function.update_self, hv1]
    omega
  · show ¬ (Function.update (0 : Solver.Grid N) 1 (-1) 1).val ≤ N 1 / 2
    rw [Function.update_self, ZMod.neg_val, if_neg hne, hv1]
    omega
  · unfold averageShells meanMap sumMap
    simp only [List.foldl_cons, List.foldl_nil, mapAdd, lt_irrefl, if_true, if_false, List.map_cons, List.map_nil,
      List.countP_cons, List.countP_nil, decide_true, mergeLoop]
    norm_num
  · unfold averageShells meanMap sumMap
    simp only [List.foldl_cons, List.foldl_nil, mapAdd, lt_irrefl, if_true, if_false, List.map_cons, List.map_nil,
      List.countP_cons, List.countP_nil, decide_true, mergeLoop]
    norm_num
  · intro h
    apply hab
    linarith

end Shells

/-- Three magnitudes, two of them with several waves. -/
example : averageShells [((2 : ℚ), 5), (1, 3), (2, 7), (0, 10), (1, 4), (2, 6)] = .ok [(0, 10), (1, 7 / 2), (2, 6)] := by
  decide +kernel

end Verif.Ana
