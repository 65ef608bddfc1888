import Verif.Fts.Stationary
import Verif.Tac
import Mathlib.MeasureTheory.Measure.Prod
import Mathlib.MeasureTheory.Measure.WithDensity

/-!
# C106: a Monte-Carlo simulation samples the Boltzmann distribution
-/

set_option autoImplicit false
set_option linter.unusedSectionVars false

namespace Verif.Fts

open MeasureTheory ProbabilityTheory Finset
open scoped ENNReal NNReal

noncomputable section

variable {m n M : Nat}

/-! ## Products of densities -/

theorem lintegral_fin_prod {N : Nat} {E : Type} [MeasurableSpace E] (μ : Fin N → Measure E)
    [∀ i, SigmaFinite (μ i)] (f : Fin N → E → ℝ≥0∞) (hf : ∀ i, Measurable (f i)) :
    ∫⁻ x, ∏ i, f i (x i) ∂(Measure.pi μ) = ∏ i, ∫⁻ x, f i x ∂(μ i) := by
  induction N with
  | zero => simp
  | succ N ih =>
    calc ∫⁻ x, ∏ i, f i (x i) ∂(Measure.pi μ)
        = ∫⁻ x : E × (Fin N → E), f 0 x.1 * ∏ i : Fin N, f (Fin.succ i) (x.2 i)
            ∂((μ 0).prod (Measure.pi fun i => μ i.succ)) := by
          rw [← ((measurePreserving_piFinSuccAbove μ 0).symm).lintegral_comp_emb
            (MeasurableEquiv.measurableEmbedding _)]
          simp_rw [MeasurableEquiv.piFinSuccAbove_symm_apply, Fin.insertNthEquiv,
            Fin.prod_univ_succ, Fin.insertNth_zero, Equiv.coe_fn_mk, Fin.cons_succ,
            Fin.zero_succAbove, cast_eq, Fin.cons_zero]
      _ = (∫⁻ x, f 0 x ∂μ 0) * ∏ i : Fin N, ∫⁻ x, f (Fin.succ i) x ∂(μ i.succ) := by
          rw [← ih (fun i => μ i.succ) (fun i => f i.succ) (fun i => hf _),
            ← lintegral_prod_mul (hf 0).aemeasurable]
          exact (Finset.measurable_fun_prod _ fun i _ => (hf _).comp (measurable_pi_apply i)).aemeasurable
      _ = ∏ i, ∫⁻ x, f i x ∂(μ i) := by rw [Fin.prod_univ_succ]

theorem pi_withDensity {N : Nat} {E : Type} [MeasurableSpace E] (μ : Fin N → Measure E)
    [∀ i, SigmaFinite (μ i)] (f : Fin N → E → ℝ≥0∞) (hf : ∀ i, Measurable (f i))
    [∀ i, SigmaFinite ((μ i).withDensity (f i))] :
    Measure.pi (fun i => (μ i).withDensity (f i)) = (Measure.pi μ).withDensity fun x => ∏ i, f i (x i) := by
  apply Measure.pi_eq
  intro s hs
  rw [withDensity_apply _ (MeasurableSet.univ_pi hs), ← lintegral_indicator (MeasurableSet.univ_pi hs)]
  have h : (Set.univ.pi s).indicator (fun x : Fin N → E => ∏ i, f i (x i)) =
      fun x => ∏ i, (s i).indicator (f i) (x i) := by
    funext x
    by_cases hx : x ∈ Set.univ.pi s
    · rw [Set.indicator_of_mem hx]
      exact prod_congr rfl fun i _ => (Set.indicator_of_mem (hx i trivial) _).symm
    · rw [Set.indicator_of_notMem hx]
      simp only [Set.mem_pi, Set.mem_univ, true_imp_iff, not_forall] at hx
      obtain ⟨i, hi⟩ := hx
      exact (prod_eq_zero (mem_univ i) (Set.indicator_of_notMem hi _)).symm
  rw [h, lintegral_fin_prod μ _ fun i => (hf i).indicator (hs i)]
  exact prod_congr rfl fun i _ => by rw [lintegral_indicator (hs i), withDensity_apply _ (hs i)]

theorem normal_law (a s : ℝ) (hs : s ≠ 0) :
    (gaussianReal 0 1).map (fun g => a + s * g) =
      volume.withDensity fun y => ENNReal.ofReal (normalPdf a (s ^ 2) y) := by
  have h1 : (gaussianReal 0 1).map (fun g => a + s * g) = gaussianReal a ⟨s ^ 2, sq_nonneg s⟩ := by
    have e1 : (fun g : ℝ => a + s * g) = (fun y => a + y) ∘ (fun g => s * g) := rfl
    have m1 : Measurable fun g : ℝ => s * g := measurable_id.const_mul s
    have m2 : Measurable fun y : ℝ => a + y := measurable_id.const_add a
    rw [e1, ← Measure.map_map m2 m1, gaussianReal_map_const_mul, gaussianReal_map_const_add]
    have e2 : s * 0 + a = a := by ring
    have e3 : NNReal.mk (s ^ 2) (sq_nonneg _) * 1 = ⟨s ^ 2, sq_nonneg s⟩ := mul_one _
    rw [e2, e3]
  have hv : (⟨s ^ 2, sq_nonneg s⟩ : ℝ≥0) ≠ 0 := by
    intro h
    have h2 : s ^ 2 = 0 := congrArg NNReal.toReal h
    exact hs (pow_eq_zero_iff two_ne_zero |>.1 h2)
  rw [h1, gaussianReal_of_var_ne_zero _ hv]
  congr 1
  funext y
  unfold gaussianPDF gaussianPDFReal normalPdf
  congr 1
  rw [div_eq_inv_mul (Real.exp _)]
  rfl

instance (a s : ℝ) : IsProbabilityMeasure ((gaussianReal 0 1).map (fun g => a + s * g)) :=
  Measure.isProbabilityMeasure_map (by fun_prop)

theorem normalPdf_measurable (a v : ℝ) : Measurable (normalPdf a v) := by
  unfold normalPdf
  fun_prop

/-- The law of all components. -/
theorem gauss_law (a : Comps m n) (s : ℝ) (hs : s ≠ 0) :
    (gauss m n).map (fun g j k => a j k + s * g j k) =
      volume.withDensity fun y => ENNReal.ofReal (attemptPdf a (s ^ 2) y) := by
  have hm : ∀ j k, Measurable fun y => ENNReal.ofReal (normalPdf (a j k) (s ^ 2) y) := fun j k =>
    (normalPdf_measurable _ _).ennreal_ofReal
  have h1 : ∀ j, (Measure.pi fun _ : Fin n => gaussianReal 0 1).map (fun g k => a j k + s * g k) =
      volume.withDensity fun y => ∏ k, ENNReal.ofReal (normalPdf (a j k) (s ^ 2) (y k)) := by
    intro j
    rw [Measure.pi_map_pi (f := fun k (g : ℝ) => a j k + s * g)
      (fun k => (measurable_const.add (measurable_id.const_mul s)).aemeasurable)]
    simp only [normal_law _ s hs]
    have : ∀ k, SigmaFinite ((volume : Measure ℝ).withDensity fun y => ENNReal.ofReal (normalPdf (a j k) (s ^ 2) y)) := by
      intro k
      rw [← normal_law _ s hs]
      infer_instance
    exact pi_withDensity (fun _ => volume) _ (hm j)
  have hma : ∀ j, Measurable fun (g : Fin n → ℝ) k => a j k + s * g k := fun j =>
    measurable_pi_lambda _ fun k => ((measurable_pi_apply (X := fun _ : Fin n => ℝ) k).const_mul s).const_add (a j k)
  unfold gauss
  have hp : ∀ j, IsProbabilityMeasure ((Measure.pi fun _ : Fin n => gaussianReal 0 1).map fun g k => a j k + s * g k) :=
    fun j => Measure.isProbabilityMeasure_map (hma j).aemeasurable
  rw [Measure.pi_map_pi (f := fun j (g : Fin n → ℝ) k => a j k + s * g k) (fun j => (hma j).aemeasurable)]
  simp only [h1]
  have : ∀ j, SigmaFinite ((volume : Measure (Fin n → ℝ)).withDensity fun y =>
      ∏ k, ENNReal.ofReal (normalPdf (a j k) (s ^ 2) (y k))) := by
    intro j
    rw [← h1]
    infer_instance
  have hpm : ∀ j, Measurable fun y : Fin n → ℝ => ∏ k, ENNReal.ofReal (normalPdf (a j k) (s ^ 2) (y k)) := fun j =>
    Finset.measurable_fun_prod _ fun k _ => (hm j k).comp (measurable_pi_apply k)
  rw [pi_withDensity (fun _ => volume) _ hpm]
  congr 1
  funext y
  unfold attemptPdf
  have hnn : ∀ j k, 0 ≤ normalPdf (a j k) (s ^ 2) (y j k) := fun j k =>
    (normalPdf_pos _ _ _ (by positivity)).le
  rw [ENNReal.ofReal_prod_of_nonneg fun j _ => prod_nonneg fun k _ => hnn j k]
  exact prod_congr rfl fun j _ => (ENNReal.ofReal_prod_of_nonneg fun k _ => hnn j k).symm

/-! ## One move -/

/-- Valid parameters of a move. -/
def Kind.Ok : Kind → Prop
  | .real sigma => sigma ≠ 0
  | .forceBias mobility => 0 < mobility

/-- Measurable energy and forces. -/
structure Land.Meas (P : Land m n) : Prop where
  H : Measurable P.H
  dc : Measurable P.dc
  good : MeasurableSet P.good

/-- Mean and standard deviation of a displacement. -/
def Kind.mean (P : Land m n) : Kind → Comps m n → Comps m n
  | .real _, _ => fun _ _ => 0
  | .forceBias mobility, x => fun j k => -(mobility * P.dc x j k)

def Kind.dev (vSystem : ℝ) (n : Nat) : Kind → ℝ
  | .real sigma => sigma
  | .forceBias mobility => √(2 * mobility / (vSystem / (n : ℝ)))

theorem Kind.displacement_eq (vSystem : ℝ) (P : Land m n) (k : Kind) (x g : Comps m n) :
    x + k.displacement vSystem P x g = fun j i => (x j i + k.mean P x j i) + k.dev vSystem n * g j i := by
  funext j i
  cases k with
  | real sigma =>
    simp only [Pi.add_apply, Kind.displacement, realDisplacement, Kind.mean, Kind.dev]
    ring
  | forceBias mobility =>
    simp only [Pi.add_apply, Kind.displacement, fbDisplacement, Kind.mean, Kind.dev]
    ring

theorem Kind.dev_ne (vSystem : ℝ) (hv : 0 < vSystem) (hn : 0 < n) (k : Kind) (hk : k.Ok) : k.dev vSystem n ≠ 0 := by
  have hn' : (0 : ℝ) < n := by exact_mod_cast hn
  cases k with
  | real sigma => exact hk
  | forceBias mobility =>
    have : 0 < mobility := hk
    exact (Real.sqrt_pos.2 (by positivity)).ne'

theorem attemptPdf_shift (x a y : Comps m n) (v : ℝ) :
    attemptPdf (fun j i => x j i + a j i) v y = attemptPdf a v (fun j i => y j i - x j i) := by
  unfold attemptPdf normalPdf
  refine prod_congr rfl fun j _ => prod_congr rfl fun i _ => ?_
  congr 4
  ring

/-- Density of attempts from `x` to `y`. -/
def Kind.q (vSystem : ℝ) (P : Land m n) (k : Kind) (x y : Comps m n) : ℝ≥0∞ :=
  ENNReal.ofReal (attemptPdf (fun j i => x j i + k.mean P x j i) (k.dev vSystem n ^ 2) y)

/-- Probability of acceptance. -/
def Kind.a (vSystem : ℝ) (P : Land m n) (k : Kind) (x y : Comps m n) : ℝ≥0∞ :=
  ENNReal.ofReal (min 1 (k.weight vSystem P x (y - x)))

theorem Kind.weight_pos (vSystem : ℝ) (P : Land m n) (k : Kind) (x d : Comps m n) : 0 < k.weight vSystem P x d := by
  cases k <;> exact Real.exp_pos _

theorem unif_split (t : ℝ) (ht : 0 < t) (c d : ℝ≥0∞) :
    ∫⁻ u, (if u < t then c else d) ∂unif = ENNReal.ofReal (min 1 t) * c + (1 - ENNReal.ofReal (min 1 t)) * d := by
  have hfun : (fun u => if u < t then c else d) =
      fun u => (Set.Iio t).indicator (fun _ => c) u + (Set.Iio t)ᶜ.indicator (fun _ => d) u := by
    funext u
    by_cases h : u < t
    · rw [if_pos h, Set.indicator_of_mem (show u ∈ Set.Iio t from h), Set.indicator_of_notMem (show u ∉ (Set.Iio t)ᶜ from fun h' => h' h),
        add_zero]
    · rw [if_neg h, Set.indicator_of_notMem (show u ∉ Set.Iio t from h), Set.indicator_of_mem (show u ∈ (Set.Iio t)ᶜ from h),
        zero_add]
  have hm : MeasurableSet (Set.Iio t) := measurableSet_Iio
  have h1 : unif (Set.Iio t) = ENNReal.ofReal (min 1 t) := by
    unfold unif
    rw [Measure.restrict_apply hm, Set.inter_comm, Set.Ico_inter_Iio, Real.volume_Ico, sub_zero]
  have hp : unif Set.univ = 1 := by
    unfold unif
    simp
  have hfin : IsProbabilityMeasure unif := ⟨hp⟩
  rw [hfun, lintegral_add_left (measurable_const.indicator hm), lintegral_indicator hm, lintegral_indicator hm.compl,
    setLIntegral_const, setLIntegral_const, prob_compl_eq_one_sub hm, h1, mul_comm c, mul_comm d]

/-- Value after an attempt to go to `y`. -/
def Kind.after (vSystem : ℝ) (P : Land m n) (k : Kind) (f : Comps m n → ℝ≥0∞) (fail : ℝ≥0∞) (x y : Comps m n) : ℝ≥0∞ :=
  open Classical in
  if y ∈ P.good then k.a vSystem P x y * f y + (1 - k.a vSystem P x y) * f x else fail

theorem weight_measurable (vSystem : ℝ) {P : Land m n} (hP : P.Meas) (k : Kind) :
    Measurable fun p : Comps m n × Comps m n => k.weight vSystem P p.1 (p.2 - p.1) := by
  have hH := hP.H
  have hdc : ∀ j i, Measurable fun x => P.dc x j i := fun j i =>
    (measurable_pi_apply i).comp ((measurable_pi_apply j).comp hP.dc)
  cases k with
  | real sigma =>
    simp only [Kind.weight, add_sub_cancel]
    exact ((hH.comp measurable_snd).sub (hH.comp measurable_fst)).neg.exp
  | forceBias mobility =>
    simp only [Kind.weight, add_sub_cancel, bias_eq]
    refine (Measurable.sub ?_ ((hH.comp measurable_snd).sub (hH.comp measurable_fst))).exp
    refine Finset.measurable_fun_sum _ fun j _ => Finset.measurable_fun_sum _ fun i _ => ?_
    have h1 : Measurable fun p : Comps m n × Comps m n => P.dc p.1 j i := (hdc j i).comp measurable_fst
    have h2 : Measurable fun p : Comps m n × Comps m n => P.dc p.2 j i := (hdc j i).comp measurable_snd
    have h3 : Measurable fun p : Comps m n × Comps m n => (p.2 - p.1) j i :=
      (measurable_pi_apply i).comp ((measurable_pi_apply j).comp (measurable_snd.sub measurable_fst))
    exact ((((h1.add h2).const_mul _).mul (h3.add (((h1.sub h2).const_mul _).const_mul _))).const_mul _)

theorem a_measurable (vSystem : ℝ) {P : Land m n} (hP : P.Meas) (k : Kind) :
    Measurable fun p : Comps m n × Comps m n => k.a vSystem P p.1 p.2 :=
  (measurable_const.min (weight_measurable vSystem hP k)).ennreal_ofReal

theorem q_measurable (vSystem : ℝ) {P : Land m n} (hP : P.Meas) (k : Kind) :
    Measurable fun p : Comps m n × Comps m n => k.q vSystem P p.1 p.2 := by
  have hdc : ∀ j i, Measurable fun x => P.dc x j i := fun j i =>
    (measurable_pi_apply i).comp ((measurable_pi_apply j).comp hP.dc)
  have hmean : ∀ j i, Measurable fun x => k.mean P x j i := by
    intro j i
    cases k with
    | real sigma => exact measurable_const
    | forceBias mobility => exact ((hdc j i).const_mul _).neg
  unfold Kind.q attemptPdf normalPdf
  refine Measurable.ennreal_ofReal ?_
  refine Finset.measurable_fun_prod _ fun j _ => Finset.measurable_fun_prod _ fun i _ => ?_
  have h1 : Measurable fun p : Comps m n × Comps m n => p.1 j i :=
    (measurable_pi_apply i).comp ((measurable_pi_apply j).comp measurable_fst)
  have h2 : Measurable fun p : Comps m n × Comps m n => p.2 j i :=
    (measurable_pi_apply i).comp ((measurable_pi_apply j).comp measurable_snd)
  have h3 : Measurable fun p : Comps m n × Comps m n => k.mean P p.1 j i := (hmean j i).comp measurable_fst
  exact ((((h2.sub (h1.add h3)).pow_const 2).neg).div_const _).exp.div_const _

theorem after_measurable (vSystem : ℝ) {P : Land m n} (hP : P.Meas) (k : Kind) {f fail : Comps m n → ℝ≥0∞}
    (hf : Measurable f) (hfail : Measurable fail) :
    Measurable fun p : Comps m n × Comps m n => k.after vSystem P f (fail p.1) p.1 p.2 := by
  have hs : MeasurableSet {p : Comps m n × Comps m n | p.2 ∈ P.good} := measurable_snd hP.good
  have h1 : Measurable fun p : Comps m n × Comps m n =>
      k.a vSystem P p.1 p.2 * f p.2 + (1 - k.a vSystem P p.1 p.2) * f p.1 :=
    ((a_measurable vSystem hP k).mul (hf.comp measurable_snd)).add
      ((measurable_const.sub (a_measurable vSystem hP k)).mul (hf.comp measurable_fst))
  have h2 : Measurable fun p : Comps m n × Comps m n => fail p.1 := hfail.comp measurable_fst
  unfold Kind.after
  exact Measurable.ite hs h1 h2

theorem unif_univ : unif Set.univ = 1 := by
  unfold unif
  simp

/-- Average over the uniform number. -/
theorem step_unif (vSystem : ℝ) (P : Land m n) (k : Kind) (f : Comps m n → ℝ≥0∞) (c : ℝ≥0∞) (x g : Comps m n) :
    ∫⁻ u, (((k.step vSystem P x g u).map f).getD c) ∂unif =
      k.after vSystem P f c x (x + k.displacement vSystem P x g) := by
  unfold Kind.step Kind.after
  by_cases h : x + k.displacement vSystem P x g ∈ P.good
  · simp only [h, if_true, Option.map_some, Option.getD_some]
    have hfun : ∀ u : ℝ, f (if u < k.weight vSystem P x (k.displacement vSystem P x g) then
        x + k.displacement vSystem P x g else x) =
        if u < k.weight vSystem P x (k.displacement vSystem P x g) then f (x + k.displacement vSystem P x g) else f x :=
      fun u => apply_ite f _ _ _
    simp only [hfun]
    rw [unif_split _ (Kind.weight_pos _ _ _ _ _)]
    unfold Kind.a
    rw [add_sub_cancel_left]
  · simp only [h, if_false, Option.map_none, Option.getD_none]
    rw [lintegral_const, unif_univ, mul_one]

theorem measurable_right {E : Type} [MeasurableSpace E] (F : E → E → ℝ≥0∞)
    (h : Measurable fun p : E × E => F p.1 p.2) (x : E) : Measurable (F x) :=
  h.comp (measurable_prodMk_left (x := x))

theorem q_right_measurable (vSystem : ℝ) {P : Land m n} (hP : P.Meas) (k : Kind) (x : Comps m n) :
    Measurable (k.q vSystem P x) := measurable_right (k.q vSystem P) (q_measurable vSystem hP k) x

/-- Average over the Gaussian numbers. -/
theorem gauss_expect (vSystem : ℝ) (hv : 0 < vSystem) (hn : 0 < n) {P : Land m n} (hP : P.Meas) (k : Kind)
    (hk : k.Ok) (A : Comps m n → ℝ≥0∞) (hA : Measurable A) (x : Comps m n) :
    ∫⁻ g, A (x + k.displacement vSystem P x g) ∂gauss m n = ∫⁻ y, k.q vSystem P x y * A y := by
  have hT : Measurable fun (g : Comps m n) (j : Fin m) (i : Fin n) =>
      (x j i + k.mean P x j i) + k.dev vSystem n * g j i := by
    refine measurable_pi_lambda _ fun j => measurable_pi_lambda _ fun i => ?_
    have : Measurable fun g : Comps m n => g j i := (measurable_pi_apply i).comp (measurable_pi_apply j)
    exact (this.const_mul _).const_add _
  have hq := q_right_measurable vSystem hP k x
  have h1 : ∀ g, A (x + k.displacement vSystem P x g) =
      A (fun j i => (x j i + k.mean P x j i) + k.dev vSystem n * g j i) := fun g => by rw [Kind.displacement_eq]
  have h2 := lintegral_map (μ := gauss m n) hA hT
  have h3 := gauss_law (fun j i => x j i + k.mean P x j i) _ (Kind.dev_ne vSystem hv hn k hk)
  have h4 : (fun y => ENNReal.ofReal (attemptPdf (fun j i => x j i + k.mean P x j i) (k.dev vSystem n ^ 2) y)) =
      fun y => k.q vSystem P x y := by
    unfold Kind.q
    rfl
  rw [h4] at h3
  rw [lintegral_congr h1, ← h2, h3, lintegral_withDensity_eq_lintegral_mul _ hq hA]
  rfl

/-- Expected value after one move, as an integral over the attempted states. -/
theorem move_expect (vSystem : ℝ) (hv : 0 < vSystem) (hn : 0 < n) {P : Land m n} (hP : P.Meas) (k : Kind) (hk : k.Ok)
    {f : Comps m n → ℝ≥0∞} (hf : Measurable f) (c : ℝ≥0∞) (x : Comps m n) :
    ∫⁻ g, ∫⁻ u, (((k.step vSystem P x g u).map f).getD c) ∂unif ∂gauss m n =
      ∫⁻ y, k.q vSystem P x y * k.after vSystem P f c x y := by
  have hA : Measurable fun y => k.after vSystem P f c x y :=
    (after_measurable vSystem hP k hf (measurable_const (a := c))).comp (measurable_prodMk_left (x := x))
  rw [lintegral_congr fun g => step_unif vSystem P k f c x g]
  exact gauss_expect vSystem hv hn hP k hk _ hA x

/-- Boltzmann factor, zero where the compressor fails. -/
def Land.boltzW (P : Land m n) : Comps m n → ℝ≥0∞ := P.good.indicator fun x => ENNReal.ofReal (Real.exp (-P.H x))

/-- The Boltzmann distribution (not normalised) on the states for which the compressor converges. -/
def Land.boltz (P : Land m n) : Measure (Comps m n) := volume.withDensity P.boltzW

theorem boltzW_measurable {P : Land m n} (hP : P.Meas) : Measurable P.boltzW :=
  (hP.H.neg.exp.ennreal_ofReal).indicator hP.good

/-- One if the compressor converges. -/
def Land.ind (P : Land m n) : Comps m n → ℝ≥0∞ := P.good.indicator fun _ => 1

theorem ind_measurable {P : Land m n} (hP : P.Meas) : Measurable P.ind := measurable_const.indicator hP.good

theorem Kind.q_ne_top (vSystem : ℝ) (P : Land m n) (k : Kind) (x y : Comps m n) : k.q vSystem P x y ≠ ⊤ :=
  ENNReal.ofReal_ne_top

/-- Detailed balance of real numbers. -/
theorem balance_real (vSystem : ℝ) (hv : 0 < vSystem) (hn : 0 < n) (P : Land m n) (k : Kind) (hk : k.Ok)
    (x y : Comps m n) :
    Real.exp (-P.H x) * attemptPdf (fun j i => x j i + k.mean P x j i) (k.dev vSystem n ^ 2) y *
        min 1 (k.weight vSystem P x (y - x)) =
      Real.exp (-P.H y) * attemptPdf (fun j i => y j i + k.mean P y j i) (k.dev vSystem n ^ 2) x *
        min 1 (k.weight vSystem P y (x - y)) := by
  have hn' : (0 : ℝ) < n := by exact_mod_cast hn
  rw [attemptPdf_shift, attemptPdf_shift]
  cases k with
  | real sigma =>
    have := C80_real_move sigma hk x y (P.H x) (P.H y)
    simp only [Kind.weight, add_sub_cancel]
    exact this
  | forceBias mobility =>
    have hm : 0 < mobility := hk
    have := C80_force_bias mobility vSystem hm hv hn x y (P.dc x) (P.dc y) (P.H x) (P.H y)
    simp only [Kind.weight, add_sub_cancel, Kind.dev]
    rw [Real.sq_sqrt (by positivity)]
    exact this

/-- Flow of probability from `x` to `y`. -/
def Kind.flow (vSystem : ℝ) (P : Land m n) (k : Kind) (x y : Comps m n) : ℝ≥0∞ :=
  P.boltzW x * (k.q vSystem P x y * (P.ind y * k.a vSystem P x y))

theorem Kind.flow_comm (vSystem : ℝ) (hv : 0 < vSystem) (hn : 0 < n) (P : Land m n) (k : Kind) (hk : k.Ok)
    (x y : Comps m n) : k.flow vSystem P x y = k.flow vSystem P y x := by
  have hs : 0 < k.dev vSystem n ^ 2 := by
    have := k.dev_ne vSystem hv hn hk
    positivity
  unfold Kind.flow Land.boltzW Land.ind
  by_cases hx : x ∈ P.good
  · by_cases hy : y ∈ P.good
    · simp only [Set.indicator_of_mem hx, Set.indicator_of_mem hy, one_mul]
      unfold Kind.q Kind.a
      rw [← ENNReal.ofReal_mul (attemptPdf_pos _ _ hs _).le, ← ENNReal.ofReal_mul (Real.exp_pos _).le,
        ← ENNReal.ofReal_mul (attemptPdf_pos _ _ hs _).le, ← ENNReal.ofReal_mul (Real.exp_pos _).le,
        ← mul_assoc, ← mul_assoc, balance_real vSystem hv hn P k hk x y]
    · simp only [Set.indicator_of_notMem hy, zero_mul, mul_zero]
  · simp only [Set.indicator_of_notMem hx, zero_mul, mul_zero]

/-- Factor of the old value after an attempt to go to `y`. -/
def Kind.stay (vSystem : ℝ) (P : Land m n) (k : Kind) (c : ℝ≥0∞) (x y : Comps m n) : ℝ≥0∞ :=
  P.ind y * (1 - k.a vSystem P x y) + P.goodᶜ.indicator (fun _ => 1) y * c

theorem Kind.after_eq (vSystem : ℝ) (P : Land m n) (k : Kind) (f : Comps m n → ℝ≥0∞) (c : ℝ≥0∞)
    (x y : Comps m n) :
    k.after vSystem P f (c * f x) x y = P.ind y * k.a vSystem P x y * f y + k.stay vSystem P c x y * f x := by
  unfold Kind.after Kind.stay Land.ind
  by_cases hy : y ∈ P.good
  · rw [if_pos hy, Set.indicator_of_mem hy, Set.indicator_of_notMem (show y ∉ P.goodᶜ from fun h => h hy)]
    ring
  · rw [if_neg hy, Set.indicator_of_notMem hy, Set.indicator_of_mem (show y ∈ P.goodᶜ from hy)]
    ring

theorem flow_measurable (vSystem : ℝ) {P : Land m n} (hP : P.Meas) (k : Kind) :
    Measurable fun p : Comps m n × Comps m n => k.flow vSystem P p.1 p.2 :=
  ((boltzW_measurable hP).comp measurable_fst).mul ((q_measurable vSystem hP k).mul
    (((ind_measurable hP).comp measurable_snd).mul (a_measurable vSystem hP k)))

theorem stay_measurable (vSystem : ℝ) {P : Land m n} (hP : P.Meas) (k : Kind) (c : ℝ≥0∞) :
    Measurable fun p : Comps m n × Comps m n => k.stay vSystem P c p.1 p.2 := by
  have h2 : Measurable (P.goodᶜ.indicator fun _ : Comps m n => (1 : ℝ≥0∞)) := measurable_const.indicator hP.good.compl
  exact (((ind_measurable hP).comp measurable_snd).mul (measurable_const.sub (a_measurable vSystem hP k))).add
    ((h2.comp measurable_snd).mul_const _)

theorem measurable_swapped {E : Type} [MeasurableSpace E] (F : E → E → ℝ≥0∞)
    (h : Measurable fun p : E × E => F p.1 p.2) : Measurable fun p : E × E => F p.2 p.1 :=
  h.comp measurable_swap

/-- Expected value after a move of one kind. -/
def Kind.turn (vSystem : ℝ) (P : Land m n) (k : Kind) (c : ℝ≥0∞) (f : Comps m n → ℝ≥0∞) (x : Comps m n) : ℝ≥0∞ :=
  ∫⁻ y, k.q vSystem P x y * k.after vSystem P f (c * f x) x y

theorem turn_measurable (vSystem : ℝ) {P : Land m n} (hP : P.Meas) (k : Kind) (c : ℝ≥0∞)
    {f : Comps m n → ℝ≥0∞} (hf : Measurable f) : Measurable (k.turn vSystem P c f) := by
  have h : Measurable fun p : Comps m n × Comps m n =>
      k.q vSystem P p.1 p.2 * k.after vSystem P f (c * f p.1) p.1 p.2 :=
    (q_measurable vSystem hP k).mul (after_measurable vSystem hP k hf (hf.const_mul c))
  exact h.lintegral_prod_right'

/-- A move is symmetric for the Boltzmann distribution. -/
theorem turn_symm (vSystem : ℝ) (hv : 0 < vSystem) (hn : 0 < n) {P : Land m n} (hP : P.Meas) (k : Kind) (hk : k.Ok)
    (c : ℝ≥0∞) {f h : Comps m n → ℝ≥0∞} (hf : Measurable f) (hh : Measurable h) :
    ∫⁻ x, P.boltzW x * (h x * k.turn vSystem P c f x) = ∫⁻ x, P.boltzW x * (f x * k.turn vSystem P c h x) := by
  have hw := boltzW_measurable hP
  have hqr := fun x => q_right_measurable vSystem hP k x
  have hfr : ∀ x, Measurable (k.flow vSystem P x) := measurable_right _ (flow_measurable vSystem hP k)
  have hsr : ∀ x, Measurable (k.stay vSystem P c x) := measurable_right _ (stay_measurable vSystem hP k c)
  have hR : Measurable fun x => ∫⁻ y, k.q vSystem P x y * k.stay vSystem P c x y :=
    ((q_measurable vSystem hP k).mul (stay_measurable vSystem hP k c)).lintegral_prod_right'
  have key : ∀ f h : Comps m n → ℝ≥0∞, Measurable f → Measurable h →
      ∫⁻ x, P.boltzW x * (h x * k.turn vSystem P c f x) =
        (∫⁻ x, ∫⁻ y, k.flow vSystem P x y * (h x * f y)) +
          ∫⁻ x, P.boltzW x * (h x * f x) * ∫⁻ y, k.q vSystem P x y * k.stay vSystem P c x y := by
    intro f h hf hh
    have hin : Measurable fun x => ∫⁻ y, k.flow vSystem P x y * (h x * f y) :=
      ((flow_measurable vSystem hP k).mul ((hh.comp measurable_fst).mul (hf.comp measurable_snd))).lintegral_prod_right'
    rw [← lintegral_add_left hin]
    refine lintegral_congr fun x => ?_
    unfold Kind.turn
    have e1 : ∀ y, k.q vSystem P x y * k.after vSystem P f (c * f x) x y =
        k.q vSystem P x y * (P.ind y * k.a vSystem P x y) * f y + k.q vSystem P x y * k.stay vSystem P c x y * f x := by
      intro y
      rw [Kind.after_eq]
      ring
    have har : Measurable (k.a vSystem P x) := measurable_right _ (a_measurable vSystem hP k) x
    have hm1 : Measurable fun y => k.q vSystem P x y * (P.ind y * k.a vSystem P x y) * f y :=
      ((hqr x).mul ((ind_measurable hP).mul har)).mul hf
    have hm2 : Measurable fun y => k.q vSystem P x y * k.stay vSystem P c x y := (hqr x).mul (hsr x)
    rw [lintegral_congr e1, lintegral_add_left hm1, lintegral_mul_const _ hm2, mul_add, mul_add,
      ← lintegral_const_mul _ hm1, ← lintegral_const_mul _ (hm1.const_mul _)]
    refine congrArg₂ (· + ·) (lintegral_congr fun y => ?_) ?_
    · unfold Kind.flow
      ring
    · ring
  rw [key f h hf hh, key h f hh hf]
  refine congrArg₂ (· + ·) ?_ (lintegral_congr fun x => by ring)
  have hm : Measurable fun p : Comps m n × Comps m n => k.flow vSystem P p.1 p.2 * (h p.1 * f p.2) :=
    (flow_measurable vSystem hP k).mul ((hh.comp measurable_fst).mul (hf.comp measurable_snd))
  rw [lintegral_lintegral_swap hm.aemeasurable]
  refine lintegral_congr fun y => lintegral_congr fun x => ?_
  rw [k.flow_comm vSystem hv hn P hk x y, mul_comm (h x)]

/-! ## The simulation -/

theorem expect_eq (vSystem : ℝ) (hv : 0 < vSystem) (hn : 0 < n) {P : Land m n} (hP : P.Meas) (moves : Fin M → Kind)
    (hk : ∀ j, (moves j).Ok) (wt : Fin M → ℝ) (c : ℝ≥0∞) {f : Comps m n → ℝ≥0∞} (hf : Measurable f) (x : Comps m n) :
    expect vSystem P moves wt f (fun x => c * f x) x =
      ∑ j, ENNReal.ofReal (moveProb wt j) * (moves j).turn vSystem P c f x :=
  sum_congr rfl fun j _ => by rw [move_expect vSystem hv hn hP (moves j) (hk j) hf]; rfl

theorem expect_measurable (vSystem : ℝ) (hv : 0 < vSystem) (hn : 0 < n) {P : Land m n} (hP : P.Meas)
    (moves : Fin M → Kind) (hk : ∀ j, (moves j).Ok) (wt : Fin M → ℝ) (c : ℝ≥0∞) {f : Comps m n → ℝ≥0∞}
    (hf : Measurable f) : Measurable (expect vSystem P moves wt f fun x => c * f x) := by
  have : expect vSystem P moves wt f (fun x => c * f x) =
      fun x => ∑ j, ENNReal.ofReal (moveProb wt j) * (moves j).turn vSystem P c f x :=
    funext fun x => expect_eq vSystem hv hn hP moves hk wt c hf x
  rw [this]
  exact Finset.measurable_fun_sum _ fun j _ => (turn_measurable vSystem hP (moves j) c hf).const_mul _

/-- C106, reversibility. For any mixture of real moves and force bias moves with any parameters, any Hamiltonian,
any forces (not necessarily its gradient) and any set of states for which the compressor converges: one turn of
the loop is reversible for the Boltzmann distribution. With `c = 1` the state after a failed move is the old
state; with `c = 0` failed moves are not counted. -/
theorem C106_reversible (vSystem : ℝ) (hv : 0 < vSystem) (hn : 0 < n) {P : Land m n} (hP : P.Meas)
    (moves : Fin M → Kind) (hk : ∀ j, (moves j).Ok) (wt : Fin M → ℝ) (c : ℝ≥0∞) {f h : Comps m n → ℝ≥0∞}
    (hf : Measurable f) (hh : Measurable h) :
    ∫⁻ x, h x * expect vSystem P moves wt f (fun x => c * f x) x ∂P.boltz =
      ∫⁻ x, f x * expect vSystem P moves wt h (fun x => c * h x) x ∂P.boltz := by
  have hw := boltzW_measurable hP
  have key : ∀ f h : Comps m n → ℝ≥0∞, Measurable f → Measurable h →
      ∫⁻ x, h x * expect vSystem P moves wt f (fun x => c * f x) x ∂P.boltz =
        ∑ j, ENNReal.ofReal (moveProb wt j) * ∫⁻ x, P.boltzW x * (h x * (moves j).turn vSystem P c f x) := by
    intro f h hf hh
    unfold Land.boltz
    have hm : ∀ j, Measurable fun x => P.boltzW x * (h x * (moves j).turn vSystem P c f x) := fun j =>
      hw.mul (hh.mul (turn_measurable vSystem hP (moves j) c hf))
    have hd := lintegral_withDensity_eq_lintegral_mul volume hw
      (hh.mul (expect_measurable vSystem hv hn hP moves hk wt c hf))
    simp only [Pi.mul_apply] at hd
    rw [hd]
    have e : ∀ x, P.boltzW x * (h x * expect vSystem P moves wt f (fun x => c * f x) x) =
        ∑ j, ENNReal.ofReal (moveProb wt j) * (P.boltzW x * (h x * (moves j).turn vSystem P c f x)) := by
      intro x
      rw [expect_eq vSystem hv hn hP moves hk wt c hf, mul_sum, mul_sum]
      exact sum_congr rfl fun j _ => by ring
    rw [lintegral_congr e, lintegral_finset_sum _ fun j _ => (hm j).const_mul _]
    exact sum_congr rfl fun j _ => lintegral_const_mul _ (hm j)
  rw [key f h hf hh, key h f hh hf]
  exact sum_congr rfl fun j _ => by rw [turn_symm vSystem hv hn hP (moves j) (hk j) c hf hh]

/-- Weights with positive sum. -/
theorem moveProb_sum (wt : Fin M → ℝ) (h0 : ∀ j, 0 ≤ wt j) (hs : 0 < ∑ j, wt j) :
    ∑ j, ENNReal.ofReal (moveProb wt j) = 1 := by
  have h1 : ∀ j, 0 ≤ moveProb wt j := by
    intro j
    unfold moveProb
    rw [accum_eq, zero_add]
    exact div_nonneg (h0 j) hs.le
  rw [← ENNReal.ofReal_sum_of_nonneg fun j _ => h1 j]
  unfold moveProb
  rw [← sum_div, accum_eq, zero_add, div_self hs.ne', ENNReal.ofReal_one]

instance : IsProbabilityMeasure unif := ⟨unif_univ⟩

instance (m n : Nat) : IsProbabilityMeasure (gauss m n) := by
  unfold gauss
  infer_instance

theorem expect_one (vSystem : ℝ) (P : Land m n) (moves : Fin M → Kind) (wt : Fin M → ℝ) (h0 : ∀ j, 0 ≤ wt j)
    (hs : 0 < ∑ j, wt j) (x : Comps m n) : expect vSystem P moves wt (fun _ => 1) (fun _ => 1) x = 1 := by
  unfold expect
  have h : ∀ o : Option (Comps m n), (o.map fun _ => (1 : ℝ≥0∞)).getD 1 = 1 := by
    intro o
    cases o <;> rfl
  simp only [h, lintegral_const, measure_univ, mul_one]
  exact moveProb_sum wt h0 hs

/-- C106: the Boltzmann distribution is stationary. Whatever the observable, its average over the states after one
turn of the loop, started with the Boltzmann distribution, is its Boltzmann average. -/
theorem C106_stationary (vSystem : ℝ) (hv : 0 < vSystem) (hn : 0 < n) {P : Land m n} (hP : P.Meas)
    (moves : Fin M → Kind) (hk : ∀ j, (moves j).Ok) (wt : Fin M → ℝ) (h0 : ∀ j, 0 ≤ wt j) (hs : 0 < ∑ j, wt j)
    {f : Comps m n → ℝ≥0∞} (hf : Measurable f) :
    ∫⁻ x, expect vSystem P moves wt f f x ∂P.boltz = ∫⁻ x, f x ∂P.boltz := by
  have h := C106_reversible vSystem hv hn hP moves hk wt 1 hf (measurable_const (a := 1))
  simp only [one_mul, mul_one] at h
  rw [h]
  exact lintegral_congr fun x => by rw [expect_one vSystem P moves wt h0 hs, mul_one]

/-- Expected value of `f` after `N` turns of the loop. -/
def expectN (vSystem : ℝ) (P : Land m n) (moves : Fin M → Kind) (wt : Fin M → ℝ) :
    Nat → (Comps m n → ℝ≥0∞) → Comps m n → ℝ≥0∞
  | 0, f => f
  | N + 1, f => expect vSystem P moves wt (expectN vSystem P moves wt N f) (expectN vSystem P moves wt N f)

/-- C106: the same after any number of turns. -/
theorem C106_stationary_run (vSystem : ℝ) (hv : 0 < vSystem) (hn : 0 < n) {P : Land m n} (hP : P.Meas)
    (moves : Fin M → Kind) (hk : ∀ j, (moves j).Ok) (wt : Fin M → ℝ) (h0 : ∀ j, 0 ≤ wt j) (hs : 0 < ∑ j, wt j)
    {f : Comps m n → ℝ≥0∞} (hf : Measurable f) (N : Nat) :
    Measurable (expectN vSystem P moves wt N f) ∧
      ∫⁻ x, expectN vSystem P moves wt N f x ∂P.boltz = ∫⁻ x, f x ∂P.boltz := by
  induction N with
  | zero => exact ⟨hf, rfl⟩
  | succ N ih =>
    refine ⟨?_, ?_⟩
    · have h := expect_measurable vSystem hv hn hP moves hk wt 1 ih.1
      simp only [one_mul] at h
      exact h
    · exact (C106_stationary vSystem hv hn hP moves hk wt h0 hs ih.1).trans ih.2

/-! ## What is observed -/

/-- Probability that a turn succeeds. -/
def success (vSystem : ℝ) (P : Land m n) (moves : Fin M → Kind) (wt : Fin M → ℝ) : Comps m n → ℝ≥0∞ :=
  expect vSystem P moves wt (fun _ => 1) fun _ => 0

theorem expect_split (vSystem : ℝ) (hv : 0 < vSystem) (hn : 0 < n) {P : Land m n} (hP : P.Meas) (moves : Fin M → Kind)
    (hk : ∀ j, (moves j).Ok) (wt : Fin M → ℝ) (h0 : ∀ j, 0 ≤ wt j) (hs : 0 < ∑ j, wt j) (x : Comps m n) :
    success vSystem P moves wt x + expect vSystem P moves wt (fun _ => 0) (fun _ => 1) x = 1 := by
  refine Eq.trans ?_ (expect_one vSystem P moves wt h0 hs x)
  unfold success expect
  rw [← sum_add_distrib]
  refine sum_congr rfl fun j _ => ?_
  have h1 := fun c d : ℝ≥0∞ =>
    move_expect vSystem hv hn hP (moves j) (hk j) (f := fun _ => c) measurable_const d x
  rw [h1, h1, h1, ← mul_add]
  congr 1
  have hA := fun c d : ℝ≥0∞ => measurable_right (fun x y => (moves j).after vSystem P (fun _ => c) d x y)
    (after_measurable vSystem hP (moves j) (measurable_const (a := c)) (measurable_const (a := d))) x
  have hl := lintegral_add_left (μ := volume) ((q_right_measurable vSystem hP (moves j) x).mul (hA 1 0))
    (fun y => (moves j).q vSystem P x y * (moves j).after vSystem P (fun _ => 0) 1 x y)
  simp only [Pi.mul_apply] at hl
  rw [← hl]
  refine lintegral_congr fun y => ?_
  rw [← mul_add]
  congr 1
  unfold Kind.after
  by_cases hy : y ∈ P.good
  · simp only [if_pos hy, mul_zero, add_zero]
  · simp only [if_neg hy, zero_add]

theorem Kind.q_pos (vSystem : ℝ) (hv : 0 < vSystem) (hn : 0 < n) (P : Land m n) (k : Kind) (hk : k.Ok)
    (x y : Comps m n) : k.q vSystem P x y ≠ 0 := by
  have hs : 0 < k.dev vSystem n ^ 2 := by
    have := k.dev_ne vSystem hv hn hk
    positivity
  unfold Kind.q
  rw [Ne, ENNReal.ofReal_eq_zero, not_le]
  exact attemptPdf_pos _ _ hs _

/-- From every state a turn can succeed, unless the compressor fails almost everywhere. -/
theorem success_ne_zero (vSystem : ℝ) (hv : 0 < vSystem) (hn : 0 < n) {P : Land m n} (hP : P.Meas) (moves : Fin M → Kind)
    (hk : ∀ j, (moves j).Ok) (wt : Fin M → ℝ) (h0 : ∀ j, 0 ≤ wt j) (hs : 0 < ∑ j, wt j)
    (hg : volume P.good ≠ 0) (x : Comps m n) : success vSystem P moves wt x ≠ 0 := by
  intro h
  unfold success expect at h
  rw [Finset.sum_eq_zero_iff] at h
  have hex : ∃ j, 0 < wt j := by
    by_contra hno
    push Not at hno
    exact absurd hs (not_lt.2 (Finset.sum_nonpos fun j _ => hno j))
  obtain ⟨j, hj⟩ := hex
  have hp : ENNReal.ofReal (moveProb wt j) ≠ 0 := by
    rw [Ne, ENNReal.ofReal_eq_zero, not_le]
    unfold moveProb
    rw [accum_eq, zero_add]
    exact div_pos hj hs
  have hj2 := (mul_eq_zero.1 (h j (mem_univ j))).resolve_left hp
  rw [move_expect vSystem hv hn hP (moves j) (hk j) (f := fun _ => 1) measurable_const] at hj2
  have hA := measurable_right (fun x y => (moves j).after vSystem P (fun _ => 1) 0 x y)
    (after_measurable vSystem hP (moves j) (measurable_const (a := 1)) (measurable_const (a := 0))) x
  have hm : Measurable fun y => (moves j).q vSystem P x y * (moves j).after vSystem P (fun _ => 1) 0 x y :=
    (q_right_measurable vSystem hP (moves j) x).mul hA
  have hae := (lintegral_eq_zero_iff hm).1 hj2
  apply hg
  refine measure_mono_null ?_ (ae_iff.1 hae)
  intro y hy h2
  simp only [Pi.zero_apply, mul_eq_zero, (moves j).q_pos vSystem hv hn P (hk j), false_or] at h2
  unfold Kind.after at h2
  rw [if_pos hy, mul_one, mul_one] at h2
  have hle : (moves j).a vSystem P x y ≤ 1 := by
    unfold Kind.a
    rw [ENNReal.ofReal_le_one]
    exact min_le_left _ _
  rw [add_tsub_cancel_of_le hle] at h2
  exact one_ne_zero h2

theorem boltz_zero {P : Land m n} (hP : P.Meas) (hg : volume P.good = 0) : P.boltz = 0 := by
  unfold Land.boltz Land.boltzW
  rw [withDensity_indicator hP.good, Measure.restrict_eq_zero.2 hg, withDensity_zero_left]

/-- C106, observed states. Steps at which the compressor fails are not counted, and the next one starts from the
same state. The states seen by analyzers therefore have the stationary density `success * exp(-H)`: states
from which moves fail more often are seen less often than the Boltzmann distribution demands. -/
theorem C106_observed_partial (vSystem : ℝ) (hv : 0 < vSystem) (hn : 0 < n) {P : Land m n} (hP : P.Meas)
    (moves : Fin M → Kind) (hk : ∀ j, (moves j).Ok) (wt : Fin M → ℝ) (h0 : ∀ j, 0 ≤ wt j) (hs : 0 < ∑ j, wt j)
    {f : Comps m n → ℝ≥0∞} (hf : Measurable f) :
    ∫⁻ x, success vSystem P moves wt x * observe vSystem P moves wt f x ∂P.boltz =
      ∫⁻ x, success vSystem P moves wt x * f x ∂P.boltz := by
  by_cases hg : volume P.good = 0
  · rw [boltz_zero hP hg, lintegral_zero_measure, lintegral_zero_measure]
  have hpos := success_ne_zero vSystem hv hn hP moves hk wt h0 hs hg
  have h := C106_reversible vSystem hv hn hP moves hk wt 0 hf (measurable_const (a := 1))
  simp only [zero_mul, one_mul] at h
  have h2 : ∀ x, success vSystem P moves wt x * f x = f x * expect vSystem P moves wt (fun _ => 1) (fun _ => 0) x :=
    fun x => mul_comm _ _
  rw [lintegral_congr h2, ← h]
  refine lintegral_congr fun x => ?_
  have hsum := expect_split vSystem hv hn hP moves hk wt h0 hs x
  have hle : expect vSystem P moves wt (fun _ => 0) (fun _ => 1) x ≤ 1 := le_add_self.trans hsum.le
  have hsucc : 1 - expect vSystem P moves wt (fun _ => 0) (fun _ => 1) x = success vSystem P moves wt x :=
    (ENNReal.eq_sub_of_add_eq (ne_top_of_le_ne_top ENNReal.one_ne_top hle) hsum).symm
  have hfin : success vSystem P moves wt x ≠ ⊤ :=
    ne_top_of_le_ne_top ENNReal.one_ne_top (le_self_add.trans hsum.le)
  unfold observe
  rw [ENNReal.tsum_mul_right, ENNReal.tsum_geometric, hsucc, ← mul_assoc, ENNReal.mul_inv_cancel (hpos x) hfin, one_mul]

/-- If no move fails, or all states have the same chance of failure, the observed states have the Boltzmann
distribution. -/
theorem C106_observed_uniform (vSystem : ℝ) (hv : 0 < vSystem) (hn : 0 < n) {P : Land m n} (hP : P.Meas)
    (moves : Fin M → Kind) (hk : ∀ j, (moves j).Ok) (wt : Fin M → ℝ) (h0 : ∀ j, 0 ≤ wt j) (hs : 0 < ∑ j, wt j)
    (s : ℝ≥0∞) (hs0 : s ≠ 0) (hall : ∀ x, success vSystem P moves wt x = s) {f : Comps m n → ℝ≥0∞}
    (hf : Measurable f) :
    ∫⁻ x, observe vSystem P moves wt f x ∂P.boltz = ∫⁻ x, f x ∂P.boltz := by
  have h := C106_observed_partial vSystem hv hn hP moves hk wt h0 hs hf
  simp only [hall] at h
  have hfin : s ≠ ⊤ := by
    have := expect_split vSystem hv hn hP moves hk wt h0 hs 0
    rw [hall] at this
    exact ne_top_of_le_ne_top ENNReal.one_ne_top (le_self_add.trans this.le)
  rw [lintegral_const_mul' _ _ hfin, lintegral_const_mul' _ _ hfin] at h
  exact (ENNReal.mul_right_inj hs0 hfin).1 h

/-- Two points on a line of two monomers, a quadratic energy, forces of another energy, and a compressor that fails
at large fields. -/
def exLand : Land 1 2 where
  H x := x 0 0 ^ 2 + x 0 1 ^ 2
  dc x := fun _ k => 3 * x 0 k
  good := {x | x 0 0 < 5}

theorem coord_measurable (j : Fin m) (i : Fin n) : Measurable fun x : Comps m n => x j i :=
  (measurable_pi_apply i).comp (measurable_pi_apply j)

theorem exLand_meas : exLand.Meas where
  H := ((coord_measurable 0 0).pow_const 2).add ((coord_measurable 0 1).pow_const 2)
  dc := measurable_pi_lambda _ fun _ => measurable_pi_lambda _ fun i => (coord_measurable 0 i).const_mul 3
  good := measurableSet_lt (coord_measurable 0 0) measurable_const

/-- Ten turns with both kinds of moves. -/
example : ∫⁻ x, expectN 7 exLand ![.real 2, .forceBias 3] ![1, 4] 10 (fun x => ENNReal.ofReal (x 0 0)) x ∂exLand.boltz =
    ∫⁻ x, ENNReal.ofReal (x 0 0) ∂exLand.boltz := by
  refine (C106_stationary_run 7 (by norm_num) (by norm_num) exLand_meas _ ?_ _ ?_ ?_
    (coord_measurable 0 0).ennreal_ofReal 10).2
  · intro j
    fin_cases j
    · exact (by norm_num : (2 : ℝ) ≠ 0)
    · exact (by norm_num : (0 : ℝ) < 3)
  · intro j
    fin_cases j <;> simp
  · simp [Fin.sum_univ_two]
    norm_num

/-- The observed states. -/
example : ∫⁻ x, success 7 exLand ![.real 2] ![1] x * observe 7 exLand ![.real 2] ![1] (fun x => ENNReal.ofReal (x 0 1)) x
      ∂exLand.boltz =
    ∫⁻ x, success 7 exLand ![.real 2] ![1] x * ENNReal.ofReal (x 0 1) ∂exLand.boltz := by
  refine C106_observed_partial 7 (by norm_num) (by norm_num) exLand_meas _ ?_ _ ?_ ?_
    (coord_measurable 0 1).ennreal_ofReal
  · intro j
    fin_cases j
    exact (by norm_num : (2 : ℝ) ≠ 0)
  · intro j
    fin_cases j
    simp
  · simp

end

end Verif.Fts
