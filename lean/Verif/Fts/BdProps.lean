import Verif.Fts.BdLemmas
import Verif.Fts.CompressProps

/-!
# Brownian dynamics for every history, and simulation steps on the GPU: property C120
-/

set_option autoImplicit false
set_option linter.unusedSectionVars false

namespace Verif.Fts

open Finset

variable {m n : Nat}

/-! ## The GPU code computes what the CPU code computes -/

/-- Eigenvector components of the w fields and of the concentrations, and the forces. -/
theorem C120_components (e : Eig m) (w c : Flds m n) (vMonomer : ℝ) (wc cc : Flds m n) :
    Gpu.computeWc e w = computeWcF e w ∧ Gpu.computeCc e c = computeCcF e c ∧
      Gpu.computeDc vMonomer e wc cc = computeDcF vMonomer e wc cc := by
  refine ⟨?_, ?_, rfl⟩
  · funext i k
    rw [Gpu.computeWc, Gpu.linComb_eq, computeWcF, accum_eq, zero_add]
    exact sum_congr rfl fun j _ => mul_comm _ _
  · funext i k
    rw [Gpu.computeCc, Gpu.linComb_eq, computeCcF, accum_eq, zero_add]
    exact sum_congr rfl fun j _ => mul_comm _ _

/-- Hamiltonian, energy of the Einstein crystal and the forces with this perturbation. -/
theorem C120_hamiltonian (vSystem vMonomer lam : ℝ) (species : List Spec) (e : Eig m) (eps : Fin m → ℝ)
    (wc wc0 : Flds m n) (dc : Comps m n) :
    Gpu.hamiltonian vSystem vMonomer species e wc = hamiltonianF vSystem vMonomer species e wc ∧
    Gpu.ecHamiltonian vSystem vMonomer eps wc wc0 = ecHamiltonian vSystem vMonomer eps wc wc0 ∧
    Gpu.incrementDc vMonomer lam eps wc wc0 dc = incrementDc vMonomer lam eps wc wc0 dc := by
  refine ⟨?_, ?_, ?_⟩
  · simp only [Gpu.hamiltonian, hamiltonianF, Gpu.sum, Gpu.innerProduct, Gpu.subVS, accum_eq, zero_add, sum_div,
      mul_sum, mul_assoc]
  · simp only [Gpu.ecHamiltonian, ecHamiltonian, Gpu.innerProduct, Gpu.subVV, accum_eq, zero_add, mul_sum, mul_assoc]
  · funext i k
    simp only [Gpu.incrementDc, incrementDc, Gpu.addVcVc, Gpu.mulEqS, Gpu.subVV]
    ring

/-- Bias of a force bias move. -/
theorem C120_bias (mobility vSystem : ℝ) (di df dwc : Comps m n) :
    Gpu.forceBias mobility vSystem di df dwc = fbBias mobility vSystem di df dwc := rfl

/-- Residual of the compressors. -/
theorem C120_residual (s : CSys m n) : Gpu.residual s.c = cResid s := by
  funext k
  rw [Gpu.residual_eq, cResid_eq]

/-- Fields of the Monte Carlo moves and of the explicit step, for a mesh with an even number of points and the same
Gaussian random numbers. -/
theorem C120_moves_partial (h0 : 0 < n) (he : Even n) (e : Eig m) (sigma mobility vSystem : ℝ) (w : Flds m n)
    (dc g : Comps m n) :
    Gpu.realMove e sigma w g = .ok (displace e w (realDisplacement sigma g)) ∧
    Gpu.forceBiasMove e mobility vSystem w dc g = .ok (displace e w (fbDisplacement mobility vSystem dc g)) ∧
    Gpu.explicitBd e mobility vSystem w dc g = .ok (displace e w (bdDisplacement mobility vSystem dc g)) := by
  refine ⟨Gpu.evLoop_displace _ _ _ _ fun j => ?_, Gpu.evLoop_displace _ _ _ _ fun j => ?_,
    Gpu.evLoop_displace _ _ _ _ fun j => ?_⟩
  · exact Gpu.normal_even h0 he _ _
  · rw [Gpu.fbDisp, Gpu.normal_even h0 he, Res.ok_bind]
    congr 1
    funext k
    simp only [Gpu.addVcVc, fbDisplacement]
    ring
  · rw [Gpu.normal_even h0 he, Res.ok_bind]
    congr 1
    funext k
    simp only [Gpu.addVcVc, bdDisplacement]
    ring

/-- A step of the predictor-corrector algorithm, successful or not. -/
theorem C120_predCorr_partial (h0 : 0 < n) (he : Even n) (e : Eig m) (mobility vSystem : ℝ)
    (force : Flds m n → Comps m n) (comp : Flds m n → Option (Flds m n)) (w : Flds m n) (g : Comps m n) :
    Gpu.pcStep e mobility vSystem force comp w g = .ok (pcStep e mobility vSystem force comp w g) := by
  have h1 : Gpu.fill (fun j => Gpu.normal (g j) 1 0 >>= fun x =>
      (.ok (Gpu.mulEqS x √(2 * mobility * (n : ℝ) / vSystem)) : Res (Fd n))) =
      .ok fun j k => pcAmp n mobility vSystem * g j k := by
    apply Gpu.fill_ok
    intro j
    rw [Gpu.normal_even h0 he, Res.ok_bind]
    congr 1
    funext k
    simp only [Gpu.mulEqS, pcAmp]
    ring
  have h2 : Gpu.evLoop e (fun j => .ok (Gpu.addVcVc (force w j) (-1 * mobility)
      (fun k => pcAmp n mobility vSystem * g j k) 1)) (List.finRange m) w =
      .ok (pcPredict e mobility vSystem force w g) := by
    refine Gpu.evLoop_displace _ _ _ _ fun j => ?_
    congr 1
    funext k
    simp only [Gpu.addVcVc]
    ring
  have h3 : ∀ wp, Gpu.evLoop e (fun j => .ok (Gpu.addVcVcVc (force w j) (1 / 2 * (-1 * mobility)) (force wp j)
      (1 / 2 * (-1 * mobility)) (fun k => pcAmp n mobility vSystem * g j k) 1)) (List.finRange m)
      (fun i => Gpu.addEqV (w i) (Gpu.subVV (Gpu.computeWc e wp (Fin.last m)) (Gpu.computeWc e w (Fin.last m)))) =
      .ok (pcCorrect e mobility vSystem force w wp g) := by
    intro wp
    rw [(C120_components e wp wp 0 wp wp).1, (C120_components e w w 0 w w).1]
    refine Gpu.evLoop_displace _ _ _ _ fun j => ?_
    congr 1
    funext k
    simp only [Gpu.addVcVcVc]
    ring
  simp only [Gpu.pcStep, pcStep, h1, h2, Res.ok_bind]
  cases h : comp (pcPredict e mobility vSystem force w g) with
  | none => rfl
  | some wp =>
    simp only [h3, Res.ok_bind]
    cases comp (pcCorrect e mobility vSystem force w wp g) <;> rfl

/-- Steps of the Leimkuhler–Matthews algorithm: any number of them, successful or not. -/
theorem C120_lm_partial (h0 : 0 < n) (he : Even n) (e : Eig m) (mobility vSystem : ℝ)
    (force : Flds m n → Comps m n) (comp : Flds m n → Option (Flds m n)) (s : LM m n) (g0 : Comps m n)
    (gs : List (Comps m n)) :
    Gpu.lmRun e mobility vSystem force comp s g0 gs = .ok (LM.run e mobility vSystem force comp s g0 gs) := by
  have h1 : ∀ g : Comps m n, Gpu.fill (Gpu.lmEta mobility vSystem g) = .ok fun j k => lmAmp n mobility vSystem * g j k :=
    fun g => Gpu.fill_ok _ _ fun j => Gpu.lmEta_even h0 he mobility vSystem g j
  have h2 : ∀ s g, Gpu.lmStep e mobility vSystem force comp s g = .ok (LM.step e mobility vSystem force comp s g) := by
    intro s g
    rw [Gpu.lmStep, h1, Res.ok_bind]
    dsimp only
    rw [Gpu.evLoop_displace (d := fun j k => -1 * mobility * force s.w j k +
      (LM.generate mobility vSystem s g).new j k + (LM.generate mobility vSystem s g).old j k), Res.ok_bind]
    · rw [LM.step]
      generalize comp _ = o
      cases o <;> rfl
    · intro j
      congr 1
      funext k
      simp only [Gpu.addVcVcVc, LM.generate]
      ring
  have h3 : ∀ (gs : List (Comps m n)) (s : LM m n),
      gs.foldlM (fun s g => Gpu.lmStep e mobility vSystem force comp s g) s =
        (.ok (gs.foldl (LM.step e mobility vSystem force comp) s) : Res (LM m n)) := by
    intro gs
    induction gs with
    | nil => intro s; rfl
    | cons g gs ih => intro s; rw [List.foldlM_cons, h2, Res.ok_bind, ih]; rfl
  rw [Gpu.lmRun, Gpu.lmSetup, h1, Res.ok_bind, Res.ok_bind, h3]
  rfl

/-! ## Leimkuhler–Matthews dynamics -/

/-- What the algorithm should do, without arrays and pointers: `w`, the random numbers of the last successful step
(or of the setup), and the list of successful steps, with the fields before the step and its random numbers. -/
structure LmSpec (m n : Nat) where
  w : Flds m n
  last : Comps m n
  log : List (Flds m n × Comps m n)

/-- One step: half of the noise is that of the last successful step; a step that fails changes nothing. -/
noncomputable def LmSpec.step (e : Eig m) (mobility b : ℝ) (force : Flds m n → Comps m n)
    (comp : Flds m n → Option (Flds m n)) (s : LmSpec m n) (g : Comps m n) : LmSpec m n :=
  match comp (displace e s.w fun j k => -mobility * force s.w j k + b * (s.last j k + g j k)) with
  | none => s
  | some w => ⟨w, g, s.log ++ [(s.w, g)]⟩

/-- The simulation. -/
noncomputable def LmSpec.run (e : Eig m) (mobility b : ℝ) (force : Flds m n → Comps m n)
    (comp : Flds m n → Option (Flds m n)) (w : Flds m n) (g0 : Comps m n) (gs : List (Comps m n)) : LmSpec m n :=
  gs.foldl (LmSpec.step e mobility b force comp) ⟨w, g0, []⟩

/-- For every history of successes and failures, the two arrays and the pointers implement the algorithm: the fields
are those of the specification, and `etaOld` is the noise of the last successful step.  What the arrays contained
before `setup` has no effect. -/
theorem C120_lm_history (e : Eig m) (mobility vSystem : ℝ) (force : Flds m n → Comps m n)
    (comp : Flds m n → Option (Flds m n)) (s : LM m n) (g0 : Comps m n) (gs : List (Comps m n)) :
    (LM.run e mobility vSystem force comp s g0 gs).w =
      (LmSpec.run e mobility (lmAmp n mobility vSystem) force comp s.w g0 gs).w ∧
    (LM.run e mobility vSystem force comp s g0 gs).old = fun j k => lmAmp n mobility vSystem *
      (LmSpec.run e mobility (lmAmp n mobility vSystem) force comp s.w g0 gs).last j k := by
  have h : ∀ (gs : List (Comps m n)) (s : LM m n) (t : LmSpec m n), s.w = t.w →
      (s.old = fun j k => lmAmp n mobility vSystem * t.last j k) →
      (gs.foldl (LM.step e mobility vSystem force comp) s).w =
        (gs.foldl (LmSpec.step e mobility (lmAmp n mobility vSystem) force comp) t).w ∧
      (gs.foldl (LM.step e mobility vSystem force comp) s).old = fun j k => lmAmp n mobility vSystem *
        (gs.foldl (LmSpec.step e mobility (lmAmp n mobility vSystem) force comp) t).last j k := by
    intro gs
    induction gs with
    | nil => intro s t h1 h2; exact ⟨h1, h2⟩
    | cons g gs ih =>
      intro s t h1 h2
      rw [List.foldl_cons, List.foldl_cons]
      have hn : (LM.generate mobility vSystem s g).new = fun j k => lmAmp n mobility vSystem * g j k := by
        unfold LM.generate LM.putNew LM.new
        cases s.oldIsA <;> simp
      have ho : (LM.generate mobility vSystem s g).old = s.old := by
        unfold LM.generate LM.putNew LM.old
        cases s.oldIsA <;> simp
      have hw : (LM.generate mobility vSystem s g).w = s.w := by
        unfold LM.generate LM.putNew
        cases s.oldIsA <;> simp
      have hd : (displace e s.w fun j k => -1 * mobility * force s.w j k + (LM.generate mobility vSystem s g).new j k +
          (LM.generate mobility vSystem s g).old j k) = displace e t.w fun j k => -mobility * force t.w j k +
          lmAmp n mobility vSystem * (t.last j k + g j k) := by
        rw [hn, ho, h2, h1]
        congr 1
        funext j k
        ring
      have hx : ∀ x : LM m n, x.exchange.old = x.new ∧ x.exchange.w = x.w := by
        intro x
        unfold LM.exchange LM.old LM.new
        cases x.oldIsA <;> simp
      cases hc : comp (displace e t.w fun j k => -mobility * force t.w j k +
          lmAmp n mobility vSystem * (t.last j k + g j k)) with
      | none =>
        have e1 : LM.step e mobility vSystem force comp s g = LM.generate mobility vSystem s g := by
          simp only [LM.step, hd, hc]
        have e2 : LmSpec.step e mobility (lmAmp n mobility vSystem) force comp t g = t := by
          simp only [LmSpec.step, hc]
        rw [e1, e2]
        exact ih _ _ (hw.trans h1) (ho.trans h2)
      | some w =>
        have e1 : LM.step e mobility vSystem force comp s g =
            ({ LM.generate mobility vSystem s g with w := w } : LM m n).exchange := by
          simp only [LM.step, hd, hc]
        have e2 : LmSpec.step e mobility (lmAmp n mobility vSystem) force comp t g = ⟨w, g, t.log ++ [(t.w, g)]⟩ := by
          simp only [LmSpec.step, hc]
        rw [e1, e2]
        refine ih _ _ (hx _).2 ((hx _).1.trans ?_)
        rw [← hn]
        rfl
  refine h gs _ ⟨s.w, g0, []⟩ ?_ ?_
  · rfl
  · rfl

/-- The composition fields after any history, if the compressor changes only the pressure: the sum of the forces in
the successful steps, and each random number of a successful step twice, except the first one (from the setup) and the
last one, which count once.  Random numbers drawn in a failed step do not enter. -/
theorem C120_lm_sum {chi : Mat m} {e : Eig m} (he : EigGood chi e) (mobility vSystem : ℝ)
    (force : Flds m n → Comps m n) (comp : Flds m n → Option (Flds m n))
    (hc : ∀ w w', comp w = some w' → OnlyPressure w w') (s : LM m n) (g0 : Comps m n) (gs : List (Comps m n))
    (j : Fin m) (k : Fin n) :
    let t := LmSpec.run e mobility (lmAmp n mobility vSystem) force comp s.w g0 gs
    computeWcF e (LM.run e mobility vSystem force comp s g0 gs).w j.castSucc k =
      computeWcF e s.w j.castSucc k - mobility * (t.log.map fun x => force x.1 j k).sum +
      lmAmp n mobility vSystem * (g0 j k + 2 * (t.log.map fun x => x.2 j k).sum - t.last j k) := by
  intro t
  rw [(C120_lm_history e mobility vSystem force comp s g0 gs).1]
  change computeWcF e t.w j.castSucc k = _
  set b := lmAmp n mobility vSystem with hb
  let I : LmSpec m n → Prop := fun t => computeWcF e t.w j.castSucc k = computeWcF e s.w j.castSucc k -
    mobility * (t.log.map fun x => force x.1 j k).sum + b * (g0 j k + 2 * (t.log.map fun x => x.2 j k).sum - t.last j k)
  have hstep : ∀ (gs : List (Comps m n)) (t : LmSpec m n), I t →
      I (gs.foldl (LmSpec.step e mobility b force comp) t) := by
    intro gs
    induction gs with
    | nil => intro t ht; exact ht
    | cons g gs ih =>
      intro t ht
      rw [List.foldl_cons]
      apply ih
      cases hcc : comp (displace e t.w fun j k => -mobility * force t.w j k + b * (t.last j k + g j k)) with
      | none => simpa only [LmSpec.step, hcc] using ht
      | some w =>
        simp only [LmSpec.step, hcc, I] at ht ⊢
        obtain ⟨p, hp⟩ := hc _ _ hcc
        have := C61_displace he t.w (fun j k => -mobility * force t.w j k + b * (t.last j k + g j k)) p j k
        rw [show w = fun i k => displace e t.w (fun j k => -mobility * force t.w j k +
          b * (t.last j k + g j k)) i k + p k from funext fun i => funext fun k => hp i k, this, ht]
        simp only [List.map_append, List.map_cons, List.map_nil, List.sum_append, List.sum_cons, List.sum_nil]
        ring
  exact hstep gs _ (by simp [I])

/-- The amplitude of the noise of this algorithm is half of that of the other algorithms, for each of the two
terms: a random number that was used twice has the same weight. -/
theorem C120_lm_amplitude (mobility vSystem : ℝ) : pcAmp n mobility vSystem = 2 * lmAmp n mobility vSystem := by
  rw [pcAmp, lmAmp, show 2 * mobility * (n : ℝ) / vSystem = 2 ^ 2 * (1 / 2 * mobility * (n : ℝ) / vSystem) by ring,
    Real.sqrt_mul (by norm_num), Real.sqrt_sq (by norm_num)]

/-! ## Predictor-corrector dynamics -/

/-- The predicted fields are those of the explicit step. -/
theorem C120_predictor (e : Eig m) (mobility vSystem : ℝ) (force : Flds m n → Comps m n) (w : Flds m n)
    (g : Comps m n) : pcPredict e mobility vSystem force w g =
      displace e w (bdDisplacement mobility vSystem (force w) g) := rfl

/-- If the step succeeds and the compressor changes only the pressure, the composition fields change by half of the
sum of the forces before the step and at the predicted state, with the noise of the predictor (Heun's scheme). -/
theorem C120_heun {chi : Mat m} {e : Eig m} (he : EigGood chi e) (mobility vSystem : ℝ)
    (force : Flds m n → Comps m n) (comp : Flds m n → Option (Flds m n))
    (hc : ∀ w w', comp w = some w' → OnlyPressure w w') (w wf : Flds m n) (g : Comps m n)
    (h : pcStep e mobility vSystem force comp w g = (wf, true)) :
    ∃ wp : Flds m n, comp (displace e w (bdDisplacement mobility vSystem (force w) g)) = some wp ∧
      (∀ j k, computeWcF e wp j.castSucc k = computeWcF e w j.castSucc k - mobility * force w j k +
        pcAmp n mobility vSystem * g j k) ∧
      ∀ j k, computeWcF e wf j.castSucc k = computeWcF e w j.castSucc k -
        mobility * ((force w j k + force wp j k) / 2) + pcAmp n mobility vSystem * g j k := by
  unfold pcStep at h
  cases h1 : comp (pcPredict e mobility vSystem force w g) with
  | none => simp [h1] at h
  | some wp =>
    simp only [h1] at h
    refine ⟨wp, h1, fun j k => ?_, fun j k => ?_⟩
    · obtain ⟨p, hp⟩ := hc _ _ h1
      rw [show wp = fun i k => pcPredict e mobility vSystem force w g i k + p k from
        funext fun i => funext fun k => hp i k, pcPredict, C61_displace he]
      ring
    · cases h2 : comp (pcCorrect e mobility vSystem force w wp g) with
      | none => simp [h2] at h
      | some wq =>
        simp only [h2, Prod.mk.injEq, and_true] at h
        subst h
        obtain ⟨p, hp⟩ := hc _ _ h2
        rw [show wq = fun i k => pcCorrect e mobility vSystem force w wp g i k + p k from
          funext fun i => funext fun k => hp i k, pcCorrect, C61_displace he]
        have h3 := C61_displace he w (fun _ _ => 0)
          (fun k => computeWcF e wp (Fin.last m) k - computeWcF e w (Fin.last m) k) j k
        have h4 : (fun i k => displace e w (fun _ _ => 0) i k +
            (computeWcF e wp (Fin.last m) k - computeWcF e w (Fin.last m) k)) =
            fun i k => w i k + (computeWcF e wp (Fin.last m) k - computeWcF e w (Fin.last m) k) := by
          funext i k
          simp [displace, accum_eq]
        rw [h4] at h3
        rw [h3]
        ring

/-- The fields given to the compressor in the corrector have the pressure of the compressed predicted fields. -/
theorem C120_pressure {chi : Mat m} {e : Eig m} (he : EigGood chi e) (mobility vSystem : ℝ)
    (force : Flds m n → Comps m n) (w wp : Flds m n) (g : Comps m n) (k : Fin n) :
    computeWcF e (pcCorrect e mobility vSystem force w wp g) (Fin.last m) k = computeWcF e wp (Fin.last m) k := by
  have hM : nM m ≠ 0 := nM_ne m
  have h0 : ∀ j : Fin m, ∑ i, e.vec j.castSucc i = 0 := by
    intro j
    have := he.ortho j.castSucc (Fin.last m)
    simp only [he.last, mul_one] at this
    rw [this, if_neg (Fin.castSucc_lt_last j).ne]
  rw [C61_pressure he, C61_pressure he]
  simp only [pcCorrect, displace, accum_eq]
  rw [sum_add_distrib, sum_comm]
  simp only [← sum_mul, h0, zero_mul, sum_const_zero, add_zero]
  rw [sum_add_distrib, C61_pressure he, C61_pressure he]
  have hc : ∑ _i : Fin (m + 1), ((∑ i, wp i k) / nM m - (∑ i, w i k) / nM m) = ∑ i, wp i k - ∑ i, w i k := by
    rw [sum_const, card_univ, Fintype.card_fin, nsmul_eq_mul]
    have : ((m + 1 : ℕ) : ℝ) = nM m := by simp [nM]
    rw [this]
    field_simp
  rw [hc]
  congr 1
  ring

/-- A step that fails leaves the fields as they were. -/
theorem C120_failure (e : Eig m) (mobility vSystem : ℝ) (force : Flds m n → Comps m n)
    (comp : Flds m n → Option (Flds m n)) (w wf : Flds m n) (g : Comps m n)
    (h : pcStep e mobility vSystem force comp w g = (wf, false)) : wf = w := by
  unfold pcStep at h
  cases h1 : comp (pcPredict e mobility vSystem force w g) with
  | none => simp [h1] at h; exact h.symm
  | some wp =>
    simp only [h1] at h
    cases h2 : comp (pcCorrect e mobility vSystem force w wp g) with
    | none => simp [h2] at h; exact h.symm
    | some wq => simp [h2] at h

/-! ## Where the GPU code differs -/

/-- Violation: on a mesh with an odd number of points every move and every step of the GPU code throws, for any
system with more than one monomer type. -/
theorem C120_violated_odd (ho : Odd n) (hm : 0 < m) (e : Eig m) (sigma mobility vSystem : ℝ) (w : Flds m n)
    (dc g : Comps m n) (force : Flds m n → Comps m n) (comp : Flds m n → Option (Flds m n)) (s : LM m n)
    (gs : List (Comps m n)) :
    Gpu.realMove e sigma w g = .throw ∧ Gpu.forceBiasMove e mobility vSystem w dc g = .throw ∧
    Gpu.explicitBd e mobility vSystem w dc g = .throw ∧ Gpu.pcStep e mobility vSystem force comp w g = .throw ∧
    Gpu.lmRun e mobility vSystem force comp s g gs = .throw := by
  refine ⟨Gpu.evLoop_throw _ _ hm _ fun j => ?_, Gpu.evLoop_throw _ _ hm _ fun j => ?_,
    Gpu.evLoop_throw _ _ hm _ fun j => ?_, ?_, ?_⟩
  · exact Gpu.normal_odd ho _ _ _
  · rw [Gpu.fbDisp, Gpu.normal_odd ho, Res.throw_bind]
  · rw [Gpu.normal_odd ho, Res.throw_bind]
  · rw [Gpu.pcStep, Gpu.fill_throw _ hm fun j => by rw [Gpu.normal_odd ho, Res.throw_bind], Res.throw_bind]
  · rw [Gpu.lmRun, Gpu.lmSetup, Gpu.fill_throw _ hm fun j => by rw [Gpu.lmEta, Gpu.normal_odd ho, Res.throw_bind],
      Res.throw_bind, Res.throw_bind]

/-- Violation: with force bias moves or explicit steps, only the first simulation of a program run can start. -/
theorem C120_violated_setup (k : Nat) : Gpu.setups .forceBias (k + 2) = .throw ∧
    Gpu.setups .explicitBd (k + 2) = .throw := by
  induction k with
  | zero => exact ⟨rfl, rfl⟩
  | succ k ih =>
    constructor
    · rw [show k + 1 + 2 = (k + 2) + 1 from rfl, Gpu.setups, ih.1, Res.throw_bind]
    · rw [show k + 1 + 2 = (k + 2) + 1 from rfl, Gpu.setups, ih.2, Res.throw_bind]

/-- With the other moves and steps any number of simulations can be started. -/
theorem C120_setup_partial (s : Gpu.Stepper) (h : s = .real ∨ s = .predCorr ∨ s = .lm) (k : Nat) :
    Gpu.setups s (k + 1) = .ok true := by
  induction k with
  | zero => rcases h with rfl | rfl | rfl <;> rfl
  | succ k ih =>
    rw [Gpu.setups, ih, Res.ok_bind]
    rcases h with rfl | rfl | rfl <;> rfl

/-! ## Examples -/

/-- Two monomer types: eigenvectors `(1,-1)` and `(1,1)` of the projected matrix with `chi = [[0,1],[1,0]]`. -/
noncomputable def ex120 : Eig 1 where
  val := ![-1, 0]
  vec := ![![1, -1], ![1, 1]]
  sc := ![0, 1 / 2]

/-- A compressor that subtracts the field of the first monomer type from both fields. -/
def exComp120 : Flds 1 2 → Option (Flds 1 2) := fun w => some fun i k => w i k - w 0 k

theorem ex120_good : EigGood (m := 1) ![![0, 1], ![1, 0]] ex120 := by
  constructor
  · intro j k; fin_cases j <;> fin_cases k <;> simp [ex120, nM] <;> norm_num
  · intro i; fin_cases i <;> simp [ex120, Fin.last]
  · intro j k; fin_cases j <;> fin_cases k <;> simp [ex120, chiPM, chiT, projP, accum_eq, nM, Fin.sum_univ_succ] <;> norm_num
  · intro j; fin_cases j; simp [ex120]
  · simp [ex120, Fin.last]
  · intro j; fin_cases j <;> (simp [ex120, nM]; try norm_num)

theorem exComp120_pressure (w w' : Flds 1 2) (h : exComp120 w = some w') : OnlyPressure w w' := by
  rw [exComp120, Option.some.injEq] at h
  exact ⟨fun k => -w 0 k, fun i k => by rw [← h]; exact sub_eq_add_neg _ _⟩

/-- The hypotheses of `C120_lm_sum` and `C120_heun`: every history with this compressor. -/
example (g0 : Comps 1 2) (gs : List (Comps 1 2)) (j : Fin 1) (k : Fin 2) :=
  C120_lm_sum ex120_good 1 1 (fun w j k => w j.castSucc k) exComp120 exComp120_pressure
    ⟨fun _ _ => 3, g0, g0, true⟩ g0 gs j k

example (g : Comps 1 2) : ∃ wf, pcStep ex120 1 1 (fun w j k => w j.castSucc k) exComp120 (fun _ _ => 3) g = (wf, true) :=
  ⟨_, rfl⟩

/-- The hypotheses of `C120_moves_partial` for a mesh with two points. -/
example : Gpu.realMove ex120 3 (fun _ _ => 0) (fun _ k => if k = 0 then 1 else 2) =
    .ok (displace ex120 (fun _ _ => 0) (realDisplacement 3 fun _ k => if k = (0 : Fin 2) then 1 else 2)) :=
  (C120_moves_partial (by norm_num) (by decide) ex120 3 0 0 _ (fun _ _ => 0) _).1

/-- The hypotheses of `C120_violated_odd` for a mesh with three points. -/
example (g : Comps 1 3) : Gpu.realMove ex120 3 (fun _ _ => 0) g = .throw :=
  (C120_violated_odd (by decide) (by decide) ex120 3 0 0 _ (fun _ _ => 0) g (fun _ _ _ => 0) some
    ⟨fun _ _ => 0, g, g, true⟩ []).1

end Verif.Fts
