import Verif.FloryHuggins.Model
import Verif.Tac
import Mathlib.Analysis.SpecialFunctions.Log.Deriv

/-! # C26: Flory-Huggins compositions, chemical potentials and free energy -/

namespace Verif.FH

variable {m M : Nat}

/-- Specification: amount of monomer `k` in one molecule. -/
noncomputable def content (cl : List (Clump M)) (k : Fin M) : ℝ :=
  (cl.map fun c => if c.monomer = k then c.size else 0).sum

theorem molSize_eq (cl : List (Clump M)) : molSize cl = (cl.map Clump.size).sum := by
  rw [molSize, foldl_add_eq, zero_add]

/-- Summing the contents over all monomer types gives the molecule size. -/
theorem sum_content (cl : List (Clump M)) : ∑ k, content cl k = molSize cl := by
  rw [molSize_eq]
  induction cl with
  | nil => simp [content]
  | cons c cl ih =>
    simp only [content, List.map_cons, List.sum_cons, Finset.sum_add_distrib] at ih ⊢
    rw [ih]
    simp

theorem sum_content_mul (cl : List (Clump M)) (w : Fin M → ℝ) :
    ∑ k, content cl k * w k = (cl.map fun c => c.size * w c.monomer).sum := by
  induction cl with
  | nil => simp [content]
  | cons c cl ih =>
    simp only [content, List.map_cons, List.sum_cons, add_mul, Finset.sum_add_distrib] at ih ⊢
    rw [ih]
    simp

theorem content_nonneg {cl : List (Clump M)} (h : ∀ c ∈ cl, 0 ≤ c.size) (k : Fin M) :
    0 ≤ content cl k := by
  apply List.sum_nonneg
  simp only [List.mem_map]
  rintro x ⟨c, hc, rfl⟩
  split
  · exact h c hc
  · exact le_rfl

theorem rawC_eq (mols : Mols m M) (phi : Fin (m + 1) → ℝ) (k : Fin M) :
    rawC mols phi k = ∑ i, phi i / molSize (mols i) * content (mols i) k := by
  have inner : ∀ (cl : List (Clump M)) (x : ℝ) (c : Fin M → ℝ),
      cl.foldl (fun c cl => fun k => if k = cl.monomer then c k + x * cl.size else c k) c k
        = c k + x * content cl k := by
    intro cl x
    induction cl with
    | nil => intro c; simp [content]
    | cons a cl ih =>
      intro c
      rw [List.foldl_cons, ih]
      simp only [content, List.map_cons, List.sum_cons, eq_comm (a := a.monomer)]
      split <;> ring
  have outer : ∀ (l : List (Fin (m + 1))) (c : Fin M → ℝ),
      l.foldl (fun c i => (mols i).foldl (fun c cl => fun k =>
        if k = cl.monomer then c k + phi i / molSize (mols i) * cl.size else c k) c) c k
        = c k + (l.map fun i => phi i / molSize (mols i) * content (mols i) k).sum := by
    intro l
    induction l with
    | nil => intro c; simp
    | cons a l ih =>
      intro c
      rw [List.foldl_cons, ih, inner, List.map_cons, List.sum_cons]; ring
  rw [rawC]
  rw [outer, zero_add, ← List.ofFn_eq_map, List.sum_ofFn]

/-- Total of the accumulated monomer fractions: the sum of the molecular volume fractions. -/
theorem sum_rawC (mols : Mols m M) (hs : ∀ i, molSize (mols i) ≠ 0) (phi : Fin (m + 1) → ℝ) :
    ∑ k, rawC mols phi k = ∑ i, phi i := by
  simp only [rawC_eq]
  rw [Finset.sum_comm]
  refine Finset.sum_congr rfl fun i _ => ?_
  rw [← Finset.mul_sum, sum_content]
  have := hs i
  field_simp

/-- C26: monomer fractions stored by `computeC` sum to one, and when the volume fractions sum
to one each is the sum over molecules of volume fraction times monomer share. -/
theorem C26_monomer_fractions (mols : Mols m M) (phi : Fin (m + 1) → ℝ) (c : Fin M → ℝ)
    (h : computeC mols phi = .ok c) :
    ∑ k, c k = 1 ∧ (∑ i, phi i = 1 →
      ∀ k, c k = ∑ i, phi i * (content (mols i) k / molSize (mols i))) := by
  unfold computeC at h
  split at h
  · cases h
  · rename_i hz
    push Not at hz
    simp only [accum_eq, zero_add] at h
    split at h
    · rename_i hc
      have hpos : (0 : ℝ) < ∑ k, rawC mols phi k := by linarith [hc.2.1]
      cases h
      refine ⟨?_, ?_⟩
      · rw [← Finset.sum_div, div_self hpos.ne']
      · intro hphi k
        show rawC mols phi k / _ = _
        rw [sum_rawC mols hz, hphi, div_one, rawC_eq]
        exact Finset.sum_congr rfl fun i _ => by ring
    · cases h

/-- C26: a successful `setComposition` stores a complete composition. -/
theorem C26_setComposition_complete (mols : Mols m M) (phi : Fin (m + 1) → ℝ)
    (p : Fin (m + 1) → ℝ) (c : Fin M → ℝ) (h : setComposition mols phi = .ok (p, c)) :
    ∑ i, p i = 1 ∧ (∀ i, 0 ≤ p i ∧ p i ≤ 1) ∧ (∀ i : Fin m, p i.castSucc = phi i.castSucc) ∧
    ∑ k, c k = 1 ∧ (∀ k, c k = ∑ i, p i * (content (mols i) k / molSize (mols i))) := by
  unfold setComposition at h
  simp only [accum_eq, zero_add] at h
  split at h
  · rename_i hc
    obtain ⟨hr, hsum⟩ := hc
    cases hcc : computeC mols (fun i => if i = Fin.last m then
        1 - ∑ i : Fin m, phi i.castSucc else phi i) with
    | ok c' =>
      simp only [hcc, Res.bind, Res.ok.injEq, Prod.mk.injEq] at h
      obtain ⟨rfl, rfl⟩ := h
      have hne : ∀ i : Fin m, i.castSucc ≠ Fin.last m := fun i => (Fin.castSucc_lt_last i).ne
      have hone : ∑ i, (fun i => if i = Fin.last m then
        1 - ∑ i : Fin m, phi i.castSucc else phi i) i = 1 := by
        rw [Fin.sum_univ_castSucc]
        simp [hne]
      have hC := C26_monomer_fractions mols _ _ hcc
      refine ⟨hone, ?_, ?_, hC.1, hC.2 hone⟩
      · intro i
        refine Fin.lastCases ?_ (fun i => ?_) i
        · simp only [if_true]
          have : 0 ≤ ∑ i : Fin m, phi i.castSucc := Finset.sum_nonneg fun i _ => (hr i).1
          constructor <;> linarith
        · simp only [hne, if_false]; exact hr i
      · intro i; simp only [hne, if_false]
    | throw => simp only [hcc, Res.bind] at h; cases h
    | ub => simp only [hcc, Res.bind] at h; cases h
  · cases h

/-- C26: every composition in the simplex is accepted (molecules with nonnegative clumps and
positive size), and is stored unchanged. -/
theorem C26_setComposition_accepts (mols : Mols m M) (hcl : ∀ i, ∀ c ∈ mols i, 0 ≤ c.size)
    (hs : ∀ i, 0 < molSize (mols i)) (phi : Fin (m + 1) → ℝ) (h0 : ∀ i, 0 ≤ phi i)
    (h1 : ∑ i, phi i = 1) : ∃ c, setComposition mols phi = .ok (phi, c) := by
  have hle : ∀ i, phi i ≤ 1 := by
    intro i
    rw [← h1]
    exact Finset.single_le_sum (fun j _ => h0 j) (Finset.mem_univ i)
  have hlast : 1 - ∑ i : Fin m, phi i.castSucc = phi (Fin.last m) := by
    rw [← h1, Fin.sum_univ_castSucc]; ring
  have hphi : (fun i => if i = Fin.last m then 1 - ∑ i : Fin m, phi i.castSucc else phi i) = phi := by
    funext i
    split
    · rename_i h; rw [h, hlast]
    · rfl
  have hraw : ∑ k, rawC mols phi k = 1 := by rw [sum_rawC mols (fun i => (hs i).ne'), h1]
  have hk0 : ∀ k, 0 ≤ rawC mols phi k := by
    intro k
    rw [rawC_eq]
    exact Finset.sum_nonneg fun i _ =>
      mul_nonneg (div_nonneg (h0 i) (hs i).le) (content_nonneg (hcl i) k)
  have hC : computeC mols phi = .ok (fun k => rawC mols phi k / 1) := by
    unfold computeC
    rw [if_neg (by push Not; exact fun i => (hs i).ne')]
    simp only [accum_eq, zero_add, hraw]
    rw [if_pos]
    refine ⟨fun k => ⟨hk0 k, ?_⟩, by norm_num, by norm_num⟩
    rw [← hraw]
    exact Finset.single_le_sum (fun j _ => hk0 j) (Finset.mem_univ k)
  refine ⟨fun k => rawC mols phi k / 1, ?_⟩
  · unfold setComposition
    simp only [accum_eq, zero_add]
    rw [if_pos]
    · rw [hphi, hC]; rfl
    · refine ⟨fun i => ⟨h0 _, hle _⟩, ?_⟩
      have := h0 (Fin.last m)
      linarith

/-! ## Chemical potentials, free energy and pressure -/

/-- Specification: interaction free energy density. -/
noncomputable def fInt (chi : Matrix (Fin M) (Fin M) ℝ) (c : Fin M → ℝ) : ℝ :=
  (1 / 2) * ∑ i, ∑ j, chi i j * c i * c j

theorem computeMu_eq {mols : Mols m M} {chi : Matrix (Fin M) (Fin M) ℝ}
    {phi : Fin (m + 1) → ℝ} {c : Fin M → ℝ} {xi : ℝ} {mu : Fin (m + 1) → ℝ}
    (h : computeMu mols chi phi c xi = .ok mu) :
    (∀ i, 0 < phi i) ∧ ∀ i, mu i = Real.log (phi i) + xi * molSize (mols i) +
      ∑ k, content (mols i) k * ∑ l, chi k l * c l := by
  unfold computeMu at h
  split at h
  · cases h
  · rename_i hp
    push Not at hp
    cases h
    refine ⟨hp, fun i => ?_⟩
    simp only [accum_eq, zero_add]
    rw [foldl_add_eq, sum_content_mul (mols i) (fun k => ∑ l, chi k l * c l)]

theorem computeFreeEnergy_eq {mols : Mols m M} {chi : Matrix (Fin M) (Fin M) ℝ}
    {phi : Fin (m + 1) → ℝ} {c : Fin M → ℝ} {mu : Fin (m + 1) → ℝ} {f p : ℝ}
    (h : computeFreeEnergy mols chi phi c mu = .ok (f, p)) :
    f = (∑ i, phi i * (Real.log (phi i) - 1) / molSize (mols i)) + fInt chi c ∧
    p = -f + ∑ i, phi i * mu i / molSize (mols i) := by
  unfold computeFreeEnergy at h
  split at h
  · cases h
  · simp only [Res.ok.injEq, Prod.mk.injEq] at h
    have hfold : (List.finRange M).foldl
        (fun s i => accum M (fun j => chi i j * c i * c j) s) 0 =
        ∑ i, ∑ j, chi i j * c i * c j := by
      have : (fun (s : ℝ) (i : Fin M) => accum M (fun j => chi i j * c i * c j) s) =
          fun s i => s + ∑ j, chi i j * c i * c j := by funext s i; rw [accum_eq]
      rw [this, foldl_add_eq, zero_add, ← List.ofFn_eq_map, List.sum_ofFn]
    rw [hfold] at h
    simp only [accum_eq, zero_add] at h
    obtain ⟨rfl, rfl⟩ := h
    exact ⟨rfl, rfl⟩

/-- C26: Gibbs relation. With the chemical potentials of `computeMu`, the pressure equals
the Lagrange multiplier plus the ideal term plus the interaction energy, i.e.
`f = Σ phi mu / N - P` with `P = xi + Σ phi/N + ½ c·χ·c`. -/
theorem C26_gibbs (mols : Mols m M) (chi : Matrix (Fin M) (Fin M) ℝ)
    (phi0 phi : Fin (m + 1) → ℝ) (c : Fin M → ℝ) (hset : setComposition mols phi0 = .ok (phi, c))
    (hs : ∀ i, molSize (mols i) ≠ 0) (xi : ℝ) (mu : Fin (m + 1) → ℝ)
    (hmu : computeMu mols chi phi c xi = .ok mu) (f p : ℝ)
    (hf : computeFreeEnergy mols chi phi c mu = .ok (f, p)) :
    f + p = ∑ i, phi i * mu i / molSize (mols i) ∧
    p = xi + (∑ i, phi i / molSize (mols i)) + fInt chi c := by
  obtain ⟨h1, h2⟩ := computeFreeEnergy_eq hf
  obtain ⟨hone, -, -, -, hc⟩ := C26_setComposition_complete mols phi0 phi c hset
  obtain ⟨hpos, hmu⟩ := computeMu_eq hmu
  refine ⟨by rw [h2]; ring, ?_⟩
  rw [h2, h1]
  have e1 : ∀ i, phi i * mu i / molSize (mols i) =
      phi i * (Real.log (phi i) - 1) / molSize (mols i) + phi i / molSize (mols i) + phi i * xi
      + ∑ k, phi i * (content (mols i) k / molSize (mols i)) * ∑ l, chi k l * c l := by
    intro i
    have := hs i
    have e2 : ∑ k, phi i * (content (mols i) k / molSize (mols i)) * ∑ l, chi k l * c l =
        phi i / molSize (mols i) * ∑ k, content (mols i) k * ∑ l, chi k l * c l := by
      rw [Finset.mul_sum]
      exact Finset.sum_congr rfl fun k _ => by ring
    rw [hmu i, e2]
    field_simp
    ring
  rw [Finset.sum_congr rfl fun i _ => e1 i]
  simp only [Finset.sum_add_distrib]
  have e3 : ∑ i, ∑ k, phi i * (content (mols i) k / molSize (mols i)) * ∑ l, chi k l * c l =
      2 * fInt chi c := by
    rw [Finset.sum_comm]
    have : ∀ k, ∑ i, phi i * (content (mols i) k / molSize (mols i)) * ∑ l, chi k l * c l =
        ∑ l, chi k l * c k * c l := by
      intro k
      rw [← Finset.sum_mul, ← hc k, Finset.mul_sum]
      exact Finset.sum_congr rfl fun l _ => by ring
    rw [Finset.sum_congr rfl fun k _ => this k, fInt]; ring
  rw [e3, ← Finset.sum_mul, hone]
  ring

/-- Helmholtz free energy as a function of the molecular volume fractions (the value
`computeFreeEnergy` stores after `setComposition`, for compositions that sum to one). -/
noncomputable def helmholtz (mols : Mols m M) (chi : Matrix (Fin M) (Fin M) ℝ)
    (phi : Fin (m + 1) → ℝ) : ℝ :=
  (∑ i, phi i * (Real.log (phi i) - 1) / molSize (mols i)) +
    fInt chi (fun k => ∑ i, phi i * (content (mols i) k / molSize (mols i)))

/-- C26: the stored free energy is the function `helmholtz` of the stored composition. -/
theorem C26_helmholtz_value (mols : Mols m M) (chi : Matrix (Fin M) (Fin M) ℝ)
    (phi0 phi : Fin (m + 1) → ℝ) (c : Fin M → ℝ) (hset : setComposition mols phi0 = .ok (phi, c))
    (mu : Fin (m + 1) → ℝ) (f p : ℝ) (hf : computeFreeEnergy mols chi phi c mu = .ok (f, p)) :
    f = helmholtz mols chi phi := by
  obtain ⟨-, -, -, -, hc⟩ := C26_setComposition_complete mols phi0 phi c hset
  rw [(computeFreeEnergy_eq hf).1, helmholtz]
  congr 2
  funext k
  exact hc k

/-- C26: exchange chemical potentials are the derivatives of the free energy: along any change
of composition `v` that preserves incompressibility, the derivative of the Helmholtz free
energy is `Σ v mu / N`. -/
theorem C26_mu_is_derivative (mols : Mols m M) (chi : Matrix (Fin M) (Fin M) ℝ)
    (hsym : ∀ i j, chi i j = chi j i) (phi0 phi : Fin (m + 1) → ℝ) (c : Fin M → ℝ)
    (hset : setComposition mols phi0 = .ok (phi, c)) (hs : ∀ i, molSize (mols i) ≠ 0) (xi : ℝ)
    (mu : Fin (m + 1) → ℝ) (hmu : computeMu mols chi phi c xi = .ok mu) (v : Fin (m + 1) → ℝ)
    (hv : ∑ i, v i = 0) :
    HasDerivAt (fun t => helmholtz mols chi (fun i => phi i + t * v i))
      (∑ i, v i * mu i / molSize (mols i)) 0 := by
  obtain ⟨-, -, -, -, hc⟩ := C26_setComposition_complete mols phi0 phi c hset
  obtain ⟨hpos, hmu⟩ := computeMu_eq hmu
  set dc : Fin M → ℝ := fun k => ∑ i, v i * (content (mols i) k / molSize (mols i)) with hdc
  have hlin : ∀ (a b : ℝ), HasDerivAt (fun t : ℝ => a + t * b) b 0 := by
    intro a b
    simpa using ((hasDerivAt_id (0 : ℝ)).mul_const b).const_add a
  -- concentrations along the path
  have hck : ∀ k, HasDerivAt (fun t => ∑ i, (phi i + t * v i) *
      (content (mols i) k / molSize (mols i))) (dc k) 0 := by
    intro k
    apply HasDerivAt.fun_sum
    intro i _
    simpa using (hlin (phi i) (v i)).mul_const (content (mols i) k / molSize (mols i))
  have hck0 : ∀ k, ∑ i, (phi i + 0 * v i) * (content (mols i) k / molSize (mols i)) = c k := by
    intro k; simp only [zero_mul, add_zero]; exact (hc k).symm
  -- ideal part
  have hideal : HasDerivAt (fun t => ∑ i, (phi i + t * v i) * (Real.log (phi i + t * v i) - 1)
      / molSize (mols i)) (∑ i, v i * Real.log (phi i) / molSize (mols i)) 0 := by
    apply HasDerivAt.fun_sum
    intro i _
    have hp : phi i + 0 * v i ≠ 0 := by simpa using (hpos i).ne'
    have h := (hlin (phi i) (v i)).mul (((hlin (phi i) (v i)).log hp).sub_const 1)
    have h2 := h.div_const (molSize (mols i))
    refine HasDerivAt.congr_deriv h2 ?_
    have : phi i ≠ 0 := (hpos i).ne'
    simp only [zero_mul, add_zero]
    field_simp
    ring
  -- interaction part
  have hint : HasDerivAt (fun t => fInt chi (fun k => ∑ i, (phi i + t * v i) *
      (content (mols i) k / molSize (mols i))))
      (∑ k, dc k * ∑ l, chi k l * c l) 0 := by
    have h : HasDerivAt (fun t => ∑ k, ∑ l, chi k l *
        (∑ i, (phi i + t * v i) * (content (mols i) k / molSize (mols i))) *
        (∑ i, (phi i + t * v i) * (content (mols i) l / molSize (mols i))))
        (∑ k, ∑ l, (chi k l * dc k * c l + chi k l * c k * dc l)) 0 := by
      apply HasDerivAt.fun_sum
      intro k _
      apply HasDerivAt.fun_sum
      intro l _
      have := ((hck k).const_mul (chi k l)).mul (hck l)
      simp only [hck0] at this
      exact this
    have h2 := h.const_mul (1 / 2 : ℝ)
    unfold fInt
    refine HasDerivAt.congr_deriv h2 ?_
    simp only [Finset.sum_add_distrib]
    have e : ∑ k, ∑ l, chi k l * c k * dc l = ∑ k, ∑ l, chi k l * dc k * c l := by
      rw [Finset.sum_comm]
      refine Finset.sum_congr rfl fun k _ => Finset.sum_congr rfl fun l _ => ?_
      rw [hsym l k]; ring
    rw [e]
    have e2 : ∑ k, dc k * ∑ l, chi k l * c l = ∑ k, ∑ l, chi k l * dc k * c l := by
      refine Finset.sum_congr rfl fun k _ => ?_
      rw [Finset.mul_sum]
      exact Finset.sum_congr rfl fun l _ => by ring
    rw [e2]; ring
  have htot := hideal.add hint
  unfold helmholtz
  refine HasDerivAt.congr_deriv htot ?_
  symm
  have e1 : ∀ i, v i * mu i / molSize (mols i) = v i * Real.log (phi i) / molSize (mols i)
      + v i * xi + ∑ k, v i * (content (mols i) k / molSize (mols i)) * ∑ l, chi k l * c l := by
    intro i
    have := hs i
    have e2 : ∑ k, v i * (content (mols i) k / molSize (mols i)) * ∑ l, chi k l * c l =
        v i / molSize (mols i) * ∑ k, content (mols i) k * ∑ l, chi k l * c l := by
      rw [Finset.mul_sum]
      exact Finset.sum_congr rfl fun k _ => by ring
    rw [hmu i, e2]
    field_simp
  rw [Finset.sum_congr rfl fun i _ => e1 i]
  simp only [Finset.sum_add_distrib]
  rw [← Finset.sum_mul, hv, zero_mul, add_zero]
  congr 1
  rw [Finset.sum_comm]
  refine Finset.sum_congr rfl fun k _ => ?_
  rw [← Finset.sum_mul]

/-! ## Solving for the composition -/

/-- Specification of a consistent state returned by `computePhi`. -/
def Solved (mols : Mols m M) (chi : Matrix (Fin M) (Fin M) ℝ) (s : NState m M) : Prop :=
  ∑ i, s.phi i = 1 ∧ (∀ i, 0 ≤ s.phi i ∧ s.phi i ≤ 1) ∧ ∑ k, s.c k = 1 ∧
  (∀ k, s.c k = ∑ i, s.phi i * (content (mols i) k / molSize (mols i))) ∧
  ∀ i, s.mu i = Real.log (s.phi i) + s.xi * molSize (mols i) +
      ∑ k, content (mols i) k * ∑ l, chi k l * s.c l

theorem errorOf_lt {mu target : Fin (m + 1) → ℝ} {e : ℝ} (h : errorOf mu target < e)
    (i : Fin (m + 1)) : |mu i - target i| < e := by
  have key : ∀ (l : List (Fin (m + 1))) (e0 : ℝ),
      let r := l.foldl (fun e i => if |mu i - target i| > e then |mu i - target i| else e) e0
      e0 ≤ r ∧ ∀ i ∈ l, |mu i - target i| ≤ r := by
    intro l
    induction l with
    | nil => intro e0; simp
    | cons a l ih =>
      intro e0
      simp only [List.foldl_cons]
      split
      · rename_i hgt
        obtain ⟨h1, h2⟩ := ih |mu a - target a|
        refine ⟨hgt.le.trans h1, ?_⟩
        intro i hi
        rcases List.mem_cons.1 hi with rfl | hi
        · exact h1
        · exact h2 i hi
      · rename_i hgt
        obtain ⟨h1, h2⟩ := ih e0
        refine ⟨h1, ?_⟩
        intro i hi
        rcases List.mem_cons.1 hi with rfl | hi
        · exact (not_lt.1 hgt).trans h1
        · exact h2 i hi
  refine lt_of_le_of_lt ((key (List.finRange (m + 1)) 0).2 i (List.mem_finRange i)) ?_
  unfold errorOf at h
  exact h

theorem adjust_mu {mols : Mols m M} {chi : Matrix (Fin M) (Fin M) ℝ} {phi : Fin (m + 1) → ℝ}
    {c : Fin M → ℝ} {xi : ℝ} {mu : Fin (m + 1) → ℝ} (h : computeMu mols chi phi c xi = .ok mu)
    (target : Fin (m + 1) → ℝ) (i : Fin (m + 1)) :
    (adjustXi mols target mu xi).1 i = Real.log (phi i) +
      (adjustXi mols target mu xi).2 * molSize (mols i) +
      ∑ k, content (mols i) k * ∑ l, chi k l * c l := by
  simp only [adjustXi]
  rw [(computeMu_eq h).2 i]
  ring

theorem tryUpdate_spec {phiOld : Fin (m + 1) → ℝ} : ∀ {k : Nat} {dX : Fin (m + 1) → ℝ}
    {p : Fin (m + 1) → ℝ} {d : ℝ}, tryUpdate phiOld k dX = some (p, d) →
    ∑ i, p i = 1 ∧ ∀ i, 0 ≤ p i ∧ p i ≤ 1 := by
  intro k
  induction k with
  | zero => intro dX p d h; cases h
  | succ k ih =>
    intro dX p d h
    unfold tryUpdate at h
    simp only at h
    split at h
    · rename_i hr
      simp only [Option.some.injEq, Prod.mk.injEq] at h
      obtain ⟨rfl, -⟩ := h
      refine ⟨?_, fun i => ⟨not_lt.1 (hr i).1, not_lt.1 (hr i).2⟩⟩
      have hne : ∀ i : Fin m, i.castSucc ≠ Fin.last m := fun i => (Fin.castSucc_lt_last i).ne
      rw [Fin.sum_univ_castSucc]
      simp [hne, accum_eq]
    · exact ih h

theorem refresh_spec {mols : Mols m M} {chi : Matrix (Fin M) (Fin M) ℝ}
    {target phi : Fin (m + 1) → ℝ} {xi : ℝ} {s : NState m M}
    (h : refresh mols chi target phi xi = .ok s) (h1 : ∑ i, phi i = 1)
    (h2 : ∀ i, 0 ≤ phi i ∧ phi i ≤ 1) : Solved mols chi s := by
  unfold refresh at h
  cases hC : computeC mols phi with
  | ok c =>
    simp only [hC, Res.bind] at h
    cases hM : computeMu mols chi phi c xi with
    | ok mu =>
      simp only [hM, Res.ok.injEq] at h
      subst h
      have hc := C26_monomer_fractions mols phi c hC
      exact ⟨h1, h2, hc.1, hc.2 h1, adjust_mu hM target⟩
    | throw => simp only [hM] at h; cases h
    | ub => simp only [hM] at h; cases h
  | throw => simp only [hC, Res.bind] at h; cases h
  | ub => simp only [hC, Res.bind] at h; cases h

theorem newtonLoop_spec {mols : Mols m M} {chi : Matrix (Fin M) (Fin M) ℝ}
    {target : Fin (m + 1) → ℝ} {newton : NState m M → Fin (m + 1) → ℝ} :
    ∀ {it : Nat} {s s' : NState m M}, newtonLoop mols chi target newton it s = .ok s' →
    Solved mols chi s' ∧ ∀ i, |s'.mu i - target i| < 1 / 10000000000 := by
  intro it
  induction it with
  | zero => intro s s' h; cases h
  | succ it ih =>
    intro s s' h
    unfold newtonLoop at h
    split at h
    · cases h
    · rename_i p d hu
      cases hR : refresh mols chi target p (s.xi - d) with
      | ok s1 =>
        simp only [hR, Res.bind] at h
        split at h
        · rename_i he
          cases h
          obtain ⟨h1, h2⟩ := tryUpdate_spec hu
          exact ⟨refresh_spec hR h1 h2, errorOf_lt he⟩
        · exact ih h
      | throw => simp only [hR, Res.bind] at h; cases h
      | ub => simp only [hR, Res.bind] at h; cases h

/-- C26: when `computePhi` returns, whatever the linear solver produced, the stored
composition is complete, the chemical potentials are those of that composition at the returned
`xi`, and they agree with the requested ones within the tolerance. -/
theorem C26_computePhi (mols : Mols m M) (chi : Matrix (Fin M) (Fin M) ℝ)
    (newton : NState m M → Fin (m + 1) → ℝ) (target phi : Fin (m + 1) → ℝ) (xi : ℝ)
    (s : NState m M) (h : computePhi mols chi newton target phi xi = .ok s) :
    Solved mols chi s ∧ ∀ i, |s.mu i - target i| < 1 / 10000000000 := by
  unfold computePhi at h
  cases hS : setComposition mols phi with
  | ok pc =>
    obtain ⟨p, c⟩ := pc
    simp only [hS, Res.bind] at h
    cases hM : computeMu mols chi p c xi with
    | ok mu =>
      simp only [hM] at h
      split at h
      · rename_i he
        cases h
        obtain ⟨h1, h2, -, h4, h5⟩ := C26_setComposition_complete mols phi p c hS
        exact ⟨⟨h1, h2, h4, h5, adjust_mu hM target⟩, errorOf_lt he⟩
      · exact newtonLoop_spec h
    | throw => simp only [hM] at h; cases h
    | ub => simp only [hM] at h; cases h
  | throw => simp only [hS, Res.bind] at h; cases h
  | ub => simp only [hS, Res.bind] at h; cases h

/-! ## Initialisation from a mixture -/

theorem clumpSizes_eq (blocks : List (Fin M × ℝ)) (k : Fin M) :
    clumpSizes blocks k = (blocks.map fun b => if b.1 = k then b.2 else 0).sum := by
  have : ∀ (c : Fin M → ℝ),
      blocks.foldl (fun c b => fun k => if k = b.1 then c k + b.2 else c k) c k =
      c k + (blocks.map fun b => if b.1 = k then b.2 else 0).sum := by
    induction blocks with
    | nil => intro c; simp
    | cons b bs ih =>
      intro c
      rw [List.foldl_cons, ih]
      simp only [List.map_cons, List.sum_cons, eq_comm (a := b.1)]
      split <;> ring
  rw [clumpSizes, this, zero_add]

open Classical in
/-- C26: the molecule built by `initialize` from a solvent is one clump of its type and size. -/
theorem C26_initialize_solvent (a k : Fin M) (size : ℝ) :
    content (solventClumps a size) k = (if a = k then size else 0) ∧
    molSize (solventClumps a size) = size := by
  rw [molSize_eq]
  constructor <;> simp [content, solventClumps]

open Classical in
/-- C26: the molecule built by `initialize` from a polymer contains, of each monomer type,
exactly the total block length of that type, unless that total does not exceed 1e-8. -/
theorem C26_initialize_content (blocks : List (Fin M × ℝ)) (k : Fin M) :
    content (polymerClumps blocks) k =
      if (blocks.map fun b => if b.1 = k then b.2 else 0).sum > 1 / 100000000 then
        (blocks.map fun b => if b.1 = k then b.2 else 0).sum else 0 := by
  rw [← clumpSizes_eq]
  unfold polymerClumps content
  have key : ∀ l : List (Fin M), l.Nodup →
      ((l.filterMap fun j => if clumpSizes blocks j > 1 / 100000000 then
        some (⟨j, clumpSizes blocks j⟩ : Clump M) else none).map
        fun c => if c.monomer = k then c.size else 0).sum =
      if k ∈ l ∧ clumpSizes blocks k > 1 / 100000000 then clumpSizes blocks k else 0 := by
    intro l
    induction l with
    | nil => simp
    | cons a l ih =>
      intro hnd
      rw [List.nodup_cons] at hnd
      rw [List.filterMap_cons]
      by_cases ha : clumpSizes blocks a > 1 / 100000000
      · simp only [if_pos ha, List.map_cons, List.sum_cons]
        rw [ih hnd.2]
        by_cases hak : a = k
        · subst hak
          rw [if_pos rfl, if_neg (fun h => hnd.1 h.1), if_pos ⟨List.mem_cons_self, ha⟩, add_zero]
        · have : ¬ k = a := fun h => hak h.symm
          simp [hak, this]
      · simp only [if_neg ha]
        rw [ih hnd.2]
        by_cases hak : a = k
        · subst hak
          rw [if_neg (fun h => hnd.1 h.1), if_neg (fun h => ha h.2)]
        · have : ¬ k = a := fun h => hak h.symm
          simp [this]
  rw [key _ (List.nodup_finRange M)]
  simp

/-- C26: if every block is longer than 1e-8 the molecule size is the total chain length. -/
theorem C26_initialize_size (blocks : List (Fin M × ℝ)) (h : ∀ b ∈ blocks, 1 / 100000000 < b.2) :
    molSize (polymerClumps blocks) = (blocks.map Prod.snd).sum := by
  rw [← sum_content]
  have h1 : ∀ k, content (polymerClumps blocks) k =
      (blocks.map fun b => if b.1 = k then b.2 else 0).sum := by
    intro k
    rw [C26_initialize_content]
    split
    · rfl
    · rename_i hle
      symm
      by_contra hne
      apply hle
      have : ∃ b ∈ blocks, b.1 = k := by
        by_contra hno
        push Not at hno
        apply hne
        apply List.sum_eq_zero
        simp only [List.mem_map]
        rintro x ⟨b, hb, rfl⟩
        rw [if_neg (hno b hb)]
      obtain ⟨b, hb, hbk⟩ := this
      refine lt_of_lt_of_le (h b hb) ?_
      have hmem : b.2 ∈ blocks.map fun b => if b.1 = k then b.2 else 0 := by
        rw [List.mem_map]; exact ⟨b, hb, by rw [if_pos hbk]⟩
      refine List.single_le_sum ?_ _ hmem
      simp only [List.mem_map]
      rintro x ⟨b', hb', rfl⟩
      split
      · have := h b' hb'; linarith [show (0 : ℝ) < 1 / 100000000 by norm_num]
      · exact le_rfl
  rw [Finset.sum_congr rfl fun k _ => h1 k]
  clear h h1
  induction blocks with
  | nil => simp
  | cons b bs ih =>
    simp only [List.map_cons, List.sum_cons, Finset.sum_add_distrib, ih]
    simp

/-! ## Instances -/

/-- A blend of a diblock (10 A, 20 B) and an A homopolymer of size 5. -/
noncomputable def blend : Mols 1 2 := ![[⟨0, 10⟩, ⟨1, 20⟩], [⟨0, 5⟩]]

example : ∃ c, setComposition blend ![1/4, 3/4] = .ok (![1/4, 3/4], c) := by
  apply C26_setComposition_accepts
  · intro i
    fin_cases i <;> simp [blend]
  · intro i
    fin_cases i <;> norm_num [blend, molSize]
  · intro i
    fin_cases i <;> norm_num
  · rw [Fin.sum_univ_two]; norm_num

/-- `computePhi` accepts and returns at once when started from the solution. -/
example (newton : NState 1 2 → Fin 2 → ℝ) (chi : Matrix (Fin 2) (Fin 2) ℝ) :
    ∃ mu s, computePhi blend chi newton mu ![1/4, 3/4] 0 = .ok s := by
  have hsz : ∀ i, 0 < molSize (blend i) := by
    intro i; fin_cases i <;> norm_num [blend, molSize]
  obtain ⟨c, hc⟩ : ∃ c, setComposition blend ![1/4, 3/4] = .ok (![1/4, 3/4], c) := by
    apply C26_setComposition_accepts _ _ hsz
    · intro i; fin_cases i <;> norm_num
    · rw [Fin.sum_univ_two]; norm_num
    · intro i; fin_cases i <;> simp [blend]
  obtain ⟨mu, hmu⟩ : ∃ mu, computeMu blend chi ![1/4, 3/4] c 0 = .ok mu := by
    unfold computeMu
    rw [if_neg]
    · exact ⟨_, rfl⟩
    · push Not
      intro i; fin_cases i <;> norm_num
  have hadj : adjustXi blend mu mu 0 = (mu, 0) := by
    simp [adjustXi, accum_eq]
  refine ⟨mu, ⟨![1/4, 3/4], c, mu, 0⟩, ?_⟩
  unfold computePhi
  simp only [hc, hmu, Res.bind, hadj]
  rw [if_pos]
  simp [errorOf, List.finRange_succ]

end Verif.FH
