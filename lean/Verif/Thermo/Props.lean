import Verif.Thermo.Model
import Verif.FloryHuggins.Props
import Verif.Tac
import Mathlib.Algebra.BigOperators.Group.List.Basic
import Mathlib.Algebra.BigOperators.Ring.Finset

/-!
# C71, C82: identities of the thermodynamic properties

`Verif.Solver.ShiftProps` shows what a constant added to the fields does to the solution of the
diffusion equation, `Verif.Solver.HomogProps` what the solution in homogeneous fields is; here the
consequences for the free energy and pressure are derived.
-/

set_option autoImplicit false
set_option linter.unusedSectionVars false

namespace Verif.Thermo

variable {M N : Nat}

theorem inner_eq (a b : Fin N → ℝ) : inner a b = ∑ k, a k * b k := by
  simp [inner, accum_eq]

theorem idealSpecies_eq (l : List Spec) (a : ℝ) : idealSpecies l a = a + (l.map (fun s =>
    if s.phi > 1 / 10 ^ 8 then s.phi * (s.mu - 1) / s.len else 0)).sum := by
  induction l generalizing a with
  | nil => simp [idealSpecies]
  | cons s l ih =>
    rw [idealSpecies, ih, List.map_cons, List.sum_cons]
    split <;> ring

theorem pressureSpecies_eq (l : List Spec) (a : ℝ) : pressureSpecies l a = a + (l.map (fun s =>
    if s.phi > 1 / 10 ^ 8 then s.mu * s.phi / s.len else 0)).sum := by
  induction l generalizing a with
  | nil => simp [pressureSpecies]
  | cons s l ih =>
    rw [pressureSpecies, ih, List.map_cons, List.sum_cons]
    split <;> ring

/-- **C71**, pressure: if no species has a positive volume fraction below the threshold of the code,
`pressure = Σ mu phi / N - fHelmholtz`. -/
theorem C71_pressure (x : Input M N) (h : ∀ s ∈ x.species, s.phi = 0 ∨ s.phi > 1 / 10 ^ 8) :
    pressure x = (x.species.map (fun s => s.mu * s.phi / s.len)).sum - fHelmholtz x := by
  unfold pressure
  rw [pressureSpecies_eq, neg_add_eq_sub]
  congr 2
  apply List.map_congr_left
  intro s hs
  rcases h s hs with h0 | h0
  · rw [if_neg (by rw [h0]; norm_num), h0]; simp
  · rw [if_pos h0]

/-- The species after `a` was added to all fields: chemical potentials of closed species, by
`C71_polymer_shift` and `C71_solvent_shift`. -/
def shiftSpec (a : ℝ) (s : Spec) : Spec := { s with mu := s.mu + a * s.len }

/-- Volume fractions that the code does not count. -/
noncomputable def ignored (l : List Spec) : ℝ :=
  (l.map (fun s => if s.phi > 1 / 10 ^ 8 then 0 else s.phi)).sum

theorem ideal_shift (l : List Spec) (a : ℝ) (hl : ∀ s ∈ l, s.len ≠ 0) :
    idealSpecies (l.map (shiftSpec a)) 0 = idealSpecies l 0 +
      a * ((l.map (fun s => s.phi)).sum - ignored l) := by
  rw [idealSpecies_eq, idealSpecies_eq, zero_add, zero_add]
  unfold ignored
  induction l with
  | nil => simp
  | cons s l ih =>
    have h1 := hl s (by simp)
    simp only [List.map_cons, List.sum_cons]
    rw [ih (fun t ht => hl t (by simp [ht]))]
    by_cases h : s.phi > 1 / 10 ^ 8
    · rw [if_pos h, if_pos h, if_pos (show (shiftSpec a s).phi > _ from h)]
      simp only [shiftSpec]
      field_simp
      ring
    · rw [if_neg h, if_neg h, if_neg (show ¬ (shiftSpec a s).phi > _ from h)]
      ring

theorem pressure_shift (l : List Spec) (a b : ℝ) (hl : ∀ s ∈ l, s.len ≠ 0) :
    pressureSpecies (l.map (shiftSpec a)) b = pressureSpecies l b +
      a * ((l.map (fun s => s.phi)).sum - ignored l) := by
  rw [pressureSpecies_eq, pressureSpecies_eq]
  unfold ignored
  induction l with
  | nil => simp
  | cons s l ih =>
    have h1 := hl s (by simp)
    simp only [List.map_cons, List.sum_cons]
    have := ih (fun t ht => hl t (by simp [ht]))
    by_cases h : s.phi > 1 / 10 ^ 8
    · rw [if_pos h, if_pos h, if_pos (show (shiftSpec a s).phi > _ from h)]
      simp only [shiftSpec] at this ⊢
      have e : (s.mu + a * s.len) * s.phi / s.len = s.mu * s.phi / s.len + a * s.phi := by
        field_simp
      rw [e]
      linarith
    · rw [if_neg h, if_neg h, if_neg (show ¬ (shiftSpec a s).phi > _ from h)]
      linarith

/-- The amount added to component `k` of a field when a constant is added: every grid point, or
the coefficient of the uniform basis function only. -/
def shiftAt (basis : Bool) (a : ℝ) (k : Fin N) : ℝ :=
  if basis then (if (k : Nat) = 0 then a else 0) else a

/-- Spatial average of a field given on the grid or in the basis. -/
noncomputable def mean (basis : Bool) (c : Fin N → ℝ) : ℝ :=
  if basis then ∑ k : Fin N, (if (k : Nat) = 0 then c k else 0) else (∑ k, c k) / N

/-- **C71**, free energy: a constant `a` is added to the fields of all monomer types, with the
changes of chemical potentials this causes; concentrations stay the same. If the average of the
total concentration is `phiTot` times the sum of volume fractions (C53, C55), the Helmholtz free
energy is unchanged and the pressure grows by `a Σ phi`, up to the volume fractions below 1e-8 which
the code ignores. Holds on the grid and in the basis, with or without mask and external fields. -/
theorem C71_shift (x : Input M N) (a : ℝ) (hphi : x.phiTot ≠ 0)
    (hl : ∀ s ∈ x.species, s.len ≠ 0)
    (hc : ∑ i, mean x.basis (x.c i) = x.phiTot * (x.species.map (fun s => s.phi)).sum) :
    let x' := { x with w := fun i k => x.w i k + shiftAt x.basis a k,
                       species := x.species.map (shiftSpec a) }
    fHelmholtz x' = fHelmholtz x - a * ignored x.species ∧
    pressure x' = pressure x + a * (x.species.map (fun s => s.phi)).sum := by
  intro x'
  have hleg : average x.basis N (accum M (fun i => -inner (x'.w i) (x'.c i)) 0) / x.phiTot =
      average x.basis N (accum M (fun i => -inner (x.w i) (x.c i)) 0) / x.phiTot
        - a * (x.species.map (fun s => s.phi)).sum := by
    rw [eq_sub_iff_add_eq]
    have hc' : a * (x.species.map (fun s => s.phi)).sum =
        (∑ i, a * mean x.basis (x.c i)) / x.phiTot := by
      rw [← Finset.mul_sum, hc]; field_simp
    rw [hc', ← add_div]
    congr 1
    simp only [accum_eq, zero_add, inner_eq, x']
    unfold average mean shiftAt
    cases x.basis with
    | false =>
      simp only [Bool.false_eq_true, if_false]
      rw [Finset.sum_congr rfl (fun i _ => (mul_div_assoc a (∑ k, x.c i k) (N : ℝ)).symm),
        ← Finset.sum_div, ← add_div, ← Finset.sum_add_distrib]
      congr 1
      apply Finset.sum_congr rfl
      intro i _
      rw [Finset.mul_sum, ← Finset.sum_neg_distrib, ← Finset.sum_add_distrib,
        ← Finset.sum_neg_distrib]
      exact Finset.sum_congr rfl (fun k _ => by ring)
    | true =>
      simp only [if_true]
      rw [← Finset.sum_add_distrib]
      apply Finset.sum_congr rfl
      intro i _
      rw [Finset.mul_sum, ← Finset.sum_neg_distrib, ← Finset.sum_add_distrib,
        ← Finset.sum_neg_distrib]
      refine Finset.sum_congr rfl (fun k _ => ?_)
      split <;> ring
  have hf : fHelmholtz x' = fHelmholtz x - a * ignored x.species := by
    have e1 : fExt x' = fExt x := rfl
    have e2 : fInter x' = fInter x := rfl
    have e3 : fIdeal x' = fIdeal x - a * ignored x.species := by
      unfold fIdeal
      simp only
      rw [show x'.species = x.species.map (shiftSpec a) from rfl, ideal_shift _ a hl,
        show x'.basis = x.basis from rfl, show x'.phiTot = x.phiTot from rfl, hleg]
      ring
    unfold fHelmholtz
    rw [e1, e2, e3]
    ring
  refine ⟨hf, ?_⟩
  unfold pressure
  rw [show x'.species = x.species.map (shiftSpec a) from rfl, pressure_shift _ a _ hl, hf,
    pressureSpecies_eq, pressureSpecies_eq]
  ring

/-- **C71**: a constant added to all external fields adds that constant to the Helmholtz free
energy per monomer and subtracts it from the pressure, if the concentrations fill the space left by
the mask. -/
theorem C71_ext_shift (x : Input M N) (h : Fields M N) (a : ℝ) (hh : x.h = some h)
    (hphi : x.phiTot ≠ 0) (hc : ∑ i, mean x.basis (x.c i) = x.phiTot) :
    let x' := { x with h := some fun i k => h i k + shiftAt x.basis a k }
    fHelmholtz x' = fHelmholtz x + a ∧ pressure x' = pressure x - a := by
  intro x'
  have he : fExt x' = fExt x + a := by
    have ha : a = (∑ i, a * mean x.basis (x.c i)) / x.phiTot := by
      rw [← Finset.mul_sum, hc]; field_simp
    unfold fExt
    simp only [x', hh]
    conv_rhs => rw [ha]
    rw [← add_div]
    congr 1
    simp only [inner, accum_eq, zero_add]
    unfold average mean shiftAt
    cases x.basis with
    | false =>
      simp only [Bool.false_eq_true, if_false]
      rw [Finset.sum_congr rfl (fun i _ => (mul_div_assoc a (∑ k, x.c i k) (N : ℝ)).symm),
        ← Finset.sum_div, ← add_div, ← Finset.sum_add_distrib]
      congr 1
      apply Finset.sum_congr rfl
      intro i _
      rw [Finset.mul_sum, ← Finset.sum_add_distrib]
      exact Finset.sum_congr rfl (fun k _ => by ring)
    | true =>
      simp only [if_true]
      rw [← Finset.sum_add_distrib]
      apply Finset.sum_congr rfl
      intro i _
      rw [Finset.mul_sum, ← Finset.sum_add_distrib]
      apply Finset.sum_congr rfl
      intro k _
      split <;> ring
  have h1 : fIdeal x' = fIdeal x := rfl
  have h2 : fInter x' = fInter x := rfl
  have hf : fHelmholtz x' = fHelmholtz x + a := by
    unfold fHelmholtz
    rw [he, h1, h2]
    ring
  refine ⟨hf, ?_⟩
  have hp : ∀ (l : List Spec) (u v : ℝ), pressureSpecies l (u + v) = pressureSpecies l u + v := by
    intro l
    induction l with
    | nil => intro u v; rfl
    | cons s l ih =>
      intro u v
      simp only [pressureSpecies]
      split
      · rw [← ih]; congr 1; ring
      · rw [ih]
  show pressureSpecies x.species (-fHelmholtz x') = pressureSpecies x.species (-fHelmholtz x) - a
  rw [hf, neg_add, hp]
  ring

/-- In particular, nothing is lost if every species is absent or above the threshold. -/
theorem C71_shift_exact (x : Input M N) (a : ℝ) (hphi : x.phiTot ≠ 0)
    (hl : ∀ s ∈ x.species, s.len ≠ 0) (h : ∀ s ∈ x.species, s.phi = 0 ∨ s.phi > 1 / 10 ^ 8)
    (hc : ∑ i, mean x.basis (x.c i) = x.phiTot * (x.species.map (fun s => s.phi)).sum) :
    fHelmholtz { x with w := fun i k => x.w i k + shiftAt x.basis a k,
                        species := x.species.map (shiftSpec a) } = fHelmholtz x := by
  have h1 := (C71_shift x a hphi hl hc).1
  have h2 : ignored x.species = 0 := by
    unfold ignored
    apply List.sum_eq_zero
    intro y hy
    obtain ⟨s, hs, rfl⟩ := List.mem_map.1 hy
    rcases h s hs with h0 | h0
    · rw [h0]; split <;> rfl
    · rw [if_pos h0]
  rw [h2, mul_zero, sub_zero] at h1
  exact h1

/-- A blend of a homopolymer and a solvent on two grid points. -/
noncomputable def exIn : Input 2 2 where
  species := [⟨3 / 4, 1, 10⟩, ⟨1 / 4, 2, 1⟩]
  chi := fun _ _ => 1
  basis := false
  w := fun i k => (i + k : ℕ)
  c := fun i k =>
    if i = 0 then (if k = 0 then 1 else 1 / 2) else (if k = 0 then 0 else 1 / 2)
  h := none
  phiTot := 1

example : fHelmholtz { exIn with
      w := fun i k => exIn.w i k + 7
      species := [⟨3 / 4, 1 + 7 * 10, 10⟩, ⟨1 / 4, 2 + 7 * 1, 1⟩] } = fHelmholtz exIn :=
  C71_shift_exact exIn 7 (by simp [exIn]) (by simp [exIn]) (by simp [exIn]; norm_num)
    (by simp [mean, exIn, Fin.sum_univ_two]; norm_num)

/-! ## C82 -/

/-- A species as read by `FloryHuggins::Mixture`: volume fraction and length of each monomer
type. -/
structure FSpec (M : Nat) where
  phi : ℝ
  len : Fin M → ℝ

/-- Total length. -/
def FSpec.total {M : Nat} (s : FSpec M) : ℝ := ∑ i, s.len i

theorem fInter_eq (x : Input M N) (hsym : ∀ i j, x.chi i j = x.chi j i)
    (hthr : ∀ i j, x.chi i j = 0 ∨ |x.chi i j| > 1 / 10 ^ 9) :
    fInter x = average x.basis N (1 / 2 * ∑ i, ∑ j, x.chi i j * inner (x.c i) (x.c j)) /
      x.phiTot := by
  unfold fInter
  congr 2
  simp only [accum_eq, zero_add]
  set g : Fin M → Fin M → ℝ := fun i j => x.chi i j * inner (x.c i) (x.c j) with hg
  have hgs : ∀ i j, g i j = g j i := by
    intro i j
    simp only [hg, hsym i j, inner_eq]
    congr 1
    exact Finset.sum_congr rfl (fun k _ => mul_comm _ _)
  have e : ∀ i j : Fin M, (if i ≤ j then
      if |x.chi i j| > 1 / 10 ^ 9 then
        if i = j then 1 / 2 * x.chi i j * inner (x.c i) (x.c j)
        else x.chi i j * inner (x.c i) (x.c j)
      else 0
    else 0) = if i = j then 1 / 2 * g i j else if i < j then g i j else 0 := by
    intro i j
    have hz : ¬ |x.chi i j| > 1 / 10 ^ 9 → g i j = 0 := by
      intro h
      rcases hthr i j with h0 | h0
      · simp [hg, h0]
      · exact absurd h0 h
    rcases lt_trichotomy i j with h | h | h
    · simp only [if_pos h.le, if_neg h.ne, if_pos h]
      split
      · rfl
      · rename_i h0; exact (hz h0).symm
    · subst h
      simp only [le_refl, if_true]
      split
      · simp only [hg]; ring
      · rename_i h0; rw [hz h0, mul_zero]
    · simp only [if_neg (not_le.2 h), if_neg h.ne', if_neg (not_lt.2 h.le)]
  rw [Finset.sum_congr rfl (fun i _ => Finset.sum_congr rfl (fun j _ => e i j))]
  have key : ∑ i, ∑ j, g i j =
      2 * ∑ i : Fin M, ∑ j : Fin M, (if i = j then 1 / 2 * g i j else if i < j then g i j else 0)
      := by
    have h2 : ∑ i : Fin M, ∑ j : Fin M,
        (if i = j then 1 / 2 * g i j else if i < j then g i j else 0) =
        ∑ i : Fin M, ∑ j : Fin M,
        (if i = j then 1 / 2 * g i j else if j < i then g i j else 0) := by
      rw [Finset.sum_comm]
      apply Finset.sum_congr rfl
      intro j _
      apply Finset.sum_congr rfl
      intro i _
      rw [hgs i j]
      by_cases h : i = j
      · subst h; simp
      · simp only [if_neg h, if_neg (Ne.symm h)]
    rw [two_mul]
    conv_rhs => arg 2; rw [h2]
    rw [← Finset.sum_add_distrib]
    apply Finset.sum_congr rfl
    intro i _
    rw [← Finset.sum_add_distrib]
    apply Finset.sum_congr rfl
    intro j _
    rcases lt_trichotomy i j with h | h | h
    · simp only [if_neg h.ne, if_pos h, if_neg (not_lt.2 h.le), add_zero]
    · simp only [if_pos h]; ring
    · simp only [if_neg h.ne', if_neg (not_lt.2 h.le), if_pos h, zero_add]
  rw [key]
  ring

/-- **C82**, free energy: for homogeneous fields `ω i` and the solution that `C82_polymer` and
`C82_solvent` give for them (concentration `c_i = Σ_s phi_s L_si / L_s`, chemical potential
`ln phi_s + Σ_i ω_i L_si`), the Helmholtz free energy of the SCFT code is the Flory-Huggins free
energy, whatever the fields. -/
theorem C82_free_energy (fs : List (FSpec M)) (ω : Fin M → ℝ) (chi : Fin M → Fin M → ℝ)
    (hN : (N : ℝ) ≠ 0) (hphi : ∀ s ∈ fs, s.phi > 1 / 10 ^ 8) (hlen : ∀ s ∈ fs, s.total ≠ 0)
    (hsym : ∀ i j, chi i j = chi j i) (hthr : ∀ i j, chi i j = 0 ∨ |chi i j| > 1 / 10 ^ 9) :
    let c : Fin M → ℝ := fun i => (fs.map (fun s => s.phi * s.len i / s.total)).sum
    let x : Input M N := { species := fs.map (fun s =>
                             ⟨s.phi, Real.log s.phi + ∑ i, ω i * s.len i, s.total⟩)
                           chi := chi, basis := false, w := fun i _ => ω i, c := fun i _ => c i
                           h := none, phiTot := 1 }
    fHelmholtz x = (fs.map (fun s => s.phi * (Real.log s.phi - 1) / s.total)).sum +
      1 / 2 * ∑ i, ∑ j, chi i j * c i * c j := by
  intro c x
  have e2 : fExt x = 0 := rfl
  have e3 : fInter x = 1 / 2 * ∑ i, ∑ j, chi i j * c i * c j := by
    rw [fInter_eq x hsym hthr]
    show average false N _ / 1 = _
    unfold average
    simp only [Bool.false_eq_true, if_false, div_one, x, inner_eq, Finset.sum_const,
      Finset.card_univ, Fintype.card_fin, nsmul_eq_mul]
    rw [mul_div_assoc, Finset.sum_div]
    congr 1
    apply Finset.sum_congr rfl
    intro i _
    rw [Finset.sum_div]
    apply Finset.sum_congr rfl
    intro j _
    field_simp
  have e1 : fIdeal x = (fs.map (fun s => s.phi * (Real.log s.phi - 1) / s.total)).sum := by
    have h1 : idealSpecies x.species 0 = (fs.map (fun s =>
        s.phi * (Real.log s.phi - 1) / s.total)).sum + ∑ i, ω i * c i := by
      rw [idealSpecies_eq, zero_add]
      simp only [x, List.map_map, c]
      clear x c e2 e3
      induction fs with
      | nil => simp
      | cons s l ih =>
        simp only [List.map_cons, List.sum_cons, Function.comp]
        have ih' := ih (fun t ht => hphi t (by simp [ht])) (fun t ht => hlen t (by simp [ht]))
        simp only [Function.comp_def] at ih' ⊢
        rw [ih', if_pos (hphi s (by simp))]
        simp only [mul_add, Finset.sum_add_distrib]
        have hs := hlen s (by simp)
        have : ∑ i, ω i * (s.phi * s.len i / s.total) =
            s.phi * (∑ i, ω i * s.len i) / s.total := by
          rw [Finset.mul_sum, Finset.sum_div]
          exact Finset.sum_congr rfl (fun i _ => by ring)
        rw [this]
        field_simp
        ring
    unfold fIdeal
    simp only
    rw [h1]
    show _ + average false N _ / 1 = _
    unfold average
    simp only [Bool.false_eq_true, if_false, div_one, x, inner_eq, Finset.sum_const, accum_eq,
      zero_add, Finset.card_univ, Fintype.card_fin, nsmul_eq_mul]
    rw [Finset.sum_neg_distrib, ← Finset.mul_sum, neg_div, mul_div_cancel_left₀ _ hN]
    ring
  unfold fHelmholtz
  rw [e1, e2, e3]
  ring

/-- **C82**: the free energy of the SCFT code in homogeneous fields is the number computed by
`FloryHuggins::Mixture::computeFreeEnergy` for the same molecules and composition. -/
theorem C82_floryHuggins {m : Nat} (mols : FH.Mols m M) (chi : Matrix (Fin M) (Fin M) ℝ)
    (phi0 phi : Fin (m + 1) → ℝ) (c : Fin M → ℝ) (hset : FH.setComposition mols phi0 = .ok (phi, c))
    (mu : Fin (m + 1) → ℝ) (f p : ℝ) (hf : FH.computeFreeEnergy mols chi phi c mu = .ok (f, p))
    (ω : Fin M → ℝ) (hN : (N : ℝ) ≠ 0) (hphi : ∀ i, phi i > 1 / 10 ^ 8)
    (hlen : ∀ i, FH.molSize (mols i) ≠ 0) (hsym : ∀ i j, chi i j = chi j i)
    (hthr : ∀ i j, chi i j = 0 ∨ |chi i j| > 1 / 10 ^ 9) :
    fHelmholtz (M := M) (N := N)
      { species := List.ofFn fun i => ⟨phi i, Real.log (phi i) +
          ∑ k, ω k * FH.content (mols i) k, FH.molSize (mols i)⟩
        chi := chi, basis := false, w := fun i _ => ω i, c := fun i _ => c i
        h := none, phiTot := 1 } = f := by
  have hc := (FH.C26_setComposition_complete mols phi0 phi c hset).2.2.2.2
  rw [(FH.computeFreeEnergy_eq hf).1]
  let fs : List (FSpec M) := List.ofFn fun i => ⟨phi i, FH.content (mols i)⟩
  have htot : ∀ i, (⟨phi i, FH.content (mols i)⟩ : FSpec M).total = FH.molSize (mols i) :=
    fun i => FH.sum_content (mols i)
  have hfs : ∀ s ∈ fs, ∃ i, s = ⟨phi i, FH.content (mols i)⟩ := by
    intro s hs
    obtain ⟨i, hi⟩ := (List.mem_ofFn' _ _).1 hs
    exact ⟨i, hi.symm⟩
  have main := C82_free_energy (N := N) fs ω chi hN
    (fun s hs => by obtain ⟨i, rfl⟩ := hfs s hs; exact hphi i)
    (fun s hs => by obtain ⟨i, rfl⟩ := hfs s hs; rw [htot]; exact hlen i) hsym hthr
  have hcc : (fun k => (fs.map (fun s => s.phi * s.len k / s.total)).sum) = c := by
    funext k
    simp only [fs, List.map_ofFn, List.sum_ofFn, Function.comp_def, htot]
    rw [hc k]
    exact Finset.sum_congr rfl (fun i _ => by ring)
  simp only at main
  simp only [congrFun hcc] at main
  have hsp : fs.map (fun s => (⟨s.phi, Real.log s.phi + ∑ i, ω i * s.len i, s.total⟩ : Spec)) =
      List.ofFn fun i => ⟨phi i, Real.log (phi i) +
          ∑ k, ω k * FH.content (mols i) k, FH.molSize (mols i)⟩ := by
    simp only [fs, List.map_ofFn, Function.comp_def, htot]
  rw [hsp] at main
  rw [main]
  congr 1
  simp only [fs, List.map_ofFn, List.sum_ofFn, Function.comp_def, htot]

end Verif.Thermo
