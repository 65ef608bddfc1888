import Verif.Basis.ParsevalLemmas
import Verif.Thermo.Props

/-!
# C112: the free energy does not depend on the representation of the fields

`ScftThermoTmpl::compute` sums over basis functions if the fields `w` are symmetric, and averages over the grid
otherwise. Both give the same free energy and pressure for the same fields.
-/

set_option autoImplicit false
set_option linter.unusedSectionVars false

namespace Verif.Basis
open Verif.Mesh (IntVec Mesh InRange shiftVec)
open Verif.Solver Verif.Thermo

variable {m : Nat} {N : Fin (m + 1) → Nat} [∀ d, NeZero (N d)] {n M : Nat} {c : Cell ℝ} {b : BasisData ℝ}

/-- Values on the grid of the field with given components: `convertBasisToKGrid`, then the inverse transform
(`FieldIo::convertBasisToRGrid`). -/
def GridField (b : BasisData ℝ) (mesh : Mesh) (en : Fin n ≃ Grid N) (a : List ℝ) (f : Fin n → ℝ) : Prop :=
  ∃ out k, mesh.size ≤ (out.length : Int) ∧ basisToK b (Real.sqrt 2) (kMesh b.dims) a out = .ok k ∧
    f = c2r en (halfOf mesh k)

theorem GridField.holds (V : Valid c 0 b) {mesh : Mesh} (hm : Mesh.setDimensions (kMesh b.dims) = some mesh)
    {en : Fin n ≃ Grid N} {a : List ℝ} (ha : a.length = b.nBasis) {f : Fin n → ℝ} (h : GridField b mesh en a f) :
    ∃ k, Holds b mesh (Real.sqrt 2) a k ∧ f = c2r en (halfOf mesh k) := by
  obtain ⟨out, k, h1, h2, h3⟩ := h
  obtain ⟨k', g1, -, g3⟩ := basisToK_spec V ⟨hm⟩ (Real.sqrt 2) a ha out h1
  rw [g1] at h2
  cases h2
  exact ⟨_, g3, h3⟩

/-- **C112**: the sum of products of components is the spatial average of the product of the fields. -/
theorem C112_inner_product (V : Valid c 0 b) (hN : Normalised b) (hd : b.dims = dimsOf N) (mesh : Mesh)
    (hm : Mesh.setDimensions (kMesh b.dims) = some mesh) (en : Fin n ≃ Grid N) (a a' : List ℝ)
    (ha : a.length = b.nBasis) (ha' : a'.length = b.nBasis) (f f' : Fin n → ℝ) (h : GridField b mesh en a f)
    (h' : GridField b mesh en a' f') :
    ∑ j ∈ Finset.range b.nBasis, a.getD j 0 * a'.getD j 0 = (∑ i, f i * f' i) / n := by
  obtain ⟨k, h1, rfl⟩ := h.holds V hm ha
  obtain ⟨k', h1', rfl⟩ := h'.holds V hm ha'
  rw [Basis.inner_eq V hN hd en (by norm_num) h1 h1']

/-- **C112**: distinct basis functions are orthogonal on the grid, and each has unit mean square. -/
theorem C112_orthonormal (V : Valid c 0 b) (hN : Normalised b) (hd : b.dims = dimsOf N) (mesh : Mesh)
    (hm : Mesh.setDimensions (kMesh b.dims) = some mesh) (en : Fin n ≃ Grid N) (p q : Fin b.nBasis)
    (f f' : Fin n → ℝ) (h : GridField b mesh en (List.ofFn fun j => if j = p then 1 else 0) f)
    (h' : GridField b mesh en (List.ofFn fun j => if j = q then 1 else 0) f') :
    (∑ i, f i * f' i) / n = if p = q then 1 else 0 := by
  rw [← C112_inner_product V hN hd mesh hm en _ _ (by simp) (by simp) f f' h h']
  have e : ∀ (r j : Fin b.nBasis), (List.ofFn fun j : Fin b.nBasis => if j = r then (1 : ℝ) else 0).getD j 0 =
      if j = r then 1 else 0 := by
    intro r j
    rw [List.getD_eq_getElem?_getD, List.getElem?_eq_getElem (by rw [List.length_ofFn]; exact j.2), List.getElem_ofFn]
    rfl
  rw [← Fin.sum_univ_eq_sum_range (fun j => (List.ofFn fun j : Fin b.nBasis => if j = p then (1 : ℝ) else 0).getD j 0 *
    (List.ofFn fun j : Fin b.nBasis => if j = q then (1 : ℝ) else 0).getD j 0)]
  simp only [e]
  by_cases hpq : p = q
  · subst hpq; simp
  · simp [hpq, Ne.symm hpq]

/-- Components of the fields of all monomer types. -/
def comps (b : BasisData ℝ) (a : Fin M → List ℝ) : Fields M b.nBasis := fun i j => (a i).getD j 0

/-- Inner product in the basis and on the grid, in the form used by `ScftThermoTmpl`. -/
theorem inner_comps (V : Valid c 0 b) (hN : Normalised b) (hd : b.dims = dimsOf N) (mesh : Mesh)
    (hm : Mesh.setDimensions (kMesh b.dims) = some mesh) (en : Fin n ≃ Grid N) (a a' : Fin M → List ℝ)
    (ha : ∀ i, (a i).length = b.nBasis) (ha' : ∀ i, (a' i).length = b.nBasis) (f f' : Fields M n)
    (h : ∀ i, GridField b mesh en (a i) (f i)) (h' : ∀ i, GridField b mesh en (a' i) (f' i)) (i j : Fin M) :
    Thermo.inner (comps b a i) (comps b a' j) = Thermo.inner (f i) (f' j) / n := by
  rw [Thermo.inner_eq, Thermo.inner_eq, ← C112_inner_product V hN hd mesh hm en _ _ (ha i) (ha' j) _ _ (h i) (h' j),
    ← Fin.sum_univ_eq_sum_range (fun k => (a i).getD k 0 * (a' j).getD k 0)]
  rfl

/-- **C112**: the free energy and the pressure computed from components are those computed from grid values, for
every mixture, with and without external fields. -/
theorem C112_free_energy (V : Valid c 0 b) (hN : Normalised b) (hd : b.dims = dimsOf N) (mesh : Mesh)
    (hm : Mesh.setDimensions (kMesh b.dims) = some mesh) (en : Fin n ≃ Grid N) (species : List Spec)
    (chi : Fin M → Fin M → ℝ) (phiTot : ℝ) (w cc : Fin M → List ℝ) (h : Option (Fin M → List ℝ))
    (hw : ∀ i, (w i).length = b.nBasis) (hc : ∀ i, (cc i).length = b.nBasis)
    (hh : ∀ x, h = some x → ∀ i, (x i).length = b.nBasis) (wG cG : Fields M n) (hG : Option (Fields M n))
    (ew : ∀ i, GridField b mesh en (w i) (wG i)) (ec : ∀ i, GridField b mesh en (cc i) (cG i))
    (eh : (h = none ∧ hG = none) ∨ ∃ x y, h = some x ∧ hG = some y ∧ ∀ i, GridField b mesh en (x i) (y i)) :
    let inBasis : Input M b.nBasis := ⟨species, chi, true, comps b w, comps b cc, h.map (comps b), phiTot⟩
    let onGrid : Input M n := ⟨species, chi, false, wG, cG, hG, phiTot⟩
    fIdeal inBasis = fIdeal onGrid ∧ fExt inBasis = fExt onGrid ∧ fInter inBasis = fInter onGrid ∧
      fHelmholtz inBasis = fHelmholtz onGrid ∧ pressure inBasis = pressure onGrid := by
  intro inBasis onGrid
  have i1 := inner_comps V hN hd mesh hm en w cc hw hc wG cG ew ec
  have i2 := inner_comps V hN hd mesh hm en cc cc hc hc cG cG ec ec
  have h1 : fIdeal inBasis = fIdeal onGrid := by
    unfold fIdeal average
    simp only [inBasis, onGrid, if_true, Bool.false_eq_true, if_false]
    simp only [i1]
    congr 2
    rw [accum_eq, accum_eq, zero_add, zero_add, Finset.sum_div]
    exact Finset.sum_congr rfl fun i _ => by ring
  have h2 : fExt inBasis = fExt onGrid := by
    rcases eh with ⟨e1, e2⟩ | ⟨x, y, e1, e2, e3⟩
    · simp only [fExt, inBasis, onGrid, e1, e2, Option.map_none]
    · have i3 := inner_comps V hN hd mesh hm en x cc (hh x e1) hc y cG e3 ec
      simp only [fExt, inBasis, onGrid, e1, e2, Option.map_some, average, if_true, Bool.false_eq_true, if_false, i3]
      congr 1
      rw [accum_eq, accum_eq, zero_add, zero_add, Finset.sum_div]
  have h3 : fInter inBasis = fInter onGrid := by
    unfold fInter average
    simp only [inBasis, onGrid, if_true, Bool.false_eq_true, if_false]
    simp only [i2]
    congr 1
    rw [accum_eq, accum_eq, zero_add, zero_add, Finset.sum_div]
    refine Finset.sum_congr rfl fun i _ => ?_
    rw [accum_eq, accum_eq, zero_add, zero_add, Finset.sum_div]
    refine Finset.sum_congr rfl fun j _ => ?_
    split
    · split
      · split <;> ring
      · simp
    · simp
  have h4 : fHelmholtz inBasis = fHelmholtz onGrid := by
    unfold fHelmholtz; rw [h1, h2, h3]
  refine ⟨h1, h2, h3, h4, ?_⟩
  unfold pressure
  rw [h4]

/-- **C112**: concentrations are computed on the grid and their components by `convertRGridToBasis`. If the field has
the symmetry of the basis, these are the components of that field, so that `C112_free_energy` applies. -/
theorem C112_components (V : Valid c 0 b) (hND : Nondegenerate b) (mesh : Mesh)
    (hm : Mesh.setDimensions (kMesh b.dims) = some mesh) (en : Fin n ≃ Grid N) (f : Fin n → ℝ) (k : List (Cx ℝ))
    (hk : halfOf mesh k = r2c en f) (C : Nat → Cx ℝ) (S : ExactlySymmetric b mesh k C) (out : List ℝ)
    (hout : out.length = b.nBasis) :
    ∃ a, kToBasis b (Real.sqrt 2) (kMesh b.dims) k out = .ok a ∧ GridField b mesh en a f := by
  have hlen : ((List.replicate k.length (0 : Cx ℝ)).length : Int) = mesh.size := by
    rw [List.length_replicate]; exact S.length
  obtain ⟨a, h1, h2⟩ := C43_symmetric_recovered V hND (Real.sqrt 2) (by positivity) mesh hm k C S
    (List.replicate k.length 0) hlen out hout
  refine ⟨a, h1, _, k, hlen.ge, h2, ?_⟩
  rw [hk, C78_forward_inverse]

/-! ## A concrete case: the basis of `Verif.Basis.Props`, with real numbers -/

/-- Rational numbers as real numbers. -/
def castWave (w : Wave ℚ) : Wave ℝ :=
  ⟨⟨w.coeff.re, w.coeff.im⟩, w.sqNorm, w.dft, w.bz, w.starId, w.inverseId, w.implicit⟩

/-- The basis with real numbers. -/
def castB (b : BasisData ℚ) : BasisData ℝ := ⟨b.dims, b.waves.map castWave, b.waveIds, b.stars, b.starIds, b.nBasis⟩

/-- The cell with real numbers. -/
def castCell (c : Cell ℚ) : Cell ℝ := ⟨fun v => (c.ksq v : ℝ), c.minIm⟩

theorem castB_wave {b : BasisData ℚ} {i : Nat} {w : Wave ℝ} (h : (castB b).waves[i]? = some w) :
    ∃ w0, b.waves[i]? = some w0 ∧ castWave w0 = w := by
  simp only [castB, List.getElem?_map, Option.map_eq_some_iff] at h
  exact h

theorem castB_wave' {b : BasisData ℚ} {i : Nat} {w : Wave ℚ} (h : b.waves[i]? = some w) :
    (castB b).waves[i]? = some (castWave w) := by
  simp [castB, List.getElem?_map, h]

theorem normSq_cast (z z' : Cx ℚ) (h : Cx.normSq (Cx.conj z' - z) ≤ 0 * 0) :
    Cx.normSq (Cx.conj (⟨z'.re, z'.im⟩ : Cx ℝ) - ⟨z.re, z.im⟩) ≤ 0 * 0 := by
  have : ((Cx.normSq (Cx.conj z' - z) : ℚ) : ℝ) ≤ ((0 * 0 : ℚ) : ℝ) := by exact_mod_cast h
  simp only [Cx.normSq, Cx.sub_re, Cx.sub_im, Cx.conj_re, Cx.conj_im] at this ⊢
  push_cast at this
  exact this

theorem Valid.cast {c : Cell ℚ} {b : BasisData ℚ} (V : Valid c 0 b) : Valid (castCell c) 0 (castB b) where
  mesh := V.mesh
  count := by simpa [castB] using V.count
  dftRange := by rintro i w h; obtain ⟨w, g, rfl⟩ := castB_wave h; exact V.dftRange i w g
  dftInj := by
    rintro i j w w' h h' e
    obtain ⟨w, g, rfl⟩ := castB_wave h
    obtain ⟨w', g', rfl⟩ := castB_wave h'
    exact V.dftInj i j w w' g g' e
  dftSurj := by
    rintro v hv
    obtain ⟨i, w, h1, h2, h3⟩ := V.dftSurj v hv
    exact ⟨i, _, castB_wave' h1, h2, h3⟩
  bzImage := by rintro i w h; obtain ⟨w, g, rfl⟩ := castB_wave h; exact V.bzImage i w g
  first := V.first
  consec := V.consec
  last := by simpa [castB] using V.last
  sizes := V.sizes
  waveStar := by rintro i w h; obtain ⟨w, g, rfl⟩ := castB_wave h; exact V.waveStar i w g
  starWave := by
    rintro k s hs i h1 h2
    obtain ⟨w, h3, h4⟩ := V.starWave k s hs i h1 h2
    exact ⟨_, castB_wave' h3, h4⟩
  order := by
    rintro s hs i w w' h1 h2 h h'
    obtain ⟨w, g, rfl⟩ := castB_wave h
    obtain ⟨w', g', rfl⟩ := castB_wave h'
    exact V.order s hs i w w' h1 h2 g g'
  inverse := by
    rintro i w h
    obtain ⟨w, g, rfl⟩ := castB_wave h
    obtain ⟨j, w', h1, h2, h3⟩ := V.inverse i w g
    exact ⟨j, _, h1, castB_wave' h2, h3⟩
  implicit := by rintro i w h; obtain ⟨w, g, rfl⟩ := castB_wave h; exact V.implicit i w g
  paired := V.paired
  closedInv := by
    rintro k s hs hf i w h hk j w' hj h'
    obtain ⟨w, g, rfl⟩ := castB_wave h
    obtain ⟨w', g', rfl⟩ := castB_wave h'
    obtain ⟨e1, e2⟩ := V.closedInv k s hs hf i w g hk j w' hj g'
    exact ⟨e1, fun hc => normSq_cast _ _ (e2 hc)⟩
  openInv := by
    rintro k s hs hf i w h hk j w' hj h'
    obtain ⟨w, g, rfl⟩ := castB_wave h
    obtain ⟨w', g', rfl⟩ := castB_wave h'
    obtain ⟨e1, e2⟩ := V.openInv k s hs hf i w g hk j w' hj g'
    exact ⟨e1, fun hc => normSq_cast _ _ (e2 hc)⟩
  waveBz := by
    rintro k s hs hf
    obtain ⟨w, h1, h2⟩ := V.waveBz k s hs hf
    exact ⟨_, castB_wave' h1, h2⟩
  waveBzNeg := V.waveBzNeg
  starId := V.starId
  basisId := V.basisId
  starIds := V.starIds
  nBasis := V.nBasis

theorem exReal_normalised : Normalised (castB exBasis) := by
  intro k s hs _
  have key : ∀ (l : List Star), l = exBasis.stars → ∀ s ∈ l, s = ⟨1, 0, 1, 0, [0], 0, 0, false⟩ ∨
      s = ⟨1, 1, 2, 1, [1], 1, 1, false⟩ ∨ s = ⟨1, 2, 3, -1, [-1], 2, 2, false⟩ ∨
      s = ⟨1, 3, 4, 0, [2], 3, 3, false⟩ := by
    rintro l rfl
    decide +kernel
  rcases key _ rfl s (List.mem_of_getElem? hs) with rfl | rfl | rfl | rfl <;>
    simp [coeffAt, castB, castWave, exBasis, exStart, Cx.normSq]

-- four points in one dimension; the second and third functions belong to a pair of open stars
noncomputable example : Fin 4 ≃ Grid (m := 0) (fun _ => 4) :=
  (ZMod.finEquiv 4).toEquiv.trans (Equiv.funUnique (Fin 1) (ZMod 4)).symm

example (en : Fin 4 ≃ Grid (m := 0) (fun _ => 4)) : ∃ f f' : Fin 4 → ℝ,
    GridField (castB exBasis) ⟨[3], [1], 3⟩ en [3, 4, 5, 6] f ∧
    GridField (castB exBasis) ⟨[3], [1], 3⟩ en [1, -1, 2, 0] f' ∧ (∑ i, f i * f' i) / ((4 : Nat) : ℝ) = 9 := by
  have V := (C42_valid exBasis_finish).cast
  have hm : Mesh.setDimensions (kMesh (castB exBasis).dims) = some ⟨[3], [1], 3⟩ := by
    show Mesh.setDimensions (kMesh [4]) = some ⟨[3], [1], 3⟩
    decide
  obtain ⟨k, h1, -⟩ := basisToK_spec V ⟨hm⟩ (Real.sqrt 2) [3, 4, 5, 6] rfl [0, 0, 0] (by simp)
  obtain ⟨k', h1', -⟩ := basisToK_spec V ⟨hm⟩ (Real.sqrt 2) [1, -1, 2, 0] rfl [0, 0, 0] (by simp)
  have g1 : GridField (castB exBasis) ⟨[3], [1], 3⟩ en [3, 4, 5, 6] _ := ⟨_, k, by simp, h1, rfl⟩
  have g2 : GridField (castB exBasis) ⟨[3], [1], 3⟩ en [1, -1, 2, 0] _ := ⟨_, k', by simp, h1', rfl⟩
  refine ⟨_, _, g1, g2, ?_⟩
  rw [← C112_inner_product V exReal_normalised (by simp [castB, exBasis, exStart, dimsOf]) _ hm en _ _ rfl rfl _ _ g1 g2]
  show ∑ j ∈ Finset.range 4, _ = _
  simp [Finset.sum_range_succ]
  norm_num

end Verif.Basis
