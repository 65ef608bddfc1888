import Verif.Basis.CompleteLemmas
import Verif.Scft.Props

/-!
# C114: the symmetric basis is complete for the self-consistent field equations

A field on the grid has components with respect to the basis if and only if it is invariant under the
space group. The concentrations computed from fields given by components are therefore reproduced
exactly by their components, the residual of the iterator that works in the basis
(`rpc/scft/iterator/AmIteratorBasis.tpp`) consists of the components of the residual on the grid
(`AmIteratorGrid.tpp`), and an iteration in the basis that reports convergence has solved the
self-consistent field equations at the points of the grid.
-/

set_option autoImplicit false
set_option linter.unusedSectionVars false

namespace Verif.Basis
open Verif.Mesh (IntVec Mesh InRange shiftVec)
open Verif.Solver
open Verif.Crystal (Sym)
open Verif.Stars (GroupOn StarEnv TWave StarState ex)

variable {m : Nat} {N : Fin (m + 1) → Nat} [∀ d, NeZero (N d)] {n M : Nat}
variable {c : Cell ℝ} {b : BasisData ℝ} {E : StarEnv (m + 1)}

/-- A real field is the sum of its waves. -/
theorem field_eq (en : Fin n ≃ Grid N) (f : Fin n → ℝ) (i : Fin n) :
    (f i : ℂ) = ∑ g : Grid N, Solver.coef en f g * wave g (en i) := by
  unfold Solver.coef
  simp only [Finset.sum_mul]
  rw [Finset.sum_comm]
  have h1 : ∀ j : Fin n, (∑ g : Grid N, (f j : ℂ) * (starRingEnd ℂ) (wave g (en j)) * ((1 / (n : ℝ) : ℝ) : ℂ) * wave g (en i)) =
      (f j : ℂ) * ((1 / (n : ℝ) : ℝ) : ℂ) * if j = i then (n : ℂ) else 0 := by
    intro j
    have h2 : ∀ g : Grid N, (f j : ℂ) * (starRingEnd ℂ) (wave g (en j)) * ((1 / (n : ℝ) : ℝ) : ℂ) * wave g (en i) =
        (f j : ℂ) * ((1 / (n : ℝ) : ℝ) : ℂ) * wave g (en i - en j) := by
      intro g; rw [wave_sub]; ring
    simp only [h2]
    rw [← Finset.mul_sum, sum_wave, card_grid en]
    congr 1
    by_cases h : j = i
    · subst h; simp
    · rw [if_neg h, if_neg fun e => h (en.injective (sub_eq_zero.1 e)).symm]
  simp only [h1]
  rw [Finset.sum_eq_single i]
  · have := n_ne en
    rw [if_pos rfl]
    push_cast
    have h3 : (n : ℂ) ≠ 0 := by exact_mod_cast this
    field_simp
  · intro j _ hj; rw [if_neg hj, mul_zero]
  · simp

/-- **C114**: the field given by any components is invariant under every operation of the group. -/
theorem C114_basis_fields_symmetric (V : Valid c 0 b) (hd : b.dims = dimsOf N) (G : GroupOn E.dims E.group)
    (hE : E.dims = fun d => (N d : ℤ)) (htol : 0 ≤ E.tol) (F : FromStars E b) {mesh : Mesh}
    (hm : Mesh.setDimensions (kMesh b.dims) = some mesh) {en : Fin n ≃ Grid N} {a : List ℝ}
    (ha : a.length = b.nBasis) {f : Fin n → ℝ} (h : GridField b mesh en a f) : GroupInvariant E.group en f := by
  intro A hA i i' z hz e
  have G' : GroupOn (fun d => (N d : ℤ)) E.group := hE ▸ G
  have key : (f i' : ℂ) = f i := by
    rw [field_eq en f i', field_eq en f i, e,
      ← Function.Bijective.sum_comp (dualAct_bij (N := N) G' hA) fun g => Solver.coef en f g * wave g (en i)]
    refine Finset.sum_congr rfl fun g _ => ?_
    obtain ⟨q, w, -, -, hw, hg, -⟩ := wave_at V hd g
    obtain ⟨q', w', hw', h1, h2⟩ := waveVal_sym V G hE htol F (Real.sqrt 2) a hA hw
    rw [hg] at h1 h2
    have h3 := wave_image hz (rep g)
    rw [res_rep, res_rep] at h3
    have h4 := h.coef V hd hm ha hw
    have h5 := h.coef V hd hm ha hw'
    rw [hg] at h4
    rw [h1, h2, ← h4] at h5
    unfold dualAct
    rw [h3, h5]
    ring
  exact_mod_cast key

/-- Every array on the half mesh is that of some list. -/
theorem exists_array (V : Valid c 0 b) (hd : b.dims = dimsOf N) {mesh : Mesh}
    (hm : Mesh.setDimensions (kMesh b.dims) = some mesh) (X : Half N → ℂ) :
    ∃ k : List (Cx ℝ), (k.length : Int) = mesh.size ∧ halfOf mesh k = X := by
  classical
  have hinj : ∀ g g' : Half N, (mesh.rank (posOf g.1)).toNat = (mesh.rank (posOf g'.1)).toNat → g = g' := by
    intro g g' e
    obtain ⟨i, w, -, -, h1, h2, h3, -, -, -, -, h8, -⟩ := wave_at V hd g.1
    obtain ⟨i', w', -, -, h1', h2', h3', -, -, -, -, h8', -⟩ := wave_at V hd g'.1
    rw [h3, h3'] at e
    have r := V.rank ⟨hm⟩ h1 (h8.1 g.2)
    have r' := V.rank ⟨hm⟩ h1' (h8'.1 g'.2)
    have := V.rank_inj ⟨hm⟩ h1 (h8.1 g.2) h1' (h8'.1 g'.2) (by omega)
    subst this
    rw [h1] at h1'
    cases h1'
    exact Subtype.ext (h2.symm.trans h2')
  have hsz : 0 ≤ mesh.size := by
    obtain ⟨i, w, -, -, h1, -, -, -, -, -, -, h8, -⟩ := wave_at V hd (0 : Grid N)
    have := V.rank ⟨hm⟩ h1 (h8.1 (by unfold Stored; simp))
    omega
  refine ⟨(List.range mesh.size.toNat).map fun r =>
    if h : ∃ g : Half N, (mesh.rank (posOf g.1)).toNat = r then ofC (X h.choose) else 0, ?_, ?_⟩
  · rw [List.length_map, List.length_range]; omega
  · funext g
    obtain ⟨i, w, -, -, h1, h2, h3, -, -, -, -, h8, -⟩ := wave_at V hd g.1
    have r := V.rank ⟨hm⟩ h1 (h8.1 g.2)
    rw [← h3] at r
    unfold halfOf
    rw [List.getElem?_map, List.getElem?_range (by omega), Option.map_some, Option.getD_some]
    have hx : ∃ g' : Half N, (mesh.rank (posOf g'.1)).toNat = (mesh.rank (posOf g.1)).toNat := ⟨g, rfl⟩
    rw [dif_pos hx, toC_ofC, hinj _ _ hx.choose_spec]

/-- **C114**, completeness: the components that the program computes from the transform of an invariant
field represent the field exactly. -/
theorem C114_symmetric_fields_converted (V : Valid c 0 b) (hND : Nondegenerate b) (hd : b.dims = dimsOf N)
    (G : GroupOn E.dims E.group) (hE : E.dims = fun d => (N d : ℤ)) (htol : 0 ≤ E.tol) (F : FromStars E b)
    {mesh : Mesh} (hm : Mesh.setDimensions (kMesh b.dims) = some mesh) {en : Fin n ≃ Grid N} {f : Fin n → ℝ}
    (hf : GroupInvariant E.group en f) {k : List (Cx ℝ)} (hlen : (k.length : Int) = mesh.size)
    (hk : halfOf mesh k = r2c en f) {out : List ℝ} (hout : out.length = b.nBasis) :
    ∃ a, kToBasis b (Real.sqrt 2) (kMesh b.dims) k out = .ok a ∧ a.length = b.nBasis ∧ GridField b mesh en a f := by
  obtain ⟨C, S⟩ := exactlySymmetric V hd G hE htol F hND.nonempty hm hf hlen hk
  obtain ⟨a, h1, h2⟩ := C112_components V hND mesh hm en f k hk C S out hout
  refine ⟨a, h1, ?_, h2⟩
  obtain ⟨a', g1, g2, -⟩ := fromKLoop_spec V hND ⟨hm⟩ (Real.sqrt 2) k C
    (by intro i w s hw hi hs hc; rw [S.values i w s hw hi hs, hc]; rfl) (fun j s hs hf hc => S.pair j s hs hf)
    b.stars.length 0 b.stars (List.replicate b.nBasis 0 ++ out.drop b.nBasis) rfl (by simp) (by simp)
    V.paired (by simp; omega) (by intro j k' s h; omega)
  unfold kToBasis at h1
  rw [hm] at h1
  simp only at h1
  unfold zeroFirst at h1
  rw [if_pos (by omega), Res.ok_bind, g1] at h1
  cases h1
  exact g2

/-- **C114**: a field on the grid has components if and only if it is invariant under the group. -/
theorem C114_symmetric_iff (V : Valid c 0 b) (hND : Nondegenerate b) (hd : b.dims = dimsOf N)
    (G : GroupOn E.dims E.group) (hE : E.dims = fun d => (N d : ℤ)) (htol : 0 ≤ E.tol) (F : FromStars E b)
    {mesh : Mesh} (hm : Mesh.setDimensions (kMesh b.dims) = some mesh) (en : Fin n ≃ Grid N) (f : Fin n → ℝ) :
    (∃ a, a.length = b.nBasis ∧ GridField b mesh en a f) ↔ GroupInvariant E.group en f := by
  constructor
  · rintro ⟨a, ha, h⟩
    exact C114_basis_fields_symmetric V hd G hE htol F hm ha h
  · intro hf
    obtain ⟨k, h1, h2⟩ := exists_array V hd hm (r2c en f)
    obtain ⟨a, -, h3, h4⟩ := C114_symmetric_fields_converted V hND hd G hE htol F hm hf h1 h2
      (out := List.replicate b.nBasis 0) (by simp)
    exact ⟨a, h3, h4⟩

/-! ## Concentrations -/

/-- **C114**, concentrations: if the fields are given by components, the concentrations computed on the
grid have components, and `convertKGridToBasis` finds them. `ksq` is the squared length of the shortest
alias of a wave (C39), which the operations of the group do not change. -/
theorem C114_concentrations (V : Valid c 0 b) (hND : Nondegenerate b) (hd : b.dims = dimsOf N)
    (G : GroupOn E.dims E.group) (hE : E.dims = fun d => (N d : ℤ)) (htol : 0 ≤ E.tol) (F : FromStars E b)
    {mesh : Mesh} (hm : Mesh.setDimensions (kMesh b.dims) = some mesh) {en : Fin n ≃ Grid N}
    {kn : (Fin (m + 1) → ℤ) → ℝ} (hkn : ∀ A ∈ E.group, ∀ u, kn (Sym.vecMul u A) = kn u)
    (hneg : ∀ u, kn (fun d => - u d) = kn u) {ksq : Half N → ℝ} (hs : Shortest kn ksq) (x : Mixture M) (bead : Bool)
    (w : Fin M → Fld n ℝ) (phiTot : ℝ) (a : Fin M → List ℝ) (ha : ∀ j, (a j).length = b.nBasis)
    (hw : ∀ j, GridField b mesh en (a j) (w j)) (o : MixOut M n) (h : x.compute en bead w ksq phiTot = .ok o) (j : Fin M)
    {k : List (Cx ℝ)} (hlen : (k.length : Int) = mesh.size) (hk : halfOf mesh k = r2c en (o.c j)) {out : List ℝ}
    (hout : out.length = b.nBasis) :
    ∃ a, kToBasis b (Real.sqrt 2) (kMesh b.dims) k out = .ok a ∧ a.length = b.nBasis ∧ GridField b mesh en a (o.c j) := by
  have G' : GroupOn (fun d => (N d : ℤ)) E.group := hE ▸ G
  refine C114_symmetric_fields_converted V hND hd G hE htol F hm ?_ hlen hk hout
  intro A hA i i' z hz e
  exact C113_space_group_symmetric G' hkn hneg hs x bead w phiTot
    (fun A hA i i' z hz e j => C114_basis_fields_symmetric V hd G hE htol F hm (ha j) (hw j) A hA i i' z hz e)
    o h A hA i i' z hz e j

/-! ## Residuals -/

/-- The first basis function is the constant 1: wave 0 is the zero wave, alone in its star, with
coefficient 1 (`Basis.tpp:142`: waves are sorted by norm; `745-747`, `876-878`: coefficients are divided by
that of the root and by the square root of the size). -/
structure ConstFirst (b : BasisData ℝ) : Prop where
  first : ∃ w s, b.waves[0]? = some w ∧ b.stars[0]? = some s ∧ s.invertFlag = 0 ∧ s.cancel = false ∧ s.size = 1 ∧
    w.coeff = ⟨1, 0⟩ ∧ ∀ d, w.dft.getD d 0 = 0

theorem ConstFirst.pos (V : Valid c 0 b) (h1 : ConstFirst b) : 0 < b.nBasis := by
  obtain ⟨w, s, -, hs, -, hc, -⟩ := h1.first
  have := nBefore_succ hs
  rw [hc] at this
  have h2 := nBefore_le b.stars 1
  rw [V.nBasis.1]
  simp at this
  omega

/-- Components of the constant function. -/
theorem ConstFirst.gridField (V : Valid c 0 b) (hd : b.dims = dimsOf N) (h1 : ConstFirst b) {mesh : Mesh}
    (hm : Mesh.setDimensions (kMesh b.dims) = some mesh) (en : Fin n ≃ Grid N) :
    GridField b mesh en (List.ofFn (Scft.one false : Fld b.nBasis ℝ)) (Scft.one true) := by
  have hpos := h1.pos V
  obtain ⟨w0, s0, hw0, hs0, hf, hc, hsz, hco, hz⟩ := h1.first
  have hb0 : s0.beginId = 0 := V.first s0 hs0
  have he0 : s0.endId = 1 := by rw [V.sizes s0 (List.mem_of_getElem? hs0), hb0, hsz]
  have hid0 : s0.basisId = 0 := by rw [V.basisId 0 s0 hs0, hc]; simp [nBefore]
  have hat : ∀ j : Int, at0 (List.ofFn (Scft.one false : Fld b.nBasis ℝ)) j = if j.toNat = 0 then 1 else 0 := by
    intro j
    rw [at0_getD, List.getD_eq_getElem?_getD]
    by_cases hj : j.toNat < b.nBasis
    · rw [List.getElem?_eq_getElem (by rw [List.length_ofFn]; exact hj), List.getElem_ofFn]
      simp [Scft.one]
    · rw [List.getElem?_eq_none (by rw [List.length_ofFn]; omega), if_neg (by omega)]
      rfl
  refine gridField_of_coef V hd hm (by simp) fun i w hw => ?_
  have hn := n_ne en
  have hcoef : ∀ g : Grid N, Solver.coef en (Scft.one true : Fld n ℝ) g = if g = 0 then 1 else 0 := by
    intro g
    unfold Solver.coef
    have h2 : ∑ i, (((Scft.one true : Fld n ℝ) i : ℝ) : ℂ) * (starRingEnd ℂ) (wave g (en i)) =
        ∑ x : Grid N, wave x (-g) := by
      rw [← Equiv.sum_comp en]
      refine Finset.sum_congr rfl fun i _ => ?_
      rw [← wave_neg_left, wave_comm]
      simp [Scft.one]
    rw [h2, sum_wave, card_grid en]
    by_cases hg : g = 0
    · subst hg
      have h3 : (n : ℂ) ≠ 0 := by exact_mod_cast hn
      rw [if_pos neg_zero, if_pos rfl]
      push_cast
      field_simp
    · rw [if_neg (by simpa using hg), if_neg hg, zero_mul]
  rw [hcoef]
  obtain ⟨s, hs, hs1, hs2⟩ := V.waveStar i w hw
  have hg0 : gridOf N w0.dft = 0 := by
    funext d
    unfold gridOf
    rw [hz d]
    simp
  unfold waveVal
  rw [hs]
  simp only
  by_cases hk : w.starId = 0
  · rw [hk, hs0] at hs
    cases hs
    have : i = 0 := by omega
    subst this
    rw [hw0] at hw
    cases hw
    rw [hg0, if_pos rfl, hco]
    unfold comp
    rw [hc, hf, hat, hid0]
    simp [toC]
    rfl
  · have hne : i ≠ 0 := by
      rintro rfl
      rw [hw0] at hw
      cases hw
      obtain ⟨w', h2, h3⟩ := V.starWave 0 s0 hs0 0 (by omega) (by omega)
      rw [hw0] at h2
      cases h2
      exact hk h3
    have hgne : gridOf N w.dft ≠ 0 := by
      intro e
      rw [← hg0] at e
      have r := V.dftRange i w hw
      have r0 := V.dftRange 0 w0 hw0
      rw [hd] at r r0
      have := congrArg posOf e
      rw [posOf_gridOf r, posOf_gridOf r0] at this
      exact hne (V.dftInj i 0 w w0 hw hw0 this)
    rw [if_neg hgne]
    have hcz : comp (Real.sqrt 2) (List.ofFn (Scft.one false : Fld b.nBasis ℝ)) s = 0 := by
      unfold comp
      cases hcs : s.cancel with
      | true => simp
      | false =>
        have hid : s.basisId = (nBefore b.stars w.starId : Int) := by rw [V.basisId _ s hs, hcs]; simp
        have h2 := nBefore_succ hs0
        rw [hc] at h2
        have h3 := nBefore_mono b.stars (show 0 + 1 ≤ w.starId by omega)
        simp only [Bool.false_eq_true, if_false] at h2 ⊢
        have h4 : ∀ j : Int, 0 < j → at0 (List.ofFn (Scft.one false : Fld b.nBasis ℝ)) j = 0 := by
          intro j hj
          rw [hat, if_neg (by omega)]
        split
        · rw [h4 _ (by omega)]; rfl
        · split
          · rw [h4 _ (by omega), h4 _ (by omega)]
            simp [Cx.sdiv]; rfl
          · rename_i e1 e2
            obtain ⟨k', p, e3, e4, e5, e6, -⟩ := V.paired.prev _ s hs e1 e2
            have h5 : k' ≠ 0 := by
              rintro rfl
              rw [hs0] at e4
              cases e4
              omega
            have h6 := nBefore_succ e4
            rw [e6, hcs] at h6
            have h7 := nBefore_mono b.stars (show 0 + 1 ≤ k' by omega)
            simp only [Bool.false_eq_true, if_false] at h6
            rw [e3] at hid
            rw [h4 _ (by omega), h4 _ (by omega)]
            simp [Cx.sdiv]; rfl
    rw [hcz, toC_mul, toC_zero, zero_mul]

/-- The state of the iterator that works in the basis, and that of the iterator that works on the grid,
describe the same fields. -/
structure SameFields (b : BasisData ℝ) (mesh : Mesh) (en : Fin n ≃ Grid N) (sB : Scft.St M b.nBasis) (sG : Scft.St M n) :
    Prop where
  w : ∀ j, GridField b mesh en (List.ofFn (sB.w j)) (sG.w j)
  c : ∀ j, GridField b mesh en (List.ofFn (sB.ev.c j)) (sG.ev.c j)
  mask : (sB.ev.mask = none ∧ sG.ev.mask = none) ∨ ∃ f g, sB.ev.mask = some f ∧ sG.ev.mask = some g ∧
    GridField b mesh en (List.ofFn f) g
  ext : (sB.ev.ext = none ∧ sG.ev.ext = none) ∨ ∃ f g, sB.ev.ext = some f ∧ sG.ev.ext = some g ∧
    ∀ j, GridField b mesh en (List.ofFn (f j)) (g j)

theorem getD_ofFn' {L : Nat} (f : Fin L → ℝ) (j : Nat) : (List.ofFn f).getD j 0 = if h : j < L then f ⟨j, h⟩ else 0 := by
  rw [List.getD_eq_getElem?_getD]
  split
  · rename_i h
    rw [List.getElem?_eq_getElem (by rw [List.length_ofFn]; exact h), List.getElem_ofFn]
    rfl
  · rename_i h
    rw [List.getElem?_eq_none (by rw [List.length_ofFn]; omega)]
    rfl

/-- Linear combinations, for components given as functions. -/
theorem GridField.linF {ι : Type} [Fintype ι] (V : Valid c 0 b) (hd : b.dims = dimsOf N) {mesh : Mesh}
    (hm : Mesh.setDimensions (kMesh b.dims) = some mesh) {en : Fin n ≃ Grid N} (x : ι → ℝ) (a : ι → Fld b.nBasis ℝ)
    (f : ι → Fin n → ℝ) (h : ∀ t, GridField b mesh en (List.ofFn (a t)) (f t)) :
    GridField b mesh en (List.ofFn fun k => ∑ t, x t * a t k) (fun i => ∑ t, x t * f t i) := by
  refine GridField.lin Finset.univ V hd hm x (fun t => List.ofFn (a t)) (fun t => by simp) f h (by simp) fun j => ?_
  simp only [getD_ofFn']
  by_cases hj : j < b.nBasis
  · simp only [dif_pos hj]
  · simp only [dif_neg hj, mul_zero, Finset.sum_const_zero]

theorem GridField.zero (V : Valid c 0 b) (hd : b.dims = dimsOf N) {mesh : Mesh}
    (hm : Mesh.setDimensions (kMesh b.dims) = some mesh) {en : Fin n ≃ Grid N} :
    GridField b mesh en (List.ofFn fun _ : Fin b.nBasis => (0 : ℝ)) (fun _ => 0) := by
  have := GridField.linF (ι := Fin 0) V hd hm (en := en) (fun _ => 0) (fun _ _ => 0) (fun _ _ => 0) (fun t => t.elim0)
  simpa using this

/-- Averages. -/
theorem GridField.mean (V : Valid c 0 b) (hN : Normalised b) (hd : b.dims = dimsOf N) (h1 : ConstFirst b) {mesh : Mesh}
    (hm : Mesh.setDimensions (kMesh b.dims) = some mesh) {en : Fin n ≃ Grid N} {a : Fld b.nBasis ℝ} {f : Fld n ℝ}
    (h : GridField b mesh en (List.ofFn a) f) : Scft.mean false a = Scft.mean true f := by
  have hpos := h1.pos V
  have e := C112_inner_product V hN hd mesh hm en _ _ (by simp) (by simp) _ _ h (h1.gridField V hd hm en)
  simp only [Scft.one, if_true, mul_one] at e
  unfold Scft.mean
  simp only [accum_eq, zero_add, if_true, Bool.false_eq_true, if_false]
  rw [← e]
  simp only [getD_ofFn']
  rw [dif_pos hpos, Finset.sum_eq_single 0]
  · simp [Scft.one, hpos]
  · intro j hj hne
    rw [Finset.mem_range] at hj
    simp [Scft.one, hj, hne]
  · intro h0; exact absurd (Finset.mem_range.2 hpos) h0

/-- **C114**, residuals: the residual of the iterator in the basis consists of the components of the
residual of the iterator on the grid, with or without mask and external fields, in both ensembles. -/
theorem C114_residual (V : Valid c 0 b) (hN : Normalised b) (hd : b.dims = dimsOf N) (h1 : ConstFirst b) {mesh : Mesh}
    (hm : Mesh.setDimensions (kMesh b.dims) = some mesh) {en : Fin n ≃ Grid N} (P : Scft.Prob M)
    {sB : Scft.St M b.nBasis} {sG : Scft.St M n} (S : SameFields b mesh en sB sG) (i : Fin M) :
    GridField b mesh en (List.ofFn (Scft.residCpu {P with grid := false} sB i))
      (Scft.residCpu {P with grid := true} sG i) := by
  have hone := h1.gridField V hd hm en
  have hext : ∀ j, GridField b mesh en (List.ofFn (Scft.extV sB.ev j)) (Scft.extV sG.ev j) := by
    intro j
    unfold Scft.extV
    rcases S.ext with ⟨e1, e2⟩ | ⟨f, g, e1, e2, e3⟩
    · rw [e1, e2]; exact GridField.zero V hd hm
    · rw [e1, e2]; exact e3 j
  have hmask : GridField b mesh en (List.ofFn (Scft.maskV false sB.ev)) (Scft.maskV true sG.ev) := by
    unfold Scft.maskV
    rcases S.mask with ⟨e1, e2⟩ | ⟨f, g, e1, e2, e3⟩
    · rw [e1, e2]; exact hone
    · rw [e1, e2]; exact e3
  have hraw : GridField b mesh en (List.ofFn (Scft.rawResid {P with grid := false} sB i))
      (Scft.rawResid {P with grid := true} sG i) := by
    have key : ∀ {L : Nat} (g : Bool) (s : Scft.St M L), Scft.rawResid {P with grid := g} s i = fun k =>
        ∑ t : (Fin M ⊕ Fin M) ⊕ (Fin M ⊕ Unit),
          (Sum.elim (Sum.elim (fun j => P.chi i j) fun j => (if i = j then 1 else 0) - (∑ l, P.inv l j) / Inter.total P.inv)
            (Sum.elim (fun j => -((if i = j then 1 else 0) - (∑ l, P.inv l j) / Inter.total P.inv)) fun _ => -1 / Inter.total P.inv) t) *
          (Sum.elim (Sum.elim (fun j => s.ev.c j) fun j => Scft.extV s.ev j)
            (Sum.elim (fun j => s.w j) fun _ => Scft.maskV g s.ev) t) k := by
      intro L g s
      funext k
      rw [Scft.rawResid_eq]
      simp only [Fintype.sum_sum_type, Sum.elim_inl, Sum.elim_inr, Finset.univ_unique, Finset.sum_singleton]
      have e1 : ∀ f : Fin M → ℝ, ∑ j, ((if i = j then 1 else 0) - (∑ l, P.inv l j) / Inter.total P.inv) * f j =
          f i - (∑ j, (∑ l, P.inv l j) * f j) / Inter.total P.inv := by
        intro f
        simp only [sub_mul, Finset.sum_sub_distrib, ite_mul, one_mul, zero_mul, Finset.sum_ite_eq, Finset.mem_univ, if_true]
        rw [Finset.sum_div]
        congr 1
        exact Finset.sum_congr rfl fun j _ => by ring
      simp only [neg_mul, Finset.sum_neg_distrib]
      rw [e1, e1]
      simp only [mul_sub, Finset.sum_sub_distrib]
      ring
    rw [key, key]
    refine GridField.linF V hd hm _ _ _ ?_
    rintro ((j | j) | (j | j))
    · exact S.c j
    · exact hext j
    · exact S.w j
    · exact hmask
  have hmean := GridField.mean V hN hd h1 hm hraw
  have key : ∀ {L : Nat} (g : Bool) (s : Scft.St M L), Scft.residCpu {P with grid := g} s i = fun k =>
      ∑ t : Fin 2, (![1, if P.canonical then -Scft.mean g (Scft.rawResid {P with grid := g} s i) else 0] t) *
        (![Scft.rawResid {P with grid := g} s i, Scft.one g] t) k := by
    intro L g s
    funext k
    rw [Scft.residCpu_eq]
    simp only [Fin.sum_univ_two, Matrix.cons_val_zero, Matrix.cons_val_one]
    cases P.canonical <;> (simp; try ring)
  rw [key, key, hmean]
  refine GridField.linF V hd hm _ _ _ fun t => ?_
  fin_cases t
  · exact hraw
  · exact hone

/-- **C114**, norms: the squared norm of the residual in the basis is the average over the grid of the
squared residual. -/
theorem C114_residual_norm (V : Valid c 0 b) (hN : Normalised b) (hd : b.dims = dimsOf N) (h1 : ConstFirst b)
    {mesh : Mesh} (hm : Mesh.setDimensions (kMesh b.dims) = some mesh) {en : Fin n ≃ Grid N} (P : Scft.Prob M)
    {sB : Scft.St M b.nBasis} {sG : Scft.St M n} (S : SameFields b mesh en sB sG) (i : Fin M) :
    ∑ k, Scft.residCpu {P with grid := false} sB i k ^ 2 = (∑ x, Scft.residCpu {P with grid := true} sG i x ^ 2) / n := by
  have h := C114_residual V hN hd h1 hm P S i
  have e := C112_inner_product V hN hd mesh hm en _ _ (by simp) (by simp) _ _ h h
  simp only [pow_two]
  rw [← e, ← Fin.sum_univ_eq_sum_range (fun j =>
    (List.ofFn (Scft.residCpu {P with grid := false} sB i)).getD j 0 *
    (List.ofFn (Scft.residCpu {P with grid := false} sB i)).getD j 0)]
  refine Finset.sum_congr rfl fun j _ => ?_
  rw [getD_ofFn', dif_pos j.2]

/-- **C114**: the residual vanishes in the basis if and only if it vanishes at every point of the grid. -/
theorem C114_residual_zero_iff (V : Valid c 0 b) (hN : Normalised b) (hd : b.dims = dimsOf N) (h1 : ConstFirst b)
    {mesh : Mesh} (hm : Mesh.setDimensions (kMesh b.dims) = some mesh) {en : Fin n ≃ Grid N} (P : Scft.Prob M)
    {sB : Scft.St M b.nBasis} {sG : Scft.St M n} (S : SameFields b mesh en sB sG) (i : Fin M) :
    (∀ k, Scft.residCpu {P with grid := false} sB i k = 0) ↔ ∀ x, Scft.residCpu {P with grid := true} sG i x = 0 := by
  have h := C114_residual_norm V hN hd h1 hm P S i
  have hn := n_ne en
  constructor
  · intro h0 x
    simp only [h0] at h
    have h2 : ∑ x, Scft.residCpu {P with grid := true} sG i x ^ 2 = 0 := by
      have h3 := h.symm
      rw [div_eq_iff hn] at h3
      rw [h3]; simp
    rw [Finset.sum_eq_zero_iff_of_nonneg fun x _ => sq_nonneg _] at h2
    exact pow_eq_zero_iff two_ne_zero |>.1 (h2 x (Finset.mem_univ x))
  · intro h0 k
    simp only [h0] at h
    have h2 : ∑ k, Scft.residCpu {P with grid := false} sB i k ^ 2 = 0 := by rw [h]; simp
    rw [Finset.sum_eq_zero_iff_of_nonneg fun x _ => sq_nonneg _] at h2
    exact pow_eq_zero_iff two_ne_zero |>.1 (h2 k (Finset.mem_univ k))

/-- **C114**: a bound on the components of the residual bounds it at every point of the grid. -/
theorem C114_residual_bound (V : Valid c 0 b) (hN : Normalised b) (hd : b.dims = dimsOf N) (h1 : ConstFirst b)
    {mesh : Mesh} (hm : Mesh.setDimensions (kMesh b.dims) = some mesh) {en : Fin n ≃ Grid N} (P : Scft.Prob M)
    {sB : Scft.St M b.nBasis} {sG : Scft.St M n} (S : SameFields b mesh en sB sG) (i : Fin M) (tol : ℝ) (h0 : 0 ≤ tol)
    (h : ∀ k, |Scft.residCpu {P with grid := false} sB i k| ≤ tol) (x : Fin n) :
    |Scft.residCpu {P with grid := true} sG i x| ≤ Real.sqrt (n * b.nBasis) * tol := by
  have e := C114_residual_norm V hN hd h1 hm P S i
  have hn : (0 : ℝ) < n := lt_of_le_of_ne (Nat.cast_nonneg n) (n_ne en).symm
  have h2 : ∑ k, Scft.residCpu {P with grid := false} sB i k ^ 2 ≤ b.nBasis * tol ^ 2 := by
    calc ∑ k, Scft.residCpu {P with grid := false} sB i k ^ 2 ≤ ∑ _k : Fin b.nBasis, tol ^ 2 := by
          refine Finset.sum_le_sum fun k _ => ?_
          exact sq_le_sq' (by have := (abs_le.1 (h k)).1; linarith) (abs_le.1 (h k)).2
      _ = b.nBasis * tol ^ 2 := by simp
  rw [e, div_le_iff₀ hn] at h2
  have h3 := Finset.single_le_sum (f := fun x => Scft.residCpu {P with grid := true} sG i x ^ 2)
    (fun x _ => sq_nonneg _) (Finset.mem_univ x)
  have h4 : Scft.residCpu {P with grid := true} sG i x ^ 2 ≤ (Real.sqrt (n * b.nBasis) * tol) ^ 2 := by
    rw [mul_pow, Real.sq_sqrt (by positivity)]
    calc _ ≤ _ := h3
      _ ≤ _ := h2
      _ = _ := by ring
  exact abs_le_of_sq_le_sq h4 (by positivity)

/-! ## Converged iterations -/

/-- `System::compute` for a system whose iterator works in the basis
(`prdc/system/SystemTmpl.tpp:799-855`, `prdc/field/WFieldsTmpl.tpp`): fields are converted to the grid,
the mixture is solved on the grid, concentrations are transformed and converted to components. Mask and
external fields, if any, do not depend on the unit cell. -/
def BasisEval (b : BasisData ℝ) (mesh : Mesh) (en : Fin n ≃ Grid N) (x : Mixture M) (bead : Bool)
    (ksq : (Nat → ℝ) → Half N → ℝ) (phiTot : ℝ) (mask : Option (Fld b.nBasis ℝ)) (ext : Option (Fin M → Fld b.nBasis ℝ))
    (Ev : (Fin M → Fld b.nBasis ℝ) → (Nat → ℝ) → Scft.Eval M b.nBasis) : Prop :=
  ∀ w par, ∃ wG o, (∀ j, GridField b mesh en (List.ofFn (w j)) (wG j)) ∧
    x.compute en bead wG (ksq par) phiTot = .ok o ∧
    (∀ j, ∃ k out, (k.length : Int) = mesh.size ∧ halfOf mesh k = r2c en (o.c j) ∧ out.length = b.nBasis ∧
      kToBasis b (Real.sqrt 2) (kMesh b.dims) k out = .ok (List.ofFn ((Ev w par).c j))) ∧
    (Ev w par).mask = mask ∧ (Ev w par).ext = ext

/-- **C114**, convergence: if the iteration in the basis reports success, the fields on the grid given
by the final components and the concentrations that the mixture has in these fields satisfy the
self-consistent field equations at every point of the grid, within the tolerance times the square root
of the number of grid points and basis functions. (The constants are those of C100 for the canonical
ensemble.) -/
theorem C114_converged (V : Valid c 0 b) (hN : Normalised b) (hND : Nondegenerate b) (hd : b.dims = dimsOf N)
    (h1 : ConstFirst b) (G : GroupOn E.dims E.group) (hE : E.dims = fun d => (N d : ℤ)) (htol : 0 ≤ E.tol)
    (F : FromStars E b) {mesh : Mesh} (hm : Mesh.setDimensions (kMesh b.dims) = some mesh) (en : Fin n ≃ Grid N)
    (kn : (Nat → ℝ) → (Fin (m + 1) → ℤ) → ℝ) (hkn : ∀ par, ∀ A ∈ E.group, ∀ u, kn par (Sym.vecMul u A) = kn par u)
    (hneg : ∀ par u, kn par (fun d => - u d) = kn par u) (ksq : (Nat → ℝ) → Half N → ℝ)
    (hs : ∀ par, Shortest (kn par) (ksq par)) (x : Mixture M) (bead : Bool) (phiTot : ℝ)
    (mB : Option (Fld b.nBasis ℝ)) (mG : Option (Fld n ℝ))
    (hmask : (mB = none ∧ mG = none) ∨ ∃ f g, mB = some f ∧ mG = some g ∧ GridField b mesh en (List.ofFn f) g)
    (eB : Option (Fin M → Fld b.nBasis ℝ)) (eG : Option (Fin M → Fld n ℝ))
    (hext : (eB = none ∧ eG = none) ∨ ∃ f g, eB = some f ∧ eG = some g ∧
      ∀ j, GridField b mesh en (List.ofFn (f j)) (g j))
    (Ev : (Fin M → Fld b.nBasis ℝ) → (Nat → ℝ) → Scft.Eval M b.nBasis)
    (hEv : BasisEval b mesh en x bead ksq phiTot mB eB Ev) (P : Scft.Prob M) (hg : P.grid = false)
    (hB : P.inv * P.chi = 1) (hS : Inter.total P.inv ≠ 0) (lu : AM.LinSolve ℝ) (t : Scft.ErrorType) (eps : ℝ)
    (lam : Nat → ℝ) (maxItr : Nat) (cont : Bool) (s : Scft.St M b.nBasis)
    (am : AM.Iter ℝ (Scft.nElements P b.nBasis)) :
    let o := AM.solve (Scft.sys P false Ev) lu (Scft.computeError t eps) eps lam maxItr cont s am
    o.code = some 0 → ∃ (wG : Fin M → Fld n ℝ) (r : MixOut M n),
      (∀ j, GridField b mesh en (List.ofFn (o.sys.w j)) (wG j)) ∧
      x.compute en bead wG (ksq o.sys.par) phiTot = .ok r ∧
      ∃ p q, (P.canonical = false → p = 0 ∧ q = 0) ∧
        Scft.Within {P with grid := true} ⟨wG, o.sys.par, ⟨r.c, o.sys.ev.stress, mG, eG⟩⟩ p q
          (Real.sqrt (n * b.nBasis) * Scft.tolerance t eps (Scft.getCurrent P o.sys)) := by
  intro o hc
  obtain ⟨h2, ⟨u, hu⟩, _⟩ := AM.C23_return_code (Scft.sys P false Ev) lu (Scft.computeError t eps) eps lam
    maxItr cont s am
  obtain ⟨e, he, hlt⟩ := h2 hc
  have hres : ∀ y, |Scft.getResidual P false o.sys y| ≤ Scft.tolerance t eps (Scft.getCurrent P o.sys) :=
    fun y => Scft.C100_error t eps e _ _ he hlt y
  have hev : o.sys.ev = Ev o.sys.w o.sys.par :=
    (Scft.C100_converged P hB hS Ev lu t eps lam maxItr cont s am hc).1
  set tol := Scft.tolerance t eps (Scft.getCurrent P o.sys) with htol'
  obtain ⟨wG, r, k1, k2, k3, k4, k5⟩ := hEv o.sys.w o.sys.par
  have hconc : ∀ j, GridField b mesh en (List.ofFn (o.sys.ev.c j)) (r.c j) := by
    intro j
    obtain ⟨k, out, l1, l2, l3, l4⟩ := k3 j
    obtain ⟨a, q1, -, q3⟩ := C114_concentrations V hND hd G hE htol F hm (hkn _) (hneg _) (hs _) x bead wG phiTot
      (fun j => List.ofFn (o.sys.w j)) (by simp) k1 r k2 j l1 l2 l3
    rw [l4] at q1
    cases q1
    rw [hev]
    exact q3
  have S : SameFields b mesh en o.sys (⟨wG, o.sys.par, ⟨r.c, o.sys.ev.stress, mG, eG⟩⟩ : Scft.St M n) := by
    refine ⟨k1, hconc, ?_, ?_⟩
    · rw [hev, k4]; exact hmask
    · rw [hev, k5]; exact hext
  have hP : ({P with grid := false} : Scft.Prob M) = P := by rw [← hg]
  have hM : ∀ i k, |Scft.residCpu P o.sys i k| ≤ tol := by
    intro i k
    have := hres (Scft.fieldPos P i k)
    unfold Scft.getResidual at this
    rwa [Scft.pack_field] at this
  have hpos := h1.pos V
  have hn : (0 : ℝ) < n := lt_of_le_of_ne (Nat.cast_nonneg n) (n_ne en).symm
  have hsq : 1 ≤ Real.sqrt (n * b.nBasis) := by
    rw [Real.one_le_sqrt]
    have i1 : 1 ≤ n := by exact_mod_cast hn
    have : 1 ≤ n * b.nBasis := Nat.mul_le_mul i1 hpos
    exact_mod_cast this
  refine ⟨wG, r, k1, k2, _, _, ?_, Scft.within_of_resid {P with grid := true} hB hS _ _ ?_⟩
  · intro h
    simp only [h, Bool.false_eq_true, if_false, and_true]
    rfl
  · intro y
    rcases Scft.pos_cases {P with grid := true} y with ⟨i, k, rfl⟩ | ⟨hf, j, hj, hfl, rfl⟩
    · have hbd : 0 ≤ tol := le_trans (abs_nonneg _) (hM i ⟨0, hpos⟩)
      unfold Scft.getResidual
      rw [Scft.pack_field]
      simp only [Bool.false_eq_true, if_false]
      exact C114_residual_bound V hN hd h1 hm P S i tol hbd (fun k => by rw [hP]; exact hM i k) k
    · have := hres (Scft.cellPos P hf j hj hfl)
      unfold Scft.getResidual at this ⊢
      rw [Scft.pack_cell] at this ⊢
      calc _ ≤ tol := this
        _ ≤ _ := le_mul_of_one_le_left (le_trans (abs_nonneg _) this) hsq

/-! ## A concrete case

Four points in one dimension, with the translation by half a period: the stars `{1}` and `{-1}` are
cancelled, the basis consists of the constant and of the wave 2. -/

/-- Waves and stars before the final assignments. -/
def halfStart : BasisData ℚ where
  dims := [4]
  waves := [⟨⟨1, 0⟩, 0, [0], [0], 0, 0, false⟩, ⟨⟨0, 0⟩, 1, [1], [1], 1, 2, false⟩,
    ⟨⟨0, 0⟩, 1, [3], [-1], 2, 1, false⟩, ⟨⟨1, 0⟩, 4, [2], [2], 3, 3, false⟩]
  waveIds := [0, 0, 0, 0]
  stars := [⟨1, 0, 1, 0, [0], 0, 0, false⟩, ⟨1, 1, 2, 1, [1], 0, 0, true⟩,
    ⟨1, 2, 3, -1, [-1], 0, 0, true⟩, ⟨1, 3, 4, 0, [2], 0, 0, false⟩]
  starIds := []
  nBasis := 2

/-- The finished basis. -/
def halfBasis : BasisData ℚ :=
  { halfStart with
    waves := [⟨⟨1, 0⟩, 0, [0], [0], 0, 0, false⟩, ⟨⟨0, 0⟩, 1, [1], [1], 1, 2, false⟩,
      ⟨⟨0, 0⟩, 1, [3], [-1], 2, 1, true⟩, ⟨⟨1, 0⟩, 4, [2], [2], 3, 3, false⟩]
    waveIds := [0, 1, 3, 2]
    stars := [⟨1, 0, 1, 0, [0], 0, 0, false⟩, ⟨1, 1, 2, 1, [1], 1, -1, true⟩,
      ⟨1, 2, 3, -1, [-1], 2, -1, true⟩, ⟨1, 3, 4, 0, [2], 3, 1, false⟩]
    starIds := [0, 3] }

theorem halfBasis_finish : finish exCell 0 halfStart = .ok halfBasis := by decide +kernel

/-- The group of the identity and the translation by half a period. -/
def halfE : StarEnv 1 where
  dims := fun _ => 4
  group := [Sym.identity 1, ⟨fun _ _ => 1, fun _ => 1 / 2⟩]
  ksq := fun v => (v 0 : ℚ) ^ 2
  minIm := fun v i => if (Stars.sh (fun _ => (4 : Int)) v) i > 2 then Stars.sh (fun _ => 4) v i - 4 else Stars.sh (fun _ => 4) v i
  epsilon := 1 / 100000
  tol := 1 / 1000000
  tw := 6

theorem halfE_group : GroupOn halfE.dims halfE.group :=
  Stars.C76_groupOn_of_checks (by decide) (by decide +kernel) (by decide +kernel) (by decide +kernel)
    (by decide +kernel)

/-- Root of a star of one wave. -/
def halfRoot (x : Int) : TWave 1 := ⟨0, Stars.sh halfE.dims fun _ => x, fun _ => x⟩

/-- Outcome of the loop over the group for a star of one wave. -/
def oneWave (r : Res (StarState 1)) (cancel : Bool) (y : Int) : Bool :=
  match r with
  | .ok st => decide (st.cancel = cancel ∧ st.star.map TWave.dft = [fun _ => y] ∧ st.star.map TWave.phase = [0])
  | _ => false

theorem oneWave_spec {r : Res (StarState 1)} {cancel : Bool} {y : Int} (h : oneWave r cancel y = true) :
    ∃ st tw, r = .ok st ∧ st.cancel = cancel ∧ st.star = [tw] ∧ tw.dft = (fun _ => y) ∧ tw.phase = 0 := by
  unfold oneWave at h
  cases r with
  | ok st =>
    simp only [decide_eq_true_eq] at h
    obtain ⟨h1, h2, h3⟩ := h
    rcases hs : st.star with _ | ⟨tw, _ | ⟨tw', l⟩⟩
    · rw [hs] at h2; cases h2
    · rw [hs] at h2 h3
      simp only [List.map_cons, List.map_nil, List.cons.injEq, and_true] at h2 h3
      exact ⟨st, tw, rfl, h1, hs, h2, h3⟩
    · rw [hs] at h2; simp at h2
  | throw => cases h
  | ub => cases h

theorem half_res : ∀ A ∈ halfE.group, ∀ x ∈ [(0 : Int), 1, -1, 2],
    Stars.reduce (Stars.phaseSum (fun _ => x) A) ≠ 0 →
    halfE.tol < |Stars.reduce (Stars.phaseSum (fun _ => x) A) * halfE.tw| := by decide +kernel

/-- Rows: index of the star, root, wave modulo 4, cancelled. -/
theorem half_stars : ∀ q ∈ [((0 : Nat), (0 : Int), (0 : Int), false), (1, 1, 1, true), (2, -1, 3, true), (3, 2, 2, false)],
    oneWave (Stars.buildStar halfE (halfRoot q.2.1)) q.2.2.2 q.2.2.1 = true ∧
    ((halfBasis.stars[q.1]?).map fun s => (s.cancel, s.size)) = some (q.2.2.2, 1) ∧
    (∀ i : Fin 4, ((halfBasis.waves[i.val]?).map fun w => decide (w.starId = q.1 → w.dft = [q.2.2.1] ∧
      (q.2.2.2 = false → w.coeff = ⟨1, 0⟩))) = some true) ∧
    ((halfBasis.waves[q.1]?).map fun w => (w.starId, w.dft)) = some (q.1, [q.2.2.1]) := by
  decide +kernel

theorem halfFromStars : FromStars (m := 0) halfE (castB halfBasis) := by
  constructor
  intro k s hs
  have hk : k < 4 := by
    have := (List.getElem?_eq_some_iff.1 hs).1
    exact this
  have hs' : halfBasis.stars[k]? = some s := hs
  obtain ⟨q, hq, rfl⟩ : ∃ q ∈ [((0 : Nat), (0 : Int), (0 : Int), false), (1, 1, 1, true), (2, -1, 3, true), (3, 2, 2, false)],
      q.1 = k := by
    interval_cases k <;> simp
  obtain ⟨h1, h2, h3, h4⟩ := half_stars q hq
  obtain ⟨st, tw, e1, e2, e3, e4, e5⟩ := oneWave_spec h1
  rw [hs', Option.map_some, Option.some.injEq, Prod.mk.injEq] at h2
  have hx : q.2.1 ∈ [(0 : Int), 1, -1, 2] := by
    simp only [List.mem_cons, List.not_mem_nil, or_false] at hq
    rcases hq with rfl | rfl | rfl | rfl <;> simp
  have hdft : [q.2.2.1] = List.ofFn tw.dft := by rw [e4]; simp
  refine ⟨halfRoot q.2.1, st, 1, rfl, ?_, e1, e2.trans h2.1.symm, one_ne_zero, ?_, ?_⟩
  · intro A hA
    have := half_res A hA q.2.1 hx
    rw [Stars.phaseSum_eq] at this
    exact this
  · intro i w hw hi
    obtain ⟨w0, g, rfl⟩ := castB_wave hw
    have hi4 : i < 4 := (List.getElem?_eq_some_iff.1 g).1
    have := h3 ⟨i, hi4⟩
    simp only [g, Option.map_some, Option.some.injEq, decide_eq_true_eq] at this
    obtain ⟨g1, g2⟩ := this hi
    refine ⟨tw, by rw [e3]; simp, g1.trans hdft, fun hc => ?_⟩
    have g3 := g2 (h2.1 ▸ hc)
    simp [castWave, toC, g3, e5, Stars.ex]
    rfl
  · intro tw' ht
    rw [e3, List.mem_singleton] at ht
    subst ht
    simp only [Option.map_eq_some_iff, Prod.mk.injEq] at h4
    obtain ⟨w, g1, g2, g3⟩ := h4
    exact ⟨q.1, castWave w, castB_wave' g1, g2, g3.trans hdft⟩

theorem half_coeff : ∀ i : Fin 4, ((halfBasis.waves[i.val]?).bind fun w => (halfBasis.stars[w.starId]?).map fun s =>
    decide (s.cancel = false → w.coeff = ⟨1, 0⟩)) = some true := by decide +kernel

theorem half_nondegenerate : Nondegenerate (castB halfBasis) := by
  refine ⟨fun s hs => ?_, fun i w s hw hs hc => ?_⟩
  · have : ∀ s ∈ halfBasis.stars, 0 < s.size := by decide +kernel
    exact this s hs
  · obtain ⟨w, g, rfl⟩ := castB_wave hw
    have hi4 : i < 4 := (List.getElem?_eq_some_iff.1 g).1
    have := half_coeff ⟨i, hi4⟩
    have hs' : halfBasis.stars[w.starId]? = some s := hs
    simp only [g, Option.bind_some, hs', Option.map_some, Option.some.injEq, decide_eq_true_eq] at this
    simp [castWave, this hc, Cx.normSq]
    norm_num

theorem half_normalised : Normalised (castB halfBasis) := by
  intro k s hs hc
  have key : ∀ (l : List Star), l = halfBasis.stars → ∀ s ∈ l, s.cancel = false →
      s = ⟨1, 0, 1, 0, [0], 0, 0, false⟩ ∨ s = ⟨1, 3, 4, 0, [2], 3, 1, false⟩ := by
    rintro l rfl
    decide +kernel
  rcases key _ rfl s (List.mem_of_getElem? hs) hc with rfl | rfl <;>
    simp [coeffAt, castB, castWave, halfBasis, Cx.normSq]

theorem half_first : ConstFirst (castB halfBasis) :=
  ⟨⟨castWave ⟨⟨1, 0⟩, 0, [0], [0], 0, 0, false⟩, ⟨1, 0, 1, 0, [0], 0, 0, false⟩, rfl, rfl, rfl, rfl, rfl,
    by simp [castWave], fun d => by rcases d with _ | _ <;> simp [castWave]⟩⟩

/-- The hypotheses of the theorems above hold for this basis, and a field on four points has components if and
only if it has half the period. -/
example (en : Fin 4 ≃ Grid (m := 0) (fun _ => 4)) (f : Fin 4 → ℝ) :
    (∃ a, a.length = 2 ∧ GridField (castB halfBasis) ⟨[3], [1], 3⟩ en a f) ↔
      ∀ i i', en i' = en i + 2 → f i' = f i := by
  have V := (C42_valid halfBasis_finish).cast
  have hm : Mesh.setDimensions (kMesh (castB halfBasis).dims) = some ⟨[3], [1], 3⟩ := by
    show Mesh.setDimensions (kMesh [4]) = some ⟨[3], [1], 3⟩
    decide
  rw [show (2 : Nat) = (castB halfBasis).nBasis from rfl,
    C114_symmetric_iff V half_nondegenerate (by simp [castB, halfBasis, halfStart, dimsOf]) halfE_group rfl (by norm_num [halfE])
      halfFromStars hm en f]
  constructor
  · intro h i i' e
    refine h ⟨fun _ _ => 1, fun _ => 1 / 2⟩ (by simp [halfE]) i i' (fun d => rep (en i) d + 2) ?_ ?_
    · intro d
      rw [show d = 0 from Fin.ext (by omega)]
      simp
      field_simp
      ring
    · rw [e]
      funext d
      have := congrFun (res_rep (en i)) d
      unfold res at this ⊢
      push_cast
      rw [this]
      rfl
  · intro h A hA i i' z hz e
    have hA' : A = Sym.identity 1 ∨ A = ⟨fun _ _ => 1, fun _ => 1 / 2⟩ := by simpa [halfE] using hA
    rcases hA' with rfl | rfl
    · have : z = rep (en i) := by
        funext d
        have := hz d
        rw [show d = 0 from Fin.ext (by omega)] at this ⊢
        simp [Sym.identity] at this
        exact this.symm
      rw [this, res_rep] at e
      rw [en.injective e]
    · refine h i i' ?_
      have hz' : z = fun d => rep (en i) d + 2 := by
        funext d
        have := hz d
        rw [show d = 0 from Fin.ext (by omega)] at this ⊢
        simp at this
        have h2 : (z 0 : ℚ) = rep (en i) 0 + 2 := by linarith
        exact_mod_cast h2
      rw [e, hz']
      funext d
      have := congrFun (res_rep (en i)) d
      unfold res at this ⊢
      push_cast
      rw [this]
      rfl

/-- The evaluation assumed by `C114_converged` exists for this basis: a mixture of dimers and solvent in any fields given by
components. -/
example (en : Fin 4 ≃ Grid (m := 0) (fun _ => 4)) {Q : Chem.Polymer} (hr : Chem.readTopology dimer 2 = some (.ok Q))
    (ksq : (Nat → ℝ) → Half (m := 0) (fun _ => 4) → ℝ) (hs : ∀ par, Shortest (fun v => ((v 0).natAbs : ℝ)) (ksq par)) :
    ∃ Ev, BasisEval (castB halfBasis) ⟨[3], [1], 3⟩ en (exMix Q) true ksq 1 none none Ev := by
  classical
  have V := (C42_valid halfBasis_finish).cast
  have hm : Mesh.setDimensions (kMesh (castB halfBasis).dims) = some ⟨[3], [1], 3⟩ := by
    show Mesh.setDimensions (kMesh [4]) = some ⟨[3], [1], 3⟩
    decide
  have hd : (castB halfBasis).dims = dimsOf (m := 0) (fun _ => 4) := by simp [castB, halfBasis, halfStart, dimsOf]
  have key : ∀ (w : Fin 2 → Fld (castB halfBasis).nBasis ℝ) (par : Nat → ℝ), ∃ cc : Fin 2 → Fld (castB halfBasis).nBasis ℝ,
      ∃ wG o, (∀ j, GridField (castB halfBasis) ⟨[3], [1], 3⟩ en (List.ofFn (w j)) (wG j)) ∧
      (exMix Q).compute en true wG (ksq par) 1 = .ok o ∧
      (∀ j, ∃ k out, (k.length : Int) = 3 ∧ halfOf ⟨[3], [1], 3⟩ k = r2c en (o.c j) ∧
        out.length = (castB halfBasis).nBasis ∧
        kToBasis (castB halfBasis) (Real.sqrt 2) (kMesh (castB halfBasis).dims) k out = .ok (List.ofFn (cc j))) := by
    intro w par
    have hg : ∀ j, ∃ f, GridField (castB halfBasis) ⟨[3], [1], 3⟩ en (List.ofFn (w j)) f := by
      intro j
      obtain ⟨k, h1, -⟩ := basisToK_spec V ⟨hm⟩ (Real.sqrt 2) (List.ofFn (w j)) (by simp) [0, 0, 0] (by simp)
      exact ⟨_, _, k, by simp, h1, rfl⟩
    choose wG hwG using hg
    obtain ⟨o, gp, cs, gs, ho, hI⟩ := (exMix_ok hr).compute en wG (ksq par) 1
    have hc : ∀ j, ∃ cj : Fld (castB halfBasis).nBasis ℝ, ∃ k out, (k.length : Int) = 3 ∧
        halfOf ⟨[3], [1], 3⟩ k = r2c en (o.c j) ∧ out.length = (castB halfBasis).nBasis ∧
        kToBasis (castB halfBasis) (Real.sqrt 2) (kMesh (castB halfBasis).dims) k out = .ok (List.ofFn cj) := by
      intro j
      obtain ⟨k, l1, l2⟩ := exists_array V hd hm (r2c en (o.c j))
      obtain ⟨a, q1, q2, -⟩ := C114_concentrations V half_nondegenerate hd halfE_group rfl (by norm_num [halfE])
        halfFromStars hm (kn := fun v => ((v 0).natAbs : ℝ)) (by
          intro A hA u
          have hA' : A = Sym.identity 1 ∨ A = ⟨fun _ _ => 1, fun _ => 1 / 2⟩ := by simpa [halfE] using hA
          rcases hA' with rfl | rfl <;> simp [Stars.vecMul_apply, Sym.identity])
        (by intro u; simp) (hs par) (exMix Q) true wG 1 (fun j => List.ofFn (w j)) (by simp) hwG o ho j l1 l2
        (out := List.replicate (castB halfBasis).nBasis 0) (by simp)
      refine ⟨fun i => a[i.val]'(by rw [q2]; exact i.2), k, _, l1, l2, by simp, q1.trans ?_⟩
      congr 1
      apply List.ext_getElem (by simp [q2])
      intro i h1 h2
      simp
    choose cc hcc using hc
    exact ⟨cc, wG, o, hwG, ho, hcc⟩
  choose cc hcc using key
  refine ⟨fun w par => ⟨cc w par, fun _ => 0, none, none⟩, fun w par => ?_⟩
  obtain ⟨wG, o, h1, h2, h3⟩ := hcc w par
  exact ⟨wG, o, h1, h2, h3, rfl, rfl⟩

end Verif.Basis
