import Verif.Basis.MakeCell
import Verif.Basis.CompleteProps
import Mathlib.LinearAlgebra.Dimension.Finrank
import Mathlib.LinearAlgebra.Dimension.Constructions

/-!
# C115, C116: `Basis<D>::makeBasis` as a whole

C115: what `makeBasis` leaves whenever it returns.  C116: it returns, for every group that acts on the
mesh and the cell, and the result does not depend on how `std::sort` orders waves of equal norm.
-/

set_option autoImplicit false
set_option linter.unusedSectionVars false

namespace Verif.Make
open Verif.Stars (TWave StarEnv StarRec negSh GroupOn sh)
open Verif.Basis (Wave Star BasisData Cell Valid Normalised Nondegenerate FromStars ConstFirst GridField GroupInvariant
  kMesh dimsOf)
open Verif.Crystal (Sym)
open Verif.Solver (Grid)
open Verif.Mesh (Mesh)

variable {m : Nat} {E : StarEnv (m + 1)}

/-- What `makeBasis` computed, loop by loop. -/
theorem make_spec (G : GroupOn E.dims E.group) (R : Resolved E) (hmin : ∀ v, sh E.dims (E.minIm v) = sh E.dims v)
    {csqrt : ℂ → ℂ} (hsqrt : ∀ z, csqrt z * csqrt z = z) {mesh : Mesh}
    (hm : Mesh.setDimensions (List.ofFn E.dims) = some mesh) {ws : List (TWave (m + 1))} (hw : SortedWaves E mesh ws)
    {recs : List (StarRec (m + 1))} (h1 : starLists E (waveLists E ws) = .ok recs)
    {L : List (StarRec (m + 1) × List (TWave (m + 1) × ℂ))} (h2 : phases csqrt E.dims recs = .ok L) :
    Phased E L ∧ StarsOf E ws (L.map Prod.fst) := by
  have W := hw.inv hm G.pos
  have S := starLists_spec R.tol.1 _ _ (by rw [waveLists_flatten]; exact W.nodup) h1
  rw [waveLists_flatten] at S
  obtain ⟨P, e⟩ := phases_spec hsqrt G R hmin S.paired (fun s hs => W.dft G.pos hmin _ (S.built s hs).1)
    (fun s hs => (S.built s hs).2) L h2
  rw [e]
  exact ⟨P, S⟩

/-- **C115**: whenever `makeBasis` returns, every assertion of `isValid` holds exactly (with tolerance 0), every
basis function is normalised, the waves of each star are the images of one wave under the group with the phases
that symmetry requires, and no coefficient is too small for the conversions. -/
theorem C115_makeBasis_sound (G : GroupOn E.dims E.group) (R : Resolved E)
    (hmin : ∀ v, sh E.dims (E.minIm v) = sh E.dims v) {csqrt : ℂ → ℂ} (hsqrt : ∀ z, csqrt z * csqrt z = z) {mesh : Mesh}
    (hm : Mesh.setDimensions (List.ofFn E.dims) = some mesh) {ws : List (TWave (m + 1))} (hw : SortedWaves E mesh ws)
    {b : BasisData ℝ} (h : makeBasis E csqrt ws = .ok b) :
    Valid (cellOf E) 0 b ∧ Normalised b ∧ FromStars E b ∧ b.dims = List.ofFn E.dims ∧
      (E.group.length < 10000000000000000 → Nondegenerate b) := by
  unfold makeBasis at h
  simp only [Res.bind_eq_ok] at h
  obtain ⟨recs, h1, L, h2, h3⟩ := h
  obtain ⟨P, -⟩ := make_spec G R hmin hsqrt hm hw h1 h2
  have V := Basis.C42_valid h3
  have A := arrays_of_finish h3
  exact ⟨exact_of_arrays R.tol.1 hmin V A P, normalised_of_arrays V A P, fromStars_of_arrays R A P,
    (finish_fields h3).1, nondegenerate_of_arrays A P⟩

/-- **C115**: the first basis function is the constant 1. -/
theorem C115_constant_first (G : GroupOn E.dims E.group) (htol : 0 ≤ E.tol) {near : (Fin (m + 1) → Int) → Prop}
    (H : CellOn E near) (Z : ZeroOn E) {csqrt : ℂ → ℂ} {mesh : Mesh}
    (hm : Mesh.setDimensions (List.ofFn E.dims) = some mesh) {ws : List (TWave (m + 1))} (hw : SortedWaves E mesh ws)
    {b : BasisData ℝ} (h : makeBasis E csqrt ws = .ok b) : ConstFirst b :=
  constFirst_of_make G htol H Z hw.sorted (hw.inv hm G.pos) h

/-! ## Fields -/

variable {N : Fin (m + 1) → Nat} [∀ d, NeZero (N d)] {n : Nat}

/-- **C115**: the fields that have components are exactly the fields with the symmetry of the group, for every basis
that `makeBasis` returns. -/
theorem C115_symmetric_iff (G : GroupOn E.dims E.group) (hE : E.dims = fun d => (N d : ℤ)) (R : Resolved E)
    (hgrp : E.group.length < 10000000000000000)
    (hmin : ∀ v, sh E.dims (E.minIm v) = sh E.dims v) {csqrt : ℂ → ℂ} (hsqrt : ∀ z, csqrt z * csqrt z = z) {mesh : Mesh}
    (hm : Mesh.setDimensions (List.ofFn E.dims) = some mesh) {ws : List (TWave (m + 1))} (hw : SortedWaves E mesh ws)
    {b : BasisData ℝ} (h : makeBasis E csqrt ws = .ok b) {kmesh : Mesh}
    (hk : Mesh.setDimensions (kMesh b.dims) = some kmesh) (en : Fin n ≃ Grid N) (f : Fin n → ℝ) :
    (∃ a, a.length = b.nBasis ∧ GridField b kmesh en a f) ↔ GroupInvariant E.group en f := by
  obtain ⟨V, -, F, hd, hN⟩ := C115_makeBasis_sound G R hmin hsqrt hm hw h
  exact Basis.C114_symmetric_iff V (hN hgrp) (by rw [hd, hE]; rfl) G hE R.tol.1 F hk en f

/-- Fields with the symmetry of a list of operations. -/
def symFields (l : List (Sym (m + 1))) (en : Fin n ≃ Grid N) : Submodule ℝ (Fin n → ℝ) where
  carrier := {f | GroupInvariant l en f}
  add_mem' := by
    intro f g hf hg A hA i i' z hz e
    show f i' + g i' = f i + g i
    rw [hf A hA i i' z hz e, hg A hA i i' z hz e]
  zero_mem' := by intro A _ i i' z _ _; rfl
  smul_mem' := by
    intro x f hf A hA i i' z hz e
    show x * f i' = x * f i
    rw [hf A hA i i' z hz e]

theorem gridField_exists {c : Cell ℝ} {b : BasisData ℝ} (V : Valid c 0 b) {kmesh : Mesh}
    (hk : Mesh.setDimensions (kMesh b.dims) = some kmesh) (en : Fin n ≃ Grid N) (a : List ℝ) (ha : a.length = b.nBasis) :
    ∃ f, GridField b kmesh en a f := by
  obtain ⟨k, h1, -, -⟩ := Basis.basisToK_spec V ⟨hk⟩ (Real.sqrt 2) a ha (List.replicate kmesh.size.toNat 0)
    (by simp)
  exact ⟨_, _, k, by simp, h1, rfl⟩

theorem gridField_unique {c : Cell ℝ} {b : BasisData ℝ} (V : Valid c 0 b) (hd : b.dims = dimsOf N) {kmesh : Mesh}
    (hk : Mesh.setDimensions (kMesh b.dims) = some kmesh) {en : Fin n ≃ Grid N} {a : List ℝ} (ha : a.length = b.nBasis)
    {f g : Fin n → ℝ} (h1 : GridField b kmesh en a f) (h2 : GridField b kmesh en a g) : f = g := by
  funext i
  have : (f i : ℂ) = g i := by
    rw [Basis.field_eq en f i, Basis.field_eq en g i]
    refine Finset.sum_congr rfl fun x _ => ?_
    obtain ⟨q, w, -, -, hw, rfl, -⟩ := Basis.wave_at V hd x
    rw [h1.coef V hd hk ha hw, h2.coef V hd hk ha hw]
  exact_mod_cast this

/-- **C115**: the number of basis functions is the dimension of the space of fields with the symmetry of the group.
It therefore depends only on the group and the mesh. -/
theorem C115_dimension (G : GroupOn E.dims E.group) (hE : E.dims = fun d => (N d : ℤ)) (R : Resolved E)
    (hgrp : E.group.length < 10000000000000000)
    (hmin : ∀ v, sh E.dims (E.minIm v) = sh E.dims v) {csqrt : ℂ → ℂ} (hsqrt : ∀ z, csqrt z * csqrt z = z) {mesh : Mesh}
    (hm : Mesh.setDimensions (List.ofFn E.dims) = some mesh) {ws : List (TWave (m + 1))} (hw : SortedWaves E mesh ws)
    {b : BasisData ℝ} (h : makeBasis E csqrt ws = .ok b) {kmesh : Mesh}
    (hk : Mesh.setDimensions (kMesh b.dims) = some kmesh) (en : Fin n ≃ Grid N) :
    b.nBasis = Module.finrank ℝ (symFields E.group en) := by
  obtain ⟨V, hN, F, hd, -⟩ := C115_makeBasis_sound G R hmin hsqrt hm hw h
  have hd' : b.dims = dimsOf N := by rw [hd, hE]; rfl
  have iff := C115_symmetric_iff G hE R hgrp hmin hsqrt hm hw h hk en
  choose F hF using fun a : Fin b.nBasis → ℝ => gridField_exists V hk en (List.ofFn a) (by simp)
  have key : ∀ (a : Fin b.nBasis → ℝ) f, GridField b kmesh en (List.ofFn a) f → F a = f := fun a f hf =>
    gridField_unique V hd' hk (by simp) (hF a) hf
  let T : (Fin b.nBasis → ℝ) →ₗ[ℝ] symFields E.group en :=
    { toFun := fun a => ⟨F a, (iff _).1 ⟨_, by simp, hF a⟩⟩
      map_add' := by
        intro a a'
        apply Subtype.ext
        refine key _ _ ?_
        have := GridField.linF V hd' hk (en := en) (fun _ : Fin 2 => (1 : ℝ)) ![a, a'] ![F a, F a']
          (by intro t; fin_cases t; exact hF a; exact hF a')
        simp only [Fin.sum_univ_two, one_mul] at this
        exact this
      map_smul' := by
        intro x a
        apply Subtype.ext
        refine key _ _ ?_
        have := GridField.linF V hd' hk (en := en) (fun _ : Fin 1 => x) ![a] ![F a]
          (by intro t; fin_cases t; exact hF a)
        simp only [Fin.sum_univ_one] at this
        exact this }
  have hT : Function.Bijective T := by
    constructor
    · intro a a' e
      have e' : F a = F a' := congrArg Subtype.val e
      have h1 := hF a
      rw [e'] at h1
      exact List.ofFn_injective (h1.inj V hN hd' hk (by simp) (by simp) (hF a'))
    · rintro ⟨f, hf⟩
      obtain ⟨a, ha, h1⟩ := (iff f).2 hf
      refine ⟨fun i => a[i.val], ?_⟩
      apply Subtype.ext
      refine key _ _ ?_
      have : List.ofFn (fun i : Fin b.nBasis => a[i.val]) = a := by
        apply List.ext_getElem <;> simp [ha]
      rw [this]
      exact h1
  have := (LinearEquiv.ofBijective T hT).finrank_eq
  rw [← this]
  simp

/-- **C115**: the number of basis functions depends only on the mesh and on the set of operations: not on the shape
of the cell, on tolerances, on the order of the operations in the group file, or on the order of waves. -/
theorem C115_number_of_functions {E' : StarEnv (m + 1)} (G : GroupOn E.dims E.group) (G' : GroupOn E'.dims E'.group)
    (hE : E.dims = fun d => (N d : ℤ)) (hE' : E'.dims = fun d => (N d : ℤ)) (hset : ∀ A, A ∈ E.group ↔ A ∈ E'.group)
    (R : Resolved E) (R' : Resolved E')
    (hgrp : E.group.length < 10000000000000000) (hgrp' : E'.group.length < 10000000000000000)
    (hmin : ∀ v, sh E.dims (E.minIm v) = sh E.dims v) (hmin' : ∀ v, sh E'.dims (E'.minIm v) = sh E'.dims v)
    {csqrt : ℂ → ℂ} (hsqrt : ∀ z, csqrt z * csqrt z = z) {mesh : Mesh}
    (hm : Mesh.setDimensions (List.ofFn E.dims) = some mesh) {ws ws' : List (TWave (m + 1))} (hw : SortedWaves E mesh ws)
    (hw' : SortedWaves E' mesh ws') {b b' : BasisData ℝ} (h : makeBasis E csqrt ws = .ok b)
    (h' : makeBasis E' csqrt ws' = .ok b') : b.nBasis = b'.nBasis := by
  have hdd : E'.dims = E.dims := by rw [hE, hE']
  have hm' : Mesh.setDimensions (List.ofFn E'.dims) = some mesh := by rw [hdd]; exact hm
  obtain ⟨V, -, -, hd, -⟩ := C115_makeBasis_sound G R hmin hsqrt hm hw h
  obtain ⟨-, -, -, hd', -⟩ := C115_makeBasis_sound G' R' hmin' hsqrt hm' hw' h'
  obtain ⟨kmesh, hk⟩ := (Mesh.C01_setDimensions_iff (kMesh b.dims)).mpr (Basis.kMesh_pos V.mesh.1 V.mesh.2)
  have hk' : Mesh.setDimensions (kMesh b'.dims) = some kmesh := by rw [hd', hdd, ← hd]; exact hk
  let en : Fin (Fintype.card (Grid N)) ≃ Grid N := (Fintype.equivFin _).symm
  rw [C115_dimension G hE R hgrp hmin hsqrt hm hw h hk en, C115_dimension G' hE' R' hgrp' hmin' hsqrt hm' hw' h' hk' en]
  have : symFields E.group en = symFields E'.group en := by
    ext f
    exact ⟨fun hf A hA => hf A ((hset A).2 hA), fun hf A hA => hf A ((hset A).1 hA)⟩
  rw [this]

/-! ## Success -/

/-- An array that `std::sort` may leave exists. -/
theorem sortedWaves_exists (E : StarEnv (m + 1)) (mesh : Mesh) : ∃ ws, SortedWaves E mesh ws := by
  refine ⟨(meshWaves E mesh).mergeSort fun a b => decide (E.ksq a.bz ≤ E.ksq b.bz), List.mergeSort_perm _ _, ?_⟩
  have := List.pairwise_mergeSort (le := fun a b : TWave (m + 1) => decide (E.ksq a.bz ≤ E.ksq b.bz))
    (by intro a b c h1 h2; simp only [decide_eq_true_eq] at *; exact h1.trans h2)
    (by intro a b; simp only [Bool.or_eq_true, decide_eq_true_eq]; exact le_total _ _) (meshWaves E mesh)
  exact this.imp fun h => by simpa using h

/-- **C116**: no check of `makeBasis` fails and no array is overrun, for every group, mesh and cell that
are compatible. -/
theorem C116_makeBasis_succeeds (G : GroupOn E.dims E.group) (R : Resolved E) {near : (Fin (m + 1) → Int) → Prop}
    (H : CellOn E near) {csqrt : ℂ → ℂ} (hsqrt : ∀ z, csqrt z * csqrt z = z) {mesh : Mesh}
    (hm : Mesh.setDimensions (List.ofFn E.dims) = some mesh) {ws : List (TWave (m + 1))} (hw : SortedWaves E mesh ws) :
    ∃ b, makeBasis E csqrt ws = .ok b := by
  have W := hw.inv hm G.pos
  obtain ⟨recs, h1⟩ := starLists_ok G R.tol.1 H (waveLists E ws)
    fun l hl l' hp => listInv_of_waves G H hw.sorted W hl hp
  have S := starLists_spec R.tol.1 _ _ (by rw [waveLists_flatten]; exact W.nodup) h1
  rw [waveLists_flatten] at S
  obtain ⟨L, h2⟩ := phases_ok csqrt G R H.cong S.paired (fun s hs => W.dft G.pos H.cong _ (S.built s hs).1)
    (fun s hs => (S.built s hs).2)
  obtain ⟨P, S'⟩ := make_spec G R H.cong hsqrt hm hw h1 h2
  obtain ⟨-, -, -, -, hrank⟩ := Mesh.C01_rank_position_bijection _ mesh hm
  have hsz := hrank (List.ofFn (sh E.dims 0)) (inRange_fn.2 ⟨_, rfl, sh_range G.pos 0⟩)
  obtain ⟨b, h3⟩ := finish_ok G R.tol.1 H hm W (by
    rw [hw.perm.length_eq]
    simp only [meshWaves, List.length_map, List.length_range]
    omega) P S'
  refine ⟨b, ?_⟩
  unfold makeBasis
  simp only [Res.bind_eq_ok]
  exact ⟨recs, h1, L, h2, h3⟩

/-- **C116**: the result does not depend on the order in which `std::sort` leaves waves of equal norm. -/
theorem C116_sort_irrelevant (hd : ∀ i, 0 < E.dims i) (he : 0 ≤ E.epsilon) (csqrt : ℂ → ℂ) {mesh : Mesh}
    (hm : Mesh.setDimensions (List.ofFn E.dims) = some mesh) {ws ws' : List (TWave (m + 1))} (hw : SortedWaves E mesh ws)
    (hw' : SortedWaves E mesh ws') : makeBasis E csqrt ws = makeBasis E csqrt ws' :=
  makeBasis_congr he csqrt (hw.perm.trans hw'.perm.symm) hw.sorted hw'.sorted (hw.inv hm hd).nodup

/-- **C116** in one dimension: `makeBasis` succeeds for every group that acts on the mesh; nothing is assumed about
the minimum images, which are those of `shiftToMinimum<1>`. -/
theorem C116_one_dimension {E : StarEnv 1} (G : GroupOn E.dims E.group) (R : Resolved E) (heps : 0 < E.epsilon)
    (hmin : ∀ v, E.minIm v = fun _ => Crystal.minImage1 (v 0) (E.dims 0)) (a : ℚ) (ha : 0 < a)
    (hk : ∀ v, E.ksq v = a * (v 0 : ℚ) ^ 2) {csqrt : ℂ → ℂ} (hsqrt : ∀ z, csqrt z * csqrt z = z) {mesh : Mesh}
    (hm : Mesh.setDimensions (List.ofFn E.dims) = some mesh) {ws : List (TWave 1)} (hw : SortedWaves E mesh ws) :
    ∃ b, makeBasis E csqrt ws = .ok b :=
  C116_makeBasis_succeeds G R (cellOn_one G heps hmin a ha hk) hsqrt hm hw

/-- **C116** for rectangular, square, orthorhombic, tetragonal and cubic cells with the search of `shiftToMinimum`:
the group must leave lengths unchanged, and lengths must be equal or differ by more than the tolerance. -/
theorem C116_orthogonal_cells (G : GroupOn E.dims E.group) (R : Resolved E) (δ : ℝ) (hδ : 0 < δ) (heps : 0 < E.epsilon)
    (hmin : ∀ v, E.minIm v = Crystal.minImage (fun u => (E.ksq u : ℝ)) δ v E.dims)
    (a : Fin (m + 1) → ℚ) (ha : ∀ i, 0 < a i) (hk : ∀ v, E.ksq v = ∑ i, a i * (v i : ℚ) ^ 2)
    (hsym : ∀ A ∈ E.group, ∀ v, E.ksq (Sym.vecMul v A) = E.ksq v)
    (hsep : ∀ a b : Fin (m + 1) → Int, (∀ i, |a i| ≤ 3 * E.dims i) → (∀ i, |b i| ≤ 3 * E.dims i) → E.ksq a < E.ksq b →
      (E.ksq a : ℝ) + δ < E.ksq b) {csqrt : ℂ → ℂ} (hsqrt : ∀ z, csqrt z * csqrt z = z) {mesh : Mesh}
    (hm : Mesh.setDimensions (List.ofFn E.dims) = some mesh) {ws : List (TWave (m + 1))} (hw : SortedWaves E mesh ws) :
    ∃ b, makeBasis E csqrt ws = .ok b :=
  C116_makeBasis_succeeds G R (cellOn_orthogonal G δ hδ heps hmin a ha hk hsym hsep) hsqrt hm hw

/-! ## Examples -/

/-- A square root of complex numbers. -/
theorem sqrt_exists : ∃ csqrt : ℂ → ℂ, ∀ z, csqrt z * csqrt z = z := by
  choose f hf using fun z : ℂ => IsAlgClosed.exists_pow_nat_eq z (n := 2) (by norm_num)
  exact ⟨f, fun z => by rw [← pow_two]; exact hf z⟩

/-- A line of eight points with the translation by half a period and the inversion. -/
def lineE : StarEnv 1 where
  dims := fun _ => 8
  group := [Sym.identity 1, ⟨fun _ _ => 1, fun _ => 1 / 2⟩, ⟨fun _ _ => -1, fun _ => 0⟩, ⟨fun _ _ => -1, fun _ => 1 / 2⟩]
  ksq := fun v => 3 * (v 0 : ℚ) ^ 2
  minIm := fun v _ => Crystal.minImage1 (v 0) 8
  epsilon := 1 / 100000000
  tol := 1 / 1000000
  tw := 6

theorem lineE_group : GroupOn lineE.dims lineE.group :=
  Stars.C76_groupOn_of_checks (by decide) (by decide +kernel) (by decide +kernel) (by decide +kernel)
    (by decide +kernel)

theorem lineE_resolved : Resolved lineE := by
  refine ⟨by norm_num [lineE], by norm_num [lineE], 2, by norm_num, by norm_num, ?_⟩
  intro A hA i
  simp only [lineE, List.mem_cons, List.not_mem_nil, or_false] at hA
  rcases hA with rfl | rfl | rfl | rfl
  · exact ⟨0, by simp [Sym.identity]⟩
  · exact ⟨1, by norm_num⟩
  · exact ⟨0, by norm_num⟩
  · exact ⟨1, by norm_num⟩

theorem lineE_mesh : Mesh.setDimensions (List.ofFn lineE.dims) = some ⟨[8], [1], 8⟩ := by decide

/-- All hypotheses of C115 and C116 hold for this line. -/
example : ∃ (csqrt : ℂ → ℂ) (ws : List (TWave 1)) (b : BasisData ℝ), SortedWaves lineE ⟨[8], [1], 8⟩ ws ∧
    makeBasis lineE csqrt ws = .ok b ∧ Valid (cellOf lineE) 0 b ∧ Normalised b ∧ Nondegenerate b ∧ ConstFirst b := by
  obtain ⟨csqrt, hs⟩ := sqrt_exists
  obtain ⟨ws, hw⟩ := sortedWaves_exists lineE ⟨[8], [1], 8⟩
  have H := cellOn_one lineE_group (by norm_num [lineE]) (fun v => rfl) 3 (by norm_num) (fun v => rfl)
  obtain ⟨b, hb⟩ := C116_makeBasis_succeeds lineE_group lineE_resolved H hs lineE_mesh hw
  obtain ⟨V, hN, -, -, hD⟩ := C115_makeBasis_sound lineE_group lineE_resolved H.cong hs lineE_mesh hw hb
  refine ⟨csqrt, ws, b, hw, hb, V, hN, hD (by simp [lineE]), C115_constant_first lineE_group (by norm_num [lineE]) H ?_
    lineE_mesh hw hb⟩
  refine ⟨by funext i; rfl, by norm_num [lineE], fun v hv => ?_⟩
  have h0 : Crystal.minImage1 (v 0) 8 ≠ 0 := by
    intro e
    apply hv
    rw [← H.cong v]
    congr 1
    funext i
    exact e
  have h1 : (1 : ℚ) ≤ (Crystal.minImage1 (v 0) 8 : ℚ) ^ 2 := by
    have : 1 ≤ (Crystal.minImage1 (v 0) 8) ^ 2 := by
      have := sq_pos_of_ne_zero h0
      omega
    exact_mod_cast this
  show (1 / 100000000 : ℚ) < 3 * (Crystal.minImage1 (v 0) 8 : ℚ) ^ 2
  linarith

/-- A rectangular mesh with the plane group `pg` (a glide reflection). -/
noncomputable def pgE : StarEnv 2 where
  dims := ![4, 6]
  group := [Sym.identity 2, ⟨![![1, 0], ![0, -1]], ![1 / 2, 0]⟩]
  ksq := fun v => 2 * (v 0 : ℚ) ^ 2 + 1 * (v 1 : ℚ) ^ 2
  minIm := fun v => Crystal.minImage (fun u => ((2 * (u 0 : ℚ) ^ 2 + 1 * (u 1 : ℚ) ^ 2 : ℚ) : ℝ)) (1 / 100000000) v ![4, 6]
  epsilon := 1 / 100000000
  tol := 1 / 1000000
  tw := 6

theorem pgE_group : GroupOn pgE.dims pgE.group :=
  Stars.C76_groupOn_of_checks (d := ![4, 6]) (l := [Sym.identity 2, ⟨![![1, 0], ![0, -1]], ![1 / 2, 0]⟩])
    (by decide) (by decide +kernel) (by decide +kernel) (by decide +kernel) (by decide +kernel)

theorem pgE_resolved : Resolved pgE := by
  refine ⟨by norm_num [pgE], by norm_num [pgE], 2, by norm_num, by norm_num, ?_⟩
  intro A hA i
  simp only [pgE, List.mem_cons, List.not_mem_nil, or_false] at hA
  rcases hA with rfl | rfl
  · exact ⟨0, by simp [Sym.identity]⟩
  · fin_cases i
    · exact ⟨1, by norm_num⟩
    · exact ⟨0, by norm_num⟩

/-- The hypotheses of the theorem on orthogonal cells hold for `pg`, so `makeBasis` succeeds. -/
example : ∃ (csqrt : ℂ → ℂ) (ws : List (TWave 2)) (b : BasisData ℝ), makeBasis pgE csqrt ws = .ok b ∧
    Valid (cellOf pgE) 0 b ∧ Normalised b := by
  obtain ⟨csqrt, hs⟩ := sqrt_exists
  have hm : Mesh.setDimensions (List.ofFn pgE.dims) = some ⟨[4, 6], [6, 1], 24⟩ := by
    show Mesh.setDimensions (List.ofFn ![(4 : Int), 6]) = _
    decide
  obtain ⟨ws, hw⟩ := sortedWaves_exists pgE ⟨[4, 6], [6, 1], 24⟩
  have hk : ∀ v, pgE.ksq v = ∑ i, (![2, 1] : Fin 2 → ℚ) i * (v i : ℚ) ^ 2 := by
    intro v
    simp [pgE, Fin.sum_univ_two]
  have H := cellOn_orthogonal pgE_group (1 / 100000000) (by norm_num) (by norm_num [pgE]) (fun v => rfl) ![2, 1]
    (by intro i; fin_cases i <;> norm_num) hk
    (by
      intro A hA v
      simp only [pgE, List.mem_cons, List.not_mem_nil, or_false] at hA
      rcases hA with rfl | rfl
      · rw [Stars.vecMul_one]
      · simp only [pgE, Stars.vecMul_apply, Fin.sum_univ_two]
        simp)
    (by
      intro a b _ _ h
      simp only [pgE] at h
      have h1 : 2 * a 0 ^ 2 + 1 * a 1 ^ 2 < 2 * b 0 ^ 2 + 1 * b 1 ^ 2 := by exact_mod_cast h
      have h2 : 2 * a 0 ^ 2 + 1 * a 1 ^ 2 + 1 ≤ 2 * b 0 ^ 2 + 1 * b 1 ^ 2 := h1
      have h3 : (2 * (a 0 : ℝ) ^ 2 + 1 * (a 1 : ℝ) ^ 2) + 1 ≤ 2 * (b 0 : ℝ) ^ 2 + 1 * (b 1 : ℝ) ^ 2 := by exact_mod_cast h2
      simp only [pgE]
      push_cast
      linarith)
  obtain ⟨b, hb⟩ := C116_makeBasis_succeeds pgE_group pgE_resolved H hs hm hw
  obtain ⟨V, hN, -⟩ := C115_makeBasis_sound pgE_group pgE_resolved H.cong hs hm hw hb
  exact ⟨csqrt, ws, b, hb, V, hN⟩

end Verif.Make
