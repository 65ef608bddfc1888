import Verif.Basis.ParsevalProps
import Verif.Solver.EquivProps

/-!
# Lemmas for C114: symmetric fields and their components
-/

set_option autoImplicit false
set_option linter.unusedSectionVars false

namespace Verif.Basis
open Verif.Mesh (IntVec Mesh InRange shiftVec)
open Verif.Solver
open Verif.Crystal (Sym)
open Verif.Stars (GroupOn StarEnv TWave StarState ex)

variable {m : Nat} {N : Fin (m + 1) → Nat} [∀ d, NeZero (N d)] {n : Nat}
variable {c : Cell ℝ} {b : BasisData ℝ}

theorem toC_mul (x y : Cx ℝ) : toC (x * y) = toC x * toC y := by
  apply Complex.ext <;> simp [toC]

theorem toC_inj {x y : Cx ℝ} (h : toC x = toC y) : x = y := by
  have e1 := congrArg Complex.re h
  have e2 := congrArg Complex.im h
  ext
  · exact e1
  · exact e2

/-- A complex number as `std::complex`. -/
def ofC (z : ℂ) : Cx ℝ := ⟨z.re, z.im⟩

theorem toC_ofC (z : ℂ) : toC (ofC z) = z := rfl

theorem toC_zero : toC 0 = 0 := rfl

/-! ## Components and Fourier coefficients -/

theorem GridField.coef (V : Valid c 0 b) (hd : b.dims = dimsOf N) {mesh : Mesh}
    (hm : Mesh.setDimensions (kMesh b.dims) = some mesh) {en : Fin n ≃ Grid N} {a : List ℝ}
    (ha : a.length = b.nBasis) {f : Fin n → ℝ} (h : GridField b mesh en a f) {i : Nat} {w : Wave ℝ}
    (hw : b.waves[i]? = some w) :
    Solver.coef en f (gridOf N w.dft) = toC (waveVal b (Real.sqrt 2) a w) := by
  obtain ⟨k, h1, rfl⟩ := h.holds V hm ha
  rw [coef_c2r en (half_hermitian V hd h1), extend_wave V hd h1 hw]

/-- A grid field is that of given components if its Fourier coefficients are those of the waves. -/
theorem gridField_of_coef (V : Valid c 0 b) (hd : b.dims = dimsOf N) {mesh : Mesh}
    (hm : Mesh.setDimensions (kMesh b.dims) = some mesh) {en : Fin n ≃ Grid N} {a : List ℝ}
    (ha : a.length = b.nBasis) {f : Fin n → ℝ}
    (h : ∀ (i : Nat) w, b.waves[i]? = some w →
      Solver.coef en f (gridOf N w.dft) = toC (waveVal b (Real.sqrt 2) a w)) : GridField b mesh en a f := by
  have hsz : mesh.size ≤ ((List.replicate mesh.size.toNat (0 : Cx ℝ)).length : Int) := by
    rw [List.length_replicate]; omega
  obtain ⟨k, h1, -, h3⟩ := basisToK_spec V ⟨hm⟩ (Real.sqrt 2) a ha _ hsz
  refine ⟨_, k, hsz, h1, ?_⟩
  apply r2c_inj en
  funext g
  obtain ⟨i, w, -, -, hw, e, -⟩ := wave_at V hd g.1
  have h4 := h i w hw
  have h5 := coef_c2r en (half_hermitian (N := N) V hd h3) g.1
  rw [← e, extend_wave V hd h3 hw, ← h4, e] at h5
  exact h5.symm

theorem at0_getD (x : List ℝ) (j : Int) : at0 x j = x.getD j.toNat 0 := by
  simp [at0, List.getD_eq_getElem?_getD]

/-- Linearity of amplitudes. -/
theorem waveVal_lin {ι : Type} (s : Finset ι) (x : ι → ℝ) (a : ι → List ℝ) (a0 : List ℝ) (r2 : ℝ)
    (h : ∀ j, a0.getD j 0 = ∑ t ∈ s, x t * (a t).getD j 0) (w : Wave ℝ) :
    toC (waveVal b r2 a0 w) = ∑ t ∈ s, (x t : ℂ) * toC (waveVal b r2 (a t) w) := by
  unfold waveVal
  cases b.stars[w.starId]? with
  | none => simp [toC_zero]
  | some st =>
    have h' : ∀ j : Int, at0 a0 j = ∑ t ∈ s, x t * at0 (a t) j := fun j => by
      simp only [at0_getD]; exact h _
    simp only [toC_mul, ← mul_assoc]
    rw [← Finset.sum_mul]
    congr 1
    have key : ∀ p q : ℝ, ∀ p' q' : ι → ℝ, p = ∑ t ∈ s, x t * p' t → q = ∑ t ∈ s, x t * q' t →
        toC ⟨p, q⟩ = ∑ t ∈ s, (x t : ℂ) * toC ⟨p' t, q' t⟩ := by
      intro p q p' q' hp hq
      apply Complex.ext
      · rw [Complex.re_sum]; simp [toC, hp]
      · rw [Complex.im_sum]; simp [toC, hq]
    unfold comp
    split
    · simp [toC_zero]
    · split
      · exact key _ _ _ _ (h' _) (by simp)
      · split
        · refine key _ _ _ _ ?_ ?_
          · simp only [h', Finset.sum_div]
            exact Finset.sum_congr rfl fun t _ => by ring
          · simp only [h', ← Finset.sum_neg_distrib, Finset.sum_div]
            exact Finset.sum_congr rfl fun t _ => by ring
        · refine key _ _ _ _ ?_ ?_
          · simp only [h', Finset.sum_div]
            exact Finset.sum_congr rfl fun t _ => by ring
          · simp only [h', Finset.sum_div]
            exact Finset.sum_congr rfl fun t _ => by ring

theorem coef_lin {ι : Type} (s : Finset ι) (en : Fin n ≃ Grid N) (x : ι → ℝ) (f : ι → Fin n → ℝ) (g : Grid N) :
    Solver.coef en (fun i => ∑ t ∈ s, x t * f t i) g = ∑ t ∈ s, (x t : ℂ) * Solver.coef en (f t) g := by
  unfold Solver.coef
  simp only [← mul_assoc]
  rw [← Finset.sum_mul]
  congr 1
  simp only [Finset.mul_sum]
  rw [Finset.sum_comm]
  refine Finset.sum_congr rfl fun i _ => ?_
  push_cast
  rw [Finset.sum_mul]
  exact Finset.sum_congr rfl fun t _ => by ring

/-- Linear combinations. -/
theorem GridField.lin {ι : Type} (s : Finset ι) (V : Valid c 0 b) (hd : b.dims = dimsOf N) {mesh : Mesh}
    (hm : Mesh.setDimensions (kMesh b.dims) = some mesh) {en : Fin n ≃ Grid N} (x : ι → ℝ) (a : ι → List ℝ)
    (ha : ∀ t, (a t).length = b.nBasis) (f : ι → Fin n → ℝ) (h : ∀ t, GridField b mesh en (a t) (f t))
    {a0 : List ℝ} (ha0 : a0.length = b.nBasis) (e0 : ∀ j, a0.getD j 0 = ∑ t ∈ s, x t * (a t).getD j 0) :
    GridField b mesh en a0 (fun i => ∑ t ∈ s, x t * f t i) := by
  refine gridField_of_coef V hd hm ha0 fun i w hw => ?_
  rw [coef_lin, waveVal_lin s x a a0 _ e0]
  exact Finset.sum_congr rfl fun t _ => by rw [(h t).coef V hd hm (ha t) hw]

/-- A field determines its components. -/
theorem GridField.inj (V : Valid c 0 b) (hN : Normalised b) (hd : b.dims = dimsOf N) {mesh : Mesh}
    (hm : Mesh.setDimensions (kMesh b.dims) = some mesh) {en : Fin n ≃ Grid N} {a a' : List ℝ}
    (ha : a.length = b.nBasis) (ha' : a'.length = b.nBasis) {f : Fin n → ℝ} (h : GridField b mesh en a f)
    (h' : GridField b mesh en a' f) : a = a' := by
  have e1 := C112_inner_product V hN hd mesh hm en a a ha ha f f h h
  have e2 := C112_inner_product V hN hd mesh hm en a a' ha ha' f f h h'
  have e3 := C112_inner_product V hN hd mesh hm en a' a' ha' ha' f f h' h'
  have e4 : ∑ j ∈ Finset.range b.nBasis, (a.getD j 0 - a'.getD j 0) ^ 2 = 0 := by
    have : ∀ j, (a.getD j 0 - a'.getD j 0) ^ 2 = a.getD j 0 * a.getD j 0 - 2 * (a.getD j 0 * a'.getD j 0) +
        a'.getD j 0 * a'.getD j 0 := fun j => by ring
    simp only [this]
    rw [Finset.sum_add_distrib, Finset.sum_sub_distrib, ← Finset.mul_sum, e1, e2, e3]
    ring
  rw [Finset.sum_eq_zero_iff_of_nonneg fun j _ => sq_nonneg _] at e4
  apply List.ext_getElem (by omega)
  intro j h1 h2
  have := e4 j (Finset.mem_range.2 (by omega))
  rw [List.getD_eq_getElem?_getD, List.getD_eq_getElem?_getD, List.getElem?_eq_getElem h1,
    List.getElem?_eq_getElem h2, Option.getD_some, Option.getD_some] at this
  have := pow_eq_zero_iff (two_ne_zero) |>.1 this
  linarith

/-! ## Bases made of stars -/

/-- The basis consists of the stars that `makeStars` builds in the environment `E`: each star is the
result of the loop over the group for some root, cancelled if that star is, and the coefficients are
the phases times a constant (the normalisation). -/
structure FromStars (E : StarEnv (m + 1)) (b : BasisData ℝ) : Prop where
  star : ∀ (k : Nat) s, b.stars[k]? = some s → ∃ (root : TWave (m + 1)) (st : StarState (m + 1)) (κ : ℂ),
    root.dft = Stars.sh E.dims root.bz ∧
    (∀ A ∈ E.group, Stars.ph root.bz A ≠ 0 → E.tol < |Stars.ph root.bz A * E.tw|) ∧
    Stars.buildStar E root = .ok st ∧ st.cancel = s.cancel ∧ κ ≠ 0 ∧
    (∀ (i : Nat) w, b.waves[i]? = some w → w.starId = k → ∃ tw ∈ st.star, w.dft = List.ofFn tw.dft ∧
      (s.cancel = false → toC w.coeff = ex tw.phase * κ)) ∧
    ∀ tw ∈ st.star, ∃ (i : Nat) (w : Wave ℝ), b.waves[i]? = some w ∧ w.starId = k ∧ w.dft = List.ofFn tw.dft

variable {E : StarEnv (m + 1)}

/-- A grid field with the symmetry of the group. -/
def GroupInvariant (l : List (Sym (m + 1))) (en : Fin n ≃ Grid N) (f : Fin n → ℝ) : Prop :=
  ∀ A ∈ l, ∀ i i' z, IsImage N A (rep (en i)) z → en i' = res N z → f i' = f i

theorem gridOf_ofFn (v : Fin (m + 1) → Int) : gridOf N (List.ofFn v) = res N v := by
  funext d
  unfold gridOf res
  rw [getD_ofFn]

theorem ex_ne (x : ℚ) : ex x ≠ 0 := Complex.exp_ne_zero _

/-- Fourier coefficients of an invariant field on one star. -/
theorem star_amp (G : GroupOn E.dims E.group) (hE : E.dims = fun d => (N d : ℤ)) (htol : 0 ≤ E.tol)
    (F : FromStars E b) {en : Fin n ≃ Grid N} {f : Fin n → ℝ} (hf : GroupInvariant E.group en f) {k : Nat} {s : Star}
    (hs : b.stars[k]? = some s) : ∃ C : ℂ, ∀ (i : Nat) w, b.waves[i]? = some w → w.starId = k →
      (s.cancel = true → Solver.coef en f (gridOf N w.dft) = 0) ∧
      (s.cancel = false → Solver.coef en f (gridOf N w.dft) = C * toC w.coeff ∧ toC w.coeff ≠ 0) := by
  obtain ⟨root, st, κ, h1, h2, h3, h4, h5, h6, -⟩ := F.star k s hs
  have G' : GroupOn (fun d => (N d : ℤ)) E.group := hE ▸ G
  have hI := C113_coefficients G' en f hf
  rw [← hE] at hI
  refine ⟨Solver.coef en f (res N root.bz) / κ, fun i w hw hk => ?_⟩
  obtain ⟨tw, ht, e1, e2⟩ := h6 i w hw hk
  have O := Stars.buildStar_inv htol h3
  have hsh : tw.dft = Stars.sh E.dims tw.dft := by
    obtain ⟨A, -, e, -⟩ := O.src tw ht
    rw [e, Stars.sh_sh G.pos]
  rw [e1, gridOf_ofFn]
  constructor
  · intro hc
    exact Stars.C76_cancelled_vanish G htol h1 h3 (h4.trans hc) hI tw ht tw.dft hsh
  · intro hc
    have := Stars.C76_determined_by_root htol h3 hI tw ht tw.dft hsh
    rw [e2 hc]
    refine ⟨?_, mul_ne_zero (ex_ne _) h5⟩
    rw [this]
    field_simp

/-- Invariant fields are exactly symmetric in the sense of the conversion. -/
theorem exactlySymmetric (V : Valid c 0 b) (hd : b.dims = dimsOf N) (G : GroupOn E.dims E.group)
    (hE : E.dims = fun d => (N d : ℤ)) (htol : 0 ≤ E.tol) (F : FromStars E b) (hne : ∀ s ∈ b.stars, 0 < s.size)
    {mesh : Mesh} (hm : Mesh.setDimensions (kMesh b.dims) = some mesh) {en : Fin n ≃ Grid N} {f : Fin n → ℝ}
    (hf : GroupInvariant E.group en f) {k : List (Cx ℝ)} (hlen : (k.length : Int) = mesh.size)
    (hk : halfOf mesh k = r2c en f) : ∃ C, ExactlySymmetric b mesh k C := by
  classical
  have hC : ∀ j : Nat, ∃ C : ℂ, ∀ s, b.stars[j]? = some s → (s.cancel = true → C = 0) ∧
      ∀ (i : Nat) w, b.waves[i]? = some w → w.starId = j →
      (s.cancel = true → Solver.coef en f (gridOf N w.dft) = 0) ∧
      (s.cancel = false → Solver.coef en f (gridOf N w.dft) = C * toC w.coeff ∧ toC w.coeff ≠ 0) := by
    intro j
    cases hs : b.stars[j]? with
    | none => exact ⟨0, fun s h => by cases h⟩
    | some s =>
      obtain ⟨C, h⟩ := star_amp G hE htol F hf hs
      refine ⟨if s.cancel then 0 else C, fun s' h' => ?_⟩
      cases h'
      refine ⟨fun hc => by simp [hc], fun i w hw hj => ⟨(h i w hw hj).1, fun hc => ?_⟩⟩
      simp only [hc, Bool.false_eq_true, if_false]
      exact (h i w hw hj).2 hc
  choose C hC using hC
  have hsz : ∀ (j : Nat) s, b.stars[j]? = some s → ∃ w, b.waves[s.beginId]? = some w ∧ w.starId = j := by
    intro j s hs
    have h1 := V.sizes s (List.mem_of_getElem? hs)
    have h2 := hne s (List.mem_of_getElem? hs)
    exact V.starWave j s hs s.beginId le_rfl (by omega)
  have hneg : ∀ (i j : Nat) w w', b.waves[i]? = some w → w.inverseId = j → b.waves[j]? = some w' →
      Solver.coef en f (gridOf N w'.dft) = (starRingEnd ℂ) (Solver.coef en f (gridOf N w.dft)) := by
    intro i j w w' hw hj hw'
    obtain ⟨i', x, j', x', h1, h2, h3, h4, h5, h6, -⟩ := wave_at V hd (gridOf N w.dft)
    have hr := V.dftRange i w hw
    rw [hd] at hr
    have e : x.dft = w.dft := by rw [← h3, posOf_gridOf hr]
    have hii := V.dftInj i' i x w h1 hw e
    rw [hii, hw] at h1
    cases h1
    rw [hj] at h4
    have : j' = j := by omega
    rw [this, hw'] at h5
    cases h5
    rw [h6, coef_neg]
  refine ⟨fun j => ofC (C j), hlen, ?_, ?_, ?_⟩
  · intro i w s hw hi hs
    obtain ⟨r0, r1⟩ := V.rank ⟨hm⟩ hw hi
    have hlt : (mesh.rank w.dft).toNat < k.length := by omega
    rw [List.getElem?_eq_getElem hlt]
    congr 1
    apply toC_inj
    obtain ⟨i', x, j', x', h1, h2, h3, h4, h5, h6, h7, h8, -⟩ := wave_at V hd (gridOf N w.dft)
    have hr := V.dftRange i w hw
    rw [hd] at hr
    have e : x.dft = w.dft := by rw [← h3, posOf_gridOf hr]
    have hii := V.dftInj i' i x w h1 hw e
    rw [hii, hw] at h1
    cases h1
    have h9 := congrFun hk ⟨gridOf N w.dft, h8.2 hi⟩
    unfold halfOf at h9
    rw [h3, List.getElem?_eq_getElem hlt, Option.getD_some] at h9
    rw [h9]
    show Solver.coef en f (gridOf N w.dft) = _
    have h10 := (hC w.starId s hs).2 i w hw rfl
    split
    · rename_i hc; exact h10.1 hc
    · rename_i hc
      rw [(h10.2 (by simpa using hc)).1, toC_mul, toC_ofC]
  · intro j s hs hf0
    show (C j).im = 0
    cases hc : s.cancel with
    | true => rw [(hC j s hs).1 hc]; rfl
    | false =>
      obtain ⟨w, hw, hj⟩ := hsz j s hs
      obtain ⟨q, w', a1, a2, -⟩ := V.inverse _ w hw
      obtain ⟨e1, e2⟩ := V.closedInv j s hs hf0 _ w hw hj q w' a1 a2
      have h1 := ((hC j s hs).2 _ w hw hj).2 hc
      have h2 := ((hC j s hs).2 _ w' a2 e1).2 hc
      have h3 := hneg _ _ w w' hw a1 a2
      rw [h1.1, h2.1, map_mul, exact_of_normSq _ _ (e2 hc), toC_conj, Complex.conj_conj] at h3
      have h4 := mul_right_cancel₀ h2.2 h3
      exact Complex.conj_eq_iff_im.1 h4.symm
  · intro j s hs hf1
    obtain ⟨t, ht, -, hct⟩ := V.paired.next j s hs hf1
    apply toC_inj
    rw [toC_conj, toC_ofC, toC_ofC]
    cases hc : s.cancel with
    | true => rw [(hC j s hs).1 hc, (hC (j + 1) t ht).1 (hct.trans hc)]; simp
    | false =>
      obtain ⟨w, hw, hj⟩ := hsz j s hs
      obtain ⟨q, w', a1, a2, -⟩ := V.inverse _ w hw
      obtain ⟨e1, e2⟩ := V.openInv j s hs hf1 _ w hw hj q w' a1 a2
      have h1 := ((hC j s hs).2 _ w hw hj).2 hc
      have h2 := ((hC (j + 1) t ht).2 _ w' a2 e1).2 (hct.trans hc)
      have h3 := hneg _ _ w w' hw a1 a2
      rw [h1.1, h2.1, map_mul, exact_of_normSq _ _ (e2 hc), toC_conj, Complex.conj_conj] at h3
      exact mul_right_cancel₀ h2.2 h3

/-- Amplitudes given by components are related by the operations of the group. -/
theorem waveVal_sym (V : Valid c 0 b) (G : GroupOn E.dims E.group)
    (hE : E.dims = fun d => (N d : ℤ)) (htol : 0 ≤ E.tol) (F : FromStars E b)
    (r2 : ℝ) (a : List ℝ) {A : Sym (m + 1)} (hA : A ∈ E.group) {i : Nat} {w : Wave ℝ} (hw : b.waves[i]? = some w) :
    ∃ (i' : Nat) (w' : Wave ℝ), b.waves[i']? = some w' ∧
      gridOf N w'.dft = res N (Sym.vecMul (rep (gridOf N w.dft)) A) ∧
      toC (waveVal b r2 a w') = ex (Stars.dot (rep (gridOf N w.dft)) A.t) * toC (waveVal b r2 a w) := by
  obtain ⟨s, hs, -, -⟩ := V.waveStar i w hw
  obtain ⟨root, st, κ, h1, h2, h3, h4, h5, h6, h7⟩ := F.star _ s hs
  obtain ⟨tw, ht, e1, e2⟩ := h6 i w hw rfl
  have O := Stars.buildStar_inv htol h3
  obtain ⟨A0, hA0, es, -⟩ := O.src tw ht
  have hsh : tw.dft = Stars.sh E.dims tw.dft := by rw [es, Stars.sh_sh G.pos]
  set v := rep (gridOf N w.dft) with hv
  have hvt : Stars.sh E.dims v = Stars.sh E.dims tw.dft := by
    rw [Stars.sh_iff G.pos]
    have h8 : res N tw.dft = res N v := by rw [hv, res_rep, e1, gridOf_ofFn]
    rw [hE]
    exact res_eq.1 h8
  have hvA : Stars.sh E.dims (Sym.vecMul v A) = Stars.sh E.dims (Sym.vecMul root.bz (A0.mul A)) := by
    rw [Stars.vecMul_mul]
    refine Stars.sh_vecMul G.pos (G.compat A hA) ?_
    rw [hvt, ← hsh, es]
  obtain ⟨tw', ht', e3⟩ := ((Stars.C76_star_is_orbit htol h3).2 (Sym.vecMul v A)).2
    ⟨_, G.mul A0 hA0 A hA, hvA⟩
  obtain ⟨i', w', g1, g2, g3⟩ := h7 tw' ht'
  refine ⟨i', w', g1, ?_, ?_⟩
  · rw [g3, gridOf_ofFn]
    have h8 : Stars.sh E.dims (Sym.vecMul v A) = Stars.sh E.dims tw'.dft := by
      rw [e3, Stars.sh_sh G.pos]
    rw [Stars.sh_iff G.pos, hE] at h8
    exact res_eq.2 h8
  · unfold waveVal
    rw [g2, hs]
    simp only [toC_mul]
    cases hc : s.cancel with
    | true => simp [comp, hc, toC_zero]
    | false =>
      obtain ⟨tw2, ht2, e4, e5⟩ := h6 i' w' g1 g2
      have : tw2.dft = tw'.dft := by
        have := e4.symm.trans g3
        exact List.ofFn_injective this
      have n1 := (Stars.C76_star_is_orbit htol h3).1
      have c1 := Stars.coefAt_mem n1 ht2 (v := Sym.vecMul v A) (by rw [this, e3])
      have c2 := Stars.coefAt_mem n1 ht (v := v) (by rw [hvt, ← hsh])
      have c3 := (Stars.C76_star_function_invariant G htol h1 h2 h3 (h4.trans hc)).sym A hA v
      rw [c1, c2] at c3
      rw [e5 hc, e2 hc, c3]
      ring

end Verif.Basis
