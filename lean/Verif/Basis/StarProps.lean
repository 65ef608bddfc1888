import Verif.Basis.StarLemmas

/-!
# Stars and symmetric fields (C76)
-/

namespace Verif.Stars
open Verif.Crystal

set_option linter.unusedSectionVars false
variable {D : Nat}

noncomputable section

/-! ## Specification -/

/-- Fourier coefficients of a field on the mesh that is invariant under all operations: they are a
function on wavevectors modulo the mesh, with the phase of a translation for every rotation.
(`f(Rx+t) = f(x)` for `f(x) = Σ F(G) exp(2πi G·x)`.) -/
structure Invariant (d : Fin D → Int) (group : List (Sym D)) (F : (Fin D → Int) → ℂ) : Prop where
  periodic : ∀ v w, sh d v = sh d w → F v = F w
  sym : ∀ A ∈ group, ∀ v, F (Sym.vecMul v A) = ex (dot v A.t) * F v

/-- Coefficient of wavevector `v` in the function of a star: `exp(i phase)` or zero. -/
def coefAt (d : Fin D → Int) (star : List (TWave D)) (v : Fin D → Int) : ℂ :=
  match star.find? (fun w => decide (w.dft = sh d v)) with
  | none => 0
  | some w => ex w.phase

theorem coefAt_mem {d : Fin D → Int} {star : List (TWave D)} (hn : (star.map TWave.dft).Nodup)
    {w : TWave D} (hw : w ∈ star) {v : Fin D → Int} (h : w.dft = sh d v) :
    coefAt d star v = ex w.phase := by
  unfold coefAt
  cases hf : star.find? (fun w => decide (w.dft = sh d v)) with
  | none =>
    rw [List.find?_eq_none] at hf
    exact absurd h (by simpa using hf w hw)
  | some u =>
    have hu := List.mem_of_find?_eq_some hf
    have he : u.dft = sh d v := by simpa using List.find?_some hf
    rw [List.inj_on_of_nodup_map hn hu hw (he.trans h.symm)]

theorem coefAt_not_mem {d : Fin D → Int} {star : List (TWave D)} {v : Fin D → Int}
    (h : ∀ w ∈ star, w.dft ≠ sh d v) : coefAt d star v = 0 := by
  unfold coefAt
  have : star.find? (fun w => decide (w.dft = sh d v)) = none := by
    rw [List.find?_eq_none]
    intro w hw
    simpa using h w hw
  rw [this]

section star
variable {E : StarEnv D} {root : TWave D} {st : StarState D}

/-- C76: the star of a root consists of one wave for every wavevector (modulo the mesh) obtained
from the root by a symmetry operation. -/
theorem C76_star_is_orbit (htol : 0 ≤ E.tol) (h : buildStar E root = .ok st) :
    (st.star.map TWave.dft).Nodup ∧ ∀ v : Fin D → Int, (∃ w ∈ st.star, w.dft = sh E.dims v) ↔
      ∃ A ∈ E.group, sh E.dims v = sh E.dims (Sym.vecMul root.bz A) := by
  have I := buildStar_inv htol h
  refine ⟨I.nodup, fun v => ⟨?_, ?_⟩⟩
  · rintro ⟨w, hw, e⟩
    obtain ⟨A, hA, e', _⟩ := I.src w hw
    exact ⟨A, hA, by rw [← e, e']⟩
  · rintro ⟨A, hA, e⟩
    obtain ⟨w, hw, e'⟩ := I.cov A hA
    exact ⟨w, hw, by rw [e', e]⟩

/-- Operation that undoes another one on wavevectors. -/
theorem undo (G : GroupOn E.dims E.group) {B : Sym D} (hB : B ∈ E.group) :
    ∃ C ∈ E.group, ∀ v, Sym.vecMul (Sym.vecMul v B) C = v ∧
      Cong (dot v B.t + dot (Sym.vecMul v B) C.t) 0 := by
  obtain ⟨C, hC, e, _⟩ := G.inv B hB
  refine ⟨C, hC, fun v => ⟨?_, ?_⟩⟩
  · rw [← vecMul_mul, e, vecMul_one]
  · have := (dot_mul v B C).symm
    rw [e, dot_one] at this
    exact this

/-- Two operations with the same image and different phases give an operation that fixes the root
with a nontrivial phase. -/
theorem conflict (G : GroupOn E.dims E.group) (v : Fin D → Int) {A B : Sym D} (hA : A ∈ E.group)
    (hB : B ∈ E.group) (he : sh E.dims (Sym.vecMul v A) = sh E.dims (Sym.vecMul v B)) :
    ∃ C ∈ E.group, sh E.dims (Sym.vecMul v C) = sh E.dims v ∧
      Cong (dot v C.t) (dot v A.t - dot v B.t) := by
  obtain ⟨B', hB', hu⟩ := undo G hB
  refine ⟨A.mul B', G.mul A hA B' hB', ?_, ?_⟩
  · rw [vecMul_mul, sh_vecMul G.pos (G.compat B' hB') he, (hu v).1]
  · refine (dot_mul v A B').trans ?_
    have h1 := dot_cong G.pos (G.compat B' hB').trans he
    have h2 := (hu v).2
    have h3 : Cong (dot (Sym.vecMul v A) B'.t) (- dot v B.t) := by
      refine h1.trans ?_
      have := h2.sub (Cong.refl (dot v B.t))
      rw [add_sub_cancel_left, zero_sub] at this
      exact this
    have := (Cong.refl (dot v A.t)).add h3
    rwa [← sub_eq_add_neg] at this

/-- C76: a star is marked as cancelled if and only if some operation maps its root to itself
(modulo the mesh) with a phase that is not a multiple of `2π`.  The hypothesis `hres` says that
phases of the group are multiples of a unit large compared to the tolerance. -/
theorem C76_cancel_iff (G : GroupOn E.dims E.group) (htol : 0 ≤ E.tol)
    (hroot : root.dft = sh E.dims root.bz)
    (hres : ∀ A ∈ E.group, ph root.bz A ≠ 0 → E.tol < |ph root.bz A * E.tw|)
    (h : buildStar E root = .ok st) :
    st.cancel = true ↔ ∃ A ∈ E.group, sh E.dims (Sym.vecMul root.bz A) = sh E.dims root.bz ∧
      ¬ ∃ n : ℤ, dot root.bz A.t = n := by
  have I := buildStar_inv htol h
  have hne : ∀ A : Sym D, ph root.bz A ≠ 0 ↔ ¬ ∃ n : ℤ, dot root.bz A.t = n := by
    intro A
    rw [not_iff_not]
    constructor
    · intro h0
      obtain ⟨z, hz⟩ := ph_cong root.bz A
      rw [h0] at hz
      exact ⟨-z, by push_cast; linarith⟩
    · rintro ⟨n, hn⟩
      obtain ⟨h1, h2, h3⟩ := reduce_spec (dot root.bz A.t)
      refine eq_of_cong (h1.trans ⟨n, by rw [hn]; simp⟩) h2 h3 (by norm_num) (by norm_num)
  constructor
  · intro hc
    rcases I.sound hc with ⟨A, hA, e, h0⟩ | ⟨A, hA, B, hB, e, h0⟩
    · exact ⟨A, hA, by rw [e, hroot], (hne A).mp h0⟩
    · obtain ⟨C, hC, e1, e2⟩ := conflict G root.bz hA hB e
      refine ⟨C, hC, e1, ?_⟩
      rintro ⟨n, hn⟩
      apply h0
      have h1 := reduce_spec (dot root.bz A.t)
      have h2 := reduce_spec (dot root.bz B.t)
      refine eq_of_cong (h1.1.trans (Cong.trans ?_ h2.1.symm)) h1.2.1 h1.2.2 h2.2.1 h2.2.2
      obtain ⟨z, hz⟩ := e2
      rw [hn] at hz
      exact ⟨n - z, by push_cast; linarith⟩
  · rintro ⟨A, hA, e, hn⟩
    exact I.complete A hA (by rw [e, hroot]) (hres A hA ((hne A).mpr hn))

/-- C76: every invariant field vanishes on the waves of a cancelled star. -/
theorem C76_cancelled_vanish (G : GroupOn E.dims E.group) (htol : 0 ≤ E.tol)
    (hroot : root.dft = sh E.dims root.bz) (h : buildStar E root = .ok st) (hc : st.cancel = true)
    {F : (Fin D → Int) → ℂ} (hF : Invariant E.dims E.group F) (w : TWave D) (hw : w ∈ st.star)
    (v : Fin D → Int) (hv : w.dft = sh E.dims v) : F v = 0 := by
  have I := buildStar_inv htol h
  -- the value at the root
  have h0 : F root.bz = 0 := by
    have key : ∃ A ∈ E.group, sh E.dims (Sym.vecMul root.bz A) = sh E.dims root.bz ∧
        ex (dot root.bz A.t) ≠ 1 := by
      have hone : ∀ A : Sym D, ph root.bz A ≠ 0 → ex (dot root.bz A.t) ≠ 1 := by
        intro A hA h1
        obtain ⟨n, hn⟩ := (ex_eq_one _).mp h1
        apply hA
        obtain ⟨h1, h2, h3⟩ := reduce_spec (dot root.bz A.t)
        exact eq_of_cong (h1.trans ⟨n, by rw [hn]; simp⟩) h2 h3 (by norm_num) (by norm_num)
      rcases I.sound hc with ⟨A, hA, e, h0⟩ | ⟨A, hA, B, hB, e, h0⟩
      · exact ⟨A, hA, by rw [e, hroot], hone A h0⟩
      · obtain ⟨C, hC, e1, e2⟩ := conflict G root.bz hA hB e
        refine ⟨C, hC, e1, ?_⟩
        intro h1
        rw [ex_cong e2] at h1
        obtain ⟨n, hn⟩ := (ex_eq_one _).mp h1
        apply h0
        have h1 := reduce_spec (dot root.bz A.t)
        have h2 := reduce_spec (dot root.bz B.t)
        exact eq_of_cong (h1.1.trans (Cong.trans ⟨n, hn⟩ h2.1.symm)) h1.2.1 h1.2.2 h2.2.1 h2.2.2
    obtain ⟨A, hA, e, hne⟩ := key
    have h1 := hF.sym A hA root.bz
    rw [hF.periodic _ _ e] at h1
    have h2 : (1 - ex (dot root.bz A.t)) * F root.bz = 0 := by rw [sub_mul, one_mul, ← h1, sub_self]
    rcases mul_eq_zero.mp h2 with h3 | h3
    · exact absurd (sub_eq_zero.mp h3).symm hne
    · exact h3
  obtain ⟨A, hA, e, _⟩ := I.src w hw
  rw [hF.periodic v (Sym.vecMul root.bz A) (by rw [← hv, e]), hF.sym A hA, h0, mul_zero]

/-- C76: on a star, an invariant field is determined by its value at the root, through the phases
stored for the waves. -/
theorem C76_determined_by_root (htol : 0 ≤ E.tol) (h : buildStar E root = .ok st)
    {F : (Fin D → Int) → ℂ} (hF : Invariant E.dims E.group F) (w : TWave D) (hw : w ∈ st.star)
    (v : Fin D → Int) (hv : w.dft = sh E.dims v) : F v = ex w.phase * F root.bz := by
  have I := buildStar_inv htol h
  obtain ⟨A, hA, e, e2, _⟩ := I.src w hw
  rw [hF.periodic v (Sym.vecMul root.bz A) (by rw [← hv, e]), hF.sym A hA, e2, ex_cong (ph_cong _ _)]

/-- Phases in an uncancelled star are consistent. -/
theorem consistent (G : GroupOn E.dims E.group) (htol : 0 ≤ E.tol)
    (hroot : root.dft = sh E.dims root.bz)
    (hres : ∀ A ∈ E.group, ph root.bz A ≠ 0 → E.tol < |ph root.bz A * E.tw|)
    (h : buildStar E root = .ok st) (hc : st.cancel = false) {A B : Sym D} (hA : A ∈ E.group)
    (hB : B ∈ E.group) (he : sh E.dims (Sym.vecMul root.bz A) = sh E.dims (Sym.vecMul root.bz B)) :
    ex (dot root.bz A.t) = ex (dot root.bz B.t) := by
  by_contra hne
  have : st.cancel = true := by
    rw [C76_cancel_iff G htol hroot hres h]
    obtain ⟨C, hC, e1, e2⟩ := conflict G root.bz hA hB he
    refine ⟨C, hC, e1, ?_⟩
    rintro ⟨n, hn⟩
    apply hne
    apply ex_cong
    obtain ⟨z, hz⟩ := e2
    rw [hn] at hz
    exact ⟨n - z, by push_cast; linarith⟩
  rw [hc] at this
  cases this

/-- Value of the star function at the image of the root under an operation. -/
theorem coefAt_orbit (G : GroupOn E.dims E.group) (htol : 0 ≤ E.tol)
    (hroot : root.dft = sh E.dims root.bz)
    (hres : ∀ A ∈ E.group, ph root.bz A ≠ 0 → E.tol < |ph root.bz A * E.tw|)
    (h : buildStar E root = .ok st) (hc : st.cancel = false) {A : Sym D} (hA : A ∈ E.group)
    (v : Fin D → Int) (hv : sh E.dims v = sh E.dims (Sym.vecMul root.bz A)) :
    coefAt E.dims st.star v = ex (dot root.bz A.t) := by
  have I := buildStar_inv htol h
  obtain ⟨w, hw, e⟩ := I.cov A hA
  rw [coefAt_mem I.nodup hw (by rw [e, hv])]
  obtain ⟨B, hB, e1, e2, _⟩ := I.src w hw
  rw [e2, ex_cong (ph_cong _ _)]
  exact (consistent G htol hroot hres h hc hA hB (by rw [← e, e1])).symm

/-- C76: the function of a star that is not cancelled is invariant under every operation. -/
theorem C76_star_function_invariant (G : GroupOn E.dims E.group) (htol : 0 ≤ E.tol)
    (hroot : root.dft = sh E.dims root.bz)
    (hres : ∀ A ∈ E.group, ph root.bz A ≠ 0 → E.tol < |ph root.bz A * E.tw|)
    (h : buildStar E root = .ok st) (hc : st.cancel = false) :
    Invariant E.dims E.group (coefAt E.dims st.star) := by
  have I := buildStar_inv htol h
  constructor
  · intro v w e
    unfold coefAt
    rw [e]
  · intro B hB v
    by_cases hv : ∃ A ∈ E.group, sh E.dims v = sh E.dims (Sym.vecMul root.bz A)
    · obtain ⟨A, hA, e⟩ := hv
      rw [coefAt_orbit G htol hroot hres h hc hA v e,
        coefAt_orbit G htol hroot hres h hc (G.mul A hA B hB) (Sym.vecMul v B)
          (by rw [vecMul_mul]; exact sh_vecMul G.pos (G.compat B hB) e),
        ex_cong (dot_mul root.bz A B), ex_add,
        ex_cong (dot_cong G.pos (G.compat B hB).trans e.symm), mul_comm]
    · have h1 : coefAt E.dims st.star v = 0 := by
        apply coefAt_not_mem
        intro w hw e
        exact hv (((C76_star_is_orbit htol h).2 v).mp ⟨w, hw, e⟩)
      have h2 : coefAt E.dims st.star (Sym.vecMul v B) = 0 := by
        apply coefAt_not_mem
        intro w hw e
        obtain ⟨A, hA, e'⟩ := ((C76_star_is_orbit htol h).2 _).mp ⟨w, hw, e⟩
        obtain ⟨C, hC, hu⟩ := undo G hB
        apply hv
        refine ⟨A.mul C, G.mul A hA C hC, ?_⟩
        rw [vecMul_mul, ← sh_vecMul G.pos (G.compat C hC) e', (hu v).1]
      rw [h1, h2, mul_zero]

/-- Real-space basis function of a star at position `x` (reduced coordinates). -/
def starFn (star : List (TWave D)) (x : Fin D → ℚ) : ℂ :=
  (star.map fun w => ex w.phase * ex (dot w.bz x)).sum

/-- `R x + t`. -/
def act (A : Sym D) (x : Fin D → ℚ) : Fin D → ℚ := fun i => A.t i + ∑ j, (A.R i j : ℚ) * x j

theorem dot_act (v : Fin D → Int) (A : Sym D) (x : Fin D → ℚ) :
    dot v (act A x) = dot v A.t + dot (Sym.vecMul v A) x := by
  unfold dot act
  simp only [vecMul_apply, mul_add, Finset.sum_add_distrib, Finset.mul_sum, Int.cast_sum,
    Int.cast_mul, Finset.sum_mul]
  congr 1
  rw [Finset.sum_comm]
  exact Finset.sum_congr rfl fun k _ => Finset.sum_congr rfl fun l _ => by ring

/-- The star function as a sum over wavevectors. -/
theorem starFn_eq (G : GroupOn E.dims E.group) (htol : 0 ≤ E.tol)
    (hmin : ∀ v, sh E.dims (E.minIm v) = sh E.dims v)
    (h : buildStar E root = .ok st) (n : Fin D → Int) (x : Fin D → ℚ)
    (hx : ∀ i, (E.dims i : ℚ) * x i = n i) :
    starFn st.star x = ∑ v ∈ (st.star.map TWave.dft).toFinset, coefAt E.dims st.star v * ex (dot v x) := by
  have I := buildStar_inv htol h
  unfold starFn
  rw [List.sum_toFinset _ I.nodup, List.map_map]
  congr 1
  apply List.map_congr_left
  intro w hw
  obtain ⟨A, hA, e, e2, e3⟩ := I.src w hw
  have hw' : w.dft = sh E.dims w.dft := by rw [e, sh_sh G.pos]
  show _ = coefAt E.dims st.star w.dft * ex (dot w.dft x)
  rw [coefAt_mem I.nodup hw hw']
  congr 1
  apply ex_cong
  apply dot_cong G.pos (fun i => ⟨n i, hx i⟩)
  rw [e3, hmin, e, sh_sh G.pos]

/-- C76: at every mesh point, the real-space function of an uncancelled star takes the same value
at a point and at its image under any operation of the group. -/
theorem C76_real_space_invariance (G : GroupOn E.dims E.group) (htol : 0 ≤ E.tol)
    (hroot : root.dft = sh E.dims root.bz)
    (hmin : ∀ v, sh E.dims (E.minIm v) = sh E.dims v)
    (hres : ∀ A ∈ E.group, ph root.bz A ≠ 0 → E.tol < |ph root.bz A * E.tw|)
    (h : buildStar E root = .ok st) (hc : st.cancel = false) (A : Sym D) (hA : A ∈ E.group)
    (n : Fin D → Int) :
    starFn st.star (act A fun i => (n i : ℚ) / E.dims i) = starFn st.star fun i => (n i : ℚ) / E.dims i := by
  have hd : ∀ i, (E.dims i : ℚ) ≠ 0 := fun i => by exact_mod_cast (G.pos i).ne'
  have hx : ∀ i, (E.dims i : ℚ) * ((n i : ℚ) / E.dims i) = n i := fun i => by field_simp [hd i]
  -- the image is a mesh point
  have hx' : ∀ i, ∃ m : ℤ, (E.dims i : ℚ) * act A (fun i => (n i : ℚ) / E.dims i) i = m := by
    intro i
    obtain ⟨k, hk⟩ := (G.compat A hA).trans i
    choose q hq using fun j => (G.compat A hA).rot i j
    refine ⟨k + ∑ j, q j * n j, ?_⟩
    unfold act
    rw [mul_add, hk, Finset.mul_sum]
    push_cast
    congr 1
    refine Finset.sum_congr rfl fun j _ => ?_
    have e : (E.dims i : ℚ) * A.R i j = E.dims j * q j := by exact_mod_cast hq j
    rw [← mul_assoc, e]
    field_simp [hd j]
  choose m hm using hx'
  set x : Fin D → ℚ := fun i => (n i : ℚ) / E.dims i with hxdef
  rw [starFn_eq G htol hmin h m _ hm, starFn_eq G htol hmin h n _ hx]
  have Inv := C76_star_function_invariant G htol hroot hres h hc
  have I := buildStar_inv htol h
  have hmem : ∀ v, v ∈ (st.star.map TWave.dft).toFinset ↔
      sh E.dims v = v ∧ ∃ B ∈ E.group, sh E.dims v = sh E.dims (Sym.vecMul root.bz B) := by
    intro v
    rw [List.mem_toFinset, List.mem_map]
    constructor
    · rintro ⟨w, hw, rfl⟩
      obtain ⟨B, hB, e, _⟩ := I.src w hw
      exact ⟨by rw [e, sh_sh G.pos], B, hB, by rw [e, sh_sh G.pos]⟩
    · rintro ⟨e, B, hB, e'⟩
      obtain ⟨w, hw, e2⟩ := I.cov B hB
      exact ⟨w, hw, by rw [e2, ← e', e]⟩
  obtain ⟨C, hC, e1, e2⟩ := G.inv A hA
  have hAC : ∀ v, Sym.vecMul (Sym.vecMul v A) C = v := fun v => by rw [← vecMul_mul, e1, vecMul_one]
  have hCA : ∀ v, Sym.vecMul (Sym.vecMul v C) A = v := fun v => by rw [← vecMul_mul, e2, vecMul_one]
  refine Finset.sum_nbij' (fun v => sh E.dims (Sym.vecMul v A)) (fun v => sh E.dims (Sym.vecMul v C))
    ?_ ?_ ?_ ?_ ?_
  · intro v hv
    rw [hmem] at hv ⊢
    obtain ⟨_, B, hB, e⟩ := hv
    refine ⟨sh_sh G.pos _, B.mul A, G.mul B hB A hA, ?_⟩
    rw [sh_sh G.pos, vecMul_mul]
    exact sh_vecMul G.pos (G.compat A hA) e
  · intro v hv
    rw [hmem] at hv ⊢
    obtain ⟨_, B, hB, e⟩ := hv
    refine ⟨sh_sh G.pos _, B.mul C, G.mul B hB C hC, ?_⟩
    rw [sh_sh G.pos, vecMul_mul]
    exact sh_vecMul G.pos (G.compat C hC) e
  · intro v hv
    have h1 := sh_vecMul G.pos (G.compat C hC) (sh_sh G.pos (Sym.vecMul v A))
    show sh E.dims (Sym.vecMul (sh E.dims (Sym.vecMul v A)) C) = v
    rw [h1, hAC]
    exact ((hmem v).mp hv).1
  · intro v hv
    have h1 := sh_vecMul G.pos (G.compat A hA) (sh_sh G.pos (Sym.vecMul v C))
    show sh E.dims (Sym.vecMul (sh E.dims (Sym.vecMul v C)) A) = v
    rw [h1, hCA]
    exact ((hmem v).mp hv).1
  · intro v hv
    show _ = coefAt E.dims st.star (sh E.dims (Sym.vecMul v A)) * ex (dot (sh E.dims (Sym.vecMul v A)) x)
    rw [dot_act, ex_add, Inv.periodic _ _ (sh_sh G.pos (Sym.vecMul v A)), Inv.sym A hA v,
      ex_cong (dot_cong G.pos (fun i => ⟨n i, hx i⟩) (sh_sh G.pos (Sym.vecMul v A)))]
    ring

end star

/-! ## The loop over stars -/

section loop
variable {E : StarEnv D}

/-- Erasing a star from a list without repeated entries splits the list. -/
theorem eraseStar_perm {list star : List (TWave D)} (hl : (list.map TWave.dft).Nodup)
    (hs : (star.map TWave.dft).Nodup)
    (hlen : star.length + (eraseStar list star).length = list.length) :
    (list.map TWave.dft).Perm (star.map TWave.dft ++ (eraseStar list star).map TWave.dft) := by
  set p : TWave D → Bool := fun w => star.any (fun v => decide (v.dft = w.dft)) with hp
  have hsplit : (list.filter p ++ eraseStar list star).Perm list := List.filter_append_perm p list
  have hlen2 : (list.filter p).length = star.length := by
    have := hsplit.length_eq
    rw [List.length_append] at this
    omega
  have hsub : (list.filter p).map TWave.dft ⊆ star.map TWave.dft := by
    intro v hv
    obtain ⟨w, hw, rfl⟩ := List.mem_map.mp hv
    have h1 := (List.mem_filter.mp hw).2
    simp only [hp, List.any_eq_true, decide_eq_true_eq] at h1
    obtain ⟨u, hu, e⟩ := h1
    exact List.mem_map.mpr ⟨u, hu, e⟩
  have hn1 : ((list.filter p).map TWave.dft).Nodup :=
    hl.sublist ((List.filter_sublist).map _)
  have hperm : ((list.filter p).map TWave.dft).Perm (star.map TWave.dft) :=
    (List.subperm_of_subset hn1 hsub).perm_of_length_le (by simp [hlen2])
  have := (hsplit.map TWave.dft).symm
  rw [List.map_append] at this
  exact this.trans (hperm.append_right _)

/-- What one pass of the loop over stars does. -/
theorem starLoop_cons (fuel : Nat) (first : TWave D) (tail : List (TWave D)) (inv : Option (TWave D))
    (stars : List (StarRec D)) (h : starLoop E (fuel + 1) (first :: tail) inv = some (.ok stars)) :
    ∃ st rest' inv', buildStar E (inv.getD first) = .ok st ∧
      st.star.length + (eraseStar (first :: tail) st.star).length = (first :: tail).length ∧
      starLoop E fuel (eraseStar (first :: tail) st.star) inv' = some (.ok rest') ∧
      ((inv ≠ none ∧ inv' = none ∧ stars = ⟨inv.getD first, st.star, st.cancel, -1⟩ :: rest') ∨
       (inv = none ∧ inv' = none ∧ stars = ⟨first, st.star, st.cancel, 0⟩ :: rest' ∧
          ∃ w ∈ st.star, w.dft = sh E.dims (fun i => - first.bz i)) ∨
       (inv = none ∧ stars = ⟨first, st.star, st.cancel, 1⟩ :: rest' ∧
          (∀ w ∈ st.star, w.dft ≠ sh E.dims (fun i => - first.bz i)) ∧
          ∃ w, inv' = some w ∧ w ∈ eraseStar (first :: tail) st.star ∧
            w.dft = sh E.dims (fun i => - first.bz i))) := by
  rw [starLoop.eq_def] at h
  simp only at h
  cases hb : buildStar E (inv.getD first) with
  | throw => rw [hb] at h; simp at h
  | ub => rw [hb] at h; simp at h
  | ok st =>
    rw [hb] at h
    simp only at h
    by_cases hlen : st.star.length + (eraseStar (first :: tail) st.star).length ≠ (first :: tail).length
    · rw [if_pos hlen] at h; simp at h
    · rw [if_neg hlen] at h
      push Not at hlen
      cases inv with
      | some r =>
        simp only [Option.getD_some] at h hb ⊢
        cases hr : starLoop E fuel (eraseStar (first :: tail) st.star) none with
        | none => rw [hr] at h; simp at h
        | some q =>
          rw [hr] at h
          cases q with
          | throw => simp [Res.map] at h
          | ub => simp [Res.map] at h
          | ok rest' =>
            simp only [Res.map_ok, Option.some.injEq, Res.ok.injEq] at h
            exact ⟨st, rest', none, rfl, hlen, hr, Or.inl ⟨by simp, rfl, h.symm⟩⟩
      | none =>
        simp only [Option.getD_none] at h hb ⊢
        by_cases hany : (st.star.any fun w => decide (sh E.dims (fun i => - first.bz i) = w.dft)) = true
        · rw [if_pos hany] at h
          cases hr : starLoop E fuel (eraseStar (first :: tail) st.star) none with
          | none => rw [hr] at h; simp at h
          | some q =>
            rw [hr] at h
            cases q with
            | throw => simp [Res.map] at h
            | ub => simp [Res.map] at h
            | ok rest' =>
              simp only [Res.map_ok, Option.some.injEq, Res.ok.injEq] at h
              refine ⟨st, rest', none, rfl, hlen, hr, Or.inr (Or.inl ⟨trivial, rfl, h.symm, ?_⟩)⟩
              simp only [List.any_eq_true, decide_eq_true_eq] at hany
              obtain ⟨w, hw, e⟩ := hany
              exact ⟨w, hw, e.symm⟩
        · rw [if_neg hany] at h
          cases hf : (eraseStar (first :: tail) st.star).find?
              (fun w => decide (sh E.dims (fun i => - first.bz i) = w.dft)) with
          | none => rw [hf] at h; simp at h
          | some r =>
            rw [hf] at h
            simp only at h
            cases hr : starLoop E fuel (eraseStar (first :: tail) st.star) (some r) with
            | none => rw [hr] at h; simp at h
            | some q =>
              rw [hr] at h
              cases q with
              | throw => simp [Res.map] at h
              | ub => simp [Res.map] at h
              | ok rest' =>
                simp only [Res.map_ok, Option.some.injEq, Res.ok.injEq] at h
                refine ⟨st, rest', some r, rfl, hlen, hr, Or.inr (Or.inr ⟨trivial, h.symm, ?_, r, rfl,
                  List.mem_of_find?_eq_some hf, ?_⟩)⟩
                · intro w hw e
                  apply hany
                  simp only [List.any_eq_true, decide_eq_true_eq]
                  exact ⟨w, hw, e.symm⟩
                · have := List.find?_some hf
                  simp only [decide_eq_true_eq] at this
                  exact this.symm

/-- Sequence of inversion flags: `0`, or `1` directly followed by a star with `-1` whose root is
the inverse of the root of the first. -/
inductive Paired (d : Fin D → Int) : List (StarRec D) → Prop
  | nil : Paired d []
  | closed (s l) : s.invertFlag = 0 → (∃ w ∈ s.waves, w.dft = sh d (fun i => - s.root.bz i)) →
      Paired d l → Paired d (s :: l)
  | pair (s u l) : s.invertFlag = 1 → u.invertFlag = -1 →
      (∀ w ∈ s.waves, w.dft ≠ sh d (fun i => - s.root.bz i)) →
      u.root.dft = sh d (fun i => - s.root.bz i) → Paired d l → Paired d (s :: u :: l)

/-- All facts about a successful run of the loop over a list. -/
structure LoopSpec (E : StarEnv D) (list : List (TWave D)) (stars : List (StarRec D)) : Prop where
  built : ∀ s ∈ stars, buildStar E s.root = .ok ⟨s.waves, s.cancel⟩ ∧ s.root ∈ list
  perm : (list.map TWave.dft).Perm (stars.flatMap fun s => s.waves.map TWave.dft)

theorem mem_of_erase {list star : List (TWave D)} {w : TWave D} (h : w ∈ eraseStar list star) :
    w ∈ list := (List.mem_filter.mp h).1

theorem starLoop_spec (htol : 0 ≤ E.tol) (fuel : Nat) :
    ∀ (list : List (TWave D)) (inv : Option (TWave D)) (stars : List (StarRec D)),
      (list.map TWave.dft).Nodup → (∀ w, inv = some w → w ∈ list) →
      starLoop E fuel list inv = some (.ok stars) → LoopSpec E list stars := by
  induction fuel with
  | zero =>
    intro list inv stars _ _ h
    cases list with
    | nil =>
      rw [starLoop.eq_def] at h
      simp only [Option.some.injEq, Res.ok.injEq] at h
      subst h
      exact ⟨by simp, by simp⟩
    | cons a l => rw [starLoop.eq_def] at h; cases h
  | succ fuel ih =>
    intro list inv stars hn hinv h
    cases list with
    | nil =>
      rw [starLoop.eq_def] at h
      simp only [Option.some.injEq, Res.ok.injEq] at h
      subst h
      exact ⟨by simp, by simp⟩
    | cons first tail =>
      obtain ⟨st, rest', inv', hb, hlen, hrec, hcase⟩ := starLoop_cons fuel first tail inv stars h
      have I := buildStar_inv htol hb
      have hp := eraseStar_perm hn I.nodup hlen
      have hn' : ((eraseStar (first :: tail) st.star).map TWave.dft).Nodup :=
        hn.sublist ((List.filter_sublist).map _)
      have hinv' : ∀ w, inv' = some w → w ∈ eraseStar (first :: tail) st.star := by
        intro w hw
        rcases hcase with ⟨_, e, _⟩ | ⟨_, e, _⟩ | ⟨_, _, _, r, e, hr, _⟩
        · rw [e] at hw; cases hw
        · rw [e] at hw; cases hw
        · rw [e] at hw; cases hw; exact hr
      have S := ih _ _ _ hn' hinv' hrec
      have hroot : inv.getD first ∈ first :: tail := by
        cases hi : inv with
        | none => simp
        | some r => exact hinv r hi
      have hst : ∃ f : Int, stars = ⟨inv.getD first, st.star, st.cancel, f⟩ :: rest' := by
        rcases hcase with ⟨_, _, e⟩ | ⟨e0, _, e, _⟩ | ⟨e0, e, _⟩
        · exact ⟨_, e⟩
        · rw [e0]; exact ⟨_, e⟩
        · rw [e0]; exact ⟨_, e⟩
      obtain ⟨f, rfl⟩ := hst
      constructor
      · intro s hs
        rcases List.mem_cons.mp hs with rfl | hs
        · exact ⟨hb, hroot⟩
        · exact ⟨(S.built s hs).1, mem_of_erase (S.built s hs).2⟩
      · rw [List.flatMap_cons]
        exact hp.trans (S.perm.append_left _)

/-- Flags after a star that announced its partner. -/
theorem starLoop_flags (fuel : Nat) :
    ∀ (list : List (TWave D)) (inv : Option (TWave D)) (stars : List (StarRec D)),
      (list.map TWave.dft).Nodup → (∀ w, inv = some w → w ∈ list) →
      starLoop E fuel list inv = some (.ok stars) →
      (inv = none → Paired E.dims stars) ∧
      (∀ r, inv = some r → ∃ u l, stars = u :: l ∧ u.invertFlag = -1 ∧ u.root = r ∧
        Paired E.dims l) := by
  induction fuel with
  | zero =>
    intro list inv stars _ hinv h
    cases list with
    | nil =>
      rw [starLoop.eq_def] at h
      simp only [Option.some.injEq, Res.ok.injEq] at h
      subst h
      exact ⟨fun _ => .nil, fun r hr => absurd (hinv r hr) (by simp)⟩
    | cons a l => rw [starLoop.eq_def] at h; cases h
  | succ fuel ih =>
    intro list inv stars hn hinv h
    cases list with
    | nil =>
      rw [starLoop.eq_def] at h
      simp only [Option.some.injEq, Res.ok.injEq] at h
      subst h
      exact ⟨fun _ => .nil, fun r hr => absurd (hinv r hr) (by simp)⟩
    | cons first tail =>
      obtain ⟨st, rest', inv', hb, hlen, hrec, hcase⟩ := starLoop_cons fuel first tail inv stars h
      have hn' : ((eraseStar (first :: tail) st.star).map TWave.dft).Nodup :=
        hn.sublist ((List.filter_sublist).map _)
      rcases hcase with ⟨e0, e, es⟩ | ⟨e0, e, es, hw⟩ | ⟨e0, es, hno, r, e, hr, hrd⟩
      · subst e
        have S := ih _ _ _ hn' (by simp) hrec
        refine ⟨fun h0 => absurd h0 e0, fun r hr => ⟨_, _, es, rfl, ?_, S.1 rfl⟩⟩
        rw [hr]; rfl
      · subst e e0
        have S := ih _ _ _ hn' (by simp) hrec
        refine ⟨fun _ => ?_, fun r hr => by cases hr⟩
        rw [es]
        exact .closed _ _ rfl hw (S.1 rfl)
      · subst e e0
        have S := ih _ _ _ hn' (by intro w hw; cases hw; exact hr) hrec
        refine ⟨fun _ => ?_, fun r hr => by cases hr⟩
        obtain ⟨u, l, e1, e2, e3, e4⟩ := S.2 r rfl
        rw [es, e1]
        exact .pair _ _ _ rfl e2 hno (by rw [e3, hrd]) e4

/-- C76: a successful run over a list of waves divides the list into stars: every wave of the
list is in exactly one star, every star is generated by its root, and stars come in the sequence
`0 | 1, -1` of inversion flags described by `Paired`. -/
theorem C76_loop_partition (htol : 0 ≤ E.tol) (fuel : Nat) (list : List (TWave D))
    (stars : List (StarRec D)) (hn : (list.map TWave.dft).Nodup)
    (h : starLoop E fuel list none = some (.ok stars)) :
    (list.map TWave.dft).Perm (stars.flatMap fun s => s.waves.map TWave.dft) ∧
    (∀ s ∈ stars, s.root ∈ list ∧ buildStar E s.root = .ok ⟨s.waves, s.cancel⟩) ∧
    Paired E.dims stars := by
  have S := starLoop_spec htol fuel list none stars hn (by simp) h
  exact ⟨S.perm, fun s hs => ⟨(S.built s hs).2, (S.built s hs).1⟩,
    (starLoop_flags fuel list none stars hn (by simp) h).1 rfl⟩

/-- C76: the loop ends: as many turns as there are waves in the list always suffice (each star
contains its root, because the group contains the identity). -/
theorem C76_loop_terminates (G : GroupOn E.dims E.group) (htol : 0 ≤ E.tol) (fuel : Nat) :
    ∀ (list : List (TWave D)) (inv : Option (TWave D)),
      (∀ w ∈ list, w.dft = sh E.dims w.bz) → (∀ w, inv = some w → w ∈ list) →
      list.length ≤ fuel → starLoop E fuel list inv ≠ none := by
  induction fuel with
  | zero =>
    intro list inv _ _ hl
    have : list = [] := List.length_eq_zero_iff.mp (by omega)
    subst this
    rw [starLoop.eq_def]; simp
  | succ fuel ih =>
    intro list inv hd hinv hl
    cases list with
    | nil => rw [starLoop.eq_def]; simp
    | cons first tail =>
      rw [starLoop.eq_def]
      simp only
      have hmem : inv.getD first ∈ first :: tail := by
        cases hi : inv with
        | none => simp
        | some r => exact hinv r hi
      cases hb : buildStar E (inv.getD first) with
      | throw => simp
      | ub => simp
      | ok st =>
        simp only
        have I := buildStar_inv htol hb
        have hlt : (eraseStar (first :: tail) st.star).length < (first :: tail).length := by
          obtain ⟨w, hw, e⟩ := I.cov _ G.one
          rw [vecMul_one, ← hd _ hmem] at e
          apply List.length_filter_lt_length_iff_exists.mpr
          refine ⟨_, hmem, ?_⟩
          have hany : (st.star.any fun v => decide (v.dft = (inv.getD first).dft)) = true :=
            List.any_eq_true.mpr ⟨w, hw, by simpa using e⟩
          simp [hany]
        have hle : (eraseStar (first :: tail) st.star).length ≤ fuel := by omega
        have hd' : ∀ w ∈ eraseStar (first :: tail) st.star, w.dft = sh E.dims w.bz :=
          fun w hw => hd w (mem_of_erase hw)
        have hnone := ih _ none hd' (by simp) hle
        split
        · simp
        · cases inv with
          | some r =>
            simp only
            cases hr : starLoop E fuel (eraseStar (first :: tail) st.star) none with
            | none => exact absurd hr hnone
            | some q => simp
          | none =>
            simp only
            split
            · cases hr : starLoop E fuel (eraseStar (first :: tail) st.star) none with
              | none => exact absurd hr hnone
              | some q => simp
            · cases hf : (eraseStar (first :: tail) st.star).find?
                (fun w => decide (sh E.dims (fun i => - first.bz i) = w.dft)) with
              | none => simp [hf]
              | some r =>
                have h1 := ih _ (some r) hd'
                  (by intro w hw; cases hw; exact List.mem_of_find?_eq_some hf) hle
                simp only [Option.getD_none, hf]
                cases hr : starLoop E fuel (eraseStar (first :: tail) st.star) (some r) with
                | none => exact absurd hr h1
                | some q => simp

/-- C76: two stars related by inversion are both cancelled or both not cancelled. -/
theorem C76_pair_cancel (G : GroupOn E.dims E.group) (htol : 0 ≤ E.tol) (s u : StarRec D)
    (hs : buildStar E s.root = .ok ⟨s.waves, s.cancel⟩)
    (hu : buildStar E u.root = .ok ⟨u.waves, u.cancel⟩)
    (hrs : s.root.dft = sh E.dims s.root.bz) (hru : u.root.dft = sh E.dims u.root.bz)
    (hres : ∀ r, r = s.root ∨ r = u.root →
      ∀ A ∈ E.group, ph r.bz A ≠ 0 → E.tol < |ph r.bz A * E.tw|)
    (hinv : u.root.dft = sh E.dims (fun i => - s.root.bz i)) : u.cancel = s.cancel := by
  have hneg : ∀ (v : Fin D → Int) (A : Sym D),
      Sym.vecMul (fun i => - v i) A = fun i => - Sym.vecMul v A i := by
    intro v A; funext i; simp [vecMul_apply]
  have hnegd : ∀ (v : Fin D → Int) (t : Fin D → ℚ), dot (fun i => - v i) t = - dot v t := by
    intro v t; simp [dot]
  have hshneg : ∀ v w : Fin D → Int, sh E.dims v = sh E.dims w →
      sh E.dims (fun i => - v i) = sh E.dims (fun i => - w i) := by
    intro v w h
    rw [sh_iff G.pos] at h ⊢
    intro i
    obtain ⟨q, hq⟩ := h i
    exact ⟨-q, by linear_combination -hq⟩
  have hr : sh E.dims u.root.bz = sh E.dims (fun i => - s.root.bz i) := by rw [← hru, hinv]
  rw [Bool.eq_iff_iff, C76_cancel_iff G htol hru (hres _ (Or.inr rfl)) hu,
    C76_cancel_iff G htol hrs (hres _ (Or.inl rfl)) hs]
  constructor
  · rintro ⟨A, hA, e, hn⟩
    refine ⟨A, hA, ?_, ?_⟩
    · have h1 := sh_vecMul G.pos (G.compat A hA) hr
      rw [e, hr, hneg] at h1
      have h2 := hshneg _ _ h1
      simpa using h2.symm
    · rintro ⟨n, hn'⟩
      apply hn
      obtain ⟨z, hz⟩ := dot_cong G.pos (G.compat A hA).trans hr
      rw [hnegd, hn'] at hz
      exact ⟨z - n, by push_cast; linarith⟩
  · rintro ⟨A, hA, e, hn⟩
    refine ⟨A, hA, ?_, ?_⟩
    · rw [sh_vecMul G.pos (G.compat A hA) hr, hr, hneg]
      exact hshneg _ _ e
    · rintro ⟨n, hn'⟩
      apply hn
      obtain ⟨z, hz⟩ := dot_cong G.pos (G.compat A hA).trans hr
      rw [hnegd, hn'] at hz
      exact ⟨z - n, by push_cast; linarith⟩

/-! ## The stars span the symmetric fields -/

theorem sum_single {stars : List (StarRec D)} (f : StarRec D → ℂ) (v : Fin D → Int) (c : ℂ)
    (hn : (stars.flatMap fun s => s.waves.map TWave.dft).Nodup)
    (hf : ∀ s ∈ stars, v ∈ s.waves.map TWave.dft → f s = c)
    (hz : ∀ s ∈ stars, v ∉ s.waves.map TWave.dft → f s = 0)
    (hex : ∃ s ∈ stars, v ∈ s.waves.map TWave.dft) : (stars.map f).sum = c := by
  induction stars with
  | nil => simp at hex
  | cons s l ih =>
    rw [List.flatMap_cons, List.nodup_append] at hn
    rw [List.map_cons, List.sum_cons]
    by_cases hv : v ∈ s.waves.map TWave.dft
    · rw [hf s (by simp) hv]
      have : (l.map f).sum = 0 := by
        apply List.sum_eq_zero
        intro x hx
        obtain ⟨u, hu, rfl⟩ := List.mem_map.mp hx
        apply hz u (List.mem_cons_of_mem _ hu)
        intro hv'
        exact hn.2.2 v hv v (List.mem_flatMap.mpr ⟨u, hu, hv'⟩) rfl
      rw [this, add_zero]
    · rw [hz s (by simp) hv, zero_add]
      refine ih hn.2.1 (fun u hu => hf u (List.mem_cons_of_mem _ hu))
        (fun u hu => hz u (List.mem_cons_of_mem _ hu)) ?_
      obtain ⟨u, hu, hv'⟩ := hex
      rcases List.mem_cons.mp hu with rfl | hu
      · exact absurd hv' hv
      · exact ⟨u, hu, hv'⟩

/-- C76: the fields invariant under the group are exactly the linear combinations of the
functions of the stars that are not cancelled.  `stars` is the result of the loop over all lists:
its waves are all waves of the mesh, each once. -/
theorem C76_span (G : GroupOn E.dims E.group) (htol : 0 ≤ E.tol) (stars : List (StarRec D))
    (hb : ∀ s ∈ stars, buildStar E s.root = .ok ⟨s.waves, s.cancel⟩)
    (hroot : ∀ s ∈ stars, s.root.dft = sh E.dims s.root.bz)
    (hres : ∀ s ∈ stars, ∀ A ∈ E.group, ph s.root.bz A ≠ 0 → E.tol < |ph s.root.bz A * E.tw|)
    (hn : (stars.flatMap fun s => s.waves.map TWave.dft).Nodup)
    (hcov : ∀ v, ∃ s ∈ stars, sh E.dims v ∈ s.waves.map TWave.dft) (F : (Fin D → Int) → ℂ) :
    Invariant E.dims E.group F ↔ ∃ a : (Fin D → Int) → ℂ, ∀ v, F v = (stars.map fun s =>
      if s.cancel then 0 else a s.root.dft * coefAt E.dims s.waves v).sum := by
  constructor
  · intro hF
    refine ⟨F, fun v => ?_⟩
    refine (sum_single _ (sh E.dims v) (F v) hn ?_ ?_ (hcov v)).symm
    · intro s hs hv
      obtain ⟨w, hw, e⟩ := List.mem_map.mp hv
      by_cases hc : s.cancel = true
      · rw [if_pos hc]
        exact (C76_cancelled_vanish G htol (hroot s hs) (hb s hs) hc hF w hw v e).symm
      · rw [if_neg hc, C76_determined_by_root htol (hb s hs) hF w hw v e,
          coefAt_mem (buildStar_inv htol (hb s hs)).nodup hw e, hroot s hs,
          hF.periodic _ _ (sh_sh G.pos s.root.bz), mul_comm]
    · intro s hs hv
      rw [coefAt_not_mem fun w hw e => hv (List.mem_map.mpr ⟨w, hw, e⟩), mul_zero, ite_self]
  · rintro ⟨a, ha⟩
    have hI : ∀ s ∈ stars, Invariant E.dims E.group
        (fun v => if s.cancel then 0 else a s.root.dft * coefAt E.dims s.waves v) := by
      intro s hs
      by_cases hc : s.cancel = true
      · simp only [hc, if_true]
        exact ⟨fun _ _ _ => rfl, fun _ _ _ => by simp⟩
      · simp only [hc]
        have I := C76_star_function_invariant G htol (hroot s hs) (hres s hs) (hb s hs)
          (by simpa using hc)
        constructor
        · intro v w e
          simp [I.periodic v w e]
        · intro A hA v
          have := I.sym A hA v
          simp only [Bool.false_eq_true, if_false]
          rw [this]; ring
    constructor
    · intro v w e
      rw [ha v, ha w]
      congr 1
      exact List.map_congr_left fun s hs => (hI s hs).periodic v w e
    · intro A hA v
      rw [ha, ha v, ← List.sum_map_mul_left]
      congr 1
      exact List.map_congr_left fun s hs => (hI s hs).sym A hA v

/-- Coefficients in `C76_span` are unique: the functions of uncancelled stars are independent. -/
theorem C76_independent (G : GroupOn E.dims E.group) (htol : 0 ≤ E.tol) (stars : List (StarRec D))
    (hb : ∀ s ∈ stars, buildStar E s.root = .ok ⟨s.waves, s.cancel⟩)
    (hroot : ∀ s ∈ stars, s.root.dft = sh E.dims s.root.bz)
    (hn : (stars.flatMap fun s => s.waves.map TWave.dft).Nodup)
    (a : (Fin D → Int) → ℂ)
    (h0 : ∀ v, (stars.map fun s =>
      if s.cancel then 0 else a s.root.dft * coefAt E.dims s.waves v).sum = 0) :
    ∀ s ∈ stars, s.cancel = false → a s.root.dft = 0 := by
  intro s hs hc
  have I := buildStar_inv htol (hb s hs)
  obtain ⟨w, hw, e⟩ := I.cov _ G.one
  rw [vecMul_one] at e
  have h1 := h0 s.root.bz
  have hsum := sum_single (stars := stars) (fun u => if u.cancel then 0 else
      a u.root.dft * coefAt E.dims u.waves s.root.bz) (sh E.dims s.root.bz)
      (a s.root.dft * coefAt E.dims s.waves s.root.bz) hn ?_ ?_ ⟨s, hs, List.mem_map.mpr ⟨w, hw, e⟩⟩
  · rw [hsum, coefAt_mem I.nodup hw e] at h1
    exact (mul_eq_zero.mp h1).resolve_right (ex_ne_zero _)
  · -- only one star contains the wave
    intro u hu hv
    have : u = s := by
      clear h0 h1 hb hroot
      induction stars with
      | nil => simp at hu
      | cons b l ih =>
        rw [List.flatMap_cons, List.nodup_append] at hn
        have hw' : sh E.dims s.root.bz ∈ s.waves.map TWave.dft := List.mem_map.mpr ⟨w, hw, e⟩
        rcases List.mem_cons.mp hu with hub | hul
        · rcases List.mem_cons.mp hs with hsb | hsl
          · rw [hub, hsb]
          · rw [hub] at hv
            exact absurd rfl (hn.2.2 _ hv _ (List.mem_flatMap.mpr ⟨s, hsl, hw'⟩))
        · rcases List.mem_cons.mp hs with hsb | hsl
          · rw [hsb] at hw' hv
            exact absurd rfl (hn.2.2 _ hw' _ (List.mem_flatMap.mpr ⟨u, hul, hv⟩))
          · exact ih hn.2.1 hsl hul
    rw [this, hc]
    simp
  · intro u hu hv
    show (if u.cancel then 0 else _) = _
    rw [coefAt_not_mem fun w hw e => hv (List.mem_map.mpr ⟨w, hw, e⟩), mul_zero, ite_self]

end loop
end
end Verif.Stars
