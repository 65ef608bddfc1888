import Verif.Film.Model
import Verif.Tac
import Mathlib.Analysis.SpecialFunctions.Trigonometric.Basic

/-!
C63 (film masks and external fields) and C64 (compatibility with the lattice).
-/

set_option autoImplicit false
set_option linter.unusedSectionVars false

namespace Verif.Film

open Verif Verif.Crystal

/-! ## Helper lemmas on loops -/

theorem flatMap_range_length {α : Type} (n m : Nat) (g : Nat → List α)
    (hg : ∀ i, (g i).length = m) : ((List.range n).flatMap g).length = n * m := by
  induction n with
  | zero => simp
  | succ n ih =>
    rw [List.range_succ, List.flatMap_append, List.length_append, ih]
    simp [hg, Nat.succ_mul]

theorem flatMap_range_get {α : Type} (n m : Nat) (g : Nat → List α)
    (hg : ∀ i, (g i).length = m) (i j : Nat) (hi : i < n) (hj : j < m) :
    ((List.range n).flatMap g)[i * m + j]? = (g i)[j]? := by
  induction n with
  | zero => omega
  | succ n ih =>
    rw [List.range_succ, List.flatMap_append]
    by_cases h : i < n
    · rw [List.getElem?_append_left, ih h]
      rw [flatMap_range_length n m g hg]
      calc i * m + j < i * m + m := by omega
        _ = (i + 1) * m := by ring
        _ ≤ n * m := Nat.mul_le_mul_right m h
    · have hin : i = n := by omega
      subst hin
      rw [List.getElem?_append_right (by rw [flatMap_range_length i m g hg]; omega),
        flatMap_range_length i m g hg]
      simp

theorem meshLoop_length {α : Type} (d : Nat → Nat) (f : Nat → Nat → Nat → α) :
    (meshLoop d f).length = d 0 * (d 1 * d 2) :=
  flatMap_range_length _ _ _ fun _ => flatMap_range_length _ _ _ fun _ => by simp

theorem meshLoop_get {α : Type} (d : Nat → Nat) (f : Nat → Nat → Nat → α) (x y z : Nat)
    (hx : x < d 0) (hy : y < d 1) (hz : z < d 2) :
    (meshLoop d f)[(x * d 1 + y) * d 2 + z]? = some (f x y z) := by
  have e : (x * d 1 + y) * d 2 + z = x * (d 1 * d 2) + (y * d 2 + z) := by ring
  have hlt : y * d 2 + z < d 1 * d 2 := by
    calc y * d 2 + z < y * d 2 + d 2 := by omega
      _ = (y + 1) * d 2 := by ring
      _ ≤ d 1 * d 2 := Nat.mul_le_mul_right _ hy
  unfold meshLoop
  rw [e, flatMap_range_get (d 0) (d 1 * d 2) _
    (fun _ => flatMap_range_length _ _ _ fun _ => by simp) x _ hx hlt,
    flatMap_range_get (d 1) (d 2) _ (fun _ => by simp) y z hy hz]
  simp [hz]

/-! ## C63: parameters -/

/-- C63. What `readParameters` accepts.  The first condition should exclude `D`. -/
theorem C63_read_partial (D : Nat) (p q : Par) :
    readPar D p = .ok q ↔ q = p ∧ 0 ≤ p.normalVecId ∧ p.normalVecId ≤ D ∧
      0 < p.interfaceThickness ∧ p.interfaceThickness ≤ p.excludedThickness := by
  unfold readPar
  constructor
  · intro h
    split_ifs at h with h1 h2 h3
    injection h with h
    push Not at h1 h2 h3
    exact ⟨h.symm, h1.2, h1.1, h3.2, h2⟩
  · rintro ⟨rfl, h1, h2, h3, h4⟩
    rw [if_neg (by push Not; exact ⟨h2, h1⟩), if_neg (by push Not; exact h4),
      if_neg (by push Not; exact ⟨by linarith, h3⟩)]

/-- C63 fails for `normalVecId = D`: it is accepted, and the check of any non-empty space group
then reads outside the rotation matrix. -/
theorem C63_violated (D : Nat) (hD : 0 < D) (t e : ℝ) (ht : 0 < t) (he : t ≤ e) (b : Bool)
    (g : Sym D) (gs : List (Sym D)) :
    readPar D ⟨D, t, e, none⟩ = .ok ⟨D, t, e, none⟩ ∧ checkGroup b (D : Int) (g :: gs) = .ub := by
  constructor
  · exact (C63_read_partial D _ _).2 ⟨rfl, by simp, by simp, ht, he⟩
  · unfold checkGroup
    have : checkRow b g (D : Int) (List.finRange D) = .ub := by
      obtain ⟨k, rfl⟩ : ∃ k, D = k + 1 := ⟨D - 1, by omega⟩
      rw [List.finRange_succ]
      unfold checkRow rowElem
      rw [dif_neg (by simp)]
      rfl
    rw [this]
    rfl

/-! ## C63: mask -/

theorem tanh_pos_iff (x : ℝ) : 0 < Real.tanh x ↔ 0 < x := by
  rw [Real.tanh_eq_sinh_div_cosh, div_pos_iff_of_pos_right (Real.cosh_pos x), Real.sinh_pos_iff]

theorem tanh_neg_iff (x : ℝ) : Real.tanh x < 0 ↔ x < 0 := by
  have := tanh_pos_iff (-x)
  rw [Real.tanh_neg] at this
  constructor
  · intro h; have := this.1 (by linarith); linarith
  · intro h; have := this.2 (by linarith); linarith

/-- C63. The mask exceeds one half exactly inside a film of thickness `L - e` around the middle
of the cell. -/
theorem C63_film_thickness (L e t d : ℝ) (ht : 0 < t) :
    1 / 2 < 1 - wallFraction L e t d ↔ |d - L / 2| < (L - e) / 2 := by
  have key : 1 / 2 < 1 - wallFraction L e t d ↔
      Real.tanh (4 * (((0.5 * (e - L)) + |d - L / 2|) / t)) < 0 := by
    unfold wallFraction
    constructor <;> intro h <;> linarith
  rw [key, tanh_neg_iff]
  have e1 : 4 * (((0.5 * (e - L)) + |d - L / 2|) / t)
      = (4 / t) * (|d - L / 2| - (L - e) / 2) := by ring
  rw [e1, mul_neg_iff]
  have h4 : 0 < 4 / t := by positivity
  constructor
  · rintro (⟨-, h⟩ | ⟨h, -⟩)
    · linarith
    · linarith
  · intro h; exact Or.inl ⟨h4, by linarith⟩

/-- C63. The mask is computed for every accepted set of parameters with a normal inside the
dimension and an interface thinner than the excluded layer.  It has one value per mesh point;
the value at a point is strictly between 0 and 1 and depends only on the coordinate along the
normal, opposite points have equal values, and it exceeds one half exactly inside a film of
thickness `L - e` in the middle of the cell. -/
theorem C63_mask (D : Nat) (p : Par) (dims : List Nat) (L : ℝ) (hD : D ≤ 3)
    (hp : readPar D p = .ok p) (hn : p.normalVecId < D)
    (ht : p.interfaceThickness < p.excludedThickness)
    (hdim : ∀ i, 0 < dim3 dims i) :
    ∃ (m : List ℝ) (val : Nat → ℝ), maskField p dims L = .ok m ∧
      m.length = dim3 dims 0 * (dim3 dims 1 * dim3 dims 2) ∧
      (∀ x y z, x < dim3 dims 0 → y < dim3 dims 1 → z < dim3 dims 2 →
        m[(x * dim3 dims 1 + y) * dim3 dims 2 + z]? = some (val (coord x y z p.normalVecId.toNat))) ∧
      (∀ k, 0 < val k ∧ val k < 1) ∧
      (∀ k k' : Nat, k + k' = dim3 dims p.normalVecId.toNat → val k = val k') ∧
      (∀ k : Nat, 1 / 2 < val k ↔
        |(k : ℝ) * L / dim3 dims p.normalVecId.toNat - L / 2| < (L - p.excludedThickness) / 2) := by
  obtain ⟨-, h0, -, h1, h2⟩ := (C63_read_partial D p p).1 hp
  refine ⟨meshLoop (dim3 dims) fun x y z =>
      1 - wallFraction L p.excludedThickness p.interfaceThickness
        ((coord x y z p.normalVecId.toNat : ℝ) * L / (dim3 dims p.normalVecId.toNat : ℝ)),
    fun k => 1 - wallFraction L p.excludedThickness p.interfaceThickness
        ((k : ℝ) * L / (dim3 dims p.normalVecId.toNat : ℝ)), ?_, ?_, ?_, ?_, ?_,
    fun k => C63_film_thickness _ _ _ _ h1⟩
  · unfold maskField
    rw [if_neg (not_not.2 h1), if_neg (not_not.2 ht), if_neg (not_not.2 h0), if_neg (by omega)]
  · exact meshLoop_length _ _
  · intro x y z hx hy hz
    exact meshLoop_get _ _ x y z hx hy hz
  · intro k
    unfold wallFraction
    have a := Real.tanh_lt_one (4 * (((0.5 * (p.excludedThickness - L)) +
      |(k : ℝ) * L / (dim3 dims p.normalVecId.toNat : ℝ) - L / 2|) / p.interfaceThickness))
    have b := Real.neg_one_lt_tanh (4 * (((0.5 * (p.excludedThickness - L)) +
      |(k : ℝ) * L / (dim3 dims p.normalVecId.toNat : ℝ) - L / 2|) / p.interfaceThickness))
    constructor <;> linarith
  · intro k k' h
    have hpos : (0 : ℝ) < (dim3 dims p.normalVecId.toNat : ℝ) := by exact_mod_cast hdim _
    have hk : (k : ℝ) = (dim3 dims p.normalVecId.toNat : ℝ) - k' := by
      rw [← h]; push_cast; ring
    have e : (k : ℝ) * L / (dim3 dims p.normalVecId.toNat : ℝ) - L / 2
        = -((k' : ℝ) * L / (dim3 dims p.normalVecId.toNat : ℝ) - L / 2) := by
      rw [hk]; field_simp; ring
    dsimp only
    unfold wallFraction
    rw [e, abs_neg]

/-- C63. Layout of the mask, without reference to the padding to three dimensions: for a mesh of one, two or
three dimensions the field has one element per mesh point, and the element of the point `pos` (last coordinate
fastest) is the mask at the coordinate of `pos` along the normal. -/
theorem C63_mask_layout (p : Par) (dims pos : List Nat) (L : ℝ) (m : List ℝ) (hD : 1 ≤ dims.length)
    (hD' : dims.length ≤ 3) (hm : maskField p dims L = .ok m) (hn : p.normalVecId < dims.length)
    (hl : pos.length = dims.length) (hpos : ∀ i, i < dims.length → pos.getD i 0 < dims.getD i 0) :
    m.length = dims.prod ∧ m[(List.zip pos dims).foldl (fun r q => r * q.2 + q.1) 0]? = some
      (1 - wallFraction L p.excludedThickness p.interfaceThickness
        ((pos.getD p.normalVecId.toNat 0 : ℝ) * L / (dims.getD p.normalVecId.toNat 0 : ℝ))) := by
  classical
  unfold maskField at hm
  split_ifs at hm with h1 h2 h3 h4
  injection hm with hm
  rw [← hm, meshLoop_length]
  have hN : p.normalVecId.toNat < dims.length := by omega
  generalize p.normalVecId.toNat = N at *
  match dims, pos, hl with
  | [a], [x], _ =>
    have hx := hpos 0 (by simp)
    have := meshLoop_get (dim3 [a]) (fun x y z => 1 - wallFraction L p.excludedThickness
      p.interfaceThickness ((coord x y z N : ℝ) * L / (dim3 [a] N : ℝ))) x 0 0
      (by simpa [dim3] using hx) (by simp [dim3]) (by simp [dim3])
    have hN0 : N = 0 := by simpa using hN
    subst hN0
    refine ⟨by simp [dim3], ?_⟩
    simpa [dim3, coord] using this
  | [a, b], [x, y], _ =>
    have hx := hpos 0 (by simp)
    have hy := hpos 1 (by simp)
    have := meshLoop_get (dim3 [a, b]) (fun x y z => 1 - wallFraction L p.excludedThickness
      p.interfaceThickness ((coord x y z N : ℝ) * L / (dim3 [a, b] N : ℝ))) x y 0
      (by simpa [dim3] using hx) (by simpa [dim3] using hy) (by simp [dim3])
    refine ⟨by simp [dim3], ?_⟩
    have hN2 : N < 2 := by simpa using hN
    interval_cases N <;> simpa [dim3, coord] using this
  | [a, b, c], [x, y, z], _ =>
    have hx := hpos 0 (by simp)
    have hy := hpos 1 (by simp)
    have hz := hpos 2 (by simp)
    have := meshLoop_get (dim3 [a, b, c]) (fun x y z => 1 - wallFraction L p.excludedThickness
      p.interfaceThickness ((coord x y z N : ℝ) * L / (dim3 [a, b, c] N : ℝ))) x y z
      (by simpa [dim3] using hx) (by simpa [dim3] using hy) (by simpa [dim3] using hz)
    refine ⟨by simp [dim3], ?_⟩
    have hN2 : N < 3 := by simpa using hN
    interval_cases N <;> simpa [dim3, coord] using this
  | _ :: _ :: _ :: _ :: _, _, _ => simp only [List.length_cons] at hD'; omega

/-- C63. The field `deriv` used by the film contribution to the stress is the derivative of the
mask with respect to the cell length at a fixed reduced coordinate. -/
theorem C63_maskDeriv (e t d L : ℝ) (hL : 0 < L) (ht : 0 < t) :
    HasDerivAt (fun L => 1 - wallFraction L e t (d * L))
      (maskDeriv t (1 - wallFraction L e t (d * L)) d) L := by
  obtain ⟨u, hu⟩ : ∃ u : ℝ → ℝ, u = fun L => 4 * (((0.5 * (e - L)) + L * |d - 1 / 2|) / t) :=
    ⟨_, rfl⟩
  have hud : HasDerivAt u (4 * ((0.5 * (-1) + 1 * |d - 1 / 2|) / t)) L := by
    rw [hu]
    have h1 : HasDerivAt (fun L : ℝ => 0.5 * (e - L)) (0.5 * (-1)) L :=
      ((hasDerivAt_id L).const_sub e).const_mul 0.5
    have h2 : HasDerivAt (fun L : ℝ => L * |d - 1 / 2|) (1 * |d - 1 / 2|) L :=
      (hasDerivAt_id L).mul_const _
    exact ((h1.add h2).div_const t).const_mul 4
  have htanh : HasDerivAt (fun L => Real.sinh (u L) / Real.cosh (u L))
      ((Real.cosh (u L) * (4 * ((0.5 * (-1) + 1 * |d - 1 / 2|) / t)) * Real.cosh (u L)
        - Real.sinh (u L) * (Real.sinh (u L) * (4 * ((0.5 * (-1) + 1 * |d - 1 / 2|) / t))))
        / Real.cosh (u L) ^ 2) L :=
    (hud.sinh).div (hud.cosh) (Real.cosh_pos _).ne'
  have hsame : (fun L => 1 - wallFraction L e t (d * L)) =ᶠ[nhds L]
      fun L => 1 - 0.5 * (1 + Real.sinh (u L) / Real.cosh (u L)) := by
    filter_upwards [lt_mem_nhds hL] with x hx
    have : |d * x - x / 2| = x * |d - 1 / 2| := by
      rw [show d * x - x / 2 = x * (d - 1 / 2) by ring, abs_mul, abs_of_pos hx]
    unfold wallFraction
    rw [this, hu, Real.tanh_eq_sinh_div_cosh]
  have hval : 1 - wallFraction L e t (d * L)
      = 1 - 0.5 * (1 + Real.sinh (u L) / Real.cosh (u L)) := hsame.self_of_nhds
  refine HasDerivAt.congr_of_eventuallyEq ?_ hsame
  refine (((htanh.const_add 1).const_mul 0.5).const_sub 1).congr_deriv ?_
  rw [hval]
  unfold maskDeriv
  have hc : Real.cosh (u L) ≠ 0 := (Real.cosh_pos _).ne'
  have h05 : (0.5 : ℝ) = 1 / 2 := by norm_num
  have h8 : (8.0 : ℝ) = 8 := by norm_num
  rw [h05, h8]
  generalize |d - 1 / 2| = a
  generalize Real.cosh (u L) = C at hc ⊢
  generalize Real.sinh (u L) = S
  field_simp
  ring

/-- C63. `modifyStress` returns the derivative, with respect to the cell length, of the excess
free energy `(f - fBulk)(L - e)` that is minimised for films. -/
theorem C63_modifyStress (f : ℝ → ℝ) (s L e fB : ℝ) (hf : HasDerivAt f s L) :
    HasDerivAt (fun x => (f x - fB) * (x - e)) (modifyStress s L e (f L) fB) L := by
  refine ((hf.sub_const fB).mul ((hasDerivAt_id L).sub_const e)).congr_deriv ?_
  unfold modifyStress
  simp

/-! ## C63: symmetry of the mask and of the external fields -/

theorem checkRow_ok {D : Nat} {b : Bool} {g : Sym D} {nv : Fin D} {js : List (Fin D)}
    (h : checkRow b g (nv.val : Int) js = .ok ()) :
    ∀ j ∈ js, if j = nv then (g.R nv j = 1 ∨ (b = true ∧ g.R nv j = -1)) else g.R nv j = 0 := by
  induction js with
  | nil => simp
  | cons i is ih =>
    have hrow : rowElem g (nv.val : Int) i = .ok (g.R nv i) := by
      unfold rowElem
      rw [dif_pos ⟨by omega, by have := nv.isLt; omega⟩]
      rfl
    unfold checkRow at h
    rw [hrow] at h
    simp only [Res.bind] at h
    intro j hj
    by_cases hi : (i.val : Int) = nv.val
    · rw [if_pos hi] at h
      have hin : i = nv := Fin.ext (by exact_mod_cast hi)
      split_ifs at h with hr
      rcases List.mem_cons.1 hj with rfl | hj
      · rw [if_pos hin]; exact hr
      · exact ih h j hj
    · rw [if_neg hi] at h
      have hin : i ≠ nv := fun e => hi (by rw [e])
      split_ifs at h with hr
      rcases List.mem_cons.1 hj with rfl | hj
      · rw [if_neg hin]; exact not_not.1 hr
      · exact ih h j hj

theorem checkGroup_ok {D : Nat} {b : Bool} {nv : Fin D} {gs : List (Sym D)}
    (h : checkGroup b (nv.val : Int) gs = .ok ()) :
    ∀ g ∈ gs, g.t nv = 0 ∧
      ∀ j, if j = nv then (g.R nv j = 1 ∨ (b = true ∧ g.R nv j = -1)) else g.R nv j = 0 := by
  induction gs with
  | nil => simp
  | cons g gs ih =>
    unfold checkGroup at h
    cases hr : checkRow b g (nv.val : Int) (List.finRange D) with
    | throw => rw [hr] at h; cases h
    | ub => rw [hr] at h; cases h
    | ok u =>
      rw [hr] at h
      simp only [Res.bind] at h
      rw [dif_pos ⟨by omega, by have := nv.isLt; omega⟩] at h
      split_ifs at h with ht
      intro g' hg'
      rcases List.mem_cons.1 hg' with rfl | hg'
      · exact ⟨by simpa using ht, fun j => checkRow_ok hr j (List.mem_finRange j)⟩
      · exact ih h g' hg'

/-- Two mesh points related by an operation of the group: their reduced coordinates agree
modulo lattice vectors after the operation is applied. -/
def Related {D : Nat} (dims : Fin D → Nat) (g : Sym D) (p q : Fin D → Nat) : Prop :=
  ∀ i, ∃ m : Int, (q i : ℚ) / dims i = ∑ j, (g.R i j : ℚ) * ((p j : ℚ) / dims j) + g.t i + m

theorem related_normal {D : Nat} {b : Bool} {dims : Fin D → Nat} {nv : Fin D} {gs : List (Sym D)}
    (h : checkGroup b (nv.val : Int) gs = .ok ()) {g : Sym D} (hg : g ∈ gs)
    {p q : Fin D → Nat} (hp : p nv < dims nv) (hq : q nv < dims nv) (hrel : Related dims g p q) :
    q nv = p nv ∨ (b = true ∧ q nv + p nv = dims nv) := by
  obtain ⟨ht, hR⟩ := checkGroup_ok h g hg
  obtain ⟨m, hm⟩ := hrel nv
  have hsum : ∑ j, (g.R nv j : ℚ) * ((p j : ℚ) / dims j) = (g.R nv nv : ℚ) * ((p nv : ℚ) / dims nv) := by
    rw [Finset.sum_eq_single nv]
    · intro j _ hj
      have := hR j
      rw [if_neg hj] at this
      rw [this]; simp
    · simp
  rw [hsum, ht, add_zero] at hm
  have hpos : (0 : ℚ) < dims nv := by exact_mod_cast (by omega : 0 < dims nv)
  have hmul : (q nv : ℚ) = (g.R nv nv : ℚ) * p nv + m * dims nv := by
    field_simp at hm
    linarith
  have hint : (q nv : Int) = g.R nv nv * p nv + m * dims nv := by exact_mod_cast hmul
  have hRn := hR nv
  rw [if_pos rfl] at hRn
  rcases hRn with hr | ⟨hb, hr⟩
  · left
    rw [hr] at hint
    have hm0 : m = 0 := by
      by_contra hne
      rcases lt_or_gt_of_ne hne with hlt | hgt
      · have : m * (dims nv : Int) ≤ -1 * dims nv :=
          mul_le_mul_of_nonneg_right (by omega) (by omega)
        omega
      · have : 1 * (dims nv : Int) ≤ m * dims nv :=
          mul_le_mul_of_nonneg_right (by omega) (by omega)
        omega
    rw [hm0] at hint
    omega
  · rw [hr] at hint
    have hm1 : m = 0 ∨ m = 1 := by
      by_contra hne
      push Not at hne
      rcases lt_or_ge m 0 with hlt | hge
      · have : m * (dims nv : Int) ≤ -1 * dims nv :=
          mul_le_mul_of_nonneg_right (by omega) (by omega)
        omega
      · have : 2 * (dims nv : Int) ≤ m * dims nv :=
          mul_le_mul_of_nonneg_right (by omega) (by omega)
        omega
    rcases hm1 with rfl | rfl
    · left; omega
    · right; exact ⟨hb, by omega⟩

/-- C63. The mask has every symmetry of a space group that passes `checkSpaceGroup`: its value
at a point (function `val` of the normal coordinate with the reflection symmetry of `C63_mask`)
equals its value at the image of the point. -/
theorem C63_mask_symmetric {D : Nat} (dims : Fin D → Nat) (nv : Fin D) (gs : List (Sym D))
    (h : checkGroup true (nv.val : Int) gs = .ok ()) (L e t : ℝ) (g : Sym D) (hg : g ∈ gs)
    (p q : Fin D → Nat) (hp : p nv < dims nv) (hq : q nv < dims nv) (hrel : Related dims g p q) :
    wallFraction L e t ((q nv : ℝ) * L / dims nv) = wallFraction L e t ((p nv : ℝ) * L / dims nv) := by
  rcases related_normal h hg hp hq hrel with e1 | ⟨-, e1⟩
  · rw [e1]
  · have hpos : (0 : ℝ) < (dims nv : ℝ) := by exact_mod_cast (by omega : 0 < dims nv)
    have hk : (q nv : ℝ) = (dims nv : ℝ) - p nv := by rw [← e1]; push_cast; ring
    have e2 : (q nv : ℝ) * L / (dims nv : ℝ) - L / 2 = -((p nv : ℝ) * L / (dims nv : ℝ) - L / 2) := by
      rw [hk]; field_simp; ring
    unfold wallFraction
    rw [e2, abs_neg]

/-- Value of an external field at a point, for a mask given by its wall fraction. -/
noncomputable def extValue {D : Nat} (dims : Fin D → Nat) (nv : Fin D) (cb ct L e t : ℝ)
    (p : Fin D → Nat) : ℝ :=
  wallFraction L e t ((p nv : ℝ) * L / dims nv) * if p nv < dims nv / 2 then cb else ct

/-- C63. The external fields have every symmetry of the space group in the two situations that
the code accepts: the walls are identical and the group passes the check for the mask, or the
group passes the stricter check in which no operation exchanges the walls. -/
theorem C63_ext_symmetric {D : Nat} (dims : Fin D → Nat) (nv : Fin D) (gs : List (Sym D))
    (cb ct : ℝ) (b : Bool) (hb : b = true → cb = ct)
    (h : checkGroup b (nv.val : Int) gs = .ok ()) (L e t : ℝ) (g : Sym D) (hg : g ∈ gs)
    (p q : Fin D → Nat) (hp : p nv < dims nv) (hq : q nv < dims nv) (hrel : Related dims g p q) :
    extValue dims nv cb ct L e t q = extValue dims nv cb ct L e t p := by
  cases b with
  | false =>
    rcases related_normal h hg hp hq hrel with e1 | ⟨e1, -⟩
    · unfold extValue; rw [e1]
    · cases e1
  | true =>
    unfold extValue
    rw [C63_mask_symmetric dims nv gs h L e t g hg p q hp hq hrel, hb rfl]
    simp

/-- C63. The external field computed from the mask is the wall interaction of the nearer wall
times the wall fraction. -/
theorem C63_ext_values (dims : List Nat) (n : Nat) (cb ct : ℝ) (mask : Nat → ℝ) (x y z : Nat)
    (hx : x < dim3 dims 0) (hy : y < dim3 dims 1) (hz : z < dim3 dims 2) :
    (extField dims n cb ct mask)[(x * dim3 dims 1 + y) * dim3 dims 2 + z]? =
      some ((1 - mask ((x * dim3 dims 1 + y) * dim3 dims 2 + z)) *
        if 2 * coord x y z n + 2 ≤ dim3 dims n then cb else ct) := by
  unfold extField
  rw [meshLoop_get _ _ x y z hx hy hz]
  dsimp only
  by_cases h : coord x y z n < dim3 dims n / 2
  · rw [if_pos h, if_pos (by omega)]; norm_num
  · rw [if_neg h, if_neg (by omega)]; norm_num

/-! ## C63: the length used for the mask -/

/-- C63. The parameter `L` used for the mask is the length of the lattice vector along the
normal, in two dimensions. -/
theorem C63_length2 (l : Lat2) (p : Params) (n : Fin 2) (i : Int)
    (hi : l.fullToReduced n.val = .ok i) :
    ∃ k : Fin 6, (k.val : Int) = i ∧ dotv (l.rBasis p) n n = p k ^ 2 := by
  have h3 : (√3 : ℝ) * √3 = 3 := Real.mul_self_sqrt (by norm_num)
  have s1 := Real.sin_sq_add_cos_sq (p 1)
  have s2 := Real.sin_sq_add_cos_sq (p 2)
  fin_cases n <;> cases l <;> cases hi
  all_goals first
    | (refine ⟨0, rfl, ?_⟩
       simp [dotv, Lat2.rBasis, Fin.sum_univ_two]
       first | done | ring1 | nlinarith [s1, h3])
    | (refine ⟨1, rfl, ?_⟩
       simp [dotv, Lat2.rBasis, Fin.sum_univ_two]
       first | done | ring1 | nlinarith [s2])

/-- C63. The parameter `L` used for the mask is the length of the lattice vector along the
normal, in three dimensions. -/
theorem C63_length3 (l : Lat3) (p : Params) (n : Fin 3) (i : Int)
    (hi : l.fullToReduced n.val = .ok i) :
    ∃ k : Fin 6, (k.val : Int) = i ∧ dotv (l.rBasis p) n n = p k ^ 2 := by
  have h3 : (√3 : ℝ) * √3 = 3 := Real.mul_self_sqrt (by norm_num)
  have s3 := Real.sin_sq_add_cos_sq (p 3)
  have s4 := Real.sin_sq_add_cos_sq (p 4)
  have s5 := Real.sin_sq_add_cos_sq (p 5)
  have sr := Real.sin_sq_add_cos_sq (rhTheta (p 1))
  fin_cases n <;> cases l <;> cases hi
  all_goals first
    | (refine ⟨0, rfl, ?_⟩
       simp [dotv, Lat3.rBasis, Fin.sum_univ_three]
       first
         | done
         | ring1
         | linear_combination (1 / 4 * p 0 ^ 2) * h3
         | linear_combination (p 0 ^ 2) * sr
         | linear_combination (p 0 ^ 2) * sr
             + (1 / 4 * p 0 ^ 2 * Real.sin (rhTheta (p 1)) ^ 2) * h3)
    | (refine ⟨1, rfl, ?_⟩
       simp [dotv, Lat3.rBasis, Fin.sum_univ_three]
       first
         | done
         | ring1
         | linear_combination (p 1 ^ 2) * s5)
    | (refine ⟨2, rfl, ?_⟩
       simp [dotv, Lat3.rBasis, Fin.sum_univ_three]
       first
         | done
         | ring1
         | linear_combination (p 2 ^ 2) * s3
         | linear_combination (p 2 ^ 2) * s4 + (p 2 ^ 2 * Real.sin (p 4) ^ 2) * s3)

/-! ## C64: flexible parameters -/

theorem setFalse_imp {f : Nat → Bool} {i : Int} {j : Nat} (h : setFalse f i j = true) :
    f j = true := by
  unfold setFalse at h
  split at h
  · cases h
  · exact h

/-- C64. A flexible parameter is only ever turned off (1D). -/
theorem C64_only_off1 (l : Lat1) (b : Bool) (size : Nat) (cur u : Nat → Bool)
    (h : flexible1 l b size cur = .ok u) (j : Nat) (hj : u j = true) : cur j = true := by
  unfold flexible1 at h
  split_ifs at h <;> injection h with h <;> subst h
  · exact setFalse_imp hj
  · exact hj

/-- C64. In one dimension the length stays flexible exactly when it was flexible and the bulk free energy
is known; no other parameter is touched. -/
theorem C64_exact1 (l : Lat1) (b : Bool) (cur : Nat → Bool) :
    ∃ u, flexible1 l b l.nParameter cur = .ok u ∧ u 0 = (cur 0 && b) ∧ ∀ j, 0 < j → u j = cur j := by
  unfold flexible1
  rw [if_neg (by simp)]
  cases hc : cur 0 <;> cases b
  · exact ⟨cur, by simp, by simp [hc], fun _ _ => rfl⟩
  · exact ⟨cur, by simp, by simp [hc], fun _ _ => rfl⟩
  · refine ⟨setFalse cur 0, by simp, by simp [setFalse], fun j hj => ?_⟩
    unfold setFalse
    rw [if_neg (by omega)]
  · exact ⟨cur, by simp, by simp [hc], fun _ _ => rfl⟩

/-- C64. A flexible parameter is only ever turned off (2D). -/
theorem C64_only_off2 (l : Lat2) (n : Int) (b : Bool) (size : Nat) (cur u : Nat → Bool)
    (h : flexible2 l n b size cur = .ok u) (j : Nat) (hj : u j = true) : cur j = true := by
  have h0 : ∀ j, (if l = .oblique then setFalse (if l = .rhombic then setFalse cur 1 else cur) 2
      else (if l = .rhombic then setFalse cur 1 else cur)) j = true → cur j = true := by
    intro j hj
    split_ifs at hj
    · exact setFalse_imp (setFalse_imp hj)
    · exact setFalse_imp hj
    · exact setFalse_imp hj
    · exact hj
  unfold flexible2 at h
  dsimp only at h
  by_cases hs : size ≠ l.nParameter
  · rw [if_pos hs] at h; cases h
  rw [if_neg hs] at h
  cases b with
  | true =>
    rw [if_pos rfl] at h
    injection h with h
    rw [← h] at hj
    exact h0 j hj
  | false =>
    rw [if_neg (by simp)] at h
    cases hr : l.fullToReduced n with
    | throw => rw [hr] at h; cases h
    | ub => rw [hr] at h; cases h
    | ok i =>
      rw [hr] at h
      simp only [Res.bind] at h
      split at h
      · cases h
      · injection h with h
        rw [← h] at hj
        exact h0 j (setFalse_imp hj)

/-- C64. A flexible parameter is only ever turned off (3D). -/
theorem C64_only_off3 (l : Lat3) (n : Int) (b : Bool) (size : Nat) (cur u : Nat → Bool)
    (h : flexible3 l n b size cur = .ok u) (j : Nat) (hj : u j = true) : cur j = true := by
  have h0 : ∀ j, (if l = .monoclinic then (if n ≠ 1 then setFalse cur 3 else cur)
      else if l = .triclinic then
        fun j => if (j : Int) = n + 3 then cur j
          else setFalse (setFalse (setFalse cur 3) 4) 5 j
      else cur) j = true → cur j = true := by
    intro j hj
    split_ifs at hj
    · exact setFalse_imp hj
    · exact hj
    · by_cases hn : (j : Int) = n + 3
      · simp only [if_pos hn] at hj; exact hj
      · simp only [if_neg hn] at hj; exact setFalse_imp (setFalse_imp (setFalse_imp hj))
    · exact hj
  unfold flexible3 at h
  dsimp only at h
  by_cases hs : size ≠ l.nParameter
  · rw [if_pos hs] at h; cases h
  rw [if_neg hs] at h
  by_cases hrh : l = .rhombohedral
  · rw [if_pos hrh] at h; cases h
  rw [if_neg hrh] at h
  cases b with
  | true =>
    rw [if_pos rfl] at h
    injection h with h
    rw [← h] at hj
    exact h0 j hj
  | false =>
    rw [if_neg (by simp)] at h
    cases hr : l.fullToReduced n with
    | throw => rw [hr] at h; cases h
    | ub => rw [hr] at h; cases h
    | ok i =>
      rw [hr] at h
      simp only [Res.bind] at h
      split at h
      · cases h
      · injection h with h
        rw [← h] at hj
        exact h0 j (setFalse_imp hj)

/-- The wall plane is perpendicular to the normal lattice vector. -/
def Perp {D : Nat} (r : BasisVecs D) (n : Fin D) : Prop := ∀ j, j ≠ n → dotv r n j = 0

/-- Two sets of parameters that differ only in flexible parameters. -/
def VaryOnly (u : Nat → Bool) (p q : Params) : Prop := ∀ i : Fin 6, p i ≠ q i → u i.val = true

theorem VaryOnly.eq {u : Nat → Bool} {p q : Params} (h : VaryOnly u p q) (i : Fin 6)
    (hi : u i.val = false) : q i = p i := by
  by_contra hne
  have := h i fun e => hne e.symm
  rw [hi] at this
  cases this

/-- C64. In two dimensions, starting from a cell whose walls are perpendicular to the normal,
every change of the parameters that remain flexible keeps them perpendicular. -/
theorem C64_perp2 (l : Lat2) (n : Fin 2) (b : Bool) (size : Nat) (cur u : Nat → Bool)
    (h : flexible2 l n.val b size cur = .ok u) (p q : Params) (hvar : VaryOnly u p q)
    (ha : ∀ i : Fin 6, i.val < l.nParameter → p i ≠ 0) (hp : Perp (l.rBasis p) n) :
    Perp (l.rBasis q) n := by
  have hab : ∀ r : BasisVecs 2, Perp r n ↔ r 0 0 * r 1 0 + r 0 1 * r 1 1 = 0 := by
    intro r
    unfold Perp dotv
    fin_cases n
    · simp [Fin.forall_fin_two]
    · simp [Fin.forall_fin_two, mul_comm]
  rw [hab] at hp ⊢
  cases l with
  | square => simp [Lat2.rBasis]
  | rectangular => simp [Lat2.rBasis]
  | hexagonal =>
    exfalso
    have := ha 0 (by decide)
    simp [Lat2.rBasis] at hp
    exact this hp
  | rhombic =>
    have hu : u 1 = false := by
      unfold flexible2 at h
      simp only [reduceCtorEq, if_false, if_true] at h
      by_cases hs : size ≠ Lat2.rhombic.nParameter
      · rw [if_pos hs] at h; cases h
      rw [if_neg hs] at h
      cases b with
      | true =>
        simp only [if_true] at h
        injection h with h
        rw [← h]; rfl
      | false =>
        simp only [Bool.false_eq_true, if_false] at h
        cases hr : Lat2.rhombic.fullToReduced n.val with
        | throw => rw [hr] at h; cases h
        | ub => rw [hr] at h; cases h
        | ok i =>
          rw [hr] at h
          simp only [Res.bind] at h
          split at h
          · cases h
          · injection h with h
            rw [← h]
            unfold setFalse
            split <;> rfl
    have h1 := hvar.eq 1 hu
    have hp0 := ha 0 (by decide)
    simp [Lat2.rBasis] at hp ⊢
    rw [h1]
    rcases hp with hp | hp
    · exact absurd hp hp0
    · rcases hp with hp | hp
      · right; left; exact hp
      · exact absurd hp hp0
  | oblique =>
    have hu : u 2 = false := by
      unfold flexible2 at h
      simp only [reduceCtorEq, if_false, if_true] at h
      by_cases hs : size ≠ Lat2.oblique.nParameter
      · rw [if_pos hs] at h; cases h
      rw [if_neg hs] at h
      cases b with
      | true =>
        simp only [if_true] at h
        injection h with h
        rw [← h]; rfl
      | false =>
        simp only [Bool.false_eq_true, if_false] at h
        cases hr : Lat2.oblique.fullToReduced n.val with
        | throw => rw [hr] at h; cases h
        | ub => rw [hr] at h; cases h
        | ok i =>
          rw [hr] at h
          simp only [Res.bind] at h
          split at h
          · cases h
          · injection h with h
            rw [← h]
            unfold setFalse
            split <;> rfl
    have h1 := hvar.eq 2 hu
    have hp0 := ha 0 (by decide)
    have hp1 := ha 1 (by decide)
    simp [Lat2.rBasis] at hp ⊢
    rw [h1]
    rcases hp with hp | hp
    · exact absurd hp hp0
    · rcases hp with hp | hp
      · right; left; exact hp
      · exact absurd hp hp1

theorem flexible3_monoclinic {n : Int} {b : Bool} {size : Nat} {cur u : Nat → Bool}
    (h : flexible3 .monoclinic n b size cur = .ok u) (hn : n ≠ 1) : u 3 = false := by
  unfold flexible3 at h
  simp only [reduceCtorEq, if_false, if_true, if_pos hn] at h
  by_cases hs : size ≠ Lat3.monoclinic.nParameter
  · rw [if_pos hs] at h; cases h
  rw [if_neg hs] at h
  cases b with
  | true =>
    simp only [if_true] at h
    injection h with h
    rw [← h]; rfl
  | false =>
    simp only [Bool.false_eq_true, if_false] at h
    cases hr : Lat3.monoclinic.fullToReduced n with
    | throw => rw [hr] at h; cases h
    | ub => rw [hr] at h; cases h
    | ok i =>
      rw [hr] at h
      simp only [Res.bind] at h
      split at h
      · cases h
      · injection h with h
        rw [← h]
        unfold setFalse
        split <;> rfl

theorem flexible3_triclinic {n : Int} {b : Bool} {size : Nat} {cur u : Nat → Bool}
    (h : flexible3 .triclinic n b size cur = .ok u) (j : Nat) (hj : j = 3 ∨ j = 4 ∨ j = 5)
    (hn : (j : Int) ≠ n + 3) : u j = false := by
  have hbase : (fun j : Nat => if (j : Int) = n + 3 then cur j
      else setFalse (setFalse (setFalse cur 3) 4) 5 j) j = false := by
    simp only [if_neg hn]
    rcases hj with rfl | rfl | rfl <;> simp [setFalse]
  unfold flexible3 at h
  simp only [reduceCtorEq, if_false, if_true] at h
  by_cases hs : size ≠ Lat3.triclinic.nParameter
  · rw [if_pos hs] at h; cases h
  rw [if_neg hs] at h
  cases b with
  | true =>
    simp only [if_true] at h
    injection h with h
    rw [← h]; exact hbase
  | false =>
    simp only [Bool.false_eq_true, if_false] at h
    cases hr : Lat3.triclinic.fullToReduced n with
    | throw => rw [hr] at h; cases h
    | ub => rw [hr] at h; cases h
    | ok i =>
      rw [hr] at h
      simp only [Res.bind] at h
      split at h
      · cases h
      · injection h with h
        rw [← h]
        unfold setFalse
        split
        · rfl
        · exact hbase

theorem perp3_0 (r : BasisVecs 3) : Perp r 0 ↔ dotv r 0 1 = 0 ∧ dotv r 0 2 = 0 := by
  unfold Perp; simp [Fin.forall_fin_succ]
theorem perp3_1 (r : BasisVecs 3) : Perp r 1 ↔ dotv r 1 0 = 0 ∧ dotv r 1 2 = 0 := by
  unfold Perp; simp [Fin.forall_fin_succ]
theorem perp3_2 (r : BasisVecs 3) : Perp r 2 ↔ dotv r 2 0 = 0 ∧ dotv r 2 1 = 0 := by
  unfold Perp; simp [Fin.forall_fin_succ]

/-- C64. In three dimensions the same holds for every lattice except a triclinic one with
normal 0, and a triclinic one with normal 1 whose polar angle `theta` is zero.  The volume of
the cell is assumed not to vanish. -/
theorem C64_perp3_partial (l : Lat3) (n : Fin 3) (b : Bool) (size : Nat) (cur u : Nat → Bool)
    (h : flexible3 l n.val b size cur = .ok u) (p q : Params) (hvar : VaryOnly u p q)
    (hvol : volume3 (l.rBasis p) ≠ 0) (hp : Perp (l.rBasis p) n)
    (htri : l = .triclinic → n ≠ 0 ∧ (n = 1 → Real.sin (p 4) ≠ 0)) :
    Perp (l.rBasis q) n := by
  cases l with
  | cubic =>
    fin_cases n <;> simp [perp3_0, perp3_1, perp3_2, dotv, Lat3.rBasis, Fin.sum_univ_three]
  | tetragonal =>
    fin_cases n <;> simp [perp3_0, perp3_1, perp3_2, dotv, Lat3.rBasis, Fin.sum_univ_three]
  | orthorhombic =>
    fin_cases n <;> simp [perp3_0, perp3_1, perp3_2, dotv, Lat3.rBasis, Fin.sum_univ_three]
  | rhombohedral =>
    unfold flexible3 at h
    simp only [if_true] at h
    split at h <;> cases h
  | hexagonal =>
    have h0 : p 0 ≠ 0 := by
      intro h0
      apply hvol
      simp [volume3, Lat3.rBasis, h0]
    fin_cases n
    · exfalso
      simp [perp3_0, dotv, Lat3.rBasis, Fin.sum_univ_three] at hp
      exact h0 hp
    · exfalso
      simp [perp3_1, dotv, Lat3.rBasis, Fin.sum_univ_three] at hp
      exact h0 hp
    · simp [perp3_2, dotv, Lat3.rBasis, Fin.sum_univ_three]
  | monoclinic =>
    have h0 : p 0 ≠ 0 := by
      intro h0
      apply hvol
      simp [volume3, Lat3.rBasis, h0]
    have h2 : p 2 ≠ 0 := by
      intro h2
      apply hvol
      simp [volume3, Lat3.rBasis, h2]
    fin_cases n
    · have e := hvar.eq 3 (flexible3_monoclinic h (by decide))
      simp [perp3_0, dotv, Lat3.rBasis, Fin.sum_univ_three] at hp ⊢
      rw [e]
      rcases hp with hp | hp | hp
      · exact absurd hp h0
      · exact absurd hp h2
      · exact Or.inr (Or.inr hp)
    · simp [perp3_1, dotv, Lat3.rBasis, Fin.sum_univ_three]
    · have e := hvar.eq 3 (flexible3_monoclinic h (by decide))
      simp [perp3_2, dotv, Lat3.rBasis, Fin.sum_univ_three] at hp ⊢
      rw [e]
      rcases hp with (hp | hp) | hp
      · exact absurd hp h2
      · exact Or.inl (Or.inr hp)
      · exact absurd hp h0
  | triclinic =>
    obtain ⟨hn0, hth⟩ := htri rfl
    have h0 : p 0 ≠ 0 := by
      intro h0
      apply hvol
      simp [volume3, Lat3.rBasis, h0]
    have h1 : p 1 ≠ 0 := by
      intro h1
      apply hvol
      simp [volume3, Lat3.rBasis, h1]
    have h2 : p 2 ≠ 0 := by
      intro h2
      apply hvol
      simp [volume3, Lat3.rBasis, h2]
    have h5 : Real.sin (p 5) ≠ 0 := by
      intro h5
      apply hvol
      simp [volume3, Lat3.rBasis, h5]
    fin_cases n
    · exact absurd rfl hn0
    · have e3 := hvar.eq 3 (flexible3_triclinic h 3 (by omega) (by decide))
      have e5 := hvar.eq 5 (flexible3_triclinic h 5 (by omega) (by decide))
      have hs4 := hth rfl
      simp [perp3_1, dotv, Lat3.rBasis, Fin.sum_univ_three] at hp ⊢
      obtain ⟨ha, hb⟩ := hp
      have hc5 : Real.cos (p 5) = 0 := by
        rcases ha with (ha | ha) | ha
        · exact absurd ha h1
        · exact ha
        · exact absurd ha h0
      rw [hc5] at hb
      have hs3 : Real.sin (p 3) = 0 := by
        have : p 1 * Real.sin (p 5) * (p 2 * Real.sin (p 4)) * Real.sin (p 3) = 0 := by
          linear_combination hb
        exact (mul_eq_zero.1 this).resolve_left
          (mul_ne_zero (mul_ne_zero h1 h5) (mul_ne_zero h2 hs4))
      rw [e3, e5, hc5, hs3]
      simp
    · have e3 := hvar.eq 3 (flexible3_triclinic h 3 (by omega) (by decide))
      have e4 := hvar.eq 4 (flexible3_triclinic h 4 (by omega) (by decide))
      simp [perp3_2, dotv, Lat3.rBasis, Fin.sum_univ_three] at hp ⊢
      obtain ⟨ha, hb⟩ := hp
      have hx : Real.sin (p 4) * Real.cos (p 3) = 0 := by
        rcases ha with ((ha | ha) | ha) | ha
        · exact absurd ha h2
        · rw [ha]; ring
        · rw [ha]; ring
        · exact absurd ha h0
      have hy : Real.sin (p 4) * Real.sin (p 3) = 0 := by
        have : (p 2 * p 1 * Real.sin (p 5)) * (Real.sin (p 4) * Real.sin (p 3)) = 0 := by
          linear_combination hb - (p 2 * p 1 * Real.cos (p 5)) * hx
        exact (mul_eq_zero.1 this).resolve_left (mul_ne_zero (mul_ne_zero h2 h1) h5)
      rw [e3, e4]
      constructor
      · rcases mul_eq_zero.1 hx with hx | hx
        · exact Or.inl (Or.inl (Or.inr hx))
        · exact Or.inl (Or.inr hx)
      · linear_combination (q 2 * q 1 * Real.cos (q 5)) * hx + (q 2 * q 1 * Real.sin (q 5)) * hy

end Verif.Film
