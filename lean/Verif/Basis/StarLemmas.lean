import Verif.Basis.StarModel
import Verif.Crystal.GroupProps
import Verif.Mesh.Props
import Mathlib.Analysis.SpecialFunctions.Complex.Log
import Mathlib.Analysis.SpecialFunctions.Complex.Circle
import Verif.Tac

/-!
# Lemmas about stars
-/

namespace Verif.Stars
open Verif.Crystal

variable {D : Nat}

/-! ## Reduction of phases -/

theorem down_spec (n : Nat) (x : ℚ) (h : x ≤ n + 1 / 2) :
    Cong (down n x) x ∧ down n x ≤ 1 / 2 ∧ (-(1 / 2) < x → -(1 / 2) < down n x) ∧
      (x ≤ 1 / 2 → down n x = x) := by
  induction n generalizing x with
  | zero => exact ⟨Cong.refl _, by simpa [down] using h, fun h => h, fun _ => rfl⟩
  | succ n ih =>
    unfold down
    split
    · rename_i hx
      obtain ⟨h1, h2, h3, h4⟩ := ih (x - 1) (by push_cast at h; linarith)
      refine ⟨h1.trans ⟨-1, by push_cast; ring⟩, h2, fun _ => h3 (by linarith), fun h => by linarith⟩
    · rename_i hx
      exact ⟨Cong.refl _, by linarith, fun h => h, fun _ => rfl⟩

theorem up_spec (n : Nat) (x : ℚ) (h : -(n + 1 / 2) < x) (hx : x ≤ 1 / 2) :
    Cong (up n x) x ∧ up n x ≤ 1 / 2 ∧ -(1 / 2) < up n x := by
  induction n generalizing x with
  | zero => exact ⟨Cong.refl _, hx, by simpa [up] using h⟩
  | succ n ih =>
    unfold up
    split
    · rename_i hx'
      obtain ⟨h1, h2, h3⟩ := ih (x + 1) (by push_cast at h; linarith) (by linarith)
      exact ⟨h1.trans ⟨1, by push_cast; ring⟩, h2, h3⟩
    · rename_i hx'
      exact ⟨Cong.refl _, hx, by linarith⟩

theorem abs_le_num (x : ℚ) : |x| ≤ x.num.natAbs := by
  have h1 : |x| = (|x.num| : ℤ) / (x.den : ℚ) := by
    conv_lhs => rw [← Rat.num_div_den x, abs_div]
    push_cast
    rw [abs_of_nonneg (by positivity : (0 : ℚ) ≤ x.den)]
  rw [h1]
  have h2 : ((x.num.natAbs : ℕ) : ℚ) = ((|x.num| : ℤ) : ℚ) := by
    rw [← Int.natCast_natAbs]; rfl
  rw [h2]
  have hd : (1 : ℚ) ≤ x.den := by exact_mod_cast x.den_pos
  have hn : (0 : ℚ) ≤ ((|x.num| : ℤ) : ℚ) := by exact_mod_cast abs_nonneg _
  exact div_le_self hn hd

/-- The loops terminate with the representative in `(-1/2, 1/2]`. -/
theorem reduce_spec (x : ℚ) : Cong (reduce x) x ∧ -(1 / 2) < reduce x ∧ reduce x ≤ 1 / 2 := by
  have hb := abs_le_num x
  have hx := abs_le.mp hb
  obtain ⟨h1, h2, h3, h4⟩ := down_spec (x.num.natAbs + 1) x (by push_cast; linarith [hx.2])
  have hlow : -(((x.num.natAbs + 1 : ℕ) : ℚ) + 1 / 2) < down (x.num.natAbs + 1) x := by
    by_cases h : x ≤ 1 / 2
    · rw [h4 h]; push_cast; linarith [hx.1]
    · have := h3 (by linarith)
      have : (0 : ℚ) ≤ ((x.num.natAbs : ℕ) : ℚ) := Nat.cast_nonneg _
      push_cast
      linarith
  obtain ⟨g1, g2, g3⟩ := up_spec (x.num.natAbs + 1) _ hlow h2
  exact ⟨g1.trans h1, g3, g2⟩

/-- Two reduced phases are congruent only if equal. -/
theorem eq_of_cong {a b : ℚ} (h : Cong a b) (ha : -(1 / 2) < a) (ha' : a ≤ 1 / 2)
    (hb : -(1 / 2) < b) (hb' : b ≤ 1 / 2) : a = b := by
  obtain ⟨z, hz⟩ := h
  have h1 : (z : ℚ) < 1 := by linarith
  have h2 : (-1 : ℚ) < z := by linarith
  have h3 : z < 1 := by exact_mod_cast h1
  have h4 : -1 < z := by exact_mod_cast h2
  have : z = 0 := by omega
  subst this
  simp at hz
  linarith

theorem reduce_zero : reduce 0 = 0 := by
  obtain ⟨h1, h2, h3⟩ := reduce_spec 0
  exact eq_of_cong h1 h2 h3 (by norm_num) (by norm_num)

/-! ## The character `exp(2πi x)` -/

noncomputable section

/-- `exp(2πi x)`. -/
def ex (x : ℚ) : ℂ := Complex.exp (2 * Real.pi * Complex.I * (x : ℂ))

theorem ex_add (x y : ℚ) : ex (x + y) = ex x * ex y := by
  unfold ex; rw [← Complex.exp_add]; congr 1; push_cast; ring

theorem ex_zero : ex 0 = 1 := by simp [ex]

theorem ex_eq_one (x : ℚ) : ex x = 1 ↔ ∃ n : ℤ, x = n := by
  unfold ex
  rw [Complex.exp_eq_one_iff]
  have hpi : (2 * Real.pi * Complex.I : ℂ) ≠ 0 := by
    simp [Real.pi_ne_zero]
  constructor
  · rintro ⟨n, hn⟩
    refine ⟨n, ?_⟩
    have : (x : ℂ) = (n : ℂ) := by
      apply mul_left_cancel₀ hpi
      rw [hn]; ring
    exact_mod_cast this
  · rintro ⟨n, rfl⟩
    exact ⟨n, by push_cast; ring⟩

theorem ex_ne_zero (x : ℚ) : ex x ≠ 0 := Complex.exp_ne_zero _

theorem ex_cong {x y : ℚ} (h : Cong x y) : ex x = ex y := by
  obtain ⟨z, hz⟩ := h
  have h1 : ex (x - y) = 1 := (ex_eq_one _).mpr ⟨z, hz⟩
  have h2 : x = (x - y) + y := by ring
  rw [h2, ex_add, h1, one_mul]

theorem ex_neg (x : ℚ) : ex (-x) * ex x = 1 := by
  rw [← ex_add, neg_add_cancel, ex_zero]

theorem ex_conj (x : ℚ) : (starRingEnd ℂ) (ex x) = ex (-x) := by
  unfold ex
  rw [← Complex.exp_conj]
  congr 1
  have h2 : (starRingEnd ℂ) 2 = 2 := Complex.conj_ofNat 2
  simp [Complex.conj_ofReal, h2]

/-! ## Wavevectors modulo the mesh -/

/-- `G · t`. -/
def dot (v : Fin D → Int) (t : Fin D → ℚ) : ℚ := ∑ i, (v i : ℚ) * t i

theorem phaseSum_eq (v : Fin D → Int) (A : Sym D) : phaseSum v A = dot v A.t := by
  simp [phaseSum, dot, accum_eq]

theorem sh_iff {d : Fin D → Int} (hd : ∀ i, 0 < d i) (v w : Fin D → Int) :
    sh d v = sh d w ↔ ∀ i, d i ∣ v i - w i := by
  have key : ∀ i, (Mesh.shift1 (v i) (d i)).2 = (Mesh.shift1 (w i) (d i)).2 ↔ d i ∣ v i - w i := by
    intro i
    obtain ⟨a1, a2, a3, a4⟩ := Mesh.C02_shift_coordinate (v i) (d i) (hd i)
    obtain ⟨b1, b2, b3, b4⟩ := Mesh.C02_shift_coordinate (w i) (d i) (hd i)
    constructor
    · intro h
      refine ⟨(Mesh.shift1 (v i) (d i)).1 - (Mesh.shift1 (w i) (d i)).1, ?_⟩
      rw [a3, b3] at h
      linarith
    · rintro ⟨q, hq⟩
      have e : v i = w i + q * d i := by linarith
      have h1 := a4 ((Mesh.shift1 (w i) (d i)).1 + q) (by rw [b3] at b1; rw [e]; linarith)
        (by rw [b3] at b2; rw [e]; linarith)
      rw [a3, b3, ← h1, e]; ring
  constructor
  · intro h i
    exact (key i).mp (congrFun h i)
  · intro h
    funext i
    exact (key i).mpr (h i)

theorem sh_sh {d : Fin D → Int} (hd : ∀ i, 0 < d i) (v : Fin D → Int) : sh d (sh d v) = sh d v := by
  rw [sh_iff hd]
  intro i
  obtain ⟨a1, a2, a3, a4⟩ := Mesh.C02_shift_coordinate (v i) (d i) (hd i)
  refine ⟨-(Mesh.shift1 (v i) (d i)).1, ?_⟩
  show (Mesh.shift1 (v i) (d i)).2 - v i = _
  rw [a3]; ring

/-- A symmetry operation that maps the mesh onto itself: what `checkMeshDimensions` is meant to
ensure (C32). -/
structure Compat (d : Fin D → Int) (A : Sym D) : Prop where
  trans : ∀ i, ∃ n : ℤ, (d i : ℚ) * A.t i = n
  rot : ∀ i j, d j ∣ d i * A.R i j

theorem vecMul_apply (v : Fin D → Int) (A : Sym D) (i : Fin D) :
    Sym.vecMul v A i = ∑ j, v j * A.R j i := by simp [Sym.vecMul, accum_eq]

theorem sh_vecMul {d : Fin D → Int} (hd : ∀ i, 0 < d i) {A : Sym D} (hA : Compat d A)
    {v w : Fin D → Int} (h : sh d v = sh d w) : sh d (Sym.vecMul v A) = sh d (Sym.vecMul w A) := by
  rw [sh_iff hd] at h ⊢
  intro i
  rw [vecMul_apply, vecMul_apply, ← Finset.sum_sub_distrib]
  apply Finset.dvd_sum
  intro j _
  obtain ⟨q, hq⟩ := h j
  rw [← sub_mul, hq, mul_right_comm]
  exact (hA.rot j i).mul_right q

theorem dot_cong {d : Fin D → Int} (hd : ∀ i, 0 < d i) {t : Fin D → ℚ}
    (ht : ∀ i, ∃ n : ℤ, (d i : ℚ) * t i = n) {v w : Fin D → Int} (h : sh d v = sh d w) :
    Cong (dot v t) (dot w t) := by
  rw [sh_iff hd] at h
  choose q hq using h
  choose n hn using ht
  refine ⟨∑ i, q i * n i, ?_⟩
  unfold dot
  rw [← Finset.sum_sub_distrib]
  push_cast
  refine Finset.sum_congr rfl fun i _ => ?_
  have e : (v i : ℚ) - w i = d i * q i := by exact_mod_cast hq i
  rw [← sub_mul, e, ← hn i]; ring

/-! ## Groups -/

/-- A valid space group whose operations map the mesh onto itself. -/
structure GroupOn (d : Fin D → Int) (l : List (Sym D)) : Prop where
  pos : ∀ i, 0 < d i
  one : Sym.identity D ∈ l
  mul : ∀ A ∈ l, ∀ B ∈ l, A.mul B ∈ l
  inv : ∀ A ∈ l, ∃ B ∈ l, A.mul B = Sym.identity D ∧ B.mul A = Sym.identity D
  compat : ∀ A ∈ l, Compat d A

/-- `isValid` of the group and compatibility with the mesh give the structure. -/
theorem groupOn_of_isValid (hD : D = 1 ∨ D = 2 ∨ D = 3) {d : Fin D → Int} {l : List (Sym D)}
    (hd : ∀ i, 0 < d i) (hv : Crystal.isValid (symOps D) l = .ok true) (hc : ∀ A ∈ l, Compat d A) :
    GroupOn d l := by
  obtain ⟨h1, _, h3, h4⟩ := (C29_isValid_iff (O := symOps D) l).1.mp hv
  refine ⟨hd, h1, h4, fun A hA => ?_, hc⟩
  obtain ⟨B, hB, hAB⟩ := h3 A hA
  have h27 := C27_inverse hD A
  by_cases hu : IsUnit (Matrix.of A.R).det
  · obtain ⟨B', hB', _, e1, e2⟩ := h27.1 hu
    have : A.inverse = .ok B := hAB
    rw [this] at hB'
    cases hB'
    exact ⟨B, hB, e1, e2⟩
  · have : A.inverse = .ok B := hAB
    rw [h27.2 hu] at this
    cases this

theorem vecMul_one (v : Fin D → Int) : Sym.vecMul v (Sym.identity D) = v := by
  funext i
  rw [vecMul_apply]
  simp [Sym.identity]

theorem dot_one (v : Fin D → Int) : dot v (Sym.identity D).t = 0 := by
  simp [dot, Sym.identity]

theorem vecMul_mul (v : Fin D → Int) (A B : Sym D) :
    Sym.vecMul v (A.mul B) = Sym.vecMul (Sym.vecMul v A) B := (C27_action_waves A B v).1

theorem dot_mul (v : Fin D → Int) (A B : Sym D) :
    Cong (dot v (A.mul B).t) (dot v A.t + dot (Sym.vecMul v A) B.t) := (C27_action_waves A B v).2

/-! ## Contents of a star -/

/-- Reduced phase of an operation. -/
def ph (v : Fin D → Int) (A : Sym D) : ℚ := reduce (dot v A.t)

theorem ph_cong (v : Fin D → Int) (A : Sym D) : Cong (ph v A) (dot v A.t) := (reduce_spec _).1

/-- Invariant of the loop over operations. -/
structure FoldInv (E : StarEnv D) (root : TWave D) (l : List (Sym D)) (st : StarState D) : Prop where
  src : ∀ w ∈ st.star, ∃ A ∈ l, w.dft = sh E.dims (Sym.vecMul root.bz A) ∧ w.phase = ph root.bz A ∧
    w.bz = E.minIm (Sym.vecMul root.bz A)
  cov : ∀ A ∈ l, ∃ w ∈ st.star, w.dft = sh E.dims (Sym.vecMul root.bz A)
  nodup : (st.star.map TWave.dft).Nodup
  sound : st.cancel = true →
    (∃ A ∈ l, sh E.dims (Sym.vecMul root.bz A) = root.dft ∧ ph root.bz A ≠ 0) ∨
    (∃ A ∈ l, ∃ B ∈ l, sh E.dims (Sym.vecMul root.bz A) = sh E.dims (Sym.vecMul root.bz B) ∧
      ph root.bz A ≠ ph root.bz B)
  complete : ∀ A ∈ l, sh E.dims (Sym.vecMul root.bz A) = root.dft →
    E.tol < |ph root.bz A * E.tw| → st.cancel = true

theorem starStep_inv {E : StarEnv D} {root : TWave D} {l : List (Sym D)} {st st' : StarState D}
    {A : Sym D} (htol : 0 ≤ E.tol) (I : FoldInv E root l st) (h : starStep E root st A = .ok st') :
    FoldInv E root (l ++ [A]) st' := by
  unfold starStep at h
  simp only [Res.bind_eq_ok] at h
  obtain ⟨_, _, h⟩ := h
  rw [phaseSum_eq] at h
  have hsrc : ∀ w ∈ st.star, ∃ B ∈ l ++ [A], w.dft = sh E.dims (Sym.vecMul root.bz B) ∧
      w.phase = ph root.bz B ∧ w.bz = E.minIm (Sym.vecMul root.bz B) := by
    intro w hw
    obtain ⟨B, hB, e⟩ := I.src w hw
    exact ⟨B, by simp [hB], e⟩
  -- soundness of the first test
  have hs1 : ∀ c : Bool, c = (if sh E.dims (Sym.vecMul root.bz A) = root.dft then
      (if |reduce (dot root.bz A.t) * E.tw| > E.tol then true else st.cancel) else st.cancel) →
      c = true →
      (∃ B ∈ l ++ [A], sh E.dims (Sym.vecMul root.bz B) = root.dft ∧ ph root.bz B ≠ 0) ∨
      (∃ B ∈ l ++ [A], ∃ C ∈ l ++ [A], sh E.dims (Sym.vecMul root.bz B) =
        sh E.dims (Sym.vecMul root.bz C) ∧ ph root.bz B ≠ ph root.bz C) := by
    intro c hc hct
    have old : st.cancel = true →
        (∃ B ∈ l ++ [A], sh E.dims (Sym.vecMul root.bz B) = root.dft ∧ ph root.bz B ≠ 0) ∨
        (∃ B ∈ l ++ [A], ∃ C ∈ l ++ [A], sh E.dims (Sym.vecMul root.bz B) =
          sh E.dims (Sym.vecMul root.bz C) ∧ ph root.bz B ≠ ph root.bz C) := by
      intro hh
      rcases I.sound hh with ⟨B, hB, e⟩ | ⟨B, hB, C, hC, e⟩
      · exact Or.inl ⟨B, List.mem_append_left _ hB, e⟩
      · exact Or.inr ⟨B, List.mem_append_left _ hB, C, List.mem_append_left _ hC, e⟩
    rw [hct] at hc
    split at hc
    · rename_i he
      split at hc
      · rename_i hgt
        left
        refine ⟨A, by simp, he, ?_⟩
        intro h0
        have : reduce (dot root.bz A.t) = 0 := h0
        rw [this, zero_mul, abs_zero] at hgt
        linarith
      · exact old hc.symm
    · exact old hc.symm
  have hcomp : ∀ B ∈ l ++ [A], sh E.dims (Sym.vecMul root.bz B) = root.dft →
      E.tol < |ph root.bz B * E.tw| → (if sh E.dims (Sym.vecMul root.bz A) = root.dft then
      (if |reduce (dot root.bz A.t) * E.tw| > E.tol then true else st.cancel) else st.cancel)
        = true := by
    intro B hB he hgt
    rcases List.mem_append.mp hB with hB | hB
    · have := I.complete B hB he hgt
      rw [this]; simp
    · simp only [List.mem_singleton] at hB
      subst hB
      rw [if_pos he]
      exact if_pos hgt
  split at h
  · -- new wave
    rename_i hf
    cases h
    rw [List.find?_eq_none] at hf
    refine ⟨?_, ?_, ?_, fun hc => hs1 _ rfl hc, hcomp⟩
    · intro w hw
      rcases List.mem_append.mp hw with hw | hw
      · exact hsrc w hw
      · simp only [List.mem_singleton] at hw
        subst hw
        exact ⟨A, by simp, rfl, rfl, rfl⟩
    · intro B hB
      rcases List.mem_append.mp hB with hB | hB
      · obtain ⟨w, hw, e⟩ := I.cov B hB
        exact ⟨w, List.mem_append_left _ hw, e⟩
      · simp only [List.mem_singleton] at hB
        subst hB
        exact ⟨_, List.mem_append_right _ (List.mem_singleton.mpr rfl), rfl⟩
    · rw [List.map_append, List.nodup_append]
      refine ⟨I.nodup, by simp, ?_⟩
      intro a ha b hb
      simp only [List.map_cons, List.map_nil, List.mem_singleton] at hb
      subst hb
      obtain ⟨w, hw, rfl⟩ := List.mem_map.mp ha
      have := hf w hw
      simpa using this
  · rename_i w hf
    have hw := List.mem_of_find?_eq_some hf
    have he : w.dft = sh E.dims (Sym.vecMul root.bz A) := by
      have := List.find?_some hf
      simpa using this
    have hcov : ∀ B ∈ l ++ [A], ∃ w ∈ st.star, w.dft = sh E.dims (Sym.vecMul root.bz B) := by
      intro B hB
      rcases List.mem_append.mp hB with hB | hB
      · exact I.cov B hB
      · simp only [List.mem_singleton] at hB
        subst hB
        exact ⟨w, hw, he⟩
    split at h
    · rename_i hgt
      cases h
      refine ⟨hsrc, hcov, I.nodup, fun _ => ?_, fun _ _ _ _ => rfl⟩
      right
      obtain ⟨B, hB, e1, e2, _⟩ := I.src w hw
      refine ⟨B, List.mem_append_left _ hB, A, by simp, by rw [← e1, he], ?_⟩
      intro heq
      have : w.phase * E.tw - reduce (dot root.bz A.t) * E.tw = 0 := by
        rw [e2, heq]; simp [ph]
      rw [this, reduce_zero, abs_zero] at hgt
      linarith
    · cases h
      exact ⟨hsrc, hcov, I.nodup, fun hc => hs1 _ rfl hc, hcomp⟩

theorem starFold_inv {E : StarEnv D} {root : TWave D} (htol : 0 ≤ E.tol) :
    ∀ (l l0 : List (Sym D)) (st st' : StarState D), FoldInv E root l0 st →
      starFold E root l st = .ok st' → FoldInv E root (l0 ++ l) st' := by
  intro l
  induction l with
  | nil => intro l0 st st' I h; cases h; simpa using I
  | cons A l ih =>
    intro l0 st st' I h
    unfold starFold at h
    rw [Res.bind_eq_ok] at h
    obtain ⟨st1, h1, h2⟩ := h
    have := ih (l0 ++ [A]) st1 st' (starStep_inv htol I h1) h2
    simpa using this

theorem buildStar_inv {E : StarEnv D} {root : TWave D} (htol : 0 ≤ E.tol) {st : StarState D}
    (h : buildStar E root = .ok st) : FoldInv E root E.group st := by
  have := starFold_inv htol E.group [] _ st
    ⟨by simp, by simp, by simp, by simp, by simp⟩ h
  simpa using this

end
end Verif.Stars
