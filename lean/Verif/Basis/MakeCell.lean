import Verif.Basis.MakeSucceed
import Verif.Crystal.MinImageProps

/-!
# `CellOn` holds for the minimum images that the program computes

`shiftToMinimum.cpp`: the search over a box for two and three dimensions (`cellOn_search`,
`cellOn_orthogonal`), the formula for one dimension (`cellOn_one`).
-/

set_option autoImplicit false
set_option linter.unusedSectionVars false

namespace Verif.Make
open Verif.Stars (TWave StarEnv StarRec negSh GroupOn sh)
open Verif.Crystal (Sym)

variable {D : Nat}

/-- Vectors within one period of the mesh. -/
def Within (d v : Fin D → Int) : Prop := ∀ i, |v i| ≤ d i

/-- A vector of which no image is shorter. -/
def ShortVec (E : StarEnv D) (u : Fin D → Int) : Prop := ∀ w, sh E.dims w = sh E.dims u → E.ksq u ≤ E.ksq w

theorem within_sh {d : Fin D → Int} (hd : ∀ i, 0 < d i) (v : Fin D → Int) : Within d (sh d v) := by
  intro i
  have h := sh_range hd v i
  rw [abs_of_nonneg h.1]
  exact h.2.le

theorem Within.reach {d v u : Fin D → Int} (hd : ∀ i, 0 < d i) (hv : Within d v) (hu : Within d u)
    (e : sh d u = sh d v) : ∃ s : Fin D → Int, (∀ i, -2 ≤ s i ∧ s i ≤ 2) ∧ u = fun i => v i + s i * d i := by
  have h := (Stars.sh_iff hd u v).1 e
  choose s hs using h
  refine ⟨s, fun i => ?_, ?_⟩
  · have h1 := abs_le.1 (hv i)
    have h2 := abs_le.1 (hu i)
    have h3 := hs i
    have h4 := hd i
    constructor
    · by_contra hc
      have : d i * s i ≤ d i * (-3) := mul_le_mul_of_nonneg_left (by omega) h4.le
      linarith
    · by_contra hc
      have : d i * 3 ≤ d i * s i := mul_le_mul_of_nonneg_left (by omega) h4.le
      linarith
  · funext i
    have := hs i
    linear_combination this

/-- `shiftToMinimum<2>`, `<3>`: if the shortest images of all vectors lie within one period and norms
of the searched vectors are equal or differ by more than the tolerance `δ`. -/
theorem cellOn_search {E : StarEnv D} (G : GroupOn E.dims E.group) (δ : ℝ) (hδ : 0 < δ) (heps : 0 < E.epsilon)
    (hmin : ∀ v, E.minIm v = Crystal.minImage (fun u => (E.ksq u : ℝ)) δ v E.dims)
    (hsym : ∀ A ∈ E.group, ∀ v, E.ksq (Sym.vecMul v A) = E.ksq v) (hneg : ∀ v, E.ksq (fun i => - v i) = E.ksq v)
    (hex : ∀ v, ∃ u, sh E.dims u = sh E.dims v ∧ ShortVec E u) (hsmall : ∀ u, ShortVec E u → Within E.dims u)
    (hsep : ∀ a b : Fin D → Int, (∀ i, |a i| ≤ 3 * E.dims i) → (∀ i, |b i| ≤ 3 * E.dims i) → E.ksq a < E.ksq b →
      (E.ksq a : ℝ) + δ < E.ksq b) : CellOn E (Within E.dims) := by
  have hcong : ∀ v, sh E.dims (E.minIm v) = sh E.dims v := by
    intro v
    obtain ⟨s, -, h⟩ := Crystal.C39_congruent (fun u => (E.ksq u : ℝ)) δ v E.dims
    rw [hmin, Stars.sh_iff G.pos]
    intro i
    rw [h]
    exact ⟨s i, by ring⟩
  have hC39 : ∀ v, Within E.dims v → ∀ s : Fin D → Int, (∀ i, -2 ≤ s i ∧ s i ≤ 2) →
      E.ksq (E.minIm v) ≤ E.ksq (fun i => v i + s i * E.dims i) ∧
      (E.ksq (fun i => v i + s i * E.dims i) = E.ksq (E.minIm v) →
        Crystal.ivLt (E.minIm v) (fun i => v i + s i * E.dims i) = false) := by
    intro v hv s hs
    have hb : ∀ s : Fin D → Int, (∀ i, -2 ≤ s i ∧ s i ≤ 2) → ∀ i, |Crystal.image v E.dims s i| ≤ 3 * E.dims i := by
      intro s hs i
      unfold Crystal.image
      have h1 := abs_le.1 (hv i)
      have h2 := hs i
      have h4 := (G.pos i).le
      have a1 : -2 * E.dims i ≤ s i * E.dims i := mul_le_mul_of_nonneg_right h2.1 h4
      have a2 : s i * E.dims i ≤ 2 * E.dims i := mul_le_mul_of_nonneg_right h2.2 h4
      rw [abs_le]
      constructor <;> linarith
    have h := Crystal.C39_shortest_and_greatest (fun u => (E.ksq u : ℝ)) δ hδ v E.dims
      (fun s t hs ht hlt => hsep _ _ (hb s hs) (hb t ht) (by exact_mod_cast hlt)) s hs
    rw [← hmin] at h
    refine ⟨by exact_mod_cast h.1, fun e => h.2 (by exact_mod_cast e)⟩
  have hshort : ∀ v, Within E.dims v → ShortVec E (E.minIm v) := by
    intro v hv w hw
    obtain ⟨u, hu, hus⟩ := hex v
    obtain ⟨s, hs, e⟩ := hv.reach G.pos (hsmall u hus) hu
    have h1 := (hC39 v hv s hs).1
    rw [← e] at h1
    exact h1.trans (hus w (by rw [hw, hcong, hu]))
  refine ⟨heps, within_sh G.pos, ?_, ?_, ?_, hcong, ?_, hsym, hneg⟩
  · intro A hA v hv
    apply hsmall
    intro w hw
    obtain ⟨B, hB, e, -⟩ := G.inv A hA
    rw [hsym A hA, ← hsym B hB w]
    apply hshort v hv
    rw [Stars.sh_vecMul G.pos (G.compat B hB) hw, ← Stars.vecMul_mul, e, Stars.vecMul_one]
  · intro v hv
    apply hsmall
    intro w hw
    rw [hneg, ← hneg w]
    apply hshort v hv
    rw [Stars.sh_neg G.pos hw]
    simp
  · intro v w hv hw e _
    have h1 := hshort v hv
    have h2 := hshort w hw
    have e1 : sh E.dims (E.minIm w) = sh E.dims (E.minIm v) := by rw [hcong, hcong, e]
    have e2 : E.ksq (E.minIm v) = E.ksq (E.minIm w) := le_antisymm (h1 _ e1) (h2 _ e1.symm)
    obtain ⟨s, hs, a⟩ := hv.reach G.pos (hsmall _ h2) (by rw [hcong, e])
    obtain ⟨t, ht, b⟩ := hw.reach G.pos (hsmall _ h1) (by rw [hcong, e])
    have h3 := (hC39 v hv s hs).2
    have h4 := (hC39 w hw t ht).2
    rw [← a] at h3
    rw [← b] at h4
    rcases Crystal.ivLt_total (E.minIm v) (E.minIm w) with h | h | h
    · rw [h3 e2.symm] at h; cases h
    · exact h
    · rw [h4 e2] at h; cases h
  · intro v w hv e
    exact hshort v hv w (by rw [hcong, e])

/-! ## Orthogonal cells -/

theorem abs_le_of_half {x w d : Int} (h : 2 * |x| ≤ d) (hw : d ∣ w - x) : |x| ≤ |w| := by
  obtain ⟨q, hq⟩ := hw
  rcases eq_or_ne q 0 with rfl | hq0
  · have : w = x := by linarith
    rw [this]
  · have h1 : d ≤ |d * q| := by
      rw [abs_mul]
      have : 1 ≤ |q| := Int.one_le_abs hq0
      have h2 : 0 ≤ |x| := abs_nonneg x
      rw [abs_of_nonneg (by linarith : (0 : Int) ≤ d)]
      nlinarith
    have h2 : |d * q| ≤ |w| + |x| := by rw [← hq]; exact abs_sub _ _
    linarith

/-- The shortest image of an orthogonal cell. -/
theorem centred {E : StarEnv D} (hd : ∀ i, 0 < E.dims i) (a : Fin D → ℚ) (ha : ∀ i, 0 < a i)
    (hk : ∀ v, E.ksq v = ∑ i, a i * (v i : ℚ) ^ 2) (v : Fin D → Int) :
    ∃ u, sh E.dims u = sh E.dims v ∧ ShortVec E u := by
  refine ⟨fun i => if 2 * sh E.dims v i ≤ E.dims i then sh E.dims v i else sh E.dims v i - E.dims i, ?_, ?_⟩
  · rw [← Stars.sh_sh hd v, Stars.sh_iff hd]
    intro i
    rw [Stars.sh_sh hd v]
    split
    · simp
    · exact ⟨-1, by ring⟩
  · intro w hw
    rw [hk, hk]
    refine Finset.sum_le_sum fun i _ => mul_le_mul_of_nonneg_left ?_ (ha i).le
    have h1 := (Stars.sh_iff hd _ _).1 hw i
    have h2 := sh_range hd v i
    rw [sq_le_sq]
    refine mod_cast abs_le_of_half ?_ h1
    split
    · rw [abs_of_nonneg h2.1]; assumption
    · rw [abs_of_neg (by linarith)]; omega

theorem ortho_small {E : StarEnv D} (hd : ∀ i, 0 < E.dims i) (a : Fin D → ℚ) (ha : ∀ i, 0 < a i)
    (hk : ∀ v, E.ksq v = ∑ i, a i * (v i : ℚ) ^ 2) (u : Fin D → Int) (hu : ShortVec E u) : Within E.dims u := by
  intro j
  by_contra hc
  push Not at hc
  have hdj := hd j
  obtain ⟨z, hz, hlt⟩ : ∃ z : Int, E.dims j ∣ z - u j ∧ |z| < |u j| := by
    rcases le_total 0 (u j) with h | h
    · rw [abs_of_nonneg h] at hc ⊢
      exact ⟨u j - E.dims j, ⟨-1, by ring⟩, by rw [abs_of_nonneg (by linarith)]; linarith⟩
    · rw [abs_of_nonpos h] at hc ⊢
      exact ⟨u j + E.dims j, ⟨1, by ring⟩, by rw [abs_of_nonpos (by linarith)]; linarith⟩
  have h1 := hu (Function.update u j z) (by
    rw [Stars.sh_iff hd]
    intro i
    rcases eq_or_ne i j with rfl | h
    · simpa using hz
    · simp [Function.update_of_ne h])
  rw [hk, hk] at h1
  refine absurd h1 (not_le.2 (Finset.sum_lt_sum (fun i _ => ?_) ⟨j, Finset.mem_univ _, ?_⟩))
  · rcases eq_or_ne i j with rfl | h
    · refine mul_le_mul_of_nonneg_left ?_ (ha i).le
      rw [Function.update_self, sq_le_sq]
      exact_mod_cast hlt.le
    · rw [Function.update_of_ne h]
  · refine mul_lt_mul_of_pos_left ?_ (ha j)
    rw [Function.update_self, sq_lt_sq]
    exact_mod_cast hlt

/-- Rectangular, square, orthorhombic, tetragonal and cubic cells. -/
theorem cellOn_orthogonal {E : StarEnv D} (G : GroupOn E.dims E.group) (δ : ℝ) (hδ : 0 < δ) (heps : 0 < E.epsilon)
    (hmin : ∀ v, E.minIm v = Crystal.minImage (fun u => (E.ksq u : ℝ)) δ v E.dims)
    (a : Fin D → ℚ) (ha : ∀ i, 0 < a i) (hk : ∀ v, E.ksq v = ∑ i, a i * (v i : ℚ) ^ 2)
    (hsym : ∀ A ∈ E.group, ∀ v, E.ksq (Sym.vecMul v A) = E.ksq v)
    (hsep : ∀ a b : Fin D → Int, (∀ i, |a i| ≤ 3 * E.dims i) → (∀ i, |b i| ≤ 3 * E.dims i) → E.ksq a < E.ksq b →
      (E.ksq a : ℝ) + δ < E.ksq b) : CellOn E (Within E.dims) :=
  cellOn_search G δ hδ heps hmin hsym (fun v => by rw [hk, hk]; simp) (centred G.pos a ha hk)
    (ortho_small G.pos a ha hk) hsep

/-! ## One dimension -/

theorem rot_one {d : Fin 1 → Int} {l : List (Sym 1)} (G : GroupOn d l) {A : Sym 1} (hA : A ∈ l) (v : Fin 1 → Int) :
    Sym.vecMul v A 0 = v 0 ∨ Sym.vecMul v A 0 = - v 0 := by
  obtain ⟨B, -, e, -⟩ := G.inv A hA
  have h1 : ∀ (C : Sym 1) (u : Fin 1 → Int), Sym.vecMul u C 0 = u 0 * C.R 0 0 := by
    intro C u
    rw [Stars.vecMul_apply]
    simp
  have h2 : Sym.vecMul (Sym.vecMul (fun _ => 1) A) B 0 = 1 := by
    rw [← Stars.vecMul_mul, e, Stars.vecMul_one]
  rw [h1, h1, one_mul] at h2
  rw [h1]
  rcases Int.isUnit_iff.1 (IsUnit.of_mul_eq_one _ h2) with h | h
  · left; rw [h, mul_one]
  · right; rw [h]; ring

/-- `shiftToMinimum<1>`: no condition on the cell is left. -/
theorem cellOn_one {E : StarEnv 1} (G : GroupOn E.dims E.group) (heps : 0 < E.epsilon)
    (hmin : ∀ v, E.minIm v = fun _ => Crystal.minImage1 (v 0) (E.dims 0)) (a : ℚ) (ha : 0 < a)
    (hk : ∀ v, E.ksq v = a * (v 0 : ℚ) ^ 2) : CellOn E (Within E.dims) := by
  have hd := G.pos 0
  have td : (E.dims 0).tdiv 2 = E.dims 0 / 2 := Int.tdiv_eq_ediv_of_nonneg hd.le
  have h1 : ∀ x, ∃ s : Int, Crystal.minImage1 x (E.dims 0) = x + s * E.dims 0 := by
    intro x
    unfold Crystal.minImage1
    split
    · exact ⟨-1, by ring⟩
    · split
      · exact ⟨1, by ring⟩
      · exact ⟨0, by ring⟩
  have hr : ∀ x, |x| ≤ E.dims 0 → - (E.dims 0 / 2) ≤ Crystal.minImage1 x (E.dims 0) ∧
      Crystal.minImage1 x (E.dims 0) ≤ E.dims 0 / 2 := by
    intro x hx
    rw [abs_le] at hx
    unfold Crystal.minImage1
    rw [td]
    split
    · omega
    · split <;> omega
  have hcong : ∀ v, sh E.dims (E.minIm v) = sh E.dims v := by
    intro v
    rw [hmin, Stars.sh_iff G.pos]
    intro i
    obtain rfl : i = 0 := Subsingleton.elim _ _
    obtain ⟨s, e⟩ := h1 (v 0)
    rw [e]
    exact ⟨s, by ring⟩
  refine ⟨heps, within_sh G.pos, ?_, ?_, ?_, hcong, ?_, ?_, ?_⟩
  · intro A hA v hv i
    obtain rfl : i = 0 := Subsingleton.elim _ _
    have h2 := hr (v 0) (hv 0)
    rcases rot_one G hA (E.minIm v) with h | h
    · rw [h, hmin, abs_le]; constructor <;> dsimp only <;> omega
    · rw [h, hmin, abs_le]; constructor <;> dsimp only <;> omega
  · intro v hv i
    obtain rfl : i = 0 := Subsingleton.elim _ _
    have h2 := hr (v 0) (hv 0)
    rw [hmin, abs_neg, abs_le]
    constructor <;> dsimp only <;> omega
  · intro v w hv hw e hne
    rw [hmin, hmin]
    funext i
    by_contra hc
    apply hne
    have h2 := hr (v 0) (hv 0)
    have h3 := hr (w 0) (hw 0)
    obtain ⟨s, hs⟩ := h1 (v 0)
    obtain ⟨t, ht⟩ := h1 (w 0)
    obtain ⟨q, hq⟩ := (Stars.sh_iff G.pos _ _).1 e 0
    rw [Stars.sh_iff G.pos]
    intro i
    obtain rfl : i = 0 := Subsingleton.elim _ _
    have h4 : Crystal.minImage1 (v 0) (E.dims 0) - Crystal.minImage1 (w 0) (E.dims 0) = E.dims 0 * (q + s - t) := by
      rw [hs, ht]; linear_combination hq
    have h5 : q + s - t = 1 ∨ q + s - t = -1 := by
      rcases lt_trichotomy (q + s - t) 0 with h | h | h
      · right
        by_contra hx
        have : E.dims 0 * (q + s - t) ≤ E.dims 0 * (-2) := mul_le_mul_of_nonneg_left (by omega) hd.le
        omega
      · rw [h, mul_zero] at h4
        exact absurd (by linarith) hc
      · left
        by_contra hx
        have : E.dims 0 * 2 ≤ E.dims 0 * (q + s - t) := mul_le_mul_of_nonneg_left (by omega) hd.le
        omega
    have h6 : 2 * Crystal.minImage1 (v 0) (E.dims 0) = E.dims 0 ∨ 2 * Crystal.minImage1 (v 0) (E.dims 0) = - E.dims 0 := by
      rcases h5 with h | h <;> rw [h] at h4 <;> omega
    rcases h6 with h | h
    · exact ⟨2 * s - 1, by linear_combination 2 * hs - h⟩
    · exact ⟨2 * s + 1, by linear_combination 2 * hs - h⟩
  · intro v w hv e
    rw [hk, hk, hmin]
    refine mul_le_mul_of_nonneg_left ?_ ha.le
    rw [sq_le_sq]
    obtain ⟨q, hq⟩ := (Stars.sh_iff G.pos _ _).1 e 0
    have h2 := (Crystal.C39_one_dimension (v 0) (E.dims 0) hd ((hv 0).trans (by omega))).2 (-q)
    have h3 : v 0 + -q * E.dims 0 = w 0 := by linear_combination hq
    rw [h3] at h2
    exact_mod_cast h2
  · intro A hA v
    rw [hk, hk]
    rcases rot_one G hA v with h | h <;> rw [h]
    push_cast
    ring
  · intro v
    rw [hk, hk]
    push_cast
    ring

end Verif.Make
