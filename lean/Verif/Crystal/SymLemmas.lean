import Verif.Crystal.SymModel
import Verif.Tac
import Mathlib.Data.Rat.Floor
import Mathlib.Algebra.Order.Floor.Ring
import Mathlib.Data.Matrix.Mul

/-! # Lemmas on symmetries -/

namespace Verif.Crystal

theorem whileUp_mod (den : Int) (hd : 0 < den) : ∀ (fuel : Nat) (num : Int), num < den →
    - num ≤ fuel → whileUp den fuel num = num % den := by
  intro fuel
  induction fuel with
  | zero =>
    intro num h1 h2
    rw [whileUp, Int.emod_eq_of_lt (by simpa using h2) h1]
  | succ f ih =>
    intro num h1 h2
    rw [whileUp]
    split
    · rw [ih _ (by omega) (by push_cast at h2; omega), Int.add_emod_right]
    · rw [Int.emod_eq_of_lt (by omega) h1]

theorem whileUp_nonneg (den : Int) (fuel : Nat) (num : Int) (h : 0 ≤ num) :
    whileUp den fuel num = num := by
  cases fuel with
  | zero => rfl
  | succ f => rw [whileUp, if_neg (by omega)]

theorem whileDown_mod (den : Int) (hd : 0 < den) : ∀ (fuel : Nat) (num : Int), 0 ≤ num →
    num ≤ fuel → whileDown den fuel num = num % den := by
  intro fuel
  induction fuel with
  | zero =>
    intro num h1 h2
    have : num = 0 := by simp at h2; omega
    subst this; simp [whileDown]
  | succ f ih =>
    intro num h1 h2
    rw [whileDown]
    split
    · rw [ih _ (by omega) (by push_cast at h2; omega), Int.sub_emod_right]
    · rw [Int.emod_eq_of_lt h1 (by omega)]

theorem whileDown_lt (den : Int) (fuel : Nat) (num : Int) (h : num < den) :
    whileDown den fuel num = num := by
  cases fuel with
  | zero => rfl
  | succ f => rw [whileDown, if_neg (by omega)]

theorem loops_mod (num den : Int) (hd : 0 < den) :
    whileDown den num.natAbs (whileUp den num.natAbs num) = num % den := by
  by_cases h : 0 ≤ num
  · rw [whileUp_nonneg _ _ _ h, whileDown_mod _ hd _ _ h (by omega)]
  · rw [whileUp_mod _ hd _ _ (by omega) (by omega), whileDown_lt _ _ _ (Int.emod_lt_of_pos _ hd)]

theorem normComp_fract (t : ℚ) : normComp t = Int.fract t := by
  have hd : (0 : Int) < t.den := by exact_mod_cast t.den_pos
  have hfr : Int.fract t = ((t.num % (t.den : Int) : Int) : ℚ) / (t.den : ℚ) := by
    conv_lhs => rw [← Rat.num_div_den t]
    exact Int.fract_div_intCast_eq_div_intCast_mod
  have hnum : (if (t.den : Int) = 1 then 0
      else whileDown t.den t.num.natAbs (whileUp t.den t.num.natAbs t.num)) = t.num % (t.den : Int) := by
    split
    · rename_i h; rw [h]; simp
    · exact loops_mod _ _ hd
  unfold normComp
  simp only [hnum]
  rw [hfr]
  split
  · rw [Rat.mkRat_eq_div]
  · rename_i h
    push Not at h
    rw [h, Rat.num_div_den]

/-- Congruence modulo lattice translations. -/
def Cong (a b : ℚ) : Prop := ∃ z : ℤ, a - b = z

theorem Cong.refl (a : ℚ) : Cong a a := ⟨0, by simp⟩
theorem Cong.symm {a b : ℚ} (h : Cong a b) : Cong b a := by
  obtain ⟨z, hz⟩ := h; exact ⟨-z, by push_cast; linarith⟩
theorem Cong.trans {a b c : ℚ} (h : Cong a b) (h' : Cong b c) : Cong a c := by
  obtain ⟨z, hz⟩ := h; obtain ⟨z', hz'⟩ := h'; exact ⟨z + z', by push_cast; linarith⟩
theorem Cong.add {a b c d : ℚ} (h : Cong a b) (h' : Cong c d) : Cong (a + c) (b + d) := by
  obtain ⟨z, hz⟩ := h; obtain ⟨z', hz'⟩ := h'; exact ⟨z + z', by push_cast; linarith⟩
theorem Cong.sub {a b c d : ℚ} (h : Cong a b) (h' : Cong c d) : Cong (a - c) (b - d) := by
  obtain ⟨z, hz⟩ := h; obtain ⟨z', hz'⟩ := h'; exact ⟨z - z', by push_cast; linarith⟩
theorem Cong.neg {a b : ℚ} (h : Cong a b) : Cong (-a) (-b) := by
  obtain ⟨z, hz⟩ := h; exact ⟨-z, by push_cast; linarith⟩
theorem Cong.intMul {a b : ℚ} (n : ℤ) (h : Cong a b) : Cong (n * a) (n * b) := by
  obtain ⟨z, hz⟩ := h; exact ⟨n * z, by push_cast; rw [← hz]; ring⟩
theorem Cong.sum {ι : Type} (s : Finset ι) {f g : ι → ℚ} (h : ∀ i, Cong (f i) (g i)) :
    Cong (∑ i ∈ s, f i) (∑ i ∈ s, g i) := by
  classical
  induction s using Finset.induction_on with
  | empty => exact Cong.refl _
  | insert a s ha ih =>
    rw [Finset.sum_insert ha, Finset.sum_insert ha]
    exact (h a).add ih
theorem Cong.fract (a : ℚ) : Cong (Int.fract a) a := by
  refine ⟨-⌊a⌋, ?_⟩
  have := Int.self_sub_floor a
  push_cast
  linarith

theorem fract_eq_of_cong {a b : ℚ} (h : Cong a b) : Int.fract a = Int.fract b := by
  rw [Int.fract_eq_fract]; exact h
theorem cong_of_fract_eq {a b : ℚ} (h : Int.fract a = Int.fract b) : Cong a b := by
  rw [Int.fract_eq_fract] at h; exact h

variable {D : Nat}

@[ext] theorem Sym.ext' {A B : Sym D} (hR : ∀ i j, A.R i j = B.R i j) (ht : ∀ i, A.t i = B.t i) :
    A = B := by
  cases A; cases B
  simp only [Sym.mk.injEq]
  exact ⟨funext fun i => funext fun j => hR i j, funext ht⟩

theorem normalize_t (A : Sym D) (i : Fin D) : A.normalize.t i = Int.fract (A.t i) :=
  normComp_fract _

theorem mul_R (A B : Sym D) (i j : Fin D) : (A.mul B).R i j = ∑ k, A.R i k * B.R k j := by
  simp [Sym.mul, Sym.normalize, accum_eq]

theorem mul_t (A B : Sym D) (i : Fin D) :
    (A.mul B).t i = Int.fract (A.t i + ∑ j, (A.R i j : ℚ) * B.t j) := by
  rw [Sym.mul, normalize_t]; simp only [accum_eq]

theorem shift_t (A : Sym D) (o : Fin D → ℚ) (i : Fin D) :
    (A.shiftOrigin o).t i = Int.fract (A.t i - o i + ∑ j, (A.R i j : ℚ) * o j) := by
  rw [Sym.shiftOrigin, normalize_t]; simp only [accum_eq]

theorem inverse_ok {A B : Sym D} (h : A.inverse = .ok B) :
    inverseRotation D A.R = .ok B.R ∧
      ∀ i, B.t i = Int.fract (- ∑ j, (B.R i j : ℚ) * A.t j) := by
  unfold Sym.inverse at h
  rw [Res.bind_eq_ok] at h
  obtain ⟨R, hR, h⟩ := h
  simp only [Res.pure_eq, Res.ok.injEq] at h
  subst h
  refine ⟨hR, fun i => ?_⟩
  rw [normalize_t]
  simp [accum_eq, Sym.normalize]

/-- Translations are reduced to `[0,1)`. -/
def Sym.Reduced (A : Sym D) : Prop := ∀ i, 0 ≤ A.t i ∧ A.t i < 1

theorem reduced_iff (A : Sym D) : A.Reduced ↔ A.normalize = A := by
  constructor
  · intro h
    apply Sym.ext'
    · intro i j; rfl
    · intro i; rw [normalize_t]; exact Int.fract_eq_self.mpr (h i)
  · intro h i
    rw [← h, normalize_t]
    exact ⟨Int.fract_nonneg _, Int.fract_lt_one _⟩

theorem normalize_reduced (A : Sym D) : A.normalize.Reduced := fun i => by
  rw [normalize_t]; exact ⟨Int.fract_nonneg _, Int.fract_lt_one _⟩

end Verif.Crystal
