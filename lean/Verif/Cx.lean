import Mathlib.Algebra.Order.Field.Basic
import Mathlib.Tactic.Ring
import Mathlib.Tactic.FieldSimp
import Mathlib.Tactic.Positivity
import Mathlib.Tactic.LinearCombination

/-!
# Complex numbers over an ordered field

`std::complex<double>` with `double` read as an exact ordered field `K`.  Kept computable (for
`K = ℚ`) so that concrete cases can be evaluated; division is `z * conj c / |c|²`.
-/

namespace Verif

structure Cx (K : Type*) where
  re : K
  im : K
deriving DecidableEq, Repr

namespace Cx
variable {K : Type*} [Field K]

instance : Zero (Cx K) := ⟨⟨0, 0⟩⟩
instance : One (Cx K) := ⟨⟨1, 0⟩⟩
instance : Add (Cx K) := ⟨fun a b => ⟨a.re + b.re, a.im + b.im⟩⟩
instance : Sub (Cx K) := ⟨fun a b => ⟨a.re - b.re, a.im - b.im⟩⟩
instance : Neg (Cx K) := ⟨fun a => ⟨-a.re, -a.im⟩⟩
instance : Mul (Cx K) := ⟨fun a b => ⟨a.re * b.re - a.im * b.im, a.re * b.im + a.im * b.re⟩⟩

/-- Complex conjugate. -/
def conj (a : Cx K) : Cx K := ⟨a.re, -a.im⟩
/-- `std::norm`: the squared modulus. -/
def normSq (a : Cx K) : K := a.re * a.re + a.im * a.im
/-- Multiplication by a real number. -/
def smul (s : K) (a : Cx K) : Cx K := ⟨s * a.re, s * a.im⟩
/-- Division by a real number. -/
def sdiv (a : Cx K) (s : K) : Cx K := ⟨a.re / s, a.im / s⟩

instance : Div (Cx K) := ⟨fun a b => sdiv (a * conj b) (normSq b)⟩

@[ext] theorem ext' {a b : Cx K} (h : a.re = b.re) (h' : a.im = b.im) : a = b := by
  cases a; cases b; simp_all

@[simp] theorem zero_re : (0 : Cx K).re = 0 := rfl
@[simp] theorem zero_im : (0 : Cx K).im = 0 := rfl
@[simp] theorem one_re : (1 : Cx K).re = 1 := rfl
@[simp] theorem one_im : (1 : Cx K).im = 0 := rfl
@[simp] theorem add_re (a b : Cx K) : (a + b).re = a.re + b.re := rfl
@[simp] theorem add_im (a b : Cx K) : (a + b).im = a.im + b.im := rfl
@[simp] theorem sub_re (a b : Cx K) : (a - b).re = a.re - b.re := rfl
@[simp] theorem sub_im (a b : Cx K) : (a - b).im = a.im - b.im := rfl
@[simp] theorem neg_re (a : Cx K) : (-a).re = -a.re := rfl
@[simp] theorem neg_im (a : Cx K) : (-a).im = -a.im := rfl
@[simp] theorem mul_re (a b : Cx K) : (a * b).re = a.re * b.re - a.im * b.im := rfl
@[simp] theorem mul_im (a b : Cx K) : (a * b).im = a.re * b.im + a.im * b.re := rfl
@[simp] theorem conj_re (a : Cx K) : (conj a).re = a.re := rfl
@[simp] theorem conj_im (a : Cx K) : (conj a).im = -a.im := rfl
@[simp] theorem smul_re (s : K) (a : Cx K) : (smul s a).re = s * a.re := rfl
@[simp] theorem smul_im (s : K) (a : Cx K) : (smul s a).im = s * a.im := rfl
@[simp] theorem sdiv_re (a : Cx K) (s : K) : (sdiv a s).re = a.re / s := rfl
@[simp] theorem sdiv_im (a : Cx K) (s : K) : (sdiv a s).im = a.im / s := rfl
theorem div_def (a b : Cx K) : a / b = sdiv (a * conj b) (normSq b) := rfl
@[simp] theorem div_re (a b : Cx K) : (a / b).re = (a.re * b.re + a.im * b.im) / normSq b := by
  simp [div_def, sub_eq_add_neg]
@[simp] theorem div_im (a b : Cx K) : (a / b).im = (a.im * b.re - a.re * b.im) / normSq b := by
  simp only [div_def, sdiv_im, mul_im, conj_re, conj_im]
  congr 1; ring

theorem mul_div_cancel {z c : Cx K} (h : normSq c ≠ 0) : z * c / c = z := by
  ext
  · rw [div_re, div_eq_iff h]; simp [normSq]; ring
  · rw [div_im, div_eq_iff h]; simp [normSq]; ring

theorem div_mul_cancel {z c : Cx K} (h : normSq c ≠ 0) : z / c * c = z := by
  ext
  · simp only [mul_re, div_re, div_im]
    rw [div_mul_eq_mul_div, div_mul_eq_mul_div, ← sub_div, div_eq_iff h]
    simp [normSq]; ring
  · simp only [mul_im, div_re, div_im]
    rw [div_mul_eq_mul_div, div_mul_eq_mul_div, ← add_div, div_eq_iff h]
    simp [normSq]; ring

theorem conj_mul (a b : Cx K) : conj (a * b) = conj a * conj b := by
  ext <;> simp <;> ring

@[simp] theorem conj_conj (a : Cx K) : conj (conj a) = a := by ext <;> simp

theorem normSq_conj (a : Cx K) : normSq (conj a) = normSq a := by simp [normSq]

theorem conj_div (a b : Cx K) : conj (a / b) = conj a / conj b := by
  ext
  · simp [normSq_conj]
  · simp only [conj_im, div_im, normSq_conj, conj_re]
    rw [← neg_div]; congr 1; ring

theorem mul_comm' (a b : Cx K) : a * b = b * a := by ext <;> simp <;> ring
theorem mul_assoc' (a b c : Cx K) : a * b * c = a * (b * c) := by ext <;> simp <;> ring
theorem normSq_mul (a b : Cx K) : normSq (a * b) = normSq a * normSq b := by simp [normSq]; ring

section
variable {K : Type*} [Field K] [LinearOrder K] [IsStrictOrderedRing K]
theorem normSq_nonneg (a : Cx K) : 0 ≤ normSq a := by
  unfold normSq; have := mul_self_nonneg a.re; have := mul_self_nonneg a.im; positivity
theorem normSq_eq_zero {a : Cx K} : normSq a = 0 ↔ a = 0 := by
  constructor
  · intro h
    unfold normSq at h
    have h1 := mul_self_nonneg a.re
    have h2 := mul_self_nonneg a.im
    have e1 : a.re * a.re = 0 := le_antisymm (by rw [← h]; exact le_add_of_nonneg_right h2) h1
    have e2 : a.im * a.im = 0 := by rw [e1] at h; simpa using h
    exact ext' (mul_self_eq_zero.mp e1) (mul_self_eq_zero.mp e2)
  · rintro rfl; simp [normSq]
end
end Cx
end Verif
