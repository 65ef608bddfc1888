import Mathlib.Algebra.BigOperators.Fin

/-!
# Accumulation loops

`double s = 0.0; for (int i = 0; i < n; ++i) s += f(i);` as a left fold, and the fact that
over a commutative monoid (no rounding) it is the mathematical sum.
-/

namespace Verif

/-- `s = s0; for (i = 0; i < n; ++i) s += f(i)`. -/
def accum {K : Type*} [Add K] (n : Nat) (f : Fin n → K) (s0 : K) : K :=
  (List.finRange n).foldl (fun s i => s + f i) s0

theorem foldl_add_eq {K ι : Type*} [AddCommMonoid K] (l : List ι) (f : ι → K) (s0 : K) :
    l.foldl (fun s i => s + f i) s0 = s0 + (l.map f).sum := by
  induction l generalizing s0 with
  | nil => simp
  | cons a l ih => simp [ih, add_assoc]

theorem accum_eq {K : Type*} [AddCommMonoid K] (n : Nat) (f : Fin n → K) (s0 : K) :
    accum n f s0 = s0 + ∑ i, f i := by
  rw [accum, foldl_add_eq, ← List.ofFn_eq_map, List.sum_ofFn]

end Verif
