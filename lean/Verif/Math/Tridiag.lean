import Mathlib.Algebra.Order.Field.Basic

/-!
# Model of `TridiagonalSolver`

Source: `/repo/src/pscf/math/TridiagonalSolver.cpp`. Arrays are functions of the index; only
the elements the C++ loops touch matter. Arithmetic is exact (a field `K`). The loops over `i`
are written as recursions: each iteration only uses elements assigned by the previous one.
-/

namespace Verif.Math

variable {K : Type} [Field K]

/-- Arrays passed to `computeLU(d, u, l)`, `pscf/math/TridiagonalSolver.cpp:58-71`. -/
structure Tri (K : Type) where
  d : Nat → K
  u : Nat → K
  l : Nat → K

/-- `computeLU(d, u)` for a symmetric matrix, `pscf/math/TridiagonalSolver.cpp:41-53`. -/
def Tri.symm (d u : Nat → K) : Tri K := ⟨d, u, u⟩

/-- `d_` after `gaussElimination`, `pscf/math/TridiagonalSolver.cpp:73-81`. -/
def Tri.dLU (t : Tri K) : Nat → K
  | 0 => t.d 0
  | i + 1 => t.d (i + 1) - (t.l i / t.dLU i) * t.u i

/-- `l_` after `gaussElimination`, `pscf/math/TridiagonalSolver.cpp:78, 80`. -/
def Tri.lLU (t : Tri K) (i : Nat) : K := t.l i / t.dLU i

/-- Scratch vector `y_` of `multiply`, `pscf/math/TridiagonalSolver.cpp:105-109`. -/
def Tri.multY (t : Tri K) (n : Nat) (b : Nat → K) (i : Nat) : K :=
  if i = n - 1 then t.dLU (n - 1) * b (n - 1) else t.dLU i * b i + t.u i * b (i + 1)

/-- `multiply`, `pscf/math/TridiagonalSolver.cpp:102-115`. -/
def Tri.multiply (t : Tri K) (n : Nat) (b : Nat → K) (i : Nat) : K :=
  if i = 0 then t.multY n b 0 else t.multY n b i + t.lLU (i - 1) * t.multY n b (i - 1)

/-- Forward substitution of `solve`, `pscf/math/TridiagonalSolver.cpp:122-126`. -/
def Tri.fwd (t : Tri K) (b : Nat → K) : Nat → K
  | 0 => b 0
  | i + 1 => b (i + 1) - t.lLU i * t.fwd b i

/-- Back substitution of `solve`, `pscf/math/TridiagonalSolver.cpp:128-132`; argument is the
distance from the last element. -/
def Tri.back (t : Tri K) (n : Nat) (y : Nat → K) : Nat → K
  | 0 => y (n - 1) / t.dLU (n - 1)
  | k + 1 => (y (n - 2 - k) - t.u (n - 2 - k) * t.back n y k) / t.dLU (n - 2 - k)

/-- `solve`, `pscf/math/TridiagonalSolver.cpp:120-133`. -/
def Tri.solve (t : Tri K) (n : Nat) (b : Nat → K) (i : Nat) : K :=
  t.back n (t.fwd b) (n - 1 - i)

end Verif.Math
