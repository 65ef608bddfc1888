import Verif.Loop
import Verif.Basic
import Mathlib.Analysis.Real.Sqrt

/-!
# Model of reductions and field comparison

Source: `/repo/src/prdc/cpu/Reduce.cpp`, `/repo/src/pscf/math/FieldComparison.tpp`.

A `double` is a real number (no rounding, no infinity) or NaN (`none`). Comparisons with NaN are
false and arithmetic with NaN gives NaN.
-/

set_option autoImplicit false

namespace Verif.Reduce

noncomputable section

/-- A real number or NaN. -/
abbrev Dbl := Option ℝ

/-- `a > b`. -/
def gt : Dbl → Dbl → Prop
  | some a, some b => a > b
  | _, _ => False

open Classical in
/-- Loop `if (in[i] > max) max = in[i];` -/
def maxLoop : List Dbl → Dbl → Dbl
  | [], m => m
  | x :: xs, m => maxLoop xs (if gt x m then x else m)

open Classical in
/-- Loop `if (in[i] < min) min = in[i];` -/
def minLoop : List Dbl → Dbl → Dbl
  | [], m => m
  | x :: xs, m => minLoop xs (if gt m x then x else m)

/-- `std::abs`. -/
def dabs (x : Dbl) : Dbl := x.map (fun a => |a|)

/-- `Reduce::max`, `Reduce.cpp:20-29`. -/
def max : List Dbl → Res Dbl
  | [] => .throw
  | x :: xs => .ok (maxLoop xs x)

/-- `Reduce::maxAbs`, `Reduce.cpp:34-45`. -/
def maxAbs : List Dbl → Res Dbl
  | [] => .throw
  | x :: xs => .ok (maxLoop (xs.map dabs) (dabs x))

/-- `Reduce::min`, `Reduce.cpp:50-59`. -/
def min : List Dbl → Res Dbl
  | [] => .throw
  | x :: xs => .ok (minLoop xs x)

/-- `Reduce::minAbs`, `Reduce.cpp:64-75`. -/
def minAbs : List Dbl → Res Dbl
  | [] => .throw
  | x :: xs => .ok (minLoop (xs.map dabs) (dabs x))

/-- Arithmetic. -/
def dadd (a b : Dbl) : Dbl := a.bind fun x => b.map fun y => x + y
def dmul (a b : Dbl) : Dbl := a.bind fun x => b.map fun y => x * y
def dsub (a b : Dbl) : Dbl := a.bind fun x => b.map fun y => x - y

/-- `Reduce::sum`, `Reduce.cpp:80-89`. -/
def sum (l : List Dbl) : Res Dbl :=
  if l.length > 0 then .ok (l.foldl dadd (some 0)) else .throw

/-- `Reduce::innerProduct`, `Reduce.cpp:94-105`. -/
def innerProduct (a b : List Dbl) : Res Dbl :=
  if a.length > 0 then
    if b.length = a.length then .ok ((List.zipWith dmul a b).foldl dadd (some 0)) else .throw
  else .throw

/-- Member variables of `FieldComparison` after a comparison. -/
structure Diff where
  maxDiff : ℝ
  rmsDiff : ℝ

/-- Loop over elements, `FieldComparison.tpp:36-48, 71-83`; `none` if a NaN was met. -/
def cmpLoop : List (Dbl × Dbl) → ℝ → ℝ → Option (ℝ × ℝ)
  | [], m, r => some (m, r)
  | (x, y) :: l, m, r =>
    match dabs (dsub x y) with
    | none => none
    | some d => cmpLoop l (if d > m then d else m) (r + d * d)

/-- Value set after a NaN was met. -/
def nanDiff : Diff := ⟨10 ^ 8, 10 ^ 8⟩

/-- `compare(FT const&, FT const&)`, `FieldComparison.tpp:27-52`. -/
def compare (begin : Nat) (a b : List Dbl) : Res Diff :=
  if a.length > 0 then
    if a.length = b.length then
      match cmpLoop ((a.zip b).drop begin) 0 0 with
      | none => .ok nanDiff
      | some (m, r) => .ok ⟨m, √(r / a.length)⟩
    else .throw
  else .throw

/-- Loop over fields in `compare(DArray<FT>, DArray<FT>)`: last capacity and running values. -/
def cmpFields (begin : Nat) : List (List Dbl × List Dbl) → Nat → ℝ → ℝ → Res (Option (Nat × ℝ × ℝ))
  | [], n, m, r => .ok (some (n, m, r))
  | (a, b) :: l, _, m, r =>
    if a.length > 0 then
      if a.length = b.length then
        match cmpLoop ((a.zip b).drop begin) m r with
        | none => .ok none
        | some (m', r') => cmpFields begin l a.length m' r'
      else .throw
    else .throw

/-- `compare(DArray<FT> const&, DArray<FT> const&)`, `FieldComparison.tpp:55-88`. -/
def compareArrays (begin : Nat) (a b : List (List Dbl)) : Res Diff :=
  if a.length > 0 then
    if a.length = b.length then
      if (a.headD []).length > 0 then
        cmpFields begin (a.zip b) 0 0 0 >>= fun
          | none => .ok nanDiff
          | some (n, m, r) => .ok ⟨m, √(r / ((a.length * n : Nat) : ℝ))⟩
      else .throw
    else .throw
  else .throw

end

end Verif.Reduce
