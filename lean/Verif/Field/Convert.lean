import Verif.Basic
import Verif.Loop
import Mathlib.Algebra.Order.Field.Basic

/-!
Model of `Pscf::Prdc::Cpu::FieldBasisConverter<D>`, `prdc/cpu/FieldBasisConverter.tpp`.

The basis is a matrix of `nMonomer` rows, a field is the list of its values on the mesh.
Arithmetic is that of a field `K`.
-/

set_option autoImplicit false
set_option linter.unusedSectionVars false

namespace Verif.Field.Conv

open Verif

variable {K : Type} [Field K] [LinearOrder K]

/-- `setBasis`, `FieldBasisConverter.tpp:51-62`: the matrix is given with its two capacities. -/
def setBasis (cap1 cap2 : Nat) (b : Nat → Nat → K) : Res (Nat × (Nat → Nat → K)) :=
  if 1 < cap1 ∧ cap1 = cap2 then .ok (cap1, b) else .throw

/-- Error of one pair of rows, `FieldBasisConverter.tpp:75-83`. -/
def pairError (n : Nat) (b : Nat → Nat → K) (normSq : K) (i j : Nat) : K :=
  let e := accum n (fun k => b i k * b j k) 0
  |if i = j then e - normSq else e|

/-- `maxBasisError`, `FieldBasisConverter.tpp:64-90`. -/
def maxBasisError (n : Nat) (b : Nat → Nat → K) (normSq : K) : Res K :=
  if 1 < n ∧ 0 < normSq then
    .ok <| (List.range n).foldl (fun m i =>
      (List.range (i + 1)).foldl (fun m j =>
        let e := pairError n b normSq i j
        if e > m then e else m) m) 0
  else .throw

/-- The checks of the arguments, `FieldBasisConverter.tpp:101-111` and `149-159`. -/
def sizesOk (n : Nat) (inp out : List (List K)) : Bool :=
  decide (1 < n) && decide (inp.length = n) && decide (out.length = n) &&
    inp.all (fun f => decide (f.length = (inp.headD []).length)) &&
    out.all (fun f => decide (f.length = (inp.headD []).length))

/-- Value `in[j][k]`. -/
def val (f : List (List K)) (j k : Nat) : K := (f.getD j []).getD k 0

/-- `convertToBasis`, `FieldBasisConverter.tpp:95-137`.  Each output value is initialised to zero
and accumulated over `j`; the loop over mesh points is inside the loop over `j` in the source,
which does not change the order of the additions to one value. -/
def toBasis (n : Nat) (b : Nat → Nat → K) (inp out : List (List K)) (pre : K) :
    Res (List (List K)) :=
  if sizesOk n inp out then
    .ok <| (List.range n).map fun i => (List.range (inp.headD []).length).map fun k =>
      accum n (fun j => b i j * pre * val inp j k) 0
  else .throw

/-- `convertFromBasis`, `FieldBasisConverter.tpp:142-182`. -/
def fromBasis (n : Nat) (b : Nat → Nat → K) (inp out : List (List K)) (pre : K) :
    Res (List (List K)) :=
  if sizesOk n inp out then
    .ok <| (List.range n).map fun i => (List.range (inp.headD []).length).map fun k =>
      accum n (fun j => b j i * pre * val inp j k) 0
  else .throw

end Verif.Field.Conv
