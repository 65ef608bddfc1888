import Verif.Crystal.CellModel
import Verif.Mesh.Model

/-!
# Model of `shiftToMinimum`

Source: `/repo/src/prdc/crystal/shiftToMinimum.cpp`.
-/

namespace Verif.Crystal

/-- `IntVec<D>::operator <` on vectors stored as functions (`IntVec.h:196-209`). -/
def ivLt {D : Nat} (u v : Fin D → Int) : Bool := Mesh.vecLt (List.ofFn u) (List.ofFn v)

/-- Order in which the nested loops `for s0, for s1, ...` with `-2 ≤ s ≤ 2` visit the image
shifts, `shiftToMinimum.cpp:49-53, 82-88`. -/
def imageShifts : (D : Nat) → List (Fin D → Int)
  | 0 => [fun i => i.elim0]
  | D + 1 => ([-2, -1, 0, 1, 2] : List Int).flatMap fun s => (imageShifts D).map fun t => Fin.cons s t

/-- `u[i] = v[i] + s_i*d[i]`. -/
def image {D : Nat} (v d s : Fin D → Int) : Fin D → Int := fun i => v i + s i * d i

/-- Local variables `Gsq_min_lo`, `Gsq_min_hi`, `r`. -/
structure MinState (D : Nat) where
  lo : ℝ
  hi : ℝ
  r : Fin D → Int

noncomputable section
open Classical in
/-- Body of the innermost loop, `shiftToMinimum.cpp:54-61, 89-96`; `f` is `cell.ksq`. -/
def minStep {D : Nat} (f : (Fin D → Int) → ℝ) (eps : ℝ) (st : MinState D) (u : Fin D → Int) :
    MinState D :=
  let Gsq := f u
  if Gsq < st.hi then
    if Gsq < st.lo ∨ ivLt st.r u = true then { lo := Gsq - eps, hi := Gsq + eps, r := u } else st
  else st

/-- The loops, `shiftToMinimum.cpp:35-65, 68-101`, for any `f`, tolerance and dimension. -/
def minImage {D : Nat} (f : (Fin D → Int) → ℝ) (eps : ℝ) (v d : Fin D → Int) : Fin D → Int :=
  (((imageShifts D).map (image v d)).foldl (minStep f eps)
    { lo := f v - eps, hi := f v + eps, r := v }).r

/-- `shiftToMinimum<1>`, `shiftToMinimum.cpp:17-32` (`UTIL_ASSERT` is inactive). -/
def minImage1 (v d : Int) : Int :=
  if v > d.tdiv 2 then v - d else if v < -(d.tdiv 2) then v + d else v

/-- `shiftToMinimum<D>` for `D = 1, 2, 3`, `kB` the reciprocal basis of the cell. -/
def shiftToMinimum : {D : Nat} → (kB : BasisVecs D) → (v d : Fin D → Int) → Fin D → Int
  | 1, _, v, d => fun _ => minImage1 (v 0) (d 0)
  | _, kB, v, d => minImage (ksq kB) (1 / 100000000) v d

end
end Verif.Crystal
