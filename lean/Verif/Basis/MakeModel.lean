import Verif.Basis.Model
import Verif.Basis.StarNorm

/-!
# Model of `Basis<D>::makeBasis` as a whole

Source: `/repo/src/prdc/crystal/Basis.tpp:77-151, 357-932`, `TWave.h`.  The pieces are those of
`StarModel.lean` (stars of a list of waves of equal norm), `StarNorm.lean` (coefficients) and
`Model.lean` (`finish`: the last loops of `makeStars` and `isValid`); this file joins them.
Simplified: exact arithmetic (see the headers of those files), `group.checkMeshDimensions` is a
hypothesis of the theorems (`C76_groupOn_of_checks`).
-/

set_option autoImplicit false

namespace Verif.Make
open Verif.Stars (TWave StarEnv StarRec negSh)
open Verif.Basis (Wave Star BasisData Cell)

variable {D : Nat}
noncomputable section

/-! ## `makeWaves` -/

/-- An `IntVec<D>` as a function. -/
def vecFn (v : Mesh.IntVec) : Fin D → Int := fun i => v.getD i.val 0

/-- The array `twaves` before sorting, `Basis.tpp:121-138`: the loop over the mesh. -/
def meshWaves (E : StarEnv D) (mesh : Mesh.Mesh) : List (TWave D) :=
  (List.range mesh.size.toNat).map fun r : Nat =>
    let v : Fin D → Int := vecFn (mesh.position (r : Int))
    { phase := 0, dft := v, bz := E.minIm v }

/-- `makeWaves`, `Basis.tpp:121-151`: an array that `std::sort` with `TWaveNormComp` may leave.
The order of waves of equal norm is not specified, so this is a relation. -/
structure SortedWaves (E : StarEnv D) (mesh : Mesh.Mesh) (ws : List (TWave D)) : Prop where
  perm : ws.Perm (meshWaves E mesh)
  sorted : ws.Pairwise fun a b => E.ksq a.bz ≤ E.ksq b.bz

/-! ## `makeStars` -/

/-- Lists of waves of equal norm, `Basis.tpp:357-377`: `cur` is the list being collected and
`gmax` is `Gsq_max`. -/
def groups (E : StarEnv D) : (ws cur : List (TWave D)) → (gmax : ℚ) → List (List (TWave D))
  | [], cur, _ => [cur]
  | w :: ws, cur, gmax =>
    if E.ksq w.bz > gmax + E.epsilon then cur :: groups E ws [w] (E.ksq w.bz)
    else groups E ws (cur ++ [w]) gmax

/-- The lists of the array of waves; `waves_[0]` begins the first list. -/
def waveLists (E : StarEnv D) : List (TWave D) → List (List (TWave D))
  | [] => []
  | w :: ws => groups E ws [w] (E.ksq w.bz)

/-- `TWaveDftComp`, `TWave.h`: `<` on `indicesDft` (the order of `std::set`). -/
def dftLe (a b : TWave D) : Bool := !Mesh.vecGt (List.ofFn a.dft) (List.ofFn b.dft)

/-- `TWaveBzComp`, `TWave.h`: `>` on `indicesBz`. -/
def bzGe (a b : TWave D) : Bool := !Mesh.vecGt (List.ofFn b.bz) (List.ofFn a.bz)

/-- `std::sort(tempStar.begin(), tempStar.end(), waveBzComp)`, `Basis.tpp:503-505`. -/
def sortBz (l : List (TWave D)) : List (TWave D) := l.mergeSort bzGe

/-- Stars of all lists, `Basis.tpp:379-644`.  The number of turns of the loop over stars is bounded
by the number of waves (`C76_loop_terminates`), `none` is not reached. -/
def starLists (E : StarEnv D) : List (List (TWave D)) → Res (List (StarRec D))
  | [] => .ok []
  | l :: ls =>
    match Stars.starLoop E l.length (l.mergeSort dftLe) none with
    | none => .ub
    | some r => do
      let a ← r
      let b ← starLists E ls
      pure (a ++ b)

/-- The loop over stars that sets phases, with the normalisation, `Basis.tpp:669-881`. -/
def phases (csqrt : ℂ → ℂ) (d : Fin D → Int) : List (StarRec D) →
    Res (List (StarRec D × List (TWave D × ℂ)))
  | [] => .ok []
  | s :: rest =>
    if s.invertFlag = 0 then do
      let cs ← Stars.closedCoefs csqrt d (sortBz s.waves) s.cancel
      let r ← phases csqrt d rest
      pure ((s, cs) :: r)
    else
      match rest with
      | [] => .ub
      | u :: rest' => do
        let p ← Stars.openCoefs d (sortBz s.waves) (sortBz u.waves) s.cancel u.cancel
        let r ← phases csqrt d rest'
        pure ((s, p.1) :: (u, p.2) :: r)

/-- Waves of all stars in the order of the array, with the index of the star. -/
def flat (L : List (StarRec D × List (TWave D × ℂ))) : List (Nat × StarRec D × TWave D × ℂ) :=
  L.zipIdx.flatMap fun p => p.1.2.map fun c => (p.2, p.1.1, c)

/-- `inverseId`, `Basis.tpp:675-723, 788-829`: index of the wave whose DFT indices are those of the
inverse.  Simplified: searched for in the whole array (that it belongs to the right star is tested
by `isValid`). -/
def inverseIdx (d : Fin D → Int) (F : List (Nat × StarRec D × TWave D × ℂ)) (bz : Fin D → Int) : Int :=
  match F.findIdx? fun x => decide (x.2.2.1.dft = negSh d bz) with
  | none => -1
  | some i => i

/-- A wave of the array `waves_`, `Basis.tpp:618-635, 876-880`; `sqNorm` is that of the root of the
star (`Basis.tpp:417, 433`). -/
def toWave (E : StarEnv D) (F : List (Nat × StarRec D × TWave D × ℂ)) (x : Nat × StarRec D × TWave D × ℂ) :
    Wave ℝ where
  coeff := ⟨x.2.2.2.re, x.2.2.2.im⟩
  sqNorm := (E.ksq x.2.1.root.bz : ℝ)
  dft := List.ofFn x.2.2.1.dft
  bz := List.ofFn x.2.2.1.bz
  starId := x.1
  inverseId := inverseIdx E.dims F x.2.2.1.bz
  implicit := false

/-- The array `stars_`, `Basis.tpp:522-528, 536, 566, 575, 609-610, 729, 834, 839`.  `prev` is the first wave of
the preceding star. -/
def mkStars (d : Fin D → Int) : Nat → (prev : Option (TWave D)) →
    List (StarRec D × List (TWave D × ℂ)) → List Star
  | _, _, [] => []
  | b, prev, x :: rest =>
    let first := x.2.head?.map Prod.fst
    let root := if x.1.invertFlag = -1 then
        prev.bind fun w => (x.2.find? fun c => decide (c.1.dft = negSh d w.bz)).map Prod.fst
      else first
    { size := x.2.length, beginId := b, endId := b + x.2.length, invertFlag := x.1.invertFlag,
      waveBz := (root.map fun w => List.ofFn w.bz).getD [], starId := 0, basisId := -1,
      cancel := x.1.cancel } :: mkStars d (b + x.2.length) first rest

/-- Arrays before the last loops of `makeStars`. -/
def assemble (E : StarEnv D) (L : List (StarRec D × List (TWave D × ℂ))) : BasisData ℝ where
  dims := List.ofFn E.dims
  waves := (flat L).map (toWave E (flat L))
  waveIds := List.replicate (flat L).length 0
  stars := mkStars E.dims 0 none L
  starIds := []
  nBasis := (L.filter fun x => !x.1.cancel).length

/-- The unit cell as seen by `isValid`. -/
def cellOf (E : StarEnv D) : Cell ℝ where
  ksq := fun v => (E.ksq (vecFn v) : ℝ)
  minIm := fun v => List.ofFn (E.minIm (vecFn v))

/-- `makeBasis`, `Basis.tpp:77-111`, after `makeWaves` left the array `ws`. -/
def makeBasis (E : StarEnv D) (csqrt : ℂ → ℂ) (ws : List (TWave D)) : Res (BasisData ℝ) := do
  let recs ← starLists E (waveLists E ws)
  let L ← phases csqrt E.dims recs
  Basis.finish (cellOf E) (E.epsilon : ℝ) (assemble E L)

end
end Verif.Make
