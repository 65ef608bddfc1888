import Verif.Basic
import Verif.Loop
import Mathlib.Analysis.SpecialFunctions.Trigonometric.Inverse

/-!
# Model of `UnitCell<D>`, `replicateUnitCell` and the parameter id conversions

Sources: `/repo/src/prdc/crystal/UnitCellBase.tpp`, `UnitCell1.cpp`, `UnitCell2.cpp`,
`UnitCell3.cpp`, `replicateUnitCell.cpp`, `paramIdConversions.cpp`, `hasVariableAngle.cpp`.

Lattice parameters are real numbers and `cos`, `sin`, `acos`, `sqrt` are the exact real
functions. The array `parameters_` has six elements; the elements beyond `nParameter_` are never
used. A basis is stored as `basis i j`, component `j` of vector `i`.
-/

namespace Verif.Crystal

noncomputable section

abbrev Params := Fin 6 → ℝ
abbrev BasisVecs (D : Nat) := Fin D → Fin D → ℝ

/-- `2.0*Constants::Pi`. -/
def twoPi : ℝ := 2 * Real.pi

/-- Enumeration `UnitCell<D>::LatticeSystem` without `Null` (`UnitCell.h:112, 255, 400`). -/
inductive Lat1 where
  | lamellar
deriving DecidableEq, Repr

inductive Lat2 where
  | square | rectangular | rhombic | hexagonal | oblique
deriving DecidableEq, Repr

inductive Lat3 where
  | cubic | tetragonal | orthorhombic | monoclinic | triclinic | rhombohedral | hexagonal
deriving DecidableEq, Repr

/-- `setNParameter`, `UnitCell1.cpp:28-36`. -/
def Lat1.nParameter : Lat1 → Nat
  | .lamellar => 1

/-- `setNParameter`, `UnitCell2.cpp:25-48`. -/
def Lat2.nParameter : Lat2 → Nat
  | .square => 1
  | .rectangular => 2
  | .rhombic => 2
  | .hexagonal => 1
  | .oblique => 3

/-- `setNParameter`, `UnitCell3.cpp:47-73`. -/
def Lat3.nParameter : Lat3 → Nat
  | .cubic => 1
  | .tetragonal => 2
  | .orthorhombic => 3
  | .monoclinic => 4
  | .triclinic => 6
  | .rhombohedral => 2
  | .hexagonal => 2

/-! ## `setBasis` -/

/-- `rBasis_` set in `UnitCell1.cpp:46`. -/
def Lat1.rBasis (_ : Lat1) (p : Params) : BasisVecs 1 := ![![p 0]]

/-- `kBasis_` set in `UnitCell1.cpp:47`. -/
def Lat1.kBasis (_ : Lat1) (p : Params) : BasisVecs 1 := ![![twoPi / p 0]]

/-- `drBasis_[n]` set in `UnitCell1.cpp:48`. -/
def Lat1.drBasis (_ : Lat1) (_ : Params) (n : Fin 6) : BasisVecs 1 :=
  match n with
  | 0 => ![![1]]
  | _ => 0

/-- `rBasis_` set in `UnitCell2.cpp:53-154`. -/
def Lat2.rBasis (l : Lat2) (p : Params) : BasisVecs 2 :=
  match l with
  | .square => ![![p 0, 0], ![0, p 0]]
  | .rectangular => ![![p 0, 0], ![0, p 1]]
  | .hexagonal => ![![p 0, 0], ![-(1/2) * p 0, 1/2 * √3 * p 0]]
  | .rhombic => ![![p 0, 0], ![Real.cos (p 1) * p 0, Real.sin (p 1) * p 0]]
  | .oblique => ![![p 0, 0], ![Real.cos (p 2) * p 1, Real.sin (p 2) * p 1]]

/-- `kBasis_` set in `UnitCell2.cpp:53-154`. -/
def Lat2.kBasis (l : Lat2) (p : Params) : BasisVecs 2 :=
  match l with
  | .square => ![![twoPi / p 0, 0], ![0, twoPi / p 0]]
  | .rectangular => ![![twoPi / p 0, 0], ![0, twoPi / p 1]]
  | .hexagonal => ![![twoPi / p 0, twoPi / (√3 * p 0)], ![0, twoPi / (1/2 * √3 * p 0)]]
  | .rhombic =>
    ![![twoPi / p 0, -twoPi * Real.cos (p 1) / (Real.sin (p 1) * p 0)],
      ![0, twoPi / (p 0 * Real.sin (p 1))]]
  | .oblique =>
    ![![twoPi / p 0, -twoPi * Real.cos (p 2) / (Real.sin (p 2) * p 0)],
      ![0, twoPi / (p 1 * Real.sin (p 2))]]

/-- `drBasis_[n]` set in `UnitCell2.cpp:53-154` (elements not mentioned are zero). In the oblique
case lines 141-142 are overwritten by lines 143-144, which assign `drBasis_[1]` again. -/
def Lat2.drBasis (l : Lat2) (p : Params) (n : Fin 6) : BasisVecs 2 :=
  match l, n with
  | .square, 0 => ![![1, 0], ![0, 1]]
  | .rectangular, 0 => ![![1, 0], ![0, 0]]
  | .rectangular, 1 => ![![0, 0], ![0, 1]]
  | .hexagonal, 0 => ![![1, 0], ![-(1/2), 1/2 * √3]]
  | .rhombic, 0 => ![![1, 0], ![Real.cos (p 1), Real.sin (p 1)]]
  | .rhombic, 1 => ![![0, 0], ![-Real.sin (p 1) * p 0, Real.cos (p 1) * p 0]]
  | .oblique, 0 => ![![1, 0], ![0, 0]]
  | .oblique, 1 => ![![0, 0], ![-Real.sin (p 2) * p 1, Real.cos (p 2) * p 1]]
  | _, _ => 0

/-- The angle `theta` of the rhombohedral case, `UnitCell3.cpp:152`. -/
def rhTheta (beta : ℝ) : ℝ := Real.arccos (√((2 * Real.cos beta + 1) / 3))

/-- `rBasis_` set in `UnitCell3.cpp:82-342`. -/
def Lat3.rBasis (l : Lat3) (p : Params) : BasisVecs 3 :=
  match l with
  | .cubic => ![![p 0, 0, 0], ![0, p 0, 0], ![0, 0, p 0]]
  | .tetragonal => ![![p 0, 0, 0], ![0, p 0, 0], ![0, 0, p 1]]
  | .orthorhombic => ![![p 0, 0, 0], ![0, p 1, 0], ![0, 0, p 2]]
  | .hexagonal => ![![p 0, 0, 0], ![-(1/2) * p 0, 1/2 * √3 * p 0, 0], ![0, 0, p 1]]
  | .rhombohedral =>
    let cosT := Real.cos (rhTheta (p 1))
    let sinT := Real.sin (rhTheta (p 1))
    let sinPi3 := 1/2 * √3
    let cosPi3 := 1/2
    ![![sinT * p 0, 0, cosT * p 0],
      ![-cosPi3 * sinT * p 0, sinPi3 * sinT * p 0, cosT * p 0],
      ![-cosPi3 * sinT * p 0, -sinPi3 * sinT * p 0, cosT * p 0]]
  | .monoclinic =>
    ![![p 0, 0, 0], ![0, p 1, 0], ![p 2 * Real.cos (p 3), 0, p 2 * Real.sin (p 3)]]
  | .triclinic =>
    ![![p 0, 0, 0],
      ![p 1 * Real.cos (p 5), p 1 * Real.sin (p 5), 0],
      ![p 2 * Real.sin (p 4) * Real.cos (p 3), p 2 * Real.sin (p 4) * Real.sin (p 3),
        p 2 * Real.cos (p 4)]]

/-- `kBasis_` set in `UnitCell3.cpp:82-342`. -/
def Lat3.kBasis (l : Lat3) (p : Params) : BasisVecs 3 :=
  match l with
  | .cubic => ![![twoPi / p 0, 0, 0], ![0, twoPi / p 0, 0], ![0, 0, twoPi / p 0]]
  | .tetragonal => ![![twoPi / p 0, 0, 0], ![0, twoPi / p 0, 0], ![0, 0, twoPi / p 1]]
  | .orthorhombic => ![![twoPi / p 0, 0, 0], ![0, twoPi / p 1, 0], ![0, 0, twoPi / p 2]]
  | .hexagonal =>
    ![![twoPi / p 0, twoPi / (√3 * p 0), 0], ![0, twoPi / (1/2 * √3 * p 0), 0],
      ![0, 0, twoPi / p 1]]
  | .rhombohedral =>
    let cosT := Real.cos (rhTheta (p 1))
    let sinT := Real.sin (rhTheta (p 1))
    let sinPi3 := 1/2 * √3
    let cosPi3 := 1/2
    ![![2 * twoPi / (3 * sinT * p 0), 0, twoPi / (3 * cosT * p 0)],
      ![-2 * cosPi3 * twoPi / (3 * sinT * p 0), 2 * sinPi3 * twoPi / (3 * sinT * p 0),
        twoPi / (3 * cosT * p 0)],
      ![-2 * cosPi3 * twoPi / (3 * sinT * p 0), -2 * sinPi3 * twoPi / (3 * sinT * p 0),
        twoPi / (3 * cosT * p 0)]]
  | .monoclinic =>
    ![![twoPi / p 0, 0, -twoPi * Real.cos (p 3) / (p 0 * Real.sin (p 3))],
      ![0, twoPi / p 1, 0], ![0, 0, twoPi / (p 2 * Real.sin (p 3))]]
  | .triclinic =>
    ![![twoPi / p 0, -twoPi * Real.cos (p 5) / (p 0 * Real.sin (p 5)),
        twoPi * (Real.sin (p 4) *
          (Real.cos (p 5) * Real.sin (p 3) - Real.sin (p 5) * Real.cos (p 3))) /
          (p 0 * Real.sin (p 5) * Real.cos (p 4))],
      ![0, twoPi / (p 1 * Real.sin (p 5)),
        -twoPi * Real.sin (p 3) * Real.sin (p 4) / (p 1 * Real.cos (p 4) * Real.sin (p 5))],
      ![0, 0, twoPi / (p 2 * Real.cos (p 4))]]

/-- `drBasis_[n]` set in `UnitCell3.cpp:82-342` (elements not mentioned are zero). -/
def Lat3.drBasis (l : Lat3) (p : Params) (n : Fin 6) : BasisVecs 3 :=
  match l, n with
  | .cubic, 0 => ![![1, 0, 0], ![0, 1, 0], ![0, 0, 1]]
  | .tetragonal, 0 => ![![1, 0, 0], ![0, 1, 0], ![0, 0, 0]]
  | .tetragonal, 1 => ![![0, 0, 0], ![0, 0, 0], ![0, 0, 1]]
  | .orthorhombic, 0 => ![![1, 0, 0], ![0, 0, 0], ![0, 0, 0]]
  | .orthorhombic, 1 => ![![0, 0, 0], ![0, 1, 0], ![0, 0, 0]]
  | .orthorhombic, 2 => ![![0, 0, 0], ![0, 0, 0], ![0, 0, 1]]
  | .hexagonal, 0 => ![![1, 0, 0], ![-(1/2), 1/2 * √3, 0], ![0, 0, 0]]
  | .hexagonal, 1 => ![![0, 0, 0], ![0, 0, 0], ![0, 0, 1]]
  | .rhombohedral, 0 =>
    let cosT := Real.cos (rhTheta (p 1))
    let sinT := Real.sin (rhTheta (p 1))
    let sinPi3 := 1/2 * √3
    let cosPi3 := 1/2
    ![![sinT, 0, cosT], ![-cosPi3 * sinT, sinPi3 * sinT, cosT],
      ![-cosPi3 * sinT, -sinPi3 * sinT, cosT]]
  | .rhombohedral, 1 =>
    let cosT := Real.cos (rhTheta (p 1))
    let sinT := Real.sin (rhTheta (p 1))
    let sinPi3 := 1/2 * √3
    let cosPi3 := 1/2
    let alpha := -Real.sin (p 1) / (3 * cosT * sinT)
    ![![cosT * alpha * p 0, 0, -sinT * alpha * p 0],
      ![-cosPi3 * cosT * alpha * p 0, sinPi3 * cosT * alpha * p 0, -sinT * alpha * p 0],
      ![-cosPi3 * cosT * alpha * p 0, -sinPi3 * cosT * alpha * p 0, -sinT * alpha * p 0]]
  | .monoclinic, 0 => ![![1, 0, 0], ![0, 0, 0], ![0, 0, 0]]
  | .monoclinic, 1 => ![![0, 0, 0], ![0, 1, 0], ![0, 0, 0]]
  | .monoclinic, 2 => ![![0, 0, 0], ![0, 0, 0], ![Real.cos (p 3), 0, Real.sin (p 3)]]
  | .monoclinic, 3 =>
    ![![0, 0, 0], ![0, 0, 0], ![p 2 * Real.sin (p 3), 0, -p 2 * Real.cos (p 3)]]
  | .triclinic, 0 => ![![1, 0, 0], ![0, 0, 0], ![0, 0, 0]]
  | .triclinic, 1 => ![![0, 0, 0], ![Real.cos (p 5), Real.sin (p 5), 0], ![0, 0, 0]]
  | .triclinic, 2 =>
    ![![0, 0, 0], ![0, 0, 0],
      ![Real.sin (p 4) * Real.cos (p 3), Real.sin (p 4) * Real.sin (p 3), Real.cos (p 4)]]
  | .triclinic, 3 =>
    ![![0, 0, 0], ![0, 0, 0],
      ![-p 2 * Real.sin (p 4) * Real.sin (p 3), p 2 * Real.sin (p 4) * Real.cos (p 3), 0]]
  | .triclinic, 4 =>
    ![![0, 0, 0], ![0, 0, 0],
      ![p 2 * Real.cos (p 4) * Real.cos (p 3), p 2 * Real.cos (p 4) * Real.sin (p 3),
        -p 2 * Real.sin (p 4)]]
  | .triclinic, 5 =>
    ![![0, 0, 0], ![-p 1 * Real.sin (p 5), p 1 * Real.cos (p 5), 0], ![0, 0, 0]]
  | _, _ => 0

/-! ## Quantities computed from the bases -/

/-- `volume()`, `UnitCell1.cpp:101-104`. -/
def volume1 (r : BasisVecs 1) : ℝ := r 0 0

/-- `volume()`, `UnitCell2.cpp:206-212`. -/
def volume2 (r : BasisVecs 2) : ℝ := 0 + r 0 0 * r 1 1 - r 0 1 * r 1 0

/-- `volume()`, `UnitCell3.cpp:375-385`. -/
def volume3 (r : BasisVecs 3) : ℝ :=
  0 + r 0 0 * r 1 1 * r 2 2 - r 0 0 * r 1 2 * r 2 1 + r 0 1 * r 1 2 * r 2 0
    - r 0 1 * r 1 0 * r 2 2 + r 0 2 * r 1 0 * r 2 1 - r 0 2 * r 1 1 * r 2 0

/-- `dkBasis_[p]`, `UnitCellBase.tpp:158-173`, from `kBasis_` and `drBasis_[p]`. -/
def dkBasis {D : Nat} (k dr : BasisVecs D) : BasisVecs D := fun q r =>
  accum D (fun s => accum D (fun t => -(k q s * dr t s * k t r)) 0) 0 / twoPi

/-- `drrBasis_[p]`, `UnitCellBase.tpp:176-188`. -/
def drrBasis {D : Nat} (r dr : BasisVecs D) : BasisVecs D := fun q t =>
  accum D (fun s => r q s * dr t s + r t s * dr q s) 0

/-- `dkkBasis_[p]`, `UnitCellBase.tpp:176-188`. -/
def dkkBasis {D : Nat} (k dk : BasisVecs D) : BasisVecs D := fun q r =>
  accum D (fun s => k q s * dk r s + k r s * dk q s) 0

/-- `ksq`, `UnitCellBase.tpp:71-84`. -/
def ksq {D : Nat} (k : BasisVecs D) (G : Fin D → Int) : ℝ :=
  let g : Fin D → ℝ := fun j => accum D (fun i => k i j * (G i : ℝ)) 0
  accum D (fun j => g j * g j) 0

/-- `dksq`, `UnitCellBase.tpp:90-103`, from `kBasis_` and `drBasis_[n]`. -/
def dksq {D : Nat} (k dr : BasisVecs D) (G : Fin D → Int) : ℝ :=
  accum D (fun p => accum D (fun q => (G p : ℝ) * (G q : ℝ) * dkkBasis k (dkBasis k dr) p q) 0) 0

/-! ## Replication -/

/-- A unit cell: lattice system and parameters. -/
abbrev Cell (L : Type) := L × Params

/-- `replicateUnitCell<1>`, `replicateUnitCell.cpp:22-46`: lattice and parameters of the new
cell. Elements of `param` that are not assigned are written as 0; they are not used. -/
def replicate1 (n : Fin 1 → Int) (c : Cell Lat1) : Res (Cell Lat1) :=
  match c.1 with
  | .lamellar => .ok (.lamellar, ![(n 0 : ℝ) * c.2 0, 0, 0, 0, 0, 0])

/-- `replicateUnitCell<2>`, `replicateUnitCell.cpp:51-127`. -/
def replicate2 (n : Fin 2 → Int) (c : Cell Lat2) : Res (Cell Lat2) :=
  let p := c.2
  match c.1 with
  | .square =>
    if n 0 = n 1 then .ok (.square, ![(n 0 : ℝ) * p 0, 0, 0, 0, 0, 0])
    else .ok (.rectangular, ![(n 0 : ℝ) * p 0, (n 1 : ℝ) * p 0, 0, 0, 0, 0])
  | .rectangular => .ok (.rectangular, ![(n 0 : ℝ) * p 0, (n 1 : ℝ) * p 1, 0, 0, 0, 0])
  | .hexagonal =>
    if n 0 = n 1 then .ok (.hexagonal, ![(n 0 : ℝ) * p 0, 0, 0, 0, 0, 0]) else .throw
  | .rhombic =>
    if n 0 = n 1 then .ok (.rhombic, ![(n 0 : ℝ) * p 0, p 1, 0, 0, 0, 0])
    else .ok (.oblique, ![(n 0 : ℝ) * p 0, (n 1 : ℝ) * p 0, p 1, 0, 0, 0])
  | .oblique => .ok (.oblique, ![(n 0 : ℝ) * p 0, (n 1 : ℝ) * p 1, p 2, 0, 0, 0])

/-- `replicateUnitCell<3>`, `replicateUnitCell.cpp:132-241`. -/
def replicate3 (n : Fin 3 → Int) (c : Cell Lat3) : Res (Cell Lat3) :=
  let p := c.2
  match c.1 with
  | .cubic =>
    if n 0 = n 1 then
      if n 1 = n 2 then .ok (.cubic, ![(n 0 : ℝ) * p 0, 0, 0, 0, 0, 0])
      else .ok (.tetragonal, ![(n 0 : ℝ) * p 0, (n 2 : ℝ) * p 0, 0, 0, 0, 0])
    else .ok (.orthorhombic,
      ![(n 0 : ℝ) * p 0, (n 1 : ℝ) * p 0, (n 2 : ℝ) * p 0, 0, 0, 0])
  | .tetragonal =>
    if n 0 = n 1 then .ok (.tetragonal, ![(n 0 : ℝ) * p 0, (n 2 : ℝ) * p 1, 0, 0, 0, 0])
    else .ok (.orthorhombic,
      ![(n 0 : ℝ) * p 0, (n 1 : ℝ) * p 0, (n 2 : ℝ) * p 1, 0, 0, 0])
  | .orthorhombic =>
    .ok (.orthorhombic, ![(n 0 : ℝ) * p 0, (n 1 : ℝ) * p 1, (n 2 : ℝ) * p 2, 0, 0, 0])
  | .monoclinic =>
    .ok (.monoclinic, ![(n 0 : ℝ) * p 0, (n 1 : ℝ) * p 1, (n 2 : ℝ) * p 2, p 3, 0, 0])
  | .triclinic =>
    .ok (.triclinic, ![(n 0 : ℝ) * p 0, (n 1 : ℝ) * p 1, (n 2 : ℝ) * p 2, p 3, p 4, p 5])
  | .rhombohedral =>
    if n 0 = n 1 ∧ n 1 = n 2 then
      .ok (.rhombohedral, ![(n 0 : ℝ) * p 0, p 1, 0, 0, 0, 0])
    else .throw
  | .hexagonal =>
    if n 0 = n 1 then .ok (.hexagonal, ![(n 0 : ℝ) * p 0, (n 2 : ℝ) * p 1, 0, 0, 0, 0])
    else .throw

/-- Lattice system check of `cellOut.set(lattice)` (`UnitCell2.cpp:178-187`): `prev` is the
lattice of `cellOut` before the call, `none` for `Null`. -/
def setLattice {L : Type} [DecidableEq L] (prev : Option L) (c : Cell L) : Res (Cell L) :=
  match prev with
  | none => .ok c
  | some l => if c.1 = l then .ok c else .throw

/-! ## Parameter ids -/

/-- `convertFullParamIdToReduced<1>`, `paramIdConversions.cpp:13-20`. -/
def Lat1.fullToReduced (_ : Lat1) (f : Int) : Res Int := if f = 0 then .ok 0 else .throw

/-- `convertFullParamIdToReduced<2>`, `paramIdConversions.cpp:22-47`. -/
def Lat2.fullToReduced (l : Lat2) (f : Int) : Res Int :=
  if ¬ (f > -1 ∧ f < 3) then .throw
  else if f = 0 then .ok 0
  else if f = 1 then if l = .rectangular ∨ l = .oblique then .ok 1 else .ok 0
  else if l = .oblique then .ok 2 else if l = .rhombic then .ok 1 else .ok (-1)

/-- `convertFullParamIdToReduced<3>`, `paramIdConversions.cpp:49-94`. -/
def Lat3.fullToReduced (l : Lat3) (f : Int) : Res Int :=
  if ¬ (f > -1 ∧ f < 6) then .throw
  else if f = 0 then .ok 0
  else if f = 1 then
    if l = .orthorhombic ∨ l = .monoclinic ∨ l = .triclinic then .ok 1 else .ok 0
  else if f = 2 then
    if l = .cubic ∨ l = .rhombohedral then .ok 0
    else if l = .tetragonal ∨ l = .hexagonal then .ok 1 else .ok 2
  else if f = 3 ∨ f = 5 then
    if l = .triclinic then .ok f else if l = .rhombohedral then .ok 1 else .ok (-1)
  else
    if l = .triclinic then .ok f else if l = .monoclinic then .ok 3
    else if l = .rhombohedral then .ok 1 else .ok (-1)

/-- `convertReducedParamIdToFull<1>`, `paramIdConversions.cpp:96-103`. -/
def Lat1.reducedToFull (_ : Lat1) (r : Int) : Res Int := if r = 0 then .ok 0 else .throw

/-- `convertReducedParamIdToFull<2>`, `paramIdConversions.cpp:105-128`. -/
def Lat2.reducedToFull (l : Lat2) (r : Int) : Res Int :=
  if ¬ r > -1 then .throw
  else if l = .square ∨ l = .hexagonal then if r = 0 then .ok r else .throw
  else if l = .rectangular then if r < 2 then .ok r else .throw
  else if l = .rhombic then
    if r < 2 then (if r = 0 then .ok 0 else .ok 2) else .throw
  else if r < 3 then .ok r else .throw

/-- `convertReducedParamIdToFull<3>`, `paramIdConversions.cpp:130-167`. -/
def Lat3.reducedToFull (l : Lat3) (r : Int) : Res Int :=
  if ¬ r > -1 then .throw
  else if l = .cubic then if r = 0 then .ok r else .throw
  else if l = .hexagonal ∨ l = .tetragonal then
    if r < 2 then (if r = 0 then .ok 0 else .ok 2) else .throw
  else if l = .rhombohedral then
    if r < 2 then (if r = 0 then .ok 0 else .ok 3) else .throw
  else if l = .orthorhombic then if r < 3 then .ok r else .throw
  else if l = .monoclinic then
    if r < 4 then (if r < 3 then .ok r else .ok 4) else .throw
  else if r < 6 then .ok r else .throw

/-- `hasVariableAngle<2>`, `hasVariableAngle.cpp:17-27`. -/
def Lat2.hasVariableAngle (l : Lat2) : Bool := decide (l = .oblique) || decide (l = .rhombic)

/-- `hasVariableAngle<3>`, `hasVariableAngle.cpp:29-40`. -/
def Lat3.hasVariableAngle (l : Lat3) : Bool :=
  decide (l = .monoclinic) || decide (l = .triclinic) || decide (l = .rhombohedral)

end

end Verif.Crystal
