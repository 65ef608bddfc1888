import Verif.Basic
import Verif.Crystal.CellModel
import Verif.Crystal.SymModel
import Mathlib.Analysis.SpecialFunctions.Trigonometric.DerivHyp

/-!
Model of the thin film environment: the generators of the mask and of the external fields
(`prdc/environment/FilmFieldGenMaskBase.*`, `FilmFieldGenExtBase.tpp`,
`rpc/environment/FilmFieldGenMask.tpp`, `FilmFieldGenExt.tpp`) and of the composite environment
(`pscf/environment/MixAndMatchEnvTmpl.tpp`, `EnvironmentBase.h`).

Doubles are real numbers.  Parsing of the parameter file is represented by the values read.
-/

set_option autoImplicit false
set_option linter.unusedSectionVars false

namespace Verif.Film

open Verif Verif.Crystal

noncomputable section

/-! ## Parameters -/

/-- Members read by `FilmFieldGenMaskBase::readParameters`. -/
structure Par where
  normalVecId : Int
  interfaceThickness : ℝ
  excludedThickness : ℝ
  fBulk : Option ℝ

open Classical in
/-- The checks in `FilmFieldGenMaskBase::readParameters`, `FilmFieldGenMaskBase.tpp:61-70`, and
`FilmFieldGenExtBase::readParameters`, `FilmFieldGenExtBase.tpp:63-72`. -/
def readPar (D : Nat) (p : Par) : Res Par :=
  if p.normalVecId > D ∨ p.normalVecId < 0 then .throw
  else if p.interfaceThickness > p.excludedThickness then .throw
  else if p.excludedThickness ≤ 0 ∨ p.interfaceThickness ≤ 0 then .throw
  else .ok p

/-! ## Mask -/

/-- Wall volume fraction at distance `d` along the normal of a cell of length `L`,
`FilmFieldGenMask.tpp:255-256`. -/
def wallFraction (L e t d : ℝ) : ℝ :=
  0.5 * (1 + Real.tanh (4 * (((0.5 * (e - L)) + |d - L / 2|) / t)))

/-- The vector `dim` of three mesh dimensions, padded with ones,
`FilmFieldGenMask.tpp:224-233`. -/
def dim3 (dims : List Nat) (i : Nat) : Nat := dims.getD i 1

/-- The three nested loops over the mesh, in which `counter` runs through the elements of the
array in order, `FilmFieldGenMask.tpp:243-260`. -/
def meshLoop {α : Type} (d : Nat → Nat) (f : Nat → Nat → Nat → α) : List α :=
  (List.range (d 0)).flatMap fun x =>
    (List.range (d 1)).flatMap fun y =>
      (List.range (d 2)).map fun z => f x y z

/-- `coords[i]` for an index `i < 3`. -/
def coord (x y z : Nat) (i : Nat) : Nat := if i = 0 then x else if i = 1 then y else z

open Classical in
/-- The field generated by `FilmFieldGenMask<D>::compute`, `FilmFieldGenMask.tpp:209-261`; `L` is
the unit cell parameter of the normal vector.  The check of the basis for symmetric iterators is
left out.  An index outside `coords` is undefined behaviour. -/
def maskField (p : Par) (dims : List Nat) (L : ℝ) : Res (List ℝ) :=
  if ¬ p.interfaceThickness > 0 then .throw
  else if ¬ p.excludedThickness > p.interfaceThickness then .throw
  else if ¬ p.normalVecId ≥ 0 then .throw
  else if 3 ≤ p.normalVecId then .ub
  else
    let n := p.normalVecId.toNat
    .ok (meshLoop (dim3 dims) fun x y z =>
      1 - wallFraction L p.excludedThickness p.interfaceThickness
        ((coord x y z n : ℝ) * L / (dim3 dims n : ℝ)))

/-- Derivative of the mask used in `FilmFieldGenMask<D>::stress`, `FilmFieldGenMask.tpp:104-123`,
and `FilmFieldGenExt<D>::stress`; `d` is a reduced coordinate. -/
def maskDeriv (t maskVal d : ℝ) : ℝ :=
  maskVal * (maskVal - 1) * 8.0 * (|d - 0.5| - 0.5) / t

/-- `FilmFieldGenMask<D>::modifyStress` for the normal parameter,
`FilmFieldGenMask.tpp:193-199`. -/
def modifyStress (stress L e fSys fBulk : ℝ) : ℝ := stress * (L - e) + (fSys - fBulk)

/-! ## External fields -/

/-- One external field generated by `FilmFieldGenExt<D>::compute`, `FilmFieldGenExt.tpp:206-226`,
for one monomer type, from the mask; `n` is the normal index. -/
def extField (dims : List Nat) (n : Nat) (chiBottom chiTop : ℝ) (mask : Nat → ℝ) : List ℝ :=
  meshLoop (dim3 dims) fun x y z =>
    let r := mask ((x * dim3 dims 1 + y) * dim3 dims 2 + z)
    if coord x y z n < dim3 dims n / 2 then (1.0 - r) * chiBottom else (1.0 - r) * chiTop

/-! ## Compatibility with the space group -/

/-- Element `R(nv, j)` of a rotation matrix; an index outside the matrix is undefined
behaviour. -/
def rowElem {D : Nat} (g : Sym D) (nv : Int) (j : Fin D) : Res Int :=
  if h : 0 ≤ nv ∧ nv < D then .ok (g.R ⟨nv.toNat, by omega⟩ j) else .ub

/-- Inner loop of `checkSpaceGroup` over the columns, `FilmFieldGenMaskBase.tpp:136-147`
(`allowNeg`) and `FilmFieldGenExtBase.tpp:142-153` (`¬ allowNeg`). -/
def checkRow {D : Nat} (allowNeg : Bool) (g : Sym D) (nv : Int) : List (Fin D) → Res Unit
  | [] => .ok ()
  | j :: js =>
    (rowElem g nv j).bind fun r =>
      if (j.val : Int) = nv then
        if r = 1 ∨ (allowNeg = true ∧ r = -1) then checkRow allowNeg g nv js else .throw
      else if r ≠ 0 then .throw else checkRow allowNeg g nv js

/-- Loop of `checkSpaceGroup` over the operations, `FilmFieldGenMaskBase.tpp:135-151`, and of
`FilmFieldGenExtBase<D>::checkCompatibility`, `FilmFieldGenExtBase.tpp:141-157`. -/
def checkGroup {D : Nat} (allowNeg : Bool) (nv : Int) : List (Sym D) → Res Unit
  | [] => .ok ()
  | g :: gs =>
    (checkRow allowNeg g nv (List.finRange D)).bind fun _ =>
      if h : 0 ≤ nv ∧ nv < D then
        if g.t ⟨nv.toNat, by omega⟩ ≠ 0 then .throw else checkGroup allowNeg nv gs
      else .ub

/-! ## Compatibility with the lattice -/

/-- `dot(a, b)` of two lattice vectors. -/
def dotv {D : Nat} (r : BasisVecs D) (i j : Fin D) : ℝ := ∑ k, r i k * r j k

open Classical in
/-- `checkLatticeVectors` in two dimensions, `FilmFieldGenMaskBase.cpp:33-43`. -/
def checkVectors2 (r : BasisVecs 2) : Res Unit :=
  if dotv r 0 1 > 1e-8 then .throw else .ok ()

open Classical in
/-- `checkLatticeVectors` in three dimensions, `FilmFieldGenMaskBase.cpp:51-77`. -/
def checkVectors3 (n : Int) (r : BasisVecs 3) : Res Unit :=
  let gamma := dotv r 0 1
  let beta := dotv r 0 2
  let alpha := dotv r 1 2
  if n = 0 then
    if beta > 1e-8 ∨ gamma > 1e-8 then .throw else .ok ()
  else if n = 1 then
    if alpha > 1e-8 ∨ gamma > 1e-8 then .throw else .ok ()
  else if alpha > 1e-8 ∨ beta > 1e-8 then .throw else .ok ()

/-- Assignment `updated[i] = false`. -/
def setFalse (f : Nat → Bool) (i : Int) : Nat → Bool :=
  fun j => if (j : Int) = i then false else f j

/-- `modifyFlexibleParams` in one dimension, `FilmFieldGenMaskBase.cpp:85-106`; `size` is
`current.size()`. -/
def flexible1 (l : Lat1) (hasFBulk : Bool) (size : Nat) (cur : Nat → Bool) : Res (Nat → Bool) :=
  if size ≠ l.nParameter then .throw
  else if cur 0 ∧ ¬ hasFBulk then .ok (setFalse cur 0) else .ok cur

/-- `modifyFlexibleParams` in two dimensions, `FilmFieldGenMaskBase.cpp:111-162`.  A negative
reduced index is an access out of range. -/
def flexible2 (l : Lat2) (n : Int) (hasFBulk : Bool) (size : Nat) (cur : Nat → Bool) :
    Res (Nat → Bool) :=
  if size ≠ l.nParameter then .throw
  else
    let u := if l = .rhombic then setFalse cur 1 else cur
    let u := if l = .oblique then setFalse u 2 else u
    if hasFBulk then .ok u
    else (l.fullToReduced n).bind fun i => if i < 0 then .ub else .ok (setFalse u i)

/-- `modifyFlexibleParams` in three dimensions, `FilmFieldGenMaskBase.cpp:163-234`. -/
def flexible3 (l : Lat3) (n : Int) (hasFBulk : Bool) (size : Nat) (cur : Nat → Bool) :
    Res (Nat → Bool) :=
  if size ≠ l.nParameter then .throw
  else if l = .rhombohedral then .throw
  else
    let u : Nat → Bool :=
      if l = .monoclinic then (if n ≠ 1 then setFalse cur 3 else cur)
      else if l = .triclinic then
        fun j => if (j : Int) = n + 3 then cur j
          else setFalse (setFalse (setFalse cur 3) 4) 5 j
      else cur
    if hasFBulk then .ok u
    else (l.fullToReduced n).bind fun i => if i < 0 then .ub else .ok (setFalse u i)

end

/-! ## Mix-and-match environments -/

/-- `FieldGeneratorBase::Type`. -/
inductive GenType where
  | mask | external | none
deriving DecidableEq, Repr

/-- A field generator as seen by `readParameters`: its type, whether it is dependent, and
whether reading its own block succeeds. -/
structure Gen where
  type : GenType
  isDependent : Bool
  readable : Bool
deriving DecidableEq, Repr

/-- `MixAndMatchEnvTmpl::readParameters`, `MixAndMatchEnvTmpl.tpp:46-116`: the two flags passed to
`setGenerateBools`.  The second branch of the test of the first generator repeats the condition
of the first branch, as in the source. -/
def readEnv (g1 g2 : Option Gen) : Res (Bool × Bool) :=
  match g1 with
  | .none => .throw
  | .some g1 =>
    if g1.isDependent then .throw
    else if !g1.readable then .throw
    else
      (if g1.type = .mask then Res.ok (true, false)
       else if g1.type = .mask then Res.ok (false, true)
       else Res.throw).bind fun b =>
        match g2 with
        | .none => .ok b
        | .some g2 =>
          if g2.type = .external then
            if g1.type = .mask then
              if g2.readable then .ok (b.1, true) else .throw
            else .throw
          else if g2.type = .mask then
            if g1.type = .external then
              if g2.readable then .ok (true, b.2) else .throw
            else .throw
          else .throw

/-- The functions that the film generators evaluate: the mask as a function of the normal
vector, the external fields as functions of the two wall interactions and the mask, the athermal
test, and the outcomes of the two compatibility checks. -/
structure FilmFns (V X M H : Type) where
  maskOf : V → M
  hOf : X → X → M → H
  athermal : X → X → Bool
  maskCompatible : V → Bool
  extCompatible : X → X → Bool

/-- A film environment in its system: current normal vector and wall interactions, the fields
of the system, and the members of the generators. -/
structure EnvState (V X M H : Type) where
  normal : V
  chiBottom : X
  chiTop : X
  mask : Option M
  h : Option H
  normalCurrent : V
  extCurrent : Option (X × X × V)
  needsUpdate : Bool

variable {V X M H : Type} [Zero V] [DecidableEq V] [DecidableEq X]

/-- State after construction and `readParameters`: `normalVecCurrent_` is zero
(`FilmFieldGenMaskBase.tpp:36`), `chiBottomCurrent_` and `chiTopCurrent_` are not allocated. -/
def EnvState.init (normal : V) (cb ct : X) : EnvState V X M H where
  normal := normal
  chiBottom := cb
  chiTop := ct
  mask := none
  h := none
  normalCurrent := 0
  extCurrent := none
  needsUpdate := true

/-- `FilmFieldGenMaskBase::needsUpdate`, `FilmFieldGenMaskBase.tpp:77-97`. -/
def EnvState.maskNeeds (s : EnvState V X M H) : Bool :=
  if s.normalCurrent = 0 then true
  else if s.normalCurrent = s.normal then false else true

/-- `FilmFieldGenExtBase::needsUpdate`, `FilmFieldGenExtBase.tpp:88-116`. -/
def EnvState.extNeeds (F : FilmFns V X M H) (s : EnvState V X M H) : Bool :=
  match s.extCurrent with
  | none => true
  | some (cb, ct, v) =>
    if s.chiBottom ≠ cb ∨ s.chiTop ≠ ct then true
    else if F.athermal s.chiBottom s.chiTop then false
    else if v = s.normal then false else true

/-- `FieldGeneratorBase::generate` for the mask, `FieldGeneratorBase.cpp:24-33`, with
`FilmFieldGenMask<D>::compute`; the flag of the result is true if an exception is thrown. -/
def EnvState.genMask (F : FilmFns V X M H) (s : EnvState V X M H) : EnvState V X M H × Bool :=
  if s.maskNeeds then
    if F.maskCompatible s.normal then
      ({ s with mask := some (F.maskOf s.normal), normalCurrent := s.normal }, false)
    else (s, true)
  else (s, false)

/-- `FieldGeneratorBase::generate` for the external fields with
`FilmFieldGenExt<D>::compute`, `FilmFieldGenExt.tpp:155-230`. -/
def EnvState.genExt (F : FilmFns V X M H) (s : EnvState V X M H) : EnvState V X M H × Bool :=
  if s.extNeeds F then
    if F.extCompatible s.chiBottom s.chiTop then
      let s1 := { s with extCurrent := some (s.chiBottom, s.chiTop, s.normal) }
      if F.athermal s.chiBottom s.chiTop then ({ s1 with h := none }, false)
      else match s.mask with
        | none => (s1, true)
        | some m => ({ s1 with h := some (F.hOf s.chiBottom s.chiTop m) }, false)
    else (s, true)
  else (s, false)

/-- `MixAndMatchEnvTmpl::generate`, `MixAndMatchEnvTmpl.tpp:121-130`, for a mask generator
followed by a generator of external fields (`FilmEnvironment.h`). -/
def EnvState.generate (F : FilmFns V X M H) (s : EnvState V X M H) : EnvState V X M H × Bool :=
  if s.needsUpdate then
    let a := s.genMask F
    if a.2 then a
    else
      let b := a.1.genExt F
      if b.2 then b else ({ b.1 with needsUpdate := false }, false)
  else (s, false)

/-- Operations on a system with a film environment: a change of the unit cell
(`SystemTmpl::clearUnitCellData` calls `environment().reset()`, `SystemTmpl.tpp:1018`), a change
of a wall interaction (`MixAndMatchEnvTmpl::setParameter`, `MixAndMatchEnvTmpl.tpp:155-168`) and
`generate`. -/
inductive EnvOp (V X : Type) where
  | setNormal (v : V)
  | setChi (cb ct : X)
  | generate

/-- One operation; an exception leaves the state reached when it is thrown. -/
def EnvState.step (F : FilmFns V X M H) (s : EnvState V X M H) : EnvOp V X → EnvState V X M H
  | .setNormal v => { s with normal := v, needsUpdate := true }
  | .setChi cb ct => { s with chiBottom := cb, chiTop := ct, needsUpdate := true }
  | .generate => (s.generate F).1

end Verif.Film
