import Verif.Basic
import Verif.Cx
import Verif.Mesh.Model
import Verif.FieldIo.Model

/-!
# Model of `Basis<D>`: data, final assignments, validation, conversions, files

Sources: `/repo/src/prdc/crystal/Basis.h`, `Basis.tpp`, `/repo/src/prdc/field/fieldIoUtil.tpp`.
Real numbers are elements of an ordered field `K`; comparisons of `std::abs(z)` with a tolerance
are made on squares.
-/

namespace Verif.Basis
open Verif.Mesh (IntVec Mesh)
open Verif.FieldIo (load store)

variable {K : Type} [Field K] [LinearOrder K]

/-- `Basis<D>::Wave`, `Basis.h:390-471`. -/
structure Wave (K : Type) where
  coeff : Cx K
  sqNorm : K
  dft : IntVec
  bz : IntVec
  starId : Nat
  inverseId : Int
  implicit : Bool
deriving DecidableEq, Repr

/-- `Basis<D>::Star`, `Basis.h:481-594`. -/
structure Star where
  size : Nat
  beginId : Nat
  endId : Nat
  invertFlag : Int
  waveBz : IntVec
  starId : Nat
  basisId : Int
  cancel : Bool
deriving DecidableEq, Repr

/-- Data of a `Basis<D>`, `Basis.h:753-829`, with the dimensions of the associated mesh. -/
structure BasisData (K : Type) where
  dims : IntVec
  waves : List (Wave K)
  waveIds : List Nat
  stars : List Star
  starIds : List Nat
  nBasis : Nat
deriving DecidableEq, Repr

/-- `wave(id)`, `star(id)`: element access, undefined behaviour when out of range. -/
def get {α : Type*} (l : List α) (i : Nat) : Res α :=
  match l[i]? with
  | none => .ub
  | some a => .ok a

/-- Access with a signed index. -/
def getI {α : Type*} (l : List α) (i : Int) : Res α := if 0 ≤ i then get l i.toNat else .ub

/-- Last element of an integer vector, `vec[D-1]`. -/
def lastOf (v : IntVec) : Int := v.getLast?.getD 0

/-- `nVec.negate(v)`. -/
def negate (v : IntVec) : IntVec := v.map (fun x => -x)

/-- The mesh object of the basis (`none`: not a legal mesh). -/
def BasisData.mesh (b : BasisData K) : Res Mesh :=
  match Mesh.setDimensions b.dims with
  | none => .throw
  | some m => .ok m

/-- Loop that returns `false` at the first failed test. -/
def loopAll {α : Type*} (f : α → Res Bool) : List α → Res Bool
  | [] => .ok true
  | a :: l => do
    let r ← f a
    if r then loopAll f l else pure false

/-! ## Final assignments in `makeStars` -/

/-- `Basis.tpp:905-910`: is the wave implicit? -/
def isImplicit (dims : IntVec) (v : IntVec) : Bool := lastOf v + 1 > (lastOf dims).tdiv 2 + 1

/-- `Basis.tpp:895-914` for one wave: checks that the DFT indices are in the mesh, sets
`implicit` and the look-up table. -/
def setImplicit (m : Mesh) (dims : IntVec) :
    Nat → List (Wave K) → List Nat → Res (List (Wave K) × List Nat)
  | _, [], ids => .ok ([], ids)
  | i, w :: ws, ids => do
    Res.check (Mesh.inMesh dims w.dft)
    let ids' ← store ids (m.rank w.dft) i
    let x ← setImplicit m dims (i + 1) ws ids'
    pure ({ w with implicit := isImplicit dims w.dft } :: x.1, x.2)

/-- `Basis.tpp:916-930`: `starId`, `basisId` and the table `starIds_`.  `i` counts stars, `j`
counts uncancelled stars. -/
def setBasisIds : (i j : Nat) → List Star → List Star × List Nat
  | _, _, [] => ([], [])
  | i, j, s :: ss =>
    if s.cancel then
      let x := setBasisIds (i + 1) j ss
      ({ s with starId := i, basisId := -1 } :: x.1, x.2)
    else
      let x := setBasisIds (i + 1) (j + 1) ss
      ({ s with starId := i, basisId := j } :: x.1, i :: x.2)

/-! ## `isValid` -/

/-- Functions of the unit cell used by the basis: `ksq` and `shiftToMinimum`. -/
structure Cell (K : Type) where
  ksq : IntVec → K
  minIm : IntVec → IntVec

/-- `Basis.tpp:1016-1025`: one mesh point. -/
def checkPoint (b : BasisData K) (m : Mesh) (v : IntVec) : Res Bool := do
  let iw ← getI b.waveIds (m.rank v)
  let w ← get b.waves iw
  pure (w.dft == v)

/-- `Basis.tpp:1030-1101`: the tests of wave `iw`; `eps = 1e-8`. -/
def checkWave (c : Cell K) (eps : K) (b : BasisData K) (m : Mesh) (x : Nat × Wave K) : Res Bool :=
  let iw := x.1
  let w := x.2
  if |c.ksq w.bz - w.sqNorm| > eps then pure false
  else if (m.shift w.bz).2 != w.dft then pure false
  else do
    let s ← get b.stars w.starId
    if iw < s.beginId then pure false
    else if iw ≥ s.endId then pure false
    else if w.inverseId < 0 then pure false
    else do
      let wp ← getI b.waves w.inverseId
      if wp.dft != (m.shift (negate w.bz)).2 then pure false
      else if wp.inverseId != (iw : Int) then pure false
      else if w.implicit && wp.implicit then pure false
      else pure true

/-- `Basis.tpp:1160-1172`: waves of star `is` carry its index. -/
def checkStarIds (b : BasisData K) (is : Nat) (iw : Nat) : Res Bool := do
  let w ← get b.waves iw
  pure (w.starId == is)

/-- `Basis.tpp:1203-1217`: descending order of `indicesBz` within a star. -/
def checkOrder (b : BasisData K) (iw : Nat) : Res Bool := do
  let w ← get b.waves iw
  let w' ← get b.waves (iw - 1)
  pure (!(Mesh.vecGt w.bz w'.bz) && !(w.bz == w'.bz))

/-- `Basis.tpp:1219-1233`: coefficients of a cancelled star. -/
def checkZero (eps : K) (b : BasisData K) (iw : Nat) : Res Bool := do
  let w ← get b.waves iw
  pure (decide (Cx.normSq w.coeff ≤ eps * eps))

/-- `Basis.tpp:1132-1158`: `waveBz` of the star. -/
def checkWaveBz (c : Cell K) (b : BasisData K) (is : Nat) (s : Star) : Res Bool :=
  if s.invertFlag = -1 then do
    let p ← getI b.stars ((is : Int) - 1)
    pure (s.waveBz == c.minIm (negate p.waveBz))
  else do
    let w ← get b.waves s.beginId
    pure (s.waveBz == w.bz)

/-- `Basis.tpp:1182-1201`: `basisId` and `starIds_`. -/
def checkBasisId (b : BasisData K) (is : Nat) (s : Star) : Res Bool :=
  if s.cancel then pure (s.basisId == -1)
  else do
    let k ← getI b.starIds s.basisId
    pure (k == is)

/-- `Basis.tpp:1108-1233`: the tests of star `is`. -/
def checkStar (c : Cell K) (eps : K) (b : BasisData K) (x : Nat × Star) : Res Bool :=
  let is := x.1
  let s := x.2
  if (s.size : Int) != (s.endId : Int) - s.beginId then pure false
  else do
    let r0 ← (if is > 0 then do
        let p ← get b.stars (is - 1)
        pure (s.beginId == p.endId)
      else pure true)
    if !r0 then pure false
    else do
      let r1 ← checkWaveBz c b is s
      if !r1 then pure false
      else do
        let r2 ← loopAll (checkStarIds b is) (List.range' s.beginId (s.endId - s.beginId))
        if !r2 then pure false
        else if s.starId != is then pure false
        else do
          let r3 ← checkBasisId b is s
          if !r3 then pure false
          else do
            let r4 ← loopAll (checkOrder b) (List.range' (s.beginId + 1) (s.endId - (s.beginId + 1)))
            if !r4 then pure false
            else if s.cancel then
              loopAll (checkZero eps b) (List.range' (s.beginId + 1) (s.endId - (s.beginId + 1)))
            else pure true

/-- `Basis.tpp:1263-1300, 1343-1396`: the inverse of wave `iw` lies in star `target`, with the
conjugate coefficient unless cancelled. -/
def checkInverse (eps : K) (b : BasisData K) (target : Nat) (cancel : Bool) (iw : Nat) :
    Res Bool := do
  let w ← get b.waves iw
  let wp ← getI b.waves w.inverseId
  if wp.starId != target then pure false
  else if cancel then pure true
  else pure (decide (Cx.normSq (Cx.conj wp.coeff - w.coeff) ≤ eps * eps))

/-- `Basis.tpp:1249-1404`: the loop over closed stars and pairs of open stars. -/
def checkPairs (eps : K) (b : BasisData K) : Nat → List Star → Res Bool
  | _, [] => .ok true
  | is, s :: rest =>
    if s.invertFlag = 0 then do
      let r ← loopAll (checkInverse eps b is s.cancel)
        (List.range' s.beginId (s.endId - s.beginId))
      if !r then pure false else checkPairs eps b (is + 1) rest
    else if s.invertFlag ≠ 1 then pure false
    else match rest with
      | [] => .ub
      | t :: rest' =>
        if t.invertFlag ≠ -1 then pure false
        else if t.size != s.size then pure false
        else if t.cancel != s.cancel then pure false
        else do
          let r ← loopAll (checkInverse eps b (is + 1) s.cancel)
            (List.range' s.beginId (s.endId - s.beginId))
          if !r then pure false else checkPairs eps b (is + 2) rest'

/-- `Basis.tpp:1406-1423`: the loop over basis functions. -/
def checkBasis (b : BasisData K) (ib : Nat) : Res Bool := do
  let is ← get b.starIds ib
  let s ← get b.stars is
  if s.cancel then pure false
  else pure (s.basisId == (ib : Int))

/-- `Basis<D>::isValid`, `Basis.tpp:1002-1427`. -/
def isValid (c : Cell K) (eps : K) (b : BasisData K) : Res Bool := do
  let m ← b.mesh
  if (b.waves.length : Int) != m.size then pure false
  else do
    let r1 ← loopAll (checkPoint b m) ((List.range m.size.toNat).map fun r : Nat => m.position (r : Int))
    if !r1 then pure false
    else do
      let r2 ← loopAll (checkWave c eps b m) ((List.range b.waves.length).zip b.waves)
      if !r2 then pure false
      else do
        let r3 ← loopAll (checkStar c eps b) ((List.range b.stars.length).zip b.stars)
        if !r3 then pure false
        else do
          let last ← getI b.stars ((b.stars.length : Int) - 1)
          if (last.endId : Int) != m.size then pure false
          else if (((b.stars.map (·.size)).sum : Nat) : Int) != m.size then pure false
          else do
            let r4 ← checkPairs eps b 0 b.stars
            if !r4 then pure false
            else loopAll (checkBasis b) (List.range b.nBasis)

/-- End of `makeStars` (`Basis.tpp:895-930`, with the check `j == nBasis_`) followed by the check
of `isValid` in `makeBasis` (`Basis.tpp:101-107`).  `b0` holds the waves and stars after
normalisation; the value of `nBasis_` counted in the star loop is `b0.nBasis`. -/
def finish (c : Cell K) (eps : K) (b0 : BasisData K) : Res (BasisData K) := do
  let m ← b0.mesh
  let x ← setImplicit m b0.dims 0 b0.waves b0.waveIds
  let y := setBasisIds 0 0 b0.stars
  Res.check (y.2.length == b0.nBasis)
  let b := { b0 with waves := x.1, waveIds := x.2, stars := y.1, starIds := y.2 }
  let ok ← isValid c eps b
  Res.check ok
  pure b

/-! ## Conversion between basis and k-grid formats -/

/-- Dimensions of the half mesh of a real DFT, `FFT.tpp:262-275`. -/
def kMesh (dims : IntVec) : IntVec := dims.dropLast ++ [(lastOf dims).tdiv 2 + 1]

/-- Loop over waves of one star, `fieldIoUtil.tpp:837-847, 857-867, 874-884`. -/
def waveLoop (b : BasisData K) (m : Mesh) (component : Cx K) :
    List Nat → List (Cx K) → Res (List (Cx K))
  | [], out => .ok out
  | iw :: l, out => do
    let w ← get b.waves iw
    if w.implicit then waveLoop b m component l out
    else do
      let out' ← store out (m.rank w.dft) (component * w.coeff)
      waveLoop b m component l out'

/-- Indices of the waves of a star. -/
def Star.ids (s : Star) : List Nat := List.range' s.beginId (s.endId - s.beginId)

/-- Loop over stars of `convertBasisToKGrid`, `fieldIoUtil.tpp:820-895`; `r2` is `sqrt(2.0)`. -/
def toKLoop (b : BasisData K) (m : Mesh) (r2 : K) (inp : List K) :
    List Star → List (Cx K) → Res (List (Cx K))
  | [], out => .ok out
  | s :: rest, out =>
    if s.cancel then toKLoop b m r2 inp rest out
    else if s.invertFlag = 0 then do
      let a ← load inp s.basisId
      let out' ← waveLoop b m ⟨a, 0⟩ s.ids out
      toKLoop b m r2 inp rest out'
    else if s.invertFlag = 1 then do
      let a ← load inp s.basisId
      let c ← load inp (s.basisId + 1)
      let out1 ← waveLoop b m (Cx.sdiv ⟨a, -c⟩ r2) s.ids out
      match rest with
      | [] => .ub
      | t :: rest' => do
        Res.check (t.invertFlag = -1)
        let out2 ← waveLoop b m (Cx.sdiv ⟨a, c⟩ r2) t.ids out1
        toKLoop b m r2 inp rest' out2
    else .throw

/-- Assign zero to the first `n` elements. -/
def zeroFirst {α : Type*} (z : α) (n : Nat) (l : List α) : Res (List α) :=
  if n ≤ l.length then .ok (List.replicate n z ++ l.drop n) else .ub

/-- `convertBasisToKGrid`, `fieldIoUtil.tpp:789-897`, for an initialized basis. -/
def basisToK (b : BasisData K) (r2 : K) (dftDims : IntVec) (inp : List K) (out : List (Cx K)) :
    Res (List (Cx K)) :=
  match Mesh.setDimensions dftDims with
  | none => .throw
  | some m => do
    let out' ← zeroFirst 0 m.size.toNat out
    toKLoop b m r2 inp b.stars out'

/-- Choice of an explicit wave of a closed star, `fieldIoUtil.tpp:955-972`.  The loop is left at
the latest when `UTIL_CHECK` fails, so `fuel = endId - beginId + 1` is never exhausted. -/
def pick (b : BasisData K) (beginId endId : Nat) : (fuel : Nat) → (iw : Nat) → Res (Wave K)
  | 0, _ => .ub
  | fuel + 1, iw => do
    let w ← get b.waves (beginId + iw)
    if !w.implicit then pure w
    else do
      Res.check ((beginId : Int) + iw < (endId : Int) - 1 - iw)
      let w' ← get b.waves (endId - 1 - iw)
      if !w'.implicit then pure w' else pick b beginId endId fuel (iw + 1)

/-- Loop over stars of `convertKGridToBasis`, `fieldIoUtil.tpp:940-1020`. -/
def fromKLoop (b : BasisData K) (m : Mesh) (r2 : K) (inp : List (Cx K)) :
    Nat → List Star → List K → Res (List K)
  | _, [], out => .ok out
  | is, s :: rest, out =>
    if s.cancel then fromKLoop b m r2 inp (is + 1) rest out
    else if s.invertFlag = 0 then do
      let w ← pick b s.beginId s.endId (s.endId - s.beginId + 1) 0
      Res.check (w.starId == is)
      let z ← load inp (m.rank w.dft)
      let out' ← store out s.basisId (z / w.coeff).re
      fromKLoop b m r2 inp (is + 1) rest out'
    else if s.invertFlag = 1 then do
      let w ← get b.waves s.beginId
      Res.check (w.starId == is)
      let x ← (if w.implicit then do
          match rest with
          | [] => .ub
          | t :: _ => do
            Res.check (t.invertFlag = -1)
            let w' ← getI b.waves w.inverseId
            Res.check (!w'.implicit)
            Res.check (w'.starId == is + 1)
            pure (w', t.invertFlag)
        else pure (w, s.invertFlag) : Res (Wave K × Int))
      let z ← load inp (m.rank x.1.dft)
      Res.check (Cx.normSq x.1.coeff > 1 / 10000000000000000)
      let comp := Cx.smul r2 (z / x.1.coeff)
      let out1 ← store out s.basisId comp.re
      let out2 ← store out1 (s.basisId + 1) (if x.2 = 1 then -comp.im else comp.im)
      match rest with
      | [] => .ok out2
      | _ :: rest' => fromKLoop b m r2 inp (is + 2) rest' out2
    else .throw

/-- `convertKGridToBasis` with `checkSymmetry = false`, `fieldIoUtil.tpp:899-1021`.  (With
`checkSymmetry = true` the function additionally calls `hasSymmetry` and may print a warning; the
values assigned are the same.) -/
def kToBasis (b : BasisData K) (r2 : K) (dftDims : IntVec) (inp : List (Cx K)) (out : List K) :
    Res (List K) :=
  match Mesh.setDimensions dftDims with
  | none => .throw
  | some m => do
    let out' ← zeroFirst 0 b.nBasis out
    fromKLoop b m r2 inp 0 b.stars out'

/-! ## `hasSymmetry` -/

/-- Local variables of `hasSymmetry`: squares of `cancelledError` and `uncancelledError`. -/
structure SymErr (K : Type) where
  canc : K
  unc : K
deriving DecidableEq, Repr

/-- `std::abs(z) > err` on squares; a value that is not a number (`none`) compares false. -/
def gt (z : Option (Cx K)) (errSq : K) : Bool :=
  match z with
  | none => false
  | some z => decide (Cx.normSq z > errSq)

/-- The square stored after a successful comparison. -/
def sq (z : Option (Cx K)) : K :=
  match z with
  | none => 0
  | some z => Cx.normSq z

/-- Difference of two complex numbers, not a number if one of them is not. -/
def diff (a b : Option (Cx K)) : Option (Cx K) :=
  match a, b with
  | some a, some b => some (a - b)
  | _, _ => none

/-- Loop over the waves of a cancelled star, `fieldIoUtil.tpp:1063-1079`.  `none`: returned
`false` early (`verbose == false`). -/
def cancLoop (b : BasisData K) (m : Mesh) (inp : List (Option (Cx K))) (eps : K) (verbose : Bool) :
    List Nat → SymErr K → Res (Option (SymErr K))
  | [], e => .ok (some e)
  | iw :: l, e => do
    let w ← get b.waves iw
    if w.implicit then cancLoop b m inp eps verbose l e
    else do
      let z ← load inp (m.rank w.dft)
      if gt z e.canc then
        let e' := { e with canc := sq z }
        if !verbose && decide (e'.canc > eps * eps) then pure none
        else cancLoop b m inp eps verbose l e'
      else cancLoop b m inp eps verbose l e

/-- Loop over the waves of an uncancelled star, `fieldIoUtil.tpp:1083-1109`; `root` is `rootCoeff`
once `hasRoot`. -/
def uncLoop (b : BasisData K) (m : Mesh) (inp : List (Option (Cx K))) (eps : K) (verbose : Bool) :
    List Nat → Option (Option (Cx K)) → SymErr K → Res (Option (SymErr K))
  | [], _, e => .ok (some e)
  | iw :: l, root, e => do
    let w ← get b.waves iw
    if w.implicit then uncLoop b m inp eps verbose l root e
    else do
      let z ← load inp (m.rank w.dft)
      let q := z.map (fun z => z / w.coeff)
      match root with
      | some r =>
        if gt (diff q r) e.unc then
          let e' := { e with unc := sq (diff q r) }
          if !verbose && decide (e'.unc > eps * eps) then pure none
          else uncLoop b m inp eps verbose l root e'
        else uncLoop b m inp eps verbose l root e
      | none => uncLoop b m inp eps verbose l (some q) e

/-- Loop over all stars, `fieldIoUtil.tpp:1056-1112`. -/
def symLoop (b : BasisData K) (m : Mesh) (inp : List (Option (Cx K))) (eps : K) (verbose : Bool) :
    List Star → SymErr K → Res (Option (SymErr K))
  | [], e => .ok (some e)
  | s :: rest, e => do
    let x ← if s.cancel then cancLoop b m inp eps verbose s.ids e
            else uncLoop b m inp eps verbose s.ids none e
    match x with
    | none => pure none
    | some e' => symLoop b m inp eps verbose rest e'

/-- `hasSymmetry`, `fieldIoUtil.tpp:1028-1125`.  An array element is `none` when it is not a
number (division by the finite nonzero coefficient keeps it so). -/
def hasSymmetry (b : BasisData K) (dftDims : IntVec) (inp : List (Option (Cx K))) (eps : K)
    (verbose : Bool) : Res Bool :=
  match Mesh.setDimensions dftDims with
  | none => .throw
  | some m => do
    let x ← symLoop b m inp eps verbose b.stars ⟨0, 0⟩
    match x with
    | none => pure false
    | some e => pure (decide (e.canc < eps * eps) && decide (e.unc < eps * eps))

/-! ## Basis-format files -/

/-- One row of a basis file: field components, wave, star size. -/
structure Row (K : Type) where
  vals : List K
  wave : IntVec
  size : Int
deriving DecidableEq, Repr

/-- `fields[j][ib]` for all `j`. -/
def column (fields : List (List K)) (ib : Nat) : Res (List K) :=
  match fields with
  | [] => .ok []
  | f :: fs => do
    let v ← get f ib
    let r ← column fs ib
    pure (v :: r)

/-- Loop of `writeBasisData`, `fieldIoUtil.tpp:748-762`. -/
def writeLoop (fields : List (List K)) (cap : Nat) : Nat → List Star → Res (List (Row K))
  | _, [] => .ok []
  | ib, s :: rest =>
    if ib ≥ cap then .ok []
    else if s.cancel then writeLoop fields cap ib rest
    else do
      let vals ← column fields ib
      let rows ← writeLoop fields cap (ib + 1) rest
      pure (⟨vals, s.waveBz, s.size⟩ :: rows)

/-- `writeBasisData`, `fieldIoUtil.tpp:732-764`.  Rows are kept as numbers: the fixed-width
decimal output and the rounding of `Dbl(x, 20, 10)` are not modelled. -/
def writeBasisData (b : BasisData K) (fields : List (List K)) : Res (List (Row K)) :=
  match fields with
  | [] => .throw
  | f :: _ => do
    Res.check (fields.all (fun g => g.length == f.length))
    writeLoop fields f.length 0 b.stars

/-- `fields[j][ib] = vals[j]` for all `j`. -/
def setColumn : List (List K) → Int → List K → Res (List (List K))
  | [], _, _ => .ok []
  | f :: fs, ib, vals =>
    match vals with
    | [] => .ub
    | v :: vs => do
      let f' ← store f ib v
      let fs' ← setColumn fs ib vs
      pure (f' :: fs')

/-- Star containing a wave: `starPtr`, `starId`, `waveId`, `fieldIoUtil.tpp:538-544, 585-590`. -/
def findStar (b : BasisData K) (m : Mesh) (wave : IntVec) : Res (Nat × Nat × Star) := do
  let wid ← getI b.waveIds (m.rank (m.shift wave).2)
  let w ← get b.waves wid
  let s ← get b.stars w.starId
  Res.check (!s.cancel)
  pure (wid, w.starId, s)

/-- `phasor = c/|c|`, with `|c|` supplied by `sqrt`. -/
def phasor (sqrt : K → K) (c : Cx K) : Cx K := Cx.sdiv c (sqrt (Cx.normSq c))

/-- Components of a reversed pair, `fieldIoUtil.tpp:674-681`. -/
def reversed (p : Cx K) : List K → List K → List K × List K
  | a :: as, c :: cs =>
    let z := (⟨a, -c⟩ : Cx K) * p
    let x := reversed p as cs
    (z.re :: x.1, z.im :: x.2)
  | _, _ => ([], [])

/-- Loop of `readBasisData`, `fieldIoUtil.tpp:504-694`, over the remaining rows.  `n` is the number
of rows still to be read (`nBasis - i`, which can become `-1`: a pair read at the end).  A missing
row is a failed stream, hence an exception. -/
def readLoop (c : Cell K) (sqrt : K → K) (b : BasisData K) (m : Mesh) (n : Nat)
    (rows : List (Row K)) (fields : List (List K)) : Res (List (List K)) :=
  match n with
  | 0 => .ok fields
  | n + 1 =>
    match rows with
    | [] => .throw
    | r :: rest =>
      if r.wave != c.minIm r.wave then readLoop c sqrt b m n rest fields
      else do
        let x ← findStar b m r.wave
        let s := x.2.2
        if (s.size : Int) ≠ r.size then readLoop c sqrt b m n rest fields
        else if s.invertFlag = 0 then
          if s.waveBz = r.wave then do
            let f ← setColumn fields s.basisId r.vals
            readLoop c sqrt b m n rest f
          else readLoop c sqrt b m n rest fields
        else
          match rest with
          | [] => .throw
          | r2 :: rest' => do
            Res.check (r2.wave == c.minIm r2.wave)
            let y ← findStar b m r2.wave
            let t := y.2.2
            Res.check ((t.size : Int) == r2.size)
            Res.check (r.size == r2.size)
            if s.invertFlag = 1 then do
              Res.check (t.invertFlag == -1)
              -- `UTIL_CHECK(starId2 = starId + 1)`, `UTIL_CHECK(basisId2 = basisId + 1)`: assignments
              let starId2 := x.2.1 + 1
              Res.check (starId2 != 0)
              let basisId2 := s.basisId + 1
              Res.check (basisId2 != 0)
              Res.check (s.waveBz == r.wave)
              Res.check (t.waveBz == r2.wave)
              let f ← setColumn fields s.basisId r.vals
              let f' ← setColumn f basisId2 r2.vals
              readLoop c sqrt b m (n - 1) rest' f'
            else if s.invertFlag = -1 then do
              Res.check (t.invertFlag == 1)
              Res.check (x.2.1 == y.2.1 + 1)
              Res.check (s.basisId == t.basisId + 1)
              Res.check (x.1 == s.beginId)
              Res.check (r2.wave == c.minIm (negate r.wave))
              let w2 ← get b.waves y.1
              let z := reversed (phasor sqrt w2.coeff) r.vals r2.vals
              let f ← setColumn fields t.basisId z.1
              let f' ← setColumn f s.basisId z.2
              readLoop c sqrt b m (n - 1) rest' f'
            else .throw

/-- `readBasisData`, `fieldIoUtil.tpp:454-702`.  `fields` is the allocated array; every element is
first set to zero. -/
def readBasisData (c : Cell K) (sqrt : K → K) (b : BasisData K) (nBasisIn : Nat)
    (rows : List (Row K)) (fields : List (List K)) : Res (List (List K)) :=
  match fields with
  | [] => .throw
  | f :: _ => do
    Res.check (f.length > 0)
    Res.check (fields.all (fun g => g.length == f.length))
    let m ← b.mesh
    let zero := fields.map (fun g => g.map (fun _ => (0 : K)))
    readLoop c sqrt b m (min nBasisIn f.length) rows zero

end Verif.Basis
