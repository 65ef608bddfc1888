import Verif.Crystal.MinImage

/-!
# Model of `Prdc::Cpu::WaveList` and of the wavevector mesh of a real transform

Sources: `/repo/src/prdc/cpu/WaveList.tpp`, `WaveList.h`, `/repo/src/prdc/cpu/FFT.tpp:262-275`,
`/repo/src/prdc/cpu/FFT.h:269-281`.

The unit cell is seen through its parameters; `UnitCellBase::setLattice` (`UnitCellBase.tpp:196-205`)
triggers the signal that makes `SystemTmpl` call `clearUnitCellData` (`SystemTmpl.tpp:121-122,
1012-1020`), so a change of parameters and this call are one transition.
The device version (`prdc/cuda/WaveList.tpp`) is modelled in `Verif/Cuda/WaveListKernel.lean`.
-/

namespace Verif.Crystal

/-! ## Mesh of the discrete transform of real data -/

/-- `computeKMesh`, `FFT.tpp:262-275`: dimensions of the wavevector mesh. -/
def kMesh {D : Nat} (dims : Fin D → Int) : Fin D → Int :=
  fun i => if (i : Nat) < D - 1 then dims i else (dims i).tdiv 2 + 1

/-- `hasImplicitInverse`, `FFT.h:269-281` (`i` and `d` of the last direction). -/
def hasImplicitInverse (i d : Int) : Bool := decide (i ≠ 0) && decide (d - i > d.tdiv 2 + 1)

/-! ## Wave list -/

/-- The parts of `UnitCell<D>` with a given lattice system used by `WaveList`. -/
structure LatOps (D : Nat) where
  kBasis : Params → BasisVecs D
  drBasis : Params → Fin 6 → BasisVecs D
  nParameter : Nat
  varAngle : Bool

/-- `UnitCell<2>` with lattice system `l`. -/
noncomputable def Lat2.ops (l : Lat2) : LatOps 2 :=
  ⟨l.kBasis, l.drBasis, l.nParameter, l.hasVariableAngle⟩

/-- `UnitCell<3>` with lattice system `l`. -/
noncomputable def Lat3.ops (l : Lat3) : LatOps 3 :=
  ⟨l.kBasis, l.drBasis, l.nParameter, l.hasVariableAngle⟩

/-- `UnitCell<1>`; `hasVariableAngle<1>` is false. -/
noncomputable def Lat1.ops (l : Lat1) : LatOps 1 := ⟨l.kBasis, l.drBasis, l.nParameter, false⟩

/-- The mesh, lattice system and positions of the wavevector mesh in order of rank. -/
structure WaveEnv (D : Nat) where
  lat : LatOps D
  dims : Fin D → Int
  pos : List (Fin D → Int)
  isReal : Bool
  /-- element `rank` of `implicitInverse_` for a position -/
  impl : (Fin D → Int) → Bool

/-- Data members of `WaveList`; `cell` holds the unit cell parameters (`none` until initialised). -/
structure WaveState (D : Nat) where
  cell : Option Params
  alloc : Bool
  hasMin : Bool
  hasK : Bool
  hasDK : Bool
  minImages : List (Fin D → Int)
  kSq : List ℝ
  dKSq : List (List ℝ)

/-- Constructor, `WaveList.tpp:29-37`. -/
def WaveState.init {D : Nat} : WaveState D := ⟨none, false, false, false, false, [], [], []⟩

/-- `clearUnitCellData`, `WaveList.tpp:103-110`. -/
def WaveState.clear {D : Nat} (E : WaveEnv D) (s : WaveState D) : WaveState D :=
  { s with hasK := false, hasDK := false, hasMin := if E.lat.varAngle then false else s.hasMin }

/-- `allocate`, `WaveList.tpp:50-97`. -/
def WaveState.allocate {D : Nat} (E : WaveEnv D) (s : WaveState D) : Res (WaveState D) :=
  if s.alloc then .throw else .ok { s.clear E with alloc := true }

/-- New unit cell parameters.  Before `allocate` the notified member dereferences a null pointer. -/
def WaveState.setCell {D : Nat} (E : WaveEnv D) (s : WaveState D) (p : Params) : Res (WaveState D) :=
  if s.alloc then .ok ({ s with cell := some p }.clear E) else .ub

/-- `computeMinimumImages`, `WaveList.tpp:116-137`. -/
noncomputable def WaveState.computeMin {D : Nat} (E : WaveEnv D) (s : WaveState D) :
    Res (WaveState D) :=
  if s.hasMin then .ok s else
    if s.alloc then
      match s.cell with
      | none => .throw
      | some p =>
        let m := E.pos.map fun v => shiftToMinimum (E.lat.kBasis p) v E.dims
        .ok { s with minImages := m, kSq := m.map (ksq (E.lat.kBasis p)), hasMin := true, hasK := true }
    else .throw

/-- `computeKSq`, `WaveList.tpp:143-169`. -/
noncomputable def WaveState.computeK {D : Nat} (E : WaveEnv D) (s : WaveState D) :
    Res (WaveState D) :=
  if s.hasK then .ok s else
    if !s.hasMin then s.computeMin E else
      if s.alloc then
        match s.cell with
        | none => .throw
        | some p => .ok { s with kSq := s.minImages.map (ksq (E.lat.kBasis p)), hasK := true }
      else .throw

/-- Array `dKSq_[n]`, `WaveList.tpp:193-202`. -/
noncomputable def dKSqArray {D : Nat} (E : WaveEnv D) (p : Params) (m : List (Fin D → Int))
    (n : Fin 6) : List ℝ :=
  List.zipWith (fun v u =>
    let x := dksq (E.lat.kBasis p) (E.lat.drBasis p n) u
    if E.isReal then (if E.impl v then x * 2 else x) else x) E.pos m

/-- Second part of `computedKSq`, `WaveList.tpp:186-205`. -/
noncomputable def WaveState.finishDK {D : Nat} (E : WaveEnv D) (s : WaveState D) :
    Res (WaveState D) :=
  if s.alloc then
    match s.cell with
    | none => .throw
    | some p => .ok { s with
        dKSq := (List.finRange 6).filterMap fun n =>
          if n.val < E.lat.nParameter then some (dKSqArray E p s.minImages n) else none,
        hasDK := true }
  else .throw

/-- `computedKSq`, `WaveList.tpp:175-206`. -/
noncomputable def WaveState.computeDK {D : Nat} (E : WaveEnv D) (s : WaveState D) :
    Res (WaveState D) :=
  if s.hasDK then .ok s else
    if !s.hasMin then
      match s.computeMin E with
      | .ok s1 => s1.finishDK E
      | r => r
    else s.finishDK E

inductive WaveOp where
  | allocate
  | setCell (p : Params)
  | computeMin
  | computeK
  | computeDK

noncomputable def WaveState.step {D : Nat} (E : WaveEnv D) (s : WaveState D) : WaveOp → Res (WaveState D)
  | .allocate => s.allocate E
  | .setCell p => s.setCell E p
  | .computeMin => s.computeMin E
  | .computeK => s.computeK E
  | .computeDK => s.computeDK E

/-- A history of calls: an exception is caught by the caller (all throwing functions check before
they modify anything), undefined behaviour ends the history. -/
noncomputable def WaveState.run {D : Nat} (E : WaveEnv D) : WaveState D → List WaveOp → Res (WaveState D)
  | s, [] => .ok s
  | s, o :: l =>
    match s.step E o with
    | .ok s' => WaveState.run E s' l
    | .throw => WaveState.run E s l
    | .ub => .ub

end Verif.Crystal
