import Verif.Basic
import Verif.Loop
import Mathlib.Algebra.Field.Basic

/-!
# Model of the field containers

Sources: `/repo/src/prdc/field/WFieldsTmpl.tpp` and `.h` (w and h fields), `CFieldsTmpl.tpp`
(concentration fields), `MaskTmpl.tpp` (mask), `/repo/src/rpc/field/Mask.tpp` (average).

A call is a transition of the container state with an outcome; if the call throws, the state is
the one left behind at the point of the exception.  The conversions between basis and r-grid
format (`FieldIo::convertBasisToRGrid`, `convertRGridToBasis`) are functions `toR`, `toB` of one
field; they are given by the `FieldIo` object and its basis, which do not change once initialised.
Not modelled: text of input files (`readBasis` and `readRGrid` get the outcome of parsing).
-/

namespace Verif.Field

variable {K : Type}

/-- The associated `FieldIo` object: mesh, basis (`none` if not initialised) and conversions. -/
structure Io (K : Type) where
  dims : List Int
  nBasis : Option Nat
  toR : List K → List K
  toB : List K → List K

/-- `WFieldsTmpl` data members, `WFieldsTmpl.h:444-528`.  `notified` counts `signal().notify()`. -/
structure W (K : Type) where
  basis : List (List K)
  rgrid : List (List K)
  meshSize : Int
  nBasis : Nat
  nMonomer : Nat
  allocR : Bool
  allocB : Bool
  hasData : Bool
  isSym : Bool
  notified : Nat

/-- Constructor, `WFieldsTmpl.tpp:29-47`. -/
def W.init : W K := ⟨[], [], 0, 0, 0, false, false, false, false, 0⟩

/-- Outcome of a call: new state, and whether the call returned normally. -/
abbrev Out (σ : Type) := σ × Bool

/-- `UTIL_CHECK(b)` followed by the rest of the function. -/
def chk {σ : Type} (s : σ) (b : Bool) (k : Out σ) : Out σ := if b then k else (s, false)

/-- Sequence of two parts of a function. -/
def andThen {σ : Type} (r : Out σ) (k : σ → Out σ) : Out σ := if r.2 then k r.1 else r

/-- `setNMonomer`, `WFieldsTmpl.tpp:90-95`. -/
def W.setNMonomer (s : W K) (n : Int) : Out (W K) :=
  chk s (s.nMonomer == 0) (chk s (decide (n > 0)) ({ s with nMonomer := n.toNat }, true))

/-- Loop over dimensions in `allocateRGrid`, `WFieldsTmpl.tpp:109-114`: product of dimensions, or
failure at a dimension that is not positive. -/
def meshProd : List Int → Int → Int × Bool
  | [], m => (m, true)
  | d :: l, m => if d > 0 then meshProd l (m * d) else (m, false)

/-- `allocateRGrid`, `WFieldsTmpl.tpp:101-123`.  New memory is filled with `z`. -/
def W.allocateRGrid (z : K) (s : W K) (dims : List Int) : Out (W K) :=
  chk s (decide (s.nMonomer > 0)) (chk s (!s.hasData) (chk s (!s.allocR)
    (let p := meshProd dims 1
     let s1 := { s with meshSize := p.1 }
     chk s1 p.2 ({ s1 with rgrid := List.replicate s.nMonomer (List.replicate p.1.toNat z),
                           allocR := true }, true))))

/-- `allocateBasis`, `WFieldsTmpl.tpp:129-142`. -/
def W.allocateBasis (z : K) (s : W K) (nBasis : Int) : Out (W K) :=
  chk s (decide (s.nMonomer > 0)) (chk s (decide (nBasis > 0)) (chk s (!s.allocB) (chk s (!s.hasData)
    ({ s with nBasis := nBasis.toNat
              basis := List.replicate s.nMonomer (List.replicate nBasis.toNat z),
              allocB := true }, true))))

/-- Size of the mesh of the `FieldIo` (0 before it is set). -/
def Io.meshSize (io : Io K) : Int := if io.dims = [] then 0 else io.dims.prod

/-- "Allocate fields if needed", `WFieldsTmpl.tpp:169-174` (the `mesh.size() > 0` check is absent in
`readRGrid`, where `allocateRGrid` has the same effect). -/
def W.needR (z : K) (io : Io K) (s : W K) : Out (W K) :=
  if s.allocR then (s, true) else chk s (decide (io.meshSize > 0)) (s.allocateRGrid z io.dims)

/-- `WFieldsTmpl.tpp:175-179`. -/
def W.needB (z : K) (io : Io K) (s : W K) : Out (W K) :=
  if s.allocB then (s, true) else
    match io.nBasis with
    | none => (s, false)
    | some n => s.allocateBasis z n

/-- Copy loop of `setBasis`, `WFieldsTmpl.tpp:183-192`: fields before the first one of wrong
capacity are copied. -/
def copyLoop (n : Nat) : List (List K) → List (List K) → List (List K) × Bool
  | f :: fs, w :: ws =>
    if f.length = n ∧ w.length = n then
      let r := copyLoop n fs ws
      (f :: r.1, r.2)
    else (w :: ws, false)
  | _, ws => (ws, true)

/-- Flags and notification at the end of a modification, `WFieldsTmpl.tpp:197-201`. -/
def W.done (s : W K) (sym : Bool) : W K :=
  { s with hasData := true, isSym := sym, notified := s.notified + 1 }

/-- `setBasis`, `WFieldsTmpl.tpp:164-202`. -/
def W.setBasis (z : K) (io : Io K) (s : W K) (fields : List (List K)) : Out (W K) :=
  chk s (fields.length == s.nMonomer) (andThen (s.needR z io) fun s => andThen (s.needB z io) fun s =>
    let r := copyLoop s.nBasis fields s.basis
    let s1 := { s with basis := r.1 }
    chk s1 r.2 (({ s1 with rgrid := s1.basis.map io.toR } : W K).done true, true))

/-- "Optionally convert to basis form", `WFieldsTmpl.tpp:227-235, 342-350`. -/
def W.optBasis (z : K) (io : Io K) (s : W K) (sym : Bool) : Out (W K) :=
  if sym then andThen (s.needB z io) fun s => ({ s with basis := s.rgrid.map io.toB }, true)
  else (s, true)

/-- `setRGrid`, `WFieldsTmpl.tpp:208-242`. -/
def W.setRGrid (z : K) (io : Io K) (s : W K) (fields : List (List K)) (sym : Bool) : Out (W K) :=
  andThen (s.needR z io) fun s => chk s (fields.length == s.nMonomer)
    (let r := copyLoop s.meshSize.toNat fields s.rgrid
     let s1 := { s with rgrid := r.1 }
     chk s1 r.2 (andThen (s1.optBasis z io sym) fun s => (s.done sym, true)))

/-- Values read into existing arrays. -/
def overwrite (rows : List (List K)) (v : Nat → Nat → K) : List (List K) :=
  rows.mapIdx fun i r => r.mapIdx fun j _ => v i j

/-- Result of reading the header of a field file: `none` if it throws. -/
abbrev Header := Option (Int × Bool)

/-- `readBasis`, `WFieldsTmpl.tpp:251-296`.  `data` is the content of the arrays when
`readBasisData` returns or throws (`ok` is false). -/
def W.readBasis (z : K) (io : Io K) (s : W K) (hdr : Header) (data : Nat → Nat → K) (ok : Bool) :
    Out (W K) :=
  chk s (decide (s.nMonomer > 0))
    (match hdr with
    | none => (s, false)
    | some (n, sym) =>
      chk s (decide (n = s.nMonomer)) (chk s sym (chk s (decide (io.meshSize > 0)) (chk s io.nBasis.isSome
        (andThen (s.needR z io) fun s => andThen (s.needB z io) fun s =>
          let s1 := { s with basis := overwrite s.basis data }
          chk s1 ok (({ s1 with rgrid := s1.basis.map io.toR } : W K).done true, true))))))

/-- `readRGrid`, `WFieldsTmpl.tpp:325-357`. -/
def W.readRGrid (z : K) (io : Io K) (s : W K) (data : Nat → Nat → K) (ok : Bool) (sym : Bool) :
    Out (W K) :=
  chk s (decide (s.nMonomer > 0)) (andThen (s.needR z io) fun s =>
    let s1 := { s with rgrid := overwrite s.rgrid data }
    chk s1 ok (if sym then chk s1 io.nBasis.isSome (andThen (s1.optBasis z io sym) fun s => (s.done sym, true))
      else (s1.done sym, true)))

/-- `symmetrize`, `WFieldsTmpl.tpp:377-386`; `convertRGridToBasis` checks that both arrays are
allocated. -/
def W.symmetrize (io : Io K) (s : W K) : Out (W K) :=
  chk s s.hasData (chk s (s.allocR && s.allocB)
    (let s1 := { s with basis := s.rgrid.map io.toB }
     let s2 := { s1 with rgrid := s1.basis.map io.toR }
     ({ s2 with isSym := true, notified := s2.notified + 1 }, true)))

/-- `clear`, `WFieldsTmpl.h:543-545`. -/
def W.clear (s : W K) : Out (W K) := ({ s with hasData := false }, true)

/-- Public modifiers of a w or h field container. -/
inductive Op (K : Type) where
  | setNMonomer (n : Int)
  | allocateRGrid (dims : List Int)
  | allocateBasis (n : Int)
  | setBasis (fields : List (List K))
  | setRGrid (fields : List (List K)) (sym : Bool)
  | readBasis (hdr : Header) (data : Nat → Nat → K) (ok : Bool)
  | readRGrid (data : Nat → Nat → K) (ok : Bool) (sym : Bool)
  | symmetrize
  | clear

/-- One call.  The state of the `FieldIo` may differ from call to call. -/
def W.step (z : K) (s : W K) (c : Io K × Op K) : Out (W K) :=
  match c.2 with
  | .setNMonomer n => s.setNMonomer n
  | .allocateRGrid d => s.allocateRGrid z d
  | .allocateBasis n => s.allocateBasis z n
  | .setBasis f => s.setBasis z c.1 f
  | .setRGrid f b => s.setRGrid z c.1 f b
  | .readBasis h d ok => s.readBasis z c.1 h d ok
  | .readRGrid d ok b => s.readRGrid z c.1 d ok b
  | .symmetrize => s.symmetrize c.1
  | .clear => s.clear

/-- Does the call modify field values? -/
def Op.isData : Op K → Bool
  | .setBasis _ | .setRGrid .. | .readBasis .. | .readRGrid .. | .symmetrize => true
  | _ => false

/-- A history of calls, exceptions caught by the caller. -/
def W.run (z : K) : W K → List (Io K × Op K) → W K
  | s, [] => s
  | s, c :: l => W.run z (s.step z c).1 l

/-! ## Concentration fields -/

/-- `CFieldsTmpl` flags, `CFieldsTmpl.h`; values are written by other classes. -/
structure C where
  nMonomer : Nat
  allocR : Bool
  allocB : Bool
  hasData : Bool
  isSym : Bool
deriving DecidableEq

/-- Constructor, `CFieldsTmpl.tpp:23-34`. -/
def C.init : C := ⟨0, false, false, false, false⟩

inductive COp where
  | setNMonomer (n : Int)
  | allocateRGrid
  | allocateBasis
  | setHasData (b : Bool)
  | setIsSymmetric (b : Bool)

/-- Public modifiers, `CFieldsTmpl.tpp:64-105, 185-200`. -/
def C.step (s : C) : COp → Out C
  | .setNMonomer n => chk s (s.nMonomer == 0) (chk s (decide (n > 0)) ({ s with nMonomer := n.toNat }, true))
  | .allocateRGrid => chk s (decide (s.nMonomer > 0)) (chk s (!s.allocR) ({ s with allocR := true }, true))
  | .allocateBasis => chk s (decide (s.nMonomer > 0)) (chk s (!s.allocB) ({ s with allocB := true }, true))
  | .setHasData b => ({ s with hasData := b, isSym := if b then s.isSym else false }, true)
  | .setIsSymmetric b => chk s s.hasData ({ s with isSym := b }, true)

def C.run : C → List COp → C
  | s, [] => s
  | s, o :: l => C.run (s.step o).1 l

/-- `writeBasis` does not throw, `CFieldsTmpl.tpp:126-134` (associations assumed set). -/
def C.canWriteBasis (s : C) : Bool := decide (s.nMonomer > 0) && s.allocB && s.hasData && s.isSym

/-! ## Mask -/

/-- `MaskTmpl` data members. -/
structure Mask (K : Type) where
  basis : List K
  rgrid : List K
  meshSize : Int
  nBasis : Nat
  allocR : Bool
  allocB : Bool
  hasData : Bool
  isSym : Bool

/-- Constructor. -/
def Mask.init : Mask K := ⟨[], [], 0, 0, false, false, false, false⟩

/-- `allocateRGrid`, `MaskTmpl.tpp:101-119`. -/
def Mask.allocateRGrid (z : K) (s : Mask K) (dims : List Int) : Out (Mask K) :=
  chk s (!s.allocR)
    (let p := meshProd dims 1
     let s1 := { s with meshSize := p.1 }
     chk s1 p.2 ({ s1 with rgrid := List.replicate p.1.toNat z, allocR := true }, true))

/-- `allocateBasis`, `MaskTmpl.tpp:87-97`. -/
def Mask.allocateBasis (z : K) (s : Mask K) (n : Nat) : Out (Mask K) :=
  chk s (!s.allocB) ({ s with nBasis := n, basis := List.replicate n z, allocB := true }, true)

/-- Allocation on demand, `MaskTmpl.tpp:128-138`. -/
def Mask.needR (z : K) (io : Io K) (s : Mask K) : Out (Mask K) :=
  if s.allocR then (s, true) else chk s (decide (io.meshSize > 0)) (s.allocateRGrid z io.dims)

def Mask.needB (z : K) (io : Io K) (s : Mask K) : Out (Mask K) :=
  if s.allocB then (s, true) else
    match io.nBasis with
    | none => (s, false)
    | some n => s.allocateBasis z n

/-- `setBasis`, `MaskTmpl.tpp:124-155`. -/
def Mask.setBasis (z : K) (io : Io K) (s : Mask K) (f : List K) : Out (Mask K) :=
  andThen (s.needR z io) fun s => andThen (s.needB z io) fun s =>
    chk s (f.length == s.nBasis)
      ({ s with basis := f, rgrid := io.toR f, hasData := true, isSym := true }, true)

/-- `setRGrid`, `MaskTmpl.tpp:160-190`; the assignment `rgrid_ = field` requires equal capacity. -/
def Mask.setRGrid (z : K) (io : Io K) (s : Mask K) (f : List K) (sym : Bool) : Out (Mask K) :=
  andThen (s.needR z io) fun s => chk s (f.length == s.rgrid.length)
    (let s1 := { s with rgrid := f }
     andThen (if sym then andThen (s1.needB z io) fun s => ({ s with basis := io.toB s.rgrid }, true)
       else (s1, true)) fun s => ({ s with hasData := true, isSym := sym }, true))

/-- `readBasis`, `MaskTmpl.tpp:198-243`. -/
def Mask.readBasis (z : K) (io : Io K) (s : Mask K) (hdr : Header) (data : List K × Bool) :
    Out (Mask K) :=
  match hdr with
  | none => (s, false)
  | some (n, sym) =>
    chk s (decide (n = 1)) (chk s sym (chk s io.nBasis.isSome (chk s (decide (io.meshSize > 0))
      (andThen (s.needR z io) fun s => andThen (s.needB z io) fun s =>
        let s1 := { s with basis := data.1 }
        chk s1 data.2 ({ s1 with rgrid := io.toR data.1, hasData := true, isSym := true }, true)))))

/-- `readRGrid`, `MaskTmpl.tpp:265-298`. -/
def Mask.readRGrid (z : K) (io : Io K) (s : Mask K) (data : List K × Bool) (sym : Bool) :
    Out (Mask K) :=
  andThen (s.needR z io) fun s =>
    let s1 := { s with rgrid := data.1 }
    chk s1 data.2
      (andThen (if sym then andThen (s1.needB z io) fun s => ({ s with basis := io.toB s.rgrid }, true)
        else (s1, true)) fun s => ({ s with hasData := true, isSym := sym }, true))

inductive MOp (K : Type) where
  | allocateRGrid (dims : List Int)
  | allocateBasis (n : Nat)
  | setBasis (f : List K)
  | setRGrid (f : List K) (sym : Bool)
  | readBasis (hdr : Header) (data : List K × Bool)
  | readRGrid (data : List K × Bool) (sym : Bool)

def Mask.step (z : K) (s : Mask K) (c : Io K × MOp K) : Out (Mask K) :=
  match c.2 with
  | .allocateRGrid d => s.allocateRGrid z d
  | .allocateBasis n => s.allocateBasis z n
  | .setBasis f => s.setBasis z c.1 f
  | .setRGrid f b => s.setRGrid z c.1 f b
  | .readBasis h d => s.readBasis z c.1 h d
  | .readRGrid d b => s.readRGrid z c.1 d b

def MOp.isData : MOp K → Bool
  | .allocateRGrid _ | .allocateBasis _ => false
  | _ => true

variable [Field K]

/-- State of the compensated sum, `Mask.tpp:32-39`. -/
def kahanStep (p : K × K) (x : K) : K × K :=
  let tempVal := x - p.2
  let tempSum := p.1 + tempVal
  (tempSum, tempSum - p.1 - tempVal)

/-- `rGridAverage`, `rpc/field/Mask.tpp:26-42`. -/
def rGridAverage (rg : List K) : K := (rg.foldl kahanStep (0, 0)).1 / (rg.length : K)

/-- `phiTot`, `MaskTmpl.tpp:317-329`. -/
def Mask.phiTot (s : Mask K) : Res K :=
  if s.isSym && s.hasData then
    match s.basis[0]? with
    | none => .ub
    | some x => .ok x
  else if !s.hasData then .ok 1
  else .ok (rGridAverage s.rgrid)

end Verif.Field
