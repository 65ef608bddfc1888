import Verif.Basic
import Verif.Crystal.CellModel

/-!
Model of the text input and output of enumerations, sweep and ramp parameters,
unit cells and field file headers, and of the command line option `-d`.

A text stream is a list of whitespace-separated items together with the
`good()` state of the stream.  An item is a word, an integer or a floating
point literal.

Simplifications.
* White space and column widths are not represented: `operator >>` skips them.
* A floating point literal extracted into a `std::string` gives `none`, which
  stands for a text that differs from every keyword and every group name.
* An item written as a word stays a word even if it spells a number (the
  one-dimensional space group names are `1` and `-1`).
* An item that is a floating point literal makes the extraction of an `int`
  fail; the C++ would extract the leading digits and leave the rest.
* Printing a `double` with limited precision and reading it again is an
  arbitrary function `rd : K → K`, a parameter of every writer.
-/

set_option autoImplicit false
set_option linter.unusedSectionVars false

namespace Verif.Text

open Verif Verif.Crystal

/-- A `std::string` without white space. -/
abbrev Word := List Char

/-- One whitespace separated item of a text stream. -/
inductive Tok (K : Type) where
  | word (w : Word)
  | int (i : Int)
  | num (x : K)
deriving DecidableEq, Repr

/-- A `std::istream`: the items not yet extracted, and `good()`. -/
structure Strm (K : Type) where
  toks : List (Tok K)
  good : Bool
deriving DecidableEq, Repr

variable {K : Type}

/-- `in >> label` for `std::string label` with value `old`: at the end of the
stream, or on a stream that has failed, the variable keeps its value. -/
def rdWord (s : Strm K) (old : Option Word) : Option Word × Strm K :=
  if s.good then
    match s.toks with
    | [] => (old, ⟨[], false⟩)
    | .word w :: r => (some w, ⟨r, true⟩)
    | .int i :: r => (some (toString i).toList, ⟨r, true⟩)
    | .num _ :: r => (none, ⟨r, true⟩)
  else (old, s)

/-- `in >> n` for `int n` with value `old`: a failed conversion stores zero, and
the end of the stream or an earlier failure leaves the variable unchanged. -/
def rdInt (s : Strm K) (old : Int) : Int × Strm K :=
  if s.good then
    match s.toks with
    | [] => (old, ⟨[], false⟩)
    | .int i :: r => (i, ⟨r, true⟩)
    | .word w :: r => (0, ⟨.word w :: r, false⟩)
    | .num x :: r => (0, ⟨.num x :: r, false⟩)
  else (old, s)

/-- `in >> x` for `double x` with value `old`. -/
def rdNum [Zero K] [IntCast K] (s : Strm K) (old : K) : K × Strm K :=
  if s.good then
    match s.toks with
    | [] => (old, ⟨[], false⟩)
    | .num x :: r => (x, ⟨r, true⟩)
    | .int i :: r => ((i : K), ⟨r, true⟩)
    | .word w :: r => (0, ⟨.word w :: r, false⟩)
  else (old, s)

/-- `for (i...) in >> a[i]` on an array of doubles. -/
def rdNums [Zero K] [IntCast K] (s : Strm K) : List K → List K × Strm K
  | [] => ([], s)
  | o :: os =>
    let p := rdNum s o
    let q := rdNums p.2 os
    (p.1 :: q.1, q.2)

/-- `for (i...) in >> a[i]` on an array of `n` integers (previous values `old`). -/
def rdInts (s : Strm K) : List Int → List Int × Strm K
  | [] => ([], s)
  | o :: os =>
    let p := rdInt s o
    let q := rdInts p.2 os
    (p.1 :: q.1, q.2)

/-! ## Command line option `-d` -/

/-- `atoi` of a string of one character (C library contract). -/
def atoi1 (c : Char) : Nat :=
  if '0' ≤ c ∧ c ≤ '9' then c.toNat - '0'.toNat else 0

/-- Check of the value at the end, `getDimension.cpp:77-93` (`arg` has one character). -/
def dimOf (c : Char) : Res Nat :=
  let d := atoi1 c
  if 0 < d ∧ d < 4 then .ok d else .throw

/-- Loop over the arguments after the program name, `getDimension.cpp:35-68`, with the
flag `found`; reaching the end without `done` throws (lines 70-76). -/
def dimLoop : Bool → List Word → Res Nat
  | _, [] => .throw
  | false, o :: r =>
    match o with
    | '-' :: 'd' :: [] => dimLoop true r
    | '-' :: 'd' :: [c] => dimOf c
    | '-' :: 'd' :: _ :: _ :: _ => .throw
    | _ => dimLoop false r
  | true, o :: _ =>
    match o with
    | [c] => dimOf c
    | _ => .throw

/-- `getDimension(argc, argv)`, `getDimension.cpp:22-95`; `argv` includes the program name. -/
def getDimension (argv : List Word) : Res Nat :=
  match argv with
  | [] => .throw
  | [_] => .throw
  | _ :: args => dimLoop false args

/-! ## Enumerations -/

/-- `PolymerType::Enum`, `PolymerType.h`. -/
inductive PType where
  | branched | linear
deriving DecidableEq, Repr

/-- `operator <<`, `PolymerType.cpp:40-56`. -/
def PType.write : PType → Word
  | .branched => "branched".toList
  | .linear => "linear".toList

/-- `operator >>`, `PolymerType.cpp:20-35`. -/
def PType.read (w : Word) : Res PType :=
  if w = "Branched".toList ∨ w = "branched".toList then .ok .branched
  else if w = "Linear".toList ∨ w = "linear".toList then .ok .linear
  else .throw

/-- `Species::Ensemble`, `Species.h`. -/
inductive Ensemble where
  | unknown | closed | open_
deriving DecidableEq, Repr

/-- `operator <<`, `Species.cpp:94-111`. -/
def Ensemble.write : Ensemble → Word
  | .closed => "Closed".toList
  | .open_ => "Open".toList
  | .unknown => "Unknown".toList

/-- `operator >>`, `Species.cpp:77-90`. -/
def Ensemble.read (w : Word) : Res Ensemble :=
  if w = "Closed".toList ∨ w = "closed".toList then .ok .closed
  else if w = "Open".toList ∨ w = "open".toList then .ok .open_
  else .throw

/-- `PolymerModel::Type`. -/
inductive PModel where
  | thread | bead
deriving DecidableEq, Repr

/-- `operator <<`, `PolymerModel.cpp:112-125`. -/
def PModel.write : PModel → Word
  | .thread => "thread".toList
  | .bead => "bead".toList

/-- `operator >>`, `PolymerModel.cpp:93-107`. -/
def PModel.read (w : Word) : Res PModel :=
  if w = "Thread".toList ∨ w = "thread".toList then .ok .thread
  else if w = "Bead".toList ∨ w = "bead".toList then .ok .bead
  else .throw

/-- A lattice system of any dimension, with `Null`. -/
inductive Lat where
  | null
  | d1 (l : Lat1)
  | d2 (l : Lat2)
  | d3 (l : Lat3)
deriving DecidableEq, Repr

/-- The dimension in which a lattice system exists (`null` exists in all). -/
def Lat.dim : Lat → Option Nat
  | .null => none
  | .d1 _ => some 1
  | .d2 _ => some 2
  | .d3 _ => some 3

/-- `setNParameter`, `UnitCell1.cpp:28-36`, `UnitCell2.cpp:25-48`, `UnitCell3.cpp:47-73`;
`nParameter_` is zero for `Null`. -/
def Lat.nParameter : Lat → Nat
  | .null => 0
  | .d1 l => l.nParameter
  | .d2 l => l.nParameter
  | .d3 l => l.nParameter

/-- `operator <<`, `UnitCell1.cpp:128-142`, `UnitCell2.cpp:247-272`, `UnitCell3.cpp:426-457`. -/
def Lat.write : Lat → Word
  | .null => "Null".toList
  | .d1 .lamellar => "lamellar".toList
  | .d2 .square => "square".toList
  | .d2 .rectangular => "rectangular".toList
  | .d2 .rhombic => "rhombic".toList
  | .d2 .hexagonal => "hexagonal".toList
  | .d2 .oblique => "oblique".toList
  | .d3 .cubic => "cubic".toList
  | .d3 .tetragonal => "tetragonal".toList
  | .d3 .orthorhombic => "orthorhombic".toList
  | .d3 .monoclinic => "monoclinic".toList
  | .d3 .triclinic => "triclinic".toList
  | .d3 .rhombohedral => "rhombohedral".toList
  | .d3 .hexagonal => "hexagonal".toList

/-- `operator >>`, `UnitCell1.cpp:111-123`, `UnitCell2.cpp:219-242`, `UnitCell3.cpp:392-421`,
for space dimension `D`. -/
def Lat.read (D : Nat) (w : Word) : Res Lat :=
  if D = 1 then
    if w = "Lamellar".toList ∨ w = "lamellar".toList then .ok (.d1 .lamellar) else .throw
  else if D = 2 then
    if w = "Square".toList ∨ w = "square".toList then .ok (.d2 .square)
    else if w = "Rectangular".toList ∨ w = "rectangular".toList then .ok (.d2 .rectangular)
    else if w = "Rhombic".toList ∨ w = "rhombic".toList then .ok (.d2 .rhombic)
    else if w = "Hexagonal".toList ∨ w = "hexagonal".toList then .ok (.d2 .hexagonal)
    else if w = "Oblique".toList ∨ w = "oblique".toList then .ok (.d2 .oblique)
    else .throw
  else if D = 3 then
    if w = "Cubic".toList ∨ w = "cubic".toList then .ok (.d3 .cubic)
    else if w = "Tetragonal".toList ∨ w = "tetragonal".toList then .ok (.d3 .tetragonal)
    else if w = "Orthorhombic".toList ∨ w = "orthorhombic".toList then .ok (.d3 .orthorhombic)
    else if w = "Monoclinic".toList ∨ w = "monoclinic".toList then .ok (.d3 .monoclinic)
    else if w = "Triclinic".toList ∨ w = "triclinic".toList then .ok (.d3 .triclinic)
    else if w = "Rhombohedral".toList ∨ w = "rhombohedral".toList then .ok (.d3 .rhombohedral)
    else if w = "Hexagonal".toList ∨ w = "hexagonal".toList then .ok (.d3 .hexagonal)
    else .throw
  else .throw

/-- `in >> lattice` on a stream; the local `buffer` is empty before extraction, so a failed
extraction or a numeric item throws. -/
def Lat.get (D : Nat) (s : Strm K) : Res (Lat × Strm K) :=
  let p := rdWord s (some [])
  match p.1 with
  | none => .throw
  | some w => (Lat.read D w).bind fun l => .ok (l, p.2)

/-! ## Ramp and sweep parameters -/

/-- `RampParameter<D>::ParamType`, `RampParameter.h`. -/
inductive RType where
  | block | chi | kuhn | phiPolymer | phiSolvent | muPolymer | muSolvent | solvent
  | cellParam | lambdaPert | vMonomer
deriving DecidableEq, Repr

/-- Number of identifiers set by `readParamType`. -/
def RType.nId : RType → Nat
  | .block => 2
  | .chi => 2
  | .lambdaPert => 0
  | .vMonomer => 0
  | _ => 1

/-- `std::transform(..., ::tolower)`. -/
def lower (w : Word) : Word := w.map Char.toLower

/-- `RampParameter<D>::readParamType`, `RampParameter.tpp:77-127` (the word is the one
extracted into `buffer`); `isThread` is `PolymerModel::isThread()`. -/
def RType.read (isThread : Bool) (w : Word) : Res RType :=
  let b := lower w
  if b = "block".toList ∨ b = "block_length".toList then
    if isThread then .ok .block else .throw
  else if b = "chi".toList then .ok .chi
  else if b = "kuhn".toList then .ok .kuhn
  else if b = "phi_polymer".toList then .ok .phiPolymer
  else if b = "phi_solvent".toList then .ok .phiSolvent
  else if b = "mu_polymer".toList then .ok .muPolymer
  else if b = "mu_solvent".toList then .ok .muSolvent
  else if b = "solvent".toList ∨ b = "solvent_size".toList then .ok .solvent
  else if b = "cell_param".toList then .ok .cellParam
  else if b = "lambda_pert".toList then .ok .lambdaPert
  else if b = "v_monomer".toList then .ok .vMonomer
  else .throw

/-- `RampParameter<D>::type`, `RampParameter.tpp:154-182`. -/
def RType.write (isThread : Bool) : RType → Res Word
  | .block => if isThread then .ok "block".toList else .throw
  | .chi => .ok "chi".toList
  | .kuhn => .ok "kuhn".toList
  | .phiPolymer => .ok "phi_polymer".toList
  | .phiSolvent => .ok "phi_solvent".toList
  | .muPolymer => .ok "mu_polymer".toList
  | .muSolvent => .ok "mu_solvent".toList
  | .solvent => .ok "solvent_size".toList
  | .cellParam => .ok "cell_param".toList
  | .lambdaPert => .ok "lambda_pert".toList
  | .vMonomer => .ok "vMonomer".toList

/-- The persistent text content of a `RampParameter`: type, identifiers, change. -/
structure RampParam (K : Type) where
  type : RType
  ids : List Int
  change : K
deriving DecidableEq, Repr

/-- `operator <<`, `RampParameter.tpp:301-315`. -/
def RampParam.write (rd : K → K) (isThread : Bool) (p : RampParam K) : Res (List (Tok K)) :=
  (p.type.write isThread).bind fun w =>
    .ok (.word w :: (p.ids.map .int ++ [.num (rd p.change)]))

/-- `operator >>`, `RampParameter.tpp:280-297`.  The freshly allocated `id_` array holds
arbitrary integers `junk`, and `oldChange` is the value of `change_` before the call. -/
def RampParam.read [Zero K] [IntCast K] (isThread : Bool) (junk : Nat → Int) (oldChange : K)
    (s : Strm K) : Res (RampParam K × Strm K) :=
  let p := rdWord s (some [])
  match p.1 with
  | none => .throw
  | some w =>
    (RType.read isThread w).bind fun t =>
      let q := rdInts p.2 ((List.range t.nId).map junk)
      let r := rdNum q.2 oldChange
      .ok (⟨t, q.1, r.1⟩, r.2)

/-- `SweepParameter<D>::ParamType`, with the index `parameterTypeId_` of a specialised
parameter. -/
inductive SType where
  | block | chi | kuhn | phiPolymer | phiSolvent | muPolymer | muSolvent | solvent
  | cellParam | special (i : Nat)
deriving DecidableEq, Repr

/-- Fields `name` and `nId` of `ParameterType`, `pscf/sweep/ParameterType.h`. -/
structure SpecType where
  name : Word
  nId : Nat
deriving DecidableEq, Repr

/-- The loop over `parameterTypes`, `SweepParameter.tpp:103-113`: the first entry from
index `i` whose name equals the lower-cased buffer. -/
def findSpec (b : Word) : Nat → List SpecType → Option Nat
  | _, [] => none
  | i, t :: ts => if b = t.name then some i else findSpec b (i + 1) ts

/-- `SweepParameter<D>::readParamType`, `SweepParameter.tpp:66-123`. -/
def SType.read (specs : List SpecType) (w : Word) : Res SType :=
  let b := lower w
  if b = "block".toList ∨ b = "block_length".toList then .ok .block
  else if b = "chi".toList then .ok .chi
  else if b = "kuhn".toList then .ok .kuhn
  else if b = "phi_polymer".toList then .ok .phiPolymer
  else if b = "phi_solvent".toList then .ok .phiSolvent
  else if b = "mu_polymer".toList then .ok .muPolymer
  else if b = "mu_solvent".toList then .ok .muSolvent
  else if b = "solvent".toList ∨ b = "solvent_size".toList then .ok .solvent
  else if b = "cell_param".toList then .ok .cellParam
  else match findSpec b 0 specs with
    | some i => .ok (.special i)
    | none => .throw

/-- `nId_` set by `readParamType`, `SweepParameter.tpp:74-111`. -/
def SType.nId (specs : List SpecType) : SType → Nat
  | .block => 2
  | .chi => 2
  | .special i => ((specs[i]?).map (·.nId)).getD 0
  | _ => 1

/-- `SweepParameter<D>::type`, `SweepParameter.tpp:150-177`; an index outside the list of
parameter types is an out-of-range access. -/
def SType.write (specs : List SpecType) : SType → Res Word
  | .block => .ok "block".toList
  | .chi => .ok "chi".toList
  | .kuhn => .ok "kuhn".toList
  | .phiPolymer => .ok "phi_polymer".toList
  | .phiSolvent => .ok "phi_solvent".toList
  | .muPolymer => .ok "mu_polymer".toList
  | .muSolvent => .ok "mu_solvent".toList
  | .solvent => .ok "solvent_size".toList
  | .cellParam => .ok "cell_param".toList
  | .special i =>
    match specs[i]? with
    | some t => .ok t.name
    | none => .ub

/-- The persistent text content of a `SweepParameter`. -/
structure SweepParam (K : Type) where
  type : SType
  ids : List Int
  change : K
deriving DecidableEq, Repr

/-- `operator <<`, `SweepParameter.tpp:302-315`. -/
def SweepParam.write (rd : K → K) (specs : List SpecType) (p : SweepParam K) :
    Res (List (Tok K)) :=
  (p.type.write specs).bind fun w =>
    .ok (.word w :: (p.ids.map .int ++ [.num (rd p.change)]))

/-- `operator >>`, `SweepParameter.tpp:281-297`. -/
def SweepParam.read [Zero K] [IntCast K] (specs : List SpecType) (junk : Nat → Int)
    (oldChange : K) (s : Strm K) : Res (SweepParam K × Strm K) :=
  let p := rdWord s (some [])
  match p.1 with
  | none => .throw
  | some w =>
    (SType.read specs w).bind fun t =>
      let q := rdInts p.2 ((List.range (t.nId specs)).map junk)
      let r := rdNum q.2 oldChange
      .ok (⟨t, q.1, r.1⟩, r.2)

/-! ## Unit cells -/

/-- Lattice and parameters of a `UnitCell<D>`; `params` has `nParameter_` elements. -/
structure Cell (K : Type) where
  lat : Lat
  params : List K
deriving DecidableEq, Repr

/-- `operator <<` of a unit cell, `UnitCell.h:561-571`. -/
def Cell.write (rd : K → K) (c : Cell K) : List (Tok K) :=
  .word c.lat.write :: c.params.map fun x => .num (rd x)

/-- `operator >>` of a unit cell, `UnitCell.h:546-557`; `old` gives the values of the array
`parameters_` before the call. -/
def Cell.read [Zero K] [IntCast K] (D : Nat) (old : Nat → K) (s : Strm K) :
    Res (Cell K × Strm K) :=
  (Lat.get D s).bind fun p =>
    let q := rdNums p.2 ((List.range p.1.nParameter).map old)
    .ok (⟨p.1, q.1⟩, q.2)

/-! ## Field file header -/

/-- The information in a field file header. -/
structure Header (K : Type) where
  ver1 : Int
  ver2 : Int
  cell : Cell K
  group : Word
  nMonomer : Int
deriving DecidableEq, Repr

/-- `writeUnitCellHeader`, `unitCellHeader.h:80-92`. -/
def writeCellHeader (rd : K → K) (c : Cell K) : List (Tok K) :=
  [.word "crystal_system".toList, .word c.lat.write,
   .word "N_cell_param".toList, .int c.lat.nParameter,
   .word "cell_param".toList] ++ c.params.map fun x => .num (rd x)

/-- `writeFieldHeader`, `fieldIoUtil.tpp:187-222`, in dimension `D`. -/
def writeHeader (rd : K → K) (D : Nat) (h : Header K) : Res (List (Tok K)) :=
  let a : List (Tok K) :=
    [.word "format".toList, .int h.ver1, .int h.ver2, .word "dim".toList, .int D]
    ++ writeCellHeader rd h.cell
    ++ (if h.group = [] then [] else [.word "group_name".toList, .word h.group])
  if h.nMonomer = 0 then .ok a
  else if 0 < h.nMonomer then .ok (a ++ [.word "N_monomer".toList, .int h.nMonomer])
  else .throw

/-- Values of the variables of the caller or of uninitialised local variables, before a call
to the reader: `ver1`, `ver2`, `dim`, `nParameter`, `parameters_`, `nMonomer`. -/
structure Junk (K : Type) where
  ver1 : Int
  ver2 : Int
  dim : Int
  nPar : Int
  par : Nat → K
  nMonomer : Int

/-- `readUnitCellHeader`, `unitCellHeader.h:48-77`; `lat0` is the lattice of the unit cell on
entry. -/
def readCellHeader [Zero K] [IntCast K] (D : Nat) (j : Junk K) (lat0 : Lat) (s : Strm K) :
    Res (Cell K × Strm K) :=
  let p := rdWord s (some [])
  if p.1 = some "crystal_system".toList then
    (Lat.get D p.2).bind fun q =>
      if lat0 = .null ∨ q.1 = lat0 then
        let r := rdWord q.2 p.1
        if r.1 = some "N_cell_param".toList then
          let n := rdInt r.2 j.nPar
          if n.1 = q.1.nParameter then
            let t := rdWord n.2 r.1
            if t.1 = some "cell_param".toList then
              let u := rdNums t.2 ((List.range q.1.nParameter).map j.par)
              .ok (⟨q.1, u.1⟩, u.2)
            else .throw
          else .throw
        else .throw
      else .throw
  else .throw

/-- `readFieldHeader`, `fieldIoUtil.tpp:144-181`, in dimension `D`, for a unit cell whose
lattice on entry is `lat0`.  A group name that is a floating point literal is returned as the
empty word here (simplification: no space group has such a name). -/
def readHeader [Zero K] [IntCast K] (D : Nat) (j : Junk K) (lat0 : Lat) (s : Strm K) :
    Res (Header K × Strm K) :=
  let a := rdWord s (some [])
  if a.1 = some "format".toList then
    let v1 := rdInt a.2 j.ver1
    let v2 := rdInt v1.2 j.ver2
    let b := rdWord v2.2 a.1
    if b.1 = some "dim".toList then
      let d := rdInt b.2 j.dim
      if d.1 = D then
        (readCellHeader D j lat0 d.2).bind fun c =>
          let l := rdWord c.2 b.1
          let g := if l.1 = some "group_name".toList then rdWord l.2 (some []) else (some [], l.2)
          let l' := if l.1 = some "group_name".toList then rdWord g.2 l.1 else l
          if l'.1 = some "N_monomer".toList then
            let n := rdInt l'.2 j.nMonomer
            if 0 < n.1 then .ok (⟨v1.1, v2.1, c.1, g.1.getD [], n.1⟩, n.2) else .throw
          else .throw
      else .throw
    else .throw
  else .throw

/-- The data of a `FieldIoTmpl` used by its header functions: the lattice system and the
space group (if any) declared in the parameter file, and whether the basis exists. -/
structure FieldIo where
  lattice : Lat
  hasGroup : Bool
  groupName : Word
  hasBasis : Bool
deriving DecidableEq, Repr

/-- `FieldIoTmpl::writeFieldHeader`, `FieldIoTmpl.tpp:1104-1121`. -/
def FieldIo.write (rd : K → K) (D : Nat) (io : FieldIo) (nMonomer : Int) (c : Cell K)
    (isSymmetric : Bool) : Res (List (Tok K)) :=
  if isSymmetric then
    if io.hasGroup then writeHeader rd D ⟨1, 0, c, io.groupName, nMonomer⟩ else .throw
  else writeHeader rd D ⟨1, 0, c, [], nMonomer⟩

/-- Result of `FieldIoTmpl::readFieldHeader`. -/
structure HeaderOut (K : Type) where
  nMonomer : Int
  cell : Cell K
  isSymmetric : Bool
  hasBasis : Bool
deriving DecidableEq, Repr

/-- `FieldIoTmpl::readFieldHeader`, `FieldIoTmpl.tpp:1018-1098`; `lat0` is the lattice of
`unitCell` on entry.  `makeBasis` is represented by its outcome `mk` for the unit cell read
(true when the basis is initialised, false when it throws). -/
def FieldIo.read [Zero K] [IntCast K] (D : Nat) (io : FieldIo) (mk : Cell K → Bool) (j : Junk K)
    (lat0 : Lat) (s : Strm K) : Res (HeaderOut K × Strm K) :=
  if lat0 ≠ .null ∧ lat0 ≠ io.lattice then .throw
  else
    (readHeader D j lat0 s).bind fun p =>
      let h := p.1
      if h.ver1 ≠ 1 then .throw
      else if h.cell.lat = .null then .throw
      else if h.cell.lat ≠ io.lattice then .throw
      else
        let sym := decide (h.group ≠ [])
        if io.hasGroup then
          if sym ∧ h.group ≠ io.groupName then .throw
          else if io.hasBasis then .ok (⟨h.nMonomer, h.cell, sym, true⟩, p.2)
          else if mk h.cell then .ok (⟨h.nMonomer, h.cell, sym, true⟩, p.2)
          else .throw
        else .ok (⟨h.nMonomer, h.cell, sym, io.hasBasis⟩, p.2)

end Verif.Text
