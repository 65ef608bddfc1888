import Verif.Text.Model
import Verif.FieldIo.Model

/-!
# Model of trajectory files and of their analysis

Sources: `/repo/src/rpc/fts/analyzer/TrajectoryWriter.tpp`, `/repo/src/rpc/fts/trajectory/
RGridTrajectoryReader.tpp`, `/repo/src/rpc/field/FieldIo.tpp:101-126`, the functions `writeMeshDimensions`,
`writeRGridData` and `readRGridData` of `/repo/src/prdc/field/fieldIoUtil.tpp`, and the function `analyze`
of `McSimulator.tpp:281-345`, `BdSimulator.tpp:266-330`. The classes of `/repo/src/rpg` do the same.
`ConcentrationWriter.tpp` writes concentrations in the same format.

A file is a list of lines, a line is a list of items separated by white space. `Util::getNextLine` and
`Util::checkString` are modelled by their contracts (submodule `util` is empty).
-/

set_option autoImplicit false

namespace Verif.Ana

open Verif.Text Verif.FieldIo

variable {K : Type}

/-- The rest of a text file, beginning with the rest of the current line. The flag tells whether the last
item of the file is followed by white space: only then can it be extracted without reaching the end of the
file. -/
structure File (K : Type) where
  lines : List (List (Tok K))
  nl : Bool

/-- Number of monomers and mesh dimensions of the system. -/
structure Ctx where
  nMonomer : Nat
  dims : List Int

/-- Fields on the mesh, one for each monomer type. -/
abbrev Flds (K : Type) := List (List K)

/-! ## Writing -/

/-- Lines of `writeRGridData`, `fieldIoUtil.tpp:308-315`. -/
def rowLines (fields : Flds K) : List Int → Res (List (List K))
  | [] => .ok []
  | r :: rs => (writeRow fields r).bind fun x => (rowLines fields rs).bind fun y => .ok (x :: y)

/-- `writeFrame`, `TrajectoryWriter.tpp:63-75`, with `writeFieldsRGrid` (`writeHeader = false`,
`writeMeshSize = true`); `rd` is the value of a printed number. -/
def writeFrame (rd : K → K) (c : Ctx) (iStep : Int) (fields : Flds K) : Res (List (List (Tok K))) :=
  if 0 < c.nMonomer ∧ c.nMonomer = fields.length then
    (fortranRanks c.dims).bind fun rs => (rowLines fields rs).bind fun rows =>
      .ok ([[.word "i".toList, .word "=".toList, .int iStep], [.word "mesh".toList], c.dims.map .int] ++
        rows.map (fun r => r.map fun x => .num (rd x)) ++ [[]])
  else .throw

/-- All frames of a simulation. -/
def writeFrames (rd : K → K) (c : Ctx) : List (Int × Flds K) → Res (List (List (Tok K)))
  | [] => .ok []
  | (i, f) :: t => (writeFrame rd c i f).bind fun x => (writeFrames rd c t).bind fun y => .ok (x ++ y)

/-- The writer in a simulation, `TrajectoryWriter.tpp:52-101`: items of the header, with the unit cell at the
time of `setup`, and lines of the frames. A sample is given by step, unit cell and fields of the system. -/
def writeTrajectory (rd : K → K) (D : Nat) (io : FieldIo) (c : Ctx) (cell : Cell K)
    (sim : List (Int × Cell K × Flds K)) : Res (List (Tok K) × List (List (Tok K))) :=
  (io.write rd D c.nMonomer cell false).bind fun h =>
    (writeFrames rd c (sim.map fun x => (x.1, x.2.2))).bind fun L => .ok (h, L)

/-! ## Reading -/

/-- `Util::getNextLine`: the next line that is not blank. -/
def getNextLine : List (List (Tok K)) → Option (List (Tok K) × List (List (Tok K)))
  | [] => none
  | [] :: r => getNextLine r
  | (x :: l) :: r => some (x :: l, r)

/-- `Util::checkString`: extract a word and compare it. -/
def checkString (line : List (Tok K)) (w : Word) : Res (List (Tok K)) :=
  match line with
  | .word v :: r => if v = w then .ok r else .throw
  | _ => .throw

/-- The numbers at the beginning of a list of items. -/
def numPrefix [IntCast K] : List (Tok K) → List K
  | .num x :: r => x :: numPrefix r
  | .int i :: r => (i : K) :: numPrefix r
  | _ => []

/-- The rest after extraction of `n` items. -/
def dropToks : Nat → List (List (Tok K)) → List (List (Tok K))
  | _, [] => []
  | n, l :: r => if n ≤ l.length then l.drop n :: r else dropToks (n - l.length) r

/-- `readRGridData` into arrays with contents `target`, `fieldIoUtil.tpp:262-281`. When the last
item extracted is the end of the file the stream is not `good()`. -/
def readData [IntCast K] (c : Ctx) (target : Flds K) (f : File K) : Res (Flds K × File K) :=
  let toks := numPrefix f.lines.flatten
  (readRGridData target c.nMonomer c.dims toks).bind fun x =>
    let used := toks.length - x.2.length
    if used = f.lines.flatten.length ∧ f.nl = false then .throw
    else .ok (x.1, ⟨dropToks used f.lines, f.nl⟩)

/-- `readFrame`, `RGridTrajectoryReader.tpp:80-127`: `none` for the result `false`. -/
def readFrame [IntCast K] (c : Ctx) (target : Flds K) (f : File K) : Res (Option (Flds K × File K)) :=
  match getNextLine f.lines with
  | none => .ok none
  | some (l, r) =>
    (checkString l "i".toList).bind fun l => (checkString l "=".toList).bind fun _ =>
      match getNextLine r with
      | none => .throw
      | some (l, r) => (checkString l "mesh".toList).bind fun _ =>
        match getNextLine r with
        | none => .throw
        | some (_, r) => (readData c target ⟨r, f.nl⟩).bind fun x => .ok (some x)

/-! ## Analysis -/

/-- What the analyzers see (number and fields of each sampled frame), and how the command ends. -/
abbrev Trace (K : Type) := List (Nat × Flds K) × Res Unit

/-- Loop over frames, `McSimulator.tpp:310-326`: `left` more turns, frame `i` in the arrays `cur` of the
reader. `comp` is the effect of `setup` on the fields of the system (the compressor, if any). -/
def scan [IntCast K] (c : Ctx) (min : Nat) (comp : Flds K → Flds K) :
    (left i : Nat) → (cur : Flds K) → (f : File K) → Trace K
  | 0, _, _, _ => ([], .ok ())
  | left + 1, i, cur, f =>
    let w := if i = min then comp cur else cur
    let e := if min ≤ i then [(i, w)] else []
    match readFrame c cur f with
    | .ok none => (e, .ok ())
    | .ok (some (g, f')) => let t := scan c min comp left (i + 1) g f'; (e ++ t.1, t.2)
    | .throw => (e, .throw)
    | .ub => (e, .ub)

/-- Frames `min` to `max`, `McSimulator.tpp:308-326`; `target` is the contents of the arrays of the
reader. -/
def analyze [IntCast K] (c : Ctx) (min max : Nat) (comp : Flds K → Flds K) (target : Flds K) (f : File K) :
    Trace K :=
  match readFrame c target f with
  | .ok none => ([], .ok ())
  | .ok (some (g, f')) => scan c min comp (max + 1) 0 g f'
  | .throw => ([], .throw)
  | .ub => ([], .ub)

/-- The command `ANALYZE`, `McSimulator.tpp:300-326`, `RGridTrajectoryReader.tpp:62-75`: the unit cell of the
system after `readHeader`, and the trace. The number of monomers in the header is not used. -/
def analyzeFile [Zero K] [IntCast K] (D : Nat) (io : FieldIo) (mk : Cell K → Bool) (j : Junk K) (c : Ctx)
    (min max : Nat) (comp : Flds K → Flds K) (target : Flds K) (f : File K) : Res (Cell K × Trace K) :=
  (io.read D mk j .null ⟨f.lines.flatten, true⟩).bind fun x =>
    .ok (x.1.cell, analyze c min max comp target
      ⟨dropToks (f.lines.flatten.length - x.2.toks.length) f.lines, f.nl⟩)

end Verif.Ana
