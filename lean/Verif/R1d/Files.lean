import Verif.R1d.Model
import Mathlib.Algebra.Order.Floor.Defs

/-!
# Model of the field files of the one-dimensional program

Source: `/repo/src/r1d/misc/FieldIo.cpp`.

A file is a list of tokens separated by white space. A number that was written is read back as the same number
(the code prints 11 digits after the decimal point, or the default number). Extraction from a stream that has
failed, or at the end of the file, leaves the variable as it is; extraction of a number from a word stores zero
and fails. Extraction of an integer from a token with a decimal point reads part of the token; the outcome is
then `ub`, about which nothing is claimed. `f j i` is element `i` of field `j`; capacities of arrays are not
represented.
-/

set_option autoImplicit false

namespace Verif.R1d

/-- Token of a file. -/
inductive Tok (K : Type) where
  | word (s : String)
  | int (i : Int)
  | num (x : K)

section Read

variable {K : Type} [Field K]

/-- Input stream: remaining tokens, failure flag. -/
abbrev Strm (K : Type) := List (Tok K) × Bool

/-- `in >> label`; a token that is a number is `none` (it differs from the labels). -/
def getWord : Strm K → Option String → Strm K × Option String
  | (ts, true), old => ((ts, true), old)
  | ([], false), old => (([], true), old)
  | (.word s :: r, false), _ => ((r, false), some s)
  | (_ :: r, false), _ => ((r, false), none)

/-- `in >> i` for an `int`; `old = none` if the variable is not initialised. -/
def getInt : Strm K → Option Int → Res (Strm K × Option Int)
  | (ts, true), old => .ok ((ts, true), old)
  | ([], false), old => .ok (([], true), old)
  | (.int i :: r, false), _ => .ok ((r, false), some i)
  | (.word s :: r, false), _ => .ok ((.word s :: r, true), some 0)
  | (.num _ :: _, false), _ => .ub

/-- `in >> x` for a `double`. -/
def getNum : Strm K → K → Strm K × K
  | (ts, true), old => ((ts, true), old)
  | ([], false), old => (([], true), old)
  | (.num x :: r, false), _ => ((r, false), x)
  | (.int i :: r, false), _ => ((r, false), (i : K))
  | (.word s :: r, false), _ => ((.word s :: r, true), 0)

/-- Element `i` of field `j` is set to `x`. -/
def setAt (f : Nat → Nat → K) (j i : Nat) (x : K) : Nat → Nat → K :=
  fun j' i' => if j' = j ∧ i' = i then x else f j' i'

/-- Values of row `i`, from field `j` on, `FieldIo.cpp:88-90`. -/
def getVals (i : Nat) : Nat → Nat → Strm K → (Nat → Nat → K) → Strm K × (Nat → Nat → K)
  | 0, _, s, f => (s, f)
  | k + 1, j, s, f =>
    let r := getNum s (f j i)
    getVals i k (j + 1) r.1 (setAt f j i r.2)

/-- Rows from `i` on, `FieldIo.cpp:84-91`. -/
def getRows (nm : Nat) : Nat → Nat → Strm K → Option Int → (Nat → Nat → K) → Res (Nat → Nat → K)
  | 0, _, _, _, f => .ok f
  | k + 1, i, s, idum, f =>
    getInt s idum >>= fun r =>
    match r.2 with
    | none => .ub
    | some d =>
      if d = (i : Int) then
        let q := getVals i nm 0 r.1 f
        getRows nm k (i + 1) q.1 (some d) q.2
      else .throw

/-- `FieldIo::readFields`, `FieldIo.cpp:61-92`, into fields of `nm` monomer types on a domain of `nx` points
that hold `old`. -/
def readFields (nx nm : Nat) (file : List (Tok K)) (old : Nat → Nat → K) : Res (Nat → Nat → K) :=
  let r := getWord (file, false) (some "")
  if r.2 ≠ some "nx" then .throw else
  getInt r.1 none >>= fun r =>
  match r.2 with
  | none => .ub
  | some n =>
    if ¬ 0 < n then .throw
    else if n ≠ (nx : Int) then .throw
    else
      let r := getWord r.1 (some "nx")
      if r.2 ≠ some "nm" then .throw else
      getInt r.1 none >>= fun r =>
      match r.2 with
      | none => .ub
      | some m =>
        if ¬ 0 < m then .throw
        else if m ≠ (nm : Int) then .throw
        else getRows nm nx 0 r.1 none old

/-- A row of a field file. -/
def row (nm : Nat) (i : Int) (v : Nat → K) : List (Tok K) := .int i :: (List.range nm).map fun j => .num (v j)

/-- Header of a field file. -/
def header (nx nm : Int) : List (Tok K) := [.word "nx", .int nx, .word "nm", .int nm]

/-- `FieldIo::writeFields` with header, `FieldIo.cpp:129-155`. -/
def writeFields (nx nm : Nat) (f : Nat → Nat → K) : Res (List (Tok K)) :=
  if ¬ 0 < nm then .throw
  else .ok (header nx nm ++ (List.range nx).flatMap fun i : Nat => row nm (i : Int) fun j => f j i)

/-- `FieldIo::extend`, `FieldIo.cpp:342-379`. -/
def extend (nx nm : Nat) (m : Int) (f : Nat → Nat → K) : Res (List (Tok K)) :=
  if ¬ 0 < nm then .throw
  else .ok (header ((nx : Int) + m) nm ++ ((List.range nx).flatMap fun i : Nat => row nm (i : Int) fun j => f j i) ++
    (List.range m.toNat).flatMap fun k => row nm ((nx + k : Nat) : Int) fun j => f j (nx - 1))

end Read

section Remesh

variable {K : Type} [Field K] [LinearOrder K] [FloorRing K]

/-- Conversion of a double to `int`: truncation towards zero. -/
def truncInt (y : K) : Int := if 0 ≤ y then ⌊y⌋ else ⌈y⌉

/-- Interior rows of `remesh`, `FieldIo.cpp:302-317`. -/
def remeshRows (d : Domain K) (nm : Nat) (dx : K) (f : Nat → Nat → K) : Nat → Nat → Res (List (Tok K))
  | 0, _ => .ok []
  | k + 1, i =>
    let y := dx * (i : K) / d.dx
    let yi := truncInt y
    if ¬ 0 ≤ yi then .throw
    else if ¬ yi + 1 < (d.nx : Int) then .throw
    else
      let fu := y - (yi : K)
      let fl := 1 - fu
      remeshRows d nm dx f k (i + 1) >>= fun rest =>
      .ok (row nm i (fun j => fl * f j yi.toNat + fu * f j (yi.toNat + 1)) ++ rest)

/-- `FieldIo::remesh`, `FieldIo.cpp:269-327`: result of a call that does not throw. Rows written before an
exception are not represented. -/
def remesh (d : Domain K) (nm : Nat) (nx : Int) (f : Nat → Nat → K) : Res (List (Tok K)) :=
  if ¬ 0 < nm then .throw
  else
    let dx := (d.xMax - d.xMin) / ((nx : K) - 1)
    remeshRows d nm dx f (nx - 2).toNat 1 >>= fun mid =>
    .ok (header nx nm ++ row nm 0 (fun j => f j 0) ++ mid ++ row nm (nx - 1) (fun j => f j (d.nx - 1)))

end Remesh

section Q

variable {K : Type} [Field K]

open Verif.Chem

/-- Row `i` of `writeVertexQ`, `FieldIo.cpp:235-250`: tails of the propagators that end at a vertex, and their
product; `none` if one of them was not solved. -/
def vertexRow (blk : Nat → Block K) (st : Pid → Option (Nat → Nat → K)) (i : Nat) :
    List Pid → Option (List K × K)
  | [] => some ([], 1)
  | s :: l => match st s, vertexRow blk st i l with
    | some q, some (cs, p) => some (q ((blk s.1).ns - 1) i :: cs, q ((blk s.1).ns - 1) i * p)
    | _, _ => none

end Q

end Verif.R1d
