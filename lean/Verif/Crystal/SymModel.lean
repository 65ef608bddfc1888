import Verif.Basic
import Verif.Loop
import Mathlib.Algebra.Order.Ring.Rat

/-!
# Model of `SpaceSymmetry<D>`, `SymmetryGroup<Symmetry>` and `SpaceGroup<D>`

Sources: `/repo/src/prdc/crystal/SpaceSymmetry.{h,tpp,cpp}`, `SymmetryGroup.tpp`,
`SpaceGroup.{h,tpp}`. `Util::Rational` is assumed to be exact and in lowest terms with positive
denominator (as Lean's `ℚ`); C++ `int` is unbounded.
-/

namespace Verif.Crystal

/-! ## SpaceSymmetry -/

/-- `SpaceSymmetry<D>`: rotation `R_` and translation `t_`. -/
structure Sym (D : Nat) where
  R : Fin D → Fin D → Int
  t : Fin D → ℚ

/-- `operator ==`, `SpaceSymmetry.h:371-386`: all components are compared. -/
instance (D : Nat) : DecidableEq (Sym D) := fun A B =>
  decidable_of_iff ((∀ i, A.t i = B.t i) ∧ ∀ i j, A.R i j = B.R i j) <| by
    cases A; cases B
    simp only [Sym.mk.injEq]
    exact ⟨fun h => ⟨funext fun i => funext (h.2 i), funext h.1⟩,
      fun h => by rw [h.1, h.2]; exact ⟨fun _ => rfl, fun _ _ => rfl⟩⟩

/-- `while (num < 0) num += den;` with a bound on the number of turns. -/
def whileUp (den : Int) : Nat → Int → Int
  | 0, num => num
  | fuel + 1, num => if num < 0 then whileUp den fuel (num + den) else num

/-- `while (num >= den) num -= den;` with a bound on the number of turns. -/
def whileDown (den : Int) : Nat → Int → Int
  | 0, num => num
  | fuel + 1, num => if num ≥ den then whileDown den fuel (num - den) else num

/-- One component of `normalize`, `SpaceSymmetry.tpp:79-99`. The loops turn at most `|num|`
times; `normComp_spec` shows that the bound is never reached before the loops end. -/
def normComp (t : ℚ) : ℚ :=
  let num := t.num
  let den : Int := t.den
  let num' := if den = 1 then 0
    else whileDown den num.natAbs (whileUp den num.natAbs num)
  if num' ≠ t.num then mkRat num' t.den else t

/-- `normalize`, `SpaceSymmetry.tpp:79-99`; the copy constructor (41-52) and the assignment
(57-72) are this function. -/
def Sym.normalize {D : Nat} (A : Sym D) : Sym D := { A with t := fun i => normComp (A.t i) }

/-- `identity()`, default constructor, `SpaceSymmetry.tpp:21-36, 104-118`. -/
def Sym.identity (D : Nat) : Sym D := { R := fun i j => if i = j then 1 else 0, t := fun _ => 0 }

/-- `operator *`, `SpaceSymmetry.h:391-420`. -/
def Sym.mul {D : Nat} (A B : Sym D) : Sym D :=
  Sym.normalize
    { R := fun i j => accum D (fun k => A.R i k * B.R k j) 0
      t := fun i => accum D (fun j => (A.R i j : ℚ) * B.t j) (A.t i) }

/-- `determinant()` and `inverseRotation()` for `D = 1, 2, 3`, `SpaceSymmetry.cpp:17-99`. The
templates are only specialised for these dimensions. -/
def inverseRotation : (D : Nat) → (Fin D → Fin D → Int) → Res (Fin D → Fin D → Int)
  | 1, R =>
    let det := R 0 0
    if 1 ≠ det * det then .throw else .ok fun _ _ => R 0 0
  | 2, R =>
    let det := R 0 0 * R 1 1 - R 0 1 * R 1 0
    if 1 ≠ det * det then .throw
    else .ok fun i j => match i, j with
      | 0, 0 => (R 1 1).tdiv det
      | 1, 1 => (R 0 0).tdiv det
      | 0, 1 => (- R 0 1).tdiv det
      | 1, 0 => (- R 1 0).tdiv det
  | 3, R =>
    let det := 0 + R 0 0 * (R 1 1 * R 2 2 - R 1 2 * R 2 1)
      + R 0 1 * (R 1 2 * R 2 0 - R 1 0 * R 2 2)
      + R 0 2 * (R 1 0 * R 2 1 - R 1 1 * R 2 0)
    if 1 ≠ det * det then .throw
    else .ok fun i j => match i, j with
      | 0, 0 => (R 1 1 * R 2 2 - R 1 2 * R 2 1).tdiv det
      | 1, 0 => (R 1 2 * R 2 0 - R 1 0 * R 2 2).tdiv det
      | 2, 0 => (R 1 0 * R 2 1 - R 1 1 * R 2 0).tdiv det
      | 0, 1 => (R 2 1 * R 0 2 - R 2 2 * R 0 1).tdiv det
      | 1, 1 => (R 2 2 * R 0 0 - R 2 0 * R 0 2).tdiv det
      | 2, 1 => (R 2 0 * R 0 1 - R 2 1 * R 0 0).tdiv det
      | 0, 2 => (R 0 1 * R 1 2 - R 0 2 * R 1 1).tdiv det
      | 1, 2 => (R 0 2 * R 1 0 - R 0 0 * R 1 2).tdiv det
      | 2, 2 => (R 0 0 * R 1 1 - R 0 1 * R 1 0).tdiv det
  | _, _ => .ub

/-- `inverse()`, `SpaceSymmetry.tpp:124-144`. -/
def Sym.inverse {D : Nat} (A : Sym D) : Res (Sym D) := do
  let R ← inverseRotation D A.R
  pure (Sym.normalize { R, t := fun i => accum D (fun j => - ((R i j : ℚ) * A.t j)) 0 })

/-- `shiftOrigin(origin)`, `SpaceSymmetry.tpp:150-161`. -/
def Sym.shiftOrigin {D : Nat} (A : Sym D) (o : Fin D → ℚ) : Sym D :=
  Sym.normalize { A with t := fun i => accum D (fun j => (A.R i j : ℚ) * o j) (A.t i - o i) }

/-- `S * V`, `SpaceSymmetry.h:425-437`. -/
def Sym.mulVec {D : Nat} (S : Sym D) (V : Fin D → Int) : Fin D → Int :=
  fun i => accum D (fun j => S.R i j * V j) 0

/-- `V * S`, `SpaceSymmetry.h:442-454`. -/
def Sym.vecMul {D : Nat} (V : Fin D → Int) (S : Sym D) : Fin D → Int :=
  fun i => accum D (fun j => V j * S.R j i) 0

/-! ## SymmetryGroup -/

/-- What `SymmetryGroup<Symmetry>` uses of its template parameter; `norm` is the effect of the
copy constructor and of assignment. -/
structure SymOps (G : Type) where
  one : G
  mul : G → G → G
  inv : G → Res G
  norm : G → G

/-- The operations of `SpaceSymmetry<D>`. -/
def symOps (D : Nat) : SymOps (Sym D) :=
  { one := Sym.identity D, mul := Sym.mul, inv := Sym.inverse, norm := Sym.normalize }

section Group

variable {G : Type} [DecidableEq G] (O : SymOps G)

/-- `find(symmetry) != 0`, `SymmetryGroup.tpp:73-84`. -/
def found (l : List G) (x : G) : Bool := l.any fun y => decide (x = y)

/-- `add(symmetry)`, `SymmetryGroup.tpp:89-104`; `push_back` copies its argument. -/
def add (l : List G) (x : G) : List G × Bool :=
  if found l x then (l, false) else (l ++ [O.norm x], true)

/-- First loop of `makeCompleteGroup`, `SymmetryGroup.tpp:117-121`, over the elements present
at the start. -/
def addInverses : List G → List G → Res (List G)
  | [], l => .ok l
  | x :: xs, l => do
    let a ← O.inv x
    addInverses xs (add O l a).1

/-- Body of the double loop, `SymmetryGroup.tpp:130-140`, over the pairs of elements present at
the start of the pass; the flag is `complete`. -/
def passLoop : List (G × G) → List G → Bool → Res (List G × Bool)
  | [], l, complete => .ok (l, complete)
  | (a, b) :: ps, l, complete => do
    let c := O.mul a b
    let r := add O l c
    let complete1 := if r.2 then false else complete
    let d ← O.inv c
    let r' := add O r.1 d
    let complete2 := if r'.2 then false else complete1
    passLoop ps r'.1 complete2

/-- All pairs `(elements_[i], elements_[j])`, `i` outer, `j` inner. -/
def pairs (l : List G) : List (G × G) := l.flatMap fun a => l.map fun b => (a, b)

/-- One turn of the `while` loop, `SymmetryGroup.tpp:126-143`. -/
def pass (l : List G) : Res (List G × Bool) := passLoop O (pairs l) l true

/-- The `while` loop, with a bound on the number of turns: `none` if the bound is exhausted. -/
def completeLoop : Nat → List G → Option (Res (List G))
  | 0, _ => none
  | fuel + 1, l =>
    match pass O l with
    | .throw => some .throw
    | .ub => some .ub
    | .ok (l', complete) => if complete then some (.ok l') else completeLoop fuel l'

/-- `makeCompleteGroup()`, `SymmetryGroup.tpp:109-146`. -/
def makeCompleteGroup (fuel : Nat) (l : List G) : Option (Res (List G)) :=
  match addInverses O l l with
  | .throw => some .throw
  | .ub => some .ub
  | .ok l' => completeLoop O fuel l'

/-- `clear()` and the default constructor, `SymmetryGroup.tpp:22-27, 151-157`. -/
def cleared : List G := [O.norm O.one]

/-- `operator ==`, `SymmetryGroup.tpp:162-181`. -/
def groupEq (l m : List G) : Bool :=
  if l.length ≠ m.length then false
  else l.all (fun x => found m x) && m.all (fun x => found l x)

/-- Inner loop of `isValid` for element number `i` with value `a`, `SymmetryGroup.tpp:216-226`. -/
def validInner (l : List G) (i : Nat) (a : G) : Nat → List G → Res Unit
  | _, [] => .ok ()
  | j, b :: bs =>
    if i ≠ j ∧ a = b then .throw
    else if found l (O.mul a b) then validInner l i a (j + 1) bs
    else .throw

/-- Outer loop of `isValid`, `SymmetryGroup.tpp:209-227`. -/
def validOuter (l : List G) : Nat → List G → Res Unit
  | _, [] => .ok ()
  | i, a :: as => do
    let c ← O.inv a
    if found l c then
      validInner O l i a 0 l
      validOuter l (i + 1) as
    else .throw

/-- `isValid()`, `SymmetryGroup.tpp:195-232`: true or an exception. -/
def isValid (l : List G) : Res Bool :=
  if found l O.one then do
    validOuter O l 0 l
    pure true
  else .throw

end Group

/-! ## SpaceGroup -/

/-- Test for the rotation of an inversion, `SpaceGroup.tpp:31-40`. -/
def isInversion {D : Nat} (A : Sym D) : Bool :=
  (List.finRange D).all fun j => (List.finRange D).all fun k =>
    if j = k then decide (A.R j k = -1) else decide (A.R j k = 0)

/-- `hasInversionCenter(center)`, `SpaceGroup.tpp:22-49`: the centre if one is found. -/
def inversionCenter {D : Nat} : List (Sym D) → Option (Fin D → ℚ)
  | [] => none
  | A :: l => if isInversion A then some (fun j => A.t j / 2) else inversionCenter l

/-- `SpaceGroup::shiftOrigin`, `SpaceGroup.tpp:51-58`. -/
def shiftGroup {D : Nat} (l : List (Sym D)) (o : Fin D → ℚ) : List (Sym D) :=
  l.map fun A => A.shiftOrigin o

/-- Largest denominator in direction `i`, `SpaceGroup.tpp:75-87`. -/
def maxDen {D : Nat} (l : List (Sym D)) (i : Fin D) : Nat :=
  l.foldl (fun d A => if (A.t i).num ≠ 0 then (if (A.t i).den > d then (A.t i).den else d) else d) 1

/-- Required divisor of the mesh dimension in direction `i`, `SpaceGroup.tpp:75-99`. -/
def divisor {D : Nat} (l : List (Sym D)) (i : Fin D) : Nat :=
  l.foldl (fun d A => if (A.t i).num ≠ 0 then
      (if (A.t i).den < d then (if d % (A.t i).den ≠ 0 then d * (A.t i).den else d) else d)
    else d) (maxDen l i)

/-- `areRelated(i,j)` for `i != j`, `SpaceGroup.tpp:119-138`. -/
def areRelated {D : Nat} (l : List (Sym D)) (i j : Fin D) : Bool :=
  l.any fun A => decide (A.R i j ≠ 0) || decide (A.R j i ≠ 0)

/-- `checkMeshDimensions(dimensions)`, `SpaceGroup.tpp:63-156`: true if it returns, false if it
throws. The loop at line 103 starts with `i = 1`. -/
def checkMeshDimensions {D : Nat} (l : List (Sym D)) (dims : Fin D → Int) : Bool :=
  ((List.finRange D).all fun i =>
    if i.val = 0 then true else decide ((dims i).tmod (divisor l i) = 0)) &&
  ((List.finRange D).all fun i => (List.finRange D).all fun j =>
    if j < i then !(areRelated l i j && decide (dims i ≠ dims j)) else true)

/-! ### Group files -/

/-- Tokens of a group file. A `Rational` is one token (its text format belongs to Util). -/
inductive Tok where
  | label (s : String)
  | int (n : Int)
  | rat (q : ℚ)
deriving DecidableEq

/-- `operator <<` of a symmetry, `SpaceSymmetry.h:459-474`. -/
def writeSym {D : Nat} (A : Sym D) : List Tok :=
  ((List.finRange D).flatMap fun i => (List.finRange D).map fun j => Tok.int (A.R i j))
    ++ (List.finRange D).map fun i => Tok.rat (A.t i)

/-- `operator <<` of a group, `SpaceGroup.h:109-120`. -/
def writeGroup {D : Nat} (l : List (Sym D)) : List Tok :=
  [.label "dim", .int D, .label "size", .int l.length] ++ l.flatMap writeSym

/-- Extraction of an integer; at the end of the stream the variable is left unchanged (and no
error is raised). A token of another kind is outside the model. -/
def readInt (old : Int) : List Tok → Res (Int × List Tok)
  | [] => .ok (old, [])
  | .int n :: ts => .ok (n, ts)
  | _ => .ub

/-- Extraction of a rational, as `readInt`. -/
def readRat (old : ℚ) : List Tok → Res (ℚ × List Tok)
  | [] => .ok (old, [])
  | .rat q :: ts => .ok (q, ts)
  | _ => .ub

/-- Read the rotation elements listed in `ij`. -/
def readRs {D : Nat} : List (Fin D × Fin D) → Sym D → List Tok → Res (Sym D × List Tok)
  | [], A, ts => .ok (A, ts)
  | (i, j) :: rest, A, ts => do
    let r ← readInt (A.R i j) ts
    readRs rest { A with R := fun a b => if a = i ∧ b = j then r.1 else A.R a b } r.2

/-- Read the translation components listed. -/
def readTs {D : Nat} : List (Fin D) → Sym D → List Tok → Res (Sym D × List Tok)
  | [], A, ts => .ok (A, ts)
  | i :: rest, A, ts => do
    let r ← readRat (A.t i) ts
    readTs rest { A with t := fun a => if a = i then r.1 else A.t a } r.2

/-- `operator >>` of a symmetry, `SpaceSymmetry.h:479-492`; no normalisation. -/
def readSym {D : Nat} (A : Sym D) (ts : List Tok) : Res (Sym D × List Tok) := do
  let r ← readRs ((List.finRange D).flatMap fun i => (List.finRange D).map fun j => (i, j)) A ts
  readTs (List.finRange D) r.1 r.2

/-- Loop of `operator >>` of a group, `SpaceGroup.h:139-143`. -/
def readLoop {D : Nat} : Nat → Sym D → List (Sym D) → List Tok → Res (List (Sym D))
  | 0, _, l, _ => .ok l
  | n + 1, s, l, ts => do
    let r ← readSym s ts
    readLoop n r.1 (add (symOps D) l r.1).1 r.2

/-- `operator >>` of a group, `SpaceGroup.h:130-145`. -/
def readGroup (D : Nat) : List Tok → Res (List (Sym D))
  | .label a :: .int dim :: .label b :: .int size :: ts =>
    if a = "dim" ∧ dim = D ∧ b = "size" then
      readLoop size.toNat (Sym.identity D) (cleared (symOps D)) ts
    else .throw
  | _ => .throw

end Verif.Crystal
