/-!
# Model of `Mesh<D>`, `MeshIterator<D>`, `MeshIteratorFortran<D>` and `IntVec<D>` comparison

Sources (under `/repo/src`): `pscf/mesh/Mesh.tpp`, `pscf/mesh/Mesh.h`,
`pscf/mesh/MeshIterator.h`, `pscf/mesh/MeshIterator.tpp`,
`pscf/mesh/MeshIteratorFortran.tpp`, `pscf/math/IntVec.h`.

An `IntVec<D>` is a `List Int` of length `D`, so one model covers every `D`.
C++ `int` is an unbounded `Int`; integer division is the C++ truncating
division `Int.tdiv`.  Index loops are written as structural recursions over the
list; the element order in the list is the index order of the C++ array.
-/

namespace Verif.Mesh

/-- An integer vector `IntVec<D>`, `pscf/math/IntVec.h`. -/
abbrev IntVec := List Int

/-- Offsets computed by `Mesh<D>::setDimensions`, `pscf/mesh/Mesh.tpp:63-66`:
`offsets_[D-1] = 1`, then `offsets_[i-1] = offsets_[i]*dimensions_[i]` for `i`
from `D-1` down to `1`.  The downward loop is the recursion on the tail. -/
def offsets : IntVec → IntVec
  | [] => []
  | [_] => [1]
  | _ :: d' :: ds =>
    match offsets (d' :: ds) with
    | [] => []
    | o :: os => (o * d') :: o :: os

/-- State of a `Mesh<D>` object, `pscf/mesh/Mesh.h:196-203`. -/
structure Mesh where
  dims : IntVec
  offs : IntVec
  size : Int
deriving DecidableEq, Repr

/-- Default-constructed mesh, `pscf/mesh/Mesh.tpp:20-25`. -/
def Mesh.empty (D : Nat) : Mesh := ⟨List.replicate D 0, List.replicate D 0, 0⟩

/-- `Mesh<D>::setDimensions`, `pscf/mesh/Mesh.tpp:52-68`.  `none` is the
exception thrown for a non-positive dimension.  (`D = 0` does not exist in the
C++ code; the model throws for it.) -/
def Mesh.setDimensions (dims : IntVec) : Option Mesh :=
  if dims.any (fun d => d ≤ 0) then none
  else match dims, offsets dims with
    | d :: _, o :: os => some ⟨dims, o :: os, o * d⟩
    | _, _ => none

/-- The accumulation loop of `Mesh<D>::rank`, `pscf/mesh/Mesh.tpp:72-85`: all
but the last component are multiplied by their offset, the last one is added as
it stands.  The `assert`s (debug builds only) are hypotheses of the theorems. -/
def rankLoop : (offs pos : IntVec) → Int → Int
  | _, [], acc => acc
  | _, [p], acc => acc + p
  | [], _ :: _ :: _, acc => acc
  | o :: os, p :: p' :: ps, acc => rankLoop os (p' :: ps) (acc + p * o)

/-- `Mesh<D>::rank`, `pscf/mesh/Mesh.tpp:71-85`. -/
def Mesh.rank (m : Mesh) (pos : IntVec) : Int := rankLoop m.offs pos 0

/-- The loop of `Mesh<D>::position`, `pscf/mesh/Mesh.tpp:93-99`. -/
def positionLoop : (offs : IntVec) → (remainder : Int) → IntVec
  | [], _ => []
  | [_], r => [r]
  | o :: o' :: os, r =>
    let p := r.tdiv o
    p :: positionLoop (o' :: os) (r - p * o)

/-- `Mesh<D>::position`, `pscf/mesh/Mesh.tpp:88-101`. -/
def Mesh.position (m : Mesh) (id : Int) : IntVec := positionLoop m.offs id

/-- `Mesh<D>::isInMesh(IntVec<D>)`, `pscf/mesh/Mesh.tpp:116-127`. -/
def inMesh : (dims pos : IntVec) → Bool
  | [], [] => true
  | d :: ds, p :: ps =>
    (if p < 0 then false else true) && (if p ≥ d then false else true) && inMesh ds ps
  | _, _ => false

def Mesh.isInMesh (m : Mesh) (pos : IntVec) : Bool := inMesh m.dims pos

/-- `Mesh<D>::shift(int&, int)`, `pscf/mesh/Mesh.tpp:130-141`.  Returns
`(shift, new coordinate)`. -/
def shift1 (coordinate dim : Int) : Int × Int :=
  let s := if coordinate ≥ 0 then coordinate.tdiv dim
           else -1 + (coordinate + 1).tdiv dim
  (s, coordinate - s * dim)

/-- `Mesh<D>::shift(IntVec<D>&)`, `pscf/mesh/Mesh.tpp:144-152`.  Returns
`(shifts, new position)`. -/
def shiftVec : (dims pos : IntVec) → IntVec × IntVec
  | d :: ds, p :: ps =>
    let r := shift1 p d
    let rs := shiftVec ds ps
    (r.1 :: rs.1, r.2 :: rs.2)
  | _, _ => ([], [])

def Mesh.shift (m : Mesh) (pos : IntVec) : IntVec × IntVec := shiftVec m.dims pos

/-! ## `MeshIterator<D>` -/

/-- State of a `MeshIterator<D>`, `pscf/mesh/MeshIterator.h:88-100`. -/
structure Iter where
  dims : IntVec
  pos : IntVec
  rank : Int
  size : Int
deriving DecidableEq, Repr

/-- Product loop `size_ *= dimensions_[i]`, `pscf/mesh/MeshIterator.tpp:51-54`. -/
def sizeLoop (dims : IntVec) : Int := dims.foldl (· * ·) 1

/-- Constructor + `setDimensions`, `pscf/mesh/MeshIterator.tpp:30-55`.
`setDimensions` touches neither position nor rank. -/
def Iter.setDimensions (it : Iter) (dims : IntVec) : Option Iter :=
  if dims.any (fun d => d ≤ 0) then none
  else some { it with dims := dims, size := sizeLoop dims }

/-- Default-constructed iterator, `pscf/mesh/MeshIterator.tpp:19-25`. -/
def Iter.empty (D : Nat) : Iter := ⟨List.replicate D 0, List.replicate D 0, 0, 0⟩

/-- `MeshIterator<D>::begin`, `pscf/mesh/MeshIterator.tpp:60-67`. -/
def Iter.begin (it : Iter) : Iter :=
  { it with rank := 0, pos := it.pos.map (fun _ => 0) }

/-- The carry chain of `operator++`/`increment(i)`,
`pscf/mesh/MeshIterator.h:146-176`, `pscf/mesh/MeshIterator.tpp:75-101`.
`increment(i)` recurses from the last index towards index 0.  Here the recursion
first treats the tail (higher indices) and returns whether index `i+1`
overflowed, which is when the C++ code calls `increment(i)`. The empty tail
"overflows" because the last index is always incremented. -/
def incr : (dims pos : IntVec) → IntVec × Bool
  | d :: ds, p :: ps =>
    match incr ds ps with
    | (ps', true) => if p + 1 = d then (0 :: ps', true) else ((p + 1) :: ps', false)
    | (ps', false) => (p :: ps', false)
  | _, _ => ([], true)

/-- `MeshIterator<D>::operator++`, `pscf/mesh/MeshIterator.tpp:76-86`. -/
def Iter.next (it : Iter) : Iter :=
  { it with pos := (incr it.dims it.pos).1, rank := it.rank + 1 }

/-- `MeshIterator<D>::atEnd`, `pscf/mesh/MeshIterator.h:140-142`. -/
def Iter.atEnd (it : Iter) : Bool := it.rank = it.size

/-- State after `begin()` and `n` increments of an iterator over `dims`. -/
def Iter.after (it : Iter) : Nat → Iter
  | 0 => it.begin
  | n + 1 => (it.after n).next

/-! ## `MeshIteratorFortran<D>` -/

/-- State of a `MeshIteratorFortran<D>`, `pscf/mesh/MeshIteratorFortran.tpp:32-40`. -/
structure FIter where
  dims : IntVec
  offs : IntVec
  pos : IntVec
  rank : Int
  size : Int
  atEnd : Bool
deriving DecidableEq, Repr

/-- `begin`, `pscf/mesh/MeshIteratorFortran.tpp:73-82` (`none` = `UTIL_CHECK`). -/
def FIter.begin (it : FIter) : Option FIter :=
  if it.size > 0 then
    some { it with pos := it.dims.map (fun _ => 0), rank := 0, atEnd := false }
  else none

/-- Constructor + `setDimensions`, `pscf/mesh/MeshIteratorFortran.tpp:32-68`. -/
def FIter.setDimensions (dims : IntVec) : Option FIter :=
  if dims.all (fun d => d > 0) then
    FIter.begin ⟨dims, offsets dims, dims.map (fun _ => 0), 0, sizeLoop dims, false⟩
  else none

/-- The `while (next)` carry loop, `pscf/mesh/MeshIteratorFortran.tpp:93-110`;
the Boolean is the new value of `atEnd_` (set when index `D-1` overflows). -/
def fincr : (dims pos : IntVec) → IntVec × Bool
  | d :: ds, p :: ps =>
    if p + 1 = d then
      match ds, ps with
      | [], _ => (0 :: ps, true)
      | _ :: _, _ => (0 :: (fincr ds ps).1, (fincr ds ps).2)
    else ((p + 1) :: ps, false)
  | _, _ => ([], true)

/-- Rank recomputation loop, `pscf/mesh/MeshIteratorFortran.tpp:113-116`. -/
def dot : IntVec → IntVec → Int
  | o :: os, p :: ps => o * p + dot os ps
  | _, _ => 0

/-- `operator++`, `pscf/mesh/MeshIteratorFortran.tpp:87-118` (`none` = `UTIL_CHECK(!atEnd_)`). -/
def FIter.next (it : FIter) : Option FIter :=
  if it.atEnd then none
  else
    let r := fincr it.dims it.pos
    some { it with pos := r.1, atEnd := r.2, rank := dot it.offs r.1 }

/-- All states visited by `for (iter.begin(); !iter.atEnd(); ++iter)` in at most
`fuel` increments. -/
def FIter.run : Nat → FIter → List FIter
  | 0, _ => []
  | fuel + 1, it =>
    if it.atEnd then []
    else it :: (match it.next with
                | some it' => FIter.run fuel it'
                | none => [])

/-- All states visited by `for (iter.begin(); !iter.atEnd(); ++iter)` in at most
`fuel` increments. -/
def Iter.run : Nat → Iter → List Iter
  | 0, _ => []
  | fuel + 1, it => if it.atEnd then [] else it :: Iter.run fuel it.next

/-! ## `IntVec<D>` comparison and mesh input/output -/

/-- `operator==`, `pscf/math/IntVec.h:118-130` (loop over components). -/
def vecEq : IntVec → IntVec → Bool
  | a :: as, b :: bs => if a ≠ b then false else vecEq as bs
  | _, _ => true

/-- `operator<`, `pscf/math/IntVec.h:196-209` (lexicographic, index 0 most significant). -/
def vecLt : IntVec → IntVec → Bool
  | a :: as, b :: bs => if a > b then false else if a < b then true else vecLt as bs
  | _, _ => false

/-- `operator<=`, `pscf/math/IntVec.h:220-233`. -/
def vecLe : IntVec → IntVec → Bool
  | a :: as, b :: bs => if a > b then false else if a < b then true else vecLe as bs
  | _, _ => true

/-- `operator>`, `pscf/math/IntVec.h:242-243` (`!(v1 <= v2)`). -/
def vecGt (a b : IntVec) : Bool := !vecLe a b

/-- `operator>=`, `pscf/math/IntVec.h:252-253` (`!(v1 < v2)`). -/
def vecGe (a b : IntVec) : Bool := !vecLt a b

/-- `operator<<` for a mesh, `pscf/mesh/Mesh.h:256-263`: the sequence of integer
tokens on the stream (field width and spaces are dropped). -/
def Mesh.writeText (m : Mesh) : List Int := m.dims

/-- `operator>>` for a `Mesh<D>`, `pscf/mesh/Mesh.h:244-254`: reads `D` integer
tokens, checks that they are positive, calls `setDimensions`.  `none` is a thrown
exception (or too few tokens). Returns the mesh and the rest of the stream. -/
def Mesh.readText (D : Nat) (tokens : List Int) : Option (Mesh × List Int) :=
  if tokens.length < D then none
  else
    let dims := tokens.take D
    if dims.all (fun d => d > 0) then
      (Mesh.setDimensions dims).map (fun m => (m, tokens.drop D))
    else none

/-- `Mesh<D>::serialize` with a saving archive, `pscf/mesh/Mesh.h:235-242`: the
loop body is `ar & dimensions_[0]` for every `i < D`. An archive is the list of
saved integers. -/
def Mesh.save (m : Mesh) : List Int := m.dims.map (fun _ => m.dims.headD 0)

/-- One pass of the loading loop: `ar & dimensions_[0]`. -/
def Mesh.loadOne (m : Mesh) (v : Int) : Mesh := { m with dims := m.dims.set 0 v }

/-- `Mesh<D>::serialize` with a loading archive, `pscf/mesh/Mesh.h:235-242`:
each of the `D` passes overwrites `dimensions_[0]`. -/
def Mesh.load (m : Mesh) (ar : List Int) : Option Mesh :=
  if ar.length < m.dims.length then none
  else some ((ar.take m.dims.length).foldl Mesh.loadOne m)

end Verif.Mesh
