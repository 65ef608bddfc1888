import Verif.Basic
import Verif.Mesh.Model

/-!
# Model of grid-data file input/output and field replication

Source: `/repo/src/prdc/field/fieldIoUtil.tpp`.

A field (`DArray`/`RField<D>`/`RFieldDft<D>`) is a list of values indexed by rank;
out-of-range access is `Res.ub`.  A text stream is a list of tokens; formatting
(`Dbl(x,21,13)`) is assumed to be read back as the written value, and running out
of tokens is the failed `in.good()` check.
-/

namespace Verif.FieldIo

open Verif.Mesh

variable {α : Type}

/-- Ranks visited by `MeshIteratorFortran<D> iter(dimensions);
for (iter.begin(); !iter.atEnd(); ++iter)`, e.g. `fieldIoUtil.tpp:271-274`.
The fuel is `size+1`; theorem C04 shows that the loop stops by then. -/
def fortranRanks (dims : IntVec) : Res (List Int) :=
  match FIter.setDimensions dims with
  | none => .throw
  | some it => .ok ((FIter.run (it.size.toNat + 1) it).map (·.rank))

/-- Ranks visited by `MeshIterator<D> iter(dims); for (iter.begin(); !iter.atEnd(); ++iter)`,
e.g. `fieldIoUtil.tpp:345-349`. Theorem C03 shows that the fuel suffices. -/
def cStates (dims : IntVec) : Res (List Iter) :=
  match (Iter.empty dims.length).setDimensions dims with
  | none => .throw
  | some it => .ok (Iter.run (it.size.toNat + 1) it.begin)

/-- `fields[j][rank]` for all `j`, loop `fieldIoUtil.tpp:311-313`. -/
def writeRow : (fields : List (List α)) → (rank : Int) → Res (List α)
  | [], _ => .ok []
  | f :: fs, r =>
    if 0 ≤ r then
      match f[r.toNat]? with
      | none => .ub
      | some v => (writeRow fs r).map (v :: ·)
    else .ub

/-- Loop over mesh points of `writeRGridData`, `fieldIoUtil.tpp:309-315`. -/
def writeRows (fields : List (List α)) : List Int → Res (List α)
  | [] => .ok []
  | r :: rs => do
    let row ← writeRow fields r
    let rest ← writeRows fields rs
    pure (row ++ rest)

/-- `writeRGridData` for an array of fields, `fieldIoUtil.tpp:298-317`. (The
single-field version `319-331` is the case of a one-element array.) -/
def writeRGridData (fields : List (List α)) (nMonomer : Nat) (dims : IntVec) : Res (List α) := do
  Res.check (nMonomer > 0)
  Res.check (nMonomer = fields.length)
  let rs ← fortranRanks dims
  writeRows fields rs

/-- `for (k...) in >> fields[k][rank]`, `fieldIoUtil.tpp:275-277`. -/
def readRow : (fields : List (List α)) → (rank : Int) → (toks : List α) →
    Res (List (List α) × List α)
  | [], _, toks => .ok ([], toks)
  | _ :: _, _, [] => .throw
  | f :: fs, r, t :: ts =>
    if 0 ≤ r ∧ r.toNat < f.length then do
      let x ← readRow fs r ts
      pure (f.set r.toNat t :: x.1, x.2)
    else .ub

/-- Loop over mesh points of `readRGridData`, `fieldIoUtil.tpp:273-279`. -/
def readRows : (fields : List (List α)) → List Int → List α → Res (List (List α) × List α)
  | fields, [], toks => .ok (fields, toks)
  | fields, r :: rs, toks => do
    let x ← readRow fields r toks
    readRows x.1 rs x.2

/-- `readRGridData`, `fieldIoUtil.tpp:262-281`. `fields` is the content of the
target arrays before the call. -/
def readRGridData (fields : List (List α)) (nMonomer : Nat) (dims : IntVec) (toks : List α) :
    Res (List (List α) × List α) := do
  Res.check (nMonomer > 0)
  Res.check (fields.length = nMonomer)
  let rs ← fortranRanks dims
  readRows fields rs toks

/-! ## K-grid data -/

/-- A token of a k-grid file: an integer label or a complex value.  (The file holds
real and imaginary part as two numbers; they are always written and read as a
pair, `fieldIoUtil.tpp:354-356, 411-415`.) -/
inductive KTok (α : Type) where
  | label (n : Int)
  | val (x : α)
deriving DecidableEq, Repr

/-- Body of the loop in `writeKGridData`, `fieldIoUtil.tpp:406-419`, with the
running index `i` and its check against the iterator rank. -/
def writeKRows (fields : List (List α)) : (i : Int) → List Int → Res (List (KTok α))
  | _, [] => .ok []
  | i, r :: rs => do
    Res.check (i = r)
    let row ← writeRow fields r
    let rest ← writeKRows fields (i + 1) rs
    pure (KTok.label r :: (row.map KTok.val ++ rest))

/-- `writeKGridData`, `fieldIoUtil.tpp:390-421`. -/
def writeKGridData (fields : List (List α)) (nMonomer : Nat) (dftDims : IntVec) :
    Res (List (KTok α)) := do
  Res.check (nMonomer > 0)
  Res.check (nMonomer = fields.length)
  let its ← cStates dftDims
  writeKRows fields 0 (its.map (·.rank))

/-- Inner loop of `readKGridData`, `fieldIoUtil.tpp:353-357`. -/
def readKRow : (fields : List (List α)) → (rank : Int) → (toks : List (KTok α)) →
    Res (List (List α) × List (KTok α))
  | [], _, toks => .ok ([], toks)
  | f :: fs, r, .val t :: ts =>
    if 0 ≤ r ∧ r.toNat < f.length then do
      let x ← readKRow fs r ts
      pure (f.set r.toNat t :: x.1, x.2)
    else .ub
  | _ :: _, _, _ => .throw

/-- Loop of `readKGridData`, `fieldIoUtil.tpp:347-360`: read the label, check it
against the running index, check the index against the iterator rank. -/
def readKRows : (fields : List (List α)) → (i : Int) → List Int → List (KTok α) →
    Res (List (List α) × List (KTok α))
  | fields, _, [], toks => .ok (fields, toks)
  | fields, i, r :: rs, .label n :: toks => do
    Res.check (i = n)
    Res.check (i = r)
    let x ← readKRow fields r toks
    readKRows x.1 (i + 1) rs x.2
  | _, _, _ :: _, _ => .throw

/-- `readKGridData`, `fieldIoUtil.tpp:335-362` (this function does not check
`nMonomer` against the array length; the model assumes they agree). -/
def readKGridData (fields : List (List α)) (dftDims : IntVec) (toks : List (KTok α)) :
    Res (List (List α) × List (KTok α)) := do
  let its ← cStates dftDims
  readKRows fields 0 (its.map (·.rank)) toks

/-! ## Replication and dimension expansion -/

/-- Store into an array: `field[rank] = value`. -/
def store (f : List α) (r : Int) (v : α) : Res (List α) :=
  if 0 ≤ r ∧ r.toNat < f.length then .ok (f.set r.toNat v) else .ub

/-- Load from an array: `field[rank]`. -/
def load (f : List α) (r : Int) : Res α :=
  if 0 ≤ r then (match f[r.toNat]? with | none => .ub | some v => .ok v) else .ub

/-- `repPosition[j] = position[j] + meshDimensions[j]*cellPosition[j]`,
`fieldIoUtil.tpp:1174-1177`. -/
def repPosition : (dims pos cell : IntVec) → IntVec
  | d :: ds, p :: ps, c :: cs => (p + d * c) :: repPosition ds ps cs
  | _, _, _ => []

/-- Loop over replicas for one mesh point, `fieldIoUtil.tpp:1172-1180`. -/
def repInner (repMesh : Mesh) (dims pos : IntVec) (value : α) :
    List Iter → List α → Res (List α)
  | [], out => .ok out
  | c :: cs, out => do
    let out' ← store out (repMesh.rank (repPosition dims pos c.pos)) value
    repInner repMesh dims pos value cs out'

/-- Loop over mesh points, `fieldIoUtil.tpp:1169-1181`. -/
def repOuter (repMesh : Mesh) (dims : IntVec) (field : List α) (cells : List Iter) :
    List Iter → List α → Res (List α)
  | [], out => .ok out
  | it :: its, out => do
    let value ← load field it.rank
    let out' ← repInner repMesh dims it.pos value cells out
    repOuter repMesh dims field cells its out'

/-- Data part of `replicateUnitCell` for one monomer,
`fieldIoUtil.tpp:1140-1182`; `out0` is the freshly allocated (arbitrary) content
of the replicated array. Returns the replicated mesh dimensions and the field. -/
def replicateField (field : List α) (dims replicas : IntVec) (out0 : List α) :
    Res (IntVec × List α) := do
  Res.check (replicas.all (fun r => r > 0))
  Res.check (dims.all (fun d => d > 0))
  let repDims := List.zipWith (· * ·) replicas dims
  match Mesh.setDimensions repDims with
  | none => .throw
  | some repMesh => do
    let cells ← cStates replicas
    let its ← cStates dims
    let out ← repOuter repMesh dims field cells its out0
    pure (repDims, out)

/-- Data part of `expandRGridDimension` for 1D→2D/3D and 2D→3D,
`fieldIoUtil.tpp:1310-1325, 1402-1414`: the Fortran-ordered data block of the
original fields is written `nReplica` times. -/
def expandData (fields : List (List α)) (dims : IntVec) : (nReplica : Nat) → Res (List α)
  | 0 => .ok []
  | n + 1 => do
    let rs ← fortranRanks dims
    let block ← writeRows fields rs
    let rest ← expandData fields dims n
    pure (block ++ rest)

/-- `expandRGridDimension`, `fieldIoUtil.tpp:1212-1416`: checks on `d` and
`newGridDimensions`, the expanded mesh dimensions and the data section. The unit
cell header is not modelled here. A negative `nReplica` runs the loop zero times. -/
def expandRGrid (fields : List (List α)) (dims : IntVec) (d : Nat) (newDims : IntVec) :
    Res (IntVec × List α) := do
  match dims with
  | [_] =>
    Res.check (d > 1)
    Res.check (d ≤ 3)
    Res.check (newDims.length = d - 1)
  | [_, _] =>
    Res.check (d = 3)
    Res.check (newDims.length = 1)
  | _ => Res.check false
  Res.check (fields.length > 0)
  let data ← expandData fields dims (newDims.prod).toNat
  pure (dims ++ newDims, data)

end Verif.FieldIo
