import Verif.Math.Reduce

/-!
# Comparison of complex fields, and of fields on the GPU

Sources: `/repo/src/prdc/cpu/{RFieldDftComparison,CFieldComparison}.tpp` (the two files differ only in the type of the
field), `/repo/src/prdc/cuda/{RFieldComparison,RFieldDftComparison,CFieldComparison}.tpp`,
`/repo/src/pscf/cuda/HostDArray.h`.

Numbers are as in `Verif.Math.Reduce`: a real number or NaN.  A field is the list of its elements, the empty list for a
field that is not allocated; an array of fields is the list of its fields.  Reading an element outside an array is
undefined behaviour (`Util::Array::operator []` has only an assertion).  The product `m*n` of the number of fields and
of elements does not overflow.
-/

set_option autoImplicit false

namespace Verif.Compare

open Verif.Reduce

noncomputable section

/-- `fftw_complex`, `cudaComplex`: real and imaginary part. -/
abbrev CDbl := Dbl × Dbl

/-- `d0`, `d1` and `diffSq`, `cpu/RFieldDftComparison.tpp:37-39`, `cuda/RFieldDftComparison.tpp:46-48`. -/
def diffSq (x y : CDbl) : Dbl :=
  let d0 := dsub x.1 y.1
  let d1 := dsub x.2 y.2
  dadd (dmul d0 d0) (dmul d1 d1)

/-- Loop over elements, `cpu/RFieldDftComparison.tpp:36-55, 78-93`; `none` if a NaN was met.  `diff` is the square root
of `diffSq`, which is not negative, so that `diff` is NaN if and only if `diffSq` is. -/
def cpuLoop : List (CDbl × CDbl) → ℝ → ℝ → Option (ℝ × ℝ)
  | [], m, r => some (m, r)
  | (x, y) :: l, m, r =>
    match diffSq x y with
    | none => none
    | some q => cpuLoop l (if √q > m then √q else m) (r + q)

/-- `compare(RFieldDft<D> const &, RFieldDft<D> const &)`, `cpu/RFieldDftComparison.tpp:26-59`, and the function of
`cpu/CFieldComparison.tpp:26-59`. -/
def cpuCompare (a b : List CDbl) : Res Diff :=
  if a.length > 0 then
    if a.length = b.length then
      match cpuLoop (a.zip b) 0 0 with
      | none => .ok nanDiff
      | some (m, r) => .ok ⟨m, √(r / a.length)⟩
    else .throw
  else .throw

/-- Loop over fields, `cpu/RFieldDftComparison.tpp:74-94`: last capacity and running values. -/
def cpuFields : List (List CDbl × List CDbl) → Nat → ℝ → ℝ → Res (Option (Nat × ℝ × ℝ))
  | [], n, m, r => .ok (some (n, m, r))
  | (a, b) :: l, _, m, r =>
    if a.length > 0 then
      if a.length = b.length then
        match cpuLoop (a.zip b) m r with
        | none => .ok none
        | some (m', r') => cpuFields l a.length m' r'
      else .throw
    else .throw

/-- `compare` for arrays of fields, `cpu/RFieldDftComparison.tpp:62-98`, `cpu/CFieldComparison.tpp:62-98`. -/
def cpuCompareArrays (a b : List (List CDbl)) : Res Diff :=
  if a.length > 0 then
    if a.length = b.length then
      if (a.headD []).length > 0 then
        cpuFields (a.zip b) 0 0 0 >>= fun
          | none => .ok nanDiff
          | some (n, m, r) => .ok ⟨m, √(r / ((a.length * n : Nat) : ℝ))⟩
      else .throw
    else .throw
  else .throw

/-- Members of the classes for complex fields on the GPU after a comparison.  `maxDiff_` is only assigned values that
passed `diff > maxDiff_`, hence is a number; `rmsDiff_` can be NaN. -/
structure GDiff where
  maxDiff : ℝ
  rmsDiff : Dbl

/-- `if (diff > maxDiff_) maxDiff_ = diff;`, `cuda/RFieldDftComparison.tpp:49-52`: false if `diff` is NaN. -/
def gpuMax (q : Dbl) (m : ℝ) : ℝ :=
  match q with
  | none => m
  | some q => if √q > m then √q else m

/-- Loop over elements, `cuda/RFieldDftComparison.tpp:45-54, 86-97`, `cuda/CFieldComparison.tpp:49-58, 96-107`. -/
def gpuLoop : List (CDbl × CDbl) → ℝ → Dbl → ℝ × Dbl
  | [], m, r => (m, r)
  | (x, y) :: l, m, r => gpuLoop l (gpuMax (diffSq x y) m) (dadd r (diffSq x y))

/-- Division by the number of elements and square root, `cuda/RFieldDftComparison.tpp:55-56, 98-99`. -/
def gpuFinish (n : Nat) (p : ℝ × Dbl) : GDiff := ⟨p.1, p.2.map fun s => √(s / n)⟩

/-- `HostDArray::operator = (DeviceArray const &)`, `HostDArray.h:154-178`, for a host array of capacity `cap`
(0 if not allocated): the new elements. -/
def toHost {α : Type} (cap : Nat) (x : List α) : Res (List α) :=
  if x.length > 0 then
    if cap = 0 ∨ cap = x.length then .ok x else .throw
  else .throw

/-- `compare` for complex fields on the GPU, `cuda/RFieldDftComparison.tpp:27-58`, `cuda/CFieldComparison.tpp:27-62`. -/
def gpuCompare (a b : List CDbl) : Res GDiff :=
  if a.length > 0 then
    if a.length = b.length then
      toHost a.length a >>= fun ha =>
        toHost a.length b >>= fun hb => .ok (gpuFinish a.length (gpuLoop (ha.zip hb) 0 (some 0)))
    else .throw
  else .throw

/-- Copies to the host, `cuda/RFieldDftComparison.tpp:75-80`, `cuda/CFieldComparison.tpp:80-89`.  (The second file
allocates all arrays before it copies; the outcome is the same.) -/
def hostFields {α : Type} (cap : Nat) : List (List α × List α) → Res (List (List α × List α))
  | [] => .ok []
  | (a, b) :: l =>
    toHost cap a >>= fun ha => toHost cap b >>= fun hb => hostFields cap l >>= fun r => .ok ((ha, hb) :: r)

/-- `compare` for arrays of complex fields on the GPU, `cuda/RFieldDftComparison.tpp:61-101`,
`cuda/CFieldComparison.tpp:65-111`. -/
def gpuCompareArrays (a b : List (List CDbl)) : Res GDiff :=
  if a.length > 0 then
    if a.length = b.length then
      let cap := (a.headD []).length
      if cap > 0 then
        hostFields cap (a.zip b) >>= fun h =>
          .ok (gpuFinish (a.length * cap) (gpuLoop (h.flatMap fun p => p.1.zip p.2) 0 (some 0)))
      else .throw
    else .throw
  else .throw

/-- `compare` for real fields on the GPU, `cuda/RFieldComparison.tpp:24-40`.  Allocation of a host array of capacity 0
throws an exception (contract of `Util::DArray`). -/
def gpuCompareR (a b : List Dbl) : Res Diff :=
  if a.length > 0 then
    toHost a.length a >>= fun ha => toHost a.length b >>= fun hb => compare 0 ha hb
  else .throw

/-- Loop that copies fields `i, i+1, …` to the host, `cuda/RFieldComparison.tpp:54-57`.  The host arrays are not
allocated before.  The index runs over the fields of `a`; there is no comparison with the number of fields of `b`. -/
def hostFieldsR : List (List Dbl) → List (List Dbl) → Res (List (List Dbl) × List (List Dbl))
  | [], _ => .ok ([], [])
  | a :: as, bs =>
    toHost 0 a >>= fun ha =>
      match bs with
      | [] => .ub
      | b :: bs => toHost 0 b >>= fun hb => hostFieldsR as bs >>= fun r => .ok (ha :: r.1, hb :: r.2)

/-- `compare` for arrays of real fields on the GPU, `cuda/RFieldComparison.tpp:43-64`; `a[0]` is read first. -/
def gpuCompareArraysR (a b : List (List Dbl)) : Res Diff :=
  match a with
  | [] => .ub
  | _ :: _ => hostFieldsR a b >>= fun h => compareArrays 0 h.1 h.2

/-- `compareFieldsBasis`, `FieldIoTmpl.tpp:727-741`: `BFieldComparison` with `begin = 1`. -/
def compareFieldsBasis (a b : List (List Dbl)) : Res Diff := compareArrays 1 a b

/-- `compareFieldsRGrid` of `rpc/field/FieldIo.tpp:250-264`. -/
def compareFieldsRGridCpu (a b : List (List Dbl)) : Res Diff := compareArrays 0 a b

/-- `compareFieldsRGrid` of `rpg/field/FieldIo.tpp:332-346`. -/
def compareFieldsRGridGpu (a b : List (List Dbl)) : Res Diff := gpuCompareArraysR a b

end

end Verif.Compare
