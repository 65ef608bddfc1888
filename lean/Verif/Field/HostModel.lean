import Mathlib.Logic.Function.Basic
import Mathlib.Algebra.BigOperators.Group.List.Basic
import Mathlib.Algebra.Order.Ring.Int

/-!
# Ownership of memory by the fields of the CPU code

`RField<D>`, `CField<D>` and `RFieldDft<D>` on top of `FftwDArray<Data>`. The three classes differ in the number of
elements and in the copy constructor (`Kind`); an element of a complex field is one value. `dftDimensions_` of `RFieldDft`
is not a separate member of the model: `allocate` computes it from `meshDimensions_` and `deallocate` clears both, so that
it is a function of `meshDimensions_` for every field that holds memory.
A state holds the live objects (by the name of the variable) and the blocks that `fftw_malloc` has returned and
`fftw_free` has not released, with their contents. Simplified: addresses are natural numbers (the null pointer is
`none`); contents of new memory are arbitrary (`junk`, a parameter of the operation), as is the address that
`fftw_malloc` returns; memory is never exhausted; no integer overflow. Accesses are not bounds checked (`UTIL_DEBUG`
is not defined), so an access outside a block is undefined behaviour. `serialize` is not modelled.
-/

namespace Verif.HostField

/-- Members of a field: `data_` and `capacity_` of `Array<Data>` and `meshDimensions_` (prdc/cpu/RField.h:102). -/
structure Fld where
  data : Option ℕ
  cap : ℤ
  dims : List ℤ
deriving DecidableEq

/-- Live objects and allocated blocks with contents. -/
structure St (V : Type) where
  objs : ℕ → Option Fld
  blocks : ℕ → Option (List V)

/-- Outcome of an operation: normal return, exception (with the state it leaves), undefined behaviour. -/
inductive Out (V : Type) where
  | next (s : St V)
  | thrown (s : St V)
  | ub

variable {V : Type}

/-- The classes `RField<D>`, `CField<D>` and `RFieldDft<D>`. -/
inductive Kind where
  | real
  | complex
  | dft
deriving DecidableEq

/-- Number of waves of `FFT<D>::computeKMesh` (prdc/cpu/FFT.tpp:262-275): the last dimension `n` becomes `n/2 + 1`. -/
def kSize : List ℤ → ℤ
  | [] => 1
  | [n] => Int.tdiv n 2 + 1
  | n :: m :: l => n * kSize (m :: l)

/-- Number of elements that `allocate` asks for (prdc/cpu/RField.tpp:96-101, prdc/cpu/CField.tpp:92-97,
prdc/cpu/RFieldDft.tpp:109-110). -/
def Kind.size : Kind → List ℤ → ℤ
  | .dft, dims => kSize dims
  | _, dims => dims.prod

/-- Loop of `RField<D>::allocate` over the dimensions (prdc/cpu/RField.tpp:96-101; prdc/cpu/CField.tpp:92-97,
prdc/cpu/RFieldDft.tpp:103-106): members are assigned one by one until a check fails. -/
def setDims : List ℤ → List ℤ → List ℤ × Bool
  | o :: os, n :: ns => if 0 < n then (n :: (setDims os ns).1, (setDims os ns).2) else (o :: os, false)
  | os, _ => (os, true)

/-- `FftwDArray<Data>::isAllocated` (prdc/cpu/FftwDArray.h:101-103): tests the pointer. -/
def isAllocated (f : Fld) : Bool := f.data.isSome

/-- `RField<D>::allocate` (prdc/cpu/RField.tpp:93-103; prdc/cpu/CField.tpp:89-99, prdc/cpu/RFieldDft.tpp:99-114) with
`FftwDArray<Data>::allocate` (prdc/cpu/FftwDArray.tpp:47-58). -/
def allocate (K : Kind) (s : St V) (i : ℕ) (dims : List ℤ) (a : ℕ) (junk : ℕ → V) : Out V :=
  match s.objs i with
  | none => .ub
  | some f =>
    if (setDims f.dims dims).2 = false ∨ isAllocated f = true ∨ K.size dims ≤ 0 then
      .thrown ⟨Function.update s.objs i (some ⟨f.data, f.cap, (setDims f.dims dims).1⟩), s.blocks⟩
    else
      .next ⟨Function.update s.objs i (some ⟨some a, K.size dims, (setDims f.dims dims).1⟩),
        Function.update s.blocks a (some ((List.range (K.size dims).toNat).map junk))⟩

/-- `RField<D>::deallocate` (prdc/cpu/RField.tpp:108-115) with `FftwDArray<Data>::deallocate`
(prdc/cpu/FftwDArray.tpp:65-73): the block is freed and `capacity_` is cleared, `data_` keeps its value. -/
def deallocate (s : St V) (i : ℕ) : Out V :=
  match s.objs i with
  | none => .ub
  | some f =>
    match f.data with
    | none => .thrown s
    | some a =>
      match s.blocks a with
      | none => .ub
      | some _ =>
        .next ⟨Function.update s.objs i (some ⟨f.data, 0, f.dims.map fun _ => 0⟩), Function.update s.blocks a none⟩

/-- Destructors `~RField` (prdc/cpu/RField.tpp:31-33) and `~FftwDArray` (prdc/cpu/FftwDArray.tpp:31-38). -/
def destroy (s : St V) (i : ℕ) : Out V :=
  match s.objs i with
  | none => .ub
  | some f =>
    match f.data with
    | none => .next ⟨Function.update s.objs i none, s.blocks⟩
    | some a =>
      match s.blocks a with
      | none => .ub
      | some _ => .next ⟨Function.update s.objs i none, Function.update s.blocks a none⟩

/-- Loops that copy elements (prdc/cpu/RField.tpp:49-51 and 83-85), over the capacity of the target. -/
def copyLoop (s : St V) (i j : ℕ) : Out V :=
  match s.objs i, s.objs j with
  | some f, some g =>
    if f.cap ≤ 0 then .next s else
    match f.data, g.data with
    | some a, some b =>
      match s.blocks a, s.blocks b with
      | some c, some d =>
        if f.cap ≤ c.length ∧ f.cap ≤ d.length then
          .next ⟨s.objs, Function.update s.blocks a (some (d.take f.cap.toNat ++ c.drop f.cap.toNat))⟩
        else .ub
      | _, _ => .ub
    | _, _ => .ub
  | _, _ => .ub

/-- Default constructor `RField<D>::RField` (prdc/cpu/RField.tpp:22-26). -/
def construct (D : ℕ) (s : St V) (i : ℕ) : St V :=
  ⟨Function.update s.objs i (some ⟨none, 0, List.replicate D 0⟩), s.blocks⟩

/-- Copy constructor: `RField` (prdc/cpu/RField.tpp:42-53) allocates by mesh dimensions; `CField`
(prdc/cpu/CField.tpp:40-53) allocates by capacity and copies the mesh dimensions; `RFieldDft`
(prdc/cpu/RFieldDft.tpp:42-56) is like `RField` but throws if the other field is not allocated. An exception destroys the
base class part, which then holds no memory, and no object exists. -/
def copy (K : Kind) (D : ℕ) (s : St V) (i j : ℕ) (a : ℕ) (junk : ℕ → V) : Out V :=
  match s.objs j with
  | none => .ub
  | some g =>
    if K = .complex then
      if isAllocated g = true ∧ 0 < g.cap then
        copyLoop ⟨Function.update (construct D s i).objs i (some ⟨some a, g.cap, g.dims⟩),
          Function.update s.blocks a (some ((List.range g.cap.toNat).map junk))⟩ i j
      else .next (construct D s i)
    else if isAllocated g then
      match allocate K (construct D s i) i g.dims a junk with
      | .next s' => copyLoop s' i j
      | .thrown _ => .thrown s
      | .ub => .ub
    else if K = .dft then .thrown s
    else .next (construct D s i)

/-- Assignment `RField<D>::operator =` (prdc/cpu/RField.tpp:65-88; prdc/cpu/CField.tpp:60-84,
prdc/cpu/RFieldDft.tpp:68-94). -/
def assign (K : Kind) (s : St V) (i j : ℕ) (a : ℕ) (junk : ℕ → V) : Out V :=
  if i = j then .next s else
  match s.objs i, s.objs j with
  | some f, some g =>
    if isAllocated g = false then .thrown s else
    match (if isAllocated f then .next s else allocate K s i g.dims a junk) with
    | .next s' =>
      match s'.objs i with
      | some f' => if f'.cap = g.cap ∧ f'.dims = g.dims then copyLoop s' i j else .thrown s'
      | none => .ub
    | .thrown s' => .thrown s'
    | .ub => .ub
  | _, _ => .ub

/-- Assignment of an element, `field[k] = v` (`Array<Data>::operator []`, no bounds check). -/
def write (s : St V) (i k : ℕ) (v : V) : Out V :=
  match s.objs i with
  | none => .ub
  | some f =>
    match f.data with
    | none => .ub
    | some a =>
      match s.blocks a with
      | none => .ub
      | some c => if k < c.length then .next ⟨s.objs, Function.update s.blocks a (some (c.set k v))⟩ else .ub

/-- Operations of a program; `a` and `junk` are what `fftw_malloc` returns if it is called. -/
inductive Op (V : Type) where
  | construct (i : ℕ)
  | copy (i j : ℕ) (a : ℕ) (junk : ℕ → V)
  | allocate (i : ℕ) (dims : List ℤ) (a : ℕ) (junk : ℕ → V)
  | assign (i j : ℕ) (a : ℕ) (junk : ℕ → V)
  | write (i k : ℕ) (v : V)
  | deallocate (i : ℕ)
  | destroy (i : ℕ)

/-- One operation. -/
def step (K : Kind) (D : ℕ) (s : St V) : Op V → Out V
  | .construct i => .next (construct D s i)
  | .copy i j a junk => copy K D s i j a junk
  | .allocate i dims a junk => allocate K s i dims a junk
  | .assign i j a junk => assign K s i j a junk
  | .write i k v => write s i k v
  | .deallocate i => deallocate s i
  | .destroy i => destroy s i

/-- Start of the program. -/
def init : St V := ⟨fun _ => none, fun _ => none⟩

/-- What the language and the documentation ask of the caller: objects are alive (or new), `fftw_malloc` returns memory
that is not in use, and an element that is written is within the capacity. -/
def Legal (D : ℕ) (s : St V) : Op V → Prop
  | .construct i => s.objs i = none
  | .copy i j a _ => s.objs i = none ∧ s.objs j ≠ none ∧ s.blocks a = none
  | .allocate i dims a _ => s.objs i ≠ none ∧ dims.length = D ∧ s.blocks a = none
  | .assign i j a _ => s.objs i ≠ none ∧ s.objs j ≠ none ∧ s.blocks a = none
  | .write i k _ => ∃ f, s.objs i = some f ∧ isAllocated f = true ∧ (k : ℤ) < f.cap
  | .deallocate i => s.objs i ≠ none
  | .destroy i => s.objs i ≠ none

/-- Histories that do not use `deallocate` and do not call `allocate` for a field that is allocated. -/
def Plain (s : St V) : Op V → Prop
  | .deallocate _ => False
  | .allocate i _ _ _ => ∀ f, s.objs i = some f → isAllocated f = false
  | _ => True

/-- States reached by legal histories whose operations satisfy `P`; a program may go on after an exception. -/
inductive Reach (K : Kind) (D : ℕ) (P : St V → Op V → Prop) : St V → Prop
  | init : Reach K D P init
  | next {s s' op} : Reach K D P s → Legal D s op → P s op → step K D s op = .next s' → Reach K D P s'
  | thrown {s s' op} : Reach K D P s → Legal D s op → P s op → step K D s op = .thrown s' → Reach K D P s'

end Verif.HostField
