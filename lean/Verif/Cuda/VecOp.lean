import Verif.Cuda.Gpu
import Verif.Cuda.ThreadArray
import Mathlib.Algebra.Ring.Defs

/-!
# Model of the vector operations on the GPU

Source: `/repo/src/prdc/cuda/VecOp.cu`, `/repo/src/prdc/cuda/VecOpMisc.cu`. Device memory is a
function from addresses to real numbers; a complex array element takes two consecutive addresses
(`x` then `y`). Each kernel is the grid-stride loop around a body; the body of index `i` is a list
of assignments, whose accesses interleave with those of other threads (`Gpu.lean`). A local
variable of a loop iteration is memory at address `tmp + i` that no array uses.

Modelled: the generic form of all kernels for real arrays with up to two source arrays (`unR`,
`binR`: `eqV`, `expV`, `addEqS`, `expVc`, ..., `addVV`, `subVV`, `mulVV`, `divVV`, `addEqV`, ...),
`mulVV`, `mulVS`, `mulEqV` and `expV` for complex arrays, `mulVVPair`, `mulEqVPair`, `sqNormV`,
`addVMany` and `mulVMany`. Simplifications: sizes and begin indices are naturals; sums of `int`s do
not overflow; errors reported by the CUDA runtime do not occur.
-/

set_option autoImplicit false

namespace Verif.Cuda

variable {K : Type} [Inhabited K]

/-- Indices visited by `for (int i = startID; i < n; i += nThreads)`, `VecOp.cu:32-36`. -/
def strideFrom (n N i : Nat) : List Nat :=
  if i < n ∧ 0 < N then i :: strideFrom n N (i + N) else []
termination_by n - i
decreasing_by omega

/-- Program of thread `t` of `N = blockDim.x * gridDim.x` threads, `VecOp.cu:30-37`. -/
def kernelProg (N n : Nat) (body : Nat → List (Instr K)) (t : Nat) : List (Instr K) :=
  if t < N then (strideFrom n N t).flatMap body else []

/-- A `DeviceArray`: address of the first element and capacity. -/
structure DArr where
  base : Nat
  cap : Nat

/-- Part common to all wrappers, `VecOp.cu:1045-1052`: choose the configuration and launch. -/
def vecLaunch (d : Device) (s : TA) (n : Nat) (body : Nat → List (Instr K)) (sch : List Nat)
    (mem : Nat → K) : Res (TA × (Nat → K)) :=
  s.setThreadsLogical d n >>= fun s =>
    .ok (s, runAll (kernelProg (s.blocks * s.tpb) n body) sch mem)

/-- Functions of one and of two values. -/
def un (f : K → K) : List K → K
  | [x] => f x
  | _ => default

def bin (f : K → K → K) : List K → K
  | [x, y] => f x y
  | _ => default

/-- Body `a[i] = f(b[i])`, `VecOp.cu:35, 643`; also `a[i] = f(a[i])`, `VecOp.cu:725`. -/
def unBody (f : K → K) (a b i : Nat) : List (Instr K) := [⟨a + i, [b + i], un f⟩]

/-- Body `a[i] = f(b[i], c[i])`, `VecOp.cu:103`; also `a[i] = f(a[i], b[i])`, `VecOp.cu:676`. -/
def binBody (f : K → K → K) (a b c i : Nat) : List (Instr K) := [⟨a + i, [b + i, c + i], bin f⟩]

/-- Wrapper with one source array (for example `eqV`, `VecOp.cu:1039-1053`). -/
def unR (f : K → K) (d : Device) (s : TA) (A B : DArr) (bA bB n : Nat) (sch : List Nat)
    (mem : Nat → K) : Res (TA × (Nat → K)) :=
  if ¬ A.cap ≥ n + bA then .throw
  else if ¬ B.cap ≥ n + bB then .throw
  else vecLaunch d s n (unBody f (A.base + bA) (B.base + bB)) sch mem

/-- Wrapper with two source arrays (for example `addVV`, `VecOp.cu:1103-1119`). -/
def binR (f : K → K → K) (d : Device) (s : TA) (A B C : DArr) (bA bB bC n : Nat) (sch : List Nat)
    (mem : Nat → K) : Res (TA × (Nat → K)) :=
  if ¬ A.cap ≥ n + bA then .throw
  else if ¬ B.cap ≥ n + bB then .throw
  else if ¬ C.cap ≥ n + bC then .throw
  else vecLaunch d s n (binBody f (A.base + bA) (B.base + bB) (C.base + bC)) sch mem

section Complex

variable [Ring K]

/-- `x*u - y*v` and `x*v + y*u` of the loaded values `x, u, y, v` and `x, v, y, u`. -/
def reMul : List K → K
  | [x, u, y, v] => x * u - y * v
  | _ => default

def imMul : List K → K
  | [x, v, y, u] => x * v + y * u
  | _ => default

/-- Body of `_mulVV` for complex arrays, `VecOp.cu:421-422`; two assignments in this order. -/
def mulBody (a b c i : Nat) : List (Instr K) :=
  [⟨a + 2 * i, [b + 2 * i, c + 2 * i, b + 2 * i + 1, c + 2 * i + 1], reMul⟩,
   ⟨a + 2 * i + 1, [b + 2 * i, c + 2 * i + 1, b + 2 * i + 1, c + 2 * i], imMul⟩]

/-- Body of `_mulEqV` for complex arrays, `VecOp.cu:888-893`; the products are first stored in the
local variable `c`. -/
def mulEqBody (tmp a b i : Nat) : List (Instr K) :=
  [⟨tmp + 2 * i, [a + 2 * i, b + 2 * i, a + 2 * i + 1, b + 2 * i + 1], reMul⟩,
   ⟨tmp + 2 * i + 1, [a + 2 * i, b + 2 * i + 1, a + 2 * i + 1, b + 2 * i], imMul⟩,
   ⟨a + 2 * i, [tmp + 2 * i], un id⟩,
   ⟨a + 2 * i + 1, [tmp + 2 * i + 1], un id⟩]

/-- Body of `_mulVS` for complex arrays with scalar `(u, v)`, `VecOp.cu:496-497`. -/
def mulSBody (u v : K) (a b i : Nat) : List (Instr K) :=
  [⟨a + 2 * i, [b + 2 * i, b + 2 * i + 1], bin fun x y => x * u - y * v⟩,
   ⟨a + 2 * i + 1, [b + 2 * i, b + 2 * i + 1], bin fun x y => x * v + y * u⟩]

/-- Body of `_expV` for complex arrays, `VecOp.cu:659-660`, for given `exp`, `cos` and `sin`. -/
def expBody (e c s : K → K) (a b i : Nat) : List (Instr K) :=
  [⟨a + 2 * i, [b + 2 * i, b + 2 * i + 1], bin fun x y => e x * c y⟩,
   ⟨a + 2 * i + 1, [b + 2 * i, b + 2 * i + 1], bin fun x y => e x * s y⟩]

/-- Wrapper of complex `mulVV`, `VecOp.cu:1414-1430`. -/
def mulVVc (d : Device) (s : TA) (A B C : DArr) (bA bB bC n : Nat) (sch : List Nat)
    (mem : Nat → K) : Res (TA × (Nat → K)) :=
  if ¬ A.cap ≥ n + bA then .throw
  else if ¬ B.cap ≥ n + bB then .throw
  else if ¬ C.cap ≥ n + bC then .throw
  else vecLaunch d s n (mulBody (A.base + 2 * bA) (B.base + 2 * bB) (C.base + 2 * bC)) sch mem

/-- Wrapper of complex `mulEqV`, `VecOp.cu:1884-1898`. -/
def mulEqVc (tmp : Nat) (d : Device) (s : TA) (A B : DArr) (bA bB n : Nat) (sch : List Nat)
    (mem : Nat → K) : Res (TA × (Nat → K)) :=
  if ¬ A.cap ≥ n + bA then .throw
  else if ¬ B.cap ≥ n + bB then .throw
  else vecLaunch d s n (mulEqBody tmp (A.base + 2 * bA) (B.base + 2 * bB)) sch mem

/-- Wrapper of complex `mulVS`, `VecOp.cu:1489-1504`. -/
def mulVSc (u v : K) (d : Device) (s : TA) (A B : DArr) (bA bB n : Nat) (sch : List Nat)
    (mem : Nat → K) : Res (TA × (Nat → K)) :=
  if ¬ A.cap ≥ n + bA then .throw
  else if ¬ B.cap ≥ n + bB then .throw
  else vecLaunch d s n (mulSBody u v (A.base + 2 * bA) (B.base + 2 * bB)) sch mem

/-- Wrapper of complex `expV`, `VecOp.cu:1655-1669`. -/
def expVcx (e c sn : K → K) (d : Device) (s : TA) (A B : DArr) (bA bB n : Nat) (sch : List Nat)
    (mem : Nat → K) : Res (TA × (Nat → K)) :=
  if ¬ A.cap ≥ n + bA then .throw
  else if ¬ B.cap ≥ n + bB then .throw
  else vecLaunch d s n (expBody e c sn (A.base + 2 * bA) (B.base + 2 * bB)) sch mem

/-- Body of `_mulVVPair`, `VecOpMisc.cu:181-183`; `input` is a local variable. -/
def pairBody (tmp a1 a2 b1 b2 s i : Nat) : List (Instr K) :=
  [⟨tmp + i, [s + i], un id⟩,
   ⟨a1 + i, [b1 + i, tmp + i], bin (· * ·)⟩,
   ⟨a2 + i, [b2 + i, tmp + i], bin (· * ·)⟩]

/-- `mulVVPair`, `VecOpMisc.cu:426-444`. With `B1 = A1` and `B2 = A2` this is `mulEqVPair`,
`VecOpMisc.cu:202-204, 448-462`. -/
def mulVVPair (tmp : Nat) (d : Device) (s : TA) (A1 A2 B1 B2 S : DArr) (sch : List Nat)
    (mem : Nat → K) : Res (TA × (Nat → K)) :=
  if ¬ A2.cap = A1.cap then .throw
  else if ¬ B1.cap ≥ A1.cap then .throw
  else if ¬ B2.cap ≥ A1.cap then .throw
  else if ¬ S.cap ≥ A1.cap then .throw
  else vecLaunch d s A1.cap (pairBody tmp A1.base A2.base B1.base B2.base S.base) sch mem

/-- Body of `_sqNormV`, `VecOpMisc.cu:276`. -/
def sqNormBody (a b i : Nat) : List (Instr K) :=
  [⟨a + i, [b + 2 * i, b + 2 * i + 1], bin fun x y => x * x + y * y⟩]

/-- `sqNormV`, `VecOpMisc.cu:585-597`. -/
def sqNormV (d : Device) (s : TA) (A B : DArr) (sch : List Nat) (mem : Nat → K) :
    Res (TA × (Nat → K)) :=
  if ¬ B.cap ≥ A.cap then .throw
  else vecLaunch d s A.cap (sqNormBody A.base B.base) sch mem

end Complex

/-- Left fold of the loaded values. -/
def foldV (f : K → K → K) : List K → K
  | [] => default
  | x :: xs => xs.foldl f x

/-- Body of `_addVMany` and `_mulVMany`, `VecOpMisc.cu:228-232, 256-260`. -/
def manyBody (f : K → K → K) (a : Nat) (vecs : List Nat) (i : Nat) : List (Instr K) :=
  [⟨a + i, vecs.map (· + i), foldV f⟩]

/-- `addVMany` and `mulVMany`, `VecOpMisc.cu:465-491, 525-551`. Two vectors are a special case. -/
def opVMany (f : K → K → K) (d : Device) (s : TA) (A : DArr) (vecs : List DArr) (sch : List Nat)
    (mem : Nat → K) : Res (TA × (Nat → K)) :=
  match vecs with
  | [] => .throw
  | [_] => .throw
  | [B, C] => binR f d s A B C 0 0 0 A.cap sch mem
  | B :: C :: D :: rest =>
    vecLaunch d s B.cap (manyBody f A.base ((B :: C :: D :: rest).map DArr.base)) sch mem

end Verif.Cuda
