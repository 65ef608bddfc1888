import Verif.Cuda.Gpu
import Verif.Cuda.ThreadArray

/-!
# Model of the parallel reductions

Source: `/repo/src/prdc/cuda/Reduce.cu`. Numbers are elements of `K` without rounding, and integer
indices do not overflow. Blocks have separate shared memories and write separate output elements,
so they are executed one after another.
-/

set_option autoImplicit false

namespace Verif.Cuda

variable {K : Type} [Inhabited K]

/-- `sData[t] = op(sData[t], sData[t+s])`, e.g. `sData[tId] += sData[tId+stride];`. -/
def redInstr (op : K → K → K) (s t : Nat) : Instr K :=
  ⟨t, [t + s, t], fun r => op (r.getD 1 default) (r.getD 0 default)⟩

/-- Body of the stride loop between two barriers, `Reduce.cu:151-154`. -/
def phaseProg (op : K → K → K) (s t : Nat) : List (Instr K) :=
  if t < s then [redInstr op s t] else []

/-- Strides of `for (int stride = bDim / 2; stride > 32; stride /= 2)`, `Reduce.cu:150`. -/
def strides (s : Nat) : List Nat :=
  if h : s > 32 then s :: strides (s / 2) else []
termination_by s
decreasing_by omega

/-- Strides of the warp functions, `Reduce.cu:66-71`. -/
def warpStrides : List Nat := [32, 16, 8, 4, 2, 1]

/-- `_warpSum`, `_warpMax`, `_warpMin` executed in lockstep by the 32 threads of a warp, as the
comment in `Reduce.cu:28-36` assumes: all loads of an instruction precede all stores. -/
def lockstep (op : K → K → K) (m : Nat → K) : Nat → K :=
  warpStrides.foldl (fun m s t => if t < 32 then op (m t) (m (t + s)) else m t) m

/-- The same functions as programs of independently scheduled threads. -/
def warpProg (op : K → K → K) (t : Nat) : List (Instr K) :=
  if t < 32 then warpStrides.map fun s => redInstr op s t else []

/-- Stride loop: `sch s` is the schedule of the phase with stride `s`. -/
def strideLoop (op : K → K → K) (sch : Nat → List Nat) (T : Nat) (m : Nat → K) : Nat → K :=
  (strides (T / 2)).foldl (fun m s => runAll (phaseProg op s) (sch s) m) m

/-- Reduction of the `T` elements of shared memory, `Reduce.cu:147-160`. -/
def blockReduce (op : K → K → K) (T : Nat) (sch : Nat → List Nat) (m : Nat → K) : K :=
  lockstep op (strideLoop op sch T m) 0

/-- The parts in which the kernels differ: the operation, the operation at the global memory load,
`fabs` or nothing, and the value for threads beyond the array (`none`: element `idx - n`). -/
structure Kern (K : Type) where
  op : K → K → K
  first : K → K → K
  pre : K → K
  pad : Option K

/-- `if (a > b) b = a` and `(a > b) ? a : b` for a comparison `gt`. -/
def pick (gt : K → K → Bool) (b a : K) : K := if gt a b then a else b
def sel (gt : K → K → Bool) (a b : K) : K := if gt a b then a else b

/-- `_sum`, `Reduce.cu:121-166`; `_innerProduct`, 424-469, where the elements are products. -/
def kSum [Add K] [Zero K] : Kern K := ⟨(· + ·), (· + ·), id, some 0⟩

/-- `_max`, `Reduce.cu:179-225`. -/
def kMax [LinearOrder K] : Kern K :=
  ⟨pick fun a b => a > b, sel fun a b => a > b, id, none⟩

/-- `_maxAbs`, `Reduce.cu:240-288`. -/
def kMaxAbs [LinearOrder K] [Zero K] (abs : K → K) : Kern K :=
  ⟨pick fun a b => a > b, sel fun a b => a > b, abs, some 0⟩

/-- `_min`, `Reduce.cu:301-350`. -/
def kMin [LinearOrder K] : Kern K :=
  ⟨pick fun a b => a < b, sel fun a b => a < b, id, none⟩

/-- `_minAbs`, `Reduce.cu:362-411`. -/
def kMinAbs [LinearOrder K] (abs : K → K) : Kern K :=
  ⟨pick fun a b => a < b, sel fun a b => a < b, abs, none⟩

/-- Global memory load of thread `t` in block `b`, e.g. `Reduce.cu:133-142`, 190-201. -/
def load (k : Kern K) (l : List K) (T b t : Nat) : Res K :=
  let idx := b * (T * 2) + t
  match l[idx]? with
  | some v =>
    match l[idx + T]? with
    | some w => .ok (k.first (k.pre v) (k.pre w))
    | none => .ok (k.pre v)
  | none =>
    match k.pad with
    | some z => .ok z
    | none =>
      match l[idx - l.length]? with
      | some v => .ok (k.pre v)
      | none => .ub

/-- A loop whose body may fail. -/
def mapRes {α β : Type} (f : α → Res β) : List α → Res (List β)
  | [] => .ok []
  | a :: l => f a >>= fun b => mapRes f l >>= fun bs => .ok (b :: bs)

/-- A block: load, reduce, `sum[bId] = sData[0]`. Shared memory has `T` elements
(`nThreads*sizeof(cudaReal)`), and the warp functions access 64. -/
def runBlock (k : Kern K) (l : List K) (T : Nat) (sch : Nat → List Nat) (b : Nat) : Res K :=
  if T < 64 then .ub
  else
    mapRes (load k l T b) (List.range T) >>= fun vs =>
    .ok (blockReduce k.op T sch fun t => vs.getD t default)

/-- Kernel launch `<<<nBlocks, nThreads>>>`; `sch b` is the schedule of block `b`. -/
def runKernel (k : Kern K) (l : List K) (nB T : Nat) (sch : Nat → Nat → List Nat) :
    Res (List K) :=
  mapRes (fun b => runBlock k l T (sch b) b) (List.range nB)

/-- `(float)n` for an `int`: round to nearest, ties to even, 24 significant bits. -/
def toFloat (n : Nat) : Nat :=
  if n < 2 ^ 24 then n
  else
    let e := Nat.log2 n - 23
    let q := n / 2 ^ e
    let r := n % 2 ^ e
    let q := if 2 * r > 2 ^ e ∨ (2 * r = 2 ^ e ∧ q % 2 = 1) then q + 1 else q
    q * 2 ^ e

/-- `int halvedSize = ceil((float)n/2);`, `Reduce.cu:496`. Halving a float is exact. -/
def halved (n : Nat) : Nat := (toFloat n + 1) / 2

/-- Choice of the execution configuration, `Reduce.cu:495-513`. -/
def configure (d : Device) (s : TA) (n : Nat) : Res TA :=
  s.setThreadsLogical d (halved n) >>= fun s =>
  (if s.tpb < 64 then
    s.setThreadsPerBlock d 64 >>= fun s => s.setThreadsLogical d (halved n)
   else .ok s) >>= fun s =>
  Res.check (s.warp == 32) >>= fun _ => .ok s

/-- State of the loop in the wrappers: `temp1`, `temp2`, `n`, `i` and the static variables. -/
structure Wrap (K : Type) where
  temp1 : Option (List K)
  temp2 : Option (List K)
  n : Nat
  i : Nat
  ta : TA

/-- Array with the current data: `in` if `i = 0`, else `temp1` or `temp2`. -/
def Wrap.src (w : Wrap K) (input : List K) : Option (List K) :=
  if w.i = 0 then some input else if w.i % 2 = 1 then w.temp1 else w.temp2

/-- `while (n >= 1e5)` or `while (n >= 1e5 || i == 0)`, e.g. `Reduce.cu:491-537`, 662-708.
`sch i` is the schedule of launch `i`; kernel `k0` is used in the first launch and `k1` in later
ones. `allocate` throws if the array is already allocated or its size is not positive
(`DeviceArray.h:263-281`), and a launch with more threads per block than the device allows is an
error. `none` if the fuel is exhausted. -/
def loop (d : Device) (always : Bool) (k0 k1 : Kern K) (input : List K)
    (sch : Nat → Nat → Nat → List Nat) : Nat → Wrap K → Option (Res (Wrap K))
  | 0, _ => none
  | fuel + 1, w =>
    if w.n ≥ 100000 ∨ (always = true ∧ w.i = 0) then
      match configure d w.ta w.n with
      | .ub => some .ub
      | .throw => some .throw
      | .ok ta =>
        match w.src input with
        | none => some .ub
        | some src =>
          if ta.tpb > d.perBlock then some .throw else
          match runKernel (if w.i = 0 then k0 else k1) src ta.blocks ta.tpb (sch w.i) with
          | .ub => some .ub
          | .throw => some .throw
          | .ok out =>
            if w.i % 2 = 1 then
              if w.temp2.isSome ∨ ta.blocks = 0 then some .throw
              else loop d always k0 k1 input sch fuel ⟨none, some out, ta.blocks, w.i + 1, ta⟩
            else
              if w.temp1.isSome ∨ ta.blocks = 0 then some .throw
              else loop d always k0 k1 input sch fuel ⟨some out, none, ta.blocks, w.i + 1, ta⟩
    else some (.ok w)

/-- The loop with the checks before it and the copy to the host after it. -/
def reduced (d : Device) (always : Bool) (k0 k1 : Kern K) (input : List K)
    (sch : Nat → Nat → Nat → List Nat) (ta : TA) (fuel : Nat) : Option (Res (List K × TA)) :=
  if input.length = 0 then some .throw
  else
    (loop d always k0 k1 input sch fuel ⟨none, none, input.length, 0, ta⟩).map fun r =>
      r >>= fun w =>
      match w.src input with
      | some l => .ok (l, w.ta)
      | none => .throw

/-- Kahan summation on the host, `Reduce.cu:553-562`. -/
def kahan [Add K] [Sub K] [Zero K] (l : List K) : K :=
  (l.foldl (fun (p : K × K) x =>
    let tempVal := x - p.2
    let tempSum := p.1 + tempVal
    (tempSum, tempSum - p.1 - tempVal)) (0, 0)).1

/-- End of `sum`, `Reduce.cu:549-563`. -/
def hostSum [Add K] [Sub K] [Zero K] : List K → Res K
  | [] => .ok (kahan [])
  | [x] => .ok x
  | l => .ok (kahan l)

/-- End of `max`, `min`: `max = temp_h[0]; for ... if (temp_h[i] > max) max = temp_h[i];`. -/
def hostPick (gt : K → K → Bool) : List K → Res K
  | [] => .ub
  | x :: l => .ok (l.foldl (fun m y => if gt y m then y else m) x)

/-- Combination of device and host part, with the static variables afterwards. -/
def finish (host : List K → Res K) (r : Option (Res (List K × TA))) : Option (Res (K × TA)) :=
  r.map fun r => r >>= fun p => host p.1 >>= fun v => .ok (v, p.2)

section Wrappers

variable (d : Device) (sch : Nat → Nat → Nat → List Nat) (ta : TA) (fuel : Nat)

/-- `sum`, `Reduce.cu:480-564`. -/
def gpuSum [Add K] [Sub K] [Zero K] (l : List K) : Option (Res (K × TA)) :=
  finish hostSum (reduced d false kSum kSum l sch ta fuel)

/-- `innerProduct`, `Reduce.cu:891-983`. -/
def gpuInner [Add K] [Sub K] [Zero K] [Mul K] (a b : List K) : Option (Res (K × TA)) :=
  if a.length = 0 ∨ b.length = 0 ∨ a.length ≠ b.length then some .throw
  else finish hostSum (reduced d true kSum kSum (List.zipWith (· * ·) a b) sch ta fuel)

/-- `max`, `Reduce.cu:569-643`. -/
def gpuMax [LinearOrder K] (l : List K) : Option (Res (K × TA)) :=
  finish (hostPick fun a b => a > b) (reduced d false kMax kMax l sch ta fuel)

/-- `maxAbs`, `Reduce.cu:648-725`. -/
def gpuMaxAbs [LinearOrder K] [Zero K] (abs : K → K) (l : List K) : Option (Res (K × TA)) :=
  finish (hostPick fun a b => a > b) (reduced d true (kMaxAbs abs) kMax l sch ta fuel)

/-- `min`, `Reduce.cu:730-804`. -/
def gpuMin [LinearOrder K] (l : List K) : Option (Res (K × TA)) :=
  finish (hostPick fun a b => a < b) (reduced d false kMin kMin l sch ta fuel)

/-- `minAbs`, `Reduce.cu:809-886`. -/
def gpuMinAbs [LinearOrder K] (abs : K → K) (l : List K) : Option (Res (K × TA)) :=
  finish (hostPick fun a b => a < b) (reduced d true (kMinAbs abs) kMin l sch ta fuel)

end Wrappers

end Verif.Cuda
