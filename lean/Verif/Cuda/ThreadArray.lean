import Verif.Basic

/-!
# Model of ThreadArray

Source: `/repo/src/pscf/cuda/ThreadArray.cu`. Static variables form a record. The warning printed
for suboptimal block sizes and the number of devices are not modelled.
-/

set_option autoImplicit false

namespace Verif.Cuda

/-- Device properties used by the code (`cudaDeviceProp`). -/
structure Device where
  warp : Nat
  perSM : Nat
  perBlock : Nat

/-- Static variables, `ThreadArray.cu:13-31`. `maxT = none` stands for the initial value -1. -/
structure TA where
  maxT : Option Nat
  tpb : Nat
  blocks : Nat
  logical : Nat
  warp : Nat
  unused : Bool
deriving DecidableEq

/-- Initial values; those that are never read before being set are 0. -/
def TA.start : TA := ⟨none, 0, 0, 0, 0, false⟩

/-- `m & ~(m-1)`, the lowest set bit (`ThreadArray.cu:69`); for `m > 0`. -/
def lowBit (m : Nat) : Nat :=
  if h : m = 0 then 0 else if m % 2 = 1 then 1 else 2 * lowBit (m / 2)
decreasing_by omega

/-- `while (threadsPerBlock > maxThreadsPerBlock) threadsPerBlock /= 2;`,
`ThreadArray.cu:72-74`. -/
def shrink (lim v : Nat) : Nat :=
  if h : v > lim then shrink lim (v / 2) else v
termination_by v
decreasing_by omega

/-- `setThreadsPerBlock(int)` with `checkExecutionConfig`, `ThreadArray.cu:79-85, 131-171`.
A negative `v` other than `INT_MIN` has `v & (v-1) != 0`; for `INT_MIN` the subtraction overflows.
The remainder by 0 in line 154 is undefined. -/
def TA.setThreadsPerBlock (d : Device) (s : TA) (v : Int) : Res TA :=
  if v = -2147483648 then .ub
  else if v < 0 then .throw
  else if v.toNat &&& (v.toNat - 1) ≠ 0 then .throw
  else if d.warp = 0 then .ub
  else if v.toNat % d.warp ≠ 0 then .throw
  else if v = 0 then .ub
  else .ok { s with maxT := some v.toNat, blocks := 0, logical := 0, warp := d.warp }

/-- `setThreadsPerBlock()`, `ThreadArray.cu:58-77`. -/
def TA.setDefault (d : Device) (s : TA) : Res TA :=
  s.setThreadsPerBlock d (shrink d.perBlock (lowBit d.perSM))

/-- Second part of `setThreadsLogical(int)`, `ThreadArray.cu:96-111`. The quotient of the two
doubles is exact because the divisor is a power of two; the product `BLOCKS*THREADS_PER_BLOCK`
overflows if it is at least 2^31. -/
def TA.goLogical (s : TA) (n T : Nat) : Res TA :=
  if s.logical = n then .ok s
  else if (n + T - 1) / T * T ≥ 2147483648 then .ub
  else .ok { s with tpb := T, blocks := (n + T - 1) / T, logical := n,
                    unused := decide ((n + T - 1) / T * T > n) }

/-- `setThreadsLogical(int)`, `ThreadArray.cu:87-113`, for an argument that is not negative. -/
def TA.setThreadsLogical (d : Device) (s : TA) (n : Nat) : Res TA :=
  match s.maxT with
  | some T => s.goLogical n T
  | none => s.setDefault d >>= fun s =>
    match s.maxT with
    | some T => s.goLogical n T
    | none => .ub

/-- Calls of the interface. -/
inductive TACall where
  | perBlock (v : Int)
  | default
  | logical (n : Nat)

/-- Effect of one call. -/
def TA.call (d : Device) (s : TA) : TACall → Res TA
  | .perBlock v => s.setThreadsPerBlock d v
  | .default => s.setDefault d
  | .logical n => s.setThreadsLogical d n

/-- A history of calls, none of which throws. -/
def TA.calls (d : Device) : TA → List TACall → Res TA
  | s, [] => .ok s
  | s, c :: cs => s.call d c >>= fun s => TA.calls d s cs

end Verif.Cuda
