import Verif.Cuda.ThreadArray

/-!
# Model of ThreadMesh

Source: `/repo/src/pscf/cuda/ThreadMesh.cu`. Static variables form a record; a call returns the
record afterwards and whether it returned normally (false: exception). Simplifications: unsigned
products do not wrap around; messages are not modelled.
-/

set_option autoImplicit false

namespace Verif.Cuda

/-- `dim3`. -/
structure D3 where
  x : Nat
  y : Nat
  z : Nat
deriving DecidableEq

/-- Static variables, `ThreadMesh.cu:26-48`. `maxT = none` and `tpb = 0` stand for -1. -/
structure TM where
  maxT : Option Nat
  tpb : Nat
  warp : Nat
  mesh : D3
  block : D3
  grid : D3
  unused : Bool
deriving DecidableEq

/-- Initial values. -/
def TM.start : TM := ⟨none, 0, 0, ⟨0, 0, 0⟩, ⟨0, 0, 0⟩, ⟨0, 0, 0⟩, false⟩

/-- `init`, `ThreadMesh.cu:53-83`, for a device that is present. -/
def TM.init (d : Device) (s : TM) : TM :=
  { s with maxT := some (shrink d.perBlock (lowBit d.perSM)), warp := d.warp }

/-- `a / b` rounded up: `GRID = MESH / BLOCK; if (MESH % BLOCK) GRID++;`. -/
def ceilDiv (a b : Nat) : Nat := if a % b ≠ 0 then a / b + 1 else a / b

/-- Choice of `BLOCK_DIMS.x`, `ThreadMesh.cu:151-172`. -/
def chooseX (warp x : Nat) : Nat :=
  if x % warp = 0 then warp
  else if x &&& (x - 1) = 0 then x
  else if x / (warp / 2) % 2 = 0 then warp / 2
  else warp

/-- `while (b < m) b *= 2;`, `ThreadMesh.cu:175-178, 182-185`; `b` starts at 1. -/
def growTo (m b : Nat) : Nat :=
  if h : b < m ∧ 0 < b then growTo m (b * 2) else b
termination_by m - b
decreasing_by omega

/-- Loop that shrinks the block, `ThreadMesh.cu:200-218`; state is `BLOCK_DIMS.y`, `BLOCK_DIMS.z`,
`GRID_DIMS.y`, `GRID_DIMS.z`. `none`: the check `BLOCK_DIMS.y > 1` fails. -/
def shrinkYZ (T bx my mz : Nat) (by' bz gy gz : Nat) : Option (Nat × Nat × Nat × Nat) :=
  if h : bx * by' * bz > T then
    if (by' * gy : Int) - my > (bz * gz : Int) - mz ∨ bz = 1 then
      if h2 : by' > 1 then shrinkYZ T bx my mz (by' / 2) bz (ceilDiv my (by' / 2)) gz
      else none
    else shrinkYZ T bx my mz by' (bz / 2) gy (ceilDiv mz (bz / 2))
  else some (by', bz, gy, gz)
termination_by by' + bz
decreasing_by
  · omega
  · have : bz ≠ 0 := by rintro rfl; simp at h
    omega

/-- `while ((BLOCK_DIMS.x < MESH_DIMS.x) && (blockSize < THREADS_PER_BLOCK))`,
`ThreadMesh.cu:225-229`. The model stops if the size is 0, which does not occur. -/
def growX (mx T bx size : Nat) : Nat × Nat :=
  if h : bx < mx ∧ size < T ∧ 0 < size then growX mx T (bx * 2) (size * 2) else (bx, size)
termination_by T - size
decreasing_by omega

/-- `while (blockSize < WARP_SIZE)`, `ThreadMesh.cu:230-237`. -/
def growW (warp bx size : Nat) : Nat × Nat :=
  if h : size < warp ∧ 0 < size then growW warp (bx * 2) (size * 2) else (bx, size)
termination_by warp - size
decreasing_by omega

/-- `checkConfig`, `ThreadMesh.cu:273-321`. -/
def TM.check (s : TM) : Bool :=
  match s.maxT with
  | none => false
  | some M =>
    decide (M &&& (M - 1) = 0) && decide (M % s.warp = 0) && decide (s.tpb % s.warp = 0) &&
    decide (s.block.x ≥ 1) && decide (s.block.y ≥ 1) && decide (s.block.z ≥ 1) &&
    decide (s.block.x * s.block.y * s.block.z = s.tpb) &&
    decide (s.block.x * s.grid.x ≥ s.mesh.x) && decide (s.block.y * s.grid.y ≥ s.mesh.y) &&
    decide (s.block.z * s.grid.z ≥ s.mesh.z)

/-- End of `setConfig`, `ThreadMesh.cu:242-262`. -/
def TM.finish (s : TM) (b : D3) (gy gz tpb : Nat) : TM × Bool :=
  let t := { s with
    tpb := tpb
    block := b
    grid := ⟨ceilDiv s.mesh.x b.x, gy, gz⟩
    unused := decide (s.mesh.x % b.x ≠ 0) || decide (s.mesh.y % b.y ≠ 0) ||
      decide (s.mesh.z % b.z ≠ 0) }
  (t, t.check)

/-- Middle part of `setConfig`, `ThreadMesh.cu:147-240`, for total block size `T`. If the check in
the shrink loop fails, the block and grid dimensions keep their old values in the model. -/
def TM.place (s : TM) (T : Nat) : TM × Bool :=
  let s := { s with tpb := T }
  let bx := chooseX s.warp s.mesh.x
  let b1 := growTo s.mesh.y 1
  let c1 := growTo s.mesh.z 1
  let c1 := if c1 > 64 then 64 else c1
  let gz := ceilDiv s.mesh.z c1
  if bx * b1 * c1 ≥ T then
    match shrinkYZ T bx s.mesh.y s.mesh.z b1 c1 1 gz with
    | none => (s, false)
    | some (b, c, gy, gz) =>
      if bx * b * c = T ∧ bx * b * c % s.warp = 0 then s.finish ⟨bx, b, c⟩ gy gz T
      else (s, false)
  else
    let p := growX s.mesh.x T bx (bx * b1 * c1)
    let p := growW s.warp p.1 p.2
    s.finish ⟨p.1, b1, c1⟩ 1 gz p.2

/-- Does the request match the current configuration? `ThreadMesh.cu:101-117`. Only the first `D`
dimensions are compared. -/
def TM.matches (s : TM) (ds : List Nat) (blockSize : Int) : Bool :=
  if blockSize > 0 ∧ blockSize ≠ s.tpb then false
  else ds == ([s.mesh.x, s.mesh.y, s.mesh.z].take ds.length)

/-- `setConfig<D>(meshDims, invert, blockSize)`, `ThreadMesh.cu:88-263`; `D` is the length of
`dims`, 1, 2 or 3. For a negative `blockSize` see `ThreadMesh.cu:134-135`; `v & (v-1)` for other
values is computed on naturals. -/
def TM.setConfig (d : Device) (s : TM) (dims : List Int) (invert : Bool) (blockSize : Int) :
    TM × Bool :=
  if dims.any (· ≤ 0) then (s, false)
  else
    let s := if s.maxT.isNone then s.init d else s
    let ds := (if invert then dims.reverse else dims).map Int.toNat
    if s.matches ds blockSize then (s, true)
    else
      let s := { s with mesh := ⟨ds.getD 0 1, ds.getD 1 1, ds.getD 2 1⟩ }
      if blockSize < 0 then s.place (s.maxT.getD 0)
      else if blockSize.toNat &&& (blockSize.toNat - 1) ≠ 0 then (s, false)
      else if blockSize.toNat < s.warp then (s, false)
      else s.place blockSize.toNat

/-- `setThreadsPerBlock(int)`, `ThreadMesh.cu:342-360`. A negative number other than `INT_MIN` is
not a power of two; for `INT_MIN` the subtraction overflows (here an exception). -/
def TM.setThreadsPerBlock (d : Device) (s : TM) (v : Int) : TM × Bool :=
  let s := if s.maxT.isNone then s.init d else s
  if v < 0 then (s, false)
  else if v.toNat &&& (v.toNat - 1) ≠ 0 then (s, false)
  else if v.toNat < s.warp then (s, false)
  else ({ s with maxT := some v.toNat }, true)

/-- Calls of the interface. -/
inductive TMCall where
  | config (dims : List Int) (invert : Bool) (blockSize : Int)
  | perBlock (v : Int)

/-- Effect of one call. -/
def TM.call (d : Device) (s : TM) : TMCall → TM × Bool
  | .config dims invert b => s.setConfig d dims invert b
  | .perBlock v => s.setThreadsPerBlock d v

/-- A history of calls; exceptions are caught by the caller. -/
def TM.calls (d : Device) (s : TM) (cs : List TMCall) : TM :=
  cs.foldl (fun s c => (s.call d c).1) s

/-- Mesh point handled by thread `t` of block `b`: `blockIdx * blockDim + threadIdx`. -/
def TM.point (s : TM) (b t : D3) : D3 :=
  ⟨b.x * s.block.x + t.x, b.y * s.block.y + t.y, b.z * s.block.z + t.z⟩

end Verif.Cuda
