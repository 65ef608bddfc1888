import Verif.Cuda.Reduce
import Verif.Crystal.WaveListModel
import Mathlib.Algebra.Order.Ring.Rat

/-!
# Model of `Prdc::Cuda::WaveList`

Source: `/repo/src/prdc/cuda/WaveList.tpp`.  Simplified: exact arithmetic in a field `K`; the elements of
`kSqVals_` and `images_` that belong to one thread are one location of shared memory (both arrays
are accessed by the same threads in the same order).  Blocks work on different waves and are
executed one after another.
-/

set_option autoImplicit false
set_option linter.unusedSectionVars false

namespace Verif.Cuda.Wave

variable {K : Type} [Field K] [LinearOrder K] {D : Nat}

/-- What a thread keeps in shared memory: `kSqVals_[t]` and `images_[D*t], ..., images_[D*t+D-1]`. -/
abbrev Cand (K : Type) (D : Nat) := K × (Fin D → Int)

instance : Inhabited (Cand K D) := ⟨(0, fun _ => 0)⟩

/-- Square of the wavevector, `WaveList.tpp:125-131, 239-248, 331-347`: element `k + D*j` of the array
`kBasis` is `unitCell().kBasis(j)[k]` (`WaveList.tpp:538-552`). -/
def gksq (kB : Fin D → Fin D → K) (u : Fin D → Int) : K :=
  accum D (fun k => accum D (fun j => kB j k * (u j : K)) 0 * accum D (fun j => kB j k * (u j : K)) 0) 0

/-- `s0`, `s1`, `WaveList.tpp:94-104` (`imageID < 32`). -/
def shift2 (id : Nat) : Fin 2 → Int :=
  let s0 := id / 5
  let s1 := id - s0 * 5
  ![(s0 : Int) - 2, (s1 : Int) - 2]

/-- `s0`, `s1`, `s2`, `WaveList.tpp:204-216` (`imageID < 128`). -/
def shift3 (id : Nat) : Fin 3 → Int :=
  let s0 := id / 25
  let s1 := (id - s0 * 25) / 5
  let s2 := id - s0 * 25 - s1 * 5
  ![(s0 : Int) - 2, (s1 : Int) - 2, (s2 : Int) - 2]

/-- The loop over `i` that compares indices, `WaveList.tpp:146-158, 263-275`: the result is `swap`. -/
def lexSwap : List Int → List Int → Bool
  | a :: as, b :: bs => if a > b then false else if a < b then true else lexSwap as bs
  | _, _ => false

/-- One comparison of the reduction, `WaveList.tpp:140-166, 257-285`: what is left in the place of
`a`, where `b` is the candidate at distance `stride`. -/
def better (eps : K) (a b : Cand K D) : Cand K D :=
  if b.1 < a.1 - eps then b
  else if b.1 < a.1 + eps then if lexSwap (List.ofFn a.2) (List.ofFn b.2) then b else a
  else a

/-- Values of `stride`, `WaveList.tpp:137, 254`: `2^(m-1), ..., 2, 1` with `m = 5` or `7`. -/
def treeStrides : Nat → List Nat
  | 0 => []
  | m + 1 => 2 ^ m :: treeStrides m

/-- Body of the loop over `stride`, `WaveList.tpp:138-168, 255-287`, for thread `t` of a block; `N` threads work on one wave and
`act w` tells whether wave `w` of the block is on the k-grid. -/
def phase (eps : K) (N s : Nat) (act : Nat → Bool) (t : Nat) : List (Instr (Cand K D)) :=
  if act (t / N) && decide (t % N < s) then [redInstr (better eps) s t] else []

/-- The loop over `stride` with a barrier in each turn, `WaveList.tpp:252-289`; `sch s` is the order in
which threads run in the turn with stride `s`. -/
def reduceSync (eps : K) (m : Nat) (act : Nat → Bool) (sch : Nat → List Nat) (mem : Nat → Cand K D) :
    Nat → Cand K D :=
  (treeStrides m).foldl (fun mem s => runAll (phase eps (2 ^ m) s act) (sch s) mem) mem

/-- The loop without barriers, `WaveList.tpp:135-171`, if the 32 threads of a warp run in lockstep. -/
def reduceLockstep (eps : K) (m : Nat) (act : Nat → Bool) (mem : Nat → Cand K D) : Nat → Cand K D :=
  (treeStrides m).foldl (fun mem s t => if act (t / 2 ^ m) && decide (t % 2 ^ m < s) then
    better eps (mem t) (mem (t + s)) else mem t) mem

/-- The loop without barriers, `WaveList.tpp:135-171`, as a program of independent threads. -/
def warpLoop (eps : K) (m : Nat) (act : Nat → Bool) (t : Nat) : List (Instr (Cand K D)) :=
  (treeStrides m).flatMap fun s => phase eps (2 ^ m) s act t

/-- Shared memory after the first part of the kernel, `WaveList.tpp:92-132, 202-249`: thread `t` of block
`b` works on wave `(b*T + t)/N` and image `(b*T + t) % N`. -/
def loadCand (kB : Fin D → Fin D → K) (d : Fin D → Int) (shift : Nat → Fin D → Int) (N T : Nat)
    (pos : List (Fin D → Int)) (b t : Nat) : Cand K D :=
  match pos[(b * T + t) / N]? with
  | none => default
  | some v =>
    let u := Crystal.image v d (shift ((b * T + t) % N))
    (gksq kB u, u)

/-- `paramID < kSize`, `WaveList.tpp:95, 118, 205, 230`, for wave `w` of block `b`.  Simplified: the
number `T` of threads of a block is a multiple of `N`, so that no wave is shared by two blocks.
The block has threads for `T / N` waves. -/
def onGrid (n N T b w : Nat) : Bool := decide (w < T / N) && decide (b * (T / N) + w < n)

/-- `_computeMinimumImages<3>`, `WaveList.tpp:196-300`: output for wave `p`, written by the thread with
`imageID == 0`.  `sch b s` is the schedule of block `b`. -/
def kernel3 (eps : K) (kB : Fin 3 → Fin 3 → K) (d : Fin 3 → Int) (T : Nat) (sch : Nat → Nat → List Nat)
    (pos : List (Fin 3 → Int)) (p : Nat) : Cand K 3 :=
  let b := p * 128 / T
  reduceSync eps 7 (onGrid pos.length 128 T b) (sch b) (loadCand kB d shift3 128 T pos b)
    (p * 128 - b * T)

/-- `_computeMinimumImages<2>`, `WaveList.tpp:86-181`, with warps in lockstep. -/
def kernel2 (eps : K) (kB : Fin 2 → Fin 2 → K) (d : Fin 2 → Int) (T : Nat) (pos : List (Fin 2 → Int))
    (p : Nat) : Cand K 2 :=
  let b := p * 32 / T
  reduceLockstep eps 5 (onGrid pos.length 32 T b) (loadCand kB d shift2 32 T pos b) (p * 32 - b * T)

/-- `_computeMinimumImages<2>`, `WaveList.tpp:86-181`, with independent threads under schedule `sch`. -/
def kernel2Free (eps : K) (kB : Fin 2 → Fin 2 → K) (d : Fin 2 → Int) (T : Nat) (sch : Nat → List Nat)
    (pos : List (Fin 2 → Int)) (p : Nat) : Cand K 2 :=
  let b := p * 32 / T
  runAll (warpLoop eps 5 (onGrid pos.length 32 T b)) (sch b) (loadCand kB d shift2 32 T pos b) (p * 32 - b * T)

/-- `while (img > h) img -= d;`, `WaveList.tpp:61-63`. -/
def down (h d : Int) : Nat → Int → Option Int
  | 0, _ => none
  | fuel + 1, x => if x > h then down h d fuel (x - d) else some x

/-- `while (img < -1*h) img += d;`, `WaveList.tpp:64-66`. -/
def up (h d : Int) : Nat → Int → Option Int
  | 0, _ => none
  | fuel + 1, x => if x < -1 * h then up h d fuel (x + d) else some x

/-- `_computeMinimumImages<1>`, `WaveList.tpp:45-71`, for one wave; `none` if the loops do not end. -/
def kernel1 (kB : Fin 1 → Fin 1 → K) (d : Int) (fuel : Nat) (v : Int) : Option (Cand K 1) :=
  (down (d.tdiv 2) d fuel v).bind fun x => (up (d.tdiv 2) d fuel x).map fun img =>
    (((img * img : Int) : K) * kB 0 0 * kB 0 0, fun _ => img)

/-! ## Execution configuration -/

/-- Choice of the configuration, `WaveList.tpp:554-577`: `per` threads for each wave.  The product
`kSize_*threadsPerGP` is an `int`. -/
def configMin (dev : Device) (s : TA) (D per kSize : Nat) : Res TA :=
  if kSize * per ≥ 2147483648 then .ub
  else s.setThreadsLogical dev (kSize * per) >>= fun s =>
    if D = 3 ∧ s.tpb < 128 then
      s.setThreadsPerBlock dev 128 >>= fun s => s.setThreadsLogical dev (kSize * per)
    else .ok s

/-- Configuration of `computedKSq`, `WaveList.tpp:667-673`: `cap` is the capacity of `dkkBasis`. -/
def configDk (dev : Device) (s : TA) (kSize cap : Nat) : Res TA :=
  s.setThreadsLogical dev kSize >>= fun s => Res.check (decide (s.tpb > cap)) >>= fun _ => .ok s

/-! ## Arrays -/

/-- Element `i + j*kSize` of a flat array, `WaveList.tpp:528-536`, is component `j` of wave `i`. -/
def flatten (ws : List (Fin D → Int)) : List Int :=
  (List.finRange D).flatMap fun j => ws.map fun u => u j

/-- `implicitInverse_h`, `WaveList.tpp:480-491`: `i` is the last index and `d` the last dimension. -/
def gpuImplicit (i d : Int) : Bool :=
  let inverseId := if i = 0 then 0 else d - i
  decide (inverseId > d.tdiv 2 + 1)

/-- `minImages_h`, `WaveList.tpp:690-707`: the loops that fill `minImages_h_` from the flat array `temp`
(`k = D*j`).  `cap` is the capacity of `minImages_h_`, which no function allocates, so that it is 0;
accesses beyond an array are undefined.  Simplified: the loop over waves is the outer one here. -/
def hostImages (D kSize cap : Nat) (temp : List Int) : Res (List (List Int)) :=
  if cap < kSize then .ub
  else mapRes (fun i => mapRes (fun j =>
    match temp[i + D * j]? with
    | none => .ub
    | some x => .ok x) (List.range D)) (List.range kSize)

/-- `_computeKSq` for the wave `i`, `WaveList.tpp:328-353`, from the flat array. -/
def kSqAt (kB : Fin D → Fin D → K) (kSize : Nat) (flat : List Int) (i : Nat) : K :=
  gksq kB fun j => flat.getD (i + j.val * kSize) 0

/-- `_computedKSq` for one parameter and wave `i`, `WaveList.tpp:383-413`; `dkk` is element
`k + j*D + param*D*D` of `dkkBasis`. -/
def dKSqAt (dkk : Fin D → Fin D → K) (kSize : Nat) (isReal : Bool) (impl : List Bool) (flat : List Int) (i : Nat) : K :=
  let w : Fin D → K := fun j => (flat.getD (i + j.val * kSize) 0 : Int)
  let x := accum D (fun j => accum D (fun k => w j * w k * dkk j k) 0) 0
  if isReal then (if impl.getD i false then x * 2 else x) else x

/-! ## Calls -/

/-- Data members of `WaveList`, `WaveList.tpp:421-431`, with flat arrays; `cell` holds the parameters of the unit
cell (`none` until initialised). -/
structure GState (D : Nat) where
  cell : Option Crystal.Params
  alloc : Bool
  hasMin : Bool
  hasK : Bool
  hasDK : Bool
  minImages : List Int
  kSq : List ℝ
  dKSq : List ℝ

/-- Constructor, `WaveList.tpp:421-431`. -/
def GState.init {D : Nat} : GState D := ⟨none, false, false, false, false, [], [], []⟩

/-- `clearUnitCellData`, `WaveList.tpp:502-511` (`hasMinImages_h_` is not modelled). -/
def GState.clear (E : Crystal.WaveEnv D) (s : GState D) : GState D :=
  { s with hasK := false, hasDK := false, hasMin := if E.lat.varAngle then false else s.hasMin }

/-- `allocate`, `WaveList.tpp:443-497`, for a mesh and a unit cell that are not empty. -/
def GState.allocate (E : Crystal.WaveEnv D) (s : GState D) : Res (GState D) :=
  if s.alloc then .throw else .ok { s.clear E with alloc := true }

/-- New unit cell parameters, followed by `clearUnitCellData`, which needs the pointer to the cell. -/
def GState.setCell (E : Crystal.WaveEnv D) (s : GState D) (p : Crystal.Params) : Res (GState D) :=
  if s.alloc then .ok ({ s with cell := some p }.clear E) else .ub

/-- `computeMinimumImages`, `WaveList.tpp:516-587`: `ker p i` is the output of the kernel for wave `i`.
Simplified: the launch succeeds. -/
def GState.computeMin (E : Crystal.WaveEnv D) (ker : Crystal.Params → Nat → Cand ℝ D) (s : GState D) :
    Res (GState D) :=
  if s.hasMin then .ok s else
    if s.alloc then
      match s.cell with
      | none => .throw
      | some p =>
        let out := (List.range E.pos.length).map (ker p)
        .ok { s with minImages := flatten (out.map Prod.snd), kSq := out.map Prod.fst,
                     hasMin := true, hasK := true }
    else .throw

/-- `computeKSq`, `WaveList.tpp:592-633`. -/
noncomputable def GState.computeK (E : Crystal.WaveEnv D) (ker : Crystal.Params → Nat → Cand ℝ D) (s : GState D) :
    Res (GState D) :=
  if s.hasK then .ok s else
    if !s.hasMin then s.computeMin E ker else
      match s.cell with
      | none => .throw
      | some p =>
        let k := (List.range E.pos.length).map (kSqAt (E.lat.kBasis p) E.pos.length s.minImages)
        .ok { s with kSq := k, hasK := true }

/-- Second part of `computedKSq`, `WaveList.tpp:648-682`, if the check of the block size succeeds: element
`param*kSize + i` of the array is that of parameter `param` and wave `i`. -/
noncomputable def GState.finishDK (E : Crystal.WaveEnv D) (s : GState D) : Res (GState D) :=
  match s.cell with
  | none => .throw
  | some p => .ok { s with
      dKSq := ((List.finRange 6).filter fun n => n.val < E.lat.nParameter).flatMap fun n =>
        (List.range E.pos.length).map (dKSqAt
          (Crystal.dkkBasis (E.lat.kBasis p) (Crystal.dkBasis (E.lat.kBasis p) (E.lat.drBasis p n)))
          E.pos.length E.isReal (E.pos.map E.impl) s.minImages),
      hasDK := true }

/-- `computedKSq`, `WaveList.tpp:638-683`. -/
noncomputable def GState.computeDK (E : Crystal.WaveEnv D) (ker : Crystal.Params → Nat → Cand ℝ D) (s : GState D) :
    Res (GState D) :=
  if s.hasDK then .ok s else
    if !s.hasMin then
      match s.computeMin E ker with
      | .ok s1 => s1.finishDK E
      | r => r
    else s.finishDK E

/-- One call. -/
noncomputable def GState.step (E : Crystal.WaveEnv D) (ker : Crystal.Params → Nat → Cand ℝ D) (s : GState D) :
    Crystal.WaveOp → Res (GState D)
  | .allocate => s.allocate E
  | .setCell p => s.setCell E p
  | .computeMin => s.computeMin E ker
  | .computeK => s.computeK E ker
  | .computeDK => s.computeDK E ker

/-- A history of calls; exceptions are caught by the caller. -/
noncomputable def GState.run (E : Crystal.WaveEnv D) (ker : Crystal.Params → Nat → Cand ℝ D) :
    GState D → List Crystal.WaveOp → Res (GState D)
  | s, [] => .ok s
  | s, o :: l =>
    match s.step E ker o with
    | .ok s' => GState.run E ker s' l
    | .throw => GState.run E ker s l
    | .ub => .ub

end Verif.Cuda.Wave
