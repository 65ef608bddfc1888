import Verif.Basic
import Verif.Loop
import Mathlib.Algebra.Order.Field.Basic

/-!
# Model of `SweepTmpl` and of `Sweep<D>::extrapolate`

Sources: `/repo/src/pscf/sweep/SweepTmpl.tpp`, `/repo/src/rpc/scft/sweep/Sweep.tpp`,
`/repo/src/rpc/scft/sweep/BasisFieldState.tpp`.

Path variables are elements of an ordered field `K` (exact arithmetic). The SCFT solver is an
arbitrary outcome for each attempt.
-/

namespace Verif.Sweep

variable {K : Type} [Field K] [LinearOrder K]

/-! ## The stepping loop -/

/-- Local variables of `sweep`: last accepted `s(0)`, step `ds`, list of accepted values with
the index of the attempt that produced them (most recent first), number of attempts made. -/
structure St (K : Type) where
  s : K
  ds : K
  accepted : List (K × Nat)
  attempts : Nat

/-- How a sweep ends. -/
inductive End (K : Type) where
  /-- normal return -/
  | finished (accepted : List (K × Nat)) (attempts : Nat)
  /-- exception "Failure to converge initial state of sweep" -/
  | initialFailed
  /-- exception "Sweep decreased ds too many times." -/
  | tooManyHalvings (accepted : List (K × Nat)) (attempts : Nat)
deriving DecidableEq

/-- Body of the nested `while` loops, one attempt per call, `SweepTmpl.tpp:92-137`. `ok k` is
the outcome of `solve` in attempt `k` (true: converged). -/
def attempt (ds0 : K) (ok : Nat → Bool) (st : St K) : St K ⊕ End K :=
  let sNew := st.s + st.ds
  if ok st.attempts then
    let acc := (sNew, st.attempts) :: st.accepted
    if sNew + st.ds > 10000001 / 10000000 then .inr (.finished acc (st.attempts + 1))
    else .inl { s := sNew, ds := st.ds, accepted := acc, attempts := st.attempts + 1 }
  else
    let ds := st.ds * (1 / 2)
    if ds < 1 / 10 * ds0 then .inr (.tooManyHalvings st.accepted (st.attempts + 1))
    else .inl { s := st.s, ds := ds, accepted := st.accepted, attempts := st.attempts + 1 }

/-- The loop with a bound on the number of attempts; `none` if the bound is exhausted. -/
def loop (ds0 : K) (ok : Nat → Bool) : Nat → St K → Option (End K)
  | 0, _ => none
  | fuel + 1, st =>
    match attempt ds0 ok st with
    | .inr e => some e
    | .inl st' => loop ds0 ok fuel st'

/-- `sweep`, `SweepTmpl.tpp:62-147`. Attempt 0 is the solution of the initial state. -/
def sweep (ns : Int) (ok : Nat → Bool) (fuel : Nat) : Option (End K) :=
  let ds : K := 1 / (ns : K)
  if ok 0 then loop ds ok fuel { s := 0, ds := ds, accepted := [(0, 0)], attempts := 1 }
  else some .initialFailed

/-! ## History of accepted states -/

/-- Members `sHistory_`, `stateHistory_` (as indices into `states_`), `states_`,
`historySize_`, `nAccept_` (`SweepTmpl.h`). -/
structure Hist (K σ : Type) where
  cap : Nat
  sHist : Nat → K
  ptr : Nat → Nat
  states : Nat → σ
  size : Nat
  nAccept : Nat

/-- `initialize`, `SweepTmpl.tpp:199-218`. -/
def Hist.init {σ : Type} (cap : Nat) (states : Nat → σ) : Hist K σ :=
  { cap, sHist := fun _ => 0, ptr := fun i => i, states, size := 0, nAccept := 0 }

/-- `accept(sNew)` with `getSolution` storing the system state `x` in `state(0)`,
`SweepTmpl.tpp:221-246`. -/
def Hist.accept {σ : Type} (h : Hist K σ) (sNew : K) (x : σ) : Hist K σ :=
  let ptr := fun i => if i = 0 then h.ptr (h.cap - 1) else
    if i < h.cap then h.ptr (i - 1) else h.ptr i
  { h with
    sHist := fun i => if i = 0 then sNew else if i < h.cap then h.sHist (i - 1) else h.sHist i
    ptr := ptr
    states := fun p => if p = ptr 0 then x else h.states p
    size := if h.size < h.cap then h.size + 1 else h.size
    nAccept := h.nAccept + 1 }

/-- `state(k)`, `SweepTmpl.h`. -/
def Hist.state {σ : Type} (h : Hist K σ) (k : Nat) : σ := h.states (h.ptr k)

/-! ## Extrapolation -/

/-- `setCoefficients`, `SweepTmpl.tpp:252-281`. -/
def coefficient (n : Nat) (s : Nat → K) (sNew : K) (i : Nat) : K :=
  if n = 1 then 1
  else
    let nd := (List.range n).foldl (fun (nd : K × K) j =>
      if j ≠ i then (nd.1 * (sNew - s j), nd.2 * (s i - s j)) else nd) (1, 1)
    nd.1 / nd.2

/-- Extrapolated field component (or flexible lattice parameter), `Sweep.tpp:157-180, 204-215`;
`y k` is the value in `state(k)`. The first term is assigned, later ones are added. -/
def extrapolated (n : Nat) (s : Nat → K) (sNew : K) (y : Nat → K) : K :=
  (List.range (n - 1)).foldl (fun x k => x + coefficient n s sNew (k + 1) * y (k + 1))
    (coefficient n s sNew 0 * y 0)

/-- Extrapolated lattice parameters, `Sweep.tpp:186-215`: flexible ones are extrapolated, the
others are those of the system. `hist k` are the parameters stored in `state(k)`. -/
def newParameters (n : Nat) (s : Nat → K) (sNew : K) (system : List K) (flex : List Bool)
    (hist : Nat → List K) : List K :=
  (List.range system.length).map fun i =>
    if flex.getD i false then extrapolated n s sNew (fun k => (hist k).getD i 0)
    else system.getD i 0

/-- The flag `newCellParams`, `Sweep.tpp:219-226`: `old` is `unitCellParameters_` before the
call (empty before the first extrapolation). -/
def newCellParams : List K → List K → Bool
  | [], _ => true
  | o :: os, ps =>
    if |o - ps.headD 0| < 1 / 10000000000 then false else newCellParams os ps.tail

/-- Unit cell of the system after `extrapolate`, `Sweep.tpp:226` with
`BasisFieldState.tpp:125-131`. -/
def systemCellAfter (old system new : List K) : List K :=
  if newCellParams old new then new else system

end Verif.Sweep
