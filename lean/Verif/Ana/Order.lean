import Verif.Basic
import Verif.Loop
import Verif.Solver.Dft
import Verif.Crystal.MinImage
import Mathlib.Analysis.SpecialFunctions.Pow.Real

/-!
# Model of the order parameters of field theoretic simulations

Sources: `/repo/src/rpc/fts/analyzer/FourthOrderParameter.tpp`, `MaxOrderParameter.tpp`. The classes of
`/repo/src/rpg` compute the same values (prefactors on the host, squares on the device).

`eh` maps a rank of the half mesh to its wave; rank 0 is the wave zero. Real numbers stand for `double`.
-/

set_option autoImplicit false

namespace Verif.Ana

open Verif.Solver

variable {m : Nat} {N : Fin (m + 1) → Nat} [∀ d, NeZero (N d)] {n nk : Nat}

/-- `GminList[rank]`, `FourthOrderParameter.tpp:191-196`, `MaxOrderParameter.tpp:113-116`; `kB` is the
reciprocal basis of the unit cell. -/
noncomputable def gmin (kB : Crystal.BasisVecs (m + 1)) (k : Half N) : Fin (m + 1) → Int :=
  Crystal.shiftToMinimum kB (fun d => ((k.1 d).val : Int)) (fun d => (N d : Int))

variable {D : Nat}

/-- Body of the search loop, `FourthOrderParameter.tpp:213-219`; the flag is `inverseFound`. -/
noncomputable def search (g : Fin nk → Fin D → Int) (i : Fin nk) (s : (Fin nk → ℝ) × Bool) (l : Fin nk) :
    (Fin nk → ℝ) × Bool :=
  if -g i = g l then (Function.update (Function.update s.1 i (1 / 2)) l (1 / 2), true) else s

open Classical in
/-- Body of the loop over waves, `FourthOrderParameter.tpp:200-228`. -/
noncomputable def prefStep (g : Fin nk → Fin D → Int) (p : Fin nk → ℝ) (i : Fin nk) : Fin nk → ℝ :=
  if p i = 0 then
    let s := ((List.finRange nk).drop i).foldl (search g i) (p, false)
    if s.2 then s.1 else Function.update s.1 i 1
  else p

/-- `computePrefactor`, `FourthOrderParameter.tpp:178-230`; `p` is the array on entry, which `setup` sets
to zero before the first simulation only (`:75-81`). -/
noncomputable def computePrefactor (g : Fin nk → Fin D → Int) (p : Fin nk → ℝ) : Fin nk → ℝ :=
  (List.finRange nk).foldl (prefStep g) p

variable (en : Fin n ≃ Grid N)

/-- `FourthOrderParameter::compute`, `FourthOrderParameter.tpp:90-120`, for `q` the field `wc(0)` and
prefactors `p`. -/
noncomputable def fourthOrder {r : Nat} (eh : Fin (r + 1) → Half N) (p : Fin (r + 1) → ℝ) (q : Fld n ℝ) : ℝ :=
  let psi (i : Fin (r + 1)) : ℝ := Complex.normSq (r2c en q (eh i)) * Complex.normSq (r2c en q (eh i)) * p i
  (accum r (fun i => psi i.succ) 0) ^ (1 / 4 : ℝ)

open Classical in
/-- `MaxOrderParameter::compute`, `MaxOrderParameter.tpp:91-134`: the value and the index of the wave
`GminStar_`. With a single wave the element `psi[1]` does not exist. -/
noncomputable def maxOrder (eh : Fin nk → Half N) (q : Fld n ℝ) : Res (ℝ × Fin nk) :=
  let psi (i : Fin nk) : ℝ := Complex.normSq (r2c en q (eh i))
  if h : 1 < nk then
    .ok (((List.finRange nk).drop 2).foldl
      (fun s i => if psi i > s.1 then (psi i, i) else s) (psi ⟨1, h⟩, ⟨1, h⟩))
  else .ub

end Verif.Ana
