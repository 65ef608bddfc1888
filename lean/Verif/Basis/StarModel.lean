import Verif.Crystal.SymModel
import Verif.Mesh.Model

/-!
# Model of the construction of stars in `Basis<D>::makeStars`

Source: `/repo/src/prdc/crystal/Basis.tpp:357-612`, `TWave.h`.  Phases are kept in units of `2π`
(the code multiplies by `twoPi` after reducing to `(-1/2, 1/2]`); rational translations and phases
are exact.  `tw` is the double `Constants::Pi*2`, `tol` is `1.0E-6`.
-/

namespace Verif.Stars
open Verif.Crystal (Sym)

variable {D : Nat}

/-- `mesh().shift(v)` for a mesh with dimensions `d`. -/
def sh (d v : Fin D → Int) : Fin D → Int := fun i => (Mesh.shift1 (v i) (d i)).2

/-- `TWave<D>`, `TWave.h:24-30` without the norm. -/
structure TWave (D : Nat) where
  phase : ℚ
  dft : Fin D → Int
  bz : Fin D → Int

/-- `while (phase > 0.5) phase -= 1.0;` with a bound on the number of turns. -/
def down : Nat → ℚ → ℚ
  | 0, x => x
  | fuel + 1, x => if x > 1 / 2 then down fuel (x - 1) else x

/-- `while (phase <= -0.5) phase += 1.0;` with a bound on the number of turns. -/
def up : Nat → ℚ → ℚ
  | 0, x => x
  | fuel + 1, x => if x ≤ -(1 / 2) then up fuel (x + 1) else x

/-- The two loops, `Basis.tpp:445-450, 482-487`; `reduce_spec` shows that the bound suffices. -/
def reduce (x : ℚ) : ℚ := up (x.num.natAbs + 1) (down (x.num.natAbs + 1) x)

/-- `Σ rootVecBz[k]*group[j].t(k)`, `Basis.tpp:441-444`. -/
def phaseSum (v : Fin D → Int) (A : Sym D) : ℚ := accum D (fun k => (v k : ℚ) * A.t k) 0

/-- Fixed data of the loops. -/
structure StarEnv (D : Nat) where
  dims : Fin D → Int
  group : List (Sym D)
  ksq : (Fin D → Int) → ℚ
  minIm : (Fin D → Int) → Fin D → Int
  epsilon : ℚ
  tol : ℚ
  tw : ℚ

/-- State of the loop over the group: the set `star` (in order of insertion) and `cancel`. -/
structure StarState (D : Nat) where
  star : List (TWave D)
  cancel : Bool

/-- Body of the loop over symmetry operations, `Basis.tpp:427-492`. -/
def starStep (E : StarEnv D) (root : TWave D) (st : StarState D) (A : Sym D) :
    Res (StarState D) := do
  let vec := Sym.vecMul root.bz A
  Res.check (decide (|E.ksq root.bz - E.ksq vec| < E.epsilon))
  let wave : TWave D := { phase := reduce (phaseSum root.bz A), dft := sh E.dims vec, bz := E.minIm vec }
  let cancel1 := if wave.dft = root.dft then
      (if |wave.phase * E.tw| > E.tol then true else st.cancel) else st.cancel
  match st.star.find? (fun w => decide (w.dft = wave.dft)) with
  | none => pure { star := st.star ++ [wave], cancel := cancel1 }
  | some w =>
    if |reduce (w.phase * E.tw - wave.phase * E.tw)| > E.tol then
      pure { star := st.star, cancel := true }
    else pure { star := st.star, cancel := cancel1 }

/-- The loop over the group. -/
def starFold (E : StarEnv D) (root : TWave D) : List (Sym D) → StarState D → Res (StarState D)
  | [], st => .ok st
  | A :: l, st => do
    let st' ← starStep E root st A
    starFold E root l st'

/-- Star generated by a root, `Basis.tpp:415-494`. -/
def buildStar (E : StarEnv D) (root : TWave D) : Res (StarState D) :=
  starFold E root E.group { star := [], cancel := false }

/-- A `Star` object with its waves (before sorting by `indicesBz`) and its root. -/
structure StarRec (D : Nat) where
  root : TWave D
  waves : List (TWave D)
  cancel : Bool
  invertFlag : Int

/-- `list.erase` for every wave of the star, `Basis.tpp:509-512`. -/
def eraseStar (list star : List (TWave D)) : List (TWave D) :=
  list.filter (fun w => !star.any (fun v => decide (v.dft = w.dft)))

/-- The loop over stars within a list of waves of equal norm, `Basis.tpp:413-612`.  `list` is the
`std::set` in increasing order; `inv` is the root wave of the next star when `nextInvert == -1`.
`none`: not finished within the bound. -/
def starLoop (E : StarEnv D) : Nat → List (TWave D) → (inv : Option (TWave D)) →
    Option (Res (List (StarRec D)))
  | _, [], _ => some (.ok [])
  | 0, _ :: _, _ => none
  | fuel + 1, first :: tail, inv =>
    let list := first :: tail
    let root := inv.getD first
    match buildStar E root with
    | .throw => some .throw
    | .ub => some .ub
    | .ok st =>
      let rest := eraseStar list st.star
      -- `UTIL_CHECK((int)(tempList.size()+list.size()) == listSize)`
      if st.star.length + rest.length ≠ list.length then some .throw
      else
        match inv with
        | some _ =>
          match starLoop E fuel rest none with
          | none => none
          | some r => some (r.map (⟨root, st.star, st.cancel, -1⟩ :: ·))
        | none =>
          let nVec := sh E.dims (fun i => - root.bz i)
          if st.star.any (fun w => decide (nVec = w.dft)) then
            match starLoop E fuel rest none with
            | none => none
            | some r => some (r.map (⟨root, st.star, st.cancel, 0⟩ :: ·))
          else
            match rest.find? (fun w => decide (nVec = w.dft)) with
            | none => some .throw
            | some w =>
              match starLoop E fuel rest (some w) with
              | none => none
              | some r => some (r.map (⟨root, st.star, st.cancel, 1⟩ :: ·))

end Verif.Stars
