import Verif.Solver.Stress
import Verif.Chem.Runtime
import Verif.Thermo.Model

/-!
# Model of a mixture: concentrations, thermodynamics and stress

Sources: `/repo/src/prdc/solvers/MixturePrdc.tpp`, `/repo/src/rpc/solvers/{Polymer,Solvent}.tpp`,
`/repo/src/prdc/system/ScftThermoTmpl.tpp`.

Numbers are real. Range checks of monomer ids are replaced by the type `Fin M`.
-/

set_option autoImplicit false

namespace Verif.Solver

open Verif.Chem

/-- A polymer species after reading: its blocks, the result of `readParameters`, and for each block
the monomer type, the number of slices and the contour step; `total` is `length()` or `nBead()`. -/
structure PolySpec (M : Nat) where
  es : List Edge
  poly : Polymer
  mono : Nat → Fin M
  ns : Nat → Nat
  ds : Nat → ℝ
  total : ℝ
  species : Species

/-- A solvent species. -/
structure SolvSpec (M : Nat) where
  mono : Fin M
  size : ℝ
  species : Species

/-- A mixture; `kuhn` are the segment lengths of the monomer types. -/
structure Mixture (M : Nat) where
  polymers : List (PolySpec M)
  solvents : List (SolvSpec M)
  kuhn : Fin M → ℝ

/-- State of a polymer after `compute`: propagators, `q()`, species data and block fields. -/
structure PolyOut (n : Nat) where
  st : Pid → Option (Nat → Fld n ℝ)
  Q : ℝ
  species : Species
  conc : List (Fld n ℝ)

/-- State of a solvent after `compute`. -/
structure SolvOut (n : Nat) where
  species : Species
  conc : Fld n ℝ

/-- State of the mixture after `compute` and the monomer concentration fields. -/
structure MixOut (M n : Nat) where
  polys : List (PolyOut n)
  solvs : List (SolvOut n)
  c : Fin M → Fld n ℝ

/-- A loop that ends at the first exception. -/
def runAll {α β : Type} (f : α → Res β) : List α → Res (List β)
  | [] => .ok []
  | a :: l => (f a).bind fun b => (runAll f l).bind fun r => .ok (b :: r)

section

variable {m : Nat} {N : Fin (m + 1) → Nat} [∀ d, NeZero (N d)] {n M : Nat}

/-- Arrays of the blocks after `setupSolver`, `Polymer.tpp:62-67`. -/
noncomputable def PolySpec.blk (p : PolySpec M) (bead : Bool) (kuhn : Fin M → ℝ)
    (w : Fin M → Fld n ℝ) (ksq : Half N → ℝ) (k : Nat) : BlockData ℝ n (Half N) :=
  realBlock bead (w (p.mono k)) (p.ns k) (p.ds k) (kuhn (p.mono k)) ksq

variable (en : Fin n ≃ Grid N)

/-- `Polymer::compute`, `Polymer.tpp:57-86`, with `Species::setQ` called by `PolymerTmpl::solve`. -/
noncomputable def PolySpec.compute (p : PolySpec M) (bead : Bool) (kuhn : Fin M → ℝ)
    (w : Fin M → Fld n ℝ) (ksq : Half N → ℝ) (phiTot : ℝ) : Res (PolyOut n) :=
  let blk := p.blk bead kuhn w ksq
  (polymerSolve (dftKin en) bead blk p.es p.poly.vertices p.poly.plan phiTot).bind fun r =>
    (p.species.setQ r.2).bind fun s =>
      (runAll (fun k => match blockConc bead blk r.1 s.phi r.2 p.total k with
        | none => .throw
        | some c => .ok c) (List.range p.es.length)).bind fun cs =>
      .ok ⟨r.1, r.2, s, cs⟩

/-- `Solvent::compute`, `Solvent.tpp:56-99`. -/
noncomputable def SolvSpec.compute (s : SolvSpec M) (w : Fin M → Fld n ℝ) (phiTot : ℝ) :
    Res (SolvOut n) :=
  let e : Fld n ℝ := fun i => Real.exp (-s.size * w s.mono i)
  let Q := accum n (fun i => e i) 0
  let Q := Q / (n : ℝ)
  let Q := Q / phiTot
  (s.species.setQ Q).bind fun r =>
    .ok ⟨r, fun i => e i * (r.phi / Q)⟩

/-- `addEqV(cFields[monomerId], field)`. -/
def addTo (c : Fin M → Fld n ℝ) (i : Fin M) (b : Fld n ℝ) : Fin M → Fld n ℝ :=
  fun j x => if j = i then c j x + b x else c j x

/-- Inner loop over the blocks of one polymer, `MixturePrdc.tpp:182-190`. -/
def addBlocks (mono : Nat → Fin M) : Nat → List (Fld n ℝ) → (Fin M → Fld n ℝ) → (Fin M → Fld n ℝ)
  | _, [], c => c
  | k, b :: bs, c => addBlocks mono (k + 1) bs (addTo c (mono k) b)

/-- `MixturePrdc::compute`, `MixturePrdc.tpp:151-219`. -/
noncomputable def Mixture.compute (x : Mixture M) (bead : Bool) (w : Fin M → Fld n ℝ)
    (ksq : Half N → ℝ) (phiTot : ℝ) : Res (MixOut M n) :=
  (runAll (fun p : PolySpec M => p.compute en bead x.kuhn w ksq phiTot) x.polymers).bind fun ps =>
    let c : Fin M → Fld n ℝ := (x.polymers.zip ps).foldl
      (fun c q => addBlocks q.1.mono 0 q.2.conc c) (fun _ _ => 0)
    (runAll (fun s : SolvSpec M => s.compute w phiTot) x.solvents).bind fun ss =>
      .ok ⟨ps, ss, (x.solvents.zip ss).foldl (fun c q => addTo c q.1.mono q.2.conc) c⟩

/-- `MixturePrdc::computeStress`, `MixturePrdc.tpp:229-266`, for one unit cell parameter. -/
noncomputable def Mixture.stress (x : Mixture M) (bead : Bool) (w : Fin M → Fld n ℝ)
    (ksq : Half N → ℝ) (dKSq : Half N → ℝ) (phiTot : ℝ) (o : MixOut M n) : Res ℝ :=
  (runAll (fun q : PolySpec M × PolyOut n =>
    match polymerStress en bead (q.1.blk bead x.kuhn w ksq) (fun k => x.kuhn (q.1.mono k)) q.1.es
        q.1.poly.vertices dKSq q.2.st q.2.species.phi q.2.Q q.1.total with
    | none => .throw
    | some s => .ok s) (x.polymers.zip o.polys)).bind fun l => .ok (mixtureStress phiTot l)

/-- Species data read by `ScftThermoTmpl::compute`, `ScftThermoTmpl.tpp:77-104`. -/
def Mixture.specs (x : Mixture M) (o : MixOut M n) : List Thermo.Spec :=
  (x.polymers.zip o.polys).map (fun q => ⟨q.2.species.phi, q.2.species.mu, q.1.total⟩) ++
    (x.solvents.zip o.solvs).map (fun q => ⟨q.2.species.phi, q.2.species.mu, q.1.size⟩)

/-- Inputs of `ScftThermoTmpl::compute` after `compute`, in grid form. -/
def Mixture.thermo (x : Mixture M) (chi : Fin M → Fin M → ℝ) (h : Option (Fin M → Fld n ℝ))
    (w : Fin M → Fld n ℝ) (phiTot : ℝ) (o : MixOut M n) : Thermo.Input M n where
  species := x.specs o
  chi := chi
  basis := false
  w := w
  c := o.c
  h := h
  phiTot := phiTot

end

end Verif.Solver
