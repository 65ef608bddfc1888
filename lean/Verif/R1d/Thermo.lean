import Verif.R1d.Model
import Verif.Thermo.Model
import Verif.FloryHuggins.Model
import Verif.Inter.Model

/-!
# Model of thermodynamic output of the one-dimensional program

Sources: `/repo/src/r1d/System.cpp` (`computeFreeEnergy`, `iterate`, `compute`, `readCommands`),
`/repo/src/r1d/misc/HomogeneousComparison.cpp`.

Doubles are real numbers. Species are listed polymers first, then solvents.
-/

set_option autoImplicit false

namespace Verif.R1d

open Verif

noncomputable section

/-- Results of `computeFreeEnergy`: members `fHelmholtz_`, `fIdeal_`, `fInter_`, `pressure_`. -/
structure ThermoOut where
  fHelmholtz : ℝ
  fIdeal : ℝ
  fInter : ℝ
  pressure : ℝ

variable {M : Nat}

/-- Subtraction of `innerProduct(w_i, c_i)` for all monomer types, `System.cpp:551-555`. -/
def legendre (d : Domain ℝ) (w c : Fin M → Nat → ℝ) : List (Fin M) → ℝ → Res ℝ
  | [], f => .ok f
  | i :: is, f => d.innerProduct (w i) (c i) >>= fun x => legendre d w c is (f - x)

/-- `System::computeFreeEnergy`, `System.cpp:511-603`. The terms of polymers and of solvents have
the same form (`Thermo.idealSpecies`, `Thermo.pressureSpecies`); `phi*mu/length` is written
`mu*phi/length` there. -/
def freeEnergy (d : Domain ℝ) (species : List Thermo.Spec) (chi : Fin M → Fin M → ℝ)
    (w c : Fin M → Nat → ℝ) : Res ThermoOut :=
  legendre d w c (List.finRange M) (Thermo.idealSpecies species 0) >>= fun fIdeal =>
  d.spatialAverage (fun i => Inter.fHelmholtz chi (fun j => c j i)) >>= fun a =>
  let f := fIdeal + a
  .ok ⟨f, fIdeal, f - fIdeal, Thermo.pressureSpecies species (-f)⟩

/-! ## Comparison with a homogeneous mixture -/

/-- State of the homogeneous mixture after `HomogeneousComparison::compute`. -/
structure HomOut (m : Nat) where
  phi : Fin (m + 1) → ℝ
  mu : Fin (m + 1) → ℝ
  fHelmholtz : ℝ
  pressure : ℝ

open Classical in
/-- Array read by the code; elements that were never assigned are `none`, reading one is undefined. -/
def readAll {n : Nat} (a : Fin n → Option ℝ) : Res (Fin n → ℝ) :=
  if ∃ i, a i = none then .ub else .ok fun i => (a i).getD 0

/-- Elements `i < np` of an array are assigned, `HomogeneousComparison.cpp:68-70`, `82-84`, `95-101`. -/
def assignPolymers {n : Nat} (np : Nat) (v : Fin n → ℝ) (i : Fin n) : Option ℝ :=
  if (i : Nat) < np then some (v i) else none

/-- `HomogeneousComparison::compute(mode)`, `HomogeneousComparison.cpp:57-112`, for a mixture of `np`
polymers and `m + 1 - np` solvents. `phi`, `mu`: volume fractions and chemical potentials of the
species of the inhomogeneous system, `guess mode`: sum of the block concentrations at the chosen grid
point. `setComposition` reads all elements of `p_` but the last; `computePhi` also reads all elements
of `m_`. `newton` is the linear solver (see `FH.newtonLoop`). -/
def homCompute {m : Nat} (mols : FH.Mols m M) (chi : Matrix (Fin M) (Fin M) ℝ)
    (newton : FH.NState m M → Fin (m + 1) → ℝ) (np : Nat) (phi mu : Fin (m + 1) → ℝ)
    (guess : Int → Fin (m + 1) → ℝ) (mode : Int) : Res (HomOut m) :=
  if mode = 0 then
    let p := assignPolymers np phi
    (readAll (fun i : Fin m => p i.castSucc)).bind fun _ =>
    (FH.setComposition mols (fun i => (p i).getD 0)).bind fun pc =>
    (FH.computeMu mols chi pc.1 pc.2 0).bind fun mu' =>
    (FH.computeFreeEnergy mols chi pc.1 pc.2 mu').bind fun fp =>
    .ok ⟨pc.1, mu', fp.1, fp.2⟩
  else if mode = 1 ∨ mode = 2 then
    let p := assignPolymers np (guess mode)
    (readAll (fun i : Fin m => p i.castSucc)).bind fun _ =>
    (readAll (assignPolymers np mu)).bind fun target =>
    (FH.computePhi mols chi newton target (fun i => (p i).getD 0) 0).bind fun s =>
    (FH.computeFreeEnergy mols chi s.phi s.c s.mu).bind fun fp =>
    .ok ⟨s.phi, s.mu, fp.1, fp.2⟩
  else .throw

/-- Values printed by `output`. -/
structure HomPrint (m : Nat) where
  fHomo : ℝ
  deltaF : ℝ
  /-- `p (homo)`, `delta p`, `Phi (ex)`, `F (ex)`, `V(tot)/v` in modes 1 and 2. -/
  excess : Option (ℝ × ℝ × ℝ × ℝ × ℝ)
  /-- `deltaV` of the species, modes 1 and 2. -/
  deltaV : Option (Fin (m + 1) → ℝ)

open Classical in
/-- `HomogeneousComparison::output`, `HomogeneousComparison.cpp:120-196`. `f`, `p`: stored values of
the system; `mixture().polymer(i)` with `i ≥ np` is out of range. An unknown mode prints nothing. -/
def homOutput {m : Nat} (np : Nat) (phi : Fin (m + 1) → ℝ) (f p volume vMonomer : ℝ)
    (h : HomOut m) (mode : Int) : Res (Option (HomPrint m)) :=
  if mode = 0 then .ok (some ⟨h.fHelmholtz, f - h.fHelmholtz, none, none⟩)
  else if mode = 1 ∨ mode = 2 then
    let pEx := p - h.pressure
    let fEx := f - h.fHelmholtz
    let V := volume / vMonomer
    if ∃ i : Fin (m + 1), ¬ (i : Nat) < np then .ub
    else .ok (some ⟨h.fHelmholtz, fEx, some (h.pressure, pEx, -1 * pEx * V, fEx * V, V),
      some fun i => (phi i - h.phi i) * V⟩)
  else .ok none

/-! ## The system -/

/-- What the commands of the one-dimensional program do to stored data. `Par`: parameters, `Fld`:
fields `w`, `Sol`: concentrations and species data left by the mixture, `Th`: free energy data.
`homPar`: parameters with which the homogeneous mixture was initialised (`System.cpp:179`), `sol`,
`th`: `none` before they are first computed (the code then prints initial values). -/
structure Sys (Par Fld Sol Th : Type) where
  par : Par
  homPar : Par
  w : Fld
  sol : Option Sol
  th : Option Th

/-- Components of the program used by commands. `solve p w` is `iterator().solve`: success, final
fields, and what the mixture holds at the end. -/
structure Prog (Par Fld Sol Th : Type) where
  mix : Par → Fld → Sol
  free : Par → Fld → Sol → Th
  solve : Par → Fld → Bool × Fld × Sol

/-- Commands and actions that change the data. -/
inductive Cmd (Par Fld : Type) where
  /-- `READ_W`, also `extrapolate` and `reset` in a sweep -/
  | readW (w : Fld)
  /-- `COMPUTE` -/
  | compute
  /-- `ITERATE`, also `solve` in a sweep -/
  | iterate
  /-- `setParameters` in a sweep -/
  | setPar (p : Par)

variable {Par Fld Sol Th : Type}

/-- State after `readParam`, `System.cpp:173-208`. -/
def Sys.init (p : Par) (w : Fld) : Sys Par Fld Sol Th := ⟨p, p, w, none, none⟩

/-- One command: `System.cpp:291-305` (`READ_W`, `COMPUTE`, `ITERATE`), `460-494` (`compute`,
`iterate`), `sweep/Sweep.cpp:114-160`. Only `iterate` updates the free energy, and only after success. -/
def Sys.run (P : Prog Par Fld Sol Th) (s : Sys Par Fld Sol Th) : Cmd Par Fld → Sys Par Fld Sol Th
  | .readW w => { s with w := w }
  | .compute => { s with sol := some (P.mix s.par s.w) }
  | .iterate =>
    let r := P.solve s.par s.w
    let s' := { s with w := r.2.1, sol := some r.2.2 }
    if r.1 then { s' with th := some (P.free s.par r.2.1 r.2.2) } else s'
  | .setPar p => { s with par := p }

/-- A sequence of commands. -/
def Sys.runs (P : Prog Par Fld Sol Th) (s : Sys Par Fld Sol Th) (l : List (Cmd Par Fld)) :
    Sys Par Fld Sol Th := l.foldl (Sys.run P) s

end

end Verif.R1d
