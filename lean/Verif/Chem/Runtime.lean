import Verif.Basic
import Mathlib.Analysis.SpecialFunctions.Log.Basic

/-!
# Model of `Species` and of the global `PolymerModel` variable

Sources: `/repo/src/pscf/chem/Species.h`, `Species.cpp`, `PolymerModel.h`, `PolymerModel.cpp`.
Doubles are modelled by real numbers (no rounding, no NaN or infinities).
-/

namespace Verif.Chem

/-- Call `step` for each operation of a history. An operation that throws leaves the
state as it was and the history goes on (the caller caught the exception). Returns the
flags "did not throw" and the final state. -/
def runHistory {σ ω : Type} (step : σ → ω → Res σ) : σ → List ω → List Bool × σ
  | s, [] => ([], s)
  | s, o :: os =>
    match step s o with
    | .ok s' => let r := runHistory step s' os; (true :: r.1, r.2)
    | _ => let r := runHistory step s os; (false :: r.1, r.2)

/-! ## Species

Text input and output of the enumerations is modelled in `Verif/Text/Model.lean`. -/

/-- `Species::Ensemble`, `chem/Species.h:40`. -/
inductive Ensemble where
  | unknown | closed | opened
deriving DecidableEq, Repr

/-- Members of `Species`, `chem/Species.h:120-143`. -/
structure Species where
  phi : ℝ
  mu : ℝ
  q : ℝ
  ens : Ensemble

/-- Constructor, `chem/Species.cpp:18-23`. -/
noncomputable def Species.init : Species := ⟨0, 0, 0, .closed⟩

/-- `readParameters`, `chem/Species.cpp:28-38`: `phi` is the optional value of the
parameter "phi", `mu` the value of "mu", absent if not in the file. A missing "mu" makes
`read` throw. -/
def Species.read (s : Species) (phi mu : Option ℝ) : Res Species :=
  match phi with
  | some x => .ok { s with phi := x, ens := .closed }
  | none => match mu with
    | some y => .ok { s with mu := y, ens := .opened }
    | none => .throw

/-- `setPhi`, `chem/Species.cpp:43-49`. -/
noncomputable def Species.setPhi (s : Species) (x : ℝ) : Res Species :=
  if s.ens = .closed then
    if 0 ≤ x then
      if x ≤ 1 then .ok { s with phi := x } else .throw
    else .throw
  else .throw

/-- `setMu`, `chem/Species.cpp:54-58`. -/
def Species.setMu (s : Species) (x : ℝ) : Res Species :=
  if s.ens = .opened then .ok { s with mu := x } else .throw

/-- `setQ`, `chem/Species.cpp:63-72`. -/
noncomputable def Species.setQ (s : Species) (x : ℝ) : Res Species :=
  match s.ens with
  | .closed => .ok { s with q := x, mu := Real.log (s.phi / x) }
  | .opened => .ok { s with q := x, phi := Real.exp s.mu * x }
  | .unknown => .ok { s with q := x }

/-- Operations after reading. -/
inductive SpeciesOp where
  | setPhi (x : ℝ) | setMu (x : ℝ) | setQ (x : ℝ)

/-- Dispatch. -/
noncomputable def Species.step (s : Species) : SpeciesOp → Res Species
  | .setPhi x => s.setPhi x
  | .setMu x => s.setMu x
  | .setQ x => s.setQ x

/-! ## PolymerModel -/

/-- `PolymerModel::Type`, `chem/PolymerModel.h:49`. -/
inductive PType where
  | thread | bead
deriving DecidableEq, Repr

/-- The three variables of the anonymous namespace, `chem/PolymerModel.cpp:27-31`. -/
structure PModel where
  model : PType
  locked : Bool
  nSet : Nat
deriving DecidableEq, Repr

/-- Static initialisation, `chem/PolymerModel.cpp:27-31`. -/
def PModel.init : PModel := ⟨.thread, false, 0⟩

/-- `setModel`, `chem/PolymerModel.cpp:45-50`. -/
def PModel.setModel (s : PModel) (t : PType) : Res PModel :=
  if s.locked then .throw else .ok { s with model := t, nSet := s.nSet + 1 }

/-- `lock`, `chem/PolymerModel.cpp:55-56`. -/
def PModel.lock (s : PModel) : PModel := { s with locked := true }

/-- Operations. -/
inductive PModelOp where
  | setModel (t : PType) | lock
deriving DecidableEq, Repr

/-- Dispatch. -/
def PModel.step (s : PModel) : PModelOp → Res PModel
  | .setModel t => s.setModel t
  | .lock => .ok s.lock

end Verif.Chem
