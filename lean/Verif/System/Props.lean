import Verif.System.Model
import Verif.Tac

/-!
# C49, C50, C74: cached results of a `System`

The theorems quantify over every `Phys` (every numerical method), every initial system and every
finite sequence of calls, including calls that end with an exception.
-/

set_option linter.unusedSectionVars false

namespace Verif.Sys

variable {W H M C X P Q S R B F T : Type}


/-! ## Specification -/

/-- Concentration data, if reported, are the solution for the current w fields, mask and cell;
`cur p` says which mixture parameters `p` are accepted. -/
def ConcOk (E : Phys W H M C X P Q S R B F T) (cur : P → Prop) (s : St W H M C X P Q S R B F T) : Prop :=
  s.cHas = true → ∃ p, cur p ∧ s.c = some (E.conc (E.solve s.w s.mask s.cell p))

/-- The symmetric form, if reported, is that of the reported concentrations of symmetric w
fields. -/
def BasisOk (E : Phys W H M C X P Q S R B F T) (s : St W H M C X P Q S R B F T) : Prop :=
  s.cSym = true → s.cHas = true ∧ s.wSym = true ∧
    ∃ r, s.c = some r ∧ s.cBasis = some (E.toBasis r)

/-- Free energies, if reported, belong to the current w fields, external fields, mask, cell and
to the reported concentrations. -/
def ThermoOk (E : Phys W H M C X P Q S R B F T) (cur : P → Prop) (curX : X → Prop) (s : St W H M C X P Q S R B F T) : Prop :=
  s.fHas = true → s.cHas = true ∧ ∃ p p' x, cur p ∧ cur p' ∧ curX x ∧
    s.f = some (E.thermo (E.solve s.w s.mask s.cell p) s.w
      (E.conc (E.solve s.w s.mask s.cell p)) s.h s.mask s.cell x p')

/-- The mixture stress for the current fields and cell. -/
def MixOk (E : Phys W H M C X P Q S R B F T) (cur : P → Prop) (s : St W H M C X P Q S R B F T) : Prop :=
  ∃ p p', cur p ∧ cur p' ∧
    s.mixStress = some (E.stress (E.solve s.w s.mask s.cell p) s.mask s.cell p')

/-- A call that fails after changing the w fields without a signal. -/
def Op.IsFail : Op W H M C X P Q → Prop
  | .failW _ _ => True
  | _ => False

/-- A change of an interaction or mixture parameter. -/
def Op.IsPar : Op W H M C X P Q → Prop
  | .setChi _ => True
  | .setKuhn _ => True
  | .setOther _ => True
  | _ => False

/-! ## Invariant -/

structure Inv (E : Phys W H M C X P Q S R B F T) (strict : Prop) (s : St W H M C X P Q S R B F T) : Prop where
  wh : s.cHas = true → s.wHas = true
  fc : s.fHas = true → s.cHas = true
  sc : s.cSym = true → s.cHas = true ∧ s.wSym = true
  c : s.cHas = true → ∃ p, (strict → p = s.par) ∧
    s.sol = some (E.solve s.w s.mask s.cell p) ∧
    s.c = some (E.conc (E.solve s.w s.mask s.cell p))
  b : s.cSym = true → ∃ r, s.c = some r ∧ s.cBasis = some (E.toBasis r)
  f : s.fHas = true → ∃ y r x p', (strict → p' = s.par ∧ x = s.chi) ∧ s.sol = some y ∧
    s.c = some r ∧ s.f = some (E.thermo y s.w r s.h s.mask s.cell x p')
  m : s.mixHas = true → s.cHas = true → ∃ y p', (strict → p' = s.par) ∧ s.sol = some y ∧
    s.mixStress = some (E.stress y s.mask s.cell p')

variable {E : Phys W H M C X P Q S R B F T} {strict : Prop}

theorem inv_cleared {s : St W H M C X P Q S R B F T} (h1 : s.cHas = false) (h2 : s.cSym = false)
    (h3 : s.fHas = false) : Inv E strict s := by
  constructor <;> intro h <;> simp_all

/-- No concentration or free energy data. -/
def Cleared (s : St W H M C X P Q S R B F T) : Prop := s.cHas = false ∧ s.cSym = false ∧ s.fHas = false

theorem Cleared.inv {s : St W H M C X P Q S R B F T} (h : Cleared s) : Inv E strict s := inv_cleared h.1 h.2.1 h.2.2

theorem cleared_clear (s : St W H M C X P Q S R B F T) : Cleared s.clearCFields := ⟨rfl, rfl, rfl⟩

theorem cleared_setW (s : St W H M C X P Q S R B F T) (w : W) (b : Bool) : Cleared (s.setW w b) := ⟨rfl, rfl, rfl⟩

theorem cleared_resetEnv {s : St W H M C X P Q S R B F T} (h : Cleared s) : Cleared s.resetEnv := by
  unfold St.resetEnv; split <;> exact h

theorem cleared_setCell (s : St W H M C X P Q S R B F T) (p : C) : Cleared (s.setCell p) :=
  cleared_resetEnv ⟨rfl, rfl, rfl⟩

theorem cleared_updateEnv {s : St W H M C X P Q S R B F T} (h : Cleared s) : Cleared (s.updateEnv E).1 := by
  unfold St.updateEnv
  split
  · split <;> exact ⟨rfl, rfl, rfl⟩
  · exact h

theorem updateEnv_w (s : St W H M C X P Q S R B F T) : (s.updateEnv E).1.w = s.w ∧
    (s.updateEnv E).1.wHas = s.wHas ∧ (s.updateEnv E).1.wSym = s.wSym ∧
    (s.updateEnv E).1.cell = s.cell ∧ (s.updateEnv E).1.par = s.par ∧
    (s.updateEnv E).1.chi = s.chi ∧ (s.updateEnv E).1.envPar = s.envPar ∧
    (s.updateEnv E).1.hasEnv = s.hasEnv := by
  unfold St.updateEnv
  split
  · split <;> exact ⟨rfl, rfl, rfl, rfl, rfl, rfl, rfl, rfl⟩
  · exact ⟨rfl, rfl, rfl, rfl, rfl, rfl, rfl, rfl⟩

theorem inv_solveMde {s : St W H M C X P Q S R B F T} (h : Cleared s) (hw : s.wHas = true) :
    Inv E strict (s.solveMde E) := by
  unfold St.solveMde
  obtain ⟨h1, h2, h3⟩ := h
  by_cases hs : s.wSym = true
  · simp only [hs, if_true]
    (constructor <;> intro h <;> simp_all); exact ⟨_, fun _ => rfl, rfl, rfl⟩
  · simp only [hs]
    (constructor <;> intro h <;> simp_all); exact ⟨_, fun _ => rfl, rfl, rfl⟩

theorem andThen_ind {r : St.Call (St W H M C X P Q S R B F T)} {g : St W H M C X P Q S R B F T → St.Call (St W H M C X P Q S R B F T)} (Pr : St W H M C X P Q S R B F T → Prop)
    (h1 : Pr r.1) (h2 : ∀ s, Pr s → Pr (g s).1) : Pr (St.andThen r g).1 := by
  unfold St.andThen; split
  · exact h1
  · exact h2 _ h1

theorem inv_mixtureStress {s : St W H M C X P Q S R B F T} (h : Inv E strict s) :
    Inv E strict (s.mixtureStress E).1 := by
  unfold St.mixtureStress
  split
  · exact h
  · rename_i y hs
    exact ⟨h.wh, h.fc, h.sc, h.c, h.b, h.f, fun _ _ => ⟨y, s.par, fun _ => rfl, hs, rfl⟩⟩

theorem inv_environmentStress {s : St W H M C X P Q S R B F T} (h : Inv E strict s) :
    Inv E strict (s.environmentStress E).1 := by
  unfold St.environmentStress
  split
  · exact h
  split
  · exact h
  split
  · exact h
  · exact ⟨h.wh, h.fc, h.sc, h.c, h.b, h.f, h.m⟩

theorem inv_computeStress {s : St W H M C X P Q S R B F T} (h : Inv E strict s) :
    Inv E strict (s.computeStress E).1 := by
  unfold St.computeStress
  apply andThen_ind
  · split
    · exact inv_mixtureStress h
    · exact h
  · intro s1 h1
    split
    · split
      · exact inv_environmentStress h1
      · exact h1
    · exact h1

theorem inv_compute {s : St W H M C X P Q S R B F T} (h : Inv E strict s) (b : Bool) :
    Inv E strict (s.compute E b).1 := by
  unfold St.compute
  split
  · exact h
  · rename_i hw
    have hc := cleared_updateEnv (E := E) (cleared_clear s)
    have hk := updateEnv_w (E := E) s.clearCFields
    unfold St.andThen
    split
    · exact hc.inv
    · have hi : Inv E strict ((s.clearCFields.updateEnv E).1.solveMde E) :=
        inv_solveMde hc (by rw [hk.2.1]; simpa [St.clearCFields] using hw)
      split
      · exact inv_computeStress hi
      · exact hi

theorem inv_thermo {s : St W H M C X P Q S R B F T} (h : Inv E strict s) : Inv E strict (s.thermoCompute E).1 := by
  unfold St.thermoCompute
  split
  · exact h
  split
  · exact h
  · rename_i hc
    have hc' : s.wHas = true ∧ s.cHas = true := by simpa using hc
    split
    · rename_i y r hs hr
      exact ⟨h.wh, fun _ => hc'.2, h.sc, h.c, h.b,
        fun _ => ⟨y, r, s.chi, s.par, fun _ => ⟨rfl, rfl⟩, hs, hr, rfl⟩, h.m⟩
    · exact h

theorem inv_trial {s : St W H M C X P Q S R B F T} (fl sym : Bool) (t : St.Trial W C) :
    Inv E strict (s.trial E fl sym t).1 := by
  unfold St.trial
  apply inv_compute
  cases t.cell with
  | none => exact (cleared_setW s _ _).inv
  | some p => exact (cleared_setCell _ p).inv

theorem inv_trials (fl sym : Bool) : ∀ (ts : List (St.Trial W C)) (s : St W H M C X P Q S R B F T),
    Inv E strict s → Inv E strict (St.trials E fl sym ts s).1
  | [], _, h => h
  | t :: ts, s, _ => by
    unfold St.trials
    exact andThen_ind (Inv E strict) (inv_trial fl sym t) (fun s1 h1 => inv_trials fl sym ts s1 h1)

theorem inv_iterate {s : St W H M C X P Q S R B F T} (h : Inv E strict s) (fl sym failed : Bool)
    (ts : List (St.Trial W C)) : Inv E strict (s.iterate E fl sym failed ts).1 := by
  unfold St.iterate
  split
  · exact h
  · refine andThen_ind _ (cleared_updateEnv (cleared_clear s)).inv fun s1 h1 => ?_
    refine andThen_ind _ (inv_compute h1 fl) fun s2 h2 => ?_
    refine andThen_ind _ (inv_trials fl sym ts s2 h2) fun s3 h3 => ?_
    split
    · exact h3
    split
    · exact h3
    refine andThen_ind _ (inv_thermo h3) fun s4 h4 => ?_
    split
    · exact h4
    split
    · exact inv_computeStress h4
    · exact h4

theorem inv_writeStress {s : St W H M C X P Q S R B F T} (h : Inv E strict s) : Inv E strict (s.writeStress E).1 := by
  unfold St.writeStress
  refine andThen_ind _ ?_ fun s1 h1 => h1
  split
  · exact inv_computeStress h
  · exact h

theorem inv_resetEnv {s : St W H M C X P Q S R B F T} (h : Inv E strict s) : Inv E strict s.resetEnv := by
  unfold St.resetEnv
  split
  · exact ⟨h.wh, h.fc, h.sc, h.c, h.b, h.f, h.m⟩
  · exact h

theorem inv_step {s : St W H M C X P Q S R B F T} (h : Inv E strict s) (op : Op W H M C X P Q) (ho : ¬ op.IsFail)
    (hp : op.IsPar → strict → s.cHas = false) : Inv E strict (s.step E op) := by
  cases op with
  | setW w b => exact (cleared_setW s w b).inv
  | readW p w b => exact (cleared_setW _ w b).inv
  | setH _ => exact (cleared_clear _).inv
  | setMask _ => exact (cleared_clear _).inv
  | setCell p => exact (cleared_setCell s p).inv
  | compute b => exact inv_compute h b
  | computeStress => exact inv_computeStress h
  | iterate a b c ts => exact inv_iterate h a b c ts
  | thermo => exact inv_thermo h
  | writeStress => exact inv_writeStress h
  | clearCFields => exact (cleared_clear s).inv
  | setEnvPar q => exact inv_resetEnv ⟨h.wh, h.fc, h.sc, h.c, h.b, h.f, h.m⟩
  | failW w b => exact absurd trivial ho
  | setChi x =>
    refine ⟨h.wh, h.fc, h.sc, h.c, h.b, fun hf => ?_, h.m⟩
    obtain ⟨y, r, x', p', _, h2⟩ := h.f hf
    exact ⟨y, r, x', p', fun hs => absurd (h.fc hf) (by rw [hp trivial hs]; simp), h2⟩
  | setKuhn p =>
    refine ⟨h.wh, h.fc, h.sc, fun hc => ?_, h.b, fun hf => ?_, fun hm => by cases hm⟩
    · obtain ⟨p', _, h2⟩ := h.c hc
      exact ⟨p', fun hs => absurd hc (by have := hp trivial hs; simp [St.step, this]), h2⟩
    · obtain ⟨y, r, x', p', _, h2⟩ := h.f hf
      exact ⟨y, r, x', p', fun hs => absurd (h.fc hf) (by rw [hp trivial hs]; simp), h2⟩
  | setOther p =>
    refine ⟨h.wh, h.fc, h.sc, fun hc => ?_, h.b, fun hf => ?_, fun hm hc => ?_⟩
    · obtain ⟨p', _, h2⟩ := h.c hc
      exact ⟨p', fun hs => absurd hc (by have := hp trivial hs; simp [St.step, this]), h2⟩
    · obtain ⟨y, r, x', p', _, h2⟩ := h.f hf
      exact ⟨y, r, x', p', fun hs => absurd (h.fc hf) (by rw [hp trivial hs]; simp), h2⟩
    · obtain ⟨y, p', _, h2⟩ := h.m hm hc
      exact ⟨y, p', fun hs => absurd hc (by have := hp trivial hs; simp [St.step, this]), h2⟩

theorem inv_init (w : W) (h : H) (m : M) (cell : C) (x : X) (p : P) (q : Q) (e : Bool) :
    Inv E strict (St.init w h m cell x p q e) := inv_cleared rfl rfl rfl

theorem Inv.concOk {s : St W H M C X P Q S R B F T} (h : Inv E strict s) :
    ConcOk E (fun p => strict → p = s.par) s := fun hc =>
  have ⟨p, h1, _, h3⟩ := h.c hc
  ⟨p, h1, h3⟩

theorem Inv.basisOk {s : St W H M C X P Q S R B F T} (h : Inv E strict s) : BasisOk E s := fun hs =>
  ⟨(h.sc hs).1, (h.sc hs).2, h.b hs⟩

theorem Inv.thermoOk {s : St W H M C X P Q S R B F T} (h : Inv E strict s) :
    ThermoOk E (fun p => strict → p = s.par) (fun x => strict → x = s.chi) s := by
  intro hf
  obtain ⟨y, r, x, p', h1, h2, h3, h4⟩ := h.f hf
  obtain ⟨p, g1, g2, g3⟩ := h.c (h.fc hf)
  obtain rfl : E.solve s.w s.mask s.cell p = y := by rw [g2] at h2; exact Option.some.inj h2
  obtain rfl : E.conc (E.solve s.w s.mask s.cell p) = r := by
    rw [g3] at h3; exact Option.some.inj h3
  exact ⟨h.fc hf, p, p', x, g1, fun hs => (h1 hs).1, fun hs => (h1 hs).2, h4⟩

theorem Inv.mixOk {s : St W H M C X P Q S R B F T} (h : Inv E strict s) (hm : s.mixHas = true)
    (hc : s.cHas = true) : MixOk E (fun p => strict → p = s.par) s := by
  obtain ⟨y, p', h1, h2, h4⟩ := h.m hm hc
  obtain ⟨p, g1, g2, g3⟩ := h.c hc
  obtain rfl : E.solve s.w s.mask s.cell p = y := by rw [g2] at h2; exact Option.some.inj h2
  exact ⟨p, p', g1, h1, h4⟩

theorem inv_run : ∀ (ops : List (Op W H M C X P Q)) (s : St W H M C X P Q S R B F T), Inv E False s →
    (∀ op ∈ ops, ¬ op.IsFail) → Inv E False (s.run E ops)
  | [], _, h, _ => h
  | op :: ops, s, h, ho => by
    have h1 : Inv E False (s.step E op) :=
      inv_step h op (ho op (by simp)) (fun _ hf => hf.elim)
    exact inv_run ops _ h1 (fun o ho' => ho o (by simp [ho']))

/-! ## C49 -/

/-- **C49** (restricted to histories in which no w-field call fails half way; the parameters
used are those of the last computation, see C74). In every such history of public calls, whenever
concentration data are reported they solve the modified diffusion equation for the current w
fields, mask and unit cell; their symmetric form is reported only for symmetric w fields and is the
expansion of these concentrations; free energies are reported only together with concentrations
and belong to them and to the current w fields, external fields, mask and unit cell. -/
theorem C49_coherent_partial (E : Phys W H M C X P Q S R B F T) (w : W) (h : H) (m : M) (cell : C) (x : X) (p : P)
    (q : Q) (env : Bool) (ops : List (Op W H M C X P Q)) (ho : ∀ op ∈ ops, ¬ op.IsFail) :
    let s := (St.init w h m cell x p q env).run E ops
    ConcOk E (fun _ => True) s ∧ BasisOk E s ∧ ThermoOk E (fun _ => True) (fun _ => True) s := by
  have hi := inv_run ops _ (inv_init (E := E) (strict := False) w h m cell x p q env) ho
  refine ⟨fun hc => ?_, hi.basisOk, fun hf => ?_⟩
  · obtain ⟨p, _, h2⟩ := hi.concOk hc
    exact ⟨p, trivial, h2⟩
  · obtain ⟨hc, p, p', x, _, _, _, h⟩ := hi.thermoOk hf
    exact ⟨hc, p, p', x, trivial, trivial, trivial, h⟩

/-- **C49**, exact form: right after `compute` returns, from any state whatsoever, the
concentrations are those of the current fields, cell and parameters, and free energies are not
reported as known. -/
theorem C49_compute (E : Phys W H M C X P Q S R B F T) (s s' : St W H M C X P Q S R B F T) (b : Bool) (h : s.compute E b = (s', false)) :
    s'.cHas = true ∧ s'.w = s.w ∧ s'.cell = s.cell ∧ s'.par = s.par ∧
    s'.c = some (E.conc (E.solve s'.w s'.mask s'.cell s'.par)) ∧ s'.cSym = s.wSym ∧
    s'.fHas = false ∧ (b = true → s'.mixHas = true ∧
      s'.mixStress = some (E.stress (E.solve s'.w s'.mask s'.cell s'.par) s'.mask s'.cell s'.par))
    := by
  unfold St.compute at h
  split at h
  · simp at h
  rename_i hw
  have hc := cleared_updateEnv (E := E) (cleared_clear s)
  have hk := updateEnv_w (E := E) s.clearCFields
  unfold St.andThen at h
  split at h
  · rename_i ht; rw [h] at ht; simp at ht
  generalize (s.clearCFields.updateEnv E).1 = s1 at h hc hk
  beta_reduce at h
  obtain ⟨k1, k2, k3, k4, k5, k6, k7, k8⟩ := hk
  have e1 : (s1.solveMde E).w = s.w ∧ (s1.solveMde E).cell = s.cell ∧
      (s1.solveMde E).par = s.par ∧ (s1.solveMde E).mask = s1.mask ∧
      (s1.solveMde E).cHas = true ∧ (s1.solveMde E).fHas = false ∧
      (s1.solveMde E).mixHas = false ∧ (s1.solveMde E).cSym = s.wSym ∧
      (s1.solveMde E).sol = some (E.solve s.w s1.mask s.cell s.par) ∧
      (s1.solveMde E).c = some (E.conc (E.solve s.w s1.mask s.cell s.par)) := by
    have k1' : s1.w = s.w := k1
    have k3' : s1.wSym = s.wSym := k3
    have k4' : s1.cell = s.cell := k4
    have k5' : s1.par = s.par := k5
    unfold St.solveMde
    cases hs : s1.wSym <;> simp [hs, k1', k4', k5', ← k3', hc.2.1]
  generalize s1.solveMde E = s2 at h e1
  obtain ⟨e1, e2, e3, e4, e5, e6, e7, e8, e9, e10⟩ := e1
  cases b with
  | false =>
    simp only [Bool.false_eq_true, if_false, Prod.mk.injEq, and_true] at h
    subst h
    exact ⟨e5, e1, e2, e3, by rw [e10, e1, e2, e3, e4], e8, e6, by simp⟩
  | true =>
    simp only [if_true] at h
    unfold St.computeStress at h
    simp only [e7, Bool.not_false, if_true] at h
    unfold St.mixtureStress at h
    simp only [e9] at h
    unfold St.andThen at h
    simp only [Bool.false_eq_true, if_false] at h
    have fin : ∀ s3 : St W H M C X P Q S R B F T, s3.cHas = s2.cHas → s3.w = s2.w → s3.cell = s2.cell →
        s3.par = s2.par → s3.mask = s2.mask → s3.c = s2.c → s3.cSym = s2.cSym →
        s3.fHas = s2.fHas → s3.mixHas = true →
        s3.mixStress = some (E.stress (E.solve s.w s1.mask s.cell s.par) s2.mask s2.cell s2.par) →
        s3.cHas = true ∧ s3.w = s.w ∧ s3.cell = s.cell ∧ s3.par = s.par ∧
        s3.c = some (E.conc (E.solve s3.w s3.mask s3.cell s3.par)) ∧ s3.cSym = s.wSym ∧
        s3.fHas = false ∧ (true = true → s3.mixHas = true ∧
          s3.mixStress =
            some (E.stress (E.solve s3.w s3.mask s3.cell s3.par) s3.mask s3.cell s3.par)) := by
      intro s3 a1 a2 a3 a4 a5 a6 a7 a8 a9 a10
      refine ⟨a1.trans e5, a2.trans e1, a3.trans e2, a4.trans e3, ?_, a7.trans e8, a8.trans e6,
        fun _ => ⟨a9, ?_⟩⟩
      · rw [a6, e10, a2, e1, a3, e2, a4, e3, a5, e4]
      · rw [a10, a2, e1, a3, e2, a4, e3, a5, e4]
    split at h
    · split at h
      · unfold St.environmentStress at h
        split at h
        · simp only [Prod.mk.injEq, and_true] at h; subst h; exact fin _ rfl rfl rfl rfl rfl rfl rfl rfl rfl rfl
        split at h
        · simp at h
        · simp only [Prod.mk.injEq, and_true] at h; subst h; exact fin _ rfl rfl rfl rfl rfl rfl rfl rfl rfl rfl
      · simp only [Prod.mk.injEq, and_true] at h; subst h; exact fin _ rfl rfl rfl rfl rfl rfl rfl rfl rfl rfl
    · simp only [Prod.mk.injEq, and_true] at h; subst h; exact fin _ rfl rfl rfl rfl rfl rfl rfl rfl rfl rfl

/-! ### Example -/

/-- A toy system: w fields are numbers, the solution is `w + 10 mask + 100 cell + 1000 par`. -/
def exPhys : Phys Nat Nat Nat Nat Nat Nat Nat Nat Nat Nat Nat Nat where
  solve w m c p := w + 10 * m + 100 * c + 1000 * p
  conc x := 2 * x
  toBasis r := r + 1
  thermo x w r h m c ch p := x + w + r + h + m + c + 7 * ch + p
  stress x m c p := x + m + c + p
  envStress t w h m c x q := t + w + h + m + c + x + q
  generate c q _ _ := (c, q, false)

def exInit (env : Bool) : St Nat Nat Nat Nat Nat Nat Nat Nat Nat Nat Nat Nat :=
  St.init 0 0 0 0 1 1 1 env

/-- Data are reported after a typical history, so C49 is not vacuous; a later change of the w
fields or of the cell removes them. -/
example :
    let s := (exInit true).run exPhys
      [.readW 3 5 true, .compute true, .setMask 2, .iterate true true false [⟨6, some 4⟩, ⟨7, some 5⟩]]
    s.cHas = true ∧ s.cSym = true ∧ s.fHas = true ∧ s.mixHas = true ∧ s.envHas = true ∧
    s.c = some (2 * (7 + 10 * 1 + 100 * 5 + 1000)) ∧ (s.setW 1 true).cHas = false ∧
    (s.setCell 1).fHas = false := by decide

example : (exInit false).compute exPhys true = (exInit false, true) := rfl

/-- C49 fails after a w field function that threw: concentrations of the old fields are still
reported although the w fields have changed. -/
theorem C49_violated : ∃ ops : List (Op Nat Nat Nat Nat Nat Nat Nat),
    ¬ ConcOk exPhys (fun _ => True) ((exInit false).run exPhys ops) := by
  refine ⟨[.setW 5 true, .compute false, .failW 6 true], fun h => ?_⟩
  obtain ⟨p, _, hp⟩ := h (by decide)
  have h1 : ((exInit false).run exPhys [.setW 5 true, .compute false, .failW 6 true]).c =
    some (2 * (5 + 10 * 0 + 100 * 0 + 1000 * 1)) := by decide
  rw [h1] at hp
  have h2 := Option.some.inj hp
  have h3 : 2 * (5 + 10 * 0 + 100 * 0 + 1000 * 1) = 2 * (6 + 10 * 0 + 100 * 0 + 1000 * p) := h2
  omega

/-! ## C50 -/

/-- The claim of C50 for one system: stresses reported as available belong to the current
fields, unit cell and parameters. -/
def StressOk (E : Phys W H M C X P Q S R B F T) (s : St W H M C X P Q S R B F T) : Prop :=
  (s.mixHas = true → s.mixStress =
    some (E.stress (E.solve s.w s.mask s.cell s.par) s.mask s.cell s.par)) ∧
  (s.hasEnv = true → s.envHas = true → s.envStress =
    some (E.envStress (E.stress (E.solve s.w s.mask s.cell s.par) s.mask s.cell s.par)
      s.w s.h s.mask s.cell s.chi s.envPar))

/-- **C50** (mixture part; the full claim fails, see below). While concentration data are
reported, an available mixture stress was computed from the current fields and unit cell. -/
theorem C50_mixture_partial (E : Phys W H M C X P Q S R B F T) (w : W) (h : H) (m : M) (cell : C)
    (x : X) (p : P) (q : Q) (env : Bool) (ops : List (Op W H M C X P Q))
    (ho : ∀ op ∈ ops, ¬ op.IsFail) :
    let s := (St.init w h m cell x p q env).run E ops
    s.cHas = true → s.mixHas = true → MixOk E (fun _ => True) s := by
  intro s hc hm
  have hi := inv_run ops _ (inv_init (E := E) (strict := False) w h m cell x p q env) ho
  obtain ⟨p, p', _, _, h⟩ := hi.mixOk hm hc
  exact ⟨p, p', trivial, trivial, h⟩

/-- **C50**: a computation with stress started while the environment stress is marked as
unknown leaves both stresses correct, whatever the state was. -/
theorem C50_compute_fresh_partial (E : Phys W H M C X P Q S R B F T)
    (s s' : St W H M C X P Q S R B F T) (he : s.envHas = false)
    (h : s.compute E true = (s', false)) :
    StressOk E s' ∧ s'.mixHas = true ∧ (s'.hasEnv = true → s'.envHas = true) := by
  obtain ⟨_, _, _, _, _, _, _, hm⟩ := C49_compute E s s' true h
  obtain ⟨hm1, hm2⟩ := hm rfl
  unfold St.compute at h
  split at h
  · simp at h
  have hk : (s.clearCFields.updateEnv E).1.envHas = false := by
    unfold St.updateEnv
    split
    · split <;> exact he
    · exact he
  unfold St.andThen at h
  split at h
  · rename_i ht; rw [h] at ht; simp at ht
  generalize (s.clearCFields.updateEnv E).1 = s1 at h hk
  beta_reduce at h
  have e0 : (s1.solveMde E).envHas = false ∧ (s1.solveMde E).mixHas = false := by
    unfold St.solveMde; dsimp only; split <;> exact ⟨hk, rfl⟩
  generalize s1.solveMde E = s2 at h e0
  simp only [if_true] at h
  unfold St.computeStress at h
  simp only [e0.2, Bool.not_false, if_true] at h
  unfold St.mixtureStress at h
  cases hs : s2.sol with
  | none => simp [hs, St.andThen] at h
  | some y =>
    simp only [hs] at h
    unfold St.andThen at h
    simp only [Bool.false_eq_true, if_false, e0.1, Bool.not_false, if_true] at h
    split at h
    · rename_i hE
      unfold St.environmentStress at h
      simp only [Bool.false_eq_true, if_false, Bool.not_true, Bool.or_false] at h
      split at h
      · simp at h
      · simp only [Prod.mk.injEq, and_true] at h
        subst h
        refine ⟨⟨fun _ => hm2, fun _ _ => ?_⟩, rfl, fun _ => rfl⟩
        have hm3 : some (E.stress y s2.mask s2.cell s2.par) = _ := hm2
        exact congrArg (fun t => some (E.envStress t s2.w s2.h s2.mask s2.cell s2.chi s2.envPar))
          (Option.some.inj hm3)
    · rename_i hE
      simp only [Prod.mk.injEq, and_true] at h
      subst h
      exact ⟨⟨fun _ => hm2, fun hh => absurd hh hE⟩, rfl, fun hh => absurd hh hE⟩

/-- A change of the cell marks the environment stress as unknown. -/
theorem envHas_setCell (s : St W H M C X P Q S R B F T) (p : C) (h : s.hasEnv = true) :
    (s.setCell p).envHas = false := by
  have : ({ s with cell := p }.clearCFields).hasEnv = true := h
  simp [St.setCell, St.clearUnitCellData, St.resetEnv, St.clearCFields, h]

/-- **C50**, flexible iteration: every trial state with a new unit cell ends with correct mixture
and environment stresses (these are the stresses in the residual). -/
theorem C50_flexible_trial (E : Phys W H M C X P Q S R B F T)
    (s s' : St W H M C X P Q S R B F T) (hE : s.hasEnv = true) (sym : Bool) (w : W) (p : C)
    (h : s.trial E true sym ⟨w, some p⟩ = (s', false)) : StressOk E s' :=
  (C50_compute_fresh_partial E _ s' (envHas_setCell (s.setW w sym) p hE) h).1

example : ((exInit true).setW 1 true).trial exPhys true true ⟨2, some 3⟩ =
    (((exInit true).setW 1 true).run exPhys [.setW 2 true, .setCell 3, .compute true], false) := by
  rfl

/-- **C50 fails**, environment part: once an environment stress is available, no change of the
w fields followed by `compute(true)` updates it. -/
theorem C50_env_stale (E : Phys W H M C X P Q S R B F T) (s : St W H M C X P Q S R B F T)
    (hE : s.hasEnv = true) (hn : s.envNeeds = false) (he : s.envHas = true) (w : W) (b : Bool) :
    let r := (s.setW w b).compute E true
    r.2 = false ∧ r.1.w = w ∧ r.1.cHas = true ∧ r.1.mixHas = true ∧
    r.1.mixStress = some (E.stress (E.solve w s.mask s.cell s.par) s.mask s.cell s.par) ∧
    r.1.envHas = true ∧ r.1.envStress = s.envStress := by
  cases b <;> simp [St.compute, St.setW, St.clearCFields, St.updateEnv, hn, St.andThen,
    St.solveMde, St.computeStress, St.mixtureStress, hE, he]

/-- **C50 fails**, mixture part: `WRITE_STRESS` after the w fields were replaced writes the
stress of the previous fields. -/
theorem C50_write_stale (E : Phys W H M C X P Q S R B F T) (s : St W H M C X P Q S R B F T)
    (hE : s.hasEnv = false) (hw : s.wHas = true) (w : W) (b : Bool) :
    (((s.compute E true).1.setW w b).writtenStress E) =
      some (some (E.stress (E.solve s.w s.mask s.cell s.par) s.mask s.cell s.par), none) := by
  cases hs : s.wSym <;> simp [St.compute, St.setW, St.clearCFields, St.updateEnv, St.andThen,
    St.solveMde, St.computeStress, St.mixtureStress, hE, hw, hs, St.writtenStress,
    St.writeStress]

/-- The claim of C50 is false for some histories of successful calls, with and without an
environment. -/
theorem C50_violated :
    ¬ StressOk exPhys ((exInit false).run exPhys
      [.setW 1 true, .compute true, .setW 2 true, .writeStress]) ∧
    ¬ StressOk exPhys ((exInit true).run exPhys
      [.setW 1 true, .compute true, .setW 2 true, .compute true]) := by
  constructor
  · intro h
    exact absurd (h.1 (by decide)) (by decide)
  · intro h
    exact absurd (h.2 (by decide) (by decide)) (by decide)

/-! ## C74 -/

/-- Parameters are changed only while no concentration data are reported. -/
def ParSafe (E : Phys W H M C X P Q S R B F T) :
    St W H M C X P Q S R B F T → List (Op W H M C X P Q) → Prop
  | _, [] => True
  | s, op :: ops => (op.IsPar → s.cHas = false) ∧ ParSafe E (s.step E op) ops

theorem inv_run_strict : ∀ (ops : List (Op W H M C X P Q)) (s : St W H M C X P Q S R B F T),
    Inv E True s → (∀ op ∈ ops, ¬ op.IsFail) → ParSafe E s ops → Inv E True (s.run E ops)
  | [], _, h, _, _ => h
  | op :: ops, s, h, ho, hp => by
    have h1 : Inv E True (s.step E op) :=
      inv_step h op (ho op (by simp)) (fun hq _ => hp.1 hq)
    exact inv_run_strict ops _ h1 (fun o ho' => ho o (by simp [ho'])) hp.2

/-- **C74** (restricted). If parameters are changed only while no concentration data are
reported, all reported concentrations and free energies belong to the current parameters. -/
theorem C74_cleared_first_partial (E : Phys W H M C X P Q S R B F T) (w : W) (h : H) (m : M)
    (cell : C) (x : X) (p : P) (q : Q) (env : Bool) (ops : List (Op W H M C X P Q))
    (ho : ∀ op ∈ ops, ¬ op.IsFail) (hp : ParSafe E (St.init w h m cell x p q env) ops) :
    let s := (St.init w h m cell x p q env).run E ops
    ConcOk E (· = s.par) s ∧ ThermoOk E (· = s.par) (· = s.chi) s := by
  have hi := inv_run_strict ops _ (inv_init (E := E) (strict := True) w h m cell x p q env) ho hp
  refine ⟨fun hc => ?_, fun hf => ?_⟩
  · obtain ⟨p, h1, h2⟩ := hi.concOk hc
    exact ⟨p, h1 trivial, h2⟩
  · obtain ⟨hc, p, p', x, h1, h2, h3, h4⟩ := hi.thermoOk hf
    exact ⟨hc, p, p', x, h1 trivial, h2 trivial, h3 trivial, h4⟩

example : ParSafe exPhys (exInit false)
    [.setW 5 true, .compute false, .clearCFields, .setKuhn 4, .iterate false true false []] ∧
    ((exInit false).run exPhys
      [.setW 5 true, .compute false, .clearCFields, .setKuhn 4, .iterate false true false []]).f =
      some (4005 + 5 + 2 * 4005 + 0 + 0 + 0 + 7 + 4) := by
  simp [ParSafe, Op.IsPar]
  decide

/-- **C74**, sweeps: an iteration that returns leaves only data for the current parameters, no
matter which parameters were changed before; a converged one reports free energies. -/
theorem C74_iterate_fresh (E : Phys W H M C X P Q S R B F T)
    (s s' : St W H M C X P Q S R B F T) (fl sym failed : Bool) (ts : List (St.Trial W C))
    (h : s.iterate E fl sym failed ts = (s', false)) :
    s'.cHas = true ∧ ConcOk E (· = s'.par) s' ∧ ThermoOk E (· = s'.par) (· = s'.chi) s' := by
  have key : Inv E True s' ∧ s'.cHas = true := by
    unfold St.iterate at h
    split at h
    · simp at h
    have a1 : Inv E True (s.clearCFields.updateEnv E).1 :=
      (cleared_updateEnv (cleared_clear s)).inv
    unfold St.andThen at h
    split at h
    · rename_i ht; rw [h] at ht; simp at ht
    generalize (s.clearCFields.updateEnv E).1 = s1 at h a1
    beta_reduce at h
    have a2 := inv_compute a1 fl
    split at h
    · rename_i ht; rw [h] at ht; simp at ht
    generalize (s1.compute E fl).1 = s2 at h a2
    have a3 := inv_trials fl sym ts s2 a2
    split at h
    · rename_i ht; rw [h] at ht; simp at ht
    generalize (St.trials E fl sym ts s2).1 = s3 at h a3
    split at h
    · simp at h
    rename_i hc
    have hc : s3.cHas = true := by simpa using hc
    split at h
    · simp only [Prod.mk.injEq, and_true] at h; subst h; exact ⟨a3, hc⟩
    have a4 := inv_thermo a3
    have b4 : (s3.thermoCompute E).1.cHas = true := by
      unfold St.thermoCompute; split
      · exact hc
      split
      · exact hc
      split <;> exact hc
    split at h
    · rename_i ht; rw [h] at ht; simp at ht
    generalize (s3.thermoCompute E).1 = s4 at h a4 b4
    split at h
    · simp only [Prod.mk.injEq, and_true] at h; subst h; exact ⟨a4, b4⟩
    split at h
    · have a5 := inv_computeStress (E := E) a4
      have b5 : (s4.computeStress E).1.cHas = true := by
        unfold St.computeStress
        refine andThen_ind (fun s => s.cHas = true) ?_ ?_
        · have hm : (s4.mixtureStress E).1.cHas = true := by
            unfold St.mixtureStress; split <;> exact b4
          split <;> exact hm
        · intro s5 b5
          split
          · split
            · unfold St.environmentStress
              split
              · exact b5
              split
              · exact b5
              split <;> exact b5
            · exact b5
          · exact b5
      rw [h] at a5 b5
      exact ⟨a5, b5⟩
    · simp only [Prod.mk.injEq, and_true] at h; subst h; exact ⟨a4, b4⟩
  obtain ⟨hi, hc⟩ := key
  refine ⟨hc, fun hc => ?_, fun hf => ?_⟩
  · obtain ⟨p, h1, h2⟩ := hi.concOk hc
    exact ⟨p, h1 trivial, h2⟩
  · obtain ⟨hc, p, p', x, h1, h2, h3, h4⟩ := hi.thermoOk hf
    exact ⟨hc, p, p', x, h1 trivial, h2 trivial, h3 trivial, h4⟩

/-- The claim of C74: reported data belong to the current parameters. -/
def ParOk (E : Phys W H M C X P Q S R B F T) (s : St W H M C X P Q S R B F T) : Prop :=
  ConcOk E (· = s.par) s ∧ ThermoOk E (· = s.par) (· = s.chi) s

/-- **C74 fails** in general: after any state that reports data, a change of `chi`, of a
segment length or of another mixture parameter leaves the flags and values as they are, and
`WRITE_THERMO` writes the old free energy. -/
theorem C74_stale (E : Phys W H M C X P Q S R B F T) (s : St W H M C X P Q S R B F T)
    (op : Op W H M C X P Q) (ho : op.IsPar) (hf : s.fHas = true) :
    (s.step E op).cHas = s.cHas ∧ (s.step E op).c = s.c ∧
    (s.step E op).writtenThermo E = s.f := by
  cases op <;> simp_all [Op.IsPar, St.step, St.writtenThermo, St.thermoCompute]

/-- C74: nothing is written when the free energy is neither up to date nor computable: without w
fields or without concentrations `WRITE_THERMO` stops before the output. -/
theorem C74_no_output (E : Phys W H M C X P Q S R B F T) (s : St W H M C X P Q S R B F T)
    (hf : s.fHas = false) (hc : s.wHas = false ∨ s.cHas = false) : s.writtenThermo E = none := by
  rcases hc with hc | hc <;> simp [St.writtenThermo, St.thermoCompute, hf, hc]

example : ((exInit false).run exPhys [.setW 1 true, .compute false, .thermo, .setW 2 true]).f ≠ none ∧
    ((exInit false).run exPhys [.setW 1 true, .compute false, .thermo, .setW 2 true]).fHas = false ∧
    ((exInit false).run exPhys [.setW 1 true, .compute false, .thermo, .setW 2 true]).cHas = false := by
  decide

theorem C74_violated :
    ¬ ParOk exPhys ((exInit false).run exPhys
      [.setW 1 true, .compute false, .thermo, .setChi 5]) ∧
    ¬ ParOk exPhys ((exInit false).run exPhys
      [.setW 1 true, .compute false, .setKuhn 5]) := by
  constructor
  · intro h
    obtain ⟨_, p, p', x, h1, h2, h3, h4⟩ := h.2 (by decide)
    subst h1 h2 h3
    exact absurd h4 (by decide)
  · intro h
    obtain ⟨p, h1, h2⟩ := h.1 (by decide)
    subst h1
    exact absurd h2 (by decide)

end Verif.Sys
