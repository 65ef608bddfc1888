import Verif.Chem.Runtime

/-! # C14 (species ensemble) and C15 (locking of the polymer model) -/

namespace Verif.Chem

/-- A step invariant holds after every history. -/
theorem runHistory_inv {σ ω : Type} {step : σ → ω → Res σ} (I : σ → Prop)
    (h : ∀ s o s', I s → step s o = .ok s' → I s') :
    ∀ (os : List ω) (s : σ), I s → I (runHistory step s os).2 := by
  intro os
  induction os with
  | nil => intro s hs; exact hs
  | cons o os ih =>
    intro s hs
    unfold runHistory
    split
    · rename_i s' hs'
      exact ih s' (h s o s' hs hs')
    · exact ih s hs

/-! ## C14 -/

/-- C14: reading decides the ensemble (closed if and only if phi is given). -/
theorem C14_read_decides (s s' : Species) (phi mu : Option ℝ) (h : s.read phi mu = .ok s') :
    (s'.ens = .closed ↔ phi.isSome) ∧ (s'.ens = .opened ↔ phi = none) ∧
      (∀ x, phi = some x → s'.phi = x) ∧ (phi = none → mu = some s'.mu) := by
  unfold Species.read at h
  cases phi with
  | some x => simp at h; subst h; simp
  | none =>
    cases mu with
    | none => simp at h
    | some y => simp at h; subst h; simp

/-- C14: `setPhi` is accepted exactly for closed species and values in [0,1], and then
changes only phi. -/
theorem C14_setPhi (s : Species) (x : ℝ) :
    (s.ens = .closed ∧ 0 ≤ x ∧ x ≤ 1 → s.setPhi x = .ok { s with phi := x }) ∧
    (¬ (s.ens = .closed ∧ 0 ≤ x ∧ x ≤ 1) → s.setPhi x = .throw) := by
  unfold Species.setPhi
  constructor
  · rintro ⟨h1, h2, h3⟩; simp [h1, h2, h3]
  · intro h
    split
    · split
      · split
        · exact absurd ⟨‹_›, ‹_›, ‹_›⟩ h
        · rfl
      · rfl
    · rfl

/-- C14: no history of calls ever changes the ensemble. -/
theorem C14_ensemble_fixed (s : Species) (os : List SpeciesOp) :
    (runHistory Species.step s os).2.ens = s.ens := by
  apply runHistory_inv (fun t : Species => t.ens = s.ens)
  · intro t o t' ht hs
    rw [← ht]
    cases o with
    | setPhi x =>
      simp only [Species.step] at hs
      by_cases hc : t.ens = .closed ∧ 0 ≤ x ∧ x ≤ 1
      · rw [(C14_setPhi t x).1 hc] at hs; cases hs; rfl
      · rw [(C14_setPhi t x).2 hc] at hs; cases hs
    | setMu x =>
      simp only [Species.step, Species.setMu] at hs
      split at hs
      · cases hs; rfl
      · cases hs
    | setQ x =>
      simp only [Species.step, Species.setQ] at hs
      split at hs <;> cases hs <;> simp_all
  · rfl

/-- C14: `setMu` is accepted exactly for open species, and then changes only mu. -/
theorem C14_setMu (s : Species) (x : ℝ) :
    (s.ens = .opened → s.setMu x = .ok { s with mu := x }) ∧
    (s.ens ≠ .opened → s.setMu x = .throw) := by
  unfold Species.setMu
  constructor <;> intro h <;> simp [h]

/-- C14: after `setQ` the relation phi = exp(mu) q holds; the controlled variable of the
ensemble is unchanged. -/
theorem C14_setQ_relation (s s' : Species) (x : ℝ) (hx : 0 < x)
    (he : (s.ens = .closed ∧ 0 < s.phi) ∨ s.ens = .opened) (h : s.setQ x = .ok s') :
    s'.phi = Real.exp s'.mu * s'.q ∧ s'.q = x ∧ (s.ens = .closed → s'.phi = s.phi) ∧
      (s.ens = .opened → s'.mu = s.mu) := by
  unfold Species.setQ at h
  rcases he with ⟨h1, h2⟩ | h1
  · rw [h1] at h
    simp only [Res.ok.injEq] at h
    subst h
    refine ⟨?_, rfl, fun _ => rfl, fun h3 => by rw [h1] at h3; cases h3⟩
    simp only
    rw [Real.exp_log (div_pos h2 hx), div_mul_cancel₀ _ hx.ne']
  · rw [h1] at h
    simp only [Res.ok.injEq] at h
    subst h
    exact ⟨rfl, rfl, (fun h3 => by rw [h1] at h3; cases h3), fun _ => rfl⟩

/-- C14 over histories: a closed species whose phi was read in [0,1] keeps it in [0,1]. -/
theorem C14_phi_range (s : Species) (os : List SpeciesOp) (h : s.ens = .closed)
    (h0 : 0 ≤ s.phi) (h1 : s.phi ≤ 1) :
    0 ≤ (runHistory Species.step s os).2.phi ∧ (runHistory Species.step s os).2.phi ≤ 1 := by
  have := runHistory_inv (step := Species.step)
    (fun t : Species => t.ens = .closed ∧ 0 ≤ t.phi ∧ t.phi ≤ 1) ?_ os s ⟨h, h0, h1⟩
  · exact this.2
  · rintro t o t' ⟨a, b, c⟩ hs
    cases o with
    | setPhi x =>
      simp only [Species.step] at hs
      by_cases hc : t.ens = .closed ∧ 0 ≤ x ∧ x ≤ 1
      · rw [(C14_setPhi t x).1 hc] at hs; cases hs; exact ⟨a, hc.2⟩
      · rw [(C14_setPhi t x).2 hc] at hs; cases hs
    | setMu x =>
      simp only [Species.step, Species.setMu, a] at hs
      cases hs
    | setQ x =>
      simp only [Species.step, Species.setQ, a] at hs
      cases hs
      exact ⟨rfl, b, c⟩

/-- C14: a species that was never read is closed with all values zero; no history makes it accept
a chemical potential. -/
theorem C14_fresh (os : List SpeciesOp) (x : ℝ) :
    Species.init.phi = 0 ∧ Species.init.mu = 0 ∧ Species.init.q = 0 ∧
    (runHistory Species.step Species.init os).2.setMu x = .throw ∧
    (0 ≤ x → x ≤ 1 → (runHistory Species.step Species.init os).2.setPhi x =
      .ok { (runHistory Species.step Species.init os).2 with phi := x }) := by
  have he := C14_ensemble_fixed Species.init os
  have hi : Species.init.ens = .closed := rfl
  refine ⟨rfl, rfl, rfl, (C14_setMu _ x).2 (by rw [he, hi]; simp), fun h0 h1 => ?_⟩
  exact (C14_setPhi _ x).1 ⟨by rw [he, hi], h0, h1⟩

/-- Finding: a volume fraction read from the parameter file is not range-checked. -/
theorem C14_read_unchecked : ∃ s', Species.init.read (some 2) none = .ok s' ∧ 1 < s'.phi :=
  ⟨_, rfl, by norm_num⟩

/-- Non-trivial instance: a closed species with phi = 1/2, after `setPhi 1/4` and
`setQ 3`. -/
example : (runHistory Species.step ⟨1/2, 0, 1, .closed⟩
    [.setPhi (1/4), .setMu 7, .setQ 3]).1 = [true, false, true] := by
  have h1 : (1 : ℝ) / 4 ≤ 1 := by norm_num
  have h0 : (0 : ℝ) ≤ 1 / 4 := by norm_num
  have e : Species.step ⟨1/2, 0, 1, .closed⟩ (.setPhi (1/4)) = .ok ⟨1/4, 0, 1, .closed⟩ :=
    (C14_setPhi _ _).1 ⟨rfl, h0, h1⟩
  simp only [runHistory, e]
  rfl

/-! ## C15 -/

/-- C15: once locked, no history changes the model, the lock or the counter. -/
theorem C15_locked_forever (s : PModel) (h : s.locked = true) (os : List PModelOp) :
    (runHistory PModel.step s os).2 = s := by
  induction os generalizing s with
  | nil => rfl
  | cons o os ih =>
    cases o with
    | setModel t =>
      simp only [runHistory, PModel.step, PModel.setModel, h, if_true]
      exact ih s h
    | lock =>
      have : s.lock = s := by cases s; simp_all [PModel.lock]
      simp only [runHistory, PModel.step, this]
      exact ih s h

/-- C15: `setModel` on a locked model always throws; on an unlocked one it succeeds and
stores the value. -/
theorem C15_setModel (s : PModel) (t : PType) :
    (s.locked = true → s.setModel t = .throw) ∧
    (s.locked = false → ∃ s', s.setModel t = .ok s' ∧ s'.model = t ∧ s'.locked = false) := by
  unfold PModel.setModel
  constructor <;> intro h <;> simp [h]

/-- Specification: number of `setModel` calls of a history that returned normally. -/
def countSets : List PModelOp → List Bool → Nat
  | .setModel _ :: os, true :: bs => countSets os bs + 1
  | _ :: os, _ :: bs => countSets os bs
  | _, _ => 0

/-- C15: the counter counts exactly the successful calls, for every history. -/
theorem C15_nSet_counts (s : PModel) (os : List PModelOp) :
    (runHistory PModel.step s os).2.nSet =
      s.nSet + countSets os (runHistory PModel.step s os).1 := by
  induction os generalizing s with
  | nil => rfl
  | cons o os ih =>
    cases o with
    | setModel t =>
      simp only [runHistory, PModel.step, PModel.setModel]
      by_cases h : s.locked
      · simp only [h, if_true, countSets]; exact ih s
      · simp only [h, Bool.false_eq_true, if_false, countSets]
        rw [ih]; simp only; omega
    | lock =>
      simp only [runHistory, PModel.step, countSets]
      rw [ih]; rfl

/-- Specification: the last model passed to `setModel` before the first `lock`. -/
def lastBeforeLock : PType → List PModelOp → PType
  | m, [] => m
  | _, .setModel t :: os => lastBeforeLock t os
  | m, .lock :: _ => m

/-- C15: the model in force at the end is the last one set before the first lock (the
thread model if there is none). -/
theorem C15_model_value (os : List PModelOp) :
    (runHistory PModel.step PModel.init os).2.model = lastBeforeLock .thread os := by
  have key : ∀ (os : List PModelOp) (s : PModel), s.locked = false →
      (runHistory PModel.step s os).2.model = lastBeforeLock s.model os := by
    intro os
    induction os with
    | nil => intro s _; rfl
    | cons o os ih =>
      intro s h
      cases o with
      | setModel t =>
        simp only [runHistory, PModel.step, PModel.setModel, h, Bool.false_eq_true, if_false,
          lastBeforeLock]
        rw [ih]; rfl
      | lock =>
        simp only [runHistory, PModel.step, lastBeforeLock]
        rw [C15_locked_forever _ rfl]; rfl
  exact key os PModel.init rfl

example : runHistory PModel.step PModel.init
    [.setModel .bead, .lock, .setModel .thread, .lock] =
    ([true, true, false, true], ⟨.bead, true, 1⟩) := by decide

end Verif.Chem
