import Verif.Sweep.Param
import Verif.Sweep.Props
import Verif.Tac

/-!
# C110: swept and ramped parameters follow a straight path
-/

set_option autoImplicit false
set_option linter.unusedSectionVars false

namespace Verif.Sweep

open Verif

variable {K : Type} [Field K] [LinearOrder K] [IsStrictOrderedRing K]

/-- Two names of the same parameter: `chi(i,j)` and `chi(j,i)` are one. -/
def Par.Same : Par → Par → Prop
  | .chi i j, .chi a b => (i = a ∧ j = b) ∨ (i = b ∧ j = a)
  | p, q => p = q

theorem Par.same_refl (p : Par) : Par.Same p p := by
  cases p <;> simp [Par.Same]

theorem Par.same_symm {p q : Par} (h : Par.Same p q) : Par.Same q p := by
  cases p <;> cases q <;> simp_all [Par.Same]
  rcases h with ⟨rfl, rfl⟩ | ⟨rfl, rfl⟩ <;> simp

/-- `chi` is symmetric and blocks have the segment length of their monomer type. -/
structure Coh (st : Store K) : Prop where
  chi : ∀ i j, st.chi i j = st.chi j i
  kuhn : ∀ p b, st.blkMon p b < st.nM → st.blkKuhn p b = st.kuhn (st.blkMon p b)

/-- Everything that is not a parameter value agrees. -/
structure SameFrame (st st' : Store K) : Prop where
  thread : st'.thread = st.thread
  nM : st'.nM = st.nM
  nP : st'.nP = st.nP
  nS : st'.nS = st.nS
  nBlock : st'.nBlock = st.nBlock
  nCell : st'.nCell = st.nCell
  openP : st'.openP = st.openP
  openS : st'.openS = st.openS
  pert : st'.pert = st.pert
  blkMon : st'.blkMon = st.blkMon

theorem SameFrame.refl (st : Store K) : SameFrame st st := ⟨rfl, rfl, rfl, rfl, rfl, rfl, rfl, rfl, rfl, rfl⟩

theorem SameFrame.trans {a b c : Store K} (h : SameFrame a b) (h' : SameFrame b c) : SameFrame a c :=
  ⟨h'.thread.trans h.thread, h'.nM.trans h.nM, h'.nP.trans h.nP, h'.nS.trans h.nS, h'.nBlock.trans h.nBlock,
    h'.nCell.trans h.nCell, h'.openP.trans h.openP, h'.openS.trans h.openS, h'.pert.trans h.pert,
    h'.blkMon.trans h.blkMon⟩

/-- One assignment: the parameter has the new value, all others keep theirs, coherence is kept. -/
theorem set_spec {st st' : Store K} {v : K} {p : Par} (h : st.set v p = .ok st') :
    st'.get p = .ok v ∧ (∀ q, ¬ Par.Same p q → st'.get q = st.get q) ∧ SameFrame st st' ∧ (Coh st → Coh st') := by
  cases p with
  | chi i j =>
    simp only [Store.set] at h
    split at h
    · rename_i hb
      cases h
      refine ⟨by simp [Store.get, hb], fun q hq => ?_, by constructor <;> rfl, fun hc => ⟨fun a b => ?_, hc.kuhn⟩⟩
      · cases q <;> simp only [Store.get]
        rename_i a b
        simp only [Par.Same] at hq
        rw [if_neg (show ¬ ((a = i ∧ b = j) ∨ (a = j ∧ b = i)) by omega)]
      · have := hc.chi a b
        dsimp only
        split <;> split <;> first | rfl | omega
    · cases h
  | kuhn i =>
    simp only [Store.set] at h
    split at h
    · rename_i hb
      cases h
      refine ⟨by simp [Store.get, hb, upd], fun q hq => ?_, by constructor <;> rfl, fun hc => ⟨hc.chi, fun p b hm => ?_⟩⟩
      · cases q <;> simp only [Store.get]
        rename_i a
        simp only [Par.Same, Par.kuhn.injEq] at hq
        simp only [upd]
        rw [if_neg (show ¬ a = i by omega)]
      · dsimp only [upd]
        split
        · rfl
        · exact hc.kuhn p b hm
    · cases h
  | phiP i =>
    simp only [Store.set] at h
    split at h
    · cases h
    split at h
    · cases h
    split at h
    · cases h
    split at h
    · cases h
    rename_i hb _ _ _
    cases h
    refine ⟨by simp [Store.get, not_not.1 hb, upd], fun q hq => ?_, by constructor <;> rfl, fun hc => ⟨hc.chi, hc.kuhn⟩⟩
    cases q <;> simp only [Store.get]
    rename_i a
    simp only [Par.Same, Par.phiP.injEq] at hq
    simp only [upd]
    rw [if_neg (show ¬ a = i by omega)]
  | muP i =>
    simp only [Store.set] at h
    split at h
    · cases h
    split at h
    · cases h
    rename_i hb _
    cases h
    refine ⟨by simp [Store.get, not_not.1 hb, upd], fun q hq => ?_, by constructor <;> rfl, fun hc => ⟨hc.chi, hc.kuhn⟩⟩
    cases q <;> simp only [Store.get]
    rename_i a
    simp only [Par.Same, Par.muP.injEq] at hq
    simp only [upd]
    rw [if_neg (show ¬ a = i by omega)]
  | block p b =>
    simp only [Store.set] at h
    split at h
    · cases h
    split at h
    · cases h
    split at h
    · cases h
    rename_i hb hb2 _
    cases h
    refine ⟨by simp [Store.get, not_not.1 hb, not_not.1 hb2], fun q hq => ?_, by constructor <;> rfl,
      fun hc => ⟨hc.chi, hc.kuhn⟩⟩
    cases q <;> simp only [Store.get]
    rename_i a c
    simp only [Par.Same, Par.block.injEq] at hq
    rw [if_neg (show ¬ (a = p ∧ c = b) by omega)]
  | phiS i =>
    simp only [Store.set] at h
    split at h
    · cases h
    split at h
    · cases h
    split at h
    · cases h
    split at h
    · cases h
    rename_i hb _ _ _
    cases h
    refine ⟨by simp [Store.get, not_not.1 hb, upd], fun q hq => ?_, by constructor <;> rfl, fun hc => ⟨hc.chi, hc.kuhn⟩⟩
    cases q <;> simp only [Store.get]
    rename_i a
    simp only [Par.Same, Par.phiS.injEq] at hq
    simp only [upd]
    rw [if_neg (show ¬ a = i by omega)]
  | muS i =>
    simp only [Store.set] at h
    split at h
    · cases h
    split at h
    · cases h
    rename_i hb _
    cases h
    refine ⟨by simp [Store.get, not_not.1 hb, upd], fun q hq => ?_, by constructor <;> rfl, fun hc => ⟨hc.chi, hc.kuhn⟩⟩
    cases q <;> simp only [Store.get]
    rename_i a
    simp only [Par.Same, Par.muS.injEq] at hq
    simp only [upd]
    rw [if_neg (show ¬ a = i by omega)]
  | size i =>
    simp only [Store.set] at h
    split at h
    · cases h
    rename_i hb
    cases h
    refine ⟨by simp [Store.get, not_not.1 hb, upd], fun q hq => ?_, by constructor <;> rfl, fun hc => ⟨hc.chi, hc.kuhn⟩⟩
    cases q <;> simp only [Store.get]
    rename_i a
    simp only [Par.Same, Par.size.injEq] at hq
    simp only [upd]
    rw [if_neg (show ¬ a = i by omega)]
  | cell i =>
    simp only [Store.set] at h
    split at h
    · cases h
    rename_i hb
    cases h
    refine ⟨by simp [Store.get, not_not.1 hb, upd], fun q hq => ?_, by constructor <;> rfl, fun hc => ⟨hc.chi, hc.kuhn⟩⟩
    cases q <;> simp only [Store.get]
    rename_i a
    simp only [Par.Same, Par.cell.injEq] at hq
    simp only [upd]
    rw [if_neg (show ¬ a = i by omega)]
  | lambda =>
    simp only [Store.set] at h
    split at h
    · rename_i hb
      cases h
      refine ⟨by simp [Store.get, hb], fun q hq => ?_, by constructor <;> rfl, fun hc => ⟨hc.chi, hc.kuhn⟩⟩
      cases q <;> simp only [Store.get]
      exact absurd (Par.same_refl _) hq
    · cases h
  | vMonomer =>
    simp only [Store.set] at h
    split at h
    · cases h
    cases h
    refine ⟨by simp [Store.get], fun q hq => ?_, by constructor <;> rfl, fun hc => ⟨hc.chi, hc.kuhn⟩⟩
    cases q <;> simp only [Store.get]
    exact absurd (Par.same_refl _) hq

/-- No parameter is listed twice. -/
def Distinct (l : List (Entry K × K)) : Prop := l.Pairwise fun a b => ¬ Par.Same a.1.par b.1.par

/-- Values after `setParameters(s)`. -/
theorem setParameters_spec (s : K) : ∀ (l : List (Entry K × K)) (st st' : Store K), Distinct l →
    setParameters s l st = .ok st' →
    (∀ ev ∈ l, st'.get ev.1.par = .ok (ev.2 + s * ev.1.change)) ∧
    (∀ q, (∀ ev ∈ l, ¬ Par.Same ev.1.par q) → st'.get q = st.get q) ∧ SameFrame st st' ∧ (Coh st → Coh st')
  | [], st, st', _, h => by
    cases h
    exact ⟨by simp, fun _ _ => rfl, SameFrame.refl _, id⟩
  | (e, v) :: l, st, st', hd, h => by
    obtain ⟨st1, h1, h2⟩ := Res.bind_eq_ok.1 h
    obtain ⟨a1, a2, a3, a4⟩ := set_spec h1
    rw [Distinct, List.pairwise_cons] at hd
    obtain ⟨b1, b2, b3, b4⟩ := setParameters_spec s l st1 st' hd.2 h2
    refine ⟨fun ev hev => ?_, fun q hq => ?_, a3.trans b3, fun hc => b4 (a4 hc)⟩
    · rcases List.mem_cons.1 hev with rfl | hm
      · rw [b2 _ fun ev hev hs => hd.1 ev hev (Par.same_symm hs)]
        exact a1
      · exact b1 ev hm
    · rw [b2 q fun ev hev => hq ev (List.mem_cons_of_mem _ hev), a2 q (hq _ (List.mem_cons_self ..))]

/-- Entries with the initial values read in `setup`. -/
def paired (st : Store K) (l : List (Entry K)) (l' : List (Entry K × K)) : Prop :=
  ∃ vs, initials st l = .ok vs ∧ l' = l.zip vs

theorem paired_get {st : Store K} : ∀ {l : List (Entry K)} {l' : List (Entry K × K)}, paired st l l' →
    l'.map Prod.fst = l ∧ ∀ ev ∈ l', st.get ev.1.par = .ok ev.2
  | [], l', h => by
    obtain ⟨vs, h1, rfl⟩ := h
    simp
  | e :: l, l', h => by
    obtain ⟨vs, h1, rfl⟩ := h
    obtain ⟨v, g1, g2⟩ := Res.bind_eq_ok.1 h1
    obtain ⟨vs', g3, g4⟩ := Res.bind_eq_ok.1 g2
    cases g4
    obtain ⟨i1, i2⟩ := paired_get (st := st) (l := l) (l' := l.zip vs') ⟨vs', g3, rfl⟩
    refine ⟨by simp [i1], fun ev hev => ?_⟩
    rcases List.mem_cons.1 hev with rfl | hm
    · exact g1
    · exact i2 ev hm

/-- Does the solution of the SCFT problem leave a parameter alone: not a volume fraction of an open species, a chemical
potential of a closed one or a flexible cell parameter. -/
def Indep (flex : Nat → Bool) (st : Store K) : Par → Prop
  | .phiP i => st.openP i = false
  | .muP i => st.openP i = true
  | .phiS i => st.openS i = false
  | .muS i => st.openS i = true
  | .cell i => flex i = false
  | _ => True

/-- All solutions in a sequence leave these parameters alone. -/
def SolveOk (flex : Nat → Bool) (l : List (Entry K × K)) : List (Act K) → Store K → Prop
  | [], _ => True
  | .set s :: as, st => ∀ st', setParameters s l st = .ok st' → SolveOk flex l as st'
  | .solve st' :: as, st =>
    (SameFrame st st' ∧ (Coh st → Coh st') ∧ ∀ q, Indep flex st q → st'.get q = st.get q) ∧ SolveOk flex l as st'

/-- Value of the path coordinate after a sequence of actions that starts at `s₀`. -/
def lastS : List (Act K) → K → K
  | [], s => s
  | .set s :: as, _ => lastS as s
  | .solve _ :: as, s => lastS as s

theorem indep_frame {flex : Nat → Bool} {st st' : Store K} (h : SameFrame st st') (q : Par) :
    Indep flex st' q ↔ Indep flex st q := by
  cases q <;> simp [Indep, h.openP, h.openS]

theorem acts_spec (flex : Nat → Bool) (l : List (Entry K × K)) (hd : Distinct l) (s₀ : Store K) :
    ∀ (as : List (Act K)) (st st' : Store K) (s : K), SolveOk flex l as st → acts l as st = .ok st' →
    SameFrame s₀ st → (Coh s₀ → Coh st) →
    (∀ ev ∈ l, Indep flex st ev.1.par → st.get ev.1.par = .ok (ev.2 + s * ev.1.change)) →
    (∀ q, Indep flex st q → (∀ ev ∈ l, ¬ Par.Same ev.1.par q) → st.get q = s₀.get q) →
    SameFrame s₀ st' ∧ (Coh s₀ → Coh st') ∧
    (∀ ev ∈ l, Indep flex st ev.1.par → st'.get ev.1.par = .ok (ev.2 + lastS as s * ev.1.change)) ∧
    (∀ q, Indep flex st q → (∀ ev ∈ l, ¬ Par.Same ev.1.par q) → st'.get q = s₀.get q)
  | [], st, st', s, _, h, hf, hc, h1, h2 => by
    cases h
    exact ⟨hf, hc, h1, h2⟩
  | .set s' :: as, st, st', s, hs, h, hf, hc, h1, h2 => by
    obtain ⟨st1, g1, g2⟩ := Res.bind_eq_ok.1 h
    obtain ⟨a1, a2, a3, a4⟩ := setParameters_spec s' l st st1 hd g1
    obtain ⟨b1, b2, b3, b4⟩ := acts_spec flex l hd s₀ as st1 st' s' (hs st1 g1) g2 (hf.trans a3) (fun c => a4 (hc c))
      (fun ev hev _ => a1 ev hev) (fun q hq hn => by
        rw [a2 q hn]
        exact h2 q ((indep_frame a3 q).1 hq) hn)
    exact ⟨b1, b2, fun ev hev hi => b3 ev hev ((indep_frame a3 _).2 hi), fun q hi hn => b4 q ((indep_frame a3 _).2 hi) hn⟩
  | .solve st1 :: as, st, st', s, hs, h, hf, hc, h1, h2 => by
    obtain ⟨⟨a3, a4, a5⟩, hs⟩ := hs
    obtain ⟨b1, b2, b3, b4⟩ := acts_spec flex l hd s₀ as st1 st' s hs h (hf.trans a3) (fun c => a4 (hc c))
      (fun ev hev hi => by
        rw [a5 _ ((indep_frame a3 _).1 hi)]
        exact h1 ev hev ((indep_frame a3 _).1 hi))
      (fun q hi hn => by
        rw [a5 q ((indep_frame a3 q).1 hi)]
        exact h2 q ((indep_frame a3 q).1 hi) hn)
    exact ⟨b1, b2, fun ev hev hi => b3 ev hev ((indep_frame a3 _).2 hi), fun q hi hn => b4 q ((indep_frame a3 _).2 hi) hn⟩

/-- **C110**, sweep: for every list of distinct parameters and every history of attempts, failures and solutions, each
swept parameter has the value `initial + s · change` for the last attempted `s`, where `initial` is its value when
the sweep was set up; all other independent parameters have their initial values; `chi` stays symmetric and blocks
keep the segment length of their monomer type. Parameters that are flexible lattice parameters are excluded. -/
theorem C110_path_partial (flex : Nat → Bool) (st st' : Store K) (l : List (Entry K)) (l' : List (Entry K × K))
    (hp : paired st l l') (hd : Distinct l') (as : List (Act K)) (hs : SolveOk flex l' as st)
    (h : acts l' as st = .ok st') :
    (∀ ev ∈ l', Indep flex st ev.1.par → ∃ v, st.get ev.1.par = .ok v ∧
      st'.get ev.1.par = .ok (v + lastS as 0 * ev.1.change)) ∧
    (∀ q, Indep flex st q → (∀ e ∈ l, ¬ Par.Same e.par q) → st'.get q = st.get q) ∧ (Coh st → Coh st') := by
  obtain ⟨p1, p2⟩ := paired_get hp
  obtain ⟨_, b2, b3, b4⟩ := acts_spec flex l' hd st as st st' 0 hs h (SameFrame.refl _) id
    (fun ev hev _ => by rw [p2 ev hev, zero_mul, add_zero]) (fun _ _ _ => rfl)
  refine ⟨fun ev hev hi => ⟨ev.2, p2 ev hev, b3 ev hev hi⟩, fun q hi hn => b4 q hi fun ev hev => hn ev.1 ?_, b2⟩
  rw [← p1]
  exact List.mem_map_of_mem hev

/-- **C110**, swept species: a volume fraction or chemical potential whose assignment succeeds is an independent
variable of its ensemble, so C110_path_partial applies to it. -/
theorem C110_species_indep (flex : Nat → Bool) (st st' : Store K) (v : K) (p : Par) (h : st.set v p = .ok st')
    (hc : ∀ i, p = .cell i → flex i = false) : Indep flex st p := by
  cases p <;> simp only [Indep]
  all_goals simp only [Store.set] at h
  case phiP i => split at h <;> [cases h; split at h <;> [cases h; simp_all]]
  case muP i => split at h <;> [cases h; split at h <;> [cases h; simp_all]]
  case phiS i => split at h <;> [cases h; split at h <;> [cases h; simp_all]]
  case muS i => split at h <;> [cases h; split at h <;> [cases h; simp_all]]
  case cell i => exact hc i rfl

/-! ## Sum of the volume fractions -/

/-- Sum of the volume fractions of all species. -/
def sumPhi (st : Store K) : K := ∑ i ∈ Finset.range st.nP, st.phiP i + ∑ i ∈ Finset.range st.nS, st.phiS i

theorem sum_upd (n : Nat) (f : Nat → K) (i : Nat) (hi : i < n) (v : K) :
    ∑ k ∈ Finset.range n, upd f i v k = ∑ k ∈ Finset.range n, f k + (v - f i) := by
  have e : ∀ k, upd f i v k = f k + if k = i then v - f i else 0 := by
    intro k
    unfold upd
    split
    · rename_i h; rw [h]; ring
    · ring
  rw [Finset.sum_congr rfl fun k _ => e k, Finset.sum_add_distrib, Finset.sum_ite_eq' (Finset.range n) i,
    if_pos (Finset.mem_range.2 hi)]

theorem sumPhi_set {st st' : Store K} {v v0 : K} {p : Par} (h : st.set v p = .ok st') (h0 : st.get p = .ok v0) :
    sumPhi st' = sumPhi st + if p.isPhi then v - v0 else 0 := by
  cases p with
  | phiP i =>
    simp only [Store.get] at h0
    split at h0
    · rename_i hi
      cases h0
      simp only [Store.set] at h
      split at h
      · cases h
      split at h
      · cases h
      split at h
      · cases h
      split at h
      · cases h
      cases h
      simp only [sumPhi, Par.isPhi, if_true, sum_upd _ _ _ hi]
      ring
    · cases h0
  | phiS i =>
    simp only [Store.get] at h0
    split at h0
    · rename_i hi
      cases h0
      simp only [Store.set] at h
      split at h
      · cases h
      split at h
      · cases h
      split at h
      · cases h
      split at h
      · cases h
      cases h
      simp only [sumPhi, Par.isPhi, if_true, sum_upd _ _ _ hi]
      ring
    · cases h0
  | _ =>
    simp only [Store.set] at h
    repeat' split at h
    all_goals first
      | cases h; simp [sumPhi, Par.isPhi]
      | cases h

theorem phiChange_add (l : List (Entry K)) (a b : K) : phiChange l (a + b) = a + phiChange l b := by
  induction l generalizing b with
  | nil => rfl
  | cons e l ih =>
    simp only [phiChange]
    split
    · rw [add_assoc, ih]
    · exact ih b

theorem phiChange_eq (l : List (Entry K)) (a : K) : phiChange l a = a + phiChange l 0 := by
  have := phiChange_add l a 0
  rwa [add_zero] at this

theorem sumPhi_setParameters (s : K) : ∀ (l : List (Entry K × K)) (st st' : Store K), Distinct l →
    (∀ ev ∈ l, ev.1.par.isPhi → st.get ev.1.par = .ok ev.2) → setParameters s l st = .ok st' →
    sumPhi st' = sumPhi st + s * phiChange (l.map Prod.fst) 0
  | [], st, st', _, _, h => by
    cases h
    simp [phiChange]
  | (e, v) :: l, st, st', hd, hg, h => by
    obtain ⟨st1, h1, h2⟩ := Res.bind_eq_ok.1 h
    obtain ⟨_, a2, _, _⟩ := set_spec h1
    rw [Distinct, List.pairwise_cons] at hd
    have ih := sumPhi_setParameters s l st1 st' hd.2 (fun ev hev hphi => by
      rw [a2 _ (hd.1 ev hev)]
      exact hg ev (List.mem_cons_of_mem _ hev) hphi) h2
    rw [ih]
    simp only [List.map_cons, phiChange]
    cases hphi : e.par.isPhi
    · -- not a volume fraction
      have e1 : sumPhi st1 = sumPhi st := by
        cases hp : e.par <;> rw [hp] at h1 hphi
        all_goals first
          | (simp [Par.isPhi] at hphi; done)
          | (simp only [Store.set] at h1
             repeat' split at h1
             all_goals first
               | cases h1; simp [sumPhi]
               | cases h1)
      rw [e1]
      simp
    · have e1 := sumPhi_set h1 (hg (e, v) (List.mem_cons_self ..) hphi)
      rw [e1, hphi, if_pos rfl, if_pos rfl, zero_add, phiChange_eq _ e.change]
      ring

/-- **C110**, composition: if no parameter is listed twice, the sum of all volume fractions changes along an accepted
sweep or ramp by less than `10⁻⁶`, for every `s` in `[0,1]`. -/
theorem C110_phi_sum_partial (st st' : Store K) (l : List (Entry K)) (l' : List (Entry K × K)) (hp : paired st l l')
    (hd : Distinct l') (ha : accepts l) (s : K) (h0 : 0 ≤ s) (h1 : s ≤ 1) (h : setParameters s l' st = .ok st') :
    |sumPhi st' - sumPhi st| < 1 / 1000000 := by
  obtain ⟨p1, p2⟩ := paired_get hp
  rw [sumPhi_setParameters s l' st st' hd (fun ev hev _ => p2 ev hev) h, p1, add_sub_cancel_left, abs_mul, abs_of_nonneg h0]
  have h2 : |phiChange l 0| < 1 / 1000000 := abs_lt.2 ha
  calc s * |phiChange l 0| ≤ 1 * |phiChange l 0| := mul_le_mul_of_nonneg_right h1 (abs_nonneg _)
    _ < 1 / 1000000 := by rwa [one_mul]

/-- **C110 is violated** for parameters listed twice: `readParameters` accepts a list with changes `a` and `-a` of the
same volume fraction, the last entry wins, and the sum of the volume fractions changes by `-s a`. -/
theorem C110_duplicate_violated (st : Store K) (i : Nat) (hi : i < st.nP) (hc : st.openP i = false) (a s : K)
    (hu : 0 ≤ st.phiP i + s * a ∧ st.phiP i + s * a ≤ 1) (hl : 0 ≤ st.phiP i - s * a ∧ st.phiP i - s * a ≤ 1) :
    accepts [⟨.phiP i, a⟩, ⟨.phiP i, -a⟩] ∧
    paired st [⟨.phiP i, a⟩, ⟨.phiP i, -a⟩] [(⟨.phiP i, a⟩, st.phiP i), (⟨.phiP i, -a⟩, st.phiP i)] ∧
    ∃ st', setParameters s [(⟨.phiP i, a⟩, st.phiP i), (⟨.phiP i, -a⟩, st.phiP i)] st = .ok st' ∧
      sumPhi st' = sumPhi st - s * a := by
  refine ⟨?_, ⟨[st.phiP i, st.phiP i], ?_, rfl⟩, ?_⟩
  · unfold accepts
    simp only [phiChange, Par.isPhi, if_true, zero_add, add_neg_cancel]
    constructor <;> norm_num
  · simp [initials, Store.get, hi, Res.bind]
  · have e1 : st.set (st.phiP i + s * a) (.phiP i) = .ok { st with phiP := upd st.phiP i (st.phiP i + s * a) } := by
      simp [Store.set, hi, hc, hu.1, hu.2]
    have e2 : ({ st with phiP := upd st.phiP i (st.phiP i + s * a) } : Store K).set (st.phiP i + s * -a) (.phiP i) =
        .ok { st with phiP := upd (upd st.phiP i (st.phiP i + s * a)) i (st.phiP i + s * -a) } := by
      have h1 : 0 ≤ st.phiP i + s * -a := by rw [mul_neg, ← sub_eq_add_neg]; exact hl.1
      have h2 : st.phiP i + s * -a ≤ 1 := by rw [mul_neg, ← sub_eq_add_neg]; exact hl.2
      simp only [Store.set]
      rw [if_neg (not_not.2 hi), if_neg (by simp [hc]), if_neg (not_not.2 h1), if_neg (not_not.2 h2)]
    refine ⟨{ st with phiP := upd (upd st.phiP i (st.phiP i + s * a)) i (st.phiP i + s * -a) }, ?_, ?_⟩
    · simp only [setParameters]
      rw [e1]
      simp only [Res.bind]
      rw [e2]
    · simp only [sumPhi, sum_upd _ _ _ hi]
      rw [show upd st.phiP i (st.phiP i + s * a) i = st.phiP i + s * a by simp [upd]]
      ring

/-- **C110 is violated** for flexible lattice parameters: `readParameters` accepts them, and after a solution that
moves the parameter to `x` the system does not have the value `initial + s · change`. -/
theorem C110_flexible_violated (st : Store K) (flex : Nat → Bool) (i : Nat) (hi : i < st.nCell) (hf : flex i = true)
    (change s x : K) (hx : x ≠ st.cell i + s * change) :
    accepts [⟨.cell i, change⟩] ∧ paired st [⟨.cell i, change⟩] [(⟨.cell i, change⟩, st.cell i)] ∧
    SolveOk flex [(⟨.cell i, change⟩, st.cell i)] [.set s, .solve { st with cell := upd st.cell i x }] st ∧
    ∃ st', acts [(⟨.cell i, change⟩, st.cell i)] [.set s, .solve { st with cell := upd st.cell i x }] st = .ok st' ∧
      st'.get (.cell i) = .ok x ∧ st'.get (.cell i) ≠ .ok (st.cell i + s * change) := by
  have e : setParameters s [(⟨.cell i, change⟩, st.cell i)] st =
      .ok { st with cell := upd st.cell i (st.cell i + s * change) } := by
    simp [setParameters, Store.set, hi, Res.bind]
  refine ⟨?_, ⟨[st.cell i], ?_, rfl⟩, ?_, { st with cell := upd st.cell i x }, ?_, ?_, ?_⟩
  · unfold accepts
    simp [phiChange, Par.isPhi]
  · simp [initials, Store.get, hi, Res.bind]
  · intro st' h
    rw [e] at h
    cases h
    refine ⟨⟨by constructor <;> rfl, fun hc => ⟨hc.chi, hc.kuhn⟩, fun q hq => ?_⟩, trivial⟩
    cases q <;> simp only [Store.get]
    rename_i a
    simp only [Indep] at hq
    have : a ≠ i := by
      rintro rfl
      rw [hf] at hq
      cases hq
    simp [upd, this]
  · simp only [acts]
    rw [e]
    rfl
  · simp [Store.get, hi, upd]
  · simp only [Store.get, if_pos hi, upd, if_true, ne_eq, Res.ok.injEq]
    exact hx

/-- **C110 is violated** for indices out of range: elements of `chi`, blocks and lattice parameters are accessed without
a check, other indices are checked. -/
theorem C110_index_violated (st : Store K) (i j : Nat) :
    (st.nM ≤ i → st.get (.chi i j) = .ub) ∧ (st.nCell ≤ i → st.get (.cell i) = .ub) ∧
    (i < st.nP → st.nBlock i ≤ j → st.get (.block i j) = .ub) ∧
    (st.nM ≤ i → st.get (.kuhn i) = .throw) ∧ (st.nP ≤ i → st.get (.phiP i) = .throw) := by
  refine ⟨fun h => ?_, fun h => ?_, fun h1 h2 => ?_, fun h => ?_, fun h => ?_⟩ <;> simp only [Store.get]
  · rw [if_neg (by omega)]
  · rw [if_neg (by omega)]
  · rw [if_pos h1, if_neg (by omega)]
  · rw [if_neg (by omega)]
  · rw [if_neg (by omega)]

/-! ## Ramps -/

theorem rampParameters_eq (s : K) : ∀ (l : List (Entry K × K)) (st : Store K) (an : Nat → Nat → K)
    (r : Store K × (Nat → Nat → K)), rampParameters s l st an = .ok r →
    setParameters s l st = .ok r.1 ∧ (an = st.chi → r.2 = r.1.chi) ∧
      ((∃ ev ∈ l, ev.1.par.isChi) → r.2 = r.1.chi)
  | [], st, an, r, h => by
    cases h
    exact ⟨rfl, id, by simp⟩
  | (e, v) :: l, st, an, r, h => by
    obtain ⟨st1, h1, h2⟩ := Res.bind_eq_ok.1 h
    obtain ⟨i1, i2, i3⟩ := rampParameters_eq s l st1 _ r h2
    have e1 : setParameters s ((e, v) :: l) st = .ok r.1 := by
      simp only [setParameters]
      rw [h1]
      exact i1
    have e2 : e.par.isChi = false → st1.chi = st.chi := by
      intro hn
      cases hp : e.par <;> rw [hp] at h1 hn
      all_goals first
        | (simp [Par.isChi] at hn; done)
        | (simp only [Store.set] at h1
           repeat' split at h1
           all_goals first
             | cases h1; rfl
             | cases h1)
    refine ⟨e1, fun ha => i2 ?_, ?_⟩
    · split
      · rfl
      · rename_i hn
        rw [ha, e2 (by simpa using hn)]
    · rintro ⟨ev, hev, hchi⟩
      rcases List.mem_cons.1 hev with rfl | hm
      · exact i2 (by rw [if_pos hchi])
      · exact i3 ⟨ev, hm, hchi⟩

/-- **C110**, ramp: after `setParameters(iStep)` every parameter of a ramp has the value
`initial + (iStep/nStep) · change`, the others are unchanged, and the eigenvectors of the projected chi matrix used
by the simulator are those of the new chi matrix, if they were those of the old one before. -/
theorem C110_ramp (st : Store K) (l : List (Entry K)) (l' : List (Entry K × K)) (hp : paired st l l')
    (hd : Distinct l') (cur : Store K) (an : Nat → Nat → K) (han : an = cur.chi) (iStep nStep : Nat)
    (r : Store K × (Nat → Nat → K)) (h : rampParameters ((iStep : K) / (nStep : K)) l' cur an = .ok r) :
    (∀ ev ∈ l', ∃ v, st.get ev.1.par = .ok v ∧ r.1.get ev.1.par = .ok (v + (iStep : K) / (nStep : K) * ev.1.change)) ∧
    (∀ q, (∀ e ∈ l, ¬ Par.Same e.par q) → r.1.get q = cur.get q) ∧ r.2 = r.1.chi := by
  obtain ⟨p1, p2⟩ := paired_get hp
  obtain ⟨h1, h2, _⟩ := rampParameters_eq _ l' cur an r h
  obtain ⟨a1, a2, _, _⟩ := setParameters_spec _ l' cur r.1 hd h1
  refine ⟨fun ev hev => ⟨ev.2, p2 ev hev, a1 ev hev⟩, fun q hq => a2 q fun ev hev => hq ev.1 ?_, h2 han⟩
  rw [← p1]
  exact List.mem_map_of_mem hev

/-- **C110 is violated** for the final value of a ramp: `output` prints `initial + change`, but steps for which the
compressor fails are not counted, and with any failure the value reached is another one. -/
theorem C110_ramp_final_violated (l' : List (Entry K × K)) (hd : Distinct l') (cur st' : Store K) (iStep nStep : Nat) (hf : iStep < nStep)
    (h : setParameters ((iStep : K) / (nStep : K)) l' cur = .ok st') (ev : Entry K × K) (hev : ev ∈ l')
    (hc : ev.1.change ≠ 0) : st'.get ev.1.par ≠ .ok (ev.2 + ev.1.change) := by
  obtain ⟨a1, _⟩ := setParameters_spec _ l' cur st' hd h
  rw [a1 ev hev]
  intro e
  have e := add_left_cancel (Res.ok.inj e)
  have h1 : (iStep : K) / (nStep : K) = 1 := by
    have := mul_right_cancel₀ hc (e.trans (one_mul _).symm)
    exact this
  have hn : (0 : K) < (nStep : K) := by exact_mod_cast (by omega : 0 < nStep)
  rw [div_eq_one_iff_eq hn.ne'] at h1
  have : iStep = nStep := by exact_mod_cast h1
  omega

/-! ## Concrete cases -/

/-- Two monomer types, two polymers (the second one open), one solvent. -/
def exStore : Store ℚ where
  thread := true
  nM := 2
  nP := 2
  nS := 1
  nBlock := fun _ => 2
  nCell := 1
  openP := fun i => i = 1
  openS := fun _ => false
  pert := false
  blkMon := fun _ b => b
  chi := fun i j => if i = j then 0 else 20
  kuhn := fun _ => 1
  blkKuhn := fun _ _ => 1
  blkLen := fun _ _ => 1 / 2
  phiP := fun _ => 1 / 2
  muP := fun _ => 3
  phiS := fun _ => 1 / 4
  muS := fun _ => 0
  size := fun _ => 1
  cell := fun _ => 4
  lambda := 0
  vMonomer := 1

/-- Sweep of chi, segment length, a volume fraction pair and a chemical potential, with a rejected attempt. -/
def exEntries : List (Entry ℚ) :=
  [⟨.chi 1 0, 4⟩, ⟨.kuhn 1, 1⟩, ⟨.phiP 0, 1 / 8⟩, ⟨.phiS 0, -1 / 8⟩, ⟨.muP 1, 2⟩]

def exPaired : List (Entry ℚ × ℚ) := exEntries.zip [20, 1, 1 / 2, 1 / 4, 3]

def exGet (r : Res (Store ℚ)) : Bool :=
  match r with
  | .ok st' => st'.chi 0 1 == 24 && st'.blkKuhn 0 1 == 2 && st'.blkKuhn 0 0 == 1 && st'.muP 1 == 5 &&
      st'.phiS 0 == 1 / 8 && st'.phiP 0 == 5 / 8
  | _ => false

example : exGet (acts exPaired [.set (1 / 2), .set (1 / 4), .set 1] exStore) = true := by decide +kernel

example : paired exStore exEntries exPaired ∧ Distinct exPaired ∧ accepts exEntries := by
  refine ⟨⟨_, rfl, rfl⟩, ?_, ?_⟩
  · simp [Distinct, exPaired, exEntries, Par.Same]
  · unfold accepts
    simp [phiChange, exEntries, Par.isPhi]
    norm_num

/-- The volume fraction of an open species cannot be swept. -/
example : exStore.set (1 / 4) (.phiP 1) = .throw := rfl

/-- A ramp of two steps, one of which fails: chi is 22, not 24. -/
example : ∃ r, rampParameters (1 / 2) [((⟨.chi 0 1, 4⟩ : Entry ℚ), 20)] exStore exStore.chi = .ok r ∧
    r.1.get (.chi 1 0) = .ok 22 ∧ r.2 1 0 = 22 := by
  refine ⟨_, rfl, ?_, ?_⟩ <;> simp [Store.get, exStore, Par.isChi] <;> norm_num

end Verif.Sweep
