import Verif.Solver.StressLemmas
import Verif.Crystal.CellDerivProps
import Mathlib.Analysis.SpecialFunctions.Log.Deriv

/-!
# C84, C85: concentrations and stress of bead polymers are derivatives of `ln Q`
-/

set_option autoImplicit false
set_option linter.unusedSectionVars false

namespace Verif.Solver

open Verif.Chem

variable {m : Nat} {N : Fin (m + 1) → Nat} [∀ d, NeZero (N d)] {n : Nat} (en : Fin n ≃ Grid N)

theorem realBlock_ok (es : List Edge) (fuel : Nat) (P : Polymer)
    (hr : readTopology es fuel = some (.ok P)) (w : Nat → Fld n ℝ) (ns : Nat → Nat)
    (hns : ∀ k, 3 ≤ ns k) (ds kuhn : Nat → ℝ) (ksq : Half N → ℝ) :
    PolyOk (dftKin en) true (fun k => realBlock true (w k) (ns k) (ds k) (kuhn k) ksq) es fuel P :=
  ⟨hr, dft_selfAdjoint en, fun hb => by simp at hb, fun _ k _ => ⟨hns k, fun i => by
    simp only [realBlock, if_true, beadArrays]
    exact mul_one_div_cancel (Real.exp_pos _).ne'⟩⟩

/-- Common part: derivative of `Q` from the derivatives of the arrays. -/
theorem Q_deriv {es : List Edge} {fuel : Nat} {P : Polymer} (hes : es ≠ [])
    {blk : ℝ → Nat → BlockData ℝ n (Half N)} (hP : ∀ t, PolyOk (dftKin en) true (blk t) es fuel P)
    {ns : Nat → Nat} (hns : ∀ t k, (blk t k).ns = ns k) {θ : ℝ} (w' : Nat → Fld n ℝ)
    (f' f2' : Nat → Half N → ℝ)
    (hw : ∀ k, HasD (fun t => (blk t k).arrays.expW) (w' k) θ)
    (hf : ∀ k q, HasDerivAt (fun t => (blk t k).arrays.expKsq q) (f' k q) θ)
    (hf2 : ∀ k q, HasDerivAt (fun t => (blk t k).arrays.expKsq2 q) (f2' k q) θ)
    {phiTot : ℝ} {st : ℝ → Pid → Option (Nat → Fld n ℝ)} {Q : ℝ → ℝ}
    (h : ∀ t, polymerSolve (dftKin en) true (blk t) es P.vertices P.plan phiTot =
      .ok (st t, Q t)) :
    HasDerivAt Q ((∑ k : Fin es.length, dot (lastD (dftKin en) (blk θ k).arrays (w' k) (f' k) (f2' k)
      (headEnd es P.vertices ((k : Nat), false)) (tailEnd es P.vertices ((k : Nat), false))
      (ns k - 3) (headOf (st θ) ((k : Nat), false))) (headOf (st θ) ((k : Nat), true))) / n / phiTot)
      θ := by
  have hst : ∀ t, solvePlan (dftKin en) true (blk t) es P.vertices P.plan (fun _ => none) =
      .ok (st t) := by
    intro t
    have ht := h t
    unfold polymerSolve at ht
    rw [Res.bind_eq_ok] at ht
    obtain ⟨s, h1, h2⟩ := ht
    rw [h1]
    split at h2
    · injection h2 with h2
      injection h2 with h2 _
      rw [h2]
    · simp at h2
  have hQ : Q = fun t => dot (headOf (st t) (0, false)) (tailOf (blk t) (st t) (0, true)) / (n : ℝ) /
      phiTot := by
    funext t
    exact ((polymerSolve_inv (hP t) hes (h t)).2).symm
  have hD := sum_deriv hP hes hst (θ := θ) (fun t k => by rw [hns, hns])
    (fun p => lastD (dftKin en) (blk θ p.1).arrays (w' p.1) (f' p.1) (f2' p.1)
      (headEnd es P.vertices p) (tailEnd es P.vertices p) (ns p.1 - 3)) (by
      intro p hp
      have h3 : 3 ≤ ns p.1 := by have := ((hP θ).beads rfl p.1 hp).1; rwa [hns] at this
      have := opD_last (dft_deriv en) (dft_add en) (hw p.1) (hf p.1) (hf2 p.1)
        (headEnd es P.vertices p) (tailEnd es P.vertices p) (ns p.1) h3
      unfold solveFrom
      simp only [if_true, hns]
      exact this)
  rw [hQ]
  exact (hD.div_const _).div_const _

theorem solution_eq {es : List Edge} {fuel : Nat} {P : Polymer} (hes : es ≠ [])
    {blk : Nat → BlockData ℝ n (Half N)} (hP : PolyOk (dftKin en) true blk es fuel P)
    {phiTot : ℝ} {st : Pid → Option (Nat → Fld n ℝ)} {Q : ℝ}
    (h : polymerSolve (dftKin en) true blk es P.vertices P.plan phiTot = .ok (st, Q))
    {p : Pid} (hp : p.1 < es.length) :
    st p = some (slicesBead (dftKin en) (blk p.1).arrays (blk p.1).ns (headEnd es P.vertices p)
      (tailEnd es P.vertices p) (headOf st p)) := by
  obtain ⟨hd, _⟩ := polymerSolve_inv hP hes h
  obtain ⟨_, hv, hs⟩ := plan_facts hP
  rw [st_eq hd ((hs.complete p).2 hp)]
  simp [solveFrom]

/-- Spatial sum of the concentration of a block with a direction of change of its field. -/
theorem conc_deriv (a : Arrays ℝ n (Half N)) (ns : Nat) (hns : 3 ≤ ns) (e e' : Bool) (pre : ℝ)
    (δ x y : Fld n ℝ) (hwi : ∀ i, a.expW i * a.expWInv i = 1) :
    ∑ i, δ i * concBead a ns pre (slicesBead (dftKin en) a ns e e' x)
      (slicesBead (dftKin en) a ns e' e y) i =
    -pre * dot (lastD (dftKin en) a (fun i => -δ i * a.expW i) (fun _ => 0) (fun _ => 0) e e'
      (ns - 3) x) y := by
  rw [dot_lastD (dft_selfAdjoint en) hwi]
  have z : ∀ u v : Fld n ℝ, dot (dftKin en (fun _ => (0 : ℝ)) u) v = 0 := by
    intro u v
    have : extR (N := N) (fun _ => (0 : ℝ)) = fun _ => 0 := by funext k; simp [extR]
    simp [dot, dftKin_eq, this]
  simp only [z, Finset.sum_const_zero, add_zero, ite_self, zero_add]
  simp only [concBead, accum_eq, zero_add]
  obtain ⟨M, hM⟩ : ∃ M, ns = M + 3 := ⟨ns - 3, by omega⟩
  simp only [hM, Nat.add_sub_cancel]
  unfold dot
  simp only [mulF]
  rw [Finset.sum_comm, Finset.mul_sum]
  apply Finset.sum_congr rfl
  intro i _
  rw [Finset.mul_sum, Finset.sum_mul, Finset.mul_sum]
  refine Fintype.sum_equiv (finCongr (by omega)) _ _ (fun r => ?_)
  simp only [finCongr_apply, Fin.val_cast]
  rw [slicesBead_mid a _ e e' x r (by omega),
    show M + 3 - 1 - ((r : Nat) + 1) = (M - r) + 1 by omega,
    slicesBead_mid a _ e' e y _ (by omega)]
  have := hwi i
  linear_combination (-pre * δ i * beads (dftKin en) a e x r i *
    beads (dftKin en) a e' y (M - r) i * a.expWInv i) * this

/-! ## C84 -/

/-- **C84**: for every bead polymer, mesh, field and direction `δ` of change of the fields of the
blocks, the derivative of `-(phi/total) ln Q` is the spatial average of `δ` times the computed
block concentrations, divided by the unmasked fraction. -/
theorem C84_concentration_is_derivative (es : List Edge) (hes : es ≠ []) (fuel : Nat) (P : Polymer)
    (hr : readTopology es fuel = some (.ok P)) (w δ : Nat → Fld n ℝ) (ns : Nat → Nat)
    (hns : ∀ k, 3 ≤ ns k) (ds kuhn : Nat → ℝ) (ksq : Half N → ℝ) (phi phiTot total : ℝ) :
    let blk := fun (t : ℝ) k =>
      realBlock true (fun i => w k i + t * δ k i) (ns k) (ds k) (kuhn k) ksq
    ∃ (st : ℝ → Pid → Option (Nat → Fld n ℝ)) (Q : ℝ → ℝ),
      (∀ t, polymerSolve (dftKin en) true (blk t) es P.vertices P.plan phiTot =
        .ok (st t, Q t)) ∧
      ∀ θ, Q θ ≠ 0 → ∃ c : Nat → Fld n ℝ,
        (∀ k, k < es.length → blockConc true (blk θ) (st θ) phi (Q θ) total k = some (c k)) ∧
        HasDerivAt (fun t => -(phi / total) * Real.log (Q t))
          ((∑ k : Fin es.length, ∑ i, δ k i * c k i) / n / phiTot) θ := by
  intro blk
  have hP : ∀ t, PolyOk (dftKin en) true (blk t) es fuel P := fun t =>
    realBlock_ok en es fuel P hr (fun k i => w k i + t * δ k i) ns hns ds kuhn ksq
  choose st Q h using fun t => C53_solve_succeeds (hP t) hes phiTot
  refine ⟨st, Q, h, fun θ hQ => ?_⟩
  have hexp : ∀ k, HasD (fun t => (blk t k).arrays.expW)
      (fun i => -δ k i * (blk θ k).arrays.expW i) θ := by
    intro k i
    have h1 : HasDerivAt (fun t : ℝ => -(w k i + t * δ k i)) (-δ k i) θ := by
      have := (((hasDerivAt_id θ).mul_const (δ k i)).const_add (w k i)).neg
      refine this.congr_deriv ?_
      ring
    refine h1.exp.congr_deriv ?_
    simp only [blk, realBlock, if_true, beadArrays]
    ring
  have hD := Q_deriv en hes hP (ns := ns) (fun t k => rfl) (θ := θ)
    (fun k i => -δ k i * (blk θ k).arrays.expW i) (fun _ _ => 0) (fun _ _ => 0) hexp
    (fun k q => hasDerivAt_const _ _) (fun k q => hasDerivAt_const _ _) h
  set c : Nat → Fld n ℝ := fun k => concBead (blk θ k).arrays (ns k) (phi / (Q θ * total))
    (slicesBead (dftKin en) (blk θ k).arrays (ns k) (headEnd es P.vertices (k, false))
      (tailEnd es P.vertices (k, false)) (headOf (st θ) (k, false)))
    (slicesBead (dftKin en) (blk θ k).arrays (ns k) (headEnd es P.vertices (k, true))
      (tailEnd es P.vertices (k, true)) (headOf (st θ) (k, true))) with hc
  refine ⟨c, fun k hk => ?_, ?_⟩
  · unfold blockConc
    rw [solution_eq en hes (hP θ) (h θ) (p := (k, false)) hk,
      solution_eq en hes (hP θ) (h θ) (p := (k, true)) hk]
    rfl
  · refine ((hD.log hQ).const_mul (-(phi / total))).congr_deriv ?_
    have hk : ∀ k : Fin es.length, ∑ i, δ k i * c k i = -(phi / (Q θ * total)) *
        dot (lastD (dftKin en) (blk θ k).arrays (fun i => -δ k i * (blk θ k).arrays.expW i)
          (fun _ => 0) (fun _ => 0) (headEnd es P.vertices ((k : Nat), false))
          (tailEnd es P.vertices ((k : Nat), false)) (ns k - 3) (headOf (st θ) ((k : Nat), false)))
          (headOf (st θ) ((k : Nat), true)) := by
      intro k
      have hwi : ∀ i, (blk θ k).arrays.expW i * (blk θ k).arrays.expWInv i = 1 :=
        ((hP θ).beads rfl k k.2).2
      have e1 : headEnd es P.vertices ((k : Nat), true) = tailEnd es P.vertices ((k : Nat), false) :=
        rfl
      have e2 : tailEnd es P.vertices ((k : Nat), true) = headEnd es P.vertices ((k : Nat), false) :=
        tailEnd_partner ((k : Nat), false)
      simp only [hc, e1, e2]
      exact conc_deriv en _ _ (hns k) _ _ _ _ _ _ hwi
    simp only [hk, ← Finset.mul_sum]
    field_simp

/-! ## C85 -/

theorem foldl_stress (f : Nat → Option ℝ) (g : Nat → ℝ) : ∀ l : List Nat, (∀ k ∈ l, f k = some (g k)) →
    ∀ a : ℝ, l.foldl (fun acc k => match acc, f k with
      | some a, some s => some (a + s)
      | _, _ => none) (some a) = some (a + (l.map g).sum)
  | [], _, a => by simp
  | k :: l, h, a => by
    simp only [List.foldl_cons, h k (by simp)]
    rw [foldl_stress f g l (fun k hk => h k (by simp [hk]))]
    simp [add_assoc]

/-- **C85**: if the array `dKSq` contains the derivative of the squared wavenumber of each stored
wave, twice for waves whose inverse is not stored, then the stress of a bead polymer divided by the
unmasked fraction is the derivative of `-(phi/total) ln Q`. -/
theorem C85_stress_is_derivative (es : List Edge) (hes : es ≠ []) (fuel : Nat) (P : Polymer)
    (hr : readTopology es fuel = some (.ok P)) (w : Nat → Fld n ℝ) (ns : Nat → Nat)
    (hns : ∀ k, 3 ≤ ns k) (ds kuhn : Nat → ℝ) (ksq : ℝ → Half N → ℝ) (phi phiTot total : ℝ) :
    let blk := fun (t : ℝ) k => realBlock true (w k) (ns k) (ds k) (kuhn k) (ksq t)
    ∃ (st : ℝ → Pid → Option (Nat → Fld n ℝ)) (Q : ℝ → ℝ),
      (∀ t, polymerSolve (dftKin en) true (blk t) es P.vertices P.plan phiTot =
        .ok (st t, Q t)) ∧
      ∀ (θ : ℝ) (dk : Half N → ℝ), (∀ k, HasDerivAt (fun t => ksq t k) (dk k) θ) → Q θ ≠ 0 →
        ∃ s, polymerStress en true (blk θ) kuhn es P.vertices (trueDKSq dk) (st θ) phi (Q θ) total =
            some s ∧
          HasDerivAt (fun t => -(phi / total) * Real.log (Q t)) (s / phiTot) θ := by
  intro blk
  have hP : ∀ t, PolyOk (dftKin en) true (blk t) es fuel P := fun t =>
    realBlock_ok en es fuel P hr w ns hns ds kuhn (ksq t)
  choose st Q h using fun t => C53_solve_succeeds (hP t) hes phiTot
  refine ⟨st, Q, h, fun θ dk hdk hQ => ?_⟩
  have hf : ∀ k q, HasDerivAt (fun t => (blk t k).arrays.expKsq q)
      (dk q * (-1 * kuhn k * kuhn k / 6) * (blk θ k).arrays.expKsq q) θ := by
    intro k q
    refine ((hdk q).mul_const (-1 * kuhn k * kuhn k / 6)).exp.congr_deriv ?_
    simp only [blk, realBlock, if_true, beadArrays]
    ring
  have hf2 : ∀ k q, HasDerivAt (fun t => (blk t k).arrays.expKsq2 q)
      (1 / 2 * (dk q * (-1 * kuhn k * kuhn k / 6)) * (blk θ k).arrays.expKsq2 q) θ := by
    intro k q
    refine (((hdk q).mul_const (-1 * kuhn k * kuhn k / 6)).const_mul (1 / 2)).exp.congr_deriv ?_
    simp only [blk, realBlock, if_true, beadArrays]
    ring
  have hD := Q_deriv en hes hP (ns := ns) (fun t k => rfl) (θ := θ) (fun k i => 0) _ _
    (fun k i => hasDerivAt_const _ _) hf hf2 h
  set g : Nat → ℝ := fun k => stressBead en (blk θ k).arrays (ns k)
    (headEnd es P.vertices (k, false)) (tailEnd es P.vertices (k, false)) (kuhn k) (trueDKSq dk)
    (phi / (Q θ * total))
    (slicesBead (dftKin en) (blk θ k).arrays (ns k) (headEnd es P.vertices (k, false))
      (tailEnd es P.vertices (k, false)) (headOf (st θ) (k, false)))
    (slicesBead (dftKin en) (blk θ k).arrays (ns k) (headEnd es P.vertices (k, true))
      (tailEnd es P.vertices (k, true)) (headOf (st θ) (k, true))) with hg
  refine ⟨_, foldl_stress _ g _ (fun k hk => ?_) 0, ?_⟩
  · rw [List.mem_range] at hk
    unfold blockStress
    rw [solution_eq en hes (hP θ) (h θ) (p := (k, false)) hk,
      solution_eq en hes (hP θ) (h θ) (p := (k, true)) hk]
    rfl
  · refine ((hD.log hQ).const_mul (-(phi / total))).congr_deriv ?_
    have hsum : ((List.range es.length).map g).sum = ∑ k : Fin es.length, g k := by
      rw [← List.sum_ofFn (f := fun k : Fin es.length => g k), List.ofFn_eq_map,
        ← List.map_coe_finRange_eq_range, List.map_map]
      rfl
    rw [hsum, zero_add]
    have hk := fun k : Fin es.length => stress_deriv en (blk θ k).arrays (ns k) (hns k)
      (headEnd es P.vertices ((k : Nat), false)) (tailEnd es P.vertices ((k : Nat), false)) (kuhn k)
      (phi / (Q θ * total)) dk (headOf (st θ) ((k : Nat), false)) (headOf (st θ) ((k : Nat), true))
      ((hP θ).beads rfl k k.2).2
    have hgk : ∀ k : Fin es.length, g k = stressBead en (blk θ k).arrays (ns k)
        (headEnd es P.vertices ((k : Nat), false)) (tailEnd es P.vertices ((k : Nat), false)) (kuhn k)
        (trueDKSq dk) (phi / (Q θ * total))
        (slicesBead (dftKin en) (blk θ k).arrays (ns k) (headEnd es P.vertices ((k : Nat), false))
          (tailEnd es P.vertices ((k : Nat), false)) (headOf (st θ) ((k : Nat), false)))
        (slicesBead (dftKin en) (blk θ k).arrays (ns k) (tailEnd es P.vertices ((k : Nat), false))
          (headEnd es P.vertices ((k : Nat), false)) (headOf (st θ) ((k : Nat), true))) := by
      intro k
      have e2 : tailEnd es P.vertices ((k : Nat), true) = headEnd es P.vertices ((k : Nat), false) :=
        tailEnd_partner ((k : Nat), false)
      rw [← e2]
      rfl
    rw [Finset.sum_congr rfl (fun k _ => (hgk k).trans (hk k))]
    simp only [← Finset.mul_sum, ← Finset.sum_div]
    field_simp

/-- **C85**: the stress of a mixture is the sum of the contributions of its polymers. -/
theorem C85_mixture (phiTot θ : ℝ) : ∀ (F : List ((ℝ → ℝ) × ℝ)),
    (∀ p ∈ F, HasDerivAt p.1 (p.2 / phiTot) θ) →
    HasDerivAt (fun t => (F.map (fun p => p.1 t)).sum) (mixtureStress phiTot (F.map (·.2))) θ := by
  intro F hF
  have e : mixtureStress phiTot (F.map (·.2)) = (F.map (fun p => p.2 / phiTot)).sum := by
    unfold mixtureStress
    rw [← List.sum_eq_foldl]
    induction F with
    | nil => simp
    | cons p F ih => simp [add_div, ih (fun p hp => hF p (by simp [hp]))]
  rw [e]
  clear e
  induction F with
  | nil => simpa using hasDerivAt_const θ (0 : ℝ)
  | cons p F ih =>
    simp only [List.map_cons, List.sum_cons]
    exact (hF p (by simp)).fun_add (ih (fun p hp => hF p (by simp [hp])))

/-- **C85** for a unit cell: `r` and `kb` are the Bravais and reciprocal bases along a curve of unit
cells, `dr` the derivative of the first, `G` the (fixed) wavevectors; the derivatives of the squared
wavenumbers are those computed by `UnitCellBase::dksq`. -/
theorem C85_unit_cell (es : List Edge) (hes : es ≠ []) (fuel : Nat) (P : Polymer)
    (hr : readTopology es fuel = some (.ok P)) (w : Nat → Fld n ℝ) (ns : Nat → Nat)
    (hns : ∀ k, 3 ≤ ns k) (ds kuhn : Nat → ℝ) (phi phiTot total : ℝ)
    (r kb : ℝ → Crystal.BasisVecs (m + 1)) (dr : Crystal.BasisVecs (m + 1)) (θ : ℝ)
    (hrd : ∀ i j, HasDerivAt (fun x => r x i j) (dr i j) θ)
    (hrec : ∀ᶠ x in nhds θ, Crystal.Reciprocal (r x) (kb x)) (G : Half N → Fin (m + 1) → Int) :
    let blk := fun (t : ℝ) k => realBlock true (w k) (ns k) (ds k) (kuhn k)
      (fun q => Crystal.ksq (kb t) (G q))
    ∃ (st : ℝ → Pid → Option (Nat → Fld n ℝ)) (Q : ℝ → ℝ),
      (∀ t, polymerSolve (dftKin en) true (blk t) es P.vertices P.plan phiTot =
        .ok (st t, Q t)) ∧
      (Q θ ≠ 0 → ∃ s, polymerStress en true (blk θ) kuhn es P.vertices
          (trueDKSq (fun q => Crystal.dksq (kb θ) dr (G q))) (st θ) phi (Q θ) total = some s ∧
        HasDerivAt (fun t => -(phi / total) * Real.log (Q t)) (s / phiTot) θ) := by
  intro blk
  obtain ⟨st, Q, h, h2⟩ := C85_stress_is_derivative en es hes fuel P hr w ns hns ds kuhn
    (fun t q => Crystal.ksq (kb t) (G q)) phi phiTot total
  exact ⟨st, Q, h, fun hQ => h2 θ _ (fun q => Crystal.C36_dksq r kb dr θ hrd hrec (G q)) hQ⟩

/-! ### The array of the code -/

theorem stored_neg_iff (k : Half N) : Stored (-k.1) ↔
    (k.1 (Fin.last m)).val = 0 ∨
      N (Fin.last m) - (k.1 (Fin.last m)).val ≤ N (Fin.last m) / 2 := by
  unfold Stored
  rw [Pi.neg_apply, ZMod.neg_val]
  split
  · rename_i h
    simp [h]
  · rename_i h
    have : (k.1 (Fin.last m)).val ≠ 0 := by simpa [ZMod.val_eq_zero] using h
    simp [this]

/-- Waves that the code counts once although their inverse is not stored. -/
def Missed (k : Half N) : Prop :=
  (k.1 (Fin.last m)).val ≠ 0 ∧
    N (Fin.last m) - (k.1 (Fin.last m)).val = N (Fin.last m) / 2 + 1

instance (k : Half N) : Decidable (Missed k) := inferInstanceAs (Decidable (_ ∧ _))

theorem codeDKSq_eq (dk : Half N → ℝ) (k : Half N) :
    codeDKSq dk k = trueDKSq dk k - if Missed k then dk k else 0 := by
  have hk : (k.1 (Fin.last m)).val ≤ N (Fin.last m) / 2 := k.2
  have h1 : Crystal.hasImplicitInverse ((k.1 (Fin.last m)).val : Int) (N (Fin.last m)) = true ↔
      ¬ Stored (-k.1) ∧ ¬ Missed k := by
    rw [stored_neg_iff]
    unfold Crystal.hasImplicitInverse Missed
    rw [Int.tdiv_eq_ediv_of_nonneg (by omega)]
    simp only [Bool.and_eq_true, decide_eq_true_eq]
    omega
  have h2 : Missed k → ¬ Stored (-k.1) := by
    rw [stored_neg_iff]
    unfold Missed
    omega
  unfold codeDKSq trueDKSq
  by_cases a : Missed k
  · have := h2 a
    have hf : ¬ Crystal.hasImplicitInverse ((k.1 (Fin.last m)).val : Int) (N (Fin.last m)) = true :=
      fun h => (h1.1 h).2 a
    rw [if_neg hf, if_neg this, if_pos a]
    ring
  · by_cases b : Stored (-k.1)
    · have hf : ¬ Crystal.hasImplicitInverse ((k.1 (Fin.last m)).val : Int) (N (Fin.last m)) =
        true := fun h => (h1.1 h).1 b
      rw [if_neg hf, if_pos b, if_neg a]
      ring
    · rw [if_pos (h1.2 ⟨b, a⟩), if_neg b, if_neg a]
      ring

/-- **C85**, part that holds for the array of the code: at most two mesh points in the last
direction. Missing: all other meshes, where it fails (`C85_code_violated`). -/
theorem C85_code_partial (dk : Half N → ℝ) (hN : N (Fin.last m) ≤ 2) :
    codeDKSq dk = trueDKSq dk := by
  funext k
  rw [codeDKSq_eq, if_neg, sub_zero]
  have hk : (k.1 (Fin.last m)).val ≤ N (Fin.last m) / 2 := k.2
  have := NeZero.pos (N (Fin.last m))
  unfold Missed
  omega

/-- A dimer with a single block. -/
def dimer : List Edge := [(0, 1)]

theorem dimer_solution {P : Polymer} (hr : readTopology dimer 2 = some (.ok P))
    {blk : Nat → BlockData ℝ n (Half N)} (hP : PolyOk (dftKin en) true blk dimer 2 P)
    {phiTot : ℝ} {st : Pid → Option (Nat → Fld n ℝ)} {Q : ℝ}
    (h : polymerSolve (dftKin en) true blk dimer P.vertices P.plan phiTot = .ok (st, Q))
    (b : Bool) :
    headEnd dimer P.vertices (0, b) = true ∧ tailEnd dimer P.vertices (0, b) = true ∧
    st (0, b) = some (slicesBead (dftKin en) (blk 0).arrays (blk 0).ns true true (fun _ => 1)) := by
  have he : headEnd dimer P.vertices (0, b) = true ∧ tailEnd dimer P.vertices (0, b) = true := by
    have h2 : some (Res.ok P) = readTopology dimer 2 := hr.symm
    have h3 : ∃ P0, readTopology dimer 2 = some (.ok P0) ∧
        headEnd dimer P0.vertices (0, b) = true ∧ tailEnd dimer P0.vertices (0, b) = true := by
      cases b <;> exact ⟨_, rfl, by decide, by decide⟩
    obtain ⟨P0, h4, h5⟩ := h3
    rw [h4] at h2
    injection h2 with h2
    injection h2 with h2
    rw [h2]
    exact h5
  refine ⟨he.1, he.2, ?_⟩
  have hes : dimer ≠ [] := by simp [dimer]
  have hp : ((0, b) : Pid).1 < dimer.length := by simp [dimer]
  have h1 := solution_eq en hes hP h hp
  obtain ⟨hd, _⟩ := polymerSolve_inv hP hes h
  obtain ⟨_, hv, hs⟩ := plan_facts hP
  have hh : headOf st (0, b) = fun _ => 1 := by
    funext i
    rw [headOf_eq hv hd hp ((hs.complete _).2 hp)]
    rw [headEnd_sources hv hp he.1]
    rfl
  rw [hh, he.1, he.2] at h1
  exact h1

theorem dimer_Q_ne (w : Fld n ℝ) (kuhn : ℝ) (ksq : Half N → ℝ) :
    dot (slicesBead (dftKin en) (beadArrays w kuhn ksq) 4 true true (fun _ => (1 : ℝ)) 0)
      (slicesBead (dftKin en) (beadArrays w kuhn ksq) 4 true true (fun _ => (1 : ℝ)) 3) ≠ 0 := by
  have e1 : slicesBead (dftKin en) (beadArrays w kuhn ksq) 4 true true (fun _ => (1 : ℝ)) 3 =
      mulF (fun i => Real.exp (-w i)) (dftKin en (beadArrays (n := n) w kuhn ksq).expKsq
        (fun i => Real.exp (-w i))) := by
    have := slicesBead_last (kin := dftKin en) (beadArrays w kuhn ksq) 4 true true
      (fun _ => (1 : ℝ)) (by omega)
    simp only [Nat.reduceSub, if_true] at this
    rw [this]
    show stepBead _ _ (beads _ _ true _ 0) = _
    have e2 : beads (dftKin en) (beadArrays w kuhn ksq) true (fun _ => (1 : ℝ)) 0 =
        fun i => Real.exp (-w i) := by
      funext i; simp [beads, stepFieldBead, beadArrays]
    rw [e2]
    rfl
  have e3 : mulF (fun i => Real.exp (-w i)) (fun _ => (1 : ℝ)) = fun i => Real.exp (-w i) := by
    funext i; simp [mulF]
  rw [slicesBead_zero, e1, ← dot_mulF, e3, dot_comm, parseval_full]
  have hn := n_ne en
  have hn0 : (0 : ℝ) < n := lt_of_le_of_ne (Nat.cast_nonneg _) (Ne.symm hn)
  refine (mul_pos hn0 ?_).ne'
  have hx : ∀ k : Grid N, 0 < extR (beadArrays (n := n) w kuhn ksq).expKsq k := by
    intro k
    unfold extR
    split <;> exact Real.exp_pos _
  have hnn : ∀ k : Grid N, 0 ≤ cdot en (fun i => Real.exp (-w i)) (fun i => Real.exp (-w i)) k :=
    fun k => add_nonneg (mul_self_nonneg _) (mul_self_nonneg _)
  refine lt_of_lt_of_le ?_ (Finset.single_le_sum (fun k _ => mul_nonneg (hx k).le (hnn k))
    (Finset.mem_univ (0 : Grid N)))
  refine mul_pos (hx 0) ?_
  have hre : (coef en (fun i => Real.exp (-w i)) 0).re = (∑ i, Real.exp (-w i)) * (1 / n) := by
    unfold coef
    rw [Complex.re_mul_ofReal, Complex.re_sum]
    congr 1
    apply Finset.sum_congr rfl
    intro i _
    have : wave (0 : Grid N) (en i) = 1 := by simp [wave]
    rw [this, map_one, mul_one, Complex.ofReal_re]
  have hpos : 0 < (coef en (fun i => Real.exp (-w i)) 0).re := by
    rw [hre]
    have : Nonempty (Fin n) := ⟨en.symm 0⟩
    exact mul_pos (Finset.sum_pos (fun i _ => Real.exp_pos _) Finset.univ_nonempty)
      (one_div_pos.2 hn0)
  unfold cdot
  nlinarith [mul_self_nonneg (coef en (fun i => Real.exp (-w i)) 0).im, mul_pos hpos hpos]

/-- **C85** is violated by the code on every mesh with at least three points in the last
direction, in any dimension: for a dimer, any field whose Boltzmann factor has a non-zero
coefficient at a missed wave, and any unit cell parameter with which the squared wavenumbers of the
missed waves decrease (such as the length of a lamellar, square or cubic cell), the computed stress
is not the derivative of the free energy. -/
theorem C85_code_violated (w : Fld n ℝ) (ds kuhn phi phiTot total θ : ℝ) (ksq : ℝ → Half N → ℝ)
    (dk : Half N → ℝ) (hdk : ∀ k, HasDerivAt (fun t => ksq t k) (dk k) θ)
    (hneg : ∀ k, Missed k → dk k < 0)
    (hc : ∃ k, Missed k ∧ r2c en (fun i => Real.exp (-w i)) k ≠ 0)
    (hkuhn : kuhn ≠ 0) (hphi : phi ≠ 0) (hphiTot : phiTot ≠ 0) (htot : total ≠ 0) :
    ∃ P, readTopology dimer 2 = some (.ok P) ∧
    let blk := fun (t : ℝ) (_ : Nat) => realBlock true w 4 ds kuhn (ksq t)
    ∃ (st : ℝ → Pid → Option (Nat → Fld n ℝ)) (Q : ℝ → ℝ),
      (∀ t, polymerSolve (dftKin en) true (blk t) dimer P.vertices P.plan phiTot =
        .ok (st t, Q t)) ∧
      ∃ s, polymerStress en true (blk θ) (fun _ => kuhn) dimer P.vertices (codeDKSq dk)
          (st θ) phi (Q θ) total = some s ∧
        ¬ HasDerivAt (fun t => -(phi / total) * Real.log (Q t)) (s / phiTot) θ := by
  obtain ⟨P, hr⟩ : ∃ P, readTopology dimer 2 = some (.ok P) := ⟨_, rfl⟩
  refine ⟨P, hr, ?_⟩
  intro blk
  obtain ⟨st, Q, h, h2⟩ := C85_stress_is_derivative en dimer (by simp [dimer]) 2 P hr (fun _ => w)
    (fun _ => 4) (fun _ => by omega) (fun _ => ds) (fun _ => kuhn) ksq phi phiTot total
  refine ⟨st, Q, h, ?_⟩
  have hP : PolyOk (dftKin en) true (blk θ) dimer 2 P :=
    realBlock_ok en dimer 2 P hr (fun _ => w) (fun _ => 4) (fun _ => by omega) (fun _ => ds)
      (fun _ => kuhn) (ksq θ)
  obtain ⟨a1, a2, a3⟩ := dimer_solution en hr hP (h θ) false
  obtain ⟨_, _, b3⟩ := dimer_solution en hr hP (h θ) true
  have hQ : Q θ ≠ 0 := by
    have hq := (polymerSolve_inv hP (by simp [dimer]) (h θ)).2
    rw [← hq]
    refine div_ne_zero (div_ne_zero ?_ (n_ne en)) hphiTot
    unfold headOf tailOf
    rw [a3, b3]
    exact dimer_Q_ne en w kuhn (ksq θ)
  obtain ⟨s, hs1, hs2⟩ := h2 θ dk hdk hQ
  have hS : ∀ d : Half N → ℝ, polymerStress en true (blk θ) (fun _ => kuhn) dimer P.vertices d
      (st θ) phi (Q θ) total = some (-1 * (phi / (Q θ * total)) * -(waveSum en
        (fun k => d k * (beadArrays (n := n) w kuhn (ksq θ)).expKsq k) (fun i => Real.exp (-w i))
        (fun i => Real.exp (-w i)) * (kuhn * kuhn / 6))) := by
    intro d
    have hx : slicesBead (dftKin en) (beadArrays w kuhn (ksq θ)) 4 true true (fun _ => (1 : ℝ)) 1 =
        fun i => Real.exp (-w i) := by
      rw [slicesBead_mid _ _ _ _ _ 0 (by omega)]
      funext i
      simp [beads, stepFieldBead, beadArrays]
    have hb : blockStress en true (blk θ) (fun _ => kuhn) dimer P.vertices d (st θ) phi (Q θ) total 0
        = some (-1 * (phi / (Q θ * total)) * -(waveSum en
        (fun k => d k * (beadArrays (n := n) w kuhn (ksq θ)).expKsq k) (fun i => Real.exp (-w i))
        (fun i => Real.exp (-w i)) * (kuhn * kuhn / 6))) := by
      unfold blockStress
      rw [a3, b3]
      simp only [if_true, a1, a2, Option.some.injEq]
      unfold stressBead
      simp only [blk, realBlock, if_true]
      rw [accum_eq]
      simp only [Nat.reduceSub, Finset.univ_unique, Fin.default_eq_zero, Finset.sum_singleton,
        Fin.val_zero, zero_add, hx]
    show (match some (0 : ℝ), blockStress en true (blk θ) (fun _ => kuhn) dimer P.vertices d (st θ)
        phi (Q θ) total 0 with
      | some a, some s => some (a + s)
      | _, _ => none) = _
    rw [hb]
    simp only [zero_add]
  refine ⟨_, hS _, fun hD => ?_⟩
  have hu := hD.unique hs2
  rw [hS, Option.some.injEq] at hs1
  rw [← hs1, div_left_inj' hphiTot] at hu
  have hpre : phi / (Q θ * total) ≠ 0 := div_ne_zero hphi (mul_ne_zero hQ htot)
  have hu2 : waveSum en (fun k => codeDKSq dk k * (beadArrays (n := n) w kuhn (ksq θ)).expKsq k)
      (fun i => Real.exp (-w i)) (fun i => Real.exp (-w i)) =
      waveSum en (fun k => trueDKSq dk k * (beadArrays (n := n) w kuhn (ksq θ)).expKsq k)
      (fun i => Real.exp (-w i)) (fun i => Real.exp (-w i)) := by
    have hk2 : kuhn * kuhn / 6 ≠ 0 := by positivity
    have := mul_left_cancel₀ (mul_ne_zero (by norm_num) hpre) hu
    exact mul_right_cancel₀ hk2 (neg_injective this)
  unfold waveSum at hu2
  rw [← sub_eq_zero, ← Finset.sum_sub_distrib] at hu2
  have hlt : ∑ k : Half N, (0 : ℝ) < ∑ k : Half N,
      (((r2c en (fun i => Real.exp (-w i)) k).re * (r2c en (fun i => Real.exp (-w i)) k).re +
        (r2c en (fun i => Real.exp (-w i)) k).im * (r2c en (fun i => Real.exp (-w i)) k).im) *
        (codeDKSq dk k * (beadArrays (n := n) w kuhn (ksq θ)).expKsq k) -
      ((r2c en (fun i => Real.exp (-w i)) k).re * (r2c en (fun i => Real.exp (-w i)) k).re +
        (r2c en (fun i => Real.exp (-w i)) k).im * (r2c en (fun i => Real.exp (-w i)) k).im) *
        (trueDKSq dk k * (beadArrays (n := n) w kuhn (ksq θ)).expKsq k)) := by
    have hterm : ∀ k : Half N, ∀ z : ℂ,
        (z.re * z.re + z.im * z.im) *
          (codeDKSq dk k * (beadArrays (n := n) w kuhn (ksq θ)).expKsq k) -
        (z.re * z.re + z.im * z.im) *
          (trueDKSq dk k * (beadArrays (n := n) w kuhn (ksq θ)).expKsq k) =
        if Missed k then (z.re * z.re + z.im * z.im) *
          (-dk k * (beadArrays (n := n) w kuhn (ksq θ)).expKsq k) else 0 := by
      intro k z
      rw [codeDKSq_eq]
      split <;> ring
    simp only [hterm]
    have hE : ∀ k, 0 < (beadArrays (n := n) w kuhn (ksq θ)).expKsq k := fun k => Real.exp_pos _
    apply Finset.sum_lt_sum
    · intro k _
      split
      · rename_i hm
        have := hneg k hm
        have := hE k
        exact mul_nonneg (add_nonneg (mul_self_nonneg _) (mul_self_nonneg _))
          (mul_nonneg (by linarith) this.le)
      · exact le_refl _
    · obtain ⟨k, hm, hz⟩ := hc
      refine ⟨k, Finset.mem_univ _, ?_⟩
      rw [if_pos hm]
      have := hneg k hm
      have hE := hE k
      refine mul_pos ?_ (mul_pos (by linarith) hE)
      have := Complex.normSq_pos.2 hz
      rwa [Complex.normSq_apply] at this
  rw [hu2] at hlt
  simp at hlt

/-! ### Homogeneous states -/

/-- Same value at all grid points. -/
def Uniform (x : Fld n ℝ) : Prop := ∃ c : ℝ, x = fun _ => c

theorem uniform_kin (f : Half N → ℝ) {x : Fld n ℝ} (hx : Uniform x) : Uniform (dftKin en f x) := by
  obtain ⟨c, rfl⟩ := hx
  refine ⟨∑ y : Grid N, c * ((1 / n) * ∑ k, extR f k * (wave k y).re), funext fun i => ?_⟩
  rw [dftKin_eq, ← Equiv.sum_comp (en.trans (Equiv.subLeft (en i)))]
  rfl

theorem uniform_mul {w x : Fld n ℝ} (hw : Uniform w) (hx : Uniform x) :
    Uniform (fun i => x i * w i) := by
  obtain ⟨a, rfl⟩ := hw
  obtain ⟨c, rfl⟩ := hx
  exact ⟨c * a, rfl⟩

theorem uniform_thread {a : Arrays ℝ n (Half N)} (h1 : Uniform a.expW) (h2 : Uniform a.expW2)
    {x : Fld n ℝ} (hx : Uniform x) : Uniform (stepThread (dftKin en) a x) := by
  have e1 := uniform_mul h1 (uniform_kin en a.expKsq (uniform_mul h1 hx))
  have e2 := uniform_mul h2 (uniform_kin en a.expKsq2 (uniform_mul h1
    (uniform_kin en a.expKsq2 (uniform_mul h2 hx))))
  obtain ⟨u, hu⟩ := e1
  obtain ⟨v, hv⟩ := e2
  exact ⟨(4 * v - u) / 3, funext fun i => by
    have a1 := congrFun hu i
    have a2 := congrFun hv i
    simp only [stepThread]
    rw [← a1, ← a2]⟩

theorem uniform_solve {bead : Bool} {blk : Nat → BlockData ℝ n (Half N)} {es : List Edge}
    {vs : List Vertex} {p : Pid} (h1 : Uniform (blk p.1).arrays.expW)
    (h2 : Uniform (blk p.1).arrays.expW2) {x : Fld n ℝ} (hx : Uniform x) (j : Nat) :
    Uniform (solveFrom (dftKin en) bead blk es vs p x j) := by
  have hb : ∀ e k, Uniform (beads (dftKin en) (blk p.1).arrays e x k) := by
    intro e k
    induction k with
    | zero =>
      refine uniform_mul h1 ?_
      split
      · exact hx
      · exact uniform_kin en _ hx
    | succ k ih => exact uniform_mul h1 (uniform_kin en _ ih)
  unfold solveFrom
  split
  · unfold slicesBead
    split
    · exact hx
    · split
      · split
        · exact hb _ _
        · exact uniform_kin en _ (hb _ _)
      · exact hb _ _
  · induction j with
    | zero => exact hx
    | succ j ih => exact uniform_thread en h1 h2 ih

theorem waveSum_uniform {dk : Half N → ℝ} (h0 : ∀ k : Half N, k.1 = 0 → dk k = 0) {x y : Fld n ℝ}
    (hx : Uniform x) : waveSum en dk x y = 0 := by
  obtain ⟨c, rfl⟩ := hx
  unfold waveSum
  apply Finset.sum_eq_zero
  intro k _
  by_cases hk : k.1 = 0
  · rw [h0 k hk, mul_zero]
  · have : r2c en (fun _ => c) k = 0 := by
      unfold r2c
      rw [← Finset.mul_sum, ← map_sum, Equiv.sum_comp en (fun x => wave k.1 x)]
      simp only [wave_comm k.1]
      rw [sum_wave, if_neg hk]
      simp
    rw [this]
    simp

theorem stress_uniform {bead : Bool} {b : BlockData ℝ n (Half N)} {e e' : Bool} {kuhn pre : ℝ}
    {dk : Half N → ℝ} (h0 : ∀ k : Half N, k.1 = 0 → dk k = 0) {q q' : Nat → Fld n ℝ}
    (hq : ∀ j, Uniform (q j)) :
    (if bead then stressBead en b.arrays b.ns e e' kuhn dk pre q q'
      else stressThread en b.ns b.ds kuhn dk pre q q') = 0 := by
  have h1 : ∀ (f : Half N → ℝ) j y, waveSum en (fun k => dk k * f k) (q j) y = 0 := fun f j y =>
    waveSum_uniform en (fun k hk => by rw [h0 k hk, zero_mul]) (hq j)
  have h2 : ∀ j y, waveSum en dk (q j) y = 0 := fun j y => waveSum_uniform en h0 (hq j)
  cases bead with
  | true =>
    simp only [if_true, stressBead, h1, accum_eq]
    simp
  | false =>
    simp only [Bool.false_eq_true, if_false, stressThread, h2, accum_eq]
    simp

/-- **C85**: the stress of a polymer in fields that are uniform on each block is zero, in the bead
model and in the thread model, whatever the unit cell, the volume fraction and the multiplicity
factors in the array `dKSq` (the entry of the wave zero is zero). -/
theorem C85_homogeneous_zero (bead : Bool) (es : List Edge) (hes : es ≠ []) (fuel : Nat) (P : Polymer)
    (hr : readTopology es fuel = some (.ok P)) (w : Nat → ℝ) (ns : Nat → Nat)
    (hns : ∀ k, if bead then 3 ≤ ns k else ∃ m, 1 ≤ m ∧ ns k = 2 * m + 1)
    (ds kuhn : Nat → ℝ) (ksq dk : Half N → ℝ) (h0 : ∀ k : Half N, k.1 = 0 → dk k = 0)
    (phi phiTot total : ℝ) :
    let blk := fun k => realBlock (n := n) bead (fun _ => w k) (ns k) (ds k) (kuhn k) ksq
    ∃ st Q, polymerSolve (dftKin en) bead blk es P.vertices P.plan phiTot = .ok (st, Q) ∧
      polymerStress en bead blk kuhn es P.vertices dk st phi Q total = some 0 := by
  intro blk
  have hP : PolyOk (dftKin en) bead blk es fuel P := by
    refine ⟨hr, dft_selfAdjoint en, fun hb k _ => ?_, fun hb k _ => ?_⟩
    · have := hns k; rw [hb] at this; show ∃ m, 1 ≤ m ∧ ns k = 2 * m + 1; simpa using this
    · have := hns k; rw [hb] at this
      refine ⟨by show 3 ≤ ns k; simpa using this, fun i => ?_⟩
      subst hb
      simp only [blk, realBlock, if_true, beadArrays]
      exact mul_one_div_cancel (Real.exp_pos _).ne'
  obtain ⟨st, Q, h⟩ := C53_solve_succeeds hP hes phiTot
  refine ⟨st, Q, h, ?_⟩
  obtain ⟨hd, _⟩ := polymerSolve_inv hP hes h
  obtain ⟨_, hv, hs⟩ := plan_facts hP
  have u1 : ∀ k, Uniform (blk k).arrays.expW := by
    intro k
    cases bead
    · exact ⟨_, rfl⟩
    · exact ⟨_, rfl⟩
  have u2 : ∀ k, Uniform (blk k).arrays.expW2 := by
    intro k
    cases bead
    · exact ⟨_, rfl⟩
    · exact ⟨_, rfl⟩
  have hheads : ∀ (l l2 : List Pid), P.plan = l ++ l2 → ∀ p ∈ l, Uniform (headOf st p) := by
    intro l
    induction l using List.reverseRecOn with
    | nil => intro _ _ p hp; simp at hp
    | append_singleton l p ih =>
      intro l2 he q hq
      have ihl := ih (p :: l2) (by rw [he]; simp)
      rw [List.mem_append, List.mem_singleton] at hq
      rcases hq with hq | rfl
      · exact ihl q hq
      · have hm : q ∈ P.plan := by rw [he]; simp
        have hc := (hs.complete q).1 hm
        have e : headOf st q = fun i =>
            ((sources es P.vertices q).map (fun s => tailOf blk st s i)).prod := by
          funext i
          exact headOf_eq hv hd hc hm i
        rw [e]
        have hsrc : ∀ s ∈ sources es P.vertices q, Uniform (tailOf blk st s) := by
          intro s hsrc
          have hsl : s ∈ l := hs.ordered l q l2 (by rw [he]; simp) s ((mem_sources hv hc).1 hsrc)
          have hsm : s ∈ P.plan := by rw [he]; simp [hsl]
          rw [tail_eq hd hsm]
          exact uniform_solve en (u1 _) (u2 _) (ihl s hsl) _
        clear e
        generalize sources es P.vertices q = L at hsrc
        induction L with
        | nil => exact ⟨1, by simp⟩
        | cons s L ihL =>
          obtain ⟨c, h1⟩ := hsrc s (by simp)
          obtain ⟨d, h2⟩ := ihL (fun s hs' => hsrc s (by simp [hs']))
          refine ⟨c * d, funext fun i => ?_⟩
          simp only [List.map_cons, List.prod_cons]
          rw [h1, ← congrFun h2 i]
  have hfold := foldl_stress (fun k => blockStress en bead blk kuhn es P.vertices dk st phi Q total k)
    (fun _ => 0) (List.range es.length) (fun k hk => by
      rw [List.mem_range] at hk
      have m1 := (hs.complete (k, false)).2 hk
      have m2 := (hs.complete (k, true)).2 hk
      unfold blockStress
      rw [st_eq hd m1, st_eq hd m2]
      exact congrArg some (stress_uniform en h0
        (fun j => uniform_solve en (u1 _) (u2 _) (hheads P.plan [] (by simp) _ m1) j))) 0
  exact hfold.trans (by simp)

/-! ### Examples -/

/-- Four points in one direction: the wave with index 1 is missed. -/
example : Missed (N := fun _ : Fin 1 => 4) ⟨fun _ => 1, by show (1 : ZMod 4).val ≤ 4 / 2; decide⟩ := by
  constructor
  · show (1 : ZMod 4).val ≠ 0; decide
  · show 4 - (1 : ZMod 4).val = 4 / 2 + 1; decide

theorem wave_ne (k x : Grid N) : wave k x ≠ 0 := by
  intro h
  have h1 := wave_sub k x x
  rw [h, zero_mul, sub_self] at h1
  simp [wave] at h1

/-- A field that is lower at one point than at all others meets the hypothesis of
`C85_code_violated`, on every mesh. -/
theorem point_field_coef (i0 : Fin n) (k : Half N) (hk : k.1 ≠ 0) :
    r2c en (fun i => Real.exp (-(if i = i0 then -Real.log 2 else 0))) k ≠ 0 := by
  have hn : (n : ℂ) ≠ 0 := by exact_mod_cast n_ne en
  unfold r2c
  refine mul_ne_zero ?_ (by push_cast; exact one_div_ne_zero hn)
  have h1 : ∀ i, ((Real.exp (-(if i = i0 then -Real.log 2 else 0)) : ℝ) : ℂ) *
      (starRingEnd ℂ) (wave k.1 (en i)) = (starRingEnd ℂ) (wave k.1 (en i)) +
        if i = i0 then (starRingEnd ℂ) (wave k.1 (en i0)) else 0 := by
    intro i
    split
    · rename_i h
      rw [neg_neg, Real.exp_log (by norm_num), h]
      push_cast
      ring
    · simp
  rw [Finset.sum_congr rfl (fun i _ => h1 i), Finset.sum_add_distrib, Finset.sum_ite_eq',
    if_pos (Finset.mem_univ _), ← map_sum, Equiv.sum_comp en (fun x => wave k.1 x)]
  simp only [wave_comm k.1]
  rw [sum_wave, if_neg hk, map_zero, zero_add]
  simpa using wave_ne _ _

/-- The hypotheses of `C85_code_violated` for a lamellar phase with four mesh points and cell length
one: the squared wavenumber of the missed wave is `(2π/t)²` (here without the constant). -/
example (en : Fin 4 ≃ Grid (fun _ : Fin 1 => 4)) :
    (∀ k : Half (fun _ : Fin 1 => 4), HasDerivAt (fun t : ℝ => ((k.1 0).val : ℝ) ^ 2 / t ^ 2)
      (-2 * ((k.1 0).val : ℝ) ^ 2) 1) ∧
    (∀ k : Half (fun _ : Fin 1 => 4), Missed k → -2 * ((k.1 0).val : ℝ) ^ 2 < 0) ∧
    ∃ k, Missed k ∧ r2c en (fun i => Real.exp (-(if i = 0 then -Real.log 2 else 0))) k ≠ 0 := by
  refine ⟨fun k => ?_, fun k hk => ?_, ?_⟩
  · have := ((hasDerivAt_pow 2 (1 : ℝ)).inv (by norm_num)).const_mul (((k.1 0).val : ℝ) ^ 2)
    simp only [div_eq_mul_inv]
    refine this.congr_deriv ?_
    norm_num
    ring
  · have h1 : ((k.1 0).val : ℝ) ≠ 0 := by exact_mod_cast hk.1
    have : 0 < ((k.1 0).val : ℝ) ^ 2 := by positivity
    linarith
  · refine ⟨⟨fun _ => 1, by show (1 : ZMod 4).val ≤ 4 / 2; decide⟩, ⟨?_, ?_⟩, ?_⟩
    · show (1 : ZMod 4).val ≠ 0; decide
    · show 4 - (1 : ZMod 4).val = 4 / 2 + 1; decide
    · apply point_field_coef
      intro h
      have := congrFun h 0
      revert this
      show ¬ (1 : ZMod 4) = 0
      decide

/-- Star polymers with three blocks of two, three and four beads are covered by C84 and C85. -/
example : (∃ P, readTopology exEdges 6 = some (.ok P)) ∧ exEdges ≠ [] ∧
    ∀ k : Nat, 3 ≤ k % 3 + 4 := ⟨exRead, by simp [exEdges], fun k => by omega⟩

end Verif.Solver
