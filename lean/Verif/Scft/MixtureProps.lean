import Verif.Scft.Props
import Verif.Solver.MixtureProps

/-!
# C100 for the mixture of the `Solver` area

The function that maps fields and cell parameters to concentrations and stresses, a parameter in
`Verif.Scft.Props`, is `MixturePrdc::compute` followed by `MixturePrdc::computeStress` here. In the
canonical ensemble the constants left by the residual vanish.
-/

set_option autoImplicit false
set_option linter.unusedSectionVars false

namespace Verif.Scft

open Verif.Inter Verif.Solver Verif.Chem

variable {m : Nat} {N : Fin (m + 1) → Nat} [∀ d, NeZero (N d)] {n M : Nat} (en : Fin n ≃ Grid N)

/-- `System::compute` and `System::computeStress` for a system without environment
(`prdc/system/SystemTmpl.tpp:799-855`): `ksq par` and `dKSq par i` stand for the arrays of the wave list for
the unit cell with parameters `par`; mask and external fields do not depend on the unit cell. -/
noncomputable def mixEval (x : Mixture M) (bead : Bool) (ksq : (Nat → ℝ) → Half N → ℝ)
    (dKSq : (Nat → ℝ) → Nat → Half N → ℝ) (phiTot : ℝ) (mask : Option (Fld n ℝ))
    (ext : Option (Fin M → Fld n ℝ)) (w : Fin M → Fld n ℝ) (par : Nat → ℝ) : Eval M n :=
  match x.compute en bead w (ksq par) phiTot with
  | .ok o => ⟨o.c, fun i => match x.stress en bead w (ksq par) (dKSq par i) phiTot o with
      | .ok σ => σ
      | _ => 0, mask, ext⟩
  | _ => ⟨fun _ _ => 0, fun _ => 0, mask, ext⟩

/-- No partition function of a polymer vanishes. -/
def QOk (x : Mixture M) (bead : Bool) (ksq : (Nat → ℝ) → Half N → ℝ) (phiTot : ℝ)
    (w : Fin M → Fld n ℝ) (par : Nat → ℝ) : Prop :=
  ∀ o, x.compute en bead w (ksq par) phiTot = .ok o → ∀ q ∈ o.polys, q.Q ≠ 0

/-- Overall share of a monomer type in a closed mixture. -/
noncomputable def share (x : Mixture M) (bead : Bool) (i : Fin M) : ℝ :=
  (x.polymers.map (fun p => p.species.phi *
    ((∑ k : Fin p.es.length, if i = p.mono k then p.blockSize bead k else 0) / p.total))).sum +
  (x.solvents.map (fun s => if i = s.mono then s.species.phi else 0)).sum

theorem map_zip_fst {α β γ : Type} (f : α × β → γ) (g : α → γ) (l : List α) (l' : List β)
    (hl : l'.length = l.length) (h : ∀ q ∈ l.zip l', f q = g q.1) :
    (l.zip l').map f = l.map g := by
  rw [List.map_congr_left h]
  show List.map (g ∘ Prod.fst) _ = _
  rw [← List.map_map, List.map_fst_zip (by omega)]

theorem mixEval_ok (x : Mixture M) (bead : Bool) (hx : x.Ok bead) (ksq : (Nat → ℝ) → Half N → ℝ)
    (dKSq : (Nat → ℝ) → Nat → Half N → ℝ) (phiTot : ℝ) (mask : Option (Fld n ℝ))
    (ext : Option (Fin M → Fld n ℝ)) (w : Fin M → Fld n ℝ) (par : Nat → ℝ) :
    ∃ o, x.compute en bead w (ksq par) phiTot = .ok o ∧
      (mixEval en x bead ksq dKSq phiTot mask ext w par).c = o.c := by
  obtain ⟨o, gp, cs, gs, ho, h⟩ := hx.compute en w (ksq par) phiTot
  refine ⟨o, ho, ?_⟩
  unfold mixEval
  rw [ho]

/-- Averages of the concentrations of a closed mixture do not depend on fields and unit cell. -/
theorem mean_conc (x : Mixture M) (bead : Bool) (hx : x.Ok bead)
    (hp : ∀ p ∈ x.polymers, p.species.ens = .closed)
    (hv : ∀ s ∈ x.solvents, s.species.ens = .closed) (ksq : (Nat → ℝ) → Half N → ℝ)
    (dKSq : (Nat → ℝ) → Nat → Half N → ℝ) (phiTot : ℝ) (hphi : phiTot ≠ 0)
    (mask : Option (Fld n ℝ)) (ext : Option (Fin M → Fld n ℝ)) (w : Fin M → Fld n ℝ)
    (par : Nat → ℝ) (hQ : QOk en x bead ksq phiTot w par) (i : Fin M) :
    mean true ((mixEval en x bead ksq dKSq phiTot mask ext w par).c i) = phiTot * share x bead i := by
  obtain ⟨o, ho, hc⟩ := mixEval_ok en x bead hx ksq dKSq phiTot mask ext w par
  obtain ⟨o', ho', l1, l2, h1, h2, h3⟩ := C91_monomer_conservation en bead x hx w (ksq par) phiTot hphi
  rw [ho] at ho'
  injection ho' with ho'
  subst ho'
  rw [hc]
  unfold mean
  rw [if_pos rfl, accum_eq, zero_add, h3 (hQ _ ho) i]
  unfold share
  congr 2
  · congr 1
    apply map_zip_fst _ _ _ _ l1
    intro q hq
    rw [h1 q hq (hp _ (List.of_mem_zip hq).1)]
  · congr 1
    apply map_zip_fst _ _ _ _ l2
    intro q hq
    rw [h2 q hq (hv _ (List.of_mem_zip hq).1)]

theorem sum_share (x : Mixture M) (bead : Bool) (hx : x.Ok bead)
    (htot : ∀ p ∈ x.polymers, p.total = ∑ k : Fin p.es.length, p.blockSize bead k) :
    ∑ i, share x bead i = (x.polymers.map (fun p => p.species.phi)).sum +
      (x.solvents.map (fun s => s.species.phi)).sum := by
  have hc : ∀ (α : Type) (f : α → Fin M → ℝ) (l : List α),
      ∑ i, (l.map (fun a => f a i)).sum = (l.map (fun a => ∑ i, f a i)).sum :=
    fun α f l => sum_list_map f l
  unfold share
  rw [Finset.sum_add_distrib, hc, hc]
  congr 1
  · congr 1
    apply List.map_congr_left
    intro p hm
    rw [← Finset.mul_sum, ← Finset.sum_div, Finset.sum_comm]
    simp only [Finset.sum_ite_eq', Finset.mem_univ, if_true]
    rw [← htot _ hm, div_self (hx.polymers _ hm).total, mul_one]
  · congr 1
    apply List.map_congr_left
    intro s _
    simp

/-- **C100**, canonical ensemble on the grid: for every mixture of closed species whose volume
fractions add up to 1, with any mask whose average is the unmasked fraction and any external fields,
if the iteration made at least one step and reports success, then the self-consistent field equations
hold within the tolerance, without any constants (provided no partition function vanishes in the last
two states). -/
theorem C100_mixture (x : Mixture M) (bead : Bool) (hx : x.Ok bead)
    (htot : ∀ p ∈ x.polymers, p.total = ∑ k : Fin p.es.length, p.blockSize bead k)
    (hp : ∀ p ∈ x.polymers, p.species.ens = .closed)
    (hv : ∀ s ∈ x.solvents, s.species.ens = .closed)
    (hone : (x.polymers.map (fun p => p.species.phi)).sum +
      (x.solvents.map (fun s => s.species.phi)).sum = 1)
    (ksq : (Nat → ℝ) → Half N → ℝ) (dKSq : (Nat → ℝ) → Nat → Half N → ℝ)
    (phiTot : ℝ) (hphi : phiTot ≠ 0) (mask : Option (Fld n ℝ))
    (hmask : mask = none ∧ phiTot = 1 ∨ ∃ f, mask = some f ∧ (∑ y, f y) / n = phiTot)
    (ext : Option (Fin M → Fld n ℝ))
    (P : Prob M) (hg : P.grid = true) (hcan : P.canonical = true) (hB : P.inv * P.chi = 1)
    (hS : total P.inv ≠ 0) (lu : AM.LinSolve ℝ) (t : ErrorType) (eps : ℝ) (lam : Nat → ℝ)
    (maxItr : Nat) (cont : Bool) (s : St M n) (am : AM.Iter ℝ (nElements P n)) :
    let E := mixEval en x bead ksq dKSq phiTot mask ext
    let o := AM.solve (sys P false E) lu (computeError t eps) eps lam maxItr cont s am
    o.code = some 0 → 0 < o.updates → ∃ (p : St M n) (y : AM.Vec ℝ (nElements P n)),
      p.ev = E p.w p.par ∧ o.sys = evaluate E (update P p y) ∧
      (QOk en x bead ksq phiTot p.w p.par → QOk en x bead ksq phiTot o.sys.w o.sys.par →
        Within P o.sys 0 0 (tolerance t eps (getCurrent P o.sys))) := by
  intro E o hc hu
  obtain ⟨p, y, hpe, hup, h⟩ := C100_canonical P hB hS hcan E lu t eps lam maxItr cont s am hc hu
  have hoe : o.sys.ev = E o.sys.w o.sys.par :=
    (C100_converged P hB hS E lu t eps lam maxItr cont s am hc).1
  refine ⟨p, y, hpe, hup, fun hQ1 hQ2 => h ?_ ?_ ?_⟩
  · intro j
    rw [hg, hpe]
    change _ = mean true (o.sys.ev.c j)
    rw [hoe, mean_conc en x bead hx hp hv ksq dKSq phiTot hphi mask ext _ _ hQ1,
      mean_conc en x bead hx hp hv ksq dKSq phiTot hphi mask ext _ _ hQ2]
  · intro j
    have hext : ∀ w par, (E w par).ext = ext := by
      intro w par
      show (mixEval en x bead ksq dKSq phiTot mask ext w par).ext = ext
      unfold mixEval
      split <;> rfl
    change _ = mean P.grid (extV o.sys.ev j)
    unfold extV
    rw [hpe, hoe, hext, hext]
  · have hm : ∀ w par, (E w par).mask = mask := by
      intro w par
      show (mixEval en x bead ksq dKSq phiTot mask ext w par).mask = mask
      unfold mixEval
      split <;> rfl
    change ∑ j, mean P.grid (o.sys.ev.c j) = mean P.grid (maskV P.grid o.sys.ev)
    rw [hg, hoe]
    have : ∀ j, mean true ((E o.sys.w o.sys.par).c j) = phiTot * share x bead j :=
      mean_conc en x bead hx hp hv ksq dKSq phiTot hphi mask ext _ _ hQ2
    simp only [this]
    rw [← Finset.mul_sum, sum_share x bead hx htot, hone, mul_one]
    unfold maskV
    rw [hm]
    have hn : 0 < n := by
      rcases Nat.eq_zero_or_pos n with h0 | h0
      · subst h0
        exact (en.symm 0).elim0
      · exact h0
    rcases hmask with ⟨rfl, h1⟩ | ⟨f, rfl, h1⟩
    · simp only
      rw [mean_one true hn, h1]
    · simp only [mean, if_true, accum_eq, zero_add]
      rw [← h1]

/-- The conditions of `C100_mixture` on the mixture hold for the melt of dimers of
`Verif.Solver.MixtureProps`. -/
example {P : Polymer} (hr : readTopology dimer 2 = some (.ok P)) :
    (exMelt P).Ok true ∧
    (∀ p ∈ (exMelt P).polymers, p.total = ∑ k : Fin p.es.length, p.blockSize true k) ∧
    (∀ p ∈ (exMelt P).polymers, p.species.ens = .closed) ∧
    ((exMelt P).polymers.map (fun p => p.species.phi)).sum +
      ((exMelt P).solvents.map (fun s => s.species.phi)).sum = 1 := by
  refine ⟨exMelt_ok hr, ?_, ?_, ?_⟩
  · simp [exMelt, PolySpec.blockSize, dimer]
  · simp [exMelt]
  · simp [exMelt]

end Verif.Scft
