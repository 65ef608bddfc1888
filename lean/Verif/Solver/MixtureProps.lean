import Verif.Solver.MixtureLemmas
import Verif.Solver.HomogProps
import Verif.Thermo.Props

/-!
# C91, C92: conservation and the first law for a mixture
-/

set_option autoImplicit false
set_option linter.unusedSectionVars false

namespace Verif.Solver

open Verif.Chem

variable {m : Nat} {N : Fin (m + 1) → Nat} [∀ d, NeZero (N d)] {n M : Nat} (en : Fin n ≃ Grid N)

/-! ## C91 -/

/-- Contour length or number of beads of a block. -/
noncomputable def PolySpec.blockSize (bead : Bool) (p : PolySpec M) (k : Nat) : ℝ :=
  if bead then ((p.ns k - 2 : Nat) : ℝ) else ((p.ns k - 1 : Nat) : ℝ) * p.ds k

theorem sum_list_map {α : Type} (f : α → Fin n → ℝ) : ∀ l : List α,
    ∑ y, (l.map (fun a => f a y)).sum = (l.map (fun a => ∑ y, f a y)).sum
  | [] => by simp
  | a :: l => by
    simp only [List.map_cons, List.sum_cons, Finset.sum_add_distrib, sum_list_map f l]

theorem list_sum_div {α : Type} (f : α → ℝ) (a : ℝ) : ∀ l : List α,
    (l.map f).sum / a = (l.map (fun x => f x / a)).sum
  | [] => by simp
  | x :: l => by simp [add_div, list_sum_div f a l]

theorem list_mul_sum {α : Type} (f : α → ℝ) (a : ℝ) : ∀ l : List α,
    a * (l.map f).sum = (l.map (fun x => a * f x)).sum
  | [] => by simp
  | x :: l => by simp [mul_add, list_mul_sum f a l]

theorem closed_phi {s r : Species} {q : ℝ} (h : s.setQ q = .ok r) (hc : s.ens = .closed) :
    r.phi = s.phi := by
  unfold Species.setQ at h
  rw [hc] at h
  injection h with h
  rw [← h]

/-- **C91**: for every mixture accepted by the reader, in either model, with any fields, the
computation of the concentrations does not throw, keeps the volume fraction of the species of the
closed ensemble, and (unless some partition function vanishes) the spatial average of the
concentration of each monomer type is the unmasked fraction times the sum over species of volume
fraction times share of that type in the species. -/
theorem C91_monomer_conservation (bead : Bool) (x : Mixture M) (hx : x.Ok bead)
    (w : Fin M → Fld n ℝ) (ksq : Half N → ℝ) (phiTot : ℝ) (hphi : phiTot ≠ 0) :
    ∃ o, x.compute en bead w ksq phiTot = .ok o ∧
      o.polys.length = x.polymers.length ∧ o.solvs.length = x.solvents.length ∧
      (∀ q ∈ x.polymers.zip o.polys, q.1.species.ens = .closed →
        q.2.species.phi = q.1.species.phi) ∧
      (∀ q ∈ x.solvents.zip o.solvs, q.1.species.ens = .closed →
        q.2.species.phi = q.1.species.phi) ∧
      ((∀ q ∈ o.polys, q.Q ≠ 0) → ∀ i, (∑ y, o.c i y) / n = phiTot * (
        ((x.polymers.zip o.polys).map (fun q => q.2.species.phi *
          ((∑ k : Fin q.1.es.length, if i = q.1.mono k then q.1.blockSize bead k else 0) /
            q.1.total))).sum +
        ((x.solvents.zip o.solvs).map (fun q => if i = q.1.mono then q.2.species.phi
          else 0)).sum)) := by
  have hn : (n : ℝ) ≠ 0 := n_ne en
  obtain ⟨o, gp, cs, gs, ho, h⟩ := hx.compute en w ksq phiTot
  refine ⟨o, ho, by simp [h.polys], by simp [h.solvs], ?_, ?_, fun hQ i => ?_⟩
  · rw [h.polys, zip_map]
    intro q hq hc
    obtain ⟨p, hp, rfl⟩ := List.mem_map.1 hq
    exact closed_phi (h.poly p hp).set hc
  · rw [h.solvs, zip_map]
    intro q hq hc
    obtain ⟨s, hs, rfl⟩ := List.mem_map.1 hq
    exact closed_phi (h.solv s hs).set hc
  · rw [h.polys, zip_map, h.solvs, zip_map]
    simp only [h.c, Finset.sum_add_distrib, sum_list_map, List.map_map]
    rw [add_div, mul_add, list_sum_div, list_sum_div, list_mul_sum, list_mul_sum]
    congr 1
    · congr 1
      apply List.map_congr_left
      intro p hp
      simp only [Function.comp]
      obtain ⟨fuel, hP⟩ := (hx.polymers p hp).polyOk en x.kuhn w ksq
      have hI := h.poly p hp
      have hk : ∀ k : Fin p.es.length, (∑ y, cs p k y) / n =
          (gp p).species.phi * phiTot * (p.blockSize bead k / p.total) := by
        intro k
        obtain ⟨c, h1, h2⟩ := C53_block_conservation hP (hx.polymers p hp).ne (gp p).species.phi
          phiTot p.total _ _ hI.solve hn (by norm_num)
          (hQ _ (by rw [h.polys]; exact List.mem_map_of_mem hp)) hphi
          (hx.polymers p hp).total k k.2
        rw [hI.block k k.2] at h1
        injection h1 with h1
        rw [h1, h2]
        rfl
      rw [Finset.sum_comm, Finset.sum_div, Finset.sum_div, Finset.mul_sum, Finset.mul_sum]
      apply Finset.sum_congr rfl
      intro k _
      by_cases e : i = p.mono k
      · simp only [if_pos e]
        rw [hk]
        ring
      · simp [if_neg e]
    · congr 1
      apply List.map_congr_left
      intro s hs
      simp only [Function.comp]
      by_cases e : i = s.mono
      · simp only [if_pos e]
        have hI := h.solv s hs
        have he : ∑ y, Real.exp (-s.size * w s.mono y) ≠ 0 := by
          have : Nonempty (Fin n) := ⟨en.symm 0⟩
          exact (Finset.sum_pos (fun i _ => Real.exp_pos _) Finset.univ_nonempty).ne'
        simp only [hI.conc, ← Finset.sum_mul]
        generalize ∑ y, Real.exp (-s.size * w s.mono y) = E at he ⊢
        field_simp
      · simp [if_neg e]

/-- **C91**: if the size of each polymer is the sum over its blocks, the average of the sum of all
concentrations is the unmasked fraction times the sum of all volume fractions. -/
theorem C91_total_conservation (bead : Bool) (x : Mixture M) (hx : x.Ok bead)
    (htot : ∀ p ∈ x.polymers, p.total = ∑ k : Fin p.es.length, p.blockSize bead k)
    (w : Fin M → Fld n ℝ) (ksq : Half N → ℝ) (phiTot : ℝ) (hphi : phiTot ≠ 0)
    (o : MixOut M n) (ho : x.compute en bead w ksq phiTot = .ok o)
    (hQ : ∀ q ∈ o.polys, q.Q ≠ 0) :
    ∑ i, (∑ y, o.c i y) / n = phiTot * ((x.specs o).map (fun s => s.phi)).sum := by
  obtain ⟨o', ho', h1, h2, _, _, h⟩ := C91_monomer_conservation en bead x hx w ksq phiTot hphi
  rw [ho] at ho'
  injection ho' with ho'
  subst ho'
  simp only [h hQ, ← Finset.mul_sum, Finset.sum_add_distrib]
  unfold Mixture.specs
  rw [List.map_append, List.sum_append, List.map_map, List.map_map]
  have hc : ∀ (α : Type) (f : α → Fin M → ℝ) (l : List α),
      ∑ i, (l.map (fun a => f a i)).sum = (l.map (fun a => ∑ i, f a i)).sum := by
    intro α f l
    exact sum_list_map f l
  congr 2
  · rw [hc]
    congr 1
    apply List.map_congr_left
    intro q hq
    have hm := (List.of_mem_zip hq).1
    rw [← Finset.mul_sum, ← Finset.sum_div, Finset.sum_comm]
    simp only [Finset.sum_ite_eq', Finset.mem_univ, if_true, Function.comp]
    rw [← htot _ hm, div_self (hx.polymers _ hm).total, mul_one]
  · rw [hc]
    congr 1
    apply List.map_congr_left
    intro q hq
    simp

/-! ## C92 -/

section Deriv

/-- Derivatives of the slices. -/
theorem conc_diff {es : List Edge} {fuel : Nat} {P : Polymer} (hes : es ≠ [])
    {blk : ℝ → Nat → BlockData ℝ n (Half N)} (hP : ∀ t, PolyOk (dftKin en) true (blk t) es fuel P)
    {ns : Nat → Nat} (hns : ∀ t k, (blk t k).ns = ns k) {θ : ℝ} (w' : Nat → Fld n ℝ)
    (f' f2' : Nat → Half N → ℝ)
    (hw : ∀ k, HasD (fun t => (blk t k).arrays.expW) (w' k) θ)
    (hwi : ∀ k i, DifferentiableAt ℝ (fun t => (blk t k).arrays.expWInv i) θ)
    (hf : ∀ k q, HasDerivAt (fun t => (blk t k).arrays.expKsq q) (f' k q) θ)
    (hf2 : ∀ k q, HasDerivAt (fun t => (blk t k).arrays.expKsq2 q) (f2' k q) θ)
    {phiTot total : ℝ} {st : ℝ → Pid → Option (Nat → Fld n ℝ)} {Q phi : ℝ → ℝ}
    (h : ∀ t, polymerSolve (dftKin en) true (blk t) es P.vertices P.plan phiTot =
      .ok (st t, Q t)) (hQ : DifferentiableAt ℝ Q θ) (hQ0 : Q θ ≠ 0) (htot : total ≠ 0)
    (hphi : DifferentiableAt ℝ phi θ) {k : Nat} (hk : k < es.length) {c : ℝ → Fld n ℝ}
    (hc : ∀ t, blockConc true (blk t) (st t) (phi t) (Q t) total k = some (c t)) (i : Fin n) :
    DifferentiableAt ℝ (fun t => c t i) θ := by
  have hst : ∀ t, solvePlan (dftKin en) true (blk t) es P.vertices P.plan (fun _ => none) =
      .ok (st t) := by
    intro t
    have ht := h t
    unfold polymerSolve at ht
    rw [Res.bind_eq_ok] at ht
    obtain ⟨s, h1, h2⟩ := ht
    rw [h1]
    split at h2
    · injection h2 with h2
      injection h2 with h2 _
      rw [h2]
    · simp at h2
  obtain ⟨_, hv, hs⟩ := plan_facts (hP θ)
  have hh := heads_diff hP hst (θ := θ) (fun t k => by rw [hns, hns]) (by
      intro p hp
      have h3 : 3 ≤ ns p.1 := by have := ((hP θ).beads rfl p.1 hp).1; rwa [hns] at this
      have := opD_last (dft_deriv en) (dft_add en) (hw p.1) (hf p.1) (hf2 p.1)
        (headEnd es P.vertices p) (tailEnd es P.vertices p) (ns p.1) h3
      refine ⟨lastD (dftKin en) (blk θ p.1).arrays (w' p.1) (f' p.1) (f2' p.1)
        (headEnd es P.vertices p) (tailEnd es P.vertices p) (ns p.1 - 3), ?_⟩
      unfold solveFrom
      simp only [if_true, hns]
      exact this) P.plan [] (by simp)
  have hb : ∀ (p : Pid) (hp : p.1 < es.length) (j : Nat) (i : Fin n), DifferentiableAt ℝ
      (fun t => beads (dftKin en) (blk t p.1).arrays (headEnd es P.vertices p)
        (headOf (st t) p) j i) θ := by
    intro p hp j i
    have h1 := opD_beads (dft_deriv en) (dft_add en) (hw p.1) (hf p.1) (hf2 p.1)
      (headEnd es P.vertices p) j
    exact (h1 (fun t => headOf (st t) p) _ (fun i =>
      (hh p ((hs.complete p).2 hp) i).hasDerivAt) i).differentiableAt
  have e : ∀ t, c t i = (∑ r : Fin (ns k - 2),
      beads (dftKin en) (blk t k).arrays (headEnd es P.vertices (k, false))
        (headOf (st t) (k, false)) r i *
      beads (dftKin en) (blk t k).arrays (headEnd es P.vertices (k, true))
        (headOf (st t) (k, true)) (ns k - 3 - r) i * (blk t k).arrays.expWInv i) *
      (phi t / (Q t * total)) := by
    intro t
    have h3 : 3 ≤ ns k := by have := ((hP t).beads rfl k hk).1; rwa [hns] at this
    have ht := hc t
    unfold blockConc at ht
    rw [solution_eq en hes (hP t) (h t) (p := (k, false)) hk,
      solution_eq en hes (hP t) (h t) (p := (k, true)) hk] at ht
    injection ht with ht
    rw [← ht, if_pos rfl]
    unfold concBead
    rw [accum_eq, zero_add]
    congr 1
    rw [hns]
    apply Finset.sum_congr rfl
    intro r _
    have hr := r.2
    rw [slicesBead_mid _ _ _ _ _ r (by omega),
      show ns k - 1 - ((r : Nat) + 1) = (ns k - 3 - r) + 1 by omega,
      slicesBead_mid _ _ _ _ _ _ (by omega)]
  have e' : (fun t => c t i) = _ := funext e
  rw [e']
  refine DifferentiableAt.fun_mul (DifferentiableAt.fun_sum fun r _ => ?_)
    (hphi.fun_div (hQ.mul_const _) (mul_ne_zero hQ0 htot))
  exact ((hb (k, false) hk _ i).fun_mul (hb (k, true) hk _ i)).fun_mul (hwi k i)

/-- The derivative is the sum of the parts due to the fields and to the bonds. -/
theorem lastD_split {a : Arrays ℝ n (Half N)} (hw : ∀ i, a.expW i * a.expWInv i = 1) (w' : Fld n ℝ)
    (f' f2' : Half N → ℝ) (e e' : Bool) (L : Nat) (x y : Fld n ℝ) :
    dot (lastD (dftKin en) a w' f' f2' e e' L x) y =
      dot (lastD (dftKin en) a w' (fun _ => 0) (fun _ => 0) e e' L x) y +
      dot (lastD (dftKin en) a (fun _ => 0) f' f2' e e' L x) y := by
  rw [dot_lastD (dft_selfAdjoint en) hw, dot_lastD (dft_selfAdjoint en) hw,
    dot_lastD (dft_selfAdjoint en) hw]
  have z : ∀ u v : Fld n ℝ, dot (dftKin en (fun _ => (0 : ℝ)) u) v = 0 := by
    intro u v
    have : extR (N := N) (fun _ => (0 : ℝ)) = fun _ => 0 := by funext k; simp [extR]
    simp [dot, dftKin_eq, this]
  have z2 : ∀ u v : Fld n ℝ, dot (mulF (fun _ => (0 : ℝ)) u) v = 0 := by
    intro u v
    simp [dot, mulF]
  simp only [z, z2, Finset.sum_const_zero, add_zero, ite_self, zero_add]
  ring

/-- One polymer of the mixture along a curve of fields and wavenumbers. -/
theorem poly_deriv {p : PolySpec M} (hp : p.Ok true) (kuhn : Fin M → ℝ)
    {w : ℝ → Fin M → Fld n ℝ} {w' : Fin M → Fld n ℝ} {ksq : ℝ → Half N → ℝ} {dk : Half N → ℝ}
    {θ : ℝ} (hw : ∀ i, HasD (fun t => w t i) (w' i) θ)
    (hk : ∀ q, HasDerivAt (fun t => ksq t q) (dk q) θ) {phiTot : ℝ}
    {o : ℝ → PolyOut n} {cs : ℝ → Nat → Fld n ℝ}
    (ho : ∀ t, IsPoly en p true kuhn (w t) (ksq t) phiTot (o t) (cs t)) (hQ : (o θ).Q ≠ 0) :
    ∃ Q' s, HasDerivAt (fun t => (o t).Q) Q' θ ∧
      polymerStress en true (p.blk true kuhn (w θ) (ksq θ)) (fun k => kuhn (p.mono k)) p.es
        p.poly.vertices (trueDKSq dk) (o θ).st (o θ).species.phi (o θ).Q p.total = some s ∧
      -((o θ).species.phi / p.total) * (Q' / (o θ).Q) =
        (∑ k : Fin p.es.length, ∑ y, w' (p.mono k) y * cs θ k y) / n / phiTot + s / phiTot ∧
      (DifferentiableAt ℝ (fun t => (o t).species.phi) θ →
        ∀ k, k < p.es.length → ∀ y, DifferentiableAt ℝ (fun t => cs t k y) θ) := by
  have hn : (n : ℝ) ≠ 0 := n_ne en
  obtain ⟨fuel, hr⟩ := hp.read
  set blk : ℝ → Nat → BlockData ℝ n (Half N) := fun t => p.blk true kuhn (w t) (ksq t) with hblk
  have hP : ∀ t, PolyOk (dftKin en) true (blk t) p.es fuel p.poly := fun t =>
    realBlock_ok en p.es fuel p.poly hr (fun k => w t (p.mono k)) p.ns (hp.beads rfl) p.ds
      (fun k => kuhn (p.mono k)) (ksq t)
  have h := fun t => (ho t).solve
  have hexp : ∀ k, HasD (fun t => (blk t k).arrays.expW)
      (fun i => -w' (p.mono k) i * (blk θ k).arrays.expW i) θ := by
    intro k i
    refine (hw (p.mono k) i).fun_neg.exp.congr_deriv ?_
    simp only [hblk, PolySpec.blk, realBlock, if_true, beadArrays]
    ring
  have hinv : ∀ k i, DifferentiableAt ℝ (fun t => (blk t k).arrays.expWInv i) θ := by
    intro k i
    have := (hw (p.mono k) i).fun_neg.exp.differentiableAt
    exact (differentiableAt_const (1 : ℝ)).fun_div this (Real.exp_pos _).ne'
  have hf : ∀ k q, HasDerivAt (fun t => (blk t k).arrays.expKsq q)
      (dk q * (-1 * kuhn (p.mono k) * kuhn (p.mono k) / 6) * (blk θ k).arrays.expKsq q) θ := by
    intro k q
    refine ((hk q).mul_const (-1 * kuhn (p.mono k) * kuhn (p.mono k) / 6)).exp.congr_deriv ?_
    simp only [hblk, PolySpec.blk, realBlock, if_true, beadArrays]
    ring
  have hf2 : ∀ k q, HasDerivAt (fun t => (blk t k).arrays.expKsq2 q)
      (1 / 2 * (dk q * (-1 * kuhn (p.mono k) * kuhn (p.mono k) / 6)) *
        (blk θ k).arrays.expKsq2 q) θ := by
    intro k q
    refine (((hk q).mul_const (-1 * kuhn (p.mono k) * kuhn (p.mono k) / 6)).const_mul
      (1 / 2)).exp.congr_deriv ?_
    simp only [hblk, PolySpec.blk, realBlock, if_true, beadArrays]
    ring
  have hD := Q_deriv en hp.ne hP (ns := p.ns) (fun t k => rfl) (θ := θ) _ _ _ hexp hf hf2 h
  have e2 : ∀ k : Nat, tailEnd p.es p.poly.vertices (k, true) =
      headEnd p.es p.poly.vertices (k, false) := fun k => tailEnd_partner (k, false)
  set g : Nat → ℝ := fun k => stressBead en (blk θ k).arrays (p.ns k)
    (headEnd p.es p.poly.vertices (k, false)) (tailEnd p.es p.poly.vertices (k, false))
    (kuhn (p.mono k)) (trueDKSq dk) ((o θ).species.phi / ((o θ).Q * p.total))
    (slicesBead (dftKin en) (blk θ k).arrays (p.ns k) (headEnd p.es p.poly.vertices (k, false))
      (tailEnd p.es p.poly.vertices (k, false)) (headOf (o θ).st (k, false)))
    (slicesBead (dftKin en) (blk θ k).arrays (p.ns k) (headEnd p.es p.poly.vertices (k, true))
      (tailEnd p.es p.poly.vertices (k, true)) (headOf (o θ).st (k, true))) with hg
  refine ⟨_, _, hD, foldl_stress _ g _ (fun k hk => ?_) 0, ?_, fun hphi k hkl y =>
    conc_diff en hp.ne hP (ns := p.ns) (fun t k => rfl) _ _ _ hexp hinv hf hf2 h
      hD.differentiableAt hQ hp.total hphi hkl (fun t => (ho t).block k hkl) y⟩
  · rw [List.mem_range] at hk
    unfold blockStress
    rw [solution_eq en hp.ne (hP θ) (h θ) (p := (k, false)) hk,
      solution_eq en hp.ne (hP θ) (h θ) (p := (k, true)) hk]
    rfl
  · rw [sum_range_fin, zero_add]
    have hb : ∀ k : Fin p.es.length, dot (lastD (dftKin en) (blk θ k).arrays
          (fun i => -w' (p.mono k) i * (blk θ k).arrays.expW i)
          (fun q => dk q * (-1 * kuhn (p.mono k) * kuhn (p.mono k) / 6) * (blk θ k).arrays.expKsq q)
          (fun q => 1 / 2 * (dk q * (-1 * kuhn (p.mono k) * kuhn (p.mono k) / 6)) *
            (blk θ k).arrays.expKsq2 q)
          (headEnd p.es p.poly.vertices ((k : Nat), false))
          (tailEnd p.es p.poly.vertices ((k : Nat), false)) (p.ns k - 3)
          (headOf (o θ).st ((k : Nat), false))) (headOf (o θ).st ((k : Nat), true)) *
        (-((o θ).species.phi / ((o θ).Q * p.total))) =
        (∑ y, w' (p.mono k) y * cs θ k y) + g k * n := by
      intro k
      have hwi := ((hP θ).beads rfl k k.2).2
      rw [lastD_split en hwi]
      have h1 := conc_deriv en (blk θ k).arrays (p.ns k) (hp.beads rfl k)
        (headEnd p.es p.poly.vertices ((k : Nat), false))
        (tailEnd p.es p.poly.vertices ((k : Nat), false))
        ((o θ).species.phi / ((o θ).Q * p.total)) (w' (p.mono k)) (headOf (o θ).st ((k : Nat), false))
        (headOf (o θ).st ((k : Nat), true)) hwi
      have h2 := stress_deriv en (blk θ k).arrays (p.ns k) (hp.beads rfl k)
        (headEnd p.es p.poly.vertices ((k : Nat), false))
        (tailEnd p.es p.poly.vertices ((k : Nat), false)) (kuhn (p.mono k))
        ((o θ).species.phi / ((o θ).Q * p.total)) dk (headOf (o θ).st ((k : Nat), false))
        (headOf (o θ).st ((k : Nat), true)) hwi
      have h3 : cs θ k = concBead (blk θ k).arrays (p.ns k)
          ((o θ).species.phi / ((o θ).Q * p.total))
          (slicesBead (dftKin en) (blk θ k).arrays (p.ns k)
            (headEnd p.es p.poly.vertices ((k : Nat), false))
            (tailEnd p.es p.poly.vertices ((k : Nat), false)) (headOf (o θ).st ((k : Nat), false)))
          (slicesBead (dftKin en) (blk θ k).arrays (p.ns k)
            (tailEnd p.es p.poly.vertices ((k : Nat), false))
            (headEnd p.es p.poly.vertices ((k : Nat), false))
            (headOf (o θ).st ((k : Nat), true))) := by
        have ht := (ho θ).block k k.2
        unfold blockConc at ht
        rw [solution_eq en hp.ne (hP θ) (h θ) (p := ((k : Nat), false)) k.2,
          solution_eq en hp.ne (hP θ) (h θ) (p := ((k : Nat), true)) k.2] at ht
        injection ht with ht
        rw [← ht, if_pos rfl]
        simp only [e2]
        rfl
      have h4 : g k = _ := (show g k = stressBead en (blk θ k).arrays (p.ns k)
        (headEnd p.es p.poly.vertices ((k : Nat), false))
        (tailEnd p.es p.poly.vertices ((k : Nat), false)) (kuhn (p.mono k)) (trueDKSq dk)
        ((o θ).species.phi / ((o θ).Q * p.total))
        (slicesBead (dftKin en) (blk θ k).arrays (p.ns k)
          (headEnd p.es p.poly.vertices ((k : Nat), false))
          (tailEnd p.es p.poly.vertices ((k : Nat), false)) (headOf (o θ).st ((k : Nat), false)))
        (slicesBead (dftKin en) (blk θ k).arrays (p.ns k)
          (tailEnd p.es p.poly.vertices ((k : Nat), false))
          (headEnd p.es p.poly.vertices ((k : Nat), false)) (headOf (o θ).st ((k : Nat), true))) by
          simp only [hg, e2]
          rfl).trans h2
      rw [h3, h1, h4]
      have ab : ∀ A B pre : ℝ, (A + B) * -pre = -pre * A + -pre * (B / n) * n := by
        intro A B pre
        field_simp
        ring
      exact ab _ _ _
    have hsum := Finset.sum_congr rfl (fun (k : Fin p.es.length) (_ : k ∈ Finset.univ) => hb k)
    rw [← Finset.sum_mul, Finset.sum_add_distrib, ← Finset.sum_mul] at hsum
    have htot := hp.total
    have ab : ∀ S G C : ℝ, S * -((o θ).species.phi / ((o θ).Q * p.total)) = C + G * n →
        -((o θ).species.phi / p.total) * (S / n / phiTot / (o θ).Q) =
          C / n / phiTot + G / phiTot := by
      intro S G C hs
      by_cases hphi : phiTot = 0
      · simp [hphi]
      · rw [show C = S * (-((o θ).species.phi / ((o θ).Q * p.total))) - G * n by linarith]
        field_simp
        ring
    exact ab _ _ _ hsum

/-- One solvent of the mixture along a curve of fields. -/
theorem solv_deriv {s : SolvSpec M} (hs : s.Ok)
    {w : ℝ → Fin M → Fld n ℝ} {w' : Fin M → Fld n ℝ} {θ : ℝ}
    (hw : ∀ i, HasD (fun t => w t i) (w' i) θ) {phiTot : ℝ} (hphi : phiTot ≠ 0) (hn : (n : ℝ) ≠ 0)
    {o : ℝ → SolvOut n} (ho : ∀ t, IsSolv s (w t) phiTot (o t)) :
    ∃ Q', HasDerivAt (fun t => (∑ i, Real.exp (-s.size * w t s.mono i)) / n / phiTot) Q' θ ∧
      (∑ i, Real.exp (-s.size * w θ s.mono i)) / n / phiTot ≠ 0 ∧
      -((o θ).species.phi / s.size) *
        (Q' / ((∑ i, Real.exp (-s.size * w θ s.mono i)) / n / phiTot)) =
        (∑ y, w' s.mono y * (o θ).conc y) / n / phiTot ∧
      (DifferentiableAt ℝ (fun t => (o t).species.phi) θ →
        ∀ y, DifferentiableAt ℝ (fun t => (o t).conc y) θ) := by
  have hQ : (∑ i, Real.exp (-s.size * w θ s.mono i)) / n / phiTot ≠ 0 := by
    have : Nonempty (Fin n) := ⟨⟨0, Nat.pos_of_ne_zero (by simpa using hn)⟩⟩
    have := (Finset.sum_pos (fun i (_ : i ∈ Finset.univ) => Real.exp_pos (-s.size * w θ s.mono i))
      Finset.univ_nonempty).ne'
    exact div_ne_zero (div_ne_zero this hn) hphi
  have he : ∀ y, HasDerivAt (fun t => Real.exp (-s.size * w t s.mono y))
      (Real.exp (-s.size * w θ s.mono y) * (-s.size * w' s.mono y)) θ := fun y =>
    ((hw s.mono y).const_mul (-s.size)).exp
  have hD := ((HasDerivAt.fun_sum (fun y (_ : y ∈ Finset.univ) => he y)).div_const (n : ℝ)).div_const
    phiTot
  refine ⟨_, hD, hQ, ?_, fun hp y => ?_⟩
  · have e : ∀ y, w' s.mono y * (o θ).conc y = (Real.exp (-s.size * w θ s.mono y) *
        (-s.size * w' s.mono y)) * (-((o θ).species.phi / s.size) /
          ((∑ i, Real.exp (-s.size * w θ s.mono i)) / n / phiTot)) := by
      intro y
      rw [(ho θ).conc]
      have := hs.size
      generalize (∑ i, Real.exp (-s.size * w θ s.mono i)) / n / phiTot = E at hQ ⊢
      field_simp
    rw [Finset.sum_congr rfl (fun y _ => e y), ← Finset.sum_mul]
    generalize (∑ i, Real.exp (-s.size * w θ s.mono i)) / n / phiTot = E at hQ ⊢
    have := hs.size
    field_simp
  · have e : (fun t => (o t).conc y) = _ := funext (fun t => (ho t).conc y)
    rw [e]
    exact (he y).differentiableAt.fun_mul (hp.fun_div hD.differentiableAt hQ)

/-- Term of a species in the grand potential: `phi (mu - 1)/len` if `phi` exceeds the threshold of
the code, minus `mu phi/len` in the open ensemble. -/
noncomputable def speciesTerm (r : Species) (len : ℝ) : ℝ :=
  (if r.phi > 1 / 10 ^ 8 then r.phi * (r.mu - 1) / len else 0) -
    (if r.ens = .opened then r.mu * r.phi / len else 0)

theorem species_deriv {s : Species} (hens : s.ens ≠ .unknown) {len : ℝ} {Q : ℝ → ℝ}
    {Q' θ : ℝ} (hQ : HasDerivAt Q Q' θ) (hQ0 : Q θ ≠ 0) {r : ℝ → Species}
    (hr : ∀ t, s.setQ (Q t) = .ok (r t))
    (hphi : (r θ).phi > 1 / 10 ^ 8 ∨ (r θ).ens = .closed ∧ (r θ).phi = 0) :
    HasDerivAt (fun t => speciesTerm (r t) len) (-((r θ).phi / len) * (Q' / Q θ)) θ ∧
      DifferentiableAt ℝ (fun t => (r t).phi) θ := by
  unfold Species.setQ at hr
  cases he : s.ens with
  | unknown => exact absurd he hens
  | closed =>
    rw [he] at hr
    simp only [Res.ok.injEq] at hr
    have er : r = fun t => ⟨s.phi, Real.log (s.phi / Q t), Q t, .closed⟩ :=
      funext fun t => (hr t).symm
    rw [er] at hphi ⊢
    simp only at hphi ⊢
    refine ⟨?_, differentiableAt_const _⟩
    unfold speciesTerm
    simp only [he, reduceCtorEq, if_false, sub_zero]
    rcases hphi with h0 | ⟨_, h0⟩
    · have hne : s.phi ≠ 0 := by
        intro h
        rw [h] at h0
        norm_num at h0
      simp only [if_pos h0]
      have h1 := ((((hasDerivAt_const θ s.phi).fun_div hQ hQ0).log
        (div_ne_zero hne hQ0)).sub_const 1).const_mul s.phi
      refine (h1.div_const len).congr_deriv ?_
      simp only [zero_mul, zero_sub]
      field_simp
    · have : ¬ (s.phi > 1 / 10 ^ 8) := by rw [h0]; norm_num
      simp only [if_neg this, h0]
      simpa using hasDerivAt_const θ (0 : ℝ)
  | opened =>
    rw [he] at hr
    simp only [Res.ok.injEq] at hr
    have er : r = fun t => ⟨Real.exp s.mu * Q t, s.mu, Q t, .opened⟩ :=
      funext fun t => (hr t).symm
    rw [er] at hphi ⊢
    simp only [he, reduceCtorEq, false_and, or_false] at hphi ⊢
    have hp := hQ.const_mul (Real.exp s.mu)
    refine ⟨?_, hp.differentiableAt⟩
    have hev : ∀ᶠ t in nhds θ, Real.exp s.mu * Q t > 1 / 10 ^ 8 :=
      hp.continuousAt.eventually (lt_mem_nhds hphi)
    have h2 : (fun t => speciesTerm ⟨Real.exp s.mu * Q t, s.mu, Q t, .opened⟩ len) =ᶠ[nhds θ]
        fun t => -(Real.exp s.mu * Q t) / len := by
      filter_upwards [hev] with t ht
      unfold speciesTerm
      simp only [if_pos ht, he, if_true]
      ring
    refine HasDerivAt.congr_of_eventuallyEq ?_ h2
    refine (hp.fun_neg.div_const len).congr_deriv ?_
    field_simp

/-- Work exchanged with the reservoirs: sum of `mu phi / len` over the species of the open
ensemble. -/
noncomputable def Mixture.openWork (x : Mixture M) (o : MixOut M n) : ℝ :=
  ((x.polymers.zip o.polys).map (fun q => if q.2.species.ens = .opened then
    q.2.species.mu * q.2.species.phi / q.1.total else 0)).sum +
  ((x.solvents.zip o.solvs).map (fun q => if q.2.species.ens = .opened then
    q.2.species.mu * q.2.species.phi / q.1.size else 0)).sum

/-- External field, zero if there is none. -/
def extField (h : Option (Fin M → Fld n ℝ)) : Fin M → Fld n ℝ :=
  match h with
  | none => fun _ _ => 0
  | some h => h

/-- Free energy of the code minus the work of the reservoirs. -/
noncomputable def Mixture.grand (x : Mixture M) (chi : Fin M → Fin M → ℝ)
    (h : Option (Fin M → Fld n ℝ)) (w : Fin M → Fld n ℝ) (phiTot : ℝ) (o : MixOut M n) : ℝ :=
  Thermo.fHelmholtz (x.thermo chi h w phiTot o) - x.openWork o

theorem list_sum_sub {α : Type} (f g : α → ℝ) : ∀ l : List α,
    (l.map f).sum - (l.map g).sum = (l.map (fun a => f a - g a)).sum
  | [] => by simp
  | a :: l => by
    simp only [List.map_cons, List.sum_cons, ← list_sum_sub f g l]
    ring

theorem fExt_thermo (x : Mixture M) (chi : Fin M → Fin M → ℝ)
    (h : Option (Fin M → Fld n ℝ)) (w : Fin M → Fld n ℝ) (phiTot : ℝ) (o : MixOut M n) :
    Thermo.fExt (x.thermo chi h w phiTot o) =
      (∑ i, ∑ y, extField h i y * o.c i y) / n / phiTot := by
  cases h with
  | none => simp [Mixture.thermo, extField, Thermo.fExt]
  | some h =>
    simp [Mixture.thermo, extField, Thermo.fExt, Thermo.average, accum_eq, Thermo.inner_eq]

theorem sum_rotate {l : Nat} (f : Fin M → Fin n → Fin l → ℝ) :
    ∑ i, ∑ y, ∑ k, f i y k = ∑ k, ∑ y, ∑ i, f i y k := by
  rw [Finset.sum_congr rfl (fun i _ => Finset.sum_comm), Finset.sum_comm]
  exact Finset.sum_congr rfl (fun k _ => Finset.sum_comm)

theorem grand_eq {bead : Bool} {x : Mixture M} {w : Fin M → Fld n ℝ} {ksq : Half N → ℝ}
    {phiTot : ℝ} {o : MixOut M n} {gp : PolySpec M → PolyOut n} {cs : PolySpec M → Nat → Fld n ℝ}
    {gs : SolvSpec M → SolvOut n} (ho : IsMix en x bead w ksq phiTot o gp cs gs)
    (chi : Fin M → Fin M → ℝ) (h : Option (Fin M → Fld n ℝ)) (hsym : ∀ i j, chi i j = chi j i)
    (hthr : ∀ i j, chi i j = 0 ∨ |chi i j| > 1 / 10 ^ 9) :
    x.grand chi h w phiTot o =
      (x.polymers.map (fun p => speciesTerm (gp p).species p.total)).sum +
      (x.solvents.map (fun s => speciesTerm (gs s).species s.size)).sum +
      (-(∑ i, ∑ y, w i y * o.c i y) + (∑ i, ∑ y, extField h i y * o.c i y) +
        1 / 2 * ∑ i, ∑ j, chi i j * ∑ y, o.c i y * o.c j y) / n / phiTot := by
  unfold Mixture.grand Thermo.fHelmholtz
  rw [Thermo.fInter_eq _ hsym hthr, fExt_thermo]
  unfold Thermo.fIdeal Mixture.openWork
  rw [Thermo.idealSpecies_eq]
  simp only [Mixture.thermo, Mixture.specs, ho.polys, ho.solvs, zip_map, List.map_append,
    List.sum_append, List.map_map, accum_eq, Thermo.inner_eq, Thermo.average, Bool.false_eq_true,
    if_false, zero_add, Finset.sum_neg_distrib]
  have e1 : ∀ (p : List (PolySpec M)), (p.map (fun p => speciesTerm (gp p).species p.total)).sum =
      (p.map (fun p => if (gp p).species.phi > 1 / 10 ^ 8 then
        (gp p).species.phi * ((gp p).species.mu - 1) / p.total else 0)).sum -
      (p.map (fun p => if (gp p).species.ens = .opened then
        (gp p).species.mu * (gp p).species.phi / p.total else 0)).sum :=
    fun p => (list_sum_sub _ _ p).symm
  have e2 : ∀ (p : List (SolvSpec M)), (p.map (fun p => speciesTerm (gs p).species p.size)).sum =
      (p.map (fun p => if (gs p).species.phi > 1 / 10 ^ 8 then
        (gs p).species.phi * ((gs p).species.mu - 1) / p.size else 0)).sum -
      (p.map (fun p => if (gs p).species.ens = .opened then
        (gs p).species.mu * (gs p).species.phi / p.size else 0)).sum :=
    fun p => (list_sum_sub _ _ p).symm
  rw [e1, e2]
  simp only [Function.comp_def]
  ring

theorem hasDerivAt_list {α : Type} {f : α → ℝ → ℝ} {f' : α → ℝ} {θ : ℝ} : ∀ {l : List α},
    (∀ a ∈ l, HasDerivAt (f a) (f' a) θ) →
    HasDerivAt (fun t => (l.map (fun a => f a t)).sum) ((l.map f').sum) θ
  | [], _ => by simpa using hasDerivAt_const θ (0 : ℝ)
  | a :: l, h => by
    simp only [List.map_cons, List.sum_cons]
    exact (h a (by simp)).fun_add (hasDerivAt_list (fun b hb => h b (by simp [hb])))

theorem diff_list {α : Type} {f : α → ℝ → ℝ} {θ : ℝ} {l : List α}
    (h : ∀ a ∈ l, DifferentiableAt ℝ (f a) θ) :
    DifferentiableAt ℝ (fun t => (l.map (fun a => f a t)).sum) θ :=
  (hasDerivAt_list (fun a ha => (h a ha).hasDerivAt)).differentiableAt

/-- **C92**, first law: along any differentiable curve of chemical potential fields, squared
wavenumbers, interaction parameters and external fields, for every mixture of bead polymers and
solvents in any combination of closed and open ensembles, the concentrations are differentiable and
the derivative of the free energy of the code minus the work of the reservoirs is the stress of the
code (with the array `trueDKSq`) plus the explicit derivatives with respect to interaction parameters
and external fields, minus a term that vanishes if the fields satisfy the self-consistent
equations. -/
theorem C92_first_law (x : Mixture M) (hx : x.Ok true) (phiTot : ℝ) (hphi : phiTot ≠ 0)
    (w : ℝ → Fin M → Fld n ℝ) (w' : Fin M → Fld n ℝ) (ksq : ℝ → Half N → ℝ) (dk : Half N → ℝ)
    (chi : ℝ → Fin M → Fin M → ℝ) (chi' : Fin M → Fin M → ℝ)
    (h : ℝ → Option (Fin M → Fld n ℝ)) (h' : Fin M → Fld n ℝ) (θ : ℝ)
    (hw : ∀ i, HasD (fun t => w t i) (w' i) θ)
    (hk : ∀ q, HasDerivAt (fun t => ksq t q) (dk q) θ)
    (hchi : ∀ i j, HasDerivAt (fun t => chi t i j) (chi' i j) θ)
    (hh : ∀ i, HasD (fun t => extField (h t) i) (h' i) θ)
    (hsym : ∀ t i j, chi t i j = chi t j i)
    (hthr : ∀ i j, (∀ t, chi t i j = 0) ∨ |chi θ i j| > 1 / 10 ^ 9) :
    ∃ o : ℝ → MixOut M n, (∀ t, x.compute en true (w t) (ksq t) phiTot = .ok (o t)) ∧
      ((∀ q ∈ (o θ).polys, q.Q ≠ 0 ∧ (q.species.phi > 1 / 10 ^ 8 ∨
          q.species.ens = .closed ∧ q.species.phi = 0)) →
        (∀ q ∈ (o θ).solvs, q.species.phi > 1 / 10 ^ 8 ∨
          q.species.ens = .closed ∧ q.species.phi = 0) →
        ∃ (c' : Fin M → Fld n ℝ) (σ : ℝ), (∀ i, HasD (fun t => (o t).c i) (c' i) θ) ∧
          x.stress en true (w θ) (ksq θ) (trueDKSq dk) phiTot (o θ) = .ok σ ∧
          HasDerivAt (fun t => x.grand (chi t) (h t) (w t) phiTot (o t))
            (σ + (1 / 2 * (∑ i, ∑ j, chi' i j * ∑ y, (o θ).c i y * (o θ).c j y) +
              (∑ i, ∑ y, h' i y * (o θ).c i y) -
              ∑ i, ∑ y, (w θ i y - extField (h θ) i y - ∑ j, chi θ i j * (o θ).c j y) * c' i y) /
                n / phiTot) θ) := by
  have hn : (n : ℝ) ≠ 0 := n_ne en
  choose o gp cs gs ho hI using fun t => hx.compute en (w t) (ksq t) phiTot
  refine ⟨o, ho, fun hq hs => ?_⟩
  -- polymers
  have hp : ∀ p : PolySpec M, ∃ Q' s : ℝ, p ∈ x.polymers →
      HasDerivAt (fun t => (gp t p).Q) Q' θ ∧
      polymerStress en true (p.blk true x.kuhn (w θ) (ksq θ)) (fun k => x.kuhn (p.mono k)) p.es
        p.poly.vertices (trueDKSq dk) (gp θ p).st (gp θ p).species.phi (gp θ p).Q p.total = some s ∧
      -((gp θ p).species.phi / p.total) * (Q' / (gp θ p).Q) =
        (∑ k : Fin p.es.length, ∑ y, w' (p.mono k) y * cs θ p k y) / n / phiTot + s / phiTot ∧
      (DifferentiableAt ℝ (fun t => (gp t p).species.phi) θ →
        ∀ k, k < p.es.length → ∀ y, DifferentiableAt ℝ (fun t => cs t p k y) θ) := by
    intro p
    by_cases hm : p ∈ x.polymers
    · obtain ⟨Q', s, h1⟩ := poly_deriv en (hx.polymers p hm) x.kuhn hw hk
        (fun t => (hI t).poly p hm)
        (hq _ (by rw [(hI θ).polys]; exact List.mem_map_of_mem hm)).1
      exact ⟨Q', s, fun _ => h1⟩
    · exact ⟨0, 0, fun h => absurd h hm⟩
  choose Qp' sp hp using hp
  have hps : ∀ p ∈ x.polymers,
      HasDerivAt (fun t => speciesTerm (gp t p).species p.total)
        (-((gp θ p).species.phi / p.total) * (Qp' p / (gp θ p).Q)) θ ∧
      DifferentiableAt ℝ (fun t => (gp t p).species.phi) θ := fun p hm => by
    have hq' := hq _ (by rw [(hI θ).polys]; exact List.mem_map_of_mem hm)
    exact species_deriv (hx.polymers p hm).ens (hp p hm).1 hq'.1
      (fun t => ((hI t).poly p hm).set) hq'.2
  -- solvents
  have hv : ∀ s : SolvSpec M, ∃ Q' : ℝ, s ∈ x.solvents →
      HasDerivAt (fun t => (∑ i, Real.exp (-s.size * w t s.mono i)) / n / phiTot) Q' θ ∧
      (∑ i, Real.exp (-s.size * w θ s.mono i)) / n / phiTot ≠ 0 ∧
      -((gs θ s).species.phi / s.size) *
        (Q' / ((∑ i, Real.exp (-s.size * w θ s.mono i)) / n / phiTot)) =
        (∑ y, w' s.mono y * (gs θ s).conc y) / n / phiTot ∧
      (DifferentiableAt ℝ (fun t => (gs t s).species.phi) θ →
        ∀ y, DifferentiableAt ℝ (fun t => (gs t s).conc y) θ) := by
    intro s
    by_cases hm : s ∈ x.solvents
    · obtain ⟨Q', h1⟩ := solv_deriv (hx.solvents s hm) hw hphi hn (fun t => (hI t).solv s hm)
      exact ⟨Q', fun _ => h1⟩
    · exact ⟨0, fun h => absurd h hm⟩
  choose Qs' hv using hv
  have hvs : ∀ s ∈ x.solvents,
      HasDerivAt (fun t => speciesTerm (gs t s).species s.size)
        (-((gs θ s).species.phi / s.size) *
          (Qs' s / ((∑ i, Real.exp (-s.size * w θ s.mono i)) / n / phiTot))) θ ∧
      DifferentiableAt ℝ (fun t => (gs t s).species.phi) θ := fun s hm => by
    have hq' := hs _ (by rw [(hI θ).solvs]; exact List.mem_map_of_mem hm)
    exact species_deriv (hx.solvents s hm).ens (hv s hm).1 (hv s hm).2.1
      (fun t => ((hI t).solv s hm).set) hq'
  -- concentrations
  have hc : ∀ i y, DifferentiableAt ℝ (fun t => (o t).c i y) θ := by
    intro i y
    have e : (fun t => (o t).c i y) = _ := funext fun t => (hI t).c i y
    rw [e]
    refine DifferentiableAt.fun_add (diff_list fun p hm => DifferentiableAt.fun_sum fun k _ => ?_)
      (diff_list fun s hm => ?_)
    · by_cases e : i = p.mono k
      · simp only [if_pos e]
        exact (hp p hm).2.2.2 (hps p hm).2 k k.2 y
      · simp only [if_neg e]
        exact differentiableAt_const _
    · by_cases e : i = s.mono
      · simp only [if_pos e]
        exact (hv s hm).2.2.2 (hvs s hm).2 y
      · simp only [if_neg e]
        exact differentiableAt_const _
  choose c' hc' using fun i y => (⟨_, (hc i y).hasDerivAt⟩ :
    ∃ d, HasDerivAt (fun t => (o t).c i y) d θ)
  refine ⟨c', (x.polymers.map sp).sum / phiTot, hc', ?_, ?_⟩
  · unfold Mixture.stress
    rw [(hI θ).polys, zip_map, runAll_ok (g := fun q : PolySpec M × PolyOut n => sp q.1) (by
      intro q hq
      obtain ⟨p, hm, rfl⟩ := List.mem_map.1 hq
      simp only
      rw [(hp p hm).2.1]), okBind, List.map_map]
    unfold mixtureStress
    rw [← List.sum_eq_foldl]
    rfl
  · have hev : (fun t => x.grand (chi t) (h t) (w t) phiTot (o t)) =ᶠ[nhds θ] fun t =>
        (x.polymers.map (fun p => speciesTerm (gp t p).species p.total)).sum +
        (x.solvents.map (fun s => speciesTerm (gs t s).species s.size)).sum +
        (-(∑ i, ∑ y, w t i y * (o t).c i y) + (∑ i, ∑ y, extField (h t) i y * (o t).c i y) +
          1 / 2 * ∑ i, ∑ j, chi t i j * ∑ y, (o t).c i y * (o t).c j y) / n / phiTot := by
      have h1 : ∀ᶠ t in nhds θ, ∀ i j, chi t i j = 0 ∨ |chi t i j| > 1 / 10 ^ 9 := by
        rw [Filter.eventually_all]
        intro i
        rw [Filter.eventually_all]
        intro j
        rcases hthr i j with h0 | h0
        · exact Filter.Eventually.of_forall fun t => Or.inl (h0 t)
        · have : ContinuousAt (fun t => |chi t i j|) θ := (hchi i j).continuousAt.abs
          exact (this.eventually (lt_mem_nhds h0)).mono fun t ht => Or.inr ht
      filter_upwards [h1] with t ht
      exact grand_eq en (hI t) (chi t) (h t) (hsym t) ht
    refine HasDerivAt.congr_of_eventuallyEq ?_ hev
    have hd1 := hasDerivAt_list (fun p hm => (hps p hm).1)
    have hd2 := hasDerivAt_list (fun s hm => (hvs s hm).1)
    have hd3 := HasDerivAt.fun_sum (fun i (_ : i ∈ Finset.univ) =>
      HasDerivAt.fun_sum (fun y (_ : y ∈ Finset.univ) => (hw i y).fun_mul (hc' i y)))
    have hd4 := HasDerivAt.fun_sum (fun i (_ : i ∈ Finset.univ) =>
      HasDerivAt.fun_sum (fun y (_ : y ∈ Finset.univ) => (hh i y).fun_mul (hc' i y)))
    have hd5 := HasDerivAt.fun_sum (fun i (_ : i ∈ Finset.univ) =>
      HasDerivAt.fun_sum (fun j (_ : j ∈ Finset.univ) => (hchi i j).fun_mul
        (HasDerivAt.fun_sum (fun y (_ : y ∈ Finset.univ) => (hc' i y).fun_mul (hc' j y)))))
    refine ((hd1.fun_add hd2).fun_add (((hd3.fun_neg.fun_add hd4).fun_add
      (hd5.const_mul (1 / 2))).div_const (n : ℝ) |>.div_const phiTot)).congr_deriv ?_
    -- sums over species
    have s1 : (x.polymers.map (fun p => -((gp θ p).species.phi / p.total) *
          (Qp' p / (gp θ p).Q))).sum +
        (x.solvents.map (fun s => -((gs θ s).species.phi / s.size) *
          (Qs' s / ((∑ i, Real.exp (-s.size * w θ s.mono i)) / n / phiTot)))).sum =
        (∑ i, ∑ y, w' i y * (o θ).c i y) / n / phiTot + (x.polymers.map sp).sum / phiTot := by
      rw [List.map_congr_left (fun p hm => (hp p hm).2.2.1),
        List.map_congr_left (fun s hm => (hv s hm).2.2.1)]
      have e1 : ∀ p : PolySpec M, ∑ i, ∑ y, w' i y * ∑ k : Fin p.es.length,
          (if i = p.mono k then cs θ p k y else 0) =
          ∑ k : Fin p.es.length, ∑ y, w' (p.mono k) y * cs θ p k y := by
        intro p
        simp only [Finset.mul_sum, mul_ite, mul_zero]
        rw [sum_rotate]
        simp
      have e2 : ∀ s : SolvSpec M, ∑ i, ∑ y, w' i y * (if i = s.mono then (gs θ s).conc y else 0) =
          ∑ y, w' s.mono y * (gs θ s).conc y := by
        intro s
        simp only [mul_ite, mul_zero]
        rw [Finset.sum_comm]
        simp
      have e3 : ∑ i, ∑ y, w' i y * (o θ).c i y =
          (x.polymers.map (fun p => ∑ k : Fin p.es.length, ∑ y,
            w' (p.mono k) y * cs θ p k y)).sum +
          (x.solvents.map (fun s => ∑ y, w' s.mono y * (gs θ s).conc y)).sum := by
        simp only [(hI θ).c, mul_add, list_mul_sum, Finset.sum_add_distrib]
        simp only [sum_list_map (n := n), sum_list_map (n := M), e1, e2]
      rw [e3, add_div, add_div, list_sum_div, list_sum_div, list_sum_div, list_sum_div,
        list_sum_div]
      have e4 : ∀ (f g : PolySpec M → ℝ) (l : List (PolySpec M)),
          (l.map (fun p => f p + g p)).sum = (l.map f).sum + (l.map g).sum := by
        intro f g l
        induction l with
        | nil => simp
        | cons a l ih => simp only [List.map_cons, List.sum_cons, ih]; ring
      rw [e4]
      ring
    rw [s1]
    have s2 : ∑ i, ∑ j, (chi' i j * (∑ y, (o θ).c i y * (o θ).c j y) +
        chi θ i j * ∑ y, (c' i y * (o θ).c j y + (o θ).c i y * c' j y)) =
        (∑ i, ∑ j, chi' i j * ∑ y, (o θ).c i y * (o θ).c j y) +
        2 * ∑ i, ∑ y, (∑ j, chi θ i j * (o θ).c j y) * c' i y := by
      simp only [Finset.sum_add_distrib, mul_add]
      congr 1
      have t1 : ∑ i, ∑ j, chi θ i j * ∑ y, (o θ).c i y * c' j y =
          ∑ i, ∑ j, chi θ i j * ∑ y, c' i y * (o θ).c j y := by
        rw [Finset.sum_comm]
        apply Finset.sum_congr rfl
        intro i _
        apply Finset.sum_congr rfl
        intro j _
        rw [hsym θ j i]
        congr 1
        exact Finset.sum_congr rfl (fun y _ => mul_comm _ _)
      rw [t1, ← two_mul]
      congr 1
      apply Finset.sum_congr rfl
      intro i _
      simp only [Finset.sum_mul, Finset.mul_sum]
      rw [Finset.sum_comm]
      apply Finset.sum_congr rfl
      intro y _
      apply Finset.sum_congr rfl
      intro j _
      ring
    rw [s2]
    simp only [sub_mul, Finset.sum_sub_distrib, Finset.sum_add_distrib]
    ring

/-- Hypotheses of the first law along a curve: see `C92_first_law`. -/
structure Curve (x : Mixture M) (phiTot : ℝ) (w : ℝ → Fin M → Fld n ℝ) (w' : Fin M → Fld n ℝ)
    (ksq : ℝ → Half N → ℝ) (dk : Half N → ℝ) (chi : ℝ → Fin M → Fin M → ℝ)
    (chi' : Fin M → Fin M → ℝ) (h : ℝ → Option (Fin M → Fld n ℝ)) (h' : Fin M → Fld n ℝ) (θ : ℝ)
    (o : ℝ → MixOut M n) : Prop where
  mix : x.Ok true
  mask : phiTot ≠ 0
  dW : ∀ i, HasD (fun t => w t i) (w' i) θ
  dKsq : ∀ q, HasDerivAt (fun t => ksq t q) (dk q) θ
  dChi : ∀ i j, HasDerivAt (fun t => chi t i j) (chi' i j) θ
  dH : ∀ i, HasD (fun t => extField (h t) i) (h' i) θ
  sym : ∀ t i j, chi t i j = chi t j i
  thr : ∀ i j, (∀ t, chi t i j = 0) ∨ |chi θ i j| > 1 / 10 ^ 9
  compute : ∀ t, x.compute en true (w t) (ksq t) phiTot = .ok (o t)
  polys : ∀ q ∈ (o θ).polys, q.Q ≠ 0 ∧ (q.species.phi > 1 / 10 ^ 8 ∨
    q.species.ens = .closed ∧ q.species.phi = 0)
  solvs : ∀ q ∈ (o θ).solvs, q.species.phi > 1 / 10 ^ 8 ∨
    q.species.ens = .closed ∧ q.species.phi = 0

/-- The self-consistent field equations hold at `θ` with Lagrange multiplier field `ξ`, and the total
concentration does not change along the curve. -/
structure Scft (w : Fin M → Fld n ℝ) (chi : Fin M → Fin M → ℝ) (h : Option (Fin M → Fld n ℝ))
    (ξ ρ : Fld n ℝ) (θ : ℝ) (o : ℝ → MixOut M n) : Prop where
  field : ∀ i y, w i y = (∑ j, chi i j * (o θ).c j y) + extField h i y + ξ y
  incomp : ∀ᶠ t in nhds θ, ∀ y, ∑ i, (o t).c i y = ρ y

section Curve

variable {en} {x : Mixture M} {phiTot : ℝ} {w : ℝ → Fin M → Fld n ℝ} {w' : Fin M → Fld n ℝ}
  {ksq : ℝ → Half N → ℝ} {dk : Half N → ℝ} {chi : ℝ → Fin M → Fin M → ℝ}
  {chi' : Fin M → Fin M → ℝ} {h : ℝ → Option (Fin M → Fld n ℝ)} {h' : Fin M → Fld n ℝ} {θ : ℝ}
  {o : ℝ → MixOut M n}

theorem Curve.law (hc : Curve en x phiTot w w' ksq dk chi chi' h h' θ o) :
    ∃ (c' : Fin M → Fld n ℝ) (σ : ℝ), (∀ i, HasD (fun t => (o t).c i) (c' i) θ) ∧
      x.stress en true (w θ) (ksq θ) (trueDKSq dk) phiTot (o θ) = .ok σ ∧
      HasDerivAt (fun t => x.grand (chi t) (h t) (w t) phiTot (o t))
        (σ + (1 / 2 * (∑ i, ∑ j, chi' i j * ∑ y, (o θ).c i y * (o θ).c j y) +
          (∑ i, ∑ y, h' i y * (o θ).c i y) -
          ∑ i, ∑ y, (w θ i y - extField (h θ) i y - ∑ j, chi θ i j * (o θ).c j y) * c' i y) /
            n / phiTot) θ := by
  obtain ⟨o', h1, h2⟩ := C92_first_law en x hc.mix phiTot hc.mask w w' ksq dk chi chi' h h' θ hc.dW
    hc.dKsq hc.dChi hc.dH hc.sym hc.thr
  have e : o' = o := funext fun t => by
    have := h1 t
    rw [hc.compute t] at this
    injection this with this
    exact this.symm
  subst e
  exact h2 hc.polys hc.solvs

/-- **C92** at a solution of the self-consistent field equations: only the stress and the explicit
derivatives remain. -/
theorem C92_scft (hc : Curve en x phiTot w w' ksq dk chi chi' h h' θ o) {ξ ρ : Fld n ℝ}
    (hs : Scft (w θ) (chi θ) (h θ) ξ ρ θ o) :
    ∃ σ, x.stress en true (w θ) (ksq θ) (trueDKSq dk) phiTot (o θ) = .ok σ ∧
      HasDerivAt (fun t => x.grand (chi t) (h t) (w t) phiTot (o t))
        (σ + (1 / 2 * (∑ i, ∑ j, chi' i j * ∑ y, (o θ).c i y * (o θ).c j y) +
          ∑ i, ∑ y, h' i y * (o θ).c i y) / n / phiTot) θ := by
  obtain ⟨c', σ, h1, h2, h3⟩ := hc.law
  refine ⟨σ, h2, h3.congr_deriv ?_⟩
  have h4 : ∀ y, ∑ i, c' i y = 0 := by
    intro y
    have a := HasDerivAt.fun_sum (fun i (_ : i ∈ Finset.univ) => h1 i y)
    have b : HasDerivAt (fun t => ∑ i, (o t).c i y) 0 θ := by
      refine (hasDerivAt_const θ (ρ y)).congr_of_eventuallyEq ?_
      filter_upwards [hs.incomp] with t ht
      exact ht y
    exact a.unique b
  have h5 : ∑ i, ∑ y, (w θ i y - extField (h θ) i y - ∑ j, chi θ i j * (o θ).c j y) * c' i y = 0 := by
    rw [Finset.sum_comm]
    apply Finset.sum_eq_zero
    intro y _
    have : ∀ i, (w θ i y - extField (h θ) i y - ∑ j, chi θ i j * (o θ).c j y) * c' i y =
        ξ y * c' i y := by
      intro i
      rw [hs.field i y]
      ring
    rw [Finset.sum_congr rfl (fun i _ => this i), ← Finset.mul_sum, h4, mul_zero]
  rw [h5, sub_zero]

theorem setQ_ens {s r : Species} {q : ℝ} (h : s.setQ q = .ok r) : r.ens = s.ens := by
  unfold Species.setQ at h
  cases hs : s.ens <;> rw [hs] at h <;> injection h with h <;> rw [← h]

/-- **C92**, closed ensemble: at a solution of the self-consistent field equations the derivative of
the Helmholtz free energy of the code is the stress plus the explicit derivatives. -/
theorem C92_closed (hc : Curve en x phiTot w w' ksq dk chi chi' h h' θ o) {ξ ρ : Fld n ℝ}
    (hs : Scft (w θ) (chi θ) (h θ) ξ ρ θ o)
    (hp : ∀ p ∈ x.polymers, p.species.ens = .closed)
    (hv : ∀ s ∈ x.solvents, s.species.ens = .closed) :
    ∃ σ, x.stress en true (w θ) (ksq θ) (trueDKSq dk) phiTot (o θ) = .ok σ ∧
      HasDerivAt (fun t => Thermo.fHelmholtz (x.thermo (chi t) (h t) (w t) phiTot (o t)))
        (σ + (1 / 2 * (∑ i, ∑ j, chi' i j * ∑ y, (o θ).c i y * (o θ).c j y) +
          ∑ i, ∑ y, h' i y * (o θ).c i y) / n / phiTot) θ := by
  obtain ⟨σ, h1, h2⟩ := C92_scft hc hs
  refine ⟨σ, h1, ?_⟩
  have e : (fun t => Thermo.fHelmholtz (x.thermo (chi t) (h t) (w t) phiTot (o t))) =
      fun t => x.grand (chi t) (h t) (w t) phiTot (o t) := by
    funext t
    unfold Mixture.grand
    have : x.openWork (o t) = 0 := by
      obtain ⟨o', gp, cs, gs, ho, hI⟩ := hc.mix.compute en (w t) (ksq t) phiTot
      rw [hc.compute t] at ho
      injection ho with ho
      subst ho
      unfold Mixture.openWork
      rw [hI.polys, hI.solvs, zip_map, zip_map, List.map_map, List.map_map]
      rw [List.sum_eq_zero, List.sum_eq_zero, add_zero]
      · intro a ha
        obtain ⟨s, hm, rfl⟩ := List.mem_map.1 ha
        simp [setQ_ens (hI.solv s hm).set, hv s hm]
      · intro a ha
        obtain ⟨p, hm, rfl⟩ := List.mem_map.1 ha
        simp [setQ_ens (hI.poly p hm).set, hp p hm]
    rw [this, sub_zero]
  rw [e]
  exact h2

/-- **C92**, open ensemble: the derivative of minus the pressure of the code. -/
theorem C92_open (hc : Curve en x phiTot w w' ksq dk chi chi' h h' θ o) {ξ ρ : Fld n ℝ}
    (hs : Scft (w θ) (chi θ) (h θ) ξ ρ θ o)
    (hp : ∀ p ∈ x.polymers, p.species.ens = .opened)
    (hv : ∀ s ∈ x.solvents, s.species.ens = .opened)
    (hthr : ∀ᶠ t in nhds θ, ∀ s ∈ x.specs (o t), s.phi > 1 / 10 ^ 8) :
    ∃ σ, x.stress en true (w θ) (ksq θ) (trueDKSq dk) phiTot (o θ) = .ok σ ∧
      HasDerivAt (fun t => -Thermo.pressure (x.thermo (chi t) (h t) (w t) phiTot (o t)))
        (σ + (1 / 2 * (∑ i, ∑ j, chi' i j * ∑ y, (o θ).c i y * (o θ).c j y) +
          ∑ i, ∑ y, h' i y * (o θ).c i y) / n / phiTot) θ := by
  obtain ⟨σ, h1, h2⟩ := C92_scft hc hs
  refine ⟨σ, h1, h2.congr_of_eventuallyEq ?_⟩
  filter_upwards [hthr] with t ht
  rw [Thermo.C71_pressure _ (fun s hs => Or.inr (ht s hs))]
  unfold Mixture.grand
  have : x.openWork (o t) = ((x.specs (o t)).map (fun s => s.mu * s.phi / s.len)).sum := by
    obtain ⟨o', gp, cs, gs, ho, hI⟩ := hc.mix.compute en (w t) (ksq t) phiTot
    rw [hc.compute t] at ho
    injection ho with ho
    subst ho
    unfold Mixture.openWork Mixture.specs
    rw [hI.polys, hI.solvs, zip_map, zip_map]
    simp only [List.map_append, List.sum_append, List.map_map]
    congr 2
    · apply List.map_congr_left
      intro p hm
      simp [setQ_ens (hI.poly p hm).set, hp p hm]
    · apply List.map_congr_left
      intro p hm
      simp [setQ_ens (hI.solv p hm).set, hv p hm]
  rw [this]
  show -(_ - Thermo.fHelmholtz (x.thermo (chi t) (h t) (w t) phiTot (o t))) = _
  rw [neg_sub]
  rfl

/-- **C92**, unit cell, closed ensemble: `r` and `kb` are the Bravais and reciprocal bases along a
curve of unit cells, `dr` the derivative of the first. The stress is computed with the derivatives of
`UnitCellBase::dksq`. At fixed interactions the derivative of the free energy at a solution of the
self-consistent field equations is the stress. -/
theorem C92_unit_cell (r kb : ℝ → Crystal.BasisVecs (m + 1)) (dr : Crystal.BasisVecs (m + 1))
    (G : Half N → Fin (m + 1) → Int) (X : Fin M → Fin M → ℝ) (H : Option (Fin M → Fld n ℝ))
    (hrd : ∀ i j, HasDerivAt (fun x => r x i j) (dr i j) θ)
    (hrec : ∀ᶠ x in nhds θ, Crystal.Reciprocal (r x) (kb x))
    (hx : x.Ok true) (hphi : phiTot ≠ 0) (hw : ∀ i, HasD (fun t => w t i) (w' i) θ)
    (hsym : ∀ i j, X i j = X j i) (hthr : ∀ i j, X i j = 0 ∨ |X i j| > 1 / 10 ^ 9)
    (ho : ∀ t, x.compute en true (w t) (fun q => Crystal.ksq (kb t) (G q)) phiTot = .ok (o t))
    (hQ : ∀ q ∈ (o θ).polys, q.Q ≠ 0)
    (hthr2 : ∀ s ∈ x.specs (o θ), s.phi = 0 ∨ s.phi > 1 / 10 ^ 8)
    (hp : ∀ p ∈ x.polymers, p.species.ens = .closed)
    (hv : ∀ s ∈ x.solvents, s.species.ens = .closed) {ξ ρ : Fld n ℝ}
    (hs : Scft (w θ) X H ξ ρ θ o) :
    ∃ σ, x.stress en true (w θ) (fun q => Crystal.ksq (kb θ) (G q))
        (trueDKSq (fun q => Crystal.dksq (kb θ) dr (G q))) phiTot (o θ) = .ok σ ∧
      HasDerivAt (fun t => Thermo.fHelmholtz (x.thermo X H (w t) phiTot (o t))) σ θ := by
  have hcl : (∀ q ∈ (o θ).polys, q.Q ≠ 0 ∧ (q.species.phi > 1 / 10 ^ 8 ∨
      q.species.ens = .closed ∧ q.species.phi = 0)) ∧
      ∀ q ∈ (o θ).solvs, q.species.phi > 1 / 10 ^ 8 ∨
        q.species.ens = .closed ∧ q.species.phi = 0 := by
    obtain ⟨o', gp, cs, gs, ho', hI⟩ := hx.compute en (w θ) (fun q => Crystal.ksq (kb θ) (G q)) phiTot
    rw [ho θ] at ho'
    injection ho' with ho'
    subst ho'
    unfold Mixture.specs at hthr2
    rw [hI.polys, hI.solvs, zip_map, zip_map] at hthr2
    simp only [List.map_map, List.mem_append, List.mem_map, Function.comp] at hthr2
    constructor
    · intro q hq
      refine ⟨hQ q hq, ?_⟩
      rw [hI.polys] at hq
      obtain ⟨p, hm, rfl⟩ := List.mem_map.1 hq
      rcases hthr2 _ (Or.inl ⟨p, hm, rfl⟩) with h0 | h0
      · exact Or.inr ⟨(setQ_ens (hI.poly p hm).set).trans (hp p hm), h0⟩
      · exact Or.inl h0
    · intro q hq
      rw [hI.solvs] at hq
      obtain ⟨p, hm, rfl⟩ := List.mem_map.1 hq
      rcases hthr2 _ (Or.inr ⟨p, hm, rfl⟩) with h0 | h0
      · exact Or.inr ⟨(setQ_ens (hI.solv p hm).set).trans (hv p hm), h0⟩
      · exact Or.inl h0
  have hc : Curve en x phiTot w w' (fun t q => Crystal.ksq (kb t) (G q))
      (fun q => Crystal.dksq (kb θ) dr (G q)) (fun _ => X) (fun _ _ => 0) (fun _ => H)
      (fun _ _ => 0) θ o :=
    ⟨hx, hphi, hw, fun q => Crystal.C36_dksq r kb dr θ hrd hrec (G q),
      fun _ _ => hasDerivAt_const _ _, fun _ _ => hasDerivAt_const _ _, fun _ => hsym,
      fun i j => (hthr i j).imp (fun h _ => h) id, ho, hcl.1, hcl.2⟩
  obtain ⟨σ, h1, h2⟩ := C92_closed hc hs hp hv
  refine ⟨σ, h1, h2.congr_deriv ?_⟩
  simp

/-- **C92** for the array of the code, on meshes with at most two points in the last direction.
Missing: all other meshes, where it fails (`C92_code_violated`). -/
theorem C92_code_partial (hN : N (Fin.last m) ≤ 2)
    (hc : Curve en x phiTot w w' ksq dk chi chi' h h' θ o) {ξ ρ : Fld n ℝ}
    (hs : Scft (w θ) (chi θ) (h θ) ξ ρ θ o) :
    ∃ σ, x.stress en true (w θ) (ksq θ) (codeDKSq dk) phiTot (o θ) = .ok σ ∧
      HasDerivAt (fun t => x.grand (chi t) (h t) (w t) phiTot (o t))
        (σ + (1 / 2 * (∑ i, ∑ j, chi' i j * ∑ y, (o θ).c i y * (o θ).c j y) +
          ∑ i, ∑ y, h' i y * (o θ).c i y) / n / phiTot) θ := by
  rw [C85_code_partial dk hN]
  exact C92_scft hc hs

end Curve

/-- A melt of dimers. -/
noncomputable def exMelt (P : Polymer) : Mixture 1 where
  polymers := [⟨dimer, P, fun _ => 0, fun _ => 4, fun _ => 1, 2, ⟨1, 0, 0, .closed⟩⟩]
  solvents := []
  kuhn := fun _ => 1

theorem exMelt_ok {P : Polymer} (hr : readTopology dimer 2 = some (.ok P)) : (exMelt P).Ok true :=
  ⟨fun p hp => by
      simp only [exMelt, List.mem_singleton] at hp
      subst hp
      exact ⟨⟨2, hr⟩, by simp [dimer], by simp, fun _ _ => by norm_num, by norm_num, by simp⟩,
    fun s hs => by simp [exMelt] at hs⟩

/-- **C92** is violated by the array of the code on every mesh with at least three points in the last
direction: for a melt of dimers, under the conditions of `C85_code_violated`, the stress of the code
is different from the stress of the first law. -/
theorem C92_code_violated (w : Fld n ℝ) (θ : ℝ) (ksq : ℝ → Half N → ℝ)
    (dk : Half N → ℝ) (hdk : ∀ k, HasDerivAt (fun t => ksq t k) (dk k) θ)
    (hneg : ∀ k, Missed k → dk k < 0)
    (hc : ∃ k, Missed k ∧ r2c en (fun i => Real.exp (-w i)) k ≠ 0) (phiTot : ℝ) (hphi : phiTot ≠ 0) :
    ∃ P, readTopology dimer 2 = some (.ok P) ∧ (exMelt P).Ok true ∧
      ∃ o, (exMelt P).compute en true (fun _ => w) (ksq θ) phiTot = .ok o ∧ ∃ σ σ',
        (exMelt P).stress en true (fun _ => w) (ksq θ) (trueDKSq dk) phiTot o = .ok σ ∧
        (exMelt P).stress en true (fun _ => w) (ksq θ) (codeDKSq dk) phiTot o = .ok σ' ∧
        σ ≠ σ' := by
  obtain ⟨P, hr, st, Q, h1, s', hs', hno⟩ := C85_code_violated en w 1 1 1 phiTot 2 θ ksq dk hdk hneg hc
    one_ne_zero one_ne_zero hphi two_ne_zero
  refine ⟨P, hr, exMelt_ok hr, ?_⟩
  obtain ⟨o, gp, cs, gs, ho, hI⟩ := (exMelt_ok hr).compute en (fun _ => w) (ksq θ) phiTot
  refine ⟨o, ho, ?_⟩
  obtain ⟨st2, Q2, h2, h3⟩ := C85_stress_is_derivative en dimer (by simp [dimer]) 2 P hr (fun _ => w)
    (fun _ => 4) (fun _ => by omega) (fun _ => 1) (fun _ => 1) ksq 1 phiTot 2
  have e : ∀ t, st2 t = st t ∧ Q2 t = Q t := by
    intro t
    have a := h2 t
    rw [h1 t] at a
    injection a with a
    injection a with a b
    exact ⟨a.symm, b.symm⟩
  have eQ : Q2 = Q := funext fun t => (e t).2
  have est : st2 = st := funext fun t => (e t).1
  subst eQ est
  set p0 : PolySpec 1 := ⟨dimer, P, fun _ => 0, fun _ => 4, fun _ => 1, 2, ⟨1, 0, 0, .closed⟩⟩
    with hp0
  have hm : p0 ∈ (exMelt P).polymers := by simp [exMelt, hp0]
  have hsol := (hI.poly p0 hm).solve
  have hsol' := (h1 θ).symm.trans hsol
  injection hsol' with hsol'
  injection hsol' with a b
  have hph : (gp p0).species.phi = 1 := closed_phi (hI.poly p0 hm).set rfl
  have hQ : Q2 θ ≠ 0 := by
    intro h0
    apply hno
    have hP : PolyOk (dftKin en) true (fun _ => realBlock true w 4 1 1 (ksq θ)) dimer 2 P :=
      realBlock_ok en dimer 2 P hr (fun _ => w) (fun _ => 4) (fun _ => by omega) (fun _ => 1)
        (fun _ => 1) (ksq θ)
    obtain ⟨_, _, a3⟩ := dimer_solution en hr hP (h1 θ) false
    obtain ⟨_, _, b3⟩ := dimer_solution en hr hP (h1 θ) true
    have hq := (polymerSolve_inv hP (by simp [dimer]) (h1 θ)).2
    rw [h0] at hq
    refine absurd hq (div_ne_zero (div_ne_zero ?_ (n_ne en)) hphi)
    unfold headOf tailOf
    rw [a3, b3]
    exact dimer_Q_ne en w 1 (ksq θ)
  obtain ⟨s, hs, hyes⟩ := h3 θ dk hdk hQ
  have hne : s ≠ s' := by
    rintro rfl
    exact hno hyes
  have hst : ∀ (d : Half N → ℝ) (u : ℝ), polymerStress en true
      (fun _ => realBlock true w 4 1 1 (ksq θ)) (fun _ => 1) dimer P.vertices d (st2 θ) 1 (Q2 θ) 2 =
        some u →
      (exMelt P).stress en true (fun _ => w) (ksq θ) d phiTot o = .ok (u / phiTot) := by
    intro d u hu
    unfold Mixture.stress
    rw [hI.polys, zip_map, runAll_ok (g := fun _ => u) (by
      intro q hq
      simp only [exMelt, List.map_cons, List.map_nil, List.mem_singleton] at hq
      subst hq
      rw [a, b] at hu
      rw [← hp0, hph]
      have : polymerStress en true (p0.blk true (exMelt P).kuhn (fun _ => w) (ksq θ))
          (fun k => (exMelt P).kuhn (p0.mono k)) p0.es p0.poly.vertices d (gp p0).st 1 (gp p0).Q
          p0.total = some u := hu
      simp only [this])]
    simp [okBind, mixtureStress, exMelt]
  refine ⟨_, _, hst _ _ hs, hst _ _ hs', fun hE => hne ?_⟩
  exact (div_left_inj' hphi).1 hE

end Deriv

/-! ## Examples -/

/-- A melt of dimers with a solvent of another type, and the open ensemble for the solvent. -/
noncomputable def exMix (P : Polymer) : Mixture 2 where
  polymers := [⟨dimer, P, fun _ => 0, fun _ => 4, fun _ => 1, 2, ⟨3 / 4, 0, 0, .closed⟩⟩]
  solvents := [⟨1, 1 / 2, ⟨0, -1, 0, .opened⟩⟩]
  kuhn := fun _ => 1

theorem exMix_ok {P : Polymer} (hr : readTopology dimer 2 = some (.ok P)) : (exMix P).Ok true :=
  ⟨fun p hp => by
    simp only [exMix, List.mem_singleton] at hp
    subst hp
    exact ⟨⟨2, hr⟩, by simp [dimer], by simp, fun _ _ => by norm_num, by norm_num, by simp⟩,
  fun s hs => by
    simp only [exMix, List.mem_singleton] at hs
    subst hs
    exact ⟨by norm_num, by simp⟩⟩

/-- Partition functions of the example do not vanish, whatever the fields. -/
theorem exMix_Q {P : Polymer} (hr : readTopology dimer 2 = some (.ok P)) (w : Fin 2 → Fld n ℝ)
    (ksq : Half N → ℝ) {phiTot : ℝ} (hphi : phiTot ≠ 0) {o : MixOut 2 n}
    (ho : (exMix P).compute en true w ksq phiTot = .ok o) :
    ∀ q ∈ o.polys, q.Q ≠ 0 := by
  obtain ⟨o', gp, cs, gs, ho', hI⟩ := (exMix_ok hr).compute en w ksq phiTot
  rw [ho] at ho'
  injection ho' with ho'
  subst ho'
  rw [hI.polys]
  intro q hq
  obtain ⟨p, hm, rfl⟩ := List.mem_map.1 hq
  have hs := (hI.poly p hm).solve
  obtain ⟨fuel, hP⟩ := ((exMix_ok hr).polymers p hm).polyOk en (exMix P).kuhn w ksq
  simp only [exMix, List.mem_singleton] at hm
  subst hm
  have hP2 : PolyOk (dftKin en) true _ dimer 2 P := ⟨hr, hP.adj, hP.thread, hP.beads⟩
  obtain ⟨a1, a2, a3⟩ := dimer_solution en hr hP2 hs false
  obtain ⟨_, _, b3⟩ := dimer_solution en hr hP2 hs true
  have hq := (polymerSolve_inv hP2 (by simp [dimer]) hs).2
  rw [← hq]
  refine div_ne_zero (div_ne_zero ?_ (n_ne en)) hphi
  unfold headOf tailOf
  rw [a3, b3]
  exact dimer_Q_ne en (w 0) 1 ksq

example : ∃ P, readTopology dimer 2 = some (.ok P) ∧ (exMix P).Ok true ∧
    ∀ p ∈ (exMix P).polymers, p.total = ∑ k : Fin p.es.length, p.blockSize true k := by
  obtain ⟨P, hr⟩ : ∃ P, readTopology dimer 2 = some (.ok P) := ⟨_, rfl⟩
  refine ⟨P, hr, exMix_ok hr, fun p hp => ?_⟩
  simp only [exMix, List.mem_singleton] at hp
  subst hp
  show (2 : ℝ) = ∑ k : Fin 1, _
  simp [PolySpec.blockSize]

/-- All hypotheses of `C92_first_law` in fields that change, on any mesh. -/
example (k : Half N → ℝ) (w0 : Fld n ℝ) : ∃ P, readTopology dimer 2 = some (.ok P) ∧
    ∃ o, Curve en (exMix P) (1 / 2) (fun t i y => (if i = 0 then w0 y else 0) + t) (fun _ _ => 1)
      (fun t q => k q * t) k
      (fun t i j => if i = j then 0 else 1 + t) (fun i j => if i = j then 0 else 1)
      (fun _ => none) (fun _ _ => 0) (-8) o := by
  obtain ⟨P, hr⟩ : ∃ P, readTopology dimer 2 = some (.ok P) := ⟨_, rfl⟩
  choose o gp cs gs ho hI using fun t : ℝ => (exMix_ok hr).compute en
    (fun i y => (if i = 0 then w0 y else 0) + t) (fun q => k q * t) (1 / 2)
  have hn : (n : ℝ) ≠ 0 := n_ne en
  refine ⟨P, hr, o, ⟨exMix_ok hr, by norm_num, ?_, ?_, ?_, ?_, ?_, ?_, ho, ?_, ?_⟩⟩
  · intro i y
    simpa using (hasDerivAt_id (-8 : ℝ)).const_add (if i = 0 then w0 y else 0)
  · intro q
    simpa using (hasDerivAt_id (-8 : ℝ)).const_mul (k q)
  · intro i j
    split
    · exact hasDerivAt_const _ _
    · simpa using (hasDerivAt_id (-8 : ℝ)).const_add 1
  · intro i y
    exact hasDerivAt_const _ _
  · intro t i j
    simp [eq_comm]
  · intro i j
    by_cases e : i = j
    · exact Or.inl fun t => by simp [e]
    · right
      simp only [if_neg e]
      norm_num
  · intro q hq
    refine ⟨exMix_Q en hr _ _ (by norm_num) (ho _) q hq, Or.inl ?_⟩
    rw [(hI _).polys] at hq
    obtain ⟨p, hm, rfl⟩ := List.mem_map.1 hq
    rw [closed_phi ((hI _).poly p hm).set]
    · simp only [exMix, List.mem_singleton] at hm
      subst hm
      norm_num
    · simp only [exMix, List.mem_singleton] at hm
      subst hm
      rfl
  · intro q hq
    left
    rw [(hI _).solvs] at hq
    obtain ⟨s, hm, rfl⟩ := List.mem_map.1 hq
    have h1 := ((hI (-8)).solv s hm).set
    simp only [exMix, List.mem_singleton] at hm
    subst hm
    simp only [Species.setQ, Res.ok.injEq] at h1
    rw [← h1]
    simp only [Fin.reduceEq, if_false, zero_add, Finset.sum_const, Finset.card_univ, Fintype.card_fin,
      nsmul_eq_mul]
    rw [mul_div_cancel_left₀ _ hn, show (-(1 / 2) * -8 : ℝ) = 4 by norm_num]
    have a1 : (0 : ℝ) < Real.exp (-1) := Real.exp_pos _
    have a2 : Real.exp (-1) * (Real.exp 4 / (1 / 2)) = Real.exp 3 * 2 := by
      rw [mul_div_assoc', ← Real.exp_add, show (-1 + 4 : ℝ) = 3 by norm_num]
      ring
    rw [a2]
    have := Real.add_one_le_exp (3 : ℝ)
    norm_num
    linarith

/-- All hypotheses of `C92_closed` and `C92_scft` for a homogeneous melt, with wavenumbers that
change. -/
example (k : Half N → ℝ) (hk : ∀ q : Half N, q.1 = 0 → k q = 0) :
    ∃ P, readTopology dimer 2 = some (.ok P) ∧
    ∃ o, Curve en (exMelt P) 1 (fun _ _ _ => 0) (fun _ _ => 0)
      (fun t q => k q * t) k (fun _ _ _ => 0) (fun _ _ => 0) (fun _ => none) (fun _ _ => 0) 1 o ∧
      Scft (fun _ _ => 0) (fun _ _ => 0) none (fun _ => 0) (fun _ => 1) 1 o := by
  obtain ⟨P, hr⟩ : ∃ P, readTopology dimer 2 = some (.ok P) := ⟨_, rfl⟩
  have hok := exMelt_ok hr
  choose o gp cs gs ho hI using fun t : ℝ => hok.compute en (fun _ _ => 0) (fun q => k q * t) 1
  have hn : (n : ℝ) ≠ 0 := n_ne en
  have hfree : ∀ t, ∀ p ∈ (exMelt P).polymers, (gp t p).Q = 1 ∧ ∀ j, j < p.es.length →
      cs t p j = fun _ => 1 := by
    intro t p hm
    obtain ⟨fuel, hP⟩ := (hok.polymers p hm).polyOk en (exMelt P).kuhn (fun _ _ => 0)
      (fun q => k q * t)
    have h1 := free_solution hP (hok.polymers p hm).ne (fun j _ => realBlock_free en true (p.ns j)
      (p.ds j) ((exMelt P).kuhn (p.mono j)) _ (fun q hq => by simp [hk q hq])) hn (by norm_num)
      (gp t p).species.phi 1 p.total _ (by norm_num) (hok.polymers p hm).total _
      ((hI t).poly p hm).solve
    refine ⟨by simpa using h1.1, fun j hj => ?_⟩
    have h2 := h1.2 j hj
    rw [((hI t).poly p hm).block j hj] at h2
    injection h2 with h2
    rw [h2, closed_phi ((hI t).poly p hm).set]
    · simp only [exMelt, List.mem_singleton] at hm
      subst hm
      simp [size, PolySpec.blk, realBlock]
    · simp only [exMelt, List.mem_singleton] at hm
      subst hm
      rfl
  refine ⟨P, hr, o, ⟨hok, by norm_num, ?_, ?_, ?_, ?_, ?_, ?_, ho, ?_, ?_⟩, ⟨?_, ?_⟩⟩
  · exact fun i y => hasDerivAt_const _ _
  · intro q
    simpa using (hasDerivAt_id (1 : ℝ)).const_mul (k q)
  · exact fun i j => hasDerivAt_const _ _
  · exact fun i y => hasDerivAt_const _ _
  · exact fun t i j => rfl
  · exact fun i j => Or.inl fun t => rfl
  · intro q hq
    rw [(hI _).polys] at hq
    obtain ⟨p, hm, rfl⟩ := List.mem_map.1 hq
    refine ⟨by rw [(hfree 1 p hm).1]; norm_num, Or.inl ?_⟩
    rw [closed_phi ((hI _).poly p hm).set]
    · simp only [exMelt, List.mem_singleton] at hm
      subst hm
      norm_num
    · simp only [exMelt, List.mem_singleton] at hm
      subst hm
      rfl
  · intro q hq
    rw [(hI _).solvs] at hq
    simp [exMelt] at hq
  · intro i y
    simp [extField]
  · refine Filter.Eventually.of_forall fun t y => ?_
    simp only [(hI t).c, Finset.univ_unique, Finset.sum_singleton]
    have e : ∀ p ∈ (exMelt P).polymers, (∑ j : Fin p.es.length,
        if (default : Fin 1) = p.mono j then cs t p j y else 0) = 1 := by
      intro p hm
      have h2 := (hfree t p hm).2
      simp only [exMelt, List.mem_singleton] at hm
      subst hm
      rw [Finset.sum_congr rfl (fun j _ => by rw [if_pos (by simp), h2 j j.2])]
      rw [Finset.sum_const, nsmul_eq_mul, mul_one, Finset.card_univ, Fintype.card_fin]
      simp [dimer]
    rw [List.map_congr_left e]
    simp [exMelt]

end Verif.Solver
