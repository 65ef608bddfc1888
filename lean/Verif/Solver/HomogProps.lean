import Verif.Solver.ShiftProps

/-!
# C82: the diffusion equation in homogeneous fields

If the field of every monomer type is constant in space, the partition function of a polymer of
any topology is `exp(-Σ ω_k L_k)` (divided by the accessible fraction `phiTot`), where `ω_k` and
`L_k` are field and length of block `k`, and the concentration of each block is uniform.
-/

set_option autoImplicit false
set_option linter.unusedSectionVars false

namespace Verif.Solver

open Verif.Chem SimpleGraph

section General

variable {K : Type} [Field K] {n : Nat} {κ : Type}

/-- The constant field one. -/
def oneF : Fld n K := fun _ => 1

/-- A block without fields whose Fourier steps leave a constant as it is. -/
structure Free (kin : Kin K n κ) (bead : Bool) (b : Arrays K n κ) : Prop where
  expW : b.expW = oneF
  expW2 : bead = false → b.expW2 = oneF
  k1 : kin b.expKsq oneF = oneF
  k2 : kin b.expKsq2 oneF = oneF

section Blocks

variable {kin : Kin K n κ} {b : Arrays K n κ}

theorem slicesThread_free (h3 : (3 : K) ≠ 0) (h : Free kin false b) :
    ∀ j, slicesThread kin b oneF j = oneF
  | 0 => rfl
  | j + 1 => by
    show stepThread kin b (slicesThread kin b oneF j) = _
    rw [slicesThread_free h3 h j]
    have e : ∀ x : Fld n K, (fun i => x i * oneF (n := n) (K := K) i) = x := by
      intro x; funext i; simp [oneF]
    unfold stepThread
    simp only [h.expW, h.expW2 rfl, e, h.k1, h.k2]
    funext i
    simp only [oneF]
    field_simp
    ring

theorem beads_free (h : Free kin true b) (h2 : b.expW = oneF) (e : Bool) :
    ∀ j, beads kin b e oneF j = oneF
  | 0 => by
    unfold beads
    have : (if e then oneF else stepHalfBondBead kin b oneF) = (oneF : Fld n K) := by
      split
      · rfl
      · exact h.k2
    rw [this]
    unfold stepFieldBead; rw [h2]; funext i; simp [oneF]
  | j + 1 => by
    show stepBead kin b (beads kin b e oneF j) = _
    rw [beads_free h h2 e j]
    unfold stepBead stepFieldBead
    rw [h.k1, h2]; funext i; simp [oneF]

theorem slicesBead_free (h : Free kin true b) (ns : Nat) (e e' : Bool) (j : Nat) :
    slicesBead kin b ns e e' oneF j = oneF := by
  unfold slicesBead
  rw [beads_free h h.expW, beads_free h h.expW]
  split
  · rfl
  · split
    · split
      · rfl
      · exact h.k2
    · rfl

end Blocks

variable {kin : Kin K n κ} {bead : Bool} {blk blk' : Nat → BlockData K n κ} {es : List Edge}
  {fuel : Nat} {P : Polymer} {fac : Nat → K}

theorem solveFrom_free (h3 : (3 : K) ≠ 0) {vs : List Vertex} {p : Pid}
    (h : Free kin bead (blk p.1).arrays) (j : Nat) :
    solveFrom kin bead blk es vs p oneF j = oneF := by
  unfold solveFrom
  cases bead with
  | true => exact slicesBead_free h _ _ _ j
  | false => exact slicesThread_free h3 h j

theorem heads_free {vs : List Vertex} (h3 : (3 : K) ≠ 0) (hv : makeVertices es = .ok vs)
    {plan : List Pid} {st : Pid → Option (Nat → Fld n K)}
    (hd : Done kin bead blk es vs plan st) (hc : ∀ p, p ∈ plan → p.1 < es.length)
    (hf : ∀ k, k < es.length → Free kin bead (blk k).arrays) :
    ∀ (l : List Pid) (l2 : List Pid), plan = l ++ l2 →
    (∀ l1 p l2, plan = l1 ++ p :: l2 → ∀ s ∈ sources es vs p, s ∈ l1) →
    ∀ p ∈ l, headOf st p = oneF := by
  intro l
  induction l using List.reverseRecOn with
  | nil => intro _ _ _ p hp; simp at hp
  | append_singleton l p ih =>
    intro l2 he ho q hq
    have ihl := ih (p :: l2) (by rw [he]; simp) ho
    rw [List.mem_append, List.mem_singleton] at hq
    rcases hq with hq | rfl
    · exact ihl q hq
    · have hm : q ∈ plan := by rw [he]; simp
      have hsl := ho l q l2 (by rw [he]; simp)
      funext i
      rw [headOf_eq hv hd (hc q hm) hm]
      apply List.prod_eq_one
      intro x hx
      obtain ⟨s, hsrc, rfl⟩ := List.mem_map.1 hx
      have hsm : s ∈ plan := by rw [he]; simp [hsl s hsrc]
      rw [tailOf_eq hd hsm, ihl s (hsl s hsrc), solveFrom_free h3 (hf _ (hc s hsm))]
      rfl

/-- Partition function and concentrations for blocks without fields. -/
theorem free_solution (hP : PolyOk kin bead blk es fuel P) (hes : es ≠ [])
    (hf : ∀ k, k < es.length → Free kin bead (blk k).arrays) (hn : (n : K) ≠ 0) (h3 : (3 : K) ≠ 0)
    (phi phiTot total Q : K) (hphi : phiTot ≠ 0) (htot : total ≠ 0)
    (st : Pid → Option (Nat → Fld n K))
    (h : polymerSolve kin bead blk es P.vertices P.plan phiTot = .ok (st, Q)) :
    Q = 1 / phiTot ∧ ∀ k, k < es.length → blockConc bead blk st phi Q total k =
      some (fun _ => phi * phiTot * (size bead (blk k) / total)) := by
  obtain ⟨_, hv, hsch⟩ := plan_facts hP
  obtain ⟨hd, hQd⟩ := polymerSolve_inv hP hes h
  have h0 : 0 < es.length := List.length_pos_iff.2 hes
  have hord : ∀ l1 p l2, P.plan = l1 ++ p :: l2 → ∀ s ∈ sources es P.vertices p, s ∈ l1 := by
    intro l1 p l2 he s hsrc
    have hp : p.1 < es.length := (hsch.complete p).1 (by rw [he]; simp)
    exact hsch.ordered l1 p l2 he s ((mem_sources hv hp).1 hsrc)
  have hheads := heads_free h3 hv hd (fun p hp => (hsch.complete p).1 hp) hf P.plan [] (by simp)
    hord
  have hst : ∀ p : Pid, p.1 < es.length → ∃ q, st p = some q ∧ ∀ j i, q j i = 1 := by
    intro p hp
    have hm := (hsch.complete p).2 hp
    refine ⟨_, st_eq hd hm, fun j i => ?_⟩
    rw [hheads p hm, solveFrom_free h3 (hf _ hp)]
    rfl
  have hQ : Q = 1 / phiTot := by
    rw [← hQd, hheads (0, false) ((hsch.complete _).2 h0),
      tailOf_eq hd ((hsch.complete (0, true)).2 h0), hheads (0, true) ((hsch.complete _).2 h0),
      solveFrom_free h3 (hf _ h0)]
    have : dot (oneF : Fld n K) oneF = n := by simp [dot, oneF]
    rw [this, div_self hn]
  refine ⟨hQ, fun k hk => ?_⟩
  have hQne : Q ≠ 0 := by rw [hQ]; simp [hphi]
  obtain ⟨c, hc1, hc2⟩ := C53_block_conservation hP hes phi phiTot total Q st h hn h3 hQne hphi
    htot k hk
  rw [hc1]
  congr 1
  funext i
  have hconst : ∀ j, c j = c i := by
    obtain ⟨q, e1, e2⟩ := hst (k, false) hk
    obtain ⟨q', e1', e2'⟩ := hst (k, true) hk
    unfold blockConc at hc1
    rw [e1, e1'] at hc1
    simp only [Option.some.injEq] at hc1
    intro j
    rw [← hc1]
    cases hb : bead with
    | false => simp only [Bool.false_eq_true, if_false, concThread, e2, e2']
    | true =>
      have hw := (hP.beads hb k hk).2
      have hinv : ∀ i, (blk k).arrays.expWInv i = 1 := by
        intro i
        have := hw i
        rw [(hf k hk).expW] at this
        simpa [oneF] using this
      simp only [if_true, concBead, e2, e2', hinv]
  rw [← hc2, Finset.sum_congr rfl (fun j _ => hconst j), Finset.sum_const, Finset.card_univ,
    Fintype.card_fin, nsmul_eq_mul, mul_div_cancel_left₀ _ hn]

end General

section Real

variable {m : Nat} {N : Fin (m + 1) → Nat} [∀ d, NeZero (N d)] {n : Nat} (en : Fin n ≃ Grid N)

/-- A multiplier with value one for the zero wave leaves a constant as it is. -/
theorem dftKin_one (f : Half N → ℝ) (hf : ∀ k : Half N, k.1 = 0 → f k = 1) :
    dftKin en f oneF = oneF := by
  funext i
  rw [dftKin_eq]
  simp only [oneF, one_mul]
  rw [← Finset.mul_sum, Finset.sum_comm]
  have e : ∀ k : Grid N, ∑ j, extR f k * (wave k (en i - en j)).re =
      if k = 0 then (n : ℝ) else 0 := by
    intro k
    rw [← Finset.mul_sum]
    have hsum : ∑ j, (wave k (en i - en j)).re = if k = 0 then (n : ℝ) else 0 := by
      have h1 : ∑ j, wave k (en i - en j) = ∑ x : Grid N, wave x k := by
        rw [show ∑ j, wave k (en i - en j) = ∑ y : Grid N, wave k (en i - y) from
          Equiv.sum_comp en (fun y => wave k (en i - y))]
        rw [show ∑ y : Grid N, wave k (en i - y) = ∑ y : Grid N, wave k y from
          Equiv.sum_comp (Equiv.subLeft (en i)) (fun y => wave k y)]
        exact Finset.sum_congr rfl (fun x _ => wave_comm k x)
      have h2 := congrArg Complex.re h1
      rw [Complex.re_sum, sum_wave] at h2
      rw [h2]
      split
      · rw [card_grid en]; simp
      · simp
    rw [hsum]
    split
    · rename_i hk
      subst hk
      have : extR f (0 : Grid N) = 1 := by
        unfold extR
        split
        · exact hf _ rfl
        · exact hf _ (by simp)
      rw [this, one_mul]
    · rw [mul_zero]
  rw [Finset.sum_congr rfl (fun k _ => e k)]
  rw [Finset.sum_ite_eq' Finset.univ (0 : Grid N) (fun _ => (n : ℝ)), if_pos (Finset.mem_univ _)]
  have := n_ne en
  field_simp

theorem realBlock_free (bead : Bool) (ns : Nat) (ds kuhn : ℝ) (ksq : Half N → ℝ)
    (hk : ∀ k : Half N, k.1 = 0 → ksq k = 0) :
    Free (dftKin en) bead (realBlock (n := n) bead (fun _ => 0) ns ds kuhn ksq).arrays := by
  cases bead
  · refine ⟨?_, fun _ => ?_, ?_, ?_⟩
    · funext i; simp [realBlock, threadArrays, oneF]
    · funext i; simp [realBlock, threadArrays, oneF]
    · exact dftKin_one en _ (fun k h => by simp [realBlock, threadArrays, hk k h])
    · exact dftKin_one en _ (fun k h => by simp [realBlock, threadArrays, hk k h])
  · refine ⟨?_, fun h => absurd h (by decide), ?_, ?_⟩
    · funext i; simp [realBlock, beadArrays, oneF]
    · exact dftKin_one en _ (fun k h => by simp [realBlock, beadArrays, hk k h])
    · exact dftKin_one en _ (fun k h => by simp [realBlock, beadArrays, hk k h])

/-- **C82**, polymers: in fields that are constant in space (value `ω k` for the monomer type of
block `k`), for every polymer accepted by the reader, every mesh, numbers of contour points and
segment lengths, thread or bead model, the partition function is `exp(-Σ ω_k L_k) / phiTot` and the
concentration of block `k` is `phi phiTot L_k / L` at every point. -/
theorem C82_polymer (bead : Bool) (es : List Edge) (hes : es ≠ []) (fuel : Nat) (P : Polymer)
    (hr : readTopology es fuel = some (.ok P)) (ω : Nat → ℝ) (ns : Nat → Nat)
    (ds kuhn : Nat → ℝ) (ksq : Half N → ℝ) (hk : ∀ k : Half N, k.1 = 0 → ksq k = 0)
    (hns : ∀ k, if bead then 3 ≤ ns k else ∃ m, 1 ≤ m ∧ ns k = 2 * m + 1) (phi phiTot total : ℝ)
    (hphi : phiTot ≠ 0) (htot : total ≠ 0) :
    let blk := fun k => realBlock (n := n) bead (fun _ => ω k) (ns k) (ds k) (kuhn k) ksq
    ∃ st Q, polymerSolve (dftKin en) bead blk es P.vertices P.plan phiTot = .ok (st, Q) ∧
      Q = Real.exp (-∑ k : Fin es.length, ω k * size bead (blk k)) / phiTot ∧
      ∀ k, k < es.length → blockConc bead blk st phi Q total k =
        some (fun _ => phi * phiTot * (size bead (blk k) / total)) := by
  intro blk
  let blk0 := fun k => realBlock (n := n) bead (fun _ => 0) (ns k) (ds k) (kuhn k) ksq
  have hP : PolyOk (dftKin en) bead blk0 es fuel P := by
    refine ⟨hr, dft_selfAdjoint en, fun hb k _ => ?_, fun hb k _ => ?_⟩
    · have := hns k; rw [hb] at this; show ∃ m, 1 ≤ m ∧ ns k = 2 * m + 1; simpa using this
    · have := hns k; rw [hb] at this
      refine ⟨by show 3 ≤ ns k; simpa using this, fun i => ?_⟩
      subst hb
      simp only [blk0, realBlock, if_true, beadArrays]
      exact mul_one_div_cancel (Real.exp_pos _).ne'
  have hs : ∀ k, k < es.length → Scaled bead
      (if bead then Real.exp (-ω k) else Real.exp (-ω k * ds k)) (blk0 k) (blk k) := by
    intro k _
    have := realBlock_scaled bead (fun _ : Fin n => 0) (ns k) (ds k) (kuhn k) (ω k) ksq
    simp only [zero_add] at this
    exact this
  obtain ⟨st0, Q0, h0⟩ := C53_solve_succeeds hP hes phiTot
  obtain ⟨st, Q, h⟩ := C53_solve_succeeds (hP.scaled
    (fac := fun k => if bead then Real.exp (-ω k) else Real.exp (-ω k * ds k)) hs) hes phiTot
  obtain ⟨f1, f2⟩ := free_solution hP hes
    (fun k _ => realBlock_free en bead (ns k) (ds k) (kuhn k) ksq hk) (n_ne en) (by norm_num)
    phi phiTot total Q0 hphi htot st0 h0
  have hQ0 : Q0 ≠ 0 := by rw [f1]; simp [hphi]
  obtain ⟨g1, g2⟩ := C71_solver_shift hP (dft_homog en) hes
    (fac := fun k => if bead then Real.exp (-ω k) else Real.exp (-ω k * ds k)) hs phi phiTot total
    Q0 Q st0 st h0 h hQ0
  refine ⟨st, Q, h, ?_, fun k hk1 => ?_⟩
  · rw [g1, f1]
    have e : ∀ k : Fin es.length, tot bead (if bead then Real.exp (-ω k) else
        Real.exp (-ω k * ds k)) (blk0 k).ns = Real.exp (-(ω k * size bead (blk0 k))) :=
      fun k => tot_real bead (blk0 k) (ω k)
    rw [Finset.prod_congr rfl (fun k _ => e k), ← Real.exp_sum, Finset.sum_neg_distrib,
      mul_one_div]
    rfl
  · rw [g2 k hk1, f2 k hk1]
    rfl

/-- **C82**, solvents. -/
theorem C82_solvent (ω size phiTot phi : ℝ) (hn : (n : ℝ) ≠ 0) (hphi : phiTot ≠ 0) :
    let r := solventConc (fun _ : Fin n => Real.exp (-size * ω)) phiTot (fun _ => phi)
    r.1 = Real.exp (-(ω * size)) / phiTot ∧ r.2 = fun _ => phi * phiTot := by
  have := (Real.exp_pos (-size * ω)).ne'
  simp only [solventConc, accum_eq, zero_add, Finset.sum_const, Finset.card_univ,
    Fintype.card_fin, nsmul_eq_mul]
  refine ⟨?_, ?_⟩
  · rw [mul_div_cancel_left₀ _ hn]; congr 2; ring
  · funext i; field_simp

end Real

/-- A wave number function that vanishes for the zero wave, on a mesh of four points. -/
example : ∀ k : Half (fun _ : Fin 1 => 4), k.1 = 0 → (((k.1 0).val : ℝ)) = 0 := by
  intro k h
  rw [h]
  simp

end Verif.Solver
