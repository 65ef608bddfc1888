import Verif.Solver.Shift
import Verif.Solver.DftProps
import Verif.Chem.Runtime

/-!
# C71: effect of a constant added to all fields on the solution of the diffusion equation

For every polymer accepted by the reader, adding a constant `a` to the fields of all monomer types
leaves the block concentrations of a closed species unchanged, multiplies the partition function by
`exp(-a L)`, where `L` is the total length (or number of beads), and adds `a L` to the chemical
potential.
-/

set_option autoImplicit false
set_option linter.unusedSectionVars false

namespace Verif.Solver

open Verif.Chem SimpleGraph

section General

variable {K : Type} [Field K] {n : Nat} {κ : Type}

theorem loop2_scaled (F : K) (f f' : Nat → K) (stop : Nat) : ∀ (m j : Nat) (acc : K),
    stop ≤ j + m → (∀ i, i < stop → f' i = F * f i) →
    loop2 f' j stop (F * acc) = F * loop2 f j stop acc
  | 0, j, acc, h, _ => by
    rw [loop2, if_neg (by omega), loop2, if_neg (by omega)]
  | m + 1, j, acc, h, hf => by
    by_cases hj : j < stop
    · rw [loop2, if_pos hj]
      conv_rhs => rw [loop2, if_pos hj]
      rw [hf j hj, ← mul_add]
      exact loop2_scaled F f f' stop m (j + 2) _ (by omega) hf
    · rw [loop2, if_neg hj, loop2, if_neg hj]

theorem concThread_scaled (ns : Nat) (hns : 2 ≤ ns) (ds pre pre' F : K)
    (q0 q1 q0' q1' : Nat → Fld n K)
    (h : ∀ j, j ≤ ns - 1 → ∀ i, q0' j i * q1' (ns - 1 - j) i = F * (q0 j i * q1 (ns - 1 - j) i))
    (hpre : pre' * F = pre) : concThread ns ds pre' q0' q1' = concThread ns ds pre q0 q1 := by
  funext i
  unfold concThread
  simp only
  have h0 := h 0 (by omega) i
  have h1 := h (ns - 1) (le_refl _) i
  rw [Nat.sub_zero] at h0
  rw [Nat.sub_self] at h1
  rw [show (0 : K) + q0' 0 i * q1' (ns - 1) i + q0' (ns - 1) i * q1' 0 i =
    F * (0 + q0 0 i * q1 (ns - 1) i + q0 (ns - 1) i * q1 0 i) by rw [h0, h1]; ring]
  rw [loop2_scaled F (fun j => q0 j i * q1 (ns - 1 - j) i * 4)
      (fun j => q0' j i * q1' (ns - 1 - j) i * 4) (ns - 1) (ns - 1) 1 _ (by omega)
      (fun j hj => by rw [h j (by omega) i]; ring),
    loop2_scaled F (fun j => q0 j i * q1 (ns - 1 - j) i * 2)
      (fun j => q0' j i * q1' (ns - 1 - j) i * 2) (ns - 2) (ns - 2) 2 _ (by omega)
      (fun j hj => by rw [h j (by omega) i]; ring)]
  rw [← hpre]
  ring

theorem concBead_scaled (b b' : Arrays K n κ) (ns : Nat) (pre pre' F : K)
    (q0 q1 q0' q1' : Nat → Fld n K)
    (h : ∀ j, 1 ≤ j → j ≤ ns - 2 → ∀ i, q0' j i * q1' (ns - 1 - j) i * b'.expWInv i =
      F * (q0 j i * q1 (ns - 1 - j) i * b.expWInv i))
    (hpre : pre' * F = pre) : concBead b' ns pre' q0' q1' = concBead b ns pre q0 q1 := by
  funext i
  unfold concBead
  simp only [accum_eq, zero_add]
  rw [Finset.sum_congr rfl (fun (k : Fin (ns - 2)) _ => h (k + 1) (by omega)
    (by have := k.2; omega) i), ← Finset.mul_sum, ← hpre]
  ring

variable {kin : Kin K n κ} {bead : Bool} {blk blk' : Nat → BlockData K n κ} {es : List Edge}
  {fuel : Nat} {P : Polymer} {fac : Nat → K}

theorem PolyOk.scaled (hP : PolyOk kin bead blk es fuel P)
    (hs : ∀ k, k < es.length → Scaled bead (fac k) (blk k) (blk' k)) :
    PolyOk kin bead blk' es fuel P := by
  refine ⟨hP.read, hP.adj, fun hb k hk => ?_, fun hb k hk => ?_⟩
  · rw [(hs k hk).ns]; exact hP.thread hb k hk
  · have h1 := hP.beads hb k hk
    rw [(hs k hk).ns]
    refine ⟨h1.1, fun i => ?_⟩
    obtain ⟨e1, e2⟩ := (hs k hk).bead hb
    rw [e1, e2]
    simp only [scl]
    rw [mul_mul_mul_comm, h1.2, mul_inv_cancel₀ (hs k hk).ne, mul_one]

theorem polymerSolve_inv (hP : PolyOk kin bead blk es fuel P) (hes : es ≠ [])
    {phiTot Q : K} {st : Pid → Option (Nat → Fld n K)}
    (h : polymerSolve kin bead blk es P.vertices P.plan phiTot = .ok (st, Q)) :
    Done kin bead blk es P.vertices P.plan st ∧
      dot (headOf st (0, false)) (tailOf blk st (0, true)) / (n : K) / phiTot = Q := by
  unfold polymerSolve at h
  rw [Res.bind_eq_ok] at h
  obtain ⟨st', hst, h⟩ := h
  have hd := done_of_solve hP hst
  have h0 : 0 < es.length := List.length_pos_iff.2 hes
  have hq0 := queryQ_eq hP hd (p := (0, false)) h0
  unfold queryQ at hq0
  simp only [Bool.not_false] at hq0
  split at h
  · rename_i q q' e1 e2
    rw [e1, e2] at hq0
    simp only [Option.some.injEq] at hq0
    simp only [Res.ok.injEq, Prod.mk.injEq] at h
    obtain ⟨h1, h2⟩ := h
    subst h1
    exact ⟨hd, by rw [← hq0]; exact h2⟩
  · cases h

/-- **C71**, solver: if the field weights of every block are multiplied by constants (the effect
of adding a constant to the fields), the partition function is multiplied by the product of the
factors of all blocks, and the concentration of every block is unchanged. Holds for every block
graph accepted by the reader. -/
theorem C71_solver_shift (hP : PolyOk kin bead blk es fuel P) (hk : Homog kin) (hes : es ≠ [])
    (hs : ∀ k, k < es.length → Scaled bead (fac k) (blk k) (blk' k))
    (phi phiTot total Q Q' : K) (st st' : Pid → Option (Nat → Fld n K))
    (h : polymerSolve kin bead blk es P.vertices P.plan phiTot = .ok (st, Q))
    (h' : polymerSolve kin bead blk' es P.vertices P.plan phiTot = .ok (st', Q'))
    (hQ : Q ≠ 0) :
    Q' = (∏ k : Fin es.length, tot bead (fac k) (blk k).ns) * Q ∧
    ∀ k, k < es.length →
      blockConc bead blk' st' phi Q' total k = blockConc bead blk st phi Q total k := by
  have hP' := hP.scaled hs
  obtain ⟨_, hv, hsch⟩ := plan_facts hP
  have htree := C10_accepted_is_tree_partial es fuel P hP.read
  obtain ⟨hd, hQd⟩ := polymerSolve_inv hP hes h
  obtain ⟨hd', hQd'⟩ := polymerSolve_inv hP' hes h'
  have h0 : 0 < es.length := List.length_pos_iff.2 hes
  have hns : bead = true → ∀ k, k < es.length → 3 ≤ (blk k).ns :=
    fun hb k hk => (hP.beads hb k hk).1
  have hns2 : ∀ k, k < es.length → 2 ≤ (blk k).ns := by
    intro k hk
    cases hb : bead with
    | false => obtain ⟨m, h1, h2⟩ := hP.thread hb k hk; omega
    | true => have := hns hb k hk; omega
  have hord : ∀ l1 p l2, P.plan = l1 ++ p :: l2 → ∀ s ∈ sources es P.vertices p, s ∈ l1 := by
    intro l1 p l2 he s hsrc
    have hp : p.1 < es.length := (hsch.complete p).1 (by rw [he]; simp)
    exact hsch.ordered l1 p l2 he s ((mem_sources hv hp).1 hsrc)
  -- factors for blocks of the polymer, one elsewhere
  set T : Nat → K := fun k => if k < es.length then tot bead (fac k) (blk k).ns else 1 with hT
  have hTne : ∀ k, T k ≠ 0 := by
    intro k
    simp only [hT]
    split
    · rename_i hk; exact tot_ne (hs k hk).ne _
    · exact one_ne_zero
  obtain ⟨g, hgne, hg⟩ := exists_heads (es := es) (vs := P.vertices) (fun p => T p.1)
    (fun p => hTne p.1) P.plan hsch.nodup hord
  have hTp : ∀ p : Pid, p.1 < es.length → T p.1 = pTot bead blk fac p := by
    intro p hp; simp only [hT, if_pos hp]; rfl
  have hg' : ∀ p ∈ P.plan, g p = ((sources es P.vertices p).map
      (fun s => g s * pTot bead blk fac s)).prod := by
    intro p hp
    rw [hg p hp]
    congr 1
    apply List.map_congr_left
    intro s hsrc
    have : s.1 < es.length := (hsch.complete s).1 (hd.src p hp s hsrc)
    rw [hTp s this]
  have hheads := heads_scaled hv hk hd hd' (fun p hp => (hsch.complete p).1 hp) hs hns g hg'
    P.plan [] (by simp) hord
  have hhead : ∀ p : Pid, p.1 < es.length → headOf st' p = scl (g p) (headOf st p) :=
    fun p hp => hheads p ((hsch.complete p).2 hp)
  have htail : ∀ p : Pid, p.1 < es.length →
      tailOf blk' st' p = scl (g p * T p.1) (tailOf blk st p) := by
    intro p hp
    rw [hTp p hp]
    exact tail_scaled hk hd hd' ((hsch.complete p).2 hp) (hs _ hp) (fun hb => hns hb _ hp)
      (hhead p hp)
  have hdot : ∀ p : Pid, p.1 < es.length →
      dot (headOf st' p) (tailOf blk' st' (p.1, !p.2)) =
      g p * (g (p.1, !p.2) * T p.1) * dot (headOf st p) (tailOf blk st (p.1, !p.2)) := by
    intro p hp
    rw [hhead p hp, htail (p.1, !p.2) hp]
    unfold dot scl
    rw [Finset.mul_sum]
    exact Finset.sum_congr rfl (fun i _ => by ring)
  have hD0 : dot (headOf st (0, false)) (tailOf blk st (0, true)) ≠ 0 := by
    intro e; rw [e] at hQd; simp at hQd; exact hQ hQd.symm
  set G := g (0, false) * (g (0, true) * T 0) with hGdef
  have hGne : G ≠ 0 := mul_ne_zero (hgne _) (mul_ne_zero (hgne _) (hTne _))
  have hall : ∀ p : Pid, p.1 < es.length → g p * (g (p.1, !p.2) * T p.1) = G := by
    intro p hp
    have a1 := all_sums hP hv hd hsch.complete p (0, false) hp h0
    have a2 := all_sums hP' hv hd' hsch.complete p (0, false) hp h0
    rw [hdot p hp, hdot (0, false) h0, a1] at a2
    exact mul_right_cancel₀ hD0 a2
  have hG := euler hv htree hes T g G hGne (fun p hp => hg p ((hsch.complete p).2 hp)) hall
  have hGt : G = ∏ k : Fin es.length, tot bead (fac k) (blk k).ns := by
    rw [hG]
    apply Finset.prod_congr rfl
    intro k _
    simp only [hT, if_pos k.2]
  have hQ' : Q' = G * Q := by
    have := hdot (0, false) h0
    simp only [Bool.not_false] at this
    rw [← hQd', ← hQd, this]
    ring
  refine ⟨by rw [hQ', hGt], fun k hk1 => ?_⟩
  unfold blockConc
  rw [st_eq hd ((hsch.complete (k, false)).2 hk1), st_eq hd ((hsch.complete (k, true)).2 hk1),
    st_eq hd' ((hsch.complete (k, false)).2 hk1), st_eq hd' ((hsch.complete (k, true)).2 hk1)]
  simp only [Option.some.injEq]
  have hpre : phi / (Q' * total) * G = phi / (Q * total) := by
    rw [hQ']
    by_cases ht : total = 0
    · simp [ht]
    · field_simp
  have hsl : ∀ d j, solveFrom kin bead blk' es P.vertices (k, d) (headOf st' (k, d)) j =
      scl (g (k, d) * sliceFac bead (fac k) (blk k).ns j)
        (solveFrom kin bead blk es P.vertices (k, d) (headOf st (k, d)) j) := by
    intro d j
    rw [hhead (k, d) hk1, solveFrom_scaled hk (hs k hk1) (fun hb => hns hb k hk1)]
  have hGk := hall (k, false) hk1
  simp only [Bool.not_false, hT, if_pos hk1] at hGk
  have hnk := (hs k hk1).ns
  cases hb : bead with
  | false =>
    subst hb
    simp only [Bool.false_eq_true, if_false]
    rw [hnk, (hs k hk1).ds]
    refine concThread_scaled (blk k).ns (hns2 k hk1) _ _ _ G _ _ _ _ (fun j hj i => ?_) hpre
    rw [hsl false j, hsl true ((blk k).ns - 1 - j), ← hGk]
    simp only [scl, sliceFac, tot, Bool.false_eq_true, if_false]
    rw [show (fac k) ^ ((blk k).ns - 1) = fac k ^ j * fac k ^ ((blk k).ns - 1 - j) by
      rw [← pow_add]; congr 1; omega]
    ring
  | true =>
    subst hb
    simp only [if_true]
    rw [hnk]
    have h3 := hns rfl k hk1
    refine concBead_scaled _ _ (blk k).ns _ _ G _ _ _ _ (fun j hj1 hj i => ?_) hpre
    rw [hsl false j, hsl true ((blk k).ns - 1 - j), ← hGk, ((hs k hk1).bead rfl).2]
    simp only [scl, sliceFac, tot, if_true]
    rw [if_neg (show ¬ j = 0 by omega), if_neg (show ¬ j = (blk k).ns - 1 by omega),
      if_neg (show ¬ (blk k).ns - 1 - j = 0 by omega),
      if_neg (show ¬ (blk k).ns - 1 - j = (blk k).ns - 1 by omega)]
    have hf := (hs k hk1).ne
    have e : fac k ^ j * fac k ^ ((blk k).ns - 1 - j) * (fac k)⁻¹ = fac k ^ ((blk k).ns - 2) := by
      rw [← pow_add, show j + ((blk k).ns - 1 - j) = ((blk k).ns - 2) + 1 by omega, pow_succ,
        mul_assoc, mul_inv_cancel₀ hf, mul_one]
    rw [← e]
    ring

end General

/-! ## The solver of the code -/

section Real

variable {m : Nat} {N : Fin (m + 1) → Nat} [∀ d, NeZero (N d)] {n : Nat} (en : Fin n ≃ Grid N)

theorem dft_homog : Homog (dftKin en) := by
  intro f a x
  funext i
  show _ = a * dftKin en f x i
  rw [dftKin_eq, dftKin_eq, Finset.mul_sum]
  apply Finset.sum_congr rfl
  intro j _
  simp only [scl]
  ring

/-- Adding a constant to the field of a block multiplies its weights by constants. -/
theorem realBlock_scaled (bead : Bool) (w : Fld n ℝ) (ns : Nat) (ds kuhn a : ℝ)
    (ksq : Half N → ℝ) :
    Scaled bead (if bead then Real.exp (-a) else Real.exp (-a * ds))
      (realBlock bead w ns ds kuhn ksq) (realBlock bead (fun i => w i + a) ns ds kuhn ksq) := by
  refine ⟨by split <;> exact (Real.exp_pos _).ne', rfl, rfl, ?_, ?_, ?_, ?_⟩
  · cases bead <;> rfl
  · cases bead <;> rfl
  · rintro rfl
    refine ⟨Real.exp (-(a * ds) / 4), ?_, ?_, ?_⟩
    · rw [← Real.exp_nat_mul]; simp only [Bool.false_eq_true, if_false]; congr 1; push_cast; ring
    · funext i
      simp only [realBlock, threadArrays, scl, Bool.false_eq_true, if_false]
      rw [← Real.exp_nat_mul, ← Real.exp_add]; congr 1; push_cast; ring
    · funext i
      simp only [realBlock, threadArrays, scl, Bool.false_eq_true, if_false]
      rw [← Real.exp_add]; congr 1; ring
  · rintro rfl
    refine ⟨?_, ?_⟩
    · funext i
      simp only [realBlock, beadArrays, scl, if_true]
      rw [← Real.exp_add]; congr 1; ring
    · funext i
      simp only [realBlock, beadArrays, scl, if_true]
      rw [one_div, one_div, ← mul_inv, ← Real.exp_add]; congr 2; ring

theorem tot_real (bead : Bool) (b : BlockData ℝ n (Half N)) (a : ℝ) :
    tot bead (if bead then Real.exp (-a) else Real.exp (-a * b.ds)) b.ns =
      Real.exp (-(a * size bead b)) := by
  unfold tot size
  cases bead
  · simp only [Bool.false_eq_true, if_false]
    rw [← Real.exp_nat_mul]; congr 1; ring
  · simp only [if_true]
    rw [← Real.exp_nat_mul]; congr 1; ring

/-- **C71**, polymers: a constant `a` is added to the fields of all monomer types. For every
polymer accepted by the reader, every mesh, fields, segment lengths and wave lengths, thread or bead
model: both solutions exist; the partition function is multiplied by `exp(-a L)`, where `L` is
the sum of the block lengths (numbers of beads); the chemical potential that `setQ` computes for a
closed species grows by `a L`, and all block concentrations are unchanged. -/
theorem C71_polymer_shift (bead : Bool) (es : List Edge) (hes : es ≠ []) (fuel : Nat) (P : Polymer)
    (hr : readTopology es fuel = some (.ok P)) (w : Nat → Fld n ℝ) (a : ℝ) (ns : Nat → Nat)
    (ds kuhn : Nat → ℝ) (ksq : Half N → ℝ)
    (hns : ∀ k, if bead then 3 ≤ ns k else ∃ m, 1 ≤ m ∧ ns k = 2 * m + 1) (phiTot total : ℝ) :
    let blk := fun k => realBlock bead (w k) (ns k) (ds k) (kuhn k) ksq
    let blk' := fun k => realBlock bead (fun i => w k i + a) (ns k) (ds k) (kuhn k) ksq
    let L := ∑ k : Fin es.length, size bead (blk k)
    ∃ st Q st' Q',
      polymerSolve (dftKin en) bead blk es P.vertices P.plan phiTot = .ok (st, Q) ∧
      polymerSolve (dftKin en) bead blk' es P.vertices P.plan phiTot = .ok (st', Q') ∧
      (0 < Q → Q' = Real.exp (-(a * L)) * Q ∧
        (∀ phi k, k < es.length →
          blockConc bead blk' st' phi Q' total k = blockConc bead blk st phi Q total k) ∧
        (∀ s r r' : Species, s.ens = .closed → 0 < s.phi → s.setQ Q = .ok r →
          s.setQ Q' = .ok r' → r'.phi = r.phi ∧ r'.mu = r.mu + a * L) ∧
        (∀ s r r' : Species, s.ens = .opened → s.setQ Q = .ok r →
          { s with mu := s.mu + a * L }.setQ Q' = .ok r' → r'.phi = r.phi)) := by
  intro blk blk' L
  have hP : PolyOk (dftKin en) bead blk es fuel P := by
    refine ⟨hr, dft_selfAdjoint en, fun hb k _ => ?_, fun hb k _ => ?_⟩
    · have := hns k; rw [hb] at this; show ∃ m, 1 ≤ m ∧ ns k = 2 * m + 1; simpa using this
    · have := hns k; rw [hb] at this
      refine ⟨by show 3 ≤ ns k; simpa using this, fun i => ?_⟩
      subst hb
      simp only [blk, realBlock, if_true, beadArrays]
      exact mul_one_div_cancel (Real.exp_pos _).ne'
  have hs : ∀ k, k < es.length →
      Scaled bead (if bead then Real.exp (-a) else Real.exp (-a * ds k)) (blk k) (blk' k) :=
    fun k _ => realBlock_scaled bead (w k) (ns k) (ds k) (kuhn k) a ksq
  obtain ⟨st, Q, h⟩ := C53_solve_succeeds hP hes phiTot
  obtain ⟨st', Q', h'⟩ := C53_solve_succeeds
    (hP.scaled (fac := fun k => if bead then Real.exp (-a) else Real.exp (-a * ds k)) hs) hes phiTot
  refine ⟨st, Q, st', Q', h, h', fun hQ => ?_⟩
  have main := fun phi => C71_solver_shift hP (dft_homog en) hes
    (fac := fun k => if bead then Real.exp (-a) else Real.exp (-a * ds k)) hs phi phiTot total
    Q Q' st st' h h' hQ.ne'
  have hQ' : Q' = Real.exp (-(a * L)) * Q := by
    rw [(main 0).1]
    congr 1
    have e : ∀ k : Fin es.length, tot bead (if bead then Real.exp (-a) else Real.exp (-a * ds k))
        (blk k).ns = Real.exp (-(a * size bead (blk k))) := fun k => tot_real bead (blk k) a
    rw [Finset.prod_congr rfl (fun k _ => e k), ← Real.exp_sum, Finset.sum_neg_distrib, ← Finset.mul_sum]
  refine ⟨hQ', fun phi => (main phi).2, ?_, ?_⟩
  · intro s r r' he hp h1 h2
    unfold Species.setQ at h1 h2
    rw [he] at h1 h2
    cases h1; cases h2
    refine ⟨rfl, ?_⟩
    simp only
    rw [hQ', div_mul_eq_div_div_swap, Real.log_div (by positivity) (Real.exp_pos _).ne',
      Real.log_exp]
    ring
  · intro s r r' he h1 h2
    unfold Species.setQ at h1 h2
    simp only at h2
    rw [he] at h1 h2
    cases h1; cases h2
    simp only
    rw [hQ', ← mul_assoc, ← Real.exp_add]
    congr 2
    ring

/-- **C71**, solvents: adding `a` to the field of a solvent of size `s` multiplies its partition
function by `exp(-a s)` and leaves the concentration of a closed species unchanged. -/
theorem C71_solvent_shift (w : Fld n ℝ) (size a phiTot phi : ℝ) :
    let r := solventConc (fun i => Real.exp (-size * w i)) phiTot (fun _ => phi)
    let r' := solventConc (fun i => Real.exp (-size * (w i + a))) phiTot (fun _ => phi)
    r'.1 = Real.exp (-(a * size)) * r.1 ∧ r'.2 = r.2 := by
  have e : ∀ i, Real.exp (-size * (w i + a)) = Real.exp (-(a * size)) * Real.exp (-size * w i) := by
    intro i; rw [← Real.exp_add]; congr 1; ring
  have hq : (∑ i, Real.exp (-size * (w i + a))) =
      Real.exp (-(a * size)) * ∑ i, Real.exp (-size * w i) := by
    rw [Finset.mul_sum]; exact Finset.sum_congr rfl (fun i _ => e i)
  simp only [solventConc, accum_eq, zero_add, hq]
  refine ⟨by ring, ?_⟩
  funext i
  rw [e, mul_div_assoc, mul_div_assoc]
  have := (Real.exp_pos (-(a * size))).ne'
  field_simp

end Real

/-- A three-arm star accepted by the reader, on a mesh of four points. -/
example : ∃ P, readTopology exEdges 6 = some (.ok P) ∧ exEdges ≠ [] ∧
    (∀ k, if false then 3 ≤ 2 * k + 3 else ∃ m, 1 ≤ m ∧ 2 * k + 3 = 2 * m + 1) := by
  obtain ⟨P, hP⟩ := exRead
  refine ⟨P, hP, by simp [exEdges], fun k => ?_⟩
  simp only [Bool.false_eq_true, if_false]
  exact ⟨k + 1, by omega, by ring⟩

end Verif.Solver
