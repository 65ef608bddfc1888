import Verif.Solver.Lemmas
import Mathlib.Algebra.BigOperators.Group.Finset.Basic

/-!
# C53, C54, C55: material conservation and partition functions

The theorems hold for every block graph accepted by the reader (`readTopology`), every field
and every number of contour points. The only contract used is that FFT, multiplication by a real
array and inverse FFT is a symmetric operator (`SelfAdjoint`, proved for the discrete Fourier
transform in `Verif.Solver.DftProps`).
-/

set_option autoImplicit false
set_option linter.unusedSectionVars false

namespace Verif.Solver

open Verif.Chem SimpleGraph

variable {K : Type} [Field K] {n : Nat} {κ : Type}

/-- The data of a polymer accepted by the reader and of its blocks. -/
structure PolyOk (kin : Kin K n κ) (bead : Bool) (blk : Nat → BlockData K n κ) (es : List Edge)
    (fuel : Nat) (P : Polymer) : Prop where
  read : readTopology es fuel = some (.ok P)
  adj : SelfAdjoint kin
  /-- thread: odd number of contour points, at least 3 (C52). -/
  thread : bead = false → ∀ k, k < es.length → ∃ m, 1 ≤ m ∧ (blk k).ns = 2 * m + 1
  /-- bead: at least one bead, and `expWInv` is the reciprocal of `expW`. -/
  beads : bead = true → ∀ k, k < es.length → 3 ≤ (blk k).ns ∧
    ∀ i, (blk k).arrays.expW i * (blk k).arrays.expWInv i = 1

section Graph

variable {kin : Kin K n κ} {bead : Bool} {blk : Nat → BlockData K n κ} {es : List Edge}
  {vs : List Vertex}

theorem partner_mem (hv : makeVertices es = .ok vs) {p : Pid} (hp : p.1 < es.length) :
    (p.1, !p.2) ∈ inIds vs (src es p) := by
  have hs := (makeVertices_inv hv).1.srcRange hp
  rw [mem_inIds hv hs.1 hs.2]
  exact ⟨hp, by simp [dst, src]⟩

/-- Only the partner enters the head vertex of `p` through the block of `p`. -/
theorem eq_partner (hv : makeVertices es = .ok vs) {p s : Pid} (hp : p.1 < es.length)
    (hs : s ∈ inIds vs (src es p)) (hb : s.1 = p.1) : s = (p.1, !p.2) := by
  have hwf := (makeVertices_inv hv).1
  have hr := hwf.srcRange hp
  rw [mem_inIds hv hr.1 hr.2] at hs
  obtain ⟨_, hd⟩ := hs
  have he : edge es p.1 ∈ es := by
    unfold Chem.edge
    rw [show es.getD p.1 (0, 0) = es[p.1] by simp [List.getD, hp]]
    exact List.getElem_mem hp
  have hne := (hwf _ he).2.2.2.2
  obtain ⟨b, d⟩ := p
  obtain ⟨b', d'⟩ := s
  simp only at hb hd he hne ⊢
  subst hb
  cases d <;> cases d' <;> simp_all [dst, src, vid]

/-- The product over all propagators entering the head vertex splits off the partner. -/
theorem prod_sources (hv : makeVertices es = .ok vs) {p : Pid} (hp : p.1 < es.length)
    (f : Pid → K) :
    ((sources es vs p).map f).prod * f (p.1, !p.2) = ((inIds vs (src es p)).map f).prod := by
  classical
  have hm := partner_mem hv hp
  have hnd := nodup_inIds hv (src es p)
  have e1 : sources es vs p = (inIds vs (src es p)).erase (p.1, !p.2) := by
    unfold sources
    rw [show vid (edge es p.1) p.2 = src es p from rfl, hnd.erase_eq_filter]
    apply List.filter_congr
    intro s hs
    by_cases h : s.1 = p.1
    · have := eq_partner hv hp hs h
      simp [this]
    · have : s ≠ (p.1, !p.2) := fun e => h (by rw [e])
      simp [h, this]
  rw [e1, mul_comm, ← List.prod_cons, ← List.map_cons]
  exact ((List.perm_cons_erase hm).symm.map f).prod_eq

theorem headEnd_sources (hv : makeVertices es = .ok vs) {p : Pid} (hp : p.1 < es.length)
    (he : headEnd es vs p = true) : sources es vs p = [] := by
  classical
  have hm := partner_mem hv hp
  have hl : (inIds vs (src es p)).length = 1 := by simpa [headEnd, src] using he
  obtain ⟨a, ha⟩ := List.length_eq_one_iff.1 hl
  rw [ha, List.mem_singleton] at hm
  unfold sources
  rw [show vid (edge es p.1) p.2 = src es p from rfl, ha, ← hm]
  simp

theorem tailEnd_partner (p : Pid) : tailEnd es vs (p.1, !p.2) = headEnd es vs p := by
  simp [tailEnd, headEnd]

theorem headEnd_partner (p : Pid) : headEnd es vs (p.1, !p.2) = tailEnd es vs p := rfl

variable {plan : List Pid} {st : Pid → Option (Nat → Fld n K)}

/-- The first slice of a solved propagator. -/
def headOf (st : Pid → Option (Nat → Fld n K)) (s : Pid) : Fld n K :=
  match st s with
  | some q => q 0
  | none => fun _ => 0

theorem solveFrom_zero (p : Pid) (h : Fld n K) : solveFrom kin bead blk es vs p h 0 = h := by
  unfold solveFrom
  split
  · exact slicesBead_zero _ _ _ _ _
  · rfl

/-- Head of a solved propagator: product of the tails of its sources. -/
theorem headOf_eq (hv : makeVertices es = .ok vs)
    (hd : Done kin bead blk es vs plan st) {p : Pid} (hp : p.1 < es.length) (hm : p ∈ plan)
    (i : Fin n) : headOf st p i = ((sources es vs p).map (fun s => tailOf blk st s i)).prod := by
  obtain ⟨h, h1, h2⟩ := hd.eqn p hm
  unfold headOf
  rw [h2]
  simp only
  rw [solveFrom_zero]
  unfold computeHead at h1
  split at h1
  · rename_i he
    rw [headEnd_sources hv hp he]
    cases h1; simp
  · have e := foldHead_eq (blk := blk) st (sources es vs p) (fun _ => 1)
      (fun s hs => (hd.iff s).2 (hd.src p hm s hs))
    have h1 := e.symm.trans h1
    cases h1; simp

/-- Sum over the grid of head times tail of the partner: depends only on the head vertex. -/
theorem vertex_sum (hv : makeVertices es = .ok vs)
    (hd : Done kin bead blk es vs plan st) {p : Pid} (hp : p.1 < es.length) (hm : p ∈ plan) :
    dot (headOf st p) (tailOf blk st (p.1, !p.2)) =
      ∑ i, ((inIds vs (src es p)).map (fun s => tailOf blk st s i)).prod := by
  unfold dot
  apply Finset.sum_congr rfl
  intro i _
  rw [headOf_eq hv hd hp hm, prod_sources hv hp (fun s => tailOf blk st s i)]

/-- Forward and reverse propagators of a block give the same sum. -/
theorem block_sum {fuel : Nat} {P : Polymer} (hP : PolyOk kin bead blk es fuel P)
    (hd : Done kin bead blk es vs plan st) {p : Pid} (hp : p.1 < es.length) (hm : p ∈ plan)
    (hm' : (p.1, !p.2) ∈ plan) :
    dot (headOf st p) (tailOf blk st (p.1, !p.2)) =
      dot (headOf st (p.1, !p.2)) (tailOf blk st p) := by
  obtain ⟨h, _, h2⟩ := hd.eqn p hm
  obtain ⟨h', _, h2'⟩ := hd.eqn _ hm'
  unfold headOf tailOf
  rw [h2, h2']
  simp only
  rw [solveFrom_zero, solveFrom_zero]
  unfold solveFrom
  cases hb : bead with
  | false =>
    obtain ⟨m, _, hns⟩ := hP.thread hb p.1 hp
    simp only [Bool.false_eq_true, if_false]
    rw [← thread_const hP.adj _ h h' ((blk p.1).ns - 1) ((blk p.1).ns - 1) (le_refl _),
      Nat.sub_self, dot_comm]
    rfl
  | true =>
    obtain ⟨hns, hw⟩ := hP.beads hb p.1 hp
    simp only [if_true]
    rw [tailEnd_partner, headEnd_partner]
    have a1 := bead_const hP.adj _ hw _ hns (headEnd es vs p) (tailEnd es vs p) h h' 0 (by omega)
    have a2 := bead_const hP.adj _ hw _ hns (tailEnd es vs p) (headEnd es vs p) h' h
      ((blk p.1).ns - 3) (by omega)
    rw [← a1, ← a2]
    rw [show (blk p.1).ns - 1 - ((blk p.1).ns - 3 + 1) = 0 + 1 by omega,
      show (blk p.1).ns - 1 - (0 + 1) = (blk p.1).ns - 3 + 1 by omega, ← dot_mulF, dot_comm]

/-- On a connected block graph all these sums agree. -/
theorem all_sums {fuel : Nat} {P : Polymer} (hP : PolyOk kin bead blk es fuel P)
    (hv : makeVertices es = .ok vs) (hd : Done kin bead blk es vs plan st)
    (hc : ∀ p, p ∈ plan ↔ p.1 < es.length) (p p' : Pid) (hp : p.1 < es.length)
    (hp' : p'.1 < es.length) :
    dot (headOf st p) (tailOf blk st (p.1, !p.2)) =
      dot (headOf st p') (tailOf blk st (p'.1, !p'.2)) := by
  have htree := C10_accepted_is_tree_partial es fuel P hP.read
  have hwf := (makeVertices_inv hv).1
  set V : Int → K := fun v => ∑ i, ((inIds vs v).map (fun s => tailOf blk st s i)).prod with hV
  have hpV : ∀ q : Pid, q.1 < es.length →
      dot (headOf st q) (tailOf blk st (q.1, !q.2)) = V (src es q) := fun q hq =>
    vertex_sum hv hd hq ((hc q).2 hq)
  have hends : ∀ b : Nat, b < es.length → V (edge es b).1 = V (edge es b).2 := by
    intro b hb
    have h1 := hpV (b, false) hb
    have h2 := hpV (b, true) hb
    have h3 := block_sum hP hd (p := (b, false)) hb ((hc _).2 hb) ((hc _).2 hb)
    have e1 : src es (b, false) = (edge es b).1 := rfl
    have e2 : src es (b, true) = (edge es b).2 := rfl
    rw [e1] at h1; rw [e2] at h2
    rw [← h1, ← h2, h3]
    rfl
  have hadj : ∀ u w : Fin (es.length + 1), (blockGraph es).Adj u w →
      V ((u : Nat) : Int) = V ((w : Nat) : Int) := by
    intro u w ⟨_, h⟩
    rcases h with h | h
    all_goals
      obtain ⟨b, hb, hbe⟩ := List.mem_iff_getElem.1 h
      have := hends b hb
      unfold Chem.edge at this
      rw [show es.getD b (0, 0) = es[b] by simp [List.getD, hb], hbe] at this
      first | exact this | exact this.symm
  have hreach : ∀ u w : Fin (es.length + 1), V ((u : Nat) : Int) = V ((w : Nat) : Int) := by
    intro u w
    obtain ⟨walk⟩ := htree.tree.connected.preconnected u w
    induction walk with
    | nil => rfl
    | cons ha _ ih => exact (hadj _ _ ha).trans ih
  rw [hpV p hp, hpV p' hp']
  have r1 := hwf.srcRange hp
  have r2 := hwf.srcRange hp'
  have := hreach ⟨(src es p).toNat, by omega⟩ ⟨(src es p').toNat, by omega⟩
  simp only [Int.toNat_of_nonneg r1.1, Int.toNat_of_nonneg r2.1] at this
  exact this

end Graph

/-! ## C54 -/

/-- `propagator(p).computeQ()` after the propagators `st` were solved. -/
def queryQ (bead : Bool) (blk : Nat → BlockData K n κ) (es : List Edge) (vs : List Vertex)
    (st : Pid → Option (Nat → Fld n K)) (p : Pid) : Option K :=
  match st p, st (p.1, !p.2) with
  | some q, some q' => some (computeQ bead (headEnd es vs p) (blk p.1).ns q q')
  | _, _ => none

section Results

variable {kin : Kin K n κ} {bead : Bool} {blk : Nat → BlockData K n κ} {es : List Edge}
  {fuel : Nat} {P : Polymer}

theorem plan_facts (hP : PolyOk kin bead blk es fuel P) :
    P.edges = es ∧ makeVertices es = .ok P.vertices ∧ ValidSchedule es P.plan := by
  have ht := C10_accepted_is_tree_partial es fuel P hP.read
  obtain ⟨h1, h2, _, ⟨f, h4⟩, h5, _⟩ := readTopology_inv hP.read
  refine ⟨h1, h2, h4.nodup, ?_, h4.order⟩
  have h6 : P.plan.length = es.length * 2 := h5
  have hsub : P.plan.Subperm (allPids es.length) := List.subperm_of_subset h4.nodup
    (fun p hp => (allPids_mem _ p).2 (h4.valid p hp))
  have hperm := hsub.perm_of_length_le (by rw [allPids_length]; omega)
  intro p
  rw [hperm.mem_iff, allPids_mem]

theorem done_of_solve (hP : PolyOk kin bead blk es fuel P)
    {st : Pid → Option (Nat → Fld n K)}
    (h : solvePlan kin bead blk es P.vertices P.plan (fun _ => none) = .ok st) :
    Done kin bead blk es P.vertices P.plan st := by
  obtain ⟨_, hv, hs⟩ := plan_facts hP
  have := solvePlan_done (kin := kin) (bead := bead) (blk := blk) (es := es) (vs := P.vertices)
    (fun p hp => by simp [sources] at hp) P.plan [] (fun _ => none) st
    (by simpa using hs.nodup)
    ⟨by simp, by simp, by simp⟩ h
  simpa using this

theorem queryQ_eq (hP : PolyOk kin bead blk es fuel P) {st : Pid → Option (Nat → Fld n K)}
    (hd : Done kin bead blk es P.vertices P.plan st) {p : Pid} (hp : p.1 < es.length) :
    queryQ bead blk es P.vertices st p =
      some (dot (headOf st p) (tailOf blk st (p.1, !p.2)) / (n : K)) := by
  obtain ⟨_, hv, hs⟩ := plan_facts hP
  obtain ⟨h, h1, h2⟩ := hd.eqn p ((hs.complete p).2 hp)
  obtain ⟨h', h1', h2'⟩ := hd.eqn (p.1, !p.2) ((hs.complete _).2 hp)
  have hz := solveFrom_zero (kin := kin) (bead := bead) (blk := blk) (es := es)
    (vs := P.vertices) p h
  unfold queryQ headOf tailOf
  rw [h2, h2']
  simp only [Option.some.injEq]
  unfold computeQ
  split
  · rename_i hc
    have hc : bead = true ∧ headEnd es P.vertices p = true := by simpa using hc
    congr 1
    have hone : h = fun _ => 1 := by
      unfold computeHead at h1
      rw [if_pos hc.2] at h1
      exact (Option.some.inj h1).symm
    obtain ⟨hns, _⟩ := hP.beads hc.1 p.1 hp
    rw [hz, hone]
    unfold solveFrom dot
    rw [if_pos hc.1, tailEnd_partner, hc.2]
    simp only [accum_eq, zero_add, one_mul]
    rw [slicesBead_last _ _ _ _ _ hns, if_pos rfl]
    apply Finset.sum_congr rfl
    intro i _
    rw [show (blk p.1).ns - 2 = ((blk p.1).ns - 3) + 1 by omega,
      slicesBead_mid _ _ _ _ _ _ (by omega)]
  · rw [prodSum_eq]

/-- **C54**: for every polymer accepted by the reader, solving succeeds, every propagator is
solved, and `computeQ` gives the same value for every propagator (both directions of all
blocks). -/
theorem C54_Q_block_independent (hP : PolyOk kin bead blk es fuel P) :
    ∃ st, solvePlan kin bead blk es P.vertices P.plan (fun _ => none) = .ok st ∧
    ∀ p p' : Pid, p.1 < es.length → p'.1 < es.length →
      (queryQ bead blk es P.vertices st p).isSome ∧
      queryQ bead blk es P.vertices st p = queryQ bead blk es P.vertices st p' := by
  obtain ⟨_, hv, hs⟩ := plan_facts hP
  obtain ⟨st, hst⟩ := solvePlan_ok (kin := kin) (bead := bead) (blk := blk) (es := es)
    (vs := P.vertices) P.plan (fun _ => none) (by
      intro l1 p l2 he s hsrc
      have hp : p.1 < es.length := (hs.complete p).1 (by rw [he]; simp)
      exact Or.inr (hs.ordered l1 p l2 he s ((mem_sources hv hp).1 hsrc)))
  refine ⟨st, hst, fun p p' hp hp' => ?_⟩
  have hd := done_of_solve hP hst
  rw [queryQ_eq hP hd hp, queryQ_eq hP hd hp']
  exact ⟨rfl, by rw [all_sums hP hv hd hs.complete p p' hp hp']⟩

/-! ## C53 -/

/-- Contour length (thread) or number of beads (bead) of a block. -/
def size (bead : Bool) (b : BlockData K n κ) : K :=
  if bead then ((b.ns - 2 : Nat) : K) else ((b.ns - 1 : Nat) : K) * b.ds

/-- **C53**: for every polymer accepted by the reader, whatever the fields, the spatial average
of the concentration of each block is `phi · phiTot · (block size) / (total size)`, where the size
is the contour length (thread model) or the number of beads (bead model). `phi` is the volume
fraction set by `setQ`, and `Q` the molecular partition function. -/
theorem C53_block_conservation (hP : PolyOk kin bead blk es fuel P) (hes : es ≠ [])
    (phi phiTot total Q : K) (st : Pid → Option (Nat → Fld n K))
    (h : polymerSolve kin bead blk es P.vertices P.plan phiTot = .ok (st, Q))
    (hn : (n : K) ≠ 0) (h3 : (3 : K) ≠ 0) (hQ : Q ≠ 0) (hphi : phiTot ≠ 0) (htot : total ≠ 0)
    (k : Nat) (hk : k < es.length) :
    ∃ c, blockConc bead blk st phi Q total k = some c ∧
      (∑ i, c i) / (n : K) = phi * phiTot * (size bead (blk k) / total) := by
  obtain ⟨_, hv, hs⟩ := plan_facts hP
  unfold polymerSolve at h
  rw [Res.bind_eq_ok] at h
  obtain ⟨st', hst, h⟩ := h
  have hd := done_of_solve hP hst
  have h0 : 0 < es.length := List.length_pos_iff.2 hes
  have hq0 := queryQ_eq hP hd (p := (0, false)) h0
  obtain ⟨hst', hQd⟩ : st' = st ∧
      dot (headOf st' (0, false)) (tailOf blk st' (0, true)) / (n : K) / phiTot = Q := by
    unfold queryQ at hq0
    simp only [Bool.not_false] at hq0
    split at h
    · rename_i q q' e1 e2
      rw [e1, e2] at hq0
      simp only [Option.some.injEq] at hq0
      simp only [Res.ok.injEq, Prod.mk.injEq] at h
      exact ⟨h.1, by rw [← hq0]; exact h.2⟩
    · cases h
  subst hst'
  have hsum := all_sums hP hv hd hs.complete (k, false) (0, false) hk h0
  simp only [Bool.not_false] at hsum
  set D := dot (headOf st' (0, false)) (tailOf blk st' (0, true)) with hD
  have hDQ : D = Q * phiTot * n := by
    rw [← hQd]; field_simp
  obtain ⟨g0, _, g2⟩ := hd.eqn (k, false) ((hs.complete _).2 hk)
  obtain ⟨g1, _, g3⟩ := hd.eqn (k, true) ((hs.complete _).2 hk)
  unfold blockConc
  rw [g2, g3]
  refine ⟨_, rfl, ?_⟩
  have hsum' : dot g0 (solveFrom kin bead blk es P.vertices (k, true) g1 ((blk k).ns - 1)) = D := by
    rw [← hsum]
    unfold headOf tailOf
    rw [g2, g3]
    simp only
    rw [solveFrom_zero]
  cases hb : bead with
  | false =>
    obtain ⟨m, hm, hns⟩ := hP.thread hb k hk
    subst hb
    simp only [Bool.false_eq_true, if_false, size]
    simp only [solveFrom, Bool.false_eq_true, if_false] at hsum' ⊢
    rw [hns] at hsum' ⊢
    rw [sum_concThread m hm _ _ D _ _ h3 (fun j hj => by
      rw [thread_const hP.adj _ g0 g1 (2 * m) j hj]
      simpa using hsum')]
    rw [hDQ]
    simp only [Nat.add_sub_cancel]
    field_simp
  | true =>
    obtain ⟨hns, hw⟩ := hP.beads hb k hk
    subst hb
    simp only [if_true, size]
    simp only [solveFrom, if_true] at hsum' ⊢
    have e1 : headEnd es P.vertices (k, true) = tailEnd es P.vertices (k, false) := rfl
    have e2 : tailEnd es P.vertices (k, true) = headEnd es P.vertices (k, false) := by
      simp [tailEnd, headEnd]
    rw [e1, e2] at hsum' ⊢
    rw [sum_concBead _ _ _ D _ _ (fun j hj => by
      rw [bead_const hP.adj _ hw _ hns _ _ g0 g1 j hj]
      exact hsum')]
    rw [hDQ]
    field_simp

/-- **C53**, whole molecule: the block averages add up to `phi · phiTot` when `total` is the sum
of the block sizes. -/
theorem C53_total_conservation (hP : PolyOk kin bead blk es fuel P) (hes : es ≠ [])
    (phi phiTot Q : K) (st : Pid → Option (Nat → Fld n K))
    (h : polymerSolve kin bead blk es P.vertices P.plan phiTot = .ok (st, Q))
    (hn : (n : K) ≠ 0) (h3 : (3 : K) ≠ 0) (hQ : Q ≠ 0) (hphi : phiTot ≠ 0)
    (htot : ∑ k : Fin es.length, size bead (blk k) ≠ 0) :
    ∃ c : Fin es.length → Fld n K,
      (∀ k : Fin es.length, blockConc bead blk st phi Q
        (∑ k : Fin es.length, size bead (blk k)) k = some (c k)) ∧
      ∑ k, (∑ i, c k i) / (n : K) = phi * phiTot := by
  choose c hc1 hc2 using fun k : Fin es.length =>
    C53_block_conservation hP hes phi phiTot _ Q st h hn h3 hQ hphi htot k k.2
  refine ⟨c, hc1, ?_⟩
  rw [Finset.sum_congr rfl (fun k _ => hc2 k), ← Finset.mul_sum, ← Finset.sum_div,
    div_self htot, mul_one]

/-- `polymerSolve` succeeds for every polymer accepted by the reader. -/
theorem C53_solve_succeeds (hP : PolyOk kin bead blk es fuel P) (hes : es ≠ []) (phiTot : K) :
    ∃ st Q, polymerSolve kin bead blk es P.vertices P.plan phiTot = .ok (st, Q) := by
  obtain ⟨_, hv, hs⟩ := plan_facts hP
  obtain ⟨st, hst, _⟩ := C54_Q_block_independent hP
  have hd := done_of_solve hP hst
  have h0 : 0 < es.length := List.length_pos_iff.2 hes
  obtain ⟨g0, _, g2⟩ := hd.eqn (0, false) ((hs.complete _).2 h0)
  obtain ⟨g1, _, g3⟩ := hd.eqn (0, true) ((hs.complete _).2 h0)
  refine ⟨st, computeQ bead (headEnd es P.vertices (0, false)) (blk 0).ns
    (solveFrom kin bead blk es P.vertices (0, false) g0)
    (solveFrom kin bead blk es P.vertices (0, true) g1) / phiTot, ?_⟩
  unfold polymerSolve
  rw [hst, Res.ok_bind, g2, g3]

end Results

/-! ## C55 -/

/-- **C55**: the spatial average of a solvent's concentration is `phi · phiTot`, where `phi` is
the volume fraction after `setQ` (given for a closed species, `exp(mu) Q` for an open one). -/
theorem C55_solvent (e : Fld n K) (phiTot : K) (phiOf : K → K) (hn : (n : K) ≠ 0)
    (hphi : phiTot ≠ 0) (he : ∑ i, e i ≠ 0) :
    let r := solventConc e phiTot phiOf
    (∑ i, r.2 i) / (n : K) = phiOf r.1 * phiTot ∧ r.1 ≠ 0 := by
  simp only [solventConc, accum_eq, zero_add]
  have hQ : (∑ i, e i) / (n : K) / phiTot ≠ 0 := by
    simp [hn, hphi, he]
  refine ⟨?_, hQ⟩
  rw [← Finset.sum_mul]
  field_simp

/-! ## Examples -/

/-- A diblock chain on two grid points; the Fourier step halves differences. -/
def exKin : Kin ℚ 2 Unit := fun f x i =>
  (x 0 + x 1) / 2 + f () * ((x i - x (1 - i)) / 2)

theorem exKin_adj : SelfAdjoint exKin := by
  intro f x y
  simp only [dot, exKin, Fin.sum_univ_two]
  norm_num
  ring

def exBlk (k : Nat) : BlockData ℚ 2 Unit where
  arrays := ⟨fun i => if i = 0 then 1 / 2 else 2 / 3, fun i => if i = 0 then 1 / 3 else 3 / 4,
    fun i => if i = 0 then 2 else 3 / 2, fun _ => 1 / (k + 2), fun _ => 1 / (k + 3)⟩
  ns := 2 * k + 3
  ds := 1 / 4

/-- A three-arm star of three different blocks. -/
def exEdges : List Edge := [(0, 1), (1, 2), (3, 1)]

theorem exRead : ∃ P, readTopology exEdges 6 = some (.ok P) := ⟨_, rfl⟩

example : ∃ P, PolyOk exKin false exBlk exEdges 6 P ∧ PolyOk exKin true exBlk exEdges 6 P := by
  obtain ⟨P, hP⟩ := exRead
  refine ⟨P, ⟨hP, exKin_adj, fun _ k _ => ⟨k + 1, by omega, by simp [exBlk]; ring⟩,
    by simp⟩, ⟨hP, exKin_adj, by simp, fun _ k _ => ⟨by simp [exBlk], fun i => ?_⟩⟩⟩
  simp only [exBlk]
  split <;> norm_num

example : (solventConc (n := 2) (fun i => if i = 0 then (1 : ℚ) else 3) (1 / 2) (fun _ => 1 / 5)) =
    (4, fun i => (if i = 0 then 1 else 3) * (1 / 20)) := by
  simp [solventConc, accum_eq, Fin.sum_univ_two]
  norm_num

end Verif.Solver
