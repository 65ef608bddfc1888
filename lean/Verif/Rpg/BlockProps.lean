import Verif.Rpg.PolymerLemmas
import Verif.Rpg.LayoutLemmas
import Verif.Tac

/-!
# C97, C98: the solvers of the GPU programs

`Rpg.polymerCompute`, `polymerStress` and `solventCompute` act on device memory through kernels whose
threads are interleaved by arbitrary schedules. They are compared with the functions of `Verif.Solver`,
which model the CPU programs.
-/

set_option autoImplicit false
set_option linter.unusedSectionVars false

namespace Verif.Rpg

open Verif.Cuda Verif.Solver Verif.Chem

variable {E : Env} {M C : Nat} {arr : Name → DArr} {n kS nB : Nat}
  {m : Nat} {N : Fin (m + 1) → Nat} [∀ d, NeZero (N d)] {en : Fin n ≃ Grid N}
  {ek : Fin kS ≃ Half N} {s : St} {B : Blocks} {es : List Edge}

/-- Arrays of all blocks are allocated without overlap, and sizes and schedules are adequate. -/
structure Conf (E : Env) (arr : Name → DArr) (n kS nB M C : Nat) (B : Blocks) (es : List Edge) :
    Prop where
  lay : Lay arr n kS nB B.ns
  env : E.Ok M C
  points : n ≤ M ∧ n ≤ 2 ^ 24
  waves : 2 * kS ≤ M ∧ kS ≤ 2 ^ 24
  blocks : 0 < es.length ∧ es.length ≤ nB
  mono : ∀ k < es.length, B.mono k < nB
  ns : ∀ k < es.length, 3 ≤ B.ns k ∧ B.ns k * kS ≤ M
  accesses : 2 * es.length + 2 ≤ C

theorem sources_length {es : List Edge} {vs : List Vertex} (hv : makeVertices es = .ok vs) {p : Pid}
    (hp : p.1 < es.length) : (sources es vs p).length ≤ 2 * es.length := by
  have h1 : (sources es vs p).Nodup := by
    unfold sources
    exact (nodup_inIds hv _).filter _
  have h2 := (List.subperm_of_subset (l₂ := allPids es.length) h1 fun q hq =>
    (allPids_mem _ q).2 (source_tail hv hp hq).1).length_le
  rw [allPids_length] at h2
  omega

/-- The vertices and the plan of a polymer that was read. -/
theorem read_facts {fuel : Nat} {P : Polymer} (h : readTopology es fuel = some (.ok P)) :
    makeVertices es = .ok P.vertices ∧ ValidSchedule es P.plan := by
  obtain ⟨_, h2, _, ⟨f, h4⟩, h5, _⟩ := readTopology_inv h
  refine ⟨h2, h4.nodup, ?_, h4.order⟩
  have h6 : P.plan.length = es.length * 2 := h5
  have hsub : P.plan.Subperm (allPids es.length) := List.subperm_of_subset h4.nodup
    (fun p hp => (allPids_mem _ p).2 (h4.valid p hp))
  have hperm := hsub.perm_of_length_le (by rw [allPids_length]; omega)
  intro p
  rw [hperm.mem_iff, allPids_mem]

theorem cpu_solves {K : Type} [Field K] {κ : Type} {kin : Kin K n κ} {bead : Bool}
    {blk : Nat → BlockData K n κ} {fuel : Nat} {P : Polymer}
    (h : readTopology es fuel = some (.ok P)) (h0 : 0 < es.length) (phiTot : K) :
    ∃ (st : Pid → Option (Nat → Fld n K)) (Q : K),
      polymerSolve kin bead blk es P.vertices P.plan phiTot = .ok (st, Q) ∧
      ∀ p : Pid, p.1 < es.length → (st p).isSome := by
  obtain ⟨hv, hs⟩ := read_facts h
  obtain ⟨st, hst⟩ := solvePlan_ok (kin := kin) (bead := bead) (blk := blk) (es := es)
    (vs := P.vertices) P.plan (fun _ => none) (by
      intro l1 p l2 he q hq
      right
      have hp : p.1 < es.length := (hs.complete p).1 (by rw [he]; simp)
      exact hs.ordered l1 p l2 he q ((mem_sources hv hp).1 hq))
  have hd := solvePlan_done (kin := kin) (bead := bead) (blk := blk) (es := es)
    (vs := P.vertices) (fun p hp => by simp [sources] at hp) P.plan [] (fun _ => none) st
    (by simpa using hs.nodup) ⟨by simp, by simp, by simp⟩ hst
  rw [List.nil_append] at hd
  have hall : ∀ p : Pid, p.1 < es.length → (st p).isSome := fun p hp =>
    (hd.iff p).2 ((hs.complete p).2 hp)
  obtain ⟨q, hq⟩ := Option.isSome_iff_exists.1 (hall (0, false) h0)
  obtain ⟨q', hq'⟩ := Option.isSome_iff_exists.1 (hall (0, true) h0)
  refine ⟨st, Solver.computeQ bead (headEnd es P.vertices (0, false)) (blk 0).ns q q' / phiTot, ?_, hall⟩
  unfold polymerSolve
  rw [hst, Res.ok_bind, hq, hq']

/-! ## C97 -/

/-- **C97**: for every branched polymer that is read, every device, block size and interleaving of
the threads of every kernel, `compute` on the device returns the partition function of the CPU
program, and the concentration of every block is that of the CPU program. -/
theorem C97_polymer (c : Conf E arr n kS nB M C B es) (hg : Good E s) {fuel : Nat} {P : Polymer}
    (hr : readTopology es fuel = some (.ok P)) (bead : Bool) (phiTot total : ℝ) (phiOf : ℝ → ℝ)
    (hK : ∀ k < es.length, Known arr n ek bead B k s.mem) :
    ∃ (st : Pid → Option (Nat → Fld n ℝ)) (Q : ℝ) (s' : St),
      polymerSolve (dftKin en) bead (cpuBlocks arr n ek bead B s.mem) es P.vertices P.plan phiTot =
        .ok (st, Q) ∧
      polymerCompute en ek E arr bead es P.vertices P.plan B phiTot total phiOf s = .ok (Q, s') ∧
      Good E s' ∧
      ∀ k < es.length, blockConc bead (cpuBlocks arr n ek bead B s.mem) st (phiOf Q) Q total k =
        some (fld arr n s'.mem (k, .c)) := by
  obtain ⟨hv, hs⟩ := read_facts hr
  obtain ⟨st, Q, h1, h2⟩ := cpu_solves (kin := dftKin en) (bead := bead)
    (blk := cpuBlocks arr n ek bead B s.mem) hr c.blocks.1 phiTot
  obtain ⟨s', r1, r2, -, -, r5⟩ := polymerCompute_spec c.lay c.env hg c.points.1 c.waves.1 c.points.2
    c.blocks.1 c.blocks.2 c.mono (fun k hk => (c.ns k hk).1) hK hv (fun p hp => (hs.complete p).1 hp)
    (fun p hp => by have := sources_length hv hp; have := c.accesses; omega) phiTot total phiOf h1
  refine ⟨st, Q, s', h1, r1, r2.good, fun k hk => ?_⟩
  obtain ⟨q, hq⟩ := Option.isSome_iff_exists.1 (h2 (k, false) hk)
  obtain ⟨q', hq'⟩ := Option.isSome_iff_exists.1 (h2 (k, true) hk)
  have hc : ∃ f, blockConc bead (cpuBlocks arr n ek bead B s.mem) st (phiOf Q) Q total k = some f := by
    unfold blockConc
    rw [hq, hq']
    exact ⟨_, rfl⟩
  obtain ⟨f, hf⟩ := hc
  rw [hf, r5 k hk f hf]

/-- **C97**: the stress computed on the device after `compute`, with or without batched transforms, is
the stress of the CPU program for the propagators of the CPU program. -/
theorem C97_stress (c : Conf E arr n kS nB M C B es) (hg : Good E s) {fuel : Nat} {P : Polymer}
    (hr : readTopology es fuel = some (.ok P)) (bead : Bool) (phiTot total : ℝ) (phiOf : ℝ → ℝ)
    (hK : ∀ k < es.length, Known arr n ek bead B k s.mem) {Q : ℝ} {s' : St}
    (hrun : polymerCompute en ek E arr bead es P.vertices P.plan B phiTot total phiOf s =
      .ok (Q, s')) (batched : Bool) :
    ∃ (st : Pid → Option (Nat → Fld n ℝ)) (σ : ℝ) (s2 : St),
      polymerSolve (dftKin en) bead (cpuBlocks arr n ek bead B s.mem) es P.vertices P.plan phiTot =
        .ok (st, Q) ∧
      polymerStress en ek E arr batched bead es P.vertices B (phiOf Q) Q total s' = .ok (σ, s2) ∧
      Solver.polymerStress en bead (cpuBlocks arr n ek bead B s.mem) B.kuhn es P.vertices
        (rks arr ek s.mem (0, .dKSq)) st (phiOf Q) Q total = some σ ∧
      ∀ k < es.length, fld arr n s2.mem (k, .c) = fld arr n s'.mem (k, .c) := by
  obtain ⟨hv, hs⟩ := read_facts hr
  obtain ⟨st, Q', h1, h2⟩ := cpu_solves (kin := dftKin en) (bead := bead)
    (blk := cpuBlocks arr n ek bead B s.mem) hr c.blocks.1 phiTot
  obtain ⟨s1, r1, r2, r3, r4, -⟩ := polymerCompute_spec c.lay c.env hg c.points.1 c.waves.1 c.points.2
    c.blocks.1 c.blocks.2 c.mono (fun k hk => (c.ns k hk).1) hK hv (fun p hp => (hs.complete p).1 hp)
    (fun p hp => by have := sources_length hv hp; have := c.accesses; omega) phiTot total phiOf h1
  rw [hrun] at r1
  simp only [Res.ok.injEq, Prod.mk.injEq] at r1
  obtain ⟨rfl, rfl⟩ := r1
  have hb := c.blocks
  obtain ⟨σ, s2, t1, t2, t3⟩ := polymerStress_spec (en := en) (ek := ek) (bead := bead) (vs := P.vertices)
    (blk := cpuBlocks arr n ek bead B s.mem) c.lay c.env r2.good c.waves.2
    c.blocks.1 c.blocks.2 (fun k hk => (c.ns k hk).1) (fun k hk => (c.ns k hk).2)
    (fun k hk => ⟨rfl, rfl⟩) r3 r4 h2 batched (phiOf Q) Q total
  refine ⟨st, σ, s2, h1, t1, ?_, fun k hk => ?_⟩
  · rw [← t2]
    congr 1
    refine (r2.rks (a := (0, .dKSq)) ?_ (c.lay.cap 0 (by omega) _) rfl).symm
    intro hc
    simp only [computeSlots, List.mem_append, List.mem_map, List.mem_range] at hc
    rcases hc with (hc | hc) | ⟨k, -, hc⟩
    · rw [mem_setupSlots] at hc; simp [tables] at hc
    · have := (mem_planSlots hc).2; simp [work] at this
    · simp at hc
  · refine t3.fld ?_ (show (arr (k, .c)).cap = n from c.lay.cap k (by omega) _) rfl
    intro hc
    have := mem_polyStressSlots hc
    simp at this

/-- **C97**: a solvent on the device has the partition function and concentration of the CPU
program. -/
theorem C97_solvent {ns : Nat → Nat} (L : Lay arr n kS nB ns) (hE : E.Ok M C) (hg : Good E s)
    (hn : n ≤ M ∧ n ≤ 2 ^ 24) {b w : Nat} (hb : b < nB) (hw : w < nB) (size phiTot : ℝ)
    (phiOf : ℝ → ℝ) :
    ∃ (Q : ℝ) (s' : St), solventCompute E arr n b w size phiTot phiOf s = .ok (Q, s') ∧
      solventConc (fun i => Real.exp (-size * fld arr n s.mem (w, .w) i)) phiTot phiOf =
        (Q, fld arr n s'.mem (b, .c)) := by
  obtain ⟨s', h1, h2, -⟩ := solvent_spec L hE hg hn.1 hn.2 hb hw size phiTot phiOf
  exact ⟨_, s', h1, by rw [h2]⟩

/-- **C97**: neither the device nor the schedules nor the block size nor the choice of batched
transforms has an effect on the results: two runs from the same contents of memory agree. -/
theorem C97_deterministic {E' : Env} {M' C' : Nat} (c : Conf E arr n kS nB M C B es)
    (c' : Conf E' arr n kS nB M' C' B es) {s' : St} (hg : Good E s) (hg' : Good E' s')
    (hm : s'.mem = s.mem) {fuel : Nat} {P : Polymer}
    (hr : readTopology es fuel = some (.ok P)) (bead : Bool) (phiTot total : ℝ) (phiOf : ℝ → ℝ)
    (hK : ∀ k < es.length, Known arr n ek bead B k s.mem) (batched batched' : Bool) :
    ∃ (Q σ : ℝ) (t u t' u' : St),
      polymerCompute en ek E arr bead es P.vertices P.plan B phiTot total phiOf s = .ok (Q, t) ∧
      polymerCompute en ek E' arr bead es P.vertices P.plan B phiTot total phiOf s' = .ok (Q, t') ∧
      polymerStress en ek E arr batched bead es P.vertices B (phiOf Q) Q total t = .ok (σ, u) ∧
      polymerStress en ek E' arr batched' bead es P.vertices B (phiOf Q) Q total t' = .ok (σ, u') ∧
      ∀ k < es.length, fld arr n u.mem (k, .c) = fld arr n u'.mem (k, .c) := by
  obtain ⟨st, Q, t, h1, h2, -, h4⟩ := C97_polymer (en := en) c hg hr bead phiTot total phiOf hK
  obtain ⟨st', Q', t', h1', h2', -, h4'⟩ := C97_polymer (en := en) c' hg' hr bead phiTot total phiOf
    (by rw [hm]; exact hK)
  obtain ⟨st2, σ, u, g1, g2, g3, g4⟩ := C97_stress (en := en) c hg hr bead phiTot total phiOf hK h2
    batched
  obtain ⟨st2', σ', u', g1', g2', g3', g4'⟩ := C97_stress (en := en) c' hg' hr bead phiTot total phiOf
    (by rw [hm]; exact hK) h2' batched'
  rw [hm, h1] at h1' g1'
  rw [h1] at g1
  simp only [Res.ok.injEq, Prod.mk.injEq] at h1' g1' g1
  obtain ⟨rfl, rfl⟩ := h1'
  obtain ⟨rfl, -⟩ := g1
  obtain ⟨rfl, -⟩ := g1'
  rw [hm, g3] at g3'
  obtain rfl := Option.some.inj g3'
  refine ⟨Q, σ, t, u, t', u', h2, h2', g2, g2', fun k hk => ?_⟩
  rw [g4 k hk, g4' k hk]
  have := h4' k hk
  rw [hm, h4 k hk] at this
  exact Option.some.inj this

/-! ## C98 -/

/-- **C98** (part): after `compute`, every slice of every propagator on the device has the value of
the CPU program, except for the tail slice of a propagator of the bead model that ends at a free
end. Missing: that slice, see `C98_tail_violated`. -/
theorem C98_slices_partial (c : Conf E arr n kS nB M C B es) (hg : Good E s) {fuel : Nat}
    {P : Polymer} (hr : readTopology es fuel = some (.ok P)) (bead : Bool) (phiTot total : ℝ)
    (phiOf : ℝ → ℝ) (hK : ∀ k < es.length, Known arr n ek bead B k s.mem) {Q : ℝ} {s' : St}
    (hrun : polymerCompute en ek E arr bead es P.vertices P.plan B phiTot total phiOf s =
      .ok (Q, s')) :
    ∃ st : Pid → Option (Nat → Fld n ℝ),
      polymerSolve (dftKin en) bead (cpuBlocks arr n ek bead B s.mem) es P.vertices P.plan phiTot =
        .ok (st, Q) ∧
      ∀ p : Pid, p.1 < es.length → ∃ q, st p = some q ∧ ∀ j < B.ns p.1,
        ¬ (bead = true ∧ tailEnd es P.vertices p = true ∧ j = B.ns p.1 - 1) →
        fld arr n s'.mem (p.1, .q p.2 j) = q j := by
  obtain ⟨hv, hs⟩ := read_facts hr
  obtain ⟨st, Q', h1, h2⟩ := cpu_solves (kin := dftKin en) (bead := bead)
    (blk := cpuBlocks arr n ek bead B s.mem) hr c.blocks.1 phiTot
  obtain ⟨s1, r1, r2, r3, r4, -⟩ := polymerCompute_spec c.lay c.env hg c.points.1 c.waves.1 c.points.2
    c.blocks.1 c.blocks.2 c.mono (fun k hk => (c.ns k hk).1) hK hv (fun p hp => (hs.complete p).1 hp)
    (fun p hp => by have := sources_length hv hp; have := c.accesses; omega) phiTot total phiOf h1
  rw [hrun] at r1
  simp only [Res.ok.injEq, Prod.mk.injEq] at r1
  obtain ⟨rfl, rfl⟩ := r1
  refine ⟨st, h1, fun p hp => ?_⟩
  obtain ⟨q, hq⟩ := Option.isSome_iff_exists.1 (h2 p hp)
  exact ⟨q, hq, r3 p hp q hq⟩

/-- The contents of the array `a` replaced by `x`. -/
def St.put (arr : Name → DArr) (s : St) (a : Name) (x : Nat → ℝ) : St :=
  { s with mem := fun i => if (arr a).base ≤ i ∧ i < (arr a).base + (arr a).cap
      then x (i - (arr a).base) else s.mem i }

theorem St.put_did {ns : Nat → Nat} (L : Lay arr n kS nB ns) (hg : Good E s) {a : Name}
    (hw : a.2.wd = 1) (x : Nat → ℝ) : Did E arr [a] s (s.put arr a x) := by
  refine ⟨hg, fun b hb i hi => ?_⟩
  have hne : a ≠ b := fun e => hb (by simp [e])
  have hd := L.disj a b hne
  rw [hw, one_mul] at hd
  unfold St.put
  simp only
  rw [if_neg]
  intro hc
  generalize b.2.wd * (arr b).cap = y at *
  generalize (arr a).base = u at *
  generalize (arr b).base = v at *
  omega

theorem St.put_fld {a : Name} (hc : (arr a).cap = n) (x : Nat → ℝ) :
    fld arr n (s.put arr a x).mem a = fun i : Fin n => x i := by
  funext i
  have := i.2
  unfold fld St.put
  simp only
  rw [if_pos (by omega)]
  congr 1
  omega

/-- **C98 is violated** by `Propagator::solve()` of the GPU program for the bead model: the tail slice
at a free end keeps what was in memory before (the slice before it is copied onto itself), for every
block, layout, device and schedule. The CPU program stores a copy of the last bead slice there. -/
theorem C98_tail_kept_violated {ns : Nat → Nat} (L : Lay arr n kS nB ns) (hE : E.Ok M C)
    (hg : Good E s) (hM : n ≤ M) (hM2 : 2 * kS ≤ M) {b : Nat} (hb : b < nB) (d : Bool)
    (h3 : 3 ≤ ns b) (he : Bool) :
    (∃ s', solveFrom en ek E arr true b d (ns b) he true s = .ok s' ∧
      fld arr n s'.mem (b, .q d (ns b - 1)) = fld arr n s.mem (b, .q d (ns b - 1))) ∧
    ¬ ∀ s1 : St, Good E s1 → ∀ s', solveFrom en ek E arr true b d (ns b) he true s1 = .ok s' →
      fld arr n s'.mem (b, .q d (ns b - 1)) = slicesBead (dftKin en) (arrays arr n ek s1.mem b) (ns b)
        he true (fld arr n s1.mem (b, .q d 0)) (ns b - 1) := by
  have run : ∀ s1 : St, Good E s1 → ∃ s', solveFrom en ek E arr true b d (ns b) he true s1 = .ok s' ∧
      fld arr n s'.mem (b, .q d (ns b - 1)) = fld arr n s1.mem (b, .q d (ns b - 1)) := by
    intro s1 hg1
    obtain ⟨s', h1, h2, -⟩ := solveFrom_spec (en := en) (ek := ek) L hE hg1 hM hM2 hb d h3 true he true
    exact ⟨s', h1, h2.q_slots L hb (by omega) (by simp; omega)⟩
  refine ⟨run s hg, fun H => ?_⟩
  have cq : ∀ j < ns b, (arr (b, .q d j)).cap = n := fun j hj => by
    rw [L.cap b hb]; exact if_pos hj
  have key : ∀ x : Nat → ℝ, (fun i : Fin n => x i) = slicesBead (dftKin en) (arrays arr n ek s.mem b)
      (ns b) he true (fld arr n s.mem (b, .q d 0)) (ns b - 1) := by
    intro x
    have hd := St.put_did (E := E) L hg (a := (b, .q d (ns b - 1))) rfl x
    obtain ⟨s', h1, h2⟩ := run _ hd.good
    have h := H _ hd.good s' h1
    rw [h2, St.put_fld (cq (ns b - 1) (by omega)), hd.fld (by simp; omega) (cq 0 (by omega)) rfl,
      show arrays arr n ek (s.put arr (b, .q d (ns b - 1)) x).mem b = arrays arr n ek s.mem b by
        apply hd.arrays L hb <;> simp] at h
    exact h
  have := (key fun _ => 0).trans (key fun _ => 1).symm
  have := congrFun this ⟨0, L.n0⟩
  norm_num at this

/-- **C98** (part): `solve(head)` of the GPU program computes all slices of the thread model, and all
but the tail slice of the bead model. -/
theorem C98_solve_head_partial {ns : Nat → Nat} (L : Lay arr n kS nB ns) (hE : E.Ok M C)
    (hg : Good E s) (hM : n ≤ M) (hM2 : 2 * kS ≤ M) {b : Nat} (hb : b < nB) (d : Bool)
    (h3 : 3 ≤ ns b) (bead he te : Bool) {head : Name} (hw : head.2.wd = 1)
    (hc : (arr head).cap = n) :
    ∃ s', solveHead en ek E arr bead b d (ns b) he te head s = .ok s' ∧
      ∀ j < ns b, (bead = true → j < ns b - 1) → fld arr n s'.mem (b, .q d j) =
        if bead then slicesBead (dftKin en) (arrays arr n ek s.mem b) (ns b) he te
          (fld arr n s.mem head) j
        else slicesThread (dftKin en) (arrays arr n ek s.mem b) (fld arr n s.mem head) j := by
  have cq : (arr (b, .q d 0)).cap = n := by rw [L.cap b hb]; exact if_pos (by omega)
  obtain ⟨s1, e1, d1, v1⟩ := eqV_spec L hE hg (b, .q d 0) head rfl hw cq hc hM
  obtain ⟨s2, e2, -, v2⟩ := solveFrom_spec (en := en) (ek := ek) L hE d1.good hM hM2 hb d h3 bead he
    (!te)
  refine ⟨s2, ?_, fun j hj hjb => ?_⟩
  · unfold solveHead
    rw [e1, Res.ok_bind]
    exact e2
  · rw [v2 j hj (by rintro ⟨u, -, h⟩; have := hjb u; omega), v1,
      show arrays arr n ek s1.mem b = arrays arr n ek s.mem b by apply d1.arrays L hb <;> simp]
    cases bead
    · rfl
    · have := hjb rfl
      simp only [if_true]
      unfold slicesBead
      rw [if_neg (show j ≠ ns b - 1 by omega), if_neg (show j ≠ ns b - 1 by omega)]

/-- **C98 is violated** by `solve(head)` of the GPU program for the bead model: the condition for the
last bond is negated, so that the tail slice of a propagator that ends at a junction keeps its
previous contents, and a half bond is added at a free end. -/
theorem C98_solve_head_violated {ns : Nat → Nat} (L : Lay arr n kS nB ns) (hE : E.Ok M C)
    (hg : Good E s) (hM : n ≤ M) (hM2 : 2 * kS ≤ M) {b : Nat} (hb : b < nB) (d : Bool)
    (h3 : 3 ≤ ns b) (he te : Bool) {head : Name} (hw : head.2.wd = 1)
    (hc : (arr head).cap = n) :
    ∃ s', solveHead en ek E arr true b d (ns b) he te head s = .ok s' ∧
      fld arr n s'.mem (b, .q d (ns b - 1)) =
        if te then stepHalfBondBead (dftKin en) (arrays arr n ek s.mem b)
          (slicesBead (dftKin en) (arrays arr n ek s.mem b) (ns b) he te (fld arr n s.mem head)
            (ns b - 1))
        else fld arr n s.mem (b, .q d (ns b - 1)) := by
  have cq : (arr (b, .q d 0)).cap = n := by rw [L.cap b hb]; exact if_pos (by omega)
  obtain ⟨s1, e1, d1, v1⟩ := eqV_spec L hE hg (b, .q d 0) head rfl hw cq hc hM
  obtain ⟨s2, e2, d2, v2⟩ := solveFrom_spec (en := en) (ek := ek) L hE d1.good hM hM2 hb d h3 true he
    (!te)
  refine ⟨s2, ?_, ?_⟩
  · unfold solveHead
    rw [e1, Res.ok_bind]
    exact e2
  · cases te
    · rw [d2.q_slots L hb (by omega) (by simp; omega), d1.fld (by simp; omega)
        (show (arr (b, .q d (ns b - 1))).cap = n by rw [L.cap b hb]; exact if_pos (by omega)) rfl]
      rfl
    · rw [v2 (ns b - 1) (by omega) (by simp), v1,
        show arrays arr n ek s1.mem b = arrays arr n ek s.mem b by apply d1.arrays L hb <;> simp]
      simp only [if_true, Bool.not_true]
      rw [slicesBead_last _ _ _ _ _ h3, slicesBead_last _ _ _ _ _ h3]
      rfl

/-! ## The hypotheses can be met -/

/-- C97 holds for every tree on a mesh of up to `2 ^ 20` points, with the layout above. -/
theorem exConf {nB S : Nat} {es : List Edge} {B : Blocks} (h0 : 0 < es.length)
    (hes : es.length = nB) (hn : 0 < n ∧ n ≤ 2 ^ 20) (hk : 0 < kS ∧ kS ≤ 2 ^ 20)
    (hmono : ∀ k < nB, B.mono k < nB) (hns : ∀ k < nB, 3 ≤ B.ns k ∧ B.ns k ≤ S) (hS : S ≤ 1000)
    (hM : 2 ^ 30 ≤ M ∧ M + 1024 ≤ 2147483648) (hC : 2 * nB + 8 ≤ C) :
    Conf (exEnv M C) (stdArr n kS nB ((S + 2) * (2 * (n + kS))) B.ns) n kS nB M C B es := by
  refine ⟨stdArr_lay hn.1 hk.1 fun b hb => (hns b hb).2, exEnv_ok hM.2 (by omega),
    ⟨by omega, by omega⟩, ⟨by omega, by omega⟩, ⟨h0, hes.le⟩, fun k hk => hmono k (by omega),
    fun k hk' => ⟨(hns k (by omega)).1, ?_⟩, by omega⟩
  have h1 := (hns k (by omega)).2
  calc B.ns k * kS ≤ 1000 * 2 ^ 20 := Nat.mul_le_mul (by omega) hk.2
    _ ≤ 2 ^ 30 := by norm_num
    _ ≤ M := hM.1

section Examples

/-- Three arms on a mesh of eight points in one dimension. -/
def star : List Edge := [(0, 1), (2, 1), (1, 3)]

noncomputable def exBlocks (bead : Bool) : Blocks :=
  ⟨fun k => k % 2, fun k => if bead then k + 3 else 2 * k + 5, fun _ => if bead then 1 else 1 / 10,
    fun k => k + 1, fun _ => false⟩

theorem star_conf (bead : Bool) (hn : 0 < n ∧ n ≤ 2 ^ 20) (hk : 0 < kS ∧ kS ≤ 2 ^ 20)
    (hM : 2 ^ 30 ≤ M ∧ M + 1024 ≤ 2147483648) :
    Conf (exEnv M 14) (stdArr n kS 3 ((9 + 2) * (2 * (n + kS))) (exBlocks bead).ns) n kS 3
      M 14 (exBlocks bead) star := by
  refine exConf (S := 9) (by decide) rfl hn hk (fun k _ => ?_) (fun k hk => ?_) (by norm_num) hM
    (by norm_num)
  · exact (Nat.mod_lt k (by norm_num)).trans (by norm_num)
  · cases bead <;> simp only [exBlocks, if_true, Bool.false_eq_true, if_false] <;> omega

/-- `C97_polymer`, `C97_stress` and `C98_slices_partial` for the star, any contents of memory. -/
example (M : Nat) (hM : M = 2 ^ 30) (bead batched : Bool) (mem : Nat → ℝ) :
    ∃ (n kS : Nat) (en : Fin n ≃ Grid (fun _ : Fin 1 => 8)) (ek : Fin kS ≃ Half (fun _ : Fin 1 => 8))
      (P : Polymer) (Q σ : ℝ) (s' s2 : St), n = 8 ∧ readTopology star 6 = some (.ok P) ∧
      polymerCompute en ek (exEnv M 14)
        (stdArr n kS 3 ((9 + 2) * (2 * (n + kS))) (exBlocks bead).ns) bead star P.vertices P.plan
        (exBlocks bead) 1 3 (fun _ => 1 / 2) ⟨TA.start, mem, 0⟩ = .ok (Q, s') ∧
      polymerStress en ek (exEnv M 14)
        (stdArr n kS 3 ((9 + 2) * (2 * (n + kS))) (exBlocks bead).ns) batched bead star P.vertices
        (exBlocks bead) (1 / 2) Q 3 s' = .ok (σ, s2) := by
  have e1 : Fintype.card (Grid (fun _ : Fin 1 => 8)) = 8 := by decide +kernel
  have e2 : 0 < Fintype.card (Half (fun _ : Fin 1 => 8)) :=
    Fintype.card_pos_iff.2 ⟨⟨0, by simp [Stored]⟩⟩
  have e3 : Fintype.card (Half (fun _ : Fin 1 => 8)) ≤ 8 :=
    (Fintype.card_subtype_le _).trans e1.le
  obtain ⟨P, hr⟩ : ∃ P, readTopology star 6 = some (.ok P) := ⟨_, rfl⟩
  have c := star_conf bead (n := Fintype.card (Grid (fun _ : Fin 1 => 8)))
    (kS := Fintype.card (Half (fun _ : Fin 1 => 8))) (by rw [e1]; norm_num)
    ⟨e2, e3.trans (by norm_num)⟩ (M := M) (by rw [hM]; norm_num)
  have hg := start_good M 14 mem
  obtain ⟨st, Q, s', h1, h2, -⟩ := C97_polymer (en := (Fintype.equivFin _).symm)
    (ek := (Fintype.equivFin _).symm) c hg hr bead 1 3 (fun _ => 1 / 2)
    (fun k _ h => by simp [exBlocks] at h)
  obtain ⟨-, σ, s2, -, h3, -⟩ := C97_stress c hg hr bead 1 3 (fun _ => 1 / 2)
    (fun k _ h => by simp [exBlocks] at h) h2 batched
  exact ⟨_, _, _, _, P, Q, σ, s', s2, e1, hr, h2, h3⟩

/-- The star has free ends, so `C98_tail_kept_violated` applies to the first block. -/
example : ∃ P, readTopology star 6 = some (.ok P) ∧ tailEnd star P.vertices (0, true) = true ∧
    tailEnd star P.vertices (0, false) = false := by
  refine ⟨_, rfl, ?_, ?_⟩ <;> decide +kernel

end Examples

end Verif.Rpg
