import Verif.Rpg.SumLemmas
import Verif.Solver.Props

/-!
# Lemmas about polymers and solvents on the device
-/

set_option autoImplicit false
set_option linter.unusedSectionVars false

namespace Verif.Rpg

open Verif.Cuda Verif.Solver Verif.Chem

variable {E : Env} {M C : Nat} {arr : Name → DArr} {n kS nB : Nat} {ns : Nat → Nat}
  {m : Nat} {N : Fin (m + 1) → Nat} [∀ d, NeZero (N d)] {en : Fin n ≃ Grid N}
  {ek : Fin kS ≃ Half N} {s s' : St}

/-- Propagators on the device agree with `st`, except for the tail slice of a free end of a bead
block. -/
def Sim (arr : Name → DArr) (n : Nat) (bead : Bool) (es : List Edge) (vs : List Vertex)
    (ns : Nat → Nat) (mem : Nat → ℝ) (st : Pid → Option (Nat → Fld n ℝ)) : Prop :=
  ∀ p : Pid, p.1 < es.length → ∀ qs, st p = some qs → ∀ j < ns p.1,
    ¬ (bead = true ∧ tailEnd es vs p = true ∧ j = ns p.1 - 1) →
    fld arr n mem (p.1, .q p.2 j) = qs j

theorem Sim.frame {bead : Bool} {es : List Edge} {vs : List Vertex}
    {st : Pid → Option (Nat → Fld n ℝ)} {W : List Name} (L : Lay arr n kS nB ns)
    (hes : es.length ≤ nB) (h : Sim arr n bead es vs ns s.mem st) (hd : Did E arr W s s')
    (hW : ∀ b d j, (b, Kind.q d j) ∉ W) : Sim arr n bead es vs ns s'.mem st := by
  intro p hp qs hq j hj hne
  rw [hd.fld (hW _ _ _) (show (arr (p.1, .q p.2 j)).cap = n by
    rw [L.cap p.1 (by omega)]; exact if_pos hj) rfl]
  exact h p hp qs hq j hj hne

/-- Arrays changed while the propagators are computed. -/
def planSlots (nB : Nat) (ns : Nat → Nat) : List Name :=
  (List.range nB).flatMap fun b => slots b false (ns b) ++ slots b true (ns b) ++
    [(b, .q false 0), (b, .q true 0)]

theorem mem_planSlots {a : Name} (h : a ∈ planSlots nB ns) :
    a.1 < nB ∧ (a ∈ work a.1 ∨ ∃ d j, a = (a.1, .q d j)) := by
  simp only [planSlots, List.mem_flatMap, List.mem_range, List.mem_append, mem_slots,
    List.mem_cons, List.not_mem_nil, or_false] at h
  obtain ⟨b, hb, h⟩ := h
  have hw : ∀ x ∈ work b, x.1 = b := by intro x hx; simp [work] at hx; aesop
  rcases h with ((h | ⟨j, _, h⟩) | (h | ⟨j, _, h⟩)) | h | h
  · have e := hw _ h; rw [e]; exact ⟨hb, .inl h⟩
  · subst h; exact ⟨hb, .inr ⟨_, _, rfl⟩⟩
  · have e := hw _ h; rw [e]; exact ⟨hb, .inl h⟩
  · subst h; exact ⟨hb, .inr ⟨_, _, rfl⟩⟩
  · subst h; exact ⟨hb, .inr ⟨_, _, rfl⟩⟩
  · subst h; exact ⟨hb, .inr ⟨_, _, rfl⟩⟩

theorem slots_sub {b k : Nat} (d : Bool) (hb : b < nB) (hk : k ≤ ns b) :
    ∀ a ∈ slots b d k, a ∈ planSlots nB ns := by
  intro a ha
  rw [planSlots, List.mem_flatMap]
  refine ⟨b, List.mem_range.2 hb, ?_⟩
  simp only [List.mem_append, mem_slots] at ha ⊢
  rcases ha with h | ⟨j, hj, h⟩
  · exact .inl (.inl (.inl h))
  · cases d
    · exact .inl (.inl (.inr ⟨j, by omega, h⟩))
    · exact .inl (.inr (.inr ⟨j, by omega, h⟩))

theorem head_sub {b : Nat} (d : Bool) (hb : b < nB) : (b, Kind.q d 0) ∈ planSlots nB ns := by
  rw [planSlots, List.mem_flatMap]
  refine ⟨b, List.mem_range.2 hb, ?_⟩
  cases d <;> simp

/-- The tail vertex of a source of a propagator is not a free end. -/
theorem source_tail {es : List Edge} {vs : List Vertex} (hv : makeVertices es = .ok vs) {p q : Pid}
    (hp : p.1 < es.length) (hq : q ∈ sources es vs p) :
    q.1 < es.length ∧ q.1 ≠ p.1 ∧ tailEnd es vs q = false := by
  obtain ⟨h1, -, h2, h3⟩ := (mem_sources hv hp).1 hq
  refine ⟨h1, h2, ?_⟩
  have hr := (makeVertices_inv hv).1.srcRange hp
  have hm := partner_mem hv hp
  have hq' : q ∈ inIds vs (src es p) := (mem_inIds hv hr.1 hr.2 q).2 ⟨h1, h3⟩
  unfold tailEnd
  rw [decide_eq_false_iff_not]
  rw [show vid (edge es q.1) (!q.2) = src es p from h3]
  intro hl
  obtain ⟨a, ha⟩ := List.length_eq_one_iff.1 hl
  rw [ha, List.mem_singleton] at hm hq'
  exact h2 (by rw [hq', ← hm])

/-- The head computed on the device. -/
theorem head_fold {blk : Nat → BlockData ℝ n (Half N)} {bead : Bool} {es : List Edge}
    {vs : List Vertex} {st : Pid → Option (Nat → Fld n ℝ)} {mem : Nat → ℝ}
    (hns : ∀ b < es.length, (blk b).ns = ns b ∧ 3 ≤ ns b)
    (hs : Sim arr n bead es vs ns mem st) : ∀ (l : List Pid) (x : Fld n ℝ),
    (∀ q ∈ l, q.1 < es.length ∧ tailEnd es vs q = false ∧ (st q).isSome) →
    (fun i => x i * (l.map (fun s => tailOf blk st s i)).prod) =
    (l.map fun q => ((q.1, Kind.q q.2 (ns q.1 - 1)) : Name)).foldl
      (fun h a => fun i => h i * fld arr n mem a i) x
  | [], x, _ => by simp
  | q :: l, x, h => by
    obtain ⟨h1, h2, h3⟩ := h q (by simp)
    obtain ⟨qs, hq⟩ := Option.isSome_iff_exists.1 h3
    obtain ⟨e1, e2⟩ := hns q.1 h1
    have := hs q h1 qs hq (ns q.1 - 1) (by omega) (by simp [h2])
    simp only [List.foldl_cons, List.map_cons, List.prod_cons]
    rw [← head_fold hns hs l _ fun q' hq' => h q' (by simp [hq']), this]
    funext i
    rw [tailOf, hq, e1]
    ring

section Plan

variable {bead : Bool} {es : List Edge} {vs : List Vertex} {blk : Nat → BlockData ℝ n (Half N)}

theorem solvePlan_spec (L : Lay arr n kS nB ns) (hE : E.Ok M C) (hM : n ≤ M) (hM2 : 2 * kS ≤ M)
    (hes : es.length ≤ nB) (hv : makeVertices es = .ok vs)
    (hns : ∀ b < es.length, (blk b).ns = ns b ∧ 3 ≤ ns b)
    (hC : ∀ p : Pid, p.1 < es.length → (sources es vs p).length + 2 ≤ C) :
    ∀ (plan : List Pid) (fl : Pid → Bool) (st st' : Pid → Option (Nat → Fld n ℝ)) (s : St),
    (∀ p ∈ plan, p.1 < es.length) → Good E s → (∀ p, fl p = (st p).isSome) →
    Sim arr n bead es vs ns s.mem st →
    (∀ b < es.length, Agree bead (arrays arr n ek s.mem b) (blk b).arrays) →
    Solver.solvePlan (dftKin en) bead blk es vs plan st = .ok st' →
    ∃ fl' s', solvePlan en ek E arr bead es vs ns plan (fl, s) = .ok (fl', s') ∧
      Did E arr (planSlots nB ns) s s' ∧ Sim arr n bead es vs ns s'.mem st' ∧
      ∀ b < es.length, Agree bead (arrays arr n ek s'.mem b) (blk b).arrays
  | [], fl, st, st', s, _, hg, _, hs, hA, h => by
    cases h
    exact ⟨fl, s, rfl, (Did.refl hg).mono (by simp), hs, hA⟩
  | p :: ps, fl, st, st', s, hp, hg, hfl, hs, hA, h => by
    have hpb : p.1 < es.length := hp p (by simp)
    have hb : p.1 < nB := by omega
    obtain ⟨hn1, hn3⟩ := hns p.1 hpb
    unfold Solver.solvePlan at h
    split at h
    case isFalse => cases h
    rename_i hready
    have hready' := List.all_eq_true.1 hready
    have hfold := head_fold (arr := arr) hns hs (sources es vs p) (fun _ => 1) fun q hq =>
      ⟨(source_tail hv hpb hq).1, (source_tail hv hpb hq).2.2, hready' q hq⟩
    have hcpu : Solver.computeHead blk es vs st p = some (((sources es vs p).map fun q =>
        ((q.1, Kind.q q.2 (ns q.1 - 1)) : Name)).foldl
          (fun h a => fun i => h i * fld arr n s.mem a i) fun _ => 1) := by
      unfold Solver.computeHead
      by_cases he : headEnd es vs p = true
      · rw [if_pos he, headEnd_sources hv hpb he]
        rfl
      · rw [if_neg he, ← hfold]
        exact foldHead_eq st _ _ hready'
    rw [hcpu] at h
    simp only at h
    obtain ⟨s1, e1, d1, v1⟩ := computeHead_spec L hE hg hM hb p.2 (by omega)
      ((sources es vs p).map fun q => ((q.1, Kind.q q.2 (ns q.1 - 1)) : Name)) (by
        intro a ha
        obtain ⟨q, hq, rfl⟩ := List.mem_map.1 ha
        obtain ⟨t1, t2, t3⟩ := source_tail hv hpb hq
        have t4 := (hns q.1 t1).2
        refine ⟨rfl, ?_, fun e => t2 (Prod.mk.injEq _ _ _ _ ▸ e).1⟩
        rw [L.cap q.1 (by omega)]
        exact if_pos (by omega)) (by rw [List.length_map]; exact hC p hpb)
    obtain ⟨s2, e2, d2, v2⟩ := solveFrom_spec (en := en) (ek := ek) L hE d1.good hM hM2 hb p.2 hn3
      bead (headEnd es vs p) (tailEnd es vs p)
    have a1 : ∀ b < es.length, arrays arr n ek s1.mem b = arrays arr n ek s.mem b := fun b hb' => by
      apply d1.arrays L (show b < nB by omega) <;> simp
    have a2 : ∀ b < es.length, arrays arr n ek s2.mem b = arrays arr n ek s.mem b := fun b hb' => by
      rw [d2.arrays_slots L (by omega), a1 b hb']
    have hslices : ∀ (x : Fld n ℝ) (j : Nat),
        (if bead then slicesBead (dftKin en) (arrays arr n ek s1.mem p.1) (ns p.1) (headEnd es vs p)
            (tailEnd es vs p) x j
          else slicesThread (dftKin en) (arrays arr n ek s1.mem p.1) x j) =
        Solver.solveFrom (dftKin en) bead blk es vs p x j := by
      intro x j
      have hag := hA p.1 hpb
      rw [a1 p.1 hpb, Solver.solveFrom, hn1]
      cases bead
      · exact hag.thread _ _ _
      · exact hag.slices _ _ _ _ _ _
    have hsim : Sim arr n bead es vs ns s2.mem (fun q => if q = p then
        some (Solver.solveFrom (dftKin en) bead blk es vs p (((sources es vs p).map fun q =>
          ((q.1, Kind.q q.2 (ns q.1 - 1)) : Name)).foldl
            (fun h a => fun i => h i * fld arr n s.mem a i) fun _ => 1)) else st q) := by
      intro q hq qs hqs j hj hne
      by_cases hqp : q = p
      · subst hqp
        simp only [if_true, Option.some.injEq] at hqs
        rw [v2 j hj hne, hslices, v1, hqs]
      · simp only [if_neg hqp] at hqs
        have hne' : q.1 ≠ p.1 ∨ q.2 ≠ p.2 := by
          by_contra hc
          push Not at hc
          exact hqp (Prod.ext hc.1 hc.2)
        rw [d2.q_slots L (by omega) hj (by tauto), d1.fld (by
            simp only [List.mem_singleton, Prod.mk.injEq, Kind.q.injEq]; tauto)
          (show (arr (q.1, .q q.2 j)).cap = n by rw [L.cap q.1 (by omega)]; exact if_pos hj) rfl]
        exact hs q hq qs hqs j hj hne
    obtain ⟨fl', s3, e3, d3, hs3, hA3⟩ := solvePlan_spec L hE hM hM2 hes hv hns hC ps
      (fun q => if q = p then true else fl q) _ st' s2 (fun q hq => hp q (by simp [hq])) d2.good
      (by intro q; by_cases hq : q = p <;> simp [hq, hfl]) hsim
      (fun b hb' => by rw [a2 b hb']; exact hA b hb') h
    refine ⟨fl', s3, ?_, ((d1.trans d2).trans d3).mono ?_, hs3, hA3⟩
    · have hall : (sources es vs p).all fl = true :=
        List.all_eq_true.2 fun q hq => by rw [hfl]; exact hready' q hq
      rw [solvePlan, if_pos hall, e1, Res.ok_bind, e2, Res.ok_bind, e3]
    · intro a ha
      simp only [List.mem_append, List.mem_singleton] at ha
      rcases ha with (ha | ha) | ha
      · rw [ha]; exact head_sub _ hb
      · exact slots_sub p.2 hb (by split <;> omega) a ha
      · exact ha

end Plan

/-! ## Functions of propagators -/

section Congr

variable {q0 q1 p0 p1 : Nat → Fld n ℝ}

theorem loop2_congr' {f g : Nat → ℝ} {stop : Nat} (h : ∀ j < stop, f j = g j) : ∀ (k j : Nat) (a : ℝ),
    stop - j ≤ k → loop2 f j stop a = loop2 g j stop a
  | 0, j, a, hk => by
    conv_lhs => rw [loop2, if_neg (by omega)]
    conv_rhs => rw [loop2, if_neg (by omega)]
  | k + 1, j, a, hk => by
    by_cases hj : j < stop
    · conv_lhs => rw [loop2, if_pos hj, h j hj]
      conv_rhs => rw [loop2, if_pos hj]
      exact loop2_congr' h k (j + 2) _ (by omega)
    · conv_lhs => rw [loop2, if_neg hj]
      conv_rhs => rw [loop2, if_neg hj]

theorem concThread_congr {k : Nat} (hk : 0 < k) (ds v : ℝ) (h0 : ∀ j < k, q0 j = p0 j)
    (h1 : ∀ j < k, q1 j = p1 j) :
    Solver.concThread k ds v q0 q1 = Solver.concThread k ds v p0 p1 := by
  unfold Solver.concThread
  funext i
  have e : ∀ j < k, q0 j i * q1 (k - 1 - j) i = p0 j i * p1 (k - 1 - j) i := fun j hj => by
    rw [h0 j (by omega), h1 _ (by omega)]
  simp only [h0 0 hk, h1 (k - 1) (by omega), h0 (k - 1) (by omega), h1 0 hk]
  rw [loop2_congr' (f := fun j => q0 j i * q1 (k - 1 - j) i * 2)
    (g := fun j => p0 j i * p1 (k - 1 - j) i * 2) (fun j hj => by rw [e j (by omega)]) _ _ _ le_rfl,
    loop2_congr' (f := fun j => q0 j i * q1 (k - 1 - j) i * 4)
    (g := fun j => p0 j i * p1 (k - 1 - j) i * 4) (fun j hj => by rw [e j (by omega)]) _ _ _ le_rfl]

theorem concBead_congr {A B : Arrays ℝ n (Half N)} (hA : Agree true A B) {k : Nat} (v : ℝ)
    (h0 : ∀ j < k - 1, q0 j = p0 j) (h1 : ∀ j < k - 1, q1 j = p1 j) :
    Solver.concBead A k v q0 q1 = Solver.concBead B k v p0 p1 := by
  unfold Solver.concBead
  funext i
  have hI : A.expWInv = B.expWInv := by simpa using hA.2.2.2
  simp only [accum_eq, zero_add, hI]
  congr 1
  refine Finset.sum_congr rfl fun j _ => ?_
  rw [h0 (j + 1) (by omega), h1 _ (by omega)]

theorem stressThread_congr {k : Nat} (ds kuhn v : ℝ) (dK : Half N → ℝ)
    (h0 : ∀ j < k, q0 j = p0 j) (h1 : ∀ j < k, q1 j = p1 j) :
    Solver.stressThread en k ds kuhn dK v q0 q1 = Solver.stressThread en k ds kuhn dK v p0 p1 := by
  unfold Solver.stressThread
  simp only [accum_eq, zero_add]
  congr 1
  refine Finset.sum_congr rfl fun j _ => ?_
  rw [h0 j (by omega), h1 _ (by omega)]

theorem stressBead_congr {A B : Arrays ℝ n (Half N)} (hA : Agree true A B) {k : Nat} (hk : 3 ≤ k)
    (he te : Bool) (kuhn v : ℝ) (dK : Half N → ℝ)
    (h0 : ∀ j < k - 1, q0 j = p0 j) (h1 : ∀ j < k - 1, q1 j = p1 j) :
    Solver.stressBead en A k he te kuhn dK v q0 q1 =
      Solver.stressBead en B k he te kuhn dK v p0 p1 := by
  obtain ⟨-, a2, a3, -⟩ := hA
  have hsum : ∀ x : ℝ, accum (k - 3) (fun j => -(waveSum en (fun κ => dK κ * A.expKsq κ) (q0 (j + 1))
      (q1 (k - 2 - (j + 1))) * (kuhn * kuhn / 6))) x = accum (k - 3) (fun j => -(waveSum en
        (fun κ => dK κ * B.expKsq κ) (p0 (j + 1)) (p1 (k - 2 - (j + 1))) * (kuhn * kuhn / 6))) x := by
    intro x
    rw [accum_eq, accum_eq]
    congr 1
    refine Finset.sum_congr rfl fun j _ => ?_
    rw [h0 (j + 1) (by omega), h1 _ (by omega), a2]
  unfold Solver.stressBead
  simp only [hsum, a3, h0 0 (by omega), h1 0 (by omega), h0 (k - 2) (by omega), h1 (k - 2) (by omega)]

theorem computeQ_congr {bead he : Bool} {k : Nat} (hk : 3 ≤ k) (h0 : ∀ j < k - 1, q0 j = p0 j)
    (h1 : ∀ j < k, ¬ (bead = true ∧ he = true ∧ j = k - 1) → q1 j = p1 j) :
    Solver.computeQ bead he k q0 q1 = Solver.computeQ bead he k p0 p1 := by
  unfold Solver.computeQ
  rw [h0 0 (by omega)]
  cases hb : bead && he
  · rw [h1 (k - 1) (by omega) (by rintro ⟨a, b, -⟩; simp [a, b] at hb)]
    rfl
  · rw [h1 (k - 2) (by omega) (by rintro ⟨-, -, h⟩; omega)]
    rfl

end Congr

/-! ## Polymers -/

section Polymer

variable {bead : Bool} {es : List Edge} {vs : List Vertex} {B : Blocks}

/-- Blocks of the CPU program for the fields in device memory. -/
noncomputable def cpuBlocks (arr : Name → DArr) (n : Nat) (ek : Fin kS ≃ Half N) (bead : Bool)
    (B : Blocks) (mem : Nat → ℝ) (k : Nat) : BlockData ℝ n (Half N) :=
  realBlock bead (fld arr n mem (B.mono k, .w)) (B.ns k) (B.ds k) (B.kuhn k)
    (rks arr ek mem (0, .kSq))

/-- If `hasExpKsq_` is set, `expKsq_` and `expKsq2_` hold the values for the present unit cell. -/
def Known (arr : Name → DArr) (n : Nat) (ek : Fin kS ≃ Half N) (bead : Bool) (B : Blocks) (k : Nat)
    (mem : Nat → ℝ) : Prop :=
  B.hasK k = true →
    rks arr ek mem (k, .expKsq) = (cpuBlocks arr n ek bead B mem k).arrays.expKsq ∧
    rks arr ek mem (k, .expKsq2) = (cpuBlocks arr n ek bead B mem k).arrays.expKsq2

/-- Arrays changed by `setupSolver` of `k` blocks. -/
def setupSlots (k : Nat) : List Name := (List.range k).flatMap tables

theorem mem_setupSlots {k : Nat} {a : Name} : a ∈ setupSlots k ↔ a.1 < k ∧ a ∈ tables a.1 := by
  simp only [setupSlots, List.mem_flatMap, List.mem_range]
  constructor
  · rintro ⟨b, hb, h⟩
    have : a.1 = b := by simp [tables] at h; aesop
    rw [this]
    exact ⟨hb, h⟩
  · rintro ⟨h1, h2⟩
    exact ⟨_, h1, h2⟩

theorem setupAll_spec (L : Lay arr n kS nB B.ns) (hE : E.Ok M C) (hg : Good E s)
    (hM : n ≤ M) (hM2 : kS ≤ M) {t : Nat} (ht : t ≤ nB) (h0 : 0 < nB)
    (hmono : ∀ k < t, B.mono k < nB)
    (hK : ∀ k < t, Known arr n ek bead B k s.mem) :
    ∃ s', iter (fun k => setupSolver E arr bead (B.hasK k) k (B.mono k, .w) (B.ds k) (B.kuhn k)) 0 t
        s = .ok s' ∧ Did E arr (setupSlots t) s s' ∧
      ∀ k < t, Agree bead (arrays arr n ek s'.mem k) (cpuBlocks arr n ek bead B s.mem k).arrays := by
  have c0 : (arr (0, .kSq)).cap = kS := L.cap 0 h0 _
  obtain ⟨s', e, hP⟩ := iter_spec t 0 s
    (f := fun k => setupSolver E arr bead (B.hasK k) k (B.mono k, .w) (B.ds k) (B.kuhn k))
    (P := fun i s' => Did E arr (setupSlots i) s s' ∧ ∀ k < i,
      Agree bead (arrays arr n ek s'.mem k) (cpuBlocks arr n ek bead B s.mem k).arrays)
    ⟨(Did.refl hg).mono (by simp), by simp⟩ fun i s1 _ hi hP => by
      obtain ⟨h1, h2⟩ := hP
      have hit : i < t := by omega
      have hib : i < nB := by omega
      have cw : (arr (B.mono i, .w)).cap = n := L.cap _ (hmono i hit) _
      have hw : fld arr n s1.mem (B.mono i, .w) = fld arr n s.mem (B.mono i, .w) :=
        h1.fld (by rw [mem_setupSlots]; simp [tables]) cw rfl
      have hk : rks arr ek s1.mem (0, .kSq) = rks arr ek s.mem (0, .kSq) :=
        h1.rks (by rw [mem_setupSlots]; simp [tables]) c0 rfl
      obtain ⟨s2, e2, d2, v2⟩ := setup_spec (ek := ek) L hE h1.good hM hM2 hib (hmono i hit) bead
        (B.hasK i) (B.ds i) (B.kuhn i) (B.ns i) (by
          intro hh
          have hKi := hK i hit hh
          rw [hw, hk]
          refine ⟨?_, ?_⟩
          · refine Eq.trans (h1.rks (a := (i, .expKsq)) ?_ (L.cap i hib _) rfl) hKi.1
            rw [mem_setupSlots]; simp
          · refine Eq.trans (h1.rks (a := (i, .expKsq2)) ?_ (L.cap i hib _) rfl) hKi.2
            rw [mem_setupSlots]; simp)
      rw [hw, hk] at v2
      refine ⟨s2, e2, (h1.trans d2).mono ?_, fun k hk' => ?_⟩
      · intro a ha
        rw [List.mem_append] at ha
        rw [mem_setupSlots]
        rcases ha with ha | ha
        · rw [mem_setupSlots] at ha
          exact ⟨by omega, ha.2⟩
        · have : a.1 = i := by simp [tables] at ha; aesop
          rw [this]
          exact ⟨by omega, ha⟩
      · rcases Nat.lt_succ_iff_lt_or_eq.1 hk' with h | h
        · have : arrays arr n ek s2.mem k = arrays arr n ek s1.mem k := by
            apply d2.arrays L (show k < nB by omega) <;> simp [tables] <;> omega
          rw [this]
          exact h2 k h
        · rw [h]
          exact v2
  rw [zero_add] at hP
  exact ⟨s', e, hP⟩

theorem conc_spec {st : Pid → Option (Nat → Fld n ℝ)} {blk : Nat → BlockData ℝ n (Half N)}
    (L : Lay arr n kS nB B.ns) (hE : E.Ok M C) (hg : Good E s)
    (hM : n ≤ M) (hes : es.length ≤ nB) (hns : ∀ b < es.length, 3 ≤ B.ns b)
    (hblk : ∀ b < es.length, (blk b).ns = B.ns b ∧ (blk b).ds = B.ds b)
    (hs : Sim arr n bead es vs B.ns s.mem st)
    (hA : ∀ b < es.length, Agree bead (arrays arr n ek s.mem b) (blk b).arrays)
    (phi Q total : ℝ) :
    ∃ s', iter (fun k => if bead then concBead E arr k (B.ns k) (phi / (Q * total))
        else concThread E arr k (B.ns k) (B.ds k) (phi / (Q * total))) 0 es.length s = .ok s' ∧
      Did E arr ((List.range es.length).map fun k => (k, .c)) s s' ∧
      ∀ k < es.length, ∀ c, blockConc bead blk st phi Q total k = some c →
        fld arr n s'.mem (k, .c) = c := by
  obtain ⟨s', e, hP⟩ := iter_spec es.length 0 s
    (f := fun k => if bead then concBead E arr k (B.ns k) (phi / (Q * total))
        else concThread E arr k (B.ns k) (B.ds k) (phi / (Q * total)))
    (P := fun i s' => Did E arr ((List.range i).map fun k => (k, .c)) s s' ∧
      ∀ k < i, ∀ c, blockConc bead blk st phi Q total k = some c → fld arr n s'.mem (k, .c) = c)
    ⟨(Did.refl hg).mono (by simp), by simp⟩ fun i s1 _ hi hP => by
      obtain ⟨h1, h2⟩ := hP
      have hie : i < es.length := by omega
      have hib : i < nB := by omega
      have h3 := hns i hie
      have hsim := hs.frame L hes h1 (by simp)
      have hag : Agree bead (arrays arr n ek s1.mem i) (blk i).arrays := by
        rw [show arrays arr n ek s1.mem i = arrays arr n ek s.mem i by
          apply h1.arrays L hib <;> simp]
        exact hA i hie
      have key : ∃ s2, (if bead then concBead E arr i (B.ns i) (phi / (Q * total))
          else concThread E arr i (B.ns i) (B.ds i) (phi / (Q * total))) s1 = .ok s2 ∧
          Did E arr [(i, .c)] s1 s2 ∧ ∀ c, blockConc bead blk st phi Q total i = some c →
            fld arr n s2.mem (i, .c) = c := by
        cases bead
        · obtain ⟨s2, e2, d2, v2⟩ := concThread_spec L hE h1.good hM hib (by omega) (B.ds i)
            (phi / (Q * total))
          refine ⟨s2, by simpa using e2, d2, fun c hc => ?_⟩
          unfold blockConc at hc
          split at hc
          · rename_i q q' hq hq'
            simp only [Bool.false_eq_true, if_false, Option.some.injEq] at hc
            rw [v2, ← hc, (hblk i hie).1, (hblk i hie).2]
            exact concThread_congr (by omega) _ _
              (fun j hj => hsim (i, false) hie q hq j hj (by simp))
              (fun j hj => hsim (i, true) hie q' hq' j hj (by simp))
          · cases hc
        · obtain ⟨s2, e2, d2, v2⟩ := concBead_spec (ek := ek) L hE h1.good hM hib (phi / (Q * total))
          refine ⟨s2, by simpa using e2, d2, fun c hc => ?_⟩
          unfold blockConc at hc
          split at hc
          · rename_i q q' hq hq'
            simp only [if_true, Option.some.injEq] at hc
            rw [v2, ← hc, (hblk i hie).1]
            exact concBead_congr hag _
              (fun j hj => hsim (i, false) hie q hq j (show j < B.ns i by omega)
                (by rintro ⟨-, -, h⟩; change j = B.ns i - 1 at h; omega))
              (fun j hj => hsim (i, true) hie q' hq' j (show j < B.ns i by omega)
                (by rintro ⟨-, -, h⟩; change j = B.ns i - 1 at h; omega))
          · cases hc
      obtain ⟨s2, e2, d2, v2⟩ := key
      refine ⟨s2, e2, (h1.trans d2).mono ?_, fun k hk c hc => ?_⟩
      · intro a ha
        rw [List.range_succ, List.map_append]
        exact ha
      · rcases Nat.lt_succ_iff_lt_or_eq.1 hk with h | h
        · rw [d2.fld (by simp; omega) (show (arr (k, .c)).cap = n from L.cap k (by omega) _) rfl]
          exact h2 k h c hc
        · subst h
          exact v2 c hc
  rw [zero_add] at hP
  exact ⟨s', e, hP⟩

/-- Arrays changed by `Polymer::compute`. -/
def computeSlots (nB len : Nat) (ns : Nat → Nat) : List Name :=
  setupSlots len ++ planSlots nB ns ++ (List.range len).map fun k => (k, .c)

theorem polymerCompute_spec {plan : List Pid} {st : Pid → Option (Nat → Fld n ℝ)} {Q : ℝ}
    (L : Lay arr n kS nB B.ns) (hE : E.Ok M C) (hg : Good E s)
    (hM : n ≤ M) (hM2 : 2 * kS ≤ M) (hn : n ≤ 2 ^ 24) (h0 : 0 < es.length) (hes : es.length ≤ nB)
    (hmono : ∀ k < es.length, B.mono k < nB) (hns : ∀ k < es.length, 3 ≤ B.ns k)
    (hK : ∀ k < es.length, Known arr n ek bead B k s.mem)
    (hv : makeVertices es = .ok vs) (hplan : ∀ p ∈ plan, p.1 < es.length)
    (hC : ∀ p : Pid, p.1 < es.length → (sources es vs p).length + 2 ≤ C)
    (phiTot total : ℝ) (phiOf : ℝ → ℝ)
    (hcpu : polymerSolve (dftKin en) bead (cpuBlocks arr n ek bead B s.mem) es vs plan phiTot =
      .ok (st, Q)) :
    ∃ s', polymerCompute en ek E arr bead es vs plan B phiTot total phiOf s = .ok (Q, s') ∧
      Did E arr (computeSlots nB es.length B.ns) s s' ∧
      Sim arr n bead es vs B.ns s'.mem st ∧
      (∀ k < es.length, Agree bead (arrays arr n ek s'.mem k)
        (cpuBlocks arr n ek bead B s.mem k).arrays) ∧
      ∀ k < es.length, ∀ c, blockConc bead (cpuBlocks arr n ek bead B s.mem) st (phiOf Q) Q total k =
        some c → fld arr n s'.mem (k, .c) = c := by
  obtain ⟨s1, e1, d1, a1⟩ := setupAll_spec (ek := ek) (bead := bead) L hE hg hM (by omega) hes
    (by omega) hmono hK
  unfold polymerSolve at hcpu
  rw [Res.bind_eq_ok] at hcpu
  obtain ⟨st1, h1, h2⟩ := hcpu
  obtain ⟨fl, s2, e2, d2, sim2, a2⟩ := solvePlan_spec (en := en) (ek := ek) (bead := bead)
    (blk := cpuBlocks arr n ek bead B s.mem) L hE hM hM2 hes hv (fun b hb => ⟨rfl, hns b hb⟩) hC plan
    (fun _ => false) (fun _ => none) st1 s1 hplan d1.good (by simp) (by intro p _ qs h; simp at h) a1 h1
  split at h2
  case h_2 => cases h2
  rename_i q q' hq hq'
  simp only [Res.ok.injEq, Prod.mk.injEq] at h2
  obtain ⟨rfl, hQ⟩ := h2
  have h3 := hns 0 h0
  obtain ⟨s3, e3, d3⟩ := computeQ_spec L hE d2.good hn (show 0 < nB by omega) false h3 bead
    (headEnd es vs (0, false))
  have hQ' : Solver.computeQ bead (headEnd es vs (0, false)) (B.ns 0)
      (fun j => fld arr n s2.mem (0, .q false j)) (fun j => fld arr n s2.mem (0, .q (!false) j)) =
      Solver.computeQ bead (headEnd es vs (0, false)) (B.ns 0) q q' := by
    apply computeQ_congr h3
    · intro j hj
      exact sim2 (0, false) h0 q hq j (show j < B.ns 0 by omega)
        (by rintro ⟨-, -, h⟩; change j = B.ns 0 - 1 at h; omega)
    · intro j hj hne
      exact sim2 (0, true) h0 q' hq' j hj (by
        rintro ⟨u1, u2, u3⟩
        exact hne ⟨u1, (tailEnd_partner (0, false)).symm.trans u2, u3⟩)
  rw [hQ'] at e3
  have sim3 := sim2.frame L hes d3 (by simp)
  have a3 : ∀ k < es.length, Agree bead (arrays arr n ek s3.mem k)
      (cpuBlocks arr n ek bead B s.mem k).arrays := fun k hk => by
    rw [show arrays arr n ek s3.mem k = arrays arr n ek s2.mem k by
      apply d3.arrays L (show k < nB by omega) <;> simp]
    exact a2 k hk
  obtain ⟨s4, e4, d4, v4⟩ := conc_spec (bead := bead) (B := B) L hE d3.good hM hes hns
    (fun b _ => ⟨rfl, rfl⟩) sim3 a3 (phiOf Q) Q total
  refine ⟨s4, ?_, ?_, sim3.frame L hes d4 (by simp), fun k hk => ?_, v4⟩
  · have hQ2 : Solver.computeQ bead (headEnd es vs (0, false)) (B.ns 0) q q' / phiTot = Q := hQ
    unfold polymerCompute
    rw [e1, Res.ok_bind, e2, Res.ok_bind]
    simp only
    rw [e3, Res.ok_bind]
    simp only
    rw [hQ2, e4, Res.ok_bind]
  · refine (((d1.trans d2).trans d3).trans d4).mono ?_
    intro a ha
    simpa [computeSlots] using ha
  · rw [show arrays arr n ek s4.mem k = arrays arr n ek s3.mem k by
      apply d4.arrays L (show k < nB by omega) <;> simp]
    exact a3 k hk

/-- Arrays changed by `Polymer::computeStress`. -/
def polyStressSlots (len : Nat) (ns : Nat → Nat) : List Name :=
  (List.range len).flatMap fun k => stressSlots k (ns k)

theorem mem_stressSlots {b k : Nat} {a : Name} (h : a ∈ stressSlots b k) : a.1 = b ∧
    (a.2 = .rTmp ∨ (∃ d, a.2 = .qkOne d) ∨ ∃ d j, a.2 = .qkAll d j) := by
  simp only [stressSlots, List.mem_append, List.mem_cons, List.not_mem_nil, or_false, List.mem_map]
    at h
  rcases h with ((h | h | h) | ⟨j, -, h⟩) | ⟨j, -, h⟩
  · subst h; exact ⟨rfl, .inr (.inl ⟨_, rfl⟩)⟩
  · subst h; exact ⟨rfl, .inr (.inl ⟨_, rfl⟩)⟩
  · subst h; exact ⟨rfl, .inl rfl⟩
  · subst h; exact ⟨rfl, .inr (.inr ⟨_, _, rfl⟩)⟩
  · subst h; exact ⟨rfl, .inr (.inr ⟨_, _, rfl⟩)⟩

theorem mem_polyStressSlots {len : Nat} {a : Name} (h : a ∈ polyStressSlots len ns) :
    a.2 = .rTmp ∨ (∃ d, a.2 = .qkOne d) ∨ ∃ d j, a.2 = .qkAll d j := by
  simp only [polyStressSlots, List.mem_flatMap] at h
  obtain ⟨b, _, h⟩ := h
  exact (mem_stressSlots h).2

theorem polymerStress_spec {st : Pid → Option (Nat → Fld n ℝ)} {blk : Nat → BlockData ℝ n (Half N)}
    (L : Lay arr n kS nB B.ns) (hE : E.Ok M C) (hg : Good E s) (hn : kS ≤ 2 ^ 24)
    (h0 : 0 < es.length) (hes : es.length ≤ nB)
    (hns : ∀ b < es.length, 3 ≤ B.ns b) (hM : ∀ b < es.length, B.ns b * kS ≤ M)
    (hblk : ∀ b < es.length, (blk b).ns = B.ns b ∧ (blk b).ds = B.ds b)
    (hs : Sim arr n bead es vs B.ns s.mem st)
    (hA : ∀ b < es.length, Agree bead (arrays arr n ek s.mem b) (blk b).arrays)
    (hst : ∀ p : Pid, p.1 < es.length → (st p).isSome) (batched : Bool) (phi Q total : ℝ) :
    ∃ σ s', polymerStress en ek E arr batched bead es vs B phi Q total s = .ok (σ, s') ∧
      Solver.polymerStress en bead blk B.kuhn es vs (rks arr ek s.mem (0, .dKSq)) st phi Q total =
        some σ ∧
      Did E arr (polyStressSlots es.length B.ns) s s' := by
  have cD : (arr (0, .dKSq)).cap = kS := L.cap 0 (by omega) _
  obtain ⟨⟨σ, s'⟩, e, hP⟩ := iter_spec es.length 0 ((0 : ℝ), s)
    (f := fun k p =>
      (if bead then stressBead en ek E arr batched k (B.ns k) (headEnd es vs (k, false))
        (tailEnd es vs (k, false)) (B.kuhn k) (phi / (Q * total)) p.2
       else stressThread en ek E arr batched k (B.ns k) (B.ds k) (B.kuhn k) (phi / (Q * total))
        p.2) >>= fun r => .ok (p.1 + r.1, r.2))
    (P := fun i p => Did E arr (polyStressSlots i B.ns) s p.2 ∧
      (List.range i).foldl (fun acc k =>
        match acc, blockStress en bead blk B.kuhn es vs (rks arr ek s.mem (0, .dKSq)) st phi Q total
          k with
        | some a, some s => some (a + s)
        | _, _ => none) (some 0) = some p.1)
    ⟨(Did.refl hg).mono (by simp), by simp⟩ fun i p _ hi hP => by
      obtain ⟨x, s1⟩ := p
      obtain ⟨h1, h2⟩ := hP
      simp only at h1 h2
      have hie : i < es.length := by omega
      have hib : i < nB := by omega
      have h3 := hns i hie
      have hsim := hs.frame L hes h1 (fun b d j hc => by
        have := mem_polyStressSlots hc; simp at this)
      have hdk : rks arr ek s1.mem (0, .dKSq) = rks arr ek s.mem (0, .dKSq) :=
        h1.rks (fun hc => by have := mem_polyStressSlots hc; simp at this) cD rfl
      have hag : Agree bead (arrays arr n ek s1.mem i) (blk i).arrays := by
        rw [show arrays arr n ek s1.mem i = arrays arr n ek s.mem i by
          apply h1.arrays L hib <;> (intro hc; have := mem_polyStressSlots hc; simp at this)]
        exact hA i hie
      obtain ⟨q, hq⟩ := Option.isSome_iff_exists.1 (hst (i, false) hie)
      obtain ⟨q', hq'⟩ := Option.isSome_iff_exists.1 (hst (i, true) hie)
      have key : ∃ y s2, (if bead then stressBead en ek E arr batched i (B.ns i)
          (headEnd es vs (i, false)) (tailEnd es vs (i, false)) (B.kuhn i) (phi / (Q * total)) s1
        else stressThread en ek E arr batched i (B.ns i) (B.ds i) (B.kuhn i) (phi / (Q * total))
          s1) = .ok (y, s2) ∧ Did E arr (stressSlots i (B.ns i)) s1 s2 ∧
          blockStress en bead blk B.kuhn es vs (rks arr ek s.mem (0, .dKSq)) st phi Q total i =
            some y := by
        cases bead
        · obtain ⟨s2, e2, d2⟩ := stressThread_spec (en := en) (ek := ek) L hE h1.good hn hib (by omega)
            (hM i hie) batched (B.ds i) (B.kuhn i) (phi / (Q * total))
          refine ⟨_, s2, e2, d2, ?_⟩
          unfold blockStress
          rw [hq, hq']
          simp only [Bool.false_eq_true, if_false, Option.some.injEq]
          rw [(hblk i hie).1, (hblk i hie).2, hdk]
          exact (stressThread_congr _ _ _ _
              (fun j hj => hsim (i, false) hie q hq j hj (by simp))
              (fun j hj => hsim (i, true) hie q' hq' j hj (by simp))).symm
        · obtain ⟨s2, e2, d2⟩ := stressBead_spec (en := en) (ek := ek) L hE h1.good hn hib h3
            (hM i hie) batched (headEnd es vs (i, false)) (tailEnd es vs (i, false)) (B.kuhn i)
            (phi / (Q * total))
          refine ⟨_, s2, e2, d2, ?_⟩
          unfold blockStress
          rw [hq, hq']
          simp only [if_true, Option.some.injEq]
          rw [(hblk i hie).1, hdk]
          exact (stressBead_congr hag h3 _ _ _ _ _
              (fun j hj => hsim (i, false) hie q hq j (show j < B.ns i by omega)
                (by rintro ⟨-, -, h⟩; change j = B.ns i - 1 at h; omega))
              (fun j hj => hsim (i, true) hie q' hq' j (show j < B.ns i by omega)
                (by rintro ⟨-, -, h⟩; change j = B.ns i - 1 at h; omega))).symm
      obtain ⟨y, s2, e2, d2, v2⟩ := key
      refine ⟨(x + y, s2), by rw [e2, Res.ok_bind], (h1.trans d2).mono ?_, ?_⟩
      · intro a ha
        rw [polyStressSlots, List.range_succ, List.flatMap_append]
        simpa [polyStressSlots] using ha
      · rw [List.range_succ, List.foldl_append, h2]
        simp only [List.foldl_cons, List.foldl_nil, v2]
  rw [zero_add] at hP
  exact ⟨σ, s', e, hP.2, hP.1⟩

/-- A solvent on the device. -/
theorem solvent_spec (L : Lay arr n kS nB ns) (hE : E.Ok M C) (hg : Good E s)
    (hM : n ≤ M) (hn : n ≤ 2 ^ 24) {b w : Nat} (hb : b < nB) (hw : w < nB) (size phiTot : ℝ)
    (phiOf : ℝ → ℝ) :
    ∃ s', solventCompute E arr n b w size phiTot phiOf s = .ok
        ((solventConc (fun i => Real.exp (-size * fld arr n s.mem (w, .w) i)) phiTot phiOf).1, s') ∧
      fld arr n s'.mem (b, .c) =
        (solventConc (fun i => Real.exp (-size * fld arr n s.mem (w, .w) i)) phiTot phiOf).2 ∧
      Did E arr [(b, .c)] s s' := by
  have cc : (arr (b, .c)).cap = n := L.cap b hb _
  have cw : (arr (w, .w)).cap = n := L.cap w hw _
  have h0 := L.n0
  obtain ⟨s1, e1, d1, v1⟩ := expVc_spec L hE hg (b, .c) (w, .w) n rfl rfl cc cw h0 hM (-1 * size)
  obtain ⟨s2, e2, d2⟩ := sumDev_spec (arr := arr) hE d1.good (arr (b, .c)) (by omega) (by omega)
  have hf1 : fld arr n s1.mem (b, .c) = fun i => Real.exp (-size * fld arr n s.mem (w, .w) i) := by
    funext i
    refine (v1 i i.2).trans ?_
    congr 1
    unfold fld
    ring
  have hQ : (∑ i : Fin (arr (b, .c)).cap, s1.mem ((arr (b, .c)).base + i)) =
      ∑ i : Fin n, Real.exp (-size * fld arr n s.mem (w, .w) i) := by
    rw [sum_cast cc fun i => s1.mem ((arr (b, .c)).base + i)]
    exact Finset.sum_congr rfl fun i _ => congrFun hf1 i
  rw [hQ] at e2
  generalize hv : (∑ i : Fin n, Real.exp (-size * fld arr n s.mem (w, .w) i)) = v at e2
  obtain ⟨s3, e3, d3, v3⟩ := mulEqS_spec L hE d2.good (b, .c) rfl cc hM
    (phiOf (v / (n : ℝ) / phiTot) / (v / (n : ℝ) / phiTot))
  refine ⟨s3, ?_, ?_, ((d1.trans d2).trans d3).mono (by simp)⟩
  · unfold solventCompute solventConc
    rw [e1, Res.ok_bind, e2, Res.ok_bind]
    simp only [accum_eq, zero_add, hv]
    rw [e3, Res.ok_bind]
  · rw [v3, d2.fld (by simp) cc rfl, hf1]
    unfold solventConc
    simp only [accum_eq, zero_add, hv]

end Polymer

end Verif.Rpg
