import Verif.Rpg.PropLemmas
import Verif.Cuda.ReduceProps

/-!
# Lemmas about concentrations, partition functions and stress on the device
-/

set_option autoImplicit false
set_option linter.unusedSectionVars false

namespace Verif.Rpg

open Verif.Cuda Verif.Solver

variable {E : Env} {M C : Nat} {arr : Name → DArr} {n kS nB : Nat} {ns : Nat → Nat}
  {m : Nat} {N : Fin (m + 1) → Nat} [∀ d, NeZero (N d)] {en : Fin n ≃ Grid N}
  {ek : Fin kS ≃ Half N} {s s' : St}

/-! ## Concentrations -/

theorem iter2_spec {c : Name} {f : Nat → St → Res St} {g : Fin n → Nat → ℝ} {stop : Nat} {s0 : St}
    (hf : ∀ j s, j < stop → Did E arr [c] s0 s → ∃ s', f j s = .ok s' ∧ Did E arr [c] s0 s' ∧
      fld arr n s'.mem c = fun i => fld arr n s.mem c i + g i j) : ∀ (k j : Nat) (s : St),
    stop - j ≤ k → Did E arr [c] s0 s → ∃ s', iter2 f j stop s = .ok s' ∧ Did E arr [c] s0 s' ∧
      fld arr n s'.mem c = fun i => loop2 (g i) j stop (fld arr n s.mem c i)
  | 0, j, s, hk, hd => by
    rw [iter2, if_neg (by omega)]
    exact ⟨s, rfl, hd, funext fun i => by rw [loop2, if_neg (by omega)]⟩
  | k + 1, j, s, hk, hd => by
    rw [iter2]
    by_cases hj : j < stop
    · rw [if_pos hj]
      obtain ⟨s1, e1, d1, v1⟩ := hf j s hj hd
      obtain ⟨s2, e2, d2, v2⟩ := iter2_spec hf k (j + 2) s1 (by omega) d1
      refine ⟨s2, by rw [e1, Res.ok_bind, e2], d2, ?_⟩
      rw [v2]
      funext i
      rw [v1]
      conv_rhs => rw [loop2, if_pos hj]
    · rw [if_neg hj]
      exact ⟨s, rfl, hd, funext fun i => by rw [loop2, if_neg hj]⟩

theorem concThread_spec (L : Lay arr n kS nB ns) (hE : E.Ok M C) (hg : Good E s)
    (hM : n ≤ M) {b : Nat} (hb : b < nB) (h3 : 0 < ns b) (ds prefactor : ℝ) :
    ∃ s', concThread E arr b (ns b) ds prefactor s = .ok s' ∧ Did E arr [(b, .c)] s s' ∧
      fld arr n s'.mem (b, .c) = Solver.concThread (ns b) ds prefactor
        (fun j => fld arr n s.mem (b, .q false j)) (fun j => fld arr n s.mem (b, .q true j)) := by
  have cq : ∀ d, ∀ j < ns b, (arr (b, .q d j)).cap = n := fun d j hj => by
    rw [L.cap b hb]; exact if_pos hj
  have cc : (arr (b, .c)).cap = n := L.cap b hb _
  have hq : ∀ {s1}, Did E arr [(b, .c)] s s1 → ∀ d, ∀ j < ns b,
      fld arr n s1.mem (b, .q d j) = fld arr n s.mem (b, .q d j) := fun h d j hj =>
    h.fld (by simp) (cq d j hj) rfl
  have step : ∀ (v : ℝ) (j j' : Nat) (s1 : St), j < ns b → j' < ns b → Did E arr [(b, .c)] s s1 →
      ∃ s2, addEqMulVVc E (arr (b, .c)) (arr (b, .q false j)) (arr (b, .q true j')) v s1 =
        .ok s2 ∧ Did E arr [(b, .c)] s s2 ∧ fld arr n s2.mem (b, .c) = fun i =>
          fld arr n s1.mem (b, .c) i + fld arr n s.mem (b, .q false j) i *
            fld arr n s.mem (b, .q true j') i * v := by
    intro v j j' s1 hj hj' h1
    obtain ⟨s2, e2, d2, v2⟩ := fma_spec L hE h1.good (b, .c) (b, .q false j) (b, .q true j') rfl rfl
      rfl cc (cq _ _ hj) (cq _ _ hj') (by simp) (by simp) hM v
    refine ⟨s2, e2, (h1.trans d2).mono (by simp), ?_⟩
    rw [v2, hq h1 _ _ hj, hq h1 _ _ hj']
  obtain ⟨s1, e1, d1, v1⟩ := eqS_spec L hE hg (b, .c) rfl cc hM 0
  obtain ⟨s2, e2, d2, v2⟩ := step 1 0 (ns b - 1 - 0) s1 h3 (by omega) d1
  obtain ⟨s3, e3, d3, v3⟩ := step 1 (ns b - 1) 0 s2 (by omega) h3 d2
  obtain ⟨s4, e4, d4, v4⟩ := iter2_spec (c := (b, .c)) (s0 := s) (stop := ns b - 1)
    (f := fun j => addEqMulVVc E (arr (b, .c)) (arr (b, .q false j))
      (arr (b, .q true (ns b - 1 - j))) 4)
    (g := fun i j => fld arr n s.mem (b, .q false j) i *
            fld arr n s.mem (b, .q true (ns b - 1 - j)) i * 4)
    (fun j s1 hj h => step 4 j (ns b - 1 - j) s1 (by omega) (by omega) h) _ 1 s3 le_rfl d3
  obtain ⟨s5, e5, d5, v5⟩ := iter2_spec (c := (b, .c)) (s0 := s) (stop := ns b - 2)
    (f := fun j => addEqMulVVc E (arr (b, .c)) (arr (b, .q false j))
      (arr (b, .q true (ns b - 1 - j))) 2)
    (g := fun i j => fld arr n s.mem (b, .q false j) i *
            fld arr n s.mem (b, .q true (ns b - 1 - j)) i * 2)
    (fun j s1 hj h => step 2 j (ns b - 1 - j) s1 (by omega) (by omega) h) _ 2 s4 le_rfl d4
  obtain ⟨s6, e6, d6, v6⟩ := mulEqS_spec L hE d5.good (b, .c) rfl cc hM (prefactor * ds / 3)
  refine ⟨s6, ?_, (d5.trans d6).mono (by simp), ?_⟩
  · simp only [concThread, e1, e2, e3, e4, e5, e6, Res.ok_bind]
  · rw [v6, v5, v4, v3, v2, v1]
    funext i
    unfold Solver.concThread
    simp only [mul_one, Nat.sub_zero]
    rw [mul_div_assoc]

theorem concBead_spec (L : Lay arr n kS nB ns) (hE : E.Ok M C) (hg : Good E s)
    (hM : n ≤ M) {b : Nat} (hb : b < nB) (prefactor : ℝ) :
    ∃ s', concBead E arr b (ns b) prefactor s = .ok s' ∧ Did E arr [(b, .c)] s s' ∧
      fld arr n s'.mem (b, .c) = Solver.concBead (arrays arr n ek s.mem b) (ns b) prefactor
        (fun j => fld arr n s.mem (b, .q false j)) (fun j => fld arr n s.mem (b, .q true j)) := by
  have cq : ∀ d, ∀ j < ns b, (arr (b, .q d j)).cap = n := fun d j hj => by
    rw [L.cap b hb]; exact if_pos hj
  have cc : (arr (b, .c)).cap = n := L.cap b hb _
  have ci : (arr (b, .expWInv)).cap = n := L.cap b hb _
  obtain ⟨s1, e1, d1, v1⟩ := eqS_spec L hE hg (b, .c) rfl cc hM 0
  obtain ⟨s2, e2, d2, v2⟩ := iter_spec (ns b - 2) 1 s1
    (f := fun j => addEqMulVVV E (arr (b, .c)) (arr (b, .q false j)) (arr (b, .q true (ns b - 1 - j)))
      (arr (b, .expWInv)))
    (P := fun i s' => Did E arr [(b, .c)] s s' ∧ fld arr n s'.mem (b, .c) = fun x =>
      ∑ j ∈ Finset.range (i - 1), fld arr n s.mem (b, .q false (j + 1)) x *
        fld arr n s.mem (b, .q true (ns b - 1 - (j + 1))) x * fld arr n s.mem (b, .expWInv) x)
    ⟨d1, by rw [v1]; simp⟩ fun i s1 h1 hi hP => by
      obtain ⟨h, hv⟩ := hP
      obtain ⟨s2, e2, d2, v2⟩ := fmaV_spec L hE h.good (b, .c) (b, .q false i)
        (b, .q true (ns b - 1 - i)) (b, .expWInv) rfl rfl rfl rfl cc (cq _ _ (by omega))
        (cq _ _ (by omega)) ci (by simp) (by simp) (by simp) hM
      refine ⟨s2, e2, (h.trans d2).mono (by simp), ?_⟩
      rw [v2, hv, h.fld (by simp) (cq _ _ (by omega)) rfl, h.fld (by simp) (cq _ _ (by omega)) rfl,
        h.fld (by simp) ci rfl]
      funext x
      obtain ⟨i, rfl⟩ : ∃ i', i = i' + 1 := ⟨i - 1, by omega⟩
      simp only [Nat.add_sub_cancel]
      rw [Finset.sum_range_succ]
  obtain ⟨s3, e3, d3, v3⟩ := mulEqS_spec L hE d2.good (b, .c) rfl cc hM prefactor
  refine ⟨s3, ?_, (d2.trans d3).mono (by simp), ?_⟩
  · simp only [concBead, e1, e2, e3, Res.ok_bind]
  · rw [v3, v2]
    funext x
    unfold Solver.concBead
    rw [accum_eq, zero_add, Nat.add_sub_cancel_left]
    beta_reduce
    rw [← Fin.sum_univ_eq_sum_range (fun j => fld arr n s.mem (b, .q false (j + 1)) x *
      fld arr n s.mem (b, .q true (ns b - 1 - (j + 1))) x * fld arr n s.mem (b, .expWInv) x)]
    rfl

/-! ## Sums -/

theorem gpuSum_uses {d : Device} {sch : Nat → Nat → Nat → List Nat} (hd : d.Ok) {ta : TA} {T : Nat}
    (hta : ta.Uses d T) (hs : FairSched sch) (l : List ℝ) (h0 : 0 < l.length)
    (hle : l.length ≤ 2 ^ 24) : ∃ ta' T', gpuSum d sch ta (l.length + 2) l = some (.ok (l.sum, ta')) ∧
      ta'.Uses d T' := by
  have hT := max64_pow hd hta
  obtain ⟨out, ta', h1, h2, h3, h4⟩ := reduced_ok hd (always := false) (k0 := kSum) (k1 := kSum)
    (sch := sch) (input := l) (A1 := fun x => x.sum = l.sum) hta h0 (by omega)
    (fun _ => sum_level hs hT l 0 hle rfl) (fun x i _ hx hA => sum_level hs hT x i hx hA) le_rfl
  have h5 : out.sum = l.sum := by
    by_cases hc : 100000 ≤ l.length ∨ false = true
    · rwa [if_pos hc] at h4
    · rw [if_neg hc] at h4
      rw [h4]
  refine ⟨ta', _, ?_, h3⟩
  rw [gpuSum, finish, h1]
  simp [hostSum_eq, h5]

theorem gpuInner_uses {d : Device} {sch : Nat → Nat → Nat → List Nat} (hd : d.Ok) {ta : TA} {T : Nat}
    (hta : ta.Uses d T) (hs : FairSched sch) (a b : List ℝ) (hab : a.length = b.length)
    (h0 : 0 < a.length) (hle : a.length ≤ 2 ^ 24) :
    ∃ ta' T', gpuInner d sch ta (a.length + 2) a b =
      some (.ok ((List.zipWith (· * ·) a b).sum, ta')) ∧ ta'.Uses d T' := by
  have hT := max64_pow hd hta
  have hlen : (List.zipWith (· * ·) a b).length = a.length := by simp [hab]
  obtain ⟨out, ta', h1, h2, h3, h4⟩ := reduced_ok hd (always := true) (k0 := kSum) (k1 := kSum)
    (sch := sch) (input := List.zipWith (· * ·) a b)
    (A1 := fun x => x.sum = (List.zipWith (· * ·) a b).sum) hta (by omega) (by omega)
    (fun _ => sum_level hs hT _ 0 (by omega) rfl)
    (fun x i _ hx hA => sum_level hs hT x i hx hA) (fuel := a.length + 2) (by omega)
  rw [if_pos (.inr rfl)] at h4
  refine ⟨ta', _, ?_, h3⟩
  rw [gpuInner, if_neg (by omega), finish, h1]
  simp only [Option.map_some, Res.ok_bind, hostSum_eq, h4]

theorem sum_range_map (f : Nat → ℝ) : ∀ k : Nat, ((List.range k).map f).sum = ∑ i : Fin k, f i
  | 0 => by simp
  | k + 1 => by
    rw [List.range_succ, List.map_append, List.sum_append, sum_range_map f k, Fin.sum_univ_castSucc]
    simp

theorem sumDev_spec (hE : E.Ok M C) (hg : Good E s) (A : DArr) (h0 : 0 < A.cap)
    (hle : A.cap ≤ 2 ^ 24) : ∃ s', sumDev E A s = .ok (∑ i : Fin A.cap, s.mem (A.base + i), s') ∧
      Did E arr [] s s' := by
  obtain ⟨T, hT⟩ := hg
  have hl : (elems A s).length = A.cap := by simp [elems]
  obtain ⟨ta', T', h1, h2⟩ := gpuSum_uses hE.dev hT (hE.red s.clock) (elems A s) (by omega) (by omega)
  refine ⟨⟨ta', s.mem, s.clock + 1⟩, ?_, ⟨T', h2⟩, fun _ _ _ _ => rfl⟩
  rw [hl] at h1
  rw [sumDev, h1, elems, sum_range_map]
  rfl

theorem innerDev_spec (hE : E.Ok M C) (hg : Good E s) (A B : DArr) (h0 : 0 < A.cap)
    (hle : A.cap ≤ 2 ^ 24) (hAB : B.cap = A.cap) :
    ∃ s', innerDev E A B s = .ok (∑ i : Fin A.cap, s.mem (A.base + i) * s.mem (B.base + i), s') ∧
      Did E arr [] s s' := by
  obtain ⟨T, hT⟩ := hg
  have hl : (elems A s).length = A.cap := by simp [elems]
  have hl' : (elems B s).length = A.cap := by simp [elems, hAB]
  obtain ⟨ta', T', h1, h2⟩ := gpuInner_uses hE.dev hT (hE.red s.clock) (elems A s) (elems B s)
    (by omega) (by omega) (by omega)
  refine ⟨⟨ta', s.mem, s.clock + 1⟩, ?_, ⟨T', h2⟩, fun _ _ _ _ => rfl⟩
  rw [hl] at h1
  have e : List.zipWith (· * ·) (elems A s) (elems B s) =
      (List.range A.cap).map fun i => s.mem (A.base + i) * s.mem (B.base + i) := by
    rw [elems, elems, hAB, List.zipWith_map, List.zipWith_self]
  rw [innerDev, h1, e, sum_range_map (fun i => s.mem (A.base + i) * s.mem (B.base + i))]
  rfl

theorem sum_cast {k l : Nat} (h : k = l) (f : Nat → ℝ) : ∑ i : Fin k, f i = ∑ i : Fin l, f i := by
  subst h; rfl

/-- `Q` of a propagator. -/
theorem computeQ_spec (L : Lay arr n kS nB ns) (hE : E.Ok M C) (hg : Good E s)
    (hn : n ≤ 2 ^ 24) {b : Nat} (hb : b < nB) (d : Bool) (h3 : 3 ≤ ns b) (bead he : Bool) :
    ∃ s', computeQ E arr n bead he b d (ns b) s = .ok (Solver.computeQ bead he (ns b)
        (fun j => fld arr n s.mem (b, .q d j)) (fun j => fld arr n s.mem (b, .q (!d) j)), s') ∧
      Did E arr [] s s' := by
  have cq : ∀ d, ∀ j < ns b, (arr (b, .q d j)).cap = n := fun d j hj => by
    rw [L.cap b hb]; exact if_pos hj
  have c1 := cq (!d) (ns b - 2) (by omega)
  have c2 := cq (!d) (ns b - 1) (by omega)
  have c0 := cq d 0 (by omega)
  have h0 := L.n0
  unfold computeQ Solver.computeQ prodSum
  cases bead && he
  · obtain ⟨s', e, h⟩ := innerDev_spec (arr := arr) hE hg (arr (b, .q d 0))
      (arr (b, .q (!d) (ns b - 1))) (by omega) (by omega) (by omega)
    refine ⟨s', ?_, h⟩
    simp only [Bool.false_eq_true, if_false, e, Res.ok_bind, accum_eq, zero_add]
    rw [sum_cast c0 fun i => s.mem ((arr (b, .q d 0)).base + i) *
      s.mem ((arr (b, .q (!d) (ns b - 1))).base + i)]
    rfl
  · obtain ⟨s', e, h⟩ := sumDev_spec (arr := arr) hE hg (arr (b, .q (!d) (ns b - 2))) (by omega)
      (by omega)
    refine ⟨s', ?_, h⟩
    simp only [if_true, e, Res.ok_bind, accum_eq, zero_add]
    rw [sum_cast c1 fun i => s.mem ((arr (b, .q (!d) (ns b - 2))).base + i)]
    rfl

/-! ## Arrays of the solver -/

/-- Values that a solution of the given model depends on. -/
def Agree (bead : Bool) (A B : Arrays ℝ n (Half N)) : Prop :=
  A.expW = B.expW ∧ A.expKsq = B.expKsq ∧ A.expKsq2 = B.expKsq2 ∧
    if bead then A.expWInv = B.expWInv else A.expW2 = B.expW2

theorem Agree.thread {A B : Arrays ℝ n (Half N)} (h : Agree false A B) (kin : Kin ℝ n (Half N))
    (q : Fld n ℝ) : ∀ j, slicesThread kin A q j = slicesThread kin B q j
  | 0 => rfl
  | j + 1 => by
    obtain ⟨h1, h2, h3, h4⟩ := h
    simp only [Bool.false_eq_true, if_false] at h4
    rw [slicesThread, slicesThread, Agree.thread ⟨h1, h2, h3, by simpa using h4⟩ kin q j]
    unfold Solver.stepThread
    rw [h1, h2, h3, h4]

theorem Agree.beads {A B : Arrays ℝ n (Half N)} (h : Agree true A B) (kin : Kin ℝ n (Half N))
    (he : Bool) (q : Fld n ℝ) : ∀ j, Solver.beads kin A he q j = Solver.beads kin B he q j
  | 0 => by
    obtain ⟨h1, h2, h3, h4⟩ := h
    unfold Solver.beads Solver.stepFieldBead stepHalfBondBead
    rw [h1, h3]
  | j + 1 => by
    have ih := h.beads kin he q j
    obtain ⟨h1, h2, h3, h4⟩ := h
    rw [Solver.beads, Solver.beads, ih]
    unfold Solver.stepBead Solver.stepFieldBead
    rw [h1, h2]

theorem Agree.slices {A B : Arrays ℝ n (Half N)} (h : Agree true A B) (kin : Kin ℝ n (Half N))
    (ns : Nat) (he te : Bool) (q : Fld n ℝ) (j : Nat) :
    slicesBead kin A ns he te q j = slicesBead kin B ns he te q j := by
  unfold slicesBead stepHalfBondBead
  rw [h.beads kin, h.beads kin, h.2.2.1]

theorem expVc_spec (L : Lay arr n kS nB ns) (hE : E.Ok M C) (hg : Good E s) (A B : Name) (sz : Nat)
    (hw : A.2.wd = 1) (hwB : B.2.wd = 1) (hA : (arr A).cap = sz) (hB : (arr B).cap = sz)
    (h0 : 0 < sz) (hM : sz ≤ M) (v : ℝ) :
    ∃ s', expVc E (arr A) (arr B) v s = .ok s' ∧ Did E arr [A] s s' ∧
      ∀ i < sz, s'.mem ((arr A).base + i) = Real.exp (s.mem ((arr B).base + i) * v) :=
  un_spec L hE hg A B sz hw hwB hA hB h0 hM (fun x => Real.exp (x * v))

/-- Arrays changed by `setupSolver`. -/
def tables (b : Nat) : List Name :=
  [(b, .expW), (b, .expW2), (b, .expWInv), (b, .expKsq), (b, .expKsq2)]

theorem computeExpKsq_spec (L : Lay arr n kS nB ns) (hE : E.Ok M C) (hg : Good E s)
    (hM2 : kS ≤ M) {b : Nat} (hb : b < nB) (bead : Bool) (ds kuhn : ℝ) :
    ∃ s', computeExpKsq E arr bead b ds kuhn s = .ok s' ∧
      Did E arr [(b, .expKsq), (b, .expKsq2)] s s' ∧
      rks arr ek s'.mem (b, .expKsq) = (fun κ => Real.exp (rks arr ek s.mem (0, .kSq) κ *
        (if bead then -1 * kuhn * kuhn / 6 else -1 * kuhn * kuhn / 6 * ds))) ∧
      rks arr ek s'.mem (b, .expKsq2) = fun κ => Real.exp (1 / 2 * (rks arr ek s.mem (0, .kSq) κ *
        (if bead then -1 * kuhn * kuhn / 6 else -1 * kuhn * kuhn / 6 * ds))) := by
  have ck : ∀ k : Kind, k.size n kS (ns b) = kS → (arr (b, k)).cap = kS := fun k h => by
    rw [L.cap b hb, h]
  have c0 : (arr (0, .kSq)).cap = kS := L.cap 0 (by omega) _
  generalize hv : (if bead then -1 * kuhn * kuhn / 6 else -1 * kuhn * kuhn / 6 * ds) = v
  obtain ⟨s1, e1, d1, v1⟩ := expVc_spec L hE hg (b, .expKsq) (0, .kSq) kS rfl rfl (ck _ rfl) c0 L.kS0
    hM2 v
  obtain ⟨s2, e2, d2, v2⟩ := expVc_spec L hE d1.good (b, .expKsq2) (0, .kSq) kS rfl rfl (ck _ rfl) c0
    L.kS0 hM2 (v / 2)
  refine ⟨s2, ?_, d1.trans d2, ?_, ?_⟩
  · unfold computeExpKsq
    simp only [hv, e1, e2, Res.ok_bind]
  · rw [d2.rks (by simp) (ck .expKsq rfl) rfl]
    funext κ
    exact v1 _ (ek.symm κ).2
  · funext κ
    have := v2 _ (ek.symm κ).2
    rw [d1.same (0, .kSq) (by simp) _ (by rw [c0]; simp [Kind.wd])] at this
    rw [rks, this]
    congr 1
    unfold rks
    ring

/-- The arrays after `setupSolver`. -/
theorem setup_spec (L : Lay arr n kS nB ns) (hE : E.Ok M C) (hg : Good E s)
    (hM : n ≤ M) (hM2 : kS ≤ M) {b w : Nat} (hb : b < nB) (hw : w < nB) (bead hasK : Bool)
    (ds kuhn : ℝ) (nsb : Nat)
    (hK : hasK = true →
      (arrays arr n ek s.mem b).expKsq = (realBlock bead (fld arr n s.mem (w, .w)) nsb ds kuhn
        (rks arr ek s.mem (0, .kSq))).arrays.expKsq ∧
      (arrays arr n ek s.mem b).expKsq2 = (realBlock bead (fld arr n s.mem (w, .w)) nsb ds kuhn
        (rks arr ek s.mem (0, .kSq))).arrays.expKsq2) :
    ∃ s', setupSolver E arr bead hasK b (w, .w) ds kuhn s = .ok s' ∧ Did E arr (tables b) s s' ∧
      Agree bead (arrays arr n ek s'.mem b) (realBlock bead (fld arr n s.mem (w, .w)) nsb ds kuhn
        (rks arr ek s.mem (0, .kSq))).arrays := by
  have cn : ∀ k : Kind, k.size n kS (ns b) = n → (arr (b, k)).cap = n := fun k h => by
    rw [L.cap b hb, h]
  have ck : ∀ k : Kind, k.size n kS (ns b) = kS → (arr (b, k)).cap = kS := fun k h => by
    rw [L.cap b hb, h]
  have c0 : (arr (0, .kSq)).cap = kS := L.cap 0 (by omega) _
  have cw : (arr (w, .w)).cap = n := L.cap w hw _
  have hk : ∀ s1 : St, Did E arr [(b, .expW), (b, .expW2), (b, .expWInv)] s s1 →
      ∃ s', (if hasK = true then Res.ok s1 else computeExpKsq E arr bead b ds kuhn s1) = .ok s' ∧
        Did E arr [(b, .expKsq), (b, .expKsq2)] s1 s' ∧
        rks arr ek s'.mem (b, .expKsq) = (realBlock bead (fld arr n s.mem (w, .w)) nsb ds kuhn
          (rks arr ek s.mem (0, .kSq))).arrays.expKsq ∧
        rks arr ek s'.mem (b, .expKsq2) = (realBlock bead (fld arr n s.mem (w, .w)) nsb ds kuhn
          (rks arr ek s.mem (0, .kSq))).arrays.expKsq2 := by
    intro s1 d1
    cases hasK
    · obtain ⟨s2, e2, d2, v2, v2'⟩ := computeExpKsq_spec (ek := ek) L hE d1.good hM2 hb bead ds kuhn
      refine ⟨s2, e2, d2, ?_, ?_⟩
      · rw [v2, d1.rks (by simp) c0 rfl]
        cases bead <;> rfl
      · rw [v2', d1.rks (by simp) c0 rfl]
        cases bead <;> rfl
    · obtain ⟨k1, k2⟩ := hK rfl
      refine ⟨s1, rfl, (Did.refl d1.good).mono (by simp), ?_, ?_⟩
      · rw [← k1, d1.rks (by simp) (ck .expKsq rfl) rfl]; rfl
      · rw [← k2, d1.rks (by simp) (ck .expKsq2 rfl) rfl]; rfl
  cases bead
  · obtain ⟨s1, e1, d1, v1⟩ := expVc_spec L hE hg (b, .expW) (w, .w) n rfl rfl (cn _ rfl) cw L.n0 hM
      (-(1 / 2) * ds)
    obtain ⟨s2, e2, d2, v2⟩ := expVc_spec L hE d1.good (b, .expW2) (w, .w) n rfl rfl (cn _ rfl) cw
      L.n0 hM (-(1 / 4) * ds)
    obtain ⟨s3, e3, d3, v3, v3'⟩ := hk s2 ((d1.trans d2).mono (by simp))
    refine ⟨s3, ?_, ((d1.trans d2).trans d3).mono ?_, ?_, v3, v3', ?_⟩
    · simp only [setupSolver, Bool.false_eq_true, if_false, e1, e2, Res.ok_bind]
      exact e3
    · intro a ha
      simp only [List.mem_append, List.mem_cons, List.not_mem_nil, or_false, tables] at ha ⊢
      tauto
    · show fld arr n s3.mem (b, .expW) = _
      rw [(d2.trans d3).fld (by simp) (cn .expW rfl) rfl]
      funext i
      rw [fld, v1 i i.2]
      show _ = Real.exp _
      congr 1
      unfold fld
      ring
    · simp only [Bool.false_eq_true, if_false]
      show fld arr n s3.mem (b, .expW2) = _
      rw [d3.fld (by simp) (cn .expW2 rfl) rfl]
      funext i
      rw [fld, v2 i i.2, d1.same (w, .w) (by simp) i (by rw [cw]; simp [Kind.wd])]
      show _ = Real.exp _
      congr 1
      unfold fld
      ring
  · obtain ⟨s1, e1, d1, v1⟩ := expVc_spec L hE hg (b, .expW) (w, .w) n rfl rfl (cn _ rfl) cw L.n0 hM
      (-1)
    obtain ⟨s2, e2, d2, v2⟩ := un_spec L hE d1.good (b, .expWInv) (b, .expW) n rfl rfl (cn _ rfl)
      (cn _ rfl) L.n0 hM (fun x => 1 / x)
    obtain ⟨s3, e3, d3, v3, v3'⟩ := hk s2 ((d1.trans d2).mono (by simp))
    have e2' : divSV E (arr (b, .expWInv)) 1 (arr (b, .expW)) s1 = .ok s2 := e2
    refine ⟨s3, ?_, ((d1.trans d2).trans d3).mono ?_, ?_, v3, v3', ?_⟩
    · simp only [setupSolver, if_true, e1, e2', Res.ok_bind]
      exact e3
    · intro a ha
      simp only [List.mem_append, List.mem_cons, List.not_mem_nil, or_false, tables] at ha ⊢
      tauto
    · show fld arr n s3.mem (b, .expW) = _
      rw [(d2.trans d3).fld (by simp) (cn .expW rfl) rfl]
      funext i
      rw [fld, v1 i i.2]
      show _ = Real.exp _
      congr 1
      unfold fld
      ring
    · simp only [if_true]
      show fld arr n s3.mem (b, .expWInv) = _
      rw [d3.fld (by simp) (cn .expWInv rfl) rfl]
      funext i
      rw [fld, v2 i i.2, v1 i i.2]
      show _ = 1 / Real.exp _
      congr 2
      unfold fld
      ring

/-! ## Stress -/

/-- Arrays changed by the stress calculation. -/
def stressSlots (b k : Nat) : List Name :=
  [(b, .qkOne false), (b, .qkOne true), (b, .rTmp)] ++
    (List.range k).map (fun j => (b, .qkAll false j)) ++ (List.range k).map (fun j => (b, .qkAll true j))

theorem slice_eq (L : Lay arr n kS nB ns) {b : Nat} (hb : b < nB) (d : Bool) {j : Nat}
    (hj : j < ns b) : slice arr kS b d j = arr (b, .qkAll d j) := by
  have h1 := L.qkAll b hb d j hj
  have h2 : (arr (b, .qkAll d j)).cap = kS := by rw [L.cap b hb]; exact if_pos hj
  unfold slice
  cases h : arr (b, .qkAll d j) with
  | mk base cap =>
    rw [h] at h1 h2
    simp only at h1 h2
    rw [h1, h2]
    congr 1
    ring

/-- The transforms needed for slices `j0` and `j1` are available. -/
def Ready (arr : Name → DArr) (en : Fin n ≃ Grid N) (ek : Fin kS ≃ Half N) (batched : Bool)
    (b k : Nat) (s : St) : Prop :=
  batched = true → ∀ d, ∀ j < k, cpx arr ek s.mem (b, .qkAll d j) =
    r2c en (fld arr n s.mem (b, .q d j))

theorem transformAll_spec (L : Lay arr n kS nB ns) (hE : E.Ok M C) (hg : Good E s)
    {b : Nat} (hb : b < nB) (h3 : 0 < ns b) (hM : ns b * kS ≤ M) (batched : Bool) :
    ∃ s', transformAll en ek E arr batched b (ns b) s = .ok s' ∧
      Did E arr (stressSlots b (ns b)) s s' ∧ Ready arr en ek batched b (ns b) s' := by
  cases batched
  · exact ⟨s, rfl, (Did.refl hg).mono (by simp), by simp [Ready]⟩
  have cq : ∀ d, ∀ j < ns b, (arr (b, .q d j)).cap = n := fun d j hj => by
    rw [L.cap b hb]; exact if_pos hj
  have cK : ∀ d, ∀ j < ns b, (arr (b, .qkAll d j)).cap = kS := fun d j hj => by
    rw [L.cap b hb]; exact if_pos hj
  have hR : ∀ d, Cont arr (ns b) (arr (b, .q d 0)).base n (fun t => (b, .q d t)) := fun d =>
    ⟨fun t ht => L.q b hb d t ht, fun t ht => by rw [cq d t ht]; simp [Kind.wd]⟩
  have hK : ∀ d, Cont arr (ns b) (arr (b, .qkAll d 0)).base (2 * kS) (fun t => (b, .qkAll d t)) :=
    fun d => ⟨fun t ht => L.qkAll b hb d t ht, fun t ht => by rw [cK d t ht]; simp [Kind.wd]⟩
  obtain ⟨s1, e1, d1, v1⟩ := forward_spec (en := en) (ek := ek) L hE hg (ns b)
    ⟨(arr (b, .q false 0)).base, n * ns b⟩ ⟨(arr (b, .qkAll false 0)).base, kS * ns b⟩ _ _ h3 hM rfl
    rfl (hR false) (hK false)
  obtain ⟨s2, e2, d2, v2⟩ := forward_spec (en := en) (ek := ek) L hE d1.good (ns b)
    ⟨(arr (b, .q true 0)).base, n * ns b⟩ ⟨(arr (b, .qkAll true 0)).base, kS * ns b⟩ _ _ h3 hM rfl
    rfl (hR true) (hK true)
  refine ⟨s2, by rw [transformAll, if_pos rfl, e1, Res.ok_bind, e2], (d1.trans d2).mono ?_, ?_⟩
  · intro a ha
    simp only [stressSlots, List.mem_append] at ha ⊢
    tauto
  · intro _ d j hj
    cases d
    · rw [d2.cpx (by simp) (cK false j hj) rfl, v1 j hj,
        (d1.trans d2).fld (a := (b, .q false j)) (by simp) (cq false j hj) rfl]
    · rw [v2 j hj, d2.fld (a := (b, .q true j)) (by simp) (cq true j hj) rfl]

/-- Additional factor in the bead model. -/
def factor (arr : Name → DArr) (ek : Fin kS ≃ Half N) (mem : Nat → ℝ) (b : Nat) :
    Option Kind → Half N → ℝ
  | none => fun _ => 1
  | some k => rks arr ek mem (b, k)

theorem waveTerm_spec (L : Lay arr n kS nB ns) (hE : E.Ok M C) (hg : Good E s)
    (hM2 : kS ≤ M) (hn : kS ≤ 2 ^ 24) {b : Nat} (hb : b < nB) (batched : Bool)
    (f : Option Kind) (hf : ∀ k, f = some k → k = .expKsq ∨ k = .expKsq2)
    {j0 j1 : Nat} (h0 : j0 < ns b) (h1 : j1 < ns b) (hr : Ready arr en ek batched b (ns b) s) :
    ∃ s', waveTerm en ek E arr batched b f j0 j1 s = .ok
        (waveSum en (fun κ => rks arr ek s.mem (0, .dKSq) κ * factor arr ek s.mem b f κ) (fld arr n s.mem (b, .q false j0))
          (fld arr n s.mem (b, .q true j1)), s') ∧
      Did E arr [(b, .qkOne false), (b, .qkOne true), (b, .rTmp)] s s' := by
  have cq : ∀ d, ∀ j < ns b, (arr (b, .q d j)).cap = n := fun d j hj => by
    rw [L.cap b hb]; exact if_pos hj
  have cK : ∀ d, ∀ j < ns b, (arr (b, .qkAll d j)).cap = kS := fun d j hj => by
    rw [L.cap b hb]; exact if_pos hj
  have c1 : ∀ d, (arr (b, .qkOne d)).cap = kS := fun d => L.cap b hb _
  have cT : (arr (b, .rTmp)).cap = kS := L.cap b hb _
  have cD : (arr (0, .dKSq)).cap = kS := L.cap 0 (by omega) _
  have hk0 := L.kS0
  -- operands
  have hA : ∃ (s1 : St) (X Y : Name), (if batched then Res.ok s
      else forward en ek E 1 (arr (b, .q false j0)) (arr (b, .qkOne false)) s >>= fun s =>
        forward en ek E 1 (arr (b, .q true j1)) (arr (b, .qkOne true)) s) = .ok s1 ∧
      Did E arr [(b, .qkOne false), (b, .qkOne true)] s s1 ∧
      (if batched then slice arr kS b false j0 else arr (b, .qkOne false)) = arr X ∧
      (if batched then slice arr kS b true j1 else arr (b, .qkOne true)) = arr Y ∧
      X.2.wd = 2 ∧ Y.2.wd = 2 ∧ (arr X).cap = kS ∧ (arr Y).cap = kS ∧ X ≠ (b, .rTmp) ∧
      Y ≠ (b, .rTmp) ∧ cpx arr ek s1.mem X = r2c en (fld arr n s.mem (b, .q false j0)) ∧
      cpx arr ek s1.mem Y = r2c en (fld arr n s.mem (b, .q true j1)) := by
    cases batched
    · obtain ⟨s1, e1, d1, v1⟩ := forward_spec (en := en) (ek := ek) L hE hg 1 (arr (b, .q false j0))
        (arr (b, .qkOne false)) _ _ (by norm_num) (by omega) (by simp [cq false j0 h0])
        (by simp [c1]) (Cont.one (by simp [cq false j0 h0, Kind.wd]))
        (Cont.one (by simp [c1, Kind.wd]))
      obtain ⟨s2, e2, d2, v2⟩ := forward_spec (en := en) (ek := ek) L hE d1.good 1
        (arr (b, .q true j1))
        (arr (b, .qkOne true)) _ _ (by norm_num) (by omega) (by simp [cq true j1 h1])
        (by simp [c1]) (Cont.one (by simp [cq true j1 h1, Kind.wd]))
        (Cont.one (by simp [c1, Kind.wd]))
      have v1 := v1 0 (by norm_num)
      have v2 := v2 0 (by norm_num)
      have d1 : Did E arr [(b, .qkOne false)] s s1 := d1
      have d2 : Did E arr [(b, .qkOne true)] s1 s2 := d2
      refine ⟨s2, (b, .qkOne false), (b, .qkOne true), ?_, d1.trans d2, rfl, rfl, rfl, rfl, c1 _,
        c1 _, by simp, by simp, ?_, ?_⟩
      · simp only [Bool.false_eq_true, if_false, e1, e2, Res.ok_bind]
      · rw [d2.cpx (by simp) (c1 _) rfl, v1]
      · rw [v2, d1.fld (by simp) (cq true j1 h1) rfl]
    · refine ⟨s, (b, .qkAll false j0), (b, .qkAll true j1), rfl, (Did.refl hg).mono (by simp),
        by simp only [if_true]; exact slice_eq L hb _ h0, by simp only [if_true]; exact slice_eq L hb _ h1,
        rfl, rfl, cK _ _ h0, cK _ _ h1, by simp, by simp, hr rfl _ _ h0, hr rfl _ _ h1⟩
  obtain ⟨s1, X, Y, e1, d1, eX, eY, wX, wY, cX, cY, nX, nY, vX, vY⟩ := hA
  obtain ⟨s2, e2, d2, v2⟩ := conj_spec (ek := ek) L hE d1.good (b, .rTmp) X Y (0, .dKSq) rfl wX wY rfl
    cT cX cY cD nX nY (by simp) hM2
  rw [d1.rks (by simp) cD rfl, vX, vY] at v2
  have hB : ∃ s3, mulFactor E arr b f s2 = .ok s3 ∧
      Did E arr [(b, .rTmp)] s2 s3 ∧ rks arr ek s3.mem (b, .rTmp) = fun κ =>
        rks arr ek s2.mem (b, .rTmp) κ * factor arr ek s.mem b f κ := by
    cases f with
    | none =>
      exact ⟨s2, rfl, (Did.refl d2.good).mono (by simp), by simp [factor]⟩
    | some k =>
      have hk := hf k rfl
      have ck : (arr (b, k)).cap = kS := by rcases hk with rfl | rfl <;> exact L.cap b hb _
      have wk : k.wd = 1 := by rcases hk with rfl | rfl <;> rfl
      obtain ⟨s3, e3, d3, v3⟩ := bin_spec L hE d2.good (b, .rTmp) (b, .rTmp) (b, k) kS rfl rfl wk cT
        cT ck hk0 hM2 (· * ·)
      refine ⟨s3, e3, d3, ?_⟩
      funext κ
      have := v3 _ (ek.symm κ).2
      rw [rks, this]
      have hh := congrFun ((d1.trans d2).rks (ek := ek) (a := (b, k))
        (by rcases hk with rfl | rfl <;> simp) ck wk) κ
      rw [factor, ← hh]
      rfl
  obtain ⟨s3, e3, d3, v3⟩ := hB
  obtain ⟨s4, e4, d4⟩ := sumDev_spec (arr := arr) hE d3.good (arr (b, .rTmp)) (by omega) (by omega)
  refine ⟨s4, ?_, (((d1.trans d2).trans d3).trans d4).mono ?_⟩
  · unfold waveTerm
    rw [e1, Res.ok_bind, eX, eY, e2, Res.ok_bind]
    rw [e3, Res.ok_bind, e4]
    congr 2
    rw [sum_cast cT fun i => s3.mem ((arr (b, .rTmp)).base + i), waveSum]
    rw [← Equiv.sum_comp ek]
    refine Finset.sum_congr rfl fun i _ => ?_
    have h := congrFun v3 (ek i)
    simp only [v2] at h
    unfold rks at h
    rw [Equiv.symm_apply_apply] at h
    rw [h]
    unfold rks
    rw [Equiv.symm_apply_apply]
    ring
  · intro a ha
    simp only [List.mem_append, List.mem_cons, List.not_mem_nil, or_false] at ha ⊢
    tauto

theorem Ready.mono {W : List Name} (L : Lay arr n kS nB ns) {b : Nat} (hb : b < nB) {batched : Bool}
    (hr : Ready arr en ek batched b (ns b) s) (h : Did E arr W s s')
    (h1 : ∀ d j, (b, Kind.qkAll d j) ∉ W) (h2 : ∀ d j, (b, Kind.q d j) ∉ W) :
    Ready arr en ek batched b (ns b) s' := by
  intro hB d j hj
  rw [h.cpx (h1 d j) (show (arr (b, .qkAll d j)).cap = kS by rw [L.cap b hb]; exact if_pos hj) rfl,
    h.fld (h2 d j) (show (arr (b, .q d j)).cap = n by rw [L.cap b hb]; exact if_pos hj) rfl]
  exact hr hB d j hj

/-- Arrays used by one term. -/
def termSlots (b : Nat) : List Name := [(b, .qkOne false), (b, .qkOne true), (b, .rTmp)]

/-- Value of the increment for slices `j0`, `j1`. -/
noncomputable def termVal (arr : Name → DArr) (en : Fin n ≃ Grid N) (ek : Fin kS ≃ Half N)
    (mem : Nat → ℝ) (b : Nat) (f : Option Kind) (j0 j1 : Nat) : ℝ :=
  waveSum en (fun κ => rks arr ek mem (0, .dKSq) κ * factor arr ek mem b f κ)
    (fld arr n mem (b, .q false j0)) (fld arr n mem (b, .q true j1))

theorem takeTerm_spec (L : Lay arr n kS nB ns) (hE : E.Ok M C)
    (hM2 : kS ≤ M) (hn : kS ≤ 2 ^ 24) {b : Nat} (hb : b < nB) (batched : Bool)
    (f : Option Kind) (hf : ∀ k, f = some k → k = .expKsq ∨ k = .expKsq2)
    {j0 j1 : Nat} (h0 : j0 < ns b) (h1 : j1 < ns b) (v : ℝ) {s0 : St} {x : ℝ}
    (hr : Ready arr en ek batched b (ns b) s0) (hd : Did E arr (termSlots b) s0 s) :
    ∃ s', takeTerm en ek E arr batched b f j0 j1 v (x, s) =
        .ok (x - termVal arr en ek s0.mem b f j0 j1 * v, s') ∧
      Did E arr (termSlots b) s0 s' := by
  have cq : ∀ d, ∀ j < ns b, (arr (b, .q d j)).cap = n := fun d j hj => by
    rw [L.cap b hb]; exact if_pos hj
  have cD : (arr (0, .dKSq)).cap = kS := L.cap 0 (by omega) _
  obtain ⟨s', e, h⟩ := waveTerm_spec L hE hd.good hM2 hn hb batched f hf h0 h1
    (hr.mono L hb hd (by simp [termSlots]) (by simp [termSlots]))
  have hfac : factor arr ek s.mem b f = factor arr ek s0.mem b f := by
    cases f with
    | none => rfl
    | some k =>
      have hk := hf k rfl
      exact hd.rks (by rcases hk with rfl | rfl <;> simp [termSlots])
        (by rcases hk with rfl | rfl <;> exact L.cap b hb _) (by rcases hk with rfl | rfl <;> rfl)
  refine ⟨s', ?_, (hd.trans h).mono (by simp [termSlots])⟩
  rw [takeTerm, e, Res.ok_bind, hfac, hd.rks (by simp [termSlots]) cD rfl,
    hd.fld (by simp [termSlots]) (cq false j0 h0) rfl,
    hd.fld (by simp [termSlots]) (cq true j1 h1) rfl]
  rfl

/-- The stress of a thread block. -/
theorem stressThread_spec (L : Lay arr n kS nB ns) (hE : E.Ok M C) (hg : Good E s)
    (hn : kS ≤ 2 ^ 24) {b : Nat} (hb : b < nB) (h3 : 0 < ns b)
    (hM : ns b * kS ≤ M) (batched : Bool) (ds kuhn prefactor : ℝ) :
    ∃ s', stressThread en ek E arr batched b (ns b) ds kuhn prefactor s =
        .ok (Solver.stressThread en (ns b) ds kuhn (rks arr ek s.mem (0, .dKSq)) prefactor
          (fun j => fld arr n s.mem (b, .q false j)) (fun j => fld arr n s.mem (b, .q true j)), s') ∧
      Did E arr (stressSlots b (ns b)) s s' := by
  have hM2 : kS ≤ M := le_trans (Nat.le_mul_of_pos_left _ h3) hM
  have cq : ∀ d, ∀ j < ns b, (arr (b, .q d j)).cap = n := fun d j hj => by
    rw [L.cap b hb]; exact if_pos hj
  have cD : (arr (0, .dKSq)).cap = kS := L.cap 0 (by omega) _
  obtain ⟨s1, e1, d1, r1⟩ := transformAll_spec (en := en) (ek := ek) L hE hg hb h3 hM batched
  obtain ⟨p, e2, d2, v2⟩ := iter_spec (ns b) 0 ((0 : ℝ), s1)
    (f := fun j => takeTerm en ek E arr batched b none j (ns b - 1 - j)
      (kuhn * kuhn * dels (ns b) ds j / (3 * 6)))
    (P := fun i p => Did E arr (termSlots b) s1 p.2 ∧ p.1 = - ∑ j ∈ Finset.range i,
      termVal arr en ek s1.mem b none j (ns b - 1 - j) *
        (kuhn * kuhn * dels (ns b) ds j / (3 * 6)))
    ⟨(Did.refl d1.good).mono (by simp), by simp⟩ fun i p _ hi hP => by
      obtain ⟨x, s2⟩ := p
      obtain ⟨h1, h2⟩ := hP
      obtain ⟨s3, e3, d3⟩ := takeTerm_spec (en := en) (ek := ek) L hE hM2 hn hb batched none (by simp)
        (show i < ns b by omega) (show ns b - 1 - i < ns b by omega)
        (kuhn * kuhn * dels (ns b) ds i / (3 * 6)) (x := x) r1 h1
      refine ⟨_, e3, d3, ?_⟩
      simp only at h2 ⊢
      rw [h2, Finset.sum_range_succ]
      ring
  refine ⟨p.2, ?_, (d1.trans d2).mono ?_⟩
  · rw [stressThread, e1, Res.ok_bind, e2, Res.ok_bind, v2, zero_add]
    congr 2
    unfold Solver.stressThread
    simp only
    rw [accum_eq, ← Fin.sum_univ_eq_sum_range (fun j => termVal arr en ek s1.mem b none j
      (ns b - 1 - j) * (kuhn * kuhn * dels (ns b) ds j / (3 * 6))), Finset.sum_neg_distrib, zero_add]
    have : ∀ j : Fin (ns b), termVal arr en ek s1.mem b none j (ns b - 1 - j) *
        (kuhn * kuhn * dels (ns b) ds j / (3 * 6)) =
        waveSum en (rks arr ek s.mem (0, .dKSq)) (fld arr n s.mem (b, .q false j))
          (fld arr n s.mem (b, .q true (ns b - 1 - j))) * (kuhn * kuhn / 6 * simpson (ns b) ds j) := by
      intro j
      have hj := j.2
      unfold termVal
      rw [d1.rks (by simp [stressSlots]) cD rfl,
        d1.fld (by simp [stressSlots]) (cq false j hj) rfl,
        d1.fld (by simp [stressSlots]) (cq true (ns b - 1 - j) (by omega)) rfl]
      simp only [factor, mul_one]
      congr 1
      unfold dels simpson
      simp only
      split_ifs <;> ring
    rw [Finset.sum_congr rfl fun j _ => this j]
    ring
  · intro a ha
    simp only [stressSlots, termSlots, List.mem_append] at ha ⊢
    tauto

/-- The stress of a bead block. -/
theorem stressBead_spec (L : Lay arr n kS nB ns) (hE : E.Ok M C) (hg : Good E s)
    (hn : kS ≤ 2 ^ 24) {b : Nat} (hb : b < nB) (h3 : 3 ≤ ns b)
    (hM : ns b * kS ≤ M) (batched he te : Bool) (kuhn prefactor : ℝ) :
    ∃ s', stressBead en ek E arr batched b (ns b) he te kuhn prefactor s =
        .ok (Solver.stressBead en (arrays arr n ek s.mem b) (ns b) he te kuhn
          (rks arr ek s.mem (0, .dKSq)) prefactor
          (fun j => fld arr n s.mem (b, .q false j)) (fun j => fld arr n s.mem (b, .q true j)), s') ∧
      Did E arr (stressSlots b (ns b)) s s' := by
  have hM2 : kS ≤ M := le_trans (Nat.le_mul_of_pos_left _ (by omega)) hM
  have cq : ∀ d, ∀ j < ns b, (arr (b, .q d j)).cap = n := fun d j hj => by
    rw [L.cap b hb]; exact if_pos hj
  have cD : (arr (0, .dKSq)).cap = kS := L.cap 0 (by omega) _
  obtain ⟨s1, e1, d1, r1⟩ := transformAll_spec (en := en) (ek := ek) L hE hg hb (by omega) hM batched
  have hval : ∀ (f : Kind) (j0 j1 : Nat), (f = .expKsq ∨ f = .expKsq2) → j0 < ns b → j1 < ns b →
      termVal arr en ek s1.mem b (some f) j0 j1 = waveSum en (fun κ =>
        rks arr ek s.mem (0, .dKSq) κ * rks arr ek s.mem (b, f) κ) (fld arr n s.mem (b, .q false j0))
          (fld arr n s.mem (b, .q true j1)) := by
    intro f j0 j1 hf h0 h1
    unfold termVal
    rw [d1.rks (by simp [stressSlots]) cD rfl,
      d1.fld (by simp [stressSlots]) (cq false j0 h0) rfl,
      d1.fld (by simp [stressSlots]) (cq true j1 h1) rfl, factor,
      d1.rks (a := (b, f)) (by rcases hf with rfl | rfl <;> simp [stressSlots])
        (by rcases hf with rfl | rfl <;> exact L.cap b hb _) (by rcases hf with rfl | rfl <;> rfl)]
  have hA : ∃ s2, (if !he then takeTerm en ek E arr batched b (some .expKsq2) 0 (ns b - 2)
        (1 / 2 * (kuhn * kuhn / 6)) (0, s1) else .ok (0, s1)) = .ok ((if he then 0 else
        0 - waveSum en (fun κ => rks arr ek s.mem (0, .dKSq) κ * rks arr ek s.mem (b, .expKsq2) κ)
          (fld arr n s.mem (b, .q false 0)) (fld arr n s.mem (b, .q true (ns b - 2))) *
          (1 / 2 * (kuhn * kuhn / 6))), s2) ∧ Did E arr (termSlots b) s1 s2 := by
    cases he
    · obtain ⟨s2, e2, d2⟩ := takeTerm_spec (en := en) (ek := ek) L hE hM2 hn hb batched (some .expKsq2)
        (by simp) (show 0 < ns b by omega) (show ns b - 2 < ns b by omega)
        (1 / 2 * (kuhn * kuhn / 6)) (x := 0) r1 ((Did.refl d1.good).mono (by simp))
      refine ⟨s2, ?_, d2⟩
      simp only [Bool.not_false, if_true, Bool.false_eq_true, if_false]
      rw [e2, hval _ _ _ (.inr rfl) (by omega) (by omega)]
    · exact ⟨s1, rfl, (Did.refl d1.good).mono (by simp)⟩
  obtain ⟨s2, e2, d2⟩ := hA
  generalize hx : (if he then 0 else
        0 - waveSum en (fun κ => rks arr ek s.mem (0, .dKSq) κ * rks arr ek s.mem (b, .expKsq2) κ)
          (fld arr n s.mem (b, .q false 0)) (fld arr n s.mem (b, .q true (ns b - 2))) *
          (1 / 2 * (kuhn * kuhn / 6)) : ℝ) = x at e2
  obtain ⟨⟨y, s3⟩, e3, d3, v3⟩ := iter_spec (ns b - 3) 1 (x, s2)
    (f := fun j => takeTerm en ek E arr batched b (some .expKsq) j (ns b - 2 - j) (kuhn * kuhn / 6))
    (P := fun i p => Did E arr (termSlots b) s1 p.2 ∧ p.1 = x - ∑ j ∈ Finset.range (i - 1),
      termVal arr en ek s1.mem b (some .expKsq) (j + 1) (ns b - 2 - (j + 1)) * (kuhn * kuhn / 6))
    ⟨d2, by simp⟩ fun i p h1i hi hP => by
      obtain ⟨x, s2⟩ := p
      obtain ⟨h1, h2⟩ := hP
      obtain ⟨s3, e3, d3⟩ := takeTerm_spec (en := en) (ek := ek) L hE hM2 hn hb batched (some .expKsq)
        (by simp) (show i < ns b by omega) (show ns b - 2 - i < ns b by omega)
        (kuhn * kuhn / 6) (x := x) r1 h1
      refine ⟨_, e3, d3, ?_⟩
      obtain ⟨i, rfl⟩ : ∃ i', i = i' + 1 := ⟨i - 1, by omega⟩
      simp only [Nat.add_sub_cancel] at h2 ⊢
      rw [h2, Finset.sum_range_succ]
      ring
  simp only at d3 v3
  have hB : ∃ s4, (if !te then takeTerm en ek E arr batched b (some .expKsq2) (ns b - 2) 0
        (1 / 2 * (kuhn * kuhn / 6)) (y, s3) else .ok (y, s3)) = .ok ((if te then y else
        y - waveSum en (fun κ => rks arr ek s.mem (0, .dKSq) κ * rks arr ek s.mem (b, .expKsq2) κ)
          (fld arr n s.mem (b, .q false (ns b - 2))) (fld arr n s.mem (b, .q true 0)) *
          (1 / 2 * (kuhn * kuhn / 6))), s4) ∧ Did E arr (termSlots b) s1 s4 := by
    cases te
    · obtain ⟨s4, e4, d4⟩ := takeTerm_spec (en := en) (ek := ek) L hE hM2 hn hb batched (some .expKsq2)
        (by simp) (show ns b - 2 < ns b by omega) (show 0 < ns b by omega)
        (1 / 2 * (kuhn * kuhn / 6)) (x := y) r1 d3
      refine ⟨s4, ?_, d4⟩
      simp only [Bool.not_false, if_true, Bool.false_eq_true, if_false]
      rw [e4, hval _ _ _ (.inr rfl) (by omega) (by omega)]
    · exact ⟨s3, rfl, d3⟩
  obtain ⟨s4, e4, d4⟩ := hB
  refine ⟨s4, ?_, (d1.trans d4).mono ?_⟩
  · unfold stressBead
    simp only [e1, Res.ok_bind, e2, e3, e4]
    congr 2
    unfold Solver.stressBead
    simp only
    have hacc : accum (ns b - 3) (fun j : Fin (ns b - 3) => -(waveSum en (fun κ =>
        rks arr ek s.mem (0, .dKSq) κ * (arrays arr n ek s.mem b).expKsq κ)
        (fld arr n s.mem (b, .q false (j + 1)))
        (fld arr n s.mem (b, .q true (ns b - 2 - (j + 1)))) * (kuhn * kuhn / 6))) x = y := by
      rw [v3, accum_eq, Nat.add_sub_cancel_left, ← Fin.sum_univ_eq_sum_range (fun j =>
        termVal arr en ek s1.mem b (some .expKsq) (j + 1) (ns b - 2 - (j + 1)) * (kuhn * kuhn / 6)),
        Finset.sum_neg_distrib, ← sub_eq_add_neg]
      congr 1
      refine Finset.sum_congr rfl fun j _ => ?_
      rw [hval _ _ _ (.inl rfl) (by omega) (by omega)]
      rfl
    have hx' : (if he = true then 0 else 0 - waveSum en (fun κ => rks arr ek s.mem (0, .dKSq) κ *
        (arrays arr n ek s.mem b).expKsq2 κ)
          (fld arr n s.mem (b, .q false 0)) (fld arr n s.mem (b, .q true (ns b - 2))) *
          (1 / 2 * (kuhn * kuhn / 6)) : ℝ) = x := hx
    rw [hx', hacc]
    rfl
  · intro a ha
    simp only [stressSlots, termSlots, List.mem_append] at ha ⊢
    tauto

end Verif.Rpg
