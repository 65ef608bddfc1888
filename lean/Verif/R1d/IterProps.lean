import Verif.R1d.Iter
import Verif.R1d.Props
import Verif.Scft.Props
import Verif.Tac

/-!
# C107: iterators of the one-dimensional program
-/

set_option autoImplicit false
set_option linter.unusedSectionVars false

namespace Verif.R1d

open Finset

section Nr

variable {M L : Nat} {K : Type} [Field K] [LinearOrder K] [IsStrictOrderedRing K]

/-! ## Numbers -/

theorem nop_none_left (f : K → K → K) (b : Num K) : nop f none b = none := by cases b <;> rfl

theorem nop_none_right (f : K → K → K) (a : Num K) : nop f a none = none := by cases a <;> rfl

theorem naccum_fold_none {n : Nat} (l : List (Fin n)) (t : Fin n → Num K) :
    l.foldl (fun s j => nop (· + ·) s (t j)) none = none := by
  induction l with
  | nil => rfl
  | cons a l ih => rw [List.foldl_cons, nop_none_left, ih]

theorem naccum_some {n : Nat} (t : Fin n → Num K) (f : Fin n → K) (z : K) (h : ∀ j, t j = some (f j)) :
    naccum n t (some z) = some (z + ∑ j, f j) := by
  unfold naccum
  have key : ∀ (l : List (Fin n)) (z : K), l.foldl (fun s j => nop (· + ·) s (t j)) (some z) =
      some (z + (l.map f).sum) := by
    intro l
    induction l with
    | nil => intro z; simp
    | cons a l ih =>
      intro z
      rw [List.foldl_cons, h a]
      change l.foldl _ (some (z + f a)) = _
      rw [ih, List.map_cons, List.sum_cons, add_assoc]
  rw [key, ← List.ofFn_eq_map, List.sum_ofFn]

theorem naccum_none {n : Nat} (t : Fin n → Num K) (z : Num K) (j : Fin n) (h : t j = none) :
    naccum n t z = none := by
  unfold naccum
  obtain ⟨a, b, hab⟩ := List.append_of_mem (List.mem_finRange j)
  rw [hab, List.foldl_append, List.foldl_cons, h, nop_none_right, naccum_fold_none]

/-! ## Norm -/

/-- One turn of the loop of `residualNorm`. -/
def normStep (n : K) (x : Num K) : K := if nabsGt x n then (x.map fun a => |a|).getD n else n

theorem normStep_some (n a : K) : normStep n (some a) = max n |a| := by
  unfold normStep nabsGt
  by_cases h : n < |a|
  · simp [h, max_eq_right h.le]
  · simp [h, max_eq_left (not_lt.1 h)]

theorem normStep_none (n : K) : normStep n none = n := rfl

theorem normFold {ι : Type} (l : List ι) (f : ι → Num K) (z : K) :
    z ≤ l.foldl (fun n i => normStep n (f i)) z ∧
      (∀ i ∈ l, ∀ a, f i = some a → |a| ≤ l.foldl (fun n i => normStep n (f i)) z) ∧
      ∀ B, z ≤ B → (∀ i ∈ l, ∀ a, f i = some a → |a| ≤ B) → l.foldl (fun n i => normStep n (f i)) z ≤ B := by
  induction l generalizing z with
  | nil => exact ⟨le_rfl, fun i hi => by simp at hi, fun B h _ => h⟩
  | cons x l ih =>
    obtain ⟨h1, h2, h3⟩ := ih (normStep z (f x))
    have hz : z ≤ normStep z (f x) := by
      cases hx : f x with
      | none => rw [normStep_none]
      | some a => rw [normStep_some]; exact le_max_left _ _
    refine ⟨hz.trans h1, ?_, ?_⟩
    · intro i hi a ha
      rcases List.mem_cons.1 hi with rfl | hi
      · refine le_trans ?_ h1
        rw [ha, normStep_some]
        exact le_max_right _ _
      · exact h2 i hi a ha
    · intro B hB hall
      refine h3 B ?_ fun i hi => hall i (List.mem_cons_of_mem _ hi)
      cases hx : f x with
      | none => rw [normStep_none]; exact hB
      | some a => rw [normStep_some]; exact max_le hB (hall x List.mem_cons_self a hx)

theorem nrNorm_eq (r : NFlds M L K) : nrNorm r =
    (List.finRange (M + 1)).foldl (fun n j => (List.finRange (L + 1)).foldl (fun n i => normStep n (r j i)) n) 0 := rfl

theorem nrNorm_flat (r : NFlds M L K) : nrNorm r =
    ((List.finRange (M + 1)).flatMap fun j => (List.finRange (L + 1)).map fun i => (j, i)).foldl
      (fun n p => normStep n (r p.1 p.2)) 0 := by
  rw [nrNorm_eq, List.foldl_flatMap]
  simp only [List.foldl_map]

theorem mem_flat (j : Fin (M + 1)) (i : Fin (L + 1)) :
    (j, i) ∈ ((List.finRange (M + 1)).flatMap fun j => (List.finRange (L + 1)).map fun i => (j, i)) :=
  List.mem_flatMap.2 ⟨j, List.mem_finRange j, List.mem_map.2 ⟨i, List.mem_finRange i, rfl⟩⟩

/-- The norm bounds all residuals that are numbers. -/
theorem nrNorm_ge (r : NFlds M L K) (j : Fin (M + 1)) (i : Fin (L + 1)) (a : K) (h : r j i = some a) :
    |a| ≤ nrNorm r := by
  rw [nrNorm_flat]
  exact (normFold _ (fun p : Fin (M + 1) × Fin (L + 1) => r p.1 p.2) 0).2.1 (j, i) (mem_flat j i) a h

theorem nrNorm_le (r : NFlds M L K) (B : K) (hB : 0 ≤ B) (h : ∀ j i a, r j i = some a → |a| ≤ B) : nrNorm r ≤ B := by
  rw [nrNorm_flat]
  exact (normFold _ (fun p : Fin (M + 1) × Fin (L + 1) => r p.1 p.2) 0).2.2 B hB fun p _ a ha => h _ _ a ha

theorem nrNorm_nonneg (r : NFlds M L K) : 0 ≤ nrNorm r := by
  rw [nrNorm_flat]
  exact (normFold _ (fun p : Fin (M + 1) × Fin (L + 1) => r p.1 p.2) 0).1

/-! ## Newton-Raphson iterator -/

/-- What holds before every iteration. -/
structure NrInv (P : NrProb M L K) (canonical : Bool) (s : NrSt M L K) : Prop where
  c : s.c = P.mix s.w
  residual : s.residual = nrResidual P canonical s.w s.c
  norm : s.norm = nrNorm s.residual
  mixW : s.norm < P.eps → s.mixW = s.w
  last : canonical = true → ∀ a, s.w (Fin.last M) (Fin.last L) = some a → a = 0

theorem shiftLast_last (w : NFlds M L K) (a : K)
    (h : shiftLast true w (Fin.last M) (Fin.last L) = some a) : a = 0 := by
  unfold shiftLast at h
  simp only [if_true] at h
  cases hw : w (Fin.last M) (Fin.last L) with
  | none => rw [hw] at h; cases h
  | some b =>
    rw [hw] at h
    have : some (b - b) = some a := h
    rw [sub_self] at this
    exact (Option.some.inj this).symm

/-- A trial is consistent. -/
structure TrialOk (P : NrProb M L K) (canonical : Bool) (t : Trial M L K) : Prop where
  c : t.c = P.mix t.w
  residual : t.residual = nrResidual P canonical t.w t.c
  norm : t.norm = nrNorm t.residual
  last : canonical = true → ∀ a, t.w (Fin.last M) (Fin.last L) = some a → a = 0

theorem nrTrial_ok (P : NrProb M L K) (canonical : Bool) (w d : NFlds M L K) :
    TrialOk P canonical (nrTrial P canonical w d) := by
  refine ⟨rfl, rfl, rfl, ?_⟩
  intro hc a ha
  subst hc
  exact shiftLast_last (fun j i => nop (· - ·) (w j i) (d j i)) a ha

theorem nrShrink_ok (P : NrProb M L K) (canonical : Bool) (w : NFlds M L K) (norm : K) (n : Nat) (t : Trial M L K)
    (b : Bool) (h : TrialOk P canonical t) : TrialOk P canonical (nrShrink P canonical w norm n t b).1 := by
  induction n generalizing t b with
  | zero => exact h
  | succ n ih =>
    unfold nrShrink
    split
    · exact ih _ _ (nrTrial_ok _ _ _ _)
    · exact h

theorem nrTrials_ok (P : NrProb M L K) (canonical : Bool) (s : NrSt M L K) :
    TrialOk P canonical (nrTrials P canonical s).1 := by
  unfold nrTrials nrReverse
  dsimp only
  split
  · exact nrTrial_ok _ _ _ _
  · exact nrShrink_ok _ _ _ _ _ _ _ (nrTrial_ok _ _ _ _)

theorem nrPrepare_same (P : NrProb M L K) (canonical : Bool) (s : NrSt M L K) :
    (nrPrepare P canonical s).w = s.w ∧ (nrPrepare P canonical s).c = s.c ∧
      (nrPrepare P canonical s).residual = s.residual ∧ (nrPrepare P canonical s).norm = s.norm := by
  unfold nrPrepare
  split <;> exact ⟨rfl, rfl, rfl, rfl⟩

theorem nrLoop_ok (P : NrProb M L K) (canonical : Bool) (n : Nat) (s : NrSt M L K) (h : NrInv P canonical s) :
    (nrLoop P canonical n s).1.norm ≤ s.norm ∧
      ((nrLoop P canonical n s).2 = 0 →
        NrInv P canonical (nrLoop P canonical n s).1 ∧ (nrLoop P canonical n s).1.norm < P.eps) := by
  induction n generalizing s with
  | zero => exact ⟨le_rfl, fun h0 => absurd h0 (show ¬(1 = 0) by decide)⟩
  | succ n ih =>
    obtain ⟨e1, e2, e3, e4⟩ := nrPrepare_same P canonical s
    unfold nrLoop
    by_cases hn : s.norm < P.eps
    · rw [if_pos hn]
      exact ⟨le_rfl, fun _ => ⟨h, hn⟩⟩
    rw [if_neg hn]
    dsimp only
    have ht := nrTrials_ok P canonical (nrPrepare P canonical s)
    by_cases ha : (nrTrials P canonical (nrPrepare P canonical s)).1.norm < (nrPrepare P canonical s).norm
    · rw [if_pos ha]
      have := ih { nrPrepare P canonical s with
        w := (nrTrials P canonical (nrPrepare P canonical s)).1.w
        c := (nrTrials P canonical (nrPrepare P canonical s)).1.c
        mixW := (nrTrials P canonical (nrPrepare P canonical s)).1.w
        residual := (nrTrials P canonical (nrPrepare P canonical s)).1.residual
        norm := (nrTrials P canonical (nrPrepare P canonical s)).1.norm
        newJacobian := false
        needsJacobian := ((nrPrepare P canonical s).needsJacobian ||
          (nrTrials P canonical (nrPrepare P canonical s)).2) ||
          decide (1 / 2 < (nrTrials P canonical (nrPrepare P canonical s)).1.norm /
            (nrPrepare P canonical s).norm) }
        ⟨ht.c, ht.residual, ht.norm, fun _ => rfl, ht.last⟩
      exact ⟨this.1.trans (ha.le.trans e4.le), this.2⟩
    · rw [if_neg ha]
      split
      · exact ⟨e4.le, fun h0 => absurd h0 (show ¬(1 = 0) by decide)⟩
      · have := ih { nrPrepare P canonical s with
          mixW := (nrTrials P canonical (nrPrepare P canonical s)).1.w
          needsJacobian := true }
          ⟨by rw [e2, e1]; exact h.c, by rw [e3, e1, e2]; exact h.residual, by rw [e4, e3]; exact h.norm,
            fun hlt => absurd (e4 ▸ hlt) hn, by rw [e1]; exact h.last⟩
        exact ⟨this.1.trans e4.le, this.2⟩

theorem nrLoop_inv (P : NrProb M L K) (canonical : Bool) (n : Nat) (s : NrSt M L K) (h : NrInv P canonical s) :
    (nrLoop P canonical n s).1.c = P.mix (nrLoop P canonical n s).1.w ∧
      (canonical = true → ∀ a, (nrLoop P canonical n s).1.w (Fin.last M) (Fin.last L) = some a → a = 0) := by
  induction n generalizing s with
  | zero => exact ⟨h.c, h.last⟩
  | succ n ih =>
    obtain ⟨e1, e2, e3, e4⟩ := nrPrepare_same P canonical s
    unfold nrLoop
    by_cases hn : s.norm < P.eps
    · rw [if_pos hn]
      exact ⟨h.c, h.last⟩
    rw [if_neg hn]
    dsimp only
    have ht := nrTrials_ok P canonical (nrPrepare P canonical s)
    split
    · exact ih _ ⟨ht.c, ht.residual, ht.norm, fun _ => rfl, ht.last⟩
    · split
      · exact ⟨by dsimp only; rw [e2, e1]; exact h.c, by dsimp only; rw [e1]; exact h.last⟩
      · exact ih _ ⟨by dsimp only; rw [e2, e1]; exact h.c, by dsimp only; rw [e3, e1, e2]; exact h.residual,
          by dsimp only; rw [e4, e3]; exact h.norm, fun hlt => absurd (e4 ▸ hlt) hn,
          by dsimp only; rw [e1]; exact h.last⟩

theorem nrStart_inv (P : NrProb M L K) (canonical : Bool) (w : NFlds M L K) (s : NrSt M L K) (b : Bool) :
    NrInv P canonical
      { s with w := shiftLast canonical w, c := P.mix (shiftLast canonical w), mixW := shiftLast canonical w,
               residual := nrResidual P canonical (shiftLast canonical w) (P.mix (shiftLast canonical w)),
               norm := nrNorm (nrResidual P canonical (shiftLast canonical w) (P.mix (shiftLast canonical w))),
               newJacobian := false, needsJacobian := b } := by
  refine ⟨rfl, rfl, rfl, fun _ => rfl, ?_⟩
  intro hc a ha
  subst hc
  exact shiftLast_last w a ha

theorem nrSolve_ok (P : NrProb M L K) (ens : List Ens) (cont : Bool) (w : NFlds M L K) (s s' : NrSt M L K)
    (h : nrSolve P ens cont w s = .ok (s', 0)) :
    ∃ canonical, nrCanonical ens = .ok canonical ∧ NrInv P canonical s' ∧ s'.norm < P.eps := by
  unfold nrSolve at h
  have h := Res.bind_eq_ok.1 h
  obtain ⟨canonical, hc, h⟩ := h
  dsimp only at h
  have h := Res.ok.inj h
  have := (nrLoop_ok P canonical P.maxItr _ (nrStart_inv P canonical w s
    (if cont then s.needsJacobian else true))).2 (by rw [h])
  rw [h] at this
  exact ⟨canonical, hc, this⟩

/-- `nrCanonical` is true iff all polymers are closed. -/
theorem nrCanonical_iff (ens : List Ens) : nrCanonical ens = .ok true ↔ ∀ e ∈ ens, e = .closed := by
  induction ens with
  | nil => exact ⟨fun _ e he => by simp at he, fun _ => rfl⟩
  | cons x r ih =>
    cases x with
    | unknown =>
      refine ⟨fun h => ?_, fun h => ?_⟩
      · cases h
      · have := h .unknown List.mem_cons_self
        cases this
    | opened =>
      refine ⟨fun h => ?_, fun h => by have := h .opened List.mem_cons_self; cases this⟩
      unfold nrCanonical at h
      have h := Res.bind_eq_ok.1 h
      obtain ⟨_, _, h⟩ := h
      cases h
    | closed =>
      change nrCanonical r = _ ↔ _
      rw [ih]
      simp

/-- The residuals of finite fields. -/
theorem nrResidual_some (P : NrProb M L K) (canonical : Bool) (w c : NFlds M L K) (wr cr : Fin (M + 1) → Fin (L + 1) → K)
    (hw : ∀ j i, w j i = some (wr j i)) (hc : ∀ j i, c j i = some (cr j i)) (j : Fin (M + 1)) (i : Fin (L + 1)) :
    nrResidual P canonical w c j i = some (
      if j = 0 then if canonical = true ∧ i = Fin.last L then wr (Fin.last M) (Fin.last L) else (∑ k, cr k i) - 1
      else ((∑ k, P.chi j k * cr k i) - wr j i) - ((∑ k, P.chi 0 k * cr k i) - wr 0 i)) := by
  have hA : ∀ j, naccum (M + 1) (fun k => nop (· * ·) (some (P.chi j k)) (c k i)) (some 0) =
      some (∑ k, P.chi j k * cr k i) := by
    intro j
    rw [naccum_some _ (fun k => P.chi j k * cr k i) 0 fun k => by rw [hc]; rfl, zero_add]
  unfold nrResidual
  dsimp only
  by_cases hj : j = 0
  · rw [if_pos hj, if_pos hj]
    split
    · exact hw _ _
    · rw [naccum_some _ (fun k => cr k i) (-1) fun k => hc k i, neg_add_eq_sub]
  · rw [if_neg hj, if_neg hj, hA, hA, hw, hw]
    rfl

/-- C107, Newton-Raphson iterator. If `solve` returns 0 and the fields and concentrations are numbers, then the
concentrations, and the thermodynamic results of the mixture, are those of the fields, the field equations hold
within the tolerance with some pressure field, and the concentrations add up to 1 within the tolerance, at all
points except the last one if all polymers are closed; in that case the last field at the last point is zero. -/
theorem C107_nr_converged_partial (P : NrProb M L K) (ens : List Ens) (cont : Bool) (w : NFlds M L K)
    (s s' : NrSt M L K) (h : nrSolve P ens cont w s = .ok (s', 0)) (wr cr : Fin (M + 1) → Fin (L + 1) → K)
    (hw : ∀ j i, s'.w j i = some (wr j i)) (hc : ∀ j i, s'.c j i = some (cr j i)) :
    s'.c = P.mix s'.w ∧ s'.mixW = s'.w ∧
      (∃ ξ : Fin (L + 1) → K, ∀ j i, |(∑ k, P.chi j k * cr k i) + ξ i - wr j i| < P.eps) ∧
      (∀ i, ((∀ e ∈ ens, e = .closed) → i ≠ Fin.last L) → |(∑ k, cr k i) - 1| < P.eps) ∧
      ((∀ e ∈ ens, e = .closed) → wr (Fin.last M) (Fin.last L) = 0) := by
  obtain ⟨canonical, hcan, hI, hn⟩ := nrSolve_ok P ens cont w s s' h
  have hb : ∀ j i, |if j = 0 then
        if canonical = true ∧ i = Fin.last L then wr (Fin.last M) (Fin.last L) else (∑ k, cr k i) - 1
      else ((∑ k, P.chi j k * cr k i) - wr j i) - ((∑ k, P.chi 0 k * cr k i) - wr 0 i)| < P.eps := by
    intro j i
    refine lt_of_le_of_lt (nrNorm_ge s'.residual j i _ ?_) (hI.norm ▸ hn)
    rw [hI.residual]
    exact nrResidual_some P canonical _ _ wr cr hw hc j i
  have hiff : canonical = true ↔ ∀ e ∈ ens, e = .closed := by
    rw [← nrCanonical_iff, hcan]
    exact ⟨fun h => by rw [h], fun h => Res.ok.inj h⟩
  have heps : 0 < P.eps := lt_of_le_of_lt (hI.norm ▸ nrNorm_nonneg _) hn
  refine ⟨hI.c, hI.mixW hn, ⟨fun i => wr 0 i - ∑ k, P.chi 0 k * cr k i, ?_⟩, ?_, ?_⟩
  · intro j i
    by_cases hj : j = 0
    · subst hj
      simpa using heps
    · have := hb j i
      rw [if_neg hj] at this
      convert this using 2
      ring
  · intro i hi
    have := hb 0 i
    rw [if_pos rfl, if_neg fun hh => hi (hiff.1 hh.1) hh.2] at this
    exact this
  · intro hall
    exact hI.last (hiff.2 hall) _ (hw _ _)

/-- Sum of the concentrations as a function on the grid. -/
def sumC (c : Fin (M + 1) → Fin (L + 1) → K) (i : Nat) : K := if h : i < L + 1 then ∑ k, c k ⟨i, h⟩ else 0

theorem sumC_lt (c : Fin (M + 1) → Fin (L + 1) → K) (i : Fin (L + 1)) : sumC c i = ∑ k, c k i := by
  unfold sumC
  rw [dif_pos i.2]

/-- What the average of the sum of concentrations says about the last grid point. -/
theorem last_dev (d : Domain K) (hd : DomOk d) (hn : d.nx = L + 1) (c : Fin (M + 1) → Fin (L + 1) → K) (m : K)
    (hm : d.spatialAverage (sumC c) = .ok m) :
    weight d L * ((∑ k, c k (Fin.last L)) - 1) =
      (m - 1) * (∑ i ∈ range (L + 1), weight d i) - ∑ i ∈ range L, weight d i * (sumC c i - 1) := by
  rw [C86_average d hd] at hm
  have hm := Res.ok.inj hm
  have hW := weights_pos hd
  unfold mean at hm
  rw [div_eq_iff hW.ne', hn, sum_range_succ (fun i => weight d i * sumC c i)] at hm
  have h1 : sumC c L = ∑ k, c k (Fin.last L) := sumC_lt c (Fin.last L)
  have h2 := sum_range_succ (fun i => weight d i) L
  have h3 : ∑ i ∈ range L, weight d i * (sumC c i - 1) =
      (∑ i ∈ range L, weight d i * sumC c i) - ∑ i ∈ range L, weight d i := by
    rw [← sum_sub_distrib]
    exact sum_congr rfl fun i _ => by ring
  rw [h3, ← h1, sub_mul, one_mul, ← hm, h2]
  ring

/-- C107, the last grid point of a closed system. If all polymers are closed, `solve` returns 0 and the average of
the sum of the concentrations is 1, as it is if all species are closed, the sum at the last point differs from 1 by
at most the tolerance times the ratio of the weight of the other points to its own. -/
theorem C107_nr_last (P : NrProb M L K) (ens : List Ens) (cont : Bool) (w : NFlds M L K)
    (s s' : NrSt M L K) (h : nrSolve P ens cont w s = .ok (s', 0)) (wr cr : Fin (M + 1) → Fin (L + 1) → K)
    (hw : ∀ j i, s'.w j i = some (wr j i)) (hc : ∀ j i, s'.c j i = some (cr j i))
    (d : Domain K) (hd : DomOk d) (hn : d.nx = L + 1) (hm : d.spatialAverage (sumC cr) = .ok 1) :
    |(∑ k, cr k (Fin.last L)) - 1| ≤ P.eps * ((∑ i ∈ range L, weight d i) / weight d L) := by
  have hi := (C107_nr_converged_partial P ens cont w s s' h wr cr hw hc).2.2.2.1
  have hp := weight_pos hd L
  have e := last_dev d hd hn cr 1 hm
  rw [sub_self, zero_mul, zero_sub] at e
  rw [← mul_div_assoc, le_div_iff₀ hp]
  calc |(∑ k, cr k (Fin.last L)) - 1| * weight d L = |weight d L * ((∑ k, cr k (Fin.last L)) - 1)| := by
        rw [abs_mul, abs_of_pos hp, mul_comm]
    _ = |∑ i ∈ range L, weight d i * (sumC cr i - 1)| := by rw [e, abs_neg]
    _ ≤ ∑ i ∈ range L, |weight d i * (sumC cr i - 1)| := abs_sum_le_sum_abs _ _
    _ ≤ ∑ i ∈ range L, weight d i * P.eps := by
        refine sum_le_sum fun i hi' => ?_
        have hL := mem_range.1 hi'
        rw [abs_mul, abs_of_pos (weight_pos hd i)]
        refine mul_le_mul_of_nonneg_left ?_ (weight_pos hd i).le
        have hlt : i < L + 1 := by omega
        have := hi ⟨i, hlt⟩ (fun _ e => by have := congrArg Fin.val e; simp at this; omega)
        rw [← sumC_lt] at this
        exact this.le
    _ = P.eps * ∑ i ∈ range L, weight d i := by rw [← sum_mul, mul_comm]

/-- For a planar domain the factor is `2 nx - 3`. -/
theorem C107_nr_last_planar (d : Domain K) (hd : DomOk d) (hn : d.nx = L + 1) (hp : d.mode = .planar) :
    (∑ i ∈ range L, weight d i) / weight d L = 2 * (L : K) - 1 := by
  have hL : 0 < L := by have := hd.nx; omega
  obtain ⟨m, rfl⟩ : ∃ m, L = m + 1 := ⟨L - 1, by omega⟩
  have e1 : ∀ i ∈ range m, weight d (i + 1) = 1 := fun i hi => by
    have := mem_range.1 hi
    have h1 : i + 1 ≠ d.nx - 1 := by omega
    simp [weight, hp, h1]
  have e0 : weight d 0 = 1 / 2 := by simp [weight, hp]
  have e2 : weight d (m + 1) = 1 / 2 := by
    have : m + 1 = d.nx - 1 := by omega
    simp only [weight, hp]
    rw [if_pos (Or.inr this)]
  rw [sum_range_succ', sum_congr rfl e1, e0, e2, sum_const, card_range, nsmul_eq_mul]
  push_cast
  ring

/-- C107: the norm of the residual never increases, whatever `solve` returns. -/
theorem C107_nr_monotone (P : NrProb M L K) (ens : List Ens) (cont : Bool) (w : NFlds M L K)
    (s s' : NrSt M L K) (code : Nat) (h : nrSolve P ens cont w s = .ok (s', code)) :
    ∃ canonical, nrCanonical ens = .ok canonical ∧
      s'.norm ≤ nrNorm (nrResidual P canonical (shiftLast canonical w) (P.mix (shiftLast canonical w))) := by
  unfold nrSolve at h
  have h := Res.bind_eq_ok.1 h
  obtain ⟨canonical, hc, h⟩ := h
  dsimp only at h
  have h := Res.ok.inj h
  have := (nrLoop_ok P canonical P.maxItr _ (nrStart_inv P canonical w s
    (if cont then s.needsJacobian else true))).1
  rw [h] at this
  exact ⟨canonical, hc, this⟩

/-- C107: if `solve` fails, fields, concentrations and residual are still consistent and the last field at the last
point is zero if all polymers are closed. -/
theorem C107_nr_failed (P : NrProb M L K) (ens : List Ens) (cont : Bool) (w : NFlds M L K)
    (s s' : NrSt M L K) (code : Nat) (h : nrSolve P ens cont w s = .ok (s', code)) :
    s'.c = P.mix s'.w ∧ ((∀ e ∈ ens, e = .closed) → ∀ a, s'.w (Fin.last M) (Fin.last L) = some a → a = 0) := by
  unfold nrSolve at h
  have h := Res.bind_eq_ok.1 h
  obtain ⟨canonical, hc, h⟩ := h
  dsimp only at h
  have h := Res.ok.inj h
  have := nrLoop_inv P canonical P.maxItr _ (nrStart_inv P canonical w s
    (if cont then s.needsJacobian else true))
  rw [h] at this
  refine ⟨this.1, fun hall => this.2 ?_⟩
  have := (nrCanonical_iff ens).2 hall
  rw [hc] at this
  exact Res.ok.inj this

/-! ### Not a number -/

theorem nrResidual_none (P : NrProb M L K) (canonical : Bool) (w c : NFlds M L K) (i : Fin (L + 1)) (k : Fin (M + 1))
    (hk : c k i = none) (j : Fin (M + 1)) :
    nrResidual P canonical w c j i = none ∨
      (canonical = true ∧ nrResidual P canonical w c j i = w (Fin.last M) (Fin.last L)) := by
  unfold nrResidual
  dsimp only
  by_cases hj : j = 0
  · rw [if_pos hj]
    by_cases hc : canonical = true ∧ i = Fin.last L
    · rw [if_pos hc]
      exact Or.inr ⟨hc.1, rfl⟩
    · rw [if_neg hc]
      exact Or.inl (naccum_none _ _ k hk)
  · rw [if_neg hj, naccum_none _ _ k (by rw [hk]; exact nop_none_right _ _)]
    exact Or.inl (by simp only [nop_none_left])

/-- Concentrations that are not numbers at any point have norm zero. -/
theorem nrNorm_nan (P : NrProb M L K) (canonical : Bool) (w c : NFlds M L K)
    (hl : canonical = true → ∀ a, w (Fin.last M) (Fin.last L) = some a → a = 0)
    (h : ∀ i, ∃ k, c k i = none) : nrNorm (nrResidual P canonical w c) = 0 := by
  refine le_antisymm (nrNorm_le _ 0 le_rfl fun j i a ha => ?_) (nrNorm_nonneg _)
  obtain ⟨k, hk⟩ := h i
  rcases nrResidual_none P canonical w c i k hk j with e | ⟨hc, e⟩
  · rw [e] at ha; cases ha
  · rw [e] at ha
    rw [hl hc a ha, abs_zero]

/-- C107 is violated by numbers that overflow: `residualNorm` skips residuals that are not numbers. If the first
Newton step leads to fields for which at every grid point some concentration is not a number, the step is accepted
and `solve` returns 0, with these concentrations. -/
theorem C107_nan_violated (P : NrProb M L K) (ens : List Ens) (canonical : Bool) (w : NFlds M L K) (s : NrSt M L K)
    (hens : nrCanonical ens = .ok canonical) (heps : 0 < P.eps) (hmax : 2 ≤ P.maxItr)
    (w0 r0 w1 : NFlds M L K) (hw0 : w0 = shiftLast canonical w) (hr0 : r0 = nrResidual P canonical w0 (P.mix w0))
    (hw1 : w1 = incrementW canonical w0 (P.lu (nrJacobian P canonical w0 r0) r0))
    (hstart : P.eps ≤ nrNorm r0) (hnan : ∀ i, ∃ k, P.mix w1 k i = none) :
    ∃ s', nrSolve P ens false w s = .ok (s', 0) ∧ s'.w = w1 ∧ s'.c = P.mix w1 ∧ ∀ i, ∃ k, s'.c k i = none := by
  obtain ⟨n, hn⟩ : ∃ n, P.maxItr = n + 2 := ⟨P.maxItr - 2, by omega⟩
  have hz : nrNorm (nrResidual P canonical w1 (P.mix w1)) = 0 := by
    refine nrNorm_nan P canonical w1 _ ?_ hnan
    intro hc a ha
    subst hc
    rw [hw1] at ha
    exact shiftLast_last (fun j i => nop (· - ·) (w0 j i) (P.lu (nrJacobian P true w0 r0) r0 j i)) a ha
  have hpos : 0 < nrNorm r0 := lt_of_lt_of_le heps hstart
  unfold nrSolve
  rw [hens]
  change ∃ s', Res.ok (nrLoop P canonical P.maxItr _) = _ ∧ _
  rw [← hw0, ← hr0, hn]
  simp only [Bool.false_eq_true, if_false]
  unfold nrLoop
  rw [if_neg (not_lt.2 hstart)]
  have hp : nrPrepare P canonical (⟨w0, P.mix w0, w0, r0, nrNorm r0, s.jacobian, true, false⟩ : NrSt M L K) =
      ⟨w0, P.mix w0, bump w0 (Fin.last M) (Fin.last L), r0, nrNorm r0, nrJacobian P canonical w0 r0, false, true⟩ := rfl
  have htr : (nrTrial P canonical w0 (P.lu (nrJacobian P canonical w0 r0) r0)).norm = 0 := by
    unfold nrTrial
    dsimp only
    rw [← hw1]
    exact hz
  have ht : nrTrials P canonical
      (⟨w0, P.mix w0, bump w0 (Fin.last M) (Fin.last L), r0, nrNorm r0, nrJacobian P canonical w0 r0, false, true⟩ :
        NrSt M L K) = (nrTrial P canonical w0 (P.lu (nrJacobian P canonical w0 r0) r0), false) := by
    unfold nrTrials
    dsimp only
    have h1 : ∀ b, nrShrink P canonical w0 (nrNorm r0) 3
        (nrTrial P canonical w0 (P.lu (nrJacobian P canonical w0 r0) r0)) b =
        (nrTrial P canonical w0 (P.lu (nrJacobian P canonical w0 r0) r0), b) := by
      intro b
      unfold nrShrink
      rw [htr, if_neg (not_lt.2 hpos.le)]
    rw [h1]
    unfold nrReverse
    dsimp only
    rw [htr, if_neg (not_lt.2 hpos.le)]
  rw [hp]
  dsimp only
  rw [ht]
  dsimp only
  rw [htr, if_pos hpos]
  unfold nrLoop
  rw [if_pos heps]
  refine ⟨_, rfl, ?_, ?_, ?_⟩
  · exact hw1.symm
  · change P.mix (incrementW canonical w0 _) = _
    rw [← hw1]
  · intro i
    obtain ⟨k, hk⟩ := hnan i
    refine ⟨k, ?_⟩
    change P.mix (incrementW canonical w0 _) k i = _
    rw [← hw1]
    exact hk

/-! ### Open solvents -/

/-- C107 is violated if polymers are closed and solvents open: `isCanonical_` looks at the polymers only, so the
condition at the last point is replaced by that on the last field. Fields that satisfy all other equations, and
vanish at the last point, are accepted at once, whatever the sum of concentrations there. -/
theorem C107_solvent_violated (P : NrProb M L K) (ens : List Ens) (hens : ∀ e ∈ ens, e = .closed) (cont : Bool)
    (heps : 0 < P.eps) (hmax : 0 < P.maxItr) (wr cr : Fin (M + 1) → Fin (L + 1) → K)
    (hmix : P.mix (fun j i => some (wr j i)) = fun j i => some (cr j i)) (ξ : Fin (L + 1) → K)
    (hf : ∀ j i, wr j i = (∑ k, P.chi j k * cr k i) + ξ i) (hs : ∀ i, i ≠ Fin.last L → ∑ k, cr k i = 1)
    (h0 : wr (Fin.last M) (Fin.last L) = 0) (s : NrSt M L K) :
    ∃ s', nrSolve P ens cont (fun j i => some (wr j i)) s = .ok (s', 0) ∧
      s'.w = (fun j i => some (wr j i)) ∧ s'.c = fun j i => some (cr j i) := by
  obtain ⟨n, hn⟩ : ∃ n, P.maxItr = n + 1 := ⟨P.maxItr - 1, by omega⟩
  have hsh : shiftLast true (fun j i => some (wr j i) : NFlds M L K) = fun j i => some (wr j i) := by
    funext j i
    unfold shiftLast
    rw [if_pos rfl]
    change some (wr j i - wr (Fin.last M) (Fin.last L)) = _
    rw [h0, sub_zero]
  have hz : nrNorm (nrResidual P true (fun j i => some (wr j i)) (fun j i => some (cr j i))) = 0 := by
    refine le_antisymm (nrNorm_le _ 0 le_rfl fun j i a ha => ?_) (nrNorm_nonneg _)
    rw [nrResidual_some P true _ _ wr cr (fun _ _ => rfl) (fun _ _ => rfl)] at ha
    have ha := Option.some.inj ha
    rw [abs_nonpos_iff, ← ha]
    split_ifs with h1 h2
    · exact h0
    · rw [hs i fun e => h2 ⟨rfl, e⟩, sub_self]
    · rw [hf j i, hf 0 i]
      ring
  unfold nrSolve
  rw [(nrCanonical_iff ens).2 hens]
  change ∃ s', Res.ok (nrLoop P true P.maxItr _) = _ ∧ _
  rw [hsh, hmix, hn]
  unfold nrLoop
  dsimp only
  rw [hz, if_pos heps]
  exact ⟨_, rfl, rfl, rfl⟩

end Nr

/-! ## Relaxation -/

section Relax

variable {L : Nat}

theorem brNorm_bound (P : BrProb L) (w c : BFlds L) (h : brNorm P w c < P.eps) (i : Fin (L + 1)) :
    |c 0 i + c 1 i - 1| ≤ Real.sqrt ((L + 1 : Nat) : ℝ) * P.eps ∧
      |1 / 2 * (c 0 i - c 1 i - (w 1 i - w 0 i) / P.chi)| ≤ Real.sqrt ((L + 1 : Nat) : ℝ) * P.eps := by
  have heps : 0 < P.eps := lt_of_le_of_lt (Real.sqrt_nonneg _) h
  unfold brNorm at h
  simp only [accum_eq, zero_add] at h
  have hN : (0 : ℝ) < ((L + 1 : Nat) : ℝ) := by exact_mod_cast Nat.succ_pos L
  rw [Real.sqrt_lt' heps, div_lt_iff₀ hN] at h
  have h1 : ∀ f : Fin (L + 1) → ℝ, f i * f i ≤ ∑ k, f k * f k := fun f =>
    single_le_sum (f := fun k => f k * f k) (fun k _ => mul_self_nonneg _) (mem_univ i)
  have h2 : ∀ f : Fin (L + 1) → ℝ, 0 ≤ ∑ k, f k * f k := fun f => sum_nonneg fun k _ => mul_self_nonneg _
  have key : ∀ x : ℝ, x * x ≤ P.eps ^ 2 * ((L + 1 : Nat) : ℝ) → |x| ≤ Real.sqrt ((L + 1 : Nat) : ℝ) * P.eps := by
    intro x hx
    refine abs_le_of_sq_le_sq ?_ (by positivity)
    rw [mul_pow, Real.sq_sqrt hN.le]
    nlinarith
  have a1 := h1 fun i => c 1 i + c 0 i - 1
  have a2 := h2 fun i => c 1 i + c 0 i - 1
  have b1 := h1 fun i => 1 / 2 * (c 0 i - c 1 i - (w 1 i - w 0 i) / P.chi)
  have b2 := h2 fun i => 1 / 2 * (c 0 i - c 1 i - (w 1 i - w 0 i) / P.chi)
  refine ⟨?_, key _ (by linarith)⟩
  rw [add_comm (c 0 i)]
  exact key _ (by linarith)

theorem brShrink_cases (P : BrProb L) (canonical : Bool) (w c : BFlds L) (n : Nat) (t : BrTrial L) :
    brShrink P canonical w c (brNorm P w c) n t = t ∨
      (brShrink P canonical w c (brNorm P w c) n t).norm = brNorm P w c := by
  cases n with
  | zero => exact Or.inl rfl
  | succ n =>
    unfold brShrink
    split
    · right
      cases n with
      | zero => rfl
      | succ n =>
        unfold brShrink
        dsimp only
        rw [if_neg (lt_irrefl _)]
    · exact Or.inl rfl

theorem brLoop_ok (P : BrProb L) (canonical : Bool) (n : Nat) (s : BrSt L) (hc : s.c = P.mix s.w)
    (hn : s.norm = brNorm P s.w s.c) :
    let o := brLoop P canonical n s
    o.1.c = P.mix o.1.w ∧ o.1.norm = brNorm P o.1.w o.1.c ∧ (o.2 = 0 → o.1.norm < P.eps) := by
  induction n generalizing s with
  | zero => exact ⟨hc, hn, fun h => absurd h (show ¬(1 = 0) by decide)⟩
  | succ n ih =>
    unfold brLoop
    by_cases he : s.norm < P.eps
    · simp only [if_pos he]
      exact ⟨hc, hn, fun _ => he⟩
    simp only [if_neg he]
    split
    · rename_i ha
      refine ih _ rfl ?_
      dsimp only
      rw [hn] at ha ⊢
      rcases brShrink_cases P canonical s.w s.c 3 ⟨s.lp, s.lm, brUpdate canonical s.w s.dW,
        brDW P s.lp s.lm (brUpdate canonical s.w s.dW) (P.mix (brUpdate canonical s.w s.dW)),
        brNorm P (brUpdate canonical s.w s.dW) (P.mix (brUpdate canonical s.w s.dW))⟩ with h | h
      · rw [h]
      · rw [h] at ha
        exact absurd ha (lt_irrefl _)
    · exact ⟨hc, hn, fun h => absurd h (show ¬(1 = 0) by decide)⟩

/-- C107, relaxation of two monomers: if `solve` returns 0, the concentrations are those of the fields, they add up
to 1, and the difference of the fields is `chi` times that of the concentrations, at every grid point, within the
tolerance times the square root of the number of points. -/
theorem C107_relax_converged_partial (P : BrProb L) (hchi : P.chi ≠ 0) (canonical : Bool) (maxItr : Nat) (lp lm : ℝ)
    (w : BFlds L) :
    let o := brSolve P canonical maxItr lp lm w
    o.2 = 0 → o.1.c = P.mix o.1.w ∧ ∀ i,
      |o.1.c 0 i + o.1.c 1 i - 1| ≤ Real.sqrt ((L + 1 : Nat) : ℝ) * P.eps ∧
      |o.1.w 1 i - o.1.w 0 i - P.chi * (o.1.c 0 i - o.1.c 1 i)| ≤
        2 * |P.chi| * (Real.sqrt ((L + 1 : Nat) : ℝ) * P.eps) := by
  intro o h
  have hI := brLoop_ok P canonical maxItr
    ⟨lp, lm, (if canonical then fun j i => w j i - w 1 (Fin.last L) else w),
      P.mix (if canonical then fun j i => w j i - w 1 (Fin.last L) else w),
      brDW P lp lm (if canonical then fun j i => w j i - w 1 (Fin.last L) else w)
        (P.mix (if canonical then fun j i => w j i - w 1 (Fin.last L) else w)),
      brNorm P (if canonical then fun j i => w j i - w 1 (Fin.last L) else w)
        (P.mix (if canonical then fun j i => w j i - w 1 (Fin.last L) else w))⟩ rfl rfl
  have hI : o.1.c = P.mix o.1.w ∧ o.1.norm = brNorm P o.1.w o.1.c ∧ (o.2 = 0 → o.1.norm < P.eps) := hI
  have hn := hI.2.2 h
  rw [hI.2.1] at hn
  refine ⟨hI.1, fun i => ⟨(brNorm_bound P _ _ hn i).1, ?_⟩⟩
  have hb := (brNorm_bound P _ _ hn i).2
  have e : o.1.w 1 i - o.1.w 0 i - P.chi * (o.1.c 0 i - o.1.c 1 i) =
      (-2 * P.chi) * (1 / 2 * (o.1.c 0 i - o.1.c 1 i - (o.1.w 1 i - o.1.w 0 i) / P.chi)) := by
    field_simp
    ring
  rw [e, abs_mul, abs_mul, abs_neg, abs_two]
  exact mul_le_mul_of_nonneg_left hb (by positivity)

/-- C107 is violated: the interaction of like monomers is ignored. If the norm vanishes, the difference of the
fields deviates from the field equation for a matrix with diagonal elements `a`, `b`, by `a c0 - b c1`. -/
theorem C107_relax_diagonal_violated (P : BrProb L) (hchi : P.chi ≠ 0) (w c : BFlds L) (h : brNorm P w c = 0)
    (a b : ℝ) (i : Fin (L + 1)) :
    (w 1 i - w 0 i) - ((P.chi * c 0 i + b * c 1 i) - (a * c 0 i + P.chi * c 1 i)) = a * c 0 i - b * c 1 i := by
  have hb : ∀ e : ℝ, 0 < e →
      |1 / 2 * (c 0 i - c 1 i - (w 1 i - w 0 i) / P.chi)| ≤ Real.sqrt ((L + 1 : Nat) : ℝ) * e := by
    intro e he
    exact (brNorm_bound { P with eps := e } w c (show brNorm P w c < e by rw [h]; exact he) i).2
  have hN : (0 : ℝ) < Real.sqrt ((L + 1 : Nat) : ℝ) := Real.sqrt_pos.2 (by exact_mod_cast Nat.succ_pos L)
  have h0 : |1 / 2 * (c 0 i - c 1 i - (w 1 i - w 0 i) / P.chi)| ≤ 0 := by
    refine le_of_forall_pos_le_add fun e he => ?_
    have := hb (e / Real.sqrt ((L + 1 : Nat) : ℝ)) (div_pos he hN)
    rw [mul_div_cancel₀ _ hN.ne'] at this
    linarith
  have h1 := abs_nonpos_iff.1 h0
  have h2 : w 1 i - w 0 i = P.chi * (c 0 i - c 1 i) := by
    have h3 : c 0 i - c 1 i = (w 1 i - w 0 i) / P.chi := by linarith
    rw [h3, mul_div_cancel₀ _ hchi]
  rw [h2]
  ring

/-- C107: reduction of the increment is without effect. If a step would increase the norm, `solve` fails and leaves
fields unchanged; the mixing parameters are halved for good. -/
theorem C107_relax_reduction_violated (P : BrProb L) (canonical : Bool) (n : Nat) (s : BrSt L)
    (hn : s.norm = brNorm P s.w s.c) (he : P.eps ≤ s.norm)
    (h : s.norm < brNorm P (brUpdate canonical s.w s.dW) (P.mix (brUpdate canonical s.w s.dW))) :
    brLoop P canonical (n + 1) s = ({ s with lp := s.lp * (1 / 2), lm := s.lm * (1 / 2) }, 1) := by
  unfold brLoop
  simp only [if_neg (not_lt.2 he)]
  have e : brShrink P canonical s.w s.c s.norm 3 ⟨s.lp, s.lm, brUpdate canonical s.w s.dW,
      brDW P s.lp s.lm (brUpdate canonical s.w s.dW) (P.mix (brUpdate canonical s.w s.dW)),
      brNorm P (brUpdate canonical s.w s.dW) (P.mix (brUpdate canonical s.w s.dW))⟩ =
      ⟨s.lp * (1 / 2), s.lm * (1 / 2), brUpdate canonical s.w (brDW P (s.lp * (1 / 2)) (s.lm * (1 / 2)) s.w s.c),
        brDW P (s.lp * (1 / 2)) (s.lm * (1 / 2)) s.w s.c, brNorm P s.w s.c⟩ := by
    unfold brShrink
    rw [if_pos h]
    dsimp only
    unfold brShrink
    dsimp only
    rw [hn, if_neg (lt_irrefl _)]
  rw [e]
  dsimp only
  rw [hn, if_neg (lt_irrefl _)]

end Relax

/-! ## Anderson mixing -/

section Am

open Verif.Scft Verif.Inter

variable {M L : Nat}

theorem amResidual_eq (P : Scft.Prob M) (hcan : P.canonical = false) (hg : P.grid = true) (s : Scft.St M L)
    (hm : s.ev.mask = none) (hh : s.ev.ext = none) (i : Fin M) (k : Fin L) :
    amResidual P s i k = residCpu P s i k := by
  rw [residCpu_eq, hcan]
  simp only [Bool.false_eq_true, if_false, sub_zero]
  unfold amResidual rawResid Inter.residual
  simp only [accum_eq, extV, maskV, hm, hh, hg, one, if_true, mul_one, zero_sub]
  rw [zero_add, add_comm]
  congr 1
  exact sum_congr rfl fun j _ => by ring

theorem amSys_residual (P : Scft.Prob M) (hcan : P.canonical = false) (hg : P.grid = true)
    (hfl : P.isFlexible = false) (canonical : Bool) (E : (Fin M → Solver.Fld L ℝ) → (Nat → ℝ) → Scft.Eval M L)
    (s : Scft.St M L) (hm : s.ev.mask = none) (hh : s.ev.ext = none) :
    (amSys P canonical E).getResidual s = getResidual P false s := by
  change pack P (amResidual P s) (fun _ => 0) = _
  unfold getResidual
  have : amResidual P s = residCpu P s := by
    funext i k
    exact amResidual_eq P hcan hg s hm hh i k
  rw [this]
  unfold pack
  simp only [hfl, Bool.false_eq_true, if_false]

/-- C107, Anderson mixing: if `solve` returns 0, the concentrations are those of the fields, the field equations
hold, with some pressure field, at every grid point, and the concentrations add up to 1, within the tolerance. -/
theorem C107_am_converged (P : Scft.Prob M) (hcan : P.canonical = false) (hg : P.grid = true)
    (hfl : P.isFlexible = false) (hB : P.inv * P.chi = 1) (hS : total P.inv ≠ 0) (canonical : Bool)
    (E : (Fin M → Solver.Fld L ℝ) → (Nat → ℝ) → Scft.Eval M L) (hm : ∀ w p, (E w p).mask = none)
    (hh : ∀ w p, (E w p).ext = none) (lu : AM.LinSolve ℝ) (t : ErrorType) (eps : ℝ) (lam : Nat → ℝ) (maxItr : Nat)
    (cont : Bool) (s : Scft.St M L) (am : AM.Iter ℝ (nElements P L)) :
    let o := AM.solve (amSys P canonical E) lu (computeError t eps) eps lam maxItr cont s am
    o.code = some 0 → o.sys.ev = E o.sys.w o.sys.par ∧
      (∃ ξ : Fin L → ℝ, ∀ i k, |(∑ j, P.chi i j * o.sys.ev.c j k) + ξ k - o.sys.w i k| ≤
        tolerance t eps (getCurrent P o.sys)) ∧
      ∀ k, |(∑ j, o.sys.ev.c j k) - 1| ≤
        tolerance t eps (getCurrent P o.sys) * ∑ j, |∑ i, P.inv i j| := by
  intro o hc
  obtain ⟨h1, ⟨u, hu⟩, _⟩ := AM.C23_return_code (amSys P canonical E) lu (computeError t eps) eps lam maxItr cont s am
  obtain ⟨e, he, hlt⟩ := h1 hc
  have hev : o.sys.ev = E o.sys.w o.sys.par := by
    have : o.sys = Scft.evaluate E u := hu
    rw [this]
    rfl
  have hmask : o.sys.ev.mask = none := by rw [hev]; exact hm _ _
  have hext : o.sys.ev.ext = none := by rw [hev]; exact hh _ _
  have hr := amSys_residual P hcan hg hfl canonical E o.sys hmask hext
  have he : computeError t eps ((amSys P canonical E).getResidual o.sys) (getCurrent P o.sys) = some e := he
  rw [hr] at he
  have hW := within_of_resid P hB hS o.sys _ fun x => C100_error t eps e _ _ he hlt x
  simp only [hcan, Bool.false_eq_true, if_false] at hW
  refine ⟨hev, ?_, ?_⟩
  · obtain ⟨ξ, hξ⟩ := hW.fields
    refine ⟨ξ, fun i k => ?_⟩
    have := hξ i k
    rw [← abs_neg] at this
    convert this using 2
    simp only [extV, hext]
    ring
  · intro k
    have := hW.incompressible k
    simpa only [maskV, hmask, hg, one, if_true, zero_mul, sub_zero] using this

/-- C107: in a closed system the last field at the last point is zero after each update. -/
theorem C107_am_shift (P : Scft.Prob M) (s : Scft.St M L) (y : AM.Vec ℝ (nElements P L)) (i : Fin M) (k : Fin L)
    (hi : i.val + 1 = M) (hk : k.val + 1 = L) : (amUpdate P true s y).w i k = 0 := by
  have e : i.val * L + k.val = M * L - 1 := by
    have h1 : (i.val + 1) * L = M * L := by rw [hi]
    rw [Nat.succ_mul] at h1
    omega
  unfold amUpdate
  simp only [if_true]
  rw [e, sub_self]

end Am

/-! ## Examples -/

section Examples

/-- One field on one grid point whose concentration is `a` times the field, not a number above `top`. -/
def exNr (a top : ℚ) : NrProb 0 0 ℚ where
  chi := fun _ _ => 0
  mix := fun w _ _ => (w 0 0).bind fun x => if top < x then none else some (a * x)
  lu := fun A r _ _ => nop (· / ·) (r 0 0) (A 0 0 0 0)
  eps := 1 / 10
  maxItr := 5

def exNrSt : NrSt 0 0 ℚ := ⟨fun _ _ => none, fun _ _ => none, fun _ _ => none, fun _ _ => none, 0,
  fun _ _ _ _ => none, false, false⟩

/-- Fields, concentrations and code of a run. -/
def exRun (P : NrProb 0 0 ℚ) (x : ℚ) : Option (Num ℚ × Num ℚ × Nat) :=
  match nrSolve P [.opened] false (fun _ _ => some x) exNrSt with
  | .ok (s, n) => some (s.w 0 0, s.c 0 0, n)
  | _ => none

/-- A Newton step leads to the solution; `C107_nr_converged_partial` and `C107_nr_monotone` apply. -/
example : exRun (exNr 2 100) 3 = some (some (1 / 2), some 1, 0) := by decide +kernel

/-- `C107_nan_violated`: the solution, 1000, is out of range, and the run ends with code 0. -/
example : exRun (exNr (1 / 1000) 100) 3 = some (some 1000, none, 0) := by decide +kernel

/-- `C107_solvent_violated` applies: half of the system is a closed species of point particles, in contact with a
reservoir of solvent. The sum of concentrations at the last of two points is 1/2. -/
example (s : NrSt 0 1 ℝ) :
    ∃ s', nrSolve (⟨fun _ _ => 0, fun w _ i => (w 0 0).bind fun a => (w 0 1).bind fun b => (w 0 i).bind fun x =>
        some (1 / 2 * Real.exp (-x) / ((Real.exp (-a) + Real.exp (-b)) / 2) + 1 / 6 * Real.exp (-x)),
        fun _ r => r, 1 / 1000, 100⟩ : NrProb 0 1 ℝ) [.closed] false (fun _ i => some (![-Real.log 2, 0] i)) s =
          .ok (s', 0) ∧ s'.c 0 1 = some (1 / 2) := by
  obtain ⟨s', h, _, hc⟩ := C107_solvent_violated (⟨fun _ _ => 0, fun w _ i => (w 0 0).bind fun a =>
      (w 0 1).bind fun b => (w 0 i).bind fun x =>
        some (1 / 2 * Real.exp (-x) / ((Real.exp (-a) + Real.exp (-b)) / 2) + 1 / 6 * Real.exp (-x)),
        fun _ r => r, 1 / 1000, 100⟩ : NrProb 0 1 ℝ) [.closed] (by simp) false (by norm_num) (by norm_num)
    (fun _ i => ![-Real.log 2, 0] i) (fun _ i => ![1, 1 / 2] i) (by
      have e2 : Real.exp (Real.log 2) = 2 := Real.exp_log (by norm_num)
      funext j i
      fin_cases i <;> simp [e2] <;> norm_num)
    (fun i => ![-Real.log 2, 0] i) (by intro j i; simp) (by
      intro i hi
      have : i = 0 := by
        fin_cases i
        · rfl
        · exact absurd rfl hi
      subst this
      simp) (by simp [Fin.last]) s
  exact ⟨s', h, by rw [hc]; simp⟩

/-- Two points of a slit; the average of the concentrations is 1. `C107_nr_last_planar` gives the factor 1. -/
example : (∑ i ∈ range 1, weight (Domain.mk Mode.planar false (0 : ℚ) 1 1 1 2) i) /
    weight (Domain.mk Mode.planar false (0 : ℚ) 1 1 1 2) 1 = 1 := by
  norm_num [weight]

/-- Concentrations that increase with the field. -/
noncomputable def exBr : BrProb 0 := ⟨1, fun w _ _ => 1 + w 0 0, 1 / 2⟩

/-- `C107_relax_reduction_violated` applies. -/
example : brLoop exBr false 4 ⟨1, 1, fun _ _ => 0, fun _ _ => 1, fun _ _ => 1, 1⟩ =
    (⟨1 / 2, 1 / 2, fun _ _ => 0, fun _ _ => 1, fun _ _ => 1, 1⟩, 1) := by
  rw [C107_relax_reduction_violated exBr false 3 ⟨1, 1, fun _ _ => 0, fun _ _ => 1, fun _ _ => 1, 1⟩
    (by simp [brNorm, accum_eq]) (by norm_num [exBr])
    (by
      have e : brNorm exBr (brUpdate false (fun _ _ => 0) fun _ _ => 1)
          (exBr.mix (brUpdate false (fun _ _ => 0) fun _ _ => 1)) = Real.sqrt 9 := by
        norm_num [brNorm, exBr, brUpdate, accum_eq]
      change 1 < brNorm exBr (brUpdate false (fun _ _ => 0) fun _ _ => 1) _
      rw [e]
      exact Real.lt_sqrt_of_sq_lt (by norm_num))]
  norm_num

/-- `C107_relax_converged_partial` applies: homogeneous state. -/
example : (brSolve (⟨3, fun _ _ _ => 1 / 2, 1 / 10⟩ : BrProb 4) true 7 1 1 fun _ i => (i.val : ℝ)).2 = 0 := by
  unfold brSolve brLoop
  dsimp only
  rw [if_pos (by simp [brNorm, accum_eq]; norm_num)]

open Verif.Scft in
/-- `C107_am_converged` applies: `Scft.exSt` solves the equations. -/
example (lu : AM.LinSolve ℝ) (lam : Nat → ℝ)
    (am : AM.Iter ℝ (nElements { exProb true false with isFlexible := false } 2)) :
    (AM.solve (amSys { exProb true false with isFlexible := false } true (fun _ _ => exEval)) lu
      (computeError .maxResid (1/1000)) (1/1000) lam 5 false exSt am).code = some 0 := by
  have hz : (amSys { exProb true false with isFlexible := false } true (fun _ _ => exEval)).getResidual
      ((amSys { exProb true false with isFlexible := false } true (fun _ _ => exEval)).evaluate exSt) =
      fun _ => 0 := by
    rw [amSys_residual _ rfl rfl rfl _ _ _ rfl rfl]
    refine funext ((C100_zero_iff { exProb true false with isFlexible := false } (exProb_inv true false)
      (by change Inter.total (exProb true false).inv ≠ 0; rw [exProb_total]; norm_num) _).2
        ⟨0, 0, fun _ => ⟨rfl, rfl⟩, ?_⟩)
    have h := exSt_within false
    exact ⟨h.fields, h.incompressible, fun h => by cases h⟩
  refine (AM.C23_converged_input _ lu _ _ lam 5 (by norm_num) false exSt am 0 ?_ (by norm_num)).1
  rw [hz]
  have : ∀ l : List (Fin (nElements { exProb true false with isFlexible := false } 2)),
      l.foldl (fun m _ => if m < (0 : ℝ) then 0 else m) 0 = 0 := by
    intro l
    induction l with
    | nil => rfl
    | cons a l ih => rw [List.foldl_cons, if_neg (lt_irrefl _)]; exact ih
  simp [computeError, maxAbs, this]

end Examples

end Verif.R1d
