import Verif.AM.Model
import Verif.Tac

/-! # C23 (return code), C24 (history coherence, optimal mixing), C25 (stale coefficients) -/

set_option linter.unusedSectionVars false

namespace Verif.AM

variable {K : Type} [Field K] [LinearOrder K] {N : Nat}

/-! ## C23 -/

variable {σ : Type} (S : Sys σ K N) (lu : LinSolve K) (error : Vec K N → Vec K N → Option K)
  (eps : K) (lam : Nat → K)

theorem solveLoop_code : ∀ (fuel itr up : Nat) (sys : σ) (am : Iter K N),
    (∃ t, sys = S.evaluate t) →
    let o := solveLoop S lu error eps lam fuel itr up sys am
    (o.code = some 0 → ∃ e, error (S.getResidual o.sys) (S.getCurrent o.sys) = some e ∧ e < eps) ∧
    (∃ t, o.sys = S.evaluate t) ∧ o.updates ≤ up + fuel ∧
    (o.code = some 1 → o.updates = up + fuel ∨
      error (S.getResidual o.sys) (S.getCurrent o.sys) = none) ∧
    (o.code = some 0 ∨ o.code = some 1 ∨ o.code = none) := by
  intro fuel
  induction fuel with
  | zero => intro itr up sys am h; simp [solveLoop, h]
  | succ f ih =>
    intro itr up sys am h
    unfold solveLoop
    simp only
    cases he : error (S.getResidual sys) (S.getCurrent sys) with
    | none => simp [h, he]
    | some e =>
      simp only
      by_cases hlt : e < eps
      · simp [hlt, he, h]
      · simp only [if_neg hlt]
        cases hc : computeTrialCoeff lu itr _ with
        | none => simp [h]
        | some am2 =>
          simp only
          have := ih (itr + 1) (up + 1) (S.evaluate (S.update sys
            (addCorrection (lam am2.nBasis) (updateTrial am2 (S.getCurrent sys) (S.getResidual sys)).1
              (updateTrial am2 (S.getCurrent sys) (S.getResidual sys)).2))) am2 ⟨_, rfl⟩
          obtain ⟨h1, h2, h3, h4, h5⟩ := this
          refine ⟨h1, h2, by omega, ?_, h5⟩
          intro hcode
          rcases h4 hcode with h | h
          · left; omega
          · exact Or.inr h

/-- C23: success is returned only if the error of the fields held by the system on return,
after a modified diffusion equation solution for these fields, is below epsilon; at most
`maxItr` field updates are made; failure is returned only after all of them were used or
when the error is NaN. -/
theorem C23_return_code (maxItr : Nat) (cont : Bool) (sys : σ) (am : Iter K N) :
    let o := solve S lu error eps lam maxItr cont sys am
    (o.code = some 0 → ∃ e, error (S.getResidual o.sys) (S.getCurrent o.sys) = some e ∧ e < eps) ∧
    (∃ t, o.sys = S.evaluate t) ∧ o.updates ≤ maxItr ∧
    (o.code = some 1 → o.updates = maxItr ∨
      error (S.getResidual o.sys) (S.getCurrent o.sys) = none) ∧
    (o.code = some 0 ∨ o.code = some 1 ∨ o.code = none) := by
  have := solveLoop_code S lu error eps lam maxItr 0 0 (S.evaluate sys)
    { am.setup cont with nBasis := (am.setup cont).stateBasis.length } ⟨_, rfl⟩
  simpa [solve] using this

/-- C23: an initial state that already satisfies the tolerance is returned unchanged. -/
theorem C23_converged_input (maxItr : Nat) (hm : 0 < maxItr) (cont : Bool) (sys : σ)
    (am : Iter K N) (e : K)
    (he : error (S.getResidual (S.evaluate sys)) (S.getCurrent (S.evaluate sys)) = some e)
    (hlt : e < eps) :
    let o := solve S lu error eps lam maxItr cont sys am
    o.code = some 0 ∧ o.sys = S.evaluate sys ∧ o.updates = 0 := by
  obtain ⟨m, rfl⟩ : ∃ m, maxItr = m + 1 := ⟨maxItr - 1, by omega⟩
  unfold solve solveLoop
  simp [he, hlt]

/-! ## C24 -/

theorem dot_eq (a b : Vec K N) : dot a b = ∑ i, a i * b i := by simp [dot, accum_eq]

theorem dot_comm (a b : Vec K N) : dot a b = dot b a := by
  rw [dot_eq, dot_eq]; exact Finset.sum_congr rfl fun i _ => mul_comm _ _

/-- Specification: the matrix stored in `U_` is the Gram matrix of the residual basis, and the
two bases have the same size, within capacity. -/
structure Coherent (s : Iter K N) : Prop where
  gram : ∀ m n, (hm : m < s.residBasis.length) → (hn : n < s.residBasis.length) →
    s.U m n = dot s.residBasis[m] s.residBasis[n]
  sizes : s.stateBasis.length = s.residBasis.length
  hist : s.stateHist.length = s.residHist.length
  cap : s.residBasis.length ≤ s.maxHist

theorem updateU_gram {U : Nat → Nat → K} {d : Vec K N} {rb : List (Vec K N)} {cap : Nat}
    (h : ∀ m n, (hm : m < rb.length) → (hn : n < rb.length) → U m n = dot rb[m] rb[n])
    (m n : Nat) (hm : m < (push cap d rb).length) (hn : n < (push cap d rb).length) :
    updateU U (push cap d rb) m n = dot (push cap d rb)[m] (push cap d rb)[n] := by
  have hget : ∀ k, (hk : k + 1 < (push cap d rb).length) → ∃ hk' : k < rb.length,
      (push cap d rb)[k + 1] = rb[k] := by
    intro k hk
    simp only [push, List.length_take, List.length_cons] at hk
    exact ⟨by omega, by simp [push]⟩
  cases cap with
  | zero => simp [push] at hm
  | succ c =>
    have h0 : (push (c + 1) d rb)[0]'(by simp [push]) = d := by simp [push]
    have hp : push (c + 1) d rb = d :: rb.take c := rfl
    have hU : updateU U (push (c + 1) d rb) m n =
        if h : n = 0 ∧ m < (push (c + 1) d rb).length then dot d (push (c + 1) d rb)[m]
        else if h : m = 0 ∧ n < (push (c + 1) d rb).length then dot d (push (c + 1) d rb)[n]
        else if 0 < m ∧ 0 < n then U (m - 1) (n - 1) else U m n := rfl
    rw [hU]
    by_cases hn0 : n = 0
    · subst hn0
      rw [dif_pos ⟨rfl, hm⟩, h0, dot_comm]
    · rw [dif_neg (fun hh => hn0 hh.1)]
      by_cases hm0 : m = 0
      · subst hm0
        rw [dif_pos ⟨rfl, hn⟩, h0]
      · rw [dif_neg (fun hh => hm0 hh.1), if_pos ⟨by omega, by omega⟩]
        obtain ⟨m', rfl⟩ : ∃ m', m = m' + 1 := ⟨m - 1, by omega⟩
        obtain ⟨n', rfl⟩ : ∃ n', n = n' + 1 := ⟨n - 1, by omega⟩
        obtain ⟨hm', em⟩ := hget m' hm
        obtain ⟨hn', en⟩ := hget n' hn
        rw [em, en, Nat.add_sub_cancel, Nat.add_sub_cancel, h m' n' hm' hn']

theorem push_length {α : Type} (cap : Nat) (x : α) (l : List α) :
    (push cap x l).length = min cap (l.length + 1) := by simp [push]

/-- Basis update inside `computeTrialCoeff`. -/
theorem coherent_update (s : Iter K N) (h : Coherent s) (hl : 1 < s.stateHist.length) :
    Coherent { s with
      stateBasis := updateBasis s.maxHist s.stateBasis s.stateHist
      residBasis := updateBasis s.maxHist s.residBasis s.residHist
      U := updateU s.U (updateBasis s.maxHist s.residBasis s.residHist) } := by
  have hr : 1 < s.residHist.length := by rw [← h.hist]; exact hl
  obtain ⟨a, b, l, hs⟩ : ∃ a b l, s.stateHist = a :: b :: l := by
    match hsh : s.stateHist with
    | [] => simp [hsh] at hl
    | [a] => simp [hsh] at hl
    | a :: b :: l => exact ⟨a, b, l, rfl⟩
  obtain ⟨a', b', l', hr'⟩ : ∃ a b l, s.residHist = a :: b :: l := by
    match hsh : s.residHist with
    | [] => simp [hsh] at hr
    | [a] => simp [hsh] at hr
    | a :: b :: l => exact ⟨a, b, l, rfl⟩
  have e1 : updateBasis s.maxHist s.stateBasis s.stateHist =
      push s.maxHist (fun i => a i - b i) s.stateBasis := by rw [hs]; rfl
  have e2 : updateBasis s.maxHist s.residBasis s.residHist =
      push s.maxHist (fun i => a' i - b' i) s.residBasis := by rw [hr']; rfl
  rw [e1, e2]
  refine ⟨?_, ?_, h.hist, ?_⟩
  · intro m n hm hn
    exact updateU_gram h.gram m n hm hn
  · simp only [push_length, h.sizes]
  · simp only [push_length]; omega

theorem coherent_coeff (itr : Nat) (s s' : Iter K N) (h : Coherent s)
    (hz : itr = 0 → s.nBasis = s.residBasis.length)
    (hc : computeTrialCoeff lu itr s = some s') :
    Coherent s' ∧ s'.nBasis = s'.residBasis.length := by
  unfold computeTrialCoeff at hc
  by_cases h1 : itr = 0 ∧ s.nBasis = 0
  · rw [if_pos h1] at hc
    cases hc
    have hlen : s.residBasis.length = 0 := by rw [← hz h1.1]; exact h1.2
    refine ⟨⟨?_, h.sizes, h.hist, h.cap⟩, hz h1.1⟩
    intro m n hm hn
    simp only at hm
    omega
  · rw [if_neg h1] at hc
    by_cases h2 : itr = 0
    · rw [if_pos h2] at hc
      cases hc
      exact ⟨h, hz h2⟩
    · rw [if_neg h2] at hc
      simp only at hc
      -- state after the basis update
      have hco : Coherent (if s.stateHist.length > 1 then
          { s with
            stateBasis := updateBasis s.maxHist s.stateBasis s.stateHist
            residBasis := updateBasis s.maxHist s.residBasis s.residHist
            U := updateU s.U (updateBasis s.maxHist s.residBasis s.residHist) } else s) := by
        split
        · rename_i hl; exact coherent_update s h hl
        · exact h
      generalize (if s.stateHist.length > 1 then
          { s with
            stateBasis := updateBasis s.maxHist s.stateBasis s.stateHist
            residBasis := updateBasis s.maxHist s.residBasis s.residHist
            U := updateU s.U (updateBasis s.maxHist s.residBasis s.residHist) } else s) = s1 at hc hco
      split at hc
      · cases hc
      · split at hc
        · cases hc
        · split at hc
          · cases hc
          · cases hc
            exact ⟨⟨hco.gram, hco.sizes, hco.hist, hco.cap⟩, rfl⟩

theorem coherent_loop : ∀ (fuel itr up : Nat) (sys : σ) (am : Iter K N), Coherent am →
    (itr = 0 → am.nBasis = am.residBasis.length) →
    Coherent (solveLoop S lu error eps lam fuel itr up sys am).am := by
  intro fuel
  induction fuel with
  | zero => intro itr up sys am h _; exact h
  | succ f ih =>
    intro itr up sys am h hz
    unfold solveLoop
    simp only
    have h1 : Coherent { am with stateHist := push (am.maxHist + 1) (S.getCurrent sys) am.stateHist
                                 residHist := push (am.maxHist + 1) (S.getResidual sys) am.residHist } :=
      ⟨h.gram, h.sizes, by simp only [push_length, h.hist], h.cap⟩
    split
    · exact h1
    · split
      · exact h1
      · split
        · exact h1
        · rename_i am2 hc
          exact ih _ _ _ _ (coherent_coeff lu itr _ _ h1 hz hc).1 (fun h => absurd h (by omega))

theorem coherent_setup (s : Iter K N) (h : Coherent s) (cont : Bool) : Coherent (s.setup cont) := by
  unfold Iter.setup
  split
  · exact ⟨h.gram, h.sizes, h.hist, h.cap⟩
  · split
    · exact ⟨h.gram, h.sizes, rfl, h.cap⟩
    · exact ⟨fun m n hm => by simp at hm, rfl, rfl, by simp⟩

/-- One complete call of `solve`, for an arbitrary problem. -/
structure Call (K : Type) (N : Nat) where
  σ : Type
  S : Sys σ K N
  lu : LinSolve K
  error : Vec K N → Vec K N → Option K
  eps : K
  lam : Nat → K
  maxItr : Nat
  cont : Bool
  sys : σ

def Call.run (c : Call K N) (am : Iter K N) : Out c.σ K N :=
  solve c.S c.lu c.error c.eps c.lam c.maxItr c.cont c.sys am

/-- C24: after any sequence of solves, of any problems, continued or not, of any lengths (so
also after the ring buffers wrapped around), `U_` is the matrix of inner products of the stored
residual basis vectors. -/
theorem C24_gram_matrix (maxHist : Nat) (U : Nat → Nat → K) (co : Nat → K)
    (calls : List (Call K N)) :
    Coherent (calls.foldl (fun am c => (c.run am).am) (Iter.new maxHist U co)) := by
  have h0 : Coherent (Iter.new maxHist U co : Iter K N) :=
    ⟨fun m n hm => by simp [Iter.new] at hm, rfl, rfl, by simp [Iter.new]⟩
  generalize (Iter.new maxHist U co : Iter K N) = am at h0
  induction calls generalizing am with
  | nil => exact h0
  | cons c cs ih =>
    rw [List.foldl_cons]
    apply ih
    unfold Call.run solve
    have h1 := coherent_setup am h0 c.cont
    exact coherent_loop c.S c.lu c.error c.eps c.lam c.maxItr 0 0 _ _
      ⟨h1.gram, h1.sizes, h1.hist, h1.cap⟩ (fun _ => h1.sizes)

theorem addEq_dot (b : Vec K N) : ∀ (bs : List (Vec K N)) (v : Vec K N) (c : Nat → K),
    dot (addEqVectors v bs c) b = dot v b + ∑ i : Fin bs.length, c i * dot bs[i] b := by
  intro bs
  induction bs with
  | nil => intro v c; simp [addEqVectors]
  | cons a bs ih =>
    intro v c
    rw [addEqVectors, ih]
    simp only [List.length_cons, Fin.sum_univ_succ]
    have : dot (fun k => v k + a k * c 0) b = dot v b + c 0 * dot a b := by
      simp only [dot_eq, Finset.mul_sum, ← Finset.sum_add_distrib]
      exact Finset.sum_congr rfl fun k _ => by ring
    rw [this]
    simp [add_assoc]

/-- C24: with an exact linear solver, the mixing coefficients make the trial residual
orthogonal to every stored residual basis vector. -/
theorem C24_trial_orthogonal (hlu : lu.Correct) (itr : Nat) (hitr : 0 < itr) (s s' : Iter K N)
    (h : Coherent s) (hc : computeTrialCoeff lu itr s = some s') (x r : Vec K N)
    (hr : ∃ l, s.residHist = r :: l) :
    s'.residBasis ≠ [] ∧ ∀ m, (hm : m < s'.residBasis.length) →
      dot (updateTrial s' x r).2 s'.residBasis[m] = 0 := by
  obtain ⟨l, hr⟩ := hr
  have hco' := coherent_coeff lu itr s s' h (fun h0 => absurd h0 (by omega)) hc
  unfold computeTrialCoeff at hc
  rw [if_neg (by omega), if_neg (by omega)] at hc
  simp only at hc
  have hresid : (if s.stateHist.length > 1 then
          { s with
            stateBasis := updateBasis s.maxHist s.stateBasis s.stateHist
            residBasis := updateBasis s.maxHist s.residBasis s.residHist
            U := updateU s.U (updateBasis s.maxHist s.residBasis s.residHist) } else s).residHist
      = r :: l := by split <;> exact hr
  generalize (if s.stateHist.length > 1 then
          { s with
            stateBasis := updateBasis s.maxHist s.stateBasis s.stateHist
            residBasis := updateBasis s.maxHist s.residBasis s.residHist
            U := updateU s.U (updateBasis s.maxHist s.residBasis s.residHist) } else s) = s1 at hc hresid
  split at hc
  · cases hc
  · rename_i hnb
    push Not at hnb
    simp only [hresid] at hc
    have hn0 : s1.residBasis.length ≠ 0 := hnb.1
    split at hc
    · cases hc
    · rename_i sol hsol
      simp only [Option.some.injEq] at hc
      subst hc
      refine ⟨fun h0 => hn0 (by simp only at h0; rw [h0]; rfl), ?_⟩
      -- the coefficients solve U x = v
      have hsolve : ∀ m, m < s1.residBasis.length →
          ∑ j : Fin s1.residBasis.length, s1.U m j * sol j = computeV r s1.residBasis m := by
        intro m hm
        split at hsol
        · rename_i h1
          split at hsol
          · cases hsol
          · rename_i hU
            cases hsol
            have hm0 : m = 0 := by omega
            subst hm0
            have : ∀ (n : Nat), n = 1 → ∑ j : Fin n, s1.U 0 j * (computeV r s1.residBasis 0 / s1.U 0 0)
                = computeV r s1.residBasis 0 := by
              rintro n rfl
              simp only [Fin.sum_univ_one, Fin.val_zero]
              field_simp
            exact this _ h1
        · exact hlu _ _ _ _ hsol m hm
      intro m hm
      simp only [updateTrial] at hm ⊢
      rw [if_pos (Nat.pos_of_ne_zero hn0)]
      rw [addEq_dot]
      have e1 : ∀ i : Fin s1.residBasis.length,
          (if (i : Nat) < s1.residBasis.length then sol i * (-1) else s1.coeffs i) *
            dot s1.residBasis[i] s1.residBasis[m] = - (s1.U m i * sol i) := by
        intro i
        rw [if_pos i.2]
        have := hco'.1.gram m i hm i.2
        simp only at this
        rw [this, dot_comm s1.residBasis[m]]
        simp only [Fin.getElem_fin]
        ring
      rw [Finset.sum_congr rfl fun i _ => e1 i, Finset.sum_neg_distrib, hsolve m hm]
      simp [computeV, hm]

/-- C24: hence the trial residual has the smallest norm among all combinations of the current
residual with the basis. -/
theorem C24_optimal [IsStrictOrderedRing K] (hlu : lu.Correct) (itr : Nat) (hitr : 0 < itr)
    (s s' : Iter K N) (h : Coherent s) (hc : computeTrialCoeff lu itr s = some s') (x r : Vec K N)
    (hr : ∃ l, s.residHist = r :: l) (a : Nat → K) :
    dot (updateTrial s' x r).2 (updateTrial s' x r).2 ≤
      dot (addEqVectors r s'.residBasis a) (addEqVectors r s'.residBasis a) := by
  obtain ⟨hne, horth⟩ := C24_trial_orthogonal lu hlu itr hitr s s' h hc x r hr
  have hnb : s'.nBasis = s'.residBasis.length :=
    (coherent_coeff lu itr s s' h (fun h0 => absurd h0 (by omega)) hc).2
  have hpos : s'.nBasis > 0 := by
    rw [hnb]; exact List.length_pos_of_ne_nil hne
  set t := (updateTrial s' x r).2 with ht
  have hte : t = addEqVectors r s'.residBasis s'.coeffs := by
    rw [ht, updateTrial, if_pos hpos]
  set y := addEqVectors r s'.residBasis a with hy
  -- `y - t` is a combination of basis vectors, hence orthogonal to `t`
  have h1 : dot y t = dot t t := by
    have e1 := addEq_dot t s'.residBasis r a
    have e2 := addEq_dot t s'.residBasis r s'.coeffs
    have z : ∀ i : Fin s'.residBasis.length, dot s'.residBasis[i] t = 0 := by
      intro i; rw [dot_comm]; exact horth i i.2
    simp only [z, mul_zero, Finset.sum_const_zero, add_zero] at e1 e2
    rw [hy, e1, ← e2, ← hte]
  have h2 : dot y y - dot t t = dot (fun i => y i - t i) (fun i => y i - t i) := by
    have e : dot (fun i => y i - t i) (fun i => y i - t i) = dot y y - 2 * dot y t + dot t t := by
      simp only [dot_eq, Finset.mul_sum, ← Finset.sum_sub_distrib, ← Finset.sum_add_distrib]
      exact Finset.sum_congr rfl fun k _ => by ring
    rw [e, h1]; ring
  have h3 : 0 ≤ dot (fun i => y i - t i) (fun i => y i - t i) := by
    rw [dot_eq]
    exact Finset.sum_nonneg fun i _ => mul_self_nonneg _
  linarith

/-- Specification: each stored residual difference is the image under `L` of the state
difference stored at the same position, and the two histories consist of pairs
(state, residual) of evaluated systems. -/
structure Paired (L : Vec K N → Vec K N) (s : Iter K N) : Prop where
  basis : s.residBasis = s.stateBasis.map L
  hist : ∃ ts : List σ, s.stateHist = ts.map S.getCurrent ∧ s.residHist = ts.map S.getResidual

theorem paired_coeff (L : Vec K N → Vec K N)
    (hL : ∀ a b : σ, (fun i => S.getResidual a i - S.getResidual b i) =
      L (fun i => S.getCurrent a i - S.getCurrent b i)) (itr : Nat) (s s' : Iter K N)
    (h : Paired S L s) (hc : computeTrialCoeff lu itr s = some s') : Paired S L s' := by
  unfold computeTrialCoeff at hc
  by_cases h1 : itr = 0 ∧ s.nBasis = 0
  · rw [if_pos h1] at hc
    cases hc
    exact ⟨h.basis, h.hist⟩
  · rw [if_neg h1] at hc
    by_cases h2 : itr = 0
    · rw [if_pos h2] at hc
      cases hc
      exact h
    · rw [if_neg h2] at hc
      simp only at hc
      have hco : Paired S L (if s.stateHist.length > 1 then
          { s with
            stateBasis := updateBasis s.maxHist s.stateBasis s.stateHist
            residBasis := updateBasis s.maxHist s.residBasis s.residHist
            U := updateU s.U (updateBasis s.maxHist s.residBasis s.residHist) } else s) := by
        split
        · obtain ⟨ts, e1, e2⟩ := h.hist
          refine ⟨?_, ⟨ts, e1, e2⟩⟩
          simp only [e1, e2]
          match ts with
          | [] => exact h.basis
          | [_] => exact h.basis
          | a :: b :: l =>
            simp only [List.map_cons, updateBasis, push, h.basis, hL, List.map_take]
        · exact h
      generalize (if s.stateHist.length > 1 then
          { s with
            stateBasis := updateBasis s.maxHist s.stateBasis s.stateHist
            residBasis := updateBasis s.maxHist s.residBasis s.residHist
            U := updateU s.U (updateBasis s.maxHist s.residBasis s.residHist) } else s) = s1 at hc hco
      split at hc
      · cases hc
      · split at hc
        · cases hc
        · split at hc
          · cases hc
          · cases hc
            exact ⟨hco.basis, hco.hist⟩

theorem addEq_linear (L : Vec K N → Vec K N)
    (hadd : ∀ u v, L (fun i => u i + v i) = fun i => L u i + L v i)
    (hsmul : ∀ (c : K) u, L (fun i => u i * c) = fun i => L u i * c) :
    ∀ (bs : List (Vec K N)) (x r : Vec K N) (c : Nat → K) (x0 r0 : Vec K N),
    (fun i => r i - r0 i) = L (fun i => x i - x0 i) →
    (fun i => addEqVectors r (bs.map L) c i - r0 i) =
      L (fun i => addEqVectors x bs c i - x0 i) := by
  intro bs
  induction bs with
  | nil => intro x r c x0 r0 h; exact h
  | cons b bs ih =>
    intro x r c x0 r0 h
    simp only [List.map_cons, addEqVectors]
    apply ih
    have e1 : (fun i => (x i + b i * c 0) - x0 i) = fun i => (x i - x0 i) + b i * c 0 := by
      funext i; ring
    rw [e1, hadd, hsmul]
    funext i
    have := congrFun h i
    rw [← this]; ring

/-- C24: if the residual is an affine function of the state, with linear part `L`, then at
every iteration of a solve that is not a continuation, the trial residual that was minimised
is the true residual of the trial state: `r_trial - r = L (x_trial - x)`. Stated for any
iterator satisfying `Paired`, which `C24_paired` shows to hold throughout. -/
theorem C24_linear_prediction (L : Vec K N → Vec K N)
    (hadd : ∀ u v, L (fun i => u i + v i) = fun i => L u i + L v i)
    (hsmul : ∀ (c : K) u, L (fun i => u i * c) = fun i => L u i * c) (s : Iter K N)
    (h : Paired S L s) (x r : Vec K N) :
    (fun i => (updateTrial s x r).2 i - r i) = L (fun i => (updateTrial s x r).1 i - x i) := by
  have h0 : L (fun _ => 0) = fun _ => 0 := by
    have := hsmul 0 (fun _ => 0)
    simpa using this
  unfold updateTrial
  split
  · show (fun i => addEqVectors r s.residBasis s.coeffs i - r i) = _
    rw [h.basis]
    apply addEq_linear L hadd hsmul
    simp [h0]
  · simp [h0]

/-- C24: pairing of the two bases and histories holds in every state of a solve. -/
theorem C24_paired_loop (L : Vec K N → Vec K N)
    (hL : ∀ a b : σ, (fun i => S.getResidual a i - S.getResidual b i) =
      L (fun i => S.getCurrent a i - S.getCurrent b i)) :
    ∀ (fuel itr up : Nat) (sys : σ) (am : Iter K N), Paired S L am →
    Paired S L (solveLoop S lu error eps lam fuel itr up sys am).am := by
  intro fuel
  induction fuel with
  | zero => intro itr up sys am h; exact h
  | succ f ih =>
    intro itr up sys am h
    unfold solveLoop
    simp only
    have h1 : Paired S L { am with stateHist := push (am.maxHist + 1) (S.getCurrent sys) am.stateHist
                                   residHist := push (am.maxHist + 1) (S.getResidual sys) am.residHist } := by
      obtain ⟨ts, e1, e2⟩ := h.hist
      exact ⟨h.basis, (sys :: ts).take (am.maxHist + 1), by simp [push, e1, List.map_take],
        by simp [push, e2, List.map_take]⟩
    split
    · exact h1
    · split
      · exact h1
      · split
        · exact h1
        · rename_i am2 hc
          exact ih _ _ _ _ (paired_coeff S lu L hL itr _ _ h1 hc)

/-- C24: after any solve that is not a continuation of another, the bases are paired. -/
theorem C24_paired (L : Vec K N → Vec K N)
    (hL : ∀ a b : σ, (fun i => S.getResidual a i - S.getResidual b i) =
      L (fun i => S.getCurrent a i - S.getCurrent b i)) (maxItr : Nat) (sys : σ)
    (am : Iter K N) (h : am.allocated = true) :
    Paired S L (solve S lu error eps lam maxItr false sys am).am := by
  unfold solve
  apply C24_paired_loop S lu error eps lam L hL
  simp only [Iter.setup, h]
  exact ⟨rfl, [], rfl, rfl⟩

/-! ## C25 -/

/-- Full statement of C25: the outcome of a solve (return code, final system, number of
updates) does not depend on the coefficients left in the iterator by earlier solves. -/
def C25_statement (K : Type) [Field K] [LinearOrder K] (N : Nat) : Prop :=
  ∀ (c : Call K N) (am : Iter K N), Coherent am → ∀ co : Nat → K,
    (c.run { am with coeffs := co }).code = (c.run am).code ∧
    (c.run { am with coeffs := co }).sys = (c.run am).sys ∧
    (c.run { am with coeffs := co }).updates = (c.run am).updates

theorem first_step_independent (fuel : Nat) (sys : σ) (am : Iter K N) (h : am.nBasis = 0)
    (co : Nat → K) (U : Nat → Nat → K) :
    let o := solveLoop S lu error eps lam fuel 0 0 sys am
    let o' := solveLoop S lu error eps lam fuel 0 0 sys { am with coeffs := co, U := U }
    o'.code = o.code ∧ o'.sys = o.sys ∧ o'.updates = o.updates := by
  cases fuel with
  | zero => exact ⟨rfl, rfl, rfl⟩
  | succ f =>
    unfold solveLoop
    simp only
    split
    · exact ⟨rfl, rfl, rfl⟩
    · split
      · exact ⟨rfl, rfl, rfl⟩
      · simp only [computeTrialCoeff, h, and_self, if_true]

/-- What holds of C25: a solve that is not a continuation, or that finds an empty basis, is
independent of the coefficients and of the U matrix left by earlier solves. -/
theorem C25_fresh_solve_partial (c : Call K N) (am : Iter K N)
    (h : (c.cont = false ∧ am.allocated = true) ∨ am.stateBasis = []) (co : Nat → K)
    (U : Nat → Nat → K) :
    (c.run { am with coeffs := co, U := U }).code = (c.run am).code ∧
    (c.run { am with coeffs := co, U := U }).sys = (c.run am).sys ∧
    (c.run { am with coeffs := co, U := U }).updates = (c.run am).updates := by
  have hset : (({ am with coeffs := co, U := U } : Iter K N).setup c.cont) =
      { am.setup c.cont with coeffs := co, U := U } := by
    unfold Iter.setup
    simp only
    split
    · rfl
    · split <;> rfl
  have hbasis : (am.setup c.cont).stateBasis = [] := by
    unfold Iter.setup
    rcases h with ⟨h1, h2⟩ | h
    · simp [h1, h2]
    · split
      · exact h
      · split
        · exact h
        · rfl
  unfold Call.run solve
  rw [hset]
  exact first_step_independent c.S c.lu c.error c.eps c.lam c.maxItr (c.S.evaluate c.sys)
    { am.setup c.cont with nBasis := (am.setup c.cont).stateBasis.length } (by simp [hbasis]) co U

/-- C25: with an empty basis the first trial state is the current state plus the mixing
correction along the current residual. -/
theorem C25_empty_basis_trial (am am' : Iter K N) (h : am.nBasis = 0)
    (hc : computeTrialCoeff lu 0 am = some am') (x r : Vec K N) :
    updateTrial am' x r = (x, r) := by
  simp only [computeTrialCoeff, h, and_self, if_true, Option.some.injEq] at hc
  subst hc
  simp [updateTrial]

/-- C25 is violated by continuations: in the first iteration the basis of the previous solve is
combined with the coefficients of the previous solve, although the residual is new. -/
theorem C25_continuation_reuses (am am' : Iter K N) (h : am.nBasis ≠ 0)
    (hc : computeTrialCoeff lu 0 am = some am') (x r : Vec K N) :
    updateTrial am' x r =
      (addEqVectors x am.stateBasis am.coeffs, addEqVectors r am.residBasis am.coeffs) := by
  simp only [computeTrialCoeff, h, and_false, if_false, if_true, Option.some.injEq] at hc
  subst hc
  simp [updateTrial, Nat.pos_of_ne_zero h]

/-- Witness problem: one unknown, residual `a - 2 x`, error `|r|`. -/
def wit (a : ℚ) (maxItr : Nat) (cont : Bool) : Call ℚ 1 where
  σ := ℚ
  S := { getCurrent := fun s _ => s, getResidual := fun s _ => a - 2 * s
         update := fun _ v => v 0, evaluate := id }
  lu := fun _ _ _ => none
  error := fun r _ => some |r 0|
  eps := 1/1000
  lam := fun _ => 1/4
  maxItr := maxItr
  cont := cont
  sys := 0

/-- Result of the witness call, with the system state typed as a number. -/
def witOut (a : ℚ) (maxItr : Nat) (cont : Bool) (am : Iter ℚ 1) : Out ℚ ℚ 1 :=
  (wit a maxItr cont).run am

/-- An iterator reached by an ordinary solve. -/
def witAm : Iter ℚ 1 := (witOut 1 2 false (Iter.new 1 (fun _ _ => 0) (fun _ => 0))).am

theorem C25_violated : ¬ C25_statement ℚ 1 := by
  intro h
  have hco : Coherent witAm :=
    C24_gram_matrix 1 (fun _ _ => 0) (fun _ => 0) [wit 1 2 false]
  have h1 : (witOut 3 1 true { witAm with coeffs := fun _ => 0 }).sys = (witOut 3 1 true witAm).sys :=
    (h (wit 3 1 true) witAm hco (fun _ => 0)).2.1
  have e1 : (witOut 3 1 true { witAm with coeffs := fun _ => 0 }).sys = (3/4 : ℚ) := by
    decide +kernel
  have e2 : (witOut 3 1 true witAm).sys = (7/8 : ℚ) := by decide +kernel
  rw [e1, e2] at h1
  exact absurd h1 (by decide +kernel)

/-! ## Instances -/

/-- A solve that converges by Anderson mixing: the linear problem `r = 1 - 2x` is solved in
two updates, from a new iterator. -/
example : let o := witOut 1 10 false (Iter.new 3 (fun _ _ => 7) (fun _ => 7))
    o.code = some 0 ∧ o.sys = (1/2 : ℚ) ∧ o.updates = 2 ∧ o.am.residBasis.length = 1 := by
  decide +kernel

end Verif.AM
