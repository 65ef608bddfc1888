import Verif.Fts.Compress
import Verif.Fts.EigenProps
import Verif.AM.Props
import Verif.Solver.DftProps
import Verif.Tac

/-!
# C60: compression changes only the pressure field

For all three compressors, every number of iterations, every solver of the diffusion equation, every
error measure and whether or not the iteration converges.
-/

set_option autoImplicit false
set_option linter.unusedSectionVars false

namespace Verif.Fts

open Finset Verif.AM

variable {m n : Nat}

/-- Specification: fields `w'` differ from `w` by one field added to all monomer types. -/
def OnlyPressure (w w' : Flds m n) : Prop := ∃ p : Fin n → ℝ, ∀ i k, w' i k = w i k + p k

theorem cResid_eq (s : CSys m n) (k : Fin n) : cResid s k = (∑ j, s.c j k) - 1 := by
  unfold cResid; rw [accum_eq]; ring

/-- Invariant of the Anderson mixing compressors. -/
structure CInv (mde : Flds m n → Flds m n) (w : Flds m n) (s : CSys m n) : Prop where
  w0 : s.w0 = w
  press : OnlyPressure w s.w
  cur : s.c = mde s.w

theorem CInv.step {mde : Flds m n → Flds m n} {w : Flds m n} {s : CSys m n} (h : CInv mde w s)
    (g : Fin n → ℝ) : CInv mde w ((cOps mde).evaluate ((cOps mde).update s g)) := by
  refine ⟨h.w0, ⟨g, fun i k => ?_⟩, rfl⟩
  show s.w0 i k + g k = _
  rw [h.w0]

section loop
variable {σ : Type} (S : Sys σ ℝ n) (lu : LinSolve ℝ) (error : Vec ℝ n → Vec ℝ n → Option ℝ)
  (eps : ℝ)

/-- Standard mixing is the special case of `solveLoopC` in which the correction does not depend on
the basis size. -/
theorem solveLoopC_inv (corr : Vec ℝ n → Vec ℝ n → Vec ℝ n) (I : σ → Prop)
    (hI : ∀ s g, I s → I (S.evaluate (S.update s g))) :
    ∀ (fuel itr up : Nat) (sys : σ) (am : Iter ℝ n), I sys →
    let o := solveLoopC S lu error eps corr fuel itr up sys am
    I o.sys ∧ o.updates ≤ up + fuel ∧
    (o.code = some 0 → ∃ e, error (S.getResidual o.sys) (S.getCurrent o.sys) = some e ∧ e < eps) ∧
    (o.code = some 1 → o.updates = up + fuel ∨
      error (S.getResidual o.sys) (S.getCurrent o.sys) = none) := by
  intro fuel
  induction fuel with
  | zero => intro itr up sys am h; simp [solveLoopC, h]
  | succ f ih =>
    intro itr up sys am h
    simp only [solveLoopC]
    cases he : error (S.getResidual sys) (S.getCurrent sys) with
    | none => simp [h, he]
    | some e =>
      dsimp only
      by_cases hlt : e < eps
      · rw [if_pos hlt]; exact ⟨h, by dsimp only; omega, fun _ => ⟨e, he, hlt⟩, by simp⟩
      · rw [if_neg hlt]
        split
        · exact ⟨h, by dsimp only; omega, by simp, by simp⟩
        · rename_i am2 _
          obtain ⟨h1, h2, h3, h4⟩ := ih (itr + 1) (up + 1) _ am2 (hI sys _ h)
          exact ⟨h1, by omega, h3, fun hc => (h4 hc).imp (by omega) id⟩

theorem solveLoop_sys_inv (lam : Nat → ℝ) (I : σ → Prop)
    (hI : ∀ s g, I s → I (S.evaluate (S.update s g))) :
    ∀ (fuel itr up : Nat) (sys : σ) (am : Iter ℝ n), I sys →
    I (solveLoop S lu error eps lam fuel itr up sys am).sys := by
  intro fuel
  induction fuel with
  | zero => intro itr up sys am h; exact h
  | succ f ih =>
    intro itr up sys am h
    simp only [solveLoop]
    cases he : error (S.getResidual sys) (S.getCurrent sys) with
    | none => exact h
    | some e =>
      dsimp only
      by_cases hlt : e < eps
      · rw [if_pos hlt]; exact h
      · rw [if_neg hlt]
        split
        · exact h
        · exact ih _ _ _ _ (hI sys _ h)

end loop

/-- **C60** for `AmCompressor`: only a pressure is added to the fields; the concentrations are
those of the final fields; a return code 0 means that the error of the final residual
`Σ_j c_j - 1` (evaluated with the accumulated pressure, which is the same for every monomer type) is
below the tolerance. -/
theorem C60_am (mde : Flds m n → Flds m n) (lu : LinSolve ℝ)
    (error : Vec ℝ n → Vec ℝ n → Option ℝ) (eps : ℝ) (lam : Nat → ℝ) (maxItr : Nat) (s : CSys m n)
    (am : Iter ℝ n) :
    let o := amCompress mde lu error eps lam maxItr s am
    ∃ p : Fin n → ℝ, (∀ i k, o.sys.w i k = s.w i k + p k) ∧ o.sys.c = mde o.sys.w ∧
      o.updates ≤ maxItr ∧
      (o.code = some 0 → ∃ e, error (fun k => (∑ j, o.sys.c j k) - 1) p = some e ∧ e < eps) ∧
      (o.code = some 1 → o.updates = maxItr ∨
        error (fun k => (∑ j, o.sys.c j k) - 1) p = none) := by
  intro o
  have hinv : CInv mde s.w o.sys := by
    refine solveLoop_sys_inv (cOps mde) lu error eps lam (CInv mde s.w)
      (fun t g h => h.step g) maxItr 0 0 _ _ ?_
    exact ⟨rfl, ⟨fun _ => 0, fun i k => (add_zero _).symm⟩, rfl⟩
  obtain ⟨h1, -, h2, h3, -⟩ := C23_return_code (cOps mde) lu error eps lam maxItr false (cSetup s) am
  obtain ⟨p, hp⟩ := hinv.press
  have hcur : (cOps mde).getCurrent o.sys = p := by
    funext k
    show o.sys.w 0 k - o.sys.w0 0 k = p k
    rw [hinv.w0, hp]; ring
  have hres : (cOps mde).getResidual o.sys = fun k => (∑ j, o.sys.c j k) - 1 :=
    funext fun k => cResid_eq _ _
  refine ⟨p, hp, hinv.cur, h2, fun hc => ?_, fun hc => ?_⟩
  · have := h1 hc
    rwa [show (solve (cOps mde) lu error eps lam maxItr false (cSetup s) am).sys = o.sys from rfl,
      hcur, hres] at this
  · have := h3 hc
    rwa [show (solve (cOps mde) lu error eps lam maxItr false (cSetup s) am).sys = o.sys from rfl,
      hcur, hres] at this

variable {D : Nat} {N : Fin (D + 1) → Nat} [∀ d, NeZero (N d)] (en : Fin n ≃ Solver.Grid N)

/-- **C60** for `LrAmCompressor`. -/
theorem C60_lrAm (vMonomer : ℝ) (intra : Solver.Half N → ℝ) (mde : Flds m n → Flds m n)
    (lu : LinSolve ℝ) (error : Vec ℝ n → Vec ℝ n → Option ℝ) (eps : ℝ) (maxItr : Nat)
    (s : CSys m n) (am : Iter ℝ n) :
    let o := lrAmCompress en vMonomer intra mde lu error eps maxItr s am
    ∃ p : Fin n → ℝ, (∀ i k, o.sys.w i k = s.w i k + p k) ∧ o.sys.c = mde o.sys.w ∧
      o.updates ≤ maxItr ∧
      (o.code = some 0 → ∃ e, error (fun k => (∑ j, o.sys.c j k) - 1) p = some e ∧ e < eps) ∧
      (o.code = some 1 → o.updates = maxItr ∨
        error (fun k => (∑ j, o.sys.c j k) - 1) p = none) := by
  intro o
  obtain ⟨hinv, h2, h1, h3⟩ := solveLoopC_inv (cOps mde) lu error eps
    (fun x r i => x i + lrUpdate en vMonomer intra r i) (CInv mde s.w)
      (fun t g h => h.step g) maxItr 0 0 ((cOps mde).evaluate (cSetup s))
      { (am.setup false) with nBasis := (am.setup false).stateBasis.length }
      ⟨rfl, ⟨fun _ => 0, fun i k => (add_zero _).symm⟩, rfl⟩
  change CInv mde s.w o.sys at hinv
  change o.updates ≤ _ at h2
  change o.code = some 0 → ∃ e, error ((cOps mde).getResidual o.sys) ((cOps mde).getCurrent o.sys) =
    some e ∧ e < eps at h1
  change o.code = some 1 → o.updates = _ ∨ error ((cOps mde).getResidual o.sys)
    ((cOps mde).getCurrent o.sys) = none at h3
  obtain ⟨p, hp⟩ := hinv.press
  have hcur : (cOps mde).getCurrent o.sys = p := by
    funext k
    show o.sys.w 0 k - o.sys.w0 0 k = p k
    rw [hinv.w0, hp]; ring
  have hres : (cOps mde).getResidual o.sys = fun k => (∑ j, o.sys.c j k) - 1 :=
    funext fun k => cResid_eq _ _
  rw [hcur, hres] at h1 h3
  exact ⟨p, hp, hinv.cur, by omega, h1, fun hc => (h3 hc).imp (by omega) id⟩

theorem lrLoop_inv (vMonomer : ℝ) (intra : Solver.Half N → ℝ) (mde : Flds m n → Flds m n)
    (error : (Fin n → ℝ) → Option ℝ) (eps : ℝ) (w : Flds m n) : ∀ (fuel : Nat) (s : CSys m n)
    (up : Nat), OnlyPressure w s.w → s.c = mde s.w →
    let o := lrLoop en vMonomer intra mde error eps fuel s up
    OnlyPressure w o.2.1.w ∧ o.2.1.c = mde o.2.1.w ∧ o.2.2 ≤ up + fuel ∧
    (o.1 = 0 → ∃ e, error (cResid o.2.1) = some e ∧ e < eps) ∧
    (o.1 ≠ 0 → o.1 = 1 ∧ (o.2.2 = up + fuel ∨ error (cResid o.2.1) = none)) := by
  intro fuel
  induction fuel with
  | zero => intro s up h1 h2; simp [lrLoop, h1, h2]
  | succ f ih =>
    intro s up h1 h2
    simp only [lrLoop]
    cases he : error (cResid s) with
    | none => simp [h1, h2, he]
    | some e =>
      dsimp only
      by_cases hlt : e < eps
      · rw [if_pos hlt]; exact ⟨h1, h2, by dsimp only; omega, fun _ => ⟨e, he, hlt⟩, by simp⟩
      · rw [if_neg hlt]
        obtain ⟨p, hp⟩ := h1
        obtain ⟨g1, g2, g3, g4, g5⟩ := ih (lrStep en vMonomer intra mde s) (up + 1)
          ⟨fun k => p k + lrUpdate en vMonomer intra (cResid s) k, fun i k => by
            show s.w i k + _ = _
            rw [hp]; ring⟩ rfl
        exact ⟨g1, g2, by omega, g4, fun hc => ⟨(g5 hc).1, (g5 hc).2.imp (by omega) id⟩⟩

/-- **C60** for `LrCompressor`. -/
theorem C60_lr (vMonomer : ℝ) (intra : Solver.Half N → ℝ) (mde : Flds m n → Flds m n)
    (error : (Fin n → ℝ) → Option ℝ) (eps : ℝ) (maxItr : Nat) (s : CSys m n) :
    let o := lrCompress en vMonomer intra mde error eps maxItr s
    OnlyPressure s.w o.2.1.w ∧ o.2.1.c = mde o.2.1.w ∧ o.2.2 ≤ maxItr ∧
    (o.1 = 0 → ∃ e, error (fun k => (∑ j, o.2.1.c j k) - 1) = some e ∧ e < eps) ∧
    (o.1 ≠ 0 → o.1 = 1 ∧ (o.2.2 = maxItr ∨ error (fun k => (∑ j, o.2.1.c j k) - 1) = none)) := by
  intro o
  have h := lrLoop_inv en vMonomer intra mde error eps s.w maxItr { s with c := mde s.w } 0
    ⟨fun _ => 0, fun i k => (add_zero _).symm⟩ rfl
  have hres : cResid o.2.1 = fun k => (∑ j, o.2.1.c j k) - 1 := funext fun k => cResid_eq _ _
  rw [← hres]
  simp only [Nat.zero_add] at h
  exact h

/-- **C60**: adding a pressure leaves every component of composition unchanged and adds the
pressure to the last component. -/
theorem C60_components {chi : Mat m} {e : Eig m} (h : EigGood chi e) (w w' : Flds m n)
    (hp : OnlyPressure w w') :
    (∀ (j : Fin m) k, computeWcF e w' j.castSucc k = computeWcF e w j.castSucc k) ∧
    ∀ k, ∀ i, computeWcF e w' (Fin.last m) k - computeWcF e w (Fin.last m) k = w' i k - w i k := by
  obtain ⟨p, hp⟩ := hp
  constructor
  · intro j k
    have := C61_displace h w (fun _ _ => 0) p j k
    simp only [add_zero] at this
    rw [← this]
    congr 1
    funext i l
    rw [hp]
    simp [displace, accum_eq]
  · intro k i
    rw [C61_pressure h, C61_pressure h, ← sub_div, ← sum_sub_distrib]
    simp only [hp, add_sub_cancel_left, sum_const, card_univ, Fintype.card_fin, nsmul_eq_mul]
    exact mul_div_cancel_left₀ _ (nM_ne m)

/-- **C60**: if the total concentration responds to a pressure in the linear way assumed by the
linear response compressors, with the intramolecular correlation function used by them, a single
update makes the system incompressible. -/
theorem C60_lr_newton (vMonomer : ℝ) (intra : Solver.Half N → ℝ) (mde : Flds m n → Flds m n)
    (hv : vMonomer ≠ 0) (hi : ∀ k, intra k ≠ 0) (he : Solver.Even intra) (s : CSys m n)
    (hs : s.c = mde s.w)
    (hlin : ∀ (p : Fin n → ℝ) (k : Solver.Half N),
      Solver.r2c en (fun x => ∑ j, mde (fun i x => s.w i x + p x) j x) k =
        Solver.r2c en (fun x => ∑ j, mde s.w j x) k
          - ((vMonomer * intra k : ℝ) : ℂ) * Solver.r2c en p k) (x : Fin n) :
    ∑ j, (lrStep en vMonomer intra mde s).c j x = 1 := by
  have hev : Solver.Even (fun k => 1 / (vMonomer * intra k)) := fun k h h' => by
    simp only; rw [he k h h']
  have hupd : ∀ k, Solver.r2c en (lrUpdate en vMonomer intra (cResid s)) k =
      Solver.r2c en (cResid s) k * ((1 / (vMonomer * intra k) : ℝ) : ℂ) := fun k =>
    Solver.r2c_dftKin en hev (cResid s) k
  have hres : cResid s = fun x => (∑ j, mde s.w j x) - 1 := by
    funext k; rw [cResid_eq, hs]
  have key : Solver.r2c en (fun x => ∑ j, (lrStep en vMonomer intra mde s).c j x) =
      Solver.r2c en (fun _ => 1) := by
    funext k
    have h1 := hlin (lrUpdate en vMonomer intra (cResid s)) k
    change Solver.r2c en (fun x => ∑ j, (lrStep en vMonomer intra mde s).c j x) k = _ at h1
    rw [h1, hupd, hres]
    have hc : ((vMonomer * intra k : ℝ) : ℂ) ≠ 0 := by
      exact_mod_cast mul_ne_zero hv (hi k)
    have hsub : Solver.r2c en (fun x => (∑ j, mde s.w j x) - 1) k =
        Solver.r2c en (fun x => ∑ j, mde s.w j x) k - Solver.r2c en (fun _ => 1) k := by
      unfold Solver.r2c
      rw [← sub_mul, ← sum_sub_distrib]
      congr 1
      refine sum_congr rfl fun i _ => ?_
      push_cast; ring
    rw [hsub]
    rw [show ((1 / (vMonomer * intra k) : ℝ) : ℂ) = 1 / ((vMonomer * intra k : ℝ) : ℂ) by
      push_cast; rfl]
    generalize ((vMonomer * intra k : ℝ) : ℂ) = z at hc ⊢
    field_simp
    ring
  exact congrFun (Solver.r2c_inj en key) x

/-- Example: a system with local response, far from incompressible, on any mesh. -/
example (s : CSys 0 n) (hs : s.c = fun j x => 3 - 2 * s.w j x) (x : Fin n) :
    ∑ j, (lrStep en 2 (fun _ => 1) (fun w j x => 3 - 2 * w j x) s).c j x = 1 := by
  refine C60_lr_newton en 2 (fun _ => 1) _ two_ne_zero (fun _ => one_ne_zero) (fun _ _ _ => rfl) s
    hs (fun p k => ?_) x
  unfold Solver.r2c
  rw [← mul_assoc, ← sub_mul, mul_sum, ← sum_sub_distrib]
  congr 1
  refine sum_congr rfl fun i _ => ?_
  simp only [Fin.sum_univ_succ, Fin.sum_univ_zero]
  push_cast
  ring

/-! ## Meaning of the error -/

theorem maxAbsL_spec : ∀ (l : List ℝ) (a : ℝ), a ≤ maxAbsL l a ∧ (∀ x ∈ l, |x| ≤ maxAbsL l a) ∧
    (maxAbsL l a = a ∨ ∃ x ∈ l, maxAbsL l a = |x|)
  | [], a => by simp [maxAbsL]
  | x :: xs, a => by
    obtain ⟨h1, h2, h3⟩ := maxAbsL_spec xs (if |x| > a then |x| else a)
    simp only [maxAbsL]
    refine ⟨?_, ?_, ?_⟩
    · refine le_trans ?_ h1
      split
      · rename_i h; exact h.le
      · exact le_rfl
    · intro y hy
      rcases List.mem_cons.1 hy with rfl | hy
      · refine le_trans ?_ h1
        split
        · exact le_rfl
        · rename_i h; exact not_lt.1 h
      · exact h2 y hy
    · rcases h3 with h3 | ⟨y, hy, h3⟩
      · rw [h3]
        split
        · exact Or.inr ⟨x, by simp, rfl⟩
        · exact Or.inl rfl
      · exact Or.inr ⟨y, by simp [hy], h3⟩

/-- **C60**: what convergence means for each `errorType`, for a positive tolerance. -/
theorem C60_error (r : Fin n → ℝ) (eps : ℝ) (he : 0 < eps) (hn : 0 < n) :
    (lrError .max r < eps ↔ ∀ k, |r k| < eps) ∧
    (lrError .norm r < eps ↔ ∑ k, r k ^ 2 < eps ^ 2) ∧
    (lrError .rms r < eps ↔ (∑ k, r k ^ 2) / n < eps ^ 2) := by
  have hsq : accum n (fun i => r i * r i) 0 = ∑ k, r k ^ 2 := by
    simp [accum_eq, sq]
  have hnr : (0 : ℝ) < n := by exact_mod_cast hn
  have h0 : (0 : ℝ) ≤ ∑ k, r k ^ 2 := sum_nonneg fun k _ => sq_nonneg _
  refine ⟨?_, ?_, ?_⟩
  · obtain ⟨h1, h2, h3⟩ := maxAbsL_spec (List.ofFn r) 0
    simp only [lrError]
    constructor
    · intro h k
      exact lt_of_le_of_lt (h2 _ (List.mem_ofFn.2 ⟨k, rfl⟩)) h
    · intro h
      rcases h3 with h3 | ⟨x, hx, h3⟩
      · rw [h3]; exact he
      · obtain ⟨k, rfl⟩ := List.mem_ofFn.1 hx
        rw [h3]; exact h k
  · simp only [lrError, hsq]
    rw [Real.sqrt_lt' he]
  · simp only [lrError, hsq]
    rw [← Real.sqrt_div h0, Real.sqrt_lt' he]

end Verif.Fts
