import Verif.Basis.Convert

/-!
# Lemmas for `convertKGridToBasis`
-/

namespace Verif.Basis
open Verif.Mesh (IntVec Mesh InRange shiftVec)
open Verif.FieldIo (load store)

set_option linter.unusedSectionVars false
variable {K : Type} [Field K] [LinearOrder K]
variable {c : Cell K} {eps : K} {b : BasisData K}

/-- The search for an explicit wave succeeds when there is one. -/
theorem pick_spec {begin_ end_ : Nat} (hw : ∀ i, begin_ ≤ i → i < end_ → ∃ w, b.waves[i]? = some w)
    (hex : ∃ i w, begin_ ≤ i ∧ i < end_ ∧ b.waves[i]? = some w ∧ w.implicit = false)
    (fuel iw : Nat) (hf : end_ - begin_ < fuel + iw)
    (hdone : ∀ i w, b.waves[i]? = some w → (begin_ ≤ i ∧ i < begin_ + iw) ∨ (end_ ≤ i + iw ∧ i < end_) →
      w.implicit = true) :
    ∃ i w, pick b begin_ end_ fuel iw = .ok w ∧ begin_ ≤ i ∧ i < end_ ∧ b.waves[i]? = some w ∧
      w.implicit = false := by
  obtain ⟨i0, w0, h1, h2, h3, h4⟩ := hex
  have hrem : begin_ + iw ≤ i0 ∧ i0 + iw < end_ := by
    constructor
    · by_contra hc
      have := hdone i0 w0 h3 (.inl ⟨h1, by omega⟩)
      rw [h4] at this; simp at this
    · by_contra hc
      have := hdone i0 w0 h3 (.inr ⟨by omega, h2⟩)
      rw [h4] at this; simp at this
  induction fuel generalizing iw with
  | zero => omega
  | succ fuel ih =>
    obtain ⟨w, hwi⟩ := hw (begin_ + iw) (by omega) (by omega)
    simp only [pick, get_ok.mpr hwi, Res.ok_bind]
    cases hi : w.implicit with
    | false =>
      simp only [Bool.not_false, if_true]
      exact ⟨begin_ + iw, w, rfl, by omega, by omega, hwi, hi⟩
    | true =>
      simp only [Bool.not_true, Bool.false_eq_true, if_false]
      have hne : begin_ + iw ≠ i0 := by
        intro e
        rw [e, h3] at hwi; cases hwi
        rw [h4] at hi; simp at hi
      rw [decide_eq_true (by omega : (begin_ : Int) + iw < (end_ : Int) - 1 - iw)]
      simp only [Res.check_true, Res.ok_bind]
      obtain ⟨w', hwi'⟩ := hw (end_ - 1 - iw) (by omega) (by omega)
      simp only [get_ok.mpr hwi', Res.ok_bind]
      cases hi' : w'.implicit with
      | false =>
        simp only [Bool.not_false, if_true]
        exact ⟨end_ - 1 - iw, w', rfl, by omega, by omega, hwi', hi'⟩
      | true =>
        simp only [Bool.not_true, Bool.false_eq_true, if_false]
        have hne' : end_ - 1 - iw ≠ i0 := by
          intro e
          rw [e, h3] at hwi'; cases hwi'
          rw [h4] at hi'; simp at hi'
        refine ih (iw + 1) (by omega) ?_ (by omega)
        intro i x hx hcase
        rcases hcase with ⟨q1, q2⟩ | ⟨q1, q2⟩
        · by_cases e : i = begin_ + iw
          · subst e; rw [hwi] at hx; cases hx; exact hi
          · exact hdone i x hx (.inl ⟨q1, by omega⟩)
        · by_cases e : i = end_ - 1 - iw
          · subst e; rw [hwi'] at hx; cases hx; exact hi'
          · exact hdone i x hx (.inr ⟨by omega, q2⟩)

/-- Facts that hold by construction in `makeStars` but are not tested by `isValid`: stars are not
empty and coefficients of uncancelled stars are not (nearly) zero.  (`convertKGridToBasis` tests
`|coeff| > 1e-8` for open stars.) -/
structure Nondegenerate (b : BasisData K) : Prop where
  nonempty : ∀ s ∈ b.stars, 0 < s.size
  coeff : ∀ (i : Nat) w s, b.waves[i]? = some w → b.stars[w.starId]? = some s → s.cancel = false →
    1 / 10000000000000000 < Cx.normSq w.coeff

/-- Coefficient of a basis function from the amplitude of its star (spec): the real part for a
closed star, `√2` times the real and imaginary parts for a pair of open stars. -/
def coefOf (r2 : K) (s : Star) (z : Cx K) : K :=
  if s.invertFlag = 0 then z.re else if s.invertFlag = 1 then r2 * z.re else r2 * z.im

variable [IsStrictOrderedRing K]

theorem ne_zero_of_lt {x : K} (h : 1 / 10000000000000000 < x) : x ≠ 0 := by
  intro e
  rw [e] at h
  have : (0 : K) < 1 / 10000000000000000 := by positivity
  exact absurd h (not_lt.mpr this.le)

theorem fromKLoop_spec (V : Valid c eps b) (N : Nondegenerate b) {m : Mesh} (H : HalfMesh b m)
    (r2 : K) (inp : List (Cx K)) (C : Nat → Cx K)
    (hC : ∀ (i : Nat) w s, b.waves[i]? = some w → w.implicit = false → b.stars[w.starId]? = some s →
      s.cancel = false → inp[(m.rank w.dft).toNat]? = some (C w.starId * w.coeff))
    (hconj : ∀ (k : Nat) s, b.stars[k]? = some s → s.invertFlag = 1 → s.cancel = false →
      C (k + 1) = Cx.conj (C k)) :
    ∀ (n k : Nat) (l : List Star) (out : List K), l.length = n → l = b.stars.drop k →
      k + n = b.stars.length → Paired l → out.length = b.nBasis →
      (∀ (j : Nat) k' s, k' < k → b.stars[k']? = some s → s.cancel = false → s.basisId = (j : Int) →
        out[j]? = some (coefOf r2 s (C k'))) →
      ∃ out', fromKLoop b m r2 inp k l out = .ok out' ∧ out'.length = b.nBasis ∧
        ∀ (j : Nat) k' s, b.stars[k']? = some s → s.cancel = false → s.basisId = (j : Int) →
          out'[j]? = some (coefOf r2 s (C k')) := by
  intro n
  induction n using Nat.strong_induction_on with
  | _ n ih =>
  intro k l out hl hd hk hp hout hI
  have hget : ∀ j s, l[j]? = some s → b.stars[k + j]? = some s := by
    intro j s h
    rw [hd, List.getElem?_drop] at h
    exact h
  have htail : ∀ s rest, l = s :: rest → rest = b.stars.drop (k + 1) := by
    intro s rest e
    rw [← List.tail_drop, ← hd, e]; rfl
  -- other stars have other basis indices
  have hother : ∀ (k' : Nat) (s' : Star) (k'' : Nat) (s'' : Star), b.stars[k']? = some s' → s'.cancel = false →
      b.stars[k'']? = some s'' → s''.cancel = false → s'.basisId = s''.basisId → k' = k'' := by
    intro k' s' k'' s'' h1 h2 h3 h4 e
    obtain ⟨e1, _⟩ := V.basisId_lt h1 h2
    obtain ⟨e2, _⟩ := V.basisId_lt h3 h4
    rcases lt_trichotomy k' k'' with q | q | q
    · have := nBefore_succ h1
      rw [h2] at this
      simp at this
      have := nBefore_mono b.stars (show k' + 1 ≤ k'' by omega)
      omega
    · exact q
    · have := nBefore_succ h3
      rw [h4] at this
      simp at this
      have := nBefore_mono b.stars (show k'' + 1 ≤ k' by omega)
      omega
  cases hp with
  | nil =>
    refine ⟨out, rfl, hout, fun j k' s hs hc hb => ?_⟩
    have : k' < b.stars.length := (List.getElem?_eq_some_iff.mp hs).1
    simp at hl
    exact hI j k' s (by omega) hs hc hb
  | closed s rest h0 hrest =>
    have hs : b.stars[k]? = some s := by simpa using hget 0 s rfl
    have ht := htail s rest rfl
    rw [fromKLoop.eq_def]
    simp only
    by_cases hc : s.cancel = true
    · rw [if_pos hc]
      refine ih rest.length (by simp at hl; omega) (k + 1) rest out rfl ht (by simp at hl; omega) hrest
        hout ?_
      intro j k' s' hk' hs' hc' hb'
      refine hI j k' s' ?_ hs' hc' hb'
      have : k' ≠ k := by
        rintro rfl
        rw [hs] at hs'; cases hs'
        rw [hc] at hc'; simp at hc'
      omega
    · rw [if_neg hc, if_pos h0]
      simp only [Bool.not_eq_true] at hc
      obtain ⟨hb, hlt⟩ := V.basisId_lt hs hc
      have hse := V.sizes s (List.mem_of_getElem? hs)
      -- an explicit wave exists
      have hex : ∃ i w, s.beginId ≤ i ∧ i < s.endId ∧ b.waves[i]? = some w ∧ w.implicit = false := by
        have hpos : s.beginId < s.endId := by
          have := N.nonempty s (List.mem_of_getElem? hs)
          omega
        obtain ⟨w, hw, hk⟩ := V.starWave k s hs s.beginId (le_refl _) hpos
        cases hi : w.implicit with
        | false => exact ⟨s.beginId, w, le_refl _, hpos, hw, hi⟩
        | true =>
          obtain ⟨j, w', e1, e2, e3, e4, e5⟩ := V.inverse _ w hw
          have := (V.closedInv k s hs h0 _ w hw hk j w' e1 e2).1
          obtain ⟨s', g1, g2, g3⟩ := V.waveStar j w' e2
          rw [this, hs] at g1; cases g1
          refine ⟨j, w', g2, g3, e2, ?_⟩
          by_contra hx
          exact e5 ⟨hi, by simpa using hx⟩
      obtain ⟨i, w, e, g1, g2, hw, hi⟩ := pick_spec (b := b)
        (fun i h1 h2 => by obtain ⟨w, hw, _⟩ := V.starWave k s hs i h1 h2; exact ⟨w, hw⟩) hex
        (s.endId - s.beginId + 1) 0 (by omega) (fun i w _ h => by omega)
      rw [e, Res.ok_bind]
      obtain ⟨w', hw', hst⟩ := V.starWave k s hs i g1 g2
      rw [hw] at hw'; cases hw'
      rw [hst, beq_self_eq_true, Res.check_true, Res.ok_bind]
      have hst' : b.stars[w.starId]? = some s := by rw [hst]; exact hs
      obtain ⟨r0, r1⟩ := V.rank H hw hi
      rw [load_ok r0 (hC i w s hw hi hst' hc), Res.ok_bind]
      rw [Cx.mul_div_cancel (ne_zero_of_lt (N.coeff i w s hw hst' hc)), hst]
      rw [store_ok (by omega) (by rw [hout]; omega), Res.ok_bind]
      refine ih rest.length (by simp at hl; omega) (k + 1) rest _ rfl ht (by simp at hl; omega) hrest
        (by rw [List.length_set]; exact hout) ?_
      intro j k' s' hk' hs' hc' hb'
      rw [List.getElem?_set]
      by_cases ek : k' = k
      · subst ek
        rw [hs] at hs'; cases hs'
        rw [if_pos (by omega), if_pos (by rw [hout]; omega)]
        simp [coefOf, h0]
      · rw [if_neg]
        · exact hI j k' s' (by omega) hs' hc' hb'
        · intro e'
          exact ek (hother k' s' k s hs' hc' hs hc (by omega))
  | opened s t rest h1 h2 hsz hcc hrest =>
    have hs : b.stars[k]? = some s := by simpa using hget 0 s rfl
    have htt : b.stars[k + 1]? = some t := by simpa using hget 1 t rfl
    have ht := htail s (t :: rest) rfl
    have ht2 : rest = b.stars.drop (k + 2) := by
      rw [show k + 2 = k + 1 + 1 by omega, ← List.tail_drop, ← ht]; rfl
    rw [fromKLoop.eq_def]
    simp only
    by_cases hc : s.cancel = true
    · have hct : t.cancel = true := by rw [hcc]; exact hc
      rw [if_pos hc, fromKLoop.eq_def]
      simp only
      rw [if_pos hct]
      refine ih rest.length (by simp at hl; omega) (k + 1 + 1) rest out rfl ht2 (by simp at hl; omega)
        hrest hout ?_
      intro j k' s' hk' hs' hc' hb'
      refine hI j k' s' ?_ hs' hc' hb'
      have : k' ≠ k := by
        rintro rfl
        rw [hs] at hs'; cases hs'
        rw [hc] at hc'; simp at hc'
      have : k' ≠ k + 1 := by
        rintro rfl
        rw [htt] at hs'; cases hs'
        rw [hct] at hc'; simp at hc'
      omega
    · rw [if_neg hc, if_neg (by rw [h1]; decide), if_pos h1]
      simp only [Bool.not_eq_true] at hc
      have hct : t.cancel = false := by rw [hcc]; exact hc
      obtain ⟨hb, hlt⟩ := V.basisId_lt hs hc
      obtain ⟨hbt, hltt⟩ := V.basisId_lt htt hct
      have hsucc := nBefore_succ hs
      rw [hc] at hsucc
      simp only [Bool.false_eq_true, if_false] at hsucc
      have hpos : s.beginId < s.endId := by
        have := N.nonempty s (List.mem_of_getElem? hs)
        have := V.sizes s (List.mem_of_getElem? hs)
        omega
      obtain ⟨w, hw, hst⟩ := V.starWave k s hs s.beginId (le_refl _) hpos
      rw [get_ok.mpr hw, Res.ok_bind, hst, beq_self_eq_true, Res.check_true, Res.ok_bind]
      have hfin : ∀ (out2 : List K), out2 = (out.set s.basisId.toNat (r2 * (C k).re)).set
          (s.basisId + 1).toNat (-(r2 * (C k).im)) →
          ∃ out', fromKLoop b m r2 inp (k + 2) rest out2 = .ok out' ∧ out'.length = b.nBasis ∧
            ∀ (j : Nat) k' s, b.stars[k']? = some s → s.cancel = false → s.basisId = (j : Int) →
              out'[j]? = some (coefOf r2 s (C k')) := by
        intro out2 hout2
        refine ih rest.length (by simp at hl; omega) (k + 2) rest out2 rfl ht2 (by simp at hl; omega)
          hrest (by rw [hout2, List.length_set, List.length_set]; exact hout) ?_
        intro j k' s' hk' hs' hc' hb'
        rw [hout2, List.getElem?_set, List.getElem?_set]
        by_cases ek : k' = k
        · subst ek
          rw [hs] at hs'; cases hs'
          rw [if_neg (by omega), if_pos (by omega), if_pos (by rw [hout]; omega)]
          simp [coefOf, h1]
        · by_cases ek' : k' = k + 1
          · subst ek'
            rw [htt] at hs'; cases hs'
            rw [if_pos (by omega), if_pos (by rw [List.length_set, hout]; omega)]
            rw [hconj k s hs h1 hc]
            simp [coefOf, h2]
          · rw [if_neg, if_neg]
            · exact hI j k' s' (by omega) hs' hc' hb'
            · intro e'
              exact ek (hother k' s' k s hs' hc' hs hc (by omega))
            · intro e'
              exact ek' (hother k' s' (k + 1) t hs' hc' htt hct (by omega))
      cases hi : w.implicit with
      | false =>
        simp only [Bool.false_eq_true, if_false, Res.pure_eq, Res.ok_bind]
        have hst' : b.stars[w.starId]? = some s := by rw [hst]; exact hs
        obtain ⟨r0, r1⟩ := V.rank H hw hi
        rw [load_ok r0 (hC _ w s hw hi hst' hc), Res.ok_bind]
        rw [decide_eq_true (N.coeff _ w s hw hst' hc), Res.check_true, Res.ok_bind]
        rw [Cx.mul_div_cancel (ne_zero_of_lt (N.coeff _ w s hw hst' hc)), hst]
        rw [store_ok (by omega) (by rw [hout]; omega), Res.ok_bind]
        rw [store_ok (by omega) (by rw [List.length_set, hout]; omega), Res.ok_bind]
        rw [if_pos h1]
        exact hfin _ rfl
      | true =>
        simp only [if_true, h2, decide_true, Res.check_true, Res.ok_bind]
        obtain ⟨j, w', e1, e2, e3, e4, e5⟩ := V.inverse _ w hw
        have hst2 := (V.openInv k s hs h1 _ w hw hst j w' e1 e2).1
        have hi' : w'.implicit = false := by
          by_contra hx
          exact e5 ⟨hi, by simpa using hx⟩
        rw [getI_ok.mpr ⟨by omega, by rw [e1]; simpa using e2⟩, Res.ok_bind, hi']
        simp only [Bool.not_false, Res.check_true, Res.ok_bind, hst2, beq_self_eq_true, Res.pure_eq]
        have hst' : b.stars[w'.starId]? = some t := by rw [hst2]; exact htt
        obtain ⟨r0, r1⟩ := V.rank H e2 hi'
        rw [load_ok r0 (hC _ w' t e2 hi' hst' hct), Res.ok_bind]
        rw [decide_eq_true (N.coeff _ w' t e2 hst' hct), Res.check_true, Res.ok_bind]
        rw [Cx.mul_div_cancel (ne_zero_of_lt (N.coeff _ w' t e2 hst' hct)), hst2, hconj k s hs h1 hc]
        rw [store_ok (by omega) (by rw [hout]; omega), Res.ok_bind]
        rw [store_ok (by omega) (by rw [List.length_set, hout]; omega), Res.ok_bind]
        rw [if_neg (by decide)]
        exact hfin _ (by simp)

end Verif.Basis
