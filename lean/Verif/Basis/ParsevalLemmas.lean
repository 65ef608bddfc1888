import Verif.Basis.Props
import Verif.Solver.StressLemmas
import Verif.Tac

/-!
# Lemmas for C112: inner products in the basis and on the grid
-/

set_option autoImplicit false
set_option linter.unusedSectionVars false

namespace Verif.Basis
open Verif.Mesh (IntVec Mesh InRange shiftVec)

section General

variable {K : Type} [Field K] [LinearOrder K] [IsStrictOrderedRing K]
variable {c : Cell K} {eps : K} {b : BasisData K}

theorem exact_of_normSq (z z' : Cx K) (h : Cx.normSq (Cx.conj z' - z) ≤ 0 * 0) : z = Cx.conj z' := by
  have h0 := Cx.normSq_nonneg (Cx.conj z' - z)
  have := Cx.normSq_eq_zero.mp (le_antisymm (by simpa using h) h0)
  have e1 := congrArg Cx.re this
  have e2 := congrArg Cx.im this
  simp at e1 e2
  ext
  · simp; linear_combination -e1
  · simp; linear_combination -e2

/-- Values of inverse waves are complex conjugates. -/
theorem waveVal_inverse (V : Valid c 0 b) (r2 : K) (inp : List K) {i j : Nat} {w w' : Wave K}
    (hw : b.waves[i]? = some w) (hj : w.inverseId = j) (hw' : b.waves[j]? = some w') :
    waveVal b r2 inp w' = Cx.conj (waveVal b r2 inp w) := by
  have hzero : ∀ z : Cx K, (0 : Cx K) * z = 0 := Cx.zero_mul'
  have hc0 : Cx.conj (0 : Cx K) = 0 := by ext <;> simp
  have main : ∀ (i j : Nat) w w', b.waves[i]? = some w → w.inverseId = j → b.waves[j]? = some w' →
      (∀ s, b.stars[w.starId]? = some s → s.invertFlag = 0 ∨ s.invertFlag = 1) →
      waveVal b r2 inp w' = Cx.conj (waveVal b r2 inp w) := by
    intro i j w w' hw hj hw' hflag
    obtain ⟨s, hs, _, _⟩ := V.waveStar i w hw
    obtain ⟨s', hs', _, _⟩ := V.waveStar j w' hw'
    unfold waveVal
    rw [hs, hs']
    simp only
    rcases hflag s hs with f0 | f1
    · obtain ⟨e1, e2⟩ := V.closedInv _ s hs f0 i w hw rfl j w' hj hw'
      rw [e1, hs] at hs'; cases hs'
      by_cases hc : s.cancel = true
      · simp only [comp, hc, if_true]; rw [hzero, hzero, hc0]
      · simp only [Bool.not_eq_true] at hc
        rw [exact_of_normSq _ _ (e2 hc), Cx.conj_mul, Cx.conj_conj]
        congr 1
        simp [comp, hc, f0, Cx.conj]
    · obtain ⟨e1, e2⟩ := V.openInv _ s hs f1 i w hw rfl j w' hj hw'
      obtain ⟨t, ht, hft, hct⟩ := V.paired.next _ s hs f1
      rw [e1, ht] at hs'
      have : s' = t := by simpa using hs'.symm
      subst this
      by_cases hc : s.cancel = true
      · have : s'.cancel = true := by rw [hct]; exact hc
        simp only [comp, hc, this, if_true]; rw [hzero, hzero, hc0]
      · simp only [Bool.not_eq_true] at hc
        have hct' : s'.cancel = false := by rw [hct]; exact hc
        rw [exact_of_normSq _ _ (e2 hc), Cx.conj_mul, Cx.conj_conj,
          comp_conj V r2 inp hs ht f1 hft hc hct']
  obtain ⟨s, hs, _, _⟩ := V.waveStar i w hw
  by_cases hf : s.invertFlag = 0 ∨ s.invertFlag = 1
  · exact main i j w w' hw hj hw' (fun s' h => by rw [hs] at h; cases h; exact hf)
  · rw [not_or] at hf
    obtain ⟨j0, x, a1, a2, a3, a4, a5⟩ := V.inverse i w hw
    rw [hj] at a1
    have : j0 = j := by omega
    subst this
    rw [hw'] at a2; cases a2
    obtain ⟨s', hs', _, _⟩ := V.waveStar j0 w' hw'
    have hf' : s'.invertFlag = 0 ∨ s'.invertFlag = 1 := by
      obtain ⟨k', p, hk', hp, hpf, hpc, hps⟩ := V.paired.prev _ s hs hf.1 hf.2
      rw [hk'] at hs
      have := secondInv V hp hs hpf hps hw hk' hj hw'
      rw [this, hp] at hs'
      rw [← Option.some.inj hs']
      exact .inr hpf
    have := main j0 i w' w hw' a3 hw (fun s'' h => by rw [hs'] at h; cases h; exact hf')
    rw [this, Cx.conj_conj]

/-- Real part of `x` times the conjugate of `y`. -/
def dotC (x y : Cx K) : K := x.re * y.re + x.im * y.im

theorem dotC_mul (x y z : Cx K) : dotC (x * z) (y * z) = dotC x y * Cx.normSq z := by
  simp only [dotC, Cx.mul_re, Cx.mul_im, Cx.normSq]; ring

/-- Coefficient of wave `i`. -/
def coeffAt (b : BasisData K) (i : Nat) : Cx K := ((b.waves[i]?).map Wave.coeff).getD 0

/-- Value given to wave `i`. -/
def valAt (b : BasisData K) (r2 : K) (inp : List K) (i : Nat) : Cx K :=
  ((b.waves[i]?).map (waveVal b r2 inp)).getD 0

/-- The coefficients of a star that is not cancelled have unit norm (C76_closed_star_normalised,
C76_open_pair_normalised). -/
def Normalised (b : BasisData K) : Prop := ∀ (k : Nat) s, b.stars[k]? = some s → s.cancel = false →
  ∑ i ∈ Finset.Ico s.beginId s.endId, Cx.normSq (coeffAt b i) = 1

theorem star_sum (V : Valid c eps b) (hN : Normalised b) (r2 : K) (a a' : List K) {k : Nat} {s : Star}
    (hs : b.stars[k]? = some s) :
    ∑ i ∈ Finset.Ico s.beginId s.endId, dotC (valAt b r2 a i) (valAt b r2 a' i) =
      dotC (comp r2 a s) (comp r2 a' s) := by
  have h1 : ∀ i ∈ Finset.Ico s.beginId s.endId, dotC (valAt b r2 a i) (valAt b r2 a' i) =
      dotC (comp r2 a s) (comp r2 a' s) * Cx.normSq (coeffAt b i) := by
    intro i hi
    rw [Finset.mem_Ico] at hi
    obtain ⟨w, hw, hk⟩ := V.starWave k s hs i hi.1 hi.2
    unfold valAt coeffAt
    rw [hw]
    simp only [Option.map_some, Option.getD_some]
    unfold waveVal
    rw [hk, hs]
    exact dotC_mul _ _ _
  rw [Finset.sum_congr rfl h1, ← Finset.mul_sum]
  cases hc : s.cancel with
  | true =>
    have : ∀ x, comp r2 x s = 0 := fun x => by simp [comp, hc]
    rw [this, this]; simp [dotC]
  | false => rw [hN k s hs hc, mul_one]

/-- Sum over all waves of the stars from `k` on. -/
theorem waves_sum (V : Valid c eps b) (hN : Normalised b) (r2 : K) (hr2 : r2 * r2 = 2) (a a' : List K) :
    ∀ l, Paired l → ∀ k, l = b.stars.drop k → nxt b k ≤ b.waves.length ∧
      ∑ i ∈ Finset.Ico (nxt b k) b.waves.length, dotC (valAt b r2 a i) (valAt b r2 a' i) =
      ∑ j ∈ Finset.Ico (nBefore b.stars k) b.nBasis, at0 a (j : Int) * at0 a' (j : Int) := by
  intro l hl
  have hr0 : r2 ≠ 0 := by rintro rfl; simp at hr2
  induction hl with
  | nil =>
    intro k hk
    have hlen : b.stars.length ≤ k := by
      have := congrArg List.length hk
      simp at this; omega
    have h1 : nxt b k = b.waves.length := by
      unfold nxt; rw [List.getElem?_eq_none hlen]
    have h2 : nBefore b.stars k = b.nBasis := by
      rw [V.nBasis.1]; unfold nBefore; rw [List.take_of_length_le hlen, List.take_of_length_le le_rfl]
    rw [h1, h2]; simp
  | closed s rest hf hp ih =>
    intro k hk
    have hs : b.stars[k]? = some s := by
      have := congrArg (fun l => l[0]?) hk
      simpa using this.symm
    have hrest : rest = b.stars.drop (k + 1) := by
      have := congrArg List.tail hk
      simpa [List.tail_drop] using this
    obtain ⟨i1, i2⟩ := ih (k + 1) hrest
    have e1 : nxt b k = s.beginId := by unfold nxt; rw [hs]
    have e2 := V.nxt_succ hs
    have e3 := V.sizes s (List.mem_of_getElem? hs)
    refine ⟨by omega, ?_⟩
    rw [e2] at i1 i2
    rw [e1, ← Finset.sum_Ico_consecutive _ (show s.beginId ≤ s.endId by omega) i1, i2, star_sum V hN r2 a a' hs]
    have e4 := nBefore_succ hs
    cases hc : s.cancel with
    | true =>
      rw [hc] at e4
      simp only [if_true, Nat.add_zero] at e4
      rw [e4]; simp [comp, hc, dotC]
    | false =>
      rw [hc] at e4
      simp only [Bool.false_eq_true, if_false] at e4
      obtain ⟨eb, hlt⟩ := V.basisId_lt hs hc
      rw [Finset.sum_eq_sum_Ico_succ_bot hlt, e4]
      congr 1
      simp [comp, hc, hf, dotC, eb]
  | opened s t rest hfs hft hsz hcan hp ih =>
    intro k hk
    have hs : b.stars[k]? = some s := by
      have := congrArg (fun l => l[0]?) hk
      simpa using this.symm
    have ht : b.stars[k + 1]? = some t := by
      have := congrArg (fun l => l[1]?) hk
      simpa using this.symm
    have hrest : rest = b.stars.drop (k + 2) := by
      have := congrArg (fun l => l.tail.tail) hk
      simpa [List.tail_drop] using this
    obtain ⟨i1, i2⟩ := ih (k + 2) hrest
    have e1 : nxt b k = s.beginId := by unfold nxt; rw [hs]
    have e2 := V.nxt_succ hs
    have e2' : t.beginId = s.endId := V.consec k s t hs ht
    have e2'' : nxt b (k + 2) = t.endId := V.nxt_succ ht
    have e3 := V.sizes s (List.mem_of_getElem? hs)
    have e3' := V.sizes t (List.mem_of_getElem? ht)
    refine ⟨by omega, ?_⟩
    rw [e2''] at i1 i2
    rw [e1, ← Finset.sum_Ico_consecutive _ (show s.beginId ≤ s.endId by omega) (by omega : s.endId ≤ _),
      ← e2', ← Finset.sum_Ico_consecutive _ (show t.beginId ≤ t.endId by omega) i1, i2, star_sum V hN r2 a a' ht, e2',
      star_sum V hN r2 a a' hs]
    have e4 := nBefore_succ hs
    have e5 : nBefore b.stars (k + 2) = _ := nBefore_succ ht
    cases hc : s.cancel with
    | true =>
      have hct : t.cancel = true := by rw [hcan]; exact hc
      rw [hc] at e4
      rw [hct] at e5
      simp only [if_true, Nat.add_zero] at e4 e5
      rw [e5, e4]; simp [comp, hc, hct, dotC]
    | false =>
      have hct : t.cancel = false := by rw [hcan]; exact hc
      rw [hc] at e4
      rw [hct] at e5
      simp only [Bool.false_eq_true, if_false] at e4 e5
      obtain ⟨eb, hlt⟩ := V.basisId_lt hs hc
      obtain ⟨eb', hlt'⟩ := V.basisId_lt ht hct
      have e5' : nBefore b.stars (k + 2) = nBefore b.stars k + 1 + 1 := by omega
      rw [e5', Finset.sum_eq_sum_Ico_succ_bot hlt, Finset.sum_eq_sum_Ico_succ_bot (show nBefore b.stars k + 1 < b.nBasis by omega), ← add_assoc,
        ← add_assoc]
      congr 1
      have g1 : s.basisId = ((nBefore b.stars k : Nat) : Int) := eb
      have g2 : t.basisId = ((nBefore b.stars k : Nat) : Int) + 1 := by omega
      simp only [comp, hc, hct, hfs, hft, dotC, g1, g2, Bool.false_eq_true, if_false, if_true, one_ne_zero,
        Cx.sdiv_re, Cx.sdiv_im, show (-1 : Int) ≠ 0 by decide, show (-1 : Int) ≠ 1 by decide, add_sub_cancel_right]
      push_cast
      field_simp
      rw [show r2 ^ 2 = 2 by rw [pow_two]; exact hr2]
      ring

end General

/-! ## Waves of the basis and waves of the transform -/

section Real

open Verif.Solver

variable {m : Nat} {N : Fin (m + 1) → Nat} [∀ d, NeZero (N d)] {n : Nat}

/-- Mesh position with the coordinates of a point. -/
def posOf (g : Grid N) : IntVec := List.ofFn fun d => ((g d).val : Int)

/-- Point with given coordinates. -/
def gridOf (N : Fin (m + 1) → Nat) (v : IntVec) : Grid N := fun d => ((v.getD d 0 : Int) : ZMod (N d))

/-- Dimensions of the mesh. -/
def dimsOf (N : Fin (m + 1) → Nat) : IntVec := List.ofFn fun d => (N d : Int)

/-- `std::complex`. -/
def toC (z : Cx ℝ) : ℂ := ⟨z.re, z.im⟩

/-- An `RFieldDft`, as a function of the waves of the half mesh `mesh`. -/
noncomputable def halfOf (mesh : Mesh) (k : List (Cx ℝ)) (h : Half N) : ℂ :=
  toC ((k[(mesh.rank (posOf h.1)).toNat]?).getD 0)

theorem getD_ofFn (f : Fin (m + 1) → Int) (d : Fin (m + 1)) : (List.ofFn f).getD d 0 = f d := by
  rw [List.getD_eq_getElem?_getD, List.getElem?_eq_getElem (by rw [List.length_ofFn]; exact d.2), List.getElem_ofFn]
  rfl

theorem inRange_ofFn {v : IntVec} : InRange (dimsOf N) v ↔
    ∃ f : Fin (m + 1) → Int, v = List.ofFn f ∧ ∀ d, 0 ≤ f d ∧ f d < N d := by
  unfold InRange dimsOf
  constructor
  · intro h
    have hl := h.length_eq
    rw [List.length_ofFn] at hl
    refine ⟨fun d => v[d]'(by omega), ?_, ?_⟩
    · apply List.ext_getElem
      · simp [hl]
      · intro i h1 h2; simp [-List.ofFn_succ]
    · intro d
      have := List.forall₂_iff_get.mp h
      have h2 := this.2 d (by rw [List.length_ofFn]; exact d.2) (by omega)
      simpa [-List.ofFn_succ] using h2
  · rintro ⟨f, rfl, hf⟩
    rw [List.forall₂_iff_get]
    refine ⟨by simp, fun i h1 h2 => ?_⟩
    have h3 : i < m + 1 := by rw [List.length_ofFn] at h1; exact h1
    simpa [-List.ofFn_succ] using hf ⟨i, h3⟩

theorem posOf_inRange (g : Grid N) : InRange (dimsOf N) (posOf g) :=
  inRange_ofFn.mpr ⟨_, rfl, fun d => ⟨by positivity, by exact_mod_cast ZMod.val_lt _⟩⟩

theorem gridOf_posOf (g : Grid N) : gridOf N (posOf g) = g := by
  funext d
  unfold gridOf posOf
  rw [getD_ofFn]
  simp

theorem posOf_gridOf {v : IntVec} (h : InRange (dimsOf N) v) : posOf (gridOf N v) = v := by
  obtain ⟨f, rfl, hf⟩ := inRange_ofFn.mp h
  unfold posOf gridOf
  congr 1
  funext d
  rw [getD_ofFn]
  obtain ⟨x, hx⟩ := Int.eq_ofNat_of_zero_le (hf d).1
  have h2 := (hf d).2
  rw [hx] at h2 ⊢
  rw [Int.cast_natCast, ZMod.val_natCast, Nat.mod_eq_of_lt (by exact_mod_cast h2)]

theorem lastOf_ofFn (f : Fin (m + 1) → Int) : lastOf (List.ofFn f) = f (Fin.last m) := by
  unfold lastOf
  rw [List.ofFn_succ_last]
  simp

theorem stored_iff {v : IntVec} (h : InRange (dimsOf N) v) :
    Stored (gridOf N v) ↔ isImplicit (dimsOf N) v = false := by
  have e := posOf_gridOf h
  unfold isImplicit Stored
  conv_rhs => rw [← e]
  unfold posOf dimsOf
  rw [lastOf_ofFn, lastOf_ofFn, Int.tdiv_eq_ediv_of_nonneg (by positivity)]
  simp only [gt_iff_lt, decide_eq_false_iff_not, not_lt]
  omega

/-- Negative of a position. -/
theorem gridOf_neg {w w' : IntVec} {v : IntVec} (hlen : m + 1 ≤ v.length) (hw : (shiftVec (dimsOf N) v).2 = w)
    (hw' : (shiftVec (dimsOf N) (negate v)).2 = w') : gridOf N w' = - gridOf N w := by
  have key : ∀ (v : IntVec), m + 1 ≤ v.length → gridOf N (shiftVec (dimsOf N) v).2 = gridOf N v := by
    intro v hv
    funext d
    have gen : ∀ (dims v : IntVec), dims.length ≤ v.length → (∀ x ∈ dims, 0 < x) → ∀ i : Nat, i < dims.length →
        ∃ z : Int, (shiftVec dims v).2.getD i 0 = v.getD i 0 - z * dims.getD i 0 := by
      intro dims
      induction dims with
      | nil => intro v _ _ i hi; simp at hi
      | cons a l ih =>
        intro v hl hp i hi
        cases v with
        | nil => simp at hl
        | cons x v =>
          cases i with
          | zero =>
            refine ⟨(Mesh.shift1 x a).1, ?_⟩
            simpa [shiftVec] using (Mesh.C02_shift_coordinate x a (hp a (by simp))).2.2.1
          | succ i =>
            obtain ⟨z, hz⟩ := ih v (by simpa using hl) (fun y hy => hp y (by simp [hy])) i (by simpa using hi)
            exact ⟨z, by simpa [shiftVec] using hz⟩
    obtain ⟨z, hz⟩ := gen (dimsOf N) v (by rw [dimsOf, List.length_ofFn]; exact hv) (by
      intro x hx
      simp only [dimsOf, List.mem_ofFn] at hx
      obtain ⟨d, rfl⟩ := hx
      exact_mod_cast Nat.pos_of_ne_zero (NeZero.ne _)) d (by rw [dimsOf, List.length_ofFn]; exact d.2)
    unfold gridOf
    rw [hz]
    have : (dimsOf N).getD d 0 = (N d : Int) := getD_ofFn _ _
    rw [this]
    push_cast
    simp
  rw [← hw, ← hw', key v hlen, key (negate v) (by rw [negate, List.length_map]; exact hlen)]
  funext d
  simp only [gridOf, Pi.neg_apply]
  have : (negate v).getD d 0 = - v.getD d 0 := by
    simp only [negate, List.getD_eq_getElem?_getD, List.getElem?_map]
    cases v[(d : Nat)]? <;> simp
  rw [this]; push_cast; ring

theorem shiftVec_length (dims v : IntVec) : (shiftVec dims v).2.length ≤ v.length := by
  induction dims generalizing v with
  | nil => simp [shiftVec]
  | cons a l ih =>
    cases v with
    | nil => simp [shiftVec]
    | cons x v => simpa [shiftVec] using ih v

variable {c : Cell ℝ} {b : BasisData ℝ}

theorem toC_conj (z : Cx ℝ) : toC (Cx.conj z) = (starRingEnd ℂ) (toC z) := by
  apply Complex.ext <;> simp [toC]

/-- The wave at a point of the mesh and its inverse. -/
theorem wave_at (V : Valid c 0 b) (hd : b.dims = dimsOf N) (g : Grid N) : ∃ (i : Nat) (w : Wave ℝ) (j : Nat) (w' : Wave ℝ),
    b.waves[i]? = some w ∧ gridOf N w.dft = g ∧ posOf g = w.dft ∧ w.inverseId = j ∧ b.waves[j]? = some w' ∧
    gridOf N w'.dft = -g ∧ posOf (-g) = w'.dft ∧ (Stored g ↔ w.implicit = false) ∧ (Stored (-g) ↔ w'.implicit = false) := by
  obtain ⟨i, w, hw, hdft, -⟩ := V.dftSurj (posOf g) (by rw [hd]; exact posOf_inRange g)
  obtain ⟨j, w', h1, h2, h3, h4, -⟩ := V.inverse i w hw
  have hbz := V.bzImage i w hw
  have hr := V.dftRange i w hw
  have hr' := V.dftRange j w' h2
  rw [hd] at hbz h4 hr hr'
  have hlen : m + 1 ≤ w.bz.length := by
    have e1 := shiftVec_length (dimsOf N) w.bz
    have e2 := hr.length_eq
    rw [hbz, ← e2, dimsOf, List.length_ofFn] at e1
    exact e1
  have e1 : gridOf N w.dft = g := by rw [hdft, gridOf_posOf]
  have e2 : gridOf N w'.dft = -g := by rw [gridOf_neg hlen hbz h4.symm, e1]
  refine ⟨i, w, j, w', hw, e1, hdft.symm, h1, h2, e2, ?_, ?_, ?_⟩
  · rw [← e2, posOf_gridOf hr']
  · rw [← e1, stored_iff hr, V.implicit i w hw, hd]
  · rw [← e2, stored_iff hr', V.implicit j w' h2, hd]

/-- `k` holds the values of the waves of the half mesh. -/
def Holds (b : BasisData ℝ) (mesh : Mesh) (r2 : ℝ) (a : List ℝ) (k : List (Cx ℝ)) : Prop :=
  ∀ (i : Nat) w, b.waves[i]? = some w → w.implicit = false → k[(mesh.rank w.dft).toNat]? = some (waveVal b r2 a w)

theorem extend_wave (V : Valid c 0 b) (hd : b.dims = dimsOf N) {mesh : Mesh} {r2 : ℝ} {a : List ℝ} {k : List (Cx ℝ)}
    (hk : Holds b mesh r2 a k) {i : Nat} {w : Wave ℝ} (hw : b.waves[i]? = some w) :
    extend (halfOf mesh k) (gridOf N w.dft) = toC (waveVal b r2 a w) := by
  obtain ⟨i', x, j, x', h1, h2, h3, h4, h5, h6, h7, h8, h9⟩ := wave_at V hd (gridOf N w.dft)
  have hr := V.dftRange i w hw
  have hr1 := V.dftRange i' x h1
  rw [hd] at hr hr1
  have : x.dft = w.dft := by rw [← h3, posOf_gridOf hr]
  have hii := V.dftInj i' i x w h1 hw this
  rw [hii, hw] at h1
  cases h1
  unfold extend
  by_cases hs : Stored (gridOf N w.dft)
  · rw [dif_pos hs]
    unfold halfOf
    rw [h3, hk i w hw (h8.mp hs)]
    rfl
  · rw [dif_neg hs]
    unfold halfOf
    rw [h7, hk j x' h5 (h9.mp (stored_neg hs))]
    simp only [Option.getD_some]
    rw [waveVal_inverse V r2 a hw h4 h5, toC_conj, Complex.conj_conj]

theorem half_hermitian (V : Valid c 0 b) (hd : b.dims = dimsOf N) {mesh : Mesh} {r2 : ℝ} {a : List ℝ} {k : List (Cx ℝ)}
    (hk : Holds b mesh r2 a k) : Hermitian (N := N) (halfOf mesh k) := by
  intro g h h'
  obtain ⟨i, w, j, w', h1, h2, h3, h4, h5, h6, h7, h8, h9⟩ := wave_at V hd g
  unfold halfOf
  rw [h3, h7, hk i w h1 (h8.mp h), hk j w' h5 (h9.mp h')]
  simp only [Option.getD_some]
  rw [waveVal_inverse V r2 a h1 h4 h5, toC_conj]

/-- Position of wave `i`. -/
noncomputable def waveGrid (b : BasisData ℝ) (N : Fin (m + 1) → Nat) (i : Fin b.waves.length) : Grid N := gridOf N (b.waves[i].dft)

theorem waveGrid_bij (V : Valid c 0 b) (hd : b.dims = dimsOf N) : Function.Bijective (waveGrid b N) := by
  constructor
  · intro i j h
    have hi := List.getElem?_eq_getElem i.2
    have hj := List.getElem?_eq_getElem j.2
    have h1 := V.dftRange i _ hi
    have h2 := V.dftRange j _ hj
    rw [hd] at h1 h2
    have := congrArg posOf h
    unfold waveGrid at this
    have e1 : posOf (gridOf N (b.waves[i].dft)) = b.waves[i].dft := posOf_gridOf h1
    have e2 : posOf (gridOf N (b.waves[j].dft)) = b.waves[j].dft := posOf_gridOf h2
    rw [e1, e2] at this
    exact Fin.ext (V.dftInj i j _ _ hi hj this)
  · intro g
    obtain ⟨i, w, -, -, h1, h2, -⟩ := wave_at V hd g
    obtain ⟨hlt, he⟩ := List.getElem?_eq_some_iff.mp h1
    refine ⟨⟨i, hlt⟩, ?_⟩
    unfold waveGrid
    simp only [Fin.getElem_fin]
    rw [he, h2]

theorem coef_c2r (en : Fin n ≃ Grid N) {X : Half N → ℂ} (hX : Hermitian X) (g : Grid N) :
    coef en (c2r en X) g = extend X g := by
  have h := C78_inverse_forward en X hX
  have h1 : ∀ g : Grid N, Stored g → coef en (c2r en X) g = extend X g := by
    intro g hs
    have := congrFun h ⟨g, hs⟩
    unfold extend
    rw [dif_pos hs, ← this]
    rfl
  by_cases hs : Stored g
  · exact h1 g hs
  · have h2 := h1 (-g) (stored_neg hs)
    rw [coef_neg, extend_neg hX] at h2
    exact (starRingEnd ℂ).injective h2

/-- Parseval's identity for two Hermitian arrays. -/
theorem parseval_c2r (en : Fin n ≃ Grid N) {X Y : Half N → ℂ} (hX : Hermitian X) (hY : Hermitian Y) :
    ∑ i, c2r en X i * c2r en Y i = n * ∑ g : Grid N, (extend X g * (starRingEnd ℂ) (extend Y g)).re := by
  have h := parseval_full en (fun _ => 1) (c2r en X) (c2r en Y)
  have e : dftKin en (fun _ => 1) (c2r en X) = c2r en X := by
    unfold dftKin
    simp only [Complex.ofReal_one, mul_one]
    exact C78_forward_inverse en _
  rw [e] at h
  unfold Solver.dot at h
  rw [h]
  congr 1
  refine Finset.sum_congr rfl fun g _ => ?_
  unfold cdot extR
  rw [coef_c2r en hX, coef_c2r en hY]
  simp only [Complex.mul_re, Complex.conj_re, Complex.conj_im]
  split <;> ring

/-- Average of a product on the grid and sum over basis functions. -/
theorem inner_eq (V : Valid c 0 b) (hN : Normalised b) (hd : b.dims = dimsOf N) (en : Fin n ≃ Grid N) {mesh : Mesh}
    {r2 : ℝ} (hr2 : r2 * r2 = 2) {a a' : List ℝ} {k k' : List (Cx ℝ)} (hk : Holds b mesh r2 a k)
    (hk' : Holds b mesh r2 a' k') :
    (∑ i, c2r en (halfOf mesh k) i * c2r en (halfOf mesh k') i) / n =
      ∑ j ∈ Finset.range b.nBasis, a.getD j 0 * a'.getD j 0 := by
  rw [parseval_c2r en (half_hermitian V hd hk) (half_hermitian V hd hk'), mul_div_cancel_left₀ _ (n_ne en)]
  rw [← Equiv.sum_comp (Equiv.ofBijective _ (waveGrid_bij V hd))]
  have h := (waves_sum V hN r2 hr2 a a' b.stars V.paired 0 (by simp)).2
  have h0 : nBefore b.stars 0 = 0 := by simp [nBefore]
  rw [V.nxt_zero, h0, ← Finset.range_eq_Ico, ← Finset.range_eq_Ico] at h
  have e : ∀ x : List ℝ, ∀ j : Nat, at0 x (j : Int) = x.getD j 0 := by
    intro x j; simp [at0, List.getD_eq_getElem?_getD]
  simp only [e] at h
  rw [← h, ← Fin.sum_univ_eq_sum_range (fun i => dotC (valAt b r2 a i) (valAt b r2 a' i))]
  refine Finset.sum_congr rfl fun i _ => ?_
  have hi := List.getElem?_eq_getElem i.2
  simp only [Equiv.ofBijective_apply]
  unfold waveGrid
  simp only [Fin.getElem_fin]
  rw [extend_wave V hd hk hi, extend_wave V hd hk' hi]
  unfold valAt
  rw [hi]
  simp [toC, dotC]

end Real

end Verif.Basis
