import Verif.Fts.EigenLemmas

/-!
# C61: eigenvectors of the projected chi matrix and components of fields
-/

set_option autoImplicit false
set_option linter.unusedSectionVars false

namespace Verif.Fts

open Finset

variable {m n : Nat} {chi : Mat m} {vals : MVec m} {vecs : Mat m}

/-- What a user expects of the stored eigenvalues and eigenvectors: orthogonal with squared norm
`nMonomer`; eigenvectors of `P chi P`; the last is exactly `(1, …, 1)` with eigenvalue 0; all other
eigenvalues are negative and their eigenvectors orthogonal to `(1, …, 1)`; `sc` are the components of
the row averages of chi. -/
structure EigGood (chi : Mat m) (e : Eig m) : Prop where
  ortho : ∀ j k, ∑ i, e.vec j i * e.vec k i = if j = k then nM m else 0
  last : ∀ i, e.vec (Fin.last m) i = 1
  eig : ∀ j k, ∑ l, chiPM chi k l * e.vec j l = e.val j * e.vec j k
  neg : ∀ j : Fin m, e.val j.castSucc < 0
  valLast : e.val (Fin.last m) = 0
  sc : ∀ j, e.sc j = (∑ i, e.vec j i * ∑ l, chi i l) / (nM m * nM m)

/-- The list of indices in stored order. -/
theorem analyze_parts (e : Eig m)
    (ho : analyze_chi chi vals vecs = .ok e) :
    ∃ (ord : Fin (m + 1) → Fin (m + 1)), Function.Injective ord ∧
      (∀ j : Fin m, ¬ isNull vals (ord j.castSucc)) ∧ isNull vals (ord (Fin.last m)) ∧
      (∀ i, ¬ isNull vals i → vals i < 0) ∧
      (∀ j : Fin m, e.val j.castSucc = vals (ord j.castSucc)) ∧ e.val (Fin.last m) = 0 ∧
      (∀ j, e.vec j = normV (flipV (vecs (ord j)))) ∧
      (∀ j, e.sc j = (∑ i, e.vec j i * ∑ l, chi i l) / (nM m * nM m)) := by
  unfold analyze_chi at ho
  rw [Res.bind_eq_ok] at ho
  obtain ⟨s, hs, ho⟩ := ho
  obtain ⟨h1, h2, h3, h4⟩ := selLoop_ok vals vecs _ _ _ hs
  simp only [List.nil_append, zero_add] at h1 h2
  split at ho
  · cases ho
  · rename_i iN hiN
    simp only at ho
    split at ho
    · cases ho
    · rename_i hn
      have hn1 : s.nNull = 1 := by simpa using hn
      split at ho
      · simp only [Res.ok.injEq] at ho
        obtain ⟨_, hNull⟩ : iN ∈ List.finRange (m + 1) ∧ isNull vals iN := by
          rcases h4 iN hiN with h5 | h5
          · cases h5
          · exact h5
        obtain ⟨L, hL⟩ : ∃ L, L = (List.finRange (m + 1)).filter (fun i => ¬ isNull vals i) :=
          ⟨_, rfl⟩
        rw [← hL] at h1
        have hLm : ∀ i ∈ L, ¬ isNull vals i := by
          intro i hi
          rw [hL, List.mem_filter] at hi
          simpa using hi.2
        have hlen : L.length = m := by
          have h5 := List.length_eq_length_filter_add (l := List.finRange (m + 1))
            (fun i => decide (isNull vals i))
          have h6 : ((List.finRange (m + 1)).filter (fun i => !decide (isNull vals i))).length =
              L.length := by
            rw [hL]; congr 2; funext i; simp
          rw [List.length_finRange, h6, ← h2, hn1] at h5
          omega
        have hnd : (L ++ [iN]).Nodup := by
          rw [List.nodup_append]
          refine ⟨by rw [hL]; exact (List.nodup_finRange _).filter _, by simp, ?_⟩
          intro a ha b hb
          simp only [List.mem_singleton] at hb
          subst hb
          rintro rfl
          exact hLm _ ha hNull
        have hl2 : (L ++ [iN]).length = m + 1 := by simp [hlen]
        have hall : s.pairs ++ [((0 : ℝ), flipV (vecs iN))] =
            L.map (fun i => (vals i, flipV (vecs i))) ++ [(0, flipV (vecs iN))] := by rw [h1]
        have hget : ∀ j : Fin (m + 1), ((s.pairs ++ [((0 : ℝ), flipV (vecs iN))]).getD j (0, 0)).2 =
            flipV (vecs ((L ++ [iN])[j.1]'(by rw [hl2]; exact j.2))) := by
          intro j
          rw [hall]
          by_cases hj : j.1 < m
          · have : j.1 < L.length := by rw [hlen]; exact hj
            rw [List.getElem_append_left this]
            simp [List.getD, List.getElem?_append, this]
          · have hj' : j.1 = m := by have := j.2; omega
            rw [List.getElem_append_right (by rw [hlen]; omega)]
            simp [hj', hlen, List.getD]
        have hval : ∀ j : Fin m, ((s.pairs ++ [((0 : ℝ), flipV (vecs iN))]).getD j (0, 0)).1 =
            vals (L[j.1]'(by rw [hlen]; exact j.2)) := by
          intro j
          have : j.1 < L.length := by rw [hlen]; exact j.2
          rw [hall]
          simp [List.getD, List.getElem?_append, this]
        refine ⟨fun j => (L ++ [iN])[j.1]'(by rw [hl2]; exact j.2), ?_, ?_, ?_, ?_, ?_, ?_, ?_, ?_⟩
        · intro a b hab
          exact Fin.ext ((List.Nodup.getElem_inj_iff hnd).1 hab)
        · intro j
          have hj : j.1 < L.length := by rw [hlen]; exact j.2
          have hmem : (L ++ [iN])[(Fin.castSucc j).1]'(by rw [hl2]; exact (Fin.castSucc j).2) ∈ L := by
            rw [List.getElem_append_left (by simpa using hj)]
            exact List.getElem_mem _
          exact hLm _ hmem
        · have : (L ++ [iN])[(Fin.last m).1]'(by rw [hl2]; exact (Fin.last m).2) = iN := by
            rw [List.getElem_append_right (by simp [hlen])]
            simp
          show isNull vals ((L ++ [iN])[(Fin.last m).1]'(by rw [hl2]; exact (Fin.last m).2))
          rw [this]; exact hNull
        · intro i hi
          exact h3 i (List.mem_finRange i) hi
        · intro j
          rw [← ho]
          show ((s.pairs ++ [((0 : ℝ), flipV (vecs iN))]).getD j (0, 0)).1 = _
          rw [hval j]
          show _ = vals ((L ++ [iN])[j.1]'(by rw [hl2]; have := j.2; omega))
          rw [List.getElem_append_left (by rw [hlen]; exact j.2)]
        · rw [← ho]
          show ((s.pairs ++ [((0 : ℝ), flipV (vecs iN))]).getD m (0, 0)).1 = _
          rw [hall]
          simp [hlen, List.getD]
        · intro j
          rw [← ho]
          show normV ((s.pairs ++ [((0 : ℝ), flipV (vecs iN))]).getD j (0, 0)).2 = _
          rw [hget]
        · intro j
          rw [← ho]
          simp only [accum_eq, zero_add]
          rw [div_eq_div_iff (nM_ne m) (mul_ne_zero (nM_ne m) (nM_ne m))]
          have : ∀ a b : ℝ, a * (b / nM m) = a * b / nM m := fun a b => by ring
          simp only [this, ← sum_div]
          have := nM_ne m
          field_simp
      · cases ho

/-- C61, first part: whenever `analyzeChi` returns normally, its eigenvectors and eigenvalues are as
expected, whatever orthonormal eigenvectors GSL returned and in whatever order and sign. -/
theorem C61_analyzeChi (h : EigOk (chiPM chi) vals vecs) (e : Eig m)
    (ho : analyze_chi chi vals vecs = .ok e) : EigGood chi e := by
  obtain ⟨ord, hinj, hnn, hnull, hneg, hval, hvl, hvec, hsc⟩ := analyze_parts e ho
  have hunit : ∀ j, ∑ k, vecs (ord j) k * vecs (ord j) k = 1 := fun j => by
    have := h.ortho (ord j) (ord j); simpa using this
  have hbij : Function.Bijective ord := Finite.injective_iff_bijective.1 hinj
  have hconst := h.null_const (ord (Fin.last m)) (by
    intro i hi
    obtain ⟨j, rfl⟩ := hbij.2 i
    have hj : j ≠ Fin.last m := fun e' => hi (by rw [e'])
    obtain ⟨j', rfl⟩ := Fin.exists_castSucc_eq.2 hj
    exact (hneg _ (hnn j')).ne)
  have hlast : ∀ i, e.vec (Fin.last m) i = 1 := by
    intro i
    rw [hvec]
    exact normFlip_const _ _ hconst.2 (hunit _) i
  refine ⟨?_, hlast, ?_, ?_, hvl, hsc⟩
  · intro j k
    obtain ⟨σ, hσ, e1⟩ := normFlip _ (hunit j)
    obtain ⟨τ, hτ, e2⟩ := normFlip _ (hunit k)
    rw [hvec, hvec, e1, e2]
    have h1 : ∀ i, σ * √(nM m) * vecs (ord j) i * (τ * √(nM m) * vecs (ord k) i) =
        σ * τ * nM m * (vecs (ord j) i * vecs (ord k) i) := by
      intro i
      have := Real.mul_self_sqrt (nM_pos m).le
      linear_combination σ * τ * vecs (ord j) i * vecs (ord k) i * this
    simp only [h1, ← mul_sum, h.ortho]
    by_cases hjk : j = k
    · subst hjk
      simp only [if_true, mul_one]
      have : σ = τ := by
        have h3 := congrFun (e1.symm.trans e2)
        obtain ⟨i, hi⟩ : ∃ i, vecs (ord j) i ≠ 0 := by
          by_contra hcon
          push Not at hcon
          have := hunit j
          simp [hcon] at this
        have h4 := mul_right_cancel₀ hi (h3 i)
        exact mul_right_cancel₀ (Real.sqrt_pos.2 (nM_pos m)).ne' h4
      rw [← this]
      have : σ * σ = 1 := by rcases hσ with rfl | rfl <;> norm_num
      rw [this, one_mul]
    · rw [if_neg (fun h' => hjk (hinj h')), if_neg hjk, mul_zero]
  · intro j k
    by_cases hj : j = Fin.last m
    · subst hj
      rw [hvl, zero_mul]
      simp only [hlast, chiPM_apply, sum_one, div_self (nM_ne m), sub_self, mul_zero, sum_const_zero,
        zero_div]
    · obtain ⟨j', rfl⟩ := Fin.exists_castSucc_eq.2 hj
      obtain ⟨σ, hσ, e1⟩ := normFlip _ (hunit j'.castSucc)
      rw [hvec, e1, hval]
      have h1 : ∀ l, chiPM chi k l * (σ * √(nM m) * vecs (ord j'.castSucc) l) =
          σ * √(nM m) * (chiPM chi k l * vecs (ord j'.castSucc) l) := fun l => by ring
      simp only [h1, ← mul_sum, h.eig]
      ring
  · intro j
    rw [hval]; exact hneg _ (hnn j)

/-- Eigenvalue as value of a quadratic form. -/
theorem EigOk.val_eq (h : EigOk (chiPM chi) vals vecs) (i : Fin (m + 1)) (x : MVec m)
    (hx : ∀ a, x a = vecs i a - (∑ k, vecs i k) / nM m) :
    vals i = ∑ a, ∑ b, x a * chi a b * x b := by
  have h1 : vals i = ∑ a, vecs i a * ∑ l, chiPM chi a l * vecs i l := by
    simp only [h.eig]
    have : ∀ a, vecs i a * (vals i * vecs i a) = vals i * (vecs i a * vecs i a) := fun a => by ring
    simp only [this, ← mul_sum, h.ortho, if_true, mul_one]
  rw [h1]
  simp only [chiPM_apply, ← hx]
  have h2 : ∀ a, vecs i a = x a + (∑ k, vecs i k) / nM m := fun a => by rw [hx]; ring
  have h3 : ∑ a, x a = 0 := by
    simp only [hx, sum_sub_distrib, sum_const, card_univ, Fintype.card_fin, nsmul_eq_mul]
    rw [show ((m + 1 : Nat) : ℝ) = nM m from rfl, mul_div_cancel₀ _ (nM_ne m), sub_self]
  generalize (∑ k, vecs i k) / nM m = t at h2
  simp only [h2, mul_sub, add_mul, sum_sub_distrib, sum_add_distrib, ← sum_mul, ← mul_sum, h3]
  rw [sum_const, card_univ, Fintype.card_fin, nsmul_eq_mul,
    show ((m + 1 : Nat) : ℝ) = nM m from rfl]
  have h4 : ∀ S : ℝ, nM m * t * (S / nM m) = t * S := fun S => by
    have := nM_ne m
    field_simp
  have h5 : ∀ a, ∑ b, x a * chi a b * x b = x a * ∑ b, chi a b * x b := fun a => by
    rw [mul_sum]; exact sum_congr rfl fun b _ => by ring
  simp only [h4, h5]
  ring

/-- C61: `analyzeChi` succeeds whenever chi is negative definite on composition differences, by at
least the tolerance. -/
theorem C61_succeeds (h : EigOk (chiPM chi) vals vecs) (δ : ℝ) (hδ : 1 / 10 ^ 8 ≤ δ)
    (hchi : ∀ x : MVec m, ∑ i, x i = 0 → ∑ i, ∑ j, x i * chi i j * x j ≤ -δ * ∑ i, x i * x i) :
    ∃ e, analyze_chi chi vals vecs = .ok e := by
  have hδ0 : 0 < δ := lt_of_lt_of_le (by norm_num) hδ
  have hx0 : ∀ i, ∑ a, (vecs i a - (∑ k, vecs i k) / nM m) = 0 := by
    intro i
    simp only [sum_sub_distrib, sum_const, card_univ, Fintype.card_fin, nsmul_eq_mul]
    rw [show ((m + 1 : Nat) : ℝ) = nM m from rfl, mul_div_cancel₀ _ (nM_ne m), sub_self]
  have hle : ∀ i, vals i ≤ -δ * ∑ a, (vecs i a - (∑ k, vecs i k) / nM m) *
      (vecs i a - (∑ k, vecs i k) / nM m) := by
    intro i
    rw [h.val_eq i (fun a => vecs i a - (∑ k, vecs i k) / nM m) (fun _ => rfl)]
    exact hchi _ (hx0 i)
  have hsq : ∀ i, 0 ≤ ∑ a, (vecs i a - (∑ k, vecs i k) / nM m) *
      (vecs i a - (∑ k, vecs i k) / nM m) := fun i =>
    sum_nonneg fun a _ => mul_self_nonneg _
  have hnonpos : ∀ i, vals i ≤ 0 := fun i => (hle i).trans (by nlinarith [hsq i])
  -- a null eigenvalue is zero and its eigenvector has equal components
  have hzero : ∀ i, isNull vals i → vals i = 0 := by
    intro i hi
    by_contra hne
    have hs := h.sum_zero i hne
    have h1 := hle i
    have h2 := h.ortho i i
    simp only [if_true] at h2
    simp only [hs, zero_div, sub_zero, h2, mul_one] at h1
    have h3 := (abs_lt.1 (show |vals i| < 1 / 10 ^ 8 from hi)).1
    linarith
  have hconst : ∀ i, vals i = 0 → ∀ a, vecs i a = (∑ k, vecs i k) / nM m := by
    intro i hi a
    have h1 := hle i
    rw [hi] at h1
    have h2 : ∑ a, (vecs i a - (∑ k, vecs i k) / nM m) * (vecs i a - (∑ k, vecs i k) / nM m) = 0 :=
      le_antisymm (by nlinarith) (hsq i)
    have h3 := (sum_eq_zero_iff_of_nonneg (fun a _ => mul_self_nonneg _)).1 h2 a (mem_univ a)
    have := mul_self_eq_zero.1 h3
    linarith
  have huniq : ∀ i j, isNull vals i → isNull vals j → i = j := by
    intro i j hi hj
    by_contra hne
    have h1 := hconst i (hzero i hi)
    have h2 := hconst j (hzero j hj)
    have h3 := h.ortho i j
    have h4 := h.ortho i i
    have h5 := h.ortho j j
    simp only [if_neg hne, if_true] at h3 h4 h5
    generalize (∑ k, vecs i k) / nM m = s at h1
    generalize (∑ k, vecs j k) / nM m = t at h2
    simp only [h1, h2, sum_const, card_univ, Fintype.card_fin, nsmul_eq_mul] at h3 h4 h5
    have hm : ((m + 1 : Nat) : ℝ) ≠ 0 := nM_ne m
    have h6 : s * t = 0 := by
      rcases mul_eq_zero.1 h3 with h' | h'
      · exact absurd h' hm
      · exact h'
    rcases mul_eq_zero.1 h6 with h' | h'
    · rw [h'] at h4; simp at h4
    · rw [h'] at h5; simp at h5
  have hexists : ∃ i, isNull vals i := by
    by_contra hcon
    push Not at hcon
    have h1 : ∀ i, vals i ≠ 0 := fun i hi => hcon i (by
      show |vals i| < _
      rw [hi]; norm_num)
    have h2 := h.expand (fun _ => 1) 0
    simp only [mul_one, h.sum_zero _ (h1 _), zero_mul, sum_const_zero] at h2
    exact zero_ne_one h2
  obtain ⟨i0, hi0⟩ := hexists
  have hfil : ((List.finRange (m + 1)).filter (fun i => isNull vals i)).length = 1 := by
    have hnd : ((List.finRange (m + 1)).filter (fun i => isNull vals i)).Nodup :=
      (List.nodup_finRange _).filter _
    have hmem : i0 ∈ (List.finRange (m + 1)).filter (fun i => isNull vals i) := by
      simp [hi0]
    have hall : ∀ j ∈ (List.finRange (m + 1)).filter (fun i => isNull vals i), j = i0 := by
      intro j hj
      simp only [List.mem_filter, decide_eq_true_eq] at hj
      exact huniq _ _ hj.2 hi0
    generalize (List.finRange (m + 1)).filter (fun i => isNull vals i) = l at hnd hmem hall
    match l with
    | [] => simp at hmem
    | [a] => rfl
    | a :: b :: l =>
      have h1 := hall a (by simp)
      have h2 := hall b (by simp)
      rw [h1, h2] at hnd
      simp at hnd
  obtain ⟨s, hs, hN, _⟩ := selLoop_succeeds vals vecs (List.finRange (m + 1)) ⟨[], none, 0⟩
    (by simp only [hfil]; omega) (by
      intro i _ hi
      rcases lt_or_eq_of_le (hnonpos i) with h' | h'
      · exact h'
      · exact absurd (show |vals i| < 1 / 10 ^ 8 by rw [h']; norm_num) hi)
  obtain ⟨iN, hiN⟩ := hN ⟨i0, List.mem_finRange _, hi0⟩
  obtain ⟨h1, h2, _, h4⟩ := selLoop_ok vals vecs _ _ _ hs
  have hiN0 : iN = i0 := by
    rcases h4 iN hiN with h5 | h5
    · cases h5
    · exact huniq _ _ h5.2 hi0
  have hlen : s.pairs.length = m := by
    have h5 := List.length_eq_length_filter_add (l := List.finRange (m + 1))
      (fun i => decide (isNull vals i))
    have h6 : ((List.finRange (m + 1)).filter (fun i => !decide (isNull vals i))).length =
        s.pairs.length := by
      rw [h1]
      simp only [List.nil_append, List.length_map]
      congr 2; funext i; simp
    rw [List.length_finRange, h6, hfil] at h5
    omega
  unfold analyze_chi
  rw [hs]
  simp only [Res.ok_bind, hiN]
  rw [if_neg (by rw [h2, hfil]; simp)]
  have hlast : ∀ j, normV ((s.pairs ++ [((0 : ℝ), flipV (vecs iN))]).getD (Fin.last m) (0, 0)).2 j
      = 1 := by
    intro j
    have e : ((s.pairs ++ [((0 : ℝ), flipV (vecs iN))]).getD (Fin.last m) (0, 0)).2 =
        flipV (vecs iN) := by
      simp [List.getD, hlen]
    rw [e]
    refine normFlip_const _ _ (hconst iN (hzero iN (hiN0 ▸ hi0))) ?_ j
    have := h.ortho iN iN
    simpa using this
  rw [if_pos (by intro j; rw [hlast]; norm_num)]
  exact ⟨_, rfl⟩

/-! ## Components -/

/-- The stored eigenvectors, as columns, are complete. -/
theorem EigGood.complete {e : Eig m} (h : EigGood chi e) (i j : Fin (m + 1)) :
    ∑ k, e.vec k i * e.vec k j = if i = j then nM m else 0 := by
  let V : Matrix (Fin (m + 1)) (Fin (m + 1)) ℝ := Matrix.of e.vec
  have h1 : V * ((nM m)⁻¹ • V.transpose) = 1 := by
    ext a b
    rw [Matrix.mul_smul, Matrix.smul_apply, Matrix.mul_apply, Matrix.one_apply]
    have := h.ortho a b
    simp only [V, Matrix.of_apply, Matrix.transpose_apply, this, smul_eq_mul]
    split
    · exact inv_mul_cancel₀ (nM_ne m)
    · simp
  have h2 : ((nM m)⁻¹ • V.transpose) * V = 1 := mul_eq_one_comm.1 h1
  have h3 := congrFun (congrFun h2 i) j
  rw [Matrix.smul_mul, Matrix.smul_apply, Matrix.mul_apply, Matrix.one_apply] at h3
  simp only [V, Matrix.of_apply, Matrix.transpose_apply, smul_eq_mul] at h3
  have := nM_ne m
  rw [inv_mul_eq_iff_eq_mul₀ this] at h3
  rw [h3]
  split <;> simp

theorem wc_eq (e : Eig m) (w : Flds m n) (j : Fin (m + 1)) (i : Fin n) :
    computeWcF e w j i = (∑ k, e.vec j k * w k i) / nM m := by
  simp only [computeWcF, accum_eq, zero_add, sum_div]
  exact sum_congr rfl fun k _ => by ring

theorem cc_eq (e : Eig m) (c : Flds m n) (j : Fin (m + 1)) (i : Fin n) :
    computeCcF e c j i = ∑ k, e.vec j k * c k i := by
  simp [computeCcF, accum_eq]

/-- C61: the monomer fields are recovered from their components. -/
theorem C61_reconstruct {e : Eig m} (h : EigGood chi e) (w : Flds m n) (i : Fin (m + 1))
    (k : Fin n) : ∑ j, computeWcF e w j k * e.vec j i = w i k := by
  simp only [wc_eq]
  have h1 : ∀ j, (∑ l, e.vec j l * w l k) / nM m * e.vec j i =
      ∑ l, w l k / nM m * (e.vec j l * e.vec j i) := by
    intro j
    rw [sum_div, sum_mul]
    exact sum_congr rfl fun l _ => by ring
  simp only [h1]
  rw [sum_comm]
  simp only [← mul_sum, h.complete]
  have := nM_ne m
  simp only [mul_ite, mul_zero, sum_ite_eq', mem_univ, if_true]
  field_simp

/-- C61: the components of a field assembled from components are those components. -/
theorem C61_components {e : Eig m} (h : EigGood chi e) (a : Flds m n) (j : Fin (m + 1))
    (k : Fin n) : computeWcF e (fun i k => ∑ l, a l k * e.vec l i) j k = a j k := by
  rw [wc_eq]
  have h1 : ∀ i, e.vec j i * ∑ l, a l k * e.vec l i = ∑ l, a l k * (e.vec j i * e.vec l i) := by
    intro i
    rw [mul_sum]
    exact sum_congr rfl fun l _ => by ring
  simp only [h1]
  rw [sum_comm]
  simp only [← mul_sum, h.ortho]
  have := nM_ne m
  simp only [mul_ite, mul_zero, sum_ite_eq, mem_univ, if_true]
  field_simp

/-- The last component is the average over monomer types, the pressure-like field. -/
theorem C61_pressure {e : Eig m} (h : EigGood chi e) (w : Flds m n) (k : Fin n) :
    computeWcF e w (Fin.last m) k = (∑ i, w i k) / nM m := by
  simp [wc_eq, h.last]

/-- `(∑ c = 1)` in components. -/
theorem C61_incompressible {e : Eig m} (h : EigGood chi e) (c : Flds m n) (k : Fin n) :
    computeCcF e c (Fin.last m) k = ∑ i, c i k := by
  simp [cc_eq, h.last]

/-- Displacing the w fields by `d` in the directions of the eigenvectors and then adding any
pressure `p` (as compressors do) changes exactly the components of composition by `d`. -/
theorem C61_displace {e : Eig m} (h : EigGood chi e) (w : Flds m n) (d : Fin m → Fin n → ℝ)
    (p : Fin n → ℝ) (j : Fin m) (k : Fin n) :
    computeWcF e (fun i k => displace e w d i k + p k) j.castSucc k =
      computeWcF e w j.castSucc k + d j k := by
  simp only [wc_eq, displace, accum_eq]
  have h1 : ∀ i, e.vec j.castSucc i * (w i k + ∑ l, e.vec (Fin.castSucc l) i * d l k + p k) =
      e.vec j.castSucc i * w i k + (∑ l, d l k * (e.vec j.castSucc i * e.vec (Fin.castSucc l) i)) +
      p k * (e.vec j.castSucc i * e.vec (Fin.last m) i) := by
    intro i
    rw [h.last, mul_add, mul_add, mul_sum]
    congr 1
    · congr 1
      exact sum_congr rfl fun l _ => by ring
    · ring
  simp only [h1, sum_add_distrib]
  rw [sum_comm]
  simp only [← mul_sum, h.ortho]
  have hl : j.castSucc ≠ Fin.last m := (Fin.castSucc_lt_last j).ne
  have := nM_ne m
  simp only [Fin.castSucc_inj, mul_ite, mul_zero, sum_ite_eq, mem_univ, if_true, if_neg hl, add_zero]
  field_simp

/-! ## Example: two monomer types with `chi_AB = 1` -/

noncomputable def exChi : Mat 1 := fun i j => if i = j then 0 else 1

noncomputable def exVals : MVec 1 := fun i => if i = 0 then -1 else 0

noncomputable def exVecs : Mat 1 := fun i j => if i = 0 ∧ j = 1 then -√(1 / 2) else √(1 / 2)

theorem exEig : EigOk (chiPM exChi) exVals exVecs := by
  have hr : √(1 / 2 : ℝ) * √(1 / 2) = 1 / 2 := Real.mul_self_sqrt (by norm_num)
  constructor
  · intro i k
    rw [chiPM_apply]
    fin_cases i <;> fin_cases k <;> simp [Fin.sum_univ_two, exChi, exVals, exVecs, nM]
  · intro i j
    fin_cases i <;> fin_cases j <;> simp [Fin.sum_univ_two, exVecs] at hr ⊢ <;> linarith

theorem exAnalyze : ∃ e, analyze_chi exChi exVals exVecs = .ok e := by
  refine C61_succeeds exEig 1 (by norm_num) ?_
  intro x hx
  simp only [Fin.sum_univ_succ, Fin.sum_univ_zero] at hx ⊢
  simp [exChi] at hx ⊢
  have : x 1 = -x 0 := by linarith
  rw [this]
  nlinarith [sq_nonneg (x 0)]

example : ∃ e, analyze_chi exChi exVals exVecs = .ok e ∧ EigGood exChi e := by
  obtain ⟨e, he⟩ := exAnalyze
  exact ⟨e, he, C61_analyzeChi exEig e he⟩

end Verif.Fts
