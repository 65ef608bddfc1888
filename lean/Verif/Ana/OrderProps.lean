import Verif.Ana.Order
import Verif.Solver.DftProps
import Verif.Crystal.MinImageProps
import Verif.Crystal.CellDerivProps
import Mathlib.Analysis.Real.Pi.Bounds
import Verif.Tac

/-!
# C101: order parameters
-/

set_option autoImplicit false
set_option linter.unusedSectionVars false

namespace Verif.Ana

open Verif.Solver

/-! ## Prefactors -/

section Pref

variable {nk D : Nat} (g : Fin nk → Fin D → Int)

theorem search_foldl (i : Fin nk) (l : List (Fin nk)) (s : (Fin nk → ℝ) × Bool) :
    (l.foldl (search g i) s).2 = (s.2 || l.any fun x => decide (-g i = g x)) ∧
    ∀ j, (l.foldl (search g i) s).1 j =
      if (j = i ∧ ∃ x ∈ l, -g i = g x) ∨ (j ∈ l ∧ -g i = g j) then 1 / 2 else s.1 j := by
  induction l generalizing s with
  | nil => simp
  | cons x l ih =>
    rw [List.foldl_cons]
    obtain ⟨h1, h2⟩ := ih (search g i s x)
    by_cases hx : -g i = g x
    · have e : search g i s x = (Function.update (Function.update s.1 i (1 / 2)) x (1 / 2), true) := by
        unfold search; rw [if_pos hx]
      rw [e] at h1 h2 ⊢
      refine ⟨by rw [h1]; simp [hx], ?_⟩
      intro j
      rw [h2]
      dsimp only
      by_cases hj : j = i
      · rw [if_pos (c := (j = i ∧ ∃ y ∈ x :: l, -g i = g y) ∨ _)
          (Or.inl ⟨hj, x, List.mem_cons_self, hx⟩)]
        split_ifs with hc
        · rfl
        · by_cases hjx : j = x
          · rw [hjx, Function.update_self]
          · rw [Function.update_of_ne hjx, hj, Function.update_self]
      · by_cases hjx : j = x
        · subst hjx
          rw [if_pos (c := (j = i ∧ ∃ y ∈ j :: l, -g i = g y) ∨ _) (Or.inr ⟨List.mem_cons_self, hx⟩)]
          split_ifs
          · rfl
          · rw [Function.update_self]
        · rw [Function.update_of_ne hjx, Function.update_of_ne hj]
          have : (j = i ∧ ∃ x ∈ l, -g i = g x) ∨ (j ∈ l ∧ -g i = g j) ↔
              (j = i ∧ ∃ y ∈ x :: l, -g i = g y) ∨ (j ∈ x :: l ∧ -g i = g j) := by
            simp [hj, hjx]
          simp only [this]
    · have e : search g i s x = s := by
        unfold search; rw [if_neg hx]
      rw [e] at h1 h2 ⊢
      refine ⟨by rw [h1]; simp [hx], ?_⟩
      intro j
      rw [h2]
      have : (j = i ∧ ∃ x ∈ l, -g i = g x) ∨ (j ∈ l ∧ -g i = g j) ↔
          (j = i ∧ ∃ y ∈ x :: l, -g i = g y) ∨ (j ∈ x :: l ∧ -g i = g j) := by
        constructor
        · rintro (⟨a, y, hy, hgy⟩ | ⟨a, b⟩)
          · exact Or.inl ⟨a, y, List.mem_cons_of_mem _ hy, hgy⟩
          · exact Or.inr ⟨List.mem_cons_of_mem _ a, b⟩
        · rintro (⟨a, y, hy, hgy⟩ | ⟨a, b⟩)
          · rcases List.mem_cons.mp hy with rfl | hy
            · exact absurd hgy hx
            · exact Or.inl ⟨a, y, hy, hgy⟩
          · rcases List.mem_cons.mp a with rfl | a
            · exact absurd b hx
            · exact Or.inr ⟨a, b⟩
      simp only [this]

theorem mem_drop_finRange (i j : Fin nk) : j ∈ (List.finRange nk).drop i ↔ i ≤ j := by
  rw [List.mem_iff_getElem]
  constructor
  · rintro ⟨t, ht, h⟩
    rw [List.getElem_drop, List.getElem_finRange] at h
    rw [← h]
    show i.val ≤ i.val + t
    omega
  · intro h
    have hv : i.val ≤ j.val := h
    refine ⟨j.val - i.val, by simp; omega, ?_⟩
    rw [List.getElem_drop, List.getElem_finRange]
    ext
    show i.val + (j.val - i.val) = j.val
    omega

/-- One turn of the loop over waves. -/
theorem prefStep_eq (p : Fin nk → ℝ) (i j : Fin nk) :
    prefStep g p i j = if p i = 0 then
      (if (∃ l, i ≤ l ∧ -g i = g l) then (if j = i ∨ (i ≤ j ∧ -g i = g j) then 1 / 2 else p j)
        else if j = i then 1 else p j) else p j := by
  classical
  unfold prefStep
  by_cases hp : p i = 0
  · rw [if_pos hp, if_pos hp]
    obtain ⟨h1, h2⟩ := search_foldl g i ((List.finRange nk).drop i) (p, false)
    rw [h1]
    by_cases hl : ∃ l, i ≤ l ∧ -g i = g l
    · have hl' : ∃ x ∈ (List.finRange nk).drop i, -g i = g x := by
        obtain ⟨l, h, h'⟩ := hl
        exact ⟨l, (mem_drop_finRange i l).mpr h, h'⟩
      rw [if_pos hl, if_pos (by simpa using hl'), h2]
      have : (j = i ∧ ∃ x ∈ (List.finRange nk).drop i, -g i = g x) ∨
          (j ∈ (List.finRange nk).drop i ∧ -g i = g j) ↔ j = i ∨ (i ≤ j ∧ -g i = g j) := by
        rw [mem_drop_finRange]
        exact or_congr_left (and_iff_left hl')
      simp only [this]
    · have hl' : ¬ ∃ x ∈ (List.finRange nk).drop i, -g i = g x := by
        rintro ⟨l, h, h'⟩
        exact hl ⟨l, (mem_drop_finRange i l).mp h, h'⟩
      rw [if_neg hl, if_neg (by simpa using hl')]
      by_cases hj : j = i
      · rw [if_pos hj, hj, Function.update_self]
      · rw [if_neg hj, Function.update_of_ne hj, h2, if_neg]
        rintro (⟨h, -⟩ | ⟨h, h'⟩)
        · exact hj h
        · exact hl ⟨j, (mem_drop_finRange i j).mp h, h'⟩
  · rw [if_neg hp, if_neg hp]

/-- Prefactors of a fresh array: one half for a wave whose negative occurs in the list, else one. -/
theorem computePrefactor_eq (hg : Function.Injective g) (j : Fin nk) :
    computePrefactor g (fun _ => 0) j = if ∃ l, -g j = g l then 1 / 2 else 1 := by
  have key : ∀ t, t ≤ nk → ∀ j : Fin nk, ((List.finRange nk).take t).foldl (prefStep g) (fun _ => 0) j =
      if j.val < t then (if ∃ l, -g j = g l then 1 / 2 else 1)
      else if ∃ l : Fin nk, l.val < t ∧ -g l = g j then 1 / 2 else 0 := by
    intro t
    induction t with
    | zero =>
      intro _ j
      rw [if_neg (Nat.not_lt_zero _), if_neg]
      · rfl
      · rintro ⟨l, h, -⟩
        exact absurd h (Nat.not_lt_zero _)
    | succ t ih =>
      intro ht j
      have hlt : t < (List.finRange nk).length := by simpa using ht
      rw [List.take_succ_eq_append_getElem hlt, List.foldl_append, List.foldl_cons, List.foldl_nil,
        prefStep_eq, List.getElem_finRange]
      generalize hi : Fin.cast _ (⟨t, hlt⟩ : Fin _) = i
      have hit : i.val = t := by rw [← hi]; rfl
      rw [ih (by omega) i, ih (by omega) j, hit, if_neg (lt_irrefl t)]
      -- later waves: an earlier partner other than `i`
      have later : ¬ j.val < t → j ≠ i → ¬ -g i = g j →
          ((∃ l : Fin nk, l.val < t ∧ -g l = g j) ↔ ∃ l : Fin nk, l.val < t + 1 ∧ -g l = g j) := by
        intro hj hji hgj
        constructor
        · rintro ⟨x, h, h'⟩; exact ⟨x, by omega, h'⟩
        · rintro ⟨x, h, h'⟩
          by_cases hx : x.val < t
          · exact ⟨x, hx, h'⟩
          · have : x = i := Fin.ext (by omega)
            subst this
            exact absurd h' hgj
      by_cases hb : ∃ l : Fin nk, l.val < t ∧ -g l = g i
      · rw [if_pos hb, if_neg (by norm_num)]
        obtain ⟨l, hl, hgl⟩ := hb
        have hex : ∃ l, -g i = g l := ⟨l, by rw [← hgl, neg_neg]⟩
        by_cases hj : j.val < t
        · rw [if_pos hj, if_pos (show j.val < t + 1 by omega)]
        · by_cases hj' : j = i
          · subst hj'
            rw [if_neg hj, if_pos ⟨l, hl, hgl⟩, if_pos (show j.val < t + 1 by omega), if_pos hex]
          · have hne : j.val ≠ t := fun h => hj' (Fin.ext (h.trans hit.symm))
            rw [if_neg hj, if_neg (show ¬ j.val < t + 1 by omega)]
            have hgj : ¬ -g i = g j := by
              intro h
              rw [← hgl, neg_neg] at h
              have := hg h
              subst this
              exact hj hl
            simp only [later hj hj' hgj]
      · rw [if_neg hb, if_pos rfl]
        by_cases hl : ∃ l, i ≤ l ∧ -g i = g l
        · rw [if_pos hl]
          by_cases hji : j = i
          · subst hji
            obtain ⟨l, -, h⟩ := hl
            rw [if_pos (Or.inl rfl), if_pos (show j.val < t + 1 by omega), if_pos ⟨l, h⟩]
          · have hne : j.val ≠ t := fun h => hji (Fin.ext (h.trans hit.symm))
            by_cases hj : j.val < t
            · rw [if_neg, if_pos hj, if_pos (show j.val < t + 1 by omega)]
              rintro (h | ⟨h, -⟩)
              · exact hji h
              · have : i.val ≤ j.val := h
                omega
            · have hle : i ≤ j := show i.val ≤ j.val by omega
              by_cases hgj : -g i = g j
              · rw [if_pos (Or.inr ⟨hle, hgj⟩), if_neg (show ¬ j.val < t + 1 by omega),
                  if_pos ⟨i, by omega, hgj⟩]
              · rw [if_neg, if_neg hj, if_neg (show ¬ j.val < t + 1 by omega)]
                · simp only [later hj hji hgj]
                · rintro (h | ⟨-, h⟩)
                  · exact hji h
                  · exact hgj h
        · rw [if_neg hl]
          by_cases hji : j = i
          · subst hji
            rw [if_pos rfl, if_pos (show j.val < t + 1 by omega), if_neg]
            rintro ⟨l, h⟩
            by_cases hlt' : l.val < t
            · exact hb ⟨l, hlt', by rw [← h, neg_neg]⟩
            · exact hl ⟨l, show j.val ≤ l.val by omega, h⟩
          · have hne : j.val ≠ t := fun h => hji (Fin.ext (h.trans hit.symm))
            rw [if_neg hji]
            by_cases hj : j.val < t
            · rw [if_pos hj, if_pos (show j.val < t + 1 by omega)]
            · have hgj : ¬ -g i = g j := fun h => hl ⟨j, show i.val ≤ j.val by omega, h⟩
              rw [if_neg hj, if_neg (show ¬ j.val < t + 1 by omega)]
              simp only [later hj hji hgj]
  have := key nk le_rfl j
  rw [if_pos j.2, List.take_of_length_le (by simp)] at this
  exact this

/-- Prefactors are not computed again: whatever the unit cell at a later call of `setup`, the array stays as
it is. -/
theorem computePrefactor_stale (p : Fin nk → ℝ) (hp : ∀ i, p i ≠ 0) : computePrefactor g p = p := by
  unfold computePrefactor
  induction List.finRange nk with
  | nil => rfl
  | cons x l ih =>
    rw [List.foldl_cons]
    have : prefStep g p x = p := by
      funext j
      rw [prefStep_eq, if_neg (hp x)]
    rw [this]
    exact ih

end Pref

/-! ## Sums over pairs of waves -/

section

variable {m : Nat} {N : Fin (m + 1) → Nat} [∀ d, NeZero (N d)] {n : Nat} (en : Fin n ≃ Grid N)

/-- Squared amplitude of a wave of the full mesh. -/
noncomputable def amp (q : Fld n ℝ) (k : Grid N) : ℝ := Complex.normSq (coef en q k)

theorem amp_neg (q : Fld n ℝ) (k : Grid N) : amp en q (-k) = amp en q k := by
  unfold amp
  rw [coef_neg, Complex.normSq_conj]

/-- `Σ |W(G)|⁴` over the pairs `{G, -G}` of nonzero waves of the mesh: a wave that differs from its
inverse counts one half, and so does its inverse. -/
noncomputable def pairSum (q : Fld n ℝ) : ℝ :=
  ∑ k : Grid N, if k = 0 then 0 else (if -k = k then 1 else 1 / 2) * amp en q k ^ 2

open Classical in
/-- The sum over pairs as a sum over the half mesh. -/
theorem pairSum_half (q : Fld n ℝ) : pairSum en q = ∑ k : Half N, if k.1 = 0 then 0 else
    (if Stored (-k.1) then (if -k.1 = k.1 then 1 else 1 / 2) else 1) * amp en q k.1 ^ 2 := by
  let G : Grid N → ℝ := fun k => if k = 0 then 0 else (if -k = k then 1 else 1 / 2) * amp en q k ^ 2
  have hG : ∀ k, G (-k) = G k := by
    intro k
    simp only [G, neg_eq_zero, amp_neg, neg_neg]
    by_cases h : -k = k
    · rw [if_pos h, if_pos h.symm]
    · have h' : ¬ k = -k := fun h' => h h'.symm
      simp only [if_neg h, if_neg h']
  have h1 : ∑ k : Grid N, G k = ∑ k : Grid N, (if Stored k then G k else 0) +
      ∑ k : Grid N, (if Stored k then 0 else G k) := by
    rw [← Finset.sum_add_distrib]
    apply Finset.sum_congr rfl
    intro k _
    split_ifs <;> simp
  have h2 : ∑ k : Grid N, (if Stored k then 0 else G k) = ∑ k : Grid N, (if Stored (-k) then 0 else G k) := by
    rw [← Equiv.sum_comp (Equiv.neg (Grid N))]
    apply Finset.sum_congr rfl
    intro k _
    simp only [Equiv.neg_apply, hG]
  have h3 : pairSum en q = ∑ k : Grid N, if Stored k then (G k + if Stored (-k) then 0 else G k) else 0 := by
    show ∑ k : Grid N, G k = _
    rw [h1, h2, ← Finset.sum_add_distrib]
    apply Finset.sum_congr rfl
    intro k _
    by_cases h : Stored k
    · rw [if_pos h, if_pos h]
    · rw [if_neg h, if_neg h, if_pos (stored_neg h), add_zero]
  rw [h3, ← Finset.sum_filter, Finset.sum_subtype (p := Stored) _ (by simp)]
  apply Finset.sum_congr rfl
  intro k _
  simp only [G]
  by_cases h0 : k.1 = 0
  · simp [h0]
  · by_cases hs : Stored (-k.1)
    · simp [h0, hs]
    · have hne : -k.1 ≠ k.1 := fun h => hs (by rw [h]; exact k.2)
      simp only [if_neg h0, if_neg hs, if_neg hne]
      ring

/-- Images that represent the waves. -/
def Cong (g : Half N → Fin (m + 1) → Int) : Prop := ∀ k d, ((g k d : Int) : ZMod (N d)) = k.1 d

/-- A wave whose inverse is on the half mesh as well, but is represented by another vector than the
negative. -/
def Split (g : Half N → Fin (m + 1) → Int) (k : Half N) : Prop :=
  ∃ h : Stored (-k.1), -k.1 ≠ k.1 ∧ -g k ≠ g ⟨-k.1, h⟩

theorem Cong.injective {g : Half N → Fin (m + 1) → Int} (hg : Cong g) : Function.Injective g := by
  intro a b h
  apply Subtype.ext
  funext d
  rw [← hg a d, ← hg b d, h]

/-- Existence of the negative, in terms of the inverse wave. -/
theorem Cong.neg_iff {g : Half N → Fin (m + 1) → Int} (hg : Cong g) (k : Half N) :
    (∃ l, -g k = g l) ↔ ∃ h : Stored (-k.1), -g k = g ⟨-k.1, h⟩ := by
  constructor
  · rintro ⟨l, h⟩
    have : l.1 = -k.1 := by
      funext d
      rw [← hg l d, ← h, Pi.neg_apply, Pi.neg_apply, ← hg k d]
      push_cast
      rfl
    have hs : Stored (-k.1) := by rw [← this]; exact l.2
    exact ⟨hs, by rw [h]; congr 1; exact Subtype.ext this⟩
  · rintro ⟨h, e⟩
    exact ⟨_, e⟩

/-- A wave that is its own inverse is not represented by the negative, except zero. -/
theorem Cong.self {g : Half N → Fin (m + 1) → Int} (hg : Cong g) (k : Half N) (hk : k.1 ≠ 0)
    (h : -k.1 = k.1) : ¬ ∃ l, -g k = g l := by
  rw [hg.neg_iff]
  rintro ⟨hs, e⟩
  have : (⟨-k.1, hs⟩ : Half N) = k := Subtype.ext h
  rw [this] at e
  apply hk
  funext d
  have hd : g k d = 0 := by
    have := congrFun e d
    rw [Pi.neg_apply] at this
    omega
  rw [← hg k d, hd]
  simp

variable {r : Nat} (eh : Fin (r + 1) ≃ Half N) (h0 : (eh 0).1 = 0)
include h0

open Classical in
/-- C101: the fourth power of the value is the sum over pairs plus one more half for each wave of a split
pair. -/
theorem C101_fourth_value (g : Half N → Fin (m + 1) → Int) (hg : Cong g) (q : Fld n ℝ) :
    fourthOrder en eh (computePrefactor (g ∘ eh) fun _ => 0) q =
      (pairSum en q + ∑ k : Half N, if Split g k then 1 / 2 * amp en q k.1 ^ 2 else 0) ^ (1 / 4 : ℝ) := by
  unfold fourthOrder
  dsimp only
  congr 1
  rw [accum_eq, zero_add]
  have hw : ∀ i, computePrefactor (g ∘ eh) (fun _ => 0) i = if ∃ l, -g (eh i) = g l then 1 / 2 else 1 := by
    intro i
    rw [computePrefactor_eq _ (hg.injective.comp eh.injective)]
    have : (∃ l, -(g ∘ eh) i = (g ∘ eh) l) ↔ ∃ l, -g (eh i) = g l :=
      ⟨fun ⟨l, h⟩ => ⟨eh l, h⟩, fun ⟨l, h⟩ => ⟨eh.symm l, by simpa using h⟩⟩
    simp only [this]
  let H : Half N → ℝ := fun k => if k.1 = 0 then 0 else
    (if ∃ l, -g k = g l then 1 / 2 else 1) * amp en q k.1 ^ 2
  have h1 : ∑ i : Fin r, Complex.normSq (r2c en q (eh i.succ)) * Complex.normSq (r2c en q (eh i.succ)) *
      computePrefactor (g ∘ eh) (fun _ => 0) i.succ = ∑ k : Half N, H k := by
    rw [← Equiv.sum_comp eh, Fin.sum_univ_succ]
    have hz : H (eh 0) = 0 := if_pos h0
    rw [hz, zero_add]
    apply Finset.sum_congr rfl
    intro i _
    have hne : (eh i.succ).1 ≠ 0 := by
      intro h
      have h2 : eh i.succ = eh 0 := Subtype.ext (h.trans h0.symm)
      exact Fin.succ_ne_zero i (eh.injective h2)
    simp only [H]
    rw [if_neg hne, hw]
    have ha : Complex.normSq (r2c en q (eh i.succ)) = amp en q (eh i.succ).1 := rfl
    rw [ha]
    ring
  rw [h1, pairSum_half, ← Finset.sum_add_distrib]
  apply Finset.sum_congr rfl
  intro k _
  simp only [H]
  by_cases hk : k.1 = 0
  · have hns : ¬ Split g k := by
      rintro ⟨-, h, -⟩
      exact h (by rw [hk, neg_zero])
    rw [if_pos hk, if_pos hk, if_neg hns, add_zero]
  · rw [if_neg hk, if_neg hk]
    by_cases hs : Stored (-k.1)
    · rw [if_pos hs]
      by_cases hself : -k.1 = k.1
      · have hns : ¬ Split g k := fun ⟨_, h, _⟩ => h hself
        rw [if_neg (hg.self k hk hself), if_pos hself, if_neg hns, add_zero]
      · rw [if_neg hself]
        by_cases he : -g k = g ⟨-k.1, hs⟩
        · have hns : ¬ Split g k := fun ⟨_, _, h⟩ => h he
          rw [if_pos ⟨_, he⟩, if_neg hns, add_zero]
        · have hsp : Split g k := ⟨hs, hself, he⟩
          have hex : ¬ ∃ l, -g k = g l := by
            rw [hg.neg_iff]
            rintro ⟨_, h⟩
            exact he h
          rw [if_neg hex, if_pos hsp]
          ring
    · have hns : ¬ Split g k := fun ⟨h, _⟩ => hs h
      have hex : ¬ ∃ l, -g k = g l := by
        rw [hg.neg_iff]
        rintro ⟨h, _⟩
        exact hs h
      rw [if_neg hs, if_neg hex, if_neg hns, add_zero]

omit h0 in
theorem pairSum_nonneg (q : Fld n ℝ) : 0 ≤ pairSum en q := by
  unfold pairSum
  apply Finset.sum_nonneg
  intro k _
  split_ifs <;> positivity

/-- A field that is one at the origin and zero elsewhere has all amplitudes equal. -/
theorem amp_delta (k : Grid N) : amp en (fun i => if en i = 0 then 1 else 0) k = (1 / (n : ℝ)) ^ 2 := by
  unfold amp coef
  have : ∑ i, (((if en i = 0 then 1 else 0 : ℝ)) : ℂ) * (starRingEnd ℂ) (wave k (en i)) = 1 := by
    rw [Equiv.sum_comp en (fun x => (((if x = 0 then 1 else 0 : ℝ)) : ℂ) * (starRingEnd ℂ) (wave k x)),
      Finset.sum_eq_single 0]
    · simp [wave]
    · intro x _ hx
      simp [hx]
    · simp
  rw [this, one_mul, Complex.normSq_ofReal]
  ring

/-- C101: the value is the fourth root of the sum over pairs, for all fields, exactly if no pair is
split. -/
theorem C101_fourth_iff (g : Half N → Fin (m + 1) → Int) (hg : Cong g) :
    (∀ q, fourthOrder en eh (computePrefactor (g ∘ eh) fun _ => 0) q = pairSum en q ^ (1 / 4 : ℝ)) ↔
      ∀ k, ¬ Split g k := by
  classical
  constructor
  · intro h k hk
    have h1 := h (fun i => if en i = 0 then 1 else 0)
    rw [C101_fourth_value en eh h0 g hg] at h1
    have hn : 0 < n := by
      have : Nonempty (Fin n) := ⟨en.symm 0⟩
      exact Fin.pos_iff_nonempty.mpr this
    have hpos : 0 < ∑ k : Half N, if Split g k then
        1 / 2 * amp en (fun i => if en i = 0 then 1 else 0) k.1 ^ 2 else 0 := by
      apply Finset.sum_pos'
      · intro k _
        split_ifs <;> positivity
      · refine ⟨k, Finset.mem_univ _, ?_⟩
        rw [if_pos hk, amp_delta en eh h0]
        have : (0 : ℝ) < n := by exact_mod_cast hn
        positivity
    have := Real.rpow_lt_rpow (pairSum_nonneg en (fun i => if en i = 0 then 1 else 0))
      (lt_add_of_pos_right _ hpos) (by norm_num : (0 : ℝ) < 1 / 4)
    rw [h1] at this
    exact lt_irrefl _ this
  · intro h q
    rw [C101_fourth_value en eh h0 g hg]
    congr 1
    rw [Finset.sum_eq_zero, add_zero]
    intro k _
    rw [if_neg (h k)]

/-! ## Maximum -/

/-- C101: with more than one wave on the half mesh, the value is the greatest squared amplitude of the nonzero
waves of the full mesh, and belongs to the reported wave. -/
theorem C101_max (hr : 0 < r) (q : Fld n ℝ) :
    ∃ v i, maxOrder en eh q = .ok (v, i) ∧ v = amp en q (eh i).1 ∧ (eh i).1 ≠ 0 ∧
      ∀ k : Grid N, k ≠ 0 → amp en q k ≤ v := by
  classical
  let psi : Fin (r + 1) → ℝ := fun i => Complex.normSq (r2c en q (eh i))
  have key : ∀ (l : List (Fin (r + 1))) (s : ℝ × Fin (r + 1)), s.1 = psi s.2 →
      let t := l.foldl (fun s i => if psi i > s.1 then (psi i, i) else s) s
      t.1 = psi t.2 ∧ s.1 ≤ t.1 ∧ (∀ i ∈ l, psi i ≤ t.1) ∧ (t.2 = s.2 ∨ t.2 ∈ l) := by
    intro l
    induction l with
    | nil => intro s hs; exact ⟨hs, le_rfl, by simp, Or.inl rfl⟩
    | cons x l ih =>
      intro s hs
      rw [List.foldl_cons]
      by_cases hx : psi x > s.1
      · rw [if_pos hx]
        obtain ⟨a, b, c, d⟩ := ih (psi x, x) rfl
        refine ⟨a, hx.le.trans b, ?_, ?_⟩
        · intro i hi
          rcases List.mem_cons.mp hi with rfl | hi
          · exact b
          · exact c i hi
        · rcases d with d | d
          · exact Or.inr (by rw [d]; exact List.mem_cons_self)
          · exact Or.inr (List.mem_cons_of_mem _ d)
      · rw [if_neg hx]
        obtain ⟨a, b, c, d⟩ := ih s hs
        refine ⟨a, b, ?_, ?_⟩
        · intro i hi
          rcases List.mem_cons.mp hi with rfl | hi
          · exact (not_lt.mp hx).trans b
          · exact c i hi
        · rcases d with d | d
          · exact Or.inl d
          · exact Or.inr (List.mem_cons_of_mem _ d)
  have h1 : 1 < r + 1 := by omega
  have hmem : ∀ i : Fin (r + 1), i ∈ (List.finRange (r + 1)).drop 2 ↔ 2 ≤ i.val := by
    intro i
    rw [List.mem_iff_getElem]
    constructor
    · rintro ⟨t, ht, h⟩
      rw [List.getElem_drop, List.getElem_finRange] at h
      rw [← h]
      show 2 ≤ 2 + t
      omega
    · intro h
      refine ⟨i.val - 2, by simp; omega, ?_⟩
      rw [List.getElem_drop, List.getElem_finRange]
      ext
      show 2 + (i.val - 2) = i.val
      omega
  obtain ⟨a, b, c, d⟩ := key ((List.finRange (r + 1)).drop 2) (psi ⟨1, h1⟩, ⟨1, h1⟩) rfl
  refine ⟨_, _, by unfold maxOrder; rw [dif_pos h1], a, ?_, ?_⟩
  · intro h
    have h2 : eh _ = eh 0 := Subtype.ext (h.trans h0.symm)
    have h3 := eh.injective h2
    rcases d with d | d
    · rw [d] at h3
      exact absurd (congrArg Fin.val h3) (by simp)
    · rw [h3, hmem] at d
      exact absurd d (by simp)
  · intro k hk
    have hh : ∀ k : Half N, k.1 ≠ 0 → amp en q k.1 ≤
        (((List.finRange (r + 1)).drop 2).foldl (fun s i => if psi i > s.1 then (psi i, i) else s)
          (psi ⟨1, h1⟩, ⟨1, h1⟩)).1 := by
      intro k hk
      obtain ⟨i, rfl⟩ := eh.surjective k
      have hi : i ≠ 0 := fun h => hk (by rw [h]; exact h0)
      by_cases hi1 : i.val = 1
      · have : i = ⟨1, h1⟩ := Fin.ext hi1
        rw [this]
        exact b
      · have hi0 : i.val ≠ 0 := fun h => hi (Fin.ext h)
        exact c i ((hmem i).mpr (by omega))
    by_cases hs : Stored k
    · exact hh ⟨k, hs⟩ hk
    · rw [← amp_neg]
      exact hh ⟨-k, stored_neg hs⟩ (neg_ne_zero.mpr hk)

/-- With a single wave the function reads beyond the end of an array. -/
theorem C101_max_single (hr : r = 0) (q : Fld n ℝ) : maxOrder en eh q = .ub := by
  subst hr
  rfl

end

/-! ## The images chosen by `shiftToMinimum` -/

section

variable {m : Nat} {N : Fin (m + 1) → Nat} [∀ d, NeZero (N d)]

/-- The chosen images represent the waves. -/
theorem gmin_cong (kB : Crystal.BasisVecs (m + 1)) : Cong (N := N) (gmin kB) := by
  intro k d
  unfold gmin
  have key : ∃ s : Int, Crystal.shiftToMinimum kB (fun d => ((k.1 d).val : Int)) (fun d => (N d : Int)) d =
      ((k.1 d).val : Int) + s * (N d : Int) := by
    rcases Nat.eq_zero_or_pos m with rfl | hm
    · have hN : 0 < N 0 := Nat.pos_of_ne_zero (NeZero.ne _)
      have hlt := ZMod.val_lt (k.1 0)
      obtain ⟨⟨s, hs⟩, -⟩ := Crystal.C39_one_dimension ((k.1 0).val : Int) (N 0 : Int) (by exact_mod_cast hN)
        (by rw [abs_of_nonneg (by positivity)]; omega)
      have hd : d = 0 := Fin.ext (by have := d.isLt; simp only [Fin.val_zero]; omega)
      subst hd
      exact ⟨s, hs⟩
    · obtain ⟨⟨s, -, hs⟩, -⟩ := Crystal.C39_shiftToMinimum (by omega) kB
        (fun d => ((k.1 d).val : Int)) (fun d => (N d : Int))
      exact ⟨s d, hs d⟩
  obtain ⟨s, hs⟩ := key
  rw [hs]
  push_cast
  rw [ZMod.natCast_self, mul_zero, add_zero, ZMod.natCast_zmod_val]

end

/-- C101: in one dimension no pair is split, and the fourth order parameter is the fourth root of the sum
over pairs. -/
theorem C101_fourth_one_dimension {N : Fin 1 → Nat} [∀ d, NeZero (N d)] {n r : Nat} (en : Fin n ≃ Grid N)
    (eh : Fin (r + 1) ≃ Half N) (h0 : (eh 0).1 = 0) (kB : Crystal.BasisVecs 1) (q : Fld n ℝ) :
    fourthOrder en eh (computePrefactor (gmin kB ∘ eh) fun _ => 0) q = pairSum en q ^ (1 / 4 : ℝ) := by
  refine (C101_fourth_iff en eh h0 _ (gmin_cong kB)).mpr ?_ q
  rintro k ⟨hs, hne, -⟩
  have hk := k.2
  apply hne
  funext d
  have hd : d = 0 := Fin.ext (by have := d.isLt; simp only [Fin.val_zero]; omega)
  subst hd
  change ((-k.1 : Grid N) 0).val ≤ N 0 / 2 at hs
  change (k.1 0).val ≤ N 0 / 2 at hk
  rw [Pi.neg_apply, ZMod.neg_val] at hs
  rw [Pi.neg_apply]
  split_ifs at hs with hz
  · rw [hz, neg_zero]
  · apply ZMod.val_injective
    rw [ZMod.neg_val, if_neg hz]
    have := ZMod.val_lt (k.1 0)
    omega

/-- The value with the code's images, in any dimension, when no pair is split. Missing for the full claim:
pairs may be split, see `C101_fourth_violated`. -/
theorem C101_fourth_partial {m : Nat} {N : Fin (m + 1) → Nat} [∀ d, NeZero (N d)] {n r : Nat}
    (en : Fin n ≃ Grid N) (eh : Fin (r + 1) ≃ Half N) (h0 : (eh 0).1 = 0) (kB : Crystal.BasisVecs (m + 1))
    (hodd : ∀ k : Half N, ∀ h : Stored (-k.1), -k.1 ≠ k.1 → gmin kB ⟨-k.1, h⟩ = -gmin kB k) (q : Fld n ℝ) :
    fourthOrder en eh (computePrefactor (gmin kB ∘ eh) fun _ => 0) q = pairSum en q ^ (1 / 4 : ℝ) :=
  (C101_fourth_iff en eh h0 _ (gmin_cong kB)).mpr
    (fun k ⟨hs, hne, h⟩ => h (hodd k hs hne).symm) q

/-! ## A square cell on a mesh of 4 by 4 points -/

/-- Mesh of the counterexample. -/
abbrev N44 : Fin 2 → Nat := ![4, 4]

instance : ∀ d, NeZero (N44 d) := by
  intro d
  fin_cases d <;> exact ⟨by decide⟩

/-- Reciprocal basis of a square cell of side one. -/
noncomputable abbrev kSquare : Crystal.BasisVecs 2 := Crystal.Lat2.kBasis .square fun _ => 1

theorem ksq_square (u : Fin 2 → Int) :
    Crystal.ksq kSquare u = Crystal.twoPi ^ 2 * ((u 0 ^ 2 + u 1 ^ 2 : Int) : ℝ) := by
  rw [Crystal.ksq_eq]
  simp [kSquare, Crystal.Lat2.kBasis, Fin.sum_univ_two]
  ring

theorem one_lt_twoPi : (1 : ℝ) < Crystal.twoPi ^ 2 := by
  have h := Real.pi_gt_three
  unfold Crystal.twoPi
  nlinarith

/-- The shortest images of two inverse waves. -/
theorem square_image (v : Fin 2 → Int) (hv : v = ![1, 2] ∨ v = ![3, 2]) :
    Crystal.shiftToMinimum kSquare v (fun d => (N44 d : Int)) =
      if v = ![1, 2] then ![1, 2] else ![-1, 2] := by
  have hp := one_lt_twoPi
  have hmin := Crystal.C39_shortest_and_greatest (Crystal.ksq kSquare) (1 / 100000000) (by norm_num) v
    (fun d => (N44 d : Int)) (by
      intro s t _ _ h
      rw [ksq_square, ksq_square] at h ⊢
      have h1 := lt_of_mul_lt_mul_left h (by positivity)
      have h2 : ((Crystal.image v (fun d => (N44 d : Int)) s 0 ^ 2 +
          Crystal.image v (fun d => (N44 d : Int)) s 1 ^ 2 : Int) : ℝ) + 1 ≤
          ((Crystal.image v (fun d => (N44 d : Int)) t 0 ^ 2 +
          Crystal.image v (fun d => (N44 d : Int)) t 1 ^ 2 : Int) : ℝ) := by exact_mod_cast h1
      nlinarith)
  obtain ⟨s, hs, he⟩ := Crystal.C39_congruent (Crystal.ksq kSquare) (1 / 100000000) v (fun d => (N44 d : Int))
  show Crystal.minImage (Crystal.ksq kSquare) (1 / 100000000) v (fun d => (N44 d : Int)) = _
  generalize Crystal.minImage (Crystal.ksq kSquare) (1 / 100000000) v (fun d => (N44 d : Int)) = w at hmin he
  have cmp : ∀ t : Fin 2 → Int, (∀ i, -2 ≤ t i ∧ t i ≤ 2) →
      w 0 ^ 2 + w 1 ^ 2 ≤ (v 0 + t 0 * 4) ^ 2 + (v 1 + t 1 * 4) ^ 2 ∧
      ((v 0 + t 0 * 4) ^ 2 + (v 1 + t 1 * 4) ^ 2 = w 0 ^ 2 + w 1 ^ 2 →
        Crystal.ivLt w ![v 0 + t 0 * 4, v 1 + t 1 * 4] = false) := by
    intro t ht
    obtain ⟨a, b⟩ := hmin t ht
    have hfun : (fun i => v i + t i * (fun d => (N44 d : Int)) i) = ![v 0 + t 0 * 4, v 1 + t 1 * 4] := by
      funext i
      fin_cases i <;> rfl
    rw [hfun] at a b
    rw [ksq_square, ksq_square] at a b
    constructor
    · have := le_of_mul_le_mul_left a (by positivity)
      exact_mod_cast this
    · intro h
      apply b
      congr 2
      
  have e0 : w 0 = v 0 + s 0 * 4 := he 0
  have e1 : w 1 = v 1 + s 1 * 4 := he 1
  have hw : w = ![w 0, w 1] := by
    funext i
    fin_cases i <;> rfl
  rw [hw]
  rcases hv with rfl | rfl
  · rw [if_pos rfl]
    obtain ⟨a, b⟩ := cmp ![0, 0] (by intro i; fin_cases i <;> simp)
    simp only [Matrix.cons_val_zero, Matrix.cons_val_one] at a b e0 e1
    have h0 := hs 0
    have h1 := hs 1
    have hs0 : s 0 = 0 := by
      have : (1 + s 0 * 4) ^ 2 ≤ 5 := by rw [← e0]; nlinarith [sq_nonneg (w 1)]
      rcases lt_trichotomy (s 0) 0 with h | h | h
      · nlinarith
      · exact h
      · nlinarith
    have hs1 : s 1 = 0 ∨ s 1 = -1 := by
      have : (2 + s 1 * 4) ^ 2 ≤ 4 := by
        rw [hs0] at e0
        rw [e0, e1] at a
        linarith
      have h2 : -1 ≤ s 1 := by nlinarith
      have h3 : s 1 ≤ 0 := by nlinarith
      omega
    rw [hs0] at e0
    rcases hs1 with h | h
    · rw [e0, e1, h]; norm_num
    · rw [h] at e1
      exfalso
      have := b (by rw [e0, e1]; norm_num)
      rw [hw, e0, e1] at this
      revert this
      decide
  · rw [if_neg (by decide)]
    obtain ⟨a, b⟩ := cmp ![-1, 0] (by intro i; fin_cases i <;> simp)
    simp only [Matrix.cons_val_zero, Matrix.cons_val_one] at a b e0 e1
    have h0 := hs 0
    have h1 := hs 1
    have hs0 : s 0 = -1 := by
      have : (3 + s 0 * 4) ^ 2 ≤ 5 := by rw [← e0]; nlinarith [sq_nonneg (w 1)]
      have h2 : -1 ≤ s 0 := by nlinarith
      have h3 : s 0 ≤ -1 := by nlinarith
      omega
    have hs1 : s 1 = 0 ∨ s 1 = -1 := by
      have : (2 + s 1 * 4) ^ 2 ≤ 4 := by
        rw [hs0] at e0
        rw [e0, e1] at a
        linarith
      have h2 : -1 ≤ s 1 := by nlinarith
      have h3 : s 1 ≤ 0 := by nlinarith
      omega
    rw [hs0] at e0
    rcases hs1 with h | h
    · rw [e0, e1, h]; norm_num
    · rw [h] at e1
      exfalso
      have := b (by rw [e0, e1]; norm_num)
      rw [hw, e0, e1] at this
      revert this
      decide

/-- The wave (1, 2). -/
def k12 : Half N44 := ⟨fun d => ((![1, 2] : Fin 2 → Nat) d : ZMod (N44 d)), by decide⟩

theorem k12_split : Split (gmin kSquare) k12 := by
  have hs : Stored (-k12.1) := by decide
  refine ⟨hs, ?_, ?_⟩
  · intro h
    exact absurd (congrFun h 0) (by decide)
  · have h1 : gmin kSquare k12 = ![1, 2] := by
      have hv : (fun d => ((k12.1 d).val : Int)) = ![1, 2] := by
        funext d
        fin_cases d <;> decide
      unfold gmin
      rw [hv, square_image _ (Or.inl rfl), if_pos rfl]
    have h2 : gmin kSquare ⟨-k12.1, hs⟩ = ![-1, 2] := by
      have hv : (fun d => (((-k12.1 : Grid N44) d).val : Int)) = ![3, 2] := by
        funext d
        fin_cases d <;> decide
      unfold gmin
      rw [hv, square_image _ (Or.inr rfl), if_neg (by decide)]
    rw [h1, h2]
    decide

/-- C101 violated: for a square cell on a mesh of 4 by 4 points the pair (1, 2), (3, 2) counts twice, so some
field has another value than the fourth root of the sum over pairs. -/
theorem C101_fourth_violated {n r : Nat} (en : Fin n ≃ Grid N44) (eh : Fin (r + 1) ≃ Half N44)
    (h0 : (eh 0).1 = 0) :
    ∃ q, fourthOrder en eh (computePrefactor (gmin kSquare ∘ eh) fun _ => 0) q ≠ pairSum en q ^ (1 / 4 : ℝ) := by
  by_contra h
  push Not at h
  exact (C101_fourth_iff en eh h0 _ (gmin_cong kSquare)).mp h k12 k12_split

/-- C101: prefactors of an earlier simulation are not recomputed, whatever the unit cell is now. -/
theorem C101_prefactor_stale {nk D : Nat} (g g' : Fin nk → Fin D → Int) (hg : Function.Injective g) :
    computePrefactor g' (computePrefactor g fun _ => 0) = computePrefactor g fun _ => 0 := by
  apply computePrefactor_stale
  intro i
  rw [computePrefactor_eq _ hg]
  split_ifs <;> norm_num

/-- The enumerations exist for every mesh. -/
theorem exists_ranks {m : Nat} (N : Fin (m + 1) → Nat) [∀ d, NeZero (N d)] :
    ∃ (n r : Nat) (_ : Fin n ≃ Grid N) (eh : Fin (r + 1) ≃ Half N), (eh 0).1 = 0 := by
  classical
  have hz : Stored (0 : Grid N) := by simp [Stored]
  have hc : 0 < Fintype.card (Half N) := Fintype.card_pos_iff.mpr ⟨⟨0, hz⟩⟩
  obtain ⟨r, hr⟩ : ∃ r, Fintype.card (Half N) = r + 1 := ⟨_, (Nat.succ_pred_eq_of_pos hc).symm⟩
  let e := (Fintype.equivFinOfCardEq hr).symm
  refine ⟨_, r, (Fintype.equivFin (Grid N)).symm, (Equiv.swap 0 (e.symm ⟨0, hz⟩)).trans e, ?_⟩
  simp

-- the hypotheses of the theorems above are met for the 4 by 4 mesh
example : ∃ (n r : Nat) (en : Fin n ≃ Grid N44) (eh : Fin (r + 1) ≃ Half N44) (q : Fld n ℝ),
    fourthOrder en eh (computePrefactor (gmin kSquare ∘ eh) fun _ => 0) q ≠ pairSum en q ^ (1 / 4 : ℝ) := by
  obtain ⟨n, r, en, eh, h⟩ := exists_ranks N44
  exact ⟨n, r, en, eh, C101_fourth_violated en eh h⟩

-- prefactors of three waves of a line: 1 and -1 are inverse to each other
example : computePrefactor (nk := 3) (fun i => ![(![2, 1, -1] : Fin 3 → Int) i]) (fun _ => 0) 1 = 1 / 2 := by
  rw [computePrefactor_eq _ (by decide), if_pos ⟨2, by decide⟩]

end Verif.Ana
