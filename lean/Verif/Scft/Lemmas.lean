import Verif.Scft.Model
import Verif.Inter.Props
import Verif.Tac

/-! # Lemmas on the vectors and residuals of the iterators -/

set_option autoImplicit false
set_option linter.unusedSectionVars false

namespace Verif.Scft

open Verif.Inter Verif.Solver

/-! ## Storage -/

section Store

variable {M L : Nat}

theorem foldl_update_get {α : Type} (pos : α → Nat) (val : α → ℝ) (hinj : ∀ a b, pos a = pos b → a = b)
    (v : Nat → ℝ) (a : α) : ∀ l : List α, a ∈ l →
    l.foldl (fun v x => Function.update v (pos x) (val x)) v (pos a) = val a := by
  intro l
  induction l using List.reverseRecOn with
  | nil => simp
  | append_singleton l b ih =>
    intro h
    rw [List.foldl_append, List.foldl_cons, List.foldl_nil]
    by_cases e : pos a = pos b
    · rw [e, Function.update_self, hinj _ _ e]
    · rw [Function.update_of_ne e]
      apply ih
      rcases List.mem_append.1 h with h | h
      · exact h
      · rw [List.mem_singleton] at h
        exact absurd (by rw [h]) e

theorem foldl_update_out {α : Type} (pos : α → Nat) (val : α → ℝ) (x : Nat) :
    ∀ (l : List α) (v : Nat → ℝ), (∀ a ∈ l, pos a ≠ x) →
    l.foldl (fun v x => Function.update v (pos x) (val x)) v x = v x
  | [], _, _ => rfl
  | a :: l, v, h => by
    rw [List.foldl_cons, foldl_update_out pos val x l _ (fun b hb => h b (List.mem_cons_of_mem _ hb)),
      Function.update_of_ne (h a List.mem_cons_self).symm]

theorem pos_inj {i i' k k' : Nat} (hk : k < L) (hk' : k' < L) (h : i * L + k = i' * L + k') :
    i = i' ∧ k = k' := by
  have h1 : (i * L + k) / L = i := by
    rw [Nat.mul_comm, Nat.mul_add_div (by omega), Nat.div_eq_of_lt hk]; omega
  have h2 : (i' * L + k') / L = i' := by
    rw [Nat.mul_comm, Nat.mul_add_div (by omega), Nat.div_eq_of_lt hk']; omega
  rw [h, h2] at h1
  subst h1
  exact ⟨rfl, by omega⟩

theorem storeFields_get (f : Fin M → Fld L ℝ) (v : Nat → ℝ) (i : Fin M) (k : Fin L) :
    storeFields f v (i.val * L + k.val) = f i k := by
  unfold storeFields
  suffices h : ∀ l : List (Fin M), i ∈ l → l.foldl (fun v i => (List.finRange L).foldl
      (fun v k => Function.update v (i.val * L + k.val) (f i k)) v) v (i.val * L + k.val) = f i k from
    h _ (List.mem_finRange i)
  intro l
  induction l using List.reverseRecOn with
  | nil => simp
  | append_singleton l b ih =>
    intro h
    rw [List.foldl_append, List.foldl_cons, List.foldl_nil]
    by_cases e : i = b
    · subst e
      exact foldl_update_get (fun k : Fin L => i.val * L + k.val) (fun k => f i k)
        (fun a b hab => Fin.ext (by omega)) _ k _ (List.mem_finRange k)
    · rw [foldl_update_out (fun k : Fin L => b.val * L + k.val) (fun k => f b k)]
      · apply ih
        rcases List.mem_append.1 h with h | h
        · exact h
        · rw [List.mem_singleton] at h
          exact absurd h e
      · intro a _ hab
        exact e (Fin.ext (pos_inj a.2 k.2 hab).1.symm)

variable (flag : Nat → Bool) (val : Nat → ℝ)

theorem nFlex_le {i j : Nat} (h : i ≤ j) : nFlex flag i ≤ nFlex flag j := by
  induction j with
  | zero => have : i = 0 := by omega
            rw [this]
  | succ j ih =>
    rcases Nat.lt_or_ge j i with h1 | h1
    · have : i = j + 1 := by omega
      rw [this]
    · exact Nat.le_trans (ih h1) (by rw [nFlex]; omega)

theorem nFlex_lt {i j : Nat} (h : i < j) (hf : flag i = true) : nFlex flag i < nFlex flag j := by
  have := nFlex_le flag (show i + 1 ≤ j from h)
  rw [nFlex, if_pos hf] at this
  omega

theorem nFlex_le_self (i : Nat) : nFlex flag i ≤ i := by
  induction i with
  | zero => simp [nFlex]
  | succ i ih => rw [nFlex]; split <;> omega

theorem storeFlex_low : ∀ (t i pos : Nat) (v : Nat → ℝ) (x : Nat), x < pos →
    storeFlex flag val t i pos v x = v x
  | 0, _, _, _, _, _ => rfl
  | t + 1, i, pos, v, x, h => by
    rw [storeFlex]
    split
    · rw [storeFlex_low t _ _ _ _ (by omega), Function.update_of_ne (by omega)]
    · exact storeFlex_low t _ _ _ _ h

theorem storeFlex_get (b : Nat) : ∀ (t i : Nat) (v : Nat → ℝ) (j : Nat), i ≤ j → j < i + t →
    flag j = true → storeFlex flag val t i (b + nFlex flag i) v (b + nFlex flag j) = val j
  | 0, _, _, _, _, _, _ => by omega
  | t + 1, i, v, j, h1, h2, hf => by
    rw [storeFlex]
    have e : b + nFlex flag i + (if flag i then 1 else 0) = b + nFlex flag (i + 1) := by
      rw [nFlex]; omega
    rcases Nat.lt_or_ge i j with h3 | h3
    · split
      · rename_i h
        rw [if_pos h] at e
        rw [e]
        exact storeFlex_get b t (i + 1) _ j h3 (by omega) hf
      · rename_i h
        rw [if_neg h, Nat.add_zero] at e
        rw [e]
        exact storeFlex_get b t (i + 1) _ j h3 (by omega) hf
    · have : i = j := by omega
      subst this
      rw [if_pos hf, storeFlex_low flag val t _ _ _ _ (by omega), Function.update_self]

theorem loadFlex_low (coeff : ℝ) (y : Nat → ℝ) : ∀ (t i pos : Nat) (p : Nat → ℝ) (x : Nat),
    x < i → loadFlex flag coeff y t i pos p x = p x
  | 0, _, _, _, _, _ => rfl
  | t + 1, i, pos, p, x, h => by
    rw [loadFlex]
    split
    · rw [loadFlex_low coeff y t _ _ _ _ (by omega), Function.update_of_ne (by omega)]
    · exact loadFlex_low coeff y t _ _ _ _ (by omega)

theorem loadFlex_get (coeff : ℝ) (y : Nat → ℝ) (b : Nat) : ∀ (t i : Nat) (p : Nat → ℝ) (j : Nat),
    i ≤ j → j < i + t → loadFlex flag coeff y t i (b + nFlex flag i) p j =
      if flag j then coeff * y (b + nFlex flag j) else p j
  | 0, _, _, _, _, _ => by omega
  | t + 1, i, p, j, h1, h2 => by
    rw [loadFlex]
    have e : b + nFlex flag i + (if flag i then 1 else 0) = b + nFlex flag (i + 1) := by
      rw [nFlex]; omega
    rcases Nat.lt_or_ge i j with h3 | h3
    · split
      · rename_i h
        rw [if_pos h] at e
        rw [e, loadFlex_get coeff y b t (i + 1) _ j h3 (by omega),
          Function.update_of_ne (by omega)]
      · rename_i h
        rw [if_neg h, Nat.add_zero] at e
        rw [e, loadFlex_get coeff y b t (i + 1) _ j h3 (by omega)]
    · have : i = j := by omega
      subst this
      split
      · rw [loadFlex_low flag coeff y t _ _ _ _ (by omega), Function.update_self]
      · rw [loadFlex_low flag coeff y t _ _ _ _ (by omega)]

theorem loadFlex_high (coeff : ℝ) (y : Nat → ℝ) : ∀ (t i pos : Nat) (p : Nat → ℝ) (x : Nat),
    i + t ≤ x → loadFlex flag coeff y t i pos p x = p x
  | 0, _, _, _, _, _ => rfl
  | t + 1, i, pos, p, x, h => by
    rw [loadFlex]
    split
    · rw [loadFlex_high coeff y t _ _ _ _ (by omega), Function.update_of_ne (by omega)]
    · exact loadFlex_high coeff y t _ _ _ _ (by omega)

end Store

/-! ## Positions in a vector -/

section Pack

variable {M L : Nat} (P : Prob M)

/-- Position of element `k` of the field of monomer type `i`. -/
def fieldPos (i : Fin M) (k : Fin L) : Fin (nElements P L) :=
  ⟨i.val * L + k.val, by
    have h1 : i.val * L + L ≤ M * L := by
      have := Nat.mul_le_mul_right L (show i.val + 1 ≤ M from i.2)
      rw [Nat.succ_mul] at this
      exact this
    have h2 := k.2
    unfold nElements
    omega⟩

/-- Position of a flexible parameter. -/
def cellPos (hf : P.isFlexible = true) (j : Nat) (hj : j < P.nParam) (hfl : P.flexible j = true) :
    Fin (nElements P L) :=
  ⟨M * L + nFlex P.flexible j, by
    have := nFlex_lt P.flexible hj hfl
    unfold nElements
    rw [if_pos hf]
    omega⟩

theorem pack_field (f : Fin M → Fld L ℝ) (val : Nat → ℝ) (i : Fin M) (k : Fin L) :
    pack P f val (fieldPos P i k) = f i k := by
  have h1 : i.val * L + L ≤ M * L := by
    have := Nat.mul_le_mul_right L (show i.val + 1 ≤ M from i.2)
    rw [Nat.succ_mul] at this
    exact this
  have h2 := k.2
  unfold pack fieldPos
  simp only
  split
  · rw [storeFlex_low _ _ _ _ _ _ _ (by omega), storeFields_get]
  · rw [storeFields_get]

theorem pack_cell (f : Fin M → Fld L ℝ) (val : Nat → ℝ) (hf : P.isFlexible = true) (j : Nat)
    (hj : j < P.nParam) (hfl : P.flexible j = true) :
    pack P f val (cellPos P hf j hj hfl) = val j := by
  unfold pack cellPos
  simp only [hf, if_true]
  exact storeFlex_get P.flexible val (M * L) P.nParam 0 _ j (by omega) (by omega) hfl

theorem exists_flex (flag : Nat → Bool) : ∀ (p c : Nat), c < nFlex flag p →
    ∃ j, j < p ∧ flag j = true ∧ nFlex flag j = c
  | 0, c, h => by simp [nFlex] at h
  | p + 1, c, h => by
    rw [nFlex] at h
    by_cases h1 : c < nFlex flag p
    · obtain ⟨j, h2, h3⟩ := exists_flex flag p c h1
      exact ⟨j, by omega, h3⟩
    · by_cases hf : flag p = true
      · rw [if_pos hf] at h
        exact ⟨p, by omega, hf, by omega⟩
      · rw [if_neg hf] at h
        omega

/-- Every position holds an element of a field or a flexible parameter. -/
theorem pos_cases (x : Fin (nElements P L)) :
    (∃ i k, x = fieldPos P i k) ∨
      ∃ (hf : P.isFlexible = true) (j : Nat) (hj : j < P.nParam) (hfl : P.flexible j = true),
        x = cellPos P hf j hj hfl := by
  by_cases h : x.val < M * L
  · left
    have hL : 0 < L := by
      rcases Nat.eq_zero_or_pos L with h0 | h0
      · subst h0; simp at h
      · exact h0
    refine ⟨⟨x.val / L, Nat.div_lt_of_lt_mul (by rwa [Nat.mul_comm] at h)⟩,
      ⟨x.val % L, Nat.mod_lt _ hL⟩, Fin.ext ?_⟩
    show x.val = x.val / L * L + x.val % L
    rw [Nat.div_add_mod']
  · right
    have hx : x.val < M * L + if P.isFlexible then nFlex P.flexible P.nParam else 0 := x.2
    generalize hv : x.val = v at h hx
    by_cases hf : P.isFlexible = true
    · rw [if_pos hf] at hx
      obtain ⟨j, h1, h2, h3⟩ := exists_flex P.flexible P.nParam (v - M * L) (by omega)
      refine ⟨hf, j, h1, h2, Fin.ext ?_⟩
      show x.val = M * L + nFlex P.flexible j
      omega
    · rw [if_neg hf] at hx
      omega

theorem arr_field (y : AM.Vec ℝ (nElements P L)) (i : Fin M) (k : Fin L) :
    arr P y (i.val * L + k.val) = y (fieldPos P i k) := by
  have := (fieldPos P i k).2
  unfold arr
  rw [dif_pos (show i.val * L + k.val < nElements P L from this)]
  rfl

theorem arr_cell (y : AM.Vec ℝ (nElements P L)) (hf : P.isFlexible = true) (j : Nat)
    (hj : j < P.nParam) (hfl : P.flexible j = true) :
    arr P y (M * L + nFlex P.flexible j) = y (cellPos P hf j hj hfl) := by
  have := (cellPos (L := L) P hf j hj hfl).2
  unfold arr
  rw [dif_pos (show M * L + nFlex P.flexible j < nElements P L from this)]
  rfl

theorem update_par (s : St M L) (y : AM.Vec ℝ (nElements P L)) (hf : P.isFlexible = true) (j : Nat)
    (hj : j < P.nParam) (hfl : P.flexible j = true) :
    (update P s y).par j = 1 / P.scale * y (cellPos P hf j hj hfl) := by
  unfold update
  simp only [hf, if_true]
  have := loadFlex_get P.flexible (1 / P.scale) (arr P y) (M * L) P.nParam 0 s.par j (by omega)
    (by omega)
  rw [nFlex, Nat.add_zero] at this
  rw [this, if_pos hfl, arr_cell P y hf j hj hfl]

theorem update_par_fixed (s : St M L) (y : AM.Vec ℝ (nElements P L)) (j : Nat)
    (h : P.isFlexible = false ∨ P.nParam ≤ j ∨ P.flexible j = false) :
    (update P s y).par j = s.par j := by
  unfold update
  simp only
  split
  · rename_i hf
    rcases Nat.lt_or_ge j P.nParam with hj | hj
    · have := loadFlex_get P.flexible (1 / P.scale) (arr P y) (M * L) P.nParam 0 s.par j (by omega)
        (by omega)
      rw [nFlex, Nat.add_zero] at this
      rw [this, if_neg]
      rcases h with h | h | h
      · simp [hf] at h
      · omega
      · simp [h]
    · exact loadFlex_high _ _ _ _ _ _ _ _ (by omega)
  · rfl

end Pack

/-! ## Averages -/

section Mean

variable {M L : Nat}

/-- The constant function 1: values or coefficients. -/
def one (grid : Bool) (k : Fin L) : ℝ := if grid then 1 else if k.val = 0 then 1 else 0

theorem mean_add (grid : Bool) (f g : Fld L ℝ) :
    mean grid (fun k => f k + g k) = mean grid f + mean grid g := by
  unfold mean
  split
  · simp only [accum_eq, Finset.sum_add_distrib]; ring
  · split <;> simp

theorem mean_smul (grid : Bool) (a : ℝ) (f : Fld L ℝ) :
    mean grid (fun k => a * f k) = a * mean grid f := by
  unfold mean
  split
  · simp only [accum_eq, ← Finset.mul_sum]; ring
  · split <;> simp

theorem mean_sub (grid : Bool) (f g : Fld L ℝ) :
    mean grid (fun k => f k - g k) = mean grid f - mean grid g := by
  have h1 := mean_add grid f (fun k => -1 * g k)
  rw [mean_smul] at h1
  rw [sub_eq_add_neg, neg_eq_neg_one_mul (mean grid g), ← h1]
  congr 1
  funext k
  ring

theorem mean_zero (grid : Bool) : mean grid (fun _ : Fin L => (0 : ℝ)) = 0 := by
  have := mean_smul grid 0 (fun _ : Fin L => (0 : ℝ))
  simpa using this

theorem mean_sum (grid : Bool) (f : Fin M → Fld L ℝ) :
    mean grid (fun k => ∑ j, f j k) = ∑ j, mean grid (f j) := by
  classical
  induction (Finset.univ : Finset (Fin M)) using Finset.induction_on with
  | empty => simp [mean_zero]
  | insert a s ha ih =>
    simp only [Finset.sum_insert ha]
    rw [mean_add, ih]

theorem mean_one (grid : Bool) (hL : 0 < L) : mean grid (one grid : Fld L ℝ) = 1 := by
  unfold mean one
  have : (L : ℝ) ≠ 0 := by exact_mod_cast hL.ne'
  split
  · simp [accum_eq, this]
  · simp

theorem mean_one_mul (grid : Bool) (hL : 0 < L) (a : ℝ) :
    mean grid (fun k : Fin L => a * one grid k) = a := by
  rw [mean_smul, mean_one grid hL, mul_one]

end Mean

/-! ## Residuals -/

section Resid

variable {M L : Nat} (P : Prob M)

/-- External field, zero if there is none. -/
def extV (ev : Eval M L) (i : Fin M) (k : Fin L) : ℝ :=
  match ev.ext with
  | some h => h i k
  | none => 0

/-- Required sum of the concentrations: the mask, or the constant 1. -/
def maskV (grid : Bool) (ev : Eval M L) (k : Fin L) : ℝ :=
  match ev.mask with
  | some m => m k
  | none => one grid k

/-- Residual before the averages are removed. -/
noncomputable def rawResid (s : St M L) (i : Fin M) (k : Fin L) : ℝ :=
  Inter.residual P.chi P.inv (fun j => s.ev.c j k) (fun j => s.w j k) (fun j => extV s.ev j k)
    (maskV P.grid s.ev k) i

theorem removeMean (grid canonical : Bool) (r : Fld L ℝ) (k : Fin L) :
    (if canonical then
      if grid then r k - accum L r 0 / (L : ℝ) else if k.val = 0 then 0 else r k
    else r k) = r k - if canonical then mean grid r * one grid k else 0 := by
  cases canonical
  · simp
  · have hL : 0 < L := by have := k.2; omega
    cases grid
    · simp only [if_true, Bool.false_eq_true, if_false, mean, one, dif_pos hL]
      split
      · rename_i h
        have : k = ⟨0, hL⟩ := Fin.ext h
        rw [this]; ring
      · ring
    · simp [mean, one]

theorem rawCpu_eq (s : St M L) : rawCpu P s = rawResid P s := by
  funext i k
  unfold rawCpu rawResid Inter.residual extV maskV one
  cases s.ev.ext <;> cases s.ev.mask <;> cases P.grid <;>
    simp only [zero_sub, mul_neg, ← sub_eq_add_neg, mul_one, if_true, Bool.false_eq_true, if_false]
  all_goals split <;> simp

theorem residCpu_eq (s : St M L) (i : Fin M) (k : Fin L) :
    residCpu P s i k = rawResid P s i k -
      if P.canonical then mean P.grid (rawResid P s i) * one P.grid k else 0 := by
  unfold residCpu
  rw [← removeMean, rawCpu_eq]

theorem rawGpu_eq (s : St M L) (i : Fin M) (k : Fin L) : rawGpu P s i k =
    rawResid P s i k + if s.ev.mask = none then 1 / sumChiInverse P.inv * one P.grid k else 0 := by
  have h1 : accum M (fun j => s.ev.c j k * P.chi i j + s.w j k * (-pMatrix P.inv i j)) 0 =
      ∑ j, (P.chi i j * s.ev.c j k - pMatrix P.inv i j * s.w j k) := by
    rw [accum_eq, zero_add]
    exact Finset.sum_congr rfl fun j _ => by ring
  unfold rawGpu
  rw [h1]
  unfold rawResid Inter.residual extV maskV
  simp only [accum_eq]
  cases s.ev.ext <;> cases s.ev.mask <;>
    simp only [zero_sub, mul_neg, ← sub_eq_add_neg, if_true, reduceCtorEq, if_false, add_zero,
      zero_add, mul_sub, Finset.sum_add_distrib, Finset.sum_sub_distrib]
  · ring
  · ring
  · rename_i h
    have : ∑ j, h j k * pMatrix P.inv i j = ∑ j, pMatrix P.inv i j * h j k :=
      Finset.sum_congr rfl fun j _ => mul_comm _ _
    rw [this]; ring
  · rename_i h _
    have : ∑ j, h j k * pMatrix P.inv i j = ∑ j, pMatrix P.inv i j * h j k :=
      Finset.sum_congr rfl fun j _ => mul_comm _ _
    rw [this]; ring

theorem residGpu_cases (s : St M L) (i : Fin M) (k : Fin L) : residGpu P s i k =
    rawGpu P s i k - if P.canonical then mean P.grid (rawGpu P s i) * one P.grid k
      else 1 / sumChiInverse P.inv * one P.grid k := by
  unfold residGpu
  have := removeMean P.grid P.canonical (rawGpu P s i) k
  cases hc : P.canonical
  · simp only [Bool.false_eq_true, if_false]
    unfold one
    cases P.grid <;> simp
    split <;> simp
  · rw [hc] at this
    simpa only [if_true] using this

theorem residGpu_eq (s : St M L) (h : P.canonical = true ∨ s.ev.mask = none) :
    residGpu P s = residCpu P s := by
  funext i k
  have hL : 0 < L := by have := k.2; omega
  rw [residCpu_eq, residGpu_cases, rawGpu_eq]
  have e : rawGpu P s i = fun k => rawResid P s i k +
      (if s.ev.mask = none then 1 / sumChiInverse P.inv else 0) * one P.grid k := by
    funext k
    rw [rawGpu_eq]
    split <;> simp
  rw [e, mean_add, mean_one_mul _ hL]
  rcases h with h | h
  · simp only [h, if_true]
    split <;> ring
  · simp only [h, if_true]
    split <;> ring

/-- With a mask in an open ensemble the GPU programs subtract the constant 1 in addition. -/
theorem residGpu_mask (s : St M L) (h : P.canonical = false) (hm : s.ev.mask ≠ none) (i : Fin M)
    (k : Fin L) : residGpu P s i k = residCpu P s i k - one P.grid k / sumChiInverse P.inv := by
  rw [residCpu_eq, residGpu_cases, rawGpu_eq, h, if_neg hm]
  simp only [Bool.false_eq_true, if_false]
  ring

variable {P}

theorem rawResid_eq (s : St M L) (i : Fin M) (k : Fin L) : rawResid P s i k =
    (∑ j, P.chi i j * s.ev.c j k) + (extV s.ev i k - s.w i k) -
      ((∑ j, (∑ l, P.inv l j) * (extV s.ev j k - s.w j k)) + maskV P.grid s.ev k) / total P.inv := by
  unfold rawResid
  simp only [Inter.residual, accum_eq, zero_add, Finset.sum_add_distrib, pMatrix_mul, sumChiInverse_eq]
  ring

/-- Column sums of the inverse applied to the residual give the error in the sum of concentrations. -/
theorem rawResid_cols (hB : P.inv * P.chi = 1) (hS : total P.inv ≠ 0) (s : St M L) (k : Fin L) :
    ∑ i, (∑ l, P.inv l i) * rawResid P s i k = (∑ j, s.ev.c j k) - maskV P.grid s.ev k := by
  have hcol : ∑ j, (∑ l, P.inv l j) * (∑ i, P.chi j i * s.ev.c i k) = ∑ i, s.ev.c i k := by
    have h1 : ∀ l, ∑ j, P.inv l j * (∑ i, P.chi j i * s.ev.c i k) = s.ev.c l k := by
      intro l
      have : (Matrix.mulVec P.inv (Matrix.mulVec P.chi (fun i => s.ev.c i k))) l = s.ev.c l k := by
        rw [Matrix.mulVec_mulVec, hB, Matrix.one_mulVec]
      rw [← this]; simp [Matrix.mulVec, dotProduct]
    simp only [Finset.sum_mul]
    rw [Finset.sum_comm]
    exact Finset.sum_congr rfl fun l _ => h1 l
  have hcs : ∀ a : ℝ, ∑ j, (∑ l, P.inv l j) * a = a * total P.inv := by
    intro a
    rw [← Finset.sum_mul, Finset.sum_comm, mul_comm]; rfl
  simp only [rawResid_eq, mul_sub, mul_add, Finset.sum_sub_distrib, Finset.sum_add_distrib, hcol, hcs]
  field_simp
  ring

end Resid

/-! ## Error -/

section Error

variable {N : Nat}

theorem maxAbs_ge (r : AM.Vec ℝ N) (i : Fin N) : |r i| ≤ maxAbs r := by
  unfold maxAbs
  have h : ∀ (l : List (Fin N)) (m : ℝ),
      m ≤ l.foldl (fun m i => if |r i| > m then |r i| else m) m ∧
      ∀ i ∈ l, |r i| ≤ l.foldl (fun m i => if |r i| > m then |r i| else m) m := by
    intro l
    induction l with
    | nil => intro m; simp
    | cons a l ih =>
      intro m
      rw [List.foldl_cons]
      obtain ⟨h1, h2⟩ := ih (if |r a| > m then |r a| else m)
      have h3 : m ≤ (if |r a| > m then |r a| else m) := by split <;> linarith
      have h4 : |r a| ≤ (if |r a| > m then |r a| else m) := by split <;> linarith
      refine ⟨h3.trans h1, fun i hi => ?_⟩
      rcases List.mem_cons.1 hi with rfl | hi
      · exact h4.trans h1
      · exact h2 i hi
  exact (h _ _).2 i (List.mem_finRange i)

theorem maxAbs_zero : maxAbs (fun _ : Fin N => (0 : ℝ)) = 0 := by
  unfold maxAbs
  generalize List.finRange N = l
  induction l with
  | nil => rfl
  | cons a l ih => rw [List.foldl_cons]; simpa using ih

theorem norm_ge (r : AM.Vec ℝ N) (i : Fin N) : |r i| ≤ norm r := by
  unfold norm
  apply Real.le_sqrt_of_sq_le
  rw [sq_abs, AM.dot, accum_eq, zero_add, sq]
  exact Finset.single_le_sum (f := fun i => r i * r i) (fun i _ => mul_self_nonneg _)
    (Finset.mem_univ i)

theorem norm_zero : norm (fun _ : Fin N => (0 : ℝ)) = 0 := by
  unfold norm
  rw [AM.dot, accum_eq]
  simp

theorem norm_nonneg (r : AM.Vec ℝ N) : 0 ≤ norm r := Real.sqrt_nonneg _

end Error

/-! ## The iteration -/

theorem solveLoop_last {σ : Type} {N : Nat} (S : AM.Sys σ ℝ N) (lu : AM.LinSolve ℝ)
    (error : AM.Vec ℝ N → AM.Vec ℝ N → Option ℝ) (eps : ℝ) (lam : Nat → ℝ) :
    ∀ (fuel itr up : Nat) (s : σ) (am : AM.Iter ℝ N), (∃ t, s = S.evaluate t) →
      let o := AM.solveLoop S lu error eps lam fuel itr up s am
      (o.updates = up ∧ o.sys = s) ∨
        (up < o.updates ∧ ∃ t y, o.sys = S.evaluate (S.update (S.evaluate t) y)) := by
  intro fuel
  induction fuel with
  | zero => intro itr up s am _; left; exact ⟨rfl, rfl⟩
  | succ fuel ih =>
    intro itr up s am hs
    unfold AM.solveLoop
    simp only
    split
    · left; exact ⟨rfl, rfl⟩
    · split
      · left; exact ⟨rfl, rfl⟩
      · split
        · left; exact ⟨rfl, rfl⟩
        · right
          obtain ⟨t, rfl⟩ := hs
          rename_i am2 _
          rcases ih (itr + 1) (up + 1) _ _ ⟨_, rfl⟩ with ⟨h1, h2⟩ | ⟨h1, h2⟩
          · refine ⟨?_, t, _, h2⟩
            rw [h1]; omega
          · exact ⟨by omega, h2⟩

end Verif.Scft
