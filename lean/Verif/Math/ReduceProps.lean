import Verif.Math.Reduce
import Verif.Tac
import Mathlib.Order.Bounds.Basic

/-!
# C73 (reductions) and C68 (field comparison)
-/

set_option autoImplicit false
set_option linter.unusedSectionVars false

namespace Verif.Reduce

/-! ## C73 -/

theorem maxLoop_spec : ∀ (l : List Dbl) (m : ℝ), ∃ M, maxLoop l (some m) = some M ∧
    IsGreatest {y | some y ∈ some m :: l} M
  | [], m => ⟨m, rfl, by simp, fun y hy => by simp at hy; exact hy.le⟩
  | none :: l, m => by
    obtain ⟨M, h1, h2, h3⟩ := maxLoop_spec l m
    refine ⟨M, by simpa [maxLoop, gt] using h1, ?_, fun y hy => h3 ?_⟩
    · simp only [Set.mem_setOf_eq, List.mem_cons] at h2 ⊢; tauto
    · simp only [Set.mem_setOf_eq, List.mem_cons] at hy ⊢; simpa using hy
  | some x :: l, m => by
    simp only [maxLoop]
    by_cases hx : gt (some x) (some m)
    · rw [if_pos hx]
      change x > m at hx
      obtain ⟨M, h1, h2, h3⟩ := maxLoop_spec l x
      refine ⟨M, h1, ?_, fun y hy => ?_⟩
      · simp only [Set.mem_setOf_eq, List.mem_cons] at h2 ⊢; tauto
      · simp only [Set.mem_setOf_eq, List.mem_cons, Option.some.injEq] at hy
        have hxM : x ≤ M := h3 (by simp)
        rcases hy with rfl | rfl | hy
        · linarith
        · exact hxM
        · exact h3 (by simp [hy])
    · rw [if_neg hx]
      change ¬ x > m at hx
      obtain ⟨M, h1, h2, h3⟩ := maxLoop_spec l m
      refine ⟨M, h1, ?_, fun y hy => ?_⟩
      · simp only [Set.mem_setOf_eq, List.mem_cons] at h2 ⊢; tauto
      · simp only [Set.mem_setOf_eq, List.mem_cons, Option.some.injEq] at hy
        have hmM : m ≤ M := h3 (by simp)
        rcases hy with rfl | rfl | hy
        · exact hmM
        · linarith
        · exact h3 (by simp [hy])

theorem minLoop_spec : ∀ (l : List Dbl) (m : ℝ), ∃ M, minLoop l (some m) = some M ∧
    IsLeast {y | some y ∈ some m :: l} M
  | [], m => ⟨m, rfl, by simp, fun y hy => by simp at hy; exact hy.ge⟩
  | none :: l, m => by
    obtain ⟨M, h1, h2, h3⟩ := minLoop_spec l m
    refine ⟨M, by simpa [minLoop, gt] using h1, ?_, fun y hy => h3 ?_⟩
    · simp only [Set.mem_setOf_eq, List.mem_cons] at h2 ⊢; tauto
    · simp only [Set.mem_setOf_eq, List.mem_cons] at hy ⊢; simpa using hy
  | some x :: l, m => by
    simp only [minLoop]
    by_cases hx : gt (some m) (some x)
    · rw [if_pos hx]
      change m > x at hx
      obtain ⟨M, h1, h2, h3⟩ := minLoop_spec l x
      refine ⟨M, h1, ?_, fun y hy => ?_⟩
      · simp only [Set.mem_setOf_eq, List.mem_cons] at h2 ⊢; tauto
      · simp only [Set.mem_setOf_eq, List.mem_cons, Option.some.injEq] at hy
        have hxM : M ≤ x := h3 (by simp)
        rcases hy with rfl | rfl | hy
        · linarith
        · exact hxM
        · exact h3 (by simp [hy])
    · rw [if_neg hx]
      change ¬ m > x at hx
      obtain ⟨M, h1, h2, h3⟩ := minLoop_spec l m
      refine ⟨M, h1, ?_, fun y hy => ?_⟩
      · simp only [Set.mem_setOf_eq, List.mem_cons] at h2 ⊢; tauto
      · simp only [Set.mem_setOf_eq, List.mem_cons, Option.some.injEq] at hy
        have hmM : M ≤ m := h3 (by simp)
        rcases hy with rfl | rfl | hy
        · exact hmM
        · linarith
        · exact h3 (by simp [hy])

/-- **C73**: `max` of an array whose first element is a number is the greatest number in the array
(later NaN values are ignored). -/
theorem C73_max (x : ℝ) (l : List Dbl) :
    ∃ M, max (some x :: l) = .ok (some M) ∧ IsGreatest {y | some y ∈ some x :: l} M := by
  obtain ⟨M, h1, h2⟩ := maxLoop_spec l x
  exact ⟨M, by simp [max, h1], h2⟩

theorem C73_min (x : ℝ) (l : List Dbl) :
    ∃ M, min (some x :: l) = .ok (some M) ∧ IsLeast {y | some y ∈ some x :: l} M := by
  obtain ⟨M, h1, h2⟩ := minLoop_spec l x
  exact ⟨M, by simp [min, h1], h2⟩

theorem mem_abs (x : ℝ) (l : List Dbl) (y : ℝ) :
    some y ∈ some |x| :: l.map dabs ↔ ∃ z, some z ∈ some x :: l ∧ |z| = y := by
  simp only [List.mem_cons, List.mem_map, Option.some.injEq]
  constructor
  · rintro (rfl | ⟨a, ha, h⟩)
    · exact ⟨x, Or.inl rfl, rfl⟩
    · cases a with
      | none => simp [dabs] at h
      | some z => exact ⟨z, Or.inr ha, by simpa [dabs] using h⟩
  · rintro ⟨z, rfl | hz, rfl⟩
    · exact Or.inl rfl
    · exact Or.inr ⟨some z, hz, rfl⟩

theorem C73_maxAbs (x : ℝ) (l : List Dbl) : ∃ M, maxAbs (some x :: l) = .ok (some M) ∧
    IsGreatest {y | ∃ z, some z ∈ some x :: l ∧ |z| = y} M := by
  obtain ⟨M, h1, h2⟩ := maxLoop_spec (l.map dabs) |x|
  refine ⟨M, by simp only [maxAbs, dabs, Option.map_some]; exact congrArg Res.ok h1, ?_⟩
  simpa only [mem_abs] using h2

theorem C73_minAbs (x : ℝ) (l : List Dbl) : ∃ M, minAbs (some x :: l) = .ok (some M) ∧
    IsLeast {y | ∃ z, some z ∈ some x :: l ∧ |z| = y} M := by
  obtain ⟨M, h1, h2⟩ := minLoop_spec (l.map dabs) |x|
  refine ⟨M, by simp only [minAbs, dabs, Option.map_some]; exact congrArg Res.ok h1, ?_⟩
  simpa only [mem_abs] using h2

theorem loop_nan : ∀ l : List Dbl, maxLoop l none = none ∧ minLoop l none = none
  | [] => ⟨rfl, rfl⟩
  | x :: l => by
    have h1 : ¬ gt x none := by cases x <;> simp [gt]
    have h2 : ¬ gt none x := by cases x <;> simp [gt]
    simp only [maxLoop, minLoop, if_neg h1, if_neg h2]
    exact loop_nan l

/-- **C73**: a NaN in the first position, and only there, makes the result of `max` and `min` NaN; an
empty array is rejected. -/
theorem C73_nan (l : List Dbl) : max (none :: l) = .ok none ∧ min (none :: l) = .ok none ∧
    maxAbs (none :: l) = .ok none ∧ minAbs (none :: l) = .ok none ∧
    max [] = .throw ∧ min [] = .throw ∧ maxAbs [] = .throw ∧ minAbs [] = .throw := by
  simp [max, min, maxAbs, minAbs, dabs, loop_nan]

theorem foldl_dadd : ∀ (l : List ℝ) (a : ℝ),
    (l.map some).foldl dadd (some a) = some (a + l.sum)
  | [], a => by simp
  | x :: l, a => by
    simp only [List.map_cons, List.foldl_cons, List.sum_cons]
    rw [show dadd (some a) (some x) = some (a + x) from rfl, foldl_dadd l, add_assoc]

theorem foldl_nan : ∀ l : List Dbl, l.foldl dadd none = none
  | [] => rfl
  | _ :: l => foldl_nan l

theorem foldl_mem_nan : ∀ (l : List Dbl) (a : Dbl), none ∈ l → l.foldl dadd a = none
  | x :: l, a, h => by
    rcases List.mem_cons.1 h with rfl | h
    · rw [List.foldl_cons, show dadd a none = none by cases a <;> rfl, foldl_nan]
    · exact foldl_mem_nan l _ h

/-- **C73**: `sum` is the sum of a non-empty array of numbers and NaN if any element is NaN. -/
theorem C73_sum (l : List ℝ) (hl : l ≠ []) : sum (l.map some) = .ok (some l.sum) := by
  have : (l.map some).length > 0 := by
    rw [List.length_map]; exact List.length_pos_iff.2 hl
  rw [sum, if_pos this, foldl_dadd, zero_add]

theorem C73_sum_nan (l : List Dbl) (h : none ∈ l) : sum l = .ok none := by
  rw [sum, if_pos (List.length_pos_of_mem h), foldl_mem_nan l _ h]

theorem zip_some : ∀ a b : List ℝ, List.zipWith dmul (a.map some) (b.map some) =
    (List.zipWith (· * ·) a b).map some
  | [], _ => by simp
  | _ :: _, [] => by simp
  | x :: a, y :: b => by
    simp only [List.map_cons, List.zipWith_cons_cons, zip_some a b]; rfl

/-- **C73**: `innerProduct` of two arrays of numbers; arrays of different size are rejected. -/
theorem C73_innerProduct (n : Nat) (hn : 0 < n) (a b : Fin n → ℝ) :
    innerProduct ((List.ofFn a).map some) ((List.ofFn b).map some) = .ok (some (∑ i, a i * b i)) := by
  have : (List.zipWith (· * ·) (List.ofFn a) (List.ofFn b)) = List.ofFn fun i => a i * b i := by
    apply List.ext_getElem <;> simp
  rw [innerProduct, if_pos (by simpa using hn), if_pos (by simp), zip_some, foldl_dadd, this,
    List.sum_ofFn, zero_add]

theorem C73_innerProduct_sizes (a b : List Dbl) (h : a.length ≠ b.length) :
    innerProduct a b = .throw := by
  unfold innerProduct
  split
  · rw [if_neg (Ne.symm h)]
  · rfl

example : ∃ M, maxAbs [some 1, some (-3), none, some 2] = .ok (some M) ∧ M = 3 := by
  obtain ⟨M, h1, ⟨z, h2, h3⟩, h4⟩ := C73_maxAbs 1 [some (-3), none, some 2]
  refine ⟨M, h1, ?_⟩
  have h5 : (3 : ℝ) ≤ M := h4 ⟨-3, by simp, by norm_num⟩
  simp at h2
  rcases h2 with rfl | rfl | rfl <;> norm_num at h3 <;> linarith

/-! ## C68 -/

/-- Absolute differences of two arrays. -/
def diffs (begin : Nat) (a b : List ℝ) : List ℝ := ((a.zip b).drop begin).map fun p => |p.1 - p.2|

theorem cmpLoop_real : ∀ (l : List (ℝ × ℝ)) (m r : ℝ), 0 ≤ m →
    ∃ M, cmpLoop (l.map fun p => (some p.1, some p.2)) m r =
      some (M, r + ((l.map fun p => |p.1 - p.2|).map (· ^ 2)).sum) ∧
    m ≤ M ∧ (∀ d ∈ l.map (fun p => |p.1 - p.2|), d ≤ M) ∧
    (M = m ∨ M ∈ l.map fun p => |p.1 - p.2|)
  | [], m, r, _ => ⟨m, by simp [cmpLoop]⟩
  | (x, y) :: l, m, r, hm => by
    obtain ⟨M, h1, h2, h3, h4⟩ := cmpLoop_real l (if |x - y| > m then |x - y| else m)
      (r + |x - y| * |x - y|) (by split <;> [exact abs_nonneg _; exact hm])
    refine ⟨M, ?_, ?_, ?_, ?_⟩
    · simp only [List.map_cons, cmpLoop, dsub, dabs, Option.bind_some, Option.map_some, List.sum_cons]
      rw [h1, sq, add_assoc]
    · refine le_trans ?_ h2
      split
      · rename_i h; exact le_of_lt h
      · exact le_rfl
    · intro d hd
      rcases List.mem_cons.1 hd with rfl | hd
      · refine le_trans ?_ h2
        split
        · exact le_rfl
        · rename_i h; exact not_lt.1 h
      · exact h3 d hd
    · rcases h4 with h4 | h4
      · split at h4
        · right; rw [h4]; simp
        · exact Or.inl h4
      · right; exact List.mem_cons_of_mem _ h4

theorem zip_some' (begin : Nat) (a b : List ℝ) :
    ((a.map some).zip (b.map some)).drop begin =
      ((a.zip b).drop begin).map fun p => (some p.1, some p.2) := by
  rw [List.zip_map, List.map_drop]; rfl

/-- **C68**, arrays of numbers of equal size: `maxDiff` is the greatest absolute difference from
element `begin` on (zero if there is none) and `rmsDiff` is the root of the sum of squares over the
number of elements. -/
theorem C68_compare (begin : Nat) (a b : List ℝ) (h : a.length = b.length) (ha : a ≠ []) :
    ∃ d, compare begin (a.map some) (b.map some) = .ok d ∧
      (IsGreatest {x | x = 0 ∨ x ∈ diffs begin a b} d.maxDiff) ∧
      d.rmsDiff = √(((diffs begin a b).map (· ^ 2)).sum / a.length) := by
  obtain ⟨M, h1, h2, h3, h4⟩ := cmpLoop_real ((a.zip b).drop begin) 0 0 le_rfl
  have hpos : a.length > 0 := List.length_pos_iff.2 ha
  refine ⟨⟨M, √(((diffs begin a b).map (· ^ 2)).sum / a.length)⟩, ?_, ⟨?_, ?_⟩, rfl⟩
  · simp only [compare, if_pos hpos, List.length_map, if_pos h, zip_some', h1, zero_add]
    rfl
  · exact h4
  · rintro x (rfl | hx)
    · exact h2
    · exact h3 x hx

theorem sum_sq_le (M : ℝ) : ∀ l : List ℝ, (∀ d ∈ l, 0 ≤ d ∧ d ≤ M) →
    0 ≤ (l.map (· ^ 2)).sum ∧ (l.map (· ^ 2)).sum ≤ l.length * M ^ 2
  | [], _ => by simp
  | x :: l, h => by
    obtain ⟨h1, h2⟩ := sum_sq_le M l fun d hd => h d (List.mem_cons_of_mem _ hd)
    obtain ⟨h3, h4⟩ := h x (by simp)
    simp only [List.map_cons, List.sum_cons, List.length_cons]
    push_cast
    constructor
    · positivity
    · nlinarith

theorem diffs_nonneg (begin : Nat) (a b : List ℝ) : ∀ d ∈ diffs begin a b, 0 ≤ d := by
  intro d hd
  obtain ⟨p, -, rfl⟩ := List.mem_map.1 hd
  exact abs_nonneg _

theorem diffs_length (begin : Nat) (a b : List ℝ) : (diffs begin a b).length ≤ a.length := by
  simp only [diffs, List.length_map, List.length_drop, List.length_zip]
  omega

/-- **C68**: `rmsDiff` never exceeds `maxDiff`, for numbers. -/
theorem C68_rms_le_max (begin : Nat) (a b : List ℝ) (d : Diff)
    (h : compare begin (a.map some) (b.map some) = .ok d) : d.rmsDiff ≤ d.maxDiff := by
  have hne : a ≠ [] := by rintro rfl; simp [compare] at h
  have hlen : a.length = b.length := by
    by_contra hc
    simp [compare, hc] at h
  obtain ⟨d', h1, ⟨h2, h3⟩, h4⟩ := C68_compare begin a b hlen hne
  rw [h1] at h; cases h
  have h0 : 0 ≤ d.maxDiff := h3 (Or.inl rfl)
  have hn : (0 : ℝ) < a.length := by exact_mod_cast List.length_pos_iff.2 hne
  obtain ⟨-, h5⟩ := sum_sq_le d.maxDiff (diffs begin a b) fun x hx =>
    ⟨diffs_nonneg begin a b x hx, h3 (Or.inr hx)⟩
  rw [h4]
  apply Real.sqrt_le_iff.2 ⟨h0, ?_⟩
  rw [div_le_iff₀ hn]
  have h6 : ((diffs begin a b).length : ℝ) ≤ a.length := by exact_mod_cast diffs_length begin a b
  nlinarith [sq_nonneg d.maxDiff]

/-- **C68**: for numbers, `maxDiff` is zero exactly if all elements from `begin` on are equal. -/
theorem C68_zero_iff (begin : Nat) (a b : List ℝ) (d : Diff)
    (h : compare begin (a.map some) (b.map some) = .ok d) :
    d.maxDiff = 0 ↔ a.drop begin = b.drop begin := by
  have hne : a ≠ [] := by rintro rfl; simp [compare] at h
  have hlen : a.length = b.length := by
    by_contra hc
    simp [compare, hc] at h
  obtain ⟨d', h1, ⟨h2, h3⟩, h4⟩ := C68_compare begin a b hlen hne
  rw [h1] at h; cases h
  have hget : ∀ i, (hi : begin + i < a.length) →
      |a[begin + i] - b[begin + i]'(hlen ▸ hi)| ∈ diffs begin a b := by
    intro i hi
    unfold diffs
    refine List.mem_map.2 ⟨(a[begin + i], b[begin + i]'(hlen ▸ hi)), ?_, rfl⟩
    refine List.mem_iff_getElem.2 ⟨i, ?_, ?_⟩
    · simp; omega
    · simp
  constructor
  · intro h0
    apply List.ext_getElem
    · simp [hlen]
    · intro i hi1 hi2
      simp only [List.length_drop] at hi1
      simp only [List.getElem_drop]
      have := h3 (Or.inr (hget i (by omega)))
      rw [h0] at this
      exact sub_eq_zero.1 (abs_eq_zero.1 (le_antisymm this (abs_nonneg _)))
  · intro heq
    rcases h2 with h2 | h2
    · exact h2
    · obtain ⟨p, hp, h5⟩ := List.mem_map.1 h2
      have hz : (a.zip b).drop begin = (a.drop begin).zip (b.drop begin) := by
        apply List.ext_getElem <;> simp
        omega
      rw [hz, heq] at hp
      have : p.1 = p.2 := by
        obtain ⟨i, hi, rfl⟩ := List.mem_iff_getElem.1 hp
        simp
      rw [← h5, this]; simp

theorem cmpLoop_swap : ∀ (l : List (Dbl × Dbl)) (m r : ℝ),
    cmpLoop (l.map Prod.swap) m r = cmpLoop l m r
  | [], _, _ => rfl
  | (x, y) :: l, m, r => by
    have : dabs (dsub y x) = dabs (dsub x y) := by
      cases x <;> cases y <;> simp [dabs, dsub, abs_sub_comm]
    simp only [List.map_cons, Prod.swap_prod_mk, cmpLoop, this]
    cases dabs (dsub x y) with
    | none => rfl
    | some d => exact cmpLoop_swap l _ _

/-- **C68**: comparison is symmetric, for all inputs including NaN and arrays of different size. -/
theorem C68_symmetric (begin : Nat) (a b : List Dbl) : compare begin a b = compare begin b a := by
  by_cases h : a.length = b.length
  · have hz : (b.zip a).drop begin = ((a.zip b).drop begin).map Prod.swap := by
      rw [List.map_drop, List.zip_swap]
    simp only [compare, h, hz, cmpLoop_swap]
  · have h' : ¬ b.length = a.length := fun e => h e.symm
    simp only [compare, if_neg h, if_neg h']
    split <;> split <;> rfl

theorem cmpLoop_nan : ∀ (l : List (Dbl × Dbl)) (m r : ℝ), (∃ p ∈ l, p.1 = none ∨ p.2 = none) →
    cmpLoop l m r = none
  | (x, y) :: l, m, r, ⟨p, hp, h⟩ => by
    rcases List.mem_cons.1 hp with rfl | hp
    · have : dabs (dsub x y) = none := by
        rcases h with h | h <;> simp only at h <;> subst h
        · rfl
        · cases x <;> rfl
      simp [cmpLoop, this]
    · simp only [cmpLoop]
      cases dabs (dsub x y) with
      | none => rfl
      | some d => exact cmpLoop_nan l _ _ ⟨p, hp, h⟩

/-- **C68**: a NaN at or after `begin` in either array is reported as a very large difference, never
as agreement. -/
theorem C68_nan (begin : Nat) (a b : List Dbl) (h : a.length = b.length) (i : Nat)
    (hb : begin ≤ i) (hi : i < a.length) (hn : a[i] = none ∨ b[i]'(h ▸ hi) = none) :
    compare begin a b = .ok ⟨10 ^ 8, 10 ^ 8⟩ := by
  have hpos : a.length > 0 := by omega
  have : cmpLoop ((a.zip b).drop begin) 0 0 = none := by
    apply cmpLoop_nan
    refine ⟨(a[i], b[i]'(h ▸ hi)), ?_, hn⟩
    refine List.mem_iff_getElem.2 ⟨i - begin, by simp; omega, ?_⟩
    simp [Nat.add_sub_cancel' hb]
  simp [compare, h ▸ hpos, h, this, nanDiff]

/-- All absolute differences in two lists of fields. -/
def allDiffs (begin : Nat) (l : List (List ℝ × List ℝ)) : List ℝ :=
  l.flatMap fun p => diffs begin p.1 p.2

theorem cmpFields_real (begin n : Nat) (hn : 0 < n) : ∀ (l : List (List ℝ × List ℝ)) (n0 : Nat) (m r : ℝ),
    0 ≤ m → (∀ p ∈ l, p.1.length = n ∧ p.2.length = n) → (l = [] → n0 = n) →
    ∃ M, cmpFields begin (l.map fun p => (p.1.map some, p.2.map some)) n0 m r =
      .ok (some (n, M, r + ((allDiffs begin l).map (· ^ 2)).sum)) ∧
    m ≤ M ∧ (∀ d ∈ allDiffs begin l, d ≤ M) ∧ (M = m ∨ M ∈ allDiffs begin l)
  | [], n0, m, r, _, _, h0 => ⟨m, by simp [cmpFields, allDiffs, h0 rfl]⟩
  | (a, b) :: l, n0, m, r, hm, hl, _ => by
    obtain ⟨ha, hb⟩ := hl (a, b) (by simp)
    simp only at ha hb
    obtain ⟨M1, h1, h2, h3, h4⟩ := cmpLoop_real ((a.zip b).drop begin) m r hm
    obtain ⟨M, g1, g2, g3, g4⟩ := cmpFields_real begin n hn l n M1
      (r + ((diffs begin a b).map (· ^ 2)).sum) (hm.trans h2)
      (fun p hp => hl p (List.mem_cons_of_mem _ hp)) (fun _ => rfl)
    refine ⟨M, ?_, h2.trans g2, ?_, ?_⟩
    · simp only [List.map_cons, cmpFields, List.length_map, ha, hb, if_pos hn, if_true, zip_some', h1]
      rw [show (List.map (fun p : ℝ × ℝ => |p.1 - p.2|) (List.drop begin (a.zip b))) =
        diffs begin a b from rfl, g1]
      simp [allDiffs, add_assoc]
    · intro d hd
      simp only [allDiffs, List.flatMap_cons, List.mem_append] at hd
      rcases hd with hd | hd
      · exact (h3 d hd).trans g2
      · exact g3 d hd
    · simp only [allDiffs, List.flatMap_cons, List.mem_append]
      rcases g4 with g4 | g4
      · rw [g4]
        exact h4.imp id Or.inl
      · exact Or.inr (Or.inr g4)

theorem map_zip_eq {α β γ : Type} (f : α → β) (g : α → γ) : ∀ l : List α,
    (l.map f).zip (l.map g) = l.map fun x => (f x, g x)
  | [] => rfl
  | x :: l => by simp [map_zip_eq f g l]

/-- **C68** for arrays of fields, if all fields have the same number of elements: `maxDiff` is the
greatest difference and `rmsDiff` the root mean square over all elements. What is missing: fields of
different sizes, for which the code divides by the wrong number (`C68_arrays_violated`). -/
theorem C68_arrays_partial (begin n : Nat) (hn : 0 < n) (l : List (List ℝ × List ℝ)) (hl : l ≠ [])
    (h : ∀ p ∈ l, p.1.length = n ∧ p.2.length = n) :
    ∃ d, compareArrays begin (l.map fun p => p.1.map some) (l.map fun p => p.2.map some) = .ok d ∧
      IsGreatest {x | x = 0 ∨ x ∈ allDiffs begin l} d.maxDiff ∧
      d.rmsDiff = √(((allDiffs begin l).map (· ^ 2)).sum / (l.length * n)) := by
  obtain ⟨M, h1, h2, h3, h4⟩ := cmpFields_real begin n hn l 0 0 0 le_rfl h (fun e => absurd e hl)
  refine ⟨⟨M, √(((allDiffs begin l).map (· ^ 2)).sum / (l.length * n))⟩, ?_, ⟨h4, ?_⟩, rfl⟩
  · obtain ⟨p, l', rfl⟩ := List.exists_cons_of_ne_nil hl
    have hz : ((p :: l').map fun p => p.1.map some).zip ((p :: l').map fun p => p.2.map some) =
        (p :: l').map fun p => (p.1.map some, p.2.map some) := by
      exact map_zip_eq _ _ _
    unfold compareArrays
    rw [hz, h1]
    simp [(h p (by simp)).1, hn]
  · rintro x (rfl | hx)
    · exact h2
    · exact h3 x hx

/-- With fields of different sizes the reported root mean square difference can exceed the greatest
difference. -/
theorem C68_arrays_violated : ∃ (a b : List (List Dbl)) (d : Diff),
    compareArrays 0 a b = .ok d ∧ d.maxDiff < d.rmsDiff := by
  refine ⟨[[some 0, some 0, some 0, some 0], [some 0]], [[some 1, some 1, some 1, some 1], [some 1]],
    ⟨1, √(5 / 2)⟩, ?_, ?_⟩
  · norm_num [compareArrays, cmpFields, cmpLoop, dabs, dsub]
  · show (1 : ℝ) < √(5 / 2)
    rw [Real.lt_sqrt (by norm_num)]
    norm_num

example : ∃ d, compare 1 ([5, 1, 2].map some) ([0, 1, 2].map some) = .ok d ∧ d.maxDiff = 0 := by
  obtain ⟨d, h, -⟩ := C68_compare 1 [5, 1, 2] [0, 1, 2] rfl (by simp)
  exact ⟨d, h, (C68_zero_iff 1 _ _ d h).2 rfl⟩

end Verif.Reduce
