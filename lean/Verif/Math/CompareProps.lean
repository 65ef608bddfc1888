import Verif.Math.CompareLemmas
import Verif.Math.ReduceProps

/-!
# C119: fields are reported as equal only if they are equal
-/

set_option autoImplicit false

namespace Verif.Compare

open Verif.Reduce

/-- Complex fields of numbers, on the CPU and on the GPU: `maxDiff` is the greatest distance between corresponding
elements, and `rmsDiff` is the root of the mean squared distance. -/
theorem C119_compare {m n : Nat} (hm : 0 < m) (hn : 0 < n) (a b : Fin m → Fin n → ℂ) :
    ∃ d : Diff, cpuCompareArrays (flds a) (flds b) = .ok d ∧
      gpuCompareArrays (flds a) (flds b) = .ok ⟨d.maxDiff, some d.rmsDiff⟩ ∧
      IsGreatest (Set.range fun p : Fin m × Fin n => ‖a p.1 p.2 - b p.1 p.2‖) d.maxDiff ∧
      d.rmsDiff = √((∑ i, ∑ j, ‖a i j - b i j‖ ^ 2) / (m * n)) := by
  obtain ⟨M, h1, h2, h3, h4⟩ := cpuLoop_num (allPairs a b) 0 0 le_rfl
  rw [← flatMap_flds, zero_add, sum_allPairs] at h1
  have hla : (flds a).length = m := by simp [flds]
  have hlb : (flds b).length = m := by simp [flds]
  have hne : (flds a).zip (flds b) ≠ [] := by
    intro h
    have := congrArg List.length h
    rw [List.length_zip, hla, hlb, Nat.min_self] at this
    simp at this
    omega
  refine ⟨⟨M, √((∑ i, ∑ j, ‖a i j - b i j‖ ^ 2) / (m * n))⟩, ?_, ?_, ⟨?_, ?_⟩, rfl⟩
  · simp only [cpuCompareArrays, hla, hlb, flds_head hm a, gt_iff_lt, hm, hn, if_true]
    rw [cpuFields_eq n hn _ 0 0 0 (flds_sizes a b) (fun h => absurd h hne), h1]
    simp [Res.ok_bind]
  · simp only [gpuCompareArrays, hla, hlb, flds_head hm a, gt_iff_lt, hm, hn, if_true]
    rw [hostFields_eq n hn _ (flds_sizes a b)]
    simp [Res.ok_bind, gpuLoop_of_cpu _ _ _ _ _ h1, gpuFinish]
  · rcases h4 with h4 | ⟨p, hp, h4⟩
    · have h5 := h3 (a ⟨0, hm⟩ ⟨0, hn⟩, b ⟨0, hm⟩ ⟨0, hn⟩) ((mem_allPairs _ _ _).2 ⟨_, _, rfl⟩)
      refine ⟨(⟨0, hm⟩, ⟨0, hn⟩), ?_⟩
      have h6 := norm_nonneg (a ⟨0, hm⟩ ⟨0, hn⟩ - b ⟨0, hm⟩ ⟨0, hn⟩)
      simp only at h5 ⊢
      linarith
    · obtain ⟨i, j, rfl⟩ := (mem_allPairs _ _ _).1 hp
      exact ⟨(i, j), h4.symm⟩
  · rintro _ ⟨p, rfl⟩
    exact h3 (a p.1 p.2, b p.1 p.2) ((mem_allPairs _ _ _).2 ⟨_, _, rfl⟩)

/-- One field is compared like an array of one field. -/
theorem C119_single {n : Nat} (hn : 0 < n) (a b : Fin n → ℂ) :
    ∃ d : Diff, cpuCompare (fld a) (fld b) = .ok d ∧
      gpuCompare (fld a) (fld b) = .ok ⟨d.maxDiff, some d.rmsDiff⟩ ∧
      IsGreatest (Set.range fun j => ‖a j - b j‖) d.maxDiff ∧
      d.rmsDiff = √((∑ j, ‖a j - b j‖ ^ 2) / n) := by
  obtain ⟨d, h1, h2, h3, h4⟩ := C119_compare one_pos hn (fun _ : Fin 1 => a) (fun _ => b)
  have hla : (fld a).length = n := by simp [fld]
  have hlb : (fld b).length = n := by simp [fld]
  have ha : flds (fun _ : Fin 1 => a) = [fld a] := by simp [flds]
  have hb : flds (fun _ : Fin 1 => b) = [fld b] := by simp [flds]
  rw [ha, hb] at h1 h2
  refine ⟨d, ?_, ?_, ?_, ?_⟩
  · rw [← h1]
    simp only [cpuCompare, cpuCompareArrays, cpuFields, hla, hlb, List.length_singleton, List.headD_cons,
      List.zip_cons_cons, List.zip_nil_right, gt_iff_lt, hn, one_pos, if_true]
    cases cpuLoop ((fld a).zip (fld b)) 0 0 with
    | none => rfl
    | some p => simp [Res.ok_bind]
  · rw [← h2]
    have e1 : toHost n (fld a) = .ok (fld a) := by have := toHost_ok (fld a) (by omega); rwa [hla] at this
    have e2 : toHost n (fld b) = .ok (fld b) := by have := toHost_ok (fld b) (by omega); rwa [hlb] at this
    simp [gpuCompare, gpuCompareArrays, hostFields, hla, hlb, hn, e1, e2, Res.ok_bind]
  · have : (Set.range fun j => ‖a j - b j‖) = Set.range fun p : Fin 1 × Fin n => ‖a p.2 - b p.2‖ := by
      ext x
      simp [Prod.exists]
    rw [this]
    exact h3
  · simpa using h4

/-- Zero is reported if and only if the fields are equal, and `rmsDiff` is at most `maxDiff`. -/
theorem C119_zero_iff {m n : Nat} (hm : 0 < m) (hn : 0 < n) (a b : Fin m → Fin n → ℂ) (d : Diff)
    (h : cpuCompareArrays (flds a) (flds b) = .ok d) :
    (d.maxDiff = 0 ↔ a = b) ∧ (d.rmsDiff = 0 ↔ a = b) ∧ d.rmsDiff ≤ d.maxDiff := by
  obtain ⟨d', h1, -, h3, h4⟩ := C119_compare hm hn a b
  obtain rfl : d' = d := by rw [h1] at h; injection h
  have hpos : (0 : ℝ) < m * n := by positivity
  have hle : ∀ i j, ‖a i j - b i j‖ ≤ d'.maxDiff := fun i j => h3.2 ⟨(i, j), rfl⟩
  have h0 : 0 ≤ d'.maxDiff := le_trans (norm_nonneg _) (hle ⟨0, hm⟩ ⟨0, hn⟩)
  have hS : 0 ≤ ∑ i, ∑ j, ‖a i j - b i j‖ ^ 2 :=
    Finset.sum_nonneg fun i _ => Finset.sum_nonneg fun j _ => sq_nonneg _
  refine ⟨⟨fun e => ?_, fun e => ?_⟩, ⟨fun e => ?_, fun e => ?_⟩, ?_⟩
  · funext i j
    have := hle i j
    rw [e] at this
    exact sub_eq_zero.1 (norm_le_zero_iff.1 this)
  · obtain ⟨p, hp⟩ := h3.1
    rw [← hp, e]
    simp
  · rw [h4, Real.sqrt_eq_zero (div_nonneg hS hpos.le), div_eq_zero_iff, or_iff_left hpos.ne'] at e
    funext i j
    have e1 := (Finset.sum_eq_zero_iff_of_nonneg
      (fun i _ => Finset.sum_nonneg fun j _ => sq_nonneg _)).1 e i (Finset.mem_univ _)
    have e2 := (Finset.sum_eq_zero_iff_of_nonneg (fun j _ => sq_nonneg _)).1 e1 j (Finset.mem_univ _)
    exact sub_eq_zero.1 (norm_eq_zero.1 (pow_eq_zero_iff two_ne_zero |>.1 e2))
  · rw [h4, e]
    simp
  · rw [h4]
    refine Real.sqrt_le_iff.2 ⟨h0, ?_⟩
    rw [div_le_iff₀ hpos]
    calc ∑ i, ∑ j, ‖a i j - b i j‖ ^ 2 ≤ ∑ _i : Fin m, ∑ _j : Fin n, d'.maxDiff ^ 2 :=
          Finset.sum_le_sum fun i _ => Finset.sum_le_sum fun j _ =>
            pow_le_pow_left₀ (norm_nonneg _) (hle i j) 2
      _ = d'.maxDiff ^ 2 * (m * n) := by simp; ring

example : ∃ d : Diff, cpuCompareArrays (flds ![![0, Complex.I], ![1, 2]]) (flds ![![3 + 4 * Complex.I, Complex.I], ![1, 2]])
    = .ok d ∧ d.maxDiff ≠ 0 := by
  obtain ⟨d, h, -⟩ := C119_compare (m := 2) (n := 2) (by omega) (by omega)
    ![![0, Complex.I], ![1, 2]] ![![3 + 4 * Complex.I, Complex.I], ![1, 2]]
  refine ⟨d, h, fun e => ?_⟩
  have := congrFun (congrFun (((C119_zero_iff (by omega) (by omega) _ _ d h).1).1 e) 0) 0
  have := congrArg Complex.re this
  simp at this

/-- The order of the arguments does not matter, whatever the elements are. -/
theorem C119_symmetric (a b : List CDbl) : cpuCompare a b = cpuCompare b a ∧ gpuCompare a b = gpuCompare b a := by
  have hz : b.zip a = (a.zip b).map Prod.swap := (List.zip_swap a b).symm
  by_cases h : a.length = b.length
  · constructor
    · unfold cpuCompare
      rw [hz, cpuLoop_swap, h]
    · by_cases h0 : 0 < b.length
      · have e1 : toHost b.length a = .ok a := by have := toHost_ok a (by omega); rwa [h] at this
        unfold gpuCompare
        rw [h, e1, toHost_ok b h0, Res.ok_bind, Res.ok_bind, Res.ok_bind, Res.ok_bind, hz, gpuLoop_swap]
      · unfold gpuCompare
        rw [h, if_neg h0, if_neg h0]
  · have h' : b.length ≠ a.length := fun e => h e.symm
    simp [cpuCompare, gpuCompare, h, h']

/-- A NaN anywhere makes the CPU version report the difference `1e8`. -/
theorem C119_nan_cpu (n : Nat) (hn : 0 < n) (a b : List (List CDbl)) (hab : a.length = b.length)
    (hs : ∀ p ∈ a.zip b, p.1.length = n ∧ p.2.length = n)
    (h : ∃ p ∈ a.zip b, ∃ q ∈ p.1.zip p.2, IsNan q.1 ∨ IsNan q.2) : cpuCompareArrays a b = .ok nanDiff := by
  obtain ⟨p, hp, q, hq, h⟩ := h
  cases a with
  | nil => simp at hp
  | cons x a =>
    cases b with
    | nil => simp at hp
    | cons y b =>
      have hx : x.length = n := (hs (x, y) (by simp)).1
      simp only [cpuCompareArrays, hab, List.headD_cons, hx, gt_iff_lt, hn, if_true]
      rw [cpuFields_eq n hn _ 0 0 0 hs (by simp),
        cpuLoop_nan _ 0 0 ⟨q, List.mem_flatMap.2 ⟨p, hp, hq⟩, h⟩]
      simp [Res.ok_bind]

example : cpuCompareArrays [[(some 1, some 0)], [(some 1, none)]] [[(some 2, some 0)], [(some 1, some 1)]] =
    .ok nanDiff :=
  C119_nan_cpu 1 (by omega) _ _ rfl (by simp) ⟨([(some 1, none)], [(some 1, some 1)]), by simp,
    ((some 1, none), (some 1, some 1)), by simp, Or.inl (Or.inr rfl)⟩

/-- On the GPU a NaN anywhere makes `rmsDiff` NaN, and nothing else does. -/
theorem C119_nan_gpu_rms (n : Nat) (hn : 0 < n) (a b : List (List CDbl)) (hab : a.length = b.length) (ha : a ≠ [])
    (hs : ∀ p ∈ a.zip b, p.1.length = n ∧ p.2.length = n) :
    ∃ d : GDiff, gpuCompareArrays a b = .ok d ∧
      (d.rmsDiff = none ↔ ∃ p ∈ a.zip b, ∃ q ∈ p.1.zip p.2, IsNan q.1 ∨ IsNan q.2) := by
  cases a with
  | nil => simp at ha
  | cons x a =>
    cases b with
    | nil => simp at hab
    | cons y b =>
      have hx : x.length = n := (hs (x, y) (by simp)).1
      refine ⟨gpuFinish ((y :: b).length * n)
        (gpuLoop (((x :: a).zip (y :: b)).flatMap fun p => p.1.zip p.2) 0 (some 0)), ?_, ?_⟩
      · simp only [gpuCompareArrays, hab, List.headD_cons, hx, gt_iff_lt, hn, if_true]
        rw [hostFields_eq n hn _ hs]
        simp only [List.length_cons, Nat.succ_pos, if_true]
        rfl
      · simp only [gpuFinish, Option.map_eq_none_iff, gpuLoop_rms, List.mem_flatMap]
        constructor
        · rintro (h | ⟨q, ⟨p, hp, hq⟩, h⟩)
          · cases h
          · exact ⟨p, hp, q, hq, h⟩
        · rintro ⟨p, hp, q, hq, h⟩
          exact Or.inr ⟨q, ⟨p, hp, hq⟩, h⟩

example : ∃ d : GDiff, gpuCompareArrays [[(some 1, some 0)], [(some 1, none)]]
    [[(some 2, some 0)], [(some 1, some 1)]] = .ok d ∧ d.rmsDiff = none := by
  obtain ⟨d, h, h'⟩ := C119_nan_gpu_rms 1 (by omega) [[(some 1, some 0)], [(some 1, none)]]
    [[(some 2, some 0)], [(some 1, some 1)]] rfl (by simp) (by simp)
  exact ⟨d, h, h'.2 ⟨([(some 1, none)], [(some 1, some 1)]), by simp,
    ((some 1, none), (some 1, some 1)), by simp, Or.inl (Or.inr rfl)⟩⟩

/-- **Violation.**  On the GPU a field of NaN has `maxDiff = 0`, the value returned by `compare`, from any field. -/
theorem C119_violated_nan_gpu (n : Nat) (hn : 0 < n) (b : List CDbl) (hb : b.length = n) :
    gpuCompare (List.replicate n (none, none)) b = .ok ⟨0, none⟩ ∧
      cpuCompare (List.replicate n (none, none)) b = .ok nanDiff := by
  have hall : ∀ p ∈ (List.replicate n ((none, none) : CDbl)).zip b, IsNan p.1 ∨ IsNan p.2 := by
    intro p hp
    have := List.eq_of_mem_replicate (List.of_mem_zip hp).1
    exact Or.inl (by rw [this]; exact Or.inl rfl)
  have hex : ∃ p ∈ (List.replicate n ((none, none) : CDbl)).zip b, IsNan p.1 ∨ IsNan p.2 := by
    have hl : 0 < ((List.replicate n ((none, none) : CDbl)).zip b).length := by simp [hb, hn]
    exact ⟨_, List.getElem_mem hl, hall _ (List.getElem_mem hl)⟩
  have e1 : toHost n (List.replicate n ((none, none) : CDbl)) = .ok (List.replicate n (none, none)) := by
    have := toHost_ok (List.replicate n ((none, none) : CDbl)) (by simpa using hn)
    rwa [List.length_replicate] at this
  have e2 : toHost n b = .ok b := by have := toHost_ok b (by omega); rwa [hb] at this
  constructor
  · have h1 := gpuLoop_allNan _ 0 (some 0) hall
    have h2 := (gpuLoop_rms _ 0 (some 0)).2 (Or.inr hex)
    simp [gpuCompare, hb, hn, e1, e2, Res.ok_bind, gpuFinish, h1, h2]
  · simp [cpuCompare, hb, hn, cpuLoop_nan _ 0 0 hex]

/-- Fields of different sizes are refused. -/
theorem C119_sizes (a b : List CDbl) (h : a.length ≠ b.length) :
    cpuCompare a b = .throw ∧ gpuCompare a b = .throw := by
  simp [cpuCompare, gpuCompare, h]

example : gpuCompare [(some 1, some 0)] [(some 1, some 0), (some 2, some 0)] = .throw :=
  (C119_sizes _ _ (by simp)).2

/-- Arrays with different numbers of fields are refused, and so are arrays in which two corresponding fields have
different sizes.  (The CPU version can meet a NaN in an earlier field first, and then reports `1e8`.) -/
theorem C119_sizes_arrays (a b : List (List CDbl))
    (h : a.length ≠ b.length ∨ ∃ p ∈ a.zip b, p.1.length ≠ p.2.length) :
    (cpuCompareArrays a b = .throw ∨ cpuCompareArrays a b = .ok nanDiff) ∧ gpuCompareArrays a b = .throw := by
  have key : ∀ (l : List (List CDbl × List CDbl)) (n0 : Nat) (m r : ℝ), (∃ p ∈ l, p.1.length ≠ p.2.length) →
      cpuFields l n0 m r = .throw ∨ cpuFields l n0 m r = .ok none := by
    intro l
    induction l with
    | nil => rintro _ _ _ ⟨p, hp, -⟩; simp at hp
    | cons q l ih =>
      rintro n0 m r ⟨p, hp, hne⟩
      obtain ⟨x, y⟩ := q
      simp only [cpuFields]
      split
      · split
        · rename_i h1 h2
          cases cpuLoop (x.zip y) m r with
          | none => exact Or.inr rfl
          | some s =>
            rcases List.mem_cons.1 hp with rfl | hp
            · exact absurd h2 hne
            · exact ih _ _ _ ⟨p, hp, hne⟩
        · exact Or.inl rfl
      · exact Or.inl rfl
  by_cases hl : a.length = b.length
  · have h' := h.resolve_left (fun e => e hl)
    by_cases ha : 0 < b.length
    · by_cases h0 : 0 < (a.headD []).length
      · constructor
        · simp only [cpuCompareArrays, hl, gt_iff_lt, ha, h0, if_true]
          rcases key _ 0 0 0 h' with e | e <;> rw [e]
          · exact Or.inl rfl
          · exact Or.inr rfl
        · simp only [gpuCompareArrays, hl, gt_iff_lt, ha, h0, if_true]
          rw [hostFields_throw _ h0]
          · rfl
          · obtain ⟨p, hp, hne⟩ := h'
            refine ⟨p, hp, ?_⟩
            by_contra hc
            push Not at hc
            exact hne (hc.1.trans hc.2.symm)
      · exact ⟨Or.inl (by simp only [cpuCompareArrays, hl, gt_iff_lt, ha, h0, if_true, if_false]),
          by simp only [gpuCompareArrays, hl, gt_iff_lt, ha, h0, if_true, if_false]⟩
    · exact ⟨Or.inl (by simp [cpuCompareArrays, hl, ha]), by simp [gpuCompareArrays, hl, ha]⟩
  · exact ⟨Or.inl (by simp [cpuCompareArrays, hl]), by simp [gpuCompareArrays, hl]⟩

example : gpuCompareArrays [[(some 1, some 0)], [(some 1, some 0)]]
    [[(some 1, some 0)], [(some 1, some 0), (some 2, some 0)]] = .throw :=
  (C119_sizes_arrays _ _ (Or.inr ⟨([(some 1, some 0)], [(some 1, some 0), (some 2, some 0)]), by simp, by simp⟩)).2

/-- A single real field is compared on the GPU as on the CPU. -/
theorem C119_real_single (a b : List Dbl) : gpuCompareR a b = Reduce.compare 0 a b := by
  by_cases ha : 0 < a.length
  · by_cases h : b.length = a.length
    · have e2 : toHost a.length b = .ok b := by have := toHost_ok b (by omega); rwa [h] at this
      simp only [gpuCompareR, gt_iff_lt, ha, if_true, toHost_ok a ha, e2, Res.ok_bind]
    · simp only [gpuCompareR, gt_iff_lt, ha, if_true, toHost_ok a ha, toHost_throw _ b h ha, Res.ok_bind]
      simp [Reduce.compare, ha, Ne.symm h]
  · simp [gpuCompareR, Reduce.compare, ha]

/-- Arrays of real fields are compared on the GPU as on the CPU, if the numbers of fields agree.  Missing: the other
case, see `C119_violated_extra` and `C119_violated_ub`. -/
theorem C119_real_partial (a b : List (List Dbl)) (hab : a.length = b.length) (hne : a ≠ [])
    (ha : ∀ x ∈ a, 0 < x.length) (hb : ∀ x ∈ b, 0 < x.length) :
    compareFieldsRGridGpu a b = compareFieldsRGridCpu a b := by
  have h := hostFieldsR_eq a b (by omega) ha (by rw [hab, List.take_length]; exact hb)
  cases a with
  | nil => exact absurd rfl hne
  | cons x a =>
    rw [hab, List.take_length] at h
    simp only [compareFieldsRGridGpu, compareFieldsRGridCpu, gpuCompareArraysR, h, Res.ok_bind]

example : compareFieldsRGridGpu [[some 1, some 2], [some 3, none]] [[some 1, some 2], [some 5, some 4]] =
    compareFieldsRGridCpu [[some 1, some 2], [some 3, none]] [[some 1, some 2], [some 5, some 4]] :=
  C119_real_partial _ _ rfl (by simp) (by simp) (by simp)

/-- **Violation.**  On the GPU, fields of the second array in excess of those of the first are ignored, so that sets
with different numbers of fields are reported as equal; the CPU version throws an exception. -/
theorem C119_violated_extra (a extra : List (List ℝ)) (hne : a ≠ []) (hx : extra ≠ []) (n : Nat) (hn : 0 < n)
    (ha : ∀ x ∈ a, x.length = n) :
    compareFieldsRGridGpu (a.map (·.map some)) ((a ++ extra).map (·.map some)) = .ok ⟨0, 0⟩ ∧
      compareFieldsRGridCpu (a.map (·.map some)) ((a ++ extra).map (·.map some)) = .throw := by
  have hpos : ∀ x ∈ a.map (·.map (some : ℝ → Dbl)), 0 < x.length := by
    intro x hx
    obtain ⟨y, hy, rfl⟩ := List.mem_map.1 hx
    simp [ha y hy, hn]
  have ht : ((a ++ extra).map (·.map (some : ℝ → Dbl))).take (a.map (·.map (some : ℝ → Dbl))).length =
      a.map (·.map some) := by
    rw [List.map_append, List.take_left]
  have h := hostFieldsR_eq (a.map (·.map some)) ((a ++ extra).map (·.map some)) (by simp) hpos (by rw [ht]; exact hpos)
  have hloop : ∀ (x : List ℝ), cmpLoop ((x.map some).zip (x.map some)) 0 0 = some (0, 0) := by
    intro x
    induction x with
    | nil => rfl
    | cons y x ih => simpa [cmpLoop, dabs, dsub] using ih
  have hfields : ∀ (l : List (List ℝ)) (n0 : Nat), (∀ x ∈ l, x.length = n) →
      ∃ k, cmpFields 0 ((l.map (·.map some)).zip (l.map (·.map some))) n0 0 0 = .ok (some (k, 0, 0)) := by
    intro l
    induction l with
    | nil => intro n0 _; exact ⟨n0, rfl⟩
    | cons x l ih =>
      intro n0 hl
      obtain ⟨k, hk⟩ := ih n fun y hy => hl y (List.mem_cons_of_mem _ hy)
      refine ⟨k, ?_⟩
      have hxl : x.length = n := hl x (by simp)
      simp only [List.map_cons, List.zip_cons_cons, cmpFields, List.length_map, hxl, gt_iff_lt, hn, if_true,
        List.drop_zero, hloop]
      exact hk
  have hc : compareArrays 0 (a.map (·.map some)) (a.map (·.map some)) = .ok ⟨0, 0⟩ := by
    obtain ⟨k, hk⟩ := hfields a 0 ha
    cases a with
    | nil => exact absurd rfl hne
    | cons x a =>
      have hxl : x.length = n := ha x (by simp)
      simp only [compareArrays, hk, Res.ok_bind]
      simp [hxl, hn]
  constructor
  · cases a with
    | nil => exact absurd rfl hne
    | cons x a =>
      rw [ht] at h
      have : compareFieldsRGridGpu ((x :: a).map (·.map some)) ((x :: a ++ extra).map (·.map some)) =
        (hostFieldsR ((x :: a).map (·.map some)) ((x :: a ++ extra).map (·.map some)) >>= fun h =>
          compareArrays 0 h.1 h.2) := rfl
      rw [this, h]
      exact hc
  · have hl : extra.length ≠ 0 := by simpa using hx
    have : (a.map (·.map (some : ℝ → Dbl))).length ≠ ((a ++ extra).map (·.map (some : ℝ → Dbl))).length := by
      simp [hx]
    simp only [compareFieldsRGridCpu, compareArrays, if_neg this]
    split <;> rfl

example : compareFieldsRGridGpu [[some 1]] [[some 1], [some 7]] = .ok ⟨0, 0⟩ :=
  (C119_violated_extra [[1]] [[7]] (by simp) (by simp) 1 (by omega) (by simp)).1

/-- **Violation.**  On the GPU an empty first array, or a second array with fewer fields than the first, makes the
program read outside of an array; the CPU version throws an exception. -/
theorem C119_violated_ub (a b : List (List Dbl)) (h : a = [] ∨ b.length < a.length)
    (ha : ∀ x ∈ a, 0 < x.length) (hb : ∀ x ∈ b, 0 < x.length) :
    compareFieldsRGridGpu a b = .ub ∧ compareFieldsRGridCpu a b = .throw := by
  cases a with
  | nil => exact ⟨rfl, by simp [compareFieldsRGridCpu, compareArrays]⟩
  | cons x a =>
    have h' := h.resolve_left (by simp)
    constructor
    · have : compareFieldsRGridGpu (x :: a) b = (hostFieldsR (x :: a) b >>= fun h => compareArrays 0 h.1 h.2) := rfl
      rw [this, hostFieldsR_ub _ _ h' ha hb]
      rfl
    · have : (x :: a).length ≠ b.length := by omega
      simp only [compareFieldsRGridCpu, compareArrays, if_neg this]
      split <;> rfl

example : compareFieldsRGridGpu [[some 1], [some 7]] [[some 1]] = .ub :=
  (C119_violated_ub _ _ (Or.inr (by simp)) (by simp) (by simp)).1

/-- **Violation.**  `compareFieldsBasis` never looks at the coefficients of the first basis function: fields that
differ by any constants are reported as equal. -/
theorem C119_violated_average (n : Nat) (l : List (ℝ × ℝ × List ℝ)) (hl : l ≠ []) (hn : ∀ p ∈ l, p.2.2.length = n) :
    compareFieldsBasis (l.map fun p => (p.1 :: p.2.2).map some) (l.map fun p => (p.2.1 :: p.2.2).map some) =
      .ok ⟨0, 0⟩ := by
  have hloop : ∀ (x : List ℝ), cmpLoop ((x.map some).zip (x.map some)) 0 0 = some (0, 0) := by
    intro x
    induction x with
    | nil => rfl
    | cons y x ih => simpa [cmpLoop, dabs, dsub] using ih
  have hfields : ∀ (l : List (ℝ × ℝ × List ℝ)) (n0 : Nat),
      ∃ k, cmpFields 1 ((l.map fun p => (p.1 :: p.2.2).map some).zip (l.map fun p => (p.2.1 :: p.2.2).map some))
        n0 0 0 = .ok (some (k, 0, 0)) := by
    intro l
    induction l with
    | nil => intro n0; exact ⟨n0, rfl⟩
    | cons x l ih =>
      intro n0
      obtain ⟨k, hk⟩ := ih (x.2.2.length + 1)
      refine ⟨k, ?_⟩
      simp only [List.map_cons, List.zip_cons_cons, cmpFields, List.length_map, List.length_cons, gt_iff_lt,
        Nat.succ_pos, if_true, List.drop_succ_cons, List.drop_zero, hloop]
      exact hk
  obtain ⟨k, hk⟩ := hfields l 0
  cases l with
  | nil => exact absurd rfl hl
  | cons x l =>
    simp only [compareFieldsBasis, compareArrays, hk, Res.ok_bind]
    simp

example : compareFieldsBasis [[some 1, some 3]] [[some 2, some 3]] = .ok ⟨0, 0⟩ :=
  C119_violated_average 1 [(1, 2, [3])] (by simp) (by simp)

end Verif.Compare
