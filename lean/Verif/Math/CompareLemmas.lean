import Verif.Math.CompareModel
import Mathlib.Analysis.Complex.Norm
import Mathlib.Algebra.BigOperators.Fin
import Mathlib.Tactic.Linarith

/-!
# Lemmas about comparison of complex fields
-/

set_option autoImplicit false

namespace Verif.Compare

open Verif.Reduce

/-- A complex number as an element of a field. -/
def toC (z : ℂ) : CDbl := (some z.re, some z.im)

/-- A field of complex numbers. -/
def fld {n : Nat} (f : Fin n → ℂ) : List CDbl := List.ofFn fun i => toC (f i)

/-- An array of fields. -/
def flds {m n : Nat} (f : Fin m → Fin n → ℂ) : List (List CDbl) := List.ofFn fun i => fld (f i)

/-- Is one of the two parts NaN? -/
def IsNan (x : CDbl) : Prop := x.1 = none ∨ x.2 = none

theorem diffSq_toC (z w : ℂ) : diffSq (toC z) (toC w) = some (‖z - w‖ ^ 2) := by
  simp [diffSq, toC, dsub, dmul, dadd, Complex.sq_norm, Complex.normSq_apply]

theorem diffSq_none (x y : CDbl) : diffSq x y = none ↔ IsNan x ∨ IsNan y := by
  obtain ⟨x1, x2⟩ := x
  obtain ⟨y1, y2⟩ := y
  cases x1 <;> cases x2 <;> cases y1 <;> cases y2 <;> simp [diffSq, IsNan, dsub, dmul, dadd]

theorem diffSq_comm (x y : CDbl) : diffSq x y = diffSq y x := by
  obtain ⟨x1, x2⟩ := x
  obtain ⟨y1, y2⟩ := y
  cases x1 <;> cases x2 <;> cases y1 <;> cases y2 <;> simp [diffSq, dsub, dmul, dadd]
  ring

/-- What the loop over elements computes for numbers. -/
theorem cpuLoop_num : ∀ (l : List (ℂ × ℂ)) (m r : ℝ), 0 ≤ m →
    ∃ M, cpuLoop (l.map fun p => (toC p.1, toC p.2)) m r =
      some (M, r + (l.map fun p => ‖p.1 - p.2‖ ^ 2).sum) ∧
    m ≤ M ∧ (∀ p ∈ l, ‖p.1 - p.2‖ ≤ M) ∧ (M = m ∨ ∃ p ∈ l, M = ‖p.1 - p.2‖)
  | [], m, r, _ => ⟨m, by simp [cpuLoop]⟩
  | (x, y) :: l, m, r, hm => by
    obtain ⟨M, h1, h2, h3, h4⟩ := cpuLoop_num l (if ‖x - y‖ > m then ‖x - y‖ else m)
      (r + ‖x - y‖ ^ 2) (by split <;> [exact norm_nonneg _; exact hm])
    refine ⟨M, ?_, ?_, ?_, ?_⟩
    · simp only [List.map_cons, cpuLoop, diffSq_toC, Real.sqrt_sq (norm_nonneg _), List.sum_cons]
      rw [h1, add_assoc]
    · refine le_trans ?_ h2
      split
      · rename_i h; exact le_of_lt h
      · exact le_rfl
    · intro p hp
      rcases List.mem_cons.1 hp with rfl | hp
      · refine le_trans ?_ h2
        split
        · exact le_rfl
        · rename_i h; exact not_lt.1 h
      · exact h3 p hp
    · rcases h4 with h4 | ⟨p, hp, h4⟩
      · split at h4
        · exact Or.inr ⟨(x, y), by simp, h4⟩
        · exact Or.inl h4
      · exact Or.inr ⟨p, List.mem_cons_of_mem _ hp, h4⟩

theorem cpuLoop_append : ∀ (l k : List (CDbl × CDbl)) (m r : ℝ),
    cpuLoop (l ++ k) m r = (cpuLoop l m r).bind fun p => cpuLoop k p.1 p.2
  | [], _, _, _ => rfl
  | (x, y) :: l, k, m, r => by
    simp only [List.cons_append, cpuLoop]
    cases diffSq x y with
    | none => rfl
    | some q => exact cpuLoop_append l k _ _

theorem cpuLoop_nan : ∀ (l : List (CDbl × CDbl)) (m r : ℝ), (∃ p ∈ l, IsNan p.1 ∨ IsNan p.2) →
    cpuLoop l m r = none
  | (x, y) :: l, m, r, ⟨p, hp, h⟩ => by
    simp only [cpuLoop]
    cases hd : diffSq x y with
    | none => rfl
    | some q =>
      rcases List.mem_cons.1 hp with rfl | hp
      · rw [(diffSq_none _ _).2 h] at hd; cases hd
      · exact cpuLoop_nan l _ _ ⟨p, hp, h⟩

theorem cpuLoop_swap : ∀ (l : List (CDbl × CDbl)) (m r : ℝ), cpuLoop (l.map Prod.swap) m r = cpuLoop l m r
  | [], _, _ => rfl
  | (x, y) :: l, m, r => by
    simp only [List.map_cons, Prod.swap_prod_mk, cpuLoop, diffSq_comm y x]
    cases diffSq x y with
    | none => rfl
    | some q => exact cpuLoop_swap l _ _

theorem gpuLoop_swap : ∀ (l : List (CDbl × CDbl)) (m : ℝ) (r : Dbl), gpuLoop (l.map Prod.swap) m r = gpuLoop l m r
  | [], _, _ => rfl
  | (x, y) :: l, m, r => by
    simp only [List.map_cons, Prod.swap_prod_mk, gpuLoop, diffSq_comm y x]
    exact gpuLoop_swap l _ _

/-- Without NaN the two loops agree. -/
theorem gpuLoop_of_cpu : ∀ (l : List (CDbl × CDbl)) (m r M R : ℝ), cpuLoop l m r = some (M, R) →
    gpuLoop l m (some r) = (M, some R)
  | [], m, r, M, R, h => by
    simp only [cpuLoop, Option.some.injEq, Prod.mk.injEq] at h
    simp [gpuLoop, h.1, h.2]
  | (x, y) :: l, m, r, M, R, h => by
    simp only [cpuLoop] at h
    simp only [gpuLoop]
    cases hd : diffSq x y with
    | none => rw [hd] at h; cases h
    | some q =>
      rw [hd] at h
      exact gpuLoop_of_cpu l _ _ M R h

theorem dadd_none (a b : Dbl) : dadd a b = none ↔ a = none ∨ b = none := by
  cases a <;> cases b <;> simp [dadd]

theorem gpuLoop_rms : ∀ (l : List (CDbl × CDbl)) (m : ℝ) (r : Dbl),
    (gpuLoop l m r).2 = none ↔ r = none ∨ ∃ p ∈ l, IsNan p.1 ∨ IsNan p.2
  | [], m, r => by simp [gpuLoop]
  | (x, y) :: l, m, r => by
    rw [gpuLoop, gpuLoop_rms l, dadd_none, diffSq_none]
    simp [or_assoc]

theorem gpuLoop_allNan : ∀ (l : List (CDbl × CDbl)) (m : ℝ) (r : Dbl),
    (∀ p ∈ l, IsNan p.1 ∨ IsNan p.2) → (gpuLoop l m r).1 = m
  | [], m, r, _ => rfl
  | (x, y) :: l, m, r, h => by
    have hd : diffSq x y = none := (diffSq_none _ _).2 (h (x, y) (by simp))
    rw [gpuLoop, gpuLoop_allNan l _ _ (fun p hp => h p (List.mem_cons_of_mem _ hp)), hd]
    rfl

/-- Fields of equal size are compared like one long field. -/
theorem cpuFields_eq (n : Nat) (hn : 0 < n) : ∀ (l : List (List CDbl × List CDbl)) (n0 : Nat) (m r : ℝ),
    (∀ p ∈ l, p.1.length = n ∧ p.2.length = n) → (l = [] → n0 = n) →
    cpuFields l n0 m r = .ok ((cpuLoop (l.flatMap fun p => p.1.zip p.2) m r).map fun p => (n, p.1, p.2))
  | [], n0, m, r, _, h => by simp [cpuFields, cpuLoop, h rfl]
  | (a, b) :: l, n0, m, r, h, _ => by
    obtain ⟨ha, hb⟩ := h (a, b) (by simp)
    simp only at ha hb
    simp only [cpuFields, ha, hb, if_pos hn, if_true, List.flatMap_cons, cpuLoop_append]
    cases hc : cpuLoop (a.zip b) m r with
    | none => rfl
    | some p =>
      exact cpuFields_eq n hn l n p.1 p.2 (fun q hq => h q (List.mem_cons_of_mem _ hq)) (fun _ => rfl)

theorem toHost_ok {α : Type} (x : List α) (h : 0 < x.length) : toHost x.length x = .ok x := by
  simp [toHost, h]

theorem toHost_zero {α : Type} (x : List α) (h : 0 < x.length) : toHost 0 x = .ok x := by
  simp [toHost, h]

theorem toHost_throw {α : Type} (cap : Nat) (x : List α) (h : x.length ≠ cap) (hc : 0 < cap) :
    toHost cap x = .throw := by
  unfold toHost
  split
  · rw [if_neg]
    rintro (h' | h')
    · omega
    · exact h h'.symm
  · rfl

theorem hostFields_eq {α : Type} (cap : Nat) (hc : 0 < cap) : ∀ l : List (List α × List α),
    (∀ p ∈ l, p.1.length = cap ∧ p.2.length = cap) → hostFields cap l = .ok l
  | [], _ => rfl
  | (a, b) :: l, h => by
    obtain ⟨ha, hb⟩ := h (a, b) (by simp)
    simp only at ha hb
    have h1 : toHost cap a = .ok a := ha ▸ toHost_ok a (by omega)
    have h2 : toHost cap b = .ok b := hb ▸ toHost_ok b (by omega)
    have h3 := hostFields_eq cap hc l fun p hp => h p (List.mem_cons_of_mem _ hp)
    simp only [hostFields, h1, h2, h3]
    rfl

theorem hostFields_throw {α : Type} (cap : Nat) (hc : 0 < cap) : ∀ l : List (List α × List α),
    (∃ p ∈ l, p.1.length ≠ cap ∨ p.2.length ≠ cap) → hostFields cap l = .throw
  | (a, b) :: l, ⟨p, hp, h⟩ => by
    by_cases ha : a.length = cap
    · by_cases hb : b.length = cap
      · have h1 : toHost cap a = .ok a := ha ▸ toHost_ok a (by omega)
        have h2 : toHost cap b = .ok b := hb ▸ toHost_ok b (by omega)
        have h3 : hostFields cap l = .throw := by
          rcases List.mem_cons.1 hp with rfl | hp
          · simp [ha, hb] at h
          · exact hostFields_throw cap hc l ⟨p, hp, h⟩
        simp only [hostFields, h1, h2, h3]
        rfl
      · have h1 : toHost cap a = .ok a := ha ▸ toHost_ok a (by omega)
        simp only [hostFields, h1, toHost_throw cap b hb hc]
        rfl
    · simp only [hostFields, toHost_throw cap a ha hc]
      rfl

theorem hostFieldsR_eq : ∀ a b : List (List Dbl), a.length ≤ b.length → (∀ x ∈ a, 0 < x.length) →
    (∀ x ∈ b.take a.length, 0 < x.length) → hostFieldsR a b = .ok (a, b.take a.length)
  | [], _, _, _, _ => rfl
  | _ :: _, [], h, _, _ => by simp at h
  | x :: a, y :: b, h, ha, hb => by
    have h3 := hostFieldsR_eq a b (by simpa using h) (fun z hz => ha z (List.mem_cons_of_mem _ hz))
      (fun z hz => hb z (by simp [hz]))
    simp only [hostFieldsR, toHost_zero x (ha x (by simp)), toHost_zero y (hb y (by simp))]
    change (hostFieldsR a b >>= fun r => Res.ok (x :: r.1, y :: r.2)) = _
    rw [h3]
    rfl

theorem hostFieldsR_ub : ∀ a b : List (List Dbl), b.length < a.length → (∀ x ∈ a, 0 < x.length) →
    (∀ x ∈ b, 0 < x.length) → hostFieldsR a b = .ub
  | [], _, h, _, _ => by simp at h
  | x :: a, [], _, ha, _ => by
    simp only [hostFieldsR, toHost_zero x (ha x (by simp))]
    rfl
  | x :: a, y :: b, h, ha, hb => by
    have h3 := hostFieldsR_ub a b (by simpa using h) (fun z hz => ha z (List.mem_cons_of_mem _ hz))
      (fun z hz => hb z (List.mem_cons_of_mem _ hz))
    simp only [hostFieldsR, toHost_zero x (ha x (by simp)), toHost_zero y (hb y (by simp))]
    change (hostFieldsR a b >>= fun r => Res.ok (x :: r.1, y :: r.2)) = _
    rw [h3]
    rfl

theorem zip_ofFn {α β : Type} {n : Nat} (f : Fin n → α) (g : Fin n → β) :
    (List.ofFn f).zip (List.ofFn g) = List.ofFn fun i => (f i, g i) := by
  apply List.ext_getElem <;> simp

/-- All pairs of elements of two arrays of fields. -/
def allPairs {m n : Nat} (a b : Fin m → Fin n → ℂ) : List (ℂ × ℂ) :=
  (List.ofFn fun i => List.ofFn fun j => (a i j, b i j)).flatten

theorem flatMap_flds {m n : Nat} (a b : Fin m → Fin n → ℂ) :
    ((flds a).zip (flds b)).flatMap (fun p => p.1.zip p.2) =
      (allPairs a b).map fun p => (toC p.1, toC p.2) := by
  rw [flds, flds, zip_ofFn, List.flatMap_def, List.map_ofFn, allPairs, List.map_flatten, List.map_ofFn]
  congr 2
  funext i
  simp [fld, zip_ofFn, Function.comp_def]

theorem mem_allPairs {m n : Nat} (a b : Fin m → Fin n → ℂ) (p : ℂ × ℂ) :
    p ∈ allPairs a b ↔ ∃ i j, p = (a i j, b i j) := by
  simp only [allPairs, List.mem_flatten, List.mem_ofFn]
  constructor
  · rintro ⟨l, ⟨i, rfl⟩, hp⟩
    obtain ⟨j, hj⟩ := List.mem_ofFn.1 hp
    exact ⟨i, j, hj.symm⟩
  · rintro ⟨i, j, rfl⟩
    exact ⟨_, ⟨i, rfl⟩, List.mem_ofFn.2 ⟨j, rfl⟩⟩

theorem sum_allPairs {m n : Nat} (a b : Fin m → Fin n → ℂ) :
    ((allPairs a b).map fun p => ‖p.1 - p.2‖ ^ 2).sum = ∑ i, ∑ j, ‖a i j - b i j‖ ^ 2 := by
  rw [allPairs, List.map_flatten, List.sum_flatten, List.map_ofFn, List.map_ofFn, List.sum_ofFn]
  refine Finset.sum_congr rfl fun i _ => ?_
  simp [Function.comp_def, List.map_ofFn, List.sum_ofFn]

theorem flds_sizes {m n : Nat} (a b : Fin m → Fin n → ℂ) :
    ∀ p ∈ (flds a).zip (flds b), p.1.length = n ∧ p.2.length = n := by
  rw [flds, flds, zip_ofFn]
  intro p hp
  obtain ⟨i, rfl⟩ := List.mem_ofFn.1 hp
  simp [fld]

theorem flds_head {m n : Nat} (hm : 0 < m) (a : Fin m → Fin n → ℂ) : ((flds a).headD []).length = n := by
  obtain ⟨k, rfl⟩ := Nat.exists_eq_succ_of_ne_zero hm.ne'
  simp [flds, fld, List.ofFn_succ]

end Verif.Compare
