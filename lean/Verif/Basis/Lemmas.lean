import Verif.Basis.Spec
import Verif.Tac
import Mathlib.Data.Fintype.EquivFin

/-!
# Lemmas about the basis model
-/

namespace Verif.Basis
open Verif.Mesh (IntVec Mesh InRange shiftVec)

set_option linter.unusedSectionVars false
variable {K : Type} [Field K] [LinearOrder K]

theorem get_ok {α : Type*} {l : List α} {i : Nat} {a : α} : get l i = .ok a ↔ l[i]? = some a := by
  unfold get
  cases l[i]? <;> simp

theorem getI_ok {α : Type*} {l : List α} {i : Int} {a : α} :
    getI l i = .ok a ↔ 0 ≤ i ∧ l[i.toNat]? = some a := by
  unfold getI
  split
  · simp [get_ok, *]
  · simp [*]

theorem loopAll_true {α : Type*} {f : α → Res Bool} {l : List α} :
    loopAll f l = .ok true ↔ ∀ a ∈ l, f a = .ok true := by
  induction l with
  | nil => simp [loopAll]
  | cons a l ih =>
    simp only [loopAll, List.forall_mem_cons, ← ih]
    cases h : f a with
    | ok r => cases r <;> simp
    | throw => simp
    | ub => simp

theorem mem_zip_range {α : Type*} {l : List α} {i : Nat} {a : α} :
    (i, a) ∈ (List.range l.length).zip l ↔ l[i]? = some a := by
  rw [List.mem_iff_getElem?]
  constructor
  · rintro ⟨n, hn⟩
    rw [List.getElem?_zip_eq_some] at hn
    obtain ⟨h1, h2⟩ := hn
    rw [List.getElem?_eq_some_iff] at h1
    obtain ⟨hlt, h1⟩ := h1
    simp at h1
    subst h1; exact h2
  · intro h
    refine ⟨i, ?_⟩
    rw [List.getElem?_zip_eq_some]
    have : i < l.length := (List.getElem?_eq_some_iff.mp h).1
    exact ⟨by rw [List.getElem?_range this], h⟩

/-! ## `setBasisIds` -/

theorem setBasisIds_length (i j : Nat) (ss : List Star) :
    (setBasisIds i j ss).1.length = ss.length := by
  induction ss generalizing i j with
  | nil => rfl
  | cons s ss ih => simp only [setBasisIds]; split <;> simp [ih]

/-- The ids of the `k`-th star. -/
theorem setBasisIds_star (i j : Nat) (ss : List Star) (k : Nat) (s : Star)
    (h : (setBasisIds i j ss).1[k]? = some s) :
    s.starId = i + k ∧
      s.basisId = if s.cancel then -1 else ((j + nBefore (setBasisIds i j ss).1 k : Nat) : Int) := by
  induction ss generalizing i j k with
  | nil => simp [setBasisIds] at h
  | cons a ss ih =>
    by_cases hc : a.cancel = true
    · simp only [setBasisIds, hc, if_true] at h ⊢
      cases k with
      | zero => simp at h; subst h; simp [hc]
      | succ k =>
        simp only [List.getElem?_cons_succ] at h
        obtain ⟨h1, h2⟩ := ih (i + 1) j k h
        refine ⟨by omega, ?_⟩
        rw [h2]; simp [nBefore, hc]
    · simp only [Bool.not_eq_true] at hc
      simp only [setBasisIds, hc] at h ⊢
      cases k with
      | zero => simp at h; subst h; simp [hc, nBefore]
      | succ k =>
        simp only [List.getElem?_cons_succ, Bool.false_eq_true, if_false] at h
        obtain ⟨h1, h2⟩ := ih (i + 1) (j + 1) k h
        refine ⟨by omega, ?_⟩
        rw [h2]
        simp only [nBefore, Bool.false_eq_true, if_false, List.take_succ_cons, List.filter_cons, hc,
          Bool.not_false, if_true, List.length_cons]
        congr 1
        push_cast; ring

theorem setBasisIds_count (i j : Nat) (ss : List Star) :
    (setBasisIds i j ss).2.length = nBefore (setBasisIds i j ss).1 ss.length := by
  induction ss generalizing i j with
  | nil => rfl
  | cons a ss ih =>
    by_cases hc : a.cancel = true
    · simp only [setBasisIds, hc, if_true, List.length_cons]
      rw [ih]; simp [nBefore, hc]
    · simp only [Bool.not_eq_true] at hc
      simp only [setBasisIds, hc, Bool.false_eq_true, if_false, List.length_cons]
      rw [ih]; simp [nBefore, hc]

/-- The table `starIds_` lists exactly the uncancelled stars, at their basis index. -/
theorem setBasisIds_table (i j : Nat) (ss : List Star) (n k : Nat) :
    (setBasisIds i j ss).2[n]? = some k ↔
      ∃ k' s, k = i + k' ∧ (setBasisIds i j ss).1[k']? = some s ∧ s.cancel = false ∧
        s.basisId = ((j + n : Nat) : Int) := by
  induction ss generalizing i j n with
  | nil => simp [setBasisIds]
  | cons a ss ih =>
    by_cases hc : a.cancel = true
    · simp only [setBasisIds, hc, if_true]
      rw [ih]
      constructor
      · rintro ⟨k', s, rfl, h⟩
        exact ⟨k' + 1, s, by omega, by simpa using h⟩
      · rintro ⟨k', s, rfl, h1, h2, h3⟩
        cases k' with
        | zero => simp at h1; subst h1; simp [hc] at h2
        | succ k' => exact ⟨k', s, by omega, by simpa using h1, h2, h3⟩
    · simp only [Bool.not_eq_true] at hc
      simp only [setBasisIds, hc, Bool.false_eq_true, if_false]
      cases n with
      | zero =>
        simp only [List.getElem?_cons_zero, Option.some.injEq, Nat.add_zero]
        constructor
        · rintro rfl
          exact ⟨0, _, rfl, List.getElem?_cons_zero, rfl, rfl⟩
        · rintro ⟨k', s, rfl, h1, h2, h3⟩
          cases k' with
          | zero => rfl
          | succ k' =>
            exfalso
            simp only [List.getElem?_cons_succ] at h1
            have := (setBasisIds_star _ _ _ _ _ h1).2
            rw [h2] at this
            simp only [Bool.false_eq_true, if_false] at this
            omega
      | succ n =>
        simp only [List.getElem?_cons_succ]
        rw [ih]
        constructor
        · rintro ⟨k', s, rfl, h1, h2, h3⟩
          exact ⟨k' + 1, s, by omega, by simpa using h1, h2, by rw [h3]; push_cast; ring⟩
        · rintro ⟨k', s, rfl, h1, h2, h3⟩
          cases k' with
          | zero =>
            simp at h1; subst h1; simp at h3; omega
          | succ k' =>
            exact ⟨k', s, by omega, by simpa using h1, h2, by rw [h3]; push_cast; ring⟩

/-! ## `setImplicit` -/

theorem setImplicit_spec {m : Mesh} {dims : IntVec} {i : Nat} {ws ws' : List (Wave K)}
    {ids ids' : List Nat} (h : setImplicit m dims i ws ids = .ok (ws', ids')) :
    ∀ w ∈ ws', Mesh.inMesh dims w.dft = true ∧ w.implicit = isImplicit dims w.dft := by
  induction ws generalizing i ids ws' ids' with
  | nil => simp [setImplicit] at h; obtain ⟨rfl, -⟩ := h; simp
  | cons w ws ih =>
    simp only [setImplicit, Res.bind_eq_ok] at h
    obtain ⟨_, h1, ids1, h2, ⟨ws1, ids2⟩, h3, h4⟩ := h
    simp at h4
    rw [← h4.1]
    intro x hx
    rcases List.mem_cons.mp hx with rfl | hx
    · refine ⟨?_, rfl⟩
      unfold Res.check at h1
      split at h1
      · assumption
      · simp at h1
    · exact ih h3 x hx

/-! ## Consecutive ranges -/

/-- Telescoping of star sizes. -/
theorem sum_sizes : ∀ (l : List Star), (∀ s ∈ l, s.endId = s.beginId + s.size) →
    (∀ (k : Nat) s t, l[k]? = some s → l[k + 1]? = some t → t.beginId = s.endId) →
    ∀ f e, l[0]? = some f → l[l.length - 1]? = some e →
      f.beginId + (l.map (·.size)).sum = e.endId := by
  intro l
  induction l with
  | nil => intro _ _ f e h; simp at h
  | cons a l ih =>
    intro hs hc f e hf he
    simp at hf; subst hf
    cases l with
    | nil => simp at he; subst he; simp [hs]
    | cons a' l =>
      have h1 := ih (fun s hs' => hs s (List.mem_cons_of_mem _ hs'))
        (fun k s t h1 h2 => hc (k + 1) s t (by simpa using h1) (by simpa using h2)) a' e rfl
        (by simpa using he)
      have h2 := hc 0 a a' rfl rfl
      have h3 := hs a (by simp)
      simp only [List.map_cons, List.sum_cons] at h1 ⊢
      omega

end Verif.Basis
