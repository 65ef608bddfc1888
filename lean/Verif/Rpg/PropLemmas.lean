import Verif.Rpg.StepLemmas

/-!
# Lemmas about propagators and concentrations on the device
-/

set_option autoImplicit false
set_option linter.unusedSectionVars false

namespace Verif.Rpg

open Verif.Cuda Verif.Solver

theorem iter_spec {α : Type} {f : Nat → α → Res α} {P : Nat → α → Prop} : ∀ (k i : Nat) (s : α),
    P i s → (∀ j s, i ≤ j → j < i + k → P j s → ∃ s', f j s = .ok s' ∧ P (j + 1) s') →
    ∃ s', iter f i k s = .ok s' ∧ P (i + k) s'
  | 0, i, s, h, _ => ⟨s, rfl, h⟩
  | k + 1, i, s, h, hs => by
    obtain ⟨s1, e1, h1⟩ := hs i s le_rfl (by omega) h
    obtain ⟨s2, e2, h2⟩ := iter_spec k (i + 1) s1 h1 fun j s hj hk hP => hs j s (by omega)
      (by omega) hP
    exact ⟨s2, by rw [iter, e1, Res.ok_bind, e2], by rwa [show i + 1 + k = i + (k + 1) by omega] at h2⟩

variable {E : Env} {M C : Nat} {arr : Name → DArr} {n kS nB : Nat} {ns : Nat → Nat}
  {m : Nat} {N : Fin (m + 1) → Nat} [∀ d, NeZero (N d)] {en : Fin n ≃ Grid N}
  {ek : Fin kS ≃ Half N} {s s' : St}

/-- Arrays changed while slices `1, …, k` are computed. -/
def slots (b : Nat) (d : Bool) (k : Nat) : List Name :=
  work b ++ (List.range k).map fun j => (b, .q d (j + 1))

theorem mem_slots {b : Nat} {d : Bool} {k : Nat} {a : Name} :
    a ∈ slots b d k ↔ a ∈ work b ∨ ∃ j < k, a = (b, .q d (j + 1)) := by
  simp only [slots, List.mem_append, List.mem_map, List.mem_range]
  constructor
  · rintro (h | ⟨j, h1, h2⟩)
    · exact .inl h
    · exact .inr ⟨j, h1, h2.symm⟩
  · rintro (h | ⟨j, h1, h2⟩)
    · exact .inl h
    · exact .inr ⟨j, h1, h2.symm⟩

theorem Did.arrays_slots (L : Lay arr n kS nB ns) {b : Nat} (hb : b < nB) {b' : Nat} {d : Bool}
    {k : Nat} (h : Did E arr (slots b' d k) s s') :
    Rpg.arrays arr n ek s'.mem b = Rpg.arrays arr n ek s.mem b := by
  apply h.arrays L hb <;> (rw [mem_slots]; simp [work])

theorem Did.q_slots (L : Lay arr n kS nB ns) {b : Nat} (hb : b < nB) {b' : Nat} {d d' : Bool}
    {k j : Nat} (hj : j < ns b) (h : Did E arr (slots b' d' k) s s')
    (hne : b ≠ b' ∨ d ≠ d' ∨ j = 0 ∨ k < j) :
    Rpg.fld arr n s'.mem (b, .q d j) = Rpg.fld arr n s.mem (b, .q d j) := by
  refine h.fld ?_ (show (arr (b, .q d j)).cap = n by rw [L.cap b hb]; exact if_pos hj) rfl
  rw [mem_slots]
  rintro (hw | ⟨i, hi, e⟩)
  · simp [work] at hw
  · simp only [Prod.mk.injEq, Kind.q.injEq] at e
    obtain ⟨e1, e2, e3⟩ := e
    rcases hne with h | h | h | h
    · exact h e1
    · exact h e2
    · omega
    · omega

/-- Slices of the thread model. -/
theorem thread_spec (L : Lay arr n kS nB ns) (hE : E.Ok M C) (hg : Good E s)
    (hM : n ≤ M) (hM2 : 2 * kS ≤ M) {b : Nat} (hb : b < nB) (d : Bool) :
    ∃ s', iter (fun i => stepThread en ek E arr b (b, .q d i) (b, .q d (i + 1))) 0 (ns b - 1) s =
        .ok s' ∧ Did E arr (slots b d (ns b - 1)) s s' ∧
      ∀ j < ns b, fld arr n s'.mem (b, .q d j) = slicesThread (dftKin en)
        (arrays arr n ek s.mem b) (fld arr n s.mem (b, .q d 0)) j := by
  obtain ⟨s', e, h, v⟩ := iter_spec (ns b - 1) 0 s
    (f := fun i => stepThread en ek E arr b (b, .q d i) (b, .q d (i + 1)))
    (P := fun i s' => Did E arr (slots b d (ns b - 1)) s s' ∧ ∀ j ≤ i, j < ns b →
      fld arr n s'.mem (b, .q d j) = slicesThread (dftKin en)
        (arrays arr n ek s.mem b) (fld arr n s.mem (b, .q d 0)) j)
    ⟨(Did.refl hg).mono (by simp), fun j hj _ => by
      obtain rfl : j = 0 := by omega
      rfl⟩ fun i s1 _ hi hP => by
      obtain ⟨h1, v1⟩ := hP
      have hi' : i + 1 < ns b := by omega
      obtain ⟨s2, e2, d2, v2⟩ := stepThread_spec (en := en) (ek := ek) L hE h1.good hM hM2 hb d
        (show i < ns b by omega) hi'
      refine ⟨s2, e2, (h1.trans d2).mono ?_, fun j hj hjn => ?_⟩
      · intro a ha
        rw [mem_slots]
        rw [List.mem_append, List.mem_append, mem_slots, List.mem_singleton] at ha
        rcases ha with h | h | h
        · exact h
        · exact .inl h
        · exact .inr ⟨i, by omega, h⟩
      · rcases Nat.lt_or_ge j (i + 1) with hlt | hge
        · rw [← v1 j (by omega) hjn]
          refine d2.fld ?_ (show (arr (b, .q d j)).cap = n by rw [L.cap b hb]; exact if_pos hjn) rfl
          simp [work]
          omega
        · obtain rfl : j = i + 1 := by omega
          rw [v2, v1 i le_rfl (by omega), h1.arrays_slots L hb]
          rfl
  exact ⟨s', e, h, fun j hj => v j (by omega) hj⟩

/-- Slices of the bead model up to the last bead. -/
theorem beads_spec (L : Lay arr n kS nB ns) (hE : E.Ok M C) (hg : Good E s)
    (hM : n ≤ M) (hM2 : kS ≤ M) {b : Nat} (hb : b < nB) (d : Bool) (h3 : 3 ≤ ns b) (he : Bool) :
    ∃ s', ((if he then eqV E (arr (b, .q d 1)) (arr (b, .q d 0)) s
       else stepBond en ek E arr b .expKsq2 (b, .q d 0) (b, .q d 1) s) >>= fun s =>
      stepFieldBead E arr b (b, .q d 1) s >>= fun s =>
      iter (fun i => stepBead en ek E arr b (b, .q d i) (b, .q d (i + 1))) 1 (ns b - 3) s) =
        .ok s' ∧ Did E arr (slots b d (ns b - 2)) s s' ∧
      ∀ j, 1 ≤ j → j ≤ ns b - 2 → fld arr n s'.mem (b, .q d j) = beads (dftKin en)
        (arrays arr n ek s.mem b) he (fld arr n s.mem (b, .q d 0)) (j - 1) := by
  have cq : ∀ j < ns b, (arr (b, .q d j)).cap = n := fun j hj => by
    rw [L.cap b hb]; exact if_pos hj
  have hA : ∃ s1, (if he then eqV E (arr (b, .q d 1)) (arr (b, .q d 0)) s
       else stepBond en ek E arr b .expKsq2 (b, .q d 0) (b, .q d 1) s) = .ok s1 ∧
       Did E arr ([(b, .qk)] ++ [(b, .q d 1)]) s s1 ∧ fld arr n s1.mem (b, .q d 1) =
        if he then fld arr n s.mem (b, .q d 0) else stepHalfBondBead (dftKin en)
          (arrays arr n ek s.mem b) (fld arr n s.mem (b, .q d 0)) := by
    cases he
    · obtain ⟨s1, e1, d1, v1⟩ := stepBond_spec (en := en) (ek := ek) L hE hg hM2 hb d
        (show 0 < ns b by omega) (show 1 < ns b by omega) .expKsq2 (.inr rfl)
      exact ⟨s1, e1, d1, v1⟩
    · obtain ⟨s1, e1, d1, v1⟩ := eqV_spec L hE hg (b, .q d 1) (b, .q d 0) rfl rfl (cq _ (by omega))
        (cq _ (by omega)) hM
      exact ⟨s1, e1, d1.mono (by simp), v1⟩
  obtain ⟨s1, e1, d1, v1⟩ := hA
  obtain ⟨s2, e2, d2, v2⟩ := mulEqV_arr (ek := ek) L hE d1.good hM hb d (show 1 < ns b by omega)
  have ha1 : arrays arr n ek s1.mem b = arrays arr n ek s.mem b :=
    d1.arrays L hb (by simp) (by simp) (by simp) (by simp) (by simp)
  obtain ⟨s3, e3, d3, v3⟩ := iter_spec (ns b - 3) 1 s2
    (f := fun i => stepBead en ek E arr b (b, .q d i) (b, .q d (i + 1)))
    (P := fun i s' => Did E arr (slots b d (ns b - 2)) s s' ∧ ∀ j, 1 ≤ j → j ≤ i → j ≤ ns b - 2 →
      fld arr n s'.mem (b, .q d j) = beads (dftKin en)
        (arrays arr n ek s.mem b) he (fld arr n s.mem (b, .q d 0)) (j - 1))
    ⟨(d1.trans d2).mono (by
        intro a ha
        rw [mem_slots]
        simp only [List.mem_append, List.mem_cons, List.not_mem_nil, or_false] at ha
        rcases ha with (h | h) | h
        · exact .inl (by simp [work, h])
        · exact .inr ⟨0, by omega, h⟩
        · exact .inr ⟨0, by omega, h⟩), fun j h1 h2 _ => by
      obtain rfl : j = 1 := by omega
      rw [v2, v1, ha1]
      rfl⟩ fun i s3 h1i hi hP => by
      obtain ⟨h1, v1⟩ := hP
      obtain ⟨s4, e4, d4, v4⟩ := stepBead_spec (en := en) (ek := ek) L hE h1.good hM hM2 hb d
        (show i < ns b by omega) (show i + 1 < ns b by omega)
      refine ⟨s4, e4, (h1.trans d4).mono ?_, fun j h1j hj hjn => ?_⟩
      · intro a ha
        rw [mem_slots]
        rw [List.mem_append, List.mem_append, mem_slots, List.mem_singleton, List.mem_singleton] at ha
        rcases ha with h | h | h
        · exact h
        · exact .inl (by simp [work, h])
        · exact .inr ⟨i, by omega, h⟩
      · rcases Nat.lt_or_ge j (i + 1) with hlt | hge
        · rw [← v1 j h1j (by omega) hjn]
          refine d4.fld ?_ (cq j (by omega)) rfl
          simp
          omega
        · obtain rfl : j = i + 1 := by omega
          rw [v4, v1 i h1i le_rfl (by omega), h1.arrays_slots L hb]
          obtain ⟨i, rfl⟩ : ∃ i', i = i' + 1 := ⟨i - 1, by omega⟩
          rfl
  refine ⟨s3, ?_, d3, fun j h1 h2 => v3 j h1 (by omega) h2⟩
  rw [e1, Res.ok_bind, e2, Res.ok_bind, e3]

/-- Slices of the bead model in terms of the arrays in use. -/
theorem solveFrom_spec (L : Lay arr n kS nB ns) (hE : E.Ok M C) (hg : Good E s)
    (hM : n ≤ M) (hM2 : 2 * kS ≤ M) {b : Nat} (hb : b < nB) (d : Bool) (h3 : 3 ≤ ns b)
    (bead he te : Bool) :
    ∃ s', solveFrom en ek E arr bead b d (ns b) he te s = .ok s' ∧
      Did E arr (slots b d (if bead && te then ns b - 2 else ns b - 1)) s s' ∧
      ∀ j < ns b, ¬ (bead = true ∧ te = true ∧ j = ns b - 1) →
        fld arr n s'.mem (b, .q d j) =
          (if bead then slicesBead (dftKin en) (arrays arr n ek s.mem b) (ns b) he te
            (fld arr n s.mem (b, .q d 0)) j
           else slicesThread (dftKin en) (arrays arr n ek s.mem b)
            (fld arr n s.mem (b, .q d 0)) j) := by
  cases bead
  · obtain ⟨s', e, h, v⟩ := thread_spec (en := en) (ek := ek) L hE hg hM hM2 hb d
    exact ⟨s', e, h, fun j hj _ => v j hj⟩
  · obtain ⟨s1, e1, d1, v1⟩ := beads_spec (en := en) (ek := ek) L hE hg hM (by omega) hb d h3 he
    have cq : ∀ j < ns b, (arr (b, .q d j)).cap = n := fun j hj => by
      rw [L.cap b hb]; exact if_pos hj
    have z1 : fld arr n s1.mem (b, .q d 0) = fld arr n s.mem (b, .q d 0) :=
      d1.q_slots L hb (by omega) (by simp)
    have e0 : ∀ te, solveFrom en ek E arr true b d (ns b) he te s =
        if te then eqV E (arr (b, .q d (ns b - 2))) (arr (b, .q d (ns b - 2))) s1
        else stepBond en ek E arr b .expKsq2 (b, .q d (ns b - 2)) (b, .q d (ns b - 1)) s1 := by
      intro te
      rw [solveFrom, if_pos rfl]
      revert e1
      generalize (if he = true then eqV E (arr (b, .q d 1)) (arr (b, .q d 0)) s
        else stepBond en ek E arr b .expKsq2 (b, .q d 0) (b, .q d 1) s) = x
      intro e1
      obtain ⟨y, rfl, e2⟩ := Res.bind_eq_ok.1 e1
      obtain ⟨z, e3, e4⟩ := Res.bind_eq_ok.1 e2
      simp only [Res.ok_bind, e3, e4]
    cases te
    · obtain ⟨s2, e2, d2, v2⟩ := stepBond_spec (en := en) (ek := ek) L hE d1.good (by omega) hb d
        (show ns b - 2 < ns b by omega) (show ns b - 1 < ns b by omega) .expKsq2 (.inr rfl)
      refine ⟨s2, by rw [e0]; exact e2, (d1.trans d2).mono ?_, fun j hj _ => ?_⟩
      · intro a ha
        simp only [Bool.and_false, Bool.false_eq_true, if_false]
        rw [mem_slots]
        rw [List.mem_append, List.mem_append, mem_slots, List.mem_singleton, List.mem_singleton] at ha
        rcases ha with (h | ⟨i, hi, h⟩) | h | h
        · exact .inl h
        · exact .inr ⟨i, by omega, h⟩
        · exact .inl (by simp [work, h])
        · exact .inr ⟨ns b - 2, by omega, by rw [h]; congr 2; omega⟩
      · simp only [if_true]
        unfold slicesBead
        by_cases hl : j = ns b - 1
        · rw [if_neg (by omega), if_pos hl, hl, v2, v1 _ (by omega) le_rfl]
          have := d1.arrays_slots (ek := ek) L hb
          simp only [arrays, Arrays.mk.injEq] at this
          rw [this.2.2.2.2]
          simp only [Bool.false_eq_true, if_false]
          rw [show ns b - 2 - 1 = ns b - 3 by omega]
          rfl
        · have hs : fld arr n s2.mem (b, .q d j) = fld arr n s1.mem (b, .q d j) :=
            d2.fld (by simp; omega) (cq j hj) rfl
          rw [if_neg hl, hs]
          by_cases h0 : j = 0
          · rw [if_pos h0, h0, z1]
          · rw [if_neg h0, v1 j (by omega) (by omega)]
    · obtain ⟨s2, e2, d2, v2⟩ := eqV_spec L hE d1.good (b, .q d (ns b - 2)) (b, .q d (ns b - 2)) rfl
        rfl (cq _ (by omega)) (cq _ (by omega)) hM
      refine ⟨s2, by rw [e0]; exact e2, (d1.trans d2).mono ?_, fun j hj hl => ?_⟩
      · intro a ha
        simp only [Bool.and_true, if_true]
        rw [mem_slots]
        rw [List.mem_append, mem_slots, List.mem_singleton] at ha
        rcases ha with h | h
        · exact h
        · exact .inr ⟨ns b - 3, by omega, by rw [h]; congr 2; omega⟩
      · have hl : j ≠ ns b - 1 := fun e => hl ⟨rfl, rfl, e⟩
        simp only [if_true]
        unfold slicesBead
        rw [if_neg hl]
        have hs : fld arr n s2.mem (b, .q d j) = fld arr n s1.mem (b, .q d j) := by
          by_cases hj2 : j = ns b - 2
          · rw [hj2]; exact v2
          · exact d2.fld (by simp; omega) (cq j hj) rfl
        rw [hs]
        by_cases h0 : j = 0
        · rw [if_pos h0, h0, z1]
        · rw [if_neg h0, v1 j (by omega) (by omega)]

/-- The head slice. -/
theorem computeHead_spec (L : Lay arr n kS nB ns) (hE : E.Ok M C) (hg : Good E s)
    (hM : n ≤ M) {b : Nat} (hb : b < nB) (d : Bool) (h3 : 0 < ns b) (tails : List Name)
    (ht : ∀ a ∈ tails, a.2.wd = 1 ∧ (arr a).cap = n ∧ a ≠ (b, .q d 0))
    (hC : tails.length + 2 ≤ C) :
    ∃ s', computeHead E arr b d tails s = .ok s' ∧ Did E arr [(b, .q d 0)] s s' ∧
      fld arr n s'.mem (b, .q d 0) = tails.foldl (fun h a => fun i => h i * fld arr n s.mem a i)
        (fun _ => 1) := by
  have c0 : (arr (b, .q d 0)).cap = n := by rw [L.cap b hb]; exact if_pos h3
  obtain ⟨s1, e1, d1, v1⟩ := eqS_spec L hE hg (b, .q d 0) rfl c0 hM 1
  have hs : ∀ a ∈ tails, fld arr n s1.mem a = fld arr n s.mem a := fun a ha => by
    obtain ⟨h1, h2, h4⟩ := ht a ha
    exact d1.fld (by simpa using h4) h2 h1
  have hfold : ∀ (l : List Name) (x : Fld n ℝ), (∀ a ∈ l, a ∈ tails) → ∀ i : Fin n,
      (l.map fun a => s1.mem ((arr a).base + i)).foldl (· * ·) (x i) =
        l.foldl (fun h a => fun i => h i * fld arr n s.mem a i) x i := by
    intro l
    induction l with
    | nil => intro x _ i; rfl
    | cons a l ih =>
      intro x hl i
      have h1 := congrFun (hs a (hl a (by simp))) i
      have h2 := ih (fun i => x i * fld arr n s.mem a i) (fun c hc => hl c (by simp [hc])) i
      rw [List.map_cons, List.foldl_cons, List.foldl_cons, ← h2, ← h1]
      rfl
  match tails, ht, hC, hs, hfold with
  | [], _, _, _, _ =>
    exact ⟨s1, by rw [computeHead, e1, Res.ok_bind, if_pos rfl], d1, v1⟩
  | [T], ht, _, hs, hfold =>
    obtain ⟨h1, h2, h4⟩ := ht T (by simp)
    obtain ⟨s2, e2, d2, v2⟩ := bin_spec L hE d1.good (b, .q d 0) (b, .q d 0) T n rfl rfl h1 c0 c0 h2
      L.n0 hM (· * ·)
    refine ⟨s2, ?_, (d1.trans d2).mono (by simp), funext fun i => ?_⟩
    · rw [computeHead, e1, Res.ok_bind, if_neg (by simp)]
      exact e2
    · have := hfold [T] (fun _ => 1) (by simp) i
      rw [← this]
      simp only [fld, v2 i i.2, List.map_cons, List.map_nil, List.foldl_cons, List.foldl_nil]
      congr 1
      exact congrFun v1 i
  | T :: T2 :: rest, ht, hC, hs, hfold =>
    obtain ⟨s2, e2, d2, v2⟩ := single L hE d1.good (b, .q d 0) rfl (by rw [c0]; exact L.n0)
      (by rw [c0]; exact hM)
      (fun i => ((((b, .q d 0) :: T :: T2 :: rest).map arr).map DArr.base).map (· + i))
      (fun i hi x hx => by
        simp only [List.map_map, List.mem_map] at hx
        obtain ⟨a, ha, rfl⟩ := hx
        rcases List.mem_cons.1 ha with rfl | ha
        · exact .inl rfl
        · obtain ⟨h1, h2, h4⟩ := ht a ha
          exact .inr ⟨a, h4, i, by rw [h1, h2]; omega, rfl⟩)
      (fun i _ => by
        have := hC
        simp only [List.length_map, List.length_cons] at this ⊢
        omega) (foldV (· * ·))
    refine ⟨s2, ?_, (d1.trans d2).mono (by simp), funext fun i => ?_⟩
    · rw [computeHead, e1, Res.ok_bind, if_neg (by simp), ← e2]
      rfl
    · rw [← hfold (T :: T2 :: rest) (fun _ => 1) (fun _ h => h) i]
      rw [fld, v2 i (by rw [c0]; exact i.2)]
      simp only [List.map_cons, List.map_map, foldV]
      congr 1
      · exact congrFun v1 i

end Verif.Rpg
