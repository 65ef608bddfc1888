import Verif.Crystal.GroupLemmas

/-! # C29 (group container), C30 (inversion centre), C31 (origin shift), C32 (mesh
compatibility), C33 (group files) -/

set_option linter.unusedSectionVars false

namespace Verif.Crystal

/-! ## C29 -/

section
variable {G : Type} [DecidableEq G] {O : SymOps G}

/-- Lists of elements a group object can hold, if all symmetries passed to `add` are reduced. -/
inductive Reach (O : SymOps G) : List G → Prop where
  | new : Reach O (cleared O)
  | clear {l} : Reach O l → Reach O (cleared O)
  | add {l} (x : G) : Reach O l → O.norm x = x → Reach O (add O l x).1
  | complete {l l'} (fuel : Nat) : Reach O l → makeCompleteGroup O fuel l = some (.ok l') → Reach O l'

/-- C29: after any sequence of `add`, `clear` and `makeCompleteGroup` calls a group has no
duplicates and contains the identity. -/
theorem C29_container_invariant (hO : O.Regular) {l : List G} (h : Reach O l) :
    l.Nodup ∧ O.one ∈ l ∧ ∀ x ∈ l, O.norm x = x := by
  have h0 : (cleared O).Nodup ∧ O.one ∈ cleared O ∧ ∀ x ∈ cleared O, O.norm x = x := by
    simp [cleared, hO.one]
  induction h with
  | new => exact h0
  | clear _ _ => exact h0
  | add x _ hx ih =>
    obtain ⟨h1, h2, h3⟩ := ih
    obtain ⟨ext, e1, _, _, e4, e5⟩ := add_spec (O := O) _ x hx
    exact ⟨e4 h1, by rw [e1]; exact List.mem_append_left _ h2, e5 _ hx h3⟩
  | complete fuel _ hc ih =>
    obtain ⟨h1, h2, h3⟩ := ih
    unfold makeCompleteGroup at hc
    split at hc
    · cases hc
    · cases hc
    · rename_i m hm
      obtain ⟨ext, e1, e2, e3⟩ := addInverses_spec hO _ _ _ hm
      obtain ⟨f1, ⟨ext', f2⟩, f3, _⟩ := completeLoop_spec hO fuel m _ hc (e2 h1)
        (by rw [e1]; exact List.mem_append_left _ h2)
        (fun x hx => by rcases e3 x hx with h | h; exacts [h3 x h, h])
      exact ⟨f1, by rw [f2, e1]; simp [h2], f3⟩

/-- C29: `add` returns true iff the element is new; it is then present, and nothing else
changes. -/
theorem C29_add (l : List G) (x : G) (hx : O.norm x = x) :
    ((add O l x).2 = true ↔ x ∉ l) ∧ x ∈ (add O l x).1 ∧
      (add O l x).1 = if x ∈ l then l else l ++ [x] := by
  rw [add_eq l x hx]
  by_cases h : x ∈ l <;> simp [h]

/-- C29: `isValid` returns true exactly for lists without duplicates that contain the identity
and are closed under product and inverse; otherwise it does not return. -/
theorem C29_isValid_iff (l : List G) :
    (isValid O l = .ok true ↔
      O.one ∈ l ∧ l.Nodup ∧ (∀ a ∈ l, ∃ c ∈ l, O.inv a = .ok c) ∧
        ∀ a ∈ l, ∀ b ∈ l, O.mul a b ∈ l) ∧ isValid O l ≠ .ok false := by
  have key : isValid O l = .ok true ↔ O.one ∈ l ∧ validOuter O l 0 l = .ok () := by
    unfold isValid
    by_cases h : O.one ∈ l
    · rw [if_pos ((found_iff _ _).mpr h), Res.bind_eq_ok]
      simp only [h, true_and]
      constructor
      · rintro ⟨a, ha, _⟩; exact ha
      · intro ha; exact ⟨(), ha, rfl⟩
    · rw [if_neg (fun hh => h ((found_iff _ _).mp hh))]
      simp [h]
  constructor
  · rw [key, validOuter_iff]
    constructor
    · rintro ⟨h1, h2⟩
      refine ⟨h1, ?_, ?_, ?_⟩
      · rw [List.nodup_iff_injective_get]
        intro ⟨i, hi⟩ ⟨j, hj⟩ hij
        have h3 := (h2 i hi).2
        rw [validInner_iff] at h3
        have := (h3 j hj).1 (by simpa using hij)
        exact Fin.ext (by simpa using this)
      · intro a ha
        obtain ⟨i, hi, rfl⟩ := List.mem_iff_getElem.mp ha
        exact (h2 i hi).1
      · intro a ha b hb
        obtain ⟨i, hi, rfl⟩ := List.mem_iff_getElem.mp ha
        obtain ⟨j, hj, rfl⟩ := List.mem_iff_getElem.mp hb
        have h3 := (h2 i hi).2
        rw [validInner_iff] at h3
        exact (h3 j hj).2
    · rintro ⟨h1, h2, h3, h4⟩
      refine ⟨h1, fun k hk => ⟨h3 _ (List.getElem_mem hk), ?_⟩⟩
      rw [validInner_iff]
      intro j hj
      refine ⟨fun hab => ?_, h4 _ (List.getElem_mem hk) _ (List.getElem_mem hj)⟩
      have := (List.Nodup.getElem_inj_iff h2).mp hab
      omega
  · unfold isValid
    split
    · intro h
      rw [Res.bind_eq_ok] at h
      obtain ⟨_, _, h⟩ := h
      cases h
    · intro h; cases h

/-- C29: if `makeCompleteGroup` returns, the group is valid, starts with the original elements,
and is the smallest set closed under product and inverse that contains them. -/
theorem C29_complete (hO : O.Regular) {l : List G} (h : Reach O l) (fuel : Nat) (l' : List G)
    (hc : makeCompleteGroup O fuel l = some (.ok l')) :
    isValid O l' = .ok true ∧ (∃ ext, l' = l ++ ext) ∧
      ∀ P : G → Prop, (∀ a, P a → ∃ c, O.inv a = .ok c ∧ P c) →
        (∀ a b, P a → P b → P (O.mul a b)) → (∀ x ∈ l, P x) → ∀ x ∈ l', P x := by
  obtain ⟨h1, h2, h3⟩ := C29_container_invariant hO h
  unfold makeCompleteGroup at hc
  split at hc
  · cases hc
  · cases hc
  · rename_i m hm
    obtain ⟨ext, e1, e2, e3⟩ := addInverses_spec hO _ _ _ hm
    obtain ⟨f1, ⟨ext', f2⟩, f3, f4, f5⟩ := completeLoop_spec hO fuel m _ hc (e2 h1)
      (by rw [e1]; exact List.mem_append_left _ h2)
      (fun x hx => by rcases e3 x hx with h | h; exacts [h3 x h, h])
    refine ⟨?_, ⟨ext ++ ext', by rw [f2, e1, List.append_assoc]⟩, ?_⟩
    · rw [(C29_isValid_iff l').1]
      refine ⟨by rw [f2, e1]; simp [h2], f1, ?_, fun a ha b hb => f4.2 a b ha hb⟩
      intro a ha
      obtain ⟨c, hc, hm⟩ := f4.1 a ha
      exact ⟨c, hm, hc⟩
    · intro P hinv hmul hl
      refine f5 P ⟨hinv, hmul⟩ ?_
      obtain ⟨m', hm', hP⟩ := addInverses_ok hO P hinv l l hl hl
      rw [hm] at hm'
      cases hm'
      exact hP

/-- C29: `makeCompleteGroup` returns if the elements lie in some finite group. -/
theorem C29_complete_terminates (hO : O.Regular) {l : List G} (h : Reach O l) (S : List G)
    (hl : ∀ x ∈ l, x ∈ S) (hinv : ∀ a ∈ S, ∃ c ∈ S, O.inv a = .ok c)
    (hmul : ∀ a ∈ S, ∀ b ∈ S, O.mul a b ∈ S) :
    ∃ l', makeCompleteGroup O (S.length + 1) l = some (.ok l') := by
  obtain ⟨h1, h2, h3⟩ := C29_container_invariant hO h
  have hS : ClosedUnder O (· ∈ S) :=
    ⟨fun a ha => by obtain ⟨c, hc, he⟩ := hinv a ha; exact ⟨c, he, hc⟩,
     fun a b ha hb => hmul a ha b hb⟩
  obtain ⟨m, hm, hmS⟩ := addInverses_ok hO (· ∈ S) hS.1 l l hl hl
  obtain ⟨ext, e1, e2, _⟩ := addInverses_spec hO _ _ _ hm
  unfold makeCompleteGroup
  rw [hm]
  exact completeLoop_terminates hO S hS (S.length + 1) m (e2 h1) hmS (by omega)

/-- C29 (limit of the property): if no finite set closed under product and inverse contains the
elements, `makeCompleteGroup` never returns normally. -/
theorem C29_complete_diverges (hO : O.Regular) {l : List G} (h : Reach O l)
    (hinf : ∀ S : List G, (∀ x ∈ l, x ∈ S) → ¬ ∀ a ∈ S, ∀ b ∈ S, O.mul a b ∈ S)
    (fuel : Nat) (l' : List G) : makeCompleteGroup O fuel l ≠ some (.ok l') := by
  intro hc
  obtain ⟨hv, ⟨ext, he⟩, _⟩ := C29_complete hO h fuel l' hc
  rw [(C29_isValid_iff l').1] at hv
  exact hinf l' (fun x hx => by rw [he]; exact List.mem_append_left _ hx) hv.2.2.2

end

variable {D : Nat}

/-- The container properties apply to space groups. -/
theorem C29_space_group (D : Nat) : (symOps D).Regular := symOps_regular D

/-- A shear, which has infinite order. -/
def shear : Sym 2 where
  R := fun i j => if i = 0 ∧ j = 1 then 1 else if i = j then 1 else 0
  t := fun _ => 0

theorem shear_reach : Reach (symOps 2) [Sym.identity 2, shear] := by
  have h := Reach.add (O := symOps 2) shear Reach.new (by decide +kernel)
  have e : (add (symOps 2) (cleared (symOps 2)) shear).1 = [Sym.identity 2, shear] := by
    decide +kernel
  rw [e] at h
  exact h

/-- Finding: for a rotation matrix of infinite order, accepted as a symmetry because its
determinant is one, `makeCompleteGroup` runs forever: no number of turns of its loop suffices. -/
theorem C29_shear_hangs (fuel : Nat) :
    makeCompleteGroup (symOps 2) fuel [Sym.identity 2, shear] = none := by
  have hO := symOps_regular 2
  -- it never throws, as all elements have unit determinant
  have hclosed : ClosedUnder (symOps 2) (fun A => IsUnit (Matrix.of A.R).det) := by
    constructor
    · intro A hA
      obtain ⟨B, hB, _, hAB, hBA⟩ := (C27_inverse (by simp) A).1 hA
      refine ⟨B, hB, ?_⟩
      have hRmul : Matrix.of A.R * Matrix.of B.R = 1 := by
        ext i j
        have := congrArg (fun S : Sym 2 => S.R i j) hAB
        simp only [mul_R] at this
        simpa [Matrix.mul_apply, Matrix.one_apply, Sym.identity] using this
      have := congrArg Matrix.det hRmul
      rw [Matrix.det_mul, Matrix.det_one] at this
      exact IsUnit.of_mul_eq_one (Matrix.of A.R).det (by rw [mul_comm]; exact this)
    · intro A B hA hB
      have hR : Matrix.of ((symOps 2).mul A B).R = Matrix.of A.R * Matrix.of B.R := by
        ext i j
        show (A.mul B).R i j = _
        rw [mul_R]; rfl
      show IsUnit (Matrix.of ((symOps 2).mul A B).R).det
      rw [hR, Matrix.det_mul]
      exact hA.mul hB
  have hunit : ∀ x ∈ [Sym.identity 2, shear], IsUnit (Matrix.of x.R).det := by
    intro x hx
    simp only [List.mem_cons, List.not_mem_nil, or_false] at hx
    rcases hx with rfl | rfl
    · rw [Matrix.det_fin_two]; simp [Sym.identity]
    · rw [Matrix.det_fin_two]; simp [shear]
  -- powers of the shear are distinct
  have hdiv : ∀ l', makeCompleteGroup (symOps 2) fuel [Sym.identity 2, shear] ≠ some (.ok l') := by
    apply C29_complete_diverges hO shear_reach
    intro S hS hmul
    have hpow : ∀ n : Nat, ∃ A ∈ S, A.R 0 1 = (n : Int) ∧ A.R 0 0 = 1 ∧ A.R 1 1 = 1 ∧ A.R 1 0 = 0 := by
      intro n
      induction n with
      | zero => exact ⟨Sym.identity 2, hS _ (by simp), by simp [Sym.identity]⟩
      | succ n ih =>
        obtain ⟨A, hA, h1, h2, h3, h4⟩ := ih
        refine ⟨A.mul shear, hmul A hA shear (hS _ (by simp)), ?_, ?_, ?_, ?_⟩ <;>
          rw [mul_R] <;> simp [Fin.sum_univ_two, shear, h1, h2, h3, h4]
        ring
    choose f hf hval using hpow
    have hinj : Function.Injective f := by
      intro a b hab
      have := (hval a).1
      rw [hab, (hval b).1] at this
      exact_mod_cast this.symm
    have hnd : ((List.range (S.length + 1)).map f).Nodup :=
      (List.nodup_range).map hinj
    have hsub : ∀ x ∈ (List.range (S.length + 1)).map f, x ∈ S := by
      intro x hx
      obtain ⟨n, _, rfl⟩ := List.mem_map.mp hx
      exact hf n
    have := (List.Nodup.subperm hnd hsub).length_le
    simp at this
  obtain ⟨m, hm, hmP⟩ := addInverses_ok hO _ hclosed.1 [Sym.identity 2, shear]
    [Sym.identity 2, shear] hunit hunit
  have := hdiv
  unfold makeCompleteGroup at this ⊢
  rw [hm] at this ⊢
  simp only at this ⊢
  rcases completeLoop_never_throws hO _ hclosed fuel m hmP with h | ⟨l', h⟩
  · exact h
  · exact absurd h (this l')

/-- Finding: a symmetry whose translation is not reduced (such as one read from a file or set
through the accessor `t(i)`) is not recognised by `add` and creates a duplicate. -/
theorem C29_unreduced_duplicate :
    ∃ x : Sym 1, (add (symOps 1) (cleared (symOps 1)) x).2 = true ∧
      ¬ (add (symOps 1) (cleared (symOps 1)) x).1.Nodup :=
  ⟨{ R := fun _ _ => 1, t := fun _ => 1 }, by decide +kernel, by decide +kernel⟩

/-- Completion of a group from a four-fold rotation. -/
def rot4 : Sym 2 where
  R := fun i j => if i = 0 ∧ j = 1 then -1 else if i = 1 ∧ j = 0 then 1 else 0
  t := fun i => if i = 0 then 1/2 else 0

example : (match makeCompleteGroup (symOps 2) 3 [Sym.identity 2, rot4] with
    | some (.ok l) => l.length | _ => 0) = 4 := by decide +kernel

/-! ## C30 -/

theorem isInversion_iff (A : Sym D) :
    isInversion A = true ↔ ∀ j k, A.R j k = if j = k then -1 else 0 := by
  simp only [isInversion, List.all_eq_true, List.mem_finRange, forall_const]
  constructor
  · intro h j k
    have := h j k
    by_cases hjk : j = k <;> simp [hjk] at this ⊢ <;> exact this
  · intro h j k
    have := h j k
    by_cases hjk : j = k <;> simp [hjk] at this ⊢ <;> exact this

/-- C30: an inversion centre is reported iff the group has an element with rotation `-I`, and
the reported point is a fixed point of such an element. -/
theorem C30_inversion_center (l : List (Sym D)) :
    ((inversionCenter l).isSome = true ↔ ∃ A ∈ l, ∀ j k, A.R j k = if j = k then -1 else 0) ∧
    ∀ c, inversionCenter l = some c → ∃ A ∈ l, (∀ j k, A.R j k = if j = k then -1 else 0) ∧
      ∀ i, A.t i + ∑ j, (A.R i j : ℚ) * c j = c i := by
  induction l with
  | nil => simp [inversionCenter]
  | cons B l ih =>
    rw [inversionCenter]
    by_cases hB : isInversion B = true
    · rw [if_pos hB]
      rw [isInversion_iff] at hB
      refine ⟨by simpa using Or.inl hB, ?_⟩
      intro c hc
      cases hc
      refine ⟨B, by simp, hB, ?_⟩
      intro i
      have : ∑ j, (B.R i j : ℚ) * (B.t j / 2) = - (B.t i / 2) := by
        rw [Finset.sum_eq_single i]
        · rw [hB, if_pos rfl]; push_cast; ring
        · intro b _ hb; rw [hB, if_neg (Ne.symm hb)]; simp
        · simp
      rw [this]; ring
    · rw [if_neg hB]
      rw [isInversion_iff] at hB
      refine ⟨?_, ?_⟩
      · rw [ih.1]
        constructor
        · rintro ⟨A, hA, h⟩; exact ⟨A, by simp [hA], h⟩
        · rintro ⟨A, hA, h⟩
          rcases List.mem_cons.mp hA with rfl | hA
          · exact absurd h hB
          · exact ⟨A, hA, h⟩
      · intro c hc
        obtain ⟨A, hA, h⟩ := ih.2 c hc
        exact ⟨A, by simp [hA], h⟩

/-! ## C31 -/

theorem shift_R (A : Sym D) (o : Fin D → ℚ) : (A.shiftOrigin o).R = A.R := rfl

/-- C31: shifting the origin is compatible with products. -/
theorem C31_shift_mul (A B : Sym D) (o : Fin D → ℚ) :
    (A.mul B).shiftOrigin o = (A.shiftOrigin o).mul (B.shiftOrigin o) := by
  apply Sym.ext'
  · intro i j; rw [shift_R, mul_R, mul_R]; rfl
  · intro i
    rw [shift_t, mul_t (A.shiftOrigin o)]
    apply fract_eq_of_cong
    have h1 : Cong ((A.mul B).t i - o i + ∑ j, ((A.mul B).R i j : ℚ) * o j)
        ((A.t i + ∑ j, (A.R i j : ℚ) * B.t j) - o i + ∑ j, ((A.mul B).R i j : ℚ) * o j) := by
      refine Cong.add (Cong.sub ?_ (Cong.refl _)) (Cong.refl _)
      rw [mul_t]; exact Cong.fract _
    have h2 : Cong ((A.shiftOrigin o).t i + ∑ j, ((A.shiftOrigin o).R i j : ℚ) * (B.shiftOrigin o).t j)
        ((A.t i - o i + ∑ j, (A.R i j : ℚ) * o j) +
          ∑ j, (A.R i j : ℚ) * (B.t j - o j + ∑ k, (B.R j k : ℚ) * o k)) := by
      refine Cong.add ?_ (Cong.sum _ fun j => ?_)
      · rw [shift_t]; exact Cong.fract _
      · rw [shift_R]
        refine Cong.intMul _ ?_
        rw [shift_t]; exact Cong.fract _
    refine h1.trans (Cong.trans ?_ h2.symm)
    have e : ∑ j, ((A.mul B).R i j : ℚ) * o j =
        ∑ j, (A.R i j : ℚ) * ∑ k, (B.R j k : ℚ) * o k := by
      simp only [mul_R, Int.cast_sum, Int.cast_mul, Finset.sum_mul, Finset.mul_sum]
      rw [Finset.sum_comm]
      exact Finset.sum_congr rfl fun k _ => Finset.sum_congr rfl fun l _ => by ring
    rw [e]
    simp only [mul_add, mul_sub, Finset.sum_add_distrib, Finset.sum_sub_distrib]
    refine ⟨0, ?_⟩
    push_cast
    ring

/-- C31: shifting the origin of the identity has no effect. -/
theorem C31_shift_identity (o : Fin D → ℚ) :
    (Sym.identity D).shiftOrigin o = Sym.identity D := by
  apply Sym.ext'
  · intro i j; rfl
  · intro i
    rw [shift_t]
    have : ∑ j, ((Sym.identity D).R i j : ℚ) * o j = o i := by
      rw [Finset.sum_eq_single i] <;> simp [Sym.identity]
      intro b hb h; exact absurd h.symm hb
    rw [this]
    simp [Sym.identity]

/-- C31: shifting the origin and shifting it back restores a reduced symmetry. -/
theorem C31_shift_back (A : Sym D) (h : A.Reduced) (o : Fin D → ℚ) :
    (A.shiftOrigin o).shiftOrigin (fun i => - o i) = A := by
  apply Sym.ext'
  · intro i j; rfl
  · intro i
    rw [shift_t, shift_R]
    rw [← Int.fract_eq_self.mpr (h i)]
    apply fract_eq_of_cong
    have h1 : Cong ((A.shiftOrigin o).t i - - o i + ∑ j, (A.R i j : ℚ) * - o j)
        ((A.t i - o i + ∑ j, (A.R i j : ℚ) * o j) - - o i + ∑ j, (A.R i j : ℚ) * - o j) := by
      refine Cong.add (Cong.sub ?_ (Cong.refl _)) (Cong.refl _)
      rw [shift_t]; exact Cong.fract _
    refine h1.trans ⟨0, ?_⟩
    simp only [mul_neg, Finset.sum_neg_distrib]
    push_cast
    ring

theorem C31_group_shift_back (l : List (Sym D)) (h : ∀ A ∈ l, A.Reduced) (o : Fin D → ℚ) :
    shiftGroup (shiftGroup l o) (fun i => - o i) = l := by
  unfold shiftGroup
  rw [List.map_map]
  conv_rhs => rw [← List.map_id l]
  exact List.map_congr_left fun A hA => C31_shift_back A (h A hA) o

/-- The inverse of a shifted symmetry. -/
theorem shift_inverse (hD : D = 1 ∨ D = 2 ∨ D = 3) (A B : Sym D)
    (hB : A.inverse = .ok B) (o : Fin D → ℚ) :
    (A.shiftOrigin o).inverse = .ok (B.shiftOrigin o) := by
  have hu : IsUnit (Matrix.of A.R).det := by
    by_contra hu
    rw [(C27_inverse hD A).2 hu] at hB
    cases hB
  obtain ⟨B', hB', _, hAB, _⟩ := (C27_inverse hD A).1 hu
  rw [hB] at hB'
  cases hB'
  obtain ⟨C, hC, hCr, hAC, hCA⟩ := (C27_inverse hD (A.shiftOrigin o)).1 hu
  rw [hC]
  congr 1
  -- both are right inverses of the shifted element
  have hAB' : (A.shiftOrigin o).mul (B.shiftOrigin o) = Sym.identity D := by
    rw [← C31_shift_mul, hAB, C31_shift_identity]
  calc C = C.mul (Sym.identity D) := ((C27_identity C hCr).2).symm
    _ = C.mul ((A.shiftOrigin o).mul (B.shiftOrigin o)) := by rw [hAB']
    _ = (C.mul (A.shiftOrigin o)).mul (B.shiftOrigin o) := (C27_mul_assoc _ _ _).symm
    _ = (Sym.identity D).mul (B.shiftOrigin o) := by rw [hCA]
    _ = B.shiftOrigin o := (C27_identity _ (normalize_reduced _)).1

/-- C31: a valid group of reduced symmetries remains valid when its origin is shifted. -/
theorem C31_group_valid (hD : D = 1 ∨ D = 2 ∨ D = 3) (l : List (Sym D))
    (hred : ∀ A ∈ l, A.Reduced) (h : isValid (symOps D) l = .ok true) (o : Fin D → ℚ) :
    isValid (symOps D) (shiftGroup l o) = .ok true := by
  rw [(C29_isValid_iff _).1] at h ⊢
  obtain ⟨h1, h2, h3, h4⟩ := h
  unfold shiftGroup
  refine ⟨?_, ?_, ?_, ?_⟩
  · exact List.mem_map.mpr ⟨Sym.identity D, h1, C31_shift_identity o⟩
  · refine List.Nodup.map_on ?_ h2
    intro A hA B hB hAB
    rw [← C31_shift_back A (hred A hA) o, ← C31_shift_back B (hred B hB) o, hAB]
  · intro a ha
    obtain ⟨A, hA, rfl⟩ := List.mem_map.mp ha
    obtain ⟨C, hC, hinv⟩ := h3 A hA
    exact ⟨C.shiftOrigin o, List.mem_map.mpr ⟨C, hC, rfl⟩, shift_inverse hD A C hinv o⟩
  · intro a ha b hb
    obtain ⟨A, hA, rfl⟩ := List.mem_map.mp ha
    obtain ⟨B, hB, rfl⟩ := List.mem_map.mp hb
    exact List.mem_map.mpr ⟨A.mul B, h4 A hA B hB, C31_shift_mul A B o⟩

/-- C31: after moving the origin to the reported inversion centre, the group has a pure
inversion. -/
theorem C31_inversion_at_origin (l : List (Sym D)) (c : Fin D → ℚ)
    (h : inversionCenter l = some c) :
    ∃ A ∈ shiftGroup l c, (∀ j k, A.R j k = if j = k then -1 else 0) ∧ ∀ i, A.t i = 0 := by
  obtain ⟨A, hA, hR, hc⟩ := (C30_inversion_center l).2 c h
  refine ⟨A.shiftOrigin c, List.mem_map.mpr ⟨A, hA, rfl⟩, hR, ?_⟩
  intro i
  rw [shift_t]
  have := hc i
  rw [show A.t i - c i + ∑ j, (A.R i j : ℚ) * c j = 0 by linarith]
  exact Int.fract_zero

/-- An inversion about (1/4, 1/8): centre found, shift makes it pure. -/
def inv2 : Sym 2 where
  R := fun i j => if i = j then -1 else 0
  t := fun i => if i = 0 then 1/2 else 1/4

example : inversionCenter [Sym.identity 2, inv2] = some (fun i => if i = 0 then 1/4 else 1/8) ∧
    isValid (symOps 2) [Sym.identity 2, inv2] = .ok true := by decide +kernel

/-! ## C32 -/

/-- Full statement of C32: an accepted mesh is mapped to itself by every operation. Mesh
points are `n_j / dims_j` in lattice coordinates. -/
def C32_statement : Prop :=
  ∀ (D : Nat) (l : List (Sym D)) (dims : Fin D → Int), isValid (symOps D) l = .ok true →
    (∀ i, 0 < dims i) → checkMeshDimensions l dims = true →
    ∀ A ∈ l, ∀ (n : Fin D → Int) (i : Fin D),
      ∃ m : Int, A.t i + ∑ j, (A.R i j : ℚ) * (n j / dims j) = (m : ℚ) / dims i

theorem foldl_mono_dvd {α : Type} (step : Nat → α → Nat) (h : ∀ d a, d ∣ step d a) :
    ∀ (l : List α) (d : Nat), d ∣ l.foldl step d := by
  intro l
  induction l with
  | nil => intro d; exact dvd_rfl
  | cons a l ih => intro d; exact (h d a).trans (ih _)

/-- The divisor is a multiple of every denominator. -/
theorem den_dvd_divisor (l : List (Sym D)) (i : Fin D) (A : Sym D) (hA : A ∈ l) :
    (A.t i).den ∣ divisor l i := by
  by_cases h0 : (A.t i).num = 0
  · have : (A.t i).den = 1 := by
      have : A.t i = 0 := Rat.num_eq_zero.mp h0
      rw [this]; rfl
    rw [this]; exact one_dvd _
  -- the maximum is at least every denominator
  have hmax : ∀ (l : List (Sym D)) (d : Nat), (∀ A ∈ l, (A.t i).num ≠ 0 → (A.t i).den ≤
      l.foldl (fun d A => if (A.t i).num ≠ 0 then (if (A.t i).den > d then (A.t i).den else d) else d) d) ∧
      d ≤ l.foldl (fun d A => if (A.t i).num ≠ 0 then (if (A.t i).den > d then (A.t i).den else d) else d) d := by
    intro l
    induction l with
    | nil => intro d; simp
    | cons B l ih =>
      intro d
      have hstep : d ≤ (if (B.t i).num ≠ 0 then (if (B.t i).den > d then (B.t i).den else d) else d) := by
        split
        · split <;> omega
        · exact le_rfl
      have hstep' : (B.t i).num ≠ 0 → (B.t i).den ≤
          (if (B.t i).num ≠ 0 then (if (B.t i).den > d then (B.t i).den else d) else d) := by
        intro hn
        rw [if_pos hn]
        split <;> omega
      have := ih (if (B.t i).num ≠ 0 then (if (B.t i).den > d then (B.t i).den else d) else d)
      rw [List.foldl_cons]
      refine ⟨?_, hstep.trans this.2⟩
      intro A hA hn
      rcases List.mem_cons.mp hA with rfl | hA
      · exact (hstep' hn).trans this.2
      · exact this.1 A hA hn
  have hle : (A.t i).den ≤ maxDen l i := (hmax l 1).1 A hA h0
  -- the second loop only multiplies, and ends with a multiple of each denominator
  have hdvd : ∀ (d : Nat) (A : Sym D), d ∣ (if (A.t i).num ≠ 0 then
      (if (A.t i).den < d then (if d % (A.t i).den ≠ 0 then d * (A.t i).den else d) else d)
      else d) := by
    intro d A
    split
    · split
      · split
        · exact dvd_mul_right _ _
        · exact dvd_rfl
      · exact dvd_rfl
    · exact dvd_rfl
  have key : ∀ (l : List (Sym D)) (d : Nat), A ∈ l → 0 < d → (A.t i).den ≤ d →
      (A.t i).den ∣ l.foldl (fun d A => if (A.t i).num ≠ 0 then
      (if (A.t i).den < d then (if d % (A.t i).den ≠ 0 then d * (A.t i).den else d) else d)
      else d) d := by
    intro l
    induction l with
    | nil => intro d h; cases h
    | cons B l ih =>
      intro d hA hd hle
      rw [List.foldl_cons]
      rcases List.mem_cons.mp hA with rfl | hA
      · refine dvd_trans ?_ (foldl_mono_dvd _ hdvd l _)
        rw [if_pos h0]
        split
        · split
          · exact dvd_mul_left _ _
          · rename_i h; push Not at h; exact Nat.dvd_of_mod_eq_zero h
        · have : (A.t i).den = d := by omega
          rw [this]
      · have hstep := hdvd d B
        have hpos : 0 < (if (B.t i).num ≠ 0 then
            (if (B.t i).den < d then (if d % (B.t i).den ≠ 0 then d * (B.t i).den else d) else d)
            else d) := by
          split
          · split
            · split
              · exact Nat.mul_pos hd (B.t i).den_pos
              · exact hd
            · exact hd
          · exact hd
        exact ih _ hA hpos (hle.trans (Nat.le_of_dvd hpos hstep))
  exact key l _ hA (by have := (A.t i).den_pos; omega) hle

/-- What holds of C32: the statement in every direction except the first, and in the first
direction if the dimension is a multiple of the denominators of the translations (the
condition the code omits). -/
theorem C32_mesh_invariant_partial (l : List (Sym D)) (dims : Fin D → Int)
    (hpos : ∀ i, 0 < dims i) (hc : checkMeshDimensions l dims = true) (A : Sym D) (hA : A ∈ l)
    (n : Fin D → Int) (i : Fin D) (hi : i.val ≠ 0 ∨ ((A.t i).den : Int) ∣ dims i) :
    ∃ m : Int, A.t i + ∑ j, (A.R i j : ℚ) * (n j / dims j) = (m : ℚ) / dims i := by
  unfold checkMeshDimensions at hc
  rw [Bool.and_eq_true] at hc
  obtain ⟨hc1, hc2⟩ := hc
  simp only [List.all_eq_true, List.mem_finRange, forall_const] at hc1 hc2
  have hden : ((A.t i).den : Int) ∣ dims i := by
    rcases hi with hi | hi
    · have := hc1 i
      rw [if_neg hi, decide_eq_true_eq] at this
      have h1 : ((divisor l i : Nat) : Int) ∣ dims i := Int.dvd_of_tmod_eq_zero this
      exact (Int.natCast_dvd_natCast.mpr (den_dvd_divisor l i A hA)).trans h1
    · exact hi
  have hrel : ∀ a b : Fin D, b < a → (A.R a b ≠ 0 ∨ A.R b a ≠ 0) → dims a = dims b := by
    intro a b hab hR
    have := hc2 a b
    rw [if_pos hab] at this
    have hr : areRelated l a b = true := by
      unfold areRelated
      rw [List.any_eq_true]
      exact ⟨A, hA, by simpa using hR⟩
    rw [hr] at this
    by_contra hne
    simp [hne] at this
  have heq : ∀ j, A.R i j ≠ 0 → dims j = dims i := by
    intro j hR
    rcases lt_trichotomy i j with h | h | h
    · exact hrel j i h (Or.inr hR)
    · rw [h]
    · exact (hrel i j h (Or.inl hR)).symm
  have hdi : (dims i : ℚ) ≠ 0 := by exact_mod_cast (hpos i).ne'
  obtain ⟨k, hk⟩ := hden
  refine ⟨(A.t i).num * k + ∑ j, A.R i j * n j, ?_⟩
  rw [eq_div_iff hdi, add_mul, Finset.sum_mul]
  push_cast
  congr 1
  · have : (A.t i) * ((A.t i).den : ℚ) = (A.t i).num := Rat.mul_den_eq_num _
    have hk' : (dims i : ℚ) = ((A.t i).den : ℚ) * k := by exact_mod_cast hk
    rw [hk', ← mul_assoc, this]
  · refine Finset.sum_congr rfl fun j _ => ?_
    by_cases hR : A.R i j = 0
    · simp [hR]
    · rw [heq j hR]
      field_simp

/-- C32 is violated: the dimension in the first direction is not checked against translations
(the loop starts with `i = 1`). The group of a glide reflection accepts a 3 × 4 mesh. -/
theorem C32_violated : ¬ C32_statement := by
  intro h
  obtain ⟨m, hm⟩ := h 2 [Sym.identity 2, glide] (fun i => if i = 0 then 3 else 4)
    (by decide +kernel) (by decide +kernel) (by decide +kernel) glide (by simp) (fun _ => 0) 0
  simp [glide] at hm
  have h1 : (3 : ℚ) = 2 * m := by field_simp at hm; linarith
  have h2 : (3 : Int) = 2 * m := by exact_mod_cast h1
  omega

/-- The partial theorem applies to the glide group on a 4 × 4 mesh; an odd second dimension
would be rejected for a glide along the second axis. -/
example : checkMeshDimensions [Sym.identity 2, glide] (fun _ => 4) = true ∧
    (glide.t 0).den ∣ 4 := by decide +kernel
example : checkMeshDimensions [Sym.identity 2,
    { R := fun i j => if i = j then (if i = 0 then -1 else 1) else 0
      t := fun i => if i = 0 then 0 else 1/2 }] (fun _ => 3) = false := by decide +kernel

/-! ## C33 -/

theorem readRs_write (B : Sym D) : ∀ (ij : List (Fin D × Fin D)) (A : Sym D) (ts : List Tok),
    readRs ij A (ij.map (fun p => Tok.int (B.R p.1 p.2)) ++ ts) =
      .ok ({ A with R := fun a b => if (a, b) ∈ ij then B.R a b else A.R a b }, ts) := by
  intro ij
  induction ij with
  | nil => intro A ts; simp [readRs]
  | cons p rest ih =>
    obtain ⟨i, j⟩ := p
    intro A ts
    rw [List.map_cons, List.cons_append, readRs]
    simp only [readInt, Res.ok_bind]
    rw [ih]
    congr 2
    apply Sym.ext'
    · intro a b
      simp only
      by_cases h1 : (a, b) ∈ rest
      · simp [h1]
      · by_cases h2 : a = i ∧ b = j
        · obtain ⟨rfl, rfl⟩ := h2
          simp [h1]
        · rw [if_neg h1, if_neg h2, if_neg]
          simp only [List.mem_cons, Prod.mk.injEq, h1, or_false]
          exact h2
    · intro a; rfl

theorem readTs_write (B : Sym D) : ∀ (is : List (Fin D)) (A : Sym D) (ts : List Tok),
    readTs is A (is.map (fun i => Tok.rat (B.t i)) ++ ts) =
      .ok ({ A with t := fun a => if a ∈ is then B.t a else A.t a }, ts) := by
  intro is
  induction is with
  | nil => intro A ts; simp [readTs]
  | cons i rest ih =>
    intro A ts
    rw [List.map_cons, List.cons_append, readTs]
    simp only [readRat, Res.ok_bind]
    rw [ih]
    congr 2
    apply Sym.ext'
    · intro a b; rfl
    · intro a
      simp only
      by_cases h1 : a ∈ rest
      · simp [h1]
      · by_cases h2 : a = i
        · subst h2; simp [h1]
        · rw [if_neg h1, if_neg h2, if_neg]
          simp only [List.mem_cons, h1, or_false]
          exact h2

theorem readSym_write (A B : Sym D) (ts : List Tok) :
    readSym A (writeSym B ++ ts) = .ok (B, ts) := by
  unfold readSym writeSym
  have e : ((List.finRange D).flatMap fun i => (List.finRange D).map fun j => Tok.int (B.R i j)) =
      ((List.finRange D).flatMap fun i => (List.finRange D).map fun j => (i, j)).map
        (fun p => Tok.int (B.R p.1 p.2)) := by
    simp [List.map_flatMap, List.map_map, Function.comp_def]
  rw [e, List.append_assoc, readRs_write]
  simp only [Res.ok_bind]
  rw [readTs_write]
  congr 2
  apply Sym.ext'
  · intro a b; simp
  · intro a; simp

/-- Elements added one after the other. -/
def addAll (m : List (Sym D)) : List (Sym D) → List (Sym D) := fun l =>
  l.foldl (fun m x => (add (symOps D) m x).1) m

theorem readLoop_write : ∀ (l : List (Sym D)) (s : Sym D) (m : List (Sym D)) (ts : List Tok),
    readLoop l.length s m (l.flatMap writeSym ++ ts) = .ok (addAll m l) := by
  intro l
  induction l with
  | nil => intro s m ts; rfl
  | cons A l ih =>
    intro s m ts
    rw [List.length_cons, readLoop, List.flatMap_cons, List.append_assoc, readSym_write]
    simp only [Res.ok_bind]
    rw [ih]
    rfl

theorem readGroup_write (l : List (Sym D)) :
    readGroup D (writeGroup l) = .ok (addAll (cleared (symOps D)) l) := by
  have := readLoop_write l (Sym.identity D) (cleared (symOps D)) []
  rw [List.append_nil] at this
  simp only [readGroup, writeGroup, List.cons_append, List.nil_append, and_self, if_true]
  exact this

theorem addAll_eq : ∀ (l m : List (Sym D)), (∀ A ∈ l, A.Reduced) → l.Nodup →
    addAll m l = m ++ l.filter (fun x => decide (x ∉ m)) := by
  intro l
  induction l with
  | nil => intro m _ _; simp [addAll]
  | cons A l ih =>
    intro m hr hn
    have hA : (symOps D).norm A = A := (reduced_iff A).mp (hr A (by simp))
    have hstep : addAll m (A :: l) = addAll (add (symOps D) m A).1 l := rfl
    rw [hstep, ih _ (fun B hB => hr B (by simp [hB])) (List.nodup_cons.mp hn).2, add_eq m A hA]
    by_cases h : A ∈ m
    · simp [h]
    · simp only [h, if_false, List.filter_cons, not_false_eq_true, decide_true, if_true]
      rw [List.append_assoc]
      congr 1
      rw [List.singleton_append]
      congr 1
      apply List.filter_congr
      intro x hx
      have hne : x ≠ A := fun he => (List.nodup_cons.mp hn).1 (he ▸ hx)
      simp [hne]

/-- C33: writing a group (any list without duplicates of reduced symmetries that contains the
identity) and reading it back gives a group equal to the original; the identity comes first. -/
theorem C33_group_file (l : List (Sym D)) (hr : ∀ A ∈ l, A.Reduced) (hn : l.Nodup)
    (hone : Sym.identity D ∈ l) :
    ∃ l', readGroup D (writeGroup l) = .ok l' ∧ groupEq l' l = true ∧
      l' = Sym.identity D :: l.erase (Sym.identity D) := by
  refine ⟨_, readGroup_write l, ?_⟩
  have e : addAll (cleared (symOps D)) l = Sym.identity D :: l.erase (Sym.identity D) := by
    have hc : cleared (symOps D) = [Sym.identity D] := by
      show [(symOps D).norm (symOps D).one] = _
      rw [(symOps_regular D).one]; rfl
    rw [addAll_eq l _ hr hn, hc, List.Nodup.erase_eq_filter hn, List.singleton_append]
    congr 1
    apply List.filter_congr
    intro x _
    simp [bne, beq_eq_decide]
  refine ⟨?_, e⟩
  rw [e]
  have hperm : (Sym.identity D :: l.erase (Sym.identity D)).Perm l :=
    (List.perm_cons_erase hone).symm
  unfold groupEq
  rw [if_neg (by rw [hperm.length_eq]; simp)]
  rw [Bool.and_eq_true, List.all_eq_true, List.all_eq_true]
  exact ⟨fun x hx => (found_iff _ _).mpr (hperm.mem_iff.mp hx),
    fun x hx => (found_iff _ _).mpr (hperm.mem_iff.mpr hx)⟩

/-- C33: group equality is equality as sets, for groups without duplicates. -/
theorem C33_equality (l m : List (Sym D)) (hl : l.Nodup) (hm : m.Nodup) :
    groupEq l m = true ↔ ∀ x, x ∈ l ↔ x ∈ m := by
  unfold groupEq
  constructor
  · intro h x
    split at h
    · cases h
    · rw [Bool.and_eq_true, List.all_eq_true, List.all_eq_true] at h
      exact ⟨fun hx => (found_iff _ _).mp (h.1 x hx), fun hx => (found_iff _ _).mp (h.2 x hx)⟩
  · intro h
    have hp : l.Perm m := (List.perm_ext_iff_of_nodup hl hm).mpr h
    rw [if_neg (by rw [hp.length_eq]; simp), Bool.and_eq_true, List.all_eq_true, List.all_eq_true]
    exact ⟨fun x hx => (found_iff _ _).mpr ((h x).mp hx),
      fun x hx => (found_iff _ _).mpr ((h x).mpr hx)⟩

/-- Finding: a group file cut short after any element is accepted without an error, whatever
size is declared; the group then has only the elements that were present. -/
theorem C33_truncated_file_accepted (l : List (Sym D)) (extra : Nat) (hr : ∀ A ∈ l, A.Reduced)
    (hne : l ≠ []) :
    readGroup D ([.label "dim", .int D, .label "size", .int ((l.length + extra : Nat) : Int)] ++
      l.flatMap writeSym) = .ok (addAll (cleared (symOps D)) l) := by
  -- reading at the end of the stream repeats the last element
  have hRs : ∀ (ij : List (Fin D × Fin D)) (A : Sym D), readRs ij A [] = .ok (A, []) := by
    intro ij
    induction ij with
    | nil => intro A; rfl
    | cons p rest ih =>
      intro A
      obtain ⟨i, j⟩ := p
      rw [readRs]
      simp only [readInt, Res.ok_bind]
      have : ({ A with R := fun a b => if a = i ∧ b = j then A.R i j else A.R a b } : Sym D) = A := by
        apply Sym.ext'
        · intro a b
          simp only
          split
          · rename_i h; rw [h.1, h.2]
          · rfl
        · intro a; rfl
      rw [this, ih]
  have hTs : ∀ (is : List (Fin D)) (A : Sym D), readTs is A [] = .ok (A, []) := by
    intro is
    induction is with
    | nil => intro A; rfl
    | cons i rest ih =>
      intro A
      rw [readTs]
      simp only [readRat, Res.ok_bind]
      have : ({ A with t := fun a => if a = i then A.t i else A.t a } : Sym D) = A := by
        apply Sym.ext'
        · intro a b; rfl
        · intro a
          simp only
          split
          · rename_i h; rw [h]
          · rfl
      rw [this, ih]
  have hsym : ∀ A : Sym D, readSym A [] = .ok (A, []) := by
    intro A; rw [readSym, hRs]; simp only [Res.ok_bind]; exact hTs _ _
  have hend : ∀ (n : Nat) (A : Sym D) (m : List (Sym D)), A.Reduced → A ∈ m →
      readLoop n A m [] = .ok m := by
    intro n
    induction n with
    | zero => intro A m _ _; rfl
    | succ n ih =>
      intro A m hA hm
      rw [readLoop, hsym]
      simp only [Res.ok_bind]
      rw [add_eq m A ((reduced_iff A).mp hA), if_pos hm]
      exact ih A m hA hm
  have hmain : ∀ (l : List (Sym D)) (s : Sym D) (m : List (Sym D)), (∀ A ∈ l, A.Reduced) → l ≠ [] →
      readLoop (l.length + extra) s m (l.flatMap writeSym) = .ok (addAll m l) := by
    intro l
    induction l with
    | nil => intro _ _ _ h; exact absurd rfl h
    | cons A l ih =>
      intro s m hr _
      rw [List.length_cons, show l.length + 1 + extra = (l.length + extra) + 1 by omega, readLoop,
        List.flatMap_cons, readSym_write]
      simp only [Res.ok_bind]
      cases l with
      | nil =>
        have hA := (reduced_iff A).mp (hr A (by simp))
        simp only [List.flatMap_nil, List.length_nil, Nat.zero_add]
        rw [hend extra A _ (hr A (by simp)) (C29_add m A hA).2.1]
        rfl
      | cons B l' => exact ih A _ (fun C hC => hr C (by simp [hC])) (by simp)
  simp only [readGroup, List.cons_append, List.nil_append, and_self, if_true]
  exact hmain l _ _ hr hne

/-- Round trip of the glide group written with the identity last. -/
example : readGroup 2 (writeGroup [glide, Sym.identity 2]) = .ok [Sym.identity 2, glide] := by
  decide +kernel

end Verif.Crystal
