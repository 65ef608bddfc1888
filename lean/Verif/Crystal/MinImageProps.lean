import Verif.Crystal.MinImage
import Verif.Mesh.Props
import Verif.Tac

/-!
# Minimum image of a wavevector (C39)
-/

namespace Verif.Crystal

/-! ## Lemmas about the search -/

theorem mem_imageShifts {D : Nat} {s : Fin D → Int} :
    s ∈ imageShifts D ↔ ∀ i, -2 ≤ s i ∧ s i ≤ 2 := by
  induction D with
  | zero => simp [imageShifts]; funext i; exact i.elim0
  | succ D ih =>
    simp only [imageShifts, List.mem_flatMap, List.mem_map]
    constructor
    · rintro ⟨a, ha, t, ht, rfl⟩ i
      refine Fin.cases ?_ ?_ i
      · simp only [Fin.cons_zero]
        simp at ha; omega
      · intro j; simpa using ih.mp ht j
    · intro h
      refine ⟨s 0, ?_, fun j => s j.succ, ih.mpr fun j => h j.succ, ?_⟩
      · have := h 0
        simp; omega
      · funext i
        refine Fin.cases ?_ ?_ i <;> simp

theorem length_imageShifts (D : Nat) : (imageShifts D).length = 5 ^ D := by
  induction D with
  | zero => rfl
  | succ D ih => simp [imageShifts, ih]; ring

theorem ivLt_irrefl {D : Nat} (u : Fin D → Int) : ivLt u u = false :=
  Mesh.C08_intvec_total_order.1 _

theorem ivLt_trans {D : Nat} {u v w : Fin D → Int} (h : ivLt u v = true) (h' : ivLt v w = true) :
    ivLt u w = true := Mesh.C08_intvec_total_order.2.1 _ _ _ h h'

theorem ivLt_total {D : Nat} (u v : Fin D → Int) : ivLt u v = true ∨ u = v ∨ ivLt v u = true := by
  have h := (Mesh.C08_intvec_total_order.2.2 (List.ofFn u) (List.ofFn v) (by simp)).2.1
  rcases h with h | h | h
  · exact .inl h
  · exact .inr (.inl (List.ofFn_injective h))
  · exact .inr (.inr h)

/-- State invariant: the bounds are the current squared norm minus and plus the tolerance. -/
def MinState.Ok {D : Nat} (f : (Fin D → Int) → ℝ) (eps : ℝ) (st : MinState D) : Prop :=
  st.lo = f st.r - eps ∧ st.hi = f st.r + eps

theorem minStep_ok {D : Nat} {f : (Fin D → Int) → ℝ} {eps : ℝ} {st : MinState D}
    (h : st.Ok f eps) (u : Fin D → Int) : (minStep f eps st u).Ok f eps := by
  simp only [minStep]
  split
  · split
    · exact ⟨rfl, rfl⟩
    · exact h
  · exact h

theorem foldl_ok {D : Nat} {f : (Fin D → Int) → ℝ} {eps : ℝ} (l : List (Fin D → Int))
    {st : MinState D} (h : st.Ok f eps) : (l.foldl (minStep f eps) st).Ok f eps := by
  induction l generalizing st with
  | nil => exact h
  | cons a l ih => exact ih (minStep_ok h a)

theorem minStep_r {D : Nat} (f : (Fin D → Int) → ℝ) (eps : ℝ) (st : MinState D)
    (u : Fin D → Int) : (minStep f eps st u).r = st.r ∨ (minStep f eps st u).r = u := by
  simp only [minStep]
  split
  · split
    · exact .inr rfl
    · exact .inl rfl
  · exact .inl rfl

theorem foldl_r {D : Nat} (f : (Fin D → Int) → ℝ) (eps : ℝ) (l : List (Fin D → Int))
    (st : MinState D) :
    (l.foldl (minStep f eps) st).r = st.r ∨ (l.foldl (minStep f eps) st).r ∈ l := by
  induction l generalizing st with
  | nil => exact .inl rfl
  | cons a l ih =>
    rcases ih (minStep f eps st a) with h | h
    · rcases minStep_r f eps st a with h' | h'
      · left; simp only [List.foldl_cons]; rw [h, h']
      · right; simp only [List.foldl_cons]; rw [h, h']; simp
    · right; simp only [List.foldl_cons]; exact List.mem_cons_of_mem _ h

/-- One turn raises the current squared norm by less than the tolerance, and afterwards the
current vector is within the tolerance of the one just visited. -/
theorem minStep_le {D : Nat} {f : (Fin D → Int) → ℝ} {eps : ℝ} (heps : 0 ≤ eps)
    {st : MinState D} (h : st.Ok f eps) (u : Fin D → Int) :
    f (minStep f eps st u).r ≤ f st.r + eps ∧ f (minStep f eps st u).r ≤ f u + eps := by
  obtain ⟨h1, h2⟩ := h
  simp only [minStep]
  split
  · rename_i hu
    split
    · exact ⟨by simp only; linarith, by simp only; linarith⟩
    · rename_i hn
      rw [not_or, not_lt] at hn
      exact ⟨by linarith, by linarith [hn.1]⟩
  · rename_i hu
    exact ⟨by linarith, by linarith⟩

theorem foldl_le {D : Nat} {f : (Fin D → Int) → ℝ} {eps : ℝ} (heps : 0 ≤ eps)
    (l : List (Fin D → Int)) {st : MinState D} (h : st.Ok f eps) :
    f (l.foldl (minStep f eps) st).r ≤ f st.r + l.length * eps ∧
      ∀ u ∈ l, f (l.foldl (minStep f eps) st).r ≤ f u + l.length * eps := by
  induction l generalizing st with
  | nil => simp
  | cons a l ih =>
    obtain ⟨i1, i2⟩ := ih (minStep_ok h a)
    obtain ⟨s1, s2⟩ := minStep_le heps h a
    simp only [List.foldl_cons, List.length_cons]
    push_cast
    refine ⟨by linarith, fun u hu => ?_⟩
    rcases List.mem_cons.mp hu with rfl | hu
    · linarith
    · have := i2 u hu
      linarith

/-! ## C39 -/

/-- C39: the result is an image of the input, shifted by at most two mesh periods per direction;
in particular it is congruent to the input modulo the mesh dimensions. -/
theorem C39_congruent {D : Nat} (f : (Fin D → Int) → ℝ) (eps : ℝ) (v d : Fin D → Int) :
    ∃ s : Fin D → Int, (∀ i, -2 ≤ s i ∧ s i ≤ 2) ∧
      ∀ i, minImage f eps v d i = v i + s i * d i := by
  rcases foldl_r f eps ((imageShifts D).map (image v d))
    { lo := f v - eps, hi := f v + eps, r := v } with h | h
  · refine ⟨fun _ => 0, fun i => by simp, fun i => ?_⟩
    simp only [minImage, h]; simp
  · obtain ⟨s, hs, he⟩ := List.mem_map.mp h
    refine ⟨s, mem_imageShifts.mp hs, fun i => ?_⟩
    simp only [minImage, ← he, image]

/-- C39: the squared norm of the result exceeds that of no searched image by more than
`5^D` times the tolerance (each accepted tie can raise the norm by one tolerance). -/
theorem C39_minimal {D : Nat} (f : (Fin D → Int) → ℝ) (eps : ℝ) (heps : 0 ≤ eps)
    (v d s : Fin D → Int) (hs : ∀ i, -2 ≤ s i ∧ s i ≤ 2) :
    f (minImage f eps v d) ≤ f (fun i => v i + s i * d i) + 5 ^ D * eps := by
  have h := (foldl_le heps ((imageShifts D).map (image v d))
    (st := { lo := f v - eps, hi := f v + eps, r := v }) ⟨rfl, rfl⟩).2
    (image v d s) (List.mem_map.mpr ⟨s, mem_imageShifts.mpr hs, rfl⟩)
  rw [List.length_map, length_imageShifts] at h
  push_cast at h
  exact h

/-- Invariant of the search when distinct norms differ by more than the tolerance: no visited
vector is shorter, and none of the equally long ones is greater. -/
theorem foldl_separated {D : Nat} {f : (Fin D → Int) → ℝ} {eps : ℝ} (heps : 0 < eps)
    (l : List (Fin D → Int)) {st : MinState D} (h : st.Ok f eps)
    (hsep : ∀ a b, (a ∈ l ∨ a = st.r) → (b ∈ l ∨ b = st.r) → f a < f b → f a + eps < f b) :
    ∀ u, (u ∈ l ∨ u = st.r) → f (l.foldl (minStep f eps) st).r ≤ f u ∧
      (f u = f (l.foldl (minStep f eps) st).r →
        ivLt (l.foldl (minStep f eps) st).r u = false) := by
  induction l generalizing st with
  | nil =>
    rintro u (hu | rfl)
    · simp at hu
    · exact ⟨le_refl _, fun _ => ivLt_irrefl _⟩
  | cons a l ih =>
    have hmem : (minStep f eps st a).r = st.r ∨ (minStep f eps st a).r = a := minStep_r f eps st a
    have hstep : ∀ u, u = a ∨ u = st.r → f (minStep f eps st a).r ≤ f u ∧
        (f u = f (minStep f eps st a).r → ivLt (minStep f eps st a).r u = false) := by
      obtain ⟨h1, h2⟩ := h
      have hab := hsep a st.r (.inl (by simp)) (.inr rfl)
      have hba := hsep st.r a (.inr rfl) (.inl (by simp))
      simp only [minStep]
      split
      · rename_i hu
        have hle : f a ≤ f st.r := by
          by_contra hc
          have := hba (not_le.mp hc)
          linarith
        split
        · rename_i hc
          rintro u (rfl | rfl)
          · exact ⟨le_refl _, fun _ => ivLt_irrefl _⟩
          · refine ⟨hle, fun e => ?_⟩
            rcases hc with hc | hc
            · simp only at e; linarith
            · simp only
              by_contra hx
              have hx : ivLt a st.r = true := by simpa using hx
              have := ivLt_trans hc hx
              rw [ivLt_irrefl] at this
              exact absurd this (by simp)
        · rename_i hc
          rw [not_or, not_lt] at hc
          rintro u (rfl | rfl)
          · have : f st.r ≤ f u := by
              by_contra hx
              have := hab (not_le.mp hx)
              linarith [hc.1]
            refine ⟨this, fun _ => by simpa using hc.2⟩
          · exact ⟨le_refl _, fun _ => ivLt_irrefl _⟩
      · rename_i hu
        rintro u (rfl | rfl)
        · refine ⟨by linarith, fun e => ?_⟩
          linarith
        · exact ⟨le_refl _, fun _ => ivLt_irrefl _⟩
    have hsep' : ∀ x y, (x ∈ l ∨ x = (minStep f eps st a).r) →
        (y ∈ l ∨ y = (minStep f eps st a).r) → f x < f y → f x + eps < f y := by
      intro x y hx hy
      apply hsep
      · rcases hx with hx | hx
        · exact .inl (List.mem_cons_of_mem _ hx)
        · rcases hmem with hm | hm
          · exact .inr (hx.trans hm)
          · exact .inl (by rw [hx, hm]; simp)
      · rcases hy with hx | hx
        · exact .inl (List.mem_cons_of_mem _ hx)
        · rcases hmem with hm | hm
          · exact .inr (hx.trans hm)
          · exact .inl (by rw [hx, hm]; simp)
    have hrec := ih (minStep_ok h a) hsep'
    intro u hu
    simp only [List.foldl_cons]
    by_cases hl : u ∈ l
    · exact hrec u (.inl hl)
    · have hu' : u = a ∨ u = st.r := by
        rcases hu with hu | hu
        · rcases List.mem_cons.mp hu with h' | h'
          · exact .inl h'
          · exact absurd h' hl
        · exact .inr hu
      obtain ⟨s1, s2⟩ := hstep u hu'
      obtain ⟨r1, r2⟩ := hrec _ (.inr rfl)
      refine ⟨by linarith, fun e => ?_⟩
      have e1 : f (minStep f eps st a).r =
          f (List.foldl (minStep f eps) (minStep f eps st a) l).r := by linarith
      have t1 := s2 (by linarith)
      have t2 := r2 e1
      by_contra hx
      have hx : ivLt (List.foldl (minStep f eps) (minStep f eps st a) l).r u = true := by
        simpa using hx
      rcases ivLt_total (minStep f eps st a).r
        (List.foldl (minStep f eps) (minStep f eps st a) l).r with q | q | q
      · have := ivLt_trans q hx
        rw [t1] at this; simp at this
      · rw [← q, t1] at hx; simp at hx
      · rw [t2] at q; simp at q

/-- C39, exact form: if the squared norms of the searched images are equal or differ by more than
the tolerance, the result is a shortest image and the lexicographically greatest of these. -/
theorem C39_shortest_and_greatest {D : Nat} (f : (Fin D → Int) → ℝ) (eps : ℝ) (heps : 0 < eps)
    (v d : Fin D → Int)
    (hsep : ∀ s t : Fin D → Int, (∀ i, -2 ≤ s i ∧ s i ≤ 2) → (∀ i, -2 ≤ t i ∧ t i ≤ 2) →
      f (image v d s) < f (image v d t) → f (image v d s) + eps < f (image v d t))
    (s : Fin D → Int) (hs : ∀ i, -2 ≤ s i ∧ s i ≤ 2) :
    f (minImage f eps v d) ≤ f (fun i => v i + s i * d i) ∧
      (f (fun i => v i + s i * d i) = f (minImage f eps v d) →
        ivLt (minImage f eps v d) (fun i => v i + s i * d i) = false) := by
  have hv : v = image v d (fun _ => 0) := by funext i; simp [image]
  refine foldl_separated heps ((imageShifts D).map (image v d))
    (st := { lo := f v - eps, hi := f v + eps, r := v }) ⟨rfl, rfl⟩ ?_
    (image v d s) (.inl (List.mem_map.mpr ⟨s, mem_imageShifts.mpr hs, rfl⟩))
  have conv : ∀ a, (a ∈ (imageShifts D).map (image v d) ∨ a = v) →
      ∃ s : Fin D → Int, (∀ i, -2 ≤ s i ∧ s i ≤ 2) ∧ a = image v d s := by
    rintro a (ha | rfl)
    · obtain ⟨s, hs, rfl⟩ := List.mem_map.mp ha
      exact ⟨s, mem_imageShifts.mp hs, rfl⟩
    · exact ⟨fun _ => 0, fun i => by simp, hv⟩
  intro a b ha hb
  obtain ⟨s, hs, rfl⟩ := conv a ha
  obtain ⟨t, ht, rfl⟩ := conv b hb
  exact hsep s t hs ht

/-- C39 in one dimension: for an input within one and a half periods of the origin the result is
an image of it, and no image at all (over any shift) has smaller magnitude. -/
theorem C39_one_dimension (v d : Int) (hd : 0 < d) (hv : |v| ≤ d + d / 2) :
    (∃ s : Int, minImage1 v d = v + s * d) ∧ ∀ s : Int, |minImage1 v d| ≤ |v + s * d| := by
  have e : d.tdiv 2 = d / 2 := Int.tdiv_eq_ediv_of_nonneg hd.le
  rw [abs_le] at hv
  have key : ∀ w : Int, |w| ≤ d / 2 → ∀ s : Int, |w| ≤ |w + s * d| := by
    intro w hw s
    rcases lt_trichotomy s 0 with h | rfl | h
    · have : s * d ≤ -d := by nlinarith
      rcases abs_cases w with ⟨a, _⟩ | ⟨a, _⟩ <;> rcases abs_cases (w + s * d) with ⟨b, _⟩ | ⟨b, _⟩ <;>
        omega
    · simp
    · have : d ≤ s * d := by nlinarith
      rcases abs_cases w with ⟨a, _⟩ | ⟨a, _⟩ <;> rcases abs_cases (w + s * d) with ⟨b, _⟩ | ⟨b, _⟩ <;>
        omega
  unfold minImage1
  rw [e]
  split
  · refine ⟨⟨-1, by ring⟩, fun s => ?_⟩
    have := key (v - d) (by rw [abs_le]; omega) (s + 1)
    rwa [show v - d + (s + 1) * d = v + s * d by ring] at this
  · split
    · refine ⟨⟨1, by ring⟩, fun s => ?_⟩
      have := key (v + d) (by rw [abs_le]; omega) (s - 1)
      rwa [show v + d + (s - 1) * d = v + s * d by ring] at this
    · exact ⟨⟨0, by ring⟩, fun s => key v (by rw [abs_le]; omega) s⟩

/-- The function used by the program, two and three dimensions: result congruent to the input
and short up to 25 (125) tolerances of `1e-8`. -/
theorem C39_shiftToMinimum {D : Nat} (hD : D ≠ 1) (kB : BasisVecs D) (v d : Fin D → Int) :
    (∃ s : Fin D → Int, (∀ i, -2 ≤ s i ∧ s i ≤ 2) ∧
      ∀ i, shiftToMinimum kB v d i = v i + s i * d i) ∧
    ∀ s : Fin D → Int, (∀ i, -2 ≤ s i ∧ s i ≤ 2) →
      ksq kB (shiftToMinimum kB v d) ≤ ksq kB (fun i => v i + s i * d i) + 5 ^ D / 100000000 := by
  have e : shiftToMinimum kB v d = minImage (ksq kB) (1 / 100000000) v d := by
    match D, hD with
    | 0, _ => rfl
    | 1, h => exact absurd rfl h
    | n + 2, _ => rfl
  rw [e]
  refine ⟨C39_congruent _ _ v d, fun s hs => ?_⟩
  have := C39_minimal (ksq kB) (1 / 100000000) (by norm_num) v d s hs
  linarith

-- squared norm x² + y² on a 4 × 4 mesh: (3, 2) is moved to (-1, 2)
example : (∀ s t : Fin 2 → Int, (∀ i, -2 ≤ s i ∧ s i ≤ 2) → (∀ i, -2 ≤ t i ∧ t i ≤ 2) →
    let f : (Fin 2 → Int) → ℝ := fun u => ((u 0 ^ 2 + u 1 ^ 2 : Int) : ℝ)
    f (image ![3, 2] ![4, 4] s) < f (image ![3, 2] ![4, 4] t) →
      f (image ![3, 2] ![4, 4] s) + 1 / 2 < f (image ![3, 2] ![4, 4] t)) := by
  intro s t _ _ f h
  simp only [f] at h
  have h1 : (image ![3, 2] ![4, 4] s 0 ^ 2 + image ![3, 2] ![4, 4] s 1 ^ 2 : Int) <
      image ![3, 2] ![4, 4] t 0 ^ 2 + image ![3, 2] ![4, 4] t 1 ^ 2 := by exact_mod_cast h
  have h2 : ((image ![3, 2] ![4, 4] s 0 ^ 2 + image ![3, 2] ![4, 4] s 1 ^ 2 : Int) : ℝ) + 1 ≤
      ((image ![3, 2] ![4, 4] t 0 ^ 2 + image ![3, 2] ![4, 4] t 1 ^ 2 : Int) : ℝ) := by
    exact_mod_cast h1
  simp only [f]
  linarith

example : minImage1 5 8 = -3 ∧ minImage1 4 8 = 4 ∧ minImage1 (-4) 8 = -4 := by decide

end Verif.Crystal
