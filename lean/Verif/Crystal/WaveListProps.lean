import Verif.Crystal.WaveListModel
import Verif.Crystal.MinImageProps
import Verif.Tac
import Mathlib.Analysis.Real.Pi.Bounds
import Mathlib.Data.Finset.Max
import Mathlib.Algebra.Order.BigOperators.Group.Finset

/-!
# Wave list caches (C51), half mesh of a real transform (C69), and a sharper form of C39
-/

namespace Verif.Crystal
set_option linter.unusedSectionVars false

/-! ## Minimum images when only the shortest ones are separated from the rest -/

/-- Invariant of the search with a gap above the smallest norm `m`. -/
theorem foldl_gap {D : Nat} {f : (Fin D → Int) → ℝ} {eps m : ℝ} (heps : 0 < eps)
    (l : List (Fin D → Int)) : ∀ {st : MinState D}, st.Ok f eps →
    (∀ a, (a ∈ l ∨ a = st.r) → f a = m ∨ m + eps < f a) →
    (∃ a, (a ∈ l ∨ a = st.r) ∧ f a = m) →
    f (l.foldl (minStep f eps) st).r = m ∧ ∀ u, (u ∈ l ∨ u = st.r) → f u = m →
      ivLt (l.foldl (minStep f eps) st).r u = false := by
  induction l with
  | nil =>
    intro st _ _ hex
    obtain ⟨a, ha, hm⟩ := hex
    have : a = st.r := by simpa using ha
    subst this
    refine ⟨hm, fun u hu _ => ?_⟩
    have : u = st.r := by simpa using hu
    rw [this]; exact ivLt_irrefl _
  | cons a l ih =>
    intro st h hgap hex
    rw [List.foldl_cons]
    have hr := minStep_r f eps st a
    have hga := hgap a (.inl (by simp))
    have hgr := hgap st.r (.inr rfl)
    have hok := minStep_ok (eps := eps) h a
    obtain ⟨h1, h2⟩ := h
    -- effect of one step
    have hstep : ((f a = m ∨ f st.r = m) → f (minStep f eps st a).r = m) ∧
        ∀ u, (u = a ∨ u = st.r) → f u = m → ivLt (minStep f eps st a).r u = false := by
      simp only [minStep]
      split
      · rename_i hlt
        split
        · rename_i hc
          constructor
          · rintro (e | e)
            · exact e
            · rcases hga with e' | e'
              · exact e'
              · simp only; linarith
          · rintro u (rfl | rfl) hu
            · exact ivLt_irrefl _
            · rcases hc with hc | hc
              · simp only
                rcases hga with e' | e' <;> linarith
              · simp only
                by_contra hx
                have hx : ivLt a st.r = true := by simpa using hx
                have := ivLt_trans hc hx
                rw [ivLt_irrefl] at this
                exact absurd this (by simp)
        · rename_i hc
          rw [not_or, not_lt] at hc
          constructor
          · rintro (e | e)
            · rcases hgr with e' | e'
              · exact e'
              · linarith [hc.1]
            · exact e
          · rintro u (rfl | rfl) hu
            · simpa using hc.2
            · exact ivLt_irrefl _
      · rename_i hlt
        rw [not_lt] at hlt
        constructor
        · rintro (e | e)
          · rcases hgr with e' | e' <;> linarith
          · exact e
        · rintro u (rfl | rfl) hu
          · rcases hgr with e' | e' <;> linarith
          · exact ivLt_irrefl _
    have hgap' : ∀ b, (b ∈ l ∨ b = (minStep f eps st a).r) → f b = m ∨ m + eps < f b := by
      rintro b (hb | rfl)
      · exact hgap b (.inl (List.mem_cons_of_mem _ hb))
      · rcases hr with e | e
        · rw [e]; exact hgr
        · rw [e]; exact hga
    have hex' : ∃ b, (b ∈ l ∨ b = (minStep f eps st a).r) ∧ f b = m := by
      obtain ⟨b, hb, hm⟩ := hex
      rcases hb with hb | rfl
      · rcases List.mem_cons.mp hb with rfl | hb
        · exact ⟨_, .inr rfl, hstep.1 (.inl hm)⟩
        · exact ⟨b, .inl hb, hm⟩
      · exact ⟨_, .inr rfl, hstep.1 (.inr hm)⟩
    obtain ⟨i1, i2⟩ := ih hok hgap' hex'
    refine ⟨i1, fun u hu hm => ?_⟩
    by_cases hl : u ∈ l
    · exact i2 u (.inl hl) hm
    · have hu' : u = a ∨ u = st.r := by
        rcases hu with hu | hu
        · exact .inl ((List.mem_cons.mp hu).resolve_right hl)
        · exact .inr hu
      have e1 : f (minStep f eps st a).r = m := hstep.1 (by
        rcases hu' with rfl | rfl
        · exact .inl hm
        · exact .inr hm)
      have t1 := hstep.2 u hu' hm
      have t2 := i2 _ (.inr rfl) e1
      by_contra hx
      have hx : ivLt (List.foldl (minStep f eps) (minStep f eps st a) l).r u = true := by
        simpa using hx
      rcases ivLt_total (minStep f eps st a).r
        (List.foldl (minStep f eps) (minStep f eps st a) l).r with q | q | q
      · have := ivLt_trans q hx
        rw [t1] at this; simp at this
      · rw [← q, t1] at hx; simp at hx
      · rw [t2] at q; simp at q

/-- Shifts that are searched. -/
def Near {D : Nat} (s : Fin D → Int) : Prop := ∀ i, -2 ≤ s i ∧ s i ≤ 2

/-- C39, sharper exact form: it is enough that images longer than the shortest one `image v d s0`
are longer by more than the tolerance.  The result is a shortest image, the lexicographically
greatest of these. -/
theorem C39_exact_with_gap {D : Nat} (f : (Fin D → Int) → ℝ) (eps : ℝ) (heps : 0 < eps)
    (v d s0 : Fin D → Int) (h0 : Near s0)
    (hgap : ∀ s, Near s → f (image v d s) = f (image v d s0) ∨
      f (image v d s0) + eps < f (image v d s)) :
    f (minImage f eps v d) = f (image v d s0) ∧
    ∀ s, Near s → f (image v d s) = f (image v d s0) →
      ivLt (minImage f eps v d) (image v d s) = false := by
  have hv : v = image v d (fun _ => 0) := by funext i; simp [image]
  have hn : Near (fun _ : Fin D => (0 : Int)) := fun i => by simp
  have key := foldl_gap (f := f) (m := f (image v d s0)) heps ((imageShifts D).map (image v d))
    (st := { lo := f v - eps, hi := f v + eps, r := v }) ⟨rfl, rfl⟩ (by
      rintro a (ha | rfl)
      · obtain ⟨s, hs, rfl⟩ := List.mem_map.mp ha
        exact hgap s (mem_imageShifts.mp hs)
      · have := hgap _ hn
        rwa [← hv] at this)
    ⟨image v d s0, .inl (List.mem_map.mpr ⟨s0, mem_imageShifts.mpr h0, rfl⟩), rfl⟩
  refine ⟨key.1, fun s hs he => key.2 _ (.inl (List.mem_map.mpr ⟨s, mem_imageShifts.mpr hs, rfl⟩)) he⟩

/-- Two norms with the same shortest images and gaps give the same minimum image. -/
theorem minImage_congr {D : Nat} (f g : (Fin D → Int) → ℝ) (eps : ℝ) (heps : 0 < eps)
    (v d s0 : Fin D → Int) (h0 : Near s0)
    (hf : ∀ s, Near s → f (image v d s) = f (image v d s0) ∨
      f (image v d s0) + eps < f (image v d s))
    (hg : ∀ s, Near s → g (image v d s) = g (image v d s0) ∨
      g (image v d s0) + eps < g (image v d s))
    (hfg : ∀ s, Near s → (f (image v d s) = f (image v d s0) ↔ g (image v d s) = g (image v d s0))) :
    minImage f eps v d = minImage g eps v d := by
  obtain ⟨a1, a2⟩ := C39_exact_with_gap f eps heps v d s0 h0 hf
  obtain ⟨b1, b2⟩ := C39_exact_with_gap g eps heps v d s0 h0 hg
  obtain ⟨s, hs, es⟩ := C39_congruent f eps v d
  obtain ⟨t, ht, et⟩ := C39_congruent g eps v d
  have es' : minImage f eps v d = image v d s := funext es
  have et' : minImage g eps v d = image v d t := funext et
  have c1 := a2 t ht ((hfg t ht).mpr (by rw [← et']; exact b1))
  have c2 := b2 s hs ((hfg s hs).mp (by rw [← es']; exact a1))
  rw [← et'] at c1
  rw [← es'] at c2
  rcases ivLt_total (minImage f eps v d) (minImage g eps v d) with q | q | q
  · rw [c1] at q; cases q
  · exact q
  · rw [c2] at q; cases q

/-- A norm that is a positive combination of integer forms with a common minimiser: it has a gap,
and its shortest images do not depend on the coefficients. -/
theorem combo_gap {D m : Nat} (g : Fin m → (Fin D → Int) → Int) (v d s0 : Fin D → Int)
    (hmin : ∀ j s, Near s → g j (image v d s0) ≤ g j (image v d s))
    (c : Fin m → ℝ) (eps : ℝ) (heps : 0 < eps) (hc : ∀ j, eps < c j) (f : (Fin D → Int) → ℝ)
    (hf : ∀ u, f u = ∑ j, c j * (g j u : ℝ)) (s : Fin D → Int) (hs : Near s) :
    (f (image v d s) = f (image v d s0) ∨ f (image v d s0) + eps < f (image v d s)) ∧
    (f (image v d s) = f (image v d s0) ↔ ∀ j, g j (image v d s) = g j (image v d s0)) := by
  have hle : ∀ j, c j * (g j (image v d s0) : ℝ) ≤ c j * (g j (image v d s) : ℝ) := fun j =>
    mul_le_mul_of_nonneg_left (by exact_mod_cast hmin j s hs) (by linarith [hc j])
  by_cases h : ∀ j, g j (image v d s) = g j (image v d s0)
  · have e : f (image v d s) = f (image v d s0) := by
      rw [hf, hf]; exact Finset.sum_congr rfl fun j _ => by rw [h j]
    exact ⟨.inl e, ⟨fun _ => h, fun _ => e⟩⟩
  · have : f (image v d s0) + eps < f (image v d s) := by
      push_neg at h
      obtain ⟨j, hj⟩ := h
      have hlt : g j (image v d s0) + 1 ≤ g j (image v d s) := by
        have := hmin j s hs; omega
      have h1 : c j * (g j (image v d s0) : ℝ) + eps < c j * (g j (image v d s) : ℝ) := by
        have h2 : (g j (image v d s0) : ℝ) + 1 ≤ (g j (image v d s) : ℝ) := by exact_mod_cast hlt
        have := mul_le_mul_of_nonneg_left h2 (by linarith [hc j] : 0 ≤ c j)
        linarith [hc j]
      rw [hf, hf]
      have h3 := Finset.add_sum_erase Finset.univ (fun j => c j * (g j (image v d s0) : ℝ))
        (Finset.mem_univ j)
      have h4 := Finset.add_sum_erase Finset.univ (fun j => c j * (g j (image v d s) : ℝ))
        (Finset.mem_univ j)
      have h5 : ∑ k ∈ Finset.univ.erase j, c k * (g k (image v d s0) : ℝ) ≤
          ∑ k ∈ Finset.univ.erase j, c k * (g k (image v d s) : ℝ) :=
        Finset.sum_le_sum fun k _ => hle k
      linarith
    refine ⟨.inr this, ⟨fun e => ?_, fun e => absurd e h⟩⟩
    rw [e] at this; linarith

/-! ## Lattices without variable angle -/

/-- Tolerance of `shiftToMinimum`. -/
noncomputable def tol : ℝ := 1 / 100000000

/-- A lattice constant for which the tolerance is negligible: `(2π/L)² > 1e-8`, `L < 6.28e4`. -/
def Sane (L : ℝ) : Prop := 0 < L ∧ L < 10000 * twoPi

theorem sane_coeff {L : ℝ} (h : Sane L) : tol < (twoPi / L) ^ 2 := by
  obtain ⟨h0, h1⟩ := h
  have h2 : (1 / 10000 : ℝ) < twoPi / L := by
    rw [lt_div_iff₀ h0]; linarith
  have h3 : (1 / 10000 : ℝ) ^ 2 < (twoPi / L) ^ 2 := by
    apply pow_lt_pow_left₀ h2 (by norm_num) (by norm_num)
  unfold tol
  calc (1 / 100000000 : ℝ) = (1 / 10000) ^ 2 := by norm_num
    _ < _ := h3

/-- A function of one shift component has a minimiser. -/
theorem argmin1 (h : Int → Int) : ∃ s, (-2 ≤ s ∧ s ≤ 2) ∧ ∀ t, -2 ≤ t ∧ t ≤ 2 → h s ≤ h t := by
  obtain ⟨s, hs, hm⟩ := Finset.exists_min_image (Finset.Icc (-2 : Int) 2) h ⟨0, by simp⟩
  exact ⟨s, by simpa using hs, fun t ht => hm t (by simpa using ht)⟩

/-- A function of two shift components has a minimiser. -/
theorem argmin2 (h : Int → Int → Int) : ∃ s s', (-2 ≤ s ∧ s ≤ 2) ∧ (-2 ≤ s' ∧ s' ≤ 2) ∧
    ∀ t t', -2 ≤ t ∧ t ≤ 2 → -2 ≤ t' ∧ t' ≤ 2 → h s s' ≤ h t t' := by
  obtain ⟨s, hs, hm⟩ := Finset.exists_min_image (Finset.Icc (-2 : Int) 2 ×ˢ Finset.Icc (-2 : Int) 2)
    (fun p => h p.1 p.2) ⟨(0, 0), by simp⟩
  simp only [Finset.mem_product, Finset.mem_Icc] at hs hm
  exact ⟨s.1, s.2, hs.1, hs.2, fun t t' ht ht' => hm (t, t') ⟨ht, ht'⟩⟩

/-- Parameters of a two-dimensional lattice without variable angle are in range. -/
def Lat2.SaneParams (l : Lat2) (p : Params) : Prop :=
  match l with
  | .square | .hexagonal => Sane (p 0)
  | .rectangular => Sane (p 0) ∧ Sane (p 1)
  | _ => True

def Lat3.SaneParams (l : Lat3) (p : Params) : Prop :=
  match l with
  | .cubic => Sane (p 0)
  | .tetragonal | .hexagonal => Sane (p 0) ∧ Sane (p 1)
  | .orthorhombic => Sane (p 0) ∧ Sane (p 1) ∧ Sane (p 2)
  | _ => True

theorem near2 {s : Fin 2 → Int} (h : Near s) : (-2 ≤ s 0 ∧ s 0 ≤ 2) ∧ (-2 ≤ s 1 ∧ s 1 ≤ 2) :=
  ⟨h 0, h 1⟩

theorem near_mk2 {a b : Int} (ha : -2 ≤ a ∧ a ≤ 2) (hb : -2 ≤ b ∧ b ≤ 2) : Near ![a, b] := by
  intro i; fin_cases i
  · exact ha
  · exact hb

theorem near_mk3 {a b c : Int} (ha : -2 ≤ a ∧ a ≤ 2) (hb : -2 ≤ b ∧ b ≤ 2) (hc : -2 ≤ c ∧ c ≤ 2) :
    Near ![a, b, c] := by
  intro i; fin_cases i
  · exact ha
  · exact hb
  · exact hc

/-- From a decomposition into integer forms, the minimum image does not depend on coefficients. -/
theorem minImage_indep {D m : Nat} (g : Fin m → (Fin D → Int) → Int) (v d s0 : Fin D → Int)
    (h0 : Near s0) (hmin : ∀ j s, Near s → g j (image v d s0) ≤ g j (image v d s))
    (c c' : Fin m → ℝ) (hc : ∀ j, tol < c j) (hc' : ∀ j, tol < c' j) (f f' : (Fin D → Int) → ℝ)
    (hf : ∀ u, f u = ∑ j, c j * (g j u : ℝ)) (hf' : ∀ u, f' u = ∑ j, c' j * (g j u : ℝ)) :
    minImage f tol v d = minImage f' tol v d := by
  have ht : 0 < tol := by unfold tol; norm_num
  refine minImage_congr f f' tol ht v d s0 h0 (fun s hs => ?_) (fun s hs => ?_) (fun s hs => ?_)
  · exact (combo_gap g v d s0 hmin c tol ht hc f hf s hs).1
  · exact (combo_gap g v d s0 hmin c' tol ht hc' f' hf' s hs).1
  · rw [(combo_gap g v d s0 hmin c tol ht hc f hf s hs).2,
      (combo_gap g v d s0 hmin c' tol ht hc' f' hf' s hs).2]

theorem sq3 : (√3 : ℝ) ^ 2 = 3 := Real.sq_sqrt (by norm_num)

theorem hexa_form {L : ℝ} (hL : L ≠ 0) (x y : ℝ) :
    (twoPi / L * x) ^ 2 + (twoPi / (√3 * L) * x + twoPi / (1/2 * √3 * L) * y) ^ 2 =
      4 / 3 * (twoPi / L) ^ 2 * (x ^ 2 + x * y + y ^ 2) := by
  have h3 : (√3 : ℝ) ≠ 0 := by positivity
  field_simp
  have := sq3
  ring_nf
  rw [this]
  ring

theorem ksq2 (k : BasisVecs 2) (G : Fin 2 → Int) :
    ksq k G = (k 0 0 * G 0 + k 1 0 * G 1) ^ 2 + (k 0 1 * G 0 + k 1 1 * G 1) ^ 2 := by
  simp only [ksq, accum_eq, Fin.sum_univ_two, zero_add]
  ring

theorem ksq3 (k : BasisVecs 3) (G : Fin 3 → Int) :
    ksq k G = (k 0 0 * G 0 + k 1 0 * G 1 + k 2 0 * G 2) ^ 2 +
      (k 0 1 * G 0 + k 1 1 * G 1 + k 2 1 * G 2) ^ 2 +
      (k 0 2 * G 0 + k 1 2 * G 1 + k 2 2 * G 2) ^ 2 := by
  simp only [ksq, accum_eq, Fin.sum_univ_three, zero_add]
  ring

/-- C51 (stored minimum images): for a two-dimensional lattice without variable angle the minimum
images do not depend on the lattice constants. -/
theorem C51_images_fixed_angle_2 (l : Lat2) (hl : l.hasVariableAngle = false) (p q : Params)
    (hp : l.SaneParams p) (hq : l.SaneParams q) (v d : Fin 2 → Int) :
    shiftToMinimum (l.kBasis p) v d = shiftToMinimum (l.kBasis q) v d := by
  show minImage _ tol v d = minImage _ tol v d
  cases l with
  | oblique => simp [Lat2.hasVariableAngle] at hl
  | rhombic => simp [Lat2.hasVariableAngle] at hl
  | square =>
    obtain ⟨a, ha, ha'⟩ := argmin1 fun s => (v 0 + s * d 0) ^ 2
    obtain ⟨b, hb, hb'⟩ := argmin1 fun s => (v 1 + s * d 1) ^ 2
    refine minImage_indep (m := 1) (fun _ u => u 0 ^ 2 + u 1 ^ 2) v d ![a, b] (near_mk2 ha hb) ?_
      (fun _ => (twoPi / p 0) ^ 2) (fun _ => (twoPi / q 0) ^ 2) (fun _ => sane_coeff hp)
      (fun _ => sane_coeff hq) _ _ ?_ ?_
    · intro _ s hs
      have := ha' _ (hs 0); have := hb' _ (hs 1)
      simp only [image, Matrix.cons_val_zero, Matrix.cons_val_one]
      omega
    all_goals
      intro u
      simp [ksq2, Lat2.kBasis, Fin.sum_univ_two]
      try ring
  | rectangular =>
    obtain ⟨a, ha, ha'⟩ := argmin1 fun s => (v 0 + s * d 0) ^ 2
    obtain ⟨b, hb, hb'⟩ := argmin1 fun s => (v 1 + s * d 1) ^ 2
    refine minImage_indep (m := 2) (fun j u => u j ^ 2) v d ![a, b] (near_mk2 ha hb) ?_
      (fun j => (twoPi / p (j.castLE (by norm_num))) ^ 2)
      (fun j => (twoPi / q (j.castLE (by norm_num))) ^ 2) ?_ ?_ _ _ ?_ ?_
    · intro j s hs
      fin_cases j
      · exact ha' _ (hs 0)
      · exact hb' _ (hs 1)
    · intro j; fin_cases j
      · exact sane_coeff hp.1
      · exact sane_coeff hp.2
    · intro j; fin_cases j
      · exact sane_coeff hq.1
      · exact sane_coeff hq.2
    all_goals
      intro u
      simp [ksq2, Lat2.kBasis, Fin.sum_univ_two]
      try ring
  | hexagonal =>
    obtain ⟨a, b, ha, hb, hab⟩ := argmin2 fun s t =>
      (v 0 + s * d 0) ^ 2 + (v 0 + s * d 0) * (v 1 + t * d 1) + (v 1 + t * d 1) ^ 2
    have hpos : 0 < tol := by unfold tol; norm_num
    refine minImage_indep (m := 1) (fun _ u => u 0 ^ 2 + u 0 * u 1 + u 1 ^ 2) v d ![a, b]
      (near_mk2 ha hb) ?_ (fun _ => 4 / 3 * (twoPi / p 0) ^ 2) (fun _ => 4 / 3 * (twoPi / q 0) ^ 2)
      (fun _ => by linarith [sane_coeff hp]) (fun _ => by linarith [sane_coeff hq]) _ _ ?_ ?_
    · intro _ s hs
      exact hab _ _ (hs 0) (hs 1)
    · intro u
      have := hexa_form (ne_of_gt hp.1) (u 0 : ℝ) (u 1 : ℝ)
      rw [ksq2]
      simp only [Lat2.kBasis, Fin.sum_univ_one, Int.cast_add, Int.cast_pow, Int.cast_mul,
        Matrix.cons_val_zero, Matrix.cons_val_one]
      rw [← this]
      ring
    · intro u
      have := hexa_form (ne_of_gt hq.1) (u 0 : ℝ) (u 1 : ℝ)
      rw [ksq2]
      simp only [Lat2.kBasis, Fin.sum_univ_one, Int.cast_add, Int.cast_pow, Int.cast_mul,
        Matrix.cons_val_zero, Matrix.cons_val_one]
      rw [← this]
      ring

/-- C51 (stored minimum images): the same in three dimensions. -/
theorem C51_images_fixed_angle_3 (l : Lat3) (hl : l.hasVariableAngle = false) (p q : Params)
    (hp : l.SaneParams p) (hq : l.SaneParams q) (v d : Fin 3 → Int) :
    shiftToMinimum (l.kBasis p) v d = shiftToMinimum (l.kBasis q) v d := by
  show minImage _ tol v d = minImage _ tol v d
  cases l with
  | monoclinic => simp [Lat3.hasVariableAngle] at hl
  | triclinic => simp [Lat3.hasVariableAngle] at hl
  | rhombohedral => simp [Lat3.hasVariableAngle] at hl
  | cubic =>
    obtain ⟨a, ha, ha'⟩ := argmin1 fun s => (v 0 + s * d 0) ^ 2
    obtain ⟨b, hb, hb'⟩ := argmin1 fun s => (v 1 + s * d 1) ^ 2
    obtain ⟨c, hc, hc'⟩ := argmin1 fun s => (v 2 + s * d 2) ^ 2
    refine minImage_indep (m := 1) (fun _ u => u 0 ^ 2 + u 1 ^ 2 + u 2 ^ 2) v d ![a, b, c]
      (near_mk3 ha hb hc) ?_
      (fun _ => (twoPi / p 0) ^ 2) (fun _ => (twoPi / q 0) ^ 2) (fun _ => sane_coeff hp)
      (fun _ => sane_coeff hq) _ _ ?_ ?_
    · intro _ s hs
      have h1 := ha' _ (hs 0); have h2 := hb' _ (hs 1); have h3 := hc' _ (hs 2)
      have : image v d ![a, b, c] 2 = v 2 + c * d 2 := rfl
      simp only [this]
      simp only [image, Matrix.cons_val_zero, Matrix.cons_val_one]
      omega
    all_goals
      intro u
      simp [ksq3, Lat3.kBasis]
      try ring
  | tetragonal =>
    obtain ⟨a, ha, ha'⟩ := argmin1 fun s => (v 0 + s * d 0) ^ 2
    obtain ⟨b, hb, hb'⟩ := argmin1 fun s => (v 1 + s * d 1) ^ 2
    obtain ⟨c, hc, hc'⟩ := argmin1 fun s => (v 2 + s * d 2) ^ 2
    refine minImage_indep (m := 2) ![fun u => u 0 ^ 2 + u 1 ^ 2, fun u => u 2 ^ 2] v d ![a, b, c]
      (near_mk3 ha hb hc) ?_
      (fun j => (twoPi / p (j.castLE (by norm_num))) ^ 2)
      (fun j => (twoPi / q (j.castLE (by norm_num))) ^ 2) ?_ ?_ _ _ ?_ ?_
    · intro j s hs
      fin_cases j
      · have h1 := ha' _ (hs 0); have h2 := hb' _ (hs 1)
        simp only [Fin.zero_eta, image, Matrix.cons_val_zero, Matrix.cons_val_one]
        omega
      · exact hc' _ (hs 2)
    · intro j; fin_cases j
      · exact sane_coeff hp.1
      · exact sane_coeff hp.2
    · intro j; fin_cases j
      · exact sane_coeff hq.1
      · exact sane_coeff hq.2
    all_goals
      intro u
      simp [ksq3, Lat3.kBasis, Fin.sum_univ_two]
      try ring
  | orthorhombic =>
    obtain ⟨a, ha, ha'⟩ := argmin1 fun s => (v 0 + s * d 0) ^ 2
    obtain ⟨b, hb, hb'⟩ := argmin1 fun s => (v 1 + s * d 1) ^ 2
    obtain ⟨c, hc, hc'⟩ := argmin1 fun s => (v 2 + s * d 2) ^ 2
    refine minImage_indep (m := 3) (fun j u => u j ^ 2) v d ![a, b, c]
      (near_mk3 ha hb hc) ?_
      (fun j => (twoPi / p (j.castLE (by norm_num))) ^ 2)
      (fun j => (twoPi / q (j.castLE (by norm_num))) ^ 2) ?_ ?_ _ _ ?_ ?_
    · intro j s hs
      fin_cases j
      · exact ha' _ (hs 0)
      · exact hb' _ (hs 1)
      · exact hc' _ (hs 2)
    · intro j; fin_cases j
      · exact sane_coeff hp.1
      · exact sane_coeff hp.2.1
      · exact sane_coeff hp.2.2
    · intro j; fin_cases j
      · exact sane_coeff hq.1
      · exact sane_coeff hq.2.1
      · exact sane_coeff hq.2.2
    all_goals
      intro u
      simp [ksq3, Lat3.kBasis, Fin.sum_univ_three]
      try ring
  | hexagonal =>
    obtain ⟨a, b, ha, hb, hab⟩ := argmin2 fun s t =>
      (v 0 + s * d 0) ^ 2 + (v 0 + s * d 0) * (v 1 + t * d 1) + (v 1 + t * d 1) ^ 2
    obtain ⟨c, hc, hc'⟩ := argmin1 fun s => (v 2 + s * d 2) ^ 2
    have hpos : 0 < tol := by unfold tol; norm_num
    refine minImage_indep (m := 2) ![fun u => u 0 ^ 2 + u 0 * u 1 + u 1 ^ 2, fun u => u 2 ^ 2] v d
      ![a, b, c] (near_mk3 ha hb hc) ?_
      ![4 / 3 * (twoPi / p 0) ^ 2, (twoPi / p 1) ^ 2] ![4 / 3 * (twoPi / q 0) ^ 2, (twoPi / q 1) ^ 2]
      ?_ ?_ _ _ ?_ ?_
    · intro j s hs
      fin_cases j
      · exact hab _ _ (hs 0) (hs 1)
      · exact hc' _ (hs 2)
    · intro j; fin_cases j
      · show tol < 4 / 3 * (twoPi / p 0) ^ 2
        linarith [sane_coeff hp.1]
      · exact sane_coeff hp.2
    · intro j; fin_cases j
      · show tol < 4 / 3 * (twoPi / q 0) ^ 2
        linarith [sane_coeff hq.1]
      · exact sane_coeff hq.2
    · intro u
      have := hexa_form (ne_of_gt hp.1.1) (u 0 : ℝ) (u 1 : ℝ)
      rw [ksq3]
      simp [Lat3.kBasis, Fin.sum_univ_two]
      simp at this
      rw [← this]
      ring
    · intro u
      have := hexa_form (ne_of_gt hq.1.1) (u 0 : ℝ) (u 1 : ℝ)
      rw [ksq3]
      simp [Lat3.kBasis, Fin.sum_univ_two]
      simp at this
      rw [← this]
      ring

/-- Ordinary lattice constants are in range. -/
theorem sane_one : Sane 1 := by
  refine ⟨by norm_num, ?_⟩
  unfold twoPi
  nlinarith [Real.pi_gt_three]

theorem sane_two : Sane 2 := by
  refine ⟨by norm_num, ?_⟩
  unfold twoPi
  nlinarith [Real.pi_gt_three]

/-- Two cells of an orthorhombic lattice with different aspect ratios. -/
example : shiftToMinimum (Lat3.orthorhombic.kBasis ![1, 1, 2, 0, 0, 0]) ![3, 2, 1] ![4, 4, 4] =
    shiftToMinimum (Lat3.orthorhombic.kBasis ![2, 1, 1, 0, 0, 0]) ![3, 2, 1] ![4, 4, 4] :=
  C51_images_fixed_angle_3 .orthorhombic rfl _ _ ⟨sane_one, sane_one, sane_two⟩
    ⟨sane_two, sane_one, sane_one⟩ _ _

/-! ## C51: histories -/

section history
variable {D : Nat} (E : WaveEnv D)

/-- Minimum images for given parameters. -/
noncomputable def imagesFor (p : Params) : List (Fin D → Int) :=
  E.pos.map fun v => shiftToMinimum (E.lat.kBasis p) v E.dims

/-- What the three arrays must contain for parameters `p`. -/
def Fresh (s : WaveState D) : Prop :=
  (s.hasMin = true → ∃ p, s.cell = some p ∧ s.minImages = imagesFor E p) ∧
  (s.hasK = true → ∃ p, s.cell = some p ∧ s.kSq = (imagesFor E p).map (ksq (E.lat.kBasis p))) ∧
  (s.hasDK = true → ∃ p, s.cell = some p ∧ s.dKSq = (List.finRange 6).filterMap fun n =>
    if n.val < E.lat.nParameter then some (dKSqArray E p (imagesFor E p) n) else none)

/-- The minimum images of all parameter sets satisfying `ok` agree if angles are fixed. -/
def ImagesStable (ok : Params → Prop) : Prop :=
  E.lat.varAngle = false → ∀ p q, ok p → ok q → ∀ v,
    shiftToMinimum (E.lat.kBasis p) v E.dims = shiftToMinimum (E.lat.kBasis q) v E.dims

def WaveOp.Within (ok : Params → Prop) : WaveOp → Prop
  | .setCell p => ok p
  | _ => True

theorem imagesFor_congr {ok : Params → Prop} (h : ImagesStable E ok) (hv : E.lat.varAngle = false)
    {p q : Params} (hp : ok p) (hq : ok q) : imagesFor E p = imagesFor E q :=
  List.map_congr_left fun v _ => h hv p q hp hq v

structure Inv (ok : Params → Prop) (s : WaveState D) : Prop where
  fresh : Fresh E s
  cellOk : ∀ p, s.cell = some p → ok p
  kMin : s.hasK = true → s.hasMin = true
  none_alloc : s.alloc = false → s.hasMin = false ∧ s.hasK = false ∧ s.hasDK = false

theorem inv_computeMin {ok : Params → Prop} {s s' : WaveState D}
    (h : Inv E ok s) (hs : s.computeMin E = .ok s') : Inv E ok s' ∧ s'.hasMin = true := by
  unfold WaveState.computeMin at hs
  split at hs
  · cases hs; exact ⟨h, by assumption⟩
  · rename_i hm
    split at hs
    · rename_i ha
      split at hs
      · cases hs
      · rename_i p hp
        cases hs
        refine ⟨⟨⟨fun _ => ⟨p, hp, rfl⟩, fun _ => ⟨p, hp, rfl⟩, fun hd => ?_⟩, h.cellOk, fun _ => rfl,
          fun hn => by simp [ha] at hn⟩, rfl⟩
        exact h.fresh.2.2 hd
    · cases hs

theorem inv_step {ok : Params → Prop} (hst : ImagesStable E ok) {s s' : WaveState D}
    (h : Inv E ok s) (o : WaveOp) (ho : o.Within ok) (hs : s.step E o = .ok s') : Inv E ok s' := by
  cases o with
  | allocate =>
    simp only [WaveState.step, WaveState.allocate] at hs
    split at hs
    · cases hs
    · rename_i ha
      have hn := h.none_alloc (by simpa using ha)
      cases hs
      refine ⟨⟨fun hm => ?_, fun hk => ?_, fun hd => ?_⟩, h.cellOk, fun hk => ?_, fun hn => ?_⟩
      · simp [WaveState.clear, hn.1] at hm
      · simp [WaveState.clear] at hk
      · simp [WaveState.clear] at hd
      · simp [WaveState.clear] at hk
      · simp at hn
  | setCell p =>
    simp only [WaveState.step, WaveState.setCell] at hs
    split at hs
    · rename_i ha
      cases hs
      refine ⟨⟨fun hm => ?_, fun hk => ?_, fun hd => ?_⟩, ?_, fun hk => ?_, fun hn => ?_⟩
      · simp only [WaveState.clear] at hm ⊢
        cases hv : E.lat.varAngle
        · rw [hv] at hm
          simp only [Bool.false_eq_true, if_false] at hm
          obtain ⟨q, hq, hqi⟩ := h.fresh.1 hm
          exact ⟨p, rfl, by rw [hqi]; exact imagesFor_congr E hst hv (h.cellOk q hq) ho⟩
        · simp [hv] at hm
      · simp [WaveState.clear] at hk
      · simp [WaveState.clear] at hd
      · intro q hq
        simp only [WaveState.clear, Option.some.injEq] at hq
        subst hq; exact ho
      · simp [WaveState.clear] at hk
      · simp [WaveState.clear, ha] at hn
    · cases hs
  | computeMin => exact (inv_computeMin E h hs).1
  | computeK =>
    simp only [WaveState.step, WaveState.computeK] at hs
    split at hs
    · cases hs; exact h
    · split at hs
      · exact (inv_computeMin E h hs).1
      · rename_i hm
        have hm : s.hasMin = true := by simpa using hm
        split at hs
        · rename_i ha
          split at hs
          · cases hs
          · rename_i p hp
            cases hs
            obtain ⟨q, hq, hqi⟩ := h.fresh.1 hm
            rw [hp] at hq; cases hq
            exact ⟨⟨fun _ => ⟨p, hp, hqi⟩, fun _ => ⟨p, hp, by simp only [hqi]⟩,
              h.fresh.2.2⟩, h.cellOk, fun _ => hm, fun hn => by simp [ha] at hn⟩
        · cases hs
  | computeDK =>
    simp only [WaveState.step, WaveState.computeDK] at hs
    split at hs
    · cases hs; exact h
    · have key : ∀ t : WaveState D, Inv E ok t → t.hasMin = true →
          t.finishDK E = .ok s' → Inv E ok s' := by
        intro t ht htm hts
        unfold WaveState.finishDK at hts
        split at hts
        · rename_i ha
          split at hts
          · cases hts
          · rename_i p hp
            cases hts
            obtain ⟨q, hq, hqi⟩ := ht.fresh.1 htm
            rw [hp] at hq; cases hq
            exact ⟨⟨fun _ => ⟨p, hp, hqi⟩, ht.fresh.2.1, fun _ => ⟨p, hp, by simp only [hqi]⟩⟩,
              ht.cellOk, ht.kMin, fun hn => by simp [ha] at hn⟩
        · cases hts
      split at hs
      · split at hs
        · rename_i t ht
          obtain ⟨i1, i2⟩ := inv_computeMin E h ht
          exact key t i1 i2 hs
        · rename_i hno
          exact absurd hs (hno s')
      · rename_i hm
        exact key s h (by simpa using hm) hs

/-- C51: after any history of unit cell changes and computations, every array that may be read
contains the values for the current unit cell. -/
theorem C51_cache_fresh {ok : Params → Prop} (hst : ImagesStable E ok) (l : List WaveOp)
    (hl : ∀ o ∈ l, o.Within ok) (s : WaveState D) (hs : WaveState.run E .init l = .ok s) :
    Fresh E s := by
  have key : ∀ (l : List WaveOp) (s0 s : WaveState D), (∀ o ∈ l, o.Within ok) → Inv E ok s0 →
      WaveState.run E s0 l = .ok s → Inv E ok s := by
    intro l
    induction l with
    | nil => intro s0 s _ h hs; cases hs; exact h
    | cons o l ih =>
      intro s0 s hl h hs
      rw [WaveState.run] at hs
      cases hst' : s0.step E o with
      | ok s1 =>
        rw [hst'] at hs
        exact ih s1 s (fun o ho => hl o (List.mem_cons_of_mem _ ho))
          (inv_step E hst h o (hl o (by simp)) hst') hs
      | throw =>
        rw [hst'] at hs
        exact ih s0 s (fun o ho => hl o (List.mem_cons_of_mem _ ho)) h hs
      | ub => rw [hst'] at hs; cases hs
  refine (key l _ s hl ⟨⟨?_, ?_, ?_⟩, ?_, ?_, ?_⟩ hs).fresh <;> simp [WaveState.init]

end history

/-- C51 for all two-dimensional lattice systems: no hypothesis on the history except that lattice
constants of lattices without variable angle stay below about `6e4` (`Sane`; the absolute tolerance
of `shiftToMinimum` makes this necessary, see `C51_huge_cell`). -/
theorem C51_two_dimensions_partial (l : Lat2) (dims : Fin 2 → Int) (pos : List (Fin 2 → Int))
    (isReal : Bool) (impl : (Fin 2 → Int) → Bool) (ops : List WaveOp)
    (hops : ∀ o ∈ ops, o.Within l.SaneParams) (s : WaveState 2)
    (hs : WaveState.run ⟨l.ops, dims, pos, isReal, impl⟩ .init ops = .ok s) :
    Fresh ⟨l.ops, dims, pos, isReal, impl⟩ s :=
  C51_cache_fresh ⟨l.ops, dims, pos, isReal, impl⟩ (ok := l.SaneParams)
    (fun hv p q hp hq v => C51_images_fixed_angle_2 l hv p q hp hq v dims) ops hops s hs

theorem C51_three_dimensions_partial (l : Lat3) (dims : Fin 3 → Int) (pos : List (Fin 3 → Int))
    (isReal : Bool) (impl : (Fin 3 → Int) → Bool) (ops : List WaveOp)
    (hops : ∀ o ∈ ops, o.Within l.SaneParams) (s : WaveState 3)
    (hs : WaveState.run ⟨l.ops, dims, pos, isReal, impl⟩ .init ops = .ok s) :
    Fresh ⟨l.ops, dims, pos, isReal, impl⟩ s :=
  C51_cache_fresh ⟨l.ops, dims, pos, isReal, impl⟩ (ok := l.SaneParams)
    (fun hv p q hp hq v => C51_images_fixed_angle_3 l hv p q hp hq v dims) ops hops s hs

/-- C51 in one dimension: no restriction at all. -/
theorem C51_one_dimension (l : Lat1) (dims : Fin 1 → Int) (pos : List (Fin 1 → Int))
    (isReal : Bool) (impl : (Fin 1 → Int) → Bool) (ops : List WaveOp) (s : WaveState 1)
    (hs : WaveState.run ⟨l.ops, dims, pos, isReal, impl⟩ .init ops = .ok s) :
    Fresh ⟨l.ops, dims, pos, isReal, impl⟩ s :=
  C51_cache_fresh (ok := fun _ => True) _ (fun _ _ _ _ _ _ => rfl) ops
    (fun o _ => by cases o <;> trivial) s hs

/-- C51: the entries of `dKSq`: the derivative of the squared wavenumber of the minimum image, twice
for a wave of a real field flagged as having its inverse outside the half mesh. -/
theorem C51_dksq_entries {D : Nat} (E : WaveEnv D) (p : Params) (m : List (Fin D → Int)) (n : Fin 6)
    (k : Nat) (v u : Fin D → Int) (hv : E.pos[k]? = some v) (hu : m[k]? = some u) :
    (dKSqArray E p m n)[k]? = some ((if E.isReal = true ∧ E.impl v = true then 2 else 1) *
      dksq (E.lat.kBasis p) (E.lat.drBasis p n) u) := by
  unfold dKSqArray
  rw [List.getElem?_zipWith, hv, hu]
  cases h1 : E.isReal <;> cases h2 : E.impl v <;> simp [h2, mul_comm]

/-- A history with a change of the cell between computations ends with all arrays available. -/
example : ∃ s, WaveState.run ⟨Lat2.rectangular.ops, ![4, 4], [![0, 1], ![3, 2]], true, fun _ => false⟩
      .init [.allocate, .computeK, .setCell (fun _ => 1), .computeK, .setCell (fun _ => 2),
        .computeDK, .computeK] = .ok s ∧
    s.hasMin = true ∧ s.hasK = true ∧ s.hasDK = true ∧ s.cell = some (fun _ => 2) ∧
    ∀ o ∈ ([.allocate, .computeK, .setCell (fun _ => 1), .computeK, .setCell (fun _ => 2),
        .computeDK, .computeK] : List WaveOp), o.Within Lat2.rectangular.SaneParams := by
  refine ⟨_, rfl, rfl, rfl, rfl, rfl, ?_⟩
  intro o ho
  simp only [List.mem_cons, List.not_mem_nil, or_false] at ho
  rcases ho with rfl | rfl | rfl | rfl | rfl | rfl | rfl
  all_goals first | exact ⟨sane_one, sane_one⟩ | exact ⟨sane_two, sane_two⟩ | trivial

/-! ### The restriction to lattice constants in range is necessary -/

/-- If all norms agree within the tolerance the search returns the greatest vector. -/
theorem foldl_close {D : Nat} {f : (Fin D → Int) → ℝ} {eps : ℝ} (heps : 0 < eps)
    (l : List (Fin D → Int)) : ∀ {st : MinState D}, st.Ok f eps →
    (∀ a b, (a ∈ l ∨ a = st.r) → (b ∈ l ∨ b = st.r) → f a < f b + eps) →
    ∀ u, (u ∈ l ∨ u = st.r) → ivLt (l.foldl (minStep f eps) st).r u = false := by
  induction l with
  | nil =>
    intro st _ _ u hu
    have : u = st.r := by simpa using hu
    rw [this]; exact ivLt_irrefl _
  | cons a l ih =>
    intro st h hcl u hu
    rw [List.foldl_cons]
    have hok := minStep_ok (eps := eps) h a
    have hr := minStep_r f eps st a
    obtain ⟨h1, h2⟩ := h
    have hstep : ivLt (minStep f eps st a).r a = false ∧ ivLt (minStep f eps st a).r st.r = false := by
      have c1 := hcl a st.r (.inl (by simp)) (.inr rfl)
      have c2 := hcl st.r a (.inr rfl) (.inl (by simp))
      simp only [minStep]
      rw [if_pos (by rw [h2]; exact c1)]
      split
      · rename_i hc
        refine ⟨ivLt_irrefl _, ?_⟩
        rcases hc with hc | hc
        · rw [h1] at hc; linarith
        · simp only
          by_contra hx
          have hx : ivLt a st.r = true := by simpa using hx
          have := ivLt_trans hc hx
          rw [ivLt_irrefl] at this
          exact absurd this (by simp)
      · rename_i hc
        rw [not_or] at hc
        exact ⟨by simpa using hc.2, ivLt_irrefl _⟩
    have hi := ih hok (by
      intro x y hx hy
      apply hcl
      · rcases hx with hx | rfl
        · exact .inl (List.mem_cons_of_mem _ hx)
        · rcases hr with e | e
          · exact .inr e
          · exact .inl (by rw [e]; simp)
      · rcases hy with hx | rfl
        · exact .inl (List.mem_cons_of_mem _ hx)
        · rcases hr with e | e
          · exact .inr e
          · exact .inl (by rw [e]; simp))
    by_cases hl : u ∈ l
    · exact hi u (.inl hl)
    · have hu' : ivLt (minStep f eps st a).r u = false := by
        rcases hu with hu | rfl
        · rcases List.mem_cons.mp hu with rfl | hu
          · exact hstep.1
          · exact absurd hu hl
        · exact hstep.2
      have t2 := hi _ (.inr rfl)
      by_contra hx
      have hx : ivLt (List.foldl (minStep f eps) (minStep f eps st a) l).r u = true := by
        simpa using hx
      rcases ivLt_total (minStep f eps st a).r
        (List.foldl (minStep f eps) (minStep f eps st a) l).r with q | q | q
      · have := ivLt_trans q hx
        rw [hu'] at this; simp at this
      · rw [← q, hu'] at hx; simp at hx
      · rw [t2] at q; simp at q

/-- C51 is violated for very large cells: with a square cell of edge `1e9` the images of wave (0,3)
on a 4 by 4 mesh all agree within the tolerance and (8,11) is stored; after a change to edge 1 this
value is still used although the minimum image is (0,-1): squared norm 185 instead of 1 in units of
`(2π)²`. -/
theorem C51_huge_cell :
    shiftToMinimum (Lat2.square.kBasis fun _ => 1000000000) ![0, 3] ![4, 4] ≠
      shiftToMinimum (Lat2.square.kBasis fun _ => 1) ![0, 3] ![4, 4] := by
  have hpi : Real.pi < 4 := by linarith [Real.pi_lt_d2]
  have hform : ∀ (L : ℝ) (u : Fin 2 → Int), ksq (Lat2.square.kBasis fun _ => L) u =
      (twoPi / L) ^ 2 * ((u 0 ^ 2 + u 1 ^ 2 : Int) : ℝ) := by
    intro L u
    simp [ksq2, Lat2.kBasis]
    ring
  -- huge cell: the greatest image
  have h1 : ivLt (shiftToMinimum (Lat2.square.kBasis fun _ => 1000000000) ![0, 3] ![4, 4])
      ![8, 11] = false := by
    show ivLt (minImage _ tol _ _) _ = false
    refine foldl_close (f := ksq (Lat2.square.kBasis fun _ => 1000000000)) (eps := tol)
      (by unfold tol; norm_num) ((imageShifts 2).map (image ![0, 3] ![4, 4]))
      (st := { lo := _, hi := _, r := ![0, 3] }) ⟨rfl, rfl⟩ ?_ ![8, 11] (.inl ?_)
    · have bound : ∀ a, (a ∈ (imageShifts 2).map (image ![0, 3] ![4, 4]) ∨ a = ![0, 3]) →
          a 0 ^ 2 + a 1 ^ 2 ≤ 185 := by
        rintro a (ha | rfl)
        · obtain ⟨s, hs, rfl⟩ := List.mem_map.mp ha
          have hn := mem_imageShifts.mp hs
          obtain ⟨⟨a1, a2⟩, a3, a4⟩ := near2 hn
          simp only [image, Matrix.cons_val_zero, Matrix.cons_val_one]
          nlinarith
        · decide
      intro a b ha hb
      have hba := bound a ha
      rw [hform, hform]
      have c0 : 0 ≤ (twoPi / 1000000000) ^ 2 := by positivity
      have c1 : (twoPi / 1000000000) ^ 2 ≤ (8 / 1000000000) ^ 2 := by
        apply pow_le_pow_left₀ (by unfold twoPi; positivity)
        unfold twoPi
        linarith
      have ha' : ((a 0 ^ 2 + a 1 ^ 2 : Int) : ℝ) ≤ 185 := by exact_mod_cast hba
      have hb' : (0 : ℝ) ≤ ((b 0 ^ 2 + b 1 ^ 2 : Int) : ℝ) := by
        have : 0 ≤ b 0 ^ 2 + b 1 ^ 2 := by positivity
        exact_mod_cast this
      have d1 := mul_le_mul_of_nonneg_left ha' c0
      have d2 := mul_nonneg c0 hb'
      have d3 : (8 / 1000000000 : ℝ) ^ 2 * 185 < tol := by unfold tol; norm_num
      nlinarith
    · refine List.mem_map.mpr ⟨![2, 2], mem_imageShifts.mpr (near_mk2 (by omega) (by omega)), ?_⟩
      funext i; fin_cases i <;> rfl
  -- cell of edge one: a shortest image
  have h2 : ksq (Lat2.square.kBasis fun _ => 1)
      (shiftToMinimum (Lat2.square.kBasis fun _ => 1) ![0, 3] ![4, 4]) =
      ksq (Lat2.square.kBasis fun _ => 1) (image ![0, 3] ![4, 4] ![0, -1]) := by
    show ksq _ (minImage _ tol _ _) = _
    refine (C39_exact_with_gap _ tol (by unfold tol; norm_num) ![0, 3] ![4, 4] ![0, -1]
      (near_mk2 (by omega) (by omega)) ?_).1
    intro s hs
    refine (combo_gap (m := 1) (fun _ u => u 0 ^ 2 + u 1 ^ 2) ![0, 3] ![4, 4] ![0, -1] ?_
      (fun _ => (twoPi / 1) ^ 2) tol (by unfold tol; norm_num) (fun _ => sane_coeff sane_one) _
      (fun u => by rw [hform]; simp) s hs).1
    intro _ s hs
    obtain ⟨⟨a1, a2⟩, a3, a4⟩ := near2 hs
    simp only [image, Matrix.cons_val_zero, Matrix.cons_val_one]
    have : 1 ≤ (3 + s 1 * 4) ^ 2 := by
      have h3 : 3 + s 1 * 4 ≠ 0 := by omega
      have : 0 < (3 + s 1 * 4) ^ 2 := by positivity
      omega
    nlinarith [sq_nonneg (0 + s 0 * 4)]
  intro heq
  rw [heq] at h1
  set r := shiftToMinimum (Lat2.square.kBasis fun _ => 1) ![0, 3] ![4, 4] with hr
  rw [hform, hform] at h2
  have hc : (twoPi / 1) ^ 2 ≠ 0 := by
    have := sane_coeff sane_one
    have ht : 0 < tol := by unfold tol; norm_num
    linarith
  have h3 := mul_left_cancel₀ hc h2
  have h4 : r 0 ^ 2 + r 1 ^ 2 = 1 := by
    have : (image ![0, 3] ![4, 4] ![0, -1] 0 ^ 2 + image ![0, 3] ![4, 4] ![0, -1] 1 ^ 2 : Int) = 1 := by
      decide
    rw [this] at h3
    exact_mod_cast h3
  have h5 : r 0 ≤ 1 := by nlinarith [sq_nonneg (r 1), sq_nonneg (r 0 - 1)]
  have h6 : ivLt r ![8, 11] = true := by
    unfold ivLt
    simp [List.ofFn_succ, Mesh.vecLt]
    omega
  rw [h6] at h1
  cases h1

/-! ## C69 -/

/-- Position on the mesh of the inverse of a wave, one direction. -/
def inverse (d i : Int) : Int := (-i) % d

/-- C69: every wave of the full mesh, or its inverse, is on the half mesh. -/
theorem C69_half_mesh_covers {D : Nat} (dims u : Fin D → Int) (hd : ∀ i, 0 < dims i)
    (hu : ∀ i, 0 ≤ u i ∧ u i < dims i) :
    (∀ i, 0 ≤ u i ∧ u i < kMesh dims i) ∨
    (∀ i, 0 ≤ inverse (dims i) (u i) ∧ inverse (dims i) (u i) < kMesh dims i) := by
  have hinv : ∀ i, 0 ≤ inverse (dims i) (u i) ∧ inverse (dims i) (u i) < dims i := fun i =>
    ⟨Int.emod_nonneg _ (ne_of_gt (hd i)), Int.emod_lt_of_pos _ (hd i)⟩
  cases D with
  | zero => exact .inl fun i => i.elim0
  | succ n =>
    have htd : (dims (Fin.last n)).tdiv 2 = dims (Fin.last n) / 2 :=
      Int.tdiv_eq_ediv_of_nonneg (hd _).le
    by_cases h : u (Fin.last n) ≤ dims (Fin.last n) / 2
    · left
      intro i
      refine ⟨(hu i).1, ?_⟩
      unfold kMesh
      split
      · exact (hu i).2
      · rename_i hi
        have : i = Fin.last n := Fin.ext (by simp; omega)
        subst this
        rw [htd]; omega
    · right
      intro i
      refine ⟨(hinv i).1, ?_⟩
      unfold kMesh
      split
      · exact (hinv i).2
      · rename_i hi
        have : i = Fin.last n := Fin.ext (by simp; omega)
        subst this
        rw [htd]
        have h1 := hu (Fin.last n)
        have h2 := hd (Fin.last n)
        have : inverse (dims (Fin.last n)) (u (Fin.last n)) = dims (Fin.last n) - u (Fin.last n) := by
          unfold inverse
          rw [← Int.add_emod_right, Int.emod_eq_of_lt (by omega) (by omega)]
          ring
        omega

/-- Specification of the flag (documentation of `FFT.h:181-194`): the inverse of the wave is not
on the half mesh. -/
def ImplicitSpec (d i : Int) : Prop := ¬ inverse d i ≤ d / 2

/-- The specification in closed form, for an index on the half mesh. -/
theorem implicitSpec_iff (d i : Int) (hd : 0 < d) (h0 : 0 ≤ i) (h1 : i ≤ d / 2) :
    ImplicitSpec d i ↔ i ≠ 0 ∧ d - i > d / 2 := by
  unfold ImplicitSpec inverse
  by_cases hi : i = 0
  · subst hi
    simp only [neg_zero, Int.zero_emod]
    constructor
    · intro h; exact absurd (by omega) h
    · rintro ⟨h, _⟩; exact absurd rfl h
  · have : (-i) % d = d - i := by
      rw [← Int.add_emod_right, Int.emod_eq_of_lt (by omega) (by omega)]
      ring
    rw [this]
    constructor
    · intro h; exact ⟨hi, by omega⟩
    · rintro ⟨_, h⟩; omega

/-- Full statement of the second half of C69. -/
def C69_flag_statement : Prop :=
  ∀ d i : Int, 0 < d → 0 ≤ i → i ≤ d / 2 → (hasImplicitInverse i d = true ↔ ImplicitSpec d i)

/-- C69, part that holds: the flag is right except for the index `i` with `d - i = d/2 + 1`; a flag
that is set is always right. -/
theorem C69_flag_partial (d i : Int) (hd : 0 < d) (h0 : 0 ≤ i) (h1 : i ≤ d / 2) :
    (hasImplicitInverse i d = true → ImplicitSpec d i) ∧
    (i = 0 ∨ d - i ≠ d / 2 + 1 → ImplicitSpec d i → hasImplicitInverse i d = true) := by
  rw [implicitSpec_iff d i hd h0 h1]
  have : d.tdiv 2 = d / 2 := Int.tdiv_eq_ediv_of_nonneg hd.le
  unfold hasImplicitInverse
  rw [this]
  simp only [Bool.and_eq_true, decide_eq_true_eq]
  constructor
  · rintro ⟨a, b⟩; exact ⟨a, by omega⟩
  · rintro h ⟨a, b⟩; exact ⟨a, by omega⟩

/-- C69 is violated on every mesh with at least three points in the last direction: the index
`i = d - d/2 - 1` is on the half mesh, its inverse is not, and the flag is false. -/
theorem C69_every_mesh_wrong (d : Int) (hd : 3 ≤ d) :
    let i := d - d / 2 - 1
    0 ≤ i ∧ i ≤ d / 2 ∧ ImplicitSpec d i ∧ hasImplicitInverse i d = false := by
  intro i
  have h1 : i ≤ d / 2 := by show d - d / 2 - 1 ≤ d / 2; omega
  have h0 : 0 ≤ i := by show 0 ≤ d - d / 2 - 1; omega
  have hi : i = d - d / 2 - 1 := rfl
  refine ⟨h0, h1, (implicitSpec_iff d i (by omega) h0 h1).mpr ⟨by omega, by omega⟩, ?_⟩
  have : d.tdiv 2 = d / 2 := Int.tdiv_eq_ediv_of_nonneg (by omega)
  unfold hasImplicitInverse
  rw [this]
  simp only [Bool.and_eq_false_iff, decide_eq_false_iff_not]
  right; omega

theorem C69_violated : ¬ C69_flag_statement := by
  intro h
  have h1 := C69_every_mesh_wrong 4 (by norm_num)
  simp only at h1
  have h2 := (h 4 (4 - 4 / 2 - 1) (by norm_num) h1.1 h1.2.1).mpr h1.2.2.1
  rw [h1.2.2.2] at h2
  cases h2

/-- Consequence for the stress: on a mesh with four points the wave with index 1, which represents
two waves, enters `dKSq` without the factor 2. -/
example : hasImplicitInverse 1 4 = false ∧ ImplicitSpec 4 1 ∧ hasImplicitInverse 1 8 = true := by
  refine ⟨by decide, ?_, by decide⟩
  unfold ImplicitSpec inverse; decide

end Verif.Crystal
