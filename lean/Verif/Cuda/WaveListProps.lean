import Verif.Cuda.WaveListLemmas
import Verif.Cuda.ReduceProps
import Mathlib.Tactic.FinCases
import Mathlib.Tactic.IntervalCases
import Mathlib.Tactic.Positivity

/-!
# C118: the wave list of the GPU code

Statements about the kernels of `/repo/src/prdc/cuda/WaveList.tpp`, compared with the CPU code.
-/

set_option autoImplicit false
set_option linter.unusedSectionVars false

namespace Verif.Cuda.Wave

open Crystal (image ksq minImage shiftToMinimum)

/-- Tolerance of the kernels in double precision, `WaveList.tpp:110, 222`. -/
noncomputable def tol : ℝ := 1 / 100000000

theorem gksq_eq {D : Nat} (kB : Fin D → Fin D → ℝ) : gksq kB = ksq kB := rfl

/-- Candidate of lane `i`. -/
noncomputable def lane {D : Nat} (kB : Fin D → Fin D → ℝ) (v d : Fin D → Int) (shift : Nat → Fin D → Int) (i : Nat) :
    Cand ℝ D := (ksq kB (image v d (shift i)), image v d (shift i))

theorem kernel2_eq (kB : Fin 2 → Fin 2 → ℝ) (d : Fin 2 → Int) {T : Nat} (hT : 32 ∣ T) (hT0 : 0 < T)
    (pos : List (Fin 2 → Int)) {p : Nat} {v : Fin 2 → Int} (hp : pos[p]? = some v) :
    kernel2 tol kB d T pos p = treeVal (better tol) 5 (lane kB v d shift2) := by
  obtain ⟨w, h1, h2, h3⟩ := load_eq kB d shift2 (by norm_num) hT hT0 pos hp
  rw [kernel2]
  simp only [h1]
  rw [show w * 32 = w * 2 ^ 5 from rfl, lockstep_eq _ _ _ _ _ h2]
  exact treeVal_congr _ _ _ _ fun i hi => h3 i hi

theorem kernel3_eq (kB : Fin 3 → Fin 3 → ℝ) (d : Fin 3 → Int) {T : Nat} (hT : 128 ∣ T) (hT0 : 0 < T)
    (pos : List (Fin 3 → Int)) {p : Nat} {v : Fin 3 → Int} (hp : pos[p]? = some v)
    (sch : Nat → Nat → List Nat)
    (hf : ∀ b s, Fair (phase (D := 3) tol 128 s (onGrid pos.length 128 T b)) (sch b s)) :
    kernel3 tol kB d T sch pos p = treeVal (better tol) 7 (lane kB v d shift3) := by
  obtain ⟨w, h1, h2, h3⟩ := load_eq kB d shift3 (by norm_num) hT hT0 pos hp
  rw [kernel3]
  simp only [h1]
  rw [sync_eq_lockstep tol 7 _ _ fun s _ => hf _ s, show w * 128 = w * 2 ^ 7 from rfl,
    lockstep_eq _ _ _ _ _ h2]
  exact treeVal_congr _ _ _ _ fun i hi => h3 i hi

/-! ## Which shifts are searched -/

theorem shift2_cover (s : Fin 2 → Int) (hs : ∀ i, -2 ≤ s i ∧ s i ≤ 2) : ∃ i < 32, shift2 i = s := by
  have h0 := hs 0
  have h1 := hs 1
  refine ⟨((s 0 + 2) * 5 + (s 1 + 2)).toNat, by omega, ?_⟩
  funext j
  fin_cases j <;> simp [shift2] <;> omega

theorem shift3_cover (s : Fin 3 → Int) (hs : ∀ i, -2 ≤ s i ∧ s i ≤ 2) : ∃ i < 128, shift3 i = s := by
  have h0 := hs 0
  have h1 := hs 1
  have h2 := hs 2
  refine ⟨((s 0 + 2) * 25 + (s 1 + 2) * 5 + (s 2 + 2)).toNat, by omega, ?_⟩
  funext j
  fin_cases j <;> simp [shift3] <;> omega

theorem shift2_range {i : Nat} (hi : i < 32) :
    (-2 ≤ shift2 i 0 ∧ shift2 i 0 ≤ 4) ∧ (-2 ≤ shift2 i 1 ∧ shift2 i 1 ≤ 2) := by
  simp [shift2]; omega

theorem shift3_range {i : Nat} (hi : i < 128) : (-2 ≤ shift3 i 0 ∧ shift3 i 0 ≤ 3) ∧
    (-2 ≤ shift3 i 1 ∧ shift3 i 1 ≤ 2) ∧ (-2 ≤ shift3 i 2 ∧ shift3 i 2 ≤ 2) := by
  simp [shift3]; omega

/-! ## Minimum images, every cell -/

/-- C118 in two dimensions, warps in lockstep: every wave gets an image of itself together with its
square norm, and no image that the CPU code searches is shorter by more than 5 tolerances. -/
theorem C118_min_image_2_partial (kB : Fin 2 → Fin 2 → ℝ) (d : Fin 2 → Int) {T : Nat} (hT : 32 ∣ T)
    (hT0 : 0 < T) (pos : List (Fin 2 → Int)) {p : Nat} {v : Fin 2 → Int} (hp : pos[p]? = some v) :
    let r := kernel2 tol kB d T pos p
    r.1 = ksq kB r.2 ∧ (∃ s : Fin 2 → Int, r.2 = fun j => v j + s j * d j) ∧
      ∀ s : Fin 2 → Int, (∀ j, -2 ≤ s j ∧ s j ≤ 2) →
        r.1 ≤ ksq kB (fun j => v j + s j * d j) + 5 / 100000000 := by
  intro r
  have hr : r = _ := kernel2_eq kB d hT hT0 pos hp
  obtain ⟨i, hi, hm⟩ := treeVal_mem (better_mem tol) 5 (lane kB v d shift2)
  rw [← hr] at hm
  refine ⟨by rw [hm]; rfl, ⟨shift2 i, by rw [hm]; rfl⟩, fun s hs => ?_⟩
  obtain ⟨j, hj, rfl⟩ := shift2_cover s hs
  have := treeVal_le (show (0 : ℝ) ≤ tol by unfold tol; norm_num) 5 (lane kB v d shift2) j hj
  rw [← hr] at this
  refine this.trans (le_of_eq ?_)
  rw [tol]
  show ksq kB (image v d (shift2 j)) + _ = ksq kB (image v d (shift2 j)) + _
  norm_num

/-- C118 in three dimensions, for every schedule of the threads between barriers. -/
theorem C118_min_image_3 (kB : Fin 3 → Fin 3 → ℝ) (d : Fin 3 → Int) {T : Nat} (hT : 128 ∣ T)
    (hT0 : 0 < T) (pos : List (Fin 3 → Int)) {p : Nat} {v : Fin 3 → Int} (hp : pos[p]? = some v)
    (sch : Nat → Nat → List Nat)
    (hf : ∀ b s, Fair (phase (D := 3) tol 128 s (onGrid pos.length 128 T b)) (sch b s)) :
    let r := kernel3 tol kB d T sch pos p
    r.1 = ksq kB r.2 ∧ (∃ s : Fin 3 → Int, r.2 = fun j => v j + s j * d j) ∧
      ∀ s : Fin 3 → Int, (∀ j, -2 ≤ s j ∧ s j ≤ 2) →
        r.1 ≤ ksq kB (fun j => v j + s j * d j) + 7 / 100000000 := by
  intro r
  have hr : r = _ := kernel3_eq kB d hT hT0 pos hp sch hf
  obtain ⟨i, hi, hm⟩ := treeVal_mem (better_mem tol) 7 (lane kB v d shift3)
  rw [← hr] at hm
  refine ⟨by rw [hm]; rfl, ⟨shift3 i, by rw [hm]; rfl⟩, fun s hs => ?_⟩
  obtain ⟨j, hj, rfl⟩ := shift3_cover s hs
  have := treeVal_le (show (0 : ℝ) ≤ tol by unfold tol; norm_num) 7 (lane kB v d shift3) j hj
  rw [← hr] at this
  refine this.trans (le_of_eq ?_)
  rw [tol]
  show ksq kB (image v d (shift3 j)) + _ = ksq kB (image v d (shift3 j)) + _
  norm_num

/-! ## Agreement with the CPU code -/

/-- Distinct norms of the images with shifts `sh i`, `i < n`, differ by more than the tolerance. -/
def Separated {D : Nat} (kB : Fin D → Fin D → ℝ) (v d : Fin D → Int) (sh : Nat → Fin D → Int) (n : Nat) : Prop :=
  ∀ i < n, ∀ j < n, ksq kB (image v d (sh i)) < ksq kB (image v d (sh j)) →
    ksq kB (image v d (sh i)) + 1 / 100000000 < ksq kB (image v d (sh j))

/-- Images outside the search of the CPU code are longer than some image inside. -/
def ExtrasLonger {D : Nat} (kB : Fin D → Fin D → ℝ) (v d : Fin D → Int) (sh : Nat → Fin D → Int) (n : Nat) : Prop :=
  ∀ i < n, ¬ (∀ j, -2 ≤ sh i j ∧ sh i j ≤ 2) →
    ∃ s : Fin D → Int, (∀ j, -2 ≤ s j ∧ s j ≤ 2) ∧ ksq kB (image v d s) < ksq kB (image v d (sh i))

theorem tree_eq_cpu {D m : Nat} (kB : Fin D → Fin D → ℝ) (v d : Fin D → Int) (sh : Nat → Fin D → Int)
    (hcov : ∀ s : Fin D → Int, (∀ j, -2 ≤ s j ∧ s j ≤ 2) → ∃ i < 2 ^ m, sh i = s)
    (hsep : Separated kB v d sh (2 ^ m)) (hx : ExtrasLonger kB v d sh (2 ^ m)) :
    treeVal (better tol) m (lane kB v d sh) =
      (ksq kB (minImage (ksq kB) (1 / 100000000) v d), minImage (ksq kB) (1 / 100000000) v d) := by
  have ht : (0 : ℝ) < tol := by unfold tol; norm_num
  have hb := treeVal_best ht m (lane kB v d sh) fun i hi j hj h => hsep i hi j hj h
  obtain ⟨i, hi, hm⟩ := treeVal_mem (better_mem tol) m (lane kB v d sh)
  obtain ⟨s, hs, he⟩ := Crystal.C39_congruent (ksq kB) (1 / 100000000) v d
  have he' : minImage (ksq kB) (1 / 100000000) v d = image v d s := funext he
  obtain ⟨k, hk, rfl⟩ := hcov s hs
  have hin : ∀ j, -2 ≤ sh i j ∧ sh i j ≤ 2 := by
    by_contra hn
    obtain ⟨s', hs', hlt⟩ := hx i hi hn
    obtain ⟨l, hl, rfl⟩ := hcov s' hs'
    have h1 := (hb l hl).1
    rw [hm] at h1
    exact absurd h1 (not_le.mpr hlt)
  have hc := Crystal.C39_shortest_and_greatest (ksq kB) (1 / 100000000) (by norm_num) v d
    (fun a b ha hb' hlt => by
      obtain ⟨x, hx, rfl⟩ := hcov a ha
      obtain ⟨y, hy, rfl⟩ := hcov b hb'
      exact hsep x hx y hy hlt) (sh i) hin
  refine Best.antisymm ?_ ?_
  · have := hb k hk
    rw [lane, ← he'] at this
    exact this
  · rw [hm]
    exact ⟨hc.1, fun e => hc.2 e.symm⟩

/-- C118 in two dimensions: with separated norms the kernel gives the minimum image and square norm
of the CPU code, if no image that only the kernel searches is the shortest. -/
theorem C118_cpu_2_partial (kB : Fin 2 → Fin 2 → ℝ) (d : Fin 2 → Int) {T : Nat} (hT : 32 ∣ T)
    (hT0 : 0 < T) (pos : List (Fin 2 → Int)) {p : Nat} {v : Fin 2 → Int} (hp : pos[p]? = some v)
    (hsep : Separated kB v d shift2 32) (hx : ExtrasLonger kB v d shift2 32) :
    kernel2 tol kB d T pos p = (ksq kB (shiftToMinimum kB v d), shiftToMinimum kB v d) := by
  rw [kernel2_eq kB d hT hT0 pos hp]
  exact tree_eq_cpu (m := 5) kB v d shift2 shift2_cover hsep hx

/-- C118 in three dimensions, likewise for every schedule. -/
theorem C118_cpu_3_partial (kB : Fin 3 → Fin 3 → ℝ) (d : Fin 3 → Int) {T : Nat} (hT : 128 ∣ T)
    (hT0 : 0 < T) (pos : List (Fin 3 → Int)) {p : Nat} {v : Fin 3 → Int} (hp : pos[p]? = some v)
    (sch : Nat → Nat → List Nat)
    (hf : ∀ b s, Fair (phase (D := 3) tol 128 s (onGrid pos.length 128 T b)) (sch b s))
    (hsep : Separated kB v d shift3 128) (hx : ExtrasLonger kB v d shift3 128) :
    kernel3 tol kB d T sch pos p = (ksq kB (shiftToMinimum kB v d), shiftToMinimum kB v d) := by
  rw [kernel3_eq kB d hT hT0 pos hp sch hf]
  exact tree_eq_cpu (m := 7) kB v d shift3 shift3_cover hsep hx

theorem ksq2 (kB : Fin 2 → Fin 2 → ℝ) (u : Fin 2 → Int) : ksq kB u =
    (kB 0 0 * u 0 + kB 1 0 * u 1) ^ 2 + (kB 0 1 * u 0 + kB 1 1 * u 1) ^ 2 := by
  simp only [ksq, accum_eq, Fin.sum_univ_two]; ring

theorem ksq3 (kB : Fin 3 → Fin 3 → ℝ) (u : Fin 3 → Int) : ksq kB u =
    (kB 0 0 * u 0 + kB 1 0 * u 1 + kB 2 0 * u 2) ^ 2 + (kB 0 1 * u 0 + kB 1 1 * u 1 + kB 2 1 * u 2) ^ 2 +
    (kB 0 2 * u 0 + kB 1 2 * u 1 + kB 2 2 * u 2) ^ 2 := by
  simp only [ksq, accum_eq, Fin.sum_univ_three]; ring

/-- C118: if the first reciprocal vector is orthogonal to the second, no position of a 2D mesh has its
shortest image among the extra ones (square and rectangular cells). -/
theorem C118_orthogonal_2 (kB : Fin 2 → Fin 2 → ℝ) (v d : Fin 2 → Int)
    (h0 : 0 < kB 0 0 ^ 2 + kB 0 1 ^ 2) (h01 : kB 0 0 * kB 1 0 + kB 0 1 * kB 1 1 = 0)
    (hv : 0 ≤ v 0 ∧ v 0 < d 0) : ExtrasLonger kB v d shift2 32 := by
  intro i hi hn
  obtain ⟨⟨a, b⟩, c⟩ := shift2_range hi
  have h3 : 3 ≤ shift2 i 0 := by
    by_contra h
    exact hn fun j => by fin_cases j; exacts [⟨a, by simpa using h |> Int.lt_of_not_ge |> Int.le_of_lt_add_one⟩, c]
  refine ⟨![0, shift2 i 1], fun j => by fin_cases j <;> simp [c.1, c.2], ?_⟩
  have key : ∀ x y : ℝ, (kB 0 0 * x + kB 1 0 * y) ^ 2 + (kB 0 1 * x + kB 1 1 * y) ^ 2 =
      (kB 0 0 ^ 2 + kB 0 1 ^ 2) * x ^ 2 + (kB 1 0 ^ 2 + kB 1 1 ^ 2) * y ^ 2 := fun x y => by
    linear_combination 2 * x * y * h01
  rw [ksq2, ksq2, key, key]
  have hlt : ((image v d ![0, shift2 i 1] 0 : Int) : ℝ) ^ 2 < (image v d (shift2 i) 0 : Int) ^ 2 := by
    have : (image v d ![0, shift2 i 1] 0) ^ 2 < (image v d (shift2 i) 0) ^ 2 := by
      simp only [image, Matrix.cons_val_zero, zero_mul, add_zero]
      have : d 0 ≤ shift2 i 0 * d 0 := by nlinarith [hv.1, hv.2]
      exact pow_lt_pow_left₀ (by omega) hv.1 (by norm_num)
    exact_mod_cast this
  have e : image v d ![0, shift2 i 1] 1 = image v d (shift2 i) 1 := by simp [image]
  rw [e]
  nlinarith

/-- Reciprocal basis of a square cell. -/
noncomputable def unit2 : Fin 2 → Fin 2 → ℝ := ![![1, 0], ![0, 1]]

theorem unit2_ksq (u : Fin 2 → Int) : ksq unit2 u = ((u 0 ^ 2 + u 1 ^ 2 : Int) : ℝ) := by
  rw [ksq2]; simp [unit2]

/-- Square norms that are integers are separated. -/
theorem unit2_separated (v d : Fin 2 → Int) (sh : Nat → Fin 2 → Int) (n : Nat) : Separated unit2 v d sh n := by
  intro i _ j _ h
  rw [unit2_ksq, unit2_ksq] at *
  have h1 : (image v d (sh i) 0 ^ 2 + image v d (sh i) 1 ^ 2) + 1 ≤
      image v d (sh j) 0 ^ 2 + image v d (sh j) 1 ^ 2 := by
    have := Int.cast_lt.mp h; omega
  have h2 : ((image v d (sh i) 0 ^ 2 + image v d (sh i) 1 ^ 2 : Int) : ℝ) + 1 ≤
      ((image v d (sh j) 0 ^ 2 + image v d (sh j) 1 ^ 2 : Int) : ℝ) := by exact_mod_cast h1
  linarith

/-- All hypotheses hold for a square cell: wave (3,1) on a 4 × 4 mesh, third of the list, blocks of 64 threads. -/
example : kernel2 tol unit2 ![4, 4] 64 [![0, 0], ![0, 1], ![3, 1]] 2 =
    (ksq unit2 (shiftToMinimum unit2 ![3, 1] ![4, 4]), shiftToMinimum unit2 ![3, 1] ![4, 4]) :=
  C118_cpu_2_partial unit2 ![4, 4] (by norm_num) (by norm_num) _ rfl (unit2_separated _ _ _ _)
    (C118_orthogonal_2 _ _ _ (by simp [unit2]) (by simp [unit2]) (by simp))

/-- The same kernel on rational numbers: the image is (-1,1) with square norm 2. -/
example : kernel2 (1 / 100000000 : ℚ) ![![1, 0], ![0, 1]] ![4, 4] 64 [![0, 0], ![0, 1], ![3, 1]] 2 =
    (2, ![-1, 1]) := by decide +kernel

example : kernel1 (fun _ _ => (2 : ℚ)) 5 3 4 = some (4, fun _ => -1) := by decide +kernel

/-- C118: if the first reciprocal vector is orthogonal to the others, no position of a 3D mesh has its
shortest image among the extra ones (cubic, tetragonal and orthorhombic cells). -/
theorem C118_orthogonal_3 (kB : Fin 3 → Fin 3 → ℝ) (v d : Fin 3 → Int)
    (h0 : 0 < kB 0 0 ^ 2 + kB 0 1 ^ 2 + kB 0 2 ^ 2)
    (h01 : kB 0 0 * kB 1 0 + kB 0 1 * kB 1 1 + kB 0 2 * kB 1 2 = 0)
    (h02 : kB 0 0 * kB 2 0 + kB 0 1 * kB 2 1 + kB 0 2 * kB 2 2 = 0)
    (hv : 0 ≤ v 0 ∧ v 0 < d 0) : ExtrasLonger kB v d shift3 128 := by
  intro i hi hn
  obtain ⟨⟨a, b⟩, c, c'⟩ := shift3_range hi
  have h3 : 3 ≤ shift3 i 0 := by
    by_contra h
    exact hn fun j => by fin_cases j; exacts [⟨a, by simpa using Int.le_of_lt_add_one (Int.lt_of_not_ge h)⟩, c, c']
  refine ⟨![0, shift3 i 1, shift3 i 2], fun j => by fin_cases j <;> simp [c.1, c.2, c'.1, c'.2], ?_⟩
  have key : ∀ x y z : ℝ, (kB 0 0 * x + kB 1 0 * y + kB 2 0 * z) ^ 2 +
      (kB 0 1 * x + kB 1 1 * y + kB 2 1 * z) ^ 2 + (kB 0 2 * x + kB 1 2 * y + kB 2 2 * z) ^ 2 =
      (kB 0 0 ^ 2 + kB 0 1 ^ 2 + kB 0 2 ^ 2) * x ^ 2 + ((kB 1 0 * y + kB 2 0 * z) ^ 2 +
      (kB 1 1 * y + kB 2 1 * z) ^ 2 + (kB 1 2 * y + kB 2 2 * z) ^ 2) := fun x y z => by
    linear_combination 2 * x * y * h01 + 2 * x * z * h02
  rw [ksq3, ksq3, key, key]
  have hlt : ((image v d ![0, shift3 i 1, shift3 i 2] 0 : Int) : ℝ) ^ 2 <
      (image v d (shift3 i) 0 : Int) ^ 2 := by
    have : (image v d ![0, shift3 i 1, shift3 i 2] 0) ^ 2 < (image v d (shift3 i) 0) ^ 2 := by
      simp only [image, Matrix.cons_val_zero, zero_mul, add_zero]
      have : d 0 ≤ shift3 i 0 * d 0 := by nlinarith [hv.1, hv.2]
      exact pow_lt_pow_left₀ (by omega) hv.1 (by norm_num)
    exact_mod_cast this
  have e1 : image v d ![0, shift3 i 1, shift3 i 2] 1 = image v d (shift3 i) 1 := by simp [image]
  have e2 : image v d ![0, shift3 i 1, shift3 i 2] 2 = image v d (shift3 i) 2 := by simp [image]
  rw [e1, e2]
  nlinarith

/-- C118: the same for hexagonal cells with a mesh that has equal dimensions. -/
theorem C118_hexagonal_2 (kB : Fin 2 → Fin 2 → ℝ) (v d : Fin 2 → Int)
    (h0 : 0 < kB 0 0 ^ 2 + kB 0 1 ^ 2) (h1 : kB 1 0 ^ 2 + kB 1 1 ^ 2 = kB 0 0 ^ 2 + kB 0 1 ^ 2)
    (h01 : 2 * (kB 0 0 * kB 1 0 + kB 0 1 * kB 1 1) = kB 0 0 ^ 2 + kB 0 1 ^ 2)
    (hd : d 1 = d 0) (hv : ∀ j, 0 ≤ v j ∧ v j < d j) : ExtrasLonger kB v d shift2 32 := by
  intro i hi hn
  obtain ⟨⟨a, b⟩, c⟩ := shift2_range hi
  have h3 : 3 ≤ shift2 i 0 := by
    by_contra h
    exact hn fun j => by fin_cases j; exacts [⟨a, by simpa using Int.le_of_lt_add_one (Int.lt_of_not_ge h)⟩, c]
  refine ⟨fun _ => 0, fun j => by simp, ?_⟩
  have key : ∀ x y : ℝ, (kB 0 0 * x + kB 1 0 * y) ^ 2 + (kB 0 1 * x + kB 1 1 * y) ^ 2 =
      (kB 0 0 ^ 2 + kB 0 1 ^ 2) * (x ^ 2 + x * y + y ^ 2) := fun x y => by
    linear_combination x * y * h01 + y ^ 2 * h1
  rw [ksq2, ksq2, key, key]
  refine mul_lt_mul_of_pos_left ?_ h0
  have hv0 := hv 0
  have hv1 := hv 1
  rw [hd] at hv1
  have hI : 3 * d 0 ≤ shift2 i 0 * d 0 := by nlinarith [hv0.1, hv0.2]
  have hu : (3 * d 0 : ℝ) ≤ (image v d (shift2 i) 0 : Int) := by
    have : 3 * d 0 ≤ image v d (shift2 i) 0 := by simp only [image]; omega
    exact_mod_cast this
  have e : ∀ j, image v d (fun _ => 0) j = v j := fun j => by simp [image]
  rw [e, e]
  generalize ((image v d (shift2 i) 0 : Int) : ℝ) = x at hu ⊢
  generalize ((image v d (shift2 i) 1 : Int) : ℝ) = y
  have r0 : (0 : ℝ) ≤ v 0 := by exact_mod_cast hv0.1
  have r1 : (0 : ℝ) ≤ v 1 := by exact_mod_cast hv1.1
  have r2 : (v 0 : ℝ) < d 0 := by exact_mod_cast hv0.2
  have r3 : (v 1 : ℝ) < d 0 := by exact_mod_cast hv1.2
  have q : (d 0 : ℝ) * 3 * (d 0 * 3) ≤ x * x := by nlinarith
  nlinarith [sq_nonneg (y + x / 2), mul_lt_mul'' r2 r2 r0 r0, mul_lt_mul'' r3 r3 r1 r1,
    mul_lt_mul'' r2 r3 r0 r1]

/-- A hexagonal cell with a mesh of 4 × 4 points. -/
example : ExtrasLonger ![![2, 0], ![1, Real.sqrt 3]] ![3, 2] ![4, 4] shift2 32 := by
  refine C118_hexagonal_2 _ _ _ ?_ ?_ ?_ rfl fun j => ?_
  · simp
  · simp; norm_num
  · simp; norm_num
  · fin_cases j <;> simp

/-! ## One dimension -/

/-- C118 in one dimension: both loops end after at most one turn and the kernel gives the minimum image
and square norm of the CPU code for every position of the mesh. -/
theorem C118_cpu_1 (kB : Fin 1 → Fin 1 → ℝ) (v d : Int) (h0 : 0 ≤ v) (h1 : v < d) (fuel : Nat) :
    kernel1 kB d (fuel + 2) v =
      some (ksq kB (shiftToMinimum kB (fun _ => v) fun _ => d), shiftToMinimum kB (fun _ => v) fun _ => d) := by
  have e : d.tdiv 2 = d / 2 := Int.tdiv_eq_ediv_of_nonneg (by omega)
  have hk : ∀ u : Int, ((u * u : Int) : ℝ) * kB 0 0 * kB 0 0 = ksq kB (fun _ => u) := fun u => by
    simp only [ksq, accum_eq, Fin.sum_univ_one, Fin.isValue, zero_add]; push_cast; ring
  show _ = some (ksq kB (fun _ => Crystal.minImage1 v d), fun _ => Crystal.minImage1 v d)
  unfold kernel1 Crystal.minImage1
  simp only [e]
  by_cases h : v > d / 2
  · have a1 : ¬ (v - d > d / 2) := by omega
    have a2 : ¬ (v - d < -1 * (d / 2)) := by omega
    simp only [down, up, h, a1, a2, if_true, if_false, Option.bind_some, Option.map_some, hk]
  · have a2 : ¬ (v < -1 * (d / 2)) := by omega
    have a3 : ¬ (v < -(d / 2)) := by omega
    simp only [down, up, h, a2, a3, if_false, Option.bind_some, Option.map_some, hk]

/-! ## Flat arrays -/

theorem flatten_const {α : Type} {n : Nat} : ∀ (l : List (List α)), (∀ x ∈ l, x.length = n) →
    ∀ i < n, ∀ j, l.flatten[i + j * n]? = l[j]?.bind fun x => x[i]?
  | [], _, i, _, j => by simp
  | x :: l, h, i, hi, 0 => by
    have hx := h x (by simp)
    simp [List.getElem?_append_left (show i < x.length by omega)]
  | x :: l, h, i, hi, j + 1 => by
    have hx := h x (by simp)
    have e : i + (j + 1) * n - n = i + j * n := by rw [Nat.add_mul]; omega
    rw [List.flatten_cons, List.getElem?_append_right (by rw [hx, Nat.add_mul]; omega), hx, e,
      flatten_const l (fun y hy => h y (by simp [hy])) i hi j, List.getElem?_cons_succ]

theorem flatten_get {D : Nat} (ws : List (Fin D → Int)) {i : Nat} (hi : i < ws.length) (j : Fin D) :
    (flatten ws)[i + j.val * ws.length]? = some (ws[i] j) := by
  rw [flatten, List.flatMap_def, flatten_const _ (by simp) i hi]
  simp [hi]

/-- C118: `computeKSq` gives the CPU value for every wave. -/
theorem C118_kSq {D : Nat} (kB : Fin D → Fin D → ℝ) (ws : List (Fin D → Int)) {i : Nat} (hi : i < ws.length) :
    kSqAt kB ws.length (flatten ws) i = ksq kB ws[i] := by
  unfold kSqAt
  rw [gksq_eq]
  congr 1
  funext j
  rw [List.getD_eq_getElem?_getD, flatten_get ws hi j]; rfl

/-- C118: the flag of implicit inverses is that of the CPU code. -/
theorem C118_implicit (i d : Int) (hi : 0 ≤ i) (hd : 0 < d) :
    gpuImplicit i d = Crystal.hasImplicitInverse i d := by
  have e : d.tdiv 2 = d / 2 := Int.tdiv_eq_ediv_of_nonneg hd.le
  unfold gpuImplicit Crystal.hasImplicitInverse
  rw [e]
  by_cases h : i = 0
  · subst h
    have : ¬ ((0 : Int) > d / 2 + 1) := by omega
    simp [this]
  · simp [h]

/-- C118: `computedKSq` gives the CPU value for every parameter and wave. -/
theorem C118_dKSq {D : Nat} (E : Crystal.WaveEnv D) (q : Crystal.Params) (ws : List (Fin D → Int)) (n : Fin 6)
    (hl : ws.length = E.pos.length) {i : Nat} (hi : i < ws.length) :
    some (dKSqAt (Crystal.dkkBasis (E.lat.kBasis q) (Crystal.dkBasis (E.lat.kBasis q) (E.lat.drBasis q n)))
      ws.length E.isReal (E.pos.map E.impl) (flatten ws) i) = (Crystal.dKSqArray E q ws n)[i]? := by
  have hi' : i < E.pos.length := hl ▸ hi
  have hw : (fun j : Fin D => (((flatten ws).getD (i + j.val * ws.length) 0 : Int) : ℝ)) =
      fun j => ((ws[i] j : Int) : ℝ) := by
    funext j
    rw [List.getD_eq_getElem?_getD, flatten_get ws hi j]; rfl
  have hm : (E.pos.map E.impl).getD i false = E.impl E.pos[i] := by
    simp [List.getD_eq_getElem?_getD, hi']
  unfold dKSqAt Crystal.dKSqArray
  rw [hw, hm]
  simp only [List.getElem?_zipWith, List.getElem?_eq_getElem hi, List.getElem?_eq_getElem hi']
  rfl

/-! ## Histories of calls -/

/-- The device state holds the same flags and, in flat arrays, the same data as the CPU state. -/
structure Same {D : Nat} (E : Crystal.WaveEnv D) (g : GState D) (c : Crystal.WaveState D) : Prop where
  cell : g.cell = c.cell
  alloc : g.alloc = c.alloc
  hasMin : g.hasMin = c.hasMin
  hasK : g.hasK = c.hasK
  hasDK : g.hasDK = c.hasDK
  images : g.minImages = flatten c.minImages
  kSq : g.kSq = c.kSq
  dKSq : g.dKSq = c.dKSq.flatten
  size : c.hasMin = true → c.alloc = true ∧ c.minImages.length = E.pos.length

/-- Outcomes that agree. -/
def SameRes {D : Nat} (E : Crystal.WaveEnv D) : Res (GState D) → Res (Crystal.WaveState D) → Prop
  | .ok g, .ok c => Same E g c
  | .throw, .throw => True
  | .ub, .ub => True
  | _, _ => False

/-- The kernel gives the images and norms of the CPU code. -/
def KernelOk {D : Nat} (E : Crystal.WaveEnv D) (ker : Crystal.Params → Nat → Cand ℝ D) (q : Crystal.Params) : Prop :=
  ∀ i v, E.pos[i]? = some v → ker q i =
    (ksq (E.lat.kBasis q) (shiftToMinimum (E.lat.kBasis q) v E.dims), shiftToMinimum (E.lat.kBasis q) v E.dims)

theorem range_map_eq {α β : Type} (l : List α) (f : Nat → β) (g : α → β)
    (h : ∀ i v, l[i]? = some v → f i = g v) : (List.range l.length).map f = l.map g := by
  refine List.ext_getElem (by simp) fun i h1 h2 => ?_
  simp only [List.getElem_map, List.getElem_range]
  exact h i _ (List.getElem?_eq_getElem (by simpa using h2))

theorem same_min {D : Nat} {E : Crystal.WaveEnv D} {ker : Crystal.Params → Nat → Cand ℝ D} {g : GState D}
    {c : Crystal.WaveState D} (h : Same E g c) (hk : ∀ q, c.cell = some q → KernelOk E ker q) :
    SameRes E (g.computeMin E ker) (c.computeMin E) := by
  unfold GState.computeMin Crystal.WaveState.computeMin
  rw [h.hasMin, h.alloc, h.cell]
  by_cases hm : c.hasMin = true
  · rw [if_pos hm, if_pos hm]; exact h
  · rw [if_neg hm, if_neg hm]
    by_cases ha : c.alloc = true
    · rw [if_pos ha, if_pos ha]
      rcases hc : c.cell with _ | q
      · trivial
      · have e := range_map_eq E.pos (ker q) _ (hk q hc)
        refine ⟨rfl, rfl, rfl, rfl, h.hasDK, ?_, ?_, h.dKSq, fun _ => ⟨ha, by simp⟩⟩
        · simp only [e, List.map_map, Function.comp_def]
        · simp only [e, List.map_map, Function.comp_def]
    · rw [if_neg ha, if_neg ha]; trivial

theorem same_finish {D : Nat} {E : Crystal.WaveEnv D} {g : GState D}
    {c : Crystal.WaveState D} (h : Same E g c) (hm : c.hasMin = true) :
    SameRes E (g.finishDK E) (c.finishDK E) := by
  obtain ⟨ha, hl⟩ := h.size hm
  unfold GState.finishDK Crystal.WaveState.finishDK
  rw [h.cell, if_pos ha]
  rcases hc : c.cell with _ | q
  · trivial
  · refine ⟨by simp, h.alloc, h.hasMin, h.hasK, rfl, h.images, h.kSq, ?_, h.size⟩
    have e : ∀ n, (List.range E.pos.length).map (dKSqAt
          (Crystal.dkkBasis (E.lat.kBasis q) (Crystal.dkBasis (E.lat.kBasis q) (E.lat.drBasis q n)))
          E.pos.length E.isReal (E.pos.map E.impl) g.minImages) = Crystal.dKSqArray E q c.minImages n := by
      intro n
      refine List.ext_getElem? fun i => ?_
      by_cases hi : i < E.pos.length
      · rw [← C118_dKSq E q c.minImages n hl (by omega), hl, h.images]
        simp [hi]
      · rw [List.getElem?_eq_none (by simp; omega), List.getElem?_eq_none (by simp [Crystal.dKSqArray]; omega)]
    show _ = List.flatten _
    simp only [e]
    generalize List.finRange 6 = l
    induction l with
    | nil => rfl
    | cons n l ih =>
      by_cases hn : n.val < E.lat.nParameter
      · simp [hn, ih]
      · simp [hn, ih]

theorem same_step {D : Nat} {E : Crystal.WaveEnv D} {ker : Crystal.Params → Nat → Cand ℝ D} {g : GState D}
    {c : Crystal.WaveState D} (h : Same E g c) (hk : ∀ q, c.cell = some q → KernelOk E ker q) (o : Crystal.WaveOp) :
    SameRes E (g.step E ker o) (c.step E o) := by
  cases o with
  | allocate =>
    simp only [GState.step, Crystal.WaveState.step, GState.allocate, Crystal.WaveState.allocate, h.alloc]
    by_cases ha : c.alloc = true
    · rw [if_pos ha, if_pos ha]; trivial
    · rw [if_neg ha, if_neg ha]
      refine ⟨h.cell, rfl, ?_, rfl, rfl, h.images, h.kSq, h.dKSq, fun hm => ⟨rfl, ?_⟩⟩
      · simp [GState.clear, Crystal.WaveState.clear, h.hasMin]
      · simp only [Crystal.WaveState.clear] at hm ⊢
        split at hm
        · simp at hm
        · exact (h.size hm).2
  | setCell p =>
    simp only [GState.step, Crystal.WaveState.step, GState.setCell, Crystal.WaveState.setCell, h.alloc]
    by_cases ha : c.alloc = true
    · rw [if_pos ha, if_pos ha]
      refine ⟨rfl, by simp [GState.clear, Crystal.WaveState.clear], ?_, rfl, rfl, h.images, h.kSq, h.dKSq,
        fun hm => ⟨ha, ?_⟩⟩
      · simp [GState.clear, Crystal.WaveState.clear, h.hasMin]
      · simp only [Crystal.WaveState.clear] at hm ⊢
        split at hm
        · simp at hm
        · exact (h.size hm).2
    · rw [if_neg ha, if_neg ha]; trivial
  | computeMin => exact same_min h hk
  | computeK =>
    simp only [GState.step, Crystal.WaveState.step, GState.computeK, Crystal.WaveState.computeK, h.hasK, h.hasMin]
    by_cases hK : c.hasK = true
    · rw [if_pos hK, if_pos hK]; exact h
    · rw [if_neg hK, if_neg hK]
      rcases hm : c.hasMin with _ | _
      · simpa using same_min h hk
      · obtain ⟨ha, hl⟩ := h.size hm
        simp only [Bool.not_true, Bool.false_eq_true, if_false, ha, if_true, h.cell]
        rcases hc : c.cell with _ | q
        · trivial
        · refine ⟨rfl, h.alloc.trans ha, rfl, rfl, h.hasDK, h.images, ?_, h.dKSq, fun _ => ⟨rfl, hl⟩⟩
          show List.map _ _ = List.map _ _
          rw [← hl]
          refine range_map_eq c.minImages _ _ fun i v hi => ?_
          obtain ⟨hlt, rfl⟩ := List.getElem?_eq_some_iff.mp hi
          rw [h.images]
          exact C118_kSq _ _ hlt
  | computeDK =>
    simp only [GState.step, Crystal.WaveState.step, GState.computeDK, Crystal.WaveState.computeDK, h.hasDK, h.hasMin]
    by_cases hK : c.hasDK = true
    · rw [if_pos hK, if_pos hK]; exact h
    · rw [if_neg hK, if_neg hK]
      rcases hm : c.hasMin with _ | _
      · simp only [Bool.not_false, if_true]
        have h1 := same_min h hk
        rcases hg : g.computeMin E ker with g1 | _ | _ <;> rcases hc : c.computeMin E with c1 | _ | _ <;>
          rw [hg, hc] at h1 <;> simp only [SameRes] at h1 ⊢
        refine same_finish h1 ?_
        unfold Crystal.WaveState.computeMin at hc
        rw [hm] at hc
        simp only [Bool.false_eq_true, if_false] at hc
        split at hc
        · split at hc
          · simp at hc
          · cases hc; rfl
        · simp at hc
      · simpa using same_finish h hm

theorem step_cell {D : Nat} {E : Crystal.WaveEnv D} {c c' : Crystal.WaveState D} {o : Crystal.WaveOp}
    (h : c.step E o = .ok c') : c'.cell = c.cell ∨ ∃ q, o = .setCell q ∧ c'.cell = some q := by
  have hmin : ∀ {c c' : Crystal.WaveState D}, c.computeMin E = .ok c' → c'.cell = c.cell := by
    intro c c' h
    unfold Crystal.WaveState.computeMin at h
    split at h
    · cases h; rfl
    · split at h
      · split at h
        · cases h
        · cases h; simp
      · cases h
  have hfin : ∀ {c c' : Crystal.WaveState D}, c.finishDK E = .ok c' → c'.cell = c.cell := by
    intro c c' h
    unfold Crystal.WaveState.finishDK at h
    split at h
    · split at h
      · cases h
      · cases h; simp
    · cases h
  cases o with
  | allocate =>
    simp only [Crystal.WaveState.step, Crystal.WaveState.allocate] at h
    split at h <;> cases h
    exact .inl rfl
  | setCell q =>
    simp only [Crystal.WaveState.step, Crystal.WaveState.setCell] at h
    split at h <;> cases h
    exact .inr ⟨q, rfl, rfl⟩
  | computeMin => exact .inl (hmin h)
  | computeK =>
    simp only [Crystal.WaveState.step, Crystal.WaveState.computeK] at h
    split at h
    · cases h; exact .inl rfl
    · split at h
      · exact .inl (hmin h)
      · split at h
        · split at h
          · cases h
          · cases h; exact .inl (by simp)
        · cases h
  | computeDK =>
    simp only [Crystal.WaveState.step, Crystal.WaveState.computeDK] at h
    split at h
    · cases h; exact .inl rfl
    · split at h
      · split at h
        · rename_i c1 h1
          exact .inl ((hfin h).trans (hmin h1))
        · rename_i hn
          exact absurd h (hn _)
      · exact .inl (hfin h)

/-- C118: after any history of calls the GPU wave list has the same outcome, flags and data (in flat arrays)
as the CPU wave list, if the kernel of minimum images agrees for the unit cells of the history. -/
theorem C118_history_partial {D : Nat} (E : Crystal.WaveEnv D) (ker : Crystal.Params → Nat → Cand ℝ D)
    (l : List Crystal.WaveOp) (hk : ∀ q, Crystal.WaveOp.setCell q ∈ l → KernelOk E ker q) :
    SameRes E (GState.run E ker GState.init l) (Crystal.WaveState.run E Crystal.WaveState.init l) := by
  have key : ∀ (l : List Crystal.WaveOp) (g : GState D) (c : Crystal.WaveState D), Same E g c →
      (∀ q, c.cell = some q → KernelOk E ker q) → (∀ q, Crystal.WaveOp.setCell q ∈ l → KernelOk E ker q) →
      SameRes E (GState.run E ker g l) (Crystal.WaveState.run E c l) := by
    intro l
    induction l with
    | nil => intro g c h _ _; exact h
    | cons o l ih =>
      intro g c h hc hl
      have h1 := same_step h hc o
      have hl' : ∀ q, Crystal.WaveOp.setCell q ∈ l → KernelOk E ker q := fun q hq => hl q (by simp [hq])
      rw [GState.run, Crystal.WaveState.run]
      rcases hg : g.step E ker o with g1 | _ | _ <;> rcases hs : c.step E o with c1 | _ | _ <;>
        rw [hg, hs] at h1 <;> simp only [SameRes] at h1 ⊢
      · refine ih g1 c1 h1 (fun q hq => ?_) hl'
        rcases step_cell hs with e | ⟨q', rfl, e⟩
        · exact hc q (e ▸ hq)
        · rw [e] at hq
          cases hq
          exact hl q (by simp)
      · exact ih g c h hc hl'
  exact key l _ _ ⟨rfl, rfl, rfl, rfl, rfl, by simp [GState.init, Crystal.WaveState.init, flatten], rfl, rfl,
    nofun⟩ nofun hk

/-- The kernel for one dimension agrees for every cell, so that the theorem covers all histories. -/
theorem C118_history_1 (E : Crystal.WaveEnv 1) (hpos : ∀ v ∈ E.pos, 0 ≤ v 0 ∧ v 0 < E.dims 0)
    (l : List Crystal.WaveOp) :
    SameRes E (GState.run E (fun q i => ((E.pos[i]?).bind fun v => kernel1 (E.lat.kBasis q) (E.dims 0) 2 (v 0)).getD
      default) GState.init l) (Crystal.WaveState.run E Crystal.WaveState.init l) := by
  refine C118_history_partial E _ l fun q _ i v hv => ?_
  have hm := hpos v (List.mem_of_getElem? hv)
  have e1 : (fun _ => v 0) = v := funext fun j => by rw [Subsingleton.elim j 0]
  have e2 : (fun _ => E.dims 0) = E.dims := funext fun j => by rw [Subsingleton.elim j 0]
  have h := C118_cpu_1 (E.lat.kBasis q) (v 0) (E.dims 0) hm.1 hm.2 0
  rw [e1, e2] at h
  simp only [hv, Option.bind_some]
  rw [show (2 : Nat) = 0 + 2 from rfl, h]
  rfl

/-- A mesh of 5 points, of which the transform of a real field keeps 3. -/
example (q q' : Crystal.Params) (lat : Crystal.Lat1) :
    let E : Crystal.WaveEnv 1 := ⟨lat.ops, fun _ => 5, [fun _ => 0, fun _ => 1, fun _ => 2], true, fun _ => false⟩
    SameRes E (GState.run E (fun q i => ((E.pos[i]?).bind fun v => kernel1 (E.lat.kBasis q) (E.dims 0) 2 (v 0)).getD
      default) GState.init [.allocate, .setCell q, .computeDK, .setCell q', .computeK])
      (Crystal.WaveState.run E Crystal.WaveState.init [.allocate, .setCell q, .computeDK, .setCell q', .computeK]) :=
  C118_history_1 _ (by simp) _

/-! ## Launch -/

/-- C118: the configuration of the kernel of minimum images: whole waves in every block, and enough threads
for all waves. -/
theorem C118_config {dev : Device} (hd : dev.Ok) {s : TA} {T : Nat} (hs : s.Uses dev T) {D per n : Nat}
    (hD : D = 2 ∧ per = 32 ∨ D = 3 ∧ per = 128 ∧ 128 ≤ dev.perBlock) (hn : 0 < n)
    (hle : n * per + max T 128 ≤ 2147483648) :
    ∃ s', configMin dev s D per n = .ok s' ∧ per ∣ s'.tpb ∧ 0 < s'.tpb ∧ n * per ≤ s'.blocks * s'.tpb ∧
      s'.Uses dev s'.tpb := by
  have hper : 0 < per := by omega
  have hnp : 0 < n * per := Nat.mul_pos hn hper
  have enough : ∀ t : Nat, 0 < t → n * per ≤ (n * per + t - 1) / t * t := by
    intro t ht
    have h1 := Nat.div_add_mod (n * per + t - 1) t
    have h2 := Nat.mod_lt (n * per + t - 1) ht
    rw [Nat.mul_comm t] at h1
    omega
  obtain ⟨k, hk, hT⟩ := Uses.pow hd hs
  have hT0 : 0 < T := by rw [hT]; positivity
  obtain ⟨s1, e1, u1, m1, t1, b1, w1⟩ := setLogical_uses hd hs hnp (by omega)
  have hlt : ¬ (n * per ≥ 2147483648) := by omega
  unfold configMin
  rw [if_neg hlt, e1, Res.ok_bind]
  by_cases hc : D = 3 ∧ s1.tpb < 128
  · rw [if_pos hc]
    obtain ⟨-, rfl, hpb⟩ := hD.resolve_left (by omega)
    have h1 := perBlock_pow (d := dev) s1 (k := 7) (by rw [hd.warp]; norm_num) (by rw [hd.warp]; norm_num)
    obtain ⟨ho1, -, hm1, -⟩ := perBlock_ok h1
    obtain ⟨s2, e2, u2, m2, t2, b2, w2⟩ := setLogical_uses hd (T := 128) ⟨ho1, .inl hm1, hpb⟩ hnp (by omega)
    refine ⟨s2, ?_, by rw [t2], by rw [t2]; norm_num, by rw [b2, t2]; exact enough _ (by norm_num), by rw [t2]; exact u2⟩
    have h1' : s1.setThreadsPerBlock dev 128 = _ := h1
    rw [h1', Res.ok_bind]
    exact e2
  · rw [if_neg hc]
    refine ⟨s1, rfl, ?_, by omega, by rw [b1, t1]; exact enough _ hT0, by rw [t1]; exact u1⟩
    rw [t1, hT]
    rcases hD with ⟨-, rfl⟩ | ⟨h3, rfl, -⟩
    · exact Nat.pow_dvd_pow 2 hk
    · have : 128 ≤ 2 ^ k := by rw [← hT, ← t1]; omega
      have : 7 ≤ k := by
        by_contra hk7
        have : 2 ^ k ≤ 2 ^ 6 := Nat.pow_le_pow_right (by norm_num) (by omega)
        omega
      exact Nat.pow_dvd_pow 2 this

/-- C118: `computedKSq` accepts a block size exactly if it exceeds the size of `dkkBasis`. -/
theorem C118_config_dKSq {dev : Device} (hd : dev.Ok) {s : TA} {T : Nat} (hs : s.Uses dev T) {n cap : Nat}
    (hn : 0 < n) (hle : n + T ≤ 2147483648) :
    (cap < T → ∃ s', configDk dev s n cap = .ok s') ∧ (T ≤ cap → configDk dev s n cap = .throw) := by
  obtain ⟨s1, e1, -, -, t1, -⟩ := setLogical_uses hd hs hn hle
  unfold configDk
  rw [e1, Res.ok_bind, t1]
  refine ⟨fun h => ⟨s1, ?_⟩, fun h => ?_⟩
  · simp [Res.check, h]
  · have : ¬ cap < T := by omega
    simp [Res.check, this]

/-- C118: after `computeMinimumImages` in three dimensions the check of `computedKSq` succeeds for every lattice
(`dkkBasis` has at most 54 elements), also if the user selected blocks of 32 threads. -/
theorem C118_config_after {dev : Device} (hd : dev.Ok) (hb : 128 ≤ dev.perBlock) {s : TA} {T : Nat}
    (hs : s.Uses dev T) {n cap : Nat} (hn : 0 < n) (hle : n * 128 + 1024 ≤ 2147483648) (hcap : cap ≤ 54) :
    ∃ s' s'', configMin dev s 3 128 n = .ok s' ∧ configDk dev s' n cap = .ok s'' := by
  have hT := hs.2.2
  have := hd.perBlock.2
  obtain ⟨s', h1, h2, h3, -, h5⟩ := C118_config hd hs (.inr ⟨rfl, rfl, hb⟩) hn (by omega)
  have h6 := Nat.le_of_dvd h3 h2
  have h7 := h5.2.2
  obtain ⟨s'', h⟩ := (C118_config_dKSq hd h5 (cap := cap) hn (by omega)).1 (by omega)
  exact ⟨s', s'', h1, h⟩

example : ∃ s' s'', configMin ⟨32, 2048, 1024⟩ ⟨some 32, 0, 0, 0, 32, false⟩ 3 128 10 = .ok s' ∧
    configDk ⟨32, 2048, 1024⟩ s' 10 54 = .ok s'' :=
  C118_config_after (T := 32) ⟨rfl, by norm_num, by norm_num⟩ (by norm_num)
    ⟨⟨fun T h => by cases h; exact ⟨⟨5, rfl⟩, by norm_num, rfl⟩, fun T h h' => absurd rfl h'⟩, .inl rfl, by norm_num⟩
    (by norm_num) (by norm_num) (by norm_num)

/-- Reciprocal basis of a cubic cell. -/
noncomputable def unit3 : Fin 3 → Fin 3 → ℝ := fun i j => if i = j then 1 else 0

/-- A schedule for one block of 128 threads that runs the threads in reverse order. -/
def reversed (_ _ : Nat) : List Nat := (List.range 128).reverse.flatMap fun t => List.replicate 3 t

theorem reversed_fair (b s : Nat) : Fair (phase (D := 3) tol 128 s (onGrid 1 128 128 b)) (reversed b s) := by
  intro t
  by_cases ht : t < 128
  · have hc : cost (phase (D := 3) tol 128 s (onGrid 1 128 128 b) t) ≤ 3 := by
      unfold phase
      split_ifs <;> simp [cost, redInstr]
    have hmem : t ∈ (List.range 128).reverse := by simpa using ht
    obtain ⟨l1, l2, e2⟩ := List.append_of_mem hmem
    refine hc.trans ?_
    rw [reversed, e2]
    simp only [List.flatMap_append, List.flatMap_cons, List.count_append, List.count_replicate_self]
    omega
  · have : onGrid 1 128 128 b (t / 128) = false := by simp [onGrid]; omega
    simp [phase, this, cost]

/-- The hypotheses of the theorems in three dimensions hold for wave (3,1,2) of a cubic cell. -/
example : (kernel3 tol unit3 ![4, 4, 4] 128 reversed [![3, 1, 2]] 0).1 ≤
    ksq unit3 (fun j => ![3, 1, 2] j + ![-1, 0, 0] j * ![4, 4, 4] j) + 7 / 100000000 :=
  (C118_min_image_3 unit3 ![4, 4, 4] (by norm_num) (by norm_num) [![3, 1, 2]] (p := 0) rfl reversed
    reversed_fair).2.2 ![-1, 0, 0] (fun j => by fin_cases j <;> simp)

example : ExtrasLonger unit3 ![3, 1, 2] ![4, 4, 4] shift3 128 :=
  C118_orthogonal_3 _ _ _ (by simp [unit3]) (by simp [unit3]) (by simp [unit3]) (by simp)

/-- A device with 1024 threads per block, on which the user selected blocks of 32 threads: the kernel for three
dimensions runs with blocks of 128 threads. -/
example : configMin ⟨32, 2048, 1024⟩ ⟨some 32, 0, 0, 0, 32, false⟩ 3 128 10 =
    .ok ⟨some 128, 128, 10, 1280, 32, false⟩ := by decide +kernel

/-! ## Violations -/

/-- The thread count of `computeMinimumImages` overflows in three dimensions from `2^24` waves on, e.g. for
a real field on a mesh of 324 × 324 × 324 points. -/
theorem C118_violated_overflow (dev : Device) (s : TA) :
    (∀ n, 2 ^ 24 ≤ n → configMin dev s 3 128 n = .ub) ∧ 2 ^ 24 ≤ 324 * 324 * (324 / 2 + 1) := by
  refine ⟨fun n hn => ?_, by norm_num⟩
  rw [configMin, if_pos (by omega)]

/-- `minImages_h` has no memory for its result, so that it is undefined for every wave list. -/
theorem C118_violated_host {D : Nat} (ws : List (Fin D → Int)) (h : 0 < ws.length) :
    hostImages D ws.length 0 (flatten ws) = .ub := by
  rw [hostImages, if_pos h]

/-- Even with memory, `minImages_h` reads wrong elements: waves (0,0), (0,1), (1,0), (1,1). -/
theorem C118_violated_host_stride :
    hostImages 2 4 4 (flatten [![0, 0], ![0, 1], ![1, 0], ![1, 1]]) =
      .ok [[0, 1], [0, 1], [1, 0], [1, 1]] ∧
    hostImages 2 2 2 (flatten [![0, 0], ![0, 1]]) = .ok [[0, 0], [0, 1]] := by
  decide +kernel

/-- Reciprocal basis of a strongly oblique cell. -/
noncomputable def skew : Fin 2 → Fin 2 → ℝ := ![![1, 1 / 100], ![4, 0]]

/-- For a strongly oblique cell the extra images of the 2D kernel matter: wave (1,0) on a mesh of 5 × 2 points
gets a square norm below 1/10 on the GPU and at least 1 on the CPU. -/
theorem C118_violated_extra {T : Nat} (hT : 32 ∣ T) (hT0 : 0 < T) :
    (kernel2 tol skew ![5, 2] T [![1, 0]] 0).1 < 1 / 10 ∧
      1 ≤ ksq skew (shiftToMinimum skew ![1, 0] ![5, 2]) := by
  constructor
  · rw [kernel2_eq skew ![5, 2] hT hT0 [![1, 0]] (p := 0) rfl]
    have := treeVal_le (show (0 : ℝ) ≤ tol by unfold tol; norm_num) 5 (lane skew ![1, 0] ![5, 2] shift2) 25
      (by norm_num)
    have e : (lane skew ![1, 0] ![5, 2] shift2 25).1 = 16 / 625 := by
      rw [lane, ksq2]; simp [skew, image, shift2]; norm_num
    rw [e] at this
    have ht : tol = 1 / 100000000 := rfl
    push_cast at this
    linarith
  · obtain ⟨⟨s, hs, he⟩, -⟩ := Crystal.C39_shiftToMinimum (D := 2) (by norm_num) skew ![1, 0] ![5, 2]
    rw [ksq2, he, he]
    have h0 := hs 0
    have h1 := hs 1
    generalize s 0 = a at *
    generalize s 1 = b at *
    obtain ⟨h0, h0'⟩ := h0
    obtain ⟨h1, h1'⟩ := h1
    interval_cases a <;> interval_cases b <;> simp [skew] <;> norm_num

/-- Thread 0 finishes the loop before the other threads of the warp start it. -/
def ahead : List Nat := List.replicate 15 0 ++ (List.range 32).flatMap fun t => List.replicate 15 t

theorem warpLoop_cost (act : Nat → Bool) (t : Nat) : cost (warpLoop (D := 2) (1 / 100000000 : ℚ) 5 act t) ≤ 15 := by
  have h : ∀ s, cost (phase (D := 2) (1 / 100000000 : ℚ) (2 ^ 5) s act t) ≤ 3 := by
    intro s
    unfold phase
    split_ifs <;> simp [cost, redInstr]
  have e : ∀ l : List Nat, cost (l.flatMap fun s => phase (D := 2) (1 / 100000000 : ℚ) (2 ^ 5) s act t) ≤
      3 * l.length := by
    intro l
    induction l with
    | nil => simp [cost]
    | cons s l ih =>
      have := h s
      rw [List.flatMap_cons, List.length_cons]
      simp only [cost, List.map_append, List.sum_append] at *
      omega
  exact e (treeStrides 5)

theorem warpLoop_none (act : Nat → Bool) (t : Nat) (h : act (t / 32) = false) :
    warpLoop (D := 2) (1 / 100000000 : ℚ) 5 act t = [] := by
  simp [warpLoop, phase, h]

theorem ahead_fair : Fair (warpLoop (D := 2) (1 / 100000000 : ℚ) 5 (onGrid 1 32 32 0)) ahead := by
  intro t
  by_cases ht : t < 32
  · refine (warpLoop_cost _ t).trans ?_
    have hmem : t ∈ List.range 32 := by simpa using ht
    obtain ⟨l1, l2, e2⟩ := List.append_of_mem hmem
    rw [ahead, List.count_append, e2]
    simp only [List.flatMap_append, List.flatMap_cons, List.count_append, List.count_replicate_self]
    omega
  · have : onGrid 1 32 32 0 (t / 32) = false := by
      simp [onGrid]; omega
    rw [warpLoop_none _ t this]
    simp [cost]

theorem ahead_result (m : Nat → Cand ℚ 2) :
    runAll (warpLoop (1 / 100000000 : ℚ) 5 (onGrid 1 32 32 0)) ahead m 0 =
      let op := better (1 / 100000000 : ℚ)
      op (op (op (op (op (m 0) (m 16)) (m 8)) (m 4)) (m 2)) (m 1) := by
  have e : cost (warpLoop (D := 2) (1 / 100000000 : ℚ) 5 (onGrid 1 32 32 0) 0) = 15 := by
    simp [warpLoop, cost, treeStrides, phase, redInstr, onGrid]
  have h := solo 0 (warpLoop (1 / 100000000 : ℚ) 5 (onGrid 1 32 32 0) 0)
    (launch m (warpLoop (1 / 100000000 : ℚ) 5 (onGrid 1 32 32 0))) rfl
  rw [e] at h
  rw [runAll, ahead, run_append, h, own_cell]
  · simp [launch, warpLoop, treeStrides, phase, redInstr, onGrid, exec]
  · intro u i hi
    by_cases hu : u = 0
    · subst hu; simp at hi
    · simp only [Function.update_of_ne hu, launch, warpLoop, List.mem_flatMap] at hi
      obtain ⟨s, -, hi⟩ := hi
      obtain ⟨-, rfl⟩ := phase_mem hi
      rfl
  · simp

/-- Full statement of C118 for the 2D kernel without the assumption of lockstep execution: no searched image
is shorter than the result by more than 5 tolerances. -/
def C118_warp_statement : Prop :=
  ∀ (kB : Fin 2 → Fin 2 → ℚ) (d v : Fin 2 → Int) (sch : Nat → List Nat),
    (∀ b, Fair (warpLoop (D := 2) (1 / 100000000 : ℚ) 5 (onGrid 1 32 32 b)) (sch b)) →
    ∀ i < 32, (kernel2Free (1 / 100000000) kB d 32 sch [v] 0).1 ≤
      gksq kB (image v d (shift2 i)) + 5 / 100000000

/-- C118 is violated in two dimensions if the threads of a warp are scheduled independently (there is no
`__syncwarp`): on a 4 × 4 mesh of a square cell the wave (0,0) gets the square norm 32 instead of 0. -/
theorem C118_violated_warp : ¬ C118_warp_statement ∧
    (kernel2Free (1 / 100000000 : ℚ) ![![1, 0], ![0, 1]] ![4, 4] 32 (fun _ => ahead) [![0, 0]] 0).1 = 32 := by
  have h32 : (kernel2Free (1 / 100000000 : ℚ) ![![1, 0], ![0, 1]] ![4, 4] 32 (fun _ => ahead) [![0, 0]] 0).1 =
      32 := by
    unfold kernel2Free
    simp only [Nat.zero_mul, Nat.zero_div, Nat.sub_self, List.length_singleton]
    rw [ahead_result]
    decide +kernel
  refine ⟨fun h => ?_, h32⟩
  have := h ![![1, 0], ![0, 1]] ![4, 4] ![0, 0] (fun _ => ahead) (fun b => ?_) 12 (by norm_num)
  · rw [h32] at this
    revert this
    decide +kernel
  · rcases Nat.eq_zero_or_pos b with rfl | hb
    · exact ahead_fair
    · intro t
      rw [warpLoop_none _ t (by simp [onGrid]; omega)]
      simp [cost]

end Verif.Cuda.Wave
