import Verif.Basis.MakeModel
import Verif.Basis.CompleteProps
import Mathlib.Analysis.SpecialFunctions.Trigonometric.Bounds

/-!
# Lemmas for C115: the bases that `makeBasis` builds
-/

set_option autoImplicit false

namespace Verif.Make
open Verif.Stars (TWave StarEnv StarRec negSh sh ex ph GroupOn)
open Verif.Basis (Wave Star BasisData Cell)
open Verif.Crystal (Sym)
set_option linter.unusedSectionVars false

variable {D : Nat}

/-! ## Lists of waves -/

theorem groups_flatten (E : StarEnv D) (ws : List (TWave D)) : ∀ (cur : List (TWave D)) (g : ℚ),
    (groups E ws cur g).flatten = cur ++ ws := by
  induction ws with
  | nil => intro cur g; simp [groups]
  | cons w ws ih =>
    intro cur g
    simp only [groups]
    split
    · simp [ih]
    · simp [ih]

theorem waveLists_flatten (E : StarEnv D) (ws : List (TWave D)) : (waveLists E ws).flatten = ws := by
  cases ws with
  | nil => rfl
  | cons w ws => simp [waveLists, groups_flatten]

theorem Paired.append {d : Fin D → Int} {l l' : List (StarRec D)} (h : Stars.Paired d l) (h' : Stars.Paired d l') :
    Stars.Paired d (l ++ l') := by
  induction h with
  | nil => exact h'
  | closed s l h1 h2 _ ih => exact .closed s _ h1 h2 ih
  | pair s u l h1 h2 h3 h4 _ ih => exact .pair s u _ h1 h2 h3 h4 ih

/-- Everything about the stars that the loops over lists leave. -/
structure StarsOf (E : StarEnv D) (ws : List (TWave D)) (recs : List (StarRec D)) : Prop where
  built : ∀ s ∈ recs, s.root ∈ ws ∧ Stars.buildStar E s.root = .ok ⟨s.waves, s.cancel⟩
  perm : (ws.map TWave.dft).Perm (recs.flatMap fun s => s.waves.map TWave.dft)
  paired : Stars.Paired E.dims recs

theorem starLists_spec {E : StarEnv D} (htol : 0 ≤ E.tol) : ∀ (ls : List (List (TWave D))) (recs : List (StarRec D)),
    (ls.flatten.map TWave.dft).Nodup → starLists E ls = .ok recs → StarsOf E ls.flatten recs := by
  intro ls
  induction ls with
  | nil =>
    intro recs _ h
    simp only [starLists, Res.ok.injEq] at h
    subst h
    exact ⟨by simp, by simp, .nil⟩
  | cons l ls ih =>
    intro recs hn h
    simp only [starLists] at h
    cases hl : Stars.starLoop E l.length (l.mergeSort dftLe) none with
    | none => rw [hl] at h; simp at h
    | some r =>
      rw [hl] at h
      simp only [Res.bind_eq_ok] at h
      obtain ⟨a, rfl, b, hb, e⟩ := h
      simp only [Res.pure_eq, Res.ok.injEq] at e
      subst e
      rw [List.flatten_cons, List.map_append] at hn
      have hp : (l.mergeSort dftLe).Perm l := List.mergeSort_perm _ _
      have hn1 : ((l.mergeSort dftLe).map TWave.dft).Nodup :=
        (hp.map _).nodup_iff.2 (List.nodup_append.1 hn).1
      obtain ⟨p1, p2, p3⟩ := Stars.C76_loop_partition htol _ _ _ hn1 hl
      have S := ih b (List.nodup_append.1 hn).2.1 hb
      refine ⟨?_, ?_, Paired.append p3 S.paired⟩
      · intro s hs
        rw [List.flatten_cons]
        rcases List.mem_append.1 hs with hs | hs
        · exact ⟨List.mem_append_left _ (hp.mem_iff.1 (p2 s hs).1), (p2 s hs).2⟩
        · exact ⟨List.mem_append_right _ (S.built s hs).1, (S.built s hs).2⟩
      · rw [List.flatten_cons, List.map_append, List.flatMap_append]
        exact (((hp.map _).symm.trans p1)).append S.perm

/-- The bound on the number of turns of the loop over stars is never reached. -/
theorem starLists_ne_ub {E : StarEnv D} (G : GroupOn E.dims E.group) (htol : 0 ≤ E.tol) : ∀ (ls : List (List (TWave D))),
    (∀ w ∈ ls.flatten, w.dft = sh E.dims w.bz) → ∀ l ∈ ls, Stars.starLoop E l.length (l.mergeSort dftLe) none ≠ none := by
  intro ls h l hl
  have hp : (l.mergeSort dftLe).Perm l := List.mergeSort_perm _ _
  exact Stars.C76_loop_terminates G htol _ _ _ (fun w hw => h w (List.mem_flatten.2 ⟨l, hl, hp.mem_iff.1 hw⟩))
    (by simp) (by rw [hp.length_eq])

/-! ## Resolution of phases -/

/-- Translations of the group are fractions with a denominator that the tolerances of the program
resolve (`1.0E-6` on phases and coefficients). -/
structure Resolved (E : StarEnv D) : Prop where
  tol : 0 ≤ E.tol ∧ E.tol ≤ 1 / 1000000
  tw : 6 ≤ E.tw
  frac : ∃ Q : ℕ, 0 < Q ∧ Q ≤ 100000 ∧ ∀ A ∈ E.group, ∀ i, ∃ z : ℤ, A.t i * Q = z

theorem norm_ex_sub_one (y : ℚ) (h1 : -(1 / 2) < y) (h2 : y ≤ 1 / 2) : 4 * |(y : ℝ)| ≤ ‖ex y - 1‖ := by
  have e : ex y = Complex.exp (Complex.I * ((2 * Real.pi * (y : ℝ) : ℝ) : ℂ)) := by
    unfold Stars.ex
    congr 1
    push_cast
    ring
  have hpi := Real.pi_pos
  have hy : |(y : ℝ)| ≤ 1 / 2 := by
    rw [abs_le]
    have a1 := (Rat.cast_lt (K := ℝ)).2 h1
    have a2 := (Rat.cast_le (K := ℝ)).2 h2
    push_cast at a1 a2
    exact ⟨a1.le, a2⟩
  rw [e, Complex.norm_exp_I_mul_ofReal_sub_one, norm_mul, Real.norm_eq_abs, Real.norm_eq_abs, abs_two]
  have h3 : 2 * Real.pi * (y : ℝ) / 2 = Real.pi * y := by ring
  rw [h3]
  have h4 := Real.mul_abs_le_abs_sin (x := Real.pi * y) (by
    rw [abs_mul, abs_of_pos hpi]; nlinarith)
  rw [abs_mul, abs_of_pos hpi] at h4
  have h5 : 2 / Real.pi * (Real.pi * |(y : ℝ)|) = 2 * |(y : ℝ)| := by field_simp
  rw [h5] at h4
  linarith

theorem ph_frac {E : StarEnv D} {Q : ℕ} (hf : ∀ A ∈ E.group, ∀ i, ∃ z : ℤ, A.t i * Q = z) (v : Fin D → Int) {A : Sym D}
    (hA : A ∈ E.group) : ∃ z : ℤ, ph v A * Q = z := by
  choose z hz using hf A hA
  obtain ⟨n, hn⟩ := Stars.ph_cong v A
  refine ⟨n * Q + ∑ i, v i * z i, ?_⟩
  have e : ph v A = Stars.dot v A.t + n := by linarith
  rw [e, add_mul]
  push_cast
  rw [add_comm]
  congr 1
  unfold Stars.dot
  rw [Finset.sum_mul]
  exact Finset.sum_congr rfl fun i _ => by rw [mul_assoc, hz]

theorem frac_big {Q : ℕ} (h0 : 0 < Q) (hQ : Q ≤ 100000) {x : ℚ} {z : ℤ} (h : x * Q = z) (hx : x ≠ 0) :
    1 / 100000 ≤ |x| := by
  have hq : (0 : ℚ) < Q := by exact_mod_cast h0
  have hz : z ≠ 0 := by
    rintro rfl
    have : x * (Q : ℚ) = 0 := by simpa using h
    rcases mul_eq_zero.1 this with h | h
    · exact hx h
    · exact hq.ne' h
  have h1 : (1 : ℚ) ≤ |x| * Q := by
    rw [← abs_of_pos hq, ← abs_mul, h]
    exact_mod_cast Int.one_le_abs hz
  have h2 : (Q : ℚ) ≤ 100000 := by exact_mod_cast hQ
  have h3 := abs_nonneg x
  rw [div_le_iff₀ (by norm_num)]
  nlinarith

theorem Resolved.phase {E : StarEnv D} (R : Resolved E) (v : Fin D → Int) : ∀ A ∈ E.group, ph v A ≠ 0 →
    E.tol < |ph v A * E.tw| := by
  intro A hA h
  obtain ⟨Q, h0, hQ, hf⟩ := R.frac
  obtain ⟨z, hz⟩ := ph_frac hf v hA
  have h1 := frac_big h0 hQ hz h
  rw [abs_mul, abs_of_pos (by linarith [R.tw] : 0 < E.tw)]
  have := R.tol.2
  have := R.tw
  nlinarith

theorem Resolved.coeff {E : StarEnv D} (R : Resolved E) {root : TWave D} {st : Stars.StarState D}
    (h : Stars.buildStar E root = .ok st) {w w' : TWave D} (hw : w ∈ st.star) (hw' : w' ∈ st.star) :
    ex w.phase / ex w'.phase = 1 ∨ 1e-6 < ‖ex w.phase / ex w'.phase - 1‖ := by
  obtain ⟨Q, h0, hQ, hf⟩ := R.frac
  have I := Stars.buildStar_inv R.tol.1 h
  obtain ⟨A, hA, -, e, -⟩ := I.src w hw
  obtain ⟨A', hA', -, e', -⟩ := I.src w' hw'
  obtain ⟨z, hz⟩ := ph_frac hf root.bz hA
  obtain ⟨z', hz'⟩ := ph_frac hf root.bz hA'
  have e1 : ex w.phase / ex w'.phase = ex (Stars.reduce (w.phase - w'.phase)) := by
    rw [Stars.ex_cong (Stars.reduce_spec _).1, div_eq_iff (Stars.ex_ne_zero _), ← Stars.ex_add]
    congr 1; ring
  rw [e1]
  obtain ⟨⟨n, hn⟩, b1, b2⟩ := Stars.reduce_spec (w.phase - w'.phase)
  set y := Stars.reduce (w.phase - w'.phase) with hy
  by_cases h1 : y = 0
  · left; rw [h1, Stars.ex_zero]
  · right
    have h2 : ∃ z : ℤ, y * Q = z := by
      refine ⟨z - z' + n * Q, ?_⟩
      have e2 : y = w.phase - w'.phase + n := by linarith
      rw [e2, e, e']
      push_cast
      rw [← hz, ← hz']
      ring
    obtain ⟨z2, hz2⟩ := h2
    have h3 := frac_big h0 hQ hz2 h1
    have h4 := norm_ex_sub_one y b1 b2
    have h5 := (Rat.cast_le (K := ℝ)).2 h3
    rw [Rat.cast_abs] at h5
    push_cast at h5
    norm_num at h5 ⊢
    linarith

/-! ## Coefficients -/

/-- Coefficients of one star. -/
structure Coefs (E : StarEnv D) (s : StarRec D) (cs : List (TWave D × ℂ)) : Prop where
  fst : cs.map Prod.fst = sortBz s.waves
  ne : cs ≠ []
  root : s.root.dft = sh E.dims s.root.bz
  built : Stars.buildStar E s.root = .ok ⟨s.waves, s.cancel⟩
  zero : s.cancel = true → ∀ c ∈ cs, c.2 = 0
  kappa : s.cancel = false → ∃ κ : ℂ, κ ≠ 0 ∧ ∀ c ∈ cs, c.2 = ex c.1.phase * κ
  norm : s.cancel = false → (cs.map fun c => Complex.normSq c.2).sum = 1

/-- Coefficients of all stars: those of a closed star, and of a pair of stars, are related by
complex conjugation. -/
inductive Phased (E : StarEnv D) : List (StarRec D × List (TWave D × ℂ)) → Prop
  | nil : Phased E []
  | closed (s cs l) : s.invertFlag = 0 → Coefs E s cs → (∃ w ∈ s.waves, w.dft = negSh E.dims s.root.bz) →
      (s.cancel = false → ∀ v, (starRingEnd ℂ) (Stars.look E.dims cs fun i => - v i) = Stars.look E.dims cs v) →
      Phased E l → Phased E ((s, cs) :: l)
  | pair (s cs u cs2 l) : s.invertFlag = 1 → u.invertFlag = -1 → Coefs E s cs → Coefs E u cs2 →
      u.cancel = s.cancel → u.root.dft = negSh E.dims s.root.bz →
      (s.cancel = false → ∀ v, (starRingEnd ℂ) (Stars.look E.dims cs2 fun i => - v i) = Stars.look E.dims cs v) →
      Phased E l → Phased E ((s, cs) :: (u, cs2) :: l)

theorem sortBz_perm (l : List (TWave D)) : (sortBz l).Perm l := List.mergeSort_perm _ _

theorem closed_form {csqrt : ℂ → ℂ} (hsqrt : ∀ z, csqrt z * csqrt z = z) {d : Fin D → Int} {waves : List (TWave D)}
    {cancel : Bool} {cs : List (TWave D × ℂ)} (h : Stars.closedCoefs csqrt d waves cancel = .ok cs) :
    waves ≠ [] ∧ cs.map Prod.fst = waves ∧ (cancel = true → ∀ c ∈ cs, c.2 = 0) ∧
    (cancel = false → ∃ κ : ℂ, κ ≠ 0 ∧ ∀ c ∈ cs, c.2 = ex c.1.phase * κ) := by
  cases waves with
  | nil => simp [Stars.closedCoefs] at h
  | cons w0 tl =>
    simp only [Stars.closedCoefs] at h
    cases hf : (w0 :: tl).find? (fun w => decide (w.dft = negSh d w0.bz)) with
    | none => rw [hf] at h; simp at h
    | some p =>
      rw [hf] at h
      simp only at h
      have hs0 : (((1 / Real.sqrt (w0 :: tl).length : ℝ)) : ℂ) ≠ 0 := by
        rw [Complex.ofReal_ne_zero]
        have : 0 < (w0 :: tl).length := by simp
        positivity
      refine ⟨by simp, ?_⟩
      split at h
      · rename_i hc
        cases h
        exact ⟨by simp [Function.comp_def], fun _ c hc => by
          obtain ⟨w, -, rfl⟩ := List.mem_map.1 hc; rfl, fun h0 => absurd hc (by simp [h0])⟩
      · rename_i hc
        split at h
        · cases h
          refine ⟨by simp [Function.comp_def], fun h0 => absurd h0 hc, fun _ => ?_⟩
          set s := Stars.pickSign (csqrt (ex p.phase / ex w0.phase)) with hs
          have hs2 : s * s = ex p.phase / ex w0.phase := by rw [hs, Stars.pickSign_sq, hsqrt]
          have hsne : s ≠ 0 := by
            intro h0
            rw [h0, mul_zero] at hs2
            exact div_ne_zero (Stars.ex_ne_zero _) (Stars.ex_ne_zero _) hs2.symm
          refine ⟨(ex w0.phase)⁻¹ * s⁻¹ * ((1 / Real.sqrt (w0 :: tl).length : ℝ) : ℂ),
            mul_ne_zero (mul_ne_zero (inv_ne_zero (Stars.ex_ne_zero _)) (inv_ne_zero hsne)) hs0, fun c hc => ?_⟩
          obtain ⟨w, -, rfl⟩ := List.mem_map.1 hc
          simp only [div_eq_mul_inv]
          ring
        · cases h
          refine ⟨by simp [Function.comp_def], fun h0 => absurd h0 hc, fun _ => ?_⟩
          refine ⟨(ex w0.phase)⁻¹ * ((1 / Real.sqrt (w0 :: tl).length : ℝ) : ℂ),
            mul_ne_zero (inv_ne_zero (Stars.ex_ne_zero _)) hs0, fun c hc => ?_⟩
          obtain ⟨w, -, rfl⟩ := List.mem_map.1 hc
          simp only [div_eq_mul_inv]
          ring

theorem open_form {d : Fin D → Int} {waves waves2 : List (TWave D)}
    {cancel cancel2 : Bool} {cs cs2 : List (TWave D × ℂ)}
    (h : Stars.openCoefs d waves waves2 cancel cancel2 = .ok (cs, cs2)) :
    waves ≠ [] ∧ waves2.length = waves.length ∧ cancel2 = cancel ∧ cs.map Prod.fst = waves ∧ cs2.map Prod.fst = waves2 ∧
    (cancel = true → (∀ c ∈ cs, c.2 = 0) ∧ ∀ c ∈ cs2, c.2 = 0) ∧
    (cancel = false → (∃ κ : ℂ, κ ≠ 0 ∧ ∀ c ∈ cs, c.2 = ex c.1.phase * κ) ∧
      ∃ κ : ℂ, κ ≠ 0 ∧ ∀ c ∈ cs2, c.2 = ex c.1.phase * κ) := by
  unfold Stars.openCoefs at h
  split at h
  · cases h
  rename_i hlen
  push Not at hlen
  split at h
  · cases h
  rename_i hcc
  push Not at hcc
  cases waves with
  | nil => simp at h
  | cons w0 tl =>
    simp only at h
    cases hf : waves2.find? (fun w => decide (w.dft = negSh d w0.bz)) with
    | none => rw [hf] at h; simp at h
    | some p =>
      rw [hf] at h
      simp only at h
      refine ⟨by simp, hlen.symm, hcc.symm, ?_⟩
      have hs : ∀ l : List (TWave D), 0 < l.length → (((1 / Real.sqrt l.length : ℝ)) : ℂ) ≠ 0 := by
        intro l hl
        rw [Complex.ofReal_ne_zero]
        positivity
      have h1 : 0 < (w0 :: tl).length := by simp
      split at h
      · rename_i hc
        cases h
        exact ⟨by simp [Function.comp_def], by simp [Function.comp_def], fun _ => ⟨fun c hc => by
          obtain ⟨w, -, rfl⟩ := List.mem_map.1 hc; rfl, fun c hc => by
          obtain ⟨w, -, rfl⟩ := List.mem_map.1 hc; rfl⟩, fun h0 => absurd hc (by simp [h0])⟩
      · rename_i hc
        cases h
        refine ⟨by simp [Function.comp_def], by simp [Function.comp_def], fun h0 => absurd h0 hc, fun _ => ⟨?_, ?_⟩⟩
        · refine ⟨(ex w0.phase)⁻¹ * ((1 / Real.sqrt (w0 :: tl).length : ℝ) : ℂ),
            mul_ne_zero (inv_ne_zero (Stars.ex_ne_zero _)) (hs _ h1), fun c hc => ?_⟩
          obtain ⟨w, -, rfl⟩ := List.mem_map.1 hc
          simp only [div_eq_mul_inv]
          ring
        · refine ⟨(ex p.phase)⁻¹ * ((1 / Real.sqrt waves2.length : ℝ) : ℂ),
            mul_ne_zero (inv_ne_zero (Stars.ex_ne_zero _)) (hs _ (hlen ▸ h1)), fun c hc => ?_⟩
          obtain ⟨w, -, rfl⟩ := List.mem_map.1 hc
          simp only [div_eq_mul_inv]
          ring

theorem phases_spec {E : StarEnv D} {csqrt : ℂ → ℂ} (hsqrt : ∀ z, csqrt z * csqrt z = z)
    (G : GroupOn E.dims E.group) (R : Resolved E) (hmin : ∀ v, sh E.dims (E.minIm v) = sh E.dims v)
    {recs : List (StarRec D)} (hp : Stars.Paired E.dims recs)
    (hroot : ∀ s ∈ recs, s.root.dft = sh E.dims s.root.bz)
    (hb : ∀ s ∈ recs, Stars.buildStar E s.root = .ok ⟨s.waves, s.cancel⟩) :
    ∀ L, phases csqrt E.dims recs = .ok L → Phased E L ∧ L.map Prod.fst = recs := by
  induction hp with
  | nil =>
    intro L h
    simp only [phases, Res.ok.injEq] at h
    subst h
    exact ⟨.nil, rfl⟩
  | closed s l h0 hcl hp ih =>
    intro L h
    rw [phases.eq_def] at h
    simp only [if_pos h0] at h
    simp only [Res.bind_eq_ok] at h
    obtain ⟨cs, hcs, r, hr, e⟩ := h
    simp only [Res.pure_eq, Res.ok.injEq] at e
    subst e
    obtain ⟨i1, i2⟩ := ih (fun s hs => hroot s (by simp [hs])) (fun s hs => hb s (by simp [hs])) r hr
    have hrs := hroot s (by simp)
    have hbs := hb s (by simp)
    obtain ⟨f1, f2, f3, f4⟩ := closed_form hsqrt hcs
    have key := fun hc : s.cancel = false => Stars.C76_closed_star_normalised csqrt hsqrt G R.tol.1 hrs hmin
      (R.phase _) hbs hc hcl (sortBz_perm s.waves) hcs
    refine ⟨.closed s cs r h0 ⟨f2, ?_, hrs, hbs, f3, f4, fun hc => (key hc).2.2.1⟩ hcl ?_ i1, by simp [i2]⟩
    · rintro rfl; exact f1 (by simpa using f2.symm)
    · intro hc v
      refine (key hc).2.2.2.2 (fun w hw w' hw' => R.coeff hbs ?_ ?_) v
      · exact (sortBz_perm _).mem_iff.1 hw
      · exact (sortBz_perm _).mem_iff.1 hw'
  | pair s u l h0 h1 hop hinv hp ih =>
    intro L h
    rw [phases.eq_def] at h
    simp only [h0, one_ne_zero, if_false] at h
    simp only [Res.bind_eq_ok] at h
    obtain ⟨⟨cs, cs2⟩, hcs, r, hr, e⟩ := h
    simp only [Res.pure_eq, Res.ok.injEq] at e
    subst e
    obtain ⟨i1, i2⟩ := ih (fun s hs => hroot s (by simp [hs])) (fun s hs => hb s (by simp [hs])) r hr
    have hrs := hroot s (by simp)
    have hbs := hb s (by simp)
    have hru := hroot u (by simp)
    have hbu := hb u (by simp)
    obtain ⟨f1, f2, f3, f4, f5, f6, f7⟩ := open_form hcs
    have key := fun hc : s.cancel = false => Stars.C76_open_pair_normalised G R.tol.1 hrs hru hmin
      (fun r _ => R.phase r.bz) hbs hbu hc hinv (sortBz_perm s.waves) (sortBz_perm u.waves) hcs
    have hne : sortBz u.waves ≠ [] := by
      intro h
      rw [h] at f2
      exact f1 (List.length_eq_zero_iff.1 f2.symm)
    refine ⟨.pair s cs u cs2 r h0 h1 ⟨f4, ?_, hrs, hbs, fun hc => (f6 hc).1, fun hc => (f7 hc).1,
      fun hc => (key hc).2.2.2.2.1⟩ ⟨f5, ?_, hru, hbu, fun hc => (f6 (f3 ▸ hc)).2, fun hc => (f7 (f3 ▸ hc)).2,
      fun hc => (key (f3 ▸ hc)).2.2.2.2.2.1⟩ f3 hinv ?_ i1, by simp [i2]⟩
    · rintro rfl; exact f1 (by simpa using f4.symm)
    · rintro rfl; exact hne (by simpa using f5.symm)
    · intro hc v
      rw [(key hc).2.2.2.2.2.2 v, Complex.conj_conj]

/-! ## Arrays -/

/-- `flat` with indices that begin at `n`. -/
def flatFrom (n : Nat) (L : List (StarRec D × List (TWave D × ℂ))) : List (Nat × StarRec D × TWave D × ℂ) :=
  (L.zipIdx n).flatMap fun p => p.1.2.map fun c => (p.2, p.1.1, c)

theorem flatFrom_cons (n : Nat) (p : StarRec D × List (TWave D × ℂ)) (L : List (StarRec D × List (TWave D × ℂ))) :
    flatFrom n (p :: L) = (p.2.map fun c => (n, p.1, c)) ++ flatFrom (n + 1) L := by
  simp [flatFrom, List.zipIdx_cons]

theorem mem_flat {L : List (StarRec D × List (TWave D × ℂ))} {x : Nat × StarRec D × TWave D × ℂ} :
    x ∈ flat L ↔ ∃ cs, L[x.1]? = some (x.2.1, cs) ∧ x.2.2 ∈ cs := by
  unfold flat
  rw [List.mem_flatMap]
  constructor
  · rintro ⟨⟨⟨s, cs⟩, k⟩, hp, hx⟩
    rw [List.mem_map] at hx
    obtain ⟨c, hc, rfl⟩ := hx
    exact ⟨cs, (List.mem_zipIdx_iff_getElem?).1 hp, hc⟩
  · rintro ⟨cs, h1, h2⟩
    refine ⟨((x.2.1, cs), x.1), (List.mem_zipIdx_iff_getElem?).2 h1, ?_⟩
    exact List.mem_map.2 ⟨x.2.2, h2, rfl⟩

theorem flatFrom_ge (n : Nat) (L : List (StarRec D × List (TWave D × ℂ))) : ∀ x ∈ flatFrom n L, n ≤ x.1 := by
  intro x hx
  unfold flatFrom at hx
  rw [List.mem_flatMap] at hx
  obtain ⟨p, hp, hx⟩ := hx
  obtain ⟨c, -, rfl⟩ := List.mem_map.1 hx
  exact List.le_snd_of_mem_zipIdx hp

theorem flat_sum (f : TWave D × ℂ → ℝ) (k : Nat) : ∀ (L : List (StarRec D × List (TWave D × ℂ))) (n : Nat), n ≤ k →
    ((flatFrom n L).map fun x => if x.1 = k then f x.2.2 else 0).sum =
      ((L[k - n]?).map fun p => (p.2.map f).sum).getD 0 := by
  intro L
  induction L with
  | nil => intro n _; simp [flatFrom]
  | cons p L ih =>
    intro n hn
    rw [flatFrom_cons, List.map_append, List.sum_append, List.map_map]
    by_cases h : n = k
    · subst h
      have h1 : ((flatFrom (n + 1) L).map fun x => if x.1 = n then f x.2.2 else 0).sum = 0 := by
        apply List.sum_eq_zero
        intro y hy
        obtain ⟨x, hx, rfl⟩ := List.mem_map.1 hy
        have := flatFrom_ge _ _ x hx
        rw [if_neg (by omega)]
      rw [h1]
      simp [Function.comp_def]
    · have e : k - n = (k - (n + 1)) + 1 := by omega
      rw [e, List.getElem?_cons_succ, ← ih (n + 1) (by omega)]
      simp [Function.comp_def, h]

theorem mkStars_get (d : Fin D → Int) (k : Nat) : ∀ (L : List (StarRec D × List (TWave D × ℂ))) (b : Nat)
    (prev : Option (TWave D)) (s : Star), (mkStars d b prev L)[k]? = some s → ∃ p, L[k]? = some p ∧
      s.size = p.2.length ∧ s.invertFlag = p.1.invertFlag ∧ s.cancel = p.1.cancel := by
  induction k with
  | zero =>
    intro L b prev s h
    cases L with
    | nil => simp [mkStars] at h
    | cons x L =>
      simp only [mkStars, List.getElem?_cons_zero, Option.some.injEq] at h
      subst h
      exact ⟨x, rfl, rfl, rfl, rfl⟩
  | succ k ih =>
    intro L b prev s h
    cases L with
    | nil => simp [mkStars] at h
    | cons x L =>
      simp only [mkStars, List.getElem?_cons_succ] at h
      exact ih L _ _ s h

/-! ## Effect of the last loops -/

theorem setImplicit_get {m : Mesh.Mesh} {dims : Mesh.IntVec} : ∀ (ws : List (Wave ℝ)) (i : Nat) (ids : List Nat)
    (r : List (Wave ℝ) × List Nat), Basis.setImplicit m dims i ws ids = .ok r →
    r.1 = ws.map fun w => { w with implicit := Basis.isImplicit dims w.dft } := by
  intro ws
  induction ws with
  | nil =>
    intro i ids r h
    simp only [Basis.setImplicit, Res.ok.injEq] at h
    rw [← h]; rfl
  | cons w ws ih =>
    intro i ids r h
    simp only [Basis.setImplicit, Res.bind_eq_ok] at h
    obtain ⟨_, _, ids1, _, x, h3, h4⟩ := h
    simp only [Res.pure_eq, Res.ok.injEq] at h4
    rw [← h4]
    simp [ih _ _ _ h3]

theorem setBasisIds_get (k : Nat) : ∀ (ss : List Star) (i j : Nat) (s : Star),
    (Basis.setBasisIds i j ss).1[k]? = some s → ∃ s0, ss[k]? = some s0 ∧ s.size = s0.size ∧
      s.invertFlag = s0.invertFlag ∧ s.cancel = s0.cancel := by
  induction k with
  | zero =>
    intro ss i j s h
    cases ss with
    | nil => simp [Basis.setBasisIds] at h
    | cons a ss =>
      refine ⟨a, rfl, ?_⟩
      simp only [Basis.setBasisIds] at h
      split at h <;> · simp at h; subst h; exact ⟨rfl, rfl, rfl⟩
  | succ k ih =>
    intro ss i j s h
    cases ss with
    | nil => simp [Basis.setBasisIds] at h
    | cons a ss =>
      simp only [Basis.setBasisIds] at h
      split at h <;> · simp only [List.getElem?_cons_succ] at h; exact ih _ _ _ _ h

theorem finish_fields {c : Cell ℝ} {eps : ℝ} {b0 b : BasisData ℝ} (h : Basis.finish c eps b0 = .ok b) :
    b.dims = b0.dims ∧ b.waves = (b0.waves.map fun w => { w with implicit := Basis.isImplicit b0.dims w.dft }) ∧
    b.stars = (Basis.setBasisIds 0 0 b0.stars).1 ∧ b.nBasis = b0.nBasis := by
  unfold Basis.finish at h
  simp only [Res.bind_eq_ok] at h
  obtain ⟨m0, -, x, hx, _, -, r, -, _, -, h⟩ := h
  simp only [Res.pure_eq, Res.ok.injEq] at h
  subst h
  exact ⟨rfl, setImplicit_get _ _ _ _ hx, rfl, rfl⟩

/-- What the arrays of a basis built from `L` are. -/
structure Arrays (E : StarEnv D) (L : List (StarRec D × List (TWave D × ℂ))) (b : BasisData ℝ) : Prop where
  dims : b.dims = List.ofFn E.dims
  len : b.waves.length = (flat L).length
  wave : ∀ (i : Nat) w, b.waves[i]? = some w → ∃ x, (flat L)[i]? = some x ∧
    w = { toWave E (flat L) x with implicit := Basis.isImplicit b.dims (List.ofFn x.2.2.1.dft) }
  wave' : ∀ (i : Nat) x, (flat L)[i]? = some x → 
    b.waves[i]? = some { toWave E (flat L) x with implicit := Basis.isImplicit b.dims (List.ofFn x.2.2.1.dft) }
  star : ∀ (k : Nat) s, b.stars[k]? = some s → ∃ p, L[k]? = some p ∧ s.size = p.2.length ∧
    s.invertFlag = p.1.invertFlag ∧ s.cancel = p.1.cancel

theorem arrays_of_finish {E : StarEnv D} {L : List (StarRec D × List (TWave D × ℂ))} {c : Cell ℝ} {eps : ℝ}
    {b : BasisData ℝ} (h : Basis.finish c eps (assemble E L) = .ok b) : Arrays E L b := by
  obtain ⟨h1, h2, h3, h4⟩ := finish_fields h
  have e : ∀ i : Nat, b.waves[i]? = ((flat L)[i]?).map fun x =>
      { toWave E (flat L) x with implicit := Basis.isImplicit b.dims (List.ofFn x.2.2.1.dft) } := by
    intro i
    rw [h2, h1]
    simp [assemble, toWave, Function.comp_def]
  refine ⟨h1, by rw [h2]; simp [assemble], ?_, ?_, ?_⟩
  · intro i w hw
    rw [e, Option.map_eq_some_iff] at hw
    obtain ⟨x, hx, rfl⟩ := hw
    exact ⟨x, hx, rfl⟩
  · intro i x hx
    rw [e, hx]; rfl
  · intro k s hs
    rw [h3] at hs
    obtain ⟨s0, h5, h6, h7, h8⟩ := setBasisIds_get k _ _ _ _ hs
    obtain ⟨p, h9, h10, h11, h12⟩ := mkStars_get _ _ _ _ _ _ h5
    exact ⟨p, h9, by rw [h6, h10], by rw [h7, h11], by rw [h8, h12]⟩

theorem Phased.coefs {E : StarEnv D} {L : List (StarRec D × List (TWave D × ℂ))} (h : Phased E L) :
    ∀ p ∈ L, Coefs E p.1 p.2 := by
  induction h with
  | nil => simp
  | closed s cs l h0 hc _ _ _ ih =>
    intro p hp
    rcases List.mem_cons.1 hp with rfl | hp
    · exact hc
    · exact ih p hp
  | pair s cs u cs2 l h0 h1 hc hc2 _ _ _ _ ih =>
    intro p hp
    rcases List.mem_cons.1 hp with rfl | hp
    · exact hc
    · rcases List.mem_cons.1 hp with rfl | hp
      · exact hc2
      · exact ih p hp

theorem Phased.conj {E : StarEnv D} {L : List (StarRec D × List (TWave D × ℂ))} (h : Phased E L) :
    ∀ (k : Nat) s cs, L[k]? = some (s, cs) →
      (s.invertFlag = 0 → s.cancel = false →
        ∀ v, (starRingEnd ℂ) (Stars.look E.dims cs fun i => - v i) = Stars.look E.dims cs v) ∧
      (s.invertFlag = 1 → ∃ u cs2, L[k + 1]? = some (u, cs2) ∧ u.invertFlag = -1 ∧ u.cancel = s.cancel ∧
        (s.cancel = false →
        ∀ v, (starRingEnd ℂ) (Stars.look E.dims cs2 fun i => - v i) = Stars.look E.dims cs v)) := by
  induction h with
  | nil => simp
  | closed s cs l h0 hc _ hx _ ih =>
    intro k s' cs' hk
    cases k with
    | zero =>
      simp only [List.getElem?_cons_zero, Option.some.injEq, Prod.mk.injEq] at hk
      obtain ⟨rfl, rfl⟩ := hk
      exact ⟨fun _ => hx, fun h => by rw [h0] at h; cases h⟩
    | succ k => exact ih k s' cs' (by simpa using hk)
  | pair s cs u cs2 l h0 h1 hc hc2 hcc _ hx _ ih =>
    intro k s' cs' hk
    cases k with
    | zero =>
      simp only [List.getElem?_cons_zero, Option.some.injEq, Prod.mk.injEq] at hk
      obtain ⟨rfl, rfl⟩ := hk
      exact ⟨fun h => by (rw [h0] at h; cases h), fun _ => ⟨u, cs2, rfl, h1, hcc, hx⟩⟩
    | succ k =>
      cases k with
      | zero =>
        simp only [List.getElem?_cons_succ, List.getElem?_cons_zero, Option.some.injEq, Prod.mk.injEq] at hk
        obtain ⟨rfl, rfl⟩ := hk
        refine ⟨fun h => ?_, fun h => ?_⟩ <;> · rw [h1] at h; cases h
      | succ k => exact ih k s' cs' (by simpa using hk)

theorem look_mem {d : Fin D → Int} {cs : List (TWave D × ℂ)} (hn : (cs.map fun c => c.1.dft).Nodup) {c : TWave D × ℂ}
    (hc : c ∈ cs) {v : Fin D → Int} (h : c.1.dft = sh d v) : Stars.look d cs v = c.2 := by
  unfold Stars.look
  cases hf : cs.find? (fun c => decide (c.1.dft = sh d v)) with
  | none =>
    rw [List.find?_eq_none] at hf
    exact absurd h (by simpa using hf c hc)
  | some u =>
    have hu := List.mem_of_find?_eq_some hf
    have he : u.1.dft = sh d v := by simpa using List.find?_some hf
    rw [List.inj_on_of_nodup_map hn hu hc (he.trans h.symm)]

theorem Coefs.nodup {E : StarEnv D} {s : StarRec D} {cs : List (TWave D × ℂ)} (htol : 0 ≤ E.tol) (h : Coefs E s cs) :
    (cs.map fun c => c.1.dft).Nodup := by
  have e : (cs.map fun c => c.1.dft) = (cs.map Prod.fst).map TWave.dft := by simp [Function.comp_def]
  rw [e, h.fst, ((sortBz_perm s.waves).map TWave.dft).nodup_iff]
  exact (Stars.buildStar_inv htol h.built).nodup

theorem Coefs.mem {E : StarEnv D} {s : StarRec D} {cs : List (TWave D × ℂ)} (h : Coefs E s cs) {c : TWave D × ℂ}
    (hc : c ∈ cs) : c.1 ∈ s.waves := by
  rw [← (sortBz_perm s.waves).mem_iff, ← h.fst]
  exact List.mem_map_of_mem hc

theorem Coefs.dft {E : StarEnv D} {s : StarRec D} {cs : List (TWave D × ℂ)} (htol : 0 ≤ E.tol) (h : Coefs E s cs)
    (hmin : ∀ v, sh E.dims (E.minIm v) = sh E.dims v) {c : TWave D × ℂ} (hc : c ∈ cs) :
    c.1.dft = sh E.dims c.1.bz := by
  obtain ⟨A, -, e, -, e3⟩ := (Stars.buildStar_inv htol h.built).src _ (h.mem hc)
  rw [e3, hmin, e]

theorem inverseIdx_eq {d : Fin D → Int} {F : List (Nat × StarRec D × TWave D × ℂ)} {bz : Fin D → Int} {j : Nat}
    (h : inverseIdx d F bz = j) : ∃ x, F[j]? = some x ∧ x.2.2.1.dft = negSh d bz := by
  unfold inverseIdx at h
  split at h
  · omega
  · rename_i i hi
    have : i = j := by exact_mod_cast h
    subst this
    rw [List.findIdx?_eq_some_iff_getElem] at hi
    obtain ⟨h1, h2, -⟩ := hi
    exact ⟨F[i], List.getElem?_eq_getElem h1, by simpa using h2⟩

/-! ## Exact relations of coefficients -/

theorem valid_exact {c : Cell ℝ} {eps : ℝ} {b : BasisData ℝ} (V : Basis.Valid c eps b)
    (h0 : ∀ (k : Nat) s, b.stars[k]? = some s → s.invertFlag = 0 → s.cancel = false →
      ∀ (i : Nat) w, b.waves[i]? = some w → w.starId = k → ∀ (j : Nat) w', w.inverseId = j →
        b.waves[j]? = some w' → w'.starId = k → Cx.conj w'.coeff = w.coeff)
    (h1 : ∀ (k : Nat) s, b.stars[k]? = some s → s.invertFlag = 1 → s.cancel = false →
      ∀ (i : Nat) w, b.waves[i]? = some w → w.starId = k → ∀ (j : Nat) w', w.inverseId = j →
        b.waves[j]? = some w' → w'.starId = k + 1 → Cx.conj w'.coeff = w.coeff) : Basis.Valid c 0 b where
  mesh := V.mesh
  count := V.count
  dftRange := V.dftRange
  dftInj := V.dftInj
  dftSurj := V.dftSurj
  bzImage := V.bzImage
  first := V.first
  consec := V.consec
  last := V.last
  sizes := V.sizes
  waveStar := V.waveStar
  starWave := V.starWave
  order := V.order
  inverse := V.inverse
  implicit := V.implicit
  paired := V.paired
  closedInv := fun k s hs hf i w hw hk j w' hj hw' => by
    have e := (V.closedInv k s hs hf i w hw hk j w' hj hw').1
    refine ⟨e, fun hc => ?_⟩
    rw [h0 k s hs hf hc i w hw hk j w' hj hw' e]
    simp [Cx.normSq]
  openInv := fun k s hs hf i w hw hk j w' hj hw' => by
    have e := (V.openInv k s hs hf i w hw hk j w' hj hw').1
    refine ⟨e, fun hc => ?_⟩
    rw [h1 k s hs hf hc i w hw hk j w' hj hw' e]
    simp [Cx.normSq]
  waveBz := V.waveBz
  waveBzNeg := V.waveBzNeg
  starId := V.starId
  basisId := V.basisId
  starIds := V.starIds
  nBasis := V.nBasis

theorem exact_of_arrays {E : StarEnv D} {L : List (StarRec D × List (TWave D × ℂ))} {c : Cell ℝ} {eps : ℝ}
    {b : BasisData ℝ} (htol : 0 ≤ E.tol) (hmin : ∀ v, sh E.dims (E.minIm v) = sh E.dims v) (V : Basis.Valid c eps b)
    (A : Arrays E L b) (P : Phased E L) : Basis.Valid c 0 b := by
  have key : ∀ (k k' : Nat) s cs s' cs', L[k]? = some (s, cs) → L[k']? = some (s', cs') →
      (∀ v, (starRingEnd ℂ) (Stars.look E.dims cs' fun i => - v i) = Stars.look E.dims cs v) →
      ∀ (i : Nat) w, b.waves[i]? = some w → w.starId = k → ∀ (j : Nat) w', w.inverseId = j →
        b.waves[j]? = some w' → w'.starId = k' → Cx.conj w'.coeff = w.coeff := by
    intro k k' s cs s' cs' hk hk' hl i w hw hi j w' hj hw' hi'
    obtain ⟨x, hx, rfl⟩ := A.wave i w hw
    obtain ⟨x', hx', rfl⟩ := A.wave j w' hw'
    obtain ⟨y, hy, ey⟩ := inverseIdx_eq hj
    rw [hx'] at hy
    cases hy
    obtain ⟨cx, h1, h2⟩ := mem_flat.1 (List.mem_of_getElem? hx)
    obtain ⟨cx', h1', h2'⟩ := mem_flat.1 (List.mem_of_getElem? hx')
    have e1 : x.1 = k := hi
    have e1' : x'.1 = k' := hi'
    rw [e1, hk] at h1
    rw [e1', hk'] at h1'
    simp only [Option.some.injEq, Prod.mk.injEq] at h1 h1'
    obtain ⟨-, rfl⟩ := h1
    obtain ⟨-, rfl⟩ := h1'
    have C := P.coefs _ (List.mem_of_getElem? hk)
    have C' := P.coefs _ (List.mem_of_getElem? hk')
    have h3 := hl x.2.2.1.bz
    rw [look_mem (C'.nodup htol) h2' ey, look_mem (C.nodup htol) h2 (C.dft htol hmin h2)] at h3
    have r1 := congrArg Complex.re h3
    have r2 := congrArg Complex.im h3
    simp only [Complex.conj_re, Complex.conj_im] at r1 r2
    show Cx.conj (⟨x'.2.2.2.re, x'.2.2.2.im⟩ : Cx ℝ) = ⟨x.2.2.2.re, x.2.2.2.im⟩
    ext
    · exact r1
    · exact r2
  refine valid_exact V ?_ ?_
  · intro k s hs hf hc i w hw hk j w' hj hw' e
    obtain ⟨⟨r, cs⟩, h1, -, h2, h3⟩ := A.star k s hs
    exact key k k r cs r cs h1 h1 ((P.conj k r cs h1).1 (h2 ▸ hf) (h3 ▸ hc)) i w hw hk j w' hj hw' e
  · intro k s hs hf hc i w hw hk j w' hj hw' e
    obtain ⟨⟨r, cs⟩, h1, -, h2, h3⟩ := A.star k s hs
    obtain ⟨u, cs2, h4, -, -, h5⟩ := (P.conj k r cs h1).2 (h2 ▸ hf)
    exact key k (k + 1) r cs u cs2 h1 h4 (h5 (h3 ▸ hc)) i w hw hk j w' hj hw' e

/-! ## Normalisation -/

theorem normalised_of_arrays {E : StarEnv D} {L : List (StarRec D × List (TWave D × ℂ))} {c : Cell ℝ} {eps : ℝ}
    {b : BasisData ℝ} (V : Basis.Valid c eps b)
    (A : Arrays E L b) (P : Phased E L) : Basis.Normalised b := by
  intro k s hs hc
  obtain ⟨⟨r, cs⟩, h1, h0, h2, h3⟩ := A.star k s hs
  have hpos : 0 < s.size := by
    rw [h0]
    exact List.length_pos_iff.2 (P.coefs _ (List.mem_of_getElem? h1)).ne
  have hn := (P.coefs _ (List.mem_of_getElem? h1)).norm (h3 ▸ hc)
  have hsum := flat_sum (fun c => Complex.normSq c.2) k L 0 (by omega)
  rw [Nat.sub_zero, h1] at hsum
  simp only [Option.map_some, Option.getD_some] at hsum
  rw [← hn, ← hsum]
  show _ = ((flat L).map _).sum
  have e1 : ((flat L).map fun x => if x.1 = k then Complex.normSq x.2.2.2 else 0).sum =
      ∑ i ∈ Finset.range (flat L).length, ((((flat L)[i]?).map fun x => if x.1 = k then Complex.normSq x.2.2.2 else 0).getD 0) := by
    rw [← List.sum_ofFn (n := (flat L).length) |>.trans (Fin.sum_univ_eq_sum_range _ _)]
    congr 1
    apply List.ext_getElem
    · simp
    · intro i a1 a2
      simp
  rw [e1]
  have hle : s.endId ≤ b.waves.length := by
    by_contra hlt
    have h5 := V.sizes s (List.mem_of_getElem? hs)
    obtain ⟨w, hw, -⟩ := V.starWave k s hs (s.endId - 1) (by omega) (by omega)
    have := (List.getElem?_eq_some_iff.1 hw).1
    omega
  rw [← A.len]
  refine Eq.trans ?_ (Finset.sum_subset (s₁ := Finset.Ico s.beginId s.endId) ?_ ?_)
  · refine Finset.sum_congr rfl fun i hi => ?_
    rw [Finset.mem_Ico] at hi
    obtain ⟨w, hw, e⟩ := V.starWave k s hs i hi.1 hi.2
    obtain ⟨x, hx, rfl⟩ := A.wave i w hw
    have e' : x.1 = k := e
    rw [hx]
    unfold Basis.coeffAt
    rw [hw]
    simp only [Option.map_some, Option.getD_some, e', if_true]
    simp [toWave, Cx.normSq, Complex.normSq_apply]
  · intro i hi
    rw [Finset.mem_Ico] at hi
    rw [Finset.mem_range]; omega
  · intro i hi hni
    rw [Finset.mem_range] at hi
    rw [Finset.mem_Ico] at hni
    obtain ⟨x, hx⟩ : ∃ x, (flat L)[i]? = some x := ⟨_, List.getElem?_eq_getElem (A.len ▸ hi)⟩
    rw [hx]
    simp only [Option.map_some, Option.getD_some]
    rw [if_neg]
    intro e
    obtain ⟨s', h6, h7, h8⟩ := V.waveStar i _ (A.wave' i x hx)
    have : b.stars[x.1]? = some s' := h6
    rw [e, hs] at this
    cases this
    exact hni ⟨h7, h8⟩

/-! ## Size of a star -/

theorem starFold_length {E : StarEnv D} {root : TWave D} : ∀ (l : List (Sym D)) (st st' : Stars.StarState D),
    Stars.starFold E root l st = .ok st' → st'.star.length ≤ st.star.length + l.length := by
  intro l
  induction l with
  | nil =>
    intro st st' h
    simp only [Stars.starFold, Res.ok.injEq] at h
    subst h; simp
  | cons A l ih =>
    intro st st' h
    simp only [Stars.starFold, Res.bind_eq_ok] at h
    obtain ⟨st1, h1, h2⟩ := h
    have := ih _ _ h2
    have h3 : st1.star.length ≤ st.star.length + 1 := by
      unfold Stars.starStep at h1
      simp only [Res.bind_eq_ok] at h1
      obtain ⟨_, -, h1⟩ := h1
      split at h1
      · simp only [Res.pure_eq, Res.ok.injEq] at h1
        subst h1; simp
      · split at h1 <;> · simp only [Res.pure_eq, Res.ok.injEq] at h1; subst h1; simp
    simp only [List.length_cons]
    omega

theorem Coefs.length_le {E : StarEnv D} {s : StarRec D} {cs : List (TWave D × ℂ)} (h : Coefs E s cs) :
    cs.length ≤ E.group.length := by
  have h1 := starFold_length _ _ _ h.built
  have h2 : cs.length = s.waves.length := by
    rw [← (sortBz_perm s.waves).length_eq, ← h.fst, List.length_map]
  simpa [h2] using h1

theorem Coefs.normSq {E : StarEnv D} {s : StarRec D} {cs : List (TWave D × ℂ)} (h : Coefs E s cs) (hc : s.cancel = false)
    {c : TWave D × ℂ} (hm : c ∈ cs) : Complex.normSq c.2 = 1 / cs.length := by
  obtain ⟨κ, h0, hκ⟩ := h.kappa hc
  have h1 : ∀ c ∈ cs, Complex.normSq c.2 = Complex.normSq κ := by
    intro c hm
    rw [hκ c hm, map_mul, Complex.normSq_eq_norm_sq, Stars.ex_norm]; simp
  have h2 := h.norm hc
  rw [List.map_congr_left h1, List.map_const', List.sum_replicate, nsmul_eq_mul] at h2
  have : (cs.length : ℝ) ≠ 0 := by
    intro h3
    rw [h3, zero_mul] at h2
    exact zero_ne_one h2
  rw [h1 c hm]
  field_simp
  linarith

theorem nondegenerate_of_arrays {E : StarEnv D} {L : List (StarRec D × List (TWave D × ℂ))}
    {b : BasisData ℝ} (A : Arrays E L b) (P : Phased E L) (hg : E.group.length < 10000000000000000) :
    Basis.Nondegenerate b where
  nonempty := by
    intro s hs
    obtain ⟨k, hk⟩ := List.mem_iff_getElem?.1 hs
    obtain ⟨p, h1, h2, -⟩ := A.star k s hk
    rw [h2]
    exact List.length_pos_iff.2 (P.coefs _ (List.mem_of_getElem? h1)).ne
  coeff := by
    intro i w s hw hs hc
    obtain ⟨x, hx, rfl⟩ := A.wave i w hw
    obtain ⟨⟨r, cs⟩, h1, -, h2, h3⟩ := A.star _ s hs
    obtain ⟨cx, h4, h5⟩ := mem_flat.1 (List.mem_of_getElem? hx)
    have e : L[x.1]? = some (r, cs) := h1
    rw [e] at h4
    simp only [Option.some.injEq, Prod.mk.injEq] at h4
    obtain ⟨-, rfl⟩ := h4
    have C := P.coefs _ (List.mem_of_getElem? h1)
    have h6 := C.normSq (h3 ▸ hc) h5
    have h7 := C.length_le
    have h8 : 0 < cs.length := List.length_pos_iff.2 C.ne
    have h9 : Cx.normSq (toWave E (flat L) x).coeff = Complex.normSq x.2.2.2 := by
      simp [toWave, Cx.normSq, Complex.normSq_apply]
    show _ < Cx.normSq (toWave E (flat L) x).coeff
    rw [h9, h6]
    have h10 : (0 : ℝ) < cs.length := by exact_mod_cast h8
    have h11 : (cs.length : ℝ) < 10000000000000000 := by exact_mod_cast (lt_of_le_of_lt h7 hg)
    exact one_div_lt_one_div_of_lt h10 h11

theorem fromStars_of_arrays {m : Nat} {E : StarEnv (m + 1)} {L : List (StarRec (m + 1) × List (TWave (m + 1) × ℂ))}
    {b : BasisData ℝ} (R : Resolved E) (A : Arrays E L b) (P : Phased E L) : Basis.FromStars E b where
  star := by
    intro k s hs
    obtain ⟨⟨r, cs⟩, h1, -, h2, h3⟩ := A.star k s hs
    have C := P.coefs _ (List.mem_of_getElem? h1)
    have hk : ∃ κ : ℂ, κ ≠ 0 ∧ (r.cancel = false → ∀ c ∈ cs, c.2 = ex c.1.phase * κ) := by
      cases hc : r.cancel with
      | true => exact ⟨1, one_ne_zero, fun h => by cases h⟩
      | false =>
        obtain ⟨κ, a1, a2⟩ := C.kappa hc
        exact ⟨κ, a1, fun _ => a2⟩
    obtain ⟨κ, hκ, hκ2⟩ := hk
    refine ⟨r.root, ⟨r.waves, r.cancel⟩, κ, C.root, R.phase _, C.built, h3.symm, hκ, ?_, ?_⟩
    · intro i w hw hi
      obtain ⟨x, hx, rfl⟩ := A.wave i w hw
      obtain ⟨cx, h4, h5⟩ := mem_flat.1 (List.mem_of_getElem? hx)
      have e : x.1 = k := hi
      rw [e, h1] at h4
      simp only [Option.some.injEq, Prod.mk.injEq] at h4
      obtain ⟨-, rfl⟩ := h4
      exact ⟨x.2.2.1, C.mem h5, rfl, fun hc => hκ2 (h3 ▸ hc) _ h5⟩
    · intro tw ht
      have h4 : tw ∈ cs.map Prod.fst := by rw [C.fst]; exact (sortBz_perm _).mem_iff.2 ht
      obtain ⟨c, hc, rfl⟩ := List.mem_map.1 h4
      obtain ⟨i, hi⟩ := List.mem_iff_getElem?.1 (mem_flat (x := (k, r, c)).2 ⟨cs, h1, hc⟩)
      exact ⟨i, _, A.wave' i _ hi, rfl, rfl⟩

end Verif.Make
