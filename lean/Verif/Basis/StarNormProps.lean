import Verif.Basis.StarNorm

/-!
# Coefficients of basis functions (C76, continued)
-/

namespace Verif.Stars
open Verif.Crystal

set_option linter.unusedSectionVars false
variable {D : Nat}
noncomputable section

/-- Coefficient of wavevector `v`, zero if it is not in the list. -/
def look (d : Fin D → Int) (cs : List (TWave D × ℂ)) (v : Fin D → Int) : ℂ :=
  match cs.find? (fun c => decide (c.1.dft = sh d v)) with
  | none => 0
  | some c => c.2

theorem look_map {d : Fin D → Int} (waves : List (TWave D)) (k : ℂ) (v : Fin D → Int) :
    look d (waves.map fun w => (w, ex w.phase * k)) v = coefAt d waves v * k := by
  unfold look coefAt
  rw [List.find?_map]
  cases h : waves.find? ((fun c : TWave D × ℂ => decide (c.1.dft = sh d v)) ∘
      fun w => (w, ex w.phase * k)) with
  | none =>
    have : waves.find? (fun w => decide (w.dft = sh d v)) = none := h
    simp [this]
  | some u =>
    have : waves.find? (fun w => decide (w.dft = sh d v)) = some u := h
    simp [this]

theorem coefAt_perm {d : Fin D → Int} {l l' : List (TWave D)} (hp : l.Perm l')
    (hn : (l'.map TWave.dft).Nodup) (v : Fin D → Int) : coefAt d l v = coefAt d l' v := by
  have hn' : (l.map TWave.dft).Nodup := (hp.map _).nodup_iff.mpr hn
  by_cases h : ∃ w ∈ l, w.dft = sh d v
  · obtain ⟨w, hw, e⟩ := h
    rw [coefAt_mem hn' hw e, coefAt_mem hn (hp.mem_iff.mp hw) e]
  · push Not at h
    rw [coefAt_not_mem h, coefAt_not_mem fun w hw => h w (hp.mem_iff.mpr hw)]

theorem Invariant.smul {d : Fin D → Int} {g : List (Sym D)} {F : (Fin D → Int) → ℂ}
    (h : Invariant d g F) (k : ℂ) : Invariant d g (fun v => F v * k) :=
  ⟨fun v w e => by simp only [h.periodic v w e], fun A hA v => by simp only [h.sym A hA v]; ring⟩

theorem vecMul_neg (v : Fin D → Int) (A : Sym D) :
    Sym.vecMul (fun i => - v i) A = fun i => - Sym.vecMul v A i := by
  funext i; simp [vecMul_apply]

theorem dot_neg (v : Fin D → Int) (t : Fin D → ℚ) : dot (fun i => - v i) t = - dot v t := by
  simp [dot]

theorem sh_neg {d : Fin D → Int} (hd : ∀ i, 0 < d i) {v w : Fin D → Int} (h : sh d v = sh d w) :
    sh d (fun i => - v i) = sh d (fun i => - w i) := by
  rw [sh_iff hd] at h ⊢
  intro i
  obtain ⟨q, hq⟩ := h i
  exact ⟨-q, by linear_combination -hq⟩

/-- The conjugate of the coefficients at the inverse wavevectors (the complex conjugate of the
field) is again invariant. -/
theorem Invariant.conjNeg {d : Fin D → Int} (hd : ∀ i, 0 < d i) {g : List (Sym D)}
    {F : (Fin D → Int) → ℂ} (h : Invariant d g F) :
    Invariant d g (fun v => (starRingEnd ℂ) (F fun i => - v i)) := by
  refine ⟨fun v w e => by simp only [h.periodic _ _ (sh_neg hd e)], fun A hA v => ?_⟩
  simp only [← vecMul_neg, h.sym A hA, map_mul, dot_neg, ex_conj, neg_neg]

theorem ex_inv (x : ℚ) : (ex x)⁻¹ = (starRingEnd ℂ) (ex x) := by
  rw [ex_conj]
  exact (eq_inv_of_mul_eq_one_left (ex_neg x)).symm

theorem ex_unit (x : ℚ) : ex x * (starRingEnd ℂ) (ex x) = 1 := by
  rw [← ex_inv, mul_inv_cancel₀ (ex_ne_zero x)]

theorem ex_norm (x : ℚ) : ‖ex x‖ = 1 := by
  have h := ex_unit x
  rw [Complex.mul_conj] at h
  have h2 : Complex.normSq (ex x) = 1 := by exact_mod_cast h
  rw [Complex.norm_def, h2, Real.sqrt_one]

theorem pickSign_sq (z : ℂ) : pickSign z * pickSign z = z * z := by
  unfold pickSign
  split
  · ring
  · split
    · split
      · ring
      · rfl
    · rfl

section closed
variable {E : StarEnv D} {root : TWave D} {st : StarState D}

/-- An invariant field supported on an uncancelled star is a multiple of the star function. -/
theorem supported (htol : 0 ≤ E.tol) (h : buildStar E root = .ok st) {F : (Fin D → Int) → ℂ}
    (hF : Invariant E.dims E.group F) (hs : ∀ v, (∀ w ∈ st.star, w.dft ≠ sh E.dims v) → F v = 0)
    (v : Fin D → Int) : F v = F root.bz * coefAt E.dims st.star v := by
  have I := buildStar_inv htol h
  by_cases hv : ∃ w ∈ st.star, w.dft = sh E.dims v
  · obtain ⟨w, hw, e⟩ := hv
    rw [C76_determined_by_root htol h hF w hw v e, coefAt_mem I.nodup hw e, mul_comm]
  · push Not at hv
    rw [hs v hv, coefAt_not_mem hv, mul_zero]

/-- Membership in the star is preserved by inversion when one image is. -/
theorem closed_neg (G : GroupOn E.dims E.group) (htol : 0 ≤ E.tol) (h : buildStar E root = .ok st)
    (hcl : ∃ w ∈ st.star, w.dft = negSh E.dims root.bz) (v : Fin D → Int)
    (hv : ∃ w ∈ st.star, w.dft = sh E.dims v) :
    ∃ w ∈ st.star, w.dft = sh E.dims (fun i => - v i) := by
  have O := (C76_star_is_orbit htol h).2
  rw [O] at hv ⊢
  obtain ⟨B, hB, e⟩ := (O _).mp hcl
  obtain ⟨A, hA, e'⟩ := hv
  refine ⟨B.mul A, G.mul B hB A hA, ?_⟩
  rw [vecMul_mul, ← sh_vecMul G.pos (G.compat A hA) e, vecMul_neg]
  exact sh_neg G.pos e'

/-- The `look`-up form of a constant multiple of the star function. -/
theorem coefs_facts (G : GroupOn E.dims E.group) (htol : 0 ≤ E.tol)
    (hroot : root.dft = sh E.dims root.bz)
    (hres : ∀ A ∈ E.group, ph root.bz A ≠ 0 → E.tol < |ph root.bz A * E.tw|)
    (h : buildStar E root = .ok st) (hc : st.cancel = false) {waves : List (TWave D)}
    (hp : waves.Perm st.star) (hw : waves ≠ []) (k : ℂ)
    (hk : ‖k‖ = 1) :
    let cs := waves.map fun w => (w, ex w.phase * (k * ((1 / Real.sqrt waves.length : ℝ) : ℂ)))
    Invariant E.dims E.group (look E.dims cs) ∧ (cs.map fun c => Complex.normSq c.2).sum = 1 := by
  have I := buildStar_inv htol h
  refine ⟨?_, ?_⟩
  · have : look E.dims (waves.map fun w =>
        (w, ex w.phase * (k * ((1 / Real.sqrt waves.length : ℝ) : ℂ)))) = fun v =>
        coefAt E.dims st.star v * (k * ((1 / Real.sqrt waves.length : ℝ) : ℂ)) := by
      funext v
      rw [look_map, coefAt_perm hp I.nodup]
    rw [this]
    exact (C76_star_function_invariant G htol hroot hres h hc).smul _
  · have hn : ∀ w : TWave D, Complex.normSq
        (ex w.phase * (k * ((1 / Real.sqrt waves.length : ℝ) : ℂ))) = 1 / (waves.length : ℝ) := by
      intro w
      rw [Complex.normSq_eq_norm_sq, norm_mul, norm_mul, ex_norm, hk, Complex.norm_real]
      rw [one_mul, one_mul, Real.norm_eq_abs, sq_abs, div_pow, one_pow, Real.sq_sqrt (by positivity)]
    rw [List.map_map]
    have : (waves.map ((fun c : TWave D × ℂ => Complex.normSq c.2) ∘ fun w =>
        (w, ex w.phase * (k * ((1 / Real.sqrt waves.length : ℝ) : ℂ))))) =
        waves.map fun _ => 1 / (waves.length : ℝ) := List.map_congr_left fun w _ => hn w
    rw [this, List.map_const', List.sum_replicate, nsmul_eq_mul]
    have : (waves.length : ℝ) ≠ 0 := by
      have := List.length_pos_iff.mpr hw
      positivity
    field_simp

/-- C76: in a star that is closed under inversion and not cancelled, the final coefficients define
a normalised function that is invariant under the group and, up to the tolerance `1.0E-6` of the
code, real: coefficients of a wavevector and its inverse are complex conjugates.  They are exactly so
if distinct phases within the star differ by more than the tolerance. -/
theorem C76_closed_star_normalised (csqrt : ℂ → ℂ) (hsqrt : ∀ z, csqrt z * csqrt z = z)
    (G : GroupOn E.dims E.group) (htol : 0 ≤ E.tol) (hroot : root.dft = sh E.dims root.bz)
    (hmin : ∀ v, sh E.dims (E.minIm v) = sh E.dims v)
    (hres : ∀ A ∈ E.group, ph root.bz A ≠ 0 → E.tol < |ph root.bz A * E.tw|)
    (h : buildStar E root = .ok st) (hc : st.cancel = false)
    (hcl : ∃ w ∈ st.star, w.dft = negSh E.dims root.bz) {waves : List (TWave D)}
    (hp : waves.Perm st.star) {cs : List (TWave D × ℂ)}
    (hcs : closedCoefs csqrt E.dims waves st.cancel = .ok cs) :
    cs.map Prod.fst = waves ∧ Invariant E.dims E.group (look E.dims cs) ∧
    (cs.map fun c => Complex.normSq c.2).sum = 1 ∧
    (∀ v, ‖(starRingEnd ℂ) (look E.dims cs fun i => - v i) - look E.dims cs v‖ ≤ 1e-6) ∧
    ((∀ w ∈ waves, ∀ w' ∈ waves, ex w.phase / ex w'.phase = 1 ∨ 1e-6 < ‖ex w.phase / ex w'.phase - 1‖) →
      ∀ v, (starRingEnd ℂ) (look E.dims cs fun i => - v i) = look E.dims cs v) := by
  have I := buildStar_inv htol h
  cases waves with
  | nil => simp [closedCoefs] at hcs
  | cons w0 tl =>
    set waves := w0 :: tl with hwaves
    have hne : waves ≠ [] := by simp [hwaves]
    simp only [closedCoefs, hwaves] at hcs
    rw [← hwaves] at hcs
    cases hf : waves.find? (fun w => decide (w.dft = negSh E.dims w0.bz)) with
    | none => rw [hf] at hcs; simp at hcs
    | some p =>
      rw [hf, hc] at hcs
      simp only [Bool.false_eq_true, if_false] at hcs
      have hpm : p ∈ st.star := hp.mem_iff.mp (List.mem_of_find?_eq_some hf)
      have hpd : p.dft = negSh E.dims w0.bz := by simpa using List.find?_some hf
      have hw0 : w0 ∈ st.star := hp.mem_iff.mp (by simp [hwaves])
      have hw0d : w0.dft = sh E.dims w0.bz := by
        obtain ⟨A, hA, e, _, e3⟩ := I.src w0 hw0
        rw [e3, hmin, e]
      have Inv := C76_star_function_invariant G htol hroot hres h hc
      set S := coefAt E.dims st.star with hS
      have hS0 : S w0.bz = ex w0.phase := coefAt_mem I.nodup hw0 hw0d
      have hSp : S (fun i => - w0.bz i) = ex p.phase := coefAt_mem I.nodup hpm hpd
      -- conjugation
      have hconj : ∀ v, (starRingEnd ℂ) (S fun i => - v i) =
          (starRingEnd ℂ) (S fun i => - root.bz i) * S v := by
        intro v
        refine supported htol h (Inv.conjNeg G.pos) (fun u hu => ?_) v
        have : S (fun i => - u i) = 0 := by
          apply coefAt_not_mem
          intro w hw e
          obtain ⟨w', hw', e'⟩ := closed_neg G htol h hcl _ ⟨w, hw, e⟩
          simp only [neg_neg] at e'
          exact hu w' hw' e'
        simp only [this, map_zero]
      set lam := (starRingEnd ℂ) (S fun i => - root.bz i) with hlam
      have hl : (starRingEnd ℂ) (ex p.phase) = lam * ex w0.phase := by
        rw [← hSp, ← hS0]; exact hconj w0.bz
      set part := ex p.phase / ex w0.phase with hpart
      have hpn : ‖part‖ = 1 := by rw [hpart, norm_div, ex_norm, ex_norm, div_one]
      have hlen : (1 : ℝ) ≤ waves.length := by
        have := List.length_pos_iff.mpr hne
        exact_mod_cast this
      set sn : ℝ := 1 / Real.sqrt waves.length with hsn
      have hsn1 : |sn| ≤ 1 := by
        have h1 : (1 : ℝ) ≤ Real.sqrt waves.length := Real.one_le_sqrt.mpr hlen
        rw [hsn, abs_of_nonneg (by positivity), div_le_one (by linarith)]
        exact h1
      have hlook : ∀ k : ℂ, look E.dims (waves.map fun w => (w, ex w.phase * (k * (sn : ℂ)))) =
          fun v => S v * (k * (sn : ℂ)) := by
        intro k; funext v
        rw [look_map, coefAt_perm hp I.nodup]
      -- `lam` in terms of the partner coefficient
      have hlam2 : lam = (starRingEnd ℂ) part * (starRingEnd ℂ) (ex w0.phase) *
          (starRingEnd ℂ) (ex w0.phase) := by
        have h0 : (starRingEnd ℂ) (ex w0.phase) ≠ 0 := by
          rw [← ex_inv]; exact inv_ne_zero (ex_ne_zero _)
        have h1 : (starRingEnd ℂ) part * (starRingEnd ℂ) (ex w0.phase) =
            (starRingEnd ℂ) (ex p.phase) := by
          rw [← map_mul, hpart, div_mul_cancel₀ _ (ex_ne_zero _)]
        rw [h1, hl, mul_assoc, ex_unit, mul_one]
      by_cases hcond : p.dft ≠ w0.dft ∧ ‖part - 1‖ > 1e-6
      · rw [if_pos hcond] at hcs
        cases hcs
        set s := pickSign (csqrt part) with hs
        have hs2 : s * s = part := by rw [hs, pickSign_sq, hsqrt]
        have hsn' : ‖s‖ = 1 := by
          have : ‖s‖ * ‖s‖ = 1 := by rw [← norm_mul, hs2, hpn]
          nlinarith [norm_nonneg s]
        have hs0 : s ≠ 0 := by intro h0; rw [h0] at hsn'; simp at hsn'
        have hsu : s * (starRingEnd ℂ) s = 1 := by
          rw [Complex.mul_conj, Complex.normSq_eq_norm_sq, hsn']; simp
        set k : ℂ := (ex w0.phase)⁻¹ * s⁻¹ with hk
        have hkn : ‖k‖ = 1 := by rw [hk, norm_mul, norm_inv, norm_inv, ex_norm, hsn']; norm_num
        have hform : (waves.map fun w => (w, ex w.phase / ex w0.phase / s * (sn : ℂ))) =
            waves.map fun w => (w, ex w.phase * (k * (sn : ℂ))) := by
          apply List.map_congr_left
          intro w _
          rw [hk]
          simp only [div_eq_mul_inv]
          congr 1; ring
        rw [hform]
        obtain ⟨h1, h2⟩ := coefs_facts G htol hroot hres h hc hp hne k hkn
        have hex : ∀ v, (starRingEnd ℂ) (look E.dims (waves.map fun w => (w, ex w.phase * (k * (sn : ℂ))))
            fun i => - v i) - look E.dims (waves.map fun w => (w, ex w.phase * (k * (sn : ℂ)))) v = 0 := by
          intro v
          rw [hlook]
          simp only [map_mul, hconj v, Complex.conj_ofReal]
          have hkk : lam * (starRingEnd ℂ) k = k := by
            rw [hlam2, hk, ← hs2, map_mul, map_mul, map_inv₀, map_inv₀]
            have e1 : (starRingEnd ℂ) (ex w0.phase) = (ex w0.phase)⁻¹ := (ex_inv _).symm
            have e2 : (starRingEnd ℂ) s = s⁻¹ := eq_inv_of_mul_eq_one_right hsu
            rw [e1, e2]
            have := ex_ne_zero w0.phase
            field_simp
          linear_combination S v * (sn : ℂ) * hkk
        refine ⟨by simp [Function.comp_def], h1, h2, fun v => ?_, fun _ v => sub_eq_zero.1 (hex v)⟩
        rw [hex v]; norm_num
      · rw [if_neg hcond] at hcs
        cases hcs
        set k : ℂ := (ex w0.phase)⁻¹ with hk
        have hkn : ‖k‖ = 1 := by rw [hk, norm_inv, ex_norm]; norm_num
        have hform : (waves.map fun w => (w, ex w.phase / ex w0.phase * (sn : ℂ))) =
            waves.map fun w => (w, ex w.phase * (k * (sn : ℂ))) := by
          apply List.map_congr_left
          intro w _
          rw [hk]
          simp only [div_eq_mul_inv]
          congr 1; ring
        rw [hform]
        obtain ⟨h1, h2⟩ := coefs_facts G htol hroot hres h hc hp hne k hkn
        -- the partner coefficient is close to one
        have hclose : ‖part - 1‖ ≤ 1e-6 := by
          by_cases hpd2 : p.dft = w0.dft
          · have : p = w0 := List.inj_on_of_nodup_map I.nodup hpm hw0 hpd2
            rw [hpart, this, div_self (ex_ne_zero _)]; norm_num
          · by_contra h0
            exact hcond ⟨hpd2, not_le.mp h0⟩
        have e1 : (starRingEnd ℂ) (ex w0.phase) = (ex w0.phase)⁻¹ := (ex_inv _).symm
        have hval : ∀ v, (starRingEnd ℂ) (look E.dims (waves.map fun w => (w, ex w.phase * (k * (sn : ℂ))))
            fun i => - v i) - look E.dims (waves.map fun w => (w, ex w.phase * (k * (sn : ℂ)))) v =
            (starRingEnd ℂ) (part - 1) * (S v * (k * (sn : ℂ))) := by
          intro v
          rw [hlook]
          simp only [map_mul, hconj v, Complex.conj_ofReal]
          rw [hlam2, hk, map_inv₀, e1, map_sub, map_one]
          have := ex_ne_zero w0.phase
          field_simp
        refine ⟨by simp [Function.comp_def], h1, h2, fun v => ?_, fun hr v => ?_⟩
        swap
        · have hone : part = 1 := by
            rcases hr p (hp.mem_iff.mpr hpm) w0 (by simp [hwaves]) with e | e
            · exact e
            · exact absurd hclose (not_le.mpr e)
          rw [← sub_eq_zero, hval v, hone]
          simp
        rw [hval v, norm_mul, RCLike.norm_conj, norm_mul, norm_mul, hkn, one_mul, Complex.norm_real,
          Real.norm_eq_abs]
        have hSv : ‖S v‖ ≤ 1 := by
          by_cases hv : ∃ w ∈ st.star, w.dft = sh E.dims v
          · obtain ⟨w, hw, e⟩ := hv
            rw [hS, coefAt_mem I.nodup hw e, ex_norm]
          · push Not at hv
            rw [hS, coefAt_not_mem hv]; simp
        have h3 : ‖S v‖ * |sn| ≤ 1 := by
          calc ‖S v‖ * |sn| ≤ 1 * 1 := by gcongr
            _ = 1 := one_mul 1
        calc ‖part - 1‖ * (‖S v‖ * |sn|) ≤ 1e-6 * 1 := by gcongr
          _ = 1e-6 := mul_one _

/-- C76: in a pair of stars related by inversion and not cancelled, the final coefficients of each
star define a normalised invariant function, and the functions of the two stars are complex
conjugates of each other. -/
theorem C76_open_pair_normalised {root2 : TWave D} {st2 : StarState D}
    (G : GroupOn E.dims E.group) (htol : 0 ≤ E.tol) (hroot : root.dft = sh E.dims root.bz)
    (hroot2 : root2.dft = sh E.dims root2.bz)
    (hmin : ∀ v, sh E.dims (E.minIm v) = sh E.dims v)
    (hres : ∀ r, r = root ∨ r = root2 → ∀ A ∈ E.group, ph r.bz A ≠ 0 → E.tol < |ph r.bz A * E.tw|)
    (h : buildStar E root = .ok st) (h2 : buildStar E root2 = .ok st2) (hc : st.cancel = false)
    (hinv : root2.dft = negSh E.dims root.bz) {waves waves2 : List (TWave D)}
    (hp : waves.Perm st.star) (hp2 : waves2.Perm st2.star) {cs cs2 : List (TWave D × ℂ)}
    (hcs : openCoefs E.dims waves waves2 st.cancel st2.cancel = .ok (cs, cs2)) :
    cs.map Prod.fst = waves ∧ cs2.map Prod.fst = waves2 ∧
    Invariant E.dims E.group (look E.dims cs) ∧ Invariant E.dims E.group (look E.dims cs2) ∧
    (cs.map fun c => Complex.normSq c.2).sum = 1 ∧ (cs2.map fun c => Complex.normSq c.2).sum = 1 ∧
    ∀ v, look E.dims cs2 (fun i => - v i) = (starRingEnd ℂ) (look E.dims cs v) := by
  have I := buildStar_inv htol h
  have I2 := buildStar_inv htol h2
  unfold openCoefs at hcs
  by_cases hlen : waves.length ≠ waves2.length
  · rw [if_pos hlen] at hcs; cases hcs
  rw [if_neg hlen] at hcs
  push Not at hlen
  by_cases hcc : st.cancel ≠ st2.cancel
  · rw [if_pos hcc] at hcs; cases hcs
  rw [if_neg hcc] at hcs
  push Not at hcc
  have hc2 : st2.cancel = false := by rw [← hcc, hc]
  cases waves with
  | nil => simp at hcs
  | cons w0 tl =>
    set waves := w0 :: tl with hwaves
    have hne : waves ≠ [] := by simp [hwaves]
    have hne2 : waves2 ≠ [] := by
      intro h0
      rw [h0] at hlen
      exact hne (List.length_eq_zero_iff.mp (by simpa using hlen))
    simp only [hwaves] at hcs
    rw [← hwaves] at hcs
    cases hf : waves2.find? (fun w => decide (w.dft = negSh E.dims w0.bz)) with
    | none => rw [hf] at hcs; simp at hcs
    | some p =>
      rw [hf, hc] at hcs
      simp only [Bool.false_eq_true, if_false] at hcs
      cases hcs
      have hpm : p ∈ st2.star := hp2.mem_iff.mp (List.mem_of_find?_eq_some hf)
      have hpd : p.dft = negSh E.dims w0.bz := by simpa using List.find?_some hf
      have hw0 : w0 ∈ st.star := hp.mem_iff.mp (by simp [hwaves])
      have hw0d : w0.dft = sh E.dims w0.bz := by
        obtain ⟨A, hA, e, _, e3⟩ := I.src w0 hw0
        rw [e3, hmin, e]
      have hf1 : ∀ (l : List (TWave D)) (x : ℚ), (l.map fun w => (w, ex w.phase / ex x *
          ((1 / Real.sqrt l.length : ℝ) : ℂ))) = l.map fun w => (w, ex w.phase *
          ((ex x)⁻¹ * ((1 / Real.sqrt l.length : ℝ) : ℂ))) := by
        intro l x
        apply List.map_congr_left
        intro w _
        simp only [div_eq_mul_inv]
        congr 1; ring
      have hk : ∀ x : ℚ, ‖(ex x)⁻¹‖ = 1 := fun x => by rw [norm_inv, ex_norm]; norm_num
      rw [hf1, hf1]
      obtain ⟨a1, a2⟩ := coefs_facts G htol hroot (hres _ (Or.inl rfl)) h hc hp hne _ (hk w0.phase)
      obtain ⟨b1, b2⟩ := coefs_facts G htol hroot2 (hres _ (Or.inr rfl)) h2 hc2 hp2 hne2 _
        (hk p.phase)
      refine ⟨by simp [Function.comp_def], by simp [Function.comp_def], a1, b1, a2, b2, ?_⟩
      intro v
      rw [look_map, look_map, coefAt_perm hp I.nodup, coefAt_perm hp2 I2.nodup]
      have Inv2 := C76_star_function_invariant G htol hroot2 (hres _ (Or.inr rfl)) h2 hc2
      -- the conjugate of the second function is supported on the first star
      have hr : sh E.dims root2.bz = sh E.dims (fun i => - root.bz i) := by rw [← hroot2, hinv]; rfl
      have hsup := supported htol h (Inv2.conjNeg G.pos) (fun u hu => by
        have : coefAt E.dims st2.star (fun i => - u i) = 0 := by
          apply coefAt_not_mem
          intro w hw e
          obtain ⟨A, hA, e'⟩ := ((C76_star_is_orbit htol h2).2 _).mp ⟨w, hw, e⟩
          have e3 := sh_vecMul G.pos (G.compat A hA) hr
          rw [← e', vecMul_neg] at e3
          have e4 := sh_neg G.pos e3
          simp only [neg_neg] at e4
          obtain ⟨w', hw', e5⟩ := ((C76_star_is_orbit htol h).2 u).mpr ⟨A, hA, e4⟩
          exact hu w' hw' e5
        simp only [this, map_zero])
      have h0 := hsup w0.bz
      have hv := hsup v
      rw [coefAt_mem I2.nodup hpm hpd, coefAt_mem I.nodup hw0 hw0d] at h0
      have hv2 := congrArg (starRingEnd ℂ) hv
      rw [Complex.conj_conj, map_mul, Complex.conj_conj] at hv2
      have h02 := congrArg (starRingEnd ℂ) h0
      rw [Complex.conj_conj, map_mul, Complex.conj_conj] at h02
      set mu := coefAt E.dims st2.star (fun i => - root.bz i) with hmu
      have e1 : (starRingEnd ℂ) (ex w0.phase)⁻¹ = ex w0.phase := by rw [ex_inv, Complex.conj_conj]
      have e2 : mu = ex p.phase * ex w0.phase := by
        rw [h02, mul_assoc, mul_comm ((starRingEnd ℂ) (ex w0.phase)), ex_unit, mul_one]
      rw [hv2, map_mul, map_mul, Complex.conj_ofReal, hlen, e1, e2]
      have := ex_ne_zero p.phase
      field_simp

end closed

/-! ## Reachability of the hypotheses -/

/-- `GroupOn` follows from the checks made by the program when a group file is read and a mesh is
given (`SymmetryGroup::isValid`, `SpaceGroup::checkMeshDimensions`), and divisibility in the first
direction, which the program does not check (see `C32_violated`). -/
theorem C76_groupOn_of_checks (hD : D = 1 ∨ D = 2 ∨ D = 3) {d : Fin D → Int} {l : List (Sym D)}
    (hd : ∀ i, 0 < d i) (hv : Crystal.isValid (symOps D) l = .ok true)
    (hc : checkMeshDimensions l d = true)
    (h0 : ∀ A ∈ l, ∀ i : Fin D, i.val = 0 → ((A.t i).den : Int) ∣ d i) : GroupOn d l := by
  refine groupOn_of_isValid hD hd hv fun A hA => ?_
  have key := fun n i => C32_mesh_invariant_partial l d hd hc A hA n i
    (by by_cases h : i.val = 0
        · exact Or.inr (h0 A hA i h)
        · exact Or.inl h)
  have hq : ∀ i, (d i : ℚ) ≠ 0 := fun i => by exact_mod_cast (hd i).ne'
  have ht : ∀ i, ∃ n : ℤ, (d i : ℚ) * A.t i = n := by
    intro i
    obtain ⟨m, hm⟩ := key (fun _ => 0) i
    simp only [Int.cast_zero, zero_div, mul_zero, Finset.sum_const_zero, add_zero] at hm
    exact ⟨m, by rw [hm]; field_simp [hq i]⟩
  refine ⟨ht, fun i j => ?_⟩
  obtain ⟨m, hm⟩ := key (fun a => if a = j then 1 else 0) i
  obtain ⟨k, hk⟩ := ht i
  have hsum : ∑ a, (A.R i a : ℚ) * (((if a = j then (1 : Int) else 0 : Int) : ℚ) / d a) =
      (A.R i j : ℚ) / d j := by
    rw [Finset.sum_eq_single j]
    · simp [div_eq_mul_inv]
    · intro b _ hb; simp [hb]
    · simp
  rw [hsum] at hm
  refine ⟨m - k, ?_⟩
  have : (d i : ℚ) * A.R i j = d j * ((m : ℚ) - k) := by
    rw [← hk]
    have h1 := hq i
    have h2 := hq j
    field_simp at hm
    linear_combination hm
  exact_mod_cast this

/-- Glide reflection group on a 4 × 4 mesh of a square cell. -/
def exE : StarEnv 2 where
  dims := fun _ => 4
  group := [Sym.identity 2, glide]
  ksq := fun v => (v 0 : ℚ) ^ 2 + (v 1 : ℚ) ^ 2
  minIm := fun v i => if (sh (fun _ => (4 : Int)) v) i > 2 then sh (fun _ => 4) v i - 4 else sh (fun _ => 4) v i
  epsilon := 1 / 100000
  tol := 1 / 1000000
  tw := 6

def exWave (a b : Int) : TWave 2 :=
  { phase := 0, dft := sh (fun _ => 4) ![a, b], bz := ![a, b] }

theorem exE_group : GroupOn exE.dims exE.group :=
  C76_groupOn_of_checks (by decide) (by decide +kernel) (by decide +kernel) (by decide +kernel)
    (by decide +kernel)

/-- The hypotheses of the theorems above hold for the waves used below. -/
example : (∀ A ∈ exE.group, phaseSum (exWave 1 1).bz A = if A.t 0 = 0 then 0 else 1 / 2) := by
  decide +kernel

/-- The star of (1,0) is cancelled: the glide maps the wave to itself with phase `π`. -/
example : (match buildStar exE (exWave 1 0) with
    | .ok st => decide (st.cancel = true ∧ st.star.length = 1) | _ => false) = true := by decide +kernel

/-- The star of (1,1) has two waves with opposite coefficients and is not cancelled. -/
example : (match buildStar exE (exWave 1 1) with
    | .ok st => decide (st.cancel = false ∧ st.star.map TWave.dft = [![1, 1], ![1, 3]] ∧
        st.star.map TWave.phase = [0, 1 / 2]) | _ => false) = true := by decide +kernel

/-- The waves of norm two form a pair of stars related by inversion; those of norm one form two
cancelled stars and a closed one. -/
example : (match starLoop exE 4 [exWave 1 1, exWave 1 (-1), exWave (-1) 1, exWave (-1) (-1)] none with
    | some (.ok l) => decide (l.map StarRec.invertFlag = [1, -1] ∧ l.map StarRec.cancel = [false, false])
    | _ => false) = true := by decide +kernel

example : (match starLoop exE 4 [exWave 1 0, exWave 0 1, exWave 0 (-1), exWave (-1) 0] none with
    | some (.ok l) => decide (l.map StarRec.invertFlag = [1, -1, 0] ∧ l.map StarRec.cancel = [true, true, false])
    | _ => false) = true := by decide +kernel

end
end Verif.Stars
