import Verif.Cuda.ConfigLemmas
import Mathlib.Order.Bounds.Basic

/-!
# The loop over launches
-/

set_option autoImplicit false
set_option linter.unusedSectionVars false

namespace Verif.Cuda

variable {K : Type} [Inhabited K]

/-- Number of blocks of a launch on `n` elements. -/
def nBlocks (n T : Nat) : Nat := (halved n + T - 1) / T

theorem nBlocks_pos {n T : Nat} (hn : 0 < halved n) (hT : 0 < T) : 0 < nBlocks n T :=
  Nat.div_pos (by omega) hT

theorem nBlocks_le {n T : Nat} (hT : 64 ≤ T) (hh : halved n ≤ 2 ^ 29) :
    nBlocks n T ≤ 2 ^ 24 := by
  have h1 : nBlocks n T ≤ (halved n + T) / T := Nat.div_le_div_right (by omega)
  rw [Nat.add_div_right _ (by omega)] at h1
  have h2 : halved n / T ≤ halved n / 64 := Nat.div_le_div_left hT (by norm_num)
  omega

theorem halved_small {n : Nat} (h : n ≤ 2 ^ 24) : halved n = (n + 1) / 2 := by
  rw [halved, toFloat_small h]

/-- For at most 2^24 elements the blocks cover the array, with less than one block to spare. -/
theorem nBlocks_cover {n T : Nat} (h : n ≤ 2 ^ 24) (hT : 0 < T) :
    n ≤ nBlocks n T * (T * 2) ∧ nBlocks n T * (T * 2) < n + 1 + T * 2 := by
  have h1 := Nat.div_add_mod (halved n + T - 1) T
  have h2 := Nat.mod_lt (halved n + T - 1) hT
  rw [halved_small h] at h1 h2
  rw [nBlocks, halved_small h]
  set q := ((n + 1) / 2 + T - 1) / T
  have e : q * (T * 2) = 2 * (T * q) := by ring
  rw [e]
  omega

theorem nBlocks_lt {n T : Nat} (hT : 64 ≤ T) (hn : 100000 ≤ n) (hh : 2 * halved n ≤ 2 * n + 200) :
    nBlocks n T < n := by
  rw [nBlocks, Nat.div_lt_iff_lt_mul (by omega)]
  have := Nat.mul_le_mul_left n hT
  have h2 : 64 * 100000 ≤ n * 64 := by omega
  obtain ⟨c, rfl⟩ : ∃ c, T = 64 + c := ⟨T - 64, by omega⟩
  have h3 : n * (64 + c) = n * 64 + n * c := by ring
  have h4 : c ≤ n * c := Nat.le_mul_of_pos_left c (by omega)
  omega

/-- Error of the conversion to float. -/
theorem toFloat_err {n : Nat} (h : n ≤ 2 ^ 30) : toFloat n ≤ n + 128 := by
  unfold toFloat
  split_ifs with h1
  · omega
  · have h0 : n ≠ 0 := by omega
    have hlog : Nat.log2 n < 31 := (Nat.log2_lt h0).2 (by omega)
    obtain ⟨e, he⟩ : ∃ e, Nat.log2 n - 23 = e := ⟨_, rfl⟩
    simp only [he]
    have hp : 2 ^ e ≤ 2 ^ 7 := Nat.pow_le_pow_right (by norm_num) (by omega)
    have hdm := Nat.div_add_mod' n (2 ^ e)
    split_ifs
    · rw [add_mul]; omega
    · omega

theorem halved_pos {n : Nat} (h : 0 < n) (hle : n ≤ 2 ^ 30) : 0 < halved n := by
  rw [halved]
  by_cases h1 : n < 2 ^ 24
  · rw [toFloat, if_pos h1]; omega
  · have h0 : n ≠ 0 := by omega
    suffices 1 ≤ toFloat n by omega
    rw [toFloat, if_neg h1]
    have hle2 : 2 ^ (Nat.log2 n - 23) ≤ n :=
      (Nat.pow_le_pow_right (by norm_num) (by omega)).trans (Nat.log2_self_le h0)
    have hq : 1 ≤ n / 2 ^ (Nat.log2 n - 23) := Nat.div_pos hle2 (by positivity)
    simp only
    refine Nat.one_le_iff_ne_zero.2 (Nat.mul_ne_zero ?_ (by positivity))
    split_ifs <;> omega

theorem halved_le {n : Nat} (h : n ≤ 2 ^ 30) : halved n ≤ 2 ^ 29 := by
  have := toFloat_le h
  rw [halved]; omega

/-- Schedules that let all threads finish in each phase of each block in each launch. -/
def FairSched (sch : Nat → Nat → Nat → List Nat) : Prop :=
  ∀ i b s, ∀ t < s, 3 ≤ (sch i b s).count t

section

variable {d : Device} (hd : d.Ok) {T : Nat} {always : Bool} {k0 k1 : Kern K} {input : List K}
  {sch : Nat → Nat → Nat → List Nat} {A1 : List K → Prop}

/-- The state of the loop after `i ≥ 1` launches. -/
structure Mid (d : Device) (T : Nat) (A1 : List K → Prop) (w : Wrap K) : Prop where
  ta : w.ta.Uses d T
  i : 0 < w.i
  n : 0 < w.n ∧ w.n ≤ 2 ^ 24
  odd : w.i % 2 = 1 → w.temp2 = none ∧ ∃ l, w.temp1 = some l ∧ l.length = w.n ∧ A1 l
  even : w.i % 2 = 0 → w.temp1 = none ∧ ∃ l, w.temp2 = some l ∧ l.length = w.n ∧ A1 l

theorem Mid.src {w : Wrap K} (h : Mid d T A1 w) (input : List K) :
    ∃ l, w.src input = some l ∧ l.length = w.n ∧ A1 l := by
  have := h.i
  rw [Wrap.src, if_neg (by omega)]
  split_ifs with hi
  · exact (h.odd hi).2
  · exact (h.even (by omega)).2

/-- One launch. -/
theorem loop_step {w : Wrap K} (hw : w.ta.Uses d T) {src : List K} (hsrc : w.src input = some src)
    (h0 : 0 < w.n) (hle : w.n ≤ 2 ^ 30)
    (hgo : w.n ≥ 100000 ∨ (always = true ∧ w.i = 0))
    (hbuf : if w.i % 2 = 1 then w.temp2 = none else w.temp1 = none)
    {out : List K} (hk : runKernel (if w.i = 0 then k0 else k1) src (nBlocks w.n (max T 64))
      (max T 64) (sch w.i) = .ok out) (hlen : out.length = nBlocks w.n (max T 64))
    (hA : A1 out) (hd : d.Ok) :
    ∃ w', Mid d (max T 64) A1 w' ∧ w'.n = nBlocks w.n (max T 64) ∧
      ∀ fuel, loop d always k0 k1 input sch (fuel + 1) w =
        loop d always k0 k1 input sch fuel w' := by
  have hh := halved_le hle
  obtain ⟨ta, h1, h2, h3, h4⟩ := configure_uses hd hw (n := w.n) (halved_pos h0 hle) (by omega)
  have h4' : ta.blocks = nBlocks w.n (max T 64) := h4
  have hpos : 0 < nBlocks w.n (max T 64) := nBlocks_pos (halved_pos h0 hle) (by omega)
  have hb : nBlocks w.n (max T 64) ≤ 2 ^ 24 := nBlocks_le (le_max_right _ _) (by omega)
  by_cases hi : w.i % 2 = 1
  · rw [if_pos hi] at hbuf
    refine ⟨⟨none, some out, nBlocks w.n (max T 64), w.i + 1, ta⟩,
      ⟨h2, by simp, ⟨hpos, hb⟩, fun h => ?_, fun _ => ⟨rfl, out, rfl, hlen, hA⟩⟩, rfl,
      fun fuel => ?_⟩
    · simp only at h; omega
    · rw [loop, if_pos hgo]
      simp only [h1, hsrc]
      rw [if_neg (by have := h2.2.2; omega), h3, h4', hk]
      simp only
      rw [if_pos hi, if_neg (by rw [hbuf]; simp; omega)]
  · rw [if_neg hi] at hbuf
    refine ⟨⟨some out, none, nBlocks w.n (max T 64), w.i + 1, ta⟩,
      ⟨h2, by simp, ⟨hpos, hb⟩, fun _ => ⟨rfl, out, rfl, hlen, hA⟩, fun h => ?_⟩, rfl,
      fun fuel => ?_⟩
    · simp only at h; omega
    · rw [loop, if_pos hgo]
      simp only [h1, hsrc]
      rw [if_neg (by have := h2.2.2; omega), h3, h4', hk]
      simp only
      rw [if_neg hi, if_neg (by rw [hbuf]; simp; omega)]

include hd in
theorem loop_mid
    (hk1 : ∀ (l : List K) (i : Nat), 100000 ≤ l.length → l.length ≤ 2 ^ 24 → A1 l →
      ∃ out, runKernel k1 l (nBlocks l.length (max T 64)) (max T 64) (sch i) = .ok out ∧
        out.length = nBlocks l.length (max T 64) ∧ A1 out) :
    ∀ (n fuel : Nat) (w : Wrap K), w.n = n → w.n < fuel → Mid d T A1 w →
      max T 64 = T → ∃ w', loop d always k0 k1 input sch fuel w = some (.ok w') ∧ Mid d T A1 w' := by
  intro n
  induction n using Nat.strong_induction_on with
  | _ n ih =>
    intro fuel w hwn hf hm hT
    obtain ⟨fuel, rfl⟩ : ∃ f, fuel = f + 1 := ⟨fuel - 1, by omega⟩
    by_cases hgo : w.n ≥ 100000
    · obtain ⟨src, h1, h2, h3⟩ := hm.src input
      obtain ⟨out, g1, g2, g3⟩ := hk1 src w.i (by omega) (by have := hm.n; omega) h3
      rw [h2] at g1 g2
      have hi := hm.i
      obtain ⟨w', m1, m2, m3⟩ := loop_step (always := always) (k0 := k0) (k1 := k1) (sch := sch)
        (A1 := A1) hm.ta h1 hm.n.1 (by have := hm.n; omega) (.inl hgo)
        (by split_ifs with h
            · exact (hm.odd h).1
            · exact (hm.even (by omega)).1)
        (out := out) (by rw [if_neg (by omega)]; exact g1) g2 g3 hd
      have hlt : nBlocks w.n (max T 64) < w.n :=
        nBlocks_lt (le_max_right _ _) hgo (by rw [halved_small hm.n.2]; omega)
      rw [m3]
      rw [hT] at m1
      exact ih w'.n (by omega) fuel w' rfl (by omega) m1 hT
    · refine ⟨w, ?_, hm⟩
      have hi := hm.i
      rw [loop, if_neg (by rintro (h | h) <;> omega)]

include hd in
/-- The device part: result of the loop. -/
theorem reduced_ok {ta : TA} (hta : ta.Uses d T) (h0 : 0 < input.length)
    (hle : input.length ≤ 2 ^ 30)
    (hk0 : (100000 ≤ input.length ∨ always = true) →
      ∃ out, runKernel k0 input (nBlocks input.length (max T 64)) (max T 64) (sch 0) = .ok out ∧
        out.length = nBlocks input.length (max T 64) ∧ A1 out)
    (hk1 : ∀ (l : List K) (i : Nat), 100000 ≤ l.length → l.length ≤ 2 ^ 24 → A1 l →
      ∃ out, runKernel k1 l (nBlocks l.length (max T 64)) (max T 64) (sch i) = .ok out ∧
        out.length = nBlocks l.length (max T 64) ∧ A1 out)
    {fuel : Nat} (hf : input.length + 2 ≤ fuel) :
    ∃ l ta', reduced d always k0 k1 input sch ta fuel = some (.ok (l, ta')) ∧ 0 < l.length ∧
      ta'.Uses d (if 100000 ≤ input.length ∨ always = true then max T 64 else T) ∧
      if 100000 ≤ input.length ∨ always = true then A1 l else l = input := by
  obtain ⟨fuel, rfl⟩ : ∃ f, fuel = f + 1 := ⟨fuel - 1, by omega⟩
  rw [reduced, if_neg (by omega)]
  by_cases hgo : 100000 ≤ input.length ∨ always = true
  · simp only [if_pos hgo]
    obtain ⟨out, g1, g2, g3⟩ := hk0 hgo
    obtain ⟨w', m1, m2, m3⟩ := loop_step (always := always) (k0 := k0) (k1 := k1) (sch := sch)
      (A1 := A1) (w := ⟨none, none, input.length, 0, ta⟩) hta (src := input) (input := input)
      (by simp [Wrap.src]) h0 hle (hgo.imp id fun h => ⟨h, rfl⟩) (by simp) (out := out)
      (by simpa using g1) g2 g3 hd
    have hTT : max (max T 64) 64 = max T 64 := by simp
    have hlt : nBlocks input.length (max T 64) ≤ input.length := by
      rcases Nat.lt_or_ge input.length 100000 with h | h
      · have hh := halved_small (n := input.length) (by omega)
        rw [nBlocks, hh]
        refine (Nat.div_le_iff_le_mul_add_pred (by omega)).2 ?_
        have : input.length ≤ max T 64 * input.length := Nat.le_mul_of_pos_left _ (by omega)
        omega
      · refine (nBlocks_lt (le_max_right _ _) h ?_).le
        have := toFloat_err hle
        rw [halved]; omega
    obtain ⟨w2, e1, e2⟩ := loop_mid (always := always) (k0 := k0) (k1 := k1) (input := input)
      (sch := sch) hd (T := max T 64) (A1 := A1)
      (by rw [hTT]; exact hk1) w'.n fuel w' rfl (by simp only at m2; omega) m1 hTT
    obtain ⟨l, f1, f2, f3⟩ := e2.src input
    refine ⟨l, w2.ta, ?_, by have := e2.n; omega, e2.ta, f3⟩
    rw [m3, e1]
    simp [f1]
  · simp only [if_neg hgo]
    refine ⟨input, ta, ?_, h0, hta, rfl⟩
    rw [loop, if_neg (by push Not at hgo ⊢; exact ⟨hgo.1, fun h => absurd h hgo.2⟩)]
    simp [Wrap.src]

end

theorem kahan_eq {K : Type} [AddCommGroup K] (l : List K) : kahan l = l.sum := by
  have : ∀ (l : List K) (s : K), (l.foldl (fun (p : K × K) x =>
      (p.1 + (x - p.2), p.1 + (x - p.2) - p.1 - (x - p.2))) (s, 0)) = (s + l.sum, 0) := by
    intro l
    induction l with
    | nil => simp
    | cons a l ih =>
      intro s
      rw [List.foldl_cons, show ((s, (0 : K)).1 + (a - (s, (0 : K)).2),
        (s, (0 : K)).1 + (a - (s, (0 : K)).2) - (s, (0 : K)).1 - (a - (s, (0 : K)).2)) =
        (s + a, (0 : K)) by simp, ih, List.sum_cons, add_assoc]
  have h := this l 0
  simp only [zero_add] at h
  simp only [kahan]
  rw [h]

theorem hostSum_eq {K : Type} [AddCommGroup K] (l : List K) : hostSum l = .ok l.sum := by
  match l with
  | [] => simp [hostSum, kahan_eq]
  | [x] => simp [hostSum]
  | x :: y :: l => simp [hostSum, kahan_eq]

theorem hostPick_pred {gt : K → K → Bool} {P : K → Prop}
    (hop : ∀ a b, P (if gt a b then a else b) ↔ P a ∧ P b) (l : List K) (hl : 0 < l.length) :
    ∃ r, hostPick gt l = .ok r ∧ (P r ↔ ∀ x ∈ l, P x) := by
  match l, hl with
  | x :: l, _ =>
    refine ⟨_, rfl, ?_⟩
    have : ∀ (l : List K) (x : K),
        P (l.foldl (fun m y => if gt y m then y else m) x) ↔ P x ∧ ∀ y ∈ l, P y := by
      intro l
      induction l with
      | nil => simp
      | cons a l ih =>
        intro x
        rw [List.foldl_cons, ih, hop]
        simp only [List.mem_cons, forall_eq_or_imp]
        tauto
    rw [this]
    simp

end Verif.Cuda
