import Verif.Cuda.ReduceLemmas

/-!
# Lemmas about the execution configuration
-/

set_option autoImplicit false

namespace Verif.Cuda

theorem pow2_of_and {v : Nat} (h0 : v ≠ 0) (h : v &&& (v - 1) = 0) : ∃ k, v = 2 ^ k :=
  (Nat.and_sub_one_eq_zero_iff_isPowerOfTwo h0).1 h

theorem and_of_pow2 (k : Nat) : 2 ^ k &&& (2 ^ k - 1) = 0 :=
  (Nat.and_sub_one_eq_zero_iff_isPowerOfTwo (by positivity)).2 ⟨k, rfl⟩

theorem lowBit_pow (m : Nat) (hm : m ≠ 0) : ∃ k, lowBit m = 2 ^ k ∧ 2 ^ k ∣ m ∧
    ¬ 2 ^ (k + 1) ∣ m := by
  induction m using Nat.strong_induction_on with
  | _ m ih =>
    rw [lowBit, dif_neg hm]
    split_ifs with h
    · exact ⟨0, by simp, by simp, by simp; omega⟩
    · obtain ⟨k, h1, h2, h3⟩ := ih (m / 2) (by omega) (by omega)
      have hm2 : m = 2 * (m / 2) := by omega
      refine ⟨k + 1, by rw [h1, Nat.pow_succ]; ring, ?_, ?_⟩
      · rw [hm2, Nat.pow_succ, mul_comm]; exact Nat.mul_dvd_mul_left 2 h2
      · rw [hm2, Nat.pow_succ, mul_comm]
        intro hd
        exact h3 (Nat.dvd_of_mul_dvd_mul_left (by norm_num) hd)

theorem shrink_pow (lim : Nat) (hl : 0 < lim) : ∀ k, ∃ j, shrink lim (2 ^ k) = 2 ^ j ∧
    2 ^ j ≤ lim ∧ (j = k ∨ lim < 2 ^ (j + 1))
  | 0 => ⟨0, by rw [shrink, dif_neg (by simp; omega)], by simp; omega, .inl rfl⟩
  | k + 1 => by
    rw [shrink]
    split_ifs with h
    · rw [Nat.pow_succ, Nat.mul_div_cancel _ (by norm_num)]
      obtain ⟨j, h1, h2, h3⟩ := shrink_pow lim hl k
      refine ⟨j, h1, h2, .inr ?_⟩
      rcases h3 with rfl | h3
      · exact h
      · exact h3
    · exact ⟨k + 1, rfl, by omega, .inl rfl⟩

/-- Properties of real devices: warps of 32 threads, and so on. -/
structure Device.Ok (d : Device) : Prop where
  warp : d.warp = 32
  perSM : 0 < d.perSM ∧ 32 ∣ d.perSM
  perBlock : 64 ≤ d.perBlock ∧ d.perBlock ≤ 1024

/-- Default number of threads per block. -/
def Device.dflt (d : Device) : Nat := shrink d.perBlock (lowBit d.perSM)

theorem Device.Ok.dflt {d : Device} (h : d.Ok) :
    ∃ k, 5 ≤ k ∧ d.dflt = 2 ^ k ∧ 2 ^ k ≤ d.perBlock := by
  obtain ⟨k, h1, -, h3⟩ := lowBit_pow d.perSM (by have := h.perSM.1; omega)
  obtain ⟨j, h4, h5, h6⟩ := shrink_pow d.perBlock (by have := h.perBlock.1; omega) k
  refine ⟨j, ?_, by rw [Device.dflt, h1, h4], h5⟩
  by_contra hj
  rcases h6 with rfl | h6
  · exact h3 ((Nat.pow_dvd_pow 2 (show j + 1 ≤ 5 by omega)).trans h.perSM.2)
  · have : 2 ^ (j + 1) ≤ 2 ^ 5 := Nat.pow_le_pow_right (by norm_num) (by omega)
    have := h.perBlock.1
    omega

/-- The static variables are consistent. -/
structure TA.Ok (d : Device) (s : TA) : Prop where
  pow : ∀ T, s.maxT = some T → (∃ k, T = 2 ^ k) ∧ d.warp ∣ T ∧ s.warp = d.warp
  cache : ∀ T, s.maxT = some T → s.logical ≠ 0 → s.tpb = T ∧
    s.blocks = (s.logical + T - 1) / T ∧ s.unused = decide (s.blocks * T > s.logical)

theorem TA.start_ok (d : Device) : TA.start.Ok d := ⟨nofun, nofun⟩

theorem perBlock_ok {d : Device} {s s' : TA} {v : Int} (h : s.setThreadsPerBlock d v = .ok s') :
    s'.Ok d ∧ 0 < v ∧ s'.maxT = some v.toNat ∧ s'.logical = 0 ∧ s'.blocks = 0 ∧
      (∃ k, v.toNat = 2 ^ k) ∧ d.warp ∣ v.toNat := by
  unfold TA.setThreadsPerBlock at h
  split_ifs at h with h1 h2 h3 h4 h5 h6
  cases h
  have hv : 0 < v := by omega
  obtain ⟨k, hk⟩ := pow2_of_and (by omega) (not_not.1 h3)
  have hd : d.warp ∣ v.toNat := Nat.dvd_of_mod_eq_zero (not_not.1 h5)
  refine ⟨⟨fun T hT => ?_, fun T hT hl => absurd rfl hl⟩, hv, rfl, rfl, rfl, ⟨k, hk⟩, hd⟩
  simp only [Option.some.injEq] at hT
  subst hT
  exact ⟨⟨k, hk⟩, hd, rfl⟩

theorem perBlock_pow {d : Device} (s : TA) {k : Nat} (hd : 0 < d.warp) (hk : d.warp ∣ 2 ^ k) :
    s.setThreadsPerBlock d ((2 ^ k : Nat) : Int) =
      .ok { s with maxT := some (2 ^ k), blocks := 0, logical := 0, warp := d.warp } := by
  have hp : 0 < 2 ^ k := by positivity
  unfold TA.setThreadsPerBlock
  rw [if_neg (by omega), if_neg (by omega), if_neg, if_neg (by omega), if_neg, if_neg (by omega)]
  · simp only [Int.toNat_natCast]
  · simp only [Int.toNat_natCast, ne_eq, not_not]; exact Nat.mod_eq_zero_of_dvd hk
  · simp only [Int.toNat_natCast, ne_eq, not_not]; exact and_of_pow2 k

theorem logical_some {d : Device} {s : TA} {T : Nat} (h : s.maxT = some T) (n : Nat) :
    s.setThreadsLogical d n = s.goLogical n T := by
  simp only [TA.setThreadsLogical, h]

theorem logical_none {d : Device} {s : TA} (h : s.maxT = none) (n : Nat) :
    s.setThreadsLogical d n = s.setDefault d >>= fun s => s.setThreadsLogical d n := by
  conv_lhs => unfold TA.setThreadsLogical
  simp only [h]
  rcases e : s.setDefault d with s' | _ | _
  · obtain ⟨-, -, hm, -⟩ := perBlock_ok e
    simp only [Res.ok_bind, hm]
    rw [logical_some hm]
  · rfl
  · rfl

theorem goLogical_ok {d : Device} {s s' : TA} {n T : Nat} (hs : s.Ok d) (hT : s.maxT = some T)
    (hn : 0 < n) (h : s.goLogical n T = .ok s') :
    s'.Ok d ∧ s'.maxT = some T ∧ s'.tpb = T ∧ s'.logical = n ∧ s'.blocks = (n + T - 1) / T ∧
      s'.unused = decide (s'.blocks * T > n) ∧ s'.warp = d.warp := by
  have hw := (hs.pow T hT).2.2
  unfold TA.goLogical at h
  split_ifs at h with h1 h2
  · cases h
    have := hs.cache T hT (by omega)
    exact ⟨hs, hT, this.1, h1, by rw [this.2.1, h1], by rw [this.2.2, h1], hw⟩
  · cases h
    refine ⟨⟨fun T' hT' => hs.pow T' hT', fun T' hT' _ => ?_⟩, hT, rfl, rfl, rfl, rfl, hw⟩
    simp only at hT' ⊢
    rw [hT] at hT'
    cases hT'
    exact ⟨rfl, rfl, rfl⟩

theorem goLogical_total {s : TA} {n T : Nat}
    (h : n + T ≤ 2147483648) (hT0 : 0 < T) : ∃ s', s.goLogical n T = .ok s' := by
  unfold TA.goLogical
  split_ifs with h1 h2
  · exact ⟨_, rfl⟩
  · exfalso
    have := Nat.div_mul_le_self (n + T - 1) T
    omega
  · exact ⟨_, rfl⟩

theorem logical_ok {d : Device} {s s' : TA} {n : Nat} (hs : s.Ok d) (hn : 0 < n)
    (h : s.setThreadsLogical d n = .ok s') :
    s'.Ok d ∧ s'.maxT = some s'.tpb ∧ s'.logical = n ∧
      s'.blocks = (n + s'.tpb - 1) / s'.tpb ∧ s'.unused = decide (s'.blocks * s'.tpb > n) := by
  rcases hm : s.maxT with _ | T
  · rw [logical_none hm, Res.bind_eq_ok] at h
    obtain ⟨s1, h1, h2⟩ := h
    obtain ⟨ho, -, hm1, -⟩ := perBlock_ok h1
    rw [logical_some hm1] at h2
    obtain ⟨a, b, c, e, f, g, -⟩ := goLogical_ok ho hm1 hn h2
    rw [c]
    exact ⟨a, b, e, f, g⟩
  · rw [logical_some hm] at h
    obtain ⟨a, b, c, e, f, g, -⟩ := goLogical_ok hs hm hn h
    rw [c]
    exact ⟨a, b, e, f, g⟩

theorem logical_zero_ok {d : Device} {s s' : TA} (hs : s.Ok d)
    (h : s.setThreadsLogical d 0 = .ok s') : s'.Ok d := by
  have key : ∀ (s : TA) (T : Nat), s.Ok d → s.maxT = some T → s.goLogical 0 T = .ok s' →
      s'.Ok d := by
    intro s T hs hT h
    unfold TA.goLogical at h
    split_ifs at h with h1 h2
    · cases h; exact hs
    · cases h
      exact ⟨fun T' hT' => hs.pow T' hT', fun T' _ hl => absurd rfl hl⟩
  rcases hm : s.maxT with _ | T
  · rw [logical_none hm, Res.bind_eq_ok] at h
    obtain ⟨s1, h1, h2⟩ := h
    obtain ⟨ho, -, hm1, -⟩ := perBlock_ok h1
    rw [logical_some hm1] at h2
    exact key _ _ ho hm1 h2
  · rw [logical_some hm] at h
    exact key _ _ hs hm h

theorem call_ok {d : Device} {s s' : TA} {c : TACall} (hs : s.Ok d) (h : s.call d c = .ok s') :
    s'.Ok d := by
  cases c with
  | perBlock v => exact (perBlock_ok h).1
  | default => exact (perBlock_ok (v := (shrink d.perBlock (lowBit d.perSM) : Nat)) h).1
  | logical n =>
    rcases Nat.eq_zero_or_pos n with rfl | hn
    · exact logical_zero_ok hs h
    · exact (logical_ok hs hn h).1

theorem calls_ok {d : Device} : ∀ {cs : List TACall} {s s' : TA}, s.Ok d →
    s.calls d cs = .ok s' → s'.Ok d
  | [], s, s', hs, h => by cases h; exact hs
  | c :: cs, s, s', hs, h => by
    rw [TA.calls, Res.bind_eq_ok] at h
    obtain ⟨s1, h1, h2⟩ := h
    exact calls_ok (call_ok hs h1) h2

/-! ## Configuration of a reduction -/

/-- `T` threads per block will be used, and the device supports it. -/
def TA.Uses (d : Device) (s : TA) (T : Nat) : Prop :=
  s.Ok d ∧ (s.maxT = some T ∨ s.maxT = none ∧ T = d.dflt) ∧ T ≤ d.perBlock

theorem Uses.pow {d : Device} (hd : d.Ok) {s : TA} {T : Nat} (h : s.Uses d T) :
    ∃ k, 5 ≤ k ∧ T = 2 ^ k := by
  obtain ⟨ho, hm | ⟨-, rfl⟩, -⟩ := h
  · obtain ⟨⟨k, rfl⟩, hw, -⟩ := ho.pow T hm
    refine ⟨k, ?_, rfl⟩
    rw [hd.warp] at hw
    by_contra hk
    have := Nat.le_of_dvd (by positivity) hw
    have : 2 ^ k ≤ 2 ^ 4 := Nat.pow_le_pow_right (by norm_num) (by omega)
    omega
  · obtain ⟨k, h1, h2, -⟩ := hd.dflt
    exact ⟨k, h1, h2⟩

theorem setLogical_uses {d : Device} (hd : d.Ok) {s : TA} {T : Nat} (h : s.Uses d T) {n : Nat}
    (hn : 0 < n) (hle : n + T ≤ 2147483648) : ∃ s', s.setThreadsLogical d n = .ok s' ∧
      s'.Uses d T ∧ s'.maxT = some T ∧ s'.tpb = T ∧ s'.blocks = (n + T - 1) / T ∧
      s'.warp = 32 := by
  obtain ⟨k, hk, hT⟩ := Uses.pow hd h
  have hT0 : 0 < T := by rw [hT]; positivity
  obtain ⟨ho, hm | ⟨hm, rfl⟩, hp⟩ := h
  · obtain ⟨s', hs'⟩ := goLogical_total (s := s) hle hT0
    obtain ⟨a, b, c, e, f, g, w⟩ := goLogical_ok ho hm hn hs'
    exact ⟨s', by rw [logical_some hm, hs'], ⟨a, .inl b, hp⟩, b, c, f, w.trans hd.warp⟩
  · have hw : d.warp ∣ 2 ^ k := by rw [hd.warp]; exact Nat.pow_dvd_pow 2 hk
    have h1 := perBlock_pow (d := d) s (k := k) (by rw [hd.warp]; norm_num) hw
    rw [← hT] at h1
    obtain ⟨ho1, -, hm1, -⟩ := perBlock_ok h1
    simp only [Int.toNat_natCast] at hm1
    obtain ⟨s', hs'⟩ := goLogical_total (s := { s with maxT := some d.dflt, blocks := 0, logical := 0, warp := d.warp }) hle hT0
    obtain ⟨a, b, c, e, f, g, w⟩ := goLogical_ok ho1 rfl hn hs'
    refine ⟨s', ?_, ⟨a, .inl b, hp⟩, b, c, f, w.trans hd.warp⟩
    rw [logical_none hm, TA.setDefault]
    rw [show ((shrink d.perBlock (lowBit d.perSM) : Nat) : Int) = ((d.dflt : Nat) : Int) from rfl,
      h1, Res.ok_bind, logical_some rfl, hs']

theorem configure_uses {d : Device} (hd : d.Ok) {s : TA} {T : Nat} (h : s.Uses d T) {n : Nat}
    (hn : 0 < halved n) (hle : halved n + 1024 ≤ 2147483648) :
    ∃ s', configure d s n = .ok s' ∧ s'.Uses d (max T 64) ∧ s'.tpb = max T 64 ∧
      s'.blocks = (halved n + max T 64 - 1) / max T 64 := by
  obtain ⟨k, hk, hT⟩ := Uses.pow hd h
  have hTle : T ≤ 1024 := h.2.2.trans hd.perBlock.2
  obtain ⟨s1, h1, h2, h3, h4, h5, h6⟩ := setLogical_uses hd h hn (by omega)
  by_cases hlt : T < 64
  · have hw : d.warp ∣ 2 ^ 6 := by rw [hd.warp]; norm_num
    have hp := perBlock_pow (d := d) s1 (k := 6) (by rw [hd.warp]; norm_num) hw
    have hu := (perBlock_ok hp).1
    obtain ⟨s2, g1, g2, g3, g4, g5, g6⟩ := setLogical_uses hd (s := { s1 with maxT := some (2 ^ 6), blocks := 0, logical := 0, warp := d.warp }) (T := 64) (n := halved n)
      ⟨hu, .inl rfl, hd.perBlock.1⟩ hn (by omega)
    rw [max_eq_right hlt.le]
    refine ⟨s2, ?_, g2, g4, g5⟩
    rw [configure, h1, Res.ok_bind, if_pos (by rw [h4]; exact hlt)]
    rw [show (64 : Int) = ((2 ^ 6 : Nat) : Int) by norm_num, hp, Res.ok_bind, g1, Res.ok_bind, g6]
    rfl
  · rw [max_eq_left (by omega)]
    refine ⟨s1, ?_, h2, h4, h5⟩
    rw [configure, h1, Res.ok_bind, if_neg (by rw [h4]; exact hlt), Res.ok_bind, h6]
    rfl

theorem max64_pow {d : Device} (hd : d.Ok) {s : TA} {T : Nat} (h : s.Uses d T) :
    ∃ j, 6 ≤ j ∧ max T 64 = 2 ^ j := by
  obtain ⟨k, hk, rfl⟩ := Uses.pow hd h
  by_cases h6 : 6 ≤ k
  · exact ⟨k, h6, max_eq_left (show 2 ^ 6 ≤ 2 ^ k from Nat.pow_le_pow_right (by norm_num) h6)⟩
  · obtain rfl : k = 5 := by omega
    exact ⟨6, le_rfl, by norm_num⟩

theorem toFloat_small {n : Nat} (h : n ≤ 2 ^ 24) : toFloat n = n := by
  rcases h.lt_or_eq with h | rfl
  · rw [toFloat, if_pos h]
  · decide +kernel

theorem toFloat_le {n : Nat} (h : n ≤ 2 ^ 30) : toFloat n ≤ 2 ^ 30 := by
  unfold toFloat
  split_ifs with h1
  · exact h
  · have h0 : n ≠ 0 := by omega
    rcases h.lt_or_eq with hlt | rfl
    · have hlog : Nat.log2 n < 30 := (Nat.log2_lt h0).2 hlt
      have hlog' : 24 ≤ Nat.log2 n := (Nat.le_log2 h0).2 (by omega)
      obtain ⟨e, he⟩ : ∃ e, Nat.log2 n - 23 = e := ⟨_, rfl⟩
      simp only [he]
      have hq : n / 2 ^ e < 2 ^ (30 - e) := by
        rw [Nat.div_lt_iff_lt_mul (by positivity), ← pow_add]
        rwa [show 30 - e + e = 30 by omega]
      have hpow : 2 ^ (30 - e) * 2 ^ e = 2 ^ 30 := by
        rw [← pow_add]; congr 1; omega
      rw [← hpow]
      refine Nat.mul_le_mul_right _ ?_
      split_ifs <;> omega
    · decide +kernel

end Verif.Cuda
