import Verif.Cuda.LoopLemmas
import Mathlib.Algebra.BigOperators.Fin

/-!
# C93: parallel reductions; C94: one-dimensional execution configuration
-/

set_option autoImplicit false
set_option linter.unusedSectionVars false

namespace Verif.Cuda

/-! ## C94 -/

/-- C94: after any history of calls without exception, a request for `n > 0` threads that does not
fail gives a block size that is a positive power of two and a multiple of the warp size, and the
smallest number of blocks for which there are at least `n` threads; the flag for unused threads is
set exactly if there are more than `n`. -/
theorem C94_request_covered (d : Device) (cs : List TACall) (s s' : TA)
    (h : TA.start.calls d cs = .ok s) (n : Nat) (hn : 0 < n)
    (hs : s.setThreadsLogical d n = .ok s') :
    (∃ k, s'.tpb = 2 ^ k) ∧ d.warp ∣ s'.tpb ∧ n ≤ s'.blocks * s'.tpb ∧
      (s'.blocks - 1) * s'.tpb < n ∧ (s'.unused = true ↔ n < s'.blocks * s'.tpb) := by
  obtain ⟨h1, h2, h3, h4, h5⟩ := logical_ok (calls_ok (TA.start_ok d) h) hn hs
  obtain ⟨⟨k, hk⟩, hw, -⟩ := h1.pow _ h2
  have hT : 0 < s'.tpb := by rw [hk]; positivity
  have e1 := Nat.div_add_mod (n + s'.tpb - 1) s'.tpb
  have e2 := Nat.mod_lt (n + s'.tpb - 1) hT
  rw [← h4] at e1
  rw [mul_comm] at e1
  refine ⟨⟨k, hk⟩, hw, by omega, ?_, by rw [h5]; simp⟩
  rw [Nat.sub_mul, one_mul]
  omega

/-- C94: the most recent successful call of `setThreadsPerBlock` determines the block size. -/
theorem C94_user_block_size (d : Device) (s s1 s2 : TA) (v : Int) (n : Nat) (hn : 0 < n)
    (h1 : s.setThreadsPerBlock d v = .ok s1) (h2 : s1.setThreadsLogical d n = .ok s2) :
    s2.tpb = v.toNat := by
  obtain ⟨ho, -, hm, -⟩ := perBlock_ok h1
  rw [logical_some hm] at h2
  exact (goLogical_ok ho hm hn h2).2.2.1

/-- C94: on a device with warps of 32 threads, without a choice by the user, every request of up to
2^31 - 1024 threads succeeds, with at most the number of threads per block that the device allows. -/
theorem C94_default_succeeds (d : Device) (hd : d.Ok) (n : Nat) (hn : 0 < n)
    (hle : n + 1024 ≤ 2147483648) : ∃ s, TA.start.setThreadsLogical d n = .ok s ∧
      s.tpb ≤ d.perBlock := by
  obtain ⟨k, -, h2, h3⟩ := hd.dflt
  have := hd.perBlock.2
  obtain ⟨s, h, -, -, h4, -⟩ := setLogical_uses hd (s := TA.start) (T := d.dflt) (n := n)
    ⟨TA.start_ok d, .inr ⟨rfl, rfl⟩, by rw [h2]; exact h3⟩ hn (by omega)
  exact ⟨s, h, by rw [h4, h2]; exact h3⟩

/-- A device with 1536 threads per multiprocessor. -/
def exDev : Device := ⟨32, 1536, 1024⟩

theorem exDev_ok : exDev.Ok := ⟨rfl, by decide, by decide⟩

/-- Successive requests, one of them repeated. -/
example : ∃ s s', TA.start.calls exDev [.logical 1000, .perBlock 128, .logical 1000] = .ok s ∧
    s.setThreadsLogical exDev 1000 = .ok s' ∧ s'.tpb = 128 ∧ s'.blocks = 8 ∧ s'.unused = true := by
  have h := perBlock_pow (d := exDev) TA.start (k := 9) (by decide) (by decide)
  have hs : TA.start.setDefault exDev =
      .ok { TA.start with maxT := some 512, blocks := 0, logical := 0, warp := 32 } := by
    have e : shrink exDev.perBlock (lowBit exDev.perSM) = 512 := by
      have : lowBit 1536 = 512 := by
        simp [lowBit]
      rw [show exDev.perSM = 1536 from rfl, this, shrink, dif_neg (by decide)]
    rw [TA.setDefault, e]
    exact h
  refine ⟨⟨some 128, 128, 8, 1000, 32, true⟩, ⟨some 128, 128, 8, 1000, 32, true⟩, ?_,
    by decide +kernel, rfl, rfl, rfl⟩
  rw [TA.calls, TA.call, logical_none rfl, hs]
  decide +kernel

/-- Full statement of C94 with respect to the argument of `setThreadsPerBlock`: a value is either
rejected with an exception or can be used on the device. -/
def C94_argument_statement : Prop :=
  ∀ (d : Device), d.Ok → ∀ (v : Int), match TA.start.setThreadsPerBlock d v with
    | .ok s => ∀ T, s.maxT = some T → T ≤ d.perBlock
    | .throw => True
    | .ub => False

/-- C94 is violated: 0 passes both tests and then causes a division by zero, and a block size above
the limit of the device is accepted. -/
theorem C94_argument_violated : ¬ C94_argument_statement ∧
    TA.start.setThreadsPerBlock exDev 0 = .ub ∧
    ∃ s, TA.start.setThreadsPerBlock exDev 2048 = .ok s ∧ s.maxT = some 2048 := by
  have h0 : TA.start.setThreadsPerBlock exDev 0 = .ub := by decide +kernel
  refine ⟨fun h => ?_, h0, ⟨_, rfl, rfl⟩⟩
  have := h exDev exDev_ok 0
  rw [h0] at this
  exact this

/-! ## C93 -/

variable {K : Type} [Inhabited K]

/-- C93: if no thread writes a location that another thread accesses, all interleavings in which
the threads finish lead to the same memory. -/
theorem C93_schedule_independent {K : Type} (progs : Nat → List (Instr K)) (hr : RaceFree progs)
    (sch1 sch2 : List Nat) (h1 : Fair progs sch1) (h2 : Fair progs sch2) (m : Nat → K) :
    runAll progs sch1 m = runAll progs sch2 m := by
  funext x
  by_cases hx : ∃ t, Writes (progs t) x
  · obtain ⟨t, ht⟩ := hx
    rw [(race_free hr h1 m).1 t x ht, (race_free hr h2 m).1 t x ht]
  · push Not at hx
    rw [(race_free hr h1 m).2 x hx, (race_free hr h2 m).2 x hx]

/-- C93: a block of 2^k ≥ 64 threads whose warps run in lockstep computes the sum of its shared
memory, for every interleaving of the threads between barriers. -/
theorem C93_block_sum {K : Type} [Inhabited K] [AddCommMonoid K] (sch : Nat → List Nat)
    (hs : ∀ s, ∀ t < s, 3 ≤ (sch s).count t) (k : Nat) (hk : 6 ≤ k) (m : Nat → K) :
    blockReduce (fun a b => a + b) (2 ^ k) sch m = ∑ i ∈ Finset.range (2 ^ k), m i :=
  blockReduce_sum hs hk m

section Sum

variable {K : Type} [Inhabited K] [AddCommGroup K] {d : Device} {sch : Nat → Nat → Nat → List Nat}

theorem sum_level (hs : FairSched sch) {T : Nat} {S : K} (hT : ∃ j, 6 ≤ j ∧ T = 2 ^ j)
    (l : List K) (i : Nat) (hle : l.length ≤ 2 ^ 24) (hS : l.sum = S) :
    ∃ out, runKernel kSum l (nBlocks l.length T) T (sch i) = .ok out ∧
      out.length = nBlocks l.length T ∧ out.sum = S := by
  obtain ⟨j, hj, rfl⟩ := hT
  obtain ⟨out, h1, h2, h3⟩ := kernel_sum l (nB := nBlocks l.length (2 ^ j)) hj (hs i)
  refine ⟨out, h1, h2, ?_⟩
  rw [h3, List.take_of_length_le (nBlocks_cover hle (by positivity)).1, hS]

/-- C93: for up to 2^30 elements, `sum` returns the sum of the elements that the blocks of the
first launch cover. -/
theorem C93_sum_covered (hd : d.Ok) {ta : TA} {T : Nat} (hta : ta.Uses d T) (hs : FairSched sch)
    (l : List K) (h0 : 100000 ≤ l.length) (hle : l.length ≤ 2 ^ 30) (fuel : Nat)
    (hf : l.length + 2 ≤ fuel) : ∃ ta', gpuSum d sch ta fuel l =
      some (.ok ((l.take (nBlocks l.length (max T 64) * (max T 64 * 2))).sum, ta')) := by
  have hT := max64_pow hd hta
  obtain ⟨out, ta', h1, h2, h3, h4⟩ := reduced_ok hd (always := false) (k0 := kSum) (k1 := kSum)
    (sch := sch) (input := l)
    (A1 := fun x => x.sum = (l.take (nBlocks l.length (max T 64) * (max T 64 * 2))).sum) hta
    (by omega) hle
    (fun _ => by
      obtain ⟨j, hj, e⟩ := hT
      rw [e]
      exact kernel_sum l hj (hs 0))
    (fun x i _ hx hA => sum_level hs hT x i hx hA) hf
  rw [if_pos (.inl h0)] at h4
  refine ⟨ta', ?_⟩
  rw [gpuSum, finish, h1]
  simp [hostSum_eq, h4]

/-- C93: for up to 2^24 elements, every block size and every schedule, `sum` returns the sum of all
elements. -/
theorem C93_sum_partial (hd : d.Ok) {ta : TA} {T : Nat} (hta : ta.Uses d T) (hs : FairSched sch)
    (l : List K) (h0 : 0 < l.length) (hle : l.length ≤ 2 ^ 24) (fuel : Nat)
    (hf : l.length + 2 ≤ fuel) : ∃ ta', gpuSum d sch ta fuel l = some (.ok (l.sum, ta')) := by
  have hT := max64_pow hd hta
  obtain ⟨out, ta', h1, h2, h3, h4⟩ := reduced_ok hd (always := false) (k0 := kSum) (k1 := kSum)
    (sch := sch) (input := l) (A1 := fun x => x.sum = l.sum) hta h0 (by omega)
    (fun _ => sum_level hs hT l 0 hle rfl) (fun x i _ hx hA => sum_level hs hT x i hx hA) hf
  have h5 : out.sum = l.sum := by
    by_cases hc : 100000 ≤ l.length ∨ false = true
    · rwa [if_pos hc] at h4
    · rw [if_neg hc] at h4
      rw [h4]
  refine ⟨ta', ?_⟩
  rw [gpuSum, finish, h1]
  simp [hostSum_eq, h5]

/-- C93: the inner product, likewise. -/
theorem C93_inner_partial {K : Type} [Inhabited K] [Ring K] (hd : d.Ok) {ta : TA} {T : Nat}
    (hta : ta.Uses d T) (hs : FairSched sch) (a b : List K) (hab : a.length = b.length)
    (h0 : 0 < a.length) (hle : a.length ≤ 2 ^ 24) (fuel : Nat) (hf : a.length + 2 ≤ fuel) :
    ∃ ta', gpuInner d sch ta fuel a b =
      some (.ok (∑ i : Fin a.length, a[i] * b[(i : Nat)]'(hab ▸ i.2), ta')) := by
  have hT := max64_pow hd hta
  have hlen : (List.zipWith (· * ·) a b).length = a.length := by simp [hab]
  obtain ⟨out, ta', h1, h2, h3, h4⟩ := reduced_ok hd (always := true) (k0 := kSum) (k1 := kSum)
    (sch := sch) (input := List.zipWith (· * ·) a b)
    (A1 := fun x => x.sum = (List.zipWith (· * ·) a b).sum) hta (by omega) (by omega)
    (fun _ => sum_level hs hT _ 0 (by omega) rfl)
    (fun x i _ hx hA => sum_level hs hT x i hx hA) (fuel := fuel) (by omega)
  rw [if_pos (.inr rfl)] at h4
  refine ⟨ta', ?_⟩
  rw [gpuInner, if_neg (by omega), finish, h1]
  simp only [Option.map_some, Res.ok_bind, hostSum_eq, h4]
  congr 3
  have e : List.zipWith (· * ·) a b =
      List.ofFn fun i : Fin a.length => a[i] * b[(i : Nat)]'(hab ▸ i.2) := by
    apply List.ext_getElem
    · simp [hab]
    · intro i h1 h2; simp
  rw [e, List.sum_ofFn]

end Sum

section Order

variable {K : Type} [Inhabited K] [LinearOrder K] {d : Device}
  {sch : Nat → Nat → Nat → List Nat}

/-- Two kernels for the same extremum; `P u` says that `u` bounds the value. -/
theorem order_result {gt : K → K → Bool} {P : K → K → Prop}
    (hgt : ∀ u a b, P u (if gt a b then a else b) ↔ P u a ∧ P u b)
    {k0 k1 : Kern K} (hk0 : k0.op = pick gt ∧ k0.first = sel gt)
    (hk1 : k1 = ⟨pick gt, sel gt, id, none⟩)
    (hd : d.Ok) {ta : TA} {T : Nat} (hta : ta.Uses d T) (hs : FairSched sch) (always : Bool)
    (hfirst : always = false → k0 = k1) (l : List K) (h0 : 0 < l.length) (hle : l.length ≤ 2 ^ 24)
    (hpad : ∀ z, k0.pad = some z → ∀ u, ∀ x ∈ l, P u (k0.pre x) → P u z)
    (hin : always = true → k0.pad = none → max T 64 ≤ 2 * l.length)
    (fuel : Nat) (hf : l.length + 2 ≤ fuel) :
    ∃ r ta', finish (hostPick gt) (reduced d always k0 k1 l sch ta fuel) = some (.ok (r, ta')) ∧
      ∀ u, P u r ↔ ∀ x ∈ l, P u (k0.pre x) := by
  have hTle : max T 64 ≤ 1024 := max_le (hta.2.2.trans hd.perBlock.2) (by norm_num)
  obtain ⟨j, hj, hT⟩ := max64_pow hd hta
  have hop : ∀ u a b, P u (pick gt a b) ↔ P u a ∧ P u b := fun u a b => by
    rw [pick, hgt, and_comm]
  have hsel : ∀ u a b, P u (sel gt a b) ↔ P u a ∧ P u b := fun u a b => by rw [sel, hgt]
  -- one launch
  have level : ∀ (k : Kern K), k.op = pick gt → k.first = sel gt → ∀ (x : List K) (i : Nat),
      0 < x.length → x.length ≤ 2 ^ 24 →
      (∀ z, k.pad = some z → ∀ u, ∀ y ∈ x, P u (k.pre y) → P u z) →
      (k.pad = none → max T 64 ≤ 2 * x.length) →
      ∃ out, runKernel k x (nBlocks x.length (max T 64)) (max T 64) (sch i) = .ok out ∧
        out.length = nBlocks x.length (max T 64) ∧
        ∀ u, (∀ y ∈ out, P u y) ↔ ∀ y ∈ x, P u (k.pre y) := by
    intro k ho hf1 x i hx0 hxle hxp hxin
    have hcov := nBlocks_cover (n := x.length) (T := max T 64) hxle (by omega)
    have hin' : k.pad = none → nBlocks x.length (max T 64) * (max T 64 * 2) ≤
        2 * x.length + max T 64 := by
      intro hp
      have h1 := hxin hp
      by_cases hc : max T 64 ≤ x.length
      · omega
      · have hone : nBlocks x.length (max T 64) = 1 := by
          rw [nBlocks, halved_small hxle]
          exact Nat.div_eq_of_lt_le (by omega) (by omega)
        rw [hone]; omega
    rw [hT] at hcov hin' ⊢
    choose out a1 a2 a3 using fun u => kernel_pred (k := k) (P := P u) (by rw [ho]; exact hop u)
      (by rw [hf1]; exact hsel u) hx0 (fun z hz => hxp z hz u) hj hcov.1 hin' (hs i)
    refine ⟨out default, a1 _, a2 _, fun u => ?_⟩
    have : out default = out u := by
      have := (a1 default).symm.trans (a1 u)
      simpa using this
    rw [this]
    exact a3 u
  obtain ⟨out, ta', h1, h2, h3, h4⟩ := reduced_ok hd (always := always) (k0 := k0) (k1 := k1)
    (sch := sch) (input := l)
    (A1 := fun x => ∀ u, (∀ y ∈ x, P u y) ↔ ∀ y ∈ l, P u (k0.pre y)) hta h0 (by omega)
    (fun hgo => level k0 hk0.1 hk0.2 l 0 h0 hle hpad fun hp => by
      rcases hgo with hgo | hgo
      · omega
      · exact hin hgo hp)
    (fun x i hx hxle hA => by
      obtain ⟨o, b1, b2, b3⟩ := level k1 (by rw [hk1]) (by rw [hk1]) x i (by omega) hxle
        (fun z hz => by rw [hk1] at hz; cases hz) (fun _ => by omega)
      refine ⟨o, b1, b2, fun u => ?_⟩
      rw [b3 u, ← hA u, hk1]
      rfl) hf
  have h5 : ∀ u, (∀ y ∈ out, P u y) ↔ ∀ y ∈ l, P u (k0.pre y) := by
    split_ifs at h4 with hgo
    · exact h4
    · rw [h4]
      intro u
      have : always = false := by
        by_contra h; exact hgo (.inr (by simpa using h))
      rw [hfirst this, hk1]
      rfl
  choose r c1 c2 using fun u => hostPick_pred (gt := gt) (P := P u) (hgt u) out h2
  refine ⟨r default, ta', by rw [finish, h1]; simp [c1 default], fun u => ?_⟩
  have : r default = r u := by
    have := (c1 default).symm.trans (c1 u)
    simpa using this
  rw [this, c2 u, h5 u]

/-- A bound-preserving value is the maximum. -/
theorem greatest_of {pre : K → K} {l : List K} (h0 : 0 < l.length) {r : K}
    (h : ∀ u, r ≤ u ↔ ∀ x ∈ l, pre x ≤ u) : IsGreatest {y | ∃ x ∈ l, pre x = y} r := by
  have hr := (h r).1 le_rfl
  refine ⟨?_, fun y ⟨x, hx, e⟩ => e ▸ hr x hx⟩
  have : ∀ l : List K, 0 < l.length → ∃ x ∈ l, ∀ y ∈ l, pre y ≤ pre x := by
    intro l
    induction l with
    | nil => simp
    | cons a l ih =>
      intro _
      rcases l with _ | ⟨b, l⟩
      · exact ⟨a, by simp, by simp⟩
      · obtain ⟨x, hx, hmax⟩ := ih (by simp)
        rcases le_total (pre a) (pre x) with hle | hle
        · exact ⟨x, by simp [hx], by
            intro y hy
            rcases List.mem_cons.1 hy with rfl | hy
            · exact hle
            · exact hmax y hy⟩
        · exact ⟨a, by simp, by
            intro y hy
            rcases List.mem_cons.1 hy with rfl | hy
            · exact le_rfl
            · exact (hmax y hy).trans hle⟩
  obtain ⟨x, hx, hmax⟩ := this l h0
  exact ⟨x, hx, le_antisymm (hr x hx) ((h _).2 hmax)⟩

theorem least_of {pre : K → K} {l : List K} (h0 : 0 < l.length) {r : K}
    (h : ∀ u, u ≤ r ↔ ∀ x ∈ l, u ≤ pre x) : IsLeast {y | ∃ x ∈ l, pre x = y} r :=
  greatest_of (K := Kᵒᵈ) (pre := pre) (l := l) h0 h

theorem gt_iff (u a b : K) : (if decide (a > b) then a else b) ≤ u ↔ a ≤ u ∧ b ≤ u := by
  by_cases h : a > b
  · simp only [h, decide_true, if_true]
    exact ⟨fun h1 => ⟨h1, (le_of_lt h).trans h1⟩, And.left⟩
  · simp only [h, decide_false, Bool.false_eq_true, if_false]
    exact ⟨fun h1 => ⟨(not_lt.1 h).trans h1, h1⟩, And.right⟩

theorem lt_iff' (u a b : K) : u ≤ (if decide (a < b) then a else b) ↔ u ≤ a ∧ u ≤ b := by
  by_cases h : a < b
  · simp only [h, decide_true, if_true]
    exact ⟨fun h1 => ⟨h1, h1.trans h.le⟩, And.left⟩
  · simp only [h, decide_false, Bool.false_eq_true, if_false]
    exact ⟨fun h1 => ⟨h1.trans (not_lt.1 h), h1⟩, And.right⟩

/-- C93: `max` returns the greatest element of an array of up to 2^24 elements, for every block
size and every schedule. -/
theorem C93_max_partial (hd : d.Ok) {ta : TA} {T : Nat} (hta : ta.Uses d T) (hs : FairSched sch)
    (l : List K) (h0 : 0 < l.length) (hle : l.length ≤ 2 ^ 24) (fuel : Nat)
    (hf : l.length + 2 ≤ fuel) : ∃ r ta', gpuMax d sch ta fuel l = some (.ok (r, ta')) ∧
      IsGreatest {y | y ∈ l} r := by
  obtain ⟨r, ta', h1, h2⟩ := order_result (P := fun u x => x ≤ u) (fun u a b => gt_iff u a b)
    (k0 := kMax) (k1 := kMax) ⟨rfl, rfl⟩ rfl hd hta hs false (fun _ => rfl) l h0 hle
    (fun z hz => by cases hz) (fun h => by cases h) fuel hf
  refine ⟨r, ta', h1, ?_⟩
  have := greatest_of (pre := id) h0 h2
  simpa using this

/-- C93: `min` returns the least element, likewise. -/
theorem C93_min_partial (hd : d.Ok) {ta : TA} {T : Nat} (hta : ta.Uses d T) (hs : FairSched sch)
    (l : List K) (h0 : 0 < l.length) (hle : l.length ≤ 2 ^ 24) (fuel : Nat)
    (hf : l.length + 2 ≤ fuel) : ∃ r ta', gpuMin d sch ta fuel l = some (.ok (r, ta')) ∧
      IsLeast {y | y ∈ l} r := by
  obtain ⟨r, ta', h1, h2⟩ := order_result (P := fun u x => u ≤ x) (fun u a b => lt_iff' u a b)
    (k0 := kMin) (k1 := kMin) ⟨rfl, rfl⟩ rfl hd hta hs false (fun _ => rfl) l h0 hle
    (fun z hz => by cases hz) (fun h => by cases h) fuel hf
  refine ⟨r, ta', h1, ?_⟩
  have := least_of (pre := id) h0 h2
  simpa using this

/-- C93: `maxAbs` returns the greatest absolute value, likewise. -/
theorem C93_maxAbs_partial {K : Type} [Inhabited K] [AddCommGroup K] [LinearOrder K]
    [IsOrderedAddMonoid K] (hd : d.Ok) {ta : TA} {T : Nat} (hta : ta.Uses d T)
    (hs : FairSched sch) (l : List K) (h0 : 0 < l.length) (hle : l.length ≤ 2 ^ 24) (fuel : Nat)
    (hf : l.length + 2 ≤ fuel) :
    ∃ r ta', gpuMaxAbs d sch ta fuel (fun x => |x|) l = some (.ok (r, ta')) ∧
      IsGreatest {y | ∃ x ∈ l, |x| = y} r := by
  obtain ⟨r, ta', h1, h2⟩ := order_result (P := fun u x => x ≤ u) (fun u a b => gt_iff u a b)
    (k0 := kMaxAbs fun x => |x|) (k1 := kMax) ⟨rfl, rfl⟩ rfl hd hta hs true (fun h => by cases h)
    l h0 hle (fun z hz u x _ hx => by
      cases hz
      exact (abs_nonneg x).trans hx) (fun _ h => by cases h) fuel hf
  exact ⟨r, ta', h1, greatest_of h0 h2⟩

/-- C93: `minAbs` returns the least absolute value if the array has at least half as many elements
as a block has threads. -/
theorem C93_minAbs_partial {K : Type} [Inhabited K] [AddCommGroup K] [LinearOrder K]
    [IsOrderedAddMonoid K] (hd : d.Ok) {ta : TA} {T : Nat} (hta : ta.Uses d T)
    (hs : FairSched sch) (l : List K) (hT : max T 64 ≤ 2 * l.length) (hle : l.length ≤ 2 ^ 24)
    (fuel : Nat) (hf : l.length + 2 ≤ fuel) :
    ∃ r ta', gpuMinAbs d sch ta fuel (fun x => |x|) l = some (.ok (r, ta')) ∧
      IsLeast {y | ∃ x ∈ l, |x| = y} r := by
  have h0 : 0 < l.length := by have := le_max_right T 64; omega
  obtain ⟨r, ta', h1, h2⟩ := order_result (P := fun u x => u ≤ x) (fun u a b => lt_iff' u a b)
    (k0 := kMinAbs fun x => |x|) (k1 := kMin) ⟨rfl, rfl⟩ rfl hd hta hs true (fun h => by cases h)
    l h0 hle (fun z hz => by cases hz) (fun _ _ => hT) fuel hf
  exact ⟨r, ta', h1, least_of h0 h2⟩

theorem mapRes_ub {α β : Type} {f : α → Res β} : ∀ {l : List α}, (∀ a ∈ l, f a ≠ .throw) →
    (∃ a ∈ l, f a = .ub) → mapRes f l = .ub
  | [], _, ⟨a, h, _⟩ => by cases h
  | a :: l, ht, hu => by
    rw [mapRes]
    rcases h : f a with v | _ | _
    · obtain ⟨b, hb, e⟩ := hu
      rcases List.mem_cons.1 hb with rfl | hb
      · rw [h] at e; cases e
      · rw [Res.ok_bind, mapRes_ub (fun c hc => ht c (by simp [hc])) ⟨b, hb, e⟩]
        rfl
    · exact absurd h (ht a (by simp))
    · rfl

/-- C93 is violated: on an array with less than half as many elements as a block has threads,
`minAbs` reads beyond the end of the array. -/
theorem C93_minAbs_violated (hd : d.Ok) {ta : TA} {T : Nat} (hta : ta.Uses d T)
    (abs : K → K) (l : List K) (h0 : 0 < l.length) (hlt : 2 * l.length < max T 64) (fuel : Nat)
    (hf : 0 < fuel) : gpuMinAbs d sch ta fuel abs l = some .ub := by
  obtain ⟨fuel, rfl⟩ : ∃ f, fuel = f + 1 := ⟨fuel - 1, by omega⟩
  have hTle : max T 64 ≤ 1024 := max_le (hta.2.2.trans hd.perBlock.2) (by norm_num)
  have hle : l.length ≤ 2 ^ 24 := by omega
  have hh := halved_small hle
  obtain ⟨s, h1, h2, h3, h4⟩ := configure_uses hd hta (n := l.length) (by omega) (by omega)
  have hone : s.blocks = 1 := by
    rw [h4, hh]
    exact Nat.div_eq_of_lt_le (by omega) (by omega)
  have hk : runKernel (kMinAbs abs) l 1 (max T 64) (sch 0) = .ub := by
    refine mapRes_ub (fun b _ => ?_) ⟨0, by simp, ?_⟩
    · rw [runBlock, if_neg (by omega)]
      rcases h : mapRes (load (kMinAbs abs) l (max T 64) b) (List.range (max T 64)) with v | _ | _
      · simp
      · exfalso
        have : ∀ (f : Nat → Res K) (l : List Nat), (∀ a, f a ≠ .throw) → mapRes f l ≠ .throw := by
          intro f l hf
          induction l with
          | nil => simp [mapRes]
          | cons a l ih =>
            rw [mapRes]
            rcases e : f a with v | _ | _
            · rw [Res.ok_bind]
              rcases e2 : mapRes f l with v | _ | _
              · simp
              · exact absurd e2 ih
              · simp
            · exact absurd e (hf a)
            · simp
        refine this _ _ (fun t => ?_) h
        rw [load]
        simp only [kMinAbs]
        split
        · split <;> simp
        · split <;> simp
      · simp
    · rw [runBlock, if_neg (by omega), mapRes_ub]
      · rfl
      · intro t _
        rw [load]
        simp only [kMinAbs]
        split
        · split <;> simp
        · split <;> simp
      · refine ⟨2 * l.length, by simpa using hlt, ?_⟩
        rw [load]
        have e1 : l[0 * (max T 64 * 2) + 2 * l.length]? = none := by
          rw [List.getElem?_eq_none_iff]; omega
        have e2 : l[0 * (max T 64 * 2) + 2 * l.length - l.length]? = none := by
          rw [List.getElem?_eq_none_iff]; omega
        simp only [e1, e2, kMinAbs]
  rw [gpuMinAbs, finish, reduced, if_neg (by omega), loop, if_pos (.inr ⟨rfl, rfl⟩)]
  simp only [h1, Wrap.src, if_true]
  rw [if_neg (by have := h2.2.2; omega), h3, hone, hk]
  rfl

end Order

/-- One thread after the other. -/
def seqSched (_ _ s : Nat) : List Nat := (List.range s).flatMap fun t => List.replicate 3 t

theorem seqSched_fair : FairSched seqSched := by
  intro i b s t ht
  rw [seqSched]
  have hmem : t ∈ List.range s := by simpa using ht
  obtain ⟨l1, l2, e⟩ := List.append_of_mem hmem
  rw [e]
  simp only [List.flatMap_append, List.flatMap_cons, List.count_append, List.count_replicate_self]
  omega

/-- The hypotheses are met by the default configuration and by a block size of 32 set by the user,
on arrays of any size. -/
example : TA.start.Uses exDev exDev.dflt ∧
    (∃ s, TA.start.setThreadsPerBlock exDev 32 = .ok s ∧ s.Uses exDev 32) ∧
    (∃ ta, gpuSum exDev seqSched TA.start 300002 (List.replicate 300000 (2 : ℚ)) =
      some (.ok (600000, ta))) ∧
    gpuMinAbs exDev seqSched TA.start 5 (fun x : ℚ => |x|) [3, 1, 2] = some .ub := by
  obtain ⟨k, h1, h2, h3⟩ := exDev_ok.dflt
  have hu : TA.start.Uses exDev exDev.dflt :=
    ⟨TA.start_ok _, .inr ⟨rfl, rfl⟩, by rw [h2]; exact h3⟩
  have hp := perBlock_pow (d := exDev) TA.start (k := 5) (by decide) (by decide)
  refine ⟨hu, ⟨_, hp, (perBlock_ok hp).1, .inl rfl, by decide⟩, ?_, ?_⟩
  · obtain ⟨ta, h⟩ := C93_sum_partial exDev_ok hu seqSched_fair (List.replicate 300000 (2 : ℚ))
      (by rw [List.length_replicate]; norm_num) (by rw [List.length_replicate]; norm_num)
      300002 (by rw [List.length_replicate])
    refine ⟨ta, ?_⟩
    rw [h, List.sum_replicate]
    norm_num
  · refine C93_minAbs_violated exDev_ok hu _ _ (by simp) ?_ 5 (by norm_num)
    have := le_max_right exDev.dflt 64
    simp only [List.length_cons, List.length_nil]
    omega

/-- Full statement of C93 for `sum`: any size below 2^30. -/
def C93_sum_statement : Prop :=
  ∀ (d : Device), d.Ok → ∀ (ta : TA) (T : Nat), ta.Uses d T →
    ∀ sch : Nat → Nat → Nat → List Nat, FairSched sch → ∀ l : List ℚ, 0 < l.length →
      l.length ≤ 2 ^ 30 → ∀ fuel, l.length + 2 ≤ fuel →
        ∃ ta', gpuSum d sch ta fuel l = some (.ok (l.sum, ta'))

/-- C93 is violated: with 2^24 + 1 elements, `(float)n` is 2^24 and, for every block size, the last
element is dropped. -/
theorem C93_float_violated : ¬ C93_sum_statement ∧
    ∀ (d : Device), d.Ok → ∀ (ta : TA) (T : Nat), ta.Uses d T →
    ∀ sch : Nat → Nat → Nat → List Nat, FairSched sch → ∀ (l : List ℚ) (x : ℚ),
      l.length = 2 ^ 24 → ∀ fuel, 2 ^ 24 + 3 ≤ fuel →
        ∃ ta', gpuSum d sch ta fuel (l ++ [x]) = some (.ok (l.sum, ta')) := by
  have key : ∀ (d : Device), d.Ok → ∀ (ta : TA) (T : Nat), ta.Uses d T →
    ∀ sch : Nat → Nat → Nat → List Nat, FairSched sch → ∀ (l : List ℚ) (x : ℚ),
      l.length = 2 ^ 24 → ∀ fuel, 2 ^ 24 + 3 ≤ fuel →
        ∃ ta', gpuSum d sch ta fuel (l ++ [x]) = some (.ok (l.sum, ta')) := by
    intro d hd ta T hta sch hs l x hl fuel hf
    have hlen : (l ++ [x]).length = 2 ^ 24 + 1 := by simp [hl]
    obtain ⟨ta', h⟩ := C93_sum_covered hd hta hs (l ++ [x]) (by omega) (by omega) fuel (by omega)
    refine ⟨ta', ?_⟩
    rw [h, hlen]
    obtain ⟨j, hj, hT⟩ := max64_pow hd hta
    have hj' : j ≤ 10 := by
      have h1 : max T 64 ≤ 1024 := max_le (hta.2.2.trans hd.perBlock.2) (by norm_num)
      rw [hT] at h1
      by_contra hc
      have : 2 ^ 11 ≤ 2 ^ j := Nat.pow_le_pow_right (by norm_num) (by omega)
      omega
    have hc : nBlocks (2 ^ 24 + 1) (2 ^ j) * (2 ^ j * 2) = 2 ^ 24 := by
      have hh : halved (2 ^ 24 + 1) = 2 ^ 23 := by decide +kernel
      rw [nBlocks, hh]
      interval_cases j <;> norm_num
    rw [hT, hc, List.take_append_of_le_length (by omega), List.take_of_length_le (by omega)]
  refine ⟨fun h => ?_, key⟩
  obtain ⟨k, h1, h2, h3⟩ := exDev_ok.dflt
  have hu : TA.start.Uses exDev exDev.dflt :=
    ⟨TA.start_ok _, .inr ⟨rfl, rfl⟩, by rw [h2]; exact h3⟩
  obtain ⟨t1, e1⟩ := key exDev exDev_ok TA.start _ hu seqSched seqSched_fair
    (List.replicate (2 ^ 24) 0) 1 (by rw [List.length_replicate]) (2 ^ 24 + 3) le_rfl
  obtain ⟨t2, e2⟩ := h exDev exDev_ok TA.start _ hu seqSched seqSched_fair
    (List.replicate (2 ^ 24) 0 ++ [1]) (by rw [List.length_append, List.length_singleton]; omega) (by
      rw [List.length_append, List.length_replicate, List.length_singleton]; norm_num)
    (2 ^ 24 + 3) (by rw [List.length_append, List.length_replicate, List.length_singleton])
  rw [e1] at e2
  simp only [Option.some.injEq, Res.ok.injEq, Prod.mk.injEq] at e2
  have := e2.1
  rw [List.sum_append, List.sum_replicate] at this
  norm_num at this

/-! ### Independent thread scheduling -/

theorem solo_instr {K : Type} (t : Nat) (dst : Nat) (f : List K → K) (rest : List (Instr K)) :
    ∀ (ss : List Nat) (g : Gpu K) (r : List K), g.th t = ⟨r, ⟨dst, ss, f⟩ :: rest⟩ →
      g.run (List.replicate (ss.length + 1) t) =
        ⟨Function.update g.mem dst (f (r ++ ss.map g.mem)), Function.update g.th t ⟨[], rest⟩⟩
  | [], g, r, h => by simp [Gpu.run, Gpu.step, h]
  | s :: ss, g, r, h => by
    have e : g.run (List.replicate ((s :: ss).length + 1) t) =
        (g.step t).run (List.replicate (ss.length + 1) t) := by
      rw [List.length_cons, List.replicate_succ]; rfl
    have hst : g.step t =
        ⟨g.mem, Function.update g.th t ⟨r ++ [g.mem s], ⟨dst, ss, f⟩ :: rest⟩⟩ := by
      simp [Gpu.step, h]
    rw [e, hst, solo_instr t dst f rest ss _ (r ++ [g.mem s]) (by simp)]
    simp

theorem run_append {K : Type} (g : Gpu K) (a b : List Nat) : g.run (a ++ b) = (g.run a).run b := by
  simp [Gpu.run]

theorem solo {K : Type} (t : Nat) : ∀ (p : List (Instr K)) (g : Gpu K), g.th t = ⟨[], p⟩ →
    g.run (List.replicate (cost p) t) = ⟨exec p g.mem, Function.update g.th t ⟨[], []⟩⟩
  | [], g, h => by
    simp only [cost, List.map_nil, List.sum_nil, List.replicate_zero, Gpu.run, List.foldl_nil, exec]
    rw [← h, Function.update_eq_self]
  | ⟨dst, ss, f⟩ :: p, g, h => by
    have : cost (⟨dst, ss, f⟩ :: p) = (ss.length + 1) + cost p := by simp [cost]
    rw [this, List.replicate_add, run_append, solo_instr t dst f p ss g [] h, solo t p _ (by simp)]
    simp [exec]

/-- A finished thread's cell is not changed by threads that write only their own cells. -/
theorem own_cell {K : Type} (t : Nat) : ∀ (sch : List Nat) (g : Gpu K),
    (∀ u, ∀ i ∈ (g.th u).prog, i.dst = u) → (g.th t).prog = [] → (g.run sch).mem t = g.mem t
  | [], _, _, _ => rfl
  | u :: sch, g, ho, ht => by
    have h1 : (∀ v, ∀ i ∈ ((g.step u).th v).prog, i.dst = v) ∧ ((g.step u).th t).prog = [] ∧
        (g.step u).mem t = g.mem t := by
      unfold Gpu.step
      split
      · exact ⟨ho, ht, rfl⟩
      · rename_i dst f rest hp
        have hd : dst = u := by have := ho u ⟨dst, [], f⟩ (by rw [hp]; simp); simpa using this
        have hne : t ≠ u := by rintro rfl; rw [hp] at ht; cases ht
        refine ⟨fun v i hi => ?_, ?_, ?_⟩
        · by_cases e : v = u
          · subst e
            simp only [Function.update_self] at hi
            exact ho v i (by rw [hp]; simp [hi])
          · simp only [Function.update_of_ne e] at hi
            exact ho v i hi
        · simp only [Function.update_of_ne hne]; exact ht
        · simp only; rw [Function.update_of_ne (by rw [hd]; exact hne)]
      · rename_i dst s ss f rest hp
        have hne : t ≠ u := by rintro rfl; rw [hp] at ht; cases ht
        refine ⟨fun v i hi => ?_, ?_, rfl⟩
        · by_cases e : v = u
          · subst e
            simp only [Function.update_self] at hi
            rcases List.mem_cons.1 hi with rfl | hi
            · exact ho v ⟨dst, s :: ss, f⟩ (by rw [hp]; simp)
            · exact ho v i (by rw [hp]; simp [hi])
          · simp only [Function.update_of_ne e] at hi
            exact ho v i hi
        · simp only [Function.update_of_ne hne]; exact ht
    show ((g.step u).run sch).mem t = _
    rw [own_cell t sch _ h1.1 h1.2.1, h1.2.2]

/-- Thread 0 finishes before the others start. -/
def eager : List Nat := List.replicate 18 0 ++ (List.range 32).flatMap fun t => List.replicate 18 t

theorem eager_fair {K : Type} [Inhabited K] (op : K → K → K) : Fair (warpProg op) eager := by
  intro t
  rw [warpProg]
  split_ifs with h
  · have e : cost (warpStrides.map fun s => redInstr op s t) = 18 := by
      simp [cost, warpStrides, redInstr]
    have hmem : t ∈ List.range 32 := by simpa using h
    obtain ⟨l1, l2, e2⟩ := List.append_of_mem hmem
    rw [e, eager, List.count_append, e2]
    simp only [List.flatMap_append, List.flatMap_cons, List.count_append,
      List.count_replicate_self]
    omega
  · simp [cost]

theorem eager_result {K : Type} [Inhabited K] (op : K → K → K) (m : Nat → K) :
    runAll (warpProg op) eager m 0 =
      op (op (op (op (op (op (m 0) (m 32)) (m 16)) (m 8)) (m 4)) (m 2)) (m 1) := by
  have e : cost (warpProg op 0) = 18 := by simp [warpProg, cost, warpStrides, redInstr]
  have h := solo 0 (warpProg op 0) (launch m (warpProg op)) rfl
  rw [e] at h
  rw [runAll, eager, run_append, h, own_cell]
  · simp only [launch, warpProg, warpStrides, redInstr]
    simp [exec]
  · intro u i hi
    by_cases hu : u = 0
    · subst hu; simp at hi
    · simp only [Function.update_of_ne hu, launch, warpProg] at hi
      split_ifs at hi
      · simp only [List.mem_map] at hi
        obtain ⟨s, -, rfl⟩ := hi
        rfl
      · cases hi
  · simp

/-- Full statement of C93 for the warp functions without the assumption of lockstep execution:
every interleaving of the 32 threads gives the sum of the 64 elements. -/
def C93_warp_statement : Prop :=
  ∀ (sch : List Nat) (m : Nat → ℚ), Fair (warpProg fun a b : ℚ => a + b) sch →
    runAll (warpProg fun a b : ℚ => a + b) sch m 0 = ∑ i ∈ Finset.range 64, m i

/-- C93 is violated for threads of a warp that are scheduled independently (no `__syncwarp`): if
thread 0 runs ahead, the sum has 7 terms instead of 64 and the maximum ignores 57 elements. In
lockstep both are right. -/
theorem C93_warp_violated : ¬ C93_warp_statement ∧
    runAll (warpProg fun a b : ℚ => a + b) eager (fun _ => 1) 0 = 7 ∧
    lockstep (fun a b : ℚ => a + b) (fun _ => 1) 0 = 64 ∧
    runAll (warpProg (kMax : Kern ℚ).op) eager (fun t => if t = 63 then 1 else 0) 0 = 0 ∧
    lockstep (kMax : Kern ℚ).op (fun t => if t = 63 then 1 else 0) 0 = 1 := by
  have h7 : runAll (warpProg fun a b : ℚ => a + b) eager (fun _ => 1) 0 = 7 := by
    rw [eager_result]; norm_num
  refine ⟨fun h => ?_, h7, ?_, ?_, ?_⟩
  · have := h eager (fun _ => 1) (eager_fair _)
    rw [h7] at this
    norm_num at this
  · simp only [lockstep, warpStrides, List.foldl_cons, List.foldl_nil]
    norm_num
  · rw [eager_result]; simp [kMax, pick]
  · decide +kernel

end Verif.Cuda
