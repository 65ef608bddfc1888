import Verif.Cuda.Reduce
import Verif.Cuda.GpuLemmas
import Mathlib.Algebra.BigOperators.Intervals

/-!
# Lemmas about parallel reductions
-/

set_option autoImplicit false
set_option linter.unusedSectionVars false

namespace Verif.Cuda

variable {K : Type} [Inhabited K]

/-! ## One block -/

theorem phase_raceFree (op : K → K → K) (s : Nat) : RaceFree (phaseProg op s) := by
  intro t u htu i hi j hj
  simp only [phaseProg] at hi hj
  split_ifs at hi hj
  all_goals simp only [List.mem_singleton, List.not_mem_nil] at hi hj
  subst hi hj
  simp only [redInstr, List.mem_cons, List.not_mem_nil, or_false]
  omega

theorem phase_fair {op : K → K → K} {s : Nat} {sch : List Nat}
    (h : ∀ t < s, 3 ≤ sch.count t) : Fair (phaseProg op s) sch := by
  intro t
  simp only [phaseProg]
  split_ifs with ht
  · simpa [cost, redInstr] using h t ht
  · simp [cost]

/-- `m'` is `m` after one level of the reduction. -/
def Halve (op : K → K → K) (s : Nat) (m m' : Nat → K) : Prop :=
  ∀ t < s, m' t = op (m t) (m (t + s))

theorem phase_halve {op : K → K → K} {s : Nat} {sch : List Nat}
    (h : ∀ t < s, 3 ≤ sch.count t) (m : Nat → K) :
    Halve op s m (runAll (phaseProg op s) sch m) := by
  intro t ht
  have := (race_free (phase_raceFree op s) (phase_fair h) m).1 t t
    ⟨redInstr op s t, by simp [phaseProg, ht], rfl⟩
  rw [this]
  simp [phaseProg, ht, exec, redInstr]

/-- A quantity that every level of the reduction preserves. -/
def Preserved {V : Type} (op : K → K → K) (Φ : (Nat → K) → Nat → V) : Prop :=
  ∀ s m m', Halve op s m m' → Φ m' s = Φ m (2 * s)

theorem strides_pow : ∀ j, 5 ≤ j →
    strides (2 ^ (j + 1)) = 2 ^ (j + 1) :: strides (2 ^ j) := by
  intro j hj
  rw [strides, dif_pos, Nat.pow_succ, Nat.mul_div_cancel _ (by norm_num)]
  have : 2 ^ 5 ≤ 2 ^ j := Nat.pow_le_pow_right (by norm_num) hj
  rw [Nat.pow_succ]; omega

theorem strides_five : strides (2 ^ 5) = [] := by rw [strides, dif_neg (by norm_num)]

theorem lockstep_preserved {V : Type} {op : K → K → K} {Φ : (Nat → K) → Nat → V}
    (hΦ : Preserved op Φ) (m : Nat → K) : Φ (lockstep op m) 1 = Φ m 64 := by
  have key : ∀ s, s ≤ 32 → ∀ m : Nat → K,
      Φ (fun t => if t < 32 then op (m t) (m (t + s)) else m t) s = Φ m (2 * s) :=
    fun s hs m => hΦ s m _ fun t ht => by rw [if_pos (by omega)]
  simp only [lockstep, warpStrides, List.foldl_cons, List.foldl_nil]
  rw [key 1 (by norm_num), key 2 (by norm_num), key 4 (by norm_num), key 8 (by norm_num),
    key 16 (by norm_num), key 32 (by norm_num)]

theorem strideLoop_preserved {V : Type} {op : K → K → K} {Φ : (Nat → K) → Nat → V}
    (hΦ : Preserved op Φ) {sch : Nat → List Nat} (hs : ∀ s, ∀ t < s, 3 ≤ (sch s).count t) :
    ∀ (j : Nat), 5 ≤ j → ∀ m : Nat → K,
      Φ ((strides (2 ^ j)).foldl (fun m s => runAll (phaseProg op s) (sch s) m) m) 64 =
        Φ m (2 ^ (j + 1)) := by
  intro j hj
  induction j, hj using Nat.le_induction with
  | base => intro m; rw [strides_five]; rfl
  | succ j hj ih =>
    intro m
    rw [strides_pow j hj, List.foldl_cons, ih, hΦ _ _ _ (phase_halve (hs _) m)]
    congr 1
    rw [Nat.pow_succ]; ring

theorem blockReduce_preserved {V : Type} {op : K → K → K} {Φ : (Nat → K) → Nat → V}
    (hΦ : Preserved op Φ) {sch : Nat → List Nat} (hs : ∀ s, ∀ t < s, 3 ≤ (sch s).count t)
    {k : Nat} (hk : 6 ≤ k) (m : Nat → K) :
    ∃ m' : Nat → K, m' 0 = blockReduce op (2 ^ k) sch m ∧ Φ m' 1 = Φ m (2 ^ k) := by
  refine ⟨lockstep op (strideLoop op sch (2 ^ k) m), rfl, ?_⟩
  obtain ⟨j, rfl⟩ : ∃ j, k = j + 1 := ⟨k - 1, by omega⟩
  rw [lockstep_preserved hΦ, strideLoop, Nat.pow_succ, Nat.mul_div_cancel _ (by norm_num),
    strideLoop_preserved hΦ hs j (by omega), Nat.pow_succ]

theorem sum_preserved {K : Type} [AddCommMonoid K] :
    Preserved (fun a b : K => a + b) fun m n => ∑ i ∈ Finset.range n, m i := by
  intro s m m' h
  simp only
  rw [two_mul, Finset.sum_range_add, ← Finset.sum_add_distrib]
  refine Finset.sum_congr rfl fun t ht => ?_
  rw [h t (by simpa using ht), add_comm t s]

theorem pred_preserved {op : K → K → K} {P : K → Prop} (hop : ∀ a b, P (op a b) ↔ P a ∧ P b) :
    Preserved op fun m n => ∀ i < n, P (m i) := by
  intro s m m' h
  refine propext ⟨fun hm i hi => ?_, fun hm i hi => ?_⟩
  · by_cases hs : i < s
    · have := hm i hs
      rw [h i hs, hop] at this
      exact this.1
    · have := hm (i - s) (by omega)
      rw [h _ (by omega), hop, show i - s + s = i by omega] at this
      exact this.2
  · rw [h i hi, hop]
    exact ⟨hm _ (by omega), hm _ (by omega)⟩

theorem blockReduce_sum {K : Type} [Inhabited K] [AddCommMonoid K] {sch : Nat → List Nat}
    (hs : ∀ s, ∀ t < s, 3 ≤ (sch s).count t) {k : Nat} (hk : 6 ≤ k) (m : Nat → K) :
    blockReduce (fun a b => a + b) (2 ^ k) sch m = ∑ i ∈ Finset.range (2 ^ k), m i := by
  obtain ⟨m', h1, h2⟩ := blockReduce_preserved sum_preserved hs hk m
  rw [← h1, ← h2]
  simp

theorem blockReduce_pred {op : K → K → K} {P : K → Prop} (hop : ∀ a b, P (op a b) ↔ P a ∧ P b)
    {sch : Nat → List Nat} (hs : ∀ s, ∀ t < s, 3 ≤ (sch s).count t) {k : Nat} (hk : 6 ≤ k)
    (m : Nat → K) : P (blockReduce op (2 ^ k) sch m) ↔ ∀ i < 2 ^ k, P (m i) := by
  obtain ⟨m', h1, h2⟩ := blockReduce_preserved (pred_preserved hop) hs hk m
  rw [← h1, ← h2]
  constructor
  · intro h i hi
    obtain rfl : i = 0 := by omega
    exact h
  · intro h; exact h 0 (by omega)

/-! ## One launch -/

theorem mapRes_ok {α β : Type} {f : α → Res β} {g : α → β} :
    ∀ {l : List α}, (∀ a ∈ l, f a = .ok (g a)) → mapRes f l = .ok (l.map g)
  | [], _ => rfl
  | a :: l, h => by
    rw [mapRes, h a (by simp), Res.ok_bind, mapRes_ok fun b hb => h b (by simp [hb])]
    rfl

theorem runKernel_ok {k : Kern K} {l : List K} {nB j : Nat} {sch : Nat → Nat → List Nat}
    (hj : 6 ≤ j) {g : Nat → Nat → K}
    (h : ∀ b < nB, ∀ t < 2 ^ j, load k l (2 ^ j) b t = .ok (g b t)) :
    ∃ out : List K, runKernel k l nB (2 ^ j) sch = .ok out ∧
      out = (List.range nB).map fun b => blockReduce k.op (2 ^ j) (sch b)
        fun t => ((List.range (2 ^ j)).map (g b)).getD t default := by
  refine ⟨_, mapRes_ok fun b hb => ?_, rfl⟩
  rw [List.mem_range] at hb
  have : 2 ^ 6 ≤ 2 ^ j := Nat.pow_le_pow_right (by norm_num) hj
  rw [runBlock, if_neg (by omega), mapRes_ok fun t ht => h b hb t (by simpa using ht)]
  rfl

theorem getD_range (g : Nat → K) {n t : Nat} (h : t < n) :
    ((List.range n).map g).getD t default = g t := by
  simp [List.getD, h]

theorem load_sum {K : Type} [Inhabited K] [AddCommMonoid K] (l : List K) (T b t : Nat) :
    load kSum l T b t =
      .ok (l.getD (b * (T * 2) + t) 0 + l.getD (b * (T * 2) + t + T) 0) := by
  simp only [load, kSum, List.getD]
  rcases h1 : l[b * (T * 2) + t]? with _ | v
  · have : l[b * (T * 2) + t + T]? = none := by
      rw [List.getElem?_eq_none_iff] at h1 ⊢; omega
    simp [this]
  · rcases h2 : l[b * (T * 2) + t + T]? with _ | w <;> simp

theorem sum_getD {K : Type} [AddCommMonoid K] (l : List K) (n : Nat) :
    ∑ i ∈ Finset.range n, l.getD i 0 = (l.take n).sum := by
  induction n with
  | zero => simp
  | succ n ih =>
    rw [Finset.sum_range_succ, ih, List.take_add_one, List.sum_append]
    rcases h : l[n]? with _ | v <;> simp [h]

theorem sum_blocks {K : Type} [AddCommMonoid K] (f : Nat → K) (T nB : Nat) :
    ((List.range nB).map fun b =>
      ∑ t ∈ Finset.range T, (f (b * (T * 2) + t) + f (b * (T * 2) + t + T))).sum =
      ∑ i ∈ Finset.range (nB * (T * 2)), f i := by
  induction nB with
  | zero => simp
  | succ n ih =>
    rw [List.range_succ, List.map_append, List.sum_append, ih, Nat.succ_mul,
      Finset.sum_range_add, mul_two, Finset.sum_range_add]
    simp only [List.map_cons, List.map_nil, List.sum_cons, List.sum_nil, add_zero]
    rw [Finset.sum_add_distrib]
    congr 2
    refine Finset.sum_congr rfl fun t _ => ?_
    congr 1; omega

/-- A launch of the sum kernel adds up the elements covered by the blocks. -/
theorem kernel_sum {K : Type} [Inhabited K] [AddCommMonoid K] (l : List K) {nB j : Nat}
    (hj : 6 ≤ j) {sch : Nat → Nat → List Nat}
    (hs : ∀ b s, ∀ t < s, 3 ≤ (sch b s).count t) :
    ∃ out : List K, runKernel kSum l nB (2 ^ j) sch = .ok out ∧ out.length = nB ∧
      out.sum = (l.take (nB * (2 ^ j * 2))).sum := by
  obtain ⟨out, h1, h2⟩ := runKernel_ok (k := kSum) (l := l) (nB := nB) (sch := sch) hj
    fun b _ t _ => load_sum l (2 ^ j) b t
  refine ⟨out, h1, by rw [h2]; simp, ?_⟩
  rw [h2, ← sum_getD, ← sum_blocks]
  congr 1
  refine List.map_congr_left fun b _ => ?_
  rw [show (kSum : Kern K).op = fun a b => a + b from rfl, blockReduce_sum (hs b) hj]
  refine Finset.sum_congr rfl fun t ht => ?_
  rw [getD_range _ (by simpa using ht)]

/-- Value loaded by the order kernels. -/
def loadV (k : Kern K) (l : List K) (T b t : Nat) : K :=
  match load k l T b t with
  | .ok v => v
  | _ => default

theorem kernel_pred {k : Kern K} {P : K → Prop} (hop : ∀ a b, P (k.op a b) ↔ P a ∧ P b)
    (hfirst : ∀ a b, P (k.first a b) ↔ P a ∧ P b) {l : List K} (hl : 0 < l.length)
    (hpad : ∀ z, k.pad = some z → ∀ x ∈ l, P (k.pre x) → P z) {nB j : Nat} (hj : 6 ≤ j)
    (hcov : l.length ≤ nB * (2 ^ j * 2)) (hin : k.pad = none → nB * (2 ^ j * 2) ≤
      2 * l.length + 2 ^ j)
    {sch : Nat → Nat → List Nat} (hs : ∀ b s, ∀ t < s, 3 ≤ (sch b s).count t) :
    ∃ out : List K, runKernel k l nB (2 ^ j) sch = .ok out ∧ out.length = nB ∧
      ((∀ x ∈ out, P x) ↔ ∀ x ∈ l, P (k.pre x)) := by
  set T := 2 ^ j with hT
  have hTpos : 0 < T := by positivity
  have hld : ∀ b < nB, ∀ t < T, load k l T b t = .ok (loadV k l T b t) := by
    intro b hb t ht
    have h1 : (b + 1) * (T * 2) ≤ nB * (T * 2) := Nat.mul_le_mul_right _ hb
    rw [add_mul, one_mul] at h1
    unfold loadV
    rw [load]
    rcases h : l[b * (T * 2) + t]? with _ | v
    · rcases hp : k.pad with _ | z
      · simp only
        have := hin hp
        rw [List.getElem?_eq_none_iff] at h
        rw [List.getElem?_eq_getElem (show b * (T * 2) + t - l.length < l.length by omega)]
      · simp only
    · simp only
      rcases h2 : l[b * (T * 2) + t + T]? with _ | w <;> simp only
  obtain ⟨out, h1, h2⟩ := runKernel_ok (k := k) (l := l) (nB := nB) (sch := sch) hj hld
  refine ⟨out, h1, by rw [h2]; simp, ?_⟩
  rw [h2]
  have key : (∀ x ∈ (List.range nB).map (fun b => blockReduce k.op (2 ^ j) (sch b)
      fun t => ((List.range (2 ^ j)).map (loadV k l T b)).getD t default), P x) ↔
      ∀ b < nB, ∀ t < T, P (loadV k l T b t) := by
    simp only [List.mem_map, List.mem_range, forall_exists_index, and_imp,
      forall_apply_eq_imp_iff₂]
    refine forall₂_congr fun b _ => ?_
    rw [blockReduce_pred hop (hs b) hj]
    refine forall₂_congr fun t ht => ?_
    rw [getD_range _ ht]
  rw [key]
  constructor
  · intro h x hx
    obtain ⟨i, hi, rfl⟩ := List.mem_iff_getElem.1 hx
    have hb : i / (T * 2) < nB := Nat.div_lt_of_lt_mul (by rw [mul_comm]; omega)
    have hmod := Nat.mod_lt i (show 0 < T * 2 by omega)
    have hdm := Nat.div_add_mod' i (T * 2)
    by_cases hlt : i % (T * 2) < T
    · have := h _ hb _ hlt
      rw [loadV, load] at this
      simp only [hdm, List.getElem?_eq_getElem hi] at this
      rcases h2 : l[i + T]? with _ | w
      · simpa [h2] using this
      · simp only [h2, hfirst] at this
        exact this.1
    · have := h _ hb (i % (T * 2) - T) (by omega)
      rw [loadV, load] at this
      have e : i / (T * 2) * (T * 2) + (i % (T * 2) - T) = i - T := by omega
      simp only [e, List.getElem?_eq_getElem (show i - T < l.length by omega),
        show i - T + T = i by omega, List.getElem?_eq_getElem hi, hfirst] at this
      exact this.2
  · intro h b hb t ht
    have h0 := hld b hb t ht
    rw [load] at h0
    rcases h3 : l[b * (T * 2) + t]? with _ | v
    · simp only [h3] at h0
      rcases hp : k.pad with _ | z
      · simp only [hp] at h0
        rcases h4 : l[b * (T * 2) + t - l.length]? with _ | v
        · rw [h4] at h0; simp at h0
        · rw [h4] at h0
          simp only [Res.ok.injEq] at h0
          rw [← h0]
          exact h v (List.mem_of_getElem? h4)
      · simp only [hp, Res.ok.injEq] at h0
        rw [← h0]
        obtain ⟨x, hx⟩ := List.exists_mem_of_length_pos hl
        exact hpad z hp x hx (h x hx)
    · simp only [h3] at h0
      rcases h4 : l[b * (T * 2) + t + T]? with _ | w
      · simp only [h4, Res.ok.injEq] at h0
        rw [← h0]; exact h v (List.mem_of_getElem? h3)
      · simp only [h4, Res.ok.injEq] at h0
        rw [← h0, hfirst]
        exact ⟨h v (List.mem_of_getElem? h3), h w (List.mem_of_getElem? h4)⟩

end Verif.Cuda
