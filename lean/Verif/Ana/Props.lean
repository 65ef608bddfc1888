import Verif.Ana.Lemmas
import Mathlib.Algebra.BigOperators.GroupWithZero.Action

/-!
# C102, C103: repeated simulations and block averages
-/

set_option autoImplicit false
set_option linter.unusedSectionVars false

namespace Verif.Ana

open Finset

variable {K V : Type} [Field K] [AddCommGroup V] [Module K V]

/-! ## C103: contents of the files after the first simulation -/

/-- The lines of the data file for the samples `l` of the analyzer: consecutive blocks of `nb` samples,
incomplete blocks left out. -/
def datSpec (K : Type) {V : Type} [Field K] [AddCommGroup V] [Module K V] (nb : Nat) (interval : Int)
    (l : List (Int × V)) : List (Int × V) :=
  (List.range (l.length / nb)).map (blockLine K nb interval (fun k => l.getD k (0, 0)))

/-- Arithmetic mean. -/
def meanOf (K : Type) {V : Type} [Field K] [AddCommGroup V] [Module K V] (l : List V) : V :=
  (l.length : K)⁻¹ • l.sum

theorem getD_eq {α : Type} (d : α) (l : List α) : l = (List.range l.length).map (l.getD · d) :=
  @eq_range_map α ⟨d⟩ l

theorem getD_sum (l : List (Int × V)) :
    ∑ k ∈ range l.length, (l.getD k (0, 0)).2 = (l.map Prod.snd).sum := by
  induction l with
  | nil => rfl
  | cons x t ih =>
    rw [List.length_cons, sum_range_succ', List.map_cons, List.sum_cons, ← ih, add_comm]
    rfl

theorem kept_mem {interval : Int} {l : List (Int × V)} (k : Nat) (h : k < (kept interval l).length) :
    ((kept interval l).getD k (0, 0)).1 % interval = 0 := by
  have h1 : (kept interval l).getD k (0, 0) = (kept interval l)[k] := by simp [List.getD, h]
  rw [h1]
  exact of_decide_eq_true (List.mem_filter.mp (List.getElem_mem h)).2

/-- One command for an analyzer whose file is open or which does not check. -/
theorem one_avg (a : Avg V) (ho : a.nb = 0 ∨ a.isOpen = true ∨ a.strict = false) (l : List (Int × V)) :
    ∃ acc, one K l (.avg a) = .ok (.avg { a with
      acc := acc
      isOpen := false
      dat := a.dat ++ if a.isOpen ∧ 0 < a.nb then datSpec K a.nb a.interval (kept a.interval l) else []
      ave := some (meanOf K ((kept a.interval l).map Prod.snd)) }) := by
  have hk := fun k => @kept_mem V _ a.interval l k
  by_cases h0 : a.nb = 0
  · refine ⟨⟨(kept a.interval l).length, ∑ k ∈ range (kept a.interval l).length,
      ((kept a.interval l).getD k (0, 0)).2, 0, 0⟩, ?_⟩
    unfold one
    show ((sampleSeq K l (.avg a.setup)).bind _) = _
    rw [sampleSeq_avg, avgSeq_kept]
    show (((avgSeq K (kept a.interval l) a.setup).bind _).bind _) = _
    conv_lhs => rw [getD_eq (0, 0) (kept a.interval l)]
    rw [avgSeq_zero _ a.setup h0 rfl _ hk, if_neg (by omega), List.append_nil]
    show Res.ok (Comp.avg _) = _
    unfold meanOf
    rw [List.length_map, ← getD_sum]
    rfl
  · have h : 0 < a.nb := Nat.pos_of_ne_zero h0
    refine ⟨accAt a.nb (fun k => ((kept a.interval l).getD k (0, 0)).2) (kept a.interval l).length, ?_⟩
    have ho' : a.setup.isOpen = true ∨ a.setup.strict = false := by
      rcases ho with ho | ho
      · exact absurd ho h0
      · exact ho
    unfold one
    show ((sampleSeq K l (.avg a.setup)).bind _) = _
    rw [sampleSeq_avg, avgSeq_kept]
    show (((avgSeq K (kept a.interval l) a.setup).bind _).bind _) = _
    conv_lhs => rw [getD_eq (0, 0) (kept a.interval l)]
    rw [avgSeq_blocks a.nb h _ a.setup rfl rfl ho' _ hk]
    show Res.ok (Comp.avg _) = _
    have hp : (a.isOpen ∧ 0 < a.nb) = (a.setup.isOpen = true) := propext ⟨fun x => x.1, fun x => ⟨x, h⟩⟩
    simp only [hp]
    unfold meanOf
    rw [List.length_map, ← getD_sum]
    rfl

/-- One command for an analyzer that checks a closed file. -/
theorem one_closed (a : Avg V) (hn : 0 < a.nb) (ho : a.isOpen = false) (hs : a.strict = true)
    (l : List (Int × V)) (hl : a.nb ≤ (kept a.interval l).length) : one K l (.avg a) = .throw := by
  have hk := fun k => @kept_mem V _ a.interval l k
  unfold one
  show ((sampleSeq K l (.avg a.setup)).bind _) = _
  rw [sampleSeq_avg, avgSeq_kept]
  show (((avgSeq K (kept a.interval l) a.setup).bind _).bind _) = _
  conv_lhs => rw [getD_eq (0, 0) (kept a.interval l)]
  rw [avgSeq_closed a.nb hn _ a.setup rfl rfl ho hs _ hk, if_neg (by omega)]
  rfl

theorem one_writer (w : Writer V) (l : List (Int × V)) :
    one K l (.writer w) = .ok (.writer ⟨w.interval, false, kept w.interval l⟩) := by
  have key : ∀ (l : List (Int × V)) (f : List (Int × V)), sampleSeq K l (.writer ⟨w.interval, true, f⟩) =
      .ok (.writer ⟨w.interval, true, f ++ kept w.interval l⟩) := by
    intro l
    induction l with
    | nil =>
      intro f
      show Res.ok _ = _
      rw [show kept w.interval ([] : List (Int × V)) = [] from rfl, List.append_nil]
    | cons x t ih =>
      intro f
      show sampleSeq K t (.writer (Writer.sample _ x.1 x.2)) = _
      unfold Writer.sample kept
      dsimp only
      by_cases hx : x.1 % w.interval = 0
      · rw [if_pos ⟨hx, rfl⟩, List.filter_cons_of_pos (by simpa using hx), ih, List.append_assoc]
        rfl
      · rw [if_neg (fun h => hx h.1), List.filter_cons_of_neg (by simpa using hx), ih]
        rfl
  unfold one
  show ((sampleSeq K l (.writer ⟨w.interval, true, []⟩)).bind _) = _
  rw [key]
  rfl

theorem one_part (gpu : Bool) (c : Cls) (b : Bool) (h : c.alloc gpu ≠ .setup ∨ b = false)
    (l : List (Int × V)) :
    ∃ b', one K l (Comp.part gpu c b) = .ok (.part gpu c b') := by
  have key : ∀ (b : Bool), sampleSeq K l (Comp.part gpu c b) = .ok (Comp.part gpu c b) := by
    intro b
    induction l with
    | nil => rfl
    | cons x t ih => exact ih
  have hs : ∃ b', (Comp.part gpu c b : Comp V).setup = .ok (.part gpu c b') := by
    unfold Comp.setup
    cases ha : c.alloc gpu <;> cases b <;> simp_all [allocate, Res.bind]
  obtain ⟨b', hb⟩ := hs
  refine ⟨b', ?_⟩
  unfold one
  rw [hb]
  show (sampleSeq K l _).bind _ = _
  rw [key]
  rfl

/-- Files after one command, starting from a fresh component. -/
def filesSpec (K : Type) {V : Type} [Field K] [AddCommGroup V] [Module K V] (s : Spec)
    (l : List (Int × V)) : List (Int × V) × Option V :=
  match s with
  | .part _ _ => ([], none)
  | .avg nb interval _ =>
    (if 0 < nb then datSpec K nb interval (kept interval l) else [],
      some (meanOf K ((kept interval l).map Prod.snd)))
  | .writer interval => (kept interval l, none)

theorem one_fresh (s : Spec) (l : List (Int × V)) :
    ∃ c, one K l s.read = .ok c ∧ c.files = filesSpec K s l := by
  cases s with
  | part gpu c =>
    obtain ⟨b, hb⟩ := @one_part K V _ _ _ gpu c (decide (c.alloc gpu = .read))
      (by cases c.alloc gpu <;> simp) l
    exact ⟨_, hb, rfl⟩
  | avg nb interval strict =>
    obtain ⟨acc, h⟩ := @one_avg K V _ _ _ (Avg.read nb interval strict)
      (by by_cases h : nb = 0
          · exact Or.inl h
          · exact Or.inr (Or.inl (decide_eq_true (Nat.pos_of_ne_zero h)))) l
    refine ⟨_, h, ?_⟩
    unfold Comp.files filesSpec Avg.read
    dsimp only
    by_cases h : 0 < nb
    · rw [if_pos h, if_pos ⟨decide_eq_true h, h⟩]; rfl
    · rw [if_neg h, if_neg (fun x => h x.2)]; rfl
  | writer interval => exact ⟨_, one_writer _ l, rfl⟩

/-- The first command of a session never fails, and leaves these files: for each analyzer, the lines
`filesSpec`. -/
theorem C103_first (specs : List Spec) (r : Run V) :
    ∃ cs, session K [r] (specs.map Spec.read) = .ok cs ∧ cs.length = specs.length ∧
      ∀ (j : Nat) (h : j < specs.length) (h' : j < cs.length), cs[j].files = filesSpec K specs[j] (proj j r) := by
  choose g hg hf using fun (s : Spec) (l : List (Int × V)) => @one_fresh K V _ _ _ s l
  refine ⟨(List.range specs.length).map fun j => g (specs.getD j (.writer 1)) (proj j r),
    (session_ok _ _ _).mpr ((loop_get _ _ _ _).mpr ⟨by simp, ?_⟩), by simp, ?_⟩
  · intro j h h'
    have hj : j < specs.length := by simpa using h
    simp only [List.getElem_map, List.getElem_range, Nat.zero_add]
    show (one K (proj j r) specs[j].read).bind (oneSession K []) = _
    rw [show specs.getD j (.writer 1) = specs[j] by simp [List.getD, hj], hg]
    rfl
  · intro j h h'
    simp only [List.getElem_map, List.getElem_range]
    rw [show specs.getD j (.writer 1) = specs[j] by simp [List.getD, h], hf]

/-- Samples at all steps `0, 1, …, T`, as in a simulation in which every move converges. -/
def steps (T : Nat) (v : Nat → V) : List (Int × V) := (List.range (T + 1)).map fun t : Nat => ((t : Int), v t)

theorem kept_steps (T d : Nat) (hd : 0 < d) (v : Nat → V) :
    kept (d : Int) (steps T v) = (List.range (T / d + 1)).map fun k => (((k * d : Nat) : Int), v (k * d)) := by
  unfold kept steps
  induction T with
  | zero => rw [Nat.zero_div]; simp
  | succ T ih =>
    rw [List.range_succ, List.map_append, List.filter_append, ih]
    rcases pred_div_mod d (T + 1) hd (by omega) with ⟨h1, h2, h3⟩ | ⟨h1, h2, h3⟩
    all_goals simp only [Nat.add_sub_cancel] at h1 h2 h3
    · have e : (T / d + 1) * d = T + 1 := by
        have := Nat.div_add_mod (T + 1) d
        rw [h2, h3, Nat.mul_comm] at this
        omega
      rw [h3, List.range_succ (n := T / d + 1), List.map_append]
      congr 1
      have : ((T + 1 : Nat) : Int) % (d : Int) = 0 := by
        rw [← Int.natCast_mod, h2]; rfl
      rw [List.map_cons, List.filter_cons_of_pos (by simpa using this)]
      simp only [List.map_cons, List.map_nil, List.filter_nil, e]
    · rw [h3]
      have : ¬ ((T + 1 : Nat) : Int) % (d : Int) = 0 := by
        rw [← Int.natCast_mod, h2]
        intro h
        have := Int.natCast_eq_zero.mp h
        omega
      have h5 : List.filter (fun x => decide (x.1 % (d : Int) = 0))
          (List.map (fun t : Nat => ((t : Int), v t)) [T + 1]) = [] := by
        rw [List.map_cons, List.filter_cons_of_neg (by simpa using this)]
        rfl
      rw [h5, List.append_nil]

/-- Line `b` of the data file of an analyzer with interval `d` and `nb` samples per block, after a
simulation of `T` steps: the first step of the block, and the mean of the values at the steps
`b nb d, (b nb + 1) d, …, (b nb + nb - 1) d`. The file holds the complete blocks of the `T / d + 1`
samples. The average file holds the mean of all samples. -/
theorem C103_blocks (nb d T : Nat) (hn : 0 < nb) (hd : 0 < d) (strict : Bool) (v : Nat → V) :
    filesSpec K (.avg nb d strict) (steps T v) =
      ((List.range ((T / d + 1) / nb)).map fun b => (((b * nb * d : Nat) : Int),
        (nb : K)⁻¹ • ∑ i ∈ range nb, v ((b * nb + i) * d)),
      some (((T / d + 1 : Nat) : K)⁻¹ • ∑ k ∈ range (T / d + 1), v (k * d))) := by
  unfold filesSpec
  dsimp only
  rw [if_pos hn, kept_steps T d hd]
  have hlen : ((List.range (T / d + 1)).map fun k => (((k * d : Nat) : Int), v (k * d))).length = T / d + 1 := by
    simp
  have hget : ∀ k, k < T / d + 1 →
      ((List.range (T / d + 1)).map fun k => (((k * d : Nat) : Int), v (k * d))).getD k (0, 0) =
        (((k * d : Nat) : Int), v (k * d)) := by
    intro k hk
    simp [List.getD, hk]
  congr 1
  · unfold datSpec
    rw [hlen]
    apply List.map_congr_left
    intro b hb
    have hb' : b < (T / d + 1) / nb := List.mem_range.mp hb
    have hle : (b + 1) * nb ≤ T / d + 1 :=
      le_trans (Nat.mul_le_mul_right nb hb') (Nat.div_mul_le_self _ _)
    have he : (b + 1) * nb = b * nb + nb := by ring
    unfold blockLine
    beta_reduce
    rw [hget (b * nb + (nb - 1)) (by omega)]
    congr 1
    · dsimp only
      obtain ⟨m, rfl⟩ := Nat.exists_eq_add_of_lt hn
      push_cast
      simp
      ring
    · congr 1
      apply sum_congr rfl
      intro i hi
      have := mem_range.mp hi
      rw [hget (b * nb + i) (by omega)]
  · unfold meanOf
    rw [List.map_map, List.length_map, List.length_range]
    congr 2

/-- If the blocks use all samples, the mean of the data file is the average in the average file. -/
theorem C103_mean_of_blocks [CharZero K] (nb d T q : Nat) (hq : T / d + 1 = q * nb) (v : Nat → V) :
    (q : K)⁻¹ • ∑ b ∈ range q, (nb : K)⁻¹ • ∑ i ∈ range nb, v ((b * nb + i) * d) =
      (((T / d + 1 : Nat) : K)⁻¹ • ∑ k ∈ range (T / d + 1), v (k * d)) := by
  rw [hq, ← smul_sum, smul_smul]
  congr 1
  · push_cast
    rw [mul_inv]
  · clear hq
    induction q with
    | zero => simp
    | succ q ih =>
      rw [sum_range_succ, ih, Nat.succ_mul, sum_range_add]

/-- Blocks of two samples, every third step: values `t ^ 2` at steps `0, 3, 6, 9`. -/
example : filesSpec ℚ (.avg 2 3 true) (steps 11 fun t => (t : ℚ) ^ 2) =
    ([(0, 9 / 2), (6, 117 / 2)], some (126 / 4)) := by
  show filesSpec ℚ (.avg 2 ((3 : ℕ) : ℤ) true) _ = _
  rw [C103_blocks 2 3 11 (by norm_num) (by norm_num)]
  norm_num [List.range_succ, sum_range_succ]

/-! ## C102: more than one simulation -/

/-- Components that can be used in any number of simulations. -/
def Repeatable : Spec → Prop
  | .part gpu c => c.alloc gpu ≠ .setup
  | .avg nb _ _ => nb = 0
  | .writer _ => True

/-- States of a repeatable component. -/
def Stable (s : Spec) (c : Comp V) : Prop :=
  match s, c with
  | .part gpu k, .part gpu' k' _ => gpu' = gpu ∧ k' = k
  | .avg nb interval strict, .avg a => a.nb = nb ∧ a.interval = interval ∧ a.strict = strict ∧ a.dat = []
  | .writer interval, .writer w => w.interval = interval
  | _, _ => False

theorem stable_read (s : Spec) : Stable s (s.read : Comp V) := by
  cases s
  · exact ⟨rfl, rfl⟩
  · exact ⟨rfl, rfl, rfl, rfl⟩
  · rfl

theorem one_stable (s : Spec) (hs : Repeatable s) (c : Comp V) (hc : Stable s c) (l : List (Int × V)) :
    ∃ c', one K l c = .ok c' ∧ Stable s c' ∧ c'.files = filesSpec K s l := by
  cases s with
  | part gpu k =>
    cases c with
    | part gpu' k' b =>
      obtain ⟨rfl, rfl⟩ := hc
      obtain ⟨b', hb⟩ := @one_part K V _ _ _ gpu' k' b (Or.inl hs) l
      exact ⟨_, hb, ⟨rfl, rfl⟩, rfl⟩
    | avg a => exact hc.elim
    | writer w => exact hc.elim
  | avg nb interval strict =>
    cases c with
    | part gpu' k' b => exact hc.elim
    | avg a =>
      obtain ⟨h1, h2, h3, h4⟩ := hc
      have hn : a.nb = 0 := h1.trans hs
      have hnb : nb = 0 := hs
      obtain ⟨acc, h⟩ := @one_avg K V _ _ _ a (Or.inl hn) l
      refine ⟨_, h, ⟨h1, h2, h3, ?_⟩, ?_⟩
      · dsimp only
        rw [h4, if_neg (fun x => by omega)]
        rfl
      · unfold Comp.files filesSpec
        dsimp only
        rw [h4, if_neg (fun x => by omega), if_neg (by omega), h2]
        rfl
    | writer w => exact hc.elim
  | writer interval =>
    cases c with
    | part gpu' k' b => exact hc.elim
    | avg a => exact hc.elim
    | writer w =>
      have h : w.interval = interval := hc
      refine ⟨_, one_writer w l, h, ?_⟩
      unfold Comp.files filesSpec
      dsimp only
      rw [h]

theorem oneSession_stable (s : Spec) (hs : Repeatable s) (c : Comp V) (hc : Stable s c)
    (ls : List (List (Int × V))) (l : List (Int × V)) :
    ∃ c', oneSession K (ls ++ [l]) c = .ok c' ∧ c'.files = filesSpec K s l := by
  induction ls generalizing c with
  | nil =>
    obtain ⟨c', h, -, hf⟩ := @one_stable K V _ _ _ s hs c hc l
    refine ⟨c', ?_, hf⟩
    show (one K l c).bind (oneSession K []) = _
    rw [h]
    rfl
  | cons x ls ih =>
    obtain ⟨c', h, h', -⟩ := @one_stable K V _ _ _ s hs c hc x
    obtain ⟨c2, h2, hf⟩ := ih c' h'
    refine ⟨c2, ?_, hf⟩
    show (one K x c).bind (oneSession K (ls ++ [l])) = _
    rw [h]
    exact h2

/-- The claim: for every history of commands, the next command runs and leaves the same files as in a
new session. -/
def Repeats (K V : Type) [Field K] [AddCommGroup V] [Module K V] (specs : List Spec) : Prop :=
  ∀ (rs : List (Run V)) (r : Run V), ∃ cs cs', session K (rs ++ [r]) (specs.map Spec.read) = .ok cs ∧
    session K [r] (specs.map Spec.read) = .ok cs' ∧ cs.map Comp.files = cs'.map Comp.files

/-- Samples of one analyzer at `nb` of its steps. -/
theorem session_component (specs : List Spec) (rs : List (Run V)) (cs : List (Comp V))
    (h : session K rs (specs.map Spec.read) = .ok cs) (j : Nat) (hj : j < specs.length) :
    ∃ h' : j < cs.length, oneSession K (rs.map (proj j)) specs[j].read = .ok cs[j] := by
  obtain ⟨hl, hget⟩ := (loop_get _ _ _ _).mp ((session_ok _ _ _).mp h)
  have hj' : j < cs.length := by rw [hl]; simpa using hj
  refine ⟨hj', ?_⟩
  have := hget j (by simpa using hj) hj'
  simpa using this

/-- C102: sessions made of repeatable components. What is missing: the other components, see
`C102_iff`. -/
theorem C102_repeat_partial (specs : List Spec) (h : ∀ s ∈ specs, Repeatable s) : Repeats K V specs := by
  intro rs r
  obtain ⟨cs', h', hl', hf'⟩ := @C103_first K V _ _ _ specs r
  choose g hg hf using fun (s : Spec) (hs : Repeatable s) (ls : List (List (Int × V))) (l : List (Int × V)) =>
    @oneSession_stable K V _ _ _ s hs _ (stable_read s) ls l
  have hm : ∀ j (hj : j < specs.length), Repeatable specs[j] := fun j hj => h _ (List.getElem_mem hj)
  let cs : List (Comp V) := (List.finRange specs.length).map fun j : Fin specs.length =>
    g specs[j.val] (hm j.val j.2) (rs.map (proj j.val)) (proj j.val r)
  have hcl : cs.length = specs.length := by simp [cs]
  have hcs : session K (rs ++ [r]) (specs.map Spec.read) = .ok cs := by
    apply (session_ok _ _ _).mpr
    apply (loop_get _ _ _ _).mpr
    refine ⟨by simp [cs], ?_⟩
    intro j hj hj'
    have hjs : j < specs.length := by simpa using hj
    simp only [List.getElem_map, Nat.zero_add, List.map_append, List.map_cons, List.map_nil, cs,
      List.getElem_finRange]
    exact hg specs[j] (hm j hjs) (rs.map (proj j)) (proj j r)
  refine ⟨cs, cs', hcs, h', ?_⟩
  apply List.ext_getElem
  · simp [hcl, hl']
  · intro j h1 h2
    have hjs : j < specs.length := by simpa [hcl] using h1
    have hj' : j < cs'.length := by omega
    have e : (cs'.map Comp.files)[j] = filesSpec K specs[j] (proj j r) := by
      rw [List.getElem_map, hf' j hjs hj']
    rw [e]
    simp only [List.getElem_map, cs, List.getElem_finRange]
    exact hf specs[j] (hm j hjs) (rs.map (proj j)) (proj j r)

/-- A class that allocates in `setup` (`EinsteinCrystalPerturbation`, `BinaryStructureFactorGrid`, and
`ForceBiasMove` and `ExplicitBdStep` of the GPU program): every second command throws. -/
theorem C102_allocation_violated (specs : List Spec) (gpu : Bool) (c : Cls) (hc : c.alloc gpu = .setup)
    (hm : Spec.part gpu c ∈ specs) (r r' : Run V) (rs : List (Run V)) :
    session K (r :: r' :: rs) (specs.map Spec.read) = .throw := by
  apply session_throw
  intro cs h
  obtain ⟨j, hj, he⟩ := List.getElem_of_mem hm
  obtain ⟨hj', h1⟩ := session_component specs _ cs h j hj
  rw [he] at h1
  have h2 : ∀ l : List (Int × V), one K l (Comp.part gpu c false) = .ok (.part gpu c true) := by
    intro l
    have key : ∀ (b : Bool), sampleSeq K l (Comp.part gpu c b) = .ok (Comp.part gpu c b) := by
      intro b
      induction l with
      | nil => rfl
      | cons x t ih => exact ih
    unfold one
    have : (Comp.part gpu c false : Comp V).setup = .ok (.part gpu c true) := by
      unfold Comp.setup
      dsimp only
      rw [hc]
      rfl
    rw [this]
    show (sampleSeq K l _).bind _ = _
    rw [key]
    rfl
  have h3 : ∀ l : List (Int × V), one K l (Comp.part gpu c true) = .throw := by
    intro l
    unfold one Comp.setup
    dsimp only
    rw [hc]
    rfl
  have h4 : (Spec.part gpu c).read = (Comp.part gpu c false : Comp V) := by
    unfold Spec.read
    dsimp only
    rw [hc]
    rfl
  rw [h4] at h1
  change (one K (proj j r) _).bind (fun x => (one K (proj j r') x).bind _) = _ at h1
  rw [h2] at h1
  change (one K (proj j r') _).bind _ = _ at h1
  rw [h3] at h1
  cases h1

/-- State of a data file after the first command: closed, for good. -/
theorem after_first (nb : Nat) (interval : Int) (strict : Bool) (l : List (Int × V)) :
    ∃ a : Avg V, one K l (Spec.avg nb interval strict).read = .ok (.avg a) ∧ a.nb = nb ∧
      a.interval = interval ∧ a.strict = strict ∧ a.isOpen = false ∧
      a.dat = if 0 < nb then datSpec K nb interval (kept interval l) else [] := by
  obtain ⟨acc, h⟩ := @one_avg K V _ _ _ (Avg.read nb interval strict)
    (by by_cases h : nb = 0
        · exact Or.inl h
        · exact Or.inr (Or.inl (decide_eq_true (Nat.pos_of_ne_zero h)))) l
  refine ⟨_, h, rfl, rfl, rfl, rfl, ?_⟩
  unfold Avg.read
  dsimp only
  by_cases h : 0 < nb
  · rw [if_pos h, if_pos ⟨decide_eq_true h, h⟩]; rfl
  · rw [if_neg h, if_neg (fun x => h x.2)]; rfl

/-- An analyzer of averages with block output (the default): the second simulation throws as soon as it
completes a block. -/
theorem C102_block_violated (specs : List Spec) (nb : Nat) (interval : Int) (hn : 0 < nb) (j : Nat)
    (hj : j < specs.length) (hs : specs[j] = .avg nb interval true) (r r' : Run V) (rs : List (Run V))
    (hl : nb ≤ (kept interval (proj j r')).length) :
    session K (r :: r' :: rs) (specs.map Spec.read) = .throw := by
  apply session_throw
  intro cs h
  obtain ⟨hj', h1⟩ := session_component specs _ cs h j hj
  rw [hs] at h1
  obtain ⟨a, h2, h3, h4, h5, h6, h7⟩ := @after_first K V _ _ _ nb interval true (proj j r)
  change (one K (proj j r) _).bind (fun x => (one K (proj j r') x).bind _) = _ at h1
  rw [h2] at h1
  change (one K (proj j r') _).bind _ = _ at h1
  rw [one_closed a (by omega) h6 h5 _ (by rw [h3, h4]; exact hl)] at h1
  cases h1

/-- `MaxOrderParameter` without ramp: the data file keeps the lines of the first simulation; those of all
later ones are lost. -/
theorem C102_data_lost_violated (specs : List Spec) (nb : Nat) (interval : Int) (hn : 0 < nb) (j : Nat)
    (hj : j < specs.length) (hs : specs[j] = .avg nb interval false) (r : Run V) (rs : List (Run V))
    (cs : List (Comp V)) (h : session K (r :: rs) (specs.map Spec.read) = .ok cs) :
    ∃ h' : j < cs.length, (cs[j].files).1 = datSpec K nb interval (kept interval (proj j r)) := by
  obtain ⟨h', h1⟩ := session_component specs _ cs h j hj
  refine ⟨h', ?_⟩
  rw [hs] at h1
  obtain ⟨a, h2, h3, h4, h5, h6, h7⟩ := @after_first K V _ _ _ nb interval false (proj j r)
  change (one K (proj j r) _).bind (oneSession K (rs.map (proj j))) = _ at h1
  rw [h2] at h1
  change oneSession K (rs.map (proj j)) (.avg a) = _ at h1
  rw [if_pos hn] at h7
  generalize cs[j] = c at h1 ⊢
  rw [← h7]
  clear h2 h7 h
  induction rs generalizing a with
  | nil =>
    injection h1 with h1
    rw [← h1]
    rfl
  | cons x t ih =>
    obtain ⟨acc, h⟩ := @one_avg K V _ _ _ a (Or.inr (Or.inr h5)) (proj j x)
    change (one K (proj j x) _).bind (oneSession K (t.map (proj j))) = _ at h1
    rw [h] at h1
    change oneSession K (t.map (proj j)) (.avg _) = _ at h1
    refine (ih _ ?_ ?_ ?_ ?_ h1).trans ?_
    · exact h3
    · exact h4
    · exact h5
    · rfl
    dsimp only
    rw [h6, if_neg (by simp), List.append_nil]

theorem kept_progression (nb : Nat) (interval : Int) :
    kept interval ((List.range nb).map fun k => (((k : Int) * interval, (0 : V)))) =
      (List.range nb).map fun k => (((k : Int) * interval, (0 : V))) := by
  unfold kept
  rw [List.filter_eq_self]
  intro x hx
  obtain ⟨k, -, rfl⟩ := List.mem_map.mp hx
  simp

/-- A session can be continued after any history, with the same results as in a new session, exactly if
all components are repeatable. -/
theorem C102_iff (specs : List Spec) : Repeats K V specs ↔ ∀ s ∈ specs, Repeatable s := by
  refine ⟨?_, C102_repeat_partial specs⟩
  intro h s hs
  by_contra hn
  obtain ⟨j, hj, he⟩ := List.getElem_of_mem hs
  cases s with
  | part gpu c =>
    have hc : c.alloc gpu = .setup := by
      by_contra h'
      exact hn h'
    obtain ⟨cs, cs', h1, h2, h3⟩ := h [[]] []
    have := @C102_allocation_violated K V _ _ _ specs gpu c hc hs [] [] []
    change session K ([[]] ++ [[]]) _ = _ at this
    rw [this] at h1
    cases h1
  | avg nb interval strict =>
    have hnb : 0 < nb := Nat.pos_of_ne_zero hn
    let r : Run V := (List.range nb).map fun k => ((k : Int) * interval, fun _ => (0 : V))
    have hr : kept interval (proj j r) = (List.range nb).map fun k => (((k : Int) * interval, (0 : V))) := by
      have : proj j r = (List.range nb).map fun k => (((k : Int) * interval, (0 : V))) := by
        simp [proj, r]
      rw [this, kept_progression]
    obtain ⟨cs, cs', h1, h2, h3⟩ := h [[]] r
    cases strict with
    | true =>
      have := @C102_block_violated K V _ _ _ specs nb interval hnb j hj he [] r [] (by rw [hr]; simp)
      change session K ([[]] ++ [r]) _ = _ at this
      rw [this] at h1
      cases h1
    | false =>
      obtain ⟨hj1, h4⟩ := @C102_data_lost_violated K V _ _ _ specs nb interval hnb j hj he [] [r] cs h1
      obtain ⟨hj2, h5⟩ := @C102_data_lost_violated K V _ _ _ specs nb interval hnb j hj he r [] cs' h2
      have h6 : cs[j].files = cs'[j].files := by
        have h7 : (cs.map Comp.files)[j]'(by simpa using hj1) = (cs'.map Comp.files)[j]'(by simpa using hj2) := by
          simp only [h3]
        simpa using h7
      rw [h6, h5, hr] at h4
      have h8 := congrArg List.length h4
      simp [datSpec, proj, kept, hnb] at h8
  | writer interval => exact hn trivial

/-- A session of a Monte Carlo simulator with real moves, trajectory output and averages without block
output. -/
example : Repeats ℚ ℚ [.part false .realMove, .part false .lrAmCompressor, .writer 10, .avg 0 100 true] :=
  C102_repeat_partial _ (by simp [Repeatable, Cls.alloc])

/-- With the default block output it does not repeat. -/
example : ¬ Repeats ℚ ℚ [.part false .realMove, .part false .lrAmCompressor, .avg 1 100 true] := by
  rw [C102_iff]
  simp [Repeatable, Cls.alloc]

/-- The force bias move repeats in the CPU program, not in the GPU program. -/
example : Repeats ℚ ℚ [.part false .forceBiasMove] ∧ ¬ Repeats ℚ ℚ [.part true .forceBiasMove] := by
  rw [C102_iff, C102_iff]
  simp [Repeatable, Cls.alloc]

end Verif.Ana
