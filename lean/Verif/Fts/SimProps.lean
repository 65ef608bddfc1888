import Verif.Fts.Props

/-!
# C56 (statistics), C58: counters, step accounting and sampling of simulations
-/

set_option autoImplicit false
set_option linter.unusedSectionVars false

namespace Verif.Fts

open St

section
variable {Θ E W C WC CC DC H PE R : Type}
variable {P : Phys Θ E W C WC CC DC H PE R} {pol : Policy}

/-- A sequence of moves of a `McMoveManager`; `Count`s of the moves by index. The index and kind of
each move are inputs (`McMoveManager::chooseMove` selects at random). -/
def moves (P : Phys Θ E W C WC CC DC H PE R) (pol : Policy) :
    List (Nat × Bool × Trial W R) → St Θ E W C WC CC DC H PE → (Nat → Count) → List Out →
    Res (St Θ E W C WC CC DC H PE × (Nat → Count) × List Out)
  | [], s, c, os => .ok (s, c, os)
  | (j, fb, t) :: ts, s, c, os =>
    move P pol fb t s >>= fun r =>
      moves P pol ts r.1 (fun i => if i = j then (c i).add r.2 else c i) (os ++ [r.2])

/-- C56 over histories: any sequence of moves of a ready and coherent simulator succeeds and ends
ready and coherent (except `cc`); if no move is accepted, the fields, their components and the
Hamiltonian at the end are those at the start; the counters of every move are consistent. -/
theorem C56_history_partial (ts : List (Nat × Bool × Trial W R))
    (s : St Θ E W C WC CC DC H PE) (c : Nat → Count) (os : List Out)
    (hh : pol.ham = true) (hf : ∀ t ∈ ts, t.2.1 = true → pol.dc = true)
    (hr : Ready pol s) (hc : Coherent P false s)
    (h0 : ∀ i, (c i).accept + (c i).fail ≤ (c i).attempt) :
    ∃ s' c' os', moves P pol ts s c os = .ok (s', c', os ++ os') ∧ os'.length = ts.length ∧
      Ready pol s' ∧ Coherent P false s' ∧
      (∀ i, (c' i).accept + (c' i).fail ≤ (c' i).attempt) ∧
      (Out.accepted ∉ os' → Same pol s s' ∨ ts = []) := by
  induction ts generalizing s c os with
  | nil => exact ⟨s, c, [], by simp [moves], rfl, hr, hc, h0, fun _ => Or.inr rfl⟩
  | cons t ts ih =>
    obtain ⟨j, fb, t⟩ := t
    obtain ⟨s1, e1, hr1, hc1⟩ := step_ok (P := P) (.mc fb t) s false
      ⟨hh, hf (j, fb, t) (by simp)⟩ (by simp) hr hc
    obtain ⟨s2, o, e, h1, _, _⟩ := C56_move_partial (P := P) fb t s hr hc.ev
      (fun h => ⟨hf (j, fb, t) (by simp) h, hh⟩)
    unfold evStep at e1
    simp only [e, Res.map_ok, Res.ok.injEq] at e1
    subst e1
    obtain ⟨s', c', os', q1, q2, q3, q4, q5, q6⟩ := ih s2
      (fun i => if i = j then (c i).add o else c i) (os ++ [o])
      (fun t' h => hf t' (by simp [h])) hr1 hc1 (by
        intro i
        have := h0 i
        by_cases hij : i = j
        · simp only [hij, if_true]
          rw [hij] at this
          cases o <;> simp only [Count.add] <;> omega
        · simp only [hij, if_false]; exact this)
    refine ⟨s', c', o :: os', ?_, by simp [q2], q3, q4, q5, fun hn => Or.inl ?_⟩
    · unfold moves
      simp only [e, Res.ok_bind, q1, List.append_assoc, List.singleton_append]
    · simp only [List.mem_cons, not_or] at hn
      have hs := (h1 (fun h => hn.1 h.symm)).1
      rcases q6 hn.2 with hs' | hts
      · exact { w := hs'.w.trans hs.w, par := hs'.par.trans hs.par, ev := hs'.ev.trans hs.ev,
                wc := ⟨hs'.wc.1.trans hs.wc.1, hs'.wc.2.trans hs.wc.2⟩,
                pert := hs'.pert.trans hs.pert,
                ham := fun h => ⟨(hs'.ham h).1.trans (hs.ham h).1, (hs'.ham h).2.trans (hs.ham h).2⟩,
                cc := fun h => ⟨(hs'.cc h).1.trans (hs.cc h).1, (hs'.cc h).2.trans (hs.cc h).2⟩,
                dc := fun h => ⟨(hs'.dc h).1.trans (hs.dc h).1, (hs'.dc h).2.trans (hs.dc h).2⟩,
                slot := hs'.slot }
      · subst hts
        have : os' = [] := by simpa using q2
        subst this
        simp only [moves, Res.ok.injEq, Prod.mk.injEq] at q1
        rw [← q1.1]; exact hs

/-- The counters count: attempts of move `j` are the occurrences of `j`, acceptances and failures
those with that outcome. -/
theorem C56_counters (ts : List (Nat × Bool × Trial W R)) (s s' : St Θ E W C WC CC DC H PE)
    (c c' : Nat → Count) (os os' : List Out)
    (h : moves P pol ts s c os = .ok (s', c', os')) (j : Nat) :
    ∃ os'', os' = os ++ os'' ∧ os''.length = ts.length ∧
    (c' j).attempt = (c j).attempt + (ts.map Prod.fst).count j ∧
    (c' j).accept = (c j).accept + ((ts.map Prod.fst).zip os'').count (j, .accepted) ∧
    (c' j).fail = (c j).fail + ((ts.map Prod.fst).zip os'').count (j, .failed) := by
  induction ts generalizing s c os with
  | nil =>
    simp only [moves, Res.ok.injEq, Prod.mk.injEq] at h
    obtain ⟨_, rfl, rfl⟩ := h
    exact ⟨[], by simp⟩
  | cons t ts ih =>
    obtain ⟨i, fb, t⟩ := t
    unfold moves at h
    rw [Res.bind_eq_ok] at h
    obtain ⟨⟨s1, o⟩, _, h⟩ := h
    obtain ⟨os'', q1, q2, q3, q4, q5⟩ := ih _ _ _ h
    refine ⟨o :: os'', by simp [q1], by simp [q2], ?_⟩
    rw [q3, q4, q5]
    simp only [List.map_cons, List.zip_cons_cons, List.count_cons, beq_iff_eq, Prod.mk.injEq]
    by_cases hij : j = i
    · subst hij
      cases o <;> simp [Count.add] <;> omega
    · have hij' : ¬ i = j := fun e => hij e.symm
      simp [hij, hij']

end

/-! ## C58 -/

/-- Analyzers as read from a parameter file with an `AnalyzerManager` block that has at least one
analyzer. -/
structure Valid (a : Ana) : Prop where
  base : 0 < a.base
  ivs : ∀ q ∈ a.intervals, 0 < q ∧ a.base ∣ q

theorem readInterval_iff (b q : Int) : readInterval b q = true ↔ 0 < b ∧ 0 < q ∧ b ∣ q := by
  unfold readInterval
  simp only [Bool.and_eq_true, decide_eq_true_eq]
  rw [← Int.dvd_iff_tmod_eq_zero]
  omega

/-- Reading analyzers succeeds exactly for positive intervals that are multiples of a positive base
interval; afterwards they are valid. -/
theorem C58_read (b : Int) (ivs : List Int) (hn : ivs ≠ []) (a : Ana) :
    readAna (some (b, ivs)) = .ok a ↔ a = ⟨b, ivs⟩ ∧ Valid a := by
  simp only [readAna]
  constructor
  · intro h
    split at h
    · rename_i hall
      simp only [Res.ok.injEq] at h
      subst h
      rw [List.all_eq_true] at hall
      obtain ⟨q, hq⟩ := List.exists_mem_of_ne_nil _ hn
      exact ⟨rfl, ⟨((readInterval_iff _ _).1 (hall q hq)).1,
        fun q' h' => ((readInterval_iff _ _).1 (hall q' h')).2⟩⟩
    · cases h
  · rintro ⟨rfl, hv⟩
    have : ivs.all (readInterval b) = true := by
      rw [List.all_eq_true]
      intro q hq
      exact (readInterval_iff _ _).2 ⟨hv.base, hv.ivs q hq⟩
    simp [this]

/-- The analyzers that record at step `i`: those whose interval divides `i`. -/
def due (a : Ana) (i : Nat) : List (Int × Nat) :=
  ((List.range a.intervals.length).filter
    (fun j => decide (a.intervals.getD j 1 ∣ (i : Int)))).map (fun j => ((i : Int), j))

theorem due_eq (a : Ana) (i : Nat) : ((List.range a.intervals.length).filter
    (fun j => decide ((i : Int).tmod (a.intervals.getD j 1) = 0))).map (fun j => ((i : Int), j)) =
    due a i := by
  unfold due
  congr 1
  apply List.filter_congr
  intro j _
  simp only [Int.dvd_iff_tmod_eq_zero]

theorem sample_eq {a : Ana} (hv : Valid a) (i : Nat) (h : a.base ∣ (i : Int)) :
    a.sample i = .ok (due a i) := by
  unfold Ana.sample
  have h1 := hv.base
  have h2 : (i : Int).tmod a.base = 0 := by rw [← Int.dvd_iff_tmod_eq_zero]; exact h
  simp only [gt_iff_lt, h1, not_true_eq_false, if_false, h2, ne_eq, due_eq]

theorem due_not {a : Ana} (hv : Valid a) (i : Nat) (h : ¬ a.base ∣ (i : Int)) : due a i = [] := by
  unfold due
  rw [List.map_eq_nil_iff, List.filter_eq_nil_iff]
  intro j hj
  simp only [decide_eq_true_eq]
  intro hd
  apply h
  have hj' : j < a.intervals.length := by simpa using hj
  have : a.intervals.getD j 1 = a.intervals[j] := by simp [List.getD, hj']
  rw [this] at hd
  exact dvd_trans (hv.ivs _ (List.getElem_mem hj')).2 hd

theorem after_eq {a : Ana} (hv : Valid a) (i : Nat) : a.after i = .ok (due a i) := by
  unfold Ana.after
  by_cases h : a.base ∣ (i : Int)
  · by_cases hl : a.intervals.length > 0
    · rw [if_pos ⟨by have := hv.base; omega, Int.dvd_iff_tmod_eq_zero.1 h, hl⟩]
      exact sample_eq hv i h
    · rw [if_neg (by tauto)]
      have : a.intervals.length = 0 := by omega
      simp [due, this]
  · rw [if_neg (by rw [← Int.dvd_iff_tmod_eq_zero]; tauto), due_not hv i h]

theorem simLoop_eq {a : Ana} (hv : Valid a) : ∀ (conv : List Bool) (i : Nat)
    (log : List (Int × Nat)), simLoop a conv i log = .ok (((i + conv.count true : Nat) : Int),
      log ++ (List.range (conv.count true)).flatMap (fun t => due a (i + 1 + t)))
  | [], i, log => by simp [simLoop]
  | true :: cs, i, log => by
    unfold simLoop
    have h := after_eq hv (i + 1)
    push_cast at h
    rw [h]
    simp only [Res.ok_bind]
    have := simLoop_eq hv cs (i + 1) (log ++ due a (i + 1))
    push_cast at this
    rw [this]
    simp only [List.count_cons_self, Res.ok.injEq, Prod.mk.injEq]
    refine ⟨by push_cast; omega, ?_⟩
    rw [List.range_succ_eq_map, List.flatMap_cons, List.append_assoc, List.flatMap_map]
    congr 2
    apply List.flatMap_congr
    intro t _
    show due a (i + 1 + 1 + t) = due a (i + 1 + (t + 1))
    congr 1
    omega
  | false :: cs, i, log => by
    unfold simLoop
    rw [simLoop_eq hv cs i log]
    simp

theorem sim_combine {a : Ana} (n : Nat) :
    due a 0 ++ (List.range n).flatMap (fun t => due a (0 + 1 + t)) =
      (List.range (n + 1)).flatMap (due a) := by
  rw [List.range_succ_eq_map, List.flatMap_cons, List.flatMap_map]
  congr 1
  apply List.flatMap_congr
  intro t _
  show due a (0 + 1 + t) = due a (t + 1)
  congr 1
  omega

/-- C58 for Monte-Carlo simulations with an `AnalyzerManager` block: whatever steps converge, the
simulation ends with `iStep` equal to the number of converged steps, and the samples are, in order
of steps, exactly the pairs of a step between 0 and `iStep` and an analyzer whose interval divides
it. -/
theorem C58_mc_partial (a : Ana) (hv : Valid a) (conv : List Bool) :
    mcSimulate a conv = .ok (((conv.count true : Nat) : Int),
      (List.range (conv.count true + 1)).flatMap (due a)) := by
  unfold mcSimulate
  have h0 := sample_eq hv 0 (by simp)
  have := simLoop_eq hv conv 0 (due a 0)
  simp only [Nat.cast_zero, Nat.zero_add] at h0 this
  rw [h0]
  simp only [Res.ok_bind]
  rw [this]
  simp only [Res.ok.injEq, Prod.mk.injEq, true_and]
  have := sim_combine (a := a) (conv.count true)
  simpa using this

/-- C58 for Brownian dynamics; here the block is not needed. -/
theorem C58_bd (a : Ana) (hv : Valid a ∨ a = ⟨0, []⟩) (conv : List Bool) :
    bdSimulate a conv = .ok (((conv.count true : Nat) : Int),
      (List.range (conv.count true + 1)).flatMap (due a)) := by
  rcases hv with hv | rfl
  · have hm := C58_mc_partial a hv conv
    unfold bdSimulate
    by_cases hl : a.intervals.length > 0
    · rw [if_pos hl]; exact hm
    · rw [if_neg hl]
      have hd : ∀ i, due a i = [] := by
        intro i
        have : a.intervals.length = 0 := by omega
        simp [due, this]
      have := simLoop_eq hv conv 0 []
      simp only [Nat.cast_zero, Nat.zero_add] at this
      simp only [Res.ok_bind]
      rw [this]
      simp only [List.nil_append, Res.ok.injEq, Prod.mk.injEq, true_and]
      rw [List.flatMap_eq_nil_iff.2 (fun t _ => hd _), List.flatMap_eq_nil_iff.2 (fun t _ => hd _)]
  · have hl : ∀ (conv : List Bool) (i : Nat) (log : List (Int × Nat)),
        simLoop ⟨0, []⟩ conv i log = .ok (((i + conv.count true : Nat) : Int), log) := by
      intro conv
      induction conv with
      | nil => intro i log; simp [simLoop]
      | cons b cs ih =>
        intro i log
        cases b
        · unfold simLoop; rw [ih]; simp
        · unfold simLoop
          have := ih (i + 1) log
          push_cast at this
          simp only [Ana.after, ne_eq, not_true_eq_false, false_and, if_false, Res.ok_bind,
            List.append_nil, this, List.count_cons_self, Res.ok.injEq, Prod.mk.injEq, and_true]
          push_cast; omega
    have := hl conv 0 []
    simp only [Nat.cast_zero, Nat.zero_add] at this
    simp only [bdSimulate, List.length_nil, gt_iff_lt, Nat.lt_irrefl, if_false, Res.ok_bind, this]
    simp [due]

/-- A sample is recorded by analyzer `j` at step `t` iff `t` is reached and its interval divides
`t`. -/
theorem C58_samples (a : Ana) (n : Nat) (t : Int) (j : Nat) :
    (t, j) ∈ (List.range (n + 1)).flatMap (due a) ↔
      0 ≤ t ∧ t ≤ n ∧ ∃ h : j < a.intervals.length, a.intervals[j] ∣ t := by
  simp only [List.mem_flatMap, List.mem_range, due, List.mem_map, List.mem_filter,
    decide_eq_true_eq, Prod.mk.injEq]
  constructor
  · rintro ⟨i, hi, k, ⟨hk, hd⟩, rfl, rfl⟩
    have : a.intervals.getD k 1 = a.intervals[k] := by simp [List.getD, hk]
    rw [this] at hd
    exact ⟨by omega, by omega, hk, hd⟩
  · rintro ⟨h0, h1, hj, hd⟩
    refine ⟨t.toNat, by omega, j, ⟨hj, ?_⟩, by omega, rfl⟩
    have : a.intervals.getD j 1 = a.intervals[j] := by simp [List.getD, hj]
    rw [this]
    have : ((t.toNat : Nat) : Int) = t := by omega
    rw [this]; exact hd

/-- C58 is violated: a Monte-Carlo simulation whose parameter file has no `AnalyzerManager` block
always throws. -/
theorem C58_violated (conv : List Bool) (a : Ana) (h : readAna none = .ok a) :
    mcSimulate a conv = .throw := by
  simp only [readAna, Res.ok.injEq] at h
  subst h
  rfl

/-- C58 is violated by `analyze`: with a base interval greater than 1, the second frame at or after
`min` that is not a multiple of the base interval makes it throw. -/
theorem C58_analyze_throws (a : Ana) (hb : 1 < a.base) (maxStep : Int) (frames : Nat)
    (hm : 1 ≤ maxStep) (hf : 2 ≤ frames) : analyze a 0 maxStep frames = .throw := by
  unfold analyze
  by_cases hl : a.intervals.length > 0
  · rw [if_neg (by simp only [not_not]; exact ⟨by omega, by omega, by omega, hl⟩)]
    obtain ⟨f, rfl⟩ : ∃ f, frames = f + 2 := ⟨frames - 2, by omega⟩
    have h1 : ¬ ((1 : Int).tmod a.base = 0) := by
      rw [← Int.dvd_iff_tmod_eq_zero]
      intro hd
      have := Int.le_of_dvd (by norm_num) hd
      omega
    have hs0 : ∃ l, a.sample 0 = .ok l := by
      unfold Ana.sample
      rw [if_neg (by omega), if_neg (by simp)]
      exact ⟨_, rfl⟩
    obtain ⟨l, hs0⟩ := hs0
    have hs1 : a.sample 1 = .throw := by
      unfold Ana.sample
      simp [show 0 < a.base by omega, h1]
    unfold analyzeLoop
    rw [if_pos (by omega), if_pos (by omega), hs0]
    simp only [Res.ok_bind]
    unfold analyzeLoop
    rw [if_pos (by omega), if_pos (by omega)]
    simp only [Int.zero_add, hs1]
    rfl
  · rw [if_pos (fun h => hl h.2.2.2)]

/-- With a base interval of 1, `analyze` samples every frame from `min` to `max` (or the last) with
exactly the analyzers whose interval divides the frame number. -/
theorem C58_analyze_partial (a : Ana) (hv : Valid a) (hb : a.base = 1) (hl : a.intervals ≠ [])
    (lo hi frames : Nat) (h : lo ≤ hi) :
    ∃ n : Nat, analyze a lo hi frames = .ok ((n : Int), (List.range n).flatMap
      (fun t => if lo ≤ t then due a t else [])) ∧ n = min frames (hi + 1) := by
  have hs : ∀ i : Nat, a.sample i = .ok (due a i) := fun i => sample_eq hv i (by rw [hb]; simp)
  have loop : ∀ (f i : Nat) (log : List (Int × Nat)), i ≤ hi + 1 →
      analyzeLoop a lo hi f i log = .ok (((min (i + f) (hi + 1) : Nat) : Int),
        log ++ (List.range (min f (hi + 1 - i))).flatMap
          (fun t => if lo ≤ i + t then due a (i + t) else [])) := by
    intro f
    induction f with
    | zero =>
      intro i log hi'
      unfold analyzeLoop
      simp
      omega
    | succ f ih =>
      intro i log hi'
      unfold analyzeLoop
      by_cases hle : i ≤ hi
      · rw [if_pos (by exact_mod_cast hle)]
        have hmin : min (f + 1) (hi + 1 - i) = min f (hi + 1 - (i + 1)) + 1 := by omega
        have hmin2 : min (i + (f + 1)) (hi + 1) = min (i + 1 + f) (hi + 1) := by omega
        rw [hmin, hmin2, List.range_succ_eq_map, List.flatMap_cons, List.flatMap_map]
        have ih' := ih (i + 1)
        rw [Nat.cast_add, Nat.cast_one] at ih'
        have key : (List.range (min f (hi + 1 - (i + 1)))).flatMap
            (fun t => if lo ≤ i + 1 + t then due a (i + 1 + t) else []) =
            (List.range (min f (hi + 1 - (i + 1)))).flatMap
            (fun t => if lo ≤ i + t.succ then due a (i + t.succ) else []) := by
          refine List.flatMap_congr fun t _ => ?_
          rw [show i + 1 + t = i + t.succ by omega]
        by_cases hlo : lo ≤ i
        · rw [if_pos (by exact_mod_cast hlo), hs]
          simp only [Res.ok_bind]
          rw [ih' _ (by omega), key]
          simp [hlo, List.append_assoc]
        · rw [if_neg (by omega), ih' _ (by omega), key]
          simp [hlo]
      · rw [if_neg (by omega)]
        have : i = hi + 1 := by omega
        subst this
        simp
  refine ⟨min frames (hi + 1), ?_, rfl⟩
  unfold analyze
  have hpos : 0 < a.intervals.length := List.length_pos_iff.2 hl
  rw [if_neg (by simp only [not_not]; refine ⟨by simp, by simpa using h, by omega, hpos⟩)]
  have := loop frames 0 [] (by omega)
  simp only [Nat.cast_zero, Nat.zero_add, List.nil_append, Nat.sub_zero] at this
  rw [this]

example : mcSimulate ⟨2, [2, 4]⟩ [true, false, true, true, false, true] =
    .ok (4, [(0, 0), (0, 1), (2, 0), (4, 0), (4, 1)]) := by decide

example : Valid ⟨2, [2, 4]⟩ := ⟨by norm_num, by
  intro q hq
  simp only [List.mem_cons, List.not_mem_nil, or_false] at hq
  rcases hq with rfl | rfl <;> norm_num⟩

example : analyze ⟨2, [2]⟩ 0 10 5 = .throw :=
  C58_analyze_throws _ (by norm_num) _ _ (by norm_num) (by norm_num)

example : ∃ s c os, moves exP (mcPolicy [true])
    [(0, true, ⟨6, 9, true, false⟩), (1, true, ⟨1, 2, false, true⟩), (0, true, ⟨6, 9, true, true⟩)]
    exS (fun _ => ⟨0, 0, 0⟩) [] = .ok (s, c, os) ∧ c 0 = ⟨2, 1, 0⟩ ∧ c 1 = ⟨1, 0, 1⟩ :=
  ⟨_, _, _, rfl, rfl, rfl⟩

end Verif.Fts
