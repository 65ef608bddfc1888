import Verif.Sweep.Model
import Verif.Tac
import Mathlib.LinearAlgebra.Lagrange

/-! # C20 (stepping), C21 (extrapolation), C22 (lattice parameters), C75 (history) -/

set_option linter.unusedSectionVars false

namespace Verif.Sweep

variable {K : Type} [Field K] [LinearOrder K] [IsStrictOrderedRing K]

/-! ## C20 -/

/-- Number of failed attempts among attempts `1 .. n-1`. -/
def failures (ok : Nat → Bool) (n : Nat) : Nat :=
  ((List.range n).filter fun k => k ≠ 0 ∧ ok k = false).length

theorem failures_succ (ok : Nat → Bool) (n : Nat) (h : n ≠ 0) :
    failures ok (n + 1) = failures ok n + (if ok n then 0 else 1) := by
  unfold failures
  rw [List.range_succ, List.filter_append, List.length_append]
  cases hk : ok n <;> simp [h, hk]

/-- Invariant of the loop: `ds = ds0 / 2^h` with `h` the number of failures so far (at most
three), `s` is a multiple of `ds`. -/
structure Inv (ns : Nat) (ok : Nat → Bool) (st : St K) : Prop where
  pos : st.attempts ≠ 0
  fail : failures ok st.attempts ≤ 3
  ds : st.ds * (2 : K) ^ failures ok st.attempts * ns = 1
  mult : ∃ m : Nat, st.s = m * st.ds
  head : ∃ k l, st.accepted = (st.s, k) :: l
  dec : st.accepted.Pairwise fun a b => b.1 < a.1
  oks : ∀ a ∈ st.accepted, ok a.2 = true ∧ a.2 < st.attempts
  last : st.accepted.getLast? = some (0, 0)
  bound : st.s + st.ds ≤ 10000001 / 10000000
  len : st.attempts = st.accepted.length + failures ok st.attempts
  slow : (st.accepted.length : K) ≤ 1 + st.s * (8 * ns)

theorem ds_pos {ns : Nat} {ok : Nat → Bool} {st : St K} (h : Inv ns ok st) : 0 < st.ds := by
  by_contra hn
  have h1 : 0 ≤ (2 : K) ^ failures ok st.attempts * ns := by positivity
  have h2 := h.ds
  rw [mul_assoc] at h2
  have := mul_nonpos_of_nonpos_of_nonneg (not_lt.1 hn) h1
  rw [h2] at this
  exact absurd this (not_le.2 one_pos)

theorem ds_ge {ns : Nat} {ok : Nat → Bool} {st : St K} (h : Inv ns ok st) :
    1 ≤ st.ds * (8 * ns) := by
  have hp := ds_pos h
  have h2 := h.ds
  have h3 : (2 : K) ^ failures ok st.attempts ≤ 2 ^ 3 :=
    pow_le_pow_right₀ (by norm_num) h.fail
  have h4 : st.ds * (2 : K) ^ failures ok st.attempts * ns ≤ st.ds * 2 ^ 3 * ns := by
    apply mul_le_mul_of_nonneg_right _ (Nat.cast_nonneg ns)
    exact mul_le_mul_of_nonneg_left h3 hp.le
  rw [h2] at h4
  calc (1 : K) ≤ st.ds * 2 ^ 3 * ns := h4
    _ = st.ds * (8 * ns) := by ring

/-- What an end of a sweep must satisfy. -/
def Good (ns : Nat) (ok : Nat → Bool) : End K → Prop
  | .initialFailed => ok 0 = false
  | .finished acc n =>
      (∃ k l, acc = (1, k) :: l ∨ ∃ x, 1 < x ∧ x ≤ 10000001 / 10000000 ∧ 10000000 ≤ 8 * ns ∧
        acc = (x, k) :: l) ∧
      acc.Pairwise (fun a b => b.1 < a.1) ∧ acc.getLast? = some (0, 0) ∧
      (∀ a ∈ acc, ok a.2 = true ∧ a.2 < n) ∧ failures ok n ≤ 3 ∧
      n = acc.length + failures ok n
  | .tooManyHalvings acc n =>
      acc.Pairwise (fun a b => b.1 < a.1) ∧ acc.getLast? = some (0, 0) ∧
      (∀ a ∈ acc, ok a.2 = true ∧ a.2 < n) ∧ failures ok n = 4

theorem getLast?_cons_of {α : Type} {a x : α} {l : List α} (h : l.getLast? = some x) :
    (a :: l).getLast? = some x := by
  cases l with
  | nil => cases h
  | cons b l => simpa [List.getLast?_cons_cons] using h

theorem attempt_spec {ns : Nat} (hns : 1 ≤ ns) {ok : Nat → Bool} {st : St K}
    (h : Inv ns ok st) :
    (∀ st', attempt (1 / (ns : K)) ok st = .inl st' →
      Inv ns ok st' ∧ st'.attempts = st.attempts + 1) ∧
    (∀ e, attempt (1 / (ns : K)) ok st = .inr e → Good ns ok e) := by
  have hnsK : (0 : K) < ns := by exact_mod_cast hns
  have hp := ds_pos h
  have hf := failures_succ ok st.attempts h.pos
  obtain ⟨k0, l0, hhead⟩ := h.head
  obtain ⟨m, hm⟩ := h.mult
  have hs0 : 0 ≤ st.s := by rw [hm]; positivity
  unfold attempt
  by_cases hok : ok st.attempts = true
  · simp only [hok, if_true, add_zero] at hf ⊢
    have hdec : ((st.s + st.ds, st.attempts) :: st.accepted).Pairwise (fun a b => b.1 < a.1) := by
      rw [List.pairwise_cons]
      refine ⟨?_, h.dec⟩
      intro a ha
      have h1 : a.1 ≤ st.s := by
        have hd := h.dec
        rw [hhead] at ha hd
        rw [List.pairwise_cons] at hd
        rcases List.mem_cons.1 ha with rfl | ha
        · exact le_rfl
        · exact (hd.1 a ha).le
      show a.1 < st.s + st.ds
      linarith
    have hoks : ∀ a ∈ (st.s + st.ds, st.attempts) :: st.accepted,
        ok a.2 = true ∧ a.2 < st.attempts + 1 := by
      intro a ha
      rcases List.mem_cons.1 ha with rfl | ha
      · exact ⟨hok, Nat.lt_succ_self _⟩
      · exact ⟨(h.oks a ha).1, (h.oks a ha).2.trans (Nat.lt_succ_self _)⟩
    have hlast := getLast?_cons_of (a := (st.s + st.ds, st.attempts)) h.last
    have hlen : st.attempts + 1 =
        ((st.s + st.ds, st.attempts) :: st.accepted).length + failures ok (st.attempts + 1) := by
      rw [hf, List.length_cons]; have := h.len; omega
    split
    · rename_i hgt
      refine ⟨(fun st' hst => by cases hst), fun e he => ?_⟩
      cases he
      refine ⟨?_, hdec, hlast, hoks, by rw [hf]; exact h.fail, hlen⟩
      refine ⟨st.attempts, st.accepted, ?_⟩
      -- in units of `ds` the value 1 is an integer
      have hds := h.ds
      set F := failures ok st.attempts
      have hds' : st.ds * ((2 ^ F * ns : Nat) : K) = 1 := by
        push_cast
        rw [← mul_assoc]; exact hds
      set N := 2 ^ F * ns with hN
      have hsm : st.s + st.ds = ((m + 1 : Nat) : K) * st.ds := by rw [hm]; push_cast; ring
      have hge : N ≤ m + 1 := by
        by_contra hlt
        have h2 : m + 2 ≤ N := by omega
        have h3 : ((m + 2 : Nat) : K) * st.ds ≤ (N : K) * st.ds :=
          mul_le_mul_of_nonneg_right (by exact_mod_cast h2) hp.le
        have h4 : (N : K) * st.ds = 1 := by rw [mul_comm]; exact hds'
        have h5 : st.s + st.ds + st.ds = ((m + 2 : Nat) : K) * st.ds := by
          rw [hm]; push_cast; ring
        have : st.s + st.ds + st.ds ≤ 1 := by rw [h5]; linarith
        have h7 : (1 : K) < 10000001 / 10000000 := by norm_num
        linarith
      rcases Nat.eq_or_lt_of_le hge with heq | hlt
      · left
        rw [hsm, ← heq, mul_comm, hds']
      · right
        refine ⟨st.s + st.ds, ?_, h.bound, ?_, rfl⟩
        · rw [hsm, ← hds', mul_comm st.ds]
          exact mul_lt_mul_of_pos_right (Nat.cast_lt.2 hlt) hp
        · -- a step below 1e-7 is needed to pass beyond 1
          have h2 : ((N + 1 : Nat) : K) * st.ds ≤ ((m + 1 : Nat) : K) * st.ds :=
            mul_le_mul_of_nonneg_right (by exact_mod_cast hlt) hp.le
          have h3 : ((N + 1 : Nat) : K) * st.ds = 1 + st.ds := by
            push_cast
            have : (N : K) * st.ds = 1 := by rw [mul_comm]; exact hds'
            linear_combination this
          have hb := h.bound
          rw [hsm] at hb
          have h4 : st.ds ≤ 1 / 10000000 := by
            have : (10000001 : K) / 10000000 = 1 + 1 / 10000000 := by norm_num
            linarith
          have h5 := ds_ge h
          have h6 : st.ds * (8 * ns) ≤ 1 / 10000000 * (8 * ns) :=
            mul_le_mul_of_nonneg_right h4 (by positivity)
          have h7 : (10000000 : K) ≤ 8 * ns := by linarith
          exact_mod_cast h7
    · rename_i hle
      refine ⟨fun st' hst => ?_, fun e he => by cases he⟩
      cases hst
      refine ⟨⟨Nat.succ_ne_zero _, ?_, ?_, ⟨m + 1, ?_⟩, ⟨_, _, rfl⟩, hdec, hoks, hlast, ?_, hlen, ?_⟩, rfl⟩
      · rw [hf]; exact h.fail
      · show st.ds * (2 : K) ^ failures ok (st.attempts + 1) * ns = 1
        rw [hf]; exact h.ds
      · show st.s + st.ds = _
        rw [hm]; push_cast; ring
      · exact not_lt.1 hle
      · show ((((st.s + st.ds, st.attempts) :: st.accepted).length : Nat) : K)
            ≤ 1 + (st.s + st.ds) * (8 * ns)
        have h1 := h.slow
        have h2 := ds_ge h
        rw [List.length_cons]
        push_cast
        linarith
  · have hok' : ok st.attempts = false := by simpa using hok
    simp only [hok', Bool.false_eq_true, if_false] at hf ⊢
    have hoks : ∀ a ∈ st.accepted, ok a.2 = true ∧ a.2 < st.attempts + 1 := fun a ha =>
      ⟨(h.oks a ha).1, (h.oks a ha).2.trans (Nat.lt_succ_self _)⟩
    have hhalf : st.ds * (1 / 2) * 2 ^ (failures ok (st.attempts + 1)) * ns = 1 := by
      rw [hf, pow_succ]
      linear_combination h.ds
    split
    · rename_i hlt
      refine ⟨(fun st' hst => by cases hst), fun e he => ?_⟩
      cases he
      refine ⟨h.dec, h.last, hoks, ?_⟩
      -- fewer than four failures would keep `ds` above the limit
      have h4 : failures ok (st.attempts + 1) ≤ 4 := by rw [hf]; have := h.fail; omega
      have h3 : ¬ failures ok (st.attempts + 1) ≤ 3 := by
        intro h3
        have hpow : (2 : K) ^ failures ok (st.attempts + 1) ≤ 2 ^ 3 :=
          pow_le_pow_right₀ (by norm_num) h3
        have h5 : st.ds * (1 / 2) * 2 ^ (failures ok (st.attempts + 1)) * ns
            ≤ st.ds * (1 / 2) * 2 ^ 3 * ns := by
          apply mul_le_mul_of_nonneg_right _ hnsK.le
          exact mul_le_mul_of_nonneg_left hpow (by positivity)
        rw [hhalf] at h5
        have h6 : st.ds * (1 / 2) * 2 ^ 3 * ns < 1 / 10 * (1 / ns) * 2 ^ 3 * ns := by
          apply mul_lt_mul_of_pos_right _ hnsK
          exact mul_lt_mul_of_pos_right hlt (by norm_num)
        have h7 : (1 : K) / 10 * (1 / ns) * 2 ^ 3 * ns = 8 / 10 := by
          field_simp; norm_num
        rw [h7] at h6
        have h8 : (8 : K) / 10 < 1 := by norm_num
        linarith
      omega
    · rename_i hge
      refine ⟨fun st' hst => ?_, fun e he => by cases he⟩
      cases hst
      refine ⟨⟨Nat.succ_ne_zero _, ?_, hhalf, ⟨m * 2, ?_⟩, ⟨k0, l0, hhead⟩, h.dec, hoks, h.last,
        ?_, ?_, h.slow⟩, rfl⟩
      · -- a fourth failure throws
        by_contra h3
        have h4 : failures ok (st.attempts + 1) = 4 := by
          have := h.fail
          rw [hf] at h3 ⊢; omega
        rw [h4] at hhalf
        apply hge
        have : st.ds * (1 / 2) = 1 / 16 * (1 / ns) := by
          field_simp
          linear_combination 2 * hhalf
        rw [this]
        apply mul_lt_mul_of_pos_right _ (by positivity)
        norm_num
      · show st.s = _ * (st.ds * (1 / 2))
        rw [hm]; push_cast; ring
      · show st.s + st.ds * (1 / 2) ≤ _
        have := h.bound
        linarith
      · show st.attempts + 1 = _
        rw [hf]; have := h.len; show _ = st.accepted.length + _; omega

theorem init_inv {ns : Nat} (hns : 1 ≤ ns) {ok : Nat → Bool} (h0 : ok 0 = true) :
    Inv ns ok ({ s := 0, ds := 1 / (ns : K), accepted := [(0, 0)], attempts := 1 } : St K) := by
  have hnsK : (0 : K) < ns := by exact_mod_cast hns
  have hf : failures ok 1 = 0 := by simp [failures]
  refine ⟨one_ne_zero, by rw [hf]; omega, ?_, ⟨0, by simp⟩, ⟨0, [], rfl⟩, by simp, ?_, rfl, ?_,
    by simp [hf], by simp⟩
  · show (1 / (ns : K)) * 2 ^ failures ok 1 * ns = 1
    rw [hf]; field_simp
  · intro a ha
    simp only [List.mem_singleton] at ha
    subst ha
    exact ⟨h0, Nat.one_pos⟩
  · show (0 : K) + 1 / ns ≤ _
    have : (1 : K) / ns ≤ 1 := by
      rw [div_le_one hnsK]; exact_mod_cast hns
    have h7 : (1 : K) < 10000001 / 10000000 := by norm_num
    linarith

theorem loop_spec {ns : Nat} (hns : 1 ≤ ns) {ok : Nat → Bool} :
    ∀ (fuel : Nat) (st : St K), Inv ns ok st → ∀ e, loop (1 / (ns : K)) ok fuel st = some e →
      Good ns ok e := by
  intro fuel
  induction fuel with
  | zero => intro st _ e he; cases he
  | succ f ih =>
    intro st h e he
    unfold loop at he
    split at he
    · rename_i e' ha
      cases he
      exact (attempt_spec hns h).2 _ ha
    · rename_i st' ha
      exact ih st' ((attempt_spec hns h).1 _ ha).1 e he

/-- The number of attempts a state of the loop can have made. -/
theorem attempts_bound {ns : Nat} (hns : 1 ≤ ns) {ok : Nat → Bool} {st : St K}
    (h : Inv ns ok st) : st.attempts ≤ 9 * ns + 4 := by
  have h1 := h.slow
  have h2 := h.bound
  have h3 := ds_pos h
  have hnsK : (0 : K) ≤ ns := Nat.cast_nonneg ns
  have h4 : st.s ≤ 9 / 8 := by
    have : (10000001 : K) / 10000000 ≤ 9 / 8 := by norm_num
    linarith
  have h5 : st.s * (8 * ns) ≤ 9 / 8 * (8 * ns) := mul_le_mul_of_nonneg_right h4 (by positivity)
  have h6 : (st.accepted.length : K) ≤ ((9 * ns + 1 : Nat) : K) := by
    push_cast; linarith
  have h7 : st.accepted.length ≤ 9 * ns + 1 := by exact_mod_cast h6
  have h8 := h.len
  have h9 := h.fail
  omega

theorem loop_terminates {ns : Nat} (hns : 1 ≤ ns) {ok : Nat → Bool} :
    ∀ (fuel : Nat) (st : St K), Inv ns ok st → 9 * ns + 5 ≤ st.attempts + fuel →
      ∃ e, loop (1 / (ns : K)) ok fuel st = some e := by
  intro fuel
  induction fuel with
  | zero =>
    intro st h hf
    have := attempts_bound hns h
    omega
  | succ f ih =>
    intro st h hf
    unfold loop
    split
    · exact ⟨_, rfl⟩
    · rename_i st' ha
      obtain ⟨hi, hatt⟩ := (attempt_spec hns h).1 _ ha
      exact ih st' hi (by omega)

/-- C20: for every sequence of solver outcomes the sweep ends (normally or with an error)
after a bounded number of attempts. -/
theorem C20_terminates (ns : Nat) (hns : 1 ≤ ns) (ok : Nat → Bool) :
    ∃ e : End K, sweep ns ok (9 * ns + 5) = some e := by
  unfold sweep
  simp only [Int.cast_natCast]
  by_cases h0 : ok 0 = true
  · rw [if_pos h0]
    exact loop_terminates hns _ _ (init_inv hns h0) (by show _ ≤ 1 + _; omega)
  · rw [if_neg h0]; exact ⟨_, rfl⟩

/-- C20: how a sweep ends. On normal return the accepted path values strictly increase from 0,
each belongs to a converged attempt, the last one is exactly 1 (for more than 1250000 steps it may
exceed 1 by at most 1e-7), at most three attempts failed and every other attempt was accepted.
The error end occurs only with four failed attempts. -/
theorem C20_outcome (ns : Nat) (hns : 1 ≤ ns) (ok : Nat → Bool) (fuel : Nat) (e : End K)
    (h : sweep ns ok fuel = some e) : Good ns ok e := by
  unfold sweep at h
  simp only [Int.cast_natCast] at h
  by_cases h0 : ok 0 = true
  · rw [if_pos h0] at h
    exact loop_spec hns _ _ (init_inv hns h0) e h
  · rw [if_neg h0] at h
    cases h
    show ok 0 = false
    simpa using h0

/-- C20: without failures the sweep takes exactly the `ns` steps `1/ns, 2/ns, …, 1`. -/
theorem C20_no_failure_reaches_one (ns : Nat) (hns : 1 ≤ ns) (hbig : 8 * ns < 10000000)
    (ok : Nat → Bool) (hok : ∀ k, ok k = true) :
    ∃ k l, sweep ns ok (9 * ns + 5) = some (.finished (((1 : K), k) :: l) (l.length + 1)) := by
  obtain ⟨e, he⟩ := C20_terminates (K := K) ns hns ok
  have hg := C20_outcome ns hns ok _ e he
  have hf : ∀ n, failures ok n = 0 := by intro n; simp [failures, hok]
  cases e with
  | initialFailed => simp [Good, hok] at hg
  | tooManyHalvings acc n => simp [Good, hf] at hg
  | finished acc n =>
    obtain ⟨⟨k, l, hk⟩, -, -, -, -, hn⟩ := hg
    rcases hk with rfl | ⟨x, -, -, hb, -⟩
    · refine ⟨k, l, ?_⟩
      rw [he, hn, hf]; simp
    · omega

/-- C20: `ns` is not checked; a negative value makes the sweep run forever when every attempt
converges. -/
theorem C20_negative_ns_diverges (ns : Int) (hns : ns < 0) (fuel : Nat) :
    sweep (K := K) ns (fun _ => true) fuel = none := by
  have hnsK : (ns : K) < 0 := by exact_mod_cast hns
  have key : ∀ (fuel : Nat) (st : St K), st.s ≤ 0 → st.ds < 0 →
      loop (1 / (ns : K)) (fun _ => true) fuel st = none := by
    intro fuel
    induction fuel with
    | zero => intro st _ _; rfl
    | succ f ih =>
      intro st h1 h2
      unfold loop attempt
      have : ¬ st.s + st.ds + st.ds > 10000001 / 10000000 := by
        have : (0 : K) < 10000001 / 10000000 := by norm_num
        linarith
      simp only [if_true, if_neg this]
      exact ih _ (by show st.s + st.ds ≤ 0; linarith) h2
  unfold sweep
  rw [if_pos rfl]
  exact key fuel _ le_rfl (one_div_neg.2 hnsK)

/-- A sweep of four steps in which the second attempt fails: step halved, path completed. -/
example : sweep (K := ℚ) 4 (fun k => k != 2) 100 =
    some (.finished [(1, 8), (7/8, 7), (3/4, 6), (5/8, 5), (1/2, 4), (3/8, 3), (1/4, 1), (0, 0)] 9) := by
  decide +kernel

/-! ## C75: history of accepted states -/

/-- A history of accepted pairs (path value, state), most recent first. -/
def runAccepts {σ : Type} (h : Hist K σ) : List (K × σ) → Hist K σ
  | [] => h
  | a :: l => (runAccepts h l).accept a.1 a.2

/-- C75: after any number of accepted solutions, the stored path values and states are those
of the most recent ones in order, for as many as fit; the pointer array stays a permutation of
the storage slots and nothing else is overwritten. -/
theorem C75_history {σ : Type} (cap : Nat) (hcap : 0 < cap) (states : Nat → σ)
    (acc : List (K × σ)) :
    let h := runAccepts (Hist.init cap states) acc
    h.nAccept = acc.length ∧ h.size = min acc.length cap ∧
    (∀ k, (hk : k < acc.length) → k < cap → h.sHist k = (acc[k]).1 ∧ h.state k = (acc[k]).2) ∧
    (∀ i, i < cap → h.ptr i < cap) ∧ (∀ i j, i < cap → j < cap → h.ptr i = h.ptr j → i = j) := by
  suffices H : ∀ acc : List (K × σ),
      let h := runAccepts (Hist.init cap states) acc
      h.cap = cap ∧ h.nAccept = acc.length ∧ h.size = min acc.length cap ∧
      (∀ k, (hk : k < acc.length) → k < cap → h.sHist k = (acc[k]).1 ∧ h.state k = (acc[k]).2) ∧
      (∀ i, i < cap → h.ptr i < cap) ∧
      (∀ i j, i < cap → j < cap → h.ptr i = h.ptr j → i = j) from (H acc).2
  intro acc
  induction acc with
  | nil =>
    refine ⟨rfl, rfl, by simp [runAccepts, Hist.init], ?_, ?_, ?_⟩
    · intro k hk; simp at hk
    · intro i hi; exact hi
    · intro i j _ _ h; exact h
  | cons a l ih =>
    simp only [runAccepts] at ih ⊢
    set h := runAccepts (Hist.init cap states) l with hh
    obtain ⟨hc, hn, hs, hst, hr, hinj⟩ := ih
    refine ⟨hc, ?_, ?_, ?_, ?_, ?_⟩
    · simp [Hist.accept, hn]
    · simp only [Hist.accept, hc, hs, List.length_cons]
      split <;> omega
    · intro k hk hkc
      rcases k with _ | k
      · simp [Hist.accept, Hist.state]
      · have hk' : k < l.length := by simpa using hk
        obtain ⟨e1, e2⟩ := hst k hk' (by omega)
        simp only [Hist.state] at e2
        refine ⟨?_, ?_⟩
        · simp only [Hist.accept, hc]
          rw [if_neg (Nat.succ_ne_zero k), if_pos hkc, Nat.add_sub_cancel, e1]; rfl
        · simp only [Hist.accept, Hist.state, hc, if_true]
          rw [if_neg (Nat.succ_ne_zero k), if_pos hkc, Nat.add_sub_cancel]
          rw [if_neg, e2]
          · rfl
          · intro heq
            have := hinj k (cap - 1) (by omega) (by omega) heq
            omega
    · intro i hi
      simp only [Hist.accept, hc, if_pos hi]
      split
      · exact hr _ (by omega)
      · exact hr _ (by omega)
    · intro i j hi hj
      simp only [Hist.accept, hc, if_pos hi, if_pos hj]
      by_cases hi0 : i = 0 <;> by_cases hj0 : j = 0
      · intro _; omega
      · rw [if_pos hi0, if_neg hj0]
        intro h; have := hinj _ _ (by omega) (by omega) h; omega
      · rw [if_neg hi0, if_pos hj0]
        intro h; have := hinj _ _ (by omega) (by omega) h; omega
      · rw [if_neg hi0, if_neg hj0]
        intro h; have := hinj _ _ (by omega) (by omega) h; omega

example : (runAccepts (Hist.init (K := ℚ) 2 fun _ => "") [(1, "c"), (1/2, "b"), (0, "a")]).state 1
    = "b" := by decide +kernel

/-! ## C21 -/

open Polynomial in
theorem coefficient_eq (n : Nat) (s : Nat → K) (sNew : K) (i : Nat) (hi : i < n) :
    coefficient n s sNew i = eval sNew (Lagrange.basis (Finset.range n) s i) := by
  have key : ∀ (l : List Nat) (a b : K),
      l.foldl (fun (nd : K × K) j => if j ≠ i then (nd.1 * (sNew - s j), nd.2 * (s i - s j))
        else nd) (a, b) =
      (a * ((l.filter (· ≠ i)).map fun j => sNew - s j).prod,
       b * ((l.filter (· ≠ i)).map fun j => s i - s j).prod) := by
    intro l
    induction l with
    | nil => intro a b; simp
    | cons x l ih =>
      intro a b
      rw [List.foldl_cons]
      by_cases hx : x = i
      · subst hx
        simp only [ne_eq, not_true_eq_false, if_false]
        rw [ih]
        simp
      · simp only [ne_eq, hx, not_false_eq_true, if_true]
        rw [ih]
        simp [hx, mul_assoc]
  have hset : ∀ f : Nat → K, (((List.range n).filter (· ≠ i)).map f).prod =
      ∏ j ∈ (Finset.range n).erase i, f j := by
    intro f
    have hnd : ((List.range n).filter (· ≠ i)).Nodup := List.nodup_range.filter _
    rw [← List.prod_toFinset _ hnd]
    congr 1
    ext j
    simp [and_comm]
  unfold coefficient
  rw [Lagrange.basis, eval_prod]
  split
  · rename_i h1
    subst h1
    have : i = 0 := by omega
    subst this
    simp
  · simp only [key, one_mul]
    rw [hset, hset, ← Finset.prod_div_distrib]
    refine Finset.prod_congr rfl fun j _ => ?_
    simp only [Lagrange.basisDivisor, eval_mul, eval_C, eval_sub, eval_X]
    rw [div_eq_inv_mul]

open Polynomial in
/-- C21: extrapolation from a history of distinct path values is exact for every polynomial of
degree below the history size. -/
theorem C21_exact (n : Nat) (hn : 0 < n) (s : Nat → K)
    (hs : ∀ i j, i < n → j < n → s i = s j → i = j) (sNew : K) (p : K[X]) (hp : p.degree < n) :
    extrapolated n s sNew (fun k => p.eval (s k)) = p.eval sNew := by
  have hinj : Set.InjOn s (Finset.range n : Set Nat) := by
    intro i hi j hj h
    simp only [Finset.coe_range, Set.mem_Iio] at hi hj
    exact hs i j hi hj h
  have hsum : extrapolated n s sNew (fun k => p.eval (s k)) =
      ∑ k ∈ Finset.range n, coefficient n s sNew k * p.eval (s k) := by
    obtain ⟨m, rfl⟩ : ∃ m, n = m + 1 := ⟨n - 1, by omega⟩
    rw [extrapolated, foldl_add_eq, Nat.add_sub_cancel, Finset.sum_range_succ', add_comm]
    congr 1
  have hint := Lagrange.eq_interpolate hinj (f := p) (by simpa using hp)
  rw [hsum]
  conv_rhs => rw [hint]
  rw [Lagrange.interpolate_apply, eval_finsetSum]
  refine Finset.sum_congr rfl fun k hk => ?_
  rw [coefficient_eq n s sNew k (Finset.mem_range.1 hk), eval_mul, eval_C, mul_comm]

/-- C21: in particular the coefficients sum to one. -/
theorem C21_sum_one (n : Nat) (hn : 0 < n) (s : Nat → K)
    (hs : ∀ i j, i < n → j < n → s i = s j → i = j) (sNew : K) :
    extrapolated n s sNew (fun _ => 1) = 1 := by
  have := C21_exact n hn s hs sNew (1 : Polynomial K) (by
    rw [Polynomial.degree_one]; exact_mod_cast hn)
  simpa using this

/-- C21, lattice parameters: a flexible parameter that followed a polynomial through the stored states is
continued along it, a rigid one keeps the value of the system. -/
theorem C21_parameters (n : Nat) (hn : 0 < n) (s : Nat → K)
    (hs : ∀ i j, i < n → j < n → s i = s j → i = j) (sNew : K) (system : List K) (flex : List Bool)
    (hist : Nat → List K) (i : Nat) (hi : i < system.length) :
    (flex.getD i false = true → ∀ p : Polynomial K, p.degree < n →
      (∀ k, (hist k).getD i 0 = p.eval (s k)) →
      (newParameters n s sNew system flex hist)[i]? = some (p.eval sNew)) ∧
    (flex.getD i false = false →
      (newParameters n s sNew system flex hist)[i]? = system[i]?) := by
  unfold newParameters
  constructor
  · intro hf p hp hk
    rw [List.getElem?_map, List.getElem?_range hi]
    simp only [Option.map_some, hf, if_true, Option.some.injEq]
    rw [← C21_exact n hn s hs sNew p hp]
    congr 1
    funext k
    exact hk k
  · intro hf
    rw [List.getElem?_map, List.getElem?_range hi]
    simp only [Option.map_some]
    rw [if_neg (by rw [hf]; simp)]
    simp [List.getD, hi]

/-- C21: the extrapolation passes through the stored states. -/
theorem C21_interpolates (n : Nat) (s : Nat → K)
    (hs : ∀ i j, i < n → j < n → s i = s j → i = j) (y : Nat → K) (i : Nat) (hi : i < n) :
    extrapolated n s (s i) y = y i := by
  obtain ⟨m, rfl⟩ : ∃ m, n = m + 1 := ⟨n - 1, by omega⟩
  have hinj : Set.InjOn s (Finset.range (m + 1) : Set Nat) := by
    intro i hi j hj h
    simp only [Finset.coe_range, Set.mem_Iio] at hi hj
    exact hs i j hi hj h
  have hsum : extrapolated (m + 1) s (s i) y =
      ∑ k ∈ Finset.range (m + 1), coefficient (m + 1) s (s i) k * y k := by
    rw [extrapolated, foldl_add_eq, Nat.add_sub_cancel, Finset.sum_range_succ', add_comm]
    congr 1
  rw [hsum, Finset.sum_eq_single i]
  · rw [coefficient_eq _ _ _ _ hi, Lagrange.eval_basis_self hinj (by simpa using hi), one_mul]
  · intro k hk hki
    rw [coefficient_eq _ _ _ _ (Finset.mem_range.1 hk), Lagrange.eval_basis_of_ne hki
      (by simpa using hi), zero_mul]
  · intro h; exact absurd (Finset.mem_range.2 hi) h

/-- Three distinct nodes, quadratic data: exact. -/
example : extrapolated (K := ℚ) 3 (fun k => 1 - k / 4) (5/4) (fun k => (1 - k / 4) ^ 2) = 25/16 := by
  decide +kernel

/-! ## C22 -/

/-- Full statement of C22: whenever the extrapolated lattice parameters differ from those of
the system, the system holds the extrapolated ones after `extrapolate`. -/
def C22_statement (K : Type) [Field K] [LinearOrder K] : Prop :=
  ∀ old system new : List K, old.length = system.length → new.length = system.length →
    systemCellAfter old system new = new

theorem newCellParams_cons (o p : K) (os ps : List K) :
    newCellParams (o :: os) (p :: ps) =
      if |o - p| < 1 / 10000000000 then false else newCellParams os ps := rfl

/-- What holds of C22: the transfer takes place when every parameter changed (relative to the
previous extrapolation) by at least 1e-10, or in the first extrapolation. -/
theorem C22_all_changed_partial (old system new : List K) (hlen : new.length = old.length)
    (h : ∀ i, (hi : i < old.length) → 1 / 10000000000 ≤ |old[i] - new[i]|) :
    systemCellAfter old system new = new := by
  have key : ∀ (old new : List K), new.length = old.length →
      (∀ i, (hi : i < old.length) → (hj : i < new.length) → 1 / 10000000000 ≤ |old[i] - new[i]|) →
      newCellParams old new = true := by
    intro old
    induction old with
    | nil => intro new _ _; rfl
    | cons o os ih =>
      intro new hl h
      cases new with
      | nil => simp at hl
      | cons p ps =>
        have h0 := h 0 (by simp) (by simp)
        simp only [List.getElem_cons_zero] at h0
        rw [newCellParams_cons]
        split
        · rename_i hlt
          exact absurd hlt (not_lt.2 h0)
        refine ih ps (by simpa using hl) fun i hi hj => ?_
        have := h (i + 1) (by simpa using hi) (by simpa using hj)
        simpa using this
  unfold systemCellAfter
  rw [key old new hlen (fun i hi hj => h i hi)]
  rfl

theorem C22_first_extrapolation_partial (system new : List K) :
    systemCellAfter [] system new = new := rfl

/-- C22 is violated in general: if a single parameter is unchanged (a rigid one, for instance)
none is transferred, however much the others changed. -/
theorem C22_one_unchanged_blocks (old system new : List K) (i : Nat) (hi : i < old.length)
    (hj : i < new.length) (hlen : new.length = old.length) (h : new[i] = old[i]) :
    systemCellAfter old system new = system := by
  have key : ∀ (old new : List K) (i : Nat) (hi : i < old.length) (hj : i < new.length),
      new.length = old.length → new[i] = old[i] → newCellParams old new = false := by
    intro old
    induction old with
    | nil => intro new i hi; simp at hi
    | cons o os ih =>
      intro new i hi hj hl h
      cases new with
      | nil => simp at hj
      | cons p ps =>
        rw [newCellParams_cons]
        split
        · rfl
        · rename_i hnl
          cases i with
          | zero =>
            exfalso
            apply hnl
            simp only [List.getElem_cons_zero] at h
            rw [h, sub_self, abs_zero]
            positivity
          | succ i =>
            exact ih ps i (by simpa using hi) (by simpa using hj) (by simpa using hl)
              (by simpa using h)
  unfold systemCellAfter
  rw [key old new i hi hj hlen h]
  rfl

theorem C22_violated : ¬ C22_statement K := by
  intro h
  have h1 := h [1, 1] [1, 1] [1, 2] rfl rfl
  rw [C22_one_unchanged_blocks [1, 1] [1, 1] [1, 2] 0 (by simp) (by simp) rfl rfl] at h1
  simp at h1

/-- Orthorhombic cell with rigid a: the extrapolated b and c never reach the system. -/
example :
    newParameters (K := ℚ) 2 (fun k => 1 - k) 2 [4, 5, 6] [false, true, true]
      (fun k => [4, 5 - k, 6 - k]) = [4, 6, 7] ∧
    systemCellAfter (K := ℚ) [4, 5, 6] [4, 5, 6] [4, 6, 7] = [4, 5, 6] := by
  decide +kernel

end Verif.Sweep
