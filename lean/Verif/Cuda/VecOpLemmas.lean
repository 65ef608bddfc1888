import Verif.Cuda.VecOp
import Verif.Cuda.GpuLemmas
import Verif.Cuda.ConfigLemmas
import Verif.Tac

/-!
# Lemmas about kernels with grid-stride loops
-/

set_option autoImplicit false
set_option linter.unusedSectionVars false

namespace Verif.Cuda

variable {K : Type} [Inhabited K]

theorem mem_stride {n N : Nat} (hN : 0 < N) : ∀ (k t i : Nat), n - t ≤ k →
    (i ∈ strideFrom n N t ↔ i < n ∧ t ≤ i ∧ i % N = t % N)
  | k, t, i, hk => by
    rw [strideFrom]
    split_ifs with h
    · match k with
      | 0 => omega
      | k + 1 =>
        rw [List.mem_cons, mem_stride hN k (t + N) i (by omega), Nat.add_mod_right]
        constructor
        · rintro (rfl | ⟨h1, h2, h3⟩)
          · exact ⟨h.1, le_rfl, rfl⟩
          · exact ⟨h1, by omega, h3⟩
        · rintro ⟨h1, h2, h3⟩
          rcases Nat.eq_or_lt_of_le h2 with h4 | h4
          · exact .inl h4.symm
          · refine .inr ⟨h1, ?_, h3⟩
            have h6 := Nat.dvd_of_mod_eq_zero (Nat.sub_mod_eq_zero_of_mod_eq h3)
            have := Nat.le_of_dvd (by omega) h6
            omega
    · simp only [List.not_mem_nil, false_iff]
      rintro ⟨h1, h2, -⟩
      exact h ⟨by omega, hN⟩

theorem nodup_stride {n N : Nat} (hN : 0 < N) : ∀ (k t : Nat), n - t ≤ k →
    (strideFrom n N t).Nodup
  | k, t, hk => by
    rw [strideFrom]
    split_ifs with h
    · match k with
      | 0 => omega
      | k + 1 =>
        rw [List.nodup_cons]
        refine ⟨fun hm => ?_, nodup_stride hN k (t + N) (by omega)⟩
        have := (mem_stride hN k (t + N) t (by omega)).1 hm
        omega
    · exact List.nodup_nil

theorem exec_append : ∀ (p q : List (Instr K)) (m : Nat → K), exec (p ++ q) m = exec q (exec p m)
  | [], _, _ => rfl
  | i :: p, q, m => by rw [List.cons_append, exec, exec, exec_append p q]

/-- Iterations for different indices do not interfere. -/
def Indep (n : Nat) (body : Nat → List (Instr K)) : Prop :=
  ∀ i < n, ∀ j < n, i ≠ j → ∀ p ∈ body i, ∀ q ∈ body j, p.dst ≠ q.dst ∧ p.dst ∉ q.srcs

theorem indep_untouched {n : Nat} {body : Nat → List (Instr K)} (h : Indep n body) {i j : Nat}
    (hi : i < n) (hj : j < n) (hij : i ≠ j) {x : Nat} (hx : Touches (body i) x) :
    ¬ Writes (body j) x := by
  rintro ⟨q, hq, rfl⟩
  obtain ⟨p, hp, e⟩ := hx
  have := h j hj i hi hij.symm q hq p hp
  rcases e with e | e
  · exact this.1 e
  · exact this.2 e

theorem exec_flatMap {n : Nat} {body : Nat → List (Instr K)} (h : Indep n body) :
    ∀ (l : List Nat), (∀ i ∈ l, i < n) → l.Nodup → ∀ (m : Nat → K) (i : Nat), i ∈ l →
      ∀ x, Writes (body i) x → exec (l.flatMap body) m x = exec (body i) m x
  | [], _, _, _, _, hi, _, _ => by simp at hi
  | j :: l, hl, hn, m, i, hi, x, hx => by
    rw [List.flatMap_cons, exec_append]
    rw [List.nodup_cons] at hn
    have hin : i < n := hl i hi
    have htx : Touches (body i) x := by
      obtain ⟨p, hp, e⟩ := hx
      exact ⟨p, hp, .inl e.symm⟩
    by_cases hij : i = j
    · subst hij
      refine exec_other _ _ _ ?_
      rintro ⟨q, hq, e⟩
      rw [List.mem_flatMap] at hq
      obtain ⟨k, hk, hq⟩ := hq
      exact indep_untouched h hin (hl k (by simp [hk])) (fun e => hn.1 (e ▸ hk)) htx ⟨q, hq, e⟩
    · have hj : j < n := hl j (by simp)
      rw [exec_flatMap h l (fun k hk => hl k (by simp [hk])) hn.2 _ i
        ((List.mem_cons.1 hi).resolve_left hij) x hx]
      refine exec_congr _ _ _ _ (fun y hy => ?_) ?_
      · exact exec_other _ _ _ (indep_untouched h hin hj hij hy)
      · exact exec_other _ _ _ (indep_untouched h hin hj hij htx)

theorem kernel_mem {N n t : Nat} (hN : 0 < N) {body : Nat → List (Instr K)} {p : Instr K}
    (h : p ∈ kernelProg N n body t) : ∃ i < n, i % N = t ∧ p ∈ body i := by
  unfold kernelProg at h
  split_ifs at h with ht
  · obtain ⟨i, hi, hp⟩ := List.mem_flatMap.1 h
    obtain ⟨h1, -, h3⟩ := (mem_stride hN _ t i le_rfl).1 hi
    exact ⟨i, h1, by rw [h3, Nat.mod_eq_of_lt ht], hp⟩
  · simp at h

/-- A kernel with independent iterations computes each of them on the initial memory. -/
theorem kernel_elementwise {N n : Nat} (hN : 0 < N) {body : Nat → List (Instr K)}
    (h : Indep n body) {sch : List Nat} (hf : Fair (kernelProg N n body) sch) (m : Nat → K) :
    (∀ i < n, ∀ x, Writes (body i) x → runAll (kernelProg N n body) sch m x = exec (body i) m x) ∧
    ∀ x, (∀ i < n, ¬ Writes (body i) x) → runAll (kernelProg N n body) sch m x = m x := by
  have hr : RaceFree (kernelProg N n body) := by
    intro t u htu p hp q hq
    obtain ⟨i, hi, rfl, hp2⟩ := kernel_mem hN hp
    obtain ⟨j, hj, rfl, hq2⟩ := kernel_mem hN hq
    exact h i hi j hj (fun e => htu (e ▸ rfl)) p hp2 q hq2
  obtain ⟨r1, r2⟩ := race_free hr hf m
  constructor
  · intro i hi x hx
    have ht : i % N < N := Nat.mod_lt _ hN
    have hm : i ∈ strideFrom n N (i % N) :=
      (mem_stride hN _ _ i le_rfl).2 ⟨hi, Nat.mod_le i N, (Nat.mod_mod i N).symm⟩
    have hw : Writes (kernelProg N n body (i % N)) x := by
      obtain ⟨p, hp, e⟩ := hx
      refine ⟨p, ?_, e⟩
      rw [kernelProg, if_pos ht, List.mem_flatMap]
      exact ⟨i, hm, hp⟩
    rw [r1 _ x hw, kernelProg, if_pos ht]
    exact exec_flatMap h _ (fun k hk => ((mem_stride hN _ _ k le_rfl).1 hk).1)
      (nodup_stride hN _ _ le_rfl) m i hm x hx
  · intro x hx
    refine r2 x fun t => ?_
    rintro ⟨p, hp, e⟩
    obtain ⟨i, hi, -, hp⟩ := kernel_mem hN hp
    exact hx i hi ⟨p, hp, e⟩

/-- Two ranges of `w * n` addresses are equal or have no address in common. -/
def Apart (w n a b : Nat) : Prop := a = b ∨ a + w * n ≤ b ∨ b + w * n ≤ a

/-- No address in common. -/
def Disj (w n a b : Nat) : Prop := a + w * n ≤ b ∨ b + w * n ≤ a

theorem Apart.ne {w n a b : Nat} (h : Apart w n a b) {k l : Nat} (hk : k < w * n) (hl : l < w * n)
    (hkl : k ≠ l) : ¬ a + k = b + l := by
  unfold Apart at h
  generalize w * n = m at *
  omega

theorem Disj.apart {w n a b : Nat} (h : Disj w n a b) : Apart w n a b := .inr h

theorem Apart.symm {w n a b : Nat} (h : Apart w n a b) : Apart w n b a :=
  h.elim (fun e => .inl e.symm) fun h => .inr h.symm

theorem Disj.symm {w n a b : Nat} (h : Disj w n a b) : Disj w n b a := h.elim .inr .inl

theorem Disj.ne {w n a b : Nat} (h : Disj w n a b) {k l : Nat} (hk : k < w * n) (hl : l < w * n) :
    a + k ≠ b + l := by
  unfold Disj at h
  generalize w * n = m at *
  omega

theorem launch_threads {d : Device} {cs : List TACall} {s s' : TA}
    (h : TA.start.calls d cs = .ok s) {n : Nat} (hn : 0 < n)
    (hs : s.setThreadsLogical d n = .ok s') : n ≤ s'.blocks * s'.tpb := by
  obtain ⟨h1, h2, h3, h4, -⟩ := logical_ok (calls_ok (TA.start_ok d) h) hn hs
  obtain ⟨⟨k, hk⟩, -, -⟩ := h1.pow _ h2
  have hT : 0 < s'.tpb := by rw [hk]; positivity
  have e1 := Nat.div_add_mod (n + s'.tpb - 1) s'.tpb
  have e2 := Nat.mod_lt (n + s'.tpb - 1) hT
  rw [← h4, mul_comm] at e1
  omega

theorem vecLaunch_ok {d : Device} {s s' : TA} {n : Nat} {body : Nat → List (Instr K)}
    {sch : List Nat} {mem mem' : Nat → K} (h : vecLaunch d s n body sch mem = .ok (s', mem')) :
    s.setThreadsLogical d n = .ok s' ∧
      mem' = runAll (kernelProg (s'.blocks * s'.tpb) n body) sch mem := by
  unfold vecLaunch at h
  rw [Res.bind_eq_ok] at h
  obtain ⟨t, h1, h2⟩ := h
  injection h2 with h2
  obtain ⟨rfl, rfl⟩ := Prod.mk.inj h2
  exact ⟨h1, rfl⟩

theorem fair_of_count {N n c : Nat} (hN : n ≤ N) {body : Nat → List (Instr K)}
    (hc : ∀ i < n, cost (body i) ≤ c) {sch : List Nat} (hs : ∀ t < n, c ≤ sch.count t) :
    Fair (kernelProg N n body) sch := by
  intro t
  unfold kernelProg
  split_ifs with ht
  · rw [strideFrom]
    split_ifs with h
    · rw [strideFrom, if_neg (by omega), List.flatMap_cons, List.flatMap_nil, List.append_nil]
      exact (hc t h.1).trans (hs t h.1)
    · simp [cost]
  · simp [cost]

/-- Launch of a kernel with independent iterations. -/
theorem vec_elementwise {d : Device} {cs : List TACall} {s s' : TA}
    (h : TA.start.calls d cs = .ok s) {n c : Nat} {body : Nat → List (Instr K)}
    (hi : Indep n body) (hc : ∀ i < n, cost (body i) ≤ c) {sch : List Nat}
    (hs : ∀ t < n, c ≤ sch.count t) {mem mem' : Nat → K} (hn : 0 < n)
    (hr : vecLaunch d s n body sch mem = .ok (s', mem')) :
    (∀ i < n, ∀ x, Writes (body i) x → mem' x = exec (body i) mem x) ∧
    ∀ x, (∀ i < n, ¬ Writes (body i) x) → mem' x = mem x := by
  obtain ⟨h1, rfl⟩ := vecLaunch_ok hr
  have hN := launch_threads h hn h1
  exact kernel_elementwise (by omega) hi (fair_of_count hN hc hs) mem

end Verif.Cuda
