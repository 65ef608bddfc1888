import Verif.Cuda.Gpu
import Verif.Tac

/-!
# Race-free programs are deterministic
-/

set_option autoImplicit false

namespace Verif.Cuda

variable {K : Type}

/-- Continuation of a thread alone. -/
def execT (th : Thread K) (m : Nat → K) : Nat → K :=
  match th.prog with
  | [] => m
  | i :: p => exec p (Function.update m i.dst (i.f (th.regs ++ i.srcs.map m)))

theorem execT_nil (p : List (Instr K)) (m : Nat → K) : execT ⟨[], p⟩ m = exec p m := by
  cases p <;> simp [execT, exec]

/-- Footprint of a program. -/
def Touches (p : List (Instr K)) (x : Nat) : Prop := ∃ i ∈ p, x = i.dst ∨ x ∈ i.srcs

theorem exec_congr : ∀ (p : List (Instr K)) (m m' : Nat → K) (x : Nat),
    (∀ y, Touches p y → m y = m' y) → m x = m' x → exec p m x = exec p m' x
  | [], m, m', x, _, hx => hx
  | i :: p, m, m', x, h, hx => by
    have hs : i.srcs.map m = i.srcs.map m' :=
      List.map_congr_left fun y hy => h y ⟨i, by simp, Or.inr hy⟩
    refine exec_congr p _ _ x (fun y hy => ?_) ?_
    · by_cases e : y = i.dst
      · subst e; simp [hs]
      · rw [Function.update_of_ne e, Function.update_of_ne e]
        obtain ⟨j, hj, hy⟩ := hy
        exact h y ⟨j, by simp [hj], hy⟩
    · by_cases e : x = i.dst
      · subst e; simp [hs]
      · rw [Function.update_of_ne e, Function.update_of_ne e, hx]

theorem execT_congr (th : Thread K) (m m' : Nat → K) (x : Nat)
    (h : ∀ y, Touches th.prog y → m y = m' y) (hx : m x = m' x) :
    execT th m x = execT th m' x := by
  obtain ⟨r, p⟩ := th
  cases p with
  | nil => exact hx
  | cons i p =>
    have hs : i.srcs.map m = i.srcs.map m' :=
      List.map_congr_left fun y hy => h y ⟨i, by simp, Or.inr hy⟩
    simp only [execT]
    refine exec_congr p _ _ x (fun y hy => ?_) ?_
    · by_cases e : y = i.dst
      · subst e; simp [hs]
      · rw [Function.update_of_ne e, Function.update_of_ne e]
        obtain ⟨j, hj, hy⟩ := hy
        exact h y ⟨j, by simp [hj], hy⟩
    · by_cases e : x = i.dst
      · subst e; simp [hs]
      · rw [Function.update_of_ne e, Function.update_of_ne e, hx]

/-- A location written by a program. -/
def Writes (p : List (Instr K)) (x : Nat) : Prop := ∃ i ∈ p, i.dst = x

theorem exec_other : ∀ (p : List (Instr K)) (m : Nat → K) (x : Nat), ¬ Writes p x →
    exec p m x = m x
  | [], _, _, _ => rfl
  | i :: p, m, x, h => by
    rw [exec, exec_other p _ x fun ⟨j, hj, e⟩ => h ⟨j, by simp [hj], e⟩,
      Function.update_of_ne fun e => h ⟨i, by simp, e.symm⟩]

/-- Remaining program of a thread is a part of its original program. -/
def Sub (p p0 : List (Instr K)) : Prop :=
  ∀ i ∈ p, ∃ j ∈ p0, i.dst = j.dst ∧ ∀ s ∈ i.srcs, s ∈ j.srcs

/-- Invariant of the execution of a race-free program. -/
structure Inv (progs : Nat → List (Instr K)) (m0 : Nat → K) (g : Gpu K) : Prop where
  sub : ∀ t, Sub (g.th t).prog (progs t)
  same : ∀ t x, (Writes (progs t) x ∨ ∀ u, ¬ Writes (progs u) x) →
    execT (g.th t) g.mem x = exec (progs t) m0 x

theorem inv_launch (progs : Nat → List (Instr K)) (m0 : Nat → K) :
    Inv progs m0 (launch m0 progs) where
  sub t i hi := ⟨i, hi, rfl, fun _ h => h⟩
  same t x _ := by rw [launch]; simp only; rw [execT_nil]

theorem Inv.step {progs : Nat → List (Instr K)} (hr : RaceFree progs) {m0 : Nat → K}
    {g : Gpu K} (h : Inv progs m0 g) (t : Nat) : Inv progs m0 (g.step t) := by
  unfold Gpu.step
  split
  · exact h
  · rename_i dst f rest hp
    have hsub := h.sub t
    rw [hp] at hsub
    obtain ⟨j, hj, hd, -⟩ := hsub ⟨dst, [], f⟩ (by simp)
    simp only at hd
    refine ⟨fun u => ?_, fun u x hx => ?_⟩
    · by_cases e : u = t
      · subst e
        simp only [Function.update_self]
        exact fun i hi => hsub i (by simp [hi])
      · simp only [Function.update_of_ne e]; exact h.sub u
    · by_cases e : u = t
      · subst e
        have h1 := h.same u x hx
        rw [← h1]
        simp only [Function.update_self, execT_nil]
        rw [execT, hp]
        simp
      · simp only [Function.update_of_ne e]
        rw [← h.same u x hx]
        refine execT_congr _ _ _ _ (fun y hy => ?_) ?_
        · refine Function.update_of_ne ?_ _ _
          rintro rfl
          obtain ⟨i, hi, hy⟩ := hy
          obtain ⟨k, hk, hkd, hks⟩ := h.sub u i hi
          have := hr t u (Ne.symm e) j hj k hk
          rcases hy with hy | hy
          · exact this.1 (by rw [← hd, hy, hkd])
          · exact this.2 (by rw [← hd]; exact hks _ hy)
        · refine Function.update_of_ne ?_ _ _
          rintro rfl
          rcases hx with ⟨k, hk, hkx⟩ | hx
          · exact (hr t u (Ne.symm e) j hj k hk).1 (by rw [← hd, hkx])
          · exact hx t ⟨j, hj, hd.symm⟩
  · rename_i dst s ss f rest hp
    have hsub := h.sub t
    rw [hp] at hsub
    refine ⟨fun u => ?_, fun u x hx => ?_⟩
    · by_cases e : u = t
      · subst e
        simp only [Function.update_self]
        intro i hi
        rcases List.mem_cons.1 hi with rfl | hi
        · obtain ⟨j, hj, hd, hs⟩ := hsub ⟨dst, s :: ss, f⟩ (by simp)
          exact ⟨j, hj, hd, fun y hy => hs y (by simp only at hy ⊢; simp [hy])⟩
        · exact hsub i (by simp [hi])
      · simp only [Function.update_of_ne e]; exact h.sub u
    · by_cases e : u = t
      · subst e
        rw [← h.same u x hx]
        simp only [Function.update_self]
        simp only [execT, hp]
        simp
      · simp only [Function.update_of_ne e]
        exact h.same u x hx

theorem Inv.run {progs : Nat → List (Instr K)} (hr : RaceFree progs) {m0 : Nat → K} :
    ∀ (sch : List Nat) {g : Gpu K}, Inv progs m0 g → Inv progs m0 (g.run sch)
  | [], _, h => h
  | t :: sch, _, h => Inv.run hr sch (h.step hr t)

theorem cost_step (g : Gpu K) (t u : Nat) :
    cost ((g.step t).th u).prog = cost (g.th u).prog - if t = u then 1 else 0 := by
  unfold Gpu.step
  split
  · rename_i hp
    split_ifs with e
    · subst e; rw [hp]; simp [cost]
    · rfl
  · rename_i dst f rest hp
    by_cases e : t = u
    · subst e; simp [hp, cost]
    · simp [Function.update_of_ne (Ne.symm e), e]
  · rename_i dst s ss f rest hp
    by_cases e : t = u
    · subst e; simp [hp, cost]
    · simp [Function.update_of_ne (Ne.symm e), e]

theorem cost_run (u : Nat) : ∀ (sch : List Nat) (g : Gpu K),
    cost ((g.run sch).th u).prog = cost (g.th u).prog - sch.count u
  | [], g => by simp [Gpu.run]
  | t :: sch, g => by
    have := cost_run u sch (g.step t)
    rw [Gpu.run, List.foldl_cons]
    rw [Gpu.run] at this
    rw [this, cost_step, List.count_cons]
    by_cases e : t = u
    · simp [e]; omega
    · simp [e]

theorem cost_zero {p : List (Instr K)} (h : cost p = 0) : p = [] := by
  cases p with
  | nil => rfl
  | cons i p => simp [cost] at h

theorem fair_done {progs : Nat → List (Instr K)} {sch : List Nat} (hf : Fair progs sch)
    (m0 : Nat → K) (t : Nat) : (((launch m0 progs).run sch).th t).prog = [] := by
  refine cost_zero ?_
  rw [cost_run]
  have := hf t
  simp only [launch]
  omega

/-- Every fair schedule of a race-free program gives the same memory. -/
theorem race_free {progs : Nat → List (Instr K)} (hr : RaceFree progs) {sch : List Nat}
    (hf : Fair progs sch) (m0 : Nat → K) :
    (∀ t x, Writes (progs t) x → runAll progs sch m0 x = exec (progs t) m0 x) ∧
    ∀ x, (∀ t, ¬ Writes (progs t) x) → runAll progs sch m0 x = m0 x := by
  have hi := (inv_launch progs m0).run hr sch
  have key : ∀ t x, (Writes (progs t) x ∨ ∀ u, ¬ Writes (progs u) x) →
      runAll progs sch m0 x = exec (progs t) m0 x := by
    intro t x hx
    have h1 := hi.same t x hx
    rw [← h1, execT, fair_done hf m0 t]
    rfl
  refine ⟨fun t x hx => key t x (.inl hx), fun x hx => ?_⟩
  rw [key 0 x (.inr hx), exec_other _ _ _ (hx 0)]

end Verif.Cuda
