import Verif.R1d.Model
import Verif.Math.TridiagProps
import Verif.Solver.Props
import Verif.Tac

/-!
# Lemmas about the one-dimensional solver
-/

set_option autoImplicit false
set_option linter.unusedSectionVars false

namespace Verif.R1d

open Verif.Chem Verif.Solver Verif.Math

/-! ### Adjoint operators -/

section Adj

variable {K : Type} [Field K]

/-- Weighted inner product. -/
def dotW (n : Nat) (W x y : Nat → K) : K := ∑ i ∈ Finset.range n, W i * (x i * y i)

theorem dotW_comm (n : Nat) (W x y : Nat → K) : dotW n W x y = dotW n W y x :=
  Finset.sum_congr rfl fun i _ => by rw [mul_comm (x i)]

theorem dotW_congr (n : Nat) (W : Nat → K) {x x' y y' : Nat → K} (h : ∀ i < n, x i = x' i)
    (h' : ∀ i < n, y i = y' i) : dotW n W x y = dotW n W x' y' :=
  Finset.sum_congr rfl fun i hi => by
    rw [h i (Finset.mem_range.1 hi), h' i (Finset.mem_range.1 hi)]

/-- A tridiagonal matrix that is symmetric after multiplication of its rows by `W`. -/
def Balanced (n : Nat) (W : Nat → K) (t : Tri K) : Prop :=
  ∀ i, i + 1 < n → W i * t.u i = W (i + 1) * t.l i

theorem tri_adj (n : Nat) (W : Nat → K) (t : Tri K) (h : Balanced n W t) (x y : Nat → K) :
    dotW n W (triMul n t.d t.u t.l x) y = dotW n W x (triMul n t.d t.u t.l y) := by
  have key : ∀ x y : Nat → K, dotW n W (triMul n t.d t.u t.l x) y =
      (∑ i ∈ Finset.range n, W i * t.d i * x i * y i) +
      (∑ i ∈ Finset.range (n - 1), W (i + 1) * t.l i * (x i * y (i + 1))) +
      ∑ i ∈ Finset.range (n - 1), W i * t.u i * (x (i + 1) * y i) := by
    intro x y
    unfold dotW triMul
    rcases n with _ | m
    · simp
    · have e : ∀ i, W i * ((t.d i * x i + (if 0 < i then t.l (i - 1) * x (i - 1) else 0) +
          (if i + 1 < m + 1 then t.u i * x (i + 1) else 0)) * y i) =
          W i * t.d i * x i * y i + (if 0 < i then W i * t.l (i - 1) * (x (i - 1) * y i) else 0) +
          (if i + 1 < m + 1 then W i * t.u i * (x (i + 1) * y i) else 0) := by
        intro i
        split_ifs <;> ring
      rw [Finset.sum_congr rfl fun i _ => e i, Finset.sum_add_distrib, Finset.sum_add_distrib]
      congr 1
      · congr 1
        rw [Finset.sum_range_succ']
        simp
      · rw [Finset.sum_range_succ]
        simp only [lt_irrefl, if_false, add_zero, Nat.add_sub_cancel]
        apply Finset.sum_congr rfl
        intro i hi
        rw [if_pos (by have := Finset.mem_range.1 hi; omega)]
  rw [dotW_comm n W x, key x y, key y x]
  have a : ∀ x y : Nat → K, (∑ i ∈ Finset.range (n - 1), W (i + 1) * t.l i * (x i * y (i + 1))) =
      ∑ i ∈ Finset.range (n - 1), W i * t.u i * (y (i + 1) * x i) := by
    intro x y
    apply Finset.sum_congr rfl
    intro i hi
    rw [h i (by have := Finset.mem_range.1 hi; omega), mul_comm (x i)]
  rw [a x y, a y x]
  have b : (∑ i ∈ Finset.range n, W i * t.d i * x i * y i) =
      ∑ i ∈ Finset.range n, W i * t.d i * y i * x i :=
    Finset.sum_congr rfl fun i _ => by ring
  rw [b]
  ring

/-- `B = 2 - A` as set up by `setupSolver`. -/
def Compl (A B : Tri K) : Prop :=
  ∀ i, B.d i = 2 - A.d i ∧ B.u i = -A.u i ∧ B.l i = -A.l i

/-- The right-hand side assembled by `step`. -/
theorem step_rhs (n : Nat) (hn : 1 < n) (B : Tri K) (q : Nat → K) (i : Nat) (hi : i < n) :
    (if i = 0 then B.d 0 * q 0 + B.u 0 * q 1
    else if i = n - 1 then B.d (n - 1) * q (n - 1) + B.l (n - 2) * q (n - 2)
    else B.d i * q i + B.l (i - 1) * q (i - 1) + B.u i * q (i + 1)) =
      triMul n B.d B.u B.l q i := by
  unfold triMul
  by_cases h0 : i = 0
  · subst h0; simp [hn]
  · rw [if_neg h0, if_pos (Nat.pos_of_ne_zero h0)]
    by_cases h1 : i = n - 1
    · rw [if_pos h1, if_neg (by omega), h1, show n - 1 - 1 = n - 2 by omega]; ring
    · rw [if_neg h1, if_pos (by omega)]

theorem fwd_congr (t : Tri K) {b b' : Nat → K} : ∀ i, (∀ j ≤ i, b j = b' j) → t.fwd b i = t.fwd b' i
  | 0, h => h 0 (le_refl _)
  | i + 1, h => by
    unfold Tri.fwd
    rw [h (i + 1) (le_refl _), fwd_congr t i (fun j hj => h j (by omega))]

theorem back_congr (t : Tri K) (n : Nat) (hn : 0 < n) {y y' : Nat → K} (h : ∀ i < n, y i = y' i) :
    ∀ k, k < n → t.back n y k = t.back n y' k
  | 0, _ => by unfold Tri.back; rw [h (n - 1) (by omega)]
  | k + 1, hk => by
    unfold Tri.back
    rw [h (n - 2 - k) (by omega), back_congr t n hn h k (by omega)]

theorem solve_congr (t : Tri K) (n : Nat) {b b' : Nat → K} (h : ∀ i < n, b i = b' i) (i : Nat)
    (hi : i < n) : t.solve n b i = t.solve n b' i := by
  unfold Tri.solve
  exact back_congr t n (by omega) (fun j hj => fwd_congr t j (fun k hk => h k (by omega))) _
    (by omega)

/-- `step` solves `A q' = B q`. -/
theorem step_spec (n : Nat) (hn : 1 < n) (A B : Tri K) (hp : ∀ i, i < n → A.dLU i ≠ 0)
    (q : Nat → K) (i : Nat) (hi : i < n) :
    triMul n A.d A.u A.l (step n A B q) i = triMul n B.d B.u B.l q i := by
  unfold step
  rw [C19_solve_correct A n hp _ i hi]
  exact step_rhs n hn B q i hi

theorem tri_congr (n : Nat) (t : Tri K) {x y : Nat → K} (h : ∀ i < n, x i = y i) (i : Nat)
    (hi : i < n) : triMul n t.d t.u t.l x i = triMul n t.d t.u t.l y i := by
  unfold triMul
  rw [h i hi]
  congr 1
  · congr 1
    split_ifs with h0
    · rw [h (i - 1) (by omega)]
    · rfl
  · split_ifs with h0
    · rw [h (i + 1) h0]
    · rfl

theorem tri_inj (n : Nat) (t : Tri K) (hp : ∀ i, i < n → t.dLU i ≠ 0) {x y : Nat → K}
    (h : ∀ i < n, triMul n t.d t.u t.l x i = triMul n t.d t.u t.l y i) (i : Nat) (hi : i < n) :
    x i = y i := by
  rw [← C19_solve_multiply t n hp x i hi, ← C19_solve_multiply t n hp y i hi]
  apply solve_congr t n _ i hi
  intro j hj
  rw [C19_multiply t n (fun k hk => hp k (by omega)) x j hj,
    C19_multiply t n (fun k hk => hp k (by omega)) y j hj]
  exact h j hj

theorem compl_mul (n : Nat) (A B : Tri K) (hc : Compl A B) (x : Nat → K) (i : Nat) :
    triMul n B.d B.u B.l x i = 2 * x i - triMul n A.d A.u A.l x i := by
  unfold triMul
  rw [(hc i).1, (hc i).2.1, (hc (i - 1)).2.2]
  split_ifs <;> ring

/-- One Crank–Nicolson step is self-adjoint in the weighted inner product. -/
theorem step_adj (n : Nat) (hn : 1 < n) (W : Nat → K) (A B : Tri K)
    (hp : ∀ i, i < n → A.dLU i ≠ 0) (hc : Compl A B) (hb : Balanced n W A) (x y : Nat → K) :
    dotW n W (step n A B x) y = dotW n W x (step n A B y) := by
  have hbB : Balanced n W B := by
    intro i hi
    rw [(hc i).2.1, (hc i).2.2, mul_neg, mul_neg, hb i hi]
  set z := A.solve n y with hz
  have hAz : ∀ i < n, triMul n A.d A.u A.l z i = y i := fun i hi => C19_solve_correct A n hp y i hi
  have e : ∀ i < n, step n A B y i = triMul n B.d B.u B.l z i := by
    apply tri_inj n A hp
    intro i hi
    rw [step_spec n hn A B hp y i hi]
    have h1 : ∀ j < n, triMul n B.d B.u B.l z j = 2 * z j - y j := fun j hj => by
      rw [compl_mul n A B hc, hAz j hj]
    rw [tri_congr n A h1 i hi, compl_mul n A B hc]
    have h2 : triMul n A.d A.u A.l (fun j => 2 * z j - y j) i =
        2 * triMul n A.d A.u A.l z i - triMul n A.d A.u A.l y i := by
      unfold triMul
      split_ifs <;> ring
    rw [h2, hAz i hi]
  rw [dotW_congr n W (fun _ _ => rfl) (fun i hi => (hAz i hi).symm), ← tri_adj n W A hb,
    dotW_congr n W (fun i hi => step_spec n hn A B hp x i hi) (fun _ _ => rfl), tri_adj n W B hbB]
  exact dotW_congr n W (fun _ _ => rfl) (fun i hi => (e i hi).symm)

/-- Product of a forward and a reverse propagator does not depend on the contour point. -/
theorem slices_const (n : Nat) (W : Nat → K) (b : Block K)
    (hadj : ∀ x y, dotW n W (step n b.A b.B x) y = dotW n W x (step n b.A b.B y))
    (h h' : Nat → K) (m : Nat) : ∀ j, j ≤ m →
    dotW n W (slices n b h j) (slices n b h' (m - j)) = dotW n W h (slices n b h' m)
  | 0, _ => rfl
  | j + 1, hj => by
    rw [← slices_const n W b hadj h h' m j (by omega)]
    rw [show m - j = (m - (j + 1)) + 1 by omega]
    exact hadj _ _

end Adj

/-! ### Plan -/

section Plan

variable {K : Type} [Field K] [LinearOrder K] {n : Nat} {blk : Nat → Block K} {es : List Edge} {vs : List Vertex}

/-- Value of the last slice of a solved propagator. -/
def tailOf (blk : Nat → Block K) (st : Pid → Option (Nat → Nat → K)) (s : Pid) : Nat → K :=
  match st s with
  | some q => q ((blk s.1).ns - 1)
  | none => fun _ => 0

/-- The first slice of a solved propagator. -/
def headOf (st : Pid → Option (Nat → Nat → K)) (s : Pid) : Nat → K :=
  match st s with
  | some q => q 0
  | none => fun _ => 0

theorem foldHead_congr (st st' : Pid → Option (Nat → Nat → K)) : ∀ (l : List Pid)
    (a : Option (Nat → K)), (∀ s ∈ l, st s = st' s) →
    l.foldl (fun acc s => match acc, st s with
      | some h, some q => some (fun i => h i * q ((blk s.1).ns - 1) i)
      | _, _ => none) a =
    l.foldl (fun acc s => match acc, st' s with
      | some h, some q => some (fun i => h i * q ((blk s.1).ns - 1) i)
      | _, _ => none) a
  | [], _, _ => rfl
  | s :: l, a, h => by
    simp only [List.foldl_cons]
    rw [h s (by simp)]
    exact foldHead_congr st st' l _ (fun s' hs' => h s' (by simp [hs']))

theorem foldHead_eq (st : Pid → Option (Nat → Nat → K)) : ∀ (l : List Pid) (h : Nat → K),
    (∀ s ∈ l, (st s).isSome) →
    l.foldl (fun acc s => match acc, st s with
      | some h, some q => some (fun i => h i * q ((blk s.1).ns - 1) i)
      | _, _ => none) (some h) =
    some (fun i => h i * (l.map (fun s => tailOf blk st s i)).prod)
  | [], h, _ => by simp
  | s :: l, h, hs => by
    obtain ⟨q, hq⟩ := Option.isSome_iff_exists.1 (hs s (by simp))
    simp only [List.foldl_cons, hq]
    rw [foldHead_eq st l _ (fun s' hs' => hs s' (by simp [hs']))]
    congr 1
    funext i
    simp only [List.map_cons, List.prod_cons, tailOf, hq]
    ring

/-- All processed propagators satisfy their equations. -/
structure Done (n : Nat) (blk : Nat → Block K) (es : List Edge) (vs : List Vertex)
    (done : List Pid) (st : Pid → Option (Nat → Nat → K)) : Prop where
  iff : ∀ p, (st p).isSome ↔ p ∈ done
  src : ∀ p ∈ done, ∀ s ∈ sources es vs p, s ∈ done
  eqn : ∀ p ∈ done, ∃ h, computeHead blk es vs st p = some h ∧ st p = some (slices n (blk p.1) h)

theorem solvePlan_done : ∀ (plan done : List Pid)
    (st st' : Pid → Option (Nat → Nat → K)), (done ++ plan).Nodup →
    Done n blk es vs done st → solvePlan n blk es vs plan st = .ok st' →
    Done n blk es vs (done ++ plan) st'
  | [], done, st, st', _, hd, h => by
    cases h
    simpa using hd
  | p :: ps, done, st, st', hn, hd, h => by
    unfold solvePlan at h
    split at h
    · rename_i hready
      have hsrc : ∀ s ∈ sources es vs p, s ∈ done := fun s hs =>
        (hd.iff s).1 (List.all_eq_true.1 hready s hs)
      have hp : p ∉ done := by
        intro hp
        rw [List.nodup_append] at hn
        exact hn.2.2 p hp p (by simp) rfl
      split at h
      · cases h
      · rename_i hh hhead
        set st1 : Pid → Option (Nat → Nat → K) := fun q =>
          if q = p then some (slices n (blk p.1) hh) else st q with hst1
        have hne : ∀ q ∈ done, st1 q = st q := by
          intro q hq
          have : q ≠ p := fun e => hp (e ▸ hq)
          simp [hst1, this]
        have hd1 : Done n blk es vs (done ++ [p]) st1 := by
          refine ⟨?_, ?_, ?_⟩
          · intro q
            by_cases hq : q = p
            · subst hq; simp [hst1]
            · simp only [hst1, if_neg hq, List.mem_append, List.mem_singleton, hq, or_false]
              exact hd.iff q
          · intro q hq s hs
            rw [List.mem_append] at hq
            rcases hq with hq | hq
            · exact List.mem_append_left _ (hd.src q hq s hs)
            · rw [List.mem_singleton] at hq
              subst hq
              exact List.mem_append_left _ (hsrc s hs)
          · intro q hq
            rw [List.mem_append] at hq
            rcases hq with hq | hq
            · obtain ⟨h1, h2, h3⟩ := hd.eqn q hq
              refine ⟨h1, ?_, ?_⟩
              · rw [← h2]
                exact foldHead_congr _ _ _ _ (fun s hs => hne s (hd.src q hq s hs))
              · rw [hne q hq]; exact h3
            · rw [List.mem_singleton] at hq
              subst hq
              refine ⟨hh, ?_, by simp [hst1]⟩
              rw [← hhead]
              exact foldHead_congr _ _ _ _ (fun s hs => hne s (hsrc s hs))
        have := solvePlan_done ps (done ++ [p]) st1 st' (by simpa using hn) hd1 h
        simpa using this
    · cases h

theorem solvePlan_ok : ∀ (plan : List Pid) (st : Pid → Option (Nat → Nat → K)),
    (∀ l1 p l2, plan = l1 ++ p :: l2 → ∀ s ∈ sources es vs p, (st s).isSome ∨ s ∈ l1) →
    ∃ st', solvePlan n blk es vs plan st = .ok st'
  | [], st, _ => ⟨st, rfl⟩
  | p :: ps, st, h => by
    have h0 : ∀ s ∈ sources es vs p, (st s).isSome := by
      intro s hs
      rcases h [] p ps rfl s hs with h1 | h1
      · exact h1
      · simp at h1
    unfold solvePlan
    rw [if_pos (List.all_eq_true.2 h0)]
    have hhd : ∃ hh, computeHead blk es vs st p = some hh := ⟨_, foldHead_eq st _ _ h0⟩
    obtain ⟨hh, hhd⟩ := hhd
    rw [hhd]
    apply solvePlan_ok ps
    intro l1 q l2 he s hs
    rcases h (p :: l1) q l2 (by simp [he]) s hs with h1 | h1
    · left
      by_cases hq : s = p
      · simp [hq]
      · simpa [hq] using h1
    · rw [List.mem_cons] at h1
      rcases h1 with h1 | h1
      · left; simp [h1]
      · right; exact h1

variable {plan : List Pid} {st : Pid → Option (Nat → Nat → K)}

theorem headOf_eq (hd : Done n blk es vs plan st) {p : Pid} (hm : p ∈ plan) (i : Nat) :
    headOf st p i = ((sources es vs p).map (fun s => tailOf blk st s i)).prod := by
  obtain ⟨h, h1, h2⟩ := hd.eqn p hm
  unfold headOf
  rw [h2]
  have e := foldHead_eq (blk := blk) st (sources es vs p) (fun _ => 1)
    (fun s hs => (hd.iff s).2 (hd.src p hm s hs))
  have h1 := e.symm.trans h1
  cases h1
  simp [slices]

theorem vertex_sum (W : Nat → K) (hv : makeVertices es = .ok vs) (hd : Done n blk es vs plan st)
    {p : Pid} (hp : p.1 < es.length) (hm : p ∈ plan) :
    dotW n W (headOf st p) (tailOf blk st (p.1, !p.2)) = ∑ i ∈ Finset.range n,
      W i * ((inIds vs (src es p)).map (fun s => tailOf blk st s i)).prod := by
  unfold dotW
  apply Finset.sum_congr rfl
  intro i _
  rw [headOf_eq hd hm, prod_sources hv hp (fun s => tailOf blk st s i)]

/-- Blocks whose step is self-adjoint. -/
def AdjAll (n : Nat) (W : Nat → K) (blk : Nat → Block K) (es : List Edge) : Prop :=
  ∀ k, k < es.length → ∀ x y, dotW n W (step n (blk k).A (blk k).B x) y =
    dotW n W x (step n (blk k).A (blk k).B y)

theorem block_sum {W : Nat → K} (hadj : AdjAll n W blk es) (hd : Done n blk es vs plan st) {p : Pid}
    (hp : p.1 < es.length) (hm : p ∈ plan) (hm' : (p.1, !p.2) ∈ plan) :
    dotW n W (headOf st p) (tailOf blk st (p.1, !p.2)) =
      dotW n W (headOf st (p.1, !p.2)) (tailOf blk st p) := by
  obtain ⟨h, _, h2⟩ := hd.eqn p hm
  obtain ⟨h', _, h2'⟩ := hd.eqn _ hm'
  unfold headOf tailOf
  rw [h2, h2']
  change dotW n W h (slices n (blk p.1) h' _) = dotW n W h' (slices n (blk p.1) h _)
  rw [← slices_const n W _ (hadj p.1 hp) h h' _ _ (le_refl _), Nat.sub_self, dotW_comm]
  rfl

theorem all_sums {W : Nat → K} {fuel : Nat} {P : Polymer}
    (hread : readTopology es fuel = some (.ok P)) (hadj : AdjAll n W blk es)
    (hv : makeVertices es = .ok vs) (hd : Done n blk es vs plan st)
    (hc : ∀ p, p ∈ plan ↔ p.1 < es.length) (p p' : Pid) (hp : p.1 < es.length)
    (hp' : p'.1 < es.length) :
    dotW n W (headOf st p) (tailOf blk st (p.1, !p.2)) =
      dotW n W (headOf st p') (tailOf blk st (p'.1, !p'.2)) := by
  have htree := C10_accepted_is_tree_partial es fuel P hread
  have hwf := (makeVertices_inv hv).1
  set V : Int → K := fun v => ∑ i ∈ Finset.range n,
    W i * ((inIds vs v).map (fun s => tailOf blk st s i)).prod with hV
  have hpV : ∀ q : Pid, q.1 < es.length →
      dotW n W (headOf st q) (tailOf blk st (q.1, !q.2)) = V (src es q) := fun q hq =>
    vertex_sum W hv hd hq ((hc q).2 hq)
  have hends : ∀ b : Nat, b < es.length → V (edge es b).1 = V (edge es b).2 := by
    intro b hb
    have h1 := hpV (b, false) hb
    have h2 := hpV (b, true) hb
    have h3 := block_sum hadj hd (p := (b, false)) hb ((hc _).2 hb) ((hc _).2 hb)
    have e1 : src es (b, false) = (edge es b).1 := rfl
    have e2 : src es (b, true) = (edge es b).2 := rfl
    rw [e1] at h1; rw [e2] at h2
    rw [← h1, ← h2, h3]
    rfl
  have hadjG : ∀ u w : Fin (es.length + 1), (blockGraph es).Adj u w →
      V ((u : Nat) : Int) = V ((w : Nat) : Int) := by
    intro u w ⟨_, h⟩
    rcases h with h | h
    all_goals
      obtain ⟨b, hb, hbe⟩ := List.mem_iff_getElem.1 h
      have := hends b hb
      unfold Chem.edge at this
      rw [show es.getD b (0, 0) = es[b] by simp [List.getD, hb], hbe] at this
      first | exact this | exact this.symm
  have hreach : ∀ u w : Fin (es.length + 1), V ((u : Nat) : Int) = V ((w : Nat) : Int) := by
    intro u w
    obtain ⟨walk⟩ := htree.tree.connected.preconnected u w
    induction walk with
    | nil => rfl
    | cons ha _ ih => exact (hadjG _ _ ha).trans ih
  rw [hpV p hp, hpV p' hp']
  have r1 := hwf.srcRange hp
  have r2 := hwf.srcRange hp'
  have := hreach ⟨(src es p).toNat, by omega⟩ ⟨(src es p').toNat, by omega⟩
  simp only [Int.toNat_of_nonneg r1.1, Int.toNat_of_nonneg r2.1] at this
  exact this

theorem plan_facts {fuel : Nat} {P : Polymer} (hread : readTopology es fuel = some (.ok P)) :
    P.edges = es ∧ makeVertices es = .ok P.vertices ∧ ValidSchedule es P.plan := by
  obtain ⟨h1, h2, _, ⟨f, h4⟩, h5, _⟩ := readTopology_inv hread
  refine ⟨h1, h2, h4.nodup, ?_, h4.order⟩
  have h6 : P.plan.length = es.length * 2 := h5
  have hsub : P.plan.Subperm (allPids es.length) := List.subperm_of_subset h4.nodup
    (fun p hp => (allPids_mem _ p).2 (h4.valid p hp))
  have hperm := hsub.perm_of_length_le (by rw [allPids_length]; omega)
  intro p
  rw [hperm.mem_iff, allPids_mem]

end Plan

end Verif.R1d
