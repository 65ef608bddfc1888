import Verif.Solver.Model
import Verif.Chem.Props
import Verif.Tac
import Mathlib.Algebra.BigOperators.Group.List.Basic
import Mathlib.Algebra.BigOperators.Ring.Finset

/-! Lemmas for `Verif.Solver.Props`. -/

set_option autoImplicit false
set_option linter.unusedSectionVars false

namespace Verif.Solver

open Verif.Chem

section Adjoint

variable {K : Type} [Field K] {n : Nat} {κ : Type}

/-- Sum over grid points of the product of two fields (specification). -/
def dot (x y : Fld n K) : K := ∑ i, x i * y i

/-- Contract of FFT, multiplication by a real array and inverse FFT: a symmetric operator. -/
def SelfAdjoint (kin : Kin K n κ) : Prop := ∀ f x y, dot (kin f x) y = dot x (kin f y)

theorem prodSum_eq (x y : Fld n K) : prodSum x y = dot x y := by
  simp [prodSum, accum_eq, dot]

/-- Pointwise product. -/
def mulF (d q : Fld n K) : Fld n K := fun i => q i * d i

theorem dot_mulF (d x y : Fld n K) : dot (mulF d x) y = dot x (mulF d y) := by
  unfold dot mulF
  exact Finset.sum_congr rfl (fun i _ => by ring)

theorem dot_comm (x y : Fld n K) : dot x y = dot y x := by
  unfold dot; exact Finset.sum_congr rfl (fun i _ => by ring)

theorem dot_rich (x y z : Fld n K) :
    dot (fun i => (4 * x i - y i) / 3) z = (4 * dot x z - dot y z) / 3 := by
  unfold dot
  rw [Finset.mul_sum, ← Finset.sum_sub_distrib, Finset.sum_div]
  exact Finset.sum_congr rfl (fun i _ => by ring)

variable {kin : Kin K n κ}

theorem stepThread_adj (h : SelfAdjoint kin) (b : Arrays K n κ) (x y : Fld n K) :
    dot (stepThread kin b x) y = dot x (stepThread kin b y) := by
  have e : ∀ q, stepThread kin b q = fun i =>
      (4 * mulF b.expW2 (kin b.expKsq2 (mulF b.expW (kin b.expKsq2 (mulF b.expW2 q)))) i
        - mulF b.expW (kin b.expKsq (mulF b.expW q)) i) / 3 := fun q => rfl
  rw [e x, dot_rich, dot_comm x, e y, dot_rich]
  congr 2
  · congr 1
    rw [dot_mulF, h, dot_mulF, h, dot_mulF, dot_comm]
  · rw [dot_mulF, h, dot_mulF, dot_comm]

/-- The product of forward and reverse slices has the same sum at every contour point. -/
theorem thread_const (h : SelfAdjoint kin) (b : Arrays K n κ) (h0 h1 : Fld n K) (m : Nat) :
    ∀ j, j ≤ m → dot (slicesThread kin b h0 j) (slicesThread kin b h1 (m - j)) =
      dot h0 (slicesThread kin b h1 m)
  | 0, _ => rfl
  | j + 1, hj => by
    have ih := thread_const h b h0 h1 m j (by omega)
    rw [← ih, show m - j = (m - (j + 1)) + 1 by omega]
    exact stepThread_adj h b _ _

/-! ### Bead model -/

theorem stepBead_eq (b : Arrays K n κ) (q : Fld n K) :
    stepBead kin b q = mulF b.expW (kin b.expKsq q) := rfl

/-- Beads before the field weight of the last bead is applied. -/
theorem bead_pair (h : SelfAdjoint kin) (b : Arrays K n κ) (hw : ∀ i, b.expW i * b.expWInv i = 1)
    (e0 e1 : Bool) (h0 h1 : Fld n K) (m : Nat) :
    ∀ j, j ≤ m →
      dot (beads kin b e0 h0 j) (mulF b.expWInv (beads kin b e1 h1 (m - j))) =
      dot (beads kin b e0 h0 0) (mulF b.expWInv (beads kin b e1 h1 m))
  | 0, _ => rfl
  | j + 1, hj => by
    have ih := bead_pair h b hw e0 e1 h0 h1 m j (by omega)
    rw [← ih]
    have e : beads kin b e1 h1 (m - j) = mulF b.expW (kin b.expKsq (beads kin b e1 h1 (m - (j+1))))
      := by rw [show m - j = (m - (j + 1)) + 1 by omega]; rfl
    have cancel : ∀ q : Fld n K, mulF b.expWInv (mulF b.expW q) = q := by
      intro q; funext i
      show q i * b.expW i * b.expWInv i = q i
      rw [mul_assoc, hw, mul_one]
    have cancel2 : ∀ q : Fld n K, mulF b.expW (mulF b.expWInv q) = q := by
      intro q; funext i
      show q i * b.expWInv i * b.expW i = q i
      rw [mul_assoc, mul_comm (b.expWInv i), hw, mul_one]
    rw [e, cancel]
    show dot (mulF b.expW (kin b.expKsq (beads kin b e0 h0 j))) _ = _
    rw [dot_mulF, cancel2, h]

/-- The head of a propagator. -/
theorem slicesBead_zero (b : Arrays K n κ) (ns : Nat) (e e' : Bool) (h0 : Fld n K) :
    slicesBead kin b ns e e' h0 0 = h0 := by simp [slicesBead]

theorem slicesBead_mid (b : Arrays K n κ) (ns : Nat) (e e' : Bool) (h0 : Fld n K) (j : Nat)
    (h1 : j + 1 < ns - 1) : slicesBead kin b ns e e' h0 (j + 1) = beads kin b e h0 j := by
  unfold slicesBead
  rw [if_neg (by omega), if_neg (by omega), Nat.add_sub_cancel]

theorem slicesBead_last (b : Arrays K n κ) (ns : Nat) (e e' : Bool) (h0 : Fld n K)
    (h1 : 3 ≤ ns) : slicesBead kin b ns e e' h0 (ns - 1) =
      if e' then beads kin b e h0 (ns - 3)
      else stepHalfBondBead kin b (beads kin b e h0 (ns - 3)) := by
  unfold slicesBead
  rw [if_neg (by omega), if_pos rfl]

theorem bead_const (h : SelfAdjoint kin) (b : Arrays K n κ) (hw : ∀ i, b.expW i * b.expWInv i = 1)
    (ns : Nat) (hn : 3 ≤ ns) (e0 e1 : Bool) (h0 h1 : Fld n K) (j : Nat)
    (hj : j < ns - 2) :
    dot (slicesBead kin b ns e0 e1 h0 (j + 1))
      (mulF b.expWInv (slicesBead kin b ns e1 e0 h1 (ns - 1 - (j + 1)))) =
    dot h0 (slicesBead kin b ns e1 e0 h1 (ns - 1)) := by
  rw [slicesBead_mid b ns e0 e1 h0 j (by omega),
    show ns - 1 - (j + 1) = (ns - 3 - j) + 1 by omega,
    slicesBead_mid b ns e1 e0 h1 (ns - 3 - j) (by omega),
    bead_pair h b hw e0 e1 h0 h1 (ns - 3) j (by omega), slicesBead_last b ns e1 e0 h1 hn]
  have cancel2 : ∀ q : Fld n K, mulF b.expW (mulF b.expWInv q) = q := by
    intro q; funext i
    show q i * b.expWInv i * b.expW i = q i
    rw [mul_assoc, mul_comm (b.expWInv i), hw, mul_one]
  show dot (mulF b.expW (if e0 then h0 else stepHalfBondBead kin b h0)) _ = _
  rw [dot_mulF, cancel2]
  cases e0 with
  | true => rfl
  | false => exact h _ _ _

end Adjoint

/-! ### Loops -/

section Loops

variable {K : Type} [Field K]

theorem loop2_sum {n : Nat} (f : Fin n → Nat → K) (stop : Nat) :
    ∀ (k j : Nat) (acc : Fin n → K), stop ≤ j + k →
      ∑ i, loop2 (f i) j stop (acc i) = loop2 (fun j => ∑ i, f i j) j stop (∑ i, acc i)
  | 0, j, acc, h => by
    have hj : ¬ j < stop := by omega
    rw [loop2, if_neg hj]
    exact Finset.sum_congr rfl (fun i _ => by rw [loop2, if_neg hj])
  | k + 1, j, acc, h => by
    by_cases hj : j < stop
    · rw [loop2, if_pos hj]
      have := loop2_sum f stop k (j + 2) (fun i => acc i + f i j) (by omega)
      rw [Finset.sum_add_distrib] at this
      rw [← this]
      exact Finset.sum_congr rfl (fun i _ => by rw [loop2, if_pos hj])
    · rw [loop2, if_neg hj]
      exact Finset.sum_congr rfl (fun i _ => by rw [loop2, if_neg hj])

theorem loop2_const (f : Nat → K) (c : K) : ∀ (k j : Nat) (acc : K),
    (∀ i, i < k → f (j + 2 * i) = c) → loop2 f j (j + 2 * k) acc = acc + k * c
  | 0, j, acc, _ => by rw [loop2, if_neg (by omega)]; simp
  | k + 1, j, acc, h => by
    rw [loop2, if_pos (by omega), show j + 2 * (k + 1) = (j + 2) + 2 * k by ring,
      loop2_const f c k (j + 2) _ (fun i hi => by
        rw [show j + 2 + 2 * i = j + 2 * (i + 1) by ring]; exact h (i + 1) (by omega)),
      show f j = c from h 0 (by omega)]
    push_cast; ring

/-- A loop whose bound is one below the next index behaves like the full one. -/
theorem loop2_bound (f : Nat → K) : ∀ (k j : Nat) (acc : K),
    loop2 f j (j + 2 * k) acc = loop2 f j (j + 2 * k - 1) acc
  | 0, j, acc => by rw [loop2, if_neg (by omega), loop2, if_neg (by omega)]
  | k + 1, j, acc => by
    rw [loop2, if_pos (by omega)]
    conv_rhs => rw [loop2]
    rw [if_pos (by omega)]
    have := loop2_bound f k (j + 2) (acc + f j)
    rw [show j + 2 * (k + 1) = j + 2 + 2 * k by ring]
    exact this

end Loops

section Conc

variable {K : Type} [Field K] {n : Nat} {κ : Type}

/-- Simpson's rule applied to a constant: the sum over the grid of a thread block's
concentration. -/
theorem sum_concThread (m : Nat) (hm : 1 ≤ m) (ds pre c : K) (q0 q1 : Nat → Fld n K)
    (h3 : (3 : K) ≠ 0)
    (hc : ∀ j, j ≤ 2 * m → dot (q0 j) (q1 (2 * m - j)) = c) :
    ∑ i, concThread (2 * m + 1) ds pre q0 q1 i = pre * (((2 * m : Nat) : K) * ds) * c := by
  unfold concThread
  simp only
  rw [← Finset.sum_mul, loop2_sum (n := n) _ (2 * m + 1 - 2) (2 * m + 1) 2 _ (by omega),
    loop2_sum (n := n) _ (2 * m + 1 - 1) (2 * m + 1) 1 _ (by omega)]
  have hf : ∀ (w : K) j, j ≤ 2 * m →
      ∑ i, q0 j i * q1 (2 * m + 1 - 1 - j) i * w = c * w := by
    intro w j hj
    rw [← Finset.sum_mul]
    have := hc j hj
    unfold dot at this
    rw [Nat.add_sub_cancel, this]
  have L1 : ∀ acc, loop2 (fun j => ∑ i, q0 j i * q1 (2 * m + 1 - 1 - j) i * 4) 1 (2 * m + 1 - 1) acc
      = acc + m * (c * 4) := by
    intro acc
    have := loop2_const (fun j => ∑ i, q0 j i * q1 (2 * m + 1 - 1 - j) i * 4) (c * 4) m 1 acc
      (fun i hi => hf 4 _ (by omega))
    rw [loop2_bound] at this
    rw [← this]; congr 1; omega
  have L2 : ∀ acc, loop2 (fun j => ∑ i, q0 j i * q1 (2 * m + 1 - 1 - j) i * 2) 2 (2 * m + 1 - 2) acc
      = acc + ((m - 1 : Nat) : K) * (c * 2) := by
    intro acc
    have := loop2_const (fun j => ∑ i, q0 j i * q1 (2 * m + 1 - 1 - j) i * 2) (c * 2) (m - 1) 2 acc
      (fun i hi => hf 2 _ (by omega))
    rw [loop2_bound] at this
    rw [← this]; congr 1; omega
  rw [L1, L2]
  rw [Finset.sum_add_distrib, Finset.sum_add_distrib, Finset.sum_const_zero]
  have a1 := hc 0 (by omega)
  have a2 := hc (2 * m) (le_refl _)
  unfold dot at a1 a2
  rw [Nat.sub_zero] at a1
  rw [Nat.sub_self] at a2
  rw [Nat.add_sub_cancel, a1, a2]
  obtain ⟨k, rfl⟩ : ∃ k, m = k + 1 := ⟨m - 1, by omega⟩
  rw [Nat.add_sub_cancel]
  push_cast
  field_simp
  ring

/-- The sum over the grid of a bead block's concentration. -/
theorem sum_concBead (b : Arrays K n κ) (ns : Nat) (pre c : K) (q0 q1 : Nat → Fld n K)
    (hc : ∀ j, j < ns - 2 → dot (q0 (j + 1)) (mulF b.expWInv (q1 (ns - 1 - (j + 1)))) = c) :
    ∑ i, concBead b ns pre q0 q1 i = pre * (((ns - 2 : Nat) : K)) * c := by
  unfold concBead
  rw [← Finset.sum_mul]
  simp only [accum_eq, zero_add]
  rw [Finset.sum_comm]
  have : ∀ k : Fin (ns - 2), ∑ i, q0 (k + 1) i * q1 (ns - 1 - (k + 1)) i * b.expWInv i = c := by
    intro k
    rw [← hc k k.2]
    unfold dot mulF
    exact Finset.sum_congr rfl (fun i _ => by ring)
  rw [Finset.sum_congr rfl (fun k _ => this k), Finset.sum_const, Finset.card_univ,
    Fintype.card_fin, nsmul_eq_mul]
  ring

end Conc

/-! ### Propagators of a polymer -/

section Plan

variable {K : Type} [Field K] {n : Nat} {κ : Type} {kin : Kin K n κ} {bead : Bool}
  {blk : Nat → BlockData K n κ} {es : List Edge} {vs : List Vertex}

theorem foldHead_congr (st st' : Pid → Option (Nat → Fld n K)) : ∀ (l : List Pid)
    (a : Option (Fld n K)), (∀ s ∈ l, st s = st' s) →
    l.foldl (fun acc s => match acc, st s with
      | some h, some q => some (fun i => h i * q ((blk s.1).ns - 1) i)
      | _, _ => none) a =
    l.foldl (fun acc s => match acc, st' s with
      | some h, some q => some (fun i => h i * q ((blk s.1).ns - 1) i)
      | _, _ => none) a
  | [], _, _ => rfl
  | s :: l, a, h => by
    simp only [List.foldl_cons]
    rw [h s (by simp)]
    exact foldHead_congr st st' l _ (fun s' hs' => h s' (by simp [hs']))

theorem computeHead_congr {st st' : Pid → Option (Nat → Fld n K)} {p : Pid}
    (h : ∀ s ∈ sources es vs p, st s = st' s) :
    computeHead blk es vs st p = computeHead blk es vs st' p := by
  unfold computeHead
  split
  · rfl
  · exact foldHead_congr st st' _ _ h

/-- Value of the last slice of a solved propagator. -/
def tailOf (blk : Nat → BlockData K n κ) (st : Pid → Option (Nat → Fld n K)) (s : Pid) :
    Fld n K :=
  match st s with
  | some q => q ((blk s.1).ns - 1)
  | none => fun _ => 0

theorem foldHead_eq (st : Pid → Option (Nat → Fld n K)) : ∀ (l : List Pid) (h : Fld n K),
    (∀ s ∈ l, (st s).isSome) →
    l.foldl (fun acc s => match acc, st s with
      | some h, some q => some (fun i => h i * q ((blk s.1).ns - 1) i)
      | _, _ => none) (some h) =
    some (fun i => h i * (l.map (fun s => tailOf blk st s i)).prod)
  | [], h, _ => by simp
  | s :: l, h, hs => by
    obtain ⟨q, hq⟩ := Option.isSome_iff_exists.1 (hs s (by simp))
    simp only [List.foldl_cons, hq]
    rw [foldHead_eq st l _ (fun s' hs' => hs s' (by simp [hs']))]
    congr 1
    funext i
    simp only [List.map_cons, List.prod_cons, tailOf, hq]
    ring

/-- All processed propagators satisfy their equations. -/
structure Done (kin : Kin K n κ) (bead : Bool) (blk : Nat → BlockData K n κ) (es : List Edge)
    (vs : List Vertex) (done : List Pid) (st : Pid → Option (Nat → Fld n K)) : Prop where
  iff : ∀ p, (st p).isSome ↔ p ∈ done
  src : ∀ p ∈ done, ∀ s ∈ sources es vs p, s ∈ done
  eqn : ∀ p ∈ done, ∃ h, computeHead blk es vs st p = some h ∧
    st p = some (solveFrom kin bead blk es vs p h)

theorem solvePlan_done (hself : ∀ p, p ∉ sources es vs p) : ∀ (plan done : List Pid)
    (st st' : Pid → Option (Nat → Fld n K)), (done ++ plan).Nodup →
    Done kin bead blk es vs done st → solvePlan kin bead blk es vs plan st = .ok st' →
    Done kin bead blk es vs (done ++ plan) st'
  | [], done, st, st', _, hd, h => by
    cases h
    simpa using hd
  | p :: ps, done, st, st', hn, hd, h => by
    unfold solvePlan at h
    split at h
    · rename_i hready
      have hsrc : ∀ s ∈ sources es vs p, s ∈ done := fun s hs =>
        (hd.iff s).1 (List.all_eq_true.1 hready s hs)
      have hp : p ∉ done := by
        intro hp
        rw [List.nodup_append] at hn
        exact hn.2.2 p hp p (by simp) rfl
      split at h
      · cases h
      · rename_i hh hhead
        set st1 : Pid → Option (Nat → Fld n K) := fun q =>
          if q = p then some (solveFrom kin bead blk es vs p hh) else st q with hst1
        have hne : ∀ q ∈ done, st1 q = st q := by
          intro q hq
          have : q ≠ p := fun e => hp (e ▸ hq)
          simp [hst1, this]
        have hd1 : Done kin bead blk es vs (done ++ [p]) st1 := by
          refine ⟨?_, ?_, ?_⟩
          · intro q
            by_cases hq : q = p
            · subst hq; simp [hst1]
            · simp only [hst1, if_neg hq, List.mem_append, List.mem_singleton, hq, or_false]
              exact hd.iff q
          · intro q hq s hs
            rw [List.mem_append] at hq
            rcases hq with hq | hq
            · exact List.mem_append_left _ (hd.src q hq s hs)
            · rw [List.mem_singleton] at hq
              subst hq
              exact List.mem_append_left _ (hsrc s hs)
          · intro q hq
            rw [List.mem_append] at hq
            rcases hq with hq | hq
            · obtain ⟨h1, h2, h3⟩ := hd.eqn q hq
              refine ⟨h1, ?_, ?_⟩
              · rw [← h2]
                exact computeHead_congr (fun s hs => hne s (hd.src q hq s hs))
              · rw [hne q hq]; exact h3
            · rw [List.mem_singleton] at hq
              subst hq
              refine ⟨hh, ?_, by simp [hst1]⟩
              rw [← hhead]
              exact computeHead_congr (fun s hs => hne s (hsrc s hs))
        have := solvePlan_done hself ps (done ++ [p]) st1 st' (by simpa using hn) hd1 h
        simpa using this
    · cases h

theorem solvePlan_ok : ∀ (plan : List Pid) (st : Pid → Option (Nat → Fld n K)),
    (∀ l1 p l2, plan = l1 ++ p :: l2 → ∀ s ∈ sources es vs p, (st s).isSome ∨ s ∈ l1) →
    ∃ st', solvePlan kin bead blk es vs plan st = .ok st'
  | [], st, _ => ⟨st, rfl⟩
  | p :: ps, st, h => by
    have h0 : ∀ s ∈ sources es vs p, (st s).isSome := by
      intro s hs
      rcases h [] p ps rfl s hs with h1 | h1
      · exact h1
      · simp at h1
    unfold solvePlan
    rw [if_pos (List.all_eq_true.2 h0)]
    have hhd : ∃ hh, computeHead blk es vs st p = some hh := by
      unfold computeHead
      split
      · exact ⟨_, rfl⟩
      · exact ⟨_, foldHead_eq st _ _ h0⟩
    obtain ⟨hh, hhd⟩ := hhd
    rw [hhd]
    apply solvePlan_ok ps
    intro l1 q l2 he s hs
    rcases h (p :: l1) q l2 (by simp [he]) s hs with h1 | h1
    · left
      by_cases hq : s = p
      · simp [hq]
      · simpa [hq] using h1
    · rw [List.mem_cons] at h1
      rcases h1 with h1 | h1
      · left; simp [h1]
      · right; exact h1

end Plan

end Verif.Solver
