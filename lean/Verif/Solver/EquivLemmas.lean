import Verif.Solver.DftProps
import Verif.Tac

/-!
# Lemmas for C113: solutions in transformed fields
-/

set_option autoImplicit false
set_option linter.unusedSectionVars false

namespace Verif.Solver

open Verif.Chem

section General

variable {K : Type} [Field K] {n : Nat} {κ : Type}
variable {kin : Kin K n κ} {σ : Equiv.Perm (Fin n)}

/-- A field after a permutation of the grid points. -/
def tr (σ : Equiv.Perm (Fin n)) (q : Fld n K) : Fld n K := fun i => q (σ i)

/-- The operator commutes with the permutation. -/
def Commutes (kin : Kin K n κ) (σ : Equiv.Perm (Fin n)) (f : κ → K) : Prop := ∀ q, kin f (tr σ q) = tr σ (kin f q)

/-- Blocks in fields that differ by the permutation. -/
structure Transformed (kin : Kin K n κ) (σ : Equiv.Perm (Fin n)) (b b' : BlockData K n κ) : Prop where
  ns : b'.ns = b.ns
  ds : b'.ds = b.ds
  expW : b'.arrays.expW = tr σ b.arrays.expW
  expW2 : b'.arrays.expW2 = tr σ b.arrays.expW2
  expWInv : b'.arrays.expWInv = tr σ b.arrays.expWInv
  expKsq : b'.arrays.expKsq = b.arrays.expKsq
  expKsq2 : b'.arrays.expKsq2 = b.arrays.expKsq2
  comm : Commutes kin σ b.arrays.expKsq
  comm2 : Commutes kin σ b.arrays.expKsq2

variable {b b' : BlockData K n κ}

theorem stepThread_tr (h : Transformed kin σ b b') (q : Fld n K) :
    stepThread kin b'.arrays (tr σ q) = tr σ (stepThread kin b.arrays q) := by
  have e1 := h.comm (fun i => q i * b.arrays.expW i)
  have e2 := h.comm2 (fun i => q i * b.arrays.expW2 i)
  have e3 := h.comm2 (fun i => kin b.arrays.expKsq2 (fun i => q i * b.arrays.expW2 i) i * b.arrays.expW i)
  unfold stepThread
  rw [h.expW, h.expW2, h.expKsq, h.expKsq2]
  unfold tr at *
  funext i
  simp only
  rw [e1, e2, e3]

theorem stepBead_tr (h : Transformed kin σ b b') (q : Fld n K) :
    stepBead kin b'.arrays (tr σ q) = tr σ (stepBead kin b.arrays q) := by
  have e1 := h.comm q
  unfold stepBead stepFieldBead
  rw [h.expW, h.expKsq, e1]
  rfl

theorem stepHalf_tr (h : Transformed kin σ b b') (q : Fld n K) :
    stepHalfBondBead kin b'.arrays (tr σ q) = tr σ (stepHalfBondBead kin b.arrays q) := by
  unfold stepHalfBondBead
  rw [h.expKsq2]; exact h.comm2 q

theorem slicesThread_tr (h : Transformed kin σ b b') (head : Fld n K) (j : Nat) :
    slicesThread kin b'.arrays (tr σ head) j = tr σ (slicesThread kin b.arrays head j) := by
  induction j with
  | zero => rfl
  | succ j ih => rw [slicesThread, ih, stepThread_tr h]; rfl

theorem beads_tr (h : Transformed kin σ b b') (he : Bool) (head : Fld n K) (j : Nat) :
    beads kin b'.arrays he (tr σ head) j = tr σ (beads kin b.arrays he head j) := by
  induction j with
  | zero =>
    unfold beads stepFieldBead
    rw [h.expW]
    cases he
    · simp only [Bool.false_eq_true, if_false]; rw [stepHalf_tr h]; rfl
    · rfl
  | succ j ih => rw [beads, ih, stepBead_tr h]; rfl

theorem slicesBead_tr (h : Transformed kin σ b b') (ns : Nat) (he te : Bool) (head : Fld n K) (j : Nat) :
    slicesBead kin b'.arrays ns he te (tr σ head) j = tr σ (slicesBead kin b.arrays ns he te head j) := by
  unfold slicesBead
  rw [beads_tr h, beads_tr h, stepHalf_tr h]
  split
  · rfl
  · split
    · split <;> rfl
    · rfl

variable {bead : Bool} {blk blk' : Nat → BlockData K n κ} {es : List Edge} {vs : List Vertex}

theorem solveFrom_tr (h : ∀ k, Transformed kin σ (blk k) (blk' k)) (p : Pid) (head : Fld n K) :
    solveFrom kin bead blk' es vs p (tr σ head) = fun j => tr σ (solveFrom kin bead blk es vs p head j) := by
  unfold solveFrom
  cases bead
  · funext j; exact slicesThread_tr (h p.1) head j
  · funext j
    simp only [if_true]
    rw [(h p.1).ns]
    exact slicesBead_tr (h p.1) _ _ _ head j

/-- All propagators after the permutation. -/
def trSt (σ : Equiv.Perm (Fin n)) (st : Pid → Option (Nat → Fld n K)) : Pid → Option (Nat → Fld n K) :=
  fun p => (st p).map fun q j => tr σ (q j)

theorem computeHead_tr (h : ∀ k, Transformed kin σ (blk k) (blk' k)) (st : Pid → Option (Nat → Fld n K)) (p : Pid) :
    computeHead blk' es vs (trSt σ st) p = (computeHead blk es vs st p).map (tr σ) := by
  unfold computeHead
  split
  · rfl
  · have key : ∀ (l : List Pid) (acc : Option (Fld n K)),
        l.foldl (fun acc s => match acc, trSt σ st s with
          | some h, some q => some (fun i => h i * q ((blk' s.1).ns - 1) i)
          | _, _ => none) (acc.map (tr σ)) =
        (l.foldl (fun acc s => match acc, st s with
          | some h, some q => some (fun i => h i * q ((blk s.1).ns - 1) i)
          | _, _ => none) acc).map (tr σ) := by
      intro l
      induction l with
      | nil => intro acc; rfl
      | cons s l ih =>
        intro acc
        rw [List.foldl_cons, List.foldl_cons, ← ih]
        congr 1
        cases acc with
        | none => rfl
        | some x =>
          unfold trSt
          cases st s with
          | none => rfl
          | some q =>
            simp only [Option.map_some]
            rw [(h s.1).ns]
            rfl
    exact key _ (some fun _ => 1)

theorem solvePlan_tr (h : ∀ k, Transformed kin σ (blk k) (blk' k)) (plan : List Pid) :
    ∀ (st st1 : Pid → Option (Nat → Fld n K)), solvePlan kin bead blk es vs plan st = .ok st1 →
      solvePlan kin bead blk' es vs plan (trSt σ st) = .ok (trSt σ st1) := by
  induction plan with
  | nil => intro st st1 h1; cases h1; rfl
  | cons p ps ih =>
    intro st st1 h1
    rw [solvePlan] at h1 ⊢
    have e1 : ((sources es vs p).all fun s => (trSt σ st s).isSome) = ((sources es vs p).all fun s => (st s).isSome) := by
      congr 1
      funext s
      unfold trSt
      cases st s <;> rfl
    rw [e1, computeHead_tr h]
    split at h1
    · rename_i hc
      rw [if_pos hc]
      cases hh : computeHead blk es vs st p with
      | none => rw [hh] at h1; cases h1
      | some hd =>
        rw [hh] at h1
        simp only [Option.map_some] at h1 ⊢
        rw [← ih _ _ h1]
        congr 1
        funext q
        unfold trSt
        by_cases hq : q = p
        · simp only [hq, if_true, Option.map_some]
          rw [solveFrom_tr h]
        · simp only [hq, if_false]
    · cases h1

theorem accum_tr (f : Fin n → K) : accum n (fun i => f (σ i)) 0 = accum n f 0 := by
  rw [accum_eq, accum_eq, Equiv.sum_comp σ f]

theorem computeQ_tr (he : Bool) (ns : Nat) (q q' : Nat → Fld n K) :
    computeQ bead he ns (fun j => tr σ (q j)) (fun j => tr σ (q' j)) = computeQ bead he ns q q' := by
  unfold computeQ prodSum
  congr 1
  split
  · exact accum_tr (q' (ns - 2))
  · exact accum_tr (fun i => q 0 i * q' (ns - 1) i)

end General

end Verif.Solver
