import Verif.Solver.Props
import Mathlib.Algebra.BigOperators.Group.Finset.Sigma
import Mathlib.Algebra.BigOperators.Group.Finset.Piecewise

/-! Lemmas for `Verif.Solver.ShiftProps`: propagators of blocks whose field weights are multiplied
by constants. -/

set_option autoImplicit false
set_option linter.unusedSectionVars false

namespace Verif.Solver

open Verif.Chem SimpleGraph

variable {K : Type} [Field K] {n : Nat} {κ : Type}

/-- A field multiplied by a number. -/
def scl (a : K) (x : Fld n K) : Fld n K := fun i => a * x i

/-- Contract of FFT, multiplication by an array, inverse FFT: homogeneous of degree one. -/
def Homog (kin : Kin K n κ) : Prop := ∀ f a x, kin f (scl a x) = scl a (kin f x)

/-- `b'` is `b` with field weights multiplied by constants, such that one step of the contour is
multiplied by `s`. -/
structure Scaled (bead : Bool) (s : K) (b b' : BlockData K n κ) : Prop where
  ne : s ≠ 0
  ns : b'.ns = b.ns
  ds : b'.ds = b.ds
  expKsq : b'.arrays.expKsq = b.arrays.expKsq
  expKsq2 : b'.arrays.expKsq2 = b.arrays.expKsq2
  thread : bead = false → ∃ r, r ^ 4 = s ∧ b'.arrays.expW = scl (r ^ 2) b.arrays.expW ∧
    b'.arrays.expW2 = scl r b.arrays.expW2
  bead : bead = true → b'.arrays.expW = scl s b.arrays.expW ∧
    b'.arrays.expWInv = scl s⁻¹ b.arrays.expWInv

/-- Factor of a whole block. -/
def tot (bead : Bool) (s : K) (ns : Nat) : K := if bead then s ^ (ns - 2) else s ^ (ns - 1)

/-- Factor of slice `j`. -/
def sliceFac (bead : Bool) (s : K) (ns j : Nat) : K :=
  if bead then (if j = 0 then 1 else if j = ns - 1 then s ^ (ns - 2) else s ^ j) else s ^ j

theorem scl_one (x : Fld n K) : scl 1 x = x := by funext i; simp [scl]

theorem scl_scl (a b : K) (x : Fld n K) : scl a (scl b x) = scl (a * b) x := by
  funext i; simp [scl, mul_assoc]

section Blocks

variable {kin : Kin K n κ} {s : K} {b b' : BlockData K n κ}

theorem stepThread_scaled (hk : Homog kin) (h : Scaled false s b b') (g : K) (q : Fld n K) :
    stepThread kin b'.arrays (scl g q) = scl (g * s) (stepThread kin b.arrays q) := by
  obtain ⟨r, hr, h1, h2⟩ := h.thread rfl
  have e1 : (fun i => scl g q i * b'.arrays.expW i) =
      scl (g * r ^ 2) (fun i => q i * b.arrays.expW i) := by
    funext i; rw [h1]; simp only [scl]; ring
  have e2 : (fun i => scl g q i * b'.arrays.expW2 i) =
      scl (g * r) (fun i => q i * b.arrays.expW2 i) := by
    funext i; rw [h2]; simp only [scl]; ring
  have e3 : ∀ x : Fld n K, (fun i => scl (g * r) x i * b'.arrays.expW i) =
      scl (g * r ^ 3) (fun i => x i * b.arrays.expW i) := by
    intro x; funext i; rw [h1]; simp only [scl]; ring
  unfold stepThread
  simp only
  rw [e1, e2, h.expKsq, h.expKsq2, hk, hk, e3, hk]
  funext i
  rw [h1, h2]
  simp only [scl]
  rw [← hr]
  ring

theorem slicesThread_scaled (hk : Homog kin) (h : Scaled false s b b') (g : K) (q : Fld n K) :
    ∀ j, slicesThread kin b'.arrays (scl g q) j = scl (g * s ^ j) (slicesThread kin b.arrays q j)
  | 0 => by simp [slicesThread]
  | j + 1 => by
    show stepThread kin b'.arrays (slicesThread kin b'.arrays (scl g q) j) = _
    rw [slicesThread_scaled hk h g q j, stepThread_scaled hk h]
    rw [pow_succ, ← mul_assoc]
    rfl

theorem stepField_scaled (h : Scaled true s b b') (g : K) (q : Fld n K) :
    stepFieldBead b'.arrays (scl g q) = scl (g * s) (stepFieldBead b.arrays q) := by
  funext i
  simp only [stepFieldBead, (h.bead rfl).1, scl]
  ring

theorem beads_scaled (hk : Homog kin) (h : Scaled true s b b') (e : Bool) (g : K) (q : Fld n K) :
    ∀ j, beads kin b'.arrays e (scl g q) j = scl (g * s ^ (j + 1)) (beads kin b.arrays e q j)
  | 0 => by
    unfold beads
    have : (if e then scl g q else stepHalfBondBead kin b'.arrays (scl g q)) =
        scl g (if e then q else stepHalfBondBead kin b.arrays q) := by
      split
      · rfl
      · unfold stepHalfBondBead; rw [h.expKsq2, hk]
    rw [this, stepField_scaled h]
    simp
  | j + 1 => by
    show stepBead kin b'.arrays (beads kin b'.arrays e (scl g q) j) = _
    rw [beads_scaled hk h e g q j]
    unfold stepBead
    rw [h.expKsq, hk, stepField_scaled h, mul_assoc, ← pow_succ]
    rfl

theorem slicesBead_scaled (hk : Homog kin) (h : Scaled true s b b') (e e' : Bool) (g : K)
    (q : Fld n K) (hns : 3 ≤ b.ns) (j : Nat) :
    slicesBead kin b'.arrays b'.ns e e' (scl g q) j =
      scl (g * sliceFac true s b.ns j) (slicesBead kin b.arrays b.ns e e' q j) := by
  unfold slicesBead sliceFac
  rw [h.ns]
  by_cases h0 : j = 0
  · simp [h0]
  · simp only [if_neg h0, if_true]
    by_cases h1 : j = b.ns - 1
    · simp only [if_pos h1]
      rw [beads_scaled hk h]
      rw [show b.ns - 3 + 1 = b.ns - 2 by omega]
      split
      · rfl
      · unfold stepHalfBondBead; rw [h.expKsq2, hk]
    · simp only [if_neg h1]
      rw [beads_scaled hk h, show j - 1 + 1 = j by omega]

end Blocks

section Solve

variable {kin : Kin K n κ} {bead : Bool} {blk blk' : Nat → BlockData K n κ} {es : List Edge}
  {vs : List Vertex} {fac : Nat → K}

theorem solveFrom_scaled (hk : Homog kin) {p : Pid} (h : Scaled bead (fac p.1) (blk p.1) (blk' p.1))
    (hns : bead = true → 3 ≤ (blk p.1).ns) (g : K) (q : Fld n K) (j : Nat) :
    solveFrom kin bead blk' es vs p (scl g q) j =
      scl (g * sliceFac bead (fac p.1) (blk p.1).ns j) (solveFrom kin bead blk es vs p q j) := by
  unfold solveFrom
  cases hb : bead with
  | false =>
    subst hb
    simp only [Bool.false_eq_true, if_false, sliceFac]
    exact slicesThread_scaled hk h g q j
  | true =>
    subst hb
    simp only [if_true]
    exact slicesBead_scaled hk h _ _ g q (hns rfl) j

theorem sliceFac_last (s : K) (ns : Nat) (hns : bead = true → 3 ≤ ns) :
    sliceFac bead s ns (ns - 1) = tot bead s ns := by
  unfold sliceFac tot
  cases bead with
  | false => simp
  | true =>
    have := hns rfl
    simp only [if_true]
    rw [if_neg (by omega)]

theorem sliceFac_zero (s : K) (ns : Nat) : sliceFac bead s ns 0 = 1 := by
  unfold sliceFac
  cases bead <;> simp

theorem tot_ne {s : K} (hs : s ≠ 0) (ns : Nat) : tot bead s ns ≠ 0 := by
  unfold tot
  split <;> exact pow_ne_zero _ hs

/-- Numbers satisfying the recursion of the heads. -/
theorem exists_heads (T : Pid → K) (hT : ∀ p, T p ≠ 0) : ∀ (l : List Pid), l.Nodup →
    (∀ l1 p l2, l = l1 ++ p :: l2 → ∀ s ∈ sources es vs p, s ∈ l1) →
    ∃ g : Pid → K, (∀ p, g p ≠ 0) ∧
      ∀ p ∈ l, g p = ((sources es vs p).map (fun s => g s * T s)).prod := by
  intro l
  induction l using List.reverseRecOn with
  | nil => intro _ _; exact ⟨fun _ => 1, by simp, by simp⟩
  | append_singleton l p ih =>
    intro hn ho
    have hpl : p ∉ l := by
      rw [List.nodup_append] at hn
      exact fun h => hn.2.2 p h p (by simp) rfl
    have hol : ∀ l1 q l2, l = l1 ++ q :: l2 → ∀ s ∈ sources es vs q, s ∈ l1 :=
      fun l1 q l2 e => ho l1 q (l2 ++ [p]) (by rw [e]; simp)
    obtain ⟨g, h1, h2⟩ := ih (List.nodup_append.1 hn).1 hol
    have hprod : ((sources es vs p).map (fun s => g s * T s)).prod ≠ 0 := by
      rw [Ne, List.prod_eq_zero_iff]
      intro h0
      obtain ⟨s, _, hs⟩ := List.mem_map.1 h0
      exact (mul_ne_zero (h1 s) (hT s)) hs
    refine ⟨fun q => if q = p then ((sources es vs p).map (fun s => g s * T s)).prod else g q,
      ?_, ?_⟩
    · intro q
      show (if q = p then _ else _) ≠ (0 : K)
      split
      · exact hprod
      · exact h1 q
    · have hsame : ∀ q, (∀ s ∈ sources es vs q, s ∈ l) →
          ((sources es vs q).map (fun s => (if s = p then
            ((sources es vs p).map (fun s => g s * T s)).prod else g s) * T s)).prod =
          ((sources es vs q).map (fun s => g s * T s)).prod := by
        intro q hq
        congr 1
        apply List.map_congr_left
        intro s hs
        have : s ≠ p := fun e => hpl (e ▸ hq s hs)
        simp only [if_neg this]
      intro q hq
      beta_reduce
      rw [List.mem_append, List.mem_singleton] at hq
      rcases hq with hq | rfl
      · rw [if_neg (fun e : q = p => hpl (e ▸ hq)), h2 q hq]
        refine (hsame q ?_).symm
        obtain ⟨l1, l2, e⟩ := List.append_of_mem hq
        intro s hs
        rw [e]
        exact List.mem_append_left _ (hol l1 q l2 e s hs)
      · rw [if_pos rfl]
        exact (hsame q (ho l q [] rfl)).symm

variable {plan : List Pid} {st st' : Pid → Option (Nat → Fld n K)}

/-- A solved propagator in terms of its first slice. -/
theorem st_eq (hd : Done kin bead blk es vs plan st) {p : Pid} (hm : p ∈ plan) :
    st p = some (solveFrom kin bead blk es vs p (headOf st p)) := by
  obtain ⟨h, _, h2⟩ := hd.eqn p hm
  have : headOf st p = h := by
    unfold headOf; rw [h2]; exact solveFrom_zero p h
  rw [this]; exact h2

theorem tailOf_eq (hd : Done kin bead blk es vs plan st) {p : Pid} (hm : p ∈ plan) :
    tailOf blk st p = solveFrom kin bead blk es vs p (headOf st p) ((blk p.1).ns - 1) := by
  unfold tailOf
  rw [st_eq hd hm]

/-- Factor of the block of a propagator. -/
def pTot (bead : Bool) (blk : Nat → BlockData K n κ) (fac : Nat → K) (p : Pid) : K :=
  tot bead (fac p.1) (blk p.1).ns

theorem tail_scaled (hk : Homog kin) (hd : Done kin bead blk es vs plan st)
    (hd' : Done kin bead blk' es vs plan st') {p : Pid} (hm : p ∈ plan)
    (h : Scaled bead (fac p.1) (blk p.1) (blk' p.1)) (hns : bead = true → 3 ≤ (blk p.1).ns) {g : K}
    (hg : headOf st' p = scl g (headOf st p)) :
    tailOf blk' st' p = scl (g * pTot bead blk fac p) (tailOf blk st p) := by
  rw [tailOf_eq hd hm, tailOf_eq hd' hm, hg, solveFrom_scaled hk h hns, h.ns,
    sliceFac_last _ _ hns]
  rfl

theorem prod_map_scl (l : List Pid) (a x : Pid → K) :
    (l.map (fun s => a s * x s)).prod = (l.map a).prod * (l.map x).prod := by
  induction l with
  | nil => simp
  | cons p l ih => simp only [List.map_cons, List.prod_cons, ih]; ring

/-- All heads are multiplied by the numbers `g`. -/
theorem heads_scaled (hv : makeVertices es = .ok vs) (hk : Homog kin)
    (hd : Done kin bead blk es vs plan st) (hd' : Done kin bead blk' es vs plan st')
    (hc : ∀ p, p ∈ plan → p.1 < es.length)
    (hs : ∀ k, k < es.length → Scaled bead (fac k) (blk k) (blk' k))
    (hns : bead = true → ∀ k, k < es.length → 3 ≤ (blk k).ns) (g : Pid → K)
    (hg : ∀ p ∈ plan, g p = ((sources es vs p).map (fun s => g s * pTot bead blk fac s)).prod) :
    ∀ (l : List Pid) (l2 : List Pid), plan = l ++ l2 →
    (∀ l1 p l2, plan = l1 ++ p :: l2 → ∀ s ∈ sources es vs p, s ∈ l1) →
    ∀ p ∈ l, headOf st' p = scl (g p) (headOf st p) := by
  intro l
  induction l using List.reverseRecOn with
  | nil => intro _ _ _ p hp; simp at hp
  | append_singleton l p ih =>
    intro l2 he ho q hq
    have ihl := ih (p :: l2) (by rw [he]; simp) ho
    rw [List.mem_append, List.mem_singleton] at hq
    rcases hq with hq | rfl
    · exact ihl q hq
    · have hm : q ∈ plan := by rw [he]; simp
      have hsl := ho l q l2 (by rw [he]; simp)
      funext i
      show _ = g q * headOf st q i
      rw [headOf_eq hv hd' (hc q hm) hm, headOf_eq hv hd (hc q hm) hm, hg q hm, ← prod_map_scl]
      congr 1
      apply List.map_congr_left
      intro s hsrc
      have hsm : s ∈ plan := by rw [he]; simp [hsl s hsrc]
      rw [tail_scaled hk hd hd' hsm (hs _ (hc s hsm)) (fun hb => hns hb _ (hc s hsm))
        (ihl s (hsl s hsrc))]
      rfl

end Solve

/-! ### Counting factors on a tree -/

section Euler

variable {es : List Edge} {vs : List Vertex}

theorem vertex_has_block (ht : TreeInput es) (hes : es ≠ [])
    (v : Fin (es.length + 1)) : ∃ p : Pid, p.1 < es.length ∧ src es p = ((v : Nat) : Int) := by
  have hlen : 0 < es.length := List.length_pos_iff.2 hes
  obtain ⟨w, hw⟩ : ∃ w : Fin (es.length + 1), w ≠ v := by
    by_cases h : v = 0
    · exact ⟨⟨1, by omega⟩, by rw [h]; intro e; simp [Fin.ext_iff] at e⟩
    · exact ⟨0, fun e => h e.symm⟩
  obtain ⟨walk⟩ := ht.tree.connected.preconnected v w
  cases walk with
  | nil => exact absurd rfl hw
  | cons ha _ =>
    obtain ⟨_, h | h⟩ := ha
    · obtain ⟨b, hb, hbe⟩ := List.mem_iff_getElem.1 h
      refine ⟨(b, false), hb, ?_⟩
      simp [src, vid, Chem.edge, List.getD, hb, hbe]
    · obtain ⟨b, hb, hbe⟩ := List.mem_iff_getElem.1 h
      refine ⟨(b, true), hb, ?_⟩
      simp [src, vid, Chem.edge, List.getD, hb, hbe]

theorem prod_allPids (m : Nat) (f : Pid → K) :
    ((allPids m).map f).prod = ∏ k : Fin m, f (k, false) * f (k, true) := by
  induction m with
  | zero => simp [allPids]
  | succ m ih =>
    rw [Fin.prod_univ_castSucc]
    simp only [Fin.val_castSucc, Fin.val_last]
    rw [← ih]
    simp [allPids, List.range_succ, List.flatMap_append]

/-- The product over all vertices of the product over entering propagators is the product over
all propagators. -/
theorem prod_vertices (hv : makeVertices es = .ok vs) (f : Pid → K) :
    ∏ v : Fin (es.length + 1), ((inIds vs ((v : Nat) : Int)).map f).prod =
      ∏ k : Fin es.length, f (k, false) * f (k, true) := by
  classical
  have hwf := (makeVertices_inv hv).1
  rw [← prod_allPids, ← List.prod_toFinset f (allPids_nodup _)]
  rw [← Finset.prod_fiberwise (s := (allPids es.length).toFinset) (g := fun p => pT es p)]
  apply Finset.prod_congr rfl
  intro v _
  rw [← List.prod_toFinset f (nodup_inIds hv _)]
  apply Finset.prod_congr _ (fun _ _ => rfl)
  ext p
  rw [List.mem_toFinset, mem_inIds hv (by omega) (by have := v.2; omega), Finset.mem_filter,
    List.mem_toFinset, allPids_mem]
  constructor
  · rintro ⟨h1, h2⟩
    exact ⟨h1, by unfold pT; rw [h2, toV_self]⟩
  · rintro ⟨h1, h2⟩
    refine ⟨h1, ?_⟩
    have hr := hwf.srcRange (p := (p.1, !p.2)) h1
    rw [src_flip] at hr
    rw [← toV_val hr.1 hr.2, show toV es (dst es p) = v from h2]

/-- On a tree the number of vertices exceeds the number of blocks by one; hence if the product of
a block factor and the factors of its two heads is the same for all blocks, it is the product of
all block factors. -/
theorem euler (hv : makeVertices es = .ok vs) (ht : TreeInput es) (hes : es ≠ [])
    (T : Nat → K) (g : Pid → K) (G : K) (hG : G ≠ 0)
    (hg : ∀ p : Pid, p.1 < es.length → g p = ((sources es vs p).map (fun s => g s * T s.1)).prod)
    (hall : ∀ p : Pid, p.1 < es.length → g p * (g (p.1, !p.2) * T p.1) = G) :
    G = ∏ k : Fin es.length, T k := by
  have h1 := prod_vertices hv (fun s => g s * T s.1)
  have h2 : ∀ v : Fin (es.length + 1),
      ((inIds vs ((v : Nat) : Int)).map (fun s => g s * T s.1)).prod = G := by
    intro v
    obtain ⟨p, hp, hsrc⟩ := vertex_has_block ht hes v
    rw [← hsrc, ← prod_sources hv hp (fun s => g s * T s.1), ← hg p hp]
    exact hall p hp
  rw [Finset.prod_congr rfl (fun v _ => h2 v), Finset.prod_const, Finset.card_univ,
    Fintype.card_fin] at h1
  have h3 : ∀ k : Fin es.length, g (k, false) * T k * (g (k, true) * T k) = G * T k := by
    intro k
    rw [← hall (k, false) k.2]
    simp only [Bool.not_false]
    ring
  rw [Finset.prod_congr rfl (fun k _ => h3 k), Finset.prod_mul_distrib, Finset.prod_const,
    Finset.card_univ, Fintype.card_fin, pow_succ] at h1
  exact mul_left_cancel₀ (pow_ne_zero _ hG) h1

end Euler

end Verif.Solver
