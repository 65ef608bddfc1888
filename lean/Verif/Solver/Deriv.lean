import Verif.Solver.Shift
import Mathlib.Analysis.Calculus.Deriv.Mul
import Mathlib.Analysis.Calculus.Deriv.Add

/-! Lemmas for `Verif.Solver.DerivProps`: derivatives of the partition function of a polymer with
respect to a parameter on which the arrays of its blocks depend. -/

set_option autoImplicit false
set_option linter.unusedSectionVars false

namespace Verif.Solver

open Verif.Chem SimpleGraph

variable {n : Nat} {κ : Type}

/-- A field depends differentiably on a parameter. -/
def HasD (f : ℝ → Fld n ℝ) (f' : Fld n ℝ) (θ : ℝ) : Prop :=
  ∀ i, HasDerivAt (fun t => f t i) (f' i) θ

/-- Contract of FFT, multiplication by an array, inverse FFT: a bilinear operation (product
rule). -/
def DerivKin (kin : Kin ℝ n κ) : Prop :=
  ∀ (f : ℝ → κ → ℝ) (f' : κ → ℝ) (x : ℝ → Fld n ℝ) (x' : Fld n ℝ) (θ : ℝ),
    (∀ k, HasDerivAt (fun t => f t k) (f' k) θ) → HasD x x' θ →
    HasD (fun t => kin (f t) (x t)) (fun i => kin f' (x θ) i + kin (f θ) x' i) θ

/-- A linear operator depends differentiably on a parameter, with derivative `A'`. -/
def OpD (A : ℝ → Fld n ℝ → Fld n ℝ) (A' : Fld n ℝ → Fld n ℝ) (θ : ℝ) : Prop :=
  ∀ (h : ℝ → Fld n ℝ) (h' : Fld n ℝ), HasD h h' θ →
    HasD (fun t => A t (h t)) (fun i => A' (h θ) i + A θ h' i) θ

variable {θ : ℝ} {kin : Kin ℝ n κ}

theorem OpD.one : OpD (n := n) (fun _ x => x) (fun _ _ => 0) θ := by
  intro h h' hh i
  simpa using hh i

theorem OpD.mul {w : ℝ → Fld n ℝ} {w' : Fld n ℝ} (hw : HasD w w' θ) :
    OpD (fun t x => mulF (w t) x) (mulF w') θ := by
  intro h h' hh i
  refine ((hh i).fun_mul (hw i)).congr_deriv ?_
  simp only [mulF]; ring

theorem OpD.ofKin (hk : DerivKin kin) {f : ℝ → κ → ℝ} {f' : κ → ℝ}
    (hf : ∀ k, HasDerivAt (fun t => f t k) (f' k) θ) :
    OpD (fun t x => kin (f t) x) (kin f') θ :=
  fun h h' hh => hk f f' h h' θ hf hh

theorem OpD.comp {A B : ℝ → Fld n ℝ → Fld n ℝ} {A' B' : Fld n ℝ → Fld n ℝ}
    (hA : OpD A A' θ) (hB : OpD B B' θ)
    (hadd : ∀ x y : Fld n ℝ, B θ (fun i => x i + y i) = fun i => B θ x i + B θ y i) :
    OpD (fun t x => B t (A t x)) (fun x i => B' (A θ x) i + B θ (A' x) i) θ := by
  intro h h' hh i
  refine (hB _ _ (hA h h' hh) i).congr_deriv ?_
  rw [hadd]; ring

theorem OpD.rich {A B : ℝ → Fld n ℝ → Fld n ℝ} {A' B' : Fld n ℝ → Fld n ℝ}
    (hA : OpD A A' θ) (hB : OpD B B' θ) :
    OpD (fun t x i => (4 * A t x i - B t x i) / 3) (fun x i => (4 * A' x i - B' x i) / 3) θ := by
  intro h h' hh i
  refine ((((hA h h' hh i).const_mul 4).fun_sub (hB h h' hh i)).div_const 3).congr_deriv ?_
  ring

/-- Value of the derivative with a fixed argument. -/
theorem OpD.fixed {A : ℝ → Fld n ℝ → Fld n ℝ} {A' : Fld n ℝ → Fld n ℝ} (hA : OpD A A' θ)
    (h0 : A θ (fun _ => 0) = fun _ => 0) (x : Fld n ℝ) : HasD (fun t => A t x) (A' x) θ := by
  intro i
  refine (hA (fun _ => x) (fun _ => 0) (fun i => hasDerivAt_const _ _) i).congr_deriv ?_
  rw [h0]; ring

theorem hasD_dot {x y : ℝ → Fld n ℝ} {x' y' : Fld n ℝ} (hx : HasD x x' θ) (hy : HasD y y' θ) :
    HasDerivAt (fun t => dot (x t) (y t)) (dot x' (y θ) + dot (x θ) y') θ := by
  unfold dot
  refine (HasDerivAt.fun_sum (fun i _ => (hx i).fun_mul (hy i))).congr_deriv ?_
  rw [Finset.sum_add_distrib]

theorem hasD_const (x : Fld n ℝ) : HasD (fun _ => x) (fun _ => 0) θ :=
  fun _ => hasDerivAt_const _ _

theorem dot_zero (x : Fld n ℝ) : dot x (fun _ => 0) = 0 := by simp [dot]

theorem dot_add_left (x y z : Fld n ℝ) : dot (fun i => x i + y i) z = dot x z + dot y z := by
  unfold dot
  rw [← Finset.sum_add_distrib]
  exact Finset.sum_congr rfl (fun i _ => by ring)

theorem dot_add_right (x y z : Fld n ℝ) : dot z (fun i => x i + y i) = dot z x + dot z y := by
  rw [dot_comm, dot_add_left, dot_comm x, dot_comm y]

theorem hasD_list_prod {f : Pid → ℝ → ℝ} : ∀ (l : List Pid),
    (∀ s ∈ l, DifferentiableAt ℝ (f s) θ) →
    DifferentiableAt ℝ (fun t => (l.map (fun s => f s t)).prod) θ
  | [], _ => by simp
  | s :: l, h => by
    simp only [List.map_cons, List.prod_cons]
    exact (h s (by simp)).mul (hasD_list_prod l (fun s' hs' => h s' (by simp [hs'])))

section Poly

variable {bead : Bool} {blk : ℝ → Nat → BlockData ℝ n κ} {es : List Edge} {fuel : Nat}
  {P : Polymer} {st : ℝ → Pid → Option (Nat → Fld n ℝ)}

/-- Head to tail operators of the two directions of a block are adjoint. -/
theorem block_adj {blk : Nat → BlockData ℝ n κ} (hP : PolyOk kin bead blk es fuel P) {p : Pid}
    (hp : p.1 < es.length) (x y : Fld n ℝ) :
    dot (solveFrom kin bead blk es P.vertices p x ((blk p.1).ns - 1)) y =
      dot x (solveFrom kin bead blk es P.vertices (p.1, !p.2) y ((blk p.1).ns - 1)) := by
  unfold solveFrom
  cases hb : bead with
  | false =>
    simp only [Bool.false_eq_true, if_false]
    rw [← thread_const hP.adj _ x y ((blk p.1).ns - 1) ((blk p.1).ns - 1) (le_refl _),
      Nat.sub_self]
    rfl
  | true =>
    obtain ⟨hns, hw⟩ := hP.beads hb p.1 hp
    simp only [if_true]
    rw [tailEnd_partner, headEnd_partner]
    have a1 := bead_const hP.adj _ hw _ hns (headEnd es P.vertices p) (tailEnd es P.vertices p)
      x y 0 (by omega)
    have a2 := bead_const hP.adj _ hw _ hns (tailEnd es P.vertices p) (headEnd es P.vertices p)
      y x ((blk p.1).ns - 3) (by omega)
    rw [dot_comm, ← a1, ← a2]
    rw [show (blk p.1).ns - 1 - ((blk p.1).ns - 3 + 1) = 0 + 1 by omega,
      show (blk p.1).ns - 1 - (0 + 1) = (blk p.1).ns - 3 + 1 by omega, ← dot_mulF, dot_comm]

/-- The sum over all vertices of a sum over entering propagators is the sum over all
propagators. -/
theorem sum_vertices {vs : List Vertex} (hv : makeVertices es = .ok vs) (f : Pid → ℝ) :
    ∑ v : Fin (es.length + 1), ∑ p ∈ (inIds vs ((v : Nat) : Int)).toFinset, f p =
      ∑ k : Fin es.length, (f (k, false) + f (k, true)) := by
  classical
  have hwf := (makeVertices_inv hv).1
  have e : ∑ k : Fin es.length, (f (k, false) + f (k, true)) =
      ((allPids es.length).map f).sum := by
    generalize es.length = m
    induction m with
    | zero => simp [allPids]
    | succ m ih =>
      rw [Fin.sum_univ_castSucc]
      simp only [Fin.val_castSucc, Fin.val_last]
      rw [ih]
      simp [allPids, List.range_succ, List.flatMap_append]
  rw [e, ← List.sum_toFinset f (allPids_nodup _)]
  rw [← Finset.sum_fiberwise (s := (allPids es.length).toFinset) (g := fun p => pT es p)]
  apply Finset.sum_congr rfl
  intro v _
  apply Finset.sum_congr _ (fun _ _ => rfl)
  ext p
  rw [List.mem_toFinset, mem_inIds hv (by omega) (by have := v.2; omega), Finset.mem_filter,
    List.mem_toFinset, allPids_mem]
  constructor
  · rintro ⟨h1, h2⟩
    exact ⟨h1, by unfold pT; rw [h2, toV_self]⟩
  · rintro ⟨h1, h2⟩
    refine ⟨h1, ?_⟩
    have hr := hwf.srcRange (p := (p.1, !p.2)) h1
    rw [src_flip] at hr
    rw [← toV_val hr.1 hr.2, show toV es (dst es p) = v from h2]

/-- The sources of the partner of `p` are the other propagators entering the tail vertex. -/
theorem sources_partner {vs : List Vertex} (hv : makeVertices es = .ok vs) {p : Pid}
    (hp : p.1 < es.length) :
    (sources es vs (p.1, !p.2)).toFinset = (inIds vs (dst es p)).toFinset.erase p ∧
      (sources es vs (p.1, !p.2)).Nodup := by
  classical
  have hnd := nodup_inIds hv (dst es p)
  have e1 : sources es vs (p.1, !p.2) = (inIds vs (dst es p)).erase p := by
    unfold sources
    rw [show vid (edge es p.1) (!p.2) = dst es p from rfl, hnd.erase_eq_filter]
    apply List.filter_congr
    intro s hs
    by_cases h : s.1 = p.1
    · have := eq_partner hv (p := (p.1, !p.2)) hp (by rw [src_flip]; exact hs) h
      simp only [Bool.not_not] at this
      simp [this]
    · have : s ≠ p := fun e => h (by rw [e])
      simp [h, this]
  rw [e1]
  refine ⟨?_, hnd.erase p⟩
  ext s
  simp [hnd.mem_erase_iff]

theorem tail_eq {blk : Nat → BlockData ℝ n κ} {st : Pid → Option (Nat → Fld n ℝ)}
    {plan : List Pid} {vs : List Vertex} (hd : Done kin bead blk es vs plan st) {p : Pid}
    (hm : p ∈ plan) : tailOf blk st p =
      solveFrom kin bead blk es vs p (headOf st p) ((blk p.1).ns - 1) := tailOf_eq hd hm

/-- All heads are differentiable. -/
theorem heads_diff (hP : ∀ t, PolyOk kin bead (blk t) es fuel P)
    (hst : ∀ t, solvePlan kin bead (blk t) es P.vertices P.plan (fun _ => none) = .ok (st t))
    (hns : ∀ t k, (blk t k).ns = (blk θ k).ns)
    (hop : ∀ p : Pid, p.1 < es.length → ∃ A', OpD (fun t x =>
      solveFrom kin bead (blk t) es P.vertices p x ((blk θ p.1).ns - 1)) A' θ) :
    ∀ (l l2 : List Pid), P.plan = l ++ l2 →
    ∀ p ∈ l, ∀ i, DifferentiableAt ℝ (fun t => headOf (st t) p i) θ := by
  obtain ⟨_, hv, hs⟩ := plan_facts (hP θ)
  intro l
  induction l using List.reverseRecOn with
  | nil => intro _ _ p hp; simp at hp
  | append_singleton l p ih =>
    intro l2 he q hq i
    have ihl := ih (p :: l2) (by rw [he]; simp)
    rw [List.mem_append, List.mem_singleton] at hq
    rcases hq with hq | rfl
    · exact ihl q hq i
    · have hm : q ∈ P.plan := by rw [he]; simp
      have hc := (hs.complete q).1 hm
      have e : (fun t => headOf (st t) q i) =
          fun t => ((sources es P.vertices q).map (fun s => tailOf (blk t) (st t) s i)).prod := by
        funext t
        exact headOf_eq hv (done_of_solve (hP t) (hst t)) hc hm i
      rw [e]
      apply hasD_list_prod
      intro s hsrc
      have hsl : s ∈ l := hs.ordered l q l2 (by rw [he]; simp) s ((mem_sources hv hc).1 hsrc)
      have hsm : s ∈ P.plan := by rw [he]; simp [hsl]
      obtain ⟨A', hA⟩ := hop s ((hs.complete s).1 hsm)
      have := hA (fun t => headOf (st t) s) (fun i => deriv (fun t => headOf (st t) s i) θ)
        (fun i => (ihl s hsl i).hasDerivAt) i
      have e2 : (fun t => tailOf (blk t) (st t) s i) = fun t =>
          solveFrom kin bead (blk t) es P.vertices s (headOf (st t) s) ((blk θ s.1).ns - 1) i := by
        funext t
        rw [tail_eq (done_of_solve (hP t) (hst t)) hsm, hns t]
      rw [e2]
      exact this.differentiableAt

/-- The derivative of the partition function is the sum over blocks of the derivative of the block
with the first slices of its two propagators held fixed. -/
theorem sum_deriv (hP : ∀ t, PolyOk kin bead (blk t) es fuel P) (hes : es ≠ [])
    (hst : ∀ t, solvePlan kin bead (blk t) es P.vertices P.plan (fun _ => none) = .ok (st t))
    (hns : ∀ t k, (blk t k).ns = (blk θ k).ns)
    (A' : Pid → Fld n ℝ → Fld n ℝ)
    (hop : ∀ p : Pid, p.1 < es.length → OpD (fun t x =>
      solveFrom kin bead (blk t) es P.vertices p x ((blk θ p.1).ns - 1)) (A' p) θ) :
    HasDerivAt (fun t => dot (headOf (st t) (0, false)) (tailOf (blk t) (st t) (0, true)))
      (∑ k : Fin es.length, dot (A' (k, false) (headOf (st θ) (k, false)))
        (headOf (st θ) (k, true))) θ := by
  classical
  obtain ⟨_, hv, hs⟩ := plan_facts (hP θ)
  have hdone := fun t => done_of_solve (hP t) (hst t)
  have hlen : 0 < es.length := List.length_pos_iff.2 hes
  have htree := C10_accepted_is_tree_partial es fuel P (hP θ).read
  set h' : Pid → Fld n ℝ := fun p i => deriv (fun t => headOf (st t) p i) θ with hh'
  have hhead : ∀ p : Pid, p.1 < es.length → HasD (fun t => headOf (st t) p) (h' p) θ := by
    intro p hp i
    exact (heads_diff hP hst hns (fun p hp => ⟨_, hop p hp⟩) P.plan [] (by simp) p
      ((hs.complete p).2 hp) i).hasDerivAt
  set t' : Pid → Fld n ℝ := fun p i => A' p (headOf (st θ) p) i +
    solveFrom kin bead (blk θ) es P.vertices p (h' p) ((blk θ p.1).ns - 1) i with ht'
  have htail : ∀ p : Pid, p.1 < es.length → HasD (fun t => tailOf (blk t) (st t) p) (t' p) θ := by
    intro p hp
    have := hop p hp _ _ (hhead p hp)
    have e2 : (fun t => tailOf (blk t) (st t) p) = fun t =>
        solveFrom kin bead (blk t) es P.vertices p (headOf (st t) p) ((blk θ p.1).ns - 1) := by
      funext t
      rw [tail_eq (hdone t) ((hs.complete p).2 hp), hns t]
    rw [e2]
    exact this
  set D : ℝ → ℝ := fun t => dot (headOf (st t) (0, false)) (tailOf (blk t) (st t) (0, true)) with hD
  set D' := dot (h' (0, false)) (tailOf (blk θ) (st θ) (0, true)) +
    dot (headOf (st θ) (0, false)) (t' (0, true)) with hD'
  have hDd : HasDerivAt D D' θ := hasD_dot (hhead (0, false) hlen) (htail (0, true) hlen)
  -- each block gives the same derivative
  have hblock : ∀ k : Fin es.length,
      dot (h' (k, false)) (tailOf (blk θ) (st θ) (k, true)) +
        dot (headOf (st θ) (k, false)) (t' (k, true)) = D' := by
    intro k
    have h1 := hasD_dot (hhead (k, false) k.2) (htail (k, true) k.2)
    have e : (fun t => dot (headOf (st t) ((k : Nat), false)) (tailOf (blk t) (st t) (k, true))) = D := by
      funext t
      exact all_sums (hP t) hv (hdone t) hs.complete (k, false) (0, false) k.2 hlen
    rw [e] at h1
    exact h1.unique hDd
  -- each vertex gives the same derivative
  have hvertex : ∀ v : Fin (es.length + 1),
      ∑ p ∈ (inIds P.vertices ((v : Nat) : Int)).toFinset,
        dot (t' p) (headOf (st θ) (p.1, !p.2)) = D' := by
    intro v
    obtain ⟨p0, hp0, hsrc⟩ := vertex_has_block htree hes v
    have hnd := nodup_inIds hv ((v : Nat) : Int)
    have hmem : ∀ s ∈ (inIds P.vertices ((v : Nat) : Int)).toFinset,
        s.1 < es.length ∧ dst es s = ((v : Nat) : Int) := by
      intro s hs'
      rw [List.mem_toFinset, mem_inIds hv (by omega) (by have := v.2; omega)] at hs'
      exact hs'
    have e : D = fun t => ∑ i, ∏ s ∈ (inIds P.vertices ((v : Nat) : Int)).toFinset,
        tailOf (blk t) (st t) s i := by
      funext t
      have h1 := all_sums (hP t) hv (hdone t) hs.complete (0, false) p0 hlen hp0
      rw [vertex_sum hv (hdone t) hp0 ((hs.complete p0).2 hp0), hsrc] at h1
      refine Eq.trans h1 (Finset.sum_congr rfl (fun i _ => ?_))
      rw [List.prod_toFinset _ hnd]
    have h2 : HasDerivAt D (∑ i, ∑ s ∈ (inIds P.vertices ((v : Nat) : Int)).toFinset,
        (∏ s' ∈ (inIds P.vertices ((v : Nat) : Int)).toFinset.erase s,
          tailOf (blk θ) (st θ) s' i) • t' s i) θ := by
      rw [e]
      apply HasDerivAt.fun_sum
      intro i _
      exact HasDerivAt.fun_finsetProd (fun s hs' => htail s (hmem s hs').1 i)
    rw [← h2.unique hDd, Finset.sum_comm]
    apply Finset.sum_congr rfl
    intro s hs'
    obtain ⟨hs1, hs2⟩ := hmem s hs'
    unfold dot
    apply Finset.sum_congr rfl
    intro i _
    rw [headOf_eq hv (hdone θ) (p := (s.1, !s.2)) hs1 ((hs.complete _).2 hs1)]
    obtain ⟨g1, g2⟩ := sources_partner hv hs1
    rw [← List.prod_toFinset _ g2, g1, hs2, smul_eq_mul, mul_comm]
  have hsum := sum_vertices hv (fun p => dot (t' p) (headOf (st θ) (p.1, !p.2)))
  rw [Finset.sum_congr rfl (fun v _ => hvertex v), Finset.sum_const, Finset.card_univ,
    Fintype.card_fin, nsmul_eq_mul] at hsum
  have hk : ∀ k : Fin es.length, dot (t' (k, false)) (headOf (st θ) (k, !false)) +
      dot (t' (k, true)) (headOf (st θ) (k, !true)) =
      dot (A' (k, false) (headOf (st θ) (k, false))) (headOf (st θ) (k, true)) + D' := by
    intro k
    have a := block_adj (hP θ) (p := (k, false)) k.2 (h' (k, false)) (headOf (st θ) (k, true))
    have a2 := tail_eq (hdone θ) (p := (k, true)) ((hs.complete (k, true)).2 k.2)
    simp only [Bool.not_false] at a
    rw [← a2] at a
    rw [← hblock k, ← a]
    simp only [ht', Bool.not_false, Bool.not_true]
    rw [dot_add_left, dot_comm _ (headOf (st θ) (k, false))]
    ring
  rw [Finset.sum_congr rfl (fun k _ => hk k), Finset.sum_add_distrib, Finset.sum_const,
    Finset.card_univ, Fintype.card_fin, nsmul_eq_mul] at hsum
  refine hDd.congr_deriv ?_
  push_cast at hsum
  linarith

end Poly

end Verif.Solver
