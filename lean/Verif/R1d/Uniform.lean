import Verif.R1d.Props
import Verif.Solver.Shift
import Mathlib.Analysis.SpecialFunctions.Log.Deriv

/-!
# Lemmas: the one-dimensional solver in uniform fields
-/

set_option autoImplicit false
set_option linter.unusedSectionVars false

namespace Verif.R1d

open Verif.Chem Verif.Solver Verif.Math

section General

variable {K : Type} [Field K] [LinearOrder K] [IsStrictOrderedRing K]

/-- Half of the change of the logarithm of a propagator in one step, to first order. -/
def halfStep (length : K) (ns : Nat) (ω : K) : K := length / ((ns : K) - 1) * ω / 2

/-- Factor of a Crank-Nicolson step in a uniform field. -/
def cnFac (length : K) (ns : Nat) (ω : K) : K :=
  (1 - halfStep length ns ω) / (1 + halfStep length ns ω)

theorem cnFac_pos {length ω : K} {ns : Nat} (h : |halfStep length ns ω| < 1) :
    0 < cnFac length ns ω := by
  rw [abs_lt] at h
  exact div_pos (by linarith [h.2]) (by linarith [h.1])

variable {d : Domain K} {len kuhn : Nat → K} {ns : Nat → Nat} {ω : Nat → K} {es : List Edge}
  {fuel : Nat} {P : Polymer}

/-- Uniform fields in all blocks: accepted topology and steps that are not too large. -/
structure UniOk (d : Domain K) (len : Nat → K) (ns : Nat → Nat) (ω : Nat → K)
    (es : List Edge) (fuel : Nat) (P : Polymer) : Prop where
  dom : DomOk d
  read : readTopology es fuel = some (.ok P)
  ns2 : ∀ k < es.length, 2 ≤ ns k
  len0 : ∀ k < es.length, 0 ≤ len k
  small : ∀ k < es.length, |halfStep (len k) (ns k) (ω k)| < 1

theorem UniOk.poly (h : UniOk d len ns ω es fuel P) :
    PolyOk d len kuhn ns (fun k _ => ω k) es fuel P := by
  refine ⟨h.dom, h.read, h.ns2, fun k hk i hi => ?_⟩
  have hn := h.ns2 k hk
  have hn1 : (0 : K) < (ns k : K) - 1 := by
    have : (2 : K) ≤ (ns k : K) := by exact_mod_cast hn
    linarith
  have hs := (abs_lt.1 (h.small k hk)).1
  unfold halfStep at hs
  exact (C87_pivots d h.dom _ _ (div_nonneg (h.len0 k hk) hn1.le) (fun _ => ω k)
    (fun _ _ => by linarith) i hi).ne'

theorem uni_slices (h : UniOk d len ns ω es fuel P) {k : Nat} (hk : k < es.length) {g : Nat → K}
    {c : K} (hg : ∀ i < d.nx, g i = c) (j i : Nat) (hi : i < d.nx) :
    slices d.nx (blocks d len kuhn ns (fun k _ => ω k) k) g j i =
      cnFac (len k) (ns k) (ω k) ^ j * c := by
  have hs := (abs_lt.1 (h.small k hk)).1
  unfold halfStep at hs
  rw [slices_congr d.nx _ h.dom.nx hg j i hi]
  exact C87_uniform_block d h.dom (len k) (kuhn k) (ω k) c (ns k) (by have := h.ns2 k hk; omega)
    (h.len0 k hk) (by linarith) j i hi

theorem uni_heads (h : UniOk d len ns ω es fuel P) {vs : List Vertex} {plan : List Pid}
    {st : Pid → Option (Nat → Nat → K)}
    (hd : Done d.nx (blocks d len kuhn ns (fun k _ => ω k)) es vs plan st)
    (hc : ∀ p, p ∈ plan → p.1 < es.length) (g : Pid → K)
    (hg : ∀ p ∈ plan, g p = ((sources es vs p).map
      (fun s => g s * cnFac (len s.1) (ns s.1) (ω s.1) ^ (ns s.1 - 1))).prod) :
    ∀ (l : List Pid) (l2 : List Pid), plan = l ++ l2 →
    (∀ l1 p l2, plan = l1 ++ p :: l2 → ∀ s ∈ sources es vs p, s ∈ l1) →
    ∀ p ∈ l, ∀ i < d.nx, headOf st p i = g p := by
  intro l
  induction l using List.reverseRecOn with
  | nil => intro _ _ _ p hp; simp at hp
  | append_singleton l p ih =>
    intro l2 he ho q hq i hi
    have ihl := ih (p :: l2) (by rw [he]; simp) ho
    rw [List.mem_append, List.mem_singleton] at hq
    rcases hq with hq | rfl
    · exact ihl q hq i hi
    · have hm : q ∈ plan := by rw [he]; simp
      have hsl := ho l q l2 (by rw [he]; simp)
      rw [headOf_eq hd hm, hg q hm]
      congr 1
      apply List.map_congr_left
      intro s hsrc
      have hsm : s ∈ plan := by rw [he]; simp [hsl s hsrc]
      obtain ⟨hh, _, e⟩ := hd.eqn s hsm
      have hhead : ∀ i < d.nx, hh i = g s := by
        intro i hi
        rw [← ihl s (hsl s hsrc) i hi]
        unfold headOf
        rw [e]
        rfl
      unfold tailOf
      rw [e]
      change slices d.nx _ hh _ i = _
      rw [uni_slices h (hc s hsm) hhead _ i hi, mul_comm]
      rfl

/-- Partition function and concentrations of a polymer in uniform fields. -/
theorem uni_solution (h : UniOk d len ns ω es fuel P) (hes : es ≠ []) (phi total Q : K)
    (st : Pid → Option (Nat → Nat → K))
    (hsol : polymerSolve d (blocks d len kuhn ns (fun k _ => ω k)) es P.vertices P.plan
      = .ok (st, Q)) :
    Q = ∏ k : Fin es.length, cnFac (len k) (ns k) (ω k) ^ (ns k - 1) ∧ 0 < Q ∧
    ∀ k < es.length, ∃ c, blockConc (blocks d len kuhn ns (fun k _ => ω k)) st phi Q total k
      = some c ∧ ∀ i < d.nx, c i = phi * (len k / total) := by
  obtain ⟨_, hv, hsch⟩ := plan_facts h.read
  have hP : PolyOk d len kuhn ns (fun k _ => ω k) es fuel P := h.poly
  have htree := C10_accepted_is_tree_partial es fuel P h.read
  have h0 : 0 < es.length := List.length_pos_iff.2 hes
  have hnx := h.dom.nx
  have hord : ∀ l1 p l2, P.plan = l1 ++ p :: l2 → ∀ s ∈ sources es P.vertices p, s ∈ l1 := by
    intro l1 p l2 he s hsrc
    have hp : p.1 < es.length := (hsch.complete p).1 (by rw [he]; simp)
    exact hsch.ordered l1 p l2 he s ((mem_sources hv hp).1 hsrc)
  have hsol0 := hsol
  unfold polymerSolve at hsol
  rw [Res.bind_eq_ok] at hsol
  obtain ⟨st', hst, hsol⟩ := hsol
  have hd := done_of_solve h.read hst
  rw [computeQ_eq h.dom hd ((hsch.complete (0, false)).2 h0) ((hsch.complete (0, true)).2 h0)]
    at hsol
  simp only [Bool.not_false] at hsol
  have hsol := hsol
  change Res.ok (st', _) = Res.ok (st, Q) at hsol
  simp only [Res.ok.injEq, Prod.mk.injEq, div_one] at hsol
  obtain ⟨rfl, hQd⟩ := hsol
  set T : Nat → K := fun k =>
    if k < es.length then cnFac (len k) (ns k) (ω k) ^ (ns k - 1) else 1 with hT
  have hTpos : ∀ k, 0 < T k := by
    intro k
    simp only [hT]
    split
    · rename_i hk; exact pow_pos (cnFac_pos (h.small k hk)) _
    · exact one_pos
  obtain ⟨g, hgne, hg⟩ := exists_heads (es := es) (vs := P.vertices) (fun p => T p.1)
    (fun p => (hTpos p.1).ne') P.plan hsch.nodup hord
  have hg' : ∀ p ∈ P.plan, g p = ((sources es P.vertices p).map
      (fun s => g s * cnFac (len s.1) (ns s.1) (ω s.1) ^ (ns s.1 - 1))).prod := by
    intro p hp
    rw [hg p hp]
    congr 1
    apply List.map_congr_left
    intro s hsrc
    have hs : s.1 < es.length := (hsch.complete s).1 (hd.src p hp s hsrc)
    simp only [hT, if_pos hs]
  have hheads := uni_heads h hd (fun p hp => (hsch.complete p).1 hp) g hg' P.plan [] (by simp) hord
  have hst : ∀ p : Pid, p.1 < es.length → ∃ q, st' p = some q ∧ ∀ j, ∀ i < d.nx,
      q j i = cnFac (len p.1) (ns p.1) (ω p.1) ^ j * g p := by
    intro p hp
    have hm := (hsch.complete p).2 hp
    obtain ⟨hh, _, e⟩ := hd.eqn p hm
    refine ⟨_, e, fun j i hi => uni_slices h hp (fun i hi => ?_) j i hi⟩
    rw [← hheads p hm i hi]
    unfold headOf
    rw [e]
    rfl
  have hW := weights_pos h.dom
  have hdot : ∀ p : Pid, p.1 < es.length → dotW d.nx (weight d) (headOf st' p)
      (tailOf (blocks d len kuhn ns (fun k _ => ω k)) st' (p.1, !p.2)) =
      (∑ i ∈ Finset.range d.nx, weight d i) * (g p * (g (p.1, !p.2) * T p.1)) := by
    intro p hp
    obtain ⟨q, e1, e2⟩ := hst (p.1, !p.2) hp
    unfold dotW
    rw [Finset.sum_mul]
    refine Finset.sum_congr rfl fun i hi => ?_
    have hi' := Finset.mem_range.1 hi
    rw [hheads p ((hsch.complete p).2 hp) i hi']
    unfold tailOf
    rw [e1]
    change weight d i * (g p * q (ns p.1 - 1) i) = _
    rw [e2 _ i hi']
    simp only [hT, if_pos hp]
    ring
  set G := g (0, false) * (g (0, true) * T 0) with hGdef
  have hGne : G ≠ 0 := mul_ne_zero (hgne _) (mul_ne_zero (hgne _) (hTpos _).ne')
  have hall : ∀ p : Pid, p.1 < es.length → g p * (g (p.1, !p.2) * T p.1) = G := by
    intro p hp
    have a1 := all_sums h.read hP.adj hv hd hsch.complete p (0, false) hp h0
    rw [hdot p hp, hdot (0, false) h0] at a1
    exact mul_left_cancel₀ hW.ne' a1
  have hG := euler hv htree hes T g G hGne (fun p hp => hg p ((hsch.complete p).2 hp)) hall
  have hQG : Q = G := by
    have e := hdot (0, false) h0
    simp only [Bool.not_false] at e
    rw [← hQd, e, mul_div_cancel_left₀ _ hW.ne']
  have hGt : G = ∏ k : Fin es.length, cnFac (len k) (ns k) (ω k) ^ (ns k - 1) := by
    rw [hG]
    refine Finset.prod_congr rfl fun k _ => ?_
    simp only [hT, if_pos k.2]
  have hQpos : 0 < Q := by
    rw [hQG, hGt]
    exact Finset.prod_pos fun k _ => pow_pos (cnFac_pos (h.small k k.2)) _
  refine ⟨by rw [hQG, hGt], hQpos, fun k hk => ?_⟩
  obtain ⟨c, hc1, hc2⟩ := C86_block_conservation hP hes phi total Q st' hsol0 hQpos.ne' k hk
  refine ⟨c, hc1, ?_⟩
  have hconst : ∀ i < d.nx, c i = c 0 := by
    obtain ⟨q, e1, e2⟩ := hst (k, false) hk
    obtain ⟨q', e1', e2'⟩ := hst (k, true) hk
    unfold blockConc at hc1
    rw [e1, e1'] at hc1
    simp only [Option.some.injEq] at hc1
    intro i hi
    rw [← hc1]
    unfold conc
    simp only [accum_eq]
    simp only [e2 _ i hi, e2' _ i hi, e2 _ 0 (by omega), e2' _ 0 (by omega)]
  have hm : d.spatialAverage c = .ok (c 0) := by
    rw [C86_average d h.dom]
    congr 1
    unfold mean
    rw [Finset.sum_congr rfl fun i hi => by rw [hconst i (Finset.mem_range.1 hi)],
      ← Finset.sum_mul, mul_div_cancel_left₀ _ hW.ne']
  intro i hi
  rw [hconst i hi]
  rw [hm] at hc2
  exact Res.ok.inj hc2

end General

/-! ### Logarithm of the factor -/

/-- `ln((1-y)/(1+y)) + 2y` has the opposite sign of `y` and is of third order. -/
theorem log_dev_bounds {y : ℝ} (h0 : 0 < y) (h1 : y < 1) :
    0 < Real.log (1 + y) - Real.log (1 - y) - 2 * y ∧
    Real.log (1 + y) - Real.log (1 - y) - 2 * y ≤ 2 / 3 * y ^ 3 / (1 - y ^ 2) := by
  have hs := Real.hasSum_log_sub_log_of_abs_lt_one (x := y) (by rw [abs_of_pos h0]; exact h1)
  have hs1 := (hasSum_nat_add_iff' (f := fun k : ℕ => (2 : ℝ) * (1 / (2 * k + 1)) * y ^ (2 * k + 1)) 1).2 hs
  simp only [Finset.sum_range_one] at hs1
  have e0 : (2 : ℝ) * (1 / (2 * ((0 : ℕ) : ℝ) + 1)) * y ^ (2 * 0 + 1) = 2 * y := by norm_num
  rw [e0] at hs1
  have hpos : ∀ k : ℕ, 0 < (2 : ℝ) * (1 / (2 * ((k + 1 : ℕ) : ℝ) + 1)) * y ^ (2 * (k + 1) + 1) := by
    intro k; positivity
  constructor
  · exact (hs1.summable.tsum_pos (fun k => (hpos k).le) 0 (hpos 0)).trans_eq hs1.tsum_eq
  · have hy2 : y ^ 2 < 1 := by nlinarith
    have hgeo := (hasSum_geometric_of_lt_one (sq_nonneg y) hy2).mul_left (2 / 3 * y ^ 3)
    rw [← div_eq_mul_inv] at hgeo
    refine hasSum_le (fun k => ?_) hs1 hgeo
    have e : y ^ (2 * (k + 1) + 1) = y ^ 3 * (y ^ 2) ^ k := by rw [← pow_mul, ← pow_add]; congr 1; ring
    rw [e]
    have hk : (1 : ℝ) / (2 * ((k + 1 : ℕ) : ℝ) + 1) ≤ 1 / 3 := by
      apply one_div_le_one_div_of_le (by norm_num)
      push_cast
      have : (0 : ℝ) ≤ k := Nat.cast_nonneg k
      linarith
    have hnn : 0 ≤ y ^ 3 * (y ^ 2) ^ k := by positivity
    nlinarith

end Verif.R1d
