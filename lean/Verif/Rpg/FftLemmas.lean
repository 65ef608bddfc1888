import Verif.Rpg.OpLemmas

/-!
# Lemmas about transforms and paired operations on device memory
-/

set_option autoImplicit false
set_option linter.unusedSectionVars false

namespace Verif.Rpg

open Verif.Cuda Verif.Solver

variable {E : Env} {M C : Nat} {arr : Name → DArr} {n kS nB : Nat} {ns : Nat → Nat}
  {m : Nat} {N : Fin (m + 1) → Nat} [∀ d, NeZero (N d)] {en : Fin n ≃ Grid N}
  {ek : Fin kS ≃ Half N} {s s' : St}

/-- Contiguous arrays of `z` reals each. -/
structure Cont (arr : Name → DArr) (B base z : Nat) (nm : Nat → Name) : Prop where
  base : ∀ t < B, (arr (nm t)).base = base + t * z
  len : ∀ t < B, (nm t).2.wd * (arr (nm t)).cap = z

theorem Cont.mem {B base z : Nat} {nm : Nat → Name} (h : Cont arr B base z nm) {x : Nat}
    (h1 : base ≤ x) (h2 : x < base + B * z) :
    ∃ t < B, ∃ y < z, x = (arr (nm t)).base + y := by
  have hz : 0 < z := by
    rcases Nat.eq_zero_or_pos z with rfl | h
    · omega
    · exact h
  have h3 : (x - base) / z < B := by rw [Nat.div_lt_iff_lt_mul hz]; omega
  refine ⟨(x - base) / z, h3, (x - base) % z, Nat.mod_lt _ hz, ?_⟩
  rw [h.base _ h3]
  have := Nat.div_add_mod (x - base) z
  rw [mul_comm] at this
  omega

theorem Cont.out (L : Lay arr n kS nB ns) {B base z : Nat} {nm : Nat → Name}
    (h : Cont arr B base z nm) {a : Name} (ha : ∀ t < B, a ≠ nm t) {y : Nat}
    (hy : y < a.2.wd * (arr a).cap) :
    ¬ (base ≤ (arr a).base + y ∧ (arr a).base + y < base + B * z) := by
  rintro ⟨h1, h2⟩
  obtain ⟨t, ht, u, hu, e⟩ := h.mem h1 h2
  exact L.ne (ha t ht) hy (by rw [h.len t ht]; exact hu) e

theorem not_mem_map {B : Nat} {nm : Nat → Name} {a : Name} (h : a ∉ (List.range B).map nm) :
    ∀ t < B, a ≠ nm t := fun t ht e => h (List.mem_map.2 ⟨t, List.mem_range.2 ht, e.symm⟩)

theorem div_block {z t y : Nat} (hy : y < z) : (t * z + y) / z = t ∧ (t * z + y) % z = y := by
  have hz : 0 < z := by omega
  constructor
  · rw [Nat.add_comm, Nat.add_mul_div_right _ _ hz, Nat.div_eq_of_lt hy, Nat.zero_add]
  · rw [Nat.add_comm, Nat.add_mul_mod_self_right, Nat.mod_eq_of_lt hy]

theorem block_lt {z t y B : Nat} (hy : y < z) (ht : t < B) : t * z + y < B * z := by
  have := Nat.mul_le_mul_right z (show t + 1 ≤ B from ht)
  rw [Nat.add_mul, Nat.one_mul] at this
  omega

/-- Forward transforms of `B` arrays. -/
theorem forward_spec (L : Lay arr n kS nB ns) (hE : E.Ok M C) (hg : Good E s) (B : Nat)
    (R K : DArr) (r k : Nat → Name) (hB : 0 < B) (hM : B * kS ≤ M)
    (hR : R.cap = n * B) (hK : K.cap = kS * B)
    (hr : Cont arr B R.base n r) (hk : Cont arr B K.base (2 * kS) k)
    : ∃ s', forward en ek E B R K s = .ok s' ∧ Did E arr ((List.range B).map k) s s' ∧
      ∀ t < B, cpx arr ek s'.mem (k t) = r2c en (fld arr n s.mem (r t)) := by
  have hk0 := L.kS0
  have hKc : K.cap = B * kS := by rw [hK, mul_comm]
  have hreg : B * (2 * kS) = 2 * (B * kS) := by ring
  let s1 : St := ⟨s.ta, cufftD2Z en ek B R.base K.base s.mem, s.clock⟩
  have hout : ∀ a, a ∉ (List.range B).map k → Same arr s.mem s1.mem a := by
    intro a ha x hx
    have := Cont.out L hk (not_mem_map ha) hx
    rw [hreg] at this
    exact if_neg this
  have hin : ∀ t < B, ∀ (j : Nat) (hj : j < kS),
      s1.mem (K.base + 2 * (t * kS + j)) =
        (∑ i, (fld arr n s.mem (r t) i : ℂ) * (starRingEnd ℂ) (wave (ek ⟨j, hj⟩).1 (en i))).re ∧
      s1.mem (K.base + 2 * (t * kS + j) + 1) =
        (∑ i, (fld arr n s.mem (r t) i : ℂ) * (starRingEnd ℂ) (wave (ek ⟨j, hj⟩).1 (en i))).im := by
    intro t ht j hj
    have hlt := block_lt hj ht
    obtain ⟨d1, d2⟩ := div_block (t := t) hj
    have e1 : (K.base + 2 * (t * kS + j) - K.base) / 2 = t * kS + j := by omega
    have e2 : (K.base + 2 * (t * kS + j) + 1 - K.base) / 2 = t * kS + j := by omega
    have hf : (fun i : Fin n => s.mem (R.base + t * n + i)) = fld arr n s.mem (r t) := by
      funext i
      rw [fld, hr.base t ht]
    constructor
    · simp only [s1, cufftD2Z]
      rw [if_pos (by omega), if_pos (by omega), e1, d1, d2, hf, dftSum, dif_pos hj]
    · simp only [s1, cufftD2Z]
      rw [if_pos (by omega), if_neg (by omega), e2, d1, d2, hf, dftSum, dif_pos hj]
  obtain ⟨s', r1, r2, r3⟩ := double (s := s1) hE (show Good E s1 from hg) K.base (B * kS)
    ((List.range B).map k)
    (fun b hb y hy x hx e => by
      refine Cont.out L hk (not_mem_map hb) hy ?_
      rw [hreg]
      omega)
    (Nat.mul_pos hB hk0) hM (fun _ => []) (by simp) (by simp) (un (· * (1 / (n : ℝ))))
  refine ⟨s', ?_, ⟨r2.good, fun a ha x hx => ?_⟩, fun t ht => funext fun κ => ?_⟩
  · unfold forward
    rw [if_neg (by omega), if_neg (by omega)]
    unfold cmulEqS
    rw [hKc]
    exact r1
  · rw [r2.same a ha x hx, hout a ha x hx]
  · have hj := (ek.symm κ).2
    have h := r3 (t * kS + (ek.symm κ).val) (block_lt hj ht)
    obtain ⟨g1, g2⟩ := hin t ht _ hj
    simp only [List.map_nil, un, g1, g2, Fin.eta, Equiv.apply_symm_apply] at h
    have eb : (arr (k t)).base + 2 * (ek.symm κ).val =
        K.base + 2 * (t * kS + (ek.symm κ).val) := by
      rw [hk.base t ht]; ring
    unfold cpx
    rw [eb, h.1, h.2, r2c]
    apply Complex.ext
    · rw [Complex.re_mul_ofReal]
    · rw [Complex.im_mul_ofReal]

/-- Inverse transforms of `B` arrays. -/
theorem inverse_spec (L : Lay arr n kS nB ns) (hg : Good E s) (B : Nat)
    (R K : DArr) (r k : Nat → Name) (hR : R.cap = n * B) (hK : K.cap = kS * B)
    (hr : Cont arr B R.base n r) (hk : Cont arr B K.base (2 * kS) k)
    : ∃ s', inverse en ek E B K R s = .ok s' ∧
      Did E arr ((List.range B).map r ++ (List.range B).map k) s s' ∧
      ∀ t < B, fld arr n s'.mem (r t) = c2r en (cpx arr ek s.mem (k t)) := by
  have hn0 := L.n0
  have hreg : B * (2 * kS) = 2 * (B * kS) := by ring
  refine ⟨⟨s.ta, cufftZ2D en ek B K.base R.base (E.junk s.clock) s.mem, s.clock + 1⟩, ?_,
    ⟨hg, fun a ha x hx => ?_⟩, fun t ht => funext fun i => ?_⟩
  · rw [inverse, if_neg (by omega), if_neg (by omega)]
  · rw [List.mem_append, not_or] at ha
    have h1 := Cont.out L hr (not_mem_map ha.1) hx
    have h2 := Cont.out L hk (not_mem_map ha.2) hx
    rw [hreg] at h2
    exact (if_neg h1).trans (if_neg h2)
  · have hlt := block_lt i.2 ht
    obtain ⟨d1, d2⟩ := div_block (t := t) i.2
    have eb : (arr (r t)).base + i = R.base + (t * n + i) := by rw [hr.base t ht]; omega
    have e1 : R.base + (t * n + i) - R.base = t * n + i := by omega
    simp only [fld, eb, cufftZ2D]
    rw [if_pos (by omega), dif_pos (Nat.mod_lt _ hn0)]
    simp only [e1, d1, d2, Fin.eta]
    congr 1
    funext κ
    unfold cpx
    rw [hk.base t ht, show K.base + t * (2 * kS) + 2 * (ek.symm κ).val =
      K.base + 2 * (t * kS + (ek.symm κ).val) by ring]

/-- `mulVVPair` and `mulEqVPair`. -/
theorem pair_spec (L : Lay arr n kS nB ns) (hE : E.Ok M C) (hg : Good E s)
    (T A1 A2 B1 B2 S : Name) (hM : n ≤ M)
    (hw : ∀ a ∈ [T, A1, A2, B1, B2, S], a.2.wd = 1 ∧ (arr a).cap = n)
    (h12 : A1 ≠ A2) (hT : ∀ a ∈ [A1, A2, B1, B2, S], T ≠ a) (hB2 : B2 ≠ A1) :
    ∃ s', lift E (fun ta sch mem => mulVVPair (arr T).base E.dev ta (arr A1) (arr A2)
        (arr B1) (arr B2) (arr S) sch mem) s = .ok s' ∧ Did E arr [T, A1, A2] s s' ∧
      (fld arr n s'.mem A1 = fun i => fld arr n s.mem B1 i * fld arr n s.mem S i) ∧
      fld arr n s'.mem A2 = fun i => fld arr n s.mem B2 i * fld arr n s.mem S i := by
  have hC := hE.C
  simp only [List.forall_mem_cons, List.not_mem_nil, false_imp_iff, implies_true, and_true] at hw hT
  obtain ⟨wT, w1, w2, u1, u2, wS⟩ := hw
  obtain ⟨t1, t2, t3, t4, t5⟩ := hT
  have key : ∀ {a b : Name}, a ≠ b → (a.2.wd = 1 ∧ (arr a).cap = n) →
      (b.2.wd = 1 ∧ (arr b).cap = n) → ∀ {i j : Nat}, i < n → j < n →
      ¬ (arr a).base + i = (arr b).base + j := by
    intro a b hab ha hb i j hi hj
    exact L.ne hab (by rw [ha.1, ha.2]; omega) (by rw [hb.1, hb.2]; omega)
  have same : ∀ {a b : Name}, (a.2.wd = 1 ∧ (arr a).cap = n) →
      (b.2.wd = 1 ∧ (arr b).cap = n) → ∀ {i j : Nat}, i < n → j < n → i ≠ j →
      ¬ (arr a).base + i = (arr b).base + j := by
    intro a b ha hb i j hi hj hij
    by_cases hab : a = b
    · subst hab; omega
    · exact key hab ha hb hi hj
  have hI : Indep n (pairBody (arr T).base (arr A1).base (arr A2).base (arr B1).base
      (arr B2).base (arr S).base : Nat → List (Instr ℝ)) := by
    intro i hi j hj hij p hp q hq
    simp only [pairBody, List.mem_cons, List.not_mem_nil, or_false] at hp hq
    rcases hp with rfl | rfl | rfl <;> rcases hq with rfl | rfl | rfl <;>
      simp only [List.mem_cons, List.not_mem_nil, or_false, not_or, ne_eq] <;>
      and_intros <;> exact same ‹_› ‹_› hi hj hij
  obtain ⟨s', r1, r2, r3, r4⟩ := launch_total hE hg L.n0 hM hI (fun i _ => by
    simp [pairBody, cost]; omega)
  refine ⟨s', ?_, ⟨r2, fun a ha x hx => r4 _ fun i hi hwr => ?_⟩, funext fun i => ?_,
    funext fun i => ?_⟩
  · unfold mulVVPair
    simp only [w1.2, w2.2, u1.2, u2.2, wS.2, ge_iff_le, le_refl, not_true, if_false]
    exact r1
  · simp only [List.mem_cons, List.not_mem_nil, or_false, not_or] at ha
    obtain ⟨p, hp, e⟩ := hwr
    simp only [pairBody, List.mem_cons, List.not_mem_nil, or_false] at hp
    rcases hp with rfl | rfl | rfl
    · exact L.ne (Ne.symm ha.1) (by rw [wT.1, wT.2]; omega) hx e
    · exact L.ne (Ne.symm ha.2.1) (by rw [w1.1, w1.2]; omega) hx e
    · exact L.ne (Ne.symm ha.2.2) (by rw [w2.1, w2.2]; omega) hx e
  · simp only [fld]
    rw [r3 i i.2 _ ⟨_, List.mem_cons_of_mem _ List.mem_cons_self, rfl⟩]
    simp only [pairBody, exec, List.map_cons, List.map_nil, un, bin, id]
    rw [Function.update_of_ne (key h12 w1 w2 i.2 i.2), Function.update_self,
      Function.update_self, Function.update_of_ne (key (Ne.symm t3) u1 wT i.2 i.2)]
  · simp only [fld]
    rw [r3 i i.2 _ ⟨_, List.mem_cons_of_mem _ (List.mem_cons_of_mem _ List.mem_cons_self), rfl⟩]
    simp only [pairBody, exec, List.map_cons, List.map_nil, un, bin, id]
    rw [Function.update_self, Function.update_of_ne (key hB2 u2 w1 i.2 i.2),
      Function.update_of_ne (key (Ne.symm t4) u2 wT i.2 i.2),
      Function.update_of_ne (key t1 wT w1 i.2 i.2), Function.update_self]

end Verif.Rpg
