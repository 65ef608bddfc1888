import Verif.Rpg.FftLemmas

/-!
# Lemmas about steps and propagators on the device
-/

set_option autoImplicit false
set_option linter.unusedSectionVars false

namespace Verif.Rpg

open Verif.Cuda Verif.Solver

variable {E : Env} {M C : Nat} {arr : Name → DArr} {n kS nB : Nat} {ns : Nat → Nat}
  {m : Nat} {N : Fin (m + 1) → Nat} [∀ d, NeZero (N d)] {en : Fin n ≃ Grid N}
  {ek : Fin kS ≃ Half N} {s s' : St}

/-- The arrays of block `b` in memory. -/
def arrays (arr : Name → DArr) (n : Nat) (ek : Fin kS ≃ Half N) (mem : Nat → ℝ) (b : Nat) :
    Arrays ℝ n (Half N) :=
  ⟨fld arr n mem (b, .expW), fld arr n mem (b, .expW2), fld arr n mem (b, .expWInv),
    rks arr ek mem (b, .expKsq), rks arr ek mem (b, .expKsq2)⟩

/-- Work arrays of a step. -/
def work (b : Nat) : List Name := [(b, .tmp), (b, .qr), (b, .qr2), (b, .qk), (b, .qk2)]

theorem Cont.one {R : Name} {z : Nat} (h : R.2.wd * (arr R).cap = z) :
    Cont arr 1 (arr R).base z (fun _ => R) :=
  ⟨fun t ht => by obtain rfl : t = 0 := (by omega); simp, fun _ _ => h⟩

theorem Did.arrays {W : List Name} (L : Lay arr n kS nB ns) {b : Nat} (hb : b < nB)
    (h : Did E arr W s s')
    (h1 : (b, .expW) ∉ W) (h2 : (b, .expW2) ∉ W) (h3 : (b, .expWInv) ∉ W) (h4 : (b, .expKsq) ∉ W)
    (h5 : (b, .expKsq2) ∉ W) : arrays arr n ek s'.mem b = arrays arr n ek s.mem b := by
  unfold Rpg.arrays
  rw [h.fld h1 (show (arr (b, .expW)).cap = n from L.cap b hb _) rfl,
    h.fld h2 (show (arr (b, .expW2)).cap = n from L.cap b hb _) rfl,
    h.fld h3 (show (arr (b, .expWInv)).cap = n from L.cap b hb _) rfl,
    h.rks h4 (show (arr (b, .expKsq)).cap = kS from L.cap b hb _) rfl,
    h.rks h5 (show (arr (b, .expKsq2)).cap = kS from L.cap b hb _) rfl]

theorem stepThread_spec (L : Lay arr n kS nB ns) (hE : E.Ok M C) (hg : Good E s)
    (hM : n ≤ M) (hM2 : 2 * kS ≤ M) {b : Nat} (hb : b < nB) (d : Bool) {i j : Nat} (hi : i < ns b)
    (hj : j < ns b) :
    ∃ s', stepThread en ek E arr b (b, .q d i) (b, .q d j) s = .ok s' ∧
      Did E arr (work b ++ [(b, .q d j)]) s s' ∧
      fld arr n s'.mem (b, .q d j) = Solver.stepThread (dftKin en) (arrays arr n ek s.mem b)
        (fld arr n s.mem (b, .q d i)) := by
  have cn : ∀ k : Kind, k.size n kS (ns b) = n → (arr (b, k)).cap = n := fun k h => by
    rw [L.cap b hb, h]
  have ck : ∀ k : Kind, k.size n kS (ns b) = kS → (arr (b, k)).cap = kS := fun k h => by
    rw [L.cap b hb, h]
  have ci : (arr (b, .q d i)).cap = n := cn _ (if_pos hi)
  have cj : (arr (b, .q d j)).cap = n := cn _ (if_pos hj)
  have c1 := cn .qr rfl
  have c2 := cn .qr2 rfl
  have c3 := cn .expW rfl
  have c4 := cn .expW2 rfl
  have k1 := ck .qk rfl
  have k2 := ck .qk2 rfl
  have k3 := ck .expKsq rfl
  have k4 := ck .expKsq2 rfl
  have hR : Cont arr 2 (qrPair arr n b).base n (fun t => (b, if t = 0 then .qr else .qr2)) := by
    refine ⟨fun t ht => ?_, fun t ht => ?_⟩
    · obtain rfl | rfl : t = 0 ∨ t = 1 := by omega
      · simp [qrPair]
      · simp [qrPair, L.qr2 b hb]
    · obtain rfl | rfl : t = 0 ∨ t = 1 := by omega
      · simp [c1, Kind.wd]
      · simp [c2, Kind.wd]
  have hK : Cont arr 2 (qkPair arr kS b).base (2 * kS)
      (fun t => (b, if t = 0 then .qk else .qk2)) := by
    refine ⟨fun t ht => ?_, fun t ht => ?_⟩
    · obtain rfl | rfl : t = 0 ∨ t = 1 := by omega
      · simp [qkPair]
      · simp [qkPair, L.qk2 b hb]
    · obtain rfl | rfl : t = 0 ∨ t = 1 := by omega
      · simp [k1, Kind.wd]
      · simp [k2, Kind.wd]
  obtain ⟨s1, e1, d1, v1, v1'⟩ := pair_spec L hE hg (b, .tmp) (b, .qr) (b, .qr2) (b, .expW)
    (b, .expW2) (b, .q d i) hM
    (by simp [Kind.wd, c1, c2, c3, c4, ci, cn .tmp rfl]) (by simp) (by simp) (by simp)
  obtain ⟨s2, e2, d2, v2⟩ := forward_spec (en := en) (ek := ek) L hE d1.good 2 (qrPair arr n b)
    (qkPair arr kS b) _ _ (by norm_num) hM2 (by simp [qrPair, mul_comm])
    (by simp [qkPair, mul_comm]) hR hK
  have v2a : cpx arr ek s2.mem (b, .qk) = r2c en (fld arr n s1.mem (b, .qr)) := v2 0 (by norm_num)
  have v2b : cpx arr ek s2.mem (b, .qk2) = r2c en (fld arr n s1.mem (b, .qr2)) :=
    v2 1 (by norm_num)
  have d2 : Did E arr [(b, .qk), (b, .qk2)] s1 s2 := d2
  obtain ⟨s3, e3, d3, v3⟩ := cmul_spec (ek := ek) L hE d2.good (b, .qk) (b, .expKsq) rfl rfl k1 k3
    (by omega)
  obtain ⟨s4, e4, d4, v4⟩ := cmul_spec (ek := ek) L hE d3.good (b, .qk2) (b, .expKsq2) rfl rfl k2
    k4 (by omega)
  obtain ⟨s5, e5, d5, v5⟩ := inverse_spec (en := en) (ek := ek) L d4.good 2 (qrPair arr n b)
    (qkPair arr kS b) _ _ (by simp [qrPair, mul_comm]) (by simp [qkPair, mul_comm]) hR hK
  have v5a : fld arr n s5.mem (b, .qr) = c2r en (cpx arr ek s4.mem (b, .qk)) := v5 0 (by norm_num)
  have v5b : fld arr n s5.mem (b, .qr2) = c2r en (cpx arr ek s4.mem (b, .qk2)) :=
    v5 1 (by norm_num)
  have d5 : Did E arr [(b, .qr), (b, .qr2), (b, .qk), (b, .qk2)] s4 s5 := d5
  obtain ⟨s6, e6, d6, v6, v6'⟩ := pair_spec L hE d5.good (b, .tmp) (b, .qr) (b, .qr2) (b, .qr)
    (b, .qr2) (b, .expW) hM
    (by simp [Kind.wd, c1, c2, c3, cn .tmp rfl]) (by simp) (by simp) (by simp)
  obtain ⟨s7, e7, d7, v7⟩ := forward_spec (en := en) (ek := ek) L hE d6.good 1 (arr (b, .qr2))
    (arr (b, .qk2)) _ _ (by norm_num) (by omega) (by simp [c2]) (by simp [k2])
    (Cont.one (by simp [c2, Kind.wd])) (Cont.one (by simp [k2, Kind.wd]))
  have v7 : cpx arr ek s7.mem (b, .qk2) = r2c en (fld arr n s6.mem (b, .qr2)) := v7 0 (by norm_num)
  have d7 : Did E arr [(b, .qk2)] s6 s7 := d7
  obtain ⟨s8, e8, d8, v8⟩ := cmul_spec (ek := ek) L hE d7.good (b, .qk2) (b, .expKsq2) rfl rfl k2
    k4 (by omega)
  obtain ⟨s9, e9, d9, v9⟩ := inverse_spec (en := en) (ek := ek) L d8.good 1 (arr (b, .qr2))
    (arr (b, .qk2)) _ _ (by simp [c2]) (by simp [k2])
    (Cont.one (by simp [c2, Kind.wd])) (Cont.one (by simp [k2, Kind.wd]))
  have v9 : fld arr n s9.mem (b, .qr2) = c2r en (cpx arr ek s8.mem (b, .qk2)) := v9 0 (by norm_num)
  have d9 : Did E arr [(b, .qr2), (b, .qk2)] s8 s9 := d9
  obtain ⟨s10, e10, d10, v10⟩ := rich_spec L hE d9.good (b, .q d j) (b, .qr) (b, .qr2) (b, .expW2)
    rfl rfl rfl rfl cj c1 c2 c4 (by simp) (by simp) (by simp) hM
  refine ⟨s10, ?_, ?_, ?_⟩
  · simp only [stepThread, e1, e2, e3, e4, e5, e6, e7, e8, e9, e10, Res.ok_bind]
  · refine (((((((((d1.trans d2).trans d3).trans d4).trans d5).trans d6).trans d7).trans d8).trans
      d9).trans d10).mono ?_
    intro a ha
    simp only [List.mem_append, List.mem_cons, List.not_mem_nil, or_false, work] at ha ⊢
    tauto
  · have dd : Did E arr _ s s8 :=
      ((((((d1.trans d2).trans d3).trans d4).trans d5).trans d6).trans d7).trans d8
    have x3 : rks arr ek s2.mem (b, .expKsq) = rks arr ek s.mem (b, .expKsq) :=
      (d1.trans d2).rks (by simp) k3 rfl
    have x4 : rks arr ek s3.mem (b, .expKsq2) = rks arr ek s.mem (b, .expKsq2) :=
      ((d1.trans d2).trans d3).rks (by simp) k4 rfl
    have x6 : fld arr n s5.mem (b, .expW) = fld arr n s.mem (b, .expW) :=
      ((((d1.trans d2).trans d3).trans d4).trans d5).fld (by simp) c3 rfl
    have x8 : rks arr ek s7.mem (b, .expKsq2) = rks arr ek s.mem (b, .expKsq2) :=
      ((((((d1.trans d2).trans d3).trans d4).trans d5).trans d6).trans d7).rks (by simp) k4 rfl
    have x10 : fld arr n s9.mem (b, .expW2) = fld arr n s.mem (b, .expW2) :=
      (dd.trans d9).fld (by simp) c4 rfl
    have y10 : fld arr n s9.mem (b, .qr) = fld arr n s6.mem (b, .qr) :=
      ((d7.trans d8).trans d9).fld (by simp) c1 rfl
    have y3 : cpx arr ek s3.mem (b, .qk2) = cpx arr ek s2.mem (b, .qk2) :=
      d3.cpx (by simp) k2 rfl
    have y4 : cpx arr ek s4.mem (b, .qk) = cpx arr ek s3.mem (b, .qk) := d4.cpx (by simp) k1 rfl
    rw [v10, x10, y10, v9, v8, v7, v6', v5b, v4, y3, v2b, v1', v6, v5a, y4, v3, v2a, v1, x3, x4,
      x6, x8]
    unfold Solver.stepThread dftKin
    simp only [arrays, mul_comm]

theorem mulEqV_arr (L : Lay arr n kS nB ns) (hE : E.Ok M C) (hg : Good E s) (hM : n ≤ M)
    {b : Nat} (hb : b < nB) (d : Bool) {i : Nat} (hi : i < ns b) :
    ∃ s', stepFieldBead E arr b (b, .q d i) s = .ok s' ∧ Did E arr [(b, .q d i)] s s' ∧
      fld arr n s'.mem (b, .q d i) = Solver.stepFieldBead (arrays arr n ek s.mem b)
        (fld arr n s.mem (b, .q d i)) := by
  obtain ⟨s', e, h, v⟩ := mulEqV_spec L hE hg (b, .q d i) (b, .expW) rfl rfl
    (by rw [L.cap b hb]; exact if_pos hi) (L.cap b hb _) hM
  exact ⟨s', e, h, v⟩

/-- The bond operators. -/
theorem stepBond_spec (L : Lay arr n kS nB ns) (hE : E.Ok M C) (hg : Good E s)
    (hM2 : kS ≤ M) {b : Nat} (hb : b < nB) (d : Bool) {i j : Nat} (hi : i < ns b)
    (hj : j < ns b) (f : Kind) (hf : f = .expKsq ∨ f = .expKsq2) :
    ∃ s', stepBond en ek E arr b f (b, .q d i) (b, .q d j) s = .ok s' ∧
      Did E arr ([(b, .qk)] ++ [(b, .q d j)]) s s' ∧
      fld arr n s'.mem (b, .q d j) = dftKin en (rks arr ek s.mem (b, f))
        (fld arr n s.mem (b, .q d i)) := by
  have ci : (arr (b, .q d i)).cap = n := by rw [L.cap b hb]; exact if_pos hi
  have cj : (arr (b, .q d j)).cap = n := by rw [L.cap b hb]; exact if_pos hj
  have k1 : (arr (b, .qk)).cap = kS := L.cap b hb _
  have k3 : (arr (b, f)).cap = kS := by rcases hf with rfl | rfl <;> exact L.cap b hb _
  have hwf : f.wd = 1 := by rcases hf with rfl | rfl <;> rfl
  have hne : (b, f) ≠ (b, Kind.qk) := by rcases hf with rfl | rfl <;> simp
  obtain ⟨s1, e1, d1, v1⟩ := forward_spec (en := en) (ek := ek) L hE hg 1 (arr (b, .q d i))
    (arr (b, .qk)) _ _ (by norm_num) (by omega) (by simp [ci]) (by simp [k1])
    (Cont.one (by simp [ci, Kind.wd])) (Cont.one (by simp [k1, Kind.wd]))
  have v1 : cpx arr ek s1.mem (b, .qk) = r2c en (fld arr n s.mem (b, .q d i)) := v1 0 (by norm_num)
  have d1 : Did E arr [(b, .qk)] s s1 := d1
  obtain ⟨s2, e2, d2, v2⟩ := cmul_spec (ek := ek) L hE d1.good (b, .qk) (b, f) rfl hwf k1 k3
    (by omega)
  obtain ⟨s3, e3, d3, v3⟩ := inverse_spec (en := en) (ek := ek) L d2.good 1 (arr (b, .q d j))
    (arr (b, .qk)) _ _ (by simp [cj]) (by simp [k1])
    (Cont.one (by simp [cj, Kind.wd])) (Cont.one (by simp [k1, Kind.wd]))
  have v3 : fld arr n s3.mem (b, .q d j) = c2r en (cpx arr ek s2.mem (b, .qk)) := v3 0 (by norm_num)
  have d3 : Did E arr [(b, .q d j), (b, .qk)] s2 s3 := d3
  refine ⟨s3, ?_, ?_, ?_⟩
  · simp only [stepBond, e1, e2, e3, Res.ok_bind]
  · refine ((d1.trans d2).trans d3).mono ?_
    intro a ha
    simp only [List.mem_append, List.mem_cons, List.not_mem_nil, or_false] at ha ⊢
    tauto
  · rw [v3, v2, v1, d1.rks (by simpa using hne) k3 hwf]
    rfl

theorem stepBead_spec (L : Lay arr n kS nB ns) (hE : E.Ok M C) (hg : Good E s) (hM : n ≤ M)
    (hM2 : kS ≤ M) {b : Nat} (hb : b < nB) (d : Bool) {i j : Nat} (hi : i < ns b)
    (hj : j < ns b) :
    ∃ s', stepBead en ek E arr b (b, .q d i) (b, .q d j) s = .ok s' ∧
      Did E arr ([(b, .qk)] ++ [(b, .q d j)]) s s' ∧
      fld arr n s'.mem (b, .q d j) = Solver.stepBead (dftKin en) (arrays arr n ek s.mem b)
        (fld arr n s.mem (b, .q d i)) := by
  obtain ⟨s1, e1, d1, v1⟩ := stepBond_spec (en := en) (ek := ek) L hE hg hM2 hb d hi hj .expKsq
    (.inl rfl)
  obtain ⟨s2, e2, d2, v2⟩ := mulEqV_arr (ek := ek) L hE d1.good hM hb d hj
  refine ⟨s2, by simp only [stepBead, e1, e2, Res.ok_bind], (d1.trans d2).mono ?_, ?_⟩
  · intro a ha
    simp only [List.mem_append, List.mem_cons, List.not_mem_nil, or_false] at ha ⊢
    tauto
  · rw [v2, v1, d1.arrays L hb (by simp) (by simp) (by simp) (by simp) (by simp)]
    rfl

end Verif.Rpg
