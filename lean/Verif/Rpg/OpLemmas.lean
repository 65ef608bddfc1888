import Verif.Rpg.Block
import Verif.Cuda.VecOpLemmas
import Verif.Cuda.LoopLemmas
import Verif.Tac

/-!
# Lemmas about operations on device memory
-/

set_option autoImplicit false
set_option linter.unusedSectionVars false

namespace Verif.Rpg

open Verif.Cuda Verif.Solver

/-- Number of elements of the arrays of a block with `ns` slices. -/
def Kind.size (n kS ns : Nat) : Kind → Nat
  | .expKsq | .expKsq2 | .qk | .qk2 | .qkOne _ | .rTmp | .kSq | .dKSq => kS
  | .q _ j => if j < ns then n else 0
  | .qkAll _ j => if j < ns then kS else 0
  | _ => n

/-- Positions of the arrays of `nB` blocks in device memory: no two arrays overlap; the pairs
`qrPair_`, `qkPair_` and the slices of `qkAll` and `q` are contiguous. -/
structure Lay (arr : Name → DArr) (n kS nB : Nat) (ns : Nat → Nat) : Prop where
  n0 : 0 < n
  kS0 : 0 < kS
  disj : ∀ a b, a ≠ b → (arr a).base + a.2.wd * (arr a).cap ≤ (arr b).base ∨
    (arr b).base + b.2.wd * (arr b).cap ≤ (arr a).base
  cap : ∀ b < nB, ∀ k, (arr (b, k)).cap = k.size n kS (ns b)
  qr2 : ∀ b < nB, (arr (b, .qr2)).base = (arr (b, .qr)).base + n
  qk2 : ∀ b < nB, (arr (b, .qk2)).base = (arr (b, .qk)).base + 2 * kS
  q : ∀ b < nB, ∀ d j, j < ns b → (arr (b, .q d j)).base = (arr (b, .q d 0)).base + j * n
  qkAll : ∀ b < nB, ∀ d j, j < ns b →
    (arr (b, .qkAll d j)).base = (arr (b, .qkAll d 0)).base + j * (2 * kS)

/-- A supported device, and schedules under which each of the first `M` threads of every launch
makes at least `C` accesses. -/
structure Env.Ok (E : Env) (M C : Nat) : Prop where
  dev : E.dev.Ok
  sch : ∀ k, ∀ t < M, C ≤ (E.sch k).count t
  red : ∀ k, FairSched (E.red k)
  M : M + 1024 ≤ 2147483648
  C : 8 ≤ C

/-- The block size is one that the device supports. -/
def Good (E : Env) (s : St) : Prop := ∃ T, s.ta.Uses E.dev T

/-- Array `a` has the same contents. -/
def Same (arr : Name → DArr) (mem mem' : Nat → ℝ) (a : Name) : Prop :=
  ∀ x < a.2.wd * (arr a).cap, mem' ((arr a).base + x) = mem ((arr a).base + x)

/-- The operation changes at most the arrays in `W`. -/
structure Did (E : Env) (arr : Name → DArr) (W : List Name) (s s' : St) : Prop where
  good : Good E s'
  same : ∀ a, a ∉ W → Same arr s.mem s'.mem a

variable {E : Env} {M C : Nat} {arr : Name → DArr} {n kS nB : Nat} {ns : Nat → Nat}

theorem Did.refl {s : St} (h : Good E s) : Did E arr [] s s := ⟨h, fun _ _ _ _ => rfl⟩

theorem Did.trans {W W' : List Name} {s s1 s2 : St} (h1 : Did E arr W s s1)
    (h2 : Did E arr W' s1 s2) : Did E arr (W ++ W') s s2 :=
  ⟨h2.good, fun a ha x hx => by
    rw [List.mem_append, not_or] at ha
    rw [h2.same a ha.2 x hx, h1.same a ha.1 x hx]⟩

theorem Did.mono {W W' : List Name} {s s1 : St} (h1 : Did E arr W s s1) (h : ∀ a ∈ W, a ∈ W') :
    Did E arr W' s s1 := ⟨h1.good, fun a ha => h1.same a fun h' => ha (h a h')⟩

theorem Lay.ne (L : Lay arr n kS nB ns) {a b : Name} (h : a ≠ b) {x y : Nat}
    (hx : x < a.2.wd * (arr a).cap) (hy : y < b.2.wd * (arr b).cap) :
    (arr a).base + x ≠ (arr b).base + y := by
  have := L.disj a b h
  generalize a.2.wd * (arr a).cap = p at *
  generalize b.2.wd * (arr b).cap = q at *
  generalize (arr a).base = u at *
  generalize (arr b).base = v at *
  omega

/-- A launch with independent iterations. -/
theorem launch_total (hE : E.Ok M C) {s : St} (hg : Good E s) {k : Nat} (h0 : 0 < k) (hk : k ≤ M)
    {body : Nat → List (Instr ℝ)} (hi : Indep k body) (hc : ∀ i < k, cost (body i) ≤ C) :
    ∃ s', lift E (fun ta sch mem => vecLaunch E.dev ta k body sch mem) s = .ok s' ∧ Good E s' ∧
      (∀ i < k, ∀ x, Writes (body i) x → s'.mem x = exec (body i) s.mem x) ∧
      ∀ x, (∀ i < k, ¬ Writes (body i) x) → s'.mem x = s.mem x := by
  obtain ⟨T, hT⟩ := hg
  have hT1 : T ≤ 1024 := hT.2.2.trans hE.dev.perBlock.2
  have hM := hE.M
  obtain ⟨ta, h1, h2, -, h4, h5, -⟩ := setLogical_uses hE.dev hT h0 (by omega)
  obtain ⟨j, -, hj⟩ := Uses.pow hE.dev hT
  have hT0 : 0 < T := by rw [hj]; positivity
  have hN : k ≤ ta.blocks * ta.tpb := by
    rw [h4, h5]
    have e1 := Nat.div_add_mod (k + T - 1) T
    have e2 := Nat.mod_lt (k + T - 1) hT0
    rw [mul_comm] at e1
    omega
  have hf := fair_of_count hN hc (sch := E.sch s.clock) fun t ht => hE.sch _ t (ht.trans_le hk)
  obtain ⟨r1, r2⟩ := kernel_elementwise (by omega) hi hf s.mem
  refine ⟨⟨ta, _, s.clock + 1⟩, ?_, ⟨T, h2⟩, r1, r2⟩
  simp only [lift, vecLaunch, h1, Res.ok_bind]
  rfl

/-- A kernel that assigns `a[i] = f(...)`, where the sources are either `a[i]` or elements of other
arrays. -/
theorem single (L : Lay arr n kS nB ns) (hE : E.Ok M C) {s : St} (hg : Good E s) (A : Name)
    (hw : A.2.wd = 1) (h0 : 0 < (arr A).cap) (hM : (arr A).cap ≤ M) (srcs : Nat → List Nat)
    (hs : ∀ i < (arr A).cap, ∀ x ∈ srcs i, x = (arr A).base + i ∨
      ∃ b : Name, b ≠ A ∧ ∃ y < b.2.wd * (arr b).cap, x = (arr b).base + y)
    (hlen : ∀ i < (arr A).cap, (srcs i).length + 1 ≤ C) (f : List ℝ → ℝ) :
    ∃ s', lift E (fun ta sch mem => vecLaunch E.dev ta (arr A).cap
      (fun i => [⟨(arr A).base + i, srcs i, f⟩]) sch mem) s = .ok s' ∧ Did E arr [A] s s' ∧
      ∀ i < (arr A).cap, s'.mem ((arr A).base + i) = f ((srcs i).map s.mem) := by
  have hI : Indep (arr A).cap (fun i => [⟨(arr A).base + i, srcs i, f⟩]) := by
    intro i hi j hj hij p hp q hq
    rw [List.mem_singleton] at hp hq
    subst hp hq
    refine ⟨by simp only; omega, fun hm => ?_⟩
    simp only at hm
    rcases hs j hj _ hm with e | ⟨b, hb, y, hy, e⟩
    · omega
    · exact L.ne hb.symm (by rw [hw]; omega) hy e
  obtain ⟨s', r1, r2, r3, r4⟩ := launch_total hE hg h0 hM hI (fun i hi => by
    simpa [cost] using hlen i hi)
  refine ⟨s', r1, ⟨r2, fun a ha x hx => r4 _ fun i hi hwr => ?_⟩, fun i hi => ?_⟩
  · obtain ⟨p, hp, e⟩ := hwr
    rw [List.mem_singleton] at hp ha
    subst hp
    exact L.ne (fun e => ha e.symm) (by rw [hw]; omega) hx e
  · rw [r3 i hi _ ⟨_, List.mem_singleton.2 rfl, rfl⟩]
    simp [exec]

/-- A kernel that updates real and imaginary part of `a[i]` separately. -/
theorem double (hE : E.Ok M C) {s : St} (hg : Good E s) (a k : Nat)
    (W : List Name) (ha : ∀ b, b ∉ W → ∀ y < b.2.wd * (arr b).cap, ∀ x < 2 * k,
      a + x ≠ (arr b).base + y)
    (h0 : 0 < k) (hM : k ≤ M) (src : Nat → List Nat)
    (hs : ∀ i < k, ∀ x ∈ src i, ∀ y < 2 * k, a + y ≠ x)
    (hlen : ∀ i < k, (src i).length ≤ 2) (f : List ℝ → ℝ) :
    ∃ s', lift E (fun ta sch mem => vecLaunch E.dev ta k
      (fun i => [⟨a + 2 * i, (a + 2 * i) :: src i, f⟩,
        ⟨a + 2 * i + 1, (a + 2 * i + 1) :: src i, f⟩]) sch mem) s = .ok s' ∧
      Did E arr W s s' ∧ ∀ i < k,
        s'.mem (a + 2 * i) = f (s.mem (a + 2 * i) :: (src i).map s.mem) ∧
        s'.mem (a + 2 * i + 1) = f (s.mem (a + 2 * i + 1) :: (src i).map s.mem) := by
  have hC := hE.C
  have hI : Indep k (fun i => [(⟨a + 2 * i, (a + 2 * i) :: src i, f⟩ : Instr ℝ),
        ⟨a + 2 * i + 1, (a + 2 * i + 1) :: src i, f⟩]) := by
    intro i hi j hj hij p hp q hq
    simp only [List.mem_cons, List.not_mem_nil, or_false] at hp hq
    rcases hp with rfl | rfl <;> rcases hq with rfl | rfl <;>
      refine ⟨by simp only; omega, fun hm => ?_⟩ <;>
      simp only [List.mem_cons] at hm <;>
      rcases hm with e | hm <;>
      first
      | omega
      | exact hs j hj _ hm (2 * i) (by omega) rfl
      | exact hs j hj _ hm (2 * i + 1) (by omega) rfl
  obtain ⟨s', r1, r2, r3, r4⟩ := launch_total hE hg h0 hM hI (fun i hi => by
    have := hlen i hi
    simp [cost]
    omega)
  refine ⟨s', r1, ⟨r2, fun b hb y hy => r4 _ fun i hi hwr => ?_⟩, fun i hi => ⟨?_, ?_⟩⟩
  · obtain ⟨p, hp, e⟩ := hwr
    simp only [List.mem_cons, List.not_mem_nil, or_false] at hp
    rcases hp with rfl | rfl
    · exact ha b hb y hy (2 * i) (by omega) e
    · exact ha b hb y hy (2 * i + 1) (by omega) e
  · rw [r3 i hi _ ⟨_, List.mem_cons_self, rfl⟩]
    simp only [exec, List.map_cons]
    rw [Function.update_of_ne (by omega), Function.update_self]
  · rw [r3 i hi _ ⟨_, List.mem_cons_of_mem _ List.mem_cons_self, rfl⟩]
    simp only [exec, List.map_cons]
    rw [Function.update_self, Function.update_of_ne (by omega)]
    congr 2
    refine List.map_congr_left fun x hx => ?_
    rw [Function.update_of_ne]
    exact fun e => hs i hi x hx (2 * i) (by omega) e.symm

/-! ## Contents of arrays -/

variable {m : Nat} {N : Fin (m + 1) → Nat} [∀ d, NeZero (N d)]

/-- Real array on the mesh. -/
def fld (arr : Name → DArr) (n : Nat) (mem : Nat → ℝ) (a : Name) : Fld n ℝ :=
  fun i => mem ((arr a).base + i)

/-- Real array on the half mesh. -/
def rks (arr : Name → DArr) (ek : Fin kS ≃ Half N) (mem : Nat → ℝ) (a : Name) : Half N → ℝ :=
  fun κ => mem ((arr a).base + (ek.symm κ).val)

/-- Complex array on the half mesh. -/
def cpx (arr : Name → DArr) (ek : Fin kS ≃ Half N) (mem : Nat → ℝ) (a : Name) : Half N → ℂ :=
  fun κ => ⟨mem ((arr a).base + 2 * (ek.symm κ).val), mem ((arr a).base + 2 * (ek.symm κ).val + 1)⟩

variable {ek : Fin kS ≃ Half N} {s s' : St} {W : List Name} {a : Name}

theorem Did.fld (h : Did E arr W s s') (ha : a ∉ W) (hc : (arr a).cap = n) (hw : a.2.wd = 1) :
    fld arr n s'.mem a = fld arr n s.mem a := by
  funext i
  exact h.same a ha i (by rw [hw, hc]; omega)

theorem Did.rks (h : Did E arr W s s') (ha : a ∉ W) (hc : (arr a).cap = kS) (hw : a.2.wd = 1) :
    rks arr ek s'.mem a = rks arr ek s.mem a := by
  funext κ
  exact h.same a ha _ (by rw [hw, hc]; omega)

theorem Did.cpx (h : Did E arr W s s') (ha : a ∉ W) (hc : (arr a).cap = kS) (hw : a.2.wd = 2) :
    cpx arr ek s'.mem a = cpx arr ek s.mem a := by
  funext κ
  have := (ek.symm κ).2
  unfold Rpg.cpx
  rw [h.same a ha _ (by rw [hw, hc]; omega), Nat.add_assoc, h.same a ha _ (by rw [hw, hc]; omega)]

/-! ## Single operations -/

theorem eqS_spec (L : Lay arr n kS nB ns) (hE : E.Ok M C) (hg : Good E s) (A : Name)
    (hw : A.2.wd = 1) (hcap : (arr A).cap = n) (hM : n ≤ M) (v : ℝ) :
    ∃ s', eqS E (arr A) v s = .ok s' ∧ Did E arr [A] s s' ∧
      Rpg.fld arr n s'.mem A = fun _ => v := by
  have hC := hE.C
  obtain ⟨s', r1, r2, r3⟩ := single L hE hg A hw (by rw [hcap]; exact L.n0) (by omega)
    (fun _ => []) (by simp) (fun _ _ => by simp; omega) (fun _ => v)
  exact ⟨s', r1, r2, funext fun i => r3 i (by omega)⟩

/-- Operations with one source array on the mesh. -/
theorem un_spec (L : Lay arr n kS nB ns) (hE : E.Ok M C) (hg : Good E s) (A B : Name) (sz : Nat)
    (hw : A.2.wd = 1) (hwB : B.2.wd = 1) (hA : (arr A).cap = sz) (hB : (arr B).cap = sz)
    (h0 : 0 < sz) (hM : sz ≤ M) (f : ℝ → ℝ) :
    ∃ s', lift E (fun ta sch mem => unR f E.dev ta (arr A) (arr B) 0 0 (arr A).cap sch mem) s =
        .ok s' ∧ Did E arr [A] s s' ∧
      ∀ i < sz, s'.mem ((arr A).base + i) = f (s.mem ((arr B).base + i)) := by
  have hC := hE.C
  obtain ⟨s', r1, r2, r3⟩ := single L hE hg A hw (by omega) (by omega)
    (fun i => [(arr B).base + i]) (fun i hi x hx => by
      rw [List.mem_singleton] at hx
      subst hx
      by_cases hAB : B = A
      · exact .inl (by rw [hAB])
      · exact .inr ⟨B, hAB, i, by rw [hwB]; omega, rfl⟩)
    (fun _ _ => by simp; omega) (un f)
  refine ⟨s', ?_, r2, fun i hi => r3 i (by omega)⟩
  simp only [unR, Nat.add_zero]
  rw [show (fun ta sch mem => if ¬ (arr A).cap ≥ (arr A).cap then (Res.throw : Res (TA × (Nat → ℝ)))
    else if ¬ (arr B).cap ≥ (arr A).cap then .throw
    else vecLaunch E.dev ta (arr A).cap (unBody f (arr A).base (arr B).base) sch mem) =
    fun ta sch mem => vecLaunch E.dev ta (arr A).cap (unBody f (arr A).base (arr B).base) sch mem
    from by rw [hA, hB]; simp]
  exact r1

/-- Operations with two source arrays on the mesh. -/
theorem bin_spec (L : Lay arr n kS nB ns) (hE : E.Ok M C) (hg : Good E s) (A B D : Name) (sz : Nat)
    (hw : A.2.wd = 1) (hwB : B.2.wd = 1) (hwD : D.2.wd = 1) (hA : (arr A).cap = sz)
    (hB : (arr B).cap = sz) (hD : (arr D).cap = sz)
    (h0 : 0 < sz) (hM : sz ≤ M) (f : ℝ → ℝ → ℝ) :
    ∃ s', lift E (fun ta sch mem => binR f E.dev ta (arr A) (arr B) (arr D) 0 0 0 (arr A).cap
        sch mem) s = .ok s' ∧ Did E arr [A] s s' ∧
      ∀ i < sz, s'.mem ((arr A).base + i) =
        f (s.mem ((arr B).base + i)) (s.mem ((arr D).base + i)) := by
  have hC := hE.C
  obtain ⟨s', r1, r2, r3⟩ := single L hE hg A hw (by omega) (by omega)
    (fun i => [(arr B).base + i, (arr D).base + i]) (fun i hi x hx => by
      simp only [List.mem_cons, List.not_mem_nil, or_false] at hx
      rcases hx with rfl | rfl
      · by_cases hAB : B = A
        · exact .inl (by rw [hAB])
        · exact .inr ⟨B, hAB, i, by rw [hwB]; omega, rfl⟩
      · by_cases hAB : D = A
        · exact .inl (by rw [hAB])
        · exact .inr ⟨D, hAB, i, by rw [hwD]; omega, rfl⟩)
    (fun _ _ => by simp; omega) (bin f)
  refine ⟨s', ?_, r2, fun i hi => r3 i (by omega)⟩
  simp only [binR, Nat.add_zero]
  rw [show (fun ta sch mem => if ¬ (arr A).cap ≥ (arr A).cap then (Res.throw : Res (TA × (Nat → ℝ)))
    else if ¬ (arr B).cap ≥ (arr A).cap then .throw
    else if ¬ (arr D).cap ≥ (arr A).cap then .throw
    else vecLaunch E.dev ta (arr A).cap (binBody f (arr A).base (arr B).base (arr D).base) sch mem) =
    fun ta sch mem =>
      vecLaunch E.dev ta (arr A).cap (binBody f (arr A).base (arr B).base (arr D).base) sch mem
    from by rw [hA, hB, hD]; simp]
  exact r1

theorem mulEqV_spec (L : Lay arr n kS nB ns) (hE : E.Ok M C) (hg : Good E s) (A B : Name)
    (hw : A.2.wd = 1) (hwB : B.2.wd = 1) (hA : (arr A).cap = n) (hB : (arr B).cap = n)
    (hM : n ≤ M) :
    ∃ s', mulEqV E (arr A) (arr B) s = .ok s' ∧ Did E arr [A] s s' ∧
      Rpg.fld arr n s'.mem A =
        fun i => Rpg.fld arr n s.mem A i * Rpg.fld arr n s.mem B i := by
  obtain ⟨s', r1, r2, r3⟩ := bin_spec L hE hg A A B n hw hw hwB hA hA hB L.n0 hM (· * ·)
  exact ⟨s', r1, r2, funext fun i => r3 i i.2⟩

theorem mulEqS_spec (L : Lay arr n kS nB ns) (hE : E.Ok M C) (hg : Good E s) (A : Name)
    (hw : A.2.wd = 1) (hA : (arr A).cap = n) (hM : n ≤ M) (v : ℝ) :
    ∃ s', mulEqS E (arr A) v s = .ok s' ∧ Did E arr [A] s s' ∧
      Rpg.fld arr n s'.mem A = fun i => Rpg.fld arr n s.mem A i * v := by
  obtain ⟨s', r1, r2, r3⟩ := un_spec L hE hg A A n hw hw hA hA L.n0 hM (· * v)
  exact ⟨s', r1, r2, funext fun i => r3 i i.2⟩

theorem eqV_spec (L : Lay arr n kS nB ns) (hE : E.Ok M C) (hg : Good E s) (A B : Name)
    (hw : A.2.wd = 1) (hwB : B.2.wd = 1) (hA : (arr A).cap = n) (hB : (arr B).cap = n)
    (hM : n ≤ M) :
    ∃ s', eqV E (arr A) (arr B) s = .ok s' ∧ Did E arr [A] s s' ∧
      Rpg.fld arr n s'.mem A = Rpg.fld arr n s.mem B := by
  obtain ⟨s', r1, r2, r3⟩ := un_spec L hE hg A B n hw hwB hA hB L.n0 hM id
  exact ⟨s', r1, r2, funext fun i => r3 i i.2⟩

theorem rich_spec (L : Lay arr n kS nB ns) (hE : E.Ok M C) (hg : Good E s) (A B D F : Name)
    (hw : A.2.wd = 1) (hwB : B.2.wd = 1) (hwD : D.2.wd = 1) (hwF : F.2.wd = 1)
    (hA : (arr A).cap = n) (hB : (arr B).cap = n) (hD : (arr D).cap = n) (hF : (arr F).cap = n)
    (hAB : B ≠ A) (hAD : D ≠ A) (hAF : F ≠ A) (hM : n ≤ M) :
    ∃ s', richardsonEx E (arr A) (arr B) (arr D) (arr F) s = .ok s' ∧ Did E arr [A] s s' ∧
      Rpg.fld arr n s'.mem A = fun i => (4 * (Rpg.fld arr n s.mem D i * Rpg.fld arr n s.mem F i) -
        Rpg.fld arr n s.mem B i) / 3 := by
  have hC := hE.C
  have h0 := L.n0
  obtain ⟨s', r1, r2, r3⟩ := single L hE hg A hw (by omega) (by omega)
    (fun i => [(arr D).base + i, (arr F).base + i, (arr B).base + i]) (fun i hi x hx => by
      simp only [List.mem_cons, List.not_mem_nil, or_false] at hx
      rcases hx with rfl | rfl | rfl
      · exact .inr ⟨D, hAD, i, by rw [hwD]; omega, rfl⟩
      · exact .inr ⟨F, hAF, i, by rw [hwF]; omega, rfl⟩
      · exact .inr ⟨B, hAB, i, by rw [hwB]; omega, rfl⟩)
    (fun _ _ => by simp; omega) richVal
  refine ⟨s', ?_, r2, funext fun i => r3 i (by omega)⟩
  unfold richardsonEx
  simp only [hA, hB, hD, hF, not_true, if_false] at r1 ⊢
  exact r1

theorem fma_spec (L : Lay arr n kS nB ns) (hE : E.Ok M C) (hg : Good E s) (A B D : Name)
    (hw : A.2.wd = 1) (hwB : B.2.wd = 1) (hwD : D.2.wd = 1)
    (hA : (arr A).cap = n) (hB : (arr B).cap = n) (hD : (arr D).cap = n)
    (hAB : B ≠ A) (hAD : D ≠ A) (hM : n ≤ M) (v : ℝ) :
    ∃ s', addEqMulVVc E (arr A) (arr B) (arr D) v s = .ok s' ∧ Did E arr [A] s s' ∧
      Rpg.fld arr n s'.mem A = fun i => Rpg.fld arr n s.mem A i +
        Rpg.fld arr n s.mem B i * Rpg.fld arr n s.mem D i * v := by
  have hC := hE.C
  have h0 := L.n0
  obtain ⟨s', r1, r2, r3⟩ := single L hE hg A hw (by omega) (by omega)
    (fun i => [(arr A).base + i, (arr B).base + i, (arr D).base + i]) (fun i hi x hx => by
      simp only [List.mem_cons, List.not_mem_nil, or_false] at hx
      rcases hx with rfl | rfl | rfl
      · exact .inl rfl
      · exact .inr ⟨B, hAB, i, by rw [hwB]; omega, rfl⟩
      · exact .inr ⟨D, hAD, i, by rw [hwD]; omega, rfl⟩)
    (fun _ _ => by simp; omega) (fmaVal v)
  refine ⟨s', ?_, r2, funext fun i => r3 i (by omega)⟩
  unfold addEqMulVVc
  simp only [hA, hB, hD, ge_iff_le, le_refl, not_true, if_false] at r1 ⊢
  exact r1

theorem fmaV_spec (L : Lay arr n kS nB ns) (hE : E.Ok M C) (hg : Good E s) (A B D F : Name)
    (hw : A.2.wd = 1) (hwB : B.2.wd = 1) (hwD : D.2.wd = 1) (hwF : F.2.wd = 1)
    (hA : (arr A).cap = n) (hB : (arr B).cap = n) (hD : (arr D).cap = n) (hF : (arr F).cap = n)
    (hAB : B ≠ A) (hAD : D ≠ A) (hAF : F ≠ A) (hM : n ≤ M) :
    ∃ s', addEqMulVVV E (arr A) (arr B) (arr D) (arr F) s = .ok s' ∧ Did E arr [A] s s' ∧
      Rpg.fld arr n s'.mem A = fun i => Rpg.fld arr n s.mem A i +
        Rpg.fld arr n s.mem B i * Rpg.fld arr n s.mem D i * Rpg.fld arr n s.mem F i := by
  have hC := hE.C
  have h0 := L.n0
  obtain ⟨s', r1, r2, r3⟩ := single L hE hg A hw (by omega) (by omega)
    (fun i => [(arr A).base + i, (arr B).base + i, (arr D).base + i, (arr F).base + i])
    (fun i hi x hx => by
      simp only [List.mem_cons, List.not_mem_nil, or_false] at hx
      rcases hx with rfl | rfl | rfl | rfl
      · exact .inl rfl
      · exact .inr ⟨B, hAB, i, by rw [hwB]; omega, rfl⟩
      · exact .inr ⟨D, hAD, i, by rw [hwD]; omega, rfl⟩
      · exact .inr ⟨F, hAF, i, by rw [hwF]; omega, rfl⟩)
    (fun _ _ => by simp; omega) fmaVVal
  refine ⟨s', ?_, r2, funext fun i => r3 i (by omega)⟩
  unfold addEqMulVVV
  simp only [hA, hB, hD, hF, ge_iff_le, le_refl, not_true, if_false] at r1 ⊢
  exact r1

theorem conj_spec (L : Lay arr n kS nB ns) (hE : E.Ok M C) (hg : Good E s) (A B D F : Name)
    (hw : A.2.wd = 1) (hwB : B.2.wd = 2) (hwD : D.2.wd = 2) (hwF : F.2.wd = 1)
    (hA : (arr A).cap = kS) (hB : (arr B).cap = kS) (hD : (arr D).cap = kS)
    (hF : (arr F).cap = kS) (hAB : B ≠ A) (hAD : D ≠ A) (hAF : F ≠ A) (hM : kS ≤ M) :
    ∃ s', realMulVConjVV E (arr A) (arr B) (arr D) (arr F) s = .ok s' ∧ Did E arr [A] s s' ∧
      Rpg.rks arr ek s'.mem A = fun κ =>
        ((Rpg.cpx arr ek s.mem B κ).re * (Rpg.cpx arr ek s.mem D κ).re +
          (Rpg.cpx arr ek s.mem B κ).im * (Rpg.cpx arr ek s.mem D κ).im) *
        Rpg.rks arr ek s.mem F κ := by
  have hC := hE.C
  have h0 := L.kS0
  obtain ⟨s', r1, r2, r3⟩ := single L hE hg A hw (by omega) (by omega)
    (fun i => [(arr B).base + 2 * i, (arr D).base + 2 * i, (arr B).base + 2 * i + 1,
      (arr D).base + 2 * i + 1, (arr F).base + i])
    (fun i hi x hx => by
      simp only [List.mem_cons, List.not_mem_nil, or_false] at hx
      rcases hx with rfl | rfl | rfl | rfl | rfl
      · exact .inr ⟨B, hAB, 2 * i, by rw [hwB]; omega, rfl⟩
      · exact .inr ⟨D, hAD, 2 * i, by rw [hwD]; omega, rfl⟩
      · exact .inr ⟨B, hAB, 2 * i + 1, by rw [hwB]; omega, rfl⟩
      · exact .inr ⟨D, hAD, 2 * i + 1, by rw [hwD]; omega, rfl⟩
      · exact .inr ⟨F, hAF, i, by rw [hwF]; omega, rfl⟩)
    (fun _ _ => by simp; omega) conjVal
  refine ⟨s', ?_, r2, funext fun κ => r3 (ek.symm κ) (by omega)⟩
  unfold realMulVConjVV
  simp only [hA, hB, hD, hF, ge_iff_le, le_refl, not_true, if_false] at r1 ⊢
  exact r1

theorem cmul_spec (L : Lay arr n kS nB ns) (hE : E.Ok M C) (hg : Good E s) (A B : Name)
    (hw : A.2.wd = 2) (hwB : B.2.wd = 1) (hA : (arr A).cap = kS) (hB : (arr B).cap = kS)
    (hM : kS ≤ M) :
    ∃ s', cmulEqV E (arr A) (arr B) s = .ok s' ∧ Did E arr [A] s s' ∧
      Rpg.cpx arr ek s'.mem A = fun κ =>
        Rpg.cpx arr ek s.mem A κ * (Rpg.rks arr ek s.mem B κ : ℂ) := by
  have hAB : A ≠ B := fun e => by rw [e] at hw; omega
  obtain ⟨s', r1, r2, r3⟩ := double hE hg (arr A).base kS [A]
    (fun b hb y hy x hx => L.ne (fun e => hb (by rw [e]; simp)) (by rw [hw, hA]; omega) hy)
    L.kS0 hM (fun i => [(arr B).base + i])
    (fun i hi x hx y hy => by
      rw [List.mem_singleton] at hx
      subst hx
      exact L.ne hAB (by rw [hw, hA]; omega) (by rw [hwB, hB]; omega)) (by simp) (bin (· * ·))
  refine ⟨s', ?_, r2, funext fun κ => ?_⟩
  · unfold cmulEqV
    simp only [hA, hB, ge_iff_le, le_refl, not_true, if_false] at r1 ⊢
    exact r1
  · have h := r3 (ek.symm κ) (ek.symm κ).2
    simp only [List.map_cons, List.map_nil, bin] at h
    unfold Rpg.cpx Rpg.rks
    rw [h.1, h.2]
    apply Complex.ext <;> simp

end Verif.Rpg
