import Verif.Cuda.VecOpLemmas
import Verif.Cuda.ReduceProps

/-!
# Property C96: elementwise operations on the GPU
-/

set_option autoImplicit false
set_option linter.unusedSectionVars false

namespace Verif.Cuda

variable {K : Type} [Inhabited K]

/-- C96: a grid-stride loop with independent iterations executes every index below `n` exactly once
on the initial memory and changes nothing else, for every positive number of threads and every
interleaving. -/
theorem C96_grid_stride (N n : Nat) (hN : 0 < N) (body : Nat → List (Instr K)) (h : Indep n body)
    (sch : List Nat) (hf : Fair (kernelProg N n body) sch) (m : Nat → K) :
    (∀ i < n, ∀ x, Writes (body i) x → runAll (kernelProg N n body) sch m x = exec (body i) m x) ∧
    ∀ x, (∀ i < n, ¬ Writes (body i) x) → runAll (kernelProg N n body) sch m x = m x :=
  kernel_elementwise hN h hf m

variable {d : Device} {cs : List TACall} {s s' : TA} {sch : List Nat} {mem mem' : Nat → K}

/-- C96 (unary operations on real arrays): if the ranges of the two arrays are equal or have no
element in common, the result is that of the operation on each element, for every interleaving, and
no other memory changes. -/
theorem C96_real_unary (f : K → K) (h : TA.start.calls d cs = .ok s) (A B : DArr) (bA bB n : Nat)
    (hn : 0 < n) (hs : ∀ t < n, 2 ≤ sch.count t)
    (hab : Apart 1 n (A.base + bA) (B.base + bB))
    (hr : unR f d s A B bA bB n sch mem = .ok (s', mem')) :
    n + bA ≤ A.cap ∧ n + bB ≤ B.cap ∧
    (∀ i < n, mem' (A.base + bA + i) = f (mem (B.base + bB + i))) ∧
    ∀ x, (∀ i < n, x ≠ A.base + bA + i) → mem' x = mem x := by
  unfold unR at hr
  split_ifs at hr with c1 c2
  generalize A.base + bA = a at *
  generalize B.base + bB = b at *
  have hi : Indep n (unBody f a b) := by
    intro i hi j hj hij p hp q hq
    simp only [unBody, List.mem_singleton] at hp hq
    subst hp hq
    simp only [List.mem_singleton]
    unfold Apart at hab
    omega
  obtain ⟨r1, r2⟩ := vec_elementwise h hi (c := 2) (fun i _ => by simp [unBody, cost]) hs hn hr
  refine ⟨c1, c2, fun i hi => ?_, fun x hx => r2 x fun i hi hw => ?_⟩
  · rw [r1 i hi _ ⟨⟨a + i, [b + i], un f⟩, by simp [unBody], rfl⟩]
    simp [unBody, exec, un]
  · obtain ⟨p, hp, e⟩ := hw
    simp only [unBody, List.mem_singleton] at hp
    subst hp
    exact hx i hi e.symm

/-- C96 (binary operations on real arrays): likewise with two source arrays. -/
theorem C96_real_binary (f : K → K → K) (h : TA.start.calls d cs = .ok s) (A B C : DArr)
    (bA bB bC n : Nat) (hn : 0 < n) (hs : ∀ t < n, 3 ≤ sch.count t)
    (hab : Apart 1 n (A.base + bA) (B.base + bB)) (hac : Apart 1 n (A.base + bA) (C.base + bC))
    (hr : binR f d s A B C bA bB bC n sch mem = .ok (s', mem')) :
    n + bA ≤ A.cap ∧ n + bB ≤ B.cap ∧ n + bC ≤ C.cap ∧
    (∀ i < n, mem' (A.base + bA + i) = f (mem (B.base + bB + i)) (mem (C.base + bC + i))) ∧
    ∀ x, (∀ i < n, x ≠ A.base + bA + i) → mem' x = mem x := by
  unfold binR at hr
  split_ifs at hr with c1 c2 c3
  generalize A.base + bA = a at *
  generalize B.base + bB = b at *
  generalize C.base + bC = c at *
  have hi : Indep n (binBody f a b c) := by
    intro i hi j hj hij p hp q hq
    simp only [binBody, List.mem_singleton] at hp hq
    subst hp hq
    simp only [List.mem_cons, List.not_mem_nil, or_false]
    unfold Apart at hab hac
    omega
  obtain ⟨r1, r2⟩ := vec_elementwise h hi (c := 3) (fun i _ => by simp [binBody, cost]) hs hn hr
  refine ⟨c1, c2, c3, fun i hi => ?_,
    fun x hx => r2 x fun i hi hw => ?_⟩
  · rw [r1 i hi _ ⟨⟨a + i, [b + i, c + i], bin f⟩, by simp [binBody], rfl⟩]
    simp [binBody, exec, bin]
  · obtain ⟨p, hp, e⟩ := hw
    simp only [binBody, List.mem_singleton] at hp
    subst hp
    exact hx i hi e.symm

/-- C96 (any number of source arrays): if every array is at least as long as the first source array
and no source overlaps the result with an offset, `addVMany` and `mulVMany` fold the elements. -/
theorem C96_many_partial (f : K → K → K) (h : TA.start.calls d cs = .ok s) (A B C D : DArr)
    (rest : List DArr) (hn : 0 < B.cap)
    (hs : ∀ t < B.cap, rest.length + 4 ≤ sch.count t)
    (hap : ∀ V ∈ B :: C :: D :: rest, Apart 1 B.cap A.base V.base)
    (hr : opVMany f d s A (B :: C :: D :: rest) sch mem = .ok (s', mem')) :
    (∀ i < B.cap, mem' (A.base + i) =
      ((C :: D :: rest).map fun V => mem (V.base + i)).foldl f (mem (B.base + i))) ∧
    ∀ x, (∀ i < B.cap, x ≠ A.base + i) → mem' x = mem x := by
  rw [opVMany] at hr
  have hi : Indep B.cap (manyBody f A.base ((B :: C :: D :: rest).map DArr.base)) := by
    intro i hi j hj hij p hp q hq
    simp only [manyBody, List.mem_singleton] at hp hq
    subst hp hq
    refine ⟨by simp only; omega, fun hm => ?_⟩
    simp only [List.map_map] at hm
    obtain ⟨V, hV, e⟩ := List.mem_map.1 hm
    have := hap V hV
    unfold Apart at this
    simp only [Function.comp] at e
    omega
  obtain ⟨r1, r2⟩ := vec_elementwise h hi (c := rest.length + 4)
    (fun i _ => by simp [manyBody, cost]) hs hn hr
  refine ⟨fun i hi => ?_, fun x hx => r2 x fun i hi hw => ?_⟩
  · rw [r1 i hi _ ⟨_, List.mem_singleton.2 rfl, rfl⟩]
    simp [manyBody, exec, foldV, List.map_map, Function.comp_def]
  · obtain ⟨p, hp, e⟩ := hw
    simp only [manyBody, List.mem_singleton] at hp
    subst hp
    exact hx i hi e.symm

/-- Body of an operation on one complex array, with functions for the real and imaginary parts. -/
def cUnBody (f g : K → K → K) (a b i : Nat) : List (Instr K) :=
  [⟨a + 2 * i, [b + 2 * i, b + 2 * i + 1], bin f⟩,
   ⟨a + 2 * i + 1, [b + 2 * i, b + 2 * i + 1], bin g⟩]

theorem cUn_apart (f g : K → K → K) (h : TA.start.calls d cs = .ok s) {a b n : Nat} (hn : 0 < n)
    (hs : ∀ t < n, 6 ≤ sch.count t) (hab : Apart 2 n a b)
    (hr : vecLaunch d s n (cUnBody f g a b) sch mem = .ok (s', mem')) :
    ∀ i < n, mem' (a + 2 * i) = f (mem (b + 2 * i)) (mem (b + 2 * i + 1)) ∧
      (Disj 2 n a b → mem' (a + 2 * i + 1) = g (mem (b + 2 * i)) (mem (b + 2 * i + 1))) ∧
      (a = b → mem' (a + 2 * i + 1) =
        g (f (mem (b + 2 * i)) (mem (b + 2 * i + 1))) (mem (b + 2 * i + 1))) := by
  have hI : Indep n (cUnBody f g a b) := by
    intro i hi j hj hij p hp q hq
    simp only [cUnBody, List.mem_cons, List.not_mem_nil, or_false] at hp hq
    have aa : Apart 2 n a a := .inl rfl
    rcases hp with rfl | rfl <;> rcases hq with rfl | rfl <;>
      simp only [List.mem_cons, List.not_mem_nil, or_false, not_or, ne_eq, Nat.add_assoc] <;>
      and_intros <;>
      first
      | exact aa.ne (by omega) (by omega) (by omega)
      | exact hab.ne (by omega) (by omega) (by omega)
  obtain ⟨r1, -⟩ := vec_elementwise h hI (c := 6) (fun i _ => by simp [cUnBody, cost]) hs hn hr
  intro i hi
  refine ⟨?_, fun hd => ?_, fun e => ?_⟩
  · rw [r1 i hi _ ⟨_, List.mem_cons_self, rfl⟩]
    simp [cUnBody, exec, bin]
  · rw [r1 i hi _ ⟨_, List.mem_cons_of_mem _ List.mem_cons_self, rfl⟩]
    simp only [cUnBody, exec, List.map_cons, List.map_nil, bin]
    unfold Disj at hd
    rw [Function.update_self, Function.update_of_ne (by omega : b + 2 * i ≠ a + 2 * i),
      Function.update_of_ne (by omega : b + 2 * i + 1 ≠ a + 2 * i)]
  · subst e
    rw [r1 i hi _ ⟨_, List.mem_cons_of_mem _ List.mem_cons_self, rfl⟩]
    simp only [cUnBody, exec, List.map_cons, List.map_nil, bin]
    rw [Function.update_self, Function.update_self,
      Function.update_of_ne (by omega : a + 2 * i + 1 ≠ a + 2 * i)]

section Complex

variable [CommRing K]

/-- C96 (complex `mulVV`; partial: the result must not overlap a source): the elements are complex
products, and no other memory changes. -/
theorem C96_complex_mul_partial (h : TA.start.calls d cs = .ok s) (A B C : DArr)
    (bA bB bC n : Nat) (hn : 0 < n) (hs : ∀ t < n, 10 ≤ sch.count t)
    (hab : Disj 2 n (A.base + 2 * bA) (B.base + 2 * bB))
    (hac : Disj 2 n (A.base + 2 * bA) (C.base + 2 * bC))
    (hr : mulVVc d s A B C bA bB bC n sch mem = .ok (s', mem')) :
    (∀ i < n, ∀ x y u v, x = mem (B.base + 2 * bB + 2 * i) → y = mem (B.base + 2 * bB + 2 * i + 1) →
      u = mem (C.base + 2 * bC + 2 * i) → v = mem (C.base + 2 * bC + 2 * i + 1) →
      mem' (A.base + 2 * bA + 2 * i) = x * u - y * v ∧
      mem' (A.base + 2 * bA + 2 * i + 1) = x * v + y * u) ∧
    ∀ x, (∀ i < n, x ≠ A.base + 2 * bA + 2 * i ∧ x ≠ A.base + 2 * bA + 2 * i + 1) →
      mem' x = mem x := by
  unfold mulVVc at hr
  split_ifs at hr with c1 c2 c3
  generalize A.base + 2 * bA = a at *
  generalize B.base + 2 * bB = b at *
  generalize C.base + 2 * bC = c at *
  unfold Disj at hab hac
  have hi : Indep n (mulBody (K := K) a b c) := by
    intro i hi j hj hij p hp q hq
    simp only [mulBody, List.mem_cons, List.not_mem_nil, or_false] at hp hq
    rcases hp with rfl | rfl <;> rcases hq with rfl | rfl <;>
      simp only [List.mem_cons, List.not_mem_nil, or_false] <;> omega
  obtain ⟨r1, r2⟩ := vec_elementwise h hi (c := 10) (fun i _ => by simp [mulBody, cost]) hs hn hr
  refine ⟨fun i hi x y u v hx hy hu hv => ?_, fun x hx => r2 x fun i hi hw => ?_⟩
  · subst hx hy hu hv
    constructor
    · rw [r1 i hi _ ⟨_, List.mem_cons_self, rfl⟩]
      simp [mulBody, exec, reMul]
    · rw [r1 i hi _ ⟨_, List.mem_cons_of_mem _ List.mem_cons_self, rfl⟩]
      simp only [mulBody, exec, List.map_cons, List.map_nil, imMul]
      rw [Function.update_self, Function.update_of_ne (by omega : b + 2 * i ≠ a + 2 * i),
        Function.update_of_ne (by omega : c + 2 * i + 1 ≠ a + 2 * i),
        Function.update_of_ne (by omega : b + 2 * i + 1 ≠ a + 2 * i),
        Function.update_of_ne (by omega : c + 2 * i ≠ a + 2 * i)]
  · obtain ⟨p, hp, e⟩ := hw
    have := hx i hi
    simp only [mulBody, List.mem_cons, List.not_mem_nil, or_false] at hp
    rcases hp with rfl | rfl
    · exact this.1 e.symm
    · exact this.2 e.symm

/-- C96 (complex `mulEqV`): the elements of the first array are multiplied by those of the second,
also if both are the same array. -/
theorem C96_complex_mulEq (tmp : Nat) (h : TA.start.calls d cs = .ok s) (A B : DArr)
    (bA bB n : Nat) (hn : 0 < n) (hs : ∀ t < n, 14 ≤ sch.count t)
    (hab : Apart 2 n (A.base + 2 * bA) (B.base + 2 * bB))
    (hta : Disj 2 n tmp (A.base + 2 * bA)) (htb : Disj 2 n tmp (B.base + 2 * bB))
    (hr : mulEqVc tmp d s A B bA bB n sch mem = .ok (s', mem')) :
    (∀ i < n, ∀ x y u v, x = mem (A.base + 2 * bA + 2 * i) → y = mem (A.base + 2 * bA + 2 * i + 1) →
      u = mem (B.base + 2 * bB + 2 * i) → v = mem (B.base + 2 * bB + 2 * i + 1) →
      mem' (A.base + 2 * bA + 2 * i) = x * u - y * v ∧
      mem' (A.base + 2 * bA + 2 * i + 1) = x * v + y * u) ∧
    ∀ x, (∀ i < n, x ≠ A.base + 2 * bA + 2 * i ∧ x ≠ A.base + 2 * bA + 2 * i + 1) →
      (x < tmp ∨ tmp + 2 * n ≤ x) → mem' x = mem x := by
  unfold mulEqVc at hr
  split_ifs at hr with c1 c2
  generalize A.base + 2 * bA = a at *
  generalize B.base + 2 * bB = b at *
  have hi : Indep n (mulEqBody (K := K) tmp a b) := by
    intro i hi j hj hij p hp q hq
    simp only [mulEqBody, List.mem_cons, List.not_mem_nil, or_false] at hp hq
    have tt : Apart 2 n tmp tmp := .inl rfl
    have aa : Apart 2 n a a := .inl rfl
    rcases hp with rfl | rfl | rfl | rfl <;> rcases hq with rfl | rfl | rfl | rfl <;>
      simp only [List.mem_cons, List.not_mem_nil, or_false, not_or, ne_eq, Nat.add_assoc] <;>
      and_intros <;>
      first
      | exact tt.ne (by omega) (by omega) (by omega)
      | exact hta.apart.ne (by omega) (by omega) (by omega)
      | exact htb.apart.ne (by omega) (by omega) (by omega)
      | exact hta.apart.symm.ne (by omega) (by omega) (by omega)
      | exact aa.ne (by omega) (by omega) (by omega)
      | exact hab.ne (by omega) (by omega) (by omega)
  obtain ⟨r1, r2⟩ := vec_elementwise h hi (c := 14) (fun i _ => by simp [mulEqBody, cost]) hs hn hr
  unfold Disj at hta htb
  refine ⟨fun i hi x y u v hx hy hu hv => ?_, fun x hx ht => r2 x fun i hi hw => ?_⟩
  · subst hx hy hu hv
    constructor
    · rw [r1 i hi _ ⟨⟨a + 2 * i, [tmp + 2 * i], un id⟩, by simp [mulEqBody], rfl⟩]
      simp only [mulEqBody, exec, List.map_cons, List.map_nil, imMul, reMul, un, id]
      rw [Function.update_of_ne (by omega : a + 2 * i ≠ a + 2 * i + 1), Function.update_self,
        Function.update_of_ne (by omega : tmp + 2 * i ≠ tmp + 2 * i + 1), Function.update_self]
    · rw [r1 i hi _ ⟨⟨a + 2 * i + 1, [tmp + 2 * i + 1], un id⟩, by simp [mulEqBody], rfl⟩]
      simp only [mulEqBody, exec, List.map_cons, List.map_nil, imMul, reMul, un, id]
      rw [Function.update_self,
        Function.update_of_ne (by omega : tmp + 2 * i + 1 ≠ a + 2 * i), Function.update_self,
        Function.update_of_ne (by omega : a + 2 * i ≠ tmp + 2 * i),
        Function.update_of_ne (by omega : b + 2 * i + 1 ≠ tmp + 2 * i),
        Function.update_of_ne (by omega : a + 2 * i + 1 ≠ tmp + 2 * i),
        Function.update_of_ne (by omega : b + 2 * i ≠ tmp + 2 * i)]
  · obtain ⟨p, hp, e⟩ := hw
    have := hx i hi
    simp only [mulEqBody, List.mem_cons, List.not_mem_nil, or_false] at hp
    rcases hp with rfl | rfl | rfl | rfl <;> simp only at e <;> omega

/-- C96 (`mulVVPair`, `mulEqVPair`): both products are computed if the two results are different
arrays and the first result is not the second factor. -/
theorem C96_pair (tmp : Nat) (h : TA.start.calls d cs = .ok s) (A1 A2 B1 B2 S : DArr)
    (hn : 0 < A1.cap) (hs : ∀ t < A1.cap, 8 ≤ sch.count t)
    (h12 : Disj 1 A1.cap A1.base A2.base) (h1b2 : Disj 1 A1.cap A1.base B2.base)
    (h1b1 : Apart 1 A1.cap A1.base B1.base) (h2b1 : Apart 1 A1.cap A2.base B1.base)
    (h2b2 : Apart 1 A1.cap A2.base B2.base) (h1s : Apart 1 A1.cap A1.base S.base)
    (h2s : Apart 1 A1.cap A2.base S.base)
    (ht : ∀ V ∈ [A1, A2, B1, B2, S], Disj 1 A1.cap tmp V.base)
    (hr : mulVVPair tmp d s A1 A2 B1 B2 S sch mem = .ok (s', mem')) :
    (A2.cap = A1.cap ∧ A1.cap ≤ B1.cap ∧ A1.cap ≤ B2.cap ∧ A1.cap ≤ S.cap) ∧ ∀ i < A1.cap, mem' (A1.base + i) = mem (B1.base + i) * mem (S.base + i) ∧
      mem' (A2.base + i) = mem (B2.base + i) * mem (S.base + i) := by
  unfold mulVVPair at hr
  split_ifs at hr with c1 c2 c3 c4
  refine ⟨⟨c1, c2, c3, c4⟩, ?_⟩
  have ta1 := ht A1 (by simp)
  have ta2 := ht A2 (by simp)
  have tb1 := ht B1 (by simp)
  have tb2 := ht B2 (by simp)
  have ts := ht S (by simp)
  generalize A1.cap = n at *
  generalize A1.base = a1 at *
  generalize A2.base = a2 at *
  generalize B1.base = b1 at *
  generalize B2.base = b2 at *
  generalize S.base = c at *
  have hi : Indep n (pairBody (K := K) tmp a1 a2 b1 b2 c) := by
    intro i hi j hj hij p hp q hq
    simp only [pairBody, List.mem_cons, List.not_mem_nil, or_false] at hp hq
    have hi' : i < 1 * n := by omega
    have hj' : j < 1 * n := by omega
    have r : ∀ x, Apart 1 n x x := fun _ => .inl rfl
    rcases hp with rfl | rfl | rfl <;> rcases hq with rfl | rfl | rfl <;>
      simp only [List.mem_cons, List.not_mem_nil, or_false, not_or, ne_eq] <;>
      and_intros <;>
      first
      | exact (r tmp).ne hi' hj' hij
      | exact (r a1).ne hi' hj' hij
      | exact (r a2).ne hi' hj' hij
      | exact ta1.apart.ne hi' hj' hij
      | exact ta2.apart.ne hi' hj' hij
      | exact tb1.apart.ne hi' hj' hij
      | exact tb2.apart.ne hi' hj' hij
      | exact ts.apart.ne hi' hj' hij
      | exact ta1.apart.symm.ne hi' hj' hij
      | exact ta2.apart.symm.ne hi' hj' hij
      | exact h12.apart.ne hi' hj' hij
      | exact h12.apart.symm.ne hi' hj' hij
      | exact h1b1.ne hi' hj' hij
      | exact h1b2.apart.ne hi' hj' hij
      | exact h1s.ne hi' hj' hij
      | exact h2b1.ne hi' hj' hij
      | exact h2b2.ne hi' hj' hij
      | exact h2s.ne hi' hj' hij
  obtain ⟨r1, -⟩ := vec_elementwise h hi (c := 8) (fun i _ => by simp [pairBody, cost]) hs hn hr
  intro i hi
  have hi' : i < 1 * n := by omega
  constructor
  · rw [r1 i hi _ ⟨⟨a1 + i, [b1 + i, tmp + i], bin (· * ·)⟩, by simp [pairBody], rfl⟩]
    simp only [pairBody, exec, List.map_cons, List.map_nil, un, bin, id]
    rw [Function.update_of_ne (h12.ne hi' hi'), Function.update_self,
      Function.update_of_ne (tb1.symm.ne hi' hi'), Function.update_self]
  · rw [r1 i hi _ ⟨⟨a2 + i, [b2 + i, tmp + i], bin (· * ·)⟩, by simp [pairBody], rfl⟩]
    simp only [pairBody, exec, List.map_cons, List.map_nil, un, bin, id]
    rw [Function.update_self, Function.update_of_ne (h1b2.symm.ne hi' hi'),
      Function.update_of_ne (tb2.symm.ne hi' hi'), Function.update_of_ne (ta1.ne hi' hi'),
      Function.update_self]

/-- C96 (complex `mulVS`; partial: correct if the arrays are different, but in place the imaginary
part is formed with the new real part). -/
theorem C96_complex_scalar_partial (u v : K) (h : TA.start.calls d cs = .ok s) (A B : DArr)
    (n : Nat) (hn : 0 < n) (hs : ∀ t < n, 6 ≤ sch.count t) (hab : Apart 2 n A.base B.base)
    (hr : mulVSc u v d s A B 0 0 n sch mem = .ok (s', mem')) :
    ∀ i < n, ∀ x y, x = mem (B.base + 2 * i) → y = mem (B.base + 2 * i + 1) →
      mem' (A.base + 2 * i) = x * u - y * v ∧
      (Disj 2 n A.base B.base → mem' (A.base + 2 * i + 1) = x * v + y * u) ∧
      (A.base = B.base → mem' (A.base + 2 * i + 1) = (x * u - y * v) * v + y * u) := by
  unfold mulVSc at hr
  split_ifs at hr
  intro i hi x y hx hy
  subst hx hy
  exact cUn_apart _ _ h hn hs hab hr i hi

/-- C96 (complex `expV`; partial in the same way): with `e`, `c`, `sn` for the exponential, cosine
and sine. -/
theorem C96_complex_exp_partial (e c sn : K → K) (h : TA.start.calls d cs = .ok s) (A B : DArr)
    (n : Nat) (hn : 0 < n) (hs : ∀ t < n, 6 ≤ sch.count t) (hab : Apart 2 n A.base B.base)
    (hr : expVcx e c sn d s A B 0 0 n sch mem = .ok (s', mem')) :
    ∀ i < n, ∀ x y, x = mem (B.base + 2 * i) → y = mem (B.base + 2 * i + 1) →
      mem' (A.base + 2 * i) = e x * c y ∧
      (Disj 2 n A.base B.base → mem' (A.base + 2 * i + 1) = e x * sn y) ∧
      (A.base = B.base → mem' (A.base + 2 * i + 1) = e (e x * c y) * sn y) := by
  unfold expVcx at hr
  split_ifs at hr
  intro i hi x y hx hy
  subst hx hy
  exact cUn_apart _ _ h hn hs hab hr i hi

/-- C96 (`sqNormV`). -/
theorem C96_sqNorm (h : TA.start.calls d cs = .ok s) (A B : DArr) (hn : 0 < A.cap)
    (hs : ∀ t < A.cap, 3 ≤ sch.count t)
    (hab : A.base + A.cap ≤ B.base ∨ B.base + 2 * A.cap ≤ A.base)
    (hr : sqNormV d s A B sch mem = .ok (s', mem')) :
    A.cap ≤ B.cap ∧ ∀ i < A.cap, mem' (A.base + i) = mem (B.base + 2 * i) ^ 2 + mem (B.base + 2 * i + 1) ^ 2 := by
  unfold sqNormV at hr
  split_ifs at hr with c1
  refine ⟨c1, ?_⟩
  generalize A.cap = n at *
  have hi : Indep n (sqNormBody (K := K) A.base B.base) := by
    intro i hi j hj hij p hp q hq
    simp only [sqNormBody, List.mem_singleton] at hp hq
    subst hp hq
    simp only [List.mem_cons, List.not_mem_nil, or_false]
    omega
  obtain ⟨r1, -⟩ := vec_elementwise h hi (c := 3) (fun i _ => by simp [sqNormBody, cost]) hs hn hr
  intro i hi
  rw [r1 i hi _ ⟨_, List.mem_singleton.2 rfl, rfl⟩]
  simp [sqNormBody, exec, bin, sq]

/-- Full claim for complex `mulVV`: the ranges may also be equal, as for the other operations. -/
def C96_statement (K : Type) [Inhabited K] [CommRing K] : Prop :=
  ∀ (d : Device) (cs : List TACall) (s s' : TA) (A B C : DArr) (n : Nat) (sch : List Nat)
    (mem mem' : Nat → K), TA.start.calls d cs = .ok s → 0 < n → (∀ t < n, 10 ≤ sch.count t) →
    Apart 2 n A.base B.base → Apart 2 n A.base C.base →
    mulVVc d s A B C 0 0 0 n sch mem = .ok (s', mem') →
    ∀ i < n, mem' (A.base + 2 * i + 1) =
      mem (B.base + 2 * i) * mem (C.base + 2 * i + 1) + mem (B.base + 2 * i + 1) * mem (C.base + 2 * i)

/-- C96: what complex `mulVV(a, a, c)` computes: the imaginary part is formed with the new real
part. -/
theorem C96_alias_result (h : TA.start.calls d cs = .ok s) (A C : DArr) (n : Nat) (hn : 0 < n)
    (hs : ∀ t < n, 10 ≤ sch.count t) (hac : Disj 2 n A.base C.base)
    (hr : mulVVc d s A A C 0 0 0 n sch mem = .ok (s', mem')) :
    ∀ i < n, ∀ x y u v, x = mem (A.base + 2 * i) → y = mem (A.base + 2 * i + 1) →
      u = mem (C.base + 2 * i) → v = mem (C.base + 2 * i + 1) →
      mem' (A.base + 2 * i + 1) = (x * u - y * v) * v + y * u := by
  unfold mulVVc at hr
  split_ifs at hr
  simp only [Nat.mul_zero, Nat.add_zero] at hr
  generalize A.base = a at *
  generalize C.base = c at *
  unfold Disj at hac
  have hi : Indep n (mulBody (K := K) a a c) := by
    intro i hi j hj hij p hp q hq
    simp only [mulBody, List.mem_cons, List.not_mem_nil, or_false] at hp hq
    rcases hp with rfl | rfl <;> rcases hq with rfl | rfl <;>
      simp only [List.mem_cons, List.not_mem_nil, or_false] <;> omega
  obtain ⟨r1, -⟩ := vec_elementwise h hi (c := 10) (fun i _ => by simp [mulBody, cost]) hs hn hr
  intro i hi x y u v hx hy hu hv
  subst hx hy hu hv
  rw [r1 i hi _ ⟨_, List.mem_cons_of_mem _ List.mem_cons_self, rfl⟩]
  simp only [mulBody, exec, List.map_cons, List.map_nil, imMul, reMul]
  rw [Function.update_self, Function.update_self,
    Function.update_of_ne (by omega : c + 2 * i + 1 ≠ a + 2 * i),
    Function.update_of_ne (by omega : a + 2 * i + 1 ≠ a + 2 * i),
    Function.update_of_ne (by omega : c + 2 * i ≠ a + 2 * i)]

end Complex

/-- A schedule in which each of the first `n` threads in turn makes `c` accesses. -/
def turns (c n : Nat) : List Nat := (List.range n).flatMap fun t => List.replicate c t

theorem turns_count {c n t : Nat} (ht : t < n) : c ≤ (turns c n).count t := by
  unfold turns
  induction n with
  | zero => omega
  | succ n ih =>
    rw [List.range_succ, List.flatMap_append, List.count_append]
    rcases Nat.lt_or_ge t n with h | h
    · exact (ih h).trans (Nat.le_add_right _ _)
    · have : t = n := by omega
      subst this
      simp [List.flatMap_cons]

/-- A launch with default configuration succeeds. -/
theorem launch_succeeds {d : Device} (hd : d.Ok) {n : Nat} (hn : 0 < n)
    (hle : n + 1024 ≤ 2147483648) (body : Nat → List (Instr K)) (sch : List Nat) (mem : Nat → K) :
    ∃ s' mem', vecLaunch d TA.start n body sch mem = .ok (s', mem') := by
  obtain ⟨s, h, -⟩ := C94_default_succeeds d hd n hn hle
  exact ⟨s, _, by rw [vecLaunch, h]; rfl⟩

/-- C96 is violated by complex `mulVV`, although its loads and stores are all within one thread:
`i * i`, computed in place, has imaginary part -1. -/
theorem C96_alias_violated : ¬ C96_statement ℤ := by
  intro H
  let mem : Nat → ℤ := fun x => if x = 1 ∨ x = 3 then 1 else 0
  have hc : ∀ t < 1, 10 ≤ (turns 10 1).count t := fun t ht => turns_count ht
  obtain ⟨s', mem', hr⟩ := launch_succeeds exDev_ok (n := 1) (by decide) (by decide)
    (mulBody 0 0 2) (turns 10 1) mem
  have hr2 : mulVVc exDev TA.start ⟨0, 1⟩ ⟨0, 1⟩ ⟨2, 1⟩ 0 0 0 1 (turns 10 1) mem = .ok (s', mem') := hr
  have h1 := H exDev [] TA.start s' ⟨0, 1⟩ ⟨0, 1⟩ ⟨2, 1⟩ 1 _ mem mem' rfl (by decide) hc
    (.inl rfl) (.inr (.inl (by decide))) hr2 0 (by decide)
  have h2 := C96_alias_result (cs := []) rfl ⟨0, 1⟩ ⟨2, 1⟩ 1 (by decide) hc (.inl (by decide)) hr2
    0 (by decide) _ _ _ _ rfl rfl rfl rfl
  rw [h2] at h1
  exact absurd h1 (by decide)

/-- C96: `eqV` from a range to the same range shifted by one element depends on the order in which
the threads run, for every number of threads above one. -/
theorem C96_overlap_violated (N : Nat) (hN : 2 ≤ N) :
    ∃ sch1 sch2 : List Nat, Fair (kernelProg N 2 (unBody (id : ℤ → ℤ) 1 0)) sch1 ∧
      Fair (kernelProg N 2 (unBody (id : ℤ → ℤ) 1 0)) sch2 ∧
      ∃ mem : Nat → ℤ, runAll (kernelProg N 2 (unBody id 1 0)) sch1 mem ≠
        runAll (kernelProg N 2 (unBody id 1 0)) sch2 mem := by
  have hp : kernelProg N 2 (unBody (id : ℤ → ℤ) 1 0) =
      fun t => if t < 2 then unBody id 1 0 t else [] := by
    funext t
    unfold kernelProg
    split_ifs with h1 h2 h2
    · rw [strideFrom, if_pos ⟨h2, by omega⟩, strideFrom, if_neg (by omega)]
      simp
    · rw [strideFrom, if_neg (by omega)]; rfl
    · omega
    · rfl
  have hf : ∀ sch : List Nat, 2 ≤ sch.count 0 → 2 ≤ sch.count 1 →
      Fair (kernelProg N 2 (unBody (id : ℤ → ℤ) 1 0)) sch := by
    intro sch h0 h1
    refine fair_of_count hN (c := 2) (fun i _ => by simp [unBody, cost]) fun t ht => ?_
    obtain rfl | rfl : t = 0 ∨ t = 1 := by omega
    · exact h0
    · exact h1
  refine ⟨[0, 0, 1, 1], [1, 1, 0, 0], hf _ (by decide) (by decide), hf _ (by decide) (by decide),
    fun x => x, fun e => ?_⟩
  have := congrFun e 2
  rw [hp] at this
  exact absurd this (by decide)

/-- C96: `addVMany` and `mulVMany` with three or more vectors write as many elements as the first
vector has, whatever the capacity of the result: beyond its end, if it is shorter. (With two
vectors, the number of elements is the capacity of the result.) -/
theorem C96_many_violated (f : K → K → K) (d : Device) (hd : d.Ok) (A B C D : DArr)
    (rest : List DArr) (hlt : A.cap < B.cap) (hle : B.cap + 1024 ≤ 2147483648) (mem : Nat → K)
    (hap : ∀ V ∈ B :: C :: D :: rest, Apart 1 B.cap A.base V.base) :
    ∃ sch s' mem', (∀ t < B.cap, rest.length + 4 ≤ sch.count t) ∧
      opVMany f d TA.start A (B :: C :: D :: rest) sch mem = .ok (s', mem') ∧
      mem' (A.base + A.cap) =
        ((C :: D :: rest).map fun V => mem (V.base + A.cap)).foldl f (mem (B.base + A.cap)) := by
  obtain ⟨s', mem', hr⟩ := launch_succeeds hd (by omega : 0 < B.cap) hle
    (manyBody f A.base ((B :: C :: D :: rest).map DArr.base)) (turns (rest.length + 4) B.cap) mem
  exact ⟨_, s', mem', fun t ht => turns_count ht, hr,
    (C96_many_partial f (cs := []) rfl A B C D rest (by omega) (fun t ht => turns_count ht) hap
      hr).1 A.cap hlt⟩

section Examples

/-- Addition in place of 1000 elements of two parts of one array. -/
example (mem : Nat → ℚ) : ∃ s' mem', binR (· + ·) exDev TA.start ⟨64, 3000⟩ ⟨64, 3000⟩ ⟨64, 3000⟩
    0 0 2000 1000 (turns 3 1000) mem = .ok (s', mem') ∧
    ∀ i < 1000, mem' (64 + i) = mem (64 + i) + mem (2064 + i) := by
  obtain ⟨s', mem', hr⟩ := launch_succeeds exDev_ok (n := 1000) (by decide) (by decide)
    (binBody (· + ·) 64 64 2064) (turns 3 1000) mem
  exact ⟨s', mem', hr, (C96_real_binary (· + ·) (cs := []) rfl ⟨64, 3000⟩ ⟨64, 3000⟩ ⟨64, 3000⟩
    0 0 2000 1000 (by decide) (fun t ht => turns_count ht) (.inl rfl) (.inr (.inl (by decide)))
    hr).2.2.2.1⟩

/-- In-place square of a complex array. -/
example (mem : Nat → ℚ) : ∃ s' mem', mulEqVc 0 exDev TA.start ⟨4, 2⟩ ⟨4, 2⟩ 0 0 2 (turns 14 2) mem =
    .ok (s', mem') ∧ mem' 6 = mem 6 * mem 6 - mem 7 * mem 7 ∧ mem' 7 = mem 6 * mem 7 + mem 7 * mem 6 := by
  obtain ⟨s', mem', hr⟩ := launch_succeeds exDev_ok (n := 2) (by decide) (by decide)
    (mulEqBody 0 4 4) (turns 14 2) mem
  have h := (C96_complex_mulEq 0 (cs := []) rfl ⟨4, 2⟩ ⟨4, 2⟩ 0 0 2 (by decide)
    (fun t ht => turns_count ht) (.inl rfl) (.inl (by decide)) (.inl (by decide)) hr).1 1 (by decide)
    _ _ _ _ rfl rfl rfl rfl
  exact ⟨s', mem', hr, h⟩

/-- Product of complex arrays of 100 elements. -/
example (mem : Nat → ℚ) : ∃ s' mem', mulVVc exDev TA.start ⟨0, 100⟩ ⟨200, 100⟩ ⟨200, 100⟩ 0 0 0 100
    (turns 10 100) mem = .ok (s', mem') ∧
    mem' (0 + 2 * 99 + 1) = mem (200 + 2 * 99) * mem (200 + 2 * 99 + 1) +
      mem (200 + 2 * 99 + 1) * mem (200 + 2 * 99) := by
  obtain ⟨s', mem', hr⟩ := launch_succeeds exDev_ok (n := 100) (by decide) (by decide)
    (mulBody 0 200 200) (turns 10 100) mem
  exact ⟨s', mem', hr, ((C96_complex_mul_partial (cs := []) rfl ⟨0, 100⟩ ⟨200, 100⟩ ⟨200, 100⟩ 0 0 0
    100 (by decide) (fun t ht => turns_count ht) (.inl (by decide)) (.inl (by decide)) hr).1 99
    (by decide) _ _ _ _ rfl rfl rfl rfl).2⟩

/-- Multiplication of `q` by two different factors, as in a propagator step. -/
example (mem : Nat → ℚ) : ∃ s' mem', mulVVPair 0 exDev TA.start ⟨10, 10⟩ ⟨20, 10⟩ ⟨30, 10⟩ ⟨40, 10⟩
    ⟨50, 10⟩ (turns 8 10) mem = .ok (s', mem') ∧ mem' (20 + 9) = mem (40 + 9) * mem (50 + 9) := by
  obtain ⟨s', mem', hr⟩ := launch_succeeds exDev_ok (n := 10) (by decide) (by decide)
    (pairBody 0 10 20 30 40 50) (turns 8 10) mem
  exact ⟨s', mem', hr, (C96_pair 0 (cs := []) rfl ⟨10, 10⟩ ⟨20, 10⟩ ⟨30, 10⟩ ⟨40, 10⟩ ⟨50, 10⟩
    (by decide) (fun t ht => turns_count ht) (.inl (by decide)) (.inl (by decide))
    (.inr (.inl (by decide))) (.inr (.inl (by decide))) (.inr (.inl (by decide)))
    (.inr (.inl (by decide))) (.inr (.inl (by decide)))
    (by simp [Disj]) hr).2 9 (by decide) |>.2⟩

/-- Complex `mulVS` in place with the factor `i`. -/
example (mem : Nat → ℚ) : ∃ s' mem', mulVSc 0 1 exDev TA.start ⟨0, 5⟩ ⟨0, 5⟩ 0 0 5 (turns 6 5) mem =
    .ok (s', mem') ∧ mem' (0 + 2 * 4) = mem (0 + 2 * 4) * 0 - mem (0 + 2 * 4 + 1) * 1 := by
  obtain ⟨s', mem', hr⟩ := launch_succeeds exDev_ok (n := 5) (by decide) (by decide)
    (mulSBody 0 1 0 0) (turns 6 5) mem
  exact ⟨s', mem', hr, (C96_complex_scalar_partial 0 1 (cs := []) rfl ⟨0, 5⟩ ⟨0, 5⟩ 5 (by decide)
    (fun t ht => turns_count ht) (.inl rfl) hr 4 (by decide) _ _ rfl rfl).1⟩

end Examples

end Verif.Cuda
