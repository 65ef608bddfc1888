import Verif.Cuda.WaveListKernel
import Verif.Cuda.GpuLemmas
import Verif.Cuda.ConfigLemmas
import Verif.Crystal.MinImageProps
import Mathlib.Tactic.Linarith

/-!
# Lemmas about the kernels of `Prdc::Cuda::WaveList`
-/

set_option autoImplicit false
set_option linter.unusedSectionVars false

namespace Verif.Cuda.Wave

variable {K : Type} [Field K] [LinearOrder K] {D : Nat}

theorem lexSwap_eq : ∀ a b : List Int, lexSwap a b = Mesh.vecLt a b
  | [], _ => rfl
  | _ :: _, [] => rfl
  | a :: as, b :: bs => by simp only [lexSwap, Mesh.vecLt, lexSwap_eq as bs]

theorem lexSwap_ofFn (u v : Fin D → Int) :
    lexSwap (List.ofFn u) (List.ofFn v) = Crystal.ivLt u v := lexSwap_eq _ _

/-! ## One turn of the loop -/

/-- Memory after one turn in which all loads precede all stores. -/
def turn (eps : K) (N s : Nat) (act : Nat → Bool) (mem : Nat → Cand K D) (t : Nat) : Cand K D :=
  if act (t / N) && decide (t % N < s) then better eps (mem t) (mem (t + s)) else mem t

theorem phase_mem {eps : K} {N s : Nat} {act : Nat → Bool} {t : Nat} {i : Instr (Cand K D)}
    (h : i ∈ phase eps N s act t) : t % N < s ∧ i = redInstr (better eps) s t := by
  unfold phase at h
  split at h
  · rename_i hc
    simp only [Bool.and_eq_true, decide_eq_true_eq] at hc
    exact ⟨hc.2, by simpa using h⟩
  · simp at h

theorem phase_raceFree (eps : K) {N s : Nat} (hs : 2 * s ≤ N) (act : Nat → Bool) :
    RaceFree (phase (D := D) eps N s act) := by
  intro t u htu i hi j hj
  obtain ⟨h1, rfl⟩ := phase_mem hi
  obtain ⟨h2, rfl⟩ := phase_mem hj
  refine ⟨htu, ?_⟩
  simp only [redInstr, List.mem_cons, List.not_mem_nil, or_false, not_or]
  refine ⟨?_, htu⟩
  rintro rfl
  rw [Nat.add_mod, Nat.mod_eq_of_lt (show s < N by omega),
    Nat.mod_eq_of_lt (show u % N + s < N by omega)] at h1
  omega

/-- A turn that ends with a barrier has the same effect under every fair schedule. -/
theorem runAll_phase (eps : K) {N s : Nat} (hs : 2 * s ≤ N) (act : Nat → Bool) {sch : List Nat}
    (hf : Fair (phase (D := D) eps N s act) sch) (mem : Nat → Cand K D) :
    runAll (phase eps N s act) sch mem = turn eps N s act mem := by
  obtain ⟨h1, h2⟩ := race_free (phase_raceFree eps hs act) hf mem
  funext x
  by_cases hc : (act (x / N) && decide (x % N < s)) = true
  · have hp : phase eps N s act x = [redInstr (better (K := K) (D := D) eps) s x] := by
      simp only [phase, hc, if_true]
    rw [h1 x x (by rw [hp]; exact ⟨redInstr (better eps) s x, List.mem_singleton_self _, rfl⟩), hp, turn, if_pos hc]
    simp [exec, redInstr]
  · rw [turn, if_neg hc]
    refine h2 x ?_
    rintro t ⟨i, hi, he⟩
    have hm := hi
    obtain ⟨-, rfl⟩ := phase_mem hi
    simp only [redInstr] at he
    subst he
    simp only [phase, hc, if_false, List.not_mem_nil, Bool.false_eq_true] at hm

/-! ## The whole loop -/

/-- Tree of comparisons of `2^m` candidates. -/
def treeVal {α : Type} (op : α → α → α) : Nat → (Nat → α) → α
  | 0, f => f 0
  | m + 1, f => treeVal op m fun i => op (f i) (f (i + 2 ^ m))

theorem treeVal_congr {α : Type} (op : α → α → α) : ∀ (m : Nat) (f g : Nat → α),
    (∀ i < 2 ^ m, f i = g i) → treeVal op m f = treeVal op m g
  | 0, f, g, h => h 0 (by norm_num)
  | m + 1, f, g, h => by
    have e : 2 ^ (m + 1) = 2 ^ m + 2 ^ m := by ring
    refine treeVal_congr op m _ _ fun i hi => ?_
    rw [h i (by omega), h (i + 2 ^ m) (by omega)]

theorem fold_turn (eps : K) (M : Nat) (act : Nat → Bool) (w : Nat) (hw : act w = true) :
    ∀ (m : Nat), m ≤ M → ∀ mem : Nat → Cand K D,
      (treeStrides m).foldl (fun mem s => turn eps (2 ^ M) s act mem) mem (w * 2 ^ M) =
        treeVal (better eps) m fun i => mem (w * 2 ^ M + i)
  | 0, _, mem => by simp [treeStrides, treeVal]
  | m + 1, hm, mem => by
    have hlt : 2 ^ m < 2 ^ M := Nat.pow_lt_pow_right (by norm_num) (by omega)
    rw [treeStrides, List.foldl_cons, fold_turn eps M act w hw m (by omega), treeVal]
    refine treeVal_congr _ _ _ _ fun i hi => ?_
    have e1 : (w * 2 ^ M + i) / 2 ^ M = w := by
      rw [Nat.mul_comm, Nat.mul_add_div (by positivity), Nat.div_eq_of_lt (by omega)]; rfl
    have e2 : (w * 2 ^ M + i) % 2 ^ M = i := by
      rw [Nat.mul_comm, Nat.mul_add_mod, Nat.mod_eq_of_lt (by omega)]
    simp only [turn, e1, e2, hw, hi, decide_true, Bool.and_self, if_true, Nat.add_assoc]

theorem lockstep_eq (eps : K) (m : Nat) (act : Nat → Bool) (mem : Nat → Cand K D) (w : Nat)
    (hw : act w = true) : reduceLockstep eps m act mem (w * 2 ^ m) =
      treeVal (better eps) m fun i => mem (w * 2 ^ m + i) :=
  fold_turn eps m act w hw m le_rfl mem

theorem mem_treeStrides : ∀ {m s : Nat}, s ∈ treeStrides m → 2 * s ≤ 2 ^ m
  | m + 1, s, h => by
    have e : 2 ^ (m + 1) = 2 * 2 ^ m := by ring
    rcases List.mem_cons.mp h with rfl | h
    · omega
    · have := mem_treeStrides h; omega

theorem sync_eq_lockstep (eps : K) (m : Nat) (act : Nat → Bool) (sch : Nat → List Nat)
    (hf : ∀ s ∈ treeStrides m, Fair (phase (D := D) eps (2 ^ m) s act) (sch s))
    (mem : Nat → Cand K D) : reduceSync eps m act sch mem = reduceLockstep eps m act mem := by
  have key : ∀ (l : List Nat), (∀ s ∈ l, s ∈ treeStrides m) → ∀ mem : Nat → Cand K D,
      l.foldl (fun mem s => runAll (phase eps (2 ^ m) s act) (sch s) mem) mem =
        l.foldl (fun mem s => turn eps (2 ^ m) s act mem) mem := by
    intro l
    induction l with
    | nil => intro _ _; rfl
    | cons s l ih =>
      intro hl mem
      have hs := hl s (by simp)
      rw [List.foldl_cons, List.foldl_cons, runAll_phase eps (mem_treeStrides hs) act (hf s hs),
        ih fun x hx => hl x (by simp [hx])]
  exact key _ (fun _ h => h) mem

/-! ## The best candidate -/

theorem treeVal_mem {α : Type} {op : α → α → α} (hop : ∀ a b, op a b = a ∨ op a b = b) :
    ∀ (m : Nat) (f : Nat → α), ∃ i < 2 ^ m, treeVal op m f = f i
  | 0, f => ⟨0, by norm_num, rfl⟩
  | m + 1, f => by
    have e : 2 ^ (m + 1) = 2 ^ m + 2 ^ m := by ring
    obtain ⟨i, hi, h⟩ := treeVal_mem hop m fun i => op (f i) (f (i + 2 ^ m))
    rcases hop (f i) (f (i + 2 ^ m)) with h' | h'
    · exact ⟨i, by omega, by rw [treeVal, h, h']⟩
    · exact ⟨i + 2 ^ m, by omega, by rw [treeVal, h, h']⟩

/-- If `op` returns something related to both arguments, the tree is related to all candidates. -/
theorem treeVal_rel {α : Type} {op : α → α → α} {R : α → α → Prop} {P : α → Prop}
    (htr : ∀ a b c, P a → P b → P c → R a b → R b c → R a c) (hrf : ∀ a, P a → R a a)
    (hop : ∀ a b, P a → P b → P (op a b) ∧ R (op a b) a ∧ R (op a b) b) :
    ∀ (m : Nat) (f : Nat → α), (∀ i < 2 ^ m, P (f i)) →
      P (treeVal op m f) ∧ ∀ i < 2 ^ m, R (treeVal op m f) (f i)
  | 0, f, h => ⟨h 0 (by norm_num), fun i hi => by
      have : i = 0 := by simpa using hi
      subst this; exact hrf _ (h 0 (by norm_num))⟩
  | m + 1, f, h => by
    have e : 2 ^ (m + 1) = 2 ^ m + 2 ^ m := by ring
    have hg : ∀ i < 2 ^ m, P (op (f i) (f (i + 2 ^ m))) := fun i hi =>
      (hop _ _ (h i (by omega)) (h (i + 2 ^ m) (by omega))).1
    obtain ⟨h1, h2⟩ := treeVal_rel htr hrf hop m (fun i => op (f i) (f (i + 2 ^ m))) hg
    refine ⟨h1, fun i hi => ?_⟩
    rw [treeVal]
    by_cases hlt : i < 2 ^ m
    · exact htr _ _ _ h1 (hg i hlt) (h i hi) (h2 i hlt)
        (hop _ _ (h i hi) (h (i + 2 ^ m) (by omega))).2.1
    · obtain ⟨j, rfl⟩ : ∃ j, i = j + 2 ^ m := ⟨i - 2 ^ m, by omega⟩
      exact htr _ _ _ h1 (hg j (by omega)) (h _ hi) (h2 j (by omega))
        (hop _ _ (h j (by omega)) (h _ hi)).2.2

theorem better_mem (eps : K) (a b : Cand K D) : better eps a b = a ∨ better eps a b = b := by
  unfold better
  split_ifs <;> simp

variable [IsStrictOrderedRing K]

theorem better_le {eps : K} (he : 0 ≤ eps) (a b : Cand K D) :
    (better eps a b).1 ≤ a.1 + eps ∧ (better eps a b).1 ≤ b.1 + eps := by
  unfold better
  split_ifs with h1 h2 h3 <;> constructor <;> linarith

/-- Each of the `m` comparisons of a candidate raises the norm by at most `eps`. -/
theorem treeVal_le {eps : K} (he : 0 ≤ eps) : ∀ (m : Nat) (f : Nat → Cand K D), ∀ i < 2 ^ m,
    (treeVal (better eps) m f).1 ≤ (f i).1 + m * eps
  | 0, f, i, hi => by
    have : i = 0 := by simpa using hi
    subst this; simp [treeVal]
  | m + 1, f, i, hi => by
    have e : 2 ^ (m + 1) = 2 ^ m + 2 ^ m := by ring
    have ih := treeVal_le he m fun i => better eps (f i) (f (i + 2 ^ m))
    rw [treeVal]
    push_cast
    by_cases hlt : i < 2 ^ m
    · have := ih i hlt
      have := (better_le he (f i) (f (i + 2 ^ m))).1
      linarith
    · obtain ⟨j, rfl⟩ : ∃ j, i = j + 2 ^ m := ⟨i - 2 ^ m, by omega⟩
      have := ih j (by omega)
      have := (better_le he (f j) (f (j + 2 ^ m))).2
      linarith

/-- `a` is shorter than `b`, or as long and not smaller. -/
def Best (a b : Cand K D) : Prop := a.1 ≤ b.1 ∧ (a.1 = b.1 → Crystal.ivLt a.2 b.2 = false)

theorem ivLe_trans {u v w : Fin D → Int} (h : Crystal.ivLt u v = false)
    (h' : Crystal.ivLt v w = false) : Crystal.ivLt u w = false := by
  rcases Crystal.ivLt_total v u with h1 | rfl | h1
  · rcases Crystal.ivLt_total w v with h2 | rfl | h2
    · rcases Crystal.ivLt_total u w with h3 | rfl | h3
      · have := Crystal.ivLt_trans h3 (Crystal.ivLt_trans h2 h1)
        rw [Crystal.ivLt_irrefl] at this; simp at this
      · exact Crystal.ivLt_irrefl _
      · rcases hb : Crystal.ivLt u w with _ | _
        · rfl
        · have := Crystal.ivLt_trans hb h3
          rw [Crystal.ivLt_irrefl] at this; simp at this
    · exact h
    · rw [h'] at h2; simp at h2
  · exact h'
  · rw [h] at h1; simp at h1

theorem Best.trans {a b c : Cand K D} (h : Best a b) (h' : Best b c) : Best a c :=
  ⟨h.1.trans h'.1, fun e => ivLe_trans (h.2 (le_antisymm h.1 (e ▸ h'.1)))
    (h'.2 (le_antisymm h'.1 (e ▸ h.1)))⟩

theorem Best.refl (a : Cand K D) : Best a a := ⟨le_rfl, fun _ => Crystal.ivLt_irrefl _⟩

theorem Best.antisymm {a b : Cand K D} (h : Best a b) (h' : Best b a) : a = b := by
  have e := le_antisymm h.1 h'.1
  refine Prod.ext e ?_
  rcases Crystal.ivLt_total a.2 b.2 with h1 | h1 | h1
  · rw [h.2 e] at h1; simp at h1
  · exact h1
  · rw [h'.2 e.symm] at h1; simp at h1

theorem better_best {eps : K} (he : 0 < eps) {a b : Cand K D} (hab : a.1 < b.1 → a.1 + eps < b.1)
    (hba : b.1 < a.1 → b.1 + eps < a.1) : Best (better eps a b) a ∧ Best (better eps a b) b := by
  unfold better
  rw [lexSwap_ofFn]
  have asymm : ∀ {u v : Fin D → Int}, Crystal.ivLt u v = true → Crystal.ivLt v u = false := by
    intro u v h
    rcases hb : Crystal.ivLt v u with _ | _
    · rfl
    · have := Crystal.ivLt_trans h hb
      rw [Crystal.ivLt_irrefl] at this; simp at this
  split_ifs with h1 h2 h3
  · exact ⟨⟨by linarith, fun e => by exfalso; linarith⟩, .refl b⟩
  · have e : a.1 = b.1 := by
      rcases lt_trichotomy a.1 b.1 with h | h | h
      · have := hab h; linarith
      · exact h
      · have := hba h; linarith
    exact ⟨⟨e.symm.le, fun _ => asymm h3⟩, .refl b⟩
  · have e : a.1 = b.1 := by
      rcases lt_trichotomy a.1 b.1 with h | h | h
      · have := hab h; linarith
      · exact h
      · have := hba h; linarith
    exact ⟨.refl a, ⟨e.le, fun _ => by simpa using h3⟩⟩
  · exact ⟨.refl a, ⟨by linarith, fun e => by exfalso; linarith⟩⟩

/-- With separated norms the tree returns the shortest candidate, the greatest of several. -/
theorem treeVal_best {eps : K} (he : 0 < eps) (m : Nat) (f : Nat → Cand K D)
    (hsep : ∀ i < 2 ^ m, ∀ j < 2 ^ m, (f i).1 < (f j).1 → (f i).1 + eps < (f j).1) :
    ∀ i < 2 ^ m, Best (treeVal (better eps) m f) (f i) := by
  refine (treeVal_rel (op := better eps) (R := Best) (P := fun c => ∃ i < 2 ^ m, c = f i)
    (fun _ _ _ _ _ _ h h' => h.trans h') (fun a _ => .refl a) ?_ m f
    fun i hi => ⟨i, hi, rfl⟩).2
  rintro a b ⟨i, hi, rfl⟩ ⟨j, hj, rfl⟩
  refine ⟨?_, better_best he (hsep i hi j hj) (hsep j hj i hi)⟩
  rcases better_mem eps (f i) (f j) with h | h
  · exact ⟨i, hi, h⟩
  · exact ⟨j, hj, h⟩

/-! ## From the launch to the tree -/

omit [IsStrictOrderedRing K] in
theorem load_eq (kB : Fin D → Fin D → K) (d : Fin D → Int) (shift : Nat → Fin D → Int) {N T p : Nat}
    (hN : 0 < N) (hT : N ∣ T) (hT0 : 0 < T) (pos : List (Fin D → Int)) {v : Fin D → Int}
    (hp : pos[p]? = some v) :
    ∃ w, p * N - p * N / T * T = w * N ∧ onGrid pos.length N T (p * N / T) w = true ∧
      ∀ i < N, loadCand kB d shift N T pos (p * N / T) (w * N + i) =
        (gksq kB (Crystal.image v d (shift i)), Crystal.image v d (shift i)) := by
  obtain ⟨q, rfl⟩ := hT
  have hq : 0 < q := Nat.pos_of_mul_pos_left hT0
  have hb : p * N / (N * q) = p / q := by rw [Nat.mul_comm p N, Nat.mul_div_mul_left _ _ hN]
  have hdm := Nat.div_add_mod p q
  have hlen : p < pos.length := (List.getElem?_eq_some_iff.mp hp).1
  have hadd : p / q * (N * q) + p % q * N = p * N := by
    conv_rhs => rw [← hdm]
    ring
  refine ⟨p % q, by rw [hb]; omega, ?_, fun i hi => ?_⟩
  · have : p / q * q + p % q = p := by rw [Nat.mul_comm]; exact hdm
    simp [onGrid, hb, Nat.mul_div_cancel_left _ hN, Nat.mod_lt _ hq, this, hlen]
  · have e : p / q * (N * q) + (p % q * N + i) = N * p + i := by rw [← Nat.add_assoc, hadd, Nat.mul_comm]
    have e1 : (N * p + i) / N = p := by rw [Nat.mul_add_div hN, Nat.div_eq_of_lt hi]; rfl
    have e2 : (N * p + i) % N = i := by rw [Nat.mul_add_mod, Nat.mod_eq_of_lt hi]
    simp only [loadCand, hb, e, e1, e2, hp]

end Verif.Cuda.Wave
