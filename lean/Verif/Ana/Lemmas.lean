import Verif.Ana.Model
import Verif.Tac
import Mathlib.Algebra.BigOperators.Intervals
import Mathlib.Algebra.BigOperators.Module

/-!
# Lemmas about repeated simulations and block averages
-/

set_option autoImplicit false
set_option linter.unusedSectionVars false

namespace Verif.Ana

open Finset

theorem bind_ok_iff {α β : Type} {x : Res α} {f : α → Res β} {b : β} :
    x.bind f = .ok b ↔ ∃ a, x = .ok a ∧ f a = .ok b := by
  cases x <;> simp [Res.bind]

/-! ## Loops over components -/

theorem loop_cons_ok {α : Type} (f : Nat → α → Res α) (i : Nat) (c : α) (cs r : List α) :
    loop f i (c :: cs) = .ok r ↔
      ∃ c' cs', f i c = .ok c' ∧ loop f (i + 1) cs = .ok cs' ∧ r = c' :: cs' := by
  constructor
  · intro h
    obtain ⟨c', hc, h⟩ := bind_ok_iff.mp h
    obtain ⟨cs', hcs, h⟩ := bind_ok_iff.mp h
    injection h with h
    exact ⟨c', cs', hc, hcs, h.symm⟩
  · rintro ⟨c', cs', hc, hcs, rfl⟩
    unfold loop
    rw [hc]
    show (loop f (i + 1) cs).bind _ = _
    rw [hcs]
    rfl

theorem loop_comp {α : Type} (f g : Nat → α → Res α) (cs r : List α) (i : Nat) :
    (loop f i cs).bind (loop g i) = .ok r ↔ loop (fun j c => (f j c).bind (g j)) i cs = .ok r := by
  induction cs generalizing i r with
  | nil => simp [loop, Res.bind]
  | cons c cs ih =>
    rw [bind_ok_iff, loop_cons_ok]
    constructor
    · rintro ⟨a, h1, h2⟩
      obtain ⟨c', cs', hc, hcs, rfl⟩ := (loop_cons_ok f i c cs a).mp h1
      obtain ⟨c2, cs2, hc2, hcs2, rfl⟩ := (loop_cons_ok g i c' cs' r).mp h2
      refine ⟨c2, cs2, ?_, (ih cs2 (i + 1)).mp ?_, rfl⟩
      · rw [hc]; exact hc2
      · rw [hcs]; exact hcs2
    · rintro ⟨c2, cs2, hc, hcs, rfl⟩
      obtain ⟨c', hc1, hc2⟩ := bind_ok_iff.mp hc
      obtain ⟨cs', h1, h2⟩ := bind_ok_iff.mp ((ih cs2 (i + 1)).mpr hcs)
      exact ⟨c' :: cs', (loop_cons_ok _ _ _ _ _).mpr ⟨c', cs', hc1, h1, rfl⟩,
        (loop_cons_ok _ _ _ _ _).mpr ⟨c2, cs2, hc2, h2, rfl⟩⟩

theorem loop_ok_id {α : Type} (cs : List α) (i : Nat) : loop (fun _ c => .ok c) i cs = .ok cs := by
  induction cs generalizing i with
  | nil => rfl
  | cons c cs ih => exact (loop_cons_ok _ _ _ _ _).mpr ⟨c, cs, rfl, ih _, rfl⟩

theorem loop_ok_map {α : Type} (g : α → α) (cs : List α) (i : Nat) :
    loop (fun _ c => .ok (g c)) i cs = .ok (cs.map g) := by
  induction cs generalizing i with
  | nil => rfl
  | cons c cs ih => exact (loop_cons_ok _ _ _ _ _).mpr ⟨g c, cs.map g, rfl, ih _, rfl⟩

theorem loop_congr {α : Type} (f g : Nat → α → Res α) (h : ∀ j c, f j c = g j c) (cs : List α) (i : Nat) :
    loop f i cs = loop g i cs := by
  have : f = g := by funext j c; exact h j c
  rw [this]

/-- Result of a loop, component by component. -/
theorem loop_get {α : Type} (f : Nat → α → Res α) (cs r : List α) (i : Nat) :
    loop f i cs = .ok r ↔ r.length = cs.length ∧
      ∀ (j : Nat) (h : j < cs.length) (h' : j < r.length), f (i + j) cs[j] = .ok r[j] := by
  induction cs generalizing i r with
  | nil =>
    constructor
    · intro h
      injection h with h
      subst h
      exact ⟨rfl, fun j h => absurd h (Nat.not_lt_zero j)⟩
    · rintro ⟨h, -⟩
      rw [List.eq_nil_of_length_eq_zero h]
      rfl
  | cons c cs ih =>
    rw [loop_cons_ok]
    constructor
    · rintro ⟨c', cs', hc, hcs, rfl⟩
      obtain ⟨hl, h⟩ := (ih cs' (i + 1)).mp hcs
      refine ⟨by simp [hl], ?_⟩
      intro j hj hj'
      cases j with
      | zero => exact hc
      | succ j =>
        have := h j (by simpa using hj) (by simpa using hj')
        simp only [List.getElem_cons_succ]
        rw [← this]
        congr 1
        omega
    · rintro ⟨hl, h⟩
      cases r with
      | nil => simp at hl
      | cons c' cs' =>
        refine ⟨c', cs', h 0 (by simp) (by simp), (ih cs' (i + 1)).mpr ⟨by simpa using hl, ?_⟩, rfl⟩
        intro j hj hj'
        have := h (j + 1) (by simpa using hj) (by simpa using hj')
        simp only [List.getElem_cons_succ] at this
        rw [← this]
        congr 1
        omega

theorem loop_ne_ub {α : Type} (f : Nat → α → Res α) (hf : ∀ j c, f j c ≠ .ub) (cs : List α) (i : Nat) :
    loop f i cs ≠ .ub := by
  induction cs generalizing i with
  | nil => simp [loop]
  | cons c cs ih =>
    unfold loop
    have h1 := hf i c
    have h2 := ih (i + 1)
    cases h : f i c <;> cases h' : loop f (i + 1) cs <;> simp_all [Res.bind]

variable {K V : Type} [Field K] [AddCommGroup V] [Module K V]

/-! ## One component -/

/-- Samples of component `j`. -/
def proj (j : Nat) (r : Run V) : List (Int × V) := r.map fun x => (x.1, x.2 j)

/-- Samples of one component. -/
def sampleSeq (K : Type) {V : Type} [Field K] [AddCommGroup V] [Module K V] :
    List (Int × V) → Comp V → Res (Comp V)
  | [], c => .ok c
  | x :: t, c => (c.sample K x.1 x.2).bind (sampleSeq K t)

/-- One command, for one component. -/
def one (K : Type) {V : Type} [Field K] [AddCommGroup V] [Module K V] (l : List (Int × V)) (c : Comp V) :
    Res (Comp V) :=
  (c.setup.bind (sampleSeq K l)).bind fun c => .ok (c.output K)

/-- A session, for one component. -/
def oneSession (K : Type) {V : Type} [Field K] [AddCommGroup V] [Module K V] :
    List (List (Int × V)) → Comp V → Res (Comp V)
  | [], c => .ok c
  | l :: ls, c => (one K l c).bind (oneSession K ls)

theorem samples_ok (r : Run V) (cs cs' : List (Comp V)) :
    samples K r cs = .ok cs' ↔ loop (fun j => sampleSeq K (proj j r)) 0 cs = .ok cs' := by
  induction r generalizing cs with
  | nil =>
    show Res.ok cs = _ ↔ loop (fun _ c => .ok c) 0 cs = _
    rw [loop_ok_id]
  | cons x t ih =>
    obtain ⟨i, v⟩ := x
    show (loop _ 0 cs).bind (samples K t) = _ ↔
      loop (fun j c => (c.sample K i (v j)).bind (sampleSeq K (proj j t))) 0 cs = _
    rw [← loop_comp, bind_ok_iff, bind_ok_iff]
    exact exists_congr fun a => and_congr_right fun _ => ih a

theorem command_ok (r : Run V) (cs cs' : List (Comp V)) :
    command K r cs = .ok cs' ↔ loop (fun j => one K (proj j r)) 0 cs = .ok cs' := by
  show (loop (fun _ => Comp.setup) 0 cs).bind _ = _ ↔
    loop (fun j c => (c.setup.bind (sampleSeq K (proj j r))).bind fun c => .ok (c.output K)) 0 cs = _
  rw [← loop_comp (α := Comp V) (fun j c => c.setup.bind (sampleSeq K (proj j r))) (fun _ c => .ok (c.output K))]
  rw [bind_ok_iff, bind_ok_iff]
  constructor
  · rintro ⟨a, ha, h⟩
    obtain ⟨b, hb, h⟩ := bind_ok_iff.mp h
    refine ⟨b, (loop_comp _ _ _ _ _).mp (bind_ok_iff.mpr ⟨a, ha, (samples_ok r a b).mp hb⟩), ?_⟩
    rw [loop_ok_map]
    exact h
  · rintro ⟨b, hb, h⟩
    obtain ⟨a, ha, hb⟩ := bind_ok_iff.mp ((loop_comp _ _ _ _ _).mpr hb)
    refine ⟨a, ha, bind_ok_iff.mpr ⟨b, (samples_ok r a b).mpr hb, ?_⟩⟩
    rw [loop_ok_map] at h
    exact h

theorem session_ok (rs : List (Run V)) (cs cs' : List (Comp V)) :
    session K rs cs = .ok cs' ↔ loop (fun j => oneSession K (rs.map (proj j))) 0 cs = .ok cs' := by
  induction rs generalizing cs with
  | nil =>
    show Res.ok cs = _ ↔ loop (fun _ c => .ok c) 0 cs = _
    rw [loop_ok_id]
  | cons r rs ih =>
    show (command K r cs).bind (session K rs) = _ ↔
      loop (fun j c => (one K (proj j r) c).bind (oneSession K (rs.map (proj j)))) 0 cs = _
    rw [← loop_comp, bind_ok_iff, bind_ok_iff]
    exact exists_congr fun a => and_congr (command_ok r cs a) (ih a)

/-! ## Failures are exceptions -/

theorem setup_ne_ub (c : Comp V) : c.setup ≠ .ub := by
  cases c with
  | part gpu k b =>
    unfold Comp.setup
    cases h : k.alloc gpu <;> cases b <;> simp [h, allocate, Res.bind]
  | avg a => simp [Comp.setup]
  | writer w => simp [Comp.setup]

theorem sample_ne_ub (i : Int) (v : V) (c : Comp V) : c.sample K i v ≠ .ub := by
  cases c with
  | part gpu k b => simp [Comp.sample]
  | avg a =>
    unfold Comp.sample Avg.sample Avg.outputValue
    dsimp only
    split_ifs <;> simp [Res.bind]
  | writer w => simp [Comp.sample]

theorem bind_ne_ub {α β : Type} {x : Res α} {f : α → Res β} (hx : x ≠ .ub) (hf : ∀ a, f a ≠ .ub) :
    x.bind f ≠ .ub := by
  cases x with
  | ok a => exact hf a
  | throw => simp [Res.bind]
  | ub => exact absurd rfl hx

theorem samples_ne_ub (r : Run V) (cs : List (Comp V)) : samples K r cs ≠ .ub := by
  induction r generalizing cs with
  | nil => simp [samples]
  | cons x t ih => exact bind_ne_ub (loop_ne_ub _ (fun j c => sample_ne_ub _ _ c) _ _) ih

theorem session_ne_ub (rs : List (Run V)) (cs : List (Comp V)) : session K rs cs ≠ .ub := by
  induction rs generalizing cs with
  | nil => simp [session]
  | cons r rs ih =>
    refine bind_ne_ub (bind_ne_ub (loop_ne_ub _ (fun j c => setup_ne_ub c) _ _) ?_) ih
    intro a
    exact bind_ne_ub (samples_ne_ub r a) (by simp)

theorem session_throw (rs : List (Run V)) (cs : List (Comp V)) (h : ∀ cs', session K rs cs ≠ .ok cs') :
    session K rs cs = .throw := by
  cases hs : session K rs cs with
  | ok a => exact absurd hs (h a)
  | throw => rfl
  | ub => exact absurd hs (session_ne_ub rs cs)

/-! ## Samples of an average analyzer -/

/-- Samples of an average analyzer. -/
def avgSeq (K : Type) {V : Type} [Field K] [AddCommGroup V] [Module K V] :
    List (Int × V) → Avg V → Res (Avg V)
  | [], a => .ok a
  | x :: t, a => (a.sample K x.1 x.2).bind (avgSeq K t)

theorem sampleSeq_avg (l : List (Int × V)) (a : Avg V) :
    sampleSeq K l (.avg a) = (avgSeq K l a).bind fun a => .ok (.avg a) := by
  induction l generalizing a with
  | nil => rfl
  | cons x t ih =>
    unfold sampleSeq avgSeq Comp.sample
    dsimp only
    cases h : a.sample K x.1 x.2 with
    | ok b => exact ih b
    | throw => rfl
    | ub => rfl

theorem avg_interval {a b : Avg V} {i : Int} {v : V} (h : a.sample K i v = .ok b) :
    b.interval = a.interval := by
  unfold Avg.sample Avg.outputValue at h
  dsimp only at h
  split_ifs at h <;> (injection h with h; subst h; rfl)

/-- Samples at the steps of the analyzer. -/
def kept (interval : Int) (l : List (Int × V)) : List (Int × V) := l.filter fun x => x.1 % interval = 0

theorem avgSeq_kept (l : List (Int × V)) (a : Avg V) : avgSeq K l a = avgSeq K (kept a.interval l) a := by
  induction l generalizing a with
  | nil => rfl
  | cons x t ih =>
    unfold kept
    by_cases hx : x.1 % a.interval = 0
    · rw [List.filter_cons_of_pos (by simpa using hx)]
      unfold avgSeq
      cases h : a.sample K x.1 x.2 with
      | ok b =>
        show avgSeq K t b = avgSeq K _ b
        rw [ih b, avg_interval h]
        rfl
      | throw => rfl
      | ub => rfl
    · rw [List.filter_cons_of_neg (by simpa using hx)]
      show (a.sample K x.1 x.2).bind (avgSeq K t) = _
      unfold Avg.sample
      rw [if_pos hx]
      exact ih a

theorem avgSeq_append (l l' : List (Int × V)) (a : Avg V) :
    avgSeq K (l ++ l') a = (avgSeq K l a).bind (avgSeq K l') := by
  induction l generalizing a with
  | nil => rfl
  | cons x t ih =>
    rw [List.cons_append]
    unfold avgSeq
    cases a.sample K x.1 x.2 with
    | ok b => exact ih b
    | throw => rfl
    | ub => rfl

/-- Accumulator after `m` samples, with blocks of `nb`. -/
def accAt (nb : Nat) (v : Nat → V) (m : Nat) : Accum V :=
  ⟨m, ∑ k ∈ range m, v k, if m = 0 then 0 else (m - 1) % nb + 1, ∑ k ∈ Ico ((m - 1) / nb * nb) m, v k⟩

theorem pred_div_mod (nb m : Nat) (h : 0 < nb) (hm : 0 < m) :
    ((m - 1) % nb + 1 = nb ∧ m % nb = 0 ∧ m / nb = (m - 1) / nb + 1) ∨
    ((m - 1) % nb + 1 < nb ∧ m % nb = (m - 1) % nb + 1 ∧ m / nb = (m - 1) / nb) := by
  have h1 := Nat.div_add_mod (m - 1) nb
  have h2 := Nat.mod_lt (m - 1) h
  generalize (m - 1) / nb = q at *
  generalize (m - 1) % nb = s at *
  have e : m = nb * q + s + 1 := by omega
  by_cases hs : s + 1 = nb
  · left
    have e2 : m = nb * (q + 1) := by rw [e, Nat.mul_add, Nat.mul_one]; omega
    refine ⟨hs, ?_, ?_⟩
    · rw [e2]; exact Nat.mul_mod_right nb (q + 1)
    · rw [e2]; exact Nat.mul_div_cancel_left _ h
  · right
    have hlt : s + 1 < nb := by omega
    refine ⟨hlt, ?_, ?_⟩
    · rw [e, Nat.add_assoc, Nat.mul_add_mod, Nat.mod_eq_of_lt hlt]
    · rw [e, Nat.add_assoc, Nat.mul_add_div h, Nat.div_eq_of_lt hlt, Nat.add_zero]

theorem accAt_succ (nb : Nat) (h : 0 < nb) (v : Nat → V) (m : Nat) :
    (accAt nb v m).sample nb (v m) = accAt nb v (m + 1) := by
  unfold Accum.sample accAt
  rw [if_neg (by omega)]
  dsimp only
  rw [sum_range_succ, if_neg (Nat.succ_ne_zero m)]
  simp only [Nat.add_sub_cancel]
  by_cases hm : m = 0
  · subst hm
    rw [if_pos rfl, if_neg (by omega)]
    simp
  · rw [if_neg hm]
    rcases pred_div_mod nb m h (by omega) with ⟨h1, h2, h3⟩ | ⟨h1, h2, h3⟩
    · rw [if_pos h1, h2]
      have : m / nb * nb = m := by
        have := Nat.div_add_mod m nb
        rw [h2, Nat.mul_comm] at this
        omega
      rw [this]
      simp
    · rw [if_neg (by omega), h2, h3]
      congr 1
      rw [sum_Ico_succ_top]
      have h4 := Nat.div_mul_le_self (m - 1) nb
      omega

/-- Line number `b` of the data file. -/
def blockLine (K : Type) {V : Type} [Field K] [AddCommGroup V] [Module K V] (nb : Nat) (interval : Int)
    (u : Nat → Int × V) (b : Nat) : Int × V :=
  ((u (b * nb + (nb - 1))).1 - ((nb : Int) - 1) * interval,
    (nb : K)⁻¹ • ∑ i ∈ range nb, (u (b * nb + i)).2)

theorem complete_iff (nb : Nat) (_h : 0 < nb) (v : Nat → V) (m : Nat) :
    (accAt nb v (m + 1)).isBlockComplete nb = true ↔ m % nb + 1 = nb := by
  unfold Accum.isBlockComplete accAt
  simp

theorem blockAverage_eq (nb : Nat) (_h : 0 < nb) (v : Nat → V) (m : Nat) (hm : m % nb + 1 = nb) :
    (accAt nb v (m + 1)).blockAverage K = (nb : K)⁻¹ • ∑ i ∈ range nb, v (m / nb * nb + i) := by
  unfold Accum.blockAverage accAt
  dsimp only
  rw [if_neg (Nat.succ_ne_zero m)]
  simp only [Nat.add_sub_cancel]
  rw [hm]
  congr 1
  have h1 := Nat.div_add_mod m nb
  have : m + 1 = m / nb * nb + nb := by rw [Nat.mul_comm]; omega
  conv_lhs => rw [this]
  rw [sum_Ico_eq_sum_range]
  simp

/-- All samples of an analyzer with an open data file, or without check. -/
theorem avgSeq_blocks (nb : Nat) (h : 0 < nb) (u : Nat → Int × V) (a : Avg V) (hnb : a.nb = nb)
    (hacc : a.acc = Accum.clear) (ho : a.isOpen = true ∨ a.strict = false) (m : Nat)
    (hu : ∀ k < m, (u k).1 % a.interval = 0) :
    avgSeq K ((List.range m).map u) a = .ok { a with
      acc := accAt nb (fun k => (u k).2) m
      dat := a.dat ++ if a.isOpen then (List.range (m / nb)).map (blockLine K nb a.interval u) else [] } := by
  induction m with
  | zero =>
    show Res.ok a = _
    have : accAt nb (fun k => (u k).2) 0 = Accum.clear := by simp [accAt, Accum.clear]
    rw [this, Nat.zero_div]
    cases a
    dsimp only at hacc
    subst hacc
    simp
  | succ m ih =>
    rw [List.range_succ, List.map_append, avgSeq_append, ih fun k hk => hu k (by omega)]
    show (Avg.sample K _ (u m).1 (u m).2).bind (avgSeq K []) = _
    unfold Avg.sample
    dsimp only
    rw [if_neg (by simpa using hu m (by omega)), hnb, if_pos h, accAt_succ nb h (fun k => (u k).2)]
    rcases pred_div_mod nb (m + 1) h (by omega) with ⟨h1, h2, h3⟩ | ⟨h1, h2, h3⟩
    all_goals simp only [Nat.add_sub_cancel] at h1 h2 h3
    · rw [if_pos ((complete_iff nb h _ m).mpr h1), blockAverage_eq nb h _ m h1]
      unfold Avg.outputValue
      dsimp only
      have hm : m = m / nb * nb + (nb - 1) := by
        have := Nat.div_add_mod m nb
        rw [Nat.mul_comm] at this
        omega
      cases hop : a.isOpen with
      | true =>
        rw [if_pos rfl]
        show Res.ok _ = _
        rw [if_pos rfl, if_pos rfl, h3, List.range_succ, List.map_append, List.append_assoc]
        have : blockLine K nb a.interval u (m / nb) = ((u m).1 - ((nb : Int) - 1) * a.interval,
            (nb : K)⁻¹ • ∑ i ∈ range nb, (u (m / nb * nb + i)).2) := by
          unfold blockLine
          rw [← hm]
        simp only [List.map_cons, List.map_nil, this]
      | false =>
        have hs : a.strict = false := by
          rcases ho with ho | ho
          · rw [hop] at ho; cases ho
          · exact ho
        rw [if_neg (by simp), hs, if_neg (by simp)]
        simp [Res.bind, avgSeq]
    · have hc : (accAt nb (fun k => (u k).2) (m + 1)).isBlockComplete nb = false := by
        rw [Bool.eq_false_iff]
        intro h'
        have := (complete_iff nb h _ m).mp h'
        omega
      rw [hc, if_neg (by simp), h3]
      simp [Res.bind, avgSeq]

/-- Samples of a strict analyzer with a closed data file. -/
theorem avgSeq_closed (nb : Nat) (h : 0 < nb) (u : Nat → Int × V) (a : Avg V) (hnb : a.nb = nb)
    (hacc : a.acc = Accum.clear) (ho : a.isOpen = false) (hs : a.strict = true) (m : Nat)
    (hu : ∀ k < m, (u k).1 % a.interval = 0) :
    avgSeq K ((List.range m).map u) a =
      if m < nb then .ok { a with acc := accAt nb (fun k => (u k).2) m } else .throw := by
  induction m with
  | zero =>
    show Res.ok a = _
    have : accAt nb (fun k => (u k).2) 0 = Accum.clear := by simp [accAt, Accum.clear]
    rw [if_pos h, this]
    cases a
    dsimp only at hacc
    subst hacc
    rfl
  | succ m ih =>
    rw [List.range_succ, List.map_append, avgSeq_append, ih fun k hk => hu k (by omega)]
    by_cases hm : m < nb
    · rw [if_pos hm]
      show (Avg.sample K _ (u m).1 (u m).2).bind (avgSeq K []) = _
      unfold Avg.sample
      dsimp only
      rw [if_neg (by simpa using hu m (by omega)), hnb, if_pos h, accAt_succ nb h (fun k => (u k).2)]
      have hmod : m % nb = m := Nat.mod_eq_of_lt hm
      by_cases hm1 : m + 1 < nb
      · have hc : (accAt nb (fun k => (u k).2) (m + 1)).isBlockComplete nb = false := by
          rw [Bool.eq_false_iff]
          intro h'
          have := (complete_iff nb h _ m).mp h'
          omega
        rw [hc, if_neg (by simp), if_pos hm1]
        rfl
      · rw [if_pos ((complete_iff nb h _ m).mpr (by omega)), if_neg hm1]
        unfold Avg.outputValue
        dsimp only
        rw [ho, hs]
        rfl
    · rw [if_neg hm, if_neg (by omega)]
      rfl

/-- Samples of an analyzer without block averages. -/
theorem avgSeq_zero (u : Nat → Int × V) (a : Avg V) (hnb : a.nb = 0) (hacc : a.acc = Accum.clear) (m : Nat)
    (hu : ∀ k < m, (u k).1 % a.interval = 0) :
    avgSeq K ((List.range m).map u) a =
      .ok { a with acc := ⟨m, ∑ k ∈ range m, (u k).2, 0, 0⟩ } := by
  induction m with
  | zero =>
    show Res.ok a = _
    cases a
    dsimp only at hacc
    subst hacc
    simp [Accum.clear]
  | succ m ih =>
    rw [List.range_succ, List.map_append, avgSeq_append, ih fun k hk => hu k (by omega)]
    show (Avg.sample K _ (u m).1 (u m).2).bind (avgSeq K []) = _
    unfold Avg.sample Accum.sample
    dsimp only
    rw [if_neg (by simpa using hu m (by omega)), hnb, if_pos rfl, if_neg (by omega), sum_range_succ]
    rfl

/-- A list as a function. -/
theorem eq_range_map {α : Type} [Inhabited α] (l : List α) : l = (List.range l.length).map (l.getD · default) := by
  apply List.ext_getElem
  · simp
  · intro i h1 h2
    simp [List.getD, h1]

end Verif.Ana
