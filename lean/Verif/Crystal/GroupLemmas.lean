import Verif.Crystal.SymProps

/-! # Lemmas on symmetry groups -/

set_option linter.unusedSectionVars false

namespace Verif.Crystal

section
variable {G : Type} [DecidableEq G] {O : SymOps G}

theorem found_iff (l : List G) (x : G) : found l x = true ↔ x ∈ l := by
  simp [found]

/-- What the container needs to know about its elements: results of operations are copies of
themselves, and the identity is neutral. -/
structure SymOps.Regular (O : SymOps G) : Prop where
  one : O.norm O.one = O.one
  mul : ∀ a b, O.norm (O.mul a b) = O.mul a b
  inv : ∀ a c, O.inv a = .ok c → O.norm c = c
  one_mul : ∀ a, O.norm a = a → O.mul O.one a = a
  norm : ∀ a, O.norm (O.norm a) = O.norm a

theorem add_eq (l : List G) (x : G) (h : O.norm x = x) :
    add O l x = if x ∈ l then (l, false) else (l ++ [x], true) := by
  unfold add
  by_cases hx : x ∈ l
  · rw [if_pos ((found_iff l x).mpr hx), if_pos hx]
  · rw [if_neg (fun hh => hx ((found_iff l x).mp hh)), if_neg hx, h]

/-- Properties of a list after adding: prefix, flag, membership, no duplicates. -/
theorem add_spec (l : List G) (x : G) (h : O.norm x = x) :
    ∃ ext, (add O l x).1 = l ++ ext ∧ ((add O l x).2 = false ↔ ext = []) ∧
      x ∈ (add O l x).1 ∧ (l.Nodup → (add O l x).1.Nodup) ∧
      ∀ P : G → Prop, P x → (∀ y ∈ l, P y) → ∀ y ∈ (add O l x).1, P y := by
  rw [add_eq l x h]
  by_cases hx : x ∈ l
  · rw [if_pos hx]
    exact ⟨[], by simp, by simp, hx, id, fun P _ hl => hl⟩
  · rw [if_neg hx]
    refine ⟨[x], rfl, by simp, by simp, ?_, ?_⟩
    · intro hn
      rw [List.nodup_append]
      refine ⟨hn, by simp, ?_⟩
      intro a ha b hb hab
      rw [List.mem_singleton] at hb
      subst hb; subst hab
      exact hx ha
    · intro P hPx hl y hy
      rcases List.mem_append.mp hy with hy | hy
      · exact hl y hy
      · rw [List.mem_singleton] at hy; subst hy; exact hPx

theorem addInverses_spec (hO : O.Regular) : ∀ (xs l l' : List G), addInverses O xs l = .ok l' →
    ∃ ext, l' = l ++ ext ∧ (l.Nodup → l'.Nodup) ∧
      (∀ y ∈ l', y ∈ l ∨ O.norm y = y) := by
  intro xs
  induction xs with
  | nil => intro l l' h; cases h; exact ⟨[], by simp, id, fun y hy => Or.inl hy⟩
  | cons x xs ih =>
    intro l l' h
    rw [addInverses, Res.bind_eq_ok] at h
    obtain ⟨a, ha, h⟩ := h
    obtain ⟨e1, h1, _, _, hnd, hP⟩ := add_spec (O := O) l a (hO.inv x a ha)
    obtain ⟨e2, h2, hnd2, hm⟩ := ih _ _ h
    refine ⟨e1 ++ e2, by rw [h2, h1, List.append_assoc], fun hn => hnd2 (hnd hn), ?_⟩
    intro y hy
    rcases hm y hy with hy | hy
    · exact hP (fun y => y ∈ l ∨ O.norm y = y) (Or.inr (hO.inv x a ha)) (fun y hy => Or.inl hy) y hy
    · exact Or.inr hy

theorem addInverses_ok (hO : O.Regular) (P : G → Prop)
    (hinv : ∀ a, P a → ∃ c, O.inv a = .ok c ∧ P c) : ∀ (xs l : List G), (∀ x ∈ xs, P x) →
    (∀ x ∈ l, P x) → ∃ l', addInverses O xs l = .ok l' ∧ ∀ x ∈ l', P x := by
  intro xs
  induction xs with
  | nil => intro l _ h; exact ⟨l, rfl, h⟩
  | cons x xs ih =>
    intro l hxs hl
    obtain ⟨c, hc, hPc⟩ := hinv x (hxs x (by simp))
    rw [addInverses, hc, Res.ok_bind]
    obtain ⟨_, _, _, _, _, hP⟩ := add_spec (O := O) l c (hO.inv x c hc)
    exact ih _ (fun y hy => hxs y (by simp [hy])) (hP P hPc hl)

theorem passLoop_spec (hO : O.Regular) : ∀ (ps : List (G × G)) (l l' : List G) (c c' : Bool),
    passLoop O ps l c = .ok (l', c') →
    ∃ ext, l' = l ++ ext ∧ (c' = true ↔ c = true ∧ ext = []) ∧ (l.Nodup → l'.Nodup) ∧
      (∀ p ∈ ps, O.mul p.1 p.2 ∈ l' ∧ ∃ d ∈ l', O.inv (O.mul p.1 p.2) = .ok d) ∧
      (∀ y ∈ l', y ∈ l ∨ O.norm y = y) := by
  intro ps
  induction ps with
  | nil =>
    intro l l' c c' h
    cases h
    exact ⟨[], by simp, by simp, id, by simp, fun y hy => Or.inl hy⟩
  | cons p ps ih =>
    obtain ⟨a, b⟩ := p
    intro l l' c c' h
    rw [passLoop, Res.bind_eq_ok] at h
    obtain ⟨d, hd, h⟩ := h
    obtain ⟨e1, h1, f1, m1, n1, P1⟩ := add_spec (O := O) l (O.mul a b) (hO.mul a b)
    obtain ⟨e2, h2, f2, m2, n2, P2⟩ :=
      add_spec (O := O) (add O l (O.mul a b)).1 d (hO.inv _ d hd)
    obtain ⟨e3, h3, f3, n3, m3, P3⟩ := ih _ _ _ _ h
    refine ⟨e1 ++ e2 ++ e3, ?_, ?_, fun hn => n3 (n2 (n1 hn)), ?_, ?_⟩
    · rw [h3, h2, h1]; simp
    · rw [f3]
      cases hr1 : (add O l (O.mul a b)).2 <;>
        cases hr2 : (add O (add O l (O.mul a b)).1 d).2 <;>
        simp [hr1] at f1 <;> simp [hr2] at f2 <;> simp [f1, f2]
    · intro q hq
      rcases List.mem_cons.mp hq with rfl | hq
      · have hsub : ∀ y ∈ (add O (add O l (O.mul a b)).1 d).1, y ∈ l' := by
          intro y hy; rw [h3]; exact List.mem_append_left _ hy
        refine ⟨hsub _ ?_, d, hsub _ m2, hd⟩
        rw [h2]; exact List.mem_append_left _ m1
      · exact m3 q hq
    · intro y hy
      rcases P3 y hy with hy | hy
      · refine P2 (fun y => y ∈ l ∨ O.norm y = y) (Or.inr (hO.inv _ d hd)) ?_ y hy
        exact P1 (fun y => y ∈ l ∨ O.norm y = y) (Or.inr (hO.mul a b)) (fun y hy => Or.inl hy)
      · exact Or.inr hy

theorem passLoop_ok (hO : O.Regular) (P : G → Prop)
    (hinv : ∀ a, P a → ∃ c, O.inv a = .ok c ∧ P c) (hmul : ∀ a b, P a → P b → P (O.mul a b)) :
    ∀ (ps : List (G × G)) (l : List G) (c : Bool), (∀ p ∈ ps, P p.1 ∧ P p.2) →
    (∀ x ∈ l, P x) → ∃ l' c', passLoop O ps l c = .ok (l', c') ∧ ∀ x ∈ l', P x := by
  intro ps
  induction ps with
  | nil => intro l c _ h; exact ⟨l, c, rfl, h⟩
  | cons p ps ih =>
    obtain ⟨a, b⟩ := p
    intro l c hps hl
    have hab : P (O.mul a b) := hmul a b (hps (a, b) (by simp)).1 (hps (a, b) (by simp)).2
    obtain ⟨d, hd, hPd⟩ := hinv _ hab
    rw [passLoop]
    simp only [hd, Res.ok_bind]
    obtain ⟨_, _, _, _, _, P1⟩ := add_spec (O := O) l (O.mul a b) (hO.mul a b)
    obtain ⟨_, _, _, _, _, P2⟩ :=
      add_spec (O := O) (add O l (O.mul a b)).1 d (hO.inv _ d hd)
    exact ih _ _ (fun q hq => hps q (by simp [hq])) (P2 P hPd (P1 P hab hl))

theorem mem_pairs (l : List G) (a b : G) : (a, b) ∈ pairs l ↔ a ∈ l ∧ b ∈ l := by
  simp [pairs]

/-- Closed under product and inverse. -/
def ClosedUnder (O : SymOps G) (P : G → Prop) : Prop :=
  (∀ a, P a → ∃ c, O.inv a = .ok c ∧ P c) ∧ ∀ a b, P a → P b → P (O.mul a b)

theorem completeLoop_spec (hO : O.Regular) : ∀ (fuel : Nat) (l l' : List G),
    completeLoop O fuel l = some (.ok l') → l.Nodup → O.one ∈ l → (∀ x ∈ l, O.norm x = x) →
    l'.Nodup ∧ (∃ ext, l' = l ++ ext) ∧ (∀ x ∈ l', O.norm x = x) ∧ ClosedUnder O (· ∈ l') ∧
    ∀ P, ClosedUnder O P → (∀ x ∈ l, P x) → ∀ x ∈ l', P x := by
  intro fuel
  induction fuel with
  | zero => intro l l' h; cases h
  | succ f ih =>
    intro l l' h hnd hone hnorm
    rw [completeLoop] at h
    cases hp : pass O l with
    | throw => rw [hp] at h; cases h
    | ub => rw [hp] at h; cases h
    | ok r =>
      obtain ⟨m, c⟩ := r
      rw [hp] at h
      simp only at h
      obtain ⟨ext, e1, e2, e3, e4, e5⟩ := passLoop_spec hO _ _ _ _ _ hp
      have hmnorm : ∀ x ∈ m, O.norm x = x := by
        intro x hx
        rcases e5 x hx with hx | hx
        · exact hnorm x hx
        · exact hx
      have hmP : ∀ P, ClosedUnder O P → (∀ x ∈ l, P x) → ∀ x ∈ m, P x := by
        intro P hP hl
        obtain ⟨m', c', hm', hPm⟩ := passLoop_ok hO P hP.1 hP.2 (pairs l) l true
          (fun p hp => by
            obtain ⟨a, b⟩ := p
            rw [mem_pairs] at hp
            exact ⟨hl a hp.1, hl b hp.2⟩) hl
        have : pass O l = .ok (m', c') := hm'
        rw [hp] at this
        cases this
        exact hPm
      by_cases hc : c = true
      · rw [if_pos hc] at h
        cases h
        have hext := (e2.mp hc).2
        subst hext
        rw [List.append_nil] at e1
        subst e1
        refine ⟨hnd, ⟨[], by simp⟩, hnorm, ⟨?_, ?_⟩, hmP⟩
        · intro a ha
          have := (e4 (O.one, a) ((mem_pairs _ _ _).mpr ⟨hone, ha⟩)).2
          obtain ⟨d, hd, hinv⟩ := this
          rw [hO.one_mul a (hnorm a ha)] at hinv
          exact ⟨d, hinv, hd⟩
        · intro a b ha hb
          exact (e4 (a, b) ((mem_pairs _ _ _).mpr ⟨ha, hb⟩)).1
      · rw [if_neg hc] at h
        obtain ⟨f1, ⟨ext', f2⟩, f3, f4, f5⟩ := ih m l' h (e3 hnd)
          (by rw [e1]; exact List.mem_append_left _ hone) hmnorm
        refine ⟨f1, ⟨ext ++ ext', by rw [f2, e1, List.append_assoc]⟩, f3, f4, ?_⟩
        intro P hP hl
        exact f5 P hP (hmP P hP hl)

theorem completeLoop_terminates (hO : O.Regular) (S : List G) (hS : ClosedUnder O (· ∈ S)) :
    ∀ (fuel : Nat) (l : List G), l.Nodup → (∀ x ∈ l, x ∈ S) → S.length < fuel + l.length →
    ∃ l', completeLoop O fuel l = some (.ok l') := by
  intro fuel
  induction fuel with
  | zero =>
    intro l hnd hl hlen
    have : l.length ≤ S.length := (List.Nodup.subperm hnd hl).length_le
    omega
  | succ f ih =>
    intro l hnd hl hlen
    obtain ⟨m, c, hm, hmS⟩ := passLoop_ok hO (· ∈ S) hS.1 hS.2 (pairs l) l true
          (fun p hp => by
            obtain ⟨a, b⟩ := p
            rw [mem_pairs] at hp
            exact ⟨hl a hp.1, hl b hp.2⟩) hl
    have hp : pass O l = .ok (m, c) := hm
    rw [completeLoop, hp]
    simp only
    by_cases hc : c = true
    · rw [if_pos hc]; exact ⟨m, rfl⟩
    · rw [if_neg hc]
      obtain ⟨ext, e1, e2, e3, _⟩ := passLoop_spec hO _ _ _ _ _ hm
      have hext : ext ≠ [] := fun h => hc (e2.mpr ⟨rfl, h⟩)
      have hlen' : 0 < ext.length := List.length_pos_of_ne_nil hext
      apply ih m (e3 hnd) hmS
      rw [e1, List.length_append]
      omega

theorem completeLoop_never_throws (hO : O.Regular) (P : G → Prop) (hP : ClosedUnder O P) :
    ∀ (fuel : Nat) (l : List G), (∀ x ∈ l, P x) →
    completeLoop O fuel l = none ∨ ∃ l', completeLoop O fuel l = some (.ok l') := by
  intro fuel
  induction fuel with
  | zero => intro l _; exact Or.inl rfl
  | succ f ih =>
    intro l hl
    obtain ⟨m, c, hm, hmS⟩ := passLoop_ok hO P hP.1 hP.2 (pairs l) l true
          (fun p hp => by
            obtain ⟨a, b⟩ := p
            rw [mem_pairs] at hp
            exact ⟨hl a hp.1, hl b hp.2⟩) hl
    have hp : pass O l = .ok (m, c) := hm
    rw [completeLoop, hp]
    simp only
    by_cases hc : c = true
    · rw [if_pos hc]; exact Or.inr ⟨m, rfl⟩
    · rw [if_neg hc]; exact ih m hmS

/-! ### isValid -/

theorem validInner_iff (l : List G) (i : Nat) (a : G) : ∀ (bs : List G) (j : Nat),
    validInner O l i a j bs = .ok () ↔
      ∀ k, (hk : k < bs.length) → (a = bs[k] → i = j + k) ∧ O.mul a bs[k] ∈ l := by
  intro bs
  induction bs with
  | nil => intro j; simp [validInner]
  | cons b bs ih =>
    intro j
    rw [validInner]
    constructor
    · intro h
      split at h
      · cases h
      · rename_i h1
        split at h
        · rename_i h2
          rw [ih] at h
          intro k hk
          cases k with
          | zero =>
            simp only [List.getElem_cons_zero]
            refine ⟨fun hab => ?_, (found_iff _ _).mp h2⟩
            by_contra hne
            exact h1 ⟨by simpa using hne, hab⟩
          | succ k =>
            simp only [List.getElem_cons_succ]
            have := h k (by simpa using hk)
            refine ⟨fun hab => ?_, this.2⟩
            have := this.1 hab
            omega
        · cases h
    · intro h
      have h0 := h 0 (by simp)
      simp only [List.getElem_cons_zero] at h0
      rw [if_neg (by rintro ⟨h1, h2⟩; exact h1 (by simpa using h0.1 h2)),
        if_pos ((found_iff _ _).mpr h0.2), ih]
      intro k hk
      have := h (k + 1) (by simpa using hk)
      simp only [List.getElem_cons_succ] at this
      refine ⟨fun hab => ?_, this.2⟩
      have := this.1 hab
      omega

theorem validOuter_iff (l : List G) : ∀ (as : List G) (i : Nat),
    validOuter O l i as = .ok () ↔
      ∀ k, (hk : k < as.length) → (∃ c ∈ l, O.inv as[k] = .ok c) ∧
        validInner O l (i + k) as[k] 0 l = .ok () := by
  intro as
  induction as with
  | nil => intro i; simp [validOuter]
  | cons a as ih =>
    intro i
    rw [validOuter, Res.bind_eq_ok]
    constructor
    · rintro ⟨c, hc, h⟩
      split at h
      · rename_i hf
        rw [Res.bind_eq_ok] at h
        obtain ⟨u, h1, h2⟩ := h
        rw [ih] at h2
        intro k hk
        cases k with
        | zero => exact ⟨⟨c, (found_iff _ _).mp hf, hc⟩, by simpa using h1⟩
        | succ k =>
          have := h2 k (by simpa using hk)
          simp only [List.getElem_cons_succ]
          rw [show i + (k + 1) = i + 1 + k by omega]
          exact this
      · cases h
    · intro h
      have h0 := h 0 (by simp)
      simp only [List.getElem_cons_zero] at h0
      obtain ⟨⟨c, hc, hinv⟩, hin⟩ := h0
      refine ⟨c, hinv, ?_⟩
      rw [if_pos ((found_iff _ _).mpr hc), Res.bind_eq_ok]
      refine ⟨(), hin, ?_⟩
      rw [ih]
      intro k hk
      have := h (k + 1) (by simpa using hk)
      simp only [List.getElem_cons_succ] at this
      rw [show i + 1 + k = i + (k + 1) by omega]
      exact this

end

variable {D : Nat}

theorem symOps_regular (D : Nat) : (symOps D).Regular where
  one := by
    apply Sym.ext'
    · intro i j; rfl
    · intro i; show (Sym.normalize (Sym.identity D)).t i = _; rw [normalize_t]; simp [symOps, Sym.identity]
  mul := fun a b => (reduced_iff _).mp (normalize_reduced _)
  inv := fun a c h => by
    refine (reduced_iff _).mp ?_
    intro i
    rw [(inverse_ok h).2]
    exact ⟨Int.fract_nonneg _, Int.fract_lt_one _⟩
  one_mul := fun a h => (C27_identity a ((reduced_iff a).mpr h)).1
  norm := fun a => (reduced_iff _).mp (normalize_reduced _)

end Verif.Crystal
