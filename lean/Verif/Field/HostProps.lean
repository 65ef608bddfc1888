import Verif.Field.HostModel
import Mathlib.Algebra.Order.BigOperators.Group.List
import Mathlib.Tactic.Linarith

/-!
# C123: fields of the CPU code behave as values and own their memory
-/

namespace Verif.HostField

variable {V : Type}

/-- What a program can observe of variable `i`: it does not exist, it exists and is not allocated, or it has mesh
dimensions and elements. -/
def view (s : St V) (i : ℕ) : Option (Option (List ℤ × List V)) :=
  (s.objs i).map fun f => f.data.bind fun a => (s.blocks a).map fun c => (f.dims, c)

/-- Value semantics: what each operation should do to variables that hold values. -/
def spec (K : Kind) (v : ℕ → Option (Option (List ℤ × List V))) : Op V → ℕ → Option (Option (List ℤ × List V))
  | .construct i => Function.update v i (some none)
  | .copy i j _ _ =>
    match v j with
    | some none => if K = .dft then v else Function.update v i (v j)
    | _ => Function.update v i (v j)
  | .allocate i dims _ junk =>
    match v i with
    | some none =>
      if (∀ n ∈ dims, 0 < n) then Function.update v i (some (some (dims, (List.range (K.size dims).toNat).map junk))) else v
    | _ => v
  | .assign i j _ _ =>
    match v i, v j with
    | some none, some (some y) => Function.update v i (some (some y))
    | some (some x), some (some y) => if x.1 = y.1 then Function.update v i (some (some y)) else v
    | _, _ => v
  | .write i k x =>
    match v i with
    | some (some y) => Function.update v i (some (some (y.1, y.2.set k x)))
    | _ => v
  | .deallocate i => Function.update v i (some none)
  | .destroy i => Function.update v i none

/-- Operations that should succeed; the others should throw an exception. -/
def Accepts (K : Kind) (v : ℕ → Option (Option (List ℤ × List V))) : Op V → Prop
  | .allocate i dims _ _ => v i = some none ∧ ∀ n ∈ dims, 0 < n
  | .assign i j _ _ => i = j ∨ ∃ y, v j = some (some y) ∧ ∀ x, v i = some (some x) → x.1 = y.1
  | .copy _ j _ _ => K = .dft → v j ≠ some none
  | .deallocate i => ∃ y, v i = some (some y)
  | _ => True

/-- Every allocated field owns an allocated block of the size of its mesh, no two fields share a block, and every
allocated block belongs to a live field. -/
structure Owns (K : Kind) (D : ℕ) (s : St V) : Prop where
  len : ∀ i f, s.objs i = some f → f.dims.length = D
  block : ∀ i f a, s.objs i = some f → f.data = some a →
    ∃ c, s.blocks a = some c ∧ (c.length : ℤ) = f.cap ∧ f.cap = K.size f.dims ∧ ∀ n ∈ f.dims, 0 < n
  alone : ∀ i j f g a, s.objs i = some f → s.objs j = some g → f.data = some a → g.data = some a → i = j
  noLeak : ∀ a, s.blocks a ≠ none → ∃ i f, s.objs i = some f ∧ f.data = some a

theorem setDims_pos : ∀ {old new : List ℤ}, old.length = new.length → (∀ n ∈ new, 0 < n) →
    setDims old new = (new, true)
  | [], [], _, _ => rfl
  | o :: os, n :: ns, h, hp => by
    have := setDims_pos (old := os) (new := ns) (by simpa using h) (fun m hm => hp m (by simp [hm]))
    simp [setDims, this, hp n (by simp)]

theorem setDims_neg : ∀ {old new : List ℤ}, old.length = new.length → ¬(∀ n ∈ new, 0 < n) →
    (setDims old new).2 = false
  | [], [], _, hp => by simp at hp
  | o :: os, n :: ns, h, hp => by
    by_cases h0 : 0 < n
    · have := setDims_neg (old := os) (new := ns) (by simpa using h) (fun hq => hp (by
        intro m hm; rcases List.mem_cons.1 hm with rfl | hm
        · exact h0
        · exact hq m hm))
      simp [setDims, this, h0]
    · simp [setDims, h0]

theorem setDims_len : ∀ {old new : List ℤ}, (setDims old new).1.length = old.length
  | [], _ => by simp [setDims]
  | _ :: _, [] => by simp [setDims]
  | o :: os, n :: ns => by
    by_cases h0 : 0 < n
    · simp [setDims, h0, setDims_len (old := os) (new := ns)]
    · simp [setDims, h0]

theorem prod_pos' : ∀ {l : List ℤ}, (∀ n ∈ l, 0 < n) → 0 < l.prod
  | [], _ => by simp
  | n :: l, h => by
    rw [List.prod_cons]
    exact mul_pos (h n (by simp)) (prod_pos' fun m hm => h m (by simp [hm]))

theorem kSize_pos : ∀ {l : List ℤ}, (∀ n ∈ l, 0 < n) → 0 < kSize l
  | [], _ => by simp [kSize]
  | [n], h => by
    have := h n (by simp)
    have : 0 ≤ Int.tdiv n 2 := Int.tdiv_nonneg (by omega) (by omega)
    simp only [kSize]; omega
  | n :: m :: l, h => by
    rw [kSize]
    exact mul_pos (h n (by simp)) (kSize_pos fun k hk => h k (List.mem_cons_of_mem _ hk))

theorem size_pos (K : Kind) {l : List ℤ} (h : ∀ n ∈ l, 0 < n) : 0 < K.size l := by
  cases K
  · exact prod_pos' h
  · exact prod_pos' h
  · exact kSize_pos h

/-- A variable without memory is created or changed. -/
theorem owns_empty {K : Kind} {D : ℕ} {s : St V} (h : Owns K D s) (i : ℕ) (f : Fld) (hf : f.data = none) (hl : f.dims.length = D)
    (hi : ∀ g, s.objs i = some g → g.data = none) :
    Owns K D ⟨Function.update s.objs i (some f), s.blocks⟩ ∧
    view ⟨Function.update s.objs i (some f), s.blocks⟩ = Function.update (view s) i (some none) := by
  refine ⟨⟨?_, ?_, ?_, ?_⟩, ?_⟩
  · intro k g hk
    by_cases e : k = i
    · subst e; simp at hk; subst hk; exact hl
    · simp [e] at hk; exact h.len k g hk
  · intro k g a hk hg
    by_cases e : k = i
    · subst e; simp at hk; subst hk; simp [hf] at hg
    · simp [e] at hk; exact h.block k g a hk hg
  · intro k l g g' a hk hl' hg hg'
    have e : k ≠ i := by rintro rfl; simp at hk; subst hk; simp [hf] at hg
    have e' : l ≠ i := by rintro rfl; simp at hl'; subst hl'; simp [hf] at hg'
    simp [e] at hk; simp [e'] at hl'
    exact h.alone k l g g' a hk hl' hg hg'
  · intro a ha
    obtain ⟨k, g, hk, hg⟩ := h.noLeak a ha
    have e : k ≠ i := by rintro rfl; simp [hi g hk] at hg
    exact ⟨k, g, by simp [e, hk], hg⟩
  · funext k
    by_cases e : k = i
    · subst e; simp [view, hf]
    · simp [view, e]

/-- A variable without memory gets a new block. -/
theorem owns_put {K : Kind} {D : ℕ} {s : St V} (h : Owns K D s) (i a : ℕ) (dims : List ℤ) (c : List V)
    (hi : ∀ g, s.objs i = some g → g.data = none) (ha : s.blocks a = none) (hl : dims.length = D)
    (hp : ∀ n ∈ dims, 0 < n) (hc : (c.length : ℤ) = K.size dims) :
    Owns K D ⟨Function.update s.objs i (some ⟨some a, K.size dims, dims⟩), Function.update s.blocks a (some c)⟩ ∧
    view ⟨Function.update s.objs i (some ⟨some a, K.size dims, dims⟩), Function.update s.blocks a (some c)⟩ =
      Function.update (view s) i (some (some (dims, c))) := by
  have key : ∀ k g b, s.objs k = some g → g.data = some b → b ≠ a := by
    rintro k g b hk hg rfl
    obtain ⟨c', hc', _⟩ := h.block k g b hk hg
    simp [ha] at hc'
  refine ⟨⟨?_, ?_, ?_, ?_⟩, ?_⟩
  · intro k g hk
    by_cases e : k = i
    · subst e; simp at hk; subst hk; exact hl
    · simp [e] at hk; exact h.len k g hk
  · intro k g b hk hg
    by_cases e : k = i
    · subst e; simp at hk; subst hk
      simp at hg; subst hg
      exact ⟨c, by simp, hc, rfl, hp⟩
    · simp [e] at hk
      obtain ⟨c', h1, h2⟩ := h.block k g b hk hg
      exact ⟨c', by simp [key k g b hk hg, h1], h2⟩
  · intro k l g g' b hk hl' hg hg'
    by_cases e : k = i <;> by_cases e' : l = i
    · rw [e, e']
    · subst e; simp at hk; subst hk; simp at hg; subst hg
      simp [e'] at hl'; exact absurd rfl (key l g' _ hl' hg')
    · subst e'; simp at hl'; subst hl'; simp at hg'; subst hg'
      simp [e] at hk; exact absurd rfl (key k g _ hk hg)
    · simp [e] at hk; simp [e'] at hl'
      exact h.alone k l g g' b hk hl' hg hg'
  · intro b hb
    by_cases e : b = a
    · subst e; exact ⟨i, _, by simp; rfl, rfl⟩
    · simp [e] at hb
      obtain ⟨k, g, hk, hg⟩ := h.noLeak b (by simpa using hb)
      have e : k ≠ i := by rintro rfl; simp [hi g hk] at hg
      exact ⟨k, g, by simp [e, hk], hg⟩
  · funext k
    by_cases e : k = i
    · subst e; simp [view]
    · simp only [view, Function.update_of_ne e]
      cases hk : s.objs k with
      | none => rfl
      | some g =>
        cases hg : g.data with
        | none => simp [hg]
        | some b => simp [hg, key k g b hk hg]

/-- The contents of the block of a variable change. -/
theorem owns_content {K : Kind} {D : ℕ} {s : St V} (h : Owns K D s) (i a : ℕ) (f : Fld) (c : List V) (hi : s.objs i = some f)
    (hf : f.data = some a) (hc : (c.length : ℤ) = f.cap) :
    Owns K D ⟨s.objs, Function.update s.blocks a (some c)⟩ ∧
    view ⟨s.objs, Function.update s.blocks a (some c)⟩ = Function.update (view s) i (some (some (f.dims, c))) := by
  refine ⟨⟨h.len, ?_, h.alone, ?_⟩, ?_⟩
  · intro k g b hk hg
    obtain ⟨c', h1, h2, h3⟩ := h.block k g b hk hg
    by_cases e : b = a
    · subst e
      have := h.alone k i g f b hk hi hg hf
      subst this
      rw [hi] at hk; cases hk
      exact ⟨c, by simp, hc, h3⟩
    · exact ⟨c', by simp [e, h1], h2, h3⟩
  · intro b hb
    by_cases e : b = a
    · subst e; exact ⟨i, f, hi, hf⟩
    · simp [e] at hb; exact h.noLeak b (by simpa using hb)
  · funext k
    by_cases e : k = i
    · subst e; simp [view, hi, hf]
    · simp only [view, Function.update_of_ne e]
      cases hk : s.objs k with
      | none => rfl
      | some g =>
        cases hg : g.data with
        | none => simp [hg]
        | some b =>
          have : b ≠ a := by rintro rfl; exact e (h.alone k i g f b hk hi hg hf)
          simp [hg, this]

/-- A variable is destroyed. -/
theorem owns_destroy {K : Kind} {D : ℕ} {s : St V} (h : Owns K D s) (i : ℕ) (hi : s.objs i ≠ none) :
    ∃ s', destroy s i = .next s' ∧ Owns K D s' ∧ view s' = Function.update (view s) i none := by
  cases hf : s.objs i with
  | none => exact absurd hf hi
  | some f =>
    cases hd : f.data with
    | none =>
      refine ⟨_, by simp only [destroy, hf, hd]; rfl, ⟨?_, ?_, ?_, ?_⟩, ?_⟩
      · intro k g hk
        by_cases e : k = i
        · subst e; simp at hk
        · simp [e] at hk; exact h.len k g hk
      · intro k g b hk hg
        by_cases e : k = i
        · subst e; simp at hk
        · simp [e] at hk; exact h.block k g b hk hg
      · intro k l g g' b hk hl hg hg'
        have e : k ≠ i := by rintro rfl; simp at hk
        have e' : l ≠ i := by rintro rfl; simp at hl
        simp [e] at hk; simp [e'] at hl
        exact h.alone k l g g' b hk hl hg hg'
      · intro b hb
        obtain ⟨k, g, hk, hg⟩ := h.noLeak b hb
        have e : k ≠ i := by rintro rfl; rw [hf] at hk; cases hk; simp [hd] at hg
        exact ⟨k, g, by simp [e, hk], hg⟩
      · funext k
        by_cases e : k = i
        · subst e; simp [view]
        · simp [view, e]
    | some a =>
      obtain ⟨c, hc, -⟩ := h.block i f a hf hd
      have key : ∀ k g b, k ≠ i → s.objs k = some g → g.data = some b → b ≠ a := by
        rintro k g b hk hg hb rfl
        exact hk (h.alone k i g f b hg hf hb hd)
      refine ⟨_, by simp only [destroy, hf, hd, hc]; rfl, ⟨?_, ?_, ?_, ?_⟩, ?_⟩
      · intro k g hk
        by_cases e : k = i
        · subst e; simp at hk
        · simp [e] at hk; exact h.len k g hk
      · intro k g b hk hg
        by_cases e : k = i
        · subst e; simp at hk
        · simp [e] at hk
          obtain ⟨c', h1, h2⟩ := h.block k g b hk hg
          exact ⟨c', by simp [key k g b e hk hg, h1], h2⟩
      · intro k l g g' b hk hl hg hg'
        have e : k ≠ i := by rintro rfl; simp at hk
        have e' : l ≠ i := by rintro rfl; simp at hl
        simp [e] at hk; simp [e'] at hl
        exact h.alone k l g g' b hk hl hg hg'
      · intro b hb
        have eb : b ≠ a := by rintro rfl; simp at hb
        simp [eb] at hb
        obtain ⟨k, g, hk, hg⟩ := h.noLeak b (by simpa using hb)
        have e : k ≠ i := by
          rintro rfl; rw [hf] at hk; cases hk; rw [hd] at hg; cases hg; exact eb rfl
        exact ⟨k, g, by simp [e, hk], hg⟩
      · funext k
        by_cases e : k = i
        · subst e; simp [view]
        · simp only [view, Function.update_of_ne e]
          cases hk : s.objs k with
          | none => rfl
          | some g =>
            cases hg : g.data with
            | none => simp [hg]
            | some b => simp [hg, key k g b e hk hg]

theorem view_some {K : Kind} {D : ℕ} {s : St V} (h : Owns K D s) {i : ℕ} {f : Fld} (hi : s.objs i = some f) :
    (f.data = none ∧ view s i = some none) ∨
    ∃ a c, f.data = some a ∧ s.blocks a = some c ∧ (c.length : ℤ) = f.cap ∧ f.cap = K.size f.dims ∧
      (∀ n ∈ f.dims, 0 < n) ∧ view s i = some (some (f.dims, c)) := by
  cases hf : f.data with
  | none => left; simp [view, hi, hf]
  | some a =>
    right
    obtain ⟨c, h1, h2, h3, h4⟩ := h.block i f a hi hf
    exact ⟨a, c, rfl, h1, h2, h3, h4, by simp [view, hi, hf, h1]⟩

theorem allocate_ok {K : Kind} {D : ℕ} {s : St V} (h : Owns K D s) {i : ℕ} {f : Fld} (hi : s.objs i = some f)
    (hf : f.data = none) {dims : List ℤ} (hl : dims.length = D) (hp : ∀ n ∈ dims, 0 < n) (a : ℕ) (junk : ℕ → V) :
    allocate K s i dims a junk =
      .next ⟨Function.update s.objs i (some ⟨some a, K.size dims, dims⟩),
        Function.update s.blocks a (some ((List.range (K.size dims).toNat).map junk))⟩ := by
  have e := setDims_pos (old := f.dims) (new := dims) (by rw [h.len i f hi, hl]) hp
  have := size_pos K hp
  simp [allocate, hi, isAllocated, hf, e, not_le.2 this]

theorem junk_len {K : Kind} {dims : List ℤ} (hp : ∀ n ∈ dims, 0 < n) (junk : ℕ → V) :
    (((List.range (K.size dims).toNat).map junk).length : ℤ) = K.size dims := by
  have := size_pos K hp
  simp; omega

/-- Copying between two fields of one mesh. -/
theorem copyLoop_ok {K : Kind} {D : ℕ} {s : St V} (h : Owns K D s) {i j : ℕ} {f g : Fld} (hi : s.objs i = some f)
    (hj : s.objs j = some g) {a b : ℕ} (hf : f.data = some a) (hg : g.data = some b) (hd : f.dims = g.dims)
    {d : List V} (hb : s.blocks b = some d) :
    ∃ s', copyLoop s i j = .next s' ∧ Owns K D s' ∧ view s' = Function.update (view s) i (some (some (g.dims, d))) := by
  obtain ⟨c, h1, h2, h3, h4⟩ := h.block i f a hi hf
  obtain ⟨d', k1, k2, k3, k4⟩ := h.block j g b hj hg
  rw [hb] at k1; cases k1
  have hpos := size_pos K h4
  have hcap : f.cap = g.cap := by rw [h3, k3, hd]
  have hn : ¬ f.cap ≤ 0 := by omega
  have e : d.take f.cap.toNat ++ c.drop f.cap.toNat = d := by
    rw [List.take_of_length_le (by omega), List.drop_of_length_le (by omega), List.append_nil]
  obtain ⟨o, v⟩ := owns_content h i a f d hi hf (by omega)
  refine ⟨⟨s.objs, Function.update s.blocks a (some d)⟩, ?_, o, by rw [v, hd]⟩
  simp only [copyLoop, hi, hj, hf, hg, h1, hb, if_neg hn, e]
  rw [if_pos (by omega)]

/-- One operation of a plain history. -/
theorem step_ok {K : Kind} {D : ℕ} {s : St V} (h : Owns K D s) {op : Op V} (hl : Legal D s op) (hp : Plain s op) :
    ∃ s', ((Accepts K (view s) op ∧ step K D s op = .next s') ∨ (¬ Accepts K (view s) op ∧ step K D s op = .thrown s')) ∧
      Owns K D s' ∧ view s' = spec K (view s) op := by
  cases op with
  | construct i =>
    have hi : s.objs i = none := hl
    obtain ⟨o, v⟩ := owns_empty h i ⟨none, 0, List.replicate D 0⟩ rfl (by simp) (by simp [hi])
    exact ⟨_, Or.inl ⟨trivial, rfl⟩, o, v⟩
  | copy i j a junk =>
    obtain ⟨hi, hj, ha⟩ := hl
    obtain ⟨o, v⟩ := owns_empty h i ⟨none, 0, List.replicate D 0⟩ rfl (by simp) (by simp [hi])
    cases hg : s.objs j with
    | none => exact absurd hg hj
    | some g =>
      have hne : j ≠ i := by rintro rfl; rw [hi] at hg; cases hg
      rcases view_some h hg with ⟨e, hv⟩ | ⟨b, d, e, hb, h2, h3, h4, hv⟩
      · by_cases hK : K = .dft
        · subst hK
          refine ⟨s, Or.inr ⟨fun hh => hh rfl hv, ?_⟩, h, ?_⟩
          · simp [step, copy, hg, isAllocated, e]
          · simp only [spec, hv, if_true]
        · refine ⟨construct D s i, Or.inl ⟨fun hh => absurd hh hK, ?_⟩, o, ?_⟩
          · simp [step, copy, hg, isAllocated, e, hK]
          · simp only [spec, hv, if_neg hK]; exact v
      · have hab : b ≠ a := by rintro rfl; rw [ha] at hb; cases hb
        have hlen : g.dims.length = D := h.len j g hg
        have al := allocate_ok o (i := i) (f := ⟨none, 0, List.replicate D 0⟩) (by simp) rfl hlen h4 a junk
        obtain ⟨o2, v2⟩ := owns_put o i a g.dims ((List.range (K.size g.dims).toNat).map junk)
          (by intro g' hg'; simp at hg'; subst hg'; rfl) ha hlen h4 (junk_len h4 junk)
        obtain ⟨s', c1, c2, c3⟩ := copyLoop_ok o2 (i := i) (j := j) (f := ⟨some a, K.size g.dims, g.dims⟩) (g := g)
          (by simp) (by simp [hne, hg]) rfl e rfl (d := d) (by simp [hab, hb])
        refine ⟨s', Or.inl ⟨fun _ => by rw [hv]; simp, ?_⟩, c2, ?_⟩
        · have hpos := size_pos K h4
          by_cases hK : K = .complex
          · simp only [step, copy, hg, isAllocated, e, Option.isSome_some, if_pos hK]
            rw [if_pos ⟨trivial, by omega⟩, h3]
            exact c1
          · simp only [step, copy, hg, isAllocated, e, Option.isSome_some, if_neg hK, if_true]
            rw [show allocate K (construct D s i) i g.dims a junk = _ from al]
            exact c1
        · rw [c3, v2, v]; simp [spec, hv]
  | allocate i dims a junk =>
    obtain ⟨hi, hlen, ha⟩ := hl
    cases hf : s.objs i with
    | none => exact absurd hf hi
    | some f =>
      have hd : f.data = none := by simpa [isAllocated] using hp f hf
      have hv : view s i = some none := by simp [view, hf, hd]
      by_cases hpos : ∀ n ∈ dims, 0 < n
      · have al := allocate_ok h hf hd hlen hpos a junk
        obtain ⟨o2, v2⟩ := owns_put h i a dims ((List.range (K.size dims).toNat).map junk)
          (by intro g' hg'; rw [hf] at hg'; cases hg'; exact hd) ha hlen hpos (junk_len hpos junk)
        refine ⟨_, Or.inl ⟨⟨hv, hpos⟩, al⟩, o2, ?_⟩
        rw [v2]; simp only [spec, hv]; rw [if_pos hpos]
      · have e := setDims_neg (old := f.dims) (new := dims) (by rw [h.len i f hf, hlen]) hpos
        obtain ⟨o, v⟩ := owns_empty h i ⟨f.data, f.cap, (setDims f.dims dims).1⟩ hd
          (by simp [setDims_len, h.len i f hf]) (by intro g hg; rw [hf] at hg; cases hg; exact hd)
        refine ⟨_, Or.inr ⟨fun hh => hpos hh.2, ?_⟩, o, ?_⟩
        · simp only [step, allocate, hf]; rw [if_pos (Or.inl e)]
        · rw [v]; simp only [spec, hv]; rw [if_neg hpos, ← hv, Function.update_eq_self]
  | assign i j a junk =>
    obtain ⟨hi, hj, ha⟩ := hl
    by_cases hij : i = j
    · subst hij
      refine ⟨s, Or.inl ⟨Or.inl rfl, by simp [step, assign]⟩, h, ?_⟩
      cases hf : s.objs i with
      | none => exact absurd hf hi
      | some f =>
        rcases view_some h hf with ⟨-, hv⟩ | ⟨_, d, -, -, -, -, -, hv⟩
        · simp only [spec, hv]
        · simp only [spec, hv, if_true]; rw [← hv, Function.update_eq_self]
    · cases hf : s.objs i with
      | none => exact absurd hf hi
      | some f =>
        cases hg : s.objs j with
        | none => exact absurd hg hj
        | some g =>
          rcases view_some h hg with ⟨e, hv⟩ | ⟨b, d, e, hb, h2, h3, h4, hv⟩
          · refine ⟨s, Or.inr ⟨?_, by simp [step, assign, hij, hf, hg, isAllocated, e]⟩, h, ?_⟩
            · rintro (hh | ⟨y, hy, -⟩)
              · exact hij hh
              · rw [hv] at hy; cases hy
            · simp only [spec, hv]
              generalize view s i = x
              rcases x with _ | _ | _ <;> rfl
          · have hab : b ≠ a := by rintro rfl; rw [ha] at hb; cases hb
            have hlen : g.dims.length = D := h.len j g hg
            rcases view_some h hf with ⟨e', hv'⟩ | ⟨a', c, e', hb', h2', h3', h4', hv'⟩
            · have al := allocate_ok h hf e' hlen h4 a junk
              obtain ⟨o2, v2⟩ := owns_put h i a g.dims ((List.range (K.size g.dims).toNat).map junk)
                (by intro g' hg'; rw [hf] at hg'; cases hg'; exact e') ha hlen h4 (junk_len h4 junk)
              obtain ⟨s', c1, c2, c3⟩ := copyLoop_ok o2 (i := i) (j := j) (f := ⟨some a, K.size g.dims, g.dims⟩) (g := g)
                (by simp) (by simp [Ne.symm hij, hg]) rfl e rfl (d := d) (by simp [hab, hb])
              refine ⟨s', Or.inl ⟨Or.inr ⟨_, hv, by simp [hv']⟩, ?_⟩, c2, ?_⟩
              · simp [step, assign, hij, hf, hg, isAllocated, e, e', al, h3, c1]
              · rw [c3, v2]; simp [spec, hv, hv']
            · by_cases hd : f.dims = g.dims
              · obtain ⟨s', c1, c2, c3⟩ := copyLoop_ok h hf hg e' e hd hb
                refine ⟨s', Or.inl ⟨Or.inr ⟨_, hv, by simp [hv', hd]⟩, ?_⟩, c2, ?_⟩
                · simp [step, assign, hij, hf, hg, isAllocated, e, e', h3, h3', hd, c1]
                · rw [c3]; simp [spec, hv, hv', hd]
              · refine ⟨s, Or.inr ⟨?_, by simp [step, assign, hij, hf, hg, isAllocated, e, e', hd]⟩, h, ?_⟩
                · rintro (hh | ⟨y, hy, hx⟩)
                  · exact hij hh
                  · rw [hv] at hy; cases hy; exact hd (hx _ hv')
                · simp [spec, hv, hv', hd]
  | write i k x =>
    obtain ⟨f, hf, hal, hk⟩ := hl
    rcases view_some h hf with ⟨e, -⟩ | ⟨a, c, e, hb, h2, h3, h4, hv⟩
    · simp [isAllocated, e] at hal
    · obtain ⟨o, v⟩ := owns_content h i a f (c.set k x) hf e (by simpa using h2)
      refine ⟨_, Or.inl ⟨trivial, ?_⟩, o, ?_⟩
      · simp only [step, write, hf, e, hb]; rw [if_pos (by omega)]
      · rw [v]; simp only [spec, hv]
  | deallocate i => exact hp.elim
  | destroy i =>
    obtain ⟨s', c1, c2, c3⟩ := owns_destroy h i hl
    exact ⟨s', Or.inl ⟨trivial, c1⟩, c2, c3⟩

theorem owns_init {K : Kind} {D : ℕ} : Owns K D (init : St V) :=
  ⟨by simp [init], by simp [init], by simp [init], by simp [init]⟩

theorem reach_owns {K : Kind} {D : ℕ} {s : St V} (h : Reach K D Plain s) : Owns K D s := by
  induction h with
  | init => exact owns_init
  | next _ hl hp hs ih =>
    obtain ⟨s', (⟨-, e⟩ | ⟨-, e⟩), o, -⟩ := step_ok ih hl hp
    · rw [e] at hs; cases hs; exact o
    · rw [e] at hs; cases hs
  | thrown _ hl hp hs ih =>
    obtain ⟨s', (⟨-, e⟩ | ⟨-, e⟩), o, -⟩ := step_ok ih hl hp
    · rw [e] at hs; cases hs
    · rw [e] at hs; cases hs; exact o

/-- **C123** (partial: histories without `deallocate` and without `allocate` of an allocated field, see the violations).
After every such history, however many fields are created, copied, assigned, changed and destroyed and whatever
exceptions were thrown and caught, no memory is shared between fields, lost, or used after it was released. -/
theorem C123_owns_partial {K : Kind} {D : ℕ} {s : St V} (h : Reach K D Plain s) :
    (∀ i f a, s.objs i = some f → f.data = some a →
      ∃ c, s.blocks a = some c ∧ (c.length : ℤ) = f.cap ∧ f.cap = K.size f.dims) ∧
    (∀ i j f g a, s.objs i = some f → s.objs j = some g → f.data = some a → g.data = some a → i = j) ∧
    (∀ a, s.blocks a ≠ none → ∃ i f, s.objs i = some f ∧ f.data = some a) := by
  have o := reach_owns h
  refine ⟨fun i f a hi hf => ?_, o.alone, o.noLeak⟩
  obtain ⟨c, h1, h2, h3, -⟩ := o.block i f a hi hf
  exact ⟨c, h1, h2, h3⟩

theorem kSize_append : ∀ (l : List ℤ) (n : ℤ), kSize (l ++ [n]) = l.prod * (Int.tdiv n 2 + 1)
  | [], n => by simp [kSize]
  | [m], n => by simp [kSize]
  | m :: k :: l, n => by
    have := kSize_append (k :: l) n
    simp only [List.cons_append] at this
    simp only [List.cons_append, kSize, this, List.prod_cons, mul_assoc]

/-- **C123** (partial, as above): number of elements of an allocated field. Real and complex fields have one element per
grid point; a Fourier field on a mesh with last dimension `n` has `n/2 + 1` elements per point of the mesh of the other
dimensions. -/
theorem C123_size_partial {K : Kind} {D : ℕ} {s : St V} (h : Reach K D Plain s) {i : ℕ} {l : List ℤ} {n : ℤ}
    {c : List V} (hv : view s i = some (some (l ++ [n], c))) :
    (c.length : ℤ) = l.prod * (if K = .dft then n / 2 + 1 else n) := by
  cases hi : s.objs i with
  | none => simp [view, hi] at hv
  | some f =>
    rcases view_some (reach_owns h) hi with ⟨-, e⟩ | ⟨a, c', -, -, h2, h3, h4, e⟩
    · rw [hv] at e; cases e
    · rw [hv] at e
      simp only [Option.some.injEq, Prod.mk.injEq] at e
      obtain ⟨e1, rfl⟩ := e
      rw [h2, h3, ← e1]
      have hn : 0 < n := h4 n (by rw [← e1]; simp)
      cases K
      · simp [Kind.size]
      · simp [Kind.size]
      · simp only [Kind.size, kSize_append, if_true, Int.tdiv_eq_ediv_of_nonneg hn.le]

/-- **C123** (partial, as above). After every such history the next operation has no undefined behaviour; it succeeds
exactly if value semantics allows it and otherwise throws; and the values of *all* variables afterwards are those of
value semantics. In particular a change of one field changes no other, and a rejected operation changes nothing. -/
theorem C123_values_partial {K : Kind} {D : ℕ} {s : St V} (h : Reach K D Plain s) {op : Op V} (hl : Legal D s op)
    (hp : Plain s op) :
    ∃ s', ((Accepts K (view s) op ∧ step K D s op = .next s') ∨ (¬ Accepts K (view s) op ∧ step K D s op = .thrown s')) ∧
      view s' = spec K (view s) op := by
  obtain ⟨s', h1, -, h2⟩ := step_ok (reach_owns h) hl hp
  exact ⟨s', h1, h2⟩

/-- **C123**: all memory is released when all fields are destroyed. -/
theorem C123_released {K : Kind} {D : ℕ} {s : St V} (h : Reach K D Plain s) (he : ∀ i, s.objs i = none) (a : ℕ) :
    s.blocks a = none := by
  by_contra hb
  obtain ⟨i, f, hi, -⟩ := (reach_owns h).noLeak a hb
  rw [he i] at hi; cases hi

/-- **C123 violated**: `deallocate` does not clear `data_`. For every field that holds memory, after every plain history,
`deallocate` succeeds but then the field still says that it is allocated, it cannot be allocated again (an exception is
thrown for every mesh), and both its destructor and a second `deallocate` free the block a second time. -/
theorem C123_violated_deallocate {K : Kind} {D : ℕ} {s : St V} (h : Reach K D Plain s) {i : ℕ} {f : Fld} (hi : s.objs i = some f)
    (hf : isAllocated f = true) :
    ∃ s' f', step K D s (.deallocate i) = .next s' ∧ s'.objs i = some f' ∧ isAllocated f' = true ∧ f'.cap = 0 ∧
      (∀ dims a junk, ∃ s'', step K D s' (.allocate i dims a junk) = .thrown s'') ∧
      step K D s' (.destroy i) = .ub ∧ step K D s' (.deallocate i) = .ub := by
  rcases view_some (reach_owns h) hi with ⟨e, -⟩ | ⟨a, c, e, hb, -⟩
  · simp [isAllocated, e] at hf
  · refine ⟨⟨Function.update s.objs i (some ⟨f.data, 0, f.dims.map fun _ => 0⟩), Function.update s.blocks a none⟩,
      ⟨f.data, 0, f.dims.map fun _ => 0⟩, ?_, ?_, ?_, rfl, ?_, ?_, ?_⟩
    · simp [step, deallocate, hi, e, hb]
    · simp
    · simp [isAllocated, e]
    · intro dims a' junk
      simp [step, allocate, isAllocated, e]
    · simp [step, destroy, e]
    · simp [step, deallocate, e]

/-- **C123 violated**: `allocate` of an allocated field throws, as documented, but only after it has changed the mesh
dimensions. If the new mesh is larger, copying the field then reads beyond its memory (`CField` is
excluded: its copy constructor uses the capacity). -/
theorem C123_violated_reallocate {K : Kind} (hK : K ≠ .complex) {D : ℕ} {s : St V} (h : Reach K D Plain s) {i k : ℕ} {f : Fld}
    (hi : s.objs i = some f) (hf : isAllocated f = true) (hk : s.objs k = none) {dims : List ℤ}
    (hl : dims.length = D) (hp : ∀ n ∈ dims, 0 < n) (hlarge : K.size f.dims < K.size dims) {a b : ℕ} {junk : ℕ → V}
    (hb : s.blocks b = none) :
    ∃ s' f', step K D s (.allocate i dims a junk) = .thrown s' ∧ s'.objs i = some f' ∧ f'.dims = dims ∧
      f'.cap ≠ K.size f'.dims ∧ Legal D s' (.copy k i b junk) ∧ step K D s' (.copy k i b junk) = .ub := by
  have o := reach_owns h
  rcases view_some o hi with ⟨e, -⟩ | ⟨a', c, e, hc, h2, h3, h4, -⟩
  · simp [isAllocated, e] at hf
  · have hki : k ≠ i := by rintro rfl; rw [hi] at hk; cases hk
    have hne : a' ≠ b := by rintro rfl; rw [hb] at hc; cases hc
    have e1 := setDims_pos (old := f.dims) (new := dims) (by rw [o.len i f hi, hl]) hp
    have e2 := setDims_pos (old := List.replicate D (0 : ℤ)) (new := dims) (by simp [hl]) hp
    have hpos := size_pos K hp
    refine ⟨⟨Function.update s.objs i (some ⟨f.data, f.cap, dims⟩), s.blocks⟩, ⟨f.data, f.cap, dims⟩, ?_, ?_, rfl, ?_,
      ?_, ?_⟩
    · simp [step, allocate, hi, isAllocated, e, e1]
    · simp
    · simp only; omega
    · exact ⟨by simp [hki, hk], by simp, hb⟩
    · have e3 : allocate K (construct D ⟨Function.update s.objs i (some ⟨f.data, f.cap, dims⟩), s.blocks⟩ k) k dims b junk =
          .next ⟨Function.update (Function.update (Function.update s.objs i (some ⟨f.data, f.cap, dims⟩)) k
            (some ⟨none, 0, List.replicate D 0⟩)) k (some ⟨some b, K.size dims, dims⟩),
            Function.update s.blocks b (some ((List.range (K.size dims).toNat).map junk))⟩ := by
        simp [allocate, construct, isAllocated, e2, not_le.2 hpos]
      simp only [step, copy, Function.update_self, isAllocated, e, Option.isSome_some, if_neg hK, if_true]
      rw [e] at e3
      rw [e3]
      simp only [copyLoop, Function.update_self, Function.update_of_ne (Ne.symm hki), if_neg (not_le.2 hpos),
        Function.update_of_ne hne, hc]
      rw [if_neg (by omega)]

/-! ### Examples: two fields on a 2 x 3 mesh -/

/-- A field is created and allocated, and a second one is copied from it. -/
def exOps : List (Op ℕ) :=
  [.construct 0, .allocate 0 [2, 3] 10 (fun k => k * k), .copy 1 0 20 (fun _ => 7), .write 1 2 99, .construct 2]

/-- Run a list of operations. -/
def run (K : Kind) (D : ℕ) : St V → List (Op V) → Option (St V)
  | s, [] => some s
  | s, op :: ops =>
    match step K D s op with
    | .next s' => run K D s' ops
    | .thrown s' => run K D s' ops
    | .ub => none

example : (run .real 2 init exOps).map (fun s => (view s 0, view s 1, view s 2)) =
    some (some (some ([2, 3], [0, 1, 4, 9, 16, 25])), some (some ([2, 3], [0, 1, 99, 9, 16, 25])), some none) := by
  rfl

theorem ex_reach : ∃ s : St ℕ, Reach .real 2 Plain s ∧ (∃ f, s.objs 0 = some f ∧ isAllocated f = true ∧ f.dims = [2, 3]) ∧
    s.objs 1 = none ∧ s.blocks 20 = none := by
  have r1 : Reach .real 2 Plain (construct 2 (init : St ℕ) 0) :=
    .next (op := .construct 0) .init rfl trivial rfl
  refine ⟨⟨Function.update (construct 2 (init : St ℕ) 0).objs 0 (some ⟨some 10, 6, [2, 3]⟩),
    Function.update (init : St ℕ).blocks 10 (some ((List.range 6).map fun k => k))⟩,
    .next (op := .allocate 0 [2, 3] 10 fun k => k) r1 ⟨by simp [construct], rfl, rfl⟩ ?_ ?_, ⟨_, by simp; rfl, rfl, rfl⟩,
    by simp [construct, init], by simp [init]⟩
  · intro f hf; simp [construct] at hf; subst hf; rfl
  · simp [step, allocate, construct, isAllocated, setDims, Kind.size]

/-- The hypotheses of both violations can be met: the field of `ex_reach`, mesh 4 x 3. -/
example : ∃ (s : St ℕ) (f : Fld), Reach .real 2 Plain s ∧ s.objs 0 = some f ∧ isAllocated f = true ∧ s.objs 1 = none ∧
    Kind.real.size f.dims < Kind.real.size [4, 3] ∧ s.blocks 20 = none := by
  obtain ⟨s, h, ⟨f, h1, h2, h3⟩, h4, h5⟩ := ex_reach
  exact ⟨s, f, h, h1, h2, h4, by rw [h3]; decide, h5⟩

/-- Double free in a program of three lines. -/
example : (run .real 2 (init : St ℕ) [.construct 0, .allocate 0 [2, 3] 10 id, .deallocate 0, .destroy 0]).isNone = true := by
  decide +kernel

/-- A rejected assignment between different meshes changes nothing. -/
example : (run .real 2 (init : St ℕ) [.construct 0, .allocate 0 [2, 1] 10 id, .construct 1, .allocate 1 [1, 2] 11 (· + 5),
    .assign 0 1 12 id]).map (fun s => (view s 0, view s 1)) =
    some (some (some ([2, 1], [0, 1])), some (some ([1, 2], [5, 6]))) := by
  rfl

/-- Fourier fields: 3 x 2 waves on a 3 x 3 mesh; a copy of an unallocated field (5) is refused. Complex fields accept it. -/
example : (run .dft 2 (init : St ℕ) [.construct 0, .allocate 0 [3, 3] 10 id, .copy 1 0 11 (· + 7), .construct 4,
    .copy 5 4 12 id]).map (fun s => (view s 1, view s 5)) = some (some (some ([3, 3], [0, 1, 2, 3, 4, 5])), none) ∧
    (run .complex 2 (init : St ℕ) [.construct 0, .allocate 0 [2, 1] 10 id, .copy 1 0 11 (· + 7), .construct 4,
    .copy 5 4 12 id]).map (fun s => (view s 1, view s 5)) = some (some (some ([2, 1], [0, 1])), some none) :=
  ⟨rfl, rfl⟩

end Verif.HostField
