import Verif.Cuda.DeviceArrayModel

/-!
# Invariant of device memory
-/

set_option autoImplicit false

namespace Verif.DevArr
variable {V : Type}

/-- Contract of `cudaMalloc`: the block returned overlaps no allocated block. -/
def Fresh (s : St V) (a n : Nat) : Prop := 0 < a ∧ ∀ b ∈ s.blocks, a + n ≤ b.1 ∨ b.1 + b.2 ≤ a

/-- What the language and CUDA require of the caller: objects are used during their lifetime, an array
outlives the slices that refer to it, copies do not overlap; and the contract of `cudaMalloc`.  The
copy constructor is left out, see `C117_violated_copy_constructor`. -/
def Legal (s : St V) : Op V → Prop
  | .construct i => s.objs i = none
  | .copyConstruct _ _ => False
  | .allocate i cap a => s.objs i ≠ none ∧ Fresh s a cap.toNat
  | .associate i j _ _ => s.objs i ≠ none ∧ s.objs j ≠ none
  | .deallocate i => s.objs i ≠ none
  | .dissociate i => s.objs i ≠ none
  | .assign i j a => ∃ o q, s.objs i = some o ∧ s.objs j = some q ∧ Fresh s a q.cap.toNat ∧
      (o.data = 0 ∨ o.data = q.data ∨ o.data + o.cap.toNat ≤ q.data ∨ q.data + q.cap.toNat ≤ o.data)
  | .assignHost i h a => s.objs i ≠ none ∧ Fresh s a h.length
  | .write i _ _ => s.objs i ≠ none
  | .destroy i => s.objs i ≠ none ∧ ∀ j o, s.objs j = some o → o.owner ≠ some i

/-- States that a program can reach.  An operation that throws leaves the state as it was. -/
inductive Reach : St V → Prop
  | init : Reach St.init
  | step (s : St V) (op : Op V) (s' : St V) : Reach s → Legal s op → run s op = .ok s' → Reach s'

/-- Invariant. -/
structure Inv (s : St V) : Prop where
  pos : ∀ b ∈ s.blocks, 0 < b.1 ∧ 0 < b.2
  disj : s.blocks.Pairwise fun a b => a.1 + a.2 ≤ b.1 ∨ b.1 + b.2 ≤ a.1
  own : ∀ i o, s.objs i = some o → o.owner = none → o.data ≠ 0 → 0 < o.cap ∧ (o.data, o.cap.toNat) ∈ s.blocks
  uniq : ∀ i j o o', s.objs i = some o → s.objs j = some o' → o.owner = none → o'.owner = none → o.data ≠ 0 →
    o.data = o'.data → i = j
  noleak : ∀ b ∈ s.blocks, ∃ i o, s.objs i = some o ∧ o.owner = none ∧ o.data = b.1
  slice : ∀ i o p, s.objs i = some o → o.owner = some p → o.data ≠ 0 ∧ 0 < o.cap ∧ o.ownerData ≤ o.data ∧
    (o.data : Int) + o.cap ≤ o.ownerData + o.ownerCap ∧ o.stamp < s.clock ∧
    ∃ q, s.objs p = some q ∧ (q.owner ≠ none → o.stamp < q.stamp)
  empty : ∀ i o, s.objs i = some o → o.data = 0 → o.cap ≤ 0

theorem Inv.init : Inv (St.init : St V) := by
  constructor <;> simp [St.init]

theorem check_ok {b : Bool} {u : Unit} : Res.check b = .ok u ↔ b = true := by
  cases b <;> simp [Res.check]

theorem check_ub {b : Bool} : Res.check b ≠ .ub := by
  cases b <;> simp [Res.check]

theorem bind_ub {α β : Type} {x : Res α} {f : α → Res β} (h : Res.bind x f = .ub) : x = .ub ∨ ∃ a, x = .ok a ∧ f a = .ub := by
  cases x with
  | ok a => exact Or.inr ⟨a, rfl, h⟩
  | throw => cases h
  | ub => exact Or.inl rfl

theorem obj_ok {s : St V} {i : Nat} {o : Obj} : obj s i = .ok o ↔ s.objs i = some o := by
  unfold obj
  cases s.objs i <;> simp

theorem obj_ub {s : St V} {i : Nat} : obj s i = .ub ↔ s.objs i = none := by
  unfold obj
  cases s.objs i <;> simp

/-! ## The checks of the owner -/

theorem guard_none {s : St V} {f : Nat} {o : Obj} (h : o.owner = none) : o.guard s f = .ok () := by
  cases f <;> simp [Obj.guard, h]

theorem guard_some {s : St V} {f : Nat} {o : Obj} {p : Nat} (h : o.owner = some p) (hg : o.guard s f = .ok ()) :
    ∃ f' q, f = f' + 1 ∧ s.objs p = some q ∧ q.guard s f' = .ok () ∧ q.data ≠ 0 ∧ q.cap = o.ownerCap ∧ q.data = o.ownerData := by
  cases f with
  | zero => simp [Obj.guard, h] at hg
  | succ f =>
    rw [Obj.guard] at hg
    simp only [h] at hg
    cases hq : s.objs p with
    | none => rw [hq] at hg; simp at hg
    | some q =>
      rw [hq] at hg
      simp only [Res.bind_eq_ok, check_ok, decide_eq_true_eq] at hg
      obtain ⟨⟨⟩, h1, ⟨⟩, h2, ⟨⟩, h3, ⟨⟩, -, h4⟩ := hg
      exact ⟨f, q, rfl, rfl, h1, h2, h3, h4⟩

theorem guard_not_ub {s : St V} (I : Inv s) (f : Nat) : ∀ i o, s.objs i = some o → (o.owner ≠ none → s.clock ≤ o.stamp + f) →
    o.guard s f ≠ .ub := by
  induction f with
  | zero =>
    intro i o hi hc
    cases ho : o.owner with
    | none => rw [guard_none ho]; simp
    | some p =>
      have := (I.slice i o p hi ho).2.2.2.2.1
      have := hc (by simp [ho])
      omega
  | succ f ih =>
    intro i o hi hc h
    cases ho : o.owner with
    | none => rw [guard_none ho] at h; simp at h
    | some p =>
      have hc' := hc (by simp [ho])
      obtain ⟨-, -, -, -, -, q, hq, hs⟩ := I.slice i o p hi ho
      have hg := ih p q hq fun hn => by have := hs hn; omega
      rw [Obj.guard] at h
      simp only [ho, hq] at h
      rcases bind_ub h with h | ⟨⟨⟩, -, h⟩
      · exact hg h
      rcases bind_ub h with h | ⟨⟨⟩, -, h⟩
      · exact check_ub h
      rcases bind_ub h with h | ⟨⟨⟩, -, h⟩
      · exact check_ub h
      rcases bind_ub h with h | ⟨⟨⟩, -, h⟩
      · exact hg h
      · exact check_ub h

theorem isAllocated_not_ub {s : St V} (I : Inv s) {i : Nat} {o : Obj} (h : s.objs i = some o) : isAllocated s o ≠ .ub := by
  intro hu
  rcases bind_ub hu with h1 | ⟨⟨⟩, -, h1⟩
  · exact guard_not_ub I s.clock i o h (by omega) h1
  · cases h1

theorem cArray_not_ub {s : St V} (I : Inv s) {i : Nat} {o : Obj} (h : s.objs i = some o) : cArray s o ≠ .ub := by
  intro hu
  rcases bind_ub hu with h1 | ⟨⟨⟩, -, h1⟩
  · exact guard_not_ub I s.clock i o h (by omega) h1
  · cases h1

theorem isAllocated_ok {s : St V} {o : Obj} {b : Bool} : isAllocated s o = .ok b ↔ o.guard s s.clock = .ok () ∧ b = decide (o.data ≠ 0) := by
  unfold isAllocated
  rw [Res.bind_eq_ok]
  constructor
  · rintro ⟨⟨⟩, h1, h2⟩
    simp only [Res.pure_eq, Res.ok.injEq] at h2
    exact ⟨h1, h2.symm⟩
  · rintro ⟨h1, h2⟩
    exact ⟨(), h1, by rw [h2]; rfl⟩

theorem cArray_ok {s : St V} {o : Obj} {p : Nat} : cArray s o = .ok p ↔ o.guard s s.clock = .ok () ∧ p = o.data := by
  unfold cArray
  rw [Res.bind_eq_ok]
  constructor
  · rintro ⟨⟨⟩, h1, h2⟩
    simp only [Res.pure_eq, Res.ok.injEq] at h2
    exact ⟨h1, h2.symm⟩
  · rintro ⟨h1, h2⟩
    exact ⟨(), h1, by rw [h2]; rfl⟩

/-- An array whose checks pass lies in one allocated block. -/
theorem guard_block {s : St V} (I : Inv s) (f : Nat) : ∀ i o, s.objs i = some o → o.guard s f = .ok () → o.data ≠ 0 →
    0 < o.cap ∧ ∃ b ∈ s.blocks, b.1 ≤ o.data ∧ o.data + o.cap.toNat ≤ b.1 + b.2 := by
  induction f with
  | zero =>
    intro i o hi hg hd
    cases ho : o.owner with
    | none =>
      have := I.own i o hi ho hd
      exact ⟨this.1, _, this.2, le_rfl, le_rfl⟩
    | some p => simp [Obj.guard, ho] at hg
  | succ f ih =>
    intro i o hi hg hd
    cases ho : o.owner with
    | none =>
      have := I.own i o hi ho hd
      exact ⟨this.1, _, this.2, le_rfl, le_rfl⟩
    | some p =>
      obtain ⟨f', q, e, hq, h1, h2, h3, h4⟩ := guard_some ho hg
      obtain rfl : f = f' := by omega
      obtain ⟨-, a2, a3, a4, -⟩ := I.slice i o p hi ho
      obtain ⟨b0, b, hb, b1, b2⟩ := ih p q hq h1 h2
      refine ⟨a2, b, hb, by omega, ?_⟩
      omega

theorem guard_live {s : St V} (I : Inv s) {i : Nat} {o : Obj} (hi : s.objs i = some o) (hg : o.guard s s.clock = .ok ())
    (hd : o.data ≠ 0) {k : Nat} (hk : (k : Int) < o.cap) : Live s (o.data + k) := by
  obtain ⟨h0, b, hb, h1, h2⟩ := guard_block I _ i o hi hg hd
  exact ⟨b, hb, by omega, by omega⟩

theorem free_ok {s s' : St V} {a : Nat} (h : free s a = .ok s') :
    a ∈ s.blocks.map Prod.fst ∧ s' = { s with blocks := s.blocks.filter fun b => decide (b.1 ≠ a) } := by
  unfold free at h
  split at h
  · rename_i hm
    simp only [Res.ok.injEq] at h
    exact ⟨hm, h.symm⟩
  · cases h

/-! ## Preservation -/

theorem Inv.setMem {s : St V} (I : Inv s) (m : Nat → Option V) : Inv { s with mem := m } :=
  ⟨I.pos, I.disj, I.own, I.uniq, I.noleak, I.slice, I.empty⟩

theorem inv_construct {s : St V} (I : Inv s) {i : Nat} (hi : s.objs i = none) : Inv (s.set i (some Obj.default)) := by
  refine ⟨I.pos, I.disj, ?_, ?_, ?_, ?_, ?_⟩
  · intro j o hj ho hd
    simp only [St.set] at hj
    split at hj
    · cases hj; exact absurd rfl hd
    · exact I.own j o hj ho hd
  · intro j k o o' hj hk h1 h2 hd e
    simp only [St.set] at hj hk
    split at hj
    · cases hj; exact absurd rfl hd
    · split at hk
      · cases hk; exact absurd e hd
      · exact I.uniq j k o o' hj hk h1 h2 hd e
  · intro b hb
    obtain ⟨j, o, hj, h1, h2⟩ := I.noleak b hb
    refine ⟨j, o, ?_, h1, h2⟩
    simp only [St.set]
    rw [if_neg (by rintro rfl; rw [hi] at hj; cases hj)]
    exact hj
  · intro j o p hj ho
    simp only [St.set] at hj
    split at hj
    · cases hj; cases ho
    · obtain ⟨a1, a2, a3, a4, a5, q, hq, hs⟩ := I.slice j o p hj ho
      refine ⟨a1, a2, a3, a4, a5, q, ?_, hs⟩
      simp only [St.set]
      rw [if_neg (by rintro rfl; rw [hi] at hq; cases hq)]
      exact hq
  · intro j o hj hd
    simp only [St.set] at hj
    split at hj
    · cases hj; exact le_rfl
    · exact I.empty j o hj hd

theorem inv_allocate {s : St V} (I : Inv s) {i : Nat} {o : Obj} (hi : s.objs i = some o)
    (hd : o.data = 0) {cap : Int} (hc : 0 < cap) {a : Nat} (hF : Fresh s a cap.toNat) :
    Inv ((malloc s a cap.toNat).set i (some { o with data := a, cap := cap, owner := none })) := by
  have hnew : ∀ b ∈ s.blocks, b.1 ≠ a := by
    intro b hb e
    have h1 := I.pos b hb
    have h2 := hF.2 b hb
    omega
  refine ⟨?_, ?_, ?_, ?_, ?_, ?_, ?_⟩
  · intro b hb
    rcases List.mem_cons.1 hb with rfl | hb
    · have := hF.1
      exact ⟨by simpa using this, by show 0 < cap.toNat; omega⟩
    · exact I.pos b hb
  · exact List.pairwise_cons.2 ⟨fun b hb => hF.2 b hb, I.disj⟩
  · intro j o' hj ho' hd'
    simp only [St.set] at hj
    split at hj
    · cases hj
      exact ⟨hc, List.mem_cons_self ..⟩
    · have := I.own j o' hj ho' hd'
      exact ⟨this.1, List.mem_cons_of_mem _ this.2⟩
  · intro j k o1 o2 hj hk h1 h2 hd' e
    simp only [St.set, malloc] at hj hk
    split at hj
    · cases hj
      split at hk
      · omega
      · have := (I.own k o2 hk h2 (by rw [← e]; exact hd')).2
        exact absurd e.symm (hnew _ this)
    · split at hk
      · cases hk
        have := (I.own j o1 hj h1 hd').2
        exact absurd e (hnew _ this)
      · exact I.uniq j k o1 o2 hj hk h1 h2 hd' e
  · intro b hb
    rcases List.mem_cons.1 hb with rfl | hb'
    · exact ⟨i, _, by simp only [St.set, if_true]; rfl, rfl, rfl⟩
    · obtain ⟨j, o', hj, h1, h2⟩ := I.noleak b hb'
      refine ⟨j, o', ?_, h1, h2⟩
      simp only [St.set]
      rw [if_neg]
      · exact hj
      · rintro rfl
        rw [hi] at hj
        cases hj
        have := (I.pos b hb').1
        omega
  · intro j o' p hj ho'
    simp only [St.set] at hj
    split at hj
    · cases hj; cases ho'
    · obtain ⟨a1, a2, a3, a4, a5, q, hq, hs⟩ := I.slice j o' p hj ho'
      refine ⟨a1, a2, a3, a4, a5, ?_⟩
      simp only [St.set]
      by_cases hp : p = i
      · rw [if_pos hp]
        exact ⟨_, rfl, fun h => absurd rfl h⟩
      · rw [if_neg hp]
        exact ⟨q, hq, hs⟩
  · intro j o' hj hd'
    simp only [St.set] at hj
    split at hj
    · cases hj
      have := hF.1
      replace hd' : a = 0 := hd'
      omega
    · exact I.empty j o' hj hd'

theorem inv_associate {s : St V} (I : Inv s) {i j : Nat} {o q : Obj} (hi : s.objs i = some o) (hj : s.objs j = some q)
    (ho : o.data = 0) (hq : q.owner = none) (hqd : q.data ≠ 0) {beginId cap : Int} (h0 : 0 ≤ beginId) (hc : 0 < cap)
    (hle : beginId + cap ≤ q.cap) :
    Inv { s.set i (some ⟨q.data + beginId.toNat, cap, some j, q.cap, q.data, s.clock⟩) with clock := s.clock + 1 } := by
  have hij : j ≠ i := by
    rintro rfl
    rw [hi] at hj
    cases hj
    exact hqd ho
  have hon : o.owner = none := by
    cases h : o.owner with
    | none => rfl
    | some p => exact absurd ho (I.slice i o p hi h).1
  refine ⟨I.pos, I.disj, ?_, ?_, ?_, ?_, ?_⟩
  · intro k o' hk ho' hd
    simp only [St.set] at hk
    split at hk
    · cases hk; cases ho'
    · exact I.own k o' hk ho' hd
  · intro k l o1 o2 hk hl h1 h2 hd e
    simp only [St.set] at hk hl
    split at hk
    · cases hk; cases h1
    · split at hl
      · cases hl; cases h2
      · exact I.uniq k l o1 o2 hk hl h1 h2 hd e
  · intro b hb
    obtain ⟨k, o', hk, h1, h2⟩ := I.noleak b hb
    refine ⟨k, o', ?_, h1, h2⟩
    simp only [St.set]
    rw [if_neg]
    · exact hk
    · rintro rfl
      rw [hi] at hk
      cases hk
      have := (I.pos b hb).1
      omega
  · intro k o' p hk ho'
    simp only [St.set] at hk
    split at hk
    · cases hk
      cases ho'
      refine ⟨by show q.data + _ ≠ 0; omega, hc, by show q.data ≤ q.data + _; omega, ?_, by show s.clock < s.clock + 1; omega, ?_⟩
      · show ((q.data + beginId.toNat : Nat) : Int) + cap ≤ q.data + q.cap
        omega
      · refine ⟨q, ?_, fun h => absurd hq h⟩
        simp only [St.set]
        rw [if_neg hij]
        exact hj
    · obtain ⟨a1, a2, a3, a4, a5, r, hr, hs⟩ := I.slice k o' p hk ho'
      refine ⟨a1, a2, a3, a4, by show o'.stamp < s.clock + 1; omega, ?_⟩
      simp only [St.set]
      by_cases hp : p = i
      · rw [if_pos hp]
        exact ⟨_, rfl, fun _ => a5⟩
      · rw [if_neg hp]
        exact ⟨r, hr, hs⟩
  · intro k o' hk hd
    simp only [St.set] at hk
    split at hk
    · cases hk
      replace hd : q.data + beginId.toNat = 0 := hd
      omega
    · exact I.empty k o' hk hd

/-- Releasing the block of an owner; the object becomes `o'` or is destroyed. -/
theorem inv_release {s : St V} (I : Inv s) {i : Nat} {o : Obj} (hi : s.objs i = some o) (ho : o.owner = none)
    (x : Option Obj) (hx : ∀ o', x = some o' → o'.owner = none ∧ o'.data = 0)
    (hx2 : ∀ o', x = some o' → o'.cap ≤ 0)
    (href : x = none → ∀ j o', s.objs j = some o' → o'.owner ≠ some i) :
    Inv (({ s with blocks := s.blocks.filter fun b => decide (b.1 ≠ o.data) } : St V).set i x) := by
  refine ⟨?_, ?_, ?_, ?_, ?_, ?_, ?_⟩
  · intro b hb
    exact I.pos b (List.mem_of_mem_filter hb)
  · exact I.disj.filter _
  · intro j o' hj ho' hd'
    simp only [St.set] at hj
    split at hj
    · exact absurd (hx o' hj).2 hd'
    · rename_i hne
      have := I.own j o' hj ho' hd'
      refine ⟨this.1, List.mem_filter.2 ⟨this.2, ?_⟩⟩
      rw [decide_eq_true_eq]
      intro e
      exact hne (I.uniq j i o' o hj hi ho' ho hd' e)
  · intro j k o1 o2 hj hk h1 h2 hd' e
    simp only [St.set] at hj hk
    split at hj
    · exact absurd (hx o1 hj).2 hd'
    · split at hk
      · exact absurd (e.trans (hx o2 hk).2) hd'
      · exact I.uniq j k o1 o2 hj hk h1 h2 hd' e
  · intro b hb
    obtain ⟨hb, hne⟩ := List.mem_filter.1 hb
    rw [decide_eq_true_eq] at hne
    obtain ⟨j, o', hj, h1, h2⟩ := I.noleak b hb
    refine ⟨j, o', ?_, h1, h2⟩
    simp only [St.set]
    rw [if_neg]
    · exact hj
    · rintro rfl
      rw [hi] at hj
      cases hj
      exact hne h2.symm
  · intro j o' p hj ho'
    simp only [St.set] at hj
    split at hj
    · rw [(hx o' hj).1] at ho'; cases ho'
    · obtain ⟨a1, a2, a3, a4, a5, q, hq, hs⟩ := I.slice j o' p hj ho'
      refine ⟨a1, a2, a3, a4, a5, ?_⟩
      simp only [St.set]
      by_cases hp : p = i
      · rw [if_pos hp]
        cases hxx : x with
        | none => exact absurd (hp ▸ ho') (href hxx j o' hj)
        | some y => exact ⟨y, rfl, fun h => absurd (hx y hxx).1 h⟩
      · rw [if_neg hp]
        exact ⟨q, hq, hs⟩
  · intro j o' hj hd'
    simp only [St.set] at hj
    split at hj
    · exact hx2 o' hj
    · exact I.empty j o' hj hd'

/-- Replacing an object that owns nothing. -/
theorem inv_drop {s : St V} (I : Inv s) {i : Nat} {o : Obj} (hi : s.objs i = some o) (ho : o.isOwner = false)
    (x : Option Obj) (hx : ∀ o', x = some o' → o'.owner = none ∧ o'.data = 0)
    (hx2 : ∀ o', x = some o' → o'.cap ≤ 0)
    (href : x = none → ∀ j o', s.objs j = some o' → o'.owner ≠ some i) : Inv (s.set i x) := by
  refine ⟨I.pos, I.disj, ?_, ?_, ?_, ?_, ?_⟩
  · intro j o' hj ho' hd'
    simp only [St.set] at hj
    split at hj
    · exact absurd (hx o' hj).2 hd'
    · exact I.own j o' hj ho' hd'
  · intro j k o1 o2 hj hk h1 h2 hd' e
    simp only [St.set] at hj hk
    split at hj
    · exact absurd (hx o1 hj).2 hd'
    · split at hk
      · exact absurd (e.trans (hx o2 hk).2) hd'
      · exact I.uniq j k o1 o2 hj hk h1 h2 hd' e
  · intro b hb
    obtain ⟨j, o', hj, h1, h2⟩ := I.noleak b hb
    refine ⟨j, o', ?_, h1, h2⟩
    simp only [St.set]
    rw [if_neg]
    · exact hj
    · rintro rfl
      rw [hi] at hj
      cases hj
      have := (I.pos b hb).1
      rw [← h2] at this
      simp [Obj.isOwner, h1] at ho
      omega
  · intro j o' p hj ho'
    simp only [St.set] at hj
    split at hj
    · rw [(hx o' hj).1] at ho'; cases ho'
    · obtain ⟨a1, a2, a3, a4, a5, q, hq, hs⟩ := I.slice j o' p hj ho'
      refine ⟨a1, a2, a3, a4, a5, ?_⟩
      simp only [St.set]
      by_cases hp : p = i
      · rw [if_pos hp]
        cases hxx : x with
        | none => exact absurd (hp ▸ ho') (href hxx j o' hj)
        | some y => exact ⟨y, rfl, fun h => absurd (hx y hxx).1 h⟩
      · rw [if_neg hp]
        exact ⟨q, hq, hs⟩
  · intro j o' hj hd'
    simp only [St.set] at hj
    split at hj
    · exact hx2 o' hj
    · exact I.empty j o' hj hd'

theorem isOwner_iff {o : Obj} : o.isOwner = true ↔ o.owner = none ∧ o.data ≠ 0 := by
  simp [Obj.isOwner]

/-! ## Single operations -/

theorem allocate_spec {s s' : St V} {i : Nat} {cap : Int} {a : Nat} (h : allocate s i cap a = .ok s') :
    ∃ o, s.objs i = some o ∧ o.owner = none ∧ o.data = 0 ∧ 0 < cap ∧
      s' = (malloc s a cap.toNat).set i (some { o with data := a, cap := cap, owner := none }) := by
  unfold allocate at h
  simp only [Res.bind_eq_ok, obj_ok, isAllocated_ok, check_ok] at h
  obtain ⟨o, h1, b, ⟨-, rfl⟩, ⟨⟩, h2, ⟨⟩, h3, ⟨⟩, h4, h5⟩ := h
  simp only [Res.pure_eq, Res.ok.injEq] at h5
  simp only [Bool.not_eq_true', decide_eq_false_iff_not, ne_eq, not_not, decide_eq_true_eq] at h2 h3 h4
  exact ⟨o, h1, h3, h2, h4, h5.symm⟩

theorem allocate_not_ub {s : St V} (I : Inv s) {i : Nat} {cap : Int} {a : Nat} (hi : s.objs i ≠ none) :
    allocate s i cap a ≠ .ub := by
  intro h
  unfold allocate at h
  rcases bind_ub h with h | ⟨o, h1, h⟩
  · exact hi (obj_ub.1 h)
  rcases bind_ub h with h | ⟨b, -, h⟩
  · exact isAllocated_not_ub I (obj_ok.1 h1) h
  rcases bind_ub h with h | ⟨⟨⟩, -, h⟩
  · exact check_ub h
  rcases bind_ub h with h | ⟨⟨⟩, -, h⟩
  · exact check_ub h
  rcases bind_ub h with h | ⟨⟨⟩, -, h⟩
  · exact check_ub h
  cases h

theorem associate_spec {s s' : St V} {i j : Nat} {beginId cap : Int} (h : associate s i j beginId cap = .ok s') :
    ∃ o q, s.objs i = some o ∧ s.objs j = some q ∧ o.data = 0 ∧ q.owner = none ∧ q.data ≠ 0 ∧ 0 ≤ beginId ∧ 0 < cap ∧
      beginId + cap ≤ q.cap ∧
      s' = { s.set i (some ⟨q.data + beginId.toNat, cap, some j, q.cap, q.data, s.clock⟩) with clock := s.clock + 1 } := by
  unfold associate at h
  simp only [Res.bind_eq_ok, obj_ok, isAllocated_ok, cArray_ok, check_ok] at h
  obtain ⟨o, h1, q, h2, b, ⟨-, rfl⟩, ⟨⟩, h3, ⟨⟩, h4, ⟨⟩, h5, ⟨⟩, h6, ⟨⟩, h7, b', ⟨-, rfl⟩, ⟨⟩, h8, p, ⟨-, rfl⟩, h9⟩ := h
  simp only [Res.pure_eq, Res.ok.injEq] at h9
  simp only [Bool.not_eq_true', decide_eq_false_iff_not, ne_eq, not_not, decide_eq_true_eq] at h3 h5 h6 h7 h8
  rw [isOwner_iff] at h4
  exact ⟨o, q, h1, h2, h8, h4.1, h4.2, h5, h6, h7, h9.symm⟩

theorem assign_spec {s s' : St V} {i j a : Nat} (hij : i ≠ j) (h : assign s i j a = .ok s') :
    ∃ o q s1 o1, s.objs i = some o ∧ s.objs j = some q ∧ q.guard s s.clock = .ok () ∧ o.guard s s.clock = .ok () ∧
      q.data ≠ 0 ∧ (o.data ≠ 0 ∧ s1 = s ∨ o.data = 0 ∧ allocate s i q.cap a = .ok s1) ∧ s1.objs i = some o1 ∧
      o1.cap = q.cap ∧ q.guard s1 s1.clock = .ok () ∧ memcpy s1 o1.data q.data o1.cap.toNat = .ok s' := by
  unfold assign at h
  rw [if_neg hij] at h
  simp only [Res.bind_eq_ok, obj_ok, isAllocated_ok, cArray_ok, check_ok] at h
  obtain ⟨q, h1, b, ⟨g1, rfl⟩, ⟨⟩, h2, o, h3, b', ⟨g2, rfl⟩, s1, h4, o1, h5, ⟨⟩, h6, p, ⟨g3, rfl⟩, h7⟩ := h
  simp only [ne_eq, decide_eq_true_eq] at h2 h6
  refine ⟨o, q, s1, o1, h3, h1, g1, g2, h2, ?_, h5, h6, g3, h7⟩
  by_cases hd : o.data = 0
  · right
    simp only [hd, allocateUnless] at h4
    exact ⟨hd, h4⟩
  · left
    simp only [hd, allocateUnless, ne_eq, not_false_eq_true, decide_true, if_true, Res.ok.injEq] at h4
    exact ⟨hd, h4.symm⟩

theorem memcpy_inv {s s' : St V} (I : Inv s) {d c n : Nat} (h : memcpy s d c n = .ok s') : Inv s' := by
  unfold memcpy at h
  split at h
  · simp only [Res.ok.injEq] at h
    subst h
    exact I.setMem _
  · cases h

theorem assignHost_spec {s s' : St V} {i a : Nat} {l : List V} (h : assignHost s i l a = .ok s') :
    ∃ o s1 o1, s.objs i = some o ∧ o.guard s s.clock = .ok () ∧ l ≠ [] ∧
      (o.data ≠ 0 ∧ s1 = s ∨ o.data = 0 ∧ allocate s i l.length a = .ok s1) ∧ s1.objs i = some o1 ∧
      o1.cap = l.length ∧ (∀ x < o1.cap.toNat, Live s1 (o1.data + x)) ∧
      s' = { s1 with mem := fun x => if o1.data ≤ x ∧ x < o1.data + o1.cap.toNat then l[x - o1.data]? else s1.mem x } := by
  unfold assignHost at h
  simp only [Res.bind_eq_ok, obj_ok, isAllocated_ok, check_ok] at h
  obtain ⟨⟨⟩, h1, o, h2, b, ⟨g, rfl⟩, s1, h4, o1, h5, ⟨⟩, h6, h7⟩ := h
  simp only [ne_eq, decide_eq_true_eq] at h1 h6
  split at h7
  · rename_i hl
    simp only [Res.ok.injEq] at h7
    refine ⟨o, s1, o1, h2, g, h1, ?_, h5, h6, hl, h7.symm⟩
    by_cases hd : o.data = 0
    · right
      simp only [hd, allocateUnless] at h4
      exact ⟨hd, h4⟩
    · left
      simp only [hd, allocateUnless, ne_eq, not_false_eq_true, decide_true, if_true, Res.ok.injEq] at h4
      exact ⟨hd, h4.symm⟩
  · cases h7

/-- One operation. -/
theorem step_inv {s s' : St V} (I : Inv s) (op : Op V) (hL : Legal s op) (h : run s op = .ok s') : Inv s' := by
  cases op with
  | construct i =>
    simp only [run, construct, Res.ok.injEq] at h
    subst h
    exact inv_construct I hL
  | copyConstruct i j => exact hL.elim
  | allocate i cap a =>
    obtain ⟨o, h1, h2, h3, h4, rfl⟩ := allocate_spec h
    exact inv_allocate I h1 h3 h4 hL.2
  | associate i j b c =>
    obtain ⟨o, q, h1, h2, h3, h4, h5, h6, h7, h8, rfl⟩ := associate_spec h
    exact inv_associate I h1 h2 h3 h4 h5 h6 h7 h8
  | deallocate i =>
    simp only [run, deallocate, Res.bind_eq_ok, obj_ok, isAllocated_ok, check_ok] at h
    obtain ⟨o, h1, b, ⟨-, rfl⟩, ⟨⟩, -, ⟨⟩, h2, s1, h3, h4⟩ := h
    simp only [Res.pure_eq, Res.ok.injEq] at h4
    obtain ⟨-, rfl⟩ := free_ok h3
    subst h4
    rw [isOwner_iff] at h2
    exact inv_release I h1 h2.1 _ (by intro o' e; cases e; exact ⟨h2.1, rfl⟩) (by intro o' e; cases e; exact le_rfl) (by simp)
  | dissociate i =>
    simp only [run, dissociate, Res.bind_eq_ok, obj_ok, isAllocated_ok, check_ok] at h
    obtain ⟨o, h1, ⟨⟩, h2, b, ⟨-, rfl⟩, ⟨⟩, h3, h4⟩ := h
    simp only [Res.pure_eq, Res.ok.injEq] at h4
    subst h4
    exact inv_drop I h1 (by simpa using h2) _ (by intro o' e; cases e; exact ⟨rfl, rfl⟩) (by intro o' e; cases e; exact le_rfl) (by simp)
  | assign i j a =>
    simp only [run] at h
    by_cases hij : i = j
    · unfold assign at h
      rw [if_pos hij] at h
      cases ho : obj s i with
      | ok o =>
        rw [ho] at h
        simp only [Res.map, Res.ok.injEq] at h
        exact h ▸ I
      | throw => rw [ho] at h; cases h
      | ub => rw [ho] at h; cases h
    · obtain ⟨o, q, s1, o1, h1, h2, -, -, h5, h6, h7, h8, h9, h10⟩ := assign_spec hij h
      obtain ⟨o', q', e1, e2, hF, -⟩ := hL
      rw [h2] at e2
      cases e2
      have I1 : Inv s1 := by
        rcases h6 with ⟨-, rfl⟩ | ⟨-, h6⟩
        · exact I
        · obtain ⟨o2, g1, g2, g3, g4, rfl⟩ := allocate_spec h6
          exact inv_allocate I g1 g3 g4 hF
      exact memcpy_inv I1 h10
  | assignHost i l a =>
    obtain ⟨o, s1, o1, h1, -, -, h6, h7, -, -, rfl⟩ := assignHost_spec h
    have I1 : Inv s1 := by
      rcases h6 with ⟨-, rfl⟩ | ⟨-, h6⟩
      · exact I
      · obtain ⟨o2, g1, g2, g3, g4, rfl⟩ := allocate_spec h6
        exact inv_allocate I g1 g3 g4 hL.2
    exact I1.setMem _
  | write i k v =>
    simp only [run, write, Res.bind_eq_ok, obj_ok, cArray_ok, check_ok] at h
    obtain ⟨o, h1, p, -, ⟨⟩, -, h2⟩ := h
    split at h2
    · simp only [Res.ok.injEq] at h2
      subst h2
      exact I.setMem _
    · cases h2
  | destroy i =>
    simp only [run, destroy, Res.bind_eq_ok, obj_ok, isAllocated_ok] at h
    obtain ⟨o, h1, b, ⟨-, rfl⟩, s1, h3, h4⟩ := h
    simp only [Res.pure_eq, Res.ok.injEq] at h4
    subst h4
    cases hb : o.isOwner with
    | true =>
      have hb' := isOwner_iff.1 hb
      rw [hb, Bool.and_true, freeIf, if_pos (by simpa using hb'.2)] at h3
      obtain ⟨-, rfl⟩ := free_ok h3
      exact inv_release I h1 hb'.1 _ (by simp) (by simp) (fun _ => hL.2)
    | false =>
      rw [hb, Bool.and_false, freeIf, if_neg (by simp)] at h3
      simp only [Res.ok.injEq] at h3
      subst h3
      exact inv_drop I h1 hb _ (by simp) (by simp) (fun _ => hL.2)

theorem Reach.inv {s : St V} (h : Reach s) : Inv s := by
  induction h with
  | init => exact Inv.init
  | step s op s' _ hL h ih => exact step_inv ih op hL h

/-! ## Absence of undefined behaviour -/

/-- The checks are not affected by a change to an array that has no memory. -/
theorem guard_stable {s s' : St V} {i : Nat} (hi : ∀ q, s.objs i = some q → q.data = 0)
    (hs : ∀ j, j ≠ i → s'.objs j = s.objs j) (f : Nat) : ∀ o : Obj, o.guard s f = .ok () → o.guard s' f = .ok () := by
  induction f with
  | zero =>
    intro o h
    cases ho : o.owner with
    | none => exact guard_none ho
    | some p => simp [Obj.guard, ho] at h
  | succ f ih =>
    intro o h
    cases ho : o.owner with
    | none => exact guard_none ho
    | some p =>
      obtain ⟨f', q, e, hq, h1, h2, h3, h4⟩ := guard_some ho h
      obtain rfl : f = f' := by omega
      have hp : p ≠ i := by
        rintro rfl
        exact h2 (hi q hq)
      have h5 : ¬ o.ownerData = 0 := h4 ▸ h2
      rw [Obj.guard]
      simp only [ho, hs p hp, hq, ih q h1, Res.ok_bind, h3, h4, h5, ne_eq, not_false_eq_true, decide_true]
      rfl

theorem guard_congr {s s' : St V} (hs : s'.objs = s.objs) (f : Nat) : ∀ o : Obj, o.guard s' f = o.guard s f := by
  induction f with
  | zero => intro o; rfl
  | succ f ih =>
    intro o
    rw [Obj.guard, Obj.guard, hs]
    cases o.owner with
    | none => rfl
    | some p =>
      dsimp only
      cases s.objs p with
      | none => rfl
      | some q => simp only [ih]

theorem guard_mono {s : St V} (f : Nat) : ∀ o : Obj, o.guard s f = .ok () → o.guard s (f + 1) = .ok () := by
  induction f with
  | zero =>
    intro o h
    cases ho : o.owner with
    | none => exact guard_none ho
    | some p => simp [Obj.guard, ho] at h
  | succ f ih =>
    intro o h
    cases ho : o.owner with
    | none => exact guard_none ho
    | some p =>
      obtain ⟨f', q, e, hq, h1, h2, h3, h4⟩ := guard_some ho h
      obtain rfl : f = f' := by omega
      have h5 : ¬ o.ownerData = 0 := h4 ▸ h2
      rw [Obj.guard]
      simp only [ho, hq, ih q h1, Res.ok_bind, h3, h4, h5, ne_eq, not_false_eq_true, decide_true]
      rfl

/-- An array that refers to no memory is not a slice. -/
theorem Inv.owner_none {s : St V} (I : Inv s) {i : Nat} {o : Obj} (hi : s.objs i = some o) (hd : o.data = 0) :
    o.owner = none := by
  cases h : o.owner with
  | none => rfl
  | some p => exact absurd hd (I.slice i o p hi h).1

/-- When `allocate` succeeds. -/
theorem allocate_ok {s : St V} (I : Inv s) {i : Nat} {o : Obj} (hi : s.objs i = some o) (hd : o.data = 0) {cap : Int}
    (hc : 0 < cap) (a : Nat) : allocate s i cap a =
      .ok ((malloc s a cap.toNat).set i (some { o with data := a, cap := cap, owner := none })) := by
  have ho := I.owner_none hi hd
  have h1 : isAllocated s o = .ok false := isAllocated_ok.2 ⟨guard_none ho, by simp [hd]⟩
  unfold allocate
  rw [obj_ok.2 hi, Res.ok_bind, h1, Res.ok_bind]
  simp only [ho, hc, decide_true, Bool.not_false]
  rfl

theorem blocks_apart {s : St V} {a n : Nat} (hF : Fresh s a n) {b : Nat × Nat} (hb : b ∈ s.blocks) {d c : Nat}
    (h1 : b.1 ≤ d) (h2 : d + c ≤ b.1 + b.2) : a + n ≤ d ∨ d + c ≤ a := by
  have := hF.2 b hb
  omega

/-- The state in which elements are copied, and that the copy is defined. -/
theorem assign_core {s : St V} (I : Inv s) {i j a : Nat} {o q : Obj} (hi : s.objs i = some o) (hj : s.objs j = some q)
    (hF : Fresh s a q.cap.toNat)
    (hov : o.data = 0 ∨ o.data = q.data ∨ o.data + o.cap.toNat ≤ q.data ∨ q.data + q.cap.toNat ≤ o.data)
    (gq : q.guard s s.clock = .ok ()) (go : o.guard s s.clock = .ok ()) (hq : q.data ≠ 0)
    (hc : o.data = 0 ∨ o.cap = q.cap) :
    ∃ s1 o1, allocateUnless s (decide (o.data ≠ 0)) i q.cap a = .ok s1 ∧ s1.objs i = some o1 ∧ o1.cap = q.cap ∧
      q.guard s1 s1.clock = .ok () ∧ o1.data ≠ 0 ∧
      (∀ x < o1.cap.toNat, Live s1 (o1.data + x) ∧ Live s1 (q.data + x)) ∧
      (o1.data = q.data ∨ o1.data + o1.cap.toNat ≤ q.data ∨ q.data + o1.cap.toNat ≤ o1.data) ∧
      (∀ x, x < q.cap.toNat → s1.mem (q.data + x) = s.mem (q.data + x)) := by
  by_cases hd : o.data = 0
  · obtain ⟨hc0, b, hb, hb1, hb2⟩ := guard_block I _ j q hj gq hq
    have ap := blocks_apart hF hb hb1 hb2
    refine ⟨(malloc s a q.cap.toNat).set i (some { o with data := a, cap := q.cap, owner := none }),
      { o with data := a, cap := q.cap, owner := none }, ?_, ?_, rfl, ?_, ?_, ?_, ?_, ?_⟩
    · rw [allocateUnless, if_neg (by simp [hd])]
      exact allocate_ok I hi hd hc0 a
    · simp only [St.set, if_true]
    · exact guard_stable (fun q' h => by rw [hi] at h; cases h; exact hd) (fun k hk => by simp only [St.set, if_neg hk]; rfl) _ _ gq
    · have := hF.1
      show a ≠ 0
      omega
    · intro x hx
      replace hx : x < q.cap.toNat := hx
      refine ⟨⟨(a, q.cap.toNat), List.mem_cons_self .., ?_, ?_⟩, ⟨b, List.mem_cons_of_mem _ hb, by omega, by omega⟩⟩
      · show a ≤ a + x; omega
      · show a + x < a + q.cap.toNat; omega
    · right
      show a + q.cap.toNat ≤ q.data ∨ q.data + q.cap.toNat ≤ a
      exact ap
    · intro x hx
      show (if a ≤ q.data + x ∧ q.data + x < a + q.cap.toNat then none else s.mem (q.data + x)) = _
      rw [if_neg (by omega)]
  · have hc' := hc.resolve_left hd
    refine ⟨s, o, by simp [allocateUnless, hd], hi, hc', gq, hd, ?_, ?_, fun _ _ => rfl⟩
    · intro x hx
      refine ⟨guard_live I hi go hd (by omega), guard_live I hj gq hq (by omega)⟩
    · rcases hov with h | h | h | h
      · exact absurd h hd
      · exact Or.inl h
      · exact Or.inr (Or.inl h)
      · exact Or.inr (Or.inr (by rw [hc']; exact h))

/-- What an assignment that passes its checks does. -/
theorem assign_ok {s : St V} (I : Inv s) {i j a : Nat} {o q : Obj} (hij : i ≠ j) (hi : s.objs i = some o)
    (hj : s.objs j = some q) (hF : Fresh s a q.cap.toNat)
    (hov : o.data = 0 ∨ o.data = q.data ∨ o.data + o.cap.toNat ≤ q.data ∨ q.data + q.cap.toNat ≤ o.data)
    (gq : q.guard s s.clock = .ok ()) (go : o.guard s s.clock = .ok ()) (hq : q.data ≠ 0)
    (hc : o.data = 0 ∨ o.cap = q.cap) : ∃ s', assign s i j a = .ok s' := by
  obtain ⟨s1, o1, h1, h2, h3, h4, -, h5, h6, -⟩ := assign_core I hi hj hF hov gq go hq hc
  refine ⟨{ s1 with mem := fun x => if o1.data ≤ x ∧ x < o1.data + o1.cap.toNat then s1.mem (q.data + (x - o1.data)) else s1.mem x }, ?_⟩
  unfold assign
  rw [if_neg hij]
  simp only [Res.bind_eq_ok, obj_ok, isAllocated_ok, cArray_ok, check_ok]
  refine ⟨q, hj, _, ⟨gq, rfl⟩, (), by simpa using hq, o, hi, _, ⟨go, rfl⟩, s1, h1, o1, h2, (), by simpa using h3, q.data, ⟨h4, rfl⟩, ?_⟩
  rw [memcpy, if_pos ⟨h5, h6⟩]

/-- One operation. -/
theorem step_not_ub {s : St V} (I : Inv s) (op : Op V) (hL : Legal s op) : run s op ≠ .ub := by
  intro h
  cases op with
  | construct i => simp [run, construct] at h
  | copyConstruct i j => exact hL.elim
  | allocate i cap a => exact allocate_not_ub I hL.1 h
  | associate i j b c =>
    simp only [run, associate] at h
    rcases bind_ub h with h | ⟨o, h1, h⟩
    · exact hL.1 (obj_ub.1 h)
    rcases bind_ub h with h | ⟨q, h2, h⟩
    · exact hL.2 (obj_ub.1 h)
    rcases bind_ub h with h | ⟨_, -, h⟩
    · exact isAllocated_not_ub I (obj_ok.1 h2) h
    iterate 5
      rcases bind_ub h with h | ⟨⟨⟩, -, h⟩
      · exact check_ub h
    rcases bind_ub h with h | ⟨_, -, h⟩
    · exact isAllocated_not_ub I (obj_ok.1 h1) h
    rcases bind_ub h with h | ⟨⟨⟩, -, h⟩
    · exact check_ub h
    rcases bind_ub h with h | ⟨_, -, h⟩
    · exact cArray_not_ub I (obj_ok.1 h2) h
    cases h
  | deallocate i =>
    simp only [run, deallocate] at h
    rcases bind_ub h with h | ⟨o, h1, h⟩
    · exact hL (obj_ub.1 h)
    rcases bind_ub h with h | ⟨_, -, h⟩
    · exact isAllocated_not_ub I (obj_ok.1 h1) h
    rcases bind_ub h with h | ⟨⟨⟩, -, h⟩
    · exact check_ub h
    rcases bind_ub h with h | ⟨⟨⟩, h2, h⟩
    · exact check_ub h
    have h3 := isOwner_iff.1 (check_ok.1 h2)
    have h4 := (I.own i o (obj_ok.1 h1) h3.1 h3.2).2
    rw [free, if_pos (List.mem_map.2 ⟨_, h4, rfl⟩)] at h
    cases h
  | dissociate i =>
    simp only [run, dissociate] at h
    rcases bind_ub h with h | ⟨o, h1, h⟩
    · exact hL (obj_ub.1 h)
    rcases bind_ub h with h | ⟨⟨⟩, -, h⟩
    · exact check_ub h
    rcases bind_ub h with h | ⟨_, -, h⟩
    · exact isAllocated_not_ub I (obj_ok.1 h1) h
    rcases bind_ub h with h | ⟨⟨⟩, -, h⟩
    · exact check_ub h
    cases h
  | assign i j a =>
    simp only [run, assign] at h
    obtain ⟨o, q, h1, h2, hF, hov⟩ := hL
    split at h
    · rw [obj_ok.2 h1] at h; cases h
    rw [obj_ok.2 h2, Res.ok_bind] at h
    rcases bind_ub h with h | ⟨b, hb, h⟩
    · exact isAllocated_not_ub I h2 h
    rcases bind_ub h with h | ⟨⟨⟩, hb', h⟩
    · exact check_ub h
    rw [obj_ok.2 h1, Res.ok_bind] at h
    rcases bind_ub h with h | ⟨b', hb2, h⟩
    · exact isAllocated_not_ub I h1 h
    obtain ⟨gq, rfl⟩ := isAllocated_ok.1 hb
    obtain ⟨go, rfl⟩ := isAllocated_ok.1 hb2
    have hq : q.data ≠ 0 := by simpa using check_ok.1 hb'
    by_cases hc : o.data = 0 ∨ o.cap = q.cap
    · obtain ⟨s1, o1, e1, e2, e3, e4, -, e5, e6, -⟩ := assign_core I h1 h2 hF hov gq go hq hc
      rw [e1, Res.ok_bind, obj_ok.2 e2, Res.ok_bind] at h
      rcases bind_ub h with h | ⟨⟨⟩, -, h⟩
      · exact check_ub h
      rw [cArray_ok.2 ⟨e4, rfl⟩, Res.ok_bind, memcpy, if_pos ⟨e5, e6⟩] at h
      cases h
    · rw [not_or] at hc
      rw [allocateUnless, if_pos (by simpa using hc.1), Res.ok_bind, obj_ok.2 h1, Res.ok_bind] at h
      rcases bind_ub h with h | ⟨⟨⟩, h3, h⟩
      · exact check_ub h
      · exact hc.2 (by simpa using check_ok.1 h3)
  | assignHost i l a =>
    simp only [run, assignHost] at h
    rcases bind_ub h with h | ⟨⟨⟩, hl, h⟩
    · exact check_ub h
    have hl' : l ≠ [] := by simpa using check_ok.1 hl
    have hpos : 0 < l.length := List.length_pos_of_ne_nil hl'
    rcases bind_ub h with h | ⟨o, h1, h⟩
    · exact hL.1 (obj_ub.1 h)
    rw [obj_ok] at h1
    rcases bind_ub h with h | ⟨b, hb, h⟩
    · exact isAllocated_not_ub I h1 h
    obtain ⟨go, rfl⟩ := isAllocated_ok.1 hb
    by_cases hd : o.data = 0
    · rw [allocateUnless, if_neg (by simp [hd]), allocate_ok I h1 hd (by omega), Res.ok_bind] at h
      have ho1 : ((malloc s a (l.length : Int).toNat).set i (some { o with data := a, cap := l.length, owner := none })).objs i =
          some { o with data := a, cap := l.length, owner := none } := by simp only [St.set, if_true]
      rw [obj_ok.2 ho1, Res.ok_bind] at h
      rcases bind_ub h with h | ⟨⟨⟩, -, h⟩
      · exact check_ub h
      rw [if_pos] at h
      · cases h
      · intro x hx
        replace hx : x < (l.length : Int).toNat := hx
        refine ⟨(a, (l.length : Int).toNat), List.mem_cons_self .., ?_, ?_⟩
        · show a ≤ a + x; omega
        · show a + x < a + (l.length : Int).toNat; omega
    · rw [allocateUnless, if_pos (by simpa using hd), Res.ok_bind, obj_ok.2 h1, Res.ok_bind] at h
      rcases bind_ub h with h | ⟨⟨⟩, -, h⟩
      · exact check_ub h
      rw [if_pos] at h
      · cases h
      · intro x hx
        exact guard_live I h1 go hd (by omega)
  | write i k v =>
    simp only [run, write] at h
    rcases bind_ub h with h | ⟨o, h1, h⟩
    · exact hL (obj_ub.1 h)
    rw [obj_ok] at h1
    rcases bind_ub h with h | ⟨p, hp, h⟩
    · exact cArray_not_ub I h1 h
    obtain ⟨go, rfl⟩ := cArray_ok.1 hp
    rcases bind_ub h with h | ⟨⟨⟩, hk, h⟩
    · exact check_ub h
    have hk' : (k : Int) < o.cap := by simpa using check_ok.1 hk
    rw [if_pos] at h
    · cases h
    · refine guard_live I h1 go ?_ hk'
      intro hd
      have := I.empty i o h1 hd
      omega
  | destroy i =>
    simp only [run, destroy] at h
    rcases bind_ub h with h | ⟨o, h1, h⟩
    · exact hL.1 (obj_ub.1 h)
    rcases bind_ub h with h | ⟨b, hb, h⟩
    · exact isAllocated_not_ub I (obj_ok.1 h1) h
    rcases bind_ub h with h | ⟨_, -, h⟩
    · rw [freeIf] at h
      split at h
      · rename_i hc
        have h3 := isOwner_iff.1 (Bool.and_eq_true_iff.1 hc).2
        have h4 := (I.own i o (obj_ok.1 h1) h3.1 h3.2).2
        rw [free, if_pos (List.mem_map.2 ⟨_, h4, rfl⟩)] at h
        cases h
      · cases h
    · cases h

end Verif.DevArr
