import Verif.Chem.Model
import Mathlib.Combinatorics.SimpleGraph.Acyclic
import Mathlib.Data.List.Basic
import Mathlib.Data.List.Nodup
import Mathlib.Tactic.Linarith

/-! Helper lemmas for polymer block graphs. -/

namespace Verif.Chem

/-- Vertex ids are in range and the two ends of a block differ. -/
def WF (es : List Edge) : Prop :=
  ∀ e ∈ es, 0 ≤ e.1 ∧ e.1 ≤ es.length ∧ 0 ≤ e.2 ∧ e.2 ≤ es.length ∧ e.1 ≠ e.2

/-- Vertex where propagator `p` starts. -/
def src (es : List Edge) (p : Pid) : Int := vid (edge es p.1) p.2

/-- Vertex where propagator `p` ends. -/
def dst (es : List Edge) (p : Pid) : Int := vid (edge es p.1) (!p.2)

/-! ### The vertex table -/

/-- Table `vs` describes the first `k` blocks of `es`. -/
def VInv (es : List Edge) (k : Nat) (vs : List Vertex) : Prop :=
  ∀ i : Nat, i < vs.length → ∃ v, vs[i]? = some v ∧ v.id = i ∧
    (∀ p : Pid, p ∈ v.inP ↔ p.1 < k ∧ dst es p = i) ∧
    (∀ p : Pid, p ∈ v.outP ↔ p.1 < k ∧ src es p = i) ∧ v.inP.Nodup ∧ v.outP.Nodup

theorem addAt_ok {vs vs' : List Vertex} {i : Int} {k : Nat} {e : Edge}
    (h : addAt vs i k e = .ok vs') : 0 ≤ i ∧ ∃ v v', vs[i.toNat]? = some v ∧
      v.addEdge k e = .ok v' ∧ vs' = vs.set i.toNat v' := by
  unfold addAt at h
  split at h
  · rename_i h0
    split at h
    · cases h
    · rename_i v hv
      rw [Res.bind_eq_ok] at h
      obtain ⟨v', h1, h2⟩ := h
      simp only [Res.pure_eq, Res.ok.injEq] at h2
      exact ⟨h0, v, v', hv, h1, h2.symm⟩
  · cases h

theorem addEdge_ok {v v' : Vertex} {k : Nat} {e : Edge} (h : v.addEdge k e = .ok v') :
    0 ≤ e.1 ∧ 0 ≤ e.2 ∧ e.1 ≠ e.2 ∧
    ((e.1 = v.id ∧ v' = { v with outP := v.outP ++ [(k, false)], inP := v.inP ++ [(k, true)] }) ∨
     (e.2 = v.id ∧ v' = { v with outP := v.outP ++ [(k, true)], inP := v.inP ++ [(k, false)] })) := by
  unfold Vertex.addEdge at h
  split at h; · cases h
  split at h; · cases h
  split at h; · cases h
  split at h; · cases h
  rename_i h1 h2 h3 h4
  refine ⟨by omega, by omega, h4, ?_⟩
  split at h
  · rename_i h5
    exact Or.inl ⟨h5, (Res.ok.inj h).symm⟩
  · split at h
    · rename_i h5 h6
      exact Or.inr ⟨h6, (Res.ok.inj h).symm⟩
    · cases h

theorem edge_append_length (pre es : List Edge) (e : Edge) :
    edge (pre ++ e :: es) pre.length = e := by
  simp [edge, List.getD]

theorem nodup_append_block {l : List Pid} {k : Nat} {d : Bool} (hn : l.Nodup)
    (hl : ∀ p ∈ l, p.1 < k) : (l ++ [(k, d)]).Nodup := by
  rw [List.nodup_append]
  refine ⟨hn, by simp, ?_⟩
  intro a ha b hb
  simp only [List.mem_singleton] at hb
  subst hb
  intro hab
  have := hl a ha
  rw [hab] at this; simp at this

/-- One block added to both of its vertices. -/
theorem VInv.step {full : List Edge} {k : Nat} {vs vs1 vs2 : List Vertex} {e : Edge}
    (hk : edge full k = e) (hinv : VInv full k vs) (h1 : addAt vs e.1 k e = .ok vs1)
    (h2 : addAt vs1 e.2 k e = .ok vs2) :
    VInv full (k + 1) vs2 ∧ vs2.length = vs.length ∧ 0 ≤ e.1 ∧ e.1 < vs.length ∧
      0 ≤ e.2 ∧ e.2 < vs.length ∧ e.1 ≠ e.2 := by
  obtain ⟨a0, v, v', hv, hv', rfl⟩ := addAt_ok h1
  obtain ⟨b0, u, u', hu, hu', rfl⟩ := addAt_ok h2
  obtain ⟨c1, c2, c3, c4⟩ := addEdge_ok hv'
  obtain ⟨_, _, _, d4⟩ := addEdge_ok hu'
  have la : e.1.toNat < vs.length := by
    by_contra hc
    rw [List.getElem?_eq_none (by omega)] at hv; cases hv
  have hne : e.1.toNat ≠ e.2.toNat := by omega
  rw [List.getElem?_set_ne hne] at hu
  have lb : e.2.toNat < vs.length := by
    by_contra hc
    rw [List.getElem?_eq_none (by omega)] at hu; cases hu
  obtain ⟨v0, q0, q1, q2, q3, q4, q5⟩ := hinv e.1.toNat la
  rw [hv] at q0; cases q0
  obtain ⟨u0, r0, r1, r2, r3, r4, r5⟩ := hinv e.2.toNat lb
  rw [hu] at r0; cases r0
  have hv'' : v' = { v with outP := v.outP ++ [(k, false)], inP := v.inP ++ [(k, true)] } := by
    rcases c4 with ⟨_, h⟩ | ⟨h, _⟩
    · exact h
    · omega
  have hu'' : u' = { u with outP := u.outP ++ [(k, true)], inP := u.inP ++ [(k, false)] } := by
    rcases d4 with ⟨h, _⟩ | ⟨_, h⟩
    · omega
    · exact h
  have dstk : ∀ d, dst full (k, d) = if d then e.1 else e.2 := by
    intro d; cases d <;> simp [dst, hk, vid]
  have srck : ∀ d, src full (k, d) = if d then e.2 else e.1 := by
    intro d; cases d <;> simp [src, hk, vid]
  refine ⟨?_, by simp, a0, by omega, b0, by omega, c3⟩
  intro i hi
  simp only [List.length_set] at hi
  have split_lt : ∀ p : Pid, p.1 < k + 1 ↔ p.1 < k ∨ p = (k, false) ∨ p = (k, true) := by
    rintro ⟨b, d⟩
    constructor
    · intro h
      by_cases hb : b < k
      · exact Or.inl hb
      · have : b = k := by simp at h; omega
        subst this
        cases d <;> simp
    · rintro (h | h | h)
      · simp at h ⊢; omega
      · cases h; simp
      · cases h; simp
  by_cases hie1 : e.1.toNat = i
  · refine ⟨v', ?_, ?_, ?_, ?_, ?_, ?_⟩
    · rw [List.getElem?_set_ne (by omega), hie1, List.getElem?_set_self (by omega)]
    · rw [hv'']; simp only; omega
    · intro p
      rw [hv'']
      simp only [List.mem_append, List.mem_singleton]
      rw [q2, split_lt]
      constructor
      · rintro (⟨h, h'⟩ | rfl)
        · exact ⟨Or.inl h, by omega⟩
        · exact ⟨Or.inr (Or.inr rfl), by rw [dstk]; simp; omega⟩
      · rintro ⟨h | rfl | rfl, h'⟩
        · exact Or.inl ⟨h, by omega⟩
        · rw [dstk] at h'; simp at h'; omega
        · exact Or.inr rfl
    · intro p
      rw [hv'']
      simp only [List.mem_append, List.mem_singleton]
      rw [q3, split_lt]
      constructor
      · rintro (⟨h, h'⟩ | rfl)
        · exact ⟨Or.inl h, by omega⟩
        · exact ⟨Or.inr (Or.inl rfl), by rw [srck]; simp; omega⟩
      · rintro ⟨h | rfl | rfl, h'⟩
        · exact Or.inl ⟨h, by omega⟩
        · exact Or.inr rfl
        · rw [srck] at h'; simp at h'; omega
    · rw [hv'']; exact nodup_append_block q4 (fun p hp => ((q2 p).1 hp).1)
    · rw [hv'']; exact nodup_append_block q5 (fun p hp => ((q3 p).1 hp).1)
  · by_cases hie2 : e.2.toNat = i
    · refine ⟨u', ?_, ?_, ?_, ?_, ?_, ?_⟩
      · rw [hie2, List.getElem?_set_self (by simp; omega)]
      · rw [hu'']; simp only; omega
      · intro p
        rw [hu'']
        simp only [List.mem_append, List.mem_singleton]
        rw [r2, split_lt]
        constructor
        · rintro (⟨h, h'⟩ | rfl)
          · exact ⟨Or.inl h, by omega⟩
          · exact ⟨Or.inr (Or.inl rfl), by rw [dstk]; simp; omega⟩
        · rintro ⟨h | rfl | rfl, h'⟩
          · exact Or.inl ⟨h, by omega⟩
          · exact Or.inr rfl
          · rw [dstk] at h'; simp at h'; omega
      · intro p
        rw [hu'']
        simp only [List.mem_append, List.mem_singleton]
        rw [r3, split_lt]
        constructor
        · rintro (⟨h, h'⟩ | rfl)
          · exact ⟨Or.inl h, by omega⟩
          · exact ⟨Or.inr (Or.inr rfl), by rw [srck]; simp; omega⟩
        · rintro ⟨h | rfl | rfl, h'⟩
          · exact Or.inl ⟨h, by omega⟩
          · rw [srck] at h'; simp at h'; omega
          · exact Or.inr rfl
      · rw [hu'']; exact nodup_append_block r4 (fun p hp => ((r2 p).1 hp).1)
      · rw [hu'']; exact nodup_append_block r5 (fun p hp => ((r3 p).1 hp).1)
    · obtain ⟨w, s0, s1, s2, s3, s4, s5⟩ := hinv i hi
      refine ⟨w, ?_, s1, ?_, ?_, s4, s5⟩
      · rw [List.getElem?_set_ne hie2, List.getElem?_set_ne hie1, s0]
      · intro p
        rw [s2, split_lt]
        constructor
        · rintro ⟨h, h'⟩; exact ⟨Or.inl h, h'⟩
        · rintro ⟨h | rfl | rfl, h'⟩
          · exact ⟨h, h'⟩
          · rw [dstk] at h'; simp at h'; omega
          · rw [dstk] at h'; simp at h'; omega
      · intro p
        rw [s3, split_lt]
        constructor
        · rintro ⟨h, h'⟩; exact ⟨Or.inl h, h'⟩
        · rintro ⟨h | rfl | rfl, h'⟩
          · exact ⟨h, h'⟩
          · rw [srck] at h'; simp at h'; omega
          · rw [srck] at h'; simp at h'; omega

theorem addEdges_inv (es : List Edge) : ∀ (pre : List Edge) (vs vs' : List Vertex),
    VInv (pre ++ es) pre.length vs → addEdges vs pre.length es = .ok vs' →
    VInv (pre ++ es) (pre ++ es).length vs' ∧ vs'.length = vs.length ∧
      ∀ e ∈ es, 0 ≤ e.1 ∧ e.1 < vs.length ∧ 0 ≤ e.2 ∧ e.2 < vs.length ∧ e.1 ≠ e.2 := by
  induction es with
  | nil =>
    intro pre vs vs' hinv h
    simp only [addEdges, Res.ok.injEq] at h
    subst h
    simp only [List.append_nil] at hinv ⊢
    exact ⟨hinv, by simp⟩
  | cons e es ih =>
    intro pre vs vs' hinv h
    simp only [addEdges] at h
    rw [Res.bind_eq_ok] at h
    obtain ⟨vs1, h1, h⟩ := h
    rw [Res.bind_eq_ok] at h
    obtain ⟨vs2, h2, h⟩ := h
    obtain ⟨s1, s2, s3⟩ := VInv.step (edge_append_length pre es e) hinv h1 h2
    have e1 : pre ++ e :: es = (pre ++ [e]) ++ es := by simp
    have e2 : pre.length + 1 = (pre ++ [e]).length := by simp
    rw [e1, e2] at s1
    rw [e2] at h
    obtain ⟨i1, i2, i3⟩ := ih (pre ++ [e]) vs2 vs' s1 h
    rw [e1]
    refine ⟨i1, by omega, ?_⟩
    intro x hx
    rcases List.mem_cons.1 hx with rfl | hx
    · exact s3
    · rw [s2] at i3; exact i3 x hx

theorem initVertices_length (n : Nat) : (initVertices n).length = n + 1 := by
  simp [initVertices]

theorem initVertices_inv (es : List Edge) (n : Nat) : VInv es 0 (initVertices n) := by
  intro i hi
  rw [initVertices_length] at hi
  refine ⟨⟨i, [], []⟩, by simp [initVertices, hi], rfl, by simp, by simp, by simp, by simp⟩

/-- A successfully built vertex table. -/
theorem makeVertices_inv {es : List Edge} {vs : List Vertex} (h : makeVertices es = .ok vs) :
    WF es ∧ vs.length = es.length + 1 ∧ VInv es es.length vs := by
  have := addEdges_inv es [] (initVertices es.length) vs
    (by simpa using initVertices_inv es es.length) h
  rw [initVertices_length] at this
  obtain ⟨h1, h2, h3⟩ := this
  refine ⟨?_, h2, by simpa using h1⟩
  intro e he
  have := h3 e he
  refine ⟨this.1, by push_cast at this; omega, this.2.2.1, by push_cast at this; omega,
    this.2.2.2.2⟩

theorem addAt_success {k : Nat} {vs : List Vertex} {i : Int} {e : Edge}
    (hl : ∀ j : Nat, j < vs.length → ∃ v, vs[j]? = some v ∧ v.id = j)
    (h0 : 0 ≤ i) (h1 : i < vs.length) (e1 : 0 ≤ e.1) (e2 : 0 ≤ e.2) (hne : e.1 ≠ e.2)
    (hi : i = e.1 ∨ i = e.2) : ∃ vs', addAt vs i k e = .ok vs' ∧ vs'.length = vs.length ∧
      (∀ j : Nat, j < vs'.length → ∃ v, vs'[j]? = some v ∧ v.id = j) := by
  obtain ⟨v, hv, hid⟩ := hl i.toNat (by omega)
  have hid' : v.id = i := by omega
  have hadd : ∃ v', v.addEdge k e = .ok v' ∧ v'.id = v.id := by
    unfold Vertex.addEdge
    rw [if_neg (by omega), if_neg (by omega), if_neg (by omega), if_neg hne]
    by_cases hc : e.1 = v.id
    · rw [if_pos hc]; exact ⟨_, rfl, rfl⟩
    · rw [if_neg hc, if_pos (by omega)]; exact ⟨_, rfl, rfl⟩
  obtain ⟨v', hv', hid2⟩ := hadd
  refine ⟨vs.set i.toNat v', ?_, by simp, ?_⟩
  · simp [addAt, h0, hv, hv']
  · intro j hj
    simp only [List.length_set] at hj
    by_cases hij : i.toNat = j
    · subst hij
      exact ⟨v', by rw [List.getElem?_set_self (by omega)], by omega⟩
    · rw [List.getElem?_set_ne hij]; exact hl j hj

theorem addEdges_success (es : List Edge) : ∀ (k : Nat) (vs : List Vertex),
    (∀ j : Nat, j < vs.length → ∃ v, vs[j]? = some v ∧ v.id = j) →
    (∀ e ∈ es, 0 ≤ e.1 ∧ e.1 < vs.length ∧ 0 ≤ e.2 ∧ e.2 < vs.length ∧ e.1 ≠ e.2) →
    ∃ vs', addEdges vs k es = .ok vs' := by
  induction es with
  | nil => intro k vs _ _; exact ⟨vs, rfl⟩
  | cons e es ih =>
    intro k vs hl he
    obtain ⟨a1, a2, a3, a4, a5⟩ := he e (by simp)
    obtain ⟨vs1, h1, l1, q1⟩ := addAt_success (k := k) hl a1 a2 a1 a3 a5 (Or.inl rfl)
    obtain ⟨vs2, h2, l2, q2⟩ := addAt_success (k := k) q1 a3 (by omega) a1 a3 a5
      (Or.inr rfl)
    obtain ⟨vs', h3⟩ := ih (k + 1) vs2 q2 (fun x hx => by
      have := he x (by simp [hx])
      rw [l2, l1]; exact this)
    exact ⟨vs', by simp [addEdges, h1, h2, h3]⟩

theorem makeVertices_success {es : List Edge} (h : WF es) : ∃ vs, makeVertices es = .ok vs := by
  apply addEdges_success
  · intro j hj
    obtain ⟨v, h1, h2, _⟩ := initVertices_inv es es.length j hj
    exact ⟨v, h1, h2⟩
  · intro e he
    rw [initVertices_length]
    have := h e he
    push_cast
    refine ⟨this.1, by omega, this.2.2.1, by omega, this.2.2.2.2⟩

/-- Vertex tables in terms of propagators. -/
theorem mem_inIds {es : List Edge} {vs : List Vertex} (h : makeVertices es = .ok vs) {v : Int}
    (h0 : 0 ≤ v) (h1 : v ≤ es.length) (p : Pid) :
    p ∈ inIds vs v ↔ p.1 < es.length ∧ dst es p = v := by
  obtain ⟨_, l, hv⟩ := makeVertices_inv h
  obtain ⟨w, q0, _, q2, _⟩ := hv v.toNat (by omega)
  simp only [inIds, q0]
  rw [q2, Int.toNat_of_nonneg h0]

theorem mem_outIds {es : List Edge} {vs : List Vertex} (h : makeVertices es = .ok vs) {v : Int}
    (h0 : 0 ≤ v) (h1 : v ≤ es.length) (p : Pid) :
    p ∈ outIds vs v ↔ p.1 < es.length ∧ src es p = v := by
  obtain ⟨_, l, hv⟩ := makeVertices_inv h
  obtain ⟨w, q0, _, _, q3, _⟩ := hv v.toNat (by omega)
  simp only [outIds, q0]
  rw [q3, Int.toNat_of_nonneg h0]

theorem nodup_inIds {es : List Edge} {vs : List Vertex} (h : makeVertices es = .ok vs) (v : Int) :
    (inIds vs v).Nodup := by
  obtain ⟨_, l, hv⟩ := makeVertices_inv h
  unfold inIds
  by_cases hl : v.toNat < vs.length
  · obtain ⟨w, q0, _, _, _, q4, _⟩ := hv v.toNat hl
    simp only [q0]; exact q4
  · rw [List.getElem?_eq_none (by omega)]; simp

theorem nodup_outIds {es : List Edge} {vs : List Vertex} (h : makeVertices es = .ok vs) (v : Int) :
    (outIds vs v).Nodup := by
  obtain ⟨_, l, hv⟩ := makeVertices_inv h
  unfold outIds
  by_cases hl : v.toNat < vs.length
  · obtain ⟨w, q0, _, _, _, _, q5⟩ := hv v.toNat hl
    simp only [q0]; exact q5
  · rw [List.getElem?_eq_none (by omega)]; simp

theorem edge_mem {es : List Edge} {b : Nat} (h : b < es.length) : edge es b ∈ es := by
  simp [edge, List.getD, h]

theorem WF.srcRange {es : List Edge} (h : WF es) {p : Pid} (hp : p.1 < es.length) :
    0 ≤ src es p ∧ src es p ≤ es.length := by
  have := h _ (edge_mem hp)
  unfold Chem.src vid
  split <;> omega

theorem WF.dstRange {es : List Edge} (h : WF es) {p : Pid} (hp : p.1 < es.length) :
    0 ≤ dst es p ∧ dst es p ≤ es.length := by
  have := h _ (edge_mem hp)
  unfold Chem.dst vid
  split <;> omega

theorem WF.ne {es : List Edge} (h : WF es) {p : Pid} (hp : p.1 < es.length) :
    src es p ≠ dst es p := by
  have := h _ (edge_mem hp)
  unfold Chem.src Chem.dst vid
  cases p.2 <;> simp <;> omega

/-! ### The plan loop -/

/-- `q` feeds `p`: a propagator of another block ending where `p` starts. -/
def Feeds (es : List Edge) (q p : Pid) : Prop :=
  q.1 < es.length ∧ p.1 < es.length ∧ q.1 ≠ p.1 ∧ dst es q = src es p

theorem ready_iff {es : List Edge} {vs : List Vertex} (h : makeVertices es = .ok vs)
    {fin : Pid → Bool} {p : Pid} (hp : p.1 < es.length) :
    ready es vs fin p = true ↔ ∀ q, Feeds es q p → fin q = true := by
  have hwf := (makeVertices_inv h).1
  have hs := hwf.srcRange hp
  unfold ready
  rw [List.all_eq_true]
  constructor
  · rintro hall q ⟨q1, _, q3, q4⟩
    have := hall q ((mem_inIds h hs.1 hs.2 q).2 ⟨q1, q4⟩)
    simpa [q3] using this
  · intro hf q hq
    obtain ⟨q1, q4⟩ := (mem_inIds h hs.1 hs.2 q).1 hq
    by_cases hne : q.1 ≠ p.1
    · simp [hne, hf q ⟨q1, hp, hne, q4⟩]
    · simp [hne]

/-- Invariant of the plan loop. -/
structure PlanInv (es : List Edge) (st : PlanState) : Prop where
  fin_iff : ∀ p, st.fin p = true ↔ p ∈ st.plan
  nodup : st.plan.Nodup
  valid : ∀ p ∈ st.plan, p.1 < es.length
  order : ∀ l1 p l2, st.plan = l1 ++ p :: l2 → ∀ q, Feeds es q p → q ∈ l1

theorem PlanInv.init (es : List Edge) : PlanInv es ⟨fun _ => false, []⟩ :=
  ⟨by simp, by simp, by simp, by simp⟩

theorem PlanInv.step {es : List Edge} {vs : List Vertex} (h : makeVertices es = .ok vs)
    {st : PlanState} (hi : PlanInv es st) {p : Pid} (hp : p.1 < es.length) :
    PlanInv es (planStep es vs st p) := by
  unfold planStep
  split
  · rename_i hf
    split
    · rename_i hr
      rw [ready_iff h hp] at hr
      have hnot : p ∉ st.plan := fun hm => by
        have := (hi.fin_iff p).2 hm; rw [hf] at this; cases this
      refine ⟨?_, ?_, ?_, ?_⟩
      · intro q
        simp only [List.mem_append, List.mem_singleton]
        by_cases hq : q = p
        · simp [hq]
        · simp [hq, hi.fin_iff q]
      · rw [List.nodup_append]
        refine ⟨hi.nodup, by simp, ?_⟩
        intro a ha b hb
        simp only [List.mem_singleton] at hb
        subst hb
        intro hab; subst hab; exact hnot ha
      · intro q hq
        simp only [List.mem_append, List.mem_singleton] at hq
        rcases hq with hq | rfl
        · exact hi.valid q hq
        · exact hp
      · intro l1 r l2 he q hq
        simp only at he
        rcases List.eq_nil_or_concat l2 with rfl | ⟨l2', x, rfl⟩
        · have he' : st.plan ++ [p] = l1 ++ [r] := he
          have := List.append_inj' he' rfl
          simp only [List.cons.injEq, and_true] at this
          obtain ⟨rfl, rfl⟩ := this
          exact (hi.fin_iff q).1 (hr q hq)
        · have he' : st.plan ++ [p] = (l1 ++ r :: l2') ++ [x] := by simp [he]
          have := (List.append_inj' he' rfl).1
          exact hi.order l1 r l2' this q hq
    · exact hi
  · exact hi

theorem allPids_mem (n : Nat) (p : Pid) : p ∈ allPids n ↔ p.1 < n := by
  obtain ⟨b, d⟩ := p
  simp only [allPids, List.mem_flatMap, List.mem_range, List.mem_cons, List.not_mem_nil, or_false,
    Prod.mk.injEq]
  constructor
  · rintro ⟨a, ha, ⟨rfl, _⟩ | ⟨rfl, _⟩⟩ <;> exact ha
  · intro h; exact ⟨b, h, by cases d <;> simp⟩

theorem foldl_step_inv {es : List Edge} {vs : List Vertex} (h : makeVertices es = .ok vs)
    (l : List Pid) (hl : ∀ p ∈ l, p.1 < es.length) : ∀ st, PlanInv es st →
    PlanInv es (l.foldl (planStep es vs) st) ∧
    ∃ t, (l.foldl (planStep es vs) st).plan = st.plan ++ t := by
  induction l with
  | nil => intro st hi; exact ⟨hi, [], by simp⟩
  | cons p ps ih =>
    intro st hi
    obtain ⟨i1, t, i2⟩ := ih (fun q hq => hl q (by simp [hq])) (planStep es vs st p)
      (hi.step h (hl p (by simp)))
    refine ⟨i1, ?_⟩
    rw [List.foldl_cons, i2]
    unfold planStep
    split
    · split
      · exact ⟨p :: t, by simp⟩
      · exact ⟨t, rfl⟩
    · exact ⟨t, rfl⟩

theorem sweep_progress {es : List Edge} {vs : List Vertex} (h : makeVertices es = .ok vs)
    (l : List Pid) (hl : ∀ p ∈ l, p.1 < es.length) (p : Pid) (hp : p ∈ l) : ∀ st, PlanInv es st →
    (∀ q, Feeds es q p → q ∈ st.plan) → p ∈ (l.foldl (planStep es vs) st).plan := by
  induction l with
  | nil => simp at hp
  | cons x xs ih =>
    intro st hi hq
    rw [List.foldl_cons]
    have hx := hl x (by simp)
    have hi' := hi.step h (p := x) hx
    have hsub : ∀ q ∈ st.plan, q ∈ (planStep es vs st x).plan := by
      intro q hq
      unfold planStep
      split
      · split
        · simp [hq]
        · exact hq
      · exact hq
    rcases List.mem_cons.1 hp with rfl | hp
    · have hin : p ∈ (planStep es vs st p).plan := by
        unfold planStep
        split
        · have : ready es vs st.fin p = true :=
            (ready_iff h hx).2 (fun q hf => (hi.fin_iff q).2 (hq q hf))
          rw [if_pos this]; simp
        · rename_i hf
          have : st.fin p = true := by simpa using hf
          exact (hi.fin_iff p).1 this
      obtain ⟨_, t, ht⟩ := foldl_step_inv h xs (fun q hq => hl q (by simp [hq])) _ hi'
      rw [ht]; simp [hin]
    · exact ih (fun q hq => hl q (by simp [hq])) hp _ hi' (fun q hf => hsub q (hq q hf))

theorem allPids_length (n : Nat) : (allPids n).length = n * 2 := by
  simp [allPids, List.length_flatMap]

theorem allPids_nodup (n : Nat) : (allPids n).Nodup := by
  unfold allPids
  rw [List.nodup_flatMap]
  refine ⟨by simp, ?_⟩
  have := List.nodup_range (n := n)
  apply this.imp
  intro a b hab
  simp only [Function.onFun, List.disjoint_left]
  intro x hx
  simp at hx ⊢
  rcases hx with rfl | rfl <;> simp [hab]

theorem plan_length_le {es : List Edge} {st : PlanState} (hi : PlanInv es st) :
    st.plan.length ≤ es.length * 2 := by
  rw [← allPids_length]
  exact (List.subperm_of_subset hi.nodup
    (fun p hp => (allPids_mem _ p).2 (hi.valid p hp))).length_le

/-- Every set of unfinished propagators has an element without unfinished feeders. -/
def Minimal (es : List Edge) : Prop :=
  ∀ U : Pid → Prop, (∃ p, p.1 < es.length ∧ U p) →
    ∃ p, p.1 < es.length ∧ U p ∧ ∀ q, Feeds es q p → ¬ U q

theorem planLoop_terminates {es : List Edge} {vs : List Vertex} (h : makeVertices es = .ok vs)
    (hm : Minimal es) : ∀ fuel st, PlanInv es st → es.length * 2 ≤ fuel + st.plan.length →
    ∃ st', planLoop es vs fuel st = some st' ∧ PlanInv es st' ∧
      st'.plan.length = es.length * 2 := by
  intro fuel
  induction fuel with
  | zero =>
    intro st hi hl
    have := plan_length_le hi
    refine ⟨st, ?_, hi, by omega⟩
    unfold planLoop
    rw [if_neg (by omega)]
  | succ f ih =>
    intro st hi hl
    unfold planLoop
    have hle := plan_length_le hi
    by_cases hc : st.plan.length < es.length * 2
    · rw [if_pos hc]
      have hval : ∀ p ∈ allPids es.length, p.1 < es.length := fun p hp => (allPids_mem _ p).1 hp
      obtain ⟨hi', t, ht⟩ := foldl_step_inv h (allPids es.length) hval st hi
      have hex : ∃ p, p.1 < es.length ∧ p ∉ st.plan := by
        by_contra hno
        push Not at hno
        have : (allPids es.length).length ≤ st.plan.length :=
          (List.subperm_of_subset (allPids_nodup _)
            (fun p hp => hno p ((allPids_mem _ p).1 hp))).length_le
        rw [allPids_length] at this; omega
      obtain ⟨p, p1, p2, p3⟩ := hm (fun p => p ∉ st.plan) hex
      have hin := sweep_progress h (allPids es.length) hval p ((allPids_mem _ p).2 p1) st hi
        (fun q hq => by simpa using p3 q hq)
      have : t ≠ [] := by
        rintro rfl
        rw [ht] at hin; simp at hin; exact p2 hin
      have htl : 0 < t.length := List.length_pos_iff.2 this
      apply ih _ hi'
      rw [ht, List.length_append]; omega
    · rw [if_neg hc]
      exact ⟨st, rfl, hi, by omega⟩

theorem planLoop_inv {es : List Edge} {vs : List Vertex} (h : makeVertices es = .ok vs) :
    ∀ fuel st st', PlanInv es st → planLoop es vs fuel st = some st' →
    PlanInv es st' ∧ st'.plan.length = es.length * 2 := by
  intro fuel
  induction fuel with
  | zero =>
    intro st st' hi he
    unfold planLoop at he
    split at he
    · cases he
    · have := plan_length_le hi
      simp only [Option.some.injEq] at he
      subst he
      exact ⟨hi, by omega⟩
  | succ f ih =>
    intro st st' hi he
    unfold planLoop at he
    split at he
    · exact ih _ _ (foldl_step_inv h _ (fun p hp => (allPids_mem _ p).1 hp) st hi).1 he
    · have := plan_length_le hi
      simp only [Option.some.injEq] at he
      subst he
      exact ⟨hi, by omega⟩

end Verif.Chem
