import Verif.Chem.Lemmas
import Mathlib.Combinatorics.SimpleGraph.Hasse

/-! The block graph as a Mathlib `SimpleGraph`, and its relation to the plan loop. -/

namespace Verif.Chem

open SimpleGraph

/-- Specification: the graph on vertices `0, …, nBlock` whose edges are the blocks. -/
def blockGraph (es : List Edge) : SimpleGraph (Fin (es.length + 1)) where
  Adj u v := u ≠ v ∧ ((((u : Nat) : Int), ((v : Nat) : Int)) ∈ es ∨
    (((v : Nat) : Int), ((u : Nat) : Int)) ∈ es)
  symm := ⟨fun _ _ h => ⟨h.1.symm, h.2.symm⟩⟩
  loopless := ⟨fun _ h => h.1 rfl⟩

/-- Specification: a valid block list – vertex ids in range and the block graph is
a tree (connected and without cycles). -/
structure TreeInput (es : List Edge) : Prop where
  range : ∀ e ∈ es, 0 ≤ e.1 ∧ e.1 ≤ es.length ∧ 0 ≤ e.2 ∧ e.2 ≤ es.length
  tree : (blockGraph es).IsTree

/-- Vertex id as a graph vertex (the identity for ids in range). -/
def toV (es : List Edge) (i : Int) : Fin (es.length + 1) := Fin.ofNat _ i.toNat

theorem toV_val {es : List Edge} {i : Int} (h0 : 0 ≤ i) (h1 : i ≤ es.length) :
    (((toV es i : Fin _) : Nat) : Int) = i := by
  simp only [toV, Fin.ofNat]
  rw [Nat.mod_eq_of_lt (by omega)]; omega

theorem toV_inj {es : List Edge} {i j : Int} (h0 : 0 ≤ i) (h1 : i ≤ es.length)
    (h2 : 0 ≤ j) (h3 : j ≤ es.length) (h : toV es i = toV es j) : i = j := by
  rw [← toV_val h0 h1, ← toV_val h2 h3, h]

theorem toV_self {es : List Edge} (v : Fin (es.length + 1)) : toV es ((v : Nat) : Int) = v := by
  apply Fin.ext
  simp only [toV, Fin.ofNat, Int.toNat_natCast]
  exact Nat.mod_eq_of_lt v.2

/-- Start and end of a propagator as graph vertices. -/
def pS (es : List Edge) (p : Pid) : Fin (es.length + 1) := toV es (src es p)
def pT (es : List Edge) (p : Pid) : Fin (es.length + 1) := toV es (dst es p)
/-- Undirected edge of a propagator. -/
def pE (es : List Edge) (p : Pid) : Sym2 (Fin (es.length + 1)) := s(pS es p, pT es p)

theorem src_flip (es : List Edge) (p : Pid) : src es (p.1, !p.2) = dst es p := rfl
theorem dst_flip (es : List Edge) (p : Pid) : dst es (p.1, !p.2) = src es p := by
  simp [dst, src]
theorem pE_flip (es : List Edge) (p : Pid) : pE es (p.1, !p.2) = pE es p := by
  simp only [pE, pS, pT, src_flip, dst_flip]; exact Sym2.eq_swap

theorem src_dst_mem {es : List Edge} {p : Pid} (hp : p.1 < es.length) :
    (src es p, dst es p) ∈ es ∨ (dst es p, src es p) ∈ es := by
  have := edge_mem hp
  obtain ⟨b, d⟩ := p
  cases d
  · left; simpa [src, dst, vid] using this
  · right; simpa [src, dst, vid] using this

theorem adj_of_pid {es : List Edge} (h : WF es) {p : Pid} (hp : p.1 < es.length) :
    (blockGraph es).Adj (pS es p) (pT es p) := by
  have h1 := h.srcRange hp
  have h2 := h.dstRange hp
  refine ⟨fun he => h.ne hp (toV_inj h1.1 h1.2 h2.1 h2.2 he), ?_⟩
  rw [pS, pT, toV_val h1.1 h1.2, toV_val h2.1 h2.2]
  exact src_dst_mem hp

theorem pid_of_adj {es : List Edge} {u v : Fin (es.length + 1)} (h : (blockGraph es).Adj u v) :
    ∃ p : Pid, p.1 < es.length ∧ src es p = ((u : Nat) : Int) ∧ dst es p = ((v : Nat) : Int) := by
  rcases h.2 with h | h
  · obtain ⟨b, hb, he⟩ := List.getElem_of_mem h
    refine ⟨(b, false), hb, ?_, ?_⟩ <;> simp [src, dst, vid, edge, List.getD, hb, he]
  · obtain ⟨b, hb, he⟩ := List.getElem_of_mem h
    refine ⟨(b, true), hb, ?_, ?_⟩ <;> simp [src, dst, vid, edge, List.getD, hb, he]

/-- In a tree with `nBlock+1` vertices all blocks are distinct proper edges. -/
theorem TreeInput.wf {es : List Edge} (h : TreeInput es) : WF es ∧
    ∀ p q : Pid, p.1 < es.length → q.1 < es.length → pE es p = pE es q → p.1 = q.1 := by
  classical
  set G := blockGraph es with hG
  have hcard : G.edgeFinset.card = es.length := by
    have : G.edgeFinset.card + 1 = Fintype.card (Fin (es.length + 1)) := h.tree.card_edgeFinset
    simp only [Fintype.card_fin] at this
    omega
  set I := (Finset.range es.length).image (fun b => pE es (b, false)) with hI
  have hsub : G.edgeFinset ⊆ I := by
    intro e he
    rw [mem_edgeFinset] at he
    induction e with
    | _ u v =>
      rw [mem_edgeSet] at he
      obtain ⟨p, p1, p2, p3⟩ := pid_of_adj he
      rw [hI, Finset.mem_image]
      refine ⟨p.1, Finset.mem_range.2 p1, ?_⟩
      have : pE es (p.1, false) = pE es p := by
        obtain ⟨b, d⟩ := p
        cases d
        · rfl
        · have := pE_flip es (b, true); simpa using this
      rw [this, pE, pS, pT, p2, p3, toV_self, toV_self]
  have hle : I.card ≤ es.length := by
    have := Finset.card_image_le (s := Finset.range es.length) (f := fun b => pE es (b, false))
    simpa using this
  have heq : G.edgeFinset = I := Finset.eq_of_subset_of_card_le hsub (by omega)
  have hinj : Set.InjOn (fun b => pE es (b, false)) (Finset.range es.length : Set Nat) := by
    apply Finset.card_image_iff.1
    rw [← hI, ← heq, hcard]; simp
  have hfix : ∀ p : Pid, pE es p = pE es (p.1, false) := by
    intro p
    obtain ⟨b, d⟩ := p
    cases d
    · rfl
    · have := pE_flip es (b, false); simpa using this
  refine ⟨?_, ?_⟩
  · intro e he
    have hr := h.range e he
    refine ⟨hr.1, hr.2.1, hr.2.2.1, hr.2.2.2, ?_⟩
    intro hee
    obtain ⟨b, hb, hbe⟩ := List.getElem_of_mem he
    have hmem : pE es (b, false) ∈ I :=
      Finset.mem_image.2 ⟨b, Finset.mem_range.2 hb, rfl⟩
    rw [← heq, mem_edgeFinset, pE, mem_edgeSet] at hmem
    apply hmem.ne
    simp [pS, pT, src, dst, vid, edge, List.getD, hb, hbe, hee]
  · intro p q hp hq he
    apply hinj
    · simpa using hp
    · simpa using hq
    · simp only
      rw [← hfix p, ← hfix q, he]

/-- A set of propagators in which every element is fed by another element would
give arbitrarily long non-backtracking walks. -/
theorem chain_walk {es : List Edge} (hwf : WF es)
    (hinj : ∀ p q : Pid, p.1 < es.length → q.1 < es.length → pE es p = pE es q → p.1 = q.1)
    (U : Pid → Prop) (hU : ∀ p, p.1 < es.length → U p → ∃ q, Feeds es q p ∧ U q) :
    ∀ (k : Nat) (p : Pid), p.1 < es.length → U p →
      ∃ (v : Fin (es.length + 1)) (w : (blockGraph es).Walk (pS es p) v), w.length = k ∧
        List.IsChain (· ≠ ·) (pE es p :: w.edges) := by
  intro k
  induction k with
  | zero => intro p _ _; exact ⟨_, Walk.nil, rfl, by simp⟩
  | succ k ih =>
    intro p hp hUp
    obtain ⟨q, ⟨q1, _, q3, q4⟩, hUq⟩ := hU p hp hUp
    obtain ⟨v, w, hw, hc⟩ := ih q q1 hUq
    have hadj : (blockGraph es).Adj (pS es p) (pS es q) := by
      have := (adj_of_pid hwf q1).symm
      rw [pT, q4] at this; exact this
    refine ⟨v, Walk.cons hadj w, by simp [hw], ?_⟩
    have he : s(pS es p, pS es q) = pE es q := by
      rw [pE, pT, q4, ← pS]; exact Sym2.eq_swap
    rw [Walk.edges_cons, he]
    refine List.IsChain.cons_cons ?_ hc
    intro hpq
    exact q3 (hinj q p q1 hp hpq.symm)

theorem TreeInput.minimal {es : List Edge} (h : TreeInput es) : Minimal es := by
  obtain ⟨hwf, hinj⟩ := h.wf
  intro U hex
  by_contra hno
  push Not at hno
  obtain ⟨p, hp, hUp⟩ := hex
  obtain ⟨v, w, hw, hc⟩ := chain_walk hwf hinj U hno (es.length + 1) p hp hUp
  have hpath : w.IsPath := (h.tree.isAcyclic.isPath_iff_isChain w).2 hc.tail
  have := hpath.length_lt
  simp only [Fintype.card_fin] at this
  omega

/-! ### A finished plan implies a tree -/

/-- Rank of a propagator in the plan: feeders come earlier. -/
theorem PlanInv.rank {es : List Edge} {st : PlanState} (hi : PlanInv es st)
    (hl : st.plan.length = es.length * 2) : ∃ f : Pid → Nat, ∀ q p, Feeds es q p → f q < f p := by
  have hall : ∀ p : Pid, p.1 < es.length → p ∈ st.plan := by
    intro p hp
    have hsub : st.plan.Subperm (allPids es.length) := List.subperm_of_subset hi.nodup
      (fun p hp => (allPids_mem _ p).2 (hi.valid p hp))
    have hperm := hsub.perm_of_length_le (by rw [allPids_length]; omega)
    exact hperm.mem_iff.2 ((allPids_mem _ p).2 hp)
  refine ⟨fun p => st.plan.idxOf p, ?_⟩
  intro q p hf
  obtain ⟨l1, l2, he⟩ := List.append_of_mem (hall p hf.2.1)
  have hq := hi.order l1 p l2 he q hf
  have hp1 : p ∉ l1 := by
    have := hi.nodup
    rw [he, List.nodup_append] at this
    intro hm
    exact this.2.2 p hm p (by simp) rfl
  have h1 : st.plan.idxOf q < l1.length := by
    rw [he, List.idxOf_append_of_mem hq]
    exact List.idxOf_lt_length_of_mem hq
  have h2 : st.plan.idxOf p = l1.length := by
    rw [he, List.idxOf_append_of_notMem hp1]; simp
  simp only; omega

theorem rank_inj {es : List Edge} (hwf : WF es) (f : Pid → Nat)
    (hf : ∀ q p, Feeds es q p → f q < f p) (p q : Pid) (hp : p.1 < es.length)
    (hq : q.1 < es.length) (he : pE es p = pE es q) : p.1 = q.1 := by
  by_contra hne
  have r1 := hwf.srcRange hp
  have r2 := hwf.dstRange hp
  have r3 := hwf.srcRange hq
  have r4 := hwf.dstRange hq
  rw [pE, pE, Sym2.eq_iff] at he
  rcases he with ⟨h1, h2⟩ | ⟨h1, h2⟩
  · have e1 := toV_inj r1.1 r1.2 r3.1 r3.2 h1
    have e2 := toV_inj r2.1 r2.2 r4.1 r4.2 h2
    have a := hf p (q.1, !q.2) ⟨hp, hq, hne, by rw [src_flip, e2]⟩
    have b := hf (q.1, !q.2) p ⟨hq, hp, Ne.symm hne, by rw [dst_flip, e1]⟩
    omega
  · have e1 := toV_inj r1.1 r1.2 r4.1 r4.2 h1
    have e2 := toV_inj r2.1 r2.2 r3.1 r3.2 h2
    have a := hf p q ⟨hp, hq, hne, e2⟩
    have b := hf q p ⟨hq, hp, Ne.symm hne, e1.symm⟩
    omega

/-- Propagator of a dart. -/
theorem pid_of_dart {es : List Edge} (d : (blockGraph es).Dart) :
    ∃ p : Pid, p.1 < es.length ∧ src es p = ((d.fst : Nat) : Int) ∧
      dst es p = ((d.snd : Nat) : Int) := pid_of_adj d.adj

theorem pE_of_dart {es : List Edge} {p : Pid} {u v : Fin (es.length + 1)}
    (h1 : src es p = ((u : Nat) : Int)) (h2 : dst es p = ((v : Nat) : Int)) :
    pE es p = s(u, v) := by
  rw [pE, pS, pT, h1, h2, toV_self, toV_self]

/-- Along a walk whose consecutive edges differ, the ranks of the propagators increase. -/
theorem walk_rank {es : List Edge} (f : Pid → Nat)
    (hf : ∀ q p, Feeds es q p → f q < f p) :
    ∀ {u v : Fin (es.length + 1)} (w : (blockGraph es).Walk u v) (q : Pid), q.1 < es.length →
      dst es q = ((u : Nat) : Int) → List.IsChain (· ≠ ·) (pE es q :: w.edges) →
      w.length = 0 ∨ ∃ p : Pid, p.1 < es.length ∧ dst es p = ((v : Nat) : Int) ∧
        f q < f p ∧ pE es p ∈ w.edges := by
  intro u v w
  induction w with
  | nil => intro q _ _ _; left; simp
  | @cons u v x hadj w ih =>
    intro q hq hd hc
    right
    obtain ⟨p, p1, p2, p3⟩ := pid_of_adj hadj
    rw [Walk.edges_cons] at hc
    have hc' := List.isChain_cons_cons.1 hc
    have hE := pE_of_dart p2 p3
    have hne : q.1 ≠ p.1 := by
      intro h
      apply hc'.1
      rw [← hE]
      obtain ⟨qb, qd⟩ := q
      obtain ⟨pb, pd⟩ := p
      simp only at h; subst h
      by_cases hqp : qd = pd
      · rw [hqp]
      · have : qd = !pd := by cases qd <;> cases pd <;> simp_all
        rw [this]; exact pE_flip es (qb, pd)
    have hlt := hf q p ⟨hq, p1, hne, by rw [hd, p2]⟩
    have hc2 : List.IsChain (· ≠ ·) (pE es p :: w.edges) := by rw [hE]; exact hc'.2
    rcases ih p p1 p3 hc2 with h0 | ⟨r, r1, r2, r3, r4⟩
    · have := Walk.eq_of_length_eq_zero h0
      subst this
      exact ⟨p, p1, p3, hlt, by rw [Walk.edges_cons, hE]; simp⟩
    · refine ⟨r, r1, r2, by omega, ?_⟩
      rw [Walk.edges_cons]
      exact List.mem_cons_of_mem _ r4

theorem acyclic_of_rank {es : List Edge} (f : Pid → Nat)
    (hf : ∀ q p, Feeds es q p → f q < f p) : (blockGraph es).IsAcyclic := by
  intro u c hc
  cases c with
  | nil => exact hc.ne_nil rfl
  | @cons _ v _ hadj w =>
    obtain ⟨q, q1, q2, q3⟩ := pid_of_adj hadj
    have hE := pE_of_dart q2 q3
    have hnd : (Walk.cons hadj w).edges.Nodup := hc.isTrail.edges_nodup
    rw [Walk.edges_cons] at hnd
    have hchain : List.IsChain (· ≠ ·) (pE es q :: w.edges) := by
      rw [hE]; exact hnd.isChain
    rcases walk_rank f hf w q q1 q3 hchain with h0 | ⟨p, p1, p2, p3, p4⟩
    · have := hc.three_le_length
      rw [Walk.length_cons] at this; omega
    · have hne : p.1 ≠ q.1 := by
        intro h
        rw [List.nodup_cons] at hnd
        apply hnd.1
        rw [← hE]
        have : pE es p = pE es q := by
          obtain ⟨qb, qd⟩ := q
          obtain ⟨pb, pd⟩ := p
          simp only at h; subst h
          by_cases hqp : pd = qd
          · rw [hqp]
          · have : pd = !qd := by cases qd <;> cases pd <;> simp_all
            rw [this]; exact pE_flip es (_, qd)
        rw [← this]; exact p4
      have := hf p q ⟨p1, q1, hne, by rw [p2, q2]⟩
      omega

theorem tree_of_rank {es : List Edge} (hwf : WF es) (f : Pid → Nat)
    (hf : ∀ q p, Feeds es q p → f q < f p) : (blockGraph es).IsTree := by
  classical
  have hac := acyclic_of_rank f hf
  obtain ⟨T, hT1, hT2⟩ := exists_maximal_isAcyclic_of_le_isAcyclic
    (le_top : blockGraph es ≤ ⊤) hac
  have hT : T.IsTree := by
    rw [← maximal_isAcyclic_iff_isTree]
    refine ⟨hT2.1.2, ?_⟩
    intro y hy hle
    exact hT2.2 ⟨le_top, hy⟩ hle
  have hcardT : T.edgeFinset.card + 1 = Fintype.card (Fin (es.length + 1)) := hT.card_edgeFinset
  have hcardG : es.length ≤ (blockGraph es).edgeFinset.card := by
    have hinj : Set.InjOn (fun b => pE es (b, false)) (Finset.range es.length : Set Nat) := by
      intro a ha b hb hab
      simp only [Finset.coe_range, Set.mem_Iio] at ha hb
      exact rank_inj hwf f hf (a, false) (b, false) ha hb hab
    have hc := Finset.card_image_iff.2 hinj
    rw [Finset.card_range] at hc
    refine hc.ge.trans ?_
    apply Finset.card_le_card
    intro e he
    obtain ⟨b, hb, rfl⟩ := Finset.mem_image.1 he
    rw [mem_edgeFinset, pE, mem_edgeSet]
    exact adj_of_pid hwf (p := (b, false)) (Finset.mem_range.1 hb)
  simp only [Fintype.card_fin] at hcardT
  have hsub : (blockGraph es).edgeFinset ⊆ T.edgeFinset := edgeFinset_subset_edgeFinset.2 hT1
  have heq := Finset.eq_of_subset_of_card_le hsub (by omega)
  have : blockGraph es = T := edgeFinset_inj.1 heq
  rw [this]; exact hT

end Verif.Chem
