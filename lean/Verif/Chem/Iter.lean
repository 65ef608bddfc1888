import Verif.Chem.Paths

/-! Lemmas on `readTopology`, `VertexIterator` and `EdgeIterator`. -/

namespace Verif.Chem

open SimpleGraph

variable {es : List Edge}

/-- Correct path table. -/
def PathsOk (es : List Edge) (paths : List (List (Int × Int))) : Prop :=
  (∀ v : Fin (es.length + 1), path paths v v = (-1, -1)) ∧
  ∀ v s : Fin (es.length + 1), v ≠ s → ∃ p, FirstStep es v s p ∧
    path paths v s = ((p.1 : Int), dirInt p.2)

theorem readTopology_ok (ht : TreeInput es) (fuel : Nat) (hf : es.length * 2 ≤ fuel) :
    ∃ P, readTopology es fuel = some (.ok P) := by
  obtain ⟨vs, hv⟩ := makeVertices_success ht.wf.1
  obtain ⟨st, e1, _, _⟩ := planLoop_terminates hv ht.minimal fuel _ (PlanInv.init es)
    (by simpa using hf)
  obtain ⟨paths, e2, h1, h2⟩ := makePaths_ok ht hv
  refine ⟨⟨es, vs, st.plan, paths⟩, ?_⟩
  simp [readTopology, hv, makePlan, e1, e2, isValid_ok ht hv h1 h2]

theorem readTopology_inv {fuel : Nat} {P : Polymer} (h : readTopology es fuel = some (.ok P)) :
    P.edges = es ∧ makeVertices es = .ok P.vertices ∧ makePaths es P.vertices = .ok P.paths ∧
    (∃ f, PlanInv es ⟨f, P.plan⟩) ∧ P.plan.length = es.length * 2 ∧ TreeInput es := by
  unfold readTopology at h
  split at h
  · simp at h
  · simp at h
  · rename_i vs hv
    split at h
    · simp at h
    · rename_i plan hp
      simp only [Option.some.injEq] at h
      rw [Res.bind_eq_ok] at h
      obtain ⟨paths, e2, h⟩ := h
      rw [Res.bind_eq_ok] at h
      obtain ⟨_, _, h⟩ := h
      simp only [Res.pure_eq, Res.ok.injEq] at h
      subst h
      unfold makePlan at hp
      rw [Option.map_eq_some_iff] at hp
      obtain ⟨st, hst, rfl⟩ := hp
      obtain ⟨i1, i2⟩ := planLoop_inv hv fuel _ st (PlanInv.init es) hst
      have hwf := (makeVertices_inv hv).1
      obtain ⟨f, hf⟩ := i1.rank i2
      refine ⟨rfl, hv, e2, ⟨st.fin, i1⟩, i2, ?_, tree_of_rank hwf f hf⟩
      intro e he
      have := hwf e he
      exact ⟨this.1, this.2.1, this.2.2.1, this.2.2.2.1⟩

theorem readTopology_paths {fuel : Nat} {P : Polymer} (h : readTopology es fuel = some (.ok P)) :
    PathsOk es P.paths := by
  obtain ⟨_, hv, hp, _, _, ht⟩ := readTopology_inv h
  obtain ⟨paths, e2, h1, h2⟩ := makePaths_ok ht hv
  rw [hp] at e2
  simp only [Res.ok.injEq] at e2
  subst e2
  exact ⟨h1, h2⟩

theorem D_eq_zero (ht : TreeInput es) {v s : Fin (es.length + 1)} : D es v s = 0 ↔ v = s := by
  unfold D
  rw [ht.tree.connected.dist_eq_zero_iff]
  exact eq_comm

theorem D_comm (v s : Fin (es.length + 1)) : D es v s = D es s v := dist_comm

theorem D_self (v : Fin (es.length + 1)) : D es v v = 0 := by simp [D]

theorem D_step (ht : TreeInput es) {p : Pid} (hp : p.1 < es.length) (s : Fin (es.length + 1)) :
    D es (pS es p) s = D es (pT es p) s + 1 ∨ D es (pT es p) s = D es (pS es p) s + 1 :=
  ht.tree.dist_eq_dist_add_one_of_adj s (adj_of_pid ht.wf.1 hp)

theorem firstStep_of (ht : TreeInput es) {p : Pid} (hp : p.1 < es.length)
    {s : Fin (es.length + 1)} (h : D es (pT es p) s + 1 = D es (pS es p) s) :
    FirstStep es (pS es p) s p := ⟨hp, src_eq_pS ht.wf.1 hp, h⟩

theorem FirstStep.pS_eq {v s : Fin (es.length + 1)} {p : Pid} (h : FirstStep es v s p) :
    pS es p = v := Verif.Chem.pS_eq h.2.1

theorem FirstStep.next {v s : Fin (es.length + 1)} {p : Pid} (ht : TreeInput es)
    (h : FirstStep es v s p) : (if dirInt p.2 = 0 then vid (edge es p.1) true
      else vid (edge es p.1) false) = ((pT es p : Nat) : Int) := by
  rw [← dst_eq_pT ht.wf.1 h.1]
  obtain ⟨b, d⟩ := p
  cases d <;> simp [dirInt, dst]

theorem dirInt_range (d : Bool) : 0 ≤ dirInt d ∧ dirInt d < 2 := by cases d <;> simp [dirInt]

/-! ### `VertexIterator` -/

theorem VIter.run_ok {P : Polymer} (he : P.edges = es) (hP : PathsOk es P.paths)
    (ht : TreeInput es) (s : Fin (es.length + 1)) :
    ∀ (m fuel : Nat) (v : Fin (es.length + 1)), D es v s = m → m ≤ fuel →
      ∃ w : (blockGraph es).Walk v s, w.length = m ∧
        VIter.run P fuel ⟨v, s⟩ = some (.ok (w.support.map (fun u : Fin (es.length + 1) => ((u : Nat) : Int)))) := by
  intro m
  induction m with
  | zero =>
    intro fuel v hD _
    have := (D_eq_zero ht).1 hD
    subst this
    refine ⟨Walk.nil, rfl, ?_⟩
    unfold VIter.run
    simp
  | succ m ih =>
    intro fuel v hD hf
    have hne : v ≠ s := by rintro rfl; simp [D] at hD
    obtain ⟨p, p1, p2⟩ := hP.2 v s hne
    obtain ⟨f, rfl⟩ : ∃ f, fuel = f + 1 := ⟨fuel - 1, by omega⟩
    obtain ⟨w, w1, w2⟩ := ih f (pT es p) (by have := p1.2.2; omega) (by omega)
    have hadj := adj_of_pid ht.wf.1 p1.1
    rw [p1.pS_eq] at hadj
    refine ⟨Walk.cons hadj w, by simp [w1], ?_⟩
    have hne' : ¬ (((v : Nat) : Int) = ((s : Nat) : Int)) := by
      intro h; apply hne; apply Fin.ext; omega
    have hlt := p1.1
    have hnext : VIter.next P ⟨v, s⟩ = .ok ⟨((pT es p : Nat) : Int), s⟩ := by
      have hd := dirInt_range p.2
      have hc : 0 ≤ ((p.1 : Nat) : Int) ∧ ((p.1 : Nat) : Int) < (P.edges.length : Int) ∧
          0 ≤ dirInt p.2 ∧ dirInt p.2 < 2 := by rw [he]; omega
      simp only [VIter.next, p2, ne_eq, hne', not_false_eq_true, if_true, if_pos hc]
      rw [he, Int.toNat_natCast, p1.next ht]
    unfold VIter.run
    simp only [hne', if_false, hnext, w2, Option.map_some, Res.map_ok, Walk.support_cons,
      List.map_cons]

/-! ### `EdgeIterator` -/

theorem EIter.next_ok {P : Polymer} (he : P.edges = es) (ht : TreeInput es)
    {it : EIter} {v s : Fin (es.length + 1)} (hv : it.curVertex = ((v : Nat) : Int))
    (hs : it.targetVertex = ((s : Nat) : Int)) (hne : v ≠ s) {p : Pid} (p1 : FirstStep es v s p)
    (p2 : path P.paths v s = ((p.1 : Int), dirInt p.2)) :
    it.next P = .ok { it with curEdge := p.1, curDir := p.2,
                              curVertex := ((pT es p : Nat) : Int) } := by
  have hne' : ¬ (((v : Nat) : Int) = ((s : Nat) : Int)) := by
    intro h; apply hne; apply Fin.ext; omega
  have hd := dirInt_range p.2
  have hlt := p1.1
  have hc : 0 ≤ ((p.1 : Nat) : Int) ∧ ((p.1 : Nat) : Int) < (P.edges.length : Int) ∧
      0 ≤ dirInt p.2 ∧ dirInt p.2 < 2 := by rw [he]; omega
  have hs' : vid (edge es p.1) p.2 = ((v : Nat) : Int) := p1.2.1
  have hb : decide (dirInt p.2 = 1) = p.2 := by cases p.2 <;> simp [dirInt]
  simp only [EIter.next, hv, hs, p2, ne_eq, hne', not_false_eq_true, if_true, if_pos hc]
  rw [he, Int.toNat_natCast, p1.next ht, hb, if_pos hs']

/-- Run of the iterator from the current vertex. `q` is the target block directed
towards its near end: `pS q` is the target vertex. -/
theorem EIter.run_ok {P : Polymer} (he : P.edges = es) (hP : PathsOk es P.paths)
    (ht : TreeInput es) (q : Pid) (hq : q.1 < es.length) :
    ∀ (m fuel : Nat) (v : Fin (es.length + 1)) (it : EIter), D es v (pS es q) = m → m ≤ fuel →
      D es v (pT es q) + 1 = D es v (pS es q) → it.curVertex = ((v : Nat) : Int) →
      it.targetVertex = ((pS es q : Nat) : Int) →
      ∃ (w : (blockGraph es).Walk v (pS es q)) (L : List Pid), w.length = m ∧
        EIter.run P fuel it = some (.ok ((it.curEdge, it.curDir) :: L)) ∧
        (∀ p ∈ L, p.1 < es.length) ∧
        L.map (pS es) = w.support.dropLast ∧ L.map (pT es) = w.support.tail ∧
        L.map (pE es) = w.edges ∧ L.getLast? = some (q.1, !q.2) := by
  intro m
  induction m with
  | zero => intro fuel v it h1 _ h2; omega
  | succ m ih =>
    intro fuel v it hD hf hq2 hv hs
    have hne : v ≠ pS es q := by rintro rfl; simp [D] at hD
    obtain ⟨p, p1, p2⟩ := hP.2 v (pS es q) hne
    have hnext := EIter.next_ok he ht hv hs hne p1 p2
    have hadj := adj_of_pid ht.wf.1 p1.1
    have hvp := p1.pS_eq
    subst hvp
    have hcur : it.curVertex ≠ it.targetVertex := by
      rw [hv, hs]; intro h; apply hne; apply Fin.ext; omega
    obtain ⟨f, rfl⟩ : ∃ f, fuel = f + 1 := ⟨fuel - 1, by omega⟩
    by_cases h0 : D es (pS es p) (pT es q) = 0
    · -- last step
      have h0' := (D_eq_zero ht).1 h0
      have hm : m = 0 := by omega
      have hfs : FirstStep es (pS es p) (pS es q) (q.1, !q.2) := by
        refine ⟨hq, ?_, ?_⟩
        · rw [src_flip, dst_eq_pT ht.wf.1 hq, h0']
        · have : pT es (q.1, !q.2) = pS es q := by rw [pT, dst_flip]; rfl
          rw [this, D_self]; omega
      have hpq := firstStep_unique ht p1 hfs
      have hpT : pT es p = pS es q := by rw [hpq, pT, dst_flip]; rfl
      refine ⟨Walk.cons (hpT ▸ hadj) Walk.nil, [p], by simp [hm], ?_, ?_, ?_, ?_, ?_, ?_⟩
      · unfold EIter.run
        simp only [if_neg hcur, hnext]
        unfold EIter.run
        simp [hpT, hs]
      · intro x hx
        rw [List.mem_singleton] at hx; subst hx; exact p1.1
      · simp
      · simp [hpT]
      · simp [pE, hpT]
      · simp [hpq]
    · obtain ⟨p', hp'⟩ := firstStep_exists ht (v := pS es p) (s := pT es q)
        (fun h => h0 ((D_eq_zero ht).2 h))
      have hp'3 := hp'.2.2
      have hst := D_step ht hp'.1 (pS es q)
      have hst2 := D_step ht hq (pT es p')
      rw [hp'.pS_eq] at hst
      rw [D_comm (pS es q), D_comm (pT es q)] at hst2
      have hfs : FirstStep es (pS es p) (pS es q) p' := ⟨hp'.1, hp'.2.1, by omega⟩
      have hpp := firstStep_unique ht p1 hfs
      rw [← hpp] at hp'3 hst2
      have hp13 := p1.2.2
      obtain ⟨w, L, w1, w2, w3, w4, w5, w6, w7⟩ := ih f (pT es p)
        { it with curEdge := p.1, curDir := p.2, curVertex := ((pT es p : Nat) : Int) }
        (by omega) (by omega) (by omega) rfl hs
      refine ⟨Walk.cons hadj w, p :: L, by simp [w1], ?_, ?_, ?_, ?_, ?_, ?_⟩
      · unfold EIter.run
        simp only [if_neg hcur, hnext, w2, Option.map_some, Res.map_ok]
      · intro x hx
        rcases List.mem_cons.1 hx with rfl | hx
        · exact p1.1
        · exact w3 x hx
      · rw [Walk.support_cons, List.map_cons, w4,
          List.dropLast_cons_of_ne_nil (Walk.support_ne_nil w)]
      · rw [Walk.support_cons, List.map_cons, w5, List.tail_cons]
        exact Walk.cons_tail_support w
      · rw [Walk.edges_cons, List.map_cons, w6]; rfl
      · rw [List.getLast?_cons, w7]; rfl

theorem toward (ht : TreeInput es) {p q : Pid} (hp : p.1 < es.length) (hq : q.1 < es.length)
    (hne : p.1 ≠ q.1) (h : D es (pT es p) (pS es q) + 1 = D es (pS es p) (pS es q)) :
    D es (pT es p) (pT es q) + 1 = D es (pS es p) (pT es q) := by
  rcases D_step ht hp (pT es q) with h2 | h2
  · omega
  exfalso
  have h3 := D_step ht hq (pS es p)
  have h4 := D_step ht hq (pT es p)
  rw [D_comm (pS es q), D_comm (pT es q)] at h3 h4
  by_cases h0 : D es (pS es p) (pT es q) = 0
  · have e1 := (D_eq_zero ht).1 h0
    have e2 : pT es p = pS es q := (D_eq_zero ht).1 (by omega)
    apply hne
    apply ht.wf.2 p q hp hq
    rw [pE, pE, e1, e2]; exact Sym2.eq_swap
  · obtain ⟨r, hr⟩ := firstStep_exists ht (v := pS es p) (s := pT es q)
        (fun h => h0 ((D_eq_zero ht).2 h))
    have hr3 := hr.2.2
    have h5 := D_step ht hr.1 (pS es q)
    have h6 := D_step ht hq (pT es r)
    rw [hr.pS_eq] at h5
    rw [D_comm (pS es q), D_comm (pT es q)] at h6
    have hfs : FirstStep es (pS es p) (pS es q) r := ⟨hr.1, hr.2.1, by omega⟩
    have := firstStep_unique ht hfs (firstStep_of ht hp h)
    subst this
    omega

/-- Block of `path(v, x)` for `v` an end of a block. -/
theorem path_block (ht : TreeInput es) {paths : List (List (Int × Int))} (hP : PathsOk es paths)
    {p : Pid} (hp : p.1 < es.length) (x : Fin (es.length + 1)) :
    (path paths (pS es p : Nat) x).1 = (p.1 : Int) ↔
      D es (pT es p) x + 1 = D es (pS es p) x := by
  constructor
  · intro h
    by_cases hx : pS es p = x
    · subst hx
      rw [hP.1] at h
      simp only at h; omega
    · obtain ⟨r, r1, r2⟩ := hP.2 _ _ hx
      rw [r2] at h
      simp only at h
      have : p = r := pid_ext_of ht.wf.1 hp (by omega) (by rw [r1.2.1, src_eq_pS ht.wf.1 hp])
      subst this
      exact r1.2.2
  · intro h
    have hfs := firstStep_of ht hp h
    obtain ⟨r, r1, r2⟩ := hP.2 _ _ (firstStep_ne hfs)
    rw [r2, firstStep_unique ht hfs r1]

theorem EIter.begin_ok {P : Polymer} (he : P.edges = es) (hP : PathsOk es P.paths)
    (ht : TreeInput es) {s t : Nat} (hs : s < es.length) (hts : t < es.length) (hne : s ≠ t) :
    ∃ ds dt : Bool, EIter.begin P s t = .ok ⟨s, ds, ((pT es (s, ds) : Nat) : Int), t,
        ((pS es (t, dt) : Nat) : Int)⟩ ∧
      D es (pT es (s, ds)) (pS es (t, dt)) + 1 = D es (pS es (s, ds)) (pS es (t, dt)) ∧
      D es (pT es (s, ds)) (pT es (t, dt)) + 1 = D es (pT es (s, ds)) (pS es (t, dt)) := by
  have hwf := ht.wf.1
  have tw : ∀ a b : Bool, D es (pT es (s, a)) (pS es (t, b)) + 1 =
      D es (pS es (s, a)) (pS es (t, b)) → D es (pT es (s, a)) (pT es (t, b)) + 1 =
      D es (pS es (s, a)) (pT es (t, b)) := fun a b h => toward ht hs hts hne h
  have tw2 : ∀ a b : Bool, D es (pT es (t, b)) (pS es (s, a)) + 1 =
      D es (pS es (t, b)) (pS es (s, a)) → D es (pT es (t, b)) (pT es (s, a)) + 1 =
      D es (pS es (t, b)) (pT es (s, a)) := fun a b h => toward ht hts hs hne.symm h
  have e1 : ∀ b, pS es (b, true) = pT es (b, false) := fun b => rfl
  have e2 : ∀ b, pT es (b, true) = pS es (b, false) := fun b => by
    have := dst_flip es (b, false)
    simp only [pT, pS]; rw [← this]; rfl
  -- vertex ids
  have vs0 : vid (edge es s) false = ((pS es (s, false) : Nat) : Int) :=
    src_eq_pS hwf (p := (s, false)) hs
  have vs1 : vid (edge es s) true = ((pT es (s, false) : Nat) : Int) :=
    dst_eq_pT hwf (p := (s, false)) hs
  have vt0 : vid (edge es t) false = ((pS es (t, false) : Nat) : Int) :=
    src_eq_pS hwf (p := (t, false)) hts
  have vt1 : vid (edge es t) true = ((pT es (t, false) : Nat) : Int) :=
    dst_eq_pT hwf (p := (t, false)) hts
  -- path tests
  have ps0 := fun x => path_block ht hP (p := (s, false)) hs x
  have ps1 := fun x => path_block ht hP (p := (s, true)) hs x
  have pt0 := fun x => path_block ht hP (p := (t, false)) hts x
  have pt1 := fun x => path_block ht hP (p := (t, true)) hts x
  simp only [e1, e2] at ps1 pt1 tw tw2
  simp only at ps0 pt0 ps1 pt1
  have t1 := tw false false; have t2 := tw false true
  have t3 := tw true false; have t4 := tw true true
  have u1 := tw2 false false; have u2 := tw2 false true
  have u3 := tw2 true false; have u4 := tw2 true true
  simp only [e1, e2] at t1 t2 t3 t4 u1 u2 u3 u4
  have c1 := D_comm (pS es (t, false)) (pS es (s, false))
  have c2 := D_comm (pS es (t, false)) (pT es (s, false))
  have c3 := D_comm (pT es (t, false)) (pS es (s, false))
  have c4 := D_comm (pT es (t, false)) (pT es (s, false))
  have d1 := D_step ht (p := (s, false)) hs (pS es (t, false))
  have d2 := D_step ht (p := (t, false)) hts (pS es (s, false))
  simp only [EIter.begin, ne_eq, he, vs0, vs1, vt0, vt1, ps0, ps1, pt0, pt1, if_neg hne]
  clear tw tw2
  simp only [c1, c2, c3, c4] at *
  rcases d1 with d1 | d1 <;> rcases d2 with d2 | d2
  · refine ⟨false, false, ?_, ?_⟩
    · rw [if_pos (by omega), if_pos (by omega), if_pos (by omega), if_pos (by omega)]; rfl
    · omega
  · refine ⟨false, true, ?_, ?_⟩
    · rw [if_pos (by omega), if_pos (by omega), if_neg (by omega), if_pos (by omega),
        if_pos (by omega)]; rfl
    · simp only [e1, e2]
      omega
  · refine ⟨true, false, ?_, ?_⟩
    · rw [if_neg (by omega), if_pos (by omega), if_pos (by omega), if_pos (by omega),
        if_pos (by omega), e2]; rfl
    · simp only [e1, e2]
      omega
  · refine ⟨true, true, ?_, ?_⟩
    · rw [if_neg (by omega), if_pos (by omega), if_pos (by omega), if_neg (by omega),
        if_pos (by omega), if_pos (by omega), e2]; rfl
    · simp only [e1, e2]
      omega

end Verif.Chem
