import Verif.Chem.Iter
import Mathlib.Combinatorics.SimpleGraph.Finite

/-!
# Properties of polymer topology

C09 plan is a valid schedule, C10 malformed graphs, C11 solving order, C12 paths and
vertex iterator, C13 edge iterator.

Specification vocabulary: `TreeInput es` (ids in range and the graph whose edges are the
blocks is a tree), `src`/`dst` (vertex where a propagator starts/ends), `Feeds q p` (`q`
is a propagator of another block that ends where `p` starts).
-/

namespace Verif.Chem

open SimpleGraph

/-- Specification: each (block, direction) exactly once, each after everything that
feeds it. -/
structure ValidSchedule (es : List Edge) (plan : List Pid) : Prop where
  nodup : plan.Nodup
  complete : ∀ p, p ∈ plan ↔ p.1 < es.length
  ordered : ∀ l1 p l2, plan = l1 ++ p :: l2 → ∀ q, Feeds es q p → q ∈ l1

/-- C09: for every tree, reading ends and produces a valid schedule. -/
theorem C09_plan_valid_schedule (es : List Edge) (ht : TreeInput es) (fuel : Nat)
    (hf : es.length * 2 ≤ fuel) :
    ∃ P, readTopology es fuel = some (.ok P) ∧ P.edges = es ∧ ValidSchedule es P.plan := by
  obtain ⟨P, hP⟩ := readTopology_ok ht fuel hf
  obtain ⟨h1, _, _, ⟨f, h4⟩, h5, _⟩ := readTopology_inv hP
  refine ⟨P, hP, h1, h4.nodup, ?_, h4.order⟩
  have h6 : P.plan.length = es.length * 2 := h5
  have hsub : P.plan.Subperm (allPids es.length) := List.subperm_of_subset h4.nodup
    (fun p hp => (allPids_mem _ p).2 (h4.valid p hp))
  have hperm := hsub.perm_of_length_le (by rw [allPids_length]; omega)
  intro p
  rw [hperm.mem_iff, allPids_mem]

/-- A linear block list is a tree, for every number of blocks. -/
theorem C09_linear_is_tree (n : Nat) : TreeInput (linearEdges n) := by
  have hlen : (linearEdges n).length = n := by simp [linearEdges]
  have hmem : ∀ i : Nat, i < n → ((i : Int), (i : Int) + 1) ∈ linearEdges n := by
    intro i hi
    simp only [linearEdges, List.mem_map, List.mem_range]
    exact ⟨i, hi, rfl⟩
  have hedge : ∀ b, b < n → edge (linearEdges n) b = ((b : Int), (b : Int) + 1) := by
    intro b hb
    simp [edge, linearEdges, List.getD, hb]
  have hrange : ∀ e ∈ linearEdges n, 0 ≤ e.1 ∧ e.1 ≤ (linearEdges n).length ∧ 0 ≤ e.2 ∧
      e.2 ≤ (linearEdges n).length ∧ e.1 ≠ e.2 := by
    intro e he
    rw [hlen]
    simp only [linearEdges, List.mem_map, List.mem_range] at he
    obtain ⟨i, hi, rfl⟩ := he
    simp only
    omega
  refine ⟨fun e he => ⟨(hrange e he).1, (hrange e he).2.1, (hrange e he).2.2.1,
    (hrange e he).2.2.2.1⟩, ?_⟩
  -- rank: forward propagators by position, backward ones by reversed position
  refine tree_of_rank hrange (fun p => if p.2 then n - p.1 else p.1) ?_
  rintro ⟨qb, qd⟩ ⟨pb, pd⟩ ⟨h1, h2, h3, h4⟩
  rw [hlen] at h1 h2
  simp only at h1 h2 h3
  simp only [src, dst, hedge _ h1, hedge _ h2, vid] at h4
  cases qd <;> cases pd <;> simp at h4 ⊢ <;> omega

example : ∃ P, readTopology (linearEdges 3) 6 = some (.ok P) ∧ ValidSchedule (linearEdges 3) P.plan := by
  obtain ⟨P, h, _, h'⟩ := C09_plan_valid_schedule _ (C09_linear_is_tree 3) 6 (by decide)
  exact ⟨P, h, h'⟩

/-! ### C10 -/

/-- Full statement of C10: every block list that is not a tree is rejected by an error. -/
def C10_statement : Prop :=
  ∀ es : List Edge, ¬ TreeInput es → ∃ fuel, readTopology es fuel = some .throw

/-- What holds of C10: a block list that is accepted is a tree, and its block ids are in
range. (Missing: lists that are not trees need not end with an error, see below.) -/
theorem C10_accepted_is_tree_partial (es : List Edge) (fuel : Nat) (P : Polymer)
    (h : readTopology es fuel = some (.ok P)) : TreeInput es :=
  (readTopology_inv h).2.2.2.2.2

/-- A block joining a vertex to itself is always rejected when the ids are in range. -/
theorem C10_selfloop_rejected_partial (pre post : List Edge) (v : Int) (fuel : Nat)
    (hpre : ∀ e ∈ pre, 0 ≤ e.1 ∧ e.1 ≤ (pre ++ (v, v) :: post).length ∧ 0 ≤ e.2 ∧
      e.2 ≤ (pre ++ (v, v) :: post).length)
    (hv : 0 ≤ v ∧ v ≤ (pre ++ (v, v) :: post).length) :
    readTopology (pre ++ (v, v) :: post) fuel = some .throw := by
  have key : ∀ (l : List Edge) (k : Nat) (vs : List Vertex),
      (∀ e ∈ l, 0 ≤ e.1 ∧ e.1 < vs.length ∧ 0 ≤ e.2 ∧ e.2 < vs.length) →
      (0 ≤ v ∧ v < vs.length) →
      addEdges vs k (l ++ (v, v) :: post) = .throw := by
    have hadd : ∀ (vs : List Vertex) (i : Int) (k : Nat) (e : Edge), 0 ≤ i → i < vs.length →
        addAt vs i k e = .throw ∨ ∃ vs', addAt vs i k e = .ok vs' ∧ vs'.length = vs.length := by
      intro vs i k e h0 h1
      unfold addAt
      rw [if_pos h0]
      have : i.toNat < vs.length := by omega
      rw [List.getElem?_eq_getElem this]
      simp only
      cases hc : (vs[i.toNat]).addEdge k e with
      | ok v' => right; exact ⟨_, rfl, by simp⟩
      | throw => left; rfl
      | ub =>
        exfalso
        unfold Vertex.addEdge at hc
        repeat' split at hc
        all_goals cases hc
    intro l
    induction l with
    | nil =>
      intro k vs _ hv
      simp only [List.nil_append, addEdges]
      unfold addAt
      rw [if_pos hv.1]
      have : v.toNat < vs.length := by omega
      rw [List.getElem?_eq_getElem this]
      simp only
      have : (vs[v.toNat]).addEdge k (v, v) = .throw := by
        unfold Vertex.addEdge
        simp
      rw [this]; rfl
    | cons e l ih =>
      intro k vs hl hv
      have he := hl e (by simp)
      simp only [List.cons_append, addEdges]
      rcases hadd vs e.1 k e he.1 he.2.1 with h | ⟨vs1, h, hl1⟩
      · rw [h]; rfl
      · rw [h, Res.ok_bind]
        rcases hadd vs1 e.2 k e he.2.2.1 (by rw [hl1]; exact he.2.2.2) with h | ⟨vs2, h, hl2⟩
        · rw [h]; rfl
        · rw [h, Res.ok_bind]
          have hlen : vs2.length = vs.length := by rw [hl2, hl1]
          exact ih _ _ (by intro e' he'; rw [hlen]; exact hl e' (by simp [he']))
            (by rw [hlen]; exact hv)
  unfold readTopology makeVertices
  rw [key]
  · intro e he
    have := hpre e he
    rw [initVertices_length]; push_cast
    exact ⟨this.1, by omega, this.2.2.1, by omega⟩
  · rw [initVertices_length]; push_cast
    exact ⟨hv.1, by omega⟩

/-- C10 is violated: when all ids are in range, no block joins a vertex to itself, and the
blocks do not form a tree, plan building never ends. -/
theorem C10_nontree_hangs (es : List Edge)
    (hwf : ∀ e ∈ es, 0 ≤ e.1 ∧ e.1 ≤ es.length ∧ 0 ≤ e.2 ∧ e.2 ≤ es.length ∧ e.1 ≠ e.2)
    (hnt : ¬ (blockGraph es).IsTree) (fuel : Nat) : readTopology es fuel = none := by
  obtain ⟨vs, hv⟩ := makeVertices_success (es := es) hwf
  unfold readTopology
  rw [hv]
  simp only
  cases hp : makePlan es vs fuel with
  | none => rfl
  | some plan =>
    exfalso
    unfold makePlan at hp
    rw [Option.map_eq_some_iff] at hp
    obtain ⟨st, hst, rfl⟩ := hp
    obtain ⟨i1, i2⟩ := planLoop_inv hv fuel _ st (PlanInv.init es) hst
    obtain ⟨f, hf⟩ := i1.rank i2
    exact hnt (tree_of_rank hwf f hf)

/-- C10 violated, concrete input: a ring of three blocks (with an isolated fourth vertex)
makes the plan loop run forever. -/
theorem C10_ring_hangs (fuel : Nat) : readTopology [(0, 1), (1, 2), (2, 0)] fuel = none := by
  apply C10_nontree_hangs
  · decide
  · intro h
    have h3 := h.connected (3 : Fin 4) (0 : Fin 4)
    obtain ⟨w⟩ := h3
    cases w with
    | cons hadj _ =>
      rename_i v _
      have key : ∀ u : Fin 4, ¬ (((((3 : Fin 4) : Nat) : Int), ((u : Nat) : Int)) ∈
          ([(0, 1), (1, 2), (2, 0)] : List Edge) ∨ (((u : Nat) : Int), (((3 : Fin 4) : Nat) : Int)) ∈
          ([(0, 1), (1, 2), (2, 0)] : List Edge)) := by decide
      exact key v hadj.2

/-- C10 violated: vertex ids out of range index the vertex array out of bounds. -/
theorem C10_out_of_range_ub : readTopology [(0, 5)] 10 = some .ub ∧
    readTopology [(-1, 0)] 10 = some .ub := by
  constructor <;> rfl

/-- The full statement of C10 is false for the code as written. -/
theorem C10_violated : ¬ C10_statement := by
  intro h
  have hnt : ¬ TreeInput [(0, 1), (1, 2), (2, 0)] := by
    intro ht
    obtain ⟨P, hP⟩ := readTopology_ok ht 6 (by decide)
    rw [C10_ring_hangs] at hP
    cases hP
  obtain ⟨fuel, hf⟩ := h _ hnt
  rw [C10_ring_hangs] at hf
  cases hf

/-! ### C11 -/

theorem mem_sources {es : List Edge} {vs : List Vertex} (h : makeVertices es = .ok vs)
    {p q : Pid} (hp : p.1 < es.length) : q ∈ sources es vs p ↔ Feeds es q p := by
  have hwf := (makeVertices_inv h).1
  have hs := hwf.srcRange hp
  unfold sources
  rw [List.mem_filter, show vid (edge es p.1) p.2 = src es p from rfl, mem_inIds h hs.1 hs.2]
  simp only [Feeds, decide_eq_true_eq]
  constructor
  · rintro ⟨⟨a, b⟩, c⟩; exact ⟨a, hp, c, b⟩
  · rintro ⟨a, _, c, b⟩; exact ⟨⟨a, b⟩, c⟩

theorem solveLoop_iff {es : List Edge} {vs : List Vertex} (h : makeVertices es = .ok vs) :
    ∀ (ps : List Pid) (st : SolveState) (tr : List Pid), (∀ p ∈ ps, p.1 < es.length) →
      st.trace = tr → (∀ p, p.1 < es.length → (st.solved p = true ↔ p ∈ tr)) →
      (∀ l1 p l2, ps = l1 ++ p :: l2 → ∀ q, Feeds es q p → q ∈ tr ++ l1) →
      ∃ st', solveLoop es vs ps st = .ok st' ∧ st'.trace = tr ++ ps ∧
        ∀ p, p.1 < es.length → (st'.solved p = true ↔ p ∈ tr ++ ps) := by
  intro ps
  induction ps with
  | nil =>
    intro st tr _ h1 h2 _
    exact ⟨st, rfl, by simp [h1], by simpa using h2⟩
  | cons p ps ih =>
    intro st tr hv h1 h2 h3
    have hp := hv p (by simp)
    have hr : (sources es vs p).all st.solved = true := by
      rw [List.all_eq_true]
      intro q hq
      have hf := (mem_sources h hp).1 hq
      have := h3 [] p ps rfl q hf
      rw [h2 q hf.1]; simpa using this
    obtain ⟨st', e, e1, e2⟩ := ih
      { solved := fun q => if q = p then true else st.solved q, trace := st.trace ++ [p] }
      (tr ++ [p]) (fun q hq => hv q (by simp [hq])) (by rw [h1])
      (by
        intro q hq
        by_cases hqp : q = p
        · simp [hqp]
        · simp [hqp, h2 q hq])
      (by
        intro l1 r l2 he q hq
        have := h3 (p :: l1) r l2 (by simp [he]) q hq
        simpa using this)
    refine ⟨st', ?_, by simpa using e1, fun q hq => by simpa using e2 q hq⟩
    simp only [solveLoop, hr, Res.check_true, Res.ok_bind, e]

theorem solveLoop_order {es : List Edge} {vs : List Vertex} (h : makeVertices es = .ok vs) :
    ∀ (ps : List Pid) (st st' : SolveState) (tr : List Pid), (∀ p ∈ ps, p.1 < es.length) →
      (∀ p, p.1 < es.length → (st.solved p = true ↔ p ∈ tr)) →
      solveLoop es vs ps st = .ok st' →
      ∀ l1 p l2, ps = l1 ++ p :: l2 → ∀ q, Feeds es q p → q ∈ tr ++ l1 := by
  intro ps
  induction ps with
  | nil => intro st st' tr _ _ _ l1 p l2 he; simp at he
  | cons p ps ih =>
    intro st st' tr hv h2 hs l1 r l2 he q hq
    have hp := hv p (by simp)
    simp only [solveLoop] at hs
    rw [Res.bind_eq_ok] at hs
    obtain ⟨_, hc, hs⟩ := hs
    have hr : (sources es vs p).all st.solved = true := by
      cases hx : (sources es vs p).all st.solved with
      | true => rfl
      | false => rw [hx] at hc; cases hc
    cases l1 with
    | nil =>
      simp only [List.nil_append, List.cons.injEq] at he
      obtain ⟨rfl, _⟩ := he
      rw [List.all_eq_true] at hr
      have := hr q ((mem_sources h hp).2 hq)
      rw [h2 q hq.1] at this
      simpa using this
    | cons x l1 =>
      simp only [List.cons_append, List.cons.injEq] at he
      obtain ⟨rfl, he⟩ := he
      have := ih _ st' (tr ++ [p]) (fun q hq => hv q (by simp [hq]))
        (by
          intro q hq
          by_cases hqp : q = p
          · simp [hqp]
          · simp [hqp, h2 q hq]) hs l1 r l2 he q hq
      simpa using this

/-- C11: for every valid schedule and every initial pattern of flags, solving succeeds,
solves the propagators in plan order, each exactly once, and leaves all solved. -/
theorem C11_solve_succeeds (es : List Edge) (vs : List Vertex) (plan : List Pid)
    (hv : makeVertices es = .ok vs) (hs : ValidSchedule es plan) (flags : Pid → Bool) :
    ∃ st, solvePolymer es vs plan flags = .ok st ∧ st.trace = plan ∧
      (∀ p, p.1 < es.length → st.trace.count p = 1 ∧ st.solved p = true) := by
  obtain ⟨st, h1, h2, h3⟩ := solveLoop_iff hv plan ⟨clearSolved plan flags, []⟩ []
    (fun p hp => (hs.complete p).1 hp) rfl
    (by intro p hp; simp [clearSolved, (hs.complete p).2 hp])
    (by intro l1 p l2 he q hq; simpa using hs.ordered l1 p l2 he q hq)
  refine ⟨st, h1, by simpa using h2, ?_⟩
  intro p hp
  have hm := (hs.complete p).2 hp
  refine ⟨?_, (h3 p hp).2 (by simpa using hm)⟩
  rw [h2, List.nil_append]
  exact List.count_eq_one_of_mem hs.nodup hm

/-- C11, converse: the readiness check is exact – if solving a complete plan succeeds from
any flags then every propagator came after everything feeding it. -/
theorem C11_check_exact (es : List Edge) (vs : List Vertex) (plan : List Pid)
    (hv : makeVertices es = .ok vs) (hn : plan.Nodup) (hc : ∀ p, p ∈ plan ↔ p.1 < es.length)
    (flags : Pid → Bool) (st : SolveState) (h : solvePolymer es vs plan flags = .ok st) :
    ValidSchedule es plan := by
  refine ⟨hn, hc, ?_⟩
  intro l1 p l2 he q hq
  have := solveLoop_order hv plan ⟨clearSolved plan flags, []⟩ st []
    (fun p hp => (hc p).1 hp) (by intro p hp; simp [clearSolved, (hc p).2 hp]) h l1 p l2 he q hq
  simpa using this

/-- C11 end to end: every polymer accepted by the reader can be solved. -/
theorem C11_read_polymer_solves (es : List Edge) (fuel : Nat) (P : Polymer)
    (h : readTopology es fuel = some (.ok P)) (flags : Pid → Bool) :
    ∃ st, solvePolymer P.edges P.vertices P.plan flags = .ok st ∧
      st.trace = P.plan ∧ ∀ p, p.1 < es.length → st.trace.count p = 1 ∧ st.solved p = true := by
  obtain ⟨h1, h2, _, ⟨f, h4⟩, h5, _⟩ := readTopology_inv h
  have hs : ValidSchedule es P.plan := by
    refine ⟨h4.nodup, ?_, h4.order⟩
    have h6 : P.plan.length = es.length * 2 := h5
    have hsub : P.plan.Subperm (allPids es.length) := List.subperm_of_subset h4.nodup
      (fun p hp => (allPids_mem _ p).2 (h4.valid p hp))
    have hperm := hsub.perm_of_length_le (by rw [allPids_length]; omega)
    intro p
    rw [hperm.mem_iff, allPids_mem]
  rw [h1]
  exact C11_solve_succeeds es P.vertices P.plan h2 hs flags

example : ∃ P, readTopology (linearEdges 3) 6 = some (.ok P) ∧
    ∃ st, solvePolymer P.edges P.vertices P.plan (fun _ => true) = .ok st ∧
      st.trace = P.plan := by
  obtain ⟨P, h, _, _⟩ := C09_plan_valid_schedule _ (C09_linear_is_tree 3) 6 (by decide)
  obtain ⟨st, h1, h2, _⟩ := C11_read_polymer_solves _ _ P h (fun _ => true)
  exact ⟨P, h, st, h1, h2⟩

/-! ### C12 -/

/-- C12: `path(v, s)` is `(-1,-1)` on the diagonal and otherwise names the block and the
direction of the first edge of the path from `v` to `s`. -/
theorem C12_path_first_step (es : List Edge) (fuel : Nat) (P : Polymer)
    (h : readTopology es fuel = some (.ok P)) (v s : Fin (es.length + 1)) :
    (v = s → path P.paths v s = (-1, -1)) ∧
    (v ≠ s → ∀ w : (blockGraph es).Walk v s, w.IsPath →
      ∃ (b : Nat) (d : Bool), b < es.length ∧ path P.paths v s = ((b : Int), if d then 1 else 0) ∧
        src es (b, d) = ((v : Nat) : Int) ∧ dst es (b, d) = ((w.snd : Nat) : Int)) := by
  have hP := readTopology_paths h
  have ht := (readTopology_inv h).2.2.2.2.2
  refine ⟨fun he => by subst he; exact hP.1 v, fun hne w hw => ?_⟩
  obtain ⟨p, p1, p2⟩ := hP.2 v s hne
  refine ⟨p.1, p.2, p1.1, p2, p1.2.1, ?_⟩
  have hadj := adj_of_pid ht.wf.1 p1.1
  rw [p1.pS_eq] at hadj
  obtain ⟨w1, hw1⟩ := ht.tree.connected.exists_walk_length_eq_dist (pT es p) s
  have h3 := p1.2.2
  unfold D at h3
  rw [dist_comm (u := s), dist_comm (u := s)] at h3
  have e1 : (Walk.cons hadj w1).IsPath :=
    Walk.isPath_of_length_eq_dist _ (by rw [Walk.length_cons]; omega)
  have := (ht.tree.isAcyclic.subsingleton_path v s).elim ⟨_, e1⟩ ⟨_, hw⟩
  have := congrArg (fun x => (Subtype.val x).snd) this
  simp only [Walk.snd_cons] at this
  rw [← this]
  exact dst_eq_pT ht.wf.1 p1.1

/-- C12: the vertex iterator visits exactly the vertices of the unique path, in order,
and stops at the target; at most `nBlock` increments are needed. -/
theorem C12_vertex_iterator (es : List Edge) (fuel : Nat) (P : Polymer)
    (h : readTopology es fuel = some (.ok P)) (v s : Fin (es.length + 1))
    (w : (blockGraph es).Walk v s) (hw : w.IsPath) (k : Nat) (hk : es.length ≤ k) :
    VIter.run P k (VIter.begin v s) =
      some (.ok (w.support.map (fun u : Fin (es.length + 1) => ((u : Nat) : Int)))) := by
  obtain ⟨he, _, _, _, _, ht⟩ := readTopology_inv h
  have hP := readTopology_paths h
  have hD := D_lt ht v s
  obtain ⟨w', w1, w2⟩ := VIter.run_ok he hP ht s _ k v rfl (by omega)
  have hp' : w'.IsPath := Walk.isPath_of_length_eq_dist _ (by rw [w1, D, dist_comm])
  have := (ht.tree.isAcyclic.subsingleton_path v s).elim ⟨_, hp'⟩ ⟨_, hw⟩
  have : w' = w := congrArg Subtype.val this
  rw [← this]; exact w2

/-- Such a path exists for every pair of vertices, so the iterator always ends. -/
theorem C12_iterator_ends (es : List Edge) (fuel : Nat) (P : Polymer)
    (h : readTopology es fuel = some (.ok P)) (v s : Fin (es.length + 1)) :
    ∃ w : (blockGraph es).Walk v s, w.IsPath ∧ ∀ k, es.length ≤ k →
      VIter.run P k (VIter.begin v s) =
        some (.ok (w.support.map (fun u : Fin (es.length + 1) => ((u : Nat) : Int)))) := by
  have ht := (readTopology_inv h).2.2.2.2.2
  obtain ⟨w, hw, _⟩ := ht.tree.connected.exists_path_of_dist v s
  exact ⟨w, hw, fun k hk => C12_vertex_iterator es fuel P h v s w hw k hk⟩

/-! ### C13 -/

/-- C13: for two different blocks of an accepted polymer the edge iterator starts, visits
the blocks along the simple path that begins at the far end of the source block and ends
at the far end of the target block, each once and with the direction of travel, first the
source block and last the target block. -/
theorem C13_edge_iterator (es : List Edge) (fuel : Nat) (P : Polymer)
    (h : readTopology es fuel = some (.ok P)) (s t : Nat) (hs : s < es.length)
    (hts : t < es.length) (hne : s ≠ t) :
    ∃ (it : EIter) (a b : Fin (es.length + 1)) (w : (blockGraph es).Walk a b) (L : List Pid),
      EIter.begin P s t = .ok it ∧ w.IsPath ∧
      (∀ k, es.length ≤ k → EIter.run P k it = some (.ok L)) ∧
      (∀ p ∈ L, p.1 < es.length) ∧
      L.map (src es) = w.support.dropLast.map (fun u : Fin (es.length + 1) => ((u : Nat) : Int)) ∧
      L.map (dst es) = w.support.tail.map (fun u : Fin (es.length + 1) => ((u : Nat) : Int)) ∧
      (L.map (·.1)).Nodup ∧ (L.head?.map (·.1)) = some s ∧ (L.getLast?.map (·.1)) = some t := by
  obtain ⟨he, _, _, _, _, ht⟩ := readTopology_inv h
  have hP := readTopology_paths h
  have hwf := ht.wf.1
  obtain ⟨ds, dt, hb, h1, h2⟩ := EIter.begin_ok he hP ht hs hts hne
  -- run from the near end of the source block
  have hrun := fun k (hk : es.length ≤ k) => EIter.run_ok he hP ht (t, dt) hts _ k _
    ⟨s, ds, ((pT es (s, ds) : Nat) : Int), t, ((pS es (t, dt) : Nat) : Int)⟩ rfl
    ((D_lt ht (pT es (s, ds)) (pS es (t, dt))).trans hk) h2 rfl rfl
  obtain ⟨w, L, w1, w2, w3, w4, w5, w6, w7⟩ := hrun es.length le_rfl
  have hadj := adj_of_pid hwf (p := (s, ds)) hs
  have hpath : (Walk.cons hadj w).IsPath :=
    Walk.isPath_of_length_eq_dist _ (by
      rw [Walk.length_cons, w1, h1, D, dist_comm])
  have hwpath : w.IsPath := hpath.of_cons
  refine ⟨_, _, _, Walk.cons hadj w, (s, ds) :: L, hb, hpath, ?_, ?_, ?_, ?_, ?_, ?_, ?_⟩
  · intro k hk
    obtain ⟨w', L', v1, v2, v3, v4, v5, v6, v7⟩ := hrun k hk
    rw [v2]
    have hp' : w'.IsPath := Walk.isPath_of_length_eq_dist _ (by rw [v1, D, dist_comm])
    have hww : w' = w := congrArg Subtype.val
      ((ht.tree.isAcyclic.subsingleton_path _ _).elim ⟨_, hp'⟩ ⟨_, hwpath⟩)
    subst hww
    -- the list of propagators is determined by its starting and ending vertices
    have hLL : L' = L := by
      have key : ∀ (A B : List Pid), (∀ p ∈ A, p.1 < es.length) → (∀ p ∈ B, p.1 < es.length) →
          A.map (pS es) = B.map (pS es) → A.map (pT es) = B.map (pT es) → A = B := by
        intro A
        induction A with
        | nil => intro B _ _ h _; simp at h; exact h.symm
        | cons x A ih =>
          intro B hA hB h h'
          cases B with
          | nil => simp at h
          | cons y B =>
            simp only [List.map_cons, List.cons.injEq] at h h'
            have hx := hA x (by simp)
            have hy := hB y (by simp)
            have : x = y := pid_ext_of hwf hx
              (ht.wf.2 x y hx hy (by rw [pE, pE, h.1, h'.1]))
              (by rw [src_eq_pS hwf hx, src_eq_pS hwf hy, h.1])
            rw [this, ih B (fun p hp => hA p (by simp [hp])) (fun p hp => hB p (by simp [hp]))
              h.2 h'.2]
      exact key _ _ v3 w3 (by rw [v4, w4]) (by rw [v5, w5])
    rw [hLL]
  · intro p hp
    rcases List.mem_cons.1 hp with rfl | hp
    · exact hs
    · exact w3 p hp
  · rw [Walk.support_cons, List.dropLast_cons_of_ne_nil (Walk.support_ne_nil w), List.map_cons,
      List.map_cons, ← w4, List.map_map, src_eq_pS hwf (p := (s, ds)) hs]
    congr 1
    apply List.map_congr_left
    intro p hp
    exact src_eq_pS hwf (w3 p hp)
  · rw [Walk.support_cons, List.tail_cons, List.map_cons, ← Walk.cons_tail_support w,
      List.map_cons, ← w5, List.map_map, dst_eq_pT hwf (p := (s, ds)) hs]
    congr 1
    apply List.map_congr_left
    intro p hp
    exact dst_eq_pT hwf (w3 p hp)
  · have hnd : (Walk.cons hadj w).edges.Nodup := hpath.isTrail.edges_nodup
    rw [Walk.edges_cons, ← w6] at hnd
    have hnd' : (((s, ds) :: L).map (pE es)).Nodup := hnd
    have hfix : ∀ p q : Pid, p.1 = q.1 → pE es p = pE es q := by
      intro p q hpq
      obtain ⟨pb, pd⟩ := p
      obtain ⟨qb, qd⟩ := q
      simp only at hpq; subst hpq
      by_cases hd : pd = qd
      · rw [hd]
      · have : pd = !qd := by cases pd <;> cases qd <;> simp_all
        rw [this]; exact pE_flip es (pb, qd)
    unfold List.Nodup at hnd' ⊢
    rw [List.pairwise_map] at hnd' ⊢
    exact hnd'.imp (fun {p q} hpq h => hpq (hfix p q h))
  · rfl
  · rw [List.getLast?_cons, w7]; rfl

/-- C13: source and target must differ. -/
theorem C13_same_block_rejected (P : Polymer) (s : Nat) : EIter.begin P s s = .throw := by
  simp [EIter.begin]

/-- Blocks of a star with a tail, used as a concrete tree that is not linear. -/
def starTail : List Edge := [(0, 1), (1, 2), (3, 2), (2, 4)]

/-- The star satisfies the hypotheses of C09–C13: accepted means tree. -/
example : TreeInput starTail := by
  have h : ∃ P, readTopology starTail 8 = some (.ok P) := ⟨_, rfl⟩
  obtain ⟨P, hP⟩ := h
  exact C10_accepted_is_tree_partial _ _ P hP

example : (match readTopology starTail 8 with
    | some (.ok P) => VIter.run P 4 (VIter.begin 0 4)
    | _ => none) = some (.ok [0, 1, 2, 4]) := by decide +kernel

example : (match readTopology starTail 8 with
    | some (.ok P) => match EIter.begin P 3 0 with
      | .ok it => EIter.run P 4 it
      | _ => none
    | _ => none) = some (.ok [(3, true), (1, true), (0, true)]) := by decide +kernel

end Verif.Chem
