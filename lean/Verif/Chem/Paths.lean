import Verif.Chem.Graph
import Mathlib.Combinatorics.SimpleGraph.Metric

/-! Correctness of the path tables built by message passing. -/

namespace Verif.Chem

open SimpleGraph

variable {es : List Edge}

/-- Distance in the block graph. -/
noncomputable def D (es : List Edge) (v s : Fin (es.length + 1)) : Nat := (blockGraph es).dist s v

/-- `p` is the first step from `v` towards `s`. -/
def FirstStep (es : List Edge) (v s : Fin (es.length + 1)) (p : Pid) : Prop :=
  p.1 < es.length ∧ src es p = ((v : Nat) : Int) ∧ D es (pT es p) s + 1 = D es v s

theorem pS_eq {p : Pid} {v : Fin (es.length + 1)} (h : src es p = ((v : Nat) : Int)) :
    pS es p = v := by rw [pS, h, toV_self]

theorem pT_eq {p : Pid} {v : Fin (es.length + 1)} (h : dst es p = ((v : Nat) : Int)) :
    pT es p = v := by rw [pT, h, toV_self]

theorem dst_eq_pT (hwf : WF es) {p : Pid} (hp : p.1 < es.length) :
    dst es p = ((pT es p : Nat) : Int) := by
  have := hwf.dstRange hp
  rw [pT, toV_val this.1 this.2]

theorem src_eq_pS (hwf : WF es) {p : Pid} (hp : p.1 < es.length) :
    src es p = ((pS es p : Nat) : Int) := by
  have := hwf.srcRange hp
  rw [pS, toV_val this.1 this.2]

theorem firstStep_exists (ht : TreeInput es) {v s : Fin (es.length + 1)} (hne : v ≠ s) :
    ∃ p, FirstStep es v s p := by
  obtain ⟨w, hw, hl⟩ := ht.tree.connected.exists_path_of_dist v s
  cases w with
  | nil => exact absurd rfl hne
  | @cons _ u _ hadj w =>
    obtain ⟨p, p1, p2, p3⟩ := pid_of_adj hadj
    refine ⟨p, p1, p2, ?_⟩
    rw [pT_eq p3]
    rw [Walk.length_cons] at hl
    have h1 := dist_le w
    rw [dist_comm] at hl h1
    have := ht.tree.dist_eq_dist_add_one_of_adj s hadj
    unfold D
    omega

theorem firstStep_target (ht : TreeInput es) {v s : Fin (es.length + 1)} {p q : Pid}
    (hp : FirstStep es v s p) (hq : FirstStep es v s q) : pT es p = pT es q := by
  obtain ⟨hwf, _⟩ := ht.wf
  obtain ⟨p1, p2, p3⟩ := hp
  obtain ⟨q1, q2, q3⟩ := hq
  have a1 := adj_of_pid hwf p1
  have a2 := adj_of_pid hwf q1
  rw [pS_eq p2] at a1
  rw [pS_eq q2] at a2
  obtain ⟨w1, hw1⟩ := ht.tree.connected.exists_walk_length_eq_dist (pT es p) s
  obtain ⟨w2, hw2⟩ := ht.tree.connected.exists_walk_length_eq_dist (pT es q) s
  unfold D at p3 q3
  rw [dist_comm (u := s), dist_comm (u := s)] at p3 q3
  have e1 : (Walk.cons a1 w1).IsPath :=
    Walk.isPath_of_length_eq_dist _ (by rw [Walk.length_cons]; omega)
  have e2 : (Walk.cons a2 w2).IsPath :=
    Walk.isPath_of_length_eq_dist _ (by rw [Walk.length_cons]; omega)
  have := (ht.tree.isAcyclic.subsingleton_path v s).elim ⟨_, e1⟩ ⟨_, e2⟩
  have := congrArg (fun x => (Subtype.val x).snd) this
  simpa using this

theorem pid_ext_of (hwf : WF es) {p q : Pid} (hp : p.1 < es.length) (h1 : p.1 = q.1)
    (h2 : src es p = src es q) : p = q := by
  obtain ⟨pb, pd⟩ := p
  obtain ⟨qb, qd⟩ := q
  simp only at h1; subst h1
  by_cases h : pd = qd
  · rw [h]
  · exfalso
    have : qd = !pd := by cases qd <;> cases pd <;> simp_all
    subst this
    have := hwf.ne hp
    rw [h2] at this
    apply this
    rfl

theorem firstStep_unique (ht : TreeInput es) {v s : Fin (es.length + 1)} {p q : Pid}
    (hp : FirstStep es v s p) (hq : FirstStep es v s q) : p = q := by
  obtain ⟨hwf, hinj⟩ := ht.wf
  have ht' := firstStep_target ht hp hq
  have : p.1 = q.1 := hinj p q hp.1 hq.1 (by
    rw [pE, pE, pS_eq hp.2.1, pS_eq hq.2.1, ht'])
  exact pid_ext_of hwf hp.1 this (by rw [hp.2.1, hq.2.1])

theorem firstStep_ne {v s : Fin (es.length + 1)} {p : Pid}
    (hp : FirstStep es v s p) : v ≠ s := by
  rintro rfl
  have := hp.2.2
  simp [D] at this

theorem D_lt (ht : TreeInput es) (v s : Fin (es.length + 1)) : D es v s ≤ es.length := by
  obtain ⟨w, hw, hl⟩ := ht.tree.connected.exists_path_of_dist s v
  have := hw.length_lt
  simp only [Fintype.card_fin] at this
  unfold D; omega

/-! ### Message passing -/

/-- Entries expected at vertex `v` in round `t`. -/
def Good (es : List Edge) : Nat → Fin (es.length + 1) → Entry → Prop
  | 0, v, x => x = ⟨v, -1, -1⟩
  | t + 1, v, x => ∃ (s : Fin (es.length + 1)) (p : Pid), FirstStep es v s p ∧ D es v s = t + 1 ∧
      x = ⟨s, (p.1 : Int), dirInt p.2⟩

theorem good_target {t : Nat} {v : Fin (es.length + 1)} {x : Entry} (h : Good es t v x) :
    ∃ s : Fin (es.length + 1), x.target = s ∧ D es v s = t := by
  cases t with
  | zero => exact ⟨v, by rw [h], by simp [D]⟩
  | succ t =>
    obtain ⟨s, p, _, h2, rfl⟩ := h
    exact ⟨s, rfl, h2⟩

theorem good_exists (ht : TreeInput es) (v s : Fin (es.length + 1)) :
    ∃ x, Good es (D es v s) v x ∧ x.target = s := by
  by_cases h : v = s
  · subst h
    refine ⟨⟨v, -1, -1⟩, ?_, rfl⟩
    have : D es v v = 0 := by simp [D]
    rw [this]; rfl
  · obtain ⟨p, hp⟩ := firstStep_exists ht h
    refine ⟨⟨s, (p.1 : Int), dirInt p.2⟩, ?_, rfl⟩
    rw [← hp.2.2]
    exact ⟨s, p, hp, hp.2.2.symm, rfl⟩

theorem good_unique (ht : TreeInput es) {t u : Nat} {v : Fin (es.length + 1)} {x y : Entry}
    (hx : Good es t v x) (hy : Good es u v y) (hxy : x.target = y.target) : x = y := by
  obtain ⟨s, s1, s2⟩ := good_target hx
  obtain ⟨r, r1, r2⟩ := good_target hy
  have : s = r := Fin.ext (by rw [← s1, ← r1, hxy])
  subst this
  have : t = u := by omega
  subst this
  cases t with
  | zero => rw [hx, hy]
  | succ t =>
    obtain ⟨s', p, p1, p2, rfl⟩ := hx
    obtain ⟨r', q, q1, q2, rfl⟩ := hy
    have e1 : s' = s := Fin.ext s1
    have e2 : r' = s := Fin.ext r1
    subst e1; subst e2
    rw [firstStep_unique ht p1 q1]

/-- Invariant of `sendPaths` in round `t`. -/
def SendInv (es : List Edge) (t : Nat) (send : Nat → List Entry) : Prop :=
  ∀ v : Fin (es.length + 1), (∀ x, x ∈ send v ↔ Good es t v x) ∧ ((send v).map (·.target)).Nodup

theorem dirInt_inj {a b : Bool} (h : dirInt a = dirInt b) : a = b := by
  cases a <;> cases b <;> simp [dirInt] at h ⊢

theorem mem_sentTo {vs : List Vertex} (hv : makeVertices es = .ok vs) (send : Nat → List Entry)
    (v u : Fin (es.length + 1)) (x : Entry) :
    x ∈ sentTo es vs send v u ↔ ∃ p : Pid, p.1 < es.length ∧ src es p = ((v : Nat) : Int) ∧
      dst es p = ((u : Nat) : Int) ∧ ∃ y ∈ send u, (p.1 : Int) ≠ y.block ∧
      x = ⟨y.target, (p.1 : Int), dirInt p.2⟩ := by
  unfold sentTo
  rw [List.mem_flatMap]
  have hu : ((u : Nat) : Int) ≤ es.length := by have := u.2; omega
  constructor
  · rintro ⟨q, hq, hx⟩
    rw [mem_outIds hv (by omega) hu] at hq
    split at hx
    · rename_i hd
      simp only [List.mem_map, List.mem_filter] at hx
      obtain ⟨y, ⟨hy, hb⟩, rfl⟩ := hx
      refine ⟨(q.1, !q.2), hq.1, hd, ?_, y, hy, by simpa using hb, rfl⟩
      rw [dst_flip, hq.2]
    · simp at hx
  · rintro ⟨p, p1, p2, p3, y, hy, hb, rfl⟩
    refine ⟨(p.1, !p.2), (mem_outIds hv (by omega) hu _).2 ⟨p1, by rw [src_flip, p3]⟩, ?_⟩
    have : vid (edge es p.1) (!!p.2) = ((v : Nat) : Int) := by simpa [src] using p2
    rw [if_pos this]
    simp only [List.mem_map, List.mem_filter]
    exact ⟨y, ⟨hy, by simpa using hb⟩, by simp⟩

theorem mem_received {vs : List Vertex} (hv : makeVertices es = .ok vs) (send : Nat → List Entry)
    (v : Fin (es.length + 1)) (x : Entry) :
    x ∈ received es vs send v ↔ ∃ p : Pid, p.1 < es.length ∧ src es p = ((v : Nat) : Int) ∧
      ∃ y ∈ send (pT es p), (p.1 : Int) ≠ y.block ∧
      x = ⟨y.target, (p.1 : Int), dirInt p.2⟩ := by
  have hwf := (makeVertices_inv hv).1
  unfold received
  rw [List.mem_flatMap]
  constructor
  · rintro ⟨u, hu, hx⟩
    rw [List.mem_range] at hu
    obtain ⟨p, p1, p2, p3, h⟩ := (mem_sentTo hv send v ⟨u, hu⟩ x).1 hx
    refine ⟨p, p1, p2, ?_⟩
    rw [pT_eq p3]; exact h
  · rintro ⟨p, p1, p2, h⟩
    exact ⟨pT es p, List.mem_range.2 (pT es p).2,
      (mem_sentTo hv send v (pT es p) x).2 ⟨p, p1, p2, dst_eq_pT hwf p1, h⟩⟩

theorem nodup_received {vs : List Vertex} (hv : makeVertices es = .ok vs) (send : Nat → List Entry)
    (hs : ∀ u : Fin (es.length + 1), ((send u).map (·.target)).Nodup) (v : Fin (es.length + 1)) :
    (received es vs send v).Nodup := by
  have hwf := (makeVertices_inv hv).1
  unfold received
  rw [List.nodup_flatMap]
  constructor
  · intro u hu
    rw [List.mem_range] at hu
    unfold sentTo
    rw [List.nodup_flatMap]
    constructor
    · intro p _
      split
      · have h1 := hs ⟨u, hu⟩
        simp only at h1
        have h2 : (((send u).filter (fun x => decide ((p.1 : Int) ≠ x.block))).map
            (·.target)).Nodup := h1.sublist (List.filter_sublist.map _)
        apply List.Nodup.of_map (fun e : Entry => e.target)
        rw [List.map_map]
        exact h2
      · simp
    · apply (nodup_outIds hv u).imp
      intro p q hpq
      simp only [Function.onFun, List.disjoint_left]
      intro x hx hx'
      split at hx
      · split at hx'
        · simp only [List.mem_map] at hx hx'
          obtain ⟨y, _, rfl⟩ := hx
          obtain ⟨z, _, hz⟩ := hx'
          simp only [Entry.mk.injEq] at hz
          apply hpq
          have e1 : p.1 = q.1 := by omega
          have e2 := dirInt_inj hz.2.2
          have e3 : p.2 = q.2 := by simpa using e2.symm
          exact Prod.ext e1 e3
        · simp at hx'
      · simp at hx
  · have := List.nodup_range (n := es.length + 1)
    apply List.Nodup.pairwise_of_forall_ne this
    intro a ha b hb hab
    rw [List.mem_range] at ha hb
    simp only [Function.onFun, List.disjoint_left]
    intro x hx hx'
    obtain ⟨p, p1, p2, p3, y, _, _, rfl⟩ := (mem_sentTo hv send v ⟨a, ha⟩ x).1 hx
    obtain ⟨q, q1, q2, q3, z, _, _, hz⟩ := (mem_sentTo hv send v ⟨b, hb⟩ _).1 hx'
    simp only [Entry.mk.injEq] at hz
    have e1 : p.1 = q.1 := by omega
    have e2 : p.2 = q.2 := dirInt_inj hz.2.2
    have : p = q := Prod.ext e1 e2
    subst this
    rw [p3] at q3
    simp only at q3
    omega

theorem SendInv.step (ht : TreeInput es) {vs : List Vertex} (hv : makeVertices es = .ok vs)
    {t : Nat} {send : Nat → List Entry} (h : SendInv es t send) :
    SendInv es (t + 1) (received es vs send) := by
  obtain ⟨hwf, hinj⟩ := ht.wf
  have hmem : ∀ (v : Fin (es.length + 1)) x, x ∈ received es vs send v ↔ Good es (t + 1) v x := by
    intro v x
    rw [mem_received hv]
    constructor
    · rintro ⟨p, p1, p2, y, hy, hb, rfl⟩
      rw [(h _).1] at hy
      obtain ⟨s, s1, s2⟩ := good_target hy
      have hadj := adj_of_pid hwf p1
      rw [pS_eq p2] at hadj
      have hd := ht.tree.dist_eq_dist_add_one_of_adj s hadj
      have hstep : D es v s = t + 1 := by
        rcases hd with hd | hd
        · unfold D at s2 ⊢; omega
        · exfalso
          -- then `v` is nearer: the entry came along the same block
          cases t with
          | zero => unfold D at s2; omega
          | succ t =>
            obtain ⟨s', q, q1, q2, rfl⟩ := hy
            have : s' = s := Fin.ext s1
            subst this
            have hp' : FirstStep es (pT es p) s' (p.1, !p.2) := by
              refine ⟨p1, by rw [src_flip, dst_eq_pT hwf p1], ?_⟩
              have : pT es (p.1, !p.2) = v := by
                rw [pT, dst_flip, p2, toV_self]
              rw [this]; unfold D; omega
            have := firstStep_unique ht hp' q1
            apply hb
            simp only
            rw [← this]
      refine ⟨s, p, ⟨p1, p2, by omega⟩, hstep, by rw [s1]⟩
    · rintro ⟨s, p, hp, hD, rfl⟩
      have hD' : D es (pT es p) s = t := by have := hp.2.2; omega
      obtain ⟨y, hy, hyt⟩ := good_exists ht (pT es p) s
      rw [hD'] at hy
      refine ⟨p, hp.1, hp.2.1, y, ((h _).1 y).2 hy, ?_, by rw [hyt]⟩
      cases t with
      | zero =>
        rw [hy]
        simp only; omega
      | succ t =>
        obtain ⟨s', q, q1, q2, rfl⟩ := hy
        have : s' = s := Fin.ext hyt
        subst this
        simp only
        intro hpq
        have hpq' : p.1 = q.1 := by omega
        have : (p.1, !p.2) = q := pid_ext_of hwf hp.1 hpq' (by
          rw [src_flip, dst_eq_pT hwf hp.1, q1.2.1])
        have h3 := q1.2.2
        rw [← this] at h3
        have e : pT es (p.1, !p.2) = v := by rw [pT, dst_flip, hp.2.1, toV_self]
        rw [e] at h3
        omega
  intro v
  refine ⟨hmem v, ?_⟩
  have hnd := nodup_received hv send (fun u => (h u).2) v
  apply hnd.map_on
  intro x hx y hy hxy
  exact good_unique ht ((hmem v x).1 hx) ((hmem v y).1 hy) hxy

theorem SendInv.init (es : List Edge) : SendInv es 0 (fun is => [⟨is, -1, -1⟩]) := by
  intro v
  exact ⟨by intro x; simp [Good], by simp⟩

/-- Invariant of `oldPaths` before round `t`. -/
def OldInv (es : List Edge) (t : Nat) (old : Nat → List Entry) : Prop :=
  ∀ v : Fin (es.length + 1), (∀ x, x ∈ old v ↔ ∃ u, u < t ∧ Good es u v x) ∧
    ((old v).map (·.target)).Nodup

theorem OldInv.step {t : Nat} {send old : Nat → List Entry}
    (hs : SendInv es t send) (ho : OldInv es t old) :
    OldInv es (t + 1) (fun v => old v ++ send v) := by
  intro v
  constructor
  · intro x
    rw [List.mem_append, (ho v).1, (hs v).1]
    constructor
    · rintro (⟨u, hu, h⟩ | h)
      · exact ⟨u, by omega, h⟩
      · exact ⟨t, by omega, h⟩
    · rintro ⟨u, hu, h⟩
      by_cases hut : u = t
      · subst hut; exact Or.inr h
      · exact Or.inl ⟨u, by omega, h⟩
  · rw [List.map_append, List.nodup_append]
    refine ⟨(ho v).2, (hs v).2, ?_⟩
    intro a ha b hb hab
    obtain ⟨x, hx, rfl⟩ := List.mem_map.1 ha
    obtain ⟨y, hy, rfl⟩ := List.mem_map.1 hb
    obtain ⟨u, hu, hx⟩ := ((ho v).1 x).1 hx
    have hy := ((hs v).1 y).1 hy
    obtain ⟨s, s1, s2⟩ := good_target hx
    obtain ⟨r, r1, r2⟩ := good_target hy
    have : s = r := Fin.ext (by rw [← s1, ← r1, hab])
    subst this
    omega

theorem exists_at_distance (ht : TreeInput es) (s : Fin (es.length + 1)) (t : Nat) :
    ∀ m (v : Fin (es.length + 1)), D es v s = m → t ≤ m → ∃ u, D es u s = t := by
  intro m
  induction m with
  | zero => intro v hv h; exact ⟨v, by omega⟩
  | succ m ih =>
    intro v hv h
    by_cases hm : t = m + 1
    · exact ⟨v, by omega⟩
    · have hne : v ≠ s := by
        rintro rfl
        simp [D] at hv
      obtain ⟨p, hp⟩ := firstStep_exists ht hne
      exact ih (pT es p) (by have := hp.2.2; omega) (by omega)

theorem pathLoop_ok (ht : TreeInput es) {vs : List Vertex} (hv : makeVertices es = .ok vs) :
    ∀ (k t : Nat) (send old : Nat → List Entry), k + t = es.length + 1 → SendInv es t send →
      OldInv es t old → ∃ old', pathLoop es vs (k + 1) send old = .ok old' ∧
        ∀ v : Fin (es.length + 1), (∀ x, x ∈ old' v ↔ ∃ u, Good es u v x) ∧
          ((old' v).map (·.target)).Nodup := by
  intro k
  have hchk : ∀ send, sendChecks es vs send = true := by
    intro send
    unfold sendChecks
    rw [List.all_eq_true]
    intro u hu
    rw [List.mem_range] at hu
    have : (outIds vs u).all (fun p => decide (vid (edge es p.1) p.2 = (u : Int))) = true := by
      rw [List.all_eq_true]
      intro p hp
      have := (mem_outIds hv (by omega) (by omega) p).1 hp
      simpa [src] using this.2
    simp [this]
  induction k with
  | zero =>
    intro t send old hk hs ho
    unfold pathLoop
    rw [if_pos (hchk send)]
    have hempty : (List.range (es.length + 1)).all (fun is => (send is).isEmpty) = true := by
      rw [List.all_eq_true]
      intro u hu
      rw [List.mem_range] at hu
      rw [List.isEmpty_iff]
      by_contra hne
      obtain ⟨x, hx⟩ := List.exists_mem_of_ne_nil _ hne
      obtain ⟨s, s1, s2⟩ := good_target (((hs ⟨u, hu⟩).1 x).1 hx)
      have := D_lt ht ⟨u, hu⟩ s
      omega
    rw [if_pos hempty]
    refine ⟨old, rfl, fun v => ⟨fun x => ?_, (ho v).2⟩⟩
    rw [(ho v).1]
    constructor
    · rintro ⟨u, _, h⟩; exact ⟨u, h⟩
    · rintro ⟨u, h⟩
      obtain ⟨s, _, s2⟩ := good_target h
      have := D_lt ht v s
      exact ⟨u, by omega, h⟩
  | succ k ih =>
    intro t send old hk hs ho
    unfold pathLoop
    rw [if_pos (hchk send)]
    by_cases hall : (List.range (es.length + 1)).all (fun is => (send is).isEmpty) = true
    · rw [if_pos hall]
      refine ⟨old, rfl, fun v => ⟨fun x => ?_, (ho v).2⟩⟩
      rw [(ho v).1]
      constructor
      · rintro ⟨u, _, h⟩; exact ⟨u, h⟩
      · rintro ⟨u, h⟩
        refine ⟨u, ?_, h⟩
        by_contra hut
        obtain ⟨s, _, s2⟩ := good_target h
        obtain ⟨w, hw⟩ := exists_at_distance ht s t _ v rfl (by omega)
        obtain ⟨y, hy, _⟩ := good_exists ht w s
        rw [hw] at hy
        have hy' := ((hs w).1 y).2 hy
        rw [List.all_eq_true] at hall
        have := hall w (List.mem_range.2 w.2)
        rw [List.isEmpty_iff] at this
        rw [this] at hy'
        simp at hy'
    · rw [if_neg hall]
      exact ih (t + 1) _ _ (by omega) (hs.step ht hv) (OldInv.step hs ho)

/-! ### The table -/

theorem assignRow_ok (nB is : Nat) (l : List Entry) : ∀ (row : List (Int × Int)),
    (∀ x ∈ l, x.target < row.length) → (l.map (·.target)).Nodup →
    (∀ x ∈ l, row[x.target]? = some (-1, -1)) →
    (∀ x ∈ l, if x.target = is then x.block = -1 ∧ x.dir = -1
            else 0 ≤ x.block ∧ x.block < nB ∧ 0 ≤ x.dir ∧ x.dir < 2) →
    ∃ row', assignRow nB is l row = .ok row' ∧ row'.length = row.length ∧
      (∀ x ∈ l, row'[x.target]? = some (x.block, x.dir)) ∧
      (∀ i, (∀ x ∈ l, x.target ≠ i) → row'[i]? = row[i]?) := by
  induction l with
  | nil => intro row _ _ _ _; exact ⟨row, rfl, rfl, by simp, by simp⟩
  | cons x xs ih =>
    intro row h1 h2 h3 h4
    rw [List.map_cons, List.nodup_cons] at h2
    have hx1 := h1 x (by simp)
    have hne : ∀ y ∈ xs, x.target ≠ y.target := by
      intro y hy he
      apply h2.1
      rw [he]; exact List.mem_map.2 ⟨y, hy, rfl⟩
    obtain ⟨row', e, l1, l2, l3⟩ := ih (row.set x.target (x.block, x.dir))
      (by intro y hy; simpa using h1 y (by simp [hy])) h2.2
      (by intro y hy; rw [List.getElem?_set_ne (hne y hy)]; exact h3 y (by simp [hy]))
      (fun y hy => h4 y (by simp [hy]))
    refine ⟨row', ?_, by simpa using l1, ?_, ?_⟩
    · unfold assignRow
      rw [h3 x (by simp)]
      simp only [and_self, if_true]
      rw [if_pos (h4 x (by simp)), e]
    · intro y hy
      rcases List.mem_cons.1 hy with rfl | hy
      · rw [l3 y.target (fun z hz => Ne.symm (hne z hz)), List.getElem?_set_self hx1]
      · exact l2 y hy
    · intro i hi
      rw [l3 i (fun y hy => hi y (by simp [hy])), List.getElem?_set_ne (hi x (by simp))]

/-- Row `v` of the path table is correct. -/
def RowOk (es : List Edge) (v : Fin (es.length + 1)) (row : List (Int × Int)) : Prop :=
  row[(v : Nat)]? = some (-1, -1) ∧
  ∀ s : Fin (es.length + 1), v ≠ s → ∃ p, FirstStep es v s p ∧
    row[(s : Nat)]? = some ((p.1 : Int), dirInt p.2)

theorem row_ok (ht : TreeInput es) (v : Fin (es.length + 1)) (l : List Entry)
    (h1 : ∀ x, x ∈ l ↔ ∃ u, Good es u v x) (h2 : (l.map (·.target)).Nodup) :
    l.length = es.length + 1 ∧ ∃ row, assignRow es.length v l
      (List.replicate (es.length + 1) (-1, -1)) = .ok row ∧ RowOk es v row := by
  have hlt : ∀ x ∈ l, x.target < es.length + 1 := by
    intro x hx
    obtain ⟨u, hu⟩ := (h1 x).1 hx
    obtain ⟨s, s1, _⟩ := good_target hu
    rw [s1]; exact s.2
  have hcov : ∀ s : Fin (es.length + 1), ∃ x ∈ l, x.target = s := by
    intro s
    obtain ⟨x, hx, hxt⟩ := good_exists ht v s
    exact ⟨x, (h1 x).2 ⟨_, hx⟩, hxt⟩
  constructor
  · have hp : (l.map (·.target)).Perm (List.range (es.length + 1)) := by
      rw [List.perm_ext_iff_of_nodup h2 List.nodup_range]
      intro a
      rw [List.mem_range, List.mem_map]
      constructor
      · rintro ⟨x, hx, rfl⟩; exact hlt x hx
      · intro ha
        obtain ⟨x, hx, he⟩ := hcov ⟨a, ha⟩
        exact ⟨x, hx, he⟩
    have := hp.length_eq
    simpa using this
  · obtain ⟨row, e, l1, l2, _⟩ := assignRow_ok es.length v l
      (List.replicate (es.length + 1) (-1, -1)) (by simpa using hlt) h2
      (by intro x hx; simp [hlt x hx])
      (by
        intro x hx
        obtain ⟨u, hu⟩ := (h1 x).1 hx
        cases u with
        | zero => rw [hu]; simp
        | succ u =>
          obtain ⟨s, p, p1, _, rfl⟩ := hu
          have hne : ¬ ((s : Nat) = v) := fun h => firstStep_ne p1 (Fin.ext h).symm
          simp only [hne, if_false]
          refine ⟨by omega, by have := p1.1; omega, ?_, ?_⟩ <;> cases p.2 <;> simp [dirInt])
    refine ⟨row, e, ?_, ?_⟩
    · have := l2 ⟨v, -1, -1⟩ ((h1 _).2 ⟨0, rfl⟩)
      exact this
    · intro s hvs
      obtain ⟨p, hp⟩ := firstStep_exists ht hvs
      refine ⟨p, hp, ?_⟩
      have := l2 ⟨s, (p.1 : Int), dirInt p.2⟩ ((h1 _).2 ⟨D es (pT es p) s + 1, s, p, hp,
        hp.2.2.symm, rfl⟩)
      exact this

theorem assignRows_ok (ht : TreeInput es) (old : Nat → List Entry)
    (h : ∀ v : Fin (es.length + 1), (∀ x, x ∈ old v ↔ ∃ u, Good es u v x) ∧
          ((old v).map (·.target)).Nodup) :
    ∀ (n k : Nat), k + n = es.length + 1 → ∃ rows,
      assignRows es.length old (List.range' k n) = .ok rows ∧ rows.length = n ∧
      ∀ i (hi : k + i < es.length + 1), ∃ row, rows[i]? = some row ∧ RowOk es ⟨k + i, hi⟩ row := by
  intro n
  induction n with
  | zero =>
    intro k hk
    exact ⟨[], rfl, rfl, fun i hi => absurd hi (by omega)⟩
  | succ n ih =>
    intro k hk
    obtain ⟨rows, e, hl, hr⟩ := ih (k + 1) (by omega)
    have hv := h ⟨k, by omega⟩
    obtain ⟨r1, row, r2, r3⟩ := row_ok ht ⟨k, by omega⟩ (old k) hv.1 hv.2
    refine ⟨row :: rows, ?_, by simp [hl], ?_⟩
    · rw [List.range'_succ]
      simp only at r2
      simp only [assignRows, r1, decide_true, Res.check_true, Res.ok_bind, r2, e, Res.pure_eq]
    · intro i hi
      cases i with
      | zero => exact ⟨row, rfl, r3⟩
      | succ i =>
        obtain ⟨row', a, b⟩ := hr i (by omega)
        refine ⟨row', by simpa using a, ?_⟩
        have : (⟨k + 1 + i, by omega⟩ : Fin (es.length + 1)) = ⟨k + (i + 1), hi⟩ :=
          Fin.ext (by simp only; omega)
        rw [← this]; exact b

theorem makePaths_ok (ht : TreeInput es) {vs : List Vertex} (hv : makeVertices es = .ok vs) :
    ∃ paths, makePaths es vs = .ok paths ∧
      (∀ v : Fin (es.length + 1), path paths v v = (-1, -1)) ∧
      ∀ v s : Fin (es.length + 1), v ≠ s → ∃ p, FirstStep es v s p ∧
        path paths v s = ((p.1 : Int), dirInt p.2) := by
  obtain ⟨old, e, ho⟩ := pathLoop_ok ht hv (es.length + 1) 0 _ (fun _ => []) (by omega)
    (SendInv.init es) (fun v => ⟨by simp, by simp⟩)
  obtain ⟨rows, e2, hl, hr⟩ := assignRows_ok ht old ho (es.length + 1) 0 (by omega)
  have hpath : ∀ v s : Fin (es.length + 1), ∃ row, rows[(v : Nat)]? = some row ∧ RowOk es v row ∧
      path rows v s = row.getD s (-1, -1) := by
    intro v s
    obtain ⟨row, r1, r2⟩ := hr v (by have := v.2; omega)
    refine ⟨row, by simpa using r1, by simpa using r2, ?_⟩
    have : rows.getD (v : Nat) [] = row := by rw [List.getD_eq_getElem?_getD, r1]; rfl
    simp only [path, Int.toNat_natCast, this]
  refine ⟨rows, ?_, ?_, ?_⟩
  · simp only [makePaths, e, Res.ok_bind]
    rw [List.range_eq_range', e2]
  · intro v
    obtain ⟨row, _, r2, r3⟩ := hpath v v
    rw [r3, List.getD_eq_getElem?_getD, r2.1]; rfl
  · intro v s hvs
    obtain ⟨row, _, r2, r3⟩ := hpath v s
    obtain ⟨p, p1, p2⟩ := r2.2 s hvs
    refine ⟨p, p1, ?_⟩
    rw [r3, List.getD_eq_getElem?_getD, p2]; rfl

theorem dirInt_eq_one (d : Bool) : (dirInt d = 1) ↔ d = true := by cases d <;> simp [dirInt]

theorem isValid_ok (ht : TreeInput es) {vs : List Vertex} (hv : makeVertices es = .ok vs)
    {paths : List (List (Int × Int))}
    (h1 : ∀ v : Fin (es.length + 1), path paths v v = (-1, -1))
    (h2 : ∀ v s : Fin (es.length + 1), v ≠ s → ∃ p, FirstStep es v s p ∧
        path paths v s = ((p.1 : Int), dirInt p.2)) : isValid es vs paths = true := by
  obtain ⟨hwf, _⟩ := ht.wf
  unfold isValid
  rw [Bool.and_eq_true, Bool.and_eq_true, Bool.and_eq_true]
  refine ⟨⟨⟨?_, ?_⟩, ?_⟩, ?_⟩
  · rw [List.all_eq_true]
    intro e he
    have := hwf e he
    simp only [decide_eq_true_eq]
    refine ⟨this.2.2.2.2, this.1, by omega, this.2.2.1, by omega⟩
  · rw [List.all_eq_true]
    intro v hv'
    rw [List.mem_range] at hv'
    rw [List.all_eq_true]
    intro p hp
    have := (mem_outIds hv (by omega) (by omega) p).1 hp
    simpa [src] using this
  · rw [List.all_eq_true]
    intro v hv'
    rw [List.mem_range] at hv'
    rw [List.all_eq_true]
    intro p hp
    have := (mem_inIds hv (by omega) (by omega) p).1 hp
    simpa [dst] using this
  · rw [List.all_eq_true]
    intro a ha
    rw [List.mem_range] at ha
    rw [List.all_eq_true]
    intro b hb
    rw [List.mem_range] at hb
    by_cases hab : a = b
    · subst hab
      have := h1 ⟨a, ha⟩
      simp only at this
      simp [this]
    · obtain ⟨p, p1, p2⟩ := h2 ⟨a, ha⟩ ⟨b, hb⟩ (fun h => hab (by simpa using h))
      simp only at p2
      have := p1.2.1
      simp only [src] at this
      simp [hab, p2, dirInt_eq_one, this]

end Verif.Chem
