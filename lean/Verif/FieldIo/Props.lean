import Verif.FieldIo.Lemmas

/-!
# Properties C05, C06, C40, C41: grid data files, replication, dimension expansion

`Shape fields n N`: `n` fields with `N` values each.
-/

namespace Verif.FieldIo

open Verif.Mesh

variable {α : Type}

/-- `n ≥ 1` fields, each with `N` values. -/
def Shape (fields : List (List α)) (n N : Nat) : Prop :=
  0 < n ∧ fields.length = n ∧ ∀ f ∈ fields, f.length = N

/-! ## C05 -/

/-- C05 (layout): the data section holds, for `k = 0, 1, …` in column-major (first
index fastest) order, one value per monomer at the `k`-th mesh point. -/
theorem C05_layout (dims : List Int) (m : Mesh) (h : Mesh.setDimensions dims = some m)
    (fields : List (List α)) (n : Nat) (hs : Shape fields n m.size.toNat) :
    writeRGridData fields n dims = .ok ((List.range m.size.toNat).flatMap (fun k : Nat =>
      fields.filterMap (fun f => f[(m.rank (fortranPos dims k)).toNat]?))) ∧
    ∀ k, k < m.size.toNat → (fields.filterMap
      (fun f => f[(m.rank (fortranPos dims (k : Nat))).toNat]?)).length = n := by
  obtain ⟨h1, h2, h3⟩ := hs
  obtain ⟨hnd, hmem⟩ := fortranRanks_props dims m h
  have hb : ∀ k, k < m.size.toNat → ∀ f ∈ fields,
      (m.rank (fortranPos dims (k : Nat))).toNat < f.length := by
    intro k hk f hf
    have := (hmem (m.rank (fortranPos dims (k : Nat)))).1
      (List.mem_map.2 ⟨k, List.mem_range.2 hk, rfl⟩)
    rw [h3 f hf]; omega
  constructor
  · simp only [writeRGridData, fortranRanks_eq dims m h, h2, h1, decide_true,
      Res.check_true, Res.ok_bind]
    rw [writeRows_eq]
    · rw [List.flatMap_map]; rfl
    · intro r hr; exact ((hmem r).1 hr).1
    · intro r hr f hf
      have := (hmem r).1 hr
      rw [h3 f hf]; omega
  · intro k hk
    rw [← h2]
    exact rowVals_length fields _ (hb k hk)

/-- C05: for every mesh, every number of monomers and all values, writing succeeds
and reading the written section (followed by anything) into arrays of the right
shape with arbitrary old content returns the same values and consumes exactly
the written section. -/
theorem C05_rgrid_roundtrip (dims : List Int) (m : Mesh) (h : Mesh.setDimensions dims = some m)
    (fields target : List (List α)) (n : Nat) (hs : Shape fields n m.size.toNat)
    (ht : Shape target n m.size.toNat) :
    ∃ toks, writeRGridData fields n dims = .ok toks ∧
      toks.length = n * m.size.toNat ∧
      ∀ rest, readRGridData target n dims (toks ++ rest) = .ok (fields, rest) := by
  obtain ⟨hw, hl⟩ := C05_layout dims m h fields n hs
  refine ⟨_, hw, ?_, ?_⟩
  · rw [List.length_flatMap]
    have : (List.range m.size.toNat).map (fun k : Nat => (fields.filterMap
        (fun f => f[(m.rank (fortranPos dims (k : Nat))).toNat]?)).length) =
        (List.range m.size.toNat).map (fun _ => n) := by
      apply List.map_congr_left
      intro k hk
      exact hl k (List.mem_range.1 hk)
    rw [this]; simp [Nat.mul_comm]
  · intro rest
    obtain ⟨h1, h2, h3⟩ := hs
    obtain ⟨_, t2, t3⟩ := ht
    obtain ⟨hnd, hmem⟩ := fortranRanks_props dims m h
    obtain ⟨a', e, ha⟩ := readRows_agree fields
      ((List.range m.size.toNat).map (fun n : Nat => m.rank (fortranPos dims n)))
      (AgreeOn.of_shape (a := target) (b := fields) (by omega) t3 h3)
      (fun r hr => ((hmem r).1 hr).1)
      (fun r hr f hf => by have := (hmem r).1 hr; rw [h3 f hf]; omega) rest
    rw [List.flatMap_map] at e
    have e' : a' = fields := ha.all h3 (fun i hi => Or.inr ((hmem i).2 (by omega)))
    simp only [readRGridData, fortranRanks_eq dims m h, t2, h1, decide_true,
      Res.check_true, Res.ok_bind]
    rw [← e']; rw [← e'] at e; exact e

/-- C05 (converse): whatever data section is accepted is exactly the section that
would be written for the fields obtained; no other order of values is accepted as
these fields. -/
theorem C05_rgrid_read_sound (dims : List Int) (m : Mesh) (h : Mesh.setDimensions dims = some m)
    (target fields : List (List α)) (n : Nat) (ht : Shape target n m.size.toNat)
    (toks rest : List α) (hr : readRGridData target n dims toks = .ok (fields, rest)) :
    Shape fields n m.size.toNat ∧ ∃ w, writeRGridData fields n dims = .ok w ∧ toks = w ++ rest := by
  obtain ⟨h1, t2, t3⟩ := ht
  obtain ⟨hnd, hmem⟩ := fortranRanks_props dims m h
  simp only [readRGridData, fortranRanks_eq dims m h, t2, h1, decide_true,
    Res.check_true, Res.ok_bind] at hr
  obtain ⟨e1, e2⟩ := readRows_sound _ _ _ _ _ hnd (fun r hr => ((hmem r).1 hr).1) hr
  obtain ⟨l1, l2⟩ := e2.lengths t3
  have hs : Shape fields n m.size.toNat := ⟨h1, by omega, l2⟩
  refine ⟨hs, _, (C05_layout dims m h fields n hs).1, ?_⟩
  rw [e1, List.flatMap_map]; rfl

/-- C05: a number of fields that differs from the number of monomers is refused, on writing and on
reading, before anything is written or stored. -/
theorem C05_count_mismatch (fields : List (List α)) (n : Nat) (dims : List Int) (toks : List α)
    (h : fields.length ≠ n) :
    writeRGridData fields n dims = .throw ∧ readRGridData fields n dims toks = .throw := by
  have h' : n ≠ fields.length := fun e => h e.symm
  by_cases hn : n > 0
  · simp only [writeRGridData, readRGridData, h, h', hn, decide_true, decide_false, Res.check_true,
      Res.ok_bind]
    exact ⟨rfl, rfl⟩
  · simp only [writeRGridData, readRGridData, hn, decide_false]
    exact ⟨rfl, rfl⟩

example : writeRGridData [[1, 2], [3, 4]] 3 [2] = .throw ∧ ([[1, 2], [3, 4]] : List (List Int)).length ≠ 3 := by
  decide

example : writeRGridData [[1, 2, 3, 4, 5, 6], [11, 12, 13, 14, 15, 16]] 2 [2, 3] =
    .ok [1, 11, 4, 14, 2, 12, 5, 15, 3, 13, 6, 16] := by decide
example : readRGridData [[0, 0, 0, 0, 0, 0], [0, 0, 0, 0, 0, 0]] 2 [2, 3]
    [1, 11, 4, 14, 2, 12, 5, 15, 3, 13, 6, 16, 99] =
    .ok ([[1, 2, 3, 4, 5, 6], [11, 12, 13, 14, 15, 16]], [99]) := by decide
example : Shape [[1, 2, 3, 4, 5, 6], [11, 12, 13, 14, 15, 16]] 2
    ((Mesh.setDimensions [2, 3]).get (by decide)).size.toNat := by
  refine ⟨by decide, rfl, by decide⟩

/-! ## C06 -/

/-- C06: k-grid data round trip, for every k-grid mesh (dimensions `dims` are the
DFT dimensions). The section consists of one labelled row per rank, in rank order. -/
theorem C06_kgrid_roundtrip (dims : List Int) (m : Mesh) (h : Mesh.setDimensions dims = some m)
    (fields target : List (List α)) (n : Nat) (hs : Shape fields n m.size.toNat)
    (ht : Shape target n m.size.toNat) :
    ∃ toks, writeKGridData fields n dims = .ok toks ∧
      toks = (List.range m.size.toNat).flatMap (fun r : Nat =>
        KTok.label (r : Int) :: (fields.filterMap (fun f => f[r]?)).map KTok.val) ∧
      ∀ rest, readKGridData target dims (toks ++ rest) = .ok (fields, rest) := by
  obtain ⟨h1, h2, h3⟩ := hs
  obtain ⟨_, t2, t3⟩ := ht
  obtain ⟨its, c1, c2⟩ := cStates_ranks dims m h
  have w := writeKRows_eq fields m.size.toNat m.size.toNat 0 (by omega) h3
  rw [← List.range_eq_range', ← c2] at w
  refine ⟨_, ?_, rfl, ?_⟩
  · simp only [writeKGridData, c1, h2, h1, decide_true, Res.check_true, Res.ok_bind]
    simp only [Nat.cast_zero] at w
    rw [w, c2, List.flatMap_map]
    rfl
  · intro rest
    obtain ⟨a', e, ha⟩ := readKRows_agree fields m.size.toNat m.size.toNat 0 (by omega)
      (AgreeOn.of_shape (a := target) (b := fields) (by omega) t3 h3) h3 rest
    have e' : a' = fields := ha.all h3 (fun i hi => Or.inr (by
      simp only [List.mem_map, List.mem_range'_1]
      exact ⟨i, by omega, rfl⟩))
    rw [← List.range_eq_range'] at e
    simp only [readKGridData, c1, Res.ok_bind]
    rw [c2, ← e']
    rw [← e', List.flatMap_map] at e
    simp only [Nat.cast_zero] at e
    exact e

/-- C06 (rank check): if reading succeeds, the section consisted of rows labelled
`0, 1, …, size-1` in this order and the values of row `r` are stored at rank `r`.
In particular a permuted, repeated or missing label is rejected. -/
theorem C06_kgrid_labels_checked (dims : List Int) (m : Mesh)
    (h : Mesh.setDimensions dims = some m) (target fields : List (List α)) (n : Nat)
    (ht : Shape target n m.size.toNat) (toks rest : List (KTok α))
    (hr : readKGridData target dims toks = .ok (fields, rest)) :
    Shape fields n m.size.toNat ∧
    toks = (List.range m.size.toNat).flatMap (fun r : Nat =>
        KTok.label (r : Int) :: (fields.filterMap (fun f => f[r]?)).map KTok.val) ++ rest := by
  obtain ⟨h1, t2, t3⟩ := ht
  obtain ⟨its, c1, c2⟩ := cStates_ranks dims m h
  simp only [readKGridData, c1, Res.ok_bind] at hr
  have hnd : (its.map (·.rank)).Nodup := by
    rw [c2]
    exact List.Nodup.map_on (fun x _ y _ hxy => by omega) List.nodup_range
  have h0 : ∀ r ∈ its.map (·.rank), 0 ≤ r := by
    rw [c2]; intro r hr
    simp only [List.mem_map] at hr
    obtain ⟨k, _, rfl⟩ := hr
    omega
  obtain ⟨e1, e2⟩ := readKRows_sound _ _ _ _ _ _ hnd h0 hr
  obtain ⟨l1, l2⟩ := e2.lengths t3
  refine ⟨⟨h1, by omega, l2⟩, ?_⟩
  rw [e1, c2, List.flatMap_map]
  rfl

/-- C06: a well-formed section with the labels of two rows exchanged is rejected
(corollary for the first label). -/
theorem C06_kgrid_first_label (dims : List Int) (m : Mesh)
    (h : Mesh.setDimensions dims = some m) (target : List (List α)) (n : Nat)
    (ht : Shape target n m.size.toNat) (l : Int) (hl : l ≠ 0) (toks : List (KTok α)) (x) :
    readKGridData target dims (KTok.label l :: toks) ≠ .ok x := by
  intro hr
  obtain ⟨-, e⟩ := C06_kgrid_labels_checked dims m h target x.1 n ht _ x.2 hr
  obtain ⟨-, hpos, hm⟩ := setDimensions_some h
  have hp : 0 < m.size := by rw [hm]; exact prod_pos hpos
  have : m.size.toNat = (m.size.toNat - 1) + 1 := by omega
  rw [this, List.range_succ_eq_map] at e
  simp at e
  exact hl e.1

example : writeKGridData [[1, 2, 3, 4]] 1 [2, 2] = .ok
    [.label 0, .val 1, .label 1, .val 2, .label 2, .val 3, .label 3, .val 4] := by decide
example : readKGridData [[0, 0, 0, 0]] [2, 2]
    [.label 0, .val 1, .label 2, .val 2, .label 1, .val 3, .label 3, .val 4] = .throw := by decide

/-! ## C40 -/

/-- Componentwise remainder: the point of the original mesh congruent to `x`. -/
def congruent (dims x : List Int) : List Int := List.zipWith (fun c d => c % d) x dims

theorem repPosition_spec (dims : List Int) (hd : ∀ d ∈ dims, 0 < d) (reps : List Int)
    (hlen : reps.length = dims.length) (p c : List Int)
    (hp : InRange dims p) (hc : InRange reps c) :
    InRange (List.zipWith (· * ·) reps dims) (repPosition dims p c) ∧
    congruent dims (repPosition dims p c) = p ∧
    List.zipWith (fun x d => x / d) (repPosition dims p c) dims = c := by
  unfold InRange at *
  induction hp generalizing reps c with
  | nil =>
    cases reps with
    | nil => cases hc; exact ⟨.nil, rfl, rfl⟩
    | cons => simp at hlen
  | @cons d x ds xs hx _ ih =>
    cases hc with
    | nil => simp at hlen
    | @cons r y rs ys hy hys =>
      simp at hlen
      obtain ⟨i1, i2, i3⟩ := ih (fun d hd' => hd d (by simp [hd'])) rs hlen ys hys
      have hd0 := hd d (by simp)
      simp only [congruent] at i2 ⊢
      simp only [repPosition, List.zipWith_cons_cons]
      refine ⟨.cons ⟨?_, ?_⟩ i1, ?_, ?_⟩
      · have := mul_nonneg hd0.le hy.1; omega
      · have : d * (y + 1) ≤ d * r := by
          apply mul_le_mul_of_nonneg_left _ hd0.le; omega
        have e1 : d * (y + 1) = d * y + d := by ring
        have e2 : d * r = r * d := by ring
        omega
      · rw [i2, Int.add_mul_emod_self_left, Int.emod_eq_of_lt hx.1 hx.2]
      · rw [i3, Int.add_mul_ediv_left _ _ hd0.ne', Int.ediv_eq_zero_of_lt hx.1 hx.2, zero_add]

theorem repPosition_surj (dims : List Int) (hd : ∀ d ∈ dims, 0 < d) (reps : List Int)
    (hlen : reps.length = dims.length) (x : List Int)
    (hx : InRange (List.zipWith (· * ·) reps dims) x) :
    InRange dims (congruent dims x) ∧
    InRange reps (List.zipWith (fun c d => c / d) x dims) ∧
    repPosition dims (congruent dims x) (List.zipWith (fun c d => c / d) x dims) = x := by
  unfold InRange congruent at *
  induction dims generalizing reps x with
  | nil =>
    cases reps with
    | nil => cases hx; exact ⟨.nil, .nil, rfl⟩
    | cons => simp at hlen
  | cons d ds ih =>
    cases reps with
    | nil => simp at hlen
    | cons r rs =>
      simp at hlen
      rw [List.zipWith_cons_cons] at hx
      cases hx with
      | @cons _ y _ ys hy hys =>
        obtain ⟨i1, i2, i3⟩ := ih (fun d hd' => hd d (by simp [hd'])) rs hlen ys hys
        have hd0 := hd d (by simp)
        simp only [List.zipWith_cons_cons, repPosition]
        refine ⟨.cons ⟨Int.emod_nonneg _ hd0.ne', Int.emod_lt_of_pos _ hd0⟩ i1,
          .cons ⟨Int.ediv_nonneg hy.1 hd0.le, ?_⟩ i2, ?_⟩
        · exact Int.ediv_lt_of_lt_mul hd0 hy.2
        · rw [i3, Int.emod_add_mul_ediv]

/-- C40 (each target point once): the pairs (original point, replica) correspond
one-to-one to the points of the replicated mesh. -/
theorem C40_each_point_once (dims reps : List Int) (hd : ∀ d ∈ dims, 0 < d)
    (hlen : reps.length = dims.length) :
    (∀ p c, InRange dims p → InRange reps c →
      InRange (List.zipWith (· * ·) reps dims) (repPosition dims p c)) ∧
    ∀ x, InRange (List.zipWith (· * ·) reps dims) x →
      ∃! pc : List Int × List Int, InRange dims pc.1 ∧ InRange reps pc.2 ∧
        repPosition dims pc.1 pc.2 = x := by
  refine ⟨fun p c hp hc => (repPosition_spec dims hd reps hlen p c hp hc).1, ?_⟩
  intro x hx
  obtain ⟨s1, s2, s3⟩ := repPosition_surj dims hd reps hlen x hx
  refine ⟨(_, _), ⟨s1, s2, s3⟩, ?_⟩
  rintro ⟨p, c⟩ ⟨h1, h2, h3⟩
  obtain ⟨-, q2, q3⟩ := repPosition_spec dims hd reps hlen p c h1 h2
  simp only at h3
  rw [← h3]
  exact Prod.ext q2.symm q3.symm

theorem repInner_agree (G : Nat → Option α) (repMesh : Mesh) (dims pos : List Int) (v : α)
    (cells : List Iter) (N : Nat)
    (hr : ∀ c ∈ cells, 0 ≤ repMesh.rank (repPosition dims pos c.pos) ∧
      (repMesh.rank (repPosition dims pos c.pos)).toNat < N)
    (hv : ∀ c ∈ cells, G (repMesh.rank (repPosition dims pos c.pos)).toNat = some v)
    (S : Nat → Prop) (out : List α) (hout : out.length = N) (hS : ∀ i, S i → out[i]? = G i) :
    ∃ out', repInner repMesh dims pos v cells out = .ok out' ∧ out'.length = N ∧
      ∀ i, (S i ∨ ∃ c ∈ cells, (repMesh.rank (repPosition dims pos c.pos)).toNat = i) →
        out'[i]? = G i := by
  induction cells generalizing S out with
  | nil => exact ⟨out, rfl, hout, by simpa using hS⟩
  | cons c cs ih =>
    obtain ⟨r0, r1⟩ := hr c (by simp)
    obtain ⟨out', e, l, hh⟩ := ih (fun c hc => hr c (by simp [hc]))
      (fun c hc => hv c (by simp [hc]))
      (fun i => S i ∨ (repMesh.rank (repPosition dims pos c.pos)).toNat = i)
      (out.set (repMesh.rank (repPosition dims pos c.pos)).toNat v) (by simp [hout]) (by
        intro i hi
        by_cases hri : (repMesh.rank (repPosition dims pos c.pos)).toNat = i
        · have := hv c (by simp)
          rw [hri] at this r1 ⊢
          rw [List.getElem?_set_self (by omega), this]
        · rw [List.getElem?_set_ne hri]
          rcases hi with hi | hi
          · exact hS i hi
          · exact absurd hi hri)
    refine ⟨out', ?_, l, ?_⟩
    · simp only [repInner, store]
      rw [if_pos ⟨r0, by omega⟩, Res.ok_bind, e]
    · intro i hi
      apply hh
      rcases hi with hi | ⟨c', hc', rfl⟩
      · exact Or.inl (Or.inl hi)
      · rcases List.mem_cons.1 hc' with rfl | hc'
        · exact Or.inl (Or.inr rfl)
        · exact Or.inr ⟨c', hc', rfl⟩

theorem repOuter_agree (G : Nat → Option α) (repMesh : Mesh) (dims : List Int) (field : List α)
    (cells its : List Iter) (N : Nat)
    (hr : ∀ it ∈ its, ∀ c ∈ cells, 0 ≤ repMesh.rank (repPosition dims it.pos c.pos) ∧
      (repMesh.rank (repPosition dims it.pos c.pos)).toNat < N)
    (hf : ∀ it ∈ its, 0 ≤ it.rank ∧ it.rank.toNat < field.length)
    (hv : ∀ it ∈ its, ∀ c ∈ cells,
      G (repMesh.rank (repPosition dims it.pos c.pos)).toNat = field[it.rank.toNat]?)
    (S : Nat → Prop) (out : List α) (hout : out.length = N) (hS : ∀ i, S i → out[i]? = G i) :
    ∃ out', repOuter repMesh dims field cells its out = .ok out' ∧ out'.length = N ∧
      ∀ i, (S i ∨ ∃ it ∈ its, ∃ c ∈ cells,
        (repMesh.rank (repPosition dims it.pos c.pos)).toNat = i) → out'[i]? = G i := by
  induction its generalizing S out with
  | nil => exact ⟨out, rfl, hout, by simpa using hS⟩
  | cons it its ih =>
    obtain ⟨f0, f1⟩ := hf it (by simp)
    have hval : field[it.rank.toNat]? = some field[it.rank.toNat] := by simp [f1]
    obtain ⟨o1, e1, l1, s1⟩ := repInner_agree G repMesh dims it.pos (field[it.rank.toNat]) cells N
      (hr it (by simp)) (fun c hc => by rw [hv it (by simp) c hc, hval]) S out hout hS
    obtain ⟨o2, e2, l2, s2⟩ := ih (fun it hit => hr it (by simp [hit]))
      (fun it hit => hf it (by simp [hit])) (fun it hit => hv it (by simp [hit])) _ o1 l1 s1
    refine ⟨o2, ?_, l2, ?_⟩
    · simp only [repOuter, load]
      rw [if_pos f0, hval]
      simp only [Res.ok_bind, e1, e2]
    · intro i hi
      apply s2
      rcases hi with hi | ⟨it', hit', c, hc, rfl⟩
      · exact Or.inl (Or.inl hi)
      · rcases List.mem_cons.1 hit' with rfl | hit'
        · exact Or.inl (Or.inr ⟨c, hc, rfl⟩)
        · exact Or.inr ⟨it', hit', c, hc, rfl⟩

theorem zipWith_pos (reps dims : List Int) (hr : ∀ d ∈ reps, 0 < d) (hd : ∀ d ∈ dims, 0 < d) :
    ∀ d ∈ List.zipWith (· * ·) reps dims, 0 < d := by
  induction reps generalizing dims with
  | nil => simp
  | cons r rs ih =>
    cases dims with
    | nil => simp
    | cons d ds =>
      intro x hx
      rw [List.zipWith_cons_cons, List.mem_cons] at hx
      rcases hx with rfl | hx
      · exact mul_pos (hr r (by simp)) (hd d (by simp))
      · exact ih ds (fun d hd => hr d (by simp [hd])) (fun x hx => hd x (by simp [hx])) x hx

/-- C40: replication succeeds for every mesh and every positive replica vector, the
replicated mesh has dimensions `replicas[i]*dims[i]`, and the value at every
point `x` of it is the original value at the point congruent to `x` modulo the
original mesh. The old content of the output array is irrelevant. -/
theorem C40_replicated_value (dims reps : List Int) (m : Mesh)
    (h : Mesh.setDimensions dims = some m) (hlen : reps.length = dims.length)
    (hr : ∀ r ∈ reps, 0 < r) (field out0 : List α) (hf : field.length = m.size.toNat)
    (ho : out0.length = ((List.zipWith (· * ·) reps dims).prod).toNat) :
    ∃ m' out, Mesh.setDimensions (List.zipWith (· * ·) reps dims) = some m' ∧
      replicateField field dims reps out0 = .ok (List.zipWith (· * ·) reps dims, out) ∧
      out.length = m'.size.toNat ∧
      ∀ x, InRange (List.zipWith (· * ·) reps dims) x →
        out[(m'.rank x).toNat]? = field[(m.rank (congruent dims x)).toNat]? := by
  obtain ⟨hne, hd, hm⟩ := setDimensions_some h
  have hne' : List.zipWith (· * ·) reps dims ≠ [] := by
    cases dims with
    | nil => exact absurd rfl hne
    | cons d ds => cases reps <;> simp at hlen ⊢
  obtain ⟨m', hm'⟩ := (C01_setDimensions_iff _).2 ⟨hne', zipWith_pos reps dims hr hd⟩
  have hrne : reps ≠ [] := by
    intro hh; subst hh; exact hne' rfl
  obtain ⟨mc, hmc⟩ := (C01_setDimensions_iff reps).2 ⟨hrne, hr⟩
  obtain ⟨cells, ec, hcells⟩ := cStates_eq reps mc hmc
  obtain ⟨its, ei, hits⟩ := cStates_eq dims m h
  obtain ⟨-, sz, -, -, hrp⟩ := C01_rank_position_bijection _ m' hm'
  obtain ⟨-, szm, -, hprm, hrpm⟩ := C01_rank_position_bijection _ m h
  obtain ⟨-, szc, -, hprc, hrpc⟩ := C01_rank_position_bijection _ mc hmc
  have hm1 : 0 < m.size := by rw [szm]; exact prod_pos hd
  have hit : ∀ it ∈ its, ∃ n : Nat, n < m.size.toNat ∧ it.rank = n ∧ it.pos = m.position n := by
    intro it hit
    have : (it.rank, it.pos) ∈ its.map (fun s => (s.rank, s.pos)) :=
      List.mem_map.2 ⟨it, hit, rfl⟩
    rw [hits] at this
    simp only [List.mem_map, List.mem_range, Prod.mk.injEq] at this
    obtain ⟨n, h1, h2, h3⟩ := this
    exact ⟨n, h1, h2.symm, h3.symm⟩
  have hcell : ∀ c ∈ cells, InRange reps c.pos := by
    intro c hc
    have : (c.rank, c.pos) ∈ cells.map (fun s => (s.rank, s.pos)) :=
      List.mem_map.2 ⟨c, hc, rfl⟩
    rw [hcells] at this
    simp only [List.mem_map, List.mem_range, Prod.mk.injEq] at this
    obtain ⟨n, h1, h2, h3⟩ := this
    rw [← h3]
    exact (hprc n (by omega) (by omega)).1
  have hcov : ∀ q, InRange reps q → ∃ c ∈ cells, c.pos = q := by
    intro q hq
    obtain ⟨q0, q1, q2⟩ := hrpc q hq
    have : (mc.rank q, q) ∈ cells.map (fun s => (s.rank, s.pos)) := by
      rw [hcells]
      simp only [List.mem_map, List.mem_range, Prod.mk.injEq]
      exact ⟨(mc.rank q).toNat, by omega, by omega, by rw [Int.toNat_of_nonneg q0, q2]⟩
    obtain ⟨c, hc, he⟩ := List.mem_map.1 this
    exact ⟨c, hc, (Prod.mk.inj he).2⟩
  have hcovm : ∀ q, InRange dims q → ∃ it ∈ its, it.pos = q := by
    intro q hq
    obtain ⟨q0, q1, q2⟩ := hrpm q hq
    have : (m.rank q, q) ∈ its.map (fun s => (s.rank, s.pos)) := by
      rw [hits]
      simp only [List.mem_map, List.mem_range, Prod.mk.injEq]
      exact ⟨(m.rank q).toNat, by omega, by omega, by rw [Int.toNat_of_nonneg q0, q2]⟩
    obtain ⟨c, hc, he⟩ := List.mem_map.1 this
    exact ⟨c, hc, (Prod.mk.inj he).2⟩
  obtain ⟨out, eo, lo, so⟩ := repOuter_agree
    (fun i => field[(m.rank (congruent dims (m'.position i))).toNat]?) m' dims field cells its
    m'.size.toNat
    (by
      intro it hi c hc
      obtain ⟨n, n1, n2, n3⟩ := hit it hi
      have hp := (hprm n (by omega) (by omega)).1
      rw [n3]
      have := hrp _ (repPosition_spec dims hd reps hlen _ _ hp (hcell c hc)).1
      exact ⟨this.1, by omega⟩)
    (by
      intro it hi
      obtain ⟨n, n1, n2, n3⟩ := hit it hi
      rw [n2, hf]; exact ⟨by omega, by omega⟩)
    (by
      intro it hi c hc
      obtain ⟨n, n1, n2, n3⟩ := hit it hi
      obtain ⟨hp, hp'⟩ := hprm n (by omega) (by omega)
      obtain ⟨s1, s2, _⟩ := repPosition_spec dims hd reps hlen _ _ hp (hcell c hc)
      have := hrp _ s1
      rw [n3, Int.toNat_of_nonneg this.1, this.2.2, s2, hp', n2])
    (fun _ => False) out0 (by rw [ho, sz]) (fun _ h => h.elim)
  refine ⟨m', out, hm', ?_, lo, ?_⟩
  · have a1 : reps.all (fun r => decide (r > 0)) = true := by
      rw [List.all_eq_true]; intro x hx; simpa using hr x hx
    have a2 : dims.all (fun r => decide (r > 0)) = true := by
      rw [List.all_eq_true]; intro x hx; simpa using hd x hx
    simp only [replicateField, a1, a2, Res.check_true, Res.ok_bind, hm', ec, ei, eo, Res.pure_eq]
  · intro x hx
    obtain ⟨x0, x1, x2⟩ := hrp x hx
    obtain ⟨s1, s2, s3⟩ := repPosition_surj dims hd reps hlen x hx
    obtain ⟨it, hi, hip⟩ := hcovm _ s1
    obtain ⟨c, hc, hcp⟩ := hcov _ s2
    have := so (m'.rank x).toNat (Or.inr ⟨it, hi, c, hc, by rw [hip, hcp, s3]⟩)
    rw [this, Int.toNat_of_nonneg x0, x2]

example : replicateField [1, 2, 3, 4, 5, 6] [2, 3] [2, 1] (List.replicate 12 0) =
    .ok ([4, 3], [1, 2, 3, 4, 5, 6, 1, 2, 3, 4, 5, 6]) := by decide
example : replicateField [1, 2, 3, 4] [2, 2] [1, 2] (List.replicate 8 0) =
    .ok ([2, 4], [1, 2, 1, 2, 3, 4, 3, 4]) := by decide
/-- Non-positive replica counts are rejected. -/
theorem C40_nonpositive_rejected (field out0 : List α) (dims reps : List Int) (r : Int)
    (hr : r ∈ reps) (h : r ≤ 0) : replicateField field dims reps out0 = .throw := by
  have : reps.all (fun r => decide (r > 0)) = false := by
    rw [List.all_eq_false]; exact ⟨r, hr, by simpa using h⟩
  simp [replicateField, this]

/-! ## C41 -/

theorem fortranPos_append (dims new : List Int) (hd : ∀ d ∈ dims, 0 < d) (k : Int) :
    fortranPos (dims ++ new) k =
      fortranPos dims (k % dims.prod) ++ fortranPos new (k / dims.prod) := by
  induction dims generalizing k with
  | nil => simp [fortranPos]
  | cons d ds ih =>
    have h0 := hd d (by simp)
    have hds : ∀ x ∈ ds, 0 < x := fun x hx => hd x (by simp [hx])
    simp only [List.cons_append, fortranPos, List.prod_cons]
    rw [ih hds]
    have e1 : k % (d * ds.prod) % d = k % d := Int.emod_emod_of_dvd k ⟨ds.prod, rfl⟩
    have e2 : k % (d * ds.prod) / d = k / d % ds.prod := by
      rw [Int.emod_def k (d * ds.prod), Int.emod_def (k / d), Int.ediv_ediv_of_nonneg h0.le]
      have : k - d * ds.prod * (k / (d * ds.prod)) =
          k + d * (-(ds.prod * (k / (d * ds.prod)))) := by ring
      rw [this, Int.add_mul_ediv_left _ _ h0.ne']; ring
    have e3 : k / d / ds.prod = k / (d * ds.prod) := Int.ediv_ediv_of_nonneg h0.le
    rw [e1, e2, e3]

/-- Specification of the expanded field: value at rank `r` of the expanded mesh `m'`
is the original value at the projected position. -/
def expandSpec (m m' : Mesh) (D : Nat) (f : List α) : List α :=
  (List.range m'.size.toNat).filterMap
    (fun r : Nat => f[(m.rank ((m'.position r).take D)).toNat]?)

theorem filterMap_range_getElem? {β : Type} (g : Nat → Option β) (N : Nat)
    (hg : ∀ i, i < N → (g i).isSome) :
    ((List.range N).filterMap g).length = N ∧
    ∀ i, i < N → ((List.range N).filterMap g)[i]? = g i := by
  induction N with
  | zero => simp
  | succ n ih =>
    obtain ⟨l, hl⟩ := ih (fun i hi => hg i (by omega))
    obtain ⟨v, hv⟩ := Option.isSome_iff_exists.1 (hg n (by omega))
    rw [List.range_succ, List.filterMap_append]
    simp only [List.filterMap_cons, hv, List.filterMap_nil]
    refine ⟨by simp [l], ?_⟩
    intro i hi
    by_cases hin : i < n
    · rw [List.getElem?_append_left (by omega), hl i hin]
    · have : i = n := by omega
      subst this
      rw [List.getElem?_append_right (by omega), l]; simp [hv]

theorem forall₂_append_take {R : Int → Int → Prop} (a b p : List Int)
    (h : List.Forall₂ R (a ++ b) p) : List.Forall₂ R a (p.take a.length) := by
  induction a generalizing p with
  | nil => simp
  | cons x xs ih =>
    cases h with
    | cons hx hxs =>
      simp only [List.length_cons, List.take_succ_cons]
      exact .cons hx (ih _ hxs)

theorem flatMap_range_mul {β : Type} (P n : Nat) (g : Nat → List β) :
    (List.range (P * n)).flatMap (fun k => g (k % P)) =
      (List.replicate n ((List.range P).flatMap g)).flatten := by
  induction n with
  | zero => simp
  | succ n ih =>
    rw [Nat.mul_succ, List.range_add, List.flatMap_append, ih, List.replicate_succ',
      List.flatten_append]
    congr 1
    rw [List.flatMap_map]
    simp only [List.flatten_cons, List.flatten_nil, List.append_nil]
    rw [List.flatMap_def, List.flatMap_def]
    congr 1
    apply List.map_congr_left
    intro a ha
    rw [List.mem_range] at ha
    rw [Nat.mul_add_mod, Nat.mod_eq_of_lt ha]

theorem expandData_eq (fields : List (List α)) (dims : List Int) (block : List α) (rs : List Int)
    (h1 : fortranRanks dims = .ok rs) (h2 : writeRows fields rs = .ok block) (n : Nat) :
    expandData fields dims n = .ok ((List.replicate n block).flatten) := by
  induction n with
  | zero => rfl
  | succ n ih => simp [expandData, h1, h2, ih, List.replicate_succ]

theorem expand_data_read (dims new : List Int) (m m' : Mesh)
    (h : Mesh.setDimensions dims = some m) (h' : Mesh.setDimensions (dims ++ new) = some m')
    (fields target : List (List α)) (n : Nat) (hs : Shape fields n m.size.toNat)
    (ht : Shape target n m'.size.toNat) :
    ∃ data fields', expandData fields dims (new.prod).toNat = .ok data ∧
      Shape fields' n m'.size.toNat ∧
      (∀ rest, readRGridData target n (dims ++ new) (data ++ rest) = .ok (fields', rest)) ∧
      List.Forall₂ (fun f f' => ∀ x, InRange (dims ++ new) x →
        f'[(m'.rank x).toNat]? = f[(m.rank (x.take dims.length)).toNat]?) fields fields' := by
  obtain ⟨hne, hd, hm⟩ := setDimensions_some h
  obtain ⟨_, hd', hm'⟩ := setDimensions_some h'
  have hnew : ∀ d ∈ new, 0 < d := fun d hd => hd' d (by simp [hd])
  obtain ⟨-, sz, -, hpr, hrp⟩ := C01_rank_position_bijection _ m h
  obtain ⟨-, sz', -, hpr', hrp'⟩ := C01_rank_position_bijection _ m' h'
  obtain ⟨fb1, -⟩ := C04_fortran_bijective dims hd
  obtain ⟨fb1', -⟩ := C04_fortran_bijective (dims ++ new) hd'
  have hszp : 0 < m.size := by rw [sz]; exact prod_pos hd
  have hnp : 0 < new.prod := prod_pos hnew
  have hmul : m'.size.toNat = m.size.toNat * new.prod.toNat := by
    have e : m'.size = m.size * new.prod := by rw [sz', sz, List.prod_append]
    apply Int.ofNat.inj
    simp only [Int.ofNat_eq_natCast]
    push_cast
    rw [Int.toNat_of_nonneg (by rw [e]; positivity), Int.toNat_of_nonneg hszp.le,
      Int.toNat_of_nonneg hnp.le, e]
  obtain ⟨w1, w2⟩ := C05_layout dims m h fields n hs
  obtain ⟨s1, s2, s3⟩ := hs
  -- the expanded fields
  have hsome : ∀ f ∈ fields, ∀ r : Nat, r < m'.size.toNat →
      (f[(m.rank ((m'.position r).take dims.length)).toNat]?).isSome := by
    intro f hf r hr
    have hin := (hpr' r (by omega) (by omega)).1
    have := hrp _ (forall₂_append_take dims new _ hin)
    have hlt : (m.rank ((m'.position r).take dims.length)).toNat < f.length := by
      rw [s3 f hf]; omega
    simp [hlt]
  have hspec := fun f hf => filterMap_range_getElem?
    (fun r : Nat => f[(m.rank ((m'.position r).take dims.length)).toNat]?) m'.size.toNat
    (hsome f hf)
  set F := fields.map (expandSpec m m' dims.length) with hF
  have hFs : Shape F n m'.size.toNat := by
    refine ⟨s1, by simp [hF, s2], ?_⟩
    intro f' hf'
    obtain ⟨f, hf, rfl⟩ := List.mem_map.1 hf'
    exact (hspec f hf).1
  obtain ⟨w1', -⟩ := C05_layout (dims ++ new) m' h' F n hFs
  obtain ⟨toks, q1, -, q3⟩ := C05_rgrid_roundtrip (dims ++ new) m' h' F target n hFs ht
  have hrows : ∀ k : Nat, k < m'.size.toNat →
      F.filterMap (fun f => f[(m'.rank (fortranPos (dims ++ new) (k : Nat))).toNat]?) =
      fields.filterMap
        (fun f => f[(m.rank (fortranPos dims ((k % m.size.toNat : Nat) : Int))).toNat]?) := by
    intro k hk
    rw [hF, List.filterMap_map]
    apply List.filterMap_congr
    intro f hf
    have hin := fb1' k (by omega) (by omega)
    have hb := hrp' _ hin
    have e := (hspec f hf).2 (m'.rank (fortranPos (dims ++ new) (k : Nat))).toNat (by omega)
    simp only [Function.comp, expandSpec]
    rw [e, Int.toNat_of_nonneg hb.1, hb.2.2, fortranPos_append dims new hd]
    have hlen : (fortranPos dims ((k : Int) % dims.prod)).length = dims.length := by
      have := fb1 ((k : Int) % dims.prod) (Int.emod_nonneg _ (by omega))
        (Int.emod_lt_of_pos _ (by omega))
      exact this.length_eq.symm
    rw [List.take_left' hlen]
    have hk' : ((k % m.size.toNat : Nat) : Int) = (k : Int) % dims.prod := by
      push_cast
      rw [Int.toNat_of_nonneg hszp.le, sz]
    rw [hk']
  have hw : writeRows fields ((List.range m.size.toNat).map
      (fun n : Nat => m.rank (fortranPos dims n))) = .ok ((List.range m.size.toNat).flatMap
      (fun k : Nat => fields.filterMap (fun f => f[(m.rank (fortranPos dims k)).toNat]?))) := by
    simp only [writeRGridData, fortranRanks_eq dims m h, s2, s1, decide_true,
      Res.check_true, Res.ok_bind] at w1
    exact w1
  have hexp := expandData_eq fields dims _ _ (fortranRanks_eq dims m h) hw new.prod.toNat
  have heq : toks = (List.replicate new.prod.toNat ((List.range m.size.toNat).flatMap
      (fun k : Nat => fields.filterMap (fun f => f[(m.rank (fortranPos dims k)).toNat]?)))).flatten := by
    rw [w1'] at q1
    rw [← Res.ok.inj q1, ← flatMap_range_mul, hmul, List.flatMap_def, List.flatMap_def]
    congr 1
    apply List.map_congr_left
    intro k hk
    exact hrows k (by rw [hmul]; exact List.mem_range.1 hk)
  refine ⟨_, F, hexp, hFs, ?_, ?_⟩
  · rw [← heq]; exact q3
  · rw [hF, List.forall₂_map_right_iff, List.forall₂_same]
    intro f hf x hx
    have hb := hrp' x hx
    have e := (hspec f hf).2 (m'.rank x).toNat (by omega)
    simp only [expandSpec]
    rw [e, Int.toNat_of_nonneg hb.1, hb.2.2]

/-- C41: for a 1D mesh expanded to 2 or 3 dimensions or a 2D mesh expanded to 3
dimensions with positive new mesh dimensions, the written mesh dimensions are the
old ones followed by the new ones, the written data section is readable as
r-grid data on that mesh, and the field read has at position `x` the original
value at the projection of `x` on the old axes. -/
theorem C41_expand_dimension (dims new : List Int) (m m' : Mesh) (d : Nat)
    (h : Mesh.setDimensions dims = some m) (h' : Mesh.setDimensions (dims ++ new) = some m')
    (hd : (dims.length = 1 ∧ (d = 2 ∨ d = 3)) ∨ (dims.length = 2 ∧ d = 3))
    (hnew : dims.length + new.length = d)
    (fields target : List (List α)) (n : Nat) (hs : Shape fields n m.size.toNat)
    (ht : Shape target n m'.size.toNat) :
    ∃ data fields', expandRGrid fields dims d new = .ok (dims ++ new, data) ∧
      Shape fields' n m'.size.toNat ∧
      (∀ rest, readRGridData target n (dims ++ new) (data ++ rest) = .ok (fields', rest)) ∧
      List.Forall₂ (fun f f' => ∀ x, InRange (dims ++ new) x →
        f'[(m'.rank x).toNat]? = f[(m.rank (x.take dims.length)).toNat]?) fields fields' := by
  obtain ⟨data, fields', e, r1, r2, r3⟩ := expand_data_read dims new m m' h h' fields target n hs ht
  refine ⟨data, fields', ?_, r1, r2, r3⟩
  have hf : fields.length > 0 := by have := hs.2.1; have := hs.1; omega
  unfold expandRGrid
  match dims, hd with
  | [a], hd =>
    simp at hd hnew
    have h1 : d > 1 := by omega
    have h2 : d ≤ 3 := by omega
    have h3 : new.length = d - 1 := by omega
    simp only [h1, h2, h3, hf, decide_true, Res.check_true, Res.ok_bind, e, Res.pure_eq]
  | [a, b], hd =>
    simp at hd hnew
    have h3 : new.length = 1 := by omega
    simp only [hd, h3, hf, decide_true, Res.check_true, Res.ok_bind, e, Res.pure_eq]
  | [], hd => simp at hd
  | _ :: _ :: _ :: _, hd => simp at hd

/-- Wrong target dimensions or a wrong number of new dimensions are rejected, and
3D fields cannot be expanded. -/
theorem C41_invalid_rejected (dims new : List Int) (d : Nat) (fields : List (List α))
    (hD : 1 ≤ dims.length) (hD3 : dims.length ≤ 3)
    (hbad : ¬ (dims.length < d ∧ d ≤ 3 ∧ dims.length + new.length = d)) :
    expandRGrid fields dims d new = .throw := by
  unfold expandRGrid
  match dims, hD, hD3 with
  | [a], _, _ =>
    simp at hbad
    by_cases h1 : d > 1
    · by_cases h2 : d ≤ 3
      · have h3 : ¬ new.length = d - 1 := by have := hbad h1 h2; omega
        simp [h1, h2, h3]
      · simp [h1, h2]
    · simp [h1]
  | [a, b], _, _ =>
    simp at hbad
    by_cases h1 : d = 3
    · have h3 : ¬ new.length = 1 := by have := hbad (by omega) (by omega); omega
      simp [h1, h3]
    · simp [h1]
  | [a, b, c], _, _ => simp

example : expandRGrid [[1, 2, 3], [4, 5, 6]] [3] 2 [2] =
    .ok ([3, 2], [1, 4, 2, 5, 3, 6, 1, 4, 2, 5, 3, 6]) := by decide
example : readRGridData [[0, 0, 0, 0, 0, 0], [0, 0, 0, 0, 0, 0]] 2 [3, 2]
    [1, 4, 2, 5, 3, 6, 1, 4, 2, 5, 3, 6] =
    .ok ([[1, 1, 2, 2, 3, 3], [4, 4, 5, 5, 6, 6]], []) := by decide

end Verif.FieldIo
