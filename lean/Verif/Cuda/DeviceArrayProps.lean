import Verif.Cuda.DeviceArray

/-!
# C117: arrays in device memory

`Reach s` describes every program that uses objects during their lifetime, destroys no array to which a
slice refers, does not copy between overlapping slices and does not use the copy constructor
(`Legal`).  The last three restrictions are not documented by the class or not enforced by it: the
theorems `C117_violated_…` show what happens without them, which is why the property is partial.
-/

set_option autoImplicit false

namespace Verif.DevArr
variable {V : Type}

/-- A sequence of operations. -/
def runAll (s : St V) : List (Op V) → Res (St V)
  | [] => .ok s
  | op :: ops => do
    let s' ← run s op
    runAll s' ops

/-! ## No invalid access, no leak -/

/-- No operation accesses memory that is not allocated, frees memory twice, or follows a pointer to
an object that does not exist. -/
theorem C117_never_invalid_partial {s : St V} (h : Reach s) (op : Op V) (hL : Legal s op) : run s op ≠ .ub :=
  step_not_ub h.inv op hL

/-- The pointer that `cArray` returns gives access to `capacity` elements of allocated memory, all in
one block. -/
theorem C117_pointer_valid_partial {s : St V} (h : Reach s) {i : Nat} {o : Obj} (hi : s.objs i = some o) {p : Nat}
    (hp : cArray s o = .ok p) (h0 : p ≠ 0) :
    0 < o.cap ∧ ∃ b ∈ s.blocks, b.1 ≤ p ∧ p + o.cap.toNat ≤ b.1 + b.2 := by
  obtain ⟨hg, rfl⟩ := cArray_ok.1 hp
  exact guard_block h.inv _ i o hi hg h0

/-- Copies to the host are defined. -/
theorem C117_toHost_defined_partial {s : St V} (h : Reach s) {j : Nat} (hj : s.objs j ≠ none) (n : Nat) : toHost s n j ≠ .ub := by
  have I := h.inv
  intro h
  simp only [toHost] at h
  rcases bind_ub h with h | ⟨q, h1, h⟩
  · exact hj (obj_ub.1 h)
  rw [obj_ok] at h1
  rcases bind_ub h with h | ⟨b, hb, h⟩
  · exact isAllocated_not_ub I h1 h
  obtain ⟨g, rfl⟩ := isAllocated_ok.1 hb
  rcases bind_ub h with h | ⟨⟨⟩, hd, h⟩
  · exact check_ub h
  rcases bind_ub h with h | ⟨⟨⟩, hm, h⟩
  · exact check_ub h
  have hm' := check_ok.1 hm
  rw [decide_eq_true_eq] at hm'
  rw [cArray_ok.2 ⟨g, rfl⟩, Res.ok_bind, hm', if_pos] at h
  · cases h
  · intro x hx
    exact guard_live I h1 g (by simpa using check_ok.1 hd) (by omega)

/-- So are copies of slices to the host, if they begin within the array. -/
theorem C117_copySlice_defined_partial {s : St V} (h : Reach s) {j : Nat} (hj : s.objs j ≠ none) (n : Nat) {beginId : Int}
    (hb0 : 0 ≤ beginId) : copySlice s n j beginId ≠ .ub := by
  have I := h.inv
  intro h
  simp only [copySlice] at h
  rcases bind_ub h with h | ⟨q, h1, h⟩
  · exact hj (obj_ub.1 h)
  rw [obj_ok] at h1
  rcases bind_ub h with h | ⟨b, hb, h⟩
  · exact isAllocated_not_ub I h1 h
  obtain ⟨g, rfl⟩ := isAllocated_ok.1 hb
  rcases bind_ub h with h | ⟨⟨⟩, hd, h⟩
  · exact check_ub h
  rcases bind_ub h with h | ⟨⟨⟩, -, h⟩
  · exact check_ub h
  rcases bind_ub h with h | ⟨⟨⟩, hm, h⟩
  · exact check_ub h
  have hm' := check_ok.1 hm
  rw [decide_eq_true_eq] at hm'
  rw [cArray_ok.2 ⟨g, rfl⟩, Res.ok_bind, if_pos] at h
  · cases h
  · refine ⟨by omega, fun x hx => ?_⟩
    have := guard_live I h1 g (by simpa using check_ok.1 hd) (k := beginId.toNat + x) (by omega)
    rwa [show ((q.data : Int) + beginId).toNat + x = q.data + (beginId.toNat + x) by omega]

/-- Every block of device memory is owned by exactly one array, so that when all arrays have been
destroyed all memory has been released. -/
theorem C117_one_owner {s : St V} (h : Reach s) {b : Nat × Nat} (hb : b ∈ s.blocks) :
    ∃! i, ∃ o, s.objs i = some o ∧ o.isOwner = true ∧ o.data = b.1 := by
  obtain ⟨i, o, hi, h1, h2⟩ := h.inv.noleak b hb
  have h0 := (h.inv.pos b hb).1
  refine ⟨i, ⟨o, hi, isOwner_iff.2 ⟨h1, by omega⟩, h2⟩, ?_⟩
  rintro j ⟨o', hj, h3, h4⟩
  exact h.inv.uniq j i o' o hj hi (isOwner_iff.1 h3).1 h1 (isOwner_iff.1 h3).2 (h4.trans h2.symm)

theorem C117_no_leak {s : St V} (h : Reach s) (hn : ∀ i, s.objs i = none) : s.blocks = [] := by
  by_contra hb
  obtain ⟨b, hb⟩ := List.exists_mem_of_ne_nil _ hb
  obtain ⟨i, o, hi, -⟩ := h.inv.noleak b hb
  rw [hn i] at hi
  cases hi

/-! ## Aliasing -/

/-- Different arrays that own memory share no element. -/
theorem C117_owners_disjoint {s : St V} (h : Reach s) {i j : Nat} {o q : Obj} (hi : s.objs i = some o) (hj : s.objs j = some q)
    (hij : i ≠ j) (ho : o.isOwner = true) (hq : q.isOwner = true) :
    o.data + o.cap.toNat ≤ q.data ∨ q.data + q.cap.toNat ≤ o.data := by
  have I := h.inv
  rw [isOwner_iff] at ho hq
  have h1 := (I.own i o hi ho.1 ho.2).2
  have h2 := (I.own j q hj hq.1 hq.2).2
  by_cases e : o.data = q.data
  · exact absurd (I.uniq i j o q hi hj ho.1 hq.1 ho.2 e) hij
  · have : Std.Symm (fun a b : Nat × Nat => a.1 + a.2 ≤ b.1 ∨ b.1 + b.2 ≤ a.1) := ⟨fun a b h => h.symm⟩
    exact I.disj.forall h1 h2 (fun h => e (congrArg Prod.fst h))

theorem read_ok {s : St V} (I : Inv s) {i : Nat} {o : Obj} (hi : s.objs i = some o) (hg : o.guard s s.clock = .ok ())
    (hd : o.data ≠ 0) {k : Nat} (hk : (k : Int) < o.cap) : read s i k = .ok (s.mem (o.data + k)) := by
  unfold read
  rw [obj_ok.2 hi, Res.ok_bind, cArray_ok.2 ⟨hg, rfl⟩, Res.ok_bind, decide_eq_true hk]
  show (if _ then _ else _) = _
  rw [if_pos (guard_live I hi hg hd hk)]

/-- While a slice is usable, its elements are those of the array to which it refers: they share memory. -/
theorem C117_slice_is_view {s : St V} (h : Reach s) {i p : Nat} {o : Obj} (hi : s.objs i = some o) (ho : o.owner = some p)
    {d : Nat} (hc : cArray s o = .ok d) {k : Nat} (hk : (k : Int) < o.cap) :
    ∃ v, read s i k = .ok v ∧ read s p (o.data - o.ownerData + k) = .ok v := by
  obtain ⟨hg, rfl⟩ := cArray_ok.1 hc
  obtain ⟨a1, a2, a3, a4, -⟩ := h.inv.slice i o p hi ho
  obtain ⟨f, q, e, hq, g, h2, h3, h4⟩ := guard_some ho hg
  have g' : q.guard s s.clock = .ok () := by rw [e]; exact guard_mono f q g
  refine ⟨s.mem (o.data + k), read_ok h.inv hi hg a1 hk, ?_⟩
  rw [read_ok h.inv hq g' h2 (by omega), show q.data + (o.data - o.ownerData + k) = o.data + k by omega]

/-- `associate` makes the elements `beginId`, ..., `beginId + capacity - 1`. -/
theorem C117_associate {s s' : St V} (h : Reach s) {i j : Nat} {beginId cap : Int}
    (ha : associate s i j beginId cap = .ok s') {k : Nat} (hk : (k : Int) < cap) :
    ∃ v, read s' i k = .ok v ∧ read s' j (beginId.toNat + k) = .ok v ∧ read s j (beginId.toNat + k) = .ok v := by
  obtain ⟨o, q, h1, h2, h3, h4, h5, h6, h7, h8, rfl⟩ := associate_spec ha
  have hij : j ≠ i := by
    rintro rfl
    rw [h1] at h2
    cases h2
    exact h5 h3
  have R : Reach { s.set i (some ⟨q.data + beginId.toNat, cap, some j, q.cap, q.data, s.clock⟩) with clock := s.clock + 1 } :=
    .step s (.associate i j beginId cap) _ h ⟨by simp [h1], by simp [h2]⟩ ha
  have hj : ({ s.set i (some ⟨q.data + beginId.toNat, cap, some j, q.cap, q.data, s.clock⟩) with clock := s.clock + 1 } : St V).objs j =
      some q := by simp only [St.set, if_neg hij]; exact h2
  refine ⟨s.mem (q.data + (beginId.toNat + k)), ?_, ?_, ?_⟩
  · rw [read_ok R.inv (o := ⟨q.data + beginId.toNat, cap, some j, q.cap, q.data, s.clock⟩) (by simp only [St.set, if_true]) ?_
      (by show q.data + _ ≠ 0; omega) hk]
    · show Res.ok (s.mem (q.data + beginId.toNat + k)) = _
      rw [Nat.add_assoc]
    · show Obj.guard _ (s.clock + 1) _ = _
      rw [Obj.guard]
      dsimp only at hj ⊢
      rw [hj]
      simp only [guard_none h4, Res.ok_bind, h5, ne_eq, not_false_eq_true, decide_true]
      rfl
  · rw [read_ok R.inv hj (guard_none h4) h5 (by omega)]
    rfl
  · rw [read_ok h.inv h2 (guard_none h4) h5 (by omega)]

/-- A slice whose array has been released, or has been given other memory, cannot be used. -/
theorem C117_stale_slice {s : St V} (h : Reach s) {i p : Nat} {o q : Obj} (hi : s.objs i = some o) (ho : o.owner = some p)
    (hq : s.objs p = some q) (hc : q.data = 0 ∨ q.cap ≠ o.ownerCap ∨ q.data ≠ o.ownerData) :
    cArray s o = .throw ∧ ∀ k v, read s i k = .throw ∧ write s i k v = .throw := by
  have key : cArray s o = .throw := by
    cases hx : cArray s o with
    | throw => rfl
    | ub => exact absurd hx (cArray_not_ub h.inv hi)
    | ok d =>
      obtain ⟨f, q', -, hq', -, h2, h3, h4⟩ := guard_some ho (cArray_ok.1 hx).1
      rw [hq] at hq'
      cases hq'
      rcases hc with hc | hc | hc <;> contradiction
  refine ⟨key, fun k v => ⟨?_, ?_⟩⟩
  · unfold read; rw [obj_ok.2 hi, Res.ok_bind, key]; rfl
  · unfold write; rw [obj_ok.2 hi, Res.ok_bind, key]; rfl

/-! ## Copies -/

/-- Writing an element changes this element and no element of another array, except through slices. -/
theorem C117_write {s s' : St V} (h : Reach s) {i k : Nat} {v : V} (hw : write s i k v = .ok s') :
    read s' i k = .ok (some v) ∧
    ∀ j o q, s.objs i = some o → s.objs j = some q → i ≠ j → o.isOwner = true → q.isOwner = true →
      ∀ l : Nat, (l : Int) < q.cap → read s' j l = read s j l := by
  have I := h.inv
  have hR : Reach s' := .step s (.write i k v) s' h (by
    intro hn
    unfold write at hw
    rw [obj_ub.2 hn] at hw
    cases hw) hw
  have hw0 := hw
  simp only [write, Res.bind_eq_ok, obj_ok, cArray_ok, check_ok] at hw
  obtain ⟨o, h1, p, ⟨g, rfl⟩, ⟨⟩, hk, h2⟩ := hw
  have hk' : (k : Int) < o.cap := by simpa using hk
  have hd : o.data ≠ 0 := by
    intro hd
    have := I.empty i o h1 hd
    omega
  split at h2
  · simp only [Res.ok.injEq] at h2
    subst h2
    constructor
    · rw [read_ok hR.inv h1 ((guard_congr (by rfl) _ _).trans g) hd hk']
      simp
    · intro j o' q hi hj hij ho hq l hl
      rw [h1] at hi
      cases hi
      have hq' := isOwner_iff.1 hq
      rw [read_ok hR.inv hj (guard_none hq'.1) hq'.2 hl, read_ok I hj (guard_none hq'.1) hq'.2 hl]
      have := C117_owners_disjoint h h1 hj hij ho hq
      show Res.ok (if q.data + l = o.data + k then some v else s.mem (q.data + l)) = _
      rw [if_neg (by omega)]
  · cases h2

/-- Assignment copies the elements and does not change the other array.  An array that had no memory is
given memory of its own, which it shares with no other array (`C117_owners_disjoint`). -/
theorem C117_assign {s s' : St V} (h : Reach s) {i j a : Nat} (hL : Legal s (.assign i j a)) (hij : i ≠ j)
    (ha : assign s i j a = .ok s') :
    ∃ o' q, s'.objs i = some o' ∧ s.objs j = some q ∧ s'.objs j = some q ∧ o'.cap = q.cap ∧
      (∀ o, s.objs i = some o → o.data = 0 → o'.isOwner = true) ∧
      ∀ k : Nat, (k : Int) < q.cap → ∃ v, read s j k = .ok v ∧ read s' i k = .ok v := by
  have I := h.inv
  have hR : Reach s' := .step s (.assign i j a) s' h hL ha
  obtain ⟨o, q, h1, h2, hF, hov⟩ := hL
  obtain ⟨o2, q2, s1, o1, e1, e2, gq, go, hq, hs1, e5, e6, e7, hm⟩ := assign_spec hij ha
  rw [h1] at e1; cases e1
  rw [h2] at e2; cases e2
  have hc : o.data = 0 ∨ o.cap = q.cap := by
    rcases hs1 with ⟨-, rfl⟩ | ⟨hd, -⟩
    · rw [h1] at e5; cases e5; exact Or.inr e6
    · exact Or.inl hd
  obtain ⟨s1', o1', f1, f2, f3, f4, f5, f6, f7, f8⟩ := assign_core I h1 h2 hF hov gq go hq hc
  have hs : s1' = s1 := by
    rw [allocateUnless] at f1
    rcases hs1 with ⟨hd, rfl⟩ | ⟨hd, hs1⟩
    · rw [if_pos (by simpa using hd)] at f1; cases f1; rfl
    · rw [if_neg (by simp [hd]), hs1] at f1; cases f1; rfl
  subst hs
  rw [f2] at e5; cases e5
  have hj1 : s1'.objs j = some q := by
    rcases hs1 with ⟨-, rfl⟩ | ⟨-, hs1⟩
    · exact h2
    · obtain ⟨_, _, _, _, _, rfl⟩ := allocate_spec hs1
      simp only [St.set, if_neg hij.symm]
      exact h2
  have gi : o1.guard s1' s1'.clock = .ok () := by
    rcases hs1 with ⟨-, rfl⟩ | ⟨-, hs1⟩
    · rw [h1] at f2; cases f2; exact go
    · obtain ⟨_, _, _, _, _, rfl⟩ := allocate_spec hs1
      simp only [St.set, if_true, Option.some.injEq] at f2
      exact guard_none (by rw [← f2])
  rw [memcpy, if_pos ⟨f6, f7⟩] at hm
  cases hm
  have hown : ∀ x, s.objs i = some x → x.data = 0 → o1.isOwner = true := by
    intro x hx hx0
    rw [h1] at hx; cases hx
    rcases hs1 with ⟨hd, -⟩ | ⟨-, hs1⟩
    · exact absurd hx0 hd
    · obtain ⟨_, _, _, _, _, rfl⟩ := allocate_spec hs1
      simp only [St.set, if_true, Option.some.injEq] at f2
      exact isOwner_iff.2 ⟨by rw [← f2], f5⟩
  refine ⟨o1, q, f2, h2, hj1, f3, hown, fun k hk => ⟨s.mem (q.data + k), read_ok I h2 gq hq hk, ?_⟩⟩
  rw [read_ok hR.inv f2 ((guard_congr (by rfl) _ _).trans gi) f5 (by omega)]
  show Res.ok (if o1.data ≤ o1.data + k ∧ o1.data + k < o1.data + o1.cap.toNat then
    s1'.mem (q.data + (o1.data + k - o1.data)) else _) = _
  rw [if_pos (by omega), Nat.add_sub_cancel_left, f8 k (by omega)]

/-- Assignment throws only because of its preconditions, and then before any memory has been allocated. -/
theorem C117_assign_succeeds {s : St V} (h : Reach s) {i j a : Nat} {o q : Obj} (hij : i ≠ j) (hi : s.objs i = some o)
    (hj : s.objs j = some q) (hL : Legal s (.assign i j a)) {d d' : Nat} (hd : cArray s o = .ok d) (hd' : cArray s q = .ok d')
    (hq : d' ≠ 0) (hc : d = 0 ∨ o.cap = q.cap) : ∃ s', assign s i j a = .ok s' := by
  obtain ⟨o', q', e1, e2, hF, hov⟩ := hL
  rw [hi] at e1; cases e1
  rw [hj] at e2; cases e2
  obtain ⟨g, rfl⟩ := cArray_ok.1 hd
  obtain ⟨g', rfl⟩ := cArray_ok.1 hd'
  exact assign_ok h.inv hij hi hj hF hov g' g hq hc

/-- Data copied to the device and back are unchanged. -/
theorem C117_host_round_trip {s s' : St V} (h : Reach s) {i a : Nat} {l : List V} (hL : Legal s (.assignHost i l a))
    (ha : assignHost s i l a = .ok s') (n : Nat) (hn : n = 0 ∨ n = l.length) : toHost s' n i = .ok (l.map some) := by
  have hR : Reach s' := .step s (.assignHost i l a) s' h hL ha
  obtain ⟨o, s1, o1, h1, g, hl, hs1, h5, h6, h7, rfl⟩ := assignHost_spec ha
  have hpos : 0 < l.length := List.length_pos_of_ne_nil hl
  have gi : o1.guard s1 s1.clock = .ok () ∧ o1.data ≠ 0 := by
    rcases hs1 with ⟨hd, rfl⟩ | ⟨-, hs1⟩
    · rw [h1] at h5; cases h5; exact ⟨g, hd⟩
    · obtain ⟨_, _, _, _, _, rfl⟩ := allocate_spec hs1
      simp only [St.set, if_true, Option.some.injEq] at h5
      have := hL.2.1
      exact ⟨guard_none (by rw [← h5]), by rw [← h5]; show a ≠ 0; omega⟩
  have hm : (if n = 0 then o1.cap else (n : Int)) = l.length := by
    rcases hn with rfl | rfl
    · exact h6
    · rw [if_neg (by omega)]
  unfold toHost
  simp only [Res.bind_eq_ok, obj_ok, isAllocated_ok, cArray_ok, check_ok]
  refine ⟨o1, h5, _, ⟨(guard_congr (by rfl) _ _).trans gi.1, rfl⟩, (), by simpa using gi.2, (), ?_, o1.data,
    ⟨(guard_congr (by rfl) _ _).trans gi.1, rfl⟩, ?_⟩
  · rw [hm, h6]; simp
  · rw [hm, if_pos]
    · congr 1
      apply List.ext_getElem
      · simp
      · intro k hk1 hk2
        simp only [List.length_map, List.length_range, Int.toNat_natCast] at hk1
        simp only [List.getElem_map, List.getElem_range]
        rw [if_pos (by omega), Nat.add_sub_cancel_left, List.getElem?_eq_getElem hk1]
    · intro x hx
      exact h7 x (by omega)

/-! ## What goes wrong outside `Legal` -/

/-- The copy constructor reads members that have not been initialised, whatever array is copied. -/
theorem C117_violated_copy_constructor {s : St V} {i j : Nat} {q : Obj} (hj : s.objs j = some q)
    (hq : isAllocated s q = .ok true) : run s (.copyConstruct i j) = .ub := by
  simp only [run, copyConstruct, obj_ok.2 hj, Res.ok_bind, hq]
  rfl

/-- Two arrays, the second a slice of the first. -/
def demo : List (Op Nat) :=
  [.construct 0, .construct 1, .allocate 0 4 100, .associate 1 0 1 2]

/-- If an array is destroyed before its slice, the next use of the slice, even its destructor,
follows a dangling pointer. -/
theorem C117_violated_dangling :
    (runAll St.init (demo ++ [.destroy 0])).bind (fun s => (read s 1 0).map some) = .ub ∧
    (runAll St.init (demo ++ [.destroy 0, .destroy 1])) = .ub := ⟨rfl, rfl⟩

/-- After the array of a slice has been deallocated, the slice can neither be dissociated nor
associated again, and its destructor throws, which ends the program. -/
theorem C117_violated_destructor {s : St V} (h : Reach s) {i p : Nat} {o q : Obj} (hi : s.objs i = some o)
    (ho : o.owner = some p) (hq : s.objs p = some q) (hd : q.data = 0) :
    destroy s i = .throw ∧ dissociate s i = .throw ∧ (∀ cap a, allocate s i cap a = .throw) ∧
    ∀ j b c, s.objs j ≠ none → associate s i j b c = .throw := by
  have key : isAllocated s o = .throw := by
    cases hx : isAllocated s o with
    | throw => rfl
    | ub => exact absurd hx (isAllocated_not_ub h.inv hi)
    | ok d =>
      obtain ⟨f, q', -, hq', -, h2, -⟩ := guard_some ho (isAllocated_ok.1 hx).1
      rw [hq] at hq'
      cases hq'
      contradiction
  refine ⟨?_, ?_, fun cap a => ?_, fun j b c hj => ?_⟩
  · simp only [destroy, obj_ok.2 hi, Res.ok_bind, key]; rfl
  · have : o.isOwner = false := by simp [Obj.isOwner, ho]
    simp only [dissociate, obj_ok.2 hi, Res.ok_bind, key, this]; rfl
  · simp only [allocate, obj_ok.2 hi, Res.ok_bind, key]; rfl
  · cases hx : associate s i j b c with
    | throw => rfl
    | ub => exact absurd hx (step_not_ub h.inv (.associate i j b c) ⟨by simp [hi], hj⟩)
    | ok s' =>
      unfold associate at hx
      simp only [Res.bind_eq_ok, obj_ok] at hx
      obtain ⟨o', h1, q', -, _, -, _, -, _, -, _, -, _, -, _, -, b', h2, -⟩ := hx
      rw [hi] at h1
      cases h1
      rw [key] at h2
      cases h2

/-- `copySlice` does not test that the slice begins within the array. -/
theorem C117_violated_copySlice :
    (runAll (St.init : St Nat) [.construct 0, .allocate 0 4 100]).bind (fun s => copySlice s 2 0 (-1)) = .ub := rfl

/-- Assignment between overlapping slices of one array is undefined. -/
theorem C117_violated_overlap :
    runAll (St.init : St Nat) [.construct 0, .construct 1, .construct 2, .allocate 0 4 100, .associate 1 0 0 3,
      .associate 2 0 1 3, .assign 1 2 200] = .ub := rfl

/-! ## Examples -/

/-- A history: data are copied to the device, a slice is written, the whole is copied. -/
def story : List (Op Nat) :=
  [.construct 0, .assignHost 0 [3, 1, 4, 1] 100, .construct 1, .associate 1 0 1 2, .write 1 0 9, .construct 2,
   .assign 2 0 200, .write 0 0 7]

example : ((runAll St.init story).bind fun s => toHost s 0 2) = .ok [some 3, some 9, some 4, some 1] := rfl
example : ((runAll St.init story).bind fun s => toHost s 4 0) = .ok [some 7, some 9, some 4, some 1] := rfl
example : ((runAll St.init story).bind fun s => copySlice s 2 2 1) = .ok [some 9, some 4] := rfl
example : ((runAll St.init story).bind fun s => toHost s 3 0) = .throw := rfl
example : ((runAll St.init (story ++ [.dissociate 1, .destroy 0, .destroy 1, .destroy 2])).bind fun s =>
    .ok s.blocks) = .ok [] := rfl

/-- States reached by a list of operations that are legal one by one. -/
theorem Reach.steps {s : St V} (h : Reach s) : ∀ (ops : List (Op V)) {s' : St V},
    (∀ pre op post t, ops = pre ++ op :: post → runAll s pre = .ok t → Legal t op) → runAll s ops = .ok s' → Reach s' := by
  intro ops
  induction ops generalizing s with
  | nil => intro s' _ hr; cases hr; exact h
  | cons op ops ih =>
    intro s' hL hr
    simp only [runAll, Res.bind_eq_ok] at hr
    obtain ⟨t, h1, h2⟩ := hr
    refine ih (.step s op t h (hL [] op ops s rfl rfl) h1) ?_ h2
    intro pre op' post u e hu
    refine hL (op :: pre) op' post u (by rw [e]; rfl) ?_
    simp only [runAll, h1, Res.ok_bind]
    exact hu

/-- The state after the array was allocated and a slice was made is reachable, so that the theorems
above apply: the slice is a view, and the array can be deallocated, which makes the slice unusable. -/
example : ∃ s : St Nat, Reach s ∧ runAll St.init demo = .ok s ∧ Legal s (.deallocate 0) ∧ Legal s (.destroy 1) ∧
    ¬ Legal s (.destroy 0) := by
  have r0 : Reach (St.init : St Nat) := .init
  have r1 := Reach.step _ (.construct 0) _ r0 rfl rfl
  have r2 := Reach.step _ (.construct 1) _ r1 rfl rfl
  have r3 := Reach.step _ (.allocate 0 4 100) _ r2 ⟨by simp [St.set, Obj.default], by simp [Fresh, St.set, St.init]⟩ rfl
  have r4 := Reach.step _ (.associate 1 0 1 2) _ r3 ⟨by simp [St.set, malloc, Obj.default], by simp [St.set, malloc]⟩ rfl
  refine ⟨_, r4, rfl, ?_, ⟨?_, ?_⟩, ?_⟩
  · simp [Legal, St.set]
  · simp [St.set]
  · intro j o hj
    simp only [St.set, malloc, St.init, Obj.default] at hj
    split_ifs at hj <;> (cases hj; simp)
  · intro h
    exact h.2 1 _ (by simp only [St.set, if_true]; rfl) rfl

end Verif.DevArr
