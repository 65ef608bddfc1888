import Verif.Basis.MakeLemmas

/-!
# `makeBasis` succeeds: lists of waves, stars and phases

No check in the loops over lists and stars fails when the group acts on the mesh (`GroupOn`), the
functions of the cell respect it (`CellOn`) and the tolerances resolve the phases (`Resolved`).
-/

set_option autoImplicit false


namespace Verif.Make
open Verif.Stars (TWave StarEnv StarRec negSh sh ex ph GroupOn)
open Verif.Basis (Wave Star BasisData Cell)
open Verif.Crystal (Sym)
set_option linter.unusedSectionVars false

variable {D : Nat}

/-! ## Lists of waves of equal norm -/

theorem groups_mem (E : StarEnv D) (ws cur : List (TWave D)) (g : ℚ) {l : List (TWave D)} (hl : l ∈ groups E ws cur g)
    {w : TWave D} (hw : w ∈ l) : w ∈ cur ++ ws := by
  rw [← groups_flatten E ws cur g]
  exact List.mem_flatten.2 ⟨l, hl, hw⟩

/-- Waves of equal norm are in one list. -/
theorem groups_closed (E : StarEnv D) (heps : 0 ≤ E.epsilon) (ws : List (TWave D)) : ∀ (cur : List (TWave D)) (g : ℚ),
    (∀ c ∈ cur, E.ksq c.bz ≤ g + E.epsilon) → (cur ++ ws).Pairwise (fun a b => E.ksq a.bz ≤ E.ksq b.bz) →
    ∀ l ∈ groups E ws cur g, ∀ w ∈ l, ∀ w' ∈ cur ++ ws, E.ksq w'.bz = E.ksq w.bz → w' ∈ l := by
  induction ws with
  | nil =>
    intro cur g _ _ l hl w _ w' hw' _
    simp only [groups, List.mem_singleton] at hl
    subst hl
    simpa using hw'
  | cons a ws ih =>
    intro cur g hc hs l hl w hw w' hw' e
    simp only [groups] at hl
    split at hl
    · rename_i hgt
      rw [List.pairwise_append] at hs
      obtain ⟨-, s2, -⟩ := hs
      have s3 := (List.pairwise_cons.1 s2).1
      have hbig : ∀ x ∈ a :: ws, g + E.epsilon < E.ksq x.bz := by
        intro x hx
        rcases List.mem_cons.1 hx with rfl | hx
        · exact hgt
        · exact lt_of_lt_of_le hgt (s3 x hx)
      rcases List.mem_cons.1 hl with rfl | hl
      · rcases List.mem_append.1 hw' with h | h
        · exact h
        · have h1 := hbig w' h
          have h2 := hc w hw
          rw [e] at h1
          exact absurd h1 (not_lt.2 h2)
      · have hw2 := groups_mem E ws [a] _ hl hw
        have h1 := hbig w (by simpa using hw2)
        rcases List.mem_append.1 hw' with h | h
        · have h2 := hc w' h
          rw [e] at h2
          exact absurd h1 (not_lt.2 h2)
        · refine ih [a] (E.ksq a.bz) ?_ (by simpa using s2) l hl w hw w' (by simpa using h) e
          intro c hc'
          simp only [List.mem_singleton] at hc'
          subst hc'
          linarith
    · rename_i hle
      refine ih (cur ++ [a]) g ?_ (by simpa using hs) l hl w hw w' (by simpa using hw') e
      intro c hc'
      rcases List.mem_append.1 hc' with h | h
      · exact hc c h
      · simp only [List.mem_singleton] at h
        subst h
        exact not_lt.1 hle

theorem waveLists_closed (E : StarEnv D) (heps : 0 ≤ E.epsilon) {ws : List (TWave D)}
    (hs : ws.Pairwise fun a b => E.ksq a.bz ≤ E.ksq b.bz) : ∀ l ∈ waveLists E ws, ∀ w ∈ l, ∀ w' ∈ ws,
    E.ksq w'.bz = E.ksq w.bz → w' ∈ l := by
  cases ws with
  | nil => simp [waveLists]
  | cons a ws =>
    intro l hl w hw w' hw' e
    exact groups_closed E heps ws [a] _ (by simpa using heps) (by simpa using hs) l hl w hw w' (by simpa using hw') e

/-! ## Success of the loop over stars -/

/-- The metric as seen by the construction: on the set `near` of vectors for which it is called,
minimum images are shortest, and canonical for waves that differ from their inverse, and lengths are
invariant under the rotations of the group and inversion.  (`shiftToMinimum` searches a box, `C39`:
for a vector far from the cell it does not return a shortest one; `shiftToMinimum<1>` leaves both
`d/2` and `-d/2` as they are.) -/
structure CellOn (E : StarEnv D) (near : (Fin D → Int) → Prop) : Prop where
  eps : 0 < E.epsilon
  mesh : ∀ v, near (sh E.dims v)
  turn : ∀ A ∈ E.group, ∀ v, near v → near (Sym.vecMul (E.minIm v) A)
  flip : ∀ v, near v → near (fun i => - E.minIm v i)
  canon : ∀ v w, near v → near w → sh E.dims v = sh E.dims w → sh E.dims (fun i => - v i) ≠ sh E.dims v →
    E.minIm v = E.minIm w
  cong : ∀ v, sh E.dims (E.minIm v) = sh E.dims v
  least : ∀ v w, near v → sh E.dims v = sh E.dims w → E.ksq (E.minIm v) ≤ E.ksq w
  sym : ∀ A ∈ E.group, ∀ v, E.ksq (Sym.vecMul v A) = E.ksq v
  neg : ∀ v, E.ksq (fun i => - v i) = E.ksq v

theorem buildStar_ok {E : StarEnv D} {near : (Fin D → Int) → Prop} (H : CellOn E near) (root : TWave D) : ∃ st, Stars.buildStar E root = .ok st := by
  have key : ∀ (l : List (Sym D)) (st : Stars.StarState D), (∀ A ∈ l, A ∈ E.group) →
      ∃ st', Stars.starFold E root l st = .ok st' := by
    intro l
    induction l with
    | nil => intro st _; exact ⟨st, rfl⟩
    | cons A l ih =>
      intro st hl
      have h1 : ∃ st1, Stars.starStep E root st A = .ok st1 := by
        unfold Stars.starStep
        have h2 : decide (|E.ksq root.bz - E.ksq (Sym.vecMul root.bz A)| < E.epsilon) = true := by
          rw [H.sym A (hl A (by simp))]
          simpa using H.eps
        simp only [h2, Res.check, if_true]
        show ∃ st1, (Res.bind _ _) = _
        simp only [Res.bind]
        split
        · exact ⟨_, rfl⟩
        · split <;> exact ⟨_, rfl⟩
      obtain ⟨st1, h1⟩ := h1
      obtain ⟨st', h2⟩ := ih st1 fun B hB => hl B (by simp [hB])
      refine ⟨st', ?_⟩
      simp only [Stars.starFold, Res.bind_eq_ok]
      exact ⟨st1, h1, h2⟩
  exact key _ _ fun A h => h

/-- Being in the orbit of `r`. -/
def InOrbit (E : StarEnv D) (r v : Fin D → Int) : Prop := ∃ A ∈ E.group, sh E.dims v = sh E.dims (Sym.vecMul r A)

theorem InOrbit.symm {E : StarEnv D} (G : GroupOn E.dims E.group) {r v : Fin D → Int} (h : InOrbit E r v) : InOrbit E v r := by
  obtain ⟨A, hA, e⟩ := h
  obtain ⟨B, hB, e1, -⟩ := G.inv A hA
  refine ⟨B, hB, ?_⟩
  rw [Stars.sh_vecMul G.pos (G.compat B hB) e, ← Stars.vecMul_mul, e1, Stars.vecMul_one]

theorem InOrbit.trans {E : StarEnv D} (G : GroupOn E.dims E.group) {r v u : Fin D → Int} (h : InOrbit E r v)
    (h' : InOrbit E v u) : InOrbit E r u := by
  obtain ⟨A, hA, e⟩ := h
  obtain ⟨B, hB, e'⟩ := h'
  refine ⟨A.mul B, G.mul A hA B hB, ?_⟩
  rw [e', Stars.sh_vecMul G.pos (G.compat B hB) e, ← Stars.vecMul_mul]

theorem InOrbit.neg {E : StarEnv D} (G : GroupOn E.dims E.group) {r v : Fin D → Int} (h : InOrbit E r v) :
    InOrbit E (fun i => - r i) (fun i => - v i) := by
  obtain ⟨A, hA, e⟩ := h
  exact ⟨A, hA, by rw [Stars.vecMul_neg]; exact Stars.sh_neg G.pos e⟩

theorem InOrbit.refl {E : StarEnv D} (G : GroupOn E.dims E.group) (r : Fin D → Int) : InOrbit E r r :=
  ⟨_, G.one, by rw [Stars.vecMul_one]⟩

theorem InOrbit.of_sh {E : StarEnv D} {r v v' : Fin D → Int} (h : InOrbit E r v) (e : sh E.dims v' = sh E.dims v) :
    InOrbit E r v' := by
  obtain ⟨A, hA, e'⟩ := h
  exact ⟨A, hA, e.trans e'⟩

theorem star_orbit {E : StarEnv D} (htol : 0 ≤ E.tol) {root : TWave D} {st : Stars.StarState D}
    (h : Stars.buildStar E root = .ok st) (v : Fin D → Int) :
    (∃ w ∈ st.star, w.dft = sh E.dims v) ↔ InOrbit E root.bz v := (Stars.C76_star_is_orbit htol h).2 v

/-- Invariant of the list of remaining waves. -/
structure ListInv (E : StarEnv D) (list : List (TWave D)) : Prop where
  dft : ∀ w ∈ list, w.dft = sh E.dims w.bz
  nodup : (list.map TWave.dft).Nodup
  closed : ∀ w ∈ list, ∀ A ∈ E.group, ∃ w' ∈ list, w'.dft = sh E.dims (Sym.vecMul w.bz A)

def NegClosed (E : StarEnv D) (list : List (TWave D)) : Prop :=
  ∀ w ∈ list, ∃ w' ∈ list, w'.dft = negSh E.dims w.bz

theorem mem_eraseStar {E : StarEnv D} (htol : 0 ≤ E.tol) {root : TWave D} {st : Stars.StarState D}
    (h : Stars.buildStar E root = .ok st) {list : List (TWave D)} (hd : ∀ w ∈ list, w.dft = sh E.dims w.bz) {w : TWave D} :
    w ∈ Stars.eraseStar list st.star ↔ w ∈ list ∧ ¬ InOrbit E root.bz w.bz := by
  unfold Stars.eraseStar
  rw [List.mem_filter]
  constructor
  · rintro ⟨h1, h2⟩
    refine ⟨h1, fun h3 => ?_⟩
    obtain ⟨v, hv, e⟩ := (star_orbit htol h _).2 h3
    simp only [Bool.not_eq_true', List.any_eq_false, decide_eq_true_eq] at h2
    exact h2 v hv (by rw [e, hd w h1])
  · rintro ⟨h1, h2⟩
    refine ⟨h1, ?_⟩
    simp only [Bool.not_eq_true', List.any_eq_false, decide_eq_true_eq]
    intro v hv e
    exact h2 ((star_orbit htol h _).1 ⟨v, hv, by rw [e, hd w h1]⟩)

theorem ListInv.erase {E : StarEnv D} (G : GroupOn E.dims E.group) (htol : 0 ≤ E.tol) {root : TWave D}
    {st : Stars.StarState D} (h : Stars.buildStar E root = .ok st) {list : List (TWave D)} (I : ListInv E list) :
    ListInv E (Stars.eraseStar list st.star) where
  dft := fun w hw => I.dft w ((mem_eraseStar htol h I.dft).1 hw).1
  nodup := I.nodup.sublist (List.filter_sublist.map _)
  closed := by
    intro w hw A hA
    rw [mem_eraseStar htol h I.dft] at hw
    obtain ⟨w', h1, h2⟩ := I.closed w hw.1 A hA
    refine ⟨w', (mem_eraseStar htol h I.dft).2 ⟨h1, fun h3 => hw.2 ?_⟩, h2⟩
    have h4 : InOrbit E w.bz w'.bz := ⟨A, hA, by rw [← I.dft w' h1, h2]⟩
    exact h3.trans G (h4.symm G)

/-- The count made by the program is right. -/
theorem ListInv.count {E : StarEnv D} (htol : 0 ≤ E.tol) {root : TWave D}
    {st : Stars.StarState D} (h : Stars.buildStar E root = .ok st) {list : List (TWave D)} (I : ListInv E list)
    (hr : root ∈ list) : st.star.length + (Stars.eraseStar list st.star).length = list.length := by
  have O := Stars.buildStar_inv htol h
  set p : TWave D → Bool := fun w => st.star.any (fun v => decide (v.dft = w.dft)) with hp
  have hsplit : (list.filter p ++ Stars.eraseStar list st.star).Perm list := List.filter_append_perm p list
  have h1 : (list.filter p).length = st.star.length := by
    have hn1 : ((list.filter p).map TWave.dft).Nodup := I.nodup.sublist ((List.filter_sublist).map _)
    have e : ((list.filter p).map TWave.dft).Perm (st.star.map TWave.dft) := by
      rw [List.perm_ext_iff_of_nodup hn1 O.nodup]
      intro v
      constructor
      · intro hv
        obtain ⟨w, hw, rfl⟩ := List.mem_map.1 hv
        have h2 := (List.mem_filter.1 hw).2
        simp only [hp, List.any_eq_true, decide_eq_true_eq] at h2
        obtain ⟨u, hu, e⟩ := h2
        exact List.mem_map.2 ⟨u, hu, e⟩
      · intro hv
        obtain ⟨u, hu, rfl⟩ := List.mem_map.1 hv
        obtain ⟨A, hA, e, -⟩ := O.src u hu
        obtain ⟨w, hw, e'⟩ := I.closed root hr A hA
        refine List.mem_map.2 ⟨w, List.mem_filter.2 ⟨hw, ?_⟩, by rw [e', e]⟩
        simp only [hp, List.any_eq_true, decide_eq_true_eq]
        exact ⟨u, hu, by rw [e, e']⟩
    simpa using e.length_eq
  have := hsplit.length_eq
  rw [List.length_append] at this
  omega

theorem starLoop_ok {E : StarEnv D} (G : GroupOn E.dims E.group) (htol : 0 ≤ E.tol) {near : (Fin D → Int) → Prop} (H : CellOn E near) (fuel : Nat) :
    ∀ (list : List (TWave D)) (inv : Option (TWave D)), ListInv E list →
      (inv = none → NegClosed E list) →
      (∀ r, inv = some r → r ∈ list ∧ ∀ st, Stars.buildStar E r = .ok st → NegClosed E (Stars.eraseStar list st.star)) →
      list.length ≤ fuel → ∃ stars, Stars.starLoop E fuel list inv = some (.ok stars) := by
  induction fuel with
  | zero =>
    intro list inv _ _ _ hl
    have : list = [] := List.length_eq_zero_iff.1 (by omega)
    subst this
    exact ⟨[], by rw [Stars.starLoop.eq_def]⟩
  | succ fuel ih =>
    intro list inv I hN hS hl
    cases list with
    | nil => exact ⟨[], by rw [Stars.starLoop.eq_def]⟩
    | cons first tail =>
      have hmem : inv.getD first ∈ first :: tail := by
        cases hi : inv with
        | none => simp
        | some r => exact (hS r hi).1
      set root := inv.getD first with hroot
      obtain ⟨st, hb⟩ := buildStar_ok H root
      have hcount := I.count htol hb hmem
      have hI := I.erase G htol hb
      have hlt : (Stars.eraseStar (first :: tail) st.star).length ≤ fuel := by
        have h1 : 0 < st.star.length := by
          obtain ⟨w, hw, -⟩ := (Stars.buildStar_inv htol hb).cov _ G.one
          exact List.length_pos_of_mem hw
        omega
      rw [Stars.starLoop.eq_def]
      simp only
      rw [← hroot, hb]
      simp only
      rw [if_neg (not_not.2 hcount)]
      cases hi : inv with
      | some r =>
        have e : root = r := by rw [hroot, hi]; rfl
        obtain ⟨stars, h1⟩ := ih (Stars.eraseStar (first :: tail) st.star) none hI
          (fun _ => (hS r hi).2 st (e ▸ hb)) (by simp) hlt
        simp only [h1]
        exact ⟨_, rfl⟩
      | none =>
        simp only
        have hN' := hN hi
        obtain ⟨wn, hwn, en⟩ := hN' root hmem
        have hneg : ∀ {v u : Fin D → Int}, sh E.dims u = sh E.dims (fun i => - v i) →
            sh E.dims v = sh E.dims (fun i => - u i) := by
          intro v u h
          have := Stars.sh_neg G.pos h
          simpa using this.symm
        by_cases hcl : st.star.any (fun w => decide (sh E.dims (fun i => - root.bz i) = w.dft)) = true
        · rw [if_pos hcl]
          have hnc : NegClosed E (Stars.eraseStar (first :: tail) st.star) := by
            simp only [List.any_eq_true, decide_eq_true_eq] at hcl
            obtain ⟨u, hu, eu⟩ := hcl
            have ho : InOrbit E root.bz (fun i => - root.bz i) := (star_orbit htol hb _).1 ⟨u, hu, eu.symm⟩
            intro w hw
            rw [mem_eraseStar htol hb I.dft] at hw
            obtain ⟨w', a1, a2⟩ := hN' w hw.1
            refine ⟨w', (mem_eraseStar htol hb I.dft).2 ⟨a1, fun h3 => hw.2 ?_⟩, a2⟩
            have h4 := (h3.neg G)
            refine (ho.trans G h4).of_sh ?_
            exact hneg (by rw [← I.dft w' a1, a2]; rfl)
          obtain ⟨stars, h1⟩ := ih (Stars.eraseStar (first :: tail) st.star) none hI
            (fun _ => hnc) (by simp) hlt
          simp only [h1]
          exact ⟨_, rfl⟩
        · rw [if_neg hcl]
          have hno : ¬ InOrbit E root.bz (fun i => - root.bz i) := by
            intro ho
            obtain ⟨u, hu, eu⟩ := (star_orbit htol hb _).2 ho
            apply hcl
            simp only [List.any_eq_true, decide_eq_true_eq]
            exact ⟨u, hu, eu.symm⟩
          have hwr : wn ∈ Stars.eraseStar (first :: tail) st.star := by
            refine (mem_eraseStar htol hb I.dft).2 ⟨hwn, fun h3 => hno (h3.of_sh ?_)⟩
            rw [← I.dft wn hwn, en]; rfl
          cases hf : (Stars.eraseStar (first :: tail) st.star).find?
              (fun w => decide (sh E.dims (fun i => - root.bz i) = w.dft)) with
          | none =>
            rw [List.find?_eq_none] at hf
            exact absurd en.symm (by simpa [Stars.negSh] using hf wn hwr)
          | some w =>
            simp only
            have hw1 := List.mem_of_find?_eq_some hf
            have hw2 : sh E.dims (fun i => - root.bz i) = w.dft := by simpa using List.find?_some hf
            have hwd : sh E.dims w.bz = sh E.dims (fun i => - root.bz i) := by rw [← hI.dft w hw1, hw2]
            have hnc : ∀ r, some w = some r → r ∈ Stars.eraseStar (first :: tail) st.star ∧
                ∀ st2, Stars.buildStar E r = .ok st2 →
                  NegClosed E (Stars.eraseStar (Stars.eraseStar (first :: tail) st.star) st2.star) := by
              intro r hr
              cases hr
              refine ⟨hw1, fun st2 hb2 => ?_⟩
              intro x hx
              rw [mem_eraseStar htol hb2 hI.dft, mem_eraseStar htol hb I.dft] at hx
              obtain ⟨x', a1, a2⟩ := hN' x hx.1.1
              have ex1 : sh E.dims x'.bz = sh E.dims (fun i => - x.bz i) := by rw [← I.dft x' a1, a2]; rfl
              have ex2 := hneg ex1
              refine ⟨x', (mem_eraseStar htol hb2 hI.dft).2 ⟨(mem_eraseStar htol hb I.dft).2 ⟨a1, fun h3 => ?_⟩,
                fun h3 => ?_⟩, a2⟩
              · -- the inverse in the first star: `x` in the second
                apply hx.2
                have h4 : InOrbit E w.bz (fun i => - root.bz i) :=
                  (InOrbit.refl G w.bz).of_sh hwd.symm
                exact (h4.trans G (h3.neg G)).of_sh ex2
              · apply hx.1.2
                have h4 : InOrbit E root.bz (fun i => - w.bz i) :=
                  (InOrbit.refl G root.bz).of_sh (by
                    have := Stars.sh_neg G.pos hwd
                    simpa using this)
                exact (h4.trans G (h3.neg G)).of_sh ex2
            obtain ⟨stars, h1⟩ := ih (Stars.eraseStar (first :: tail) st.star) (some w) hI (by simp) hnc hlt
            simp only [h1]
            exact ⟨_, rfl⟩

/-! ## The waves of the mesh -/

theorem getD_fn (f : Fin D → Int) (i : Fin D) : (List.ofFn f).getD i.val 0 = f i := by
  rw [List.getD_eq_getElem?_getD, List.getElem?_eq_getElem (by rw [List.length_ofFn]; exact i.2), List.getElem_ofFn]
  rfl

theorem vecFn_ofFn (f : Fin D → Int) : vecFn (List.ofFn f) = f := by
  funext i
  exact getD_fn f i

theorem inRange_fn {d : Fin D → Int} {v : Mesh.IntVec} : Mesh.InRange (List.ofFn d) v ↔
    ∃ f : Fin D → Int, v = List.ofFn f ∧ ∀ i, 0 ≤ f i ∧ f i < d i := by
  unfold Mesh.InRange
  constructor
  · intro h
    have hl := h.length_eq
    rw [List.length_ofFn] at hl
    refine ⟨fun d => v[d]'(by omega), ?_, ?_⟩
    · apply List.ext_getElem
      · simp [hl]
      · intro i h1 h2; simp
    · intro i
      have := List.forall₂_iff_get.mp h
      have h2 := this.2 i (by rw [List.length_ofFn]; exact i.2) (by omega)
      simpa using h2
  · rintro ⟨f, rfl, hf⟩
    rw [List.forall₂_iff_get]
    refine ⟨by simp, fun i h1 h2 => ?_⟩
    have h3 : i < D := by rw [List.length_ofFn] at h1; exact h1
    simpa using hf ⟨i, h3⟩

theorem shiftVec_fn (d v : Fin D → Int) : (Mesh.shiftVec (List.ofFn d) (List.ofFn v)).2 = List.ofFn (sh d v) := by
  induction D with
  | zero => simp [Mesh.shiftVec]
  | succ D ih =>
    rw [List.ofFn_succ, List.ofFn_succ, List.ofFn_succ]
    simp only [Mesh.shiftVec]
    rw [ih]
    rfl

theorem negate_fn (v : Fin D → Int) : Basis.negate (List.ofFn v) = List.ofFn fun i => - v i := by
  unfold Basis.negate
  rw [List.map_ofFn]
  rfl

theorem sh_range {d : Fin D → Int} (hd : ∀ i, 0 < d i) (v : Fin D → Int) (i : Fin D) : 0 ≤ sh d v i ∧ sh d v i < d i :=
  let h := Mesh.C02_shift_coordinate (v i) (d i) (hd i)
  ⟨h.1, h.2.1⟩

theorem sh_of_range {d : Fin D → Int} (hd : ∀ i, 0 < d i) {v : Fin D → Int} (h : ∀ i, 0 ≤ v i ∧ v i < d i) : sh d v = v := by
  funext i
  have h2 := (Stars.sh_iff hd (sh d v) v).1 (Stars.sh_sh hd v) i
  have h3 := sh_range hd v i
  have h4 := h i
  obtain ⟨q, hq⟩ := h2
  have h5 : q < 1 := by by_contra h; nlinarith
  have h6 : -1 < q := by by_contra h; nlinarith
  have : q = 0 := by omega
  subst this
  linarith

/-- What is needed of the array of waves. -/
structure WavesInv (E : StarEnv D) (ws : List (TWave D)) : Prop where
  bz : ∀ w ∈ ws, w.bz = E.minIm w.dft
  range : ∀ w ∈ ws, ∀ i, 0 ≤ w.dft i ∧ w.dft i < E.dims i
  nodup : (ws.map TWave.dft).Nodup
  all : ∀ v, ∃ w ∈ ws, w.dft = sh E.dims v

theorem WavesInv.dft {E : StarEnv D} (hd : ∀ i, 0 < E.dims i) (hmin : ∀ v, sh E.dims (E.minIm v) = sh E.dims v)
    {ws : List (TWave D)} (I : WavesInv E ws) : ∀ w ∈ ws, w.dft = sh E.dims w.bz := by
  intro w hw
  rw [I.bz w hw, hmin, sh_of_range hd (I.range w hw)]

theorem SortedWaves.inv {E : StarEnv D} {mesh : Mesh.Mesh} (hm : Mesh.Mesh.setDimensions (List.ofFn E.dims) = some mesh)
    (hd : ∀ i, 0 < E.dims i) {ws : List (TWave D)} (h : SortedWaves E mesh ws) : WavesInv E ws := by
  obtain ⟨-, hsz, -, hpos, hrank⟩ := Mesh.C01_rank_position_bijection _ mesh hm
  have hin : ∀ r : Nat, r < mesh.size.toNat → ∃ f : Fin D → Int, mesh.position (r : Int) = List.ofFn f ∧
      ∀ i, 0 ≤ f i ∧ f i < E.dims i := by
    intro r hr
    exact inRange_fn.1 (hpos r (by omega) (by omega)).1
  have hmem : ∀ w ∈ ws, ∃ r : Nat, r < mesh.size.toNat ∧
      w = { phase := 0, dft := vecFn (mesh.position (r : Int)), bz := E.minIm (vecFn (mesh.position (r : Int))) } := by
    intro w hw
    obtain ⟨r, hr, rfl⟩ := List.mem_map.1 (h.perm.mem_iff.1 hw)
    exact ⟨r, List.mem_range.1 hr, rfl⟩
  refine ⟨?_, ?_, ?_, ?_⟩
  · intro w hw
    obtain ⟨r, -, rfl⟩ := hmem w hw
    rfl
  · intro w hw i
    obtain ⟨r, hr, rfl⟩ := hmem w hw
    obtain ⟨f, e, hf⟩ := hin r hr
    show 0 ≤ vecFn (mesh.position (r : Int)) i ∧ _
    rw [e, vecFn_ofFn]
    exact hf i
  · rw [(h.perm.map TWave.dft).nodup_iff]
    unfold meshWaves
    rw [List.map_map]
    refine List.Nodup.map_on ?_ List.nodup_range
    intro r hr r' hr' e
    rw [List.mem_range] at hr hr'
    obtain ⟨f, e1, -⟩ := hin r hr
    obtain ⟨f', e1', -⟩ := hin r' hr'
    have e2 : (vecFn (mesh.position (r : Int)) : Fin D → Int) = vecFn (mesh.position (r' : Int)) := e
    rw [e1, e1', vecFn_ofFn, vecFn_ofFn] at e2
    have h1 := (hpos r (by omega) (by omega)).2
    have h2 := (hpos r' (by omega) (by omega)).2
    rw [e1, e2] at h1
    rw [e1'] at h2
    omega
  · intro v
    have h1 := hrank (List.ofFn (sh E.dims v)) (inRange_fn.2 ⟨_, rfl, sh_range hd v⟩)
    refine ⟨_, h.perm.mem_iff.2 (List.mem_map.2 ⟨(mesh.rank (List.ofFn (sh E.dims v))).toNat,
      List.mem_range.2 (by omega), rfl⟩), ?_⟩
    show vecFn (mesh.position _) = _
    rw [Int.toNat_of_nonneg h1.1, h1.2.2, vecFn_ofFn]

/-! ## Norms of classes -/

theorem CellOn.normSh {E : StarEnv D} {near} (H : CellOn E near) {v w : Fin D → Int} (hv : near v) (hw : near w)
    (e : sh E.dims v = sh E.dims w) : E.ksq (E.minIm v) = E.ksq (E.minIm w) :=
  le_antisymm (H.least v _ hv (by rw [H.cong, e])) (H.least w _ hw (by rw [H.cong, e]))

theorem CellOn.normA {E : StarEnv D} {near} (H : CellOn E near) (G : GroupOn E.dims E.group) {A : Sym D} (hA : A ∈ E.group)
    {v : Fin D → Int} (hv : near v) : E.ksq (E.minIm (Sym.vecMul (E.minIm v) A)) = E.ksq (E.minIm v) := by
  apply le_antisymm
  · have := H.least _ _ (H.turn A hA v hv) rfl
    rwa [H.sym A hA] at this
  · obtain ⟨B, hB, e, -⟩ := G.inv A hA
    rw [← H.sym B hB (E.minIm (Sym.vecMul (E.minIm v) A))]
    apply H.least v _ hv
    rw [Stars.sh_vecMul G.pos (G.compat B hB) (H.cong _), ← Stars.vecMul_mul, e, Stars.vecMul_one, H.cong]

theorem CellOn.normNeg {E : StarEnv D} {near} (H : CellOn E near) (G : GroupOn E.dims E.group)
    {v : Fin D → Int} (hv : near v) : E.ksq (E.minIm fun i => - E.minIm v i) = E.ksq (E.minIm v) := by
  apply le_antisymm
  · have := H.least _ _ (H.flip v hv) rfl
    rwa [H.neg] at this
  · rw [← H.neg (E.minIm fun i => - E.minIm v i)]
    apply H.least v _ hv
    rw [Stars.sh_neg G.pos (H.cong _)]
    simp [H.cong]

/-- Each list of waves is closed under the group and inversion. -/
theorem listInv_of_waves {E : StarEnv D} (G : GroupOn E.dims E.group) {near : (Fin D → Int) → Prop} (H : CellOn E near) {ws : List (TWave D)}
    (hs : ws.Pairwise fun a b => E.ksq a.bz ≤ E.ksq b.bz) (W : WavesInv E ws) {l : List (TWave D)}
    (hl : l ∈ waveLists E ws) {l' : List (TWave D)} (hp : l'.Perm l) : ListInv E l' ∧ NegClosed E l' := by
  have hsub : ∀ w ∈ l', w ∈ ws := by
    intro w hw
    rw [← waveLists_flatten E ws]
    exact List.mem_flatten.2 ⟨l, hl, hp.mem_iff.1 hw⟩
  have hcl := waveLists_closed E H.eps.le hs l hl
  have hd := W.dft G.pos H.cong
  have key : ∀ w ∈ l', ∀ v, near v → E.ksq (E.minIm v) = E.ksq w.bz → ∃ w' ∈ l', w'.dft = sh E.dims v := by
    intro w hw v hv e
    obtain ⟨w', h1, h2⟩ := W.all v
    refine ⟨w', hp.mem_iff.2 (hcl w (hp.mem_iff.1 hw) w' h1 ?_), h2⟩
    rw [W.bz w' h1, h2, H.normSh (H.mesh v) hv (Stars.sh_sh G.pos v), e]
  have hnear : ∀ w ∈ l', near w.dft := by
    intro w hw
    rw [← sh_of_range G.pos (W.range w (hsub w hw))]
    exact H.mesh _
  refine ⟨⟨fun w hw => hd w (hsub w hw), ?_, ?_⟩, ?_⟩
  · rw [(hp.map _).nodup_iff]
    have h1 := W.nodup
    rw [← waveLists_flatten E ws] at h1
    exact h1.sublist ((List.sublist_flatten_of_mem hl).map _)
  · intro w hw A hA
    have e := W.bz w (hsub w hw)
    exact key w hw _ (e ▸ H.turn A hA _ (hnear w hw)) (by rw [e, H.normA G hA (hnear w hw)])
  · intro w hw
    have e := W.bz w (hsub w hw)
    exact key w hw _ (e ▸ H.flip _ (hnear w hw)) (by rw [e, H.normNeg G (hnear w hw)])

theorem starLists_ok {E : StarEnv D} (G : GroupOn E.dims E.group) (htol : 0 ≤ E.tol) {near : (Fin D → Int) → Prop} (H : CellOn E near) :
    ∀ ls : List (List (TWave D)), (∀ l ∈ ls, ∀ l', l'.Perm l → ListInv E l' ∧ NegClosed E l') →
    ∃ recs, starLists E ls = .ok recs := by
  intro ls
  induction ls with
  | nil => intro _; exact ⟨[], rfl⟩
  | cons l ls ih =>
    intro h
    obtain ⟨b, hb⟩ := ih fun l hl => h l (by simp [hl])
    obtain ⟨h1, h2⟩ := h l (by simp) (l.mergeSort dftLe) (List.mergeSort_perm _ _)
    obtain ⟨a, ha⟩ := starLoop_ok G htol H l.length (l.mergeSort dftLe) none h1 (fun _ => h2) (by simp) (by simp)
    refine ⟨a ++ b, ?_⟩
    simp only [starLists, ha, hb]
    rfl

/-! ## Success of the loop over phases -/

theorem pair_length {E : StarEnv D} (G : GroupOn E.dims E.group) (htol : 0 ≤ E.tol) {s u : StarRec D}
    (hs : Stars.buildStar E s.root = .ok ⟨s.waves, s.cancel⟩) (hu : Stars.buildStar E u.root = .ok ⟨u.waves, u.cancel⟩)
    (hr : sh E.dims u.root.bz = sh E.dims fun i => - s.root.bz i) : s.waves.length = u.waves.length := by
  have key : ∀ (s u : StarRec D), Stars.buildStar E s.root = .ok ⟨s.waves, s.cancel⟩ →
      Stars.buildStar E u.root = .ok ⟨u.waves, u.cancel⟩ → sh E.dims u.root.bz = sh E.dims (fun i => - s.root.bz i) →
      s.waves.length ≤ u.waves.length := by
    intro s u hs hu hr
    have I := Stars.buildStar_inv htol hs
    have hmap : ((s.waves.map TWave.dft).map fun v => sh E.dims fun i => - v i).Nodup := by
      refine List.Nodup.map_on ?_ I.nodup
      intro a ha b hb e
      obtain ⟨w, hw, rfl⟩ := List.mem_map.1 ha
      obtain ⟨w', hw', rfl⟩ := List.mem_map.1 hb
      obtain ⟨A, -, e1, -⟩ := I.src w hw
      obtain ⟨A', -, e1', -⟩ := I.src w' hw'
      have h1 := Stars.sh_neg G.pos e
      simp only [neg_neg] at h1
      rw [e1, e1', Stars.sh_sh G.pos, Stars.sh_sh G.pos] at h1
      rw [e1, e1', h1]
    have hsub : ((s.waves.map TWave.dft).map fun v => sh E.dims fun i => - v i) ⊆ u.waves.map TWave.dft := by
      intro x hx
      obtain ⟨v, hv, rfl⟩ := List.mem_map.1 hx
      obtain ⟨w, hw, rfl⟩ := List.mem_map.1 hv
      obtain ⟨A, hA, e1, -⟩ := I.src w hw
      have ho : InOrbit E s.root.bz w.dft := ⟨A, hA, by rw [e1, Stars.sh_sh G.pos]⟩
      have h2 : InOrbit E u.root.bz (fun i => - s.root.bz i) := (InOrbit.refl G _).of_sh hr.symm
      obtain ⟨w', hw', e2⟩ := (star_orbit htol hu _).2 (h2.trans G (ho.neg G))
      exact List.mem_map.2 ⟨w', hw', e2⟩
    simpa using (List.subperm_of_subset hmap hsub).length_le
  refine le_antisymm (key s u hs hu hr) (key u s hu hs ?_)
  have := Stars.sh_neg G.pos hr
  simpa using this.symm

theorem phases_ok {E : StarEnv D} (csqrt : ℂ → ℂ)
    (G : GroupOn E.dims E.group) (R : Resolved E) (hmin : ∀ v, sh E.dims (E.minIm v) = sh E.dims v)
    {recs : List (StarRec D)} (hp : Stars.Paired E.dims recs)
    (hroot : ∀ s ∈ recs, s.root.dft = sh E.dims s.root.bz)
    (hb : ∀ s ∈ recs, Stars.buildStar E s.root = .ok ⟨s.waves, s.cancel⟩) :
    ∃ L, phases csqrt E.dims recs = .ok L := by
  have hne : ∀ s : StarRec D, Stars.buildStar E s.root = .ok ⟨s.waves, s.cancel⟩ → ∃ w0 tl, sortBz s.waves = w0 :: tl := by
    intro s hs
    obtain ⟨w, hw, -⟩ := (Stars.buildStar_inv R.tol.1 hs).cov _ G.one
    cases hl : sortBz s.waves with
    | nil =>
      have := (sortBz_perm s.waves).mem_iff.2 hw
      rw [hl] at this
      simp at this
    | cons a l => exact ⟨a, l, rfl⟩
  have hdft : ∀ s : StarRec D, Stars.buildStar E s.root = .ok ⟨s.waves, s.cancel⟩ → ∀ w ∈ s.waves,
      w.dft = sh E.dims w.bz := by
    intro s hs w hw
    obtain ⟨A, -, e, -, e3⟩ := (Stars.buildStar_inv R.tol.1 hs).src w hw
    rw [e3, hmin, e]
  induction hp with
  | nil => exact ⟨[], rfl⟩
  | closed s l h0 hcl hp ih =>
    obtain ⟨r, hr⟩ := ih (fun s hs => hroot s (by simp [hs])) (fun s hs => hb s (by simp [hs]))
    have hbs := hb s (by simp)
    obtain ⟨w0, tl, e⟩ := hne s hbs
    have hw0 : w0 ∈ s.waves := (sortBz_perm _).mem_iff.1 (by rw [e]; simp)
    obtain ⟨p, hp1, hp2⟩ := Stars.closed_neg G R.tol.1 hbs hcl w0.bz ⟨w0, hw0, hdft s hbs w0 hw0⟩
    have hcs : ∃ cs, Stars.closedCoefs csqrt E.dims (sortBz s.waves) s.cancel = .ok cs := by
      rw [e]
      simp only [Stars.closedCoefs]
      rw [← e]
      cases hf : (sortBz s.waves).find? (fun w => decide (w.dft = negSh E.dims w0.bz)) with
      | none =>
        rw [List.find?_eq_none] at hf
        exact absurd (decide_eq_true hp2) (hf p ((sortBz_perm _).mem_iff.2 hp1))
      | some q =>
        simp only
        split
        · exact ⟨_, rfl⟩
        · split <;> exact ⟨_, rfl⟩
    obtain ⟨cs, hcs⟩ := hcs
    refine ⟨(s, cs) :: r, ?_⟩
    rw [phases.eq_def]
    simp only [if_pos h0, hcs, hr]
    rfl
  | pair s u l h0 h1 hop hinv hp ih =>
    obtain ⟨r, hr⟩ := ih (fun s hs => hroot s (by simp [hs])) (fun s hs => hb s (by simp [hs]))
    have hbs := hb s (by simp)
    have hbu := hb u (by simp)
    have hru := hroot u (by simp)
    have hr' : sh E.dims u.root.bz = sh E.dims fun i => - s.root.bz i := by rw [← hru, hinv]
    have hlen : (sortBz s.waves).length = (sortBz u.waves).length := by
      rw [(sortBz_perm _).length_eq, (sortBz_perm _).length_eq]
      exact pair_length G R.tol.1 hbs hbu hr'
    have hcan := Stars.C76_pair_cancel G R.tol.1 s u hbs hbu (hroot s (by simp)) hru (fun r _ => R.phase r.bz) hinv
    obtain ⟨w0, tl, e⟩ := hne s hbs
    have hw0 : w0 ∈ s.waves := (sortBz_perm _).mem_iff.1 (by rw [e]; simp)
    have ho := (star_orbit R.tol.1 hbs w0.bz).1 ⟨w0, hw0, hdft s hbs w0 hw0⟩
    have h2 : InOrbit E u.root.bz (fun i => - s.root.bz i) := (InOrbit.refl G _).of_sh hr'.symm
    obtain ⟨p, hp1, hp2⟩ := (star_orbit R.tol.1 hbu _).2 (h2.trans G (ho.neg G))
    have hcs : ∃ p, Stars.openCoefs E.dims (sortBz s.waves) (sortBz u.waves) s.cancel u.cancel = .ok p := by
      unfold Stars.openCoefs
      rw [if_neg (not_not.2 hlen), if_neg (not_not.2 hcan.symm), e]
      simp only
      cases hf : (sortBz u.waves).find? (fun w => decide (w.dft = negSh E.dims w0.bz)) with
      | none =>
        rw [List.find?_eq_none] at hf
        exact absurd (decide_eq_true hp2) (hf p ((sortBz_perm _).mem_iff.2 hp1))
      | some q =>
        simp only
        split <;> exact ⟨_, rfl⟩
    obtain ⟨q, hcs⟩ := hcs
    refine ⟨(s, q.1) :: (u, q.2) :: r, ?_⟩
    rw [phases.eq_def]
    simp only [h0, one_ne_zero, if_false, hcs, hr]
    rfl

/-! ## Positions in the arrays -/

/-- Number of waves before star `k`. -/
def before (L : List (StarRec D × List (TWave D × ℂ))) (k : Nat) : Nat := ((L.take k).map fun p => p.2.length).sum

theorem flatFrom_get (n : Nat) : ∀ (L : List (StarRec D × List (TWave D × ℂ))) (i : Nat) (x : Nat × StarRec D × TWave D × ℂ),
    (flatFrom n L)[i]? = some x ↔ ∃ k p, L[k]? = some p ∧ x.1 = n + k ∧ x.2.1 = p.1 ∧ before L k ≤ i ∧
      p.2[i - before L k]? = some x.2.2 := by
  intro L
  induction L generalizing n with
  | nil => intro i x; simp [flatFrom]
  | cons p L ih =>
    intro i x
    rw [flatFrom_cons]
    by_cases hi : i < p.2.length
    · rw [List.getElem?_append_left (by simpa using hi), List.getElem?_map, Option.map_eq_some_iff]
      constructor
      · rintro ⟨c, hc, rfl⟩
        exact ⟨0, p, rfl, rfl, rfl, by simp [before], by simpa [before] using hc⟩
      · rintro ⟨k, q, h1, h2, h3, h4, h5⟩
        cases k with
        | zero =>
          simp only [List.getElem?_cons_zero, Option.some.injEq] at h1
          subst h1
          refine ⟨x.2.2, by simpa [before] using h5, ?_⟩
          rw [← h3]
          obtain ⟨a, b, c⟩ := x
          simp only at h2
          rw [h2]; rfl
        | succ k =>
          simp only [before, List.take_succ_cons, List.map_cons, List.sum_cons] at h4
          omega
    · rw [List.getElem?_append_right (by simpa using hi), List.length_map, ih]
      constructor
      · rintro ⟨k, q, h1, h2, h3, h4, h5⟩
        refine ⟨k + 1, q, by simpa using h1, by omega, h3, ?_, ?_⟩
        · simp only [before, List.take_succ_cons, List.map_cons, List.sum_cons] at h4 ⊢
          omega
        · simp only [before, List.take_succ_cons, List.map_cons, List.sum_cons] at h5 ⊢
          rwa [← Nat.sub_sub]
      · rintro ⟨k, q, h1, h2, h3, h4, h5⟩
        cases k with
        | zero =>
          simp only [List.getElem?_cons_zero, Option.some.injEq] at h1
          subst h1
          have := (List.getElem?_eq_some_iff.1 h5).1
          simp [before] at this
          omega
        | succ k =>
          refine ⟨k, q, by simpa using h1, by omega, h3, ?_, ?_⟩
          · simp only [before, List.take_succ_cons, List.map_cons, List.sum_cons] at h4 ⊢
            omega
          · simp only [before, List.take_succ_cons, List.map_cons, List.sum_cons] at h5 ⊢
            rwa [Nat.sub_sub]

theorem flat_get {L : List (StarRec D × List (TWave D × ℂ))} {i : Nat} {x : Nat × StarRec D × TWave D × ℂ} :
    (flat L)[i]? = some x ↔ ∃ p, L[x.1]? = some p ∧ x.2.1 = p.1 ∧ before L x.1 ≤ i ∧
      p.2[i - before L x.1]? = some x.2.2 := by
  have h := flatFrom_get 0 L i x
  have e : flatFrom 0 L = flat L := rfl
  rw [e] at h
  rw [h]
  constructor
  · rintro ⟨k, p, h1, h2, h3⟩
    have : k = x.1 := by omega
    subst this
    exact ⟨p, h1, h3⟩
  · rintro ⟨p, h1, h3⟩
    exact ⟨x.1, p, h1, by omega, h3⟩

theorem before_succ {L : List (StarRec D × List (TWave D × ℂ))} {k : Nat} {p : StarRec D × List (TWave D × ℂ)}
    (h : L[k]? = some p) : before L (k + 1) = before L k + p.2.length := by
  unfold before
  rw [List.take_add_one, h]
  simp

theorem before_length (L : List (StarRec D × List (TWave D × ℂ))) : before L L.length = (flat L).length := by
  unfold before flat
  rw [List.take_length]
  generalize 0 = n
  induction L generalizing n with
  | nil => simp
  | cons p L ih => simp [List.zipIdx_cons, ih (n + 1)]

/-- First wave of the star before star `k`. -/
def prevOf (prev : Option (TWave D)) (L : List (StarRec D × List (TWave D × ℂ))) : Nat → Option (TWave D)
  | 0 => prev
  | k + 1 => L[k]?.bind fun p => p.2.head?.map Prod.fst

/-- The star that `mkStars` makes. -/
def starAt (d : Fin D → Int) (b : Nat) (prev : Option (TWave D)) (p : StarRec D × List (TWave D × ℂ)) : Star :=
  let first := p.2.head?.map Prod.fst
  let root := if p.1.invertFlag = -1 then
      prev.bind fun w => (p.2.find? fun c => decide (c.1.dft = negSh d w.bz)).map Prod.fst
    else first
  { size := p.2.length, beginId := b, endId := b + p.2.length, invertFlag := p.1.invertFlag,
    waveBz := (root.map fun w => List.ofFn w.bz).getD [], starId := 0, basisId := -1, cancel := p.1.cancel }

theorem mkStars_at (d : Fin D → Int) : ∀ (L : List (StarRec D × List (TWave D × ℂ))) (b : Nat) (prev : Option (TWave D))
    (k : Nat), (mkStars d b prev L)[k]? = L[k]?.map (starAt d (b + before L k) (prevOf prev L k)) := by
  intro L
  induction L with
  | nil => intro b prev k; simp [mkStars]
  | cons p L ih =>
    intro b prev k
    cases k with
    | zero => simp [mkStars, starAt, before, prevOf]
    | succ k =>
      simp only [mkStars, List.getElem?_cons_succ]
      rw [ih]
      congr 2
      · simp only [before, List.take_succ_cons, List.map_cons, List.sum_cons]; omega
      · cases k <;> rfl

theorem mkStars_length (d : Fin D → Int) : ∀ (L : List (StarRec D × List (TWave D × ℂ))) (b : Nat) (prev : Option (TWave D)),
    (mkStars d b prev L).length = L.length := by
  intro L
  induction L with
  | nil => intro b prev; rfl
  | cons p L ih => intro b prev; simp [mkStars, ih]

theorem setBasisIds_at : ∀ (ss : List Star) (i j k : Nat) (s : Star), ss[k]? = some s → ∃ q : Int,
    (Basis.setBasisIds i j ss).1[k]? = some { s with starId := i + k, basisId := q } := by
  intro ss
  induction ss with
  | nil => intro i j k s h; simp at h
  | cons a ss ih =>
    intro i j k s h
    cases k with
    | zero =>
      simp only [List.getElem?_cons_zero, Option.some.injEq] at h
      subst h
      simp only [Basis.setBasisIds]
      split <;> exact ⟨_, rfl⟩
    | succ k =>
      simp only [List.getElem?_cons_succ] at h
      simp only [Basis.setBasisIds]
      split
      · obtain ⟨q, h1⟩ := ih (i + 1) j k s h
        refine ⟨q, ?_⟩
        simp only [List.getElem?_cons_succ]
        rw [h1, show i + 1 + k = i + (k + 1) by omega]
      · obtain ⟨q, h1⟩ := ih (i + 1) (j + 1) k s h
        refine ⟨q, ?_⟩
        simp only [List.getElem?_cons_succ]
        rw [h1, show i + 1 + k = i + (k + 1) by omega]

theorem setBasisIds_num : ∀ (ss : List Star) (i j : Nat),
    (Basis.setBasisIds i j ss).2.length = (ss.filter fun s => !s.cancel).length := by
  intro ss
  induction ss with
  | nil => intro i j; rfl
  | cons a ss ih =>
    intro i j
    simp only [Basis.setBasisIds]
    cases hc : a.cancel
    · simp [hc, ih]
    · simp [hc, ih]

theorem mkStars_num (d : Fin D → Int) : ∀ (L : List (StarRec D × List (TWave D × ℂ))) (b : Nat) (prev : Option (TWave D)),
    ((mkStars d b prev L).filter fun s => !s.cancel).length = (L.filter fun x => !x.1.cancel).length := by
  intro L
  induction L with
  | nil => intro b prev; rfl
  | cons p L ih =>
    intro b prev
    simp only [mkStars]
    cases hc : p.1.cancel
    · simp [hc, ih]
    · simp [hc, ih]

/-! ## The look-up table -/

theorem setImplicit_ok {dims : Mesh.IntVec} {m : Mesh.Mesh} (hm : Mesh.Mesh.setDimensions dims = some m) :
    ∀ (ws : List (Wave ℝ)) (i : Nat) (ids : List Nat), (∀ w ∈ ws, Mesh.InRange dims w.dft) → (ws.map Wave.dft).Nodup →
      ids.length = m.size.toNat → ∃ r, Basis.setImplicit m dims i ws ids = .ok r ∧
      (∀ (k : Nat) w, ws[k]? = some w → r.2[(m.rank w.dft).toNat]? = some (i + k)) ∧
      (∀ n, (∀ w ∈ ws, (m.rank w.dft).toNat ≠ n) → r.2[n]? = ids[n]?) := by
  obtain ⟨-, -, -, -, hrank⟩ := Mesh.C01_rank_position_bijection _ m hm
  intro ws
  induction ws with
  | nil =>
    intro i ids _ _ _
    exact ⟨_, rfl, by simp, fun n _ => rfl⟩
  | cons w ws ih =>
    intro i ids hr hn hl
    rw [List.map_cons, List.nodup_cons] at hn
    have hw := hr w (by simp)
    obtain ⟨a1, a2, a3⟩ := hrank _ hw
    have hst : FieldIo.store ids (m.rank w.dft) i = .ok (ids.set (m.rank w.dft).toNat i) := by
      unfold FieldIo.store
      rw [if_pos ⟨a1, by omega⟩]
    obtain ⟨r, h1, h2, h3⟩ := ih (i + 1) (ids.set (m.rank w.dft).toNat i) (fun x hx => hr x (by simp [hx])) hn.2 (by simpa using hl)
    refine ⟨({ w with implicit := Basis.isImplicit dims w.dft } :: r.1, r.2), ?_, ?_, ?_⟩
    · simp [Basis.setImplicit, Mesh.inMesh_iff.2 hw, hst, h1]
    · intro k w' hk
      cases k with
      | zero =>
        simp only [List.getElem?_cons_zero, Option.some.injEq] at hk
        subst hk
        show r.2[_]? = _
        rw [h3]
        · rw [List.getElem?_set_self (by omega)]; rfl
        · intro x hx e
          obtain ⟨b1, b2, b3⟩ := hrank _ (hr x (by simp [hx]))
          have e2 : m.rank x.dft = m.rank w.dft := by omega
          rw [e2, a3] at b3
          exact hn.1 (List.mem_map.2 ⟨x, hx, b3.symm⟩)
      | succ k =>
        have := h2 k w' (by simpa using hk)
        rwa [show i + 1 + k = i + (k + 1) by omega] at this
    · intro n hne
      show r.2[n]? = _
      rw [h3 n fun x hx => hne x (by simp [hx]), List.getElem?_set_ne (hne w (by simp))]

/-! ## `isValid` answers yes -/

theorem isValid_of_checked {c : Cell ℝ} {eps : ℝ} {b : BasisData ℝ} {m : Mesh.Mesh} (C : Basis.Checked c eps b m) :
    Basis.isValid c eps b = .ok true := by
  have hm : b.mesh = .ok m := by
    unfold Basis.BasisData.mesh
    rw [C.hmesh]
  have h1 : Basis.loopAll (Basis.checkPoint b m) ((List.range m.size.toNat).map fun r : Nat => m.position (r : Int)) = .ok true := by
    rw [Basis.loopAll_true]
    intro v hv
    obtain ⟨r, hr, rfl⟩ := List.mem_map.1 hv
    exact C.hpoint r (List.mem_range.1 hr)
  have h2 : Basis.loopAll (Basis.checkWave c eps b m) ((List.range b.waves.length).zip b.waves) = .ok true := by
    rw [Basis.loopAll_true]
    rintro ⟨i, w⟩ h
    exact C.hwave i w (Basis.mem_zip_range.1 h)
  have h3 : Basis.loopAll (Basis.checkStar c eps b) ((List.range b.stars.length).zip b.stars) = .ok true := by
    rw [Basis.loopAll_true]
    rintro ⟨i, w⟩ h
    exact C.hstar i w (Basis.mem_zip_range.1 h)
  have h4 : Basis.loopAll (Basis.checkBasis b) (List.range b.nBasis) = .ok true := by
    rw [Basis.loopAll_true]
    intro i hi
    exact C.hbasis i (List.mem_range.1 hi)
  obtain ⟨e, he, hl⟩ := C.hlast
  have hpos : 0 < b.stars.length := by
    have := (List.getElem?_eq_some_iff.1 he).1
    omega
  have h5 : Basis.getI b.stars ((b.stars.length : Int) - 1) = .ok e := by
    rw [Basis.getI_ok]
    refine ⟨by omega, ?_⟩
    rwa [show ((b.stars.length : Int) - 1).toNat = b.stars.length - 1 by omega]
  unfold Basis.isValid
  simp [hm, C.hcount, h1, h2, h3, h5, hl, C.hsum, C.hpairs, h4]

theorem checkPairs_of_paired {eps : ℝ} {b : BasisData ℝ} {l : List Star} (hp : Basis.Paired l) : ∀ is : Nat,
    (∀ (k : Nat) s, l[k]? = some s → s.invertFlag = 0 → ∀ i ∈ s.ids, Basis.checkInverse eps b (is + k) s.cancel i = .ok true) →
    (∀ (k : Nat) s, l[k]? = some s → s.invertFlag = 1 → ∀ i ∈ s.ids, Basis.checkInverse eps b (is + k + 1) s.cancel i = .ok true) →
    Basis.checkPairs eps b is l = .ok true := by
  induction hp with
  | nil => intro is _ _; rfl
  | closed s rest h0 _ ih =>
    intro is q1 q2
    have h1 : Basis.loopAll (Basis.checkInverse eps b is s.cancel) (List.range' s.beginId (s.endId - s.beginId)) = .ok true := by
      rw [Basis.loopAll_true]
      exact q1 0 s rfl h0
    have h2 := ih (is + 1) (fun k x hx => by
      rw [show is + 1 + k = is + (k + 1) by omega]; exact q1 (k + 1) x (by simpa using hx)) (fun k x hx => by
      rw [show is + 1 + k + 1 = is + (k + 1) + 1 by omega]; exact q2 (k + 1) x (by simpa using hx))
    rw [Basis.checkPairs.eq_def]
    simp [h0, h1, h2]
  | opened s t rest h0 h1 h2 h3 _ ih =>
    intro is q1 q2
    have h4 : Basis.loopAll (Basis.checkInverse eps b (is + 1) s.cancel) (List.range' s.beginId (s.endId - s.beginId)) = .ok true := by
      rw [Basis.loopAll_true]
      exact q2 0 s rfl h0
    have h5 := ih (is + 2) (fun k x hx => by
      rw [show is + 2 + k = is + (k + 2) by omega]; exact q1 (k + 2) x (by simpa using hx)) (fun k x hx => by
      rw [show is + 2 + k + 1 = is + (k + 2) + 1 by omega]; exact q2 (k + 2) x (by simpa using hx))
    rw [Basis.checkPairs.eq_def]
    simp [h0, h1, h2, h3, h4, h5]

/-! ## Stars by index -/

theorem Phased.at {E : StarEnv D} {L : List (StarRec D × List (TWave D × ℂ))} (h : Phased E L) :
    ∀ (k : Nat) p, L[k]? = some p →
      (p.1.invertFlag = 0 ∧ ∃ w ∈ p.1.waves, w.dft = negSh E.dims p.1.root.bz) ∨
      (p.1.invertFlag = 1 ∧ ∃ u, L[k + 1]? = some u ∧ u.1.invertFlag = -1 ∧ u.1.root.dft = negSh E.dims p.1.root.bz) ∨
      (p.1.invertFlag = -1 ∧ ∃ k' q, k = k' + 1 ∧ L[k']? = some q ∧ q.1.invertFlag = 1 ∧
        p.1.root.dft = negSh E.dims q.1.root.bz) := by
  induction h with
  | nil => simp
  | closed s cs l h0 hc hcl hx _ ih =>
    intro k p hk
    cases k with
    | zero =>
      simp only [List.getElem?_cons_zero, Option.some.injEq] at hk
      subst hk
      exact Or.inl ⟨h0, hcl⟩
    | succ k =>
      rcases ih k p (by simpa using hk) with h | ⟨h, u, h1⟩ | ⟨h, k', q, rfl, h1⟩
      · exact Or.inl h
      · exact Or.inr (Or.inl ⟨h, u, by simpa using h1⟩)
      · exact Or.inr (Or.inr ⟨h, k' + 1, q, rfl, by simpa using h1⟩)
  | pair s cs u cs2 l h0 h1 hc hc2 hcc hr hx _ ih =>
    intro k p hk
    match k with
    | 0 =>
      simp only [List.getElem?_cons_zero, Option.some.injEq] at hk
      subst hk
      exact Or.inr (Or.inl ⟨h0, _, rfl, h1, hr⟩)
    | 1 =>
      simp only [List.getElem?_cons_succ, List.getElem?_cons_zero, Option.some.injEq] at hk
      subst hk
      exact Or.inr (Or.inr ⟨h1, 0, _, rfl, rfl, h0, hr⟩)
    | k + 2 =>
      rcases ih k p (by simpa using hk) with h | ⟨h, u, h1⟩ | ⟨h, k', q, rfl, h1⟩
      · exact Or.inl h
      · exact Or.inr (Or.inl ⟨h, u, by simpa using h1⟩)
      · exact Or.inr (Or.inr ⟨h, k' + 2, q, rfl, by simpa using h1⟩)

theorem Phased.paired {E : StarEnv D} (G : GroupOn E.dims E.group) (htol : 0 ≤ E.tol)
    {L : List (StarRec D × List (TWave D × ℂ))} (h : Phased E L) :
    ∀ (b i j : Nat) prev, Basis.Paired (Basis.setBasisIds i j (mkStars E.dims b prev L)).1 := by
  induction h with
  | nil => intro b i j prev; exact .nil
  | closed s cs l h0 hc hcl hx _ ih =>
    intro b i j prev
    simp only [mkStars, Basis.setBasisIds]
    split
    · exact .closed _ _ h0 (ih _ _ _ _)
    · exact .closed _ _ h0 (ih _ _ _ _)
  | pair s cs u cs2 l h0 h1 hc hc2 hcc hr hx _ ih =>
    intro b i j prev
    have hlen : cs2.length = cs.length := by
      have e1 : cs.length = s.waves.length := by
        rw [← (sortBz_perm s.waves).length_eq, ← hc.fst, List.length_map]
      have e2 : cs2.length = u.waves.length := by
        rw [← (sortBz_perm u.waves).length_eq, ← hc2.fst, List.length_map]
      rw [e1, e2]
      exact (pair_length G htol hc.built hc2.built (by rw [← hc2.root, hr]; rfl)).symm
    simp only [mkStars, Basis.setBasisIds]
    rw [hcc]
    cases hcs : s.cancel
    · exact .opened _ _ _ h0 h1 hlen (by simp) (ih _ _ _ _)
    · exact .opened _ _ _ h0 h1 hlen (by simp) (ih _ _ _ _)

theorem Coefs.bz {E : StarEnv D} {near : (Fin D → Int) → Prop} (H : CellOn E near) (G : GroupOn E.dims E.group) {s : StarRec D} {cs : List (TWave D × ℂ)}
    (htol : 0 ≤ E.tol) (h : Coefs E s cs) {u : Fin D → Int} (hu : near u) (hr : s.root.bz = E.minIm u)
    {c : TWave D × ℂ} (hc : c ∈ cs) (hi : sh E.dims (fun i => - c.1.dft i) ≠ c.1.dft) : c.1.bz = E.minIm c.1.dft := by
  obtain ⟨A, hA, e, -, e3⟩ := (Stars.buildStar_inv htol h.built).src _ (h.mem hc)
  rw [e3, e]
  refine (H.canon _ _ (H.mesh _) (hr ▸ H.turn A hA u hu) (Stars.sh_sh G.pos _) ?_).symm
  rw [e] at hi
  rwa [Stars.sh_sh G.pos]

/-- A star contains a wave of every class in the orbit of its root. -/
theorem Coefs.orbit {E : StarEnv D} {s : StarRec D} {cs : List (TWave D × ℂ)}
    (htol : 0 ≤ E.tol) (h : Coefs E s cs) {v : Fin D → Int} : (∃ c ∈ cs, c.1.dft = sh E.dims v) ↔ InOrbit E s.root.bz v := by
  rw [← star_orbit htol h.built]
  constructor
  · rintro ⟨c, hc, e⟩
    exact ⟨c.1, h.mem hc, e⟩
  · rintro ⟨w, hw, e⟩
    have : w ∈ cs.map Prod.fst := by rw [h.fst]; exact (sortBz_perm _).mem_iff.2 hw
    obtain ⟨c, hc, rfl⟩ := List.mem_map.1 this
    exact ⟨c, hc, e⟩

/-- The inverse of a wave of a closed star is in the star; that of a wave of an open star is in the
other star of the pair. -/
theorem Coefs.neg_closed {E : StarEnv D} (G : GroupOn E.dims E.group) {s : StarRec D} {cs : List (TWave D × ℂ)}
    (htol : 0 ≤ E.tol) (h : Coefs E s cs) (hcl : ∃ w ∈ s.waves, w.dft = negSh E.dims s.root.bz) {v : Fin D → Int}
    (hv : ∃ c ∈ cs, c.1.dft = sh E.dims v) : ∃ c ∈ cs, c.1.dft = negSh E.dims v := by
  rw [h.orbit htol] at hv
  have h1 : InOrbit E s.root.bz (fun i => - s.root.bz i) := (star_orbit htol h.built _).1 hcl
  exact (h.orbit htol).2 (h1.trans G (hv.neg G))

theorem Coefs.neg_pair {E : StarEnv D} (G : GroupOn E.dims E.group) {s u : StarRec D} {cs cs2 : List (TWave D × ℂ)}
    (htol : 0 ≤ E.tol) (h : Coefs E s cs) (h2 : Coefs E u cs2) (hr : u.root.dft = negSh E.dims s.root.bz) {v : Fin D → Int}
    (hv : ∃ c ∈ cs, c.1.dft = sh E.dims v) : ∃ c ∈ cs2, c.1.dft = negSh E.dims v := by
  rw [h.orbit htol] at hv
  have h1 : InOrbit E u.root.bz (fun i => - s.root.bz i) :=
    (InOrbit.refl G _).of_sh (by rw [← h2.root, hr]; rfl)
  exact (h2.orbit htol).2 (h1.trans G (hv.neg G))

/-! ## The order within a star -/

theorem bzGe_iff {a b : TWave D} : bzGe a b = true ↔ Mesh.LexLt (List.ofFn b.bz) (List.ofFn a.bz) ∨ List.ofFn b.bz = List.ofFn a.bz := by
  unfold bzGe Mesh.vecGt
  rw [Bool.not_not, Mesh.vecLe_iff (by simp)]

theorem sortBz_sorted (l : List (TWave D)) : (sortBz l).Pairwise fun a b => bzGe a b = true := by
  unfold sortBz
  apply List.pairwise_mergeSort
  · intro a b c h1 h2
    rw [bzGe_iff] at h1 h2 ⊢
    rcases h1 with h1 | h1 <;> rcases h2 with h2 | h2
    · exact Or.inl (h2.trans h1)
    · exact Or.inl (h2 ▸ h1)
    · exact Or.inl (h1 ▸ h2)
    · exact Or.inr (h2.trans h1)
  · intro a b
    rw [Bool.or_eq_true, bzGe_iff, bzGe_iff]
    rcases Mesh.LexLt.trichotomy (p := List.ofFn a.bz) (q := List.ofFn b.bz) (by simp) with h | h | h
    · exact Or.inr (Or.inl h)
    · exact Or.inl (Or.inr h.symm)
    · exact Or.inl (Or.inl h)

/-! ## Indices of inverses -/

theorem inverseIdx_of_get {d : Fin D → Int} {F : List (Nat × StarRec D × TWave D × ℂ)} (hn : (F.map fun x => x.2.2.1.dft).Nodup)
    {bz : Fin D → Int} {j : Nat} {x : Nat × StarRec D × TWave D × ℂ} (hx : F[j]? = some x) (h : x.2.2.1.dft = negSh d bz) :
    inverseIdx d F bz = j := by
  unfold inverseIdx
  cases hf : F.findIdx? (fun x => decide (x.2.2.1.dft = negSh d bz)) with
  | none =>
    rw [List.findIdx?_eq_none_iff] at hf
    have := hf x (List.mem_of_getElem? hx)
    simp [h] at this
  | some i =>
    rw [List.findIdx?_eq_some_iff_getElem] at hf
    obtain ⟨h1, h2, -⟩ := hf
    obtain ⟨h3, h4⟩ := List.getElem?_eq_some_iff.1 hx
    have e : (F.map fun x => x.2.2.1.dft)[i]'(by simpa using h1) = (F.map fun x => x.2.2.1.dft)[j]'(by simpa using h3) := by
      rw [List.getElem_map, List.getElem_map, h4, h]
      simpa using h2
    have := (List.Nodup.getElem_inj_iff hn).1 e
    simp [this]

theorem lastOf_fn {m : Nat} (v : Fin (m + 1) → Int) : Basis.lastOf (List.ofFn v) = v (Fin.last m) := by
  unfold Basis.lastOf
  rw [List.getLast?_eq_getElem?]
  simp [-List.ofFn_succ, Fin.last]

theorem implicit_not_both {m : Nat} {d : Fin (m + 1) → Int} (hd : ∀ i, 0 < d i) (v : Fin (m + 1) → Int) :
    ¬ (Basis.isImplicit (List.ofFn d) (List.ofFn (sh d v)) = true ∧
      Basis.isImplicit (List.ofFn d) (List.ofFn (negSh d v)) = true) := by
  unfold Basis.isImplicit
  rw [lastOf_fn, lastOf_fn, lastOf_fn, decide_eq_true_eq, decide_eq_true_eq]
  rintro ⟨h1, h2⟩
  have hp := hd (Fin.last m)
  have r1 := sh_range hd v (Fin.last m)
  have r2 := sh_range hd (fun i => - v i) (Fin.last m)
  have h2' : sh d (fun i => - v i) (Fin.last m) + 1 > (d (Fin.last m)).tdiv 2 + 1 := h2
  obtain ⟨a, ha⟩ := (Stars.sh_iff hd (sh d v) v).1 (Stars.sh_sh hd v) (Fin.last m)
  obtain ⟨b, hb⟩ := (Stars.sh_iff hd (sh d fun i => - v i) _).1 (Stars.sh_sh hd fun i => - v i) (Fin.last m)
  have e : (d (Fin.last m)).tdiv 2 = d (Fin.last m) / 2 := Int.tdiv_eq_ediv_of_nonneg hp.le
  rw [e] at h1 h2'
  generalize sh d v (Fin.last m) = x at *
  generalize sh d (fun i => - v i) (Fin.last m) = y at *
  generalize d (Fin.last m) = n at *
  have hsum : x + y = n * (a + b) := by
    have : x + y = (x - v (Fin.last m)) + (y - - v (Fin.last m)) := by ring
    rw [this, ha, hb]; ring
  have h3 : n < x + y := by omega
  have h4 : x + y < 2 * n := by omega
  rw [hsum] at h3 h4
  have h5 : 1 < a + b := by by_contra h; nlinarith
  have h6 : a + b < 2 := by by_contra h; nlinarith
  omega

theorem coef_conj {E : StarEnv D} {L : List (StarRec D × List (TWave D × ℂ))} (htol : 0 ≤ E.tol)
    (hmin : ∀ v, sh E.dims (E.minIm v) = sh E.dims v) (P : Phased E L) {k k' : Nat} {s s' : StarRec D}
    {cs cs' : List (TWave D × ℂ)} (hk : L[k]? = some (s, cs)) (hk' : L[k']? = some (s', cs'))
    (hl : ∀ v, (starRingEnd ℂ) (Stars.look E.dims cs' fun i => - v i) = Stars.look E.dims cs v)
    {c c' : TWave D × ℂ} (hc : c ∈ cs) (hc' : c' ∈ cs') (e : c'.1.dft = negSh E.dims c.1.bz) :
    Cx.conj (⟨c'.2.re, c'.2.im⟩ : Cx ℝ) = ⟨c.2.re, c.2.im⟩ := by
  have C := P.coefs _ (List.mem_of_getElem? hk)
  have C' := P.coefs _ (List.mem_of_getElem? hk')
  have h3 := hl c.1.bz
  rw [look_mem (C'.nodup htol) hc' e, look_mem (C.nodup htol) hc (C.dft htol hmin hc)] at h3
  have r1 := congrArg Complex.re h3
  have r2 := congrArg Complex.im h3
  simp only [Complex.conj_re, Complex.conj_im] at r1 r2
  ext
  · exact r1
  · exact r2

/-! ## The whole array -/

/-- The waves of all stars are the waves of the mesh. -/
theorem flat_perm {E : StarEnv D} {L : List (StarRec D × List (TWave D × ℂ))} (P : Phased E L) {ws : List (TWave D)}
    (h : (ws.map TWave.dft).Perm ((L.map Prod.fst).flatMap fun s => s.waves.map TWave.dft)) :
    (ws.map TWave.dft).Perm ((flat L).map fun x => x.2.2.1.dft) := by
  have hC := P.coefs
  refine h.trans ?_
  clear h
  have key : ∀ (L : List (StarRec D × List (TWave D × ℂ))) (n : Nat), (∀ p ∈ L, Coefs E p.1 p.2) →
      ((L.map Prod.fst).flatMap fun s => s.waves.map TWave.dft).Perm ((flatFrom n L).map fun x => x.2.2.1.dft) := by
    intro L
    induction L with
    | nil => intro n _; simp [flatFrom]
    | cons p L ih =>
      intro n hC
      rw [flatFrom_cons, List.map_append, List.map_cons, List.flatMap_cons]
      refine List.Perm.append ?_ (ih (n + 1) fun q hq => hC q (by simp [hq]))
      have h1 := (hC p (by simp)).fst
      rw [List.map_map]
      have e : (p.2.map ((fun x : Nat × StarRec D × TWave D × ℂ => x.2.2.1.dft) ∘ fun c => (n, p.1, c))) =
          (p.2.map Prod.fst).map TWave.dft := by simp [Function.comp_def]
      rw [e, h1]
      exact (sortBz_perm _).symm.map _
  exact key L 0 hC

/-! ## The last loops and `isValid` -/

/-- Wave of the array `waves_` after the last loops. -/
noncomputable def waveOf (E : StarEnv D) (F : List (Nat × StarRec D × TWave D × ℂ)) (x : Nat × StarRec D × TWave D × ℂ) : Wave ℝ :=
  { toWave E F x with implicit := Basis.isImplicit (List.ofFn E.dims) (List.ofFn x.2.2.1.dft) }

theorem finish_ok {n : Nat} {E : StarEnv (n + 1)} (G : GroupOn E.dims E.group) (htol : 0 ≤ E.tol) {near : (Fin (n + 1) → Int) → Prop} (H : CellOn E near)
    {m : Mesh.Mesh} (hm : Mesh.Mesh.setDimensions (List.ofFn E.dims) = some m) {ws : List (TWave (n + 1))}
    (W : WavesInv E ws) (hlen : (ws.length : Int) = m.size)
    {L : List (StarRec (n + 1) × List (TWave (n + 1) × ℂ))} (P : Phased E L)
    (S : StarsOf E ws (L.map Prod.fst)) : ∃ b, Basis.finish (cellOf E) (E.epsilon : ℝ) (assemble E L) = .ok b := by
  obtain ⟨-, -, -, hpos, hrank⟩ := Mesh.C01_rank_position_bijection _ m hm
  have hperm := flat_perm P S.perm
  have hdims : m.dims = List.ofFn E.dims := by rw [(Mesh.setDimensions_some hm).2.2]
  have hn : ((flat L).map fun x => x.2.2.1.dft).Nodup := hperm.nodup_iff.1 W.nodup
  have hF : ((flat L).length : Int) = m.size := by
    rw [← hlen]
    have := hperm.length_eq
    simp only [List.length_map] at this
    rw [this]
  have hsize : (flat L).length = m.size.toNat := by omega
  have hC : ∀ (i : Nat) x, (flat L)[i]? = some x → ∃ cs, L[x.1]? = some (x.2.1, cs) ∧ x.2.2 ∈ cs ∧ Coefs E x.2.1 cs := by
    intro i x hx
    obtain ⟨cs, h1, h2⟩ := mem_flat.1 (List.mem_of_getElem? hx)
    exact ⟨cs, h1, h2, P.coefs _ (List.mem_of_getElem? h1)⟩
  have hdft : ∀ (i : Nat) x, (flat L)[i]? = some x → x.2.2.1.dft = sh E.dims x.2.2.1.bz := by
    intro i x hx
    obtain ⟨cs, -, h2, h3⟩ := hC i x hx
    exact h3.dft htol H.cong h2
  have hinj : ∀ {i j : Nat} {x y}, (flat L)[i]? = some x → (flat L)[j]? = some y → x.2.2.1.dft = y.2.2.1.dft → i = j := by
    intro i j x y hx hy e
    obtain ⟨h3, h4⟩ := List.getElem?_eq_some_iff.1 hx
    obtain ⟨h3', h4'⟩ := List.getElem?_eq_some_iff.1 hy
    refine (List.Nodup.getElem_inj_iff hn (hi := by simpa using h3) (hj := by simpa using h3')).1 ?_
    rw [List.getElem_map, List.getElem_map, h4, h4', e]
  have hall : ∀ v, ∃ (i : Nat) (x : Nat × StarRec (n + 1) × TWave (n + 1) × ℂ), (flat L)[i]? = some x ∧ x.2.2.1.dft = sh E.dims v := by
    intro v
    obtain ⟨w, hw, e⟩ := W.all v
    have h1 := hperm.mem_iff.1 (List.mem_map_of_mem (f := TWave.dft) hw)
    obtain ⟨x, hx, e2⟩ := List.mem_map.1 h1
    obtain ⟨i, hi⟩ := List.mem_iff_getElem?.1 hx
    exact ⟨i, x, hi, e2.trans e⟩
  have hnear : ∀ w ∈ ws, near w.dft := by
    intro w hw
    rw [← sh_of_range G.pos (W.range w hw)]
    exact H.mesh _
  -- the table
  obtain ⟨r, hr, hids, -⟩ := setImplicit_ok hm ((flat L).map (toWave E (flat L))) 0 (List.replicate (flat L).length 0) (by
      intro w hw
      obtain ⟨x, hx, rfl⟩ := List.mem_map.1 hw
      obtain ⟨i, hi⟩ := List.mem_iff_getElem?.1 hx
      refine inRange_fn.2 ⟨_, rfl, ?_⟩
      rw [hdft i x hi]
      exact sh_range G.pos _) (by
      rw [List.map_map]
      have e : (Wave.dft ∘ toWave E (flat L)) = (fun v => List.ofFn v) ∘ fun x : Nat × StarRec (n + 1) × TWave (n + 1) × ℂ => x.2.2.1.dft := rfl
      rw [e, ← List.map_map]
      exact hn.map List.ofFn_injective) (by simpa using hsize)
  have hwv := setImplicit_get _ _ _ _ hr
  set b : BasisData ℝ := { assemble E L with
    waves := r.1, waveIds := r.2, stars := (Basis.setBasisIds 0 0 (mkStars E.dims 0 none L)).1,
    starIds := (Basis.setBasisIds 0 0 (mkStars E.dims 0 none L)).2 } with hb
  have hwave : ∀ i : Nat, b.waves[i]? = (flat L)[i]?.map (waveOf E (flat L)) := by
    intro i
    show r.1[i]? = _
    rw [hwv, List.map_map, List.getElem?_map]
    rfl
  have hbl : b.waves.length = (flat L).length := by
    show r.1.length = _
    rw [hwv]; simp
  have hstar : ∀ (k : Nat) p, L[k]? = some p → ∃ q : Int, b.stars[k]? =
      some { starAt E.dims (before L k) (prevOf none L k) p with starId := k, basisId := q } := by
    intro k p hp
    obtain ⟨q, hq⟩ := setBasisIds_at (mkStars E.dims 0 none L) 0 0 k _ (by rw [mkStars_at, hp]; rfl)
    refine ⟨q, ?_⟩
    simp only [Nat.zero_add] at hq
    exact hq
  have hsl : b.stars.length = L.length := by
    show (Basis.setBasisIds 0 0 (mkStars E.dims 0 none L)).1.length = _
    rw [Basis.setBasisIds_length, mkStars_length]
  have hstar' : ∀ (k : Nat) s, b.stars[k]? = some s → ∃ p, ∃ q : Int, L[k]? = some p ∧
      s = { starAt E.dims (before L k) (prevOf none L k) p with starId := k, basisId := q } := by
    intro k s hs
    have h1 : k < L.length := by rw [← hsl]; exact (List.getElem?_eq_some_iff.1 hs).1
    obtain ⟨q, hq⟩ := hstar k _ (List.getElem?_eq_getElem h1)
    rw [hs] at hq
    exact ⟨_, q, List.getElem?_eq_getElem h1, Option.some.inj hq⟩
  have hflat : ∀ (k : Nat) p, L[k]? = some p → ∀ (i : Nat), before L k ≤ i → i < before L k + p.2.length →
      ∃ c, p.2[i - before L k]? = some c ∧ (flat L)[i]? = some (k, p.1, c) := by
    intro k p hp i h1 h2
    have h3 : i - before L k < p.2.length := by omega
    refine ⟨_, List.getElem?_eq_getElem h3, ?_⟩
    rw [flat_get]
    exact ⟨p, hp, rfl, h1, List.getElem?_eq_getElem h3⟩
  have hinv : ∀ (i : Nat) x, (flat L)[i]? = some x → ∃ (j : Nat) (y : _), (flat L)[j]? = some y ∧ y.2.2.1.dft = negSh E.dims x.2.2.1.bz ∧
      inverseIdx E.dims (flat L) x.2.2.1.bz = j ∧ inverseIdx E.dims (flat L) y.2.2.1.bz = i := by
    intro i x hx
    obtain ⟨j, y, hy, e⟩ := hall fun t => - x.2.2.1.bz t
    refine ⟨j, y, hy, e, inverseIdx_of_get hn hy e, inverseIdx_of_get hn hx ?_⟩
    have e2 := hdft j y hy
    rw [hdft i x hx]
    have e3 : sh E.dims y.2.2.1.bz = sh E.dims fun t => - x.2.2.1.bz t := by rw [← e2, e]
    have h4 := Stars.sh_neg G.pos e3
    simp only [neg_neg] at h4
    exact h4.symm
  -- inverse waves are in the right star with the conjugate coefficient
  have hinvs : ∀ (k k' : Nat) p p', L[k]? = some p → L[k']? = some p' →
      (∀ v, (∃ c ∈ p.2, c.1.dft = sh E.dims v) → ∃ c ∈ p'.2, c.1.dft = negSh E.dims v) →
      (p.1.cancel = false → ∀ v, (starRingEnd ℂ) (Stars.look E.dims p'.2 fun i => - v i) = Stars.look E.dims p.2 v) →
      ∀ i, before L k ≤ i → i < before L k + p.2.length →
        Basis.checkInverse (E.epsilon : ℝ) b k' p.1.cancel i = .ok true := by
    rintro k k' ⟨s, cs⟩ ⟨s', cs'⟩ hk hk' hnc hcj i h1 h2
    obtain ⟨c, h3, h4⟩ := hflat k _ hk i h1 h2
    have hc : c ∈ cs := List.mem_of_getElem? h3
    obtain ⟨j, y, hy, e, ei, -⟩ := hinv i _ h4
    obtain ⟨c', hc', e'⟩ := hnc c.1.bz ⟨c, hc, hdft i _ h4⟩
    obtain ⟨j', hj'⟩ := List.mem_iff_getElem?.1 (mem_flat (x := (k', s', c')).2 ⟨cs', hk', hc'⟩)
    have hjj := hinj hy hj' (e.trans e'.symm)
    subst hjj
    rw [hy] at hj'
    have hy' := Option.some.inj hj'
    subst hy'
    have g1 : Basis.get b.waves i = .ok (waveOf E (flat L) (k, s, c)) := by
      rw [Basis.get_ok, hwave, h4]; rfl
    have g2 : Basis.getI b.waves (waveOf E (flat L) (k, s, c)).inverseId = .ok (waveOf E (flat L) (k', s', c')) := by
      rw [Basis.getI_ok]
      have : (waveOf E (flat L) (k, s, c)).inverseId = (j : Int) := ei
      rw [this]
      refine ⟨by omega, ?_⟩
      rw [Int.toNat_natCast, hwave, hy]; rfl
    unfold Basis.checkInverse
    simp only [g1, g2, Res.ok_bind]
    have g3 : (waveOf E (flat L) (k', s', c')).starId = k' := rfl
    rw [g3]
    simp only [bne_self_eq_false, Bool.false_eq_true, if_false]
    cases hcan : s.cancel with
    | true => simp
    | false =>
      have g4 : Cx.conj (waveOf E (flat L) (k', s', c')).coeff = (waveOf E (flat L) (k, s, c)).coeff :=
        coef_conj htol H.cong P hk hk' (hcj hcan) hc hc' e'
      rw [g4]
      simp [Cx.normSq, mul_self_nonneg]
  have hpairs : Basis.checkPairs (E.epsilon : ℝ) b 0 b.stars = .ok true := by
    refine checkPairs_of_paired (P.paired G htol 0 0 0 none) 0 ?_ ?_
    · intro k s hs hf i hi
      obtain ⟨⟨s0, cs⟩, q, hp, rfl⟩ := hstar' k s hs
      have hf' : s0.invertFlag = 0 := hf
      have C := P.coefs _ (List.mem_of_getElem? hp)
      have hcl : ∃ w ∈ s0.waves, w.dft = negSh E.dims s0.root.bz := by
        rcases P.at k _ hp with h | h | h
        · exact h.2
        · rw [hf'] at h; exact absurd h.1 (by decide)
        · rw [hf'] at h; exact absurd h.1 (by decide)
      rw [Nat.zero_add]
      unfold Basis.Star.ids at hi
      rw [List.mem_range'_1] at hi
      have hi2 : i < before L k + (before L k + cs.length - before L k) := hi.2
      exact hinvs k k _ _ hp hp (fun v hv => C.neg_closed G htol hcl hv) ((P.conj k s0 cs hp).1 hf') i hi.1 (show i < before L k + cs.length by omega)
    · intro k s hs hf i hi
      obtain ⟨⟨s0, cs⟩, q, hp, rfl⟩ := hstar' k s hs
      have hf' : s0.invertFlag = 1 := hf
      have C := P.coefs _ (List.mem_of_getElem? hp)
      obtain ⟨u, cs2, h4, -, -, h5⟩ := (P.conj k s0 cs hp).2 hf'
      have hr' : u.root.dft = negSh E.dims s0.root.bz := by
        rcases P.at k _ hp with h | ⟨-, u', h6, -, h7⟩ | h
        · rw [hf'] at h; exact absurd h.1 (by decide)
        · rw [h4] at h6
          cases h6
          exact h7
        · rw [hf'] at h; exact absurd h.1 (by decide)
      rw [Nat.zero_add]
      unfold Basis.Star.ids at hi
      rw [List.mem_range'_1] at hi
      have hi2 : i < before L k + (before L k + cs.length - before L k) := hi.2
      exact hinvs k (k + 1) _ _ hp h4
        (fun v hv => C.neg_pair G htol (P.coefs _ (List.mem_of_getElem? h4)) hr' hv) h5 i hi.1 (show i < before L k + cs.length by omega)
  have hnum : (Basis.setBasisIds 0 0 (mkStars E.dims 0 none L)).2.length = (assemble E L).nBasis := by
    rw [setBasisIds_num, mkStars_num]; rfl
  have hLne : 0 < L.length := by
    obtain ⟨i, x, hx, -⟩ := hall 0
    obtain ⟨cs, h1, -⟩ := hC i x hx
    have := (List.getElem?_eq_some_iff.1 h1).1
    omega
  have hlast : ∃ e, b.stars[b.stars.length - 1]? = some e ∧ (e.endId : Int) = m.size := by
    rw [hsl]
    have h1 : L[L.length - 1]? = some (L[L.length - 1]'(by omega)) := List.getElem?_eq_getElem _
    obtain ⟨q, hq⟩ := hstar _ _ h1
    refine ⟨_, hq, ?_⟩
    show ((before L (L.length - 1) + _ : Nat) : Int) = _
    rw [← before_succ h1, show L.length - 1 + 1 = L.length by omega, before_length, hF]
  have hsum : (((b.stars.map (·.size)).sum : Nat) : Int) = m.size := by
    have e : b.stars.map (·.size) = L.map fun p => p.2.length := by
      apply List.ext_getElem?
      intro k
      rw [List.getElem?_map, List.getElem?_map]
      cases hk : L[k]? with
      | none =>
        have : b.stars[k]? = none := by
          rw [List.getElem?_eq_none_iff] at hk ⊢
          omega
        rw [this]; rfl
      | some p =>
        obtain ⟨q, hq⟩ := hstar k p hk
        rw [hq]; rfl
    rw [e, ← hF, ← before_length]
    unfold before
    rw [List.take_length]
  have hbasis : ∀ ib < b.nBasis, Basis.checkBasis b ib = .ok true := by
    intro ib hib
    have h1 : ib < b.starIds.length := by
      show ib < (Basis.setBasisIds 0 0 (mkStars E.dims 0 none L)).2.length
      rw [hnum]; exact hib
    have h2 : b.starIds[ib]? = some (b.starIds[ib]'h1) := List.getElem?_eq_getElem h1
    obtain ⟨k, s, e, hs, hc, hbi⟩ := (Basis.setBasisIds_table 0 0 _ _ _).1 h2
    rw [e, Nat.zero_add] at h2
    have g1 : Basis.get b.starIds ib = .ok k := by rw [Basis.get_ok]; exact h2
    have g2 : Basis.get b.stars k = .ok s := by rw [Basis.get_ok]; exact hs
    unfold Basis.checkBasis
    simp [g1, g2, hc, hbi]
  have hpoint : ∀ t < m.size.toNat, Basis.checkPoint b m (m.position t) = .ok true := by
    intro t ht
    have h1 := (hpos t (by omega) (by omega))
    obtain ⟨f, ef, hf⟩ := inRange_fn.1 h1.1
    obtain ⟨i, x, hx, e⟩ := hall f
    rw [sh_of_range G.pos hf] at e
    have h2 := hids i (toWave E (flat L) x) (by rw [List.getElem?_map, hx]; rfl)
    have e2 : (toWave E (flat L) x).dft = m.position t := by
      rw [ef]
      show List.ofFn x.2.2.1.dft = _
      rw [e]
    rw [e2, Nat.zero_add] at h2
    have g1 : Basis.getI b.waveIds (m.rank (m.position t)) = .ok i := by
      rw [Basis.getI_ok]
      exact ⟨by rw [h1.2]; omega, h2⟩
    have g2 : Basis.get b.waves i = .ok (waveOf E (flat L) x) := by
      rw [Basis.get_ok, hwave, hx]; rfl
    unfold Basis.checkPoint
    rw [g1]
    simp only [Res.ok_bind, g2]
    have g3 : (waveOf E (flat L) x).dft = m.position t := e2
    simp [g3]
  have hcw : ∀ (i : Nat) w, b.waves[i]? = some w → Basis.checkWave (cellOf E) (E.epsilon : ℝ) b m (i, w) = .ok true := by
    intro i w hw
    rw [hwave, Option.map_eq_some_iff] at hw
    obtain ⟨x, hx, rfl⟩ := hw
    obtain ⟨cs, hL, hc, C⟩ := hC i x hx
    have hroot := S.built x.2.1 (List.mem_map.2 ⟨_, List.mem_of_getElem? hL, rfl⟩)
    have hsq : E.ksq x.2.2.1.bz = E.ksq x.2.1.root.bz := by
      obtain ⟨A, hA, -, -, e3⟩ := (Stars.buildStar_inv htol C.built).src _ (C.mem hc)
      rw [e3, W.bz _ hroot.1, H.normA G hA (hnear _ hroot.1)]
    obtain ⟨j, y, hy, e, ei, ei'⟩ := hinv i x hx
    obtain ⟨q, hq⟩ := hstar _ _ hL
    obtain ⟨p, h1, h2, h3, h4⟩ := flat_get.1 hx
    rw [hL] at h1
    cases h1
    have h5 : i - before L x.1 < cs.length := (List.getElem?_eq_some_iff.1 h4).1
    have g0 : ¬ |(cellOf E).ksq (waveOf E (flat L) x).bz - (waveOf E (flat L) x).sqNorm| > (E.epsilon : ℝ) := by
      show ¬ |((E.ksq (vecFn (List.ofFn x.2.2.1.bz)) : ℚ) : ℝ) - (E.ksq x.2.1.root.bz : ℝ)| > _
      rw [vecFn_ofFn, hsq, sub_self, abs_zero, not_lt]
      exact_mod_cast H.eps.le
    have g1 : (m.shift (waveOf E (flat L) x).bz).2 = (waveOf E (flat L) x).dft := by
      show (Mesh.shiftVec m.dims (List.ofFn x.2.2.1.bz)).2 = List.ofFn x.2.2.1.dft
      rw [hdims, shiftVec_fn, hdft i x hx]
    have g2 := Basis.get_ok.2 hq
    have g2' : (waveOf E (flat L) x).starId = x.1 := rfl
    have g3 : Basis.getI b.waves (waveOf E (flat L) x).inverseId = .ok (waveOf E (flat L) y) := by
      rw [Basis.getI_ok]
      have : (waveOf E (flat L) x).inverseId = (j : Int) := ei
      rw [this]
      refine ⟨by omega, ?_⟩
      rw [Int.toNat_natCast, hwave, hy]; rfl
    have g4 : (waveOf E (flat L) y).dft = (m.shift (Basis.negate (waveOf E (flat L) x).bz)).2 := by
      show List.ofFn y.2.2.1.dft = (Mesh.shiftVec m.dims (Basis.negate (List.ofFn x.2.2.1.bz))).2
      rw [hdims, negate_fn, shiftVec_fn, e]
      rfl
    have g5 : (waveOf E (flat L) y).inverseId = (i : Int) := ei'
    have g6 : ¬ ((waveOf E (flat L) x).implicit = true ∧ (waveOf E (flat L) y).implicit = true) := by
      show ¬ (Basis.isImplicit (List.ofFn E.dims) (List.ofFn x.2.2.1.dft) = true ∧
        Basis.isImplicit (List.ofFn E.dims) (List.ofFn y.2.2.1.dft) = true)
      rw [hdft i x hx, e]
      exact implicit_not_both G.pos _
    have g7 : ¬ (waveOf E (flat L) x).inverseId < 0 := by
      have : (waveOf E (flat L) x).inverseId = (j : Int) := ei
      rw [this]; omega
    unfold Basis.checkWave
    simp only
    rw [if_neg g0, g1, g2', g2]
    simp only [bne_self_eq_false, Bool.false_eq_true, if_false, Res.ok_bind]
    rw [if_neg (by simp only [starAt]; omega), if_neg (by simp only [starAt]; omega), if_neg g7, g3]
    simp only [Res.ok_bind]
    rw [← g4, g5]
    simp only [bne_self_eq_false, Bool.false_eq_true, if_false, Bool.and_eq_true]
    rw [if_neg g6]
    rfl
  have hcs : ∀ (k : Nat) s, b.stars[k]? = some s → Basis.checkStar (cellOf E) (E.epsilon : ℝ) b (k, s) = .ok true := by
    intro k s hs
    obtain ⟨p, q, hp, rfl⟩ := hstar' k s hs
    have C := P.coefs _ (List.mem_of_getElem? hp)
    have hprev : (if k > 0 then do
        let p' ← Basis.get b.stars (k - 1)
        pure (before L k == p'.endId)
      else pure true : Res Bool) = .ok true := by
      split
      · have h1 : k - 1 < L.length := by have := (List.getElem?_eq_some_iff.1 hp).1; omega
        obtain ⟨q', hq'⟩ := hstar (k - 1) _ (List.getElem?_eq_getElem h1)
        rw [← Basis.get_ok] at hq'
        rw [hq']
        simp only [Res.ok_bind, starAt]
        rw [← before_succ (List.getElem?_eq_getElem h1), show k - 1 + 1 = k by omega]
        simp
      · rfl
    have hhead : ∃ c tl, p.2 = c :: tl := by
      cases h : p.2 with
      | nil => exact absurd h C.ne
      | cons c tl => exact ⟨c, tl, rfl⟩
    have hfirst : ∀ (k : Nat) p, L[k]? = some p → ∀ c tl, p.2 = c :: tl → b.waves[before L k]? = some (waveOf E (flat L) (k, p.1, c)) := by
      intro k p hp c tl e
      obtain ⟨c', h1, h2⟩ := hflat k p hp (before L k) le_rfl (by rw [e]; simp)
      rw [Nat.sub_self, e, List.getElem?_cons_zero] at h1
      cases h1
      rw [hwave, h2]; rfl
    have hbz : Basis.checkWaveBz (cellOf E) b k { starAt E.dims (before L k) (prevOf none L k) p with starId := k, basisId := q } = .ok true := by
      unfold Basis.checkWaveBz
      simp only [starAt]
      by_cases hf : p.1.invertFlag = -1
      · rw [if_pos hf]
        obtain ⟨k', q', rfl, h1, h2, h3⟩ : ∃ k' q, k = k' + 1 ∧ L[k']? = some q ∧ q.1.invertFlag = 1 ∧
            p.1.root.dft = negSh E.dims q.1.root.bz := by
          rcases P.at k _ hp with h | h | h
          · rw [hf] at h; exact absurd h.1 (by decide)
          · rw [hf] at h; exact absurd h.1 (by decide)
          · exact h.2
        have C' := P.coefs _ (List.mem_of_getElem? h1)
        obtain ⟨c0, tl0, e0⟩ : ∃ c tl, q'.2 = c :: tl := by
          cases h : q'.2 with
          | nil => exact absurd h C'.ne
          | cons c tl => exact ⟨c, tl, rfl⟩
        have hc0 : c0 ∈ q'.2 := by rw [e0]; simp
        obtain ⟨c1, hc1, e1⟩ := C'.neg_pair G htol C h3 ⟨c0, hc0, C'.dft htol H.cong hc0⟩
        obtain ⟨qs, hqs⟩ := hstar k' _ h1
        have g1 := (Basis.getI_ok (l := b.stars) (i := ((k' + 1 : Nat) : Int) - 1)).2 ⟨by omega, by
          rw [show (((k' + 1 : Nat) : Int) - 1).toNat = k' by omega]
          exact hqs⟩
        rw [g1]
        simp only [Res.ok_bind, starAt, h2]
        have hprevw : prevOf none L (k' + 1) = some c0.1 := by
          simp [prevOf, h1, e0]
        rw [hprevw]
        simp only [Option.bind_some]
        cases hfd : p.2.find? (fun c => decide (c.1.dft = negSh E.dims c0.1.bz)) with
        | none =>
          rw [List.find?_eq_none] at hfd
          exact absurd (decide_eq_true e1) (hfd c1 hc1)
        | some c2 =>
          have hc2 := List.mem_of_find?_eq_some hfd
          have e2 : c2.1.dft = negSh E.dims c0.1.bz := by simpa using List.find?_some hfd
          have e3 : c2.1.bz = E.minIm fun t => - c0.1.bz t := by
            have hr := S.built p.1 (List.mem_map.2 ⟨_, List.mem_of_getElem? hp, rfl⟩)
            have hr' := S.built q'.1 (List.mem_map.2 ⟨_, List.mem_of_getElem? h1, rfl⟩)
            have e5 : c0.1.dft = sh E.dims c0.1.dft := by
              rw [C'.dft htol H.cong hc0, Stars.sh_sh G.pos]
            have hne : c0.1.dft ≠ c2.1.dft := by
              intro e6
              obtain ⟨i0, hi0⟩ := List.mem_iff_getElem?.1 (mem_flat (x := (k', q'.1, c0)).2 ⟨q'.2, h1, hc0⟩)
              obtain ⟨i2, hi2⟩ := List.mem_iff_getElem?.1 (mem_flat (x := (k' + 1, p.1, c2)).2 ⟨p.2, hp, hc2⟩)
              have e7 := hinj hi0 hi2 e6
              rw [e7, hi2] at hi0
              simp at hi0
            have e8 : sh E.dims (fun i => - c0.1.dft i) = c2.1.dft := by
              rw [e2, Stars.sh_neg G.pos (v := c0.1.dft) (w := c0.1.bz) (by rw [← e5, C'.dft htol H.cong hc0])]
              rfl
            have e9 : sh E.dims (fun i => - c2.1.dft i) = c0.1.dft := by
              rw [← e8, Stars.sh_neg G.pos (Stars.sh_sh G.pos _)]
              simpa using e5.symm
            have e4 := C'.bz H G htol (hnear _ hr'.1) (W.bz _ hr'.1) hc0 (by rw [e8]; exact hne.symm)
            rw [C.bz H G htol (hnear _ hr.1) (W.bz _ hr.1) hc2 (by rw [e9]; exact hne)]
            refine H.canon _ _ ?_ ?_ (by rw [e2]; exact Stars.sh_sh G.pos _) (by rw [e9, e8.symm, Stars.sh_sh G.pos, e8]; exact hne)
            · rw [e2]; exact H.mesh _
            rw [e4]
            exact H.flip _ (e5 ▸ H.mesh _)
          rw [e0]
          simp [hf, cellOf, negate_fn, vecFn_ofFn, e3, -List.ofFn_succ]
      · rw [if_neg hf]
        obtain ⟨c, tl, e⟩ := hhead
        have g1 := Basis.get_ok.2 (hfirst k p hp c tl e)
        rw [g1, e]
        simp [hf, waveOf, toWave, -List.ofFn_succ]
    have hidl : Basis.loopAll (Basis.checkStarIds b k) (List.range' (before L k) (before L k + p.2.length - before L k)) = .ok true := by
      rw [Basis.loopAll_true]
      intro i hi
      rw [List.mem_range'_1] at hi
      obtain ⟨c, h1, h2⟩ := hflat k p hp i hi.1 (by omega)
      have g1 : Basis.get b.waves i = .ok (waveOf E (flat L) (k, p.1, c)) := by rw [Basis.get_ok, hwave, h2]; rfl
      unfold Basis.checkStarIds
      rw [g1]
      simp [waveOf, toWave]
    have hbid : Basis.checkBasisId b k { starAt E.dims (before L k) (prevOf none L k) p with starId := k, basisId := q } = .ok true := by
      have h1 := (Basis.setBasisIds_star 0 0 _ k _ hs).2
      unfold Basis.checkBasisId
      simp only [starAt] at h1 ⊢
      rcases Bool.eq_false_or_eq_true p.1.cancel with hc | hc
      · simp only [hc, if_true] at h1 ⊢
        simp [h1]
      · simp only [hc, Bool.false_eq_true, if_false, Nat.zero_add] at h1 ⊢
        have h2 := (Basis.setBasisIds_table 0 0 (mkStars E.dims 0 none L) (Basis.nBefore b.stars k) k).2
          ⟨k, _, by omega, hs, hc, by rw [Nat.zero_add]; exact h1⟩
        have g1 : Basis.getI b.starIds q = .ok k := by
          rw [Basis.getI_ok]
          have h3 : q = (Basis.nBefore b.stars k : Int) := h1
          rw [h3]
          exact ⟨by omega, by rw [Int.toNat_natCast]; exact h2⟩
        rw [g1]
        simp
    have hord : Basis.loopAll (Basis.checkOrder b) (List.range' (before L k + 1) (before L k + p.2.length - (before L k + 1))) = .ok true := by
      rw [Basis.loopAll_true]
      intro i hi
      rw [List.mem_range'_1] at hi
      obtain ⟨c, h1, h2⟩ := hflat k p hp i (by omega) (by omega)
      obtain ⟨c', h1', h2'⟩ := hflat k p hp (i - 1) (by omega) (by omega)
      have g1 : Basis.get b.waves i = .ok (waveOf E (flat L) (k, p.1, c)) := by rw [Basis.get_ok, hwave, h2]; rfl
      have g2 : Basis.get b.waves (i - 1) = .ok (waveOf E (flat L) (k, p.1, c')) := by rw [Basis.get_ok, hwave, h2']; rfl
      have hso := sortBz_sorted p.1.waves
      rw [← C.fst, List.pairwise_map, List.pairwise_iff_getElem] at hso
      obtain ⟨a1, a2⟩ := List.getElem?_eq_some_iff.1 h1
      obtain ⟨a1', a2'⟩ := List.getElem?_eq_some_iff.1 h1'
      have h3 := hso _ _ a1' a1 (by omega)
      rw [a2, a2'] at h3
      have h4 : Mesh.vecGt (List.ofFn c.1.bz) (List.ofFn c'.1.bz) = false := by
        unfold bzGe at h3
        simpa using h3
      have h5 : (List.ofFn c.1.bz == List.ofFn c'.1.bz) = false := by
        rw [beq_eq_false_iff_ne]
        intro e
        have e' := List.ofFn_injective e
        have e2 : c.1.dft = c'.1.dft := by
          have b1 := hdft _ _ h2
          have b2 := hdft _ _ h2'
          simp only at b1 b2
          rw [b1, b2, e']
        have := hinj h2 h2' e2
        omega
      unfold Basis.checkOrder
      rw [g1]
      simp only [Res.ok_bind, g2]
      show (pure (!Mesh.vecGt (List.ofFn c.1.bz) (List.ofFn c'.1.bz) && !(List.ofFn c.1.bz == List.ofFn c'.1.bz)) : Res Bool) = _
      rw [h4, h5]
      rfl
    have hzero : p.1.cancel = true → Basis.loopAll (Basis.checkZero (E.epsilon : ℝ) b) (List.range' (before L k + 1) (before L k + p.2.length - (before L k + 1))) = .ok true := by
      intro hc
      rw [Basis.loopAll_true]
      intro i hi
      rw [List.mem_range'_1] at hi
      obtain ⟨c, h1, h2⟩ := hflat k p hp i (by omega) (by omega)
      have g1 : Basis.get b.waves i = .ok (waveOf E (flat L) (k, p.1, c)) := by rw [Basis.get_ok, hwave, h2]; rfl
      have g2 := C.zero hc c (List.mem_of_getElem? h1)
      unfold Basis.checkZero
      rw [g1]
      simp [waveOf, toWave, g2, Cx.normSq, mul_self_nonneg]
    unfold Basis.checkStar
    have hsz : (((starAt E.dims (before L k) (prevOf none L k) p).size : Int) != ((starAt E.dims (before L k) (prevOf none L k) p).endId : Int) - ((starAt E.dims (before L k) (prevOf none L k) p).beginId : Int)) = false := by
      simp [starAt]
    have hprev' : (if k > 0 then do
        let p' ← Basis.get b.stars (k - 1)
        pure ((starAt E.dims (before L k) (prevOf none L k) p).beginId == p'.endId)
      else pure true : Res Bool) = .ok true := hprev
    simp only [hsz, hprev', hbz, Res.ok_bind, Bool.false_eq_true, if_false, Bool.not_true]
    have hidl' : Basis.loopAll (Basis.checkStarIds b k) (List.range' (starAt E.dims (before L k) (prevOf none L k) p).beginId ((starAt E.dims (before L k) (prevOf none L k) p).endId - (starAt E.dims (before L k) (prevOf none L k) p).beginId)) = .ok true := hidl
    have hord' : Basis.loopAll (Basis.checkOrder b) (List.range' ((starAt E.dims (before L k) (prevOf none L k) p).beginId + 1) ((starAt E.dims (before L k) (prevOf none L k) p).endId - ((starAt E.dims (before L k) (prevOf none L k) p).beginId + 1))) = .ok true := hord
    simp only [hidl', hbid, hord', Res.ok_bind, Bool.not_true, Bool.false_eq_true, if_false, bne_self_eq_false]
    cases hc : p.1.cancel with
    | true =>
      have : (starAt E.dims (before L k) (prevOf none L k) p).cancel = true := hc
      rw [this, if_pos rfl]
      exact hzero hc
    | false =>
      have : (starAt E.dims (before L k) (prevOf none L k) p).cancel = false := hc
      rw [this]
      rfl
  have hV : Basis.isValid (cellOf E) (E.epsilon : ℝ) b = .ok true :=
    isValid_of_checked (m := m) ⟨hm, by rw [hbl, hF], hpoint, hcw, hcs, hlast, hsum, hpairs, hbasis⟩
  refine ⟨b, ?_⟩
  unfold Basis.finish
  have hme : (assemble E L).mesh = .ok m := by
    unfold Basis.BasisData.mesh
    have : (assemble E L).dims = List.ofFn E.dims := rfl
    rw [this, hm]
  have hr' : Basis.setImplicit m (assemble E L).dims 0 (assemble E L).waves (assemble E L).waveIds = .ok r := hr
  have hs' : (Basis.setBasisIds 0 0 (assemble E L).stars).2.length = (assemble E L).nBasis := hnum
  simp only [hme, Res.ok_bind, hr']
  rw [hs']
  simp only [beq_self_eq_true, Res.check_true, Res.ok_bind]
  have hV' := hV
  rw [hb] at hV'
  show (do
    let ok ← Basis.isValid (cellOf E) (E.epsilon : ℝ) b
    Res.check ok
    pure b) = _
  rw [hV]
  rfl


/-! ## The constant function -/

/-- The functions of the cell at the zero wave; all other waves are longer by more than the tolerance
`epsilon` of `Basis.tpp:200`. -/
structure ZeroOn (E : StarEnv D) : Prop where
  minIm : E.minIm 0 = 0
  ksq : E.ksq 0 = 0
  sep : ∀ v, sh E.dims v ≠ sh E.dims 0 → E.epsilon < E.ksq (E.minIm v)

theorem vecMul_zero (A : Sym D) : Sym.vecMul 0 A = 0 := by
  funext i
  simp [Sym.vecMul, accum_eq]

theorem waveLists_first {E : StarEnv D} (G : GroupOn E.dims E.group) {near : (Fin D → Int) → Prop} (H : CellOn E near) (Z : ZeroOn E) {ws : List (TWave D)}
    (hs : ws.Pairwise fun a b => E.ksq a.bz ≤ E.ksq b.bz) (W : WavesInv E ws) :
    ∃ w ls, waveLists E ws = [w] :: ls ∧ w.dft = sh E.dims 0 ∧ w.bz = 0 := by
  obtain ⟨z, hz, ez⟩ := W.all 0
  have h0 : sh E.dims 0 = 0 := sh_of_range G.pos fun i => ⟨le_rfl, G.pos i⟩
  have hzb : z.bz = 0 := by
    rw [W.bz z hz, ez, h0, Z.minIm]
  cases ws with
  | nil => simp at hz
  | cons w rest =>
    have hw : w.dft = sh E.dims 0 := by
      by_contra hne
      have hsep := Z.sep w.dft (by rw [sh_of_range G.pos (W.range w (by simp))]; exact hne)
      rw [← W.bz w (by simp)] at hsep
      have hle : E.ksq w.bz ≤ E.ksq z.bz := by
        rcases List.mem_cons.1 hz with rfl | hz'
        · exact le_rfl
        · exact (List.pairwise_cons.1 hs).1 z hz'
      rw [hzb, Z.ksq] at hle
      have := H.eps
      linarith
    have hwb : w.bz = 0 := by
      rw [W.bz w (by simp), hw, h0, Z.minIm]
    cases rest with
    | nil => exact ⟨w, [], rfl, hw, hwb⟩
    | cons u rest =>
      refine ⟨w, groups E rest [u] (E.ksq u.bz), ?_, hw, hwb⟩
      have hne : u.dft ≠ sh E.dims 0 := by
        intro e
        have := W.nodup
        simp [e, hw] at this
      have hsep := Z.sep u.dft (by rw [sh_of_range G.pos (W.range u (by simp))]; exact hne)
      rw [← W.bz u (by simp)] at hsep
      simp only [waveLists, groups]
      rw [if_pos]
      rw [hwb, Z.ksq]
      linarith

theorem buildStar_zero {E : StarEnv D} (G : GroupOn E.dims E.group) (htol : 0 ≤ E.tol) {w : TWave D} (hw : w.bz = 0)
    {st : Stars.StarState D} (h : Stars.buildStar E w = .ok st) :
    (∃ w', st.star = [w'] ∧ w'.dft = sh E.dims 0) ∧ st.cancel = false := by
  have I := Stars.buildStar_inv htol h
  have hd : ∀ x ∈ st.star, x.dft = sh E.dims 0 := by
    intro x hx
    obtain ⟨A, -, e, -⟩ := I.src x hx
    rw [e, hw, vecMul_zero]
  have hph : ∀ A : Sym D, ph w.bz A = 0 := by
    intro A
    rw [hw]
    unfold Stars.ph
    have : Stars.dot 0 A.t = 0 := by simp [Stars.dot]
    rw [this]
    decide +kernel
  refine ⟨?_, ?_⟩
  · obtain ⟨w', hw', -⟩ := I.cov _ G.one
    cases hst : st.star with
    | nil => rw [hst] at hw'; simp at hw'
    | cons a l =>
      refine ⟨a, ?_, hd a (by rw [hst]; simp)⟩
      cases l with
      | nil => rfl
      | cons c l =>
        have := I.nodup
        rw [hst] at this
        simp [hd a (by rw [hst]; simp), hd c (by rw [hst]; simp)] at this
  · by_contra hc
    rcases I.sound (by simpa using hc) with ⟨A, -, -, h1⟩ | ⟨A, -, B, -, -, h1⟩
    · exact h1 (hph A)
    · exact h1 (by rw [hph, hph])

theorem first_star {E : StarEnv D} (G : GroupOn E.dims E.group) (htol : 0 ≤ E.tol) {csqrt : ℂ → ℂ} {w : TWave D}
    {ls : List (List (TWave D))} (hw : w.dft = sh E.dims 0) (hb : w.bz = 0) {recs : List (StarRec D)}
    (h : starLists E ([w] :: ls) = .ok recs) {L : List (StarRec D × List (TWave D × ℂ))}
    (hL : phases csqrt E.dims recs = .ok L) :
    ∃ s w' rest, L = (s, [(w', 1)]) :: rest ∧ s.invertFlag = 0 ∧ s.cancel = false ∧ w'.dft = sh E.dims 0 := by
  have e1 : [w].mergeSort dftLe = [w] := by simp
  simp only [starLists, e1, List.length_singleton] at h
  rw [Stars.starLoop.eq_def] at h
  simp only [Option.getD_none] at h
  cases hbs : Stars.buildStar E w with
  | throw => rw [hbs] at h; simp [Bind.bind, Res.bind] at h
  | ub => rw [hbs] at h; simp [Bind.bind, Res.bind] at h
  | ok st =>
    obtain ⟨⟨w', hst, hd⟩, hc⟩ := buildStar_zero G htol hb hbs
    rw [hbs] at h
    have e2 : Stars.eraseStar [w] st.star = [] := by
      unfold Stars.eraseStar
      rw [hst]
      simp [hd, hw]
    have e3 : st.star.any (fun x => decide ((sh E.dims fun i => - w.bz i) = x.dft)) = true := by
      rw [hst, hb]
      simp [hd]
      rfl
    have e4 : Stars.starLoop E 0 [] none = some (.ok []) := by rw [Stars.starLoop.eq_def]
    rw [hst] at e2 e3
    simp only [e2, e3, e4, List.length_nil, hst, List.length_singleton, Nat.add_zero, ne_eq, not_true, if_false, if_true,
      Res.map, Res.ok_bind] at h
    rw [Res.bind_eq_ok] at h
    obtain ⟨r, -, h⟩ := h
    simp only [Res.pure_eq, Res.ok.injEq] at h
    subst h
    rw [List.cons_append, List.nil_append, phases.eq_def] at hL
    simp only [if_true] at hL
    have e5 : sortBz [w'] = [w'] := by simp [sortBz]
    rw [e5, Res.bind_eq_ok] at hL
    obtain ⟨cs, h1, hL⟩ := hL
    rw [Res.bind_eq_ok] at hL
    obtain ⟨r', -, hL⟩ := hL
    simp only [Res.pure_eq, Res.ok.injEq] at hL
    subst hL
    refine ⟨⟨w, [w'], st.cancel, 0⟩, w', r', ?_, rfl, hc, hd⟩
    rw [hc] at h1
    simp only [Stars.closedCoefs] at h1
    cases hf : [w'].find? (fun x => decide (x.dft = negSh E.dims w'.bz)) with
    | none => rw [hf] at h1; simp at h1
    | some p =>
      have hp : p = w' := by simpa using List.mem_of_find?_eq_some hf
      rw [hf, hp] at h1
      simp only [ne_eq, not_true, false_and, if_false, Bool.false_eq_true, Res.ok.injEq] at h1
      rw [← h1]
      have : ex w'.phase ≠ 0 := Complex.exp_ne_zero _
      simp [div_self this]

theorem constFirst_of_make {E : StarEnv D} (G : GroupOn E.dims E.group) (htol : 0 ≤ E.tol) {near : (Fin D → Int) → Prop} (H : CellOn E near) (Z : ZeroOn E)
    {csqrt : ℂ → ℂ} {ws : List (TWave D)} (hs : ws.Pairwise fun a b => E.ksq a.bz ≤ E.ksq b.bz) (W : WavesInv E ws)
    {b : BasisData ℝ} (h : makeBasis E csqrt ws = .ok b) : Basis.ConstFirst b := by
  unfold makeBasis at h
  simp only [Res.bind_eq_ok] at h
  obtain ⟨recs, h1, L, h2, h3⟩ := h
  obtain ⟨w, ls, e, hw, hb⟩ := waveLists_first G H Z hs W
  rw [e] at h1
  obtain ⟨s, w', rest, rfl, hf, hc, hd⟩ := first_star G htol hw hb h1 h2
  have A := arrays_of_finish h3
  obtain ⟨f1, f2, f3, -⟩ := finish_fields h3
  have hw0 := A.wave' 0 (0, s, w', 1) (flat_get.2 ⟨_, rfl, rfl, by simp [before], by simp [before]⟩)
  obtain ⟨q, hq⟩ := setBasisIds_at (mkStars E.dims 0 none ((s, [(w', 1)]) :: rest)) 0 0 0 _ (by rw [mkStars_at]; rfl)
  refine ⟨_, _, hw0, by rw [f3]; exact hq, hf, hc, rfl, ?_, ?_⟩
  · simp [toWave]
  · intro i
    show (List.ofFn w'.dft).getD i 0 = 0
    rw [hd]
    have h0 : sh E.dims 0 = 0 := sh_of_range G.pos fun i => ⟨le_rfl, G.pos i⟩
    rw [h0, List.getD_eq_getElem?_getD]
    cases hi : (List.ofFn (0 : Fin D → Int))[i]? with
    | none => rfl
    | some x =>
      obtain ⟨j, rfl⟩ := List.mem_ofFn.1 (List.mem_of_getElem? hi)
      rfl


/-! ## The order of waves of equal norm does not matter -/

theorem groups_perm {E : StarEnv D} (ws : List (TWave D)) : ∀ (ws' cur cur' : List (TWave D)) (g : ℚ),
    (ws.map fun w => E.ksq w.bz) = (ws'.map fun w => E.ksq w.bz) → (cur ++ ws).Perm (cur' ++ ws') →
    (∀ x ∈ cur, E.ksq x.bz ≤ g + E.epsilon) → (∀ x ∈ cur', E.ksq x.bz ≤ g + E.epsilon) →
    ws.Pairwise (fun a b => E.ksq a.bz ≤ E.ksq b.bz) → ws'.Pairwise (fun a b => E.ksq a.bz ≤ E.ksq b.bz) → 0 ≤ E.epsilon →
    List.Forall₂ List.Perm (groups E ws cur g) (groups E ws' cur' g) := by
  induction ws with
  | nil =>
    intro ws' cur cur' g hk hp _ _ _ _ _
    cases ws' with
    | cons a l => simp at hk
    | nil =>
      simp only [groups]
      exact .cons (by simpa using hp) .nil
  | cons w t ih =>
    intro ws' cur cur' g hk hp h1 h2 hs hs' he
    cases ws' with
    | nil => simp at hk
    | cons w' t' =>
      simp only [List.map_cons, List.cons.injEq] at hk
      rw [List.pairwise_cons] at hs hs'
      simp only [groups, ← hk.1]
      by_cases hb : E.ksq w.bz > g + E.epsilon
      · rw [if_pos hb, if_pos hb]
        have hf := hp.filter fun x => decide (E.ksq x.bz ≤ g + E.epsilon)
        have c1 : ∀ (c : List (TWave D)) (x : TWave D) (l : List (TWave D)), (∀ y ∈ c, E.ksq y.bz ≤ g + E.epsilon) →
            E.ksq x.bz > g + E.epsilon → (∀ y ∈ l, E.ksq x.bz ≤ E.ksq y.bz) →
            (c ++ x :: l).filter (fun x => decide (E.ksq x.bz ≤ g + E.epsilon)) = c := by
          intro c x l hc hx hl
          rw [List.filter_append, List.filter_eq_self.2 (by simpa using hc), List.filter_eq_nil_iff.2, List.append_nil]
          intro y hy
          rw [decide_eq_true_eq, not_le]
          rcases List.mem_cons.1 hy with rfl | hy
          · exact hx
          · exact lt_of_lt_of_le hx (hl y hy)
        rw [c1 cur w t h1 hb hs.1, c1 cur' w' t' h2 (hk.1 ▸ hb) hs'.1] at hf
        have hp' : (w :: t).Perm (w' :: t') := (List.perm_append_left_iff cur).1 (hp.trans (hf.symm.append_right _))
        refine .cons hf (ih t' [w] [w'] _ hk.2 (by simpa using hp') ?_ ?_ hs.2 hs'.2 he)
        · intro x hx
          rw [List.mem_singleton.1 hx]; linarith
        · intro x hx
          rw [List.mem_singleton.1 hx, hk.1]; linarith
      · rw [if_neg hb, if_neg hb]
        refine ih t' _ _ g hk.2 (by simpa using hp) ?_ ?_ hs.2 hs'.2 he
        · intro x hx
          rcases List.mem_append.1 hx with hx | hx
          · exact h1 x hx
          · rw [List.mem_singleton.1 hx]; exact not_lt.1 hb
        · intro x hx
          rcases List.mem_append.1 hx with hx | hx
          · exact h2 x hx
          · rw [List.mem_singleton.1 hx, ← hk.1]; exact not_lt.1 hb

theorem dftLe_iff {a b : TWave D} : dftLe a b = true ↔ Mesh.LexLt (List.ofFn a.dft) (List.ofFn b.dft) ∨ List.ofFn a.dft = List.ofFn b.dft := by
  unfold dftLe Mesh.vecGt
  rw [Bool.not_not, Mesh.vecLe_iff (by simp)]

theorem sortDft_eq {l l' : List (TWave D)} (hp : l.Perm l') (hn : (l.map TWave.dft).Nodup) :
    l.mergeSort dftLe = l'.mergeSort dftLe := by
  have htr : ∀ a b c : TWave D, dftLe a b = true → dftLe b c = true → dftLe a c = true := by
    intro a b c h1 h2
    rw [dftLe_iff] at h1 h2 ⊢
    rcases h1 with h1 | h1 <;> rcases h2 with h2 | h2
    · exact Or.inl (h1.trans h2)
    · exact Or.inl (h2 ▸ h1)
    · exact Or.inl (h1 ▸ h2)
    · exact Or.inr (h1.trans h2)
  have hto : ∀ a b : TWave D, (dftLe a b || dftLe b a) = true := by
    intro a b
    rw [Bool.or_eq_true, dftLe_iff, dftLe_iff]
    rcases Mesh.LexLt.trichotomy (p := List.ofFn a.dft) (q := List.ofFn b.dft) (by simp) with h | h | h
    · exact Or.inl (Or.inl h)
    · exact Or.inl (Or.inr h)
    · exact Or.inr (Or.inl h)
  have hp2 : (l.mergeSort dftLe).Perm (l'.mergeSort dftLe) :=
    (List.mergeSort_perm _ _).trans (hp.trans (List.mergeSort_perm _ _).symm)
  refine List.Perm.eq_of_pairwise (le := fun a b => dftLe a b = true) ?_
    (List.pairwise_mergeSort htr hto l) (List.pairwise_mergeSort htr hto l') hp2
  intro a b ha hb h1 h2
  rw [List.mem_mergeSort] at ha hb
  rw [dftLe_iff] at h1 h2
  refine List.inj_on_of_nodup_map hn ha (hp.mem_iff.2 hb) (List.ofFn_injective ?_)
  rcases h1 with h1 | h1
  · rcases h2 with h2 | h2
    · exact absurd (h1.trans h2) (Mesh.LexLt.irrefl _)
    · exact h2.symm
  · exact h1

theorem starLists_congr {E : StarEnv D} {ls ls' : List (List (TWave D))} (h : List.Forall₂ List.Perm ls ls') :
    (∀ l ∈ ls, (l.map TWave.dft).Nodup) → starLists E ls = starLists E ls' := by
  induction h with
  | nil => intro _; rfl
  | cons hp _ ih =>
    intro hn
    simp only [starLists]
    rw [sortDft_eq hp (hn _ (by simp)), hp.length_eq, ih fun l hl => hn l (by simp [hl])]

theorem makeBasis_congr {E : StarEnv D} (he : 0 ≤ E.epsilon) (csqrt : ℂ → ℂ) {ws ws' : List (TWave D)} (hp : ws.Perm ws')
    (hs : ws.Pairwise fun a b => E.ksq a.bz ≤ E.ksq b.bz) (hs' : ws'.Pairwise fun a b => E.ksq a.bz ≤ E.ksq b.bz)
    (hn : (ws.map TWave.dft).Nodup) : makeBasis E csqrt ws = makeBasis E csqrt ws' := by
  have hk : (ws.map fun w => E.ksq w.bz) = ws'.map fun w => E.ksq w.bz := by
    refine List.Perm.eq_of_pairwise (le := fun a b => a ≤ b) (fun a b _ _ => le_antisymm) ?_ ?_ (hp.map _)
    · rw [List.pairwise_map]; exact hs
    · rw [List.pairwise_map]; exact hs'
  have hg : List.Forall₂ List.Perm (waveLists E ws) (waveLists E ws') := by
    cases ws with
    | nil =>
      rw [List.nil_perm] at hp
      subst hp
      exact .nil
    | cons w t =>
      cases ws' with
      | nil => simp at hp
      | cons w' t' =>
        simp only [List.map_cons, List.cons.injEq] at hk
        simp only [waveLists, ← hk.1]
        rw [List.pairwise_cons] at hs hs'
        refine groups_perm t t' [w] [w'] _ hk.2 (by simpa using hp) ?_ ?_ hs.2 hs'.2 he
        · intro x hx
          rw [List.mem_singleton.1 hx]; linarith
        · intro x hx
          rw [List.mem_singleton.1 hx, hk.1]; linarith
  unfold makeBasis
  rw [starLists_congr hg]
  intro l hl
  have h1 := hn
  rw [← waveLists_flatten E ws] at h1
  exact h1.sublist ((List.sublist_flatten_of_mem hl).map _)

end Verif.Make
