import Verif.Basis.Props

/-!
# The symmetry test `hasSymmetry` (C45)
-/

namespace Verif.Basis
open Verif.Mesh (IntVec Mesh InRange shiftVec)
open Verif.FieldIo (load store)

set_option linter.unusedSectionVars false
variable {K : Type} [Field K] [LinearOrder K] [IsStrictOrderedRing K]
variable {c : Cell K} {eps : K} {b : BasisData K}

/-- Final decision from the loop result. -/
def accept (tol : K) : Option (SymErr K) → Prop
  | none => False
  | some e => e.canc < tol * tol ∧ e.unc < tol * tol

/-- Value read for an explicit wave. -/
def rd (m : Mesh) (k : List (Cx K)) (w : Wave K) : Cx K := (k[(m.rank w.dft).toNat]?).getD 0

theorem load_some (V : Valid c eps b) {m : Mesh} (H : HalfMesh b m) (k : List (Cx K))
    (hk : m.size ≤ k.length) {i : Nat} {w : Wave K} (hw : b.waves[i]? = some w)
    (hi : w.implicit = false) : load (k.map some) (m.rank w.dft) = .ok (some (rd m k w)) := by
  obtain ⟨r0, r1⟩ := V.rank H hw hi
  apply load_ok r0
  have hlt : (m.rank w.dft).toNat < k.length := by omega
  rw [List.getElem?_map, List.getElem?_eq_getElem hlt, rd, List.getElem?_eq_getElem hlt]; rfl

theorem cancLoop_spec (V : Valid c eps b) {m : Mesh} (H : HalfMesh b m) (k : List (Cx K))
    (hk : m.size ≤ k.length) (tol : K) (verbose : Bool) (l : List Nat)
    (hl : ∀ i ∈ l, ∃ w, b.waves[i]? = some w) (e : SymErr K) :
    ∃ r, cancLoop b m (k.map some) tol verbose l e = .ok r ∧
      (accept tol r ↔ accept tol (some e) ∧ ∀ i ∈ l, ∀ w, b.waves[i]? = some w → w.implicit = false →
        Cx.normSq (rd m k w) < tol * tol) := by
  induction l generalizing e with
  | nil => exact ⟨some e, rfl, by simp⟩
  | cons i l ih =>
    obtain ⟨w, hw⟩ := hl i (by simp)
    have hl' : ∀ i ∈ l, ∃ w, b.waves[i]? = some w := fun j hj => hl j (List.mem_cons_of_mem _ hj)
    have hall : (∀ j ∈ i :: l, ∀ w, b.waves[j]? = some w → w.implicit = false →
        Cx.normSq (rd m k w) < tol * tol) ↔
        ((w.implicit = false → Cx.normSq (rd m k w) < tol * tol) ∧
        ∀ j ∈ l, ∀ w, b.waves[j]? = some w → w.implicit = false →
          Cx.normSq (rd m k w) < tol * tol) := by
      rw [List.forall_mem_cons]
      constructor
      · rintro ⟨h1, h2⟩; exact ⟨h1 w hw, h2⟩
      · rintro ⟨h1, h2⟩
        exact ⟨fun w' hw' => by rw [hw] at hw'; cases hw'; exact h1, h2⟩
    rw [hall]
    simp only [cancLoop, get_ok.mpr hw, Res.ok_bind]
    cases hi : w.implicit with
    | true =>
      obtain ⟨r, h1, h2⟩ := ih hl' e
      exact ⟨r, by simpa using h1, by rw [h2]; simp⟩
    | false =>
      simp only [Bool.false_eq_true, if_false, load_some V H k hk hw hi, Res.ok_bind, gt, sq,
        gt_iff_lt, decide_eq_true_eq, forall_true_left]
      split
      · rename_i hgt
        split
        · rename_i hx
          simp only [Bool.and_eq_true, Bool.not_eq_true', decide_eq_true_eq] at hx
          refine ⟨none, rfl, ?_⟩
          simp only [accept, false_iff]
          rintro ⟨_, h, _⟩
          exact absurd h (not_lt.mpr hx.2.le)
        · obtain ⟨r, h1, h2⟩ := ih hl' { e with canc := Cx.normSq (rd m k w) }
          refine ⟨r, h1, ?_⟩
          rw [h2]
          simp only [accept]
          constructor
          · rintro ⟨⟨q1, q2⟩, q3⟩; exact ⟨⟨lt_trans hgt q1, q2⟩, q1, q3⟩
          · rintro ⟨⟨q1, q2⟩, q3, q4⟩; exact ⟨⟨q3, q2⟩, q4⟩
      · rename_i hgt
        obtain ⟨r, h1, h2⟩ := ih hl' e
        refine ⟨r, h1, ?_⟩
        rw [h2]
        simp only [accept]
        constructor
        · rintro ⟨⟨q1, q2⟩, q3⟩; exact ⟨⟨q1, q2⟩, lt_of_le_of_lt (not_lt.mp hgt) q1, q3⟩
        · rintro ⟨q1, q3, q4⟩; exact ⟨q1, q4⟩

theorem uncLoop_spec (V : Valid c eps b) {m : Mesh} (H : HalfMesh b m) (k : List (Cx K))
    (hk : m.size ≤ k.length) (tol : K) (verbose : Bool) (l : List Nat)
    (hl : ∀ i ∈ l, ∃ w, b.waves[i]? = some w) (z : Cx K) (e : SymErr K) :
    ∃ r, uncLoop b m (k.map some) tol verbose l (some (some z)) e = .ok r ∧
      (accept tol r ↔ accept tol (some e) ∧ ∀ i ∈ l, ∀ w, b.waves[i]? = some w → w.implicit = false →
        Cx.normSq (rd m k w / w.coeff - z) < tol * tol) := by
  induction l generalizing e with
  | nil => exact ⟨some e, rfl, by simp⟩
  | cons i l ih =>
    obtain ⟨w, hw⟩ := hl i (by simp)
    have hl' : ∀ i ∈ l, ∃ w, b.waves[i]? = some w := fun j hj => hl j (List.mem_cons_of_mem _ hj)
    have hall : (∀ j ∈ i :: l, ∀ w, b.waves[j]? = some w → w.implicit = false →
        Cx.normSq (rd m k w / w.coeff - z) < tol * tol) ↔
        ((w.implicit = false → Cx.normSq (rd m k w / w.coeff - z) < tol * tol) ∧
        ∀ j ∈ l, ∀ w, b.waves[j]? = some w → w.implicit = false →
          Cx.normSq (rd m k w / w.coeff - z) < tol * tol) := by
      rw [List.forall_mem_cons]
      constructor
      · rintro ⟨h1, h2⟩; exact ⟨h1 w hw, h2⟩
      · rintro ⟨h1, h2⟩
        exact ⟨fun w' hw' => by rw [hw] at hw'; cases hw'; exact h1, h2⟩
    rw [hall]
    simp only [uncLoop, get_ok.mpr hw, Res.ok_bind]
    cases hi : w.implicit with
    | true =>
      obtain ⟨r, h1, h2⟩ := ih hl' e
      exact ⟨r, by simpa using h1, by rw [h2]; simp⟩
    | false =>
      simp only [Bool.false_eq_true, if_false, load_some V H k hk hw hi, Res.ok_bind, Option.map_some,
        diff, gt, sq, gt_iff_lt, decide_eq_true_eq, forall_true_left]
      split
      · rename_i hgt
        split
        · rename_i hx
          simp only [Bool.and_eq_true, Bool.not_eq_true', decide_eq_true_eq] at hx
          refine ⟨none, rfl, ?_⟩
          simp only [accept, false_iff]
          rintro ⟨_, h, _⟩
          exact absurd h (not_lt.mpr hx.2.le)
        · obtain ⟨r, h1, h2⟩ := ih hl' { e with unc := Cx.normSq (rd m k w / w.coeff - z) }
          refine ⟨r, h1, ?_⟩
          rw [h2]
          simp only [accept]
          constructor
          · rintro ⟨⟨q1, q2⟩, q3⟩; exact ⟨⟨q1, lt_trans hgt q2⟩, q2, q3⟩
          · rintro ⟨⟨q1, q2⟩, q3, q4⟩; exact ⟨⟨q1, q3⟩, q4⟩
      · rename_i hgt
        obtain ⟨r, h1, h2⟩ := ih hl' e
        refine ⟨r, h1, ?_⟩
        rw [h2]
        simp only [accept]
        constructor
        · rintro ⟨⟨q1, q2⟩, q3⟩; exact ⟨⟨q1, q2⟩, lt_of_le_of_lt (not_lt.mp hgt) q2, q3⟩
        · rintro ⟨q1, q3, q4⟩; exact ⟨q1, q4⟩

/-- Quotients of all explicit waves in `l` agree with that of the first one up to `tol`. -/
def Agree (b : BasisData K) (m : Mesh) (k : List (Cx K)) (tol : K) (l : List Nat) : Prop :=
  ∀ i j w v, i ∈ l → j ∈ l → i < j → b.waves[i]? = some w → b.waves[j]? = some v →
    w.implicit = false → v.implicit = false →
    (∀ h ∈ l, h < i → ∀ u, b.waves[h]? = some u → u.implicit = true) →
    Cx.normSq (rd m k v / v.coeff - rd m k w / w.coeff) < tol * tol

theorem uncLoop_none (V : Valid c eps b) {m : Mesh} (H : HalfMesh b m) (k : List (Cx K))
    (hk : m.size ≤ k.length) (tol : K) (verbose : Bool) (n a : Nat)
    (hl : ∀ i ∈ List.range' a n, ∃ w, b.waves[i]? = some w) (e : SymErr K) :
    ∃ r, uncLoop b m (k.map some) tol verbose (List.range' a n) none e = .ok r ∧
      (accept tol r ↔ accept tol (some e) ∧ Agree b m k tol (List.range' a n)) := by
  induction n generalizing a with
  | zero => exact ⟨some e, rfl, by simp [Agree]⟩
  | succ n ih =>
    rw [List.range'_succ] at hl ⊢
    obtain ⟨w, hw⟩ := hl a (by simp)
    have hl' : ∀ i ∈ List.range' (a + 1) n, ∃ w, b.waves[i]? = some w :=
      fun j hj => hl j (List.mem_cons_of_mem _ hj)
    have hlt : ∀ i ∈ List.range' (a + 1) n, a < i := by
      intro i hi
      simp only [List.mem_range'] at hi
      obtain ⟨q, _, rfl⟩ := hi
      omega
    simp only [uncLoop, get_ok.mpr hw, Res.ok_bind]
    cases hi : w.implicit with
    | true =>
      obtain ⟨r, h1, h2⟩ := ih (a + 1) hl'
      refine ⟨r, by simpa using h1, ?_⟩
      rw [h2]
      apply and_congr_right
      intro _
      constructor
      · intro h i j x v hi' hj' hij hx hv hxi hvi hb
        have : i ≠ a := by
          rintro rfl
          rw [hw] at hx; cases hx; rw [hi] at hxi; simp at hxi
        have hi'' := (List.mem_cons.mp hi').resolve_left this
        refine h i j x v hi'' ((List.mem_cons.mp hj').resolve_left ?_) hij hx hv hxi hvi
          (fun q hq => hb q (List.mem_cons_of_mem _ hq))
        have := hlt i hi''
        omega
      · intro h i j x v hi' hj' hij hx hv hxi hvi hb
        refine h i j x v (List.mem_cons_of_mem _ hi') (List.mem_cons_of_mem _ hj') hij hx hv hxi hvi ?_
        intro q hq hqi u hu
        rcases List.mem_cons.mp hq with rfl | hq
        · rw [hw] at hu; cases hu; exact hi
        · exact hb q hq hqi u hu
    | false =>
      simp only [Bool.false_eq_true, if_false, load_some V H k hk hw hi, Res.ok_bind, Option.map_some]
      obtain ⟨r, h1, h2⟩ := uncLoop_spec V H k hk tol verbose (List.range' (a + 1) n) hl'
        (rd m k w / w.coeff) e
      refine ⟨r, h1, ?_⟩
      rw [h2]
      apply and_congr_right
      intro _
      constructor
      · intro h i j x v hi' hj' hij hx hv hxi hvi hb
        have hia : i = a := by
          rcases List.mem_cons.mp hi' with e | hi''
          · exact e
          · have := hb a (by simp) (hlt i hi'') w hw
            rw [hi] at this; simp at this
        subst hia
        rw [hw] at hx; cases hx
        exact h j ((List.mem_cons.mp hj').resolve_left (by omega)) v hv hvi
      · intro h i hi' v hv hvi
        refine h a i w v (by simp) (List.mem_cons_of_mem _ hi') (hlt i hi') hw hv hi hvi ?_
        intro q hq hqa
        rcases List.mem_cons.mp hq with rfl | hq
        · omega
        · have := hlt q hq; omega

/-- Continue the loop over stars unless it returned early. -/
def contStars (b : BasisData K) (m : Mesh) (inp : List (Option (Cx K))) (tol : K) (verbose : Bool)
    (l : List Star) : Option (SymErr K) → Res (Option (SymErr K))
  | none => .ok none
  | some e => symLoop b m inp tol verbose l e

theorem symLoop_cons {m : Mesh} {inp : List (Option (Cx K))} {tol : K} {verbose : Bool} {s : Star}
    {l : List Star} {e : SymErr K} {r : Option (SymErr K)}
    (h1 : (if s.cancel then cancLoop b m inp tol verbose s.ids e
            else uncLoop b m inp tol verbose s.ids none e) = .ok r) :
    symLoop b m inp tol verbose (s :: l) e = contStars b m inp tol verbose l r := by
  cases hc : s.cancel <;> rw [hc] at h1 <;>
    simp only [Bool.false_eq_true, if_false, if_true] at h1 <;>
    simp only [symLoop, hc, Bool.false_eq_true, if_false, if_true, h1, Res.ok_bind] <;>
    cases r <;> rfl

/-- C45: `hasSymmetry` returns true if and only if, up to the tolerance, the values on all cancelled
stars vanish and on every other star the values divided by the wave coefficients agree with that of
the first stored wave.  The answer does not depend on `verbose`. -/
theorem C45_hasSymmetry_iff_partial (V : Valid c eps b) (m : Mesh)
    (hm : Mesh.setDimensions (kMesh b.dims) = some m) (k : List (Cx K)) (hk : m.size ≤ k.length)
    (tol : K) (htol : tol ≠ 0) (verbose : Bool) :
    ∃ r, hasSymmetry b (kMesh b.dims) (k.map some) tol verbose = .ok r ∧ (r = true ↔
      (∀ (i : Nat) w s, b.waves[i]? = some w → w.implicit = false → b.stars[w.starId]? = some s →
        s.cancel = true → Cx.normSq (rd m k w) < tol * tol) ∧
      (∀ (i j : Nat) w v s, b.waves[i]? = some w → b.waves[j]? = some v → i < j →
        w.implicit = false → v.implicit = false → w.starId = v.starId →
        b.stars[w.starId]? = some s → s.cancel = false →
        (∀ (h : Nat) u, h < i → b.waves[h]? = some u → u.starId = w.starId → u.implicit = true) →
        Cx.normSq (rd m k v / v.coeff - rd m k w / w.coeff) < tol * tol)) := by
  have H : HalfMesh b m := ⟨hm⟩
  -- statement for the loop over stars
  have loop : ∀ (l : List Star) (e : SymErr K), (∀ s ∈ l, s ∈ b.stars) →
      ∃ r, symLoop b m (k.map some) tol verbose l e = .ok r ∧ (accept tol r ↔ accept tol (some e) ∧
        ∀ s ∈ l, (s.cancel = true → ∀ i ∈ s.ids, ∀ w, b.waves[i]? = some w → w.implicit = false →
          Cx.normSq (rd m k w) < tol * tol) ∧ (s.cancel = false → Agree b m k tol s.ids)) := by
    intro l
    induction l with
    | nil => intro e _; exact ⟨some e, rfl, by simp⟩
    | cons s l ih =>
      intro e hl
      obtain ⟨kk, hkk⟩ := List.mem_iff_getElem?.mp (hl s (by simp))
      have hex : ∀ i ∈ s.ids, ∃ w, b.waves[i]? = some w := by
        intro i hi
        rw [mem_ids] at hi
        obtain ⟨w, hw, _⟩ := V.starWave kk s hkk i hi.1 hi.2
        exact ⟨w, hw⟩
      have hl' : ∀ s ∈ l, s ∈ b.stars := fun x hx => hl x (List.mem_cons_of_mem _ hx)
      have hstar : ∃ r, (if s.cancel then cancLoop b m (k.map some) tol verbose s.ids e
            else uncLoop b m (k.map some) tol verbose s.ids none e) = .ok r ∧
          (accept tol r ↔ accept tol (some e) ∧ ((s.cancel = true → ∀ i ∈ s.ids, ∀ w,
            b.waves[i]? = some w → w.implicit = false → Cx.normSq (rd m k w) < tol * tol) ∧
            (s.cancel = false → Agree b m k tol s.ids))) := by
        cases hc : s.cancel with
        | true =>
          obtain ⟨r, h1, h2⟩ := cancLoop_spec V H k hk tol verbose s.ids hex e
          exact ⟨r, by simpa using h1, by rw [h2]; simp⟩
        | false =>
          obtain ⟨r, h1, h2⟩ := uncLoop_none V H k hk tol verbose (s.endId - s.beginId) s.beginId hex e
          exact ⟨r, by simpa [Star.ids] using h1, by rw [h2]; simp [Star.ids]⟩
      obtain ⟨r, h1, h2⟩ := hstar
      have hunf := symLoop_cons (l := l) h1
      rw [hunf]
      rw [List.forall_mem_cons]
      cases r with
      | none =>
        refine ⟨none, rfl, ?_⟩
        rw [← and_assoc, ← h2]
        simp [accept]
      | some e' =>
        obtain ⟨r', h3, h4⟩ := ih e' hl'
        refine ⟨r', h3, ?_⟩
        rw [h4, h2, and_assoc]
  obtain ⟨r, h1, h2⟩ := loop b.stars ⟨0, 0⟩ (fun _ h => h)
  have hpos : 0 < tol * tol := by
    rcases lt_or_gt_of_ne htol with h | h
    · exact mul_pos_of_neg_of_neg h h
    · exact mul_pos h h
  have h0 : accept tol (some (⟨0, 0⟩ : SymErr K)) := ⟨hpos, hpos⟩
  rw [and_iff_right h0] at h2
  have hspec : (∀ s ∈ b.stars, (s.cancel = true → ∀ i ∈ s.ids, ∀ w, b.waves[i]? = some w →
      w.implicit = false → Cx.normSq (rd m k w) < tol * tol) ∧
      (s.cancel = false → Agree b m k tol s.ids)) ↔
      ((∀ (i : Nat) w s, b.waves[i]? = some w → w.implicit = false → b.stars[w.starId]? = some s →
        s.cancel = true → Cx.normSq (rd m k w) < tol * tol) ∧
      (∀ (i j : Nat) w v s, b.waves[i]? = some w → b.waves[j]? = some v → i < j →
        w.implicit = false → v.implicit = false → w.starId = v.starId →
        b.stars[w.starId]? = some s → s.cancel = false →
        (∀ (h : Nat) u, h < i → b.waves[h]? = some u → u.starId = w.starId → u.implicit = true) →
        Cx.normSq (rd m k v / v.coeff - rd m k w / w.coeff) < tol * tol)) := by
    constructor
    · intro h
      constructor
      · intro i w s hw hi hs hc
        obtain ⟨s', hs', q1, q2⟩ := V.waveStar i w hw
        rw [hs] at hs'; cases hs'
        exact (h s (List.mem_of_getElem? hs)).1 hc i (mem_ids.mpr ⟨q1, q2⟩) w hw hi
      · intro i j w v s hw hv hij hwi hvi hst hs hc hb
        obtain ⟨s', hs', q1, q2⟩ := V.waveStar i w hw
        rw [hs] at hs'; cases hs'
        obtain ⟨s', hs', q3, q4⟩ := V.waveStar j v hv
        rw [← hst, hs] at hs'; cases hs'
        refine (h s (List.mem_of_getElem? hs)).2 hc i j w v (mem_ids.mpr ⟨q1, q2⟩)
          (mem_ids.mpr ⟨q3, q4⟩) hij hw hv hwi hvi ?_
        intro q hq hqi u hu
        rw [mem_ids] at hq
        obtain ⟨u', hu', hk'⟩ := V.starWave _ s hs q hq.1 hq.2
        rw [hu] at hu'; cases hu'
        exact hb q u hqi hu hk'
    · rintro ⟨h1, h2⟩ s hs
      obtain ⟨kk, hkk⟩ := List.mem_iff_getElem?.mp hs
      constructor
      · intro hc i hi w hw hwi
        rw [mem_ids] at hi
        obtain ⟨w', hw', hk'⟩ := V.starWave kk s hkk i hi.1 hi.2
        rw [hw] at hw'; cases hw'
        exact h1 i w s hw hwi (by rw [hk']; exact hkk) hc
      · intro hc i j w v hi hj hij hw hv hwi hvi hb
        rw [mem_ids] at hi hj
        obtain ⟨w', hw', hk1⟩ := V.starWave kk s hkk i hi.1 hi.2
        rw [hw] at hw'; cases hw'
        obtain ⟨v', hv', hk2⟩ := V.starWave kk s hkk j hj.1 hj.2
        rw [hv] at hv'; cases hv'
        refine h2 i j w v s hw hv hij hwi hvi (by rw [hk1, hk2]) (by rw [hk1]; exact hkk) hc ?_
        intro q u hq hu hk3
        obtain ⟨s', hs', q1, q2⟩ := V.waveStar q u hu
        rw [hk3, hk1, hkk] at hs'; cases hs'
        exact hb q (mem_ids.mpr ⟨q1, q2⟩) hq u hu
  rw [hspec] at h2
  unfold hasSymmetry
  rw [hm]
  simp only [h1, Res.ok_bind]
  cases r with
  | none =>
    refine ⟨false, rfl, ?_⟩
    rw [← h2]; simp [accept]
  | some e =>
    refine ⟨_, rfl, ?_⟩
    rw [← h2]; simp [accept]

/-- C45 does not extend to non-finite data: an array in which every value is not a number is
reported to be symmetric, for every basis and every tolerance. -/
theorem C45_violated_nan (V : Valid c eps b) (m : Mesh)
    (hm : Mesh.setDimensions (kMesh b.dims) = some m) (n : Nat) (hn : m.size ≤ n)
    (tol : K) (htol : tol ≠ 0) (verbose : Bool) :
    hasSymmetry b (kMesh b.dims) (List.replicate n none) tol verbose = .ok true := by
  have H : HalfMesh b m := ⟨hm⟩
  have hload : ∀ (i : Nat) w, b.waves[i]? = some w → w.implicit = false →
      load (List.replicate n (none : Option (Cx K))) (m.rank w.dft) = .ok none := by
    intro i w hw hi
    obtain ⟨r0, r1⟩ := V.rank H hw hi
    apply load_ok r0
    rw [List.getElem?_replicate, if_pos (by omega)]
  have h1 : ∀ (l : List Nat) (e : SymErr K), (∀ i ∈ l, ∃ w, b.waves[i]? = some w) →
      cancLoop b m (List.replicate n none) tol verbose l e = .ok (some e) := by
    intro l
    induction l with
    | nil => intro e _; rfl
    | cons i l ih =>
      intro e hl
      obtain ⟨w, hw⟩ := hl i (by simp)
      have := ih e (fun j hj => hl j (List.mem_cons_of_mem _ hj))
      cases hi : w.implicit with
      | true => simp [cancLoop, get_ok.mpr hw, hi, this]
      | false => simp [cancLoop, get_ok.mpr hw, hi, hload i w hw hi, gt, this]
  have h2 : ∀ (l : List Nat) (r : Option (Option (Cx K))) (e : SymErr K), (r = none ∨ r = some none) →
      (∀ i ∈ l, ∃ w, b.waves[i]? = some w) →
      uncLoop b m (List.replicate n none) tol verbose l r e = .ok (some e) := by
    intro l
    induction l with
    | nil => intro r e _ _; rfl
    | cons i l ih =>
      intro r e hr hl
      obtain ⟨w, hw⟩ := hl i (by simp)
      have hl' : ∀ i ∈ l, ∃ w, b.waves[i]? = some w := fun j hj => hl j (List.mem_cons_of_mem _ hj)
      cases hi : w.implicit with
      | true => simp [uncLoop, get_ok.mpr hw, hi, ih r e hr hl']
      | false =>
        rcases hr with rfl | rfl
        · simp [uncLoop, get_ok.mpr hw, hi, hload i w hw hi, ih (some none) e (.inr rfl) hl']
        · simp [uncLoop, get_ok.mpr hw, hi, hload i w hw hi, gt, diff, ih (some none) e (.inr rfl) hl']
  have h3 : ∀ (l : List Star) (e : SymErr K), (∀ s ∈ l, s ∈ b.stars) →
      symLoop b m (List.replicate n none) tol verbose l e = .ok (some e) := by
    intro l
    induction l with
    | nil => intro e _; rfl
    | cons s l ih =>
      intro e hl
      obtain ⟨kk, hkk⟩ := List.mem_iff_getElem?.mp (hl s (by simp))
      have hex : ∀ i ∈ s.ids, ∃ w, b.waves[i]? = some w := by
        intro i hi
        rw [mem_ids] at hi
        obtain ⟨w, hw, _⟩ := V.starWave kk s hkk i hi.1 hi.2
        exact ⟨w, hw⟩
      have := ih e (fun x hx => hl x (List.mem_cons_of_mem _ hx))
      simp only [symLoop, h1 s.ids e hex, h2 s.ids none e (.inl rfl) hex, ite_self, Res.ok_bind, this]
  unfold hasSymmetry
  rw [hm]
  have hpos : 0 < tol * tol := by
    rcases lt_or_gt_of_ne htol with h | h
    · exact mul_pos_of_neg_of_neg h h
    · exact mul_pos h h
  simp [h3 b.stars ⟨0, 0⟩ (fun _ h => h), hpos]

/-- The example basis with the star of wave `2` marked as cancelled. -/
def exCancelled : BasisData ℚ :=
  { exBasis with stars := [⟨1, 0, 1, 0, [0], 0, 0, false⟩, ⟨1, 1, 2, 1, [1], 1, 1, false⟩,
      ⟨1, 2, 3, -1, [-1], 2, 2, false⟩, ⟨1, 3, 4, 0, [2], 3, -1, true⟩], starIds := [0, 1, 2], nBasis := 3 }

example : hasSymmetry exCancelled [3] ([⟨3, 0⟩, ⟨1, 1⟩, ⟨0, 0⟩].map some) (1 / 10) false = .ok true ∧
    hasSymmetry exCancelled [3] ([⟨3, 0⟩, ⟨1, 1⟩, ⟨1, 0⟩].map some) (1 / 10) true = .ok false := by
  decide +kernel

end Verif.Basis
