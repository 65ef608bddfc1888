import Verif.Basis.Sound

/-!
# Lemmas for the conversions between basis and k-grid formats
-/

namespace Verif.Basis
open Verif.Mesh (IntVec Mesh InRange shiftVec)
open Verif.FieldIo (load store)

set_option linter.unusedSectionVars false

/-! ## The half mesh -/

theorem lastOf_cons_cons (a a' : Int) (l : List Int) : lastOf (a :: a' :: l) = lastOf (a' :: l) := by
  simp [lastOf]

theorem kMesh_cons_cons (a a' : Int) (l : List Int) :
    kMesh (a :: a' :: l) = a :: kMesh (a' :: l) := by
  simp [kMesh, lastOf]

/-- The points of the half mesh are the points of the mesh that are not implicit. -/
theorem inRange_kMesh {dims v : IntVec} (hne : dims ≠ []) (hpos : ∀ d ∈ dims, 0 < d) :
    InRange (kMesh dims) v ↔ InRange dims v ∧ isImplicit dims v = false := by
  induction dims generalizing v with
  | nil => exact absurd rfl hne
  | cons d ds ih =>
    cases ds with
    | nil =>
      have hd := hpos d (by simp)
      have e : d.tdiv 2 = d / 2 := Int.tdiv_eq_ediv_of_nonneg hd.le
      have hk : kMesh [d] = [d.tdiv 2 + 1] := by simp [kMesh, lastOf]
      rw [hk]
      unfold InRange isImplicit
      constructor
      · intro h
        cases h with
        | cons h1 h2 =>
          cases h2
          simp [lastOf]; rw [e] at h1 ⊢; omega
      · rintro ⟨h, h'⟩
        cases h with
        | cons h1 h2 =>
          cases h2
          simp [lastOf] at h'
          refine List.Forall₂.cons ?_ .nil
          omega
    | cons d' ds =>
      rw [kMesh_cons_cons]
      constructor
      · intro h
        cases h with
        | @cons _ p _ ps h1 h2 =>
          have := (ih (by simp) (fun x hx => hpos x (List.mem_cons_of_mem _ hx))).mp h2
          refine ⟨.cons h1 this.1, ?_⟩
          have hl := this.1.length_eq
          obtain ⟨p', ps', rfl⟩ : ∃ p' ps', ps = p' :: ps' := by
            cases ps with
            | nil => simp at hl
            | cons p' ps' => exact ⟨_, _, rfl⟩
          unfold isImplicit at this ⊢
          rw [lastOf_cons_cons, lastOf_cons_cons]
          exact this.2
      · rintro ⟨h, h'⟩
        cases h with
        | @cons _ p _ ps h1 h2 =>
          have hl := h2.length_eq
          obtain ⟨p', ps', rfl⟩ : ∃ p' ps', ps = p' :: ps' := by
            cases ps with
            | nil => simp at hl
            | cons p' ps' => exact ⟨_, _, rfl⟩
          unfold isImplicit at h'
          rw [lastOf_cons_cons, lastOf_cons_cons] at h'
          exact .cons h1 ((ih (by simp) (fun x hx => hpos x (List.mem_cons_of_mem _ hx))).mpr ⟨h2, h'⟩)

theorem kMesh_pos {dims : IntVec} (hne : dims ≠ []) (hpos : ∀ d ∈ dims, 0 < d) :
    kMesh dims ≠ [] ∧ ∀ d ∈ kMesh dims, 0 < d := by
  refine ⟨by simp [kMesh], fun d hd => ?_⟩
  simp only [kMesh, List.mem_append, List.mem_singleton] at hd
  rcases hd with hd | rfl
  · exact hpos d (List.mem_of_mem_dropLast hd)
  · have : 0 < lastOf dims := by
      unfold lastOf
      cases h : dims.getLast? with
      | none => simp [List.getLast?_eq_none_iff] at h; exact absurd h hne
      | some x => exact hpos x (List.mem_of_getLast? h)
    rw [Int.tdiv_eq_ediv_of_nonneg this.le]
    omega

variable {K : Type} [Field K] [LinearOrder K]
variable {c : Cell K} {eps : K} {b : BasisData K}

/-- A mesh object with the dimensions of the half mesh. -/
structure HalfMesh (b : BasisData K) (m : Mesh) : Prop where
  hm : Mesh.setDimensions (kMesh b.dims) = some m

theorem Valid.exists_halfMesh (V : Valid c eps b) : ∃ m, HalfMesh b m := by
  obtain ⟨h1, h2⟩ := V.mesh
  obtain ⟨m, hm⟩ := (Mesh.C01_setDimensions_iff (kMesh b.dims)).mpr (kMesh_pos h1 h2)
  exact ⟨m, ⟨hm⟩⟩

/-- Ranks of explicit waves. -/
theorem Valid.rank (V : Valid c eps b) {m : Mesh} (H : HalfMesh b m) {i : Nat} {w : Wave K}
    (hw : b.waves[i]? = some w) (hi : w.implicit = false) :
    0 ≤ m.rank w.dft ∧ m.rank w.dft < m.size := by
  obtain ⟨_, _, _, _, hr⟩ := Mesh.C01_rank_position_bijection _ m H.hm
  have := hr w.dft ((inRange_kMesh V.mesh.1 V.mesh.2).mpr
    ⟨V.dftRange i w hw, by rw [← V.implicit i w hw]; exact hi⟩)
  exact ⟨this.1, this.2.1⟩

theorem Valid.rank_inj (V : Valid c eps b) {m : Mesh} (H : HalfMesh b m) {i j : Nat} {w w' : Wave K}
    (hw : b.waves[i]? = some w) (hi : w.implicit = false) (hw' : b.waves[j]? = some w')
    (hi' : w'.implicit = false) (e : m.rank w.dft = m.rank w'.dft) : i = j := by
  obtain ⟨_, _, _, _, hr⟩ := Mesh.C01_rank_position_bijection _ m H.hm
  have h1 := (hr w.dft ((inRange_kMesh V.mesh.1 V.mesh.2).mpr
    ⟨V.dftRange i w hw, by rw [← V.implicit i w hw]; exact hi⟩)).2.2
  have h2 := (hr w'.dft ((inRange_kMesh V.mesh.1 V.mesh.2).mpr
    ⟨V.dftRange j w' hw', by rw [← V.implicit j w' hw']; exact hi'⟩)).2.2
  exact V.dftInj i j w w' hw hw' (by rw [← h1, e, h2])

/-- Every point of the half mesh is an explicit wave. -/
theorem Valid.rank_surj (V : Valid c eps b) {m : Mesh} (H : HalfMesh b m) {r : Nat}
    (hr : (r : Int) < m.size) : ∃ (i : Nat) (w : Wave K), b.waves[i]? = some w ∧ w.implicit = false ∧
      m.rank w.dft = r := by
  obtain ⟨_, _, _, hp, _⟩ := Mesh.C01_rank_position_bijection _ m H.hm
  obtain ⟨h1, h2⟩ := hp r (by omega) hr
  obtain ⟨h3, h4⟩ := (inRange_kMesh V.mesh.1 V.mesh.2).mp h1
  obtain ⟨i, w, hw, hd, _⟩ := V.dftSurj _ h3
  exact ⟨i, w, hw, by rw [V.implicit i w hw, hd, h4], by rw [hd, h2]⟩

/-! ## Bookkeeping of stars -/

theorem nBefore_succ {l : List Star} {k : Nat} {s : Star} (h : l[k]? = some s) :
    nBefore l (k + 1) = nBefore l k + (if s.cancel then 0 else 1) := by
  unfold nBefore
  rw [List.take_add_one, h]
  simp only [Option.toList_some, List.filter_append, List.length_append]
  congr 1
  cases h : s.cancel <;> simp [h]

theorem nBefore_mono (l : List Star) {k k' : Nat} (h : k ≤ k') : nBefore l k ≤ nBefore l k' := by
  unfold nBefore
  have : (l.take k) <+: (l.take k') := List.take_prefix_take_left h
  exact (List.Sublist.filter _ this.sublist).length_le

theorem nBefore_le (l : List Star) (k : Nat) : nBefore l k ≤ nBefore l l.length := by
  rcases le_total k l.length with h | h
  · exact nBefore_mono l h
  · unfold nBefore; rw [List.take_of_length_le h, List.take_length]

theorem Valid.basisId_lt (V : Valid c eps b) {k : Nat} {s : Star} (h : b.stars[k]? = some s)
    (hc : s.cancel = false) : s.basisId = (nBefore b.stars k : Int) ∧
      nBefore b.stars k < b.nBasis := by
  have h1 := V.basisId k s h
  rw [hc] at h1
  simp only [Bool.false_eq_true, if_false] at h1
  refine ⟨h1, ?_⟩
  have h2 := nBefore_succ h
  rw [hc] at h2
  simp only [Bool.false_eq_true, if_false] at h2
  have h3 := nBefore_le b.stars (k + 1)
  rw [V.nBasis.1]; omega

/-- First wave of star `k`, or the number of waves after the last star. -/
def nxt (b : BasisData K) (k : Nat) : Nat :=
  match b.stars[k]? with
  | some s => s.beginId
  | none => b.waves.length

theorem Valid.nxt_succ (V : Valid c eps b) {k : Nat} {s : Star} (h : b.stars[k]? = some s) :
    nxt b (k + 1) = s.endId := by
  unfold nxt
  cases h' : b.stars[k + 1]? with
  | some t => exact V.consec k s t h h'
  | none =>
    obtain ⟨e, he, hl⟩ := V.last
    have h1 : k < b.stars.length := (List.getElem?_eq_some_iff.mp h).1
    have h2 : b.stars.length ≤ k + 1 := List.getElem?_eq_none_iff.mp h'
    have : b.stars.length - 1 = k := by omega
    rw [this, h] at he
    cases he
    exact hl.symm

theorem Valid.nxt_zero (V : Valid c eps b) : nxt b 0 = 0 := by
  unfold nxt
  cases h : b.stars[0]? with
  | some s => exact V.first s h
  | none =>
    obtain ⟨e, he, _⟩ := V.last
    have : b.stars.length = 0 := by simpa using List.getElem?_eq_none_iff.mp h
    simp [List.length_eq_zero_iff.mp this] at he

theorem nxt_end (b : BasisData K) : nxt b b.stars.length = b.waves.length := by
  simp [nxt]

/-! ## Basis to k-grid -/

/-- Element of an array, zero outside. -/
def at0 (l : List K) (i : Int) : K := (l[i.toNat]?).getD 0

/-- Complex amplitude of a star basis function (spec): real for a closed star, `(a ∓ ib)/√2` for a
pair of open stars. -/
def comp (r2 : K) (inp : List K) (s : Star) : Cx K :=
  if s.cancel then 0
  else if s.invertFlag = 0 then ⟨at0 inp s.basisId, 0⟩
  else if s.invertFlag = 1 then Cx.sdiv ⟨at0 inp s.basisId, -at0 inp (s.basisId + 1)⟩ r2
  else Cx.sdiv ⟨at0 inp (s.basisId - 1), at0 inp s.basisId⟩ r2

/-- Value prescribed for a wave: amplitude of its star times its coefficient. -/
def waveVal (b : BasisData K) (r2 : K) (inp : List K) (w : Wave K) : Cx K :=
  match b.stars[w.starId]? with
  | some s => comp r2 inp s * w.coeff
  | none => 0

/-- Waves below `n` are assigned, all others are zero. -/
def Inv (b : BasisData K) (m : Mesh) (r2 : K) (inp : List K) (L n : Nat) (out : List (Cx K)) : Prop :=
  out.length = L ∧ ∀ (i : Nat) w, b.waves[i]? = some w → w.implicit = false →
    out[(m.rank w.dft).toNat]? = some (if i < n then waveVal b r2 inp w else 0)

theorem store_ok {α : Type} {l : List α} {r : Int} (h0 : 0 ≤ r) (h1 : r.toNat < l.length) (v : α) :
    store l r v = .ok (l.set r.toNat v) := by
  unfold store; rw [if_pos ⟨h0, h1⟩]

theorem load_ok {α : Type} {l : List α} {r : Int} {v : α} (h0 : 0 ≤ r) (h : l[r.toNat]? = some v) :
    load l r = .ok v := by
  unfold load; rw [if_pos h0, h]

theorem waveLoop_spec (V : Valid c eps b) {m : Mesh} (H : HalfMesh b m) (r2 : K) (inp : List K)
    {L : Nat} (hL : m.size ≤ L) (z : Cx K) (n a : Nat) (out : List (Cx K))
    (hz : ∀ i, a ≤ i → i < a + n → ∃ w, b.waves[i]? = some w ∧ waveVal b r2 inp w = z * w.coeff)
    (hI : Inv b m r2 inp L a out) :
    ∃ out', waveLoop b m z (List.range' a n) out = .ok out' ∧ Inv b m r2 inp L (a + n) out' := by
  induction n generalizing a out with
  | zero => exact ⟨out, by simp [waveLoop], by simpa using hI⟩
  | succ n ih =>
    obtain ⟨w, hw, hv⟩ := hz a (le_refl _) (by omega)
    simp only [List.range'_succ, waveLoop, get_ok.mpr hw, Res.ok_bind]
    by_cases hi : w.implicit = true
    · rw [if_pos hi]
      have hI' : Inv b m r2 inp L (a + 1) out := by
        refine ⟨hI.1, fun j x hx hj => ?_⟩
        rw [hI.2 j x hx hj]
        have : j ≠ a := by
          rintro rfl
          rw [hw] at hx; cases hx
          rw [hi] at hj; simp at hj
        congr 1
        by_cases h1 : j < a
        · rw [if_pos h1, if_pos (by omega)]
        · rw [if_neg h1, if_neg (by omega)]
      obtain ⟨out', h1, h2⟩ := ih (a + 1) out (fun i h1 h2 => hz i (by omega) (by omega)) hI'
      exact ⟨out', h1, by rw [show a + (n + 1) = a + 1 + n by omega]; exact h2⟩
    · rw [if_neg hi]
      simp only [Bool.not_eq_true] at hi
      obtain ⟨r0, r1⟩ := V.rank H hw hi
      have hlt : (m.rank w.dft).toNat < out.length := by rw [hI.1]; omega
      rw [store_ok r0 hlt, Res.ok_bind]
      have hI' : Inv b m r2 inp L (a + 1) (out.set (m.rank w.dft).toNat (z * w.coeff)) := by
        refine ⟨by rw [List.length_set]; exact hI.1, fun j x hx hj => ?_⟩
        obtain ⟨q0, q1⟩ := V.rank H hx hj
        rw [List.getElem?_set]
        by_cases e : (m.rank w.dft).toNat = (m.rank x.dft).toNat
        · have := V.rank_inj H hw hi hx hj (by omega)
          subst this
          rw [hw] at hx; cases hx
          rw [if_pos rfl, if_pos hlt, if_pos (by omega), hv]
        · rw [if_neg e, hI.2 j x hx hj]
          have : j ≠ a := by
            rintro rfl
            rw [hw] at hx; cases hx
            exact e rfl
          congr 1
          by_cases h1 : j < a
          · rw [if_pos h1, if_pos (by omega)]
          · rw [if_neg h1, if_neg (by omega)]
      obtain ⟨out', h1, h2⟩ := ih (a + 1) _ (fun i h1 h2 => hz i (by omega) (by omega)) hI'
      exact ⟨out', h1, by rw [show a + (n + 1) = a + 1 + n by omega]; exact h2⟩

theorem at0_load {inp : List K} {r : Int} (h0 : 0 ≤ r) (h1 : r.toNat < inp.length) :
    load inp r = .ok (at0 inp r) := by
  apply load_ok h0
  unfold at0
  rw [List.getElem?_eq_getElem h1]; rfl

/-- Waves of star `k` under one amplitude. -/
theorem Valid.star_val (V : Valid c eps b) (r2 : K) (inp : List K) {k : Nat} {s : Star}
    (hs : b.stars[k]? = some s) (z : Cx K) (hz : comp r2 inp s = z) :
    ∀ i, s.beginId ≤ i → i < s.beginId + (s.endId - s.beginId) →
      ∃ w, b.waves[i]? = some w ∧ waveVal b r2 inp w = z * w.coeff := by
  intro i h1 h2
  obtain ⟨w, hw, hk⟩ := V.starWave k s hs i h1 (by omega)
  refine ⟨w, hw, ?_⟩
  unfold waveVal
  rw [hk, hs, ← hz]

theorem Cx.zero_mul' (z : Cx K) : (0 : Cx K) * z = 0 := by ext <;> simp

theorem Valid.skip (V : Valid c eps b) {m : Mesh} (r2 : K) (inp : List K) {L k : Nat} {s : Star}
    (hs : b.stars[k]? = some s) (hc : s.cancel = true) {out : List (Cx K)}
    (hI : Inv b m r2 inp L (nxt b k) out) : Inv b m r2 inp L (nxt b (k + 1)) out := by
  have hb : nxt b k = s.beginId := by unfold nxt; rw [hs]
  refine ⟨hI.1, fun j x hx hj => ?_⟩
  rw [hI.2 j x hx hj]
  congr 1
  rw [V.nxt_succ hs, hb]
  have hsz := V.sizes s (List.mem_of_getElem? hs)
  by_cases h1 : j < s.beginId
  · rw [if_pos h1, if_pos (by omega)]
  · rw [if_neg h1]
    split
    · rename_i h2
      obtain ⟨w, hw, hk⟩ := V.starWave k s hs j (by omega) h2
      rw [hx] at hw; cases hw
      unfold waveVal
      rw [hk, hs]
      simp only [comp, hc, if_true]
      rw [Cx.zero_mul']
    · rfl

theorem toKLoop_spec (V : Valid c eps b) {m : Mesh} (H : HalfMesh b m) (r2 : K) (inp : List K)
    (hin : inp.length = b.nBasis) {L : Nat} (hL : m.size ≤ L) :
    ∀ (n k : Nat) (l : List Star) (out : List (Cx K)), l.length = n → l = b.stars.drop k →
      k + n = b.stars.length → Paired l → Inv b m r2 inp L (nxt b k) out →
      ∃ out', toKLoop b m r2 inp l out = .ok out' ∧ Inv b m r2 inp L b.waves.length out' := by
  intro n
  induction n using Nat.strong_induction_on with
  | _ n ih =>
  intro k l out hl hd hk hp hI
  have hget : ∀ j s, l[j]? = some s → b.stars[k + j]? = some s := by
    intro j s h
    rw [hd, List.getElem?_drop] at h
    exact h
  have htail : ∀ s rest, l = s :: rest → rest = b.stars.drop (k + 1) := by
    intro s rest e
    rw [← List.tail_drop, ← hd, e]; rfl
  cases hp with
  | nil =>
    refine ⟨out, rfl, ?_⟩
    simp at hl
    rw [show k = b.stars.length by omega, nxt_end] at hI
    exact hI
  | closed s rest h0 hrest =>
    have hs : b.stars[k]? = some s := by simpa using hget 0 s rfl
    have ht := htail s rest rfl
    rw [toKLoop.eq_def]
    simp only
    by_cases hc : s.cancel = true
    · rw [if_pos hc]
      exact ih rest.length (by simp at hl; omega) (k + 1) rest out rfl ht (by simp at hl; omega) hrest
        (V.skip r2 inp hs hc hI)
    · rw [if_neg hc, if_pos h0]
      simp only [Bool.not_eq_true] at hc
      obtain ⟨hb, hlt⟩ := V.basisId_lt hs hc
      rw [at0_load (by omega) (by omega), Res.ok_bind]
      have hz : comp r2 inp s = ⟨at0 inp s.basisId, 0⟩ := by simp [comp, hc, h0]
      have hb' : nxt b k = s.beginId := by unfold nxt; rw [hs]
      rw [hb'] at hI
      obtain ⟨out1, e1, hI1⟩ := waveLoop_spec V H r2 inp hL _ (s.endId - s.beginId) s.beginId out
        (V.star_val r2 inp hs _ hz) hI
      unfold Star.ids
      rw [e1, Res.ok_bind]
      have hsz := V.sizes s (List.mem_of_getElem? hs)
      rw [show s.beginId + (s.endId - s.beginId) = nxt b (k + 1) by rw [V.nxt_succ hs]; omega] at hI1
      exact ih rest.length (by simp at hl; omega) (k + 1) rest out1 rfl ht (by simp at hl; omega) hrest
        hI1
  | opened s t rest h1 h2 hsz hcc hrest =>
    have hs : b.stars[k]? = some s := by simpa using hget 0 s rfl
    have htt : b.stars[k + 1]? = some t := by simpa using hget 1 t rfl
    have ht := htail s (t :: rest) rfl
    have ht2 : rest = b.stars.drop (k + 2) := by
      rw [show k + 2 = k + 1 + 1 by omega, ← List.tail_drop, ← ht]; rfl
    rw [toKLoop.eq_def]
    simp only
    by_cases hc : s.cancel = true
    · rw [if_pos hc, toKLoop.eq_def]
      simp only
      rw [if_pos (by rw [hcc]; exact hc)]
      exact ih rest.length (by simp at hl; omega) (k + 2) rest out rfl ht2 (by simp at hl; omega) hrest
        (V.skip r2 inp htt (by rw [hcc]; exact hc) (V.skip r2 inp hs hc hI))
    · rw [if_neg hc, if_neg (by rw [h1]; decide), if_pos h1]
      simp only [Bool.not_eq_true] at hc
      have hct : t.cancel = false := by rw [hcc]; exact hc
      obtain ⟨hb, hlt⟩ := V.basisId_lt hs hc
      obtain ⟨hbt, hltt⟩ := V.basisId_lt htt hct
      have hsucc := nBefore_succ hs
      rw [hc] at hsucc
      simp only [Bool.false_eq_true, if_false] at hsucc
      rw [at0_load (by omega) (by omega), Res.ok_bind, at0_load (by omega) (by omega), Res.ok_bind]
      have hz : comp r2 inp s = Cx.sdiv ⟨at0 inp s.basisId, -at0 inp (s.basisId + 1)⟩ r2 := by
        simp [comp, hc, h1]
      have hzt : comp r2 inp t = Cx.sdiv ⟨at0 inp s.basisId, at0 inp (s.basisId + 1)⟩ r2 := by
        have e : t.basisId = s.basisId + 1 := by omega
        simp [comp, hct, h2, e]
      have hb' : nxt b k = s.beginId := by unfold nxt; rw [hs]
      rw [hb'] at hI
      obtain ⟨out1, e1, hI1⟩ := waveLoop_spec V H r2 inp hL _ (s.endId - s.beginId) s.beginId out
        (V.star_val r2 inp hs _ hz) hI
      unfold Star.ids
      rw [e1, Res.ok_bind]
      simp only [h2, decide_true, Res.check_true, Res.ok_bind]
      have hse := V.sizes s (List.mem_of_getElem? hs)
      have hte := V.sizes t (List.mem_of_getElem? htt)
      have hbt' : t.beginId = s.endId := V.consec k s t hs htt
      rw [show s.beginId + (s.endId - s.beginId) = t.beginId by omega] at hI1
      obtain ⟨out2, e2, hI2⟩ := waveLoop_spec V H r2 inp hL _ (t.endId - t.beginId) t.beginId out1
        (V.star_val r2 inp htt _ hzt) hI1
      rw [e2, Res.ok_bind]
      rw [show t.beginId + (t.endId - t.beginId) = nxt b (k + 2) by
        rw [show k + 2 = k + 1 + 1 by omega, V.nxt_succ htt]; omega] at hI2
      exact ih rest.length (by simp at hl; omega) (k + 2) rest out2 rfl ht2 (by simp at hl; omega) hrest
        hI2

/-- Result of `convertBasisToKGrid`. -/
theorem basisToK_spec (V : Valid c eps b) {m : Mesh} (H : HalfMesh b m) (r2 : K) (inp : List K)
    (hin : inp.length = b.nBasis) (out : List (Cx K)) (hout : m.size ≤ out.length) :
    ∃ k, basisToK b r2 (kMesh b.dims) inp out = .ok k ∧ k.length = out.length ∧
      ∀ (i : Nat) w, b.waves[i]? = some w → w.implicit = false →
        k[(m.rank w.dft).toNat]? = some (waveVal b r2 inp w) := by
  unfold basisToK
  rw [H.hm]
  simp only
  have hsz : 0 < m.size := by
    obtain ⟨hne, hpos, rfl⟩ := Mesh.setDimensions_some H.hm
    exact Mesh.prod_pos hpos
  unfold zeroFirst
  rw [if_pos (by omega), Res.ok_bind]
  obtain ⟨k, h1, h2, h3⟩ := toKLoop_spec V H r2 inp hin (L := out.length) hout b.stars.length 0 b.stars
    (List.replicate m.size.toNat 0 ++ out.drop m.size.toNat) rfl (by simp) (by simp) V.paired
    (by
      rw [V.nxt_zero]
      refine ⟨by simp; omega, fun i w hw hi => ?_⟩
      obtain ⟨r0, r1⟩ := V.rank H hw hi
      rw [if_neg (by omega), List.getElem?_append_left (by simp; omega)]
      simp [List.getElem?_replicate]
      omega)
  refine ⟨k, h1, h2, fun i w hw hi => ?_⟩
  rw [h3 i w hw hi, if_pos (List.getElem?_eq_some_iff.mp hw).1]

end Verif.Basis
