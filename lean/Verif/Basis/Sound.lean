import Verif.Basis.Lemmas

/-!
# `isValid` is sound: a basis that passes the checks is well formed
-/

namespace Verif.Basis
open Verif.Mesh (IntVec Mesh InRange shiftVec)

set_option linter.unusedSectionVars false
variable {K : Type} [Field K] [LinearOrder K]

theorem Paired.of_checkPairs {eps : K} {b : BasisData K} {is : Nat} {l : List Star}
    (h : checkPairs eps b is l = .ok true) : Paired l ∧
      (∀ (k : Nat) s, l[k]? = some s → s.invertFlag = 0 →
        ∀ i ∈ s.ids, checkInverse eps b (is + k) s.cancel i = .ok true) ∧
      (∀ (k : Nat) s, l[k]? = some s → s.invertFlag = 1 →
        ∀ i ∈ s.ids, checkInverse eps b (is + k + 1) s.cancel i = .ok true) := by
  induction hn : l.length using Nat.strong_induction_on generalizing l is with
  | _ n ih =>
  match l with
  | [] => exact ⟨.nil, by simp, by simp⟩
  | s :: rest =>
    rw [checkPairs.eq_def] at h
    simp only at h
    split at h
    · rename_i h0
      simp only [Res.bind_eq_ok] at h
      obtain ⟨r, hr, h⟩ := h
      cases r with
      | false => simp at h
      | true =>
        simp only [Bool.not_true, Bool.false_eq_true, if_false] at h
        obtain ⟨p, q1, q2⟩ := ih rest.length (by simp at hn; omega) h rfl
        refine ⟨.closed s rest h0 p, ?_, ?_⟩
        · intro k x hx hf i hi
          cases k with
          | zero =>
            simp at hx; subst hx
            exact loopAll_true.mp hr i hi
          | succ k =>
            have := q1 k x (by simpa using hx) hf i hi
            rwa [show is + 1 + k = is + (k + 1) by omega] at this
        · intro k x hx hf i hi
          cases k with
          | zero =>
            simp at hx; subst hx
            omega
          | succ k =>
            have := q2 k x (by simpa using hx) hf i hi
            rwa [show is + 1 + k + 1 = is + (k + 1) + 1 by omega] at this
    · split at h
      · simp at h
      · rename_i h0 h1
        simp only [not_not] at h1
        match rest with
        | [] => simp at h
        | t :: rest' =>
          simp only at h
          split at h
          · simp at h
          · split at h
            · simp at h
            · split at h
              · simp at h
              · rename_i h2 h3 h4
                simp only [not_not] at h2
                simp only [bne_iff_ne, ne_eq, not_not] at h3 h4
                simp only [Res.bind_eq_ok] at h
                obtain ⟨r, hr, h⟩ := h
                cases r with
                | false => simp at h
                | true =>
                  simp only [Bool.not_true, Bool.false_eq_true, if_false] at h
                  obtain ⟨p, q1, q2⟩ := ih rest'.length (by simp at hn; omega) h rfl
                  refine ⟨.opened s t rest' h1 h2 h3 h4 p, ?_, ?_⟩
                  · intro k x hx hf i hi
                    match k with
                    | 0 => simp at hx; subst hx; exact absurd hf h0
                    | 1 => simp at hx; subst hx; omega
                    | k + 2 =>
                      have := q1 k x (by simpa using hx) hf i hi
                      rwa [show is + 2 + k = is + (k + 2) by omega] at this
                  · intro k x hx hf i hi
                    match k with
                    | 0 => simp at hx; subst hx; exact loopAll_true.mp hr i hi
                    | 1 => simp at hx; subst hx; omega
                    | k + 2 =>
                      have := q2 k x (by simpa using hx) hf i hi
                      rwa [show is + 2 + k + 1 = is + (k + 2) + 1 by omega] at this

/-- What a successful run of `isValid` has checked. -/
structure Checked (c : Cell K) (eps : K) (b : BasisData K) (m : Mesh) : Prop where
  hmesh : Mesh.setDimensions b.dims = some m
  hcount : (b.waves.length : Int) = m.size
  hpoint : ∀ r < m.size.toNat, checkPoint b m (m.position r) = .ok true
  hwave : ∀ (i : Nat) w, b.waves[i]? = some w → checkWave c eps b m (i, w) = .ok true
  hstar : ∀ (k : Nat) s, b.stars[k]? = some s → checkStar c eps b (k, s) = .ok true
  hlast : ∃ e, b.stars[b.stars.length - 1]? = some e ∧ (e.endId : Int) = m.size
  hsum : (((b.stars.map (·.size)).sum : Nat) : Int) = m.size
  hpairs : checkPairs eps b 0 b.stars = .ok true
  hbasis : ∀ ib < b.nBasis, checkBasis b ib = .ok true

theorem checked_of_isValid {c : Cell K} {eps : K} {b : BasisData K}
    (h : isValid c eps b = .ok true) : ∃ m, Checked c eps b m := by
  unfold isValid at h
  rw [Res.bind_eq_ok] at h
  obtain ⟨m, hm, h⟩ := h
  have hmesh : Mesh.setDimensions b.dims = some m := by
    unfold BasisData.mesh at hm
    split at hm <;> simp_all
  split at h
  · simp at h
  rename_i hc
  simp only [bne_iff_ne, ne_eq, not_not] at hc
  rw [Res.bind_eq_ok] at h
  obtain ⟨r1, h1, h⟩ := h
  cases r1 with
  | false => simp at h
  | true =>
  simp only [Bool.not_true, Bool.false_eq_true, if_false] at h
  rw [Res.bind_eq_ok] at h
  obtain ⟨r2, h2, h⟩ := h
  cases r2 with
  | false => simp at h
  | true =>
  simp only [Bool.not_true, Bool.false_eq_true, if_false] at h
  rw [Res.bind_eq_ok] at h
  obtain ⟨r3, h3, h⟩ := h
  cases r3 with
  | false => simp at h
  | true =>
  simp only [Bool.not_true, Bool.false_eq_true, if_false] at h
  rw [Res.bind_eq_ok] at h
  obtain ⟨e, he, h⟩ := h
  split at h
  · simp at h
  rename_i hl
  simp only [bne_iff_ne, ne_eq, not_not] at hl
  split at h
  · simp at h
  rename_i hs
  simp only [bne_iff_ne, ne_eq, not_not] at hs
  rw [Res.bind_eq_ok] at h
  obtain ⟨r4, h4, h⟩ := h
  cases r4 with
  | false => simp at h
  | true =>
  simp only [Bool.not_true, Bool.false_eq_true, if_false] at h
  refine ⟨m, hmesh, hc, ?_, ?_, ?_, ?_, hs, h4, ?_⟩
  · intro r hr
    exact loopAll_true.mp h1 _ (List.mem_map.mpr ⟨r, List.mem_range.mpr hr, rfl⟩)
  · intro i w hw
    exact loopAll_true.mp h2 _ (mem_zip_range.mpr hw)
  · intro i w hw
    exact loopAll_true.mp h3 _ (mem_zip_range.mpr hw)
  · rw [getI_ok] at he
    refine ⟨e, ?_, hl⟩
    obtain ⟨h0, he⟩ := he
    rwa [show ((b.stars.length : Int) - 1).toNat = b.stars.length - 1 by omega] at he
  · intro ib hib
    exact loopAll_true.mp h _ (List.mem_range.mpr hib)

/-- Facts established for a wave. -/
theorem checkWave_spec {c : Cell K} {eps : K} {b : BasisData K} {m : Mesh} {i : Nat} {w : Wave K}
    (h : checkWave c eps b m (i, w) = .ok true) :
    |c.ksq w.bz - w.sqNorm| ≤ eps ∧ (m.shift w.bz).2 = w.dft ∧
    (∃ s, b.stars[w.starId]? = some s ∧ s.beginId ≤ i ∧ i < s.endId) ∧
    ∃ j : Nat, ∃ w', w.inverseId = j ∧ b.waves[j]? = some w' ∧ w'.inverseId = i ∧
      w'.dft = (m.shift (negate w.bz)).2 ∧ ¬ (w.implicit = true ∧ w'.implicit = true) := by
  unfold checkWave at h
  simp only at h
  split at h
  · simp at h
  rename_i h0
  split at h
  · simp at h
  rename_i h1
  simp only [bne_iff_ne, ne_eq, not_not] at h1
  rw [Res.bind_eq_ok] at h
  obtain ⟨s, hs, h⟩ := h
  split at h
  · simp at h
  rename_i h2
  split at h
  · simp at h
  rename_i h3
  split at h
  · simp at h
  rename_i h4
  rw [Res.bind_eq_ok] at h
  obtain ⟨w', hw', h⟩ := h
  split at h
  · simp at h
  rename_i h5
  split at h
  · simp at h
  rename_i h6
  split at h
  · simp at h
  rename_i h7
  simp only [bne_iff_ne, ne_eq, not_not] at h5 h6
  simp only [Bool.and_eq_true] at h7
  rw [getI_ok] at hw'
  exact ⟨not_lt.mp h0, h1, ⟨s, get_ok.mp hs, by omega, by omega⟩,
    w.inverseId.toNat, w', by omega, hw'.2, h6, h5, h7⟩

/-- Facts established for a star. -/
theorem checkStar_spec {c : Cell K} {eps : K} {b : BasisData K} {k : Nat} {s : Star}
    (h : checkStar c eps b (k, s) = .ok true) :
    s.endId = s.beginId + s.size ∧
    (∀ p, 0 < k → b.stars[k - 1]? = some p → s.beginId = p.endId) ∧
    checkWaveBz c b k s = .ok true ∧
    (∀ i, s.beginId ≤ i → i < s.endId → ∃ w, b.waves[i]? = some w ∧ w.starId = k) ∧
    s.starId = k ∧
    (∀ i w w', s.beginId ≤ i → i + 1 < s.endId → b.waves[i]? = some w → b.waves[i + 1]? = some w' →
      Mesh.vecGt w'.bz w.bz = false ∧ w'.bz ≠ w.bz) := by
  unfold checkStar at h
  simp only at h
  split at h
  · simp at h
  rename_i h0
  simp only [bne_iff_ne, ne_eq, not_not] at h0
  rw [Res.bind_eq_ok] at h
  obtain ⟨r0, hr0, h⟩ := h
  cases r0 with
  | false => simp at h
  | true =>
  simp only [Bool.not_true, Bool.false_eq_true, if_false] at h
  rw [Res.bind_eq_ok] at h
  obtain ⟨r1, hr1, h⟩ := h
  cases r1 with
  | false => simp at h
  | true =>
  simp only [Bool.not_true, Bool.false_eq_true, if_false] at h
  rw [Res.bind_eq_ok] at h
  obtain ⟨r2, hr2, h⟩ := h
  cases r2 with
  | false => simp at h
  | true =>
  simp only [Bool.not_true, Bool.false_eq_true, if_false] at h
  split at h
  · simp at h
  rename_i h3
  simp only [bne_iff_ne, ne_eq, not_not] at h3
  rw [Res.bind_eq_ok] at h
  obtain ⟨r3, hr3, h⟩ := h
  cases r3 with
  | false => simp at h
  | true =>
  simp only [Bool.not_true, Bool.false_eq_true, if_false] at h
  rw [Res.bind_eq_ok] at h
  obtain ⟨r4, hr4, h⟩ := h
  cases r4 with
  | false => simp at h
  | true =>
  refine ⟨by omega, ?_, hr1, ?_, h3, ?_⟩
  · intro p hk hp
    rw [if_pos hk, Res.bind_eq_ok] at hr0
    obtain ⟨p', hp', e⟩ := hr0
    rw [get_ok, hp] at hp'
    cases hp'
    simpa using e
  · intro i h1 h2
    have := loopAll_true.mp hr2 i (by simp [List.mem_range']; exact ⟨i - s.beginId, by omega, by omega⟩)
    unfold checkStarIds at this
    rw [Res.bind_eq_ok] at this
    obtain ⟨w, hw, e⟩ := this
    exact ⟨w, get_ok.mp hw, by simpa using e⟩
  · intro i w w' h1 h2 hw hw'
    have := loopAll_true.mp hr4 (i + 1)
      (by simp [List.mem_range']; exact ⟨i - s.beginId, by omega, by omega⟩)
    unfold checkOrder at this
    rw [Res.bind_eq_ok] at this
    obtain ⟨x, hx, this⟩ := this
    rw [Res.bind_eq_ok] at this
    obtain ⟨y, hy, this⟩ := this
    rw [get_ok] at hx hy
    simp only [Nat.add_sub_cancel] at hy
    rw [hw'] at hx; rw [hw] at hy
    cases hx; cases hy
    simpa using this

theorem mem_ids {s : Star} {i : Nat} : i ∈ s.ids ↔ s.beginId ≤ i ∧ i < s.endId := by
  simp only [Star.ids, List.mem_range']
  constructor
  · rintro ⟨j, h1, h2⟩; omega
  · rintro ⟨h1, h2⟩; exact ⟨i - s.beginId, by omega, by omega⟩

theorem checkInverse_spec {eps : K} {b : BasisData K} {t : Nat} {cc : Bool} {i : Nat}
    (h : checkInverse eps b t cc i = .ok true) {w w' : Wave K} {j : Nat}
    (hw : b.waves[i]? = some w) (hj : w.inverseId = j) (hw' : b.waves[j]? = some w') :
    w'.starId = t ∧ (cc = false → Cx.normSq (Cx.conj w'.coeff - w.coeff) ≤ eps * eps) := by
  unfold checkInverse at h
  rw [Res.bind_eq_ok] at h
  obtain ⟨x, hx, h⟩ := h
  rw [get_ok, hw] at hx
  cases hx
  rw [Res.bind_eq_ok] at h
  obtain ⟨y, hy, h⟩ := h
  rw [getI_ok, hj] at hy
  simp only [Int.toNat_natCast] at hy
  rw [hw'] at hy
  cases hy.2
  split at h
  · simp at h
  rename_i h1
  simp only [bne_iff_ne, ne_eq, not_not] at h1
  refine ⟨h1, fun hc => ?_⟩
  rw [hc] at h
  simpa using h

/-- Distinct waves have distinct DFT indices, by counting. -/
theorem dft_bijective {c : Cell K} {eps : K} {b : BasisData K} {m : Mesh} (h : Checked c eps b m) :
    ∀ (i j : Nat) w w', b.waves[i]? = some w → b.waves[j]? = some w' → w.dft = w'.dft → i = j := by
  obtain ⟨hd, hsz, hin, hpos, hrank⟩ := Mesh.C01_rank_position_bijection b.dims m h.hmesh
  have hpt : ∀ r : Fin m.size.toNat, ∃ i : Fin b.waves.length, ∀ w, b.waves[i.1]? = some w →
      w.dft = m.position (r.1 : Int) := by
    intro r
    have hr := h.hpoint r.1 r.2
    unfold checkPoint at hr
    rw [Res.bind_eq_ok] at hr
    obtain ⟨iw, h1, hr⟩ := hr
    rw [Res.bind_eq_ok] at hr
    obtain ⟨w, h2, hr⟩ := hr
    rw [get_ok] at h2
    refine ⟨⟨iw, (List.getElem?_eq_some_iff.mp h2).1⟩, fun w' hw' => ?_⟩
    rw [h2] at hw'
    cases hw'
    simpa using hr
  choose f hf using hpt
  have hinj : Function.Injective f := by
    intro r r' e
    have hw : b.waves[(f r).1]? = some (b.waves[(f r).1]'(f r).2) := by simp
    have e1 := hf r _ hw
    have e2 := hf r' _ (by rw [← e]; exact hw)
    have l1 := (hpos r.1 (by omega) (by have := r.2; omega)).2
    have l2 := (hpos r'.1 (by omega) (by have := r'.2; omega)).2
    rw [← e1, e2, l2] at l1
    exact Fin.ext (by omega)
  have hcard : b.waves.length = m.size.toNat := by have := h.hcount; omega
  have hsurj : Function.Surjective f := by
    have := (Fintype.bijective_iff_injective_and_card f).mpr ⟨hinj, by simp [hcard]⟩
    exact this.2
  intro i j w w' hi hj e
  obtain ⟨r, hr⟩ := hsurj ⟨i, (List.getElem?_eq_some_iff.mp hi).1⟩
  obtain ⟨r', hr'⟩ := hsurj ⟨j, (List.getElem?_eq_some_iff.mp hj).1⟩
  have e1 := hf r w (by rw [hr]; exact hi)
  have e2 := hf r' w' (by rw [hr']; exact hj)
  have l1 := (hpos r.1 (by omega) (by have := r.2; omega)).2
  have l2 := (hpos r'.1 (by omega) (by have := r'.2; omega)).2
  rw [← e1, e, e2, l2] at l1
  have : r = r' := Fin.ext (by omega)
  subst this
  rw [hr] at hr'
  simpa using hr'

/-- The basis returned by the end of `makeBasis` is well formed. -/
theorem valid_of_finish {c : Cell K} {eps : K} {b0 b : BasisData K}
    (h : finish c eps b0 = .ok b) : Valid c eps b := by
  unfold finish at h
  rw [Res.bind_eq_ok] at h
  obtain ⟨m0, hm0, h⟩ := h
  rw [Res.bind_eq_ok] at h
  obtain ⟨x, hx, h⟩ := h
  simp only at h
  rw [Res.bind_eq_ok] at h
  obtain ⟨_, hnb, h⟩ := h
  rw [Res.bind_eq_ok] at h
  obtain ⟨r, hr, h⟩ := h
  rw [Res.bind_eq_ok] at h
  obtain ⟨_, hck, h⟩ := h
  have hr1 : r = true := by cases r <;> simp at hck ⊢
  subst hr1
  have hnb' : (setBasisIds 0 0 b0.stars).2.length = b0.nBasis := by
    unfold Res.check at hnb
    split at hnb
    · rename_i q; simpa using q
    · simp at hnb
  have himp := setImplicit_spec hx
  simp only [Res.pure_eq, Res.ok.injEq] at h
  rw [h] at hr
  have hdims : b.dims = b0.dims := by rw [← h]
  have hwaves : b.waves = x.1 := by rw [← h]
  have hstars : b.stars = (setBasisIds 0 0 b0.stars).1 := by rw [← h]
  have hstarIds : b.starIds = (setBasisIds 0 0 b0.stars).2 := by rw [← h]
  have hnB : b.nBasis = b0.nBasis := by rw [← h]
  clear h
  obtain ⟨m, hc⟩ := checked_of_isValid hr
  obtain ⟨hd, hsz, hin, hpos, hrank⟩ := Mesh.C01_rank_position_bijection b.dims m hc.hmesh
  obtain ⟨hpair, hcl, hop⟩ := Paired.of_checkPairs hc.hpairs
  have hsizes : ∀ s ∈ b.stars, s.endId = s.beginId + s.size := by
    intro s hs
    obtain ⟨k, hk⟩ := List.mem_iff_getElem?.mp hs
    exact (checkStar_spec (hc.hstar k s hk)).1
  have hconsec : ∀ (k : Nat) s t, b.stars[k]? = some s → b.stars[k + 1]? = some t →
      t.beginId = s.endId := by
    intro k s t hs ht
    exact (checkStar_spec (hc.hstar (k + 1) t ht)).2.1 s (by omega) (by simpa using hs)
  obtain ⟨e, he, hel⟩ := hc.hlast
  have hcount := hc.hcount
  have hshift : ∀ v, m.shift v = shiftVec b.dims v := by
    intro v; unfold Mesh.shift; rw [hd]
  refine
    { mesh := (Mesh.C01_setDimensions_iff b.dims).mp ⟨m, hc.hmesh⟩
      count := by rw [hcount, hsz]
      dftRange := ?_
      dftInj := dft_bijective hc
      dftSurj := ?_
      bzImage := ?_
      first := ?_
      consec := hconsec
      last := ⟨e, he, by omega⟩
      sizes := hsizes
      waveStar := fun i w hw => (checkWave_spec (hc.hwave i w hw)).2.2.1
      starWave := fun k s hs => (checkStar_spec (hc.hstar k s hs)).2.2.2.1
      order := ?_
      inverse := ?_
      implicit := ?_
      paired := hpair
      closedInv := ?_
      openInv := ?_
      waveBz := ?_
      waveBzNeg := ?_
      starId := fun k s hs => (checkStar_spec (hc.hstar k s hs)).2.2.2.2.1
      basisId := ?_
      starIds := ?_
      nBasis := ?_ }
  · intro i w hw
    have := (himp w (hwaves ▸ List.mem_of_getElem? hw)).1
    rw [hdims]
    exact Mesh.inMesh_iff.mp this
  · intro v hv
    obtain ⟨h1, h2, h3⟩ := hrank v hv
    have hp := hc.hpoint (m.rank v).toNat (by omega)
    rw [show (((m.rank v).toNat : Nat) : Int) = m.rank v by omega, h3] at hp
    unfold checkPoint at hp
    rw [Res.bind_eq_ok] at hp
    obtain ⟨iw, g1, hp⟩ := hp
    rw [Res.bind_eq_ok] at hp
    obtain ⟨w, g2, hp⟩ := hp
    refine ⟨iw, w, get_ok.mp g2, by simpa using hp, fun m' hm' => ?_⟩
    rw [hc.hmesh] at hm'
    cases hm'
    exact (getI_ok.mp g1).2
  · intro i w hw
    have := (checkWave_spec (hc.hwave i w hw)).2.1
    rwa [hshift] at this
  · intro s hs
    have := sum_sizes b.stars hsizes hconsec s e hs he
    have := hc.hsum
    omega
  · intro s hs
    obtain ⟨k, hk⟩ := List.mem_iff_getElem?.mp hs
    exact (checkStar_spec (hc.hstar k s hk)).2.2.2.2.2
  · intro i w hw
    have := (checkWave_spec (hc.hwave i w hw)).2.2.2
    rwa [hshift] at this
  · intro i w hw
    have := (himp w (hwaves ▸ List.mem_of_getElem? hw)).2
    rw [this, hdims]
  · intro k s hs hf i w hw hst j w' hj hw'
    obtain ⟨s', hs', hb, hlt⟩ := (checkWave_spec (hc.hwave i w hw)).2.2.1
    rw [hst, hs] at hs'
    cases hs'
    have := hcl k s hs hf i (mem_ids.mpr ⟨hb, hlt⟩)
    rw [Nat.zero_add] at this
    exact checkInverse_spec this hw hj hw'
  · intro k s hs hf i w hw hst j w' hj hw'
    obtain ⟨s', hs', hb, hlt⟩ := (checkWave_spec (hc.hwave i w hw)).2.2.1
    rw [hst, hs] at hs'
    cases hs'
    have := hop k s hs hf i (mem_ids.mpr ⟨hb, hlt⟩)
    rw [Nat.zero_add] at this
    exact checkInverse_spec this hw hj hw'
  · intro k s hs hf
    have := (checkStar_spec (hc.hstar k s hs)).2.2.1
    unfold checkWaveBz at this
    rw [if_neg hf, Res.bind_eq_ok] at this
    obtain ⟨w, hw, e⟩ := this
    exact ⟨w, get_ok.mp hw, by simpa using e⟩
  · intro k s hs hf
    have := (checkStar_spec (hc.hstar k s hs)).2.2.1
    unfold checkWaveBz at this
    rw [if_pos hf, Res.bind_eq_ok] at this
    obtain ⟨p, hp, e⟩ := this
    rw [getI_ok] at hp
    obtain ⟨h0, hp⟩ := hp
    refine ⟨k - 1, p, by omega, ?_, by simpa using e⟩
    rwa [show ((k : Int) - 1).toNat = k - 1 by omega] at hp
  · intro k s hs
    rw [hstars] at hs ⊢
    have := (setBasisIds_star 0 0 b0.stars k s hs).2
    simpa using this
  · intro ib k
    rw [hstarIds, hstars, setBasisIds_table]
    simp
  · rw [hnB, hstars, hstarIds, setBasisIds_length, ← hnb', ← setBasisIds_count]
    exact ⟨rfl, rfl⟩

end Verif.Basis
