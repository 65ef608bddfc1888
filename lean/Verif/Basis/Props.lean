import Verif.Basis.Convert2

/-!
# Symmetry-adapted bases: index maps (C42) and conversions (C43)
-/

namespace Verif.Basis
open Verif.Mesh (IntVec Mesh InRange shiftVec)

set_option linter.unusedSectionVars false
variable {K : Type} [Field K] [LinearOrder K]
variable {c : Cell K} {eps : K} {b0 b : BasisData K}

/-! ## C42 -/

/-- C42: whenever basis construction returns normally, the basis is well formed in the sense of
`Valid` (all clauses, including inversion pairs and characteristic waves). -/
theorem C42_valid (h : finish c eps b0 = .ok b) : Valid c eps b := valid_of_finish h

/-- C42: every wave lies in exactly one star, the one recorded in the wave. -/
theorem C42_partition (h : finish c eps b0 = .ok b) (i : Nat) (w : Wave K)
    (hw : b.waves[i]? = some w) :
    ∀ k, (∃ s, b.stars[k]? = some s ∧ s.beginId ≤ i ∧ i < s.endId) ↔ k = w.starId := by
  have V := valid_of_finish h
  intro k
  constructor
  · rintro ⟨s, hs, h1, h2⟩
    obtain ⟨w', hw', e⟩ := V.starWave k s hs i h1 h2
    rw [hw] at hw'; cases hw'
    exact e.symm
  · rintro rfl
    exact V.waveStar i w hw

/-- C42: the stars are consecutive: they start at wave 0, each begins where the previous one ends,
and the last one ends at the number of waves, which is the number of mesh points. -/
theorem C42_consecutive (h : finish c eps b0 = .ok b) :
    (∀ s, b.stars[0]? = some s → s.beginId = 0) ∧
    (∀ (k : Nat) s t, b.stars[k]? = some s → b.stars[k + 1]? = some t → t.beginId = s.endId) ∧
    (∃ s, b.stars[b.stars.length - 1]? = some s ∧ s.endId = b.waves.length) ∧
    (b.waves.length : Int) = b.dims.prod :=
  have V := valid_of_finish h
  ⟨V.first, V.consec, V.last, V.count⟩

/-- C42: waves and points of the Fourier mesh are in bijection, and the look-up table finds the
wave of every point. -/
theorem C42_wave_bijection (h : finish c eps b0 = .ok b) :
    (∀ (i : Nat) w, b.waves[i]? = some w → InRange b.dims w.dft) ∧
    (∀ v, InRange b.dims v → ∃! i : Nat, ∃ w : Wave K, b.waves[i]? = some w ∧ w.dft = v) ∧
    (∀ m, Mesh.setDimensions b.dims = some m → ∀ (i : Nat) w, b.waves[i]? = some w →
      b.waveIds[(m.rank w.dft).toNat]? = some i) := by
  have V := valid_of_finish h
  refine ⟨V.dftRange, ?_, ?_⟩
  · intro v hv
    obtain ⟨i, w, hw, hd, _⟩ := V.dftSurj v hv
    refine ⟨i, ⟨w, hw, hd⟩, ?_⟩
    rintro j ⟨w', hw', hd'⟩
    exact V.dftInj j i w' w hw' hw (by rw [hd, hd'])
  · intro m hm i w hw
    obtain ⟨j, w', hw', hd, ht⟩ := V.dftSurj w.dft (V.dftRange i w hw)
    have := V.dftInj j i w' w hw' hw hd
    subst this
    exact ht m hm

/-- C42: star and basis function indices are inverse maps between the uncancelled stars and
`{0, …, nBasis - 1}`, in the same order; cancelled stars have basis index `-1`. -/
theorem C42_inverse_maps (h : finish c eps b0 = .ok b) :
    (∀ ib < b.nBasis, ∃ k s, b.starIds[ib]? = some k ∧ b.stars[k]? = some s ∧ s.cancel = false ∧
      s.basisId = (ib : Int) ∧ s.starId = k) ∧
    (∀ (k : Nat) s, b.stars[k]? = some s → s.cancel = false →
      ∃ ib : Nat, ib < b.nBasis ∧ s.basisId = ib ∧ b.starIds[ib]? = some k) ∧
    (∀ (k : Nat) s, b.stars[k]? = some s → s.cancel = true → s.basisId = -1) ∧
    (∀ (k k' : Nat) s s', b.stars[k]? = some s → b.stars[k']? = some s' → s.cancel = false →
      s'.cancel = false → k < k' → s.basisId < s'.basisId) := by
  have V := valid_of_finish h
  refine ⟨?_, ?_, ?_, ?_⟩
  · intro ib hib
    have hlt : ib < b.starIds.length := by rw [V.nBasis.2]; exact hib
    obtain ⟨s, h1, h2, h3⟩ := (V.starIds ib _).mp (List.getElem?_eq_getElem hlt)
    exact ⟨_, s, List.getElem?_eq_getElem hlt, h1, h2, h3, V.starId _ _ h1⟩
  · intro k s hs hc
    obtain ⟨e, hlt⟩ := V.basisId_lt hs hc
    exact ⟨_, hlt, e, (V.starIds _ _).mpr ⟨s, hs, hc, e⟩⟩
  · intro k s hs hc
    have := V.basisId k s hs
    rwa [hc] at this
  · intro k k' s s' hs hs' hc hc' hlt
    obtain ⟨e, _⟩ := V.basisId_lt hs hc
    obtain ⟨e', _⟩ := V.basisId_lt hs' hc'
    have h1 := nBefore_succ hs
    rw [hc] at h1
    simp only [Bool.false_eq_true, if_false] at h1
    have := nBefore_mono b.stars (show k + 1 ≤ k' by omega)
    omega

/-- C42: negation of wavevectors is an involution on waves that maps a closed star to itself and
exchanges the two stars of a pair; a wave and its negative are never both implicit. -/
theorem C42_inversion (h : finish c eps b0 = .ok b) (i : Nat) (w : Wave K)
    (hw : b.waves[i]? = some w) :
    ∃ j : Nat, ∃ w', w.inverseId = j ∧ b.waves[j]? = some w' ∧ w'.inverseId = i ∧
      w'.dft = (shiftVec b.dims (negate w.bz)).2 ∧ (w.implicit = false ∨ w'.implicit = false) ∧
      ∀ s, b.stars[w.starId]? = some s →
        (s.invertFlag = 0 → w'.starId = w.starId) ∧ (s.invertFlag = 1 → w'.starId = w.starId + 1) := by
  have V := valid_of_finish h
  obtain ⟨j, w', e1, e2, e3, e4, e5⟩ := V.inverse i w hw
  refine ⟨j, w', e1, e2, e3, e4, ?_, fun s hs => ⟨fun hf => ?_, fun hf => ?_⟩⟩
  · cases h1 : w.implicit
    · exact .inl rfl
    · cases h2 : w'.implicit
      · exact .inr rfl
      · exact absurd ⟨h1, h2⟩ e5
  · exact (V.closedInv _ s hs hf i w hw rfl j w' e1 e2).1
  · exact (V.openInv _ s hs hf i w hw rfl j w' e1 e2).1

/-- C42: what `isValid` alone guarantees about any basis, not only one built by `makeBasis`: the table
of basis functions and the star indices are inverse to each other, cancelled stars have index -1, and
all waves of a cancelled star but the first have coefficients that vanish up to the tolerance. -/
theorem C42_isValid (h : isValid c eps b = .ok true) :
    (∀ ib < b.nBasis, ∃ k s, b.starIds[ib]? = some k ∧ b.stars[k]? = some s ∧ s.cancel = false ∧
      s.basisId = (ib : Int)) ∧
    (∀ (k : Nat) s, b.stars[k]? = some s → s.cancel = true → s.basisId = -1) ∧
    (∀ (k : Nat) s, b.stars[k]? = some s → s.cancel = false →
      ∃ ib : Nat, s.basisId = ib ∧ b.starIds[ib]? = some k) ∧
    (∀ (k : Nat) s, b.stars[k]? = some s → s.cancel = true → ∀ i, s.beginId < i → i < s.endId →
      ∃ w, b.waves[i]? = some w ∧ Cx.normSq w.coeff ≤ eps * eps) := by
  obtain ⟨m, C⟩ := checked_of_isValid h
  have star : ∀ (k : Nat) s, b.stars[k]? = some s → checkBasisId b k s = .ok true ∧
      (s.cancel = true → loopAll (checkZero eps b)
        (List.range' (s.beginId + 1) (s.endId - (s.beginId + 1))) = .ok true) := by
    intro k s hs
    have h := C.hstar k s hs
    unfold checkStar at h
    simp only at h
    split at h
    · simp at h
    rw [Res.bind_eq_ok] at h
    obtain ⟨r0, -, h⟩ := h
    cases r0 with
    | false => simp at h
    | true =>
    simp only [Bool.not_true, Bool.false_eq_true, if_false] at h
    rw [Res.bind_eq_ok] at h
    obtain ⟨r1, -, h⟩ := h
    cases r1 with
    | false => simp at h
    | true =>
    simp only [Bool.not_true, Bool.false_eq_true, if_false] at h
    rw [Res.bind_eq_ok] at h
    obtain ⟨r2, -, h⟩ := h
    cases r2 with
    | false => simp at h
    | true =>
    simp only [Bool.not_true, Bool.false_eq_true, if_false] at h
    split at h
    · simp at h
    rw [Res.bind_eq_ok] at h
    obtain ⟨r3, hr3, h⟩ := h
    cases r3 with
    | false => simp at h
    | true =>
    simp only [Bool.not_true, Bool.false_eq_true, if_false] at h
    rw [Res.bind_eq_ok] at h
    obtain ⟨r4, -, h⟩ := h
    cases r4 with
    | false => simp at h
    | true =>
    simp only [Bool.not_true, Bool.false_eq_true, if_false] at h
    refine ⟨hr3, fun hc => ?_⟩
    rw [if_pos hc] at h
    exact h
  refine ⟨?_, ?_, ?_, ?_⟩
  · intro ib hib
    have h := C.hbasis ib hib
    unfold checkBasis at h
    simp only [Res.bind_eq_ok] at h
    obtain ⟨k, hk, s, hs, h⟩ := h
    split at h
    · simp at h
    · rename_i hc
      refine ⟨k, s, get_ok.mp hk, get_ok.mp hs, by simpa using hc, ?_⟩
      simpa using h
  · intro k s hs hc
    have h := (star k s hs).1
    unfold checkBasisId at h
    rw [if_pos hc] at h
    simpa using h
  · intro k s hs hc
    have h := (star k s hs).1
    unfold checkBasisId at h
    rw [if_neg (by simp [hc]), Res.bind_eq_ok] at h
    obtain ⟨k', hk', h⟩ := h
    rw [getI_ok] at hk'
    refine ⟨s.basisId.toNat, (Int.toNat_of_nonneg hk'.1).symm, ?_⟩
    rw [hk'.2]
    simpa using h
  · intro k s hs hc i h1 h2
    have h := loopAll_true.mp ((star k s hs).2 hc) i (by rw [List.mem_range'_1]; omega)
    unfold checkZero at h
    rw [Res.bind_eq_ok] at h
    obtain ⟨w, hw, h⟩ := h
    exact ⟨w, get_ok.mp hw, by simpa using h⟩

/-! ## C43 -/

/-- C43: k-grid values produced from basis coefficients: every point of the half mesh receives
the amplitude of its star times the coefficient of its wave (zero for a cancelled star). -/
theorem C43_values (V : Valid c eps b) (r2 : K) (inp : List K) (hin : inp.length = b.nBasis)
    (m : Mesh) (hm : Mesh.setDimensions (kMesh b.dims) = some m) (out : List (Cx K))
    (hout : m.size ≤ out.length) :
    ∃ k, basisToK b r2 (kMesh b.dims) inp out = .ok k ∧ k.length = out.length ∧
      ∀ (i : Nat) w s, b.waves[i]? = some w → w.implicit = false → b.stars[w.starId]? = some s →
        k[(m.rank w.dft).toNat]? = some (comp r2 inp s * w.coeff) := by
  obtain ⟨k, h1, h2, h3⟩ := basisToK_spec V ⟨hm⟩ r2 inp hin out hout
  refine ⟨k, h1, h2, fun i w s hw hi hs => ?_⟩
  rw [h3 i w hw hi, waveVal, hs]

/-- Equal lists of basis coefficients. -/
theorem eq_of_coef (V : Valid c eps b) {l l' : List K} (h : l.length = b.nBasis)
    (h' : l'.length = b.nBasis)
    (he : ∀ (j k : Nat) (s : Star), b.stars[k]? = some s → s.cancel = false → s.basisId = (j : Int) →
      l[j]? = l'[j]?) : l = l' := by
  apply List.ext_getElem?
  intro j
  by_cases hj : j < b.nBasis
  · have hlt : j < b.starIds.length := by rw [V.nBasis.2]; exact hj
    obtain ⟨s, h1, h2, h3⟩ := (V.starIds j _).mp (List.getElem?_eq_getElem hlt)
    exact he j _ s h1 h2 h3
  · rw [List.getElem?_eq_none (by omega), List.getElem?_eq_none (by omega)]

theorem Paired.next {l : List Star} (hp : Paired l) : ∀ (k : Nat) s, l[k]? = some s →
    s.invertFlag = 1 → ∃ t, l[k + 1]? = some t ∧ t.invertFlag = -1 ∧ t.cancel = s.cancel := by
  induction hp with
  | nil => intro k s h; simp at h
  | closed a rest h0 hr ih =>
    intro k s h hf
    cases k with
    | zero => simp at h; subst h; omega
    | succ k => simpa using ih k s (by simpa using h) hf
  | opened a t rest h1 h2 h3 h4 hr ih =>
    intro k s h hf
    match k with
    | 0 => simp at h; subst h; exact ⟨t, rfl, h2, h4⟩
    | 1 => simp at h; subst h; omega
    | k + 2 => simpa using ih k s (by simpa using h) hf

theorem Paired.prev {l : List Star} (hp : Paired l) : ∀ (k : Nat) s, l[k]? = some s →
    s.invertFlag ≠ 0 → s.invertFlag ≠ 1 →
    ∃ k' p, k = k' + 1 ∧ l[k']? = some p ∧ p.invertFlag = 1 ∧ p.cancel = s.cancel ∧
      s.size = p.size := by
  induction hp with
  | nil => intro k s h; simp at h
  | closed a rest h0 hr ih =>
    intro k s h hf
    cases k with
    | zero => simp at h; subst h; exact absurd h0 hf
    | succ k =>
      intro hf'
      obtain ⟨k', p, rfl, h1, h2⟩ := ih k s (by simpa using h) hf hf'
      exact ⟨k' + 1, p, rfl, by simpa using h1, h2⟩
  | opened a t rest h1 h2 h3 h4 hr ih =>
    intro k s h hf hf'
    match k with
    | 0 => simp at h; subst h; exact absurd h1 hf'
    | 1 => simp at h; subst h; exact ⟨0, a, rfl, rfl, h1, h4.symm, h3⟩
    | k + 2 =>
      obtain ⟨k', p, rfl, h1, h2⟩ := ih k s (by simpa using h) hf hf'
      exact ⟨k' + 2, p, rfl, by simpa using h1, h2⟩

/-- By counting, the inverse of a wave in the second star of a pair lies in the first. -/
theorem secondInv (V : Valid c eps b) {k : Nat} {s t : Star} (hs : b.stars[k]? = some s)
    (ht : b.stars[k + 1]? = some t) (hf : s.invertFlag = 1) (hsz : t.size = s.size)
    {i j : Nat} {w w' : Wave K} (hw : b.waves[i]? = some w) (hk : w.starId = k + 1)
    (hj : w.inverseId = j) (hw' : b.waves[j]? = some w') : w'.starId = k := by
  have e1 := V.sizes s (List.mem_of_getElem? hs)
  have e2 := V.sizes t (List.mem_of_getElem? ht)
  have hx : ∀ x : Fin s.size, ∃ y : Fin s.size, ∃ v v' : Wave K, b.waves[s.beginId + x.1]? = some v ∧
      v.starId = k ∧ v.inverseId = ((t.beginId + y.1 : Nat) : Int) ∧
      b.waves[t.beginId + y.1]? = some v' ∧ v'.inverseId = ((s.beginId + x.1 : Nat) : Int) := by
    intro x
    obtain ⟨v, hv, hvk⟩ := V.starWave k s hs (s.beginId + x.1) (by omega) (by have := x.2; omega)
    obtain ⟨j', v', a1, a2, a3, _⟩ := V.inverse _ v hv
    have a4 := (V.openInv k s hs hf _ v hv hvk j' v' a1 a2).1
    obtain ⟨t', ht', b1, b2⟩ := V.waveStar j' v' a2
    rw [a4, ht] at ht'
    have : t = t' := by simpa using ht'
    subst this
    refine ⟨⟨j' - t.beginId, by omega⟩, v, v', hv, hvk, ?_, ?_, a3⟩
    · rw [a1]; simp only; congr 1; omega
    · simp only
      rwa [show t.beginId + (j' - t.beginId) = j' by omega]
  choose f v v' hv hvk hvi hv' hvi' using hx
  have hinj : Function.Injective f := by
    intro x x' e
    have h1 := hv' x
    rw [e, hv' x'] at h1
    have h2 := hvi' x
    have h3 := hvi' x'
    rw [← Option.some.inj h1] at h2
    rw [h2] at h3
    exact Fin.ext (by omega)
  have hsurj := Finite.injective_iff_surjective.mp hinj
  obtain ⟨t', ht', b1, b2⟩ := V.waveStar i w hw
  rw [hk, ht] at ht'
  have : t = t' := by simpa using ht'
  subst this
  obtain ⟨x, hx⟩ := hsurj ⟨i - t.beginId, by omega⟩
  have h1 := hv' x
  rw [hx] at h1
  simp only at h1
  rw [show t.beginId + (i - t.beginId) = i by omega, hw] at h1
  have h2 := hvi' x
  rw [← Option.some.inj h1, hj] at h2
  have h3 := hv x
  rw [show s.beginId + x.1 = j by omega, hw'] at h3
  rw [Option.some.inj h3]
  exact hvk x

/-- Amplitudes of the two stars of a pair are complex conjugates. -/
theorem comp_conj (V : Valid c eps b) (r2 : K) (inp : List K) {k : Nat} {s t : Star}
    (hs : b.stars[k]? = some s) (ht : b.stars[k + 1]? = some t) (hf : s.invertFlag = 1)
    (hft : t.invertFlag = -1) (hc : s.cancel = false) (hct : t.cancel = false) :
    comp r2 inp t = Cx.conj (comp r2 inp s) := by
  obtain ⟨e1, _⟩ := V.basisId_lt hs hc
  obtain ⟨e2, _⟩ := V.basisId_lt ht hct
  have h := nBefore_succ hs
  rw [hc] at h
  simp only [Bool.false_eq_true, if_false] at h
  have e : t.basisId = s.basisId + 1 := by omega
  simp only [comp, hct, hft, hc, hf, e]
  ext <;> simp [neg_div]

variable [IsStrictOrderedRing K]

/-- C43: `convertKGridToBasis` after `convertBasisToKGrid` returns the original coefficients, for
every well-formed basis and every array of coefficients. -/
theorem C43_round_trip (V : Valid c eps b) (N : Nondegenerate b) (r2 : K) (hr2 : r2 ≠ 0)
    (inp : List K) (hin : inp.length = b.nBasis)
    (m : Mesh) (hm : Mesh.setDimensions (kMesh b.dims) = some m) (out : List (Cx K))
    (hout : m.size ≤ out.length) (out' : List K) (hout' : out'.length = b.nBasis) :
    ∃ k, basisToK b r2 (kMesh b.dims) inp out = .ok k ∧
      kToBasis b r2 (kMesh b.dims) k out' = .ok inp := by
  obtain ⟨k, h1, h2, h3⟩ := basisToK_spec V ⟨hm⟩ r2 inp hin out hout
  refine ⟨k, h1, ?_⟩
  unfold kToBasis
  rw [hm]
  simp only
  unfold zeroFirst
  rw [if_pos (by omega), Res.ok_bind]
  let C : Nat → Cx K := fun j => match b.stars[j]? with
    | some s => comp r2 inp s
    | none => 0
  have hC : ∀ (j : Nat) s, b.stars[j]? = some s → C j = comp r2 inp s := by
    intro j s h; simp only [C, h]
  obtain ⟨o, g1, g2, g3⟩ := fromKLoop_spec V N ⟨hm⟩ r2 k C
    (by
      intro i w s hw hi hs hc
      rw [h3 i w hw hi, waveVal, hs, hC _ s hs])
    (by
      intro j s hs hf hc
      obtain ⟨t, ht, hft, hct⟩ := V.paired.next j s hs hf
      rw [hC _ s hs, hC _ t ht]
      exact comp_conj V r2 inp hs ht hf hft hc (by rw [hct]; exact hc))
    b.stars.length 0 b.stars (List.replicate b.nBasis 0 ++ out'.drop b.nBasis) rfl (by simp) (by simp)
    V.paired (by simp; omega) (by intro j k' s h; omega)
  rw [g1]
  congr 1
  apply eq_of_coef V g2 hin
  intro j j' s hs hc hb
  rw [g3 j j' s hs hc hb, hC j' s hs]
  obtain ⟨e, hlt⟩ := V.basisId_lt hs hc
  have hat : ∀ x : Nat, x < inp.length → inp[x]? = some (at0 inp x) := by
    intro x hx
    simp only [at0, Int.toNat_natCast]
    rw [List.getElem?_eq_getElem hx]; rfl
  rw [hat j (by omega), ← hb]
  congr 1
  simp only [comp, hc, coefOf]
  by_cases f0 : s.invertFlag = 0
  · simp [f0]
  · by_cases f1 : s.invertFlag = 1
    · simp [f1]; field_simp
    · simp [f0, f1]; field_simp

/-- A k-grid array that is exactly symmetric (spec): on every star the values are one amplitude
times the coefficients, zero if cancelled; the amplitude is real for a closed star and conjugate
between the two stars of a pair. -/
structure ExactlySymmetric (b : BasisData K) (m : Mesh) (k : List (Cx K)) (C : Nat → Cx K) :
    Prop where
  length : (k.length : Int) = m.size
  values : ∀ (i : Nat) w s, b.waves[i]? = some w → w.implicit = false → b.stars[w.starId]? = some s →
    k[(m.rank w.dft).toNat]? = some (if s.cancel then 0 else C w.starId * w.coeff)
  real : ∀ (j : Nat) s, b.stars[j]? = some s → s.invertFlag = 0 → (C j).im = 0
  pair : ∀ (j : Nat) s, b.stars[j]? = some s → s.invertFlag = 1 → C (j + 1) = Cx.conj (C j)

/-- C43: conversely an exactly symmetric k-grid array is recovered from its basis coefficients. -/
theorem C43_symmetric_recovered (V : Valid c eps b) (N : Nondegenerate b) (r2 : K) (hr2 : r2 ≠ 0)
    (m : Mesh) (hm : Mesh.setDimensions (kMesh b.dims) = some m) (k : List (Cx K)) (C : Nat → Cx K)
    (S : ExactlySymmetric b m k C) (out : List (Cx K)) (hout : (out.length : Int) = m.size)
    (out' : List K) (hout' : out'.length = b.nBasis) :
    ∃ a, kToBasis b r2 (kMesh b.dims) k out' = .ok a ∧
      basisToK b r2 (kMesh b.dims) a out = .ok k := by
  have hfrom := fromKLoop_spec V N ⟨hm⟩ r2 k C
    (by
      intro i w s hw hi hs hc
      rw [S.values i w s hw hi hs, hc]; rfl)
    (fun j s hs hf hc => S.pair j s hs hf)
    b.stars.length 0 b.stars (List.replicate b.nBasis 0 ++ out'.drop b.nBasis) rfl (by simp) (by simp)
    V.paired (by simp; omega) (by intro j k' s h; omega)
  obtain ⟨a, g1, g2, g3⟩ := hfrom
  refine ⟨a, ?_, ?_⟩
  · unfold kToBasis
    rw [hm]
    simp only
    unfold zeroFirst
    rw [if_pos (by omega), Res.ok_bind]
    exact g1
  obtain ⟨k', h1, h2, h3⟩ := basisToK_spec V ⟨hm⟩ r2 a g2 out (by omega)
  rw [h1]
  congr 1
  have hlen : k'.length = k.length := by have := S.length; omega
  have hat : ∀ (j : Nat) k' s, b.stars[k']? = some s → s.cancel = false → s.basisId = (j : Int) →
      at0 a s.basisId = coefOf r2 s (C k') := by
    intro j k' s hs hc hb
    unfold at0
    rw [hb, Int.toNat_natCast, g3 j k' s hs hc hb]; rfl
  apply List.ext_getElem?
  intro r
  by_cases hr : r < k.length
  · obtain ⟨i, w, hw, hi, hrk⟩ := V.rank_surj ⟨hm⟩ (r := r) (by have := S.length; omega)
    have e : (m.rank w.dft).toNat = r := by omega
    obtain ⟨s, hs, _, _⟩ := V.waveStar i w hw
    have q1 := h3 i w hw hi
    have q2 := S.values i w s hw hi hs
    rw [e] at q1 q2
    rw [q1, q2, waveVal, hs]
    congr 1
    by_cases hc : s.cancel = true
    · simp only [comp, hc, if_true]; rw [Cx.zero_mul']
    simp only [Bool.not_eq_true] at hc
    rw [hc]
    simp only [Bool.false_eq_true, if_false]
    congr 1
    obtain ⟨eb, hlt⟩ := V.basisId_lt hs hc
    by_cases f0 : s.invertFlag = 0
    · have := hat _ _ s hs hc eb
      have him := S.real _ s hs f0
      simp only [comp, hc, f0, this, coefOf]
      ext <;> simp [him]
    · by_cases f1 : s.invertFlag = 1
      · obtain ⟨t, ht, hft, hct⟩ := V.paired.next _ s hs f1
        have hct' : t.cancel = false := by rw [hct]; exact hc
        obtain ⟨eb', _⟩ := V.basisId_lt ht hct'
        have hsucc := nBefore_succ hs
        rw [hc] at hsucc
        simp only [Bool.false_eq_true, if_false] at hsucc
        have e1 := hat _ _ s hs hc eb
        have e2 := hat _ _ t ht hct' eb'
        rw [show t.basisId = s.basisId + 1 by omega, S.pair _ s hs f1] at e2
        simp only [comp, hc, f1, e1, e2, coefOf, hft]
        ext <;> simp <;> field_simp
      · obtain ⟨j', p, hj, hp, hpf, hpc, _⟩ := V.paired.prev _ s hs f0 f1
        have hpc' : p.cancel = false := by rw [hpc]; exact hc
        obtain ⟨eb', _⟩ := V.basisId_lt hp hpc'
        have hsucc := nBefore_succ hp
        rw [hpc'] at hsucc
        simp only [Bool.false_eq_true, if_false] at hsucc
        have e1 := hat _ _ s hs hc eb
        have e2 := hat _ _ p hp hpc' eb'
        rw [hj] at eb
        rw [show p.basisId = s.basisId - 1 by omega] at e2
        have e3 := S.pair _ p hp hpf
        rw [← hj] at e3
        simp only [comp, hc, f0, f1, e1, e2, coefOf, hpf, e3]
        ext <;> simp <;> field_simp
  · rw [List.getElem?_eq_none (by omega), List.getElem?_eq_none (by omega)]

/-- C43: the k-grid array belongs to a real field: values at `G` and `-G` (when both are stored)
are complex conjugates, if coefficients of inverse waves are exact conjugates. -/
theorem C43_hermitian (V : Valid c 0 b) (r2 : K) (inp : List K) (hin : inp.length = b.nBasis)
    (m : Mesh) (hm : Mesh.setDimensions (kMesh b.dims) = some m) (out : List (Cx K))
    (hout : m.size ≤ out.length) :
    ∃ k, basisToK b r2 (kMesh b.dims) inp out = .ok k ∧
      ∀ (i j : Nat) w w', b.waves[i]? = some w → w.inverseId = j → b.waves[j]? = some w' →
        w.implicit = false → w'.implicit = false →
        ∃ z, k[(m.rank w.dft).toNat]? = some z ∧ k[(m.rank w'.dft).toNat]? = some (Cx.conj z) := by
  obtain ⟨k, h1, h2, h3⟩ := basisToK_spec V ⟨hm⟩ r2 inp hin out hout
  refine ⟨k, h1, ?_⟩
  have hexact : ∀ z z' : Cx K, Cx.normSq (Cx.conj z' - z) ≤ 0 * 0 → z = Cx.conj z' := by
    intro z z' h
    have h0 := Cx.normSq_nonneg (Cx.conj z' - z)
    have := Cx.normSq_eq_zero.mp (le_antisymm (by simpa using h) h0)
    have e1 := congrArg Cx.re this
    have e2 := congrArg Cx.im this
    simp at e1 e2
    ext
    · simp; linear_combination -e1
    · simp; linear_combination -e2
  have hzero : ∀ z : Cx K, (0 : Cx K) * z = 0 := Cx.zero_mul'
  have hc0 : Cx.conj (0 : Cx K) = 0 := by ext <;> simp
  -- it is enough to treat a wave of a star that is not the second of a pair
  have main : ∀ (i j : Nat) w w', b.waves[i]? = some w → w.inverseId = j → b.waves[j]? = some w' →
      (∀ s, b.stars[w.starId]? = some s → s.invertFlag = 0 ∨ s.invertFlag = 1) →
      waveVal b r2 inp w' = Cx.conj (waveVal b r2 inp w) := by
    intro i j w w' hw hj hw' hflag
    obtain ⟨s, hs, _, _⟩ := V.waveStar i w hw
    obtain ⟨s', hs', _, _⟩ := V.waveStar j w' hw'
    unfold waveVal
    rw [hs, hs']
    simp only
    rcases hflag s hs with f0 | f1
    · obtain ⟨e1, e2⟩ := V.closedInv _ s hs f0 i w hw rfl j w' hj hw'
      rw [e1, hs] at hs'; cases hs'
      by_cases hc : s.cancel = true
      · simp only [comp, hc, if_true]; rw [hzero, hzero, hc0]
      · simp only [Bool.not_eq_true] at hc
        rw [hexact _ _ (e2 hc), Cx.conj_mul, Cx.conj_conj]
        congr 1
        simp [comp, hc, f0, Cx.conj]
    · obtain ⟨e1, e2⟩ := V.openInv _ s hs f1 i w hw rfl j w' hj hw'
      obtain ⟨t, ht, hft, hct⟩ := V.paired.next _ s hs f1
      rw [e1, ht] at hs'
      have : s' = t := by simpa using hs'.symm
      subst this
      by_cases hc : s.cancel = true
      · have : s'.cancel = true := by rw [hct]; exact hc
        simp only [comp, hc, this, if_true]; rw [hzero, hzero, hc0]
      · simp only [Bool.not_eq_true] at hc
        have hct' : s'.cancel = false := by rw [hct]; exact hc
        rw [hexact _ _ (e2 hc), Cx.conj_mul, Cx.conj_conj,
          comp_conj V r2 inp hs ht f1 hft hc hct']
  intro i j w w' hw hj hw' hi hi'
  refine ⟨_, h3 i w hw hi, ?_⟩
  rw [h3 j w' hw' hi']
  congr 1
  obtain ⟨s, hs, _, _⟩ := V.waveStar i w hw
  by_cases hf : s.invertFlag = 0 ∨ s.invertFlag = 1
  · exact main i j w w' hw hj hw' (fun s' h => by rw [hs] at h; cases h; exact hf)
  · rw [not_or] at hf
    -- `w` is in the second star of a pair; its inverse is in the first
    obtain ⟨j0, x, a1, a2, a3, a4, a5⟩ := V.inverse i w hw
    rw [hj] at a1
    have : j0 = j := by omega
    subst this
    rw [hw'] at a2; cases a2
    obtain ⟨s', hs', _, _⟩ := V.waveStar j0 w' hw'
    have hf' : s'.invertFlag = 0 ∨ s'.invertFlag = 1 := by
      obtain ⟨k', p, hk', hp, hpf, hpc, hps⟩ := V.paired.prev _ s hs hf.1 hf.2
      rw [hk'] at hs
      have := secondInv V hp hs hpf hps hw hk' hj hw'
      rw [this, hp] at hs'
      rw [← Option.some.inj hs']
      exact .inr hpf
    have := main j0 i w' w hw' a3 hw (fun s'' h => by rw [hs'] at h; cases h; exact hf')
    rw [this, Cx.conj_conj]

/-! ## A concrete basis

One dimension, four mesh points, no symmetry: stars `{0}` (closed), `{1}`, `{-1}` (a pair) and
`{2}` (closed); a fifth variant with a cancelled star is used for C45. -/

/-- Squared norm `G²` and minimum image on a mesh of four points. -/
def exCell : Cell ℚ where
  ksq v := (v.map fun x => (x * x : ℚ)).sum
  minIm v := v.map fun x => if x > 2 then x - 4 else if x < -2 then x + 4 else x

/-- Waves and stars before the final assignments. -/
def exStart : BasisData ℚ where
  dims := [4]
  waves := [⟨⟨1, 0⟩, 0, [0], [0], 0, 0, false⟩, ⟨⟨1, 0⟩, 1, [1], [1], 1, 2, false⟩,
    ⟨⟨1, 0⟩, 1, [3], [-1], 2, 1, false⟩, ⟨⟨1, 0⟩, 4, [2], [2], 3, 3, false⟩]
  waveIds := [0, 0, 0, 0]
  stars := [⟨1, 0, 1, 0, [0], 0, 0, false⟩, ⟨1, 1, 2, 1, [1], 0, 0, false⟩,
    ⟨1, 2, 3, -1, [-1], 0, 0, false⟩, ⟨1, 3, 4, 0, [2], 0, 0, false⟩]
  starIds := []
  nBasis := 4

/-- The finished basis. -/
def exBasis : BasisData ℚ :=
  { exStart with
    waves := [⟨⟨1, 0⟩, 0, [0], [0], 0, 0, false⟩, ⟨⟨1, 0⟩, 1, [1], [1], 1, 2, false⟩,
      ⟨⟨1, 0⟩, 1, [3], [-1], 2, 1, true⟩, ⟨⟨1, 0⟩, 4, [2], [2], 3, 3, false⟩]
    waveIds := [0, 1, 3, 2]
    stars := [⟨1, 0, 1, 0, [0], 0, 0, false⟩, ⟨1, 1, 2, 1, [1], 1, 1, false⟩,
      ⟨1, 2, 3, -1, [-1], 2, 2, false⟩, ⟨1, 3, 4, 0, [2], 3, 3, false⟩]
    starIds := [0, 1, 2, 3] }

theorem exBasis_finish : finish exCell 0 exStart = .ok exBasis := by decide +kernel

-- hypotheses of C42 and C43
example : Valid exCell 0 exBasis := C42_valid exBasis_finish

theorem exBasis_nondegenerate : Nondegenerate exBasis := by
  have key : ∀ w ∈ exBasis.waves, Cx.normSq w.coeff = 1 := by decide +kernel
  refine ⟨by decide +kernel, fun i w s hw _ _ => ?_⟩
  rw [key w (List.mem_of_getElem? hw)]
  norm_num

example : ∃ k, basisToK exBasis 2 (kMesh [4]) [3, 4, 5, 6] [0, 0, 0] = .ok k ∧
    kToBasis exBasis 2 (kMesh [4]) k [0, 0, 0, 0] = .ok [3, 4, 5, 6] :=
  C43_round_trip (C42_valid exBasis_finish) exBasis_nondegenerate 2 (by norm_num) [3, 4, 5, 6] rfl
    ⟨[3], [1], 3⟩ (by decide) [0, 0, 0] (by simp) [0, 0, 0, 0] rfl

example : basisToK exBasis 2 (kMesh [4]) [3, 4, 5, 6] [0, 0, 0] =
    .ok [⟨3, 0⟩, ⟨2, -5 / 2⟩, ⟨6, 0⟩] := by decide +kernel

-- a defect in the data makes construction fail: the two stars of the pair in the wrong order
example : finish exCell 0 { exStart with
    stars := [⟨1, 0, 1, 0, [0], 0, 0, false⟩, ⟨1, 1, 2, -1, [1], 0, 0, false⟩,
      ⟨1, 2, 3, 1, [-1], 0, 0, false⟩, ⟨1, 3, 4, 0, [2], 0, 0, false⟩] } = .throw := by
  decide +kernel

end Verif.Basis
