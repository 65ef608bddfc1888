import Verif.Basis.FileProps

/-!
# Lemmas about basis-format files read by a program with another basis
-/

set_option autoImplicit false

namespace Verif.Basis
open Verif.Mesh (IntVec Mesh InRange shiftVec)
open Verif.FieldIo (load store)

set_option linter.unusedSectionVars false
variable {K : Type} [Field K] [LinearOrder K]
variable {c : Cell K} {eps : K} {b : BasisData K}

/-- Rows that a program with basis `b` can use: rows with a wave that is not a minimum image of its mesh and cell, rows
with the characteristic wave and the size of a closed star, and two rows with those of a pair of open stars. -/
inductive Readable (c : Cell K) (b : BasisData K) : List (Row K) → Prop
  | nil : Readable c b []
  | skip (r : Row K) (rows : List (Row K)) : r.wave ≠ c.minIm r.wave → Readable c b rows → Readable c b (r :: rows)
  | closed (k : Nat) (s : Star) (vals : List K) (rows : List (Row K)) : b.stars[k]? = some s → s.cancel = false →
      s.invertFlag = 0 → Readable c b rows → Readable c b (⟨vals, s.waveBz, s.size⟩ :: rows)
  | opened (k : Nat) (s t : Star) (v v' : List K) (rows : List (Row K)) : b.stars[k]? = some s →
      b.stars[k + 1]? = some t → s.cancel = false → s.invertFlag = 1 → Readable c b rows →
      Readable c b (⟨v, s.waveBz, s.size⟩ :: ⟨v', t.waveBz, t.size⟩ :: rows)

theorem setColumn_get {ib : Nat} : ∀ (F : List (List K)) (vals : List K), vals.length = F.length →
    (∀ f ∈ F, ib < f.length) → ∃ F', setColumn F ib vals = .ok F' ∧ F'.length = F.length ∧
      ∀ (j : Nat) f g, F[j]? = some f → F'[j]? = some g → g.length = f.length ∧ g[ib]? = vals[j]? ∧
        ∀ i, i ≠ ib → g[i]? = f[i]? := by
  intro F
  induction F with
  | nil => intro vals h _; exact ⟨[], rfl, rfl, by simp⟩
  | cons f F ih =>
    intro vals h hl
    obtain ⟨v, vs, rfl⟩ : ∃ v vs, vals = v :: vs := by
      cases vals with
      | nil => simp at h
      | cons v vs => exact ⟨v, vs, rfl⟩
    obtain ⟨F', h1, h2, h3⟩ := ih vs (by simpa using h) fun g hg => hl g (by simp [hg])
    have hlt := hl f (by simp)
    have hs := store_ok (l := f) (r := (ib : Int)) (by omega) (by simpa using hlt) v
    refine ⟨f.set ib v :: F', ?_, by simp [h2], ?_⟩
    · simp only [setColumn, hs, h1, Res.ok_bind, Int.toNat_natCast]
      rfl
    · intro j f' g hf hg
      cases j with
      | zero =>
        simp only [List.getElem?_cons_zero, Option.some.injEq] at hf hg ⊢
        subst hf; subst hg
        refine ⟨by simp, by simp [hlt], fun i hi => ?_⟩
        rw [List.getElem?_set_ne (fun h => hi h.symm)]
      | succ j =>
        simp only [List.getElem?_cons_succ] at hf hg ⊢
        exact h3 j f' g hf hg

/-- A basis function belongs to one star. -/
theorem nBefore_inj {k k' : Nat} {s s' : Star} (hs : b.stars[k]? = some s)
    (hs' : b.stars[k']? = some s') (hc : s.cancel = false) (hc' : s'.cancel = false)
    (h : nBefore b.stars k = nBefore b.stars k') : k = k' := by
  have h1 := nBefore_succ hs
  have h2 := nBefore_succ hs'
  rw [hc] at h1
  rw [hc'] at h2
  simp only [Bool.false_eq_true, if_false] at h1 h2
  rcases lt_trichotomy k k' with hlt | rfl | hlt
  · have := nBefore_mono b.stars (show k + 1 ≤ k' from hlt); omega
  · rfl
  · have := nBefore_mono b.stars (show k' + 1 ≤ k from hlt); omega

/-- Stars with one characteristic wave are one star. -/
theorem waveBz_inj (V : Valid c eps b) (N : Nondegenerate b) (G : GoodImages c b) {k k' : Nat} {s s' : Star}
    (hs : b.stars[k]? = some s) (hs' : b.stars[k']? = some s') (hc : s.cancel = false) (hc' : s'.cancel = false)
    (h : s.waveBz = s'.waveBz) : k = k' := by
  obtain ⟨m, hm⟩ := (Mesh.C01_setDimensions_iff b.dims).mpr V.mesh
  obtain ⟨i, hi⟩ := findStar_waveBz V N G hm hs hc
  obtain ⟨i', hi'⟩ := findStar_waveBz V N G hm hs' hc'
  rw [h, hi'] at hi
  simp only [Res.ok.injEq, Prod.mk.injEq] at hi
  exact hi.2.1.symm

/-- What the fields contain after rows have been read into `F`. -/
def Filled (b : BasisData K) (rows : List (Row K)) (F F' : List (List K)) : Prop :=
  F'.length = F.length ∧ ∀ (j : Nat) f g, F[j]? = some f → F'[j]? = some g → g.length = f.length ∧
    ∀ (k : Nat) s, b.stars[k]? = some s → s.cancel = false →
      (∀ r ∈ rows, r.wave = s.waveBz → g[nBefore b.stars k]? = r.vals[j]?) ∧
      ((∀ r ∈ rows, r.wave ≠ s.waveBz) → g[nBefore b.stars k]? = f[nBefore b.stars k]?)

theorem Filled.nil (F : List (List K)) : Filled b [] F F := by
  refine ⟨rfl, fun j f g hf hg => ?_⟩
  rw [hf] at hg
  cases hg
  exact ⟨rfl, fun k s _ _ => ⟨by simp, fun _ => rfl⟩⟩

/-- One more row, with the characteristic wave of star `k`, whose column is set first. -/
theorem Filled.cons (V : Valid c eps b) (N : Nondegenerate b) (G : GoodImages c b) {k : Nat} {s : Star}
    (hs : b.stars[k]? = some s) (hc : s.cancel = false) {r : Row K} {rows : List (Row K)} (hr : r.wave = s.waveBz)
    (hn : ∀ r' ∈ rows, r'.wave ≠ r.wave) {F F1 F' : List (List K)} (hl : F1.length = F.length)
    (h1 : ∀ (j : Nat) f g, F[j]? = some f → F1[j]? = some g → g.length = f.length ∧
      g[nBefore b.stars k]? = r.vals[j]? ∧ ∀ i, i ≠ nBefore b.stars k → g[i]? = f[i]?)
    (h2 : Filled b rows F1 F') : Filled b (r :: rows) F F' := by
  refine ⟨h2.1.trans hl, fun j f g hf hg => ?_⟩
  obtain ⟨f1, hf1⟩ : ∃ f1, F1[j]? = some f1 := by
    have : j < F.length := (List.getElem?_eq_some_iff.mp hf).1
    exact ⟨_, List.getElem?_eq_getElem (by omega)⟩
  obtain ⟨a1, a2, a3⟩ := h1 j f f1 hf hf1
  obtain ⟨b1, b2⟩ := h2.2 j f1 g hf1 hg
  refine ⟨b1.trans a1, fun k' s' hs' hc' => ⟨fun r' hr' hw => ?_, fun hno => ?_⟩⟩
  · rcases List.mem_cons.mp hr' with rfl | hr'
    · have : k' = k := waveBz_inj V N G hs' hs hc' hc (hw.symm.trans hr)
      subst this
      rw [(b2 k' s' hs' hc').2 fun r'' h'' hw' => hn r'' h'' (hw'.trans hw.symm), a2]
    · exact (b2 k' s' hs' hc').1 r' hr' hw
  · rw [(b2 k' s' hs' hc').2 fun r'' h'' => hno r'' (by simp [h''])]
    apply a3
    intro he
    have := nBefore_inj hs' hs hc' hc he
    subst this
    rw [hs] at hs'
    cases hs'
    exact hno r (by simp) hr

theorem Filled.skip {r : Row K} {rows : List (Row K)} (hr : ∀ (k : Nat) s, b.stars[k]? = some s → s.cancel = false →
    r.wave ≠ s.waveBz) {F F' : List (List K)} (h : Filled b rows F F') : Filled b (r :: rows) F F' := by
  refine ⟨h.1, fun j f g hf hg => ⟨(h.2 j f g hf hg).1, fun k s hs hc => ⟨fun r' hr' hw => ?_, fun hno => ?_⟩⟩⟩
  · rcases List.mem_cons.mp hr' with rfl | hr'
    · exact absurd hw (hr k s hs hc)
    · exact ((h.2 j f g hf hg).2 k s hs hc).1 r' hr' hw
  · exact ((h.2 j f g hf hg).2 k s hs hc).2 fun r' hr' => hno r' (by simp [hr'])

/-- The reading loop. -/
theorem readLoop_readable (V : Valid c eps b) (N : Nondegenerate b) (G : GoodImages c b) {m : Mesh}
    (hm : Mesh.setDimensions b.dims = some m) (sqrt : K → K) {rows : List (Row K)} (hR : Readable c b rows) :
    (rows.map Row.wave).Nodup → ∀ F : List (List K), (∀ r ∈ rows, r.vals.length = F.length) →
      (∀ f ∈ F, f.length = b.nBasis) →
      ∃ F', (∀ n rest, readLoop c sqrt b m (rows.length + n) (rows ++ rest) F = readLoop c sqrt b m n rest F') ∧
        Filled b rows F F' := by
  have hlen : ∀ {F F1 : List (List K)} {P : Nat → List K → List K → Prop}, F1.length = F.length →
      (∀ (j : Nat) f g, F[j]? = some f → F1[j]? = some g → g.length = f.length ∧ P j f g) →
      (∀ f ∈ F, f.length = b.nBasis) → ∀ f ∈ F1, f.length = b.nBasis := by
    intro F F1 P h1 h2 h3 g hg
    obtain ⟨j, hj, rfl⟩ := List.getElem_of_mem hg
    have hj' : j < F.length := by omega
    rw [(h2 j F[j] F1[j] (List.getElem?_eq_getElem hj') (List.getElem?_eq_getElem hj)).1]
    exact h3 _ (List.getElem_mem _)
  induction hR with
  | nil => intro _ F _ _; exact ⟨F, fun n rest => by simp, Filled.nil F⟩
  | skip r rows hne hR ih =>
    intro hnd F hv hF
    obtain ⟨F', h1, h2⟩ := ih (List.nodup_cons.mp hnd).2 F (fun x hx => hv x (by simp [hx])) hF
    refine ⟨F', ?_, Filled.skip (fun k s hs hc he => hne ?_) h2⟩
    · intro n rest
      rw [List.length_cons, Nat.add_right_comm, readLoop.eq_def]
      simp [hne, h1]
    · rw [he, G.fixed s (List.mem_of_getElem? hs) hc]
  | closed k s vals rows hs hc h0 hR ih =>
    intro hnd F hv hF
    obtain ⟨hb, hlt⟩ := V.basisId_lt hs hc
    obtain ⟨i, hi⟩ := findStar_waveBz V N G hm hs hc
    have hmin := G.fixed s (List.mem_of_getElem? hs) hc
    obtain ⟨F1, q1, q2, q3⟩ := setColumn_get (ib := nBefore b.stars k) F vals (hv _ List.mem_cons_self)
      (fun f hf => by rw [hF f hf]; exact hlt)
    obtain ⟨F', h1, h2⟩ := ih (List.nodup_cons.mp hnd).2 F1 (fun x hx => by rw [q2]; exact hv x (by simp [hx]))
      (hlen q2 q3 hF)
    refine ⟨F', ?_, Filled.cons V N G hs hc rfl (fun r' hr' he => ?_) q2 q3 h2⟩
    · intro n rest
      rw [List.length_cons, Nat.add_right_comm, readLoop.eq_def]
      simp [hmin, hi, h0, hb, q1, h1]
    · exact (List.nodup_cons.mp hnd).1 (List.mem_map.mpr ⟨r', hr', he⟩)
  | opened k s t v v' rows hs ht hc hf hR ih =>
    intro hnd F hv hF
    obtain ⟨t', ht', htf, htc⟩ := V.paired.next k s hs hf
    rw [ht] at ht'
    cases ht'
    rw [hc] at htc
    obtain ⟨k', p, e, hp, -, -, hsz⟩ := V.paired.prev (k + 1) t ht (by omega) (by omega)
    obtain rfl : k' = k := by omega
    rw [hs] at hp
    cases hp
    obtain ⟨hb, hlt⟩ := V.basisId_lt hs hc
    obtain ⟨hb', hlt'⟩ := V.basisId_lt ht htc
    obtain ⟨i, hi⟩ := findStar_waveBz V N G hm hs hc
    obtain ⟨i', hi'⟩ := findStar_waveBz V N G hm ht htc
    have hmin := G.fixed s (List.mem_of_getElem? hs) hc
    have hmin' := G.fixed t (List.mem_of_getElem? ht) htc
    have hsucc := nBefore_succ hs
    rw [hc] at hsucc
    simp only [Bool.false_eq_true, if_false] at hsucc
    obtain ⟨F1, q1, q2, q3⟩ := setColumn_get (ib := nBefore b.stars k') F v (hv _ List.mem_cons_self)
      (fun f hf => by rw [hF f hf]; exact hlt)
    have hF1 := hlen q2 q3 hF
    obtain ⟨F2, p1, p2, p3⟩ := setColumn_get (ib := nBefore b.stars (k' + 1)) F1 v'
      (by rw [q2]; exact hv ⟨v', t.waveBz, t.size⟩ (by simp))
      (fun f hf => by rw [hF1 f hf]; exact hlt')
    simp only [List.map_cons, List.nodup_cons, List.mem_cons, not_or] at hnd
    obtain ⟨F', h1, h2⟩ := ih hnd.2.2 F2 (fun x hx => by rw [p2, q2]; exact hv x (by simp [hx])) (hlen p2 p3 hF1)
    refine ⟨F', ?_, Filled.cons V N G hs hc rfl (fun r' hr' he => ?_) q2 q3
      (Filled.cons V N G ht htc rfl (fun r' hr' he => ?_) p2 p3 h2)⟩
    · intro n rest
      rw [List.length_cons, List.length_cons, Nat.add_right_comm, Nat.add_right_comm rows.length, readLoop.eq_def]
      have p1' : setColumn F1 ((nBefore b.stars k' : Int) + 1) v' = .ok F2 := by
        have := p1; rw [hsucc] at this; push_cast at this; exact this
      have hnz : ¬ ((nBefore b.stars k' : Int) + 1 = 0) := by omega
      simp [hmin, hmin', hi, hi', hf, htf, hsz, hb, Res.check, hnz, q1, p1', h1]
    · rcases List.mem_cons.mp hr' with rfl | hr'
      · exact hnd.1.1 he.symm
      · exact hnd.1.2 (List.mem_map.mpr ⟨r', hr', he⟩)
    · exact hnd.2.1 (List.mem_map.mpr ⟨r', hr', he⟩)

theorem column_get {ib : Nat} : ∀ (fields : List (List K)), (∀ f ∈ fields, ib < f.length) →
    ∃ vals, column fields ib = .ok vals ∧ vals.length = fields.length ∧
      ∀ (j : Nat) f, fields[j]? = some f → vals[j]? = f[ib]? := by
  intro fields
  induction fields with
  | nil => intro _; exact ⟨[], rfl, rfl, by simp⟩
  | cons f fs ih =>
    intro h
    obtain ⟨vals, h1, h2, h3⟩ := ih fun g hg => h g (by simp [hg])
    have hget : f[ib]? = some (f[ib]'(h f (by simp))) := List.getElem?_eq_getElem (h f (by simp))
    refine ⟨f[ib]'(h f (by simp)) :: vals, ?_, by simp [h2], ?_⟩
    · simp [column, get_ok.mpr hget, h1]
    · intro j g hg
      cases j with
      | zero => simp only [List.getElem?_cons_zero, Option.some.injEq] at hg ⊢; subst hg; exact hget.symm
      | succ j => simp only [List.getElem?_cons_succ] at hg ⊢; exact h3 j g hg

/-- Any wave of an uncancelled star is found in that star. -/
theorem findStar_wave (V : Valid c eps b) {m : Mesh} (hm : Mesh.setDimensions b.dims = some m) {k i : Nat} {s : Star}
    {w : Wave K} (hs : b.stars[k]? = some s) (hc : s.cancel = false) (hw : b.waves[i]? = some w) (hk : w.starId = k) :
    findStar b m w.bz = .ok (i, k, s) := by
  have hdims : m.dims = b.dims := by
    obtain ⟨_, _, rfl⟩ := Mesh.setDimensions_some hm; rfl
  have hr := V.dftRange i w hw
  obtain ⟨i', w', hw', hd', hid⟩ := V.dftSurj w.dft hr
  have := V.dftInj i' i w' w hw' hw hd'
  subst this
  have h1 := hid m hm
  have h0 : 0 ≤ m.rank w.dft := by
    obtain ⟨_, _, _, _, hb⟩ := Mesh.C01_rank_position_bijection _ m hm
    exact (hb w.dft hr).1
  have hget : getI b.waveIds (m.rank (m.shift w.bz).2) = .ok i' := by
    rw [Mesh.Mesh.shift, hdims, V.bzImage _ w hw, getI_ok]
    exact ⟨h0, h1⟩
  unfold findStar
  rw [hget]
  simp only [Res.ok_bind, get_ok.mpr hw]
  rw [hk]
  simp [get_ok.mpr hs, hc, Res.check]

/-- The stars of basis `b1` that the reader's mesh and cell keep are stars of basis `b2`. -/
structure Embeds (c2 : Cell K) (b1 b2 : BasisData K) : Prop where
  closed : ∀ (k : Nat) s, b1.stars[k]? = some s → s.cancel = false → s.invertFlag = 0 →
    s.waveBz ≠ c2.minIm s.waveBz ∨ ∃ (k' : Nat) (s' : Star), b2.stars[k']? = some s' ∧ s'.cancel = false ∧
      s'.invertFlag = 0 ∧ s'.waveBz = s.waveBz ∧ s'.size = s.size
  opened : ∀ (k : Nat) s t, b1.stars[k]? = some s → b1.stars[k + 1]? = some t → s.cancel = false → s.invertFlag = 1 →
    (s.waveBz ≠ c2.minIm s.waveBz ∧ t.waveBz ≠ c2.minIm t.waveBz) ∨ ∃ (k' : Nat) (s' t' : Star),
      b2.stars[k']? = some s' ∧ b2.stars[k' + 1]? = some t' ∧ s'.cancel = false ∧ s'.invertFlag = 1 ∧
      s'.waveBz = s.waveBz ∧ t'.waveBz = t.waveBz ∧ s'.size = s.size ∧ t'.size = t.size

/-- Rows written for the stars from `k` on. -/
structure Written (b1 : BasisData K) (fields : List (List K)) (k : Nat) (rows : List (Row K)) : Prop where
  length : rows.length = b1.nBasis - nBefore b1.stars k
  vals : ∀ r ∈ rows, r.vals.length = fields.length
  from_star : ∀ r ∈ rows, ∃ (k' : Nat) (s : Star), k ≤ k' ∧ b1.stars[k']? = some s ∧ s.cancel = false ∧
    r.wave = s.waveBz
  of_star : ∀ (k' : Nat) s, k ≤ k' → b1.stars[k']? = some s → s.cancel = false → ∃ r ∈ rows, r.wave = s.waveBz ∧
    ∀ (j : Nat) f, fields[j]? = some f → r.vals[j]? = f[nBefore b1.stars k']?
  nodup : (rows.map Row.wave).Nodup

theorem Written.cons {b1 : BasisData K} (V1 : Valid c eps b1) (N1 : Nondegenerate b1) (G1 : GoodImages c b1)
    {fields : List (List K)} {k : Nat} {rows : List (Row K)} (h : Written b1 fields (k + 1) rows) {s : Star}
    (hs : b1.stars[k]? = some s) (hc : s.cancel = false) {r : Row K} (hr : r.wave = s.waveBz)
    (hl : r.vals.length = fields.length)
    (hv : ∀ (j : Nat) f, fields[j]? = some f → r.vals[j]? = f[nBefore b1.stars k]?) :
    Written b1 fields k (r :: rows) := by
  have hsucc := nBefore_succ hs
  rw [hc] at hsucc
  simp only [Bool.false_eq_true, if_false] at hsucc
  obtain ⟨-, hlt⟩ := V1.basisId_lt hs hc
  refine ⟨by rw [List.length_cons, h.length]; omega, ?_, ?_, ?_, ?_⟩
  · intro x hx
    rcases List.mem_cons.mp hx with rfl | hx
    exacts [hl, h.vals x hx]
  · intro x hx
    rcases List.mem_cons.mp hx with rfl | hx
    · exact ⟨k, s, le_refl _, hs, hc, hr⟩
    · obtain ⟨k', s', a1, a2⟩ := h.from_star x hx
      exact ⟨k', s', by omega, a2⟩
  · intro k' s' hk hs' hc'
    rcases Nat.eq_or_lt_of_le hk with rfl | hlt
    · rw [hs] at hs'
      cases hs'
      exact ⟨r, by simp, hr, hv⟩
    · obtain ⟨x, hx, a⟩ := h.of_star k' s' hlt hs' hc'
      exact ⟨x, by simp [hx], a⟩
  · rw [List.map_cons, List.nodup_cons]
    refine ⟨fun hm => ?_, h.nodup⟩
    obtain ⟨x, hx, he⟩ := List.mem_map.mp hm
    obtain ⟨k', s', a1, a2, a3, a4⟩ := h.from_star x hx
    have := waveBz_inj V1 N1 G1 a2 hs a3 hc (a4.symm.trans (he.trans hr))
    omega

theorem Written.cancelled {b1 : BasisData K} {fields : List (List K)} {k : Nat} {rows : List (Row K)}
    (h : Written b1 fields (k + 1) rows) {s : Star} (hs : b1.stars[k]? = some s) (hc : s.cancel = true) :
    Written b1 fields k rows := by
  have hsucc := nBefore_succ hs
  rw [hc] at hsucc
  simp only [if_true, Nat.add_zero] at hsucc
  refine ⟨by rw [h.length, hsucc], h.vals, ?_, ?_, h.nodup⟩
  · intro x hx
    obtain ⟨k', s', a1, a2⟩ := h.from_star x hx
    exact ⟨k', s', by omega, a2⟩
  · intro k' s' hk hs' hc'
    rcases Nat.eq_or_lt_of_le hk with rfl | hlt
    · rw [hs] at hs'
      cases hs'
      rw [hc] at hc'
      cases hc'
    · exact h.of_star k' s' hlt hs' hc'

/-- The rows written with basis `b1` can be used with basis `b2`. -/
theorem write_readable {c2 : Cell K} {b1 b2 : BasisData K} (V1 : Valid c eps b1) (N1 : Nondegenerate b1)
    (G1 : GoodImages c b1) (E : Embeds c2 b1 b2) (fields : List (List K))
    (hf : ∀ f ∈ fields, f.length = b1.nBasis) {l : List Star} (hp : Paired l) :
    ∀ (k : Nat), b1.stars.drop k = l → ∃ rows, writeLoop fields b1.nBasis (nBefore b1.stars k) l = .ok rows ∧
      Written b1 fields k rows ∧ Readable c2 b2 rows := by
  induction hp with
  | nil =>
    intro k hk
    have hk' : b1.stars.length ≤ k := by simpa using hk
    have e := nBefore_length V1 hk'
    refine ⟨[], rfl, ⟨by simp [e], by simp, by simp, ?_, by simp⟩, Readable.nil⟩
    intro k' s hk hs
    have := (List.getElem?_eq_some_iff.mp hs).1
    omega
  | closed s rest h0 hr ih =>
    intro k hk
    obtain ⟨hs, hrest⟩ := drop_eq_cons hk
    have hsucc := nBefore_succ hs
    obtain ⟨rows, w1, w2, w3⟩ := ih (k + 1) hrest
    cases hc : s.cancel with
    | true =>
      rw [hc] at hsucc
      simp only [if_true, Nat.add_zero] at hsucc
      refine ⟨rows, ?_, w2.cancelled hs hc, w3⟩
      rw [hsucc] at w1
      by_cases hge : nBefore b1.stars k ≥ b1.nBasis
      · have h := w2.length
        rw [hsucc, Nat.sub_eq_zero_of_le hge] at h
        rw [List.length_eq_zero_iff.mp h]
        simp [writeLoop, hge]
      · simp [writeLoop, hge, hc, w1]
    | false =>
      obtain ⟨hb, hlt⟩ := V1.basisId_lt hs hc
      rw [hc] at hsucc
      simp only [Bool.false_eq_true, if_false] at hsucc
      obtain ⟨vals, q1, q2, q3⟩ := column_get (ib := nBefore b1.stars k) fields (fun f h => by rw [hf f h]; exact hlt)
      rw [hsucc] at w1
      refine ⟨⟨vals, s.waveBz, s.size⟩ :: rows, ?_, w2.cons V1 N1 G1 hs hc rfl q2 q3, ?_⟩
      · simp only [writeLoop, hc, ge_iff_le, not_le.mpr hlt, if_false, Bool.false_eq_true, q1, w1, Res.ok_bind]
        rfl
      · rcases E.closed k s hs hc h0 with h | ⟨k', s', a1, a2, a3, a4, a5⟩
        · exact Readable.skip _ _ h w3
        · rw [← a4, ← a5]
          exact Readable.closed k' s' vals rows a1 a2 a3 w3
  | opened s t rest h1 h2 h3 h4 hr ih =>
    intro k hk
    obtain ⟨hs, hrest⟩ := drop_eq_cons hk
    obtain ⟨ht, hrest'⟩ := drop_eq_cons hrest
    have hsucc := nBefore_succ hs
    have htucc := nBefore_succ ht
    rw [h4] at htucc
    obtain ⟨rows, w1, w2, w3⟩ := ih (k + 2) hrest'
    cases hc : s.cancel with
    | true =>
      rw [hc] at hsucc htucc h4
      simp only [if_true, Nat.add_zero] at hsucc htucc
      have w2' := (w2.cancelled ht h4).cancelled hs hc
      refine ⟨rows, ?_, w2', w3⟩
      rw [htucc, hsucc] at w1
      by_cases hge : nBefore b1.stars k ≥ b1.nBasis
      · have h := w2'.length
        rw [Nat.sub_eq_zero_of_le hge] at h
        rw [List.length_eq_zero_iff.mp h]
        simp [writeLoop, hge]
      · simp [writeLoop, hge, hc, h4, w1]
    | false =>
      rw [hc] at hsucc htucc h4
      obtain ⟨hb, hlt⟩ := V1.basisId_lt hs hc
      obtain ⟨hb', hlt'⟩ := V1.basisId_lt ht h4
      simp only [Bool.false_eq_true, if_false] at hsucc htucc
      obtain ⟨vals, q1, q2, q3⟩ := column_get (ib := nBefore b1.stars k) fields (fun f h => by rw [hf f h]; exact hlt)
      obtain ⟨vals', p1, p2, p3⟩ := column_get (ib := nBefore b1.stars (k + 1)) fields
        (fun f h => by rw [hf f h]; exact hlt')
      refine ⟨⟨vals, s.waveBz, s.size⟩ :: ⟨vals', t.waveBz, t.size⟩ :: rows, ?_,
        (w2.cons V1 N1 G1 ht h4 (r := ⟨vals', t.waveBz, t.size⟩) rfl p2 p3).cons V1 N1 G1 hs hc rfl q2 q3, ?_⟩
      · rw [hsucc] at hlt' p1
        rw [htucc, hsucc] at w1
        simp only [writeLoop, hc, h4, ge_iff_le, not_le.mpr hlt, not_le.mpr hlt', if_false,
          Bool.false_eq_true, q1, p1, w1, Res.ok_bind]
        rfl
      · rcases E.opened k s t hs ht hc h1 with ⟨h, h'⟩ | ⟨k', s', t', a1, a2, a3, a4, a5, a6, a7, a8⟩
        · exact Readable.skip _ _ h (Readable.skip _ _ h' w3)
        · rw [← a5, ← a6, ← a7, ← a8]
          exact Readable.opened k' s' t' vals vals' rows a1 a2 a3 a4 w3

end Verif.Basis
