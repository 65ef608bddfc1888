import Verif.Basis.Props

/-!
# Basis-format files (C44)
-/

namespace Verif.Basis
open Verif.Mesh (IntVec Mesh InRange shiftVec)
open Verif.FieldIo (load store)

set_option linter.unusedSectionVars false
variable {K : Type} [Field K] [LinearOrder K]
variable {c : Cell K} {eps : K} {b : BasisData K}

/-- What the reader needs from `shiftToMinimum`: images are congruent to their argument (C39), and
the characteristic waves of the basis are their own minimum images. -/
structure GoodImages (c : Cell K) (b : BasisData K) : Prop where
  congr : ∀ v, (shiftVec b.dims (c.minIm v)).2 = (shiftVec b.dims v).2
  fixed : ∀ s ∈ b.stars, s.cancel = false → c.minIm s.waveBz = s.waveBz

/-- The characteristic wave of an uncancelled star is found in that star. -/
theorem findStar_waveBz (V : Valid c eps b) (N : Nondegenerate b) (G : GoodImages c b) {m : Mesh}
    (hm : Mesh.setDimensions b.dims = some m) {k : Nat} {s : Star} (hs : b.stars[k]? = some s)
    (hc : s.cancel = false) : ∃ i, findStar b m s.waveBz = .ok (i, k, s) := by
  have hdims : m.dims = b.dims := by
    obtain ⟨_, _, rfl⟩ := Mesh.setDimensions_some hm; rfl
  -- a wave of the star with the right DFT index
  have key : ∃ (i : Nat) (w : Wave K), b.waves[i]? = some w ∧ w.starId = k ∧
      w.dft = (shiftVec b.dims s.waveBz).2 := by
    by_cases hf : s.invertFlag = -1
    · obtain ⟨k', p, rfl, hp, hw⟩ := V.waveBzNeg k s hs hf
      obtain ⟨k'', p', e, hp', hpf, hpc, hsz⟩ := V.paired.prev _ s hs (by omega) (by omega)
      have e' : k'' = k' := by omega
      subst e'
      rw [hp] at hp'; cases hp'
      obtain ⟨w, hw1, hw2⟩ := V.waveBz _ p hp (by omega)
      have hne : p.beginId < p.endId := by
        have h1 := N.nonempty p (List.mem_of_getElem? hp)
        have h2 := V.sizes p (List.mem_of_getElem? hp)
        omega
      obtain ⟨w', hw', hk'⟩ := V.starWave _ p hp p.beginId (le_refl _) hne
      rw [hw1] at hw'; cases hw'
      obtain ⟨j, v, a1, a2, a3, a4, a5⟩ := V.inverse _ w hw1
      refine ⟨j, v, a2, (V.openInv _ p hp hpf _ w hw1 hk' j v a1 a2).1, ?_⟩
      rw [hw, G.congr, a4, hw2]
    · obtain ⟨w, hw1, hw2⟩ := V.waveBz k s hs hf
      have hne : s.beginId < s.endId := by
        have h1 := N.nonempty s (List.mem_of_getElem? hs)
        have h2 := V.sizes s (List.mem_of_getElem? hs)
        omega
      obtain ⟨w', hw', hk'⟩ := V.starWave _ s hs s.beginId (le_refl _) hne
      rw [hw1] at hw'; cases hw'
      exact ⟨_, w, hw1, hk', by rw [hw2, V.bzImage _ w hw1]⟩
  obtain ⟨i, w, hw, hk, hd⟩ := key
  refine ⟨i, ?_⟩
  have hr := V.dftRange i w hw
  obtain ⟨i', w', hw', hd', hid⟩ := V.dftSurj w.dft hr
  have := V.dftInj i' i w' w hw' hw hd'
  subst this
  have h1 := hid m hm
  have h0 : 0 ≤ m.rank w.dft := by
    obtain ⟨_, _, _, _, hb⟩ := Mesh.C01_rank_position_bijection _ m hm
    exact (hb w.dft hr).1
  have hget : getI b.waveIds (m.rank (m.shift s.waveBz).2) = .ok i' := by
    rw [Mesh.Mesh.shift, hdims, ← hd, getI_ok]
    exact ⟨h0, h1⟩
  unfold findStar
  rw [hget]
  simp only [Res.ok_bind, get_ok.mpr hw]
  rw [hk]
  simp [get_ok.mpr hs, hc, Res.check]

/-- First `n` components of all fields agree. -/
def Upto (n : Nat) (F fields : List (List K)) : Prop :=
  List.Forall₂ (fun g f => g.length = f.length ∧ ∀ j < n, g[j]? = f[j]?) F fields

theorem setColumn_upto {n : Nat} {F fields : List (List K)} (h : Upto n F fields)
    (hn : ∀ f ∈ fields, n < f.length) : ∃ vals F', column fields n = .ok vals ∧
      setColumn F n vals = .ok F' ∧ Upto (n + 1) F' fields := by
  induction h with
  | nil => exact ⟨[], [], rfl, rfl, .nil⟩
  | @cons g f F fields hgf hr ih =>
    obtain ⟨vals, F', h1, h2, h3⟩ := ih (fun f hf => hn f (List.mem_cons_of_mem _ hf))
    have hlt := hn f (by simp)
    have hget : f[n]? = some (f[n]) := List.getElem?_eq_getElem hlt
    refine ⟨f[n] :: vals, g.set n f[n] :: F', ?_, ?_, ?_⟩
    · simp [column, get_ok.mpr hget, h1]
    · have := store_ok (l := g) (r := (n : Int)) (by omega) (by simpa [hgf.1] using hlt) f[n]
      simp only [setColumn, this, h2, Res.ok_bind, Int.toNat_natCast]
      rfl
    · refine .cons ⟨by simp [hgf.1], fun j hj => ?_⟩ h3
      rw [List.getElem?_set]
      split
      · rename_i e; subst e
        rw [hget, if_pos (by rw [hgf.1]; exact hlt)]
      · exact hgf.2 j (by omega)

theorem upto_all {n : Nat} {F fields : List (List K)} (h : Upto n F fields)
    (hn : ∀ f ∈ fields, f.length ≤ n) : F = fields := by
  induction h with
  | nil => rfl
  | @cons g f F fields hgf hr ih =>
    rw [ih (fun f hf => hn f (List.mem_cons_of_mem _ hf))]
    congr 1
    apply List.ext_getElem? 
    intro j
    by_cases hj : j < n
    · exact hgf.2 j hj
    · have h1 := hn f (by simp)
      rw [List.getElem?_eq_none (by rw [hgf.1]; omega), List.getElem?_eq_none (by omega)]

theorem nBefore_length (V : Valid c eps b) {k : Nat} (hk : b.stars.length ≤ k) :
    nBefore b.stars k = b.nBasis := by
  rw [V.nBasis.1]
  unfold nBefore
  rw [List.take_of_length_le hk, List.take_length]

theorem drop_eq_cons {α : Type} {l : List α} {k : Nat} {a : α} {r : List α} (h : l.drop k = a :: r) :
    l[k]? = some a ∧ l.drop (k + 1) = r := by
  constructor
  · have := List.getElem?_drop (xs := l) (i := k) (j := 0)
    rw [h] at this; simpa using this.symm
  · rw [← List.tail_drop, h]; rfl

/-- Reading back the rows written for the stars from `k` on. -/
theorem read_write_loop (V : Valid c eps b) (N : Nondegenerate b) (G : GoodImages c b) {m : Mesh}
    (hm : Mesh.setDimensions b.dims = some m) (sqrt : K → K) (fields : List (List K))
    (hf : ∀ f ∈ fields, f.length = b.nBasis) {l : List Star} (hp : Paired l) :
    ∀ (k : Nat), b.stars.drop k = l → ∀ F, Upto (nBefore b.stars k) F fields →
      ∃ rows, writeLoop fields b.nBasis (nBefore b.stars k) l = .ok rows ∧
        readLoop c sqrt b m (b.nBasis - nBefore b.stars k) rows F = .ok fields := by
  induction hp with
  | nil =>
    intro k hk F hF
    have hk' : b.stars.length ≤ k := by simpa using hk
    have e := nBefore_length V hk'
    refine ⟨[], rfl, ?_⟩
    rw [e] at hF ⊢
    rw [Nat.sub_self]
    unfold readLoop
    rw [upto_all hF (fun f h => (hf f h).le)]
  | closed s rest h0 hr ih =>
    intro k hk F hF
    obtain ⟨hs, hrest⟩ := drop_eq_cons hk
    have hsucc := nBefore_succ hs
    cases hc : s.cancel with
    | true =>
      rw [hc] at hsucc
      simp only [if_true, Nat.add_zero] at hsucc
      obtain ⟨rows, h1, h2⟩ := ih (k + 1) hrest F (by rw [hsucc]; exact hF)
      rw [hsucc] at h1 h2
      by_cases hge : nBefore b.stars k ≥ b.nBasis
      · refine ⟨[], by simp [writeLoop, hge], ?_⟩
        rw [Nat.sub_eq_zero_of_le hge]
        unfold readLoop
        rw [upto_all hF (fun f h => by rw [hf f h]; exact hge)]
      · exact ⟨rows, by simp [writeLoop, hge, hc, h1], h2⟩
    | false =>
      obtain ⟨hb, hlt⟩ := V.basisId_lt hs hc
      rw [hc] at hsucc
      simp only [Bool.false_eq_true, if_false] at hsucc
      obtain ⟨vals, F', q1, q2, q3⟩ := setColumn_upto hF (fun f h => by rw [hf f h]; exact hlt)
      rw [← hsucc] at q3
      obtain ⟨rows, h1, h2⟩ := ih (k + 1) hrest F' q3
      rw [hsucc] at h1 h2
      obtain ⟨i, hi⟩ := findStar_waveBz V N G hm hs hc
      have hmin := G.fixed s (List.mem_of_getElem? hs) hc
      refine ⟨⟨vals, s.waveBz, s.size⟩ :: rows, ?_, ?_⟩
      · simp only [writeLoop, hc, ge_iff_le, not_le.mpr hlt, if_false, Bool.false_eq_true, q1, h1,
          Res.ok_bind]
        rfl
      · have e : b.nBasis - nBefore b.stars k = (b.nBasis - (nBefore b.stars k + 1)) + 1 := by omega
        rw [e, readLoop.eq_def]
        simp [hmin, hi, h0, hb, q2, h2]
  | opened s t rest h1 h2 h3 h4 hr ih =>
    intro k hk F hF
    obtain ⟨hs, hrest⟩ := drop_eq_cons hk
    obtain ⟨ht, hrest'⟩ := drop_eq_cons hrest
    have hsucc := nBefore_succ hs
    have htucc := nBefore_succ ht
    rw [h4] at htucc
    cases hc : s.cancel with
    | true =>
      rw [hc] at hsucc htucc
      simp only [if_true, Nat.add_zero] at hsucc htucc
      obtain ⟨rows, w1, w2⟩ := ih (k + 2) hrest' F (by rw [htucc, hsucc]; exact hF)
      rw [htucc, hsucc] at w1 w2
      by_cases hge : nBefore b.stars k ≥ b.nBasis
      · refine ⟨[], by simp [writeLoop, hge], ?_⟩
        rw [Nat.sub_eq_zero_of_le hge]
        unfold readLoop
        rw [upto_all hF (fun f h => by rw [hf f h]; exact hge)]
      · exact ⟨rows, by simp [writeLoop, hge, hc, h4, w1], w2⟩
    | false =>
      have hct : t.cancel = false := by rw [h4, hc]
      obtain ⟨hb, hlt⟩ := V.basisId_lt hs hc
      obtain ⟨hb', hlt'⟩ := V.basisId_lt ht hct
      rw [hc] at hsucc htucc
      simp only [Bool.false_eq_true, if_false] at hsucc htucc
      rw [hsucc] at hlt' hb' htucc
      obtain ⟨vals, F', q1, q2, q3⟩ := setColumn_upto hF (fun f h => by rw [hf f h]; exact hlt)
      obtain ⟨vals', F'', p1, p2, p3⟩ := setColumn_upto q3 (fun f h => by rw [hf f h]; exact hlt')
      rw [← htucc] at p3
      obtain ⟨rows, w1, w2⟩ := ih (k + 2) hrest' F'' p3
      rw [htucc] at w1 w2
      obtain ⟨i, hi⟩ := findStar_waveBz V N G hm hs hc
      obtain ⟨i', hi'⟩ := findStar_waveBz V N G hm ht hct
      have hmin := G.fixed s (List.mem_of_getElem? hs) hc
      have hmin' := G.fixed t (List.mem_of_getElem? ht) hct
      refine ⟨⟨vals, s.waveBz, s.size⟩ :: ⟨vals', t.waveBz, t.size⟩ :: rows, ?_, ?_⟩
      · simp only [writeLoop, hc, hct, ge_iff_le, not_le.mpr hlt, not_le.mpr hlt', if_false,
          Bool.false_eq_true, q1, p1, w1, Res.ok_bind]
        rfl
      · have e : b.nBasis - nBefore b.stars k = (b.nBasis - (nBefore b.stars k + 1 + 1)) + 1 + 1 := by
          omega
        rw [e, readLoop.eq_def]
        have p2' : setColumn F' ((nBefore b.stars k : Int) + 1) vals' = .ok F'' := by
          have := p2; push_cast at this; exact this
        have hnz : ¬ ((nBefore b.stars k : Int) + 1 = 0) := by omega
        simp [hmin, hmin', hi, hi', h1, h2, h3, hb, Res.check, hnz, q2, p2', w2]

/-- C44 (write, then read): the rows written for any fields are read back exactly, whatever was in
the destination array. -/
theorem C44_write_read_partial (V : Valid c eps b) (N : Nondegenerate b) (G : GoodImages c b)
    (sqrt : K → K) (fields old : List (List K)) (hne : fields ≠ [])
    (hf : ∀ f ∈ fields, f.length = b.nBasis) (hb : 0 < b.nBasis)
    (hold : old.length = fields.length) (ho : ∀ f ∈ old, f.length = b.nBasis) :
    ∃ rows, writeBasisData b fields = .ok rows ∧ rows.length = b.nBasis ∧
      readBasisData c sqrt b b.nBasis rows old = .ok fields := by
  obtain ⟨m, hm⟩ := (Mesh.C01_setDimensions_iff b.dims).mpr V.mesh
  have hz : Upto (nBefore b.stars 0) (old.map (fun g => g.map (fun _ => (0 : K)))) fields := by
    have h0 : nBefore b.stars 0 = 0 := by simp [nBefore]
    rw [h0]
    unfold Upto
    rw [List.forall₂_iff_get]
    refine ⟨by simp [hold], fun i h1 h2 => ?_⟩
    simp only [List.get_eq_getElem, List.getElem_map, List.length_map, Nat.not_lt_zero,
      IsEmpty.forall_iff, implies_true, and_true]
    rw [ho _ (List.getElem_mem _), hf _ (List.getElem_mem _)]
  obtain ⟨rows, h1, h2⟩ := read_write_loop V N G hm sqrt fields hf V.paired 0 (by simp) _ hz
  have h0 : nBefore b.stars 0 = 0 := by simp [nBefore]
  rw [h0] at h1 h2
  obtain ⟨f, fs, rfl⟩ : ∃ f fs, fields = f :: fs := by
    cases fields with
    | nil => exact absurd rfl hne
    | cons f fs => exact ⟨f, fs, rfl⟩
  obtain ⟨g, gs, rfl⟩ : ∃ g gs, old = g :: gs := by
    cases old with
    | nil => simp at hold
    | cons g gs => exact ⟨g, gs, rfl⟩
  have hall : (f :: fs).all (fun g => g.length == f.length) = true := by
    rw [List.all_eq_true]
    intro x hx
    simp [hf x hx, hf f (by simp)]
  have hall' : (g :: gs).all (fun x => x.length == g.length) = true := by
    rw [List.all_eq_true]
    intro x hx
    simp [ho x hx, ho g (by simp)]
  have hmesh : b.mesh = .ok m := by unfold BasisData.mesh; rw [hm]
  refine ⟨rows, ?_, ?_, ?_⟩
  · unfold writeBasisData
    simp only [hall, Res.check_true, Res.ok_bind]
    rw [hf f (by simp)]
    exact h1
  · -- the number of rows
    have hlen : ∀ (l : List Star) (ib : Nat) rows, writeLoop (f :: fs) b.nBasis ib l = .ok rows →
        ib + (l.filter (fun s => !s.cancel)).length ≤ b.nBasis →
        rows.length = (l.filter (fun s => !s.cancel)).length := by
      intro l
      induction l with
      | nil => intro ib rows h _; cases h; rfl
      | cons s l ih =>
        intro ib rows h hle
        unfold writeLoop at h
        split at h
        · cases h
          simp only [List.length_nil]
          omega
        · split at h
          · rename_i hc
            rw [List.filter_cons_of_neg (by simp [hc])] at hle ⊢
            exact ih ib rows h hle
          · rename_i hc
            rw [List.filter_cons_of_pos (by simpa using hc)] at hle ⊢
            simp only [Res.bind_eq_ok] at h
            obtain ⟨vals, _, rows', h3, h4⟩ := h
            cases h4
            simp only [List.length_cons] at hle ⊢
            rw [ih _ _ h3 (by omega)]
    have hnb : (b.stars.filter (fun s => !s.cancel)).length = b.nBasis := by
      rw [V.nBasis.1]; unfold nBefore; rw [List.take_length]
    rw [hlen _ _ _ h1 (by omega), hnb]
  · unfold readBasisData
    have hg := ho g (by simp)
    simp only [hg, hb, hmesh, Res.ok_bind, Nat.min_self]
    have hall2 : (g :: gs).all (fun x => x.length == b.nBasis) = true := by rw [← hg]; exact hall'
    simp only [hall2, gt_iff_lt, decide_true, Res.check_true, Res.ok_bind, hb]
    exact h2

/-- C44: fields with different numbers of components, or no field at all, are not written. -/
theorem C44_capacity_mismatch (b : BasisData K) (f : List K) (fs : List (List K)) :
    writeBasisData b [] = .throw ∧
    ((∃ g ∈ fs, g.length ≠ f.length) → writeBasisData b (f :: fs) = .throw) := by
  refine ⟨rfl, ?_⟩
  rintro ⟨g, hg, hne⟩
  have : (f :: fs).all (fun x => x.length == f.length) = false := by
    rw [List.all_eq_false]
    exact ⟨g, List.mem_cons_of_mem _ hg, by simpa using hne⟩
  unfold writeBasisData
  simp only [this]
  rfl

/-- C44 (reversed pairs): the components assigned for a pair that the file lists in the opposite
order describe the same contribution to the field.  `f` and `f*` are the functions of the reading
basis at a point, `u = exp(-i phi) f` and `u*` those of the writing basis. -/
theorem C44_reversed_pair (p f : Cx K) (A B : K) :
    reversed p [A] [B] = ([((⟨A, -B⟩ : Cx K) * p).re], [((⟨A, -B⟩ : Cx K) * p).im]) ∧
    (∀ a b', reversed p [A] [B] = ([a], [b']) →
      (⟨a, -b'⟩ : Cx K) * f + (⟨a, b'⟩ : Cx K) * Cx.conj f =
      (⟨A, B⟩ : Cx K) * (Cx.conj p * f) + (⟨A, -B⟩ : Cx K) * Cx.conj (Cx.conj p * f)) := by
  refine ⟨rfl, fun a b' h => ?_⟩
  simp only [reversed, Prod.mk.injEq, List.cons.injEq, and_true] at h
  obtain ⟨rfl, rfl⟩ := h
  ext <;> simp [Cx.conj] <;> ring

/-- C44 does not hold for mismatched pairs: the tests that the second row belongs to the partner of
the first star are assignments.  Whenever a basis has two open pairs of equal size, a file that
lists the first star of one pair followed by the second star of the other is accepted, and the
components of the latter are stored under the partner of the former. -/
theorem C44_violated_mismatched_pair (V : Valid c eps b) (N : Nondegenerate b) (G : GoodImages c b)
    (sqrt : K → K) (k k' : Nat) (s t s' t' : Star)
    (hs : b.stars[k]? = some s) (hst : b.stars[k + 1]? = some t) (hsf : s.invertFlag = 1)
    (hs' : b.stars[k']? = some s') (ht' : b.stars[k' + 1]? = some t') (hsf' : s'.invertFlag = 1)
    (hc : s.cancel = false) (hc' : s'.cancel = false) (hsize : s.size = s'.size) (x y : K)
    (old : List K) (ho : old.length = b.nBasis) (hk : k ≠ k') :
    t.waveBz ≠ t'.waveBz →
    ∃ f, readBasisData c sqrt b 2 [⟨[x], s.waveBz, s.size⟩, ⟨[y], t'.waveBz, t'.size⟩] [old] = .ok [f] ∧
      load f s.basisId = .ok x ∧ load f t.basisId = .ok y ∧ load f t'.basisId = .ok 0 := by
  intro _
  obtain ⟨m, hm⟩ := (Mesh.C01_setDimensions_iff b.dims).mpr V.mesh
  have hmesh : b.mesh = .ok m := by unfold BasisData.mesh; rw [hm]
  obtain ⟨t0, e0, htf, htc⟩ := V.paired.next k s hs hsf
  rw [hst] at e0; cases e0
  obtain ⟨t0, e0, htf', htc'⟩ := V.paired.next k' s' hs' hsf'
  rw [ht'] at e0; cases e0
  obtain ⟨q, p, hq, hp, _, _, hsz⟩ := V.paired.prev _ t' ht' (by omega) (by omega)
  have : q = k' := by omega
  subst this
  rw [hs'] at hp; cases hp
  have hct : t.cancel = false := by rw [htc, hc]
  have hct' : t'.cancel = false := by rw [htc', hc']
  obtain ⟨hb, hlt⟩ := V.basisId_lt hs hc
  obtain ⟨hbt, hltt⟩ := V.basisId_lt hst hct
  obtain ⟨hb', hlt'⟩ := V.basisId_lt ht' hct'
  have hsucc := nBefore_succ hs
  rw [hc] at hsucc
  simp only [Bool.false_eq_true, if_false] at hsucc
  rw [hsucc] at hbt hltt
  have hsucc' := nBefore_succ hs'
  rw [hc'] at hsucc'
  simp only [Bool.false_eq_true, if_false] at hsucc'
  obtain ⟨i, hi⟩ := findStar_waveBz V N G hm hs hc
  obtain ⟨i', hi'⟩ := findStar_waveBz V N G hm ht' hct'
  have hmin := G.fixed s (List.mem_of_getElem? hs) hc
  have hmin' := G.fixed t' (List.mem_of_getElem? ht') hct'
  have hpos : 0 < b.nBasis := by omega
  have hd1 : nBefore b.stars (q + 1) ≠ nBefore b.stars k := by
    rcases Nat.lt_or_ge q k with h | h
    · -- `q + 1 < k` because star `q + 1` has flag -1
      have hqk : q + 1 ≠ k := by rintro rfl; rw [ht'] at hs; cases hs; omega
      have h1 := nBefore_mono b.stars (show q + 1 + 1 ≤ k by omega)
      have h2 := nBefore_succ ht'
      rw [hct'] at h2
      simp only [Bool.false_eq_true, if_false] at h2
      omega
    · have h1 := nBefore_mono b.stars (show k + 1 ≤ q + 1 by omega)
      omega
  have hd2 : nBefore b.stars (q + 1) ≠ nBefore b.stars k + 1 := by
    intro e
    rcases Nat.lt_or_ge q k with h | h
    · have h1 := nBefore_mono b.stars (show q + 1 ≤ k by omega)
      omega
    · have hqk : q ≠ k + 1 := by rintro rfl; rw [hst] at hs'; cases hs'; omega
      have h1 := nBefore_mono b.stars (show k + 1 + 1 ≤ q by omega)
      have h2 := nBefore_succ hst
      rw [hct] at h2
      simp only [Bool.false_eq_true, if_false] at h2
      omega
  have hn2 : min 2 b.nBasis = 2 := by omega
  set z : List K := old.map (fun _ => (0 : K)) with hz
  have hzl : z.length = b.nBasis := by simp [hz, ho]
  refine ⟨(z.set (nBefore b.stars k) x).set (nBefore b.stars k + 1) y, ?_, ?_, ?_, ?_⟩
  · unfold readBasisData
    have st1 := store_ok (l := z) (r := (nBefore b.stars k : Int)) (by omega) (by simp; omega) x
    have st2 := store_ok (l := z.set (nBefore b.stars k) x) (r := (nBefore b.stars k : Int) + 1)
      (by omega) (by simp; omega) y
    have hnz : ¬ ((nBefore b.stars k : Int) + 1 = 0) := by omega
    have e1 : ((nBefore b.stars k : Int) + 1).toNat = nBefore b.stars k + 1 := by omega
    rw [e1] at st2
    rw [Int.toNat_natCast] at st1
    simp only [ho, hpos, gt_iff_lt, decide_true, Res.check_true, Res.ok_bind, hmesh, hn2, List.all_cons,
      List.all_nil, beq_self_eq_true, Bool.and_self, List.map_cons, List.map_nil]
    rw [readLoop.eq_def]
    simp [hmin, hmin', hi, hi', hsf, htf', hb, Res.check, hnz, hsize, hsz, setColumn, ← hz, st1, st2]
    rw [readLoop.eq_def]
  · rw [hb]
    apply load_ok (by omega)
    rw [Int.toNat_natCast, List.getElem?_set_ne (by omega), List.getElem?_set_self (by omega)]
  · rw [hbt]
    apply load_ok (by omega)
    have e1 : ((nBefore b.stars k + 1 : Nat) : Int).toNat = nBefore b.stars k + 1 := by omega
    rw [e1, List.getElem?_set_self (by simp; omega)]
  · rw [hb']
    apply load_ok (by omega)
    rw [Int.toNat_natCast, List.getElem?_set_ne (by omega), List.getElem?_set_ne (by omega), hz,
      List.getElem?_map, List.getElem?_eq_getElem (by omega)]
    rfl

/-- C44 (reversed order): for a row of the second star of a pair, the partner is checked.  A
following row that belongs to the first star of another pair is rejected, whatever its data. -/
theorem C44_reversed_mismatch_rejected (V : Valid c eps b) (N : Nondegenerate b)
    (G : GoodImages c b) (sqrt : K → K) (k k' : Nat) (s t : Star)
    (hs : b.stars[k]? = some s) (hsf : s.invertFlag = -1) (hc : s.cancel = false)
    (ht : b.stars[k']? = some t) (hct : t.cancel = false) (hk : k ≠ k' + 1)
    (x y : List K) (size' : Int) (rest : List (Row K)) (n : Nat)
    (old : List (List K)) (hne : old ≠ []) (hpos : 0 < b.nBasis)
    (ho : ∀ f ∈ old, f.length = b.nBasis) (hn : 0 < n) :
    readBasisData c sqrt b n (⟨x, s.waveBz, s.size⟩ :: ⟨y, t.waveBz, size'⟩ :: rest) old = .throw := by
  obtain ⟨m, hm⟩ := (Mesh.C01_setDimensions_iff b.dims).mpr V.mesh
  have hmesh : b.mesh = .ok m := by unfold BasisData.mesh; rw [hm]
  obtain ⟨i, hi⟩ := findStar_waveBz V N G hm hs hc
  obtain ⟨i', hi'⟩ := findStar_waveBz V N G hm ht hct
  have hmin := G.fixed s (List.mem_of_getElem? hs) hc
  have hmin' := G.fixed t (List.mem_of_getElem? ht) hct
  obtain ⟨g, gs, rfl⟩ : ∃ g gs, old = g :: gs := by
    cases old with
    | nil => exact absurd rfl hne
    | cons g gs => exact ⟨g, gs, rfl⟩
  have hall : (g :: gs).all (fun x => x.length == g.length) = true := by
    rw [List.all_eq_true]
    intro x hx
    simp [ho x hx, ho g (by simp)]
  have hg := ho g (by simp)
  unfold readBasisData
  simp only [hall, Res.check_true, Res.ok_bind, hmesh]
  rw [hg]
  simp only [gt_iff_lt, hpos, decide_true, Res.check_true, Res.ok_bind]
  obtain ⟨j, hj⟩ : ∃ j, min n b.nBasis = j + 1 := ⟨min n b.nBasis - 1, by omega⟩
  rw [hj, readLoop.eq_def]
  simp only [hmin, bne_self_eq_false, Bool.false_eq_true, if_false, hi, Res.ok_bind, ne_eq,
    not_true, hsf, hmin', beq_self_eq_true, Res.check_true, hi']
  have hk' : (k == k' + 1) = false := by simpa using hk
  cases h1 : ((t.size : Int) == size') <;> cases h2 : ((s.size : Int) == size') <;>
    cases h3 : (t.invertFlag == (1 : Int)) <;> simp [Res.check, hk]

/-! ## Concrete cases -/

theorem shift1_add (x d : Int) (hd : 0 < d) : (Mesh.shift1 (x + d) d).2 = (Mesh.shift1 x d).2 := by
  obtain ⟨a1, a2, a3, a4⟩ := Mesh.C02_shift_coordinate x d hd
  obtain ⟨b1, b2, b3, b4⟩ := Mesh.C02_shift_coordinate (x + d) d hd
  have := b4 ((Mesh.shift1 x d).1 + 1) (by rw [a3] at a1; linarith) (by rw [a3] at a2; linarith)
  rw [b3, a3, ← this]; ring

/-- Minimum image on a one-dimensional mesh of `d` points. -/
def exCellN (d : Int) : Cell ℚ where
  ksq v := (v.map fun x => (x * x : ℚ)).sum
  minIm v := v.map fun x => if x > d / 2 then x - d else if x < -(d / 2) then x + d else x

theorem exCellN_congr (d : Int) (hd : 0 < d) (v : IntVec) :
    (shiftVec [d] ((exCellN d).minIm v)).2 = (shiftVec [d] v).2 := by
  cases v with
  | nil => rfl
  | cons x l =>
    have key : (Mesh.shift1 (if x > d / 2 then x - d else if x < -(d / 2) then x + d else x) d).2 =
        (Mesh.shift1 x d).2 := by
      split
      · have := shift1_add (x - d) d hd
        rw [Int.sub_add_cancel] at this
        exact this.symm
      · split
        · exact shift1_add x d hd
        · rfl
    have aux : ∀ (y : Int) (l : List Int), (shiftVec [d] (y :: l)).2 = [(Mesh.shift1 y d).2] := by
      intro y l
      simp [shiftVec]
    simp only [exCellN, List.map_cons, aux]
    exact congrArg (fun z => [z]) key

/-- Six mesh points, no symmetry: two closed stars and two pairs of open stars. -/
def exStart6 : BasisData ℚ where
  dims := [6]
  waves := [⟨⟨1, 0⟩, 0, [0], [0], 0, 0, false⟩, ⟨⟨1, 0⟩, 1, [1], [1], 1, 2, false⟩,
    ⟨⟨1, 0⟩, 1, [5], [-1], 2, 1, false⟩, ⟨⟨1, 0⟩, 4, [2], [2], 3, 4, false⟩,
    ⟨⟨1, 0⟩, 4, [4], [-2], 4, 3, false⟩, ⟨⟨1, 0⟩, 9, [3], [3], 5, 5, false⟩]
  waveIds := [0, 0, 0, 0, 0, 0]
  stars := [⟨1, 0, 1, 0, [0], 0, 0, false⟩, ⟨1, 1, 2, 1, [1], 0, 0, false⟩,
    ⟨1, 2, 3, -1, [-1], 0, 0, false⟩, ⟨1, 3, 4, 1, [2], 0, 0, false⟩,
    ⟨1, 4, 5, -1, [-2], 0, 0, false⟩, ⟨1, 5, 6, 0, [3], 0, 0, false⟩]
  starIds := []
  nBasis := 6

/-- The finished basis. -/
def exBasis6 : BasisData ℚ :=
  { exStart6 with
    waves := [⟨⟨1, 0⟩, 0, [0], [0], 0, 0, false⟩, ⟨⟨1, 0⟩, 1, [1], [1], 1, 2, false⟩,
      ⟨⟨1, 0⟩, 1, [5], [-1], 2, 1, true⟩, ⟨⟨1, 0⟩, 4, [2], [2], 3, 4, false⟩,
      ⟨⟨1, 0⟩, 4, [4], [-2], 4, 3, true⟩, ⟨⟨1, 0⟩, 9, [3], [3], 5, 5, false⟩]
    waveIds := [0, 1, 3, 5, 4, 2]
    stars := [⟨1, 0, 1, 0, [0], 0, 0, false⟩, ⟨1, 1, 2, 1, [1], 1, 1, false⟩,
      ⟨1, 2, 3, -1, [-1], 2, 2, false⟩, ⟨1, 3, 4, 1, [2], 3, 3, false⟩,
      ⟨1, 4, 5, -1, [-2], 4, 4, false⟩, ⟨1, 5, 6, 0, [3], 5, 5, false⟩]
    starIds := [0, 1, 2, 3, 4, 5] }

theorem exBasis6_valid : Valid (exCellN 6) 0 exBasis6 :=
  C42_valid (b0 := exStart6) (by decide +kernel)

theorem exBasis6_nondegenerate : Nondegenerate exBasis6 := by
  have key : ∀ w ∈ exBasis6.waves, Cx.normSq w.coeff = 1 := by decide +kernel
  refine ⟨by decide +kernel, fun i w s hw _ _ => ?_⟩
  rw [key w (List.mem_of_getElem? hw)]
  norm_num

theorem exBasis6_good : GoodImages (exCellN 6) exBasis6 :=
  ⟨exCellN_congr 6 (by decide), by decide +kernel⟩

example : ∃ rows, writeBasisData exBasis6 [[1, 2, 3, 4, 5, 6], [7, 8, 9, 0, 1, 2]] = .ok rows ∧
    rows.length = 6 ∧ readBasisData (exCellN 6) id exBasis6 6 rows
      [[0, 0, 0, 0, 0, 0], [5, 5, 5, 5, 5, 5]] = .ok [[1, 2, 3, 4, 5, 6], [7, 8, 9, 0, 1, 2]] :=
  C44_write_read_partial exBasis6_valid exBasis6_nondegenerate exBasis6_good id _ _ (by simp) (by decide +kernel)
    (by decide) rfl (by decide +kernel)

-- wave -1 followed by wave 2: rejected
example : readBasisData (exCellN 6) id exBasis6 2 [⟨[7], [-1], 1⟩, ⟨[8], [2], 1⟩]
    [[0, 0, 0, 0, 0, 0]] = .throw :=
  C44_reversed_mismatch_rejected exBasis6_valid exBasis6_nondegenerate exBasis6_good id 2 3
    ⟨1, 2, 3, -1, [-1], 2, 2, false⟩ ⟨1, 3, 4, 1, [2], 3, 3, false⟩ rfl rfl rfl rfl rfl (by decide)
    [7] [8] 1 [] 2 _ (by simp) (by decide) (by decide +kernel) (by decide)

-- wave 1 followed by wave -2: accepted, and the second value is stored for wave -1
example : readBasisData (exCellN 6) id exBasis6 2 [⟨[7], [1], 1⟩, ⟨[8], [-2], 1⟩]
    [[0, 0, 0, 0, 0, 0]] = .ok [[0, 7, 8, 0, 0, 0]] := by decide +kernel

example : ∃ f, readBasisData (exCellN 6) id exBasis6 2 [⟨[7], [1], 1⟩, ⟨[8], [-2], 1⟩]
    [[0, 0, 0, 0, 0, 0]] = .ok [f] ∧ load f 1 = .ok 7 ∧ load f 2 = .ok 8 ∧ load f 4 = .ok 0 :=
  C44_violated_mismatched_pair exBasis6_valid exBasis6_nondegenerate exBasis6_good id 1 3
    ⟨1, 1, 2, 1, [1], 1, 1, false⟩ ⟨1, 2, 3, -1, [-1], 2, 2, false⟩ ⟨1, 3, 4, 1, [2], 3, 3, false⟩
    ⟨1, 4, 5, -1, [-2], 4, 4, false⟩ rfl rfl rfl rfl rfl rfl rfl rfl rfl 7 8 [0, 0, 0, 0, 0, 0] rfl
    (by decide) (by decide)

example : reversed (⟨3 / 5, 4 / 5⟩ : Cx ℚ) [1] [2] = ([11 / 5], [-(2 / 5)]) := by decide +kernel

end Verif.Basis
