import Verif.Basis.ExchangeLemmas

/-!
# C121: basis-format files read by a program with another basis

`readBasisData`, `fieldIoUtil.tpp:455-702`, identifies basis functions by the characteristic wave and the size of their
star, not by their position in the file.  A file can therefore be read by a program whose stars are in another order
(other cell parameters) or on another mesh.
-/

set_option autoImplicit false

namespace Verif.Basis
open Verif.Mesh (IntVec Mesh InRange shiftVec)
open Verif.FieldIo (load store)

set_option linter.unusedSectionVars false
variable {K : Type} [Field K] [LinearOrder K]
variable {c : Cell K} {eps : K} {b : BasisData K}

/-- What `readBasisData` does when the first rows can be used. -/
theorem read_prefix (V : Valid c eps b) (N : Nondegenerate b) (G : GoodImages c b) (sqrt : K → K)
    (rows : List (Row K)) (hR : Readable c b rows) (hd : (rows.map Row.wave).Nodup) (old : List (List K))
    (hne : old ≠ []) (ho : ∀ f ∈ old, f.length = b.nBasis) (hv : ∀ r ∈ rows, r.vals.length = old.length)
    (hb : 0 < b.nBasis) :
    ∃ (m : Mesh) (F' : List (List K)), Mesh.setDimensions b.dims = some m ∧
      (∀ rest n nIn, min nIn b.nBasis = rows.length + n →
        readBasisData c sqrt b nIn (rows ++ rest) old = readLoop c sqrt b m n rest F') ∧
      F'.length = old.length ∧ ∀ (j : Nat) g, F'[j]? = some g → g.length = b.nBasis ∧
        ∀ (k : Nat) s, b.stars[k]? = some s → s.cancel = false →
          (∀ r ∈ rows, r.wave = s.waveBz → g[s.basisId.toNat]? = r.vals[j]?) ∧
          ((∀ r ∈ rows, r.wave ≠ s.waveBz) → g[s.basisId.toNat]? = some 0) := by
  obtain ⟨m, hm⟩ := (Mesh.C01_setDimensions_iff b.dims).mpr V.mesh
  have hz : ∀ f ∈ old.map (fun g => g.map (fun _ => (0 : K))), f.length = b.nBasis := by
    intro f hf
    obtain ⟨g, hg, rfl⟩ := List.mem_map.mp hf
    rw [List.length_map, ho g hg]
  obtain ⟨F', h1, h2, h3⟩ := readLoop_readable V N G hm sqrt hR hd (old.map (fun g => g.map (fun _ => (0 : K))))
    (fun r hr => by rw [List.length_map, hv r hr]) hz
  rw [List.length_map] at h2
  refine ⟨m, F', hm, ?_, h2, fun j g hg => ?_⟩
  · intro rest n nIn hn
    obtain ⟨g, gs, rfl⟩ : ∃ g gs, old = g :: gs := by
      cases old with
      | nil => exact absurd rfl hne
      | cons g gs => exact ⟨g, gs, rfl⟩
    have hg := ho g (by simp)
    have hall : (g :: gs).all (fun x => x.length == g.length) = true := by
      rw [List.all_eq_true]
      intro x hx
      simp [ho x hx, hg]
    have hmesh : b.mesh = .ok m := by simp [BasisData.mesh, hm]
    unfold readBasisData
    simp only [hg, hmesh, hb, decide_true, Res.check_true, Res.ok_bind, hn]
    rw [hg] at hall
    rw [hall]
    simp only [Res.check_true, Res.ok_bind]
    exact h1 n rest
  · have hj : j < old.length := by
      have := (List.getElem?_eq_some_iff.mp hg).1
      omega
    have hf : (old.map (fun g => g.map (fun _ => (0 : K))))[j]? = some (old[j].map fun _ => 0) := by
      rw [List.getElem?_map, List.getElem?_eq_getElem hj]
      rfl
    obtain ⟨a1, a2⟩ := h3 j _ g hf hg
    refine ⟨by rw [a1, List.length_map, ho _ (List.getElem_mem _)], fun k s hs hc => ?_⟩
    obtain ⟨hb', hlt⟩ := V.basisId_lt hs hc
    obtain ⟨b1, b2⟩ := a2 k s hs hc
    rw [hb', Int.toNat_natCast]
    refine ⟨b1, fun h => ?_⟩
    rw [b2 h]
    simp [ho _ (List.getElem_mem hj), hlt]

/-- C121 (stars are recognised): rows in any order, each with the characteristic wave and size of a closed star, of a
pair of open stars, or with a wave that the reader's mesh does not keep.  Every amplitude is stored for the star with the
wave of its row, and the amplitudes of all other stars are zero, whatever was in the destination. -/
theorem C121_read (V : Valid c eps b) (N : Nondegenerate b) (G : GoodImages c b) (sqrt : K → K)
    (rows : List (Row K)) (hR : Readable c b rows) (hd : (rows.map Row.wave).Nodup) (old : List (List K))
    (hne : old ≠ []) (ho : ∀ f ∈ old, f.length = b.nBasis) (hv : ∀ r ∈ rows, r.vals.length = old.length)
    (hb : 0 < b.nBasis) (hn : rows.length ≤ b.nBasis) :
    ∃ F', readBasisData c sqrt b rows.length rows old = .ok F' ∧ F'.length = old.length ∧
      ∀ (j : Nat) g, F'[j]? = some g → g.length = b.nBasis ∧
        ∀ (k : Nat) s, b.stars[k]? = some s → s.cancel = false →
          (∀ r ∈ rows, r.wave = s.waveBz → g[s.basisId.toNat]? = r.vals[j]?) ∧
          ((∀ r ∈ rows, r.wave ≠ s.waveBz) → g[s.basisId.toNat]? = some 0) := by
  obtain ⟨m, F', -, h1, h2⟩ := read_prefix V N G sqrt rows hR hd old hne ho hv hb
  have h1 := h1 [] 0 rows.length (by omega)
  rw [List.append_nil, readLoop.eq_def] at h1
  exact ⟨F', h1, h2⟩

/-- C121 (transfer): fields written by a program with basis `b1` and read by one with basis `b2`.  The amplitude of every
star of `b1` is stored for the star of `b2` with the same characteristic wave, and the other amplitudes are zero.
Partial: the reader's basis must have at least as many functions, and stars with one wave must agree in size, closedness
and pairing (`Embeds`); see the violations below. -/
theorem C121_transfer_partial {c1 c2 : Cell K} {eps1 eps2 : K} {b1 b2 : BasisData K} (V1 : Valid c1 eps1 b1)
    (N1 : Nondegenerate b1) (G1 : GoodImages c1 b1) (V2 : Valid c2 eps2 b2) (N2 : Nondegenerate b2)
    (G2 : GoodImages c2 b2) (E : Embeds c2 b1 b2) (hle : b1.nBasis ≤ b2.nBasis) (h0 : 0 < b1.nBasis) (sqrt : K → K)
    (fields old : List (List K)) (hne : fields ≠ []) (hf : ∀ f ∈ fields, f.length = b1.nBasis)
    (hold : old.length = fields.length) (ho : ∀ f ∈ old, f.length = b2.nBasis) :
    ∃ rows F', writeBasisData b1 fields = .ok rows ∧ readBasisData c2 sqrt b2 b1.nBasis rows old = .ok F' ∧
      F'.length = fields.length ∧ ∀ (j : Nat) f g, fields[j]? = some f → F'[j]? = some g → g.length = b2.nBasis ∧
        ∀ (k : Nat) s, b2.stars[k]? = some s → s.cancel = false →
          (∀ (k1 : Nat) s1, b1.stars[k1]? = some s1 → s1.cancel = false → s1.waveBz = s.waveBz →
            g[s.basisId.toNat]? = f[s1.basisId.toNat]?) ∧
          ((∀ s1 ∈ b1.stars, s1.cancel = false → s1.waveBz ≠ s.waveBz) → g[s.basisId.toNat]? = some 0) := by
  obtain ⟨rows, w1, w2, w3⟩ := write_readable V1 N1 G1 E fields hf V1.paired 0 (by simp)
  have hz : nBefore b1.stars 0 = 0 := by simp [nBefore]
  have hlen := w2.length
  rw [hz] at w1 hlen
  rw [Nat.sub_zero] at hlen
  obtain ⟨f0, fs, rfl⟩ : ∃ f fs, fields = f :: fs := by
    cases fields with
    | nil => exact absurd rfl hne
    | cons f fs => exact ⟨f, fs, rfl⟩
  have hall : (f0 :: fs).all (fun g => g.length == f0.length) = true := by
    rw [List.all_eq_true]
    intro x hx
    simp [hf x hx, hf f0 (by simp)]
  obtain ⟨F', r1, r2, r3⟩ := C121_read V2 N2 G2 sqrt rows w3 w2.nodup old
    (fun h => by rw [h] at hold; simp at hold) ho (fun r hr => by rw [hold]; exact w2.vals r hr) (by omega) (by omega)
  refine ⟨rows, F', ?_, by rw [← hlen]; exact r1, r2.trans hold, fun j f g hj hg => ?_⟩
  · unfold writeBasisData
    simp only [hf f0 (by simp), w1]
    rw [hf f0 (by simp)] at hall
    rw [hall]
    rfl
  · obtain ⟨a1, a2⟩ := r3 j g hg
    refine ⟨a1, fun k s hs hc => ⟨fun k1 s1 hs1 hc1 hw => ?_, fun h => ?_⟩⟩
    · obtain ⟨r, hr, hrw, hrv⟩ := w2.of_star k1 s1 (Nat.zero_le _) hs1 hc1
      rw [(a2 k s hs hc).1 r hr (hrw.trans hw), hrv j f hj, (V1.basisId_lt hs1 hc1).1, Int.toNat_natCast]
    · apply (a2 k s hs hc).2
      intro r hr hw
      obtain ⟨k1, s1, -, hs1, hc1, hw1⟩ := w2.from_star r hr
      exact h s1 (List.mem_of_getElem? hs1) hc1 (hw1.symm.trans hw)

/-- C121 (too many rows): of a file with more rows than the reader has basis functions, only as many rows are used. -/
theorem C121_truncated (V : Valid c eps b) (N : Nondegenerate b) (G : GoodImages c b) (sqrt : K → K)
    (rows rest : List (Row K)) (hR : Readable c b rows) (hd : (rows.map Row.wave).Nodup) (old : List (List K))
    (hne : old ≠ []) (ho : ∀ f ∈ old, f.length = b.nBasis) (hv : ∀ r ∈ rows, r.vals.length = old.length)
    (hb : 0 < b.nBasis) (hn : rows.length = b.nBasis) :
    readBasisData c sqrt b (rows.length + rest.length) (rows ++ rest) old =
      readBasisData c sqrt b rows.length rows old := by
  obtain ⟨m, F', -, h1, -⟩ := read_prefix V N G sqrt rows hR hd old hne ho hv hb
  have h2 := h1 [] 0 rows.length (by omega)
  rw [List.append_nil] at h2
  rw [h1 rest 0 (rows.length + rest.length) (by omega), h2, readLoop.eq_def, readLoop.eq_def]

/-- C121 (violated): a row of the file that comes after as many ignored rows as the reader has basis functions is lost,
though its wave is the characteristic wave of a star of the reader.  No error is reported. -/
theorem C121_violated_truncated (V : Valid c eps b) (N : Nondegenerate b) (G : GoodImages c b) (sqrt : K → K)
    (rows rest : List (Row K)) (hR : Readable c b rows) (hd : (rows.map Row.wave).Nodup) (old : List (List K))
    (hne : old ≠ []) (ho : ∀ f ∈ old, f.length = b.nBasis) (hv : ∀ r ∈ rows, r.vals.length = old.length)
    (hb : 0 < b.nBasis) (hn : rows.length = b.nBasis) (k : Nat) (s : Star) (hs : b.stars[k]? = some s)
    (hc : s.cancel = false) (hno : ∀ r ∈ rows, r.wave ≠ s.waveBz) (vals : List K) :
    ∃ F', readBasisData c sqrt b (rows.length + (⟨vals, s.waveBz, s.size⟩ :: rest).length)
        (rows ++ ⟨vals, s.waveBz, s.size⟩ :: rest) old = .ok F' ∧
      ∀ (j : Nat) g, F'[j]? = some g → g[s.basisId.toNat]? = some 0 := by
  obtain ⟨m, F', hm, h1, h2, h3⟩ := read_prefix V N G sqrt rows hR hd old hne ho hv hb
  have h1 := h1 (⟨vals, s.waveBz, s.size⟩ :: rest) 0
    (rows.length + (⟨vals, s.waveBz, s.size⟩ :: rest : List (Row K)).length) (by omega)
  rw [readLoop.eq_def] at h1
  exact ⟨F', h1, fun j g hg => ((h3 j g hg).2 k s hs hc).2 hno⟩

/-- C121 (violated): a row with another wave of a closed star than the reader's characteristic wave is dropped.  The
reader only writes a message to its log; the amplitude of the star is zero. -/
theorem C121_violated_wave (V : Valid c eps b) (N : Nondegenerate b) (G : GoodImages c b) (sqrt : K → K)
    (rows : List (Row K)) (hR : Readable c b rows) (hd : (rows.map Row.wave).Nodup) (old : List (List K))
    (hne : old ≠ []) (ho : ∀ f ∈ old, f.length = b.nBasis) (hv : ∀ r ∈ rows, r.vals.length = old.length)
    (hb : 0 < b.nBasis) (hn : rows.length < b.nBasis) (k : Nat) (s : Star) (hs : b.stars[k]? = some s)
    (hc : s.cancel = false) (h0 : s.invertFlag = 0) (hno : ∀ r ∈ rows, r.wave ≠ s.waveBz) (i : Nat) (w : Wave K)
    (hw : b.waves[i]? = some w) (hk : w.starId = k) (hmin : c.minIm w.bz = w.bz) (hne' : w.bz ≠ s.waveBz)
    (vals : List K) :
    ∃ F', readBasisData c sqrt b (rows.length + 1) (rows ++ [⟨vals, w.bz, s.size⟩]) old = .ok F' ∧
      ∀ (j : Nat) g, F'[j]? = some g → g[s.basisId.toNat]? = some 0 := by
  obtain ⟨m, F', hm, h1, h2, h3⟩ := read_prefix V N G sqrt rows hR hd old hne ho hv hb
  refine ⟨F', ?_, fun j g hg => ((h3 j g hg).2 k s hs hc).2 hno⟩
  rw [h1 [⟨vals, w.bz, s.size⟩] 1 (rows.length + 1) (by omega), readLoop.eq_def]
  simp [hmin, findStar_wave V hm hs hc hw hk, h0, Ne.symm hne', readLoop.eq_def]

/-- C121 (violated): a file that ends with the row of an open star is rejected.  This is how a program with a finer mesh
fails on a file of a coarser mesh without inversion centre, on which the star at the edge of the zone is closed. -/
theorem C121_violated_edge (V : Valid c eps b) (N : Nondegenerate b) (G : GoodImages c b) (sqrt : K → K)
    (rows : List (Row K)) (hR : Readable c b rows) (hd : (rows.map Row.wave).Nodup) (old : List (List K))
    (hne : old ≠ []) (ho : ∀ f ∈ old, f.length = b.nBasis) (hv : ∀ r ∈ rows, r.vals.length = old.length)
    (hb : 0 < b.nBasis) (hn : rows.length < b.nBasis) (k : Nat) (s : Star) (hs : b.stars[k]? = some s)
    (hc : s.cancel = false) (h1 : s.invertFlag ≠ 0) (vals : List K) :
    readBasisData c sqrt b (rows.length + 1) (rows ++ [⟨vals, s.waveBz, s.size⟩]) old = .throw := by
  obtain ⟨m, F', hm, e, -⟩ := read_prefix V N G sqrt rows hR hd old hne ho hv hb
  obtain ⟨i, hi⟩ := findStar_waveBz V N G hm hs hc
  rw [e [⟨vals, s.waveBz, s.size⟩] 1 (rows.length + 1) (by omega), readLoop.eq_def]
  simp [G.fixed s (List.mem_of_getElem? hs) hc, hi, h1]

/-! ### Examples -/

/-- A mesh of 5 points without symmetry, with the stars of waves 2 and -2 before those of 1 and -1. -/
def exStart5 : BasisData ℚ where
  dims := [5]
  waves := [⟨⟨1, 0⟩, 0, [0], [0], 0, 0, false⟩, ⟨⟨1, 0⟩, 4, [2], [2], 1, 2, false⟩,
    ⟨⟨1, 0⟩, 4, [3], [-2], 2, 1, false⟩, ⟨⟨1, 0⟩, 1, [1], [1], 3, 4, false⟩,
    ⟨⟨1, 0⟩, 1, [4], [-1], 4, 3, false⟩]
  waveIds := [0, 0, 0, 0, 0]
  stars := [⟨1, 0, 1, 0, [0], 0, 0, false⟩, ⟨1, 1, 2, 1, [2], 0, 0, false⟩,
    ⟨1, 2, 3, -1, [-2], 0, 0, false⟩, ⟨1, 3, 4, 1, [1], 0, 0, false⟩,
    ⟨1, 4, 5, -1, [-1], 0, 0, false⟩]
  starIds := []
  nBasis := 5

/-- The finished basis. -/
def exBasis5 : BasisData ℚ :=
  { exStart5 with
    waves := [⟨⟨1, 0⟩, 0, [0], [0], 0, 0, false⟩, ⟨⟨1, 0⟩, 4, [2], [2], 1, 2, false⟩,
      ⟨⟨1, 0⟩, 4, [3], [-2], 2, 1, true⟩, ⟨⟨1, 0⟩, 1, [1], [1], 3, 4, false⟩,
      ⟨⟨1, 0⟩, 1, [4], [-1], 4, 3, true⟩]
    waveIds := [0, 3, 1, 2, 4]
    stars := [⟨1, 0, 1, 0, [0], 0, 0, false⟩, ⟨1, 1, 2, 1, [2], 1, 1, false⟩,
      ⟨1, 2, 3, -1, [-2], 2, 2, false⟩, ⟨1, 3, 4, 1, [1], 3, 3, false⟩,
      ⟨1, 4, 5, -1, [-1], 4, 4, false⟩]
    starIds := [0, 1, 2, 3, 4] }

theorem exBasis5_valid : Valid (exCellN 5) 0 exBasis5 :=
  C42_valid (b0 := exStart5) (by decide +kernel)

theorem exBasis5_nondegenerate : Nondegenerate exBasis5 := by
  have key : ∀ w ∈ exBasis5.waves, Cx.normSq w.coeff = 1 := by decide +kernel
  refine ⟨by decide +kernel, fun i w s hw _ _ => ?_⟩
  rw [key w (List.mem_of_getElem? hw)]
  norm_num

theorem exBasis5_good : GoodImages (exCellN 5) exBasis5 :=
  ⟨exCellN_congr 5 (by decide), by decide +kernel⟩

theorem ex_embeds : Embeds (exCellN 6) exBasis5 exBasis6 where
  closed := by
    intro k s hs hc h0
    right
    match k with
    | 0 => cases hs; exact ⟨0, _, rfl, rfl, rfl, rfl, rfl⟩
    | 1 => cases hs; cases h0
    | 2 => cases hs; cases h0
    | 3 => cases hs; cases h0
    | 4 => cases hs; cases h0
    | k + 5 => cases hs
  opened := by
    intro k s t hs ht hc h0
    right
    match k with
    | 0 => cases hs; cases h0
    | 1 => cases hs; cases ht; exact ⟨3, _, _, rfl, rfl, rfl, rfl, rfl, rfl, rfl, rfl⟩
    | 2 => cases hs; cases h0
    | 3 => cases hs; cases ht; exact ⟨1, _, _, rfl, rfl, rfl, rfl, rfl, rfl, rfl, rfl⟩
    | 4 => cases hs; cases h0
    | k + 5 => cases hs

example (fields : List (List ℚ)) (h : fields ≠ []) (hf : ∀ f ∈ fields, f.length = 5) :=
  C121_transfer_partial exBasis5_valid exBasis5_nondegenerate exBasis5_good exBasis6_valid exBasis6_nondegenerate
    exBasis6_good ex_embeds (by decide) (by decide) id fields (fields.map fun _ => [9, 9, 9, 9, 9, 9]) h hf (by simp)
    (by simp only [List.mem_map]; rintro f ⟨_, _, rfl⟩; rfl)

-- the amplitudes of waves 0, 2, -2, 1, -1 go to those stars
example : (writeBasisData exBasis5 [[10, 12, -12, 11, -11]] >>= fun rows =>
    readBasisData (exCellN 6) id exBasis6 5 rows [[9, 9, 9, 9, 9, 9]]) = .ok [[10, 11, -11, 12, -12, 0]] := by
  decide +kernel

-- a program with 5 points ignores the row of wave 3 of a file of the mesh of 6 points
example : (writeBasisData exBasis6 [[10, 11, -11, 12, -12, 13]] >>= fun rows =>
    readBasisData (exCellN 5) id exBasis5 6 rows [[9, 9, 9, 9, 9]]) = .ok [[10, 12, -12, 11, -11]] := by
  decide +kernel

-- a pair of open stars, a wave outside the mesh and a closed star, in another order than the stars
theorem ex_readable : Readable (exCellN 5) exBasis5
    [⟨[7], [1], 1⟩, ⟨[8], [-1], 1⟩, ⟨[1], [3], 1⟩, ⟨[6], [0], 1⟩] :=
  .opened 3 ⟨1, 3, 4, 1, [1], 3, 3, false⟩ ⟨1, 4, 5, -1, [-1], 4, 4, false⟩ [7] [8] _ rfl rfl rfl rfl
    (.skip _ _ (by decide +kernel) (.closed 0 ⟨1, 0, 1, 0, [0], 0, 0, false⟩ [6] [] rfl rfl rfl .nil))

example := C121_read exBasis5_valid exBasis5_nondegenerate exBasis5_good id _ ex_readable (by decide) [[9, 9, 9, 9, 9]]
  (by simp) (by decide +kernel) (by decide +kernel) (by decide) (by decide)

example : readBasisData (exCellN 5) id exBasis5 4 [⟨[7], [1], 1⟩, ⟨[8], [-1], 1⟩, ⟨[1], [3], 1⟩, ⟨[6], [0], 1⟩]
    [[9, 9, 9, 9, 9]] = .ok [[6, 0, 0, 7, 8]] := by decide +kernel

example (rest : List (Row ℚ)) := C121_truncated exBasis5_valid exBasis5_nondegenerate exBasis5_good id
  (⟨[1], [4], 1⟩ :: [⟨[7], [1], 1⟩, ⟨[8], [-1], 1⟩, ⟨[1], [3], 1⟩, ⟨[6], [0], 1⟩]) rest
  (.skip _ _ (by decide +kernel) ex_readable) (by decide) [[9, 9, 9, 9, 9]]
  (by simp) (by decide +kernel) (by decide +kernel) (by decide) (by decide)

-- five rows of waves outside the mesh hide the row of wave 0
example : ∃ F', readBasisData (exCellN 5) id exBasis5 6
      [⟨[1], [3], 1⟩, ⟨[1], [4], 1⟩, ⟨[1], [5], 1⟩, ⟨[1], [6], 1⟩, ⟨[1], [7], 1⟩, ⟨[8], [0], 1⟩] [[9, 9, 9, 9, 9]] = .ok F' ∧
    ∀ (j : Nat) g, F'[j]? = some g → g[0]? = some 0 :=
  C121_violated_truncated exBasis5_valid exBasis5_nondegenerate exBasis5_good id
    [⟨[1], [3], 1⟩, ⟨[1], [4], 1⟩, ⟨[1], [5], 1⟩, ⟨[1], [6], 1⟩, ⟨[1], [7], 1⟩] []
    (.skip _ _ (by decide +kernel) (.skip _ _ (by decide +kernel) (.skip _ _ (by decide +kernel)
      (.skip _ _ (by decide +kernel) (.skip _ _ (by decide +kernel) .nil))))) (by decide) [[9, 9, 9, 9, 9]] (by simp)
    (by decide +kernel) (by decide +kernel) (by decide) rfl 0 ⟨1, 0, 1, 0, [0], 0, 0, false⟩ rfl rfl (by decide) [8]

-- wave 2 is at the edge of a mesh of 4 points, where its star is closed, but not of one of 6 points
example : readBasisData (exCellN 6) id exBasis6 2 [⟨[5], [0], 1⟩, ⟨[6], [2], 1⟩] [[9, 9, 9, 9, 9, 9]] = .throw :=
  C121_violated_edge exBasis6_valid exBasis6_nondegenerate exBasis6_good id [⟨[5], [0], 1⟩]
    (.closed 0 ⟨1, 0, 1, 0, [0], 0, 0, false⟩ [5] [] rfl rfl rfl .nil) (by simp) [[9, 9, 9, 9, 9, 9]] (by simp)
    (by decide +kernel) (by simp) (by decide) (by decide) 3 ⟨1, 3, 4, 1, [2], 3, 3, false⟩ rfl rfl (by decide) [6]

/-- A mesh of 4 points with an inversion centre: waves 1 and -1 are one closed star. -/
def exStart4 : BasisData ℚ where
  dims := [4]
  waves := [⟨⟨1, 0⟩, 0, [0], [0], 0, 0, false⟩, ⟨⟨1, 0⟩, 1, [1], [1], 1, 2, false⟩,
    ⟨⟨1, 0⟩, 1, [3], [-1], 1, 1, false⟩, ⟨⟨1, 0⟩, 4, [2], [2], 2, 3, false⟩]
  waveIds := [0, 0, 0, 0]
  stars := [⟨1, 0, 1, 0, [0], 0, 0, false⟩, ⟨2, 1, 3, 0, [1], 0, 0, false⟩, ⟨1, 3, 4, 0, [2], 0, 0, false⟩]
  starIds := []
  nBasis := 3

/-- The finished basis. -/
def exBasis4 : BasisData ℚ :=
  { exStart4 with
    waves := [⟨⟨1, 0⟩, 0, [0], [0], 0, 0, false⟩, ⟨⟨1, 0⟩, 1, [1], [1], 1, 2, false⟩,
      ⟨⟨1, 0⟩, 1, [3], [-1], 1, 1, true⟩, ⟨⟨1, 0⟩, 4, [2], [2], 2, 3, false⟩]
    waveIds := [0, 1, 3, 2]
    stars := [⟨1, 0, 1, 0, [0], 0, 0, false⟩, ⟨2, 1, 3, 0, [1], 1, 1, false⟩, ⟨1, 3, 4, 0, [2], 2, 2, false⟩]
    starIds := [0, 1, 2] }

theorem exBasis4_valid : Valid (exCellN 4) 0 exBasis4 :=
  C42_valid (b0 := exStart4) (by decide +kernel)

theorem exBasis4_nondegenerate : Nondegenerate exBasis4 := by
  have key : ∀ w ∈ exBasis4.waves, Cx.normSq w.coeff = 1 := by decide +kernel
  refine ⟨by decide +kernel, fun i w s hw _ _ => ?_⟩
  rw [key w (List.mem_of_getElem? hw)]
  norm_num

theorem exBasis4_good : GoodImages (exCellN 4) exBasis4 :=
  ⟨exCellN_congr 4 (by decide), by decide +kernel⟩

-- the row of the star {1, -1} is dropped if the file calls it `-1`
example : ∃ F', readBasisData (exCellN 4) id exBasis4 2 [⟨[5], [0], 1⟩, ⟨[6], [-1], 2⟩] [[9, 9, 9]] = .ok F' ∧
    ∀ (j : Nat) g, F'[j]? = some g → g[1]? = some 0 :=
  C121_violated_wave exBasis4_valid exBasis4_nondegenerate exBasis4_good id [⟨[5], [0], 1⟩]
    (.closed 0 ⟨1, 0, 1, 0, [0], 0, 0, false⟩ [5] [] rfl rfl rfl .nil) (by simp) [[9, 9, 9]] (by simp)
    (by decide +kernel) (by simp) (by decide) (by decide) 1 ⟨2, 1, 3, 0, [1], 1, 1, false⟩ rfl rfl rfl (by decide)
    2 ⟨⟨1, 0⟩, 1, [3], [-1], 1, 1, true⟩ rfl rfl (by decide +kernel) (by decide) [6]

end Verif.Basis
