import Verif.Cuda.ThreadMeshLemmas

/-!
# Property C95: execution configurations for meshes
-/

set_option autoImplicit false

namespace Verif.Cuda

theorem setConfig_keeps {d : Device} (hd : d.Ok) {s : TM} (hs : s.Ok) (dims : List Int)
    (invert : Bool) (b : Int) : (s.setConfig d dims invert b).1.Ok := by
  by_cases hp : ∀ n ∈ dims, 0 < n
  · obtain ⟨hw, m, hm5, hM⟩ := TM.inited_ok hd hs
    have hin : (s.inited d).Ok := ⟨fun M e => ⟨hw, m, hm5, Option.some.inj (e.symm.trans hM)⟩⟩
    by_cases hm : (s.inited d).matches (axes dims invert) b = true
    · rw [setConfig_eq d s hp, if_pos hm]; exact hin
    · by_cases hb : SizeOk b
      · obtain ⟨t, h1, -, h3, -⟩ := setConfig_ok hd hs hp invert hb (by simpa using hm)
        rw [h1]; exact h3
      · rw [setConfig_eq d s hp, if_neg hm]
        have hneg : ¬ b < 0 := fun h => hb (.inl h)
        rw [if_neg hneg]
        split_ifs with h1 h2
        · exact ⟨hin.maxT⟩
        · exact ⟨hin.maxT⟩
        · exfalso
          apply hb
          rw [hw] at h2
          obtain ⟨k, hk⟩ := pow2_of_and (by omega) (not_not.1 h1)
          refine .inr ⟨k, ?_, by omega⟩
          by_contra hk5
          have : 2 ^ k < 2 ^ 5 := Nat.pow_lt_pow_right (by norm_num) (by omega)
          omega
  · rw [TM.setConfig, if_pos]
    · exact hs
    · push Not at hp
      obtain ⟨n, hn, h⟩ := hp
      rw [List.any_eq_true]
      exact ⟨n, hn, by simpa using h⟩

theorem setThreads_keeps {d : Device} (hd : d.Ok) {s : TM} (hs : s.Ok) (v : Int) :
    (s.setThreadsPerBlock d v).1.Ok := by
  obtain ⟨hw, m, hm5, hM⟩ := TM.inited_ok hd hs
  have hin : (s.inited d).Ok := ⟨fun M e => ⟨hw, m, hm5, Option.some.inj (e.symm.trans hM)⟩⟩
  change (if v < 0 then (s.inited d, false)
    else if v.toNat &&& (v.toNat - 1) ≠ 0 then (s.inited d, false)
    else if v.toNat < (s.inited d).warp then (s.inited d, false)
    else ({ s.inited d with maxT := some v.toNat }, true)).1.Ok
  split_ifs with h1 h2 h3
  · exact hin
  · exact hin
  · exact hin
  · refine ⟨fun M e => ⟨hw, ?_⟩⟩
    rw [hw] at h3
    obtain ⟨k, hk⟩ := pow2_of_and (by omega) (not_not.1 h2)
    refine ⟨k, ?_, (Option.some.inj e).symm.trans hk⟩
    by_contra hk5
    have : 2 ^ k < 2 ^ 5 := Nat.pow_lt_pow_right (by norm_num) (by omega)
    omega

theorem calls_keep {d : Device} (hd : d.Ok) : ∀ (cs : List TMCall) {s : TM}, s.Ok →
    (s.calls d cs).Ok
  | [], _, h => h
  | .config dims invert b :: cs, _, h => calls_keep hd cs (setConfig_keeps hd h dims invert b)
  | .perBlock v :: cs, _, h => calls_keep hd cs (setThreads_keeps hd h v)

/-- C95: after any history of calls, including calls that threw, a request for a mesh of positive
dimensions with the default block size, or with one that is a power of two of at least one warp,
succeeds. -/
theorem C95_request_succeeds (d : Device) (hd : d.Ok) (cs : List TMCall) (dims : List Int)
    (hp : ∀ n ∈ dims, 0 < n) (invert : Bool) (b : Int)
    (hb : b < 0 ∨ ∃ k, 5 ≤ k ∧ b = ((2 ^ k : Nat) : Int)) :
    ((TM.start.calls d cs).setConfig d dims invert b).2 = true := by
  by_cases hm : ((TM.start.calls d cs).inited d).matches (axes dims invert) b = true
  · rw [setConfig_eq d _ hp, if_pos hm]
  · obtain ⟨t, h1, -⟩ := setConfig_ok hd (calls_keep hd cs TM.start_ok) hp invert hb
      (by simpa using hm)
    rw [h1]

/-- The calls of a history return normally, and all have `D` dimensions. -/
def Normal (d : Device) (D : Nat) : TM → List TMCall → Prop
  | _, [] => True
  | s, .config dims invert b :: cs =>
    dims.length = D ∧ (s.setConfig d dims invert b).2 = true ∧
      Normal d D (s.setConfig d dims invert b).1 cs
  | s, .perBlock v :: cs =>
    (s.setThreadsPerBlock d v).2 = true ∧ Normal d D (s.setThreadsPerBlock d v).1 cs

/-- Invariant of normal histories. -/
structure TM.Inv (D : Nat) (s : TM) : Prop where
  ok : s.Ok
  conf : s.mesh = ⟨0, 0, 0⟩ ∨ s.Valid ∧ (D < 2 → s.mesh.y = 1) ∧ (D < 3 → s.mesh.z = 1)

theorem TM.Inv.init {D : Nat} {d : Device} (hd : d.Ok) {s : TM} (h : s.Inv D) :
    (s.inited d).Inv D := by
  obtain ⟨hw, m, hm5, hM⟩ := TM.inited_ok hd h.ok
  refine ⟨⟨fun M e => ⟨hw, m, hm5, Option.some.inj (e.symm.trans hM)⟩⟩, ?_⟩
  rw [inited_mesh]
  exact h.conf.imp id fun ⟨h1, h2⟩ => ⟨inited_valid h1, h2⟩

theorem axes_length (dims : List Int) (invert : Bool) : (axes dims invert).length = dims.length := by
  cases invert <;> simp [axes]

theorem matches_mesh {s : TM} {ds : List Nat} {b : Int} (h : s.matches ds b = true) :
    ds = [s.mesh.x, s.mesh.y, s.mesh.z].take ds.length := by
  unfold TM.matches at h
  split_ifs at h
  exact beq_iff_eq.1 h

/-- A normal request establishes a configuration for the requested mesh. -/
theorem config_inv {d : Device} (hd : d.Ok) {s : TM} {D : Nat} (hD : 1 ≤ D ∧ D ≤ 3) (hs : s.Inv D)
    {dims : List Int} (hl : dims.length = D) {invert : Bool} {b : Int}
    (hr : (s.setConfig d dims invert b).2 = true) :
    (s.setConfig d dims invert b).1.Inv D ∧ (s.setConfig d dims invert b).1.Valid ∧
      (s.setConfig d dims invert b).1.mesh = wanted dims invert := by
  by_cases hp : ∀ n ∈ dims, 0 < n
  · have hlen := axes_length dims invert
    have hpos := axes_pos hp invert
    have hwz : (D < 2 → (wanted dims invert).y = 1) ∧ (D < 3 → (wanted dims invert).z = 1) :=
      ⟨fun h => by rw [wanted]; simp only; rw [List.getD, List.getElem?_eq_none (by omega)]; rfl,
       fun h => by rw [wanted]; simp only; rw [List.getD, List.getElem?_eq_none (by omega)]; rfl⟩
    by_cases hm : (s.inited d).matches (axes dims invert) b = true
    · have he := matches_mesh hm
      rw [setConfig_eq d s hp, if_pos hm]
      rw [inited_mesh] at he
      refine ⟨hs.init hd, ?_⟩
      rcases hs.conf with h0 | ⟨hv, hy, hz⟩
      · exfalso
        have : 0 < (axes dims invert).getD 0 1 := getD_pos hpos 0
        rw [he, h0] at this
        obtain ⟨n, hn⟩ : ∃ n, (axes dims invert).length = n + 1 := ⟨D - 1, by omega⟩
        rw [hn] at this
        simp at this
      · refine ⟨inited_valid hv, ?_⟩
        simp only [inited_mesh]
        rw [wanted]
        generalize s.mesh = mesh at he hy hz ⊢
        obtain ⟨x, y, z⟩ := mesh
        simp only at he hy hz ⊢
        rw [hlen, hl] at he
        obtain rfl | rfl | rfl : D = 1 ∨ D = 2 ∨ D = 3 := by omega
        · rw [he, hy (by omega), hz (by omega)]; simp
        · rw [he, hz (by omega)]; simp
        · rw [he]; simp
    · by_cases hb : SizeOk b
      · obtain ⟨t, h1, h2, h3, h4, -⟩ := setConfig_ok hd hs.ok hp invert hb (by simpa using hm)
        rw [h1]
        exact ⟨⟨h3, .inr ⟨h4, by rw [h2]; exact hwz.1, by rw [h2]; exact hwz.2⟩⟩, h4, h2⟩
      · exfalso
        rw [setConfig_eq d s hp, if_neg hm, if_neg fun h => hb (.inl h)] at hr
        split_ifs at hr with h1 h2
        apply hb
        rw [(TM.inited_ok hd hs.ok).1] at h2
        obtain ⟨k, hk⟩ := pow2_of_and (by omega) (not_not.1 h1)
        refine .inr ⟨k, ?_, by omega⟩
        by_contra hk5
        have : 2 ^ k < 2 ^ 5 := Nat.pow_lt_pow_right (by norm_num) (by omega)
        omega
  · exfalso
    rw [TM.setConfig, if_pos] at hr
    · exact absurd hr (by simp)
    · push Not at hp
      obtain ⟨n, hn, h⟩ := hp
      rw [List.any_eq_true]
      exact ⟨n, hn, by simpa using h⟩

theorem setThreads_inv {d : Device} (hd : d.Ok) {s : TM} {D : Nat} (hs : s.Inv D) (v : Int) :
    (s.setThreadsPerBlock d v).1.Inv D := by
  refine ⟨setThreads_keeps hd hs.ok v, ?_⟩
  have hi := (hs.init hd).conf
  change (if v < 0 then (s.inited d, false)
    else if v.toNat &&& (v.toNat - 1) ≠ 0 then (s.inited d, false)
    else if v.toNat < (s.inited d).warp then (s.inited d, false)
    else ({ s.inited d with maxT := some v.toNat }, true)).1.mesh = _ ∨
    (if v < 0 then (s.inited d, false)
    else if v.toNat &&& (v.toNat - 1) ≠ 0 then (s.inited d, false)
    else if v.toNat < (s.inited d).warp then (s.inited d, false)
    else ({ s.inited d with maxT := some v.toNat }, true)).1.Valid ∧
    (D < 2 → (if v < 0 then (s.inited d, false)
    else if v.toNat &&& (v.toNat - 1) ≠ 0 then (s.inited d, false)
    else if v.toNat < (s.inited d).warp then (s.inited d, false)
    else ({ s.inited d with maxT := some v.toNat }, true)).1.mesh.y = 1) ∧
    (D < 3 → (if v < 0 then (s.inited d, false)
    else if v.toNat &&& (v.toNat - 1) ≠ 0 then (s.inited d, false)
    else if v.toNat < (s.inited d).warp then (s.inited d, false)
    else ({ s.inited d with maxT := some v.toNat }, true)).1.mesh.z = 1)
  split_ifs
  · exact hi
  · exact hi
  · exact hi
  · exact hi.imp id fun ⟨h1, h2⟩ => ⟨⟨h1.pows, h1.prod, h1.warp, h1.z64, h1.grid⟩, h2⟩

theorem normal_inv {d : Device} (hd : d.Ok) {D : Nat} (hD : 1 ≤ D ∧ D ≤ 3) :
    ∀ (cs : List TMCall) {s : TM}, s.Inv D → Normal d D s cs → (s.calls d cs).Inv D
  | [], _, h, _ => h
  | .config _ _ _ :: cs, _, h, hn =>
    normal_inv hd hD cs (config_inv hd hD h hn.1 hn.2.1).1 hn.2.2
  | .perBlock v :: cs, _, h, hn => normal_inv hd hD cs (setThreads_inv hd h v) hn.2

theorem start_inv (D : Nat) : TM.start.Inv D := ⟨TM.start_ok, .inl rfl⟩

theorem one_index {m b : Nat} (hb : 0 < b) {p : Nat} (hp : p < m) :
    ∃ i t, i < ceilDiv m b ∧ t < b ∧ i * b + t = p ∧
      ∀ i' t', t' < b → i' * b + t' = p → i' = i ∧ t' = t := by
  refine ⟨p / b, p % b, ?_, Nat.mod_lt _ hb, Nat.div_add_mod' p b, fun i' t' h e => ?_⟩
  · have h1 := ceilDiv_ge (a := m) hb
    have h2 := Nat.div_add_mod p b
    by_contra h
    have := Nat.mul_le_mul_left b (not_lt.1 h)
    omega
  · subst e
    rw [mul_comm, Nat.mul_add_div hb, Nat.mul_add_mod, Nat.div_eq_of_lt h, Nat.mod_eq_of_lt h]
    exact ⟨rfl, rfl⟩

/-- C95 (partial: histories in which no call threw and all requests have the same number of
dimensions): after a successful request the mesh is the requested one, the dimensions of a block
are powers of two, a block is a whole number of warps with z-dimension at most 64, every mesh point
is handled by exactly one thread, and there is no block without mesh points in any direction. -/
theorem C95_each_point_once_partial (d : Device) (hd : d.Ok) (D : Nat) (hD : 1 ≤ D ∧ D ≤ 3)
    (cs : List TMCall) (hn : Normal d D TM.start cs) (dims : List Int) (hl : dims.length = D)
    (invert : Bool) (b : Int) (t : TM)
    (hr : (TM.start.calls d cs).setConfig d dims invert b = (t, true)) :
    t.mesh = wanted dims invert ∧ (∃ i j k, t.block = ⟨2 ^ i, 2 ^ j, 2 ^ k⟩) ∧
    32 ∣ t.block.x * t.block.y * t.block.z ∧ t.block.x * t.block.y * t.block.z = t.tpb ∧
    t.block.z ≤ 64 ∧
    (∀ p : D3, p.x < t.mesh.x → p.y < t.mesh.y → p.z < t.mesh.z →
      ∃ q : D3 × D3, (q.1.x < t.grid.x ∧ q.1.y < t.grid.y ∧ q.1.z < t.grid.z ∧
        q.2.x < t.block.x ∧ q.2.y < t.block.y ∧ q.2.z < t.block.z ∧ t.point q.1 q.2 = p) ∧
        ∀ r : D3 × D3, r.2.x < t.block.x → r.2.y < t.block.y → r.2.z < t.block.z →
          t.point r.1 r.2 = p → r = q) ∧
    (t.grid.x * t.block.x < t.mesh.x + t.block.x ∧ t.grid.y * t.block.y < t.mesh.y + t.block.y ∧
      t.grid.z * t.block.z < t.mesh.z + t.block.z) := by
  obtain ⟨-, hv, hm⟩ := config_inv hd hD (normal_inv hd hD cs (start_inv D) hn) hl
    (invert := invert) (b := b) (by rw [hr])
  rw [hr] at hv hm
  simp only at hv hm
  obtain ⟨⟨i, j, k, hblk⟩, hprod, hwarp, hz, hgrid⟩ := hv
  have px : 0 < t.block.x := by rw [hblk]; exact Nat.two_pow_pos i
  have py : 0 < t.block.y := by rw [hblk]; exact Nat.two_pow_pos j
  have pz : 0 < t.block.z := by rw [hblk]; exact Nat.two_pow_pos k
  refine ⟨hm, ⟨i, j, k, hblk⟩, hprod ▸ hwarp, hprod, hz, fun p hpx hpy hpz => ?_, ?_⟩
  · obtain ⟨ix, tx, x1, x2, x3, x4⟩ := one_index px hpx
    obtain ⟨iy, ty, y1, y2, y3, y4⟩ := one_index py hpy
    obtain ⟨iz, tz, z1, z2, z3, z4⟩ := one_index pz hpz
    refine ⟨(⟨ix, iy, iz⟩, ⟨tx, ty, tz⟩), ⟨by rw [hgrid]; exact x1, by rw [hgrid]; exact y1,
      by rw [hgrid]; exact z1, x2, y2, z2, by rw [TM.point]; simp only [x3, y3, z3]⟩, ?_⟩
    rintro ⟨⟨bx, by', bz⟩, ⟨sx, sy, sz⟩⟩ h1 h2 h3 h
    rw [← h] at x4 y4 z4
    obtain ⟨rfl, rfl⟩ := x4 bx sx h1 rfl
    obtain ⟨rfl, rfl⟩ := y4 by' sy h2 rfl
    obtain ⟨rfl, rfl⟩ := z4 bz sz h3 rfl
    rfl
  · rw [hgrid]
    simp only
    exact ⟨by rw [mul_comm]; exact ceilDiv_lt px, by rw [mul_comm]; exact ceilDiv_lt py,
      by rw [mul_comm]; exact ceilDiv_lt pz⟩

/-- C95: a block never exceeds the requested number of threads or, by default, the limit of the
device (as long as `setThreadsPerBlock` was not called). -/
theorem C95_block_limit (d : Device) (hd : d.Ok) (dims : List Int)
    (hp : ∀ n ∈ dims, 0 < n) (hl : dims ≠ []) (invert : Bool) (b : Int)
    (hb : b < 0 ∨ ∃ k, 5 ≤ k ∧ b = ((2 ^ k : Nat) : Int)) :
    (TM.start.setConfig d dims invert b).1.tpb ≤ if b < 0 then d.perBlock else b.toNat := by
  have hm : (TM.start.inited d).matches (axes dims invert) b = false := by
    rw [Bool.eq_false_iff]
    intro h
    have he := matches_mesh h
    have : 0 < (axes dims invert).getD 0 1 := getD_pos (axes_pos hp invert) 0
    rw [he, inited_mesh] at this
    obtain ⟨n, hn⟩ : ∃ n, (axes dims invert).length = n + 1 := by
      rw [axes_length]
      exact ⟨dims.length - 1, by have := List.length_pos_of_ne_nil hl; omega⟩
    rw [hn] at this
    simp [TM.start] at this
  obtain ⟨t, h1, -, -, -, h5⟩ := setConfig_ok hd TM.start_ok hp invert hb hm
  rw [h1]
  refine h5.trans ?_
  split_ifs
  · obtain ⟨k, -, h2, h3⟩ := hd.dflt
    change d.dflt ≤ _
    rw [h2]; exact h3
  · exact le_rfl

/-- C95: after any history of calls, a request for `b` threads per block leaves a block with at most
`b` threads. -/
theorem C95_manual_limit (d : Device) (hd : d.Ok) (cs : List TMCall) (dims : List Int)
    (hp : ∀ n ∈ dims, 0 < n) (invert : Bool) (k : Nat) (hk : 5 ≤ k) :
    ((TM.start.calls d cs).setConfig d dims invert ((2 ^ k : Nat) : Int)).1.tpb ≤ 2 ^ k := by
  by_cases hm : ((TM.start.calls d cs).inited d).matches (axes dims invert) ((2 ^ k : Nat) : Int) = true
  · rw [setConfig_eq d _ hp, if_pos hm]
    unfold TM.matches at hm
    split_ifs at hm with h
    have h0 : ((2 ^ k : Nat) : Int) > 0 := by positivity
    have h1 : ((2 ^ k : Nat) : Int) = (((TM.start.calls d cs).inited d).tpb : Int) := by
      by_contra hne
      exact h ⟨h0, hne⟩
    have h2 : 2 ^ k = ((TM.start.calls d cs).inited d).tpb := by exact_mod_cast h1
    exact h2.ge
  · obtain ⟨t, h1, -, -, -, h5⟩ := setConfig_ok hd (calls_keep hd cs TM.start_ok) hp invert
      (.inr ⟨k, hk, rfl⟩) (by simpa using hm)
    rw [h1]
    refine h5.trans ?_
    rw [if_neg (not_lt.2 (Int.natCast_nonneg _)), Int.toNat_natCast]

/-- Full claim: after any history of calls, a request that returns normally leaves a configuration
for the requested mesh that has at least one thread for each mesh point. -/
def C95_statement (d : Device) : Prop :=
  ∀ (cs : List TMCall) (dims : List Int) (invert : Bool) (b : Int) (t : TM),
    1 ≤ dims.length → dims.length ≤ 3 →
    (TM.start.calls d cs).setConfig d dims invert b = (t, true) →
    t.mesh = wanted dims invert ∧ t.mesh.x ≤ t.grid.x * t.block.x ∧
      t.mesh.y ≤ t.grid.y * t.block.y ∧ t.mesh.z ≤ t.grid.z * t.block.z

theorem stale_calls (d : Device) :
    (TM.start.calls d [.config [64, 64] false 48]).setConfig d [64, 64] false (-1) =
      ({ TM.start.init d with mesh := ⟨64, 64, 1⟩ }, true) := by
  have h0 : TM.start.calls d [.config [64, 64] false 48] =
      { TM.start.init d with mesh := ⟨64, 64, 1⟩ } := by
    rw [TM.calls, List.foldl_cons, List.foldl_nil, TM.call, setConfig_eq d _ (by decide)]
    rfl
  rw [h0, setConfig_eq d _ (by decide)]
  rfl

/-- C95 is violated after an exception: a request with an invalid manual block size throws, but it
has already stored the mesh dimensions. The next request for this mesh finds a match and returns
normally, with a configuration of zero blocks. -/
theorem C95_stale_violated (d : Device) : ¬ C95_statement d := by
  intro h
  obtain ⟨-, h1, -⟩ := h _ _ _ _ _ (by decide) (by decide) (stale_calls d)
  simp [TM.start, TM.init] at h1

/-- C95: a two-dimensional request after a three-dimensional one whose first two dimensions agree
keeps the three-dimensional configuration. -/
theorem C95_dimension_violated (d : Device) (hd : d.Ok) :
    ∃ t, (TM.start.calls d [.config [32, 32, 32] false (-1)]).setConfig d [32, 32] false (-1) =
      (t, true) ∧ t.mesh = ⟨32, 32, 32⟩ := by
  have hm : (TM.start.inited d).matches (axes [32, 32, 32] false) (-1) = false := rfl
  obtain ⟨t, h1, h2, h3, h4, -⟩ := setConfig_ok hd TM.start_ok (dims := [32, 32, 32]) (by decide)
    false (.inl (by decide)) hm
  have h0 : TM.start.calls d [.config [32, 32, 32] false (-1)] = t := by
    rw [TM.calls, List.foldl_cons, List.foldl_nil, TM.call, h1]
  rw [h0, setConfig_eq d t (by decide)]
  have hmt : (t.inited d).matches (axes [32, 32] false) (-1) = true := by
    rw [TM.matches, inited_mesh, h2]
    rfl
  rw [if_pos hmt]
  exact ⟨_, rfl, by rw [inited_mesh, h2]; rfl⟩

/-- C95: `setThreadsPerBlock` does not affect a mesh that is already configured: the next default
request keeps the old block. -/
theorem C95_block_size_violated (d : Device) (dims : List Int)
    (hp : ∀ n ∈ dims, 0 < n) (k : Nat) (hk : 5 ≤ k) (s : TM) (hs : s.maxT.isSome)
    (hw : s.warp = 32) (hm : s.matches (axes dims false) (-1) = true) :
    ((s.setThreadsPerBlock d ((2 ^ k : Nat) : Int)).1.setConfig d dims false (-1)).1.tpb = s.tpb := by
  have h1 : s.setThreadsPerBlock d ((2 ^ k : Nat) : Int) = ({ s with maxT := some (2 ^ k) }, true) := by
    have hneg : ¬ ((2 ^ k : Nat) : Int) < 0 := not_lt.2 (Int.natCast_nonneg _)
    have h32 : ¬ 2 ^ k < 32 := by
      rw [not_lt]
      exact (Nat.pow_le_pow_right (n := 2) (by norm_num) hk).trans' (by norm_num)
    have hn : s.maxT.isNone = false := by rw [Option.isNone_eq_false_iff]; exact hs
    rw [TM.setThreadsPerBlock]
    simp only [hn, Bool.false_eq_true, if_false, if_neg hneg, Int.toNat_natCast, and_of_pow2, ne_eq,
      not_true_eq_false, hw, if_neg h32]
  rw [h1, setConfig_eq d _ hp]
  have : (({ s with maxT := some (2 ^ k) } : TM).inited d) = { s with maxT := some (2 ^ k) } := rfl
  rw [this, if_pos]
  exact hm

section Examples

/-- A device like current hardware. -/
def exMeshDev : Device := ⟨32, 2048, 1024⟩

theorem exMeshDev_ok : exMeshDev.Ok := ⟨rfl, by decide, by decide⟩

example : ((TM.start.calls exMeshDev [.config [48, 48, 0] false (-1), .perBlock 100,
    .config [48, 48] true 33]).setConfig exMeshDev [48, 40, 20] true 256).2 = true :=
  C95_request_succeeds exMeshDev exMeshDev_ok _ _ (by decide) _ _ (.inr ⟨8, by decide, by decide⟩)

example : Normal exMeshDev 3 TM.start [.config [32, 32, 32] true (-1), .perBlock 64,
    .config [50, 3, 7] false 128] := by
  refine ⟨rfl, ?_, ?_, rfl, ?_, trivial⟩ <;> decide +kernel

example : ((TM.start.calls exMeshDev [.config [32, 32, 32] true (-1), .perBlock 64]).setConfig
    exMeshDev [50, 3, 7] false 128) =
    (⟨some 64, 128, 32, ⟨50, 3, 7⟩, ⟨32, 4, 1⟩, ⟨2, 1, 7⟩, true⟩, true) := by decide +kernel

/-- The same mesh with a smaller block. -/
example : ((TM.start.calls exMeshDev [.config [32, 32, 32] false 256]).setConfig exMeshDev
    [32, 32, 32] false ((2 ^ 6 : Nat) : Int)).1.tpb ≤ 2 ^ 6 :=
  C95_manual_limit exMeshDev exMeshDev_ok _ _ (by decide) _ 6 (by decide)

example : (TM.start.setConfig exMeshDev [100, 3] false (-1)).1.tpb ≤ 1024 :=
  C95_block_limit exMeshDev exMeshDev_ok _ (by decide) (by decide) false _ (.inl (by decide))

end Examples

end Verif.Cuda
