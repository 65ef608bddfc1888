import Verif.Cuda.ThreadMesh
import Verif.Cuda.ConfigLemmas
import Verif.Tac

/-!
# Lemmas about ThreadMesh
-/

set_option autoImplicit false

namespace Verif.Cuda

theorem ceilDiv_ge {a b : Nat} (hb : 0 < b) : a ≤ b * ceilDiv a b := by
  have h := Nat.div_add_mod a b
  have h2 := Nat.mod_lt a hb
  unfold ceilDiv
  split_ifs with h3
  · rw [Nat.mul_add]; omega
  · omega

theorem ceilDiv_lt {a b : Nat} (hb : 0 < b) : b * ceilDiv a b < a + b := by
  have h := Nat.div_add_mod a b
  unfold ceilDiv
  split_ifs with h3
  · rw [Nat.mul_add]; omega
  · omega

theorem ceilDiv_one (a : Nat) : ceilDiv a 1 = a := by simp [ceilDiv, Nat.mod_one]

theorem ceilDiv_le {a b : Nat} (ha : 0 < a) (h : a ≤ b) : ceilDiv a b = 1 := by
  have h1 := ceilDiv_ge (a := a) (b := b) (by omega)
  have h2 := ceilDiv_lt (a := a) (b := b) (by omega)
  generalize ceilDiv a b = c at *
  match c, h1, h2 with
  | 0, h1, _ => omega
  | 1, _, _ => rfl
  | c + 2, _, h2 =>
    rw [Nat.mul_add] at h2
    have : 0 ≤ b * c := Nat.zero_le _
    omega

theorem growTo_pow (m : Nat) : ∀ (n j : Nat), m - 2 ^ j ≤ n →
    ∃ k, growTo m (2 ^ j) = 2 ^ k ∧ m ≤ 2 ^ k ∧ j ≤ k
  | n, j, h => by
    rw [growTo]
    split_ifs with hc
    · have hj : 0 < 2 ^ j := by positivity
      match n with
      | 0 => omega
      | n + 1 =>
        obtain ⟨k, h1, h2, h3⟩ := growTo_pow m n (j + 1) (by rw [Nat.pow_succ]; omega)
        rw [Nat.pow_succ] at h1
        exact ⟨k, h1, h2, by omega⟩
    · have hj : 0 < 2 ^ j := by positivity
      exact ⟨j, rfl, by omega, le_rfl⟩

theorem chooseX_pow {x : Nat} (hx : 0 < x) : ∃ a ≤ 5, chooseX 32 x = 2 ^ a := by
  unfold chooseX
  split_ifs with h1 h2 h3
  · exact ⟨5, le_rfl, by norm_num⟩
  · obtain ⟨j, rfl⟩ := pow2_of_and (by omega) h2
    refine ⟨j, ?_, rfl⟩
    by_contra hj
    exact h1 (Nat.mod_eq_zero_of_dvd (Nat.pow_dvd_pow 2 (show 5 ≤ j by omega)))
  · exact ⟨4, by norm_num, by norm_num⟩
  · exact ⟨5, le_rfl, by norm_num⟩

theorem shrinkYZ_ok {k a : Nat} (ha : a ≤ k) (my mz : Nat) : ∀ (n b c : Nat), b + c = n →
    k ≤ a + b + c →
    ∃ b' c', shrinkYZ (2 ^ k) (2 ^ a) my mz (2 ^ b) (2 ^ c) (ceilDiv my (2 ^ b))
        (ceilDiv mz (2 ^ c)) =
      some (2 ^ b', 2 ^ c', ceilDiv my (2 ^ b'), ceilDiv mz (2 ^ c')) ∧
      a + b' + c' = k ∧ b' ≤ b ∧ c' ≤ c
  | n, b, c, hn, hk => by
    rw [shrinkYZ]
    simp only [← pow_add]
    by_cases h1 : a + b + c > k
    · have hp : (2 : Nat) ^ (a + b + c) > 2 ^ k := Nat.pow_lt_pow_right (by norm_num) h1
      rw [dif_pos hp]
      split_ifs with h2 h3
      · obtain ⟨b, rfl⟩ : ∃ e, b = e + 1 := by
          refine ⟨b - 1, ?_⟩
          have : b ≠ 0 := by rintro rfl; simp at h3
          omega
        have e : 2 ^ (b + 1) / 2 = 2 ^ b := by
          rw [Nat.pow_succ, Nat.mul_div_cancel _ (by norm_num)]
        rw [e]
        obtain ⟨b', c', h4, h5, h6, h7⟩ :=
          shrinkYZ_ok ha my mz (n - 1) b c (by omega) (by omega)
        exact ⟨b', c', h4, h5, by omega, h7⟩
      · exfalso
        have hb : b = 0 := by
          by_contra hb
          exact h3 (Nat.one_lt_two_pow hb)
        subst hb
        rcases h2 with h2 | h2
        · have hz := ceilDiv_ge (a := mz) (b := 2 ^ c) (by positivity)
          rw [pow_zero, ceilDiv_one] at h2
          have hz' : (mz : Int) ≤ (2 ^ c : Nat) * (ceilDiv mz (2 ^ c) : Nat) := by exact_mod_cast hz
          push_cast at h2 hz'
          linarith
        · have : c = 0 := by
            by_contra hc
            exact absurd h2 (Nat.one_lt_two_pow hc).ne'
          omega
      · obtain ⟨c, rfl⟩ : ∃ e, c = e + 1 := by
          refine ⟨c - 1, ?_⟩
          have : c ≠ 0 := by rintro rfl; simp at h2
          omega
        have e : 2 ^ (c + 1) / 2 = 2 ^ c := by
          rw [Nat.pow_succ, Nat.mul_div_cancel _ (by norm_num)]
        rw [e]
        obtain ⟨b', c', h4, h5, h6, h7⟩ :=
          shrinkYZ_ok ha my mz (n - 1) b c (by omega) (by omega)
        exact ⟨b', c', h4, h5, h6, by omega⟩
    · have hp : ¬ (2 : Nat) ^ (a + b + c) > 2 ^ k := by
        rw [show a + b + c = k by omega]; exact lt_irrefl _
      rw [dif_neg hp]
      exact ⟨b, c, rfl, by omega, le_rfl, le_rfl⟩

theorem growX_ok (mx k : Nat) : ∀ (n a e : Nat), k - e ≤ n → e ≤ k →
    ∃ j, growX mx (2 ^ k) (2 ^ a) (2 ^ e) = (2 ^ (a + j), 2 ^ (e + j)) ∧ e + j ≤ k
  | n, a, e, hn, he => by
    rw [growX]
    split_ifs with h
    · have h1 : e < k := (Nat.pow_lt_pow_iff_right (by norm_num)).1 h.2.1
      match n with
      | 0 => omega
      | n + 1 =>
        obtain ⟨j, h2, h3⟩ := growX_ok mx k n (a + 1) (e + 1) (by omega) (by omega)
        refine ⟨j + 1, ?_, by omega⟩
        rw [Nat.pow_succ, Nat.pow_succ] at h2
        rw [h2, show a + 1 + j = a + (j + 1) by omega, show e + 1 + j = e + (j + 1) by omega]
    · exact ⟨0, rfl, he⟩

theorem growW_ok : ∀ (n a e : Nat), 5 - e ≤ n →
    ∃ j, growW 32 (2 ^ a) (2 ^ e) = (2 ^ (a + j), 2 ^ (e + j)) ∧ 5 ≤ e + j ∧ (e + j = e ∨ e + j = 5)
  | n, a, e, hn => by
    rw [growW]
    split_ifs with h
    · have h1 : e < 5 := (Nat.pow_lt_pow_iff_right (a := 2) (by norm_num)).1 (by simpa using h.1)
      match n with
      | 0 => omega
      | n + 1 =>
        obtain ⟨j, h2, h3, h4⟩ := growW_ok n (a + 1) (e + 1) (by omega)
        refine ⟨j + 1, ?_, by omega, by omega⟩
        rw [Nat.pow_succ, Nat.pow_succ] at h2
        rw [h2, show a + 1 + j = a + (j + 1) by omega, show e + 1 + j = e + (j + 1) by omega]
    · refine ⟨0, rfl, ?_, .inl rfl⟩
      by_contra h1
      refine h ⟨?_, by positivity⟩
      exact (Nat.pow_lt_pow_right (a := 2) (by norm_num) (show e < 5 by omega)).trans_eq
        (by norm_num)

/-- Block and grid dimensions fit the mesh. -/
structure TM.Valid (s : TM) : Prop where
  pows : ∃ a b c, s.block = ⟨2 ^ a, 2 ^ b, 2 ^ c⟩
  prod : s.block.x * s.block.y * s.block.z = s.tpb
  warp : 32 ∣ s.tpb
  z64 : s.block.z ≤ 64
  grid : s.grid = ⟨ceilDiv s.mesh.x s.block.x, ceilDiv s.mesh.y s.block.y,
    ceilDiv s.mesh.z s.block.z⟩

theorem finish_ok {s : TM} {m a b c gy gz : Nat} (hw : s.warp = 32) (hm : s.maxT = some (2 ^ m))
    (hm5 : 5 ≤ m) (h5 : 5 ≤ a + b + c) (hc : 2 ^ c ≤ 64)
    (hy : gy = ceilDiv s.mesh.y (2 ^ b)) (hz : gz = ceilDiv s.mesh.z (2 ^ c)) :
    ∃ t, s.finish ⟨2 ^ a, 2 ^ b, 2 ^ c⟩ gy gz (2 ^ (a + b + c)) = (t, true) ∧ t.mesh = s.mesh ∧
      t.maxT = s.maxT ∧ t.warp = s.warp ∧ t.Valid ∧ t.tpb = 2 ^ (a + b + c) := by
  subst hy hz
  have h32 : ∀ {e}, 5 ≤ e → 32 ∣ 2 ^ e := fun h => Nat.pow_dvd_pow 2 (n := _) (m := 5) h
  refine ⟨_, Prod.ext rfl ?_, rfl, rfl, rfl, ⟨⟨a, b, c, rfl⟩, ?_, h32 h5, hc, rfl⟩, rfl⟩
  · have e1 := ceilDiv_ge (a := s.mesh.x) (b := 2 ^ a) (by positivity)
    have e2 := ceilDiv_ge (a := s.mesh.y) (b := 2 ^ b) (by positivity)
    have e3 := ceilDiv_ge (a := s.mesh.z) (b := 2 ^ c) (by positivity)
    have p1 : 1 ≤ 2 ^ a := Nat.one_le_two_pow
    have p2 : 1 ≤ 2 ^ b := Nat.one_le_two_pow
    have p3 : 1 ≤ 2 ^ c := Nat.one_le_two_pow
    simp only [TM.finish, TM.check, hm, hw, and_of_pow2, Nat.mod_eq_zero_of_dvd (h32 h5),
      Nat.mod_eq_zero_of_dvd (h32 hm5), e1, e2, e3, p1, p2, p3, ← pow_add, decide_true,
      Bool.and_self]
  · simp only [TM.finish, pow_add]

theorem place_ok {s : TM} {m k : Nat} (hw : s.warp = 32) (hm : s.maxT = some (2 ^ m))
    (hm5 : 5 ≤ m) (hk : 5 ≤ k) (hx : 0 < s.mesh.x) (hy : 0 < s.mesh.y) :
    ∃ t, s.place (2 ^ k) = (t, true) ∧ t.mesh = s.mesh ∧ t.maxT = s.maxT ∧ t.warp = s.warp ∧
      t.Valid ∧ t.tpb ≤ 2 ^ k := by
  obtain ⟨a, ha, hxe⟩ := chooseX_pow hx
  obtain ⟨b, hb, hb2, -⟩ := growTo_pow s.mesh.y s.mesh.y 0 (by omega)
  obtain ⟨c, hc, -, -⟩ := growTo_pow s.mesh.z s.mesh.z 0 (by omega)
  rw [pow_zero] at hb hc
  obtain ⟨c', hc', hc64⟩ : ∃ c', (if growTo s.mesh.z 1 > 64 then 64 else growTo s.mesh.z 1)
      = 2 ^ c' ∧ 2 ^ c' ≤ 64 := by
    split_ifs with h
    · exact ⟨6, by norm_num, by norm_num⟩
    · exact ⟨c, hc, by omega⟩
  unfold TM.place
  simp only [hw, hxe, hb, hc']
  by_cases hge : 2 ^ a * 2 ^ b * 2 ^ c' ≥ 2 ^ k
  · rw [if_pos hge]
    have hk' : k ≤ a + b + c' := by
      rw [← pow_add, ← pow_add] at hge
      exact (Nat.pow_le_pow_iff_right (by norm_num)).1 hge
    obtain ⟨b2, c2, h1, h2, h3, h4⟩ := shrinkYZ_ok (show a ≤ k by omega) s.mesh.y s.mesh.z _ b c'
      rfl hk'
    rw [ceilDiv_le hy hb2] at h1
    rw [h1]
    simp only [← pow_add, h2]
    rw [if_pos ⟨trivial, Nat.mod_eq_zero_of_dvd (Nat.pow_dvd_pow 2 (m := 5) hk)⟩]
    obtain ⟨t, h5, h6, h7, h8, h9, h10⟩ := finish_ok (s := { s with tpb := 2 ^ k, warp := 32 }) (a := a)
      (b := b2) (c := c2) rfl hm hm5 (by omega)
      ((Nat.pow_le_pow_right (by norm_num) h4).trans hc64) rfl rfl
    rw [h2] at h5 h10
    exact ⟨t, h5, h6, h7, h8, h9, h10.le⟩
  · rw [if_neg hge]
    have hk' : a + b + c' < k := by
      rw [← pow_add, ← pow_add, ge_iff_le, not_le] at hge
      exact (Nat.pow_lt_pow_iff_right (by norm_num)).1 hge
    simp only [← pow_add]
    obtain ⟨j, h1, h2⟩ := growX_ok s.mesh.x k _ a (a + b + c') le_rfl (by omega)
    rw [h1]
    obtain ⟨i, h3, h4, h5⟩ := growW_ok _ (a + j) (a + b + c' + j) le_rfl
    simp only [h3]
    obtain ⟨t, h5, h6, h7, h8, h9, h10⟩ := finish_ok (s := { s with tpb := 2 ^ k, warp := 32 })
      (a := a + j + i) (b := b) (c := c') rfl hm hm5 (by omega) hc64
      (ceilDiv_le hy hb2).symm rfl
    rw [show a + j + i + b + c' = a + b + c' + j + i by omega] at h5 h10
    refine ⟨t, h5, h6, h7, h8, h9, h10.le.trans (Nat.pow_le_pow_right (by norm_num) (by omega))⟩

/-- Part of the state that survives exceptions. -/
structure TM.Ok (s : TM) : Prop where
  maxT : ∀ M, s.maxT = some M → s.warp = 32 ∧ ∃ m, 5 ≤ m ∧ M = 2 ^ m

theorem TM.start_ok : TM.start.Ok := ⟨nofun⟩

/-- State after initialization. -/
def TM.inited (d : Device) (s : TM) : TM := if s.maxT.isNone then s.init d else s

theorem TM.inited_ok {d : Device} (hd : d.Ok) {s : TM} (h : s.Ok) :
    (s.inited d).warp = 32 ∧ ∃ m, 5 ≤ m ∧ (s.inited d).maxT = some (2 ^ m) := by
  unfold TM.inited
  cases e : s.maxT with
  | none =>
    obtain ⟨k, h1, h2, -⟩ := hd.dflt
    refine ⟨hd.warp, k, h1, ?_⟩
    simp only [Option.isNone_none, if_true, TM.init]
    rw [← h2, Device.dflt]
  | some M =>
    obtain ⟨h1, m, h2, rfl⟩ := h.maxT M e
    exact ⟨by simpa using h1, m, h2, by simpa using e⟩

theorem inited_mesh {d : Device} (s : TM) : (s.inited d).mesh = s.mesh := by
  unfold TM.inited; split_ifs <;> rfl

theorem inited_tpb {d : Device} (s : TM) : (s.inited d).tpb = s.tpb := by
  unfold TM.inited; split_ifs <;> rfl

theorem inited_valid {d : Device} {s : TM} (h : s.Valid) : (s.inited d).Valid := by
  unfold TM.inited
  split_ifs
  · exact ⟨h.pows, h.prod, h.warp, h.z64, h.grid⟩
  · exact h

/-- Dimensions in the order x, y, z. -/
def axes (dims : List Int) (invert : Bool) : List Nat :=
  (if invert then dims.reverse else dims).map Int.toNat

/-- Mesh of a request; missing dimensions are 1. -/
def wanted (dims : List Int) (invert : Bool) : D3 :=
  ⟨(axes dims invert).getD 0 1, (axes dims invert).getD 1 1, (axes dims invert).getD 2 1⟩

/-- A valid manual block size, or a negative one (default). -/
def SizeOk (b : Int) : Prop := b < 0 ∨ ∃ k, 5 ≤ k ∧ b = ((2 ^ k : Nat) : Int)

theorem axes_pos {dims : List Int} (hd : ∀ n ∈ dims, 0 < n) (invert : Bool) :
    ∀ n ∈ axes dims invert, 0 < n := by
  intro n hn
  rw [axes, List.mem_map] at hn
  obtain ⟨i, hi, rfl⟩ := hn
  have : i ∈ dims := by cases invert <;> simpa using hi
  have := hd i this
  omega

theorem getD_pos {l : List Nat} (h : ∀ n ∈ l, 0 < n) (i : Nat) : 0 < l.getD i 1 := by
  rw [List.getD]
  cases e : l[i]? with
  | none => simp
  | some n => simpa using h n (List.mem_of_getElem? e)

theorem setConfig_eq (d : Device) (s : TM) {dims : List Int} (hd : ∀ n ∈ dims, 0 < n)
    (invert : Bool) (b : Int) :
    s.setConfig d dims invert b =
      if (s.inited d).matches (axes dims invert) b then (s.inited d, true)
      else if b < 0 then
        ({ s.inited d with mesh := wanted dims invert } : TM).place ((s.inited d).maxT.getD 0)
      else if b.toNat &&& (b.toNat - 1) ≠ 0 then
        ({ s.inited d with mesh := wanted dims invert }, false)
      else if b.toNat < (s.inited d).warp then
        ({ s.inited d with mesh := wanted dims invert }, false)
      else ({ s.inited d with mesh := wanted dims invert } : TM).place b.toNat := by
  rw [TM.setConfig, if_neg]
  · rfl
  · rw [List.any_eq_true]
    rintro ⟨n, hn, h⟩
    have := hd n hn
    simp only [decide_eq_true_eq] at h
    omega

theorem setConfig_ok {d : Device} (hd : d.Ok) {s : TM} (hs : s.Ok) {dims : List Int}
    (hp : ∀ n ∈ dims, 0 < n) (invert : Bool) {b : Int} (hb : SizeOk b)
    (hm : (s.inited d).matches (axes dims invert) b = false) :
    ∃ t, s.setConfig d dims invert b = (t, true) ∧ t.mesh = wanted dims invert ∧ t.Ok ∧ t.Valid ∧
      t.tpb ≤ if b < 0 then (s.inited d).maxT.getD 0 else b.toNat := by
  obtain ⟨hw, m, hm5, hM⟩ := TM.inited_ok hd hs
  rw [setConfig_eq d s hp]
  simp only [hm, Bool.false_eq_true, if_false]
  have hx : 0 < (wanted dims invert).x := getD_pos (axes_pos hp invert) 0
  have hy : 0 < (wanted dims invert).y := getD_pos (axes_pos hp invert) 1
  rcases hb with hb | ⟨k, hk, rfl⟩
  · simp only [if_pos hb, hM, Option.getD_some]
    obtain ⟨t, h1, h2, h3, h4, h5, h6⟩ := place_ok
      (s := { s.inited d with mesh := wanted dims invert }) hw hM hm5 hm5 hx hy
    simp only [hM] at h1
    exact ⟨t, h1, h2, ⟨fun M e => ⟨h4.trans hw, m, hm5,
      Option.some.inj (e.symm.trans (h3.trans hM))⟩⟩, h5, h6⟩
  · have hneg : ¬ ((2 ^ k : Nat) : Int) < 0 := not_lt.2 (Int.natCast_nonneg _)
    have h32 : ¬ 2 ^ k < (s.inited d).warp := by
      rw [hw, not_lt]
      exact (Nat.pow_le_pow_right (n := 2) (by norm_num) hk).trans' (by norm_num)
    simp only [if_neg hneg, Int.toNat_natCast, and_of_pow2, ne_eq, not_true_eq_false, if_false,
      if_neg h32]
    obtain ⟨t, h1, h2, h3, h4, h5, h6⟩ := place_ok
      (s := { s.inited d with mesh := wanted dims invert }) hw hM hm5 hk hx hy
    exact ⟨t, h1, h2, ⟨fun M e => ⟨h4.trans hw, m, hm5,
      Option.some.inj (e.symm.trans (h3.trans hM))⟩⟩, h5, h6⟩

end Verif.Cuda
