import Verif.Solver.Model
import Verif.Tac
import Mathlib.Algebra.Order.Floor.Ring
import Mathlib.Data.Rat.Floor
import Mathlib.Algebra.Ring.Parity

/-! # C52: contour discretisation, and the cached exponentials of a block (C77) -/

namespace Verif.Solver

variable {K : Type} [Field K] [LinearOrder K] [FloorRing K] [IsStrictOrderedRing K] {C : Type}

/-- **C52**: for a positive length and a positive target the number of contour points is odd
and at least 3, the steps add up to the length, and the step used is below `3/2` times the target;
for a length not smaller than the target it is at least half of the target. -/
theorem C52_contour_partial (len ds : K) (hl : 0 < len) (hd : 0 < ds) :
    3 ≤ contourNs len ds ∧ Odd (contourNs len ds) ∧
    ((contourNs len ds - 1 : Int) : K) * contourDs len (contourNs len ds) = len ∧
    0 < contourDs len (contourNs len ds) ∧
    contourDs len (contourNs len ds) < 3 / 2 * ds ∧
    (ds ≤ len → ds / 2 ≤ contourDs len (contourNs len ds)) := by
  have hu : 0 < len / (2 * ds) := by positivity
  have hlen : len = len / (2 * ds) * (2 * ds) := by field_simp
  set u := len / (2 * ds) with hudef
  have hf1 : ((⌊u + 1 / 2⌋ : Int) : K) ≤ u + 1 / 2 := Int.floor_le _
  have hf2 : u + 1 / 2 < ((⌊u + 1 / 2⌋ : Int) : K) + 1 := Int.lt_floor_add_one _
  have hf0 : 0 ≤ ⌊u + 1 / 2⌋ := Int.floor_nonneg.2 (by linarith)
  obtain ⟨t, ht1, htn, htl, htu⟩ : ∃ t : Int, 1 ≤ t ∧ contourNs len ds = 2 * t + 1 ∧
      u < (t : K) + 1 / 2 ∧ (ds ≤ len → (t : K) ≤ u + 1 / 2) := by
    by_cases h0 : ⌊u + 1 / 2⌋ = 0
    · refine ⟨1, le_refl _, by simp only [contourNs, ← hudef, h0, if_true], ?_, ?_⟩
      · rw [h0] at hf2; push_cast at hf2 ⊢; linarith
      · intro h
        have : (1 : K) / 2 ≤ u := by
          rw [hudef, div_le_div_iff₀ (by norm_num) (by positivity)]; linarith
        push_cast; linarith
    · refine ⟨⌊u + 1 / 2⌋, by omega, by simp only [contourNs, ← hudef, if_neg h0], by linarith,
        fun _ => hf1⟩
  have hK : (1 : K) ≤ (t : K) := by exact_mod_cast ht1
  have hds : contourDs len (contourNs len ds) = len / (2 * (t : K)) := by
    rw [htn]; unfold contourDs; push_cast; ring_nf
  rw [hds, htn]
  have ht0 : (0 : K) < 2 * (t : K) := by linarith
  refine ⟨by omega, ⟨t, rfl⟩, ?_, by positivity, ?_, ?_⟩
  · push_cast
    rw [show (2 * (t : K) + 1 - 1) = 2 * t by ring]
    exact mul_div_cancel₀ _ ht0.ne'
  · rw [div_lt_iff₀ ht0, hlen]
    nlinarith
  · intro h
    rw [le_div_iff₀ ht0, hlen]
    have := htu h
    have h2 : (1 : K) / 2 ≤ u := by
      rw [hudef, div_le_div_iff₀ (by norm_num) (by positivity)]; linarith
    nlinarith

example : contourNs (1 : ℚ) (1 / 10) = 11 ∧ contourNs (1 / 100 : ℚ) (1 / 10) = 3 := by
  decide +kernel

/-- All length changes are to positive values. -/
def Positive (ops : List (BlkOp K C)) : Prop :=
  ∀ len, BlkOp.setLength len ∈ ops → 0 < len

/-- What a user may rely on for an allocated block. -/
structure BlkOk (bead : Bool) (s : Blk K C) : Prop where
  props : s.alloc = true → s.propNs = s.ns
  beads : s.alloc = true → bead = true → s.ns = s.nBead + 2 ∧ s.ds = 1
  thread : s.alloc = true → bead = false → 3 ≤ s.ns ∧ Odd s.ns ∧
    ((s.ns - 1 : Int) : K) * s.ds = s.length ∧ 0 < s.ds ∧ s.ds < 3 / 2 * s.dsTarget
  cache : s.hasExp = true → s.exps = some (s.kuhn, s.ds, s.cell)

theorem blkOk_step {bead : Bool} {s s' : Blk K C} (op : BlkOp K C)
    (hp : ∀ len, op = .setLength len → 0 < len) (h : BlkOk bead s)
    (ht : s.alloc = true → 0 < s.dsTarget)
    (hs : s.step bead op = .ok s') :
    BlkOk bead s' ∧ (s'.alloc = true → 0 < s'.dsTarget) := by
  cases op with
  | allocate ds =>
    simp only [Blk.step, Blk.allocate] at hs
    split at hs
    · cases hs
    rename_i hds
    have hds : 0 < ds := by simpa using hds
    split at hs
    · cases hs
    split at hs
    · rename_i hb
      cases hs
      exact ⟨⟨fun _ => rfl, fun _ _ => ⟨rfl, rfl⟩, fun _ h0 => (by rw [hb] at h0; cases h0),
        (fun h0 => by cases h0)⟩, fun _ => hds⟩
    rename_i hb
    split at hs
    · cases hs
    rename_i hl
    have hl : 0 < s.length := by simpa using hl
    cases hs
    obtain ⟨c1, c2, c3, c4, c5, _⟩ := C52_contour_partial s.length ds hl hds
    exact ⟨⟨fun _ => rfl, fun _ h0 => absurd h0 hb, fun _ _ => ⟨c1, c2, c3, c4, c5⟩,
      (fun h0 => by cases h0)⟩, fun _ => hds⟩
  | setLength len =>
    have hlen := hp len rfl
    simp only [Blk.step, Blk.setLength] at hs
    split at hs
    · cases hs
    rename_i hb
    split at hs
    · rename_i ha
      split at hs
      · cases hs
      rename_i hd
      have hd : 0 < s.dsTarget := by simpa using hd
      cases hs
      obtain ⟨c1, c2, c3, c4, c5, _⟩ := C52_contour_partial len s.dsTarget hlen hd
      refine ⟨⟨fun _ => ?_, fun _ h0 => absurd h0 hb, fun _ _ => ⟨c1, c2, c3, c4, c5⟩,
        (fun h0 => by cases h0)⟩, fun _ => hd⟩
      show (if s.ns ≠ contourNs len s.dsTarget then contourNs len s.dsTarget else s.propNs) = _
      split
      · rfl
      · rename_i h1
        rw [h.props ha]; simpa using h1
    · rename_i ha
      cases hs
      exact ⟨⟨(fun h0 => absurd h0 ha), (fun h0 => absurd h0 ha), (fun h0 => absurd h0 ha),
        (fun h0 => by cases h0)⟩, (fun h0 => absurd h0 ha)⟩
  | setKuhn b =>
    cases hs
    exact ⟨⟨h.props, h.beads, h.thread, (fun h0 => by cases h0)⟩, ht⟩
  | setCell c =>
    cases hs
    exact ⟨⟨h.props, h.beads, h.thread, (fun h0 => by cases h0)⟩, ht⟩
  | setup =>
    simp only [Blk.step, Blk.setup] at hs
    split at hs
    · cases hs
    split at hs
    · cases hs; exact ⟨h, ht⟩
    · cases hs
      exact ⟨⟨h.props, h.beads, h.thread, fun _ => rfl⟩, ht⟩

theorem blkOk_run (bead : Bool) : ∀ (ops : List (BlkOp K C)) (s : Blk K C), Positive ops →
    BlkOk bead s → (s.alloc = true → 0 < s.dsTarget) → BlkOk bead (Blk.run bead ops s)
  | [], _, _, h, _ => h
  | op :: ops, s, hp, h, ht => by
    unfold Blk.run
    have hp' : Positive ops := fun len hl => hp len (List.mem_cons_of_mem _ hl)
    cases hs : s.step bead op with
    | ok s1 =>
      obtain ⟨h1, h2⟩ := blkOk_step op (fun len he => hp len (by rw [he]; simp)) h ht hs
      exact blkOk_run bead ops s1 hp' h1 h2
    | throw => exact blkOk_run bead ops s hp' h ht
    | ub => exact blkOk_run bead ops s hp' h ht

/-- **C52** over every history of a block in which lengths are set to positive values: as soon
as the block is allocated, the propagators have as many slices as the block, a bead block has
`nBead + 2`, a thread block has an odd number `≥ 3` with steps adding up to the current length.

**C77**: whenever the exponentials are marked as up to date they were computed from the current
segment length, contour step and unit cell. -/
theorem C52_history_partial (bead : Bool) (len kuhn : K) (nBead : Int) (cell : C)
    (ops : List (BlkOp K C)) (hp : Positive ops) :
    BlkOk bead (Blk.run bead ops (Blk.init len nBead kuhn cell)) :=
  blkOk_run bead ops _ hp
    ⟨(fun h => by cases h), (fun h => by cases h), (fun h => by cases h),
      (fun h => by cases h)⟩ (fun h => by cases h)

theorem C77_exponentials_current (bead : Bool) (len kuhn : K) (nBead : Int) (cell : C)
    (ops : List (BlkOp K C)) (hp : Positive ops) :
    let s := Blk.run bead ops (Blk.init len nBead kuhn cell)
    (s.hasExp = true → s.exps = some (s.kuhn, s.ds, s.cell)) ∧
    (∀ s', s.setup = .ok s' → s'.hasExp = true ∧ s'.exps = some (s.kuhn, s.ds, s.cell)) := by
  intro s
  have h := (C52_history_partial bead len kuhn nBead cell ops hp).cache
  refine ⟨h, fun s' hs => ?_⟩
  unfold Blk.setup at hs
  split at hs
  · cases hs
  split at hs
  · rename_i he; cases hs; exact ⟨he, h he⟩
  · cases hs; exact ⟨rfl, rfl⟩

example : let s := Blk.run false [.allocate (1/10), .setup, .setLength 2, .setKuhn 3, .setup] (
      Blk.init (1 : ℚ) 0 2 ());
    s.ns = 21 ∧ s.propNs = 21 ∧ s.ds = 1 / 10 ∧ s.hasExp = true ∧ s.exps = some (3, 1/10, ()) := by
  decide +kernel

/-- Without the restriction C52 fails: `setLength` accepts zero and negative lengths, which give
a zero contour step or a negative number of contour points. -/
theorem C52_violated :
    (Blk.run false [.allocate (1/10), .setLength 0] (Blk.init (1 : ℚ) 0 1 ())).ds = 0 ∧
    (Blk.run false [.allocate (1/10), .setLength (-1)] (Blk.init (1 : ℚ) 0 1 ())).ns = -9 := by
  decide +kernel

end Verif.Solver
