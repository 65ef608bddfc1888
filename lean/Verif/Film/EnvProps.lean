import Verif.Film.LatticeProps
import Verif.Tac

/-!
Property C65: composite environments, and their fields after any history of calls.  Also cases
for property C63.
-/

set_option autoImplicit false
set_option linter.unusedSectionVars false

namespace Verif.Film

open Verif Verif.Crystal

/-! ## Reading -/

/-- C65. Reading an environment succeeds exactly for an independent, readable mask generator
that comes first, alone or followed by a readable generator of external fields; the flags say
what is generated.  The stated property asks for the other order as well. -/
theorem C65_read_partial (g1 g2 : Option Gen) (b : Bool × Bool) :
    readEnv g1 g2 = .ok b ↔
      (∃ g, g1 = some g ∧ g.type = .mask ∧ g.isDependent = false ∧ g.readable = true) ∧
      ((g2 = none ∧ b = (true, false)) ∨
        (∃ g, g2 = some g ∧ g.type = .external ∧ g.readable = true ∧ b = (true, true))) := by
  rcases g1 with _ | ⟨t1, d1, r1⟩
  · simp [readEnv]
  · rcases g2 with _ | ⟨t2, d2, r2⟩ <;> cases t1 <;> cases d1 <;> cases r1
    all_goals try (cases t2 <;> cases r2)
    all_goals simp [readEnv, Res.bind]
    all_goals exact eq_comm

/-- C65 fails: an environment whose first generator makes external fields is always refused. -/
theorem C65_violated (g2 : Option Gen) (d r : Bool) :
    readEnv (some ⟨.external, d, r⟩) g2 = .throw := by
  unfold readEnv
  cases d <;> cases r <;> rfl

/-! ## Histories -/

variable {V X M H : Type} [Zero V] [DecidableEq V] [DecidableEq X]

/-- External fields that belong to a state of the system. -/
def expectedH (F : FilmFns V X M H) (cb ct : X) (v : V) : Option H :=
  if F.athermal cb ct then none else some (F.hOf cb ct (F.maskOf v))

/-- The records kept by the generators describe the fields held by the system. -/
structure EnvInv (F : FilmFns V X M H) (s : EnvState V X M H) : Prop where
  mask : s.normalCurrent ≠ 0 → s.mask = some (F.maskOf s.normalCurrent)
  ext : ∀ cb ct v, s.extCurrent = some (cb, ct, v) → s.h = expectedH F cb ct v
  cur : s.needsUpdate = false →
    s.mask = some (F.maskOf s.normal) ∧ s.h = expectedH F s.chiBottom s.chiTop s.normal

theorem EnvInv.init (F : FilmFns V X M H) (v : V) (cb ct : X) :
    EnvInv F (EnvState.init v cb ct : EnvState V X M H) where
  mask := fun h => absurd rfl h
  ext := by intro _ _ _ h; cases h
  cur := by intro h; cases h

theorem genMask_spec (F : FilmFns V X M H) {s : EnvState V X M H} (hs : EnvInv F s)
    (hn : s.needsUpdate = true) :
    EnvInv F (s.genMask F).1 ∧ (s.genMask F).1.needsUpdate = true ∧
      (s.genMask F).1.normal = s.normal ∧ (s.genMask F).1.chiBottom = s.chiBottom ∧
      (s.genMask F).1.chiTop = s.chiTop ∧
      ((s.genMask F).2 = false → (s.genMask F).1.mask = some (F.maskOf s.normal)) := by
  unfold EnvState.genMask
  by_cases h1 : s.maskNeeds = true
  · rw [if_pos h1]
    by_cases h2 : F.maskCompatible s.normal = true
    · rw [if_pos h2]
      exact ⟨⟨fun _ => rfl, hs.ext, fun h => absurd h (by simp [hn])⟩, hn, rfl, rfl, rfl, fun _ => rfl⟩
    · rw [if_neg h2]
      exact ⟨hs, hn, rfl, rfl, rfl, by intro h; cases h⟩
  · rw [if_neg h1]
    refine ⟨hs, hn, rfl, rfl, rfl, fun _ => ?_⟩
    unfold EnvState.maskNeeds at h1
    split at h1
    · exact absurd rfl h1
    · rename_i h0
      split at h1
      · rename_i h3
        rw [hs.mask h0, h3]
      · exact absurd rfl h1

theorem genExt_spec (F : FilmFns V X M H) {s : EnvState V X M H} (hs : EnvInv F s)
    (hn : s.needsUpdate = true) (hm : s.mask = some (F.maskOf s.normal)) :
    EnvInv F (s.genExt F).1 ∧ (s.genExt F).1.normal = s.normal ∧
      (s.genExt F).1.chiBottom = s.chiBottom ∧ (s.genExt F).1.chiTop = s.chiTop ∧
      (s.genExt F).1.needsUpdate = true ∧ (s.genExt F).1.mask = s.mask ∧
      ((s.genExt F).2 = false →
        (s.genExt F).1.h = expectedH F s.chiBottom s.chiTop s.normal) := by
  unfold EnvState.genExt
  by_cases h1 : s.extNeeds F = true
  · rw [if_pos h1]
    by_cases h2 : F.extCompatible s.chiBottom s.chiTop = true
    · rw [if_pos h2]
      dsimp only
      by_cases h3 : F.athermal s.chiBottom s.chiTop = true
      · rw [if_pos h3]
        refine ⟨⟨hs.mask, ?_, fun h => absurd h (by simp [hn])⟩, rfl, rfl, rfl, hn, rfl, fun _ => ?_⟩
        · intro cb ct v h
          injection h with h
          injection h with e1 h
          injection h with e2 e3
          subst e1 e2 e3
          simp [expectedH, h3]
        · simp [expectedH, h3]
      · rw [if_neg h3, hm]
        refine ⟨⟨fun h0 => hm.symm.trans (hs.mask h0), ?_, fun h => absurd h (by simp [hn])⟩,
          rfl, rfl, rfl, hn, rfl, fun _ => ?_⟩
        · intro cb ct v h
          injection h with h
          injection h with e1 h
          injection h with e2 e3
          subst e1 e2 e3
          simp [expectedH, h3]
        · simp [expectedH, h3]
    · rw [if_neg h2]
      exact ⟨hs, rfl, rfl, rfl, hn, rfl, by intro h; cases h⟩
  · rw [if_neg h1]
    refine ⟨hs, rfl, rfl, rfl, hn, rfl, fun _ => ?_⟩
    unfold EnvState.extNeeds at h1
    cases hc : s.extCurrent with
    | none => rw [hc] at h1; exact absurd rfl h1
    | some c =>
      obtain ⟨cb, ct, v⟩ := c
      rw [hc] at h1
      dsimp only at h1
      split at h1
      · exact absurd rfl h1
      · rename_i h2
        push Not at h2
        split at h1
        · rename_i h3
          rw [hs.ext cb ct v hc]
          unfold expectedH
          rw [← h2.1, ← h2.2, if_pos h3, if_pos h3]
        · split at h1
          · rename_i h4
            rw [hs.ext cb ct v hc, h2.1, h2.2, h4]
          · exact absurd rfl h1

theorem generate_spec (F : FilmFns V X M H) {s : EnvState V X M H} (hs : EnvInv F s) :
    EnvInv F (s.generate F).1 ∧ (s.generate F).1.normal = s.normal ∧
      (s.generate F).1.chiBottom = s.chiBottom ∧ (s.generate F).1.chiTop = s.chiTop ∧
      ((s.generate F).2 = false → (s.generate F).1.needsUpdate = false) := by
  unfold EnvState.generate
  cases hn : s.needsUpdate with
  | false => exact ⟨hs, rfl, rfl, rfl, fun _ => hn⟩
  | true =>
    dsimp only
    rw [if_pos rfl]
    obtain ⟨i1, n1, v1, b1, t1, m1⟩ := genMask_spec F hs hn
    cases h2 : (s.genMask F).2 with
    | true => exact ⟨i1, v1, b1, t1, by intro h; rw [if_pos rfl] at h; rw [h] at h2; cases h2⟩
    | false =>
      rw [if_neg (by simp)]
      have hm := m1 h2
      obtain ⟨i2, v2, b2, t2, n2, m2, h3⟩ := genExt_spec F i1 n1 (by rw [hm, v1])
      cases h4 : ((s.genMask F).1.genExt F).2 with
      | true =>
        refine ⟨i2, v2.trans v1, b2.trans b1, t2.trans t1, ?_⟩
        intro h; rw [if_pos rfl] at h; rw [h] at h4; cases h4
      | false =>
        rw [if_neg (by simp)]
        refine ⟨⟨i2.mask, i2.ext, fun _ => ⟨?_, ?_⟩⟩, v2.trans v1, b2.trans b1, t2.trans t1,
          fun _ => rfl⟩
        · show _ = some (F.maskOf ((s.genMask F).1.genExt F).1.normal)
          rw [m2, hm, v2, v1]
        · show ((s.genMask F).1.genExt F).1.h = _
          rw [h3 h4, v2, b2, t2]

/-- The state after a list of operations. -/
def EnvState.run (F : FilmFns V X M H) (s : EnvState V X M H) (ops : List (EnvOp V X)) :
    EnvState V X M H := ops.foldl (fun s o => s.step F o) s

theorem run_inv (F : FilmFns V X M H) (ops : List (EnvOp V X)) {s : EnvState V X M H}
    (hs : EnvInv F s) : EnvInv F (s.run F ops) := by
  induction ops generalizing s with
  | nil => exact hs
  | cons o ops ih =>
    refine ih (s := s.step F o) ?_
    cases o with
    | setNormal v => exact ⟨hs.mask, hs.ext, by intro h; cases h⟩
    | setChi cb ct => exact ⟨hs.mask, hs.ext, by intro h; cases h⟩
    | generate => exact (generate_spec F hs).1

/-- C65. After any history of changes of the cell and the walls and of calls of `generate`, some
of which may have thrown, a call of `generate` that does not throw leaves the mask and the
external fields that belong to the current cell and walls. -/
theorem C65_generate (F : FilmFns V X M H) (v : V) (cb ct : X) (ops : List (EnvOp V X))
    (s t : EnvState V X M H) (hs : s = (EnvState.init v cb ct).run F ops)
    (hg : s.generate F = (t, false)) :
    t.mask = some (F.maskOf s.normal) ∧
      t.h = (if F.athermal s.chiBottom s.chiTop then none
        else some (F.hOf s.chiBottom s.chiTop (F.maskOf s.normal))) := by
  have hi : EnvInv F s := hs ▸ run_inv F ops (EnvInv.init F v cb ct)
  obtain ⟨i, e1, e2, e3, hn⟩ := generate_spec F hi
  rw [hg] at i e1 e2 e3 hn
  have := i.cur (hn rfl)
  rw [e1, e2, e3] at this
  exact this

/-- C65. Whenever the environment says that no update is needed, the fields are up to date. -/
theorem C65_needsUpdate (F : FilmFns V X M H) (v : V) (cb ct : X) (ops : List (EnvOp V X))
    (s : EnvState V X M H) (hs : s = (EnvState.init v cb ct).run F ops)
    (hn : s.needsUpdate = false) :
    s.mask = some (F.maskOf s.normal) ∧
      s.h = (if F.athermal s.chiBottom s.chiTop then none
        else some (F.hOf s.chiBottom s.chiTop (F.maskOf s.normal))) :=
  (hs ▸ run_inv F ops (EnvInv.init F v cb ct) : EnvInv F s).cur hn

/-- C65. `generate` throws only if one of the compatibility checks fails. -/
theorem C65_no_throw (F : FilmFns V X M H) (v : V) (cb ct : X) (ops : List (EnvOp V X))
    (s : EnvState V X M H) (hs : s = (EnvState.init v cb ct).run F ops)
    (hm : F.maskCompatible s.normal = true) (hx : F.extCompatible s.chiBottom s.chiTop = true) :
    ∃ t, s.generate F = (t, false) := by
  have hi : EnvInv F s := hs ▸ run_inv F ops (EnvInv.init F v cb ct)
  unfold EnvState.generate
  cases hn : s.needsUpdate with
  | false => exact ⟨_, rfl⟩
  | true =>
    dsimp only
    rw [if_pos rfl]
    obtain ⟨i1, n1, v1, b1, t1, m1⟩ := genMask_spec F hi hn
    have h2 : (s.genMask F).2 = false := by
      unfold EnvState.genMask
      rw [if_pos hm]
      split <;> rfl
    have hmask := m1 h2
    have h4 : ((s.genMask F).1.genExt F).2 = false := by
      unfold EnvState.genExt
      rw [b1, t1, if_pos hx, hmask]
      dsimp only
      split
      · split <;> rfl
      · rfl
    rw [h2, if_neg (by simp), h4, if_neg (by simp)]
    exact ⟨_, rfl⟩

/-! ## Cases -/

/-- A film in one dimension: the mask depends on the length, the external field on the walls. -/
def exF : FilmFns Int Int Int (Int × Int × Int) where
  maskOf := fun v => 10 * v
  hOf := fun a b m => (a, b, m)
  athermal := fun a b => a == 0 && b == 0
  maskCompatible := fun v => v > 0
  extCompatible := fun _ _ => true

example : (((EnvState.init 2 1 0).run exF [.generate, .setNormal (-3), .generate, .setChi 0 0,
    .generate, .setNormal 5]).generate exF).1.mask = some 50 := by decide

example : (((EnvState.init 2 1 0).run exF [.generate, .setNormal 3]).generate exF).1.h =
    some (1, 0, 30) := by decide

example : (((EnvState.init 2 1 0).run exF [.setNormal (-3)]).generate exF).2 = true := by decide

example : readEnv (some ⟨.mask, false, true⟩) (some ⟨.external, true, true⟩) = .ok (true, true) := rfl

/-- A film on a mesh of 8 by 6 points with the normal along the second direction. -/
example : ∃ (m : List ℝ) (val : Nat → ℝ), maskField ⟨1, 1, 2, none⟩ [8, 6] 10 = .ok m ∧
    m.length = 8 * (6 * 1) ∧ (∀ k, 0 < val k ∧ val k < 1) ∧ 1 / 2 < val 3 ∧ ¬ 1 / 2 < val 0 ∧
    m[(4 * 6 + 3) * 1 + 0]? = some (val 3) := by
  obtain ⟨m, val, h1, h2, h3, h4, -, h6⟩ := C63_mask 2 ⟨1, 1, 2, none⟩ [8, 6] 10 (by norm_num)
    ((C63_read_partial 2 _ _).2 ⟨rfl, by norm_num, by norm_num, by norm_num, by norm_num⟩)
    (by norm_num) (by norm_num)
    (by intro i; rcases i with _ | _ | i <;> simp [dim3])
  refine ⟨m, val, h1, h2, h4, ?_, ?_, ?_⟩
  · rw [h6]
    simp only [dim3, Int.reduceToNat, List.getD]
    norm_num
  · rw [h6]
    simp only [dim3, Int.reduceToNat, List.getD]
    norm_num [abs_lt]
  · exact h3 4 3 0 (by simp [dim3]) (by simp [dim3]) (by simp [dim3])

/-- The mirror perpendicular to the normal passes the test for the mask and not the test for
different walls. -/
example : checkGroup true 0 [(⟨fun _ _ => -1, fun _ => 0⟩ : Sym 1)] = .ok () ∧
    checkGroup false 0 [(⟨fun _ _ => -1, fun _ => 0⟩ : Sym 1)] = .throw := by
  constructor <;> decide +kernel

end Verif.Film
