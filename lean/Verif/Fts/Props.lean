import Verif.Fts.Model
import Verif.Tac

/-!
# C56, C57: Monte-Carlo and Brownian dynamics steps
-/

set_option autoImplicit false
set_option linter.unusedSectionVars false

namespace Verif.Fts

open St

variable {Θ E W C WC CC DC H PE R : Type}
variable {P : Phys Θ E W C WC CC DC H PE R} {pol : Policy}

/-- Data reported as available agree with the current fields and parameters; `cc` only if
`withCc`. -/
structure Coherent (P : Phys Θ E W C WC CC DC H PE R) (withCc : Bool)
    (s : St Θ E W C WC CC DC H PE) : Prop where
  ev : s.ev = P.eig s.par
  sol : s.cHas = true → s.sol = P.solve s.par s.w
  wc : s.hasWc = true → s.wc = P.wcOf (P.eig s.par) s.w
  cc : withCc = true → s.hasCc = true → s.cc = P.ccOf (P.eig s.par) (P.solve s.par s.w)
  dc : s.hasDc = true → s.dc = P.dcOf s.par (P.eig s.par) (P.wcOf (P.eig s.par) s.w)
    (P.ccOf (P.eig s.par) (P.solve s.par s.w))
  ham : s.hasHam = true →
    s.ham = P.hamOf s.par (P.eig s.par) (P.solve s.par s.w) (P.wcOf (P.eig s.par) s.w) ∧
    s.pert = P.pertOf s.par (P.eig s.par) (P.solve s.par s.w) (P.wcOf (P.eig s.par) s.w)

/-- Between steps: nothing is saved, and the data a step starts from are available. -/
structure Ready (pol : Policy) (s : St Θ E W C WC CC DC H PE) : Prop where
  slot : s.slotHas = false
  wc : s.hasWc = true
  cc : pol.cc = true → s.hasCc = true
  dc : pol.dc = true → s.hasDc = true
  ham : pol.ham = true → s.hasHam = true

/-- `s'` has the fields, parameters and all saved data of `s`. -/
structure Same (pol : Policy) (s s' : St Θ E W C WC CC DC H PE) : Prop where
  par : s'.par = s.par
  ev : s'.ev = s.ev
  w : s'.w = s.w
  wc : s'.wc = s.wc ∧ s'.hasWc = s.hasWc
  cc : pol.cc = true → s'.cc = s.cc ∧ s'.hasCc = s.hasCc
  dc : pol.dc = true → s'.dc = s.dc ∧ s'.hasDc = s.hasDc
  ham : pol.ham = true → s'.ham = s.ham ∧ s'.hasHam = s.hasHam
  pert : s'.pert = s.pert
  slot : s'.slotHas = false

/-- Events after which `cc` is still that of the current fields. -/
def Ev.CcSafe (pol : Policy) : Ev Θ W R → Prop
  | .mc fb _ => pol.cc = true ∨ (pol.dc = false ∧ fb = false)
  | .bd k _ => pol.cc = true ∨ k ≠ .predCorr
  | .observe => True
  | .ramp _ _ _ => False

/-- State reached by an accepted move or a converged step with final fields `w`. -/
structure Fresh (P : Phys Θ E W C WC CC DC H PE R) (pol : Policy) (s s' : St Θ E W C WC CC DC H PE)
    (v : W) : Prop where
  w : s'.w = v
  par : s'.par = s.par
  coh : Coherent P true s'
  slot : s'.slotHas = false
  wc : s'.hasWc = true
  cc : pol.cc = true → s'.hasCc = true
  dc : pol.dc = true → s'.hasDc = true

/-- The saved copy of a state. -/
def savedOf (pol : Policy) (s : St Θ E W C WC CC DC H PE) : Saved W WC CC DC H PE :=
  ⟨s.w, s.wc, if pol.cc then s.cc else s.slot.cc, if pol.dc then s.dc else s.slot.dc,
    if pol.ham then s.ham else s.slot.ham, s.pert⟩

/-- During a step that began in state `s`: a copy of `s` is saved, and the MDE is solved for the
current fields `w`. -/
structure Mid (P : Phys Θ E W C WC CC DC H PE R) (pol : Policy) (s x : St Θ E W C WC CC DC H PE)
    (v : W) : Prop where
  w : x.w = v
  par : x.par = s.par
  ev : x.ev = s.ev
  has : x.cHas = true
  sol : x.sol = P.solve s.par v
  slot : x.slot = savedOf pol s
  slotHas : x.slotHas = true

theorem saveState_spec {s : St Θ E W C WC CC DC H PE} (hr : Ready pol s) :
    saveState pol s = .ok { s with slot := savedOf pol s, slotHas := true } := by
  obtain ⟨pc, pd, ph⟩ := pol
  obtain ⟨r1, r2, r3, r4, r5⟩ := hr
  simp only at r3 r4 r5
  unfold saveState
  rw [if_neg]
  · rfl
  · rw [r2, r1]
    cases pc <;> cases pd <;> cases ph <;> simp_all

/-- Restoring gives back the data saved in `s`; data that are not saved keep their flags. -/
theorem restoreState_spec {s x : St Θ E W C WC CC DC H PE} (hr : Ready pol s)
    (h1 : x.slot = savedOf pol s) (h2 : x.slotHas = true) (h3 : x.par = s.par)
    (h4 : x.ev = s.ev) :
    ∃ s', restoreState pol x = .ok s' ∧ Same pol s s' ∧ s'.cHas = false ∧
      (pol.cc = false → s'.hasCc = x.hasCc ∧ s'.cc = x.cc) ∧
      (pol.dc = false → s'.hasDc = x.hasDc ∧ s'.dc = x.dc) ∧
      (pol.ham = false → s'.hasHam = x.hasHam ∧ s'.ham = x.ham) := by
  obtain ⟨pc, pd, ph⟩ := pol
  obtain ⟨r1, r2, r3, r4, r5⟩ := hr
  simp only at r3 r4 r5
  unfold restoreState
  simp only [h2, Bool.not_true, Bool.false_eq_true, if_false]
  refine ⟨_, rfl, ⟨?_, ?_, ?_, ?_, ?_, ?_, ?_, ?_, ?_⟩, ?_, ?_, ?_, ?_⟩ <;>
    cases pc <;> cases pd <;> cases ph <;> simp_all [setW, savedOf]

/-- All data of `x` that are reported are current; `hasHam` and the saved copy as in `x0`. -/
structure Comp (P : Phys Θ E W C WC CC DC H PE R) (s x0 x : St Θ E W C WC CC DC H PE) (w : W) :
    Prop where
  wcHas : x.hasWc = true
  wc : x.wc = P.wcOf s.ev w
  cc : x.hasCc = true → x.cc = P.ccOf s.ev (P.solve s.par w)
  dc : x.hasDc = true → x.dc = P.dcOf s.par s.ev (P.wcOf s.ev w)
    (P.ccOf s.ev (P.solve s.par w))
  ham : x.hasHam = x0.hasHam
  slotHas : x.slotHas = x0.slotHas

theorem components_spec {s x : St Θ E W C WC CC DC H PE} {w : W} (hm : Mid P pol s x w)
    (hc : x.hasCc = false) (hd : x.hasDc = false) :
    ∃ y, components P pol x = .ok y ∧ Mid P pol s y w ∧ Comp P s x y w ∧
      (pol.cc = true ∨ pol.dc = true → y.hasCc = true) ∧ (pol.dc = true → y.hasDc = true) ∧
      (pol.cc = false → pol.dc = false → y.hasCc = false) ∧
      (pol.dc = false → y.hasDc = false) := by
  obtain ⟨m1, m2, m3, m4, m5, m6, m7⟩ := hm
  obtain ⟨pc, pd, ph⟩ := pol
  unfold components computeDc computeCc computeWc
  cases pc <;> cases pd <;>
    simp only [Bool.or_self, Bool.or_true, Bool.true_or, Bool.false_eq_true, if_true, if_false,
      m4, Res.ok_bind] <;>
    refine ⟨_, rfl, ⟨?_, ?_, ?_, ?_, ?_, ?_, ?_⟩, ⟨?_, ?_, ?_, ?_, ?_, ?_⟩, ?_, ?_, ?_, ?_⟩ <;>
    simp_all

theorem allComponents_spec {s x : St Θ E W C WC CC DC H PE} {w : W}
    (h0 : x.w = w ∧ x.par = s.par ∧ x.ev = s.ev ∧ x.cHas = true ∧ x.sol = P.solve s.par w) :
    ∃ y, allComponents P x = .ok y ∧
      (y.w = w ∧ y.par = s.par ∧ y.ev = s.ev ∧ y.cHas = true ∧ y.sol = P.solve s.par w) ∧
      y.slot = x.slot ∧ Comp P s x y w ∧ y.hasCc = true ∧ y.hasDc = true := by
  obtain ⟨m1, m2, m3, m4, m5⟩ := h0
  unfold allComponents computeDc computeCc computeWc
  simp only [m4, if_true, Res.ok_bind]
  refine ⟨_, rfl, ⟨?_, ?_, ?_, ?_, ?_⟩, ?_, ⟨?_, ?_, ?_, ?_, ?_, ?_⟩, ?_, ?_⟩ <;> simp_all

theorem computeHam_spec {s x : St Θ E W C WC CC DC H PE} {w : W} (hm : Mid P pol s x w)
    (hc : Comp P s x x w) :
    ∃ y, computeHam P x = .ok y ∧ Mid P pol s y w ∧
      (y.wc = x.wc ∧ y.hasWc = true ∧ y.cc = x.cc ∧ y.hasCc = x.hasCc ∧ y.dc = x.dc ∧
        y.hasDc = x.hasDc) ∧ y.hasHam = true ∧
      y.ham = P.hamOf s.par s.ev (P.solve s.par w) (P.wcOf s.ev w) ∧
      y.pert = P.pertOf s.par s.ev (P.solve s.par w) (P.wcOf s.ev w) := by
  obtain ⟨m1, m2, m3, m4, m5, m6, m7⟩ := hm
  obtain ⟨c1, c2, _, _, _, _⟩ := hc
  unfold computeHam
  simp only [m4, c1, Bool.and_self, if_true]
  refine ⟨_, rfl, ⟨?_, ?_, ?_, ?_, ?_, ?_, ?_⟩, ⟨?_, ?_, ?_, ?_, ?_, ?_⟩, ?_, ?_, ?_⟩ <;> simp_all

/-- The data reported as available after a step that did not succeed. -/
def LeftOver (P : Phys Θ E W C WC CC DC H PE R) (s s' : St Θ E W C WC CC DC H PE) (w : W) : Prop :=
  s'.hasCc = true ∧ s'.cc = P.ccOf s.ev (P.solve s.par w)

/-- C56 for one Monte-Carlo move: it never raises an exception from a ready state. If it is
rejected or fails, fields, parameters and all saved data are those before the move, the slot is
empty, and data that are not saved are reported as missing, except that `cc` of the rejected fields
may be reported (`LeftOver`). If it is accepted, the fields are those left by the compressor and all
data are current. -/
theorem C56_move_partial (fb : Bool) (t : Trial W R) (s : St Θ E W C WC CC DC H PE)
    (hr : Ready pol s) (hev : s.ev = P.eig s.par)
    (hfb : fb = true → pol.dc = true ∧ pol.ham = true) :
    ∃ s' o, move P pol fb t s = .ok (s', o) ∧
      (o ≠ .accepted → Same pol s s' ∧ s'.cHas = false ∧
        (pol.cc = false → (s'.hasCc = true ↔ (o = .rejected ∧ pol.dc = true)) ∧
          (s'.hasCc = true → LeftOver P s s' t.comp)) ∧
        (pol.dc = false → s'.hasDc = false) ∧
        (pol.ham = false → o = .failed → s'.hasHam = false)) ∧
      (o = .accepted → Fresh P pol s s' t.comp ∧ s'.hasHam = true) ∧
      (o = .failed ↔ t.ok = false) := by
  have g1 : (fb && !(s.hasWc && s.hasDc && s.hasHam)) = false := by
    cases fb with
    | false => rfl
    | true => simp [hr.wc, hr.dc (hfb rfl).1, hr.ham (hfb rfl).2]
  unfold move
  rw [g1, saveState_spec hr]
  simp only [Bool.false_eq_true, if_false, Res.ok_bind]
  generalize hx : compress P (if fb = true then clearData (setW (clearData
    { s with slot := savedOf pol s, slotHas := true }) t.prop) else setW (clearData
    { s with slot := savedOf pol s, slotHas := true }) t.prop) t.comp = x
  have hm : Mid P pol s x t.comp ∧ x.hasCc = false ∧ x.hasDc = false ∧ x.hasHam = false := by
    subst hx
    cases fb <;> exact ⟨⟨rfl, rfl, rfl, rfl, rfl, rfl, rfl⟩, rfl, rfl, rfl⟩
  obtain ⟨hm, hc, hd, hh⟩ := hm
  by_cases hok : t.ok = true
  · simp only [hok, Bool.not_true, Bool.false_eq_true, if_false]
    have hy : ∃ y, (if fb = true then allComponents P x else components P pol x) = .ok y ∧
        Mid P pol s y t.comp ∧ Comp P s x y t.comp ∧
        (pol.cc = true ∨ pol.dc = true → y.hasCc = true) ∧ (pol.dc = true → y.hasDc = true) ∧
        (pol.cc = false → pol.dc = false → y.hasCc = false) ∧
        (pol.dc = false → y.hasDc = false) := by
      cases fb with
      | false => simpa using components_spec hm hc hd
      | true =>
        obtain ⟨y, e, ⟨b1, b2, b3, b4, b5⟩, b6, b7, b8, b9⟩ :=
          allComponents_spec (P := P) (s := s) (x := x) (w := t.comp)
            ⟨hm.w, hm.par, hm.ev, hm.has, hm.sol⟩
        refine ⟨y, by simpa using e, ⟨b1, b2, b3, b4, b5, by rw [b6, hm.slot],
          by rw [b7.slotHas, hm.slotHas]⟩, b7, fun _ => b8, fun _ => b9, ?_, ?_⟩
        · intro _ h; rw [(hfb rfl).1] at h; cases h
        · intro h; rw [(hfb rfl).1] at h; cases h
    obtain ⟨y, e, hmy, hcy, p1, p2, p3, p4⟩ := hy
    rw [e]
    simp only [Res.ok_bind]
    obtain ⟨z, e2, hmz, ⟨z1, z2, z3, z4, z5, z6⟩, z7, z8, z9⟩ := computeHam_spec hmy
      ⟨hcy.wcHas, hcy.wc, hcy.cc, hcy.dc, rfl, rfl⟩
    rw [e2]
    simp only [Res.ok_bind]
    split
    · refine ⟨_, _, rfl, by simp, fun _ => ⟨⟨hmz.w, hmz.par, ⟨?_, ?_, ?_, ?_, ?_, ?_⟩, rfl, z2,
        ?_, ?_⟩, z7⟩, by simp⟩
      all_goals simp only [clearState]
      · rw [hmz.ev, hmz.par, hev]
      · intro _; rw [hmz.sol, hmz.par, hmz.w]
      · intro _; rw [z1, hcy.wc, hmz.par, hmz.w, hev]
      · intro _ h; rw [z3, hcy.cc (z4 ▸ h), hmz.par, hmz.w, hev]
      · intro h; rw [z5, hcy.dc (z6 ▸ h), hmz.par, hmz.w, hev]
      · intro _; rw [z8, z9, hmz.par, hmz.w, hev]; exact ⟨rfl, rfl⟩
      · intro h; rw [z4]; exact p1 (Or.inl h)
      · intro h; rw [z6]; exact p2 h
    · obtain ⟨s', e3, hs, q1, q2, q3, q4⟩ := restoreState_spec hr hmz.slot hmz.slotHas hmz.par hmz.ev
      rw [e3]
      refine ⟨s', .rejected, rfl, fun _ => ⟨hs, q1, fun h => ⟨?_, fun h' => ⟨h', ?_⟩⟩, fun h => ?_,
        by simp⟩, by simp, by simp⟩
      · rw [(q2 h).1, z4]
        cases hpd : pol.dc with
        | true => simp [p1 (Or.inr hpd)]
        | false => simp [p3 h hpd]
      · rw [(q2 h).2, z3]
        exact hcy.cc (by rw [← z4, ← (q2 h).1]; exact h')
      · rw [(q3 h).1, z6, p4 h]
  · have hok' : t.ok = false := by simpa using hok
    simp only [hok', Bool.not_false, if_true]
    obtain ⟨s', e3, hs, q1, q2, q3, q4⟩ := restoreState_spec hr hm.slot hm.slotHas hm.par hm.ev
    rw [e3]
    refine ⟨s', .failed, rfl, fun _ => ⟨hs, q1, fun h => ⟨?_, fun h' => ?_⟩, fun h => ?_,
      fun h _ => ?_⟩, by simp, by simp⟩
    · rw [(q2 h).1, hc]; simp
    · rw [(q2 h).1, hc] at h'; cases h'
    · rw [(q3 h).1, hd]
    · rw [(q4 h).1, hh]

/-- C56 for one Brownian dynamics step of any of the three algorithms. `conv` is true iff the
compressor converged every time it was called. -/
theorem C56_bdStep_partial (k : Bd) (t : BdTrial W) (s : St Θ E W C WC CC DC H PE)
    (hr : Ready pol s) (hev : s.ev = P.eig s.par) :
    ∃ s' conv, bdStep P pol k t s = .ok (s', conv) ∧
      (conv = true ↔ t.ok = true ∧ (k = .predCorr → t.ok2 = true)) ∧
      (conv = false → Same pol s s' ∧ s'.cHas = false ∧
        (pol.cc = false → k = .predCorr → t.ok = true → LeftOver P s s' t.comp) ∧
        (pol.cc = false → k ≠ .predCorr ∨ t.ok = false → s'.hasCc = true →
          s.hasCc = true ∧ s'.cc = s.cc) ∧
        (pol.dc = false → k ≠ .predCorr ∨ t.ok = false → s'.hasDc = true →
          s.hasDc = true ∧ s'.dc = s.dc) ∧
        (pol.dc = false → k = .predCorr → t.ok = true → s'.dc = P.dcOf s.par s.ev
          (P.wcOf s.ev t.comp) (P.ccOf s.ev (P.solve s.par t.comp))) ∧
        (pol.ham = false → s'.hasHam = true → s.hasHam = true ∧ s'.ham = s.ham)) ∧
      (conv = true → Fresh P pol s s' (if k = .predCorr then t.comp2 else t.comp) ∧
        s'.hasCc = true ∧ s'.hasDc = true ∧ s'.hasHam = false) := by
  have fresh : ∀ (x y : St Θ E W C WC CC DC H PE) (v : W),
      (y.w = v ∧ y.par = s.par ∧ y.ev = s.ev ∧ y.cHas = true ∧ y.sol = P.solve s.par v) →
      Comp P s x y v → x.hasHam = false → x.slotHas = false → y.hasCc = true → y.hasDc = true →
      Fresh P pol s y v ∧ y.hasCc = true ∧ y.hasDc = true ∧ y.hasHam = false := by
    rintro x y v ⟨b1, b2, b3, b4, b5⟩ hc h1 h2 h3 h4
    refine ⟨⟨b1, b2, ⟨?_, ?_, ?_, ?_, ?_, ?_⟩, by rw [hc.slotHas, h2], hc.wcHas, fun _ => h3,
      fun _ => h4⟩, h3, h4, by rw [hc.ham, h1]⟩
    · rw [b3, b2, hev]
    · intro _; rw [b5, b2, b1]
    · intro _; rw [hc.wc, b2, b1, hev]
    · intro _ h; rw [hc.cc h, b2, b1, hev]
    · intro h; rw [hc.dc h, b2, b1, hev]
    · intro h; rw [hc.ham, h1] at h; cases h
  unfold bdStep
  rw [saveState_spec hr]
  simp only [Res.ok_bind]
  generalize hx : compress P (if k = Bd.explicit then clearData (setW
    { s with slot := savedOf pol s, slotHas := true } t.prop) else setW
    { s with slot := savedOf pol s, slotHas := true } t.prop) t.comp = x
  have hm : Mid P pol s x t.comp ∧
      (k = .explicit → x.hasCc = false ∧ x.hasDc = false ∧ x.hasHam = false) ∧
      (k ≠ .explicit → x.hasCc = s.hasCc ∧ x.hasDc = s.hasDc ∧ x.hasHam = s.hasHam) ∧
      x.cc = s.cc ∧ x.dc = s.dc ∧ x.ham = s.ham := by
    subst hx
    by_cases hk : k = .explicit
    · rw [if_pos hk]
      exact ⟨⟨rfl, rfl, rfl, rfl, rfl, rfl, rfl⟩, fun _ => ⟨rfl, rfl, rfl⟩, fun h => absurd hk h,
        rfl, rfl, rfl⟩
    · rw [if_neg hk]
      exact ⟨⟨rfl, rfl, rfl, rfl, rfl, rfl, rfl⟩, fun h => absurd h hk, fun _ => ⟨rfl, rfl, rfl⟩,
        rfl, rfl, rfl⟩
  obtain ⟨hm, f1, f2, f3, f4, f5⟩ := hm
  by_cases hok : t.ok = true
  · simp only [hok, Bool.not_true, Bool.false_eq_true, if_false]
    cases k with
    | explicit =>
      obtain ⟨y, e, b, _, hc, g1, g2⟩ := allComponents_spec (P := P) (s := s) (x := clearState x)
        (w := t.comp) ⟨hm.w, hm.par, hm.ev, hm.has, hm.sol⟩
      simp only [e, Res.ok_bind]
      exact ⟨y, true, rfl, by simp, by simp, fun _ => fresh _ y _ b hc (f1 rfl).2.2 rfl g1 g2⟩
    | lm =>
      obtain ⟨y, e, b, _, hc, g1, g2⟩ := allComponents_spec (P := P) (s := s)
        (x := clearData (clearState x)) (w := t.comp) ⟨hm.w, hm.par, hm.ev, hm.has, hm.sol⟩
      simp only [e, Res.ok_bind]
      exact ⟨y, true, rfl, by simp, by simp, fun _ => fresh _ y _ b hc rfl rfl g1 g2⟩
    | predCorr =>
      obtain ⟨y, e, b, bs, hc, g1, g2⟩ := allComponents_spec (P := P) (s := s)
        (x := clearData x) (w := t.comp) ⟨hm.w, hm.par, hm.ev, hm.has, hm.sol⟩
      simp only [e, Res.ok_bind]
      generalize hz : compress P (setW y t.prop2) t.comp2 = z
      have hzm : Mid P pol s z t.comp2 ∧ z.hasCc = true ∧ z.cc = y.cc ∧ z.dc = y.dc ∧
          z.hasHam = false := by
        subst hz
        refine ⟨⟨rfl, b.2.1, b.2.2.1, rfl, ?_, ?_, ?_⟩, g1, rfl, rfl, ?_⟩
        · show P.solve y.par t.comp2 = _
          rw [b.2.1]
        · show y.slot = _
          rw [bs]; exact hm.slot
        · show y.slotHas = _
          rw [hc.slotHas]; exact hm.slotHas
        · show y.hasHam = _
          rw [hc.ham]; rfl
      obtain ⟨hzm, z1, z2, z3, z4⟩ := hzm
      by_cases hok2 : t.ok2 = true
      · simp only [hok2, Bool.not_true, Bool.false_eq_true, if_false]
        obtain ⟨u, e2, b2, _, hc2, g3, g4⟩ := allComponents_spec (P := P) (s := s)
          (x := clearData (clearState z)) (w := t.comp2)
          ⟨hzm.w, hzm.par, hzm.ev, hzm.has, hzm.sol⟩
        simp only [e2, Res.ok_bind]
        exact ⟨u, true, rfl, by simp, by simp, fun _ => fresh _ u _ b2 hc2 rfl rfl g3 g4⟩
      · have hok2' : t.ok2 = false := by simpa using hok2
        simp only [hok2', Bool.not_false, if_true]
        obtain ⟨s', e3, hs, q1, q2, q3, q4⟩ :=
          restoreState_spec hr hzm.slot hzm.slotHas hzm.par hzm.ev
        rw [e3]
        refine ⟨s', false, rfl, by simp, fun _ => ⟨hs, q1, fun h _ _ => ⟨?_, ?_⟩, by simp,
          by simp, fun h _ _ => ?_, fun h h' => ?_⟩, by simp⟩
        · rw [(q2 h).1, z1]
        · rw [(q2 h).2, z2]; exact hc.cc g1
        · rw [(q3 h).2, z3]; exact hc.dc g2
        · rw [(q4 h).1, z4] at h'; cases h'
  · have hok' : t.ok = false := by simpa using hok
    simp only [hok', Bool.not_false, if_true]
    obtain ⟨s', e3, hs, q1, q2, q3, q4⟩ := restoreState_spec hr hm.slot hm.slotHas hm.par hm.ev
    rw [e3]
    refine ⟨s', false, rfl, by simp, fun _ => ⟨hs, q1, by simp, fun h _ h' => ?_, fun h _ h' => ?_,
      by simp, fun h h' => ?_⟩, by simp⟩
    · rw [(q2 h).1] at h'
      by_cases hk : k = .explicit
      · rw [(f1 hk).1] at h'; cases h'
      · exact ⟨by rw [← (f2 hk).1]; exact h', by rw [(q2 h).2, f3]⟩
    · rw [(q3 h).1] at h'
      by_cases hk : k = .explicit
      · rw [(f1 hk).2.1] at h'; cases h'
      · exact ⟨by rw [← (f2 hk).2.1]; exact h', by rw [(q3 h).2, f4]⟩
    · rw [(q4 h).1] at h'
      by_cases hk : k = .explicit
      · rw [(f1 hk).2.2] at h'; cases h'
      · exact ⟨by rw [← (f2 hk).2.2]; exact h', by rw [(q4 h).2, f5]⟩

/-! ## C57 -/

theorem Same.ready {s s' : St Θ E W C WC CC DC H PE} (h : Same pol s s') (hr : Ready pol s) :
    Ready pol s' :=
  ⟨h.slot, by rw [h.wc.2, hr.wc], fun e => by rw [(h.cc e).2, hr.cc e],
    fun e => by rw [(h.dc e).2, hr.dc e], fun e => by rw [(h.ham e).2, hr.ham e]⟩

/-- Event kinds that fit the policy: Brownian dynamics needs `dc` to be saved and never saves the
Hamiltonian; a Monte-Carlo move saves the Hamiltonian. -/
def Ev.Fits (pol : Policy) : Ev Θ W R → Prop
  | .mc fb _ => pol.ham = true ∧ (fb = true → pol.dc = true)
  | .bd _ _ => pol.dc = true ∧ pol.ham = false
  | .observe => True
  | .ramp _ _ _ => False

theorem step_ok (e : Ev Θ W R) (s : St Θ E W C WC CC DC H PE) (b : Bool) (hf : e.Fits pol)
    (hb : b = true → e.CcSafe pol) (hr : Ready pol s) (hc : Coherent P b s) :
    ∃ s', evStep P pol s e = .ok s' ∧ Ready pol s' ∧ Coherent P b s' := by
  cases e with
  | mc fb t =>
    obtain ⟨hh, hfb⟩ := hf
    obtain ⟨s', o, e, h1, h2, h3⟩ := C56_move_partial (P := P) fb t s hr hc.ev
      (fun h => ⟨hfb h, hh⟩)
    unfold evStep
    simp only [e, Res.map_ok]
    refine ⟨s', rfl, ?_⟩
    by_cases ho : o = .accepted
    · obtain ⟨hf, hham⟩ := h2 ho
      exact ⟨⟨hf.slot, hf.wc, hf.cc, hf.dc, fun _ => hham⟩, ⟨hf.coh.ev, hf.coh.sol, hf.coh.wc,
        fun _ => hf.coh.cc rfl, hf.coh.dc, hf.coh.ham⟩⟩
    · obtain ⟨hs, q1, q2, q3, q4⟩ := h1 ho
      refine ⟨hs.ready hr, ⟨?_, ?_, ?_, ?_, ?_, ?_⟩⟩
      · rw [hs.ev, hs.par]; exact hc.ev
      · intro h; rw [q1] at h; cases h
      · intro _; rw [hs.wc.1, hs.par, hs.w]; exact hc.wc hr.wc
      · intro hbt h
        rw [hs.par, hs.w]
        cases hpc : pol.cc with
        | true => rw [(hs.cc hpc).1]; exact hc.cc hbt (hr.cc hpc)
        | false =>
          rcases hb hbt with h' | ⟨h', _⟩
          · rw [hpc] at h'; cases h'
          · rw [(q2 hpc).1, h'] at h
            cases h.2
      · intro h
        rw [hs.par, hs.w]
        cases hpd : pol.dc with
        | true => rw [(hs.dc hpd).1]; exact hc.dc (hr.dc hpd)
        | false => rw [q3 hpd] at h; cases h
      · intro _
        rw [hs.par, hs.w, (hs.ham hh).1, hs.pert]
        exact hc.ham (hr.ham hh)
  | bd k t =>
    obtain ⟨hpd, hph⟩ := hf
    obtain ⟨s', conv, e, _, h1, h2⟩ := C56_bdStep_partial (P := P) k t s hr hc.ev
    unfold evStep
    simp only [e, Res.map_ok]
    refine ⟨s', rfl, ?_⟩
    cases conv with
    | true =>
      obtain ⟨hf, g1, g2, g3⟩ := h2 rfl
      exact ⟨⟨hf.slot, hf.wc, hf.cc, hf.dc, fun h => (by rw [hph] at h; cases h)⟩,
        ⟨hf.coh.ev, hf.coh.sol, hf.coh.wc, fun _ => hf.coh.cc rfl, hf.coh.dc, hf.coh.ham⟩⟩
    | false =>
      obtain ⟨hs, q1, q2, q3, q4, q5, q6⟩ := h1 rfl
      refine ⟨hs.ready hr, ⟨?_, ?_, ?_, ?_, ?_, ?_⟩⟩
      · rw [hs.ev, hs.par]; exact hc.ev
      · intro h; rw [q1] at h; cases h
      · intro _; rw [hs.wc.1, hs.par, hs.w]; exact hc.wc hr.wc
      · intro hbt h
        rw [hs.par, hs.w]
        cases hpc : pol.cc with
        | true => rw [(hs.cc hpc).1]; exact hc.cc hbt (hr.cc hpc)
        | false =>
          rcases hb hbt with h' | h'
          · rw [hpc] at h'; cases h'
          · obtain ⟨a1, a2⟩ := q3 hpc (Or.inl h') h
            rw [a2]; exact hc.cc hbt a1
      · intro _
        rw [hs.par, hs.w, (hs.dc hpd).1]; exact hc.dc (hr.dc hpd)
      · intro h
        obtain ⟨a1, a2⟩ := q6 hph h
        rw [hs.par, hs.w, a2, hs.pert]
        exact hc.ham a1
  | observe =>
    unfold evStep observe
    have hw : s.hasWc = true := hr.wc
    by_cases h1 : s.hasHam = true
    · cases hcs : s.cHas with
      | true =>
        simp only [if_true, hw, h1]
        exact ⟨s, rfl, hr, hc⟩
      | false =>
        have e1 : (compute P s).hasWc = true := hw
        have e2 : (compute P s).hasHam = true := h1
        simp only [Bool.false_eq_true, if_false, e1, if_true, e2]
        exact ⟨_, rfl, ⟨hr.slot, hr.wc, hr.cc, hr.dc, hr.ham⟩, ⟨hc.ev, fun _ => rfl, hc.wc, hc.cc,
          hc.dc, hc.ham⟩⟩
    · have h1' : s.hasHam = false := by simpa using h1
      cases hcs : s.cHas with
      | true =>
        simp only [if_true, hw, h1', Bool.false_eq_true, if_false, computeHam, hcs,
          Bool.and_self]
        refine ⟨_, rfl, ⟨hr.slot, rfl, hr.cc, hr.dc, fun _ => rfl⟩, ⟨hc.ev,
          fun _ => hc.sol hcs, fun _ => hc.wc hw, hc.cc, hc.dc, fun _ => ?_⟩⟩
        rw [hc.wc hw, hc.sol hcs, hc.ev]; exact ⟨rfl, rfl⟩
      | false =>
        have e1 : (compute P s).hasWc = true := hw
        have e2 : (compute P s).hasHam = false := h1'
        have e3 : (compute P s).cHas = true := rfl
        simp only [Bool.false_eq_true, if_false, e1, if_true, e2, computeHam, e3, Bool.and_self]
        refine ⟨_, rfl, ⟨hr.slot, rfl, hr.cc, hr.dc, fun _ => rfl⟩, ⟨hc.ev, fun _ => rfl,
          fun _ => hc.wc hw, hc.cc, hc.dc, fun _ => ?_⟩⟩
        simp only [compute]
        rw [hc.wc hw, hc.ev]; exact ⟨rfl, rfl⟩
  | ramp θ c u => exact absurd hf (by simp [Ev.Fits])

theorem run_ok (b : Bool) : ∀ (es : List (Ev Θ W R)) (s : St Θ E W C WC CC DC H PE),
    (∀ e ∈ es, e.Fits pol) → (b = true → ∀ e ∈ es, e.CcSafe pol) → Ready pol s →
    Coherent P b s →
    ∃ s', evRun P pol es s = .ok s' ∧ Ready pol s' ∧ Coherent P b s'
  | [], s, _, _, hr, hc => ⟨s, rfl, hr, hc⟩
  | e :: es, s, hf, hb, hr, hc => by
    obtain ⟨s1, e1, hr1, hc1⟩ := step_ok e s b (hf e (by simp)) (fun h => hb h e (by simp)) hr hc
    obtain ⟨s2, e2, hr2, hc2⟩ := run_ok b es s1 (fun e' h => hf e' (by simp [h]))
      (fun h e' h' => hb h e' (by simp [h'])) hr1 hc1
    exact ⟨s2, by unfold evRun; rw [e1]; exact e2, hr2, hc2⟩

/-- C57. On a coherent state `computeDc` gives the forces of the current fields, computing first
the components that are not available. -/
theorem C57_computeDc (s : St Θ E W C WC CC DC H PE) (hc : Coherent P true s)
    (h : s.cHas = true ∨ s.hasCc = true) :
    ∃ s', computeDc P s = .ok s' ∧ s'.hasDc = true ∧ s'.w = s.w ∧
      s'.dc = P.dcOf s.par (P.eig s.par) (P.wcOf (P.eig s.par) s.w)
        (P.ccOf (P.eig s.par) (P.solve s.par s.w)) := by
  obtain ⟨s1, h1, e1, e2, e3, e4, e5, e6, e7, e8⟩ : ∃ s1, (if s.hasWc then s else computeWc P s) = s1 ∧
      s1.w = s.w ∧ s1.par = s.par ∧ s1.ev = P.eig s.par ∧ s1.wc = P.wcOf (P.eig s.par) s.w ∧
      s1.cHas = s.cHas ∧ s1.hasCc = s.hasCc ∧ s1.cc = s.cc ∧ s1.sol = s.sol := by
    cases hw : s.hasWc with
    | true => exact ⟨s, rfl, rfl, rfl, hc.ev, hc.wc hw, rfl, rfl, rfl, rfl⟩
    | false =>
      refine ⟨computeWc P s, rfl, rfl, rfl, hc.ev, ?_, rfl, rfl, rfl, rfl⟩
      show P.wcOf s.ev s.w = _
      rw [hc.ev]
  unfold computeDc
  simp only [h1]
  cases hcc : s.hasCc with
  | true =>
    rw [e6, hcc]
    refine ⟨_, rfl, rfl, e1, ?_⟩
    show P.dcOf s1.par s1.ev s1.wc s1.cc = _
    rw [e2, e3, e4, e7, hc.cc rfl hcc]
  | false =>
    have hch : s.cHas = true := by
      rcases h with h | h
      · exact h
      · rw [hcc] at h; cases h
    rw [e6, hcc]
    unfold computeCc
    rw [e5, hch]
    refine ⟨_, rfl, rfl, e1, ?_⟩
    show P.dcOf s1.par s1.ev s1.wc (P.ccOf s1.ev s1.sol) = _
    rw [e2, e3, e4, e8, hc.sol hch]

/-- C57 (and C56), part that holds: without a ramp, over any sequence of moves or Brownian
dynamics steps (accepted, rejected or failed) and analyzers, no step raises an exception, nothing
is saved between steps, and every component and the Hamiltonian reported as available is that of the
current fields and parameters, except that `cc` may be that of a rejected state. -/
theorem C57_coherent_partial (es : List (Ev Θ W R)) (s : St Θ E W C WC CC DC H PE)
    (hf : ∀ e ∈ es, e.Fits pol) (hr : Ready pol s) (hc : Coherent P false s) :
    ∃ s', evRun P pol es s = .ok s' ∧ Ready pol s' ∧ Coherent P false s' :=
  run_ok false es s hf (by simp) hr hc

/-- C57 including `cc`, for simulations that save `cc`, Monte-Carlo simulations without force bias
moves, and the explicit and Leimkuhler-Matthews algorithms. -/
theorem C57_coherent_cc_partial (es : List (Ev Θ W R)) (s : St Θ E W C WC CC DC H PE)
    (hf : ∀ e ∈ es, e.Fits pol) (hs : ∀ e ∈ es, e.CcSafe pol) (hr : Ready pol s)
    (hc : Coherent P true s) :
    ∃ s', evRun P pol es s = .ok s' ∧ Ready pol s' ∧ Coherent P true s' :=
  run_ok true es s hf (fun _ => hs) hr hc

/-- After the setup of a Monte-Carlo simulation the state is ready and coherent, whatever the
state before. -/
theorem C57_mcSetup (nMove : Nat) (comp : W) (s : St Θ E W C WC CC DC H PE)
    (hs : s.slotHas = false) (h0 : s.hasCc = false) (h1 : s.hasDc = false) :
    ∃ s', mcSetup P pol nMove comp s = .ok s' ∧ Ready pol s' ∧ Coherent P true s' ∧ s'.w = comp := by
  have hfold : ∀ (l : List Nat) (x : St Θ E W C WC CC DC H PE), Ready pol x → x.hasHam = true →
      Coherent P true x → x.w = comp →
      ∃ s', l.foldlM (fun s _ => components P pol
        (if pol.cc || pol.dc then compute P (computeWc P s) else s)) x = .ok s' ∧ Ready pol s' ∧
        Coherent P true s' ∧ s'.w = comp := by
    intro l
    induction l with
    | nil => intro x hr _ hc hw; exact ⟨x, rfl, hr, hc, hw⟩
    | cons a l ih =>
      intro x hr hh hc hw
      rw [List.foldlM_cons]
      have hstep : ∃ y, components P pol
          (if pol.cc || pol.dc then compute P (computeWc P x) else x) = .ok y ∧ Ready pol y ∧
          y.hasHam = true ∧ Coherent P true y ∧ y.w = comp := by
        obtain ⟨r1, r2, r3, r4, r5⟩ := hr
        obtain ⟨c1, c2, c3, c4, c5, c6⟩ := hc
        obtain ⟨pc, pd, ph⟩ := pol
        have hcc : ∀ e, x.ev = e → x.par = x.par := fun _ _ => rfl
        cases pc <;> cases pd <;>
          simp only [components, Bool.or_self, Bool.or_true, Bool.true_or, Bool.false_eq_true,
            if_true, if_false, computeCc, computeDc, computeWc, compute, Res.ok_bind] <;>
          refine ⟨_, rfl, ⟨?_, ?_, ?_, ?_, ?_⟩, ?_, ⟨?_, ?_, ?_, ?_, ?_, ?_⟩, ?_⟩ <;> simp_all
      obtain ⟨y, e, a1, a2, a3, a4⟩ := hstep
      rw [e]
      exact ih y a1 a2 a3 a4
  unfold mcSetup
  simp only
  generalize hx : compress P (compute P (analyzeChi P s)) comp = x
  have hm : x.w = comp ∧ x.par = s.par ∧ x.ev = P.eig s.par ∧ x.cHas = true ∧
      x.sol = P.solve s.par comp ∧ x.hasCc = false ∧ x.hasDc = false ∧ x.slotHas = false := by
    subst hx
    exact ⟨rfl, rfl, rfl, rfl, rfl, h0, h1, hs⟩
  obtain ⟨m1, m2, m3, m4, m5, m6, m7, m8⟩ := hm
  have hcomp : ∃ y, components P pol x >>= computeHam P = .ok y ∧ Ready pol y ∧
      y.hasHam = true ∧ Coherent P true y ∧ y.w = comp := by
    obtain ⟨pc, pd, ph⟩ := pol
    cases pc <;> cases pd <;>
      simp only [components, Bool.or_self, Bool.or_true, Bool.true_or, Bool.false_eq_true,
        if_true, if_false, computeCc, computeDc, computeWc, computeHam, Res.ok_bind, m4,
        Bool.and_self] <;>
      refine ⟨_, rfl, ⟨?_, ?_, ?_, ?_, ?_⟩, ?_, ⟨?_, ?_, ?_, ?_, ?_, ?_⟩, ?_⟩ <;> simp_all
  obtain ⟨y, e, a1, a2, a3, a4⟩ := hcomp
  rw [Res.bind_eq_ok] at e
  obtain ⟨z, e1, e2⟩ := e
  rw [e1]
  simp only [Res.ok_bind]
  rw [e2]
  exact hfold _ y a1 a2 a3 a4

/-- The same for a Brownian dynamics simulation; here nothing need be known about the state. -/
theorem C57_bdSetup (comp : W) (s : St Θ E W C WC CC DC H PE) (hs : s.slotHas = false) :
    ∃ s', bdSetup P comp s = .ok s' ∧ Ready pol s' ∧ Coherent P true s' ∧ s'.w = comp := by
  refine ⟨_, rfl, ⟨hs, rfl, fun _ => rfl, fun _ => rfl, fun _ => rfl⟩,
    ⟨rfl, fun _ => rfl, fun _ => rfl, fun _ _ => rfl, fun _ => rfl, fun _ => ⟨rfl, rfl⟩⟩, rfl⟩

/-- C57. No component, derivative or Hamiltonian is ever computed from missing concentrations or missing
field components: the call fails instead. -/
theorem C57_guards (s : St Θ E W C WC CC DC H PE) :
    (s.cHas = false → St.computeCc P s = .throw ∧ St.computeHam P s = .throw ∧
      (s.hasCc = false → St.computeDc P s = .throw)) ∧
    (s.hasWc = false → St.computeHam P s = .throw) := by
  refine ⟨fun h => ⟨by simp [St.computeCc, h], by simp [St.computeHam, h], fun h' => ?_⟩,
    fun h => by simp [St.computeHam, h]⟩
  unfold St.computeDc
  cases hw : s.hasWc <;> simp [St.computeCc, St.computeWc, h, h'] <;> rfl

/-- C57. What the readers decide to save fits every event of the simulation: any mix of plain and force bias
moves, and any Brownian dynamics algorithm. So the steps of such a simulation never fail (`step_ok`). -/
theorem C57_policy_fits (fbs : List Bool) (fb : Bool) (t : Trial W R) (k : Bd) (t' : BdTrial W) :
    (fb ∈ fbs → Ev.Fits (Θ := Θ) (mcPolicy fbs) (.mc fb t)) ∧
    Ev.Fits (Θ := Θ) (R := R) bdPolicy (.bd k t') := by
  refine ⟨fun h => ⟨rfl, fun e => ?_⟩, rfl, rfl⟩
  subst e
  exact List.any_eq_true.2 ⟨true, h, rfl⟩

/-- C57 is violated by every rejected move of a simulation with a force bias move: `cc` of the
rejected fields is reported as available. -/
theorem C57_stale_after_reject (fb : Bool) (t : Trial W R) (s s' : St Θ E W C WC CC DC H PE)
    (hr : Ready (mcPolicy [true]) s) (hev : s.ev = P.eig s.par)
    (h : move P (mcPolicy [true]) fb t s = .ok (s', .rejected)) :
    s'.w = s.w ∧ s'.hasCc = true ∧ s'.cc = P.ccOf s.ev (P.solve s.par t.comp) := by
  obtain ⟨s1, o, e, h1, _, _⟩ := C56_move_partial (P := P) fb t s hr hev
    (fun _ => ⟨rfl, rfl⟩)
  rw [e] at h
  simp only [Res.ok.injEq, Prod.mk.injEq] at h
  obtain ⟨rfl, rfl⟩ := h
  obtain ⟨hs, _, h2, _, _⟩ := h1 (by simp)
  have hcc := (h2 rfl).1.2 ⟨rfl, rfl⟩
  exact ⟨hs.w, (h2 rfl).2 hcc⟩

/-- C57 is violated by every predictor-corrector step whose corrector fails to converge: `cc` of the
predicted fields is reported as available. -/
theorem C57_stale_predCorr (t : BdTrial W) (s : St Θ E W C WC CC DC H PE)
    (hr : Ready bdPolicy s) (hev : s.ev = P.eig s.par) (h1 : t.ok = true) (h2 : t.ok2 = false) :
    ∃ s', bdStep P bdPolicy .predCorr t s = .ok (s', false) ∧ s'.w = s.w ∧ s'.hasCc = true ∧
      s'.cc = P.ccOf s.ev (P.solve s.par t.comp) := by
  obtain ⟨s', conv, e, hc, h, _⟩ := C56_bdStep_partial (P := P) .predCorr t s hr hev
  have : conv = false := by
    cases conv with
    | false => rfl
    | true => have := (hc.1 rfl).2 rfl; rw [h2] at this; cases this
  subst this
  obtain ⟨hs, _, h3, _⟩ := h rfl
  exact ⟨s', e, hs.w, h3 rfl rfl h1⟩

/-- C57 is violated by a ramp: all data are still reported as available after the parameters
changed, with the values for the old parameters. -/
theorem C57_stale_ramp (θ : Θ) (isChi isCell : Bool) (s : St Θ E W C WC CC DC H PE) :
    let s' := rampSet P θ isChi isCell s
    s'.par = θ ∧ s'.hasWc = s.hasWc ∧ s'.hasCc = s.hasCc ∧ s'.hasDc = s.hasDc ∧
      s'.hasHam = s.hasHam ∧ s'.wc = s.wc ∧ s'.cc = s.cc ∧ s'.dc = s.dc ∧ s'.ham = s.ham := by
  unfold rampSet
  cases isChi <;> simp [analyzeChi]

/-- Consequence for Monte-Carlo simulations with a ramp: the move after a change of parameters
compares the energy of the new fields at the new parameters with the energy of the old fields at the
old parameters. -/
theorem C57_ramp_metropolis (θ : Θ) (isChi : Bool) (t : Trial W R)
    (s s' : St Θ E W C WC CC DC H PE) (o : Out) (hr : Ready (mcPolicy [false]) s)
    (hc : Coherent P true s)
    (h : move P (mcPolicy [false]) false t (rampSet P θ isChi false s) = .ok (s', o))
    (hok : t.ok = true) :
    let ev' := if isChi then P.eig θ else P.eig s.par
    o = .accepted ↔ ∃ d d', P.metropolis false
      (P.hamOf s.par (P.eig s.par) (P.solve s.par s.w) (P.wcOf (P.eig s.par) s.w))
      (P.hamOf θ ev' (P.solve θ t.comp) (P.wcOf ev' t.comp)) d d' t.rnd = true ∧
      d = s.dc ∧ d' = s.dc := by
  obtain ⟨r1, r2, r3, r4, r5⟩ := hr
  have hH : s.hasHam = true := r5 rfl
  obtain ⟨hham, _⟩ := hc.ham hH
  cases isChi <;>
    simp [move, saveState, rampSet, analyzeChi, mcPolicy, r1, r2, hH, hok, components, computeWc,
      computeHam, compress, compute, setW, clearData, clearState, hc.ev] at h ⊢ <;>
    rw [← hham] <;> split at h
  all_goals first
    | (simp only [Res.ok.injEq, Prod.mk.injEq] at h; rename_i hmet; rw [← h.2]; simp [hmet])
    | skip
  all_goals
    rename_i hmet
    simp only [restoreState, Res.ok_bind, Bool.not_true, Bool.false_eq_true, if_false,
      Res.ok.injEq, Prod.mk.injEq] at h
    rw [← h.2]
    simp [hmet]

/-! ## Examples -/

/-- Numbers as fields; the energy is `par * w`, moves are rejected. -/
def exP : Phys Int Int Int Int Int Int Int Int Int Bool :=
  ⟨fun θ => θ, fun θ w => θ + w, fun _ w => w, fun e c => e * c, fun θ _ a b => θ + a + b,
    fun θ _ _ a => θ * a, fun _ _ c _ => c, fun _ _ _ _ _ r => r⟩

def exS : St Int Int Int Int Int Int Int Int Int :=
  ⟨2, 2, 5, 7, true, 5, 14, 21, 10, 7, true, true, true, true, ⟨0, 0, 0, 0, 0, 0⟩, false⟩

theorem exS_ready (pol : Policy) : Ready pol exS :=
  ⟨rfl, rfl, fun _ => rfl, fun _ => rfl, fun _ => rfl⟩

theorem exS_coh : Coherent exP true exS :=
  ⟨rfl, fun _ => rfl, fun _ => rfl, fun _ _ => rfl, fun _ => rfl, fun _ => ⟨rfl, rfl⟩⟩

/-- C57 as stated, for Monte-Carlo simulations with a force bias move. -/
def C57_statement : Prop :=
  ∀ (es : List (Ev Int Int Bool)) (s s' : St Int Int Int Int Int Int Int Int Int),
    Ready (mcPolicy [true]) s → Coherent exP true s →
    evRun exP (mcPolicy [true]) es s = .ok s' → Coherent exP true s'

theorem C57_violated : ¬ C57_statement := by
  intro h
  have := h [.mc true ⟨6, 9, true, false⟩] exS _ (exS_ready _) exS_coh rfl
  exact absurd (this.cc rfl rfl) (by decide)

/-- With a ramp even the Hamiltonian is wrong. -/
theorem C57_ramp_violated : ¬ Coherent exP false (rampSet exP 3 true false exS) := by
  intro h
  exact absurd (h.ham rfl).1 (by decide)

example : ∃ s', evRun exP (mcPolicy [true])
    [.mc true ⟨6, 9, true, false⟩, .observe, .mc true ⟨1, 2, false, true⟩,
      .mc true ⟨6, 9, true, true⟩] exS = .ok s' ∧ s'.w = 9 ∧ s'.ham = 18 := ⟨_, rfl, rfl, rfl⟩

end Verif.Fts
