import Verif.Field.Model
import Verif.Tac
import Mathlib.Algebra.BigOperators.Group.List.Basic
import Mathlib.Data.List.GetD

/-!
# Field containers (C46, C47, C48)
-/

namespace Verif.Field
set_option linter.unusedSectionVars false

variable {K : Type}

/-- Spatial average. -/
def mean [Field K] (r : List K) : K := r.sum / (r.length : K)

/-! ## Auxiliary facts -/

theorem chk_ok {σ : Type} {s s' : σ} {b : Bool} {k : Out σ} (h : chk s b k = (s', true)) :
    b = true ∧ k = (s', true) := by
  unfold chk at h
  split at h
  · exact ⟨by assumption, h⟩
  · cases h

theorem andThen_ok {σ : Type} {r : Out σ} {k : σ → Out σ} {s' : σ} (h : andThen r k = (s', true)) :
    r.2 = true ∧ k r.1 = (s', true) := by
  unfold andThen at h
  split at h
  · exact ⟨by assumption, h⟩
  · rename_i hn; rw [h] at hn; exact absurd rfl hn

theorem copyLoop_ok (n : Nat) : ∀ (fs ws : List (List K)), fs.length = ws.length →
    (copyLoop n fs ws).2 = true → (copyLoop n fs ws).1 = fs ∧ ∀ f ∈ fs, f.length = n
  | [], [], _, _ => by simp [copyLoop]
  | [], _ :: _, h, _ => by simp at h
  | _ :: _, [], h, _ => by simp at h
  | f :: fs, w :: ws, h, ho => by
    rw [copyLoop] at ho ⊢
    by_cases hc : f.length = n ∧ w.length = n
    · rw [if_pos hc] at ho ⊢
      obtain ⟨h1, h2⟩ := copyLoop_ok n fs ws (by simpa using h) ho
      refine ⟨by simp [h1], ?_⟩
      intro g hg
      rcases List.mem_cons.mp hg with rfl | hg
      · exact hc.1
      · exact h2 g hg
    · rw [if_neg hc] at ho; cases ho

theorem copyLoop_shape (n : Nat) : ∀ (fs ws : List (List K)), (∀ w ∈ ws, w.length = n) →
    (copyLoop n fs ws).1.length = ws.length ∧ ∀ w ∈ (copyLoop n fs ws).1, w.length = n
  | [], ws, h => by simpa [copyLoop] using h
  | _ :: _, [], h => by simp [copyLoop]
  | f :: fs, w :: ws, h => by
    rw [copyLoop]
    by_cases hc : f.length = n ∧ w.length = n
    · rw [if_pos hc]
      obtain ⟨h1, h2⟩ := copyLoop_shape n fs ws (fun x hx => h x (List.mem_cons_of_mem _ hx))
      refine ⟨by simp [h1], ?_⟩
      intro g hg
      rcases List.mem_cons.mp hg with rfl | hg
      · exact hc.1
      · exact h2 g hg
    · rw [if_neg hc]; exact ⟨rfl, h⟩

theorem overwrite_shape (rows : List (List K)) (v : Nat → Nat → K) (n : Nat)
    (h : ∀ r ∈ rows, r.length = n) :
    (overwrite rows v).length = rows.length ∧ ∀ r ∈ overwrite rows v, r.length = n := by
  unfold overwrite
  refine ⟨by simp, ?_⟩
  intro r hr
  obtain ⟨i, hi, rfl⟩ := List.mem_mapIdx.mp hr
  simpa using h _ (List.getElem_mem hi)

/-! ## C46 -/

/-- The environment of a container: conversions between the two formats, for a basis with `nB`
functions. -/
structure Conv (K : Type) where
  nB : Nat
  toR : List K → List K
  toB : List K → List K
  /-- conversion to the r-grid and back (C43 and inversion of the Fourier transform) -/
  back : ∀ b, b.length = nB → toB (toR b) = b
  size : ∀ r, (toB r).length = nB

/-- A call made with these conversions; explicit allocation uses the number of basis functions. -/
def Legal (e : Conv K) (c : Io K × Op K) : Prop :=
  c.1.toR = e.toR ∧ c.1.toB = e.toB ∧ (c.1.nBasis = none ∨ c.1.nBasis = some e.nB) ∧
  ∀ n, c.2 = .allocateBasis n → n = (e.nB : Int)

/-- Shape of the arrays. -/
structure Wf (e : Conv K) (s : W K) : Prop where
  bRows : s.allocB = true → s.nBasis = e.nB ∧ s.basis.length = s.nMonomer
  bLen : s.allocB = true → ∀ b ∈ s.basis, b.length = e.nB
  rRows : s.allocR = true → s.rgrid.length = s.nMonomer
  pos : s.allocB = true ∨ s.allocR = true → 0 < s.nMonomer
  sym : s.isSym = true → s.allocB = true ∧ s.allocR = true

/-- Both representations of the fields agree. -/
def Coherent (e : Conv K) (s : W K) : Prop := s.isSym = true → s.basis = s.rgrid.map e.toB

theorem allocateRGrid_frame (z : K) (s : W K) (d : List Int) :
    let s' := (s.allocateRGrid z d).1
    s'.basis = s.basis ∧ s'.nBasis = s.nBasis ∧ s'.nMonomer = s.nMonomer ∧ s'.allocB = s.allocB ∧
    s'.isSym = s.isSym ∧ s'.hasData = s.hasData ∧ s'.notified = s.notified ∧
    (s.allocR = true → s'.rgrid = s.rgrid ∧ s'.allocR = true) ∧
    (s'.allocR = true → s.allocR = true ∨ (0 < s.nMonomer ∧ s'.rgrid.length = s.nMonomer)) ∧
    ((s.allocateRGrid z d).2 = true → s'.allocR = true) := by
  unfold W.allocateRGrid chk
  by_cases h1 : 0 < s.nMonomer
  · cases h2 : s.hasData
    · cases h3 : s.allocR
      · cases h4 : (meshProd d 1).2 <;> simp [h1, h2, h3, h4]
      · simp [h1, h2, h3]
    · cases h3 : s.allocR <;> simp [h1, h2, h3]
  · cases h3 : s.allocR <;> simp [h1, h3]

theorem allocateBasis_frame (z : K) (s : W K) (n : Int) :
    let s' := (s.allocateBasis z n).1
    s'.rgrid = s.rgrid ∧ s'.meshSize = s.meshSize ∧ s'.nMonomer = s.nMonomer ∧ s'.allocR = s.allocR ∧
    s'.isSym = s.isSym ∧ s'.hasData = s.hasData ∧ s'.notified = s.notified ∧
    (s.allocB = true → s'.basis = s.basis ∧ s'.allocB = true ∧ s'.nBasis = s.nBasis) ∧
    (s'.allocB = true → s.allocB = true ∨ (0 < s.nMonomer ∧ s'.basis.length = s.nMonomer ∧
      s'.nBasis = n.toNat ∧ ∀ b ∈ s'.basis, b.length = n.toNat)) ∧
    ((s.allocateBasis z n).2 = true → s'.allocB = true) := by
  unfold W.allocateBasis chk
  by_cases h1 : 0 < s.nMonomer
  · cases h2 : s.hasData
    · by_cases h3 : 0 < n
      · cases h4 : s.allocB
        · simp [h1, h2, h3, h4]
        · simp [h1, h2, h3, h4]
      · cases h4 : s.allocB <;> simp [h1, h2, h3, h4]
    · by_cases h3 : 0 < n
      · cases h4 : s.allocB <;> simp [h1, h2, h3, h4]
      · cases h4 : s.allocB <;> simp [h1, h2, h3, h4]
  · cases h4 : s.allocB <;> simp [h1, h4]

theorem wf_allocateRGrid {e : Conv K} {z : K} {s : W K} (h : Wf e s) (d : List Int) :
    Wf e (s.allocateRGrid z d).1 := by
  obtain ⟨a1, a2, a3, a4, a5, a6, a7, a8, a9, a10⟩ := allocateRGrid_frame z s d
  refine ⟨fun hb => ?_, fun hb => ?_, fun hr => ?_, fun hp => ?_, fun hs => ?_⟩
  · rw [a2, a1, a3]; exact h.bRows (a4 ▸ hb)
  · rw [a1]; exact h.bLen (a4 ▸ hb)
  · rw [a3]
    by_cases hr' : s.allocR = true
    · rw [(a8 hr').1]; exact h.rRows hr'
    · exact ((a9 hr).resolve_left hr').2
  · rw [a3]
    rcases hp with hp | hp
    · exact h.pos (Or.inl (a4 ▸ hp))
    · rcases a9 hp with h1 | h1
      · exact h.pos (Or.inr h1)
      · exact h1.1
  · rw [a4]
    have := h.sym (a5 ▸ hs)
    exact ⟨this.1, (a8 this.2).2⟩

theorem wf_allocateBasis {e : Conv K} {z : K} {s : W K} (h : Wf e s) :
    Wf e (s.allocateBasis z (e.nB : Int)).1 := by
  obtain ⟨a1, a2, a3, a4, a5, a6, a7, a8, a9, a10⟩ := allocateBasis_frame z s (e.nB : Int)
  refine ⟨fun hb => ?_, fun hb => ?_, fun hr => ?_, fun hp => ?_, fun hs => ?_⟩
  · rw [a3]
    by_cases hb' : s.allocB = true
    · rw [(a8 hb').1, (a8 hb').2.2]; exact h.bRows hb'
    · have := (a9 hb).resolve_left hb'
      exact ⟨by rw [this.2.2.1]; rfl, this.2.1⟩
  · by_cases hb' : s.allocB = true
    · rw [(a8 hb').1]; exact h.bLen hb'
    · have := (a9 hb).resolve_left hb'
      exact this.2.2.2
  · rw [a1, a3]; exact h.rRows (a4 ▸ hr)
  · rw [a3]
    rcases hp with hp | hp
    · rcases a9 hp with h1 | h1
      · exact h.pos (Or.inl h1)
      · exact h1.1
    · exact h.pos (Or.inr (a4 ▸ hp))
  · rw [a4]
    have := h.sym (a5 ▸ hs)
    exact ⟨(a8 this.1).2.1, this.2⟩

theorem wf_needR {e : Conv K} {z : K} {io : Io K} {s : W K} (h : Wf e s) : Wf e (s.needR z io).1 := by
  unfold W.needR chk
  split
  · exact h
  · split
    · exact wf_allocateRGrid h _
    · exact h

theorem wf_needB {e : Conv K} {z : K} {io : Io K} {s : W K} (h : Wf e s)
    (hio : io.nBasis = none ∨ io.nBasis = some e.nB) : Wf e (s.needB z io).1 := by
  unfold W.needB
  split
  · exact h
  · rcases hio with hio | hio
    · rw [hio]; exact h
    · rw [hio]; exact wf_allocateBasis h

/-- Frame of the allocation on demand. -/
theorem needR_frame (z : K) (io : Io K) (s : W K) :
    let s' := (s.needR z io).1
    s'.basis = s.basis ∧ s'.nBasis = s.nBasis ∧ s'.nMonomer = s.nMonomer ∧ s'.allocB = s.allocB ∧
    s'.isSym = s.isSym ∧ s'.hasData = s.hasData ∧ s'.notified = s.notified ∧
    (s.allocR = true → s'.rgrid = s.rgrid) ∧ ((s.needR z io).2 = true → s'.allocR = true) := by
  unfold W.needR chk
  by_cases h : s.allocR = true
  · simp [h]
  · rw [if_neg h]
    split
    · obtain ⟨a1, a2, a3, a4, a5, a6, a7, a8, a9, a10⟩ := allocateRGrid_frame z s io.dims
      exact ⟨a1, a2, a3, a4, a5, a6, a7, fun h' => absurd h' h, a10⟩
    · simp [h]

theorem needB_frame (z : K) (io : Io K) (s : W K) :
    let s' := (s.needB z io).1
    s'.rgrid = s.rgrid ∧ s'.meshSize = s.meshSize ∧ s'.nMonomer = s.nMonomer ∧ s'.allocR = s.allocR ∧
    s'.isSym = s.isSym ∧ s'.hasData = s.hasData ∧ s'.notified = s.notified ∧
    (s.allocB = true → s'.basis = s.basis) ∧ ((s.needB z io).2 = true → s'.allocB = true) := by
  unfold W.needB
  by_cases h : s.allocB = true
  · simp [h]
  · rw [if_neg h]
    cases io.nBasis with
    | none => simp [h]
    | some n =>
      obtain ⟨a1, a2, a3, a4, a5, a6, a7, a8, a9, a10⟩ := allocateBasis_frame z s n
      exact ⟨a1, a2, a3, a4, a5, a6, a7, fun h' => absurd h' h, a10⟩

theorem wf_of {e : Conv K} {s s' : W K} (h : Wf e s) (h1 : s'.allocB = s.allocB)
    (h2 : s'.nBasis = s.nBasis) (h3 : s'.nMonomer = s.nMonomer) (h4 : s'.allocR = s.allocR)
    (h5 : s.allocB = true → s'.basis.length = s.basis.length ∧ ∀ b ∈ s'.basis, b.length = e.nB)
    (h6 : s.allocR = true → s'.rgrid.length = s.rgrid.length)
    (h7 : s'.isSym = true → s.allocB = true ∧ s.allocR = true) : Wf e s' := by
  refine ⟨fun hb => ?_, fun hb => ?_, fun hr => ?_, fun hp => ?_, fun hs => ?_⟩
  · rw [h1] at hb; rw [h2, h3, (h5 hb).1]; exact h.bRows hb
  · rw [h1] at hb; exact (h5 hb).2
  · rw [h4] at hr; rw [h6 hr, h3]; exact h.rRows hr
  · rw [h1, h4] at hp; rw [h3]; exact h.pos hp
  · rw [h1, h4]; exact h7 hs

/-- What a successful or failed call of `optBasis` does. -/
theorem optBasis_spec {e : Conv K} {z : K} {io : Io K} {s : W K} (h : Wf e s)
    (hio : io.nBasis = none ∨ io.nBasis = some e.nB) (hB : io.toB = e.toB) (hR : s.allocR = true)
    (sym : Bool) :
    let r := s.optBasis z io sym
    Wf e r.1 ∧ r.1.rgrid = s.rgrid ∧ r.1.allocR = true ∧ r.1.notified = s.notified ∧
    (r.2 = true → sym = true → r.1.allocB = true ∧ r.1.basis = r.1.rgrid.map e.toB) := by
  unfold W.optBasis
  cases sym
  · simp [h, hR]
  · simp only [if_true]
    have hw := wf_needB (z := z) (io := io) h hio
    obtain ⟨a1, a2, a3, a4, a5, a6, a7, a8, a9⟩ := needB_frame z io s
    unfold andThen
    cases hk : (s.needB z io).2
    · simp only [Bool.false_eq_true, if_false]
      exact ⟨hw, a1, by rw [a4, hR], a7, by simp [hk]⟩
    · simp only [if_true]
      have hb := a9 hk
      refine ⟨wf_of hw rfl rfl rfl rfl (fun _ => ?_) (fun _ => rfl) (fun hs => hw.sym hs), a1,
        by rw [a4, hR], a7, fun _ _ => ⟨hb, by rw [hB]⟩⟩
      refine ⟨?_, ?_⟩
      · simp only [List.length_map, a1]
        rw [h.rRows hR, (hw.bRows hb).2, a3]
      · intro b hb'
        obtain ⟨r, _, rfl⟩ := List.mem_map.mp hb'
        rw [hB]; exact e.size r

/-- Facts about one call that hold for every outcome. -/
structure StepSpec (e : Conv K) (s : W K) (c : Io K × Op K) (r : Out (W K)) : Prop where
  wf : Wf e r.1
  /-- a modification that returned leaves agreeing representations -/
  ok : c.2.isData = true → r.2 = true → Coherent e r.1
  /-- calls that are not modifications do not change field values -/
  frame : c.2.isData = false → r.1.isSym = s.isSym ∧ (s.isSym = true → r.1.basis = s.basis ∧
    r.1.rgrid = s.rgrid)
  /-- one notification for each successful modification, none otherwise -/
  notify : r.1.notified = s.notified + if c.2.isData && r.2 then 1 else 0

theorem step_spec {e : Conv K} {z : K} {s : W K} (h : Wf e s) {c : Io K × Op K} (hl : Legal e c) :
    StepSpec e s c (s.step z c) := by
  obtain ⟨io, op⟩ := c
  obtain ⟨hR, hB, hio, halloc⟩ := hl
  simp only at hR hB hio
  cases op with
  | setNMonomer n =>
    simp only [W.step]
    unfold W.setNMonomer chk
    by_cases h0 : s.nMonomer = 0
    · have hb : s.allocB = false := by
        by_contra hb; have := h.pos (Or.inl (by simpa using hb)); omega
      have hr : s.allocR = false := by
        by_contra hb; have := h.pos (Or.inr (by simpa using hb)); omega
      have hs : s.isSym = false := by
        by_contra hs; have := (h.sym (by simpa using hs)).1; rw [hb] at this; cases this
      by_cases hn : n > 0
      · simp only [h0, beq_self_eq_true, if_true, hn, decide_true]
        exact ⟨⟨by simp [hb], by simp [hb], by simp [hr], by simp [hb, hr], by simp [hs]⟩,
          by simp [Op.isData], by simp, by simp [Op.isData]⟩
      · simp only [h0, beq_self_eq_true, if_true, hn, decide_false, Bool.false_eq_true, if_false]
        exact ⟨h, by simp [Op.isData], by simp, by simp [Op.isData]⟩
    · simp only [beq_iff_eq, h0, if_false]
      exact ⟨h, by simp [Op.isData], by simp, by simp [Op.isData]⟩
  | allocateRGrid d =>
    simp only [W.step]
    obtain ⟨a1, a2, a3, a4, a5, a6, a7, a8, a9, a10⟩ := allocateRGrid_frame z s d
    exact ⟨wf_allocateRGrid h d, by simp [Op.isData],
      fun _ => ⟨a5, fun hs => ⟨a1, (a8 (h.sym hs).2).1⟩⟩, by simp [Op.isData, a7]⟩
  | allocateBasis n =>
    simp only [W.step]
    have := halloc n rfl
    subst this
    obtain ⟨a1, a2, a3, a4, a5, a6, a7, a8, a9, a10⟩ := allocateBasis_frame z s (e.nB : Int)
    exact ⟨wf_allocateBasis h, by simp [Op.isData],
      fun _ => ⟨a5, fun hs => ⟨(a8 (h.sym hs).1).1, a1⟩⟩, by simp [Op.isData, a7]⟩
  | clear =>
    simp only [W.step, W.clear]
    exact ⟨wf_of h rfl rfl rfl rfl (fun hb => ⟨rfl, h.bLen hb⟩) (fun _ => rfl) (fun hs => h.sym hs),
      by simp [Op.isData], by simp, by simp [Op.isData]⟩
  | symmetrize =>
    simp only [W.step, W.symmetrize, chk]
    split
    · by_cases hal : (s.allocR && s.allocB) = true
      · rw [if_pos hal]
        rw [Bool.and_eq_true] at hal
        have hlen : ∀ b ∈ s.rgrid.map io.toB, b.length = e.nB := by
          intro b hb
          obtain ⟨r, _, rfl⟩ := List.mem_map.mp hb
          rw [hB]; exact e.size r
        refine ⟨wf_of h rfl rfl rfl rfl (fun hb => ⟨?_, hlen⟩) (fun _ => by simp)
          (fun _ => ⟨hal.2, hal.1⟩), fun _ _ _ => ?_, by simp [Op.isData], by simp [Op.isData]⟩
        · simp only [List.length_map]
          rw [h.rRows hal.1, (h.bRows hb).2]
        · simp only [List.map_map]
          rw [hB, hR]
          apply List.map_congr_left
          intro r _
          simp only [Function.comp]
          rw [e.back _ (e.size r)]
      · rw [if_neg hal]
        exact ⟨h, by simp, by simp, by simp⟩
    · exact ⟨h, by simp, by simp, by simp⟩
  | setBasis f =>
    simp only [W.step, W.setBasis]
    unfold chk
    by_cases hlen : f.length = s.nMonomer
    · simp only [hlen, beq_self_eq_true, if_true]
      have hw1 := wf_needR (z := z) (io := io) h
      obtain ⟨a1, a2, a3, a4, a5, a6, a7, a8, a9⟩ := needR_frame z io s
      unfold andThen
      cases k1 : (s.needR z io).2
      · simp only [Bool.false_eq_true, if_false]
        exact ⟨hw1, by simp [k1], by simp [Op.isData], by simp [k1, a7]⟩
      · simp only [if_true]
        set s1 := (s.needR z io).1 with hs1
        have hw2 := wf_needB (z := z) (io := io) hw1 hio
        obtain ⟨b1, b2, b3, b4, b5, b6, b7, b8, b9⟩ := needB_frame z io s1
        cases k2 : (s1.needB z io).2
        · simp only [Bool.false_eq_true, if_false]
          exact ⟨hw2, by simp [k2], by simp [Op.isData], by simp [k2, b7, a7]⟩
        · simp only [if_true]
          set s2 := (s1.needB z io).1 with hs2
          have hb2 := b9 k2
          have hr2 : s2.allocR = true := by rw [b4]; exact a9 k1
          have hnb := hw2.bRows hb2
          have hsh := copyLoop_shape s2.nBasis f s2.basis (by rw [hnb.1]; exact hw2.bLen hb2)
          cases k3 : (copyLoop s2.nBasis f s2.basis).2
          · simp only [Bool.false_eq_true, if_false]
            refine ⟨wf_of hw2 rfl rfl rfl rfl (fun _ => ⟨hsh.1, by rw [← hnb.1]; exact hsh.2⟩)
              (fun _ => rfl) (fun hs => hw2.sym hs), by simp, by simp [Op.isData],
              by simp [b7, a7]⟩
          · simp only [if_true, W.done]
            have hco := copyLoop_ok s2.nBasis f s2.basis (by rw [hnb.2, b3, a3, hlen]) k3
            refine ⟨wf_of hw2 rfl rfl rfl rfl (fun _ => ⟨hsh.1, by rw [← hnb.1]; exact hsh.2⟩)
              (fun _ => ?_) (fun _ => ⟨hb2, hr2⟩), fun _ _ _ => ?_, by simp [Op.isData],
              by simp [Op.isData, b7, a7]⟩
            · simp only [List.length_map]
              rw [hsh.1, hnb.2, hw2.rRows hr2]
            · simp only [List.map_map]
              rw [hR, hco.1]
              conv_lhs => rw [← List.map_id f]
              apply List.map_congr_left
              intro b hb
              simp only [Function.comp, id]
              rw [e.back b (by rw [← hnb.1]; exact hco.2 b hb)]
    · simp only [beq_iff_eq, hlen, if_false]
      exact ⟨h, by simp, by simp [Op.isData], by simp⟩
  | setRGrid f sym =>
    simp only [W.step, W.setRGrid]
    have hw1 := wf_needR (z := z) (io := io) h
    obtain ⟨a1, a2, a3, a4, a5, a6, a7, a8, a9⟩ := needR_frame z io s
    unfold andThen
    cases k1 : (s.needR z io).2
    · simp only [Bool.false_eq_true, if_false]
      exact ⟨hw1, by simp [k1], by simp [Op.isData], by simp [k1, a7]⟩
    · simp only [if_true]
      set s1 := (s.needR z io).1 with hs1
      have hr1 := a9 k1
      unfold chk
      by_cases hlen : f.length = s1.nMonomer
      · simp only [hlen, beq_self_eq_true, if_true]
        set r := copyLoop s1.meshSize.toNat f s1.rgrid with hr
        have hrl : r.1.length = s1.rgrid.length := by
          have : ∀ (n : Nat) (fs ws : List (List K)), (copyLoop n fs ws).1.length = ws.length := by
            intro n fs
            induction fs with
            | nil => intro ws; simp [copyLoop]
            | cons f fs ih =>
              intro ws
              cases ws with
              | nil => simp [copyLoop]
              | cons w ws =>
                rw [copyLoop]
                split
                · simp [ih]
                · rfl
          exact this _ _ _
        have hw1' : Wf e ({ s1 with rgrid := r.1 } : W K) :=
          wf_of hw1 rfl rfl rfl rfl (fun hb => ⟨rfl, hw1.bLen hb⟩) (fun _ => hrl) (fun hs => hw1.sym hs)
        cases k2 : r.2
        · simp only [Bool.false_eq_true, if_false]
          exact ⟨hw1', by simp, by simp [Op.isData], by simp [a7]⟩
        · simp only [if_true]
          obtain ⟨o1, o2, o3, o4, o5⟩ := optBasis_spec (z := z) (io := io) hw1' hio hB hr1 sym
          cases k3 : (({ s1 with rgrid := r.1 } : W K).optBasis z io sym).2
          · simp only [Bool.false_eq_true, if_false]
            exact ⟨o1, by simp [k3], by simp [Op.isData], by rw [o4.trans a7, k3]; simp⟩
          · simp only [if_true, W.done]
            refine ⟨wf_of o1 rfl rfl rfl rfl (fun hb => ⟨rfl, o1.bLen hb⟩) (fun _ => rfl)
              (fun hs => ⟨(o5 k3 hs).1, o3⟩), fun _ _ hs => (o5 k3 hs).2, by simp [Op.isData],
              by
                show _ + 1 = _
                rw [o4.trans a7]; simp [Op.isData]⟩
      · simp only [beq_iff_eq, hlen, if_false]
        exact ⟨hw1, by simp, by simp [Op.isData], by simp [a7]⟩
  | readBasis hdr data ok =>
    simp only [W.step, W.readBasis]
    have triv : StepSpec e s (io, Op.readBasis hdr data ok) (s, false) :=
      ⟨h, by simp, by simp [Op.isData], by simp⟩
    unfold chk
    split
    · cases hdr with
      | none => exact triv
      | some p =>
        obtain ⟨n, sym⟩ := p
        simp only
        split
        · split
          · split
            · split
              · have hw1 := wf_needR (z := z) (io := io) h
                obtain ⟨a1, a2, a3, a4, a5, a6, a7, a8, a9⟩ := needR_frame z io s
                unfold andThen
                cases k1 : (s.needR z io).2
                · simp only [Bool.false_eq_true, if_false]
                  exact ⟨hw1, by simp [k1], by simp [Op.isData], by simp [k1, a7]⟩
                · simp only [if_true]
                  set s1 := (s.needR z io).1 with hs1
                  have hw2 := wf_needB (z := z) (io := io) hw1 hio
                  obtain ⟨b1, b2, b3, b4, b5, b6, b7, b8, b9⟩ := needB_frame z io s1
                  cases k2 : (s1.needB z io).2
                  · simp only [Bool.false_eq_true, if_false]
                    exact ⟨hw2, by simp [k2], by simp [Op.isData], by simp [k2, b7, a7]⟩
                  · simp only [if_true]
                    set s2 := (s1.needB z io).1 with hs2
                    have hb2 := b9 k2
                    have hr2 : s2.allocR = true := by rw [b4]; exact a9 k1
                    have hsh := overwrite_shape s2.basis data e.nB (hw2.bLen hb2)
                    cases ok
                    · simp only [Bool.false_eq_true, if_false]
                      refine ⟨wf_of hw2 rfl rfl rfl rfl (fun _ => hsh) (fun _ => rfl)
                        (fun hs => hw2.sym hs), by simp, by simp [Op.isData], by simp [b7, a7]⟩
                    · simp only [if_true, W.done]
                      refine ⟨wf_of hw2 rfl rfl rfl rfl (fun _ => hsh) (fun _ => ?_)
                        (fun _ => ⟨hb2, hr2⟩), fun _ _ _ => ?_, by simp [Op.isData],
                        by simp [Op.isData, b7, a7]⟩
                      · simp only [List.length_map]
                        rw [hsh.1, (hw2.bRows hb2).2, hw2.rRows hr2]
                      · simp only [List.map_map]
                        rw [hR]
                        conv_lhs => rw [← List.map_id (overwrite s2.basis data)]
                        apply List.map_congr_left
                        intro b hb
                        simp only [Function.comp, id]
                        rw [e.back b (hsh.2 b hb)]
              · exact triv
            · exact triv
          · exact triv
        · exact triv
    · exact triv
  | readRGrid data ok sym =>
    simp only [W.step, W.readRGrid]
    unfold chk
    split
    · have hw1 := wf_needR (z := z) (io := io) h
      obtain ⟨a1, a2, a3, a4, a5, a6, a7, a8, a9⟩ := needR_frame z io s
      unfold andThen
      cases k1 : (s.needR z io).2
      · simp only [Bool.false_eq_true, if_false]
        exact ⟨hw1, by simp [k1], by simp [Op.isData], by simp [k1, a7]⟩
      · simp only [if_true]
        set s1 := (s.needR z io).1 with hs1
        have hr1 := a9 k1
        have hw1' : Wf e ({ s1 with rgrid := overwrite s1.rgrid data } : W K) :=
          wf_of hw1 rfl rfl rfl rfl (fun hb => ⟨rfl, hw1.bLen hb⟩) (fun _ => by simp [overwrite])
            (fun hs => hw1.sym hs)
        cases ok
        · simp only [Bool.false_eq_true, if_false]
          exact ⟨hw1', by simp, by simp [Op.isData], by simp [a7]⟩
        · simp only [if_true]
          cases sym
          · simp only [Bool.false_eq_true, if_false, W.done]
            refine ⟨wf_of hw1' rfl rfl rfl rfl (fun hb => ⟨rfl, hw1'.bLen hb⟩) (fun _ => rfl)
              (fun hs => absurd hs (by simp)), fun _ _ hs => absurd hs (by simp), by simp [Op.isData],
              by simp [Op.isData, a7]⟩
          · simp only [if_true]
            split
            · obtain ⟨o1, o2, o3, o4, o5⟩ := optBasis_spec (z := z) (io := io) hw1' hio hB hr1 true
              cases k3 : (({ s1 with rgrid := overwrite s1.rgrid data } : W K).optBasis z io true).2
              · simp only [Bool.false_eq_true, if_false]
                exact ⟨o1, by simp [k3], by simp [Op.isData], by rw [o4.trans a7, k3]; simp⟩
              · simp only [if_true, W.done]
                refine ⟨wf_of o1 rfl rfl rfl rfl (fun hb => ⟨rfl, o1.bLen hb⟩) (fun _ => rfl)
                  (fun hs => ⟨(o5 k3 rfl).1, o3⟩), fun _ _ _ => (o5 k3 rfl).2, by simp [Op.isData],
                  by
                show _ + 1 = _
                rw [o4.trans a7]; simp [Op.isData]⟩
            · exact ⟨hw1', by simp, by simp [Op.isData], by simp [a7]⟩
    · exact ⟨h, by simp, by simp [Op.isData], by simp⟩

/-- Outcome of the most recent modification in a history (true if there is none). -/
def lastOk (z : K) : W K → Bool → List (Io K × Op K) → Bool
  | _, b, [] => b
  | s, b, c :: l =>
    lastOk z (s.step z c).1 (if c.2.isData then (s.step z c).2 else b) l

/-- Full statement of C46: in every history of calls, including failed ones, the representations
agree whenever the fields are reported as symmetric, and observers have been notified of every
change of the r-grid fields. -/
def C46_statement : Prop :=
  ∀ (e : Conv ℚ) (l : List (Io ℚ × Op ℚ)), (∀ c ∈ l, Legal e c) → Coherent e (W.run 0 W.init l)

/-- Observers are notified of every change of field values. -/
def C46_notify_statement : Prop :=
  ∀ (e : Conv ℚ) (l : List (Io ℚ × Op ℚ)) (c : Io ℚ × Op ℚ), (∀ c ∈ l, Legal e c) → Legal e c →
    (W.run 0 W.init l).hasData = true →
    ((W.run 0 W.init l).step 0 c).1.rgrid ≠ (W.run 0 W.init l).rgrid →
    ((W.run 0 W.init l).step 0 c).1.notified ≠ (W.run 0 W.init l).notified

theorem wf_init (e : Conv K) : Wf e (W.init : W K) :=
  ⟨by simp [W.init], by simp [W.init], by simp [W.init], by simp [W.init], by simp [W.init]⟩

theorem run_coherent {e : Conv K} {z : K} (l : List (Io K × Op K)) :
    ∀ (s : W K) (b : Bool), (∀ c ∈ l, Legal e c) → Wf e s → (b = true → Coherent e s) →
      lastOk z s b l = true → Coherent e (W.run z s l) := by
  induction l with
  | nil => intro s b _ _ h hb; exact h hb
  | cons c l ih =>
    intro s b hl hw hc hb
    have S := step_spec (z := z) hw (hl c (by simp))
    rw [W.run]
    rw [lastOk] at hb
    refine ih _ _ (fun d hd => hl d (List.mem_cons_of_mem _ hd)) S.wf ?_ hb
    intro hb'
    cases hd : c.2.isData
    · rw [hd] at hb'
      simp only [Bool.false_eq_true, if_false] at hb'
      obtain ⟨f1, f2⟩ := S.frame hd
      intro hs
      rw [f1] at hs
      rw [(f2 hs).1, (f2 hs).2]
      exact hc hb' hs
    · rw [hd] at hb'
      exact S.ok hd hb'

/-- C46, part that holds: after every history of calls with any outcomes whose most recent
modification did not fail, the representations agree whenever the container reports symmetric
fields.  Missing, because the code violates it: agreement after a failed modification (see
`C46_violated`). -/
theorem C46_coherent_partial (e : Conv K) (z : K) (l : List (Io K × Op K))
    (hl : ∀ c ∈ l, Legal e c) (hok : lastOk z W.init true l = true) :
    Coherent e (W.run z W.init l) :=
  run_coherent l _ _ hl (wf_init e) (fun _ hs => by simp [W.init] at hs) hok

/-- C46: every successful modification notifies observers exactly once, other calls never do. -/
theorem C46_notified_once (e : Conv K) (z : K) (l : List (Io K × Op K)) (c : Io K × Op K)
    (hl : ∀ c ∈ l, Legal e c) (hc : Legal e c) :
    ((W.run z W.init l).step z c).1.notified = (W.run z W.init l).notified +
      if c.2.isData && ((W.run z W.init l).step z c).2 then 1 else 0 := by
  have hw : ∀ (l : List (Io K × Op K)) (s : W K), (∀ c ∈ l, Legal e c) → Wf e s →
      Wf e (W.run z s l) := by
    intro l
    induction l with
    | nil => intro s _ h; exact h
    | cons d l ih =>
      intro s hl h
      exact ih _ (fun d hd => hl d (List.mem_cons_of_mem _ hd)) (step_spec h (hl d (by simp))).wf
  exact (step_spec (hw l _ hl (wf_init e)) hc).notify

/-- C46: if the fields given on the r-grid as symmetric really are, then after a successful
modification the r-grid fields are also the image of the basis components. -/
theorem C46_exact_on_symmetric_input (e : Conv K) (s : W K) (hc : Coherent e s) (hs : s.isSym = true)
    (hsym : ∀ r ∈ s.rgrid, e.toR (e.toB r) = r) : s.rgrid = s.basis.map e.toR := by
  rw [hc hs, List.map_map]
  conv_lhs => rw [← List.map_id s.rgrid]
  exact List.map_congr_left fun r hr => (hsym r hr).symm

/-- A simple environment with one basis function on a mesh of two points. -/
def exConv : Conv ℚ where
  nB := 1
  toR := fun b => [b.getD 0 0, b.getD 0 0]
  toB := fun r => [mean r]
  back := by
    intro b hb
    match b, hb with
    | [x], _ => simp [mean]
  size := by intro r; rfl

def exIo : Io ℚ := ⟨[2], some 1, exConv.toR, exConv.toB⟩

/-- A history that meets the hypotheses: allocation on demand, r-grid input, a failed call before
a successful one. -/
def exHist : List (Io ℚ × Op ℚ) :=
  [(exIo, .setNMonomer 1), (exIo, .setBasis [[3]]), (exIo, .setBasis [[1], [2]]),
   (exIo, .setRGrid [[5, 5]] true), (exIo, .clear)]

example : (∀ c ∈ exHist, Legal exConv c) ∧ lastOk 0 W.init true exHist = true ∧
    (W.run 0 W.init exHist).isSym = true ∧ (W.run 0 W.init exHist).basis = [[5]] ∧
    (W.run 0 W.init exHist).notified = 2 := by
  refine ⟨?_, by decide +kernel, by decide +kernel, by decide +kernel, by decide +kernel⟩
  intro c hc
  simp only [exHist, List.mem_cons, List.not_mem_nil, or_false] at hc
  rcases hc with rfl | rfl | rfl | rfl | rfl <;>
    exact ⟨rfl, rfl, Or.inr rfl, by intro n h; simp at h⟩

/-- C46: successful set functions store exactly the values given, and report data and the stated
symmetry. -/
theorem C46_set_stores (e : Conv K) (z : K) (s : W K) (h : Wf e s) (io : Io K)
    (hio : io.nBasis = none ∨ io.nBasis = some e.nB) (f : List (List K)) (sym : Bool) :
    ((s.setBasis z io f).2 = true → (s.setBasis z io f).1.basis = f ∧
      (s.setBasis z io f).1.hasData = true ∧ (s.setBasis z io f).1.isSym = true) ∧
    ((s.setRGrid z io f sym).2 = true → (s.setRGrid z io f sym).1.rgrid = f ∧
      (s.setRGrid z io f sym).1.hasData = true ∧ (s.setRGrid z io f sym).1.isSym = sym) := by
  have hw1 := wf_needR (z := z) (io := io) h
  obtain ⟨a1, a2, a3, a4, a5, a6, a7, a8, a9⟩ := needR_frame z io s
  constructor
  · intro hok
    obtain ⟨s', hs'⟩ : ∃ s', s.setBasis z io f = (s', true) := ⟨_, Prod.ext rfl hok⟩
    rw [hs']
    unfold W.setBasis at hs'
    obtain ⟨h1, h2⟩ := chk_ok hs'
    obtain ⟨h3, h4⟩ := andThen_ok h2
    obtain ⟨h5, h6⟩ := andThen_ok h4
    obtain ⟨h7, h8⟩ := chk_ok h6
    have hw2 := wf_needB (z := z) (io := io) hw1 hio
    obtain ⟨b1, b2, b3, b4, b5, b6, b7, b8, b9⟩ := needB_frame z io (s.needR z io).1
    have hlen : f.length = s.nMonomer := by simpa using h1
    have hc := copyLoop_ok _ f _ (by rw [(hw2.bRows (b9 h5)).2, b3, a3, hlen]) h7
    have h9 := (Prod.ext_iff.mp h8).1
    simp only at h9
    rw [← h9]
    exact ⟨hc.1, rfl, rfl⟩
  · intro hok
    obtain ⟨s', hs'⟩ : ∃ s', s.setRGrid z io f sym = (s', true) := ⟨_, Prod.ext rfl hok⟩
    rw [hs']
    unfold W.setRGrid at hs'
    obtain ⟨h1, h2⟩ := andThen_ok hs'
    obtain ⟨h3, h4⟩ := chk_ok h2
    obtain ⟨h5, h6⟩ := chk_ok h4
    obtain ⟨h7, h8⟩ := andThen_ok h6
    have hlen : f.length = (s.needR z io).1.nMonomer := by simpa using h3
    have hc := copyLoop_ok _ f _ (by rw [hw1.rRows (a9 h1), hlen]) h5
    have h9 := (Prod.ext_iff.mp h8).1
    simp only at h9
    rw [← h9]
    refine ⟨?_, rfl, rfl⟩
    show W.rgrid _ = f
    unfold W.done
    simp only
    have ho : ∀ (t : W K), (t.optBasis z io sym).1.rgrid = t.rgrid := by
      intro t
      unfold W.optBasis andThen
      obtain ⟨b1, _⟩ := needB_frame z io t
      cases sym
      · rfl
      · simp only [if_true]
        split <;> exact b1
    rw [ho]
    exact hc.1

/-- Both calls succeed on a fresh container with one monomer. -/
example : ((W.run 0 W.init [(exIo, .setNMonomer 1)]).setBasis 0 exIo [[3]]).2 = true ∧
    ((W.run 0 W.init [(exIo, .setNMonomer 1)]).setRGrid 0 exIo [[3, 4]] false).2 = true := by
  decide +kernel

theorem overwrite_get (rows : List (List K)) (v : Nat → Nat → K) (i j : Nat) (x : K)
    (h : ((overwrite rows v)[i]?.bind fun r => r[j]?) = some x) : x = v i j := by
  unfold overwrite at h
  rw [List.getElem?_mapIdx] at h
  rcases h1 : rows[i]? with _ | r
  · simp [h1] at h
  · rw [h1] at h
    simp only [Option.map_some, Option.bind_some, List.getElem?_mapIdx] at h
    rcases h2 : r[j]? with _ | y
    · simp [h2] at h
    · rw [h2] at h
      simp only [Option.map_some, Option.some.injEq] at h
      exact h.symm

/-- C46: after a successful read, every stored value is the one in the file for the same monomer
and the same basis function or grid point, the arrays have one row per monomer, and data and the
stated symmetry are reported. -/
theorem C46_read_stores (e : Conv K) (z : K) (s : W K) (h : Wf e s) (io : Io K)
    (hio : io.nBasis = none ∨ io.nBasis = some e.nB) (hdr : Header) (data : Nat → Nat → K)
    (ok sym : Bool) :
    (∀ s', s.readBasis z io hdr data ok = (s', true) →
      s'.basis.length = s.nMonomer ∧ (∀ r ∈ s'.basis, r.length = e.nB) ∧
      (∀ i j x, (s'.basis[i]?.bind fun r => r[j]?) = some x → x = data i j) ∧
      s'.hasData = true ∧ s'.isSym = true) ∧
    ∀ s', s.readRGrid z io data ok sym = (s', true) →
      s'.rgrid.length = s.nMonomer ∧
      (∀ i j x, (s'.rgrid[i]?.bind fun r => r[j]?) = some x → x = data i j) ∧
      s'.hasData = true ∧ s'.isSym = sym := by
  have hw1 := wf_needR (z := z) (io := io) h
  obtain ⟨a1, a2, a3, a4, a5, a6, a7, a8, a9⟩ := needR_frame z io s
  constructor
  · intro s' hs'
    unfold W.readBasis at hs'
    obtain ⟨-, h2⟩ := chk_ok hs'
    rcases hdr with _ | ⟨n, b⟩
    · cases h2
    · obtain ⟨-, h2⟩ := chk_ok h2
      obtain ⟨-, h2⟩ := chk_ok h2
      obtain ⟨-, h2⟩ := chk_ok h2
      obtain ⟨-, h2⟩ := chk_ok h2
      obtain ⟨h3, h4⟩ := andThen_ok h2
      obtain ⟨h5, h6⟩ := andThen_ok h4
      obtain ⟨-, h8⟩ := chk_ok h6
      have hw2 := wf_needB (z := z) (io := io) hw1 hio
      obtain ⟨b1, b2, b3, b4, b5, b6, b7, b8, b9⟩ := needB_frame z io (s.needR z io).1
      have hsh := overwrite_shape ((s.needR z io).1.needB z io).1.basis data e.nB
        (hw2.bLen (b9 h5))
      have h9 := (Prod.ext_iff.mp h8).1
      simp only at h9
      rw [← h9]
      refine ⟨?_, hsh.2, overwrite_get _ _, rfl, rfl⟩
      show (overwrite _ _).length = _
      rw [hsh.1, (hw2.bRows (b9 h5)).2, b3, a3]
  · intro s' hs'
    unfold W.readRGrid at hs'
    obtain ⟨-, h2⟩ := chk_ok hs'
    obtain ⟨h3, h4⟩ := andThen_ok h2
    obtain ⟨-, h6⟩ := chk_ok h4
    have hlen : (overwrite (s.needR z io).1.rgrid data).length = s.nMonomer := by
      rw [← a3, ← hw1.rRows (a9 h3)]; simp [overwrite]
    cases sym
    · simp only [Bool.false_eq_true, if_false] at h6
      have h9 := (Prod.ext_iff.mp h6).1
      simp only at h9
      rw [← h9]
      exact ⟨hlen, overwrite_get _ _, rfl, rfl⟩
    · simp only [if_true] at h6
      obtain ⟨-, h7⟩ := chk_ok h6
      obtain ⟨-, h8⟩ := andThen_ok h7
      have ho : ∀ (t : W K), (t.optBasis z io true).1.rgrid = t.rgrid := by
        intro t
        unfold W.optBasis andThen
        obtain ⟨b1, _⟩ := needB_frame z io t
        simp only [if_true]
        split <;> exact b1
      have h9 := (Prod.ext_iff.mp h8).1
      simp only at h9
      rw [← h9]
      refine ⟨?_, ?_, rfl, rfl⟩
      · unfold W.done; simp only; rw [ho]; exact hlen
      · unfold W.done; simp only; rw [ho]; exact overwrite_get _ _

/-- Both reads succeed on a fresh container with two monomers. -/
example : ((W.run 0 W.init [(exIo, .setNMonomer 2)]).readBasis 0 exIo (some (2, true))
      (fun i j => i + 2 * j) true).2 = true ∧
    ((W.run 0 W.init [(exIo, .setNMonomer 2)]).readRGrid 0 exIo
      (fun i j => i + 2 * j) true false).2 = true := by
  decide +kernel

/-- C46 is violated: a call of `readBasis` that fails while reading data leaves the fields
reported as symmetric although basis components have been overwritten and r-grid values have not. -/
theorem C46_violated : ¬ C46_statement := by
  intro h
  have := h exConv [(exIo, .setNMonomer 1), (exIo, .setBasis [[3]]),
      (exIo, .readBasis (some (1, true)) (fun _ _ => 7) false)] (by
    intro c hc
    simp only [List.mem_cons, List.not_mem_nil, or_false] at hc
    rcases hc with rfl | rfl | rfl <;> exact ⟨rfl, rfl, Or.inr rfl, by intro n h; simp at h⟩)
    (by decide +kernel)
  revert this
  decide +kernel

/-- C46 (notification) is violated: with data but without basis memory (first fields given on the
r-grid as asymmetric) an attempt to set symmetric r-grid fields replaces the fields, then throws
without notifying observers. -/
theorem C46_notify_violated : ¬ C46_notify_statement := by
  intro h
  have := h exConv [(exIo, .setNMonomer 1), (exIo, .setRGrid [[1, 2]] false)]
    (exIo, .setRGrid [[5, 5]] true) (by
    intro c hc
    simp only [List.mem_cons, List.not_mem_nil, or_false] at hc
    rcases hc with rfl | rfl <;> exact ⟨rfl, rfl, Or.inr rfl, by intro n h; simp at h⟩)
    ⟨rfl, rfl, Or.inr rfl, by intro n h; simp at h⟩ (by decide +kernel) (by decide +kernel)
  exact this (by decide +kernel)

/-- With data but without basis memory, no history of calls without `clear` ever makes the
container hold symmetric fields: every attempt throws. -/
theorem C46_asymmetric_first_lockout (z : K) (l : List (Io K × Op K)) :
    ∀ (s : W K), s.hasData = true → s.allocB = false → s.isSym = false → s.allocR = true →
      (∀ c ∈ l, c.2 ≠ .clear) → (W.run z s l).isSym = false ∧ (W.run z s l).allocB = false ∧
      ∀ (io : Io K) (f : List (List K)), ((W.run z s l).setBasis z io f).2 = false ∧
        ((W.run z s l).setRGrid z io f true).2 = false := by
  have needB_fail : ∀ (s : W K) (io : Io K), s.hasData = true → s.allocB = false →
      s.needB z io = (s, false) := by
    intro s io h1 h2
    unfold W.needB
    rw [if_neg (by simp [h2])]
    cases io.nBasis with
    | none => rfl
    | some n =>
      simp only [W.allocateBasis, chk]
      by_cases hm : 0 < s.nMonomer
      · by_cases hn : 0 < (n : Int)
        · simp [hm, hn, h1, h2]
        · simp [hm, h1, h2]
      · simp [hm]
  have stay : ∀ (s : W K) (c : Io K × Op K), s.hasData = true → s.allocB = false →
      s.isSym = false → s.allocR = true → c.2 ≠ .clear →
      (s.step z c).1.hasData = true ∧ (s.step z c).1.allocB = false ∧ (s.step z c).1.isSym = false ∧
      (s.step z c).1.allocR = true := by
    intro s c h1 h2 h3 h4 hc
    obtain ⟨io, op⟩ := c
    have hR : s.needR z io = (s, true) := by simp [W.needR, h4]
    cases op with
    | clear => exact absurd rfl hc
    | setNMonomer n =>
      simp only [W.step, W.setNMonomer, chk]
      split
      · split <;> simp [h1, h2, h3, h4]
      · simp [h1, h2, h3, h4]
    | allocateRGrid d =>
      simp only [W.step, W.allocateRGrid, chk, h1, h4]
      split <;> simp [h1, h2, h3, h4]
    | allocateBasis n =>
      simp only [W.step, W.allocateBasis, chk, h1, h2]
      split
      · split <;> simp [h1, h2, h3, h4]
      · simp [h1, h2, h3, h4]
    | symmetrize => simp [W.step, W.symmetrize, chk, h1, h2, h3, h4]
    | setBasis f =>
      simp only [W.step, W.setBasis, chk, andThen, hR, needB_fail s io h1 h2]
      split <;> simp [h1, h2, h3, h4]
    | setRGrid f b =>
      simp only [W.step, W.setRGrid, chk, andThen, hR, if_true]
      split
      · split
        · unfold W.optBasis
          cases b
          · simp [W.done, h2, h4]
          · simp only [if_true, andThen]
            rw [needB_fail _ io (by exact h1) (by exact h2)]
            simp [h1, h2, h3, h4]
        · simp [h1, h2, h3, h4]
      · simp [h1, h2, h3, h4]
    | readBasis hdr d ok =>
      simp only [W.step, W.readBasis, chk, andThen, hR, needB_fail s io h1 h2]
      split
      · cases hdr with
        | none => simp [h1, h2, h3, h4]
        | some p => simp only; split <;> (try split) <;> (try split) <;> (try split) <;> simp [h1, h2, h3, h4]
      · simp [h1, h2, h3, h4]
    | readRGrid d ok b =>
      simp only [W.step, W.readRGrid, chk, andThen, hR, if_true]
      split
      · split
        · cases b
          · simp [W.done, h2, h4]
          · simp only [if_true]
            split
            · unfold W.optBasis
              simp only [if_true, andThen]
              rw [needB_fail _ io (by exact h1) (by exact h2)]
              simp [h1, h2, h3, h4]
            · simp [h1, h2, h3, h4]
        · simp [h1, h2, h3, h4]
      · simp [h1, h2, h3, h4]
  induction l with
  | nil =>
    intro s h1 h2 h3 h4 _
    refine ⟨h3, h2, fun io f => ⟨?_, ?_⟩⟩
    · have hR : s.needR z io = (s, true) := by simp [W.needR, h4]
      simp only [W.run, W.setBasis, chk, andThen, hR, needB_fail s io h1 h2]
      split <;> simp
    · have hR : s.needR z io = (s, true) := by simp [W.needR, h4]
      simp only [W.run, W.setRGrid, chk, andThen, hR, if_true]
      split
      · split
        · unfold W.optBasis
          simp only [if_true, andThen]
          rw [needB_fail _ io (by exact h1) (by exact h2)]
          simp
        · rfl
      · rfl
  | cons c l ih =>
    intro s h1 h2 h3 h4 hc
    obtain ⟨a1, a2, a3, a4⟩ := stay s c h1 h2 h3 h4 (hc c (by simp))
    exact ih _ a1 a2 a3 a4 (fun d hd => hc d (List.mem_cons_of_mem _ hd))

/-- The hypotheses are reached by reading asymmetric fields first. -/
example : let s := W.run 0 W.init [(exIo, .setNMonomer 1), (exIo, .setRGrid [[1, 2]] false)]
    s.hasData = true ∧ s.allocB = false ∧ s.isSym = false ∧ s.allocR = true := by decide +kernel

/-! ## C47 -/

/-- C47: symmetric concentration fields are only ever reported together with data, and
`writeBasis` is possible exactly when basis memory exists and symmetric data have been reported. -/
theorem C47_symmetric_implies_data (l : List COp) :
    ((C.run C.init l).isSym = true → (C.run C.init l).hasData = true) ∧
    ((C.run C.init l).canWriteBasis = true ↔
      (C.run C.init l).allocB = true ∧ (C.run C.init l).isSym = true) := by
  have key : ∀ (l : List COp) (s : C), (s.isSym = true → s.hasData = true) →
      (s.allocB = true → 0 < s.nMonomer) →
      ((C.run s l).isSym = true → (C.run s l).hasData = true) ∧
      ((C.run s l).allocB = true → 0 < (C.run s l).nMonomer) := by
    intro l
    induction l with
    | nil => intro s h1 h2; exact ⟨h1, h2⟩
    | cons o l ih =>
      intro s h1 h2
      rw [C.run]
      apply ih
      · cases o with
        | setNMonomer n => simp only [C.step, chk]; split <;> (try split) <;> exact h1
        | allocateRGrid => simp only [C.step, chk]; split <;> (try split) <;> exact h1
        | allocateBasis => simp only [C.step, chk]; split <;> (try split) <;> exact h1
        | setHasData b => cases b <;> simp [C.step]
        | setIsSymmetric b =>
          simp only [C.step, chk]
          split
          · intro _; assumption
          · exact h1
      · cases o with
        | setNMonomer n =>
          simp only [C.step, chk]
          split
          · split
            · rename_i h3 h4
              intro _
              have : n > 0 := by simpa using h4
              show 0 < n.toNat
              omega
            · exact h2
          · exact h2
        | allocateRGrid => simp only [C.step, chk]; split <;> (try split) <;> exact h2
        | allocateBasis =>
          simp only [C.step, chk]
          split
          · rename_i h3
            split
            · intro _; simpa using h3
            · exact h2
          · exact h2
        | setHasData b => exact h2
        | setIsSymmetric b => simp only [C.step, chk]; split <;> exact h2
  obtain ⟨k1, k2⟩ := key l C.init (by simp [C.init]) (by simp [C.init])
  refine ⟨k1, ?_⟩
  unfold C.canWriteBasis
  simp only [Bool.and_eq_true, decide_eq_true_eq]
  constructor
  · rintro ⟨⟨⟨_, h2⟩, _⟩, h4⟩; exact ⟨h2, h4⟩
  · rintro ⟨h2, h4⟩; exact ⟨⟨⟨k2 h2, h2⟩, k1 h4⟩, h4⟩

/-- Histories with and without a final symmetric state. -/
example : (C.run C.init [.setNMonomer 2, .allocateBasis, .setHasData true, .setIsSymmetric true]).canWriteBasis
    = true ∧ (C.run C.init [.setNMonomer 2, .allocateBasis, .setIsSymmetric true]).isSym = false ∧
    (C.run C.init [.setHasData true, .setIsSymmetric true, .setHasData false]).isSym = false := by decide

/-! ## C48 -/

section mask
variable [Field K]

theorem kahan (rg : List K) : ∀ a : K, rg.foldl kahanStep (a, 0) = (a + rg.sum, 0) := by
  induction rg with
  | nil => intro a; simp
  | cons x l ih =>
    intro a
    have h1 : kahanStep (a, 0) x = (a + x, 0) := by simp [kahanStep]
    rw [List.foldl_cons, h1, ih, List.sum_cons, add_assoc]

theorem rGridAverage_eq (rg : List K) : rGridAverage rg = mean rg := by
  unfold rGridAverage mean
  rw [kahan]; simp

/-- Conversions for which the first basis function is constant: its coefficient is the average. -/
structure MConv (K : Type) [Field K] extends Conv K where
  average : ∀ r, (toB r)[0]? = some (mean r)

def MLegal (e : Conv K) (c : Io K × MOp K) : Prop :=
  c.1.toR = e.toR ∧ c.1.toB = e.toB ∧ (c.1.nBasis = none ∨ c.1.nBasis = some e.nB) ∧
  (∀ n, c.2 = .allocateBasis n → n = e.nB) ∧
  ∀ h d, c.2 = .readBasis h d → d.1.length = e.nB

structure MWf (e : Conv K) (s : Mask K) : Prop where
  bLen : s.allocB = true → s.nBasis = e.nB ∧ s.basis.length = e.nB

/-- Representations of the mask agree. -/
def MCoherent (e : Conv K) (s : Mask K) : Prop := s.isSym = true → s.basis = e.toB s.rgrid

theorem m_allocateBasis {e : Conv K} {z : K} {s : Mask K} (h : MWf e s) :
    MWf e (s.allocateBasis z e.nB).1 ∧ ((s.allocateBasis z e.nB).2 = true →
      (s.allocateBasis z e.nB).1.allocB = true) ∧ (s.allocateBasis z e.nB).1.rgrid = s.rgrid ∧
      (s.allocateBasis z e.nB).1.isSym = s.isSym ∧
      (s.allocateBasis z e.nB).1.hasData = s.hasData := by
  unfold Mask.allocateBasis chk
  cases hb : s.allocB
  · simp only [Bool.not_false, if_true]
    exact ⟨⟨fun _ => ⟨rfl, by simp⟩⟩, by simp⟩
  · simp [h]

theorem m_needB {e : Conv K} {z : K} {io : Io K} {s : Mask K} (h : MWf e s)
    (hio : io.nBasis = none ∨ io.nBasis = some e.nB) :
    MWf e (s.needB z io).1 ∧ ((s.needB z io).2 = true → (s.needB z io).1.allocB = true) ∧
      (s.needB z io).1.rgrid = s.rgrid ∧ (s.needB z io).1.isSym = s.isSym ∧
      (s.needB z io).1.hasData = s.hasData := by
  unfold Mask.needB
  by_cases hb : s.allocB = true
  · simp [hb, h]
  · rw [if_neg hb]
    rcases hio with hio | hio
    · rw [hio]; simp [h]
    · rw [hio]; exact m_allocateBasis h

theorem m_allocateRGrid {e : Conv K} {z : K} {s : Mask K} (h : MWf e s) (d : List Int) :
    MWf e (s.allocateRGrid z d).1 ∧ (s.allocateRGrid z d).1.isSym = s.isSym ∧
    (s.allocateRGrid z d).1.hasData = s.hasData ∧ (s.allocateRGrid z d).1.basis = s.basis ∧
    (s.allocR = true → (s.allocateRGrid z d).1.rgrid = s.rgrid ∧ (s.allocateRGrid z d).1.allocR = true) ∧
    ((s.allocateRGrid z d).2 = true → (s.allocateRGrid z d).1.allocR = true) := by
  unfold Mask.allocateRGrid chk
  cases hr : s.allocR
  · cases hp : (meshProd d 1).2 <;> simp [hp] <;> exact ⟨h.bLen⟩
  · simp [h, hr]

theorem prod_nonneg_of_pos (d : List Int) (h : ∀ x ∈ d, 0 < x) : 0 ≤ d.prod := by
  induction d with
  | nil => simp
  | cons a l ih =>
    rw [List.prod_cons]
    exact mul_nonneg (h a (by simp)).le (ih fun x hx => h x (by simp [hx]))

theorem meshProd_spec (d : List Int) (m : Int) :
    ((meshProd d m).2 = true ↔ ∀ x ∈ d, 0 < x) ∧
    ((meshProd d m).2 = true → (meshProd d m).1 = m * d.prod) := by
  induction d generalizing m with
  | nil => simp [meshProd]
  | cons a l ih =>
    unfold meshProd
    by_cases ha : a > 0
    · rw [if_pos ha]
      obtain ⟨h1, h2⟩ := ih (m * a)
      constructor
      · rw [h1]; simp [ha]
      · intro h; rw [h2 h, List.prod_cons, mul_assoc]
    · rw [if_neg ha]
      simp [ha]

/-- C46: `allocateRGrid` of the w fields succeeds only with positive dimensions, for a container
with a number of monomers, without data and not yet allocated; then every monomer has one value per
mesh point. -/
theorem C46_allocate (z : K) (s : W K) (d : List Int) :
    ((s.allocateRGrid z d).2 = true ↔
      0 < s.nMonomer ∧ s.hasData = false ∧ s.allocR = false ∧ ∀ x ∈ d, 0 < x) ∧
    ((s.allocateRGrid z d).2 = true → (s.allocateRGrid z d).1.meshSize = d.prod ∧
      (s.allocateRGrid z d).1.allocR = true ∧ (s.allocateRGrid z d).1.rgrid.length = s.nMonomer ∧
      ∀ f ∈ (s.allocateRGrid z d).1.rgrid, (f.length : Int) = d.prod) := by
  obtain ⟨h1, h2⟩ := meshProd_spec d 1
  have hpos : (∀ x ∈ d, 0 < x) → 0 ≤ d.prod := prod_nonneg_of_pos d
  unfold W.allocateRGrid chk
  by_cases a1 : s.nMonomer > 0
  · cases a2 : s.hasData
    · cases a3 : s.allocR
      · cases a4 : (meshProd d 1).2
        · have : ¬ ∀ x ∈ d, 0 < x := fun h => by rw [h1.mpr h] at a4; cases a4
          simp only [a1, decide_true, Bool.not_false, if_true, a4, Bool.false_eq_true, if_false,
            false_iff, false_implies, and_true]
          exact fun h => this h.2.2.2
        · have hd := h1.mp a4
          have he : (meshProd d 1).1 = d.prod := by rw [h2 a4, one_mul]
          simp only [a1, decide_true, Bool.not_false, if_true, a4, true_iff, he, true_implies,
            List.length_replicate, List.mem_replicate, true_and]
          refine ⟨hd, ?_⟩
          rintro f ⟨_, rfl⟩
          rw [List.length_replicate]
          exact Int.toNat_of_nonneg (hpos hd)
      · simp [a1]
    · simp [a1]
  · simp [a1]

/-- C46: the same for the mask. -/
theorem C46_allocate_mask (z : K) (s : Mask K) (d : List Int) :
    ((s.allocateRGrid z d).2 = true ↔ s.allocR = false ∧ ∀ x ∈ d, 0 < x) ∧
    ((s.allocateRGrid z d).2 = true → (s.allocateRGrid z d).1.meshSize = d.prod ∧
      (s.allocateRGrid z d).1.allocR = true ∧
      ((s.allocateRGrid z d).1.rgrid.length : Int) = d.prod) := by
  obtain ⟨h1, h2⟩ := meshProd_spec d 1
  have hpos : (∀ x ∈ d, 0 < x) → 0 ≤ d.prod := prod_nonneg_of_pos d
  unfold Mask.allocateRGrid chk
  cases a3 : s.allocR
  · cases a4 : (meshProd d 1).2
    · have : ¬ ∀ x ∈ d, 0 < x := fun h => by rw [h1.mpr h] at a4; cases a4
      simp only [Bool.not_false, if_true, a4, Bool.false_eq_true, if_false,
        false_iff, false_implies, and_true, true_and]
      exact this
    · have hd := h1.mp a4
      have he : (meshProd d 1).1 = d.prod := by rw [h2 a4, one_mul]
      simp only [Bool.not_false, if_true, a4, true_iff, he, true_implies,
        List.length_replicate, true_and]
      exact ⟨hd, Int.toNat_of_nonneg (hpos hd)⟩
  · simp

example : ((W.init : W Int).setNMonomer 2).1.nMonomer = 2 ∧
    (((W.init : W Int).setNMonomer 2).1.allocateRGrid 0 [2, 3]).2 = true ∧
    (((W.init : W Int).setNMonomer 2).1.allocateRGrid 0 [2, 0]).2 = false := by decide

theorem m_needR {e : Conv K} {z : K} {io : Io K} {s : Mask K} (h : MWf e s) :
    MWf e (s.needR z io).1 ∧ (s.needR z io).1.isSym = s.isSym ∧
      (s.needR z io).1.hasData = s.hasData ∧ ((s.needR z io).2 = true → (s.needR z io).1.allocR = true) := by
  unfold Mask.needR chk
  by_cases hr : s.allocR = true
  · simp [hr, h]
  · rw [if_neg hr]
    split
    · obtain ⟨a, b, c, _, _, f⟩ := m_allocateRGrid (z := z) h io.dims
      exact ⟨a, b, c, f⟩
    · simp [h]

/-- The common end of the r-grid input functions. -/
def Mask.fin (z : K) (io : Io K) (s1 : Mask K) (sym : Bool) : Out (Mask K) :=
  andThen (if sym then andThen (s1.needB z io) fun s => ({ s with basis := io.toB s.rgrid }, true)
    else (s1, true)) fun s => ({ s with hasData := true, isSym := sym }, true)

theorem m_fin {e : Conv K} {z : K} {io : Io K} {s : Mask K} (h : MWf e s)
    (hio : io.nBasis = none ∨ io.nBasis = some e.nB) (hB : io.toB = e.toB) (sym : Bool) :
    MWf e (s.fin z io sym).1 ∧ ((s.fin z io sym).2 = true → MCoherent e (s.fin z io sym).1 ∧
      (s.fin z io sym).1.hasData = true) := by
  unfold Mask.fin
  cases sym
  · simp only [andThen, Bool.false_eq_true, if_false, if_true]
    exact ⟨⟨h.bLen⟩, fun _ => ⟨fun hs => by simp at hs, trivial⟩⟩
  · simp only [if_true]
    obtain ⟨a1, a2, a3, a4, a5⟩ := m_needB (z := z) h hio
    unfold andThen
    cases k : (s.needB z io).2
    · simp only [Bool.false_eq_true, if_false, k]
      exact ⟨a1, by simp⟩
    · simp only [if_true]
      refine ⟨⟨fun hb => ⟨(a1.bLen hb).1, ?_⟩⟩, fun _ => ⟨fun _ => ?_, trivial⟩⟩
      · simp only [hB]; exact e.size _
      · simp only [hB]

theorem m_step {e : Conv K} {z : K} {s : Mask K} (h : MWf e s) {c : Io K × MOp K}
    (hl : MLegal e c) :
    MWf e (s.step z c).1 ∧
    (c.2.isData = true → (s.step z c).2 = true → MCoherent e (s.step z c).1 ∧
      (s.step z c).1.hasData = true) := by
  obtain ⟨io, op⟩ := c
  obtain ⟨hR, hB, hio, ha, hd⟩ := hl
  simp only at hR hB hio ha hd
  cases op with
  | allocateRGrid d => exact ⟨(m_allocateRGrid h d).1, by simp [MOp.isData]⟩
  | allocateBasis n =>
    have := ha n rfl
    subst this
    exact ⟨(m_allocateBasis h).1, by simp [MOp.isData]⟩
  | setBasis f =>
    simp only [Mask.step, Mask.setBasis]
    obtain ⟨a1, a2, a3, a4⟩ := m_needR (z := z) (io := io) h
    unfold andThen
    cases k : (s.needR z io).2
    · simp only [Bool.false_eq_true, if_false]
      exact ⟨a1, by simp [k]⟩
    · simp only [if_true]
      obtain ⟨b1, b2, b3, b4, b5⟩ := m_needB (z := z) (io := io) a1 hio
      cases k2 : ((s.needR z io).1.needB z io).2
      · simp only [Bool.false_eq_true, if_false]
        exact ⟨b1, by simp [k2]⟩
      · simp only [if_true, chk]
        have hb := b1.bLen (b2 k2)
        split
        · rename_i hf
          have hf' : f.length = e.nB := by rw [← hb.1]; simpa using hf
          refine ⟨⟨fun _ => ⟨hb.1, hf'⟩⟩, fun _ _ => ⟨fun _ => ?_, rfl⟩⟩
          simp only [hR]
          rw [e.back f hf']
        · exact ⟨b1, by simp⟩
  | setRGrid f sym =>
    simp only [Mask.step, Mask.setRGrid]
    obtain ⟨a1, a2, a3, a4⟩ := m_needR (z := z) (io := io) h
    rw [andThen]
    cases k : (s.needR z io).2
    · simp only [Bool.false_eq_true, if_false]
      exact ⟨a1, by simp [k]⟩
    · simp only [if_true, chk]
      split
      · have := m_fin (z := z) (io := io) (s := { (s.needR z io).1 with rgrid := f })
          ⟨a1.bLen⟩ hio hB sym
        exact ⟨this.1, fun _ => this.2⟩
      · exact ⟨a1, by simp⟩
  | readBasis hdr d =>
    have hdl := hd hdr d rfl
    simp only [Mask.step, Mask.readBasis]
    cases hdr with
    | none => exact ⟨h, by simp⟩
    | some p =>
      obtain ⟨n, sym⟩ := p
      have triv : MWf e (s, false).1 ∧ (MOp.isData (MOp.readBasis (some (n, sym)) d) = true →
        ((s, false) : Out (Mask K)).2 = true → MCoherent e (s, false).1 ∧ (s, false).1.hasData = true) :=
        ⟨h, by simp⟩
      simp only [chk]
      split
      · split
        · split
          · split
            · obtain ⟨a1, a2, a3, a4⟩ := m_needR (z := z) (io := io) h
              unfold andThen
              cases k : (s.needR z io).2
              · simp only [Bool.false_eq_true, if_false]
                exact ⟨a1, by simp [k]⟩
              · simp only [if_true]
                obtain ⟨b1, b2, b3, b4, b5⟩ := m_needB (z := z) (io := io) a1 hio
                cases k2 : ((s.needR z io).1.needB z io).2
                · simp only [Bool.false_eq_true, if_false]
                  exact ⟨b1, by simp [k2]⟩
                · simp only [if_true]
                  have hb := b1.bLen (b2 k2)
                  split
                  · refine ⟨⟨fun _ => ⟨hb.1, hdl⟩⟩, fun _ _ => ⟨fun _ => ?_, rfl⟩⟩
                    simp only [hR]
                    rw [e.back d.1 hdl]
                  · exact ⟨⟨fun _ => ⟨hb.1, hdl⟩⟩, by simp⟩
            · exact triv
          · exact triv
        · exact triv
      · exact triv
  | readRGrid d sym =>
    simp only [Mask.step, Mask.readRGrid]
    obtain ⟨a1, a2, a3, a4⟩ := m_needR (z := z) (io := io) h
    rw [andThen]
    cases k : (s.needR z io).2
    · simp only [Bool.false_eq_true, if_false]
      exact ⟨a1, by simp [k]⟩
    · simp only [if_true, chk]
      split
      · have := m_fin (z := z) (io := io) (s := { (s.needR z io).1 with rgrid := d.1 })
          ⟨a1.bLen⟩ hio hB sym
        exact ⟨this.1, fun _ => this.2⟩
      · exact ⟨⟨a1.bLen⟩, by simp⟩

def Mask.run (z : K) : Mask K → List (Io K × MOp K) → Mask K
  | s, [] => s
  | s, c :: l => Mask.run z (s.step z c).1 l

theorem m_run {e : Conv K} {z : K} (l : List (Io K × MOp K)) : ∀ s : Mask K, MWf e s →
    (∀ c ∈ l, MLegal e c) → MWf e (Mask.run z s l) := by
  induction l with
  | nil => intro s h _; exact h
  | cons c l ih =>
    intro s h hl
    exact ih _ (m_step h (hl c (by simp))).1 (fun d hd => hl d (List.mem_cons_of_mem _ hd))

/-- C48, part that holds: after any history of calls, a successful set or read makes `phiTot()`
the spatial average of the r-grid mask, whichever representation was given.  Missing: the same
after a failed call (the same defect as `C46_violated`). -/
theorem C48_phiTot_average_partial (e : MConv K) (z : K) (l : List (Io K × MOp K))
    (c : Io K × MOp K) (hl : ∀ d ∈ l, MLegal e.toConv d) (hc : MLegal e.toConv c)
    (hdata : c.2.isData = true) (hok : ((Mask.run z Mask.init l).step z c).2 = true) :
    ((Mask.run z Mask.init l).step z c).1.phiTot =
      .ok (mean ((Mask.run z Mask.init l).step z c).1.rgrid) := by
  have hw := m_run (z := z) l Mask.init ⟨by simp [Mask.init]⟩ hl
  obtain ⟨h1, h2⟩ := m_step (z := z) hw hc
  obtain ⟨h3, h4⟩ := h2 hdata hok
  unfold Mask.phiTot
  cases hs : ((Mask.run z Mask.init l).step z c).1.isSym
  · simp only [Bool.false_and, Bool.false_eq_true, if_false, h4, Bool.not_true, rGridAverage_eq]
  · rw [h4]
    simp only [Bool.and_self, if_true]
    rw [h3 hs, e.average]

/-- C48: without data, `phiTot()` is 1. -/
theorem C48_no_mask (s : Mask K) (h : s.hasData = false) : s.phiTot = .ok 1 := by
  simp [Mask.phiTot, h]

end mask

def exMConv : MConv ℚ where
  toConv := exConv
  average := by
    intro r
    rfl

/-- Histories ending with input in either representation. -/
example : (Mask.step 0 (Mask.run 0 Mask.init [(exIo, .setBasis [1/2])])
      (exIo, .setRGrid [0, 1/2] false)).1.phiTot = .ok (1/4) ∧
    (Mask.step 0 (Mask.run 0 Mask.init [(exIo, .setRGrid [0, 1/2] false)])
      (exIo, .setBasis [1/3])).1.phiTot = .ok (1/3) := by decide +kernel

/-- Full statement of C48. -/
def C48_statement : Prop :=
  ∀ (e : MConv ℚ) (l : List (Io ℚ × MOp ℚ)), (∀ c ∈ l, MLegal e.toConv c) →
    (Mask.run 0 Mask.init l).hasData = true →
    (Mask.run 0 Mask.init l).phiTot = .ok (mean (Mask.run 0 Mask.init l).rgrid)

/-- C48 is violated after a read that fails part way: the average comes from the new coefficients,
the r-grid mask is still the old one. -/
theorem C48_violated : ¬ C48_statement := by
  intro h
  have := h exMConv [(exIo, .setBasis [1/2]), (exIo, .readBasis (some (1, true)) ([1/3], false))] (by
    intro c hc
    simp only [List.mem_cons, List.not_mem_nil, or_false] at hc
    rcases hc with rfl | rfl
    · exact ⟨rfl, rfl, Or.inr rfl, by intro n h; simp at h, by intro a b h; simp at h⟩
    · refine ⟨rfl, rfl, Or.inr rfl, by intro n h; simp at h, ?_⟩
      intro a b h
      simp only [MOp.readBasis.injEq] at h
      rw [← h.2]; rfl) (by decide +kernel)
  revert this
  decide +kernel

end Verif.Field
