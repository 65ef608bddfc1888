import Verif.Solver.Mixture
import Verif.Solver.DerivProps
import Verif.Tac

/-!
# Lemmas on the mixture model
-/

set_option autoImplicit false
set_option linter.unusedSectionVars false

namespace Verif.Solver

open Verif.Chem

theorem okBind {α β : Type} (a : α) (f : α → Res β) : (Res.ok a).bind f = f a := rfl

theorem runAll_ok {α β : Type} {f : α → Res β} {g : α → β} : ∀ {l : List α},
    (∀ a ∈ l, f a = .ok (g a)) → runAll f l = .ok (l.map g)
  | [], _ => rfl
  | a :: l, h => by
    unfold runAll
    rw [h a (by simp), okBind, runAll_ok (fun b hb => h b (by simp [hb])), okBind]
    rfl

theorem zip_map {α β : Type} (g : α → β) : ∀ l : List α,
    l.zip (l.map g) = l.map (fun a => (a, g a))
  | [] => rfl
  | a :: l => by simp [zip_map g l]

variable {m : Nat} {N : Fin (m + 1) → Nat} [∀ d, NeZero (N d)] {n M : Nat} (en : Fin n ≃ Grid N)

theorem addBlocks_eq (mono : Nat → Fin M) (g : Nat → Fld n ℝ) (i : Fin M) (x : Fin n) :
    ∀ (l k : Nat) (c : Fin M → Fld n ℝ),
    addBlocks mono k ((List.range' k l).map g) c i x =
      c i x + ((List.range' k l).map (fun k => if i = mono k then g k x else 0)).sum
  | 0, k, c => by simp [addBlocks]
  | l + 1, k, c => by
    simp only [List.range'_succ, List.map_cons, List.sum_cons, addBlocks]
    rw [addBlocks_eq mono g i x l (k + 1)]
    unfold addTo
    split <;> simp [*, add_assoc]

theorem sum_range_fin (g : Nat → ℝ) (l : Nat) :
    ((List.range l).map g).sum = ∑ k : Fin l, g k := by
  rw [← List.sum_ofFn (f := fun k : Fin l => g k), List.ofFn_eq_map,
    ← List.map_coe_finRange_eq_range, List.map_map]
  rfl

theorem foldl_blocks {α : Type} (mono : α → Nat → Fin M) (conc : α → List (Fld n ℝ))
    (len : α → Nat) (g : α → Nat → Fld n ℝ) (i : Fin M) (x : Fin n) : ∀ (l : List α)
    (_ : ∀ a ∈ l, conc a = (List.range (len a)).map (g a)) (c : Fin M → Fld n ℝ),
    l.foldl (fun c q => addBlocks (mono q) 0 (conc q) c) c i x =
      c i x + (l.map (fun a => ∑ k : Fin (len a), if i = mono a k then g a k x else 0)).sum
  | [], _, c => by simp
  | a :: l, h, c => by
    rw [List.foldl_cons, foldl_blocks mono conc len g i x l (fun b hb => h b (by simp [hb])),
      h a (by simp), List.range_eq_range', addBlocks_eq, ← List.range_eq_range', sum_range_fin]
    simp [add_assoc]

theorem foldl_addTo {α : Type} (mono : α → Fin M) (g : α → Fld n ℝ) (i : Fin M) (x : Fin n) :
    ∀ (l : List α) (c : Fin M → Fld n ℝ),
    l.foldl (fun c q => addTo c (mono q) (g q)) c i x =
      c i x + (l.map (fun a => if i = mono a then g a x else 0)).sum
  | [], c => by simp
  | a :: l, c => by
    rw [List.foldl_cons, foldl_addTo mono g i x l, List.map_cons, List.sum_cons]
    unfold addTo
    split <;> simp [*, add_assoc]

/-- A polymer accepted by the reader: block sizes as `C52` gives them, and a statistical ensemble
as set by `Species::readParameters`. -/
structure PolySpec.Ok (bead : Bool) (p : PolySpec M) : Prop where
  read : ∃ fuel, readTopology p.es fuel = some (.ok p.poly)
  ne : p.es ≠ []
  thread : bead = false → ∀ k, ∃ j, 1 ≤ j ∧ p.ns k = 2 * j + 1
  beads : bead = true → ∀ k, 3 ≤ p.ns k
  total : p.total ≠ 0
  ens : p.species.ens ≠ .unknown

/-- Same for a solvent. -/
structure SolvSpec.Ok (s : SolvSpec M) : Prop where
  size : s.size ≠ 0
  ens : s.species.ens ≠ .unknown

theorem PolySpec.Ok.polyOk {bead : Bool} {p : PolySpec M} (h : p.Ok bead) (kuhn : Fin M → ℝ)
    (w : Fin M → Fld n ℝ) (ksq : Half N → ℝ) :
    ∃ fuel, PolyOk (dftKin en) bead (p.blk bead kuhn w ksq) p.es fuel p.poly := by
  obtain ⟨fuel, hr⟩ := h.read
  refine ⟨fuel, hr, dft_selfAdjoint en, fun hb k _ => h.thread hb k, fun hb k _ =>
    ⟨h.beads hb k, fun i => ?_⟩⟩
  subst hb
  simp only [PolySpec.blk, realBlock, if_true, beadArrays]
  exact mul_one_div_cancel (Real.exp_pos _).ne'

/-- What `PolySpec.compute` returns. -/
structure IsPoly (p : PolySpec M) (bead : Bool) (kuhn : Fin M → ℝ) (w : Fin M → Fld n ℝ)
    (ksq : Half N → ℝ) (phiTot : ℝ) (o : PolyOut n) (cs : Nat → Fld n ℝ) : Prop where
  solve : polymerSolve (dftKin en) bead (p.blk bead kuhn w ksq) p.es p.poly.vertices p.poly.plan
    phiTot = .ok (o.st, o.Q)
  set : p.species.setQ o.Q = .ok o.species
  block : ∀ k, k < p.es.length →
    blockConc bead (p.blk bead kuhn w ksq) o.st o.species.phi o.Q p.total k = some (cs k)
  conc : o.conc = (List.range p.es.length).map cs

theorem setQ_ok (s : Species) (q : ℝ) : ∃ r, s.setQ q = .ok r := by
  unfold Species.setQ
  cases s.ens <;> exact ⟨_, rfl⟩

theorem PolySpec.Ok.compute {bead : Bool} {p : PolySpec M} (h : p.Ok bead) (kuhn : Fin M → ℝ)
    (w : Fin M → Fld n ℝ) (ksq : Half N → ℝ) (phiTot : ℝ) :
    ∃ o cs, p.compute en bead kuhn w ksq phiTot = .ok o ∧
      IsPoly en p bead kuhn w ksq phiTot o cs := by
  obtain ⟨fuel, hP⟩ := h.polyOk en kuhn w ksq
  obtain ⟨st, Q, hs⟩ := C53_solve_succeeds hP h.ne phiTot
  obtain ⟨s, hq⟩ := setQ_ok p.species Q
  obtain ⟨hd, _⟩ := polymerSolve_inv hP h.ne hs
  obtain ⟨_, _, hv⟩ := plan_facts hP
  have hb : ∀ k, ∃ c, k < p.es.length →
      blockConc bead (p.blk bead kuhn w ksq) st s.phi Q p.total k = some c := by
    intro k
    by_cases hk : k < p.es.length
    · unfold blockConc
      rw [st_eq hd ((hv.complete (k, false)).2 hk), st_eq hd ((hv.complete (k, true)).2 hk)]
      exact ⟨_, fun _ => rfl⟩
    · exact ⟨fun _ => 0, fun h => absurd h hk⟩
  choose cs hcs using hb
  refine ⟨⟨st, Q, s, (List.range p.es.length).map cs⟩, cs, ?_, hs, hq, hcs, rfl⟩
  unfold PolySpec.compute
  simp only [hs, okBind, hq]
  rw [runAll_ok (g := cs) (fun k hk => by rw [hcs k (List.mem_range.1 hk)]), okBind]

/-- What `SolvSpec.compute` returns. -/
structure IsSolv (s : SolvSpec M) (w : Fin M → Fld n ℝ) (phiTot : ℝ) (o : SolvOut n) : Prop where
  set : s.species.setQ ((∑ i, Real.exp (-s.size * w s.mono i)) / n / phiTot) = .ok o.species
  conc : ∀ i, o.conc i = Real.exp (-s.size * w s.mono i) *
    (o.species.phi / ((∑ i, Real.exp (-s.size * w s.mono i)) / n / phiTot))

theorem SolvSpec.compute_ok (s : SolvSpec M) (w : Fin M → Fld n ℝ) (phiTot : ℝ) :
    ∃ o, s.compute w phiTot = .ok o ∧ IsSolv s w phiTot o := by
  obtain ⟨r, hr⟩ := setQ_ok s.species ((∑ i, Real.exp (-s.size * w s.mono i)) / n / phiTot)
  refine ⟨⟨r, fun i => Real.exp (-s.size * w s.mono i) *
    (r.phi / ((∑ i, Real.exp (-s.size * w s.mono i)) / n / phiTot))⟩, ?_, hr, fun i => rfl⟩
  unfold SolvSpec.compute
  simp only [accum_eq, zero_add, hr, okBind]

/-- A mixture accepted by the reader. -/
structure Mixture.Ok (bead : Bool) (x : Mixture M) : Prop where
  polymers : ∀ p ∈ x.polymers, p.Ok bead
  solvents : ∀ s ∈ x.solvents, s.Ok

/-- What `Mixture.compute` returns. -/
structure IsMix (x : Mixture M) (bead : Bool) (w : Fin M → Fld n ℝ) (ksq : Half N → ℝ) (phiTot : ℝ)
    (o : MixOut M n) (gp : PolySpec M → PolyOut n) (cs : PolySpec M → Nat → Fld n ℝ)
    (gs : SolvSpec M → SolvOut n) : Prop where
  poly : ∀ p ∈ x.polymers, IsPoly en p bead x.kuhn w ksq phiTot (gp p) (cs p)
  solv : ∀ s ∈ x.solvents, IsSolv s w phiTot (gs s)
  polys : o.polys = x.polymers.map gp
  solvs : o.solvs = x.solvents.map gs
  c : ∀ i y, o.c i y = (x.polymers.map (fun p => ∑ k : Fin p.es.length,
      if i = p.mono k then cs p k y else 0)).sum +
    (x.solvents.map (fun s => if i = s.mono then (gs s).conc y else 0)).sum

instance : Nonempty (PolyOut n) := ⟨⟨fun _ => none, 0, ⟨0, 0, 0, .closed⟩, []⟩⟩
instance : Nonempty (SolvOut n) := ⟨⟨⟨0, 0, 0, .closed⟩, fun _ => 0⟩⟩

theorem Mixture.Ok.compute {bead : Bool} {x : Mixture M} (h : x.Ok bead)
    (w : Fin M → Fld n ℝ) (ksq : Half N → ℝ) (phiTot : ℝ) :
    ∃ o gp cs gs, x.compute en bead w ksq phiTot = .ok o ∧
      IsMix en x bead w ksq phiTot o gp cs gs := by
  have hp : ∀ p, ∃ (o : PolyOut n) (cs : Nat → Fld n ℝ), p ∈ x.polymers →
      p.compute en bead x.kuhn w ksq phiTot = .ok o ∧
      IsPoly en p bead x.kuhn w ksq phiTot o cs := by
    intro p
    by_cases hm : p ∈ x.polymers
    · obtain ⟨o, cs, h1, h2⟩ := (h.polymers p hm).compute en x.kuhn w ksq phiTot
      exact ⟨o, cs, fun _ => ⟨h1, h2⟩⟩
    · exact ⟨Classical.arbitrary _, fun _ _ => 0, fun h => absurd h hm⟩
  choose gp cs hp using hp
  choose gs hs1 hs2 using fun s : SolvSpec M => s.compute_ok w phiTot
  refine ⟨⟨x.polymers.map gp, x.solvents.map gs, (x.solvents.zip (x.solvents.map gs)).foldl
    (fun c q => addTo c q.1.mono q.2.conc) ((x.polymers.zip (x.polymers.map gp)).foldl
      (fun c q => addBlocks q.1.mono 0 q.2.conc c) (fun _ _ => 0))⟩, gp, cs, gs, ?_,
    fun p hm => (hp p hm).2, fun s _ => hs2 s, rfl, rfl, ?_⟩
  · unfold Mixture.compute
    rw [runAll_ok (g := gp) (fun p hm => (hp p hm).1), okBind,
      runAll_ok (g := gs) (fun s _ => hs1 s), okBind]
  · intro i y
    dsimp only
    rw [zip_map, zip_map, foldl_addTo (fun q : SolvSpec M × SolvOut n => q.1.mono)
      (fun q => q.2.conc), foldl_blocks (fun q : PolySpec M × PolyOut n => q.1.mono)
      (fun q => q.2.conc) (fun q => q.1.es.length) (fun q => cs q.1) i y _ (by
        intro a ha
        obtain ⟨p, hm, rfl⟩ := List.mem_map.1 ha
        exact (hp p hm).2.conc), List.map_map, List.map_map, zero_add]
    rfl

end Verif.Solver
