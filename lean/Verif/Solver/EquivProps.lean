import Verif.Solver.EquivMesh
import Verif.Solver.MixtureProps

/-!
# C113: solutions in transformed and in symmetric fields

If the chemical potential fields are moved by a translation of the mesh, or by an operation of the
space group of the unit cell, then all computed concentrations are moved in the same way, while
partition functions, volume fractions, chemical potentials and free energies do not change. In
particular concentrations computed in symmetric fields are symmetric.

Sources: `/repo/src/rpc/solvers/{Block,Propagator,Polymer,Solvent}.tpp`,
`/repo/src/prdc/solvers/MixturePrdc.tpp`, `/repo/src/prdc/system/ScftThermoTmpl.tpp`.
-/

set_option autoImplicit false
set_option linter.unusedSectionVars false

namespace Verif.Solver

open Verif.Chem
open Verif.Crystal (Sym)
open Verif.Stars (GroupOn Compat)

section Poly

variable {K : Type} [Field K] {n : Nat} {κ : Type} {kin : Kin K n κ} {σ : Equiv.Perm (Fin n)}
variable {bead : Bool} {blk blk' : Nat → BlockData K n κ} {es : List Edge} {vs : List Vertex}

theorem blockConc_tr (h : ∀ k, Transformed kin σ (blk k) (blk' k)) (st : Pid → Option (Nat → Fld n K))
    (phi Q total : K) (k : Nat) :
    blockConc bead blk' (trSt σ st) phi Q total k = (blockConc bead blk st phi Q total k).map (tr σ) := by
  unfold blockConc trSt
  cases st (k, false) with
  | none => rfl
  | some q =>
    cases st (k, true) with
    | none => rfl
    | some q' =>
      simp only [Option.map_some]
      rw [(h k).ns, (h k).ds]
      cases bead
      · rfl
      · simp only [if_true]
        unfold concBead
        rw [(h k).expWInv]
        rfl

/-- **C113**, polymers: in transformed fields all propagators are transformed and the partition
function is the same. -/
theorem C113_polymer (h : ∀ k, Transformed kin σ (blk k) (blk' k)) {plan : List Pid} {phiTot : K}
    {r : (Pid → Option (Nat → Fld n K)) × K}
    (hr : polymerSolve kin bead blk es vs plan phiTot = .ok r) :
    polymerSolve kin bead blk' es vs plan phiTot = .ok (trSt σ r.1, r.2) := by
  unfold polymerSolve at hr ⊢
  obtain ⟨st, h1, h2⟩ := Res.bind_eq_ok.1 hr
  have h3 := solvePlan_tr (bead := bead) (es := es) (vs := vs) h plan _ _ h1
  have e0 : trSt σ (fun _ => (none : Option (Nat → Fld n K))) = fun _ => none := rfl
  rw [e0] at h3
  rw [h3]
  show (match trSt σ st (0, false), trSt σ st (0, true) with
    | some q, some q' => Res.ok (trSt σ st, computeQ bead (headEnd es vs (0, false)) (blk' 0).ns q q' / phiTot)
    | _, _ => .throw) = _
  unfold trSt
  cases e1 : st (0, false) with
  | none => rw [e1] at h2; cases h2
  | some q =>
    cases e2 : st (0, true) with
    | none => rw [e1, e2] at h2; cases h2
    | some q' =>
      rw [e1, e2] at h2
      simp only [Res.ok.injEq] at h2
      subst h2
      simp only [Option.map_some]
      rw [(h 0).ns, computeQ_tr]

end Poly

section Mix

variable {m : Nat} {N : Fin (m + 1) → Nat} [∀ d, NeZero (N d)] {n M : Nat}
variable {en : Fin n ≃ Grid N} {σ : Equiv.Perm (Fin n)} {ksq : Half N → ℝ}

/-- The permutation of grid points commutes with all functions of the Laplacian. -/
def Symmetry (en : Fin n ≃ Grid N) (ksq : Half N → ℝ) (σ : Equiv.Perm (Fin n)) : Prop :=
  ∀ g : ℝ → ℝ, Commutes (dftKin en) σ (fun k => g (ksq k))

theorem transformed (hσ : Symmetry en ksq σ) (bead : Bool) (w : Fld n ℝ) (ns : Nat) (ds kuhn : ℝ) :
    Transformed (dftKin en) σ (realBlock bead w ns ds kuhn ksq) (realBlock bead (tr σ w) ns ds kuhn ksq) := by
  unfold realBlock
  cases bead
  · exact ⟨rfl, rfl, rfl, rfl, rfl, rfl, rfl, hσ fun x => Real.exp (x * (-1 * kuhn * kuhn / 6 * ds)),
      hσ fun x => Real.exp (1 / 2 * (x * (-1 * kuhn * kuhn / 6 * ds)))⟩
  · exact ⟨rfl, rfl, rfl, rfl, rfl, rfl, rfl, hσ fun x => Real.exp (x * (-1 * kuhn * kuhn / 6)),
      hσ fun x => Real.exp (1 / 2 * (x * (-1 * kuhn * kuhn / 6)))⟩

/-- State of a polymer after the transformation. -/
def PolyOut.tr (σ : Equiv.Perm (Fin n)) (o : PolyOut n) : PolyOut n :=
  ⟨trSt σ o.st, o.Q, o.species, o.conc.map (Solver.tr σ)⟩

/-- State of a solvent after the transformation. -/
def SolvOut.tr (σ : Equiv.Perm (Fin n)) (o : SolvOut n) : SolvOut n := ⟨o.species, Solver.tr σ o.conc⟩

/-- State of the mixture after the transformation. -/
def MixOut.tr (σ : Equiv.Perm (Fin n)) (o : MixOut M n) : MixOut M n :=
  ⟨o.polys.map (PolyOut.tr σ), o.solvs.map (SolvOut.tr σ), fun i => Solver.tr σ (o.c i)⟩

/-- Fields after the transformation. -/
def trF (σ : Equiv.Perm (Fin n)) (w : Fin M → Fld n ℝ) : Fin M → Fld n ℝ := fun i => tr σ (w i)

theorem runAll_tr {α β : Type} {f g : α → Res β} {t : β → β} (h : ∀ a b, f a = .ok b → g a = .ok (t b)) :
    ∀ (l : List α) (r : List β), runAll f l = .ok r → runAll g l = .ok (r.map t) := by
  intro l
  induction l with
  | nil => intro r hr; cases hr; rfl
  | cons a l ih =>
    intro r hr
    obtain ⟨b, h1, h2⟩ := Res.bind_eq_ok.1 hr
    obtain ⟨r', h3, h4⟩ := Res.bind_eq_ok.1 h2
    cases h4
    rw [runAll, h a b h1, okBind, ih r' h3, okBind]
    rfl

theorem poly_tr (hσ : Symmetry en ksq σ) (p : PolySpec M) (bead : Bool) (kuhn : Fin M → ℝ) (w : Fin M → Fld n ℝ)
    (phiTot : ℝ) (o : PolyOut n) (h : p.compute en bead kuhn w ksq phiTot = .ok o) :
    p.compute en bead kuhn (trF σ w) ksq phiTot = .ok (o.tr σ) := by
  unfold PolySpec.compute at h ⊢
  obtain ⟨r, h1, h2⟩ := Res.bind_eq_ok.1 h
  obtain ⟨s, h3, h4⟩ := Res.bind_eq_ok.1 h2
  obtain ⟨cs, h5, h6⟩ := Res.bind_eq_ok.1 h4
  cases h6
  have ht : ∀ k, Transformed (dftKin en) σ (p.blk bead kuhn w ksq k) (p.blk bead kuhn (trF σ w) ksq k) :=
    fun k => transformed hσ bead (w (p.mono k)) (p.ns k) (p.ds k) (kuhn (p.mono k))
  dsimp only
  rw [C113_polymer ht h1, okBind]
  dsimp only
  rw [h3, okBind]
  have key := runAll_tr (g := fun k => match blockConc bead (p.blk bead kuhn (trF σ w) ksq) (trSt σ r.1) s.phi r.2
      p.total k with
    | none => Res.throw
    | some c => .ok c) (t := tr σ) (fun k b hk => by
      rw [blockConc_tr ht]
      revert hk
      cases blockConc bead (p.blk bead kuhn w ksq) r.1 s.phi r.2 p.total k with
      | none => intro hk; cases hk
      | some c => intro hk; cases hk; rfl) _ _ h5
  exact (congrArg (fun r => Res.bind r _) key).trans rfl

theorem solv_tr (s : SolvSpec M) (w : Fin M → Fld n ℝ) (phiTot : ℝ) (o : SolvOut n)
    (h : s.compute w phiTot = .ok o) : s.compute (trF σ w) phiTot = .ok (o.tr σ) := by
  unfold SolvSpec.compute at h ⊢
  dsimp only at h ⊢
  have e : accum n (fun i => Real.exp (-s.size * trF σ w s.mono i)) 0 =
      accum n (fun i => Real.exp (-s.size * w s.mono i)) 0 :=
    accum_tr (σ := σ) fun i => Real.exp (-s.size * w s.mono i)
  rw [e]
  obtain ⟨r, h1, h2⟩ := Res.bind_eq_ok.1 h
  cases h2
  rw [h1, okBind]
  rfl

theorem addTo_tr (c : Fin M → Fld n ℝ) (i : Fin M) (b : Fld n ℝ) :
    addTo (trF σ c) i (tr σ b) = trF σ (addTo c i b) := rfl

theorem addBlocks_tr (mono : Nat → Fin M) : ∀ (bs : List (Fld n ℝ)) (k : Nat) (c : Fin M → Fld n ℝ),
    addBlocks mono k (bs.map (tr σ)) (trF σ c) = trF σ (addBlocks mono k bs c)
  | [], _, _ => rfl
  | b :: bs, k, c => by
    rw [List.map_cons, addBlocks, addTo_tr, addBlocks_tr mono bs]; rfl

theorem foldl_tr {α β : Type} (t : β → β) (f : (Fin M → Fld n ℝ) → α × β → Fin M → Fld n ℝ)
    (h : ∀ c a b, f (trF σ c) (a, t b) = trF σ (f c (a, b))) : ∀ (l : List α) (r : List β) (c : Fin M → Fld n ℝ),
    (l.zip (r.map t)).foldl f (trF σ c) = trF σ ((l.zip r).foldl f c)
  | [], _, _ => by simp
  | _ :: _, [], _ => by simp
  | a :: l, b :: r, c => by
    simp only [List.map_cons, List.zip_cons_cons, List.foldl_cons]
    rw [h, foldl_tr t f h l r]

/-- **C113**, mixtures: in transformed fields the state of the mixture is transformed: all
concentrations and propagators are moved, partition functions, volume fractions and chemical
potentials are the same. -/
theorem C113_mixture (hσ : Symmetry en ksq σ) (x : Mixture M) (bead : Bool) (w : Fin M → Fld n ℝ) (phiTot : ℝ)
    (o : MixOut M n) (h : x.compute en bead w ksq phiTot = .ok o) :
    x.compute en bead (fun i => tr σ (w i)) ksq phiTot = .ok (o.tr σ) := by
  show x.compute en bead (trF σ w) ksq phiTot = _
  unfold Mixture.compute at h ⊢
  obtain ⟨ps, h1, h2⟩ := Res.bind_eq_ok.1 h
  obtain ⟨ss, h3, h4⟩ := Res.bind_eq_ok.1 h2
  cases h4
  rw [runAll_tr (t := PolyOut.tr σ) (fun p o hp => poly_tr hσ p bead x.kuhn w phiTot o hp) _ _ h1, okBind]
  dsimp only
  rw [runAll_tr (t := SolvOut.tr σ) (fun s o hs => solv_tr s w phiTot o hs) _ _ h3, okBind]
  unfold MixOut.tr
  congr 2
  have e1 := foldl_tr (σ := σ) (PolyOut.tr σ)
    (fun (c : Fin M → Fld n ℝ) (q : PolySpec M × PolyOut n) => addBlocks q.1.mono 0 q.2.conc c)
    (fun c a b => addBlocks_tr a.mono b.conc 0 c) x.polymers ps (fun _ _ => 0)
  have e0 : trF σ (fun (_ : Fin M) (_ : Fin n) => (0 : ℝ)) = fun _ _ => 0 := rfl
  rw [e0] at e1
  rw [e1]
  exact foldl_tr (σ := σ) (SolvOut.tr σ)
    (fun (c : Fin M → Fld n ℝ) (q : SolvSpec M × SolvOut n) => addTo c q.1.mono q.2.conc)
    (fun c a b => rfl) x.solvents ss _

/-- **C113**, symmetric fields: concentrations computed in invariant fields are invariant. -/
theorem C113_symmetric (hσ : Symmetry en ksq σ) (x : Mixture M) (bead : Bool) (w : Fin M → Fld n ℝ) (phiTot : ℝ)
    (hw : ∀ j i, w j (σ i) = w j i) (o : MixOut M n) (h : x.compute en bead w ksq phiTot = .ok o) :
    ∀ j i, o.c j (σ i) = o.c j i := by
  have h1 := C113_mixture hσ x bead w phiTot o h
  have e : (fun j => tr σ (w j)) = w := by
    funext j i; exact hw j i
  rw [e, h] at h1
  intro j i
  have h2 : o = o.tr σ := by injection h1
  have h3 : o.c j i = (o.tr σ).c j i := by rw [← h2]
  exact h3.symm

/-! ## Thermodynamics -/

theorem inner_tr (a b : Fld n ℝ) : Thermo.inner (tr σ a) (tr σ b) = Thermo.inner a b :=
  accum_tr (σ := σ) fun i => a i * b i

theorem specs_tr (x : Mixture M) (o : MixOut M n) : x.specs (o.tr σ) = x.specs o := by
  unfold Mixture.specs MixOut.tr
  congr 1
  · rw [List.zip_map_right, List.map_map]; rfl
  · rw [List.zip_map_right, List.map_map]; rfl

/-- **C113**, thermodynamics: free energy and pressure are the same in transformed fields. -/
theorem C113_free_energy (x : Mixture M) (chi : Fin M → Fin M → ℝ) (hf : Option (Fin M → Fld n ℝ))
    (w : Fin M → Fld n ℝ) (phiTot : ℝ) (o : MixOut M n) (σ : Equiv.Perm (Fin n)) :
    Thermo.fHelmholtz (x.thermo chi (hf.map fun f i => tr σ (f i)) (fun i => tr σ (w i)) phiTot (o.tr σ)) =
      Thermo.fHelmholtz (x.thermo chi hf w phiTot o) ∧
    Thermo.pressure (x.thermo chi (hf.map fun f i => tr σ (f i)) (fun i => tr σ (w i)) phiTot (o.tr σ)) =
      Thermo.pressure (x.thermo chi hf w phiTot o) := by
  have e : Thermo.fHelmholtz (x.thermo chi (hf.map fun f i => tr σ (f i)) (fun i => tr σ (w i)) phiTot (o.tr σ)) =
      Thermo.fHelmholtz (x.thermo chi hf w phiTot o) := by
    unfold Thermo.fHelmholtz Thermo.fIdeal Thermo.fExt Thermo.fInter Mixture.thermo
    dsimp only
    rw [specs_tr]
    have e1 : ∀ a b : Fin M, Thermo.inner ((o.tr σ).c a) ((o.tr σ).c b) = Thermo.inner (o.c a) (o.c b) :=
      fun a b => inner_tr (o.c a) (o.c b)
    have e2 : ∀ a : Fin M, Thermo.inner (tr σ (w a)) ((o.tr σ).c a) = Thermo.inner (w a) (o.c a) :=
      fun a => inner_tr (w a) (o.c a)
    simp only [e1, e2]
    cases hf with
    | none => rfl
    | some f =>
      have e3 : ∀ a : Fin M, Thermo.inner (tr σ (f a)) ((o.tr σ).c a) = Thermo.inner (f a) (o.c a) :=
        fun a => inner_tr (f a) (o.c a)
      simp only [Option.map_some, e3]
  refine ⟨e, ?_⟩
  unfold Thermo.pressure
  rw [e]
  congr 1
  exact specs_tr x o

/-- Self-consistency and incompressibility on the grid. -/
def SelfConsistent (chi : Fin M → Fin M → ℝ) (hf : Fin M → Fld n ℝ) (phiTot : ℝ) (w c : Fin M → Fld n ℝ)
    (ξ : Fld n ℝ) : Prop :=
  (∀ j i, w j i = ∑ a, chi j a * c a i + hf j i + ξ i) ∧ ∀ i, ∑ a, c a i = phiTot

/-- **C113**, solutions: the image of a solution is a solution, with the same free energy, if the
external fields are invariant. -/
theorem C113_solution (hσ : Symmetry en ksq σ) (x : Mixture M) (bead : Bool) (chi : Fin M → Fin M → ℝ)
    (hf : Fin M → Fld n ℝ) (hinv : ∀ j i, hf j (σ i) = hf j i) (w : Fin M → Fld n ℝ) (phiTot : ℝ) (ξ : Fld n ℝ)
    (o : MixOut M n) (h : x.compute en bead w ksq phiTot = .ok o) (hs : SelfConsistent chi hf phiTot w o.c ξ) :
    ∃ o', x.compute en bead (fun j i => w j (σ i)) ksq phiTot = .ok o' ∧
      SelfConsistent chi hf phiTot (fun j i => w j (σ i)) o'.c (fun i => ξ (σ i)) ∧
      Thermo.fHelmholtz (x.thermo chi (some hf) (fun j i => w j (σ i)) phiTot o') =
        Thermo.fHelmholtz (x.thermo chi (some hf) w phiTot o) := by
  refine ⟨o.tr σ, C113_mixture hσ x bead w phiTot o h, ⟨fun j i => ?_, fun i => hs.2 (σ i)⟩, ?_⟩
  · rw [← hinv j i]; exact hs.1 j (σ i)
  · have h1 := (C113_free_energy x chi (some hf) w phiTot o σ).1
    have e : (some hf).map (fun f i => tr σ (f i)) = some hf := by
      rw [Option.map_some]; congr 1; funext j i; exact hinv j i
    rw [e] at h1
    exact h1

/-! ## Translations and space groups -/

/-- **C113**: translations by mesh vectors are symmetries in every cell. -/
theorem C113_translation (t : Grid N) (hσ : ∀ i, en (σ i) = en i + t) : Symmetry en ksq σ :=
  fun g => commutes_translation en t hσ fun k => g (ksq k)

/-- **C113**: the operations of a space group that leaves the lengths of waves unchanged are
symmetries; `ksq` is the squared length of the shortest alias of a wave (`WaveList::computeKSq` with
the images of `shiftToMinimum`, C39). -/
theorem C113_space_group {l : List (Sym (m + 1))} (G : GroupOn (fun d => (N d : ℤ)) l) {A : Sym (m + 1)}
    (hA : A ∈ l) {kn : (Fin (m + 1) → ℤ) → ℝ} (hkn : ∀ u, kn (Sym.vecMul u A) = kn u)
    (hneg : ∀ u, kn (fun d => - u d) = kn u) (hs : Shortest kn ksq) (hσ : OnGrid en A σ) : Symmetry en ksq σ :=
  fun g => commutes_group G hA hkn hneg hs en hσ g

/-- **C113**: each operation of a group compatible with the mesh is a permutation of its points. -/
theorem C113_operation_permutes {l : List (Sym (m + 1))} (G : GroupOn (fun d => (N d : ℤ)) l) {A : Sym (m + 1)}
    (hA : A ∈ l) (en : Fin n ≃ Grid N) : ∃ σ : Equiv.Perm (Fin n), OnGrid en A σ :=
  onGrid_exists G hA en

/-- **C113**: fields invariant under a space group give concentrations invariant under the space
group, for any mixture and any number of grid points. -/
theorem C113_space_group_symmetric {l : List (Sym (m + 1))} (G : GroupOn (fun d => (N d : ℤ)) l)
    {kn : (Fin (m + 1) → ℤ) → ℝ} (hkn : ∀ A ∈ l, ∀ u, kn (Sym.vecMul u A) = kn u)
    (hneg : ∀ u, kn (fun d => - u d) = kn u) (hs : Shortest kn ksq) (x : Mixture M) (bead : Bool)
    (w : Fin M → Fld n ℝ) (phiTot : ℝ)
    (hw : ∀ A ∈ l, ∀ i i' z, IsImage N A (rep (en i)) z → en i' = res N z → ∀ j, w j i' = w j i)
    (o : MixOut M n) (h : x.compute en bead w ksq phiTot = .ok o) :
    ∀ A ∈ l, ∀ i i' z, IsImage N A (rep (en i)) z → en i' = res N z → ∀ j, o.c j i' = o.c j i := by
  intro A hA i i' z hz e j
  obtain ⟨σ, hσ⟩ := onGrid_exists G hA en
  have hsym : Symmetry en ksq σ := C113_space_group G hA (hkn A hA) hneg hs hσ
  have hw' : ∀ j i, w j (σ i) = w j i := fun j i => by
    obtain ⟨z, hz, e⟩ := hσ i
    exact hw A hA i (σ i) z hz e j
  have key := C113_symmetric hsym x bead w phiTot hw' o h j i
  have : σ i = i' := by
    obtain ⟨z', hz', e'⟩ := hσ i
    apply en.injective
    rw [e, e']
    have : z' = z := by
      funext d
      have h1 := (hz' d).symm.trans (hz d)
      have hN : (N d : ℚ) ≠ 0 := by exact_mod_cast NeZero.ne (N d)
      rw [div_left_inj' hN] at h1
      exact_mod_cast h1
    rw [this]
  rw [← this]
  exact key

/-- Phase of a wave at the image of a mesh point. -/
theorem wave_image {A : Sym (m + 1)} {x z : Fin (m + 1) → ℤ} (h : IsImage N A x z) (v : Fin (m + 1) → ℤ) :
    wave (res N v) (res N z) = Stars.ex (Stars.dot v A.t) * wave (res N (Sym.vecMul v A)) (res N x) := by
  rw [wave_int, wave_int]
  unfold Stars.ex
  rw [← Complex.exp_add, ← mul_add, ← Rat.cast_sum, ← Rat.cast_sum, ← Rat.cast_add]
  congr 3
  unfold Stars.dot
  have h1 : ∀ d, (v d : ℚ) * z d / N d = v d * A.t d + ∑ e, (v d : ℚ) * A.R d e * (x e / N e) := by
    intro d
    rw [mul_div_assoc, ← h d, mul_add, Finset.mul_sum]
    congr 1
    exact Finset.sum_congr rfl fun e _ => by ring
  simp only [h1]
  rw [Finset.sum_add_distrib]
  congr 1
  rw [Finset.sum_comm]
  refine Finset.sum_congr rfl fun e _ => ?_
  rw [Stars.vecMul_apply]
  push_cast
  rw [Finset.sum_mul, Finset.sum_div]
  exact Finset.sum_congr rfl fun d _ => by ring

/-- **C113**, Fourier coefficients of invariant fields: waves related by an operation have related
coefficients, so that the results on stars (`C76_cancelled_vanish`, `C76_determined_by_root`) apply. -/
theorem C113_coefficients {l : List (Sym (m + 1))} (G : GroupOn (fun d => (N d : ℤ)) l) (en : Fin n ≃ Grid N)
    (f : Fld n ℝ) (hf : ∀ A ∈ l, ∀ i i' z, IsImage N A (rep (en i)) z → en i' = res N z → f i' = f i) :
    Stars.Invariant (fun d => (N d : ℤ)) l (fun v => coef en f (res N v)) := by
  constructor
  · intro v v' h
    rw [Stars.sh_iff G.pos] at h
    have : res N v' = res N v := res_eq.2 h
    rw [this]
  · intro A hA v
    obtain ⟨σ, hσ⟩ := onGrid_exists G hA en
    have e1 : coef en f (res N v) = (starRingEnd ℂ) (Stars.ex (Stars.dot v A.t)) *
        coef en f (res N (Sym.vecMul v A)) := by
      unfold coef
      rw [← Equiv.sum_comp σ, ← mul_assoc, Finset.mul_sum]
      congr 1
      refine Finset.sum_congr rfl fun i _ => ?_
      obtain ⟨z, hz, e⟩ := hσ i
      rw [hf A hA i (σ i) z hz e, e, wave_image hz, map_mul, res_rep]
      ring
    rw [e1, ← mul_assoc]
    have : Stars.ex (Stars.dot v A.t) * (starRingEnd ℂ) (Stars.ex (Stars.dot v A.t)) = 1 := by
      rw [Complex.mul_conj, Complex.normSq_eq_norm_sq]
      unfold Stars.ex
      have : 2 * (Real.pi : ℂ) * Complex.I * ((Stars.dot v A.t : ℚ) : ℂ) =
          ((2 * Real.pi * (Stars.dot v A.t : ℝ) : ℝ) : ℂ) * Complex.I := by push_cast; ring
      rw [this, Complex.norm_exp_ofReal_mul_I]
      norm_num
    rw [this, one_mul]

/-- **C113**: computed concentrations have no component on cancelled stars, and in each other star
all coefficients are determined by that of the root. -/
theorem C113_stars {E : Stars.StarEnv (m + 1)} (hE : E.dims = fun d => (N d : ℤ))
    (G : GroupOn E.dims E.group) (htol : 0 ≤ E.tol)
    {kn : (Fin (m + 1) → ℤ) → ℝ} (hkn : ∀ A ∈ E.group, ∀ u, kn (Sym.vecMul u A) = kn u)
    (hneg : ∀ u, kn (fun d => - u d) = kn u) (hs : Shortest kn ksq) (x : Mixture M) (bead : Bool)
    (w : Fin M → Fld n ℝ) (phiTot : ℝ)
    (hw : ∀ A ∈ E.group, ∀ i i' z, IsImage N A (rep (en i)) z → en i' = res N z → ∀ j, w j i' = w j i)
    (o : MixOut M n) (h : x.compute en bead w ksq phiTot = .ok o) {root : Stars.TWave (m + 1)}
    {st : Stars.StarState (m + 1)} (hroot : root.dft = Stars.sh E.dims root.bz)
    (hst : Stars.buildStar E root = .ok st) (j : Fin M) (tw : Stars.TWave (m + 1)) (htw : tw ∈ st.star)
    (v : Fin (m + 1) → ℤ) (hv : tw.dft = Stars.sh E.dims v) :
    (st.cancel = true → coef en (o.c j) (res N v) = 0) ∧
    coef en (o.c j) (res N v) = Stars.ex tw.phase * coef en (o.c j) (res N root.bz) := by
  have G' : GroupOn (fun d => (N d : ℤ)) E.group := hE ▸ G
  have hc := C113_space_group_symmetric G' hkn hneg hs x bead w phiTot hw o h
  have hI := C113_coefficients G' en (o.c j) (fun A hA i i' z h1 h2 => hc A hA i i' z h1 h2 j)
  rw [← hE] at hI
  exact ⟨fun hcan => Stars.C76_cancelled_vanish G htol hroot hst hcan hI tw htw v hv,
    Stars.C76_determined_by_root htol hst hI tw htw v hv⟩

/-! ## Examples -/

/-- The shortest aliases exist for a length with integer values. -/
theorem shortest_exists (f : (Fin (m + 1) → ℤ) → ℕ) : ∃ ksq : Half N → ℝ, Shortest (fun v => (f v : ℝ)) ksq := by
  classical
  have h : ∀ k : Half N, ∃ x, ∃ v, res N v = k.1 ∧ x = f v := fun k => ⟨_, rep k.1, res_rep _, rfl⟩
  refine ⟨fun k => (Nat.find (h k) : ℝ), fun k => ⟨?_, ?_⟩⟩
  · obtain ⟨v, hv, e⟩ := Nat.find_spec (h k)
    exact ⟨v, hv, congrArg _ e⟩
  · rintro _ ⟨v, hv, rfl⟩
    exact Nat.cast_le.2 (Nat.find_min' (h k) ⟨v, hv, rfl⟩)

/-- Squared length in a square cell. -/
def exLen (v : Fin 2 → ℤ) : ℕ := (v 0).natAbs ^ 2 + (v 1).natAbs ^ 2

/-- Glide reflection on a 4 × 4 mesh: the operation moves every grid point, and the hypotheses of
`C113_space_group_symmetric` about the group and the cell hold. -/
example (en : Fin 16 ≃ Grid (fun _ : Fin (1 + 1) => 4)) :
    GroupOn (fun d : Fin 2 => (((fun _ => 4) d : ℕ) : ℤ)) Stars.exE.group ∧
    (∀ A ∈ Stars.exE.group, ∀ u, exLen (Sym.vecMul u A) = exLen u) ∧
    (∀ u, exLen (fun d => - u d) = exLen u) ∧
    (∃ ksq : Half (fun _ : Fin (1 + 1) => 4) → ℝ, Shortest (fun v => (exLen v : ℝ)) ksq) ∧
    ∃ σ : Equiv.Perm (Fin 16), OnGrid en Crystal.glide σ ∧ ∀ i, σ i ≠ i := by
  have hG : GroupOn (fun d : Fin 2 => (((fun _ => 4) d : ℕ) : ℤ)) Stars.exE.group := Stars.exE_group
  refine ⟨hG, ?_, ?_, shortest_exists _, ?_⟩
  · intro A hA u
    have : A = Sym.identity 2 ∨ A = Crystal.glide := by simpa [Stars.exE] using hA
    rcases this with rfl | rfl <;>
      simp [exLen, Stars.vecMul_apply, Sym.identity, Crystal.glide]
  · intro u; simp [exLen]
  · obtain ⟨σ, hσ⟩ := C113_operation_permutes hG (A := Crystal.glide) (by simp [Stars.exE]) en
    refine ⟨σ, hσ, fun i e => ?_⟩
    obtain ⟨z, hz, e'⟩ := hσ i
    rw [e] at e'
    have h0 := hz 0
    rw [Fin.sum_univ_two] at h0
    simp [Crystal.glide] at h0
    have h1 : z 0 = rep (en i) 0 + 2 := by
      have : (z 0 : ℚ) = rep (en i) 0 + 2 := by linarith
      exact_mod_cast this
    have h2 := (res_eq.1 ((res_rep (en i)).trans e')) 0
    rw [h1, add_sub_cancel_left] at h2
    revert h2
    decide

/-- A mixture with a solvent in arbitrary fields on an arbitrary mesh, moved by any mesh vector. -/
example (en : Fin n ≃ Grid N) (ksq : Half N → ℝ) (w : Fin 2 → Fld n ℝ) (t : Grid N) : ∃ P, ∃ σ : Equiv.Perm (Fin n),
    ∃ o o', readTopology dimer 2 = some (.ok P) ∧ (∀ i, en (σ i) = en i + t) ∧
      (exMix P).compute en true w ksq (1 / 2) = .ok o ∧
      (exMix P).compute en true (fun j i => w j (σ i)) ksq (1 / 2) = .ok o' ∧ ∀ j i, o'.c j i = o.c j (σ i) := by
  obtain ⟨P, hr⟩ : ∃ P, readTopology dimer 2 = some (.ok P) := ⟨_, rfl⟩
  obtain ⟨o, gp, cs, gs, ho, hI⟩ := (exMix_ok hr).compute en w ksq (1 / 2)
  have hσ : ∀ i, en ((en.trans ((Equiv.addRight t).trans en.symm)) i) = en i + t := fun i => by simp
  exact ⟨P, _, o, o.tr _, hr, hσ, ho, C113_mixture (C113_translation t hσ) (exMix P) true w (1 / 2) o ho,
    fun j i => rfl⟩

end Mix

end Verif.Solver
