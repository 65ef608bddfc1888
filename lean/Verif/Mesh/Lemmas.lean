import Verif.Mesh.Model
import Mathlib.Tactic.Ring
import Mathlib.Tactic.Linarith
import Mathlib.Tactic.LinearCombination
import Mathlib.Tactic.Positivity
import Mathlib.Algebra.Order.Ring.Int
import Mathlib.Algebra.BigOperators.Group.List.Basic

/-! Helper lemmas for the mesh model. -/

namespace Verif.Mesh

/-- All dimensions positive. -/
def Pos (dims : IntVec) : Prop := ∀ d ∈ dims, 0 < d

theorem Pos.tail {d : Int} {ds : IntVec} (h : Pos (d :: ds)) : Pos ds :=
  fun x hx => h x (List.mem_cons_of_mem _ hx)

theorem Pos.head {d : Int} {ds : IntVec} (h : Pos (d :: ds)) : 0 < d :=
  h d List.mem_cons_self

theorem prod_pos {ds : IntVec} (h : Pos ds) : 0 < ds.prod := by
  induction ds with
  | nil => simp
  | cons d ds ih =>
    rw [List.prod_cons]
    exact mul_pos h.head (ih h.tail)

theorem offsets_cons (d : Int) (ds : IntVec) : offsets (d :: ds) = ds.prod :: offsets ds := by
  induction ds generalizing d with
  | nil => simp [offsets]
  | cons e es ih =>
    rw [offsets, ih e]
    simp [mul_comm]

theorem offsets_length (ds : IntVec) : (offsets ds).length = ds.length := by
  induction ds with
  | nil => rfl
  | cons d ds ih => rw [offsets_cons]; simp [ih]

theorem sizeLoop_eq (ds : IntVec) : sizeLoop ds = ds.prod := by
  unfold sizeLoop
  rw [List.prod_eq_foldl]

/-- Mixed-radix value, most significant digit first. -/
def val : IntVec → IntVec → Int
  | _ :: ds, p :: ps => p * ds.prod + val ds ps
  | _, _ => 0

theorem rankLoop_eq (dims pos : IntVec) (h : pos.length = dims.length) (acc : Int) :
    rankLoop (offsets dims) pos acc = acc + val dims pos := by
  induction dims generalizing pos acc with
  | nil =>
    cases pos with
    | nil => simp [rankLoop, val]
    | cons p ps => simp at h
  | cons d ds ih =>
    cases pos with
    | nil => simp at h
    | cons p ps =>
      simp only [List.length_cons, Nat.add_right_cancel_iff] at h
      rw [offsets_cons]
      cases ps with
      | nil =>
        cases ds with
        | nil => simp [rankLoop, val]
        | cons _ _ => simp at h
      | cons p' ps' =>
        rw [rankLoop, ih _ h]
        simp only [val]
        ring

theorem dot_eq (dims pos : IntVec) (h : pos.length = dims.length) :
    dot (offsets dims) pos = val dims pos := by
  induction dims generalizing pos with
  | nil => simp [offsets, dot, val]
  | cons d ds ih =>
    cases pos with
    | nil => simp at h
    | cons p ps =>
      simp only [List.length_cons, Nat.add_right_cancel_iff] at h
      rw [offsets_cons, dot, ih _ h, val]; ring

theorem inMesh_cons {d : Int} {ds : IntVec} {p : Int} {ps : IntVec} :
    inMesh (d :: ds) (p :: ps) = true ↔ (0 ≤ p ∧ p < d) ∧ inMesh ds ps = true := by
  simp only [inMesh]
  by_cases h1 : p < 0 <;> by_cases h2 : p ≥ d <;> simp [h1, h2]; omega

theorem inMesh_length {dims pos : IntVec} (h : inMesh dims pos = true) :
    pos.length = dims.length := by
  induction dims generalizing pos with
  | nil => cases pos <;> simp [inMesh] at h ⊢
  | cons d ds ih =>
    cases pos with
    | nil => simp [inMesh] at h
    | cons p ps => rw [inMesh_cons] at h; simp [ih h.2]

theorem val_bounds {dims pos : IntVec} (h : inMesh dims pos = true) :
    0 ≤ val dims pos ∧ (val dims pos < dims.prod) := by
  induction dims generalizing pos with
  | nil => simp [val]
  | cons d ds ih =>
    cases pos with
    | nil => simp [inMesh] at h
    | cons p ps =>
      rw [inMesh_cons] at h
      obtain ⟨⟨h0, h1⟩, h2⟩ := h
      obtain ⟨i0, i1⟩ := ih h2
      have hp : 0 < ds.prod := by omega
      rw [val, List.prod_cons]
      constructor
      · have : 0 ≤ p * ds.prod := mul_nonneg h0 hp.le
        omega
      · nlinarith

/-- Mixed-radix digits, most significant digit first. -/
def digits : IntVec → Int → IntVec
  | [], _ => []
  | _ :: ds, r => (r / ds.prod) :: digits ds (r % ds.prod)

theorem positionLoop_eq (dims : IntVec) (hne : dims ≠ []) (hpos : Pos dims) (r : Int) (hr : 0 ≤ r)
    : positionLoop (offsets dims) r = digits dims r := by
  induction dims generalizing r with
  | nil => exact absurd rfl hne
  | cons d ds ih =>
    rw [offsets_cons]
    cases ds with
    | nil => simp [offsets, positionLoop, digits]
    | cons e es =>
      have hp := prod_pos hpos.tail
      have hdiv : r.tdiv (e :: es).prod = r / (e :: es).prod := Int.tdiv_eq_ediv_of_nonneg hr
      have hmod : r - r / (e :: es).prod * (e :: es).prod = r % (e :: es).prod := by
        rw [Int.emod_def]; ring
      have hm := Int.emod_nonneg r hp.ne'
      have := ih (by simp) hpos.tail (r % (e :: es).prod) hm
      rw [offsets_cons] at this ⊢
      rw [positionLoop, hdiv]
      simp only [hmod]
      rw [this]
      rfl

theorem digits_inMesh {dims : IntVec} (hpos : Pos dims) {r : Int} (h0 : 0 ≤ r)
    (h1 : r < dims.prod) : inMesh dims (digits dims r) = true ∧ val dims (digits dims r) = r := by
  induction dims generalizing r with
  | nil =>
    simp at h1
    have : r = 0 := by omega
    simp [inMesh, digits, val, this]
  | cons d ds ih =>
    have hp := prod_pos hpos.tail
    have hm0 := Int.emod_nonneg r hp.ne'
    have hm1 := Int.emod_lt_of_pos r hp
    obtain ⟨i0, i1⟩ := ih hpos.tail hm0 hm1
    rw [List.prod_cons] at h1
    refine ⟨?_, ?_⟩
    · rw [digits, inMesh_cons]
      refine ⟨⟨Int.ediv_nonneg h0 hp.le, ?_⟩, i0⟩
      exact Int.ediv_lt_of_lt_mul hp h1
    · rw [digits, val, i1]
      have := Int.mul_ediv_add_emod r ds.prod
      linarith [mul_comm ds.prod (r / ds.prod)]

theorem digits_val {dims pos : IntVec} (h : inMesh dims pos = true) :
    digits dims (val dims pos) = pos := by
  induction dims generalizing pos with
  | nil => cases pos <;> simp [inMesh] at h ⊢; rfl
  | cons d ds ih =>
    cases pos with
    | nil => simp [inMesh] at h
    | cons p ps =>
      rw [inMesh_cons] at h
      obtain ⟨b0, b1⟩ := val_bounds h.2
      have hp : 0 < ds.prod := by omega
      rw [val, digits]
      have e1 : (p * ds.prod + val ds ps) / ds.prod = p := by
        rw [add_comm, Int.add_mul_ediv_right _ _ hp.ne', Int.ediv_eq_zero_of_lt b0 b1, zero_add]
      have e2 : (p * ds.prod + val ds ps) % ds.prod = val ds ps := by
        rw [add_comm, Int.add_mul_emod_self_right, Int.emod_eq_of_lt b0 b1]
      rw [e1, e2, ih h.2]

theorem setDimensions_some {dims : IntVec} {m : Mesh} (h : Mesh.setDimensions dims = some m) :
    dims ≠ [] ∧ Pos dims ∧ m = ⟨dims, offsets dims, dims.prod⟩ := by
  unfold Mesh.setDimensions at h
  split at h
  · cases h
  · rename_i hany
    cases dims with
    | nil => simp at h
    | cons d ds =>
      rw [offsets_cons] at h ⊢
      simp only [Option.some.injEq] at h
      refine ⟨by simp, ?_, ?_⟩
      · intro x hx
        by_contra hcon
        apply hany
        rw [List.any_eq_true]
        exact ⟨x, hx, by simpa using hcon⟩
      · rw [← h, List.prod_cons, mul_comm]

theorem setDimensions_of_pos {dims : IntVec} (hne : dims ≠ []) (hp : Pos dims) :
    Mesh.setDimensions dims = some ⟨dims, offsets dims, dims.prod⟩ := by
  unfold Mesh.setDimensions
  have : ¬ (dims.any (fun d => decide (d ≤ 0)) = true) := by
    rw [List.any_eq_true]
    rintro ⟨x, hx, hle⟩
    have := hp x hx
    simp at hle; omega
  rw [if_neg this]
  cases dims with
  | nil => exact absurd rfl hne
  | cons d ds => rw [offsets_cons]; simp [mul_comm]

/-! ### C-order iterator -/

theorem incr_val {dims pos : IntVec} (hpos : Pos dims) (h : inMesh dims pos = true) :
    inMesh dims (incr dims pos).1 = true ∧
    ((incr dims pos).2 = false → val dims (incr dims pos).1 = val dims pos + 1) ∧
    ((incr dims pos).2 = true → val dims pos + 1 = dims.prod ∧ val dims (incr dims pos).1 = 0) := by
  induction dims generalizing pos with
  | nil => cases pos <;> simp [inMesh] at h; simp [incr, inMesh, val]
  | cons d ds ih =>
    cases pos with
    | nil => simp [inMesh] at h
    | cons p ps =>
      rw [inMesh_cons] at h
      obtain ⟨⟨h0, h1⟩, h2⟩ := h
      obtain ⟨i0, i1, i2⟩ := ih hpos.tail h2
      have hd := hpos.head
      rw [incr]
      rcases hi : incr ds ps with ⟨ps', c⟩
      rw [hi] at i0 i1 i2
      cases c with
      | false =>
        simp only [inMesh_cons, val]
        refine ⟨⟨⟨h0, h1⟩, i0⟩, ?_, by simp⟩
        intro _
        rw [i1 rfl]; ring
      | true =>
        obtain ⟨j1, j2⟩ := i2 rfl
        simp only at j1 j2
        by_cases hpd : p + 1 = d
        · simp only [hpd, if_true, inMesh_cons, val, List.prod_cons]
          refine ⟨⟨⟨le_refl _, hd⟩, i0⟩, by simp, ?_⟩
          intro _
          constructor
          · rw [← hpd, ← j1]; ring
          · rw [j2]; ring
        · simp only [hpd, if_false, inMesh_cons, val]
          refine ⟨⟨⟨by omega, by omega⟩, i0⟩, ?_, by simp⟩
          intro _
          rw [j2]
          linear_combination -j1

/-! ### Fortran-order iterator -/

/-- Mixed-radix value with the first digit least significant. -/
def fval : IntVec → IntVec → Int
  | d :: ds, p :: ps => p + d * fval ds ps
  | _, _ => 0

theorem fval_bounds {dims pos : IntVec} (h : inMesh dims pos = true) :
    0 ≤ fval dims pos ∧ fval dims pos < dims.prod := by
  induction dims generalizing pos with
  | nil => simp [fval]
  | cons d ds ih =>
    cases pos with
    | nil => simp [inMesh] at h
    | cons p ps =>
      rw [inMesh_cons] at h
      obtain ⟨⟨h0, h1⟩, h2⟩ := h
      obtain ⟨i0, i1⟩ := ih h2
      rw [fval, List.prod_cons]
      constructor
      · have : 0 ≤ d * fval ds ps := mul_nonneg (by omega) i0
        omega
      · nlinarith

/-- Mixed-radix digits with the first digit least significant. -/
def fdigits : IntVec → Int → IntVec
  | [], _ => []
  | d :: ds, r => (r % d) :: fdigits ds (r / d)

theorem fdigits_fval {dims pos : IntVec} (h : inMesh dims pos = true) :
    fdigits dims (fval dims pos) = pos := by
  induction dims generalizing pos with
  | nil => cases pos <;> simp [inMesh] at h ⊢; rfl
  | cons d ds ih =>
    cases pos with
    | nil => simp [inMesh] at h
    | cons p ps =>
      rw [inMesh_cons] at h
      obtain ⟨⟨h0, h1⟩, h2⟩ := h
      have hd : 0 < d := by omega
      rw [fval, fdigits]
      rw [Int.add_mul_emod_self_left, Int.emod_eq_of_lt h0 h1,
        Int.add_mul_ediv_left _ _ hd.ne', Int.ediv_eq_zero_of_lt h0 h1, zero_add, ih h2]

theorem fdigits_inMesh {dims : IntVec} (hpos : Pos dims) {r : Int} (h0 : 0 ≤ r)
    (h1 : r < dims.prod) : inMesh dims (fdigits dims r) = true ∧ fval dims (fdigits dims r) = r := by
  induction dims generalizing r with
  | nil =>
    simp at h1
    have : r = 0 := by omega
    simp [inMesh, fdigits, fval, this]
  | cons d ds ih =>
    have hd := hpos.head
    rw [List.prod_cons] at h1
    obtain ⟨i0, i1⟩ := ih hpos.tail (Int.ediv_nonneg h0 hd.le)
      (Int.ediv_lt_of_lt_mul hd (by rw [mul_comm]; exact h1))
    refine ⟨?_, ?_⟩
    · rw [fdigits, inMesh_cons]
      exact ⟨⟨Int.emod_nonneg _ hd.ne', Int.emod_lt_of_pos _ hd⟩, i0⟩
    · rw [fdigits, fval, i1]
      exact Int.emod_add_mul_ediv r d

theorem fincr_fval {dims pos : IntVec} (hpos : Pos dims) (hne : dims ≠ [])
    (h : inMesh dims pos = true) :
    inMesh dims (fincr dims pos).1 = true ∧
    ((fincr dims pos).2 = false → fval dims (fincr dims pos).1 = fval dims pos + 1) ∧
    ((fincr dims pos).2 = true → fval dims pos + 1 = dims.prod ∧ fval dims (fincr dims pos).1 = 0) := by
  induction dims generalizing pos with
  | nil => exact absurd rfl hne
  | cons d ds ih =>
    cases pos with
    | nil => simp [inMesh] at h
    | cons p ps =>
      rw [inMesh_cons] at h
      obtain ⟨⟨h0, h1⟩, h2⟩ := h
      have hd := hpos.head
      by_cases hpd : p + 1 = d
      · cases ds with
        | nil =>
          cases ps with
          | nil => simp [fincr, hpd, inMesh, fval, hd]
          | cons _ _ => simp [inMesh] at h2
        | cons e es =>
          obtain ⟨i0, i1, i2⟩ := ih hpos.tail (by simp) h2
          rw [fincr]
          simp only [hpd, if_true]
          refine ⟨by rw [inMesh_cons]; exact ⟨⟨le_refl _, hd⟩, i0⟩, ?_, ?_⟩
          · intro hc
            rw [fval, i1 hc, fval, ← hpd]; ring
          · intro hc
            obtain ⟨j1, j2⟩ := i2 hc
            rw [fval, fval, j2, List.prod_cons, ← j1, ← hpd]
            constructor <;> ring
      · have hf : fincr (d :: ds) (p :: ps) = ((p + 1) :: ps, false) := by
          cases ds <;> simp [fincr, hpd]
        rw [hf]
        refine ⟨by rw [inMesh_cons]; exact ⟨⟨by omega, by omega⟩, h2⟩, ?_, by simp⟩
        intro _
        simp only [fval]; ring

theorem inMesh_zero {dims : IntVec} (hpos : Pos dims) :
    inMesh dims (dims.map (fun _ => (0:Int))) = true := by
  induction dims with
  | nil => rfl
  | cons d ds ih =>
    rw [List.map_cons, inMesh_cons]
    exact ⟨⟨le_refl _, hpos.head⟩, ih hpos.tail⟩

theorem val_zero (dims : IntVec) : val dims (dims.map (fun _ => (0:Int))) = 0 := by
  induction dims with
  | nil => rfl
  | cons d ds ih => rw [List.map_cons, val, ih]; ring

theorem fval_zero (dims : IntVec) : fval dims (dims.map (fun _ => (0:Int))) = 0 := by
  induction dims with
  | nil => rfl
  | cons d ds ih => rw [List.map_cons, fval, ih]; ring

end Verif.Mesh
