import Verif.Fts.BdModel

/-!
# Lemmas about Brownian dynamics steps and simulation steps on the GPU
-/

set_option autoImplicit false
set_option linter.unusedSectionVars false

namespace Verif.Fts

open Finset

variable {m n : Nat}

theorem Gpu.evLoop_ok (e : Eig m) (disp : Fin m → Res (Fd n)) (d : Comps m n) : ∀ (js : List (Fin m)) (w : Flds m n),
    (∀ j ∈ js, disp j = .ok (d j)) → Gpu.evLoop e disp js w =
      .ok fun i k => js.foldl (fun a j => a + e.vec j.castSucc i * d j k) (w i k) := by
  intro js
  induction js with
  | nil => intro w _; rfl
  | cons j js ih =>
    intro w h
    rw [Gpu.evLoop, h j (by simp), Res.ok_bind, ih _ fun i hi => h i (by simp [hi])]
    congr 1
    funext i k
    simp only [List.foldl_cons, Gpu.addEqVc]
    rw [mul_comm]

theorem Gpu.evLoop_displace (e : Eig m) (disp : Fin m → Res (Fd n)) (d : Comps m n) (w : Flds m n)
    (h : ∀ j, disp j = .ok (d j)) : Gpu.evLoop e disp (List.finRange m) w = .ok (displace e w d) :=
  Gpu.evLoop_ok e disp d _ w fun j _ => h j

theorem Gpu.evLoop_throw (e : Eig m) (disp : Fin m → Res (Fd n)) (hm : 0 < m) (w : Flds m n)
    (h : ∀ j, disp j = .throw) : Gpu.evLoop e disp (List.finRange m) w = .throw := by
  obtain ⟨m, rfl⟩ : ∃ k, m = k + 1 := ⟨m - 1, by omega⟩
  rw [List.finRange_succ, Gpu.evLoop, h, Res.throw_bind]

theorem Gpu.fillLoop_ok (f : Fin m → Res (Fd n)) (d : Comps m n) (h : ∀ j, f j = .ok (d j)) :
    ∀ (js : List (Fin m)) (x : Comps m n),
    Gpu.fillLoop f js x = .ok fun j => if j ∈ js then d j else x j := by
  intro js
  induction js with
  | nil => intro x; simp [Gpu.fillLoop]
  | cons j js ih =>
    intro x
    rw [Gpu.fillLoop, h, Res.ok_bind, ih]
    congr 1
    funext i
    by_cases hi : i ∈ js
    · simp [hi]
    · by_cases hij : i = j
      · subst hij; simp [hi]
      · simp [hi, hij]

theorem Gpu.fill_ok (f : Fin m → Res (Fd n)) (d : Comps m n) (h : ∀ j, f j = .ok (d j)) : Gpu.fill f = .ok d := by
  rw [Gpu.fill, Gpu.fillLoop_ok f d h]
  simp

theorem Gpu.fill_throw (f : Fin m → Res (Fd n)) (hm : 0 < m) (h : ∀ j, f j = .throw) : Gpu.fill f = .throw := by
  obtain ⟨m, rfl⟩ : ∃ k, m = k + 1 := ⟨m - 1, by omega⟩
  rw [Gpu.fill, List.finRange_succ, Gpu.fillLoop, h, Res.throw_bind]

theorem Gpu.normal_even (h0 : 0 < n) (he : Even n) (g : Fd n) (s : ℝ) :
    Gpu.normal g s 0 = .ok fun k => s * g k := by
  unfold Gpu.normal
  rw [if_neg (by omega), if_neg (by rw [Nat.even_iff] at he; omega)]
  simp

theorem Gpu.normal_odd (ho : Odd n) (g : Fd n) (s t : ℝ) : Gpu.normal g s t = .throw := by
  unfold Gpu.normal
  rw [Nat.odd_iff] at ho
  simp [ho]

theorem Gpu.linComb_eq {M : Nat} (b : Fin M → Fd n) (c : Fin M → ℝ) (k : Fin n) :
    Gpu.linComb b c k = ∑ j, b j k * c j := by
  have h : ∀ (js : List (Fin M)) (a : Fd n),
      js.foldl (fun a j => Gpu.addEqVc a (b j) (c j)) a k = js.foldl (fun s j => s + b j k * c j) (a k) := by
    intro js
    induction js with
    | nil => intro a; rfl
    | cons j js ih => intro a; rw [List.foldl_cons, ih]; rfl
  rw [Gpu.linComb, h]
  have := accum_eq M (fun j => b j k * c j) 0
  rw [accum] at this
  simpa [Gpu.eqS] using this

theorem Gpu.residual_eq (c : Flds m n) (k : Fin n) : Gpu.residual c k = ∑ j, c j k - 1 := by
  have h : ∀ (js : List (Fin m)) (a : Fd n),
      js.foldl (fun a j => Gpu.addEqV a (c j.succ)) a k = js.foldl (fun s j => s + c j.succ k) (a k) := by
    intro js
    induction js with
    | nil => intro a; rfl
    | cons j js ih => intro a; rw [List.foldl_cons, ih]; rfl
  rw [Gpu.residual, h]
  have := accum_eq m (fun j => c j.succ k) (Gpu.subVS (c 0) 1 k)
  rw [accum] at this
  rw [this, Fin.sum_univ_succ, Gpu.subVS]
  ring

theorem Gpu.lmEta_even (h0 : 0 < n) (he : Even n) (mobility vSystem : ℝ) (g : Comps m n) (j : Fin m) :
    Gpu.lmEta mobility vSystem g j = .ok fun k => lmAmp n mobility vSystem * g j k := by
  rw [Gpu.lmEta, Gpu.normal_even h0 he, Res.ok_bind]
  congr 1
  funext k
  simp only [Gpu.mulVS, lmAmp]
  ring

end Verif.Fts
