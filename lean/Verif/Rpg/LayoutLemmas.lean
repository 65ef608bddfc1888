import Verif.Rpg.OpLemmas
import Verif.Cuda.VecOpProps
import Verif.Tac

/-!
# A layout of device memory and an environment that meet the hypotheses of C97
-/

set_option autoImplicit false

namespace Verif.Rpg

open Verif.Cuda Verif.Solver

/-- Position of an array among those of a block. -/
def code : Kind → Nat
  | .expW => 0 | .expW2 => 1 | .expWInv => 2 | .expKsq => 3 | .expKsq2 => 4
  | .qr | .qr2 => 5 | .qk | .qk2 => 6 | .c => 7 | .tmp => 8
  | .q false _ => 9 | .q true _ => 10 | .qkAll false _ => 11 | .qkAll true _ => 12
  | .qkOne false => 13 | .qkOne true => 14 | .rTmp => 15 | .w => 16 | .kSq => 17 | .dKSq => 18

def offset (n kS : Nat) : Kind → Nat
  | .qr2 => n | .qk2 => 2 * kS | .q _ j => j * n | .qkAll _ j => j * (2 * kS) | _ => 0

/-- A layout in regions of size `R`. -/
def stdArr (n kS nB R : Nat) (ns : Nat → Nat) : Name → DArr := fun a =>
  if a.1 < nB ∧ 0 < a.2.size n kS (ns a.1) then
    ⟨(a.1 * 19 + code a.2) * R + offset n kS a.2, a.2.size n kS (ns a.1)⟩
  else ⟨0, 0⟩

theorem code_lt (k : Kind) : code k < 19 := by
  rcases k with _|_|_|_|_|_|_|_|_|_|_|⟨_|_, j⟩|⟨_|_, j⟩|⟨_|_⟩|_|_|_|_ <;> simp [code]

theorem fits {n kS ns S : Nat} (h : ns ≤ S) (k : Kind) (h0 : 0 < k.size n kS ns) :
    offset n kS k + k.wd * k.size n kS ns ≤ (S + 2) * (2 * (n + kS)) := by
  have h1 : ∀ j z : Nat, j < ns → z ≤ 2 * (n + kS) → j * z + z ≤ (S + 2) * (2 * (n + kS)) := by
    intro j z hj hz
    calc j * z + z = (j + 1) * z := by ring
      _ ≤ (S + 2) * (2 * (n + kS)) := Nat.mul_le_mul (by omega) hz
  have h2 : 2 * (2 * (n + kS)) ≤ (S + 2) * (2 * (n + kS)) := Nat.mul_le_mul_right _ (by omega)
  cases k
  case q d j =>
    simp only [Kind.size] at h0 ⊢
    split at h0
    · rename_i hj
      rw [if_pos hj]
      simpa [offset, Kind.wd] using h1 j n hj (by omega)
    · omega
  case qkAll d j =>
    simp only [Kind.size] at h0 ⊢
    split at h0
    · rename_i hj
      rw [if_pos hj]
      simpa [offset, Kind.wd] using h1 j (2 * kS) hj (by omega)
    · omega
  all_goals simp only [offset, Kind.wd, Kind.size]; omega

theorem apart {n kS ns : Nat} {k k' : Kind} (hc : code k = code k') (hne : k ≠ k')
    (h0 : 0 < k.size n kS ns) (h0' : 0 < k'.size n kS ns) :
    offset n kS k + k.wd * k.size n kS ns ≤ offset n kS k' ∨
    offset n kS k' + k'.wd * k'.size n kS ns ≤ offset n kS k := by
  have hj : ∀ j j' z : Nat, j ≠ j' → j * z + z ≤ j' * z ∨ j' * z + z ≤ j * z := by
    intro j j' z h
    rcases Nat.lt_or_gt_of_ne h with h | h
    · left
      calc j * z + z = (j + 1) * z := by ring
        _ ≤ j' * z := Nat.mul_le_mul_right _ h
    · right
      calc j' * z + z = (j' + 1) * z := by ring
        _ ≤ j * z := Nat.mul_le_mul_right _ h
  rcases k with _|_|_|_|_|_|_|_|_|_|_|⟨_|_, j⟩|⟨_|_, j⟩|⟨_|_⟩|_|_|_|_ <;>
  rcases k' with _|_|_|_|_|_|_|_|_|_|_|⟨_|_, j'⟩|⟨_|_, j'⟩|⟨_|_⟩|_|_|_|_ <;>
  first
    | exact absurd rfl hne
    | (simp [code] at hc; done)
    | (simp only [offset, Kind.wd, Kind.size]; omega)
    | skip
  all_goals
    have hjj : j ≠ j' := fun e => hne (by rw [e])
    simp only [Kind.size] at h0 h0' ⊢
    split at h0
    case isFalse => omega
    split at h0'
    case isFalse => omega
    simp only [offset, Kind.wd, *, if_true, one_mul]
    exact hj _ _ _ hjj

theorem stdArr_lay {n kS nB S : Nat} {ns : Nat → Nat} (hn : 0 < n) (hk : 0 < kS)
    (hS : ∀ b < nB, ns b ≤ S) :
    Lay (stdArr n kS nB ((S + 2) * (2 * (n + kS))) ns) n kS nB ns := by
  have ev : ∀ a : Name, a.1 < nB → 0 < a.2.size n kS (ns a.1) →
      stdArr n kS nB ((S + 2) * (2 * (n + kS))) ns a =
        ⟨(a.1 * 19 + code a.2) * ((S + 2) * (2 * (n + kS))) + offset n kS a.2,
          a.2.size n kS (ns a.1)⟩ := fun a h1 h2 => if_pos ⟨h1, h2⟩
  refine ⟨hn, hk, fun a b hab => ?_, fun b hb k => ?_, fun b hb => ?_, fun b hb => ?_,
    fun b hb d j hj => ?_, fun b hb d j hj => ?_⟩
  · by_cases ha : a.1 < nB ∧ 0 < a.2.size n kS (ns a.1)
    · by_cases hb : b.1 < nB ∧ 0 < b.2.size n kS (ns b.1)
      · rw [ev a ha.1 ha.2, ev b hb.1 hb.2]
        simp only
        have f1 := fits (hS _ ha.1) a.2 ha.2
        have f2 := fits (hS _ hb.1) b.2 hb.2
        generalize (S + 2) * (2 * (n + kS)) = R at *
        rcases Nat.lt_trichotomy (a.1 * 19 + code a.2) (b.1 * 19 + code b.2) with h | h | h
        · left
          have := Nat.mul_le_mul_right R (Nat.succ_le_of_lt h)
          rw [Nat.succ_mul] at this
          omega
        · have l1 := code_lt a.2
          have l2 := code_lt b.2
          have e1 : a.1 = b.1 := by omega
          have e2 : code a.2 = code b.2 := by omega
          have hne : a.2 ≠ b.2 := fun e => hab (Prod.ext e1 e)
          have := apart (n := n) (kS := kS) (ns := ns a.1) e2 hne ha.2 (by rw [e1]; exact hb.2)
          rw [h, ← e1]
          omega
        · right
          have := Nat.mul_le_mul_right R (Nat.succ_le_of_lt h)
          rw [Nat.succ_mul] at this
          omega
      · right
        rw [show stdArr n kS nB _ ns b = ⟨0, 0⟩ from if_neg hb]
        simp
    · left
      rw [show stdArr n kS nB _ ns a = ⟨0, 0⟩ from if_neg ha]
      simp
  · by_cases h : 0 < k.size n kS (ns b)
    · rw [ev (b, k) hb h]
    · rw [show stdArr n kS nB _ ns (b, k) = ⟨0, 0⟩ from if_neg fun hc => h hc.2]
      simp only
      omega
  · rw [ev (b, .qr2) hb hn, ev (b, .qr) hb hn]
    rfl
  · rw [ev (b, .qk2) hb hk, ev (b, .qk) hb hk]
    rfl
  · rw [ev (b, .q d j) hb (by simp only [Kind.size, if_pos hj]; exact hn),
      ev (b, .q d 0) hb (by simp only [Kind.size, if_pos (show 0 < ns b by omega)]; exact hn)]
    cases d <;> simp [offset, code]
  · rw [ev (b, .qkAll d j) hb (by simp only [Kind.size, if_pos hj]; exact hk),
      ev (b, .qkAll d 0) hb (by simp only [Kind.size, if_pos (show 0 < ns b by omega)]; exact hk)]
    cases d <;> simp [offset, code]

/-- An environment in which the threads of each kernel take turns. -/
def exEnv (M C : Nat) : Env := ⟨exDev, fun _ => turns C M, fun _ => seqSched, fun _ _ => 7⟩

theorem exEnv_ok {M C : Nat} (hM : M + 1024 ≤ 2147483648) (hC : 8 ≤ C) : (exEnv M C).Ok M C :=
  ⟨exDev_ok, fun _ _ ht => turns_count ht, fun _ => seqSched_fair, hM, hC⟩

theorem start_good (M C : Nat) (mem : Nat → ℝ) : Good (exEnv M C) ⟨TA.start, mem, 0⟩ := by
  obtain ⟨k, h1, h2, h3⟩ := exDev_ok.dflt
  exact ⟨exDev.dflt, TA.start_ok _, .inr ⟨rfl, rfl⟩, by rw [h2]; exact h3⟩

end Verif.Rpg
