import Verif.R1d.Files
import Verif.R1d.Uniform
import Verif.Tac
import Mathlib.Data.Rat.Floor

/-!
# C109: field files of the one-dimensional program

Reading back what was written, changes of the mesh, extension of the domain, incomplete files, and the output of
propagators at vertices.
-/

set_option autoImplicit false
set_option linter.unusedSectionVars false

namespace Verif.R1d

open Verif Verif.Chem Verif.Solver

section Read

variable {K : Type} [Field K]

/-- Rows `i, …, i + k - 1` with values `v j i`. -/
def rowsFrom (nm : Nat) (v : Nat → Nat → K) (i k : Nat) : List (Tok K) :=
  (List.range k).flatMap fun t => row nm ((i + t : Nat) : Int) fun j => v j (i + t)

theorem rowsFrom_succ (nm : Nat) (v : Nat → Nat → K) (i k : Nat) :
    rowsFrom nm v i (k + 1) = row nm (i : Int) (fun j => v j i) ++ rowsFrom nm v (i + 1) k := by
  unfold rowsFrom
  rw [List.range_succ_eq_map, List.flatMap_cons, List.flatMap_map]
  simp only [Nat.add_zero, Nat.succ_eq_add_one]
  congr 2
  funext t
  rw [show i + (t + 1) = i + 1 + t by omega]

theorem rowsFrom_add (nm : Nat) (v : Nat → Nat → K) : ∀ (a i b : Nat),
    rowsFrom nm v i (a + b) = rowsFrom nm v i a ++ rowsFrom nm v (i + a) b
  | 0, i, b => by simp [rowsFrom]
  | a + 1, i, b => by
    rw [show a + 1 + b = (a + b) + 1 by omega, rowsFrom_succ, rowsFrom_add nm v a (i + 1) b, rowsFrom_succ,
      List.append_assoc, show i + 1 + a = i + (a + 1) by omega]

/-- Values of one row, from field `j` on, replaced. -/
def setRow (f : Nat → Nat → K) (i j k : Nat) (v : Nat → K) : Nat → Nat → K :=
  fun j' i' => if i' = i ∧ j ≤ j' ∧ j' < j + k then v j' else f j' i'

theorem getVals_all (i : Nat) (v : Nat → K) (rest : List (Tok K)) : ∀ (k j : Nat) (f : Nat → Nat → K),
    getVals i k j ((List.range k).map (fun t => Tok.num (v (j + t))) ++ rest, false) f =
      ((rest, false), setRow f i j k v)
  | 0, j, f => by
    have : setRow f i j 0 v = f := by
      funext j' i'
      unfold setRow
      rw [if_neg (by omega)]
    simp [getVals, this]
  | k + 1, j, f => by
    rw [List.range_succ_eq_map, List.map_cons, List.map_map]
    have e : (List.map ((fun t => Tok.num (v (j + t))) ∘ Nat.succ) (List.range k) : List (Tok K)) =
        (List.range k).map fun t => Tok.num (v (j + 1 + t)) := by
      apply List.map_congr_left
      intro t _
      simp only [Function.comp, Nat.succ_eq_add_one]
      rw [show j + (t + 1) = j + 1 + t by omega]
    rw [e]
    change getVals i k (j + 1) (_ ++ rest, false) (setAt f j i (v (j + 0))) = _
    rw [getVals_all i v rest k (j + 1)]
    congr 1
    funext j' i'
    unfold setRow setAt
    by_cases h1 : i' = i ∧ j + 1 ≤ j' ∧ j' < j + 1 + k
    · rw [if_pos h1, if_pos (by omega)]
    · rw [if_neg h1]
      by_cases h2 : j' = j ∧ i' = i
      · rw [if_pos h2, if_pos (by omega), h2.1, Nat.add_zero]
      · rw [if_neg h2, if_neg (by omega)]

theorem getRows_row (nm : Nat) (i k : Nat) (v : Nat → K) (rest : List (Tok K)) (idum : Option Int)
    (f : Nat → Nat → K) :
    getRows nm (k + 1) i (row nm (i : Int) v ++ rest, false) idum f =
      getRows nm k (i + 1) (rest, false) (some i) (setRow f i 0 nm v) := by
  conv_lhs => unfold getRows
  change (getInt (Tok.int (i : Int) :: ((List.range nm).map (fun j => Tok.num (v j)) ++ rest), false) idum >>= _) = _
  unfold getInt
  rw [Res.ok_bind]
  simp only [if_true]
  have := getVals_all i v rest nm 0 f
  simp only [Nat.zero_add] at this
  rw [this]

/-- Rows `i, …, i + k - 1` of all fields replaced. -/
def setRows (nm : Nat) (f v : Nat → Nat → K) (i k : Nat) : Nat → Nat → K :=
  fun j' i' => if i ≤ i' ∧ i' < i + k ∧ j' < nm then v j' i' else f j' i'

theorem getRows_rows (nm : Nat) (v : Nat → Nat → K) (rest : List (Tok K)) : ∀ (k n i : Nat) (idum : Option Int)
    (f : Nat → Nat → K), 0 < k →
    getRows nm (k + n) i (rowsFrom nm v i k ++ rest, false) idum f =
      getRows nm n (i + k) (rest, false) (some ((i + k - 1 : Nat) : Int)) (setRows nm f v i k)
  | 0, _, _, _, _, h => absurd h (by omega)
  | k + 1, n, i, idum, f, _ => by
    rw [rowsFrom_succ, List.append_assoc, show k + 1 + n = (k + n) + 1 by omega, getRows_row]
    rcases Nat.eq_zero_or_pos k with hk | hk
    · subst hk
      have e : rowsFrom nm v (i + 1) 0 = [] := rfl
      rw [e, List.nil_append, Nat.zero_add, Nat.zero_add, Nat.add_sub_cancel]
      congr 1
      funext j' i'
      unfold setRow setRows
      by_cases h1 : i' = i ∧ 0 ≤ j' ∧ j' < 0 + nm
      · rw [if_pos h1, if_pos (by omega), h1.1]
      · rw [if_neg h1, if_neg (by omega)]
    · rw [getRows_rows nm v rest k n (i + 1) _ _ hk, show i + 1 + k = i + (k + 1) by omega]
      congr 1
      funext j' i'
      unfold setRow setRows
      by_cases h1 : i + 1 ≤ i' ∧ i' < i + 1 + k ∧ j' < nm
      · rw [if_pos h1, if_pos (by omega)]
      · rw [if_neg h1]
        by_cases h2 : i' = i ∧ 0 ≤ j' ∧ j' < 0 + nm <;> beta_reduce
        · rw [if_pos h2, if_pos (by omega), h2.1]
        · rw [if_neg h2, if_neg (by omega)]

theorem readFields_header (nx nm : Nat) (hnx : 0 < nx) (hnm : 0 < nm) (body : List (Tok K)) (old : Nat → Nat → K) :
    readFields nx nm (header nx nm ++ body) old = getRows nm nx 0 (body, false) none old := by
  unfold readFields header
  simp only [List.cons_append, List.nil_append, getWord, ne_eq, not_true, if_false, getInt, Res.ok_bind]
  rw [if_neg (by omega), if_neg (by omega)]

/-- **C109**, round trip: a file written with header is read back into the fields it was written from, on every
domain with the same number of points and the same number of monomer types, whatever the fields held before and
whatever follows in the file. -/
theorem C109_roundtrip (nx nm : Nat) (hnx : 0 < nx) (f old : Nat → Nat → K) (file rest : List (Tok K))
    (h : writeFields nx nm f = .ok file) :
    ∃ g, readFields nx nm (file ++ rest) old = .ok g ∧ ∀ j < nm, ∀ i < nx, g j i = f j i := by
  unfold writeFields at h
  split at h
  · cases h
  · rename_i hnm
    cases h
    have hnm' : 0 < nm := by omega
    have e : ((List.range nx).flatMap fun i : Nat => row nm (i : Int) fun j => f j i) = rowsFrom nm f 0 nx := by
      unfold rowsFrom
      simp only [Nat.zero_add]
    rw [List.append_assoc, e, readFields_header nx nm hnx hnm']
    have := getRows_rows nm f rest nx 0 0 none old hnx
    rw [Nat.add_zero] at this
    rw [this]
    refine ⟨_, rfl, fun j hj i hi => ?_⟩
    unfold setRows
    rw [if_pos (by omega)]

/-- **C109**, header: a file whose header gives another number of points or of monomer types is rejected. -/
theorem C109_header (nx nm : Nat) (a b : Int) (body : List (Tok K)) (old : Nat → Nat → K)
    (h : a ≠ nx ∨ b ≠ nm) : readFields nx nm (header a b ++ body) old = .throw := by
  unfold readFields header
  simp only [List.cons_append, List.nil_append, getWord, ne_eq, not_true, if_false, getInt, Res.ok_bind]
  by_cases ha : 0 < a
  · rw [if_neg (by omega)]
    by_cases ha2 : a = nx
    · rw [if_neg (by omega)]
      by_cases hb : 0 < b
      · rw [if_neg (by omega), if_pos (by omega)]
      · rw [if_pos hb]
    · rw [if_pos ha2]
  · rw [if_pos ha]

/-- After a failure nothing more is read. -/
theorem getVals_fail (i : Nat) (ts : List (Tok K)) : ∀ (k j : Nat) (f : Nat → Nat → K),
    getVals i k j (ts, true) f = ((ts, true), f)
  | 0, _, _ => rfl
  | k + 1, j, f => by
    have e : setAt f j i (f j i) = f := by
      funext j' i'
      unfold setAt
      split
      · rename_i h; rw [h.1, h.2]
      · rfl
    change getVals i k (j + 1) (ts, true) (setAt f j i (f j i)) = _
    rw [e, getVals_fail i ts k (j + 1)]

theorem getVals_append (i : Nat) : ∀ (a b j : Nat) (s : Strm K) (f : Nat → Nat → K),
    getVals i (a + b) j s f = getVals i b (j + a) (getVals i a j s f).1 (getVals i a j s f).2
  | 0, b, j, s, f => by simp [getVals]
  | a + 1, b, j, s, f => by
    rw [show a + 1 + b = (a + b) + 1 by omega]
    change getVals i (a + b) (j + 1) _ _ = getVals i b (j + (a + 1)) (getVals i a (j + 1) _ _).1 _
    rw [getVals_append i a b (j + 1), show j + 1 + a = j + (a + 1) by omega]
    rfl

theorem getVals_short (i : Nat) (v : Nat → K) (a nm : Nat) (h : a < nm) (f : Nat → Nat → K) :
    getVals i nm 0 ((List.range a).map (fun t => Tok.num (v t)), false) f = (([], true), setRow f i 0 a v) := by
  obtain ⟨b, rfl⟩ : ∃ b, nm = a + (b + 1) := ⟨nm - a - 1, by omega⟩
  rw [getVals_append]
  have := getVals_all i v [] a 0 f
  simp only [Nat.zero_add, List.append_nil] at this
  rw [this, Nat.zero_add]
  have e : setAt (setRow f i 0 a v) a i (setRow f i 0 a v a i) = setRow f i 0 a v := by
    funext j' i'
    unfold setAt
    split
    · rename_i h; rw [h.1, h.2]
    · rfl
  change getVals i b (a + 1) ([], true) (setAt (setRow f i 0 a v) a i (setRow f i 0 a v a i)) = _
  rw [e, getVals_fail]

/-- A file cut after `r` complete rows and `a` values of row `r`. -/
def cutFile (nx nm : Nat) (f : Nat → Nat → K) (r a : Nat) : List (Tok K) :=
  header nx nm ++ rowsFrom nm f 0 r ++ (.int r :: (List.range a).map fun j => .num (f j r))

/-- **C109**, incomplete files (part that holds): a file that ends before the last row is complete is rejected,
as long as a later row is missing altogether. -/
theorem C109_truncated_partial (nx nm : Nat) (f old : Nat → Nat → K) (r a : Nat) (hr : r + 1 < nx)
    (ha : a ≤ nm) (hnm : 0 < nm) : readFields nx nm (cutFile nx nm f r a) old = .throw := by
  unfold cutFile
  rw [List.append_assoc, readFields_header nx nm (by omega) hnm]
  obtain ⟨b, rfl⟩ : ∃ b, nx = r + (b + 2) := ⟨nx - r - 2, by omega⟩
  have step : ∀ (idum : Option Int) (g : Nat → Nat → K), getRows nm (b + 2) r
      (.int (r : Int) :: (List.range a).map (fun j => .num (f j r)), false) idum g = .throw := by
    intro idum g
    unfold getRows
    rw [show getInt (Tok.int (r : Int) :: (List.range a).map (fun j => Tok.num (f j r)), false) idum =
      .ok (((List.range a).map (fun j => Tok.num (f j r)), false), some (r : Int)) from rfl, Res.ok_bind]
    simp only [if_true]
    rcases Nat.lt_or_ge a nm with h | h
    · rw [getVals_short r (fun j => f j r) a nm h]
      unfold getRows
      simp only [getInt, Res.ok_bind]
      rw [if_neg (by omega)]
    · obtain rfl : a = nm := by omega
      have := getVals_all r (fun j => f j r) [] a 0 g
      simp only [Nat.zero_add, List.append_nil] at this
      rw [this]
      unfold getRows
      simp only [getInt, Res.ok_bind]
      rw [if_neg (by omega)]
  rcases Nat.eq_zero_or_pos r with h0 | h0
  · subst h0
    have e : rowsFrom nm f 0 0 = [] := rfl
    rw [e, List.nil_append, Nat.zero_add]
    exact step none old
  · rw [getRows_rows nm f _ r (b + 2) 0 none old h0, Nat.zero_add]
    exact step _ _

/-- **C109 is violated** for incomplete files: a file that ends within the last row is accepted, and the fields
that are missing keep the values they had before at the last grid point. -/
theorem C109_truncated_violated (nx nm : Nat) (f old : Nat → Nat → K) (r a : Nat) (hr : r + 1 = nx)
    (ha : a < nm) :
    ∃ g, readFields nx nm (cutFile nx nm f r a) old = .ok g ∧
      (∀ j < nm, ∀ i < r, g j i = f j i) ∧ (∀ j < a, g j r = f j r) ∧
      ∀ j, a ≤ j → g j r = old j r := by
  unfold cutFile
  rw [List.append_assoc, readFields_header nx nm (by omega) (by omega)]
  subst hr
  have step : ∀ (idum : Option Int) (g : Nat → Nat → K), getRows nm (0 + 1) r
      (.int (r : Int) :: (List.range a).map (fun j => .num (f j r)), false) idum g =
        .ok (setRow g r 0 a fun j => f j r) := by
    intro idum g
    unfold getRows
    rw [show getInt (Tok.int (r : Int) :: (List.range a).map (fun j => Tok.num (f j r)), false) idum =
      .ok (((List.range a).map (fun j => Tok.num (f j r)), false), some (r : Int)) from rfl, Res.ok_bind]
    simp only [if_true]
    rw [getVals_short r (fun j => f j r) a nm ha]
    rfl
  rcases Nat.eq_zero_or_pos r with h0 | h0
  · subst h0
    have e : rowsFrom nm f 0 0 = [] := rfl
    rw [e, List.nil_append]
    refine ⟨_, step none old, by simp, fun j hj => ?_, fun j hj => ?_⟩
    · unfold setRow
      rw [if_pos (by omega)]
    · unfold setRow
      rw [if_neg (by omega)]
  · rw [getRows_rows nm f _ r 1 0 none old h0, Nat.zero_add]
    refine ⟨_, step _ _, fun j hj i hi => ?_, fun j hj => ?_, fun j hj => ?_⟩
    · unfold setRow setRows
      rw [if_neg (by omega), if_pos (by omega)]
    · unfold setRow
      rw [if_pos (by omega)]
    · unfold setRow setRows
      rw [if_neg (by omega), if_neg (by omega)]

/-- **C109**, extension: with `m ≥ 0` extra points, the file read on a domain of `nx + m` points gives the old values
at the old points and the last value at the new ones. -/
theorem C109_extend (nx nm m : Nat) (hnx : 0 < nx) (f old : Nat → Nat → K) (file : List (Tok K))
    (h : extend nx nm m f = .ok file) :
    ∃ g, readFields (nx + m) nm file old = .ok g ∧ (∀ j < nm, ∀ i < nx, g j i = f j i) ∧
      ∀ j < nm, ∀ i < nx + m, nx ≤ i → g j i = f j (nx - 1) := by
  unfold extend at h
  split at h
  · cases h
  · rename_i hnm
    cases h
    have hnm' : 0 < nm := by omega
    let v : Nat → Nat → K := fun j i => if i < nx then f j i else f j (nx - 1)
    have e : (((List.range nx).flatMap fun i : Nat => row nm (i : Int) fun j => f j i) ++
        (List.range ((m : Int).toNat)).flatMap fun k => row nm ((nx + k : Nat) : Int) fun j => f j (nx - 1)) =
        rowsFrom nm v 0 (nx + m) := by
      rw [rowsFrom_add]
      unfold rowsFrom
      rw [Int.toNat_natCast]
      congr 1
      · rw [List.flatMap, List.flatMap]
        congr 1
        apply List.map_congr_left
        intro i hi
        simp only [Nat.zero_add, v, if_pos (List.mem_range.1 hi)]
      · rw [List.flatMap, List.flatMap]
        congr 1
        apply List.map_congr_left
        intro i _
        simp only [Nat.zero_add, v, if_neg (show ¬ nx + i < nx by omega)]
    have eh : (header ((nx : Int) + (m : Int)) nm : List (Tok K)) = header ((nx + m : Nat) : Int) nm := by
      rw [Nat.cast_add]
    rw [List.append_assoc, e, eh, readFields_header (nx + m) nm (by omega) hnm']
    have := getRows_rows nm v [] (nx + m) 0 0 none old (by omega)
    rw [Nat.add_zero, List.append_nil] at this
    rw [this]
    refine ⟨_, rfl, fun j hj i hi => ?_, fun j hj i hi hi2 => ?_⟩
    · unfold setRows
      rw [if_pos (by omega)]
      simp only [v, if_pos hi]
    · unfold setRows
      rw [if_pos (by omega)]
      simp only [v, if_neg (show ¬ i < nx by omega)]

/-- **C109 is violated** for negative `m`: `extend` accepts it and writes a file whose header gives `nx + m` points
but which holds all `nx` rows; reading it on a domain of `nx + m` points drops the last ones. -/
theorem C109_extend_negative_violated (nx nm k : Nat) (hk : k < nx) (hnm : 0 < nm) (f old : Nat → Nat → K) :
    ∃ file, extend nx nm (-(k : Int)) f = .ok file ∧ file = header ((nx - k : Nat) : Int) nm ++ rowsFrom nm f 0 nx ∧
      ∃ g, readFields (nx - k) nm file old = .ok g ∧ ∀ j < nm, ∀ i < nx - k, g j i = f j i := by
  have e : ((List.range nx).flatMap fun i : Nat => row nm (i : Int) fun j => f j i) = rowsFrom nm f 0 nx := by
    unfold rowsFrom
    simp only [Nat.zero_add]
  have e2 : ((nx : Int) + -(k : Int)) = ((nx - k : Nat) : Int) := by omega
  have e3 : (-(k : Int)).toNat = 0 := by omega
  refine ⟨_, ?_, rfl, ?_⟩
  · unfold extend
    rw [if_neg (by omega), e, e2, e3]
    simp
  · rw [readFields_header (nx - k) nm (by omega) hnm]
    have es : rowsFrom nm f 0 nx = rowsFrom nm f 0 (nx - k) ++ rowsFrom nm f (0 + (nx - k)) k := by
      rw [← rowsFrom_add, show nx - k + k = nx by omega]
    rw [es]
    have := getRows_rows nm f (rowsFrom nm f (0 + (nx - k)) k) (nx - k) 0 0 none old (by omega)
    rw [Nat.add_zero] at this
    rw [this]
    refine ⟨_, rfl, fun j hj i hi => ?_⟩
    unfold setRows
    rw [if_pos (by omega)]

end Read

section Remesh

variable {K : Type} [Field K] [LinearOrder K] [IsStrictOrderedRing K] [FloorRing K]

/-- Value at point `i` of a mesh of `n` points of the piecewise linear function through the values of `g` at `N`
points on the same interval: point `i` lies `r/(n-1)` of the way from old point `q` to `q + 1`, where
`i (N-1) = q (n-1) + r`. -/
def interp (N n : Nat) (g : Nat → K) (i : Nat) : K :=
  g (i * (N - 1) / (n - 1)) + ((i * (N - 1) % (n - 1) : Nat) : K) / ((n - 1 : Nat) : K) *
    (g (i * (N - 1) / (n - 1) + 1) - g (i * (N - 1) / (n - 1)))

theorem truncInt_div (a m : Nat) (hm : 0 < m) : truncInt ((a : K) / (m : K)) = ((a / m : Nat) : Int) := by
  have hm' : (0 : K) < (m : K) := by exact_mod_cast hm
  unfold truncInt
  rw [if_pos (div_nonneg (Nat.cast_nonneg _) (Nat.cast_nonneg _)), Int.floor_eq_iff]
  have h1 := Nat.div_mul_le_self a m
  have h2 := Nat.lt_div_mul_add hm (a := a)
  constructor
  · rw [le_div_iff₀ hm']
    exact_mod_cast h1
  · rw [div_lt_iff₀ hm', add_mul, one_mul]
    exact_mod_cast h2

theorem remeshRows_eq {d : Domain K} (hd : DomOk d) (nm n : Nat) (hn : 2 ≤ n) (f : Nat → Nat → K) :
    ∀ k i, i + k = n - 1 →
      remeshRows d nm ((d.xMax - d.xMin) / ((((n : Nat) : Int) : K) - 1)) f k i =
        .ok (rowsFrom nm (fun j => interp d.nx n (f j)) i k)
  | 0, i, _ => rfl
  | k + 1, i, h => by
    have hN := hd.nx
    have hn1 : (((n - 1 : Nat) : K)) = (n : K) - 1 := by rw [Nat.cast_sub (by omega), Nat.cast_one]
    have hN1 : (((d.nx - 1 : Nat) : K)) = (d.nx : K) - 1 := by rw [Nat.cast_sub (by omega), Nat.cast_one]
    have hm' : (0 : K) < ((n - 1 : Nat) : K) := by exact_mod_cast (by omega : 0 < n - 1)
    have ey : (d.xMax - d.xMin) / ((((n : Nat) : Int) : K) - 1) * (i : K) / d.dx =
        ((i * (d.nx - 1) : Nat) : K) / ((n - 1 : Nat) : K) := by
      have := hd.dx_pos.ne'
      rw [hd.range, Int.cast_natCast, ← hn1, ← hN1, Nat.cast_mul]
      field_simp
    have hq : i * (d.nx - 1) / (n - 1) < d.nx - 1 := by
      rw [Nat.div_lt_iff_lt_mul (by omega), Nat.mul_comm]
      exact Nat.mul_lt_mul_of_pos_left (by omega) (by omega)
    unfold remeshRows
    dsimp only
    rw [ey, truncInt_div _ _ (by omega), if_neg (not_not.2 (Int.natCast_nonneg _)), if_neg (by omega),
      remeshRows_eq hd nm n hn f k (i + 1) (by omega), Res.ok_bind, rowsFrom_succ]
    congr 2
    congr 1
    funext j
    unfold interp
    rw [Int.toNat_natCast]
    have e : ((i * (d.nx - 1) : Nat) : K) / ((n - 1 : Nat) : K) -
        (((i * (d.nx - 1) / (n - 1) : Nat) : Int) : K) =
        ((i * (d.nx - 1) % (n - 1) : Nat) : K) / ((n - 1 : Nat) : K) := by
      rw [Int.cast_natCast, sub_eq_iff_eq_add, eq_comm, div_add' _ _ _ hm'.ne']
      congr 1
      have := Nat.mod_add_div (i * (d.nx - 1)) (n - 1)
      rw [Nat.mul_comm (n - 1)] at this
      exact_mod_cast this
    rw [e]
    ring

theorem interp_zero (N n : Nat) (g : Nat → K) : interp N n g 0 = g 0 := by
  unfold interp
  simp

theorem interp_last (N n : Nat) (hn : 2 ≤ n) (g : Nat → K) : interp N n g (n - 1) = g (N - 1) := by
  unfold interp
  rw [Nat.mul_div_cancel_left _ (by omega), Nat.mul_mod_right]
  simp

/-- **C109**, change of mesh: for every domain and every new number of points `nx ≥ 2`, `remesh` succeeds, and its
file read on a domain with `nx` points gives the piecewise linear interpolation of the old fields. -/
theorem C109_remesh {d d' : Domain K} (hd : DomOk d) (nm : Nat) (hnm : 0 < nm) (h2 : 2 ≤ d'.nx)
    (f old : Nat → Nat → K) :
    ∃ file, remesh d nm d'.nx f = .ok file ∧ ∃ g, readFields d'.nx nm file old = .ok g ∧
      ∀ j < nm, ∀ i < d'.nx, g j i = interp d.nx d'.nx (f j) i := by
  set n := d'.nx with hn
  let v : Nat → Nat → K := fun j => interp d.nx n (f j)
  have efile : remesh d nm n f = .ok (header n nm ++ rowsFrom nm v 0 n) := by
    unfold remesh
    rw [if_neg (by omega)]
    dsimp only
    rw [show (((n : Nat) : Int) - 2).toNat = n - 2 by omega, remeshRows_eq hd nm n h2 f (n - 2) 1 (by omega),
      Res.ok_bind]
    congr 1
    have e1 : n = 1 + ((n - 2) + 1) := by omega
    have e2 : rowsFrom nm v 0 n = rowsFrom nm v 0 1 ++ (rowsFrom nm v (0 + 1) (n - 2) ++
        rowsFrom nm v (0 + 1 + (n - 2)) 1) := by
      rw [← rowsFrom_add, ← rowsFrom_add, ← e1]
    have e3 : ∀ i, rowsFrom nm v i 1 = row nm (i : Int) fun j => v j i := by
      intro i
      rw [rowsFrom_succ]
      simp [rowsFrom]
    rw [e2, e3, e3, List.append_assoc, List.append_assoc]
    have e4 : (fun j => v j 0) = fun j => f j 0 := by
      funext j
      exact interp_zero _ _ _
    have e5 : (fun j => v j (0 + 1 + (n - 2))) = fun j => f j (d.nx - 1) := by
      funext j
      rw [show 0 + 1 + (n - 2) = n - 1 by omega]
      exact interp_last _ _ h2 _
    have e6 : (((n : Nat) : Int) - 1) = ((0 + 1 + (n - 2) : Nat) : Int) := by omega
    rw [e4, e5, e6]
    rfl
  refine ⟨_, efile, ?_⟩
  rw [readFields_header n nm (by omega) hnm]
  have := getRows_rows nm v [] n 0 0 none old (by omega)
  rw [Nat.add_zero, List.append_nil] at this
  rw [this]
  refine ⟨_, rfl, fun j hj i hi => ?_⟩
  unfold setRows
  rw [if_pos (by omega)]

/-- **C109**, what interpolation keeps: the values at both ends; everything if the number of points does not
change; functions linear in position; and bounds on the values. -/
theorem C109_interp (N n : Nat) (hN : 2 ≤ N) (hn : 2 ≤ n) (g : Nat → K) :
    interp N n g 0 = g 0 ∧ interp N n g (n - 1) = g (N - 1) ∧
    (∀ i, interp N N g i = g i) ∧
    (∀ x₀ L a b : K, (∀ q, g q = a + b * (x₀ + (q : K) * (L / ((N - 1 : Nat) : K)))) →
      ∀ i, interp N n g i = a + b * (x₀ + (i : K) * (L / ((n - 1 : Nat) : K)))) ∧
    ∀ a b : K, (∀ q < N, a ≤ g q ∧ g q ≤ b) → ∀ i < n, a ≤ interp N n g i ∧ interp N n g i ≤ b := by
  refine ⟨interp_zero N n g, interp_last N n hn g, fun i => ?_, fun x₀ L a b hg i => ?_, fun a b hg i hi => ?_⟩
  · unfold interp
    rw [Nat.mul_div_cancel _ (by omega), Nat.mul_mod_left]
    simp
  · have hN' : (0 : K) < ((N - 1 : Nat) : K) := by exact_mod_cast (by omega : 0 < N - 1)
    have hn' : (0 : K) < ((n - 1 : Nat) : K) := by exact_mod_cast (by omega : 0 < n - 1)
    unfold interp
    have e : ((i * (N - 1) % (n - 1) : Nat) : K) + ((n - 1 : Nat) : K) * ((i * (N - 1) / (n - 1) : Nat) : K) =
        (i : K) * ((N - 1 : Nat) : K) := by
      exact_mod_cast Nat.mod_add_div (i * (N - 1)) (n - 1)
    rw [hg, hg, eq_sub_of_add_eq e]
    push_cast
    field_simp
    ring
  · have hn' : (0 : K) < ((n - 1 : Nat) : K) := by exact_mod_cast (by omega : 0 < n - 1)
    rcases Nat.lt_or_ge i (n - 1) with h | h
    · have hq : i * (N - 1) / (n - 1) < N - 1 := by
        rw [Nat.div_lt_iff_lt_mul (by omega), Nat.mul_comm]
        exact Nat.mul_lt_mul_of_pos_left h (by omega)
      obtain ⟨a1, b1⟩ := hg (i * (N - 1) / (n - 1)) (by omega)
      obtain ⟨a2, b2⟩ := hg (i * (N - 1) / (n - 1) + 1) (by omega)
      unfold interp
      have t0 : (0 : K) ≤ ((i * (N - 1) % (n - 1) : Nat) : K) / ((n - 1 : Nat) : K) := by positivity
      have t1 : ((i * (N - 1) % (n - 1) : Nat) : K) / ((n - 1 : Nat) : K) ≤ 1 := by
        rw [div_le_one hn']
        exact_mod_cast (Nat.mod_lt _ (by omega)).le
      generalize ((i * (N - 1) % (n - 1) : Nat) : K) / ((n - 1 : Nat) : K) = t at t0 t1
      constructor <;> nlinarith
    · obtain rfl : i = n - 1 := by omega
      rw [interp_last N n hn]
      exact hg _ (by omega)

/-- **C109**, refinement loses nothing: interpolating onto a mesh with `k` times as many intervals and back gives the
old values. -/
theorem C109_refine (N k : Nat) (hN : 2 ≤ N) (hk : 0 < k) (g : Nat → K) (i : Nat) :
    interp (k * (N - 1) + 1) N (interp N (k * (N - 1) + 1) g) i = g i := by
  have h1 : 0 < k * (N - 1) := Nat.mul_pos hk (by omega)
  have e : ∀ q, interp N (k * (N - 1) + 1) g (q * k) = g q := by
    intro q
    unfold interp
    rw [Nat.add_sub_cancel, Nat.mul_assoc, Nat.mul_div_cancel _ h1, Nat.mul_mod_left]
    simp
  rw [interp]
  rw [Nat.add_sub_cancel, ← Nat.mul_assoc, Nat.mul_div_cancel _ (by omega), Nat.mul_mod_left, Nat.cast_zero, zero_div,
    zero_mul, add_zero, e]

/-- **C109 is violated** for `nx ≤ 1`: `remesh` does not check its argument. It writes a file with two rows; for
`nx < 1` no domain accepts it, for `nx = 1` both rows carry the index 0. -/
theorem C109_remesh_small_violated (d : Domain K) (nm : Nat) (hnm : 0 < nm) (n : Int) (hn : n ≤ 1)
    (f : Nat → Nat → K) :
    ∃ file, remesh d nm n f = .ok file ∧
      file = header n nm ++ row nm 0 (fun j => f j 0) ++ row nm (n - 1) (fun j => f j (d.nx - 1)) ∧
      (n < 1 → ∀ (nx' nm' : Nat) (old : Nat → Nat → K), readFields nx' nm' file old = .throw) := by
  refine ⟨_, ?_, rfl, fun h nx' nm' old => ?_⟩
  · unfold remesh
    rw [if_neg (by omega)]
    dsimp only
    rw [show (n - 2).toNat = 0 by omega]
    unfold remeshRows
    rw [Res.ok_bind, List.append_nil]
  · unfold readFields header
    simp only [List.cons_append, List.nil_append, getWord, ne_eq, not_true, if_false, getInt, Res.ok_bind]
    rw [if_pos (by omega)]

end Remesh

section Q

variable {K : Type} [Field K] [LinearOrder K] [IsStrictOrderedRing K]

variable {d : Domain K} {len kuhn : Nat → K} {ns : Nat → Nat} {w : Nat → Nat → K} {es : List Edge}
  {fuel : Nat} {P : Polymer}

theorem vertexRow_eq {blk : Nat → Block K} {st : Pid → Option (Nat → Nat → K)} (i : Nat) :
    ∀ l : List Pid, (∀ s ∈ l, (st s).isSome) →
      vertexRow blk st i l = some (l.map (fun s => tailOf blk st s i), (l.map (fun s => tailOf blk st s i)).prod)
  | [], _ => rfl
  | s :: l, h => by
    obtain ⟨q, hq⟩ := Option.isSome_iff_exists.1 (h s (List.mem_cons_self ..))
    unfold vertexRow
    rw [hq, vertexRow_eq i l fun s hs => h s (List.mem_cons_of_mem _ hs)]
    simp only [List.map_cons, List.prod_cons]
    unfold tailOf
    rw [hq]

/-- **C109**, propagators at a vertex: for every accepted polymer, every geometry and all fields, `writeVertexQ`
finds all propagators solved at each of the `nBlock + 1` vertices, and the spatial average of the products it
prints is the molecular partition function, the same at all vertices. -/
theorem C109_vertexQ (hP : PolyOk d len kuhn ns w es fuel P) (hes : es ≠ [])
    (st : Pid → Option (Nat → Nat → K)) (Q : K)
    (h : polymerSolve d (blocks d len kuhn ns w) es P.vertices P.plan = .ok (st, Q)) (v : Nat) (hv : v ≤ es.length) :
    ∃ (rows : Nat → List K × K),
      (∀ i, vertexRow (blocks d len kuhn ns w) st i (inIds P.vertices v) = some (rows i) ∧
        (rows i).1.length = (inIds P.vertices v).length ∧ (rows i).2 = (rows i).1.prod) ∧
      0 < (inIds P.vertices v).length ∧ d.spatialAverage (fun i => (rows i).2) = .ok Q := by
  obtain ⟨_, hvs, hs⟩ := plan_facts hP.read
  have h0 : 0 < es.length := List.length_pos_iff.2 hes
  unfold polymerSolve at h
  rw [Res.bind_eq_ok] at h
  obtain ⟨st', hst, h⟩ := h
  have hd := done_of_solve hP.read hst
  rw [computeQ_eq hP.dom hd ((hs.complete (0, false)).2 h0) ((hs.complete (0, true)).2 h0)] at h
  change Res.ok (st', _) = Res.ok (st, Q) at h
  simp only [Res.ok.injEq, Prod.mk.injEq, div_one] at h
  obtain ⟨rfl, hQd⟩ := h
  have htree := C10_accepted_is_tree_partial es fuel P hP.read
  obtain ⟨p, hp, hsrc⟩ := vertex_has_block htree hes ⟨v, by omega⟩
  change src es p = (v : Int) at hsrc
  have hin : ∀ s ∈ inIds P.vertices v, (st' s).isSome := by
    intro s hmem
    exact (hd.iff s).2 ((hs.complete s).2 ((mem_inIds hvs (by omega) (by omega) s).1 hmem).1)
  refine ⟨fun i => ((inIds P.vertices v).map (fun s => tailOf (blocks d len kuhn ns w) st' s i),
    ((inIds P.vertices v).map (fun s => tailOf (blocks d len kuhn ns w) st' s i)).prod),
    fun i => ⟨vertexRow_eq i _ hin, by simp, rfl⟩, ?_, ?_⟩
  · refine List.length_pos_of_mem ((mem_inIds hvs (by omega) (by omega) (p.1, !p.2)).2 ⟨hp, ?_⟩)
    rw [← hsrc]
    unfold dst src
    simp
  · rw [C86_average d hP.dom, ← hQd]
    unfold mean
    have := vertex_sum (weight d) hvs hd hp ((hs.complete p).2 hp)
    rw [hsrc] at this
    rw [← this, all_sums hP.read hP.adj hvs hd hs.complete p (0, false) hp h0]

end Q

/-! ## Concrete cases -/

/-- A slab of three points. -/
noncomputable def exBox : Domain ℝ := Domain.setPlanar 3 0 1 3

theorem exBox_ok : DomOk exBox := (C86_setters (3 : ℝ) 0 1 3 (by norm_num)).1 (by norm_num)

/-- Two fields on three points, written and read back. -/
example : ∃ file, writeFields 3 2 (fun j i => (j : ℚ) + 10 * i) = .ok file ∧
    ∃ g, readFields 3 2 (file ++ [.word "end"]) (fun _ _ => 7) = .ok g ∧ g 1 2 = 21 := by
  refine ⟨_, rfl, ?_⟩
  obtain ⟨g, h1, h2⟩ := C109_roundtrip 3 2 (by omega) (fun j i => (j : ℚ) + 10 * i) (fun _ _ => 7) _
    [.word "end"] rfl
  refine ⟨g, h1, ?_⟩
  rw [h2 1 (by omega) 2 (by omega)]
  norm_num

/-- Three points instead of two. -/
example : readFields 2 1 (header 3 1 ++ [.int 0, .num (1 : ℚ)]) (fun _ _ => 7) = .throw :=
  C109_header 2 1 3 1 _ _ (by norm_num)

/-- A file of three rows cut after the first of two values of the last row is read without complaint. -/
example : ∃ g, readFields 3 2 [.word "nx", .int 3, .word "nm", .int 2, .int 0, .num 1, .num 2, .int 1, .num 3,
    .num 4, .int 2, .num (5 : ℚ)] (fun _ _ => 7) = .ok g ∧ g 0 2 = 5 ∧ g 1 2 = 7 := ⟨_, rfl, rfl, rfl⟩

/-- Cut one row earlier it is rejected. -/
example : readFields 3 2 [.word "nx", .int 3, .word "nm", .int 2, .int 0, .num 1, .num 2, .int 1, .num (3 : ℚ)]
    (fun _ _ => 7) = .throw := rfl

/-- Extension by one point. -/
example : extend 2 1 1 (fun _ i => ((i : Nat) : ℚ)) = .ok [.word "nx", .int 3, .word "nm", .int 1, .int 0, .num 0,
    .int 1, .num 1, .int 2, .num 1] := by simp [extend, header, row, List.range_succ]

/-- From three to four points: values 0, 3, 12 become 0, 2, 6, 12. -/
example : (List.range 4).map (interp 3 4 (fun i => 3 * (i : ℚ) ^ 2)) = [0, 2, 6, 12] := by
  norm_num [List.range_succ, interp]

/-- The middle vertex of the star of three blocks: the mean of the product of the three tails is `Q`. -/
example : ∃ (P : Polymer) (st : Pid → Option (Nat → Nat → ℝ)) (Q : ℝ) (rows : Nat → List ℝ × ℝ),
    (∀ i, vertexRow (blocks exBox (fun _ => 2) (fun _ => 1) (fun _ => 3) (fun k _ => if k = 0 then 1 / 2 else 0)) st i
      (inIds P.vertices 1) = some (rows i) ∧ (rows i).1.length = 3) ∧
    exBox.spatialAverage (fun i => (rows i).2) = .ok Q := by
  obtain ⟨P, hP, h3⟩ : ∃ P, readTopology [(0, 1), (1, 2), (3, 1)] 6 = some (.ok P) ∧
    (inIds P.vertices 1).length = 3 := ⟨_, rfl, rfl⟩
  have hu : UniOk exBox (fun _ => 2) (fun _ => 3)
      (fun k => if k = 0 then 1 / 2 else 0) [(0, 1), (1, 2), (3, 1)] 6 P := by
    refine ⟨exBox_ok, hP, fun _ _ => by norm_num, fun _ _ => by norm_num, fun k _ => ?_⟩
    unfold halfStep
    split <;> norm_num [abs_lt]
  obtain ⟨st, Q, h1⟩ := C86_solve_succeeds (hu.poly (kuhn := fun _ => 1)) (by simp)
  obtain ⟨rows, r1, _, r3⟩ := C109_vertexQ hu.poly (by simp) st Q h1 1 (by simp)
  exact ⟨P, st, Q, rows, fun i => ⟨(r1 i).1, by rw [(r1 i).2.1]; exact h3⟩, r3⟩

end Verif.R1d
