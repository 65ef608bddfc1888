import Verif.FieldIo.Model
import Verif.Mesh.Props
import Mathlib.Data.List.Nodup
import Mathlib.Data.List.Basic

/-! Helper lemmas for grid-data input/output. -/

namespace Verif.FieldIo

open Verif.Mesh

variable {α : Type}

/-- Values of all fields at rank `r` (fields too short are skipped). -/
def rowVals (fields : List (List α)) (r : Int) : List α :=
  fields.filterMap (fun f => f[r.toNat]?)

theorem writeRow_eq (fields : List (List α)) (r : Int) (h0 : 0 ≤ r)
    (h : ∀ f ∈ fields, r.toNat < f.length) : writeRow fields r = .ok (rowVals fields r) := by
  induction fields with
  | nil => rfl
  | cons f fs ih =>
    have hf := h f (by simp)
    have hfs := ih (fun g hg => h g (by simp [hg]))
    simp [writeRow, rowVals, h0, hf]
    rw [hfs]; rfl

theorem rowVals_length (fields : List (List α)) (r : Int)
    (h : ∀ f ∈ fields, r.toNat < f.length) : (rowVals fields r).length = fields.length := by
  induction fields with
  | nil => rfl
  | cons f fs ih =>
    have hf := h f (by simp)
    have hfs := ih (fun g hg => h g (by simp [hg]))
    simp [rowVals, hf] at hfs ⊢
    exact hfs

theorem writeRows_eq (fields : List (List α)) (rs : List Int) (h0 : ∀ r ∈ rs, 0 ≤ r)
    (h : ∀ r ∈ rs, ∀ f ∈ fields, r.toNat < f.length) :
    writeRows fields rs = .ok (rs.flatMap (rowVals fields)) := by
  induction rs with
  | nil => rfl
  | cons r rs ih =>
    have e1 := writeRow_eq fields r (h0 r (by simp)) (h r (by simp))
    have e2 := ih (fun x hx => h0 x (by simp [hx])) (fun x hx => h x (by simp [hx]))
    simp [writeRows, e1, e2]

/-- `a` and `b` have the same shape and agree on the ranks in `S`. -/
def AgreeOn (S : Int → Prop) (a b : List (List α)) : Prop :=
  List.Forall₂ (fun f g => f.length = g.length ∧ ∀ i : Nat, S i → f[i]? = g[i]?) a b

theorem AgreeOn.all {N : Nat} {a b : List (List α)} {S : Int → Prop} (h : AgreeOn S a b)
    (hb : ∀ f ∈ b, f.length = N) (hS : ∀ i : Nat, i < N → S i) : a = b := by
  unfold AgreeOn at h
  induction h with
  | nil => rfl
  | @cons f g fs gs hfg _ ih =>
    congr 1
    · apply List.ext_getElem?
      intro i
      have hg := hb g (by simp)
      by_cases hi : i < N
      · exact hfg.2 i (hS i hi)
      · rw [List.getElem?_eq_none (by omega), List.getElem?_eq_none (by omega)]
    · exact ih (fun f hf => hb f (by simp [hf]))

theorem AgreeOn.of_shape {N : Nat} {a b : List (List α)} (hab : a.length = b.length)
    (ha : ∀ f ∈ a, f.length = N) (hb : ∀ f ∈ b, f.length = N) :
    AgreeOn (fun _ => False) a b := by
  unfold AgreeOn
  induction a generalizing b with
  | nil => cases b <;> simp at hab; exact .nil
  | cons f fs ih =>
    cases b with
    | nil => simp at hab
    | cons g gs =>
      simp at hab
      refine .cons ⟨by rw [ha f (by simp), hb g (by simp)], fun _ h => h.elim⟩ ?_
      exact ih hab (fun f hf => ha f (by simp [hf])) (fun f hf => hb f (by simp [hf]))

theorem readRow_agree {S : Int → Prop} {a b : List (List α)} (h : AgreeOn S a b) (r : Int)
    (h0 : 0 ≤ r) (hr : ∀ f ∈ b, r.toNat < f.length) (rest : List α) :
    ∃ a', readRow a r (rowVals b r ++ rest) = .ok (a', rest) ∧
      AgreeOn (fun i => S i ∨ i = r) a' b := by
  unfold AgreeOn at h
  induction h with
  | nil => exact ⟨[], rfl, .nil⟩
  | @cons f g fs gs hfg _ ih =>
    have hg := hr g (by simp)
    obtain ⟨a', e, ha'⟩ := ih (fun f hf => hr f (by simp [hf]))
    refine ⟨f.set r.toNat (g[r.toNat]) :: a', ?_, ?_⟩
    · have : rowVals (g :: gs) r = g[r.toNat] :: rowVals gs r := by
        simp [rowVals, hg]
      rw [this, List.cons_append]
      simp only [readRow]
      rw [if_pos ⟨h0, by omega⟩, e]; rfl
    · refine .cons ⟨by simp [hfg.1], ?_⟩ ha'
      intro i hi
      by_cases hir : r.toNat = i
      · subst hir
        have : r.toNat < f.length := by omega
        simp [hg, this]
      · rw [List.getElem?_set_ne hir]
        rcases hi with hi | hi
        · exact hfg.2 i hi
        · omega

theorem readRows_agree (b : List (List α)) (rs : List Int) : ∀ {S : Int → Prop}
    {a : List (List α)}, AgreeOn S a b → (∀ r ∈ rs, 0 ≤ r) →
    (∀ r ∈ rs, ∀ f ∈ b, r.toNat < f.length) → ∀ (rest : List α),
    ∃ a', readRows a rs (rs.flatMap (rowVals b) ++ rest) = .ok (a', rest) ∧
      AgreeOn (fun i => S i ∨ i ∈ rs) a' b := by
  induction rs with
  | nil =>
    intro S a h _ _ rest
    refine ⟨a, rfl, ?_⟩
    simpa using h
  | cons r rs ih =>
    intro S a h h0 hr rest
    obtain ⟨a1, e1, h1⟩ := readRow_agree h r (h0 r (by simp)) (hr r (by simp))
      (rs.flatMap (rowVals b) ++ rest)
    obtain ⟨a2, e2, h2⟩ := ih h1 (fun x hx => h0 x (by simp [hx]))
      (fun x hx => hr x (by simp [hx])) rest
    refine ⟨a2, ?_, ?_⟩
    · simp only [List.flatMap_cons, List.append_assoc, readRows, e1, Res.ok_bind, e2]
    · have : (fun i => S i ∨ i ∈ r :: rs) = (fun i => (S i ∨ i = r) ∨ i ∈ rs) := by
        funext i; simp [or_assoc]
      rw [this]; exact h2

/-! ### Soundness of reading: whatever is accepted is what would be written -/

/-- `a'` differs from `a` at most at rank `r`. -/
def SameExcept (r : Int → Prop) (a' a : List (List α)) : Prop :=
  List.Forall₂ (fun f g => f.length = g.length ∧ ∀ i : Nat, ¬ r i → f[i]? = g[i]?) a' a

theorem SameExcept.refl (r : Int → Prop) (a : List (List α)) : SameExcept r a a := by
  unfold SameExcept
  induction a with
  | nil => exact .nil
  | cons f fs ih => exact .cons ⟨rfl, fun _ _ => rfl⟩ ih

theorem SameExcept.trans {r s : Int → Prop} {a b c : List (List α)} (h1 : SameExcept r a b)
    (h2 : SameExcept s b c) : SameExcept (fun i => r i ∨ s i) a c := by
  unfold SameExcept at *
  induction h1 generalizing c with
  | nil => cases h2; exact .nil
  | cons hfg _ ih =>
    cases h2 with
    | cons hgh t =>
      refine .cons ⟨hfg.1.trans hgh.1, fun i hi => ?_⟩ (ih t)
      rw [hfg.2 i (fun h => hi (.inl h)), hgh.2 i (fun h => hi (.inr h))]

theorem SameExcept.rowVals {r : Int → Prop} {a b : List (List α)} (h : SameExcept r a b) (i : Int)
    (h0 : 0 ≤ i) (hi : ¬ r i) : rowVals a i = rowVals b i := by
  unfold SameExcept at h
  induction h with
  | nil => rfl
  | @cons f g fs gs hfg _ ih =>
    have := hfg.2 i.toNat (by rwa [Int.toNat_of_nonneg h0])
    simp only [FieldIo.rowVals, List.filterMap_cons, this] at ih ⊢
    rw [ih]

theorem SameExcept.lengths {r : Int → Prop} {a b : List (List α)} (h : SameExcept r a b) {N : Nat}
    (hb : ∀ f ∈ b, f.length = N) : a.length = b.length ∧ ∀ f ∈ a, f.length = N := by
  unfold SameExcept at h
  induction h with
  | nil => exact ⟨rfl, hb⟩
  | @cons f g fs gs hfg _ ih =>
    obtain ⟨i1, i2⟩ := ih (fun f hf => hb f (by simp [hf]))
    refine ⟨by simp [i1], ?_⟩
    intro x hx
    rcases List.mem_cons.1 hx with rfl | hx
    · rw [hfg.1]; exact hb g (by simp)
    · exact i2 x hx

theorem readRow_sound (a : List (List α)) (r : Int) : ∀ (toks : List α) (a' : List (List α))
    (rest : List α), readRow a r toks = .ok (a', rest) →
      toks = rowVals a' r ++ rest ∧ SameExcept (· = r) a' a := by
  induction a with
  | nil =>
    intro toks a' rest h
    simp only [readRow, Res.ok.injEq, Prod.mk.injEq] at h
    obtain ⟨rfl, rfl⟩ := h
    exact ⟨rfl, .nil⟩
  | cons f fs ih =>
    intro toks a' rest h
    cases toks with
    | nil => simp [readRow] at h
    | cons t ts =>
      simp only [readRow] at h
      split at h
      · rename_i hc
        rw [Res.bind_eq_ok] at h
        obtain ⟨⟨x1, x2⟩, hx, he⟩ := h
        simp only [Res.pure_eq, Res.ok.injEq, Prod.mk.injEq] at he
        obtain ⟨rfl, rfl⟩ := he
        obtain ⟨i1, i2⟩ := ih ts x1 x2 hx
        refine ⟨?_, .cons ⟨by simp, ?_⟩ i2⟩
        · rw [i1]; simp [rowVals, hc.2]
        · intro i hi
          rw [List.getElem?_set_ne]
          intro hh; apply hi; omega
      · cases h

theorem readRows_sound (rs : List Int) : ∀ (a : List (List α)) (toks : List α)
    (a' : List (List α)) (rest : List α), rs.Nodup → (∀ r ∈ rs, 0 ≤ r) →
      readRows a rs toks = .ok (a', rest) →
      toks = rs.flatMap (rowVals a') ++ rest ∧ SameExcept (· ∈ rs) a' a := by
  induction rs with
  | nil =>
    intro a toks a' rest _ _ h
    simp only [readRows, Res.ok.injEq, Prod.mk.injEq] at h
    obtain ⟨rfl, rfl⟩ := h
    exact ⟨rfl, SameExcept.refl _ _⟩
  | cons r rs ih =>
    intro a toks a' rest hnd h0 h
    simp only [readRows] at h
    rw [Res.bind_eq_ok] at h
    obtain ⟨⟨x1, x2⟩, hx, he⟩ := h
    obtain ⟨i1, i2⟩ := readRow_sound a r toks x1 x2 hx
    rw [List.nodup_cons] at hnd
    obtain ⟨j1, j2⟩ := ih x1 x2 a' rest hnd.2 (fun x hx => h0 x (by simp [hx])) he
    refine ⟨?_, ?_⟩
    · rw [i1, j1, List.flatMap_cons, List.append_assoc,
        j2.rowVals r (h0 r (by simp)) hnd.1]
    · have := j2.trans i2
      have e : (fun i => i ∈ rs ∨ i = r) = (fun i => i ∈ r :: rs) := by
        funext i; simp [or_comm]
      rw [e] at this; exact this

/-! ### The rank sequences -/

theorem fortranRanks_eq (dims : IntVec) (m : Mesh) (h : Mesh.setDimensions dims = some m) :
    fortranRanks dims =
      .ok ((List.range m.size.toNat).map (fun n : Nat => m.rank (fortranPos dims n))) := by
  obtain ⟨it, h1, h2⟩ := C04_fortran_enumerates dims m h
  obtain ⟨hne, hpos, hm⟩ := setDimensions_some h
  have hsz : it.size = m.size := by
    unfold FIter.setDimensions at h1
    split at h1
    · unfold FIter.begin at h1
      split at h1
      · simp only [Option.some.injEq] at h1
        rw [← h1, hm]; exact sizeLoop_eq dims
      · cases h1
    · cases h1
  have hp : 0 < m.size := by rw [hm]; exact prod_pos hpos
  have := h2 (it.size.toNat + 1) (by rw [hsz]; push_cast; omega)
  simp only [fortranRanks, h1]
  congr 1
  have e := congrArg (List.map Prod.fst) this
  rw [List.map_map, List.map_map] at e
  exact e

theorem fortranRanks_props (dims : IntVec) (m : Mesh) (h : Mesh.setDimensions dims = some m) :
    ((List.range m.size.toNat).map (fun n : Nat => m.rank (fortranPos dims n))).Nodup ∧
    ∀ r : Int, r ∈ (List.range m.size.toNat).map (fun n : Nat => m.rank (fortranPos dims n)) ↔
      0 ≤ r ∧ r < m.size := by
  obtain ⟨hd, hs, -, hpr, hrp⟩ := C01_rank_position_bijection dims m h
  obtain ⟨hne, hpos, hm⟩ := setDimensions_some h
  obtain ⟨f1, f2⟩ := C04_fortran_bijective dims hpos
  constructor
  · apply List.Nodup.map_on _ List.nodup_range
    intro x hx y hy hxy
    rw [List.mem_range] at hx hy
    have rx := f1 x (by omega) (by omega)
    have ry := f1 y (by omega) (by omega)
    have e := congrArg m.position hxy
    rw [(hrp _ rx).2.2, (hrp _ ry).2.2] at e
    obtain ⟨k, _, hk⟩ := f2 _ rx
    have a := hk x ⟨by omega, by omega, rfl⟩
    have b := hk y ⟨by omega, by omega, e.symm⟩
    omega
  · intro r
    constructor
    · intro hr
      simp only [List.mem_map, List.mem_range] at hr
      obtain ⟨n, hn, rfl⟩ := hr
      have := hrp _ (f1 n (by omega) (by omega))
      exact ⟨this.1, this.2.1⟩
    · rintro ⟨h0, h1⟩
      obtain ⟨p1, p2⟩ := hpr r h0 h1
      obtain ⟨k, ⟨k0, k1, k2⟩, _⟩ := f2 _ p1
      simp only [List.mem_map, List.mem_range]
      refine ⟨k.toNat, by omega, ?_⟩
      rw [Int.toNat_of_nonneg k0, k2, p2]

theorem cStates_eq (dims : IntVec) (m : Mesh) (h : Mesh.setDimensions dims = some m) :
    ∃ its, cStates dims = .ok its ∧ its.map (fun s => (s.rank, s.pos)) =
      (List.range m.size.toNat).map (fun n : Nat => ((n : Int), m.position n)) := by
  obtain ⟨hne, hpos, hm⟩ := setDimensions_some h
  have hany : dims.any (fun d => decide (d ≤ 0)) = false := by
    rw [List.any_eq_false]; intro x hx; simpa using hpos x hx
  have hset : (Iter.empty dims.length).setDimensions dims =
      some { Iter.empty dims.length with dims := dims, size := sizeLoop dims } := by
    simp [Iter.setDimensions, hany]
  have hp : 0 < m.size := by rw [hm]; exact prod_pos hpos
  have hsz : sizeLoop dims = m.size := by rw [hm]; exact sizeLoop_eq dims
  refine ⟨_, by unfold cStates; rw [hset], ?_⟩
  exact C03_iterator_enumerates dims m h _ _ hset (by simp [Iter.empty]) _
    (by simp only [hsz]; push_cast; omega)

theorem cStates_ranks (dims : IntVec) (m : Mesh) (h : Mesh.setDimensions dims = some m) :
    ∃ its, cStates dims = .ok its ∧
      its.map (·.rank) = (List.range m.size.toNat).map (fun n : Nat => (n : Int)) := by
  obtain ⟨its, e, he⟩ := cStates_eq dims m h
  refine ⟨its, e, ?_⟩
  have := congrArg (List.map Prod.fst) he
  rw [List.map_map, List.map_map] at this
  exact this

/-! ### K-grid -/

/-- Tokens of row `r`. -/
def kRow (fields : List (List α)) (r : Int) : List (KTok α) :=
  KTok.label r :: (rowVals fields r).map KTok.val

theorem writeKRows_eq (fields : List (List α)) (N n : Nat) (k : Nat) (hk : k + n = N)
    (h : ∀ f ∈ fields, f.length = N) :
    writeKRows fields k ((List.range' k n).map (fun n : Nat => (n : Int))) =
      .ok (((List.range' k n).map (fun n : Nat => (n : Int))).flatMap (kRow fields)) := by
  induction n generalizing k with
  | zero => rfl
  | succ n ih =>
    rw [List.range'_succ, List.map_cons]
    have e1 := writeRow_eq fields (k : Int) (by omega) (fun f hf => by rw [h f hf]; omega)
    have e2 := ih (k + 1) (by omega)
    push_cast at e2
    simp only [writeKRows, decide_true, Res.check_true, Res.ok_bind, e1, e2]
    simp [kRow]

theorem readKRow_agree {S : Int → Prop} {a b : List (List α)} (h : AgreeOn S a b) (r : Int)
    (h0 : 0 ≤ r) (hr : ∀ f ∈ b, r.toNat < f.length) (rest : List (KTok α)) :
    ∃ a', readKRow a r ((rowVals b r).map KTok.val ++ rest) = .ok (a', rest) ∧
      AgreeOn (fun i => S i ∨ i = r) a' b := by
  unfold AgreeOn at h
  induction h with
  | nil => exact ⟨[], by cases rest <;> rfl, .nil⟩
  | @cons f g fs gs hfg _ ih =>
    have hg := hr g (by simp)
    obtain ⟨a', e, ha'⟩ := ih (fun f hf => hr f (by simp [hf]))
    refine ⟨f.set r.toNat (g[r.toNat]) :: a', ?_, ?_⟩
    · have : rowVals (g :: gs) r = g[r.toNat] :: rowVals gs r := by
        simp [rowVals, hg]
      rw [this, List.map_cons, List.cons_append]
      simp only [readKRow]
      rw [if_pos ⟨h0, by omega⟩, e]; rfl
    · refine .cons ⟨by simp [hfg.1], ?_⟩ ha'
      intro i hi
      by_cases hir : r.toNat = i
      · subst hir
        have : r.toNat < f.length := by omega
        simp [hg, this]
      · rw [List.getElem?_set_ne hir]
        rcases hi with hi | hi
        · exact hfg.2 i hi
        · omega

theorem readKRows_agree (b : List (List α)) (N n : Nat) : ∀ {S : Int → Prop}
    {a : List (List α)} (k : Nat), k + n = N → AgreeOn S a b →
    (∀ f ∈ b, f.length = N) → ∀ (rest : List (KTok α)),
    ∃ a', readKRows a k ((List.range' k n).map (fun n : Nat => (n : Int)))
        (((List.range' k n).map (fun n : Nat => (n : Int))).flatMap (kRow b) ++ rest)
        = .ok (a', rest) ∧
      AgreeOn (fun i => S i ∨ i ∈ ((List.range' k n).map (fun n : Nat => (n : Int)))) a' b := by
  induction n with
  | zero =>
    intro S a k _ h _ rest
    refine ⟨a, rfl, ?_⟩
    simpa using h
  | succ n ih =>
    intro S a k hk h hb rest
    rw [List.range'_succ, List.map_cons]
    set tl := ((List.range' (k + 1) n).map (fun n : Nat => (n : Int))) with htl
    obtain ⟨a1, e1, h1⟩ := readKRow_agree h (k : Int) (by omega)
      (fun f hf => by rw [hb f hf]; omega) (tl.flatMap (kRow b) ++ rest)
    obtain ⟨a2, e2, h2⟩ := ih (k + 1) (by omega) h1 hb rest
    push_cast at e2
    refine ⟨a2, ?_, ?_⟩
    · simp only [List.flatMap_cons, kRow, List.cons_append, List.append_assoc, readKRows,
        decide_true, Res.check_true, Res.ok_bind]
      rw [e1]
      exact e2
    · have : (fun i => S i ∨ i ∈ (k : Int) :: tl) = (fun i => (S i ∨ i = (k:Int)) ∨ i ∈ tl) := by
        funext i; simp [or_assoc]
      rw [this]; exact h2

theorem readKRow_sound (a : List (List α)) (r : Int) : ∀ (toks : List (KTok α))
    (a' : List (List α)) (rest : List (KTok α)), readKRow a r toks = .ok (a', rest) →
      toks = (rowVals a' r).map KTok.val ++ rest ∧ SameExcept (· = r) a' a := by
  induction a with
  | nil =>
    intro toks a' rest h
    have : readKRow ([] : List (List α)) r toks = .ok ([], toks) := by cases toks <;> rfl
    rw [this] at h
    simp only [Res.ok.injEq, Prod.mk.injEq] at h
    obtain ⟨rfl, rfl⟩ := h
    exact ⟨rfl, .nil⟩
  | cons f fs ih =>
    intro toks a' rest h
    match toks with
    | [] => simp [readKRow] at h
    | .label _ :: _ => simp [readKRow] at h
    | .val t :: ts =>
      simp only [readKRow] at h
      split at h
      · rename_i hc
        rw [Res.bind_eq_ok] at h
        obtain ⟨⟨x1, x2⟩, hx, he⟩ := h
        simp only [Res.pure_eq, Res.ok.injEq, Prod.mk.injEq] at he
        obtain ⟨rfl, rfl⟩ := he
        obtain ⟨i1, i2⟩ := ih ts x1 x2 hx
        refine ⟨?_, .cons ⟨by simp, ?_⟩ i2⟩
        · rw [i1]; simp [rowVals, hc.2]
        · intro i hi
          rw [List.getElem?_set_ne]
          intro hh; apply hi; omega
      · cases h

theorem readKRows_sound (rs : List Int) : ∀ (a : List (List α)) (k : Int) (toks : List (KTok α))
    (a' : List (List α)) (rest : List (KTok α)), rs.Nodup → (∀ r ∈ rs, 0 ≤ r) →
      readKRows a k rs toks = .ok (a', rest) →
      toks = rs.flatMap (kRow a') ++ rest ∧ SameExcept (· ∈ rs) a' a := by
  induction rs with
  | nil =>
    intro a k toks a' rest _ _ h
    have : readKRows a k [] toks = .ok (a, toks) := by cases toks <;> rfl
    rw [this] at h
    simp only [Res.ok.injEq, Prod.mk.injEq] at h
    obtain ⟨rfl, rfl⟩ := h
    exact ⟨rfl, SameExcept.refl _ _⟩
  | cons r rs ih =>
    intro a k toks a' rest hnd h0 h
    match toks with
    | [] => simp [readKRows] at h
    | .val _ :: _ => simp [readKRows] at h
    | .label n :: ts =>
      simp only [readKRows] at h
      by_cases hkn : k = n
      · by_cases hkr : k = r
        · subst hkn hkr
          simp only [decide_true, Res.check_true, Res.ok_bind] at h
          rw [Res.bind_eq_ok] at h
          obtain ⟨⟨x1, x2⟩, hx, he⟩ := h
          obtain ⟨i1, i2⟩ := readKRow_sound a k ts x1 x2 hx
          rw [List.nodup_cons] at hnd
          obtain ⟨j1, j2⟩ := ih x1 _ x2 a' rest hnd.2 (fun x hx => h0 x (by simp [hx])) he
          refine ⟨?_, ?_⟩
          · rw [i1, j1, List.flatMap_cons, List.append_assoc, kRow,
              j2.rowVals k (h0 k (by simp)) hnd.1]
            simp
          · have := j2.trans i2
            have e : (fun i => i ∈ rs ∨ i = k) = (fun i => i ∈ k :: rs) := by
              funext i; simp [or_comm]
            rw [e] at this; exact this
        · simp [hkn, show decide (n = r) = false by simp; omega] at h
      · simp [hkn] at h

end Verif.FieldIo
