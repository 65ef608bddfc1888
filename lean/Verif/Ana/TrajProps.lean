import Verif.Ana.Traj
import Verif.Ana.Props
import Verif.FieldIo.Props
import Verif.Text.HeaderProps
import Verif.Tac

/-!
# C104: analysis of trajectory files
-/

set_option autoImplicit false
set_option linter.unusedSectionVars false

namespace Verif.Ana

open Verif.Text Verif.FieldIo Verif.Mesh

variable {K : Type}

/-! ## Reading data, whatever is in the file -/

theorem readRow_cases (a : Flds K) (r : Int) (h0 : 0 ≤ r) (h : ∀ f ∈ a, r.toNat < f.length) (toks : List K) :
    (a.length ≤ toks.length → ∃ a', readRow a r toks = .ok (a', toks.drop a.length) ∧
      a'.map List.length = a.map List.length) ∧
    (toks.length < a.length → readRow a r toks = .throw) := by
  induction a generalizing toks with
  | nil => exact ⟨fun _ => ⟨[], rfl, rfl⟩, fun h => absurd h (by simp)⟩
  | cons f fs ih =>
    cases toks with
    | nil => exact ⟨fun h => absurd h (by simp), fun _ => rfl⟩
    | cons t ts =>
      obtain ⟨h1, h2⟩ := ih (fun g hg => h g (List.mem_cons_of_mem _ hg)) ts
      have hf : 0 ≤ r ∧ r.toNat < f.length := ⟨h0, h f List.mem_cons_self⟩
      constructor
      · intro hl
        obtain ⟨a', e, he⟩ := h1 (by simpa using hl)
        refine ⟨f.set r.toNat t :: a', ?_, ?_⟩
        · simp only [readRow]
          rw [if_pos hf, e]
          rfl
        · simp [he]
      · intro hl
        simp only [readRow]
        rw [if_pos hf, h2 (by simpa using hl)]
        rfl

theorem readRows_cases (rs : List Int) (a : Flds K) (h0 : ∀ r ∈ rs, 0 ≤ r)
    (h : ∀ r ∈ rs, ∀ f ∈ a, r.toNat < f.length) (toks : List K) :
    (rs.length * a.length ≤ toks.length → ∃ a', readRows a rs toks = .ok (a', toks.drop (rs.length * a.length)) ∧
      a'.map List.length = a.map List.length) ∧
    (toks.length < rs.length * a.length → readRows a rs toks = .throw) := by
  induction rs generalizing a toks with
  | nil => exact ⟨fun _ => ⟨a, by simp [readRows], rfl⟩, fun h => absurd h (by simp)⟩
  | cons r rs ih =>
    obtain ⟨h1, h2⟩ := readRow_cases a r (h0 r List.mem_cons_self) (h r List.mem_cons_self) toks
    simp only [readRows, List.length_cons, Nat.succ_mul]
    by_cases hl : a.length ≤ toks.length
    · obtain ⟨a', e, he⟩ := h1 hl
      have hlen : a'.length = a.length := by simpa using congrArg List.length he
      have hb : ∀ x ∈ rs, ∀ f ∈ a', x.toNat < f.length := by
        intro x hx f hf
        have : f.length ∈ a'.map List.length := List.mem_map_of_mem hf
        rw [he] at this
        obtain ⟨f', hf', e'⟩ := List.mem_map.mp this
        rw [← e']
        exact h x (List.mem_cons_of_mem _ hx) f' hf'
      obtain ⟨i1, i2⟩ := ih a' (fun x hx => h0 x (List.mem_cons_of_mem _ hx)) hb (toks.drop a.length)
      rw [hlen, List.length_drop] at i1 i2
      rw [e]
      simp only [Res.ok_bind]
      constructor
      · intro hn
        obtain ⟨b, eb, hb⟩ := i1 (by omega)
        refine ⟨b, ?_, hb.trans he⟩
        rw [eb, List.drop_drop, Nat.add_comm]
      · intro hn
        exact i2 (by omega)
    · rw [h2 (by omega)]
      exact ⟨fun hn => by omega, fun _ => rfl⟩

/-- Reading consumes the right number of values, or throws when there are not enough. -/
theorem readRGrid_cases (c : Ctx) (m : Mesh) (h : Mesh.setDimensions c.dims = some m) (target : Flds K)
    (ht : Shape target c.nMonomer m.size.toNat) (toks : List K) :
    (m.size.toNat * c.nMonomer ≤ toks.length → ∃ a', readRGridData target c.nMonomer c.dims toks =
      .ok (a', toks.drop (m.size.toNat * c.nMonomer))) ∧
    (toks.length < m.size.toNat * c.nMonomer → readRGridData target c.nMonomer c.dims toks = .throw) := by
  obtain ⟨t1, t2, t3⟩ := ht
  obtain ⟨hnd, hmem⟩ := fortranRanks_props c.dims m h
  have hr := readRows_cases ((List.range m.size.toNat).map (fun n : Nat => m.rank (fortranPos c.dims n))) target
    (fun r hr => ((hmem r).1 hr).1)
    (fun r hr f hf => by have := (hmem r).1 hr; rw [t3 f hf]; omega) toks
  rw [List.length_map, List.length_range, t2] at hr
  simp only [readRGridData, fortranRanks_eq c.dims m h, t2, t1, decide_true, Res.check_true, Res.ok_bind]
  exact ⟨fun hl => by obtain ⟨a', e, -⟩ := hr.1 hl; exact ⟨a', e⟩, hr.2⟩

/-! ## Frames -/

/-- Data lines of a frame with fields `g`. -/
structure Rows (c : Ctx) (N : Nat) (rows : List (List (Tok K))) (g : Flds K) : Prop where
  pos : 0 < c.nMonomer
  count : rows.length = N
  nonempty : 0 < N
  width : ∀ r ∈ rows, r.length = c.nMonomer
  shape : Shape g c.nMonomer N
  data : ∃ data : List K, rows.flatten = data.map .num ∧ ∀ target rest, Shape target c.nMonomer N →
    readRGridData target c.nMonomer c.dims (data ++ rest) = .ok (g, rest)

/-- Lines of a frame. -/
def frame (c : Ctx) (iStep : Int) (rows : List (List (Tok K))) : List (List (Tok K)) :=
  [.word "i".toList, .word "=".toList, .int iStep] :: [.word "mesh".toList] :: c.dims.map .int :: (rows ++ [[]])

theorem Rows.length {c : Ctx} {N : Nat} {rows : List (List (Tok K))} {g : Flds K} (h : Rows c N rows g) :
    rows.flatten.length = N * c.nMonomer := by
  rw [List.length_flatten, List.map_congr_left h.width, List.map_const', List.sum_replicate, h.count, smul_eq_mul]

theorem rowLines_eq (fields : Flds K) (rs : List Int) (h0 : ∀ r ∈ rs, 0 ≤ r)
    (h : ∀ r ∈ rs, ∀ f ∈ fields, r.toNat < f.length) :
    rowLines fields rs = .ok (rs.map (rowVals fields)) := by
  induction rs with
  | nil => rfl
  | cons r rs ih =>
    simp only [rowLines, writeRow_eq fields r (h0 r List.mem_cons_self) (h r List.mem_cons_self),
      ih (fun x hx => h0 x (List.mem_cons_of_mem _ hx)) (fun x hx => h x (List.mem_cons_of_mem _ hx))]
    rfl

theorem rowVals_map (rd : K → K) (fields : Flds K) (r : Int) :
    rowVals (fields.map (List.map rd)) r = (rowVals fields r).map rd := by
  induction fields with
  | nil => rfl
  | cons f fs ih =>
    simp only [rowVals, List.map_cons, List.filterMap_cons, List.getElem?_map] at ih ⊢
    cases f[r.toNat]? with
    | none => simpa using ih
    | some v => simpa using ih

theorem shape_map (rd : K → K) {fields : Flds K} {n N : Nat} (h : Shape fields n N) :
    Shape (fields.map (List.map rd)) n N := by
  obtain ⟨h1, h2, h3⟩ := h
  refine ⟨h1, by simpa using h2, ?_⟩
  intro f hf
  obtain ⟨f', hf', rfl⟩ := List.mem_map.mp hf
  simpa using h3 f' hf'

/-- What `writeFrame` writes. -/
theorem writeFrame_ok (rd : K → K) (c : Ctx) (m : Mesh) (h : Mesh.setDimensions c.dims = some m) (iStep : Int)
    (fields : Flds K) (hs : Shape fields c.nMonomer m.size.toNat) (hN : 0 < m.size.toNat) :
    ∃ rows, writeFrame rd c iStep fields = .ok (frame c iStep rows) ∧
      Rows c m.size.toNat rows (fields.map (List.map rd)) := by
  obtain ⟨h1, h2, h3⟩ := id hs
  obtain ⟨hnd, hmem⟩ := fortranRanks_props c.dims m h
  have hb : ∀ r ∈ (List.range m.size.toNat).map (fun n : Nat => m.rank (fortranPos c.dims n)),
      ∀ f ∈ fields, r.toNat < f.length := by
    intro r hr f hf
    have := (hmem r).1 hr
    rw [h3 f hf]
    omega
  have hrl := rowLines_eq fields _ (fun r hr => ((hmem r).1 hr).1) hb
  refine ⟨(((List.range m.size.toNat).map (fun n : Nat => m.rank (fortranPos c.dims n))).map
    (rowVals fields)).map (fun r => r.map fun x => .num (rd x)), ?_, ?_⟩
  · unfold writeFrame
    rw [if_pos ⟨h1, h2.symm⟩, fortranRanks_eq c.dims m h]
    show (rowLines fields _).bind _ = _
    rw [hrl]
    rfl
  · refine ⟨h1, by simp, hN, ?_, shape_map rd hs, ?_⟩
    · intro r hr
      obtain ⟨r1, hr1, rfl⟩ := List.mem_map.mp hr
      obtain ⟨k, hk, rfl⟩ := List.mem_map.mp hr1
      rw [List.length_map, rowVals_length fields k (hb k hk), h2]
    · obtain ⟨toks, hw, -, hread⟩ := C05_rgrid_roundtrip c.dims m h (fields.map (List.map rd))
        (fields.map (List.map rd)) c.nMonomer (shape_map rd hs) (shape_map rd hs)
      refine ⟨toks, ?_, ?_⟩
      · have hl := (C05_layout c.dims m h (fields.map (List.map rd)) c.nMonomer (shape_map rd hs)).1
        rw [hw] at hl
        injection hl with hl
        rw [hl]
        have : ∀ k : Nat, (fields.map (List.map rd)).filterMap
            (fun f => f[(m.rank (fortranPos c.dims k)).toNat]?) =
            (rowVals fields (m.rank (fortranPos c.dims k))).map rd := fun k => rowVals_map rd fields _
        simp only [this, List.map_map, List.flatMap, List.map_flatten]
        congr 1
        apply List.map_congr_left
        intro k _
        simp
      · intro target rest ht
        obtain ⟨toks', hw', -, hread'⟩ := C05_rgrid_roundtrip c.dims m h (fields.map (List.map rd))
          target c.nMonomer (shape_map rd hs) ht
        rw [hw] at hw'
        injection hw' with hw'
        rw [hw']
        exact hread' rest

/-! ## Reading a frame -/

theorem getNextLine_cons (x : Tok K) (l : List (Tok K)) (r : List (List (Tok K))) :
    getNextLine ((x :: l) :: r) = some (x :: l, r) := rfl

theorem getNextLine_blank (r : List (List (Tok K))) (h : r.flatten = []) : getNextLine r = none := by
  induction r with
  | nil => rfl
  | cons l r ih =>
    rw [List.flatten_cons, List.append_eq_nil_iff] at h
    obtain ⟨rfl, h⟩ := h
    exact ih h

variable [IntCast K]

theorem numPrefix_append (data : List K) (r : List (Tok K)) :
    numPrefix (data.map .num ++ r) = data ++ numPrefix r := by
  induction data with
  | nil => rfl
  | cons x t ih => simp [numPrefix, ih]

theorem numPrefix_length (l : List (Tok K)) : (numPrefix l).length ≤ l.length := by
  induction l with
  | nil => simp [numPrefix]
  | cons x t ih => cases x <;> simp [numPrefix, ih]

theorem dropToks_rows (n : Nat) (hn : 0 < n) (rows r : List (List (Tok K))) (hne : rows ≠ [])
    (hw : ∀ x ∈ rows, x.length = n) : dropToks rows.flatten.length (rows ++ r) = [] :: r := by
  induction rows with
  | nil => exact absurd rfl hne
  | cons l t ih =>
    have hl := hw l List.mem_cons_self
    rw [List.cons_append, dropToks, List.flatten_cons, List.length_append]
    cases t with
    | nil => simp
    | cons l' t' =>
      have hl' := hw l' (by simp)
      have ih := ih (by simp) (fun x hx => hw x (List.mem_cons_of_mem _ hx))
      rw [if_neg, Nat.add_sub_cancel_left]
      · exact ih
      · rw [List.flatten_cons, List.length_append]
        omega

/-- Data lines followed by anything. -/
theorem readData_rows {c : Ctx} {N : Nat} {rows : List (List (Tok K))} {g : Flds K} (h : Rows c N rows g)
    (target : Flds K) (ht : Shape target c.nMonomer N) (r : List (List (Tok K))) (nl : Bool)
    (hr : nl = true ∨ r.flatten ≠ []) :
    readData c target ⟨rows ++ r, nl⟩ = .ok (g, ⟨[] :: r, nl⟩) := by
  obtain ⟨data, hd, hread⟩ := h.data
  have hlen : data.length = rows.flatten.length := by rw [hd, List.length_map]
  unfold readData
  dsimp only
  rw [List.flatten_append, hd, numPrefix_append, hread _ _ ht]
  show (if _ then _ else _) = _
  have hu : (data ++ numPrefix r.flatten).length - (numPrefix r.flatten).length = data.length := by
    rw [List.length_append]; omega
  dsimp only
  rw [hu, if_neg, hlen, dropToks_rows c.nMonomer h.pos rows r (by
    intro e; have h1 := h.count; rw [e, List.length_nil] at h1; have h2 := h.nonempty; omega) h.width]
  rintro ⟨e, hnl⟩
  rw [List.length_append, List.length_map] at e
  rcases hr with hr | hr
  · rw [hnl] at hr; cases hr
  · exact hr (List.length_eq_zero_iff.mp (by omega))

/-- A complete frame followed by anything. -/
theorem readFrame_full {c : Ctx} (hc : c.dims ≠ []) {N : Nat} {rows : List (List (Tok K))} {g : Flds K}
    (h : Rows c N rows g) (iStep : Int)
    (target : Flds K) (ht : Shape target c.nMonomer N) (r : List (List (Tok K))) (nl : Bool)
    (hr : nl = true ∨ r.flatten ≠ []) :
    readFrame c target ⟨frame c iStep rows ++ r, nl⟩ = .ok (some (g, ⟨[] :: [] :: r, nl⟩)) := by
  obtain ⟨d, ds, e⟩ := List.exists_cons_of_ne_nil hc
  have h1 := readData_rows h target ht ([] :: r) nl (by simpa using hr)
  unfold readFrame frame
  simp only [List.cons_append, getNextLine_cons, e, List.map_cons]
  simp only [checkString, if_true, Res.bind]
  rw [List.append_assoc]
  simp only [List.cons_append, List.nil_append, h1]

theorem readFrame_blank (c : Ctx) (target : Flds K) (r : List (List (Tok K))) (nl : Bool) :
    readFrame c target ⟨[] :: r, nl⟩ = readFrame c target ⟨r, nl⟩ := rfl

theorem readFrame_end (c : Ctx) (target : Flds K) (r : List (List (Tok K))) (nl : Bool) (h : r.flatten = []) :
    readFrame c target ⟨r, nl⟩ = .ok none := by
  unfold readFrame
  dsimp only
  rw [getNextLine_blank r h]

/-- Parts of a frame: the command ends, throws, or reads the frame completely. -/
theorem readFrame_part {c : Ctx} (m : Mesh) (hm : Mesh.setDimensions c.dims = some m) (hc : c.dims ≠ [])
    {rows : List (List (Tok K))} {g : Flds K}
    (h : Rows c m.size.toNat rows g) (iStep : Int) (target : Flds K)
    (ht : Shape target c.nMonomer m.size.toNat)
    (pre post : List (List (Tok K))) (l : List (Tok K)) (k : Nat) (tail : List (Tok K)) (nl : Bool)
    (he : frame c iStep rows = pre ++ l :: post)
    (htail : tail = [] ∨ (∃ t, tail = [t]) ∧ k < l.length ∧ nl = false)
    (hnl : l.take k ++ tail = [] → nl = true) :
    ∀ o, o = readFrame c target ⟨pre ++ [l.take k ++ tail], nl⟩ →
    o = .ok none ∨ o = .throw ∨ ∃ r, r.flatten = [] ∧ o = .ok (some (g, ⟨r, nl⟩)) := by
  obtain ⟨d, ds, ed⟩ := List.exists_cons_of_ne_nil hc
  intro o ho0
  generalize hx : l.take k ++ tail = x at *
  have hone : ∀ y : List (Tok K), getNextLine [y] = none ∨ getNextLine [y] = some (y, []) := by
    intro y; cases y with
    | nil => exact Or.inl rfl
    | cons a b => exact Or.inr rfl
  have hbind : ∀ {α β : Type} (a : Res α) (b : Res β), (∀ x, a ≠ .ok x) → a ≠ .ub → (a.bind fun _ => b) = .throw := by
    intro α β a b h1 h2
    cases a with
    | ok x => exact absurd rfl (h1 x)
    | throw => rfl
    | ub => exact absurd rfl h2
  match pre, he, ho0 with
  | [], he, ho0 =>
    have ho : o = readFrame c target ⟨[x], nl⟩ := ho0
    unfold readFrame at ho
    dsimp only at ho
    rcases hone x with h1 | h1
    · rw [h1] at ho
      exact Or.inl ho
    · rw [h1] at ho
      right; left
      rw [ho]
      dsimp only
      unfold checkString getNextLine
      rcases x with _ | ⟨_ | _ | _, x⟩
      · rfl
      · dsimp only
        split_ifs
        · simp only [Res.bind]
          rcases x with _ | ⟨_ | _ | _, x⟩
          · rfl
          · dsimp only
            split_ifs <;> rfl
          · rfl
          · rfl
        · rfl
      · rfl
      · rfl
  | [a], he, ho0 =>
    have ha : a = [.word "i".toList, .word "=".toList, .int iStep] := (List.cons.inj he).1.symm
    subst ha
    right; left
    rw [ho0]
    show readFrame c target ⟨[_, x], nl⟩ = _
    unfold readFrame
    simp only [getNextLine_cons, checkString, if_true, Res.bind]
    rcases hone x with h1 | h1
    · rw [h1]
    · rw [h1]
      dsimp only
      rcases x with _ | ⟨_ | _ | _, x⟩
      · rfl
      · dsimp only
        split_ifs <;> rfl
      · rfl
      · rfl
  | [a, b], he, ho0 =>
    have ha : a = [.word "i".toList, .word "=".toList, .int iStep] := (List.cons.inj he).1.symm
    have hb : b = [.word "mesh".toList] := (List.cons.inj (List.cons.inj he).2).1.symm
    subst ha hb
    right; left
    rw [ho0]
    show readFrame c target ⟨[_, _, x], nl⟩ = _
    unfold readFrame
    simp only [getNextLine_cons, checkString, if_true, Res.bind]
    rcases hone x with h1 | h1
    · rw [h1]
    · rw [h1]
      dsimp only
      have hs := (readRGrid_cases c m hm target ht []).2 (by
        have := h.pos; have := h.nonempty; simp only [List.length_nil]; positivity)
      unfold readData
      simp only [List.flatten_nil, numPrefix]
      rw [hs]
      rfl
  | a :: b :: q :: pre', he, ho0 =>
    obtain ⟨ha, he1⟩ := List.cons.inj he
    obtain ⟨hb, he2⟩ := List.cons.inj he1
    obtain ⟨hq, he3⟩ := List.cons.inj he2
    subst ha hb hq
    have ho : o = (readData c target ⟨pre' ++ [x], nl⟩).bind fun x => .ok (some x) := by
      rw [ho0]
      show readFrame c target ⟨_ :: _ :: c.dims.map .int :: (pre' ++ [x]), nl⟩ = _
      unfold readFrame
      simp only [getNextLine_cons, ed, List.map_cons, checkString, if_true, Res.bind]
    have hcase : (∃ post', rows = pre' ++ l :: post') ∨ (pre' = rows ∧ l = []) := by
      rcases List.append_eq_append_iff.mp he3 with ⟨u, hu1, hu2⟩ | ⟨u, hu1, hu2⟩
      · -- rows ++ u = pre'
        cases u with
        | nil =>
          rw [List.append_nil] at hu1
          exact Or.inr ⟨hu1, (List.cons.inj hu2).1.symm⟩
        | cons u0 us =>
          have h2 := (List.cons.inj hu2).2
          have := congrArg List.length h2
          simp at this
      · cases u with
        | nil =>
          rw [List.append_nil] at hu1
          rw [List.nil_append] at hu2
          exact Or.inr ⟨hu1.symm, (List.cons.inj hu2).1⟩
        | cons u0 us =>
          have h2 := (List.cons.inj hu2).1
          exact Or.inl ⟨us, by rw [hu1, h2]⟩
    rcases hcase with ⟨post', hrows⟩ | ⟨hpre, hl⟩
    · have hT := h.length
      have hlw : l.length = c.nMonomer := h.width l (by rw [hrows]; simp)
      have hxl : x.length ≤ l.length ∧ (x.length = l.length → x = l ∨ nl = false) := by
        rw [← hx]
        rcases htail with rfl | ⟨⟨t, rfl⟩, hk, hn⟩
        · simp only [List.append_nil, List.length_take]
          refine ⟨by omega, fun e => Or.inl (List.take_of_length_le (by omega))⟩
        · simp only [List.length_append, List.length_take, List.length_cons, List.length_nil]
          exact ⟨by omega, fun _ => Or.inr hn⟩
      have htot : (pre' ++ [x]).flatten.length ≤ rows.flatten.length ∧
          ((pre' ++ [x]).flatten.length = rows.flatten.length → post' = [] ∧ x.length = l.length) := by
        have e1 : (pre' ++ [x]).flatten.length = pre'.flatten.length + x.length := by simp
        have e2 : rows.flatten.length = pre'.flatten.length + (l.length + post'.flatten.length) := by
          rw [hrows]; simp
        refine ⟨by omega, fun e => ?_⟩
        have h3 : post'.flatten.length = 0 := by omega
        refine ⟨?_, by omega⟩
        cases post' with
        | nil => rfl
        | cons p ps =>
          exfalso
          have hp := h.width p (by rw [hrows]; simp)
          have := h.pos
          rw [List.flatten_cons, List.length_append] at h3
          omega
      obtain ⟨r1, r2⟩ := readRGrid_cases c m hm target ht (numPrefix (pre' ++ [x]).flatten)
      have hle := numPrefix_length (pre' ++ [x]).flatten
      by_cases hshort : (numPrefix (pre' ++ [x]).flatten).length < m.size.toNat * c.nMonomer
      · right; left
        rw [ho]
        unfold readData
        dsimp only
        rw [r2 hshort]
        rfl
      · have hfull : (pre' ++ [x]).flatten.length = rows.flatten.length := by omega
        obtain ⟨hp, hxe⟩ := htot.2 hfull
        rcases hxl.2 hxe with hxl' | hxl'
        · have hlines : pre' ++ [x] = rows := by rw [hrows, hp, hxl']
          cases nl with
          | true =>
            right; right
            refine ⟨[[]], rfl, ?_⟩
            have := readData_rows h target ht [] true (Or.inl rfl)
            rw [List.append_nil] at this
            rw [ho, hlines, this]
            rfl
          | false =>
            right; left
            obtain ⟨a', ea⟩ := r1 (by omega)
            rw [ho]
            unfold readData
            dsimp only
            rw [ea]
            simp only [Res.bind, List.length_drop]
            rw [if_pos]
            exact ⟨by omega, trivial⟩
        · right; left
          obtain ⟨a', ea⟩ := r1 (by omega)
          rw [ho]
          unfold readData
          dsimp only
          rw [ea]
          simp only [Res.bind, List.length_drop]
          rw [if_pos]
          exact ⟨by omega, hxl'⟩
    · right; right
      have hx0 : x = [] := by
        rw [← hx, hl]
        rcases htail with rfl | ⟨-, hk, -⟩
        · simp
        · rw [hl] at hk; simp at hk
      refine ⟨[[], []], rfl, ?_⟩
      rw [ho, hpre, hx0, readData_rows h target ht [[]] nl (Or.inl (hnl hx0))]
      rfl

/-! ## The loop over frames -/

/-- Frames numbered from `i` on, as analyzers should see them: those from number `min` on; the first of them
after `setup`. -/
def seen (min : Nat) (comp : Flds K → Flds K) (gs : List (Flds K)) (i : Nat) : List (Nat × Flds K) :=
  ((gs.zipIdx i).filter fun x => min ≤ x.2).map fun x => (x.2, if x.2 = min then comp x.1 else x.1)

theorem seen_cons (min : Nat) (comp : Flds K → Flds K) (g : Flds K) (gs : List (Flds K)) (i : Nat) :
    seen min comp (g :: gs) i =
      (if min ≤ i then [(i, if i = min then comp g else g)] else []) ++ seen min comp gs (i + 1) := by
  unfold seen
  rw [List.zipIdx_cons, List.filter_cons]
  by_cases h : min ≤ i <;> simp [h]

theorem seen_nil (min : Nat) (comp : Flds K → Flds K) (i : Nat) : seen min comp [] i = [] := rfl

theorem scan_blank (c : Ctx) (min : Nat) (comp : Flds K → Flds K) (left i : Nat) (cur : Flds K)
    (r : List (List (Tok K))) (nl : Bool) :
    scan c min comp left i cur ⟨[] :: r, nl⟩ = scan c min comp left i cur ⟨r, nl⟩ := by
  cases left <;> rfl

theorem scan_end (c : Ctx) (min : Nat) (comp : Flds K → Flds K) (left i : Nat) (cur : Flds K)
    (r : List (List (Tok K))) (nl : Bool) (h : r.flatten = []) :
    scan c min comp left i cur ⟨r, nl⟩ = (seen min comp ([cur].take left) i, .ok ()) := by
  cases left with
  | zero => rfl
  | succ left =>
    unfold scan
    dsimp only
    rw [readFrame_end c cur r nl h, List.take_succ_cons, List.take_nil, seen_cons, seen_nil, List.append_nil]

/-- The frames of a file. -/
inductive Frames (c : Ctx) (N : Nat) : List (List (Tok K)) → List (Flds K) → Prop
  | nil : Frames c N [] []
  | cons {rows : List (List (Tok K))} {g : Flds K} {L : List (List (Tok K))} {gs : List (Flds K)} (iStep : Int)
    (h : Rows c N rows g) (t : Frames c N L gs) : Frames c N (frame c iStep rows ++ L) (g :: gs)

/-- A complete file. -/
theorem scan_full {c : Ctx} (hc : c.dims ≠ []) {N : Nat} (min : Nat) (comp : Flds K → Flds K)
    {L : List (List (Tok K))} {gs : List (Flds K)} (hf : Frames c N L gs) (left i : Nat) (cur : Flds K)
    (hcur : Shape cur c.nMonomer N) :
    scan c min comp left i cur ⟨L, true⟩ = (seen min comp ((cur :: gs).take left) i, .ok ()) := by
  induction hf generalizing left i cur with
  | nil => exact scan_end c min comp left i cur [] true rfl
  | @cons rows g L gs iStep h t ih =>
    cases left with
    | zero => rfl
    | succ left =>
      unfold scan
      dsimp only
      rw [readFrame_full hc h iStep cur hcur L true (Or.inl rfl)]
      dsimp only
      rw [scan_blank, scan_blank, ih left (i + 1) g h.shape, List.take_succ_cons, seen_cons]

/-- A file cut anywhere. -/
theorem scan_cut {c : Ctx} (m : Mesh) (hm : Mesh.setDimensions c.dims = some m) (hc : c.dims ≠ [])
    (min : Nat) (comp : Flds K → Flds K)
    {L : List (List (Tok K))} {gs : List (Flds K)} (hf : Frames c m.size.toNat L gs)
    (pre post : List (List (Tok K))) (l : List (Tok K)) (k : Nat) (tail : List (Tok K)) (nl : Bool)
    (he : L = pre ++ l :: post)
    (htail : tail = [] ∨ (∃ t, tail = [t]) ∧ k < l.length ∧ nl = false)
    (hnl : l.take k ++ tail = [] → nl = true) (left i : Nat) (cur : Flds K)
    (hcur : Shape cur c.nMonomer m.size.toNat) :
    ∃ j, (scan c min comp left i cur ⟨pre ++ [l.take k ++ tail], nl⟩).1 =
        seen min comp ((cur :: gs.take j).take left) i ∧
      (scan c min comp left i cur ⟨pre ++ [l.take k ++ tail], nl⟩).2 ≠ .ub ∧
      ∀ L1 L2 gs1 gs2, gs = gs1 ++ gs2 → Frames c m.size.toNat L1 gs1 → L = L1 ++ L2 →
        L1.length ≤ pre.length → gs1.length ≤ j := by
  induction hf generalizing pre left i cur with
  | nil => exact absurd he (by simp)
  | @cons rows g L gs iStep h t ih =>
    -- the first frame lies within the part before the cut, or contains the cut
    have hcase : (∃ pre', pre = frame c iStep rows ++ pre' ∧ L = pre' ++ l :: post) ∨
        (∃ post', frame c iStep rows = pre ++ l :: post') := by
      rcases List.append_eq_append_iff.mp he with ⟨u, hu1, hu2⟩ | ⟨u, hu1, hu2⟩
      · exact Or.inl ⟨u, hu1, hu2⟩
      · cases u with
        | nil =>
          rw [List.append_nil] at hu1
          rw [List.nil_append] at hu2
          exact Or.inl ⟨[], by rw [hu1, List.append_nil], by rw [← hu2]; rfl⟩
        | cons u0 us =>
          exact Or.inr ⟨us, by rw [hu1, (List.cons.inj hu2).1]⟩
    cases left with
    | zero =>
      refine ⟨gs.length + 1, rfl, ?_, ?_⟩
      · intro h
        cases h
      · intro L1 L2 gs1 gs2 e _ _ _
        have := congrArg List.length e
        simp at this
        omega
    | succ left =>
      rcases hcase with ⟨pre', hp, hL⟩ | ⟨post', hp⟩
      · have hlast : nl = true ∨ (pre' ++ [l.take k ++ tail]).flatten ≠ [] := by
          by_cases hx : l.take k ++ tail = []
          · exact Or.inl (hnl hx)
          · exact Or.inr (by
              intro h
              rw [List.flatten_append, List.append_eq_nil_iff] at h
              exact hx (by simpa using h.2))
        obtain ⟨j, h1, h2, h3⟩ := ih pre' hL left (i + 1) g h.shape
        refine ⟨j + 1, ?_, ?_, ?_⟩
        · rw [hp, List.append_assoc]
          unfold scan
          dsimp only
          rw [readFrame_full hc h iStep cur hcur _ nl hlast]
          dsimp only
          rw [scan_blank, scan_blank, h1, List.take_succ_cons, List.take_succ_cons, seen_cons]
        · rw [hp, List.append_assoc]
          unfold scan
          dsimp only
          rw [readFrame_full hc h iStep cur hcur _ nl hlast]
          dsimp only
          rw [scan_blank, scan_blank]
          exact h2
        · intro L1 L2 gs1 gs2 hg hf1 hL1 hlen
          cases hf1 with
          | nil => simp
          | @cons rows' g' L1' gs1' iStep' h' t' =>
            rw [List.cons_append] at hg
            obtain ⟨-, hg⟩ := List.cons.inj hg
            have hfl : (frame c iStep' rows').length = (frame c iStep rows).length := by
              simp [frame, h'.count, h.count]
            rw [List.append_assoc] at hL1
            obtain ⟨-, hL1⟩ := List.append_inj hL1 hfl.symm
            have := h3 L1' L2 gs1' gs2 hg t' hL1 (by
              rw [hp, List.length_append, List.length_append, hfl] at hlen
              omega)
            rw [List.length_cons]
            omega
      · have hpart := readFrame_part m hm hc h iStep cur hcur pre post' l k tail nl hp htail hnl _ rfl
        have hcount : ∀ L1 L2 gs1 gs2, g :: gs = gs1 ++ gs2 → Frames c m.size.toNat L1 gs1 →
            frame c iStep rows ++ L = L1 ++ L2 → L1.length ≤ pre.length → gs1.length ≤ 0 := by
          intro L1 L2 gs1 gs2 hg hf1 hL1 hlen
          cases hf1 with
          | nil => simp
          | @cons rows' g' L1' gs1' iStep' h' t' =>
            exfalso
            have hfl : (frame c iStep' rows').length = (frame c iStep rows).length := by
              simp [frame, h'.count, h.count]
            have h4 := congrArg List.length hp
            rw [List.length_append, List.length_cons] at h4
            rw [List.length_append, hfl] at hlen
            omega
        rcases hpart with ho | ho | ⟨r, hr, ho⟩
        · refine ⟨0, ?_, ?_, hcount⟩
          · unfold scan
            dsimp only
            rw [ho]
            dsimp only
            rw [List.take_zero, List.take_succ_cons, List.take_nil, seen_cons, seen_nil, List.append_nil]
          · unfold scan
            dsimp only
            rw [ho]
            intro h; cases h
        · refine ⟨0, ?_, ?_, hcount⟩
          · unfold scan
            dsimp only
            rw [ho]
            dsimp only
            rw [List.take_zero, List.take_succ_cons, List.take_nil, seen_cons, seen_nil, List.append_nil]
          · unfold scan
            dsimp only
            rw [ho]
            intro h; cases h
        · refine ⟨1, ?_, ?_, fun L1 L2 gs1 gs2 a b c' d => (hcount L1 L2 gs1 gs2 a b c' d).trans (by omega)⟩
          · unfold scan
            dsimp only
            rw [ho]
            dsimp only
            rw [scan_end _ _ _ _ _ _ _ _ hr, List.take_succ_cons, seen_cons, List.take_succ_cons (i := 0),
              List.take_zero]
          · unfold scan
            dsimp only
            rw [ho]
            dsimp only
            rw [scan_end _ _ _ _ _ _ _ _ hr]
            intro h; cases h

/-! ## Files -/

theorem readFrame_blanks (c : Ctx) (target : Flds K) (h r : List (List (Tok K))) (nl : Bool)
    (hh : h.flatten = []) : readFrame c target ⟨h ++ r, nl⟩ = readFrame c target ⟨r, nl⟩ := by
  induction h with
  | nil => rfl
  | cons l h ih =>
    rw [List.flatten_cons, List.append_eq_nil_iff] at hh
    obtain ⟨rfl, hh⟩ := hh
    rw [List.cons_append, readFrame_blank, ih hh]

theorem readFrame_header (c : Ctx) (target : Flds K) (h r : List (List (Tok K))) (nl : Bool) :
    readFrame c target ⟨dropToks h.flatten.length (h ++ r), nl⟩ = readFrame c target ⟨r, nl⟩ := by
  induction h with
  | nil =>
    cases r with
    | nil => rfl
    | cons l r => simp [dropToks]
  | cons l h ih =>
    rw [List.cons_append, dropToks, List.flatten_cons, List.length_append]
    by_cases hh : h.flatten = []
    · rw [hh, List.length_nil, Nat.add_zero, if_pos le_rfl, List.drop_length, readFrame_blank,
        readFrame_blanks c target h r nl hh]
    · have : 0 < h.flatten.length := List.length_pos_iff.mpr hh
      rw [if_neg (by omega), Nat.add_sub_cancel_left, ih]

theorem analyze_header (c : Ctx) (min max : Nat) (comp : Flds K → Flds K) (target : Flds K)
    (h r : List (List (Tok K))) (nl : Bool) :
    analyze c min max comp target ⟨dropToks h.flatten.length (h ++ r), nl⟩ =
      analyze c min max comp target ⟨r, nl⟩ := by
  unfold analyze
  rw [readFrame_header]

/-- Frames written by the trajectory writer. -/
theorem writeFrames_ok (rd : K → K) (c : Ctx) (m : Mesh) (h : Mesh.setDimensions c.dims = some m)
    (hN : 0 < m.size.toNat) (sim : List (Int × Flds K)) (hs : ∀ x ∈ sim, Shape x.2 c.nMonomer m.size.toNat) :
    ∃ L, writeFrames rd c sim = .ok L ∧
      Frames c m.size.toNat L (sim.map fun x => x.2.map (List.map rd)) := by
  induction sim with
  | nil => exact ⟨[], rfl, .nil⟩
  | cons x t ih =>
    obtain ⟨L, h1, h2⟩ := ih (fun y hy => hs y (List.mem_cons_of_mem _ hy))
    obtain ⟨rows, h3, h4⟩ := writeFrame_ok rd c m h x.1 x.2 (hs x List.mem_cons_self) hN
    refine ⟨frame c x.1 rows ++ L, ?_, .cons x.1 h4 h2⟩
    simp only [writeFrames, h3, Res.bind, h1]

variable [Zero K]

/-- What is assumed about the system and the header: a mesh, and a unit cell of the lattice of the system. -/
structure Valid (rd : K → K) (D : Nat) (io : FieldIo) (mk : Cell K → Bool) (c : Ctx) (m : Mesh) (cell : Cell K) :
    Prop where
  mesh : Mesh.setDimensions c.dims = some m
  dims : c.dims ≠ []
  size : 0 < m.size.toNat
  monomers : 0 < c.nMonomer
  dim : cell.lat.dim = some D
  params : cell.params.length = cell.lat.nParameter
  lattice : cell.lat = io.lattice
  group : io.hasGroup = true → io.groupName ≠ []
  basis : io.hasGroup = true → io.hasBasis = false → mk ⟨cell.lat, cell.params.map rd⟩ = true

theorem analyzeFile_eq {rd : K → K} {D : Nat} {io : FieldIo} {mk : Cell K → Bool} {c : Ctx} {m : Mesh}
    {cell : Cell K} (hv : Valid rd D io mk c m cell) (j : Junk K) (hdr : List (List (Tok K)))
    (hw : io.write rd D c.nMonomer cell false = .ok hdr.flatten) (min max : Nat) (comp : Flds K → Flds K)
    (target : Flds K) (r : List (List (Tok K))) (nl : Bool) :
    analyzeFile D io mk j c min max comp target ⟨hdr ++ r, nl⟩ =
      .ok (⟨cell.lat, cell.params.map rd⟩, analyze c min max comp target ⟨r, nl⟩) := by
  unfold analyzeFile
  have hn : (0 : Int) < (c.nMonomer : Int) := by exact_mod_cast hv.monomers
  have h := C83_fieldIo rd D io mk j .null c.nMonomer cell false hdr.flatten r.flatten hv.dim hv.params hn
    hv.lattice (Or.inl rfl) hv.group hv.basis hw
  dsimp only
  rw [List.flatten_append, h]
  simp only [Res.bind]
  have hu : (hdr.flatten ++ r.flatten).length - r.flatten.length = hdr.flatten.length := by
    rw [List.length_append]; omega
  rw [hu, analyze_header]

/-- C104: analysing a complete trajectory file. The system gets the printed unit cell of the header, and the
analyzers see the printed fields of the sampled steps number `min` to `max`, in order; the command ends
normally. The line structure of the header is arbitrary. -/
theorem C104_replay {rd : K → K} {D : Nat} {io : FieldIo} {mk : Cell K → Bool} {c : Ctx} {m : Mesh}
    {cell : Cell K} (hv : Valid rd D io mk c m cell) (j : Junk K) (hdr : List (List (Tok K)))
    (hw : io.write rd D c.nMonomer cell false = .ok hdr.flatten)
    (sim : List (Int × Flds K)) (hs : ∀ x ∈ sim, Shape x.2 c.nMonomer m.size.toNat)
    (min max : Nat) (comp : Flds K → Flds K) (target : Flds K) (ht : Shape target c.nMonomer m.size.toNat) :
    ∃ L, writeFrames rd c sim = .ok L ∧
      analyzeFile D io mk j c min max comp target ⟨hdr ++ [] :: L, true⟩ =
        .ok (⟨cell.lat, cell.params.map rd⟩,
          seen min comp ((sim.map fun x => x.2.map (List.map rd)).take (max + 1)) 0, .ok ()) := by
  obtain ⟨L, h1, h2⟩ := writeFrames_ok rd c m hv.mesh hv.size sim hs
  refine ⟨L, h1, ?_⟩
  rw [analyzeFile_eq hv j hdr hw]
  congr 2
  unfold analyze
  rw [readFrame_blank]
  generalize (sim.map fun x => x.2.map (List.map rd)) = gs at h2
  cases h2 with
  | nil =>
    rw [readFrame_end c target [] true rfl]
    rfl
  | @cons rows g L gs iStep h t =>
    rw [readFrame_full hv.dims h iStep target ht L true (Or.inl rfl)]
    dsimp only
    rw [scan_blank, scan_blank, scan_full hv.dims min comp t (max + 1) 0 g h.shape]

/-- C104: analysing a file that was cut within the frames (killed simulation, full disk). `pre` are the complete
lines; of the line `l` only `k` items and possibly a part `tail` of the next item are left. For every cut there
is a number `n` of frames, at least the number of complete frames, such that the analyzers see what they would
see in a complete file of `n` frames: never other fields. The command ends normally or throws. -/
theorem C104_cut {rd : K → K} {D : Nat} {io : FieldIo} {mk : Cell K → Bool} {c : Ctx} {m : Mesh}
    {cell : Cell K} (hv : Valid rd D io mk c m cell) (j : Junk K) (hdr : List (List (Tok K)))
    (hw : io.write rd D c.nMonomer cell false = .ok hdr.flatten)
    (sim : List (Int × Flds K)) (hs : ∀ x ∈ sim, Shape x.2 c.nMonomer m.size.toNat)
    (L pre post : List (List (Tok K))) (l : List (Tok K)) (k : Nat) (tail : List (Tok K)) (nl : Bool)
    (hL : writeFrames rd c sim = .ok L) (hcut : L = pre ++ l :: post)
    (htail : tail = [] ∨ (∃ t, tail = [t]) ∧ k < l.length ∧ nl = false)
    (hnl : l.take k ++ tail = [] → nl = true)
    (min max : Nat) (comp : Flds K → Flds K) (target : Flds K) (ht : Shape target c.nMonomer m.size.toNat) :
    ∃ n e, analyzeFile D io mk j c min max comp target ⟨hdr ++ [] :: (pre ++ [l.take k ++ tail]), nl⟩ =
        .ok (⟨cell.lat, cell.params.map rd⟩,
          seen min comp (((sim.take n).map fun x => x.2.map (List.map rd)).take (max + 1)) 0, e) ∧
      e ≠ .ub ∧
      ∀ i L1, i ≤ sim.length → writeFrames rd c (sim.take i) = .ok L1 → L1.length ≤ pre.length → i ≤ n := by
  obtain ⟨L', h1, h2⟩ := writeFrames_ok rd c m hv.mesh hv.size sim hs
  rw [hL] at h1
  injection h1 with h1
  subst h1
  have hpre : ∀ i L1, i ≤ sim.length → writeFrames rd c (sim.take i) = .ok L1 → ∃ L2, L = L1 ++ L2 ∧
      Frames c m.size.toNat L1 ((sim.take i).map fun x => x.2.map (List.map rd)) := by
    intro i L1 _ hw1
    have happ : ∀ (a b : List (Int × Flds K)) (A B : List (List (Tok K))), writeFrames rd c a = .ok A →
        writeFrames rd c b = .ok B → writeFrames rd c (a ++ b) = .ok (A ++ B) := by
      intro a
      induction a with
      | nil =>
        intro b A B ha hb
        simp only [writeFrames] at ha
        injection ha with ha
        rw [← ha]
        exact hb
      | cons x t ih =>
        intro b A B ha hb
        simp only [writeFrames] at ha
        obtain ⟨u, hu, ha⟩ := Res.bind_eq_ok.mp ha
        obtain ⟨v, hv', ha⟩ := Res.bind_eq_ok.mp ha
        injection ha with ha
        simp only [List.cons_append, writeFrames, hu, Res.bind, ih b v B hv' hb]
        rw [← ha, List.append_assoc]
    obtain ⟨La, ha, hfa⟩ := writeFrames_ok rd c m hv.mesh hv.size (sim.take i)
      (fun x hx => hs x (List.mem_of_mem_take hx))
    obtain ⟨Lb, hb, -⟩ := writeFrames_ok rd c m hv.mesh hv.size (sim.drop i)
      (fun x hx => hs x (List.mem_of_mem_drop hx))
    rw [hw1] at ha
    injection ha with ha
    subst ha
    have := happ _ _ _ _ hw1 hb
    rw [List.take_append_drop, hL] at this
    injection this with this
    exact ⟨Lb, this, hfa⟩
  have hgl : (sim.map fun x => x.2.map (List.map rd)).length = sim.length := List.length_map _
  -- scan from an artificial frame before the first
  obtain ⟨n, a1, a2, a3⟩ := scan_cut m hv.mesh hv.dims (min + 1) (fun g => comp g) h2 pre post l k tail nl hcut htail
    hnl (max + 2) 0 target ht
  have hshift : ∀ (left i : Nat) (cur : Flds K) (f : File K),
      (scan c (min + 1) comp left (i + 1) cur f).1 =
        (scan c min comp left i cur f).1.map (fun x => (x.1 + 1, x.2)) ∧
      (scan c (min + 1) comp left (i + 1) cur f).2 = (scan c min comp left i cur f).2 := by
    intro left
    induction left with
    | zero => intro i cur f; exact ⟨rfl, rfl⟩
    | succ left ih =>
      intro i cur f
      unfold scan
      dsimp only
      have e1 : (if min + 1 ≤ i + 1 then [(i + 1, if i + 1 = min + 1 then comp cur else cur)] else []) =
          (if min ≤ i then [(i, if i = min then comp cur else cur)] else []).map (fun x => (x.1 + 1, x.2)) := by
        by_cases h : min ≤ i <;> simp [h]
      rw [e1]
      cases readFrame c cur f with
      | ok x =>
        cases x with
        | none => exact ⟨rfl, rfl⟩
        | some x =>
          obtain ⟨g, f'⟩ := x
          dsimp only
          obtain ⟨b1, b2⟩ := ih (i + 1) g f'
          exact ⟨by rw [b1, List.map_append], b2⟩
      | throw => exact ⟨rfl, rfl⟩
      | ub => exact ⟨rfl, rfl⟩
  have hseen : ∀ (gs : List (Flds K)) (i : Nat), seen (min + 1) comp gs (i + 1) =
      (seen min comp gs i).map (fun x => (x.1 + 1, x.2)) := by
    intro gs
    induction gs with
    | nil => intro i; rfl
    | cons g gs ih =>
      intro i
      rw [seen_cons, seen_cons, ih, List.map_append]
      congr 1
      by_cases h : min ≤ i <;> simp [h]
  have hinj : Function.Injective (List.map (fun x : Nat × Flds K => (x.1 + 1, x.2))) := by
    apply List.map_injective_iff.mpr
    rintro ⟨a, b⟩ ⟨a', b'⟩ h
    simp only [Prod.mk.injEq] at h ⊢
    exact ⟨by omega, h.2⟩
  -- the loop of `analyze` is the rest of that scan
  have hunf : scan c (min + 1) comp (max + 2) 0 target ⟨pre ++ [l.take k ++ tail], nl⟩ =
      match readFrame c target ⟨pre ++ [l.take k ++ tail], nl⟩ with
      | .ok none => ([], .ok ())
      | .ok (some (g, f')) => scan c (min + 1) comp (max + 1) 1 g f'
      | .throw => ([], .throw)
      | .ub => ([], .ub) := by
    rw [scan]
    have e0 : ¬ (min + 1 ≤ 0) := by omega
    simp only [if_neg e0]
    cases readFrame c target ⟨pre ++ [l.take k ++ tail], nl⟩ with
    | ok x => cases x with
      | none => rfl
      | some x => rfl
    | throw => rfl
    | ub => rfl
  have e0 : ¬ (min + 1 ≤ 0) := by omega
  have hs0 : seen (min + 1) comp ((target :: (sim.map fun x => x.2.map (List.map rd)).take n).take (max + 2)) 0 =
      (seen min comp (((sim.take n).map fun x => x.2.map (List.map rd)).take (max + 1)) 0).map
        (fun x => (x.1 + 1, x.2)) := by
    rw [List.take_succ_cons, seen_cons, if_neg e0, List.nil_append, hseen, List.map_take]
  rw [hs0, hunf] at a1
  rw [hunf] at a2
  refine ⟨n, (analyze c min max comp target ⟨pre ++ [l.take k ++ tail], nl⟩).2, ?_, ?_, ?_⟩
  · rw [analyzeFile_eq hv j hdr hw]
    congr 2
    have : analyze c min max comp target ⟨[] :: (pre ++ [l.take k ++ tail]), nl⟩ =
        analyze c min max comp target ⟨pre ++ [l.take k ++ tail], nl⟩ := rfl
    rw [this]
    refine Prod.ext ?_ rfl
    dsimp only
    unfold analyze
    generalize readFrame c target ⟨pre ++ [l.take k ++ tail], nl⟩ = o at a1
    match o, a1 with
    | .ok none, a1 => exact hinj a1
    | .ok (some (g, f')), a1 =>
      dsimp only at a1 ⊢
      rw [(hshift (max + 1) 0 g f').1] at a1
      exact hinj a1
    | .throw, a1 => exact hinj a1
    | .ub, a1 => exact hinj a1
  · unfold analyze
    generalize readFrame c target ⟨pre ++ [l.take k ++ tail], nl⟩ = o at a2
    match o, a2 with
    | .ok none, a2 => exact a2
    | .ok (some (g, f')), a2 =>
      dsimp only at a2 ⊢
      rw [(hshift (max + 1) 0 g f').2] at a2
      exact a2
    | .throw, a2 => exact a2
    | .ub, a2 => exact a2
  · intro i L1 hi hw1 hlen
    obtain ⟨L2, e, hf⟩ := hpre i L1 hi hw1
    have := a3 L1 L2 _ ((sim.drop i).map fun x => x.2.map (List.map rd))
      (by rw [← List.map_append, List.take_append_drop]) hf e hlen
    rw [List.length_map, List.length_take] at this
    omega

/-! ## What is not checked or not stored -/

/-- Two ways to describe six mesh points. -/
def ctx23 : Ctx := ⟨1, [2, 3]⟩
def ctx32 : Ctx := ⟨1, [3, 2]⟩

/-- C104 violated: the mesh dimensions in the file are not compared with those of the system. A trajectory of a
2 by 3 mesh is analysed without complaint by a system with a 3 by 2 mesh, which sees other fields. -/
theorem C104_mesh_violated :
    ∃ L : List (List (Tok ℤ)), writeFrames id ctx23 [(0, [[0, 1, 2, 3, 4, 5]])] = .ok L ∧
      analyze ctx23 0 0 id [[9, 9, 9, 9, 9, 9]] ⟨L, true⟩ = ([(0, [[0, 1, 2, 3, 4, 5]])], .ok ()) ∧
      analyze ctx32 0 0 id [[9, 9, 9, 9, 9, 9]] ⟨L, true⟩ = ([(0, [[0, 4, 3, 2, 1, 5]])], .ok ()) := by
  refine ⟨_, rfl, ?_, ?_⟩ <;> decide +kernel

/-- C104 violated: if the unit cell changes during the simulation (ramp of a cell parameter), no analysis can
know: samples with different unit cells give the same file. -/
theorem C104_cell_violated (rd : K → K) (D : Nat) (io : FieldIo) (c : Ctx) (cell : Cell K)
    (sim : List (Int × Cell K × Flds K)) (u : Int × Cell K × Flds K → Cell K) :
    writeTrajectory rd D io c cell (sim.map fun x => (x.1, u x, x.2.2)) =
      writeTrajectory rd D io c cell sim := by
  unfold writeTrajectory
  rw [List.map_map]
  rfl

/-! ## Averages during and after the simulation -/

theorem seen_all (n i : Nat) (g : Nat → Flds K) :
    seen 0 id ((List.range' i n).map g) i = (List.range' i n).map fun k => (k, g k) := by
  induction n generalizing i with
  | zero => rfl
  | succ n ih =>
    rw [List.range'_succ, List.map_cons, seen_cons, if_pos (Nat.zero_le i), ih]
    simp

/-- C104: a quantity that is a function of the fields has the same average, and the same block averages, in an
analysis of all frames of a trajectory as it had during the simulation with the interval of the trajectory;
step numbers are those of the frames. -/
theorem C104_postprocess {F V : Type} [Field F] [AddCommGroup V] [Module F V] (nb d T : Nat) (hn : 0 < nb)
    (hd : 0 < d) (strict : Bool) (w : Nat → Flds K) (φ : Flds K → V) :
    let sim := filesSpec F (.avg nb d strict) (steps T fun t => φ (w t))
    let frames := (kept (d : Int) ((List.range (T + 1)).map fun t : Nat => ((t : Int), w t))).map Prod.snd
    let ana := filesSpec F (.avg nb 1 strict) ((seen 0 id frames 0).map fun x => ((x.1 : Int), φ x.2))
    ana.2 = sim.2 ∧ ana.1.map Prod.snd = sim.1.map Prod.snd ∧ ana.1.map (fun x => x.1 * (d : Int)) = sim.1.map Prod.fst := by
  intro sim frames ana
  have hfr : frames = (List.range (T / d + 1)).map fun k => w (k * d) := by
    have h := congrArg (List.map Prod.snd) (kept_steps (V := Int) T d hd fun t => (t : Int))
    have hk : ∀ l : List Nat, (kept (d : Int) (l.map fun t : Nat => ((t : Int), w t))).map Prod.snd =
        ((kept (d : Int) (l.map fun t : Nat => ((t : Int), (t : Int)))).map Prod.snd).map fun t => w t.toNat := by
      intro l
      unfold kept
      induction l with
      | nil => rfl
      | cons a l ih =>
        simp only [List.map_cons, List.filter_cons]
        by_cases h : ((a : Int) % (d : Int) = 0)
        · simp only [h, decide_true, if_true, List.map_cons, ih, Int.toNat_natCast]
        · simp only [h, decide_false, Bool.false_eq_true, if_false, ih]
    show (kept (d : Int) ((List.range (T + 1)).map fun t : Nat => ((t : Int), w t))).map Prod.snd = _
    rw [hk]
    unfold steps at h
    rw [h, List.map_map, List.map_map]
    apply List.map_congr_left
    intro k _
    show w (((k * d : Nat) : Int)).toNat = _
    rw [Int.toNat_natCast]
  have hrun : (seen 0 id frames 0).map (fun x => ((x.1 : Int), φ x.2)) = steps (T / d) fun k => φ (w (k * d)) := by
    rw [hfr, List.range_eq_range', seen_all, List.map_map]
    unfold steps
    rw [List.range_eq_range']
    rfl
  have hana : ana = filesSpec F (.avg nb ((1 : Nat) : Int) strict) (steps (T / d) fun k => φ (w (k * d))) := by
    show filesSpec F _ _ = _
    rw [hrun]
    rfl
  have hsim : sim = filesSpec F (.avg nb d strict) (steps T fun t => φ (w t)) := rfl
  rw [C103_blocks nb 1 (T / d) hn one_pos] at hana
  rw [C103_blocks nb d T hn hd] at hsim
  rw [hana, hsim]
  simp only [Nat.div_one, Nat.mul_one, List.map_map]
  refine ⟨by trivial, by trivial, ?_⟩
  apply List.map_congr_left
  intro b _
  simp

/-! ## Example -/

/-- A system of one monomer type on a mesh of two points. -/
def exCtx : Ctx := ⟨1, [2]⟩

/-- The lines of two frames. -/
def exLines : List (List (Tok ℤ)) :=
  [[.word "i".toList, .word "=".toList, .int 0], [.word "mesh".toList], [.int 2], [.num 1], [.num 2], [],
   [.word "i".toList, .word "=".toList, .int 10], [.word "mesh".toList], [.int 2], [.num 3], [.num 47], []]

-- a lamellar cell, two frames; all hypotheses of `C104_replay` hold
example : ∃ (m : Mesh) (hdr : List (Tok ℤ)),
    Valid (K := ℤ) id 1 ⟨.d1 .lamellar, false, [], false⟩ (fun _ => true) exCtx m ⟨.d1 .lamellar, [5]⟩ ∧
    FieldIo.write (K := ℤ) id 1 ⟨.d1 .lamellar, false, [], false⟩ 1 ⟨.d1 .lamellar, [5]⟩ false = .ok [hdr].flatten ∧
    (∀ x ∈ [((0 : Int), [[(1 : ℤ), 2]]), (10, [[3, 47]])], Shape x.2 exCtx.nMonomer m.size.toNat) := by
  obtain ⟨hdr, hh⟩ : ∃ hdr : List (Tok ℤ), FieldIo.write (K := ℤ) id 1 ⟨.d1 .lamellar, false, [], false⟩ 1
      ⟨.d1 .lamellar, [5]⟩ false = .ok hdr := ⟨_, rfl⟩
  refine ⟨⟨[2], [1], 2⟩, hdr, ⟨rfl, by decide, by decide, by decide, rfl, rfl, rfl, by simp, by simp⟩, ?_, ?_⟩
  · rw [hh]
    simp
  · unfold Shape
    decide

example : writeFrames (id : ℤ → ℤ) exCtx [(0, [[1, 2]]), (10, [[3, 47]])] = .ok exLines := by decide +kernel
example : analyze exCtx 0 10 id [[0, 0]] ⟨exLines, true⟩ = ([(0, [[1, 2]]), (1, [[3, 47]])], .ok ()) := by
  decide +kernel
-- cut within the last number
example : analyze exCtx 0 10 id [[0, 0]] ⟨exLines.take 10 ++ [[.num 4]], false⟩ = ([(0, [[1, 2]])], .throw) := by
  decide +kernel

end Verif.Ana
