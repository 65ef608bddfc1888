import Verif.Text.Model
import Verif.Tac

/-!
C66 (dimension option) and C67 (text round trips).
-/

set_option autoImplicit false
set_option linter.unusedSectionVars false

namespace Verif.Text

open Verif Verif.Crystal

/-! ## C66: option `-d` -/

/-- The character that denotes the dimension `n`. -/
def digit (n : Nat) : Char := if n = 1 then '1' else if n = 2 then '2' else '3'

theorem atoi1_eq {c : Char} {n : Nat} (h : atoi1 c = n) (h0 : 0 < n) : c.toNat = n + 48 := by
  unfold atoi1 at h
  split at h
  · rename_i hc
    have h1 : '0'.toNat ≤ c.toNat := hc.1
    have h2 : '0'.toNat = 48 := rfl
    omega
  · omega

theorem char_ext_toNat {c d : Char} (h : c.toNat = d.toNat) : c = d := by
  apply Char.ext
  apply UInt32.toNat_inj.1
  exact h

theorem dimOf_ok {c : Char} {n : Nat} : dimOf c = .ok n ↔ 1 ≤ n ∧ n ≤ 3 ∧ c = digit n := by
  constructor
  · intro h
    unfold dimOf at h
    dsimp only at h
    split at h
    · rename_i hc
      have hn : atoi1 c = n := by injection h
      rw [hn] at hc
      have h3 : c.toNat = n + 48 := atoi1_eq hn hc.1
      refine ⟨by omega, by omega, ?_⟩
      obtain ⟨hc1, hc2⟩ := hc
      have : n = 1 ∨ n = 2 ∨ n = 3 := by omega
      rcases this with rfl | rfl | rfl <;> apply char_ext_toNat <;> rw [h3] <;> rfl
    · cases h
  · rintro ⟨h1, h2, rfl⟩
    have : n = 1 ∨ n = 2 ∨ n = 3 := by omega
    rcases this with rfl | rfl | rfl <;> decide

theorem dimLoop_true_ok {args : List Word} {n : Nat} :
    dimLoop true args = .ok n ↔ 1 ≤ n ∧ n ≤ 3 ∧ ∃ post, args = [digit n] :: post := by
  cases args with
  | nil => simp [dimLoop]
  | cons o r =>
    match o with
    | [] => simp [dimLoop]
    | [c] => simp [dimLoop, dimOf_ok]
    | a :: b :: t => simp [dimLoop]

theorem dimLoop_false_skip {o : Word} (r : List Word) (h : ¬ "-d".toList <+: o) :
    dimLoop false (o :: r) = dimLoop false r := by
  unfold dimLoop
  split
  · exact absurd ⟨[], rfl⟩ h
  · rename_i c; exact absurd ⟨[c], rfl⟩ h
  · rename_i a b t; exact absurd ⟨a :: b :: t, rfl⟩ h
  · rw [dimLoop.eq_def]

theorem dimLoop_false_skips {pre : List Word} (r : List Word)
    (h : ∀ o ∈ pre, ¬ "-d".toList <+: o) :
    dimLoop false (pre ++ r) = dimLoop false r := by
  induction pre with
  | nil => rfl
  | cons o p ih =>
    rw [List.cons_append, dimLoop_false_skip _ (h o (by simp)),
      ih fun x hx => h x (by simp [hx])]

/-- C66. `getDimension` returns `n` if and only if `n` is 1, 2 or 3 and, up to the first
argument that begins with `-d`, the command line is followed by `-dn` or by `-d n`.  The
arguments before it and after it are arbitrary. -/
theorem C66_dimension (prog : Word) (args : List Word) (n : Nat) :
    getDimension (prog :: args) = .ok n ↔
      1 ≤ n ∧ n ≤ 3 ∧ ∃ pre post, (∀ o ∈ pre, ¬ "-d".toList <+: o) ∧
        (args = pre ++ ["-d".toList ++ [digit n]] ++ post ∨
         args = pre ++ ["-d".toList, [digit n]] ++ post) := by
  have key : getDimension (prog :: args) = dimLoop false args := by
    cases args <;> rfl
  rw [key]
  constructor
  · intro h
    induction args with
    | nil => simp [dimLoop] at h
    | cons o r ih =>
      by_cases hd : "-d".toList <+: o
      · obtain ⟨t, rfl⟩ := hd
        match t with
        | [] =>
          have h' : dimLoop true r = .ok n := h
          obtain ⟨h1, h2, post, rfl⟩ := dimLoop_true_ok.1 h'
          exact ⟨h1, h2, [], post, by simp, Or.inr rfl⟩
        | [c] =>
          have h' : dimOf c = .ok n := h
          obtain ⟨h1, h2, rfl⟩ := dimOf_ok.1 h'
          exact ⟨h1, h2, [], r, by simp, Or.inl rfl⟩
        | a :: b :: t =>
          have h' : (Res.throw : Res Nat) = .ok n := h
          cases h'
      · rw [dimLoop_false_skip _ hd] at h
        obtain ⟨h1, h2, pre, post, h3, h4⟩ := ih (by cases r <;> rfl) h
        refine ⟨h1, h2, o :: pre, post, ?_, ?_⟩
        · intro x hx
          rcases List.mem_cons.1 hx with rfl | hx
          · exact hd
          · exact h3 x hx
        · rcases h4 with h4 | h4
          · left; rw [h4]; rfl
          · right; rw [h4]; rfl
  · rintro ⟨h1, h2, pre, post, h3, h4⟩
    rcases h4 with rfl | rfl
    · rw [List.append_assoc, dimLoop_false_skips _ h3]
      exact dimOf_ok.2 ⟨h1, h2, rfl⟩
    · rw [List.append_assoc, dimLoop_false_skips _ h3]
      change dimLoop true ([digit n] :: post) = _
      exact dimLoop_true_ok.2 ⟨h1, h2, post, rfl⟩

theorem dimOf_ne_ub (c : Char) : dimOf c ≠ .ub := by
  unfold dimOf; dsimp only; split <;> simp

theorem dimLoop_ne_ub (f : Bool) (args : List Word) : dimLoop f args ≠ .ub := by
  induction args generalizing f with
  | nil => cases f <;> simp [dimLoop]
  | cons o r ih =>
    cases f with
    | false =>
      unfold dimLoop
      split
      · exact ih _
      · exact dimOf_ne_ub _
      · simp
      · exact ih _
    | true =>
      unfold dimLoop
      split
      · exact dimOf_ne_ub _
      · simp

/-- C66. Every command line that is not of the form above raises an error: no other value is
returned and nothing undefined happens. -/
theorem C66_rejects (argv : List Word) (h : ∀ n, getDimension argv ≠ .ok n) :
    getDimension argv = .throw := by
  have : getDimension argv ≠ .ub := by
    unfold getDimension
    split
    · simp
    · simp
    · exact dimLoop_ne_ub _ _
  cases hr : getDimension argv with
  | ok n => exact absurd hr (h n)
  | throw => rfl
  | ub => exact absurd hr this

/-- `pscf_pc -e -d 3 -p param` selects dimension 3, also when written `-d3`. -/
example : getDimension ["pscf_pc".toList, "-e".toList, "-d".toList, "3".toList, "-p".toList,
    "param".toList] = .ok 3 := by decide
example : getDimension ["pscf_pc".toList, "-e".toList, "-d3".toList] = .ok 3 := by decide
/-- `-d 4`, `-d` alone, `-d 12` and a missing option are rejected. -/
example : getDimension ["pscf_pc".toList, "-d".toList, "4".toList] = .throw := by decide
example : getDimension ["pscf_pc".toList, "-e".toList, "-d".toList] = .throw := by decide
example : getDimension ["pscf_pc".toList, "-d12".toList] = .throw := by decide
/-- A value of another option that begins with `-d` is taken for the option. -/
example : getDimension ["pscf_pc".toList, "-p".toList, "-data".toList, "-d".toList,
    "3".toList] = .throw := by decide

/-! ## C67: enumerations -/

/-- C67. Polymer types: what is written is read back. -/
theorem C67_polymerType (t : PType) : PType.read t.write = .ok t := by
  cases t <;> decide

/-- C67. Polymer models: what is written is read back. -/
theorem C67_polymerModel (t : PModel) : PModel.read t.write = .ok t := by
  cases t <;> decide

/-- C67. Ensembles: `Closed` and `Open` are read back as written; `Unknown` is written as a
word that is rejected. -/
theorem C67_ensemble (t : Ensemble) :
    Ensemble.read t.write = if t = .unknown then .throw else .ok t := by
  cases t <;> decide

/-- C67. Lattice systems: in the dimension where it exists, every lattice system except
`Null` is read back as written, and the word written for it is rejected in every dimension
in which no lattice system has that name. -/
theorem C67_lattice (l : Lat) (D : Nat) (h : l.dim = some D) : Lat.read D l.write = .ok l := by
  rcases l with _ | l | l | l
  · simp [Lat.dim] at h
  all_goals
    have hD : D = _ := (Option.some.inj h).symm
    subst hD
    cases l <;> decide

/-- C67. The word written for an unset lattice (`Null`) is rejected in every dimension. -/
theorem C67_lattice_null (D : Nat) : Lat.read D Lat.null.write = .throw := by
  unfold Lat.read
  by_cases h1 : D = 1
  · subst h1; decide
  by_cases h2 : D = 2
  · subst h2; decide
  by_cases h3 : D = 3
  · subst h3; decide
  simp [h1, h2, h3]

/-- C67. A lattice that is accepted exists in the dimension in which it was read. -/
theorem C67_lattice_dim (D : Nat) (w : Word) (l : Lat) (h : Lat.read D w = .ok l) :
    l.dim = some D := by
  unfold Lat.read at h
  by_cases h1 : D = 1
  · subst h1
    rw [if_pos rfl] at h
    split at h
    · injection h with h; subst h; rfl
    · cases h
  by_cases h2 : D = 2
  · subst h2
    rw [if_neg (by decide), if_pos rfl] at h
    repeat' split at h
    all_goals first
      | (injection h with h; subst h; rfl)
      | cases h
  by_cases h3 : D = 3
  · subst h3
    rw [if_neg (by decide), if_neg (by decide), if_pos rfl] at h
    repeat' split at h
    all_goals first
      | (injection h with h; subst h; rfl)
      | cases h
  · rw [if_neg h1, if_neg h2, if_neg h3] at h
    cases h

/-! ## C67: streams -/

section
variable {K : Type} [Zero K] [IntCast K]

theorem rdWord_word (w : Word) (r : List (Tok K)) (o : Option Word) :
    rdWord ⟨.word w :: r, true⟩ o = (some w, ⟨r, true⟩) := rfl
theorem rdInt_int (i : Int) (r : List (Tok K)) (o : Int) :
    rdInt ⟨.int i :: r, true⟩ o = (i, ⟨r, true⟩) := rfl
theorem rdNum_num (x : K) (r : List (Tok K)) (o : K) :
    rdNum ⟨.num x :: r, true⟩ o = (x, ⟨r, true⟩) := rfl

theorem rdInts_map (is old : List Int) (r : List (Tok K)) (h : old.length = is.length) :
    rdInts ⟨is.map .int ++ r, true⟩ old = (is, ⟨r, true⟩) := by
  induction is generalizing old with
  | nil =>
    have : old = [] := List.length_eq_zero_iff.1 h
    subst this; rfl
  | cons i is ih =>
    cases old with
    | nil => simp at h
    | cons o os =>
      simp only [List.map_cons, List.cons_append, rdInts, rdInt_int]
      rw [ih os (by simpa using h)]

theorem rdNums_map (f : K → K) (xs old : List K) (r : List (Tok K))
    (h : old.length = xs.length) :
    rdNums ⟨(xs.map fun x => Tok.num (f x)) ++ r, true⟩ old = (xs.map f, ⟨r, true⟩) := by
  induction xs generalizing old with
  | nil =>
    have : old = [] := List.length_eq_zero_iff.1 h
    subst this; rfl
  | cons i is ih =>
    cases old with
    | nil => simp at h
    | cons o os =>
      simp only [List.map_cons, List.cons_append, rdNums, rdNum_num]
      rw [ih os (by simpa using h)]

/-! ## C67: ramp parameters -/

theorem RType.write_read (b : Bool) (t : RType) (w : Word) (h : t.write b = .ok w)
    (hv : t ≠ .vMonomer) : RType.read b w = .ok t := by
  cases b <;> cases t <;> first
    | exact absurd rfl hv
    | (cases h <;> decide)

/-- C67. Identifiers of a ramp parameter: two for chi and block lengths, none for global parameters, else one. -/
theorem C67_ramp_ids (t : RType) : t.nId =
    if t = .chi ∨ t = .block then 2 else if t = .lambdaPert ∨ t = .vMonomer then 0 else 1 := by
  cases t <;> decide

/-- C67. A ramp parameter other than the monomer volume that can be written is read back as
the same type with the same identifiers, the change being the value printed, whatever
follows it and whatever the memory held before. -/
theorem C67_ramp_partial (rd : K → K) (b : Bool) (p : RampParam K) (toks rest : List (Tok K))
    (junk : Nat → Int) (old : K) (hids : p.ids.length = p.type.nId)
    (hw : p.write rd b = .ok toks) (hv : p.type ≠ .vMonomer) :
    RampParam.read b junk old ⟨toks ++ rest, true⟩
      = .ok (⟨p.type, p.ids, rd p.change⟩, ⟨rest, true⟩) := by
  unfold RampParam.write at hw
  cases ht : p.type.write b with
  | throw => rw [ht] at hw; cases hw
  | ub => rw [ht] at hw; cases hw
  | ok w =>
    rw [ht] at hw
    injection hw with hw
    subst hw
    have hr := RType.write_read b p.type w ht hv
    unfold RampParam.read
    simp only [List.cons_append, rdWord_word, hr, Res.bind, List.append_assoc]
    rw [rdInts_map _ _ _ (by simp [hids])]
    simp [rdNum_num]

/-- C67 fails for the monomer volume: it is written as `vMonomer`, which no reader accepts. -/
theorem C67_ramp_violated (rd : K → K) (b : Bool) (x : K) (rest : List (Tok K))
    (junk : Nat → Int) (old : K) :
    ∃ toks, RampParam.write rd b ⟨.vMonomer, [], x⟩ = .ok toks ∧
      RampParam.read b junk old ⟨toks ++ rest, true⟩ = .throw := by
  refine ⟨_, rfl, ?_⟩
  have h : RType.read b "vMonomer".toList = .throw := by cases b <;> decide
  unfold RampParam.read
  simp only [List.cons_append, rdWord_word, h, Res.bind]

/-! ## C67: sweep parameters -/

theorem findSpec_some {b : Word} {k : Nat} {specs : List SpecType} {i : Nat} :
    findSpec b k specs = some i ↔
      ∃ m, i = k + m ∧ (∃ t, specs[m]? = some t ∧ t.name = b) ∧
        ∀ m' < m, ∀ t, specs[m']? = some t → t.name ≠ b := by
  induction specs generalizing k with
  | nil => simp [findSpec]
  | cons t ts ih =>
    unfold findSpec
    by_cases hb : b = t.name
    · rw [if_pos hb]
      constructor
      · intro h
        injection h with h
        exact ⟨0, by omega, ⟨t, rfl, hb.symm⟩, by simp⟩
      · rintro ⟨m, hm, -, hmin⟩
        have : m = 0 := by
          by_contra h0
          exact hmin 0 (by omega) t rfl hb.symm
        subst this
        simp [hm]
    · rw [if_neg hb, ih]
      constructor
      · rintro ⟨m, rfl, ⟨u, hu, hub⟩, hmin⟩
        refine ⟨m + 1, by omega, ⟨u, by simpa using hu, hub⟩, ?_⟩
        intro m' hm' u' hu'
        cases m' with
        | zero => simp at hu'; subst hu'; exact fun h => hb h.symm
        | succ m' => exact hmin m' (by omega) u' (by simpa using hu')
      · rintro ⟨m, rfl, ⟨u, hu, hub⟩, hmin⟩
        cases m with
        | zero => simp at hu; subst hu; exact absurd hub.symm hb
        | succ m =>
          refine ⟨m, by omega, ⟨u, by simpa using hu, hub⟩, ?_⟩
          intro m' hm' u' hu'
          exact hmin (m' + 1) (by omega) u' (by simpa using hu')

/-- Names of the parameters known to every sweep. -/
def builtinNames : List Word :=
  ["block".toList, "block_length".toList, "chi".toList, "kuhn".toList, "phi_polymer".toList,
   "phi_solvent".toList, "mu_polymer".toList, "mu_solvent".toList, "solvent".toList,
   "solvent_size".toList, "cell_param".toList]

theorem SType.read_special {specs : List SpecType} {w : Word} (h : lower w ∉ builtinNames) :
    SType.read specs w = match findSpec (lower w) 0 specs with
      | some i => .ok (.special i)
      | none => .throw := by
  simp only [builtinNames, List.mem_cons, List.not_mem_nil, or_false, not_or] at h
  obtain ⟨h1, h2, h3, h4, h5, h6, h7, h8, h9, h10, h11⟩ := h
  unfold SType.read
  dsimp only
  rw [if_neg (by simp only [h1, h2, or_self, not_false_eq_true]), if_neg h3, if_neg h4, if_neg h5,
    if_neg h6, if_neg h7, if_neg h8, if_neg (by simp only [h9, h10, or_self, not_false_eq_true]),
    if_neg h11]
  cases findSpec (lower w) 0 specs <;> rfl

theorem SType.read_builtin {specs : List SpecType} {w : Word} (h : lower w ∈ builtinNames)
    (i : Nat) : SType.read specs w ≠ .ok (.special i) := by
  simp only [builtinNames, List.mem_cons, List.not_mem_nil, or_false] at h
  unfold SType.read
  dsimp only
  rcases h with h | h | h | h | h | h | h | h | h | h | h <;> rw [h] <;>
    (repeat' first | rw [if_pos (by decide)] | rw [if_neg (by decide)]) <;> nofun

/-- C67. The type of a sweep parameter is read back as written exactly when it is one of the
built-in types or the name of the specialised parameter is in lower case, is not the name of a
built-in parameter and does not occur earlier in the list. -/
theorem C67_sweepType_partial (specs : List SpecType) (t : SType) (w : Word)
    (hw : t.write specs = .ok w) :
    SType.read specs w = .ok t ↔
      ∀ i, t = .special i → lower w = w ∧ w ∉ builtinNames ∧
        ∀ j < i, ∀ u, specs[j]? = some u → u.name ≠ w := by
  cases t
  case special i =>
    have hi : ∃ u, specs[i]? = some u ∧ u.name = w := by
      cases hu : specs[i]? with
      | none => simp [SType.write, hu] at hw
      | some u => simp [SType.write, hu] at hw; exact ⟨u, rfl, hw⟩
    constructor
    · intro h k hk
      injection hk with hk; subst hk
      by_cases hb : lower w ∈ builtinNames
      · exact absurd h (SType.read_builtin hb i)
      rw [SType.read_special hb] at h
      cases hf : findSpec (lower w) 0 specs with
      | none => rw [hf] at h; cases h
      | some k =>
        rw [hf] at h
        injection h with h; injection h with h; subst h
        obtain ⟨m, hm, ⟨u, hu, hub⟩, hmin⟩ := findSpec_some.1 hf
        have : m = k := by omega
        subst this
        obtain ⟨u', hu', hub'⟩ := hi
        rw [hu'] at hu; injection hu with hu; subst hu
        have hlow : lower w = w := by rw [← hub, hub']
        rw [hlow] at hb hmin
        exact ⟨hlow, hb, hmin⟩
    · intro h
      obtain ⟨hlow, hb, hmin⟩ := h i rfl
      rw [SType.read_special (by rw [hlow]; exact hb), hlow]
      have : findSpec w 0 specs = some i := findSpec_some.2 ⟨i, by omega, hi, hmin⟩
      rw [this]
  all_goals
    simp only [SType.write] at hw
    injection hw with hw
    subst hw
    constructor
    · intro _ i h; cases h
    · intro _
      unfold SType.read
      dsimp only
      (repeat' first | rw [if_pos (by decide)] | rw [if_neg (by decide)])

/-- C67. A sweep parameter whose type is read back is read back completely. -/
theorem C67_sweep_partial (rd : K → K) (specs : List SpecType) (p : SweepParam K)
    (toks rest : List (Tok K)) (junk : Nat → Int) (old : K)
    (hids : p.ids.length = p.type.nId specs) (hw : p.write rd specs = .ok toks)
    (hn : ∀ i u, p.type = .special i → specs[i]? = some u →
      lower u.name = u.name ∧ u.name ∉ builtinNames ∧
        ∀ j < i, ∀ v, specs[j]? = some v → v.name ≠ u.name) :
    SweepParam.read specs junk old ⟨toks ++ rest, true⟩
      = .ok (⟨p.type, p.ids, rd p.change⟩, ⟨rest, true⟩) := by
  unfold SweepParam.write at hw
  cases ht : p.type.write specs with
  | throw => rw [ht] at hw; cases hw
  | ub => rw [ht] at hw; cases hw
  | ok w =>
    rw [ht] at hw
    injection hw with hw
    subst hw
    have hr : SType.read specs w = .ok p.type := by
      refine (C67_sweepType_partial specs p.type w ht).2 ?_
      intro i hi
      rw [hi] at ht
      cases hu : specs[i]? with
      | none => simp [SType.write, hu] at ht
      | some u =>
        simp only [SType.write, hu] at ht
        injection ht with ht
        rw [← ht]
        exact hn i u hi hu
    unfold SweepParam.read
    simp only [List.cons_append, rdWord_word, hr, Res.bind, List.append_assoc]
    rw [rdInts_map _ _ _ (by simp [hids])]
    simp [rdNum_num]

/-- C67. The specialised parameters that exist in the code (`chi_top` and `chi_bottom`,
`FilmFieldGenExtBase.tpp:206-212`) satisfy the condition for being read back. -/
theorem C67_film_types (t : SType) (w : Word)
    (hw : t.write [⟨"chi_top".toList, 1⟩, ⟨"chi_bottom".toList, 1⟩] = .ok w) :
    SType.read [⟨"chi_top".toList, 1⟩, ⟨"chi_bottom".toList, 1⟩] w = .ok t := by
  refine (C67_sweepType_partial _ t w hw).2 ?_
  rintro i rfl
  match i with
  | 0 => cases hw; exact ⟨by decide, by decide, fun j hj => absurd hj (by omega)⟩
  | 1 =>
    cases hw
    refine ⟨by decide, by decide, fun j hj u hu => ?_⟩
    have : j = 0 := by omega
    subst this
    injection hu with hu; subst hu
    decide
  | i + 2 => simp [SType.write] at hw

/-- C67 fails for a specialised sweep parameter with a capital letter in its name: it is
written with that letter and rejected when read. -/
theorem C67_sweep_violated :
    SType.write [⟨"Gamma".toList, 0⟩] (.special 0) = .ok "Gamma".toList ∧
      SType.read [⟨"Gamma".toList, 0⟩] "Gamma".toList = .throw := by
  constructor <;> decide

/-! ## C67: unit cells -/

/-- C67. A unit cell with a lattice of dimension `D` is read back with the same lattice, its
parameters being the values printed. -/
theorem C67_unitCell (rd : K → K) (D : Nat) (c : Cell K) (rest : List (Tok K)) (old : Nat → K)
    (hd : c.lat.dim = some D) (hn : c.params.length = c.lat.nParameter) :
    Cell.read D old ⟨c.write rd ++ rest, true⟩ = .ok (⟨c.lat, c.params.map rd⟩, ⟨rest, true⟩) := by
  unfold Cell.read Lat.get Cell.write
  simp only [List.cons_append, rdWord_word, C67_lattice c.lat D hd, Res.bind]
  rw [rdNums_map _ _ _ _ (by simp [hn])]

end

/-- A ramp of `chi(0,1)` and a sweep of a length, written and read. -/
example : RampParam.read true (fun _ => 7) (0 : ℤ)
    ⟨[.word "chi".toList, .int 0, .int 1, .num 5, .word "next".toList], true⟩
    = .ok (⟨.chi, [0, 1], 5⟩, ⟨[.word "next".toList], true⟩) := by decide
example : RampParam.write (id : ℤ → ℤ) true ⟨.chi, [0, 1], 5⟩
    = .ok [.word "chi".toList, .int 0, .int 1, .num 5] := by decide
/-- In the bead model a block length can be neither written nor read. -/
example : RampParam.write (id : ℤ → ℤ) false ⟨.block, [0, 1], 5⟩ = .throw := by decide
example : SweepParam.write (id : ℤ → ℤ) [⟨"chi_top".toList, 1⟩] ⟨.special 0, [2], 5⟩
    = .ok [.word "chi_top".toList, .int 2, .num 5] := by decide
example : SType.read [⟨"chi_top".toList, 1⟩] "Chi_Top".toList = .ok (.special 0) := by decide
example : Cell.read 3 (fun _ => (0 : ℤ))
    ⟨Cell.write id ⟨.d3 .tetragonal, [4, 9]⟩, true⟩
    = .ok (⟨.d3 .tetragonal, [4, 9]⟩, ⟨[], true⟩) := by decide
example : (Lat.d2 .hexagonal).dim = some 2 ∧ Lat.read 3 (Lat.d2 .hexagonal).write
    = .ok (.d3 .hexagonal) := by decide

end Verif.Text
