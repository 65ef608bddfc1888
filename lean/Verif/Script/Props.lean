import Verif.Script.Model
import Verif.Tac

/-!
Property C70: the meaning of a command script.

A script is stated independently of the interpreter as a list of commands with the values of their
arguments (`runLines`); the theorems relate the interpreter on the words of the file to it.
-/

set_option autoImplicit false
set_option linter.unusedSectionVars false

namespace Verif.Script

variable {K σ : Type} [Zero K]

/-! ## What a script means -/

/-- Values of a list of arguments written as words. -/
def argVals (E : Env K σ) : List Arg → List Word → Option (List (Val K))
  | [], [] => some []
  | .str :: as, w :: ws => (argVals E as ws).map (.str w :: ·)
  | .dbl :: as, w :: ws =>
    match E.asDbl w with
    | some x => (argVals E as ws).map (.dbl x :: ·)
    | none => none
  | .int :: as, w :: ws =>
    match E.asInt w with
    | some x => (argVals E as ws).map (.int x :: ·)
    | none => none
  | _, _ => none

/-- Values of the arguments of a command written as words. -/
def cmdVals (E : Env K σ) : Sig → List Word → Option (List (Val K))
  | .plain as, ws => argVals E as ws
  | .cell, w :: ws =>
    match E.nParam w with
    | some n => (argVals E (List.replicate n .dbl) ws).map (.str w :: ·)
    | none => none
  | .expand, a :: b :: w :: ws =>
    match E.asInt w with
    | some d =>
      if (E.D : Int) < d then
        (argVals E (List.replicate (d - E.D).toNat .int) ws).map
          fun vs => .str a :: .str b :: .int d :: vs
      else none
    | none => none
  | .replicate, ws => argVals E (.str :: .str :: List.replicate E.D .int) ws
  | _, _ => none

/-- A line of a script: a command with its arguments as words, and their values. -/
structure Line (K : Type) where
  name : Word
  args : List Word
  vals : List (Val K)

/-- The line is a command with well formed arguments. -/
def Line.Ok (E : Env K σ) (l : Line K) : Prop :=
  ∃ sig, lookup l.name = some sig ∧ cmdVals E sig l.args = some l.vals

/-- The words of a script. -/
def flat (ls : List (Line K)) : List Word := ls.flatMap fun l => l.name :: l.args

/-- Execution of the commands in order, up to an exception or a failed `ITERATE`. -/
def runLines (E : Env K σ) : List (Line K) → σ → σ × Option End
  | [], s => (s, none)
  | l :: ls, s =>
    match E.exec l.name l.vals s with
    | (s', .threw) => (s', some .threw)
    | (s', .failed) =>
      if l.name = "ITERATE".toList then (s', some .iterateFailed) else runLines E ls s'
    | (s', .ok) => runLines E ls s'

/-! ## Reading -/

/-- A stream from which words have been extracted. -/
def mk (r : List Word) (t : Bool) : In := ⟨r, t, false, r.isEmpty && !t⟩

theorem mk_cons (w : Word) (r : List Word) (t : Bool) : mk (w :: r) t = ⟨w :: r, t, false, false⟩ := by
  simp [mk]

theorem word_mk (w : Word) (r : List Word) (t : Bool) (old : Word) :
    (mk (w :: r) t).word old = (w, mk r t) := by
  simp [mk_cons, In.word, In.good, In.advance, mk]

theorem num_mk {A : Type} (parse : Word → Option A) (z : A) (w : Word) (x : A) (r : List Word)
    (t : Bool) (old : Option A) (h : parse w = some x) :
    (mk (w :: r) t).num parse z old = (some x, mk r t) := by
  simp [mk_cons, In.num, In.good, In.advance, mk, h]

theorem readPlain_mk (E : Env K σ) (as : List Arg) (ws : List Word) (vs : List (Val K))
    (h : argVals E as ws = some vs) (r : List Word) (t : Bool) :
    readPlain E as (mk (ws ++ r) t) = .ok vs (mk r t) := by
  induction as generalizing ws vs with
  | nil =>
    cases ws with
    | nil => injection h with h; subst h; rfl
    | cons => cases h
  | cons a as ih =>
    cases ws with
    | nil => cases a <;> cases h
    | cons w ws =>
      cases a with
      | str =>
        unfold argVals at h
        obtain ⟨vs', h1, rfl⟩ := Option.map_eq_some_iff.1 h
        unfold readPlain
        simp only [List.cons_append, word_mk]
        rw [if_neg (by simp [mk]), ih ws vs' h1]
      | dbl =>
        unfold argVals at h
        cases hx : E.asDbl w with
        | none => rw [hx] at h; cases h
        | some x =>
          rw [hx] at h
          obtain ⟨vs', h1, rfl⟩ := Option.map_eq_some_iff.1 h
          unfold readPlain
          simp only [List.cons_append, num_mk E.asDbl 0 w x _ t none hx]
          rw [if_neg (by simp [mk]), ih ws vs' h1]
      | int =>
        unfold argVals at h
        cases hx : E.asInt w with
        | none => rw [hx] at h; cases h
        | some x =>
          rw [hx] at h
          obtain ⟨vs', h1, rfl⟩ := Option.map_eq_some_iff.1 h
          unfold readPlain
          simp only [List.cons_append, num_mk E.asInt 0 w x _ t none hx]
          rw [ih ws vs' h1]

theorem readNums_mk (E : Env K σ) (n : Nat) (ws : List Word) (vs : List (Val K))
    (h : argVals E (List.replicate n .dbl) ws = some vs) (r : List Word) (t : Bool) :
    readNums E n (mk (ws ++ r) t) = (vs, mk r t) := by
  induction n generalizing ws vs with
  | zero =>
    cases ws with
    | nil => injection h with h; subst h; rfl
    | cons => cases h
  | succ n ih =>
    rw [List.replicate_succ] at h
    cases ws with
    | nil => cases h
    | cons w ws =>
      unfold argVals at h
      cases hx : E.asDbl w with
      | none => rw [hx] at h; cases h
      | some x =>
        rw [hx] at h
        obtain ⟨vs', h1, rfl⟩ := Option.map_eq_some_iff.1 h
        unfold readNums
        simp only [List.cons_append, num_mk E.asDbl 0 w x _ t (some 0) hx]
        rw [ih ws vs' h1]
        rfl

theorem parse_mk (E : Env K σ) (sig : Sig) (ws : List Word) (vs : List (Val K))
    (h : cmdVals E sig ws = some vs) (r : List Word) (t : Bool) :
    sig ≠ .finish ∧ parse E sig (mk (ws ++ r) t) = .ok vs (mk r t) := by
  cases sig with
  | plain as => exact ⟨by simp, readPlain_mk E as ws vs h r t⟩
  | cell =>
    refine ⟨by simp, ?_⟩
    cases ws with
    | nil => cases h
    | cons w ws =>
      unfold cmdVals at h
      dsimp only at h
      cases hn : E.nParam w with
      | none => rw [hn] at h; cases h
      | some n =>
        rw [hn] at h
        obtain ⟨vs', h1, rfl⟩ := Option.map_eq_some_iff.1 h
        unfold parse
        simp only [List.cons_append, word_mk]
        rw [hn]
        simp only [readNums_mk E n ws vs' h1]
  | expand =>
    refine ⟨by simp, ?_⟩
    match ws, h with
    | a :: b :: w :: ws, h =>
      unfold cmdVals at h
      dsimp only at h
      cases hd : E.asInt w with
      | none => rw [hd] at h; cases h
      | some d =>
        rw [hd] at h
        simp only at h
        split at h
        · rename_i hlt
          obtain ⟨vs', h1, rfl⟩ := Option.map_eq_some_iff.1 h
          unfold parse
          have hp := readPlain_mk E [.str, .str, .int] [a, b, w] [.str a, .str b, .int d]
            (by simp [argVals, hd]) (ws ++ r) t
          simp only [List.cons_append, List.nil_append] at hp ⊢
          rw [hp]
          dsimp only
          rw [if_neg (by omega), readPlain_mk E _ ws vs' h1]
        · cases h
  | replicate => exact ⟨by simp, readPlain_mk E _ ws vs h r t⟩
  | finish => cases ws <;> cases h

/-! ## The interpreter follows the script -/

/-- Value of the variable `command` after some lines. -/
def lastName (c : Word) : List (Line K) → Word
  | [] => c
  | l :: ls => lastName l.name ls

theorem loop_succ (E : Env K σ) (f : Nat) (cmd : Word) (i : In) (s : σ) :
    loop E (f + 1) cmd i s =
      if (i.word cmd).2.eof then some (s, .eof)
      else match lookup (i.word cmd).1 with
        | none => some (s, .unknown)
        | some .finish => some (s, .finish)
        | some sig =>
          match parse E sig (i.word cmd).2 with
          | .threw => some (s, .threw)
          | .ub => some (s, .ub)
          | .ok vs j =>
            match E.exec (i.word cmd).1 vs s with
            | (s', .threw) => some (s', .threw)
            | (s', .failed) =>
              if (i.word cmd).1 = "ITERATE".toList then some (s', .iterateFailed)
              else loop E f (i.word cmd).1 j s'
            | (s', .ok) => loop E f (i.word cmd).1 j s' := rfl

theorem loop_script (E : Env K σ) (ls : List (Line K)) (hls : ∀ l ∈ ls, l.Ok E)
    (rest : List Word) (t : Bool) (hm : rest ≠ [] ∨ t = true) (f : Nat) (c : Word) (s : σ) :
    loop E (ls.length + f) c (mk (flat ls ++ rest) t) s =
      match runLines E ls s with
      | (s', some e) => some (s', e)
      | (s', none) => loop E f (lastName c ls) (mk rest t) s' := by
  induction ls generalizing c s with
  | nil => simp [flat, runLines, lastName]
  | cons l ls ih =>
    obtain ⟨sig, hsig, hv⟩ := hls l (by simp)
    have ih' := ih (fun l hl => hls l (by simp [hl]))
    have hflat : flat (l :: ls) ++ rest = l.name :: (l.args ++ (flat ls ++ rest)) := by
      simp [flat]
    obtain ⟨hfin, hp⟩ := parse_mk E sig l.args l.vals hv (flat ls ++ rest) t
    rw [hflat, List.length_cons, Nat.add_right_comm]
    rw [loop_succ]
    simp only [word_mk]
    have heof : (mk (l.args ++ (flat ls ++ rest)) t).eof = false := by
      rcases hm with hm | hm
      · simp [mk, hm]
      · simp [mk, hm]
    rw [heof, if_neg (by simp), hsig]
    have hstep : (match (some sig : Option Sig) with
        | none => some (s, End.unknown)
        | some Sig.finish => some (s, End.finish)
        | some sig =>
          match parse E sig (mk (l.args ++ (flat ls ++ rest)) t) with
          | Parsed.threw => some (s, End.threw)
          | Parsed.ub => some (s, End.ub)
          | Parsed.ok vs j =>
            match E.exec l.name vs s with
            | (s', Status.threw) => some (s', End.threw)
            | (s', Status.failed) =>
              if l.name = "ITERATE".toList then some (s', End.iterateFailed)
              else loop E (ls.length + f) l.name j s'
            | (s', Status.ok) => loop E (ls.length + f) l.name j s') =
        (match E.exec l.name l.vals s with
            | (s', Status.threw) => some (s', End.threw)
            | (s', Status.failed) =>
              if l.name = "ITERATE".toList then some (s', End.iterateFailed)
              else loop E (ls.length + f) l.name (mk (flat ls ++ rest) t) s'
            | (s', Status.ok) => loop E (ls.length + f) l.name (mk (flat ls ++ rest) t) s') := by
      cases sig <;> first | exact absurd rfl hfin | (dsimp only; rw [hp])
    refine hstep.trans ?_
    unfold runLines lastName
    rcases hx : E.exec l.name l.vals s with ⟨s', _ | _ | _⟩
    · exact ih' l.name s'
    · by_cases hn : l.name = "ITERATE".toList
      · simp only [hn, if_true]
      · simp only [if_neg hn]
        exact ih' l.name s'
    · rfl

theorem init_eq (w : Word) (r : List Word) (t : Bool) :
    (⟨w :: r, t, false, false⟩ : In) = mk (w :: r) t := (mk_cons w r t).symm

/-- The reason why a script stopped, given the reason found after its lines. -/
def ended (p : σ × Option End) (e : End) : σ × End := (p.1, p.2.getD e)

/-- C70. The commands before `FINISH` are executed in order, up to an exception or a failed
`ITERATE`; nothing that follows has any effect. -/
theorem C70_finish (E : Env K σ) (ls : List (Line K)) (hls : ∀ l ∈ ls, l.Ok E)
    (rest : List Word) (t : Bool) (f : Nat) (hf : ls.length < f) (s : σ) :
    ∃ e, (e = .finish ∨ (e = .eof ∧ rest = [] ∧ t = false)) ∧
      readCommands E f (flat ls ++ "FINISH".toList :: rest) t s = some (ended (runLines E ls s) e) := by
  obtain ⟨g, rfl⟩ : ∃ g, f = ls.length + (g + 1) := ⟨f - ls.length - 1, by omega⟩
  have hmk : (⟨flat ls ++ "FINISH".toList :: rest, t, false, false⟩ : In) =
      mk (flat ls ++ "FINISH".toList :: rest) t := by simp [mk]
  unfold readCommands
  rw [hmk, loop_script E ls hls _ t (Or.inl (by simp)) (g + 1) [] s]
  have hlook : lookup "FINISH".toList = some .finish := rfl
  by_cases hr : rest = [] ∧ t = false
  · refine ⟨.eof, Or.inr ⟨rfl, hr⟩, ?_⟩
    rcases runLines E ls s with ⟨s', _ | e⟩
    · dsimp only
      rw [loop_succ]
      simp only [word_mk]
      rw [if_pos (by simp [mk, hr.1, hr.2])]
      rfl
    · rfl
  · refine ⟨.finish, Or.inl rfl, ?_⟩
    rcases runLines E ls s with ⟨s', _ | e⟩
    · dsimp only
      rw [loop_succ]
      have heof : (mk rest t).eof = false := by
        cases t <;> simp [mk] at hr ⊢
        exact hr
      simp only [word_mk]
      rw [heof, if_neg (by simp), hlook]
      rfl
    · rfl

/-- C70. An unknown word in place of a command ends the script in the same way. -/
theorem C70_unknown (E : Env K σ) (ls : List (Line K)) (hls : ∀ l ∈ ls, l.Ok E) (u : Word)
    (hu : lookup u = none) (rest : List Word) (t : Bool) (f : Nat) (hf : ls.length < f) (s : σ) :
    ∃ e, (e = .unknown ∨ (e = .eof ∧ rest = [] ∧ t = false)) ∧
      readCommands E f (flat ls ++ u :: rest) t s = some (ended (runLines E ls s) e) := by
  obtain ⟨g, rfl⟩ : ∃ g, f = ls.length + (g + 1) := ⟨f - ls.length - 1, by omega⟩
  have hmk : (⟨flat ls ++ u :: rest, t, false, false⟩ : In) = mk (flat ls ++ u :: rest) t := by
    simp [mk]
  unfold readCommands
  rw [hmk, loop_script E ls hls _ t (Or.inl (by simp)) (g + 1) [] s]
  by_cases hr : rest = [] ∧ t = false
  · refine ⟨.eof, Or.inr ⟨rfl, hr⟩, ?_⟩
    rcases runLines E ls s with ⟨s', _ | e⟩
    · dsimp only
      rw [loop_succ]
      simp only [word_mk]
      rw [if_pos (by simp [mk, hr.1, hr.2])]
      rfl
    · rfl
  · refine ⟨.unknown, Or.inl rfl, ?_⟩
    rcases runLines E ls s with ⟨s', _ | e⟩
    · dsimp only
      rw [loop_succ]
      have heof : (mk rest t).eof = false := by
        cases t <;> simp [mk] at hr ⊢
        exact hr
      simp only [word_mk]
      rw [heof, if_neg (by simp), hu]
      rfl
    · rfl

/-- C70. Once a command throws or an `ITERATE` fails, the rest of the file, whatever it
contains, has no effect. -/
theorem C70_stops (E : Env K σ) (ls : List (Line K)) (hls : ∀ l ∈ ls, l.Ok E)
    (s s' : σ) (e : End) (hstop : runLines E ls s = (s', some e))
    (rest : List Word) (t : Bool) (hm : rest ≠ [] ∨ t = true) (f : Nat) (hf : ls.length ≤ f) :
    readCommands E f (flat ls ++ rest) t s = some (s', e) := by
  obtain ⟨g, rfl⟩ : ∃ g, f = ls.length + g := ⟨f - ls.length, by omega⟩
  have hmk : (⟨flat ls ++ rest, t, false, false⟩ : In) = mk (flat ls ++ rest) t := by
    rcases hm with hm | hm
    · simp [mk, hm]
    · simp [mk, hm]
  unfold readCommands
  rw [hmk, loop_script E ls hls _ t hm g [] s, hstop]

/-- C70. A file that ends with white space is executed completely. -/
theorem C70_eof (E : Env K σ) (ls : List (Line K)) (hls : ∀ l ∈ ls, l.Ok E) (f : Nat)
    (hf : ls.length < f) (s : σ) :
    readCommands E f (flat ls) true s = some (ended (runLines E ls s) .eof) := by
  obtain ⟨g, rfl⟩ : ∃ g, f = ls.length + (g + 1) := ⟨f - ls.length - 1, by omega⟩
  have hmk : (⟨flat ls, true, false, false⟩ : In) = mk (flat ls ++ []) true := by simp [mk]
  unfold readCommands
  rw [hmk, loop_script E ls hls [] true (Or.inr rfl) (g + 1) [] s]
  rcases runLines E ls s with ⟨s', _ | e⟩
  · dsimp only
    rw [loop_succ]
    simp [mk, In.word, In.good, ended]
  · rfl

/-- C70. A file that ends right after the last argument of a command is executed completely.
`C70_last_violated` is the case of a last command without arguments. -/
theorem C70_eof_args_partial (E : Env K σ) (ls : List (Line K)) (l : Line K)
    (hls : ∀ l ∈ ls, l.Ok E) (hl : l.Ok E) (ha : l.args ≠ []) (f : Nat)
    (hf : ls.length + 1 < f) (s : σ) :
    readCommands E f (flat (ls ++ [l])) false s =
      some (ended (runLines E (ls ++ [l]) s) .eof) := by
  obtain ⟨g, rfl⟩ : ∃ g, f = ls.length + (g + 2) := ⟨f - ls.length - 2, by omega⟩
  have hflat : flat (ls ++ [l]) = flat ls ++ (l.name :: l.args) := by simp [flat]
  have hrun : runLines E (ls ++ [l]) s = (match runLines E ls s with
      | (s', some e) => (s', some e)
      | (s', none) => runLines E [l] s') := by
    clear hls hflat hf
    induction ls generalizing s with
    | nil => simp [runLines]
    | cons a ls ih =>
      simp only [List.cons_append, runLines]
      rcases hx : E.exec a.name a.vals s with ⟨s', _ | _ | _⟩
      · exact ih s'
      · by_cases hn : a.name = "ITERATE".toList
        · simp only [if_pos hn]
        · simp only [if_neg hn]
          exact ih s'
      · rfl
  have hmk : (⟨flat ls ++ (l.name :: l.args), false, false, false⟩ : In) =
      mk (flat ls ++ (l.name :: l.args)) false := by simp [mk]
  unfold readCommands
  rw [hflat, hmk, loop_script E ls hls _ false (Or.inl (by simp)) (g + 2) [] s, hrun]
  rcases runLines E ls s with ⟨s', _ | e⟩
  · dsimp only
    obtain ⟨sig, hsig, hv⟩ := hl
    obtain ⟨hfin, hp⟩ := parse_mk E sig l.args l.vals hv [] false
    rw [List.append_nil] at hp
    rw [loop_succ]
    simp only [word_mk]
    have heof : (mk l.args false).eof = false := by simp [mk, ha]
    rw [heof, if_neg (by simp), hsig]
    have hstep : (match (some sig : Option Sig) with
        | none => some (s', End.unknown)
        | some Sig.finish => some (s', End.finish)
        | some sig =>
          match parse E sig (mk l.args false) with
          | Parsed.threw => some (s', End.threw)
          | Parsed.ub => some (s', End.ub)
          | Parsed.ok vs j =>
            match E.exec l.name vs s' with
            | (s', Status.threw) => some (s', End.threw)
            | (s', Status.failed) =>
              if l.name = "ITERATE".toList then some (s', End.iterateFailed)
              else loop E (g + 1) l.name j s'
            | (s', Status.ok) => loop E (g + 1) l.name j s') =
        (match E.exec l.name l.vals s' with
            | (s', Status.threw) => some (s', End.threw)
            | (s', Status.failed) =>
              if l.name = "ITERATE".toList then some (s', End.iterateFailed)
              else loop E (g + 1) l.name (mk [] false) s'
            | (s', Status.ok) => loop E (g + 1) l.name (mk [] false) s') := by
      cases sig <;> first | exact absurd rfl hfin | (dsimp only; rw [hp])
    refine hstep.trans ?_
    have hend : ∀ s'', loop E (g + 1) l.name (mk [] false) s'' = some (s'', End.eof) := by
      intro s''
      rw [loop_succ]
      simp [mk, In.word, In.good]
    unfold runLines
    rcases hx : E.exec l.name l.vals s' with ⟨s'', _ | _ | _⟩
    · simp only [hend, runLines]; rfl
    · by_cases hn : l.name = "ITERATE".toList
      · simp only [if_pos hn]; rfl
      · simp only [if_neg hn, hend, runLines]; rfl
    · rfl
  · rfl

/-- C70 fails: a command without arguments that ends the file, with no white space after it, is
not executed, and no error is reported. -/
theorem C70_last_violated (E : Env K σ) (ls : List (Line K)) (hls : ∀ l ∈ ls, l.Ok E) (c : Word)
    (f : Nat) (hf : ls.length < f) (s s' : σ) (hrun : runLines E ls s = (s', none)) :
    readCommands E f (flat ls ++ [c]) false s = some (s', .eof) := by
  obtain ⟨g, rfl⟩ : ∃ g, f = ls.length + (g + 1) := ⟨f - ls.length - 1, by omega⟩
  have hmk : (⟨flat ls ++ [c], false, false, false⟩ : In) = mk (flat ls ++ [c]) false := by
    simp [mk]
  unfold readCommands
  rw [hmk, loop_script E ls hls _ false (Or.inl (by simp)) (g + 1) [] s, hrun]
  dsimp only
  rw [loop_succ]
  simp only [word_mk]
  rw [if_pos (by simp [mk])]

/-- C70 fails: `SIMULATE` with a word that is not a number first performs a simulation of zero
steps, and then is repeated with an uninitialised number of steps. -/
theorem C70_simulate_violated (E : Env K σ) (w : Word) (hw : E.asInt w = none)
    (rest : List Word) (t : Bool) (f : Nat) (hf : 2 ≤ f) (s s' : σ)
    (hx : E.exec "SIMULATE".toList [.int 0] s = (s', .ok)) :
    readCommands E f ("SIMULATE".toList :: w :: rest) t s = some (s', .ub) := by
  obtain ⟨g, rfl⟩ : ∃ g, f = g + 2 := ⟨f - 2, by omega⟩
  have hlook : lookup "SIMULATE".toList = some (.plain [.int]) := rfl
  unfold readCommands
  rw [init_eq]
  rw [loop_succ]
  simp only [word_mk]
  rw [mk_cons]
  dsimp only
  rw [if_neg (by simp), hlook]
  simp only [parse, readPlain, In.num, In.good, hw]
  simp only [Bool.not_false, Bool.and_self, if_true, hx]
  rw [loop_succ]
  simp only [In.word, In.good]
  simp only [Bool.not_true, Bool.false_and, Bool.false_eq_true, if_false, hlook, parse, readPlain,
    In.num, In.good]

/-! ## Termination -/

/-- The command takes arguments. -/
def Sig.hasArgs : Sig → Bool
  | .plain [] => false
  | .plain _ => true
  | .cell => true
  | .expand => true
  | .replicate => true
  | .finish => false

theorem readPlain_fail (E : Env K σ) (a : Arg) (as : List Arg) (i : In) (hi : i.fail = true) :
    ∀ vs j, readPlain E (a :: as) i ≠ .ok vs j := by
  intro vs j h
  cases a <;> simp [readPlain, In.word, In.num, In.good, hi] at h

/-- Reading from a stream that has failed never succeeds. -/
theorem parse_fail (E : Env K σ) (hnp : E.nParam [] = none) (sig : Sig) (i : In)
    (hi : i.fail = true) (hs : sig.hasArgs = true) : ∀ vs j, parse E sig i ≠ .ok vs j := by
  intro vs j h
  cases sig with
  | plain as =>
    cases as with
    | nil => cases hs
    | cons a as => exact readPlain_fail E a as i hi vs j h
  | cell => simp [parse, In.word, In.good, hi, hnp] at h
  | expand =>
    unfold parse at h
    dsimp only at h
    cases hp : readPlain E [.str, .str, .int] i with
    | ok vs' j' => exact readPlain_fail E _ _ i hi vs' j' hp
    | threw => rw [hp] at h; cases h
    | ub => rw [hp] at h; cases h
  | replicate => exact readPlain_fail E _ _ i hi vs j h
  | finish => cases hs

theorem num_len {A : Type} (parse : Word → Option A) (z : A) (i : In) (old : Option A) :
    (i.num parse z old).2.words.length ≤ i.words.length := by
  unfold In.num
  split
  · split
    · exact le_rfl
    · rename_i w r hw
      split
      · simp [In.advance, hw]
      · exact le_rfl
  · exact le_rfl

theorem word_len (i : In) (old : Word) : (i.word old).2.words.length ≤ i.words.length := by
  unfold In.word
  split
  · split
    · exact le_rfl
    · rename_i w r hw
      simp [In.advance, hw]
  · exact le_rfl

theorem readPlain_len (E : Env K σ) (as : List Arg) (i j : In) (vs : List (Val K))
    (h : readPlain E as i = .ok vs j) : j.words.length ≤ i.words.length := by
  induction as generalizing i vs with
  | nil => unfold readPlain at h; injection h with _ h; rw [h]
  | cons a as ih =>
    cases a with
    | str =>
      unfold readPlain at h
      dsimp only at h
      split at h
      · cases h
      · cases hr : readPlain E as (i.word []).2 with
        | ok vs' j' =>
          rw [hr] at h; injection h with _ h; subst h
          exact (ih _ _ hr).trans (word_len _ _)
        | threw => rw [hr] at h; cases h
        | ub => rw [hr] at h; cases h
    | dbl =>
      unfold readPlain at h
      dsimp only at h
      split at h
      · cases h
      · split at h
        · cases h
        · cases hr : readPlain E as (i.num E.asDbl 0 none).2 with
          | ok vs' j' =>
            rw [hr] at h; injection h with _ h; subst h
            exact (ih _ _ hr).trans (num_len _ _ _ _)
          | threw => rw [hr] at h; cases h
          | ub => rw [hr] at h; cases h
    | int =>
      unfold readPlain at h
      dsimp only at h
      split at h
      · cases h
      · cases hr : readPlain E as (i.num E.asInt 0 none).2 with
        | ok vs' j' =>
          rw [hr] at h; injection h with _ h; subst h
          exact (ih _ _ hr).trans (num_len _ _ _ _)
        | threw => rw [hr] at h; cases h
        | ub => rw [hr] at h; cases h

theorem readNums_len (E : Env K σ) (n : Nat) (i : In) :
    (readNums E n i).2.words.length ≤ i.words.length := by
  induction n generalizing i with
  | zero => exact le_rfl
  | succ n ih => exact (ih _).trans (num_len _ _ _ _)

theorem parse_len (E : Env K σ) (sig : Sig) (i j : In) (vs : List (Val K))
    (h : parse E sig i = .ok vs j) : j.words.length ≤ i.words.length := by
  cases sig with
  | plain as => exact readPlain_len E as i j vs h
  | cell =>
    unfold parse at h
    dsimp only at h
    split at h
    · cases h
    · injection h with _ h
      rw [← h]
      exact (readNums_len _ _ _).trans (word_len _ _)
  | expand =>
    unfold parse at h
    dsimp only at h
    cases hp : readPlain E [.str, .str, .int] i with
    | threw => rw [hp] at h; cases h
    | ub => rw [hp] at h; cases h
    | ok vs' j' =>
      rw [hp] at h
      have h1 := readPlain_len E _ _ _ _ hp
      split at h
      · rename_i heq
        injection heq with _ heq
        subst heq
        split at h
        · cases h
        · rename_i d _ _
          cases hq : readPlain E (List.replicate (d - E.D).toNat .int) j' with
          | threw => rw [hq] at h; cases h
          | ub => rw [hq] at h; cases h
          | ok vs2 j2 =>
            rw [hq] at h
            injection h with _ h
            subst h
            exact (readPlain_len E _ _ _ _ hq).trans h1
      · cases h
      · rename_i hne
        exact (hne _ _ rfl).elim
  | replicate => exact readPlain_len E _ i j vs h
  | finish => injection h with _ h; rw [h]

/-- Only the reading of arguments makes a stream fail. -/
theorem parse_noargs (E : Env K σ) (sig : Sig) (i j : In) (vs : List (Val K))
    (h : parse E sig i = .ok vs j) (hs : sig.hasArgs = false) : j = i := by
  cases sig with
  | plain as =>
    cases as with
    | nil => injection h with _ h; exact h.symm
    | cons => cases hs
  | cell => cases hs
  | expand => cases hs
  | replicate => cases hs
  | finish => injection h with _ h; exact h.symm

/-- The loop ends at once on a stream that failed while arguments of the command were read. -/
theorem loop_fail (E : Env K σ) (hnp : E.nParam [] = none) (c : Word) (sig : Sig)
    (hsig : lookup c = some sig) (hs : sig.hasArgs = true) (i : In) (hi : i.fail = true) (s : σ)
    (f : Nat) : loop E (f + 1) c i s ≠ none := by
  rw [loop_succ]
  have hw : i.word c = (c, { i with fail := true }) := by simp [In.word, In.good, hi]
  rw [hw]
  dsimp only
  split
  · simp
  · rw [hsig]
    split
    · simp
    · simp
    · rename_i sig' _ heq
      injection heq with heq
      subst heq
      split
      · simp
      · simp
      · rename_i hp
        exact absurd hp (parse_fail E hnp sig _ rfl hs _ _)

/-- C70. Every file is executed in a number of iterations bounded by its number of words: the
interpreter never hangs, provided that each command returns or throws. -/
theorem C70_terminates (E : Env K σ) (hnp : E.nParam [] = none) (words : List Word) (t : Bool)
    (s : σ) (f : Nat) (hf : words.length + 2 ≤ f) : readCommands E f words t s ≠ none := by
  unfold readCommands
  have key : ∀ (f : Nat) (c : Word) (i : In) (s : σ), i.fail = false →
      i.words.length + 2 ≤ f → loop E f c i s ≠ none := by
    intro f
    induction f with
    | zero => intro c i s _ h; omega
    | succ f ih =>
      intro c i s hi hlen
      rw [loop_succ]
      by_cases hg : i.good = true
      · cases hw : i.words with
        | nil => simp [In.word, hg, hw]
        | cons w r =>
          have hword : i.word c = (w, i.advance r) := by simp [In.word, hg, hw]
          rw [hword]
          dsimp only
          split
          · simp
          · cases hsig : lookup w with
            | none => simp
            | some sig =>
              have hcont : ∀ vs j, parse E sig (i.advance r) = .ok vs j → ∀ s',
                  loop E f w j s' ≠ none := by
                intro vs j hp s'
                have hl := parse_len E sig _ _ _ hp
                have hl2 : j.words.length + 2 ≤ f := by
                  have : (i.advance r).words.length = r.length := rfl
                  rw [hw, List.length_cons] at hlen
                  omega
                cases hj : j.fail with
                | false => exact ih w j s' hj hl2
                | true =>
                  obtain ⟨g, rfl⟩ : ∃ g, f = g + 1 := ⟨f - 1, by omega⟩
                  refine loop_fail E hnp w sig hsig ?_ j hj s' g
                  by_contra hna
                  have := parse_noargs E sig _ _ _ hp (by simpa using hna)
                  rw [this] at hj
                  have : (i.advance r).fail = i.fail := rfl
                  rw [this, hi] at hj
                  cases hj
              split
              · simp
              · simp
              · rename_i sig' _ heq
                injection heq with heq
                subst heq
                split
                · simp
                · simp
                · rename_i vs j hp
                  split
                  · simp
                  · split
                    · simp
                    · exact hcont vs j hp _
                  · exact hcont vs j hp _
      · have heof : i.eof = true := by
          simp [In.good, hi] at hg
          exact hg
        have hword : i.word c = (c, { i with fail := true }) := by simp [In.word, hg]
        rw [hword]
        simp [heof]
  exact key f [] _ s rfl hf

/-- C70. Command names are distinct: every branch of the chain of comparisons is reachable. -/
theorem C70_names : ∀ p ∈ table, lookup p.1 = some p.2 := by decide +kernel

/-! ## The manual -/

/-- Commands with a fixed list of arguments, as documented in
`/repo/docs/manual/scft/command_pc.dox:99-484` and `/repo/docs/manual/psfts/command.dox:95-118`. -/
def manual : List (Word × List Arg) :=
  (["COMPUTE".toList,
    "ITERATE".toList,
    "SWEEP".toList,
    "COMPRESS".toList].map fun n => (n, [])) ++
  (["READ_W_BASIS".toList,
    "READ_W_RGRID".toList,
    "WRITE_PARAM".toList,
    "WRITE_THERMO".toList,
    "WRITE_STRESS".toList,
    "WRITE_W_BASIS".toList,
    "WRITE_W_RGRID".toList,
    "WRITE_C_RGRID".toList,
    "WRITE_C_BASIS".toList,
    "WRITE_BLOCK_C_RGRID".toList,
    "WRITE_Q_ALL".toList,
    "WRITE_WAVES".toList,
    "WRITE_STARS".toList,
    "WRITE_GROUP".toList,
    "READ_H_BASIS".toList,
    "READ_H_RGRID".toList,
    "WRITE_H_BASIS".toList,
    "WRITE_H_RGRID".toList,
    "READ_MASK_BASIS".toList,
    "READ_MASK_RGRID".toList,
    "WRITE_MASK_BASIS".toList,
    "WRITE_MASK_RGRID".toList,
    "WRITE_TIMERS".toList,
    "CLEAR_TIMERS".toList].map fun n => (n, [.str])) ++
  (["BASIS_TO_RGRID".toList,
    "RGRID_TO_BASIS".toList,
    "KGRID_TO_RGRID".toList,
    "RGRID_TO_KGRID".toList,
    "BASIS_TO_KGRID".toList,
    "KGRID_TO_BASIS".toList,
    "COMPARE_BASIS".toList,
    "COMPARE_RGRID".toList,
    "ESTIMATE_W_BASIS".toList].map fun n => (n, [.str, .str])) ++
  [("SIMULATE".toList, [.int]),
   ("ANALYZE".toList, [.int, .int, .str, .str]),
   ("WRITE_Q_SLICE".toList, [.str, .int, .int, .int, .int]),
   ("WRITE_Q_TAIL".toList, [.str, .int, .int, .int]),
   ("WRITE_Q".toList, [.str, .int, .int, .int]),
   ("CHECK_RGRID_SYMMETRY".toList, [.str, .dbl]),
   ("SCALE_BASIS".toList, [.str, .str, .dbl]),
   ("SCALE_RGRID".toList, [.str, .str, .dbl])]

/-- C70. Every command of the manual exists and takes the documented arguments, except
`CLEAR_TIMERS`. -/
theorem C70_manual : ∀ p ∈ manual, p.1 ≠ "CLEAR_TIMERS".toList →
    lookup p.1 = some (.plain p.2) := by decide +kernel

/-- C70, finding: the manual documents `CLEAR_TIMERS filename`, but the code reads no argument: the
file name is taken for a command, and unless it is the name of one the script stops there. -/
theorem C70_clear_timers_violated (E : Env K σ) (f : Nat) (name next : Word) (rest : List Word)
    (b : Bool) (s : σ) (hn : lookup name = none)
    (he : (E.exec "CLEAR_TIMERS".toList [] s).2 = .ok) :
    ("CLEAR_TIMERS".toList, [Arg.str]) ∈ manual ∧
    readCommands E (f + 2) ("CLEAR_TIMERS".toList :: name :: next :: rest) b s =
      some ((E.exec "CLEAR_TIMERS".toList [] s).1, .unknown) := by
  refine ⟨by decide +kernel, ?_⟩
  have hl : ∀ l ∈ [(⟨"CLEAR_TIMERS".toList, [], []⟩ : Line K)], l.Ok E := by
    intro l hl
    rw [List.mem_singleton] at hl
    subst hl
    exact ⟨.plain [], rfl, rfl⟩
  obtain ⟨e, he1, he2⟩ := C70_unknown E _ hl name hn (next :: rest) b (f + 2) (by simp) s
  have he' : e = .unknown := by
    rcases he1 with h | ⟨_, h, _⟩
    · exact h
    · cases h
  have hr : runLines E [(⟨"CLEAR_TIMERS".toList, [], []⟩ : Line K)] s =
      ((E.exec "CLEAR_TIMERS".toList [] s).1, none) := by
    unfold runLines
    revert he
    dsimp only
    rcases E.exec "CLEAR_TIMERS".toList [] s with ⟨s', st⟩
    intro he
    cases he
    rfl
  rw [he', hr] at he2
  exact he2

/-! ## Cases -/

/-- A system that records the commands executed; the second `ITERATE` fails. -/
def exE : Env Int (List Word) where
  D := 3
  asInt := fun w => if w = "10".toList then some 10 else if w = "4".toList then some 4 else none
  asDbl := fun w => if w = "1.5".toList then some 15 else none
  nParam := fun w => if w = "cubic".toList then some 1 else none
  exec := fun c _ s =>
    if c = "ITERATE".toList ∧ c ∈ s then (s ++ [c], .failed) else (s ++ [c], .ok)

def exLines : List (Line Int) :=
  [⟨"SET_UNIT_CELL".toList, ["cubic".toList, "1.5".toList], [.str "cubic".toList, .dbl 15]⟩,
   ⟨"READ_W_RGRID".toList, ["w.rf".toList], [.str "w.rf".toList]⟩,
   ⟨"ITERATE".toList, [], []⟩,
   ⟨"SIMULATE".toList, ["10".toList], [.int 10]⟩]

example : ∀ l ∈ exLines, l.Ok exE := by
  intro l hl
  simp only [exLines, List.mem_cons, List.not_mem_nil, or_false] at hl
  rcases hl with rfl | rfl | rfl | rfl
  · exact ⟨.cell, rfl, rfl⟩
  · exact ⟨.plain [.str], rfl, rfl⟩
  · exact ⟨.plain [], rfl, rfl⟩
  · exact ⟨.plain [.int], rfl, rfl⟩

example : readCommands exE 20 (flat exLines ++ "FINISH".toList :: ["junk".toList]) true [] =
    some (["SET_UNIT_CELL".toList, "READ_W_RGRID".toList, "ITERATE".toList, "SIMULATE".toList],
      .finish) := by decide +kernel

/-- The second iteration fails: the script stops there. -/
example : readCommands exE 20 (flat exLines ++ flat exLines) true [] =
    some (["SET_UNIT_CELL".toList, "READ_W_RGRID".toList, "ITERATE".toList, "SIMULATE".toList,
      "SET_UNIT_CELL".toList, "READ_W_RGRID".toList, "ITERATE".toList], .iterateFailed) := by
  decide +kernel

example : readCommands exE 20 ["COMPUTE".toList, "SWEEP".toList] false [] =
    some (["COMPUTE".toList], .eof) := by decide +kernel

/-- A script as in the manual, with the documented argument of `CLEAR_TIMERS`. -/
example : readCommands exE 20 ["COMPUTE".toList, "CLEAR_TIMERS".toList, "out/timers".toList,
    "SWEEP".toList, "FINISH".toList] true [] =
    some (["COMPUTE".toList, "CLEAR_TIMERS".toList], .unknown) := by decide +kernel

example : exE.asInt "ten".toList = none ∧
    exE.exec "SIMULATE".toList [.int 0] [] = (["SIMULATE".toList], .ok) := by decide +kernel

end Verif.Script
