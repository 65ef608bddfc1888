import Verif.Basic

/-!
Model of the command script interpreter `SystemTmpl<D,T>::readCommands`,
`prdc/system/SystemTmpl.tpp:411-779`.

The stream is a list of white space separated words with the flags of a `std::istream`.  The
conversion of a word to an integer or a floating point number is a parameter, and so is the
effect of each command on the system; what is modelled is the reading of names and arguments,
the order of execution, and when the loop ends.

Simplifications.
* A number extracted by `operator >>` takes a whole word; in C++ a word such as `3abc` would be
  taken apart.
* Post-conditions that are checked after reading fields (`UTIL_CHECK(!c_.hasData())` etc.) are part
  of the effect of the command.
* Output to the log file is left out.
-/

set_option autoImplicit false
set_option linter.unusedSectionVars false

namespace Verif.Script

abbrev Word := List Char

/-- A `std::istream`: words that are left, whether white space follows the last word, and the
flags `failbit` and `eofbit`. -/
structure In where
  words : List Word
  trailing : Bool
  fail : Bool
  eof : Bool
deriving DecidableEq, Repr

/-- `good()`. -/
def In.good (i : In) : Bool := !i.fail && !i.eof

/-- Removal of the first word, which sets `eofbit` if the end of the file is reached before any
white space. -/
def In.advance (i : In) (rest : List Word) : In :=
  { i with words := rest, eof := rest.isEmpty && !i.trailing }

/-- `in >> s` for a string with value `old`. -/
def In.word (i : In) (old : Word) : Word × In :=
  if i.good then
    match i.words with
    | [] => (old, { i with fail := true, eof := true })
    | w :: r => (w, i.advance r)
  else (old, { i with fail := true })

/-- `in >> x` for a number with value `old`; a word that is not a number stores zero and
sets `failbit`. -/
def In.num {A : Type} (parse : Word → Option A) (zero : A) (i : In) (old : Option A) :
    Option A × In :=
  if i.good then
    match i.words with
    | [] => (old, { i with fail := true, eof := true })
    | w :: r =>
      match parse w with
      | some x => (some x, i.advance r)
      | none => (some zero, { i with fail := true })
  else (old, { i with fail := true })

/-- Kinds of arguments: a string or a floating point number read with `readEcho`
(`SystemTmpl.tpp:1156-1176`), which checks for failure, or an integer read with `operator >>`,
which does not. -/
inductive Arg where
  | str | dbl | int
deriving DecidableEq, Repr

/-- Arguments of a command: a fixed list, a unit cell, the arguments of
`EXPAND_RGRID_DIMENSION`, or those of `REPLICATE_UNIT_CELL`; or the end of the script. -/
inductive Sig where
  | plain (args : List Arg)
  | cell
  | expand
  | replicate
  | finish
deriving DecidableEq, Repr

/-- A value of an argument. -/
inductive Val (K : Type) where
  | str (w : Word)
  | int (i : Int)
  | dbl (x : K)
deriving DecidableEq, Repr

/-- The commands of `readCommands`, in the order of the source. -/
def table : List (Word × Sig) :=
  [("FINISH".toList, .finish),
   ("READ_W_BASIS".toList, .plain [.str]),
   ("READ_W_RGRID".toList, .plain [.str]),
   ("SET_UNIT_CELL".toList, .cell),
   ("COMPUTE".toList, .plain []),
   ("ITERATE".toList, .plain []),
   ("SWEEP".toList, .plain []),
   ("COMPRESS".toList, .plain []),
   ("SIMULATE".toList, .plain [.int]),
   ("ANALYZE".toList, .plain [.int, .int, .str, .str]),
   ("ANALYZE_TRAJECTORY".toList, .plain [.int, .int, .str, .str]),
   ("WRITE_PARAM".toList, .plain [.str]),
   ("WRITE_THERMO".toList, .plain [.str]),
   ("WRITE_STRESS".toList, .plain [.str]),
   ("WRITE_W_BASIS".toList, .plain [.str]),
   ("WRITE_W_RGRID".toList, .plain [.str]),
   ("WRITE_C_BASIS".toList, .plain [.str]),
   ("WRITE_C_RGRID".toList, .plain [.str]),
   ("WRITE_BLOCK_C_RGRID".toList, .plain [.str]),
   ("WRITE_Q_SLICE".toList, .plain [.str, .int, .int, .int, .int]),
   ("WRITE_Q_TAIL".toList, .plain [.str, .int, .int, .int]),
   ("WRITE_Q".toList, .plain [.str, .int, .int, .int]),
   ("WRITE_Q_ALL".toList, .plain [.str]),
   ("WRITE_STARS".toList, .plain [.str]),
   ("WRITE_WAVES".toList, .plain [.str]),
   ("WRITE_GROUP".toList, .plain [.str]),
   ("BASIS_TO_RGRID".toList, .plain [.str, .str]),
   ("RGRID_TO_BASIS".toList, .plain [.str, .str]),
   ("KGRID_TO_RGRID".toList, .plain [.str, .str]),
   ("RGRID_TO_KGRID".toList, .plain [.str, .str]),
   ("BASIS_TO_KGRID".toList, .plain [.str, .str]),
   ("KGRID_TO_BASIS".toList, .plain [.str, .str]),
   ("CHECK_RGRID_SYMMETRY".toList, .plain [.str, .dbl]),
   ("COMPARE_BASIS".toList, .plain [.str, .str]),
   ("COMPARE_RGRID".toList, .plain [.str, .str]),
   ("SCALE_BASIS".toList, .plain [.str, .str, .dbl]),
   ("SCALE_RGRID".toList, .plain [.str, .str, .dbl]),
   ("EXPAND_RGRID_DIMENSION".toList, .expand),
   ("REPLICATE_UNIT_CELL".toList, .replicate),
   ("ESTIMATE_W_BASIS".toList, .plain [.str, .str]),
   ("READ_H_BASIS".toList, .plain [.str]),
   ("READ_H_RGRID".toList, .plain [.str]),
   ("WRITE_H_BASIS".toList, .plain [.str]),
   ("WRITE_H_RGRID".toList, .plain [.str]),
   ("READ_MASK_BASIS".toList, .plain [.str]),
   ("READ_MASK_RGRID".toList, .plain [.str]),
   ("WRITE_MASK_BASIS".toList, .plain [.str]),
   ("WRITE_MASK_RGRID".toList, .plain [.str]),
   ("WRITE_TIMERS".toList, .plain [.str]),
   ("CLEAR_TIMERS".toList, .plain [])]

/-- The chain of comparisons with command names. -/
def lookup (c : Word) : Option Sig := table.lookup c

/-- Result of the execution of a command: success, a failure that is returned (only `iterate`
returns one), or an exception. -/
inductive Status where
  | ok | failed | threw
deriving DecidableEq, Repr

/-- Why the loop ended. -/
inductive End where
  | finish | eof | unknown | iterateFailed | threw | ub
deriving DecidableEq, Repr

/-- Everything the interpreter is applied to: number conversions, the number of parameters of a
lattice system by its name (`UnitCell<D>` extractor, `none` throws), the spatial dimension, and
the effect of each command on the system. -/
structure Env (K σ : Type) where
  D : Nat
  asInt : Word → Option Int
  asDbl : Word → Option K
  nParam : Word → Option Nat
  exec : Word → List (Val K) → σ → σ × Status

variable {K σ : Type} [Zero K]

/-- Result of reading the arguments. -/
inductive Parsed (K : Type) where
  | ok (vals : List (Val K)) (i : In)
  | threw
  | ub

/-- Reading a fixed list of arguments.  An integer that is not stored is printed to the log file
and passed on: use of an uninitialised variable. -/
def readPlain (E : Env K σ) : List Arg → In → Parsed K
  | [], i => .ok [] i
  | .str :: as, i =>
    let p := i.word []
    if p.2.fail then .threw
    else match readPlain E as p.2 with
      | .ok vs j => .ok (.str p.1 :: vs) j
      | r => r
  | .dbl :: as, i =>
    let p := i.num E.asDbl 0 none
    if p.2.fail then .threw
    else match p.1 with
      | none => .ub
      | some x =>
        match readPlain E as p.2 with
        | .ok vs j => .ok (.dbl x :: vs) j
        | r => r
  | .int :: as, i =>
    let p := i.num E.asInt 0 none
    match p.1 with
    | none => .ub
    | some n =>
      match readPlain E as p.2 with
      | .ok vs j => .ok (.int n :: vs) j
      | r => r

/-- `n` floating point numbers read with `operator >>` (parameters of a unit cell).  The
parameters of a new `UnitCell` are zero. -/
def readNums (E : Env K σ) : Nat → In → List (Val K) × In
  | 0, i => ([], i)
  | n + 1, i =>
    let p := i.num E.asDbl 0 (some 0)
    let q := readNums E n p.2
    (.dbl (p.1.getD 0) :: q.1, q.2)

/-- Reading the arguments of a command.
* `SET_UNIT_CELL`: `SystemTmpl.tpp:450-459` with `operator >>` of `UnitCell<D>`.
* `EXPAND_RGRID_DIMENSION`: lines 682-705.
* `REPLICATE_UNIT_CELL`: lines 706-724. -/
def parse (E : Env K σ) : Sig → In → Parsed K
  | .plain as, i => readPlain E as i
  | .cell, i =>
    let p := i.word []
    match E.nParam p.1 with
    | none => .threw
    | some n =>
      let q := readNums E n p.2
      .ok (.str p.1 :: q.1) q.2
  | .expand, i =>
    match readPlain E [.str, .str, .int] i with
    | .ok [a, b, .int d] j =>
      if d ≤ E.D then .threw
      else match readPlain E (List.replicate (d - E.D).toNat .int) j with
        | .ok vs k => .ok (a :: b :: .int d :: vs) k
        | r => r
    | .ok _ _ => .ub
    | r => r
  | .replicate, i => readPlain E (.str :: .str :: List.replicate E.D .int) i
  | .finish, i => .ok [] i

/-- The loop of `readCommands`, `SystemTmpl.tpp:418-778`; the variable `command` keeps its value
when nothing can be extracted.  `none` means that the fuel was not enough. -/
def loop (E : Env K σ) : Nat → Word → In → σ → Option (σ × End)
  | 0, _, _, _ => none
  | f + 1, cmd, i, s =>
    let p := i.word cmd
    if p.2.eof then some (s, .eof)
    else match lookup p.1 with
      | none => some (s, .unknown)
      | some .finish => some (s, .finish)
      | some sig =>
        match parse E sig p.2 with
        | .threw => some (s, .threw)
        | .ub => some (s, .ub)
        | .ok vs j =>
          match E.exec p.1 vs s with
          | (s', .threw) => some (s', .threw)
          | (s', .failed) =>
            if p.1 = "ITERATE".toList then some (s', .iterateFailed) else loop E f p.1 j s'
          | (s', .ok) => loop E f p.1 j s'

/-- `readCommands` on the text of a file. -/
def readCommands (E : Env K σ) (fuel : Nat) (words : List Word) (trailing : Bool) (s : σ) :
    Option (σ × End) :=
  loop E fuel [] ⟨words, trailing, false, false⟩ s

end Verif.Script
