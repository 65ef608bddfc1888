import Mathlib.Logic.Function.Basic
import Mathlib.Algebra.BigOperators.Group.List.Basic

/-!
# Interleaving semantics of GPU threads

Threads of one thread block between two `__syncthreads()` barriers (or of one grid, for kernels
without barriers) run concurrently and share a memory. An assignment such as
`sData[tId] += sData[tId+stride];` is a sequence of atomic loads followed by an atomic store; any
interleaving of the atomic accesses of different threads can occur. A schedule is the list of the
thread indices in the order in which they perform accesses.

Simplification: memory is sequentially consistent (the code declares `sData` volatile in the warp
functions), and a conditional store `if (a > b) b = a;` is an unconditional store of the selected
value.
-/

set_option autoImplicit false

namespace Verif.Cuda

variable {K : Type}

/-- One assignment `mem[dst] = f(mem[srcs[0]], mem[srcs[1]], ...)`. -/
structure Instr (K : Type) where
  dst : Nat
  srcs : List Nat
  f : List K → K

/-- A thread: values loaded so far for its current assignment, and what remains to be executed. -/
structure Thread (K : Type) where
  regs : List K
  prog : List (Instr K)

/-- Memory and threads (threads that do not exist have an empty program). -/
structure Gpu (K : Type) where
  mem : Nat → K
  th : Nat → Thread K

/-- One atomic access by thread `t`. -/
def Gpu.step (g : Gpu K) (t : Nat) : Gpu K :=
  match (g.th t).prog with
  | [] => g
  | ⟨dst, [], f⟩ :: rest =>
    ⟨Function.update g.mem dst (f (g.th t).regs), Function.update g.th t ⟨[], rest⟩⟩
  | ⟨dst, s :: ss, f⟩ :: rest =>
    ⟨g.mem, Function.update g.th t ⟨(g.th t).regs ++ [g.mem s], ⟨dst, ss, f⟩ :: rest⟩⟩

/-- Execution under a schedule. -/
def Gpu.run (g : Gpu K) (sch : List Nat) : Gpu K := sch.foldl Gpu.step g

/-- State at the start of a phase. -/
def launch (mem : Nat → K) (progs : Nat → List (Instr K)) : Gpu K :=
  ⟨mem, fun t => ⟨[], progs t⟩⟩

/-- Memory after all threads ran under schedule `sch`. -/
def runAll (progs : Nat → List (Instr K)) (sch : List Nat) (mem : Nat → K) : Nat → K :=
  ((launch mem progs).run sch).mem

/-- Number of accesses of a program. -/
def cost (p : List (Instr K)) : Nat := (p.map fun i => i.srcs.length + 1).sum

/-- The schedule lets every thread finish. -/
def Fair (progs : Nat → List (Instr K)) (sch : List Nat) : Prop :=
  ∀ t, cost (progs t) ≤ sch.count t

/-- One thread alone. -/
def exec : List (Instr K) → (Nat → K) → Nat → K
  | [], m => m
  | i :: p, m => exec p (Function.update m i.dst (i.f (i.srcs.map m)))

/-- No thread writes a location that another thread reads or writes. -/
def RaceFree (progs : Nat → List (Instr K)) : Prop :=
  ∀ t u, t ≠ u → ∀ i ∈ progs t, ∀ j ∈ progs u, i.dst ≠ j.dst ∧ i.dst ∉ j.srcs

end Verif.Cuda
