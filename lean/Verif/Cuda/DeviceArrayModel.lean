import Verif.Basic
import Verif.Tac

/-!
# Model of `DeviceArray<Data>`: ownership of device memory and slices

Source: `/repo/src/pscf/cuda/DeviceArray.h`, `HostDArray.h`.  Simplified: one element type, so that addresses count
elements and address 0 is `nullptr`; the addresses returned by `cudaMalloc` are inputs of the
operations and are constrained only by the contract of `cudaMalloc` (`Fresh`).  Error codes of CUDA
functions (`cudaErrorCheck`) are not modelled, `int` is unbounded.
-/

set_option autoImplicit false

namespace Verif.DevArr

/-- Members of `DeviceArray`, `DeviceArray.h:175-203`.  `ownerPtr_` is the name of an object.
`stamp` is not in the program: the time of the last call to `associate`. -/
structure Obj where
  data : Nat
  cap : Int
  owner : Option Nat
  ownerCap : Int
  ownerData : Nat
  stamp : Nat
deriving DecidableEq

/-- Objects that exist, memory allocated on the device (address, size), contents of memory. -/
structure St (V : Type) where
  objs : Nat → Option Obj
  blocks : List (Nat × Nat)
  mem : Nat → Option V
  clock : Nat

variable {V : Type}

/-- Default constructor, `DeviceArray.h:209-216`. -/
def Obj.default : Obj := ⟨0, 0, none, 0, 0, 0⟩

/-- The checks that the owner has been neither deallocated nor reallocated, `DeviceArray.h:414-419,
430-435, 446-451`: `ownerPtr_->isAllocated()`, `ownerPtr_->capacity()` and `ownerPtr_->cArray()`.
The first and the third repeat the checks for the owner.  A reference to an object that does not
exist is undefined; `fuel` bounds the depth of the recursion. -/
def Obj.guard (s : St V) : Nat → Obj → Res Unit
  | 0, o => if o.owner.isSome then .ub else .ok ()
  | fuel + 1, o =>
    match o.owner with
    | none => .ok ()
    | some p =>
      match s.objs p with
      | none => .ub
      | some q => do
        Obj.guard s fuel q
        Res.check (decide (q.data ≠ 0))
        Res.check (decide (q.cap = o.ownerCap))
        Obj.guard s fuel q
        Res.check (decide (q.data = o.ownerData))

/-- `isAllocated`, `DeviceArray.h:443-454`. -/
def isAllocated (s : St V) (o : Obj) : Res Bool := do
  o.guard s s.clock
  pure (decide (o.data ≠ 0))

/-- `cArray`, `DeviceArray.h:411-438`. -/
def cArray (s : St V) (o : Obj) : Res Nat := do
  o.guard s s.clock
  pure o.data

/-- `isOwner`, `DeviceArray.h:466-468`. -/
def Obj.isOwner (o : Obj) : Bool := decide (o.owner = none) && decide (o.data ≠ 0)

/-- A member function called on an object: undefined if the object does not exist. -/
def obj (s : St V) (i : Nat) : Res Obj :=
  match s.objs i with
  | none => .ub
  | some o => .ok o

def St.set (s : St V) (i : Nat) (o : Option Obj) : St V :=
  { s with objs := fun j => if j = i then o else s.objs j }

/-- `cudaFree`: undefined (an error) unless the address is that of an allocated block. -/
def free (s : St V) (a : Nat) : Res (St V) :=
  if a ∈ s.blocks.map Prod.fst then .ok { s with blocks := s.blocks.filter fun b => decide (b.1 ≠ a) } else .ub

/-- `cudaMalloc`: `a` is the address returned.  New memory is not initialised. -/
def malloc (s : St V) (a n : Nat) : St V :=
  { s with blocks := (a, n) :: s.blocks, mem := fun x => if a ≤ x ∧ x < a + n then none else s.mem x }

/-- Memory that a kernel or `cudaMemcpy` may access. -/
def Live (s : St V) (x : Nat) : Prop := ∃ b ∈ s.blocks, b.1 ≤ x ∧ x < b.1 + b.2

instance (s : St V) (x : Nat) : Decidable (Live s x) :=
  inferInstanceAs (Decidable (∃ b ∈ s.blocks, b.1 ≤ x ∧ x < b.1 + b.2))

/-- `allocate`, `DeviceArray.h:263-280`. -/
def allocate (s : St V) (i : Nat) (cap : Int) (a : Nat) : Res (St V) := do
  let o ← obj s i
  let b ← isAllocated s o
  Res.check (!b)
  Res.check (decide (o.owner = none))
  Res.check (decide (0 < cap))
  pure ((malloc s a cap.toNat).set i (some { o with data := a, cap := cap, owner := none }))

/-- `associate`, `DeviceArray.h:284-304`. -/
def associate (s : St V) (i j : Nat) (beginId cap : Int) : Res (St V) := do
  let o ← obj s i
  let q ← obj s j
  let b ← isAllocated s q
  Res.check b
  Res.check q.isOwner
  Res.check (decide (0 ≤ beginId))
  Res.check (decide (0 < cap))
  Res.check (decide (beginId + cap ≤ q.cap))
  let b' ← isAllocated s o
  Res.check (!b')
  let p ← cArray s q
  pure { s.set i (some ⟨p + beginId.toNat, cap, some j, q.cap, p, s.clock⟩) with clock := s.clock + 1 }

/-- `deallocate`, `DeviceArray.h:310-321`. -/
def deallocate (s : St V) (i : Nat) : Res (St V) := do
  let o ← obj s i
  let b ← isAllocated s o
  Res.check b
  Res.check o.isOwner
  let s' ← free s o.data
  pure (s'.set i (some { o with data := 0, cap := 0 }))

/-- `dissociate`, `DeviceArray.h:329-343`. -/
def dissociate (s : St V) (i : Nat) : Res (St V) := do
  let o ← obj s i
  Res.check (!o.isOwner)
  let b ← isAllocated s o
  Res.check b
  pure (s.set i (some ⟨0, 0, none, 0, 0, o.stamp⟩))

/-- Device to device `cudaMemcpy` of `n` elements; overlapping regions (other than equal ones) and
memory that is not allocated are undefined. -/
def memcpy (s : St V) (dst src n : Nat) : Res (St V) :=
  if (∀ x < n, Live s (dst + x) ∧ Live s (src + x)) ∧ (dst = src ∨ dst + n ≤ src ∨ src + n ≤ dst) then
    .ok { s with mem := fun x => if dst ≤ x ∧ x < dst + n then s.mem (src + (x - dst)) else s.mem x }
  else .ub

/-- `if (!isAllocated()) allocate(...)`, `DeviceArray.h:361-363, 391-393`. -/
def allocateUnless (s : St V) (b : Bool) (i : Nat) (cap : Int) (a : Nat) : Res (St V) :=
  if b then .ok s else allocate s i cap a

/-- `if (...) cudaFree(dataPtr_)`, `DeviceArray.h:253-257`. -/
def freeIf (s : St V) (b : Bool) (a : Nat) : Res (St V) := if b then free s a else .ok s

/-- Assignment from another `DeviceArray`, `DeviceArray.h:348-376`; `a` is used if memory is
allocated. -/
def assign (s : St V) (i j : Nat) (a : Nat) : Res (St V) :=
  if i = j then (obj s i).map fun _ => s
  else do
    let q ← obj s j
    let b ← isAllocated s q
    Res.check b
    let o ← obj s i
    let b' ← isAllocated s o
    let s' ← allocateUnless s b' i q.cap a
    let o' ← obj s' i
    Res.check (decide (o'.cap = q.cap))
    let p ← cArray s' q
    memcpy s' o'.data p o'.cap.toNat

/-- Assignment from a `HostDArray`, `DeviceArray.h:381-406`.  The host array is the list of its elements,
`[]` if it is not allocated. -/
def assignHost (s : St V) (i : Nat) (h : List V) (a : Nat) : Res (St V) := do
  Res.check (decide (h ≠ []))
  let o ← obj s i
  let b ← isAllocated s o
  let s' ← allocateUnless s b i h.length a
  let o' ← obj s' i
  Res.check (decide (o'.cap = h.length))
  if ∀ x < o'.cap.toNat, Live s' (o'.data + x) then
    .ok { s' with mem := fun x => if o'.data ≤ x ∧ x < o'.data + o'.cap.toNat then h[x - o'.data]? else s'.mem x }
  else .ub

/-- Assignment of a `HostDArray` from a `DeviceArray`, `HostDArray.h:154-178`: the new elements of the host
array.  `n` is the capacity of the host array, 0 if it is not allocated. -/
def toHost (s : St V) (n : Nat) (j : Nat) : Res (List (Option V)) := do
  let q ← obj s j
  let b ← isAllocated s q
  Res.check b
  let m : Int := if n = 0 then q.cap else n
  Res.check (decide (m = q.cap))
  let p ← cArray s q
  if ∀ x < m.toNat, Live s (p + x) then .ok ((List.range m.toNat).map fun x : Nat => s.mem (p + x)) else .ub

/-- `HostDArray::copySlice`, `HostDArray.h:184-207`. -/
def copySlice (s : St V) (n : Nat) (j : Nat) (beginId : Int) : Res (List (Option V)) := do
  let q ← obj s j
  let b ← isAllocated s q
  Res.check b
  Res.check (decide (n ≠ 0))
  Res.check (decide ((n : Int) + beginId ≤ q.cap))
  let p ← cArray s q
  if 0 ≤ (p : Int) + beginId ∧ ∀ x < n, Live s (((p : Int) + beginId).toNat + x) then
    .ok ((List.range n).map fun x : Nat => s.mem (((p : Int) + beginId).toNat + x))
  else .ub

/-- Default construction of a new object. -/
def construct (s : St V) (i : Nat) : Res (St V) := .ok (s.set i (some Obj.default))

/-- Copy constructor, `DeviceArray.h:235-246`: it has no member initialisers, so that `allocate` tests
members that have not been initialised, which is undefined. -/
def copyConstruct (s : St V) (j : Nat) : Res (St V) := do
  let q ← obj s j
  let b ← isAllocated s q
  Res.check b
  .ub

/-- Destructor, `DeviceArray.h:251-258`.  An exception that leaves a destructor ends the program
(`std::terminate`); it appears as `throw`. -/
def destroy (s : St V) (i : Nat) : Res (St V) := do
  let o ← obj s i
  let b ← isAllocated s o
  let s' ← freeIf s (b && o.isOwner) o.data
  pure (s'.set i none)

/-- A kernel that writes one element through `cArray()`. -/
def write (s : St V) (i : Nat) (k : Nat) (v : V) : Res (St V) := do
  let o ← obj s i
  let p ← cArray s o
  Res.check (decide ((k : Int) < o.cap))
  if Live s (p + k) then .ok { s with mem := fun x => if x = p + k then some v else s.mem x } else .ub

/-- Contents of an array as a copy to the host would find them. -/
def read (s : St V) (i : Nat) (k : Nat) : Res (Option V) := do
  let o ← obj s i
  let p ← cArray s o
  Res.check (decide ((k : Int) < o.cap))
  if Live s (p + k) then .ok (s.mem (p + k)) else .ub

/-- Operations of a program. -/
inductive Op (V : Type)
  | construct (i : Nat)
  | copyConstruct (i j : Nat)
  | allocate (i : Nat) (cap : Int) (a : Nat)
  | associate (i j : Nat) (beginId cap : Int)
  | deallocate (i : Nat)
  | dissociate (i : Nat)
  | assign (i j a : Nat)
  | assignHost (i : Nat) (h : List V) (a : Nat)
  | write (i k : Nat) (v : V)
  | destroy (i : Nat)

def run (s : St V) : Op V → Res (St V)
  | .construct i => construct s i
  | .copyConstruct _ j => copyConstruct s j
  | .allocate i cap a => allocate s i cap a
  | .associate i j b c => associate s i j b c
  | .deallocate i => deallocate s i
  | .dissociate i => dissociate s i
  | .assign i j a => assign s i j a
  | .assignHost i h a => assignHost s i h a
  | .write i k v => write s i k v
  | .destroy i => destroy s i

/-- The state before anything happened. -/
def St.init : St V := ⟨fun _ => none, [], fun _ => none, 0⟩

end Verif.DevArr
