import Verif.Basic

/-!
# Model of polymer block graphs, propagator plans, paths and iterators

Sources (under `/repo/src/pscf`): `chem/Edge.h`, `chem/Vertex.cpp`,
`chem/PolymerSpecies.cpp`, `chem/VertexIterator.cpp`, `chem/EdgeIterator.cpp`,
`solvers/PolymerTmpl.tpp`, `solvers/PropagatorTmpl.h`.

A polymer is the list of its blocks; block `b` is the pair
`(vertexId(0), vertexId(1))` as read from the parameter file.  The number of
vertices is always `nBlock + 1` (`PolymerSpecies.cpp:51-52`).  Block lengths and
monomer types play no role here.
-/

namespace Verif.Chem

/-- A propagator identifier (block id, direction id), `Pair<int>`;
`false` is direction 0 and `true` is direction 1. -/
abbrev Pid := Nat × Bool

/-- A block as the pair of its vertex ids, `chem/Edge.h`. -/
abbrev Edge := Int × Int

/-- `edge.vertexId(d)`, `chem/Edge.h`. -/
def vid (e : Edge) (d : Bool) : Int := if d then e.2 else e.1

/-- A `Vertex`, `chem/Vertex.h`. -/
structure Vertex where
  id : Int
  inP : List Pid
  outP : List Pid
deriving DecidableEq, Repr

/-- `Vertex::addEdge`, `chem/Vertex.cpp:38-75`. -/
def Vertex.addEdge (v : Vertex) (eid : Nat) (e : Edge) : Res Vertex :=
  if v.id < 0 then .throw
  else if e.1 < 0 then .throw
  else if e.2 < 0 then .throw
  else if e.1 = e.2 then .throw
  else if e.1 = v.id then
    .ok { v with outP := v.outP ++ [(eid, false)], inP := v.inP ++ [(eid, true)] }
  else if e.2 = v.id then
    .ok { v with outP := v.outP ++ [(eid, true)], inP := v.inP ++ [(eid, false)] }
  else .throw

/-- `vertices_[i].addEdge(edge)`, `chem/PolymerSpecies.cpp:93-94`: the index is
not checked, so an out-of-range id is undefined behaviour. -/
def addAt (vs : List Vertex) (i : Int) (eid : Nat) (e : Edge) : Res (List Vertex) :=
  if 0 ≤ i then
    match vs[i.toNat]? with
    | none => .ub
    | some v => do
      let v' ← v.addEdge eid e
      pure (vs.set i.toNat v')
  else .ub

/-- The loop adding edges to vertices, `chem/PolymerSpecies.cpp:86-95`. -/
def addEdges : (vs : List Vertex) → (eid : Nat) → List Edge → Res (List Vertex)
  | vs, _, [] => .ok vs
  | vs, k, e :: es => do
    let vs1 ← addAt vs e.1 k e
    let vs2 ← addAt vs1 e.2 k e
    addEdges vs2 (k + 1) es

/-- Vertices before edges are added, `chem/PolymerSpecies.cpp:56, 66-68`. -/
def initVertices (nBlock : Nat) : List Vertex :=
  (List.range (nBlock + 1)).map (fun i : Nat => ⟨(i : Int), [], []⟩)

/-- Vertex table of a polymer, `chem/PolymerSpecies.cpp:52-95`. -/
def makeVertices (es : List Edge) : Res (List Vertex) := addEdges (initVertices es.length) 0 es

/-- Block list of a linear polymer, `chem/PolymerSpecies.cpp:71-76`. -/
def linearEdges (nBlock : Nat) : List Edge :=
  (List.range nBlock).map (fun i : Nat => ((i : Int), (i : Int) + 1))

/-- `edge(b)`; only used for `b < nBlock`. -/
def edge (es : List Edge) (b : Nat) : Edge := es.getD b (0, 0)

/-- `vertex(i).inPropagatorId(*)`; reached only for ids accepted by `addEdges`. -/
def inIds (vs : List Vertex) (i : Int) : List Pid :=
  match vs[i.toNat]? with
  | some v => v.inP
  | none => []

/-- `vertex(i).outPropagatorId(*)`. -/
def outIds (vs : List Vertex) (i : Int) : List Pid :=
  match vs[i.toNat]? with
  | some v => v.outP
  | none => []

/-! ## `makePlan` -/

/-- State of `makePlan`: the matrix `isFinished` and `propagatorIds_`. -/
structure PlanState where
  fin : Pid → Bool
  plan : List Pid

/-- Readiness test, `chem/PolymerSpecies.cpp:137-148`. -/
def ready (es : List Edge) (vs : List Vertex) (fin : Pid → Bool) (p : Pid) : Bool :=
  (inIds vs (vid (edge es p.1) p.2)).all (fun q => if q.1 ≠ p.1 then fin q else true)

/-- Body of the double loop, `chem/PolymerSpecies.cpp:136-155`. -/
def planStep (es : List Edge) (vs : List Vertex) (st : PlanState) (p : Pid) : PlanState :=
  if st.fin p = false then
    if ready es vs st.fin p then
      { fin := fun q => if q = p then true else st.fin q, plan := st.plan ++ [p] }
    else st
  else st

/-- Order of the double loop over blocks and directions,
`chem/PolymerSpecies.cpp:134-135`. -/
def allPids (nBlock : Nat) : List Pid :=
  (List.range nBlock).flatMap (fun b => [(b, false), (b, true)])

/-- One pass of the double loop. -/
def sweep (es : List Edge) (vs : List Vertex) (st : PlanState) : PlanState :=
  (allPids es.length).foldl (planStep es vs) st

/-- `while (nPropagator_ < nBlock_*2)`, `chem/PolymerSpecies.cpp:132-158`.
`none` means that the loop has not ended after `fuel` passes. -/
def planLoop (es : List Edge) (vs : List Vertex) : (fuel : Nat) → PlanState → Option PlanState
  | fuel, st =>
    if st.plan.length < es.length * 2 then
      match fuel with
      | 0 => none
      | f + 1 => planLoop es vs f (sweep es vs st)
    else some st

/-- `makePlan`, `chem/PolymerSpecies.cpp:114-160`, on a fresh object
(`nPropagator_ == 0`). -/
def makePlan (es : List Edge) (vs : List Vertex) (fuel : Nat) : Option (List Pid) :=
  (planLoop es vs fuel ⟨fun _ => false, []⟩).map (·.plan)

/-! ## `PolymerTmpl::solve` -/

/-- Sources of propagator `p`, `solvers/PolymerTmpl.tpp:87-97`: propagators
entering the head vertex from another block. -/
def sources (es : List Edge) (vs : List Vertex) (p : Pid) : List Pid :=
  (inIds vs (vid (edge es p.1) p.2)).filter (fun q => q.1 ≠ p.1)

/-- Flags and trace of the propagators solved so far. -/
structure SolveState where
  solved : Pid → Bool
  trace : List Pid

/-- Second loop of `PolymerTmpl::solve`, `solvers/PolymerTmpl.tpp:162-165`. The
call of `solve()` is recorded in the trace and sets the `isSolved` flag. -/
def solveLoop (es : List Edge) (vs : List Vertex) : List Pid → SolveState → Res SolveState
  | [], st => .ok st
  | p :: ps, st => do
    Res.check ((sources es vs p).all st.solved)
    solveLoop es vs ps
      { solved := fun q => if q = p then true else st.solved q, trace := st.trace ++ [p] }

/-- First loop: `propagator(j).setIsSolved(false)` for all `j` of the plan,
`solvers/PolymerTmpl.tpp:155-158`. -/
def clearSolved (plan : List Pid) (solved : Pid → Bool) : Pid → Bool :=
  fun q => if q ∈ plan then false else solved q

/-- `PolymerTmpl::solve`, `solvers/PolymerTmpl.tpp:151-166` (the computation of Q
is not modelled here). -/
def solvePolymer (es : List Edge) (vs : List Vertex) (plan : List Pid) (flags : Pid → Bool) :
    Res SolveState :=
  solveLoop es vs plan ⟨clearSolved plan flags, []⟩

/-! ## `makePaths` -/

/-- Entry `path` of `makePaths`: target vertex, block id or -1, direction id or -1. -/
structure Entry where
  target : Nat
  block : Int
  dir : Int
deriving DecidableEq, Repr

/-- Direction id as an integer. -/
def dirInt (d : Bool) : Int := if d then 1 else 0

/-- What sender `is` appends to `recvPaths[ir]`, `chem/PolymerSpecies.cpp:218-246`:
for each outgoing propagator leading to `ir`, every entry not just received along
the same block, with block and incoming direction replaced. -/
def sentTo (es : List Edge) (vs : List Vertex) (send : Nat → List Entry) (ir is : Nat) :
    List Entry :=
  (outIds vs is).flatMap (fun p =>
    if vid (edge es p.1) (!p.2) = (ir : Int) then
      ((send is).filter (fun x => (p.1 : Int) ≠ x.block)).map
        (fun x => { x with block := (p.1 : Int), dir := dirInt (!p.2) })
    else [])

/-- The `UTIL_CHECK`s that an outgoing propagator starts at the sender,
`chem/PolymerSpecies.cpp:228-234` (evaluated only for senders with entries). -/
def sendChecks (es : List Edge) (vs : List Vertex) (send : Nat → List Entry) : Bool :=
  (List.range (es.length + 1)).all (fun is =>
    (send is).isEmpty || (outIds vs is).all (fun p => vid (edge es p.1) p.2 = (is : Int)))

/-- `recvPaths` after the sending loop.  The append loops are collected per receiver. -/
def received (es : List Edge) (vs : List Vertex) (send : Nat → List Entry) (ir : Nat) :
    List Entry :=
  (List.range (es.length + 1)).flatMap (sentTo es vs send ir)

/-- The `while (!done)` loop of `makePaths`, `chem/PolymerSpecies.cpp:200-274`.
`iter` counts passes; the loop check `iter < nBlock_ + 2` bounds it, so the
recursion is on `k = nBlock + 2 - iter`. A pass with nothing to send sets `done`. -/
def pathLoop (es : List Edge) (vs : List Vertex) : (k : Nat) → (send old : Nat → List Entry) →
    Res (Nat → List Entry)
  | 0, _, _ => .throw
  | k + 1, send, old =>
    if sendChecks es vs send then
      if (List.range (es.length + 1)).all (fun is => (send is).isEmpty) then .ok old
      else
        pathLoop es vs k (received es vs send) (fun v => old v ++ send v)
    else .throw

/-- Assignment of one row of `paths_`, `chem/PolymerSpecies.cpp:289-318`. -/
def assignRow (nBlock : Nat) (is : Nat) : List Entry → List (Int × Int) → Res (List (Int × Int))
  | [], row => .ok row
  | x :: xs, row =>
    match row[x.target]? with
    | none => .throw
    | some old =>
      if old.1 = -1 ∧ old.2 = -1 then
        if (if x.target = is then x.block = -1 ∧ x.dir = -1
            else 0 ≤ x.block ∧ x.block < nBlock ∧ 0 ≤ x.dir ∧ x.dir < 2) then
          assignRow nBlock is xs (row.set x.target (x.block, x.dir))
        else .throw
      else .throw

/-- Rows `is, is+1, …` of `paths_`, `chem/PolymerSpecies.cpp:276-320`. -/
def assignRows (nBlock : Nat) (old : Nat → List Entry) : List Nat → Res (List (List (Int × Int)))
  | [] => .ok []
  | is :: iss => do
    Res.check ((old is).length = nBlock + 1)
    let row ← assignRow nBlock is (old is) (List.replicate (nBlock + 1) (-1, -1))
    let rows ← assignRows nBlock old iss
    pure (row :: rows)

/-- `makePaths`, `chem/PolymerSpecies.cpp:165-325`. -/
def makePaths (es : List Edge) (vs : List Vertex) : Res (List (List (Int × Int))) := do
  let old ← pathLoop es vs (es.length + 2) (fun is => [⟨is, -1, -1⟩]) (fun _ => [])
  assignRows es.length old (List.range (es.length + 1))

/-- `path(is, ir)`, `chem/PolymerSpecies.h`. -/
def path (paths : List (List (Int × Int))) (is ir : Int) : Int × Int :=
  (paths.getD is.toNat []).getD ir.toNat (-1, -1)

/-! ## `isValid` and the whole of `readParameters` -/

/-- `PolymerSpecies::isValid`, `chem/PolymerSpecies.cpp:330-398`. -/
def isValid (es : List Edge) (vs : List Vertex) (paths : List (List (Int × Int))) : Bool :=
  es.all (fun e => e.1 ≠ e.2 ∧ 0 ≤ e.1 ∧ e.1 < es.length + 1 ∧ 0 ≤ e.2 ∧ e.2 < es.length + 1) &&
  (List.range (es.length + 1)).all (fun iv =>
    (outIds vs iv).all (fun p => p.1 < es.length ∧ vid (edge es p.1) p.2 = (iv : Int))) &&
  (List.range (es.length + 1)).all (fun iv =>
    (inIds vs iv).all (fun p => p.1 < es.length ∧ vid (edge es p.1) (!p.2) = (iv : Int))) &&
  (List.range (es.length + 1)).all (fun iv0 => (List.range (es.length + 1)).all (fun iv1 =>
    if iv0 = iv1 then path paths iv0 iv1 = (-1, -1)
    else vid (edge es (path paths iv0 iv1).1.toNat) ((path paths iv0 iv1).2 = 1) = (iv0 : Int)))

/-- The topology of a polymer after reading. -/
structure Polymer where
  edges : List Edge
  vertices : List Vertex
  plan : List Pid
  paths : List (List (Int × Int))

/-- Topological part of `PolymerSpecies::readParameters`,
`chem/PolymerSpecies.cpp:86-107`, applied to the block list. `none`: the plan loop
has not ended after `fuel` passes. -/
def readTopology (es : List Edge) (fuel : Nat) : Option (Res Polymer) :=
  match makeVertices es with
  | .throw => some .throw
  | .ub => some .ub
  | .ok vs =>
    match makePlan es vs fuel with
    | none => none
    | some plan => some (do
      let paths ← makePaths es vs
      Res.check (isValid es vs paths)
      pure ⟨es, vs, plan, paths⟩)

/-! ## `VertexIterator` -/

/-- `VertexIterator` state: `currentId_`, `targetId_` (`chem/VertexIterator.h`). -/
structure VIter where
  cur : Int
  target : Int
deriving DecidableEq, Repr

/-- `VertexIterator::begin`, `chem/VertexIterator.cpp:32-36`. -/
def VIter.begin (s t : Int) : VIter := ⟨s, t⟩

/-- `operator++`, `chem/VertexIterator.cpp:41-58`. -/
def VIter.next (P : Polymer) (it : VIter) : Res VIter :=
  if it.cur ≠ it.target then
    let p := path P.paths it.cur it.target
    if 0 ≤ p.1 ∧ p.1 < P.edges.length ∧ 0 ≤ p.2 ∧ p.2 < 2 then
      .ok { it with cur := if p.2 = 0 then vid (edge P.edges p.1.toNat) true
                           else vid (edge P.edges p.1.toNat) false }
    else .throw
  else .throw

/-- Vertices seen by `for (it.begin(s,t); it.notEnd(); ++it)` followed by the
final position; `none` if the loop has not ended after `fuel` increments. -/
def VIter.run (P : Polymer) : Nat → VIter → Option (Res (List Int))
  | fuel, it =>
    if it.cur = it.target then some (.ok [it.cur])
    else match fuel with
      | 0 => none
      | f + 1 => match it.next P with
        | .ok it' => (VIter.run P f it').map (fun r => r.map (it.cur :: ·))
        | .throw => some .throw
        | .ub => some .ub

/-! ## `EdgeIterator` -/

/-- `EdgeIterator` state (`chem/EdgeIterator.h`). -/
structure EIter where
  curEdge : Nat
  curDir : Bool
  curVertex : Int
  targetEdge : Nat
  targetVertex : Int
deriving DecidableEq, Repr

/-- `EdgeIterator::begin`, `chem/EdgeIterator.cpp:33-92`. -/
def EIter.begin (P : Polymer) (s t : Nat) : Res EIter :=
  if s = t then .throw
  else
    let s0 := vid (edge P.edges s) false
    let s1 := vid (edge P.edges s) true
    let t0 := vid (edge P.edges t) false
    let t1 := vid (edge P.edges t) true
    let pth := fun a b => (path P.paths a b).1
    let first : Res (Int × Bool) :=
      if pth s0 t0 = s then
        if pth s0 t1 = s ∧ pth s1 t0 ≠ s ∧ pth s1 t1 ≠ s then .ok (s1, false) else .throw
      else if pth s1 t0 = s then
        if pth s1 t1 = s ∧ pth s0 t0 ≠ s ∧ pth s0 t1 ≠ s then .ok (s0, true) else .throw
      else .throw
    let second : Res Int :=
      if pth t0 s0 = t then
        if pth t0 s1 = t ∧ pth t1 s0 ≠ t ∧ pth t1 s1 ≠ t then .ok t0 else .throw
      else if pth t1 s0 = t then
        if pth t1 s1 = t ∧ pth t0 s0 ≠ t ∧ pth t0 s1 ≠ t then .ok t1 else .throw
      else .throw
    do
      let a ← first
      let b ← second
      pure ⟨s, a.2, a.1, t, b⟩

/-- `EdgeIterator::operator++`, `chem/EdgeIterator.cpp:97-117`. -/
def EIter.next (P : Polymer) (it : EIter) : Res EIter :=
  if it.curVertex ≠ it.targetVertex then
    let p := path P.paths it.curVertex it.targetVertex
    if 0 ≤ p.1 ∧ p.1 < P.edges.length ∧ 0 ≤ p.2 ∧ p.2 < 2 then
      if vid (edge P.edges p.1.toNat) (p.2 = 1) = it.curVertex then
        .ok { it with curEdge := p.1.toNat, curDir := p.2 = 1,
                      curVertex := if p.2 = 0 then vid (edge P.edges p.1.toNat) true
                                   else vid (edge P.edges p.1.toNat) false }
      else .throw
    else .throw
  else .throw

/-- Blocks (with directions) seen by `for (it.begin(s,t); it.notEnd(); ++it)`
followed by the final one. -/
def EIter.run (P : Polymer) : Nat → EIter → Option (Res (List Pid))
  | fuel, it =>
    if it.curVertex = it.targetVertex then some (.ok [(it.curEdge, it.curDir)])
    else match fuel with
      | 0 => none
      | f + 1 => match it.next P with
        | .ok it' => (EIter.run P f it').map (fun r => r.map ((it.curEdge, it.curDir) :: ·))
        | .throw => some .throw
        | .ub => some .ub

end Verif.Chem
