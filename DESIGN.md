# Formal model of pscfpp in Lean 4

Source modelled: `/repo` (dmorse/pscfpp, pinned commit), read as text.
Everything lives in `/verif/lean/Verif/`; `lake build` in `/verif/lean` checks it.

## 1. Layout and conventions

* `Verif/<Area>/Model*.lean` — definitions that transcribe C++ functions. Each
  definition cites the file and lines it models and says where it simplifies.
* `Verif/<Area>/Lemmas*.lean` — helper lemmas.
* `Verif/<Area>/Props*.lean` — small independent specifications, the property
  theorems, and a concrete `example` next to each theorem showing that its
  hypotheses can be met in a non-trivial case.
* Errors: `UTIL_CHECK`/`UTIL_THROW` always throw, so they are a distinct
  `Except`/`Option` outcome. Out-of-bounds access and other undefined
  behaviour is a separate outcome (`ub`), never a default value.
  Possibly non-terminating loops are modelled as an iterated step relation (or
  with fuel, with a theorem about every fuel value).
* Shared files: `Basic` (outcome monad `Res`: ok / throw / ub), `Loop` (the
  accumulation loop and its value as a sum), `Cx` (complex numbers over any
  field), `Tac` (tactic imports), `Audit` (generated; prints the axioms of every
  theorem named in the manifest).
* Numbers: C++ `int` is modelled by `Int`/`Nat` (no overflow). `double` is
  modelled by an exact field (`ℝ`, `ℚ`, or any (ordered) field `K`): rounding is
  out of scope; NaN is modelled only where the property is about it.

Areas and the code they model:

| area | code |
|------|------|
| `Mesh` | `pscf/mesh/*`, comparison of `pscf/math/IntVec.h` |
| `FieldIo` | grid data and replication in `prdc/field/fieldIoUtil.tpp` |
| `Text` | text forms of enumerations, unit cells, ramp and sweep parameters; field headers; `-d` option |
| `Chem` | `pscf/chem/*` (graph, plan, paths, iterators, species, polymer model, Debye functions) |
| `Inter`, `FloryHuggins` | `pscf/inter/Interaction.cpp`, `pscf/iterator/AmbdInteraction.cpp`, `pscf/floryHuggins/*` |
| `Math` | tridiagonal solver, reductions, field comparison (real and complex fields, CPU and GPU) |
| `AM` | `pscf/iterator/AmIteratorTmpl.tpp` and the basis/grid residuals |
| `Sweep` | `pscf/sweep/SweepTmpl.tpp`, `r1d/sweep` (`Run*`: a sweep as a whole), `rpc/scft/sweep/{Sweep,SweepParameter,LinearSweep}.tpp`, `rpc/fts/ramp/{RampParameter,LinearRamp}.tpp` |
| `Crystal` | symmetries, groups, unit cells, minimum images, wave lists |
| `Basis` | stars, index tables, conversions, basis files, also between different bases (`Exchange*`), symmetry test; construction of stars (`Star*`); `makeBasis` as a whole (`Make*`: waves sorted by norm, lists of equal norm, stars, phases, tables, `isValid`) |
| `Field` | w, c and mask containers; basis conversion of monomer fields (`Convert`); ownership of memory by `RField`, `CField` and `RFieldDft` (`Host`; `serialize` not modelled) |
| `Solver` | block propagators, contour integration, polymer/solvent/mixture solution; FFTW as its documented sums (`Dft`) ; field shifts and homogeneous fields (`Shift`, `Homog`); stress of bead and thread polymers (`Stress`); `MixturePrdc::compute`, `computeStress` and the inputs of the thermodynamics (`Mixture`) |
| `System` | caches and flags of `SystemTmpl`, `ScftThermoTmpl`, environments |
| `Thermo` | the formulas of `ScftThermoTmpl::compute` |
| `Fts` | simulator state machine, moves, steppers, eigenvector transform, Hamiltonian, perturbation, compressors, detailed balance; the Monte-Carlo loop as a random process (measures); `Bd*`: Leimkuhler-Matthews and predictor-corrector steps for every history, and the moves, steps, Hamiltonian and forces of the GPU code |
| `Film` | masks, wall fields, lattice checks, mix-and-match environments |
| `Script` | `readCommands` of the SCFT and simulation systems |
| `R1d` | one-dimensional code: domain, Crank-Nicolson blocks, propagators, polymers, solvents; `Iter`: Newton-Raphson, relaxation and Anderson-mixing iterators (`Mixture::compute` any map from fields to concentrations, linear solver any function); `Thermo`: free energy, comparison with a homogeneous phase, command loop (fields and solver abstract in the loop); `Files`: field files, change of mesh, extension, vertex output |
| `Scft` | `rpc/scft/iterator/AmIteratorGrid.tpp`, `AmIteratorBasis.tpp` and the classes of the same name in `rpg/scft/iterator`: `nElements`, `getCurrent`, `getResidual`, `update`, and `computeError` of `pscf/iterator/AmIteratorTmpl.tpp`; the maximum number of iterations and the mixing algorithm are those of `AM`; the map from fields to concentrations is arbitrary, or that of `Solver/Mixture` |
| `Ana` | `rpc/fts/analyzer`: `AverageAnalyzer`, `AverageListAnalyzer` and data files, `TrajectoryWriter`, where classes of `rpc/fts` and `rpg/fts` allocate, the loop of `SIMULATE`/`ANALYZE` over them; trajectory files (`TrajectoryWriter`, `RGridTrajectoryReader`, `analyze`) by line and item; `FourthOrderParameter`, `MaxOrderParameter`; `ChiDerivative`, `ConcentrationDerivative`; `BinaryStructureFactorGrid` |
| `Rpg` | `rpg/solvers/Block.tpp`, `Propagator.tpp`, `Polymer.tpp` (`compute`, `computeStress`), `Solvent.tpp`, the scaling and checks of `prdc/cuda/FFT.tpp` and `FFTBatched.tpp`, as operations on device memory; cuFFT itself is replaced by the sums of its manual, which destroy the input of a complex to real transform |
| `Cuda` | interleaving semantics of GPU threads (`Gpu`); `prdc/cuda/Reduce.cu`, `VecOp.cu`, `VecOpMisc.cu` (the operations listed in `VecOp.lean`); `pscf/cuda/ThreadArray.cu`, `ThreadMesh.cu`, `DeviceArray.h`, `HostDArray.h`; `prdc/cuda/WaveList.tpp` (`minImages_h` apart from its flag; the transfer of arrays to the device is exact) |

## 2. Trusted base

* Lean 4.33.0 kernel; axioms used by any theorem: at most `propext`,
  `Classical.choice`, `Quot.sound` (checked with `#print axioms`, see
  `Verif/Audit.lean`). No `sorry`, no added axioms, no `native_decide`.
* The hand transcription from C++ to Lean. The `util` submodule is not present
  in `/repo`, so `DArray`, `FSArray`, `GArray`, `RingBuffer`, `Rational`,
  `Signal`, archives and text formatting are modelled by their documented
  contracts: bounded arrays, a ring buffer that forgets its oldest element,
  exact rationals, synchronous notification of all observers, and text
  formatting that reads back what was written.
* FFTW (a linear, unitary-up-to-scale transform with its inverse), GSL linear
  algebra (returns the exact inverse/solution or eigen-decomposition),
  `exp`/`log`/`sin`/`cos`/`tanh` (real functions) are assumptions.
* GPU threads: sequentially consistent memory, barriers order all accesses of a
  block, kernels run one after the other; the CUDA runtime reports no errors.
* Not modelled: CUDA code outside `Cuda`, `Rpg` and `Scft` (`rpg` simulators and input/output; cuFFT), timers and log
  output, MPI, file-system effects, floating-point rounding, integer overflow.

Citations: a script checked that every file cited in a comment of a definition exists and has the cited lines (905 citations). 377 of them start with the name of a function: of these 335 contain its definition and 7 are its body; the script found no definition for the other 35 (members, local variables). A second script compared words of comment and cited lines; many, not all, of the ranges it listed for `Ana`, `Basis`, `Chem`, `Cuda`, `Field`, `Film`, `FloryHuggins`, `Fts`, `Inter`, `R1d`, `Solver`, `Sweep`, `System` and `Thermo` were compared with the source, and about 230 were corrected, mostly by a few lines. Not compared again: the ranges listed for `FieldIo`, `Mesh`, `Rpg`, `Scft`, `R1d/Files`, the iterators of `R1d`, the Anderson-mixing compressors of `Fts` and part of `Ana`. No definition changed. Those citations, and citations of parts of functions that neither script listed, can be off by a few lines.

## 3. Plan per property

| id | model | proof idea |
|----|-------|-----------|
| C01 | `Mesh` over `List Int` dims, offsets computed right to left, truncating division | induction on the dimension list, Euclidean division |
| C02 | `shift` with `Int.tdiv` | case split on sign, uniqueness of quotient |
| C03 | iterator as state machine (position list, rank), recursive carry | invariant position = position(rank); induction on steps |
| C04 | carry loop on first index, flag `atEnd` | reversed-dimension rank invariant, permutation of all ranks |
| C05, C06 | writer produces list of rows in iterator order, reader consumes it | iterators enumerate the mesh (C03, C04), pointwise update lemma |
| C07 | `>>`/`<<` on dims; archive as list of ints | round trip for text; negation with witness for archive; `_partial` for equal dims |
| C08 | comparison loops on lists of equal length | induction on length |
| C09, C10, C11 | blocks as edges with two vertex ids; vertex lists from `addEdge`; plan as repeated sweeps with fuel; cyclic case: no fuel suffices | progress measure: minimal unscheduled propagator in an acyclic graph; permutation invariant; negation for a cycle for every fuel |
| C12, C13 | message-passing rounds; iterators as state machines | invariant: entry set iff distance <= round, value = first step towards target |
| C14, C15 | state machines | induction over operation lists |
| C16–C18 | matrices over a field, `Matrix (Fin n) (Fin n) K` | linear algebra; negation for failed `setChi` |
| C19 | recurrences over functions/lists | induction on index |
| C20 | sweep loop as a step function consuming an outcome stream | invariant + termination bound |
| C21 | Lagrange products | Mathlib `Lagrange` uniqueness |
| C22 | flag loop | negation + `_partial` |
| C23–C25 | iteration loop over an abstract error/residual oracle; ring buffer lists | induction; negation for stale coefficients |
| C26 | sums over lists/Fin | `Finset.sum` algebra |
| C27, C28, C30, C31 | integer matrices, rational translations mod 1 | group-theoretic calculation; explicit 1/2/3-dimensional adjugates by `ring` |
| C29 | list of elements, add/find; closure loop with fuel | invariant Nodup + identity; if loop returns then closed; divergence witness |
| C32 | divisor computation | `_partial` for checked axes; negation for axis 0 |
| C33 | list of elements written/read | round trip |
| C34–C36 | bases as explicit real matrices with sin/cos | field_simp/ring, `HasDerivAt` |
| C37, C38 | explicit tables | case analysis |
| C39 | search over box with tolerance | fold invariant |
| C40, C41 | nested iterators | C03/C04 enumeration + congruence |
| C42–C45 | stars as data with invariant; conversions as folds | induction over stars |
| C46–C48 | state machines with explicit failure points | invariants over call lists; negations for lockout |
| C49–C51, C74 | ghost version numbers for every input and cached result | inductive invariant; negations with concrete command lists |
| C52–C55 | step operators as linear maps, self-adjointness, products over tree | summation by parts along contour; tree induction |
| C56–C58 | simulator state machine with outcome oracle | induction over outcomes; negation for stale cc |
| C59 | real identities, `HasDerivAt` | calculus |
| C60–C62 | pointwise linear algebra | ring/sum manipulation |
| C63–C65 | real functions, decision tables, state machine | case analysis; negations |
| C66, C67 | string tables/parsers | case analysis; negation for `vMonomer` |
| C68, C73 | folds over lists | induction |
| C69 | modular arithmetic on half mesh | case analysis |
| C70 | script interpreter | induction over scripts |
| C71, C72 | sums; Taylor bounds | algebra, analysis |
| C75 | pointer table of the sweep history | invariant over accepted steps |
| C76 | star construction as in `makeStars` | orbit/stabiliser argument, characters of translations |
| C77 | flags of a block | inductive invariant over call lists |
| C78 | DFT as finite sums over `ZMod` products | orthogonality of characters |
| C79, C82 | constant fields through the solver | induction over the plan, Flory-Huggins algebra |
| C80 | acceptance probabilities | ratio identities of `exp` |
| C81 | Hamiltonian and thermodynamics | derivative in field components |
| C83 | header token streams | parser/printer round trip, truncation |
| C84 | derivative of a tree of linear operators; sum over vertices minus sum over blocks | calculus, induction over the plan |
| C85 | same, with Parseval's identity on the half mesh | calculus, sums over the half mesh |
| C86 | tridiagonal matrices symmetric under the weights of the spatial average, tree of propagators | summation by parts, induction over the plan and the block graph |
| C87 | elimination recurrences of a diagonally dominant matrix | induction over rows, contour steps and the plan |
| C88 | exponentials in the Banach algebra of operators on the mesh, Taylor coefficients of the split step | Taylor expansion, error recurrence, induction over the plan, error of Simpson's rule |
| C89 | same; derivative of the exact partition function by Duhamel's formula, reusing the sum over blocks of C84 | calculus, convergence of C88 |
| C90 | same, with Parseval's identity on the half mesh; expansion in the chain length for the counterexample | calculus, convergence of C88 |
| C91 | closed form of the accumulation loops over species, C53 and C55 for each | induction over lists, sums |
| C92 | curves of fields, wavenumbers and parameters; derivative of each species from C84 and C85, thresholds of the code as hypotheses | calculus, sums |
| C93 | threads as lists of atomic loads and stores, schedules as lists of thread indices, kernels and host loop of `Reduce.cu` | race freedom implies independence of the schedule; invariant of the reduction tree; induction on passes |
| C94 | static variables as a record | invariant over histories |
| C95 | static variables as a record kept after exceptions, loops by well-founded recursion | exponents of two in each loop, invariant over histories |
| C96 | body of each kernel as assignments, grid-stride loop | independence of iterations implies race freedom, then one iteration at a time |
| C97 | device memory with named arrays (`Arrays`, `Layout`), every kernel under an arbitrary schedule | simulation relation between device and host state, one lemma per operation, induction over contour steps and over the plan of propagators |
| C98 | same | same; violations by running a bead block with a marked tail slice |
| C99 | storage of fields and flexible parameters as positions in a vector | every position is a field or a parameter position; the counter of flexible parameters is their rank |
| C100 | residual, update and error on top of the loop of `AM` | column sums of the inverse of chi applied to the residual give the error of the sum of concentrations; the rest is the pressure field; averages from the last update and C91 |
| C101 | half mesh as a set of waves, images of `shiftToMinimum` | invariant of the nested search over pairs; sum over the full mesh folded to the half mesh; delta field separates; ties of the 4 by 4 mesh decided with C39 |
| C102 | session as a state machine of all components | projection to one component; stability of repeatable states by induction over commands; converse by one witness session for each bad component |
| C103 | accumulators as a fold over sampled values | induction over samples with block counter; arithmetic progression of sampled steps |
| C104 | file as lines of items; writer and reader of frames | row-by-row replay through the C05/C06 layout; for a cut, case analysis of the place within a frame and induction over frames |
| C105 | reported values as functions of the Hamiltonian of C57/C78 | Hamiltonian as explicit function of chi and n, `HasDerivAt`; differentiation under the integral for any dominated family |
| C106 | one turn of the loop as an average over Gaussian and uniform measures | law of attempts by change of variables and product densities; detailed balance C80; Tonelli; induction over turns; geometric series over failed steps |
| C107 | the loops of `solve` with trials, reductions and reversal; NaN as `none` | invariant of the loop by induction; maximum norm of a fold; weighted average for the last point; Anderson mixing by reduction to C23 and C100 |
| C108 | sums of `computeFreeEnergy`, Crank-Nicolson recursion in uniform fields, `FH` model for the homogeneous phase, command loop as state machine | product formula by induction over the plan; bounds on `log((1-y)/(1+y))`; reduction to the Flory-Huggins theorems (C26, C82); invariant over command sequences |
| C109 | files as token lists; a failed stream keeps the old value | induction over rows; integer division for the interpolation; Q at vertices from C86 |
| C110 | parameters as a store, a sweep as any sequence of assignments and solutions | induction over the list and the sequence; non-aliasing of parameters |
| C111 | fields with the density of the Hamiltonian, molecules as a finite weighted set of configurations; maps as sorted lists | Gaussian integrals over all fields, completion of the square; induction over the map |
| C112 | index tables and conversions of `Basis`, FFTW as its sums, formulas of `Thermo` | sums over waves regrouped by stars, half mesh extended by conjugation, Parseval |
| C113 | whole mixture solution of `Solver`; group operations as permutations of grid points | equivariance of each step and induction over slices, plan and species; characters of the mesh to show that operations permute points and waves |
| C114 | A basis made of the stars of `makeStars` (hypothesis `FromStars`: each star is an outcome of the loop over the group, coefficients are phases times a constant) with exact coefficients (`Valid` with tolerance 0). Fields given by components are invariant: the amplitudes of waves related by an operation differ by its phase (C76), then reindex the Fourier sum. Invariant fields are exactly symmetric (C113 for the coefficients, C76 for cancelled stars), so C43 recovers them. Concentrations by C113. Residuals are linear in fields that are represented, and the average is component 0 because the first function is the constant (hypothesis `ConstFirst`). Norms by C112, convergence by C23 and C100. |
| C115 | `makeBasis` is the composition of the loops (`MakeModel`); each loop has a specification (`StarsOf`, `Phased`, `Arrays`), from which the hypotheses of C112 and C114 (`Valid` with tolerance 0, `Normalised`, `FromStars`, `Nondegenerate`, `ConstFirst`) follow. The map from components to fields is a linear bijection onto the invariant fields, hence the dimension. |
| C116 | Waves of equal norm form lists closed under the group and inversion (lengths of minimum images are class functions), so that each check of the loop over stars succeeds; phases need a root that the tolerances resolve; each test of `isValid` is shown to return true on the assembled arrays. Sort order: lists agree up to permutation and are then sorted by distinct keys. `CellOn` is derived for `shiftToMinimum` in `MakeCell`. |
| C117 | State machine `DevArr.St` (objects, blocks allocated on the device, contents) with one operation per member function; `Reach` quantifies over all legal histories and all addresses allowed by the contract of `cudaMalloc`. Invariant by induction; the recursion through `ownerPtr_` terminates because association times increase along a chain of owners |
| C118 | A block of the minimum-image kernel is a program of the interleaving semantics; each turn between barriers is race free, so every fair schedule gives the same memory, and the loop computes a tree of comparisons (induction on the number of turns). The tree returns a candidate that is minimal up to one tolerance per turn, and the best one for separated norms; hence equality with `shiftToMinimum` by antisymmetry, using C39. Call histories: simulation of the CPU state machine of C51. Partial: see the findings on the 2D warp, the padding images, the overflow and `minImages_h`. |
| C119 | Loops over pairs of numbers or NaN; arrays of fields of one size reduce to one long field; induction for greatest distance and sum. GPU versions: copies to the host by the contract of `HostDArray`, then the same folds. Partial: see the findings on NaN, on the number of fields and on the first coefficient. |
| C120 | Arrays as functions (elementwise action of the kernels and sums by C96 and C93), forces and compressor as arbitrary functions, the two noise arrays with a pointer swap. Refinement by induction over the history of successes and failures; sums by an invariant; GPU = CPU function by function. Partial: the GPU statements need an even mesh size, see the findings. |
| C121 | Model of C44 with two bases. Induction over rows that the reader can use (`Readable`) with the frame property of `setColumn`; the writer produces such rows when the stars of the first basis embed in the second (`Embeds`). Partial: more rows than basis functions, closed stars named by another wave and edge stars of coarser meshes, see the findings. |
| C122 | `SweepTmpl::sweep` with the functions of `r1d/sweep` acting on one system: parameters of C110, history of C75, coefficients of C21, an arbitrary solver. Invariant over reachable states (`Ok`): the fields are those of the last solution, the history is that of the accepted solutions. Partial: the parameters after an exception, see the findings. |
| C123 | State machine `HostField.St` (live objects, allocated blocks with contents), one operation per member function, the three classes as a parameter `Kind`, exceptions leave a state. Invariant `Owns` by induction over histories; refinement of value semantics (`spec`, `Accepts`) operation by operation. Partial: `deallocate` and repeated `allocate`, see the findings. |

The status of each property is kept in `MANIFEST.json`; section 4 lists the
defects found, each backed by a machine-checked negation.

## 4. Findings in the code

Each row is a machine-checked theorem about the model: a counterexample, or a
statement that the defect occurs for a whole class of inputs. The last rows were
noticed while reading and are recorded in comments of the model only.

| where | defect | theorem |
|-------|--------|---------|
| `Mesh::serialize` | saves element 0 of the dimensions D times; a loaded mesh never equals the saved one | `C07_archive_violated` |
| `PolymerSpecies::makePlan` | cyclic or disconnected block graphs: infinite loop; vertex ids out of range: access out of bounds | `C10_nontree_hangs`, `C10_ring_hangs`, `C10_out_of_range_ub` |
| `Species::readParameters` | volume fraction from file not range checked | `C14_read_unchecked` |
| `Interaction::updateMembers` | zero 2 x 2 chi matrix passes the singularity test, inverse is NaN | `C16_zero_chi_accepted` |
| `Interaction::setChi` | after an exception chi is new, the inverse is old | `C16_failed_set_incoherent` |
| `SweepTmpl::sweep` | negative `ns` runs forever | `C20_negative_ns_diverges` |
| `Sweep::extrapolate` | one unchanged cell parameter suppresses the extrapolation of all | `C22_one_unchanged_blocks` |
| `AmIteratorTmpl` | a continuation uses the coefficients of the previous solve | `C25_continuation_reuses` |
| `SymmetryGroup::makeCompleteGroup` | infinite loop for a rotation of infinite order | `C29_shear_hangs` |
| `SymmetryGroup::add` | unreduced translations give duplicate elements | `C29_unreduced_duplicate` |
| `SpaceGroup::checkMeshDimensions` | direction 0 never checked against translations | `C32_violated` |
| `SpaceGroup operator>>` | truncated file accepted | `C33_truncated_file_accepted` |
| `UnitCell2.cpp` Oblique | derivative with respect to `b` overwritten, with respect to `gamma` zero | `C35_oblique_violated`, `C36_oblique_gamma_zero` |
| `UnitCell3.cpp` Monoclinic, Rhombohedral | angle derivative has the wrong sign | `C35_monoclinic_sign`, `C35_rhombohedral_sign`, `C36_sign_violated` |
| `paramIdConversions.cpp` | triclinic ids 3, 4 are phi, theta, documented as alpha, beta | `C38_triclinic_violated` |
| `readBasisData` | `=` instead of `==` in the checks of a star pair | `C44_violated_mismatched_pair` |
| `hasSymmetry` | fields of NaN are symmetric | `C45_violated_nan` |
| `WFieldsTmpl` | failed calls leave mixed data; changes without signal; asymmetric first fields lock out symmetric ones | `C46_violated`, `C46_notify_violated`, `C46_asymmetric_first_lockout` |
| `MaskTmpl` | failed read leaves `phiTot` of other data | `C48_violated` |
| `SystemTmpl` | concentrations of old fields reported after a failed w call | `C49_violated` |
| `SystemTmpl::computeStress`, `Environment` | `WRITE_STRESS` writes a stale stress; environment stress never recomputed | `C50_write_stale`, `C50_env_stale` |
| `shiftToMinimum`, `WaveList` | absolute tolerance fails for huge cells | `C51_huge_cell` |
| `Block::setLength` | zero and negative lengths accepted | `C52_violated` |
| `ForceBiasMove`, `Simulator::restoreState` | `cc` of the rejected fields reported | `C57_stale_after_reject` |
| `PredCorrBdStep` | same after a failed corrector | `C57_stale_predCorr` |
| ramps | data of old parameters reported; Metropolis test mixes parameters | `C57_stale_ramp`, `C57_ramp_metropolis` |
| `McSimulator::simulate` | throws without an `AnalyzerManager` | `C58_violated` |
| `McSimulator/BdSimulator::analyze` | throws for a base interval above 1 | `C58_analyze_throws` |
| `FilmFieldGenMaskBase` | `normalVecId = D` accepted, then out of bounds | `C63_violated` |
| `FilmFieldGenMaskBase::checkLatticeVectors` | one-sided test accepts obtuse cells | `C64_hexagonal_accepted`, `C64_monoclinic_accepted` |
| `modifyFlexibleParams` | triclinic normal 0 leaves an angle flexible that tilts the walls | `C64_triclinic_violated` |
| `MixAndMatchEnvTmpl` | external field generator in first place refused | `C65_violated` |
| `RampParameter`, `SweepParameter` | `vMonomer` and special names with capitals cannot be read back | `C67_ramp_violated`, `C67_sweep_violated` |
| `FieldComparison` | rms of arrays uses the size of the last field | `C68_arrays_violated` |
| `FFT::hasImplicitInverse` | off by one on every mesh with at least three points in the last direction | `C69_every_mesh_wrong` |
| `readCommands` | last command without newline skipped; malformed `SIMULATE` repeated with an uninitialised number; manual and code disagree on `CLEAR_TIMERS` | `C70_last_violated`, `C70_simulate_violated`, `C70_clear_timers_violated` |
| `Debye.cpp` | small-argument branches of `dt` and `eb` have the wrong first order | `C72_dt_violated`, `C72_eb_violated` |
| `setChi`, `setKuhn`, ... | concentrations and free energy of old parameters reported | `C74_stale` |
| `readFieldHeader` | header cut after `N_monomer` accepted with an uninitialised value | `C83_truncated_last_violated` |
| r1d `Block::setDiscretization`, `setLength` | a block shorter than half the target step gets one contour point, then `ds_` divides by zero | `C87_contour_violated` |
| `Block::computeStress*`, `WaveList::computedKSq` | wrong `hasImplicitInverse` halves the contribution of a plane of waves; stress of a dimer differs from the derivative of its free energy on every mesh with three or more points in the last direction | `C85_code_violated` |
| `Block::computeStressThread`, `WaveList::computedKSq` | same cause: in the thread model the stress of short homopolymers converges to a value different from the derivative of the free energy | `C90_code_violated` |
| `MixturePrdc::computeStress` | same cause: the stress of a mixture differs from the one of the first law, already for a melt of dimers | `C92_code_violated` |
| `Reduce.cu` warp functions | no `__syncwarp`: with independent thread scheduling a thread can read a partial sum late; sum of 64 ones can be 7 | `C93_warp_violated` |
| `Reduce.cu` minAbs | reads beyond the array if 2n is below the block size | `C93_minAbs_violated` |
| `Reduce.cu` | `(float)n` rounds: for n = 2^24 + 1 the last element is ignored for every block size | `C93_float_violated` |
| `ThreadArray::setThreadsPerBlock` | 0 divides by zero, sizes above the device limit accepted | `C94_argument_violated` |
| `ThreadMesh::setConfig` | stores the mesh before rejecting a block size; the next request reuses a stale (initially empty) configuration | `C95_stale_violated` |
| `ThreadMesh::setConfig` | 2D request matches a 3D configuration; `setThreadsPerBlock` ignored for a cached mesh | `C95_dimension_violated`, `C95_block_size_violated` |
| `VecOp.cu` complex `mulVV`, `mulVS`, `expV` | wrong imaginary part in place | `C96_alias_violated`, `C96_complex_scalar_partial`, `C96_complex_exp_partial` |
| `addVMany`, `mulVMany` | capacity of the result not checked for three or more vectors | `C96_many_violated` |
| rpg `Propagator::solve()`, bead model | copies slice ns-2 onto itself, so the tail slice at a free end is never set | `C98_tail_kept_violated` |
| rpg `Propagator::solve(head)`, bead model | condition on the tail end negated: no half bond at a joint, a half bond at a free end | `C98_solve_head_violated` |
| rpg `AmIteratorGrid::update` | `tempH[i]` instead of `tempH[counter]`: flexible parameters read from the wrong element, out of range unless the flexible parameters come first | `C99_gpu_violated` |
| rpg `AmIteratorGrid/Basis::getResidual`, open ensemble with mask | subtracts both mask/S and 1/S, so the condition solved is sum c = mask + 1 | `C100_gpu_violated`, `C100_gpu_rejects_violated` |
| `FourthOrderParameter::computePrefactor` | inverse pairs within the half mesh whose images tie on the zone boundary get prefactor 1 each: such a pair counts twice | `C101_fourth_violated`, `C101_fourth_iff` |
| `FourthOrderParameter::setup` | prefactors zeroed only when allocated; not recomputed in later simulations with another unit cell | `C101_prefactor_stale` |
| `MaxOrderParameter::compute` | reads `psi[1]` when the mesh has a single stored wave | `C101_max_single` |
| `EinsteinCrystalPerturbation`, `BinaryStructureFactorGrid`, rpg `ForceBiasMove`, `ExplicitBdStep` `setup` | allocate without guard: the second SIMULATE or ANALYZE throws | `C102_allocation_violated` |
| `AverageAnalyzer`, `AverageListAnalyzer` with block output (default) | data file opened in `readParameters`, closed in `output`: the second simulation throws at its first block | `C102_block_violated` |
| `MaxOrderParameter::outputValue` | writes to the closed file without a check: data of later simulations are lost | `C102_data_lost_violated` |
| `RGridTrajectoryReader::readFrame` | mesh dimensions of a frame are read and ignored: a file of a 2x3 mesh is analysed on a 3x2 mesh with permuted fields | `C104_mesh_violated` |
| `TrajectoryWriter` | unit cell written once, in the header: a simulation with a ramp of cell parameters is analysed with the first cell | `C104_cell_violated` |
| `ChiDerivative::compute` | uses only chi_AB: with chi_AA + chi_BB different from 0 the value is not the derivative of the Hamiltonian | `C105_chi_error` |
| `ChiDerivative::compute` with a ramp of chi | field Hamiltonian of the old chi combined with the new chi | `C105_ramp_violated` |
| `McSimulator::simulate` | steps at which the compressor fails are not counted and not sampled: the observed states have the density (success probability) x exp(-H) | `C106_observed_partial` |
| `r1d NrIterator::residualNorm` | residuals that are NaN are skipped: a Newton step to fields with NaN concentrations has norm 0, is accepted and reported as converged | `C107_nan_violated` |
| `r1d NrIterator::solve` | `isCanonical_` considers polymers only: with closed polymers and open solvents the incompressibility condition at the last grid point is dropped | `C107_solvent_violated` |
| `r1d BinaryRelaxIterator::solve` | after a reduction of the increment the norm is computed from the old fields, so a step that increases the norm always ends the run, with `lambdaPlus`, `lambdaMinus` halved | `C107_relax_reduction_violated` |
| `r1d BinaryRelaxIterator::computeDW` | `chi(0,0)`, `chi(1,1)` are ignored | `C107_relax_diagonal_violated` |
| `r1d System::computeFreeEnergy`, `Block::step` | contour steps multiply by `(1-y)/(1+y)`, not `exp(-2y)`: the free energy of a uniform melt depends on the zero of the field (periodic programs: it does not) | `C108_gauge_violated` |
| `r1d System::readCommands` | `WRITE_THERMO` after `READ_W`/`COMPUTE` prints the free energy of the last `ITERATE` beside current `phi`, `mu` | `C108_stale_violated` |
| `r1d System::readParameters` | sizes of the homogeneous mixture are set once: after a sweep in a block length or solvent size the comparison uses the old sizes | `C108_stale_size_violated` |
| `r1d HomogeneousComparison::compute`, `output` | arrays are filled for polymers only: with two or more solvents (mode 0) or any solvent (modes 1, 2) uninitialised values are read, and `output` indexes polymers out of range | `C108_compare_solvent_violated`, `C108_print_solvent_violated` |
| `r1d FieldIo::readFields` | the stream is never checked: a file that ends within the last row is accepted, missing values keep their old contents | `C109_truncated_violated` |
| `r1d FieldIo::remesh`, `extend` | arguments are not checked: `nx <= 1` gives a file with two rows that no domain accepts, negative `m` a file with more rows than its header says | `C109_remesh_small_violated`, `C109_extend_negative_violated` |
| `LinearSweep`, `LinearRamp::readParameters` | a volume fraction may be listed twice with opposite changes: the check passes, the last one wins and the sum of volume fractions changes | `C110_duplicate_violated` |
| `LinearSweep::readParameters` | a swept lattice parameter may be flexible: the iterator then overwrites it | `C110_flexible_violated` |
| `SweepParameter::get_`, `RampParameter::get_` | indices of chi, blocks and lattice parameters are not checked | `C110_index_violated` |
| `LinearRamp::output` | prints initial value plus change as final value, also if steps failed and the value was not reached | `C110_ramp_final_violated` |
| `BinaryStructureFactorGrid::computeStructureFactor` | uses `chi(0,1)` where the effective parameter `chi(0,1) - (chi(0,0)+chi(1,1))/2` is needed | `C111_diagonal_violated` |
| `BinaryStructureFactorGrid::averageStructureFactor` | mean of means for magnitudes that differ by rounding; stored waves of the half mesh are not weighted by their multiplicity | `C111_rounding_violated`, `C111_half_mesh_violated` |
| `DeviceArray` copy constructor | members are not initialised before `allocate` tests them | `C117_violated_copy_constructor` |
| `DeviceArray` slices | a slice that outlives its array follows a dangling pointer; after the array was deallocated the slice can be neither dissociated nor associated again and its destructor throws (`std::terminate`); overlapping slices may be assigned | `C117_violated_dangling`, `C117_violated_destructor`, `C117_violated_overlap` |
| `HostDArray::copySlice` | a negative `beginId` is accepted: reads before the array | `C117_violated_copySlice` |
| GPU `WaveList`, 2D kernel | the reduction has no `__syncwarp`; with independently scheduled threads the wave (0,0) can get the squared norm of another image | `C118_violated_warp` |
| GPU `WaveList`, padding images | the 2D and 3D kernels also search the 7 or 3 images that pad the list to 32 or 128; for a strongly oblique cell one of them is shortest and the GPU image differs from (is shorter than) the CPU image | `C118_violated_extra` |
| GPU `WaveList::computeMinimumImages` | `kSize_*threadsPerGP` overflows `int` in 3D from 2^24 waves on (real field on 324^3 points) | `C118_violated_overflow` |
| GPU `WaveList::minImages_h` | `minImages_h_` is never allocated, and component `j` is read at offset `D*j` instead of `kSize_*j` | `C118_violated_host`, `C118_violated_host_stride` |
| GPU `RFieldDftComparison`, `CFieldComparison` | no test for NaN: a complex field of NaN is at distance `maxDiff` = 0, the returned value, from every field (only `rmsDiff` is NaN) | `C119_violated_nan_gpu` |
| GPU `RFieldComparison` for arrays | the number of fields of the second array is not compared: extra fields are ignored, missing ones are read outside of the array | `C119_violated_extra`, `C119_violated_ub` |
| `compareFieldsBasis` | starts at the second coefficient (documented for the class `BFieldComparison`): fields that differ by constants, such as a concentration with a wrong mean, are reported as equal | `C119_violated_average` |
| GPU moves and Brownian steps | `CudaRandom::normal` refuses arrays of odd size: on a mesh with an odd number of points every move and every step throws; the CPU code accepts it | `C120_violated_odd` |
| GPU `ForceBiasMove::setup`, `ExplicitBdStep::setup` | allocate arrays in each `setup`: a second SIMULATE command in one run throws | `C120_violated_setup` |
| `readBasisData` | reads only as many rows as the reader has basis functions, counting ignored rows: later rows are lost even if the reader has their stars; no message | `C121_violated_truncated` |
| `readBasisData` | drops the row of a closed star that is named by another of its waves (only a log message) | `C121_violated_wave` |
| `readBasisData` | throws when the last row is an open star of the reader, as for an edge star of a coarser even mesh without inversion centre | `C121_violated_edge` |
| r1d `Sweep::reset` | restores the fields of the last solution but not the swept parameters: when a sweep gives up, the system has the fields of one point of the path and the parameters of another | `C122_violated_reset` |
| r1d `SweepParameter` | `cell_param` is accepted as a name, but `type()`, `get_` and `set_` throw for it | `C122_cell` |
| `FftwDArray::deallocate` | frees the memory but does not clear `data_`: the field still counts as allocated, cannot be allocated again, and its destructor frees the memory a second time (`FFT::setup`, `FFT.tpp:115-118`, contains such a deallocation followed by an allocation) | `C123_violated_deallocate` |
| `RField::allocate`, `RFieldDft::allocate` | changes `meshDimensions_` before it refuses to allocate again; a copy of the field then reads beyond its memory if the refused mesh is larger | `C123_violated_reallocate` |

Recorded in comments only: the check at `Basis.tpp:389-392` compares a norm with itself and never fails; `shiftToMinimum<1>` leaves both `d/2` and `-d/2` unchanged (harmless, C116); `WaveList::clearUnitCellData` before `allocate`
dereferences a null pointer; `Edge::serialize` omits the bead number and polymer
type; `Basis::isValid` does not test empty stars, and its test of cancelled
coefficients skips the first wave; `Reduce::max/min` ignore NaN except in first
position; interface thickness equal to excluded thickness is accepted by
`readParameters` and refused by `compute`; `setup` of simulators ignores a failed
initial compression; `LrCompressor` and `LrAmCompressor` never recompute the
intramolecular correlation; a second `setup` of `EinsteinCrystalPerturbation` and
`BinaryStructureFactorGrid` throws; `readKGridData` lacks checks of the number of
monomers; volume fractions up to 1e-8 are ignored in the free energy (this one
appears as the term `ignored` in C71); rpg bead blocks store `ds` where rpc stores 1; `SET_UNIT_CELL` with missing parameters
uses zeros; `getDimension` accepts any argument beginning with `-d`. `ANALYZE` calls the setup of the simulator after the first frame of its range, so that this frame
is compressed and the others are not (`comp` in `Ana/Traj.lean`); it reads one frame beyond the
last one of its range; frame indices, not the printed step numbers, are given to analyzers.
