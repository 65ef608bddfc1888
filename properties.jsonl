{"id": "C01", "title": "Mesh rank/position bijection", "statement": "For a mesh built from valid dimensions, rank(position(r)) == r for every r in [0,size()), position(rank(p)) == p for every in-mesh position p, rank(p) lies in [0,size()), and size() is the product of the dimensions.", "quantifier": "every dimensionality D>=1, every list of positive dimensions, every rank and every in-mesh position", "why_tests_cant": "Unit tests check a few 2D/3D meshes; the claim is over an unbounded set of dimensions and points.", "anchors": ["src/pscf/mesh/Mesh.tpp: setDimensions, rank, position, isInMesh"]}
{"id": "C02", "title": "Mesh periodic shift", "statement": "shift(coordinate,i) leaves the coordinate inside [0,dimension(i)) and returns the unique multiple of the dimension that was subtracted, for negative as well as positive coordinates; shift of a whole position does so for each index.", "quantifier": "every integer coordinate, every positive dimension, every D", "why_tests_cant": "Truncating division of negative integers is boundary sensitive; tests sample a few values.", "anchors": ["src/pscf/mesh/Mesh.tpp: shift"]}
{"id": "C03", "title": "MeshIterator enumerates the mesh", "statement": "begin() followed by repeated ++ until atEnd() visits every mesh point exactly once, in increasing rank order, position() always equals the mesh position of rank(), and atEnd() first becomes true after exactly size() increments.", "quantifier": "every D>=1 and every list of positive dimensions", "why_tests_cant": "Loop over an unbounded family of nested loops (carry chains of arbitrary depth).", "anchors": ["src/pscf/mesh/MeshIterator.h", "src/pscf/mesh/MeshIterator.tpp: begin, increment, operator++"]}
{"id": "C04", "title": "Fortran-order MeshIterator enumerates the mesh", "statement": "begin() followed by repeated ++ until atEnd() visits every mesh point exactly once with the first index varying fastest, and rank() is always the C-order rank of position().", "quantifier": "every D>=1 and every list of positive dimensions", "why_tests_cant": "Same as C03; unit tests only try fixed meshes.", "anchors": ["src/pscf/mesh/MeshIteratorFortran.tpp: begin, operator++, setDimensions"]}
{"id": "C05", "title": "R-grid field data round trip", "statement": "Reading the data section written for a set of r-grid fields on the same mesh yields exactly the same field values for every monomer at every grid point.", "quantifier": "every D, mesh, number of fields and field values", "why_tests_cant": "Write and read orders must be mutually inverse permutations for every mesh shape; only a few files are tested.", "anchors": ["src/prdc/field/fieldIoUtil.tpp: readRGridData, writeRGridData"]}
{"id": "C06", "title": "K-grid field data round trip and rank check", "statement": "Reading the data section written for k-grid fields returns the same values, and a data section whose rank labels are not 0,1,2,... in order is rejected with an error rather than silently permuted.", "quantifier": "every D, k-grid mesh, number of fields, field values and every sequence of labelled rows", "why_tests_cant": "Unbounded families of meshes and malformed files.", "anchors": ["src/prdc/field/fieldIoUtil.tpp: readKGridData, writeKGridData"]}
{"id": "C07", "title": "Mesh persistence", "statement": "A mesh saved and reloaded (by stream insertion/extraction or by archive serialisation) has the same dimensions, size and rank/position maps.", "quantifier": "every D and list of positive dimensions", "why_tests_cant": "Universally quantified over meshes; the archive path saves only one of D dimensions so cubic test meshes cannot expose it.", "anchors": ["src/pscf/mesh/Mesh.tpp: serialize, operator>>, operator<<"]}
{"id": "C08", "title": "Integer vector ordering", "statement": "The comparison operators on integer vectors form a strict total order (irreflexive, transitive, exactly one of <,==,> holds) and <=, >, >= agree with it.", "quantifier": "every D and all pairs/triples of integer vectors", "why_tests_cant": "std::sort/std::set correctness relies on the order axioms for all triples.", "anchors": ["src/pscf/math/IntVec.h: operator<, operator<=, operator>, operator>=, operator=="]}
{"id": "C09", "title": "Propagator plan is a valid schedule", "statement": "For every acyclic connected polymer, building the propagator plan terminates and lists every (block,direction) pair exactly once, each after all propagators that flow into its starting vertex.", "quantifier": "every tree of blocks of any size, any labelling and any orientation of blocks", "why_tests_cant": "Unbounded set of graphs; unit tests use a handful of polymers.", "anchors": ["src/pscf/chem/PolymerSpecies.cpp: makePlan", "src/pscf/chem/Vertex.cpp: addEdge"]}
{"id": "C10", "title": "Malformed block graphs are rejected", "statement": "Reading a branched polymer whose block graph is not a tree ends with an error message instead of hanging.", "quantifier": "every block list with nVertex = nBlock+1 whose graph contains a cycle", "why_tests_cant": "Non-termination cannot be observed by a test; inputs are unbounded.", "anchors": ["src/pscf/chem/PolymerSpecies.cpp: readParameters, makePlan, isValid"]}
{"id": "C11", "title": "Polymer solve follows dependencies", "statement": "Polymer solve never fails its readiness check for a valid plan, marks every propagator solved exactly once, and when it finishes all propagators are solved.", "quantifier": "every polymer with a dependency-respecting complete plan and every initial solved/unsolved flag pattern", "why_tests_cant": "Depends on the interplay of the plan and the solved flags for every graph and history of earlier solves.", "anchors": ["src/pscf/solvers/PolymerTmpl.tpp: solve", "src/pscf/solvers/PropagatorTmpl.h: isReady"]}
{"id": "C12", "title": "Paths and vertex traversal", "statement": "For every acyclic connected polymer and every ordered pair of distinct vertices, path(s,t) names the first block/direction of the unique path from s to t, and iterating a VertexIterator from s to t visits exactly the vertices of that path and stops.", "quantifier": "every tree, every pair of vertices", "why_tests_cant": "Requires induction over trees of unbounded size.", "anchors": ["src/pscf/chem/PolymerSpecies.cpp: makePaths", "src/pscf/chem/VertexIterator.cpp"]}
{"id": "C13", "title": "Edge traversal", "statement": "Iterating an EdgeIterator from one block to another visits the blocks of the connecting path once each and stops at the target block.", "quantifier": "every tree, every ordered pair of distinct blocks", "why_tests_cant": "Requires induction over trees of unbounded size.", "anchors": ["src/pscf/chem/EdgeIterator.cpp"]}
{"id": "C14", "title": "Species ensemble protection", "statement": "After reading, a species never changes ensemble; setPhi succeeds only for a closed species and 0<=phi<=1, setMu only for an open species; after setQ, phi = exp(mu)*q holds in either ensemble for phi,q>0.", "quantifier": "every sequence of setPhi, setMu and setQ calls with any values", "why_tests_cant": "Must hold for every history of calls.", "anchors": ["src/pscf/chem/Species.cpp: readParameters, setPhi, setMu, setQ"]}
{"id": "C15", "title": "Polymer model lock", "statement": "Once the polymer model is locked, no later call changes it, every attempt to do so raises an error, and the number of sets equals the number of successful calls.", "quantifier": "every sequence of setModel/makeThread/lock/isThread calls", "why_tests_cant": "Global state; must hold for every call history.", "anchors": ["src/pscf/chem/PolymerModel.cpp"]}
{"id": "C16", "title": "Interaction matrix coherence", "statement": "After any sequence of successful chi assignments, chi is symmetric and chiInverse is the matrix inverse of the current chi.", "quantifier": "every number of monomers, every history of setChi calls (values arbitrary reals)", "why_tests_cant": "Invariant over all histories; error paths are rarely tested.", "anchors": ["src/pscf/inter/Interaction.cpp: setChi, updateMembers"]}
{"id": "C17", "title": "Composition/field inversion", "statement": "For symmetric invertible chi, computeC(computeW(c)+xi) returns c and xi whenever c sums to one; computeC always returns concentrations summing to one; computeXi agrees with computeC.", "quantifier": "every number of monomers, every invertible chi with nonzero sum of inverse, every field vector", "why_tests_cant": "Universally quantified over real matrices/vectors.", "anchors": ["src/pscf/inter/Interaction.cpp: computeC, computeXi, computeW"]}
{"id": "C18", "title": "SCFT residual projection", "statement": "The matrix p used in SCFT residuals annihilates spatially uniform shifts of all w fields and is idempotent, and the residual vanishes exactly when w-chi*c is a uniform shift and c sums to the mask.", "quantifier": "every number of monomers, invertible chi, fields w, c", "why_tests_cant": "Algebraic identity over all real inputs.", "anchors": ["src/pscf/iterator/AmbdInteraction.cpp: update", "src/rpc/scft/iterator/AmIteratorBasis.tpp: getResidual"]}
{"id": "C19", "title": "Tridiagonal solver correctness", "statement": "If the LU decomposition encounters no zero pivot, multiply(solve(b)) == b and solve(multiply(x)) == x.", "quantifier": "every size n>=1, all band values, all vectors", "why_tests_cant": "Recurrences of unbounded length.", "anchors": ["src/pscf/math/TridiagonalSolver.cpp: computeLU, multiply, solve"]}
{"id": "C20", "title": "Sweep stepping", "statement": "A sweep visits strictly increasing path values starting at 0, each accepted state is a converged one, on success the last accepted s is within one (possibly reduced) step tolerance of 1, and it raises an error after repeated failures instead of looping forever.", "quantifier": "every sequence of solver outcomes (success/failure at each attempt) and every ns>=1", "why_tests_cant": "All schedules of convergence failures.", "anchors": ["src/pscf/sweep/SweepTmpl.tpp: sweep, accept, initialize"]}
{"id": "C21", "title": "Sweep extrapolation exactness", "statement": "The extrapolation coefficients reproduce every polynomial of degree below the history size exactly; in particular they sum to one.", "quantifier": "every history of distinct path values, every new value, every polynomial of degree < history size", "why_tests_cant": "Identity over arbitrary real nodes and unbounded degree.", "anchors": ["src/pscf/sweep/SweepTmpl.tpp: setCoefficients"]}
{"id": "C22", "title": "Sweep unit-cell extrapolation reaches the system", "statement": "When extrapolated lattice parameters differ from the current ones, they are transferred to the system before the next solve.", "quantifier": "every pair of old and extrapolated parameter lists", "why_tests_cant": "All combinations of rigid/flexible parameters.", "anchors": ["src/rpc/scft/sweep/Sweep.tpp: extrapolate"]}
{"id": "C23", "title": "Iterator return code", "statement": "The Anderson-mixing solver returns success only if the error evaluated on the fields currently held by the system is below epsilon, performs at most maxItr field updates, and otherwise returns failure.", "quantifier": "every sequence of residual errors (including NaN) and every maxItr", "why_tests_cant": "All error histories.", "anchors": ["src/pscf/iterator/AmIteratorTmpl.tpp: solve"]}
{"id": "C24", "title": "Anderson-mixing history coherence", "statement": "At every iteration the U matrix equals the matrix of inner products of the stored residual basis vectors, including after the ring buffers wrap around.", "quantifier": "every history length, capacity and residual sequence", "why_tests_cant": "Incremental update must agree with the definition for all histories.", "anchors": ["src/pscf/iterator/AmIteratorTmpl.tpp: updateU, updateBasis"]}
{"id": "C25", "title": "No stale mixing coefficients", "statement": "With an empty basis the trial state is the current state: mixing coefficients of an earlier solve never influence a new one.", "quantifier": "every history of previous solves", "why_tests_cant": "History dependent.", "anchors": ["src/pscf/iterator/AmIteratorTmpl.tpp: setup, computeTrialCoeff, updateTrial"]}
{"id": "C26", "title": "Flory-Huggins composition sums", "statement": "Monomer concentrations computed from volume fractions that sum to one sum to one, and setComposition stores a complete composition; the chemical potentials satisfy the Gibbs relation with the free energy and pressure.", "quantifier": "every number of molecules/clumps/monomers, every composition", "why_tests_cant": "Sums of unbounded length over real inputs.", "anchors": ["src/pscf/floryHuggins/Mixture.cpp: setComposition, computeC, computeMu, computeFreeEnergy"]}
{"id": "C27", "title": "Space-symmetry algebra", "statement": "Space-group symmetries with translations reduced modulo 1 form a group: the product is associative, the identity is neutral, inverse() is a two-sided inverse, and composition agrees with applying one operation after the other to a wavevector and phase.", "quantifier": "every D and all symmetry operations with unimodular rotations", "why_tests_cant": "Rational normalisation must be consistent for all operands.", "anchors": ["src/prdc/crystal/SpaceSymmetry.h: operator*, operator==", "src/prdc/crystal/SpaceSymmetry.tpp: normalize, inverse"]}
{"id": "C28", "title": "Rotation inverse", "statement": "For every integer rotation matrix in 1, 2 or 3 dimensions the computed inverse satisfies R*R^-1 = R^-1*R = I, and construction fails exactly when the determinant is not +-1.", "quantifier": "all integer matrices of dimension 1,2,3", "why_tests_cant": "Infinite family of integer matrices.", "anchors": ["src/prdc/crystal/SpaceSymmetry.cpp: determinant, inverseRotation"]}
{"id": "C29", "title": "Symmetry group container", "statement": "A group never holds duplicates and always holds the identity; add returns true iff the element is new; isValid accepts exactly the sets closed under product and inverse; when makeCompleteGroup returns, the result is a valid group containing all original elements.", "quantifier": "every sequence of add/makeCompleteGroup/clear calls on any group of symmetries", "why_tests_cant": "Fixpoint iteration over arbitrary generating sets.", "anchors": ["src/prdc/crystal/SymmetryGroup.tpp: add, find, makeCompleteGroup, isValid, clear, operator=="]}
{"id": "C30", "title": "Inversion centre detection", "statement": "hasInversionCenter returns true iff the group has a symmetry whose rotation is -I, and the returned centre is a fixed point of it modulo lattice translations.", "quantifier": "every space group in every dimension", "why_tests_cant": "Quantifies over all groups.", "anchors": ["src/prdc/crystal/SpaceGroup.tpp: hasInversionCenter"]}
{"id": "C31", "title": "Origin shift", "statement": "Shifting the origin of every operation in a space group keeps it a group, shifting by the inversion centre makes the inversion translation-free, and shifting back restores the group.", "quantifier": "every group and rational origin", "why_tests_cant": "Quantifies over all groups and origins.", "anchors": ["src/prdc/crystal/SpaceSymmetry.tpp: shiftOrigin", "src/prdc/crystal/SpaceGroup.tpp: shiftOrigin"]}
{"id": "C32", "title": "Mesh compatible with space group", "statement": "If checkMeshDimensions accepts mesh dimensions, every group operation maps mesh points to mesh points.", "quantifier": "every group, every mesh", "why_tests_cant": "All groups and meshes; needs 1D or first-axis translations to expose failures.", "anchors": ["src/prdc/crystal/SpaceGroup.tpp: checkMeshDimensions"]}
{"id": "C33", "title": "Group file round trip", "statement": "Writing a space group and reading it back yields a group equal to the original.", "quantifier": "every group", "why_tests_cant": "All groups.", "anchors": ["src/prdc/crystal/SpaceGroup.h: operator<<, operator>>"]}
{"id": "C34", "title": "Reciprocal lattice", "statement": "For every crystal system the reciprocal basis satisfies r_i.k_j = 2 pi delta_ij for every non-degenerate set of parameters.", "quantifier": "all lattice systems in 1-3 dimensions, all real parameters with non-degenerate cell", "why_tests_cant": "Real-valued parameters.", "anchors": ["src/prdc/crystal/UnitCell1.cpp", "src/prdc/crystal/UnitCell2.cpp: setBasis", "src/prdc/crystal/UnitCell3.cpp: setBasis"]}
{"id": "C35", "title": "Lattice derivatives", "statement": "drBasis is the derivative of the Bravais basis vectors with respect to each lattice parameter in every crystal system.", "quantifier": "all lattice systems and parameter values", "why_tests_cant": "Real-valued parameters; derivative identities.", "anchors": ["src/prdc/crystal/UnitCell2.cpp: setBasis", "src/prdc/crystal/UnitCell3.cpp: setBasis"]}
{"id": "C36", "title": "Wavevector-norm derivative", "statement": "If drBasis is the derivative of the Bravais basis, then dksq(G,n) is the derivative of ksq(G) with respect to parameter n.", "quantifier": "all integer wavevectors and differentiable lattice parameterisations", "why_tests_cant": "Analytic identity over reals.", "anchors": ["src/prdc/crystal/UnitCellBase.tpp: ksq, dksq, computeDerivatives"]}
{"id": "C37", "title": "Replicated unit cell", "statement": "Replicating a unit cell multiplies each Bravais vector length by its replica count, keeps angles, and rejects combinations that the lattice system cannot represent.", "quantifier": "all lattice systems, parameters and replica counts", "why_tests_cant": "All parameter values and counts.", "anchors": ["src/prdc/crystal/replicateUnitCell.cpp"]}
{"id": "C38", "title": "Lattice parameter id conversion", "statement": "Converting a reduced parameter id to a full id and back gives the original id for every lattice system.", "quantifier": "all lattice systems, all reduced ids in range", "why_tests_cant": "Decision tables: checks all cases and exposes out-of-range behaviour.", "anchors": ["src/prdc/crystal/paramIdConversions.cpp"]}
{"id": "C39", "title": "Minimum image", "statement": "shiftToMinimum returns a wavevector congruent to the input modulo the mesh dimensions, with squared norm no larger (up to tolerance) than any image in the searched range.", "quantifier": "all integer wavevectors, meshes and metric tensors", "why_tests_cant": "Real-valued metric and integer inputs.", "anchors": ["src/prdc/crystal/shiftToMinimum.cpp"]}
{"id": "C40", "title": "Replicated fields", "statement": "Field replication writes, for each replica, the original value at the point congruent modulo the original mesh, with every target point written exactly once.", "quantifier": "all D, meshes, replica counts and field values", "why_tests_cant": "All mesh shapes.", "anchors": ["src/prdc/field/fieldIoUtil.tpp: replicateUnitCell"]}
{"id": "C41", "title": "Dimension expansion", "statement": "expandRGridDimension writes a field constant along new axes and equal to the original along old axes in a file readable as an r-grid field on the expanded mesh.", "quantifier": "all 1D and 2D meshes, new dimensions and values", "why_tests_cant": "All mesh shapes.", "anchors": ["src/prdc/field/fieldIoUtil.tpp: expandRGridDimension"]}
{"id": "C42", "title": "Star/basis index maps", "statement": "Stars partition the waves into consecutive ranges, and the basis index and star index of uncancelled stars are inverse maps.", "quantifier": "all lists of waves and groups", "why_tests_cant": "All groups/meshes.", "anchors": ["src/prdc/crystal/Basis.tpp: makeStars, isValid"]}
{"id": "C43", "title": "Symmetry-adapted basis round trip", "statement": "convertKGridToBasis after convertBasisToKGrid returns the original coefficients.", "quantifier": "all star structures satisfying the basis invariants and all coefficients", "why_tests_cant": "All bases and coefficient vectors.", "anchors": ["src/prdc/field/fieldIoUtil.tpp: convertBasisToKGrid, convertKGridToBasis"]}
{"id": "C44", "title": "Basis file input", "statement": "Reading basis-format data assigns each row to the matching star and treats unmatched or malformed partner rows as described: a file written by the program is read back exactly, and rows that do not form a matching inverse pair are not silently merged.", "quantifier": "all basis structures and row sequences", "why_tests_cant": "All files.", "anchors": ["src/prdc/field/fieldIoUtil.tpp: readBasisData, writeBasisData"]}
{"id": "C45", "title": "Symmetry check", "statement": "hasSymmetry returns true iff cancelled waves vanish and coefficients within each open star agree up to tolerance.", "quantifier": "all fields, including non-finite values", "why_tests_cant": "All fields.", "anchors": ["src/prdc/field/fieldIoUtil.tpp: hasSymmetry"]}
{"id": "C46", "title": "Field container coherence", "statement": "In a w or h field container, whenever isSymmetric() holds the basis and r-grid representations agree; observers are notified of every modification; failed operations leave the container coherent.", "quantifier": "every history of set/read/symmetrize/allocate calls", "why_tests_cant": "All call histories and failure points.", "anchors": ["src/prdc/field/WFieldsTmpl.tpp"]}
{"id": "C47", "title": "Concentration container flags", "statement": "isSymmetric implies hasData in every reachable state of the concentration container.", "quantifier": "every call history", "why_tests_cant": "All call histories.", "anchors": ["src/prdc/field/CFieldsTmpl.tpp"]}
{"id": "C48", "title": "Mask container", "statement": "phiTot() equals the spatial average of the mask whichever representation was set, and equals 1 without data.", "quantifier": "every call history", "why_tests_cant": "All call histories.", "anchors": ["src/prdc/field/MaskTmpl.tpp"]}
{"id": "C49", "title": "System derived-data coherence", "statement": "Whenever the system reports concentration or free-energy data, they were computed from the current w fields, external fields, mask and unit cell.", "quantifier": "every sequence of public System operations", "why_tests_cant": "Cache invalidation over all histories.", "anchors": ["src/prdc/system/SystemTmpl.tpp", "src/prdc/system/ScftThermoTmpl.tpp"]}
{"id": "C50", "title": "Stress coherence", "statement": "Whenever stress is reported as available it was computed from the current fields and unit cell.", "quantifier": "every sequence of public System operations", "why_tests_cant": "Cache invalidation over all histories.", "anchors": ["src/prdc/system/SystemTmpl.tpp: computeStress, readCommands (WRITE_STRESS)", "src/prdc/environment/Environment.h", "src/prdc/solvers/MixturePrdc.tpp"]}
{"id": "C51", "title": "Wavelist cache coherence", "statement": "Every cached kSq, dKSq and minimum image returned by WaveList was computed for the current unit cell.", "quantifier": "every sequence of unit-cell changes and compute calls", "why_tests_cant": "All histories.", "anchors": ["src/prdc/cpu/WaveList.tpp"]}
{"id": "C52", "title": "Contour discretisation", "statement": "A block always has an odd number ns>=3 of contour points with (ns-1)*ds equal to the block length; a bead block has nBead+2 slices.", "quantifier": "all positive lengths and target step sizes", "why_tests_cant": "Real-valued inputs, rounding.", "anchors": ["src/rpc/solvers/Block.tpp: allocate, setLength"]}
{"id": "C53", "title": "Material conservation", "statement": "For each block the spatially averaged concentration of the block equals phi*length/total length (thread) or phi*nBead/total (bead) exactly, up to round-off.", "quantifier": "all potentials, meshes, step counts, chain architectures", "why_tests_cant": "Depends on self-adjointness of the step for all fields and unbounded number of steps.", "anchors": ["src/rpc/solvers/Block.tpp: stepThread, computeConcentrationThread, computeConcentrationBead", "src/rpc/solvers/Propagator.tpp: computeQ"]}
{"id": "C54", "title": "Partition function is block independent", "statement": "computeQ gives the same value for every propagator of the polymer.", "quantifier": "all trees and all fields", "why_tests_cant": "Induction over trees and contour steps.", "anchors": ["src/rpc/solvers/Propagator.tpp: computeQ, computeHead", "src/pscf/solvers/PolymerTmpl.tpp: solve"]}
{"id": "C55", "title": "Solvent conservation", "statement": "The spatial average of a closed solvent's concentration equals phi*phiTot.", "quantifier": "all fields, sizes, meshes", "why_tests_cant": "Real-valued fields of unbounded size.", "anchors": ["src/rpc/solvers/Solvent.tpp: compute"]}
{"id": "C56", "title": "Monte-Carlo move atomicity", "statement": "A rejected or failed Monte-Carlo move leaves w fields, field components and Hamiltonian as before; the saved-state slot is empty between moves; nAccept+nFail<=nAttempt.", "quantifier": "every sequence of moves with any outcome", "why_tests_cant": "All random outcomes.", "anchors": ["src/rpc/fts/montecarlo/McMove.tpp: move", "src/rpc/fts/simulator/Simulator.tpp: saveState, restoreState, clearState"]}
{"id": "C57", "title": "Simulator component coherence", "statement": "Whenever the simulator reports eigenvector components (wc, cc, dc) or Hamiltonian as available they correspond to the current fields.", "quantifier": "every sequence of moves/steps with any outcome", "why_tests_cant": "All random outcomes and move types.", "anchors": ["src/rpc/fts/simulator/Simulator.tpp: restoreState", "src/rpc/fts/montecarlo/ForceBiasMove.tpp", "src/rpc/fts/brownian/PredCorrBdStep.tpp"]}
{"id": "C58", "title": "Simulation step accounting", "statement": "A simulation of nStep steps ends with iStep equal to the number of converged steps, samples analyzers exactly at multiples of the base interval, and a failed step does not advance the step counter used for sampling.", "quantifier": "all outcome sequences and intervals", "why_tests_cant": "All histories.", "anchors": ["src/rpc/fts/montecarlo/McSimulator.tpp: simulate", "src/rpc/fts/brownian/BdSimulator.tpp: simulate", "src/rpc/fts/analyzer/AnalyzerManager.tpp"]}
{"id": "C59", "title": "Einstein-crystal perturbation consistency", "statement": "The perturbed Hamiltonian interpolates linearly between Einstein crystal and unperturbed Hamiltonians and the derivative increments are its functional derivatives; df is its lambda derivative.", "quantifier": "all fields, lambda, epsilon", "why_tests_cant": "Real-valued identity.", "anchors": ["src/rpc/fts/perturbation/EinsteinCrystalPerturbation.tpp"]}
{"id": "C60", "title": "Compression changes only pressure", "statement": "Compressors change only the pressure-like component: differences between monomer fields at every grid point are the same before and after compression, whatever number of iterations is used.", "quantifier": "all initial fields and iteration histories", "why_tests_cant": "All histories.", "anchors": ["src/rpc/fts/compressor/AmCompressor.tpp: update", "src/rpc/fts/compressor/LrCompressor.tpp: updateWFields"]}
{"id": "C61", "title": "Eigenvector component transform", "statement": "Reconstructing monomer fields from components with the stored eigenvectors inverts computeWc.", "quantifier": "all orthogonal eigenvector sets and fields", "why_tests_cant": "Real-valued identity.", "anchors": ["src/rpc/fts/simulator/Simulator.tpp: computeWc, analyzeChi"]}
{"id": "C62", "title": "Monomer basis conversion", "statement": "FieldBasisConverter::convertFromBasis inverts convertToBasis, and vice versa, for orthogonal bases with matching prefactors; maxBasisError bounds the deviation from orthogonality of every pair; arrays of wrong sizes are refused.", "quantifier": "all orthogonal bases, fields", "why_tests_cant": "Real-valued identity.", "anchors": ["src/prdc/cpu/FieldBasisConverter.tpp"]}
{"id": "C63", "title": "Film mask generation", "statement": "A generated film mask has values strictly between 0 and 1, depends only on the normal coordinate, is reflection symmetric about mid-film, exceeds one half exactly inside the film, is invariant under every accepted space group, its derivative with respect to the cell length is the one used in the stress, and normalVecId outside [0,D) is rejected.", "quantifier": "all meshes and thicknesses", "why_tests_cant": "Real-valued and index ranges.", "anchors": ["src/rpc/environment/FilmFieldGenMask.tpp: compute", "src/prdc/environment/FilmFieldGenMaskBase.tpp: readParameters"]}
{"id": "C64", "title": "Film lattice compatibility", "statement": "Accepted lattices have walls perpendicular to the film normal, flexible parameters are only ever turned off, and changing only parameters that remain flexible keeps the walls perpendicular and, without a bulk free energy, the film thickness fixed.", "quantifier": "all lattices, normals and flag arrays", "why_tests_cant": "All real bases and flag arrays.", "anchors": ["src/prdc/environment/FilmFieldGenMaskBase.cpp: checkLatticeVectors, modifyFlexibleParams"]}
{"id": "C65", "title": "Mix-and-match environments", "statement": "Any environment with a mask generator and/or an external-field generator in either order can be read, and after any history of changes of the unit cell and the wall interactions, a successful generate() leaves the mask and external fields of the current cell and walls; needsUpdate() false means that the fields are up to date.", "quantifier": "all generator combinations and histories of generate calls", "why_tests_cant": "All histories.", "anchors": ["src/pscf/environment/MixAndMatchEnvTmpl.tpp"]}
{"id": "C66", "title": "Dimension option parsing", "statement": "getDimension returns D for -d D and -dD with D in {1,2,3} wherever the option occurs, and raises an error otherwise.", "quantifier": "all argument vectors", "why_tests_cant": "Unbounded argument lists.", "anchors": ["src/prdc/crystal/getDimension.cpp"]}
{"id": "C67", "title": "Text round trip of enumerations and parameters", "statement": "Every ensemble, polymer type, lattice system, sweep/ramp parameter and symmetry value that can be written is read back as the same value.", "quantifier": "all enumeration values and parameter ids", "why_tests_cant": "Covers every value including the ones never used in tests.", "anchors": ["src/pscf/chem/Species.cpp", "src/prdc/crystal/UnitCell2.cpp", "src/rpc/fts/ramp/RampParameter.tpp", "src/rpc/scft/sweep/SweepParameter.tpp"]}
{"id": "C68", "title": "Field comparison", "statement": "FieldComparison reports zero iff the fields are equal, is symmetric, and the rms difference never exceeds the maximum difference.", "quantifier": "all fields of any size", "why_tests_cant": "Real-valued fields.", "anchors": ["src/pscf/math/FieldComparison.tpp"]}
{"id": "C69", "title": "DFT half mesh covers all waves", "statement": "Every wave of the full DFT mesh is on the half mesh or its inverse is, and exactly the waves flagged with an implicit inverse represent two waves.", "quantifier": "all D and meshes", "why_tests_cant": "All mesh shapes, odd and even.", "anchors": ["src/prdc/cpu/FFT.tpp: computeKMesh", "src/prdc/cpu/FFT.h: hasImplicitInverse", "src/prdc/cpu/WaveList.tpp"]}
{"id": "C70", "title": "Command script semantics", "statement": "Commands of a script are executed in order until FINISH, an unknown command, the end of the file, an exception or a failed iteration; nothing after that point has any effect, malformed arguments raise an error, and the interpreter ends on every file.", "quantifier": "all command scripts", "why_tests_cant": "Unbounded scripts.", "anchors": ["src/prdc/system/SystemTmpl.tpp: readCommands"]}
{"id": "C71", "title": "Thermodynamic identities", "statement": "Adding a constant to all w fields leaves the canonical Helmholtz free energy unchanged, and pressure = sum(mu*phi/N) - fHelmholtz.", "quantifier": "all mixtures and fields", "why_tests_cant": "Real-valued identities.", "anchors": ["src/prdc/system/ScftThermoTmpl.tpp: compute"]}
{"id": "C72", "title": "Debye functions", "statement": "The small-argument branches of the Debye functions agree with the closed form to the claimed order.", "quantifier": "all wavenumbers", "why_tests_cant": "Continuity claim at an irrationally small threshold.", "anchors": ["src/pscf/chem/Debye.cpp"]}
{"id": "C73", "title": "Reductions", "statement": "sum, max, min, maxAbs, minAbs and innerProduct return the mathematical value for every non-empty array.", "quantifier": "all arrays", "why_tests_cant": "Unbounded size.", "anchors": ["src/prdc/cpu/Reduce.cpp"]}
{"id": "C74", "title": "Parameter changes invalidate results", "statement": "Changing chi, statistical segment lengths, volume fractions or block lengths through the system never leaves concentration or free-energy data reported as current.", "quantifier": "every sequence of parameter changes and computations", "why_tests_cant": "All histories.", "anchors": ["src/rpc/fts/ramp/RampParameter.tpp: set_", "src/prdc/solvers/MixtureModifierPrdc.tpp", "src/prdc/system/SystemTmpl.tpp"]}
{"id": "C75", "title": "Sweep history", "statement": "After any number of accepted sweep states, state(k) and s(k) are the solution and path value accepted k steps before the latest one, for every k below the history size, which is the smaller of the number of accepted states and the capacity.", "quantifier": "every number of accepted states and every history capacity", "why_tests_cant": "The pointer rotation must be right for all histories, including after wrap-around.", "anchors": ["src/pscf/sweep/SweepTmpl.tpp: accept, initialize"]}
{"id": "C76", "title": "Basis functions span exactly the symmetric fields", "statement": "makeBasis divides the waves of the mesh into orbits of the space group, marks an orbit as cancelled exactly when every invariant field vanishes on it, and gives every other orbit coefficients for which the basis function is normalised, real (or conjugate to that of its partner) and invariant under every operation of the group; every invariant field is a unique linear combination of these functions.", "quantifier": "all valid space groups, meshes compatible with them, and wavevectors", "why_tests_cant": "Infinitely many groups and meshes; tests compare particular bases with reference files.", "anchors": ["src/prdc/crystal/Basis.tpp: makeStars"]}
{"id": "C77", "title": "Block exponentials are current", "statement": "Whatever sequence of allocate, setLength, setKuhn, clearUnitCellData and setupSolver calls a block receives, when the solver runs its cached k-space exponentials are those of the current contour step, statistical segment length and unit cell.", "quantifier": "all histories of calls on a block", "why_tests_cant": "The cache flag depends on the whole history of parameter and unit cell changes; tests exercise a few orders.", "anchors": ["src/rpc/solvers/Block.tpp: allocate, setLength, setKuhn, clearUnitCellData, computeExpKsq, setupSolver"]}
{"id": "C78", "title": "Real Fourier transforms are inverse", "statement": "For every mesh, inverseTransform undoes forwardTransform on every real field, and forwardTransform undoes inverseTransform on every set of half-mesh coefficients that belongs to a real field.", "quantifier": "all mesh dimensions, fields and coefficient arrays", "why_tests_cant": "A unit test checks a few meshes; the half-mesh storage rule must work for every even and odd dimension.", "anchors": ["src/prdc/cpu/FFT.tpp: forwardTransform, inverseTransformUnsafe, inverseTransformSafe"]}
{"id": "C79", "title": "Exact propagation in homogeneous fields", "statement": "In a homogeneous field the solver is exact: each contour step multiplies the coefficient of every wave by exp(-ds(w + b^2 k^2/6)) (thread) or each bead and bond by exp(-w - b^2 k^2/6) (bead), for every step size, number of steps, mesh and initial condition.", "quantifier": "all step sizes, fields, meshes, initial conditions and numbers of steps", "why_tests_cant": "Tests compare one mesh and one wave with a tolerance.", "anchors": ["src/rpc/solvers/Block.tpp: computeExpKsq, setupSolver, stepThread, stepBead, stepHalfBondBead"]}
{"id": "C80", "title": "Metropolis and force-bias detailed balance", "statement": "Monte-Carlo moves are accepted with a probability that satisfies detailed balance for the weight exp(-H), with the bias correction of force-bias moves included.", "quantifier": "all pairs of states, step sizes and forces", "why_tests_cant": "An acceptance rule is a statement about all pairs of states; tests only look at averages of one run.", "anchors": ["src/rpc/fts/montecarlo/McMove.tpp: move", "src/rpc/fts/montecarlo/ForceBiasMove.tpp: move", "src/rpc/fts/montecarlo/McSimulator.tpp"]}
{"id": "C81", "title": "Saddle points of the simulation Hamiltonian are SCFT solutions", "statement": "All functional derivatives Dc vanish at an incompressible point exactly when the fields satisfy the SCFT equations for some pressure, and there the simulation Hamiltonian equals the SCFT free energy times the number of monomers.", "quantifier": "all mixtures, chi matrices, fields and concentrations", "why_tests_cant": "Identity between two independently coded functionals over all inputs.", "anchors": ["src/rpc/fts/simulator/Simulator.tpp: computeDc, computeHamiltonian", "src/prdc/system/ScftThermoTmpl.tpp: compute"]}
{"id": "C82", "title": "Homogeneous fields reproduce Flory-Huggins", "statement": "For uniform fields every polymer and solvent has the exact partition function and uniform concentrations, and the computed free energy equals that of Flory-Huggins theory for the same composition.", "quantifier": "all block polymers, discretisations, fields and compositions", "why_tests_cant": "Exact agreement of two separate implementations for every mixture.", "anchors": ["src/rpc/solvers/Mixture.tpp", "src/prdc/system/ScftThermoTmpl.tpp: compute", "src/pscf/floryHuggins/Mixture.cpp"]}
{"id": "C83", "title": "Field file headers", "statement": "A field file header written by FieldIo is read back with the same version, lattice, group name, number of monomers and symmetry flag and with the printed cell parameters, leaving the rest of the file in the stream. A header cut off before its end is rejected, and an accepted header has the declared lattice and group.", "quantifier": "all headers, all prior values of the caller's variables, all following file contents, all truncation points", "why_tests_cant": "Round trips hold for every header, and truncation must be rejected at every item and for every value left in uninitialised variables.", "anchors": ["src/prdc/field/fieldIoUtil.tpp: readFieldHeader, writeFieldHeader", "src/prdc/crystal/unitCellHeader.h", "src/prdc/field/FieldIoTmpl.tpp: readFieldHeader, writeFieldHeader"]}
{"id": "C84", "title": "Concentrations are derivatives of the free energy", "statement": "In the bead model the concentrations computed for the blocks of a polymer are the exact functional derivatives of -(phi/nBead) ln Q with respect to the fields of the blocks, at any discretisation, so that a converged field is a stationary point of the discretised free energy.", "quantifier": "all branched bead polymers, meshes, fields and directions of change of the fields", "why_tests_cant": "Derivatives in every direction at every field; tests compare one concentration profile with a reference.", "anchors": ["src/rpc/solvers/Block.tpp: computeConcentrationBead", "src/rpc/solvers/Polymer.tpp: compute", "src/pscf/solvers/PolymerTmpl.tpp: solve"]}
{"id": "C85", "title": "Stress is the derivative of the free energy", "statement": "In the bead model the stress computed for a unit cell parameter is the derivative of -(phi/nBead) ln Q with respect to that parameter at fixed fields, summed over polymers; the stress of a homogeneous state is zero in both models.", "quantifier": "all branched bead polymers, meshes, fields, unit cells and parameters", "why_tests_cant": "A derivative identity over all fields and cells; tests compare the stress with a finite difference in a few cases.", "anchors": ["src/rpc/solvers/Block.tpp: computeStressBead, computeStressThread", "src/rpc/solvers/Polymer.tpp: computeStress", "src/prdc/solvers/MixturePrdc.tpp: computeStress", "src/prdc/cpu/WaveList.tpp: computedKSq", "src/prdc/cpu/FFT.h: hasImplicitInverse"]}
{"id": "C86", "title": "Material conservation in one dimension", "statement": "In the one-dimensional finite difference code the partition function is the same whichever block and direction it is computed from, and the spatial average of the concentration of each block is exactly phi times its share of the contour length, in planar, cylindrical and spherical geometry with or without an inner radius. Spatial averages preserve constants and bounds, and solvents average to their volume fraction.", "quantifier": "all branched polymers, geometries, grids with two or more points, contour discretisations and fields", "why_tests_cant": "An identity of weighted sums for all fields and grids, linking the quadrature weights to the boundary rows of the matrices; tests use a tolerance on few grids.", "anchors": ["src/r1d/domain/Domain.cpp", "src/r1d/solvers/Block.cpp: setupSolver, step, computeConcentration", "src/r1d/solvers/Propagator.cpp", "src/r1d/solvers/Polymer.cpp", "src/r1d/solvers/Solvent.cpp: compute", "src/pscf/math/TridiagonalSolver.cpp"]}
{"id": "C87", "title": "Well-posed steps in one dimension", "statement": "Every Crank-Nicolson step of the one-dimensional code solves a system with positive pivots when 1 + ds w/2 is positive, leaves uniform propagators uniform in uniform fields with the factor (1 - ds w/2)/(1 + ds w/2), and keeps propagators, partition function and concentrations positive when the step is small against the square of the grid spacing. Every block has an odd number of at least three contour points.", "quantifier": "all geometries, grids, fields, steps, polymers and contour lengths", "why_tests_cant": "Absence of zero pivots and positivity must hold for every field and grid.", "anchors": ["src/r1d/solvers/Block.cpp: setDiscretization, setLength, setupSolver, step", "src/pscf/math/TridiagonalSolver.cpp: gaussElimination, solve"]}
{"id": "C88", "title": "Thread model converges at fourth order", "statement": "On a fixed mesh, as the numbers of contour steps grow, all propagators, the partition function and the block concentrations of a thread polymer converge to those of the exact solution of the modified diffusion equation with the spectral Laplacian, with an error of at most a constant times the sum over blocks of the inverse fourth power of the number of steps. The exact problem has exactly one solution for every polymer accepted by the reader.", "quantifier": "all branched polymers, meshes, fields, block lengths, segment lengths and numbers of contour steps", "why_tests_cant": "An order of convergence is a statement about the limit of infinitely many steps; tests compare a few step sizes with a tolerance.", "anchors": ["src/rpc/solvers/Block.tpp: setupUnitCell, setupSolver, stepThread, computeConcentrationThread", "src/rpc/solvers/Propagator.tpp: solve, computeQ", "src/rpc/solvers/Polymer.tpp: compute", "src/pscf/solvers/PolymerTmpl.tpp: solve"]}
{"id": "C89", "title": "Thread concentrations converge to derivatives of the free energy", "statement": "In the thread model, as the numbers of contour steps grow, the computed block concentrations converge at fourth order to the functional derivatives, with respect to the fields of the blocks, of -(phi/length) ln Q of the exact problem (modified diffusion equation with the spectral Laplacian).", "quantifier": "all branched polymers, meshes, fields, directions of change of the fields, block and segment lengths, numbers of contour steps", "why_tests_cant": "A limit of derivatives in every direction at every field; tests compare one concentration profile with a reference.", "anchors": ["src/rpc/solvers/Block.tpp: computeConcentrationThread", "src/rpc/solvers/Polymer.tpp: compute", "src/pscf/solvers/PolymerTmpl.tpp: solve"]}
{"id": "C90", "title": "Thread stress converges to the derivative of the free energy", "statement": "In the thread model, as the numbers of contour steps grow, the stress computed for a unit cell parameter converges at fourth order to the derivative, with respect to that parameter at fixed fields, of -(phi/length) ln Q of the exact problem.", "quantifier": "all branched polymers, meshes, fields, unit cells and parameters, block and segment lengths, numbers of contour steps", "why_tests_cant": "A limit of derivatives over all fields and cells; tests compare the stress with a finite difference in a few cases, with a tolerance.", "anchors": ["src/rpc/solvers/Block.tpp: computeStressThread", "src/rpc/solvers/Polymer.tpp: computeStress", "src/prdc/solvers/MixturePrdc.tpp: computeStress", "src/prdc/cpu/WaveList.tpp: computedKSq", "src/prdc/cpu/FFT.h: hasImplicitInverse"]}
{"id": "C91", "title": "Monomer conservation in a mixture", "statement": "MixturePrdc::compute does not throw for a mixture accepted by the reader, keeps the volume fractions of closed species, and the spatial average of the concentration field of each monomer type is the unmasked volume fraction times the sum over species of phi times the share of that type in the species; the sum over types is the unmasked fraction times the sum of all phi.", "quantifier": "all mixtures of branched polymers and solvents, both polymer models, closed and open ensembles, meshes, fields and masks", "why_tests_cant": "An identity over all fields and mixtures; tests check one sum with a tolerance.", "anchors": ["src/prdc/solvers/MixturePrdc.tpp: compute", "src/rpc/solvers/Polymer.tpp: compute", "src/rpc/solvers/Solvent.tpp: compute", "src/pscf/chem/Species.cpp: setQ"]}
{"id": "C92", "title": "First law: stress and explicit derivatives of the free energy", "statement": "For mixtures of bead polymers and solvents, along any smooth change of fields, unit cell, interaction parameters and external fields, the derivative of fHelmholtz minus the work of open species is the stress plus the explicit derivatives (average of c_i c_j for chi_ij, c_i for h_i) minus a term that vanishes at a solution of the SCFT equations. So at a converged solution the stress is the derivative of fHelmholtz (all closed) or of minus the pressure (all open) with respect to the unit cell parameter.", "quantifier": "all mixtures, ensembles, meshes, fields, masks, unit cells, chi matrices and external fields", "why_tests_cant": "An envelope theorem about derivatives over all directions in field space, linking solver, stress and thermodynamics; tests compare finite differences in a few cases.", "anchors": ["src/prdc/solvers/MixturePrdc.tpp: compute, computeStress", "src/prdc/system/ScftThermoTmpl.tpp: compute", "src/rpc/solvers/Block.tpp: computeStressBead", "src/rpc/solvers/Solvent.tpp: compute", "src/pscf/chem/Species.cpp: setQ", "src/prdc/cpu/WaveList.tpp: computedKSq"]}
{"id": "C93", "title": "GPU reductions are exact for every schedule", "statement": "The GPU functions sum, innerProduct, max, maxAbs, min and minAbs return the sum, inner product or extremum of the array, whatever its size, the thread block size, and the order in which the threads of a block access shared memory between barriers.", "quantifier": "all arrays, block sizes, devices and interleavings of threads", "why_tests_cant": "The number of interleavings is astronomical and hardware explores only a few of them; the size must be arbitrary.", "anchors": ["src/prdc/cuda/Reduce.cu: sum, innerProduct, max, maxAbs, min, minAbs and kernels", "src/pscf/cuda/ThreadArray.cu: setThreadsLogical, setThreadsPerBlock"]}
{"id": "C94", "title": "One-dimensional execution configurations", "statement": "After any history of calls of ThreadArray, a request for n threads gives a block size that is a power of two and a multiple of the warp size, and the least number of blocks that provides n threads; the flag for unused threads is exact. Values that cannot be used are rejected with an exception.", "quantifier": "all histories of calls, numbers of threads and devices", "why_tests_cant": "The static variables cache earlier requests, so correctness depends on the entire history.", "anchors": ["src/pscf/cuda/ThreadArray.cu: setThreadsPerBlock, setThreadsLogical, checkExecutionConfig"]}
{"id": "C95", "title": "Multidimensional execution configurations", "statement": "After any history of calls of ThreadMesh, a request for a mesh of positive dimensions, with default block size or a power of two of at least one warp, succeeds, and then the block dimensions are powers of two, a block is a whole number of warps with z-dimension at most 64, and every mesh point is handled by exactly one thread; no block is superfluous.", "quantifier": "all meshes of one to three dimensions, both index orders, block sizes, devices and histories of calls", "why_tests_cant": "The algorithm searches block shapes with nested loops and caches the previous request; meshes and histories are unbounded.", "anchors": ["src/pscf/cuda/ThreadMesh.cu: setConfig, setThreadsPerBlock, checkConfig, init"]}
{"id": "C96", "title": "Vector operations on the GPU act elementwise", "statement": "Each vector operation on the GPU gives, for every number of threads and every interleaving, the operation applied to each element of the initial arrays, changes no other memory, and stays within the arrays; also in place, if source and result are the same range.", "quantifier": "all sizes, offsets, numbers of threads, contents and interleavings of threads", "why_tests_cant": "Requires absence of races over all schedules and all relative positions of the arrays.", "anchors": ["src/prdc/cuda/VecOp.cu: kernels and wrappers", "src/prdc/cuda/VecOpMisc.cu: mulVVPair, mulEqVPair, addVMany, mulVMany, sqNormV"]}
{"id": "C97", "title": "The GPU solver computes what the CPU solver computes", "statement": "For every polymer that is read and every solvent, in the thread and the bead model, the GPU programs compute the same partition function, block concentrations and stress as the CPU programs, for every device, thread block size and interleaving of the threads of each kernel, with batched transforms or without.", "quantifier": "all polymers, fields, meshes, devices, memory layouts and schedules of threads", "why_tests_cant": "Two implementations have to agree on all inputs, one of them for all interleavings of threads; tests compare a few states on one device.", "anchors": ["src/rpg/solvers/Block.tpp: setupSolver, computeExpKsq, stepThread, stepBead, computeConcentrationThread, computeConcentrationBead, computeStressThread, computeStressBead", "src/rpg/solvers/Propagator.tpp: computeHead, solve, computeQ", "src/rpg/solvers/Polymer.tpp: compute, computeStress", "src/rpg/solvers/Solvent.tpp: compute", "src/prdc/cuda/FFT.tpp", "src/prdc/cuda/FFTBatched.tpp"]}
{"id": "C98", "title": "Every slice of a GPU propagator is computed", "statement": "After solve() or solve(head) of a propagator on the GPU, every slice from head to tail has the value that the CPU program computes; no slice is left with previous contents of memory.", "quantifier": "all polymers, slices, heads, memory contents and schedules of threads", "why_tests_cant": "Uninitialised or stale memory often has harmless values in a test; the property is about all previous contents.", "anchors": ["src/rpg/solvers/Propagator.tpp: solve(), solve(head)", "src/rpc/solvers/Propagator.tpp: solve(), solve(head)"]}
{"id": "C99", "title": "Iterator vectors represent fields and flexible cell parameters without loss", "statement": "Packing the fields and flexible unit cell parameters into the vector of the Anderson-mixing iterator and updating the system from that vector restores them; different states of a grand canonical system give different vectors; rigid parameters never change; in the canonical ensemble an update changes only the spatial average of each field, to that of chi c plus the external field.", "quantifier": "all numbers of monomers, mesh or basis sizes, flexible subsets of cell parameters, ensembles, fields and vectors", "why_tests_cant": "Index arithmetic over arbitrary sizes and arbitrary subsets of flexible parameters; tests use one or two subsets.", "anchors": ["src/rpc/scft/iterator/AmIteratorGrid.tpp: nElements, getCurrent, update", "src/rpc/scft/iterator/AmIteratorBasis.tpp: nElements, getCurrent, update", "src/rpg/scft/iterator/AmIteratorGrid.tpp: nElements, getCurrent, update", "src/rpg/scft/iterator/AmIteratorBasis.tpp: nElements, getCurrent, update"]}
{"id": "C100", "title": "Reported convergence means the SCFT equations hold", "statement": "If an SCFT iterator returns 0, the fields and concentrations of the system belong together and there is a pressure field for which every field equation, the incompressibility (or mask) condition and the stress condition for each flexible parameter hold within the tolerance of the selected error measure; in the canonical ensemble, after at least one step, without additive constants for a closed mixture. Exact solutions are accepted unchanged.", "quantifier": "all problems, solvers of the modified diffusion equation, initial states, error types, tolerances, histories and numbers of iterations", "why_tests_cant": "The residual is formed with a projection and shifted averages, so a small residual does not visibly mean that the equations hold; has to be shown for all fields.", "anchors": ["src/rpc/scft/iterator/AmIteratorGrid.tpp: getResidual, update", "src/rpc/scft/iterator/AmIteratorBasis.tpp: getResidual, update", "src/rpg/scft/iterator/AmIteratorGrid.tpp: getResidual", "src/rpg/scft/iterator/AmIteratorBasis.tpp: getResidual", "src/pscf/iterator/AmIteratorTmpl.tpp: solve, computeError", "src/prdc/system/SystemTmpl.tpp: compute"]}
{"id": "C101", "title": "Order parameters of simulations", "statement": "FourthOrderParameter is the fourth root of the sum of |W(G)|^4 over the pairs {G,-G} of nonzero wavevectors, each pair counted once; MaxOrderParameter is the greatest |W(G)|^2 of the nonzero wavevectors of the entire mesh, and the reported wavevector attains it. Both for the present unit cell.", "quantifier": "all meshes, unit cells, fields and numbers of earlier simulations", "why_tests_cant": "Depends on ties between images on the zone boundary and on pairs within the stored half of the transform, so on the mesh and the cell; a test covers one mesh.", "anchors": ["src/rpc/fts/analyzer/FourthOrderParameter.tpp: compute, computePrefactor, setup", "src/rpc/fts/analyzer/MaxOrderParameter.tpp: compute"]}
{"id": "C102", "title": "Simulations in one program run are independent", "statement": "For every history of SIMULATE and ANALYZE commands, the next command runs to the end and leaves the same output files as it would in a new program run (with data files that are not reopened unaffected).", "quantifier": "all sets of analyzers, moves, steps and perturbations, block sizes, intervals and histories of commands", "why_tests_cant": "State left by one command may disturb a later one; a property of all histories.", "anchors": ["src/rpc/fts/analyzer/AverageAnalyzer.tpp: setup, sample, output", "src/rpc/fts/analyzer/AverageListAnalyzer.tpp: setup, sample, output", "src/rpc/fts/analyzer/AnalyzerManager.tpp", "src/rpc/fts/analyzer/BinaryStructureFactorGrid.tpp: setup", "src/rpc/fts/perturbation/EinsteinCrystalPerturbation.tpp: setup", "src/rpg/fts/brownian/ExplicitBdStep.tpp: setup", "src/rpg/fts/montecarlo/ForceBiasMove.tpp: setup", "src/rpc/fts/trajectory/TrajectoryWriter.tpp"]}
{"id": "C103", "title": "Averages and block averages are those of the trajectory", "statement": "After a simulation, the average file of an analyzer has the mean of the values at the steps that are multiples of its interval; line b of its data file has the step at which block b begins and the mean of the values of that block, blocks being consecutive and disjoint; if the blocks use all samples the mean of the data file is the average.", "quantifier": "all values, intervals, block sizes, lengths of simulations and combinations of analyzers", "why_tests_cant": "A property of all sequences of sampled values and all block sizes, including incomplete blocks; tests run a few steps.", "anchors": ["src/rpc/fts/analyzer/AverageAnalyzer.tpp: setup, sample, output, outputValue", "src/rpc/fts/analyzer/AverageListAnalyzer.tpp: setup, sample, output", "src/rpc/fts/analyzer/Analyzer.tpp: isAtInterval"]}
{"id": "C104", "title": "Analysing a trajectory replays the printed fields", "statement": "ANALYZE on a trajectory written by TrajectoryWriter shows the analyzers exactly the fields of frames min..max, in order, rounded as printed, for the unit cell of the header; a quantity that is a function of the fields has the same average and block averages as during the simulation. If the file was cut at any place the analyzers see the frames of an initial part of the trajectory, including all complete ones, and never other fields.", "quantifier": "all dimensions, meshes, numbers of monomers, fields, lengths of trajectories, ranges of frames, places of a cut and previous contents of the fields", "why_tests_cant": "A killed simulation can cut the file at any byte, and the parser mixes line- and item-based input; tests read complete files of one mesh.", "anchors": ["src/rpc/fts/analyzer/TrajectoryWriter.tpp: setup, writeHeader, sample, writeFrame", "src/rpc/fts/trajectory/RGridTrajectoryReader.tpp: open, readHeader, readFrame", "src/rpc/fts/montecarlo/McSimulator.tpp: analyze", "src/rpc/fts/brownian/BdSimulator.tpp: analyze", "src/prdc/field/fieldIoUtil.tpp: readRGridData, writeRGridData"]}
{"id": "C105", "title": "Derivative analyzers report derivatives of the free energy", "statement": "ChiDerivative reports at every step the derivative with respect to chi_AB of the Hamiltonian plus the field normalisation (nMonomer/2) ln chi, at fixed fields; ConcentrationDerivative that with respect to the monomer concentration, with or without Einstein-crystal perturbation. The average over the Boltzmann distribution of such a derivative is the derivative of the free energy, which is what thermodynamic integration uses.", "quantifier": "all fields, pressures, chi matrices, system sizes, states of ramps and distributions", "why_tests_cant": "The reported number is a formula; that it is a derivative of the Hamiltonian, for all fields and interaction matrices, is a theorem of calculus and not observable from one value.", "anchors": ["src/rpc/fts/analyzer/ChiDerivative.tpp: compute", "src/rpc/fts/analyzer/ConcentrationDerivative.tpp: compute", "src/rpc/fts/analyzer/PerturbationDerivative.tpp: compute", "src/rpc/fts/simulator/Simulator.tpp: computeHamiltonian", "src/rpc/fts/perturbation/EinsteinCrystalPerturbation.tpp: hamiltonian"]}
{"id": "C106", "title": "A Monte-Carlo simulation samples the Boltzmann distribution", "statement": "For any mixture of real moves and force bias moves with any probabilities, step sizes and mobilities, the process of states generated by McSimulator is reversible for the density exp(-H) on the fields for which the compressor converges, which therefore is stationary after any number of steps; this holds also with forces that are not the gradient of H. The states shown to the analyzers have the same distribution.", "quantifier": "all Hamiltonians, forces, sets of convergent fields, sizes, moves, probabilities, numbers of steps and observables", "why_tests_cant": "A statement about the probability law of the process; a finite sample from a random generator can neither prove nor refute it.", "anchors": ["src/rpc/fts/montecarlo/McSimulator.tpp: simulate", "src/rpc/fts/montecarlo/McMoveManager.tpp: readParameters, chooseMove", "src/rpc/fts/montecarlo/McMove.tpp: move", "src/rpc/fts/montecarlo/RealMove.tpp: attemptMove", "src/rpc/fts/montecarlo/ForceBiasMove.tpp: move, attemptMove"]}
{"id": "C107", "title": "One-dimensional iterators: reported convergence means the SCFT equations hold", "statement": "When solve of an iterator of the one-dimensional program returns 0, the concentrations are those of the final fields, for some pressure field each field equals chi times the concentrations plus pressure within the tolerance at every grid point, and the concentrations add up to one at every grid point within a stated multiple of the tolerance. The Newton-Raphson iterator never increases the norm of its residual, and after failure its fields and concentrations are consistent.", "quantifier": "for all numbers of monomers and grid points, all interactions, all maps from fields to concentrations, all linear solvers, initial fields, histories, tolerances and iteration limits", "why_tests_cant": "The equations must hold for any field map and any sequence of accepted, reduced, reversed and rejected steps; a test sees a few polymers that converge and never a Newton step that overflows, an open solvent, or a reduced relaxation step.", "anchors": ["src/r1d/iterator/NrIterator.cpp:80-366", "src/r1d/iterator/BinaryRelaxIterator.cpp:71-254", "src/r1d/iterator/AmIterator.cpp:80-190"]}
{"id": "C108", "title": "One-dimensional program: printed free energies and the comparison with a homogeneous phase", "statement": "After ITERATE the printed Helmholtz free energy and pressure are the formulas of SCFT for the printed volume fractions and chemical potentials; in uniform fields the polymer partition function is that of the Crank-Nicolson scheme, within second order in the contour step of the exact one. COMPARE_HOMOGENEOUS reports a homogeneous phase with the same composition (mode 0) or the same chemical potentials (modes 1, 2), its free energy, and differences that vanish for a uniform system. What WRITE_THERMO prints belongs to the current fields.", "quantifier": "all geometries, polymers, fields, interactions, compositions, step sizes and sequences of commands", "why_tests_cant": "An identity between sums over all molecules and grid points, and a property of all sequences of commands; tests run one command file on one polymer blend.", "anchors": ["src/r1d/System.cpp: computeFreeEnergy, iterate, readCommands, writeThermo, readParameters", "src/r1d/misc/HomogeneousComparison.cpp: compute, output", "src/pscf/floryHuggins/Mixture.cpp: setComposition, computeMu, computePhi, computeFreeEnergy"]}
{"id": "C109", "title": "One-dimensional field files, change of mesh and extension", "statement": "A field file written by the one-dimensional program is read back into the same fields; a file that is for another mesh, or incomplete, is rejected. REMESH_W gives, on the new mesh, the piecewise linear interpolation of the fields: same end values, exact for linear functions, within the same bounds, and reversible when each interval is divided. EXTEND_W keeps all values and repeats the last one. The products of propagators printed for any vertex average to the partition function.", "quantifier": "all numbers of points and monomers, fields, previous contents, places where a file ends, geometries, polymers and vertices", "why_tests_cant": "A statement about every mesh size and every place at which a file may end; tests read one complete file.", "anchors": ["src/r1d/misc/FieldIo.cpp: readFields, writeFields, writeVertexQ, remesh, extend", "src/r1d/System.cpp: readCommands"]}
{"id": "C110", "title": "Swept and ramped parameters follow a straight path", "statement": "At every attempt of a sweep with path coordinate s, and at every step of a ramp, each listed parameter has the value it had at the start plus s times its change (s = step / number of steps for a ramp), all other parameters keep their values, chi stays symmetric and the segment lengths of blocks stay those of their monomers, whatever happened at rejected attempts before. The volume fractions keep their sum. After a ramp step the eigenvectors used by the simulator belong to the current chi.", "quantifier": "all lists of parameters, systems, ensembles, sequences of attempts and solutions, step numbers", "why_tests_cant": "The path must be right after any history of accepted and rejected steps and for any list of parameters; tests sweep one parameter without failures.", "anchors": ["src/rpc/scft/sweep/SweepParameter.tpp: get_, set_", "src/rpc/scft/sweep/LinearSweep.tpp: readParameters, setup, setParameters", "src/rpc/fts/ramp/RampParameter.tpp: get_, set_", "src/rpc/fts/ramp/LinearRamp.tpp: readParameters, setup, setParameters, output", "src/prdc/solvers/MixturePrdc.tpp: setKuhn"]}
{"id": "C111", "title": "Structure factors of a binary system", "statement": "For fields distributed according to the Hamiltonian of the simulator, the value that BinaryStructureFactorGrid computes for a wavevector is the structure factor of the molecules, (V/v^2) <|phi_A(k)|^2>. Each wave belongs to exactly one printed magnitude, printed magnitudes increase, and each printed value is the mean over the waves of that magnitude.", "quantifier": "all meshes, wavevectors, interaction matrices, pressure fields, ensembles of molecular configurations and lists of magnitudes", "why_tests_cant": "An identity between averages over two different ensembles, and a statement on any list of wave magnitudes with or without rounding differences; a test compares one short run with stored numbers.", "anchors": ["src/rpc/fts/analyzer/BinaryStructureFactorGrid.tpp: sample, computeStructureFactor, averageStructureFactor", "src/rpc/fts/simulator/Simulator.tpp: computeHamiltonian, analyzeChi"]}
{"id": "C112", "title": "Free energies do not depend on the representation of the fields", "statement": "For fields with the symmetry of the basis, the free energy, its parts and the pressure computed from components in the symmetry-adapted basis are equal to those computed from values on the grid: the inner product of component vectors is the average over the grid of the product of fields.", "quantifier": "all space groups, meshes, bases with normalised stars, fields, numbers of monomers, interactions and external fields", "why_tests_cant": "An orthonormality statement on every basis on every mesh; a test compares two floating point numbers for one structure.", "anchors": ["src/prdc/system/ScftThermoTmpl.tpp:115-245", "src/prdc/field/fieldIoUtil.tpp: convertBasisToKGrid, convertKGridToBasis", "src/prdc/crystal/Basis.tpp: makeStars"]}
{"id": "C113", "title": "Solutions move with the fields and inherit their symmetry", "statement": "If the chemical potential fields are moved by a mesh translation or by an operation of a space group compatible with cell and mesh, all concentrations and propagators computed by the mixture move in the same way, while partition functions, volume fractions, chemical potentials, free energy and pressure do not change. So the concentrations of symmetric fields are symmetric and lie in the span of the basis: coefficients of cancelled stars vanish and those within a star are determined by its root. Images of a solution of the SCFT equations are solutions.", "quantifier": "all mixtures (branched polymers, solvents, open and closed ensembles, thread and bead models), fields, meshes in any dimension, groups and translations", "why_tests_cant": "A statement about all fields and all operations; the regression tests see one structure at a time, in fields that are symmetric only up to rounding.", "anchors": ["src/rpc/solvers/Block.tpp: setupSolver, stepThread, stepBead, computeConcentrationThread, computeConcentrationBead", "src/rpc/solvers/Propagator.tpp: solve, computeQ", "src/rpc/solvers/Polymer.tpp: compute", "src/rpc/solvers/Solvent.tpp: compute", "src/prdc/solvers/MixturePrdc.tpp: compute", "src/prdc/system/ScftThermoTmpl.tpp: compute"]}
{"id": "C114", "title": "The symmetry-adapted basis loses nothing: a converged iteration in the basis solves the equations on the grid", "statement": "A field on the grid can be represented by components with respect to the basis if and only if it is invariant under all operations of the space group. Concentrations that the mixture solver computes on the grid from fields given by components are such fields, and converting them to components loses nothing. The residual vector of the iterator that works with components consists of the components of the residual of the iterator that works on the grid; it vanishes in one representation if and only if it does in the other. Hence when AmIteratorBasis reports convergence, the fields on the grid and the concentrations in these fields satisfy the self-consistent field equations at every grid point within a stated multiple of the tolerance.", "quantifier": "all space groups compatible with the mesh, all bases made of their stars, all meshes, numbers of monomer types, mixtures, masks, external fields, ensembles, error types and iteration histories", "why_tests_cant": "Unit tests compare one or two structures in both representations to a few digits; that no symmetric field is missed and that a residual without components has no part outside of the basis is a statement about all fields and groups.", "anchors": ["prdc/crystal/Basis.tpp:370-900", "prdc/field/fieldIoUtil.tpp:820-1021", "rpc/scft/iterator/AmIteratorBasis.tpp:203-254", "rpc/scft/iterator/AmIteratorGrid.tpp:208-271", "prdc/system/SystemTmpl.tpp:799-855"]}
{"id": "C115", "title": "The symmetry-adapted basis that makeBasis returns is valid, orthonormal, complete, and of the right number", "statement": "Whenever Basis<D>::makeBasis returns without throwing: the arrays satisfy every condition of isValid exactly; every non-cancelled star gives a normalised function; the waves of each star are the orbit of one wave with the phases that the group requires; a field on the mesh is a combination of the basis functions if and only if it is invariant under the group; nBasis() is the dimension of the space of invariant fields, so it depends only on the mesh and the set of group elements (not on the lattice parameters, the order of the group file or the order of waves); the first basis function is the constant 1.", "quantifier": "for all dimensions, meshes, compatible groups, unit cells, orders of waves of equal norm, and all fields", "why_tests_cant": "Tests build bases for a few standard groups and call isValid; whether the number of functions is right and whether every symmetric field is representable for every group and mesh cannot be enumerated.", "anchors": ["src/prdc/crystal/Basis.tpp:77-930", "src/prdc/crystal/Basis.tpp:932-1240"]}
{"id": "C116", "title": "makeBasis succeeds for every compatible group and mesh, with a result independent of unspecified sort order", "statement": "If the group is a group of operations that map the mesh onto itself and leave lengths unchanged, makeBasis never throws and never indexes outside an array, for every mesh, and the result is the same for every order in which std::sort leaves waves of equal norm. In one dimension this needs no condition on the cell; for orthogonal cells it needs only that distinct squared lengths differ by more than the tolerance.", "quantifier": "for all dimensions, mesh sizes, groups, cells, and all outcomes of std::sort", "why_tests_cant": "std::sort may order equivalent elements in any way and the failing checks depend on number-theoretic coincidences of group, mesh and metric; a finite set of test cells does not settle them.", "anchors": ["src/prdc/crystal/Basis.tpp:77-930", "src/prdc/crystal/shiftToMinimum.cpp:17-101", "src/prdc/crystal/TWave.h"]}
{"id": "C117", "title": "A DeviceArray never gives access to memory that is not allocated, and releases its memory exactly once", "statement": "For any history of construction, allocation, association (slices), dissociation, deallocation, assignment (device to device, host to device, device to host), element access and destruction of DeviceArray objects: cArray() either throws or returns a pointer to capacity() elements inside one allocated block; no memory is freed twice or leaked; distinct owning arrays share no element, a slice and its owner share exactly the elements requested; a slice whose owner was released or re-allocated throws instead of reading stale memory; assignment copies the values and host data survive a round trip.", "quantifier": "all histories of operations on any number of arrays and slices, all capacities and addresses cudaMalloc may return", "why_tests_cant": "Dangling slices, double frees and leaks depend on the order of allocations and on the addresses the allocator returns; a unit test sees a few orders and usually the same addresses.", "anchors": ["src/pscf/cuda/DeviceArray.h:205-470", "src/pscf/cuda/HostDArray.h:145-205"]}
{"id": "C118", "title": "The GPU wave list holds the same minimum images, squared wavenumbers and derivatives as the CPU wave list", "statement": "For every history of allocate, changes of unit cell parameters, computeMinimumImages, computeKSq and computedKSq, the GPU WaveList throws where the CPU WaveList throws and otherwise holds the same data: for each wavevector of the k-grid the minimum image that shiftToMinimum selects, its squared norm, and the derivatives of that norm including the factor for implicit inverses. The result does not depend on the order in which threads run, on the block size, or on how waves are distributed over blocks; for every cell the image is congruent to the wave and no searched image is shorter by more than a few tolerances; every launch has enough threads; minImages_h returns the images on the host.", "quantifier": "all dimensions, meshes, unit cells, block sizes, thread schedules and histories of calls", "why_tests_cant": "The reduction runs on 32 or 128 concurrent threads, whose order a test cannot control; the extra images that pad the search to a power of two matter only for special cells, and the thread count overflows only for large meshes.", "anchors": ["src/prdc/cuda/WaveList.tpp:31-414", "src/prdc/cuda/WaveList.tpp:443-707", "src/prdc/cpu/WaveList.tpp:50-206", "src/prdc/crystal/shiftToMinimum.cpp:17-101"]}
{"id": "C119", "title": "Fields are reported as equal only if they are equal, on the CPU and on the GPU", "statement": "Comparison of two sets of fields (COMPARE_BASIS, COMPARE_RGRID, and the comparison classes for real, complex and Fourier fields) reports as maxDiff the greatest distance between corresponding elements and as rmsDiff the root of their mean square; it reports zero only if the two sets have the same number of fields, the same sizes and the same values; sets of different shape are refused with an exception; a NaN is never reported as agreement; the CPU and the GPU version report the same differences.", "quantifier": "all numbers of fields, all sizes, all values including NaN", "why_tests_cant": "A test compares fields it knows to be close; a comparison that misses NaN, extra fields or a coefficient passes exactly when it is wrong, and every regression test relies on it.", "anchors": ["src/prdc/cpu/RFieldDftComparison.tpp:26-98", "src/prdc/cpu/CFieldComparison.tpp:26-98", "src/prdc/cuda/RFieldComparison.tpp:24-64", "src/prdc/cuda/RFieldDftComparison.tpp:27-101", "src/prdc/cuda/CFieldComparison.tpp:27-111", "src/prdc/field/FieldIoTmpl.tpp:727-741"]}
{"id": "C120", "title": "Brownian dynamics does what its algorithm says for every history, and the GPU simulation does what the CPU simulation does", "statement": "Leimkuhler-Matthews steps: after setup and any sequence of steps, of which any may fail because the compressor does not converge, the fields are those of the recurrence in which each step uses the noise of the last successful step and new noise; a failed step changes nothing; the composition fields are the initial ones minus mobility times the sum of the forces plus the noise, each inner random number counted twice with half of the amplitude. Predictor-corrector steps are Heun's scheme in the composition fields, start the last compression from the predicted pressure, and restore the fields on failure. The GPU code computes the same components, forces, Hamiltonian, perturbation, residual, moves, steps and bias as the CPU code from the same random numbers, and any number of simulations can be run in one program run.", "quantifier": "all numbers of monomer types and grid points, fields, random numbers, compressors, forces and histories of successes and failures", "why_tests_cant": "Failures of the compressor are rare and their order is not under control of a test; with random noise a wrong amplitude or an exchanged buffer is visible only in averages; GPU and CPU runs use different random numbers and cannot be compared directly.", "anchors": ["src/rpc/fts/brownian/LMBdStep.tpp:78-202", "src/rpc/fts/brownian/PredCorrBdStep.tpp:98-227", "src/rpg/fts/brownian/LMBdStep.tpp:82-207", "src/rpg/fts/brownian/PredCorrBdStep.tpp:79-223", "src/rpg/fts/brownian/ExplicitBdStep.tpp:66-148", "src/rpg/fts/montecarlo/ForceBiasMove.tpp:76-233", "src/rpg/fts/montecarlo/RealMove.tpp:63-117", "src/rpg/fts/simulator/Simulator.tpp:196-299", "src/rpg/fts/simulator/Simulator.tpp:470-568", "src/pscf/cuda/CudaRandom.cu:104-120"]}
{"id": "C121", "title": "Basis files can be exchanged between programs whose bases differ", "statement": "A file of symmetrised fields is read by the wave and size of each row, not by position. Rows in any order, written by a program with other cell parameters (other star order) or another mesh, put every amplitude in the star of the reader with the same characteristic wave; stars that the file does not contain get zero, rows of waves that the reader's mesh does not keep are ignored, and nothing of the old content remains. Rows beyond the number of basis functions of the reader are lost, a closed star named by another of its waves is dropped, and a last row of an open star (an edge star of a coarser mesh) makes the read fail.", "quantifier": "for all pairs of valid bases, meshes and cells, all fields and numbers of monomers, all rows and all old contents", "why_tests_cant": "Round-trip tests read a file with the basis that wrote it, so position and wave always agree.", "anchors": ["src/prdc/field/fieldIoUtil.tpp:455-702", "src/prdc/field/fieldIoUtil.tpp:732-764", "src/prdc/crystal/Basis.tpp:357-520"]}
{"id": "C122", "title": "A sweep writes converged solutions of the problems on its path, whatever attempts fail", "statement": "For every history of converged and failed attempts of a sweep (one-dimensional program), each solution that is written was obtained by a converged call of the solver with the parameters initial + s*change of its path coordinate s, in increasing order of s from 0. Its starting fields are the initial fields (first), the first solution (second), or the Lagrange extrapolation of the last two or three solutions, exact for polynomials; fields left by failed attempts are never used. After an exception the fields are those of the last solution and no solution is lost; the parameters, however, are those of the failed attempt. Lattice parameters are rejected.", "quantifier": "for all solvers (arbitrary functions of attempt, parameters and fields), parameter lists, initial systems, numbers of steps and histories of failures", "why_tests_cant": "Tests run a few sweeps in which all steps converge; backtracking, reset and the reuse of stored states interact over histories of any length.", "anchors": ["src/pscf/sweep/SweepTmpl.tpp:61-147", "src/pscf/sweep/SweepTmpl.tpp:199-246", "src/r1d/sweep/Sweep.cpp:89-186", "src/r1d/sweep/LinearSweep.cpp:21-74", "src/r1d/sweep/SweepParameter.cpp:58-229"]}
{"id": "C123", "title": "Fields of the CPU code behave as values and own their memory", "statement": "Real, complex and Fourier fields (RField, CField, RFieldDft) behave as independent values: after any sequence of constructions, copies, allocations, assignments, changes of elements, deallocations and destructions, including operations that throw, a copy or assignment gives the mesh and all elements of its source, a change of one field changes no other, a rejected operation (unallocated source, different mesh, dimension that is not positive, repeated allocation) changes nothing; no memory is shared, leaked, used after release or released twice.", "quantifier": "all histories of operations on any number of fields, all meshes, all values, all addresses that fftw_malloc may return", "why_tests_cant": "Double release and reads outside of an allocation need not have a visible effect in a test run, and depend on the order of operations on several objects; the tests of these classes never call deallocate.", "anchors": ["src/prdc/cpu/FftwDArray.tpp:23-73", "src/prdc/cpu/FftwDArray.h:98-103", "src/prdc/cpu/RField.tpp:22-115", "src/prdc/cpu/CField.tpp:22-112", "src/prdc/cpu/RFieldDft.tpp:23-127"]}
