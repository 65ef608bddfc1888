{
 "claims": [
  {
   "property": "C01",
   "status": "proved",
   "theorems": [
    "Verif.Mesh.C01_setDimensions_iff",
    "Verif.Mesh.C01_rank_position_bijection",
    "Verif.Mesh.C01_rank_lexicographic"
   ],
   "note": "All D (dimension lists of any length), all positions and ranks."
  },
  {
   "property": "C02",
   "status": "proved",
   "theorems": [
    "Verif.Mesh.C02_shift_coordinate",
    "Verif.Mesh.C02_shift_position"
   ],
   "note": "Per coordinate and for whole positions, with uniqueness of the shift."
  },
  {
   "property": "C03",
   "status": "proved",
   "theorems": [
    "Verif.Mesh.C03_iterator_state",
    "Verif.Mesh.C03_iterator_enumerates"
   ],
   "note": "State after n increments and the complete loop, from any stale state."
  },
  {
   "property": "C04",
   "status": "proved",
   "theorems": [
    "Verif.Mesh.C04_fortran_enumerates",
    "Verif.Mesh.C04_fortran_bijective"
   ],
   "note": "Complete loop in column-major order; visited points are distinct and exhaust the mesh."
  },
  {
   "property": "C05",
   "status": "proved",
   "theorems": [
    "Verif.FieldIo.C05_layout",
    "Verif.FieldIo.C05_rgrid_roundtrip",
    "Verif.FieldIo.C05_rgrid_read_sound",
    "Verif.FieldIo.C05_count_mismatch"
   ],
   "note": "Round trip, byte layout and converse (only the written section is accepted as these fields). Number formatting is assumed exact."
  },
  {
   "property": "C06",
   "status": "proved",
   "theorems": [
    "Verif.FieldIo.C06_kgrid_roundtrip",
    "Verif.FieldIo.C06_kgrid_labels_checked",
    "Verif.FieldIo.C06_kgrid_first_label"
   ],
   "note": "Round trip and rank labels; a complex value is one token."
  },
  {
   "property": "C07",
   "status": "partial",
   "theorems": [
    "Verif.Mesh.C07_text_roundtrip",
    "Verif.Mesh.C07_archive_roundtrip_partial",
    "Verif.Mesh.C07_archive_violated"
   ],
   "note": "Text round trip proved. Archive round trip is false for the code (C07_archive_violated): serialize visits dimensions_[0] D times and never the offsets or size. The partial theorem covers loading into an equal object."
  },
  {
   "property": "C08",
   "status": "proved",
   "theorems": [
    "Verif.Mesh.C08_intvec_total_order",
    "Verif.Mesh.C08_most_significant_first"
   ],
   "note": "Total lexicographic order, index 0 most significant."
  },
  {
   "property": "C09",
   "status": "proved",
   "theorems": [
    "Verif.Chem.C09_plan_valid_schedule",
    "Verif.Chem.C09_linear_is_tree"
   ],
   "note": "Every tree with any number of blocks and any vertex numbering; linear polymers are shown to be trees for every length."
  },
  {
   "property": "C10",
   "status": "partial",
   "theorems": [
    "Verif.Chem.C10_accepted_is_tree_partial",
    "Verif.Chem.C10_selfloop_rejected_partial",
    "Verif.Chem.C10_nontree_hangs",
    "Verif.Chem.C10_ring_hangs",
    "Verif.Chem.C10_out_of_range_ub",
    "Verif.Chem.C10_violated"
   ],
   "note": "False for the code: cyclic or disconnected block lists make plan building loop forever (C10_nontree_hangs, for all such lists) and ids out of range are undefined behaviour (C10_out_of_range_ub); C10_violated refutes the full statement. What holds: an accepted block list is a tree; a block joining a vertex to itself is rejected."
  },
  {
   "property": "C11",
   "status": "proved",
   "theorems": [
    "Verif.Chem.C11_solve_succeeds",
    "Verif.Chem.C11_check_exact",
    "Verif.Chem.C11_read_polymer_solves"
   ],
   "note": "For every valid schedule and initial flags; the readiness check is shown exact."
  },
  {
   "property": "C12",
   "status": "proved",
   "theorems": [
    "Verif.Chem.C12_path_first_step",
    "Verif.Chem.C12_vertex_iterator",
    "Verif.Chem.C12_iterator_ends"
   ],
   "note": "Path table and complete vertex iterator runs, for every accepted polymer."
  },
  {
   "property": "C13",
   "status": "proved",
   "theorems": [
    "Verif.Chem.C13_edge_iterator",
    "Verif.Chem.C13_same_block_rejected"
   ],
   "note": "Complete edge iterator runs, for every accepted polymer and pair of distinct blocks."
  },
  {
   "property": "C14",
   "status": "proved",
   "theorems": [
    "Verif.Chem.C14_read_decides",
    "Verif.Chem.C14_setPhi",
    "Verif.Chem.C14_ensemble_fixed",
    "Verif.Chem.C14_setMu",
    "Verif.Chem.C14_setQ_relation",
    "Verif.Chem.C14_phi_range",
    "Verif.Chem.C14_fresh",
    "Verif.Chem.C14_read_unchecked"
   ],
   "note": "All call histories, doubles as reals. Finding: phi read from file is not range checked (C14_read_unchecked)."
  },
  {
   "property": "C15",
   "status": "proved",
   "theorems": [
    "Verif.Chem.C15_locked_forever",
    "Verif.Chem.C15_setModel",
    "Verif.Chem.C15_nSet_counts",
    "Verif.Chem.C15_model_value"
   ],
   "note": "All call histories."
  },
  {
   "property": "C16",
   "status": "partial",
   "theorems": [
    "Verif.Inter.C16_coherent_partial",
    "Verif.Inter.C16_zero_chi_accepted",
    "Verif.Inter.C16_violated",
    "Verif.Inter.C16_failed_set_incoherent"
   ],
   "note": "All histories of successful setChi calls, exact arithmetic; LU inversion (GSL) assumed correct for n != 2. Violated for the zero 2x2 matrix (C16_zero_chi_accepted, C16_violated); a failed setChi leaves chi and chiInverse inconsistent (C16_failed_set_incoherent)."
  },
  {
   "property": "C17",
   "status": "proved",
   "theorems": [
    "Verif.Inter.C17_concentrations_sum",
    "Verif.Inter.C17_xi_agrees",
    "Verif.Inter.C17_fields_to_composition",
    "Verif.Inter.C17_xi_recovered",
    "Verif.Inter.C17_composition_to_fields",
    "Verif.Inter.C17_fHelmholtz",
    "Verif.Inter.C17_shift_invariance"
   ],
   "note": "All n, all matrices with nonzero total of the inverse, exact arithmetic."
  },
  {
   "property": "C18",
   "status": "proved",
   "theorems": [
    "Verif.Inter.C18_p_annihilates_shift",
    "Verif.Inter.C18_p_idempotent",
    "Verif.Inter.C18_residual_zero_iff",
    "Verif.Inter.C18_residual_shift_invariant",
    "Verif.Inter.C18_canonical_homogeneous",
    "Verif.Inter.C18_converged_iff"
   ],
   "note": "All n, all fields, masks, external fields, both ensembles, exact arithmetic."
  },
  {
   "property": "C19",
   "status": "proved",
   "theorems": [
    "Verif.Math.C19_multiply",
    "Verif.Math.C19_multiply_solve",
    "Verif.Math.C19_solve_correct",
    "Verif.Math.C19_solve_multiply",
    "Verif.Math.C19_dominant_pivots",
    "Verif.Math.C19_symmetric",
    "Verif.Math.C19_zero_pivot_needed"
   ],
   "note": "All sizes and matrices, exact arithmetic; nonzero pivots proved for diagonally dominant matrices."
  },
  {
   "property": "C20",
   "status": "proved",
   "theorems": [
    "Verif.Sweep.C20_terminates",
    "Verif.Sweep.C20_outcome",
    "Verif.Sweep.C20_no_failure_reaches_one",
    "Verif.Sweep.C20_negative_ns_diverges"
   ],
   "note": "All ns > 0, all base sweep outcomes and solver behaviours. Finding: ns is not range checked; a negative ns never terminates (C20_negative_ns_diverges)."
  },
  {
   "property": "C21",
   "status": "proved",
   "theorems": [
    "Verif.Sweep.C21_exact",
    "Verif.Sweep.C21_sum_one",
    "Verif.Sweep.C21_parameters",
    "Verif.Sweep.C21_interpolates"
   ],
   "note": "All history orders and step sizes, exact arithmetic: polynomials of degree up to the order are reproduced."
  },
  {
   "property": "C22",
   "status": "partial",
   "theorems": [
    "Verif.Sweep.C22_all_changed_partial",
    "Verif.Sweep.C22_first_extrapolation_partial",
    "Verif.Sweep.C22_one_unchanged_blocks",
    "Verif.Sweep.C22_violated"
   ],
   "note": "False for the code (C22_violated): newCellParams is cleared by the first parameter that does not change, so cell extrapolation is lost when any one parameter is unchanged (C22_one_unchanged_blocks). Proved when all parameters change."
  },
  {
   "property": "C23",
   "status": "proved",
   "theorems": [
    "Verif.AM.C23_return_code",
    "Verif.AM.C23_converged_input"
   ],
   "note": "Any system, linear solver, error norm and iterator history."
  },
  {
   "property": "C24",
   "status": "proved",
   "theorems": [
    "Verif.AM.C24_gram_matrix",
    "Verif.AM.C24_trial_orthogonal",
    "Verif.AM.C24_optimal",
    "Verif.AM.C24_linear_prediction",
    "Verif.AM.C24_paired_loop",
    "Verif.AM.C24_paired"
   ],
   "note": "Any sequence of solves; also orthogonality and optimality of the mixing coefficients, given a correct linear solver (GSL LU assumed)."
  },
  {
   "property": "C25",
   "status": "partial",
   "theorems": [
    "Verif.AM.C25_fresh_solve_partial",
    "Verif.AM.C25_empty_basis_trial",
    "Verif.AM.C25_continuation_reuses",
    "Verif.AM.C25_violated"
   ],
   "note": "False for continuations (C25_violated, C25_continuation_reuses): at the first iteration the kept basis is combined with the coefficients of the previous solve. Proved for all solves that are not continuations and for an empty basis."
  },
  {
   "property": "C26",
   "status": "proved",
   "theorems": [
    "Verif.FH.C26_monomer_fractions",
    "Verif.FH.C26_setComposition_complete",
    "Verif.FH.C26_setComposition_accepts",
    "Verif.FH.C26_gibbs",
    "Verif.FH.C26_helmholtz_value",
    "Verif.FH.C26_mu_is_derivative",
    "Verif.FH.C26_computePhi",
    "Verif.FH.C26_initialize_solvent",
    "Verif.FH.C26_initialize_content",
    "Verif.FH.C26_initialize_size"
   ],
   "note": "All mixtures and compositions, real arithmetic; the Newton solution vector is an arbitrary oracle."
  },
  {
   "property": "C27",
   "status": "proved",
   "theorems": [
    "Verif.Crystal.C27_normalize",
    "Verif.Crystal.C27_mul_assoc",
    "Verif.Crystal.C27_identity",
    "Verif.Crystal.C27_inverse",
    "Verif.Crystal.C27_action_positions",
    "Verif.Crystal.C27_action_waves",
    "Verif.Crystal.C27_mulVec"
   ],
   "note": "All D for product, identity and actions; inverse for D = 1, 2, 3."
  },
  {
   "property": "C28",
   "status": "proved",
   "theorems": [
    "Verif.Crystal.C28_inverse_rotation"
   ],
   "note": "All integer matrices in 1, 2 and 3 dimensions."
  },
  {
   "property": "C29",
   "status": "proved",
   "theorems": [
    "Verif.Crystal.C29_container_invariant",
    "Verif.Crystal.C29_add",
    "Verif.Crystal.C29_isValid_iff",
    "Verif.Crystal.C29_complete",
    "Verif.Crystal.C29_complete_terminates",
    "Verif.Crystal.C29_complete_diverges",
    "Verif.Crystal.C29_space_group",
    "Verif.Crystal.C29_shear_hangs",
    "Verif.Crystal.C29_unreduced_duplicate"
   ],
   "note": "Container over any symmetry type with the laws proved for SpaceSymmetry (C29_space_group). Findings: makeCompleteGroup never returns for elements of infinite order (C29_shear_hangs); unreduced symmetries passed to add create duplicates (C29_unreduced_duplicate). Calls of makeCompleteGroup that throw are not part of the histories."
  },
  {
   "property": "C30",
   "status": "proved",
   "theorems": [
    "Verif.Crystal.C30_inversion_center"
   ],
   "note": "All groups in all dimensions."
  },
  {
   "property": "C31",
   "status": "proved",
   "theorems": [
    "Verif.Crystal.C31_shift_mul",
    "Verif.Crystal.C31_shift_identity",
    "Verif.Crystal.C31_shift_back",
    "Verif.Crystal.C31_group_shift_back",
    "Verif.Crystal.C31_group_valid",
    "Verif.Crystal.C31_inversion_at_origin"
   ],
   "note": "All groups and rational origins."
  },
  {
   "property": "C32",
   "status": "partial",
   "theorems": [
    "Verif.Crystal.C32_mesh_invariant_partial",
    "Verif.Crystal.C32_violated"
   ],
   "note": "False for the code (C32_violated): the loop over directions starts at 1, so the first mesh dimension is never checked against translations. Proved for all other directions, and for the first one under the omitted condition."
  },
  {
   "property": "C33",
   "status": "proved",
   "theorems": [
    "Verif.Crystal.C33_group_file",
    "Verif.Crystal.C33_equality",
    "Verif.Crystal.C33_truncated_file_accepted"
   ],
   "note": "Token-level round trip, identity first. Finding: truncated files are accepted (C33_truncated_file_accepted)."
  },
  {
   "property": "C34",
   "status": "proved",
   "theorems": [
    "Verif.Crystal.C34_reciprocal_1D",
    "Verif.Crystal.C34_reciprocal_2D",
    "Verif.Crystal.C34_reciprocal_3D",
    "Verif.Crystal.C34_volume"
   ],
   "note": "All lattice systems in 1, 2 and 3 dimensions, for every set of parameters with non-zero determinant; the reported volume is the determinant."
  },
  {
   "property": "C35",
   "status": "partial",
   "theorems": [
    "Verif.Crystal.C35_derivative_1D",
    "Verif.Crystal.C35_derivative_2D_partial",
    "Verif.Crystal.C35_derivative_3D_partial",
    "Verif.Crystal.C35_oblique_violated",
    "Verif.Crystal.C35_monoclinic_sign",
    "Verif.Crystal.C35_rhombohedral_sign"
   ],
   "note": "Holds in 1D, in 2D except b and gamma of oblique cells, in 3D except the angle of monoclinic and rhombohedral cells. The exceptions are proved to be violations (wrong element overwritten, wrong sign)."
  },
  {
   "property": "C36",
   "status": "proved",
   "theorems": [
    "Verif.Crystal.C36_dkBasis",
    "Verif.Crystal.C36_dksq",
    "Verif.Crystal.C36_drrBasis",
    "Verif.Crystal.C36_unit_cell_1D",
    "Verif.Crystal.C36_unit_cell_2D_partial",
    "Verif.Crystal.C36_unit_cell_3D_partial",
    "Verif.Crystal.C36_sign_violated",
    "Verif.Crystal.C36_oblique_gamma_zero"
   ],
   "note": "Proved for any basis curve (drBasis correct and reciprocity nearby imply dksq is the derivative of ksq) and instantiated for all lattice parameters where C35 holds; for the monoclinic and rhombohedral angle dksq is proved to be minus the derivative."
  },
  {
   "property": "C37",
   "status": "proved",
   "theorems": [
    "Verif.Crystal.C37_replicate_1D",
    "Verif.Crystal.C37_replicate_2D",
    "Verif.Crystal.C37_replicate_3D",
    "Verif.Crystal.C37_rejected_2D",
    "Verif.Crystal.C37_rejected_3D_hexagonal",
    "Verif.Crystal.C37_rejected_3D_rhombohedral",
    "Verif.Crystal.C37_volume",
    "Verif.Crystal.C37_target"
   ],
   "note": "Replicated Bravais vectors are n_i r_i; exact characterisation of rejected input; the target object only accepts its own lattice system."
  },
  {
   "property": "C38",
   "status": "partial",
   "theorems": [
    "Verif.Crystal.C38_round_trip_1D",
    "Verif.Crystal.C38_round_trip_2D",
    "Verif.Crystal.C38_round_trip_3D",
    "Verif.Crystal.C38_length_2D",
    "Verif.Crystal.C38_angle_2D",
    "Verif.Crystal.C38_length_3D",
    "Verif.Crystal.C38_angle_3D_partial",
    "Verif.Crystal.C38_triclinic_violated",
    "Verif.Crystal.C38_variable_angle"
   ],
   "note": "Round trip of ids proved for all lattices; meaning of the ids (length or angle) proved except alpha and beta of triclinic cells, where the claim is false (C38_triclinic_violated)."
  },
  {
   "property": "C39",
   "status": "proved",
   "theorems": [
    "Verif.Crystal.C39_congruent",
    "Verif.Crystal.C39_minimal",
    "Verif.Crystal.C39_shortest_and_greatest",
    "Verif.Crystal.C39_one_dimension",
    "Verif.Crystal.C39_shiftToMinimum",
    "Verif.Crystal.C39_exact_with_gap"
   ],
   "note": "shiftToMinimum: the result is congruent to the input modulo the mesh, no searched image is shorter, and ties go to the greatest vector; one-dimensional reduction modelled separately. Squared norms exact; tolerance kept as in the code."
  },
  {
   "property": "C40",
   "status": "proved",
   "theorems": [
    "Verif.FieldIo.C40_each_point_once",
    "Verif.FieldIo.C40_replicated_value",
    "Verif.FieldIo.C40_nonpositive_rejected"
   ],
   "note": "Value at each replicated point, each point written exactly once, non-positive replicas rejected."
  },
  {
   "property": "C41",
   "status": "proved",
   "theorems": [
    "Verif.FieldIo.C41_expand_dimension",
    "Verif.FieldIo.C41_invalid_rejected"
   ],
   "note": "Mesh dimensions and data section; the unit-cell header is not modelled."
  },
  {
   "property": "C42",
   "status": "proved",
   "theorems": [
    "Verif.Basis.C42_valid",
    "Verif.Basis.C42_partition",
    "Verif.Basis.C42_consecutive",
    "Verif.Basis.C42_wave_bijection",
    "Verif.Basis.C42_inverse_maps",
    "Verif.Basis.C42_inversion",
    "Verif.Basis.C42_isValid"
   ],
   "note": "Every basis accepted by isValid at the end of makeBasis is well formed: star ranges, wave/star/basis-function maps, inversion pairing."
  },
  {
   "property": "C43",
   "status": "proved",
   "theorems": [
    "Verif.Basis.C43_values",
    "Verif.Basis.C43_round_trip",
    "Verif.Basis.C43_symmetric_recovered",
    "Verif.Basis.C43_hermitian"
   ],
   "note": "convertBasisToKGrid followed by convertKGridToBasis, for every well formed basis without empty stars and with coefficients above the threshold used by the code (both hold by construction); also the converse for exactly symmetric input and hermiticity."
  },
  {
   "property": "C44",
   "status": "partial",
   "theorems": [
    "Verif.Basis.C44_write_read_partial",
    "Verif.Basis.C44_capacity_mismatch",
    "Verif.Basis.C44_reversed_pair",
    "Verif.Basis.C44_violated_mismatched_pair",
    "Verif.Basis.C44_reversed_mismatch_rejected"
   ],
   "note": "A file written by writeBasisData is read back to the same amplitudes for every well formed basis, also when a pair of stars related by inversion is listed in reverse order. Missing because of the code: in the reversed-pair branch a check is written as an assignment, so files with mismatched waves in a pair are accepted and the second wave is not validated (C44_violated_mismatched_pair)."
  },
  {
   "property": "C45",
   "status": "partial",
   "theorems": [
    "Verif.Basis.C45_hasSymmetry_iff_partial",
    "Verif.Basis.C45_violated_nan"
   ],
   "note": "Exact characterisation for finite data, independent of verbose. Data that are not numbers are accepted (C45_violated_nan): the missing part is a property of the code, not of the proof."
  },
  {
   "property": "C46",
   "status": "partial",
   "theorems": [
    "Verif.Field.C46_coherent_partial",
    "Verif.Field.C46_notified_once",
    "Verif.Field.C46_exact_on_symmetric_input",
    "Verif.Field.C46_set_stores",
    "Verif.Field.C46_read_stores",
    "Verif.Field.C46_violated",
    "Verif.Field.C46_notify_violated",
    "Verif.Field.C46_asymmetric_first_lockout",
    "Verif.Field.C46_allocate",
    "Verif.Field.C46_allocate_mask"
   ],
   "note": "Agreement of the two representations after every history whose most recent modification succeeded, exactly one notification per successful modification, values stored as given. Agreement after failed calls and notification of changes made by failed calls are violated by the code (C46_violated, C46_notify_violated); C46_asymmetric_first_lockout shows that symmetric fields can never be set after asymmetric ones without clear()."
  },
  {
   "property": "C47",
   "status": "proved",
   "theorems": [
    "Verif.Field.C47_symmetric_implies_data"
   ],
   "note": "Flags of the concentration container for all call histories."
  },
  {
   "property": "C48",
   "status": "partial",
   "theorems": [
    "Verif.Field.C48_phiTot_average_partial",
    "Verif.Field.C48_no_mask",
    "Verif.Field.C48_violated"
   ],
   "note": "phiTot equals the average of the r-grid mask after every successful set or read, in any history; violated after a failed read (C48_violated). Assumes that the first basis function is constant."
  },
  {
   "property": "C49",
   "status": "partial",
   "theorems": [
    "Verif.Sys.C49_coherent_partial",
    "Verif.Sys.C49_compute",
    "Verif.Sys.C49_violated"
   ],
   "note": "C49_coherent_partial covers every history of public calls (including failing ones) except a w-field call that throws after changing the fields without a signal; C49_violated shows that exception is real. C49_compute is the exact postcondition of compute."
  },
  {
   "property": "C50",
   "status": "partial",
   "theorems": [
    "Verif.Sys.C50_mixture_partial",
    "Verif.Sys.C50_compute_fresh_partial",
    "Verif.Sys.C50_flexible_trial",
    "Verif.Sys.C50_env_stale",
    "Verif.Sys.C50_write_stale",
    "Verif.Sys.C50_violated"
   ],
   "note": "Mixture stress is coherent while c data are reported; full claim is false: C50_env_stale, C50_write_stale, C50_violated."
  },
  {
   "property": "C51",
   "status": "partial",
   "theorems": [
    "Verif.Crystal.C51_images_fixed_angle_2",
    "Verif.Crystal.C51_images_fixed_angle_3",
    "Verif.Crystal.C51_cache_fresh",
    "Verif.Crystal.C51_two_dimensions_partial",
    "Verif.Crystal.C51_three_dimensions_partial",
    "Verif.Crystal.C51_one_dimension",
    "Verif.Crystal.C51_dksq_entries",
    "Verif.Crystal.C51_huge_cell"
   ],
   "note": "Cached arrays are those of the current unit cell in every history, for all lattice systems in 1, 2 and 3 dimensions. For lattices without variable angle in 2 and 3 dimensions lattice constants must stay below 2 pi 1e4; C51_huge_cell shows that without this bound stale minimum images are used."
  },
  {
   "property": "C52",
   "status": "partial",
   "theorems": [
    "Verif.Solver.C52_contour_partial",
    "Verif.Solver.C52_history_partial",
    "Verif.Solver.C52_violated"
   ],
   "note": "C52_contour_partial and C52_history_partial hold for positive lengths and step sizes; setLength accepts zero and negative lengths (C52_violated)."
  },
  {
   "property": "C53",
   "status": "proved",
   "theorems": [
    "Verif.Solver.C53_dft",
    "Verif.Solver.C53_block_conservation",
    "Verif.Solver.C53_total_conservation",
    "Verif.Solver.C53_solve_succeeds"
   ],
   "note": "For every accepted branched topology, field, mesh and discretisation; C53_dft uses the Fourier step of the code with no contract. Exact arithmetic over the reals; FFTW is replaced by the transform it documents."
  },
  {
   "property": "C54",
   "status": "proved",
   "theorems": [
    "Verif.Solver.C54_dft",
    "Verif.Solver.C54_Q_block_independent"
   ],
   "note": "Walk induction over the block graph; C54_dft for the actual Fourier step."
  },
  {
   "property": "C55",
   "status": "proved",
   "theorems": [
    "Verif.Solver.C55_solvent"
   ],
   "note": "Average is phi*phiTot for closed and open solvents (phi as set by setQ)."
  },
  {
   "property": "C56",
   "status": "partial",
   "theorems": [
    "Verif.Fts.C56_move_partial",
    "Verif.Fts.C56_bdStep_partial",
    "Verif.Fts.C56_history_partial",
    "Verif.Fts.C56_counters"
   ],
   "note": "Fields, wc, Hamiltonian, forces and perturbation energies are restored exactly after a rejected or failed move or step, over all histories, with consistent counters; cc is not restored (see C57_stale_after_reject)."
  },
  {
   "property": "C57",
   "status": "partial",
   "theorems": [
    "Verif.Fts.C57_computeDc",
    "Verif.Fts.C57_coherent_partial",
    "Verif.Fts.C57_coherent_cc_partial",
    "Verif.Fts.C57_mcSetup",
    "Verif.Fts.C57_bdSetup",
    "Verif.Fts.C57_guards",
    "Verif.Fts.C57_policy_fits",
    "Verif.Fts.C57_stale_after_reject",
    "Verif.Fts.C57_stale_predCorr",
    "Verif.Fts.C57_stale_ramp",
    "Verif.Fts.C57_ramp_metropolis",
    "Verif.Fts.C57_violated",
    "Verif.Fts.C57_ramp_violated"
   ],
   "note": "All data reported available belong to the current fields and parameters for every history without a ramp, except cc; with cc for the step types that cannot leave it stale. Violations proved: rejected moves with force bias, failed corrector of PredCorr, ramps."
  },
  {
   "property": "C58",
   "status": "partial",
   "theorems": [
    "Verif.Fts.C58_read",
    "Verif.Fts.C58_mc_partial",
    "Verif.Fts.C58_bd",
    "Verif.Fts.C58_samples",
    "Verif.Fts.C58_violated",
    "Verif.Fts.C58_analyze_throws",
    "Verif.Fts.C58_analyze_partial"
   ],
   "note": "Step accounting and sampling exact for every outcome sequence when analyzers are read from an AnalyzerManager block. Violations proved: MC without that block always throws; analyze() with base interval > 1 throws at frame 1."
  },
  {
   "property": "C59",
   "status": "proved",
   "theorems": [
    "Verif.Fts.C59_interpolation",
    "Verif.Fts.C59_df",
    "Verif.Fts.C59_derivative",
    "Verif.Fts.C59_field_derivative",
    "Verif.Fts.C59_default",
    "Verif.Fts.C59_default_energy"
   ],
   "note": "Perturbed Hamiltonian, its lambda derivative and its functional derivative (Mathlib HasDerivAt) in exact real arithmetic; the concentration part of Dc is the derivative of the ideal part by hypothesis."
  },
  {
   "property": "C60",
   "status": "proved",
   "theorems": [
    "Verif.Fts.C60_am",
    "Verif.Fts.C60_lrAm",
    "Verif.Fts.C60_lr",
    "Verif.Fts.C60_components",
    "Verif.Fts.C60_lr_newton",
    "Verif.Fts.C60_error"
   ],
   "note": "All three compressors, for every diffusion equation solver, error measure and iteration count; FFT modelled as in C78. The stale intramolecular correlation function of the Lr compressors affects only the speed of convergence."
  },
  {
   "property": "C61",
   "status": "proved",
   "theorems": [
    "Verif.Fts.C61_analyzeChi",
    "Verif.Fts.C61_succeeds",
    "Verif.Fts.C61_reconstruct",
    "Verif.Fts.C61_components",
    "Verif.Fts.C61_pressure",
    "Verif.Fts.C61_incompressible",
    "Verif.Fts.C61_displace"
   ],
   "note": "LAPACK/GSL eigen solver modelled by its contract (EigGood); projection, components, pressure component and displacement identities for every number of monomers."
  },
  {
   "property": "C62",
   "status": "proved",
   "theorems": [
    "Verif.Field.Conv.C62_roundtrip",
    "Verif.Field.Conv.C62_roundtrip",
    "Verif.Field.Conv.C62_sizes",
    "Verif.Field.Conv.C62_error",
    "Verif.Field.Conv.C62_error_zero"
   ],
   "note": "Exact field arithmetic."
  },
  {
   "property": "C63",
   "status": "partial",
   "theorems": [
    "Verif.Film.C63_read_partial",
    "Verif.Film.C63_violated",
    "Verif.Film.C63_film_thickness",
    "Verif.Film.C63_mask",
    "Verif.Film.C63_mask_layout",
    "Verif.Film.C63_maskDeriv",
    "Verif.Film.C63_modifyStress",
    "Verif.Film.C63_mask_symmetric",
    "Verif.Film.C63_ext_symmetric",
    "Verif.Film.C63_ext_values",
    "Verif.Film.C63_length2",
    "Verif.Film.C63_length3"
   ],
   "note": "Values, dependence on the normal coordinate, symmetry, film thickness, derivative of the mask, invariance under accepted groups and the meaning of L are proved for all real parameters. normalVecId = D is accepted and leads to an access out of range (C63_violated)."
  },
  {
   "property": "C64",
   "status": "partial",
   "theorems": [
    "Verif.Film.C64_length_fixed2",
    "Verif.Film.C64_length_fixed3",
    "Verif.Film.C64_lengths_kept3",
    "Verif.Film.C64_check2_partial",
    "Verif.Film.C64_check3_partial",
    "Verif.Film.C64_hexagonal_accepted",
    "Verif.Film.C64_monoclinic_accepted",
    "Verif.Film.C64_check_violated",
    "Verif.Film.C64_triclinic_violated",
    "Verif.Film.C64_only_off1",
    "Verif.Film.C64_exact1",
    "Verif.Film.C64_only_off2",
    "Verif.Film.C64_only_off3",
    "Verif.Film.C64_perp2",
    "Verif.Film.C64_perp3_partial"
   ],
   "note": "Flags are only turned off, and flexible changes keep the walls perpendicular and the normal length fixed, except for triclinic cells with normal 0 (C64_triclinic_violated) and normal 1 with theta = 0. The test of the lattice vectors is one-sided: obtuse cells are accepted (C64_hexagonal_accepted, C64_monoclinic_accepted, C64_check_violated)."
  },
  {
   "property": "C65",
   "status": "partial",
   "theorems": [
    "Verif.Film.C65_read_partial",
    "Verif.Film.C65_violated",
    "Verif.Film.C65_generate",
    "Verif.Film.C65_needsUpdate",
    "Verif.Film.C65_no_throw"
   ],
   "note": "Fields are current after any history (C65_generate, C65_needsUpdate, C65_no_throw) for a mask generator followed by an external field generator. An external field generator in first place is always refused (C65_violated)."
  },
  {
   "property": "C66",
   "status": "proved",
   "theorems": [
    "Verif.Text.C66_dimension",
    "Verif.Text.C66_rejects"
   ],
   "note": "C66_dimension is an iff: getDimension returns n exactly for -dn or -d n at the first argument that begins with -d; C66_rejects: every other command line throws. Words are lists of characters; atoi is modelled for one character."
  },
  {
   "property": "C67",
   "status": "partial",
   "theorems": [
    "Verif.Text.C67_polymerType",
    "Verif.Text.C67_polymerModel",
    "Verif.Text.C67_ensemble",
    "Verif.Text.C67_lattice",
    "Verif.Text.C67_lattice_null",
    "Verif.Text.C67_lattice_dim",
    "Verif.Text.C67_ramp_ids",
    "Verif.Text.C67_ramp_partial",
    "Verif.Text.C67_ramp_violated",
    "Verif.Text.C67_sweepType_partial",
    "Verif.Text.C67_sweep_partial",
    "Verif.Text.C67_film_types",
    "Verif.Text.C67_sweep_violated",
    "Verif.Text.C67_unitCell"
   ],
   "note": "Round trips proved for polymer types, polymer models, ensembles, lattice systems, unit cells (printed values) and for all ramp parameters except the monomer volume and all sweep parameters whose special name is lower case, not built in and first in the list (an iff). Missing because the code violates it: ramp vMonomer is written with a name no reader accepts (C67_ramp_violated), special sweep names with capitals are rejected (C67_sweep_violated), Unknown ensembles and Null lattices are written as rejected words (C67_ensemble, C67_lattice_null)."
  },
  {
   "property": "C68",
   "status": "partial",
   "theorems": [
    "Verif.Reduce.C68_compare",
    "Verif.Reduce.C68_rms_le_max",
    "Verif.Reduce.C68_zero_iff",
    "Verif.Reduce.C68_symmetric",
    "Verif.Reduce.C68_nan",
    "Verif.Reduce.C68_arrays_partial",
    "Verif.Reduce.C68_arrays_violated"
   ],
   "note": "Single fields complete, including NaN; arrays of fields only for equal sizes (C68_arrays_violated)."
  },
  {
   "property": "C69",
   "status": "partial",
   "theorems": [
    "Verif.Crystal.C69_half_mesh_covers",
    "Verif.Crystal.C69_flag_partial",
    "Verif.Crystal.C69_every_mesh_wrong",
    "Verif.Crystal.C69_violated"
   ],
   "note": "The half mesh covers all waves. The implicit-inverse flag is proved right except for the index with d - i = d/2 + 1; for that index it is wrong on every mesh with d >= 3 (C69_every_mesh_wrong, C69_violated)."
  },
  {
   "property": "C70",
   "status": "partial",
   "theorems": [
    "Verif.Script.C70_finish",
    "Verif.Script.C70_unknown",
    "Verif.Script.C70_stops",
    "Verif.Script.C70_eof",
    "Verif.Script.C70_eof_args_partial",
    "Verif.Script.C70_last_violated",
    "Verif.Script.C70_simulate_violated",
    "Verif.Script.C70_terminates",
    "Verif.Script.C70_names",
    "Verif.Script.C70_manual",
    "Verif.Script.C70_clear_timers_violated"
   ],
   "note": "Refinement of the token level interpreter to the list of commands, and termination on every file (effects of the commands are parameters). Two defects: a final command without arguments and without a newline is silently skipped (C70_last_violated), and SIMULATE with a malformed number is repeated with an uninitialised step count (C70_simulate_violated)."
  },
  {
   "property": "C71",
   "status": "proved",
   "theorems": [
    "Verif.Solver.C71_solver_shift",
    "Verif.Solver.C71_polymer_shift",
    "Verif.Solver.C71_solvent_shift",
    "Verif.Thermo.C71_pressure",
    "Verif.Thermo.C71_shift",
    "Verif.Thermo.C71_ext_shift",
    "Verif.Thermo.C71_shift_exact"
   ],
   "note": "Includes effect of a uniform shift of all fields through the real solver (C71_solver_shift, C71_polymer_shift); species with phi below 1e-8 are ignored by the code and appear as an explicit term."
  },
  {
   "property": "C72",
   "status": "partial",
   "theorems": [
    "Verif.Debye.C72_eb_exact",
    "Verif.Debye.C72_db_exact",
    "Verif.Debye.C72_et_exact",
    "Verif.Debye.C72_dt_exact",
    "Verif.Debye.C72_et_small",
    "Verif.Debye.C72_dt_small",
    "Verif.Debye.C72_dt_violated",
    "Verif.Debye.C72_bead_small_partial",
    "Verif.Debye.C72_eb_violated",
    "Verif.Debye.C72_pair_bead",
    "Verif.Debye.C72_pair_thread"
   ],
   "note": "Closed forms proved exact (bead sums, contour integrals, pairs of blocks); et correct to the order kept; db, eb within relative error 1e-5. Violated for dt (C72_dt_violated: expansion 1-x^2/3 is wrong at first order) and eb (C72_eb_violated)."
  },
  {
   "property": "C73",
   "status": "proved",
   "theorems": [
    "Verif.Reduce.C73_max",
    "Verif.Reduce.C73_min",
    "Verif.Reduce.C73_maxAbs",
    "Verif.Reduce.C73_minAbs",
    "Verif.Reduce.C73_nan",
    "Verif.Reduce.C73_sum",
    "Verif.Reduce.C73_sum_nan",
    "Verif.Reduce.C73_innerProduct",
    "Verif.Reduce.C73_innerProduct_sizes"
   ],
   "note": "With NaN: a NaN in any position but the first is ignored by max/min."
  },
  {
   "property": "C74",
   "status": "partial",
   "theorems": [
    "Verif.Sys.C74_cleared_first_partial",
    "Verif.Sys.C74_iterate_fresh",
    "Verif.Sys.C74_stale",
    "Verif.Sys.C74_no_output",
    "Verif.Sys.C74_violated"
   ],
   "note": "Data are current if parameters are changed only while no c data are reported, and after every iterate; full claim is false: C74_stale, C74_violated."
  },
  {
   "property": "C75",
   "status": "proved",
   "theorems": [
    "Verif.Sweep.C75_history"
   ],
   "note": "All histories of steps and failures."
  },
  {
   "property": "C76",
   "status": "proved",
   "theorems": [
    "Verif.Stars.C76_closed_star_normalised",
    "Verif.Stars.C76_open_pair_normalised",
    "Verif.Stars.C76_groupOn_of_checks",
    "Verif.Stars.C76_star_is_orbit",
    "Verif.Stars.C76_cancel_iff",
    "Verif.Stars.C76_cancelled_vanish",
    "Verif.Stars.C76_determined_by_root",
    "Verif.Stars.C76_star_function_invariant",
    "Verif.Stars.C76_real_space_invariance",
    "Verif.Stars.C76_loop_partition",
    "Verif.Stars.C76_loop_terminates",
    "Verif.Stars.C76_pair_cancel",
    "Verif.Stars.C76_span",
    "Verif.Stars.C76_independent"
   ],
   "note": "Star construction, cancellation, inversion pairs, phases and normalisation in exact arithmetic; the tolerance tests of the code are kept, with an explicit hypothesis that nonzero phases of the group exceed the tolerance. Not modelled: flushing of tiny real or imaginary parts to zero."
  },
  {
   "property": "C77",
   "status": "proved",
   "theorems": [
    "Verif.Solver.C77_exponentials_current"
   ],
   "note": "Invariant over all histories of block calls."
  },
  {
   "property": "C78",
   "status": "proved",
   "theorems": [
    "Verif.Solver.C78_forward_inverse",
    "Verif.Solver.C78_inverse_forward",
    "Verif.Solver.C78_real_fields_hermitian"
   ],
   "note": "FFTW is modelled by its documented sums; normalisation and half-mesh storage as in FFT.tpp."
  },
  {
   "property": "C79",
   "status": "proved",
   "theorems": [
    "Verif.Solver.C79_thread_step_exact",
    "Verif.Solver.C79_thread_exact",
    "Verif.Solver.C79_bead_step_exact",
    "Verif.Solver.C79_half_bonds"
   ],
   "note": "Needs kSq equal for a wave and its inverse when both are stored (Even), which holds because kSq is the squared length of a shortest alias."
  },
  {
   "property": "C80",
   "status": "proved",
   "theorems": [
    "Verif.Fts.C80_attempt",
    "Verif.Fts.C80_same_as_bd",
    "Verif.Fts.C80_bias",
    "Verif.Fts.C80_force_bias",
    "Verif.Fts.C80_real_move"
   ],
   "note": "Metropolis rule and force-bias rule in exact real arithmetic; the random generator is modelled by its uniform draw."
  },
  {
   "property": "C81",
   "status": "proved",
   "theorems": [
    "Verif.Fts.C81_saddle_point",
    "Verif.Fts.C81_mean_field"
   ],
   "note": "Uses the eigen decomposition contract EigGood; incompressible points as reached by a compressor with zero residual."
  },
  {
   "property": "C82",
   "status": "proved",
   "theorems": [
    "Verif.Solver.C82_polymer",
    "Verif.Solver.C82_solvent",
    "Verif.Thermo.C82_free_energy",
    "Verif.Thermo.C82_floryHuggins"
   ],
   "note": "Real solver on any accepted branched topology, thread and bead models."
  },
  {
   "property": "C83",
   "status": "partial",
   "theorems": [
    "Verif.Text.C83_roundtrip",
    "Verif.Text.C83_write_ok",
    "Verif.Text.C83_nParameter",
    "Verif.Text.C83_reject_dim",
    "Verif.Text.C83_reject_lattice",
    "Verif.Text.C83_reject_nparam",
    "Verif.Text.C83_truncated",
    "Verif.Text.C83_truncated_last_violated",
    "Verif.Text.C83_fieldIo",
    "Verif.Text.C83_accepted"
   ],
   "note": "Round trip (C83_roundtrip, C83_fieldIo), accepted headers (C83_accepted) and rejection of every truncation (C83_truncated) except one: cut off right after the label N_monomer the header is accepted whenever the caller's uninitialised variable is positive (C83_truncated_last_violated). Digit-level formatting of numbers is an arbitrary rounding function."
  },
  {
   "property": "C84",
   "status": "proved",
   "theorems": [
    "Verif.Solver.C84_concentration_is_derivative"
   ],
   "note": "For the discrete Fourier solver of the code on any mesh, any accepted branched topology; exact arithmetic. Bead model; the thread model uses Simpson integration and is only an approximation of the derivative, which is not claimed."
  },
  {
   "property": "C85",
   "status": "partial",
   "theorems": [
    "Verif.Solver.C85_stress_is_derivative",
    "Verif.Solver.C85_mixture",
    "Verif.Solver.C85_unit_cell",
    "Verif.Solver.C85_code_partial",
    "Verif.Solver.C85_code_violated",
    "Verif.Solver.C85_homogeneous_zero"
   ],
   "note": "Proved for the array dKSq that the half mesh requires (C85_stress_is_derivative, C85_unit_cell, C85_mixture) and zero stress in homogeneous states of both models. The array computed by the code is that one only on meshes with at most two points in the last direction (C85_code_partial); on all others one plane of waves gets half its weight and the stress is wrong (C85_code_violated, caused by C69)."
  },
  {
   "property": "C86",
   "status": "proved",
   "theorems": [
    "Verif.R1d.C86_average",
    "Verif.R1d.C86_average_const",
    "Verif.R1d.C86_average_bounds",
    "Verif.R1d.C86_Q_block_independent",
    "Verif.R1d.C86_block_conservation",
    "Verif.R1d.C86_total_conservation",
    "Verif.R1d.C86_solve_succeeds",
    "Verif.R1d.C86_solvent",
    "Verif.R1d.C86_read_domain",
    "Verif.R1d.C86_read_rejects",
    "Verif.R1d.C86_setters",
    "Verif.R1d.C86_volume"
   ],
   "note": "Planar, cylindrical and spherical geometry, with or without inner radius, nx >= 2; exact arithmetic; pivots non-zero (sufficient condition in C87). setShellParameters with xMin <= 0 is outside the hypotheses (only readParameters checks it)."
  },
  {
   "property": "C87",
   "status": "partial",
   "theorems": [
    "Verif.R1d.C87_pivots",
    "Verif.R1d.C87_step_positive",
    "Verif.R1d.C87_uniform",
    "Verif.R1d.C87_uniform_block",
    "Verif.R1d.C87_polymer_positive",
    "Verif.R1d.C87_contour_partial",
    "Verif.R1d.C87_contour_violated",
    "Verif.R1d.C87_large_step_negative"
   ],
   "note": "Pivots, uniform fields and positivity proved. The claim about contour points fails: a block shorter than half the target step gets ns = 1 and the step divides by zero (C87_contour_violated)."
  },
  {
   "property": "C88",
   "status": "proved",
   "theorems": [
    "Verif.Solver.C88_exact_unique",
    "Verif.Solver.C88_propagator",
    "Verif.Solver.C88_propagators",
    "Verif.Solver.C88_partition_function",
    "Verif.Solver.C88_concentration",
    "Verif.Solver.C88_exact_exists",
    "Verif.Solver.C88_exact_polymer_unique"
   ],
   "note": "Exact arithmetic on a fixed mesh; the error constant depends on the mesh, fields and lengths. The spatial discretisation error is not part of the statement. Concentrations converge to the contour integrals of products of the exact propagators."
  },
  {
   "property": "C89",
   "status": "proved",
   "theorems": [
    "Verif.Solver.C89_exact_concentration",
    "Verif.Solver.C89_concentration"
   ],
   "note": "Derivative of the exact problem in every direction of the fields (C89_exact_concentration) and fourth order convergence of the computed concentrations to it, for every topology (C89_concentration)."
  },
  {
   "property": "C90",
   "status": "partial",
   "theorems": [
    "Verif.Solver.C90_exact_stress",
    "Verif.Solver.C90_stress_limit",
    "Verif.Solver.C90_stress_partial",
    "Verif.Solver.C90_unit_cell_partial",
    "Verif.Solver.C90_code_violated"
   ],
   "note": "Proved for the array dKSq that the half mesh requires (C90_stress_partial, C90_unit_cell_partial); limit for any array in C90_stress_limit. With the array of the code the stress converges to a wrong value on every mesh with three or more points in the last direction (C90_code_violated, caused by C69)."
  },
  {
   "property": "C91",
   "status": "proved",
   "theorems": [
    "Verif.Solver.C91_monomer_conservation",
    "Verif.Solver.C91_total_conservation"
   ],
   "note": "MixturePrdc::compute with polymers and solvents as modelled in Solver/Mixture.lean; exact arithmetic; hypothesis: no polymer partition function vanishes."
  },
  {
   "property": "C92",
   "status": "partial",
   "theorems": [
    "Verif.Solver.C92_first_law",
    "Verif.Solver.C92_scft",
    "Verif.Solver.C92_closed",
    "Verif.Solver.C92_open",
    "Verif.Solver.C92_unit_cell",
    "Verif.Solver.C92_code_partial",
    "Verif.Solver.C92_code_violated"
   ],
   "note": "Proved with the array of derivatives of wavenumbers that the real transform asks for (trueDKSq). Missing: the array of the code (codeDKSq), which misses a factor two for one plane of waves on every mesh with three or more points in the last direction, so that the claim fails there (C85_code_violated). Bead model; for the thread model see C89, C90."
  },
  {
   "property": "C93",
   "status": "partial",
   "theorems": [
    "Verif.Cuda.C93_schedule_independent",
    "Verif.Cuda.C93_block_sum",
    "Verif.Cuda.C93_sum_covered",
    "Verif.Cuda.C93_sum_partial",
    "Verif.Cuda.C93_inner_partial",
    "Verif.Cuda.C93_max_partial",
    "Verif.Cuda.C93_min_partial",
    "Verif.Cuda.C93_maxAbs_partial",
    "Verif.Cuda.C93_minAbs_partial",
    "Verif.Cuda.C93_minAbs_violated",
    "Verif.Cuda.C93_float_violated",
    "Verif.Cuda.C93_warp_violated"
   ],
   "note": "Proved for all sizes up to 2^24, block sizes, and interleavings between barriers, with warps in lockstep (as on devices without independent thread scheduling); minAbs needs n at least half the block size. Violations are proved: without lockstep the warp functions race (no __syncwarp), the conversion of n to float loses an element for n = 2^24+1, minAbs reads beyond the array."
  },
  {
   "property": "C94",
   "status": "partial",
   "theorems": [
    "Verif.Cuda.C94_request_covered",
    "Verif.Cuda.C94_user_block_size",
    "Verif.Cuda.C94_default_succeeds",
    "Verif.Cuda.C94_argument_violated"
   ],
   "note": "Proved for all histories; the part on rejection of unusable values is violated: 0 causes a division by zero, sizes above the limit of the device are accepted."
  },
  {
   "property": "C95",
   "status": "partial",
   "theorems": [
    "Verif.Cuda.C95_request_succeeds",
    "Verif.Cuda.C95_each_point_once_partial",
    "Verif.Cuda.C95_block_limit",
    "Verif.Cuda.C95_manual_limit",
    "Verif.Cuda.C95_stale_violated",
    "Verif.Cuda.C95_dimension_violated",
    "Verif.Cuda.C95_block_size_violated"
   ],
   "note": "Success after any history is proved in full. The configuration is proved correct for histories without exceptions and with a fixed number of dimensions; violated otherwise: a request that throws leaves the mesh stored, and the next request reuses a stale configuration; a request of lower dimension can match a configuration of higher dimension. setThreadsPerBlock does not affect a cached mesh."
  },
  {
   "property": "C96",
   "status": "partial",
   "theorems": [
    "Verif.Cuda.C96_grid_stride",
    "Verif.Cuda.C96_real_unary",
    "Verif.Cuda.C96_real_binary",
    "Verif.Cuda.C96_many_partial",
    "Verif.Cuda.C96_complex_mul_partial",
    "Verif.Cuda.C96_complex_mulEq",
    "Verif.Cuda.C96_pair",
    "Verif.Cuda.C96_complex_scalar_partial",
    "Verif.Cuda.C96_complex_exp_partial",
    "Verif.Cuda.C96_sqNorm",
    "Verif.Cuda.C96_alias_result",
    "Verif.Cuda.C96_alias_violated",
    "Verif.Cuda.C96_overlap_violated",
    "Verif.Cuda.C96_many_violated"
   ],
   "note": "Proved for real operations, pairs, mulEqV, sqNormV for all interleavings; complex mulVV, mulVS and expV are correct only if the result is another array (in place the imaginary part uses the new real part: violation proved); addVMany and mulVMany write beyond a shorter result array; overlapping shifted ranges race."
  },
  {
   "property": "C97",
   "status": "proved",
   "theorems": [
    "Verif.Rpg.C97_polymer",
    "Verif.Rpg.C97_stress",
    "Verif.Rpg.C97_solvent",
    "Verif.Rpg.C97_deterministic"
   ],
   "note": "Refinement of the rpc solver by the rpg solver with every kernel run under an arbitrary schedule: Q, block concentrations, stress and solvent; cuFFT replaced by the sums of its manual."
  },
  {
   "property": "C98",
   "status": "partial",
   "theorems": [
    "Verif.Rpg.C98_slices_partial",
    "Verif.Rpg.C98_tail_kept_violated",
    "Verif.Rpg.C98_solve_head_partial",
    "Verif.Rpg.C98_solve_head_violated"
   ],
   "note": "False as stated: C98_tail_kept_violated (tail slice at a free end of a bead block is never set) and C98_solve_head_violated (negated tail condition). All other slices are proved equal to the CPU values."
  },
  {
   "property": "C99",
   "status": "partial",
   "theorems": [
    "Verif.Scft.C99_roundtrip",
    "Verif.Scft.C99_canonical",
    "Verif.Scft.C99_fixed",
    "Verif.Scft.C99_injective",
    "Verif.Scft.C99_gpu_partial",
    "Verif.Scft.C99_gpu_violated"
   ],
   "note": "CPU programs and the GPU basis program: full. The GPU grid program reads the wrong element of the vector for flexible parameters; C99_gpu_partial covers flexible parameters that come first, C99_gpu_violated shows out-of-range access otherwise."
  },
  {
   "property": "C100",
   "status": "partial",
   "theorems": [
    "Verif.Scft.C100_mixture",
    "Verif.Scft.C100_error",
    "Verif.Scft.C100_converged",
    "Verif.Scft.C100_canonical",
    "Verif.Scft.C100_zero_iff",
    "Verif.Scft.C100_solution_accepted",
    "Verif.Scft.C100_gpu_partial",
    "Verif.Scft.C100_gpu_violated",
    "Verif.Scft.C100_gpu_rejects_violated"
   ],
   "note": "CPU programs: full, for any solver of the diffusion equation, and instantiated with the mixture model (C100_mixture). GPU programs: C100_gpu_partial covers the canonical ensemble or no mask; with a mask in an open ensemble the residual solves sum c = mask + 1 (C100_gpu_violated, C100_gpu_rejects_violated). Norm overflow and rounding not modelled."
  },
  {
   "property": "C101",
   "status": "partial",
   "theorems": [
    "Verif.Ana.C101_fourth_value",
    "Verif.Ana.C101_fourth_iff",
    "Verif.Ana.C101_max",
    "Verif.Ana.C101_max_single",
    "Verif.Ana.C101_fourth_one_dimension",
    "Verif.Ana.C101_fourth_partial",
    "Verif.Ana.C101_fourth_violated",
    "Verif.Ana.C101_prefactor_stale"
   ],
   "note": "FourthOrderParameter: exact formula including surplus for split pairs (C101_fourth_value), exact exactly if no pair is split (C101_fourth_iff), always exact in one dimension, violated for a square cell on 4 by 4 points. Prefactors are not recomputed after a change of the unit cell. MaxOrderParameter: proved, undefined for a mesh with one stored wave."
  },
  {
   "property": "C102",
   "status": "partial",
   "theorems": [
    "Verif.Ana.C102_repeat_partial",
    "Verif.Ana.C102_allocation_violated",
    "Verif.Ana.C102_block_violated",
    "Verif.Ana.C102_data_lost_violated",
    "Verif.Ana.C102_iff"
   ],
   "note": "The claim holds exactly for components that are repeatable (C102_iff); the second command throws for classes that allocate in setup and for analyzers with block output, and data are lost for MaxOrderParameter."
  },
  {
   "property": "C103",
   "status": "proved",
   "theorems": [
    "Verif.Ana.C103_first",
    "Verif.Ana.C103_blocks",
    "Verif.Ana.C103_mean_of_blocks"
   ],
   "note": "First command of a program run; the value of each sample is arbitrary. Util::Average by contract."
  },
  {
   "property": "C104",
   "status": "partial",
   "theorems": [
    "Verif.Ana.C104_replay",
    "Verif.Ana.C104_cut",
    "Verif.Ana.C104_mesh_violated",
    "Verif.Ana.C104_cell_violated",
    "Verif.Ana.C104_postprocess"
   ],
   "note": "Proved: a complete trajectory file is replayed frame by frame (C104_replay); for a file cut at any place the analyzers see an initial part including all complete frames (C104_cut); averages and block averages equal those of the simulation (C104_postprocess). Violated: mesh dimensions are not compared (C104_mesh_violated); a varying unit cell is not recorded (C104_cell_violated)."
  },
  {
   "property": "C105",
   "status": "partial",
   "theorems": [
    "Verif.Ana.C105_chi_partial",
    "Verif.Ana.C105_chi_error",
    "Verif.Ana.C105_ramp_violated",
    "Verif.Ana.C105_perturbation",
    "Verif.Ana.C105_concentration",
    "Verif.Ana.C105_integration"
   ],
   "note": "ChiDerivative is the derivative for chi_AA + chi_BB = 0 (C105_chi_partial); for other diagonals the exact error is C105_chi_error, and during a ramp of chi the stale Hamiltonian gives C105_ramp_violated. Concentration derivative and the integration formula are proved without restriction."
  },
  {
   "property": "C106",
   "status": "partial",
   "theorems": [
    "Verif.Fts.C106_reversible",
    "Verif.Fts.C106_stationary",
    "Verif.Fts.C106_stationary_run",
    "Verif.Fts.C106_observed_partial",
    "Verif.Fts.C106_observed_uniform"
   ],
   "note": "Reversibility and stationarity of the process of turns proved in full, over any number of turns (Gaussian and uniform random numbers as measures). For the states shown to analyzers, failed steps are not counted, and the stationary density proved is success probability times exp(-H) (C106_observed_partial), which is exp(-H) if all states fail equally often (C106_observed_uniform). Ergodicity is not proved. The compressor result is taken as a function of the exchange fields."
  },
  {
   "property": "C107",
   "status": "partial",
   "theorems": [
    "Verif.R1d.C107_nr_converged_partial",
    "Verif.R1d.C107_nr_last",
    "Verif.R1d.C107_nr_last_planar",
    "Verif.R1d.C107_nr_monotone",
    "Verif.R1d.C107_nr_failed",
    "Verif.R1d.C107_nan_violated",
    "Verif.R1d.C107_solvent_violated",
    "Verif.R1d.C107_relax_converged_partial",
    "Verif.R1d.C107_relax_diagonal_violated",
    "Verif.R1d.C107_relax_reduction_violated",
    "Verif.R1d.C107_am_converged",
    "Verif.R1d.C107_am_shift"
   ],
   "note": "Newton-Raphson: C107_nr_converged_partial (fields that are numbers; all points but the last in a closed system), the last point by C107_nr_last for systems whose average is 1; C107_nr_monotone and C107_nr_failed hold for every run. Violated: residuals that are not numbers are skipped (C107_nan_violated); closed polymers with open solvents drop the condition at the last point (C107_solvent_violated). Relaxation: C107_relax_converged_partial for chi with zero diagonal; C107_relax_diagonal_violated and C107_relax_reduction_violated. Anderson mixing: C107_am_converged holds in full, C107_am_shift."
  },
  {
   "property": "C108",
   "status": "partial",
   "theorems": [
    "Verif.R1d.C108_value",
    "Verif.R1d.C108_pressure_solution",
    "Verif.R1d.C108_uniform_polymer",
    "Verif.R1d.C108_uniform_second_order",
    "Verif.R1d.C108_uniform_sign",
    "Verif.R1d.C108_uniform_free_energy",
    "Verif.R1d.C108_gauge_violated",
    "Verif.R1d.C108_compare_same_composition",
    "Verif.R1d.C108_compare_accepts",
    "Verif.R1d.C108_compare_same_potential",
    "Verif.R1d.C108_compare_solvent_violated",
    "Verif.R1d.C108_print_solvent_violated",
    "Verif.R1d.C108_excess",
    "Verif.R1d.C108_compare_uniform",
    "Verif.R1d.C108_stale_size_violated",
    "Verif.R1d.C108_current_partial",
    "Verif.R1d.C108_compute",
    "Verif.R1d.C108_concentrations",
    "Verif.R1d.C108_history",
    "Verif.R1d.C108_stale_violated",
    "Verif.R1d.C108_homogeneous_parameters"
   ],
   "note": "Formula, uniform fields, comparison and history proved; full claim false: stale thermodynamics after COMPUTE, stale molecule sizes after sweeps, solvents in the comparison and dependence of the free energy on the zero of the field (theorems _violated)"
  },
  {
   "property": "C109",
   "status": "partial",
   "theorems": [
    "Verif.R1d.C109_roundtrip",
    "Verif.R1d.C109_header",
    "Verif.R1d.C109_truncated_partial",
    "Verif.R1d.C109_truncated_violated",
    "Verif.R1d.C109_extend",
    "Verif.R1d.C109_extend_negative_violated",
    "Verif.R1d.C109_remesh",
    "Verif.R1d.C109_interp",
    "Verif.R1d.C109_refine",
    "Verif.R1d.C109_remesh_small_violated",
    "Verif.R1d.C109_vertexQ"
   ],
   "note": "Round trip, header checks, interpolation, extension and vertex products proved; incomplete last rows are accepted and arguments of remesh and extend are not checked (theorems _violated)"
  },
  {
   "property": "C110",
   "status": "partial",
   "theorems": [
    "Verif.Sweep.C110_path_partial",
    "Verif.Sweep.C110_species_indep",
    "Verif.Sweep.C110_phi_sum_partial",
    "Verif.Sweep.C110_duplicate_violated",
    "Verif.Sweep.C110_flexible_violated",
    "Verif.Sweep.C110_index_violated",
    "Verif.Sweep.C110_ramp",
    "Verif.Sweep.C110_ramp_final_violated"
   ],
   "note": "Proved for lists without repeated parameters and rigid swept lattice parameters, for any sequence of attempts and solutions. Violated: a volume fraction listed twice passes the check and changes the sum (C110_duplicate_violated); a flexible lattice parameter is accepted and does not follow the path (C110_flexible_violated); chi, block and lattice indices are not checked (C110_index_violated); the final value printed after a ramp with failed steps is not reached (C110_ramp_final_violated)."
  },
  {
   "property": "C111",
   "status": "partial",
   "theorems": [
    "Verif.Ana.C111_hamiltonian",
    "Verif.Ana.C111_structure_factor_general",
    "Verif.Ana.C111_structure_factor_partial",
    "Verif.Ana.C111_diagonal_violated",
    "Verif.Ana.C111_all_waves",
    "Verif.Ana.C111_shells",
    "Verif.Ana.C111_mean_partial",
    "Verif.Ana.C111_rounding_violated",
    "Verif.Ana.C111_half_mesh_violated"
   ],
   "note": "Proved for interaction matrices whose diagonal elements add up to zero, for a finite set of molecular configurations with arbitrary weights; the formula for any matrix is C111_structure_factor_general. Violated: chi(0,1) is used instead of the effective parameter (C111_diagonal_violated); magnitudes that differ by rounding are averaged as a mean of means (C111_rounding_violated); stored waves of a half mesh are not weighted (C111_half_mesh_violated)."
  },
  {
   "property": "C112",
   "status": "proved",
   "theorems": [
    "Verif.Basis.C112_inner_product",
    "Verif.Basis.C112_orthonormal",
    "Verif.Basis.C112_free_energy",
    "Verif.Basis.C112_components"
   ],
   "note": "Basis components and grid values give the same inner products, hence the same free energy, parts and pressure; conversion of an exactly symmetric concentration gives such components. Tolerance zero; that stars are normalised is C76_closed_star_normalised and C76_open_pair_normalised. Symmetric w with non-symmetric h (mixed representation of fExt) is not modelled."
  },
  {
   "property": "C113",
   "status": "proved",
   "theorems": [
    "Verif.Solver.C113_polymer",
    "Verif.Solver.C113_mixture",
    "Verif.Solver.C113_symmetric",
    "Verif.Solver.C113_free_energy",
    "Verif.Solver.C113_solution",
    "Verif.Solver.C113_translation",
    "Verif.Solver.C113_space_group",
    "Verif.Solver.C113_operation_permutes",
    "Verif.Solver.C113_space_group_symmetric",
    "Verif.Solver.C113_coefficients",
    "Verif.Solver.C113_stars"
   ],
   "note": "Exact arithmetic. ksq is assumed to be the length of a shortest alias (C39 says how far shiftToMinimum reaches this) and invariant under the group; GroupOn follows from the checks of the program by C76_groupOn_of_checks. Stress is not included."
  },
  {
   "property": "C114",
   "status": "proved",
   "theorems": [
    "Verif.Basis.C114_basis_fields_symmetric",
    "Verif.Basis.C114_symmetric_fields_converted",
    "Verif.Basis.C114_symmetric_iff",
    "Verif.Basis.C114_concentrations",
    "Verif.Basis.C114_residual",
    "Verif.Basis.C114_residual_norm",
    "Verif.Basis.C114_residual_zero_iff",
    "Verif.Basis.C114_residual_bound",
    "Verif.Basis.C114_converged"
   ],
   "note": "C114_symmetric_iff characterises the fields that have components; C114_concentrations shows that conversion of computed concentrations is exact; C114_residual, C114_residual_norm and C114_residual_zero_iff relate the residuals of AmIteratorBasis and AmIteratorGrid; C114_converged is the consequence for a converged iteration. Hypotheses: exact arithmetic, a basis whose stars and phases are those built by makeStars (FromStars), whose first function is the constant (ConstFirst), normalised; ksq the length of the shortest alias; mask and external fields given by components and independent of the unit cell."
  },
  {
   "property": "C115",
   "status": "proved",
   "theorems": [
    "Verif.Make.C115_makeBasis_sound",
    "Verif.Make.C115_constant_first",
    "Verif.Make.C115_symmetric_iff",
    "Verif.Make.C115_dimension",
    "Verif.Make.C115_number_of_functions"
   ],
   "note": "Model: makeBasis assembled from the models of makeWaves, makeStars and isValid (exact arithmetic; complex square root any function with csqrt z * csqrt z = z; squared lengths rational). Number of functions = dimension of the space of invariant fields. Hypotheses: the group acts on the mesh (C76_groupOn_of_checks), translations are fractions with denominator at most 100000 (Resolved), fewer than 10^16 operations for the bound on coefficients."
  },
  {
   "property": "C116",
   "status": "proved",
   "theorems": [
    "Verif.Make.C116_makeBasis_succeeds",
    "Verif.Make.C116_sort_irrelevant",
    "Verif.Make.C116_one_dimension",
    "Verif.Make.C116_orthogonal_cells"
   ],
   "note": "CellOn: on the vectors for which it is called, shiftToMinimum returns shortest images, and lengths are invariant under the group. Derived (not assumed) for shiftToMinimum<1> and for orthogonal cells with the search of C39; for other cells it follows from cellOn_search when shortest images lie within one period. Exact arithmetic."
  },
  {
   "property": "C117",
   "status": "partial",
   "theorems": [
    "Verif.DevArr.C117_never_invalid_partial",
    "Verif.DevArr.C117_pointer_valid_partial",
    "Verif.DevArr.C117_toHost_defined_partial",
    "Verif.DevArr.C117_copySlice_defined_partial",
    "Verif.DevArr.C117_one_owner",
    "Verif.DevArr.C117_no_leak",
    "Verif.DevArr.C117_owners_disjoint",
    "Verif.DevArr.C117_slice_is_view",
    "Verif.DevArr.C117_associate",
    "Verif.DevArr.C117_stale_slice",
    "Verif.DevArr.C117_write",
    "Verif.DevArr.C117_assign",
    "Verif.DevArr.C117_assign_succeeds",
    "Verif.DevArr.C117_host_round_trip",
    "Verif.DevArr.C117_violated_copy_constructor",
    "Verif.DevArr.C117_violated_dangling",
    "Verif.DevArr.C117_violated_destructor",
    "Verif.DevArr.C117_violated_copySlice",
    "Verif.DevArr.C117_violated_overlap"
   ],
   "note": "State machine of objects, blocks of device memory and their contents; invariant by induction on the history (one owner per block, slices within the recorded block, association times increase along chains of owners). Proved for programs that respect Legal. Missing, because the code violates it: the copy constructor leaves members uninitialised (ub), a slice outliving its owner dangles, a slice of a deallocated owner cannot be dissociated or destroyed (destructor throws), copySlice accepts a negative beginId, assignment between overlapping slices is undefined; each is a C117_violated theorem."
  },
  {
   "property": "C118",
   "status": "partial",
   "theorems": [
    "Verif.Cuda.Wave.C118_min_image_2_partial",
    "Verif.Cuda.Wave.C118_min_image_3",
    "Verif.Cuda.Wave.C118_cpu_2_partial",
    "Verif.Cuda.Wave.C118_cpu_3_partial",
    "Verif.Cuda.Wave.C118_orthogonal_2",
    "Verif.Cuda.Wave.C118_orthogonal_3",
    "Verif.Cuda.Wave.C118_hexagonal_2",
    "Verif.Cuda.Wave.C118_cpu_1",
    "Verif.Cuda.Wave.C118_kSq",
    "Verif.Cuda.Wave.C118_implicit",
    "Verif.Cuda.Wave.C118_dKSq",
    "Verif.Cuda.Wave.C118_history_partial",
    "Verif.Cuda.Wave.C118_history_1",
    "Verif.Cuda.Wave.C118_config",
    "Verif.Cuda.Wave.C118_config_dKSq",
    "Verif.Cuda.Wave.C118_config_after",
    "Verif.Cuda.Wave.C118_violated_overflow",
    "Verif.Cuda.Wave.C118_violated_host",
    "Verif.Cuda.Wave.C118_violated_host_stride",
    "Verif.Cuda.Wave.C118_violated_extra",
    "Verif.Cuda.Wave.C118_violated_warp"
   ],
   "note": "Proved for all schedules (3D, barriers), block sizes and waves: congruent image, squared norm, minimal within 5 or 7 tolerances; equality with the CPU image for separated norms if no padding image is shortest, which holds for orthogonal cells and for 2D hexagonal cells with equal mesh dimensions; 1D, kSq, dKSq, implicit-inverse flags, launch configuration and all call histories (given agreement of the kernel; unconditional in 1D). Missing, because the code violates it: 2D needs warps in lockstep (no __syncwarp); padding images change the result for strongly oblique cells; the thread count overflows from 2^24 waves in 3D; minImages_h writes to an array that is never allocated and uses a wrong stride. Image and norm of one thread are treated as one shared memory location."
  },
  {
   "property": "C119",
   "status": "partial",
   "theorems": [
    "Verif.Compare.C119_compare",
    "Verif.Compare.C119_single",
    "Verif.Compare.C119_zero_iff",
    "Verif.Compare.C119_symmetric",
    "Verif.Compare.C119_nan_cpu",
    "Verif.Compare.C119_nan_gpu_rms",
    "Verif.Compare.C119_violated_nan_gpu",
    "Verif.Compare.C119_sizes",
    "Verif.Compare.C119_sizes_arrays",
    "Verif.Compare.C119_real_single",
    "Verif.Compare.C119_real_partial",
    "Verif.Compare.C119_violated_extra",
    "Verif.Compare.C119_violated_ub",
    "Verif.Compare.C119_violated_average"
   ],
   "note": "Proved for complex fields of numbers of one size: greatest distance, root mean square, zero iff equal, CPU = GPU, symmetry; different shapes refused; NaN gives 1e8 on the CPU and a NaN rmsDiff on the GPU. Violated: on the GPU maxDiff (the value returned) is 0 for a complex field of NaN; COMPARE_RGRID on the GPU ignores extra fields of the second file and reads outside of an array if there are too few; COMPARE_BASIS never compares the first coefficient."
  },
  {
   "property": "C120",
   "status": "partial",
   "theorems": [
    "Verif.Fts.C120_components",
    "Verif.Fts.C120_hamiltonian",
    "Verif.Fts.C120_bias",
    "Verif.Fts.C120_residual",
    "Verif.Fts.C120_moves_partial",
    "Verif.Fts.C120_predCorr_partial",
    "Verif.Fts.C120_lm_partial",
    "Verif.Fts.C120_lm_history",
    "Verif.Fts.C120_lm_sum",
    "Verif.Fts.C120_lm_amplitude",
    "Verif.Fts.C120_predictor",
    "Verif.Fts.C120_heun",
    "Verif.Fts.C120_pressure",
    "Verif.Fts.C120_failure",
    "Verif.Fts.C120_violated_odd",
    "Verif.Fts.C120_violated_setup",
    "Verif.Fts.C120_setup_partial"
   ],
   "note": "The histories of the Leimkuhler-Matthews and predictor-corrector steps are proved in full (CPU). That the GPU code computes the same is proved for components, forces, Hamiltonian, perturbation, bias and residual without restriction, and for moves and steps if the number of grid points is even. The code violates the rest, which is proved: with an odd number of grid points every GPU move and step throws, and with force bias moves or explicit steps a second simulation in one run throws. The compressor and the solution of the modified diffusion equation are arbitrary functions here (see C61, C96 and the compressor properties)."
  },
  {
   "property": "C121",
   "status": "partial",
   "theorems": [
    "Verif.Basis.C121_read",
    "Verif.Basis.C121_transfer_partial",
    "Verif.Basis.C121_truncated",
    "Verif.Basis.C121_violated_truncated",
    "Verif.Basis.C121_violated_wave",
    "Verif.Basis.C121_violated_edge"
   ],
   "note": "Proved: rows in any order are stored by wave with zeros elsewhere, transfer of written fields between two bases, and rows beyond the capacity do not matter. The transfer theorem needs that the reader has at least as many basis functions and that stars with a common wave agree in size, closedness and pairing; without it the code loses or rejects rows (C121_violated_truncated, _wave, _edge)."
  },
  {
   "property": "C122",
   "status": "partial",
   "theorems": [
    "Verif.Sweep.C122_solutions",
    "Verif.Sweep.C122_parameters",
    "Verif.Sweep.C122_guess",
    "Verif.Sweep.C122_failure",
    "Verif.Sweep.C122_violated_reset",
    "Verif.Sweep.C122_cell"
   ],
   "note": "Proved: written solutions, their parameters, their starting fields (exact for polynomials) and the fields after an exception, for every solver and every history of failures. Missing because of the code: reset does not restore the parameters, so a system whose sweep gave up has the fields of one point of the path and the parameters of another (C122_violated_reset)."
  },
  {
   "property": "C123",
   "status": "partial",
   "theorems": [
    "Verif.HostField.C123_owns_partial",
    "Verif.HostField.C123_size_partial",
    "Verif.HostField.C123_values_partial",
    "Verif.HostField.C123_released",
    "Verif.HostField.C123_violated_deallocate",
    "Verif.HostField.C123_violated_reallocate"
   ],
   "note": "Proved for every history without deallocate and without repeated allocate, for RField, CField and RFieldDft: no undefined behaviour, ownership, no leaks, number of elements, refinement of value semantics including which operations throw (C123_owns_partial, C123_values_partial, C123_size_partial, C123_released). The full claim is false of the code: C123_violated_deallocate (double free, for every allocated field after every such history) and C123_violated_reallocate."
  }
 ]
}