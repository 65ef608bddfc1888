import Verif.AM.Props
import Verif.Ana.DerivProps
import Verif.Ana.OrderProps
import Verif.Ana.Props
import Verif.Ana.StructFactorProps
import Verif.Ana.TrajProps
import Verif.Basis.CompleteProps
import Verif.Basis.ExchangeProps
import Verif.Basis.FileProps
import Verif.Basis.MakeProps
import Verif.Basis.ParsevalProps
import Verif.Basis.Props
import Verif.Basis.StarNormProps
import Verif.Basis.StarProps
import Verif.Basis.SymmetryProps
import Verif.Chem.DebyeProps
import Verif.Chem.Props
import Verif.Chem.RuntimeProps
import Verif.Crystal.CellDerivProps
import Verif.Crystal.CellProps
import Verif.Crystal.GroupProps
import Verif.Crystal.MinImageProps
import Verif.Crystal.SymProps
import Verif.Crystal.WaveListProps
import Verif.Cuda.DeviceArrayProps
import Verif.Cuda.ReduceProps
import Verif.Cuda.ThreadMeshProps
import Verif.Cuda.VecOpProps
import Verif.Cuda.WaveListProps
import Verif.Field.ConvertProps
import Verif.Field.HostProps
import Verif.Field.Props
import Verif.FieldIo.Props
import Verif.Film.EnvProps
import Verif.Film.LatticeProps
import Verif.Film.Props
import Verif.FloryHuggins.Props
import Verif.Fts.BalanceProps
import Verif.Fts.BdProps
import Verif.Fts.CompressProps
import Verif.Fts.EigenProps
import Verif.Fts.MeanFieldProps
import Verif.Fts.PerturbProps
import Verif.Fts.Props
import Verif.Fts.SimProps
import Verif.Fts.StationaryProps
import Verif.Inter.Props
import Verif.Math.CompareProps
import Verif.Math.ReduceProps
import Verif.Math.TridiagProps
import Verif.Mesh.Props
import Verif.R1d.FilesProps
import Verif.R1d.IterProps
import Verif.R1d.Props
import Verif.R1d.ThermoProps
import Verif.Rpg.BlockProps
import Verif.Scft.MixtureProps
import Verif.Scft.Props
import Verif.Script.Props
import Verif.Solver.ContourProps
import Verif.Solver.ConvProps
import Verif.Solver.DerivProps
import Verif.Solver.DftProps
import Verif.Solver.EquivProps
import Verif.Solver.HomogProps
import Verif.Solver.MixtureProps
import Verif.Solver.Props
import Verif.Solver.ShiftProps
import Verif.Solver.ThreadDerivProps
import Verif.Sweep.ParamProps
import Verif.Sweep.Props
import Verif.Sweep.RunProps
import Verif.System.Props
import Verif.Text.HeaderProps
import Verif.Text.Props
import Verif.Thermo.Props

/-! Axioms used by every property theorem (printed during the build). -/

#print axioms Verif.Mesh.C01_setDimensions_iff
#print axioms Verif.Mesh.C01_rank_position_bijection
#print axioms Verif.Mesh.C01_rank_lexicographic
#print axioms Verif.Mesh.C02_shift_coordinate
#print axioms Verif.Mesh.C02_shift_position
#print axioms Verif.Mesh.C03_iterator_state
#print axioms Verif.Mesh.C03_iterator_enumerates
#print axioms Verif.Mesh.C04_fortran_enumerates
#print axioms Verif.Mesh.C04_fortran_bijective
#print axioms Verif.FieldIo.C05_layout
#print axioms Verif.FieldIo.C05_rgrid_roundtrip
#print axioms Verif.FieldIo.C05_rgrid_read_sound
#print axioms Verif.FieldIo.C05_count_mismatch
#print axioms Verif.FieldIo.C06_kgrid_roundtrip
#print axioms Verif.FieldIo.C06_kgrid_labels_checked
#print axioms Verif.FieldIo.C06_kgrid_first_label
#print axioms Verif.Mesh.C07_text_roundtrip
#print axioms Verif.Mesh.C07_archive_roundtrip_partial
#print axioms Verif.Mesh.C07_archive_violated
#print axioms Verif.Mesh.C08_intvec_total_order
#print axioms Verif.Mesh.C08_most_significant_first
#print axioms Verif.Chem.C09_plan_valid_schedule
#print axioms Verif.Chem.C09_linear_is_tree
#print axioms Verif.Chem.C10_accepted_is_tree_partial
#print axioms Verif.Chem.C10_selfloop_rejected_partial
#print axioms Verif.Chem.C10_nontree_hangs
#print axioms Verif.Chem.C10_ring_hangs
#print axioms Verif.Chem.C10_out_of_range_ub
#print axioms Verif.Chem.C10_violated
#print axioms Verif.Chem.C11_solve_succeeds
#print axioms Verif.Chem.C11_check_exact
#print axioms Verif.Chem.C11_read_polymer_solves
#print axioms Verif.Chem.C12_path_first_step
#print axioms Verif.Chem.C12_vertex_iterator
#print axioms Verif.Chem.C12_iterator_ends
#print axioms Verif.Chem.C13_edge_iterator
#print axioms Verif.Chem.C13_same_block_rejected
#print axioms Verif.Chem.C14_read_decides
#print axioms Verif.Chem.C14_setPhi
#print axioms Verif.Chem.C14_ensemble_fixed
#print axioms Verif.Chem.C14_setMu
#print axioms Verif.Chem.C14_setQ_relation
#print axioms Verif.Chem.C14_phi_range
#print axioms Verif.Chem.C14_fresh
#print axioms Verif.Chem.C14_read_unchecked
#print axioms Verif.Chem.C15_locked_forever
#print axioms Verif.Chem.C15_setModel
#print axioms Verif.Chem.C15_nSet_counts
#print axioms Verif.Chem.C15_model_value
#print axioms Verif.Inter.C16_coherent_partial
#print axioms Verif.Inter.C16_zero_chi_accepted
#print axioms Verif.Inter.C16_violated
#print axioms Verif.Inter.C16_failed_set_incoherent
#print axioms Verif.Inter.C17_concentrations_sum
#print axioms Verif.Inter.C17_xi_agrees
#print axioms Verif.Inter.C17_fields_to_composition
#print axioms Verif.Inter.C17_xi_recovered
#print axioms Verif.Inter.C17_composition_to_fields
#print axioms Verif.Inter.C17_fHelmholtz
#print axioms Verif.Inter.C17_shift_invariance
#print axioms Verif.Inter.C18_p_annihilates_shift
#print axioms Verif.Inter.C18_p_idempotent
#print axioms Verif.Inter.C18_residual_zero_iff
#print axioms Verif.Inter.C18_residual_shift_invariant
#print axioms Verif.Inter.C18_canonical_homogeneous
#print axioms Verif.Inter.C18_converged_iff
#print axioms Verif.Math.C19_multiply
#print axioms Verif.Math.C19_multiply_solve
#print axioms Verif.Math.C19_solve_correct
#print axioms Verif.Math.C19_solve_multiply
#print axioms Verif.Math.C19_dominant_pivots
#print axioms Verif.Math.C19_symmetric
#print axioms Verif.Math.C19_zero_pivot_needed
#print axioms Verif.Sweep.C20_terminates
#print axioms Verif.Sweep.C20_outcome
#print axioms Verif.Sweep.C20_no_failure_reaches_one
#print axioms Verif.Sweep.C20_negative_ns_diverges
#print axioms Verif.Sweep.C21_exact
#print axioms Verif.Sweep.C21_sum_one
#print axioms Verif.Sweep.C21_parameters
#print axioms Verif.Sweep.C21_interpolates
#print axioms Verif.Sweep.C22_all_changed_partial
#print axioms Verif.Sweep.C22_first_extrapolation_partial
#print axioms Verif.Sweep.C22_one_unchanged_blocks
#print axioms Verif.Sweep.C22_violated
#print axioms Verif.AM.C23_return_code
#print axioms Verif.AM.C23_converged_input
#print axioms Verif.AM.C24_gram_matrix
#print axioms Verif.AM.C24_trial_orthogonal
#print axioms Verif.AM.C24_optimal
#print axioms Verif.AM.C24_linear_prediction
#print axioms Verif.AM.C24_paired_loop
#print axioms Verif.AM.C24_paired
#print axioms Verif.AM.C25_fresh_solve_partial
#print axioms Verif.AM.C25_empty_basis_trial
#print axioms Verif.AM.C25_continuation_reuses
#print axioms Verif.AM.C25_violated
#print axioms Verif.FH.C26_monomer_fractions
#print axioms Verif.FH.C26_setComposition_complete
#print axioms Verif.FH.C26_setComposition_accepts
#print axioms Verif.FH.C26_gibbs
#print axioms Verif.FH.C26_helmholtz_value
#print axioms Verif.FH.C26_mu_is_derivative
#print axioms Verif.FH.C26_computePhi
#print axioms Verif.FH.C26_initialize_solvent
#print axioms Verif.FH.C26_initialize_content
#print axioms Verif.FH.C26_initialize_size
#print axioms Verif.Crystal.C27_normalize
#print axioms Verif.Crystal.C27_mul_assoc
#print axioms Verif.Crystal.C27_identity
#print axioms Verif.Crystal.C27_inverse
#print axioms Verif.Crystal.C27_action_positions
#print axioms Verif.Crystal.C27_action_waves
#print axioms Verif.Crystal.C27_mulVec
#print axioms Verif.Crystal.C28_inverse_rotation
#print axioms Verif.Crystal.C29_container_invariant
#print axioms Verif.Crystal.C29_add
#print axioms Verif.Crystal.C29_isValid_iff
#print axioms Verif.Crystal.C29_complete
#print axioms Verif.Crystal.C29_complete_terminates
#print axioms Verif.Crystal.C29_complete_diverges
#print axioms Verif.Crystal.C29_space_group
#print axioms Verif.Crystal.C29_shear_hangs
#print axioms Verif.Crystal.C29_unreduced_duplicate
#print axioms Verif.Crystal.C30_inversion_center
#print axioms Verif.Crystal.C31_shift_mul
#print axioms Verif.Crystal.C31_shift_identity
#print axioms Verif.Crystal.C31_shift_back
#print axioms Verif.Crystal.C31_group_shift_back
#print axioms Verif.Crystal.C31_group_valid
#print axioms Verif.Crystal.C31_inversion_at_origin
#print axioms Verif.Crystal.C32_mesh_invariant_partial
#print axioms Verif.Crystal.C32_violated
#print axioms Verif.Crystal.C33_group_file
#print axioms Verif.Crystal.C33_equality
#print axioms Verif.Crystal.C33_truncated_file_accepted
#print axioms Verif.Crystal.C34_reciprocal_1D
#print axioms Verif.Crystal.C34_reciprocal_2D
#print axioms Verif.Crystal.C34_reciprocal_3D
#print axioms Verif.Crystal.C34_volume
#print axioms Verif.Crystal.C35_derivative_1D
#print axioms Verif.Crystal.C35_derivative_2D_partial
#print axioms Verif.Crystal.C35_derivative_3D_partial
#print axioms Verif.Crystal.C35_oblique_violated
#print axioms Verif.Crystal.C35_monoclinic_sign
#print axioms Verif.Crystal.C35_rhombohedral_sign
#print axioms Verif.Crystal.C36_dkBasis
#print axioms Verif.Crystal.C36_dksq
#print axioms Verif.Crystal.C36_drrBasis
#print axioms Verif.Crystal.C36_unit_cell_1D
#print axioms Verif.Crystal.C36_unit_cell_2D_partial
#print axioms Verif.Crystal.C36_unit_cell_3D_partial
#print axioms Verif.Crystal.C36_sign_violated
#print axioms Verif.Crystal.C36_oblique_gamma_zero
#print axioms Verif.Crystal.C37_replicate_1D
#print axioms Verif.Crystal.C37_replicate_2D
#print axioms Verif.Crystal.C37_replicate_3D
#print axioms Verif.Crystal.C37_rejected_2D
#print axioms Verif.Crystal.C37_rejected_3D_hexagonal
#print axioms Verif.Crystal.C37_rejected_3D_rhombohedral
#print axioms Verif.Crystal.C37_volume
#print axioms Verif.Crystal.C37_target
#print axioms Verif.Crystal.C38_round_trip_1D
#print axioms Verif.Crystal.C38_round_trip_2D
#print axioms Verif.Crystal.C38_round_trip_3D
#print axioms Verif.Crystal.C38_length_2D
#print axioms Verif.Crystal.C38_angle_2D
#print axioms Verif.Crystal.C38_length_3D
#print axioms Verif.Crystal.C38_angle_3D_partial
#print axioms Verif.Crystal.C38_triclinic_violated
#print axioms Verif.Crystal.C38_variable_angle
#print axioms Verif.Crystal.C39_congruent
#print axioms Verif.Crystal.C39_minimal
#print axioms Verif.Crystal.C39_shortest_and_greatest
#print axioms Verif.Crystal.C39_one_dimension
#print axioms Verif.Crystal.C39_shiftToMinimum
#print axioms Verif.Crystal.C39_exact_with_gap
#print axioms Verif.FieldIo.C40_each_point_once
#print axioms Verif.FieldIo.C40_replicated_value
#print axioms Verif.FieldIo.C40_nonpositive_rejected
#print axioms Verif.FieldIo.C41_expand_dimension
#print axioms Verif.FieldIo.C41_invalid_rejected
#print axioms Verif.Basis.C42_valid
#print axioms Verif.Basis.C42_partition
#print axioms Verif.Basis.C42_consecutive
#print axioms Verif.Basis.C42_wave_bijection
#print axioms Verif.Basis.C42_inverse_maps
#print axioms Verif.Basis.C42_inversion
#print axioms Verif.Basis.C42_isValid
#print axioms Verif.Basis.C43_values
#print axioms Verif.Basis.C43_round_trip
#print axioms Verif.Basis.C43_symmetric_recovered
#print axioms Verif.Basis.C43_hermitian
#print axioms Verif.Basis.C44_write_read_partial
#print axioms Verif.Basis.C44_capacity_mismatch
#print axioms Verif.Basis.C44_reversed_pair
#print axioms Verif.Basis.C44_violated_mismatched_pair
#print axioms Verif.Basis.C44_reversed_mismatch_rejected
#print axioms Verif.Basis.C45_hasSymmetry_iff_partial
#print axioms Verif.Basis.C45_violated_nan
#print axioms Verif.Field.C46_coherent_partial
#print axioms Verif.Field.C46_notified_once
#print axioms Verif.Field.C46_exact_on_symmetric_input
#print axioms Verif.Field.C46_set_stores
#print axioms Verif.Field.C46_read_stores
#print axioms Verif.Field.C46_violated
#print axioms Verif.Field.C46_notify_violated
#print axioms Verif.Field.C46_asymmetric_first_lockout
#print axioms Verif.Field.C46_allocate
#print axioms Verif.Field.C46_allocate_mask
#print axioms Verif.Field.C47_symmetric_implies_data
#print axioms Verif.Field.C48_phiTot_average_partial
#print axioms Verif.Field.C48_no_mask
#print axioms Verif.Field.C48_violated
#print axioms Verif.Sys.C49_coherent_partial
#print axioms Verif.Sys.C49_compute
#print axioms Verif.Sys.C49_violated
#print axioms Verif.Sys.C50_mixture_partial
#print axioms Verif.Sys.C50_compute_fresh_partial
#print axioms Verif.Sys.C50_flexible_trial
#print axioms Verif.Sys.C50_env_stale
#print axioms Verif.Sys.C50_write_stale
#print axioms Verif.Sys.C50_violated
#print axioms Verif.Crystal.C51_images_fixed_angle_2
#print axioms Verif.Crystal.C51_images_fixed_angle_3
#print axioms Verif.Crystal.C51_cache_fresh
#print axioms Verif.Crystal.C51_two_dimensions_partial
#print axioms Verif.Crystal.C51_three_dimensions_partial
#print axioms Verif.Crystal.C51_one_dimension
#print axioms Verif.Crystal.C51_dksq_entries
#print axioms Verif.Crystal.C51_huge_cell
#print axioms Verif.Solver.C52_contour_partial
#print axioms Verif.Solver.C52_history_partial
#print axioms Verif.Solver.C52_violated
#print axioms Verif.Solver.C53_dft
#print axioms Verif.Solver.C53_block_conservation
#print axioms Verif.Solver.C53_total_conservation
#print axioms Verif.Solver.C53_solve_succeeds
#print axioms Verif.Solver.C54_dft
#print axioms Verif.Solver.C54_Q_block_independent
#print axioms Verif.Solver.C55_solvent
#print axioms Verif.Fts.C56_move_partial
#print axioms Verif.Fts.C56_bdStep_partial
#print axioms Verif.Fts.C56_history_partial
#print axioms Verif.Fts.C56_counters
#print axioms Verif.Fts.C57_computeDc
#print axioms Verif.Fts.C57_coherent_partial
#print axioms Verif.Fts.C57_coherent_cc_partial
#print axioms Verif.Fts.C57_mcSetup
#print axioms Verif.Fts.C57_bdSetup
#print axioms Verif.Fts.C57_guards
#print axioms Verif.Fts.C57_policy_fits
#print axioms Verif.Fts.C57_stale_after_reject
#print axioms Verif.Fts.C57_stale_predCorr
#print axioms Verif.Fts.C57_stale_ramp
#print axioms Verif.Fts.C57_ramp_metropolis
#print axioms Verif.Fts.C57_violated
#print axioms Verif.Fts.C57_ramp_violated
#print axioms Verif.Fts.C58_read
#print axioms Verif.Fts.C58_mc_partial
#print axioms Verif.Fts.C58_bd
#print axioms Verif.Fts.C58_samples
#print axioms Verif.Fts.C58_violated
#print axioms Verif.Fts.C58_analyze_throws
#print axioms Verif.Fts.C58_analyze_partial
#print axioms Verif.Fts.C59_interpolation
#print axioms Verif.Fts.C59_df
#print axioms Verif.Fts.C59_derivative
#print axioms Verif.Fts.C59_field_derivative
#print axioms Verif.Fts.C59_default
#print axioms Verif.Fts.C59_default_energy
#print axioms Verif.Fts.C60_am
#print axioms Verif.Fts.C60_lrAm
#print axioms Verif.Fts.C60_lr
#print axioms Verif.Fts.C60_components
#print axioms Verif.Fts.C60_lr_newton
#print axioms Verif.Fts.C60_error
#print axioms Verif.Fts.C61_analyzeChi
#print axioms Verif.Fts.C61_succeeds
#print axioms Verif.Fts.C61_reconstruct
#print axioms Verif.Fts.C61_components
#print axioms Verif.Fts.C61_pressure
#print axioms Verif.Fts.C61_incompressible
#print axioms Verif.Fts.C61_displace
#print axioms Verif.Field.Conv.C62_roundtrip
#print axioms Verif.Field.Conv.C62_roundtrip
#print axioms Verif.Field.Conv.C62_sizes
#print axioms Verif.Field.Conv.C62_error
#print axioms Verif.Field.Conv.C62_error_zero
#print axioms Verif.Film.C63_read_partial
#print axioms Verif.Film.C63_violated
#print axioms Verif.Film.C63_film_thickness
#print axioms Verif.Film.C63_mask
#print axioms Verif.Film.C63_mask_layout
#print axioms Verif.Film.C63_maskDeriv
#print axioms Verif.Film.C63_modifyStress
#print axioms Verif.Film.C63_mask_symmetric
#print axioms Verif.Film.C63_ext_symmetric
#print axioms Verif.Film.C63_ext_values
#print axioms Verif.Film.C63_length2
#print axioms Verif.Film.C63_length3
#print axioms Verif.Film.C64_length_fixed2
#print axioms Verif.Film.C64_length_fixed3
#print axioms Verif.Film.C64_lengths_kept3
#print axioms Verif.Film.C64_check2_partial
#print axioms Verif.Film.C64_check3_partial
#print axioms Verif.Film.C64_hexagonal_accepted
#print axioms Verif.Film.C64_monoclinic_accepted
#print axioms Verif.Film.C64_check_violated
#print axioms Verif.Film.C64_triclinic_violated
#print axioms Verif.Film.C64_only_off1
#print axioms Verif.Film.C64_exact1
#print axioms Verif.Film.C64_only_off2
#print axioms Verif.Film.C64_only_off3
#print axioms Verif.Film.C64_perp2
#print axioms Verif.Film.C64_perp3_partial
#print axioms Verif.Film.C65_read_partial
#print axioms Verif.Film.C65_violated
#print axioms Verif.Film.C65_generate
#print axioms Verif.Film.C65_needsUpdate
#print axioms Verif.Film.C65_no_throw
#print axioms Verif.Text.C66_dimension
#print axioms Verif.Text.C66_rejects
#print axioms Verif.Text.C67_polymerType
#print axioms Verif.Text.C67_polymerModel
#print axioms Verif.Text.C67_ensemble
#print axioms Verif.Text.C67_lattice
#print axioms Verif.Text.C67_lattice_null
#print axioms Verif.Text.C67_lattice_dim
#print axioms Verif.Text.C67_ramp_ids
#print axioms Verif.Text.C67_ramp_partial
#print axioms Verif.Text.C67_ramp_violated
#print axioms Verif.Text.C67_sweepType_partial
#print axioms Verif.Text.C67_sweep_partial
#print axioms Verif.Text.C67_film_types
#print axioms Verif.Text.C67_sweep_violated
#print axioms Verif.Text.C67_unitCell
#print axioms Verif.Reduce.C68_compare
#print axioms Verif.Reduce.C68_rms_le_max
#print axioms Verif.Reduce.C68_zero_iff
#print axioms Verif.Reduce.C68_symmetric
#print axioms Verif.Reduce.C68_nan
#print axioms Verif.Reduce.C68_arrays_partial
#print axioms Verif.Reduce.C68_arrays_violated
#print axioms Verif.Crystal.C69_half_mesh_covers
#print axioms Verif.Crystal.C69_flag_partial
#print axioms Verif.Crystal.C69_every_mesh_wrong
#print axioms Verif.Crystal.C69_violated
#print axioms Verif.Script.C70_finish
#print axioms Verif.Script.C70_unknown
#print axioms Verif.Script.C70_stops
#print axioms Verif.Script.C70_eof
#print axioms Verif.Script.C70_eof_args_partial
#print axioms Verif.Script.C70_last_violated
#print axioms Verif.Script.C70_simulate_violated
#print axioms Verif.Script.C70_terminates
#print axioms Verif.Script.C70_names
#print axioms Verif.Script.C70_manual
#print axioms Verif.Script.C70_clear_timers_violated
#print axioms Verif.Solver.C71_solver_shift
#print axioms Verif.Solver.C71_polymer_shift
#print axioms Verif.Solver.C71_solvent_shift
#print axioms Verif.Thermo.C71_pressure
#print axioms Verif.Thermo.C71_shift
#print axioms Verif.Thermo.C71_ext_shift
#print axioms Verif.Thermo.C71_shift_exact
#print axioms Verif.Debye.C72_eb_exact
#print axioms Verif.Debye.C72_db_exact
#print axioms Verif.Debye.C72_et_exact
#print axioms Verif.Debye.C72_dt_exact
#print axioms Verif.Debye.C72_et_small
#print axioms Verif.Debye.C72_dt_small
#print axioms Verif.Debye.C72_dt_violated
#print axioms Verif.Debye.C72_bead_small_partial
#print axioms Verif.Debye.C72_eb_violated
#print axioms Verif.Debye.C72_pair_bead
#print axioms Verif.Debye.C72_pair_thread
#print axioms Verif.Reduce.C73_max
#print axioms Verif.Reduce.C73_min
#print axioms Verif.Reduce.C73_maxAbs
#print axioms Verif.Reduce.C73_minAbs
#print axioms Verif.Reduce.C73_nan
#print axioms Verif.Reduce.C73_sum
#print axioms Verif.Reduce.C73_sum_nan
#print axioms Verif.Reduce.C73_innerProduct
#print axioms Verif.Reduce.C73_innerProduct_sizes
#print axioms Verif.Sys.C74_cleared_first_partial
#print axioms Verif.Sys.C74_iterate_fresh
#print axioms Verif.Sys.C74_stale
#print axioms Verif.Sys.C74_no_output
#print axioms Verif.Sys.C74_violated
#print axioms Verif.Sweep.C75_history
#print axioms Verif.Stars.C76_closed_star_normalised
#print axioms Verif.Stars.C76_open_pair_normalised
#print axioms Verif.Stars.C76_groupOn_of_checks
#print axioms Verif.Stars.C76_star_is_orbit
#print axioms Verif.Stars.C76_cancel_iff
#print axioms Verif.Stars.C76_cancelled_vanish
#print axioms Verif.Stars.C76_determined_by_root
#print axioms Verif.Stars.C76_star_function_invariant
#print axioms Verif.Stars.C76_real_space_invariance
#print axioms Verif.Stars.C76_loop_partition
#print axioms Verif.Stars.C76_loop_terminates
#print axioms Verif.Stars.C76_pair_cancel
#print axioms Verif.Stars.C76_span
#print axioms Verif.Stars.C76_independent
#print axioms Verif.Solver.C77_exponentials_current
#print axioms Verif.Solver.C78_forward_inverse
#print axioms Verif.Solver.C78_inverse_forward
#print axioms Verif.Solver.C78_real_fields_hermitian
#print axioms Verif.Solver.C79_thread_step_exact
#print axioms Verif.Solver.C79_thread_exact
#print axioms Verif.Solver.C79_bead_step_exact
#print axioms Verif.Solver.C79_half_bonds
#print axioms Verif.Fts.C80_attempt
#print axioms Verif.Fts.C80_same_as_bd
#print axioms Verif.Fts.C80_bias
#print axioms Verif.Fts.C80_force_bias
#print axioms Verif.Fts.C80_real_move
#print axioms Verif.Fts.C81_saddle_point
#print axioms Verif.Fts.C81_mean_field
#print axioms Verif.Solver.C82_polymer
#print axioms Verif.Solver.C82_solvent
#print axioms Verif.Thermo.C82_free_energy
#print axioms Verif.Thermo.C82_floryHuggins
#print axioms Verif.Text.C83_roundtrip
#print axioms Verif.Text.C83_write_ok
#print axioms Verif.Text.C83_nParameter
#print axioms Verif.Text.C83_reject_dim
#print axioms Verif.Text.C83_reject_lattice
#print axioms Verif.Text.C83_reject_nparam
#print axioms Verif.Text.C83_truncated
#print axioms Verif.Text.C83_truncated_last_violated
#print axioms Verif.Text.C83_fieldIo
#print axioms Verif.Text.C83_accepted
#print axioms Verif.Solver.C84_concentration_is_derivative
#print axioms Verif.Solver.C85_stress_is_derivative
#print axioms Verif.Solver.C85_mixture
#print axioms Verif.Solver.C85_unit_cell
#print axioms Verif.Solver.C85_code_partial
#print axioms Verif.Solver.C85_code_violated
#print axioms Verif.Solver.C85_homogeneous_zero
#print axioms Verif.R1d.C86_average
#print axioms Verif.R1d.C86_average_const
#print axioms Verif.R1d.C86_average_bounds
#print axioms Verif.R1d.C86_Q_block_independent
#print axioms Verif.R1d.C86_block_conservation
#print axioms Verif.R1d.C86_total_conservation
#print axioms Verif.R1d.C86_solve_succeeds
#print axioms Verif.R1d.C86_solvent
#print axioms Verif.R1d.C86_read_domain
#print axioms Verif.R1d.C86_read_rejects
#print axioms Verif.R1d.C86_setters
#print axioms Verif.R1d.C86_volume
#print axioms Verif.R1d.C87_pivots
#print axioms Verif.R1d.C87_step_positive
#print axioms Verif.R1d.C87_uniform
#print axioms Verif.R1d.C87_uniform_block
#print axioms Verif.R1d.C87_polymer_positive
#print axioms Verif.R1d.C87_contour_partial
#print axioms Verif.R1d.C87_contour_violated
#print axioms Verif.R1d.C87_large_step_negative
#print axioms Verif.Solver.C88_exact_unique
#print axioms Verif.Solver.C88_propagator
#print axioms Verif.Solver.C88_propagators
#print axioms Verif.Solver.C88_partition_function
#print axioms Verif.Solver.C88_concentration
#print axioms Verif.Solver.C88_exact_exists
#print axioms Verif.Solver.C88_exact_polymer_unique
#print axioms Verif.Solver.C89_exact_concentration
#print axioms Verif.Solver.C89_concentration
#print axioms Verif.Solver.C90_exact_stress
#print axioms Verif.Solver.C90_stress_limit
#print axioms Verif.Solver.C90_stress_partial
#print axioms Verif.Solver.C90_unit_cell_partial
#print axioms Verif.Solver.C90_code_violated
#print axioms Verif.Solver.C91_monomer_conservation
#print axioms Verif.Solver.C91_total_conservation
#print axioms Verif.Solver.C92_first_law
#print axioms Verif.Solver.C92_scft
#print axioms Verif.Solver.C92_closed
#print axioms Verif.Solver.C92_open
#print axioms Verif.Solver.C92_unit_cell
#print axioms Verif.Solver.C92_code_partial
#print axioms Verif.Solver.C92_code_violated
#print axioms Verif.Cuda.C93_schedule_independent
#print axioms Verif.Cuda.C93_block_sum
#print axioms Verif.Cuda.C93_sum_covered
#print axioms Verif.Cuda.C93_sum_partial
#print axioms Verif.Cuda.C93_inner_partial
#print axioms Verif.Cuda.C93_max_partial
#print axioms Verif.Cuda.C93_min_partial
#print axioms Verif.Cuda.C93_maxAbs_partial
#print axioms Verif.Cuda.C93_minAbs_partial
#print axioms Verif.Cuda.C93_minAbs_violated
#print axioms Verif.Cuda.C93_float_violated
#print axioms Verif.Cuda.C93_warp_violated
#print axioms Verif.Cuda.C94_request_covered
#print axioms Verif.Cuda.C94_user_block_size
#print axioms Verif.Cuda.C94_default_succeeds
#print axioms Verif.Cuda.C94_argument_violated
#print axioms Verif.Cuda.C95_request_succeeds
#print axioms Verif.Cuda.C95_each_point_once_partial
#print axioms Verif.Cuda.C95_block_limit
#print axioms Verif.Cuda.C95_manual_limit
#print axioms Verif.Cuda.C95_stale_violated
#print axioms Verif.Cuda.C95_dimension_violated
#print axioms Verif.Cuda.C95_block_size_violated
#print axioms Verif.Cuda.C96_grid_stride
#print axioms Verif.Cuda.C96_real_unary
#print axioms Verif.Cuda.C96_real_binary
#print axioms Verif.Cuda.C96_many_partial
#print axioms Verif.Cuda.C96_complex_mul_partial
#print axioms Verif.Cuda.C96_complex_mulEq
#print axioms Verif.Cuda.C96_pair
#print axioms Verif.Cuda.C96_complex_scalar_partial
#print axioms Verif.Cuda.C96_complex_exp_partial
#print axioms Verif.Cuda.C96_sqNorm
#print axioms Verif.Cuda.C96_alias_result
#print axioms Verif.Cuda.C96_alias_violated
#print axioms Verif.Cuda.C96_overlap_violated
#print axioms Verif.Cuda.C96_many_violated
#print axioms Verif.Rpg.C97_polymer
#print axioms Verif.Rpg.C97_stress
#print axioms Verif.Rpg.C97_solvent
#print axioms Verif.Rpg.C97_deterministic
#print axioms Verif.Rpg.C98_slices_partial
#print axioms Verif.Rpg.C98_tail_kept_violated
#print axioms Verif.Rpg.C98_solve_head_partial
#print axioms Verif.Rpg.C98_solve_head_violated
#print axioms Verif.Scft.C99_roundtrip
#print axioms Verif.Scft.C99_canonical
#print axioms Verif.Scft.C99_fixed
#print axioms Verif.Scft.C99_injective
#print axioms Verif.Scft.C99_gpu_partial
#print axioms Verif.Scft.C99_gpu_violated
#print axioms Verif.Scft.C100_mixture
#print axioms Verif.Scft.C100_error
#print axioms Verif.Scft.C100_converged
#print axioms Verif.Scft.C100_canonical
#print axioms Verif.Scft.C100_zero_iff
#print axioms Verif.Scft.C100_solution_accepted
#print axioms Verif.Scft.C100_gpu_partial
#print axioms Verif.Scft.C100_gpu_violated
#print axioms Verif.Scft.C100_gpu_rejects_violated
#print axioms Verif.Ana.C101_fourth_value
#print axioms Verif.Ana.C101_fourth_iff
#print axioms Verif.Ana.C101_max
#print axioms Verif.Ana.C101_max_single
#print axioms Verif.Ana.C101_fourth_one_dimension
#print axioms Verif.Ana.C101_fourth_partial
#print axioms Verif.Ana.C101_fourth_violated
#print axioms Verif.Ana.C101_prefactor_stale
#print axioms Verif.Ana.C102_repeat_partial
#print axioms Verif.Ana.C102_allocation_violated
#print axioms Verif.Ana.C102_block_violated
#print axioms Verif.Ana.C102_data_lost_violated
#print axioms Verif.Ana.C102_iff
#print axioms Verif.Ana.C103_first
#print axioms Verif.Ana.C103_blocks
#print axioms Verif.Ana.C103_mean_of_blocks
#print axioms Verif.Ana.C104_replay
#print axioms Verif.Ana.C104_cut
#print axioms Verif.Ana.C104_mesh_violated
#print axioms Verif.Ana.C104_cell_violated
#print axioms Verif.Ana.C104_postprocess
#print axioms Verif.Ana.C105_chi_partial
#print axioms Verif.Ana.C105_chi_error
#print axioms Verif.Ana.C105_ramp_violated
#print axioms Verif.Ana.C105_perturbation
#print axioms Verif.Ana.C105_concentration
#print axioms Verif.Ana.C105_integration
#print axioms Verif.Fts.C106_reversible
#print axioms Verif.Fts.C106_stationary
#print axioms Verif.Fts.C106_stationary_run
#print axioms Verif.Fts.C106_observed_partial
#print axioms Verif.Fts.C106_observed_uniform
#print axioms Verif.R1d.C107_nr_converged_partial
#print axioms Verif.R1d.C107_nr_last
#print axioms Verif.R1d.C107_nr_last_planar
#print axioms Verif.R1d.C107_nr_monotone
#print axioms Verif.R1d.C107_nr_failed
#print axioms Verif.R1d.C107_nan_violated
#print axioms Verif.R1d.C107_solvent_violated
#print axioms Verif.R1d.C107_relax_converged_partial
#print axioms Verif.R1d.C107_relax_diagonal_violated
#print axioms Verif.R1d.C107_relax_reduction_violated
#print axioms Verif.R1d.C107_am_converged
#print axioms Verif.R1d.C107_am_shift
#print axioms Verif.R1d.C108_value
#print axioms Verif.R1d.C108_pressure_solution
#print axioms Verif.R1d.C108_uniform_polymer
#print axioms Verif.R1d.C108_uniform_second_order
#print axioms Verif.R1d.C108_uniform_sign
#print axioms Verif.R1d.C108_uniform_free_energy
#print axioms Verif.R1d.C108_gauge_violated
#print axioms Verif.R1d.C108_compare_same_composition
#print axioms Verif.R1d.C108_compare_accepts
#print axioms Verif.R1d.C108_compare_same_potential
#print axioms Verif.R1d.C108_compare_solvent_violated
#print axioms Verif.R1d.C108_print_solvent_violated
#print axioms Verif.R1d.C108_excess
#print axioms Verif.R1d.C108_compare_uniform
#print axioms Verif.R1d.C108_stale_size_violated
#print axioms Verif.R1d.C108_current_partial
#print axioms Verif.R1d.C108_compute
#print axioms Verif.R1d.C108_concentrations
#print axioms Verif.R1d.C108_history
#print axioms Verif.R1d.C108_stale_violated
#print axioms Verif.R1d.C108_homogeneous_parameters
#print axioms Verif.R1d.C109_roundtrip
#print axioms Verif.R1d.C109_header
#print axioms Verif.R1d.C109_truncated_partial
#print axioms Verif.R1d.C109_truncated_violated
#print axioms Verif.R1d.C109_extend
#print axioms Verif.R1d.C109_extend_negative_violated
#print axioms Verif.R1d.C109_remesh
#print axioms Verif.R1d.C109_interp
#print axioms Verif.R1d.C109_refine
#print axioms Verif.R1d.C109_remesh_small_violated
#print axioms Verif.R1d.C109_vertexQ
#print axioms Verif.Sweep.C110_path_partial
#print axioms Verif.Sweep.C110_species_indep
#print axioms Verif.Sweep.C110_phi_sum_partial
#print axioms Verif.Sweep.C110_duplicate_violated
#print axioms Verif.Sweep.C110_flexible_violated
#print axioms Verif.Sweep.C110_index_violated
#print axioms Verif.Sweep.C110_ramp
#print axioms Verif.Sweep.C110_ramp_final_violated
#print axioms Verif.Ana.C111_hamiltonian
#print axioms Verif.Ana.C111_structure_factor_general
#print axioms Verif.Ana.C111_structure_factor_partial
#print axioms Verif.Ana.C111_diagonal_violated
#print axioms Verif.Ana.C111_all_waves
#print axioms Verif.Ana.C111_shells
#print axioms Verif.Ana.C111_mean_partial
#print axioms Verif.Ana.C111_rounding_violated
#print axioms Verif.Ana.C111_half_mesh_violated
#print axioms Verif.Basis.C112_inner_product
#print axioms Verif.Basis.C112_orthonormal
#print axioms Verif.Basis.C112_free_energy
#print axioms Verif.Basis.C112_components
#print axioms Verif.Solver.C113_polymer
#print axioms Verif.Solver.C113_mixture
#print axioms Verif.Solver.C113_symmetric
#print axioms Verif.Solver.C113_free_energy
#print axioms Verif.Solver.C113_solution
#print axioms Verif.Solver.C113_translation
#print axioms Verif.Solver.C113_space_group
#print axioms Verif.Solver.C113_operation_permutes
#print axioms Verif.Solver.C113_space_group_symmetric
#print axioms Verif.Solver.C113_coefficients
#print axioms Verif.Solver.C113_stars
#print axioms Verif.Basis.C114_basis_fields_symmetric
#print axioms Verif.Basis.C114_symmetric_fields_converted
#print axioms Verif.Basis.C114_symmetric_iff
#print axioms Verif.Basis.C114_concentrations
#print axioms Verif.Basis.C114_residual
#print axioms Verif.Basis.C114_residual_norm
#print axioms Verif.Basis.C114_residual_zero_iff
#print axioms Verif.Basis.C114_residual_bound
#print axioms Verif.Basis.C114_converged
#print axioms Verif.Make.C115_makeBasis_sound
#print axioms Verif.Make.C115_constant_first
#print axioms Verif.Make.C115_symmetric_iff
#print axioms Verif.Make.C115_dimension
#print axioms Verif.Make.C115_number_of_functions
#print axioms Verif.Make.C116_makeBasis_succeeds
#print axioms Verif.Make.C116_sort_irrelevant
#print axioms Verif.Make.C116_one_dimension
#print axioms Verif.Make.C116_orthogonal_cells
#print axioms Verif.DevArr.C117_never_invalid_partial
#print axioms Verif.DevArr.C117_pointer_valid_partial
#print axioms Verif.DevArr.C117_toHost_defined_partial
#print axioms Verif.DevArr.C117_copySlice_defined_partial
#print axioms Verif.DevArr.C117_one_owner
#print axioms Verif.DevArr.C117_no_leak
#print axioms Verif.DevArr.C117_owners_disjoint
#print axioms Verif.DevArr.C117_slice_is_view
#print axioms Verif.DevArr.C117_associate
#print axioms Verif.DevArr.C117_stale_slice
#print axioms Verif.DevArr.C117_write
#print axioms Verif.DevArr.C117_assign
#print axioms Verif.DevArr.C117_assign_succeeds
#print axioms Verif.DevArr.C117_host_round_trip
#print axioms Verif.DevArr.C117_violated_copy_constructor
#print axioms Verif.DevArr.C117_violated_dangling
#print axioms Verif.DevArr.C117_violated_destructor
#print axioms Verif.DevArr.C117_violated_copySlice
#print axioms Verif.DevArr.C117_violated_overlap
#print axioms Verif.Cuda.Wave.C118_min_image_2_partial
#print axioms Verif.Cuda.Wave.C118_min_image_3
#print axioms Verif.Cuda.Wave.C118_cpu_2_partial
#print axioms Verif.Cuda.Wave.C118_cpu_3_partial
#print axioms Verif.Cuda.Wave.C118_orthogonal_2
#print axioms Verif.Cuda.Wave.C118_orthogonal_3
#print axioms Verif.Cuda.Wave.C118_hexagonal_2
#print axioms Verif.Cuda.Wave.C118_cpu_1
#print axioms Verif.Cuda.Wave.C118_kSq
#print axioms Verif.Cuda.Wave.C118_implicit
#print axioms Verif.Cuda.Wave.C118_dKSq
#print axioms Verif.Cuda.Wave.C118_history_partial
#print axioms Verif.Cuda.Wave.C118_history_1
#print axioms Verif.Cuda.Wave.C118_config
#print axioms Verif.Cuda.Wave.C118_config_dKSq
#print axioms Verif.Cuda.Wave.C118_config_after
#print axioms Verif.Cuda.Wave.C118_violated_overflow
#print axioms Verif.Cuda.Wave.C118_violated_host
#print axioms Verif.Cuda.Wave.C118_violated_host_stride
#print axioms Verif.Cuda.Wave.C118_violated_extra
#print axioms Verif.Cuda.Wave.C118_violated_warp
#print axioms Verif.Compare.C119_compare
#print axioms Verif.Compare.C119_single
#print axioms Verif.Compare.C119_zero_iff
#print axioms Verif.Compare.C119_symmetric
#print axioms Verif.Compare.C119_nan_cpu
#print axioms Verif.Compare.C119_nan_gpu_rms
#print axioms Verif.Compare.C119_violated_nan_gpu
#print axioms Verif.Compare.C119_sizes
#print axioms Verif.Compare.C119_sizes_arrays
#print axioms Verif.Compare.C119_real_single
#print axioms Verif.Compare.C119_real_partial
#print axioms Verif.Compare.C119_violated_extra
#print axioms Verif.Compare.C119_violated_ub
#print axioms Verif.Compare.C119_violated_average
#print axioms Verif.Fts.C120_components
#print axioms Verif.Fts.C120_hamiltonian
#print axioms Verif.Fts.C120_bias
#print axioms Verif.Fts.C120_residual
#print axioms Verif.Fts.C120_moves_partial
#print axioms Verif.Fts.C120_predCorr_partial
#print axioms Verif.Fts.C120_lm_partial
#print axioms Verif.Fts.C120_lm_history
#print axioms Verif.Fts.C120_lm_sum
#print axioms Verif.Fts.C120_lm_amplitude
#print axioms Verif.Fts.C120_predictor
#print axioms Verif.Fts.C120_heun
#print axioms Verif.Fts.C120_pressure
#print axioms Verif.Fts.C120_failure
#print axioms Verif.Fts.C120_violated_odd
#print axioms Verif.Fts.C120_violated_setup
#print axioms Verif.Fts.C120_setup_partial
#print axioms Verif.Basis.C121_read
#print axioms Verif.Basis.C121_transfer_partial
#print axioms Verif.Basis.C121_truncated
#print axioms Verif.Basis.C121_violated_truncated
#print axioms Verif.Basis.C121_violated_wave
#print axioms Verif.Basis.C121_violated_edge
#print axioms Verif.Sweep.C122_solutions
#print axioms Verif.Sweep.C122_parameters
#print axioms Verif.Sweep.C122_guess
#print axioms Verif.Sweep.C122_failure
#print axioms Verif.Sweep.C122_violated_reset
#print axioms Verif.Sweep.C122_cell
#print axioms Verif.HostField.C123_owns_partial
#print axioms Verif.HostField.C123_size_partial
#print axioms Verif.HostField.C123_values_partial
#print axioms Verif.HostField.C123_released
#print axioms Verif.HostField.C123_violated_deallocate
#print axioms Verif.HostField.C123_violated_reallocate
