import Verif.Props.Accept
import Verif.Props.Alone
import Verif.Props.Api
import Verif.Props.AreaMap
import Verif.Props.Arrival
import Verif.Props.Balance
import Verif.Props.Build
import Verif.Props.Continue
import Verif.Props.CoordUnits
import Verif.Props.Coords
import Verif.Props.Course
import Verif.Props.Crop
import Verif.Props.Curve
import Verif.Props.Delay
import Verif.Props.Density
import Verif.Props.Downstream
import Verif.Props.Draws
import Verif.Props.Elsewhere
import Verif.Props.Ensemble
import Verif.Props.Estimate
import Verif.Props.Exceptions
import Verif.Props.Exposure
import Verif.Props.ExposureLaw
import Verif.Props.Figures
import Verif.Props.Final
import Verif.Props.Fit
import Verif.Props.Flux
import Verif.Props.Georef
import Verif.Props.GridIndex
import Verif.Props.Ground
import Verif.Props.History
import Verif.Props.Init
import Verif.Props.InputCheck
import Verif.Props.Law
import Verif.Props.Leave
import Verif.Props.Limit
import Verif.Props.Logging
import Verif.Props.Mad
import Verif.Props.Maps
import Verif.Props.Notes
import Verif.Props.Notices
import Verif.Props.Nourish
import Verif.Props.Outlet
import Verif.Props.Outputs
import Verif.Props.Parallel
import Verif.Props.Percentile
import Verif.Props.PercentileMaps
import Verif.Props.Pick
import Verif.Props.Pipeline
import Verif.Props.Plots
import Verif.Props.Pool
import Verif.Props.RegionKind
import Verif.Props.Resume
import Verif.Props.Safety
import Verif.Props.Scatter
import Verif.Props.Seed
import Verif.Props.SeedParts
import Verif.Props.SeededCourse
import Verif.Props.Sessions
import Verif.Props.Sharing
import Verif.Props.SharingCases
import Verif.Props.Single
import Verif.Props.Slices
import Verif.Props.Spatial
import Verif.Props.SpatialPlot
import Verif.Props.SpatialRun
import Verif.Props.SpatialThresholds
import Verif.Props.Split
import Verif.Props.Spread
import Verif.Props.StandardError
import Verif.Props.StayMap
import Verif.Props.Steady
import Verif.Props.Steepest
import Verif.Props.Steer
import Verif.Props.Stepper
import Verif.Props.StepperTuples
import Verif.Props.Symmetry
import Verif.Props.SymmetryLaw
import Verif.Props.SymmetryTime
import Verif.Props.SymmetryWalks
import Verif.Props.Target
import Verif.Props.Throughflow
import Verif.Props.Time
import Verif.Props.TimeReal
import Verif.Props.TimeScale
import Verif.Props.Tracking
import Verif.Props.UniformFlow
import Verif.Props.Units
import Verif.Props.Unsteady
import Verif.Props.Unstruct
import Verif.Props.Weights

/-! Generated by tools/manifest.py: the axioms of every property theorem. -/

#print axioms Dorado.C01_almost_surely
#print axioms Dorado.C01_wet_neighbour_partial
#print axioms Dorado.C01_passable_partial
#print axioms Dorado.C01_zero_draw_counterexample
#print axioms Dorado.C02_almost_surely
#print axioms Dorado.C02_records_partial
#print axioms Dorado.C02_step_partial
#print axioms Dorado.C02_steepest_counterexample
#print axioms Dorado.C02_zero_draw_counterexample
#print axioms Dorado.C03_usable_distribution
#print axioms Dorado.C04_closed_formula
#print axioms Dorado.C04_closed_formula_represented
#print axioms Dorado.C05_local
#print axioms Dorado.C06_gamma_one
#print axioms Dorado.C06_gamma_zero
#print axioms Dorado.C07_theta_zero
#print axioms Dorado.C07_theta_zero_exact
#print axioms Dorado.C08_discharge_scaling
#print axioms Dorado.C08_datum_shift
#print axioms Dorado.C08_walks_datum
#print axioms Dorado.C08_walks_discharge
#print axioms Dorado.C08_walks_times
#print axioms Dorado.C09_mirror_leftRight
#print axioms Dorado.C09_mirror_upDown
#print axioms Dorado.C09_transposition
#print axioms Dorado.C09_walks_leftRight
#print axioms Dorado.C09_walks_upDown
#print axioms Dorado.C09_walks_transposition
#print axioms Dorado.C10_proportional
#print axioms Dorado.C10_object
#print axioms Dorado.C11_picks_maximum
#print axioms Dorado.C11_ties_even
#print axioms Dorado.C12_future
#print axioms Dorado.C12_memoryless
#print axioms Dorado.C12_same_choice
#print axioms Dorado.C13_discharge_orientation
#print axioms Dorado.C13_velocity_input_orientation
#print axioms Dorado.C13_velocity_direction
#print axioms Dorado.C14_connected
#print axioms Dorado.C14_zero_dx_counterexample
#print axioms Dorado.C14_shared_partial
#print axioms Dorado.C14_twice_counterexample
#print axioms Dorado.C15_aligned
#print axioms Dorado.C15_no_repeat
#print axioms Dorado.C15_shared_aligned
#print axioms Dorado.C15_shared_no_repeat_partial
#print axioms Dorado.C15_twice_counterexample
#print axioms Dorado.C16_stops
#print axioms Dorado.C17_inside
#print axioms Dorado.C17_no_crash
#print axioms Dorado.C17_default_ring
#print axioms Dorado.C17_shared_inside
#print axioms Dorado.C17_shared_no_crash
#print axioms Dorado.C18_shared_finite
#print axioms Dorado.C18_shared_partial
#print axioms Dorado.C18_twice_counterexample
#print axioms Dorado.C18_monotone
#print axioms Dorado.C18_large_diffusion_counterexample
#print axioms Dorado.C19_formula
#print axioms Dorado.C19_band
#print axioms Dorado.C20_projection
#print axioms Dorado.C20_along_flow
#print axioms Dorado.C21_append_only
#print axioms Dorado.C22_one_step
#print axioms Dorado.C22_shared_partial
#print axioms Dorado.C22_twice_counterexample
#print axioms Dorado.C23_terminates
#print axioms Dorado.C23_bound
#print axioms Dorado.C24_ends_near
#print axioms Dorado.C24_window
#print axioms Dorado.C25_idempotent_partial
#print axioms Dorado.C25_short_step_counterexample
#print axioms Dorado.C26_last_particle_partial
#print axioms Dorado.C26_no_particles
#print axioms Dorado.C26_two_particles_counterexample
#print axioms Dorado.C27_fresh
#print axioms Dorado.C27_cleared
#print axioms Dorado.C27_seeded
#print axioms Dorado.C28_tracked
#print axioms Dorado.C28_shared
#print axioms Dorado.C29_roi_partial
#print axioms Dorado.C29_previous_counterexample
#print axioms Dorado.C29_shared_partial
#print axioms Dorado.C30_exact
#print axioms Dorado.C30_even
#print axioms Dorado.C30_succeeds
#print axioms Dorado.C31_succeeds
#print axioms Dorado.C31_members
#print axioms Dorado.C31_joint_law
#print axioms Dorado.C32_accumulates
#print axioms Dorado.C32_reachable
#print axioms Dorado.C33_one_record
#print axioms Dorado.C34_input_check
#print axioms Dorado.C34_rejected
#print axioms Dorado.C34_type_error_partial
#print axioms Dorado.C34_unknown_method
#print axioms Dorado.C34_unknown_variable
#print axioms Dorado.C34_unchanged
#print axioms Dorado.C34_models_agree
#print axioms Dorado.C34_strings_accepted
#print axioms Dorado.C35_fields
#print axioms Dorado.C35_shapes
#print axioms Dorado.C35_keeps_inputs
#print axioms Dorado.C36_decides
#print axioms Dorado.C37_rounded
#print axioms Dorado.C37_exact
#print axioms Dorado.C38_nearest
#print axioms Dorado.C38_total
#print axioms Dorado.C39_valid_iff_partial
#print axioms Dorado.C39_origin_counterexample
#print axioms Dorado.C40_bounds
#print axioms Dorado.C40_monotone
#print axioms Dorado.C41_additive
#print axioms Dorado.C41_complement
#print axioms Dorado.C42_formula
#print axioms Dorado.C42_extremes
#print axioms Dorado.C43_message
#print axioms Dorado.C44_range_partial
#print axioms Dorado.C44_dense_partial
#print axioms Dorado.C44_sparse_counterexample
#print axioms Dorado.C44_sparse_witness_counterexample
#print axioms Dorado.C45_counts
#print axioms Dorado.C46_mean
#print axioms Dorado.C46_nonneg
#print axioms Dorado.C46_total
#print axioms Dorado.C47_idw
#print axioms Dorado.C47_nearest
#print axioms Dorado.C47_range
#print axioms Dorado.C47_linear
#print axioms Dorado.C47_few_points
#print axioms Dorado.C48_outside
#print axioms Dorado.C48_crop
#print axioms Dorado.C48_border_partial
#print axioms Dorado.C48_interior_counterexample
#print axioms Dorado.C49_rounded_partial
#print axioms Dorado.C49_exact_partial
#print axioms Dorado.C49_errors
#print axioms Dorado.C49_column_assertion
#print axioms Dorado.C49_column_counterexample
#print axioms Dorado.C50_quota_partial
#print axioms Dorado.C50_scale
#print axioms Dorado.C50_column_counterexample
#print axioms Dorado.C51_concatenates
#print axioms Dorado.C51_position
#print axioms Dorado.C51_new_key
#print axioms Dorado.C52_blocks
#print axioms Dorado.C52_walks
#print axioms Dorado.C52_succeeds
#print axioms Dorado.C52_no_iterations
#print axioms Dorado.C53_fork_copies
#print axioms Dorado.C53_same_worker_partial
#print axioms Dorado.C53_counterexample
#print axioms Dorado.C54_plot_state
#print axioms Dorado.C54_slice
#print axioms Dorado.C54_reachable
#print axioms Dorado.C55_plot_state
#print axioms Dorado.C55_nearest
#print axioms Dorado.C55_exact
#print axioms Dorado.C56_maps
#print axioms Dorado.C56_entries_partial
#print axioms Dorado.C56_started
#print axioms Dorado.C56_border
#print axioms Dorado.C57_tiling
#print axioms Dorado.C57_total_partial
#print axioms Dorado.C57_counterexample
#print axioms Dorado.C58_localized
#print axioms Dorado.C58_reachable
#print axioms Dorado.C59_ordered
#print axioms Dorado.C59_float
#print axioms Dorado.C59_nan
#print axioms Dorado.C59_maps
#print axioms Dorado.C59_unfiltered
#print axioms Dorado.C59_filtered
#print axioms Dorado.C59_filter_counterexample
#print axioms Dorado.C59_reachable
#print axioms Dorado.C60_nan
#print axioms Dorado.C60_constant
#print axioms Dorado.C60_range
#print axioms Dorado.C60_range_rounded
#print axioms Dorado.C61_level
#print axioms Dorado.C61_one_handler
#print axioms Dorado.C61_only_dorado
#print axioms Dorado.C61_idempotent
#print axioms Dorado.C61_invalid_partial
#print axioms Dorado.C61_counterexample
#print axioms Dorado.C61_verbose
#print axioms Dorado.C62_steps
#print axioms Dorado.C62_target
#print axioms Dorado.C62_succeeds
#print axioms Dorado.C63_curve
#print axioms Dorado.C63_thresholds
#print axioms Dorado.C63_smooth
#print axioms Dorado.C64_returned
#print axioms Dorado.C64_returned_variables
#print axioms Dorado.C64_live
#print axioms Dorado.C64_previous
#print axioms Dorado.C64_previous_variables
#print axioms Dorado.C64_both
#print axioms Dorado.C64_extends
#print axioms Dorado.C64_separate
#print axioms Dorado.C65_state_partial
#print axioms Dorado.C65_exposure_partial
#print axioms Dorado.C65_thresholds_partial
#print axioms Dorado.C65_steady_partial
#print axioms Dorado.C65_time_partial
#print axioms Dorado.C65_counterexample
#print axioms Dorado.C66_progress
#print axioms Dorado.C67_valid
#print axioms Dorado.C67_pipeline
#print axioms Dorado.C67_exact
#print axioms Dorado.C68_contract
#print axioms Dorado.C68_time
#print axioms Dorado.C69_reported
#print axioms Dorado.C69_exact
#print axioms Dorado.C69_thresholds
#print axioms Dorado.C70_as_new
#print axioms Dorado.C70_needs_particles
#print axioms Dorado.C71_succeeds
#print axioms Dorado.C71_count_partial
#print axioms Dorado.C71_tails
#print axioms Dorado.C71_colour_is_age
#print axioms Dorado.C71_colours
#print axioms Dorado.C71_head_partial
#print axioms Dorado.C71_past
#print axioms Dorado.C71_reachable
#print axioms Dorado.C71_count_counterexample
#print axioms Dorado.C71_head_counterexample
#print axioms Dorado.C72_succeeds
#print axioms Dorado.C72_all
#print axioms Dorado.C72_paths
#print axioms Dorado.C72_effect_partial
#print axioms Dorado.C72_counterexample
#print axioms Dorado.C73_steady
#print axioms Dorado.C73_time
#print axioms Dorado.C73_last
#print axioms Dorado.C73_unsteady
#print axioms Dorado.C74_frames_partial
#print axioms Dorado.C74_after_steady
#print axioms Dorado.C74_counterexample
#print axioms Dorado.C75_law
#print axioms Dorado.C76_tuples_partial
#print axioms Dorado.C76_moving
#print axioms Dorado.C76_time
#print axioms Dorado.C76_counterexample
#print axioms Dorado.C76_shift_counterexample
#print axioms Dorado.C77_density
#print axioms Dorado.C78_area_opacity
#print axioms Dorado.C78_time_opacity
#print axioms Dorado.C78_area_partial
#print axioms Dorado.C78_time_partial
#print axioms Dorado.C78_uniform_counterexample
#print axioms Dorado.C78_area_run
#print axioms Dorado.C78_time_run
#print axioms Dorado.C79_aligned_partial
#print axioms Dorado.C79_stretched_counterexample
#print axioms Dorado.C80_accepts
#print axioms Dorado.C80_labels_partial
#print axioms Dorado.C80_floor
#print axioms Dorado.C80_counterexample
#print axioms Dorado.C81_state_partial
#print axioms Dorado.C81_lengths
#print axioms Dorado.C81_iff_partial
#print axioms Dorado.C81_time_partial
#print axioms Dorado.C81_again
#print axioms Dorado.C81_plots_counterexample
#print axioms Dorado.C81_fresh
#print axioms Dorado.C81_program_partial
#print axioms Dorado.C81_counterexample
#print axioms Dorado.C82_values
#print axioms Dorado.C82_copies
#print axioms Dorado.C82_earlier_kept
#print axioms Dorado.C82_sweep_partial
#print axioms Dorado.C82_sweep_accepted
#print axioms Dorado.C82_still_partial
#print axioms Dorado.C82_still_differs
#print axioms Dorado.C82_roi_differs
#print axioms Dorado.C82_alias_differs
#print axioms Dorado.C83_cells
#print axioms Dorado.C83_list
#print axioms Dorado.C83_params
#print axioms Dorado.C83_changes
#print axioms Dorado.C84_float
#print axioms Dorado.C84_values_partial
#print axioms Dorado.C84_message
#print axioms Dorado.C84_bool_iff
#print axioms Dorado.C84_counterexample
#print axioms Dorado.C85_loaded_unique
#print axioms Dorado.C85_steady
#print axioms Dorado.C85_time
#print axioms Dorado.C85_unsteady
#print axioms Dorado.C85_exposure
#print axioms Dorado.C85_resume
#print axioms Dorado.C85_save_resume
#print axioms Dorado.C86_shift
#print axioms Dorado.C86_exposure
#print axioms Dorado.C87_object
#print axioms Dorado.C87_scale
#print axioms Dorado.C87_exposure
#print axioms Dorado.C87_target_counterexample
#print axioms Dorado.C88_agrees
#print axioms Dorado.C88_steady
#print axioms Dorado.C88_target
#print axioms Dorado.C88_records
#print axioms Dorado.C89_deterministic
#print axioms Dorado.C89_positions
#print axioms Dorado.C89_same_path
#print axioms Dorado.C89_ties_counterexample
#print axioms Dorado.C90_generate
#print axioms Dorado.C90_run
#print axioms Dorado.C90_target
#print axioms Dorado.C90_forward
#print axioms Dorado.C90_causal
#print axioms Dorado.C91_each
#print axioms Dorado.C91_single
#print axioms Dorado.C92_outputs
#print axioms Dorado.C92_state
#print axioms Dorado.C92_short_counterexample
#print axioms Dorado.C92_two_counterexample
#print axioms Dorado.C93_grows
#print axioms Dorado.C93_adds
#print axioms Dorado.C94_iteration
#print axioms Dorado.C94_time
#print axioms Dorado.C95_iteration
#print axioms Dorado.C95_time
#print axioms Dorado.C96_steady
#print axioms Dorado.C97_exposure
#print axioms Dorado.C97_area
#print axioms Dorado.C97_time
#print axioms Dorado.C97_curve
#print axioms Dorado.C97_thresholds
#print axioms Dorado.C98_combine
#print axioms Dorado.C98_exposure
#print axioms Dorado.C98_area
#print axioms Dorado.C98_time
#print axioms Dorado.C99_balance
#print axioms Dorado.C99_passing
#print axioms Dorado.C99_domain
#print axioms Dorado.C100_parameters
#print axioms Dorado.C100_diff_partial
#print axioms Dorado.C100_silent_counterexample
#print axioms Dorado.C100_strict_counterexample
#print axioms Dorado.C100_values
#print axioms Dorado.C101_explicit
#print axioms Dorado.C101_constructor
#print axioms Dorado.C101_inherited
#print axioms Dorado.C101_default_partial
#print axioms Dorado.C101_default_counterexample
#print axioms Dorado.C101_unsteady_counterexample
#print axioms Dorado.C102_fit_partial
#print axioms Dorado.C102_reuse
#print axioms Dorado.C102_nan_counterexample
#print axioms Dorado.C103_law
#print axioms Dorado.C103_mean
#print axioms Dorado.C103_unbiased
#print axioms Dorado.C104_law
#print axioms Dorado.C104_independent
#print axioms Dorado.C104_monte_carlo
#print axioms Dorado.C105_law
#print axioms Dorado.C105_independent
#print axioms Dorado.C105_monte_carlo
#print axioms Dorado.C106_accepts
#print axioms Dorado.C106_sample
#print axioms Dorado.C106_curve
#print axioms Dorado.C106_mean
#print axioms Dorado.C106_unbiased
#print axioms Dorado.C107_never_raises
#print axioms Dorado.C107_joint_law
#print axioms Dorado.C107_own_law
#print axioms Dorado.C107_independent
#print axioms Dorado.C107_monte_carlo
#print axioms Dorado.C107_memoryless
#print axioms Dorado.C108_split
#print axioms Dorado.C108_order
#print axioms Dorado.C109_unsteady
#print axioms Dorado.C109_unsteady_independent
#print axioms Dorado.C109_unsteady_monte_carlo
#print axioms Dorado.C109_seeded
#print axioms Dorado.C109_seeded_independent
#print axioms Dorado.C109_seeded_monte_carlo
#print axioms Dorado.C110_never_raises
#print axioms Dorado.C110_sessions
#print axioms Dorado.C110_independent
#print axioms Dorado.C111_paths
#print axioms Dorado.C111_vertical
#print axioms Dorado.C111_times
#print axioms Dorado.C111_units
#print axioms Dorado.C111_discharge_counterexample
#print axioms Dorado.C111_default_counterexample
#print axioms Dorado.C112_accepted
#print axioms Dorado.C112_together
#print axioms Dorado.C112_horizon
#print axioms Dorado.C112_stopped
#print axioms Dorado.C112_law
#print axioms Dorado.C113_reported
#print axioms Dorado.C113_residence
#print axioms Dorado.C113_curve
#print axioms Dorado.C113_snapshot
#print axioms Dorado.C113_drawn
#print axioms Dorado.C114_unbiased
#print axioms Dorado.C114_visits
#print axioms Dorado.C114_map
#print axioms Dorado.C115_rate
#print axioms Dorado.C115_mean
#print axioms Dorado.C115_iff
#print axioms Dorado.C115_ends
#print axioms Dorado.C115_trapped
#print axioms Dorado.C116_arrives
#print axioms Dorado.C116_mean
#print axioms Dorado.C116_unbiased
#print axioms Dorado.C117_rate
#print axioms Dorado.C117_final
#print axioms Dorado.C117_sample
#print axioms Dorado.C117_mean
#print axioms Dorado.C117_unbiased
#print axioms Dorado.C118_transposition
#print axioms Dorado.C118_leftRight_partial
#print axioms Dorado.C118_upDown_partial
#print axioms Dorado.C118_clamp_breaks
#print axioms Dorado.C119_unbiased
#print axioms Dorado.C119_mean
#print axioms Dorado.C119_map
#print axioms Dorado.C119_paced
#print axioms Dorado.C119_floor
#print axioms Dorado.C120_moves
#print axioms Dorado.C120_exact
#print axioms Dorado.C120_falls
#print axioms Dorado.C120_no_return
#print axioms Dorado.C120_surface
#print axioms Dorado.C120_direction
#print axioms Dorado.C120_step
#print axioms Dorado.C120_given
#print axioms Dorado.C120_velocity
#print axioms Dorado.C120_leaves
#print axioms Dorado.C120_leaves_surely
#print axioms Dorado.C120_whirlpool
#print axioms Dorado.C121_solvable
#print axioms Dorado.C121_fraction
#print axioms Dorado.C121_share
#print axioms Dorado.C121_mean
#print axioms Dorado.C121_exposure
#print axioms Dorado.C122_accepted
#print axioms Dorado.C122_visited
#print axioms Dorado.C122_region
#print axioms Dorado.C122_upstream
#print axioms Dorado.C122_flows
#print axioms Dorado.C122_law
#print axioms Dorado.C123_start
#print axioms Dorado.C123_step
#print axioms Dorado.C123_conserved
#print axioms Dorado.C123_share
#print axioms Dorado.C123_through
#print axioms Dorado.C123_out
#print axioms Dorado.C124_theta_accepted
#print axioms Dorado.C124_gamma_accepted
#print axioms Dorado.C124_theta
#print axioms Dorado.C124_theta_strict
#print axioms Dorado.C124_gamma
#print axioms Dorado.C124_gamma_surface
#print axioms Dorado.C124_gamma_discharge
#print axioms Dorado.C125_weights
#print axioms Dorado.C125_walks
#print axioms Dorado.C125_threshold
#print axioms Dorado.C125_codes
#print axioms Dorado.C125_estimated
#print axioms Dorado.C125_accepted
#print axioms Dorado.C125_same
#print axioms Dorado.C126_accepted
#print axioms Dorado.C126_paths
#print axioms Dorado.C126_linear
#print axioms Dorado.C126_zero_counterexample
#print axioms Dorado.C127_accepted
#print axioms Dorado.C127_same
#print axioms Dorado.C128_same
#print axioms Dorado.C128_begins
#print axioms Dorado.C128_warning_counterexample
#print axioms Dorado.C129_variance
#print axioms Dorado.C130_standard_error
#print axioms Dorado.C131_parts
#print axioms Dorado.C131_repeat
#print axioms Dorado.C131_random_counterexample
#print axioms Dorado.C132_order
#print axioms Dorado.C132_units
#print axioms Dorado.C132_attached
#print axioms Dorado.C132_accepted
#print axioms Dorado.C133_value_partial
#print axioms Dorado.C133_valid_partial
#print axioms Dorado.C133_attached_partial
#print axioms Dorado.C133_documented_counterexample
#print axioms Dorado.C133_crop_counterexample
#print axioms Dorado.C134_band
#print axioms Dorado.C134_atleast
#print axioms Dorado.C134_exact
#print axioms Dorado.C134_exposure
#print axioms Dorado.C134_channel
#print axioms Dorado.C134_channel_band
#print axioms Dorado.C134_channel_exposure
