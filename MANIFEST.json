{
 "claims": [
  {
   "property": "C01",
   "status": "partial",
   "theorems": [
    "Dorado.C01_almost_surely",
    "Dorado.C01_wet_neighbour_partial",
    "Dorado.C01_passable_partial",
    "Dorado.C01_zero_draw_counterexample"
   ],
   "note": "Full claim is false at the random draw 0 (C01_zero_draw_counterexample): the search returns index 0 (NW) whatever its weight. Proved for all non-zero draws, any history, both modes. C01_almost_surely: with probability one. See Props/Law for the probability space."
  },
  {
   "property": "C02",
   "status": "partial",
   "theorems": [
    "Dorado.C02_almost_surely",
    "Dorado.C02_records_partial",
    "Dorado.C02_step_partial",
    "Dorado.C02_steepest_counterexample",
    "Dorado.C02_zero_draw_counterexample"
   ],
   "note": "Full claim is false at the draw 0 and, with steepest_descent, when the cell itself is the only deepest one (both counterexamples proved). Proved for all non-zero draws otherwise. C02_almost_surely: with probability one."
  },
  {
   "property": "C03",
   "status": "proved",
   "theorems": [
    "Dorado.C03_usable_distribution"
   ],
   "note": "Every rounding satisfying Arith; includes the border clause."
  },
  {
   "property": "C04",
   "status": "proved",
   "theorems": [
    "Dorado.C04_closed_formula",
    "Dorado.C04_closed_formula_represented"
   ],
   "note": "Exact arithmetic; refinement to the closed formula of Spec/Flow.lean."
  },
  {
   "property": "C05",
   "status": "proved",
   "theorems": [
    "Dorado.C05_local"
   ],
   "note": "Every rounding."
  },
  {
   "property": "C06",
   "status": "proved",
   "theorems": [
    "Dorado.C06_gamma_one",
    "Dorado.C06_gamma_zero"
   ],
   "note": "Every rounding."
  },
  {
   "property": "C07",
   "status": "proved",
   "theorems": [
    "Dorado.C07_theta_zero",
    "Dorado.C07_theta_zero_exact"
   ],
   "note": "Every rounding (dead ends in terms of the computed flow weights) and exact arithmetic (closed formula)."
  },
  {
   "property": "C08",
   "status": "proved",
   "theorems": [
    "Dorado.C08_discharge_scaling",
    "Dorado.C08_datum_shift",
    "Dorado.C08_walks_datum",
    "Dorado.C08_walks_discharge",
    "Dorado.C08_walks_times"
   ],
   "note": "Exact arithmetic, at the level of constructor inputs. C08_walks_*: whole call sequences, draw by draw, both routing modes; C08_walks_times for any square root and arc tangent satisfying their laws (proved for the real functions)."
  },
  {
   "property": "C09",
   "status": "proved",
   "theorems": [
    "Dorado.C09_mirror_leftRight",
    "Dorado.C09_mirror_upDown",
    "Dorado.C09_transposition",
    "Dorado.C09_walks_leftRight",
    "Dorado.C09_walks_upDown",
    "Dorado.C09_walks_transposition"
   ],
   "note": "Exact arithmetic, default direction tables, at the level of constructor inputs. C09_walks_*: law of whole walks (from C75_law: edge ring, interior seeds, steepest_descent off)."
  },
  {
   "property": "C10",
   "status": "proved",
   "theorems": [
    "Dorado.C10_proportional",
    "Dorado.C10_object"
   ],
   "note": "Lebesgue measure over the reals, exact arithmetic; also for the routing decision of an object in any reachable state."
  },
  {
   "property": "C11",
   "status": "proved",
   "theorems": [
    "Dorado.C11_picks_maximum",
    "Dorado.C11_ties_even"
   ],
   "note": "Maximum choice for every rounding; tie probabilities in exact arithmetic."
  },
  {
   "property": "C12",
   "status": "proved",
   "theorems": [
    "Dorado.C12_future",
    "Dorado.C12_memoryless",
    "Dorado.C12_same_choice"
   ],
   "note": "Every rounding; stated for single decisions, for whole run_iteration calls and for any sequence of calls, exceptions caught (C12_future)."
  },
  {
   "property": "C13",
   "status": "proved",
   "theorems": [
    "Dorado.C13_discharge_orientation",
    "Dorado.C13_velocity_input_orientation",
    "Dorado.C13_velocity_direction"
   ],
   "note": "Exact arithmetic. Velocity components below 1e-8 in magnitude are replaced by +1e-8 by the code, so their direction is not claimed."
  },
  {
   "property": "C14",
   "status": "partial",
   "theorems": [
    "Dorado.C14_connected",
    "Dorado.C14_zero_dx_counterexample",
    "Dorado.C14_shared_partial",
    "Dorado.C14_twice_counterexample"
   ],
   "note": "Every rounding, any history including continuation. With dx = 0 the particle jumps to (0,0) (C14_zero_dx_counterexample), hence the non-zero hypothesis. False if an object is given its own walk data as previous_walk_data (C14_twice_counterexample); C14_shared_partial covers every program in which no object holds a particle twice."
  },
  {
   "property": "C15",
   "status": "partial",
   "theorems": [
    "Dorado.C15_aligned",
    "Dorado.C15_no_repeat",
    "Dorado.C15_shared_aligned",
    "Dorado.C15_shared_no_repeat_partial",
    "Dorado.C15_twice_counterexample"
   ],
   "note": "Every rounding. Alignment holds in all programs, with any sharing of walk data (C15_shared_aligned). A position is repeated if an object is given its own walk data (C15_twice_counterexample); otherwise never."
  },
  {
   "property": "C16",
   "status": "proved",
   "theorems": [
    "Dorado.C16_stops"
   ],
   "note": "Every rounding, any later calls."
  },
  {
   "property": "C17",
   "status": "proved",
   "theorems": [
    "Dorado.C17_inside",
    "Dorado.C17_no_crash",
    "Dorado.C17_default_ring",
    "Dorado.C17_shared_inside",
    "Dorado.C17_shared_no_crash"
   ],
   "note": "Every rounding, any history. No exception at all is raised (with target: at least one particle, see C26). Default step tables, non-zero steps, no infinite angles. Also for programs in which walk data is shared in any way, including particles held twice (C17_shared_*)."
  },
  {
   "property": "C18",
   "status": "partial",
   "theorems": [
    "Dorado.C18_shared_finite",
    "Dorado.C18_shared_partial",
    "Dorado.C18_twice_counterexample",
    "Dorado.C18_monotone",
    "Dorado.C18_large_diffusion_counterexample"
   ],
   "note": "Every rounding that represents -1/2 and -1. The bound diff_coeff <= 2 is needed (C18_large_diffusion_counterexample). False if an object is given its own walk data (C18_twice_counterexample); finite and not before the seed time in all programs (C18_shared_finite)."
  },
  {
   "property": "C19",
   "status": "proved",
   "theorems": [
    "Dorado.C19_formula",
    "Dorado.C19_band"
   ],
   "note": "Exact arithmetic, any history: every pair of consecutive records satisfies the formula; the band follows from it."
  },
  {
   "property": "C20",
   "status": "proved",
   "theorems": [
    "Dorado.C20_projection",
    "Dorado.C20_along_flow"
   ],
   "note": "Real numbers with the true cosine and arc tangent; concrete history in Props/TimeReal.lean."
  },
  {
   "property": "C21",
   "status": "proved",
   "theorems": [
    "Dorado.C21_append_only"
   ],
   "note": "Every rounding, any later calls without previous_walk_data; the order with previous data is C32."
  },
  {
   "property": "C22",
   "status": "partial",
   "theorems": [
    "Dorado.C22_one_step",
    "Dorado.C22_shared_partial",
    "Dorado.C22_twice_counterexample"
   ],
   "note": "Every rounding. False if an object is given its own walk data (C22_twice_counterexample)."
  },
  {
   "property": "C23",
   "status": "proved",
   "theorems": [
    "Dorado.C23_terminates",
    "Dorado.C23_bound"
   ],
   "note": "Termination: the recursion bound of the model is never hit, for every state. Bound: max 1 max_iter records per particle."
  },
  {
   "property": "C24",
   "status": "proved",
   "theorems": [
    "Dorado.C24_ends_near",
    "Dorado.C24_window"
   ],
   "note": "Exact arithmetic, non-zero draws, default tables. Ends: limit, a cell where particles may stand still, or the documented inequality."
  },
  {
   "property": "C25",
   "status": "partial",
   "theorems": [
    "Dorado.C25_idempotent_partial",
    "Dorado.C25_short_step_counterexample"
   ],
   "note": "Full claim is false when the last step took less than 0.1 (C25_short_step_counterexample): the estimate is clamped at the end of a call but not at the beginning of the next. Proved for last steps of at least 0.1 and for calls that took no step."
  },
  {
   "property": "C26",
   "status": "partial",
   "theorems": [
    "Dorado.C26_last_particle_partial",
    "Dorado.C26_no_particles",
    "Dorado.C26_two_particles_counterexample"
   ],
   "note": "Full claim is false: the list is reset for each particle, so only the last one can be reported (C26_two_particles_counterexample), and with no particles the call raises UnboundLocalError (C26_no_particles). Proved: the warning names the last particle iff it was stopped by the limit."
  },
  {
   "property": "C27",
   "status": "proved",
   "theorems": [
    "Dorado.C27_fresh",
    "Dorado.C27_cleared",
    "Dorado.C27_seeded"
   ],
   "note": "Every rounding; never a ValueError after seeding provided no step angle is infinite."
  },
  {
   "property": "C28",
   "status": "proved",
   "theorems": [
    "Dorado.C28_tracked",
    "Dorado.C28_shared"
   ],
   "note": "Every rounding; histories on one object, and all programs with shared walk data whose objects have the same grid (C28_shared)."
  },
  {
   "property": "C29",
   "status": "partial",
   "theorems": [
    "Dorado.C29_roi_partial",
    "Dorado.C29_previous_counterexample",
    "Dorado.C29_shared_partial"
   ],
   "note": "False for previous walk data without roi_flag (counterexample proved). Proved when all objects involved share the region grid."
  },
  {
   "property": "C30",
   "status": "proved",
   "theorems": [
    "Dorado.C30_exact",
    "Dorado.C30_even",
    "Dorado.C30_succeeds"
   ],
   "note": "Start positions, even distribution and success for every count and equally long non-empty lists."
  },
  {
   "property": "C31",
   "status": "proved",
   "theorems": [
    "Dorado.C31_succeeds",
    "Dorado.C31_members",
    "Dorado.C31_joint_law"
   ],
   "note": "Every stream of draws; the joint law of all N start positions over independent uniform draws is the product of the uniform laws (Lebesgue product measure)."
  },
  {
   "property": "C32",
   "status": "proved",
   "theorems": [
    "Dorado.C32_accumulates",
    "Dorado.C32_reachable"
   ],
   "note": "Order previous, held, new, for positions, times and optional variables; Np_tracer over all call histories."
  },
  {
   "property": "C33",
   "status": "proved",
   "theorems": [
    "Dorado.C33_one_record"
   ],
   "note": "All seeds and times, including the optional variables."
  },
  {
   "property": "C34",
   "status": "partial",
   "theorems": [
    "Dorado.C34_input_check",
    "Dorado.C34_rejected",
    "Dorado.C34_type_error_partial",
    "Dorado.C34_unknown_method",
    "Dorado.C34_unknown_variable",
    "Dorado.C34_unchanged",
    "Dorado.C34_models_agree",
    "Dorado.C34_strings_accepted"
   ],
   "note": "Unchanged state proved on a statement-level model with assignments, shown to agree with the functional model. C34_input_check says exactly what gen_input_check accepts and returns (numbers, texts Python reads as integers, their lists, texts of digits as lists); C34_rejected that everything else raises TypeError, or ValueError for an unknown method. Partial: strings that int() accepts (digit strings) are accepted as count and as locations, so 'non-numeric' raises only for other values (counterexample proved)."
  },
  {
   "property": "C35",
   "status": "proved",
   "theorems": [
    "Dorado.C35_fields",
    "Dorado.C35_shapes",
    "Dorado.C35_keeps_inputs"
   ],
   "note": "All inputs with finite or NaN cells; shapes and kept input values as well."
  },
  {
   "property": "C36",
   "status": "proved",
   "theorems": [
    "Dorado.C36_decides"
   ],
   "note": "Full decision table for arrays of one common shape, including arrays too small for the weights (IndexError)."
  },
  {
   "property": "C37",
   "status": "proved",
   "theorems": [
    "Dorado.C37_rounded",
    "Dorado.C37_exact"
   ],
   "note": "C37_exact: every origin, size and positive cell size in exact arithmetic. C37_rounded: any rounding of relative error eps with a smallness condition on eps; instantiated with a constructed 53-bit round-to-nearest-even arithmetic."
  },
  {
   "property": "C38",
   "status": "proved",
   "theorems": [
    "Dorado.C38_nearest",
    "Dorado.C38_total"
   ],
   "note": "Exact arithmetic; C38_total shows the call succeeds for every non-zero cell size and any rounding."
  },
  {
   "property": "C39",
   "status": "partial",
   "theorems": [
    "Dorado.C39_valid_iff_partial",
    "Dorado.C39_origin_counterexample"
   ],
   "note": "False as stated: C39_origin_counterexample (the origin itself maps to row L). C39_valid_iff_partial characterises exactly which coordinates in the extent map to a valid index."
  },
  {
   "property": "C40",
   "status": "proved",
   "theorems": [
    "Dorado.C40_bounds",
    "Dorado.C40_monotone"
   ],
   "note": "Upper bound in exact arithmetic; non-negativity and monotonicity in the region for every rounding."
  },
  {
   "property": "C41",
   "status": "proved",
   "theorems": [
    "Dorado.C41_additive",
    "Dorado.C41_complement"
   ],
   "note": "Exact arithmetic."
  },
  {
   "property": "C42",
   "status": "proved",
   "theorems": [
    "Dorado.C42_formula",
    "Dorado.C42_extremes"
   ],
   "note": "Exact arithmetic. Region arrays are integer arrays (as documented); boolean arrays add differently in numpy."
  },
  {
   "property": "C43",
   "status": "proved",
   "theorems": [
    "Dorado.C43_message"
   ],
   "note": "Every rounding; the message lists the indices in ascending order without repetition."
  },
  {
   "property": "C44",
   "status": "partial",
   "theorems": [
    "Dorado.C44_range_partial",
    "Dorado.C44_dense_partial",
    "Dorado.C44_sparse_counterexample",
    "Dorado.C44_sparse_witness_counterexample"
   ],
   "note": "False as stated: C44_sparse_counterexample (percentile among the unvisited cells: everything is NaN), concrete witness at the default clip=99.5. C44_range_partial: range [0,1] and maximum 1 or all NaN, every rounding, smoothing operator and percentile. C44_dense_partial: the full claim when the percentile lies beyond the unvisited cells, exact arithmetic."
  },
  {
   "property": "C45",
   "status": "proved",
   "theorems": [
    "Dorado.C45_counts"
   ],
   "note": "Exact arithmetic."
  },
  {
   "property": "C46",
   "status": "proved",
   "theorems": [
    "Dorado.C46_mean",
    "Dorado.C46_nonneg",
    "Dorado.C46_total"
   ],
   "note": "C46_mean and C46_total in exact arithmetic; C46_nonneg for every rounding, smoothing operator and percentile."
  },
  {
   "property": "C47",
   "status": "proved",
   "theorems": [
    "Dorado.C47_idw",
    "Dorado.C47_nearest",
    "Dorado.C47_range",
    "Dorado.C47_linear",
    "Dorado.C47_few_points"
   ],
   "note": "Exact arithmetic; correct neighbour search assumed for scipy, shown to exist for every point set (brute_correct). k>1: inverse-distance weighted mean on the stated grid, range, constants, linearity; k=1: nearest datum; fewer points than k: IndexError."
  },
  {
   "property": "C48",
   "status": "partial",
   "theorems": [
    "Dorado.C48_outside",
    "Dorado.C48_crop",
    "Dorado.C48_border_partial",
    "Dorado.C48_interior_counterexample"
   ],
   "note": "Outside cells NaN, inside unchanged; crop keeps exactly the rows and columns with a value, in order, under any rounding. The clause 'only border rows/columns are removed' is false (interior all-NaN columns go too): counterexample, and the partial theorem covers masks without interior gaps."
  },
  {
   "property": "C49",
   "status": "partial",
   "theorems": [
    "Dorado.C49_rounded_partial",
    "Dorado.C49_exact_partial",
    "Dorado.C49_errors",
    "Dorado.C49_column_assertion",
    "Dorado.C49_column_counterexample"
   ],
   "note": "One-dimensional series: exact arithmetic for all sizes, and with rounding (any summation order, relative error u with (N+1)(n+3)u<1). Any sorting order of ties. Missing: series given as a column, where the code raises AssertionError (C49_column_assertion, counterexample)."
  },
  {
   "property": "C50",
   "status": "partial",
   "theorems": [
    "Dorado.C50_quota_partial",
    "Dorado.C50_scale",
    "Dorado.C50_column_counterexample"
   ],
   "note": "One-dimensional series, exact arithmetic; also invariance under units and flow reversal. Missing: column series, where the left-over particle goes to the first timestep (counterexample)."
  },
  {
   "property": "C51",
   "status": "proved",
   "theorems": [
    "Dorado.C51_concatenates",
    "Dorado.C51_position",
    "Dorado.C51_new_key"
   ],
   "note": "All lists of worker dictionaries with distinct keys. Also: a key only a later worker has raises KeyError."
  },
  {
   "property": "C52",
   "status": "proved",
   "theorems": [
    "Dorado.C52_blocks",
    "Dorado.C52_walks",
    "Dorado.C52_succeeds",
    "Dorado.C52_no_iterations"
   ],
   "note": "Any rounding, schedule and worker streams: the blocks are exactly serial runs of the executing worker's stream; each particle is an aligned, connected walk from a seed with at most num_iter moves; success on enclosed grids; num_iter <= 0 raises UnboundLocalError. The object must hold no walk data."
  },
  {
   "property": "C53",
   "status": "partial",
   "theorems": [
    "Dorado.C53_fork_copies",
    "Dorado.C53_same_worker_partial",
    "Dorado.C53_counterexample"
   ],
   "note": "False under fork: theorem that with inherited generators and one task per worker all blocks are copies (C53_fork_copies), with a concrete run. The partial theorem covers tasks executed one after the other by the same worker."
  },
  {
   "property": "C54",
   "status": "proved",
   "theorems": [
    "Dorado.C54_plot_state",
    "Dorado.C54_slice",
    "Dorado.C54_reachable"
   ],
   "note": "Any rounding. get_state on every aligned walk, any k: one entry per particle and field, taken from record k or the last one. Walk data of every history are aligned."
  },
  {
   "property": "C55",
   "status": "proved",
   "theorems": [
    "Dorado.C55_plot_state",
    "Dorado.C55_nearest",
    "Dorado.C55_exact"
   ],
   "note": "Any rounding: the record is the first minimiser of the computed |t - T|; exact arithmetic: of |t - T|. Times minus T must not be NaN."
  },
  {
   "property": "C56",
   "status": "partial",
   "theorems": [
    "Dorado.C56_maps",
    "Dorado.C56_entries_partial",
    "Dorado.C56_started",
    "Dorado.C56_border"
   ],
   "note": "Entries, NaN pattern and order proved for every rounding; particles starting on a border between chunks also appear in the chunk before it (C56_border), so the full claim is proved without such starts (C56_started)."
  },
  {
   "property": "C57",
   "status": "partial",
   "theorems": [
    "Dorado.C57_tiling",
    "Dorado.C57_total_partial",
    "Dorado.C57_counterexample"
   ],
   "note": "The chunks tile the raster (C57_tiling), but attribution uses inclusive bounds: C57_counterexample. C57_total_partial gives the exact multiplicities."
  },
  {
   "property": "C58",
   "status": "proved",
   "theorems": [
    "Dorado.C58_localized",
    "Dorado.C58_reachable"
   ],
   "note": "Every rounding; also along every history of calls."
  },
  {
   "property": "C59",
   "status": "proved",
   "theorems": [
    "Dorado.C59_ordered",
    "Dorado.C59_float",
    "Dorado.C59_nan",
    "Dorado.C59_maps",
    "Dorado.C59_unfiltered",
    "Dorado.C59_filtered",
    "Dorado.C59_filter_counterexample",
    "Dorado.C59_reachable"
   ],
   "note": "Maps and chunks; the density estimate is a parameter. C59_filter_counterexample: the order of the three maps is not kept by the outlier filter. Range after filtering in exact arithmetic."
  },
  {
   "property": "C60",
   "status": "proved",
   "theorems": [
    "Dorado.C60_nan",
    "Dorado.C60_constant",
    "Dorado.C60_range",
    "Dorado.C60_range_rounded"
   ],
   "note": "NaN pattern and constant windows for every symmetric rounding with exact doubling (shown for doubles); range in exact arithmetic, and up to (w+1)^2+2 relative rounding errors for values >= 0 in any rounding, with numpy's pairwise summation modelled. A floating-point mean may leave the exact range by rounding."
  },
  {
   "property": "C61",
   "status": "partial",
   "theorems": [
    "Dorado.C61_level",
    "Dorado.C61_one_handler",
    "Dorado.C61_only_dorado",
    "Dorado.C61_idempotent",
    "Dorado.C61_invalid_partial",
    "Dorado.C61_counterexample",
    "Dorado.C61_verbose"
   ],
   "note": "Proved for any sequence of setup_logging / verbose= calls mixed with handlers added or removed by the user. Partial because of the exception class: the names of non-level attributes such as '_styles' and bytes raise TypeError instead of ValueError (C61_counterexample); level and handlers are unchanged in every invalid case."
  },
  {
   "property": "C62",
   "status": "proved",
   "theorems": [
    "Dorado.C62_steps",
    "Dorado.C62_target",
    "Dorado.C62_succeeds"
   ],
   "note": "C62_steps: any rounding, draws, directory content: whenever unsteady_plots returns it has run min(num_steps, outputs) steps, step i on file i of the sorted listing, each walk extending the previous one for the same particles. C62_target: step i ends at (i+1)*t in exact arithmetic. C62_succeeds: it does return for readable files on one grid and interior seeds."
  },
  {
   "property": "C63",
   "status": "proved",
   "theorems": [
    "Dorado.C63_curve",
    "Dorado.C63_thresholds",
    "Dorado.C63_smooth"
   ],
   "note": "Any rounding. Both functions. C63_smooth: the smoothed values are the fractions of counted exposure times."
  },
  {
   "property": "C64",
   "status": "proved",
   "theorems": [
    "Dorado.C64_returned",
    "Dorado.C64_returned_variables",
    "Dorado.C64_live",
    "Dorado.C64_previous",
    "Dorado.C64_previous_variables",
    "Dorado.C64_both",
    "Dorado.C64_extends",
    "Dorado.C64_separate"
   ],
   "note": "Separate model with list objects by reference (Model/Heap): programs with any number of objects and kept dictionaries. Returned and previous dictionaries show the very lists of the object until clear_walk_data; two objects continued from the same dictionary show each other's records. Tracked variables: when all objects track the same ones. C64_separate: programs that only hand over particles behave as the value model."
  },
  {
   "property": "C65",
   "status": "partial",
   "theorems": [
    "Dorado.C65_state_partial",
    "Dorado.C65_exposure_partial",
    "Dorado.C65_thresholds_partial",
    "Dorado.C65_steady_partial",
    "Dorado.C65_time_partial",
    "Dorado.C65_counterexample"
   ],
   "note": "False: get_state returns 3 or 4 values and each caller unpacks a fixed number (C65_counterexample). The _partial theorems say exactly which walk data each helper accepts; plot_exposure_time_thresholds also needs 90 per cent of the particles counted. unsteady_plots never has optional variables: C62_succeeds."
  },
  {
   "property": "C66",
   "status": "proved",
   "theorems": [
    "Dorado.C66_progress"
   ],
   "note": "Every rounding, non-zero draws, default tables."
  },
  {
   "property": "C67",
   "status": "proved",
   "theorems": [
    "Dorado.C67_valid",
    "Dorado.C67_pipeline",
    "Dorado.C67_exact"
   ],
   "note": "Any rounding that represents -1/2 and -1 exactly; bounds by the travel time and the coordinate round trip in exact arithmetic."
  },
  {
   "property": "C68",
   "status": "proved",
   "theorems": [
    "Dorado.C68_contract",
    "Dorado.C68_time"
   ],
   "note": "Any history and draws on an enclosed grid: succeeds, one result per particle, stays or moves to an interior neighbour, sampled variables at the new position; times never decrease for diff_coeff <= 2 and dx >= 0. Positions passed as lists, as run_iteration does; tuples are C76."
  },
  {
   "property": "C69",
   "status": "proved",
   "theorems": [
    "Dorado.C69_reported",
    "Dorado.C69_exact",
    "Dorado.C69_thresholds"
   ],
   "note": "C69_reported, C69_thresholds: any rounding, including the 1e-12 tolerance of the code; C69_exact: exact arithmetic and at most 10^10 particles, where the tolerance does not matter."
  },
  {
   "property": "C70",
   "status": "proved",
   "theorems": [
    "Dorado.C70_as_new",
    "Dorado.C70_needs_particles"
   ],
   "note": "C70_as_new over the transcript (returned data or exception, logger messages, walk data, stream position; statement-level semantics, so calls may follow a caught exception) of any sequence of calls; the attribute Np_tracer itself keeps its value (not observable through the modelled calls). C70_needs_particles."
  },
  {
   "property": "C71",
   "status": "partial",
   "theorems": [
    "Dorado.C71_succeeds",
    "Dorado.C71_count_partial",
    "Dorado.C71_tails",
    "Dorado.C71_colour_is_age",
    "Dorado.C71_colours",
    "Dorado.C71_head_partial",
    "Dorado.C71_past",
    "Dorado.C71_reachable",
    "Dorado.C71_count_counterexample",
    "Dorado.C71_head_counterexample"
   ],
   "note": "Two clauses are false, with counterexamples: one figure less than num_steps is saved, and the head of the figure titled ii is record ii-1 (record 1 in the first figure). Everything else proved in full."
  },
  {
   "property": "C72",
   "status": "partial",
   "theorems": [
    "Dorado.C72_succeeds",
    "Dorado.C72_all",
    "Dorado.C72_paths",
    "Dorado.C72_effect_partial",
    "Dorado.C72_counterexample"
   ],
   "note": "Success and paths in full. 'Changes nothing' is false: np.random.rand(3) per path moves the stream of the walks (C72_counterexample: a walk differs after drawing); C72_effect_partial bounds the effect exactly."
  },
  {
   "property": "C73",
   "status": "proved",
   "theorems": [
    "Dorado.C73_steady",
    "Dorado.C73_time",
    "Dorado.C73_last",
    "Dorado.C73_unsteady"
   ],
   "note": "Full claim for all three functions at every reachable state; figure contents specified by AtNewest/AtStart on the walk data of an independent iteration of run_iteration (AfterRuns)."
  },
  {
   "property": "C74",
   "status": "partial",
   "theorems": [
    "Dorado.C74_frames_partial",
    "Dorado.C74_after_steady",
    "Dorado.C74_counterexample"
   ],
   "note": "end_val itself is not shown (range excludes it): counterexample; frames characterised exactly (partial). animate_plots(0, num_iter) is proved to show exactly the saved figures."
  },
  {
   "property": "C75",
   "status": "proved",
   "theorems": [
    "Dorado.C75_law"
   ],
   "note": "C75_law: exact arithmetic over the reals, default tables, cell types with an edge ring, interior seeds, random or steepest-descent routing, any diffusivity; uniformDraws is the infinite product of the uniform distribution on [0,1); moveProb uses the closed formula for the weights. C01_almost_surely and C02_almost_surely give the last sentence (listed under C01, C02)."
  },
  {
   "property": "C76",
   "status": "partial",
   "theorems": [
    "Dorado.C76_tuples_partial",
    "Dorado.C76_moving",
    "Dorado.C76_time",
    "Dorado.C76_counterexample",
    "Dorado.C76_shift_counterexample"
   ],
   "note": "False for particles that stay: C76_counterexample (tuple != list is always true, so a particle held at an edge gets the time of the step it did not make), and with diffusion also for particles that move when another stays (C76_shift_counterexample: the staying particle takes its random number). Proved: same success, positions and variables always; same times of moving particles and same draws without diffusion; equal results when every particle moves, diffusion included; no time decreases."
  },
  {
   "property": "C77",
   "status": "proved",
   "theorems": [
    "Dorado.C77_density"
   ],
   "note": "Proved in exact arithmetic (float gradients differ by rounding). End time 0 gives NaN densities (example beside the theorem)."
  },
  {
   "property": "C78",
   "status": "partial",
   "theorems": [
    "Dorado.C78_area_opacity",
    "Dorado.C78_time_opacity",
    "Dorado.C78_area_partial",
    "Dorado.C78_time_partial",
    "Dorado.C78_uniform_counterexample",
    "Dorado.C78_area_run",
    "Dorado.C78_time_run"
   ],
   "note": "Range and order of the opacities for any rounding; proportions in exact arithmetic; run-level theorems for maps computed from walks. The clause on the greatest value is false when all values are equal (C78_uniform_counterexample): everything gets the lowest colour."
  },
  {
   "property": "C79",
   "status": "partial",
   "theorems": [
    "Dorado.C79_aligned_partial",
    "Dorado.C79_stretched_counterexample"
   ],
   "note": "False when the resolution factor does not divide the raster size (C79_stretched_counterexample, for all such sizes with at least two chunks): the last chunk is larger, but the image divides the extent equally. Proved for all other sizes. Interpolation between cells is not modelled."
  },
  {
   "property": "C80",
   "status": "partial",
   "theorems": [
    "Dorado.C80_accepts",
    "Dorado.C80_labels_partial",
    "Dorado.C80_floor",
    "Dorado.C80_counterexample"
   ],
   "note": "False for levels that are not whole numbers (truncated), and the returned list of axes is always empty: C80_counterexample, with the arguments of the test suite. Proved: acceptance, labels of whole levels, labels in general are the whole numbers below."
  },
  {
   "property": "C81",
   "status": "partial",
   "theorems": [
    "Dorado.C81_state_partial",
    "Dorado.C81_lengths",
    "Dorado.C81_iff_partial",
    "Dorado.C81_time_partial",
    "Dorado.C81_again",
    "Dorado.C81_plots_counterexample",
    "Dorado.C81_fresh",
    "Dorado.C81_program_partial",
    "Dorado.C81_counterexample"
   ],
   "note": "Proved right after the call in any program (C81_fresh), after a repeated call (C81_again), and for records every particle had at the time of the call. Later records are wrong: C81_iff_partial says exactly when get_state is right, C81_lengths how many locations are listed twice, C81_counterexample is a program. get_time_state raises IndexError instead (C81_time_partial). plot_state and plot_exposure_time_thresholds raise ValueError (C81_plots_counterexample)."
  },
  {
   "property": "C82",
   "status": "partial",
   "theorems": [
    "Dorado.C82_values",
    "Dorado.C82_copies",
    "Dorado.C82_earlier_kept",
    "Dorado.C82_sweep_partial",
    "Dorado.C82_sweep_accepted",
    "Dorado.C82_still_partial",
    "Dorado.C82_still_differs",
    "Dorado.C82_roi_differs",
    "Dorado.C82_alias_differs"
   ],
   "note": "Proved for fields in different array objects (the flow components may share one): C82_values, C82_copies, C82_earlier_kept. The loop (C82_sweep_partial) needs velocities that are neither missing nor below 1e-8 and a region given for all objects or none: otherwise false (C82_still_differs, C82_roi_differs); C82_still_partial says which attributes still agree. A stage array that is also the depth array is a counterexample (C82_alias_differs)."
  },
  {
   "property": "C83",
   "status": "proved",
   "theorems": [
    "Dorado.C83_cells",
    "Dorado.C83_list",
    "Dorado.C83_params",
    "Dorado.C83_changes"
   ],
   "note": "Cell by cell for every array in memory (C83_cells), the list (C83_list), the parameter object (C83_params). Fields in different array objects. C83_changes shows each change happening."
  },
  {
   "property": "C84",
   "status": "partial",
   "theorems": [
    "Dorado.C84_float",
    "Dorado.C84_values_partial",
    "Dorado.C84_message",
    "Dorado.C84_bool_iff",
    "Dorado.C84_counterexample"
   ],
   "note": "Floating point: proved (C84_float). Boolean: the message is the same (C84_message), the times are not: steps inside the region count half (C84_values_partial, C84_counterexample); C84_bool_iff says exactly when they agree."
  },
  {
   "property": "C85",
   "status": "proved",
   "theorems": [
    "Dorado.C85_loaded_unique",
    "Dorado.C85_steady",
    "Dorado.C85_time",
    "Dorado.C85_unsteady",
    "Dorado.C85_exposure",
    "Dorado.C85_resume",
    "Dorado.C85_save_resume"
   ],
   "note": "Text written and reader modelled character by character; float(repr(x)) == x and the form of repr are hypotheses (Faithful), shown satisfiable for rationals (ratText_faithful). Walk data with tracked variables never reach the file (the routines raise before, C65), so the file theorems are about data without them; C85_resume covers tracked variables."
  },
  {
   "property": "C86",
   "status": "proved",
   "theorems": [
    "Dorado.C86_shift",
    "Dorado.C86_exposure"
   ],
   "note": "Two-run relation over the whole transcript of calls; exact arithmetic (with rounding, sums at different magnitudes round differently)."
  },
  {
   "property": "C87",
   "status": "proved",
   "theorems": [
    "Dorado.C87_object",
    "Dorado.C87_scale",
    "Dorado.C87_exposure",
    "Dorado.C87_target_counterexample"
   ],
   "note": "Two-run relation; ScaleExact is proved for exact arithmetic (any c) and binary floats (powers of two). C87_target_counterexample shows that the restriction to calls without target time is needed."
  },
  {
   "property": "C88",
   "status": "proved",
   "theorems": [
    "Dorado.C88_agrees",
    "Dorado.C88_steady",
    "Dorado.C88_target",
    "Dorado.C88_records"
   ],
   "note": "About the statement-level model of run_iteration (Model/RunStmt), which C88_agrees relates to the functional one. The histories of all other theorems (Reach, Later) contain caught exceptions of run_iteration as well."
  },
  {
   "property": "C89",
   "status": "proved",
   "theorems": [
    "Dorado.C89_deterministic",
    "Dorado.C89_positions",
    "Dorado.C89_same_path",
    "Dorado.C89_ties_counterexample"
   ],
   "note": "NoTies is about the weights of make_weight (see C09, C10). Draws that are exactly zero are excluded: such a draw picks the first direction whatever its weight (C11)."
  },
  {
   "property": "C90",
   "status": "proved",
   "theorems": [
    "Dorado.C90_generate",
    "Dorado.C90_run",
    "Dorado.C90_target",
    "Dorado.C90_forward",
    "Dorado.C90_causal"
   ],
   "note": "Stated for the statement-level methods from any object state. The stream is numbers 0, 1, ... as returned by successive calls of numpy's generator; one number per call of np.random."
  },
  {
   "property": "C91",
   "status": "proved",
   "theorems": [
    "Dorado.C91_each",
    "Dorado.C91_single"
   ],
   "note": "Stated for calls that return. The worlds between the particles are existential but chained: the first is that of the object, the last that of the result."
  },
  {
   "property": "C92",
   "status": "proved",
   "theorems": [
    "Dorado.C92_outputs",
    "Dorado.C92_state",
    "Dorado.C92_short_counterexample",
    "Dorado.C92_two_counterexample"
   ],
   "note": "The loop compares with the raw duration of the last step when a call starts and with max(0.1, duration) inside it (particle_track.py:728, 764), hence the condition on short steps. The estimate at the beginning must not be negative; recorded times never decrease for diff_coeff <= 2 (C18)."
  },
  {
   "property": "C93",
   "status": "proved",
   "theorems": [
    "Dorado.C93_grows",
    "Dorado.C93_adds"
   ],
   "note": "wd.since wd' is the walk data made of the records of wd' from the last one of wd on (Spec/Continue.lean)."
  },
  {
   "property": "C94",
   "status": "proved",
   "theorems": [
    "Dorado.C94_iteration",
    "Dorado.C94_time"
   ],
   "note": "Later calls include new seeds; particles keep their index (C21)."
  },
  {
   "property": "C95",
   "status": "proved",
   "theorems": [
    "Dorado.C95_iteration",
    "Dorado.C95_time"
   ],
   "note": "Messages are modelled by the particles they are about; the text is not. For particle data with NaN times no claim is made."
  },
  {
   "property": "C96",
   "status": "proved",
   "theorems": [
    "Dorado.C96_steady"
   ],
   "note": "Says what happens when unsteady_plots returns; C62 gives conditions under which it does."
  },
  {
   "property": "C97",
   "status": "proved",
   "theorems": [
    "Dorado.C97_exposure",
    "Dorado.C97_area",
    "Dorado.C97_time",
    "Dorado.C97_curve",
    "Dorado.C97_thresholds"
   ],
   "note": "With rounded sums the last digits of nourishment_time can depend on the order (an example in Props/Pool.lean shows it)."
  },
  {
   "property": "C98",
   "status": "proved",
   "theorems": [
    "Dorado.C98_combine",
    "Dorado.C98_exposure",
    "Dorado.C98_area",
    "Dorado.C98_time"
   ],
   "note": "Maps for two parts; more parts by repeating. The claims about maps are for sigma = 0 and clip = 100."
  },
  {
   "property": "C99",
   "status": "proved",
   "theorems": [
    "Dorado.C99_balance",
    "Dorado.C99_passing",
    "Dorado.C99_domain"
   ],
   "note": "Smoothing and clipping change map values, so the identity is for sigma = 0 and clip = 100."
  },
  {
   "property": "C100",
   "status": "partial",
   "theorems": [
    "Dorado.C100_parameters",
    "Dorado.C100_diff_partial",
    "Dorado.C100_silent_counterexample",
    "Dorado.C100_strict_counterexample",
    "Dorado.C100_values"
   ],
   "note": "The claim about diff_coeff is false with verbose=False (a negative value is replaced silently) and with warnings turned into exceptions (values below 0 or from 2 on are replaced by the default 0.2); proved otherwise."
  },
  {
   "property": "C101",
   "status": "partial",
   "theorems": [
    "Dorado.C101_explicit",
    "Dorado.C101_constructor",
    "Dorado.C101_inherited",
    "Dorado.C101_default_partial",
    "Dorado.C101_default_counterexample",
    "Dorado.C101_unsteady_counterexample"
   ],
   "note": "False as documented: right after import leaving verbose out shows nothing, and unsteady_plots switches the messages off for the rest of the session. Proved: explicit verbose, the rule for None, and the documented default once a level of INFO or below was set."
  },
  {
   "property": "C102",
   "status": "partial",
   "theorems": [
    "Dorado.C102_fit_partial",
    "Dorado.C102_reuse",
    "Dorado.C102_nan_counterexample"
   ],
   "note": "False if one of the quantities contains NaN and crop is used (rows and columns are removed according to the NaN of the quantity itself, not of the boundary); proved for quantities without NaN. Reuse of the returned function is proved for any data and rounding."
  },
  {
   "property": "C103",
   "status": "proved",
   "theorems": [
    "Dorado.C103_law",
    "Dorado.C103_mean",
    "Dorado.C103_unbiased"
   ],
   "note": "Joint law of path and durations, mean and mean square deviation along a path, and equality of the expected travel time for different diff_coeff (with integrability)."
  },
  {
   "property": "C104",
   "status": "proved",
   "theorems": [
    "Dorado.C104_law",
    "Dorado.C104_independent",
    "Dorado.C104_monte_carlo"
   ],
   "note": "Joint law as a product measure, independence and marginal laws, Hoeffding bound for averages over the particles."
  },
  {
   "property": "C105",
   "status": "proved",
   "theorems": [
    "Dorado.C105_law",
    "Dorado.C105_independent",
    "Dorado.C105_monte_carlo"
   ],
   "note": "Joint law of start cells and courses as a product of one law, independence, Hoeffding bound."
  },
  {
   "property": "C106",
   "status": "proved",
   "theorems": [
    "Dorado.C106_accepts",
    "Dorado.C106_sample",
    "Dorado.C106_curve",
    "Dorado.C106_mean",
    "Dorado.C106_unbiased"
   ],
   "note": "exposure_time succeeds, samples independent with one law, Hoeffding bound for the curve at each time, mean equal to the one with diffusion-free durations."
  },
  {
   "property": "C107",
   "status": "proved",
   "theorems": [
    "Dorado.C107_never_raises",
    "Dorado.C107_joint_law",
    "Dorado.C107_own_law",
    "Dorado.C107_independent",
    "Dorado.C107_monte_carlo",
    "Dorado.C107_memoryless"
   ],
   "note": "Never raises, joint law is the product of the single-particle laws, independence, Hoeffding bound, law determined by the walk data; any rounding and any calls."
  },
  {
   "property": "C108",
   "status": "proved",
   "theorems": [
    "Dorado.C108_split",
    "Dorado.C108_order"
   ],
   "note": "Joint law over objects with independent streams equals the joint law in one object, for any way of spreading the particles; order of the particles. The workers of parallel_routing share copies of one stream instead (C53), so this is about objects with their own random numbers."
  },
  {
   "property": "C109",
   "status": "proved",
   "theorems": [
    "Dorado.C109_unsteady",
    "Dorado.C109_unsteady_independent",
    "Dorado.C109_unsteady_monte_carlo",
    "Dorado.C109_seeded",
    "Dorado.C109_seeded_independent",
    "Dorado.C109_seeded_monte_carlo"
   ],
   "note": "unsteady_plots under exact arithmetic; random seeding followed by any calls of run_iteration under any rounding. Success of the calls is C62_succeeds and C31_succeeds."
  },
  {
   "property": "C110",
   "status": "proved",
   "theorems": [
    "Dorado.C110_never_raises",
    "Dorado.C110_sessions",
    "Dorado.C110_independent"
   ],
   "note": "Joint law over any number of sessions with independent streams equals the joint law of one session; particles stay independent. The exact continuation with the same stream is C85."
  },
  {
   "property": "C111",
   "status": "proved",
   "theorems": [
    "Dorado.C111_paths",
    "Dorado.C111_vertical",
    "Dorado.C111_times",
    "Dorado.C111_units",
    "Dorado.C111_discharge_counterexample",
    "Dorado.C111_default_counterexample"
   ],
   "note": "Two-run relation over whole transcripts, exact arithmetic, any power function that is multiplicative on positive numbers (proved for the real one). C111_discharge_counterexample and C111_default_counterexample show that the conditions on the kind of flow input and on dry_depth are needed; for target times see C87_target_counterexample."
  },
  {
   "property": "C112",
   "status": "proved",
   "theorems": [
    "Dorado.C112_accepted",
    "Dorado.C112_together",
    "Dorado.C112_horizon",
    "Dorado.C112_stopped",
    "Dorado.C112_law"
   ],
   "note": "Any rounding. Pathwise for all particles together while none is next to the ring (C112_together, unconditional form C112_horizon), pathwise for one particle stopped at the ring (C112_stopped), joint law for any number (C112_law; with several particles the streams differ once one has stopped, so only the laws agree)."
  },
  {
   "property": "C113",
   "status": "proved",
   "theorems": [
    "Dorado.C113_reported",
    "Dorado.C113_residence",
    "Dorado.C113_curve",
    "Dorado.C113_snapshot",
    "Dorado.C113_drawn"
   ],
   "note": "Any rounding for which -1/2 and -1 are representable (as in C67). Uniform random numbers are idealised as independent reals, as in C107. The drawn curve (C113_drawn) is in exact arithmetic, between 1e-6 and 99 percent of the time drawn, because plot_exposure_time leaves out the other exposure times."
  },
  {
   "property": "C114",
   "status": "proved",
   "theorems": [
    "Dorado.C114_unbiased",
    "Dorado.C114_visits",
    "Dorado.C114_map"
   ],
   "note": "Visits: any rounding. Map: exact arithmetic, gaussian_filter as any operator that keeps non-negative arrays non-negative, commutes with a change of unit and does not enlarge the greatest difference of two arrays (it forms weighted means with positive weights; not proved from scipy, which is not modelled). Uniform random numbers are idealised as independent reals, as in C107. A map of the expected visits exists unless it is zero everywhere after clipping."
  },
  {
   "property": "C115",
   "status": "proved",
   "theorems": [
    "Dorado.C115_rate",
    "Dorado.C115_mean",
    "Dorado.C115_iff",
    "Dorado.C115_ends",
    "Dorado.C115_trapped"
   ],
   "note": "Exact arithmetic; the random numbers are idealised as independent uniform reals, as in C104. Plain calls of run_iteration() (no target time). The rate is shown to exist; its size is not computed. The expected number of calls is stated as the sum over n of the probability that not all particles have arrived after n calls."
  },
  {
   "property": "C116",
   "status": "proved",
   "theorems": [
    "Dorado.C116_arrives",
    "Dorado.C116_mean",
    "Dorado.C116_unbiased"
   ],
   "note": "Exact arithmetic; independent uniform random numbers, as in C104. Plain calls of run_iteration() (no target time). The travel time after the arrival does not change (C16); without a way out from every cell the mean need not exist (C115_iff, C115_trapped)."
  },
  {
   "property": "C117",
   "status": "proved",
   "theorems": [
    "Dorado.C117_rate",
    "Dorado.C117_final",
    "Dorado.C117_sample",
    "Dorado.C117_mean",
    "Dorado.C117_unbiased"
   ],
   "note": "Exact arithmetic; independent uniform random numbers, as in C104. One random stream for seeding and routing; plain calls of run_iteration() (no target time)."
  },
  {
   "property": "C118",
   "status": "partial",
   "theorems": [
    "Dorado.C118_transposition",
    "Dorado.C118_leftRight_partial",
    "Dorado.C118_upDown_partial",
    "Dorado.C118_clamp_breaks"
   ],
   "note": "Transposition is proved in full. Mirroring up-down and left-right holds on sets of cells that particles do not leave and where the negated velocity component is not 1e-8; elsewhere it is false (C118_clamp_breaks): components smaller than 1e-8 become +1e-8 whatever their sign, so travel times differ slightly in a straight channel and its mirror image. Exact arithmetic; stochastic routing; default angles."
  },
  {
   "property": "C119",
   "status": "proved",
   "theorems": [
    "Dorado.C119_unbiased",
    "Dorado.C119_mean",
    "Dorado.C119_map",
    "Dorado.C119_paced",
    "Dorado.C119_floor"
   ],
   "note": "Exact arithmetic. The bound b exists whenever the object is used with its own parameters (C119_paced), and the bound q always exists (C119_floor). The estimated quantity is the ratio of expectations, which is what the code's ratio of totals converges to, not the expectation of the ratio."
  },
  {
   "property": "C120",
   "status": "proved",
   "theorems": [
    "Dorado.C120_moves",
    "Dorado.C120_exact",
    "Dorado.C120_falls",
    "Dorado.C120_no_return",
    "Dorado.C120_surface",
    "Dorado.C120_direction",
    "Dorado.C120_step",
    "Dorado.C120_given",
    "Dorado.C120_velocity",
    "Dorado.C120_leaves",
    "Dorado.C120_leaves_surely",
    "Dorado.C120_whirlpool"
   ],
   "note": "The moves hold for any rounding that treats both signs alike. A draw equal to zero (probability zero) is excluded, see C01_zero_draw_counterexample; at dead ends C02 says where particles go. In exact arithmetic a cell has flow-derived weight as soon as one neighbour is downstream (flow_of_downstream), provided depth**theta is not zero. C120_given and C120_velocity say what along the discharge means for the fields the user passes."
  },
  {
   "property": "C121",
   "status": "proved",
   "theorems": [
    "Dorado.C121_solvable",
    "Dorado.C121_fraction",
    "Dorado.C121_share",
    "Dorado.C121_mean",
    "Dorado.C121_exposure"
   ],
   "note": "Exact real arithmetic, uniform independent draws. `Balances` is stated with neighbours and routing probabilities only; C121_solvable says that solutions exist and are unique at the cells concerned, so the theorems are not about an empty class."
  },
  {
   "property": "C122",
   "status": "proved",
   "theorems": [
    "Dorado.C122_accepted",
    "Dorado.C122_visited",
    "Dorado.C122_region",
    "Dorado.C122_upstream",
    "Dorado.C122_flows",
    "Dorado.C122_law"
   ],
   "note": "Positions and times are compared; tracked variables follow since they are read at the recorded cells. The region of interest may differ in all cells (only its shape is compared). Draws equal to zero are excluded for the regions closed under the flow (see C01_zero_draw_counterexample)."
  },
  {
   "property": "C123",
   "status": "proved",
   "theorems": [
    "Dorado.C123_start",
    "Dorado.C123_step",
    "Dorado.C123_conserved",
    "Dorado.C123_share",
    "Dorado.C123_through",
    "Dorado.C123_out"
   ],
   "note": "Counts refer to the last record of every particle after each call of run_iteration() without target time. A particle that stays in a cell away from the edges (no neighbour to go to) is counted at every call. The probabilities of choosing neighbours are those of C75."
  },
  {
   "property": "C124",
   "status": "proved",
   "theorems": [
    "Dorado.C124_theta_accepted",
    "Dorado.C124_gamma_accepted",
    "Dorado.C124_theta",
    "Dorado.C124_theta_strict",
    "Dorado.C124_gamma",
    "Dorado.C124_gamma_surface",
    "Dorado.C124_gamma_discharge"
   ],
   "note": "One call of run_iteration() without target time. C124_theta uses the true power function, C124_gamma holds for any interpretation of the power function with the properties in Fun. At a cell where the weights of all neighbours vanish the code uses the fallback weights, which do not depend on theta (covered); for gamma such cells at gamma = 0 or 1 are excluded, since the fallback makes the probabilities jump there."
  },
  {
   "property": "C125",
   "status": "proved",
   "theorems": [
    "Dorado.C125_weights",
    "Dorado.C125_walks",
    "Dorado.C125_threshold",
    "Dorado.C125_codes",
    "Dorado.C125_estimated",
    "Dorado.C125_accepted",
    "Dorado.C125_same"
   ],
   "note": "C125_walks: all that is seen of any sequence of calls, any domain. C125_same: positions and times, starting from any two histories with the same records."
  },
  {
   "property": "C126",
   "status": "proved",
   "theorems": [
    "Dorado.C126_accepted",
    "Dorado.C126_paths",
    "Dorado.C126_linear",
    "Dorado.C126_zero_counterexample"
   ],
   "note": "C126_linear speaks of finite times; with finite seed times and diff_coeff up to 2 all times are finite by C18 (used in the concrete case). Calls with a target time are excluded: there the times decide how many steps are taken."
  },
  {
   "property": "C127",
   "status": "proved",
   "theorems": [
    "Dorado.C127_accepted",
    "Dorado.C127_same"
   ],
   "note": "Seeding without previous walk data. Continuing walk data that lacks a tracked variable misaligns that variable's lists; see the disagreements in DESIGN.md."
  },
  {
   "property": "C128",
   "status": "proved",
   "theorems": [
    "Dorado.C128_same",
    "Dorado.C128_begins",
    "Dorado.C128_warning_counterexample"
   ],
   "note": "The warning cannot be used as the criterion (C26, C128_warning_counterexample); the number of new records can."
  },
  {
   "property": "C129",
   "status": "proved",
   "theorems": [
    "Dorado.C129_variance"
   ],
   "note": "Exact arithmetic; calls of run_iteration() without target time."
  },
  {
   "property": "C130",
   "status": "proved",
   "theorems": [
    "Dorado.C130_standard_error"
   ],
   "note": "Exact arithmetic; calls of run_iteration() without target time."
  },
  {
   "property": "C131",
   "status": "proved",
   "theorems": [
    "Dorado.C131_parts",
    "Dorado.C131_repeat",
    "Dorado.C131_random_counterexample"
   ],
   "note": "Exact seeding proved as an equivalence of successful calls; random seeding is equal in law only (C105), see the counterexample."
  },
  {
   "property": "C132",
   "status": "proved",
   "theorems": [
    "Dorado.C132_order",
    "Dorado.C132_units",
    "Dorado.C132_attached",
    "Dorado.C132_accepted"
   ],
   "note": "Order for every monotone rounding; units and shifts in exact arithmetic."
  },
  {
   "property": "C133",
   "status": "partial",
   "theorems": [
    "Dorado.C133_value_partial",
    "Dorado.C133_valid_partial",
    "Dorado.C133_attached_partial",
    "Dorado.C133_documented_counterexample",
    "Dorado.C133_crop_counterexample"
   ],
   "note": "False in the code (C133_documented_counterexample). Partial: the exact row returned with the documented origin, and correctness with the origin one cell size further south; values for k_nearest_neighbors = 1, places for all k, without boundary."
  },
  {
   "property": "C134",
   "status": "proved",
   "theorems": [
    "Dorado.C134_band",
    "Dorado.C134_atleast",
    "Dorado.C134_exact",
    "Dorado.C134_exposure",
    "Dorado.C134_channel",
    "Dorado.C134_channel_band",
    "Dorado.C134_channel_exposure"
   ],
   "note": "Real arithmetic, default direction tables, steps not against the flow; speed and direction uniform along the visited cells (the code clamps the components to 1e-8 after computing the speed, so both are named)."
  }
 ]
}
