{
 "C03": {
  "note": "Every rounding satisfying Arith; includes the border clause."
 },
 "C04": {
  "note": "Exact arithmetic; refinement to the closed formula of Spec/Flow.lean."
 },
 "C05": {
  "note": "Every rounding."
 },
 "C06": {
  "note": "Every rounding."
 },
 "C07": {
  "note": "Every rounding (dead ends in terms of the computed flow weights) and exact arithmetic (closed formula)."
 },
 "C08": {
  "note": "Exact arithmetic, at the level of constructor inputs. C08_walks_*: whole call sequences, draw by draw, both routing modes; C08_walks_times for any square root and arc tangent satisfying their laws (proved for the real functions)."
 },
 "C09": {
  "note": "Exact arithmetic, default direction tables, at the level of constructor inputs. C09_walks_*: law of whole walks (from C75_law: edge ring, interior seeds, steepest_descent off)."
 },
 "C13": {
  "note": "Exact arithmetic. Velocity components below 1e-8 in magnitude are replaced by +1e-8 by the code, so their direction is not claimed."
 },
 "C01": {
  "note": "Full claim is false at the random draw 0 (C01_zero_draw_counterexample): the search returns index 0 (NW) whatever its weight. Proved for all non-zero draws, any history, both modes. C01_almost_surely: with probability one. See Props/Law for the probability space."
 },
 "C02": {
  "note": "Full claim is false at the draw 0 and, with steepest_descent, when the cell itself is the only deepest one (both counterexamples proved). Proved for all non-zero draws otherwise. C02_almost_surely: with probability one."
 },
 "C10": {
  "note": "Lebesgue measure over the reals, exact arithmetic; also for the routing decision of an object in any reachable state."
 },
 "C11": {
  "note": "Maximum choice for every rounding; tie probabilities in exact arithmetic."
 },
 "C12": {
  "note": "Every rounding; stated for single decisions, for whole run_iteration calls and for any sequence of calls, exceptions caught (C12_future)."
 },
 "C14": {
  "note": "Every rounding, any history including continuation. With dx = 0 the particle jumps to (0,0) (C14_zero_dx_counterexample), hence the non-zero hypothesis. False if an object is given its own walk data as previous_walk_data (C14_twice_counterexample); C14_shared_partial covers every program in which no object holds a particle twice."
 },
 "C15": {
  "note": "Every rounding. Alignment holds in all programs, with any sharing of walk data (C15_shared_aligned). A position is repeated if an object is given its own walk data (C15_twice_counterexample); otherwise never."
 },
 "C16": {
  "note": "Every rounding, any later calls."
 },
 "C21": {
  "note": "Every rounding, any later calls without previous_walk_data; the order with previous data is C32."
 },
 "C22": {
  "note": "Every rounding. False if an object is given its own walk data (C22_twice_counterexample)."
 },
 "C17": {
  "note": "Every rounding, any history. No exception at all is raised (with target: at least one particle, see C26). Default step tables, non-zero steps, no infinite angles. Also for programs in which walk data is shared in any way, including particles held twice (C17_shared_*)."
 },
 "C23": {
  "note": "Termination: the recursion bound of the model is never hit, for every state. Bound: max 1 max_iter records per particle."
 },
 "C27": {
  "note": "Every rounding; never a ValueError after seeding provided no step angle is infinite."
 },
 "C28": {
  "note": "Every rounding; histories on one object, and all programs with shared walk data whose objects have the same grid (C28_shared)."
 },
 "C29": {
  "note": "False for previous walk data without roi_flag (counterexample proved). Proved when all objects involved share the region grid."
 },
 "C18": {
  "note": "Every rounding that represents -1/2 and -1. The bound diff_coeff <= 2 is needed (C18_large_diffusion_counterexample). False if an object is given its own walk data (C18_twice_counterexample); finite and not before the seed time in all programs (C18_shared_finite)."
 },
 "C19": {
  "note": "Exact arithmetic, any history: every pair of consecutive records satisfies the formula; the band follows from it."
 },
 "C20": {
  "note": "Real numbers with the true cosine and arc tangent; concrete history in Props/TimeReal.lean."
 },
 "C24": {
  "note": "Exact arithmetic, non-zero draws, default tables. Ends: limit, a cell where particles may stand still, or the documented inequality."
 },
 "C25": {
  "note": "Full claim is false when the last step took less than 0.1 (C25_short_step_counterexample): the estimate is clamped at the end of a call but not at the beginning of the next. Proved for last steps of at least 0.1 and for calls that took no step."
 },
 "C26": {
  "note": "Full claim is false: the list is reset for each particle, so only the last one can be reported (C26_two_particles_counterexample), and with no particles the call raises UnboundLocalError (C26_no_particles). Proved: the warning names the last particle iff it was stopped by the limit."
 },
 "C66": {
  "note": "Every rounding, non-zero draws, default tables."
 },
 "C30": {
  "note": "Start positions, even distribution and success for every count and equally long non-empty lists."
 },
 "C31": {
  "note": "Every stream of draws; the joint law of all N start positions over independent uniform draws is the product of the uniform laws (Lebesgue product measure)."
 },
 "C32": {
  "note": "Order previous, held, new, for positions, times and optional variables; Np_tracer over all call histories."
 },
 "C33": {
  "note": "All seeds and times, including the optional variables."
 },
 "C34": {
  "note": "Unchanged state proved on a statement-level model with assignments, shown to agree with the functional model. C34_input_check says exactly what gen_input_check accepts and returns (numbers, texts Python reads as integers, their lists, texts of digits as lists); C34_rejected that everything else raises TypeError, or ValueError for an unknown method. Partial: strings that int() accepts (digit strings) are accepted as count and as locations, so 'non-numeric' raises only for other values (counterexample proved)."
 },
 "C35": {
  "note": "All inputs with finite or NaN cells; shapes and kept input values as well."
 },
 "C36": {
  "note": "Full decision table for arrays of one common shape, including arrays too small for the weights (IndexError)."
 },
 "C37": {
  "note": "C37_exact: every origin, size and positive cell size in exact arithmetic. C37_rounded: any rounding of relative error eps with a smallness condition on eps; instantiated with a constructed 53-bit round-to-nearest-even arithmetic."
 },
 "C38": {
  "note": "Exact arithmetic; C38_total shows the call succeeds for every non-zero cell size and any rounding."
 },
 "C39": {
  "note": "False as stated: C39_origin_counterexample (the origin itself maps to row L). C39_valid_iff_partial characterises exactly which coordinates in the extent map to a valid index."
 },
 "C40": {
  "note": "Upper bound in exact arithmetic; non-negativity and monotonicity in the region for every rounding."
 },
 "C41": {
  "note": "Exact arithmetic."
 },
 "C42": {
  "note": "Exact arithmetic. Region arrays are integer arrays (as documented); boolean arrays add differently in numpy."
 },
 "C43": {
  "note": "Every rounding; the message lists the indices in ascending order without repetition."
 },
 "C44": {
  "note": "False as stated: C44_sparse_counterexample (percentile among the unvisited cells: everything is NaN), concrete witness at the default clip=99.5. C44_range_partial: range [0,1] and maximum 1 or all NaN, every rounding, smoothing operator and percentile. C44_dense_partial: the full claim when the percentile lies beyond the unvisited cells, exact arithmetic."
 },
 "C45": {
  "note": "Exact arithmetic."
 },
 "C46": {
  "note": "C46_mean and C46_total in exact arithmetic; C46_nonneg for every rounding, smoothing operator and percentile."
 },
 "C67": {
  "note": "Any rounding that represents -1/2 and -1 exactly; bounds by the travel time and the coordinate round trip in exact arithmetic."
 },
 "C47": {
  "note": "Exact arithmetic; correct neighbour search assumed for scipy, shown to exist for every point set (brute_correct). k>1: inverse-distance weighted mean on the stated grid, range, constants, linearity; k=1: nearest datum; fewer points than k: IndexError."
 },
 "C48": {
  "note": "Outside cells NaN, inside unchanged; crop keeps exactly the rows and columns with a value, in order, under any rounding. The clause 'only border rows/columns are removed' is false (interior all-NaN columns go too): counterexample, and the partial theorem covers masks without interior gaps."
 },
 "C49": {
  "note": "One-dimensional series: exact arithmetic for all sizes, and with rounding (any summation order, relative error u with (N+1)(n+3)u<1). Any sorting order of ties. Missing: series given as a column, where the code raises AssertionError (C49_column_assertion, counterexample)."
 },
 "C50": {
  "note": "One-dimensional series, exact arithmetic; also invariance under units and flow reversal. Missing: column series, where the left-over particle goes to the first timestep (counterexample)."
 },
 "C51": {
  "note": "All lists of worker dictionaries with distinct keys. Also: a key only a later worker has raises KeyError."
 },
 "C52": {
  "note": "Any rounding, schedule and worker streams: the blocks are exactly serial runs of the executing worker's stream; each particle is an aligned, connected walk from a seed with at most num_iter moves; success on enclosed grids; num_iter <= 0 raises UnboundLocalError. The object must hold no walk data."
 },
 "C53": {
  "note": "False under fork: theorem that with inherited generators and one task per worker all blocks are copies (C53_fork_copies), with a concrete run. The partial theorem covers tasks executed one after the other by the same worker."
 },
 "C54": {
  "note": "Any rounding. get_state on every aligned walk, any k: one entry per particle and field, taken from record k or the last one. Walk data of every history are aligned."
 },
 "C55": {
  "note": "Any rounding: the record is the first minimiser of the computed |t - T|; exact arithmetic: of |t - T|. Times minus T must not be NaN."
 },
 "C68": {
  "note": "Any history and draws on an enclosed grid: succeeds, one result per particle, stays or moves to an interior neighbour, sampled variables at the new position; times never decrease for diff_coeff <= 2 and dx >= 0. Positions passed as lists, as run_iteration does; tuples are C76."
 },
 "C62": {
  "note": "C62_steps: any rounding, draws, directory content: whenever unsteady_plots returns it has run min(num_steps, outputs) steps, step i on file i of the sorted listing, each walk extending the previous one for the same particles. C62_target: step i ends at (i+1)*t in exact arithmetic. C62_succeeds: it does return for readable files on one grid and interior seeds."
 },
 "C63": {
  "note": "Any rounding. Both functions. C63_smooth: the smoothed values are the fractions of counted exposure times."
 },
 "C65": {
  "note": "False: get_state returns 3 or 4 values and each caller unpacks a fixed number (C65_counterexample). The _partial theorems say exactly which walk data each helper accepts; plot_exposure_time_thresholds also needs 90 per cent of the particles counted. unsteady_plots never has optional variables: C62_succeeds."
 },
 "C69": {
  "note": "C69_reported, C69_thresholds: any rounding, including the 1e-12 tolerance of the code; C69_exact: exact arithmetic and at most 10^10 particles, where the tolerance does not matter."
 },
 "C56": {
  "note": "Entries, NaN pattern and order proved for every rounding; particles starting on a border between chunks also appear in the chunk before it (C56_border), so the full claim is proved without such starts (C56_started)."
 },
 "C57": {
  "note": "The chunks tile the raster (C57_tiling), but attribution uses inclusive bounds: C57_counterexample. C57_total_partial gives the exact multiplicities."
 },
 "C58": {
  "note": "Every rounding; also along every history of calls."
 },
 "C59": {
  "note": "Maps and chunks; the density estimate is a parameter. C59_filter_counterexample: the order of the three maps is not kept by the outlier filter. Range after filtering in exact arithmetic."
 },
 "C60": {
  "note": "NaN pattern and constant windows for every symmetric rounding with exact doubling (shown for doubles); range in exact arithmetic, and up to (w+1)^2+2 relative rounding errors for values >= 0 in any rounding, with numpy's pairwise summation modelled. A floating-point mean may leave the exact range by rounding."
 },
 "C61": {
  "note": "Proved for any sequence of setup_logging / verbose= calls mixed with handlers added or removed by the user. Partial because of the exception class: the names of non-level attributes such as '_styles' and bytes raise TypeError instead of ValueError (C61_counterexample); level and handlers are unchanged in every invalid case."
 },
 "C64": {
  "note": "Separate model with list objects by reference (Model/Heap): programs with any number of objects and kept dictionaries. Returned and previous dictionaries show the very lists of the object until clear_walk_data; two objects continued from the same dictionary show each other's records. Tracked variables: when all objects track the same ones. C64_separate: programs that only hand over particles behave as the value model."
 },
 "C70": {
  "note": "C70_as_new over the transcript (returned data or exception, logger messages, walk data, stream position; statement-level semantics, so calls may follow a caught exception) of any sequence of calls; the attribute Np_tracer itself keeps its value (not observable through the modelled calls). C70_needs_particles."
 },
 "C71": {
  "note": "Two clauses are false, with counterexamples: one figure less than num_steps is saved, and the head of the figure titled ii is record ii-1 (record 1 in the first figure). Everything else proved in full."
 },
 "C72": {
  "note": "Success and paths in full. 'Changes nothing' is false: np.random.rand(3) per path moves the stream of the walks (C72_counterexample: a walk differs after drawing); C72_effect_partial bounds the effect exactly."
 },
 "C73": {
  "note": "Full claim for all three functions at every reachable state; figure contents specified by AtNewest/AtStart on the walk data of an independent iteration of run_iteration (AfterRuns)."
 },
 "C74": {
  "note": "end_val itself is not shown (range excludes it): counterexample; frames characterised exactly (partial). animate_plots(0, num_iter) is proved to show exactly the saved figures."
 },
 "C75": {
  "note": "C75_law: exact arithmetic over the reals, default tables, cell types with an edge ring, interior seeds, random or steepest-descent routing, any diffusivity; uniformDraws is the infinite product of the uniform distribution on [0,1); moveProb uses the closed formula for the weights. C01_almost_surely and C02_almost_surely give the last sentence (listed under C01, C02)."
 },
 "C76": {
  "note": "False for particles that stay: C76_counterexample (tuple != list is always true, so a particle held at an edge gets the time of the step it did not make), and with diffusion also for particles that move when another stays (C76_shift_counterexample: the staying particle takes its random number). Proved: same success, positions and variables always; same times of moving particles and same draws without diffusion; equal results when every particle moves, diffusion included; no time decreases."
 },
 "C77": {
  "note": "Proved in exact arithmetic (float gradients differ by rounding). End time 0 gives NaN densities (example beside the theorem)."
 },
 "C78": {
  "note": "Range and order of the opacities for any rounding; proportions in exact arithmetic; run-level theorems for maps computed from walks. The clause on the greatest value is false when all values are equal (C78_uniform_counterexample): everything gets the lowest colour."
 },
 "C79": {
  "note": "False when the resolution factor does not divide the raster size (C79_stretched_counterexample, for all such sizes with at least two chunks): the last chunk is larger, but the image divides the extent equally. Proved for all other sizes. Interpolation between cells is not modelled."
 },
 "C80": {
  "note": "False for levels that are not whole numbers (truncated), and the returned list of axes is always empty: C80_counterexample, with the arguments of the test suite. Proved: acceptance, labels of whole levels, labels in general are the whole numbers below."
 },
 "C81": {
  "note": "Proved right after the call in any program (C81_fresh), after a repeated call (C81_again), and for records every particle had at the time of the call. Later records are wrong: C81_iff_partial says exactly when get_state is right, C81_lengths how many locations are listed twice, C81_counterexample is a program. get_time_state raises IndexError instead (C81_time_partial). plot_state and plot_exposure_time_thresholds raise ValueError (C81_plots_counterexample)."
 },
 "C82": {
  "note": "Proved for fields in different array objects (the flow components may share one): C82_values, C82_copies, C82_earlier_kept. The loop (C82_sweep_partial) needs velocities that are neither missing nor below 1e-8 and a region given for all objects or none: otherwise false (C82_still_differs, C82_roi_differs); C82_still_partial says which attributes still agree. A stage array that is also the depth array is a counterexample (C82_alias_differs)."
 },
 "C83": {
  "note": "Cell by cell for every array in memory (C83_cells), the list (C83_list), the parameter object (C83_params). Fields in different array objects. C83_changes shows each change happening."
 },
 "C84": {
  "note": "Floating point: proved (C84_float). Boolean: the message is the same (C84_message), the times are not: steps inside the region count half (C84_values_partial, C84_counterexample); C84_bool_iff says exactly when they agree."
 },
 "C85": {
  "note": "Text written and reader modelled character by character; float(repr(x)) == x and the form of repr are hypotheses (Faithful), shown satisfiable for rationals (ratText_faithful). Walk data with tracked variables never reach the file (the routines raise before, C65), so the file theorems are about data without them; C85_resume covers tracked variables."
 },
 "C86": {
  "note": "Two-run relation over the whole transcript of calls; exact arithmetic (with rounding, sums at different magnitudes round differently)."
 },
 "C87": {
  "note": "Two-run relation; ScaleExact is proved for exact arithmetic (any c) and binary floats (powers of two). C87_target_counterexample shows that the restriction to calls without target time is needed."
 },
 "C88": {
  "note": "About the statement-level model of run_iteration (Model/RunStmt), which C88_agrees relates to the functional one. The histories of all other theorems (Reach, Later) contain caught exceptions of run_iteration as well."
 },
 "C89": {
  "note": "NoTies is about the weights of make_weight (see C09, C10). Draws that are exactly zero are excluded: such a draw picks the first direction whatever its weight (C11)."
 },
 "C90": {
  "note": "Stated for the statement-level methods from any object state. The stream is numbers 0, 1, ... as returned by successive calls of numpy's generator; one number per call of np.random."
 },
 "C91": {
  "note": "Stated for calls that return. The worlds between the particles are existential but chained: the first is that of the object, the last that of the result."
 },
 "C92": {
  "note": "The loop compares with the raw duration of the last step when a call starts and with max(0.1, duration) inside it (particle_track.py:728, 764), hence the condition on short steps. The estimate at the beginning must not be negative; recorded times never decrease for diff_coeff <= 2 (C18)."
 },
 "C93": {
  "note": "wd.since wd' is the walk data made of the records of wd' from the last one of wd on (Spec/Continue.lean)."
 },
 "C94": {
  "note": "Later calls include new seeds; particles keep their index (C21)."
 },
 "C95": {
  "note": "Messages are modelled by the particles they are about; the text is not. For particle data with NaN times no claim is made."
 },
 "C96": {
  "note": "Says what happens when unsteady_plots returns; C62 gives conditions under which it does."
 },
 "C97": {
  "note": "With rounded sums the last digits of nourishment_time can depend on the order (an example in Props/Pool.lean shows it)."
 },
 "C98": {
  "note": "Maps for two parts; more parts by repeating. The claims about maps are for sigma = 0 and clip = 100."
 },
 "C99": {
  "note": "Smoothing and clipping change map values, so the identity is for sigma = 0 and clip = 100."
 },
 "C100": {
  "note": "The claim about diff_coeff is false with verbose=False (a negative value is replaced silently) and with warnings turned into exceptions (values below 0 or from 2 on are replaced by the default 0.2); proved otherwise."
 },
 "C101": {
  "note": "False as documented: right after import leaving verbose out shows nothing, and unsteady_plots switches the messages off for the rest of the session. Proved: explicit verbose, the rule for None, and the documented default once a level of INFO or below was set."
 },
 "C102": {
  "note": "False if one of the quantities contains NaN and crop is used (rows and columns are removed according to the NaN of the quantity itself, not of the boundary); proved for quantities without NaN. Reuse of the returned function is proved for any data and rounding."
 },
 "C103": {
  "note": "Joint law of path and durations, mean and mean square deviation along a path, and equality of the expected travel time for different diff_coeff (with integrability)."
 },
 "C104": {
  "note": "Joint law as a product measure, independence and marginal laws, Hoeffding bound for averages over the particles."
 },
 "C105": {
  "note": "Joint law of start cells and courses as a product of one law, independence, Hoeffding bound."
 },
 "C106": {
  "note": "exposure_time succeeds, samples independent with one law, Hoeffding bound for the curve at each time, mean equal to the one with diffusion-free durations."
 },
 "C107": {
  "note": "Never raises, joint law is the product of the single-particle laws, independence, Hoeffding bound, law determined by the walk data; any rounding and any calls."
 },
 "C108": {
  "note": "Joint law over objects with independent streams equals the joint law in one object, for any way of spreading the particles; order of the particles. The workers of parallel_routing share copies of one stream instead (C53), so this is about objects with their own random numbers."
 },
 "C109": {
  "note": "unsteady_plots under exact arithmetic; random seeding followed by any calls of run_iteration under any rounding. Success of the calls is C62_succeeds and C31_succeeds."
 },
 "C110": {
  "note": "Joint law over any number of sessions with independent streams equals the joint law of one session; particles stay independent. The exact continuation with the same stream is C85."
 },
 "C111": {
  "note": "Two-run relation over whole transcripts, exact arithmetic, any power function that is multiplicative on positive numbers (proved for the real one). C111_discharge_counterexample and C111_default_counterexample show that the conditions on the kind of flow input and on dry_depth are needed; for target times see C87_target_counterexample."
 },
 "C112": {
  "note": "Any rounding. Pathwise for all particles together while none is next to the ring (C112_together, unconditional form C112_horizon), pathwise for one particle stopped at the ring (C112_stopped), joint law for any number (C112_law; with several particles the streams differ once one has stopped, so only the laws agree)."
 },
 "C113": {
  "note": "Any rounding for which -1/2 and -1 are representable (as in C67). Uniform random numbers are idealised as independent reals, as in C107. The drawn curve (C113_drawn) is in exact arithmetic, between 1e-6 and 99 percent of the time drawn, because plot_exposure_time leaves out the other exposure times."
 },
 "C114": {
  "note": "Visits: any rounding. Map: exact arithmetic, gaussian_filter as any operator that keeps non-negative arrays non-negative, commutes with a change of unit and does not enlarge the greatest difference of two arrays (it forms weighted means with positive weights; not proved from scipy, which is not modelled). Uniform random numbers are idealised as independent reals, as in C107. A map of the expected visits exists unless it is zero everywhere after clipping."
 },
 "C115": {
  "note": "Exact arithmetic; the random numbers are idealised as independent uniform reals, as in C104. Plain calls of run_iteration() (no target time). The rate is shown to exist; its size is not computed. The expected number of calls is stated as the sum over n of the probability that not all particles have arrived after n calls."
 },
 "C116": {
  "note": "Exact arithmetic; independent uniform random numbers, as in C104. Plain calls of run_iteration() (no target time). The travel time after the arrival does not change (C16); without a way out from every cell the mean need not exist (C115_iff, C115_trapped)."
 },
 "C117": {
  "note": "Exact arithmetic; independent uniform random numbers, as in C104. One random stream for seeding and routing; plain calls of run_iteration() (no target time)."
 },
 "C118": {
  "note": "Transposition is proved in full. Mirroring up-down and left-right holds on sets of cells that particles do not leave and where the negated velocity component is not 1e-8; elsewhere it is false (C118_clamp_breaks): components smaller than 1e-8 become +1e-8 whatever their sign, so travel times differ slightly in a straight channel and its mirror image. Exact arithmetic; stochastic routing; default angles."
 },
 "C119": {
  "note": "Exact arithmetic. The bound b exists whenever the object is used with its own parameters (C119_paced), and the bound q always exists (C119_floor). The estimated quantity is the ratio of expectations, which is what the code's ratio of totals converges to, not the expectation of the ratio."
 },
 "C120": {
  "note": "The moves hold for any rounding that treats both signs alike. A draw equal to zero (probability zero) is excluded, see C01_zero_draw_counterexample; at dead ends C02 says where particles go. In exact arithmetic a cell has flow-derived weight as soon as one neighbour is downstream (flow_of_downstream), provided depth**theta is not zero. C120_given and C120_velocity say what along the discharge means for the fields the user passes."
 },
 "C121": {
  "note": "Exact real arithmetic, uniform independent draws. `Balances` is stated with neighbours and routing probabilities only; C121_solvable says that solutions exist and are unique at the cells concerned, so the theorems are not about an empty class."
 },
 "C122": {
  "note": "Positions and times are compared; tracked variables follow since they are read at the recorded cells. The region of interest may differ in all cells (only its shape is compared). Draws equal to zero are excluded for the regions closed under the flow (see C01_zero_draw_counterexample)."
 },
 "C123": {
  "note": "Counts refer to the last record of every particle after each call of run_iteration() without target time. A particle that stays in a cell away from the edges (no neighbour to go to) is counted at every call. The probabilities of choosing neighbours are those of C75."
 },
 "C124": {
  "note": "One call of run_iteration() without target time. C124_theta uses the true power function, C124_gamma holds for any interpretation of the power function with the properties in Fun. At a cell where the weights of all neighbours vanish the code uses the fallback weights, which do not depend on theta (covered); for gamma such cells at gamma = 0 or 1 are excluded, since the fallback makes the probabilities jump there."
 },
 "C125": {
  "note": "C125_walks: all that is seen of any sequence of calls, any domain. C125_same: positions and times, starting from any two histories with the same records."
 },
 "C126": {
  "note": "C126_linear speaks of finite times; with finite seed times and diff_coeff up to 2 all times are finite by C18 (used in the concrete case). Calls with a target time are excluded: there the times decide how many steps are taken."
 },
 "C127": {
  "note": "Seeding without previous walk data. Continuing walk data that lacks a tracked variable misaligns that variable's lists; see the disagreements in DESIGN.md."
 },
 "C128": {
  "note": "The warning cannot be used as the criterion (C26, C128_warning_counterexample); the number of new records can."
 },
 "C129": {
  "note": "Exact arithmetic; calls of run_iteration() without target time."
 },
 "C130": {
  "note": "Exact arithmetic; calls of run_iteration() without target time."
 },
 "C131": {
  "note": "Exact seeding proved as an equivalence of successful calls; random seeding is equal in law only (C105), see the counterexample."
 },
 "C132": {
  "note": "Order for every monotone rounding; units and shifts in exact arithmetic."
 },
 "C133": {
  "note": "False in the code (C133_documented_counterexample). Partial: the exact row returned with the documented origin, and correctness with the origin one cell size further south; values for k_nearest_neighbors = 1, places for all k, without boundary."
 },
 "C134": {
  "note": "Real arithmetic, default direction tables, steps not against the flow; speed and direction uniform along the visited cells (the code clamps the components to 1e-8 after computing the speed, so both are named)."
 }
}