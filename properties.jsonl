{"id": "C01", "title": "Particles are never routed onto dry or land cells while a wet way out exists", "statement": "If at the current interior cell at least one cell of the 3x3 window carries a positive routing weight derived from flow (i.e. the cell is not a dead end), a step of Particles.run_iteration never moves the particle into a cell with depth <= dry_depth or cell_type == 2, whatever the random numbers are.", "quantifier": "all grids, all parameters gamma in [0,1], all interior cells, all random draws, both routing modes", "why_tests_cant": "A test sees finitely many draws of the generator on finitely many grids; the failing draw (exactly 0) has probability 2^-53.", "anchors": ["dorado/lagrangian_walker.py:make_weight", "dorado/lagrangian_walker.py:random_pick", "dorado/lagrangian_walker.py:steep_descent", "dorado/lagrangian_walker.py:get_weight"]}
{"id": "C02", "title": "Dead ends route to the deepest neighbouring cell", "statement": "When no cell of the 3x3 window around an interior cell carries positive flow-derived weight, the step goes to a cell of that window whose depth is the maximum of the window.", "quantifier": "all grids, all interior cells, all random draws, both routing modes", "why_tests_cant": "Requires the combination of NaN stages, dry masks and ties to be covered for every grid.", "anchors": ["dorado/lagrangian_walker.py:make_weight", "dorado/lagrangian_walker.py:random_pick", "dorado/lagrangian_walker.py:steep_descent"]}
{"id": "C03", "title": "Routing weights are a usable distribution at every interior cell", "statement": "After Particles(params) with gamma in [0,1] and dry_depth >= 0, at every interior cell the nine weights, with NaN read as 0, are finite, non-negative and not all zero; at every border cell all nine weights are exactly 0.", "quantifier": "all grid shapes and contents (including NaN stage), all gamma in [0,1], theta, dry_depth >= 0", "why_tests_cant": "NaN propagation through a dozen array operations cannot be covered by finitely many arrays.", "anchors": ["dorado/lagrangian_walker.py:make_weight", "dorado/lagrangian_walker.py:clear_borders", "dorado/lagrangian_walker.py:big_sliding_window"]}
{"id": "C04", "title": "Routing weights equal the documented formula", "statement": "In exact arithmetic, at an interior cell with finite stage in its window, the weight of neighbour k is h_k^theta * (gamma*S_k/sum(S) + (1-gamma)*I_k/sum(I)) for wet non-land neighbours and 0 otherwise, where S_k = max(0,(stage_0-stage_k)/Delta_k) and I_k = max(0, q.d_k/Delta_k) restricted to wet non-land neighbours (a component whose sum is 0 contributes 0), unless all are 0, in which case the deepest cells get weight 1.", "quantifier": "all grids, interior cells, neighbours k, gamma, theta, dry_depth", "why_tests_cant": "Formula equivalence over all real inputs.", "anchors": ["dorado/lagrangian_walker.py:make_weight", "dorado/lagrangian_walker.py:tile_local_array", "dorado/lagrangian_walker.py:tile_domain_array"]}
{"id": "C05", "title": "Routing is local", "statement": "The routing weights at a cell depend only on depth, stage and cell_type in its 3x3 window and on qx,qy at the cell itself: two flow fields agreeing there give the same weights there.", "quantifier": "all pairs of flow fields and all cells", "why_tests_cant": "Quantifies over pairs of arbitrary arrays.", "anchors": ["dorado/lagrangian_walker.py:make_weight", "dorado/lagrangian_walker.py:big_sliding_window"]}
{"id": "C06", "title": "gamma=1 ignores discharge, gamma=0 ignores water-surface slope", "statement": "With gamma == 1 the routing weights do not depend on the (finite) discharge values; with gamma == 0 they do not depend on the stage values (for stage fields that are NaN at the same cells).", "quantifier": "all pairs of discharge fields / stage fields, all grids", "why_tests_cant": "Two-run (relational) property over all arrays.", "anchors": ["dorado/lagrangian_walker.py:make_weight", "dorado/particle_track.py:modelParams"]}
{"id": "C07", "title": "theta=0 removes the influence of depth", "statement": "With theta == 0, away from dead ends, two depth fields with the same wet/dry pattern give identical routing weights.", "quantifier": "all pairs of depth fields, all grids, cells", "why_tests_cant": "Relational property over all arrays.", "anchors": ["dorado/lagrangian_walker.py:make_weight"]}
{"id": "C08", "title": "Routing weights are invariant under discharge scaling and stage datum shift", "statement": "In exact arithmetic, multiplying the whole discharge field by a positive constant, or adding a constant to the whole stage field, leaves all routing weights unchanged. Hence for any sequence of generate_particles/run_iteration/clear_walk_data calls (exceptions caught and the object used further) and the same random numbers: a datum shift changes nothing that is seen (unless the stage itself is tracked); a discharge scaling by c changes nothing but travel times (without target times, unless flow variables are tracked), and divides these by c as long as no velocity component is below the 1e-8 floor.", "quantifier": "all grids, all positive factors, all datum shifts, all call sequences, all random streams", "why_tests_cant": "Metamorphic property over all reals.", "anchors": ["dorado/lagrangian_walker.py:make_weight", "dorado/particle_track.py:Particles.run_iteration", "dorado/lagrangian_walker.py:calc_travel_times"]}
{"id": "C09", "title": "Routing has no directional bias", "statement": "In exact arithmetic, mirroring the domain left-right (and reversing the column-direction discharge) mirrors the routing weights; the same holds for up-down mirroring and for transposition (swapping the two discharge components). Consequently the probability of any joint path of any number of particles equals that of the mirrored path in the mirrored domain.", "quantifier": "all grids, all cells, all neighbours; for walks also all histories, numbers of particles, numbers of iterations and paths", "why_tests_cant": "A wrong table entry shows up only for one direction and particular fields; the claim is over all fields.", "anchors": ["dorado/lagrangian_walker.py:make_weight", "dorado/particle_track.py:Particles.__init__ (distances, ivec, jvec)", "dorado/particle_track.py:Particles.run_iteration"]}
{"id": "C10", "title": "Neighbours are drawn with probability proportional to their weight", "statement": "In the weighted random walk the set of uniform draws in [0,1) that select neighbour k has Lebesgue measure weight_k / sum(weights) (exact arithmetic), for every non-negative weight vector with positive sum; in particular some neighbour is always selected.", "quantifier": "all non-negative weight vectors of positive sum, all draws in [0,1)", "why_tests_cant": "A probability statement: sampling can only estimate it.", "anchors": ["dorado/lagrangian_walker.py:random_pick"]}
{"id": "C11", "title": "Steepest descent picks a maximum-weight neighbour, ties evenly", "statement": "With steepest_descent, if some neighbour other than the cell itself attains the maximal positive weight, the step goes to such a neighbour for every nonzero draw, and each of the m tied neighbours is selected on a set of draws of measure 1/m.", "quantifier": "all weight vectors, all draws", "why_tests_cant": "Probability and optimality over all weight vectors.", "anchors": ["dorado/lagrangian_walker.py:steep_descent"]}
{"id": "C12", "title": "Routing decisions do not depend on earlier decisions", "statement": "Although routing writes into the weight array, for every history of previous steps the cell chosen from a location with a given random draw is the one a freshly built Particles object would choose. Consequently everything seen of any later sequence of generate_particles/run_iteration/clear_walk_data calls (results, exceptions, walk data, consumption of random numbers; exceptions caught and the object used further) is what a freshly built object holding the same walk data would show.", "quantifier": "all histories of visits, all draws, both routing modes", "why_tests_cant": "Quantifies over all histories of in-place mutation.", "anchors": ["dorado/lagrangian_walker.py:random_pick", "dorado/lagrangian_walker.py:steep_descent", "dorado/lagrangian_walker.py:get_weight"]}
{"id": "C13", "title": "Flow direction conventions of the two input formats are consistent", "statement": "For DeltaRCM inputs qx (u) points towards increasing row index and qy (v) towards increasing column index; for all other models qx (u) points towards increasing column index and qy (v) towards decreasing row index. The inertial routing component of a wet neighbour is positive exactly when the discharge has a positive component towards it under that convention, and u,v have the direction of qx,qy.", "quantifier": "all discharge/velocity fields, both formats, all neighbours", "why_tests_cant": "Sign and axis conventions must hold for all vectors, not a few.", "anchors": ["dorado/particle_track.py:Particles.__init__", "dorado/lagrangian_walker.py:make_weight"]}
{"id": "C14", "title": "Walks are connected D8 paths", "statement": "In the walk data of any history of generate_particles / run_iteration calls on one object with the default step tables and non-zero cell size and D8 distances, consecutive recorded positions of a particle differ by at most 1 in each index.", "quantifier": "all histories of API calls, all draws, all particles and all record positions", "why_tests_cant": "Every interleaving of API calls and every random stream.", "anchors": ["dorado/lagrangian_walker.py:calculate_new_ind", "dorado/lagrangian_walker.py:particle_stepper", "dorado/particle_track.py:Particles.run_iteration"]}
{"id": "C15", "title": "Histories of a particle are aligned and never repeat a position", "statement": "After any history of generate_particles / run_iteration / clear_walk_data calls, xinds, yinds, travel_times and every tracked optional variable have one list per particle, these lists have equal non-zero length for each particle, the particle count equals Np_tracer, and consecutive recorded positions are different.", "quantifier": "all histories of API calls with random or exact seeding", "why_tests_cant": "Invariant over unbounded histories.", "anchors": ["dorado/particle_track.py:Particles.generate_particles", "dorado/particle_track.py:Particles.run_iteration"]}
{"id": "C16", "title": "Particles next to an edge cell stop for good", "statement": "A particle located at a cell with row,col >= 1 whose 3x3 window contains an edge cell (cell_type -1) is never moved by any later run_iteration, with or without target_time, and its travel time no longer changes.", "quantifier": "all grids, all later call sequences, all draws", "why_tests_cant": "'Never' quantifies over all future call sequences.", "anchors": ["dorado/lagrangian_walker.py:check_for_boundary", "dorado/particle_track.py:Particles.run_iteration"]}
{"id": "C17", "title": "Particles stay inside the domain and routing does not crash", "statement": "If the outer ring of cell_type is edge (-1), as in the default, and all particles are seeded at interior cells, then every recorded position is interior forever and no run_iteration call raises an indexing error.", "quantifier": "all grids >= 3x3, all interior seeds, all histories, all draws", "why_tests_cant": "Invariant over unbounded histories and all draws.", "anchors": ["dorado/lagrangian_walker.py:check_for_boundary", "dorado/lagrangian_walker.py:particle_stepper", "dorado/particle_track.py:Particles.run_iteration", "dorado/particle_track.py:Particles.__init__ (cell_type)"]}
{"id": "C18", "title": "Travel times never decrease", "statement": "With diff_coeff <= 2, cell size and D8 distances non-negative, every particle's recorded travel times are finite and non-decreasing, for any history of calls.", "quantifier": "all fields, draws, histories", "why_tests_cant": "Sign of a product of five factors over all inputs and unbounded histories.", "anchors": ["dorado/lagrangian_walker.py:calc_travel_times", "dorado/lagrangian_walker.py:particle_stepper", "dorado/particle_track.py:Particles.run_iteration"]}
{"id": "C19", "title": "Travel time of a step is the documented one, within the diffusion band", "statement": "In exact arithmetic each step adds 1/2 * dist * max(0,cos(step angle - flow angle)) * (1/v_old + 1/v_new) * (1+delta) with |delta| <= diff_coeff/2, and delta = 0 when diff_coeff <= 0; so the added time is within a factor 1 -/+ diff_coeff/2 of the diffusion-free time.", "quantifier": "all steps, velocities, draws, diff_coeff", "why_tests_cant": "Bounds over all draws.", "anchors": ["dorado/lagrangian_walker.py:calc_travel_times"]}
{"id": "C20", "title": "Travel time accrues exactly for moves with a component along the flow", "statement": "With the default direction tables, the projection factor cos(angle_k - flow angle) of a step equals the cosine of the angle between the step (drow,dcol) and the velocity (u,v), so a step adds positive time iff its direction has a positive component along the velocity at the old cell, and zero time otherwise (diff_coeff < 2).", "quantifier": "all velocities, all eight steps", "why_tests_cant": "Trigonometric identity over all velocities.", "anchors": ["dorado/lagrangian_walker.py:calc_travel_times", "dorado/particle_track.py:Particles.__init__ (angles, velocity_angle)"]}
{"id": "C21", "title": "Recorded history is append-only", "statement": "run_iteration and generate_particles never alter or remove recorded entries: every particle's earlier lists are prefixes of its later lists, and particles keep their order.", "quantifier": "all histories of API calls", "why_tests_cant": "Unbounded histories.", "anchors": ["dorado/particle_track.py:Particles.run_iteration", "dorado/particle_track.py:Particles.generate_particles"]}
{"id": "C22", "title": "run_iteration() without target moves each particle at most once", "statement": "Without target_time each particle's lists grow by exactly one entry if its new position differs from the old one and stay unchanged otherwise; a stationary particle's travel time is unchanged.", "quantifier": "all states, draws", "why_tests_cant": "All states reachable by any history.", "anchors": ["dorado/particle_track.py:Particles.run_iteration"]}
{"id": "C23", "title": "run_iteration with target_time terminates within max_iter steps", "statement": "For every target_time and max_iter, run_iteration(target_time, max_iter) terminates and takes at most max(1, max_iter) steps per particle.", "quantifier": "all states, targets, max_iter, draws", "why_tests_cant": "Termination.", "anchors": ["dorado/particle_track.py:Particles.run_iteration"]}
{"id": "C24", "title": "run_iteration with target_time ends as near the target as the step estimate allows", "statement": "When the loop for a particle ends without hitting the iteration limit, a boundary or a stationary step, its travel time t satisfies |t - target| < |t + dt - target| where dt = max(0.1, last step duration); hence t > target - dt/2, and if at least one step was taken the time before the last step was <= target - (previous estimate)/2.", "quantifier": "all states, targets, draws", "why_tests_cant": "All executions of a data-dependent loop.", "anchors": ["dorado/particle_track.py:Particles.run_iteration"]}
{"id": "C25", "title": "Running to the same target twice changes nothing", "statement": "If run_iteration(T) has ended normally for a particle, calling run_iteration(T) again leaves that particle untouched.", "quantifier": "all states, targets, draws", "why_tests_cant": "Idempotence over all states.", "anchors": ["dorado/particle_track.py:Particles.run_iteration"]}
{"id": "C26", "title": "The iteration-limit warning reports exactly the particles that hit max_iter", "statement": "With verbose output, run_iteration(target_time) warns iff some particle was stopped by max_iter and the warning lists exactly these particles; with zero particles the call simply returns.", "quantifier": "all states, targets, max_iter, numbers of particles", "why_tests_cant": "Needs all combinations of particles hitting the limit.", "anchors": ["dorado/particle_track.py:Particles.run_iteration (_iter_particles)"]}
{"id": "C27", "title": "Routing needs particles", "statement": "run_iteration raises ValueError, and changes nothing, whenever no particles exist: on a fresh object and after clear_walk_data, whatever happened before; after a successful generate_particles it never raises that error.", "quantifier": "all histories", "why_tests_cant": "All histories.", "anchors": ["dorado/particle_track.py:Particles.run_iteration", "dorado/particle_track.py:Particles.clear_walk_data"]}
{"id": "C28", "title": "Tracked variables are the grid values at the recorded positions", "statement": "For every tracked grid variable (depth, stage, qx, qy, u, v), every particle and every record j, the stored value equals the grid value at the recorded position j, after any history of calls on one object.", "quantifier": "all histories, all particles, all records", "why_tests_cant": "Unbounded histories.", "anchors": ["dorado/lagrangian_walker.py:particle_stepper", "dorado/particle_track.py:Particles.generate_particles", "dorado/particle_track.py:Particles.run_iteration"]}
{"id": "C29", "title": "roi_flag records region membership at every record", "statement": "If roi_grid is supplied, walk data always contains roi_flag and each entry is 1 iff roi_grid equals 1 at the recorded position, else 0, also when continuing from previous_walk_data.", "quantifier": "all histories, including continuation from previous walk data", "why_tests_cant": "Unbounded histories and arbitrary previous data.", "anchors": ["dorado/lagrangian_walker.py:particle_stepper", "dorado/particle_track.py:Particles.generate_particles", "dorado/particle_track.py:Particles.__init__ (roi_grid)"]}
{"id": "C30", "title": "Exact seeding distributes particles evenly over the listed locations", "statement": "generate_particles(N, xs, ys, method='exact') with equally long non-empty lists creates N particles; particle i starts at (xs[i mod n], ys[i mod n]); so each location receives floor(N/n) or floor(N/n)+1 particles.", "quantifier": "all N >= 0, all lists", "why_tests_cant": "All N and list lengths.", "anchors": ["dorado/particle_track.py:Particles.generate_particles"]}
{"id": "C31", "title": "Random seeding stays in the listed coordinates", "statement": "generate_particles(N, xs, ys, method='random') with non-empty lists creates exactly N particles, each with x in xs and y in ys, for every random stream; every listed entry is chosen with probability 1/n.", "quantifier": "all N, lists and random draws", "why_tests_cant": "All random draws.", "anchors": ["dorado/lagrangian_walker.py:random_pick_seed", "dorado/particle_track.py:Particles.generate_particles"]}
{"id": "C32", "title": "Seeding accumulates: previous, existing, then new particles", "statement": "generate_particles yields walk data consisting of previous_walk_data (if given), then the particles already held, then the new ones, each with its complete history, and Np_tracer equals the total.", "quantifier": "all states, previous data and seeds", "why_tests_cant": "All combinations and histories.", "anchors": ["dorado/particle_track.py:Particles.generate_particles"]}
{"id": "C33", "title": "New particles start with exactly one record at seed_time", "statement": "Each newly generated particle has one-entry lists and travel time seed_time.", "quantifier": "all seeds, times", "why_tests_cant": "All N and histories.", "anchors": ["dorado/particle_track.py:Particles.generate_particles"]}
{"id": "C34", "title": "Rejected seeding requests leave the object unchanged", "statement": "generate_particles raises (TypeError/ValueError) for a non-numeric count, non-list locations, non-numeric seed time or an unknown method, and for an untracked variable name, and then neither walk data nor Np_tracer has changed.", "quantifier": "all invalid inputs, all prior states", "why_tests_cant": "All states and inputs.", "anchors": ["dorado/particle_track.py:gen_input_check", "dorado/particle_track.py:Particles.generate_particles"]}
{"id": "C35", "title": "Derived flow fields are well-formed", "statement": "After Particles(params) with finite discharge or velocity: depth has no NaN; stage is NaN wherever depth is 0; velocity >= 1e-8 everywhere; |u|,|v| >= 1e-8; qx,qy have no NaN.", "quantifier": "all inputs including NaN cells", "why_tests_cant": "All arrays with NaNs anywhere.", "anchors": ["dorado/particle_track.py:Particles.__init__"]}
{"id": "C36", "title": "Incomplete inputs are rejected, complete ones of sufficient size accepted", "statement": "For arrays of one common shape R\u00d7C, Particles(params) raises ValueError iff dx is missing, or neither depth nor (stage and topography) is given, or neither stage nor (topography and depth) is given, or neither (qx,qy) nor (u,v) is given, or roi_grid has the wrong shape. Otherwise it succeeds iff R,C >= 2, or R,C >= 1 and cell_type is given; for smaller arrays it raises IndexError.", "quantifier": "all presence/absence combinations of the inputs, all shapes", "why_tests_cant": "Decision table over all combinations and all arrays.", "anchors": ["dorado/particle_track.py:Particles.__init__"]}
{"id": "C37", "title": "Index -> coordinate -> index is the identity", "statement": "coord2ind applied to the coordinates ind2coord attaches to a walk returns the walk's indices, for every origin, raster size and positive cell size (exact arithmetic; with bounded rounding error as well).", "quantifier": "all walks, origins, sizes, cell sizes", "why_tests_cant": "Round trip over all reals.", "anchors": ["dorado/particle_track.py:coord2ind", "dorado/particle_track.py:ind2coord"]}
{"id": "C38", "title": "coord2ind returns the nearest grid node", "statement": "The node coordinates of the index returned by coord2ind differ from the query by at most half a cell size in each direction.", "quantifier": "all coordinates", "why_tests_cant": "All reals, including ties of round-half-even.", "anchors": ["dorado/particle_track.py:coord2ind"]}
{"id": "C39", "title": "Coordinates inside the raster map to valid indices", "statement": "Every coordinate inside the raster extent [x0, x0+W*cell) x [y0, y0+L*cell) maps to an index with 0 <= row < L and 0 <= col < W.", "quantifier": "all coordinates in the extent", "why_tests_cant": "All reals in the extent, in particular its edges.", "anchors": ["dorado/particle_track.py:coord2ind"]}
{"id": "C40", "title": "Exposure time lies between 0 and the total travel time", "statement": "For a binary region and non-decreasing times each exposure time is >= 0 and <= last time - first time, and enlarging the region never decreases it.", "quantifier": "all walks, regions", "why_tests_cant": "All walks.", "anchors": ["dorado/particle_track.py:exposure_time"]}
{"id": "C41", "title": "Exposure time is additive over disjoint regions", "statement": "For disjoint binary regions A and B (exact arithmetic), exposure to A union B equals exposure to A plus exposure to B; exposure to a region and to its complement sum to the total travel time.", "quantifier": "all walks, disjoint regions", "why_tests_cant": "All walks and pairs of regions.", "anchors": ["dorado/particle_track.py:exposure_time"]}
{"id": "C42", "title": "Exposure time equals the sum of step durations weighted by half the end points inside", "statement": "exposure_time returns, per particle in order, sum over steps of dt * (number of end points in the region)/2; 0 for a particle never inside, the full duration for one always inside.", "quantifier": "all walks, regions", "why_tests_cant": "All walks.", "anchors": ["dorado/particle_track.py:exposure_time"]}
{"id": "C43", "title": "exposure_time reports exactly the particles still inside at the end", "statement": "The message lists exactly the particles that have at least two records and whose last recorded position is in the region; no message iff there are none.", "quantifier": "all walks, regions", "why_tests_cant": "All walks.", "anchors": ["dorado/particle_track.py:exposure_time (_short_list)"]}
{"id": "C44", "title": "nourishment_area is a normalised map", "statement": "nourishment_area returns values that are NaN or in [0,1] with maximum exactly 1, and without smoothing a cell is NaN iff no particle visited it.", "quantifier": "all walks, raster sizes, clip percentiles, smoothing kernels that keep values non-negative", "why_tests_cant": "All walks; percentile clipping interacts with sparsity.", "anchors": ["dorado/particle_track.py:nourishment_area"]}
{"id": "C45", "title": "nourishment_area counts visits", "statement": "Without smoothing and with clip=100, the value at a cell is (number of records at that cell) / (maximum number of records at any cell).", "quantifier": "all walks, cells", "why_tests_cant": "All walks.", "anchors": ["dorado/particle_track.py:nourishment_area"]}
{"id": "C46", "title": "nourishment_time is the mean residence of interior visits", "statement": "Without smoothing and with clip=100, the value at a cell is the average over visits (excluding each particle's first and last record) of half the time from the previous record to the next one, NaN if this is 0; for non-decreasing times the values are >= 0; multiplied by the visit counts they sum to the total of those residence times.", "quantifier": "all walks, cells", "why_tests_cant": "All walks.", "anchors": ["dorado/particle_track.py:nourishment_time"]}
{"id": "C47", "title": "unstruct2grid interpolates within the data range, on the right grid", "statement": "For k>1 every gridded value is a convex combination of the k neighbours' data (hence between their min and max; constants are reproduced; the map is linear in the data); for k=1 it is the datum of the nearest point; row r, column c of the uncropped output belongs to the location (xmin + c*cellsize, ymin + (ny-1-r)*cellsize), and the grid covers all points.", "quantifier": "all point sets, data, cell sizes, k", "why_tests_cant": "All point sets and reals.", "anchors": ["dorado/particle_track.py:unstruct2grid"]}
{"id": "C48", "title": "unstruct2grid boundary and crop", "statement": "With a boundary, cells outside it are NaN; with crop, exactly the rows and columns consisting only of NaN are removed and all remaining values are kept in order; only border rows/columns are removed.", "quantifier": "all grids, boundaries", "why_tests_cant": "All masks.", "anchors": ["dorado/particle_track.py:unstruct2grid (interp_func)"]}
{"id": "C49", "title": "flux_proportional_seeding hands out exactly N_total particles", "statement": "For any discharge series with non-zero total and N_total >= 0 the counts are non-negative integers with sum N_total, one per timestep (exact arithmetic), whatever order ties are sorted in; too short or all-zero series raise ValueError.", "quantifier": "all discharge series (1-D, and column vectors as documented), all N_total", "why_tests_cant": "All series and tie-breaking orders.", "anchors": ["dorado/particle_track.py:flux_proportional_seeding"]}
{"id": "C50", "title": "flux_proportional_seeding respects quota", "statement": "Each timestep's count is the floor or the floor+1 of N_total*|Q_i|/sum|Q|, the extra particles going to the largest fractional parts.", "quantifier": "all discharge series and N_total", "why_tests_cant": "All series.", "anchors": ["dorado/particle_track.py:flux_proportional_seeding"]}
{"id": "C51", "title": "combine_result concatenates worker results in order", "statement": "For worker dictionaries with the same keys, the combined dictionary has these keys and for each key the concatenation of the workers' lists in order, so particle k of worker w appears at the same position in every field.", "quantifier": "all lists of worker results", "why_tests_cant": "All numbers of workers and particles.", "anchors": ["dorado/parallel_routing.py:combine_result"]}
{"id": "C52", "title": "parallel_routing returns num_cores * Np_tracer complete walks", "statement": "For num_iter >= 1 and a Particles object without walk data, parallel_routing returns num_cores*Np_tracer particles, each an aligned connected walk; workers do not influence each other's particles.", "quantifier": "all num_cores, Np_tracer, seeds, schedules and random streams of the workers", "why_tests_cant": "All schedules.", "anchors": ["dorado/parallel_routing.py:parallel_routing", "dorado/parallel_routing.py:run_iter"]}
{"id": "C53", "title": "Parallel workers simulate different random walks", "statement": "Different worker processes use different random numbers, so the num_cores blocks of particles are not copies of each other.", "quantifier": "all runs (fork start method)", "why_tests_cant": "Depends on inherited generator state, same on every run with a given seed.", "anchors": ["dorado/parallel_routing.py:parallel_routing"]}
{"id": "C54", "title": "get_state slices by iteration with clamping", "statement": "get_state(walk, k) returns for each particle record k (Python indexing, negative from the end), or its last record if it has no record k, for positions, times and all optional fields alike; always one entry per particle. plot_state(k) draws the particles at these positions (when no optional variables are tracked, see C65).", "quantifier": "all aligned walks, all iterations k", "why_tests_cant": "All walks and indices.", "anchors": ["dorado/routines.py:get_state", "dorado/routines.py:plot_state"]}
{"id": "C55", "title": "get_time_state picks the record nearest in time", "statement": "get_time_state(walk, T) returns for every particle the first record minimising |time - T|, consistently across all fields. plot_state(target_time=T) draws the particles at these positions (when no optional variables are tracked, see C65).", "quantifier": "all aligned walks with at least one record, all T", "why_tests_cant": "All walks.", "anchors": ["dorado/routines.py:get_time_state", "dorado/routines.py:plot_state"]}
{"id": "C56", "title": "Spatial exposure maps have one entry per chunk", "statement": "systemwide and localized return (rows//res)*(cols//res) entries in row-major chunk order; an entry is NaN iff the chunk has no region cell, else the exposure times of the particles that started in the chunk; compute_thresholds returns maps of shape (rows//res, cols//res) for such input.", "quantifier": "all rasters, resolutions, walks", "why_tests_cant": "All sizes and divisibility cases.", "anchors": ["dorado/spatial.py:systemwide", "dorado/spatial.py:localized", "dorado/spatial.py:compute_thresholds"]}
{"id": "C57", "title": "Every particle belongs to exactly one chunk", "statement": "The chunks tile the raster: each particle starting inside the raster is attributed to exactly one chunk.", "quantifier": "all rasters, resolutions <= raster size, starting cells", "why_tests_cant": "All starting cells, in particular chunk borders.", "anchors": ["dorado/spatial.py:_find_common_indices_info", "dorado/spatial.py:systemwide", "dorado/spatial.py:localized"]}
{"id": "C58", "title": "Localized exposure never exceeds system-wide exposure", "statement": "For the same walks with non-decreasing times, raster and resolution, corresponding entries of localized and systemwide have the same particles and each localized time <= the system-wide time.", "quantifier": "all walks, rasters, resolutions", "why_tests_cant": "Two-run property over all walks.", "anchors": ["dorado/spatial.py:systemwide", "dorado/spatial.py:localized"]}
{"id": "C59", "title": "Exposure percentiles are ordered", "statement": "compute_thresholds filters three maps that hold the percentiles of each chunk at its row and column. Before outlier filtering (also: in the returned maps if window_size is 0 or 1), E50 <= E75 <= E90 in every chunk with at least five different non-zero exposure times, and each lies between the smallest and largest of them divided by timedelta; the other chunks are NaN. After filtering (threshold >= 1) the same chunks are NaN, and every value stays within the range of the non-zero exposure times of the chunks in the window, divided by timedelta. The output of systemwide and localized for routed particles is accepted.", "quantifier": "all exposure data, all density estimates", "why_tests_cant": "All data.", "anchors": ["dorado/spatial.py:percentile_from_cdf", "dorado/spatial.py:compute_thresholds", "dorado/spatial.py:median_absolute_deviation_filter"]}
{"id": "C60", "title": "The MAD filter keeps NaN cells and stays in the local range", "statement": "median_absolute_deviation_filter returns NaN exactly at NaN cells (threshold >= 1) and otherwise a value between the minimum and maximum of the non-NaN values in the window; maps that are constant in a window are unchanged there.", "quantifier": "all maps, window sizes, thresholds >= 1", "why_tests_cant": "All maps.", "anchors": ["dorado/spatial.py:median_absolute_deviation_filter"]}
{"id": "C61", "title": "Logging setup is idempotent", "statement": "After any sequence of setup_logging / verbose= calls the package logger has at most one handler added by dorado, its level is that of the last successful call, and an invalid level raises ValueError without changing level or handlers; verbose=None changes nothing.", "quantifier": "all call sequences", "why_tests_cant": "All sequences.", "anchors": ["dorado/logging_config.py:setup_logging", "dorado/logging_config.py:handle_verbose_deprecation"]}
{"id": "C62", "title": "Unsteady routing carries every particle's history through all flow fields", "statement": "unsteady_plots runs min(num_steps, number of model outputs) steps, step i with target time (i+1)*timestep on flow field i, and the walk data of each step extends the walk data of the previous step for the same particles.", "quantifier": "all sequences of flow fields, all draws", "why_tests_cant": "All sequences.", "anchors": ["dorado/routines.py:unsteady_plots"]}
{"id": "C63", "title": "The cumulative exposure curve is a sub-distribution function", "statement": "The vectors plotted by plot_exposure_time are aligned; times start at 0, are sorted and end at the end time; fractions start at 0, are non-decreasing, bounded by 1 and end at (number of included particles)/Np.", "quantifier": "all exposure time lists and walks", "why_tests_cant": "All lists.", "anchors": ["dorado/routines.py:plot_exposure_time", "dorado/routines.py:plot_exposure_time_thresholds"]}
{"id": "C64", "title": "Walk data handed to and returned by the API is shared, not copied", "statement": "The dictionary returned by run_iteration keeps reflecting later iterations of the same object, and histories passed as previous_walk_data are themselves extended by later iterations: every holder of a particle's list sees the same list.", "quantifier": "all histories of calls", "why_tests_cant": "Aliasing over all histories.", "anchors": ["dorado/particle_track.py:Particles.run_iteration", "dorado/particle_track.py:Particles.generate_particles"]}
{"id": "C65", "title": "Plotting helpers accept walk data with or without optional variables", "statement": "plot_exposure_time, plot_exposure_time_thresholds, plot_state, steady_plots, unsteady_plots and time_plots accept the walk data run_iteration produces, whether or not optional variables are tracked.", "quantifier": "all walk data", "why_tests_cant": "All combinations of tracked variables.", "anchors": ["dorado/routines.py:plot_exposure_time", "dorado/routines.py:plot_state", "dorado/routines.py:get_state"]}
{"id": "C66", "title": "Particles with somewhere to go always move", "statement": "With the default direction tables, non-zero step length and a non-zero uniform draw, run_iteration() moves every particle that is at an interior cell, not next to an edge cell, and has some flow-derived weight around it; it never leaves such a particle where it was, and its record grows by exactly one entry.", "quantifier": "all flow fields, states, draws", "why_tests_cant": "All weights and draws; the current cell is one of the nine candidates of the draw.", "anchors": ["dorado/lagrangian_walker.py:get_weight", "dorado/lagrangian_walker.py:particle_stepper", "dorado/particle_track.py:Particles.run_iteration"]}
{"id": "C67", "title": "Routing output is always accepted by the post-processing functions", "statement": "For particles seeded at interior cells with a finite seed time, cell size >= 0 and diff_coeff <= 2, and any sequence of API calls, exposure_time, nourishment_area and nourishment_time accept the walk data without error, giving one exposure time >= 0 per particle and maps of the raster's shape (visit map in [0,1], residence map positive or NaN); in exact arithmetic exposure times are at most the particle's travel time and ind2coord followed by coord2ind returns the recorded indices.", "quantifier": "all flow fields, histories of API calls, draws, regions, percentiles, smoothing operators", "why_tests_cant": "Composition of unbounded random walks with post-processing over all inputs.", "anchors": ["dorado/particle_track.py:Particles.run_iteration", "dorado/particle_track.py:exposure_time", "dorado/particle_track.py:nourishment_area", "dorado/particle_track.py:nourishment_time", "dorado/particle_track.py:ind2coord"]}
{"id": "C68", "title": "particle_stepper moves every particle by at most one cell and keeps time", "statement": "lagrangian_walker.particle_stepper, called with interior positions, one time per position and tracked variables, succeeds and returns one position and one time per particle in order: a particle stays with unchanged time or moves to a neighbouring interior cell; particles next to an edge cell stay; times do not decrease (diff_coeff <= 2, cell size >= 0); each requested variable is sampled at the new position.", "quantifier": "all objects, histories, positions, times, draws", "why_tests_cant": "All inputs and draws of the function all routing is built on.", "anchors": ["dorado/lagrangian_walker.py:particle_stepper", "dorado/lagrangian_walker.py:calc_travel_times", "dorado/lagrangian_walker.py:check_for_boundary"]}
{"id": "C69", "title": "Reported exposure thresholds are the times at which the level is first reached", "statement": "With show_thresholds, plot_exposure_time reports for each of 50, 75 and 90 per cent the smallest counted exposure time (in units of timedelta) at which the cumulative fraction of particles reaches the level, and reports none exactly if the curve ends below the level. plot_exposure_time_thresholds reports for each level the first of the smoothed times whose interpolated fraction reaches it, rounded down.", "quantifier": "all walk data, exposure time lists, units, bin counts", "why_tests_cant": "All distributions of exposure times, including ties and levels hit exactly.", "anchors": ["dorado/routines.py:plot_exposure_time", "dorado/routines.py:plot_exposure_time_thresholds"]}
{"id": "C70", "title": "clear_walk_data makes an object as good as new", "statement": "After clear_walk_data, any later sequence of generate_particles, run_iteration and clear_walk_data calls (exceptions caught and the object used further) returns the same results, raises the same exceptions and leaves the same walk data behind as on a freshly built Particles object with the same parameters at the same position of the random stream. In particular run_iteration raises ValueError until particles are generated, and no earlier particle reappears.", "quantifier": "all parameter sets, histories, later call sequences, random streams", "why_tests_cant": "Cached routing weights survive the clearing; that they never influence a later result is a statement over all call sequences.", "anchors": ["dorado/particle_track.py:Particles.clear_walk_data", "dorado/particle_track.py:Particles.generate_particles", "dorado/particle_track.py:Particles.run_iteration"]}
{"id": "C71", "title": "snake_plots draws the recorded positions with a tail per particle", "statement": "snake_plots succeeds on the walk data of any object and saves num_steps figures, fewer only if no particle has enough records. The figure titled Iteration ii shows for every particle that has ii records a tail of tail_length segments, all joining positions recorded by that particle not later than ii, the newest being its position after ii iterations, and no other particle. A colour marks one age in all figures; colours run evenly from rgba_start to rgba_end.", "quantifier": "all walk data, num_steps, intervals, tail lengths, colours", "why_tests_cant": "Index arithmetic over all walk lengths, intervals and tail lengths.", "anchors": ["dorado/routines.py:snake_plots"]}
{"id": "C72", "title": "draw_travel_path draws the walks asked for and changes nothing", "statement": "draw_travel_path succeeds exactly if every requested number belongs to a particle ('all' always works and means every particle once). It draws one path per requested particle in the order given, whose vertices are the records 0, interval, 2*interval, ... of that particle. Drawing does not influence later walks.", "quantifier": "all walk data, particle lists, intervals", "why_tests_cant": "All walk data and selections; the effect on later walks shows up only in the random stream.", "anchors": ["dorado/routines.py:draw_travel_path"]}
{"id": "C73", "title": "Figures of the automated routines show the walks after each iteration", "statement": "steady_plots and time_plots run num_iter iterations on the object and return the walk data after the last one; figure i (one per iteration) shows every particle at its newest position after i+1 iterations and at its first position, in time_plots coloured by its travel time; the last figure shows the data returned. Without save_output there are no figures and the same walks. unsteady_plots saves one figure per step with the time, the water depth of that step (missing values as zero) and the walks after it.", "quantifier": "all objects, histories before the call, numbers of iterations, output directories, random draws", "why_tests_cant": "The start markers are kept from the first iteration and the others recomputed; agreement is needed for every iteration and history.", "anchors": ["dorado/routines.py:steady_plots", "dorado/routines.py:time_plots", "dorado/routines.py:unsteady_plots"]}
{"id": "C74", "title": "animate_plots shows the saved figures in order", "statement": "animate_plots(start_val, end_val) shows the pictures with the numbers start_val up to and including end_val (\"Number of last plot to use\"), each once in increasing order. animate_plots(0, num_iter) after steady_plots or time_plots with num_iter iterations shows exactly the figures saved.", "quantifier": "all ranges, numbers of iterations", "why_tests_cant": "A range with exclusive end against a documented inclusive one, for all ranges.", "anchors": ["dorado/routines.py:animate_plots"]}
{"id": "C75", "title": "Walks are independent Markov chains with the documented transition probabilities", "statement": "With independent uniform draws, the probability that the next n calls of run_iteration() take the particles of an object along a given joint path is the product, over iterations and particles, of the probability of the individual moves: a particle next to an edge cell stays, any other particle goes to a cell of its 3x3 window with probability proportional to the routing weight of that cell; with steepest descent only the neighbours of largest weight take part, and if the cell itself is the only one of largest weight the particle goes to the first neighbour. Particles do not influence each other, the past matters only through the present position, and diffusion affects travel times only. With probability one no particle leaves a cell with a wet way out onto a dry or land cell.", "quantifier": "all flow fields and parameters (exact arithmetic), states, numbers of particles and iterations, joint paths", "why_tests_cant": "A statement about the joint distribution of infinitely many draws; simulation can only estimate it for one field, and the number of draws an iteration consumes depends on the path when diffusion is on.", "anchors": ["dorado/lagrangian_walker.py:random_pick", "dorado/lagrangian_walker.py:get_weight", "dorado/lagrangian_walker.py:particle_stepper", "dorado/lagrangian_walker.py:calc_travel_times", "dorado/particle_track.py:Particles.run_iteration"]}
{"id": "C76", "title": "particle_stepper accepts positions as documented", "statement": "particle_stepper may be called with current_inds as documented, a list of (x,y) tuples. The result is the one of the call with [x,y] lists that run_iteration makes: the same new positions, times and variables. In particular a particle that stays keeps its time, and no time decreases.", "quantifier": "all parameter sets, histories, interior positions, times, random streams", "why_tests_cant": "The defect is one comparison of a tuple with a list, visible only for particles that do not move; agreement of everything else is needed for all fields, positions and streams.", "anchors": ["dorado/lagrangian_walker.py:particle_stepper", "dorado/lagrangian_walker.py:calc_travel_times"]}
{"id": "C77", "title": "The exposure time distribution is a density of the counted exposure times", "statement": "The differential curve shown by plot_exposure_time has one value per bin, over nbins equally spaced times from 0 to the end time. No value is negative. Each value is the slope, between the neighbouring times, of the cumulative curve drawn with straight lines through the counted exposure times. The area under it, with time in the plotted unit, is the fraction of the particles whose exposure time is counted.", "quantifier": "all walk data with proper times, all exposure times, numbers of bins, time units > 0, both ends of the simulation, positive end time; exact arithmetic", "why_tests_cant": "The area identity and the sign hold for all exposure times, ties and bin counts; a test fixes one data set, and the plot is not checked by the test suite at all.", "anchors": ["dorado/routines.py:plot_exposure_time"]}
{"id": "C78", "title": "Nourishment maps are drawn true to their values", "statement": "show_nourishment_area and show_nourishment_time draw the maps returned by nourishment_area and nourishment_time without error. Cells without a value are not drawn. The opacity of every other cell lies in [min_alpha, 1], never decreases with the value and is proportional to it up to the percentile used. The colour position is proportional to the value, from the bottom of the colour map for the least value to the top for the greatest. The seed marker, if shown, is at the first position of particle 0.", "quantifier": "all walk data on the raster, percentiles, smoothing operators, maps with positive values, min_alpha, sigma", "why_tests_cant": "The tests only check that a figure is produced; order and proportion must hold for every map and any number of missing cells.", "anchors": ["dorado/routines.py:show_nourishment_area", "dorado/routines.py:show_nourishment_time", "dorado/particle_track.py:nourishment_area"]}
{"id": "C79", "title": "Exposure maps lie over the raster cells they were computed from", "statement": "plot_spatial draws each of the maps of compute_thresholds in its own panel over the elevation raster. At every point of a raster cell the panel shows the value of the chunk (of systemwide or localized) to which that raster cell belongs.", "quantifier": "all raster sizes and resolution factors up to them, all maps of the corresponding shape", "why_tests_cant": "The claim depends on divisibility of the raster size by the resolution factor; the tests use one size and look at no pixel.", "anchors": ["dorado/spatial.py:plot_spatial", "dorado/spatial.py:systemwide", "dorado/spatial.py:compute_thresholds"]}
{"id": "C80", "title": "The colour bar of plot_spatial is labelled with its levels", "statement": "plot_spatial accepts up to three maps. The labels of the colour bar are the values of its levels, the last one marked with a plus sign, and the axes of the panels are returned.", "quantifier": "all numbers of maps, maximum values, numbers of levels and colours", "why_tests_cant": "The only test calls the function with max_exposure=7 and 7 levels, whose labels are wrong, and does not look at them.", "anchors": ["dorado/spatial.py:plot_spatial"]}
{"id": "C81", "title": "Coordinates added by ind2coord belong to the recorded locations", "statement": "After ind2coord has been called on a dictionary returned by run_iteration, get_state and get_time_state return for every particle and record the values they return without coordinates and, under xcoord and ycoord, the coordinates of the very location they return, also when the object is routed on and the dictionary grows. The plotting helpers accept the dictionary.", "quantifier": "all programs, dictionaries, later continuations, records counted from the start or the end, target times, origins, raster and cell sizes", "why_tests_cant": "The tests call ind2coord once on finished walk data and compare a few numbers; the histories in the dictionary are shared with the object and keep growing, so the claim ranges over everything a program does afterwards.", "anchors": ["dorado/particle_track.py:ind2coord", "dorado/routines.py:get_state", "dorado/routines.py:get_time_state", "dorado/routines.py:plot_state"]}
{"id": "C82", "title": "Building Particles does not depend on what was built from the arrays before", "statement": "Particles(params) has the attributes that the values of its parameters determine, wherever the arrays are stored. In a loop that builds several objects from the same arrays with other settings, every object is the one its parameters give on the untouched arrays, and objects built earlier keep their attributes.", "quantifier": "all parameter objects, arrays and sharing between them, all loops of constructions with any other settings, any rounding", "why_tests_cant": "Tests build one object from fresh arrays; the constructor writes into the caller's arrays and list, so the claim is about every sequence of constructions and every way the arrays are shared.", "anchors": ["dorado/particle_track.py:Particles.__init__"]}
{"id": "C83", "title": "Building Particles changes the caller's data only at missing, dry or still cells", "statement": "Particles(params) keeps the shape of every array of the caller and every cell of it, except: a missing depth or discharge becomes 0, the stage of a dry cell becomes NaN, a missing or tiny velocity becomes 1e-8. The list of tracked variables can only gain roi_flag, and of the parameters only a negative diffusion coefficient is replaced (by 0).", "quantifier": "all parameter objects with the fields in different arrays, every array and list in memory, every cell", "why_tests_cant": "Tests compare the attributes of the object; that nothing else in the caller's memory changed is a statement about all cells of all arrays, also those not given to the constructor.", "anchors": ["dorado/particle_track.py:Particles.__init__"]}
{"id": "C84", "title": "exposure_time does not depend on the element type of the region", "statement": "A region of interest given to exposure_time as an integer, floating point or Boolean array marking the same cells gives the same exposure times and the same message about particles still in the region.", "quantifier": "all walk data, all regions, the three element types, any rounding that has the number 2", "why_tests_cant": "Tests use one small integer region; the claim compares element types over all regions and walks, and the sum of two region values that the code compares with 1 and 2 means something else for Booleans.", "anchors": ["dorado/particle_track.py:exposure_time"]}
{"id": "C85", "title": "Saved walk data can be loaded and the simulation resumed from it", "statement": "The file data.txt written by steady_plots, time_plots and unsteady_plots (and exposure_times.txt by plot_exposure_time) can be loaded with json.load and holds exactly the walk data (exposure times) of the run. A fresh Particles object of the same parameters given the walk data as previous_walk_data, with no new particles, continues exactly as the object that produced it would have.", "quantifier": "all histories, parameters, tracked variables, draws and later sequences of calls; seed times of type int or float; any rounding", "why_tests_cant": "Tests check that a file exists; that its text determines every position and time, and that all later calls agree, ranges over unbounded histories.", "anchors": ["dorado/routines.py:steady_plots", "dorado/routines.py:unsteady_plots", "dorado/routines.py:time_plots", "dorado/routines.py:plot_exposure_time", "dorado/particle_track.py:Particles.generate_particles (previous_walk_data)"]}
{"id": "C86", "title": "Only differences of times matter", "statement": "If the seed times, the target times and the times in previously generated walk data are all later by the same amount c, then any sequence of generate_particles, run_iteration and clear_walk_data calls on a new object (exceptions caught and the object used further) gives the same positions, tracked variables, warnings, exceptions and consumption of random numbers, with every recorded travel time later by c. exposure_time of the shifted data is unchanged.", "quantifier": "all objects, c, draws and sequences of calls, with and without target_time, both routing modes; exact arithmetic", "why_tests_cant": "A relation between two runs over unbounded sequences of calls and all fields; tests run from time 0 only.", "anchors": ["dorado/particle_track.py:Particles.run_iteration", "dorado/particle_track.py:Particles.generate_particles", "dorado/particle_track.py:exposure_time", "dorado/lagrangian_walker.py:particle_stepper"]}
{"id": "C87", "title": "The cell size only sets the time scale", "statement": "With params.dx multiplied by c > 0, and the seed times and times of previously generated walk data multiplied by c, any sequence of calls without target_time on a new object (exceptions caught and the object used further) gives the same positions, tracked variables, exceptions and consumption of random numbers, with every recorded travel time multiplied by c; exposure times are multiplied by c. (With a target time this is not so: the first estimate of the step duration is the constant 0.1.)", "quantifier": "all parameter sets the constructor accepts, c > 0, draws and sequences of calls without target time; any rounding that commutes with multiplication by c (exact arithmetic: any c; binary floats: powers of two)", "why_tests_cant": "A relation between two runs over unbounded sequences of calls, all parameter sets and all random streams.", "anchors": ["dorado/particle_track.py:Particles.__init__ (dx)", "dorado/lagrangian_walker.py:step_update", "dorado/lagrangian_walker.py:calc_travel_times", "dorado/particle_track.py:exposure_time"]}
{"id": "C88", "title": "An exception in run_iteration never leaves half a record", "statement": "If run_iteration raises and the exception is caught, the object is still consistent. Without target_time the walk data and the number of particles are unchanged, and every later sequence of calls gives what it would have given without the failed call (apart from the random numbers it drew). With target_time there is a particle k such that the particles before k have exactly the histories the call gives when made for these particles alone, the particles after k are untouched, and particle k has its old records followed by complete new ones. In every case each list only grew and all lists of a particle keep one common length.", "quantifier": "all objects built by the constructor, all histories (including earlier caught exceptions), draws, targets, max_iter and points of failure; both routing modes, any rounding", "why_tests_cant": "The point at which an exception strikes depends on fields, seeds and draws; a test sees only the ones it provokes.", "anchors": ["dorado/particle_track.py:Particles.run_iteration", "dorado/lagrangian_walker.py:particle_stepper", "dorado/lagrangian_walker.py:random_pick", "dorado/lagrangian_walker.py:steep_descent"]}
{"id": "C89", "title": "Steepest descent without ties is deterministic", "statement": "With steepest_descent=True, if no cell has two neighbours sharing its largest weight, the random numbers do not decide where particles go. Without diffusion everything seen of a sequence of calls (walk data, times, warnings, exceptions, target-time runs) is the same for every random stream; with diffusion and no target_time everything but the travel times is. Two particles that ever visit the same cell follow the same path from there on, whichever objects with the same parameters they belong to. With ties the claim is false (counterexample).", "quantifier": "all objects built by the constructor with steepest_descent, all histories, streams of non-zero random numbers, call sequences without random seeding; any rounding", "why_tests_cant": "A test compares a few seeds on one field; the claim is about all random streams and all call sequences.", "anchors": ["dorado/lagrangian_walker.py:steep_descent", "dorado/lagrangian_walker.py:random_pick", "dorado/lagrangian_walker.py:get_weight", "dorado/particle_track.py:Particles.run_iteration"]}
{"id": "C90", "title": "Random numbers consumed by each call, and nothing else of the stream matters", "statement": "generate_particles draws exactly two random numbers per new particle with method='random' and none with 'exact'. run_iteration without target_time draws exactly one number per particle not parked in cell (0,0), plus one per recorded move if diff_coeff > 0. With target_time it draws one number per recorded move (two with diffusion) and at most one more per particle. No call, failing or not, rewinds the stream. What is seen of a sequence of calls is determined by the numbers drawn during it: changing the stream before the first or after the last of them changes nothing.", "quantifier": "all parameters, object states, call arguments, call sequences (with caught exceptions) and random streams; both routing modes, any rounding", "why_tests_cant": "Reproducing a run from a saved generator state relies on the exact consumption for every field and history; tests fix one seed and one run.", "anchors": ["dorado/particle_track.py:Particles.generate_particles", "dorado/particle_track.py:Particles.run_iteration", "dorado/lagrangian_walker.py:random_pick", "dorado/lagrangian_walker.py:random_pick_seed", "dorado/lagrangian_walker.py:calc_travel_times"]}
{"id": "C91", "title": "A target-time run is plain iterations, one particle after the other", "statement": "run_iteration(target_time=T) handles the particles in order. What it does to particle i is exactly what some number k of plain run_iteration() calls do to an object holding that particle alone, starting from the weights and the place in the random stream the previous particle left: same positions, times and tracked variables. Each of these calls records a step, except possibly the last. With one particle the whole call is a number of plain calls, with the same walk data, weights and place in the random stream afterwards.", "quantifier": "all objects built by the constructor, all histories, any target time and iteration limit, any random stream, both routing modes, any rounding", "why_tests_cant": "A test compares the two ways of running on one seed and field; the claim quantifies over all fields, histories, targets and streams.", "anchors": ["dorado/particle_track.py:Particles.run_iteration", "dorado/lagrangian_walker.py:particle_stepper"]}
{"id": "C92", "title": "Intermediate target times do not change the walk of a particle", "statement": "Bringing a single particle to time T in several run_iteration(target_time=...) calls, with any intermediate targets up to T, gives the same walk data as one call with target T; with one intermediate target reached away from edge cells also the same object state, including the place in the random stream. The intermediate calls must end in the ordinary way: not by max_iter, not at a dead end away from edges, not after a step shorter than 0.1; the final calls must not be stopped by max_iter. With a last step shorter than 0.1, and with two particles sharing the stream, the claim is false (counterexamples).", "quantifier": "objects with default step tables and non-zero cell size, one particle, all histories, all targets and limits, all streams of non-zero random numbers; exact arithmetic", "why_tests_cant": "Output intervals are chosen by the user; a test checks one set of them on one walk.", "anchors": ["dorado/particle_track.py:Particles.run_iteration"]}
{"id": "C93", "title": "Continuing a simulation only adds to the exposure times", "statement": "Take the walk data of an object and compute exposure_time for a region; after any further calls on the same object (plain or with target time, more seeds) compute it again. No particle's exposure time is smaller than before, and it is the same if the particle has got no new record. In exact arithmetic the increase is the exposure time of the records made since then, so exposure times of the parts of a simulation add up.", "quantifier": "all objects with the default ring of edge cells, interior seeds, diff_coeff <= 2, all histories and continuations, all regions of the raster's shape (for the sum: regions of 0 and 1), all random streams; any rounding for the growth, exact arithmetic for the sum", "why_tests_cant": "A test would compare two walks on one region; the claim is about every walk, region and continuation.", "anchors": ["dorado/particle_track.py:exposure_time", "dorado/particle_track.py:Particles.run_iteration"]}
{"id": "C94", "title": "Past states can be extracted later", "statement": "get_state(walk_data, k) for an iteration k >= 0 that a particle has reached, and get_time_state(walk_data, T) for a time T not after the particle's last recorded time, return for this particle the same position, time and tracked variables after any further calls on the object as before them.", "quantifier": "all objects built by the constructor, all histories and continuations, all k, any random stream and rounding; for get_time_state diff_coeff <= 2, finite seed times, draws in [0, 1) and any rounding that represents -1/2 and -1", "why_tests_cant": "Needs that all later records are appended and have no earlier time, for every continuation.", "anchors": ["dorado/routines.py:get_state", "dorado/routines.py:get_time_state"]}
{"id": "C95", "title": "The notes of get_state and get_time_state name the particles that have not got that far", "statement": "get_state(walk_data, k) logs a note iff some particle has no record k, and the number in it is the number of these particles (whose last record is returned instead). get_time_state(walk_data, T) logs one note for each particle all of whose recorded times are before T, in order of the particles, and no others.", "quantifier": "get_state: all aligned walk data, all k including negative ones; get_time_state: all walk data reachable by API calls with diff_coeff <= 2 and finite seed times, all T, any rounding that represents -1/2 and -1", "why_tests_cant": "A test checks messages for one walk; the claim is for all walks and targets.", "anchors": ["dorado/routines.py:get_state", "dorado/routines.py:get_time_state"]}
{"id": "C96", "title": "Unsteady routing in an unchanging flow field is steady routing", "statement": "If every flow field in the directory read by unsteady_plots is the same, the walk data it returns and the place in the random stream it leaves are those of one Particles object built from that field, seeded the same way, and run with run_iteration(target_time=T) to T = timestep, timestep + timestep, timestep + 2*timestep, ... , once per step. Rebuilding the object at every step and handing the walk data over changes nothing.", "quantifier": "all directories with readable fields, all flow fields, particle counts, integer seed lists, numbers and lengths of steps for which unsteady_plots returns, any random stream and rounding", "why_tests_cant": "A test compares the two ways for one field and one stream; the claim needs that nothing but the walk data carries over between the objects, for all fields, steps and streams.", "anchors": ["dorado/routines.py:unsteady_plots", "dorado/particle_track.py:Particles.run_iteration"]}
{"id": "C97", "title": "Post-processing does not depend on the order of the particles", "statement": "exposure_time treats each particle by itself: for walk data made of chosen particles of an ensemble (a subset, a reordering, repetitions) every particle gets the exposure time, and is reported as still inside or not, as in the full ensemble. Reordering the particles changes neither the map of nourishment_area, nor (in exact arithmetic) that of nourishment_time, nor anything plot_exposure_time and plot_exposure_time_thresholds show, for any order of the exposure times given.", "quantifier": "all aligned walk data, all selections and permutations, regions, raster sizes, smoothing filters, clip values, bins; any rounding except for nourishment_time; finite times for the curves", "why_tests_cant": "A test tries a few permutations of one ensemble; the claim is for all ensembles and permutations and needs that all accumulations commute.", "anchors": ["dorado/particle_track.py:exposure_time", "dorado/particle_track.py:nourishment_area", "dorado/particle_track.py:nourishment_time", "dorado/routines.py:plot_exposure_time"]}
{"id": "C98", "title": "Ensembles may be simulated and processed in parts", "statement": "combine_result on the walk data of several workers is the walk data of all their particles. The exposure times of the combined ensemble are those of the parts, one after the other, with the same reports of particles still inside. Without smoothing and clipping, the nourishment area of two ensembles together, multiplied by its largest visit count, is the sum of those of the parts multiplied by theirs, and the nourishment time is the mean of those of the parts weighted by the numbers of inner visits.", "quantifier": "all ensembles and numbers of parts, all regions and any rounding for combining and exposure; proper walk data on the raster and exact arithmetic for the maps", "why_tests_cant": "Needs additivity of all accumulations over arbitrary ensembles.", "anchors": ["dorado/parallel_routing.py:combine_result", "dorado/particle_track.py:exposure_time", "dorado/particle_track.py:nourishment_area", "dorado/particle_track.py:nourishment_time"]}
{"id": "C99", "title": "Exposure times and residence maps account for the same time", "statement": "exposure_time and nourishment_time split the same travel time: the exposure times of a region add up to the sum, over the cells of the region, of the nourishment_time value times the number of inner visits (sigma = 0, clip = 100), plus half of the first step of every particle that started inside and half of the last step of every particle that ended inside. If nobody starts or ends inside, the two sums are equal. The exposure times of the whole domain are the total travel times of the particles.", "quantifier": "all proper walk data on the raster with non-decreasing times, all binary regions; exact arithmetic", "why_tests_cant": "An identity between two functions over all walks and regions; tests compare single numbers.", "anchors": ["dorado/particle_track.py:exposure_time", "dorado/particle_track.py:nourishment_time"]}
{"id": "C100", "title": "The constructor announces every parameter it does not take from the user", "statement": "For any Python values of the optional parameters, theta and gamma of a Particles object are the numbers given, or there is no number, the default is used and a message says so; a missing dry_depth, missing cell types, a given region and the routing mode are announced, and nothing that does not apply. diff_coeff is the number given, with a warning from 2 on; negative numbers become 0, with a warning; without a number the default is used and announced.", "quantifier": "all Python values (None, booleans, numbers, NaN, strings, lists, arrays) of the parameters, any state of the logger, any conversion of strings to numbers", "why_tests_cant": "All combinations of kinds of values, verbosity and warning filters.", "anchors": ["dorado/particle_track.py:Particles.__init__"]}
{"id": "C101", "title": "verbose decides whether messages are shown", "statement": "Whatever was called before, a function or constructor called with verbose=True shows its messages on every handler of the package logger (at least one), and one called with verbose=False shows none; without verbose the level set last decides. As documented, leaving verbose out is equivalent to True, and the level chosen with setup_logging stays in force until the user changes it.", "quantifier": "all sequences of logging calls, any level of the root logger", "why_tests_cant": "The logger is global state; the claim is about all histories of calls.", "anchors": ["dorado/logging_config.py:setup_logging", "dorado/logging_config.py:handle_verbose_deprecation", "dorado/particle_track.py:modelParams", "dorado/routines.py:unsteady_plots"]}
{"id": "C102", "title": "Quantities gridded from the same points fit together", "statement": "Any two quantities gridded from the same points - with the function returned by unstruct2grid, or with calls of their own - come out with the same shape and the same empty cells, for any boundary, cropped or not, and any number of neighbours; a linear combination of the quantities is gridded to the same combination of the grids (so gridded stage minus gridded topography is the gridded depth).", "quantifier": "all point sets, quantities, cell sizes, k, boundaries, crop; linearity in exact arithmetic", "why_tests_cant": "Relates several gridded fields over all data and boundaries; the existing tests grid one quantity at a time.", "anchors": ["dorado/particle_track.py:unstruct2grid"]}
{"id": "C103", "title": "Diffusion spreads travel times but does not bias them", "statement": "With exact arithmetic and random or steepest-descent routing, the duration of each step is uniform within a factor 1 - diff_coeff/2 to 1 + diff_coeff/2 of its diffusion-free duration, independently of the path, of the other steps and of the other particles. Hence the expected travel time of every particle after any number of iterations is the same whatever diff_coeff is; along a given path the mean is the sum of the diffusion-free durations and the mean square deviation the sum of (duration*diff_coeff)^2/12.", "quantifier": "all parameters with an edge ring, histories with seeds off the edge, numbers of particles and iterations, joint paths, diffusion coefficients; exact arithmetic, uniform independent draws", "why_tests_cant": "A statement about the distribution over all random streams; tests run a few seeds and the diffusion draws are interleaved with the routing draws.", "anchors": ["dorado/lagrangian_walker.py:calc_travel_times", "dorado/lagrangian_walker.py:particle_stepper", "dorado/particle_track.py:Particles.run_iteration"]}
{"id": "C104", "title": "Particles are independent samples of one law per starting cell", "statement": "What the particles of an object do in the next n calls of run_iteration() (cells reached and durations of the steps) is distributed like independent samples, where the law of each particle depends on its present cell only: not on how many other particles there are, on where they are, on its place in the list or on what happened before. Hence the average over the N particles of any quantity between 0 and 1 that depends on what a particle does, for instance the share of particles that reach a region, differs by eps or more from its expectation with probability at most 2*exp(-2*N*eps^2).", "quantifier": "all parameters with an edge ring, histories with seeds off the edge, numbers of particles and iterations, measurable quantities; exact arithmetic, uniform independent draws", "why_tests_cant": "A statement about the joint distribution over all random streams and all quantities; with diffusion the draws used by one particle are at positions that depend on the moves of the others.", "anchors": ["dorado/particle_track.py:Particles.run_iteration", "dorado/lagrangian_walker.py:particle_stepper", "dorado/lagrangian_walker.py:calc_travel_times", "dorado/lagrangian_walker.py:random_pick"]}
{"id": "C105", "title": "Randomly seeded particles are independent samples of one law", "statement": "If generate_particles() is called with seed_location_method 'random' (n particles, a list of rows, a list of columns) and then run_iteration() k times, then the start cells and what the particles do are distributed like n independent samples of one and the same law: row and column of the start cell are chosen independently, each entry of the lists being equally likely, and then the particle moves by the law of C104. The draws used for seeding do not bias the walks. The average over the particles of any quantity between 0 and 1 of start cell and course differs by eps or more from its expectation with probability at most 2*exp(-2*n*eps^2).", "quantifier": "all parameters with an edge ring, seed lists off the edge, numbers of particles and iterations, measurable quantities; exact arithmetic, one stream of uniform independent draws", "why_tests_cant": "A statement about the joint distribution over all random streams; seeding and walking use consecutive parts of one stream, and all particles' seeds are drawn before any walk.", "anchors": ["dorado/particle_track.py:Particles.generate_particles", "dorado/particle_track.py:Particles.run_iteration", "dorado/lagrangian_walker.py:random_pick_seed", "dorado/lagrangian_walker.py:particle_stepper"]}
{"id": "C106", "title": "Exposure times of a run are independent samples, and diffusion leaves their mean unbiased", "statement": "Seed n particles at random, call run_iteration() k times and exposure_time() with a 0/1 region: the returned exposure times are n independent samples of one distribution, which does not depend on n. At every time T the share of particles with an exposure time of at most T (the exposure time curve) differs by eps or more from the true value with probability at most 2*exp(-2*n*eps^2). The expected exposure time does not depend on diff_coeff.", "quantifier": "all parameters with an edge ring, seed lists off the edge, regions, numbers of particles and iterations, times T, diffusion coefficients; exact arithmetic, one stream of uniform independent draws", "why_tests_cant": "A statement about the distribution over all random streams of the result of three functions; a test sees finitely many streams and cannot bound a probability.", "anchors": ["dorado/particle_track.py:Particles.generate_particles", "dorado/particle_track.py:Particles.run_iteration", "dorado/particle_track.py:exposure_time", "dorado/lagrangian_walker.py:calc_travel_times"]}
{"id": "C107", "title": "Particles are independent however the simulation is driven", "statement": "Take an object in any reachable state (any seeding and runs before) and any further list of run_iteration() calls, each plain or with a target time and an iteration limit. No call raises. What is recorded of the particles from then on (the three lists of each) is independent between particles, and each particle's record has the distribution it would have if that particle were alone in the object. The joint distribution depends only on the walk data at the start, not on random numbers drawn before. If all particles have the same record at the start, the mean over the particles of any quantity between 0 and 1 read off the records differs by eps or more from its expectation with probability at most 2*exp(-2*n*eps^2).", "quantifier": "all parameters with an edge ring, both routing modes, every rounding of float arithmetic, every reachable state, every list of calls (target times, iteration limits), all measurable quantities; one stream of uniform independent draws", "why_tests_cant": "With a target time the number of draws one particle uses depends on its own random travel times, so which draws go to which particle is itself random; independence over all streams and all call lists is not observable by finitely many runs.", "anchors": ["dorado/particle_track.py:Particles.run_iteration", "dorado/lagrangian_walker.py:particle_stepper", "dorado/lagrangian_walker.py:random_pick", "dorado/lagrangian_walker.py:calc_travel_times"]}
{"id": "C108", "title": "An ensemble may be split over several objects, and its order does not matter", "statement": "Spread the particles of one object over several objects built from the same parameters, each driven by its own independent random numbers and the same list of run_iteration() calls. What is then recorded of all the particles has the same joint distribution as in the one object. In particular the order in which particles are seeded does not change the joint distribution of their records, apart from the order.", "quantifier": "all parameters with an edge ring, both routing modes, every rounding of float arithmetic, every number of objects and every way of spreading the particles, all reachable histories, every list of calls", "why_tests_cant": "Equality of two joint distributions over all random streams cannot be observed in finitely many runs; with one stream the particles of an object use interleaved draws, with several they do not.", "anchors": ["dorado/particle_track.py:Particles.run_iteration", "dorado/particle_track.py:Particles.generate_particles", "dorado/parallel_routing.py:parallel_routing"]}
{"id": "C109", "title": "A simulation with N randomly seeded particles is N independent simulations with one", "statement": "Seed N particles at random and drive them, either through the flow fields of unsteady_plots() or with any list of run_iteration() calls. The walks of the N particles are jointly distributed like the walks of N separate simulations, each with one particle, the same inputs and its own random numbers: the walks are independent, each is distributed like the single one, and the mean over the particles of a quantity between 0 and 1 misses its expected value by eps or more with probability at most 2*exp(-2*N*eps^2).", "quantifier": "unsteady_plots: all output directories with readable files on a common grid, all step counts, time steps, cell sizes and interior seed cells, exact arithmetic; generate_particles with method 'random' followed by run_iteration: all parameters with an edge ring, both routing modes, every rounding of float arithmetic, every list of calls; every N", "why_tests_cant": "Independence and equality of joint distributions over all random streams cannot be observed in finitely many runs; one stream feeds the seeding of all particles and the steps of all particles through every flow field.", "anchors": ["dorado/routines.py:unsteady_plots", "dorado/particle_track.py:Particles.generate_particles", "dorado/particle_track.py:Particles.run_iteration"]}
{"id": "C110", "title": "A simulation may be stopped and resumed later with new random numbers", "statement": "Spread a list of run_iteration() calls over several sessions. Each later session builds an object of the same parameters, hands it the walk data of the session before as previous_walk_data with no new particles, and draws from its own independent random numbers. The records of all particles at the end have the same joint distribution as after all the calls in one session, and no call raises.", "quantifier": "all parameters with an edge ring, both routing modes, every rounding of float arithmetic, every reachable history, every number of sessions and every list of calls in each, any position in the stream at which a session begins", "why_tests_cant": "Equality of joint distributions over all random streams cannot be observed in finitely many runs; how many draws a session uses depends on the draws, so the stream is cut at a random position.", "anchors": ["dorado/particle_track.py:Particles.generate_particles (previous_walk_data)", "dorado/particle_track.py:Particles.run_iteration"]}
{"id": "C111", "title": "The system of units does not matter", "statement": "The same data given in other units of length and time lead to the same walks. Precisely: multiply dx by h, everything vertical (depth, stage, topography, dry_depth) by a, velocities by b and discharges by a*b. Any sequence of calls without target time, with the same random numbers, gives the same positions, region flags, exceptions and consumption of random numbers. If the flow is given by velocities, none of which is below the floor of 1e-8, all travel times are multiplied by h/b; the unit of height alone (h=b=1) has no effect on anything, target times included. Conditions: dry_depth is given (the default is the number 0.1 in any unit) and variables with units are not tracked. With flow given by discharges the travel times follow only up to the 1e-8 in q*h/(h**2+1e-8) (counterexample).", "quantifier": "all parameter sets the constructor accepts, all positive factors, all call sequences, random streams, both routing modes; exact arithmetic", "why_tests_cant": "Relates two runs for all inputs, factors and streams; the weights of the two objects differ by a factor that varies from cell to cell.", "anchors": ["dorado/particle_track.py:Particles.__init__", "dorado/lagrangian_walker.py:make_weight", "dorado/lagrangian_walker.py:random_pick", "dorado/lagrangian_walker.py:steep_descent", "dorado/lagrangian_walker.py:calc_travel_times"]}
{"id": "C112", "title": "A simulation on part of the domain is the full simulation stopped at the edge of the part", "statement": "Cutting all input arrays to a sub-rectangle (given cell types get an outer ring of edge cells, as estimated ones have) is accepted by the constructor, and particles seeded at the corresponding cells move as in the full domain until they come next to the outer ring of the part: (1) with the same random numbers, if no particle ever comes next to that ring, all recorded positions (shifted) and travel times are the same; (2) this is so for certain when every particle starts farther from the ring than the number of moves the calls can make (one per call without target time, max_iter+1 with): nothing outside the part influences them; (3) a particle by itself records in the part exactly what it records in the full domain up to the first position next to the ring, and nothing after; (4) for any number of particles the joint law of the records in the part is the joint law of the records in the full domain, each stopped in this way.", "quantifier": "all parameter sets the constructor accepts, all sub-rectangles, any rounding, all histories, random streams and call sequences, both routing modes, with and without diffusion", "why_tests_cant": "Relates two simulations on different grids for all inputs and random streams; that far cells have no influence is a statement about all fields outside the part.", "anchors": ["dorado/particle_track.py:Particles.__init__", "dorado/particle_track.py:Particles.run_iteration", "dorado/lagrangian_walker.py:make_weight", "dorado/lagrangian_walker.py:check_for_boundary", "dorado/lagrangian_walker.py:calc_travel_times"]}
{"id": "C113", "title": "Statistics of the simulated particles estimate those of a single particle", "statement": "After any sequence of run_iteration calls on N particles with the same records so far, exposure_time and get_time_state return one finite exposure time and one cell on the raster per particle, and what they return is statistically sound: the fraction of particles that stay in a region for at most a time t is within eps of the probability that a single simulated particle does, except with probability at most 2 exp(-2 N eps^2); the whole cumulative distribution of exposure times is uniformly within eps + 1/m of that of a single particle, except with probability at most 4 m exp(-2 N eps^2), and so is (within twice that) every point of the curve drawn by plot_exposure_time; and the fraction of particles found in any set of cells at a time T is within eps of the probability for a single particle, except with probability at most 2 exp(-2 N eps^2).", "quantifier": "all accepted objects with an edge ring and diff_coeff at most 2, all histories, regions, call sequences, numbers of particles, eps, m, t, T and sets of cells; any rounding (figure: exact arithmetic); probability over the uniform random numbers", "why_tests_cant": "A statement about the distribution over all random streams with explicit error bounds, uniformly over all times; a test sees finitely many streams and cannot verify independence.", "anchors": ["dorado/particle_track.py:exposure_time", "dorado/routines.py:get_time_state", "dorado/routines.py:plot_exposure_time", "dorado/particle_track.py:Particles.run_iteration"]}
{"id": "C114", "title": "The nourishment map of the simulated particles estimates the map of the expected visits", "statement": "After any sequence of run_iteration calls on N particles (seeded anywhere), the number of visits to a cell per particle has as expected value the mean over the particles of the expected number of visits of that particle simulated by itself; it is within delta of that value in all cells of the R x C raster at once, except with probability at most 2 R C exp(-2 N (delta / L)^2), where L bounds the number of records of a particle. Hence nourishment_area returns, except with that probability, a map every value of which is within 2 delta / top of the map made in the same way (clipped at the percentile, smoothed, divided by its maximum top) from the expected visits; without smoothing, cells shown as NaN have a value of at most that in the map of the expected visits.", "quantifier": "all accepted objects with an edge ring (map: diff_coeff at most 2, exact arithmetic), all histories, call sequences, numbers of particles, rasters, percentiles 0..100, no smoothing or any averaging smoothing; probability over the uniform random numbers", "why_tests_cant": "An error bound over the distribution of all random streams and simultaneously for all cells; tests see finitely many streams and do not know the expected map.", "anchors": ["dorado/particle_track.py:nourishment_area", "dorado/particle_track.py:Particles.run_iteration"]}
{"id": "C115", "title": "Particles leave the domain with probability one exactly if they can, at a geometric rate", "statement": "Repeating run_iteration() brings a particle next to an edge cell with probability one exactly if from every cell it may come to there is a way, by moves of positive probability, to a cell next to an edge. If this holds for all N particles then the probability that not all of them are there after n calls is at most N rho^floor(n/L), with L and rho < 1 depending only on the Particles object (not on the particles, their history or the seeding); the expected number of calls needed is at most a constant of the object times N; and with probability one there is a call after which all later calls leave the recorded walks unchanged. A particle none of whose possible cells is next to an edge never gets there.", "quantifier": "all accepted objects with an edge ring (exact arithmetic), all histories, numbers of particles, start cells; probability over the uniform random numbers", "why_tests_cant": "A statement about infinitely many iterations and all random streams; no finite simulation can tell a particle that is trapped from one that has not left yet.", "anchors": ["dorado/particle_track.py:Particles.run_iteration", "dorado/lagrangian_walker.py:get_weight", "dorado/lagrangian_walker.py:make_weight", "dorado/lagrangian_walker.py:check_for_boundary"]}
{"id": "C116", "title": "The mean travel time to the edge is finite and free of diffusion", "statement": "If every cell a particle may come to has a way out, repeating run_iteration() gives it, with probability one, exactly one travel time with which it arrives next to an edge. This time has a finite mean: its mean distance from the present travel time is bounded by a constant that depends only on the Particles object, and it is the limit of the mean travel times after n calls. The mean does not depend on diff_coeff.", "quantifier": "all accepted objects with an edge ring (exact arithmetic), all histories, numbers of particles, start cells with a way out from every cell they lead to, diffusion coefficients; probability over the uniform random numbers", "why_tests_cant": "Existence and equality of limits of expectations over infinitely many iterations and all random streams.", "anchors": ["dorado/particle_track.py:Particles.run_iteration", "dorado/lagrangian_walker.py:calc_travel_times", "dorado/lagrangian_walker.py:check_for_boundary"]}
{"id": "C117", "title": "Exposure times become final, and their mean is finite and free of diffusion", "statement": "Seed particles at random in cells from which every cell they may come to has a way out, and call run_iteration() n times: except with probability N*rho^floor(n/L), with L and rho < 1 depending only on the Particles object, exposure_time returns for every region values that no further call changes. With probability one such a number of calls exists and the final values are unique. The final exposure times of a region are independent samples of one distribution, the limit of the one after n calls; their mean is finite and depends neither on diff_coeff nor on the number of particles or the seed time.", "quantifier": "all accepted objects with an edge ring (exact arithmetic), all regions, numbers of particles, lists of start rows and columns with a way out, seed times, diffusion coefficients; probability over the uniform random numbers", "why_tests_cant": "Existence, independence and equality of limits over infinitely many iterations and all random streams.", "anchors": ["dorado/particle_track.py:exposure_time", "dorado/particle_track.py:Particles.generate_particles", "dorado/particle_track.py:Particles.run_iteration", "dorado/lagrangian_walker.py:check_for_boundary"]}
{"id": "C118", "title": "A mirrored domain has the mirrored travel times and exposure times, in law", "statement": "Transpose the grids of the parameters, or mirror them up-down or left-right with the velocity components negated or exchanged accordingly, and build a Particles object. Particles at the mapped cells then have, in law, the mapped walks with the same durations of all steps, jointly for all particles and iterations, whatever happened before; and particles seeded at random at the mapped locations have the same joint law of exposure times of the mapped region.", "quantifier": "all accepted parameters with default tables and an edge ring (exact arithmetic, real sqrt and arctan), all numbers of particles and iterations, start cells, histories, regions; probability over the uniform random numbers", "why_tests_cant": "Equality of joint distributions of walks and travel times over all domains and streams; single runs with the same seed are not mirrored since the cells are sampled in a fixed order.", "anchors": ["dorado/particle_track.py:modelParams", "dorado/particle_track.py:Particles.__init__", "dorado/particle_track.py:Particles.run_iteration", "dorado/particle_track.py:exposure_time", "dorado/lagrangian_walker.py:calc_travel_times"]}
{"id": "C119", "title": "The map of nourishment times estimates the expected mean residence times", "statement": "After any sequence of run_iteration calls, the number of stays in a cell and the time spent there, divided by the number of particles, have the expectations of particles simulated one by one. The mean residence time of every cell, and with it the map that nourishment_time returns (limited to its percentile and smoothed), is close to the ratio of these expectations, limited and smoothed alike: an error of more than 2 b d/(q-d) anywhere has probability at most 4 R C exp(-2 N (d/L)^2), where b bounds the duration of a step, q the smallest positive expected number of stays per particle, L the number of records and N the number of particles.", "quantifier": "all objects with an edge ring and all their call histories, seeds, numbers of particles, targets, clipping percentiles, averaging smoothing operators (exact arithmetic, both routing modes); probability over the uniform random numbers", "why_tests_cant": "A concentration bound over all random streams for a ratio of two random totals, in all cells at once.", "anchors": ["dorado/particle_track.py:nourishment_time", "dorado/particle_track.py:Particles.run_iteration"]}
{"id": "C120", "title": "Particles go with the flow, and leave after a known number of calls where the flow leads out", "statement": "Every recorded move from an interior cell that has some flow-derived weight goes downstream: to a wet neighbour with known water surface whose surface is lower (if gamma > 0) or which lies along the discharge (if gamma < 1). Hence a quantity that falls with every step downstream falls along every such stretch of a walk, and the walk does not come back to a cell; with gamma = 1 the water surface falls strictly, with gamma = 0 and discharge in one direction the particle only gets further in that direction. If every cell away from the edges has a neighbour downstream and some quantity falls downstream, all particles are next to an edge after as many calls of run_iteration() as the quantity has values, whatever the draws. Without such a quantity (a whirlpool) a walk can return to its start.", "quantifier": "all accepted objects with the default direction tables, all histories with non-zero draws, both routing modes, any odd rounding (double precision in particular) for the moves; exact arithmetic for the conditions on neighbours and for leaving", "why_tests_cant": "Quantifies over all flow fields, histories and random streams; uphill moves would be rare events in simulations.", "anchors": ["dorado/lagrangian_walker.py:make_weight", "dorado/lagrangian_walker.py:get_weight", "dorado/particle_track.py:Particles.run_iteration"]}
{"id": "C121", "title": "The routing equations give where particles leave and their mean travel and exposure times", "statement": "The probability that a particle leaves the domain by a given set of cells is the unique solution of the linear routing equations: 1 at those cells next to an edge, 0 at the other cells next to an edge, and elsewhere the mean of the neighbours' values with the routing probabilities. Particles leave independently, so the observed share of N particles that leave by those cells is within eps of the mean of the solution over their cells except with probability 2 exp(-2 N eps^2). Likewise the mean time of arrival next to an edge, minus the present travel time, and the mean final exposure time of a region are the unique solutions of the same equations with 0 next to an edge and, for each step, its diffusion-free duration (times half the number of its ends in the region) as gain.", "quantifier": "all accepted objects whose raster has an edge ring, the default direction tables and angles, all reachable states with finite travel times, all sets of cells and binary regions, any number of particles at cells all of whose reachable cells have a way out; exact real arithmetic and independent uniform draws", "why_tests_cant": "An exact statement about the distribution of infinitely long random walks for all flow fields; a simulation only gives estimates for one field.", "anchors": ["dorado/particle_track.py:Particles.run_iteration", "dorado/lagrangian_walker.py:make_weight", "dorado/lagrangian_walker.py:get_weight", "dorado/lagrangian_walker.py:calc_travel_times", "dorado/particle_track.py:exposure_time"]}
{"id": "C122", "title": "Input data away from where the particles go has no influence on them", "statement": "Take two sets of inputs that differ only in the values of their arrays outside some set of cells. The second is accepted if the first is (and its arrays are valid). If every cell the particles come to in a simulation with the first inputs, and its eight neighbours, lie where the inputs agree, then the simulation with the second inputs and the same draws records the same positions and times for all particles, for every sequence of calls of run_iteration(). In particular, if the particles start in a region out of which the flow does not lead, the inputs upstream of that region can be anything: same records for all non-zero draws, same joint law of all records.", "quantifier": "all pairs of accepted inputs, all sets of cells, all histories of both objects that led to equal records, all draws, any sequence of plain and target-time calls; any rounding (any odd rounding for the regions closed under the flow), exact arithmetic for the law", "why_tests_cant": "Quantifies over everything that the rest of the domain could contain and over all random streams; global coupling through normalisation or through the number of draws would show up only for particular fields.", "anchors": ["dorado/particle_track.py:Particles.__init__", "dorado/lagrangian_walker.py:make_weight", "dorado/lagrangian_walker.py:particle_stepper", "dorado/particle_track.py:Particles.run_iteration"]}
{"id": "C123", "title": "Particles are conserved in every cell: the expected numbers obey a balance equation", "statement": "With every call of run_iteration() the expected number of particles in a cell becomes the sum over its neighbours of the number there times the probability of choosing this cell, plus what was there already if the cell is next to an edge. The expected numbers in all cells add up to the number of particles. The share of N particles found in a cell differs by epsilon or more from the expected share with probability at most 2 exp(-2 N epsilon^2). If all particles can get out, the expected number of calls that find a particle in a cell away from the edges is finite and is the only solution of the balance equations (present number plus inflow) that is zero where no particle can get out; the expected number of particles that leave by a cell next to an edge is the present number plus the total inflow; and these numbers add up to the number of particles.", "quantifier": "all accepted objects whose domain is enclosed by edge cells, all histories, all present positions, all cells, any number of calls and particles, both routing modes; exact arithmetic, independent uniform draws", "why_tests_cant": "Speaks about expectations and limits over all random streams and any number of calls; a loss or a gain of particles with small probability does not show up in simulations of a few particles.", "anchors": ["dorado/particle_track.py:Particles.run_iteration", "dorado/lagrangian_walker.py:particle_stepper", "dorado/lagrangian_walker.py:random_pick", "dorado/lagrangian_walker.py:check_for_boundary"]}
{"id": "C124", "title": "theta and gamma act as documented: deeper cells for higher theta, slope against discharge for gamma", "statement": "Compare simulations that differ only in theta, with a particle standing at the same cell (reached by any history). For every depth x, the probability that the next call of run_iteration() takes the particle to a cell at least x deep does not fall if theta grows, for all real theta, with and without steepest descent (with steepest descent: default direction arrays). Without steepest descent it grows strictly as soon as it is neither 0 nor 1 for some theta. Compare simulations without steepest descent that differ only in gamma, at a cell where the water surface alone (gamma = 1) and the discharge alone (gamma = 0) both lead somewhere: for every set of cells the probability of being there after the next call either grows with gamma over the whole of [0, 1] or falls over the whole of [0, 1], so it always lies between the value for discharge alone and the value for slope alone. With the default direction arrays a higher gamma does not make a move to a cell whose water surface is not lower more probable, nor a move to a cell that does not lie along the discharge less probable. Changing theta or gamma of accepted parameters gives an accepted object that differs in this attribute only.", "quantifier": "all accepted parameters, all histories, all cells inside a domain enclosed by edge cells, all real theta, all gamma in [0,1], all depths and sets of cells; exact arithmetic, independent uniform draws", "why_tests_cant": "A statement about probabilities for a continuum of parameter values and all fields; comparing sampled frequencies for a few values cannot show monotonicity.", "anchors": ["dorado/lagrangian_walker.py:make_weight", "dorado/particle_track.py:modelParams", "dorado/particle_track.py:Particles.__init__"]}
{"id": "C125", "title": "dry_depth and cell_type count only through which cells are impassable and which are edges", "statement": "Take accepted parameters and the same parameters with another dry_depth and other (or no) cell_type. If within the grid the same cells are impassable (depth at most dry_depth, or type 2) and the same cells are edges (type -1), then the same routing weights are computed, and every sequence of API calls on the two new objects with the same draws (seeding, routing with and without target times, clearing; exceptions caught and the object used further) shows the same: positions, times, tracked variables, warnings, exceptions, consumption of random numbers. In particular: with estimated cell types, changing dry_depth changes nothing unless some cell has a depth above the smaller and up to the larger value; of given cell types only the places of -1 and 2 matter (ocean 0 and channel 1 are interchangeable); leaving out cell_type is the same as giving -1 on the outer ring and, say, 1 everywhere else. In domains enclosed by edges the same holds from any two histories with the same records.", "quantifier": "all accepted parameters, all draws, all sequences of calls, every rounding", "why_tests_cant": "The two attributes are read at several places (weights, estimation of cell types, boundary check, loop over targets); that nothing else of them is read holds for all fields and all random walks, not for sampled ones.", "anchors": ["dorado/lagrangian_walker.py:make_weight", "dorado/lagrangian_walker.py:check_for_boundary", "dorado/particle_track.py:Particles.__init__", "dorado/particle_track.py:Particles.run_iteration"]}
{"id": "C126", "title": "diff_coeff changes travel times only, and linearly", "statement": "Any number is accepted as diff_coeff; numbers below zero count as zero, and no other attribute of the object changes. With two positive values and the same random numbers, everything seen of any sequence of calls without target time is the same but for the travel times: positions, tracked variables, warnings, exceptions and the random numbers used. In exact arithmetic each travel time is linear in diff_coeff: from two simulations with different positive values the times with any third positive value follow by linear interpolation, record by record. The values must be positive: with diff_coeff = 0 no random number is drawn for travel times, so the same seed leads to other paths (proved by a concrete case).", "quantifier": "all accepted parameters, all positive values, all draws, all sequences of calls without target time; every rounding for the paths, exact arithmetic and domains enclosed by edge cells for the times", "why_tests_cant": "That the routing does not depend on diff_coeff and that the dependence of the times is exactly linear are statements about all fields, all draws and all lengths of walks.", "anchors": ["dorado/lagrangian_walker.py:calc_travel_times", "dorado/particle_track.py:Particles.__init__", "dorado/particle_track.py:Particles.run_iteration"]}
{"id": "C127", "title": "Tracking variables and regions only observes", "statement": "Take accepted parameters and the same parameters with other tracked variables, another (or no) region grid of the right shape and another verbose setting. The constructor accepts them and no other attribute changes. If a sequence of calls of generate_particles, run_iteration (with and without target time) and clear_walk_data gets through without exception, then so does the same sequence with the same draws on the other object, provided its variables can be tracked; after it the recorded positions and times of all particles, the number of particles and the position in the random stream are the same.", "quantifier": "all accepted parameters, all lists of trackable variables and regions, all draws, all sequences of calls with seeds within the outer ring, every rounding; domains enclosed by edge cells", "why_tests_cant": "The tracked variables pass through seeding, stepping, both branches of run_iteration and the merging of walk data; that none of this feeds back into positions, times or random numbers is a statement about all sequences of calls.", "anchors": ["dorado/particle_track.py:Particles.__init__", "dorado/particle_track.py:Particles.generate_particles", "dorado/particle_track.py:Particles.run_iteration", "dorado/lagrangian_walker.py:particle_stepper"]}
{"id": "C128", "title": "max_iter matters only through the particles it stops", "statement": "If in a call run_iteration(target_time, max_iter=m) no particle recorded as many new positions as the limit admits (max(1, m)), then the call with any larger limit gives the same result: returned data, object state, place in the random stream, warnings. In any case, as long as no particle with a lower index was at the limit, what is recorded of a particle (positions, times, tracked variables) is the beginning of what is recorded of it under a larger limit, and the particles with lower indices have the same records. The absence of the warning is not sufficient for this: it concerns the last particle only (counterexample).", "quantifier": "all reachable objects and states, all targets, all pairs of limits, all random numbers, every rounding", "why_tests_cant": "A test compares two limits on one run; that the limit acts through nothing but the stop must hold for all runs, pairs of limits and numbers of particles sharing the random stream.", "anchors": ["dorado/particle_track.py:Particles.run_iteration"]}
{"id": "C129", "title": "The variance of travel times is a constant plus a multiple of diff_coeff squared", "statement": "Given the flow field and the cells and times from which the particles start, the mean travel time of a particle after n iterations does not depend on diff_coeff, and its variance is v + c*diff_coeff^2 with c >= 0 and v, c independent of diff_coeff. c = 0 only if the particle uses no time almost surely. So diffusion never narrows the distribution of travel times, and widens it strictly whenever time is used.", "quantifier": "all enclosed domains, starting cells and times, numbers of particles and iterations, all diff_coeff, random and steepest-descent routing; independent uniform draws, exact arithmetic", "why_tests_cant": "A statement about the distribution over all random numbers, for all flow fields and all values of diff_coeff; samples estimate a variance only up to noise.", "anchors": ["dorado/lagrangian_walker.py:calc_travel_times", "dorado/particle_track.py:Particles.run_iteration"]}
{"id": "C130", "title": "Standard error of the mean travel time", "statement": "Mean and variance of a particle's travel time in the next n iterations depend on its starting cell only (not on the other particles, its place in the list or the history). The average travel time over the N particles has the average of those means as mean and the sum of those variances divided by N^2 as variance: for one starting cell the variance of a single particle divided by N. The average is off its mean by eps or more with probability at most that variance divided by eps^2.", "quantifier": "all enclosed domains, starting cells and times, numbers of particles and iterations, all histories of calls, all eps > 0, random and steepest-descent routing; independent uniform draws, exact arithmetic", "why_tests_cant": "Independence of the particles and the rate at which averages converge are statements about the joint distribution over all random numbers, for all flow fields and numbers of particles.", "anchors": ["dorado/lagrangian_walker.py:calc_travel_times", "dorado/lagrangian_walker.py:particle_stepper", "dorado/particle_track.py:Particles.run_iteration"]}
{"id": "C131", "title": "Seeding in several calls is seeding at once", "statement": "generate_particles with method 'exact' and one particle per listed location: one call with the locations of two lists leaves the object exactly as a call for the first list followed by a call for the second (with the previous walk data given to the second): same histories, tracked variables, number of particles, weights and place in the random stream. The single call is rejected exactly if one of the two calls is. Likewise a call for k+1 particles per location is a call for k per location followed by a call for one per location. With method 'random' and given random numbers this is false (counterexample), because a call draws all rows first and then all columns.", "quantifier": "all objects and states, all location lists and seed times, all previous walk data, any rounding", "why_tests_cant": "Equality of whole object states for all lists, all histories and all tracked variables, including which calls are rejected.", "anchors": ["dorado/particle_track.py:Particles.generate_particles", "dorado/particle_track.py:gen_input_check"]}
{"id": "C132", "title": "Coordinate transforms keep directions and do not depend on units or origin", "statement": "coord2ind never gives a smaller column to a point further east nor a larger row to a point further north, whatever the rounding of the arithmetic. In exact arithmetic, expressing coordinates, raster origin and cell size in other units, or shifting coordinates and origin together, changes no index and no exception. ind2coord then attaches the same places expressed in those units, and whether it accepts a walk does not depend on origin, raster size or cell size.", "quantifier": "all finite coordinates, origins, raster sizes, positive cell sizes (for the order), all nonzero unit factors and shifts, all walks", "why_tests_cant": "Universally quantified over real coordinates, units and shifts; ties and rounding of near-halves are not reached by sampled points.", "anchors": ["dorado/particle_track.py:coord2ind", "dorado/particle_track.py:ind2coord"]}
{"id": "C133", "title": "Locations are found in rasters made by unstruct2grid", "statement": "With the documented origin (min(x), min(y)) (docs/source/examples/example13.rst:214), the shape of the raster and its cell size, coord2ind converts a location to the cell of the raster made by unstruct2grid in which it lies, and ind2coord converts a cell back to the location its data was taken from. False in the code: the row is one too far south (coordinates one cell size too far north), the northernmost row is never returned and the lower half row of the data gives an index outside the raster. True with the origin (min(x), min(y) - cellsize).", "quantifier": "all sets of points, data, cell sizes > 0, all locations between the outermost points; exact arithmetic, no boundary", "why_tests_cant": "Relates three functions for all point sets and locations; the tests of each function check single hand-picked values with its own convention.", "anchors": ["dorado/particle_track.py:unstruct2grid", "dorado/particle_track.py:coord2ind", "dorado/particle_track.py:ind2coord"]}
{"id": "C134", "title": "In uniform flow the travel time is the distance along the flow over the speed", "statement": "Where a particle visits only cells of one speed V and one flow direction and takes no step against the flow, the time between two records of its walk is the distance between them along the flow over V, up to the factor 1 -/+ diff_coeff/2, whatever detour the particle takes; a particle that also goes against the flow is never faster than the lower of these (diff_coeff <= 2). With diff_coeff = 0 it is exact, and the exposure time of a region the particle starts in and leaves once is the distance along the flow to the boundary half way between the last cell inside and the first outside, over V (the 59.5 cells * 50 m / 10 m/s of the straight channel example). In a channel flowing down the rows under a flat water surface every move takes the particle exactly one row further, so no step is against the flow.", "quantifier": "all default-geometry objects, all histories of calls and draws, all particles, all stretches of records through uniform cells, all regions (exact real arithmetic)", "why_tests_cant": "Universally quantified over paths of any length, flow directions, speeds and draws; the example only plots one sampled histogram.", "anchors": ["dorado/lagrangian_walker.py:calculate_travel_times", "dorado/particle_track.py:exposure_time"]}
