# Formal model of dorado (Lean 4) - design

Source under study: `/repo/dorado/*.py` (passaH2O/dorado at the pinned commit).
The model is hand written from the text of the code; the code itself is never run.

## 1. Layout

| path | content |
|---|---|
| `lean/Verif/Base/*.lean` | numbers (IEEE-like values with NaN and infinities), Python/numpy primitives (indexing with negative wrap-around, slices, `searchsorted`, `cumsum`, `nansum`, errors as values) |
| `lean/Verif/Model/*.lean` | the code, function by function, each definition citing file and lines |
| `lean/Verif/Lemmas/*.lean` | helper lemmas about the model |
| `lean/Verif/Spec/*.lean` | vocabulary of the statements: valid inputs, call histories (`Reach`), closed-form flow weights (`Flow`), observations of walk data, concrete sample objects and runs for the `example`s |
| `lean/Verif/Props/*.lean` | the property theorems (`Cnn_...`), each beside `example`s; counterexamples are theorems named `..._counterexample` |
| `tools/manifest.py`, `tools/notes.json` | regenerate MANIFEST.json and Audit.lean from the theorem names |
| `lean/Verif/Audit.lean` | `#print axioms` for every property theorem |
| `properties.jsonl`, `MANIFEST.json` | the claims and the theorems that settle them |
| `seeded/LOG.jsonl` | record of attempts to break theorems with realistic bugs in the model |

## 2. Trusted base

* The Lean 4.33 kernel and the three standard axioms `propext`, `Classical.choice`, `Quot.sound`
  (Mathlib uses them). No other axiom, no `sorry`, no `native_decide`/`bv_decide`.
  `Verif/Audit.lean` prints the axioms of every property theorem at build time.
* The faithfulness of the hand translation. It is not verified mechanically; every definition cites the
  lines it mirrors and states its simplifications.
* The description of numpy/Python used: `searchsorted` is the binary search of numpy (left side);
  `np.random.uniform(0,c)` is `c*r` with `r` in [0,1), raising OverflowError for non-finite `c`;
  `np.random.random()` is `r` in [0,1); `nansum/nanmax/isnan` semantics; negative indices wrap; slices clip.
* For C85: the grammar of Python's `json` (default settings), and that `float.__repr__` has a JSON number form and
  `float(repr(x)) == x` (hypothesis `Faithful`).

### Numbers
`Fl K` = NaN, -inf, +inf or a finite element of an arbitrary ordered field `K`.  Finite results pass through a
rounding function `rnd : K -> K` that is only assumed monotone, idempotent, to fix 0 and 1 and not to
round 1e-100 to zero (structure `Arith`).  `rnd = id` gives exact arithmetic; round-to-nearest-even binary floating point with any number of
significand bits (unbounded exponent range) is constructed as an instance (`Arith.float`, `Arith.double` in `Lemmas/Float.lean`).  Theorems about the core (weights, picks, times) hold for *every* such
rounding unless the property says "exact arithmetic".  Not modelled: overflow of finite operations to inf
(inf arises only from division by zero and from infinite inputs), signed zeros (zero is unsigned, `x/0` has the
sign of `x`). Decimal literals of the source (0.1, 0.05, 0.2, 1e-8, 1e-100, ...) are rounded like results.
int32 wrap-around of indices is not modelled (indices are unbounded integers).
Transcendental functions (`sqrt`, `**`, `cos`, `arctan2`, `pi`) are fields of a structure `Fun` with minimal laws
(e.g. -1 <= cos <= 1, x>0 -> x**t >= 0, x**0 = 1, sqrt x >= 0, sqrt x > 0 for x > 0); the real instance over R is constructed, so the laws are satisfiable;
theorems on the geometry (C20) use the real instance.

### Randomness
A run consumes an arbitrary infinite sequence of draws in [0,1); theorems quantify over all sequences.
Probabilities (C10, C11, C31) are Lebesgue measures of the set of draws.

### Errors
Python exceptions are values of `Except PyErr`. A raised exception aborts the call. The partially mutated object after a caught
exception of `generate_particles` or `run_iteration` is given by `Model/Stmt.lean` and `Model/RunStmt.lean`, which repeat these methods statement by
statement with an explicit mutable state and are proved to agree with the functional models (C34, C88); histories may contain such exceptions.

### Parts of the code modelled / not modelled
Modelled: all of `lagrangian_walker.py`; `Particles` (constructor, `clear_walk_data`, `generate_particles`,
`run_iteration`), `gen_input_check` (on a small universe of Python values), `coord2ind`, `ind2coord`, `exposure_time`,
`nourishment_area`, `nourishment_time`, `unstruct2grid` (k-d tree, point-in-polygon test as parameters),
`flux_proportional_seeding`; `parallel_routing.py` (processes = copies of the object); `logging_config.py`;
from `routines.py` `get_state`, `get_time_state`, `steady_plots`, `unsteady_plots`, `time_plots`, `draw_travel_path`, `plot_exposure_time`,
`plot_exposure_time_thresholds`, `plot_state`, `snake_plots`, `show_nourishment_area`, `show_nourishment_time`, `animate_plots`, each reduced to
the data passed to the drawing functions, the figures and files written with their names, and the returned value; the json text of saved walk data, both
written and read back; from `spatial.py` `systemwide`, `localized`, `compute_thresholds`, `percentile_from_cdf`, `median_absolute_deviation_filter`, `plot_spatial`
(the KDE of seaborn/matplotlib is a parameter).
The constructor is modelled twice: on values, and on a heap of shared arrays (`Model/Build.lean`), with a theorem that relates the two.
Not modelled: pixels, log texts, movie encoding, array dtypes other than where a property is about them (region kinds, json), numpy broadcasting of
mismatched shapes (treated as an error), gaussian smoothing (an arbitrary non-negative operator).

## 3. Properties: what is modelled and how it is proved

* C01-C03 `make_weight`, `random_pick`, `steep_descent` over `Fl K`, any rounding. Case analysis of the array pipeline at one
  cell; generic lemma on binary search over a monotone prefix sum: the picked index has positive weight iff the draw is non-zero.
  C01 is violated for a draw equal to 0 (index 0 = NW is picked): counterexample theorem + `_partial`.
  C02 is violated in steepest-descent mode when the cell itself is the unique deepest: counterexample + `_partial`.
* C04 refinement of `make_weight` to the closed formula (spec written with `Finset` sums over the 9 neighbours), exact arithmetic.
* C05-C07 relational (two-run) theorems on `make_weight`. C08, C09 from the closed formula C04; C08 for whole call
  sequences by a simulation between two objects (`Lemmas/Twin`, `Props/SymmetryWalks`); C09 for whole walks
  via the path probabilities of C75 (`Props/SymmetryLaw`).
* C10, C11 Lebesgue measure over R of the pick intervals. C12 invariant: the weight array stays
  "pick-equivalent" to the fresh one under the in-place writes.
* C13 decision tables of the constructor plus sign analysis of the inertial component.
* C14-C18, C21, C22, C27-C29, C32, C33 invariants by induction over arbitrary lists of API operations.
  C17 and C16 use the edge-ring argument. C28 holds for histories on one object. C29 fails for
  previous walk data lacking `roi_flag`: counterexample + `_partial`.
* C19 direct from `calc_travel_times`; C20 trigonometric identities with `Complex.arg`.
* C23 the loop is modelled with a recursion bound of max(1, max_iter) steps and a distinguished error when the bound runs out; that
  error is proved unreachable from any state, so the `while` loop ends by itself. C66 shows that particles with somewhere to go do move.
  C24 loop-exit postcondition. C25 false in general (the estimate is not clamped at re-entry): counterexample + `_partial`.
  C26 false (list reset per particle; unbound name for 0 particles): counterexample + `_partial`.
* C30 list arithmetic; C31 pick lemma with unit weights (+ measure). C34 gen_input_check on Python values plus the statement-level model; what `int` reads as an integer is specified as a grammar (blanks, sign, groups of digits) and proved equal to the reader (C34_input_check, C34_rejected); digit strings are accepted
  as numbers by `int()`: counterexample + `_partial`.
* C35, C36 constructor model. C37-C39 over K with floor; round-half-even defined and specified; C39 is false: counterexample + `_partial`.
* C40-C43 fold invariant to a sum formula, then order/additivity. C44-C46 fold to counts; C44's maximum=1 clause fails for
  sparse visits: counterexample + `_partial`.
* C47, C48 pointwise; nearest neighbours given by any correct query. "Only border rows are removed" is false: counterexample + `_partial`.
* C49, C50 sums of floors and counts of a sorted selection, for any sorting permutation. Column-vector input is
  a counterexample + `_partial`.
* C51, C52 list algebra over the worker model: every block equals a serial run, so C14, C15, C17, C22, C31 carry over. C53 false under fork:
  theorem that the blocks are equal, and `_partial` for tasks executed one after the other by one worker.
* C54, C55 list lemmas. C56-C58 the particles selected for a chunk are a sub-list of the walk data, and their exposure times the corresponding sub-list of
  the exposure times of the whole run; C56, C57 false at chunk borders: counterexamples + `_partial` (exact multiplicities), full claim without starts on
  borders. C58 follows from the monotonicity of exposure times in the region (C40).
* C59 binary search on a monotone CDF over a monotone grid; the density estimate is a parameter; lifted to the returned maps with the bounds of C60 and to reachable walks. C60 the median lies between two values of the window; numpy's pairwise summation (Model/PairSum) is a sum in some order and bracketing, which bounds the rounding of the mean (C60_range_rounded) and instantiates C49.
  C61 induction over call sequences (logger state: level, handlers, which of them dorado added); the exception class for invalid levels fails in two
  cases: counterexample + `_partial`.
* C62 fold over the steps; the listing of the directory is sorted by name, walk data of consecutive steps are related by the reachability invariant.
  C63 the curve vectors are computed from the sorted counted exposure times. C64 needs a heap of list objects: `Model/Heap` keeps the inner lists by reference
  (`runRef`, `generateRef`, `prependRef`), programs are sequences of calls on any number of objects with any kept dictionaries (`Spec/Sharing`). Proved: who
  sees which list; the value model is faithful for programs that only hand over particles (`C64_separate`) and for runs of objects that hold no particle
  twice (`run_read`); C14, C15, C17, C18, C22, C28, C29 with shared walk data.
* C65 false (arity of get_state): counterexample + `_partial` (equivalences: exactly which walk data are accepted).
* C69 thresholds of the exposure curve: binary search and interpolation on the sorted vectors of C63.
* C70 (and C12_future) bisimulation: states differing only in which weights were masked already have the same future over all sequences of calls. What is seen of a
  sequence of calls (`transcript`, Spec/Api) is given by the statement-level models, so that calls after a caught exception are included. `Lemmas/Alike.lean`
  relates two objects statement by statement (`RelM`); C08_walks, C12_future, C70, C85_resume, C86 and C87 are instances.
* C71, C72 `Model/Plots`: slices and ranges modelled after CPython, vertices and colours handed to matplotlib; two clauses of C71 and one of C72 false:
  counterexamples + `_partial`. C73 fold invariant of the plotting loops; figures described on the walk data after i+1 calls of `run_iteration`.
  C74 list of file names; inclusive end is false: counterexample + `_partial`.
* C75 `Spec/Law`: infinite product measure of uniform draws. `Lemmas/Law` determines which draw decides which move and how many draws an iteration takes
  (one per particle, one more per moving particle with diffusion), so along a fixed path the event is a cylinder set of distinct coordinates
  (`follows_iff`), whose measure is a product of interval lengths (`lands_volume`). Also C01, C02 with probability one.

* C76 `Model/StepperTuples`: the stepper with the comparison of a tuple and a list; relation to the list call by lemmas on `mapAcc`. False for particles
  that stay: counterexample + `_partial`.
* C77 `densityCurve` (linear interpolation, `np.gradient`): `Lemmas/Density` shows the interpolation is a monotone function `lineAt`; the trapezoidal area of
  the gradient telescopes. Exact arithmetic.
* C78 `Model/Maps`: opacity and colour position per cell. `Normalize` and `np.clip` as functions on maps; percentile specified by the sorted list of values.
  `_partial`: uniform maps get the lowest colour (counterexample).
* C79, C80 `Model/SpatialPlot`: panels, extents, levels and labels of `plot_spatial`. Alignment is decided by divisibility (iff lemma `showsChunks_iff`);
  counterexamples for both, `_partial` theorems for the rest.
* C81 `Model/Georef`: the dictionary with coordinates as of the call and other entries as of the time it is read. The growth of the entries is that of C64
  (`Continues`). `_partial`: later records (characterised exactly), plots (counterexamples).
* C82, C83 `Model/Build`: the constructor with references to the caller's arrays and list, written into as the code does. `build_ok` (Lemmas/Build) relates it to
  `initParticles` on values (refinement); idempotence of the overwritings gives the loop by induction (`Settled`). `_partial`: still velocities, a region for some objects only.
* C84 `Model/RegionKind`: the loop with the outcome of `(a + b) == n` per element type. Conversion lemma for floats, recursion over records for Booleans.
  `_partial`: Boolean regions (numpy adds Booleans by logical or).
* C85 `Model/Json`: the text `json.dump` writes for the walk data and the reader of `json.load`, character by character; `FloatText` is the text of floats.
  Round trip by induction on the object; which walk data reach the file from the plotting loops; resuming via C12_future.
* C86, C87 two runs of any sequence of calls, related by a transformation of all times (`Spec/TimeMap`); the transformation commutes with every function
  of the walk (`Lemmas/TimeMap`, a relational proof), then induction on the calls. C86: `t + c`; C87: `c * t` with `dx` multiplied by `c`.
* C88 `Model/RunStmt.lean` repeats `run_iteration` statement by statement on a mutable object (weights overwritten in place, draws taken, records appended
  list by list). `runStmt_spec` (induction over the loops): same result and exceptions as the functional model, and a description of the object left by an
  exception. The history relations `Reach` and `Later` have a constructor for caught exceptions, so every theorem about histories covers them.
* C89 the route lemmas behind C08, C70 (`Lemmas/Alike.lean`) compare two objects under two random streams; without ties the pick is the same for every
  non-zero draw (C11), so both streams give related transcripts. `C89_ties_counterexample` shows the hypothesis is needed.
* C90 induction over the statements: how far the stream moves (`*_draws`), and that equal numbers in the range drawn give equal results (`Causal`).
* C91 a plain call on an object with one particle is computed (`runIteration_alone`) and matched with one round of the target loop; induction over the
  loop and over the particles.
* C92 the loop of one particle as a relation between states (`TWalk`), deterministic; its condition is monotone in the target for non-negative
  estimates, so the walk to the earlier target is a prefix of the walk to the later one. `C92_short_counterexample`, `C92_two_counterexample` show that the
  conditions are needed.
* C93 the exposure recursion on a prefix (`expoRec_congr`, `expoRec_mono`); the sum of C42 split at the last old record.
* C94 C21 gives prefixes; `RecordNo` depends on the length only through k < length, the first nearest record stays the first nearest when only later
  times are appended after the target (`firstNearest_prefix`, uses monotone rounding).
* C95 the folds with messages equal the folds without, paired with a count (`stateNote_fold`) or a filter (`timeNote_fold`).
* C96 induction over the steps: the rebuilt object is the same one, seeding with `previous_walk_data` and no new particles gives a state with equal
  routing arrays and the same walk, and `runIteration_rel` shows that the rest of the state does not matter.
* C97 loops over particles are loops over rows whose steps commute (`Comm`, `foldE_perm`): adding 1 to cells commutes with any rounding, adding times
  in exact arithmetic; curves: sorted finite lists and minima are the same for permutations.
* C98 `combine_ok` of C51; exposure by `mapE` over the concatenated particles; maps from C45, C46 with visits and residence times additive (`sum_pool`).
* C99 summation by parts per particle (`sum_parts`), then C42 and C46.
* C100 `Model/Notices.lean`: the section of the constructor that reads optional parameters, on arbitrary Python values, with the messages as output and the warnings filter as
  parameter; shown to give the attributes of `initParticles` (`C100_values`). Case analysis of the values.
* C101 the logger model of C61 with delivery of a message to handlers; induction over call sequences.
* C102 the model of C47/C48 with several data lists; cropping shown to depend on the places of NaN only.
* C103 the infinite product measure of C75; the positions of the draws used for routing and for diffusion along a path are computed, the draws at different positions
  are independent, and the travel time is an explicit function of the diffusion draws; the expectation is the sum over the finitely many joint paths.
* C104 `Spec/Course` defines the law of one particle's course without mentioning other particles; the joint law of C103 on rectangles determines
  the product measure (a pi-system of rectangles that generates), measurability follows from the explicit form of the times on each joint path; the error bound is
  Hoeffding's inequality.
* C105 `Spec/Course` adds the law of the start cell; the state after seeding depends on the draws through the chosen cells only, so each choice of cells is an
  event on the first draws, and the law of C103 holds jointly with any conditions on earlier draws (`law_after`); rectangles again determine the product measure.
* C106 exposure time as a function of start cell and course (`Spec/Course`), proved equal to what `exposure_time` returns by induction over the iterations
  (C22, C42); then C105 gives the sample, Hoeffding the curve, and the mean is computed path by path.
* C107 `historyIn`, `runCalls` (`Spec/Ensemble`); the sequence of draws is seen as cards dealt to the particles one at a time, who gets the next card being
  decided by what was dealt before (`Lemmas/Deal`: a dealt hand is as good as an own stream). `Lemmas/Machine` and `Lemmas/Feed` prove that `run_iteration`
  is such a game, for every rounding; floats carry the Borel sets of their finite values.
* C108 the objects use a product of streams (`Measure.pi` of `uniformDraws`); both sides are products of single-particle laws by C107, and these agree when
  the records so far agree (`own_law_memoryless`). Forked workers of `parallel_routing` hold copies of one stream, see C53; they are not such objects.
* C109 seeding (two draws per particle) and steps are written as one list of operations on a family of machines, one per particle (`unsteadyOps`, `seedOps`,
  `callsOps`); every machine does the same operations, so the joint law is a product (`deal_law`), and its factor is that of the list for one particle.
* C110 the streams of the sessions are an infinite product (`sessionDraws`). The number of draws used before a stop depends on the draws; `deal_renew` shows by
  induction over the operations that the rest of the stream may be replaced by a new one (strong Markov property), `sessDeal_law` iterates it.
* C111 the object built from rescaled inputs (`init_rescale`) has at each cell the weights of the original times one positive factor (`rescale_weight`, through
  the closed formula of C04); both ways of choosing ignore such a factor (`pick_scaled`); the runs are related by `Routes` as in C08. Travel times by composing
  the vertical scaling with C08 and C87.
* C112 the object built from cut inputs is the cut of the object (`init_crop`, any rounding); at cells not next to the ring of the part the weights, destinations,
  durations and the edge test agree (`CutOf.alike`), next to it particles do not move. The runs are compared action by action as machines (`deal_inStep`,
  `deal_follows`); the distance a particle can get by counting the actions that record (`deal_reach`); the joint law by C107 for both objects.
* C113 the results of `exposure_time` and `get_time_state` are read off the histories of the particles by measurable functions (`exposures_eq`, `cellsAt_eq`);
  with the independence of C107 they are independent samples of the single-particle law, so Hoeffding's inequality bounds each fraction (`fraction_hoeffding`) and,
  applied at the quantiles, the whole distribution function (`uniform_cdf`). That a particle by itself has valid walk data holds almost surely, by C107_own_law.
* C114 the visits of a particle are a bounded measurable function of its history (`records_bound` from the cost of the actions of C112, `visits_eq`), so with C107
  Hoeffding's inequality bounds the deviation in each cell and the union bound that in all cells. Percentiles are 1-Lipschitz in the sup norm
  (`Percentile.close`, by counting below a threshold) and so is the whole map up to its maximum (`map_close`). The spec `IsMapOf` describes the ideal map.
* C115 by C104 the cells of a particle are a Markov chain with probabilities `moveProb`, absorbed next to an edge. `Lemmas/Absorb.lean` treats such chains in general:
  the probability `stay n p` of not being absorbed is below one once a way out exists, hence on finitely many cells decays geometrically; it is bounded from below if
  a cell without a way out can be reached. `courseLaw_end` and `arrived_law` connect it with the runs, C16 gives that nothing changes after the arrival. The examples
  are an 11 x 11 channel (everything leaves) and a pond of one cell (nothing leaves).
* C116 one call adds at most a constant of the object to the travel time (`step_bound`, from `path_times`) and nothing after the arrival, so the growth is bounded by
  the number of calls before the arrival, whose mean is bounded (`calls_mean`, from C115); dominated convergence gives the limit and C103 the independence of `diff_coeff`.
* C117 for one stream the exposure times after n calls are partial sums (`exposure_series`, from C42 and `exposure_runs`) whose terms are bounded and vanish after the
  arrival (`exposure_change`); the law of the arrival of a seeded particle comes from C105 and the chain of C115 (`seeded_law`, `seeded_rate`). Measures of events that
  agree from some n on converge (`tendsto_measure_eventually`), which carries independence (C106) to the limit; dominated convergence gives the mean.
* C118 the raw velocities of the mirrored parameters are computed in Lemmas/VelSym, the duration of a step from them by a closed formula (`freeDur_formula`: the cosine
  of the angle between step and flow as a dot product), so that `CourseSym` holds: same probabilities and same durations. The law of courses is then the image under
  the mirroring (`courseLaw_sym`), and C104 and C106 carry it to the joint law of what is observed. `C118_clamp_breaks` evaluates one step in a straight channel.
* C119 stays and residence times are read off the histories (`tally_eq`), residence times are limited to `b` to apply Hoeffding's inequality to the independent histories
  (C107) twice per cell, and the two estimates are combined into one of the ratio (`meanStay_close`). Cells never left in expectation have no stays almost surely.
  Percentile and averaging are 1-Lipschitz as in C114. `C119_paced` bounds the durations by the documented formula (C19) over the finitely many pairs of cells.
* C120 `Downstream` speaks about the arrays only. A positive weight is traced back through rounding, normalisation and clipping (`downstream_of_pos`); oddness of the
  rounding is needed for diagonal steps, where two rounded products are added. Leaving: the number of values of the quantity below that of the current cell falls with every call.
* C121 first-step analysis. Generic (`Lemmas/Outlet`): in a finite chain absorbed with probability one, expected gains in n steps differ from any solution of the equations by
  at most a constant times the probability of not being absorbed, hence converge to it; the linear map is injective, hence surjective. The gains in n steps are then
  identified with the law of the courses of C104, and limits n → ∞ are taken with C116 and C117.
* C122 `Params.SameAt T` compares inputs. The constructor works cell by cell, so the derived arrays agree on `T` (`init_same`); a choice, a destination, a duration and the edge
  test read a cell and its neighbours only (`ObjSameAt.moves`), and equal machines fed equal draws stay equal while they are where the inputs agree (`deal_same`). Regions closed under the flow
  use the downstream moves of C120.
* C123 `meanAt` is the integral of the number of particles whose last record is the cell. It is a sum of n-step probabilities (`found_law`), for which the last step can be split off
  instead of the first (`Chain.atProb_last`); sums over calls converge because they are expected gains of the absorbed chain of C121 (`Chain.visits`). Uniqueness: a solution of the homogeneous
  equations is carried along n steps, and nothing is left in the limit.
* C124 `next_law` writes the probability of being in a set of cells after one call as a share of routing weights; `share_mono` compares shares by a cross product. The weights are depth^theta
  times a factor free of theta, and gamma X + (1 - gamma) Y with X, Y free of gamma.
* C125 the constructor changes two attributes only (`init_ground`); the mask of the weights is `Impassable` read at the neighbours, the boundary check reads the edges; the objects
  are `Twin`s as in C08; `C125_same` uses `MovesSame.records`, shared with C122.
* C126 the constructor changes one attribute (`init_spread`); the paths by `Twin` with all times related, the times by three machines (Lemmas/Spread.lean, `Blend`) fed with the same draws
  through `deal`; the duration of a step is `base * (1 + (1/2 - v) * D)` with the same base and draw.
* C127 specification: `PState.motion` and `session` (Spec/Tracking.lean). Seeding by comparing `newWalk` for the two objects; a run by the machines of C107 (`call_feed`), which are the same
  because `MovesSame` holds by definition.
* C128 specification: `AtLimit` (number of new records) and `WalkData.Begins` (Spec/Limit.lean). Induction over the loop with two limits, then over the particles.
* C129 specification: `TimeAfter` (C103) and the uniform measure on the draws. Mean and mean square over the finitely many paths (`integral_paths`), with C103_mean on each path.
* C130 specification: `TimeAfter` (C103) and the uniform measure on the draws. Courses add up to travel times (`course_time`), courses are independent with laws given by the starting cell (C104), variance of sums of independent variables and Chebyshev's inequality from Mathlib.
* C131 stated with `generateParticles` itself: equality of the object states. The start values of tracked variables split over the two lists (`startVars_append`), prepending is associative on them (`preOld_parts`).
* C132 specification: the order of plain coordinates and the affine map `inUnits`. Order from monotonicity of the rounding and of round-half-even; units by cancelling the factor.
* C133 specification: the data values themselves (`q[i]` at the location of point `i`), and `InRow`/`InBox` on plain coordinates. Combines C47 (what the raster holds) with C37/C38 (what the index transforms return).
* C134 specification: `alongFlow`, the plain projection of the displacement on the flow direction. Per step from C19 (time formula) and C20 (projection), summed by induction because projections add up; exposure from C42. Steps against the flow, which the code counts as taking no time, are excluded by hypothesis, except in `C134_atleast`; `C134_channel` derives their absence from C120.
* C68 contract of `particle_stepper` itself (added after a seeded error in the time of stationary particles went unnoticed): totality and inversion
  lemmas of the stepper at any reachable state.
* C67 composition of C15, C17, C18 with C37, C40, C44, C46: the hypotheses of the post-processing theorems hold for every reachable state.

Disagreements between code and documentation found while modelling are listed in section 4.

## 4. Disagreements (code vs. what a user would expect)

1. A uniform draw equal to 0 selects index 0 (north-west) even if its weight is 0 (C01).
2. Steepest descent at a dead end whose deepest cell is the cell itself moves north-west (C02).
3. `run_iteration(target)` may take a step although the particle is past the target (the first estimate is not clamped) (C25);
   the warning mentions only the last particle; zero particles raise UnboundLocalError (C26).
4. `roi_flag`/optional variables are misaligned when previous walk data lack them (C29).
5. `coord2ind` maps the raster origin to row L, which is out of range (C39).
6. `nourishment_area` of sparse visits is all NaN (C44).
7. `unstruct2grid` crop also removes interior all-NaN rows/columns (C48).
8. `flux_proportional_seeding` with the documented column shape raises AssertionError (C49).
9. Chunks overlap in `systemwide`/`localized` (C57). 10. Forked workers share the random state (C53).
11. `get_state` returns 3 or 4 values; the callers unpack a fixed number (C65).
12. A velocity component below 1e-8 in magnitude becomes +1e-8 whatever its sign (C13).
13. `dx = 0` makes every step look stationary-free: the updated position is computed from a zero distance and the particle is put
    at (0,0) (excluded by `StepsNonzero`).
14. `diff_coeff > 2` can give negative step times (C18_large_diffusion_counterexample).
15. At the border rows/columns (possible with user supplied cell types) all weights are zero and the particle moves north-west, wrapping
    around at row/column 0 (C14, C17 need the edge ring).
16. `gen_input_check` accepts strings that `int()` accepts as particle count, and lists of such strings as locations (C34).
17. `plot_exposure_time_thresholds` raises IndexError whenever fewer than 90 per cent of the particles have a counted exposure time (C65).
18. `steady_plots`, `time_plots`, `unsteady_plots` with no iterations raise UnboundLocalError.
19. `unsteady_plots` with npz files and `output_base` equal to the output folder lists its own directory `data` as first flow field (OS error) (C62).
20. `setup_logging('_styles')` and `setup_logging(b'INFO')` raise TypeError instead of the documented ValueError (C61).
21. Passing an object's own walk data as `previous_walk_data` makes it hold the same list objects twice; every `run_iteration` then appends two
    records to the same lists: repeated positions (C15), jumps (C14), decreasing times (C18), two records per call (C22). Two objects continued from the
    same dictionary extend each other's histories (C64).
22. `snake_plots` saves one figure less than `num_steps`; the figure titled `Iteration ii` ends at record ii-1 (C71).
23. `draw_travel_path` takes its colours from the random stream of the walks (C72).
24. `animate_plots` leaves out the picture `end_val`, documented as "last plot to use" (C74).
25. `particle_stepper` called with tuples, as documented, adds travel time to particles that stay: `ind != new_ind` compares a tuple with a list (C76).
26. `show_nourishment_area/time`: if all values are equal, `Normalize` maps everything to 0, so the most visited cells get the lowest colour (C78).
27. `plot_spatial` stretches the map over the whole raster, although the last chunk of `systemwide`/`localized` takes the remainder: chunks are drawn
    over cells of other chunks unless `resolution_factor` divides the raster size (C79).
28. `plot_spatial` truncates the labels of the colour bar to integers and returns an empty list of axes (C80).
29. `ind2coord` adds lists that do not grow with the histories they belong to. After further routing `get_state(wd)` (last record) pairs the new location with the old
    coordinate, without a warning; `get_state(wd, k)` for a record later than the call lists the particle twice, because the IndexError is raised in the
    middle of appending (routines.py:451-463) (C81).
30. `plot_state` and `plot_exposure_time_thresholds` unpack three values and reject a dictionary with coordinates with ValueError (C81).
31. The constructor overwrites the caller's arrays. Velocities below 1e-8 become 1e-8 in `params.u` (and `params.v` for DeltaRCM input), so an object
    built a second time from the same parameters has other discharges and speeds (C82). Discharge input is not affected.
32. The constructor appends `roi_flag` to the caller's `particle_variables` list. Another object built with that list and no region
    is accepted, and `generate_particles` then raises ValueError (C82).
33. If `params.stage` is the same array object as `params.depth`, the depth of dry cells becomes NaN (C82).
34. `exposure_time` compares `current_reg + previous_reg` with 2. For a Boolean region the sum is a logical or and never 2, so every step inside the region is
    counted half, without a warning (C84).
35. A single row or column of cells is accepted with given cell types, but raises IndexError when they are estimated: `np.pad` of the empty interior makes two
    rows or columns out of one (C36).
36. The outlier filter treats the three maps of `compute_thresholds` separately, so the returned E50 can exceed the returned E75 of the same chunk (C59).
37. With `verbose=False` a negative `diff_coeff` is replaced by 0 without any message; with warnings turned into exceptions the `except Exception` around the
    warning makes negative values and values of 2 or more fall back to 0.2 (C100). A `diff_coeff` given as text is replaced by the default, while texts are accepted for `theta` and `gamma`.
38. `modelParams.verbose` and the `verbose` arguments are documented to default to showing messages; nothing is shown until a level is set (C101).
39. `unsteady_plots` builds its objects with `verbose=False`, which sets the level of the package logger to ERROR for the rest of the session (C101).
40. `crop=True` of `unstruct2grid` removes rows and columns by the NaN of the gridded quantity, so fields gridded from the same points have different shapes if one of
    them has missing data (C102).
41. Constants without units: velocities from discharges are computed with `depth**2 + 1e-8`, velocities have the floor 1e-8, `dry_depth` defaults to 0.1 and the
    first time step estimate to 0.1. With these the results depend on the unit of length and time (C111, C87).
42. Velocity components smaller than 1e-8 are set to +1e-8 whatever their sign (particle_track.py:259-260). A flow along an axis is thus bent slightly to one side, and
    its mirror image to the same side: travel times are not mirrored exactly (C118).
43. The loop of `run_iteration(target_time=...)` starts with the duration of the last recorded step as estimate of the next one (line 728), but inside it uses
    `max(0.1, duration)` (line 764). An intermediate target after a step shorter than 0.1 therefore changes the walk (C92).
44. The documented origin `(min(x), min(y))` for rasters made by `unstruct2grid` (docs/source/examples/example13.rst:214) does not fit `coord2ind` and `ind2coord`: these count rows from `L`, while the lowest of the `L` grid lines is at `min(y)`. Indices come out one row too far south, coordinates one cell size too far north (C133).
