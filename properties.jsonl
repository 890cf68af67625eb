{"id": "C01", "title": "Linked list behaves like an ordered set of live slots", "statement": "After any sequence of push, del, connect_all, into_iter/into_double_iter and iteration calls starting from LinkedList::new() or LinkedList::from(v), a fresh sweep (into_iter, then indicies/enumerate until None) returns exactly the live slots in increasing slot order, and contents are those pushed; del(i) succeeds iff slot i is live and otherwise reports InvalidArgumentInput and changes nothing.", "quantifier": "all finite operation histories, all lengths, all element types", "why_tests_cant": "every history of operations; tests only sample a few short ones", "anchors": ["src/iterator.rs: LinkedList::new, from, push, del, connect_all, into_iter, indicies, enumerate, get"]}
{"id": "C02", "title": "Head, tail, next and prev stay mutually consistent", "statement": "In every reachable list the public head/next chain lists the live slots in order and the tail/prev chain lists them in exactly the reverse order; head/tail are None exactly when nothing is live.", "quantifier": "all finite operation histories", "why_tests_cant": "every history of operations; tests only sample a few short ones", "anchors": ["src/iterator.rs: Node, LinkedList::push, del, connect_all"]}
{"id": "C03", "title": "A single sweep is safe under concurrent deletion", "statement": "During one sweep, with arbitrary deletions of any slots (the one just returned, the upcoming one, earlier or later ones) between successive calls, every slot that is live until its turn is returned exactly once, in increasing order, and no slot already deleted is returned.", "quantifier": "all lists, all interleavings of sweep calls and deletions", "why_tests_cant": "the number of interleavings is exponential in the list length", "anchors": ["src/iterator.rs: del, into_iter, get, get_mut, enumerate, enumerate_mut, indicies"]}
{"id": "C04", "title": "Elements pushed during a sweep are visited while the sweep is not finished", "statement": "An element pushed while the sweep still has a slot to return is returned by that same sweep, after all older live slots. (Full claim 'every element pushed before None is returned is visited' is false: once the last slot has been handed out the cursor is None and later pushes are missed.)", "quantifier": "all lists, all interleavings of sweep calls, pushes and deletions", "why_tests_cant": "needs all interleavings", "anchors": ["src/iterator.rs: push, get, enumerate, indicies"]}
{"id": "C05", "title": "Pair sweep enumerates every unordered pair exactly once", "statement": "With no modification in between, into_double_iter followed by get_double/enumerate_double/indicies_double until None returns each pair (i,j) of live slots with i before j exactly once, in lexicographic order, and then None; it never panics.", "quantifier": "all lists with any live set of any size", "why_tests_cant": "holds for every length and every live set", "anchors": ["src/iterator.rs: into_double_iter, get_double, enumerate_double, indicies_double"]}
{"id": "C06", "title": "Pair sweep is correct when merged partners are removed on the fly", "statement": "If after a pair (i,j) has been returned the caller possibly deletes j (as merge(i,j) does) and nothing else, the sweep returns exactly the pairs whose two members are still live when their turn comes, each once, in order, with no pair repeated and none missed, and never a dead slot.", "quantifier": "all lists, all choices of which returned pairs are merged", "why_tests_cant": "exponentially many merge decisions", "anchors": ["src/iterator.rs: indicies_double, del, merge", "tests/merge_fpt.rs"]}
{"id": "C07", "title": "Pair sweep under arbitrary deletion", "statement": "With any deletions between the calls of a pair sweep, every returned pair consists of slots live at that moment, the first not behind the second. If moreover no deletion hits the first member of the pair the next call would return, nor its second member while that is the last live slot, the sweep returns exactly the remaining pairs: in increasing order, each pair of surviving slots once, no self pair, and it ends. Without this proviso the analogy with single sweeps FAILS: deleting the upcoming first member yields a self pair (j,j) or skips pairs, deleting the last slot ends the sweep early (exhibited).", "quantifier": "all lists, all interleavings of pair-sweep calls and deletions", "why_tests_cant": "needs a quantifier over interleavings; the counterexample needs a specific one", "anchors": ["src/iterator.rs: del, indicies_double"]}
{"id": "C08", "title": "Merging conserves total size", "statement": "merge(i,j) for two different live slots whose agents diffuse passively returns Ok, leaves slot i with the sum of both sizes, removes j from the live set and leaves the total size of live agents unchanged; over any sequence of such merges the total equals the initial number of particles and live count + number of merges = initial count. Self-merge, merging into a dead slot and merging a dead slot violate conservation (exhibited).", "quantifier": "all lists, sizes, and merge sequences", "why_tests_cant": "every history of operations; tests only sample a few short ones", "anchors": ["src/iterator.rs: merge", "src/agent_mod/cont_passive_merge.rs: merge, size, add_size"]}
{"id": "C09", "title": "connect_all revives exactly all slots", "statement": "After any history connect_all returns Ok and the list's links, head and tail equal those of LinkedList::from of the same contents; contents are untouched. Applying it twice changes nothing more.", "quantifier": "all finite operation histories", "why_tests_cant": "every history of operations; tests only sample a few short ones", "anchors": ["src/iterator.rs: connect_all"]}
{"id": "C10", "title": "A deleted slot never comes back by itself", "statement": "Between two calls of connect_all the set of live slots among the slots existing at the start only shrinks: no push, sweep or del call revives a dead slot or returns it from a sweep.", "quantifier": "all finite operation histories without connect_all", "why_tests_cant": "every history of operations; tests only sample a few short ones", "anchors": ["src/iterator.rs: del, push, indicies"]}
{"id": "C11", "title": "Constant-step clock visits k*dt", "statement": "For dt>0 a fresh ConstStep yields 0, dt, 2dt, ... : the k-th call of next returns k*dt if k*dt <= tmax and None otherwise, so the number of items is floor(tmax/dt)+1 (exact arithmetic). A limit in [0, 1e-10) is accepted and means none (f64::MAX); a negative one is refused and changes nothing.", "quantifier": "all dt>0, tmax>=0, all numbers of calls", "why_tests_cant": "ranges over all reals and call counts", "anchors": ["src/time_mod/mod.rs: ConstStep, Iterator for ConstStep"]}
{"id": "C12", "title": "Clocks never run backwards and respect tmax, under rounding", "statement": "For both clocks, with any monotone rounding of additions and any non-negative step, successive times returned by next are non-decreasing, never exceed tmax, start at 0, and once None is returned every later call returns None.", "quantifier": "all step sizes, tmax, rounding functions and numbers of calls", "why_tests_cant": "rounding and unbounded iteration", "anchors": ["src/time_mod/mod.rs: ConstStep::next, ExponentialStep::next"]}
{"id": "C13", "title": "Exponential clock follows the documented schedule", "statement": "For a fresh ExponentialStep with ratio inc>=1 the step used by the n-th item is min(dt_min*inc^(n/length), dt_max) (integer division); steps are non-decreasing, stay within [dt_min, dt_max], and are constant for blocks of `length` items.", "quantifier": "all dt_min<=dt_max, length>0, inc>=1, all item numbers", "why_tests_cant": "unbounded iteration over reals", "anchors": ["src/time_mod/mod.rs: ExponentialStep, Iterator for ExponentialStep"]}
{"id": "C14", "title": "Every clock built with positive step terminates", "statement": "A clock accepted by ConstStep::new or ExponentialStep::new and given a finite tmax by set_tmax returns None after finitely many calls, with an explicit bound on the number of items. Clocks built by convert_from accept dt = 0 (resp. dt_min = 0), for which next returns 0 for ever (exhibited).", "quantifier": "all accepted parameters", "why_tests_cant": "termination is not testable", "anchors": ["src/time_mod/mod.rs: ConstStep::new, convert_from, set_tmax, ExponentialStep::new, convert_from"]}
{"id": "C15", "title": "renew rewinds a clock completely", "statement": "After any number of next calls, renew makes the clock produce exactly the sequence a freshly built clock with the same parameters produces (times and steps).", "quantifier": "all clocks, all histories", "why_tests_cant": "every history of operations; tests only sample a few short ones", "anchors": ["src/time_mod/mod.rs: renew"]}
{"id": "C16", "title": "into_diff reports the true increments and does not disturb the clock", "statement": "Iterating the value returned by into_diff yields pairs (t_k, dt_k) with t_0 = current time, t_{k+1} = t_k + dt_k, the same times as the clock itself would return, and the original clock is unchanged.", "quantifier": "all clocks (both types), all numbers of steps", "why_tests_cant": "unbounded iteration", "anchors": ["src/time_mod/mod.rs: TimeDiffIterator::next, into_diff"]}
{"id": "C17", "title": "Invalid clock parameters are rejected without side effects", "statement": "ConstStep::new rejects dt<1e-15; ExponentialStep::new rejects dt_min<1e-15, dt_min>dt_max and length 0; set_tmax rejects negative tmax and set_inc rejects inc<=1, leaving the clock unchanged; set_tmax(0) means no limit. convert_from panics on negative arguments.", "quantifier": "all parameter values, including ones where comparisons are false (NaN) being accepted", "why_tests_cant": "all float values", "anchors": ["src/time_mod/mod.rs: new, set_tmax, set_inc, convert_from"]}
{"id": "C18", "title": "set_inc always leaves a growing step", "statement": "Claim: after a successful set_inc the growth ratio exceeds 1, so steps never shrink. FALSE for length 1 (ratio becomes 0.5, steps shrink without bound) and degenerate for length 2 (ratio 1); proved for length >= 3, and the ratio then is min(inc, length/2).", "quantifier": "all clocks and all inc values", "why_tests_cant": "all parameter values", "anchors": ["src/time_mod/mod.rs: ExponentialStep::set_inc, new"]}
{"id": "C19", "title": "An accepted move always ends inside the domain", "statement": "If check_bc returns Ok for a cubic, circular or cylindrical system then check_inclusion of the resulting position is Ok(true) and the dimension is the system's; this holds for every arithmetic, rounding and NaN behaviour included.", "quantifier": "all systems, boundary conditions, positions and displacements, all float semantics", "why_tests_cant": "infinitely many geometries; float semantics", "anchors": ["src/system_mod/cont_cubic.rs", "src/system_mod/cont_circ.rs", "src/system_mod/cont_cyl.rs: check_bc, check_inclusion", "src/system_mod/cont_circ.rs: check_bc_exact, check_bc_first_order"]}
{"id": "C20", "title": "Cubic box: reflection/periodic images are exact and exactly the one-bounce moves are accepted", "statement": "For pos and dp of the system's dimension, check_bc replaces pos by the image of pos+dp: every coordinate inside [-L,L] is kept, a reflected coordinate x becomes 2L*sgn(x)-x, a periodic coordinate becomes x-2L*sgn(x); it returns Ok iff every coordinate of pos+dp lies in [-3L,3L] and otherwise TooLargeTimeStep; Mixed(d) reflects coordinates <d and wraps the rest (exact arithmetic).", "quantifier": "all L>0, dimensions, boundary conditions, positions, displacements", "why_tests_cant": "continuous input space", "anchors": ["src/system_mod/cont_cubic.rs: check_bc"]}
{"id": "C21", "title": "Sphere: radial reflection is correct", "statement": "For |pos+dp|=s: s<=R leaves pos+dp untouched; R<s<=3R gives a point on the same line through the centre at distance |2R-s| from the centre, Ok; s>3R gives TooLargeTimeStep (exact arithmetic).", "quantifier": "all R>0, dimensions, positions, displacements", "why_tests_cant": "continuous input space", "anchors": ["src/system_mod/cont_circ.rs: check_bc"]}
{"id": "C22", "title": "Cylinder: circular part reflects, remaining coordinates wrap", "statement": "check_bc on a cylinder applies the radial rule to the first d coordinates and the periodic rule to the others, and returns Ok iff the radial part of pos+dp is at most 3R and every other coordinate is within 3L in absolute value, else TooLargeTimeStep.", "quantifier": "all R>0, L>0, d<=dim, positions, displacements", "why_tests_cant": "continuous input space", "anchors": ["src/system_mod/cont_cyl.rs: check_bc, check_inclusion"]}
{"id": "C23", "title": "Moves that stay inside are plain vector addition", "statement": "If pos+dp lies inside the system then check_bc returns Ok and the position is exactly the coordinatewise sum, for all three systems and any float semantics; dp is never modified by check_bc.", "quantifier": "all systems, positions, displacements, float semantics", "why_tests_cant": "all inputs", "anchors": ["src/system_mod/*: check_bc"]}
{"id": "C24", "title": "Wrong dimensions are reported, not silently used", "statement": "check_inclusion, check_bc, random_pos_to_vec and position_out_of_system_to_vec return InvalidDimension when the position's dimension differs from the system's; a displacement shorter than the position panics, a longer one is truncated. (check_bc has already added dp to pos when it reports the error: exhibited.)", "quantifier": "all systems, positions and displacements of any dimension", "why_tests_cant": "all dimensions", "anchors": ["src/system_mod/*: check_inclusion, check_bc, random_pos_to_vec, position_out_of_system_to_vec", "src/position.rs: mut_add"]}
{"id": "C25", "title": "A rejected move leaves the particle where it was", "statement": "Claim: when check_bc returns an error the position is unchanged. FALSE: pos has already been displaced (and folded); exhibited for each system. What holds: on Err(TooLargeTimeStep) the final position is the one-fold image of pos+dp and is outside the system.", "quantifier": "all systems and moves", "why_tests_cant": "all inputs", "anchors": ["src/system_mod/*: check_bc"]}
{"id": "C26", "title": "Random positions lie inside the system", "statement": "For every outcome of the random generator with uniform draws in (0,1), random_pos and random_pos_to_vec of cubic and circular systems, and random_pos of a cylinder, deliver points of the right dimension for which check_inclusion is Ok(true). random_pos_to_vec of a cylinder can deliver points with |x|>L on the rectangular axes (exhibited).", "quantifier": "all systems, all draws", "why_tests_cant": "all random outcomes", "anchors": ["src/system_mod/*: random_pos, random_pos_to_vec"]}
{"id": "C27", "title": "position_out_of_system is outside", "statement": "For every system built by new, check_inclusion(position_out_of_system()) is Ok(false), and the to_vec variant writes the same point. FALSE for a cylinder with d = dim and R >= 2L*sqrt(dim) (exhibited); proved for the cube, sphere and cylinders with d<dim.", "quantifier": "all systems", "why_tests_cant": "all geometries", "anchors": ["src/system_mod/*: position_out_of_system, position_out_of_system_to_vec"]}
{"id": "C28", "title": "check_bc_exact is the mirror image at the hit point", "statement": "For a particle starting strictly inside or on a sphere and leaving it, check_bc_exact finds the unique point s on the segment pos..pos+dp with |s|=R and moves the particle to the reflection of pos+dp in the tangent plane at s; Ok iff that point is inside.", "quantifier": "all R>0, positions inside, displacements leading outside", "why_tests_cant": "continuous input space", "anchors": ["src/system_mod/cont_circ.rs: check_bc_exact"]}
{"id": "C29", "title": "distance is a metric on vectors of equal dimension", "statement": "distance is defined exactly for equal dimensions (else InvalidDimension), is >= 0, zero iff the positions are equal, symmetric, satisfies the triangle inequality, and equals the norm of the difference; norm and inner_product satisfy Cauchy-Schwarz. The same holds for the integer taxi_distance (exact arithmetic).", "quantifier": "all dimensions, all coordinates", "why_tests_cant": "infinite input space", "anchors": ["src/position.rs: norm, distance, inner_product, taxi_distance"]}
{"id": "C30", "title": "Vector arithmetic laws and in-place variants agree", "statement": "For equal dimensions a+b and a-b are coordinatewise, (a+b)-b=a, mut_add/mut_sub/mut_scalar_mul/mut_add_bench produce the same values as the allocating versions, dimension is preserved; on unequal dimensions + and - panic, mut_add panics iff the operand is shorter, mut_add_bench never panics and leaves the tail alone.", "quantifier": "all dimensions and coordinates", "why_tests_cant": "infinite input space", "anchors": ["src/position.rs: Add, Sub, Numerics, mut_add_bench"]}
{"id": "C31", "title": "Position text round trip", "statement": "Parsing what Display printed for a non-empty position gives the same position back, for every number printer/parser pair that round-trips and whose output has no separator, parenthesis or blank; surrounding blanks and parentheses and ':' separators are accepted with the same result. Display of an empty position panics.", "quantifier": "all positions of all dimensions", "why_tests_cant": "infinite input space", "anchors": ["src/position.rs: Display, FromStr"]}
{"id": "C32", "title": "Malformed positions are rejected", "statement": "Claim: a position string with an unparsable coordinate is an error. FALSE: from_str never fails and replaces such a coordinate by 0; the parsed dimension is always one more than the number of separators, never 0.", "quantifier": "all strings", "why_tests_cant": "all strings", "anchors": ["src/position.rs: FromStr"]}
{"id": "C33", "title": "Target detection is the open ball", "statement": "check_find reports true iff the distance from the target centre is strictly less than the radius; positions of another dimension give InvalidDimension; new and convert_from accept every radius, and a target of radius 0 or less is never found.", "quantifier": "all targets and positions", "why_tests_cant": "continuous input space", "anchors": ["src/target_mod/cont_bulk.rs"]}
{"id": "C34", "title": "Random vector helpers consume exactly dim draws and map them affinely", "statement": "get_uniform_vec / get_gaussian_vec use exactly dim draws in order; the to_vec forms overwrite the vector, the nonstandard to_vec forms ADD r*(max-min)+min (resp. r*stddev+mean) to the existing content; with draws in (0,1), cleared input and min<max results lie in (min,max); equal generator state gives equal results.", "quantifier": "all dimensions and draw sequences", "why_tests_cant": "all random outcomes", "anchors": ["src/random_mod/mod.rs"]}
{"id": "C35", "title": "Force is minus the gradient of the potential", "statement": "For Exponential and Lennard-Jones agents the value returned by force at distance r is -d/dr of potential at r, for every r>0 and all parameters, including the exponential with any exponents supported; so the dynamics is conservative.", "quantifier": "all parameters and distances r>0", "why_tests_cant": "analytic statement over reals", "anchors": ["src/agent_mod/cont_passive_exp.rs: coeff, potential, force", "src/agent_mod/cont_passive_lj.rs: coeff, potential, force"]}
{"id": "C36", "title": "Mutual displacement is antisymmetric and unit", "statement": "mutual_displacement of two agents at different positions returns (r,u) with r the distance, |u|=1, r*u equal to the position difference; exchanging the agents negates u and keeps r. The to_vec variant gives the same. Coincident agents give a division by zero (exhibited).", "quantifier": "all positions of any dimension", "why_tests_cant": "continuous input space", "anchors": ["src/agent_mod/*: mutual_displacement, mutual_displacement_to_vec"]}
{"id": "C37", "title": "Uniformly initialised agents start inside the system and off the target", "statement": "When new_uniform/renew_uniform return, the agent's position passes check_inclusion of the system (except for cylinders in to_vec form) and check_find of the target is false, whatever the draws in (0,1) were (ball: any arithmetic; box: exact or rounded arithmetic); the agent's dimension equals the system's.", "quantifier": "all systems, targets and draw sequences", "why_tests_cant": "all random outcomes", "anchors": ["src/agent_mod/*: new_uniform, renew_uniform"]}
{"id": "C38", "title": "Aggregates diffuse as a power of their size", "statement": "After any sequence of size additions starting from size 1, a merging agent with passive motion has diffusion coefficient size^(-alpha) and size 1+sum; renew_uniform resets size to 1. The user's initial coefficient D0 is ignored after the first merge or renew (exhibited for D0 != 1), and for Levy motion add_size reports an error although size already changed.", "quantifier": "all histories of merges and renewals", "why_tests_cant": "every history of operations; tests only sample a few short ones", "anchors": ["src/agent_mod/cont_passive_merge.rs: add_size, merge, renew_uniform"]}
{"id": "C39", "title": "Random displacement scales as sqrt(2 D dt)", "statement": "random_move returns a vector of the agent's dimension whose coordinates are the drawn gaussians times sqrt(2*D*dt) for Brownian motion, the to_vec variant writes the same vector; unsupported motion types yield an error.", "quantifier": "all agents, dt, draws", "why_tests_cant": "all random outcomes", "anchors": ["src/agent_mod/*: random_move, random_move_to_vec"]}
{"id": "C40", "title": "Agent constructors enforce consistent dimensions and types", "statement": "Agents built by new satisfy dim = dimension of position; convert_from rejects inconsistent arguments by panicking; the type tag stored identifies the struct, and the classification predicates of AgentType partition the types consistently.", "quantifier": "all argument values", "why_tests_cant": "all values", "anchors": ["src/agent_mod/*: new, convert_from", "src/agent_mod/types.rs: AgentType"]}
{"id": "C41", "title": "Type tags survive printing and parsing", "statement": "from_str(to_string(t)) = t for every value of AgentType, MoveType, InitType, InteractType, SystemType, BoundaryCond, TargetType and (up to the 5-digit rounding of its numbers) TimeType.", "quantifier": "all values including all parameters", "why_tests_cant": "infinitely many parameter values", "anchors": ["src/agent_mod/types.rs", "src/system_mod/mod.rs", "src/target_mod/mod.rs", "src/time_mod/mod.rs"]}
{"id": "C42", "title": "Configuration blocks are read back as written", "statement": "For an argument struct whose printed values contain no ':', reading the lines written by print_configuration returns the same arguments, whatever padding width was used. For values containing ':' (cylindrical system type, Mixed boundary, such paths) reading always fails with InvalidFormat (proved), so such simulations cannot be re-read.", "quantifier": "all argument values, all widths", "why_tests_cant": "all values", "anchors": ["src/argument.rs: print_configuration, read_args_from_lines"]}
{"id": "C43", "title": "Command line slices are consumed in order, with count checking", "statement": "read_args_from_vec fails exactly when the number of words differs from NUM_ARGS; read_arguments gives each component its own consecutive slice, without overlap and covering all words, and setup_simulation accepts exactly TOTAL_NUM_ARGS words for simulation and analysis NUM_ARGS(+1) for analysis.", "quantifier": "all argument vectors and component arities", "why_tests_cant": "all lengths", "anchors": ["src/argument.rs: read_args_from_vec", "src/setup.rs: define_total_num_args, read_arguments, setup_simulation"]}
{"id": "C44", "title": "Error equality is category equality", "statement": "Two Errors compare equal iff they are of the same category, which is an equivalence relation; every ErrorCode is classified deterministically into one category.", "quantifier": "all pairs of errors", "why_tests_cant": "finite but full table", "anchors": ["src/error.rs: PartialEq, classify"]}
{"id": "C45", "title": "Histogram indices are always in range", "statement": "With bins set from bin sizes (b>0, log ratio l>1, 0<min<=max) every sample in [min,max] falls in an existing linear and logarithmic bin, so add_ensemble never panics. With bins set from bin counts a sample equal to max is out of range and panics, and log ratio <1 gives zero bins (exhibited).", "quantifier": "all bin configurations and samples", "why_tests_cant": "continuous input space, boundary samples", "anchors": ["src/analysis.rs: construct_trait_bin, bin_pos, lbin_pos, add_ensemble"]}
{"id": "C46", "title": "Histograms count exactly", "statement": "After any sequence of samples the linear (log) histogram entry i equals the number of samples in [min,max] whose bin is i, independent of sample order; total counts equal the number of in-range samples; ensemble counts all samples.", "quantifier": "all sample sequences", "why_tests_cant": "all sequences", "anchors": ["src/analysis.rs: TimeAnalysis::add_ensemble, TimeVecAnalysis::add_ensemble"]}
{"id": "C47", "title": "Reported densities are normalised", "statement": "After draw, the sum over bins of density times bin width equals the fraction of samples inside the window, for linear and logarithmic bins.", "quantifier": "all non-empty sample sequences", "why_tests_cant": "all sequences", "anchors": ["src/analysis.rs: draw"]}
{"id": "C48", "title": "Reported mean and spread are the sample mean and standard deviation", "statement": "After draw, mean is the arithmetic mean of all samples and stddev the square root of the mean square deviation, hence the radicand is never negative (exact arithmetic); independent of order. Calling draw twice corrupts them (exhibited).", "quantifier": "all non-empty sample sequences", "why_tests_cant": "all sequences", "anchors": ["src/analysis.rs: draw"]}
{"id": "C49", "title": "clear makes an analysis reusable", "statement": "After clear, feeding samples and drawing yields exactly what a newly allocated analysis with the same bins yields (TimeAnalysis, TimeVecAnalysis). FALSE for ProcessAnalysis: the total point counter is kept (exhibited).", "quantifier": "all histories", "why_tests_cant": "every history of operations; tests only sample a few short ones", "anchors": ["src/analysis.rs: clear (TimeAnalysis, TimeVecAnalysis, ProcessAnalysis)"]}
{"id": "C50", "title": "Process averages are per-bin means", "statement": "After feeding any pairs (t,x) to ProcessAnalysis and drawing, entry i holds the mean and standard deviation of the x whose time falls in bin i and the number of points there; pairs outside the window are ignored.", "quantifier": "all sequences of pairs", "why_tests_cant": "all sequences", "anchors": ["src/analysis.rs: ProcessAnalysis::add_pair, draw"]}
{"id": "C51", "title": "Result files are grouped by physical parameters", "statement": "construct_dataset-based grouping puts two configurations in the same ensemble iff their hashed non-simulation variables agree, independent of file order and index (for first-passage times, several values per line and processes; the exception, an analysis made for 0 values given an empty line, is exhibited); the hash distinguishes non-negative values that differ by at least 1e-10 below the saturation threshold and identifies all values above it (exhibited).", "quantifier": "all sets of files and parameter values", "why_tests_cant": "all values and orders", "anchors": ["src/macros.rs: derive_hash", "src/analysis.rs: construct_dataset"]}
{"id": "C52", "title": "Whole simulation keeps every particle inside and conserves mass", "statement": "In the merging simulation loop (move every live agent with check_bc, then merge close pairs), as long as no step reports an error, after every step all live agents are inside the system, total size equals the initial total, the number of live agents plus merges is the initial number, and no two live agents remain closer than the merging distance; every step terminates.", "quantifier": "all numbers of steps and particles, all random draws, all systems", "why_tests_cant": "all executions", "anchors": ["tests/merge_fpt.rs", "tests/large_n_simulation.rs", "src/iterator.rs", "src/system_mod/*", "src/agent_mod/cont_passive_merge.rs"]}
{"id": "C53", "title": "Pair forces are the sum over all pairs, cancel in total and are minus the energy gradient", "statement": "In the interaction loop of examples/mfpt_exp.rs (clear the move buffers, then for each pair subtract f*dt*u from one buffer and add it to the other) the loop succeeds, leaves the agents alone, and the buffer of every live agent is exactly the sum of the pushes of all other live agents, each pair once; so the buffers of all live agents sum to zero, and each is -dt times the gradient of the total interaction energy (exact arithmetic).", "quantifier": "all numbers of agents and positions", "why_tests_cant": "all executions", "anchors": ["examples/mfpt_exp.rs", "src/agent_mod/cont_passive_exp.rs: mutual_displacement_to_vec, force", "src/iterator.rs: enumerate_double, clear"]}
{"id": "C54", "title": "Clearing a list of buffers touches exactly the live ones", "statement": "LinkedList<Position>::clear after any history calls Position::clear exactly once on each live slot, leaves the content of dead slots untouched, terminates, and does not change the live set.", "quantifier": "all initial lists and all histories of calls", "why_tests_cant": "the set of live slots depends on the whole history; a test fixes one", "anchors": ["src/iterator.rs: LinkedList<Position<T>>::clear"]}
{"id": "C55", "title": "Exported distributions contain exactly the significant bins", "statement": "After any history, export_distribution and export_log_scaled_distribution write in order one row (bin centre, counts, values) for exactly these bins: TimeAnalysis - density at least 1e-15; TimeVecAnalysis - centre not beyond the window and some density above 1e-15; ProcessAnalysis - centre not beyond the window and mean above 1e-15; they neither panic nor loop. So data in a last partial bin whose centre lies beyond the window, non-positive process averages and too thin densities are silently not written (exhibited).", "quantifier": "all histories of operations on prepared analyses, all bin configurations with positive width and ratio above 1 (exact arithmetic)", "why_tests_cant": "every history and every bin configuration", "anchors": ["src/analysis.rs: export_distribution", "src/analysis.rs: export_log_scaled_distribution"]}
{"id": "C56", "title": "Result file names identify the recorded configuration", "statement": "Two datasets of one simulation get the same result file name only if all recorded variables agree; the name of a distribution file depends on the variables outside the simulation part only, and equal distribution file names imply equal groups; members of one group can have different names (exhibited).", "quantifier": "all datasets made from the same structures, all prefixes and values whose text is injective and free of underscores", "why_tests_cant": "all pairs of values", "anchors": ["src/analysis.rs: construct_dataset, export_file, export_file_removed_idx", "moledyn_proc/src/lib.rs"]}
{"id": "C57", "title": "Reported passage times are first passages", "statement": "When the merging simulation (merge_fpt / large_n_simulation) or the independent walkers report a time t, t is exactly what the clock gave for the last step, some live agent is inside the target at that moment, and after every earlier step the search was still running and no live agent was inside the target. Until then no walker is lost and all are inside the system.", "quantifier": "all agents, systems, targets, clocks, random draws and numbers of steps; any arithmetic", "why_tests_cant": "all executions", "anchors": ["tests/merge_fpt.rs: merge_fpt", "tests/large_n_simulation.rs: n_ptl_fpt", "tests/n_ptl_rts_iterator.rs", "src/iterator.rs"]}
{"id": "C58", "title": "The interacting search keeps its agents and reports first passages", "statement": "In the program examples/mfpt_exp.rs, while nothing has failed, no agent is lost and every agent is inside the system after every time step; a reported time is the clock's time of the step in which an agent first is in the target. In a ball with agents and target of its dimension, Brownian motion, and a step limit of at most the diameter (exact arithmetic) nothing ever fails, no agent moves further than the limit in one step, and one ensemble always ends with a number in [0, tmax] that is positive exactly if the target was found: an exported 0 means the clock ended first.", "quantifier": "all agents, random sources, clocks, targets, numbers of steps", "why_tests_cant": "unbounded runs over all random sequences", "anchors": ["examples/mfpt_exp.rs: main", "src/system_mod/cont_circ.rs: check_bc", "src/agent_mod/cont_passive_exp.rs", "src/time_mod/mod.rs: ExponentialStep, into_diff"]}
{"id": "C59", "title": "Boundaries never lengthen a step", "statement": "A particle that starts inside and is moved by check_bc (or check_bc_exact of the sphere) ends up at most as far from its start as the displacement is long: in a ball, in a reflecting cube, in the cross-section of a cylinder; each mirrored coordinate of a cube moves by at most that coordinate of the displacement, and periodic coordinates by it up to whole periods.", "quantifier": "all systems accepted by new, all dimensions, all starts inside and all displacements (exact arithmetic), accepted or not", "why_tests_cant": "all real positions and displacements", "anchors": ["src/system_mod/cont_circ.rs: check_bc, check_bc_exact", "src/system_mod/cont_cubic.rs: check_bc", "src/system_mod/cont_cyl.rs: check_bc"]}
{"id": "C60", "title": "Constructors accept exactly the documented parameters and accepted domains never abort", "statement": "ContCubicSystem/ContCircSystem/ContCylindricalSystem new and convert_from abort exactly on a non-positive size (comparison '<= 0'), dimension 0, more circular/mirrored axes than axes, or (cylinder) inconsistent type and boundary; otherwise the value stores exactly the given parameters. Afterwards check_inclusion, position_out_of_system_to_vec and the random position functions of that value never abort and check_bc aborts only when the displacement has fewer coordinates than the position. Agent and target constructors make exactly the requested number of objects, each carrying exactly the given parameters, and abort exactly on an interaction of the wrong kind or dimension. (Finding: cylinder convert_from accepts radius 0.)", "quantifier": "all sizes including NaN and infinities, dimensions, boundary conditions, positions, displacements, generators", "why_tests_cant": "ranges over all parameter values and all later calls", "anchors": ["src/system_mod/cont_cubic.rs:ContCubicSystem::new", "src/system_mod/cont_circ.rs:ContCircSystem::new", "src/system_mod/cont_cyl.rs:ContCylindricalSystem::convert_from", "src/agent_mod/cont_passive_exp.rs:ContPassiveExpAgent::convert_from", "src/agent_mod/cont_passive_lj.rs"]}
{"id": "C61", "title": "check_bc_first_order reflects at the tangent plane above the particle", "statement": "For a sphere and a move pos+dp that leaves it and is not perpendicular to pos, check_bc_first_order ends at pos+dp - 2(r h/R^2) q, where r=|pos|, h is the height of pos+dp above the plane touching the sphere at R*pos/r and q is the point where the line of the move meets that plane; Ok iff that point is inside, else TooLargeTimeStep. If the move starts inside, goes outwards and reaches the plane, the result is within 9|dp|^2/(2R) of check_bc_exact's. For grazing moves that do not reach the plane the agreement is lost: a particle at (0.9,0) in the unit disk moving by (0.001,0.6) is thrown beyond 11 radii and refused, while check_bc_exact accepts it.", "quantifier": "all R>0, dimensions, positions and displacements (exact arithmetic)", "why_tests_cant": "continuous input space; the error bound is over all moves", "anchors": ["src/system_mod/cont_circ.rs: check_bc_first_order"]}
{"id": "C62", "title": "An analysis writes only into a fresh directory and is not fed by earlier results", "statement": "analyze puts the summary and all distribution files under analysis_<date> (or the first analysis_<date>_2, _3, ... that does not exist) inside the data directory, so it never overwrites an existing file; the search for the name ends for every finite set of existing paths; sub-directories (earlier results) do not influence the numbers; each group of runs gets its own pair of files. A data directory that does not exist is not reported: it is created with an empty table.", "quantifier": "all file systems, directory listings, dates, datasets, arguments", "why_tests_cant": "all file-system states and listings", "anchors": ["src/analysis.rs: Analysis::summary_file, analyze, export", "src/macros.rs"]}
{"id": "C63", "title": "The summary table has one readable line per group", "statement": "The summary file, read back line by line and word by word, has a title and one line per group holding the recorded variables in order and then the group's results, every number being a word of its own whatever the column width. For first-passage and process analyses the title calls the last three columns ensemble, mean, stddev but they hold mean, stddev, count; for vector analyses title and columns agree for the first variable. A column name as long as the column runs into the next one.", "quantifier": "all groups, widths, number formats writing words", "why_tests_cant": "all dataset contents and widths", "anchors": ["src/analysis.rs: summary_file, export, export_mean_stddev, DataSet::export_data"]}
{"id": "C64", "title": "From the files of many runs to their statistics", "statement": "If a directory contains the result files of any runs of a simulation (header written by the program, one number per line) besides foreign entries that are passed over, analyze succeeds and its summary has exactly one line per distinct set of recorded variables, with the mean, standard deviation and count of all numbers of all runs with these variables; the exported distributions list, per bin, the number of those numbers that fall in the bin and the normalised density.", "quantifier": "all collections of runs, parameters, samples, orders of directory entries, foreign entries", "why_tests_cant": "arbitrary collections of runs and file orders", "anchors": ["src/analysis.rs: analyze, extract_data, draw, export, DataSet::from_file", "src/macros.rs: simulation!, export_simulation_info!"]}
{"id": "C65", "title": "Clocks in double precision: drift, end, standstill", "statement": "With IEEE double arithmetic (round to nearest even, 53 bits, gradual underflow) and a step dt>0: the time the constant clock returns at its k-th call differs from k*dt by at most k*dt*(ku/(1-ku)), u=2^-53; a clock whose limit is at most 2^51 steps returns None after at most 2*tmax/dt+1 calls; but a clock whose limit is 2^55 steps or more (for instance none) never returns None, and beyond 2^54*dt it returns one and the same time for ever.", "quantifier": "all double steps, limits and numbers of calls", "why_tests_cant": "needs 2^54 calls to observe; the error bound ranges over all steps and call numbers", "anchors": ["src/time_mod/mod.rs: ConstStep::new, convert_from, set_tmax, next"]}
{"id": "C66", "title": "Following one walker: first passage, buffer reuse, fastest of n, free diffusion", "statement": "The single-walker programs (tests/single_ptl_rts.rs, tests/rts_n_searcher.rs) report t exactly if after some number k of turns the walker is on the target, at no earlier turn was, and all turns went through; t is dt added k times (k*dt in exact arithmetic) and the walker stayed inside the system. Reusing one displacement buffer instead of allocating gives the same outcome, whatever numbers are left in it, and a buffer of the wrong dimension is refused. n_ptl_fpt reports the least of the n times (f64::MAX without searchers). The free walk with a buffer of the right dimension tabulates the mean square distance of walks whose coordinates advance by sqrt(2 D dt) times successive Gaussian numbers; as shipped, with the default empty buffer, it always ends with InvalidDimension.", "quantifier": "all arithmetics, random sources, systems, targets, buffers, numbers of searchers, steps and ensembles", "why_tests_cant": "a simulation tests one random stream; the statement is about every stream, system and number of turns", "anchors": ["tests/single_ptl_rts.rs", "tests/rts_n_searcher.rs", "src/agent_mod/mod.rs:Agent"]}
{"id": "C67", "title": "Ensemble means and single ensembles of the test programs", "statement": "The ensemble loops report m after n ensembles exactly if the n runs, each starting from the random state the previous one left, all give a time, and m is the sum of the times in order divided by n; otherwise they report the first failure and make no further run. In one run of n_ptl_rts_iterator.rs or merge_fpt.rs n walkers are created one after the other inside the system and off the target; the reported time is dt added k+1 times where step k+1 is the first after which some live walker is on the target; in the merging run live agents plus merges is n, and the sizes of live agents add up to n, until then.", "quantifier": "all numbers of ensembles and agents, random sources, systems, targets, runs", "why_tests_cant": "ranges over every random stream and every number of ensembles", "anchors": ["tests/n_ptl_rts_iterator.rs", "tests/merge_fpt.rs", "tests/rts_n_searcher.rs"]}
{"id": "C68", "title": "Reused agents, list and clock carry no memory between ensembles", "statement": "tests/large_n_simulation.rs keeps one list of agents and one clock for all ensembles and only renews them. After any number of finished ensembles the next one gives the same outcome and leaves the generator in the same state as the very first ensemble would from the same generator state; every agent starts alive, inside, off the target, with size 1 and the diffusion coefficient 1^(-alpha) of that size.", "quantifier": "all histories of finished ensembles, numbers of agents, random sources, systems and clocks", "why_tests_cant": "the claim compares every possible history with a fresh start", "anchors": ["tests/large_n_simulation.rs", "src/iterator.rs:LinkedList::connect_all", "src/agent_mod/cont_passive_merge.rs:renew"]}
{"id": "C69", "title": "Reported versus simulated time", "statement": "If a search reports t, it made k+1 steps for some k, step j with the step size of the clock's call j, and t is the time that came with the last call. With the counting clock of merge_fpt/n_ptl_rts_iterator t equals the sum of the step sizes made. With the library's exponential clock (large_n_simulation) t is the time at the beginning of the last step: the simulated time is t plus the last step size. With mfpt_exp, which drops the first pair, the simulated time is t plus the last step size minus the dropped first one.", "quantifier": "all step functions, reachable clocks, budgets and initial states", "why_tests_cant": "relates an infinite family of schedules and step functions; a run shows only one number", "anchors": ["src/time_mod/mod.rs:TimeDiffIterator", "examples/mfpt_exp.rs", "tests/large_n_simulation.rs", "tests/merge_fpt.rs"]}
{"id": "C70", "title": "The ensembles of examples/mfpt_exp.rs carry no memory and write one number each", "statement": "examples/mfpt_exp.rs reuses one list of agents and two buffers for all ensembles. After any number of finished ensembles the next one gives the same number (or failure) and leaves the generator as the very first ensemble would from the same generator state; so the file holds the results of independent runs, in order, one per ensemble, and stops at the first failure. In every ensemble all agents start afresh inside the system and off the target, the search ends with all of them alive and inside, and the number written is the time of the first step in which an agent was on the target, or 0 when the clock ended first. In a ball with exact arithmetic the program never fails and writes exactly one number per ensemble, between 0 and the clock's limit.", "quantifier": "all systems, targets, interaction strengths and ranges, numbers of agents and ensembles, clocks and random sequences", "why_tests_cant": "a test runs a few ensembles of one configuration; a stale force or displacement carried over would only shift the statistics", "anchors": ["examples/mfpt_exp.rs:main", "src/agent_mod/cont_passive_exp.rs:ContPassiveExpAgent", "src/iterator.rs"]}
{"id": "C71", "title": "Seeds of different sets of a simulation", "statement": "The generator of examples/mfpt_exp.rs is seeded with the user's seed plus the integer part of a hash of the parameters. Other things equal, different user seeds give different generators, and different idx_set give seeds exactly 570914867 apart (at least 2^28 apart in double precision, for up to 2^23 sets and non-negative parameters up to 2^43). But a negative hash (strong attraction) counts as 0: then all sets get the same seed and repeat the same random numbers.", "quantifier": "all parameter values, seeds and set indices", "why_tests_cant": "tests use one set; collisions need particular parameters", "anchors": ["examples/mfpt_exp.rs:main"]}
{"id": "C72", "title": "Positions are drawn uniformly", "statement": "With ideal random numbers, random_pos of a cube, ball or cylinder of any dimension ends with probability one and every point of the system has the same probability density, independently of everything drawn before and after; random_pos_to_vec does the same for the cube and the ball. For a cylinder random_pos_to_vec is uniform on a cylinder of twice the length, so the position is inside the system with probability 2^-(number of long directions) only.", "quantifier": "all systems (any size, dimension, boundary condition), all vectors of the right dimension, all measurable sets of positions", "why_tests_cant": "a distribution is a statement about all seeds; a histogram can only miss small deviations, and termination of a rejection loop holds only with probability one", "anchors": ["src/system_mod/cont_cubic.rs:random_pos", "src/system_mod/cont_circ.rs:random_pos_to_vec", "src/system_mod/cont_cyl.rs:random_pos_to_vec", "src/random_mod/mod.rs"]}
{"id": "C73", "title": "Agents start uniformly outside the target", "statement": "With ideal random numbers, new_uniform and renew_uniform of every kind of agent end with probability one (unless the target covers the system) with a position uniform on the part of the system not covered by the target; n agents made one after the other, or all agents renewed at the start of an ensemble, have independent positions with that distribution, whatever the previous ensemble left behind.", "quantifier": "all systems and bulk targets that do not cover them, all four agents in any state, any number of agents", "why_tests_cant": "independence and uniformity are statements about all seeds and all histories", "anchors": ["src/agent_mod/cont_passive_indep.rs:new_uniform", "src/agent_mod/cont_passive_merge.rs:renew_uniform", "src/agent_mod/cont_passive_exp.rs:renew_uniform", "src/agent_mod/cont_passive_lj.rs:new_uniform", "examples/mfpt_exp.rs"]}
{"id": "C74", "title": "Brownian agents diffuse with their diffusion constant", "statement": "With ideal random numbers, random_move of every agent is normally distributed with variance 2*D*dt in each direction, directions independent; random_move_to_vec adds such a step; after any number of steps with any step sizes the displacement is normal with variance 2*D*t, t the sum of the step sizes; the free-diffusion program returns a table whose expected value for step k is exactly 2*d*D*k*dt, and which converges to it with probability one as the number of walks grows.", "quantifier": "all diffusion constants, step sizes, dimensions, numbers of steps and of walks", "why_tests_cant": "an expectation and an almost-sure limit cannot be observed in finitely many runs", "anchors": ["src/agent_mod/cont_passive_indep.rs:random_move", "src/agent_mod/cont_passive_indep.rs:random_move_to_vec", "src/random_mod/mod.rs:get_gaussian_vec", "tests/single_ptl_rts.rs"]}
{"id": "C75", "title": "simulation! reads its tokens exactly and makes every command-line value visible under its name", "statement": "The simulation! macro accepts exactly a literal followed by six comma-identifier pairs and an optional trailing comma; otherwise its message names the (1-based) number of the first token that does not belong at its place, or says that the number of identifiers is wrong. For every choice of system, target, agent, clock and kind of simulation, the k-th word of the command line is visible after the macro in a variable named like its field with the value it was read as, except the type and boundary condition of the system; no declared name hides another.", "quantifier": "all token lists; all 72 combinations of structures; all command lines", "why_tests_cant": "Token lists are unbounded and the 72 combinations of structures times all command lines cannot be enumerated; a shadowed variable would only show up as a wrong number.", "anchors": ["moledyn_proc/src/lib.rs:ParsedArguments::parse", "moledyn_proc/src/lib.rs:ident_to_variables", "moledyn_proc/src/lib.rs:simulation", "src/setup.rs:setup_simulation"]}
{"id": "C76", "title": "Positions are containers; the number of an interaction is its length scale", "statement": "push and extend keep the coordinates there are and put the new ones behind them in order; reading or writing a coordinate panics exactly beyond the end, and a write changes nothing else; the three slice forms are defined exactly for ordered bounds within the position and hold the coordinates between them. A position printed with a width is not read back: all coordinates but the last become 0 silently. Turning an interaction into a number gives the length scale printed at the end of its text, 0 if it has none.", "quantifier": "all positions of any dimension and element type; all indices; all interactions", "why_tests_cant": "Positions have any dimension and indices any value; a test compares a few literals.", "anchors": ["src/position.rs:push", "src/position.rs:extend", "src/position.rs:Index", "src/position.rs:LowerExp", "src/agent_mod/types.rs:From<InteractType> for f64"]}
{"id": "C77", "title": "A random search ends with probability one, its outcome has the distribution of the reflected walk, runs are independent, and large ensembles almost surely fail", "statement": "With an ideal random generator, a single Brownian searcher in any of the three systems (D, dt > 0, room outside the target of positive volume) almost surely stops: it reports n*dt, or TooLargeTimeStep, and the pair (number of steps, found or failed) has exactly the distribution of the walk that starts uniformly outside the target, makes independent normal steps of variance 2 D dt per coordinate and is put back by the walls of the system. The tail of the number of steps is geometric, so the mean search time is finite; both kinds of outcome have positive probability. The n runs of an ensemble are independent with that distribution, so the ensemble's mean is the average of n independent copies and the first-passage time of n searchers is the least of them. Every run may fail with TooLargeTimeStep: an ensemble of n succeeds with probability q^n with q < 1, and with probability one all large enough ensembles end with the error; the failure probability per run is at most 2 d exp(-a^2/(4 D dt)) times the mean number of steps, where steps with coordinates up to a are always put back into the room.", "quantifier": "all systems, dimensions, targets, diffusion constants, time steps, ensemble sizes and almost all random sequences of an ideal generator", "why_tests_cant": "A distribution over infinitely many random sequences and an unbounded number of steps cannot be settled by any finite number of runs; a failure with probability exp(-5000) never shows up in a test.", "anchors": ["tests/rts_n_searcher.rs", "tests/single_ptl_rts.rs", "src/system_mod/cont_cubic.rs:check_bc", "src/system_mod/cont_circ.rs:check_bc", "src/system_mod/cont_cyl.rs:check_bc", "src/agent_mod/cont_passive_indep.rs:random_move_to_vec", "src/agent_mod/cont_passive_indep.rs:new_uniform"]}
{"id": "C78", "title": "What the analysis of vectors and of paths writes", "statement": "When a directory holds result files of runs that wrote several numbers per line, the analysis of vectors writes one line per set of parameters, with the number of result lines of all the runs with these parameters and the mean and the spread of every column over all these lines; and for every set of parameters a table of the distribution of every column over the time window. When the runs wrote a path (pairs of time and value) per line, the analysis of processes writes one line per set of parameters with the mean and the spread of all values of all paths and the number of paths, and a table with number, mean and spread of the values in every time bin. Files that differ only in the index of the run are pooled, and entries of the directory that are not result files change nothing.", "quantifier": "every list of parameter records, every directory with any number of result files and other entries, every number of columns, every number and length of result lines, every window and bin size, every way numbers are written and read back", "why_tests_cant": "a test checks one directory; that pooling, statistics and tables are right for every directory and every content is a statement about all of them", "anchors": ["src/analysis.rs:TimeVecAnalysis::analyze", "src/analysis.rs:ProcessAnalysis::analyze", "src/analysis.rs:Pair::from_str", "src/analysis.rs:TimeVecAnalysis::export_distribution", "src/analysis.rs:ProcessAnalysis::export_distribution", "src/setup.rs:export_simulation_info"]}
{"id": "C79", "title": "When and how placing an agent fails", "statement": "new_uniform and renew_uniform of all four kinds of agents never panic; if they return, they return success exactly if the target has the dimension of the system, and InvalidDimension otherwise. new_uniform refuses with InvalidArgumentInput, before anything is drawn, exactly when an exponential or Lennard-Jones agent is asked for with an interaction of another kind (or, for the exponential one, of another dimension). A merging agent doing a Levy walk is never renewed without FeatureNotProvided, although it has by then got a new place and size 1.", "quantifier": "every arithmetic, generator state, system (box, ball, cylinder), target, move type, interaction and agent, also agents from another system", "why_tests_cant": "the outcome depends on the values drawn and on every combination of dimensions, interactions and generator states; a test runs a few of them", "anchors": ["src/agent_mod/cont_passive_indep.rs:new_uniform", "src/agent_mod/cont_passive_merge.rs:renew_uniform", "src/agent_mod/cont_passive_exp.rs:new_uniform", "src/agent_mod/cont_passive_lj.rs:new_uniform", "src/target_mod/cont_bulk.rs:check_find"]}
{"id": "C80", "title": "The help names what the program wants", "statement": "A program given a wrong number of words prints how many it was given, the words, and how many it wants, and then names every argument in the order of the command line, exactly as many as it wants; it explains each of them on a line of its own, and names the arguments of the analysis. It prints the help exactly if the number of words is neither that of a simulation nor that of an analysis. (The help of the vector analysis names six words, which are never handed to it.)", "quantifier": "every command line without line breaks, every number of skipped words, every width, every list of structures whose texts fit on a line, and for the counts every program built from structures of the crate", "why_tests_cant": "the text depends on the command line and on the list of structures a program is built from; a test can print one", "anchors": ["src/setup.rs:export_simulation_item", "src/argument.rs:impl_fn_info", "src/argument.rs:impl_fn_brief_info"]}
{"id": "C81", "title": "Exactly which texts are read as what", "statement": "Whole numbers are read from decimal digits with an optional plus sign, below 2^64, and from nothing else. The words of a text are what is between blanks. For movements, placements, interactions, systems, boundaries, time steps and positions the texts that are read, and the value read from each of them, are exactly those listed; every refusal is InvalidArgumentInput.", "quantifier": "every text (any characters, any length) and every format of real numbers", "why_tests_cant": "a parser is a function on infinitely many texts; a test gives it a few. Accepting too much (a number followed by a second word, a colon as a digit) is invisible to tests of good texts", "anchors": ["src/agent_mod/types.rs:from_str", "src/system_mod/mod.rs:from_str", "src/time_mod/mod.rs:from_str", "src/position.rs:from_str"]}
{"id": "C82", "title": "Setting the window of an analysis", "statement": "update_from_bin_size refuses exactly negative starts, ends before the start and negative bin sizes, update_from_num_bin exactly negative starts, ends before the start or below 1e-15, and fewer than ten bins, with InvalidArgumentInput and leaving the analysis as it was. Otherwise the window runs from max(min_time, 1e-15) to max_time; with sizes given there are just enough bins to reach half a bin beyond the end, with a number given the linear and the logarithmic bins of that number fill the window exactly.", "quantifier": "every analysis and every start, end, bin size and number of bins", "why_tests_cant": "the boundaries of what is refused and the number of bins are statements about all real arguments", "anchors": ["src/analysis.rs:update_from_bin_size", "src/analysis.rs:update_from_num_bin", "src/analysis.rs:convert_num_bin_to_bin_size"]}
{"id": "C83", "title": "The layout of the files of an analysis", "statement": "A distribution file has one line per row and nothing else; a line is cut at tabs into cells, each with the text of its number at the right end of a cell of the output width (longer texts are not cut): time, count and density for a time analysis; time, count, mean and spread for a process analysis; time, then count and density per variable for a vector analysis, with a tab at the end of the line. The summary table is brief_result.dat for time and vector analyses and brief_data.dat for process analyses, in the directory for the results.", "quantifier": "every list of rows, every output width, every way of writing numbers as words, every successful analysis", "why_tests_cant": "it is about the texts of arbitrarily many rows of arbitrary numbers, also longer than the width", "anchors": ["src/analysis.rs:export", "src/analysis.rs:export_log", "src/analysis.rs:analyze"]}
{"id": "C84", "title": "The random number generator behind get_uniform", "statement": "The generator of every seed comes back to its first state after exactly 2^128 draws (the period claimed in the source). Different seeds make different generators, but all seeds run through the same sequence from different places. Every draw of get_uniform is an odd multiple of 2^-53 strictly between 0 and 1, also in double precision. Each of these 2^52 values is the n-th draw of exactly 2^76 of the 2^128 seeds, and appears exactly 2^76 times among the first 2^128 draws with any seed.", "quantifier": "every seed, every number of draws before, every value", "why_tests_cant": "2^128 seeds and draws cannot be enumerated", "anchors": ["src/random_mod/mod.rs:rng_seed", "src/random_mod/mod.rs:get_uniform"]}
{"id": "C85", "title": "Normal random numbers are bounded and always returned; how many words they use", "statement": "get_gaussian returns after finitely many draws for every seed and every history of draws. Its result is at most 4 in absolute value or lies in the tail, between r and r + 53 ln 2 / r, so it never exceeds 13.73. It leaves the generator in a state reached by one or more uniform draws; a word whose low byte is 255 always costs at least one more, so normal and uniform draws are not interchangeable in number, contrary to what test_sequence claims for all seeds.", "quantifier": "all 2^128 seeds, all histories of draws, all tables with the stated bounds; exact arithmetic", "why_tests_cant": "the rejection loops end only because of the period of the generator; a test sees a few seeds", "anchors": ["src/random_mod/mod.rs:get_gaussian", "src/random_mod/mod.rs:get_gaussian_vec", "src/random_mod/mod.rs:get_gaussian_to_vec", "src/random_mod/mod.rs:test_sequence"]}
{"id": "C86", "title": "With bounded normal numbers and small time steps no search fails", "statement": "If every normal random number is at most B in absolute value and sqrt(2 D dt) B is at most the safe step of the system (2L in a box of half side L; 2R/sqrt(d) in a ball; min(L, 2R/sqrt(k)) in a cylinder), then no search returns an error or panics: one searcher, a searcher with a buffer, the first of k, the walkers of a list, merging walkers, and the mean over any number of ensembles of each. The crate's generator has B = 13.73, so the searches of the crate's own tests never fail, although with ideal normal numbers every long enough series of ensembles would (C77). With the exponential clock the only possible failure is that the clock's time is up.", "quantifier": "all seeds and generator states, numbers of walkers, ensembles and steps, merges, boundary types, dimensions, targets; exact arithmetic", "why_tests_cant": "a run that fails once in 10^100 steps is never seen in a test; the absence of failures needs the bound of the generator's tail and an invariant over all steps", "anchors": ["src/system_mod/cont_cubic.rs:check_bc", "src/system_mod/cont_circ.rs:check_bc", "src/system_mod/cont_cyl.rs:check_bc", "src/random_mod/mod.rs:get_gaussian", "tests/rts_n_searcher.rs:ensemble_n_ptl_fpt", "tests/large_n_simulation.rs:n_ptl_fpt", "tests/merge_fpt.rs:n_ptl_fpt"]}
{"id": "C87", "title": "Boxes in double precision", "statement": "With f64 arithmetic (rounding to nearest even, gradual underflow, no overflow) and a half side L that is a double, check_bc of the cube rounds only the sum of position and displacement: for every move up to 4L the mirror or periodic image in the walls is the exact image of the rounded sum. A move is accepted exactly when the rounded sum is within [-3L, 3L] on every axis. Along a trajectory of accepted moves with the same displacements, positions in f64 and in exact arithmetic differ by at most k L / 2^51 after k moves (up to full turns on periodic axes); moves of at most L per axis are never refused. At the very edge, 3L, f64 and exact arithmetic may disagree on acceptance, in both directions.", "quantifier": "every box (any double half side, dimension and boundary condition), start and every sequence of displacements of any length", "why_tests_cant": "Tests try a few positions with a tolerance; they cannot show that no position or sequence of moves accumulates a larger rounding error.", "anchors": ["src/system_mod/cont_cubic.rs:check_bc", "src/system_mod/cont_cubic.rs:check_inclusion", "src/position.rs:mut_add"]}
{"id": "C88", "title": "Histograms in double precision", "statement": "With f64 arithmetic (rounding to nearest even, gradual underflow, no overflow) and bins set from a positive bin size and a ratio above 1 (fewer than 2^51 bins of each kind): no sample makes the analysis panic; ensemble counts all samples, and the entries of the linear and of the logarithmic histogram each add up to the number of samples in the window, in whatever order they come. A later sample is never counted in an earlier bin. A sample counted in linear bin i lies in the exact bin up to a fraction 2^-52 of its distance from the start of the window. The reported mean of n samples, none negative, is the true mean up to a factor within (1 +- 2^-53)^(n+1) and an absolute 2^-1075. The reported spread has no such guarantee: equal samples may give the root of a negative number.", "quantifier": "every window, bin size, ratio and every list of samples", "why_tests_cant": "Tests feed a few samples; a sample next to a bin edge or to the end of the window, where rounding decides, is not among them.", "anchors": ["src/analysis.rs:update_from_bin_size", "src/analysis.rs:bin_pos", "src/analysis.rs:lbin_pos", "src/analysis.rs:add_ensemble", "src/analysis.rs:draw"]}
{"id": "C89", "title": "Bad header lines are reported as what they are", "statement": "Reading the header of a result file succeeds exactly if, from the second line on, every line has exactly one colon and, behind it, the text of a value of the field expected there; the result then consists of these values and the reader stands behind the header. Otherwise the outcome is that of the first line that does not fit: InvalidFile if the file ends there, the error of the operating system if the line cannot be read, InvalidFormat if it has no or several colons, a panic if the value is not understood; the lines behind it are not looked at.", "quantifier": "every list of structures, every file (any lines, any read errors)", "why_tests_cant": "A test shows the outcome for a few malformed files; that no other file is accepted, and that the first bad line decides, concerns all files.", "anchors": ["src/argument.rs:read_args_from_lines", "src/analysis.rs:from_file"]}
{"id": "C90", "title": "Balls and targets in double precision", "statement": "With f64 arithmetic (rounding to nearest even, gradual underflow, no overflow) lengths and distances in d dimensions carry a relative error of at most (d+3)/2^53 and (d+5)/2^53, so check_inclusion of a ball and check_find of a target answer as exact arithmetic does outside a shell of that relative width. After an accepted move check_bc of a ball leaves the particle within 10(d+5)/2^53 radii of the exact radial image of the exact pos + dp; along a trajectory of k accepted moves the f64 and exact positions are at most k times that apart. Away from shells of that width around R and 3R, f64 accepts exactly the moves exact arithmetic accepts (|pos+dp| <= 3R). Just outside the sphere it may refuse, with TooLargeTimeStep, a move that exact arithmetic reflects.", "quantifier": "every ball with a double radius of at least 2^-440, every dimension up to 2^26, every start, target and sequence of displacements", "why_tests_cant": "Tests try a few positions with a tolerance; they cannot show that no position or sequence of moves accumulates a larger error, nor find the rare positions where the answer is wrong.", "anchors": ["src/system_mod/cont_circ.rs:check_bc", "src/system_mod/cont_circ.rs:check_inclusion", "src/target_mod/cont_bulk.rs:check_find", "src/position.rs:norm", "src/position.rs:distance"]}
{"id": "C91", "title": "Normal random numbers in double precision", "statement": "With f64 tables and arithmetic get_gaussian returns for every seed and history (within 2^129+3 rounds of its loops). Its numbers are doubles, at most 4 in size in the layers, at least the beginning r of the tail otherwise, and never larger than 13.75. In one round the low 8 bits of a word choose the layer and the high 52 bits, read as a number in [-1,1) and multiplied with the width of the layer with one rounding, the point, which is returned at once if it is under the next layer.", "quantifier": "every seed, every number of draws before, every admissible table of doubles", "why_tests_cant": "The loops of the rejection method have no bound; the bound on the values concerns all 2^128 states.", "anchors": ["src/random_mod/mod.rs:get_gaussian", "src/random_mod/mod.rs:get_gaussian_vec"]}
{"id": "C92", "title": "Searches in a box in double precision never fail", "statement": "With f64 arithmetic, in a box (any boundary condition and dimension, half side L a double) searchers whose steps sqrt(2 D dt) * B are at most 1.9 L, where B bounds the normal numbers (13.75 for the crate's generator), never fail: one searcher, the first of n, the walkers of a list, merging walkers, and means over any number of ensembles; with the exponential clock the only failure is that the time is up. In a disc this is false: in radius 13 there is a generator with normal numbers of at most 7 whose second step is refused with TooLargeTimeStep, although exact arithmetic never refuses a step of that size.", "quantifier": "every box, target, seed, number of searchers, ensembles and steps", "why_tests_cant": "A run has unboundedly many steps, each with its own rounding; a failure needs a rare position next to a wall.", "anchors": ["src/system_mod/cont_cubic.rs:check_bc", "src/system_mod/cont_circ.rs:check_bc", "src/agent_mod/cont_passive_indep.rs:random_move", "src/agent_mod/cont_passive_merge.rs:merge", "tests/rts_n_searcher.rs", "tests/merge_fpt.rs", "tests/large_n_simulation.rs"]}
{"id": "C93", "title": "The exponential clock in double precision: schedule, drift, end, standstill", "statement": "With IEEE double arithmetic an exponential clock that has been built and configured (doubles dt_min <= dt_max, dt_min a normal number, ratio at least 1) returns steps in [dt_min, dt_max] that never shrink, and times that never go back; the step differs from the documented one by at most one relative error of 2^-53 per block before it, the time by at most one per call and block. With ratio at least 1.1 (convert_from uses 1.2) and a limit of at most 2^51 dt_max it returns None after finitely many calls, with an explicit bound; with no limit, or one of 2^55 dt_max or more, it never does, and past 2^54 dt_max it returns one and the same time for ever.", "quantifier": "all double parameters, block lengths, limits and numbers of calls", "why_tests_cant": "rounding acts at every call; drift and standstill show only after more calls than a test can make", "anchors": ["src/time_mod/mod.rs: ExponentialStep::new, set_inc, next, renew, set_tmax, into_diff, convert_from"]}
{"id": "C94", "title": "The cylinder is a ball times a periodic box; cylinders in double precision", "statement": "In any arithmetic without NaN, check_bc of a cylinder puts the first d coordinates where the ball of that radius puts them and the other coordinates where the periodic box of that half length puts them; it accepts a move exactly if both accept it and answers TooLargeTimeStep otherwise. With f64 arithmetic (rounding to nearest even, gradual underflow, no overflow) an accepted move leaves the first d coordinates within 10(d+5)/2^53 radii of the exact radial image of the exact pos + dp and the axial ones exactly at the periodic image of the rounded sum; along a trajectory of k accepted moves the f64 and exact positions are at most k times 10(d+5)/2^53 R apart in section and k L / 2^51 (up to full turns) along every axis.", "quantifier": "every cylinder with double radius of at least 2^-440 and double half length, every section dimension up to 2^26, every start and sequence of displacements of any length", "why_tests_cant": "infinitely many positions, dimensions and trajectories; rounding drift shows only over long runs", "anchors": ["src/system_mod/cont_cyl.rs: ContCylindricalSystem::new, check_bc, check_inclusion", "src/system_mod/cont_circ.rs: ContCircSystem::check_bc", "src/system_mod/cont_cubic.rs: ContCubicSystem::check_bc"]}
{"id": "C95", "title": "clear of an argument structure forgets everything", "statement": "For every argument structure of the crate, clear() leaves exactly the values new() makes of the defaults, whatever was in it: type tags at their fixed values, all numbers 0, Brownian moves with coefficient 1, uniform placement, empty texts and positions. The cleared block is printed and read back unchanged (except the target, whose print_configuration panics). convert_from of cleared arguments panics for systems and the exponential clock, makes no agents and a target that cannot be found; but a cleared constant clock is accepted and returns time 0 for ever. The tag of a cleared cylinder becomes that of a sphere.", "quantifier": "all previous contents, all 13 structures, all printing widths", "why_tests_cant": "all previous contents of all structures; the frozen clock needs unboundedly many calls", "anchors": ["src/macros.rs: impl_structure!, construct_structure!", "src/agent_mod/types.rs: Default impls", "src/system_mod/mod.rs: Default impls", "src/target_mod/mod.rs: Default impl", "src/argument.rs: impl_argument_trait!"]}
{"id": "C96", "title": "Comparing positions and data sets", "statement": "Positions are compared like words in a dictionary: without NaN any two are comparable, a < b exactly if at the first coordinate where they differ that of a is smaller or a is the beginning of b, and they compare as equal exactly if they are equal. Data sets are compared by all their variables in order, those of the simulation part last. Claim refuted: a < b excludes a == b (the contract of PartialOrd) - two sets of one configuration that differ only in the simulation part are == and yet ordered. What compares as equal is ==.", "quantifier": "all positions of all dimensions, all data sets of one structure, every hash function", "why_tests_cant": "infinitely many pairs; the contract quantifies over all of them", "anchors": ["src/position.rs: derive(PartialOrd) of Position", "src/macros.rs: define_structure_wo_eq!", "src/analysis.rs: construct_dataset!, PartialEq of data sets"]}
{"id": "C97", "title": "The three ways of reflecting at a sphere agree to second order", "statement": "For a particle inside or on a sphere of radius R and any move dp, in any dimension, check_bc (reflection along the radius) and check_bc_exact (reflection where the path crosses the sphere) put it within (2/sqrt 3) |dp|^2/R of each other; the constant is best possible (in every disk and for every length d a move of length d from the circle disagrees by at least (2/sqrt 3) d^2/(R+d)). For outward moves that reach the tangent plane check_bc and check_bc_first_order differ by at most 6 |dp|^2/R. They do not accept the same moves: check_bc_exact accepts exactly if the rest w of the move after the hit point h satisfies |w|^2 <= 2 w.h, so it answers TooLargeTimeStep for arbitrarily short tangential moves which check_bc accepts. The comparison of the three rules in tests/boundary_cond.rs (10 starts, up to 30 lengths, any angle) never leaves the unit disk, so it checks nothing. On the other hand check_bc_exact accepts every move from inside with |dp|^2 <= 8 (R^2 - |pos|^2), and no better bound of that kind holds (from every start at least R/3 from the centre of a disk there is a direction in which every longer move is refused). The step-by-step test of check_bc_exact (single_test_cont_circ_exact) never fails an assertion and gives check_bc_exact's own verdict; all moves of test_check_bc_realization are accepted by both rules.", "quantifier": "all R>0, dimensions, positions inside, displacements (exact arithmetic); all moves of the test grid at any angle", "why_tests_cant": "a quadratic error bound, its sharpness and the refusal of arbitrarily short moves quantify over a continuum; the crate's own comparison test never meets the boundary", "anchors": ["src/system_mod/cont_circ.rs: check_bc, check_bc_exact, check_bc_first_order", "tests/boundary_cond.rs: test_error_check_bc, test_cont_circ_reflection", "tests/boundary_cond.rs: single_test_cont_circ_exact, test_check_bc_realization"]}
{"id": "C98", "title": "A simulation that is stopped in the middle loses no finished ensemble", "statement": "Whatever the size of the write buffer and wherever a simulation program is stopped (killed, power failure, failing write), its result file is a beginning of what it would have written in full, with the header and the lines of all ensembles whose flush had returned, and nothing of what an older file of this name held. The analysis takes a file cut at the end of a line (or just without its last line feed) for the complete file of a run with fewer ensembles. A file cut within a line counts with one more line: if the rest is a number, silently with this wrong number (n cut by one digit is read as n/10; every cut of a line can happen); if it is no number, the analysis of the whole directory ends without a result. A file cut in its header never brings data and never a wrong configuration; it ends the analysis exactly if the cut falls behind the colon of a value so that the rest is no text of such a value, and from the end of the last value on it counts as a run without data. The time analysis reports a group without data with NaN for mean, spread and densities.", "quantifier": "all configurations, headers, results, buffer sizes, older file contents and moments at which the program stops", "why_tests_cant": "crash points: every position in every file for every configuration and buffer size; no test kills the program", "anchors": ["src/setup.rs: export_simulation_info!", "examples/mfpt_exp.rs: main", "src/analysis.rs: from_file, TimeAnalysis::analyze, TimeAnalysis::draw"]}
{"id": "C99", "title": "What the mean of an ensemble estimates and how well; how fast the fastest of n is", "statement": "With an ideal random generator and a single Brownian searcher in any of the systems: the mean that an ensemble of n searches reports estimates the mean time tau of those searches that find the target (not of all searches), and a reported mean differs from tau by eps or more with probability at most V/(n eps^2), V being the variance of those times, which is finite; the probability that a run of n searchers succeeds and reports more than k dt is the n-th power of the probability that one search finds the target after more than k steps.", "quantifier": "all systems, dimensions, targets, diffusion constants, time steps, ensemble sizes n, accuracies eps, times k dt and almost all random sequences of an ideal generator", "why_tests_cant": "A test compares one mean with one number within a tolerance; which number the mean estimates and how often it is off are statements about all random sequences.", "anchors": ["tests/single_ptl_rts.rs: ensemble loops", "tests/rts_n_searcher.rs: n_ptl_fpt, ensemble_n_ptl_fpt", "src/agent_mod/cont_passive_indep.rs: random_move", "src/random_mod/mod.rs: get_gaussian, get_uniform"]}
{"id": "C100", "title": "With bounded normal numbers every search finds the target and ensemble means converge", "statement": "With a generator that draws independent numbers, whose normal numbers are bounded by b and may come as near as one likes to any number near 0 (as those of every generator with finitely many bits are bounded), and a time step so small that b sqrt(2 D dt) is never too large for the room, a Brownian searcher in a box, ball or cylinder of any dimension finds a target that has room in it with probability one, in a time whose distribution is that of the random walk and has a mean tau and a variance V (long searches are exponentially rare); with probability one ensembles of all sizes succeed and their means converge to tau; the mean of n differs from tau by eps or more with probability at most V/(n eps^2); the fastest of n searchers takes longer than k dt with the n-th power of the probability that one does.", "quantifier": "all systems, dimensions, boundary conditions, targets, diffusion constants, time steps, distributions of the numbers, ensemble sizes and almost all random sequences", "why_tests_cant": "That a search always ends with success, and that the reported means converge, are statements about all random sequences and about limits; a test sees finitely many searches.", "anchors": ["tests/single_ptl_rts.rs: ensemble loops", "tests/rts_n_searcher.rs: n_ptl_fpt, ensemble_n_ptl_fpt", "src/system_mod/cont_cubic.rs: check_bc", "src/system_mod/cont_circ.rs: check_bc", "src/system_mod/cont_cyl.rs: check_bc", "src/agent_mod/cont_passive_indep.rs: random_move"]}
{"id": "C101", "title": "The list program of the test suite writes every first-passage time one step short", "statement": "tests/arguments.rs runs n independent searchers in a linked list on the library's constant-step clock. After any number of ensembles the next line it writes is t - dt when the same search, as written in tests/n_ptl_rts_iterator.rs and started from the same generator, reports t within floor(tmax/dt)+1 steps, and the generator is left in the same state; the same failure if that fails; 0 if no searcher finds the target before the clock runs out; the program goes on for ever only if placing the searchers does. So means are exactly dt too small and a line 0 does not tell a search that succeeded in the first step from one that never did. The kind of start given in the arguments has no influence. Different sets of the same parameters get seeds 570914867 apart.", "quantifier": "all systems, targets, random sources, numbers of searchers, clocks, kinds of start, numbers of ensembles, positions in the sequence of ensembles", "why_tests_cant": "The two programs agree up to one step only if every cursor of the list, buffer and clock is as good as new after each ensemble, for every history of ensembles; a test runs a few ensembles and looks at the shape of the output.", "anchors": ["tests/arguments.rs: main", "tests/n_ptl_rts_iterator.rs: n_ptl_fpt", "src/time_mod/mod.rs: ConstStep", "src/agent_mod/cont_passive_indep.rs: renew_uniform, random_move_to_vec", "src/iterator.rs: LinkedList connect_all, into_iter, get_mut"]}
{"id": "C102", "title": "Giving up searchers that cannot win any more does not change the result", "statement": "tests/test_setup.rs follows each of n searchers only while its time is below the least time so far. One searcher reports a time below the limit exactly when the complete search from the same generator state does, with the same state left; otherwise it is given up at the first multiple of dt not below the limit, so it always comes to an end. The number an ensemble writes is the least time of n complete searches (f64::MAX if there is none below), although none of the slower ones was followed; it fails only as a complete search or a test for the target fails. With an ideal generator the outcome is distributed as that of a race of n independent complete searches, independent of the generator state left; it succeeds at least as often as the program that follows all searchers to their ends; with bounded normal numbers it writes a time above k dt with exactly the same probability as that program.", "quantifier": "all systems, targets, random sources, limits, time steps, numbers of searchers, buffer contents; for the laws: all ideal generators, rooms with walls, targets and step sizes", "why_tests_cant": "That a searcher given up early cannot have won, and that stopping early does not bias the numbers later searchers draw, are statements about all sequences of random numbers and about probability laws; a test runs a few ensembles.", "anchors": ["tests/test_setup.rs: main", "src/agent_mod/cont_passive_indep.rs: new_uniform, random_move_to_vec", "src/target_mod/cont_bulk.rs: check_find", "tests/rts_n_searcher.rs"]}
{"id": "C103", "title": "An analysis that fails or is killed: what is left on the disk", "statement": "Let an analysis (of first-passage times, vectors or processes) be one that succeeds on a healthy system, with results o, and let every system call answer anything: fail, or write less than asked; and let the program be killed between any two calls. Then files outside the new directory are as before; the distribution files that exist are the first ones of o in the order they are written, all whole but the last, which is a beginning; the table is a beginning of the table of o. If success is returned all distribution files are whole and the table lacks at most the capacity of its buffer; otherwise an io error is returned, never a panic. If no call fails, writes make progress and the program lives, everything is complete. If the data cannot be read the title of the table alone is left. Findings: a table shorter than the buffer (8 KiB) is only written at the very end, so a killed analysis leaves an empty table next to finished distributions; a failure of that last write is ignored and success reported with an empty table; the result of a group is handed over with write instead of write_all, so a result as long as the buffer may be cut in the middle of the row although every call succeeded.", "quantifier": "every analyzer and exporter, every directory content, every list of answers of the operating system (failures, short writes, kill at any point), every capacity of the buffer, every way write_fmt cuts a text into pieces", "why_tests_cant": "fault injection at every system call and every length of a short write, for all inputs, cannot be enumerated by tests", "anchors": ["src/analysis.rs:export", "src/analysis.rs:analyze", "src/analysis.rs:export_distribution", "src/analysis.rs:export_log_scaled_distribution"]}
{"id": "C104", "title": "Searchers that take turns report the first of independent searches", "statement": "tests/n_ptl_rts_iterator.rs lets n searchers in a linked list take turns, one step each, and reports the time of the turn in which the first of them finds the target. With an ideal generator the run ends with probability one and its outcome has exactly the distribution of the first to end among n independent single searches (if several end in the same turn, the first of them in the list); it is independent of the state the generator is left in, so runs after each other are independent; that it lasts longer than k turns has the n-th power of the probability that one search does. It succeeds with a time above k dt at least as often as the program that follows the searchers one after the other (nSearchers, minimum of the times), and, when the normal numbers are bounded so that no step can be too large, exactly as often: taking turns and keeping the minimum give the same distribution although they use the random numbers in a different order.", "quantifier": "all ideal generators, systems with bounded rooms, targets, numbers of searchers, time steps, numbers of turns", "why_tests_cant": "a distribution over all generator states and an unbounded number of steps; a test sees finitely many runs of one generator", "anchors": ["tests/n_ptl_rts_iterator.rs: n_ptl_fpt", "src/iterator.rs: get_mut, into_iter", "src/agent_mod/cont_passive_indep.rs: new_uniform, random_move", "src/system_mod/cont_circ.rs: check_bc"]}
{"id": "C105", "title": "Merging searchers in a ball, a cube or a cylinder find the target with probability one", "statement": "tests/merge_fpt.rs lets n searchers in a ball (disc) with a mirror wall diffuse and merge when they meet (a merged searcher of size m diffuses with m^-alpha), until one finds the target. Let the normal numbers be independent, bounded by b and not confined (near every number close to 0 they fall with positive probability), and b sqrt(2 D' dt) at most 2R/sqrt(d) for every diffusion constant D' that can occur. Then no run fails: with probability one the program reports a time k dt, k > 0, of the turn in which the target was found; that it has not done so in K L turns has at most probability r^K, r < 1, and this holds for the worst of all starts at once (one and the same event for all starting positions and merging radii); with probability one every ensemble, however large, is completed and its mean reported. The same holds in a cube of half side L, mirrored, periodic or mixed, when b sqrt(2 D' dt) is at most 2L, and in a cylinder with radius R around k axes and half length L (periodic along the others), when b sqrt(2 D' dt) is at most L and at most 2R/sqrt(k), although the library places the searchers in a cylinder of twice the length. This needs no lower bound on the number of searchers left: even when all have merged into one slow searcher, it finds the target.", "quantifier": "all generators with independent, bounded, unconfined normal numbers; all balls, all cubes with any boundary condition, all cylinders, dimensions, targets that meet the room in a set with interior, numbers of searchers, merging radii, exponents alpha, diffusion constants, time steps, starting positions, numbers of runs", "why_tests_cant": "A test sees some runs end; that the others end, and that a run is not trapped by merging or by the wall, is a statement with probability one about unboundedly long runs", "anchors": ["tests/merge_fpt.rs:n_ptl_fpt", "tests/merge_fpt.rs:ensemble_n_ptl_fpt", "src/agent_mod/cont_passive_merge.rs:add_size", "src/agent_mod/cont_passive_merge.rs:random_move", "src/system_mod/cont_circ.rs:check_bc", "src/iterator.rs:merge"]}
{"id": "C106", "title": "The distribution of searches by merging searchers", "statement": "tests/merge_fpt.rs: n searchers start at independent uniform places off the target, take turns with one step each, and after every turn those closer than twice the radius merge: the first takes in all that are close to it, then the next of those left, and so on; a searcher merged from m > 1 diffuses with m^-alpha. With an ideal generator and any system with a bounded room a run ends with probability one; what it reports (k dt when the target is found in turn k, or TooLargeTimeStep) has exactly the distribution of this process with independent normal steps, stated without the linked list, its cursors or the generator; it is independent of the state the generator is left in, so runs after each other are independent; that it lasts longer than k turns has at most probability r^k, r < 1; it may fail, and it may find the target, in the first turn. With bounded normal numbers in a ball, a cube or a cylinder the process finds the target with probability one, its time has a mean, and the means of growing ensembles approach it with probability one.", "quantifier": "all ideal generators (or independent, bounded, unconfined normal numbers), systems with bounded rooms, dimensions, targets, numbers of searchers, radii, exponents, diffusion constants, time steps, numbers of turns", "why_tests_cant": "a distribution over all generator states and unboundedly many steps, with merges at random times; a test sees finitely many runs of one generator", "anchors": ["tests/merge_fpt.rs: merge_fpt", "src/iterator.rs: get_mut, get_double, delete, into_double_iter", "src/agent_mod/cont_passive_merge.rs: new_uniform, random_move, merge", "src/system_mod/cont_circ.rs: check_bc"]}
{"id": "C107", "title": "The distribution of the ensembles of tests/large_n_simulation.rs", "statement": "tests/large_n_simulation.rs: a program makes n merging searchers and an exponential clock once and then runs num searches with them one after the other, reviving and re-placing the searchers before each. With independent normal-like numbers and any system with a room, walls and an exponential clock that has not run, every single search ends with probability one and what it reports has exactly the distribution of this process, stated without the list, the clock object or the generator: n searchers of size 1 and diffusion constant 1 (whatever constant they were made with) at independent uniform places off the target make their steps turn by turn, in turn k with the k-th step of the documented exponential schedule, merging after each turn as in C106. If the target is found in turn k, the reported time is that of the schedule before the step (0 for the first turn); if the schedule passes its limit, the error is UnexpectedEnd; no turn starts after the limit. The searches of one program are independent and identically distributed; the program reports the mean of their times if all find the target, and else the error of the first that does not; so it reports a mean with probability exactly p^num. With ideal normal numbers p < 1: with enough ensembles the program almost surely fails (likewise for tests/merge_fpt.rs).", "quantifier": "all ideal generators (or independent numbers of any distribution), systems with rooms and walls, dimensions, targets, clocks, teams of any sizes at any places, radii, exponents, numbers of searchers and of ensembles", "why_tests_cant": "a distribution over all generator states and all numbers of ensembles; that searches after each other are independent although they share agents, list and clock cannot be sampled", "anchors": ["tests/large_n_simulation.rs:ensemble_n_ptl_fpt,n_ptl_fpt", "src/agent_mod/cont_passive_merge.rs:renew_uniform", "src/time_mod/mod.rs:ExponentialStep", "tests/merge_fpt.rs:ensemble_n_ptl_fpt"]}
{"id": "C108", "title": "What examples/mfpt_exp.rs writes is a sample of a well-defined process of searchers that push each other away", "statement": "In any of the library's systems with reflecting walls, with a generator of independent numbers, an ensemble of examples/mfpt_exp.rs ends with probability one. The searchers start at independent uniformly distributed places off the target; in every turn each searcher makes one step, one after the other, with the exponential forces of all others at the beginning of the turn and independent noise, shortened to the limit. The number written is the clock's time of the turn in which a searcher comes to the target, and 0 if the clock ends first; the turn numbered k uses the k-th step of the clock counted from 0, i.e. the very first (smallest) step is never used; if the clock's limit is before its first later turn, 0 is always written. The lines of a program of k ensembles are those of independent outcomes with one distribution. In a ball, if the limit is at most the diameter, no ensemble fails whatever the forces, so that there are k lines; none of them is 0 with probability p^k, where p is the probability that one search finds the target.", "quantifier": "all systems (cube, ball, cylinder, without long directions where the start positions need it), numbers of searchers, dimensions, strengths and ranges of the force, limits, clocks, numbers of ensembles, almost all sequences of random numbers", "why_tests_cant": "A statement about the distribution of outputs and about almost all infinite sequences of random numbers; tests see one sequence.", "anchors": ["examples/mfpt_exp.rs:main", "src/agent_mod/cont_passive_exp.rs:force", "src/agent_mod/cont_passive_exp.rs:random_move_to_vec", "src/time_mod/expstep.rs:next"]}
{"id": "C109", "title": "The pictures of tests/random_vec.rs and tests/random_histogram.rs show what they are meant to show", "statement": "The four programs that print random vectors print the numbers of the generator two per line in the order drawn, never stop early, and the version drawing into one vector writes the same file; the same holds for the two programs printing positions in a disk (in exact arithmetic). The files can be read back. With ideal random numbers the points are independent and uniform in the disk, uniform in the unit square, or standard normal. bin_bounds returns count+1 bounds in equal steps from min to max (in order under any monotone rounding if max-min is representable); every number handed to the histogram lies in exactly one bin, numbers beyond min or max in the first or last; the mean number per bin is the number of data times the probability of the bin; the curve drawn over it has one point in the middle of each bin and is off the mean by at most N w^3/(24 sqrt(2 pi)), i.e. less than 9 of a million for the program's inner bins. The versions reading a file use its numbers in order, panic at a line that is no number and report a line that cannot be read.", "quantifier": "all generators, counts, radii, bin numbers and ranges; ideal generators for the laws", "why_tests_cant": "the pictures are looked at, not checked; laws, means and bounds are about all seeds and all parameters", "anchors": ["tests/random_vec.rs: test_cont_circ_random_pos_contour, test_cont_circ_random_pos_to_vec_contour, test_get_uniform_vec, test_get_uniform_to_vec, test_get_gaussian_vec, test_get_gaussian_to_vec", "tests/random_histogram.rs: bin_bounds, histogram_uniform, histogram_gaussian, histogram_uniform_c, histogram_gaussian_c", "src/random_mod/mod.rs: get_uniform_vec, get_gaussian_vec", "src/system_mod/cont_circ.rs: random_pos, random_pos_to_vec"]}
{"id": "C110", "title": "Merging searchers that do not meet search as independent searchers", "statement": "tests/merge_fpt.rs and tests/large_n_simulation.rs differ from tests/n_ptl_rts_iterator.rs only by their merges. If a merging simulation that has not failed still has all its searchers, independent searchers started at the same places with the same generator have had the same search: the same answer, the same generator, every searcher at the same place; whatever the arithmetic, clock, library system, target and merging distance. So a single searcher, or searchers of radius zero (in exact arithmetic as with any rounding, in particular in double precision), make tests/merge_fpt.rs and tests/n_ptl_rts_iterator.rs the same program: same report, same use of the generator. With an ideal generator it then reports the first of independent searches (C104), and the process of C106 finds the target in turn k, and fails, just as often as the first of independent searches.", "quantifier": "all arithmetics, generators, library systems, dimensions, targets, numbers of searchers, radii, exponents, clocks, numbers of turns; ideal generators for the distributions", "why_tests_cant": "two programs with different data structures and loops would have to be compared on every stream of random numbers, and two distributions on all outcomes", "anchors": ["tests/merge_fpt.rs:n_ptl_fpt", "tests/n_ptl_rts_iterator.rs:n_ptl_fpt", "src/agent_mod/cont_passive_merge.rs:ContPassiveMergeAgent", "src/agent_mod/cont_passive_indep.rs:ContPassiveIndepAgent"]}
{"id": "C111", "title": "How much sooner n searchers find the target: every further one helps less, and never below one step", "statement": "With bounded normal numbers (the setting of C100) the ensemble means of tests/n_ptl_rts_iterator.rs with n searchers converge with probability one to tau(n) = dt times the sum over k of the n-th power of the probability that one search takes more than k steps; tau(1) is the mean time of a single search. tau(n) decreases with n, strictly unless all searches take the same number of steps; the gain from a further searcher is never larger than that from the one before; tau(n) is never below k0 dt, with k0 >= 1 the smallest number of steps a search can take, and converges to it: with many searchers the program measures its time step, not the search. With more searchers it is never more probable that a run takes longer than a given time.", "quantifier": "all generators with independent, bounded, unconfined normal numbers; all systems, targets, diffusion constants, time steps, numbers of searchers n, ensemble sizes, almost all sequences of random numbers", "why_tests_cant": "A test estimates a mean for one or two values of n with a statistical error; monotonicity and convexity in n, and the limit for n to infinity, are statements about all n and about exact expectations.", "anchors": ["tests/n_ptl_rts_iterator.rs:ensemble_n_ptl_fpt, n_ptl_fpt", "src/agent_mod/independent.rs:IndepAgent", "src/target_mod/cont_bulk.rs:check_find"]}
{"id": "C112", "title": "The distribution of the lines written by tests/arguments.rs, and how far their mean is off", "statement": "With n searchers and an ideal generator the lines of tests/arguments.rs are independent. Each describes the first of n independent searches, limited to floor(tmax/dt) + 1 turns: a search that ends in turn j is written as (j - 1) dt, one that is given up as 0, and the first that fails ends the program. A line reads 0 with the probability that the target is found in the first turn plus the probability that no searcher finds it in time; the two cannot be told apart. With bounded normal numbers (the setting of C100) with probability one there is a line for every ensemble, however many, and the means of the lines converge to a number that is smaller than the mean search time (to which the means of tests/n_ptl_rts_iterator.rs converge) by at least dt, and by a further (floor(tmax/dt) + 1) dt times the probability that the search is given up.", "quantifier": "all systems that draw inside, targets, diffusion constants, time steps, tmax, numbers of searchers and ensembles; almost all sequences of random numbers of an ideal (or bounded, independent) generator", "why_tests_cant": "Independence of the lines and the limit of their mean are statements about the joint distribution of unboundedly many random numbers; a test that runs the program sees one sample, and the systematic error is of the order of its statistical error.", "anchors": ["tests/arguments.rs:main", "src/time_mod/mod.rs:ConstStep", "src/agent_mod/independent.rs:IndepAgent", "src/target_mod/cont_bulk.rs:check_find"]}
{"id": "C113", "title": "Searchers that do not notice each other: the first of independent searches, with a clock that changes its step and may end", "statement": "examples/mfpt_exp.rs with strength 0 and tests/large_n_simulation.rs with radius 0 (or less), in any system with a room and walls, any independent numbers and an exponential clock that has not run: what an ensemble of n+1 searchers (which take turns, share one generator and one clock, and stop at the first that is found, leaves the room or is given up) reports has exactly the distribution of the outcome of the one that ends first of n+1 independent ensembles of one searcher; the strength, range, radius and exponent of a single searcher have no effect. So the probability that the clock ends first (mfpt_exp writes 0, large_n reports UnexpectedEnd) is the one for a single searcher to the power n+1, and tends to 0 with n unless a single searcher always runs out of time; and in a ball (no step longer than the diameter) the probability that mfpt_exp has not found the target up to any time x is that for a single searcher to the power n+1. The large_n program reports a mean of num searches with the probability that the first of n+1 independent single searches to end finds the target, to the power num.", "quantifier": "all systems with rooms and walls, dimensions, targets, clocks, limits, diffusion constants, independent numbers of any distribution (ideal ones for the times in balls), numbers of searchers and ensembles, times x", "why_tests_cant": "The claim is an equality of distributions over all sequences of random numbers and all numbers of searchers: a test sees a few runs, and cannot tell a power law from a near miss or see that interleaved steps from one generator are independent.", "anchors": ["examples/mfpt_exp.rs:main", "src/agent_mod/cont_passive_exp.rs:force", "src/agent_mod/cont_passive_exp.rs:random_move_to_vec", "src/time_mod/expstep.rs:next", "tests/large_n_simulation.rs:ensemble_n_ptl_fpt,n_ptl_fpt", "src/agent_mod/cont_passive_merge.rs:renew_uniform", "src/time_mod/mod.rs:ExponentialStep", "tests/merge_fpt.rs:ensemble_n_ptl_fpt"]}
{"id": "C114", "title": "Exactly which results the search programs may report", "statement": "With an ideal generator, in any system with a room and walls, if a convex part of the room is partly inside and partly outside the target, then for any number of searchers (and any force, or radius and exponent): an ensemble of examples/mfpt_exp.rs writes each of the times of the clock's turns, from the first step on up to the limit, and 0, with a positive probability, and no other number with a positive probability, whatever the limit for the steps; k ensembles write any k such numbers, with the product of the probabilities; for searchers without strength 0 is written with probability q^(n+1) where 0 < q < 1, so it becomes rare with more searchers but never impossible. One ensemble of tests/merge_fpt.rs may report exactly the positive multiples of the time step and TooLargeTimeStep; one search of tests/large_n_simulation.rs exactly the times of the clock's turns from 0 up to the limit, TooLargeTimeStep and UnexpectedEnd.", "quantifier": "all systems with rooms and walls, targets, dimensions, clocks, limits, diffusion constants, forces, radii, exponents, numbers of searchers and ensembles, all possible reports", "why_tests_cant": "which results are possible at all depends on the supports of all distributions along whole runs; a test sees only the results that happened", "anchors": ["examples/mfpt_exp.rs main", "tests/merge_fpt.rs n_ptl_fpt", "tests/large_n_simulation.rs n_ptl_fpt", "src/system_mod/mod.rs check_bc", "src/time_mod.rs ExponentialStep"]}
{"id": "C115", "title": "Exactly which results the searches with constant time steps may report", "statement": "With an ideal generator, in any system with a room and walls, if a small ball lies in the room and the target and another in the room outside the target: a search may end in every turn from the first on, in both ways. So one search (tests/single_ptl_rts.rs) and searchers that take turns (tests/n_ptl_rts_iterator.rs) may report exactly the positive multiples of dt and TooLargeTimeStep; the mean of n searches exactly k dt / n with k >= n and TooLargeTimeStep; the first of n searchers followed one after the other (tests/rts_n_searcher.rs), and of searchers that are given up when they cannot win (tests/test_setup.rs, whatever the buffer contains), exactly the positive multiples of dt, cut at f64::MAX, and TooLargeTimeStep; tests/arguments.rs may leave after k ensembles exactly the files with k lines, each j dt with 0 <= j <= floor(tmax/dt), in any order, and those with fewer such lines that end with the error.", "quantifier": "all systems with rooms and walls, targets, dimensions, diffusion constants, time steps, numbers of searchers and ensembles, all possible reports and files", "why_tests_cant": "A test sees one sequence of random numbers; that a result is possible, or that no sequence of positive probability leads to it, is a statement about all of them", "anchors": ["tests/single_ptl_rts.rs", "tests/rts_n_searcher.rs", "tests/n_ptl_rts_iterator.rs", "tests/test_setup.rs", "tests/arguments.rs", "src/agent_mod/cont_passive_indep.rs"]}
{"id": "C116", "title": "The programs that write one number per ensemble never fail when their steps are safe", "statement": "tests/test_setup.rs and tests/arguments.rs: when the diffusion coefficient, the time step and the largest normal number of the generator do not allow steps longer than the room makes safe, every ensemble ends with a number and nothing is ever reported but the numbers: whatever the seed, the target, the numbers of searchers and of ensembles, the history of the list and however long it takes. examples/mfpt_exp.rs: when its limit of the displacements is at most that length, the same holds whatever the random numbers, the interaction and the time steps. This holds in cubes, balls and cylinders in exact arithmetic, and in boxes also with double precision (steps up to 0.95 times the width, limits up to 0.99 times half of it); and for the numbers of the crate's own programs with the crate's generator.", "quantifier": "all systems and dimensions, targets, diffusion constants, time steps and clocks, generators and seeds, numbers of searchers and ensembles, all histories of the list of searchers", "why_tests_cant": "A test runs some hundred ensembles with one seed; that no seed, no number of ensembles and no duration leads to an error is a statement about all runs", "anchors": ["tests/test_setup.rs", "tests/arguments.rs", "examples/mfpt_exp.rs", "src/agent_mod/cont_passive_indep.rs", "src/agent_mod/cont_passive_exp.rs", "src/system_mod/cont_cubic.rs"]}
{"id": "C117", "title": "The programs of the test suite in double precision: the same searches, with times as the machine adds them", "statement": "With every rounding, double precision among them: the buffer of tests/single_ptl_rts.rs makes no difference, bit for bit. After any number of finished ensembles the next line of tests/arguments.rs is the time one tick of the machine's clock before the time the list search of tests/n_ptl_rts_iterator.rs reports from the same state of the generator, the same failure if that fails, and 0 if no searcher is fast enough. A searcher of tests/test_setup.rs reports a time below the least so far exactly when the complete search does, and otherwise is given up at the first time of the clock not below it, when no complete search can be faster; so the number an ensemble writes is the least of the complete searches. In double precision the times never go beyond 2^55 dt, so no searcher is given up at f64::MAX: the first searcher of an ensemble is followed to its end, and if its search never ends neither does the program.", "quantifier": "all roundings (double precision for the last sentence), systems, targets, random sources, time steps, limits, numbers of searchers, buffer contents, numbers of finished ensembles", "why_tests_cant": "That programs with different loops add up the same rounded times and consume the same random numbers is a statement about all sequences of random numbers and all roundings; that the clock stands still shows only after 2^54 steps.", "anchors": ["tests/arguments.rs:main", "tests/test_setup.rs:main", "tests/single_ptl_rts.rs:main", "src/time_mod/mod.rs:ConstStep,next,convert_from", "src/agent_mod/cont_passive_indep.rs:random_move_to_vec"]}
{"id": "C118", "title": "What the mean a program reports in double precision means", "statement": "In double precision, with its time added up turn by turn, its times added up run by run and the sum divided by the number n of runs, a search program of the test suite that reports a mean reports dt times the average of n whole numbers of turns, up to a relative error of (steps + n + 1) 2^-52 and half of the smallest number: the numbers are those of n searches carried out one after the other, each from the state of the random generator the one before left, and the number of a search is the number of turns after which the searcher (the fastest of the searchers, any of the listed searchers, any of the merging searchers) first is on the target and not before. Likewise a mean that tests/large_n_simulation.rs reports is the average of the times of the documented schedule of its exponential clock before the last turns of its searches, up to a relative error of (2 steps + num + 1) 2^-52: the searches use the same searchers, revived and placed anew each time.", "quantifier": "every system, target, generator and its state, every time step (a double, not negative; below 2^960 for the fastest searcher), number of runs, number of searchers, number of turns allowed with steps + n + 1 <= 2^51, and every outcome that is a mean; single_ptl_rts, rts_n_searcher, n_ptl_rts_iterator and merge_fpt; large_n_simulation with every exponential clock that has not run, its smallest step a normal number", "why_tests_cant": "The error depends on how many turns every run takes, which is random and unbounded, and on thousands of roundings in sequence; a test sees a mean it has nothing to compare with.", "anchors": ["tests/single_ptl_rts.rs:test_single_ptl_fpt", "tests/rts_n_searcher.rs:ensemble_n_ptl_fpt", "tests/n_ptl_rts_iterator.rs:ensemble_n_ptl_fpt", "tests/merge_fpt.rs:ensemble_n_ptl_fpt", "src/target_mod/cont_bulk.rs:check_find", "tests/large_n_simulation.rs:ensemble_n_ptl_fpt"]}
{"id": "C119", "title": "The choice of units does not matter, except for merging", "statement": "In exact arithmetic, writing the same problem down in other units (every length times len, every time times time, diffusion coefficients and interaction strengths times len^2/time) changes nothing but the numbers reported: with the same random generator in the same state, in all three systems, the operations of the systems and the target (inclusion, walls, random positions, finding) give the same answers at the same places; the searches of all test programs and of examples/mfpt_exp.rs end after the same turns, with the same errors, and every time and mean they report is time times the one reported in the old units; the distribution of the number of turns is the same. Two exceptions: times beyond f64::MAX in programs that start a minimum there, and merging. The diffusion coefficient of a merged walker is size^-alpha in every unit, so the merging programs follow a change of units only if len^2 = time; else the steps of a merged walker become sqrt(time) times as long, and not len times.", "quantifier": "all units, all systems and targets, all random generators and their states, all programs, ensemble sizes, numbers of agents, clocks, numbers of turns", "why_tests_cant": "a relation between two runs of the same program for every input and every sequence of random numbers; a test can compare two runs at a time only", "anchors": ["src/system_mod/cont_cubic.rs:check_bc", "src/system_mod/cont_circ.rs:check_bc", "src/system_mod/cont_cyl.rs:check_bc", "src/target_mod/cont_bulk.rs:check_find", "src/agent_mod/cont_passive_merge.rs:merge", "src/agent_mod/cont_passive_exp.rs:force", "examples/mfpt_exp.rs:main", "tests/rts_n_searcher.rs:n_ptl_fpt", "tests/merge_fpt.rs:n_ptl_fpt"]}
{"id": "C120", "title": "The lines of examples/mfpt_exp.rs are the times of its searches, and 0 means not found", "statement": "The numbers examples/mfpt_exp.rs writes - whether it comes to its end or fails on the way - belong, in order, to searches one after the other, each starting with the random generator as the one before left it, with all agents placed anew. If an agent is on the target after k turns and none was before, the number is the clock's time of turn k, the clock's first entry not counted; if the clock is over after k turns, the number is 0, and no agent was on the target at any time. In double precision the number of a search that found the target is positive, not beyond the clock's limit, and equals the documented time of k steps up to k + k/len roundings; the number of a search that did not is 0, and the documented time of one more step is beyond the limit up to the same error. So a 0 in the file always means that the target was not found, and no other line does. In a box the program does not fail and writes one line per search.", "quantifier": "all systems whose draws are inside (arithmetic-generic), all random generators and states, targets, limits, interactions, numbers of agents and of ensembles, all exponential clocks that have not run, all double precision parameters with a normal first step", "why_tests_cant": "relates each line of an unbounded file to an unbounded run, for every sequence of random numbers and with the accumulated rounding errors of every possible number of steps", "anchors": ["examples/mfpt_exp.rs:main", "src/time_mod/exponential.rs:next", "src/time_mod/mod.rs:into_diff", "src/agent_mod/cont_passive_exp.rs:renew_uniform"]}
{"id": "C121", "title": "It does not matter on which side the target is", "statement": "In a ball, the searches for two targets of the same size at the same distance from the centre report every result (time or error) with the same chances, for one search, the mean of an ensemble of any size, and the shortest time of any number of searchers; so do those in a cylinder for two targets at the same distance from the axis and, up to order and sign, at the same places along it, and those in a cube for two targets that are images of each other by exchanging axes with walls of the same kind and reflecting axes. With bounded normal numbers, as often positive as negative, and steps not too large for the room, the same holds for images by exchanging and reflecting axes (only these: a product of bounded distributions has no other symmetry), all searches find the target, and the means of ensembles for both targets approach one and the same number. In the periodic directions of a cube, and steps not longer than the cube, a target may also be moved anywhere, as long as neither before nor after it reaches over the ends.", "quantifier": "all dimensions, system sizes, target positions and sizes, diffusion coefficients, time steps, numbers of searches and searchers, sets of results; generators with ideal independent uniform and normal (resp. bounded symmetric) numbers", "why_tests_cant": "equality of two probability distributions over unbounded searches, for every set of results; samples can only fail to show a difference", "anchors": ["tests/rts_n_searcher.rs", "tests/single_ptl_rts.rs", "src/system_mod/cont_cubic.rs:check_bc", "src/system_mod/cont_circ.rs:check_bc", "src/system_mod/cont_cyl.rs:check_bc", "src/target_mod/cont_bulk.rs:check_find", "src/agent_mod/cont_passive_indep.rs:random_move_to_vec"]}
{"id": "C122", "title": "It does not matter on which side the target is for searchers that notice each other either", "statement": "In a ball, two targets of the same size at the same distance from the centre give every result with the same chances for searchers that merge (the mean of an ensemble of any size in tests/merge_fpt.rs, errors included; a search with an exponential clock from searchers left anywhere; the whole program of tests/large_n_simulation.rs) and for searchers that push each other away (the lines examples/mfpt_exp.rs writes and how it ends, for any number of ensembles, strengths, ranges and longest steps). So do two targets in a cylinder at the same distance from the axis and, up to order and sign, at the same places along it, and two in a cube that are images of each other by exchanging axes with walls of the same kind and reflecting axes. In particular neither the order in which the searchers move and merge nor the shortening of steps prefers a direction.", "quantifier": "all dimensions, system sizes, target positions and sizes, numbers of searchers and of ensembles, radii, exponents, clocks, forces, longest steps, sets of results; generators with ideal independent uniform and normal numbers", "why_tests_cant": "equality of two probability distributions over unbounded searches, for every set of results; samples can only fail to show a difference", "anchors": ["tests/merge_fpt.rs", "tests/large_n_simulation.rs", "examples/mfpt_exp.rs", "src/agent_mod/cont_passive_merge.rs:merge", "src/agent_mod/cont_passive_exp.rs:force", "src/system_mod/cont_circ.rs:check_bc", "src/target_mod/cont_bulk.rs:check_find"]}
{"id": "C123", "title": "A larger target is found no later, on the same random numbers", "statement": "Whatever the arithmetic, the system, the clock and the random numbers: if wherever one target does not report 'found' it answers as another one does, then a search for it by the same placed searchers - independent, listed, merging or pushing each other away - says the same as the search for the other one (same time, same error, same abort, or the clock ends) or reports the time of a turn that is not later than the one the other reports. Under any monotone rounding the reported time itself is then not larger, with time += dt, with into_diff of every exponential clock and with .skip(1), in the loops of tests/n_ptl_rts_iterator.rs, tests/merge_fpt.rs, tests/large_n_simulation.rs, tests/rts_n_searcher.rs and tests/single_ptl_rts.rs; in examples/mfpt_exp.rs the time with the smaller target may be smaller only when it is the 0 written when the clock ended. A ball target of the same centre and a radius that is not smaller is such a target, and in exact arithmetic any ball that contains the other one. (The programs place their searchers off the target by drawing again, so this is about one placement, not one seed.)", "quantifier": "all targets (also of other kinds), systems, agents, clocks, random sources, budgets of turns and roundings", "why_tests_cant": "quantifies over all targets, draws and unbounded searches; a test follows single runs", "anchors": ["tests/n_ptl_rts_iterator.rs", "tests/merge_fpt.rs", "tests/large_n_simulation.rs", "tests/rts_n_searcher.rs", "tests/single_ptl_rts.rs", "tests/arguments.rs", "examples/mfpt_exp.rs", "src/target_mod/cont_bulk.rs:check_find", "src/time_mod/mod.rs:into_diff"]}
{"id": "C124", "title": "The time limit only cuts off", "statement": "For every clock of the library in any state, every monotone rounding and every search that runs on it (whatever its steps do, errors included), started twice from the same state: with a later limit (set_tmax) the search says exactly the same, except where it ended because the earlier limit was reached; there it goes on, and a time it then reports is beyond the earlier limit. A time reported under a limit never exceeds it. So a result under a limit is the result under any later limit, cut off at the limit: the share of searches that ended without a result can be read as the share of longer times. In tests/large_n_simulation.rs the end is the error UnexpectedEnd, in examples/mfpt_exp.rs and tests/arguments.rs the written 0.", "quantifier": "all clocks with any history, limits, roundings, loop bodies, states, budgets of turns; for the programs all systems, targets, agents, generators", "why_tests_cant": "compares two unbounded runs for all limits and all random numbers; a test sees one pair of runs", "anchors": ["src/time_mod/mod.rs:set_tmax", "src/time_mod/mod.rs:next", "src/time_mod/mod.rs:into_diff", "tests/large_n_simulation.rs", "tests/arguments.rs", "examples/mfpt_exp.rs"]}
