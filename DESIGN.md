# A formal model of key262yek/moledyn in Lean 4

* `properties.jsonl`: the properties, in English.  `MANIFEST.json`: property → theorem names.
* `lean/Verif/Model/*.lean`: the code, function by function; every definition cites the file and lines of `/repo`
  it models, and says where it simplifies.
* `lean/Verif/Spec/*.lean`: the vocabulary of the statements, independent of the model's helpers (live slots and
  the slot machine, mirror images, sample mean and variance, bins, runs and directories, …).
* `lean/Verif/Lemmas/*.lean`: proofs' scaffolding.  `lean/Verif/Props/*.lean`: the theorems `Cnn_…`, each followed
  by an `example` with a concrete, non-trivial case that meets its hypotheses.
* `seeded/`: wrong programs (`m*.json`: edits of the model) and the log of what they broke (`LOG.jsonl`);
  `tools/mutate.py` applies them in a scratch copy.
* `tools/manifest.py`, `tools/axioms.py`, `tools/coverage.py`: bookkeeping.

Build: `cd lean && lake build`.

## 1. Trusted base

1. **Lean 4.33.0's kernel.**  No axioms were added, no compiled-code tactic is used.  Section 7 lists for every
   theorem of the manifest the axioms it depends on: subsets of `propext`, `Quot.sound`, `Classical.choice`.
2. **Mathlib** for real numbers, lists, derivatives and tactics: definitions are trusted as the usual ones, its
   theorems are checked by the same kernel.
3. **The reading of the Rust source.**  Nothing was compiled or run.  Whether a Lean definition says the same as
   the cited Rust lines has to be judged by eye.
4. **Rust's standard library as described in the model**: `Vec`, slices, `Option`, `str::{trim, trim_matches, split,
   split_whitespace, parse}`, `format!` padding, `BufRead::lines`, `HashMap` up to the order of iteration, saturating
   `as usize`.
5. **Assumptions are hypotheses, never axioms**: e.g. that uniform draws lie strictly between 0 and 1, that a number
   printer and parser fit together.  They appear in the statements and are instantiated in the examples.
6. **For C72–C74, C77 and C99 an ideal generator** (`Spec/Law`): a call returns an exactly uniform (standard normal) real number, independent
   of everything else.  For C100 the normal numbers have any bounded distribution instead that may be anywhere near 0.  That an ideal generator exists is proved (`tape_ideal`, an infinite product of distributions).
7. **For C84 to C86 the sources of rand_pcg 0.2, rand 0.7 and rand_distr 0.2** (`Pcg64`, `Open01`, `StandardNormal`), which are not
   part of /repo, as written down in `Model/Pcg` and `Model/Ziggurat`.  The five uniform values asserted in the crate's own test come
   out exactly; the tables of the ziggurat are a parameter with stated bounds (`Spec/NormalTables`).

## 2. Conventions of the model

* **Outcome.** `Res α` is `ok a | err e | panic`.  `Err(..)` is `err`, a failing `unwrap`/`expect`/index/`panic!` is
  `panic`.  A function taking `&mut` returns the new value *beside* the outcome, so what an error leaves behind is
  visible.  `none` as the outcome of a loop means that the fuel (below) did not suffice.
* **Floats.** `class Fl F` is a bundle of the operations used (arithmetic, `abs sqrt exp log2 powf powi floor ceil`,
  Boolean comparisons, literals, conversions) with **no laws**.  All numeric code is modelled against it.  Theorems
  come in four tiers:
  * **A**: for every `Fl F`.  Nothing is assumed about arithmetic: they hold for IEEE doubles, with rounding, NaN
    and infinities.
  * **B**: for the instance `ℝ` (exact arithmetic).  Division by zero is 0 and `sqrt` of a negative number is 0 there;
    statements are made so that neither is used (their hypotheses keep divisors away from 0).
  * **C**: for `RF R`: reals where every operation is followed by one and the same rounding `R`, any monotone, idempotent,
    odd function fixing 0.  `Rounding.binary p` (round to nearest, ties to even, `p` bits, unbounded exponent) is an
    instance, so in particular IEEE doubles in the absence of overflow and underflow.
  * **D**: for `XF`, rationals with infinities and NaN, to exhibit IEEE special cases.  `Lemmas/SpecialNumbers` proves that its
    sums, products, quotients and comparisons are those of Mathlib's extended reals wherever IEEE 754 does not ask for NaN.
* **`usize`** is `Nat`: overflow of 2^64 is not modelled, except where the code depends on saturation (hash words) or on
  failing to parse.  **`i32`** operations panic on overflow, as in a debug build.
* **Randomness.** A generator is an arbitrary state machine (`RngOps`) delivering numbers; statements quantify over it
  and its state.  Unbounded loops (rejection, time loops, name search) are recursions on a fuel; theorems speak
  about every fuel for which the loop returns, and separately about termination.
* **Text** is `List Char` (`chars! "…"` writes a literal).  `usize` printing and parsing are modelled digit by digit.  `f64`
  printing and parsing is a parameter `NumFmt F`; hypotheses name what is needed of it: `WordLike` (prints a
  parsable word without blanks or punctuation), `Faithful` (parse ∘ print = id on a set), `Underscoreless`, `ReadsAs rd`
  (what was printed with some other format, like `{:.5e}`, is read back as `rd x`), `WritesWords`.  Each is instantiated by
  a concrete format in an example.
* **Argument structures.** The macros of `src/argument.rs` are functions over a *schema*: the list of fields with name,
  type, printer and parser; the crate's nine structures are nine schemas.  `construct_dataset!`/`simulation!` are functions
  over a list of components.
* **Files.** A file is its text (or an unreadable line with an io code), a directory is a listing in an arbitrary order,
  the file system is a predicate "this path exists".  Output is the list of (path, text) written.

## 3. What is modelled, and what is not

| source | model | not modelled |
|---|---|---|
| `src/iterator.rs` | `Model/LinkedList` complete | — |
| `src/position.rs` | `Model/Position`, `Model/PosOps`, text in `Model/TypesText` | `iter` implementations (list access) |
| `src/time_mod/mod.rs` | `Model/Time` complete | — |
| `src/system_mod/*` | `Model/System` complete: three systems, `check_bc`, `check_bc_exact`, `check_bc_first_order`, random and outside positions; `Default` values in `Model/Derived` | — |
| `src/target_mod/{mod,cont_bulk}.rs` | `Model/Target` | `cont_boundary.rs` (commented out of the build) |
| `src/random_mod/mod.rs` | `Model/Random`: the vector helpers over any generator; `Model/Pcg`: `rng_seed`, `get_uniform`; `Model/Ziggurat`: `get_gaussian` | the values in the tables of the ziggurat |
| `src/agent_mod/*` | `Model/Agent`, `Model/Types` complete: four agents | — |
| `src/error.rs` | `Model/Error` complete | the text of io errors |
| `src/argument.rs`, `src/macros.rs` | `Model/Argument`, `Model/Dataset`, `Model/Derived` (`new`, `clear`, `Default`, derived order) | derived `Debug` and `Clone`, test macros |
| `src/setup.rs` | `Model/Setup`, `Model/Help` (the help text), `Model/OutFile` (the result file while it is written: `File::create`, `BufWriter`, `flush`) | when the text appears on the console |
| `src/analysis.rs` | `Model/Analysis`, `Model/Dataset`, `Model/Export`, `Model/AnalysisDisk` (the calls on the disk, one by one) | partial success of `create_dir_all`, a closed console (`println!`), the order of a hash map's iteration (any order), hash collisions of SipHash beyond "equal words" being a parameter `dh` |
| `moledyn_proc/src/lib.rs` | the name tables (`Model/Dataset`), `Model/Macro`: token parsing, the declared variables with shadowing | invisible groups of tokens; `check_parse`, `test_*`, `match_*` (used by tests only) |
| `tests/{merge_fpt, large_n_simulation, n_ptl_rts_iterator, rts_n_searcher, single_ptl_rts, arguments, test_setup}.rs`, `examples/mfpt_exp.rs` | `Model/Simulation`, `Model/SingleSearch`, `Model/ExpProgram`, `Model/BundledPrograms`, `Model/LargeN` | the assertions with statistical tolerances, console output |
| `tests/{boundary_cond, random_vec, random_histogram}.rs` | `Model/BoundaryTests`, `Model/RandomTests` | the plotting library |
| `benches/` | — | measure speed only |

Also not modelled: compile-time behaviour (types, borrow checker), memory, wall clock (the date is a parameter),
speed, statistical quality of random numbers.

## 4. Plan per property

A–D is the arithmetic tier of the theorem(s).

| id | what is modelled | how it is proved |
|---|---|---|
| C01 | list calls as `Op`, histories as lists of them | A. invariant relating links to the list of live slots; simulation with the slot machine of `Spec/SlotMachine` |
| C02 | same | the invariant, read along `next` and along `prev` |
| C03, C04 | one cursor, deletions/pushes in between | invariant: still to come = live slots from the cursor on; induction over the interleaving; the missed push is a computed counterexample |
| C05, C06 | two cursors | invariant on the pending pair list; merges delete the second member |
| C07 | arbitrary deletions | safety by invariant, completeness under the proviso, three counterexamples without |
| C08 | `merge` over any agent with sizes | sum over live slots, induction over guarded merges; the crate's agent is an instance (C08_agents) |
| C09, C10 | `connect_all`, histories | equality of links; monotonicity of the live set |
| C11–C18 | both clocks, `into_diff`, setters | B for closed forms and termination bounds, C for monotonicity, A for `renew`, `into_diff`; stalls and endless clocks exhibited |
| C19 | `check_bc` of all systems | A. the last test of the code is the inclusion test; also for exact and first-order variants; D for NaN |
| C20–C22 | images | B. coordinatewise images, radial images |
| C23–C25 | moves inside, wrong dimensions, rejected moves | A, counterexamples in B |
| C26, C27 | random positions, outside positions | B and C, all generators with draws in (0,1); counterexamples for the cylinder |
| C28, C61 | `check_bc_exact`, `check_bc_first_order` | B. inner products; quadratic error bound between the two |
| C29–C32 | vector operations and text | B (metric), A (symmetry, in-place variants), text induction |
| C33 | target | A/B |
| C34 | random vectors | A; range in B |
| C35 | potential and force | B, `HasDerivAt` |
| C36–C40, C60 | agents: displacement, uniform start, merging, random moves, constructors | A and B; generic core shared by the four agents |
| C41, C42 | type texts, configuration blocks | all values; exact characterisation of failures and of panics |
| C43 | command lines | slices; exact acceptance conditions, shadowing of simulations by analyses |
| C44 | errors | complete tables |
| C45–C50, C55 | bins, histograms, densities, moments, clearing, export rows | B (and C for ranges); induction over samples; empty and thin bins exhibited |
| C51, C56 | hash words, groups, file names | A/B; grouping fold over arbitrary directories |
| C52, C57, C58 | the simulation programs | A: invariants over steps composed of the above; B for "never fails in a ball" |
| C53, C54 | force loop, buffers | A for the accumulated sums, B for balance and gradient |
| C59 | step lengths | B |
| C62–C64 | output directory, summary table, whole analysis from run files | A for paths and text, B for the numbers |
| C65 | `Model/Binary`: IEEE rounding | C at `Rounding.double`: relative error of additions, absorption, induction over calls |
| C66 | `Model/SingleSearch`: one walker, buffer, `n` searchers, free walk | A first passage by induction over turns; B buffer, minimum and mean square (sums over the stream) |
| C67 | `Model/SingleSearch`: ensemble loops, one ensemble | A induction over ensembles; single runs via C58's step theorems |
| C68 | `Model/SingleSearch.largeNRun` | A relation "equal up to what renewal overwrites" preserved by every finished ensemble |
| C69 | `searchLoop` with the three clocks | A the steps made; B telescoping sums via C16 |
| C70 | `expRun`, `expLoop`, `expStart` (the whole of examples/mfpt_exp.rs after the setup) | A two states that agree on the generator and on everything an ensemble reads are carried to such states (simulation relation over both sweeps), induction over ensembles; B in a ball via C58 |
| C71 | `seedShift`, `expSeed` | B floor arithmetic; C in double precision: relative error 2^-53 per operation; the collision by evaluation |
| C72 | `random_pos`, `random_pos_to_vec` of the three systems, with an ideal generator (`Spec/Law`) | B draws are measure preserving onto a product; affine images of the cube; rejection: geometric series over the number of rejected proposals; the curved surface of a cylinder has measure 0 (convexity) |
| C73 | `new_uniform`, `renew_uniform` of the four agents, `makeAgents`, `renewContents` | B rejection again, with the system's sampler as proposal; induction over the agents |
| C74 | `random_move(_to_vec)`, `freeDiffusion` | B images and convolutions of Gaussians; second moments; strong law of large numbers over the ensembles, whose independence follows from measure preservation |
| C75 | `ParsedArguments::parse`, `ident_to_variables`, the scope after `simulation!` | A two-step induction over the tokens; one general lemma per block of declarations, and the finitely many names compared |
| C76 | `push`, `extend`, `Index`, slices, `LowerExp` with a width, `f64::from(InteractType)` | A list reasoning for any element type |
| C77 | `oneSearcher`, `ensembleMean`, `nSearchersFpt` with an ideal generator; `check_bc` of the three systems as a map (`Spec/SearchLaw`) | B a round is measure preserving onto (outcome × fresh generator), so the rounds form a Markov chain; minorization by the Gaussian density on a bounded room gives the geometric tail; Chernoff for one too-large step; independence of runs by measure preservation |
| C78 | `vecAnalyze`, `processAnalyze` on directories of whole result files (`Spec/RunRows`) | A one lemma for all analyses (reading, grouping, directory, table) from what one line of data does; B the numbers: column statistics, density in every bin |
| C79 | `new_uniform`, `renew_uniform` of the four agents, `check_find`, the three samplers | A induction over the rejected proposals, for any arithmetic; case analysis on the interaction |
| C80 | `export_simulation_item!`, `brief_info`, `info`, the texts of all structures and analyses (`Model/Help`) | A the printed text cut into lines; the bracketed names recovered by splitting; the crate's texts by evaluation |
| C81 | the parsers of `Model/TypesText` and the words of a line | A for every text: read as v exactly if it has the listed form, spelled out with words, digits, brackets and cuts in `Spec/Reading` |
| C82 | `update_from_bin_size`, `update_from_num_bin`, `convert_num_bin_to_bin_size` | B what is refused and the window otherwise over ℝ; D a bin size of 0 over rationals with infinities |
| C83 | the texts of the distribution files (`timeRowText`, `vecRowText`, `processRowText`) and the name of the summary | A lines recovered from the text, cells recovered by cutting at tabs (`Spec/Layout`) |
| C84 | `rng_seed`, `get_uniform` with `Pcg64` and `Open01` (`Model/Pcg`) | A full period of a linear congruential generator modulo 2^w by the 2-adic valuation of the geometric sum; equal chances by an explicit bijection state ↔ (upper half, output); B values over ℝ; C the same in double precision |
| C85 | `get_gaussian` with the ziggurat of `StandardNormal` (`Model/Ziggurat`) | B bound by induction on the rounds; termination because the full period passes a state followed by three words that end every loop; one seed for which `test_sequence` fails |
| C86 | the searches of tests/single_ptl_rts.rs, rts_n_searcher.rs, n_ptl_rts_iterator.rs, merge_fpt.rs, large_n_simulation.rs (`Model/SingleSearch`) in the three systems; vocabulary in `Spec/SafeRoom` | B invariant: every walker is in the room, its diffusion coefficient is at most max(D, 1) and the clock's steps at most dtMax; a step of a safe room keeps it. The crate's generator (C84, C85) gives the bound on the normal numbers |
| C87 | the cube of C19, C20 over `Double` (`Model/Binary`: 53 bits, ties to even, gradual underflow); trajectories in `Spec/Trajectory` | B Sterbenz' lemma makes the fold exact up to 4L, monotony of rounding puts everything beyond outside; induction along the trajectory with a 1-Lipschitz fold |
| C88 | the analysis of C45, C47, C48 over `Double` | B the abstract rounding theorem of C45 instantiated (integers and half-integers are doubles, `log2 l > 0` for every double `l > 1`); error bounds by the relative error of one rounding and induction over the samples; the negative variance by computing each rounding |
| C89 | `read_args_from_lines`, `from_file` (`Model/Argument`, `Model/Dataset`) against `Spec/Headers` (what one line amounts to; the first bad line) | A induction over the fields, then over the blocks |
| C90 | the ball of C19, C21 and the target of C27 over `Double` (`Model/Binary`); distance in `Spec/Euclid`, trajectories in `Spec/Trajectory` | B error analysis: relative error of a sum of squares and its root, of the mirror factor and of the scaled point; the exact mirror does not increase distances, so errors only add up along a trajectory; the edge example by rounding every intermediate value with integers |
| C91 | the ziggurat of C85 over `Double`; what is used of the tables in `DoubleTables` | B the 52-bit numbers are exact, all bounds by monotony of rounding against doubles; returning as in C85 (`Returning`: a state followed by three good words is reached from everywhere) |
| C92 | `SafeRoom` (`Spec/SafeRoom`) over any number type; the programs of C66-C69 over `Double` | B the invariant of C86 for any arithmetic (`Lemmas/SafeSearches`); the box is a safe room by C87, C19, C26; step lengths by error bounds; the failing search in a disc by following two steps to the point of C90_edge |
| C93 | `Model/Time` over `Double` | C the clock follows the rounded schedule (`roundedStep`, `roundedTime`: the recursion with every product and sum rounded), for every monotone rounding; drift by relative errors, induction over blocks and calls; end: after finitely many blocks the step is `dt_max`, then half a step arrives at each call |
| C94 | `Model/System` over any `F`, then `Double` | the cylinder's `check_bc` is computed for the two parts separately and compared with the ball's and the periodic box's; C90 and C87 then give images, acceptance and trajectories, by induction over the moves |
| C95 | `Model/Derived`: `Schema.new`, `Schema.clear`, default values of every structure | induction over field lists; the cleared tuples by computation; reading back through C42 |
| C96 | `Model/Derived`: `cmpF`, `lexCmp`, `Pos.partialCmp`, `DataSet.partialCmp` | induction over the lists; the specification is "first difference decides" (`Before`) |
| C97 | `check_bc`, `check_bc_exact`, `check_bc_first_order` compared | B. the squared distance of the two images as a function of overshoot and angle (`gap_value`), optimised; sharpness by an explicit family of moves; which moves `check_bc_exact` accepts: a perfect square `(4t-1)²`, sharp by an explicit direction; tests/boundary_cond.rs `single_test_cont_circ_exact` modelled (`Model/BoundaryTests.lean`) |
| C98 | `export_simulation_info!` and the loop over ensembles as a list of calls on a buffered file (`Model/OutFile`), `from_file` on what is left | A. invariant: disk + buffer = what was handed over; a stop during a call leaves a beginning of what the call adds; beginnings of texts of lines (`prefix_text`); C51/C89 for what the reader makes of them; NaN in XF |
| C99 | the outcomes of an ensemble as independent copies (C77) | D. second moment from the geometric tail; conditioning of product measures; Chebyshev; boxes for the fastest |
| C100 | search as a chain with steps of any distribution; convex rooms | D. levels around the target: from each one the next is reached with probability at least p, so blocks of M steps are survived with probability at most 1 - p^M; strong law of large numbers; Chebyshev |
| C101 | the main function of tests/arguments.rs (`Model/BundledPrograms`) | simulation: the two lists of searchers correspond slot by slot (`Corresponds`), one sweep and one tick at a time (`agentSweep_lockstep`, `listSearch_lockstep`); then induction over the ensembles |
| C102 | the main function of tests/test_setup.rs (`Model/BundledPrograms`); `Spec/Race`: the rule of the race and its distribution | the search that is given up is the complete one with a bounded number of turns (`prunedSearch_full`), induction over the searchers; laws: a chain given up after m steps (`Rounds.cut`), then induction over the searchers with `bind_mp` (each is told the record of those before) |
| C103 | `analyze` as a list of calls (`Model/AnalysisDisk`: directories, files, `BufWriter` of the table, rows one by one) run against a list of answers of the system; `Spec/AnalysisDisk`: `lay`, `Begun`, `Progress` | A. compositional invariant `Does` (disk + buffer is a beginning of what was handed over, files begun in order) proved for each kind of call and for concatenation; `Frame`: which answers were used; `Costs`: enough answers suffice |
| C104 | tests/n_ptl_rts_iterator.rs (`indepRun` in `Model/SingleSearch`, with the list, the walkers and the boundary); `Spec/SideBySide`: the first to end of several searches | the sweeps over the list are a queue in which the first walker makes a step and goes to the end (`loop_eq`); the queue is a chain of rounds whose law stays a product (`queue_iterate`); its outcome compared with the race of independent searches, outcome by outcome (`firstOf_mass`, `queue_law`) |
| C105 | tests/merge_fpt.rs (`mergeRun`, `mergeFpt` in `Model/SingleSearch`, `Model/Simulation`, with the list, the merging agents and the mirror of the ball) | a word of draws works for all starts: pushing every searcher up, down and up again along an axis makes any walker in a ball pass near every point of that axis, because the mirror contracts towards the axis while pushing outwards (`BallSweep.sweep_hits`, `BallWord.ball_word`); in a cube every searcher is pushed into a corner (with mirrors) or along a line that comes near every point (`CubeSweep.cube_word`); in a cylinder every searcher is pushed to the wall in the direction of the target, then straight back, and so fast along the periodic coordinates that its line comes near every point (`CylSweep.cyl_word`); as long as nothing is found some searcher survives all merges and uses its own subsequence of the draws (`merge_track`); a word with positive probability comes with probability one, with geometric tails (`Words.misses_prob`); so no measurability of the merging state is needed; ensembles by induction over the runs, the generator between runs being a later state of a measure preserving stream |
| C106 | tests/merge_fpt.rs (`mergeRun`, `mergeFpt`), as in C105, in any system with `Room` and `Walls` | `Spec/MergeLaw` gives the process (no list, no cursors, no generator): `mergeMove` lets one searcher step, `absorb` merges, `mergeLaw` is the distribution of the first ending. The program is simulated micro-step by micro-step (`MergeSimulates.pass_run`, `sweep_run`, `turn_run`, `loop_run`): its list always represents the crowd, and `absorb` is what the pair sweep with deletions does. The process is a measurable random recursion (`DrawChain.draw_run`), which ends because every step leaves the room or the search with a probability bounded below for each of the finitely many sizes (`C106_law`), or by C105 (`C106_bounded`, `C106_cube_bounded`, `C106_cyl_bounded`) |
| C107 | tests/large_n_simulation.rs (`largeNRun`, and the whole program `largeNProgram` in `Model/LargeN`), in any system with `Room` and `Walls` and an exponential clock | the process of C106 with the turns of the schedule (`expTurns`); since every step is at least the smallest one, the clock ends and so does the process (`clock_ends`); the program simulates it (`loop_run` with the clock of C13, after `renewEach` has drawn the places); the same function of the generator works for all teams, so C68 (no memory) makes the ensembles independent (`sum_reports`); the probability of a mean is that of `num` independent successes |
| C108 | examples/mfpt_exp.rs (`expRun`, `expLoop` from `expStart`), in any system with `Room` and `Walls` and an exponential clock | a Markov chain on (turn, next searcher, ending; positions at the beginning of the turn; positions) (`Spec/PushLaw`: `pushMove`, `pushLaw`); every step uses the forces of the beginning of the turn; the clock ends, so the chain does (`push_ends`), and its outcome is independent of the rest of the random numbers (`end_process`); the program simulates the chain: the buffers after the pair sweep are the forces (`push_forces`, from the pair sums of C58), then sweep, turn, loop (`push_sweep`, `push_turn`, `push_loop`); the ensembles share lists and buffers but leave no trace (C70), so the outcomes are independent; in a ball no step fails (C70_ball_all_lines), hence no outcome `tooFar` |
| C109 | the programs of tests/random_vec.rs (text of the point files) and of tests/random_histogram.rs (data, bins, curve; not the plotting library) | A for the texts and data; B for disk, bins, clamping; C for the order of the bins; laws by `Samples` and induction on the number of lines; the curve by the midpoint rule with the second derivative of the bell curve bounded by 1 |
| C110 | mergeRun, indepRun, mergeStep, walkStep on library systems | A for the programs (C110_not_met, C110_same_program), C for points with rounding, B for the laws; lockstep of the two agent loops (agentSweep_lockstep_ok); a pair loop whose record of merges stays empty only moves cursors (pairSweep_quiet); uniqueness of what a program yields |
| C111 | indepRun, ensembleMean | B; mean as sum of tail probabilities (lintegral of an indicator series), tails of the first of n are n-th powers (C104_bounded), strong law (means_of_runs), dominated convergence of the series (Tannery), smallest possible number of steps |
| C112 | listRun, expLoop, listStart, ConstStep.convertFrom | B; the limited search as a measure preserving map (side_limited, from the queue of independent searches of C104), lockstep of the list program with it (listRun_says, C85), strong law for the lines (runs_law), comparison of the integrals with the mean of C111 |
| C113 | expRun, largeNRun, expStart, pushLaw, mergeLaw | B; images of processes (endLaw_image) reduce both to walkers that take turns; after m steps the walkers under way are a product measure (turn_iterate), the masses of all outcomes follow in closed form and equal those of a race (firstEnd_mass) |
| C114 | the programs of C106–C108 and C113 as random processes | a set of states is reached with positive probability if it is reached from a reached set by a step of positive probability (Tonelli); searchers may stay in one small ball for any number of turns, and jump from there into the target (`push_hits`: a normal step, whatever the force, hits any ball within the limit); a place within the limit of the target exists on a segment from outside to inside by connectedness (`border`); for merging searchers the invariant is the state of the turn only, since any ball is hit from anywhere |
| C115 | the programs of C77, C101, C102 and C104 as random processes | by induction on the turn the walkers that are still searching are a measure that is not zero (a normal step from anywhere hits a ball in the room outside the target), and from any such measure a step leads into the target, or too far, with positive probability; so every outcome of the single search is possible (`C115_turns`). The programs' laws then give what they may report: the outcomes that lead to a report are exhibited (all searchers end in turn `k`; the first takes `k - (n-1)` turns and the others one; the lines followed by failures), and what no outcome of positive probability leads to is excluded. |
| C116 | the programs of C101, C102 and C108 in a `SafeRoom`, any arithmetic | one turn of every program keeps the invariant "all searchers of the list are in the room, with the program's diffusion coefficient, the buffer has the right dimension" and does not fail (`Lemmas/SafeBundled`, `Lemmas/SafeExp`; the list refined to slots as in C01); placing searchers again restores it, whatever was removed, as `connect_all` makes everyone live. The limit of mfpt_exp makes displacements at most as long as the limit, in double precision at most 2.02 times (the norm by C90, the quotients by error bounds). |
| C117 | the programs of C66, C101, C102 over the reals with a rounding after every operation (`RF R`) | the lock-step proofs of C101 need only that `0 + x y + 0 = x y`, which holds with every rounding (`Lemmas/Neutral`); giving up: the times are monotone since rounding is; the clock stands still at 2^54 dt (`double_absorbs`, C65). |
| C118 | the programs of C117, over doubles, and their ensembles (`ensembleMean`); `Spec/TurnCounts.lean` says how many turns searches take | the time of k turns is k dt (1 ± u)^k by induction; a left-to-right sum of n terms is the exact one times (1 ± u)^n (`double_sum_bounds`, C97); one more rounding for the division; (1 ± u)^N against 1 ± 2Nu by Bernoulli's inequality. That the times are those of turns: C66/C67, the minimum by induction along `minLoop`. For large_n_simulation: `C68_every_ensemble` along the ensembles, the clock's call numbers from the loop, its times from C93. |
| C119 | the three systems, the target, all programs (C69, C76-C78, C92, C102, C107, C108, C112), over ℝ; `Spec/Units.lean` says what the same system, target, agent, clock is in other units | every operation commutes with the change of units (norms, walls, draws, forces, limits are homogeneous, comparisons keep their answer), then loops and sweeps by induction; `minLoop` keeps `min(x', time·MAX) = min(time·x, MAX)`; the merged walker's coefficient by a second change of units with `len = √time` |
| C120 | examples/mfpt_exp.rs (C58, C70), any arithmetic and double precision; `Spec/ExpTurns.lean` says what one search is | C70 reduces the program to fresh ensembles, C58 says where the agents are after every turn (`C58_ended` for the searches that find nothing), the clock's entries are those of C93; `.skip(1)` shifts them by one |
| C121 | the programs of C77 and C100 for two targets; `Spec/Symmetry.lean` says what images of each other and the same chances are | a map that carries one search into the other, almost surely, carries its distribution (`searchLaw_map`); reflections in planes (Mathlib) and signed permutations keep volume and steps and commute with the walls; a shift of a periodic cube commutes with its walls except on the ends, a null set for walkers with a density |
| C122 | the programs of C106, C107 and C108 for two targets; `Spec/SymmetryCrowds.lean` lists them | the outcome of a process is that of its image when the image of the numbers has the same distribution (`endLaw_symm`); a linear map that keeps lengths, walls and rooms, applied to all searchers at once, commutes with a merge step (distances between searchers are kept) and with a push step (forces and shortened steps are carried along) |
| C123 | the loops over time of all search programs after the searchers are placed, for two targets on the same random numbers; `Spec/LargerTarget.lean` | a sweep with the covering target finds it or does exactly what the sweep with the other one does (induction over the sweep); so do merge, push and list turns; induction over the turns; the order of the clocks' times comes from C12 and, for `time += dt`, from the monotone rounding |
| C124 | two clocks that differ by `set_tmax`, any loop body on them (`searchLoop`); `Spec/TimeLimit.lean` | the two clocks go in step until one ends (a relation kept by `next`), then stay ended (C12) while the other one's times lie beyond the limit; a search reads its clock only through what `next` returns; `.skip(1)` and `into_diff` keep the relation |

Properties whose English claim contains "FALSE" are proved in the form that holds, with the counterexample as a
theorem.  No property is left partial at the moment; a theorem with the suffix `_partial` would mark one.

## 5. Findings: where the code does not do what a user would expect

All are theorems or examples (the property in parentheses says where).

*Lists.*  A pair sweep during which the upcoming first member, or the last slot as second member, is deleted yields a
self pair or skips pairs (C07).  Unguarded merges (with itself, dead slots) do not conserve size (C08).  An element
pushed after the last slot was handed out is missed by the running sweep (C04).

*Stopped runs.*  A run stopped while it writes a line leaves a number without its last digits: the analysis takes it for a result
(`n` for `n / 10`), or panics if the rest is no number (a lone `-`, `1e`), and then no group of the directory is analysed.  A run
stopped while it writes its header may have the same effect.  Starting a run again empties its file first.  A run stopped
before its first result gives a line of NaN in the table of the time analysis (C98).

*Clocks.*  `set_inc` with `length` 1 gives the ratio 0.5, steps shrink (C18); `convert_from` accepts a step of 0, the clock
never ends (C14); NaN parameters are accepted (C17); in double precision a clock with a limit of 2^55 steps never
ends (C65).

*Domains.*  NaN coordinates count as inside (C19).  A refused move leaves the particle displaced (C25), wrong dimensions
are reported after the position was changed (C24).  `random_pos_to_vec` of a cylinder leaves the cylinder (C26), so
`new_uniform` may place agents outside (C37).  `position_out_of_system` of a cylinder with `d = dim` may be inside (C27).
`check_bc_first_order` throws grazing moves out (C61).  `check_bc_exact` refuses arbitrarily short tangential moves, which `check_bc` accepts, and the grids of moves in
`tests/boundary_cond.rs` on which the three rules are compared or stepped through never meet the boundary (C97).  `convert_from` of the cylinder accepts radius 0; those of circle and cube
accept any system type (C60).  The rejection loops need not end for an unlucky generator (C26).

*Agents.*  Coincident agents give NaN (C36).  A merge forgets the initial diffusion coefficient; for Lévy agents it
reports an error after the size was changed (C38).  Agents made by `convert_from` with a uniform start panic on
displacement until renewed; renewing leaves the interaction strength of the type tag stale (C40).  `renew_uniform` of a merging
Lévy agent always ends with `FeatureNotProvided`, after it has changed place and size (C79).  `renew_uniform` of a merging
Brownian agent sets the diffusion constant to 1 whatever it was made with, so in tests/large_n_simulation.rs it has no effect;
a target found in the first turn is reported at time 0, and every time is that before the step (C107).  Targets accept any
radius (C33).  `nonstandard` random vectors are added, not written (C34).

*Text.*  `Position::from_str` never fails (C32).  Blank text and several short forms panic the type parsers, `"7"` parses
as a cylinder (C41).  Cylinders, mixed boundaries and paths with a colon can never be read back from a result file;
names in configuration blocks are not checked (C42).  Simulations with a total of 4 or 5 arguments are shadowed by
analyses; the announced 4-word call of the vector analysis is always refused (C43).  All syntax errors compare
equal (C44).

A position printed with a width is read back with zeros (C76).  The help of the vector analysis names six words, which are
never handed to it (C80).  The help of merging agents announces `D ~ n^alpha`, the code uses `n^(-alpha)` (C80_texts, C38).
`LennardJones(5)xyz` is read like `LennardJones(5)`, opening and closing brackets are interchangeable, and the dimension of a
cylinder or of a mixed boundary may follow any three bytes (C81).

*Statistics.*  With bins given by number a sample at the maximum panics; a ratio below 1 gives no bins (C45).  The bin sizes computed for a window that
ends below 1e-15 are negative, and the analysis then refuses its own bins; a bin size of 0 is accepted and asks for 2^64 - 1
bins (C82).  `draw` twice
divides again (C48).  `clear` of an unallocated analysis, then `draw`, panics; `clear` of a process analysis keeps the total
(C49).  Empty process bins are NaN (C50).  Thin densities, tail bins and non-positive process averages are never
exported (C55).  The exports of a vector or process analysis whose bins were never set panic, those of a vector analysis without
variables never end (C55_new_panics, C55_new_endless).

*Result files.*  Diffusion coefficient, initial positions, boundary type, target position, ensemble count and seed are not
part of a dataset: such runs share group and file name (C51, C56).  Parameters above about 1.8e9 have equal hashes; a
negative value collides with the positive one 1e-10 larger (C51).  `simulation!` names a field that does not exist for two
components (C51).  A foreign file whose second line is `name: text` can end the whole analysis in a panic (C51).  An analysis
of several values made for 0 values depends on the order of the files when one has an empty line (C51).  A missing
data directory is created silently, with an empty table (C62).  The table is written when the program ends: killed before that it
leaves an empty one, and a write that fails then is not reported; a result of a group as long as the buffer (8 KiB) may be
cut in the middle without an error (C103).  The last three columns of the summary of first-passage
and process analyses are labelled in the wrong order (C63).  An exported 0 of `mfpt_exp` means that the clock ended first
(C58).

*Test programs.*  The free-diffusion test of single_ptl_rts.rs as shipped always ends with `InvalidDimension`, because the
default position has no coordinates (C66).  large_n_simulation.rs reports the time at the beginning of the last step, 0
if the target is found in the first one; mfpt_exp.rs reports the simulated time minus the last step plus the dropped
first one (C69).  A strong attraction makes the hash of the parameters negative, and then
all sets of a simulation (`idx_set`) run with the same seed (C71).  `Position<i32>::distance` overflows as soon as one
coordinate differs by more than 46340, although the distance itself would fit (C29).  `test_sequence` holds for its seed only by luck: with
others a normal number takes several words, and the uniform numbers after it are different ones (C85).
With ideal normal numbers, `TooLargeTimeStep` stops every long enough series of ensembles (C77).  The crate's normal numbers
end at 13.73, and this alone makes the searches of its tests free of failures (C86).
In `f64` a box refuses some moves to exactly 3L and accepts some beyond it (C87_edge); short of that edge, rounding only enters
through the sum of position and displacement (C87).
The ball of `f64` refuses some moves that end just outside the sphere: the mirrored point is rounded to the outside again and the
answer is TooLargeTimeStep, although exact arithmetic accepts everything up to 3R (C90_edge).  A run can therefore stop with an
error for no physical reason.  Away from a shell of `10(d+5)/2^53` radii around R and 3R the answers agree (C90_accepts).
C92_disc_fails is such a run: a search in a disc of radius 13 that exact arithmetic never stops ends with TooLargeTimeStep
in its second step.  Boxes do not have this fault (C92_searchers).
In `f64` the spread reported for equal samples can be the root of a negative number, i.e. `NaN` (C88_negative_variance: three samples
`1 - 2^-53`).
In `f64` an exponential clock without limit, or with one of 2^55 steps or more, stands still after 2^54 steps and never ends (C93).

*Derived code.*  Data sets that are `==` may be ordered (`<`): equality ignores the simulation part, the derived order does not
(C96).  A cleared argument structure of a constant clock is accepted and makes a clock that returns 0 for ever; a cleared target
cannot be printed; the type of a cleared cylinder is that of a sphere (C95).

*Distributions.*  `random_pos_to_vec` of a cylinder with `m` long directions, which all agents use, is uniform on a cylinder of
twice the length: the position is inside the system with probability 2^-m only (C72, C73).  `random_pos` is uniform on the
cylinder itself.
Every step of a Brownian searcher may be too large, so a run fails with positive probability `1 - q`, an ensemble of `n` runs
succeeds with probability `q^n`, and almost surely all large enough ensembles end with `TooLargeTimeStep` (C77); with the
shipped numbers `1 - q` is at most `4 exp(-5000)` times the mean number of steps.  A reported mean estimates the mean over the
searches that succeed, not over all (C99).  With bounded numbers and small enough steps every search succeeds and the means converge (C100).

*Programs of the test suite.*  tests/arguments.rs writes every first-passage time one `dt` short; a line 0 means "in the first
step" or "never"; the starting position in the arguments is ignored (C101).
tests/test_setup.rs gives up searchers that cannot win: the numbers it writes have the right distribution (C102), but if no
searcher finds the target before `f64::MAX` the line is `f64::MAX` and not an error.
In double precision `f64::MAX` is never reached: the times of tests/test_setup.rs stand still at `2^54 dt` or a little above, so the first
searcher of an ensemble is followed for ever if its search does not end (C117), unlike with exact arithmetic (C102).
With more and more searchers the mean that tests/n_ptl_rts_iterator.rs reports does not go to 0 but to `k₀ dt`, a whole number
of time steps (C111): for large `n` the program measures its own time step.

The means of the lines of tests/arguments.rs do not converge to the mean search time but to a number too small by at least
`dt` plus `(⌊tmax/dt⌋ + 1) dt` times the probability of giving up (C112): the time is the one before the step and a search
that is given up is written as 0, as is one that succeeds at once.

In double precision the means of the programs of the test suite are off by rounding by a relative error of at most
`(steps + n + 1) 2^-52` only (C118), far less than the error of one `dt` of tests/arguments.rs; so rounding is not what makes the means
differ from the times of the search, until the times stand still (C117).
tests/large_n_simulation.rs reports time 0 for a search that ends in its first step, and with ideal normal numbers this, like every other
time of its clock and both errors, has a positive probability; examples/mfpt_exp.rs writes 0 for a search that ran out of time, with
positive probability, however many searchers there are (C114, for systems and targets with a convex part of the room partly in the
target).  In double precision, too, a 0 always means that, and every other line is a time the clock has shown (C120).

Merging ties the model to one choice of units (C119): `size.powf(-alpha)` as a diffusion coefficient, in whatever unit the
others are given.  With centimetres in place of metres the steps of merged walkers are a hundred times too short beside
everything else, and the mean search times of tests/merge_fpt.rs and tests/large_n_simulation.rs are those of another problem.  Even a
user's own `D` is overwritten at the first merge (C38).  All other programs may be run in any unit.

## 6. Wrong programs

`tools/mutate.py` applies the edits of `seeded/m*.json` one at a time to a scratch copy of the committed model, rebuilds, and
logs the theorems that fail in `seeded/LOG.jsonl`.  Survivors led to tightened theorems (field `tightened`).

## 7. Axioms per theorem

<!-- axioms -->
* **none** (7): C01_new, C16_same_times, C41_init_type_empty, C60_target, C80_analysis_names, C80_analysis_texts, C95_clear_is_new
* **propext** (19): C08_unguarded_merges_do_not_conserve, C16_const_increments, C34_nonstandard_adds, C38_levy_error_after_change, C40_classification, C42_truncated, C43_wrong_count_code, C43_fixed, C44_exactly_one, C44_equivalence, C46_two_goes, C56_same_type, C58_prepare_failure, C60_independent, C60_merging, C98_cut_between_lines, C98_restart_empties, C109_data, C109_file
* **Quot.sound, propext** (66): C07_self_pair, C07_missed_pair_first_member, C07_missed_pair_last_slot, C19_accepted_is_inside, C19_exact_and_first_order, C19_inside_has_dimension, C24_inclusion_dimension, C24_to_vec_dimension, C26_sphere_to_vec, C29_defined_iff_same_dim, C29_distance_is_norm_of_difference, C30_add_sub_coordinatewise, C30_clear, C31_parse_printed, C31_display_roundtrip, C32_garbage_becomes_default, C33_dimension, C36_dimension_errors, C37_renew_uniform, C37_systems_outside_dim, C38_history, C38_size_is_one_plus_sum, C40_convert_from, C40_uniform_converted_not_ready, C40_renew_leaves_interaction_stale, C41_agent_type, C41_target_type, C41_move_type_panics_iff, C41_time_type_panics_iff, C43_wrong_count, C44_tests, C44_eq_iff, C44_constructors, C46_vector_arity, C49_clear, C49_clear_unallocated, C55_time_rows_reach, C60_exponential, C60_lennard_jones, C60_new, C63_title_runs_together, C66_first_passage, C66_wrong_buffer_refused, C66_no_searcher, C66_shipped_free_diffusion_fails, C69_steps_made, C71_user_seed, C76_index, C76_slices, C76_padded_not_read_back, C79_systems, C79_new_uniform, C79_renew_uniform, C80_overview, C81_position, C98_file_on_disk, C98_finished_ensembles_kept, C98_last_line_feed, C98_cut_number, C98_stopped_in_header, C107_errors, C109_vectors, C109_readable, C123_same_centre, C123_searches, C123_within
* **Classical.choice, Quot.sound, propext** (588): C01_refines_slots, C01_never_panics, C01_sweep_is_live_slots, C01_live_sorted, C01_del_iff_live, C01_contents, C01_views_agree, C02_links_consistent, C03_sweep_under_deletion, C03_each_survivor_once, C04_push_visited, C04_push_after_last_is_missed, C05_pair_sweep, C05_each_pair_once, C05_views_agree, C06_merging_sweep, C06_each_surviving_pair_once, C07_pairs_are_live, C07_gentle_deletions, C07_gentle_each_pair_once, C08_agents, C08_merges_conserve_total, C08_merge_adds_sizes, C09_connect_all, C09_all_live_and_idempotent, C10_dead_stays_dead, C11_kth_call, C11_item_count, C11_no_limit, C11_negative_limit, C12_const_clock, C12_exp_clock, C12_starts_at_zero, C13_schedule, C13_steps, C13_new_ratio, C14_const_terminates, C14_exp_terminates, C14_exp_terminates_ratio, C14_zero_step_never_ends, C14_zero_exp_step_never_ends, C14_set_inc_can_make_it_endless, C14_rounding_can_stall, C15_const_renew, C15_exp_renew, C16_exp_increments, C16_first, C17_constructors, C17_setters_reject, C17_set_tmax_effect, C17_nan_accepted, C18_ratio, C18_short_blocks, C18_claim_false, C19_inclusion_meaning, C19_nan_is_inside, C20_cube_image, C20_images, C21_sphere_image, C22_cylinder_image, C23_inside_is_addition, C23_outside_is_not_addition, C24_check_bc_dimension, C25_claim_false, C25_rejected_is_outside, C26_cube, C26_cube_rounded, C26_sphere, C26_cylinder, C26_cylinder_rounded, C26_cylinder_to_vec_claim_false, C26_cylinder_to_vec_bound, C26_sphere_may_loop, C27_cube_and_sphere, C27_cylinder_iff, C27_cylinder_claim_false, C28_exact_reflection, C29_euclidean, C29_metric, C29_cauchy_schwarz, C29_norm, C29_symmetric_under_rounding, C29_taxi, C29_lattice_distance, C30_in_place_agree, C30_in_place_unequal, C30_add_then_sub, C31_usize_faithful, C32_never_rejects, C33_open_ball, C33_degenerate, C34_standard, C34_uniform_range, C34_consecutive, C35_exponential, C35_lennard_jones, C35_signs, C36_independent, C36_merging, C36_exponential, C36_lennard_jones, C36_coincident, C37_new_uniform, C37_systems_draw_inside, C37_box_draws_inside_rounded, C37_cylinder_claim_false, C38_coefficient_forgets_D0, C39_random_move, C39_variants_agree, C40_new, C41_move_type, C41_init_type, C41_init_type_failures, C41_interact_type, C41_interact_type_panics_iff, C41_system_type, C41_system_type_zero, C41_system_type_panics_iff, C41_boundary_cond, C41_boundary_cond_panics_iff, C41_time_type, C41_time_type_short, C42_names_not_checked, C42_reads_back, C42_colon_never_reads_back, C42_systems, C42_targets, C42_agents, C42_clocks, C42_simulations, C42_cylinder_and_mixed_never, C42_colon_in_path_never, C42_consumes, C42_file, C43_time_words, C43_vec_words, C43_time_words_reach, C43_vec_words_never, C43_fixed_words, C43_reads_words, C43_panics_iff, C43_counts, C43_setup_simulates, C43_setup_analyzes, C43_setup_refuses, C43_setup_panics, C43_shadowed, C43_crate_not_shadowed, C43_info_order, C44_syntax_errors_indistinguishable, C44_display_injective, C44_display_message, C44_texts, C45_in_range, C45_rounded, C45_by_count, C45_num_bin_panics, C45_ratio_below_one_panics, C45_default, C46_counts, C46_order, C46_vector, C46_vector_exact, C47_densities, C48_mean_stddev, C48_draw_twice, C49_process_clear, C49_process_claim_false, C49_clear_vector, C50_process, C50_empty_bin_nan, C51_foreign_file_fatal, C51_groups, C51_succeeds_iff, C51_word_nonneg, C51_word_neg, C51_same_word_iff, C51_separates, C51_separates_nat, C51_saturates, C51_sign_collision, C51_sign, C51_equal_iff, C51_sim_ignored, C51_equal_iff_values, C51_not_recorded, C51_not_recorded_interacting, C51_names_exist, C51_names_missing, C51_pick_names, C51_pick_values, C51_time_group, C51_file_order, C51_from_file, C51_file_order_times, C51_file_order_rows, C51_file_order_processes, C51_zero_columns_order, C52_every_step, C52_steps_end, C53_pair_forces, C53_missing_buffer, C53_minus_gradient, C54_clear_touches_live_only, C55_time_rows, C55_time_log_rows, C55_time_rows_dropped, C55_process_rows, C55_vector_rows, C55_vector_reach, C55_process_tail_dropped, C55_new_time, C55_new_time_zero, C55_new_panics, C55_new_endless, C56_result_file_injective, C56_group_file_ignores_simulation, C56_group_file_injective, C56_group_members_may_differ, C56_natFmt_underscoreless, C57_merging, C57_independent, C58_interacting, C58_ended, C58_ball_never_fails, C58_ball_exports, C59_sphere, C59_sphere_exact, C59_cube, C59_cylinder, C60_cube, C60_cube_convert, C60_sphere, C60_cylinder, C60_cylinder_convert, C60_zero_radius, C60_cube_never_aborts, C60_sphere_never_aborts, C60_cylinder_never_aborts, C61_tangent_plane_rule, C61_agrees_to_first_order, C61_grazing_moves_thrown_out, C62_fresh_directory, C62_directory_found, C62_writes_inside, C62_overwrites_nothing, C62_directories_ignored, C62_missing_directory, C62_one_file_each, C63_time_line, C63_process_line, C63_vector_line, C63_title, C63_table, C63_time_table, C63_process_table, C63_vector_table, C64_time_results, C65_drift, C65_ends, C65_stands_still, C65_never_ends, C66_time_is_turns, C66_buffer_makes_no_difference, C66_fastest, C66_free_diffusion, C67_mean, C67_mean_is_average, C67_first_failure, C67_independent_run, C67_merging_run, C68_no_memory, C68_every_ensemble, C69_counting_clock, C69_large_n, C69_mfpt_exp, C70_no_memory, C70_lines, C70_program, C70_every_ensemble, C70_ball_all_lines, C70_main_limit, C71_seed_value, C71_sets_apart, C71_negative_hash, C71_collision, C71_double_sets_apart, C72_probability, C72_cube, C72_ball, C72_cylinder, C72_cylinder_outside, C73_systems, C73_new, C73_renew, C73_many, C73_ensemble, C74_move, C74_moments, C74_walk, C74_diffusion_mean, C74_diffusion_limit, C75_accepts, C75_blames, C75_count, C75_variables, C75_not_visible, C76_extend, C76_length_scale, C77_search, C77_mean, C77_outcomes, C77_failure_bound, C77_ensemble, C77_success, C77_large_ensembles_fail, C77_systems, C77_walls, C77_safe_steps, C78_process_results, C78_vector_results, C80_help, C80_shown, C80_names, C80_file_names, C80_vector_analysis, C80_wanted, C80_texts, C80_examples, C81_words, C81_usize, C81_move_type, C81_init_type, C81_system_type, C81_boundary_cond, C81_time_type, C81_interact_type, C81_errors, C82_by_size, C82_by_number, C82_tiny_window, C82_zero_bin_size, C83_time_rows, C83_process_rows, C83_vector_rows, C83_summary_name, C84_period, C84_seeds, C84_values, C84_equal_chances, C84_values_double, C84_open_interval, C85_bounded, C85_returns, C85_round, C85_words, C85_sequence_fails, C86_rooms, C86_searchers, C86_merging, C86_generator, C86_large_n, C86_tests, C87_cube, C87_trajectory, C87_short_moves, C87_edge, C88_no_sample_lost, C88_bins_in_order, C88_bin_edges, C88_mean, C88_negative_variance, C89_block_ok, C89_block_fails, C89_file_ok, C89_file_fails, C90_norm, C90_distance, C90_inclusion, C90_find, C90_ball, C90_trajectory, C90_accepts, C90_edge, C91_bounded, C91_returns, C91_round, C92_room, C92_searchers, C92_merging, C92_large_n, C92_generator, C92_crate, C92_disc_fails, C93_schedule, C93_ends, C93_never_ends, C93_stands_still, C93_simulation_clock, C94_product, C94_cylinder, C94_accepts, C94_trajectory, C95_cleared, C95_default_words, C95_cleared_reads_back, C95_cleared_converted, C95_cleared_clock_frozen, C96_positions, C96_datasets, C96_contract_claim_false, C96_equal_is_eq, C97_radial_vs_exact, C97_bound_is_sharp, C97_radial_vs_first_order, C97_exact_accepts_iff, C97_short_moves_refused, C97_comparison_is_vacuous, C97_exact_accepts_short, C97_exact_accepts_sharp, C97_realization, C97_exact_checks, C98_data_cut, C98_cut_number_stops, C98_header_cut, C98_header_cut_stops, C98_header_complete, C98_stopped_run, C98_any_cut_happens, C98_digit_lost, C98_wrong_result, C98_empty_group_nan, C99_moments, C99_mean_accuracy, C99_fastest, C100_search, C100_found, C100_moments, C100_mean, C100_accuracy, C100_fastest, C100_systems, C100_cut_normal, C101_one_step_less, C101_lines, C101_zero, C101_start_ignored, C101_seed, C102_searcher, C102_fastest, C102_law, C102_reliable, C102_same_law, C103_rows, C103_left, C103_reported, C103_complete, C103_killed, C103_lost_table, C103_reading_fails, C103_reading_reported, C103_cut_row, C104_first, C104_law, C104_reliable, C104_bounded, C104_same_law, C105_every_start, C105_tail, C105_found, C105_ensembles, C105_cube_every_start, C105_cube_tail, C105_cube_found, C105_cube_ensembles, C105_cyl_every_start, C105_cyl_tail, C105_cyl_found, C105_cyl_ensembles, C106_ensembles, C106_law, C106_outcomes, C106_bounded, C106_cube_bounded, C106_cyl_bounded, C107_law, C107_ensembles, C107_program, C107_fails, C108_law, C108_short_clock, C108_program, C108_ball, C108_no_zeros, C108_limit, C108_forces, C109_disk_twins, C109_disk, C109_vector_laws, C109_bins, C109_bins_rounded, C109_one_bin, C109_clamped, C109_mean_count, C109_curve, C109_histogram, C110_not_met, C110_same_program, C110_points, C110_law, C110_processes, C111_mean, C111_one, C111_gain, C111_limit, C111_sooner, C112_program, C112_zero, C112_means, C113_push, C113_merge, C113_exp, C113_zeros, C113_times, C113_points, C114_outcomes, C114_numbers, C114_lines, C114_zeros, C114_merging, C114_merge_fpt, C114_large_n, C114_rooms, C115_turns, C115_search, C115_mean, C115_fastest, C115_pruned, C115_taking_turns, C115_files, C116_bundled, C116_mfpt_exp, C116_double, C116_double_mfpt_exp, C116_crate, C116_crate_mfpt_exp, C117_buffer, C117_one_tick_before, C117_clock_ends, C117_searcher, C117_fastest, C117_times_stand_still, C117_never_given_up, C117_first_to_its_end, C118_single, C118_fastest, C118_list, C118_merging, C118_large, C118_large_program, C119_operations, C119_single, C119_buffered, C119_fastest, C119_list, C119_arguments, C119_mfpt_exp, C119_setup, C119_merging, C119_merging_fails, C119_law, C120_turns, C120_double, C120_box, C121_systems, C121_bounded, C121_periodic, C122_systems, C122_program, C123_same_centre_rounded, C123_ball_in_ball, C123_counting, C123_exp_clock, C123_skip, C123_times, C123_single, C124_search, C124_programs
<!-- end axioms -->
