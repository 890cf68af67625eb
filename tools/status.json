{
 "C01": {
  "note": "Every history of calls; refinement to a machine on slot sets, contents included."
 },
 "C02": {
  "note": "Chain of next from head and of prev from tail, after every history."
 },
 "C03": {
  "note": "Any deletions between the calls of one sweep."
 },
 "C04": {
  "note": "The full claim is false; the exact condition is proved and the counterexample is a theorem."
 },
 "C05": {
  "note": "Every reachable list."
 },
 "C06": {
  "note": "Every pattern of merges of the second member."
 },
 "C07": {
  "note": "Safety without proviso; completeness with the proviso; three theorems show the proviso is needed."
 },
 "C08": {
  "note": "For every agent with sizes; C08_agents instantiates the crate's merging agent."
 },
 "C12": {
  "note": "Tier C: every monotone rounding, so IEEE doubles (Rounding.double) without overflow."
 },
 "C14": {
  "note": "Exact arithmetic; see C65 for doubles."
 },
 "C18": {
  "note": "Claim false as stated; exact ratio and counterexample proved."
 },
 "C19": {
  "note": "Tier A: any arithmetic, NaN included."
 },
 "C23": {
  "note": "Tier A."
 },
 "C25": {
  "note": "Claim false; what holds is proved."
 },
 "C26": {
  "note": "Exact arithmetic and, for cube and cylinder, every monotone rounding; false for the cylinder's to_vec (theorem)."
 },
 "C27": {
  "note": "Exact characterisation for cylinders."
 },
 "C32": {
  "note": "Claim false; exact behaviour proved."
 },
 "C35": {
  "note": "Derivatives in the sense of Mathlib's HasDerivAt."
 },
 "C37": {
  "note": "False for cylinders (theorem)."
 },
 "C42": {
  "note": "Round trip under hypotheses on the number format, with instances."
 },
 "C49": {
  "note": "False for ProcessAnalysis (theorem)."
 },
 "C51": {
  "note": "The hasher is a parameter dh; statements hold for hashers that separate the words at hand."
 },
 "C58": {
  "note": "Tier A for the invariants, exact arithmetic for \"never fails in a ball\"."
 },
 "C64": {
  "note": "First-passage analysis; exact arithmetic for the numbers, any number format that reads back what it writes."
 },
 "C65": {
  "note": "IEEE rounding to nearest even with 53 bits and gradual underflow; overflow not modelled."
 },
 "C78": {
  "note": "Vector and process analyses; exact arithmetic for the numbers, any number format that reads back what it writes."
 },
 "C87": {
  "note": "IEEE rounding to nearest even with 53 bits and gradual underflow; overflow not modelled."
 },
 "C88": {
  "note": "IEEE rounding to nearest even with 53 bits and gradual underflow; overflow not modelled; log2 is taken to be correctly rounded."
 },
 "C90": {
  "note": "IEEE rounding to nearest even with 53 bits and gradual underflow; overflow not modelled; dimension at most 2^26, radius at least 2^-440."
 },
 "C91": {
  "note": "rand_distr's ziggurat over Double with tables as parameters (hypotheses DoubleTables, met by doubleTables); ln is the correctly rounded logarithm; overflow not modelled."
 },
 "C92": {
  "note": "Boxes with half side at least 2^-440, overflow not modelled; powf correctly rounded. The disc is a counterexample (C92_disc_fails)."
 },
 "C93": {
  "note": "Tier C at Rounding.double (round to nearest even, 53 bits, gradual underflow, no overflow)."
 },
 "C94": {
  "note": "C94_product for every arithmetic in which a number is above L or at most L; the rest at Rounding.double (round to nearest even, 53 bits, gradual underflow, no overflow)."
 },
 "C95": {
  "note": "Any arithmetic and number format; the frozen clock in exact arithmetic."
 },
 "C96": {
  "note": "Every arithmetic without NaN (exact, rounded). The contract of PartialOrd is refuted (C96_contract_claim_false) for every pair of set indices."
 },
 "C97": {
  "note": "Exact arithmetic. C97_exact_accepts_short/_sharp: which moves check_bc_exact accepts for certain; C97_exact_checks, C97_realization: the test programs."
 },
 "C98": {
  "note": "The buffer is that of the standard library's BufWriter (modelled in Model/OutFile for every capacity). Any arithmetic; NaN for empty groups in XF. C98_stopped_run and C98_stopped_in_header put the parts together: from the calls made to what the analysis sees."
 },
 "C99": {
  "note": "Exact arithmetic, ideal generator (IdealRng), the programs of tests/rts_n_searcher.rs and tests/single_ptl_rts.rs."
 },
 "C100": {
  "note": "Exact arithmetic; IndepRng with any distribution of the normal numbers that satisfies BoundedSpread; C100_cut_normal shows that normal numbers cut at any b > 0 do. The sequel of C77, where unbounded normal numbers make all large ensembles fail."
 },
 "C101": {
  "note": "Exact arithmetic (the two programs add up the time in a different order, so in double precision they differ by rounding as well)."
 },
 "C102": {
  "note": "Exact arithmetic; the laws for ideal generators (C77) and for generators with bounded normal numbers (C100)."
 },
 "C103": {
  "note": "For results shorter than the buffer, except C103_cut_row which is about longer ones. create_dir_all is one call; println! and power failures are not modelled."
 },
 "C104": {
  "note": "Exact arithmetic; an ideal generator (C77), and generators with bounded normal numbers (C100) for C104_same_law."
 },
 "C105": {
  "note": "Exact arithmetic, balls (the room of tests/merge_fpt.rs) cubes with every boundary condition and cylinders; bounded normal numbers (C100), without which steps can be too large. C105_every_start, C105_cube_every_start and C105_cyl_every_start are about the search from given starts, the others about the whole program."
 },
 "C106": {
  "note": "Exact arithmetic; generators with independent numbers. C106_law for any system with bounded room and an ideal generator, C106_bounded (balls), C106_cube_bounded (cubes) and C106_cyl_bounded (cylinders) for bounded normal numbers. C106_ensembles for ensembles."
 },
 "C107": {
  "note": "Exact arithmetic; generators with independent numbers. C107_law for one search on a shared list and clock, C107_ensembles and C107_program for ensembles, C107_fails for balls with ideal normal numbers. The numbers of the process have any distribution. C107_errors: errors while the searchers are made are reported (any arithmetic)."
 },
 "C108": {
  "note": "Exact arithmetic; generators with independent numbers. C108_law for one ensemble, C108_short_clock for clocks that end at once, C108_program for all lines, C108_ball and C108_no_zeros for balls with ideal normal numbers, C108_limit for the limit the program uses, C108_forces as a check of the process' forces."
 },
 "C109": {
  "note": "The plotting library is not modelled: the data, bins and curve handed to it are. C109_vectors, C109_data, C109_file for any arithmetic; C109_bins_rounded for any monotone rounding; the rest exact arithmetic; laws for ideal generators. The two disk programs agree loop for loop in exact arithmetic only (in floating point they round differently)."
 },
 "C110": {
  "note": "C110_not_met and C110_same_program for any arithmetic; C110_points exact and for any rounding; C110_law and C110_processes exact arithmetic with an ideal generator."
 },
 "C111": {
  "note": "exact arithmetic, bounded independent normal numbers (as C100, C104_same_law)."
 },
 "C112": {
  "note": "exact arithmetic; C112_program and C112_zero for ideal normal numbers, C112_means for bounded independent ones."
 },
 "C113": {
  "note": "exact arithmetic; independent numbers of any distribution, except C113_times (ideal normal numbers, balls)."
 },
 "C114": {
  "note": "Process level: C114_outcomes (mfpt_exp) and C114_merging; program level: C114_numbers, C114_lines, C114_zeros, C114_merge_fpt, C114_large_n; C114_rooms gives the hypotheses on the room for the three systems."
 },
 "C115": {
  "note": "exact arithmetic, ideal generator. C115_turns is about the process, the others about the programs."
 },
 "C116": {
  "note": "The double precision is rounding alone: no overflow and no NaN (two interacting searchers in the same place divide 0 by 0 in f64; the model's quotient is 0). Runs that do not end within the fuel are not considered failures: C116 is about what is reported."
 },
 "C117": {
  "note": "Rounding alone: no overflow, no NaN. In the line of tests/arguments.rs the time x is characterised by x + dt = t as the machine adds. The programs of C108 (mfpt_exp) and C110 (large_n) are not included."
 },
 "C118": {
  "note": "Rounding alone: no overflow, no NaN. Says what a reported mean is; that a mean is reported is C92 and C76-C78 and C107. That large_n_simulation reports the time before the last step is C69."
 },
 "C119": {
  "note": "Exact arithmetic. The generator's state is given: the seeds the bundled programs compute depend on the numbers of the arguments, so the same seed argument gives another generator in other units. The programs that start a minimum at f64::MAX need times below it in both units. Merging needs len^2 = time; what goes wrong otherwise is C119_merging_fails."
 },
 "C120": {
  "note": "C120_turns for any arithmetic, C120_double for any system whose draws are inside, C120_box for boxes, where the program is known not to fail (C116). With the steps dt_0, dt_1, ... of the clock the number after k turns is dt_0 + ... + dt_(k-1), though the moves took dt_1, ..., dt_k (.skip(1))."
 },
 "C121": {
  "note": "C121_systems for ideal normal numbers (all rotations), C121_bounded for bounded symmetric ones (exchanges and reflections of axes), C121_periodic for shifts along periodic directions. SameChances (Spec/Symmetry.lean) quantifies over all sets of results. A target that reaches over a periodic end is cut there, which is why C121_periodic excludes it."
 },
 "C122": {
  "note": "C122_systems for ideal normal numbers in cube, ball and cylinder; SameCrowds (Spec/SymmetryCrowds.lean) lists the programs: ensembles of tests/merge_fpt.rs, one run of tests/large_n_simulation.rs from any team, the lines of examples/mfpt_exp.rs. C122_program is the whole program of tests/large_n_simulation.rs in a ball."
 },
 "C123": {
  "note": "Covers and FoundNoLater are in Spec/LargerTarget.lean; C123_searches is turn by turn in any arithmetic, C123_times and C123_single are the reported times under any monotone rounding, C123_same_centre* and C123_ball_in_ball say which ball targets cover which."
 },
 "C124": {
  "note": "CutOff is in Spec/TimeLimit.lean. C124_search is for any loop body and the three kinds of loops over a clock; C124_programs are the programs that have a limit."
 }
}