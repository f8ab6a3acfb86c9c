# Formal model of potfit — design

Source: `/repo` (potfit, C). Lean project: `/verif/lean` (Lean 4.33.0 + Mathlib).
Property list: `properties.jsonl`; claim status: `MANIFEST.json`; wrong-program log: `seeded/LOG.jsonl`.

## Layout

| directory | content |
|---|---|
| `lean/Verif/Model/*.lean` | the model: one file per source file or subsystem; every definition cites `/repo` file and lines and states its simplifications |
| `lean/Verif/Spec/*.lean` | small specifications written without reference to the model |
| `lean/Verif/Lemmas/*.lean` | helper lemmas |
| `lean/Verif/Props/Cxx*.lean` | the property theorems, with an `example` of satisfiable hypotheses beside each |

## Trusted base

* Lean 4.33.0 kernel; axioms at most `propext`, `Classical.choice`, `Quot.sound` (checked with `#print axioms` for every theorem of `MANIFEST.json`;
  list per theorem in `AXIOMS.md`).
* The reading of `/repo` recorded in the comments of `Verif/Model`. The code is not run.
* `double` is modelled by an ordered field (or `ℝ`): exact arithmetic, no rounding, no overflow, no signed zero.
  Where NaN matters (objective guard, parsed bounds) it is a distinct constructor of a small value type.
* `int` is modelled by `Nat`/`Int` without overflow unless a definition says otherwise.
* C library (`malloc`, `fgets`, `fscanf`, `strtol`), MPI and KIM are parameters with the behaviour stated at their use.
* Undefined behaviour (out-of-range read, use of an uninitialised value) is a distinct outcome
  (`none`/an `ub` constructor) in every model whose property is about it.

## Plan per property

C01 closed formula as `Nat` function; bijection by arithmetic + enumeration of the reader's double loop.
C02 `conf_dist`/`conf_len` over `Nat`/`Int` as in the C text; partition theorem over all N, P.
C03 per-configuration contribution abstracted as a function; sum over blocks = sum over all; gather as block writes.
C04, C08 forward elimination and back substitution as recursions over arrays (functions on `Nat`) in an ordered field; induction on the elimination invariant.
C05, C06 evaluation formulas as written; `HasDerivAt` over `ℝ`; continuity from C04's equations.
C07 induction: the two recurrences coincide on equidistant knots.
C09 loop as recursion with measure `khi - klo`; invariant.
C10 explicit index computation; statement about indices read; negation at `r = end`, partial on `[begin,end)`.
C11 branchwise definition; continuity by limits at both ends.
C12 slot computation of `set_neighbor_slot`; equality with direct evaluation.
C13 reader loops as list-building recursion; characterisation of the index list.
C14 decision logic of the bound clean-up; negation with witness, partial theorem for ordered bounds.
C15 state machine `update`; invariant over all histories.
C16–C19 neighbour-list model of the force routines as folds over an array of forces; algebra and calculus.
C20 two-evaluation model for pair objective (proved), parameter punishments and KIM (refuted with witnesses).
C21 per-entry weights; total over an arbitrary full/half list; negation for SW/Tersoff.
C22 section offsets and allocated length as `Nat` formulas; disjointness or overlap per variant.
C23, C24 real vectors in three dimensions; cell range from the reciprocal vectors.
C25 index enumeration of nested loops.
C26, C27 loops with explicit iteration counters, objective as arbitrary function.
C28 outer/inner loop as a state machine with the line search contract of C26.
C29, C30 annealing loop driven by an arbitrary stream of random numbers.
C31–C33 differential evolution driven by an arbitrary random stream; in-place partition on lists/arrays.
C34 bubble sort and interpolation on lists, out-of-range read explicit.
C35 fold over lines with key/value actions.
C36 registry state machine over all call sequences.
C37 character-list model of the buffer copy.
C38 table as a list; look-up functions; whole-table `decide +kernel` where the quantifier is the table.
C39–C43 real analysis (`HasDerivAt`, limits).
C44 switch with fall-through as list of executed writers.
C45 algebra of EAM energy under gauge maps.
C46, C47 algebra over finite-difference formulas; state machine for sampling.
C48 real power identities.
C49, C50 index loops.
C51 state machine of C28 with an arbitrary solver; invariant of the linear system.
C52 section readers and writers as lists of tokens; round trip.
C53 the angular routines as sums over terms (`Spec/Terms.lean`); every term depends on two bond vectors; the derivative of each term
under any motion equals what the routine adds, summed with the neighbour list of C23 (`Lemmas/Conservative.lean`).
C54 as C53; the embedding energy is one term depending on all vectors to the neighbours (chain rule).
C55 closed form of the crossover loop for an arbitrary stream of random numbers.
C56 invariant of the annealing run under an assumption about ten random numbers in a row; witnesses for the rest.
C57 Lebesgue measure of the set of accepting random numbers.
C58 case distinction over field; C59 sums over images as lists; C60 from C18 with unit weights.
C61 closed form of the sums over neighbours (`Lemmas/Bond`), derivative of the bond order by the chain rule; zeta vanishes identically near
positions without third atoms in range. C62 trigonometric identities for the cutoff, injectivity of the bond order for the disagreements.
C63 every routine adds fixed amounts to the running sums (`Lemmas/Shift`), so that a configuration writes its own entries only
(`Lemmas/FullRun`); the same lemma extends C03 and C20 to these routines (`Props/C03Full`); `Lemmas/OwnEntries` does the same for ADP, two-band EAM, charges
and EAM with charges (`Props/C03More`).
C64 loops of `read_config` as folds of updates with closed forms; slots by C12.
C65 derivative of totals along an arbitrary motion of the neighbour vectors (`Lemmas/HalfMotion.lean`), specialised to strain.
C66 as C65; every entry has a vector, the derivative of the energy with respect to it, from which forces and stresses follow
(`Spec/ForceAdp.lean`); self images need care (`quadrupoleLost`).
C67, C69 as C66 with `Spec/ForceElstat.lean`; the tails are a function of the distance, differentiable with the stored derivative.
C68 closed forms of the loops of one round (`Lemmas/Dipoles.lean`), case distinction at the end of the round; witnesses on the line through
two ions. C69 also differentiates the energy with respect to the dipoles.
C70 the loops append to a list of places (`Spec/ApotLayout.lean`); table, `l` and the index lists are functions of that list.
C71–C73 `Spec/TableOut.lean` says where LAMMPS and IMD look for each value; positions in nested loops are positions in lists of blocks.
The force column (C71) is compared with the slope by the mean value theorem.
C74 loops over `3 natoms` and `6 nconf` entries become double sums over configurations and components (`Lemmas/Errors.lean`); the entries
are known from C18, C60 and C63, or from what one step of a routine leaves behind (`Lemmas/ReportRun.lean`).
C75 lines are given by their first characters and the values `sscanf` finds in them; the specification cuts the file into pieces (header,
atoms) and relates each to one configuration; reader and specification agree for all files.
C76 the loop over the words keeps the invariant that names are set exactly below `fixed`; needs that `atoi` inverts printing.
C77 exact condition on the projections first, then comparison with the geometric one.
C78 invariant: values other than those of free parameters and references are as read; `update_apot_table` then makes them those of the vector (places from C70, optimisers from C28, C29).
C79 the second loop splits into that of C67/C69 and that of the EAM routine; forces are a sum over entries of the vectors of both, whose rates add up.
C80 function by function: equal to the description by algebra, differentiable by composition; the table by induction over distinct names.
C81 each test concerns values that no default before it changes; with C35 the whole start becomes a condition on the lines of the file.
C82 the state machine over bit vectors; seeding sets the exponent bits of every word and the recursion keeps them; the recursion is injective on
the finite set of states; the SSE2 variant by splitting registers into words.
C83 change to polar coordinates turns the uniform measure on the disc into the Gaussian one; a stopping argument for the rejection loop.
C84 the record of the trial steps gives counts and mean; the logarithm is inverted.
C85 the second loop is that of C54 followed by the charges, the third that of C54 with the self energies added in advance.
C86 density sums scale as a whole (pairs and angles); embedding values at resampled nodes; the rest as C45.
C87 second loop split into the loops of the two bands (`EamPots.second`); slope used per entry; derivatives as in C17 and C65.
C88 KIM particles and lists over the images of `Neighbors`; slots of the lookup table as numbers in mixed radix; callback and species codes separate.
C89 KIM parameter file as blocks of tokenised lines; the model is its parameters with a function giving influence distance and cutoffs.
C90 the table is the number of neighbours per place; places are injective in pair and bin below the cutoff.
C91 files as lines of words; a document type gives the lines and the meaning; by induction over potentials and parameters.
C92 broadcasts as statements over the memories of all processes; a list of facts known to agree is carried along; loops over atoms by
induction.
C93 annealing over table and ranges; the state of C29 plus saved ranges, invariant: optimum and saved ranges belong together.
C94 the three nested searches of `hess_bracketing` with fuel, arbitrary objective; end for continuous objectives by uniform continuity.
C95 `ensemble_generation` with the LAPACK calls as arbitrary functions that overwrite the matrix; rows and files as lists.
C96 `calculate_cutoffs` as array loops; spec: largest end of the functions the force routines use; joined with C23 for the lists.
C97 the same reader on characters: `fgets`, `%d`, an arbitrary `%lf`; spec: the lines one by one, seven words per atom, joined with C75.
C98 entries of the limiting and dummy sections after a run of each routine; their squares against the constraint part of the objective.
C99 initialisation of the splines by every force routine over arbitrary old contents, look-up afterwards; for analytic potentials from the parameters to the look-up.
C100 objective of the pair and EAM routines from cell vectors, positions and table = least-squares objective of the infinite crystals (lattice sums without cutoff, their derivatives); joins C96, C23, C99, C17, C65, C18. No new model.
C101 fit of tabulated pair and EAM potentials (annealing, then least squares) ends with splines not worse for the infinite crystals; uniqueness of the interpolating spline; value zero = exact reproduction; joins C28, C29, C99, C100. No new model.
C102 processes as sequences of collective calls with signatures; errors at arbitrary places; new model `Protocol`.
C103 acceptance of KIM models as an equivalence over all support statuses; new model `KimSetup`.
C104 from the two input files to the objective, through a fit and to the potential file written at the end, with pair and EAM tables; joins C01, C44, C52, C75, C96, C99–C101; new model `Setup`.
C105 which analytic potentials and parameters are punished, the value of the penalty, when it is zero or undefined; new model `PunishIndex`.
C106 capstone for analytic pair potentials: value of an evaluation after any history = objective of the infinite crystals for the functions
of the (normalised) parameters + penalties, no memory, fits do not worsen it; new models `ApotEval`, `TablePots`.
C107 keywords of KIM potential files: which global parameters and which cutoff parameter are read (exact characterisations); the program's
own template and result cannot be read; new model `KimKeywords`.
C108 analytic EAM potentials: one evaluation = objective of the infinite crystals for the interpolated functions of the parameters, analytic
outside the sampled ranges, + gauge conditions + penalties; no memory, fits do not worsen it; slopes outside the ranges are difference
quotients; jumps at the ends of the ranges; new model `ApotEvalEam`.
C109 fits with differential evolution (evaluations change vectors in place): tables and analytic pair potentials, start vector kept or lost.
C110 objective of the ADP routine from cell vectors, positions and table = least-squares objective of the infinite crystals (`Spec/CrystalAdp.lean`); joins C66, C96, C99, C100. No new model.
C111 routines with dipoles: any sequence of evaluations in parallel = serially, if the dipoles at the start agree (`Lemmas/DipolesSame`); complements C03, C68. No new model.
C112 objective of the EAM routine with two bands from cell vectors, positions and table = least-squares objective of the infinite crystals (`Spec/CrystalTbeam.lean`); joins C87, C96, C99, C100. No new model.
C113 objectives of Stillinger-Weber, angular and MEAM potentials from cell vectors and positions = least-squares objectives of the infinite crystals with sums over all angles (`Spec/CrystalAngles.lean`, `Lemmas/CrystalFull.lean`); joins C53, C54, C63, C100. No new model.
C114 the same for Tersoff and modified Tersoff potentials with closed formulas for energies and bond orders (`Spec/CrystalTersoff.lean`); joins C61, C63, C100, C113. No new model.
C115 the same for point charges with pair functions and with EAM: screened Coulomb potential shifted to zero at the cutoff as lattice sum (`Spec/CrystalCharges.lean`); joins C40, C67, C79, C96, C100. No new model.
C116 the same for angular potentials with point charges; joins C85, C113, C115. No new model.
C117 the same for pair functions with charges and induced dipoles, at the dipoles found, and these dipoles compared with the field of the infinite crystal (`Spec/CrystalDipoles.lean`); joins C40, C68, C69, C96, C115. No new model.
C118 the same for EAM with charges and induced dipoles; joins C79, C115, C117. No new model.
C119 parameter files for IMD (`Model/ImdParams.lean`): Stillinger-Weber, Tersoff, modified Tersoff, electrostatics; the pointers of the force routines to the same parameters from C49, C50.
C120 control parameters, trial vectors, selection, jump rate and end of differential evolution, for arbitrary random numbers from [0, 1); joins C31, C32, C55. No new model.
C121 tail functions stored with the neighbours (`Model/TailStore.lean`): what the loops of `Model/ForceElstat.lean` take as a function of the distance, for fixed and free `kappa`, in any sequence of evaluations.
C122 maximal changes for tabulated potentials (`Model/MaxChange.lean`): the file, and what it means for the directions of `Model/Powell.lean`; joins C28.
C123 file of local electron densities (`Model/LocalDensity.lean`), EAM, two-band EAM, EAM with electrostatics, ADP; joins C16, C66, C74, C79, C100. MEAM uses the same routine, its densities are not connected with it.
C124 matrix of minimal distances (`Model/MinDist.lean`, with `Model/Ranges.lean` and the neighbour lists of `Model/Neighbors.lean`); joins C23, C64.
C125 intermediate potential of the annealer (`Model/TempFile.lean`, over `Model/Annealing.lean`); joins C29.
C126 intermediate potential of differential evolution (`Model/TempFileEvo.lean`, over `Model/DiffEvo.lean`); joins C33.

Compile-time variants are modelled as separate definitions or a variant parameter, as stated in each file.

## Code modelled

| source (`/repo/src`) | modelled | model file |
|---|---|---|
| `bracket.c`, `brent.c`, `linmin.c` | all | `LineSearch` |
| `powell_lsq.c` | all but printing; LAPACK is a parameter | `Powell` |
| `simann.c` | all | `Annealing`, `AnnealRescale`, `TempFile` |
| `diff_evo.c` | all | `DiffEvo`, `TempFileEvo` |
| `uq.c` | search for the steps, Hessian, Monte-Carlo moves, ensemble with lines and files; not the LAPACK routines themselves, nor the decimals printed, nor `MIN_STEP` | `Uq`, `UqBracket`, `UqEnsemble` |
| `optimize.c`, `potfit.c` | order of optimisers and writing of the potential file; `main`, `error` and `exit_potfit` as sequences of MPI calls | `Finish`, `Protocol` |
| `chempot.c` | all | `Chempot` |
| `elements.c` | all | `Elements` |
| `memory.c` | registry (`Malloc`, `Realloc`, `free_all`), not the freeing of single tables | `Memory` |
| `mpi_utils.c` | distribution of configurations, start-up broadcasts, descriptions of structures, `potsync` | `Mpi`, `Gather`, `Workers` |
| `params.c`, `memory.c` (initial values) | keyword reader, values, defaults, check for completeness | `Params`, `ParamCheck` |
| `utils.c` | `fgets_potfit`, `vec_prod` | `LineReader`, `Neighbors` |
| `config.c` | reader, box, neighbours, angles, slots, minimal distances, `does_contribute`, KIM particles and lists, pair distribution | `ConfigFile`, `ConfigText`, `PairDist`, `MinDist`, `Neighbors`, `KimLists`, `Angles`, `Ranges`, `Splines`, `Sections` |
| `splines.c` | all | `Splines` |
| `force_common.c` | sections, gathering, spline initialisation, choice of the look-up routines | `Sections`, `Gather`, `SplineInit` |
| `force_pair.c`, `force_eam.c`, `force_adp.c`, `force_elstat.c`, `force_eam_elstat.c` | all without, in the last one, `NORESCALE` (does not compile) | `Force`, `ForceEam`, `ForceTbeam`, `ForceAdp`, `ForceElstat`, `ForceEamElstat`, `Objective`, `TablePots`, `ApotEval`, `ApotEvalEam` (one whole evaluation; `apot_gradient` of `functions.c`) |
| `force_stiweb.c`, `force_tersoff.c`, `force_ang.c`, `force_meam.c`, `force_ang_elstat.c` | all | `ThreeBody`, `ForceAngElstat`, `Tersoff`, `Pointers`, `StiwebFunctions`, `ObjectiveFull`, `FullList` |
| `force_kim.c` | `calc_forces`, `update_kim_model`, `get_neigh`; the KIM model is a parameter | `ForceKim`, `KimLists`, `KimParams` |
| `potfit.c` | `read_input_files` for tabulated potentials: order of the readers, cutoffs, neighbour lists, markers of contributing atoms; the file written at the end | `Setup` |
| `kim.c` | selection of the model, support of elements, arguments and callbacks, pointers | `KimSetup`, `KimParams` |
| `potential_input_f5.c` | parameters of the model, cutoffs, global parameters, keyword `KIM_CUTOFF` | `KimParams`, `KimKeywords` |
| `functions.c` | table of functions, parameter checks, cutoff, punishments, electrostatic tails, short-range terms | `Catalogue`, `Apot`, `Tails`, `Objective`, `PunishIndex`, `Cutoffs` |
| `functions_impl.c`, `functions.itm` | all functions | `Catalogue`, `Tails`, `StiwebFunctions`, `Tersoff` |
| `potential_input.c`, `potential_input_f0.c`, `_f3.c`, `_f4.c` | layout, bounds, index lists, tables, cutoffs; text of format 0 as words; maximal changes | `PairIndex`, `TableRead`, `PotFile`, `Apot`, `ApotLayout`, `ApotFile`, `Cutoffs`, `MaxChange` |
| `potential_output.c` | formats 0 (behind the header), 3 and 4 | `ApotFile`, `PotFile` |
| `potential_output_lammps.c`, `potential_output_imd.c` | tables and parameters; of LAMMPS not charges | `TableOut`, `LammpsSw`, `LammpsTersoff`, `ImdParams` |
| `random.c` | all | `Dsfmt`, `Normal` |
| `random_dsfmt.c` | recursion (standard C and SSE2), seeding by array, certification, `genrand_close1_open2`; not `init_gen_rand`, `fill_array_*`, AltiVec, big-endian | `Dsfmt` |
| `rescale.c`, `rescale_meam.c` | all | `Rescale`, `RescaleMeam` |
| `errors.c` | report, force, energy and stress files, local densities, punishments | `Errors`, `LocalDensity`, `Punish` |

## Not modelled

`rand` of the C library.
LAPACK calls, file-system effects, MPI transport, KIM internals, floating-point rounding,
performance. Parsing is modelled from tokens on, except where the property is about characters (C37). Beyond the table: simplifications
are stated at the head of each model file.

## Disagreements between code and property

Each item is a proved negation with a concrete witness; the theorem named `_partial` beside it states what does hold.

* C10 `splint*` read one entry past the last interval at `r = end` (`C10_*`); harmless values only inside `[begin, end)`.
* C14 bounds given in decreasing order are exchanged, but the start value is then not clamped (`C14_violated`).
* C20 punishments of parameters and potentials are written only when the parameter is outside its bounds and never cleared
  (`C20_punish_violated`); with KIM forces are added to the old content (`C20_kim_force_violated`) and a parameter going back
  to its initial value is not handed to the model (`C20_kim_param_violated`).
* C22 `punish_pot_p` is set one entry per *potential* behind `punish_par_p` although the parameters need one entry each
  (`C22_violated`, exact condition `C22_pot_iff`); TBEAM with APOT overlaps the second set of dummy constraints with the
  punishments (`C22_tbeam_violated`); with KIM the punishments overwrite forces (`C22_kim_violated`).
* C24 the stored volume is the signed determinant, negative for left-handed cells (`C24_violated`).
* C21 Stillinger-Weber and Tersoff multiply the pair energy of a self image by one half although the full list already
  contains both directions (`C21_selfHalf_violated`, `C21_selfHalf_single`).
* C17 with RESCALE and a density outside the tabulated range the embedding energy is constant but the forces use the slope at the
  end of the range (`C17_rescale_violated`).
* C51 from the second turn of the outer loop on `gamma_init` forms difference quotients with `forces_2`, the residuals of the second
  best point of the last line search, instead of the residuals at the current parameters (`C51_derivs_violated`).
* C30 `randomize_parameter` for tabulated potentials tests `n + i <= ndim`; the entry behind the list of free parameters is 0 (zeroed
  memory), so entry 0 of the table, a fixed slope, is changed (`C30_violated`), or the read is outside the block
  (`C30_out_of_bounds`).
* C29 consequently a fixed entry can differ after annealing (`C29_tab_violated`); trial points of the automatic start temperature
  are evaluated but never recorded as optimum (`C29_trials_violated`).
* C31 bounds of magnitude above `10e30` defeat the search for minimum and maximum in `opposite_check` (`C31_violated`); phases
  (`eopp`, `csw2`) are turned to `0..2 pi` by the evaluation of the first population, out of their bounds, and their opposites are
  outside, too (`C31_phase_violated`).
* C32 `partition` in `diff_evo.c` does not sort (`C32_violated`), so that an opposition step can discard the best individual
  (`C32_survival_violated`).
* C33 if no individual of the first population costs less than `10e10`, the result is the zero vector (`C33_start_violated`);
  individuals of an opposition step are never recorded as best (`C33_jump_violated`).
* C126 the best individual of the first population is returned but not written to the intermediate file (`C126_first_violated`).
* C34 between two composition nodes the interpolation uses `values[ntypes + i - 2]` and its successor, one entry too low
  (`C34_interior_violated`), so that it jumps at nodes (`C34_continuity_violated`); the search compares with the entry behind the
  node list (`C34_reads_violated`).
* C37 the converted line is copied back without its terminator (`C37_tail_violated`); carriage returns without line feed are kept
  (`C37_lone_violated`).
* C35 "nan" passes the test of bounds (`C35_nan_violated`); integers beyond `int` wrap around and may then be within the bounds
  (`C35_wrap_violated`); what follows the first 1023 characters of a line, even of a comment, is taken as another line
  (`C35_long_violated`); `kim_model_params` without value compares with a null pointer (`C35_kim_violated`).
* C41 the shifted Morse-stretch and Buckingham functions of the dipole interaction vanish at the cutoff but their slopes do not:
  `ms_init` lacks a factor `r`, `buck_init` has one too many (`C41_ms_violated`, `C41_buck_violated`, `C41_slope_iff`).
* C43 with rounding the wrapping loops of `apot_check_params` do not end for large phases (`C43_rounding_violated`).
* C44 equidistant tables are written in format 4 because of a missing `break` (`C44_violated`, `C44_violated_always`); with MEAM such
  a file cannot be read again completely (`C44_meam_violated`).
* C52 `read_pot_table3` and `read_pot_table4` read only the pair functions of ANG tables (`C52_ang_violated`); `read_pot_table4` reads
  only the pair functions of MEAM (`C52_meam_violated`) and the wrong columns of TBEAM (`C52_tbeam_violated`); flags of `#I`
  other than 0 and 1 are lost when written (`C52_invar_violated`).
* C49 the search for the pair of types of a global lambda value counts upwards (`++k`); for every pair but the last one it ends outside
  of the array (`C49_violated`).
* C50 with three and more types columns of like atoms get mixing parameters, and entries behind the mixing potentials are used
  (`C50_violated`); a global mixing parameter of the first mixing potential goes to the column of the pair (0, 0)
  (`C50_global_violated`).
* C45 embedding functions are sampled again at the nodes of the new range, so energies change between nodes (`C45_violated`); densities
  from self images are left out when the range is found (`C45_range_violated`); with negative dominant side the slopes at the ends
  have the wrong sign (`C45_slopes_violated`).
* C47 the last line of an ensemble shows the weight of the line before (`C47_last_weight`).
* C48 the exported file has one cutoff for both parts; if those of the fitted potential differ, LAMMPS finds three-body energies where
  potfit has none (`C48_cutoff_violated`); without repulsive part (B = 0) there is a division by zero (`C48_repulsive_violated`).
* C55 the crossover loop compares the number of the turn with the number of the parameter (`k == j`): unless it starts at parameter 1, no
  parameter is certain to come from the mutant (`C55_violated`), and if it does, all but number 0 are (`C55_all_violated`).
* C56 after ten random places outside of the bounds annealing uses the last one (`C56_move_violated`, `C56_anneal_violated`); the line
  search of the least-squares optimiser goes beyond the limited step (`C56_powell_violated`).
* C58 above its range an embedding table is continued with the value half a step before its end, so the energy jumps (`C58_violated`).
* C59 the energy of a KIM model is not divided by the number of atoms (`C59_energy_violated`, `C59_energy_violated_general`).
* C60 force vector entries lack the weights of configurations which the objective has (`C60_violated`), and punishments are added
  themselves, not squared (`C60_punish_violated`).
* C62 `chi` is never used by `force_tersoff.c`, but multiplies `B` in the LAMMPS file (`C62_chi_violated`); the line `i j k` gets `omega`
  and the cutoffs of `i j`, where the fitted potential uses those of `i k` (`C62_omega_violated`, `C62_cutoff_violated`,
  `C62_mod_cutoff_violated`).
* C63 `force_ang.c` and `force_meam.c` compare stresses of all configurations, also of those with `useforce` 0 or without stresses
  (`C63_ang_stress_violated`); `force_meam.c` multiplies the limiting constraint by the weight before squaring it, `force_eam.c` afterwards
  (`C63_meam_limit_violated`); `force_stiweb.c` and `force_tersoff.c` compute three-body forces also with `useforce` 0 and leave them in
  the residual vector (`C63_unused_forces_violated`).
* C64 angular slots of `update_slots` (ANG) have no correction at the upper end: for neighbours in the same direction (cosine 1) the slot is
  the last sampling point and the interval behind it is read (`C64_ang_angle_violated`; the value gets weight 0, the slope does not). With
  tabulated angular potentials slots of angles are never set (`C64_tabulated_violated`).
* C66 `force_adp.c` halves, between an atom and its own image, both the quadrupole function and the sum of the two quadrupole tensors (which
  are the same tensor); forces of own images cancel, but the stress lacks part of the contribution: for one atom with two images in one
  direction it is a quarter of the derivative (`C66_stress_violated`). The mean density is constrained even if it is not positive, unlike
  `force_eam.c`, and the limiting constraint is counted without `RESCALE`.
* C68 with mixing (`dp_mix`) two successive fields can agree without the dipoles being self-consistent (`C68_mixing_violated`); the fields
  `E_ind`, `E_old` are kept from the evaluation before, so the objective depends on the history (`C68_memory`).
* C69 the field of the dipoles is added with the sign opposite to that in the dipole-dipole energy: the dipoles do not minimise the energy,
  so the forces, computed at fixed dipoles, are not the gradient of the reported energy (`C69_gradient_violated`). `rp_i` and `rp_j` are computed
  only next to charges; for polarisable atoms without charge they are zero or left over from the pair before (`C69_neutral_violated`).
* C67 (observation) without DSF the self energy has the factor of the unshifted interaction (`C67_self_shift`).
* C70 `read_pot_table0` leaves out the electrostatic parameters in `global_idx`, so global parameters are overwritten by charges
  (`C70_globals_violated`); `total_ne_par` includes the number of global parameters although these are stored last, so charges, kappa and
  dipole parameters are taken from places further on (`C70_elstat_violated`), outside of the vector if the global parameters are not used
  (`C70_unused_globals_violated`). `l` is not increased for a fixed chemical potential: the optimiser changes the fixed one instead of the
  free one behind it (`C70_fixed_chem_violated`).
* C71 for tabulated potentials `write_lammps_table_pair` writes the slope instead of minus the slope (`C71_tabulated_force_violated`); the
  replacement of undefined values asks for a value that is zero and not a number (`C71_undefined_violated`).
* C72 `setfl` files: dipole and quadrupole functions are written for `i ≤ j`, pair potentials for `i ≥ j` (`C72_order_violated`, from three
  elements on); analytic ones are multiplied by the distance (`C72_distortion_violated`); the step is rounded to six decimals
  (`C72_grid_violated`).
* C73 IMD files: last value zero (`C73_end_violated`), embedding functions without smooth cutoff (`C73_embed_violated`), angular functions of
  analytic MEAM potentials interpolated in `opt_pot.table` with positions of `calc_pot`, i.e. out of bounds (`C73_angle_violated`).
* C74 forces of configurations with `useforce` 0 which `force_stiweb.c` and `force_tersoff.c` leave behind are reported as errors, the sum of
  force errors can exceed the total (`C74_unused_violated`); for the other routines the reference force is printed as the computed one and
  counted in the root mean square (`C74_force_rows_violated`, `C74_rms_violated`). The conversion of the stress deviation to MPa divides by
  160.2 instead of multiplying (`C74_unit_violated`). `force_kim.c` stores deviations times the roots of the weights, the report applies the
  weights again (`C74_kim_violated`).
* C75 a header line `#f` is treated as `#F` but does not end the header, so two configurations become one (`C75_lower_case_violated`); lines
  not starting with `#` are reported as ignored but take effect (`C75_ignored_line_violated`); a negative `#N` inside of a header makes the
  array of atoms too small (`C75_memory_violated`). A comment after the last configuration is an error.
* C76 names are cut off at 14 characters when stored but compared in full (`C76_long_violated`); a name which is the number of its type is
  taken for a missing one and replaced (`C76_overwritten_violated`).
* C77 `does_contribute` converts projections to `int`, which rounds towards zero, and compares with 0 and 1: the box reaches from -1 to 2 in
  units of its edges (`C77_outside_violated`); projections are not coordinates for oblique boxes (`C77_skew_violated`); edges are not checked to
  differ from zero (`C77_zero_violated`).
* C78 `run_powell_lsq` returns before `update_apot_table` if the error is below `VERY_SMALL` at its start: the potential file is written with
  the values from before annealing or evolution (`C78_violated`, `C78_evolve_violated`, `C78_perfect_violated`).
* C79 the interaction of the dipole of an atom with the charge of its neighbour asks for the polarisability of the neighbour (`force_eam_elstat.c`
  821): it is left out if a polarisable atom precedes an unpolarisable one, so the energy depends on the order of the atoms
  (`C79_dipole_energy_violated`). As in C17, above the range of the embedding function the energy is constant but forces use the slope at
  the end (`C79_range_violated`). With `NORESCALE` the file does not compile.
* C80 `vpair_value` divides only the second of two terms by the fourth power of the distance, so the atoms of a pair are not treated alike
  (`C80_vpair_violated`). `sheng_rho_value` jumps at 1.45 (`C80_rho_violated`). `util/potfit/functions.py` describes `born` with another
  order of the parameters (`C80_born_violated`), `bjs` with a constant instead of a linear term (`C80_bjs_violated`), `strmm` with a wrong bracket
  (`C80_strmm_violated`), and lists eleven of the twelve parameters of `gljm` (`C80_gljm_violated`).
* C81 `eng_weight` is tested for being negative but zero before reading, so that leaving it out is not noticed (`C81_weight_violated`); `dp_tol` and
  `dp_mix` are zero unless given, then dipoles do not interact (`C81_dipole_violated`, `C81_dipole_static`); keywords for files to be
  written are accepted without name (`C81_name_violated`), tables with a single point also (`C81_steps_violated`).
* C84 the term with the number of downhill steps in the logarithm has the wrong sign: the start temperature is too high as soon as some trial
  steps go downhill (`C84_violated`).
* C85 `force_ang_elstat.c` compares reference stresses which are not used, as `force_ang.c` (C63) does (`C85_stress_violated`).
* C86 as in C45: energies change between the nodes of the new embedding functions (`C86_violated`); with negative dominant side the slopes at
  the ends have the wrong sign (`C86_slopes_violated`). Atoms next to their own images are counted, other than in `rescale.c` (`C86_range`).
* C87 the force of the second band is nested in the range test of the first (`force_eam.c` 443-472): where only the second band reaches, the
  energy has its contribution, forces and stresses do not (`C87_force_violated`).
* C88 `get_neigh` tests `particleNumber > inconf` instead of `>=`: the first image gets the list of an atom of the next configuration, or
  memory behind the array is read (`C88_callback_fails`, `C88_callback_outside`); atoms of configurations before the first `#C` line keep
  species code -1 (`C88_species_fail`).
* C89 global parameters (`!name`) keep value and limits 0 (`C89_global_violated`); integer parameters take an entry of the table but
  `update_kim_model` does not count it (`C89_handed_fails`); `write_pot_table5` writes the values of the model at the start instead of the
  fitted ones (`C89_written_fails`) and integers beginning with 9 are rejected when read (`C89_reread_fails`); the cutoffs are compared with
  those of the last evaluation (`C89_cutoff_fails`) and asked for before the file is read (`C89_file_cutoff_violated`); only the first list
  is tested for neighbours of images (`C89_ghost_violated`).
* C90 a neighbour exactly at the cutoff is counted in the first bin of the next pair, or behind the end of the table
  (`C90_rim_fails`, `C90_rim_outside`); without neighbours the numbers are 0/0 (`C90_empty_violated`).
* C91 comments in analytic potential files are not ignored if they contain `type` or `global` or stand in front of the last parameter
  (`C91_comments_violated`); `a!` refers to the last global parameter whose name begins with `a` (`C91_reference_violated`); the default
  width of the smooth cutoff is not taken at the end of the file (`C91_width_violated`); global parameters without bounds are accepted
  as fixed (`C91_incomplete_violated`); electrostatic parameters are not put into their bounds (`C91_elstat_bounds_violated`); written
  files with electrostatics have no line `ratio` and are refused (`C91_elstat_refused`); bounds alike in four decimals make a parameter
  fixed (`C91_fixed`).
* C92 a global parameter which is declared but not used ends a parallel run (`C92_unused_global`), and so does an atom without angles
  with MEAM, Stillinger-Weber and Tersoff (`C92_no_angles`); composition nodes are not sent to the workers (`C92_nodes_missing`);
  `potsync` does not send the knots, so with format 4 and rescaling workers use the old ones (`C92_resync_knots`).
* C93 annealing with rescaling of EAM and ADP potentials hands back the optimal values with the ranges of the last rescaling
  (`C93_eam_violated`); objectives lowered by rescaling are not recorded, so a better evaluated potential can be lost
  (`C93_better_violated`).
* C94 the search for the steps of the Hessian never ends for parameters which are zero or without influence (`C94_zero_violated`,
  `C94_flat_violated`), for perfect fits (`C94_perfect_violated`) and at jumps (`C94_jump_violated`); an aim met exactly gives 0/0
  (`C94_exact_violated`); the five-percent test uses the interval before the last division (`C94_five_violated`).
* C95 of the potentials evaluated for the Hessian those with two parameters changed in the same direction are not compared with the best
  fit (`C95_overlooked_violated`); `dsyevx` is called again with the matrix it has overwritten (`C95_eigen_violated`); the attempts of the
  last line count the last weight twice (`C95_last_violated`); `char file[255]` overflows for long prefixes (`C95_name_violated`).
* C96 neighbour lists end with pair function, transfer function and electrostatics; longer functions of the second band, ADP, MEAM, angular
  and Stillinger-Weber terms miss neighbours (`C96_missing_violated`, `C96_stiweb_violated`); the tests of cutoff parameters look at upper
  bounds only, which fixed parameters need not obey (`C96_fixed_violated`), and not at all at the Tersoff cutoff `S` (`C96_tersoff_violated`).
* C97 the table of atoms is read by `fscanf` without regard to lines: missing and surplus columns displace the data of the following atoms
  (`C97_columns_violated`), a type with decimal point does so too (`C97_real_types_violated`); text behind the last atom is ignored or an
  error depending on what follows (`C97_end_violated`).
* C98 the punishment file lists limiting constraints without the weight of the configuration (`C98_weight_violated`), omits the gauge
  constraints of the second band (`C98_second_band_violated`) and shows a mean density of one if the densities do not sum up to a positive
  number (`C98_mean_violated`); the terminal output omits the constraint on the mean density (`C98_terminal_violated`).
* C99 MEAM and ANG set up general tables (format 4) with the equidistant spline routine (`C99_general_violated`); the right slope entry of
  pair, transfer, dipole and quadrupole functions is read, can be optimised, but has no effect (`C99_right_slope_violated`); analytic
  functions always have a natural left and a flat right end: the slope computed by `update_calc_table` is put into the parameter vector,
  where no spline routine looks (`C99_analytic`, `C99_flat_end_violated`). The first samples of `init_calc_table0` are zero for smoothed
  functions, the cutoff function being called with `begin` (`C99_first_samples_zero`); they are overwritten before use.
* C100 Stresses of crystals given with left-handed cell vectors are compared with the wrong sign (`C100_left_handed_violated`, consequence of
  C24).
* C102 An error in an input file leaves all other MPI processes waiting, because `error` sends nothing while `init_done` is 0
  (`C102_reading_violated`; launchers may kill them); an error which only some processes meet in an evaluation leaves the others waiting
  (`C102_single_violated`).
* C103 KIM models without forces are refused even if no configuration uses forces (`C103_forces_violated`), models which require forces
  are refused in that case although the pointer is set (`C103_required_violated`), and models which require the virial are accepted if only
  some configurations use stresses, which ends the program in the first evaluation (`C103_virial_violated`).
* C105 The penalty for `eopp` potentials with `eta_1 < eta_2` is `w (1 + eta_1 - eta_2)^2`: it jumps from 0 to `w` at `eta_1 = eta_2`,
  decreases while the condition gets worse and is zero for `eta_2 = eta_1 + 1` (`C105_eopp_violated`). Names are compared up to the length
  of `eopp`, so `eopp_exp` is punished although its second parameter is no exponent (`C105_exp_violated`), while `meopp` is not. The penalty
  for `universal` jumps from 0 to more than `10^12 w` at `|m - n| = 10^-6` and is a division by zero for `m = n` (`C105_jump_violated`,
  `C105_defined`).
* C106 A phase of `eopp` or `csw2` which lies within its bounds, e.g. -1/2 in [-1, 1], is turned to `2 pi - 1/2` before the bounds are
  checked; the evaluation returns more than `10^8` (`C106_phase_violated`), though the functions are the same (`C106_phase`). Potentials
  marked invariant (`#I`) whose parameters refer to global parameters are never sampled again: the value for the crystals does not depend
  on the global parameter, but the vector (and the file written at the end) has its new value (`C106_invariant_violated`).
* C107 Names of global parameters which begin with a letter other than `A` are refused with the message that they need to start with letters,
  digits are accepted (`C107_letter_violated`, `C107_digit_violated`; `buffer[0] > 65` instead of `<`). Limits in the wrong order are
  exchanged, but the value is not brought between them (`C107_exchanged_violated`). Any word which begins with `global` starts the section,
  e.g. the name of a parameter (`C107_anywhere_violated`). If parameters are missing, `strcmp` gets a null pointer
  (`C107_short_violated`, `C107_missing_violated`). The values never reach the parameter vector (`C107_effect_violated`). An indented
  `KIM_CUTOFF` hides itself and all later ones (`C107_indent_violated`), a second one has no effect (`C107_second_violated`). In the
  template and the result written by the program the first line after the header is empty, so that an array without content is compared
  when they are read (`C107_template_undefined`; without that line: `C107_result_partial`).
* C108 Embedding functions of analytic potentials are sampled up to the end of their range with slope zero there, like pair functions;
  beyond it (and below a density of 0.1) the analytic function itself is used. So the slope jumps at the end unless it is zero
  (`C108_jump_violated`), the energy jumps for functions with cutoff, since the cutoff function is left out beyond
  (`C108_cutoff_violated`), and a potential marked invariant with a reference to a global parameter has the old parameter inside and the new
  one outside (`C108_invariant_violated`). The slope outside is a symmetric difference quotient with width `2e-4`, exact for quadratic
  functions only (`C108_quadratic`, `C108_gradient_violated`; error bound: `C108_gradient_partial`).
* C109 Fits with differential evolution may end worse than they start: with a start value of at least `10e10` the result is the zero
  vector (`C109_large_violated`), and for potentials with bounds the sort which selects the first population may discard the start vector,
  even if it is the best possible one (`C109_lost_violated`).
* C110 ADP stresses of the infinite crystal lack a contribution if an atom interacts with its own images through a quadrupole function
  (`C110_stress_violated`, one atom per cell; consequence of the factor in C66).
* C03 The ADP routine writes limiting constraints in every build, but `gather_forces` gathers them with `RESCALE` only (force_adp.c 203-204, 609-610,
  force_common.c 160-220): without `RESCALE` the root process keeps its old entries for configurations of other ranks (`C03_adp_limit_violated`).
  Harmless as long as vectors come zeroed from `Malloc` (`C03_adp_limit_partial`).
* C112 Forces and stresses of the infinite crystal lack the second band where no transfer function of the first band reaches
  (`C112_stress_violated`; the branch of C87), although the energy has it.
* C113 Stillinger-Weber halves pair energies of atoms with their own images although full lists have both directions (force_stiweb.c): energy,
  forces and stresses are not those of the crystal in small cells (`C113_own_violated`; without own images in range: `C113_stiweb_partial`).
* C114 the same for the repulsion in both Tersoff routines (force_tersoff.c 189-193, 522-526): `C114_own_violated`, `C114_tersoff_partial`,
  `C114_modified_partial`.
* C119 parameter files for IMD: with four types the last chi and omega differ from those used (`C119_mixing_violated`); `r_cut` repeats the end
  of the first function (`C119_cut_violated`); names of the first three functions only, read also if there is only one (`C119_one_violated`,
  `C119_mixed_violated`).
* C121 a fixed `kappa` that changes all the same (zero vector of C33) leaves the stored tail functions of the old one (`C121_changed_violated`).
* C122 maximal changes limit the direction, not the step: the line search goes beyond it (powell_lsq.c 262, `C122_change_violated`).  A direction out
  of range at the beginning of a turn ends the fit although the message is "Restarting inner loop" (`C122_end`, `C122_restart_violated`).
* C123 with `RESCALE` densities outside of the range of the embedding function are listed as the end of the range (`C123_rescale_violated`), means of types
  without atoms are 0/0 (`C123_absent_violated`). With electrostatics the former also without `RESCALE` (`C123_elstat_violated`).
