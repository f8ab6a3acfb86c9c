{"id": "C01", "title": "Pair-column numbering is a bijection", "statement": "For any number n of atom types, the column assigned to a pair of types is the same for (i,j) and (j,i), is always smaller than n(n+1)/2, differs for different unordered pairs, hits every column, and numbers the pairs in the order in which the potential file lists them (i outer, j>=i inner); the running-sum numbering used by the IMD writer assigns the same columns.", "quantifier": "all n, all pairs of types i,j < n", "why_tests_cant": "A test fixes a few n; a wrong closed formula can agree for n<=2 and diverge for n>=3.", "anchors": ["src/config.c:init_neighbors", "src/config.c:set_neighbor_slot", "src/potential_input.c:calculate_cutoffs", "src/potential_output_imd.c", "src/potential_output_lammps.c:write_lammps_table_eam_adp"]}
{"id": "C02", "title": "MPI work distribution covers every configuration exactly once", "statement": "For P processes and N configurations with 2 <= P <= N the per-rank configuration blocks are contiguous, non-overlapping, cover 0..N-1 in rank order, are never empty and differ in size by at most one; the atom blocks derived from them are likewise contiguous and cover every atom once. All other (P,N) are rejected with an error.", "quantifier": "all process counts P and configuration counts N, all atom counts per configuration", "why_tests_cant": "Only particular (P,N) pairs can be run; the remainder arithmetic (odd = N%P-P) has to be right for every residue.", "anchors": ["src/mpi_utils.c:broadcast_configurations", "src/mpi_utils.c:broadcast_params_mpi"]}
{"id": "C03", "title": "Parallel evaluation returns the serial result", "statement": "Splitting the configurations over any number of ranks, evaluating each block, summing the partial error sums and gathering the per-rank pieces of the force vector yields the same objective value and the same force/energy/stress/limit entries as evaluating all configurations on one process.", "quantifier": "all numbers of ranks, all configurations, all potentials (exact arithmetic)", "why_tests_cant": "Which rank owns which slice depends on run-time process count; tests cannot cover all splits.", "anchors": ["src/force_common.c:gather_forces", "src/force_common.c:gather_variable", "src/mpi_utils.c:broadcast_configurations", "src/force_pair.c:calc_forces"]}
{"id": "C04", "title": "Spline set-up never divides by zero and yields the C2 spline", "statement": "For every table with at least three knots (positive spacing) and every choice of end conditions (natural or prescribed slope), the second derivatives computed for an equidistant table satisfy every interior continuity equation of the cubic spline and both end conditions, and no division by zero happens on the way.", "quantifier": "all knot counts, all sampled values, all end-slope choices", "why_tests_cant": "Tests evaluate finitely many tables; correctness of a tridiagonal elimination for every length is an inductive fact.", "anchors": ["src/splines.c:spline_ed"]}
{"id": "C05", "title": "Spline evaluation interpolates the samples and value/slope routines agree", "statement": "At a knot the interpolation returns exactly the tabulated value; the combined routine returns the same value as the value-only routine and the same slope as the slope-only routine; and the slope returned is the true derivative of the value returned, for arguments inside the table.", "quantifier": "all tables, all second-derivative arrays, all arguments", "why_tests_cant": "Pointwise tests cannot establish equality of polynomials or differentiability for all arguments.", "anchors": ["src/splines.c:splint_ed", "src/splines.c:splint_comb_ed", "src/splines.c:splint_grad_ed", "src/splines.c:splint_dir", "src/splines.c:splint_comb_dir", "src/splines.c:splint_grad_dir"]}
{"id": "C06", "title": "Interpolated potentials have no kinks", "statement": "With the second derivatives computed by the set-up routine the interpolated function has matching value, slope and curvature from both sides at every interior knot, so forces derived from it are continuous.", "quantifier": "all tables with positive spacing, all interior knots", "why_tests_cant": "Continuity at every knot for every table is not enumerable.", "anchors": ["src/splines.c:spline_ed", "src/splines.c:splint_comb_dir"]}
{"id": "C07", "title": "Equidistant and general-knot splines agree", "statement": "A tabulated potential given once as equidistant (format 3) and once as explicit knots at the same positions (format 4) gets the same second derivatives, hence the same interpolated values and forces.", "quantifier": "all equidistant tables, all values and end conditions", "why_tests_cant": "The two code paths use different recurrences; agreement is an inductive identity.", "anchors": ["src/splines.c:spline_ed", "src/splines.c:spline_ne"]}
{"id": "C08", "title": "General-knot spline set-up solves the general spline system", "statement": "For strictly increasing knots the set-up for general knots never divides by zero and its result satisfies all interior continuity equations and both end conditions.", "quantifier": "all strictly increasing knot sequences, all values, all end conditions", "why_tests_cant": "Infinite family of inputs and lengths.", "anchors": ["src/splines.c:spline_ne"]}
{"id": "C09", "title": "Knot search terminates and brackets the argument", "statement": "The bisection used for general-knot tables terminates for every table with at least two knots and returns two adjacent knots of the same column; for any argument inside the table the returned interval contains the argument.", "quantifier": "all knot tables, all arguments", "why_tests_cant": "Loop termination and invariants for all inputs are not testable exhaustively.", "anchors": ["src/splines.c:splint_ne", "src/splines.c:splint_comb_ne", "src/splines.c:splint_grad_ne", "src/splines.c:splint_ne_lin"]}
{"id": "C10", "title": "Equidistant look-up stays inside the column", "statement": "Evaluating an equidistant column at any argument of its closed definition range [begin,end] only reads entries that belong to that column.", "quantifier": "all columns, all arguments in [begin,end]", "why_tests_cant": "The out-of-column read happens only on the boundary (measure zero); random tests do not hit it and the read is silent.", "anchors": ["src/splines.c:splint_ed", "src/splines.c:splint_comb_ed", "src/splines.c:splint_grad_ed"]}
{"id": "C11", "title": "Linear extrapolation outside the table", "statement": "The extrapolating look-up equals the spline inside the table, continues it with the end-interval slope outside, and is continuous at both ends.", "quantifier": "all general-knot tables, all arguments", "why_tests_cant": "Continuity is a limit statement over all arguments.", "anchors": ["src/splines.c:splint_ne_lin"]}
{"id": "C12", "title": "Cached neighbour slots reproduce direct evaluation", "statement": "Evaluating a potential through the slot, shift and step stored with a neighbour gives exactly what a direct evaluation at that neighbour's distance gives, for every distance inside the column, and the stored slot always addresses an interval of that column.", "quantifier": "all columns, all distances between begin and end", "why_tests_cant": "Every distance/column combination must agree.", "anchors": ["src/config.c:set_neighbor_slot", "src/config.c:update_neighbor_slots", "src/splines.c:splint_dir", "src/splines.c:splint_ed"]}
{"id": "C13", "title": "Tabulated potentials: the optimiser's index list is exactly the set of free entries", "statement": "After reading a tabulated potential, the columns occupy disjoint, consecutive blocks of the parameter array, and the list of optimised positions is strictly increasing, contains no gradient entry that was not declared free and no point of a column declared invariant, and contains every other sampling point (except the last point of a decaying function) exactly once.", "quantifier": "all numbers of columns, all sizes, all invariance and gradient flags", "why_tests_cant": "Combinatorially many flag/size combinations.", "anchors": ["src/potential_input_f3.c", "src/potential_input_f4.c"]}
{"id": "C14", "title": "Start values lie inside their bounds", "statement": "After reading an analytic potential every parameter that is optimised has lower bound <= start value <= upper bound.", "quantifier": "all value/lower/upper triples in the potential file", "why_tests_cant": "Only special orderings (bounds given in reverse order) trigger the missed clamp.", "anchors": ["src/potential_input_f0.c:read_analytic_potentials"]}
{"id": "C15", "title": "Sampled analytic potentials are always up to date", "statement": "After each update the sampled table of every non-invariant potential equals the analytic function evaluated at the current parameters (including the current values of global parameters) at every sampling point, whatever sequence of parameter vectors was evaluated before.", "quantifier": "all histories of parameter vectors, all potentials, all sets of global parameters", "why_tests_cant": "A stale cache shows only after particular histories.", "anchors": ["src/potential_input.c:update_calc_table"]}
{"id": "C16", "title": "Computed forces sum to zero", "statement": "In every configuration whose forces are used, the forces computed from the potential (before the reference is subtracted) add up to the zero vector, for pair and EAM interactions, including interactions of an atom with its own periodic image.", "quantifier": "all configurations, neighbour lists, potentials", "why_tests_cant": "Newton's third law must hold for every structure.", "anchors": ["src/force_pair.c:calc_forces", "src/force_eam.c:calc_forces"]}
{"id": "C17", "title": "Forces are minus the gradient of the energy", "statement": "The force computed for an atom equals minus the derivative of the computed configuration energy with respect to that atom's position, for pair and EAM interactions at fixed neighbour lists.", "quantifier": "all configurations and differentiable potentials", "why_tests_cant": "Derivatives of sums over arbitrary neighbour lists cannot be sampled exhaustively.", "anchors": ["src/force_pair.c:calc_forces", "src/force_eam.c:calc_forces"]}
{"id": "C18", "title": "The objective is the weighted sum of squared deviations", "statement": "The value returned for a parameter vector is the sum over configurations of weight*(sum of squared force deviations) + weight*eweight*(energy deviation)^2 + weight*sweight*(stress deviations)^2, with force terms only where forces are used, so it is never negative for non-negative weights and is zero exactly if all weighted deviations vanish.", "quantifier": "all configurations, weights, flags and potentials", "why_tests_cant": "Universally quantified algebraic identity over arbitrary data sets.", "anchors": ["src/force_pair.c:calc_forces"]}
{"id": "C19", "title": "Half neighbour lists: every contribution has arrived before it is used", "statement": "Although each pair of atoms is visited only once and atoms are finalised one after the other, at the time an atom's density or force is used every pair contribution to it has already been added, and nothing is added to it afterwards.", "quantifier": "all configurations, any number of atoms and neighbours", "why_tests_cant": "The order dependence only shows for particular neighbour topologies.", "anchors": ["src/config.c:init_neighbors", "src/force_pair.c:calc_forces", "src/force_eam.c:calc_forces"]}
{"id": "C20", "title": "Objective evaluation has no memory", "statement": "Evaluating the objective for a parameter vector gives the same value and the same force vector regardless of what was evaluated before.", "quantifier": "all histories of evaluations, all parameter vectors", "why_tests_cant": "Stale entries appear only after specific histories (a parameter leaving and re-entering its bounds; repeated KIM evaluations).", "anchors": ["src/force_pair.c:calc_forces", "src/functions.c:apot_punish", "src/force_kim.c:calc_forces", "src/force_kim.c:update_kim_model"]}
{"id": "C21", "title": "Periodic self-interaction is counted once", "statement": "The energy per atom of a periodic cell does not depend on whether an atom meets its own periodic image or an equivalent atom of a doubled cell: each interaction vector from an atom contributes one half of the pair energy.", "quantifier": "all cells and potentials, for each interaction type", "why_tests_cant": "Only cells smaller than the cutoff show the difference.", "anchors": ["src/force_pair.c:calc_forces", "src/force_stiweb.c:calc_forces", "src/force_tersoff.c:calc_forces", "src/force_meam.c:calc_forces", "src/force_ang.c:calc_forces"]}
{"id": "C22", "title": "Sections of the force vector do not overlap", "statement": "The sections reserved for forces, energies, stresses, limits, dummy constraints and parameter punishments are disjoint and lie inside the allocated force vector.", "quantifier": "all interaction types, numbers of atoms, configurations, types and parameters", "why_tests_cant": "Overlaps depend on count arithmetic across compile-time variants.", "anchors": ["src/force_common.c:set_force_vector_pointers", "src/config.c:read_config", "src/functions.c:apot_punish"]}
{"id": "C23", "title": "All neighbours within the cutoff are found, each exactly once", "statement": "For atoms with fractional coordinates in [0,1) the neighbour construction finds every periodic image within the cutoff, lists it exactly once, and lists nothing beyond the cutoff.", "quantifier": "all boxes, positions and cutoffs", "why_tests_cant": "Depends on geometry of arbitrary triclinic boxes.", "anchors": ["src/config.c:init_neighbors", "src/config.c:init_box_vectors", "src/config.c:make_box"]}
{"id": "C24", "title": "Reciprocal box vectors", "statement": "The transposed-inverse box vectors computed for a cell are dual to the cell vectors (t_i . b_j = delta_ij) whenever the volume is nonzero, and the stored volume is the absolute determinant.", "quantifier": "all cells with nonzero volume", "why_tests_cant": "Algebraic identity over all real cells.", "anchors": ["src/config.c:init_box_vectors", "src/config.c:make_box", "src/utils.c:vec_prod"]}
{"id": "C25", "title": "Three-body angle bookkeeping", "statement": "The number of stored angles of an atom with m neighbours is m(m-1)/2 (half) or m(m-1) (full list; for ANG potentials m counts only the neighbours within the range of f), and while the force loops walk over neighbour pairs they use for each pair exactly the angle entry that was stored for that pair.", "quantifier": "all neighbour counts and all neighbour pairs, with any subset outside the cutoff", "why_tests_cant": "Index drift between two loops shows only for particular neighbour subsets.", "anchors": ["src/config.c:init_angles", "src/force_ang.c:calc_forces", "src/force_meam.c:calc_forces", "src/force_stiweb.c:calc_forces", "src/force_tersoff.c:calc_forces"]}
{"id": "C26", "title": "A line search never makes the fit worse", "statement": "The one-dimensional minimisation along a direction returns an objective value that is not larger than the value at the start point, the returned value is the objective at the returned point, and the point returned lies on the search line.", "quantifier": "all objective functions, start points and directions", "why_tests_cant": "Depends on arbitrary objective shapes.", "anchors": ["src/linmin.c:linmin", "src/bracket.c:bracket", "src/brent.c:brent"]}
{"id": "C27", "title": "Bracketing and line minimisation terminate", "statement": "Bracketing and line minimisation perform a bounded number of objective evaluations for every objective function.", "quantifier": "all objective functions", "why_tests_cant": "Non-termination is only visible for adversarial objectives.", "anchors": ["src/bracket.c:bracket", "src/brent.c:brent"]}
{"id": "C28", "title": "Powell optimisation is monotone and stops", "statement": "The least-squares optimiser terminates, never returns parameters with a larger objective than the start parameters, and only changes parameters that are free.", "quantifier": "all objective functions, start vectors, index lists", "why_tests_cant": "Whole-run property over arbitrary objectives.", "anchors": ["src/powell_lsq.c:run_powell_lsq", "src/powell_lsq.c:gamma_init", "src/powell_lsq.c:lineqsys_init", "src/powell_lsq.c:lineqsys_update"]}
{"id": "C29", "title": "Simulated annealing returns the best point it has seen", "statement": "At the end of annealing the parameters handed back are the best evaluated ones: their objective equals the recorded optimum, it is not worse than the start value nor than any accepted point, and parameters outside the free list are unchanged.", "quantifier": "all random number sequences, objectives and temperatures", "why_tests_cant": "Random trajectories cannot be enumerated.", "anchors": ["src/simann.c:run_simulated_annealing", "src/simann.c:randomize_parameter"]}
{"id": "C30", "title": "Annealing displaces only free parameters", "statement": "A trial move of the annealer changes only entries that are in the list of free parameters.", "quantifier": "all free lists, move centres, widths and heights", "why_tests_cant": "The violation needs the last free parameter and a particular bump width.", "anchors": ["src/simann.c:randomize_parameter"]}
{"id": "C31", "title": "Differential evolution keeps its population inside the bounds", "statement": "Every trial vector generated has every free parameter within its bounds, provided the start vector has, and fixed parameters keep their start values.", "quantifier": "all random sequences, populations and bounds", "why_tests_cant": "Random trajectories cannot be enumerated.", "anchors": ["src/diff_evo.c:init_population", "src/diff_evo.c:opposite_check", "src/diff_evo.c:run_differential_evolution"]}
{"id": "C32", "title": "Opposition step keeps the better half", "statement": "The sort used to select individuals orders them by cost and keeps each individual paired with its own cost, so the best individuals survive.", "quantifier": "all populations and cost arrays", "why_tests_cant": "Sorting errors depend on the permutation.", "anchors": ["src/diff_evo.c:quicksort", "src/diff_evo.c:partition", "src/diff_evo.c:opposite_check"]}
{"id": "C33", "title": "Best individual never gets worse", "statement": "During differential evolution the recorded best cost never increases from generation to generation and the final parameters are the best individual's.", "quantifier": "all random sequences and cost functions", "why_tests_cant": "Whole-run property.", "anchors": ["src/diff_evo.c:run_differential_evolution"]}
{"id": "C34", "title": "Chemical potentials: sorted nodes and interpolation", "statement": "Sorting the composition nodes orders them increasingly and moves each chemical potential with its node; the energy offset for a composition is the linear interpolation between the two enclosing nodes and is continuous in the composition, and no entry outside the node list is read.", "quantifier": "all node lists and compositions", "why_tests_cant": "Boundary compositions and node counts.", "anchors": ["src/chempot.c:sort_chem_pot_2d", "src/chempot.c:chemical_potential_1d", "src/chempot.c:chemical_potential_2d"]}
{"id": "C35", "title": "Parameter file semantics", "statement": "The parameter file is interpreted line by line, blank lines and comments have no effect, keys are case-insensitive, the last assignment of a key wins, so the order of lines with different keys is irrelevant; accepted numeric values lie within the documented bounds.", "quantifier": "all parameter files", "why_tests_cant": "All permutations and contents of files.", "anchors": ["src/params.c:read_parameter_file", "src/params.c:get_param_int", "src/params.c:get_param_double"]}
{"id": "C36", "title": "Allocation registry", "statement": "Every block obtained from the allocation wrapper is released exactly once at shutdown, and a reallocated block is released only under its final address.", "quantifier": "all sequences of allocations and reallocations", "why_tests_cant": "Histories of calls.", "anchors": ["src/memory.c:Malloc", "src/memory.c:Realloc", "src/memory.c:free_allocated_memory"]}
{"id": "C37", "title": "Line reader removes carriage returns", "statement": "Reading a line returns exactly the line's characters with all carriage returns removed.", "quantifier": "all lines", "why_tests_cant": "All strings.", "anchors": ["src/utils.c:fgets_potfit"]}
{"id": "C38", "title": "Element table look-ups are consistent", "statement": "Looking up an element by symbol or full name gives the same number; the mass by name equals the mass by number; numbers outside the table are reported as unknown rather than read out of bounds.", "quantifier": "all names and numbers", "why_tests_cant": "All strings and all integers.", "anchors": ["src/elements.c:ele_mass_from_number", "src/elements.c:ele_mass_from_name", "src/elements.c:ele_number_from_name"]}
{"id": "C39", "title": "Smooth cutoff", "statement": "The cutoff factor lies in [0,1), vanishes at and beyond the cutoff radius, and goes to zero there smoothly (value, slope and curvature), so smoothed potentials have no jump at the cutoff.", "quantifier": "all radii, cutoffs and widths h != 0", "why_tests_cant": "Limit statement over reals.", "anchors": ["src/functions.c:apot_cutoff"]}
{"id": "C40", "title": "Shifted electrostatics vanish at the cutoff", "statement": "The shifted Coulomb tail and its radial force factor vanish at the electrostatic cutoff, and the force factor is the derivative of the energy tail divided by r at every distance.", "quantifier": "all kappa, cutoffs and distances", "why_tests_cant": "Real-analytic identity.", "anchors": ["src/functions.c:elstat_value", "src/functions.c:elstat_shift", "src/functions.c:elstat_dsf"]}
{"id": "C41", "title": "Shifted Morse-stretch and Buckingham potentials vanish smoothly at the cutoff", "statement": "In builds with electrostatics the built-in ms and buck potentials and their slopes vanish at the electrostatic cutoff.", "quantifier": "all parameters and cutoffs", "why_tests_cant": "Slope at one point for all parameters.", "anchors": ["src/functions_impl.c:ms_value", "src/functions_impl.c:buck_value"]}
{"id": "C42", "title": "Short-range dipole damping is consistent", "statement": "The damping gradient returned equals the derivative of the damping value with respect to distance divided by the distance.", "quantifier": "all distances and parameters", "why_tests_cant": "Real-analytic identity.", "anchors": ["src/functions.c:shortrange_term"]}
{"id": "C43", "title": "Phase normalisation keeps the potential", "statement": "Wrapping phase parameters into [0,2pi] terminates, ends inside the interval, and does not change the value of any oscillating potential; for Tersoff the two cutoffs end up ordered.", "quantifier": "all real phases", "why_tests_cant": "Loop over reals.", "anchors": ["src/functions.c:apot_check_params", "src/functions_impl.c:eopp_value", "src/functions_impl.c:csw2_value"]}
{"id": "C44", "title": "Potentials are written in the format they were read in", "statement": "Writing the potential produces a file of the same format type as was read.", "quantifier": "all format types", "why_tests_cant": "A missing break affects one format only and the file is still parseable.", "anchors": ["src/potential_output.c:write_pot_table_potfit"]}
{"id": "C45", "title": "Energy is gauge invariant under rescaling", "statement": "Scaling all densities by a with embedding functions re-expressed in the scaled density, and shifting a linear density term between embedding and pair functions, does not change the energy of any configuration.", "quantifier": "all configurations and potentials, all gauge parameters", "why_tests_cant": "Universally quantified identity.", "anchors": ["src/rescale.c:rescale", "src/rescale.c:embed_shift"]}
{"id": "C46", "title": "Finite-difference Hessian", "statement": "The Hessian computed for uncertainty quantification is symmetric for every objective and equals the true Hessian for every quadratic objective and all nonzero steps. When calc_hessian returns 0 the parameter vector and the cost are unchanged; when it returns 1 only free parameters have changed, and the new cost is that of the new parameters and lower than the old one. At a minimum the parameters are unchanged.", "quantifier": "all objectives (symmetry, parameters), all quadratic objectives (values), all dimensions and nonzero steps", "why_tests_cant": "Infinite family.", "anchors": ["src/uq.c:calc_hessian", "src/uq.c:single_param_pert_cost"]}
{"id": "C47", "title": "Ensemble sampling keeps parameters and cost in step", "statement": "Each Monte-Carlo sample either keeps the old parameters with the old cost or moves to the proposed parameters with their cost; a downhill proposal is always accepted.", "quantifier": "all random sequences and objectives", "why_tests_cant": "Random histories.", "anchors": ["src/uq.c:generate_mc_sample", "src/uq.c:mc_moves"]}
{"id": "C48", "title": "LAMMPS Stillinger-Weber export describes the fitted potential", "statement": "The two- and three-body functions defined by the exported LAMMPS parameters equal the fitted Stillinger-Weber functions at every distance.", "quantifier": "all parameters and distances", "why_tests_cant": "Identity over reals with real exponents.", "anchors": ["src/potential_output_lammps.c:write_pot_table_lammps", "src/force_stiweb.c:calc_forces"]}
{"id": "C49", "title": "Stillinger-Weber lambda globals address the right triplet", "statement": "A global parameter attached to the k-th lambda value replaces the pointer of exactly the triplet (i,j,k) that this lambda value belongs to.", "quantifier": "all numbers of types and lambda indices", "why_tests_cant": "Wrong loop direction is invisible when the index is the last one.", "anchors": ["src/force_stiweb.c:update_stiweb_pointers"]}
{"id": "C50", "title": "Tersoff mixing parameters belong to mixed columns", "statement": "Exactly the columns of unlike pairs get their own mixing parameters (chi, omega); columns of like pairs use the constant 1.", "quantifier": "all numbers of atom types", "why_tests_cant": "Correct for one and two types; fails from three types on.", "anchors": ["src/force_tersoff.c:update_tersoff_pointers"]}
{"id": "C51", "title": "Linear system of the least-squares optimiser", "statement": "Every linear system the optimiser solves is gamma^T gamma q = -gamma^T f with f the residuals at the current parameters, also after the incremental updates of rows and columns; and whenever gamma is set up its columns are the normalised difference quotients of the residuals at the current parameters.", "quantifier": "all objectives, start vectors, solver results and numbers of steps", "why_tests_cant": "A wrong matrix only slows down or misleads the search; the result still looks like a fit.", "anchors": ["src/powell_lsq.c:gamma_init", "src/powell_lsq.c:gamma_update", "src/powell_lsq.c:lineqsys_init", "src/powell_lsq.c:lineqsys_update", "src/powell_lsq.c:run_powell_lsq"]}
{"id": "C52", "title": "Tabulated potentials survive reading and writing", "statement": "Every number of a table file is stored in the entry it belongs to, and reading the file written by the writer of the same format restores table, slopes, points, ranges, flags and the list of optimised entries.", "quantifier": "all interactions with tables, numbers of types, headers and tables", "why_tests_cant": "Infinitely many tables; the failing interactions are never tested with the failing format.", "anchors": ["src/potential_input.c:read_pot_table", "src/potential_input_f3.c:read_pot_table3", "src/potential_input_f4.c:read_pot_table4", "src/potential_output.c:write_pot_table3", "src/potential_output.c:write_pot_table4"]}
{"id": "C53", "title": "Stillinger-Weber forces and stresses belong to the energy", "statement": "For configurations with full neighbour lists the force entries written by the Stillinger-Weber routine are minus the gradient of the energy entry, they add up to zero, and the stress entries times the volume are minus its derivative with respect to strain; the two-body and three-body functions and slopes computed by the routine fit together, also at the ends of their ranges, except at the distance a2 - gamma/100 where the three-body function is set to zero.", "quantifier": "all configurations with full neighbour lists and used forces, all positions without coinciding atoms and without distances at that rim, all parameters with positive delta and gamma", "why_tests_cant": "Derivatives with respect to arbitrary positions and strains for arbitrary geometries; finite differences only test samples.", "anchors": ["src/force_stiweb.c:calc_forces", "src/config.c:init_neighbors", "src/config.c:init_angles"]}
{"id": "C54", "title": "Forces and stresses of angular potentials and MEAM belong to the energy", "statement": "For configurations with full neighbour lists the force entries written by the routines for angular potentials and MEAM are minus the gradient of the energy entry, they add up to zero, and the stress entries times the volume are minus its derivative with respect to strain.", "quantifier": "all configurations with full neighbour lists and used forces, all positions without coinciding atoms, all pair, radial, angular, transfer and embedding functions whose tabulated slopes are their derivatives", "why_tests_cant": "Derivatives with respect to arbitrary positions and strains for arbitrary geometries and functions; finite differences only test samples.", "anchors": ["src/force_ang.c:calc_forces", "src/force_meam.c:calc_forces", "src/config.c:init_neighbors"]}
{"id": "C55", "title": "Crossover takes one parameter from the mutant for certain", "statement": "In differential evolution a parameter of the trial vector comes from the mutant if its random number is below the crossover rate or if it is the one parameter chosen beforehand, so every trial vector has at least one parameter from the mutant and exactly one if no random number is below the rate.", "quantifier": "all random sequences, crossover rates, numbers of parameters and start parameters", "why_tests_cant": "A wasted evaluation is not visible in the results; the effect depends on the random numbers.", "anchors": ["src/diff_evo.c:run_differential_evolution"]}
{"id": "C56", "title": "Optimisers keep parameters within their bounds", "statement": "Started within the bounds, simulated annealing and least-squares optimisation of analytic potentials evaluate and return only parameters within their bounds; annealing moves have at most the width of the range as displacement and least-squares directions end within the bounds.", "quantifier": "all objectives, bounds, random sequences and start vectors", "why_tests_cant": "Leaving the bounds needs ten unlucky random numbers in a row or a minimum beyond the bound.", "anchors": ["src/simann.c:randomize_parameter", "src/simann.c:run_simulated_annealing", "src/powell_lsq.c:run_powell_lsq"]}
{"id": "C57", "title": "Metropolis acceptance", "statement": "For an equally distributed random number a trial step of simulated annealing at temperature T from value f to f' is accepted with probability min(1, exp(-(f'-f)/T)); an accepted step makes the trial point current, a rejected one leaves the point.", "quantifier": "all objectives, moves, states and positive temperatures", "why_tests_cant": "A probability cannot be established by finitely many runs.", "anchors": ["src/simann.c:run_simulated_annealing"]}
{"id": "C58", "title": "Embedding functions outside of their range", "statement": "Outside of its table an embedding function is continued by the straight line through its end point, so that the energy is continuous; with RESCALE the density at the end of the range is used and a thousand times the squared distance to the range is the limiting constraint.", "quantifier": "all tables and densities", "why_tests_cant": "Densities outside of the range occur for bad parameters only; a jump of half a step is small.", "anchors": ["src/force_eam.c:calc_forces", "src/force_meam.c:calc_forces"]}
{"id": "C59", "title": "Residuals with KIM models are weighted deviations", "statement": "With a KIM model the entries of the force vector are the weighted deviations of forces (sum over all images of an atom), energy per atom and stresses from the reference data, and the objective is the sum of their squares.", "quantifier": "all models, configurations, weights", "why_tests_cant": "With one atom per configuration the energy per atom is the total energy.", "anchors": ["src/force_kim.c:calc_forces"]}
{"id": "C60", "title": "The objective is the sum of squares of the force vector", "statement": "The value returned by the force routine is the sum of the squares of the entries of the force vector, which the least-squares optimiser linearises.", "quantifier": "all configurations, weights, potentials and parameters", "why_tests_cant": "With unit weights and parameters within the bounds both agree.", "anchors": ["src/force_pair.c:calc_forces", "src/force_eam.c:calc_forces", "src/functions.c:apot_punish", "src/powell_lsq.c:gamma_update"]}
{"id": "C61", "title": "Tersoff forces and stresses belong to the energy", "statement": "For configurations with full neighbour lists the force entries written by the Tersoff routine, in both variants, are minus the gradient of the energy entry, they add up to zero, and the stress entries times the volume are minus its derivative with respect to strain.", "quantifier": "all configurations with full neighbour lists and used forces, all positions without coinciding atoms and without distances equal to the cutoff radius, all parameters with R < S, gamma, n, omega > 0, d != 0 (modified potential: R1 < R2, c1, c3 > 0, c2, c4 >= 0, beta a positive integer)", "why_tests_cant": "Derivatives with respect to arbitrary positions and strains for arbitrary geometries and bond orders; finite differences only test samples.", "anchors": ["src/force_tersoff.c:calc_forces"]}
{"id": "C62", "title": "LAMMPS Tersoff export describes the fitted potential", "statement": "The file written for LAMMPS has exactly one line for every triple of types, and with these parameters LAMMPS assigns to every atom the energy which the Tersoff routine (either variant) adds for it.", "quantifier": "all numbers of types, all parameters, all environments of an atom without images of itself", "why_tests_cant": "Identity over reals with real exponents and trigonometric cutoffs; with one type of atoms or equal columns wrong indices go unnoticed.", "anchors": ["src/potential_output_lammps.c:write_pot_table_lammps", "src/force_tersoff.c:calc_forces"]}
{"id": "C63", "title": "Objective of the many-body routines is the weighted sum of squared residuals", "statement": "For Stillinger-Weber, Tersoff, modified Tersoff, angular potentials and MEAM the returned value is the sum over all configurations of weight times squared residuals (entries of the force vector) of the data in use - forces, energy, stresses - plus punishments, for MEAM plus limiting constraints or the constraint on the mean density; data which are not used contribute nothing and leave zero entries.", "quantifier": "all potentials, all configurations whose neighbours lie in the configuration, all weights, all previous contents of the force vector, all compile-time switches", "why_tests_cant": "The terms for switched-off data and weights other than one only show up in particular combinations of compile-time switches, flags per configuration and weights.", "anchors": ["src/force_stiweb.c:calc_forces", "src/force_tersoff.c:calc_forces", "src/force_ang.c:calc_forces", "src/force_meam.c:calc_forces"]}
{"id": "C64", "title": "Sampled ranges of analytic potentials cover the distances and angles", "statement": "After the configurations are read, every column of an analytic potential begins at or below 0.95 of the distance of each stored neighbour using it and at 0.95 of a distance that occurs; rmin is the matrix of minimal distances; the program stops if and only if a pair of types has no neighbours; and the slots stored for neighbours (distance below the end of the column) and for all angles evaluate the function of the right column at that distance or cosine.", "quantifier": "all numbers of types, all non-empty lists of neighbours, all interactions with sampled columns, all distances and angles", "why_tests_cant": "The order of loops and overlapping column ranges matter for particular numbers of types; neighbours in exactly the same direction (cosine 1) and tabulated angular potentials are missing in the test-suite.", "anchors": ["src/config.c:read_config", "src/config.c:update_slots", "src/config.c:init_angles", "src/potential_input_f0.c:init_calc_table0"]}
{"id": "C65", "title": "Stresses of pair and EAM potentials belong to the energy", "statement": "For pair and EAM potentials the six stress entries of a configuration, taken back from the force vector and multiplied by the volume, are minus the derivative of its energy (as computed by the same routine) with respect to the corresponding component of a homogeneous strain of all neighbour vectors; this includes interactions of atoms with their own periodic images, which enter the lists once and count half.", "quantifier": "all potentials differentiable at the occurring distances and densities, all configurations with half neighbour lists, all weights, all compile-time switches with STRESS, all six components", "why_tests_cant": "Reference stresses are compared only for a few configurations where self-images, off-diagonal components and embedding slopes of different types rarely meet.", "anchors": ["src/force_pair.c:calc_forces", "src/force_eam.c:calc_forces"]}
{"id": "C66", "title": "ADP potentials: energy, forces, stresses and objective belong together", "statement": "For ADP (angular-dependent) potentials the energy entry of a configuration is the sum of pair, embedding, dipole and quadrupole energies; the force entries are minus the gradient of that energy with respect to the positions and add up to zero; the stress entries are minus the derivative of that energy with respect to a homogeneous strain; and the value returned is the weighted sum of the squared deviations plus limiting constraint, gauge constraints and parameter punishments.", "quantifier": "all pair, transfer, embedding, dipole and quadrupole functions differentiable at the occurring distances and densities, all configurations with half neighbour lists including own images, all weights and compile-time switches", "why_tests_cant": "Dipole and quadrupole terms couple all neighbours of two atoms; self images in small cells, off-diagonal quadrupole components and the sign conventions of the half list only show for particular geometries.", "anchors": ["src/force_adp.c:calc_forces", "src/config.c:init_neighbors"]}
{"id": "C67", "title": "Point charges: energy, forces, stresses and objective belong together", "statement": "In builds with COULOMB the energy entry of a configuration is the sum of pair energies, the tail function of every pair of charges within the cutoff and the self energies; the force entries are minus the gradient of that energy and add up to zero; the stress entries are minus its derivative with respect to a homogeneous strain; the value returned is the weighted sum of squared deviations plus punishments and does not depend on earlier evaluations; the charge of the last atom type makes the system neutral in the composition of the fit (and the code divides by zero if that type does not occur). The tails of the program meet the smoothness hypotheses. With DSF the self energy is minus half the limit of the interaction of a charge with itself without the bare Coulomb part; without DSF it lacks the part of the shift.", "quantifier": "all charges, tail functions differentiable at the occurring distances, all pair potentials, configurations with half neighbour lists including own images, weights and compile-time switches", "why_tests_cant": "The Coulomb sum with cutoff has no reference value; consistency of energy, force and stress must hold for every geometry, including self images.", "anchors": ["src/force_elstat.c:calc_forces", "src/functions.c:init_tails", "src/functions.c:elstat_dsf", "src/functions.c:elstat_shift"]}
{"id": "C68", "title": "Induced dipoles: the iteration ends and the dipoles are self-consistent", "statement": "The iteration for the induced dipoles ends for every input after at most 52 rounds; it ends either with the dipoles of the static field of the charges and the short-range interaction, or with dipoles that agree up to dp_tol (root mean square over components) with those induced by the fields of charges and dipoles; the dipoles of other configurations are untouched; and the result depends on the parameters only.", "quantifier": "all charges, polarisabilities, tolerances, mixing factors, configurations and states left by earlier evaluations", "why_tests_cant": "Convergence and its failure depend on geometry and on the fields remembered from the previous evaluation.", "anchors": ["src/force_elstat.c:calc_forces"]}
{"id": "C69", "title": "Induced dipoles: energy, forces and stresses belong together", "statement": "With DIPOLE the energy entry of a configuration is the sum of pair energies, Coulomb energies, charge-dipole energies with short-range damping, dipole-dipole energies, the energy needed to polarise the atoms and self energies, for the dipoles the iteration ends with; forces and stresses are minus the derivatives of that energy (dipoles following the atoms) and the forces add up to zero.", "quantifier": "all charges, polarisabilities, tail functions differentiable at the occurring distances, configurations with half neighbour lists including own images, states left by earlier evaluations", "why_tests_cant": "That the induced dipoles make the energy stationary is a property of the functional form, invisible in a comparison of single values.", "anchors": ["src/force_elstat.c:calc_forces"]}
{"id": "C70", "title": "Parameters of analytic potentials are found where they are stored", "statement": "The parameter vector built from an analytic potential file holds the parameters of each potential behind two places for slopes, then the chemical potentials or the electrostatic parameters, then the global parameters in use; the index lists name exactly the free parameters, each with its place, and their length is the number of degrees of freedom; the places from which chemical potentials, electrostatic parameters and global parameters are taken later are the places where they have been stored.", "quantifier": "all numbers of types, potentials and parameters, all choices of fixed parameters and fixed potentials, with chemical potentials, electrostatic parameters or neither, with or without global parameters in use", "why_tests_cant": "Offsets are computed independently in several files; whether they agree depends on combinations of features, numbers of types and fixed parameters that a test set covers only in part.", "anchors": ["src/potential_input_f0.c:read_pot_table0", "src/potential_input.c:update_apot_table", "src/potential_input.c:update_calc_table", "src/force_elstat.c:calc_forces", "src/force_pair.c:calc_forces"]}
{"id": "C71", "title": "LAMMPS pair tables describe the fitted potential", "statement": "The table written for each pair potential has the announced number of lines, numbered from 1, at equidistant distances from the beginning (or plotmin) to the end of the potential; the energies are the values used in the fit and the forces are minus the slope of the energy; no undefined value is written.", "quantifier": "all potential functions, analytic or tabulated, with or without smooth cutoff, all ranges and numbers of steps", "why_tests_cant": "Sign and accuracy of the force column concern every function and every number of steps; the tests of the project do not read the exported tables.", "anchors": ["src/potential_output_lammps.c:write_lammps_table_pair"]}
{"id": "C72", "title": "LAMMPS setfl tables describe the fitted potential", "statement": "The file written for EAM and ADP potentials, read in the order of the setfl format, gives for every element the embedding and density function and for every pair of elements distance times pair potential, with ADP also the dipole and quadrupole functions, each as used in the fit at the equidistant arguments announced in the header; it is written exactly if the ends of the functions agree.", "quantifier": "all numbers of elements and steps, analytic and tabulated potentials, all functions and ends", "why_tests_cant": "The order of blocks differs from the right one only from three elements on, and factors and step sizes only show up in the program reading the file.", "anchors": ["src/potential_output_lammps.c:write_lammps_table_eam_adp", "src/potential_output_lammps.c:is_lammps_suited"]}
{"id": "C73", "title": "IMD tables describe the fitted potential", "statement": "The tables written for IMD hold, for every ordered pair of types (functions of distances, over the squared distance) or every type (embedding and angular functions), the function of the right column of the potential as used in the fit, at the equidistant arguments announced in the header up to and including the last one.", "quantifier": "all numbers of types and steps, analytic and tabulated potentials, all functions and ranges", "why_tests_cant": "Column numbers are computed separately for every file, for any number of types; the tables are only read by another program.", "anchors": ["src/potential_output_imd.c:write_pot_table_imd"]}
{"id": "C74", "title": "The error report accounts for the whole objective", "statement": "The sums of force, energy and stress errors printed in the report are the contributions of the used forces, energies and stresses to the objective; the rest is the sum of the punishments (and constraints of EAM/MEAM), which the warning shows if it exceeds 0.01 in an optimisation. The lines of the data files show computed and reference value of every used component, and the root-mean-square deviations are those of the fitted data in the stated units.", "quantifier": "all configurations, weights, potentials, parameters, contents of the force vector before the evaluation, and compile-time switches", "why_tests_cant": "The reports are compared with stored output for a few data sets in which all data are used and no punishment occurs; an attribution error between the sums or a wrong unit does not change the fitted potential.", "anchors": ["src/errors.c:write_errors", "src/errors.c:write_force_errors", "src/errors.c:write_energy_errors", "src/errors.c:write_stress_errors"]}
{"id": "C75", "title": "Configuration files are read as they are written", "statement": "A configuration file is accepted exactly if it consists of pieces, each with a line #N, a header with box vectors, energy and optional weight, stress and region of contributing atoms ended by #F, and the announced number of atoms with valid types; the configurations read are those described. Reference forces, energies and stresses are stored in the entries of the force vector which the force routines compare with them, and the memory allocated beforehand is sufficient.", "quantifier": "all files (sequences of lines), numbers of types and compile-time switches", "why_tests_cant": "Files with unusual order of lines, missing or repeated items, several configurations and mixed use of stresses are unbounded in number; a misplaced reference value gives a wrong fit without an error.", "anchors": ["src/config.c:read_config", "src/config.c:read_chemical_elements", "src/config.c:init_box_vectors"]}
{"id": "C76", "title": "Element names agree between configurations", "statement": "The lines #C of all configurations and the names of the potential file are accepted exactly if they agree, and the names used afterwards are those given for each type; types never named keep their number.", "quantifier": "all numbers of types and all sequences of #C lines", "why_tests_cant": "The result depends on the whole history of lines of different length; a swapped name produces exported files for the wrong element.", "anchors": ["src/config.c:read_chemical_elements"]}
{"id": "C77", "title": "Region of contributing atoms", "statement": "With a box or spheres given in the configuration, an atom contributes to the target function exactly if it lies inside of the box or inside of one of the spheres; without them every atom contributes.", "quantifier": "all boxes, spheres and positions", "why_tests_cant": "The region is a set of positions in space; tests with a few atoms do not find its boundary.", "anchors": ["src/config.c:does_contribute"]}
{"id": "C78", "title": "Potential file at the end of a fit", "statement": "After a fit with analytic potentials the file that is written holds every parameter with its value in the final parameter vector, a parameter that stands for a global one with the value of the latter; parameters that are not free are as they were read, and the error of the written parameters is not larger than at the start. Reading the file again gives the final vector.", "quantifier": "all potential files, references to global parameters, objective functions, random numbers, linear solvers, numbers of steps, with and without temporary file", "why_tests_cant": "The vector worked on and the values written are kept in two places; whether they agree depends on which optimiser stopped where, which a few test fits do not cover.", "anchors": ["src/optimize.c:run_optimization", "src/potential_input.c:update_apot_table", "src/powell_lsq.c:run_powell_lsq", "src/simann.c:run_simulated_annealing", "src/potential_output.c:write_pot_table0"]}
{"id": "C79", "title": "EAM with electrostatics: energy, forces, stresses, objective", "statement": "In the EAM model with electrostatics the reported energy is the sum of pair, embedding, charge and dipole contributions, each pair counted once; forces and stresses are its derivatives with respect to positions and strain, forces add up to zero, results do not depend on earlier evaluations or on the order of the atoms, and the objective is the weighted sum of squared deviations plus range punishment, parameter punishments and gauge condition.", "quantifier": "all potentials, tail functions, charges, polarisabilities, configurations, states left by earlier evaluations", "why_tests_cant": "The routine is the only one which adds three kinds of interactions in six loops; a wrong polarisability in one branch shows only for a polarisable atom that precedes an unpolarisable neighbour.", "anchors": ["src/force_eam_elstat.c:calc_forces"]}
{"id": "C80", "title": "Catalogue of analytic functions", "statement": "Every function name of a potential file stands for one function with a fixed number of parameters, unknown names are refused, no other than the declared parameters have an influence, and the value is the one described in the tools that write and draw potential files; depths, positions of minima, slopes at the equilibrium density are what the parameters are named for, related functions agree, and all are differentiable away from their singularities.", "quantifier": "all functions, compile-time options, numbers of atom types, parameters and distances", "why_tests_cant": "Formulas that agree for the parameter values of one test differ for others (parameters in another order, missing brackets), and tests evaluate few of the 46 functions.", "anchors": ["src/functions_impl.c", "src/functions.itm", "src/functions.c:initialize_analytic_potentials", "src/functions.c:apot_get_num_parameters", "src/functions.c:apot_assign_function_pointers", "util/potfit/functions.py"]}
{"id": "C81", "title": "Start of a run", "statement": "A parameter file is accepted exactly if every line is acceptable and everything needed is given; the run then works with the last value given for each keyword, and with the documented defaults for final potential, annealing temperature, ensemble file, sampling temperature and Hessian step if they are not given. Whatever the run needs later (names of files to write, weights, tolerances, tables of at least two points) is known to be there.", "quantifier": "all parameter files, compile-time options, conversions of numbers", "why_tests_cant": "Which keywords may be left out in which of many builds is a table of cases; tests use files that are complete.", "anchors": ["src/params.c:read_parameters", "src/params.c:check_parameters_complete", "src/memory.c:initialize_global_variables"]}
{"id": "C82", "title": "Random numbers", "statement": "Whatever the C library delivers for the seed, every random number of the program is a multiple of 2^-52 in [0,1) and no array is used outside of its range; the sequence is periodic from its first number on and the seeded state passes the certification of the long period; the SSE2 variant of the recursion computes the same as the standard one; a random number times a count, computed in doubles with any rounding and cut to an integer, is a valid index.", "quantifier": "all seeds, keys of any length, positions in the sequence, registers, counts below 2^31, roundings", "why_tests_cant": "A value of exactly 1 or an index equal to the count would occur once in 2^52 numbers; whether the state can leave its cycle is not visible in any finite run.", "anchors": ["src/random_dsfmt.c", "src/random_dsfmt.h", "src/random.c:init_rng", "src/random.c:eqdist"]}
{"id": "C83", "title": "Normally distributed random numbers", "statement": "Two calls of normdist deliver the coordinates of one point made of the first pair of random numbers inside the disc, the second without using any random number; with the numbers of the generator every value is below 12 in size; for independent uniform random numbers the values are independent and have the standard normal distribution.", "quantifier": "all sequences of random numbers and states; all measurable sets of pairs and numbers of calls", "why_tests_cant": "A distribution can only be estimated by sampling, and large values are too rare to be seen.", "anchors": ["src/random.c:normdist"]}
{"id": "C84", "title": "Automatic start temperature", "statement": "With anneal_temp set to auto, ten trial steps per free parameter are made from the start point; the temperature is positive and such that 80 percent of the trial steps (with the mean rise of those uphill) would be accepted; the program stops if no such temperature can be found.", "quantifier": "all objective functions, start points, random numbers, step sizes", "why_tests_cant": "A temperature that is too high by some factor only makes runs slower; no test looks at the share of accepted steps.", "anchors": ["src/simann.c:get_annealing_temperature"]}
{"id": "C85", "title": "Angular potentials with electrostatics", "statement": "The energy of a configuration is half the pair functions and half the interactions of the charges over all neighbours, the angles at every atom and minus the self energies of the charges; forces are minus its gradient and balance, stresses minus its strain derivative (also with the program's own tails); without charges the routine is that of angular potentials; the objective is the weighted sum of squared residuals of the data used plus punishments; evaluation has no memory and gives the same in parallel.", "quantifier": "all potentials, charges, cutoffs, damping constants, configurations, neighbour lists, numbers of processes", "why_tests_cant": "Factors of one half between full and half neighbour lists and missing reactions cancel in symmetric test structures.", "anchors": ["src/force_ang_elstat.c:calc_forces", "src/force_ang_elstat.c:init_force"]}
{"id": "C86", "title": "Rescaling of MEAM potentials", "statement": "Rescaling a MEAM potential multiplies the density of every atom in every configuration, including angular contributions, by one factor, re-expresses the embedding functions in the scaled density and leaves the energies, forces and stresses of all configurations unchanged; the ranges of the new embedding functions contain all densities; if no update is made they did so before.", "quantifier": "all configurations, potentials, spline routines and scaling factors of either sign", "why_tests_cant": "Universally quantified identity; single structures lie on few densities.", "anchors": ["src/rescale_meam.c:rescale", "src/force_meam.c:calc_forces"]}
{"id": "C87", "title": "Two-band EAM: energy, densities, objective, forces and stresses", "statement": "With TBEAM the energy entry of a configuration is the sum of its pair energies and the embedding energies of both bands divided by the number of atoms, minus the reference energy, where the densities of each band are those of its own transfer functions. The value returned is the weighted sum of squares of the deviations of forces, energies and stresses, the punishment of densities of either band outside of the tabulated range, the punishments of the parameters and the gauge conditions of both bands. Forces are minus the derivative of the energy with respect to the positions, stresses the derivative with respect to strain. Computed forces add up to zero and nothing depends on results of earlier evaluations.", "quantifier": "all potentials (any functions and ranges of both bands), all configurations with half neighbour lists, all weights, all compile-time variants of EAM, all previous contents of the force vector", "why_tests_cant": "Tests of two-band potentials use equal ranges of both bands, for which the nesting of the range tests has no effect; the statement is about every combination of ranges, functions and configurations.", "anchors": ["src/force_eam.c:113-627", "src/config.c:1226-1262"]}
{"id": "C88", "title": "Particles, neighbour lists and species handed to a KIM model", "statement": "With KIM the particles of a configuration are its atoms in their order followed by each periodic image within the cutoff of some atom exactly once; only the atoms contribute. The list of an atom names each once exactly the other particles within the cutoff of the two types, and agrees entry by entry with the neighbour list of the program. The arrays are never exceeded and the program stops exactly if two particles coincide. The callback of the model returns the list of the atom asked for and stops for images. Species codes of the particles are those of the elements of their types.", "quantifier": "all boxes, configurations, cutoffs, numbers of images; all sequences of configurations and headers; all tables of species codes", "why_tests_cant": "Duplicate or missing images appear only for particular combinations of box shape and cutoff, and asking for the list of the first image or naming elements late needs particular models and files; the statement covers all of them.", "anchors": ["src/config.c:963-1294", "src/force_kim.c:307-328", "src/kim.c"]}
{"id": "C89", "title": "Parameters of KIM models: file, table, model and output", "statement": "An accepted potential file gives each parameter of the model in the order of the model; in the table each entry has the value of its line, ordered limits around it and is fixed exactly if the limits are equal; integers and the cutoff are fixed and handed to the model. The fitted parameters are the entries not fixed, and their number is the one used by the optimizers. Before an evaluation each parameter of the model gets its own entry of the table. The file written contains the values of the table and is accepted again. Evaluations stop exactly if the distances the model asks for are not covered by the neighbour lists.", "quantifier": "all models (number, types and extents of parameters, dependence of the cutoffs on them), all potential files, all sequences of evaluations", "why_tests_cant": "KIM models with integer parameters, several lists or variable cutoffs are rare in tests; the statement covers all models, files and sequences of evaluations.", "anchors": ["src/potential_input_f5.c:302-630", "src/force_kim.c:53-113", "src/potential_output.c:490-530"]}
{"id": "C90", "title": "File of radial distributions", "statement": "The file written with write_pair has one column per pair of types. Each line contains the lower end of its bin (cutoff of the pair times bin number divided by the number of bins) and the number of neighbours of this pair with distance in the bin, divided by the largest such number of the file. Every neighbour is counted exactly once.", "quantifier": "all numbers of types and bins, all symmetric tables of cutoffs, all neighbour lists", "why_tests_cant": "Whether a neighbour lies exactly at the cutoff depends on the structure; tests look at one file.", "anchors": ["src/config.c:1546-1616"]}
{"id": "C91", "title": "Text of analytic potential files", "statement": "Comments and blank lines do not change what an analytic potential file says: sections of chemical potentials, electrostatics, global parameters and potentials are found wherever they stand behind the header, each parameter gets the value and bounds of its line (fixed if the bounds are equal, put in order, value moved into the bounds when fitting), a reference gets the global parameter of that name, a missing width of the smooth cutoff the default. A file written by the program is read again and gives the same potential, up to the rounding of its numbers.", "quantifier": "all files, functions, numbers and names of parameters, comments, formats of numbers", "why_tests_cant": "Tests read a few files of the usual layout; positions of comments, words in comments, names which begin alike and bounds close to each other are not varied.", "anchors": ["src/potential_input_f0.c:318-935", "src/potential_output.c:76-262"]}
{"id": "C92", "title": "Data of the worker processes", "statement": "At the start of a parallel run all processes take part in the same sequence of broadcasts with the same counts and in buffers which are large enough, and afterwards every process has what rank 0 has read: sizes, weights, sampled potentials, parameters, names and bounds of analytic functions, global parameters, composition of the configurations, and for its own consecutive piece of the configurations the volumes, flags and all components of atoms, neighbours and angles. After potentials were rescaled on rank 0 the workers have the same tables again.", "quantifier": "all builds, numbers of processes and configurations, contents of the memories of rank 0 and of the workers", "why_tests_cant": "Tests run few builds on few processes with fresh memory; a missing component or count shows only when the field is used and the old content differs, and a mismatch of counts only as a hang.", "anchors": ["src/mpi_utils.c:112-856", "src/potfit.c:87-108"]}
{"id": "C93", "title": "Annealing with rescaling", "statement": "If embedding functions are rescaled every tenth temperature step, annealing still hands back a potential (values together with the ranges and knots of the embedding functions) whose objective is the recorded optimum, which is the start or one that was evaluated, and which is not worse than the start nor than any evaluated potential.", "quantifier": "all random number sequences, objectives, rescalings which change embedding functions only, tables and temperatures", "why_tests_cant": "Whether optimum, accepted point and ranges belong together depends on the order of accepted steps and rescalings, which random runs do not exhaust.", "anchors": ["src/simann.c:204-255", "src/simann.c:269-483"]}
{"id": "C94", "title": "Size of the perturbations for the Hessian", "statement": "If no perturbation is given, the search for the relative step of each parameter ends, and the step it finds raises the objective to the aim (cost plus twice the cost times temperature per parameter) within five percent; it is positive, at most one, and does not exceed the aim in either direction. A step given by the user is used unchanged.", "quantifier": "all objectives, aims, directions and parameters; end of the search for all continuous objectives", "why_tests_cant": "End and result of the nested searches depend on the shape of the objective; tests use a few smooth ones near a minimum.", "anchors": ["src/uq.c:274-377", "src/uq.c:386-475", "src/uq.c:483-497", "src/uq.c:531-570"]}
{"id": "C95", "title": "Ensembles: start, eigenvalues, lines and files", "statement": "The ensemble starts from a potential which is not worse than the fit and than all potentials evaluated for its Hessian, with the Hessian of just this potential and its eigenvalues and eigenvectors; the search for eigenvalues ends. Each line of the ensemble file shows a potential with its own cost, the number of attempts is the number of trials made, and potential files are written exactly for moves better than the fit and for every write_ensemble-th move, with the table of that line, without writing beyond the name buffer.", "quantifier": "all objectives, random sequences, results of the linear algebra library, numbers of moves and prefixes", "why_tests_cant": "Needs saddle points, non-converging decompositions, long prefixes and all random sequences.", "anchors": ["src/uq.c:73-265", "src/uq.c:505-778", "src/uq.c:786-890"]}
{"id": "C96", "title": "Neighbour lists reach as far as the potential", "statement": "The cutoff of every pair of atom types is at least the range of every function of the distance used for this pair (pair, transfer, dipole, quadrupole, three-body functions, electrostatics) and of the cutoff parameters of Stillinger-Weber and Tersoff terms for all admissible parameter values, and is no larger than the largest of these ranges; so every periodic image within reach of a function is in the neighbour list. Analytic potentials of the wrong kind or with impossible bounds of the cutoff parameters are refused.", "quantifier": "all interactions, numbers of types, column ranges, bounds, parameter values, cells and atoms", "why_tests_cant": "Test potentials use one common cutoff for all functions; a missing neighbour only shows for functions with different ranges.", "anchors": ["src/potential_input.c:496-559", "src/functions.c:168-258", "src/config.c:1239-1284"]}
{"id": "C97", "title": "Configuration files as text", "statement": "A text whose lines, taken one by one, describe configurations (header lines, and one line with exactly seven numbers per atom) is read as these configurations, for every conversion of numbers; decimal and whole numbers have their value. A text with missing or surplus columns, or with a type that is not a whole number, is refused.", "quantifier": "all texts with lines up to 1022 characters, all number conversions, all settings", "why_tests_cant": "The reader of the atoms ignores line ends; only malformed files that happen to convert show the wrong data, and then silently.", "anchors": ["src/config.c:132-399", "src/config.c:742-766", "src/utils.c:110-149"]}
{"id": "C98", "title": "The punishment file accounts for the constraint part of the objective", "statement": "The file of punishments of EAM-like potentials lists, with their squares, the limiting constraints of all configurations and the gauge constraints of all embedding functions; the squares listed are what these constraints contribute to the objective, and the mean density shown is the mean over all atoms. The terminal output, written in place of the file, lists the same.", "quantifier": "all potentials, configurations, weights, force vectors and compile-time variants (EAM, ADP, two bands, MEAM, EAM with charges; with and without RESCALE)", "why_tests_cant": "The file is written after the optimisation and no test compares it with the objective; the parts that are missing or wrongly weighted need configurations with weights, two bands or densities outside the table.", "anchors": ["src/errors.c:477-547", "src/force_eam.c", "src/force_adp.c", "src/force_meam.c", "src/force_eam_elstat.c"]}
{"id": "C99", "title": "Every force evaluation works with the splines through the current table", "statement": "Whatever earlier evaluations left behind, after the initialisation at the start of a force evaluation the look-up of every function of the potential delivers value and slope of the interpolating cubic spline through the current values on the function's own knots, with the slope entries of the table as end conditions. For analytic potentials, after any history of evaluations, the look-up returns the analytic function at the current parameters at the sampling points.", "quantifier": "for all force routines, formats, column layouts, tables, old contents of the second derivatives, histories of parameter vectors", "why_tests_cant": "A stale or wrongly set up spline still interpolates the table at the knots; only the values between the knots change, by an amount that depends on the table, so a fit with it converges to plausible numbers.", "anchors": ["src/force_common.c:46-70", "src/force_common.c:225-252", "src/force_eam.c:174-193", "src/force_adp.c:173-188", "src/force_meam.c:214-229", "src/force_ang.c:198-213", "src/force_elstat.c:223-246", "src/force_eam_elstat.c:231-284", "src/potential_input_f0.c:943-992"]}
{"id": "C100", "title": "The objective is the least-squares objective of the infinite periodic crystals", "statement": "Starting from cell vectors, positions and the potential table, the objective of the pair and EAM routines is the weighted sum of squared deviations of forces, energies and stresses of the infinite periodic crystals whose atoms interact by the cubic splines through the table (plus constraints and punishments). Energies are sums over all images of all atoms, without any cutoff other than the end of each function; forces are minus the derivatives of this energy when an atom and all its images move, stresses minus the derivatives under homogeneous strain divided by the volume. Nothing is kept fixed while deriving: neighbours enter and leave the range of the functions.", "quantifier": "for all numbers of types, tables (equidistant and general), cells with right-handed vectors, positions and reference data, all compile-time variants, with no distance below the begin of a table or exactly at its end and with densities inside the embedding tables", "why_tests_cant": "A comparison with finite differences uses the program's own neighbour lists and splines; missing images, a cutoff which is too short for one column or a spline set up for other knots change energy and forces consistently.", "anchors": ["src/config.c:898-960", "src/config.c:1081-1294", "src/potential_input.c:512-560", "src/force_pair.c:106-318", "src/force_eam.c:113-627", "src/splines.c:43-456", "src/force_common.c:46-70"]}
{"id": "C101", "title": "A fit of tabulated potentials ends with splines that describe the crystals at least as well as the starting ones", "statement": "The values of a table determine exactly one cubic spline per column (interpolating, twice differentiable, with the end slopes of the table), so the objective of the infinite periodic crystals is a function of the table values. After simulated annealing followed by the least-squares minimiser, the value reported by the program is this objective for the splines through the final table, and it is not larger than the objective for the splines through the initial table. If it is zero and the weights are positive, the splines reproduce energies, forces on contributing atoms and stresses of all crystals exactly.", "quantifier": "for all tables (equidistant and general), numbers of types, crystals, reference data, random numbers, temperatures, tolerances and linear solvers, for pair potentials and for EAM potentials without rescaling whose densities lie inside the tables at the beginning and the end", "why_tests_cant": "The program compares only its own objective values at different times; whether these belong to the potentials written at the end, and not to stale spline coefficients or an intermediate point, can not be seen from the printed numbers.", "anchors": ["src/simann.c:186-420", "src/powell_lsq.c:60-420", "src/force_pair.c:106-318", "src/force_eam.c:113-627", "src/splines.c:43-456"]}
{"id": "C102", "title": "The processes of a parallel run end together", "statement": "Whatever the input, number of processes and sequence of force evaluations are, no process of a parallel run waits for ever in a collective MPI call: all collective calls meet calls of the same operation, count and type, and all processes end. They end with success after a fit, after a clean exit while reading, and with failure if the data are refused, if all processes meet an error in an evaluation, or (root process) if an error occurs between evaluations.", "quantifier": "for all numbers of processes, sequences of flags passed to calc_forces, places and processes of errors, compile-time variants (APOT or tables, STRESS, number of summed densities, calls of potsync)", "why_tests_cant": "Whether a run hangs depends on which process meets an error and at what time; tests of error messages run in serial or kill the job at a time limit.", "anchors": ["src/potfit.c:70-314", "src/mpi_utils.c:104-159", "src/force_common.c:147-219", "src/force_eam.c:138-171", "src/potential_input.c:687"]}
{"id": "C103", "title": "A KIM model is accepted exactly if the fit can be done with it", "statement": "A KIM model is accepted if and only if its units, parameters and elements suit, it supports energies, and forces and virials if some configuration uses them, and it requires no other quantity or callback than those the program provides. Types get the codes which the model assigns to their elements. After acceptance every evaluation of every configuration provides all pointers which the model requires.", "quantifier": "for all models (support status of all arguments and callbacks, species, parameters), lists of elements and configurations, with and without STRESS", "why_tests_cant": "Tests run with the few published models, which support everything and require nothing; combinations of required, optional and unsupported quantities with configurations which use them or not do not occur.", "anchors": ["src/kim.c:36-312", "src/force_kim.c:180-207"]}
{"id": "C104", "title": "The objective and the file written at the end belong to the input files", "statement": "Started with a potential file of tabulated functions (equidistant or listed abscissae, slopes given) and a configuration file, the routine returns the sum over all configurations of the weighted squared deviations between the forces, energies and stresses of the infinite periodic crystals of the file, computed with the cubic splines through the points of the potential file, and the reference numbers in the configuration file (with EAM plus the gauge terms). The file written at the end is again a potential file; its functions have the final values at the old abscissae. After annealing and least squares they describe the crystals at least as well as the functions of the input file, the value reported is the deviation for the functions in the written file, and it is the value with which a second run started from the written file begins. Files with right-handed cells of sufficient size, atoms inside and no two atoms at the same place are accepted.", "quantifier": "for all potential files of format 3 or 4 with slopes, numbers of types, configuration files, weights, contents of uninitialised memory, random numbers, linear solvers and break flags; pair potentials, and EAM without rescaling with densities inside the tables", "why_tests_cant": "Between the file and the number lie the readers, the layout of the table, the cutoffs, the neighbour lists, the splines and the sums; a test compares with numbers of an earlier run of the same program, which contains the same conventions.", "anchors": ["src/potfit.c:60-241", "src/potential_input.c:60-260", "src/potential_input_f3.c:40-476", "src/potential_input_f4.c:40-375", "src/config.c:60-420", "src/force_pair.c:106-318", "src/force_eam.c:113-627", "src/potential_output.c:40-330"]}
{"id": "C105", "title": "Punishments of analytic potentials", "statement": "The penalty added to the objective is the sum over the free parameters of 10^7 times the squared distance from their bounds, plus the penalties of the potentials whose names begin with eopp or universal. It is zero, and no entry of the residual vector is written, if all free parameters are within their bounds, eta_1 >= eta_2 and |m - n| >= 10^-6; it is zero only then, except for eta_2 = eta_1 + 1, where the program misses the violation. It is undefined if and only if m = n. An optimum with penalty F bounds the violation of each parameter by sqrt(F / 10^7).", "quantifier": "for all lists of potential names, parameter vectors, bounds, positions of parameters in the vector, weights and former contents of the residual vector", "why_tests_cant": "Penalties only act where a fit leaves the admitted region; the gap at eta_2 = eta_1 + 1 and the jumps lie on sets which no sample of parameters meets by chance.", "anchors": ["src/functions.c:120-161", "src/functions.c:356-405"]}
{"id": "C106", "title": "Analytic pair potentials: values and fits", "statement": "For analytic pair potentials and periodic configurations, every evaluation of the objective, after program start and any number of evaluations for other vectors, returns the objective of the infinite crystals whose atoms interact by the functions the effective parameters stand for, interpolated on the calculation grid, plus the penalties of C105. The value depends on the parameter vector only, evaluating the vector which an evaluation left behind gives the same value again, it is undefined exactly where C105 says so, and annealing followed by Powell's method does not end with a larger objective than it began with. Phases of oscillating potentials may be changed by multiples of 2 pi without changing the functions. (The program violates the last point: see DESIGN.md; and invariant potentials do not follow global parameters.)", "quantifier": "for all potentials, parameters, global parameters, bounds, ranges, numbers of atom types and sampling points, crystals with atoms inside and outside their cells, contents of memory at program start and histories of evaluations", "why_tests_cant": "A test compares the value for some vectors and structures with numbers the program itself made; a dependence on the history (stale tables, skipped updates) or on the order of normalising and punishing shows only for special sequences of vectors.", "anchors": ["src/force_pair.c:106-318", "src/potential_input.c:623-694", "src/functions.c:264-315", "src/functions.c:356-405", "src/potfit.c:108-110"]}
{"id": "C107", "title": "Keywords of KIM potential files", "statement": "Reading the section with global parameters of a KIM potential file succeeds exactly if the number is positive and for every parameter there are a name beginning with a letter, different from the others, and three numbers; the parameters read are those written there, with limits in order, fixed if the limits are equal, and the starting value moved to the nearest number between the limits when parameters are fitted. A file without the section has no global parameters. The parameter marked as cutoff is the one named by the keyword KIM_CUTOFF; a file written by the program (template or result) can be read again and gives the same cutoff parameter. (Partial: the program refuses most letters, takes any word beginning with 'global' as the section, does not move values if limits are exchanged, never uses the values, and reading its own files is undefined.)", "quantifier": "for all files, i.e. lists of words and of lines, all parameters of the model, all interpretations of words as numbers, with and without optimisation", "why_tests_cant": "Whether an uninitialised array happens to contain the keyword, or which names are refused, depends on files which nobody wrote yet; the tests of the project do not run KIM models with these keywords.", "anchors": ["src/potential_input_f5.c:118-171", "src/potential_input_f5.c:206-370", "src/potential_input_f5.c:594-625", "src/potential_output.c:502-529"]}
{"id": "C108", "title": "Analytic EAM potentials: values and fits", "statement": "With analytic EAM potentials, an evaluation of the objective after any history returns the objective of the infinite crystals whose atoms interact by the functions the parameter vector stands for (interpolated inside the sampled range, analytic outside it), plus gauge conditions and penalties; the value depends only on the effective parameters, the vector left behind has the same value, and annealing followed by the least-squares optimiser ends with functions which do not describe the crystals worse. Forces are derivatives of the energy at all densities. (Partial: outside the range the slope is a difference quotient, and at the end of the range slope and, with cutoff functions or invariant potentials, energy jump; for densities off the ends and functions for which the quotient is exact the claim holds.)", "quantifier": "for all parameter vectors, histories, analytic functions, crystals and configurations, sampling numbers and ranges, random numbers, solutions of the linear systems", "why_tests_cant": "Reference values for fits are compared for a few files whose densities are inside the range; that forces belong to the energy at every density and that no history matters is a statement about all functions and vectors.", "anchors": ["src/force_eam.c:113-627", "src/functions.c:339-349", "src/potential_input.c:623-694", "src/potfit.c:108-110"]}
{"id": "C109", "title": "Fits with differential evolution do not worsen the potential", "statement": "In builds with differential evolution (EVO) a fit - evolution, then the least-squares optimiser - ends with a potential which describes the reference data not worse than the potential it started with, and reports the value of the objective for the final potential. Evaluations which change vectors in place (global parameters copied to their references) do not matter.", "quantifier": "all random sequences, crystals, tables, analytic functions without phase, solutions of linear systems, break flags, lengths of the run", "why_tests_cant": "The start vector is lost only for certain orders of costs and sizes of populations; a random run usually finds something better and hides it.", "anchors": ["src/diff_evo.c:init_population", "src/diff_evo.c:opposite_check", "src/diff_evo.c:run_differential_evolution", "src/potfit.c:main", "src/powell_lsq.c:run_powell_lsq"]}
{"id": "C110", "title": "ADP: the objective is the least-squares objective of the infinite periodic crystals", "statement": "Starting from cell vectors, positions and the potential table, the objective of the ADP routine is the weighted sum of squared deviations of forces, energies and stresses of the infinite periodic crystals whose energy is, with sums over all images of all atoms and no cutoff but the end of each function: pair energies, embedding energies of the densities, and at every atom half the squared dipole distortion plus half the squared quadrupole distortion minus a sixth of the squared trace. Forces are minus the derivatives of this energy when an atom and all its images move, stresses minus the derivatives under homogeneous strain divided by the volume.", "quantifier": "for all numbers of types, tables (equidistant and general), cells with right-handed vectors, positions and reference data, all compile-time variants, with no distance below the begin of a table or exactly at its end and with densities inside the embedding tables", "why_tests_cant": "Finite differences over the program's own neighbour lists leave out what never enters the lists, and crystals in which an atom sees its own images need cells smaller than those of usual test data.", "anchors": ["src/force_adp.c:113-672", "src/config.c:898-960", "src/config.c:1081-1294", "src/potential_input.c:512-560", "src/splines.c:43-456"]}
{"id": "C111", "title": "A parallel fit with induced dipoles follows the serial fit", "statement": "With induced dipoles an evaluation starts from the fields left with the atoms by the evaluation before. If every process starts with the fields and dipoles which the serial program has on the atoms of that process, then every evaluation of an arbitrary sequence, with potentials, charges and polarisabilities changing in between, returns the serial error sum and the serial forces, energies, stresses and limiting constraints, and leaves the serial dipoles on the atoms of every process.", "quantifier": "for all numbers of processes, configurations, sequences of potentials and charges, tolerances and mixing factors (including iterations which are given up), all previous contents of the force vectors, all compile-time variants of the two routines with dipoles", "why_tests_cant": "The dipoles carry history, so that a deviation may show up only after many evaluations and for particular splits of the configurations over processes.", "anchors": ["src/force_elstat.c:268-938", "src/force_eam_elstat.c:306-1213", "src/mpi_utils.c:391-433", "src/force_common.c:gather_forces"]}
{"id": "C112", "title": "Two-band EAM: the objective is the least-squares objective of the infinite periodic crystals", "statement": "Starting from cell vectors, positions and the potential table, the objective of the EAM routine with two bands is the weighted sum of squared deviations of forces, energies and stresses of the infinite periodic crystals whose energy is, with sums over all images of all atoms and no cutoff but the end of each function, the pair energies and the embedding energies of the densities of both bands. Forces are minus the derivatives of this energy when an atom and all its images move, stresses minus the derivatives under homogeneous strain divided by the volume.", "quantifier": "for all numbers of types, tables (equidistant and general), cells with right-handed vectors, positions and reference data, all compile-time variants, with no distance below the begin of a table or exactly at its end and with densities inside the embedding tables", "why_tests_cant": "Potentials whose bands end at the same distance, as usual test data do, never reach the branch in which the second band is left out, and finite differences over the program's own neighbour lists leave out what never enters the lists.", "anchors": ["src/force_eam.c:113-627", "src/config.c:898-960", "src/config.c:1081-1294", "src/potential_input.c:512-560", "src/splines.c:43-456"]}
{"id": "C113", "title": "Potentials with angles: the objective is the least-squares objective of the infinite periodic crystals", "statement": "For Stillinger-Weber, angular and MEAM potentials the objective is the weighted sum of squared deviations of forces, energies and stresses of the infinite periodic crystals whose energy is given by sums over all images of all atoms and over all angles between any two of them, with no cutoff but the end of each function; forces are minus the derivatives of this energy when an atom and all its images move (atoms may enter and leave the range of the functions), stresses minus the derivatives under homogeneous strain divided by the volume. In addition there are the punishments, for MEAM the constraints on the densities of the crystals, and for angular potentials and MEAM constants for reference stresses which are not used.", "quantifier": "for all cells with right-handed vectors, positions, types, reference data and weights, all functions (differentiable at the distances, cosines and densities which occur, ending within the cutoffs of the neighbour lists), all compile-time variants; Stillinger-Weber: pair energies of atoms with their own images count half, so the claim holds where no atom meets its own images and is refuted for small cells", "why_tests_cant": "Tests compare with finite differences over the program's own neighbour lists and a few cells; they neither see angles with images which never enter the lists nor cells so small that atoms meet their own images.", "anchors": ["src/force_stiweb.c:105-383", "src/force_ang.c:113-531", "src/force_meam.c:116-765", "src/config.c:898-960", "src/config.c:1081-1294"]}
{"id": "C114", "title": "Tersoff potentials: the objective is the least-squares objective of the infinite periodic crystals", "statement": "For Tersoff and modified Tersoff potentials the objective is the weighted sum of squared deviations of forces, energies and stresses of the infinite periodic crystals, plus the punishments. The energy of a crystal is given by closed formulas: half the repulsion f_C A exp(-lambda r) summed over all images of all atoms, plus the attraction of every bond, whose strength depends on the sum of zeta over all other atoms and images around the first atom, with no cutoff but that of the function f_C. Forces are minus the derivatives of this energy when an atom and all its images move (atoms may enter and leave the range), stresses minus the derivatives under homogeneous strain divided by the volume.", "quantifier": "for all cells with right-handed vectors, positions, types, reference data and weights, all admissible parameters (cut-off radii in order and within the cutoffs of the neighbour lists, gamma, n, omega positive, d not zero; modified: c1, c3 positive, c2, c4 not negative, beta a positive integer), no distance equal to a cut-off radius; the repulsion of atoms with their own images counts half, so the claim holds where no atom meets its own images and is refuted for small cells", "why_tests_cant": "Bond orders couple all neighbours; tests with finite differences over the program's own neighbour lists neither see atoms which never enter the lists nor cells so small that atoms meet their own images.", "anchors": ["src/force_tersoff.c:106-430", "src/force_tersoff.c:438-785", "src/config.c:898-960", "src/config.c:1081-1294"]}
{"id": "C115", "title": "Point charges: the objective is the least-squares objective of the infinite periodic crystals", "statement": "In builds with COULOMB and without DIPOLE, for pair potentials and for EAM, the objective is the weighted sum of squared deviations of forces, energies and stresses of the infinite periodic crystals, plus the punishments and constraints. The energy of a crystal is the sum over all images of all atoms of the pair functions and of q q' phi(r), minus the self energies s q^2 of the charges (for EAM plus the embedding energies). Here phi is 14.4 erfc(kappa r)/r minus the straight line (DSF) or the parabola in r^2 (otherwise) that makes value and slope vanish at the cutoff, and s is the Ewald self term, with DSF plus half the value and slope terms of the shift. Forces are minus the derivatives of this energy when an atom and all its images move (atoms may enter and leave the range of the charges), stresses minus the derivatives under homogeneous strain divided by the volume.", "quantifier": "for all cells with right-handed vectors however small, positions, types, charges, kappa, cutoffs other than zero, pair (EAM) functions, reference data, weights and compile-time switches; no distance equal to the end of a pair or transfer function (the cutoff of the charges itself may be a distance), embedding functions differentiable at the densities", "why_tests_cant": "Cut off Coulomb sums have no reference values in the test data; tests cover single cells, and neither derive with all images moving nor see charges crossing the cutoff.", "anchors": ["src/force_elstat.c:111-938", "src/force_eam_elstat.c:115-1200", "src/functions.c:414-488", "src/potential_input.c:496-559", "src/config.c:1081-1294"]}
{"id": "C116", "title": "Angular potentials with point charges: the objective is the least-squares objective of the infinite periodic crystals", "statement": "In builds with ANG and COULOMB, without DIPOLE, the objective is the weighted sum of squared deviations of forces, energies and stresses of the infinite periodic crystals, plus the punishments. The energy of a crystal is the sum over all images of all atoms of the pair functions, over all angles of f f g, and over all pairs of charges of the shifted screened Coulomb potential, minus the self energies. Forces are minus the derivatives when an atom and all its images move, stresses minus the derivatives under homogeneous strain divided by the volume.", "quantifier": "for all cells with right-handed vectors however small, positions, types, charges, kappa, cutoffs other than zero, functions, reference data, weights and compile-time switches; no distance equal to the end of a pair or radial function unless it ends smoothly, functions of the cosine differentiable at the angles; radial functions ending within the cutoff of the neighbour lists", "why_tests_cant": "No test potential combines angles with charges; tests cover single cells and cannot derive with all images moving.", "anchors": ["src/force_ang_elstat.c:116-631", "src/functions.c:414-488", "src/potential_input.c:496-559", "src/config.c:1081-1294"]}
{"id": "C117", "title": "Induced dipoles: the objective is the least-squares objective of the infinite periodic crystals at the dipoles found", "statement": "In builds with PAIR, COULOMB and DIPOLE, without DSF, the objective is the weighted sum of squared deviations of forces, energies and stresses of the infinite periodic crystals, plus the punishments. The energy of a crystal is the sum over all images of all atoms of the pair functions, the shifted screened Coulomb potential between charges, charges and dipoles, and dipoles, the short-range damped charge-dipole terms, the polarisation energies p^2/(2 alpha), minus the self energies. Forces are minus the derivatives when an atom and all its images move, stresses minus the derivatives under homogeneous strain divided by the volume. The dipoles are those induced by the field of all charges and dipoles of the infinite crystal.", "quantifier": "for all cells with right-handed vectors however small, positions, types, charges, polarisabilities, damping parameters, kappa, cutoffs other than zero, pair functions, reference data, weights and compile-time switches; no distance equal to the end of a pair function unless it ends smoothly", "why_tests_cant": "Tests compare sums over the lists of a few cells with stored numbers; they cannot derive with all images moving, nor compare the iterated dipoles with the field of the infinite crystal for all parameters.", "anchors": ["src/force_elstat.c:111-938", "src/functions.c:414-555", "src/potential_input.c:496-559", "src/config.c:1081-1294"]}
{"id": "C118", "title": "EAM with induced dipoles: the objective is the least-squares objective of the infinite periodic crystals at the dipoles found", "statement": "In builds with EAM, COULOMB and DIPOLE, without DSF, the objective is the weighted sum of squared deviations of forces, energies and stresses of the infinite periodic crystals, plus the limiting constraints, punishments and gauge errors. The energy of a crystal is that of the EAM potential plus that of charges and dipoles over all images of all atoms, plus the polarisation energies, minus the self energies. Forces are minus the derivatives when an atom and all its images move, stresses minus the derivatives under homogeneous strain divided by the volume. The dipoles are those induced by the field of all charges and dipoles of the infinite crystal.", "quantifier": "for all cells with right-handed vectors however small, positions, types, charges, polarisabilities, damping parameters, kappa, cutoffs other than zero, EAM functions, reference data, weights and compile-time switches; no distance equal to the end of a pair or transfer function unless it ends smoothly, embedding functions differentiable at the densities", "why_tests_cant": "No test potential combines EAM with dipoles; tests cannot derive with all images moving, nor compare the iterated dipoles with the field of the infinite crystal for all parameters.", "anchors": ["src/force_eam_elstat.c:111-1213", "src/functions.c:414-555", "src/potential_input.c:496-559", "src/config.c:1081-1294"]}
{"id": "C119", "title": "Parameter files for IMD contain the parameters of the fitted potential in the places IMD reads them", "statement": "With imdpot, Stillinger-Weber and Tersoff potentials are written as IMD parameters: each line has one number per pair of types in the order 00, 01, .., 11, 12, .., equal to that parameter of the pair's function, which is also the value the force routine uses. The three-body parameters are ordered by the pair of neighbours and then by the central atom. Mixing parameters are those used for the mixed pairs. The electrostatics file has the charges of all types including the neutralising one, kappa, cutoff, the parameters of the short-range functions, the cutoff of each pair, polarisabilities and damping parameters.", "quantifier": "for all numbers of types, parameters, functions, charges, cutoffs and damping parameters (mixing: at most two types; electrostatics: at least three functions, all of one kind and with the same end)", "why_tests_cant": "No test reads IMD files back; orders and missing entries show only with three or more types, reading behind the end of the names only with one.", "anchors": ["src/potential_output_imd.c:46-168", "src/potential_output_imd.c:634-720", "src/force_stiweb.c:390-510", "src/force_tersoff.c:793-990"]}
{"id": "C120", "title": "Differential evolution: control parameters stay in their intervals, trials follow best + F (a - b), selection never makes a row worse, and the end means what it says", "statement": "In every generation there are 15 (ndimtot + 2) individuals, each with a factor F in [0.1, 1) and a crossover rate in [0, 1), redrawn with probability 0.1 each. Every free parameter of a trial vector is either that of the individual or best + F (a - b) for two individuals a and b, brought back to the nearest bound. The rate of opposition steps is 0.6 times a power of 0.9, reduced after every eleventh such step. Without opposition steps (tabulated potentials) each individual stays or is replaced by its trial if that is not worse, and when the algorithm ends without the break flag, either the best cost is below the threshold or the costs of any two individuals differ by less than it.", "quantifier": "for all objectives, dimensions, free parameters, bounds, start vectors, thresholds, numbers of generations and random numbers from [0, 1)", "why_tests_cant": "Runs are random; tests of the program use one seed and look at the result only, not at the parameters each individual carries nor at the spread of the population at the end.", "anchors": ["src/diff_evo.c:43-75", "src/diff_evo.c:340-504"]}
{"id": "C121", "title": "Electrostatic tail functions stored with the neighbours belong to the kappa of the current evaluation", "statement": "In every force evaluation with point charges or dipoles, all loops over neighbours see the screened Coulomb functions of the kappa in the current parameter vector: if kappa is free they are recomputed in the first loop over neighbours before they are used, if its bounds are equal they are computed once at the start and serve all evaluations. Worker processes of a parallel run do not get the switch and recompute, whatever values they received.", "quantifier": "for all neighbour lists, stored values, bounds and values of kappa, tail functions, and sequences of earlier evaluations; a kappa with equal bounds is the same in all evaluations", "why_tests_cant": "The source has a FIXME at this place; a stale value gives slightly wrong energies only after kappa has changed, and depends on the history of evaluations.", "anchors": ["src/force_elstat.c:53-59", "src/force_elstat.c:313-331", "src/force_eam_elstat.c:52-58", "src/force_ang_elstat.c:58-64", "src/functions.c:495-514", "src/potential_input_f0.c:511-522"]}
{"id": "C122", "title": "Maximal changes from the file limit the search directions of the least-squares optimiser", "statement": "With the option maxchfile (tabulated potentials) the program goes on exactly if the file opens and begins with as many numbers as the parameter table has entries; the numbers are the maximal changes in the order of the table. The optimiser then runs line searches only along directions whose components for free parameters do not exceed the positive maximal changes, no parameter changes by more than its maximal change in one step, and a step that is out of range is dropped and the inner loop restarted.", "quantifier": "for all files, tables, objectives, results of the linear solver, start parameters and numbers of iterations", "why_tests_cant": "Limits are exceeded only for particular solutions of the linear system in the middle of a fit; a run that ends early looks like a converged one.", "anchors": ["src/potential_input.c:567-591", "src/powell_lsq.c:201-262", "src/powell_lsq.c:357-359"]}
{"id": "C123", "title": "The file of local electron densities lists the densities of the last evaluation and their means", "statement": "After the final evaluation of an EAM (also two-band or with electrostatics) or ADP potential the file of local electron densities has one line for each atom in the order of the configurations, with number, type and the electron density at the atom, i.e. (first band) the sum of the transfer functions over all neighbours in the infinite crystal, and for each type of atoms the mean of these densities over all configurations.", "quantifier": "for all configurations, potentials, weights, compile-time variants and states of memory before the evaluation", "why_tests_cant": "Densities are left in memory by the force routine, which may change them (range of the embedding function); types without atoms divide by zero.", "anchors": ["src/errors.c:215-269", "src/force_eam.c:286-390", "src/potfit.c:135-184", "src/force_adp.c:210-440", "src/force_eam_elstat.c:306-594"]}
{"id": "C124", "title": "The matrix of minimal distances contains the smallest distances of the crystals", "statement": "After the configurations have been read, either the program stops because there are two types of atoms which lie within their cutoff in none of the infinite crystals, and names the column of such a pair, or it prints a symmetric matrix with a line and a column for each type whose entries are the smallest distances between an atom of the one type and another atom or periodic image of the other type in any of the infinite crystals. Analytic pair functions begin at 95 per cent of these distances.", "quantifier": "for all configurations (cells, positions, types), symmetric cutoffs, half and full neighbour lists", "why_tests_cant": "The smallest distance is found over half lists stored with one of the two atoms and over periodic images; whether all pairs of types and all images are covered cannot be seen from a few structures.", "anchors": ["src/config.c:118-122", "src/config.c:459-480", "src/config.c:571-588", "src/config.c:1227-1230", "src/config.c:1621-1642"]}
{"id": "C125", "title": "An interrupted annealing leaves the best potential found so far in the temporary file", "statement": "With a name given for the intermediate potential: whenever simulated annealing is stopped, after any number of trial steps, the intermediate file has not been written by the annealing if and only if no point evaluated in its loop so far is better than the start, and otherwise it contains the parameters of an evaluated point that is better than the start and not worse than any other evaluated point. After a complete annealing it contains the parameters that are returned, unless these are the start parameters. Whether the file is written does not influence the result.", "quantifier": "for all objectives, random numbers, trial moves, temperatures, flag files and moments of interruption; annealing without rescaling", "why_tests_cant": "Whether the file and the recorded optimum agree depends on which of the two updates (of the current point and of the optimum) precede the writing, in every order of accepted, refused and uphill steps, and interruptions can happen after any of them.", "anchors": ["src/simann.c:335-376", "src/simann.c:361-370", "src/simann.c:332-463"]}
{"id": "C126", "title": "An interrupted differential evolution leaves the best trial vector in the temporary file", "statement": "With a name given for the intermediate potential: whenever differential evolution is stopped, after any number of trial vectors, the intermediate file contains the best parameters found so far: the free parameters of the best vector evaluated, with all other parameters as at the start. After a complete evolution it contains the parameters that are returned. Whether the file is written does not influence the result.", "quantifier": "for all objectives, random numbers, bounds, thresholds, flag files and moments of interruption", "why_tests_cant": "Whether the file and the recorded best agree depends on all orders of better and worse trial vectors, and interruptions can happen after any of them.", "anchors": ["src/diff_evo.c:430-447", "src/diff_evo.c:340-504"]}
