{
 "claims": [
  {
   "property": "C01",
   "status": "proved",
   "theorems": [
    "Verif.Props.C01_symmetric",
    "Verif.Props.C01_file_order",
    "Verif.Props.C01_in_range",
    "Verif.Props.C01_injective",
    "Verif.Props.C01_surjective",
    "Verif.Props.C01_count",
    "Verif.Props.C01_no_truncation",
    "Verif.Props.C01_imd_agrees"
   ],
   "note": "All n and all pairs; enumeration in file order gives 0..n(n+1)/2-1."
  },
  {
   "property": "C02",
   "status": "proved",
   "theorems": [
    "Verif.Props.C02_accepts",
    "Verif.Props.C02_configurations",
    "Verif.Props.C02_balanced",
    "Verif.Props.C02_atoms",
    "Verif.Props.C02_atoms_belong",
    "Verif.Props.C02_scatter"
   ],
   "note": "All process counts, configuration counts and atom counts per configuration."
  },
  {
   "property": "C03",
   "status": "partial",
   "theorems": [
    "Verif.Props.C03_pair",
    "Verif.Props.C03_eam",
    "Verif.Props.C03_stiweb",
    "Verif.Props.C03_tersoff",
    "Verif.Props.C03_tersoffmod",
    "Verif.Props.C03_ang",
    "Verif.Props.C03_meam",
    "Verif.Props.C03_adp",
    "Verif.Props.C03_tbeam",
    "Verif.Props.C03_coulomb",
    "Verif.Props.C03_eam_coulomb",
    "Verif.Props.C03_adp_limit_partial",
    "Verif.Props.C03_adp_limit_violated"
   ],
   "note": "Proved for the pair, EAM, ADP, two-band, Coulomb, EAM with Coulomb, Stillinger-Weber, Tersoff, modified Tersoff, angular and MEAM routines, exact arithmetic, arbitrary previous content of the ranks' vectors; dipoles: C111, angular with charges: C85. The one exception: the ADP routine built without RESCALE writes entries for limiting constraints which are not gathered, so these entries agree only if the vectors held zeros (C03_adp_limit_violated, C03_adp_limit_partial)."
  },
  {
   "property": "C04",
   "status": "proved",
   "theorems": [
    "Verif.Props.C04_spline_ed"
   ],
   "note": "Any ordered field, n >= 2 knots, both end conditions at both ends; division by zero is a fault of the model and is shown not to occur. Exact arithmetic."
  },
  {
   "property": "C05",
   "status": "proved",
   "theorems": [
    "Verif.Props.C05_equidistant",
    "Verif.Props.C05_equidistant_knot",
    "Verif.Props.C05_equidistant_agree",
    "Verif.Props.C05_general",
    "Verif.Props.C05_general_knot",
    "Verif.Props.C05_general_agree",
    "Verif.Props.C05_direct"
   ],
   "note": "Value = cubic polynomial of the interval, slope = its derivative, for arbitrary stored second derivatives. The argument r = end of equidistant tables is C10."
  },
  {
   "property": "C06",
   "status": "proved",
   "theorems": [
    "Verif.Props.C06_no_kinks_ed",
    "Verif.Props.C06_no_kinks_ne"
   ],
   "note": "Over the reals: value differentiable with derivative the slope routine, slope differentiable with continuous derivative, on the open range."
  },
  {
   "property": "C07",
   "status": "proved",
   "theorems": [
    "Verif.Props.C07_same_second_derivatives",
    "Verif.Props.C07_same_values"
   ],
   "note": ""
  },
  {
   "property": "C08",
   "status": "proved",
   "theorems": [
    "Verif.Props.C08_spline_ne"
   ],
   "note": "Any ordered field, strictly increasing knots, n >= 2."
  },
  {
   "property": "C09",
   "status": "proved",
   "theorems": [
    "Verif.Props.C09_adjacent",
    "Verif.Props.C09_brackets",
    "Verif.Props.C09_halves"
   ],
   "note": "Termination is by the decreasing measure of the recursion."
  },
  {
   "property": "C10",
   "status": "partial",
   "theorems": [
    "Verif.Props.C10_lookup_partial",
    "Verif.Props.C10_violated_at_end",
    "Verif.Props.C10_slope_closed",
    "Verif.Props.C10_below_rejected"
   ],
   "note": "The code violates the property at r = end for splint_ed and splint_comb_ed (C10_violated_at_end, for every column). Proved on [begin,end); closed range for splint_grad_ed."
  },
  {
   "property": "C11",
   "status": "proved",
   "theorems": [
    "Verif.Props.C11_inside",
    "Verif.Props.C11_outside",
    "Verif.Props.C11_continuous"
   ],
   "note": ""
  },
  {
   "property": "C12",
   "status": "proved",
   "theorems": [
    "Verif.Props.C12_equidistant",
    "Verif.Props.C12_general",
    "Verif.Props.C12_components",
    "Verif.Props.C12_update"
   ],
   "note": "Also covers r = end, where the stored slot is clamped to the last interval."
  },
  {
   "property": "C13",
   "status": "proved",
   "theorems": [
    "Verif.Props.C13_layout",
    "Verif.Props.C13_increasing",
    "Verif.Props.C13_exactly_free",
    "Verif.Props.C13_fits"
   ],
   "note": "Tabulated formats 3 and 4; the readers' loops build the index list, increasing, listing exactly the free table entries and fitting the table."
  },
  {
   "property": "C14",
   "status": "partial",
   "theorems": [
    "Verif.Props.C14_exact",
    "Verif.Props.C14_file_partial",
    "Verif.Props.C14_violated"
   ],
   "note": "Holds for bounds given in increasing order (C14_file_partial); C14_violated is a witness file whose swapped bounds leave the start value outside. C14_exact gives the exact condition."
  },
  {
   "property": "C15",
   "status": "proved",
   "theorems": [
    "Verif.Props.C15_fresh",
    "Verif.Props.C15_effective_unique"
   ],
   "note": "For every history of evaluations after the initial full update; GoodGlobals: references name existing parameters, one global each, globals stored behind the potentials."
  },
  {
   "property": "C16",
   "status": "proved",
   "theorems": [
    "Verif.Props.C16_pair",
    "Verif.Props.C16_eam"
   ],
   "note": ""
  },
  {
   "property": "C17",
   "status": "partial",
   "theorems": [
    "Verif.Props.C17_pair",
    "Verif.Props.C17_eam",
    "Verif.Props.C17_embed_inside",
    "Verif.Props.C17_embed_outside",
    "Verif.Props.C17_lists",
    "Verif.Props.C17_rescale_violated"
   ],
   "note": "Proved for pair and EAM for all configurations, positions and potentials whose tabulated slopes are the derivatives, no distance being exactly the range of a function. Violated with RESCALE for densities outside the tabulated range (C17_rescale_violated): the energy is clamped, the slope is not."
  },
  {
   "property": "C18",
   "status": "proved",
   "theorems": [
    "Verif.Props.C18_pair",
    "Verif.Props.C18_pair_apot",
    "Verif.Props.C18_eam",
    "Verif.Props.C18_pair_nonneg",
    "Verif.Props.C18_pair_zero_iff",
    "Verif.Props.C18_eam_nonneg",
    "Verif.Props.C18_eam_zero_iff"
   ],
   "note": "Pair and EAM routines; EAM adds limiting and gauge constraints, APOT the punishments."
  },
  {
   "property": "C19",
   "status": "proved",
   "theorems": [
    "Verif.Props.C19_pair",
    "Verif.Props.C19_eam",
    "Verif.Props.C19_needs_half_list"
   ],
   "note": "Half lists are a hypothesis here; init_neighbors produces them (C23)."
  },
  {
   "property": "C20",
   "status": "partial",
   "theorems": [
    "Verif.Props.C20_pair",
    "Verif.Props.C20_eam",
    "Verif.Props.C20_stiweb",
    "Verif.Props.C20_tersoff",
    "Verif.Props.C20_tersoffmod",
    "Verif.Props.C20_ang",
    "Verif.Props.C20_meam",
    "Verif.Props.C20_adp",
    "Verif.Props.C20_tbeam",
    "Verif.Props.C20_coulomb",
    "Verif.Props.C20_eam_coulomb",
    "Verif.Props.C20_punish_violated",
    "Verif.Props.C20_kim_force_violated",
    "Verif.Props.C20_kim_param_violated",
    "Verif.Props.C20_kim_partial"
   ],
   "note": "Pair, EAM, ADP, two-band, Coulomb, EAM with Coulomb, Stillinger-Weber, Tersoff, modified Tersoff, angular and MEAM: returned value and force/energy/stress entries never depend on the past (proved). The code violates the property for punishment entries (stale punishments stay), for KIM (forces accumulate; initial parameter values are not handed back to the model) and with dipoles (C68_memory; C111 states what they depend on)."
  },
  {
   "property": "C21",
   "status": "partial",
   "theorems": [
    "Verif.Props.C21_pair",
    "Verif.Props.C21_eam",
    "Verif.Props.C21_full",
    "Verif.Props.C21_super_pair",
    "Verif.Props.C21_super_eam",
    "Verif.Props.C21_super_full",
    "Verif.Props.C21_selfHalf_partial",
    "Verif.Props.C21_selfHalf_single",
    "Verif.Props.C21_selfHalf_violated"
   ],
   "note": "Proved for pair, EAM (energies including embedding) and for the pair energy of ANG and MEAM, for every cell and every supercell along an axis. Violated by Stillinger-Weber and Tersoff (C21_selfHalf_violated; a one-atom cell always gets half of the energy); those are right if no atom meets its own image."
  },
  {
   "property": "C22",
   "status": "partial",
   "theorems": [
    "Verif.Props.C22_inside",
    "Verif.Props.C22_disjoint_partial",
    "Verif.Props.C22_pot_iff",
    "Verif.Props.C22_violated",
    "Verif.Props.C22_tbeam_violated",
    "Verif.Props.C22_kim_violated",
    "Verif.Props.C22_tabulated"
   ],
   "note": "All places lie inside the vector; disjoint for tabulated potentials. Violated for analytic potentials: punishments of potentials overlap those of parameters (C22_pot_iff gives the exact condition), TBEAM+APOT, and KIM."
  },
  {
   "property": "C23",
   "status": "proved",
   "theorems": [
    "Verif.Props.C23_complete",
    "Verif.Props.C23_entry",
    "Verif.Props.C23_overlap_iff",
    "Verif.Props.C23_half",
    "Verif.Props.C23_needs_cell"
   ],
   "note": "init_neighbors over the reals for every cell, cutoffs and positions inside the cell; C23_needs_cell shows that the hypothesis on positions is needed."
  },
  {
   "property": "C24",
   "status": "partial",
   "theorems": [
    "Verif.Props.C24_partial",
    "Verif.Props.C24_right_handed_partial",
    "Verif.Props.C24_violated"
   ],
   "note": "Duality holds for every cell with nonzero volume; the stored volume is the determinant, which is negative for left-handed cells (C24_violated), so 'absolute determinant' fails there."
  },
  {
   "property": "C25",
   "status": "proved",
   "theorems": [
    "Verif.Props.C25_meam",
    "Verif.Props.C25_ang",
    "Verif.Props.C25_stiweb",
    "Verif.Props.C25_tersoff",
    "Verif.Props.C25_count_half",
    "Verif.Props.C25_count_full",
    "Verif.Props.C25_count_ang"
   ],
   "note": "init_angles and the four angle walks, entries as arbitrary functions of the pair. For ANG only pairs within the range of f are stored (C25_count_ang)."
  },
  {
   "property": "C26",
   "status": "proved",
   "theorems": [
    "Verif.Props.C26_linmin",
    "Verif.Props.C26_bracket",
    "Verif.Props.C26_brent",
    "Verif.Props.C26_vertex"
   ],
   "note": "All objectives with residual vectors over an ordered field, buffers and pointer swaps included; error exits are the subject of C27."
  },
  {
   "property": "C27",
   "status": "proved",
   "theorems": [
    "Verif.Props.C27_linmin",
    "Verif.Props.C27_bracket",
    "Verif.Props.C27_brent"
   ],
   "note": "At most 202 evaluations per line search; error exits (as for a constant objective) count as termination."
  },
  {
   "property": "C28",
   "status": "proved",
   "theorems": [
    "Verif.Props.C28_monotone",
    "Verif.Props.C28_free",
    "Verif.Props.C28_terminates",
    "Verif.Props.C28_terminates_real",
    "Verif.Props.C28_flag",
    "Verif.Props.C28_flag_ends"
   ],
   "note": "Arbitrary objective, solver results and flag file. Builds with RESCALE: the monotone part and termination need that rescaling does not increase the objective, and the statement about free parameters is for builds without RESCALE. Termination needs a non-negative objective."
  },
  {
   "property": "C29",
   "status": "partial",
   "theorems": [
    "Verif.Props.C29_best",
    "Verif.Props.C29_apot",
    "Verif.Props.C29_trials_violated",
    "Verif.Props.C29_tab_violated"
   ],
   "note": "C29_best: optimum, start value and all points evaluated in the annealing loop, for all random numbers. Violated: points evaluated while determining the start temperature are not considered (C29_trials_violated); tabulated potentials can change a fixed entry (C29_tab_violated). Rescaling and the saved ranges of MEAM are in C93."
  },
  {
   "property": "C30",
   "status": "partial",
   "theorems": [
    "Verif.Props.C30_apot",
    "Verif.Props.C30_tab_partial",
    "Verif.Props.C30_violated",
    "Verif.Props.C30_out_of_bounds"
   ],
   "note": "Holds for analytic potentials. For tabulated ones the test n + i <= ndim admits one entry too many (C30_violated); C30_tab_partial shows that this is the only exception."
  },
  {
   "property": "C31",
   "status": "partial",
   "theorems": [
    "Verif.Props.C31_partial",
    "Verif.Props.C31_violated",
    "Verif.Props.C31_phase_violated"
   ],
   "note": "Holds for all random sequences and objectives if lower bounds are at most 10e30 and upper bounds at least -10e30 and evaluations keep free parameters within their bounds; beyond that the opposition step can leave the bounds (C31_violated), and phases are turned out of their bounds by the first evaluation, their opposites too (C31_phase_violated). Changes of the vectors in place by evaluations are modelled."
  },
  {
   "property": "C32",
   "status": "partial",
   "theorems": [
    "Verif.Props.C32_paired",
    "Verif.Props.C32_survivors",
    "Verif.Props.C32_partition_partial",
    "Verif.Props.C32_violated",
    "Verif.Props.C32_survival_violated"
   ],
   "note": "Pairing of individuals and costs is proved for all inputs. Ordering is violated: partition does not advance its index when the first element is small; [1,2,3] is sorted to [2,3,1], and a population of 45 loses its best individual."
  },
  {
   "property": "C33",
   "status": "partial",
   "theorems": [
    "Verif.Props.C33_monotone",
    "Verif.Props.C33_partial",
    "Verif.Props.C33_value_partial",
    "Verif.Props.C33_start_violated",
    "Verif.Props.C33_jump_violated"
   ],
   "note": "Monotonicity is proved in full. The final parameters are the best individual's among first population and trial vectors if one individual of the first population costs less than 10e10 (evaluations may change vectors in place); otherwise the zero vector is returned (C33_start_violated). Better individuals from opposition steps are not recorded (C33_jump_violated)."
  },
  {
   "property": "C34",
   "status": "partial",
   "theorems": [
    "Verif.Props.C34_sorted",
    "Verif.Props.C34_outer_partial",
    "Verif.Props.C34_total",
    "Verif.Props.C34_multi",
    "Verif.Props.C34_interior_violated",
    "Verif.Props.C34_continuity_violated",
    "Verif.Props.C34_reads_violated"
   ],
   "note": "Sorting proved in full. Interpolation is right at or below the first node, above the last node, for pure compositions and for three or more types. Refuted: between two nodes the wrong entries of the value list are used (off by one), the offset jumps at nodes, and the search reads the entry behind the node list. Composition nodes are only read with the disabled flag CN."
  },
  {
   "property": "C35",
   "status": "partial",
   "theorems": [
    "Verif.Props.C35_meaning",
    "Verif.Props.C35_equiv",
    "Verif.Props.C35_blank",
    "Verif.Props.C35_case",
    "Verif.Props.C35_order",
    "Verif.Props.C35_last",
    "Verif.Props.C35_bounds_partial",
    "Verif.Props.C35_decimal",
    "Verif.Props.C35_nan_violated",
    "Verif.Props.C35_wrap_violated",
    "Verif.Props.C35_long_violated",
    "Verif.Props.C35_kim_violated"
   ],
   "note": "Full semantics for files with lines of at most 1021 characters, for every build, any strtod, any old buffer contents. Refuted: nan passes the bounds test, integers beyond int wrap into the bounds, the tail of an overlong line is taken as a line of its own; kim_model_params without value compares with a null pointer."
  },
  {
   "property": "C36",
   "status": "proved",
   "theorems": [
    "Verif.Props.C36_released"
   ],
   "note": "For an arbitrary conforming allocator (moving reallocs, reused addresses, failures) and arbitrary sequences of wrapper and direct library calls."
  },
  {
   "property": "C37",
   "status": "partial",
   "theorems": [
    "Verif.Props.C37_partial",
    "Verif.Props.C37_line",
    "Verif.Props.C37_unix",
    "Verif.Props.C37_fgets",
    "Verif.Props.C37_tail_violated",
    "Verif.Props.C37_lone_violated"
   ],
   "note": "Exact up to the first line feed. Refuted: the terminator is not copied, so that \"abc\\r\\n\" reads as \"abc\\n\\n\"; carriage returns not followed by a line feed are kept."
  },
  {
   "property": "C38",
   "status": "proved",
   "theorems": [
    "Verif.Props.C38_same_number",
    "Verif.Props.C38_mass",
    "Verif.Props.C38_range",
    "Verif.Props.C38_unknown"
   ],
   "note": "The table of the source, including its misspelt names, is the model's table."
  },
  {
   "property": "C39",
   "status": "proved",
   "theorems": [
    "Verif.Props.C39_total",
    "Verif.Props.C39_range",
    "Verif.Props.C39_vanishes",
    "Verif.Props.C39_smooth",
    "Verif.Props.C39_potential"
   ],
   "note": "apot_cutoff over the reals; C^3 statement by ContDiff."
  },
  {
   "property": "C40",
   "status": "proved",
   "theorems": [
    "Verif.Props.C40_cutoff",
    "Verif.Props.C40_force",
    "Verif.Props.C40_slope",
    "Verif.Props.C40_second",
    "Verif.Props.C40_dsf_second"
   ],
   "note": "Electrostatic tail functions over the reals, erfc defined by its integral. C40_dsf_second: the derivative relation fails for DSF combined with dipoles; the build script refuses this combination."
  },
  {
   "property": "C41",
   "status": "partial",
   "theorems": [
    "Verif.Props.C41_value",
    "Verif.Props.C41_slope_partial",
    "Verif.Props.C41_slope_iff",
    "Verif.Props.C41_ms_violated",
    "Verif.Props.C41_buck_violated"
   ],
   "note": "The shifted values vanish at the cutoff for all parameters. The slopes do not: ms_init lacks a factor r, buck_init has one too many; C41_slope_iff says exactly when the slope vanishes, C41_*_violated give witnesses."
  },
  {
   "property": "C42",
   "status": "proved",
   "theorems": [
    "Verif.Props.C42_consistent"
   ],
   "note": ""
  },
  {
   "property": "C43",
   "status": "partial",
   "theorems": [
    "Verif.Props.C43_partial",
    "Verif.Props.C43_rounding_violated"
   ],
   "note": "Proved in exact arithmetic for every list of potentials and all parameters. In double precision the loops need not end (C43_rounding_violated)."
  },
  {
   "property": "C44",
   "status": "partial",
   "theorems": [
    "Verif.Props.C44_partial",
    "Verif.Props.C44_nonEqDist",
    "Verif.Props.C44_content_partial",
    "Verif.Props.C44_violated",
    "Verif.Props.C44_violated_always",
    "Verif.Props.C44_meam_violated"
   ],
   "note": "A missing break lets the writer of format 4 overwrite every equidistant table (C44_violated_always). C44_content_partial: for pair, EAM and ADP the functions are nevertheless the same; for MEAM data are lost (C44_meam_violated)."
  },
  {
   "property": "C45",
   "status": "partial",
   "theorems": [
    "Verif.Props.C45_energy",
    "Verif.Props.C45_tables",
    "Verif.Props.C45_slopes",
    "Verif.Props.C45_partial",
    "Verif.Props.C45_range",
    "Verif.Props.C45_shift",
    "Verif.Props.C45_slopes_violated",
    "Verif.Props.C45_violated",
    "Verif.Props.C45_range_violated",
    "Verif.Props.C45_factor",
    "Verif.Props.C45_centre",
    "Verif.Props.C45_pair_slopes"
   ],
   "note": "Proved: the energy calc_forces reports is gauge invariant at the level of functions (C45_energy); the tables rescale writes are the gauge transform at their nodes (C45_tables); energies of configurations on the grid are unchanged (C45_partial, with the spline routines of the code satisfying its hypothesis on splines). False in general because embedding functions are re-sampled at new nodes (C45_violated), because self images are left out of the densities from which the range is found (C45_range_violated), and because end slopes get the wrong sign when the dominant side is negative (C45_slopes_violated)."
  },
  {
   "property": "C46",
   "status": "proved",
   "theorems": [
    "Verif.Props.C46_symmetric",
    "Verif.Props.C46_quadratic",
    "Verif.Props.C46_derivatives",
    "Verif.Props.C46_params",
    "Verif.Props.C46_minimum",
    "Verif.Props.C46_single"
   ],
   "note": ""
  },
  {
   "property": "C47",
   "status": "proved",
   "theorems": [
    "Verif.Props.C47_move",
    "Verif.Props.C47_downhill",
    "Verif.Props.C47_metropolis",
    "Verif.Props.C47_proposal",
    "Verif.Props.C47_sample",
    "Verif.Props.C47_ensemble",
    "Verif.Props.C47_last_weight"
   ],
   "note": "mc_moves itself leaves rejected parameters in the table; generate_mc_sample sets them back before the next proposal (C47_sample). The last line of an ensemble repeats the weight of the line before (C47_last_weight)."
  },
  {
   "property": "C48",
   "status": "partial",
   "theorems": [
    "Verif.Props.C48_pair",
    "Verif.Props.C48_three_partial",
    "Verif.Props.C48_cutoff_violated",
    "Verif.Props.C48_repulsive_violated"
   ],
   "note": "Pair part equal at every distance. Three-body part equal when both cutoffs agree, up to the rim of width 0.01 gamma in front of the cutoff where potfit sets it to zero (difference bounded). Not equal when the cutoffs differ (C48_cutoff_violated); division by zero when B = 0 (C48_repulsive_violated)."
  },
  {
   "property": "C49",
   "status": "partial",
   "theorems": [
    "Verif.Props.C49_base",
    "Verif.Props.C49_partial",
    "Verif.Props.C49_violated"
   ],
   "note": "Pointers without global parameters are right for every number of types; global parameters only for triples with the last pair of types, any other leads to an access outside of the array."
  },
  {
   "property": "C50",
   "status": "partial",
   "theorems": [
    "Verif.Props.C50_partial",
    "Verif.Props.C50_violated",
    "Verif.Props.C50_global_violated",
    "Verif.Props.C50_global_omega_violated"
   ],
   "note": "Right for one and two types without global mixing parameters; violated for every larger number of types and for global mixing parameters."
  },
  {
   "property": "C51",
   "status": "partial",
   "theorems": [
    "Verif.Props.C51_system",
    "Verif.Props.C51_derivs_partial",
    "Verif.Props.C51_first",
    "Verif.Props.C51_derivs_violated",
    "Verif.Props.C51_replace",
    "Verif.Props.C51_stationary"
   ],
   "note": "Systems are right in all steps. The derivatives are right in the first turn of the outer loop; later gamma_init subtracts forces_2, the residuals of the second best point of the last line search (C51_derivs_violated)."
  },
  {
   "property": "C52",
   "status": "partial",
   "theorems": [
    "Verif.Props.C52_read3",
    "Verif.Props.C52_read4_partial",
    "Verif.Props.C52_roundtrip",
    "Verif.Props.C52_ang_violated",
    "Verif.Props.C52_meam_violated",
    "Verif.Props.C52_tbeam_violated",
    "Verif.Props.C52_invar_violated"
   ],
   "note": "Writing and reading again is proved for all interactions and both formats. Reading stores all numbers except for ANG tables, MEAM and TBEAM in format 4, for which the violation is proved."
  },
  {
   "property": "C53",
   "status": "proved",
   "theorems": [
    "Verif.Props.C53_forces",
    "Verif.Props.C53_balance",
    "Verif.Props.C53_stress",
    "Verif.Props.C53_functions",
    "Verif.Props.C53_lists"
   ],
   "note": "Configurations with conf_uf = 1. Real arithmetic. The array x[2] = {r, x[0]} (force_stiweb.c 167) is read as intended."
  },
  {
   "property": "C54",
   "status": "proved",
   "theorems": [
    "Verif.Props.C54_ang_forces",
    "Verif.Props.C54_ang_balance",
    "Verif.Props.C54_ang_stress",
    "Verif.Props.C54_meam_forces",
    "Verif.Props.C54_meam_balance",
    "Verif.Props.C54_meam_stress",
    "Verif.Props.C54_embed_inside",
    "Verif.Props.C54_embed_outside"
   ],
   "note": "Angular functions are functions of the cosine of the angle; whether the stored slots address that cosine is a separate property. Full lists: C53_lists. With RESCALE and a density outside the range the embedding slope does not fit, as in C17."
  },
  {
   "property": "C55",
   "status": "partial",
   "theorems": [
    "Verif.Props.C55_partial",
    "Verif.Props.C55_code",
    "Verif.Props.C55_violated",
    "Verif.Props.C55_all_violated",
    "Verif.Props.C55_not_binomial"
   ],
   "note": "The code violates the property: k == j compares the turn with the parameter number, so no parameter is certain unless the loop starts at parameter 1, and then all but number 0 are. Proved: exact description of the loop for all inputs, and the random part of the claim."
  },
  {
   "property": "C56",
   "status": "partial",
   "theorems": [
    "Verif.Props.C56_move_partial",
    "Verif.Props.C56_move_violated",
    "Verif.Props.C56_anneal_partial",
    "Verif.Props.C56_anneal_violated",
    "Verif.Props.C56_powell_partial",
    "Verif.Props.C56_powell_violated"
   ],
   "note": "The code violates the property: after ten draws outside the last one is taken, and the line search goes beyond the limited step. Proved: single moves, whole annealing runs if among ten random numbers in a row both middle quarters occur, and the full step of the least-squares optimiser."
  },
  {
   "property": "C57",
   "status": "proved",
   "theorems": [
    "Verif.Props.C57_metropolis",
    "Verif.Props.C57_outcomes",
    "Verif.Props.C57_accept_iff",
    "Verif.Props.C57_downhill"
   ],
   "note": "Lebesgue measure of the random numbers in [0,1) leading to acceptance; exact arithmetic."
  },
  {
   "property": "C58",
   "status": "partial",
   "theorems": [
    "Verif.Props.C58_rescale",
    "Verif.Props.C58_rescale_meam",
    "Verif.Props.C58_partial",
    "Verif.Props.C58_above",
    "Verif.Props.C58_violated"
   ],
   "note": "The code violates the property above the range: value half a step before the end is used with the distance from the end. Proved below and inside the range and with RESCALE."
  },
  {
   "property": "C59",
   "status": "partial",
   "theorems": [
    "Verif.Props.C59_partial",
    "Verif.Props.C59_energy_violated",
    "Verif.Props.C59_energy_violated_general"
   ],
   "note": "The code violates the property: the total energy is compared with the reference energy per atom. Proved: forces, stresses, sum of squares; energies for one atom."
  },
  {
   "property": "C60",
   "status": "partial",
   "theorems": [
    "Verif.Props.C60_pair_partial",
    "Verif.Props.C60_eam_partial",
    "Verif.Props.C60_punish",
    "Verif.Props.C60_violated",
    "Verif.Props.C60_punish_violated"
   ],
   "note": "The code violates the property for weights other than one and for punishments. Proved for unit weights, tabulated pair and EAM potentials (EAM without RESCALE)."
  },
  {
   "property": "C61",
   "status": "proved",
   "theorems": [
    "Verif.Props.C61_forces",
    "Verif.Props.C61_balance",
    "Verif.Props.C61_stress",
    "Verif.Props.C61_mod_forces",
    "Verif.Props.C61_mod_balance",
    "Verif.Props.C61_mod_stress"
   ],
   "note": "Configurations with conf_uf = 1. Real arithmetic and real library functions. Distances exactly at the cutoff radius are left out: there a bond order with exponent n <= 1/2 has a kink."
  },
  {
   "property": "C62",
   "status": "partial",
   "theorems": [
    "Verif.Props.C62_lines",
    "Verif.Props.C62_partial",
    "Verif.Props.C62_mod_partial",
    "Verif.Props.C62_chi_violated",
    "Verif.Props.C62_omega_violated",
    "Verif.Props.C62_cutoff_violated",
    "Verif.Props.C62_mod_cutoff_violated"
   ],
   "note": "Energies agree if all columns have the same cutoffs and omega, and chi is 1 (always for one type of atoms). Otherwise they do not: chi multiplies B in the exported potential only; the line i j k gets omega and cutoffs of i j where the fitted potential uses those of i k."
  },
  {
   "property": "C63",
   "status": "partial",
   "theorems": [
    "Verif.Props.C63_stiweb",
    "Verif.Props.C63_tersoff",
    "Verif.Props.C63_tersoffmod",
    "Verif.Props.C63_ang_partial",
    "Verif.Props.C63_ang_stress",
    "Verif.Props.C63_ang_unused",
    "Verif.Props.C63_meam_partial",
    "Verif.Props.C63_meam_limit",
    "Verif.Props.C63_ang_stress_violated",
    "Verif.Props.C63_meam_limit_violated",
    "Verif.Props.C63_unused_forces_violated"
   ],
   "note": "Value proved for Stillinger-Weber and both Tersoff routines. Angular potentials and MEAM add the squared reference stresses of configurations which do not use stresses (exact amount proved, violation proved); MEAM squares the weight of the limiting constraint (violation proved; partial theorem for weights 0 and 1 or no excess). Stillinger-Weber and Tersoff leave three-body forces in the entries of configurations with useforce=0 (violation proved)."
  },
  {
   "property": "C64",
   "status": "partial",
   "theorems": [
    "Verif.Props.C64_missing_pair",
    "Verif.Props.C64_rmin",
    "Verif.Props.C64_begin",
    "Verif.Props.C64_begin_attained",
    "Verif.Props.C64_neighbour",
    "Verif.Props.C64_columns",
    "Verif.Props.C64_meam_angle",
    "Verif.Props.C64_ang_angle_partial",
    "Verif.Props.C64_ang_angle_violated",
    "Verif.Props.C64_tabulated_violated"
   ],
   "note": "Distances: proved for all interactions. Angles: proved for analytic MEAM; for analytic angular potentials proved for cosines below 1 (suffix _partial), at cosine 1 the evaluation reads behind the column (violation proved for all inputs); for tabulated potentials no slots are stored at all (violation proved)."
  },
  {
   "property": "C65",
   "status": "proved",
   "theorems": [
    "Verif.Props.C65_pair",
    "Verif.Props.C65_eam"
   ],
   "note": "Strain derivative of the reported energy at fixed neighbour lists; volume in the stress is that of the unstrained cell. Hypotheses on smoothness as in C17. TBEAM not modelled."
  },
  {
   "property": "C66",
   "status": "partial",
   "theorems": [
    "Verif.Props.C66_energy",
    "Verif.Props.C66_distortion_nonneg",
    "Verif.Props.C66_force",
    "Verif.Props.C66_balance",
    "Verif.Props.C66_strain",
    "Verif.Props.C66_stress_partial",
    "Verif.Props.C66_stress_violated",
    "Verif.Props.C66_objective"
   ],
   "note": "Energy, forces, sum of forces and objective as stated. Stresses: exact formula in C66_strain; they are the derivative if no atom lies within the quadrupole range of its own image (C66_stress_partial). The code halves the quadrupole contribution of own images twice, so the stress is wrong there: C66_stress_violated."
  },
  {
   "property": "C67",
   "status": "proved",
   "theorems": [
    "Verif.Props.C67_energy",
    "Verif.Props.C67_force",
    "Verif.Props.C67_stress",
    "Verif.Props.C67_balance",
    "Verif.Props.C67_objective",
    "Verif.Props.C67_no_memory",
    "Verif.Props.C67_neutral",
    "Verif.Props.C67_last_charge",
    "Verif.Props.C67_neutral_conf",
    "Verif.Props.C67_force_program",
    "Verif.Props.C67_stress_program",
    "Verif.Props.C67_self_dsf",
    "Verif.Props.C67_self_shift"
   ],
   "note": "Build without DIPOLE. Forces and stresses at fixed neighbour lists, where no distance equals the cutoff of a potential; at the Coulomb cutoff the tails of the program are proved differentiable."
  },
  {
   "property": "C68",
   "status": "partial",
   "theorems": [
    "Verif.Props.C68_terminates",
    "Verif.Props.C68_outcome",
    "Verif.Props.C68_self_consistent_partial",
    "Verif.Props.C68_others",
    "Verif.Props.C68_mixing_violated",
    "Verif.Props.C68_memory"
   ],
   "note": "Termination, locality and the exact form of the outcome hold in general. Self-consistency up to the tolerance holds without mixing (dp_mix = 0); with mixing it fails: C68_mixing_violated. The result depends on the fields left by the evaluation before: C68_memory."
  },
  {
   "property": "C69",
   "status": "partial",
   "theorems": [
    "Verif.Props.C69_energy",
    "Verif.Props.C69_error",
    "Verif.Props.C69_force_partial",
    "Verif.Props.C69_stress_partial",
    "Verif.Props.C69_program_smooth",
    "Verif.Props.C69_balance",
    "Verif.Props.C69_variation",
    "Verif.Props.C69_self_consistent_derivative",
    "Verif.Props.C69_opposite_sign_stationary",
    "Verif.Props.C69_kept",
    "Verif.Props.C69_gradient_violated",
    "Verif.Props.C69_neutral_violated"
   ],
   "note": "Energy, contribution to the objective and sum of forces as stated, if polarisable neighbours carry charges (C69_neutral_violated: without that the reported energy is another one). Forces and stresses are the derivatives at fixed dipoles. With dipoles following the atoms they are not (C69_gradient_violated), because the field of the dipoles enters the dipoles with the sign opposite to that of the energy: C69_variation, C69_self_consistent_derivative, C69_opposite_sign_stationary."
  },
  {
   "property": "C70",
   "status": "partial",
   "theorems": [
    "Verif.Props.C70_table",
    "Verif.Props.C70_index_partial",
    "Verif.Props.C70_index_order_partial",
    "Verif.Props.C70_one_place_partial",
    "Verif.Props.C70_idxlen",
    "Verif.Props.C70_cp_start",
    "Verif.Props.C70_globals_partial",
    "Verif.Props.C70_elstat_partial",
    "Verif.Props.C70_globals_violated",
    "Verif.Props.C70_elstat_violated",
    "Verif.Props.C70_mixed_up_violated",
    "Verif.Props.C70_unused_globals_violated",
    "Verif.Props.C70_fixed_chem_violated"
   ],
   "note": "Vector, number of degrees of freedom and place of the chemical potentials as stated. The code violates the rest: with electrostatic parameters the place of the global parameters is that of the charges (C70_globals_violated), electrostatic parameters are taken from places further on if global parameters are defined (C70_elstat_violated), outside of the vector if these are not used (C70_unused_globals_violated); a fixed chemical potential shifts all indices behind it (C70_fixed_chem_violated). The _partial theorems exclude these combinations."
  },
  {
   "property": "C71",
   "status": "partial",
   "theorems": [
    "Verif.Props.C71_lines",
    "Verif.Props.C71_analytic",
    "Verif.Props.C71_tabulated",
    "Verif.Props.C71_last",
    "Verif.Props.C71_analytic_force",
    "Verif.Props.C71_tabulated_force_violated",
    "Verif.Props.C71_sign_violated",
    "Verif.Props.C71_undefined_violated"
   ],
   "note": "Lines, distances and energies as stated (tabulated potentials: the last distance is decreased by 0.000001). Analytic potentials: the force is minus the slope at a point between the neighbouring distances. Violated: for tabulated potentials the force has the wrong sign (C71_tabulated_force_violated); undefined values are written, since the test meant to replace them can never be true (C71_undefined_violated)."
  },
  {
   "property": "C72",
   "status": "partial",
   "theorems": [
    "Verif.Props.C72_analytic",
    "Verif.Props.C72_tabulated",
    "Verif.Props.C72_suited",
    "Verif.Props.C72_grid",
    "Verif.Props.C72_header",
    "Verif.Props.C72_distortion_partial",
    "Verif.Props.C72_order_violated",
    "Verif.Props.C72_distortion_violated",
    "Verif.Props.C72_grid_violated"
   ],
   "note": "Embedding functions, densities and pair potentials as stated for any number of elements (undefined values excepted; tabulated: zero where the table does not begin at zero, last argument decreased a little). The step in the header is rounded to six decimals, so arguments are off by up to m/2000000 (C72_grid, C72_grid_violated). ADP: tabulated dipole and quadrupole functions are right for at most two elements (C72_distortion_partial) and in the wrong order for more (C72_order_violated); analytic ones are multiplied by the distance (C72_distortion_violated)."
  },
  {
   "property": "C73",
   "status": "partial",
   "theorems": [
    "Verif.Props.C73_columns",
    "Verif.Props.C73_pair",
    "Verif.Props.C73_last",
    "Verif.Props.C73_type",
    "Verif.Props.C73_embed_partial",
    "Verif.Props.C73_embed_table",
    "Verif.Props.C73_angle_table",
    "Verif.Props.C73_end_violated",
    "Verif.Props.C73_end_example_violated",
    "Verif.Props.C73_embed_violated",
    "Verif.Props.C73_embed_example_violated",
    "Verif.Props.C73_angle_violated"
   ],
   "note": "Columns and all values before the last one as stated. Violated: the last value of functions of distances is zero whatever the potential (C73_end_violated); analytic embedding functions are written without smooth cutoff (C73_embed_violated), tabulated ones get a cubic behind their end (C73_embed_table); analytic angular functions of MEAM are taken from outside of the list of parameters (C73_angle_violated)."
  },
  {
   "property": "C74",
   "status": "partial",
   "theorems": [
    "Verif.Props.C74_pair",
    "Verif.Props.C74_eam",
    "Verif.Props.C74_shares",
    "Verif.Props.C74_stiweb_partial",
    "Verif.Props.C74_tersoff_partial",
    "Verif.Props.C74_tersoffmod_partial",
    "Verif.Props.C74_ang",
    "Verif.Props.C74_meam_partial",
    "Verif.Props.C74_adp",
    "Verif.Props.C74_tbeam",
    "Verif.Props.C74_elstat",
    "Verif.Props.C74_eamel",
    "Verif.Props.C74_angel",
    "Verif.Props.C74_kim_sums",
    "Verif.Props.C74_kim_partial",
    "Verif.Props.C74_kim_violated",
    "Verif.Props.C74_force_rows_partial",
    "Verif.Props.C74_force_rows_unused",
    "Verif.Props.C74_energy_rows",
    "Verif.Props.C74_stress_rows_partial",
    "Verif.Props.C74_rms_force_partial",
    "Verif.Props.C74_rms_energy",
    "Verif.Props.C74_rms_stress_partial",
    "Verif.Props.C74_unit_violated",
    "Verif.Props.C74_unused_violated",
    "Verif.Props.C74_force_rows_violated",
    "Verif.Props.C74_rms_violated",
    "Verif.Props.C74_rms_none"
   ],
   "note": "Sums: proved for pair, EAM, ADP, two-band and angular potentials and for those with charges and dipoles without restriction, for Stillinger-Weber, Tersoff and MEAM if all configurations use forces and stresses, for KIM models if all weights are one; otherwise violated: Stillinger-Weber and Tersoff leave forces of configurations which do not use them in the force vector, where they are reported as errors (C74_unused_violated); with KIM models the entries hold the roots of the weights already and the report applies the weights once more (C74_kim_sums, C74_kim_violated). Lines and root mean squares (pair potentials): proved for used data; for configurations which do not use forces the reference force is printed as the computed one (C74_force_rows_violated) and counted as reproduced exactly in the mean (C74_rms_violated). The number of MPa is wrong by the factor 160.2 squared (C74_unit_violated)."
  },
  {
   "property": "C75",
   "status": "partial",
   "theorems": [
    "Verif.Props.C75_read",
    "Verif.Props.C75_reject",
    "Verif.Props.C75_unique",
    "Verif.Props.C75_accepted",
    "Verif.Props.C75_counts",
    "Verif.Props.C75_reference",
    "Verif.Props.C75_room",
    "Verif.Props.C75_memory_partial",
    "Verif.Props.C75_confs",
    "Verif.Props.C75_lower_case_violated",
    "Verif.Props.C75_ignored_line_violated",
    "Verif.Props.C75_memory_violated"
   ],
   "note": "Reader and specification agree for all files (C75_read); reference values are in the right entries (C75_reference) and the theorems on force routines apply to the result (C75_confs). Memory is sufficient if no #N line has a negative number (C75_memory_partial, C75_memory_violated). The specification contains two oddities of the code, shown by C75_lower_case_violated and C75_ignored_line_violated. Characters: C97."
  },
  {
   "property": "C76",
   "status": "partial",
   "theorems": [
    "Verif.Props.C76_names_partial",
    "Verif.Props.C76_accept_partial",
    "Verif.Props.C76_default_partial",
    "Verif.Props.C76_first_line",
    "Verif.Props.C76_long_violated",
    "Verif.Props.C76_overwritten_violated"
   ],
   "note": "Proved for names of at most 14 characters which are not the number of their type; violated for others. The names of the first line are cut to 14 characters (C76_first_line)."
  },
  {
   "property": "C77",
   "status": "partial",
   "theorems": [
    "Verif.Props.C77_all",
    "Verif.Props.C77_spheres",
    "Verif.Props.C77_exact",
    "Verif.Props.C77_inside_partial",
    "Verif.Props.C77_outside_partial",
    "Verif.Props.C77_real_sqrt",
    "Verif.Props.C77_outside_violated",
    "Verif.Props.C77_skew_violated",
    "Verif.Props.C77_zero_violated"
   ],
   "note": "Spheres as stated. Boxes: exact condition of the code proved; boxes with right angles contain all inner atoms but also those up to one edge outside (C77_outside_violated); oblique boxes lose inner atoms (C77_skew_violated); a vanishing edge is undefined behaviour (C77_zero_violated)."
  },
  {
   "property": "C78",
   "status": "partial",
   "theorems": [
    "Verif.Props.C78_powell",
    "Verif.Props.C78_anneal",
    "Verif.Props.C78_partial",
    "Verif.Props.C78_temp_partial",
    "Verif.Props.C78_evolve_partial",
    "Verif.Props.C78_read",
    "Verif.Props.C78_reread",
    "Verif.Props.C78_violated",
    "Verif.Props.C78_evolve_violated",
    "Verif.Props.C78_perfect_violated"
   ],
   "note": "As stated whenever the error is not below 1e-12 when Powell begins (or annealing has written a temporary file). Otherwise run_powell_lsq returns before update_apot_table and the old values are written (C78_violated, C78_evolve_violated; example C78_perfect_violated). Decimals of the file are taken as exact; ChemFree and no references together with electrostatic parameters, because of C70."
  },
  {
   "property": "C79",
   "status": "partial",
   "theorems": [
    "Verif.Props.C79_energy",
    "Verif.Props.C79_objective",
    "Verif.Props.C79_no_memory",
    "Verif.Props.C79_force",
    "Verif.Props.C79_stress",
    "Verif.Props.C79_balance",
    "Verif.Props.C79_dipole_energy_partial",
    "Verif.Props.C79_dipole_error_partial",
    "Verif.Props.C79_dipole_force_partial",
    "Verif.Props.C79_dipole_stress_partial",
    "Verif.Props.C79_dipole_balance_partial",
    "Verif.Props.C79_dipole_energy_violated",
    "Verif.Props.C79_range_violated"
   ],
   "note": "Without dipoles everything holds as long as densities stay in the range of the embedding functions; outside of it the forces are not the derivatives (C79_range_violated). With dipoles the theorems need neighbours that are both polarisable or both not, because the wrong polarisability is asked for at force_eam_elstat.c 821 (C79_dipole_energy_violated), and forces are derivatives at fixed dipoles (see C69)."
  },
  {
   "property": "C80",
   "status": "partial",
   "theorems": [
    "Verif.Props.C80_table",
    "Verif.Props.C80_lookup",
    "Verif.Props.C80_assigned",
    "Verif.Props.C80_pseudo",
    "Verif.Props.C80_declared",
    "Verif.Props.C80_numbers_partial",
    "Verif.Props.C80_described_partial",
    "Verif.Props.C80_non_es",
    "Verif.Props.C80_coulomb",
    "Verif.Props.C80_born",
    "Verif.Props.C80_born_violated",
    "Verif.Props.C80_bjs_violated",
    "Verif.Props.C80_strmm_violated",
    "Verif.Props.C80_vpair",
    "Verif.Props.C80_vpair_violated",
    "Verif.Props.C80_gljm_violated",
    "Verif.Props.C80_stiweb",
    "Verif.Props.C80_lj",
    "Verif.Props.C80_morse",
    "Verif.Props.C80_genLj",
    "Verif.Props.C80_universal",
    "Verif.Props.C80_bjs",
    "Verif.Props.C80_poly5",
    "Verif.Props.C80_reduces",
    "Verif.Props.C80_gljm",
    "Verif.Props.C80_decay",
    "Verif.Props.C80_csw",
    "Verif.Props.C80_lj_genLj",
    "Verif.Props.C80_smooth",
    "Verif.Props.C80_rho_violated",
    "Verif.Props.C80_sheng",
    "Verif.Props.C80_lambda"
   ],
   "note": "Names, numbers of parameters and dependence on them: proved for all functions. Formulas agree with the description except for born (order of parameters), strmm, vpair, bjs, and gljm is described with one parameter too few; vpair lacks brackets in the program itself; sheng_rho is not continuous at 1.45. The functions of Sheng have no description to compare with."
  },
  {
   "property": "C81",
   "status": "partial",
   "theorems": [
    "Verif.Props.C81_meaning",
    "Verif.Props.C81_ready_partial",
    "Verif.Props.C81_weight_violated",
    "Verif.Props.C81_name_violated",
    "Verif.Props.C81_steps_violated",
    "Verif.Props.C81_dipole_violated",
    "Verif.Props.C81_dipole_static"
   ],
   "note": "What is accepted and what the run starts with is proved for all files (lines of at most 1021 characters, see C35). Not everything needed later is checked: energy weight, names of files to write, number of points, tolerance of the dipoles; not-a-number passes every test (C35_nan_violated)."
  },
  {
   "property": "C82",
   "status": "proved",
   "theorems": [
    "Verif.Props.C82_range",
    "Verif.Props.C82_periodic",
    "Verif.Props.C82_certified",
    "Verif.Props.C82_sse2",
    "Verif.Props.C82_unseeded",
    "Verif.Props.C82_index"
   ],
   "note": "The state is modelled bit by bit (BitVec). rand() of the C library is an arbitrary sequence of words. That the certified states have period at least 2^19937-1 is a property of the polynomial and is not proved; proved is that the certification holds after seeding. AltiVec, big-endian and fill_array variants are not modelled."
  },
  {
   "property": "C83",
   "status": "proved",
   "theorems": [
    "Verif.Props.C83_pair",
    "Verif.Props.C83_bounded",
    "Verif.Props.C83_law"
   ],
   "note": "Real arithmetic; the law is the one for independent uniform random numbers in [0,1)."
  },
  {
   "property": "C84",
   "status": "partial",
   "theorems": [
    "Verif.Props.C84_start_partial",
    "Verif.Props.C84_violated",
    "Verif.Props.C84_given"
   ],
   "note": "The share is 80 percent only if no trial step goes downhill; otherwise the temperature is too high because of the sign of a term, C84_violated gives the share. Real arithmetic."
  },
  {
   "property": "C85",
   "status": "partial",
   "theorems": [
    "Verif.Props.C85_energy",
    "Verif.Props.C85_uncharged",
    "Verif.Props.C85_objective",
    "Verif.Props.C85_objective_partial",
    "Verif.Props.C85_unused",
    "Verif.Props.C85_parallel",
    "Verif.Props.C85_no_memory",
    "Verif.Props.C85_forces",
    "Verif.Props.C85_balance",
    "Verif.Props.C85_stress",
    "Verif.Props.C85_forces_program",
    "Verif.Props.C85_stress_program",
    "Verif.Props.C85_stress_violated"
   ],
   "note": "Everything proved except the objective for configurations with reference stresses which are not used: the code counts them (C85_stress_violated; exact excess in C85_objective)."
  },
  {
   "property": "C86",
   "status": "partial",
   "theorems": [
    "Verif.Props.C86_energy",
    "Verif.Props.C86_difference",
    "Verif.Props.C86_forces",
    "Verif.Props.C86_tables",
    "Verif.Props.C86_slopes",
    "Verif.Props.C86_scaled",
    "Verif.Props.C86_partial",
    "Verif.Props.C86_range",
    "Verif.Props.C86_unchanged",
    "Verif.Props.C86_slopes_violated",
    "Verif.Props.C86_violated"
   ],
   "note": "Proved: the tables rescale writes are the scaled potential at their nodes; densities scale in every configuration (C86_scaled); the energy changes exactly by the interpolation error of the embedding functions (C86_difference) and not at all on the grid of densities (C86_partial); forces and stresses are invariant at the level of functions (C86_forces); new ranges hold all densities (C86_range). False in general between the nodes (C86_violated); end slopes get the wrong sign when the dominant side is negative (C86_slopes_violated)."
  },
  {
   "property": "C87",
   "status": "partial",
   "theorems": [
    "Verif.Props.C87_energy",
    "Verif.Props.C87_densities",
    "Verif.Props.C87_objective",
    "Verif.Props.C87_objective_partial",
    "Verif.Props.C87_no_memory",
    "Verif.Props.C87_balance",
    "Verif.Props.C87_force_partial",
    "Verif.Props.C87_stress_partial",
    "Verif.Props.C87_force_violated",
    "Verif.Props.C87_gauge_entries"
   ],
   "note": "Energy, densities, balance of forces and independence of earlier results are proved for all ranges. The code adds the force of the second band only inside of the range test of the first band (force_eam.c 443-472): where only the second band reaches, its force and stress are missing (C87_force_violated). The derivative statements and the objective in terms of the derivative are proved if the second band reaches nowhere farther than the first (Covered); C87_objective gives the value returned in all cases."
  },
  {
   "property": "C88",
   "status": "partial",
   "theorems": [
    "Verif.Props.C88_particles",
    "Verif.Props.C88_safe",
    "Verif.Props.C88_neighbours",
    "Verif.Props.C88_entries",
    "Verif.Props.C88_callback_fails",
    "Verif.Props.C88_callback_outside",
    "Verif.Props.C88_callback_partial",
    "Verif.Props.C88_species_fail",
    "Verif.Props.C88_species_partial",
    "Verif.Props.C88_supported"
   ],
   "note": "Particles, lists and safety are proved in full. get_neigh accepts the number of the first image and returns the list of an atom of the next configuration or reads behind the array (C88_callback_fails, C88_callback_outside); species codes of configurations before the first #C line stay -1 (C88_species_fail). The partial theorems exclude these cases."
  },
  {
   "property": "C89",
   "status": "partial",
   "theorems": [
    "Verif.Props.C89_table",
    "Verif.Props.C89_fitted",
    "Verif.Props.C89_global_violated",
    "Verif.Props.C89_handed_fails",
    "Verif.Props.C89_handed_partial",
    "Verif.Props.C89_written",
    "Verif.Props.C89_written_fails",
    "Verif.Props.C89_reread_fails",
    "Verif.Props.C89_reread_partial",
    "Verif.Props.C89_cutoff_safe",
    "Verif.Props.C89_cutoff_fails",
    "Verif.Props.C89_file_cutoff_violated",
    "Verif.Props.C89_ghost_violated",
    "Verif.Props.C89_first_partial"
   ],
   "note": "Table and safety of the cutoffs are proved in full for lines other than !name. Violated: global parameters get value and limits 0 (C89_global_violated); parameters behind an integer parameter get entries of others (C89_handed_fails); the file written contains the initial values (C89_written, C89_written_fails); integers beginning with 9 are rejected (C89_reread_fails); a cutoff which shrinks and grows again stops the program although the lists suffice (C89_cutoff_fails); the lists are built before the file is read (C89_file_cutoff_violated); only the first list is tested for neighbours of images (C89_ghost_violated)."
  },
  {
   "property": "C90",
   "status": "partial",
   "theorems": [
    "Verif.Props.C90_lines_partial",
    "Verif.Props.C90_total",
    "Verif.Props.C90_rim_outside",
    "Verif.Props.C90_rim_fails",
    "Verif.Props.C90_empty_violated"
   ],
   "note": "Proved for neighbour lists without a neighbour exactly at the cutoff. Such a neighbour is accepted by init_neighbors (r <= rcut) but counted in the first bin of the next pair (C90_rim_fails) or, for the last pair, behind the end of the table (C90_rim_outside). Without neighbours all numbers are 0/0 (C90_empty_violated)."
  },
  {
   "property": "C91",
   "status": "partial",
   "theorems": [
    "Verif.Props.C91_read",
    "Verif.Props.C91_read_globals",
    "Verif.Props.C91_chem",
    "Verif.Props.C91_elstat",
    "Verif.Props.C91_written",
    "Verif.Props.C91_same",
    "Verif.Props.C91_fixed",
    "Verif.Props.C91_elstat_refused",
    "Verif.Props.C91_comments_violated",
    "Verif.Props.C91_reference_violated",
    "Verif.Props.C91_width_violated",
    "Verif.Props.C91_incomplete_violated",
    "Verif.Props.C91_elstat_bounds_violated",
    "Verif.Props.C91_accepted",
    "Verif.Props.C91_keywords"
   ],
   "note": "Proved for comments without the words type and global and not in front of the last parameter, and for written files without electrostatics. The code violates the rest: such comments make files be refused, a!-references take the last global parameter beginning with a, the default width is not taken at the end of the file, global parameters without bounds are accepted as fixed, electrostatic parameters are not put into their bounds, written files with electrostatics have no ratio line and are refused, bounds alike in four decimals make a parameter fixed."
  },
  {
   "property": "C92",
   "status": "partial",
   "theorems": [
    "Verif.Props.C92_tables_partial",
    "Verif.Props.C92_unused_global",
    "Verif.Props.C92_structures",
    "Verif.Props.C92_share_partial",
    "Verif.Props.C92_no_angles",
    "Verif.Props.C92_nodes_missing",
    "Verif.Props.C92_resync",
    "Verif.Props.C92_resync_partial",
    "Verif.Props.C92_resync_knots"
   ],
   "note": "Proved: all broadcasts of the start match in type of call, order and count, no buffer is exceeded, and afterwards every worker has the tables, parameters, names, global parameters and its configurations with all components of atoms, neighbours and angles, whatever its memory held. The code violates the rest: a global parameter which is not used (C92_unused_global) or, with MEAM, Stillinger-Weber and Tersoff, an atom without angles (C92_no_angles) end parallel runs; composition nodes are never sent (C92_nodes_missing); after rescaling the knots are not sent (C92_resync_knots)."
  },
  {
   "property": "C93",
   "status": "partial",
   "theorems": [
    "Verif.Props.C93_restore",
    "Verif.Props.C93_meam",
    "Verif.Props.C93_still_partial",
    "Verif.Props.C93_eam_violated",
    "Verif.Props.C93_better_violated"
   ],
   "note": "MEAM: the potential handed back has the recorded optimum as objective, was evaluated and is not worse than the start (C93_meam; ranges and knots come back exactly, C93_restore). Without a rescaling everything holds (C93_still_partial). Violated: EAM and ADP do not save the ranges, so the optimum is combined with the ranges of the last rescaling (C93_eam_violated); if rescaling lowers the objective, better potentials evaluated afterwards are not recorded (C93_better_violated)."
  },
  {
   "property": "C94",
   "status": "partial",
   "theorems": [
    "Verif.Props.C94_bracket",
    "Verif.Props.C94_aim_partial",
    "Verif.Props.C94_step_partial",
    "Verif.Props.C94_user",
    "Verif.Props.C94_ends",
    "Verif.Props.C94_flat_violated",
    "Verif.Props.C94_zero_violated",
    "Verif.Props.C94_perfect_violated",
    "Verif.Props.C94_jump_violated",
    "Verif.Props.C94_exact_violated",
    "Verif.Props.C94_five_violated"
   ],
   "note": "For objectives which do not decrease to either side the step reaches the aim within five percent (C94_aim_partial, C94_step_partial), and for continuous objectives which reach the aim the search ends (C94_ends). Violated: the search never ends for parameters which are zero or without influence, for perfect fits and at jumps (C94_flat_violated, C94_zero_violated, C94_perfect_violated, C94_jump_violated); an aim met exactly gives 0/0 (C94_exact_violated); the five-percent test looks at the interval before the last division (C94_five_violated)."
  },
  {
   "property": "C95",
   "status": "partial",
   "theorems": [
    "Verif.Props.C95_start_partial",
    "Verif.Props.C95_overlooked_violated",
    "Verif.Props.C95_eigen_ends",
    "Verif.Props.C95_eigen_partial",
    "Verif.Props.C95_svd",
    "Verif.Props.C95_eigen_violated",
    "Verif.Props.C95_lines",
    "Verif.Props.C95_files",
    "Verif.Props.C95_last_violated",
    "Verif.Props.C95_name_partial",
    "Verif.Props.C95_name_violated"
   ],
   "note": "Start, Hessian, lines and files as stated (C95_start_partial, C95_lines, C95_files); eigenvalues when the first decomposition converges, or with SVD (C95_eigen_partial, C95_svd); the search ends always (C95_eigen_ends). Violated: better potentials with two parameters changed in the same direction are evaluated and overlooked (C95_overlooked_violated); a second decomposition works on the overwritten matrix (C95_eigen_violated); the last line counts the last weight twice (C95_last_violated); prefixes of 240 or more characters overflow the name buffer (C95_name_violated; up to 230 are safe, C95_name_partial)."
  },
  {
   "property": "C96",
   "status": "partial",
   "theorems": [
    "Verif.Props.C96_rcut",
    "Verif.Props.C96_symmetric",
    "Verif.Props.C96_rmin",
    "Verif.Props.C96_kim",
    "Verif.Props.C96_max",
    "Verif.Props.C96_reach",
    "Verif.Props.C96_reach_partial",
    "Verif.Props.C96_found",
    "Verif.Props.C96_missing_violated",
    "Verif.Props.C96_stiweb_accepted",
    "Verif.Props.C96_tersoff_accepted",
    "Verif.Props.C96_tersoffmod_accepted",
    "Verif.Props.C96_stiweb_partial",
    "Verif.Props.C96_stiweb_violated",
    "Verif.Props.C96_fixed_violated",
    "Verif.Props.C96_tersoff_partial",
    "Verif.Props.C96_tersoff_violated",
    "Verif.Props.C96_min"
   ],
   "note": "Proved for pair, EAM and Tersoff functions with and without electrostatics (C96_reach, C96_found). Violated: functions of the second band, dipole and quadrupole functions, MEAM, angular and Stillinger-Weber three-body functions are not considered, so with a longer range their neighbours are missing (C96_missing_violated, C96_stiweb_violated; C96_reach_partial when they end with the pair function); fixed cutoff parameters may lie outside of the bounds tested (C96_fixed_violated); the Tersoff cutoff S is not compared with the lists, and bounds that only admit R = S are accepted (C96_tersoff_violated)."
  },
  {
   "property": "C97",
   "status": "partial",
   "theorems": [
    "Verif.Props.C97_read_partial",
    "Verif.Props.C97_layout",
    "Verif.Props.C97_numbers",
    "Verif.Props.C97_int",
    "Verif.Props.C97_decimal",
    "Verif.Props.C97_columns_violated",
    "Verif.Props.C97_real_types_violated",
    "Verif.Props.C97_end_violated",
    "Verif.Props.C97_numbers_region",
    "Verif.Props.C97_count",
    "Verif.Props.C97_exponent"
   ],
   "note": "Well-formed texts are read as C75 says (C97_read_partial; line beginnings without blank space except in front of atoms). Malformed ones are not refused: the reader of atoms sees only the sequence of words (C97_layout), so columns missing in one line and surplus in another (C97_columns_violated) or types with a decimal point (C97_real_types_violated) give displaced data; what is behind the last atom is ignored or an error depending on what follows (C97_end_violated)."
  },
  {
   "property": "C98",
   "status": "partial",
   "theorems": [
    "Verif.Props.C98_eam_file",
    "Verif.Props.C98_eam_partial",
    "Verif.Props.C98_eam_mean_partial",
    "Verif.Props.C98_adp_file",
    "Verif.Props.C98_adp_partial",
    "Verif.Props.C98_meam",
    "Verif.Props.C98_eamel_file",
    "Verif.Props.C98_eamel_partial",
    "Verif.Props.C98_tbeam_partial",
    "Verif.Props.C98_terminal",
    "Verif.Props.C98_rows",
    "Verif.Props.C98_weight_violated",
    "Verif.Props.C98_mean_violated",
    "Verif.Props.C98_second_band_violated",
    "Verif.Props.C98_terminal_violated"
   ],
   "note": "Proved: what the file lists for every routine (C98_*_file), and that it makes up the constraint part of the objective if all weights are one (C98_*_partial; MEAM without restriction). Violated by the code: the limiting constraints are listed without the weight of the configuration (C98_weight_violated), the gauge constraints of the second band are missing (C98_second_band_violated), a mean density which is not positive is shown as one (C98_mean_violated), the terminal output lacks the constraint on the mean density (C98_terminal_violated)."
  },
  {
   "property": "C99",
   "status": "partial",
   "theorems": [
    "Verif.Props.C99_fresh",
    "Verif.Props.C99_no_history",
    "Verif.Props.C99_analytic",
    "Verif.Props.C99_elstat_general",
    "Verif.Props.C99_first_samples_zero",
    "Verif.Props.C99_general_violated",
    "Verif.Props.C99_right_slope_violated",
    "Verif.Props.C99_flat_end_violated"
   ],
   "note": "Proved for all routines and formats that fit together (C99_fresh), with the end conditions the code really uses. The full statement fails in three ways: MEAM and ANG set up general tables with the equidistant routine (C99_general_violated); the right slope entry of pair, transfer, dipole and quadrupole functions is ignored (C99_right_slope_violated); analytic functions always get a natural left and a flat right end, also embedding functions (C99_analytic, C99_flat_end_violated)."
  },
  {
   "property": "C100",
   "status": "proved",
   "theorems": [
    "Verif.Props.C100_pair",
    "Verif.Props.C100_eam",
    "Verif.Props.C100_pair_objective",
    "Verif.Props.C100_eam_objective",
    "Verif.Props.C100_table_pair",
    "Verif.Props.C100_table_eam",
    "Verif.Props.C100_left_handed_violated"
   ],
   "note": "Joins C01, C12, C17, C18, C21, C23, C24, C65, C96 and C99. C100_table_pair and C100_table_eam start from the table: refresh succeeds, the look-ups are the interpolating splines, the neighbour cutoffs are those computed from the table, and the objective is the sum of crystalError (Spec/Crystal.lean) over the crystals. C100_pair_objective and C100_eam_objective hold for arbitrary differentiable functions. The volume in crystalError is the geometric one; for left-handed cell vectors the stresses enter with the wrong sign (C100_left_handed_violated, cf. C24)."
  },
  {
   "property": "C101",
   "status": "proved",
   "theorems": [
    "Verif.Props.C101_unique",
    "Verif.Props.C101_value",
    "Verif.Props.C101_exists",
    "Verif.Props.C101_fit",
    "Verif.Props.C101_eam_value",
    "Verif.Props.C101_eam_fit",
    "Verif.Props.C101_exact"
   ],
   "note": "Joins C28, C29, C99 and C100. SplinesOf and EamSplines describe the functions by knots, values and end slopes only; C101_unique (from Lemmas/SplineUnique.lean) shows that two functions of the same table agree. IsPairObjective says that obj is what the pair routine returns, whatever its memory holds; C101_exists shows that there is such a function. The random numbers, moves and the linear solver are arbitrary."
  },
  {
   "property": "C102",
   "status": "partial",
   "theorems": [
    "Verif.Props.C102_end",
    "Verif.Props.C102_refused",
    "Verif.Props.C102_first",
    "Verif.Props.C102_exit",
    "Verif.Props.C102_reading_violated",
    "Verif.Props.C102_single_violated",
    "Verif.Props.C102_partial"
   ],
   "note": "The code violates the claim: error() sends nothing while init_done is 0, so that after an error in an input file the other processes wait in MPI_Bcast (C102_reading_violated; many launchers kill them then); an error which only some processes meet in an evaluation leaves the others in gather_forces (C102_single_violated). C102_partial says exactly when a run gets stuck; C102_end, C102_refused, C102_first and C102_exit give the exit codes in all other cases."
  },
  {
   "property": "C103",
   "status": "partial",
   "theorems": [
    "Verif.Props.C103_accept",
    "Verif.Props.C103_codes",
    "Verif.Props.C103_evaluates",
    "Verif.Props.C103_partial",
    "Verif.Props.C103_forces_violated",
    "Verif.Props.C103_required_violated",
    "Verif.Props.C103_virial_violated"
   ],
   "note": "The code violates the claim: the pointer of the forces is set without condition, so models without forces are refused for fits to energies (C103_forces_violated); models which require forces are refused although the pointer is set (C103_required_violated); models which require the virial are accepted although configurations without stresses will then end the program (C103_virial_violated). C103_accept says exactly when a model is accepted, C103_evaluates exactly when evaluations succeed, C103_partial gives the claim if forces are used and, in case the virial is required, all configurations use stresses."
  },
  {
   "property": "C104",
   "status": "proved",
   "theorems": [
    "Verif.Props.C104_pair",
    "Verif.Props.C104_eam",
    "Verif.Props.C104_written",
    "Verif.Props.C104_restart",
    "Verif.Props.C104_functions",
    "Verif.Props.C104_fit",
    "Verif.Props.C104_eam_fit",
    "Verif.Props.C104_accepted"
   ],
   "note": "IsTable, FileDescribes (C75), FileSplines, crystal and fileError speak about the contents of the files only. Proper (right-handed cell, atoms inside) and Apart (no distance below the begin or at the end of a function) are hypotheses; C104_accepted shows for which files the preparations succeed. EAM without RESCALE, b.apot = false; files without slopes (#G missing) are treated in C52, not here. Numbers are written with infinite precision."
  },
  {
   "property": "C105",
   "status": "partial",
   "theorems": [
    "Verif.Props.C105_index",
    "Verif.Props.C105_functions",
    "Verif.Props.C105_value",
    "Verif.Props.C105_none",
    "Verif.Props.C105_defined",
    "Verif.Props.C105_zero_partial",
    "Verif.Props.C105_bounds",
    "Verif.Props.C105_eopp_violated",
    "Verif.Props.C105_exp_violated",
    "Verif.Props.C105_jump_violated"
   ],
   "note": "Partial because the code violates the condition for eopp: the penalty is zero at eta_2 = eta_1 + 1 (C105_eopp_violated), eopp_exp is punished as well (C105_exp_violated), the penalty of universal jumps (C105_jump_violated). Everything else is proved for all inputs."
  },
  {
   "property": "C106",
   "status": "partial",
   "theorems": [
    "Verif.Props.C106_value",
    "Verif.Props.C106_defined",
    "Verif.Props.C106_memory",
    "Verif.Props.C106_inplace",
    "Verif.Props.C106_exists",
    "Verif.Props.C106_fit",
    "Verif.Props.C106_phase",
    "Verif.Props.C106_phase_value",
    "Verif.Props.C106_phase_violated",
    "Verif.Props.C106_invariant_violated"
   ],
   "note": "Value, definedness, independence of the history and the statement on fits are proved for all inputs (the last three for functions without a phase). The program violates the property for phases outside [0, 2 pi) but within their bounds, which are punished (C106_phase_violated), and for invariant potentials which refer to global parameters (C106_invariant_violated)."
  },
  {
   "property": "C107",
   "status": "partial",
   "theorems": [
    "Verif.Props.C107_globals",
    "Verif.Props.C107_none",
    "Verif.Props.C107_inside_partial",
    "Verif.Props.C107_exchanged_violated",
    "Verif.Props.C107_letter_violated",
    "Verif.Props.C107_digit_violated",
    "Verif.Props.C107_anywhere_violated",
    "Verif.Props.C107_short_violated",
    "Verif.Props.C107_missing_violated",
    "Verif.Props.C107_effect_violated",
    "Verif.Props.C107_cutoff",
    "Verif.Props.C107_indent_violated",
    "Verif.Props.C107_second_violated",
    "Verif.Props.C107_template_undefined",
    "Verif.Props.C107_result_partial"
   ],
   "note": "C107_globals, C107_none and C107_cutoff characterise exactly what is read. Violated: names must begin with a letter (letters other than A are refused, digits accepted), value between limits (not if exchanged), only the section is read (any word beginning with global), messages for missing parameters (null pointer), values used (entries stay 0), files of the program can be read again (uninitialised array); the corresponding _partial theorems hold."
  },
  {
   "property": "C108",
   "status": "partial",
   "theorems": [
    "Verif.Props.C108_value",
    "Verif.Props.C108_defined",
    "Verif.Props.C108_memory",
    "Verif.Props.C108_inplace",
    "Verif.Props.C108_exists",
    "Verif.Props.C108_fit",
    "Verif.Props.C108_quadratic",
    "Verif.Props.C108_end",
    "Verif.Props.C108_gradient_partial",
    "Verif.Props.C108_gradient_violated",
    "Verif.Props.C108_jump_violated",
    "Verif.Props.C108_cutoff_violated",
    "Verif.Props.C108_invariant_violated"
   ],
   "note": "Partial because the code violates it: slopes outside the sampled range are difference quotients (bound proved), at the end of the range slope or energy jump (theorems with _violated). C108_value, C108_memory and C108_fit hold for densities off the ends where the quotient is exact; serial builds without RESCALE, functions without a phase in C108_memory and C108_fit."
  },
  {
   "property": "C109",
   "status": "partial",
   "theorems": [
    "Verif.Props.C109_first",
    "Verif.Props.C109_start_partial",
    "Verif.Props.C109_large_violated",
    "Verif.Props.C109_lost_violated",
    "Verif.Props.C109_table_fit",
    "Verif.Props.C109_inplace",
    "Verif.Props.C109_apot_fit_partial"
   ],
   "note": "Proved for tabulated potentials with a start value below 10e10, and for analytic pair potentials if the start vector is in the first population. Violated otherwise: with a larger start value the result is the zero vector (C109_large_violated), and the defective sort (C32) may discard the start vector of potentials with bounds before the evolution begins (C109_lost_violated)."
  },
  {
   "property": "C110",
   "status": "partial",
   "theorems": [
    "Verif.Props.C110_forces",
    "Verif.Props.C110_strain",
    "Verif.Props.C110_stress_partial",
    "Verif.Props.C110_objective_partial",
    "Verif.Props.C110_table_partial",
    "Verif.Props.C110_stress_violated"
   ],
   "note": "Energies and forces are proved in full (C110_forces). The full statement fails for stresses of crystals in which an atom interacts with its own images through a quadrupole function (C110_stress_violated: one atom per cell; C110_strain states exactly what is missing), and for tables whose dipole or quadrupole functions reach further than pair and transfer functions, since the cutoffs are computed from the latter (C96). C110_stress_partial, C110_objective_partial and C110_table_partial exclude these cases. Energy and distortions of the crystal are in Spec/CrystalAdp.lean."
  },
  {
   "property": "C111",
   "status": "proved",
   "theorems": [
    "Verif.Props.C111_evaluation",
    "Verif.Props.C111_evaluation_eam",
    "Verif.Props.C111_fit",
    "Verif.Props.C111_fit_eam"
   ],
   "note": "Exact arithmetic; both routines with dipoles. The start dipoles are scattered with the atoms (mpi_utils.c 391-433)."
  },
  {
   "property": "C112",
   "status": "partial",
   "theorems": [
    "Verif.Props.C112_energy",
    "Verif.Props.C112_forces",
    "Verif.Props.C112_stresses",
    "Verif.Props.C112_derivatives_partial",
    "Verif.Props.C112_objective_partial",
    "Verif.Props.C112_table_partial",
    "Verif.Props.C112_stress_violated"
   ],
   "note": "Energies are proved in full (C112_energy). The full statement fails for forces and stresses where a transfer function of the second band reaches a pair of atoms which no transfer function of the first band reaches (C112_stress_violated; C112_forces and C112_stresses state exactly what is missing), and the cutoffs are computed without the second band (C96). C112_derivatives_partial, C112_objective_partial and C112_table_partial exclude these cases. The energy of the crystal is in Spec/CrystalTbeam.lean."
  },
  {
   "property": "C113",
   "status": "partial",
   "theorems": [
    "Verif.Props.C113_stiweb",
    "Verif.Props.C113_stiweb_objective",
    "Verif.Props.C113_stiweb_partial",
    "Verif.Props.C113_own_violated",
    "Verif.Props.C113_ang",
    "Verif.Props.C113_ang_objective",
    "Verif.Props.C113_ang_partial",
    "Verif.Props.C113_meam",
    "Verif.Props.C113_meam_objective"
   ],
   "note": "Angular potentials and MEAM: full, with the exact constants for unused reference stresses and the squared weight of the limiting constraint (C63). Stillinger-Weber: exact with pair energies of own images halved; that of the infinite crystal only where no atom meets its own images (C113_stiweb_partial), refuted for a thin cell (C113_own_violated). That functions end within the cutoffs of the lists is a hypothesis (the program does not ensure it for the second functions, C96). Tersoff: C114."
  },
  {
   "property": "C114",
   "status": "partial",
   "theorems": [
    "Verif.Props.C114_tersoff",
    "Verif.Props.C114_tersoff_objective",
    "Verif.Props.C114_tersoff_partial",
    "Verif.Props.C114_modified",
    "Verif.Props.C114_modified_objective",
    "Verif.Props.C114_modified_partial",
    "Verif.Props.C114_own_violated"
   ],
   "note": "Exact with the repulsion of own images halved; that of the infinite crystal only where no atom meets its own images (C114_tersoff_partial, C114_modified_partial), refuted for a thin cell (C114_own_violated). Distances equal to a cut-off radius are excluded. exp, cos, pow are the real functions."
  },
  {
   "property": "C115",
   "status": "proved",
   "theorems": [
    "Verif.Props.C115_crystal",
    "Verif.Props.C115_objective",
    "Verif.Props.C115_eam",
    "Verif.Props.C115_eam_objective",
    "Verif.Props.C115_tails",
    "Verif.Props.C115_program",
    "Verif.Props.C115_program_eam"
   ],
   "note": "Full. erfc, exp, sqrt are the real functions; the tails are those the routine computes (not their spline tables). EAM densities outside the range of the embedding function are replaced by its ends as in C79. Dipoles: not here, C69 and C117."
  },
  {
   "property": "C116",
   "status": "partial",
   "theorems": [
    "Verif.Props.C116_crystal",
    "Verif.Props.C116_objective",
    "Verif.Props.C116_objective_partial",
    "Verif.Props.C116_program",
    "Verif.Props.C85_stress_violated"
   ],
   "note": "Force vector: full (C116_crystal). Objective: the code also counts squared reference stresses of configurations which do not use stresses (C85_stress_violated); C116_objective has the exact value, C116_objective_partial the claim for vanishing reference stresses there. The cutoffs of the lists ignore the radial functions (C96_missing_violated), so they are required to end within them."
  },
  {
   "property": "C117",
   "status": "partial",
   "theorems": [
    "Verif.Props.C117_crystal_partial",
    "Verif.Props.C117_objective_partial",
    "Verif.Props.C117_dipoles_partial",
    "Verif.Props.C117_tails",
    "Verif.Props.C117_program_partial",
    "Verif.Props.C117_dipoles_program",
    "Verif.Props.C69_gradient_violated",
    "Verif.Props.C69_neutral_violated",
    "Verif.Props.C68_mixing_violated"
   ],
   "note": "Derivatives are at fixed dipoles: with the dipoles following the atoms forces are not derivatives (C69_gradient_violated). Polarisable atoms must carry charges (C69_neutral_violated). Dipoles: without mixing they are those of the field of the charges of the infinite crystal alone (iteration given up) or self-consistent in the field of the infinite crystal up to the tolerance (C117_dipoles_partial); with mixing they need not be (C68_mixing_violated). DSF with DIPOLE is excluded (C40). erfc, exp, sqrt are the real functions; tails as computed, not their spline tables."
  },
  {
   "property": "C118",
   "status": "partial",
   "theorems": [
    "Verif.Props.C118_crystal_partial",
    "Verif.Props.C118_dipoles_partial",
    "Verif.Props.C118_objective_partial",
    "Verif.Props.C118_program_partial",
    "Verif.Props.C117_tails",
    "Verif.Props.C79_dipole_energy_violated",
    "Verif.Props.C69_gradient_violated",
    "Verif.Props.C68_mixing_violated"
   ],
   "note": "As C117 (fixed dipoles, polarisable atoms charged, self-consistency only without mixing). In addition atoms have to be polarisable if a charged one is and not if one is not, because the wrong polarisability is asked for at force_eam_elstat.c 821 (C79_dipole_energy_violated). Densities outside the range of the embedding function are replaced by its ends as in C79."
  },
  {
   "property": "C119",
   "status": "partial",
   "theorems": [
    "Verif.Props.C119_stiweb",
    "Verif.Props.C119_stiweb_forces",
    "Verif.Props.C119_tersoff",
    "Verif.Props.C119_tersoff_forces",
    "Verif.Props.C119_mixing_partial",
    "Verif.Props.C119_mixing_violated",
    "Verif.Props.C119_modified",
    "Verif.Props.C119_elstat",
    "Verif.Props.C119_functions_partial",
    "Verif.Props.C119_other",
    "Verif.Props.C119_cut_partial",
    "Verif.Props.C119_one_violated",
    "Verif.Props.C119_cut_violated",
    "Verif.Props.C119_mixed_violated"
   ],
   "note": "Stillinger-Weber, modified Tersoff and the pair parameters of Tersoff in full, for any number of types. Violated: chi and omega of the last mixed pair with four types, where the force routine uses 1; r_cut repeats the end of the first function; with one type the names of functions that do not exist are read; only the first three names decide how all functions are written. The partial theorems state what holds for two types, equal ends, three or more functions of one kind. Global parameters are not part of the pointers here."
  },
  {
   "property": "C120",
   "status": "proved",
   "theorems": [
    "Verif.Props.C120_control",
    "Verif.Props.C120_trial",
    "Verif.Props.C120_jumps",
    "Verif.Props.C120_selection",
    "Verif.Props.C120_end"
   ],
   "note": "For all random numbers from [0, 1). Which parameters come from the mutant is the condition of C55, as the code has it. Selection and end are stated for builds without opposition steps; with them the recorded best cost is not always that of the population (C33_jump_violated)."
  },
  {
   "property": "C121",
   "status": "partial",
   "theorems": [
    "Verif.Props.C121_free",
    "Verif.Props.C121_fixed",
    "Verif.Props.C121_run_partial",
    "Verif.Props.C121_charges",
    "Verif.Props.C121_changed_violated"
   ],
   "note": "In full for free kappa and for worker processes. For equal bounds the hypothesis is that evaluations keep the fixed kappa; differential evolution can break it by ending with the zero vector (C33_start_violated), and then stale values are used (C121_changed_violated)."
  },
  {
   "property": "C122",
   "status": "partial",
   "theorems": [
    "Verif.Props.C122_file",
    "Verif.Props.C122_directions_partial",
    "Verif.Props.C122_change_partial",
    "Verif.Props.C122_end",
    "Verif.Props.C122_off",
    "Verif.Props.C122_change_violated",
    "Verif.Props.C122_restart_violated"
   ],
   "note": "File and directions in full. The change of a parameter is bounded by the step length of the line search times the maximal change, and the step length may exceed 1 (C122_change_violated). An out of range direction at the beginning of a turn does not restart the inner loop but ends the fit (C122_end, C122_restart_violated)."
  },
  {
   "property": "C123",
   "status": "partial",
   "theorems": [
    "Verif.Props.C123_file_partial",
    "Verif.Props.C123_adp_partial",
    "Verif.Props.C123_tbeam_partial",
    "Verif.Props.C123_elstat_partial",
    "Verif.Props.C123_densities",
    "Verif.Props.C123_inside",
    "Verif.Props.C123_crystal",
    "Verif.Props.C123_rescale_violated",
    "Verif.Props.C123_elstat_violated",
    "Verif.Props.C123_absent_violated"
   ],
   "note": "In full for builds without RESCALE (EAM, two-band EAM, ADP) and types which occur; densities of the infinite crystal: C123_crystal (EAM). With RESCALE, and with electrostatics always, densities outside of the range of the embedding function are listed (and averaged) as the end of the range (C123_rescale_violated, C123_elstat_violated); for a type without atoms 0/0 is written (C123_absent_violated). Numbers of atoms of each type: C75_counts."
  },
  {
   "property": "C124",
   "status": "proved",
   "theorems": [
    "Verif.Props.C124_matrix",
    "Verif.Props.C124_stop",
    "Verif.Props.C124_symmetric",
    "Verif.Props.C124_begin"
   ],
   "note": "For configurations whose neighbour lists are built (C23) with symmetric cutoffs, half and full lists; builds without KIM. Numbers are printed exactly in the model."
  },
  {
   "property": "C125",
   "status": "proved",
   "theorems": [
    "Verif.Props.C125_file",
    "Verif.Props.C125_erase",
    "Verif.Props.C125_snaps"
   ],
   "note": "The file is represented by the parameters it contains; that writing and reading them is faithful is the subject of C44 and C80. Annealing without rescaling; moves of analytic potentials change only the chosen parameter (proved for the code's moves in C29_apot). The points tried for the automatic start temperature are not considered (C29_trials_violated)."
  },
  {
   "property": "C126",
   "status": "partial",
   "theorems": [
    "Verif.Props.C126_file_partial",
    "Verif.Props.C126_erase",
    "Verif.Props.C126_first_violated"
   ],
   "note": "Holds for the trial vectors: the file is missing until one of them is better than the whole first population, and then always contains the best one. Violated for the first population, whose best individual is recorded and returned but never written (C126_first_violated), and for individuals of opposition steps, which are never recorded (C33_jump_violated). The file is represented by the parameters it contains."
  }
 ]
}