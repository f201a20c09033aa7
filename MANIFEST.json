{
 "claims": [
  {
   "property": "C16",
   "status": "proved",
   "theorems": [
    "Heu.isStrongDominate_iff",
    "Heu.dominate_irrefl",
    "Heu.dominate_trans",
    "Heu.dominate_asymm"
   ],
   "note": ""
  },
  {
   "property": "C17",
   "status": "proved",
   "theorems": [
    "Heu.layers_partition",
    "Heu.first_layer_nondominated",
    "Heu.dominators_in_earlier_layer",
    "Heu.layers_by_dominator_count"
   ],
   "note": ""
  },
  {
   "property": "C18",
   "status": "proved",
   "theorems": [
    "Heu.nsga2_exact_size",
    "Heu.nsga2_ub_if_too_few"
   ],
   "note": ""
  },
  {
   "property": "C19",
   "status": "proved",
   "theorems": [
    "Heu.nsga2_elitism",
    "Heu.nsga2_rank_respected"
   ],
   "note": ""
  },
  {
   "property": "C20",
   "status": "proved",
   "theorems": [
    "Heu.nsga2_front_sound",
    "Heu.nsga3_front_sound"
   ],
   "note": ""
  },
  {
   "property": "C21",
   "status": "proved",
   "theorems": [
    "Heu.nsga2_prefers_isolated",
    "Heu.congestion_extremes"
   ],
   "note": ""
  },
  {
   "property": "C22",
   "status": "proved",
   "theorems": [
    "Heu.nsga3_exact_size",
    "Heu.niche_round_rule"
   ],
   "note": "geometry (normalize/findNearest) enters as arbitrary closest/dist functions"
  },
  {
   "property": "C12",
   "status": "partial",
   "theorems": [
    "Heu.fractorial_eq",
    "Heu.fractorial_exact_partial",
    "Heu.nchooseK_eq_choose_partial",
    "Heu.fractorial_exact_iff",
    "Heu.nchooseK_right_iff",
    "Heu.nchooseK_wrong",
    "Heu.nchooseK_divides_by_zero"
   ],
   "note": "The full statement is false of the code: 64-bit factorials overflow from 21! on. Exact characterisation: right iff N <= 20, or K is 0 or N and N <= 65, or C(60,1)."
  },
  {
   "property": "C13",
   "status": "proved",
   "theorems": [
    "Heu.min_is_minimum",
    "Heu.max_is_maximum",
    "Heu.ct_min_is_minimum",
    "Heu.ct_max_is_maximum"
   ],
   "note": ""
  },
  {
   "property": "C14",
   "status": "proved",
   "theorems": [
    "Heu.chaos_in_unit",
    "Heu.chaos_iterate",
    "Heu.chaos_makeSequence",
    "Heu.chaos_makeSequence_in_unit",
    "Heu.chaos_ieee_in_unit",
    "Heu.chaos_ieee_iterate",
    "Heu.chaos_ieee_iterates_in_unit",
    "Heu.chaos_ieee_makeSequence",
    "Heu.chaos_ieee_dies"
   ],
   "note": "both over exact arithmetic and over IEEE binary64 with round-to-nearest-even; chaos_ieee_dies exhibits an accepted seed whose sequence collapses to 0"
  },
  {
   "property": "C15",
   "status": "proved",
   "theorems": [
    "Heu.randIdx_in_range",
    "Heu.randIdx_range_in_range",
    "Heu.randIdx_reaches",
    "Heu.randIdx_misses_last",
    "Heu.randD_in_range",
    "Heu.randD_ieee_in_range",
    "Heu.randD_fill"
   ],
   "note": "float32 rounding modelled exactly for the index functions; randD over exact arithmetic and over IEEE doubles"
  },
  {
   "property": "C23",
   "status": "partial",
   "theorems": [
    "Heu.referencePoints_are_lattice",
    "Heu.latticePoint_simplex",
    "Heu.referencePoses_partial",
    "Heu.referencePoses2_partial",
    "Heu.referencePoses_sound",
    "Heu.referencePoses_exact",
    "Heu.referencePoses_lost",
    "Heu.referencePoses_lost_runs",
    "Heu.referencePoses_trap"
   ],
   "note": "Generation proved for all sizes; the matrix is the full lattice exactly when objectives+precision-1 <= 20 (or in the few sporadic cases of referencePoses_exact), false beyond (negations proved)."
  },
  {
   "property": "C24",
   "status": "proved",
   "theorems": [
    "Heu.bestFitness_ideal",
    "Heu.bestFitness_empty"
   ],
   "note": ""
  },
  {
   "property": "C58",
   "status": "proved",
   "theorems": [
    "Heu.refDistance_is_line_distance",
    "Heu.findNearest_nearest",
    "Heu.latticePoint_nonzero"
   ],
   "note": "exact arithmetic"
  },
  {
   "property": "C59",
   "status": "proved",
   "theorems": [
    "Heu.normalize_ideal",
    "Heu.normalize_extremes_on_unit_plane",
    "Heu.normalize_singular_unit_box"
   ],
   "note": "exact arithmetic"
  },
  {
   "property": "C25",
   "status": "proved",
   "theorems": [
    "Heu.run_terminates",
    "Heu.run_stops"
   ],
   "note": ""
  },
  {
   "property": "C26",
   "status": "proved",
   "theorems": [
    "Heu.run_record"
   ],
   "note": ""
  },
  {
   "property": "C27",
   "status": "proved",
   "theorems": [
    "Heu.soga_run_consistent",
    "Heu.cache_never_stale",
    "Heu.evaluation_complete",
    "Heu.evaluation_skips_cached",
    "Heu.evaluation_uses_new"
   ],
   "note": ""
  },
  {
   "property": "C28",
   "status": "proved",
   "theorems": [
    "Heu.parallel_evaluation_eq_sequential",
    "Heu.evaluation_tasks_disjoint"
   ],
   "note": "each store is atomic and the fitness function is a function of the variables"
  },
  {
   "property": "C29",
   "status": "proved",
   "theorems": [
    "Heu.crossover_appends",
    "Heu.mutate_appends",
    "Heu.vary_growth"
   ],
   "note": ""
  },
  {
   "property": "C30",
   "status": "partial",
   "theorems": [
    "Heu.selection_exact_size_partial",
    "Heu.sus_equal_fitness_keeps_everyone",
    "Heu.elite_keeps_all_elites",
    "Heu.selection_finishes"
   ],
   "note": "Exact size proved for every method outside two exceptions in which the code itself does not reach populationSize (StochasticUniversal with all-equal fitness keeps everyone; more elites than populationSize are all kept): both exceptions proved as theorems."
  },
  {
   "property": "C31",
   "status": "proved",
   "theorems": [
    "Heu.selection_invents_nobody"
   ],
   "note": ""
  },
  {
   "property": "C32",
   "status": "proved",
   "theorems": [
    "Heu.selection_reports_best",
    "Heu.soga_run_consistent"
   ],
   "note": ""
  },
  {
   "property": "C33",
   "status": "proved",
   "theorems": [
    "Heu.elitist_step",
    "Heu.elitist_record_monotone",
    "Heu.elitist_record_start"
   ],
   "note": ""
  },
  {
   "property": "C34",
   "status": "proved",
   "theorems": [
    "Heu.failTimes_step",
    "Heu.soga_failTimes"
   ],
   "note": ""
  },
  {
   "property": "C35",
   "status": "partial",
   "theorems": [
    "Heu.selection_no_use_after_erase_partial",
    "Heu.soga_run_no_ub_partial",
    "Heu.truncation_use_after_erase",
    "Heu.elite_use_after_erase",
    "Heu.truncation_run_use_after_erase",
    "Heu.elitist_keeps_old_best"
   ],
   "note": "False of the code when the previous best gene is erased before it is compared (negation witnesses); proved for the other cases."
  },
  {
   "property": "C36",
   "status": "proved",
   "theorems": [
    "Heu.tournament_winners"
   ],
   "note": ""
  },
  {
   "property": "C37",
   "status": "proved",
   "theorems": [
    "Heu.dispatch_correct",
    "Heu.boltzmann_strength_uninitialised"
   ],
   "note": ""
  },
  {
   "property": "C01",
   "status": "partial",
   "theorems": [
    "Heu.write_read",
    "Heu.read_bits",
    "Heu.write_read_exact",
    "Heu.narrow_write_right_iff",
    "Heu.narrow_blocks_write_lost",
    "Heu.narrow_blocks16_write_lost"
   ],
   "note": "Proved for 32/64-bit blocks and for 8/16-bit blocks whose elements do not straddle; false for straddling elements in 8/16-bit blocks (integer promotion): write_read_exact gives the value read back for every block type."
  },
  {
   "property": "C02",
   "status": "proved",
   "theorems": [
    "Heu.write_frame",
    "Heu.write_frame_any"
   ],
   "note": "Every block type and width; no access outside the allocated blocks."
  },
  {
   "property": "C03",
   "status": "partial",
   "theorems": [
    "Heu.sequence_refinement_partial",
    "Heu.preallocated_is_a_list_partial",
    "Heu.fresh_represents",
    "Heu.growth_loses_data",
    "Heu.ctor_zero_uninitialised"
   ],
   "note": "False of the code when a non-empty store of blocks wider than a byte grows (reserve copies bytes, not blocks): proved for all such states by growth_loses_data."
  },
  {
   "property": "C04",
   "status": "partial",
   "theorems": [
    "Heu.capacity_enough_partial",
    "Heu.capacity_fails_iff",
    "Heu.capacity_too_small",
    "Heu.capacity_too_small_write"
   ],
   "note": "Exact up to 2^24 bits; false beyond (float block count): capacity_fails_iff says exactly when."
  },
  {
   "property": "C05",
   "status": "proved",
   "theorems": [
    "Heu.dynamic_addressing",
    "Heu.fixed_addressing",
    "Heu.map_addressing"
   ],
   "note": ""
  },
  {
   "property": "C06",
   "status": "partial",
   "theorems": [
    "Heu.dynamic_matrix_memory_safe_partial",
    "Heu.resize_contents",
    "Heu.dynamic_write_frame",
    "Heu.nontrivial_growth_unusable"
   ],
   "note": "All histories for trivial element types; for types with constructors only while resize does not allocate (the code leaves raw cells: negation proved)."
  },
  {
   "property": "C07",
   "status": "partial",
   "theorems": [
    "Heu.reserve_partial",
    "Heu.reserve_wrong"
   ],
   "note": "False of the code: reserve's guard is inverted; complete characterisation proved."
  },
  {
   "property": "C60",
   "status": "partial",
   "theorems": [
    "Heu.assign_copies",
    "Heu.copy_ctor_partial",
    "Heu.copy_ctor_overflows"
   ],
   "note": "Assignment proved; copy construction overflows when the source has spare blocks (proved)."
  },
  {
   "property": "C61",
   "status": "proved",
   "theorems": [
    "Heu.iterate_visits_all",
    "Heu.front_back",
    "Heu.assignRef_copies"
   ],
   "note": ""
  },
  {
   "property": "C62",
   "status": "partial",
   "theorems": [
    "Heu.assign_from_other",
    "Heu.assign_to_fixed",
    "Heu.map_deep_copy",
    "Heu.move_ctor",
    "Heu.copy_assign_matrix",
    "Heu.copy_ctor_matrix_partial",
    "Heu.copy_ctor_matrix_undefined"
   ],
   "note": "Copy constructor of the dynamic matrix reads uninitialised members (negation proved); copy assignment is proved for elements with constructors (for trivial ones it does not compile); move assignment lacks a return (C135)."
  },
  {
   "property": "C08",
   "status": "proved",
   "theorems": [
    "Heu.divCode_roundtrip",
    "Heu.divCode_value",
    "Heu.divCode_injective",
    "Heu.divCode_surjective"
   ],
   "note": "all 2^64 pairs, bit-level; the final double division is exact-rational"
  },
  {
   "property": "C09",
   "status": "partial",
   "theorems": [
    "Heu.powCode_roundtrip_partial",
    "Heu.powCode_large_significand_wrong",
    "Heu.powCode_general"
   ],
   "note": "holds exactly for significands whose digits read as a number in [1,10) are below 2^54/10^16; for all others the claim is proved false (significand overflows the sign bit)"
  },
  {
   "property": "C10",
   "status": "partial",
   "theorems": [
    "Heu.encode_ieee_partial",
    "Heu.encode_allOnes_wrong",
    "Heu.encode_negZero_wrong",
    "Heu.encode_special"
   ],
   "note": "proved for every finite double/float except all-ones mantissas and negative zero, where it is proved false; float +inf gets the code of -inf"
  },
  {
   "property": "C11",
   "status": "partial",
   "theorems": [
    "Heu.decode_ieee",
    "Heu.decode_special",
    "Heu.decode_total",
    "Heu.decode_encode_partial",
    "Heu.decode_encode_allOnes_wrong"
   ],
   "note": "decoder proved right on all codes; round trip proved except where encode is wrong (C10)"
  },
  {
   "property": "C63",
   "status": "partial",
   "theorems": [
    "Heu.divCode_constants_partial",
    "Heu.divCode_Pi_mul_2_wrong"
   ],
   "note": "twelve of the thirteen constants; DivCode_Pi_mul_2 is 2/pi"
  },
  {
   "property": "C38",
   "status": "partial",
   "theorems": [
    "Heu.initialize_int_in_box_partial",
    "Heu.initialize_int_reaches_partial",
    "Heu.initialize_bool_reaches",
    "Heu.initialize_real_in_box",
    "Heu.initialize_ieee_in_box_partial",
    "Heu.randD_ieee_in_range",
    "Heu.randD_returns_max",
    "Heu.randD_overflow",
    "Heu.initialize_uint8_full_range_stuck",
    "Heu.initialize_int_max_ub",
    "Heu.initialize_int8_wide_ub",
    "Heu.initialize_int_iff",
    "Heu.initialize_full_narrow_stuck"
   ],
   "note": "initialize_int_iff determines exactly the integer boxes on which the property holds (TypedBox bounds, all machine types). In the box for all draws: integers when max+1 and max+1-min are representable, double/float with full IEEE rounding when max-min does not overflow; outside these conditions the property is false of the code (counterexample theorems included)"
  },
  {
   "property": "C39",
   "status": "proved",
   "theorems": [
    "Heu.applyConstraint_in_box",
    "Heu.applyConstraint_id",
    "Heu.applyConstraint_idem",
    "Heu.applyConstraint_nearest",
    "Heu.applyConstraintAt_spec",
    "Heu.setRangeSquare_nonEmpty",
    "Heu.setRangeRect_unchecked"
   ],
   "note": "for non-empty boxes; rectangular setRange does not check non-emptiness (counterexample)"
  },
  {
   "property": "C40",
   "status": "partial",
   "theorems": [
    "Heu.applyDelta_int_partial",
    "Heu.applyDelta_bool",
    "Heu.applyDelta_cont",
    "Heu.applyDelta_unit",
    "Heu.applyDelta_gauss",
    "Heu.applyDelta_unsigned_wraps",
    "Heu.applyDelta_int_overflow",
    "Heu.applyDelta_fixed_ignores_delta",
    "Heu.applyDelta_int_iff"
   ],
   "note": "applyDelta_int_iff determines exactly the integer boxes on which the property holds. Real boxes in exact arithmetic, integers when min-1 and max+1 are representable; unsigned wrap-around, signed overflow and the ignored compile-time delta are counterexamples"
  },
  {
   "property": "C41",
   "status": "partial",
   "theorems": [
    "Heu.cFunNd_convex",
    "Heu.cFunNd_in_box",
    "Heu.cFunNd_double_leaves_box"
   ],
   "note": "proved in exact arithmetic; false in double arithmetic (counterexample)"
  },
  {
   "property": "C42",
   "status": "proved",
   "theorems": [
    "Heu.cFunSwapNs_exchange",
    "Heu.cFunRandNs_coordinates",
    "Heu.exchange_in_box",
    "Heu.cFunRandNs_not_complementary"
   ],
   "note": ""
  },
  {
   "property": "C43",
   "status": "partial",
   "theorems": [
    "Heu.symbolMutate_spec_partial",
    "Heu.symbolMutate_unchanged",
    "Heu.symbolMutate_typed_partial",
    "Heu.symbolMutate_int8_leaves_box",
    "Heu.symbolMutate_uint8_undefined",
    "Heu.symbolMutate_int_max_overflow",
    "Heu.symbolMutate_int_iff"
   ],
   "note": "symbolMutate_int_iff determines exactly the integer boxes on which the mutation is defined and stays in the box. Value can stay unchanged at the lower bound for draw 0 (counterexample); on bounded types it needs max+1 representable: int8 leaves the box, uint8/int are undefined at their maximum (counterexamples)"
  },
  {
   "property": "C64",
   "status": "partial",
   "theorems": [
    "Heu.cFunRandNs_coordinates",
    "Heu.cFunRandXs_ignores_p",
    "Heu.cFunRandXs_wrong_probability"
   ],
   "note": "holds for cFunRandNs; false for cFunRandXs (counterexample)"
  },
  {
   "property": "C65",
   "status": "proved",
   "theorems": [
    "Heu.soga_run_feasible",
    "Heu.default_run_in_box",
    "Heu.nsga2_run_feasible",
    "Heu.nsga3_run_feasible",
    "Heu.nsga2_default_run_in_box",
    "Heu.nsga3_default_run_in_box"
   ],
   "note": "single-objective solver with all ten selection methods, and the two multi-objective solvers"
  },
  {
   "property": "C44",
   "status": "proved",
   "theorems": [
    "Heu.pso_init_in_bounds",
    "Heu.pso_move_in_bounds",
    "Heu.pso_history_in_bounds",
    "Heu.pso_result_feasible",
    "Heu.setPVRangeSquare_legal",
    "Heu.setPVRangeRect_legal",
    "Heu.pso_history_in_bounds_ieee_any",
    "Heu.pso_history_in_bounds_ieee",
    "Heu.pso_init_in_bounds_ieee",
    "Heu.pso_velocity_nan"
   ],
   "note": "exact arithmetic and IEEE arithmetic; NaN velocity on overflow shown"
  },
  {
   "property": "C45",
   "status": "proved",
   "theorems": [
    "Heu.pso_init_consistent",
    "Heu.pso_best_of_history",
    "Heu.pso_best_monotone",
    "Heu.pso_initial_gBest_is_first"
   ],
   "note": "fitness values linearly ordered (no NaN)"
  },
  {
   "property": "C46",
   "status": "proved",
   "theorems": [
    "Heu.pso_run",
    "Heu.pso_empty_ub"
   ],
   "note": ""
  },
  {
   "property": "C47",
   "status": "partial",
   "theorems": [
    "Heu.pso_accessors_partial",
    "Heu.pso_square_posMax_wrong"
   ],
   "note": "false for SquareBox4PSO::posMax(int), which returns the lower bound"
  },
  {
   "property": "C66",
   "status": "proved",
   "theorems": [
    "Heu.pso_std_eq_eigen"
   ],
   "note": "exact arithmetic; the std version as written names members that do not exist"
  },
  {
   "property": "C67",
   "status": "proved",
   "theorems": [
    "Heu.pso_failTimes"
   ],
   "note": ""
  },
  {
   "property": "C48",
   "status": "proved",
   "theorems": [
    "Heu.aos_record_best",
    "Heu.aos_best_ever"
   ],
   "note": "for every run that returns; when a run has undefined behaviour is the subject of C50 and C69"
  },
  {
   "property": "C49",
   "status": "proved",
   "theorems": [
    "Heu.aos_selection_keeps_best"
   ],
   "note": ""
  },
  {
   "property": "C50",
   "status": "partial",
   "theorems": [
    "Heu.aos_layers_partition",
    "Heu.aos_layers_out_of_range_iff",
    "Heu.aos_plan_fits",
    "Heu.aos_two_layers_fit",
    "Heu.gaussianCurve_legal",
    "Heu.aos_gaussian_safe_partial",
    "Heu.aos_gaussian_safe_five_partial",
    "Heu.aos_gaussian_safe_any_partial",
    "Heu.aos_layers_out_of_range",
    "Heu.aos_plan_too_small_example"
   ],
   "note": "partition and order always; the exact condition for staying in range; proved safe for up to 5 layers and 10000 electrons (defaults: 5, 50) or 45 electrons and any number of layers; false in general: aos_layers_out_of_range exhibits undefined behaviour for 239135 electrons and 6 layers with the code's Gaussian weights (exact real arithmetic)"
  },
  {
   "property": "C51",
   "status": "proved",
   "theorems": [
    "Heu.aos_electrons_in_box",
    "Heu.aos_random_step"
   ],
   "note": "exact arithmetic"
  },
  {
   "property": "C52",
   "status": "proved",
   "theorems": [
    "Heu.aos_run_terminates",
    "Heu.aos_run_result",
    "Heu.aos_run_ok"
   ],
   "note": ""
  },
  {
   "property": "C53",
   "status": "partial",
   "theorems": [
    "Heu.aos_atom_means",
    "Heu.aos_layer_means_partial",
    "Heu.aos_layer_best_std_partial",
    "Heu.aos_layer_best_eigen_wrong",
    "Heu.aos_layer_energy_std_wrong"
   ],
   "note": "atom means proved; layer binding state proved; false in the code: layer best for Eigen containers (pointers are compared) and layer binding energy for std containers (energies of other members not added)"
  },
  {
   "property": "C68",
   "status": "proved",
   "theorems": [
    "Heu.aos_early_stop_counter"
   ],
   "note": ""
  },
  {
   "property": "C69",
   "status": "partial",
   "theorems": [
    "Heu.aos_bestElectron_partial",
    "Heu.aos_run_ok",
    "Heu.aos_run_ok_gaussian_partial",
    "Heu.aos_bestElectron_dangles",
    "Heu.aos_run_reads_erased_best"
   ],
   "note": "holds when at most electronNum electrons share the best energy; false in general with an unstable sort"
  },
  {
   "property": "C54",
   "status": "proved",
   "theorems": [
    "Heu.sphere_minimum",
    "Heu.booth_minimum",
    "Heu.beale_minimum",
    "Heu.himmelblau_minimum",
    "Heu.matyas_minimum",
    "Heu.threeHumpCamel_minimum"
   ],
   "note": "exact arithmetic"
  },
  {
   "property": "C55",
   "status": "proved",
   "theorems": [
    "Heu.rastrigin_minimum"
   ],
   "note": "exact arithmetic"
  },
  {
   "property": "C56",
   "status": "proved",
   "theorems": [
    "Heu.dtlz1_front",
    "Heu.dtlz1_pareto",
    "Heu.dtlz1_front_attained",
    "Heu.spherical_front",
    "Heu.spherical_pareto",
    "Heu.spherical_front_attained"
   ],
   "note": "exact arithmetic; DTLZ4 attained for exponents >= 1"
  },
  {
   "property": "C57",
   "status": "partial",
   "theorems": [
    "Heu.goldsteinPrice_wrong",
    "Heu.schaffer2_wrong",
    "Heu.holderTable_wrong",
    "Heu.holderTable_defined",
    "Heu.rosenbrock_not_documented",
    "Heu.styblinskiTang_containers_disagree",
    "Heu.schaffer4_lower"
   ],
   "note": "false in the code for GoldsteinPrice, schaffer2, holderTable, rosenbrock, styblinskiTang (Eigen): the theorems show the deviation; schaffer4 lower bound proved"
  },
  {
   "property": "C70",
   "status": "proved",
   "theorems": [
    "Heu.ackley_minimum",
    "Heu.bukin_minimum",
    "Heu.levy_minimum",
    "Heu.easom_minimum",
    "Heu.mcCormick_minimum"
   ],
   "note": "exact arithmetic"
  },
  {
   "property": "C71",
   "status": "proved",
   "theorems": [
    "Heu.rosenbrock_minimum",
    "Heu.styblinskiTang_std_minimum"
   ],
   "note": "exact arithmetic"
  },
  {
   "property": "C72",
   "status": "proved",
   "theorems": [
    "Heu.binhKorn_constraints",
    "Heu.changkongHaimes_constraints"
   ],
   "note": "exact arithmetic"
  },
  {
   "property": "C73",
   "status": "proved",
   "theorems": [
    "Heu.schaffer1_pareto"
   ],
   "note": "exact arithmetic"
  },
  {
   "property": "C74",
   "status": "partial",
   "theorems": [
    "Heu.dtlz7_eigen_value",
    "Heu.dtlz7_eigen_pareto",
    "Heu.dtlz7_std_stale"
   ],
   "note": "proved for Eigen vectors; false for std vectors (objective M-2 is never written)"
  },
  {
   "property": "C75",
   "status": "partial",
   "theorems": [
    "Heu.dtlz8_value_partial",
    "Heu.min2_least",
    "Heu.dtlz8_overlap",
    "Heu.dtlz9_always_ub"
   ],
   "note": "DTLZ8 stays in range, penalties exact; false: blocks overlap by one variable, DTLZ9 always reads behind the end"
  },
  {
   "property": "C76",
   "status": "partial",
   "theorems": [
    "Heu.dtlz56_sphere_partial",
    "Heu.dtlz5_negative"
   ],
   "note": "sphere proved; false: negative objectives on the unit cube (angle multiplied by pi/2 twice)"
  },
  {
   "property": "C77",
   "status": "partial",
   "theorems": [
    "Heu.kursawe_ignores_rest_partial",
    "Heu.kursawe3_wrong",
    "Heu.kursawe_eigen_value_partial",
    "Heu.kursawe_eigen_two",
    "Heu.kursawe_eigen_wrong",
    "Heu.kursawe_call"
   ],
   "note": "two variables right; false otherwise: with std containers all but the first two variables are ignored, with Eigen vectors the first objective uses the first and last variable only (the second objective is right)"
  },
  {
   "property": "C78",
   "status": "partial",
   "theorems": [
    "Heu.schaffer2_agrees_partial",
    "Heu.schaffer2_unbounded",
    "Heu.viennet_bounds",
    "Heu.viennet_not_documented",
    "Heu.viennet_third"
   ],
   "note": "false in the code: two wrong branches in Schaffer2, 2x instead of 3x in viennet"
  },
  {
   "property": "C79",
   "status": "proved",
   "theorems": [
    "Heu.nsga3_niching",
    "Heu.nsga3_full_niching"
   ],
   "note": "the second theorem includes normalize and associate; exact arithmetic"
  },
  {
   "property": "C80",
   "status": "proved",
   "theorems": [
    "Heu.truncation_keeps_the_best",
    "Heu.elites_survive",
    "Heu.elite_survivors"
   ],
   "note": ""
  },
  {
   "property": "C81",
   "status": "proved",
   "theorems": [
    "Heu.roulette_survivors",
    "Heu.boltzmann_survivors",
    "Heu.exponentialRank_survivors",
    "Heu.probability_survivors",
    "Heu.elite_survivors"
   ],
   "note": "exact arithmetic; draws in [0,1)"
  },
  {
   "property": "C82",
   "status": "partial",
   "theorems": [
    "Heu.wheel_probability",
    "Heu.wheel_unique",
    "Heu.roulette_pressure",
    "Heu.exponentialRank_pressure",
    "Heu.boltzmann_pressure",
    "Heu.probability_ignores_unique_best"
   ],
   "note": "holds for RouletteWheel, ExponentialRank, Boltzmann; false for Probability: a single best individual has no advantage"
  },
  {
   "property": "C83",
   "status": "proved",
   "theorems": [
    "Heu.sus_keeps_heavy",
    "Heu.montecarlo_blind"
   ],
   "note": ""
  },
  {
   "property": "C84",
   "status": "partial",
   "theorems": [
    "Heu.linearRank_is_truncation",
    "Heu.linearRank_default_is_truncation",
    "Heu.exponentialRank_base_zero_is_truncation"
   ],
   "note": "false: the weights do not sum to 1, so with the default settings and K >= 2 the method is deterministic truncation"
  },
  {
   "property": "C85",
   "status": "partial",
   "theorems": [
    "Heu.normalize_scale_invariant_partial",
    "Heu.normalize_depends_on_units"
   ],
   "note": "holds as long as the verdict of the singularity test is the same; false in general because the test has an absolute threshold"
  },
  {
   "property": "C86",
   "status": "proved",
   "theorems": [
    "Heu.niche_pick_uniform"
   ],
   "note": "exact arithmetic, independent uniform draws"
  },
  {
   "property": "C87",
   "status": "proved",
   "theorems": [
    "Heu.sign_spec",
    "Heu.square_spec",
    "Heu.gaussianCurve_is_density"
   ],
   "note": "exact arithmetic"
  },
  {
   "property": "C88",
   "status": "proved",
   "theorems": [
    "Heu.nsga2_run",
    "Heu.nsga3_run",
    "Heu.mo_init_ready"
   ],
   "note": "exact arithmetic; fitness function deterministic"
  },
  {
   "property": "C89",
   "status": "partial",
   "theorems": [
    "Heu.run_stops",
    "Heu.failTimes_step",
    "Heu.nsga2_ignores_maxFailTimes",
    "Heu.nsga3_ignores_maxFailTimes"
   ],
   "note": "true of SOGA (C25, C34); false of NSGA2 and NSGA3: the option has no effect at all"
  },
  {
   "property": "C90",
   "status": "partial",
   "theorems": [
    "Heu.nsga2_run_elitism",
    "Heu.nsga3_run_elitism",
    "Heu.nsga2_front_covers_partial",
    "Heu.nsga3_front_covers_partial",
    "Heu.nsga2_record_monotone_partial",
    "Heu.nsga3_record_monotone_partial",
    "Heu.nsga2_front_deteriorates"
   ],
   "note": "survival of dominators always; the rest as long as the front is smaller than the population, false otherwise"
  },
  {
   "property": "C91",
   "status": "partial",
   "theorems": [
    "Heu.nsga2_keeps_unique_best_partial",
    "Heu.congestion_top_card",
    "Heu.nsga2_loses_unique_extreme",
    "Heu.nsga2_loses_tied_extreme"
   ],
   "note": "proved for a unique best and populationSize >= 2*objectives; false otherwise"
  },
  {
   "property": "C92",
   "status": "proved",
   "theorems": [
    "Heu.dominate_ieee_iff",
    "Heu.dominate_ieee_order",
    "Heu.nan_incomparable",
    "Heu.dominate_ieee_agrees"
   ],
   "note": "all doubles"
  },
  {
   "property": "C93",
   "status": "proved",
   "theorems": [
    "Heu.nsga2_ieee_defined",
    "Heu.nsga2_double_defined",
    "Heu.nsga2_ieee_result",
    "Heu.nsga2_ieee_prefers",
    "Heu.fl_abs_correct"
   ],
   "note": "exact IEEE arithmetic with rounding"
  },
  {
   "property": "C94",
   "status": "partial",
   "theorems": [
    "Heu.nsga2_ieee_defined",
    "Heu.nsga2_double_defined",
    "Heu.nsga2_nan_ub",
    "Heu.nsga2_infinite_ub",
    "Heu.nsga2_overflow_ub"
   ],
   "note": "false: defined below 2^1023 (C93); a NaN, an infinity or an overflowing difference makes std::sort undefined"
  },
  {
   "property": "C95",
   "status": "proved",
   "theorems": [
    "Heu.pso_best_of_history_ieee",
    "Heu.pso_nan_stuck"
   ],
   "note": "positions of any number type"
  },
  {
   "property": "C96",
   "status": "partial",
   "theorems": [
    "Heu.selection_fl_correct",
    "Heu.selection_fl_size_partial",
    "Heu.sus_fl_at_least",
    "Heu.sus_rounding_keeps_extra"
   ],
   "note": "size false for StochasticUniversal (rounding, at least K survive); everything else proved for all methods and all doubles but NaN"
  },
  {
   "property": "C97",
   "status": "partial",
   "theorems": [
    "Heu.selection_fl_finishes_partial",
    "Heu.linear_last_rank",
    "Heu.sus_fl_at_least",
    "Heu.boltzmann_overflow_hangs",
    "Heu.boltzmann_default_strength_hangs",
    "Heu.probability_nonfinite_hangs",
    "Heu.roulette_infinitely_good_hangs",
    "Heu.elite_infinite_penalty_hangs",
    "Heu.nan_fitness_sort_undefined"
   ],
   "note": "true for finite values up to 2^970; false beyond: infinite penalties hang the default method, overflow hangs Boltzmann, NaN makes std::sort undefined"
  },
  {
   "property": "C98",
   "status": "partial",
   "theorems": [
    "Heu.boltzmann_underflow_keeps_first",
    "Heu.boltzmann_default_strength_keeps_first"
   ],
   "note": "false: when all exponentials underflow the first populationSize individuals stay whatever their fitness"
  },
  {
   "property": "C99",
   "status": "partial",
   "theorems": [
    "Heu.nan_first_is_best"
   ],
   "note": "false: a NaN is reported exactly when it is the fitness of the first survivor"
  },
  {
   "property": "C100",
   "status": "proved",
   "theorems": [
    "Heu.aos_photon_child",
    "Heu.aos_photon_step",
    "Heu.aos_means_in_box"
   ],
   "note": "all boxes, draws and states"
  },
  {
   "property": "C101",
   "status": "proved",
   "theorems": [
    "Heu.crossInTray_symmetric",
    "Heu.crossInTray_range",
    "Heu.eggHolder_range"
   ],
   "note": "real numbers"
  },
  {
   "property": "C102",
   "status": "proved",
   "theorems": [
    "Heu.poloni_ranges",
    "Heu.poloni_A"
   ],
   "note": "real numbers"
  },
  {
   "property": "C103",
   "status": "partial",
   "theorems": [
    "Heu.fonseca_pareto",
    "Heu.fonseca_eigen_partial",
    "Heu.fonseca_wrong_front",
    "Heu.fonseca_std_nan"
   ],
   "note": "false: the Eigen branch has the set of the two-variable problem whatever n; the std branch returns NaN"
  },
  {
   "property": "C104",
   "status": "proved",
   "theorems": [
    "Heu.race_free_eq_sequential",
    "Heu.evaluation_parallel",
    "Heu.dominated_num_parallel",
    "Heu.pso_evaluate_parallel",
    "Heu.pso_move_private_draws"
   ],
   "note": "every trace of every schedule, at the level of single stores"
  },
  {
   "property": "C105",
   "status": "partial",
   "theorems": [
    "Heu.evaluation_parallel",
    "Heu.dominated_num_parallel",
    "Heu.pso_evaluate_parallel",
    "Heu.pso_move_private_draws",
    "Heu.pso_update_races_iff",
    "Heu.pso_shared_draw",
    "Heu.pso_update_single_chunk_partial"
   ],
   "note": "proved for evaluation and counting; false for the update of a swarm: it races on the shared random engine exactly if there are two or more chunks"
  },
  {
   "property": "C106",
   "status": "partial",
   "theorems": [
    "Heu.chunkSize_defined_iff",
    "Heu.chunkSize_small_population_partial"
   ],
   "note": "false: defined exactly if the number of iterations is at least the thread number in force"
  },
  {
   "property": "C107",
   "status": "partial",
   "theorems": [
    "Heu.setThreadNum_first",
    "Heu.setThreadNum_ignored_partial"
   ],
   "note": "false: each loop keeps the number in force when it first ran"
  },
  {
   "property": "C108",
   "status": "partial",
   "theorems": [
    "Heu.soga_session",
    "Heu.soga_run_without_init",
    "Heu.soga_initializePop",
    "Heu.soga_stale_fitness",
    "Heu.soga_stale_fitness_happens",
    "Heu.pso_stale_fitness",
    "Heu.pso_stale_fitness_happens"
   ],
   "note": "proved if the fitness function was not changed since the last initializePop; false otherwise: cached values of the old function are reported"
  },
  {
   "property": "C109",
   "status": "proved",
   "theorems": [
    "Heu.soga_second_run",
    "Heu.pso_session",
    "Heu.pso_session_run"
   ],
   "note": "all histories"
  },
  {
   "property": "C110",
   "status": "partial",
   "theorems": [
    "Heu.nsga2_session",
    "Heu.nsga3_session",
    "Heu.nsga2_session_run",
    "Heu.nsga3_session_run",
    "Heu.mo_front_after_init",
    "Heu.nsga2_grown_population_ub"
   ],
   "note": "exact: undefined behaviour exactly if at some run the population is smaller than populationSize, e.g. after raising populationSize without initializePop"
  },
  {
   "property": "C111",
   "status": "partial",
   "theorems": [
    "Heu.aos_second_run_partial"
   ],
   "note": "false: the second run makes one evaluation, no electron, and appends a copy of the last record entry"
  },
  {
   "property": "C112",
   "status": "proved",
   "theorems": [
    "Heu.iterator_position",
    "Heu.iterator_from_end",
    "Heu.iterator_moves_inverse",
    "Heu.iterator_eq_iff",
    "Heu.iterator_writes_element",
    "Heu.references_to_elements",
    "Heu.iter_fill_loop",
    "Heu.iter_back_loop",
    "Heu.iter_copy_loop",
    "Heu.null_reference"
   ],
   "note": "const begin()/end() do not compile; element access as in C01"
  },
  {
   "property": "C113",
   "status": "proved",
   "theorems": [
    "Heu.soga_settings",
    "Heu.soga_run_obeys",
    "Heu.mo_settings",
    "Heu.pso_settings"
   ],
   "note": "all histories"
  },
  {
   "property": "C114",
   "status": "proved",
   "theorems": [
    "Heu.soga_int_run_in_box",
    "Heu.mo_int_run_in_box",
    "Heu.soga_bool_run_dimension"
   ],
   "note": "any mixture of library operators; the mutations outside the type condition are C40/C43"
  },
  {
   "property": "C115",
   "status": "proved",
   "theorems": [
    "Heu.selection_settings_accepted",
    "Heu.selection_settings",
    "Heu.selection_settings_in_range",
    "Heu.selection_uses_settings",
    "Heu.configured_boltzmann",
    "Heu.configured_linearRank",
    "Heu.configured_elite_keeps_best",
    "Heu.configured_env_valid",
    "Heu.tournament_size_unchecked"
   ],
   "note": "the public non-const reference tournamentSize() bypasses the range check (tournament_size_unchecked)"
  },
  {
   "property": "C116",
   "status": "proved",
   "theorems": [
    "Heu.applyConstraint_ieee",
    "Heu.applyConstraint_ieee_in_box",
    "Heu.applyConstraint_ieee_idempotent",
    "Heu.applyDeltaCont_ieee",
    "Heu.applyDeltaCont_longer_than_delta",
    "Heu.applyDeltaUnit_ieee",
    "Heu.cFunNd_ieee_error",
    "Heu.cFunNd_ieee_near_box",
    "Heu.cFunNd_ieee_outside"
   ],
   "note": "IEEE arithmetic of Model/Encode; the two negative facts (step longer than delta, child outside the box) are counterexample theorems"
  },
  {
   "property": "C117",
   "status": "proved",
   "theorems": [
    "Heu.square_setup_accepted",
    "Heu.square_setup",
    "Heu.square_setup_valid",
    "Heu.square_initialize_ok_iff",
    "Heu.square_setup_use",
    "Heu.square_reference_unchecked",
    "Heu.square_delta_needed",
    "Heu.square_int_overflow",
    "Heu.rect_setup_accepted",
    "Heu.rect_setup_range",
    "Heu.rect_setup_delta",
    "Heu.rect_setDimensions",
    "Heu.rect_sizes_agree",
    "Heu.rect_initialize_ok_iff",
    "Heu.rect_applyDelta_ok_iff",
    "Heu.rect_setup_use",
    "Heu.rect_deltaAt",
    "Heu.rect_deltaAt_row_major",
    "Heu.rect_unset",
    "Heu.rect_shapes_unchecked",
    "Heu.rect_delta_needed",
    "Heu.rect_setDimensions_discards",
    "Heu.gauss_setup",
    "Heu.gauss_setup_use"
   ],
   "note": "exact arithmetic; the negative clauses are counterexample theorems"
  },
  {
   "property": "C118",
   "status": "proved",
   "theorems": [
    "Heu.cross_dynamic",
    "Heu.cross_fixed",
    "Heu.cross_fixed_defined_iff",
    "Heu.cross_dynamic_unequal",
    "Heu.iFunNd_range",
    "Heu.iFunNd_reaches",
    "Heu.iFunNd_ieee",
    "Heu.iFunNd_empty"
   ],
   "note": "parents and children are four different objects, as in GABase::__impl_crossover"
  },
  {
   "property": "C119",
   "status": "proved",
   "theorems": [
    "Heu.cFunNd_distance",
    "Heu.cFunNd_ratio_reversed"
   ],
   "note": "exact arithmetic; the documented direction is the opposite of the code's"
  },
  {
   "property": "C120",
   "status": "proved",
   "theorems": [
    "Heu.view_write",
    "Heu.view_copy",
    "Heu.view_addressing",
    "Heu.view_fill",
    "Heu.view_assign",
    "Heu.view_assign_faithful",
    "Heu.view_self_assign",
    "Heu.view_assign_smears",
    "Heu.view_assign_defined_iff",
    "Heu.fixed_matrix_ops"
   ],
   "note": "memory as a list of cells that hold objects; indices are naturals"
  },
  {
   "property": "C121",
   "status": "proved",
   "theorems": [
    "Heu.nsga3_points_single",
    "Heu.nsga3_points_double",
    "Heu.nsga3_defined_single",
    "Heu.nsga3_defined_double",
    "Heu.nsga3_precision_never_set",
    "Heu.nsga3_setter",
    "Heu.nsga3_count_single",
    "Heu.nsga3_count_double",
    "Heu.nsga3_count_lies",
    "Heu.nsga3_object_run"
   ],
   "note": "exact arithmetic; precisions in the range where NchooseK is right (C12); compile-time number of objectives"
  },
  {
   "property": "C122",
   "status": "proved",
   "theorems": [
    "Heu.nsga3_ieee_result",
    "Heu.nsga3_ieee_niching"
   ],
   "note": "Eigen's min/determinant/inverse/distances on doubles are arbitrary functions; minCoeff as Eigen's scalar visitor; unordered containers in any order"
  },
  {
   "property": "C123",
   "status": "partial",
   "theorems": [
    "Heu.nan_nonDominated",
    "Heu.nsga3_nan_reported",
    "Heu.nsga2_nan_reported",
    "Heu.nsga3_all_nan"
   ],
   "note": "false of the code: the theorems prove that every NaN candidate is reported whenever the front fits into the population (nsga2: whenever its selection returns)"
  },
  {
   "property": "C124",
   "status": "proved",
   "theorems": [
    "Heu.referencePoints_ieee",
    "Heu.referencePoses_ieee",
    "Heu.referencePoses2_ieee",
    "Heu.nearLattice_distinct",
    "Heu.invSqrt2_literal",
    "Heu.referencePoses_precision_zero"
   ],
   "note": "matrix theorems for objectives+precision-1 <= 20 (beyond, C23); the precision itself converts exactly to double"
  },
  {
   "property": "C125",
   "status": "proved",
   "theorems": [
    "Heu.nsga3_run_ieee",
    "Heu.nsga3_run_ieee_elitism",
    "Heu.nsga3_run_ieee_covers",
    "Heu.nsga3_run_ieee_record",
    "Heu.nsga3_configured_run_ieee",
    "Heu.nsga2_run_ieee",
    "Heu.nsga2_run_ieee_elitism",
    "Heu.nsga2_run_ieee_covers",
    "Heu.nsga2_run_ieee_record",
    "Heu.nsga2_run_nan_ub",
    "Heu.mo_init_ready_ieee",
    "Heu.picksBetter_usual"
   ],
   "note": "Eigen routines as in C122; crossover and mutation are arbitrary functions on the decision variables"
  },
  {
   "property": "C126",
   "status": "proved",
   "theorems": [
    "Heu.pso_object_defined",
    "Heu.pso_object_settings",
    "Heu.pso_object_initialised",
    "Heu.pso_object_true_best",
    "Heu.pso_object_monotone",
    "Heu.pso_object_run",
    "Heu.pso_object_legal",
    "Heu.pso_object_feasible",
    "Heu.pso_object_moved",
    "Heu.pso_object_feasible_ieee",
    "Heu.pso_narrowed_range_infeasible",
    "Heu.pso_stale_argument",
    "Heu.pso_object_undefined_examples"
   ],
   "note": "square boxes over Eigen vectors, run-time fitness function, default initialisation; a velocity entry on doubles is within the limit or NaN (no NaN without overflow: C44)"
  },
  {
   "property": "C127",
   "status": "proved",
   "theorems": [
    "Heu.aos_ieee_run_terminates",
    "Heu.aos_ieee_run_result",
    "Heu.aos_ieee_record_best",
    "Heu.aos_ieee_best_ever",
    "Heu.aos_ieee_early_stop_counter",
    "Heu.aos_ieee_selection_keeps_best",
    "Heu.aos_ieee_run_ok",
    "Heu.aos_ieee_nan_selection_undefined",
    "Heu.aos_ieee_nan_run_undefined",
    "Heu.aos_ieee_all_nan_no_early_stop",
    "Heu.aos_ieee_bestElectron_partial"
   ],
   "note": "Gaussian curve and the value of Eigen's sum() arbitrary doubles"
  },
  {
   "property": "C128",
   "status": "partial",
   "theorems": [
    "Heu.aos_ieee_in_box_or_nan",
    "Heu.aos_ieee_electrons_in_box_partial",
    "Heu.aos_ieee_state_nan"
   ],
   "note": "false without the magnitude condition (aos_ieee_state_nan)"
  },
  {
   "property": "C129",
   "status": "proved",
   "theorems": [
    "Heu.aos_ieee_layers",
    "Heu.layerCountsFl_spec",
    "Heu.layerSizes_double",
    "Heu.aos_ieee_plan_too_small"
   ],
   "note": "the sum of the weights is an arbitrary double (Eigen's reduction order is not modelled)"
  },
  {
   "property": "C130",
   "status": "proved",
   "theorems": [
    "Heu.aos_object_settings",
    "Heu.aos_object_undefined",
    "Heu.aos_object_run",
    "Heu.aos_object_counters",
    "Heu.aos_object_refines",
    "Heu.aos_object_init",
    "Heu.aos_object_run_ok",
    "Heu.aos_object_run_ok_gauss",
    "Heu.aos_object_no_delta",
    "Heu.aos_object_feasible",
    "Heu.aos_object_moved",
    "Heu.aos_object_true"
   ],
   "note": "square ContinousBox, Eigen variables, fitness function set at run time, exact arithmetic; the exact set of histories that return is not characterised (run also depends on ties and draws): necessary and sufficient conditions are separate theorems"
  },
  {
   "property": "C131",
   "status": "proved",
   "theorems": [
    "Heu.sogaFull_settings",
    "Heu.sogaFull_run_refines",
    "Heu.sogaFull_session",
    "Heu.sogaFull_init",
    "Heu.sogaFull_unused_crossover",
    "Heu.sogaFull_unused_mutation",
    "Heu.sogaFull_unused_initializer",
    "Heu.sogaFull_recording",
    "Heu.sogaFull_session_recording",
    "Heu.soga_init_null",
    "Heu.soga_run_null",
    "Heu.soga_negative_mutateProb",
    "Heu.soga_probability_zero_is_not_never",
    "Heu.null_functions",
    "Heu.moFull_settings",
    "Heu.moFull_run_refines",
    "Heu.moFull_run_needs_fitness",
    "Heu.moFull_init_iff",
    "Heu.moFull_defined",
    "Heu.moFull_session_run",
    "Heu.moFull_run_needs_crossover",
    "Heu.moFull_run_needs_mutation",
    "Heu.moFull_negative_mutateProb",
    "Heu.moFull_unused_crossover",
    "Heu.moFull_unused_mutation",
    "Heu.moFull_recording",
    "Heu.nsga2Full_defined",
    "Heu.nsga2Full_session_run"
   ],
   "note": "run-time function pointers, exact arithmetic; that a SOGA run returns is not characterised here (it depends on the selection method: C80-C99)"
  },
  {
   "property": "C132",
   "status": "proved",
   "theorems": [
    "Heu.soga_copy_same",
    "Heu.soga_assign_same",
    "Heu.soga_objects_independent",
    "Heu.soga_touched_owns",
    "Heu.soga_copy_keeps_result",
    "Heu.soga_run_on_copy",
    "Heu.soga_run_evaluates",
    "Heu.soga_stale_copy",
    "Heu.soga_orphan",
    "Heu.copy_result_follows_original",
    "Heu.copy_before_run_differs",
    "Heu.orphan_demo",
    "Heu.mo_copy_same",
    "Heu.mo_objects_independent",
    "Heu.mo_call_returns",
    "Heu.mo_stale_copy",
    "Heu.mo_orphan",
    "Heu.mo_copy_demo"
   ],
   "note": "a node of the original that its run happens to keep, and assignment reusing list nodes, count as gone (conservative); exact arithmetic; NSGA-II-like selections as arbitrary functions"
  },
  {
   "property": "C133",
   "status": "proved",
   "theorems": [
    "Heu.aos_copy_same",
    "Heu.aos_move_same",
    "Heu.aos_assign_same",
    "Heu.aos_moveAssign_same",
    "Heu.aos_objects_independent",
    "Heu.aos_touched_owns",
    "Heu.aos_world_init",
    "Heu.aos_copy_keeps_result",
    "Heu.aos_run_on_copy",
    "Heu.aos_orphan",
    "Heu.aos_copy_before_run_differs",
    "Heu.aos_copy_demo",
    "Heu.aos_orphan_demo",
    "Heu.aos_move_demo"
   ],
   "note": "moved-from std::list and std::vector are empty (as in all implementations); electrons of the original that its run happens to keep, and assignment reusing list nodes, count as gone (conservative); self-move counted as undefined; exact arithmetic, Eigen variables, square ContinousBox"
  },
  {
   "property": "C134",
   "status": "partial",
   "theorems": [
    "Heu.schaffer_delivers",
    "Heu.pair_delivers_partial",
    "Heu.pair_not_resized",
    "Heu.pair_wrong_dimension",
    "Heu.binhKorn_outcome",
    "Heu.changkongHaimes_outcome",
    "Heu.poloni_outcome",
    "Heu.viennet_outcome",
    "Heu.kursawe_call",
    "Heu.instantiates_arg_iff",
    "Heu.instantiates_void_iff",
    "Heu.own_dimensions_rejected",
    "Heu.offered_specialises",
    "Heu.dtlz_dynamic_never_compiles"
   ],
   "note": "proved for result containers of compile-time size (all a solver uses) and for variables of run-time size; false: a variable of compile-time size with a result of run-time size is not resized (written behind its end), and fixed containers with fewer variables than objectives (Schaffer, Viennet in their own dimensions) are rejected by the class; compile-time rules as a decision function"
  },
  {
   "property": "C135",
   "status": "partial",
   "theorems": [
    "Heu.matrices_are_values",
    "Heu.memory_in_order",
    "Heu.nothing_leaks",
    "Heu.others_untouched",
    "Heu.legal_program_safe_partial",
    "Heu.move_assign_undefined",
    "Heu.move_assign_end",
    "Heu.nontrivial_growth_fatal"
   ],
   "note": "values, ownership and no leak proved for every program that does nothing undefined, safety for every legal program; false: move assignment lacks a return (undefined in every state), a matrix of non-trivial elements that has grown cannot be destroyed; copy construction reads uninitialised members (C62)"
  },
  {
   "property": "C136",
   "status": "partial",
   "theorems": [
    "Heu.traits_size",
    "Heu.traits_vector",
    "Heu.traits_element_iff",
    "Heu.traits_not_ordinary",
    "Heu.traits_empty_array",
    "Heu.stdContainer_size",
    "Heu.uintX_smallest"
   ],
   "note": "sizes and shapes right for all ordinary containers (1 .. 2^31-1 elements); false for empty arrays of one-byte elements and arrays beyond int; the element type of std::vector<bool> is taken to be its proxy class (exact: traits_element_iff)"
  },
  {
   "property": "C137",
   "status": "partial",
   "theorems": [
    "Heu.box_impl",
    "Heu.setDimensions_documented",
    "Heu.boolean_boxes",
    "Heu.continous_boxes",
    "Heu.rect_vector_setDimensions_missing"
   ],
   "note": "implementation always the right one; false: rectangular boxes on resizable vectors have no setDimensions that compiles, and no box operation compiles for std::vector<bool> (both exact)"
  },
  {
   "property": "C138",
   "status": "partial",
   "theorems": [
    "Heu.libBox_isBox",
    "Heu.defaults_accept",
    "Heu.defaults_accept_any",
    "Heu.symbolic_mutation_accepts",
    "Heu.aos_accepts",
    "Heu.aos_assertion_weak",
    "Heu.defaults_language_dependent"
   ],
   "note": "atomic orbital search as stated for library boxes; false: in C++20 the default operators refuse DiscretBox (it has no member Shape), the symbolic mutation accepts no box of the library, and the assertion of AOS lets classes through that are no boxes; all conditions exact"
  },
  {
   "property": "C139",
   "status": "proved",
   "theorems": [
    "Heu.method_names",
    "Heu.method_names_distinct",
    "Heu.option_names",
    "Heu.container_names",
    "Heu.runtime_is_greatest",
    "Heu.method_numbers"
   ],
   "note": "also: exactly the numbers that are no enumerator are undefined (RecordOption, FitnessOption, BoxShape, EncodeType) or get the default text"
  },
  {
   "property": "C140",
   "status": "proved",
   "theorems": [
    "Heu.chaos_object_orbit",
    "Heu.chaos_object_in_unit",
    "Heu.chaos_seed",
    "Heu.chaos_object_stuck"
   ],
   "note": "IEEE double and every similar format; chaos_object_stuck: the default constructor may draw 0, which is a fixed point"
  },
  {
   "property": "C141",
   "status": "partial",
   "theorems": [
    "Heu.bits_are_values",
    "Heu.bit_memory_in_order",
    "Heu.bit_no_leak_at_end",
    "Heu.bit_others_untouched",
    "Heu.legal_bit_program_safe_partial",
    "Heu.size_zero_fatal",
    "Heu.copy_spare_undefined",
    "Heu.self_assign_keeps",
    "Heu.self_assign_loses",
    "Heu.strict_is_lenient",
    "Heu.strict_first_growth_undefined",
    "Heu.strict_self_assign_undefined"
   ],
   "note": "value semantics, ownership, no leak and independence proved for every program; memory safety for legal programs; negations: size-0 constructor (cannot even be destroyed), copy of a container with spare blocks, self-assignment above 2^24 bits, and by the letter of the standards the first growth, every non-empty copy construction and self-assignment"
  },
  {
   "property": "C142",
   "status": "proved",
   "theorems": [
    "Heu.pso_own_settings",
    "Heu.pso_own_defined",
    "Heu.pso_own_initialised",
    "Heu.pso_own_result",
    "Heu.pso_own_swarm_within",
    "Heu.pso_own_outside"
   ],
   "note": "square box, Eigen vectors, any history; pso_own_outside: a concrete run that reports a seed outside the box"
  },
  {
   "property": "C143",
   "status": "proved",
   "theorems": [
    "Heu.aos_own_settings",
    "Heu.aos_own_initialised",
    "Heu.aos_own_sizes",
    "Heu.aos_own_result",
    "Heu.aos_own_outside"
   ],
   "note": "square box, Eigen arrays, exact arithmetic, any history; aos_own_outside: a concrete run that keeps and reports a seed outside the box"
  },
  {
   "property": "C144",
   "status": "proved",
   "theorems": [
    "Heu.ga_log_transparent",
    "Heu.ga_run_calls",
    "Heu.ga_run_calls_sequential",
    "Heu.ga_run_counts",
    "Heu.ga_run_bound",
    "Heu.ga_init_calls",
    "Heu.sogaHost_fair",
    "Heu.moHostBy_fair",
    "Heu.soga_best_of_all_calls",
    "Heu.soga_evaluations_bound",
    "Heu.calls_agree"
   ],
   "note": "user functions as transformers of the state of the rest of the program; SOGA with every selection method and the multi-objective solvers are instances (sogaHost_fair, moHostBy_fair); with OpenMP the calls are taken to happen one after the other in any order"
  },
  {
   "property": "C145",
   "status": "proved",
   "theorems": [
    "Heu.pso_log_transparent",
    "Heu.pso_init_calls",
    "Heu.pso_run_calls",
    "Heu.pso_run_counts",
    "Heu.pso_best_of_all_calls",
    "Heu.pso_best_over_runs",
    "Heu.swarmHost_fair",
    "Heu.swarm_evaluate_agrees"
   ],
   "note": "user functions as transformers of the state of the rest of the program; with OpenMP the calls are taken to happen one after the other in any order"
  },
  {
   "property": "C146",
   "status": "proved",
   "theorems": [
    "Heu.aos_log_transparent",
    "Heu.aos_init_calls",
    "Heu.aos_run_calls",
    "Heu.aos_run_counts",
    "Heu.aos_best_of_all_calls",
    "Heu.aos_evaluate_agrees"
   ],
   "note": "runs that return (C49, C50, C69 say when a run is undefined); exact arithmetic in the library's own steps; with OpenMP the calls are taken to happen one after the other in any order"
  },
  {
   "property": "C147",
   "status": "proved",
   "theorems": [
    "Heu.default_ieee_run_near_box",
    "Heu.exchange_ieee_run_in_box",
    "Heu.drift_linear",
    "Heu.realCx_near",
    "Heu.realCx_exchange_near",
    "Heu.applyDelta_near",
    "Heu.default_ieee_run_leaves_box"
   ],
   "note": "IEEE arithmetic of binary64/binary32; runs that return; the bound on the margin is not claimed to be the best possible, default_ieee_run_leaves_box shows that there is none equal to 0"
  },
  {
   "property": "C148",
   "status": "proved",
   "theorems": [
    "Heu.nsga2_calls_run",
    "Heu.nsga3_calls_run",
    "Heu.nsga3_ieee_calls_run",
    "Heu.nsga2_ieee_calls_run"
   ],
   "note": "user functions as transformers of the state of the rest of the program; with OpenMP the calls are taken to happen one after the other in any order; without the assumption on the fronts coverage is false (C90)"
  },
  {
   "property": "C149",
   "status": "proved",
   "theorems": [
    "Heu.soga_ieee_calls_run",
    "Heu.soga_ieee_best_of_all_calls",
    "Heu.soga_ieee_evaluations_bound",
    "Heu.soga_ieee_run_returns"
   ],
   "note": "fitness type a double of any binary format (NaN excluded by hypothesis; infinities allowed); std::exp/std::pow and the draws are oracle arguments with the range the generators guarantee; user functions as transformers of the state of the rest of the program; with OpenMP the calls are taken to happen one after the other, in any order. The other methods need not return (C35, C97)"
  },
  {
   "property": "C150",
   "status": "proved",
   "theorems": [
    "Heu.pso_ieee_calls",
    "Heu.pso_ieee_best_of_all_calls",
    "Heu.pso_ieee_best_over_runs",
    "Heu.pso_ieee_first_nan",
    "Heu.pso_ieee_frozen_particle",
    "Heu.pso_ieee_frozen_loses_best",
    "Heu.partialNumbers_ieee"
   ],
   "note": "fitness type a double of any binary format, NaN and infinities included; user functions as transformers of the state of the rest of the program; with OpenMP the calls are taken to happen one after the other in any order; when a particle other than the first starts with NaN: its own best is frozen and a run that misses the best value is exhibited"
  },
  {
   "property": "C151",
   "status": "proved",
   "theorems": [
    "Heu.aos_ieee_run_calls",
    "Heu.aos_ieee_run_counts",
    "Heu.aos_ieee_best_of_all_calls",
    "Heu.aos_ieee_calls_terminates",
    "Heu.aos_ieee_calls_nan_undefined",
    "Heu.aos_ieee_log_transparent",
    "Heu.aos_ieee_calls_agree"
   ],
   "note": "IEEE data; call order within a round arbitrary; the user function is an arbitrary transformer of the rest of the program."
  },
  {
   "property": "C152",
   "status": "proved",
   "theorems": [
    "Heu.booth_ieee_nonneg",
    "Heu.himmelblau_ieee_nonneg",
    "Heu.beale_ieee_nonneg",
    "Heu.sphere_ieee_nonneg",
    "Heu.sphere_ieee_minimum",
    "Heu.rosenbrock_ieee_nonneg",
    "Heu.rosenbrock_ieee_minimum",
    "Heu.rosenbrock_ieee_two",
    "Heu.schaffer1_ieee",
    "Heu.twoVariable_ieee_minima",
    "Heu.sphere_ieee_other_minimum",
    "Heu.testFuns_ieee_overflow"
   ],
   "note": "no fused multiply-add; coordinates and fitness of the same format"
  },
  {
   "property": "C153",
   "status": "proved",
   "theorems": [
    "Heu.levy_ieee_nonneg",
    "Heu.levy_ieee_minimum",
    "Heu.levy_ieee_minimum_missed",
    "Heu.easom_ieee_range",
    "Heu.easom_ieee_minimum",
    "Heu.bukin_ieee_nonneg",
    "Heu.bukin_ieee_minimum"
   ],
   "note": "the library's sine, cosine, exponential function and square root are arbitrary functions with the stated ranges; no fused multiply-add"
  },
  {
   "property": "C154",
   "status": "proved",
   "theorems": [
    "Heu.holderTable_ieee_nan",
    "Heu.holderTable_ieee_nonpos",
    "Heu.holderTable_ieee_minima",
    "Heu.schaffer2_ieee_lower"
   ],
   "note": "the library's sine, cosine, exponential function and square root are arbitrary functions with the stated properties; no fused multiply-add"
  },
  {
   "property": "C155",
   "status": "proved",
   "theorems": [
    "Heu.rastrigin_ieee_nonneg",
    "Heu.rastrigin_ieee_minimum"
   ],
   "note": "the library's cosine is an arbitrary function within [-1, 1]; no fused multiply-add; dimension below 2^(mantissa bits + 1) / 10"
  },
  {
   "property": "C156",
   "status": "proved",
   "theorems": [
    "Heu.binhKorn_ieee_values",
    "Heu.binhKorn_ieee_penalty"
   ],
   "note": "feasibility as the code computes it (rounded constraints); no fused multiply-add"
  },
  {
   "property": "C157",
   "status": "proved",
   "theorems": [
    "Heu.ga_run_stops",
    "Heu.ga_run_terminates",
    "Heu.soga_run_stops"
   ],
   "note": "user functions with side effects; termination relative to termination of selection and bestFitness()"
  },
  {
   "property": "C158",
   "status": "proved",
   "theorems": [
    "Heu.changkongHaimes_ieee_values",
    "Heu.changkongHaimes_ieee_penalty"
   ],
   "note": "feasibility as the code computes it (rounded constraints); no fused multiply-add; points of the documented box, as in C72"
  }
 ]
}