{
 "claims": [
  {
   "property": "C01",
   "status": "proved",
   "theorems": [
    "K.C01_ok_iff",
    "K.C01_ok_effect",
    "K.C01_err"
   ],
   "note": "Any scalar type."
  },
  {
   "property": "C02",
   "status": "proved",
   "theorems": [
    "K.C02_within",
    "K.C02_value",
    "K.C02_idempotent",
    "K.C02_fixed",
    "K.C02_unlimited",
    "K.C02_nan"
   ],
   "note": "Any scalar type whose order laws hold as in IEEE (NaN included); C02_nan is the stated NaN exception."
  },
  {
   "property": "C03",
   "status": "proved",
   "theorems": [
    "K.C03_limits_along_history",
    "K.C03_nan_breaks_limits"
   ],
   "note": "All clients of the API subset LimitCall; C03_nan_breaks_limits shows the NaN exclusion is needed."
  },
  {
   "property": "C04",
   "status": "proved",
   "theorems": [
    "K.C04_limits_under_interleaving"
   ],
   "note": "Any number of threads, any interleaving of primitive lock/read/write/unlock steps."
  },
  {
   "property": "C05",
   "status": "proved",
   "theorems": [
    "K.C05_returns",
    "K.C05_children_follow",
    "K.C05_mimic_child_ignores",
    "K.C05_failure"
   ],
   "note": "Also covers termination, mimic children and the exact state after a failure."
  },
  {
   "property": "C06",
   "status": "proved",
   "theorems": [
    "K.C06_relation_preserved",
    "K.C06_set_mimic_parent",
    "K.C06_chained_mimics_diverge",
    "K.C06_clamped_breaks_relation"
   ],
   "note": "With two refutations showing that one level of mimicry and checked setters are needed."
  },
  {
   "property": "C07",
   "status": "proved",
   "theorems": [
    "K.C07_from_nodes",
    "K.C07_joint_positions",
    "K.C07_size_mismatch",
    "K.C07_set_effect",
    "K.C07_round_trip"
   ],
   "note": "All chains built by from_nodes; any scalar type."
  },
  {
   "property": "C08",
   "status": "proved",
   "theorems": [
    "K.C08_ok_iff",
    "K.C08_failure_prefix",
    "K.C08_not_atomic"
   ],
   "note": "Exact prefix state after a failure, and a witness that the call is not atomic."
  },
  {
   "property": "C09",
   "status": "proved",
   "theorems": [
    "K.C09_descendants",
    "K.C09_from_root",
    "K.C09_order"
   ],
   "note": "Forest heaps; termination within fuel = number of allocated nodes + 1."
  },
  {
   "property": "C10",
   "status": "proved",
   "theorems": [
    "K.C10_ancestors",
    "K.C10_lineage_unique",
    "K.C10_lineage_shape"
   ],
   "note": "Forest heaps."
  },
  {
   "property": "C11",
   "status": "proved",
   "theorems": [
    "K.C11_from_end_to_root"
   ],
   "note": "Forest heaps, both cases (cut on the path or not)."
  },
  {
   "property": "C12",
   "status": "proved",
   "theorems": [
    "K.C12_world_unique",
    "K.C12_update_transforms",
    "K.C12_cut_chain",
    "K.C12_missing_cache_panics",
    "K.C12_from_root",
    "K.C12_from_end"
   ],
   "note": "Any scalar type: chains whose parents come first, chains cut below the root, from_root and from_end chains; panic on a missing cache."
  },
  {
   "property": "C13",
   "status": "proved",
   "theorems": [
    "K.C13_end_transform",
    "K.C13_from_end",
    "K.C13_cut_chain"
   ],
   "note": "Serial chains, any scalar type (C13_cut_chain over the reals)."
  },
  {
   "property": "C14",
   "status": "proved",
   "theorems": [
    "K.C14_rigid"
   ],
   "note": "Over exact reals."
  },
  {
   "property": "C15",
   "status": "proved",
   "theorems": [
    "K.C15_world_transform",
    "K.C15_set_origin",
    "K.C15_set_joint_position_clamped",
    "K.C15_set_joint_position_unchecked",
    "K.C15_set_joint_position",
    "K.C15_only_updates_fill",
    "K.C15_descendants_stale"
   ],
   "note": "All setters exactly, plus all client histories without transform computations and a stale-descendant witness."
  },
  {
   "property": "C16",
   "status": "proved",
   "theorems": [
    "K.C16_never_returns",
    "K.C16_blocks",
    "K.C16_frame",
    "K.C16_fixed"
   ],
   "note": "C16_never_returns: every chain in every unlocked state; C16_blocks and C16_fixed: chains whose parents come first."
  },
  {
   "property": "C17",
   "status": "proved",
   "theorems": [
    "K.C17_placed_in_parent_frame",
    "K.C17_not_in_own_frame"
   ],
   "note": "Exact effect, and the witness against the expected frame."
  },
  {
   "property": "C18",
   "status": "proved",
   "theorems": [
    "K.C18_frame",
    "K.C18_clone_frame",
    "K.C18_independent"
   ],
   "note": "C18_frame: any number of threads, any programs that are given no node of a closed set to write to; C18_independent instantiates both directions after a clone"
  },
  {
   "property": "C19",
   "status": "proved",
   "theorems": [
    "K.C19_clone",
    "K.C19_panics",
    "K.C19_empty",
    "K.C19_order",
    "K.C19_path",
    "K.C19_order_refuted"
   ],
   "note": "order claim refuted for branching chains by C19_order_refuted; C19_order gives the true order"
  },
  {
   "property": "C20",
   "status": "proved",
   "theorems": [
    "K.C20_empty_panics",
    "K.C20_try_new",
    "K.C20_from_root",
    "K.C20_path_refused"
   ],
   "note": "Every chain; from_root chains over forests; a witness that a path with side branches is refused."
  },
  {
   "property": "C21",
   "status": "proved",
   "theorems": [
    "K.C21_jacobian",
    "K.C21_from_end"
   ],
   "note": "Exact reals. Position rows: derivative of the end position under set_joint_position_unchecked; angular rows: every vector fixed in the end frame moves with a x v."
  },
  {
   "property": "C22",
   "status": "proved",
   "theorems": [
    "K.C22_cut_chain",
    "K.C22_missing_cache",
    "K.C22_refuted"
   ],
   "note": "Exact reals; the expected claim is refuted by C22_refuted."
  },
  {
   "property": "C23",
   "status": "proved",
   "theorems": [
    "K.C23_center_of_mass",
    "K.C23_half_space",
    "K.C23_moving_the_origin"
   ],
   "note": "Exact reals; holds for any rigid motion of the root, not only translations."
  },
  {
   "property": "C24",
   "status": "proved",
   "theorems": [
    "K.C24_success",
    "K.C24_needs_limits"
   ],
   "note": "success theorem for an arbitrary linear solver, witness that starting outside limits breaks it"
  },
  {
   "property": "C25",
   "status": "proved",
   "theorems": [
    "K.C25_restores",
    "K.C25_refuted_limits",
    "K.C25_refuted_mimic"
   ],
   "note": "restoration under Restorable, two refutations"
  },
  {
   "property": "C26",
   "status": "proved",
   "theorems": [
    "K.C26_ignored",
    "K.C26_refuted"
   ],
   "note": "redundant branch by invariant over the iterations, refutation in the square branch"
  },
  {
   "property": "C27",
   "status": "proved",
   "theorems": [
    "K.C27_only_arm"
   ],
   "note": "safety invariant over all outcomes"
  },
  {
   "property": "C28",
   "status": "proved",
   "theorems": [
    "K.C28_too_many",
    "K.C28_precondition",
    "K.C28_invalid_name",
    "K.C28_hidden_by_limits"
   ],
   "note": "panic, precondition and name errors, witness that out-of-limit starts hide them"
  },
  {
   "property": "C29",
   "status": "proved",
   "theorems": [
    "K.C29_bound",
    "K.C29_not_converged",
    "K.C29_error",
    "K.C29_zero_panics"
   ],
   "note": "step bound, reported values, panic for zero tries"
  },
  {
   "property": "C30",
   "status": "proved",
   "theorems": [
    "K.C30_selected",
    "K.C30_split",
    "K.C30_count"
   ],
   "note": "all flag combinations and poses"
  },
  {
   "property": "C31",
   "status": "proved",
   "theorems": [
    "K.C31_remove",
    "K.C31_insert",
    "K.C31_duplicate"
   ],
   "note": "removal and re-insertion inverse for distinct indices; behaviour for duplicates"
  },
  {
   "property": "C32",
   "status": "proved",
   "theorems": [
    "K.Urdf.C32_tree",
    "K.Urdf.C32_cycle_dropped",
    "K.Urdf.C32_unknown_master_panics",
    "K.Urdf.C32_bad_limits_panic"
   ],
   "note": "full tree correspondence; panics and the dropped cycle as separate theorems"
  },
  {
   "property": "C33",
   "status": "proved",
   "theorems": [
    "K.Urdf.C33_joint",
    "K.Urdf.C33_limits_real",
    "K.Urdf.C33_limits_nan",
    "K.Urdf.C33_axis",
    "K.Urdf.C33_zero_axis",
    "K.Urdf.C33_mimic",
    "K.Urdf.C33_mimic_real"
   ],
   "note": "all scalars; exact reals and NaN corollaries"
  },
  {
   "property": "C34",
   "status": "proved",
   "theorems": [
    "K.Urdf.C34_value",
    "K.Urdf.C34_link_to_joint"
   ],
   "note": "general value formula and the distinct-children case"
  },
  {
   "property": "C35",
   "status": "proved",
   "theorems": [
    "K.Urdf.C35_joint_to_link",
    "K.Urdf.C35_root_not_base",
    "K.Urdf.C35_root_base"
   ],
   "note": "reworded to true behaviour; base-link reading refuted by witness"
  },
  {
   "property": "C36",
   "status": "proved",
   "theorems": [
    "K.C36_rpy",
    "K.C36_isometry"
   ],
   "note": "Exact reals."
  },
  {
   "property": "C37",
   "status": "proved",
   "theorems": [
    "K.C37_zero_iff",
    "K.C37_exact"
   ],
   "note": "Exact reals."
  },
  {
   "property": "C38",
   "status": "proved",
   "theorems": [
    "K.C38_nullspace"
   ],
   "note": "Exact reals, linear algebra of nalgebra as arbitrary functions with the stated hypotheses (J P J = J, SVD solution = P err). Before clamping."
  },
  {
   "property": "C39",
   "status": "proved",
   "theorems": [
    "K.C39_gradient",
    "K.C39_lengths"
   ],
   "note": "Exact reals; directional derivatives in every direction."
  },
  {
   "property": "C40",
   "status": "proved",
   "theorems": [
    "K.C40_forest",
    "K.C40_links_agree",
    "K.C40_queries",
    "K.C40_second_parent_breaks",
    "K.C40_wrong_remove_breaks",
    "K.C40_cycle_diverges"
   ],
   "note": "histories include clone; wrong-node remove_parent, double set_parent and cycles are covered by refutations"
  },
  {
   "property": "C41",
   "status": "proved",
   "theorems": [
    "K.C41_no_deadlock",
    "K.C41_panics_do_not_block",
    "K.C41_always_finishes",
    "K.C41_no_deadlock_printing",
    "K.C41_finite",
    "K.C41_printing_deadlock"
   ],
   "note": "All interleavings, any number of threads. C41_no_deadlock: stuck only when all returned or one panicked; C41_always_finishes: calls without panic path; C41_finite: no infinite executions; printing needs an order compatible with mimic edges (C41_no_deadlock_printing) and deadlocks otherwise (C41_printing_deadlock)."
  },
  {
   "property": "C42",
   "status": "proved",
   "theorems": [
    "K.C42_race_deadlock"
   ],
   "note": "Witness schedule with both threads blocked; that it returns after set_mimic_parent has finished is C05_returns / C41_always_finishes."
  },
  {
   "property": "C43",
   "status": "proved",
   "theorems": [
    "K.C43_display",
    "K.C43_from_root",
    "K.C43_depth_unique",
    "K.C43_empty_panics"
   ],
   "note": "Any chain over a forest, exact lines."
  },
  {
   "property": "C44",
   "status": "proved",
   "theorems": [
    "K.C44_find"
   ],
   "note": "Any heap."
  },
  {
   "property": "C45",
   "status": "proved",
   "theorems": [
    "K.C45_builder",
    "K.C45_translation_rotation_commute",
    "K.C45_into_node",
    "K.C45_connect"
   ],
   "note": "Any sequence of builder calls; connect! for distinct nodes."
  },
  {
   "property": "C46",
   "status": "proved",
   "theorems": [
    "K.C46_moving_the_origin"
   ],
   "note": "Over exact reals."
  },
  {
   "property": "C47",
   "status": "proved",
   "theorems": [
    "K.C47_alive",
    "K.C47_parent",
    "K.C47_only_reachable",
    "K.C47_all_freed",
    "K.C47_tree_alive_iff",
    "K.C47_drop",
    "K.C47_orphan",
    "K.C47_mimic_cycle_leaks",
    "K.C47_freed_unseen",
    "K.C47_api",
    "K.C47_api_history",
    "K.C47_api_counts"
   ],
   "note": "reference-count model; all API calls including clone are mapped to it; leak and orphan as witnesses"
  },
  {
   "property": "C48",
   "status": "proved",
   "theorems": [
    "K.C48_period",
    "K.C48_axis_fixed",
    "K.C48_rotation",
    "K.C48_linear",
    "K.C48_fixed",
    "K.C48_add"
   ],
   "note": "Exact reals."
  },
  {
   "property": "C49",
   "status": "proved",
   "theorems": [
    "K.C49_no_self_deadlock",
    "K.C49_history"
   ],
   "note": "all API calls, alone, including clone; update_velocities is excluded (C16)"
  },
  {
   "property": "C50",
   "status": "proved",
   "theorems": [
    "K.C50_race_panics",
    "K.C50_no_race"
   ],
   "note": "Witness schedule for the panic, and absence of panics for all schedules under the stated condition."
  },
  {
   "property": "C51",
   "status": "proved",
   "theorems": [
    "K.C51_away"
   ],
   "note": "Exact reals; concrete instance where the distance grows."
  },
  {
   "property": "C52",
   "status": "proved",
   "theorems": [
    "K.C52_never_poisoned",
    "K.C52_exact",
    "K.C52_alone",
    "K.C52_history",
    "K.C52_race_poisons",
    "K.C52_links_race_poisons"
   ],
   "note": "C52_alone/C52_history: single-threaded use never poisons; C52_never_poisoned/C52_exact: threads of calls that cannot panic under a guard; C52_race_poisons/C52_links_race_poisons: schedules that poison. Poisoning semantics in Model/Poison.lean."
  },
  {
   "property": "C53",
   "status": "proved",
   "theorems": [
    "K.C53_get",
    "K.C53_set",
    "K.C53_fixed",
    "K.C53_kept"
   ],
   "note": ""
  },
  {
   "property": "C54",
   "status": "proved",
   "theorems": [
    "K.C54_frozen",
    "K.C54_frozen_threads",
    "K.C54_chain_data"
   ],
   "note": ""
  },
  {
   "property": "C55",
   "status": "proved",
   "theorems": [
    "K.C55_set_get",
    "K.C55_iter_links",
    "K.C55_kept",
    "K.C55_iter_joints"
   ],
   "note": ""
  },
  {
   "property": "C56",
   "status": "proved",
   "theorems": [
    "K.C56_link_builder",
    "K.C56_set_origin",
    "K.C56_new"
   ],
   "note": ""
  },
  {
   "property": "C57",
   "status": "proved",
   "theorems": [
    "K.Urdf.C57_link",
    "K.Urdf.C57_energy"
   ],
   "note": "urdf_rs defaults (empty material, colour 0,0,0,0) are taken from the urdf_rs documentation"
  },
  {
   "property": "C58",
   "status": "proved",
   "theorems": [
    "K.C58_end_velocity"
   ],
   "note": "for rooted chains; cut chains are C22"
  },
  {
   "property": "C59",
   "status": "proved",
   "theorems": [
    "K.C59_step",
    "K.C59_velocity",
    "K.C59_descent"
   ],
   "note": "linear algebra contract (LinAlg.Solves) is a hypothesis"
  },
  {
   "property": "C60",
   "status": "proved",
   "theorems": [
    "K.C60_solve",
    "K.C60_six",
    "K.C60_default",
    "K.C60_nullspace_unused",
    "K.C60_last",
    "K.C60_points"
   ],
   "note": ""
  },
  {
   "property": "C61",
   "status": "proved",
   "theorems": [
    "K.C61_text",
    "K.C61_readable"
   ],
   "note": "The text for every node, and the converse: the type can be read off the text. Display of a chain is C43."
  },
  {
   "property": "C62",
   "status": "proved",
   "theorems": [
    "K.C62_relation",
    "K.C62_quiescent",
    "K.C62_needs_accept"
   ],
   "note": "Rely-guarantee proof over all interleavings; excluded calls are listed in FollowingCall; witness that the acceptance hypothesis is needed."
  },
  {
   "property": "C63",
   "status": "proved",
   "theorems": [
    "K.C63_getters",
    "K.C63_set_parent",
    "K.C63_remove_parent",
    "K.C63_set_mimic_parent",
    "K.C63_set_origin",
    "K.C63_set_link",
    "K.C63_unchecked",
    "K.C63_clamped"
   ],
   "note": "Node setters and getters as the exact change of what every node shows, for all states"
  },
  {
   "property": "C64",
   "status": "proved",
   "theorems": [
    "K.C64_unchecked",
    "K.C64_clamped",
    "K.C64_round_trip",
    "K.C64_short",
    "K.C64_followers_stay"
   ],
   "note": "Exact effect of the chain setters without size check, with round trip; mimic joints are not moved"
  },
  {
   "property": "C65",
   "status": "proved",
   "theorems": [
    "K.C65_linearizable",
    "K.C65_turns",
    "K.C65_chain_torn",
    "K.C65_mimic_torn",
    "K.C65_drops",
    "K.C65_drops_runs"
   ],
   "note": "linearizability of node methods and atomic sections proved for all interleavings without mimicked joints; mixtures for chain setters and mimicked joints proved by schedules"
  },
  {
   "property": "C66",
   "status": "proved",
   "theorems": [
    "K.C66_stable",
    "K.C66_self_block",
    "K.C66_ordered",
    "K.C66_ordered_finishes",
    "K.C66_two_guards_deadlock",
    "K.C66_collect_deadlock",
    "K.C66_collect_ordered"
   ],
   "note": "clients with guards in Spec/Guards.lean; stability of what a guard shows, self-blocking, lock order with guards, deadlock witnesses"
  },
  {
   "property": "C67",
   "status": "proved",
   "theorems": [
    "K.C67_master",
    "K.C67_set_joint_positions",
    "K.C67_column_refuted",
    "K.C67_ik_leaves_followers"
   ],
   "note": "twist of the end under the checked setters with followers; witnesses for the column and for the solver"
  },
  {
   "property": "C68",
   "status": "proved",
   "theorems": [
    "K.C68_reach",
    "K.C68_unreachable"
   ],
   "note": "Bound at \u211d; the solver theorem assumes joints not outside their limits before the call, as C24."
  },
  {
   "property": "C69",
   "status": "proved",
   "theorems": [
    "K.C69_contracts",
    "K.C69_answer",
    "K.C69_sequential",
    "K.C69_no_mimic_error"
   ],
   "note": "Error texts are not modelled. Contracts speak of data that no call changes (ids, names, types, limits); calls without such a contract have the trivial one."
  },
  {
   "property": "C70",
   "status": "proved",
   "theorems": [
    "K.C70_converges",
    "K.C70_fails",
    "K.C70_iff",
    "K.C70_enough_tries",
    "K.C70_bad_multiplier",
    "K.C70_default"
   ],
   "note": "Over the reals; the linear solvers of nalgebra are assumed to solve solvable systems (LinAlg.Solves, IkSolver.Able). Arms with rotational joints are covered to first order by C59."
  },
  {
   "property": "C71",
   "status": "proved",
   "theorems": [
    "K.C71_still",
    "K.C71_contracts",
    "K.C71_answer",
    "K.C71_update"
   ],
   "note": "Joints given to Node::new carry no velocity: the cache is private, so a client can only pass new joints or copies of joints of nodes (Client.Still)."
  },
  {
   "property": "C72",
   "status": "proved",
   "theorems": [
    "K.Urdf.C72_poses"
   ],
   "note": "PosesAt, InBase: Props/UrdfFk.lean; TreeOf strengthened (root origin, followers, frame)"
  },
  {
   "property": "C73",
   "status": "proved",
   "theorems": [
    "K.C73_solve_iff",
    "K.C73_returns_iff",
    "K.C73_returns",
    "K.C73_kept",
    "K.C73_total",
    "K.C73_panics",
    "K.C73_no_infinite_run",
    "K.C73_empty"
   ],
   "note": "Necessary and sufficient for every call except solve_with_constraints (sufficient). The number of iterations given to traversals in the model is assumed large enough (h.next + 1), which C09-C11 show to be no restriction on trees."
  },
  {
   "property": "C74",
   "status": "proved",
   "theorems": [
    "K.C74_converges",
    "K.C74_full_rank",
    "K.C74_swing",
    "K.C74_singular_start"
   ],
   "note": "exact real arithmetic; existence of the neighbourhood and number of tries, no explicit rate; linear algebra assumed exact (witness exactLa)"
  },
  {
   "property": "C75",
   "status": "proved",
   "theorems": [
    "K.C75_end_transform",
    "K.C75_update_transforms",
    "K.C75_linear",
    "K.C75_solve",
    "K.C75_drift",
    "K.C75_ok_but_off"
   ],
   "note": "Any arithmetic with relative error u (no overflow or underflow); constants for the operation order of the model; only positions are bounded for the solver, not the angle."
  },
  {
   "property": "C76",
   "status": "proved",
   "theorems": [
    "K.C76_for_descendants",
    "K.C76_for_descendants_threads",
    "K.C76_for_ancestors",
    "K.C76_for_descendants_total",
    "K.C76_collect_descendants",
    "K.C76_collect_ancestors",
    "K.C76_until",
    "K.C76_added_removed",
    "K.C76_twice",
    "K.C76_endless"
   ],
   "note": "iter_ancestors: one thread only, because another thread may drop a node above"
  },
  {
   "property": "C77",
   "status": "proved",
   "theorems": [
    "K.C77_same",
    "K.C77_threads",
    "K.C77_threads_back",
    "K.C77_drops",
    "K.C77_drops_back",
    "K.C77_empty",
    "K.C77_empty_call",
    "K.C77_wrapped",
    "K.C77_nodup",
    "K.C77_unknown",
    "K.C77_three_names",
    "K.C77_three_names_call",
    "K.C77_torn"
   ],
   "note": "release profile: UpTo simulation, wrapped index"
  },
  {
   "property": "C78",
   "status": "proved",
   "theorems": [
    "K.C78_kind",
    "K.C78_fields",
    "K.C78_mimic_ambiguous",
    "K.C78_out_of_limit",
    "K.C78_fixed",
    "K.C78_size"
   ],
   "note": "the printing of f64 and of vectors is a parameter"
  },
  {
   "property": "C79",
   "status": "proved",
   "theorems": [
    "K.C79_new",
    "K.C79_nan",
    "K.C79_bounds",
    "K.C79_clamp"
   ],
   "note": "clamp as nearest value over the reals"
  },
  {
   "property": "C80",
   "status": "proved",
   "theorems": [
    "K.C80_nobody_waits",
    "K.C80_confined",
    "K.C80_frozen",
    "K.C80_later_uses_panic",
    "K.C80_poisoned",
    "K.C80_spreads"
   ],
   "note": "confinement for calls that do not themselves panic while holding a mutex; unwinding as in std::sync::Mutex"
  },
  {
   "property": "C81",
   "status": "proved",
   "theorems": [
    "K.C81_map",
    "K.C81_order",
    "K.C81_unknown",
    "K.C81_round_trip",
    "K.C81_default",
    "K.C81_refused",
    "K.C81_seq"
   ],
   "note": "all proved; the derived code is modelled after serde 1.0, on trees of values"
  },
  {
   "property": "C82",
   "status": "proved",
   "theorems": [
    "K.C82_result",
    "K.C82_panic",
    "K.C82_progress",
    "K.C82_finish",
    "K.C82_deterministic",
    "K.C82_outside",
    "K.C82_poison",
    "K.C82_links_needed"
   ],
   "note": "all interleavings, with and without poisoning; clients that create no node"
  },
  {
   "property": "C83",
   "status": "proved",
   "theorems": [
    "K.C83_down",
    "K.C83_down_alone",
    "K.C83_down_poison",
    "K.C83_parent_seen",
    "K.C83_down_poison_runs",
    "K.C83_unseen",
    "K.C83_alone",
    "K.C83_separate",
    "K.C83_torn"
   ],
   "note": "drops at any moment are part of DSteps/PDSteps; the universal theorems of C04, C18, C41, C50, C52, C54, C55, C62, C66, C69, C71, C76, C80 are stated for them"
  },
  {
   "property": "C84",
   "status": "proved",
   "theorems": [
    "K.C84_jacobian",
    "K.C84_derivative",
    "K.C84_center_of_mass"
   ],
   "note": "Jacobian, derivative and center of mass with rounding; nalgebra's order of operations as in Model/Geom.lean."
  },
  {
   "property": "C85",
   "status": "proved",
   "theorems": [
    "K.C85_frame",
    "K.C85_found_iff",
    "K.C85_gantry",
    "K.C85_needs_isotropy"
   ],
   "note": "Assumes that the linear-algebra routines commute with rotating the rows (LinAlg.TurnInvariant); proved for exact linear algebra."
  },
  {
   "property": "C86",
   "status": "proved",
   "theorems": [
    "K.C86_more_tries",
    "K.C86_success_stays",
    "K.C86_fewer_tries",
    "K.C86_wider",
    "K.C86_at_target",
    "K.C86_gantry",
    "K.C86_gantry_stays",
    "K.C86_at_target_gives_up"
   ],
   "note": "more tries give the same answer, wider tolerances keep success (LawfulOrd), at the target nothing moves (assumes a linear solver that takes zeros to zeros, proved for exact linear algebra)"
  },
  {
   "property": "C87",
   "status": "proved",
   "theorems": [
    "K.C87_sequential",
    "K.C87_threads",
    "K.C87_failed",
    "K.C87_retry",
    "K.C87_tool",
    "K.C87_uncomputed",
    "K.C87_cut",
    "K.C87_gantry"
   ],
   "note": "Relational logic over all API calls; provisos shown to be needed by C87_uncomputed and C87_cut"
  },
  {
   "property": "C88",
   "status": "proved",
   "theorems": [
    "K.C88_sequential",
    "K.C88_call",
    "K.C88_threads",
    "K.C88_clone",
    "K.C88_solve",
    "K.C88_follower",
    "K.C88_branch"
   ],
   "note": "All memories, permutations of allocated nodes, clients and interleavings; the consequence for copies holds for serial robots, with a witness that it fails for branching ones."
  },
  {
   "property": "C89",
   "status": "proved",
   "theorems": [
    "K.C89_sequential",
    "K.C89_call",
    "K.C89_threads",
    "K.C89_gantry",
    "K.C89_lookFar",
    "K.C89_mixed",
    "K.C89_ignored"
   ],
   "note": "For real arithmetic; IK with unit-free linear algebra and the tasks named in the statement, with witnesses that other tasks depend on the units."
  },
  {
   "property": "C90",
   "status": "proved",
   "theorems": [
    "K.Urdf.C90_order",
    "K.Urdf.C90_siblings",
    "K.Urdf.C90_links",
    "K.Urdf.C90_not_file_order",
    "K.Urdf.C90_two_bases"
   ],
   "note": "C90_order, C90_siblings, C90_links; witnesses C90_not_file_order, C90_two_bases"
  },
  {
   "property": "C91",
   "status": "proved",
   "theorems": [
    "K.C91_sequential",
    "K.C91_call",
    "K.C91_threads",
    "K.C91_gantry",
    "K.C91_lookAway",
    "K.C91_limits",
    "K.C91_display",
    "K.C91_ignored"
   ],
   "note": "all client programs; inverse kinematics with SignFree linear algebra and without ignored joints in square tasks (C91_ignored)"
  },
  {
   "property": "C92",
   "status": "proved",
   "theorems": [
    "K.C92_same",
    "K.C92_fixed",
    "K.C92_stand",
    "K.C92_axis",
    "K.C92_mimic"
   ],
   "note": "Arbitrary programs on two serial robots with the same forward kinematics, proved by relating both runs; fixed joints may be merged or split (C92_fixed). Robots with mimic relations are left out, with a counterexample."
  },
  {
   "property": "C93",
   "status": "proved",
   "theorems": [
    "K.C93_result",
    "K.C93_panic",
    "K.C93_progress",
    "K.C93_finish",
    "K.C93_outside",
    "K.C93_deterministic",
    "K.C93_poison",
    "K.C93_known_needed"
   ],
   "note": "Separation argument per thread (own nodes, common read-only nodes), refinement of poisoned executions to ordinary ones; kernel-checked for all interleavings."
  },
  {
   "property": "C94",
   "status": "proved",
   "theorems": [
    "K.C94_every_execution",
    "K.C94_threads",
    "K.C94_most",
    "K.C94_few",
    "K.C94_alone",
    "K.C94_update_exact",
    "K.C94_few_needed"
   ],
   "note": "number of mutex acquisitions of every call, any interleaving"
  },
  {
   "property": "C95",
   "status": "proved",
   "theorems": [
    "K.C95_points",
    "K.C95_directions",
    "K.C95_set_joint_positions",
    "K.C95_solve",
    "K.C95_continuous",
    "K.C95_jacobian",
    "K.C95_tight"
   ],
   "note": "proved for real numbers; with an example where the bound is reached"
  },
  {
   "property": "C96",
   "status": "proved",
   "theorems": [
    "K.C96_sequential",
    "K.C96_same",
    "K.C96_swap",
    "K.C96_overwritten",
    "K.C96_meanwhile",
    "K.C96_threads"
   ],
   "note": "proved for every scalar type"
  },
  {
   "property": "C97",
   "status": "proved",
   "theorems": [
    "K.C97_singular",
    "K.C97_cause",
    "K.C97_one_try",
    "K.C97_redundant",
    "K.C97_coaxial",
    "K.C97_parallel",
    "K.C97_stretched",
    "K.C97_planar"
   ],
   "note": "Exact real arithmetic; assumes that LU succeeds exactly on regular matrices (LinAlg.Pivots)."
  },
  {
   "property": "C98",
   "status": "proved",
   "theorems": [
    "K.C98_sequential",
    "K.C98_call",
    "K.C98_threads",
    "K.C98_arms",
    "K.C98_gantry",
    "K.C98_reachOut",
    "K.C98_text",
    "K.C98_rounded",
    "K.C98_upwards"
   ],
   "note": "Every call and every client, one reflection or several; sequential, per call and for threads; number types with the laws of signs. Concrete cases: left and right arm, gantry, rounding with and without preference for a sign."
  },
  {
   "property": "C99",
   "status": "proved",
   "theorems": [
    "K.C99_transforms",
    "K.C99_elsewhere",
    "K.C99_set",
    "K.C99_unchecked",
    "K.C99_clamped",
    "K.C99_turn",
    "K.C99_shift",
    "K.C99_center_of_mass",
    "K.C99_center_of_mass_rate",
    "K.C99_topple",
    "K.C99_branch"
   ],
   "note": "exact reals; checked setter for joints without followers; unit axes and rigid origins"
  },
  {
   "property": "C100",
   "status": "proved",
   "theorems": [
    "K.C100_build",
    "K.C100_sequential",
    "K.C100_threads",
    "K.C100_listing",
    "K.C100_poses",
    "K.C100_find",
    "K.C100_text",
    "K.C100_center_of_mass",
    "K.C100_two_arms",
    "K.C100_other_arm",
    "K.C100_two_parents"
   ],
   "note": "Two orders of connecting compared for all permutations; clients and threads by a logic of programs that do not notice the order of children; listings are permutations. Refuted for indices and for a child connected twice, with witnesses."
  },
  {
   "property": "C101",
   "status": "proved",
   "theorems": [
    "K.C101_arm",
    "K.C101_end",
    "K.C101_poses",
    "K.C101_jacobian",
    "K.C101_center_of_mass",
    "K.C101_apart",
    "K.C101_third_link",
    "K.C101_two_loads"
   ],
   "note": "Exact arithmetic; the end node of the first arm is alive."
  },
  {
   "property": "C102",
   "status": "proved",
   "theorems": [
    "K.C102_result",
    "K.C102_panic",
    "K.C102_progress",
    "K.C102_deterministic",
    "K.C102_finish",
    "K.C102_ends",
    "K.C102_poison",
    "K.C102_two_rails",
    "K.C102_other_objects"
   ],
   "note": "Any client programs, any schedule; compared with the thread running alone up to the choice of objects for new nodes."
  },
  {
   "property": "C103",
   "status": "proved",
   "theorems": [
    "K.C103_held",
    "K.C103_welded",
    "K.C103_reference",
    "K.C103_gantry",
    "K.C103_equal_refuted"
   ],
   "note": "C103_held (any robot with the joints held), C103_welded (joints fixed in place), C103_reference (nullspace function with reference positions), C103_gantry (concrete), C103_equal_refuted (as many joints as coordinates: false)"
  },
  {
   "property": "C104",
   "status": "proved",
   "theorems": [
    "K.C104_same_request",
    "K.C104_sign",
    "K.C104_only_x",
    "K.C104_half_turn",
    "K.C104_gated"
   ],
   "note": "unseen coordinates as equality of programs, sign of the quaternion by invariance; refuted at exactly half a turn"
  },
  {
   "property": "C105",
   "status": "proved",
   "theorems": [
    "K.C105_sequential",
    "K.C105_call",
    "K.C105_threads",
    "K.C105_threads_back",
    "K.C105_prefix",
    "K.C105_find",
    "K.C105_solve",
    "K.C105_one_name"
   ],
   "note": "any client, any threads, both directions; concrete prefix renaming; refuted for non-injective renaming"
  },
  {
   "property": "C106",
   "status": "proved",
   "theorems": [
    "K.C106_client",
    "K.C106_call",
    "K.C106_threads",
    "K.C106_threads_back",
    "K.C106_built",
    "K.C106_handles",
    "K.C106_not_given_up",
    "K.C106_slide",
    "K.C106_two",
    "K.C106_two_made",
    "K.C106_slide_runs",
    "K.C106_two_runs",
    "K.C106_clamped",
    "K.C106_solve"
   ],
   "note": "sequential and threads in both directions; clamped setters and solve refuted with witnesses"
  },
  {
   "property": "C107",
   "status": "proved",
   "theorems": [
    "K.C107_alone",
    "K.C107_threads",
    "K.C107_catch_up",
    "K.C107_poison",
    "K.C107_beside",
    "K.C107_links_noticed",
    "K.C107_display_noticed",
    "K.C107_update_noticed"
   ],
   "note": "observers are stutters of a simulation; iter_links, joint_positions and printing can poison or block, witnesses for iter_links and printing"
  },
  {
   "property": "C108",
   "status": "proved",
   "theorems": [
    "K.C108_execution",
    "K.C108_back",
    "K.C108_nodes",
    "K.C108_limits",
    "K.C108_mimic",
    "K.C108_halfway"
   ],
   "note": "The condition that the master is not poisoned is needed (C108_halfway)"
  },
  {
   "property": "C109",
   "status": "proved",
   "theorems": [
    "K.C109_sequential",
    "K.C109_call",
    "K.C109_threads",
    "K.C109_threads_back",
    "K.C109_same_orientation",
    "K.C109_solve",
    "K.C109_half_turn",
    "K.C109_signedAt",
    "K.C109_reported",
    "K.C109_mountAndMove",
    "K.C109_gated",
    "K.C109_passes"
   ],
   "note": "with a constrained rotation at exactly half a turn the sign is seen: C109_half_turn"
  },
  {
   "property": "C110",
   "status": "proved",
   "theorems": [
    "K.C110_sequential",
    "K.C110_call",
    "K.C110_threads",
    "K.C110_threads_back",
    "K.C110_reference",
    "K.C110_swing",
    "K.C110_turnAndMove",
    "K.C110_converges",
    "K.C110_limits",
    "K.C110_mimic",
    "K.C110_solve",
    "K.C110_sixty"
   ],
   "note": "relational proof per call; false with limits and for mimic joints, witnesses proved"
  },
  {
   "property": "C111",
   "status": "proved",
   "theorems": [
    "K.C111_sequential",
    "K.C111_call",
    "K.C111_threads",
    "K.C111_threads_back",
    "K.C111_any_links",
    "K.C111_solve",
    "K.C111_renamed",
    "K.C111_shifted",
    "K.C111_center_of_mass",
    "K.C111_display",
    "K.C111_pickUpAndMove"
   ],
   "note": "Any scalar type; links are handed out by link() and iter_links only, which are excepted."
  },
  {
   "property": "C112",
   "status": "proved",
   "theorems": [
    "K.C112_sequential",
    "K.C112_call",
    "K.C112_threads",
    "K.C112_threads_back",
    "K.C112_set_parent",
    "K.C112_remove_parent",
    "K.C112_attach",
    "K.C112_detach",
    "K.C112_moveAndWeigh",
    "K.C112_tooled",
    "K.C112_listed",
    "K.C112_tool_itself"
   ],
   "note": "Any scalar type; calls that list children or build chains are excepted, and so are chains that contain a rehung node (witnesses proved)."
  }
 ]
}
