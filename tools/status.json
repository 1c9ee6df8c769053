{
"C01": {"status": "proved", "note": "Any scalar type."},
"C02": {"status": "proved", "note": "Any scalar type whose order laws hold as in IEEE (NaN included); C02_nan is the stated NaN exception."},
"C03": {"status": "proved", "note": "All clients of the API subset LimitCall; C03_nan_breaks_limits shows the NaN exclusion is needed."},
"C04": {"status": "proved", "note": "Any number of threads, any interleaving of primitive lock/read/write/unlock steps."},
"C05": {"status": "proved", "note": "Also covers termination, mimic children and the exact state after a failure."},
"C06": {"status": "proved", "note": "With two refutations showing that one level of mimicry and checked setters are needed."},
"C07": {"status": "proved", "note": "All chains built by from_nodes; any scalar type."},
"C08": {"status": "proved", "note": "Exact prefix state after a failure, and a witness that the call is not atomic."},
"C09": {"status": "proved", "note": "Forest heaps; termination within fuel = number of allocated nodes + 1."},
"C10": {"status": "proved", "note": "Forest heaps."},
"C100": {"status": "proved", "note": "Two orders of connecting compared for all permutations; clients and threads by a logic of programs that do not notice the order of children; listings are permutations. Refuted for indices and for a child connected twice, with witnesses."},
"C101": {"status": "proved", "note": "Exact arithmetic; the end node of the first arm is alive."},
"C102": {"status": "proved", "note": "Any client programs, any schedule; compared with the thread running alone up to the choice of objects for new nodes."},
"C103": {"status": "proved", "note": "C103_held (any robot with the joints held), C103_welded (joints fixed in place), C103_reference (nullspace function with reference positions), C103_gantry (concrete), C103_equal_refuted (as many joints as coordinates: false)"},
"C104": {"status": "proved", "note": "unseen coordinates as equality of programs, sign of the quaternion by invariance; refuted at exactly half a turn"},
"C105": {"status": "proved", "note": "any client, any threads, both directions; concrete prefix renaming; refuted for non-injective renaming"},
"C106": {"status": "proved", "note": "sequential and threads in both directions; clamped setters and solve refuted with witnesses"},
"C107": {"status": "proved", "note": "observers are stutters of a simulation; iter_links, joint_positions and printing can poison or block, witnesses for iter_links and printing"},
"C108": {"status": "proved", "note": "The condition that the master is not poisoned is needed (C108_halfway)"},
"C109": {"status": "proved", "note": "with a constrained rotation at exactly half a turn the sign is seen: C109_half_turn"},
"C11": {"status": "proved", "note": "Forest heaps, both cases (cut on the path or not)."},
"C110": {"status": "proved", "note": "relational proof per call; false with limits and for mimic joints, witnesses proved"},
"C111": {"status": "proved", "note": "Any scalar type; links are handed out by link() and iter_links only, which are excepted."},
"C112": {"status": "proved", "note": "Any scalar type; calls that list children or build chains are excepted, and so are chains that contain a rehung node (witnesses proved)."},
"C12": {"status": "proved", "note": "Any scalar type: chains whose parents come first, chains cut below the root, from_root and from_end chains; panic on a missing cache."},
"C13": {"status": "proved", "note": "Serial chains, any scalar type (C13_cut_chain over the reals)."},
"C14": {"status": "proved", "note": "Over exact reals."},
"C15": {"status": "proved", "note": "All setters exactly, plus all client histories without transform computations and a stale-descendant witness."},
"C16": {"status": "proved", "note": "C16_never_returns: every chain in every unlocked state; C16_blocks and C16_fixed: chains whose parents come first."},
"C17": {"status": "proved", "note": "Exact effect, and the witness against the expected frame."},
"C18": {"status": "proved", "note": "C18_frame: any number of threads, any programs that are given no node of a closed set to write to; C18_independent instantiates both directions after a clone"},
"C19": {"status": "proved", "note": "order claim refuted for branching chains by C19_order_refuted; C19_order gives the true order"},
"C20": {"status": "proved", "note": "Every chain; from_root chains over forests; a witness that a path with side branches is refused."},
"C21": {"status": "proved", "note": "Exact reals. Position rows: derivative of the end position under set_joint_position_unchecked; angular rows: every vector fixed in the end frame moves with a x v."},
"C22": {"status": "proved", "note": "Exact reals; the expected claim is refuted by C22_refuted."},
"C23": {"status": "proved", "note": "Exact reals; holds for any rigid motion of the root, not only translations."},
"C24": {"status": "proved", "note": "success theorem for an arbitrary linear solver, witness that starting outside limits breaks it"},
"C25": {"status": "proved", "note": "restoration under Restorable, two refutations"},
"C26": {"status": "proved", "note": "redundant branch by invariant over the iterations, refutation in the square branch"},
"C27": {"status": "proved", "note": "safety invariant over all outcomes"},
"C28": {"status": "proved", "note": "panic, precondition and name errors, witness that out-of-limit starts hide them"},
"C29": {"status": "proved", "note": "step bound, reported values, panic for zero tries"},
"C30": {"status": "proved", "note": "all flag combinations and poses"},
"C31": {"status": "proved", "note": "removal and re-insertion inverse for distinct indices; behaviour for duplicates"},
"C32": {"status": "proved", "note": "full tree correspondence; panics and the dropped cycle as separate theorems"},
"C33": {"status": "proved", "note": "all scalars; exact reals and NaN corollaries"},
"C34": {"status": "proved", "note": "general value formula and the distinct-children case"},
"C35": {"status": "proved", "note": "reworded to true behaviour; base-link reading refuted by witness"},
"C36": {"status": "proved", "note": "Exact reals."},
"C37": {"status": "proved", "note": "Exact reals."},
"C38": {"status": "proved", "note": "Exact reals, linear algebra of nalgebra as arbitrary functions with the stated hypotheses (J P J = J, SVD solution = P err). Before clamping."},
"C39": {"status": "proved", "note": "Exact reals; directional derivatives in every direction."},
"C40": {"status": "proved", "note": "histories include clone; wrong-node remove_parent, double set_parent and cycles are covered by refutations"},
"C41": {"status": "proved", "note": "All interleavings, any number of threads. C41_no_deadlock: stuck only when all returned or one panicked; C41_always_finishes: calls without panic path; C41_finite: no infinite executions; printing needs an order compatible with mimic edges (C41_no_deadlock_printing) and deadlocks otherwise (C41_printing_deadlock)."},
"C42": {"status": "proved", "note": "Witness schedule with both threads blocked; that it returns after set_mimic_parent has finished is C05_returns / C41_always_finishes."},
"C43": {"status": "proved", "note": "Any chain over a forest, exact lines."},
"C44": {"status": "proved", "note": "Any heap."},
"C45": {"status": "proved", "note": "Any sequence of builder calls; connect! for distinct nodes."},
"C46": {"status": "proved", "note": "Over exact reals."},
"C47": {"status": "proved", "note": "reference-count model; all API calls including clone are mapped to it; leak and orphan as witnesses"},
"C48": {"status": "proved", "note": "Exact reals."},
"C49": {"status": "proved", "note": "all API calls, alone, including clone; update_velocities is excluded (C16)"},
"C50": {"status": "proved", "note": "Witness schedule for the panic, and absence of panics for all schedules under the stated condition."},
"C51": {"status": "proved", "note": "Exact reals; concrete instance where the distance grows."},
"C52": {"status": "proved", "note": "C52_alone/C52_history: single-threaded use never poisons; C52_never_poisoned/C52_exact: threads of calls that cannot panic under a guard; C52_race_poisons/C52_links_race_poisons: schedules that poison. Poisoning semantics in Model/Poison.lean."},
"C53": {"status": "proved", "note": ""},
"C54": {"status": "proved", "note": ""},
"C55": {"status": "proved", "note": ""},
"C56": {"status": "proved", "note": ""},
"C57": {"status": "proved", "note": "urdf_rs defaults (empty material, colour 0,0,0,0) are taken from the urdf_rs documentation"},
"C58": {"status": "proved", "note": "for rooted chains; cut chains are C22"},
"C59": {"status": "proved", "note": "linear algebra contract (LinAlg.Solves) is a hypothesis"},
"C60": {"status": "proved", "note": ""},
"C61": {"status": "proved", "note": "The text for every node, and the converse: the type can be read off the text. Display of a chain is C43."},
"C62": {"status": "proved", "note": "Rely-guarantee proof over all interleavings; excluded calls are listed in FollowingCall; witness that the acceptance hypothesis is needed."},
"C63": {"status": "proved", "note": "Node setters and getters as the exact change of what every node shows, for all states"},
"C64": {"status": "proved", "note": "Exact effect of the chain setters without size check, with round trip; mimic joints are not moved"},
"C65": {"status": "proved", "note": "linearizability of node methods and atomic sections proved for all interleavings without mimicked joints; mixtures for chain setters and mimicked joints proved by schedules"},
"C66": {"status": "proved", "note": "clients with guards in Spec/Guards.lean; stability of what a guard shows, self-blocking, lock order with guards, deadlock witnesses"},
"C67": {"status": "proved", "note": "twist of the end under the checked setters with followers; witnesses for the column and for the solver"},
"C68": {"status": "proved", "note": "Bound at \u211d; the solver theorem assumes joints not outside their limits before the call, as C24."},
"C69": {"status": "proved", "note": "Error texts are not modelled. Contracts speak of data that no call changes (ids, names, types, limits); calls without such a contract have the trivial one."},
"C70": {"status": "proved", "note": "Over the reals; the linear solvers of nalgebra are assumed to solve solvable systems (LinAlg.Solves, IkSolver.Able). Arms with rotational joints are covered to first order by C59."},
"C71": {"status": "proved", "note": "Joints given to Node::new carry no velocity: the cache is private, so a client can only pass new joints or copies of joints of nodes (Client.Still)."},
"C72": {"status": "proved", "note": "PosesAt, InBase: Props/UrdfFk.lean; TreeOf strengthened (root origin, followers, frame)"},
"C73": {"status": "proved", "note": "Necessary and sufficient for every call except solve_with_constraints (sufficient). The number of iterations given to traversals in the model is assumed large enough (h.next + 1), which C09-C11 show to be no restriction on trees."},
"C74": {"status": "proved", "note": "exact real arithmetic; existence of the neighbourhood and number of tries, no explicit rate; linear algebra assumed exact (witness exactLa)"},
"C75": {"status": "proved", "note": "Any arithmetic with relative error u (no overflow or underflow); constants for the operation order of the model; only positions are bounded for the solver, not the angle."},
"C76": {"status": "proved", "note": "iter_ancestors: one thread only, because another thread may drop a node above"},
"C77": {"status": "proved", "note": "release profile: UpTo simulation, wrapped index"},
"C78": {"status": "proved", "note": "the printing of f64 and of vectors is a parameter"},
"C79": {"status": "proved", "note": "clamp as nearest value over the reals"},
"C80": {"status": "proved", "note": "confinement for calls that do not themselves panic while holding a mutex; unwinding as in std::sync::Mutex"},
"C81": {"status": "proved", "note": "all proved; the derived code is modelled after serde 1.0, on trees of values"},
"C82": {"status": "proved", "note": "all interleavings, with and without poisoning; clients that create no node"},
"C83": {"status": "proved", "note": "drops at any moment are part of DSteps/PDSteps; the universal theorems of C04, C18, C41, C50, C52, C54, C55, C62, C66, C69, C71, C76, C80 are stated for them"},
"C84": {"status": "proved", "note": "Jacobian, derivative and center of mass with rounding; nalgebra's order of operations as in Model/Geom.lean."},
"C85": {"status": "proved", "note": "Assumes that the linear-algebra routines commute with rotating the rows (LinAlg.TurnInvariant); proved for exact linear algebra."},
"C86": {"status": "proved", "note": "more tries give the same answer, wider tolerances keep success (LawfulOrd), at the target nothing moves (assumes a linear solver that takes zeros to zeros, proved for exact linear algebra)"},
"C87": {"status": "proved", "note": "Relational logic over all API calls; provisos shown to be needed by C87_uncomputed and C87_cut"},
"C88": {"status": "proved", "note": "All memories, permutations of allocated nodes, clients and interleavings; the consequence for copies holds for serial robots, with a witness that it fails for branching ones."},
"C89": {"status": "proved", "note": "For real arithmetic; IK with unit-free linear algebra and the tasks named in the statement, with witnesses that other tasks depend on the units."},
"C90": {"status": "proved", "note": "C90_order, C90_siblings, C90_links; witnesses C90_not_file_order, C90_two_bases"},
"C91": {"status": "proved", "note": "all client programs; inverse kinematics with SignFree linear algebra and without ignored joints in square tasks (C91_ignored)"},
"C92": {"status": "proved", "note": "Arbitrary programs on two serial robots with the same forward kinematics, proved by relating both runs; fixed joints may be merged or split (C92_fixed). Robots with mimic relations are left out, with a counterexample."},
"C93": {"status": "proved", "note": "Separation argument per thread (own nodes, common read-only nodes), refinement of poisoned executions to ordinary ones; kernel-checked for all interleavings."},
"C94": {"status": "proved", "note": "number of mutex acquisitions of every call, any interleaving"},
"C95": {"status": "proved", "note": "proved for real numbers; with an example where the bound is reached"},
"C96": {"status": "proved", "note": "proved for every scalar type"},
"C97": {"status": "proved", "note": "Exact real arithmetic; assumes that LU succeeds exactly on regular matrices (LinAlg.Pivots)."},
"C98": {"status": "proved", "note": "Every call and every client, one reflection or several; sequential, per call and for threads; number types with the laws of signs. Concrete cases: left and right arm, gantry, rounding with and without preference for a sign."},
"C99": {"status": "proved", "note": "exact reals; checked setter for joints without followers; unit axes and rigid origins"}
}
