{"id": "C01", "title": "Checked joint set is exact and failure-atomic", "statement": "Joint::set_joint_position(x) returns Ok exactly when the joint is not Fixed and x satisfies every configured limit (both ends inclusive). On Ok, joint_position() is Some(x) and the cached world transform and velocity are cleared. On Err nothing about the joint changes; a Fixed joint answers SetToFixedError and an out-of-range value OutOfLimitError carrying the joint name, the value and both limits.", "quantifier": "every joint (any type, limits, state), every scalar x including NaN", "why_tests_cant": "the set of joints and scalar values is unbounded; boundary inclusion and NaN are point cases tests sample", "anchors": ["src/joint/joint.rs Joint::set_joint_position", "src/joint/range.rs Range::is_valid"]}
{"id": "C02", "title": "Clamped set always lands in the limits", "statement": "Joint::set_joint_position_clamped(x) on a movable joint with limits min<=max and a non-NaN x stores a value within [min,max], equal to x when x is in range and to the nearest end otherwise; repeating it with the stored value changes nothing; on a Fixed joint it does nothing; without limits it stores x. (NaN is stored unchanged: limits are not enforced for NaN.)", "quantifier": "every joint, every limit pair, every scalar x", "why_tests_cant": "ranges over all real values and limit pairs", "anchors": ["src/joint/joint.rs Joint::set_joint_position_clamped", "src/joint/range.rs Range::clamp"]}
{"id": "C03", "title": "Joint limits hold along every history", "statement": "If every node's position is within its limits when a history starts, then after any finite sequence of node-level and chain-level API calls that set positions through checked or clamped setters (non-NaN arguments) - including setting mimic masters, whose children are set too - every limited joint is still within its limits.", "quantifier": "every heap of nodes, every finite sequence of calls with any arguments", "why_tests_cant": "sequence length and graph shape are unbounded", "anchors": ["src/node.rs Node::set_joint_position, set_joint_position_clamped", "src/chain.rs Chain::set_joint_positions, set_joint_positions_clamped"]}
{"id": "C04", "title": "Limits hold under every thread interleaving", "statement": "C03 holds for any number of threads sharing the nodes: at every point of every interleaving of the individual lock/read/write/unlock steps of those calls, every limited joint is within its limits.", "quantifier": "every number of threads, every program made of the listed calls, every schedule", "why_tests_cant": "tests run a handful of schedules; the claim is about all of them", "anchors": ["src/node.rs Node(Arc<Mutex<NodeImpl>>), lock"]}
{"id": "C05", "title": "Mimic joints follow their master", "statement": "When node m has no mimic parent and m.set_joint_position(x) returns Ok, then every mimic child c of m (other than those registered more than once) has position x*multiplier+offset of c's Mimic, m has position x, and no other node changes. When it returns an error, only m and mimic children of it were written, and of those only the position and the caches. set_joint_position on a node that has a mimic parent returns Ok and changes nothing.", "quantifier": "every heap, node, position and number of mimic children", "why_tests_cant": "number of children and positions unbounded", "anchors": ["src/node.rs Node::set_joint_position, set_mimic_parent", "src/joint/mimic.rs Mimic::mimic_position"]}
{"id": "C06", "title": "Mimic relation is preserved by every sequence of checked sets", "statement": "If mimicry is one level deep and each mimic child is registered with exactly one master, then starting from a state where every child equals multiplier*master+offset, any sequence of set_joint_position / set_joint_positions calls that all return Ok keeps it so. (Chained mimics, clamped/unchecked setters and IK do not maintain it.)", "quantifier": "every mimic topology of depth one, every call sequence", "why_tests_cant": "unbounded histories", "anchors": ["src/node.rs Node::set_joint_position", "src/chain.rs Chain::set_joint_positions"]}
{"id": "C07", "title": "set_joint_positions / joint_positions round trip", "statement": "joint_positions() has length dof() and lists positions in iter() order of the movable joints. set_joint_positions(v) with v.len() != dof() returns SizeMismatchError{input,required} and changes nothing. If it returns Ok and no joint of the chain mimics another one, joint_positions() returns v and no node outside the chain changed.", "quantifier": "every chain, every input vector", "why_tests_cant": "chain length and values unbounded", "anchors": ["src/chain.rs Chain::joint_positions, set_joint_positions, dof"]}
{"id": "C08", "title": "What a failing set_joint_positions leaves behind", "statement": "set_joint_positions is not all-or-nothing: when it fails at position k, joints before k already hold their new values and joints after k keep the old ones, and the error is the one raised by joint k.", "quantifier": "every chain, every input vector, every failing index", "why_tests_cant": "the failing index ranges over all chain positions", "anchors": ["src/chain.rs Chain::set_joint_positions"]}
{"id": "C09", "title": "Descendant order", "statement": "For a tree-shaped node graph Node::iter_descendants / Chain::from_root terminate and yield every node of the subtree exactly once, nothing else, every node after its parent.", "quantifier": "every finite forest of nodes and every start node", "why_tests_cant": "tree shapes and sizes are unbounded", "anchors": ["src/iterator.rs Descendants", "src/chain.rs Chain::from_root, iter"]}
{"id": "C10", "title": "Ancestor order", "statement": "For a tree-shaped node graph iter_ancestors from n terminates and yields exactly n, parent(n), ..., root; Chain::from_end(n) lists the same nodes root first.", "quantifier": "every finite forest and every node", "why_tests_cant": "depth unbounded", "anchors": ["src/iterator.rs Ancestors", "src/chain.rs Chain::from_end"]}
{"id": "C11", "title": "from_end_to_root cuts the path", "statement": "Chain::from_end_to_root(e,r): if r is an ancestor of e (or e itself) the chain is exactly the path r..e in order; otherwise it is the whole path from the real root to e.", "quantifier": "every forest, every pair of nodes", "why_tests_cant": "depth unbounded", "anchors": ["src/chain.rs Chain::from_end_to_root"]}
{"id": "C12", "title": "Forward kinematics is the product along the path", "statement": "After update_transforms() on a chain that contains the ancestors of its nodes before them (e.g. from_root, from_end), the i-th returned transform and world_transform() of the i-th node equal the product, root first, of the local transforms (origin * joint motion) of the nodes on the path from the root to it; nothing but world-transform caches changes; calling it again returns the same list.", "quantifier": "every such chain, every joint configuration", "why_tests_cant": "chain sizes and configurations unbounded", "anchors": ["src/chain.rs Chain::update_transforms", "src/joint/joint.rs Joint::local_transform"]}
{"id": "C13", "title": "end_transform agrees with update_transforms", "statement": "For a non-branching chain starting at a real root, SerialChain::end_transform() equals the last element returned by update_transforms(), without updating first and without changing any state. For a chain cut below the root it is the transform relative to the cut (so world = world of the cut's parent * end_transform).", "quantifier": "every serial chain and configuration", "why_tests_cant": "unbounded", "anchors": ["src/chain.rs SerialChain::end_transform, Chain::update_transforms"]}
{"id": "C14", "title": "World transforms are rigid motions", "statement": "With unit axes and unit rotations in the origins, every transform returned by update_transforms has a unit rotation and preserves distances and orientation (over exact real arithmetic).", "quantifier": "every chain, every configuration over the reals", "why_tests_cant": "continuum of configurations", "anchors": ["src/joint/joint.rs local_transform", "src/chain.rs update_transforms"]}
{"id": "C15", "title": "Cache invalidation is local", "statement": "Changing a node's joint position or origin makes world_transform() of that node None and leaves every other node's cached world transform as it was (descendants keep a stale value) until update_transforms is called.", "quantifier": "every heap, node, value", "why_tests_cant": "unbounded", "anchors": ["src/joint/joint.rs set_joint_position, set_joint_position_unchecked, set_origin"]}
{"id": "C16", "title": "update_velocities", "statement": "With any movable joint in the chain update_velocities() never returns (the expected claim that it returns the velocity of every node is false): on a chain whose parents come first it blocks forever on the mutex of a movable joint that it holds itself, because the guard in the match scrutinee is still alive when node.parent()/node.world_transform() lock the node again. On a chain of Fixed joints it returns zero for every node and changes only caches of nodes of the chain.", "quantifier": "every chain", "why_tests_cant": "chains unbounded; the repository has no test calling it", "anchors": ["src/chain.rs Chain::update_velocities"]}
{"id": "C17", "title": "Link world transforms", "statement": "update_link_transforms() sets the world transform of the inertial, every visual and every collision of a node's link to (world transform of the node's parent, identity for a root) * element origin and changes nothing else but joint caches. The expected claim, that the frame is that of the node holding the link (as center_of_mass takes it), is false.", "quantifier": "every chain, every set of links", "why_tests_cant": "unbounded", "anchors": ["src/chain.rs Chain::update_link_transforms", "src/link.rs"]}
{"id": "C18", "title": "Clone is independent", "statement": "Chain::clone() of a chain containing a root first and all parents and mimic parents allocates only new nodes; afterwards any sequence of position/origin/link operations on nodes of one chain leaves every node of the other unchanged.", "quantifier": "every such chain, every later history", "why_tests_cant": "histories unbounded", "anchors": ["src/chain.rs Clone for Chain"]}
{"id": "C19", "title": "Clone is a faithful copy", "statement": "Cloning a chain that lists a root first and contains all parents and mimic parents of its nodes yields, for each original node, exactly one new node with the same joint (name, type, position, limits, origin, caches), link and mimic data and the corresponding parent, mimic parent and mimic children; dof is equal and the clone lists parents before children. If a (mimic) parent is missing or the first node is no root, clone panics. The clone of a from_root chain lists siblings in the opposite order, so the expected claim that joint_positions() has the same order is false for branching chains; it is true for unbranched chains.", "quantifier": "every tree-shaped chain", "why_tests_cant": "tree shapes unbounded; the existing clone test compares only None transforms and cannot see the order", "anchors": ["src/chain.rs Clone for Chain", "src/iterator.rs Descendants"]}
{"id": "C20", "title": "SerialChain::try_new", "statement": "try_new(chain) on a non-empty chain changes nothing and succeeds, returning the same chain, iff every node but the last has exactly one child (children outside the chain count); for a from_root chain this holds iff no node has two children. On an empty chain it panics.", "quantifier": "every chain", "why_tests_cant": "unbounded", "anchors": ["src/chain.rs SerialChain::try_new"]}
{"id": "C21", "title": "Jacobian is the derivative of forward kinematics", "statement": "For a serial chain from a real root with unit axes, column j of jacobian(arm) is the partial derivative of the end position with respect to the j-th joint position (rows 0..2) and the angular velocity of the end frame (rows 3..5), over exact reals.", "quantifier": "every chain length, joint types, axes, origins, configuration", "why_tests_cant": "continuum of configurations and unbounded length", "anchors": ["src/funcs.rs jacobian"]}
{"id": "C22", "title": "Jacobian frame on cut chains", "statement": "For a serial chain cut below the root whose outside parent has a cached transform, the angular rows of jacobian(arm) are the angular velocity of the end in the world, and the linear rows are its velocity in the world plus a x (e - e') with a the angular rows, e the position of end_transform() (relative to the cut) and e' the position of the end in the world; so columns of prismatic joints are right and those of rotational joints are wrong in general (a counterexample refutes the expected claim). If the outside parent has no cached transform, jacobian panics.", "quantifier": "every cut serial chain", "why_tests_cant": "unbounded", "anchors": ["src/funcs.rs jacobian", "src/chain.rs from_end_to_root"]}
{"id": "C23", "title": "Center of mass", "statement": "center_of_mass(chain)*M = sum of m_i * p_i over nodes with links, p_i = world position of the inertial origin of the link in its node's frame, M = total mass, whenever M != 0; moving the root by a translation moves it by the same translation, moving it by a rigid motion moves it by that motion. If no mass is negative and M > 0, it lies in every half-space that contains the p_i of all links with mass, so in their convex hull.", "quantifier": "every chain, masses, configuration over the reals", "why_tests_cant": "continuum", "anchors": ["src/funcs.rs center_of_mass"]}
{"id": "C24", "title": "IK success means the target is reached", "statement": "If no limited joint of the arm is outside its limits when solve_with_constraints is called and the call returns Ok, then end_transform() differs from the target by less than allowable_target_distance in the norm of the constrained position coordinates and by less than allowable_target_angle in the norm of the constrained rotation coordinates, and no limited joint of the arm is outside its limits. For a joint that starts outside its limits this is false: the final clamping can move the end away from the target after it was found reached.", "quantifier": "every arm, target, constraints, tolerance, number of tries, nullspace function and whatever the linear solver returns", "why_tests_cant": "numeric iterations and solver outputs unbounded", "anchors": ["src/ik.rs solve_with_constraints, solve_with_constraints_internal"]}
{"id": "C25", "title": "IK failure restores the joints", "statement": "If solve_with_constraints returns Err then every joint position in the world is what it was before the call, provided the arm was in a state set_joint_positions can produce (own positions within limits, mimic children where their master puts them, masters of arm joints in the arm). Without this it is false: for a mimic joint whose master lies outside the arm, and for a joint that starts outside its limits, the positions are not restored (and the latter replaces the error by OutOfLimitError).", "quantifier": "every arm, target, constraints, tries, linear solver behaviour", "why_tests_cant": "unbounded executions", "anchors": ["src/ik.rs solve_with_constraints"]}
{"id": "C26", "title": "Ignored joints do not move", "statement": "When more degrees of freedom remain than coordinates are constrained, a successful solve leaves the joints in ignored_joint_names (distinct names, joints not outside their limits) where they were. When as many remain as are constrained this is false: the inverse-matrix branch does not re-insert the ignored rows and an ignored joint can be moved.", "quantifier": "every arm, set of ignored names, iterations", "why_tests_cant": "unbounded", "anchors": ["src/ik.rs solve_one_loop_with_constraints"]}
{"id": "C27", "title": "IK moves only the arm", "statement": "In whatever way a solve ends, the nodes that are not in the arm are unchanged and of the nodes in the arm only position and caches change, if no arm joint has mimic children outside the arm.", "quantifier": "every heap, arm, execution", "why_tests_cant": "unbounded", "anchors": ["src/ik.rs solve_with_constraints"]}
{"id": "C28", "title": "IK precondition and name errors", "statement": "With a = dof - number of ignored names and r = number of constrained coordinates: more ignored names than dof panics (subtraction overflow); a<r gives PreconditionError{dof:a,necessary_dof:r}; otherwise the first ignored name that is not a movable joint of the arm gives InvalidJointNameError; in both cases no joint position changes, provided the arm can be restored (as in C25). For a joint outside its limits this is false: the caller gets OutOfLimitError instead.", "quantifier": "every arm and constraints", "why_tests_cant": "unbounded", "anchors": ["src/ik.rs solve_with_constraints_internal"]}
{"id": "C29", "title": "IK iteration bound", "statement": "A successful solve made at most num_max_try solver steps; NotConvergedError (arm restorable as in C25) is returned after exactly num_max_try steps and reports num_tried = num_max_try and the constrained differences between the target and the last pose reached; with num_max_try = 0 and valid preconditions it panics. Every error of a solve is one of these: the precondition error, InvalidJointNameError for a name the arm does not have, NotConvergedError after exactly num_max_try steps, or InverseMatrixError after fewer than num_max_try steps; the last two only with the target not reached at any step made.", "quantifier": "every num_max_try", "why_tests_cant": "unbounded", "anchors": ["src/ik.rs solve_with_constraints_internal"]}
{"id": "C30", "title": "Constraint flags select coordinates", "statement": "The error vector contains exactly the coordinates of the pose difference whose flag is true, in order x,y,z,rx,ry,rz, and splitting it back yields the pose difference with unconstrained coordinates set to zero.", "quantifier": "all 64 flag combinations, all pose differences", "why_tests_cant": "real-valued", "anchors": ["src/ik.rs calc_pose_diff_with_constraints, target_diff_to_len_rot_diff, define_operational_space"]}
{"id": "C31", "title": "Removing and re-inserting ignored joints", "statement": "Deleting the ignored columns (sorted indices, shifting) and re-inserting zero rows puts every remaining joint's increment back at its own index and zero at the ignored ones, for distinct ignored joints; with a duplicated name the wrong column is dropped or the call panics.", "quantifier": "every dof, every index set", "why_tests_cant": "unbounded", "anchors": ["src/ik.rs solve_one_loop_with_constraints"]}
{"id": "C32", "title": "URDF tree becomes the node tree", "statement": "From any state without held locks, Chain::from(robot) for a valid tree URDF (unique names, every link child of at most one joint, parent links declared, no cycle, mimic joints exist, limits convert) contains the synthetic root (Fixed, identity origin) plus exactly one new node per joint, parents before children, and changes no other node; the parent of a joint's node is the node of the joint whose child link is its parent link, or the synthetic root when there is none; dof = number of revolute, continuous and prismatic joints; every link is attached to the node of the joint it is the child of and a single base link to the root; mimic tags become mimic parents, and the followers of a joint are the joints whose tag names it, in file order. A mimic tag naming no joint or unconvertible limits panic; joints on a cycle are dropped silently.", "quantifier": "every valid robot description", "why_tests_cant": "robot size/shape unbounded", "anchors": ["src/urdf.rs From<&Robot> for Chain"]}
{"id": "C33", "title": "URDF joint conversion", "statement": "A URDF joint maps to a joint with the same name and origin, Rotational for revolute/continuous, Linear for prismatic, else Fixed, at position 0; limits are None iff upper-lower == 0, else [lower,upper], and lower>upper or NaN panics; the axis is the URDF axis scaled to length one when it is not zero (a zero axis gives NaN without an error); mimic defaults are multiplier 1, offset 0.", "quantifier": "every joint description", "why_tests_cant": "real-valued fields", "anchors": ["src/urdf.rs From<&Joint> for Joint, axis_from, From<&Mimic>"]}
{"id": "C34", "title": "link_to_joint_map", "statement": "For distinct child links, link_to_joint_map maps a link to the joint it is the child of, every other declared link to \"root\", and nothing else.", "quantifier": "every robot description", "why_tests_cant": "unbounded", "anchors": ["src/urdf.rs link_to_joint_map"]}
{"id": "C35", "title": "joint_to_link_map", "statement": "For distinct joint names and no joint or link called \"root\", joint_to_link_map maps each joint to its child link, \"root\" to the last declared link whose name is not the name of a joint, and nothing else; so \"root\" is mapped to the base link when that is the only link not named like a joint, but not in general (a robot with one joint j from base to tip gets root -> tip).", "quantifier": "every robot description", "why_tests_cant": "unbounded", "anchors": ["src/urdf.rs joint_to_link_map"]}
{"id": "C36", "title": "Roll-pitch-yaw convention", "statement": "quaternion_from([r,p,y]) is a unit quaternion equal to Rz(y)*Ry(p)*Rx(r).", "quantifier": "all real angles", "why_tests_cant": "continuum", "anchors": ["src/urdf.rs quaternion_from, isometry_from"]}
{"id": "C37", "title": "Pose difference vanishes only at the target", "statement": "calc_pose_diff(a,b) of two rigid poses: the first three entries are the translation of a minus that of b; the last three are a unit axis times an angle in [0, pi], and turning about that axis by that angle takes the orientation of b to that of a. It is zero iff a and b are the same rigid motion (equal translation, rotations equal as rotations, whatever the signs of the quaternions).", "quantifier": "all pairs of poses", "why_tests_cant": "continuum", "anchors": ["src/ik.rs calc_pose_diff"]}
{"id": "C38", "title": "Nullspace motion does not disturb the task", "statement": "With a pseudo inverse satisfying J J+ J = J, the increment produced with a nullspace function has the same first-order task effect J dq as the one without it.", "quantifier": "every Jacobian, error and nullspace value", "why_tests_cant": "continuum", "anchors": ["src/ik.rs solve_one_loop_with_constraints"]}
{"id": "C39", "title": "Reference-position nullspace function is a gradient", "statement": "create_reference_positions_nullspace_function(ref,w) returns the gradient of 1/2 sum w_i (q_i-ref_i)^2 at q; mismatched lengths panic at creation and too short inputs panic at call.", "quantifier": "every dof and values", "why_tests_cant": "unbounded", "anchors": ["src/ik.rs create_reference_positions_nullspace_function"]}
{"id": "C40", "title": "Parent and child links stay consistent", "statement": "After any sequence of calls in which set_parent(c,p) is made only for nodes c that have no parent with p not below c, and remove_parent(c,p) only with p the parent of c, a node is listed in children(p) (once) iff its parent() is p, there is no cycle, is_end(p) holds iff no node has p as parent() and is_root(c) iff parent() of c is None (parents alive). Outside these conditions this is false: set_parent on a node that has a parent leaves it in two child lists, remove_parent with another node leaves it in its parent's list, and a cycle makes the iterators run forever.", "quantifier": "every history", "why_tests_cant": "unbounded", "anchors": ["src/node.rs set_parent, remove_parent, is_root, is_end"]}
{"id": "C41", "title": "No deadlock between threads", "statement": "Any number of threads each running any finite sequence of node and chain calls that set or read positions and transforms, over a fixed mimic topology built by set_mimic_parent, never deadlock: when no thread can move, all have returned, or one has panicked. For the calls that never panic while holding a mutex a panic of one thread does not block the others, and for the calls without panics all return.", "quantifier": "every number of threads, programs and schedules", "why_tests_cant": "schedules unbounded", "anchors": ["src/node.rs lock, set_joint_position"]}
{"id": "C42", "title": "set_mimic_parent racing with set_joint_position", "statement": "A set_joint_position on a node that runs concurrently with set_mimic_parent registering a mimic child with that node may never return: some schedule reaches the MimicError branch, which locks the already locked master, and both calls block forever (the expected claim that it always returns is false). Once set_mimic_parent has returned, set_joint_position always returns.", "quantifier": "every schedule", "why_tests_cant": "needs one specific preemption point", "anchors": ["src/node.rs set_joint_position, set_mimic_parent"]}
{"id": "C43", "title": "Display prints the chain", "statement": "Displaying a chain over a tree returns without blocking, changes nothing and writes exactly one line for each node of the chain below its first node, four spaces per level of depth, in pre-order beginning with the first node, siblings in the order in which they were attached; for a from_root chain these are all its nodes. An empty chain panics.", "quantifier": "every tree", "why_tests_cant": "unbounded", "anchors": ["src/chain.rs fmt_with_indent_level", "src/node.rs Display for Node"]}
{"id": "C44", "title": "find", "statement": "find(name) returns the first node in iteration order with that name and None iff there is none.", "quantifier": "every chain and name", "why_tests_cant": "unbounded", "anchors": ["src/chain.rs Chain::find"]}
{"id": "C45", "title": "Node builder and connect", "statement": "NodeBuilder produces a joint with exactly the configured name, type, limits and origin (translation and rotation setters independent, in any order; later calls win), position 0, empty caches; connect![a=>b=>...] makes consecutive nodes parent and child.", "quantifier": "every sequence of builder calls, every list of nodes", "why_tests_cant": "unbounded sequences", "anchors": ["src/node.rs NodeBuilder, connect!"]}
{"id": "C46", "title": "Moving the origin moves the whole chain", "statement": "For a rooted chain whose root origin is composed with a pose X on the left, every world transform after update is X * the previous one (exact reals).", "quantifier": "every chain, pose, configuration", "why_tests_cant": "continuum", "anchors": ["src/chain.rs set_origin, update_transforms"]}
{"id": "C47", "title": "Memory: nodes of a live chain are alive and trees are freed", "statement": "Strong references go only from parent to child and from master to mimic child. In every memory a program can reach by any calls of the API with handles it holds, cloning handles and dropping them in any order, all nodes reached from a handle along children and mimic children are alive, so parent() of every proper descendant of a held node is Some; without a cycle of such references only those nodes are alive, so dropping the last handle frees everything; dropping always ends. The outcome of a call does not depend on the content of freed nodes, and every handle it gives out is to a living node. A parent that mimics its own child is never freed, and a child outliving its parent reports parent() = None while is_root() is false.", "quantifier": "every forest and set of handles", "why_tests_cant": "unbounded", "anchors": ["src/node.rs NodeImpl parent: Weak, children: Vec<Node>"]}
{"id": "C48", "title": "Joint angle periodicity and axis fixpoint", "statement": "Adding 2*pi to a Rotational joint's position does not change any point's image under any world transform; a Rotational joint at position x rotates by the angle x about its axis, counterclockwise seen against the axis (Rodrigues' formula), and fixes its axis; a Linear joint at position x translates by x along its axis and two moves of a joint add up; a Fixed joint contributes its origin only.", "quantifier": "all real positions", "why_tests_cant": "continuum", "anchors": ["src/joint/joint.rs local_transform"]}
{"id": "C49", "title": "No call deadlocks with itself and every call releases its locks", "statement": "Made alone on nodes whose mimic relations were set up by set_mimic_parent, every node or chain call other than update_velocities (C16) - printing only on graphs without cycles - never waits for a mutex it holds itself, and when it returns no mutex is left locked.", "quantifier": "every heap built through the API, every call, every argument", "why_tests_cant": "graph shapes and call arguments unbounded", "anchors": ["src/node.rs lock, set_joint_position", "src/chain.rs Clone for Chain, fmt_with_indent_level", "src/ik.rs solve_with_constraints"]}
{"id": "C50", "title": "update_transforms racing with a setter", "statement": "update_transforms() in one thread while another thread sets a joint position or origin of the same nodes can panic (\"cache must exist\"): a schedule is exhibited, so the expected claim that it never panics is false. If the parents of the chain's nodes have a cached transform when the threads start and no thread sets positions or origins, re-parents nodes, or sets links while another one walks over the links, no thread ever panics.", "quantifier": "every schedule of any number of threads", "why_tests_cant": "needs one specific preemption point; the positive part quantifies over all schedules", "anchors": ["src/chain.rs Chain::update_transforms", "src/node.rs parent_world_transform"]}
{"id": "C51", "title": "Reference-position nullspace function moves away from the references", "statement": "In a redundant IK step the value of the nullspace function is added: with the function made by create_reference_positions_nullspace_function, a non-negative jacobian multiplier and a Moore-Penrose pseudo inverse, the derivative of 1/2 sum w_i (q_i-ref_i)^2 in the direction of the difference between the step with and the step without it is not negative, and with non-negative weights moving by that difference never lowers this cost: it moves away from the references (the expected approach to the references is false).", "quantifier": "every Jacobian, error, references, weights, configuration", "why_tests_cant": "continuum", "anchors": ["src/ik.rs solve_one_loop_with_constraints, create_reference_positions_nullspace_function"]}
{"id": "C52", "title": "Poisoned mutexes", "statement": "A panic while a node's guard is alive poisons its mutex and every later call on the node panics. Used from one thread, no call other than update_velocities (printing on graphs without cycles; positions, Jacobian and IK on chains whose moved joints are not Fixed) ever panics while holding a mutex, in every state that API calls can produce. Threads that call neither jacobian, solve nor iter_links (and change no mimic relation, print or clone) never poison a mutex, so their executions are exactly those without poisoning. jacobian() racing with a position setter, and iter_links() racing with set_link(None), poison the node: schedules are exhibited.", "quantifier": "every heap built by API calls, every call, any number of threads, programs and schedules", "why_tests_cant": "needs all interleavings and all panic paths", "anchors": ["src/node.rs:72-74", "src/node.rs:441-447", "src/funcs.rs:14-33", "src/chain.rs:340-375"]}
{"id": "C53", "title": "Joint velocity", "statement": "joint_velocity() is None exactly for Fixed joints; set_joint_velocity(v) on a movable joint succeeds for every v, is read back, drops the cached world velocity and changes nothing else; on a Fixed joint it returns SetToFixedError and changes nothing; no position or origin setter changes the velocity.", "quantifier": "every joint and value", "why_tests_cant": "value ranges unbounded; the repository has no test of it", "anchors": ["src/joint/joint.rs:186-204"]}
{"id": "C54", "title": "Name, type, limits and velocity of a node never change", "statement": "After a node has been created, no sequence of API calls by any number of threads, in any interleaving, changes the name, type, limits or velocity of its joint; so the list of movable nodes and the dof that every chain constructor stores stay what the constructor would compute.", "quantifier": "every heap, every client program, every schedule", "why_tests_cant": "histories and schedules unbounded", "anchors": ["src/node.rs:76-78", "src/chain.rs:174-185"]}
{"id": "C55", "title": "Links", "statement": "set_link(l) changes only the node's link and link() then returns l; iter_links() yields the links of the chain's nodes in chain order, skipping exactly the nodes without one; iter_joints() yields the joints of the chain's nodes in chain order, skipping exactly the Fixed ones; no other call of any thread changes anything in a link but the cached world transforms of its parts.", "quantifier": "every chain, heap, client program and schedule", "why_tests_cant": "unbounded", "anchors": ["src/node.rs:325-333", "src/chain.rs:279-287", "src/chain.rs:440-458"]}
{"id": "C56", "title": "Link builder", "statement": "LinkBuilder gives a link with the last name and the last inertial given (else empty name; mass 0, identity inertia at the origin) and all visuals and collisions in the order they were added, whatever the order of the calls; set_origin of an inertial, visual or collision drops its cached world transform and keeps the rest.", "quantifier": "every sequence of builder calls", "why_tests_cant": "unbounded sequences; the repository has no test of it", "anchors": ["src/link.rs:60-268"]}
{"id": "C57", "title": "URDF link conversion", "statement": "A URDF link becomes a link with the same name, mass, frames (rpy as in C36), the six inertia entries in a symmetric 3x3 matrix (whose quadratic form is the one they describe), and its visuals and collisions one for one in order with the same kind of geometry and dimensions, mesh scale 1 when absent, empty names when absent, colour, texture and material empty when absent.", "quantifier": "every link description", "why_tests_cant": "real-valued fields, unbounded lists", "anchors": ["src/urdf.rs:32-183"]}
{"id": "C58", "title": "Jacobian maps joint velocities to end velocity", "statement": "While all joints of a rooted non-branching chain with unit axes and rotations move at once along any differentiable path with joint velocities q', the end moves with linear velocity rows 0-2 and angular velocity rows 3-5 of jacobian(chain) * q'.", "quantifier": "every such chain, state, path of the joints and instant", "why_tests_cant": "a statement about derivatives along arbitrary real paths of all joints together", "anchors": ["src/funcs.rs:7-38", "src/chain.rs:373-377"]}
{"id": "C59", "title": "One IK step moves the end towards the target", "statement": "If the constrained part of the pose error can be removed to first order by the joints that are not ignored, one iteration moves the joints (before clamping) in a direction in which the end starts with the multiplier times the pose error as velocity in each constrained coordinate, with or without nullspace function; so the squared distance to the target starts to shrink at twice the multiplier times itself. Holds with more free joints than constrained coordinates, or if no joint is ignored (with ignored joints and no redundancy the increments go to the wrong joints, C26).", "quantifier": "every chain, state, target, constraint set, ignored set and nullspace function, every linear algebra meeting its contract", "why_tests_cant": "real-valued derivatives; all solver branches", "anchors": ["src/ik.rs:207-289"]}
{"id": "C60", "title": "solve, default solver, unused nullspace function", "statement": "solve constrains all six coordinates: Ok means position and rotation within tolerance, so each point p of a tool fixed to the end is off its place in the target pose by less than allowable_target_distance + allowable_target_angle * |p|; fewer than six movable joints give PreconditionError without motion. The default solver has tolerances 0.001 and 0.005 and tries 10 times. When the free joints are no more than the constrained coordinates, setting or clearing a nullspace function has no effect whatsoever; the last setting counts and a new solver has none.", "quantifier": "every solver, chain, state, target, constraint set and function", "why_tests_cant": "unbounded states; equality of all executions", "anchors": ["src/ik.rs:131-133", "src/ik.rs:171-205", "src/ik.rs:423-425", "src/ik.rs:476-478"]}
{"id": "C61", "title": "Text of a node", "statement": "Displaying a node writes the name of its joint, a space, the type in brackets - an anchor for Fixed, a gear for Rotational, a double arrow for Linear, followed by the sign and letter of the axis when it is one of the six signed coordinate axes - and ' => /link/' when it has a link; so two types are printed alike only if they are equal or of the same kind with axes that are no coordinate axes.", "quantifier": "all nodes, all axes (exact reals)", "why_tests_cant": "Tests print a few nodes; the six axes and the absence of collisions need all of them.", "anchors": ["src/joint/joint_type.rs:36-62", "src/joint/joint.rs:263-267", "src/node.rs:352-362"]}
{"id": "C62", "title": "A mimic joint never leaves its master while the master is unlocked", "statement": "Suppose no lock is held at the start, mimicking is one level deep (a registered mimic child knows its master and its mimic data, and a master does not itself mimic), every mimic child is where its master puts it (position = master position * multiplier + origin), and every mimic child accepts the position that follows from any position its master accepts. Let any number of threads make any API calls except registering mimic children, update_velocities, cloning, inverse kinematics, and the clamped or unchecked setters on joints that mimic or are mimicked. Then in every execution, at every moment at which the mutex of a master is free, each of its mimic children is still at master position * multiplier + origin; so the whole relation holds whenever no lock is held. If a child does not accept what its master accepts, this is false: one failing set_joint_position of the master leaves the relation broken with all locks free.", "quantifier": "for all node graphs, scalars, numbers of threads, client programs of the allowed calls, schedules of individual lock/unlock/read/write steps, and moments", "why_tests_cant": "a test sees a few interleavings of a few threads; the window in which a master has moved and its children have not is a few instructions wide", "anchors": ["src/node.rs:203-224", "src/chain.rs:349-363"]}
{"id": "C63", "title": "The exact effect of each node setter", "statement": "While no lock is held every getter of a node answers and changes nothing, and each setter succeeds with exactly this effect on what the getters of all nodes show: set_parent(p) makes p the parent (as long as p is alive), appends the node to the end of the children of p and leaves a former parent's list alone; remove_parent(p) clears the parent whichever it was and removes every mention of the node from the children of p, keeping the order of the others; set_mimic_parent(p, m) stores master and rule and appends the node to the followers of p, moving nothing; set_origin stores the origin and clears the world transform but not the velocity; set_link stores the link; set_joint_position_unchecked stores the value whatever the kind and limits of the joint and clears both caches; set_joint_position_clamped leaves a Fixed joint alone and otherwise stores the value or the limit it is beyond. Nothing else changes: no other node, no follower, no other field, no node is created or dropped, no lock is kept.", "quantifier": "for all node graphs, nodes, arguments and scalars", "why_tests_cant": "a test checks the fields it thinks of on a few nodes; that nothing else changes anywhere is a statement about every node and every field", "anchors": ["src/node.rs:76-155", "src/node.rs:243-255", "src/node.rs:300-330"]}
{"id": "C64", "title": "The unchecked and clamped setters of a chain", "statement": "On a chain that lists no movable node twice, set_joint_positions_unchecked(v) stores v[i] in the i-th movable joint for every i below both lengths, and set_joint_positions_clamped(v) does the same with each value limited to the range of its joint; everything else stays as it is, including joints that mimic a moved one. Neither checks the length: a short vector moves the first joints only, surplus values are ignored. With a vector of length dof, joint_positions() after the unchecked setter returns exactly the vector.", "quantifier": "for all node graphs, chains, vectors of any length and scalars", "why_tests_cant": "chains and vectors are unbounded; tests use vectors of the right length on chains without mimic joints", "anchors": ["src/chain.rs:362-377"]}
{"id": "C65", "title": "What is atomic for concurrent threads", "statement": "When no joint is mimicked, the methods of single nodes (getters, set_link, set_origin, the three position setters) are linearizable: however the calls of any number of threads are interleaved, once all locks are free the threads could have made the same calls one after the other with the same results and the same final state, in an order that respects the order in time; for all of these but parent and mimic_parent also when nodes are freed meanwhile. All other calls except set_mimic_parent, clone, update_velocities and printing are then sequences of atomic sections (in executions that create no node). Larger units are not atomic: two threads setting all positions of a chain can leave a mixture of both, and a reader can see one follower of a mimicked joint moved and another not yet.", "quantifier": "every number of threads, every client program over the API, every interleaving", "why_tests_cant": "unbounded interleavings", "anchors": ["src/node.rs Node methods", "src/chain.rs set_joint_positions"]}
{"id": "C66", "title": "Guards kept by the user", "statement": "While a thread keeps the guard returned by joint(), children() or link(), what it shows does not change, whatever its owner and any number of other threads do. A method of a node called while the same thread keeps a guard of that node never returns. If every client makes calls only while it keeps no guard and takes guards in one common order that puts free mimic masters before their mimic children, no execution gets stuck: all threads return (or one panics, if a call with a panic path is used); so collecting iter_joints() of chains that list their movable joints in a common order is safe. Without that it is not: two threads that each keep one guard while they read the other node, or that collect iter_joints() of chains with opposite orders, can wait for each other for ever.", "quantifier": "every number of threads, every client program with guards and calls, every heap, every interleaving", "why_tests_cant": "unbounded interleavings; a deadlock appears only under rare schedules", "anchors": ["src/node.rs:76-93 joint", "src/node.rs:329-331 link", "src/node.rs:376-432 guards", "src/chain.rs:274-276 iter_joints"]}
{"id": "C67", "title": "Jacobian and IK with mimic joints", "statement": "On a rooted non-branching chain whose followers are where their masters put them: under set_joint_position of a master the end moves with the twist jac * v, v being 1 for the master, the multiplier for each follower and 0 for the other joints; under set_joint_positions along any path it moves with jac * v where v has the multiplier times the master's velocity for followers, whatever the path says for them, and 0 for followers of joints outside the chain. So a column of jacobian alone is not the derivative for a joint that has followers, and a successful inverse kinematics solve does not move followers and leaves them off their masters.", "quantifier": "every chain, positions, multipliers, origins, paths", "why_tests_cant": "derivatives over the reals for all configurations", "anchors": ["src/funcs.rs jacobian", "src/node.rs:203-224 set_joint_position", "src/ik.rs:283 solve_one_loop_with_constraints"]}
{"id": "C68", "title": "Reach of a chain", "statement": "The end of a chain of rigid joints is never farther from the frame of the chain than the sum of the lengths of all origins plus the absolute positions of the linear joints, whatever the rotational joints do. If all linear joints have limits and are not outside them when the call starts, and the target is farther away, in the constrained position coordinates, than all origins and the largest strokes together plus allowable_target_distance, solve_with_constraints never returns Ok, whatever the number of tries, the linear solver and the nullspace function.", "quantifier": "every chain of rigid joints, every state, target, constraints and solver", "why_tests_cant": "continuum of states; every execution of an iterative solver", "anchors": ["src/chain.rs:597-603", "src/ik.rs:300-425", "src/joint/joint.rs:220-236"]}
{"id": "C69", "title": "Contracts of the results under interference", "statement": "Whatever the other threads do, in every interleaving, a call that returns answers within its contract: setting a joint fails only with the refusal (SetToFixed or OutOfLimit with that joint's name, value and limits) of the joint itself or of a joint that follows it, at the value it was asked to take; setting a chain fails with SizeMismatch exactly when the vector has not dof entries and otherwise only with such a refusal of one of its joints; the IK solver fails only with Precondition (fewer usable joints than constrained coordinates), InvalidJointName (an ignored name that is not a joint of the chain), NotConverged (with the number of tries, and differences that miss the tolerance), InverseMatrix (only when usable joints and constrained coordinates are equally many) or the refusal of a joint that is set back; MimicError is never returned. Likewise find returns the first node with the name, chain constructors return dof = number of movable nodes and exactly the movable ones, joint positions and Jacobian columns are as many as the movable nodes, a clone starts at a new node. Whatever a client can conclude from these contracts alone about what it returns is true in every execution.", "quantifier": "all heaps without held locks, all clients in any number of threads, all interleavings, all calls and arguments", "why_tests_cant": "A test runs one schedule of one program; the claim is about every schedule of every set of programs of API calls.", "anchors": ["src/errors.rs:22-83", "src/node.rs:203-224", "src/chain.rs:349-360", "src/ik.rs:291-346", "src/ik.rs:457-469", "src/chain.rs:174-185", "src/chain.rs:330-332"]}
{"id": "C70", "title": "Convergence of the IK solver on sliding arms", "statement": "On a rooted non-branching arm of Fixed joints and sliding joints without limits, whose remaining joints can remove the constrained part of the pose difference, each try of solve_with_constraints multiplies the constrained position difference by exactly 1 - jacobian_multiplier and leaves no rotation difference. So it returns Ok if and only if, for some k from 1 to num_max_try, the length of the initial difference times |1 - jacobian_multiplier|^k is below allowable_target_distance; it then stops at the least such k with exactly that difference left, and otherwise returns NotConvergedError with that difference and the joints put back. With a multiplier strictly between 0 and 2 enough tries always suffice; with any other multiplier no number of tries helps unless the arm starts within tolerance. The default solver succeeds exactly on targets less than 1.024 away.", "quantifier": "for all such arms, positions, targets, constraints, lists of ignored joints, tolerances, multipliers, numbers of tries, nullspace functions and correct linear solvers, over the real numbers", "why_tests_cant": "A test runs the solver on a few targets near the arm; the exact rate, and that the default solver cannot reach any target 1.024 away although the joints have no limits, are statements about all targets and all try counts.", "anchors": ["src/ik.rs:244-420", "src/ik.rs:427-478"]}
{"id": "C71", "title": "No node ever has a velocity", "statement": "In every interleaving of clients that start from nodes without cached world velocity and make new nodes only from joints without one (fresh ones or copies of joints of nodes), world_velocity() and the joints handed out never carry a world velocity other than zero, at any moment, whatever their joint velocities, and update_velocities returns only zeros and only for chains whose joints (as far as they existed at the start) are all Fixed. So the formulas of update_velocities for movable joints are dead code.", "quantifier": "for all initial graphs without velocities, all numbers of threads, all programs of API calls (each call may depend on all earlier results), all interleavings and all moments", "why_tests_cant": "No test observes a non-zero velocity, but only an invariant over all programs and interleavings shows that none can ever be stored.", "anchors": ["src/chain.rs:392-437", "src/joint/joint.rs:241-255", "src/node.rs:268-272", "src/node.rs:308-310"]}
{"id": "C72", "title": "Forward kinematics of a loaded robot", "statement": "For a valid tree URDF (axes of moving joints not zero, lower <= upper, mimic tags naming moving joints without a mimic tag) over the reals: after Chain::from(robot), then set_joint_positions(xs) from any joint state, then update_transforms(), the world_transform() of the node of every joint maps each point of the joint's child link to the place the URDF format gives it in the frame of the base (motion of the joint about or along its normalised axis, then roll, pitch, yaw, then the xyz offset, repeated up to the base), with joints without a mimic tag at their entry of xs and joints with one at multiplier * master + offset (default 1 and 0). Directly after loading every joint is at 0, so a mimic offset is not applied until the master is set.", "quantifier": "every valid robot description, all real positions, all points of all links", "why_tests_cant": "shape of the robot and positions are unbounded; the result combines loading, setting, mimics and kinematics", "anchors": ["src/urdf.rs From<&Robot> for Chain, From<&Joint> for Joint", "src/chain.rs set_joint_positions, update_transforms", "src/node.rs set_joint_position, world_transform"]}
{"id": "C73", "title": "Programs that respect the conditions run to their end", "statement": "Call a heap sound when no mutex is locked, mimic data are complete and the links form trees. In a sound heap every public operation returns exactly when a stated condition holds, and otherwise panics (update_velocities may also wait for a mutex it holds itself): origin, set_origin, SerialChain::try_new and Display need a non-empty chain; joint_positions needs movable joints; update_transforms, update_link_transforms and center_of_mass need each node's parent to stand earlier in the chain or to have a cached transform; jacobian needs both; update_velocities needs in addition cached parent velocities and only Fixed joints; clone needs a root first and a chain closed under parents and mimic parents; all others always return. solve_with_constraints, called on a chain without repeated nodes whose joints are within their limits and in which no node stands before its parent, with distinct ignored names and solvers and a nullspace function that answer in the right size, returns exactly when not more joints are ignored than the chain has and one of these holds: fewer joints remain than coordinates are constrained; an ignored name is unknown; or at least one iteration is allowed, the parents' transforms are known, and some coordinate is constrained or every joint ignored. A program that makes its calls one after the other, each meeting its condition and attaching nodes only where they make a tree, never panics, never waits and never loops, whatever its length, and leaves a sound heap. Threads making no call that walks along links cannot run for ever in any interleaving.", "quantifier": "all sound heaps, all calls, all finite programs of calls (branching on results), all interleavings for the last claim, all scalar types", "why_tests_cant": "The conditions quantify over every heap and the programs are of unbounded length; tests exercise a handful of call sequences on a few robots.", "anchors": ["src/chain.rs:239-246", "src/chain.rs:336-344", "src/chain.rs:380-458", "src/chain.rs:465-504", "src/chain.rs:547-557", "src/funcs.rs:8-38", "src/funcs.rs:58-76", "src/ik.rs:215-346", "src/ik.rs:457-469", "src/node.rs:72-331"]}
{"id": "C74", "title": "Local convergence of the IK solver near a non-singular solution", "statement": "Take a serial arm from a root over the reals (joints turn or slide, fixed joints anywhere, any limits) and a joint state at which the constrained coordinates of the end match the target, strictly inside the limits, with at least one coordinate constrained and enough joints left (no ignored joints, or more joints left than coordinates constrained). If the reduced Jacobian there has full row rank, the linear solvers are exact on such systems (LU solves regular square systems, SVD gives the shortest solution), no nullspace function is set in the redundant case, tolerances are positive and the multiplier is strictly between 0 and 2, then for every distance d > 0 there are an e > 0 and a number of tries N such that from every joint state within e of the solution and with at least N tries solve_with_constraints returns Ok, leaves every joint within d of the solution, the remaining errors below the tolerances, and all nodes outside the arm untouched. Without the rank condition this is false: a stretched arm told to move its tip inward gives up at once with InverseMatrixError, whatever the number of tries, although the target is reachable, and keeps its positions.", "quantifier": "all serial arms, constraints, ignored joints, targets, multipliers in (0,2), all start states in the neighbourhood, all numbers of tries from N on", "why_tests_cant": "a statement about all starting positions near a solution and all arms; it needs the derivative of the pose error along every joint, not sample runs", "anchors": ["src/ik.rs solve_one_loop_with_constraints, solve_with_constraints_internal, solve_with_constraints", "src/funcs.rs jacobian", "src/ik.rs calc_pose_diff, add_positions_with_multiplier"]}
{"id": "C75", "title": "Rounding in forward kinematics and in the solver", "statement": "Compute with an arithmetic whose operations have relative error at most u (sin and cos absolute error at most u, no overflow or underflow), on a robot whose stored numbers are the ideal ones up to relative error u and whose turning joints are at most 2B rad from 0. end_transform over n joints then returns the ideal pose up to (1+u)^(n(8B+21)) - 1 in the rotation quaternion and ((1+u)^(n(80B+211)+490) - 1) times the reach of the joints in the position; after update_transforms the same holds for each node with the joints between it and the root. If solve_with_constraints returns Ok, the real arm at the stored joint positions is nearer to the target, in the constrained position coordinates, than allowable_target_distance/(1-u)^4 plus that error. The dependence on n cannot be dropped: the accumulated rotation is never normalised and for n joints that do nothing its length can be (1+u)^(2n). The rounding term cannot be dropped either: for any tolerance Ok can be returned with computed error 0 while the real end misses the target by u. The constants are for the order of operations of the model, which is not claimed to be nalgebra's.", "quantifier": "All chains and heaps, all arithmetics with the error bound, all ideal robots they stand for, all solvers, linear algebra behaviours, targets and constraints.", "why_tests_cant": "Rounding errors of a given input say nothing about the worst case over all arms, all joint positions and all ways to round.", "anchors": ["src/joint/joint.rs Joint::local_transform", "src/chain.rs SerialChain::end_transform", "src/chain.rs Chain::update_transforms", "src/ik.rs JacobianIkSolver::solve_with_constraints"]}
{"id": "C76", "title": "Loops over the lazy iterators", "statement": "A user loop `for n in node.iter_descendants() { body }` (or over iter_ancestors) whose body makes any API calls except attaching, detaching or copying nodes visits exactly the nodes that the iterator would have listed before the loop, in that order, all of them or up to the first break; for iter_descendants also while other threads run such calls. If the body always returns, the loop ends, has visited every node of the subtree once and leaves the links as they were. If the body changes the links this is false: a child attached to the visited node is missed, one attached to a waiting node is visited, a waiting node that is detached is still visited, a moved node can be visited twice, and a body that keeps attaching leaves makes the loop endless.", "quantifier": "every body (any client program), every forest, every start node, every place of the break; every interleaving for iter_descendants", "why_tests_cant": "The iterators read the links one node at a time between runs of arbitrary user code; a test runs one body on one tree.", "anchors": ["src/iterator.rs Ancestors::next", "src/iterator.rs Descendants::next", "src/node.rs Node::iter_descendants", "src/node.rs Node::iter_ancestors"]}
{"id": "C77", "title": "Release builds differ from debug builds only after an overflow panic", "statement": "In a build without overflow checks every client program, with any number of threads in any interleaving, also with nodes freed while the threads run, reaches exactly the node states and results the debug build reaches, as long as the debug build does not end with the overflow panic. A solve with distinct ignored names, at most as many as degrees of freedom, never overflows. Where debug overflows: SerialChain::try_new of an empty chain answers Some; with more names than degrees of freedom an unknown name gives InvalidJointNameError and no joint moves; and if for some k more than k of the (known) names are names of the first k movable joints, the column removal of nalgebra is called with the index usize::MAX. It is not true that release builds report these as errors.", "quantifier": "every client program, any number of threads and interleavings, every heap, every word size, every behaviour of nalgebra on a wrapped index", "why_tests_cant": "tests run in one profile and do not compare builds", "anchors": ["src/chain.rs SerialChain::try_new", "src/ik.rs solve_one_loop_with_constraints", "src/ik.rs solve_with_constraints_internal"]}
{"id": "C78", "title": "Texts of errors", "statement": "Two errors with the same text are of the same kind. When the printed numbers can be told apart and have no spaces, every field of an error can be read off its text, except the two names of MimicError and the vectors of NotConvergedError. A value rejected by set_joint_position is reported as \"joint: NAME is out of limit: VALUE, limit = MAX <=> MIN\", a fixed joint by name, a list of wrong length with the given and the needed length. It is not true that the text of MimicError determines its names, nor that the limits are printed in the order lower, upper.", "quantifier": "every error, every way of printing numbers and vectors, every joint, chain and list", "why_tests_cant": "tests do not look at texts", "anchors": ["src/errors.rs Error", "src/joint/joint.rs Joint::set_joint_position", "src/chain.rs Chain::set_joint_positions"]}
{"id": "C79", "title": "Ranges", "statement": "Range::new(min, max) and (min..=max).into() give the range with these bounds exactly when min <= max and panic otherwise, also when a bound is NaN. Such a range accepts exactly the values between its bounds, both included. Over the reals clamp gives a valid value, the unique nearest one to the given value; it keeps the order of values and never moves two values further apart.", "quantifier": "every scalar type with a lawful order, every pair of bounds and every value; reals for clamp", "why_tests_cant": "tests try a handful of values", "anchors": ["src/joint/range.rs Range::new", "src/joint/range.rs Range::is_valid", "src/joint/range.rs Range::clamp"]}
{"id": "C80", "title": "Panics of the user's own code while guards are kept", "statement": "Threads may keep guards, make calls meanwhile and panic anywhere in their own code. A node of which a panicking thread keeps a guard becomes poisoned. A poisoned node stays poisoned and unlocked, its content never changes again, and all that can happen to a method of the node or to taking a guard of it is a panic with PoisonError. Only nodes are poisoned of which some client keeps a guard, and mimic masters of such nodes. With guards taken in a fixed order no thread waits for a panicked one: at the end every thread has returned or panicked and no mutex is locked. It is not true that only the kept nodes are lost: setting the master of a poisoned mimic child moves the master, panics, and poisons the master.", "quantifier": "every client with guards, calls and panics, any number of threads, every interleaving with unwinding, every heap with mimic relations built by set_mimic_parent", "why_tests_cant": "tests do not panic in threads that keep guards, and cannot try all interleavings", "anchors": ["src/node.rs Node::lock", "src/node.rs Node::joint", "src/node.rs Node::set_joint_position"]}
{"id": "C81", "title": "Documents of Constraints", "statement": "With the feature serde-serialize, reading Constraints from a map succeeds exactly when each of the six flags is given at most once, as a boolean, and ignored_joint_names at most once, as a list of strings; a flag that is not given is true, names that are not given are empty. The order of the entries does not matter and entries with other keys, such as a misspelt flag, are ignored, so a document without known keys means default() and solving with it is solve(). Repeated or mistyped fields and documents that are neither maps nor sequences are refused. A sequence is read by position, missing elements at the end being true (no names), more than seven refused. What is serialized, as a map or as a sequence, is read back unchanged.", "quantifier": "every document (tree of values), every Constraints", "why_tests_cant": "documents are unbounded; the crate has no test with the feature", "anchors": ["src/ik.rs Constraints", "src/ik.rs default_true"]}
{"id": "C82", "title": "Threads that work on separate robots do not influence each other", "statement": "Let each of several threads run any client that makes calls with handles to nodes of its own set only (the handles it starts with and those it gets from its calls) and creates no node, let the sets be disjoint, and let no link (parent, child, mimic parent, mimic child) lead from a node of one set to a node outside it. Then in every interleaving: a thread that has finished has the result it would have had running alone, and its nodes are as it would have left them alone; a thread that has panicked panics alone with the same message, and a thread that returns alone has finished or can make its next step at every moment, so it never waits for another thread; if every thread returns alone then every execution so far can be completed; two complete executions end in the same results and the same memory; nodes of no thread are not touched. This holds whatever the other threads do, also if they panic, wait for ever or do not end; with poisoned mutexes counted in, a mutex of a thread's set is poisoned only if that thread itself has panicked. Without the condition on the links it is false: if a joint of one set mimics a joint of another, what a reader of the first sees depends on the schedule, although no handle is shared.", "quantifier": "for all numbers of threads, clients, regions, memories that keep the regions separate, and interleavings", "why_tests_cant": "It speaks about all programs of calls and all schedules; a test that finds no interference says nothing about another schedule, and a call that reached one node further (a mimic child of a child, a parent's parent) would show up only in a topology where that node belongs to somebody else.", "anchors": ["src/node.rs:72-331", "src/chain.rs:91-458", "src/chain.rs:547-602", "src/ik.rs:208-470", "src/funcs.rs:8-116", "src/iterator.rs:20-89"]}
{"id": "C83", "title": "Handles dropped while other threads run", "statement": "The last handle to a node may be dropped by any thread at any moment, also in the middle of a call of another thread; from then on looking for it as a parent or mimic parent finds nothing. If none of the nodes that the running programs can come to is freed, drops have no effect: the threads are where they could be without any drop, and every node has the same content. If the programs make no call that asks a node for its parent or mimic parent (these are parent, mimic_parent, iter_ancestors, from_end, from_end_to_root, the three updates, clone, jacobian, center_of_mass and solve), drops of any nodes have no effect, also of nodes in use and also when threads panic and poison mutexes; parent can see a drop that happens while it runs. A thread whose robot is separate from the others and is not freed gets what it gets alone, whatever is freed on the others' robots. Limits (C04), independence of clones (C18), absence of deadlock (C41), of races (C50) and of poison (C52, C80), static data (C54, C55), the mimic relation (C62), guards (C66), contracts of results (C69), still velocities (C71) and loops (C76) hold in every interleaving with drops of any nodes at any moments. But a call is not atomic with respect to a drop: update_transforms of two children whose parent is dropped meanwhile can give one the pose under the parent and make the other a root, which it gives neither before nor after the drop.", "quantifier": "every number of threads and programs, every schedule, any nodes freed at any moments", "why_tests_cant": "needs a drop at one specific moment between two steps of a call; the positive part quantifies over all schedules and drops", "anchors": ["src/node.rs:37-45", "src/node.rs:84-89", "src/node.rs:260-273", "src/chain.rs:380-389"]}
{"id": "C84", "title": "The Jacobian and the center of mass in rounded arithmetic", "statement": "In an arithmetic in which every operation is off by at most a relative error u (sine and cosine by an absolute one) and in which the stored numbers are rounded ideal numbers, the columns of jacobian() differ from those of the ideal Jacobian by at most (1+u)^k - 1 in the angular part and by that times a scale in the linear part, where k is an explicit multiple of the number of joints and the scale is 1 for a sliding joint and twice the reach of the arm for a turning joint; hence, for a chain that starts at the root, each computed column is within that distance of the true derivative of the ideal end pose with respect to the ideal joint position. With masses that are not negative and inertial origins at most D away, center_of_mass() differs from the ideal center of mass by at most 7((1+u)^k - 1) D, provided (1+u)^k - 1 is at most one half.", "quantifier": "for all arithmetics with unit roundoff u <= 1/2, all chains, all heaps and all turning ranges", "why_tests_cant": "Rounding differs with every input and platform; a test sees single values and has no exact reference to compare with.", "anchors": ["src/funcs.rs jacobian", "src/funcs.rs center_of_mass", "src/chain.rs SerialChain::end_transform"]}
{"id": "C85", "title": "The choice of the world frame does not influence an IK solve", "statement": "Take any serial arm that starts at a root, with the robot at rest, and any rigid transformation X. Compose the origin of the arm with X (`arm.set_origin(X * arm.origin())`) and ask the solver for `X * target` instead of `target`. If the constraints treat the three axes of the position alike and the three axes of the rotation alike (all or none of each), and the linear-algebra routines commute with a rotation of the rows, the solve on the moved robot does the same as the solve on the original one: both answer Ok, both answer the same error, or both panic with the same message. In a `NotConvergedError` the two remaining errors are those of the original solve, rotated by X. After the two solves all nodes of the two robots have the same positions. In particular the target is found in one frame exactly when it is found in the other, with the same joint positions. Exact linear algebra meets the assumption. The restriction on the constraints is needed: with only x constrained there is an arm that finds the target in one frame and answers `InverseMatrixError` in the other.", "quantifier": "all arms that start at a root, states, targets, rigid transformations, isotropic constraints, ignored joints, nullspace functions, numbers of tries", "why_tests_cant": "The claim compares two runs of unbounded iterations over all rotations; a test compares two floats for one frame.", "anchors": ["src/ik.rs solve_with_constraints", "src/ik.rs calc_pose_diff", "src/chain.rs set_origin"]}
{"id": "C86", "title": "More tries and wider tolerances never hurt, and a solve at the target does not move the arm", "statement": "Take any arm that is a chain over its nodes and a robot at rest. If `solve` answers Ok with some number of tries, it answers Ok with every greater number of tries, and leaves every node in the same state. If it answers Ok with some tolerances, it answers Ok with wider ones. For an arm that can be set back (positions within the limits, no stray mimic relations): a positive number of tries n and any greater number give the same result and the same state, unless the run with n tries answers `NotConvergedError` with n tries; so if a greater number of tries is exhausted, every smaller positive number is exhausted as well, and every other answer of the solver does not depend on the number of tries, from the number on that was enough to get it. If the end of the arm is at the target before the call, in the constrained coordinates (positions within the limits, no nullspace function, a linear solver that takes zeros to zeros), the call leaves all positions as they were, and answers Ok, or `InverseMatrixError` when there are as many free joints as constrained coordinates. The second answer does occur: a stretched arm whose end is exactly at the target gets `InverseMatrixError` for every number of tries, because the solver takes a step before it looks.", "quantifier": "all arms, states, targets, constraints, ignored joints, nullspace functions, linear solvers, numbers of tries, tolerances", "why_tests_cant": "The claims compare runs with different, arbitrarily large numbers of tries over all robots; a test fixes both numbers and one robot.", "anchors": ["src/ik.rs solve_with_constraints_internal", "src/ik.rs solve_with_constraints", "src/ik.rs solve_one_loop_with_constraints"]}
{"id": "C87", "title": "Cached world transforms and velocities are not seen, and retrying a failed solve is pointless", "statement": "Every node stores a world transform and a world velocity computed by earlier calls. Take two memories that differ only in such stored values, which may be absent, stale or wrong in either of them. A program of API calls has the same outcome on both - the same result, the same panic message, the same lock it waits for - and leaves memories that differ only in stored values again, provided that it looks at a node's stored world transform (`world_transform`) only after a call that computes it (`update_transforms`, `update_link_transforms`, `center_of_mass`, `jacobian`, `update_velocities`) for a chain that contains the node, and that the chains given to these calls and to `solve` list the parent of every node before the node (or the parent is freed, or its value is known); likewise for `world_velocity`. (`joint` and `iter_joints` hand out joints with their stored values; the program may use everything else in them.) All setters, constructors, iterators, copies, reparentings and `end_transform` may be used freely. The same holds for several threads that do not change parents: whatever they can do from one memory in some interleaving, with nodes freed at any moment, they can do from the other one with the same results and panics. Consequence: if a solve fails for an arm that can be set back, nothing has changed but stored values, and every repetition of the call, any number of times, fails with the same error. The provisos are needed: `world_transform` alone hands out what happens to be stored, and `update_transforms` of a chain cut out of a tree panics or not, and answers, depending on what is stored at the parent outside the chain.", "quantifier": "all pairs of memories that differ in cached values, all single-threaded clients, all threads and interleavings with nodes freed at any moment; all arms, targets and numbers of repetitions for the consequence", "why_tests_cant": "The claim compares two executions from memories with arbitrary stale contents for every program; a test fixes one program and one history.", "anchors": ["src/chain.rs update_transforms", "src/chain.rs update_velocities", "src/chain.rs update_link_transforms", "src/joint/joint.rs set_joint_position", "src/node.rs world_transform", "src/funcs.rs jacobian", "src/funcs.rs center_of_mass", "src/ik.rs solve_with_constraints"]}
{"id": "C88", "title": "Which node objects a robot consists of is not seen, and a copy of a serial robot behaves like the original", "statement": "Move the contents of the nodes to other node objects, redirecting all parent, child and mimic handles accordingly. A program of API calls that is given the other handles has the same outcome: the same result (with the handles in answers exchanged), the same panic message, or it waits for the corresponding lock; and it leaves the corresponding memory. The same holds for several threads in every interleaving, with nodes freed at any moment. Consequence for `clone`: take a chain that is a path from a root, whose nodes are alive, whose children and mimic partners all belong to it (mimic children listed in the order of the chain) and which no other node mimics or is mimicked by. After `clone()` the memory is the same when the nodes of the original and of the copy are exchanged. So every program of calls does to the copy what it does to the original, with the same results; in particular a solve for the copy gives the same answer, and the same joints afterwards, as a solve for the original, or panics with the same message. False for branching robots: there `clone()` reverses the lists of children, and `joint_positions()` of the copy reads the values in another order.", "quantifier": "all memories, all exchanges of allocated nodes, all single-threaded clients, all threads and interleavings with nodes freed at any moment; all serial robots, solvers, targets and constraints for the consequence", "why_tests_cant": "The claim compares executions of every program on every memory with those on a rearranged memory; a test copies one robot and compares a few answers.", "anchors": ["src/chain.rs clone", "src/node.rs Node", "src/iterator.rs Descendants", "src/iterator.rs Ancestors", "src/chain.rs from_nodes", "src/ik.rs solve_with_constraints"]}
{"id": "C89", "title": "The choice of the units of length, mass and time does not influence the results", "statement": "Give all lengths, masses and times in other units: origins, positions, velocities, limits and mimic parameters of linear joints, masses and geometries of links, targets, the allowed distance and the reference positions of solvers, while angles stay as they are. A program of API calls on existing nodes that uses the new units has the same outcome: every answer (poses, velocities, Jacobians, centre of mass, joint positions, errors) is the old one in the new units, panics and blocked calls are the same, and the memory it leaves is the old one in the new units. The same holds for several threads in every interleaving, with nodes freed at any moment. This includes inverse kinematics with linear algebra that does not depend on units, as exact arithmetic does, if there are as many equations as joints and no joint is ignored, or if all joints are of one kind and (when there are more joints than equations) only positions or only rotations are constrained. It is false for other tasks: with more joints than equations and joints of both kinds the solution that is found depends on the unit of length, and when the ignored joints leave as many joints as equations, even whether the target is found does.", "quantifier": "all robots, all positive factors for length, mass and time, all single-threaded clients, all threads and interleavings with nodes freed at any moment, all targets and solvers of the named kinds", "why_tests_cant": "The claim compares executions of every program with those in every other system of units; a test converts one robot and compares a few numbers up to a tolerance.", "anchors": ["src/joint/joint.rs local_transform", "src/joint/joint.rs set_joint_position", "src/joint/velocity.rs Velocity", "src/chain.rs update_transforms", "src/chain.rs update_velocities", "src/funcs.rs jacobian", "src/funcs.rs center_of_mass", "src/ik.rs solve_with_constraints"]}
{"id": "C90", "title": "In which order the joints of a loaded URDF robot come", "statement": "Chain::from(robot) lists the fixed root and then the joints in the order of the tree, not in the order of the file: each joint is followed by everything that hangs on its child link, and of several joints on one link the last one of the file comes first. iter_joints(), joint_positions() and the entries of set_joint_positions follow this order without the joints that cannot move, directly after loading and in every later state as long as the tree is not changed. Of the file only the order of the joints on the same link (and of the joints at the base) matters, so files that mix the joints differently give the same order. The order of the links does not matter at all if there is exactly one base link: the same nodes with the same contents are created. With two base links it does: the last one becomes the link of the root and the other is lost.", "quantifier": "all valid robot descriptions (any number of joints and links, any tree), all scalar types, all earlier states of the memory, all later joint positions, all permutations of links", "why_tests_cant": "A wrong order swaps the values of two joints only for robots with branches of a certain shape; the order of vectors, stacks and maps in four loops decides, and tests that look joints up by name do not see it.", "anchors": ["src/urdf.rs From<&urdf_rs::Robot> for Chain", "src/chain.rs from_root", "src/iterator.rs Descendants", "src/chain.rs joint_positions", "src/chain.rs iter_joints"]}
{"id": "C91", "title": "Where the zero of a joint is and in which direction it counts does not matter", "statement": "A robot described with another zero or the other direction for some joints (axis reversed, limits moved, the origin making up for the zero, mimic relations rewritten) behaves the same: every call with the rewritten coordinates has the same effect, poses, links, centre of mass and names are the same, positions and Jacobian columns are the rewritten ones, an out of limit error names the same joint with the rewritten position and limits, and inverse kinematics with the same target takes the same steps and ends alike. It also holds for threads, whatever the interleaving. Excluded, with counterexamples: printing shows the direction of an axis; inverse kinematics with ignored joints and no redundancy finds a target or not depending on the direction in which a joint counts.", "quantifier": "all client programs made of any number of calls (without creating nodes), all states of the memory, all coordinate changes x -> x + b and x -> -x + b per joint, all interleavings of threads with nodes freed at any moment", "why_tests_cant": "A sign or offset mistake (a limit compared on one side only, a position used instead of a difference, a column with the wrong sign) shows only for joints with reversed axes and moved zeros; relating two whole runs for all programs is outside of tests.", "anchors": ["src/joint/joint.rs", "src/node.rs set_joint_position", "src/chain.rs set_joint_positions", "src/funcs.rs jacobian", "src/ik.rs solve_with_constraints"]}
{"id": "C92", "title": "A serial robot is seen only through its forward kinematics and the names and limits of its joints", "statement": "Two serial robots whose movable joints have the same names, limits and positions and take no part in mimic relations, and whose ends are at the same pose whenever their joints are at the same positions, cannot be told apart: every program that moves the joints (checked, clamped or unchecked), asks for positions, the pose of the end or the Jacobian, or solves inverse kinematics with any solver and constraints, gets the same answers, errors and panics from both and leaves the joints at the same positions. How many fixed joints there are and how the origins are split among them does not matter, nor where on its axis a turning joint is. Mimic relations are seen, with a counterexample.", "quantifier": "all client programs of any number of calls, all pairs of serial robots with the same forward kinematics, all joint positions, all solvers (any linear algebra) and constraints", "why_tests_cant": "Tests compare one robot with expected numbers; that the Jacobian and the solver use nothing but the map from positions to the pose (no origin, axis or joint type in another way) is a statement about all pairs of robots with that map.", "anchors": ["src/funcs.rs jacobian", "src/chain.rs end_transform", "src/chain.rs set_joint_positions", "src/ik.rs solve_with_constraints"]}
{"id": "C93", "title": "Threads that move different arms of one robot do not influence each other", "statement": "Several threads work on one robot at the same time: each changes nodes of its own only (an arm), and all of them look at common nodes (the base) whose world transforms have been computed before. Whatever programs they run and however their steps interleave, although all of them lock the common nodes and write their cached transforms again, every thread gets the results, errors and panics it would get alone and leaves its nodes as it would alone; the common nodes stay as they are. A thread waits only for a common node, and the thread holding that is never waiting itself; so if every program returns alone, every execution can be completed, and all complete executions end in the same results and the same memory. If a thread panics, no mutex of a common node is poisoned. If the transforms of the base have not been computed before, answers depend on the schedule, with a counterexample.", "quantifier": "all numbers of threads, all client programs within these limits, all robots, all interleavings (with and without poisoned mutexes)", "why_tests_cant": "Tests run one schedule; that update_transforms, jacobian and solve of one arm rewrite the cache of the shared base only with the value it has, hold its mutex only while they wait for nobody, and never panic while holding it, is a statement about all interleavings.", "anchors": ["src/chain.rs update_transforms", "src/funcs.rs jacobian", "src/ik.rs solve_with_constraints", "src/node.rs lock"]}
{"id": "C94", "title": "How many mutexes a call acquires", "statement": "The number of mutexes a call acquires is known in advance, whatever other threads do meanwhile: one for every accessor of a node, two for set_parent and remove_parent, three for set_mimic_parent; one for each item of an iterator; two per node for from_root and from_end; one per movable joint for joint_positions and the clamped and unchecked setters; between 1 and 1+M for set_joint_position with at most M mimic children; n for end_transform, between 3n and 4n for update_transforms (three per node and one more for each living parent, exactly), between 4n+m and 5n+m for jacobian, 4n and 6n for center_of_mass; at most 2m + a*m + tries*(7n+3m) + 2m(1+M) for solve_with_constraints with a ignored joints, and at least 6n+5m if it succeeds. A client acquires the sum over its calls. The upper bounds hold at every moment, also for calls that panic or wait forever (calls walking along links excepted). M must bound the mimic children all the time; it does if no thread registers new ones.", "quantifier": "all states, all clients, all numbers of threads, all interleavings with nodes freed at any moment", "why_tests_cant": "Every acquisition is a point where a real-time loop can be made to wait; a test counts one run on one robot, while a second lock of the same node, a lock inside a loop or an unbounded retry shows only in some states or schedules.", "anchors": ["src/node.rs lock", "src/node.rs set_joint_position", "src/chain.rs update_transforms", "src/chain.rs from_root", "src/funcs.rs jacobian", "src/ik.rs solve_with_constraints"]}
{"id": "C95", "title": "How far the end of a chain moves when its joints move", "statement": "Between two states of a robot that differ in joint positions and cached poses only, a point fixed to the end of a chain moves no farther than the strokes of the linear joints of the chain plus, for each rotational joint, the chord of its turn (at most its angle, at most 2) times the length of everything after it (origins, strokes, distance of the point from the end); a direction fixed to the end changes no more than the chords of the turns. This holds after every set_joint_positions (Ok or Err, mimicking joints included) for every chain of the robot, and after every solve that returned Ok. So end_transform depends continuously on the joints. The bound is reached: a crane with a turning and a sliding joint moves its end by exactly it. Likewise for jacobian of a serial chain from the root: the column of a linear joint has a linear part of length at most 1 and angular part zero, the column of a rotational joint has an angular part of length at most 1 and a linear part no longer than everything after the joint.", "quantifier": "all chains, all real joint positions before and after, all points and directions", "why_tests_cant": "A test compares a few poses; a jump of the pose at some joint value, a wrong lever arm or an angle taken twice shows only at that value, and a safety margin needs the bound for all of them.", "anchors": ["src/chain.rs end_transform", "src/joint/joint.rs local_transform", "src/chain.rs set_joint_positions", "src/ik.rs solve_with_constraints"]}
{"id": "C96", "title": "Of all the positions set only the last one of each joint counts", "statement": "Take a robot with no lock held on which every registered mimic child has its mimic data. Call the six position setters (checked, clamped, unchecked, of nodes and of chains) one after the other, whatever they answer. Each call stands for a list of writes that can be read off kinds, limits and mimic data alone (nothing for a refused or mimicking joint; the joint and its followers up to the first that refuses; for a chain until the first failure), so every answer is the one the call would give at the beginning. In the end each node is as at the beginning, except that its joint is where the last write to it put it, with cleared caches. So sequences with the same last writes leave the same memory behind; calls writing different joints commute; a call whose writes are all overwritten later, or that writes nothing, can be left out. With any number of threads, at every moment each joint is where it was or where some call puts it, all answers are the same as above, and when all have returned each joint is where the last write of one of the threads put it.", "quantifier": "all states, all sequences of calls, all numbers of threads, all interleavings", "why_tests_cant": "Tests try a few sequences; hidden state (an accumulated offset, a value remembered from a failed set, a follower updated from a stale master) shows only in particular histories, and a torn or invented value only in particular schedules.", "anchors": ["src/node.rs set_joint_position", "src/node.rs set_joint_position_clamped", "src/node.rs set_joint_position_unchecked", "src/joint/joint.rs set_joint_position", "src/chain.rs set_joint_positions", "src/chain.rs set_joint_positions_clamped", "src/chain.rs set_joint_positions_unchecked"]}
{"id": "C97", "title": "Inverse kinematics at singular poses", "statement": "Call a pose singular for given constraints if some motion of the joints that are not ignored leaves every constrained coordinate of the end at rest to first order. Let the arm have exactly as many joints that are not ignored as there are constrained coordinates. Started at a singular pose, solve_with_constraints answers InverseMatrixError and every joint is where it was, whatever the target (even if the end is there already), the tolerances, the number of tries and the nullspace function. Conversely this error comes only from a singular pose among those visited, so with one try it means that the starting pose is singular. With more free joints than constrained coordinates this answer is impossible. A pose is singular if two free joints turn about the same line, if two slide in parallel, or if there is a direction within the constrained coordinates along which the end is seen from every free turning joint and to which the free sliding joints are at right angles (the stretched arm). For two equal bars in the plane the singular poses are exactly those with the bars on one line.", "quantifier": "all arms, poses, targets, constraints, solver parameters; exact real arithmetic, LU decomposition succeeding exactly on regular matrices", "why_tests_cant": "Singular poses are a set of measure zero that random tests never hit; the hand-chosen ones miss the dependence on constraints and ignored joints, and that the error comes even at the target.", "anchors": ["src/ik.rs solve_with_constraints", "src/ik.rs solve_one_loop_with_constraints", "src/ik.rs solve_with_constraints_internal", "src/funcs.rs jacobian"]}
{"id": "C98", "title": "A mirrored robot behaves as the mirror image", "statement": "Reflect a robot in any of the coordinate planes: positions, sliding axes and centres of mass are reflected, turning axes, orientations and rotation axes are reflected with the opposite sense, while names, joint coordinates, limits, masses and the mimic relation stay as they are. Then a client that makes the same calls with mirrored arguments (including creating and cloning nodes, and solve with the mirrored target and the same solver, tolerances and nullspace function) has the same outcome: the same result, the same panic, the same lock it waits for, and it leaves exactly the mirror image of the memory. Every single call answers the mirror image of its answer: joint positions and errors are equal, poses, velocities, links and the centre of mass are mirrored, the Jacobian has the signs of its rows changed accordingly; so the left arm reaches the mirrored target with the same joint positions as the right arm. Only the text of a chain differs, because it shows the axes. Whatever threads can do, threads in the mirror can do. This holds also with rounded arithmetic that has no preference for a sign (rounding errors are mirrored too), and with NaNs; it is false for arithmetic that rounds upwards.", "quantifier": "all robots, reflections in any subset of the three coordinate planes, clients, threads and interleavings; any number type with the laws of signs (reals, reals with NaN, sign-symmetric rounded arithmetic); inverse kinematics: linear algebra that does not depend on the signs of the equations", "why_tests_cant": "Compares two executions for all robots and all clients; a wrong sign in one term of a cross product, quaternion product or rotation matrix is invisible in tests with axes and angles for which that term vanishes.", "anchors": ["src/joint/joint.rs local_transform", "src/chain.rs update_transforms", "src/chain.rs update_velocities", "src/funcs.rs jacobian", "src/funcs.rs center_of_mass", "src/ik.rs calc_pose_diff", "src/ik.rs solve_with_constraints"]}
{"id": "C99", "title": "Moving one joint swings everything below it about its axis and moves nothing else", "statement": "Move one joint k from position q to q' (by an accepted set_joint_position on a joint without followers, by the unchecked or by the clamping setter: each of them moves no other joint) and call update_transforms on a chain that lists parents before children. The poses of k and of everything that hangs on it are the old poses with one rigid motion of space applied, the same for all of them: for a rotational joint the turn by q' - q about the line through the place of the joint along its axis in the world, for a linear joint the shift by q' - q along its axis. All other poses are answered exactly as before. The turn leaves the points on the axis where they are and keeps all distances. The center of mass moves by the displacement of the center of mass of the part that hangs on k, times its share in the total mass; so its derivative by the position of the joint is (m/M) a x (w - o) for a rotational and (m/M) a for a linear joint.", "quantifier": "all trees of nodes with unit axes and rigid origins, all joints, positions and masses with nonzero sums; exact real arithmetic", "why_tests_cant": "A pose composed in the wrong order, about the axis before the origin rotation or with the parent's axis agrees for joints at the origin or parallel axes; tests look at a few configurations, the claim compares all poses before and after for every tree.", "anchors": ["src/node.rs set_joint_position", "src/joint/joint.rs local_transform", "src/chain.rs update_transforms", "src/funcs.rs center_of_mass"]}
{"id": "C100", "title": "In which order a robot is put together only changes the order of listings", "statement": "Connect the same pairs of child and parent with set_parent in two different orders, each child in one pair only. The two robots are the same except for the order in which each node lists its children. Every client that does not list children or descendants (so everything except children(), iter_descendants, from_root, clone and Display: also is_end, try_new, from_end, the setters, poses, velocities, Jacobian, center of mass and inverse kinematics) has the same outcome on both, with the same answers, errors, panics and the same lock it waits for; threads can do on one robot what they can do on the other, with any interleaving and nodes freed at any moment. Of a tree, children() and from_root list the same nodes in some order, the chains have equal dof, joint_positions() gives each joint the same position, update_transforms gives each node the same pose, find finds the same node if its name is unique, Display writes the same lines in some order with the root first, and the center of mass is the same. Not the same is the meaning of an index: set_joint_positions of the whole robot with the same list moves other joints. If a child is connected twice the last set_parent counts and the order does matter.", "quantifier": "all lists of pairs with distinct children and all permutations of them, all heaps, all clients and schedules; center of mass in exact real arithmetic", "why_tests_cant": "Needs two runs compared for every permutation of the calls and for every later use; a lookup that takes the first child or depends on the number of earlier siblings agrees on all serial chains and on robots built in the usual order.", "anchors": ["src/node.rs set_parent", "src/node.rs children", "src/iterator.rs Descendants", "src/chain.rs from_root", "src/chain.rs try_new", "src/chain.rs update_transforms", "src/funcs.rs center_of_mass"]}
{"id": "C101", "title": "Mounting one arm on the end of another makes the arm one expects", "statement": "Take two arms (non-branching chains from a root, with rigid transforms, nothing locked) without a common node, and call set_parent with the first node of the second one and the last node of the first one. from_end of the last node then returns one chain with the nodes, movable joints and degrees of freedom of the first followed by those of the second. end_transform of it is the product of the two end transforms. update_transforms returns the poses of the first arm unchanged and those of the second one carried by the end transform of the first. The columns of its Jacobian are those of the first arm with the linear part increased by the cross product of the angular part with the vector from the first end to the new end, followed by those of the second arm with both halves turned by the rotation of the first end; so a tool without joints leaves the angular rows as they are. The center of mass is the mean of the center of the first arm and the carried center of the second one, weighted with the masses. remove_parent afterwards restores the state before.", "quantifier": "all heaps with two such arms of any length and joint types and all joint positions; exact real arithmetic", "why_tests_cant": "Needs the answers for three robots compared for every pair of arms; an error in the frame or the reference point of one half shows only for a second arm that is turned and away from the origin.", "anchors": ["src/node.rs set_parent", "src/node.rs remove_parent", "src/chain.rs from_end", "src/chain.rs end_transform", "src/chain.rs update_transforms", "src/funcs.rs jacobian", "src/funcs.rs center_of_mass"]}
{"id": "C102", "title": "Threads that build and copy robots of their own do not influence each other", "statement": "Let each thread run any program of API calls, including Node::new, set_parent, set_mimic_parent and cloning of chains, that uses only handles to nodes of its own - a set of nodes it is given, closed under links and disjoint from those of the other threads - and handles it gets from its calls, and does nothing else with a handle than use and compare it. Then in every interleaving a thread that finishes has the result it has when it runs alone, and its nodes, also the new ones, have the content they have then, up to which objects the new nodes are; a thread that panics panics alone with the same message; a thread that returns alone never waits for another one; every execution can be completed, and none goes on for ever if every thread returns alone; and results do not depend on the schedule. Panics of other threads and the mutexes they poison change nothing of this. Which objects a thread gets does depend on the schedule.", "quantifier": "all memories, numbers of threads, clients and interleavings; any scalar type", "why_tests_cant": "The schedules and programs are unbounded, and interference through a new node (a handle mixed up with one of another thread, a copy that shares a mutex with its source) shows only in particular interleavings.", "anchors": ["src/node.rs Node::new", "src/chain.rs Clone for Chain", "src/node.rs set_parent", "src/node.rs set_mimic_parent", "src/chain.rs from_end"]}
{"id": "C103", "title": "Ignoring a joint in inverse kinematics is having that joint fixed", "statement": "Let c ignore some joints, named once each, and let more joints remain than c constrains coordinates. Solving with c gives the same result, error or panic as solving without ignored joints for the robot in which these joints are fixed where they are (more generally, for any robot whose joints are the remaining ones, with their limits and positions, and whose end is where the end of the first robot is while the ignored joints stay), with the other joints ending at the same positions and the ignored ones where they were. A nullspace function has to be replaced by the one for the remaining joints; for the one with reference positions these are the references and weights of the remaining joints. When as many joints remain as coordinates are constrained this is false: the ignored joint itself moves.", "quantifier": "all serial robots with a root and without mimic joints whose joints start within their limits and have different names, any number of ignored joints, solvers, targets, constraints; linear algebra of the right dimensions; exact arithmetic", "why_tests_cant": "Indices of columns, of the nullspace vector and of the increments have to be shifted consistently in every iteration, for every set of ignored joints; a shift that is wrong for the second ignored joint or for the last joint of the arm still converges on most robots.", "anchors": ["src/ik.rs solve_one_loop_with_constraints", "src/ik.rs solve_with_constraints", "src/ik.rs create_reference_positions_nullspace_function"]}
{"id": "C104", "title": "What inverse kinematics sees of its target", "statement": "Two targets that have the same value in each constrained position coordinate, and the same orientation in case some rotation coordinate is constrained, make solve_with_constraints do exactly the same, step by step, in every execution, alone or among other threads, with any number type. The orientation of the target may be given by either of its two unit quaternions: as long as no placement of the arm inside its limits is exactly half a turn from the target, both give the same result and leave the robot in the same state. Half a turn away this is false: an arm that turns about z and is asked for half a turn goes to +pi with the one quaternion and to -pi with the other, and both solves return Ok.", "quantifier": "first part: all solvers, chains, constraints, targets, number types, heaps and interleavings; second part: all robots whose joints start within proper limits, solvers, nullspace functions, constraints, numbers of tries, exact arithmetic", "why_tests_cant": "That a coordinate does not matter is a statement about all pairs of targets and all states; the sign of a quaternion only shows in the set of measure zero where tests never look.", "anchors": ["src/ik.rs calc_pose_diff", "src/ik.rs calc_pose_diff_with_constraints", "src/ik.rs solve_with_constraints"]}
{"id": "C105", "title": "Names are only labels", "statement": "Give the joints of all robots in memory other names, different joint names staying different, and give links, visuals, collisions and materials any other names at all. A client that makes the same calls under the other names (nodes created with them, find and ignored joints asked for by them, links set with them) then has the same outcome: the same result, the same panic, the same lock it waits for, and it leaves the memory the same but for the names. Answers and errors are the same but for the names in them; nothing is said of the text printed by Display. Among threads, with any interleaving and nodes freed at any moment, what can happen under the one set of names is exactly what can happen under the other. It is false if two joint names become one: find then gives another joint.", "quantifier": "all injective renamings of joints, all renamings of links and their parts, all clients (any finite sequence of the 45 calls with any decisions between them), any number of threads, all heaps, any number type", "why_tests_cant": "A test compares a few robots under a few names; that no call of the library ever depends on what a name is, only on which names are equal, is about all pairs of names and all call sequences.", "anchors": ["src/chain.rs find", "src/ik.rs solve_with_constraints_internal", "src/joint/joint.rs set_joint_position", "src/node.rs set_joint_position"]}
{"id": "C106", "title": "Limits only refuse", "statement": "Make the limits of any joints looser (every position allowed before is still allowed; having no limits is the loosest), also of the joints created later. A client that gives up as soon as set_joint_position or set_joint_positions answers OutOfLimitError, and that uses neither the clamped setters nor inverse kinematics, either gives up on the robot with the tighter limits, or has the same outcome on both robots: the same result, the same panic, the same lock it waits for, and the same memory but for the limits. Each single call is refused or gives the same answer. For threads that make such clients run at the same time: whatever they do, one of them has given up (left alone it ends with giving up, and it can give no other result), or they can do the same with the looser limits; and whatever they do with the looser limits they can do with the tighter ones, or come to a point where one has given up. Here the mutexes are free at the start and nobody locks a node before it exists, which is always so for threads that only use handles of nodes that exist and handles they get from their calls, and for threads that create no nodes. For the clamped setters this is false, and for solve not even success is kept: a solver with too large a step converges because the limits stop the joint at the target, and fails on the same arm without limits.", "quantifier": "all loosenings (by joint name and limits), all clients (any finite sequence of the other 42 calls with any decisions between them), all heaps, any number of threads and all interleavings with nodes freed at any moments, any number type", "why_tests_cant": "Which calls look at limits, and that they do nothing else with them than refuse, is about all call sequences and all pairs of limits; a test has one robot with one set of limits.", "anchors": ["src/joint/joint.rs set_joint_position", "src/node.rs set_joint_position", "src/chain.rs set_joint_positions", "src/joint/range.rs is_valid"]}
{"id": "C107", "title": "Threads that only ask are not noticed", "statement": "Some threads use the robot in any way, and beside them other threads only ask: joint and its parts, parent, children, mimic parent, link, the iterators, building and searching chains, joint_positions, end_transform, printing. In every interleaving, also with nodes freed at any moments, the first threads get exactly as far, with the same answers and the same content of all nodes, as in some interleaving without the other threads; when the others have returned, the memory is exactly that one. If the others use none of iter_links, joint_positions and printing, then they cannot hold up the first threads for good either: from every reachable state they can go on by themselves to the very state that the first threads have alone; and they poison no mutex. With iter_links and printing this is false (joint_positions is left out because it unwraps under its guard): iter_links can panic with its guard when another thread takes the link away, so that a thread that returns alone panics, and printing a node that is below itself blocks everybody. It is false, too, for update_transforms and jacobian, which take a shared reference but store transforms.", "quantifier": "all client programs for any number of threads of both kinds, all initial heaps without locked mutexes, all interleavings of primitive steps with nodes freed at any moments, with and without poisoning, any number type", "why_tests_cant": "A test sees a few interleavings, and whether an observer can influence a worker is about all of them.", "anchors": ["src/node.rs lock", "src/node.rs parent", "src/iterator.rs", "src/chain.rs iter_links", "src/chain.rs joint_positions", "src/chain.rs fmt_with_indent_level", "src/funcs.rs jacobian"]}
{"id": "C108", "title": "A poisoned mutex is like one that is held forever", "statement": "A thread that panics with a guard poisons the mutex, and whoever locks it later panics, too. This shows no state of the robot that could not be seen without it: whatever several threads do, with panics, unwinding and poisoning, there is an interleaving without poisoning after which all nodes have the same content and every thread has got equally far, with the same answers, except that the threads that got a PoisonError are still waiting for a mutex and exactly the poisoned mutexes are held in addition. So what holds of the content of the nodes in all interleavings without poisoning also holds with it: limited joints stay within their limits, and mimic joints are where their masters put them whenever the master is neither locked nor poisoned. The last condition is needed: a poisoned follower makes the setter of the master panic halfway, and then no mutex is locked and a follower that is not poisoned itself stays at the wrong position for good.", "quantifier": "all client programs for any number of threads, all initial heaps without locked mutexes, all interleavings of primitive steps with poisoning, unwinding and nodes freed at any moments, any number type (limits: with a total order; the counterexample: reals)", "why_tests_cant": "Panics at every possible moment in every interleaving cannot be enumerated by tests; the statement carries every safety result over to executions with panics.", "anchors": ["src/node.rs lock", "src/node.rs set_joint_position", "src/chain.rs iter_links", "src/chain.rs set_joint_positions"]}
{"id": "C109", "title": "The sign of a quaternion is not seen", "statement": "A unit quaternion and its negative are the same orientation, and no other one is. Whichever of the two each origin of a joint, of an inertial, of a visual or of a collision, each new origin, each link and each target is given with, the API does the same: a client that makes the same calls with either sign of each orientation has the same result, the same panic or waits for the same lock, and leaves the memory the same but for signs; only the reported quaternions can have the other sign. Jacobians, centers of mass, velocities, positions, the printed tree and the structure are exactly the same. This also holds for threads, in both directions. Inverse kinematics is covered when no rotation is constrained, and with any constraint when none of the postures it passes is exactly half a turn from the target (in particular when no placement of the arm inside its limits is). At a half turn the sign is seen: the arm can turn the one way or the other.", "quantifier": "all client programs, all pairs of heaps and calls that differ in signs only, any number of threads and all interleavings with nodes freed at any moments, any number type where negation commutes with sums and products (exact arithmetic, or rounding without preference for a sign with the two zeros identified); the identity of the orientation and inverse kinematics with constrained rotation: reals", "why_tests_cant": "Every orientation of a description can independently be written in two ways, and tests use the one that their constructors give.", "anchors": ["src/joint/joint.rs local_transform", "src/chain.rs update_transforms", "src/chain.rs update_velocities", "src/chain.rs update_link_transforms", "src/funcs.rs jacobian", "src/funcs.rs center_of_mass", "src/ik.rs solve_with_constraints"]}
{"id": "C110", "title": "A whole turn of a continuous joint is not seen", "statement": "Joints that turn, have no limits and are in no mimic relation may each be turned round any whole number of times, in either direction. A client that makes the same calls, with the positions of these joints shifted by the same multiples of 2 pi, has the same result, the same panic or waits for the same lock, and leaves the memory the same but for the turns; every answer is the same: positions of joints are shifted by the turns, orientations are the same with either sign of the quaternion, and Jacobians, centers of mass, velocities, the printed tree, the structure and the results of inverse kinematics without constraint on the orientation are exactly the same. With the orientation constrained a solve also does the same, unless it passes a posture that is exactly half a turn from its target. Inverse kinematics ends at the posture turned likewise and does not unwind it; a nullspace function that asks for a posture does the same when it asks for the turned posture. This also holds for threads, in both directions. It is false for joints with limits, whose setter refuses the turned position, and for joints in a mimic relation, where a follower at half the angle ends up half a turn away.", "quantifier": "all windings, all client programs, all pairs of heaps and calls that differ by turns (and signs of quaternions), any number of threads and all interleavings with nodes freed at any moments; reals", "why_tests_cant": "Positions range over all reals and every joint has its own number of turns; tests stay within one turn.", "anchors": ["src/joint/joint.rs local_transform", "src/joint/joint.rs set_joint_position", "src/joint/joint.rs set_joint_position_clamped", "src/node.rs set_joint_position", "src/chain.rs set_joint_positions", "src/chain.rs update_transforms", "src/funcs.rs jacobian", "src/ik.rs solve_with_constraints", "src/ik.rs create_reference_positions_nullspace_function"]}
{"id": "C111", "title": "What a robot carries is not seen by its kinematics", "statement": "Take a robot and put other links on its nodes, or none. A client that makes the same calls - putting on other links, perhaps - gets the same answer from every call, has the same result, the same panic or waits for the same lock, and leaves the memory the same but for the links: forward and inverse kinematics (any constraint), Jacobians, velocities, cached transforms, mimic, limits, structure, lookup, clones. This also holds for threads, in both directions. Only four calls are excepted: the two that hand out links; center_of_mass, which gives the same answer when the links have the same masses at the same places; and printing, which gives the same text when the links have the same names. Both do see a mass that is moved and a name that is changed. Shapes, materials and inertias are seen by none.", "quantifier": "all client programs, all pairs of heaps and calls that differ in the links, any number of threads and all interleavings with nodes freed at any moments; any scalar type, no laws of arithmetic assumed", "why_tests_cant": "Tests load one robot description; none compares the same robot with different links.", "anchors": ["src/node.rs set_link", "src/node.rs Display for Node", "src/chain.rs update_link_transforms", "src/chain.rs update_transforms", "src/chain.rs clone", "src/funcs.rs center_of_mass", "src/funcs.rs jacobian", "src/ik.rs solve_with_constraints", "src/link.rs Link"]}
{"id": "C112", "title": "Attaching or detaching something is not seen by the rest", "statement": "Let any set D of nodes hang somewhere else than before, or nowhere. A client whose chains contain no node of D, and that does not ask what hangs below what (children, iterators, making chains from nodes' relations, clone, try_new, printing), gets the same answer from every call, has the same result, the same panic or waits for the same lock, and leaves the memory the same but for what hangs where. In particular set_parent or remove_parent of a node, made before, changes nothing for those who work with chains without this node: positions, mimic joints, transforms, velocities, links, Jacobians, centers of mass and inverse kinematics. This also holds for threads, in both directions. It is false for chains that contain the node: the transform of a tool alone can be computed before it is attached and panics afterwards; and chains made afterwards contain what was attached.", "quantifier": "all sets D, all client programs that avoid D, all pairs of heaps that differ in the parents of D and in children, any number of threads and all interleavings with nodes freed at any moments; any scalar type, no laws of arithmetic assumed", "why_tests_cant": "Tests build one robot and use it; none attaches or detaches parts while chains made before are in use.", "anchors": ["src/node.rs set_parent", "src/node.rs remove_parent", "src/node.rs parent", "src/node.rs parent_world_transform", "src/chain.rs update_transforms", "src/chain.rs update_velocities", "src/chain.rs update_link_transforms", "src/funcs.rs jacobian", "src/funcs.rs center_of_mass", "src/ik.rs solve_with_constraints"]}
