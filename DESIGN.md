# Formal model of OTL/k in Lean 4 — design

`k` (crate version 0.25.0, `/repo`) keeps a robot as a tree of nodes, each an `Arc<Mutex<NodeImpl>>`
with a joint, and computes forward kinematics, Jacobian, centre of mass and inverse kinematics on chains
of nodes. This directory has a model of that code in Lean 4 and proofs of the properties listed in
`properties.jsonl`. `MANIFEST.json` says which theorem proves which property.

## Method

* The model is in `lean/Verif/Model/*.lean`, one file per source file of `/repo/src` (plus `Prog`,
  `Memory` and `Poison` for what Rust's standard library does). Every definition cites the file and
  lines it models, and its comment says where it simplifies.
* Node handles (`Arc<Mutex<NodeImpl>>`) are natural-number ids into a heap. Every public method that
  touches nodes is a *program* (`Prog`): a tree of primitive steps `lock`, `unlock`, `read`, `write`,
  `upgrade` (of a `Weak`), `alloc`, `panic`, `diverge`. The same program has these semantics:
  * `run`: one thread. Outcomes are `ok`, `panic`, `blocked` (locking a mutex that is already held) and
    `diverged` (out of fuel in a traversal that does not end).
  * `Step`/`Steps`: any number of threads, any interleaving of primitive steps.
  * `PStep` (`Model/Poison.lean`): the same with unwinding panics that poison the mutexes the thread
    holds; locking a poisoned mutex panics (`lock().unwrap()`, `src/node.rs:72-74`).
  * `DStep`, `PDStep`: the two above, and at any moment any nodes may be freed (somebody drops the last handles).
    This is more than can happen: a node that a thread has in its hands is not freed. The theorems for all
    interleavings are stated for these where they hold (list in C83); existing bad schedules are given without
    drops. With `Step` and `PStep` nodes are freed only before the threads start (`C65_linearizable` and `C65_turns`, most of C82).
* `Client T α` (`Spec/Api.lean`) is any sequential user program over the ~45 public calls, with results
  deciding later calls. "Every history" is every `Client`, "every thread interleaving" is every `Steps`
  path of several clients.
* Scalars are a type class `Scalar T` *without laws* (what `RealField` offers). Theorems stated for any
  `Scalar` hold for `f32`/`f64` bit for bit. Theorems about order use the class `LawfulOrd` (laws true of
  IEEE floats including NaN). Theorems about geometry are at `T := ℝ`, that is over exact arithmetic.
  Rounding is modelled for C75 and C84 only: `Fl A` (`Model/RoundScalar.lean`) is any arithmetic `A` whose operations
  have relative error at most `u` (the standard model of floating point without overflow, underflow, infinities
  and NaN; `sin`, `cos` with absolute error `u`, `atan2` arbitrary). Its constants count the operations of the
  formulas in `Model/Geom.lean`, whose order is not claimed to be nalgebra's. Witnesses with NaN use `NReal`, the reals with a NaN.
* Panics (`assert!`, `expect`, `unwrap`, indexing, `usize` underflow) are an explicit outcome.
* Linear algebra of nalgebra (LU solve, SVD solve, pseudo inverse) is an arbitrary parameter `LinAlg` of
  the IK model: theorems hold for every behaviour of it unless a law is among the hypotheses.
* Specifications that are not the model's own helpers are in `lean/Verif/Spec/*.lean` or next to the
  theorem; property theorems in `lean/Verif/Props/*.lean`, named after the property (further concrete cases of them in `Props/Cases.lean`); helper lemmas in
  `lean/Verif/Lemmas/*.lean`. After each group of theorems there is an `example` or a witness theorem
  which applies them to a concrete non-trivial case.
* Where the expected claim is false of the code, the statement in `properties.jsonl` says what the code
  does, a theorem proves that, and a `…_refuted` (or similarly named) theorem gives the witness
  against the expected claim. The list is in "Disagreements" below.
* Wrong programs: `seeded/LOG.jsonl` has one line per edit of the model made in a scratch copy, with the
  theorems that then fail, and the theorems added or tightened where none failed.
  `failed` lists the theorems whose own proof fails, `blocked` those whose proof uses a lemma that fails.  A line
  `caught` with nothing under `failed` and no failed example is weaker evidence: a broken proof does not show that
  the statement became false.  238 of the 547 lines `caught` are of this kind.  Their descriptions were read again and the doubtful edits looked at, but
  not each confirmed by a counterexample.  Three turned out otherwise: `setX/XX24` left the statements true and is
  logged as survived, `setI/II23` and `setS/SS09` edit code that never runs (C71) and are logged as equivalent.

## Per-property plan

(see `properties.jsonl` for the English)

| id | model | spec and proof idea |
|---|---|---|
| C01, C02, C53 | `Joint`, `Range` pure functions | case analysis, `LawfulOrd` |
| C03 | `Client` over heap, `run` | invariant kept by each call, induction on the client |
| C04 | `Step` semantics | per-write invariant (`Safe`), induction on the schedule |
| C05, C06 | `Node.setJointPosition` program | induction on the mimic-children list; histories by induction |
| C07, C08 | `Chain` programs | induction on zipped lists |
| C09–C11 | iterators with fuel over heap | inductive `Forest`/`Lineage` of a heap; induction on size |
| C12, C13, C46 | `updateTransforms`, `endTransform` | inductive spec `World`; induction along the node list |
| C14, C48 | geometry at ℝ | algebra of unit quaternions |
| C15 | per-call frame lemmas over all calls | `MayWrite` per call |
| C16 | `updateVelocities` with the guard temporaries explicit | evaluate `run` to `blocked` |
| C17 | `updateLinkTransforms` | as C12, and counterexample |
| C18, C19 | `Chain.clone` program | fresh ids; tree induction; counterexample for the order |
| C20 | `tryNew` | |
| C21, C22 | `jacobian` program at ℝ | `HasDerivAt` along the product |
| C23 | `centerOfMass` | induction; linear functionals for the convex hull |
| C24–C29 | `Ik` programs with arbitrary `LinAlg` | loop invariants (`Unreached`) |
| C30, C31 | pure list functions | case analysis / induction |
| C32–C35 | `Urdf` builder with maps as association lists | induction over joints and links |
| C36, C37 | quaternions at ℝ | algebra, `Complex.arg`; Rodrigues' formula as spec of the rotation |
| C38, C51 | matrices as lists of columns at ℝ | linear algebra over Mathlib matrices |
| C39 | pure function at ℝ | `HasDerivAt` |
| C40 | histories of topology calls | rank invariant |
| C41, C42, C49, C50 | `Step` | lock-rank argument (`Lk`, `Keep`); explicit schedules |
| C43 | `display` program | tree induction |
| C44, C45 | pure / program | induction |
| C47 | reference-count model of drop (`Model/Memory.lean`), programs of API calls and drops (`Props/MemoryApi.lean`) | counting invariant, induction on ranks; every call is a sequence of memory steps (`Stays` for what it looks at and gives out, `Safe` for what it stores, `clone` by following its loops) |
| C52 | `PStep` | ownership invariant; explicit schedules |
| C54, C55 | all calls | frame lemma per call, induction on clients and schedules |
| C56, C57 | `Link` builder, URDF link conversion | induction on builder calls; entrywise |
| C58 | `jacobian`, `setJointPositionsUnchecked`, `endTransform` at ℝ | twist of a product of moving frames |
| C59 | `solveOneLoop` at ℝ | C58 and a contract on the linear algebra |
| C60 | `solve`, `IkSolver.default` | corollaries; equality of the two runs |
| C61 | `NodeImpl.display` | case analysis |
| C62 | setters, all non-excluded calls, `Step` | rely-guarantee logic (`Lemmas/Rely.lean`): the mutex of a master protects its position and those of its mimic children |
| C63 | node setters and getters | a record of what the getters show; each setter as a function on that record, for every node |
| C64 | `setJointPositionsClamped/Unchecked` | value at the place of the node among the movable nodes; induction over the zipped lists |
| C65 | all calls but `set_mimic_parent`, `clone`, `update_velocities`, printing; `Step` | simulation that executes each critical section at its unlock (`Lemmas/Atomic.lean`); serial executions in `Spec/Serial.lean`; schedules as witnesses of what is not atomic. With `DStep` (`C65_drops`, `Props/Down.lean`) for the node methods that follow no `Weak` |
| C66 | clients that keep guards (`Spec/Guards.lean`), all calls meanwhile, `Step` | every call touches only what it has locked (`Lemmas/Own.lean`), so the kept node is frozen; the lock-order invariant of C41 with guards; two-step schedules as deadlock witnesses |
| C67 | `jacobian`, `set_joint_position(s)` with mimic children, `end_transform`, solver step | the twist of a path of joint positions (as C58) with the path that the setter produces (C05, C07); two sliders as witness |
| C68 | `end_transform`, `solve_with_constraints` | triangle inequality along the fold; with C24 for the solver |
| C69 | all calls, `Step` | result logic under interference (`Lemmas/Answer.lean`): ownership of locks and frozen joint data; contracts in `Spec/Answers.lean` |
| C70 | sliding arms, real numbers | the Jacobian of a sliding arm is constant and exact, each try scales the difference by `1 - multiplier`; induction on tries (`Props/IkConverge.lean`) |
| C71 | all calls, `Step` | invariant logic that knows which locks a thread holds (`Lemmas/Invariant.lean`): the code after locking a held mutex never runs |
| C72 | loaded robots, real numbers | a separate relation `InBase` written from the URDF format (no quaternions); induction over the path to the base, composed with C07, C12, C32, C33, C36, C48 (`Props/UrdfFk.lean`) |
| C73 | every call of the API | per call an exact condition (`Call.Needs`; for `solve_with_constraints` under hypotheses on the chain, `C73_solve_iff` in `Props/SolveTotal.lean`), proved by induction over node lists; soundness is kept (C49, C16, topology frame); induction over client programs; `Halts` (no path reaches `diverge`) for threads (`Props/Total.lean`, `Lemmas/Halts.lean`) |
| C74 | `solve_with_constraints`, `jacobian`, `calc_pose_diff`, clamping | the pose error is strictly differentiable with derivative minus the Jacobian (`Lemmas/Smooth.lean`, `Lemmas/ArmCoord.lean`), a damped Newton step contracts near a zero (`Lemmas/Newton.lean`), induction over the tries keeps the joints near the solution and inside the limits (`Props/IkLocal.lean`); full rank at the solution gives bounded solutions nearby; instance and singular start in `Props/IkLocalEx.lean` |
| C75 | `end_transform`, `update_transforms`, `solve_with_constraints` over `Fl A` | error relations `SNear`, `VNear`, `QNear`, `INear` with one rule per operation (`Lemmas/Round.lean`), induction over the node list and over `Lineage`; composed with C12 and C24, which hold for every scalar; a biased arithmetic as witness (`Props/Round.lean`) |
| C76 | `Ancestors::next`, `Descendants::next`, loops of the user (`Spec/Loop.lean`) | the body keeps the links (`safe_topology`), so the stack is always the list of roots of the trees not yet visited; induction over the turns, in the `Safe` logic for threads; concrete loops for the bodies that change links (`Props/Loop.lean`) |
| C77 | `Model/Release.lean`: `try_new` and the solver with wrapping subtraction | `UpTo`: the release program equals the debug program except below an overflow panic, by structure; simulation in both directions for threads, also with drops; a sorted list whose `k`-th index is below `k` wraps to `W - 1` first (`Props/Release.lean`, cases in `Props/ReleaseEx.lean`) |
| C78 | `KError.text` (`Model/Errors.lean`) with arbitrary printing of numbers and vectors | the first six characters fix the kind; fields are split off at the first or last space (`Props/ErrorText.lean`) |
| C79 | `Range` | case analysis; over ℝ `clamp` is `max min (min x max)` (`Props/Ranges.lean`) |
| C80 | clients that keep guards and may panic anywhere (`GClient.crash`), `PStep` | invariant of executions with unwinding (`Lemmas/Unwind.lean`): who owns which mutex, which can be poisoned; the lock-order argument of C41 with poisoned mutexes; a concrete schedule (`Props/Crash.lean`) |
| C81 | `Constraints.deserialize`, `serialize` (`Model/Serde.lean`) | induction on the entries: what the loop of `visit_map` does to each variable (`Props/Serde.lean`) |
| C82 | all calls except `Node::new` and `clone`, `Step` and `PStep` | `Stays` (`Lemmas/Region.lean`): a program that stays in a closed region makes the same steps in every memory with the same nodes in that region; a simulation of each thread running alone (`steps_regions`, `psteps_regions`); a mimic link between the regions as the witness that the condition on links is needed (`Props/Region.lean`, words in `Spec/Region.lean`) |
| C83 | all calls, `DStep`, `PDStep` | the soundness proofs of the thread logics (`steps_safe`, `steps_lk`, `steps_inv`, `steps_ans`, `steps_rg`, `psteps_unwind`, `pdsteps_own`) take both answers of `upgrade` into account, so they cover drops at any moment; `Stays` for the drops that are not seen; a schedule with a drop in the middle of `update_transforms` (`Props/Drops.lean`). `Downward` (`Lemmas/Downward.lean`): programs without `upgrade` make the same steps whatever is freed (`C83_down` in `Props/Down.lean`, the calls in `Spec/Down.lean`) |
| C84 | `jacobian`, `center_of_mass` over `Fl A` | the rules of `Lemmas/Round.lean` for one column (`column_near`) and for the running sums (`ComNear`), a lineage is a sublist of the chain up to order (`Lineage.within`); composed with C21 for the derivative (`Props/RoundJacobian.lean`) |
| C85 | `Chain.setOrigin`, `solveWithConstraints` | simulation between the two memories (`Turned`: equal up to the origin of the root and the cached world transforms): poses are multiplied by `X` from the left, Jacobian columns and pose differences are rotated (`calcPoseDiff_turn`, `Turned.jacobian`), a step therefore computes the same positions (`nextPositions_turn`). Assumes that LU, SVD and pseudoinverse commute with rotating the row blocks (`LinAlg.TurnInvariant`), proved for exact linear algebra (`exactLa_turn`); concrete cases: a gantry of three sliders (`C85_gantry`), `C85_needs_isotropy` (`Props/Frame.lean`, `Props/FrameEx.lean`) |
| C86 | `solveWithConstraints`, `tryLoop` | a step does not look at the number of tries or at the tolerances (by definition); induction over the tries left: two loops agree unless the shorter one uses up all its tries (`tryLoop_tries`), then C29 identifies its answer; a narrower test that passes makes the wider one pass (`lt_of_lt_of_le'`); at the target the right-hand side is zero, so a step leaves the positions (`step_at_target`), with C69 for the only remaining error. Assumes `LinAlg.Homogeneous` for the last part, proved for exact linear algebra; concrete cases `C86_gantry`, `C86_gantry_stays`, `C86_at_target_gives_up` (`Props/Tries.lean`, `Props/TriesEx.lean`) |
| C87 | every call of `Spec/Api.lean` | `Spec/Blind.lean`: `UpToCaches`, `Client.Careful`, `Client.Steady`. A relational logic (`Two`, `Lemmas/Blind.lean`): two programs run in step on two memories, with a growing set of cached values that are known to be equal; `two_call` goes through all calls; a step of one thread keeps the relation for the others because every write keeps equal what was equal. `C87_failed` and `C87_retry` combine this with C25. Concrete cases `C87_tool`, `C87_gantry`; witnesses that the provisos are needed: `C87_uncomputed`, `C87_cut` (`Props/Unseen.lean`, `Props/UnseenEx.lean`) |
| C88 | every call of `Spec/Api.lean`; `Chain.clone` | `Spec/Rename.lean`: `Heap.rename`, `Client.rename` (a permutation of the node ids, applied to the contents of the memory and to the handles of a client), `OwnRobot`. `Prog.rename` conjugates a program; `Mirror` (`Lemmas/Mirror.lean`) says that one program is the other with the ids exchanged, `Mirror.call` (`Lemmas/MirrorCalls.lean`) goes through all calls. `C88_clone` shows with C19 that the memory after `clone` is a fixed point of exchanging original and copy. C19_clone and C19_path now also say that nothing but the new nodes changed. Concrete cases `C88_follower` and an example with two nodes exchanged; witness for branching robots: `C88_branch` (`Props/OtherNodes.lean`, `Props/OtherNodesEx.lean`) |
| C89 | every call of `Spec/Api.lean` except node creation and `clone` | `Spec/Units.lean`: `Units` (factors for length, mass, frequency and for the coordinate of every joint), `Units.heap`, `Call.inUnits`, `Call.Answer` (what the answer is in the other units), `LinAlg.UnitFree`, `Units.SolveFits` (the inverse kinematics tasks for which it holds). `Scaled` (`Lemmas/Scaled.lean`) says that two programs do the same in different units, `Lemmas/ScaledCalls.lean` and `Props/Units.lean` go through the calls. At `T := ℝ`. `LinAlg.UnitFree` is an idealisation: nalgebra treats singular values below the absolute bound `EPS = 0.0001` (`src/ik.rs:242`) as zero, which depends on the units near singular poses; exact linear algebra satisfies it (`exactLa_unitFree`). Concrete cases `C89_gantry` (metres and millimetres), `C89_lookFar`; witnesses for the tasks left out: `C89_mixed`, `C89_ignored` (`Props/UnitsEx.lean`) |
| C90 | `chainFrom`, `Chain.fromRoot`, `Chain.iterJoints`, `Chain.jointPositions` | `Spec/Urdf.lean`: `Robot.jointsAt`, `Robot.baseJoints` and `InOrder` speak of the file only; `TreeOf` (C32) now also fixes the order of the children of every node and of the nodes of the chain. `C90_order`, `C90_siblings` (what of the file matters), `C90_links` (permuted links: the same result and the same memory). Witness `C90_not_file_order` (a branching robot lists its last branch first), `C90_two_bases` |
| C91 | every call of `Spec/Api.lean` except node creation and `clone` | `Spec/Coords.lean`: `Coords` (sign and shift of the coordinate of every joint), `Coords.heap` (the same robot in other coordinates), `Call.inCoords`, `Call.Reads` (what the answer is then), `LinAlg.SignFree`, `Coords.SolveFits`. `Recast` (`Lemmas/Recast.lean`) says that two programs do the same in different coordinates. At `T := ℝ`; `LinAlg.SignFree` holds for exact linear algebra (`exactLa_signFree`) and, unlike `UnitFree`, has no cut-off that could disturb it (signs do not change singular values). `update_velocities` is included for turning joints, and for sliding joints whose zero stays. Concrete cases `C91_gantry`, `C91_lookAway`, `C91_limits` (with a joint that mimics); witnesses for what is left out: `C91_display`, `C91_ignored` (`Props/CoordsEx.lean`) |
| C92 | `set_joint_positions` (all variants), `joint_positions`, `end_transform`, `jacobian`, `solve_with_constraints` | `Spec/Kinematics.lean`: `ArmCall`, `ArmClient` (programs that use one serial robot), `SameEnd`, `segments` (the transforms between movable joints); `SameRobot` (`Props/Kinematics.lean`): same names, limits, positions and the same pose after `moveTo`, for all positions. At `T := ℝ`. The Jacobians are the same because the columns are derivatives of the pose (`jacobian_core`, the lemma behind the Jacobian property) and derivatives are unique. Concrete cases `C92_stand`, `C92_axis`; mimic relations are seen: `C92_mimic` (`Props/KinematicsEx.lean`) |
| C93 | all 45 calls except node creation and `Chain` cloning; threads | `Spec/Shared.lean`: `InSight`, `Chain.Of`, `Call.Uses`/`Call.Shows`/`Client.Works` (a thread changes its nodes only and looks at these and the common ones), `OnBase` (disjoint arms, base alive, unlocked and with computed transforms). `iter_links`, `update_velocities`, `update_link_transforms`, `Display` and `iter_descendants` are allowed on the thread's own nodes only. Results are compared with `run` of the client alone. Concrete case: two arms on a torso, one thread solves IK with any solver, the other moves its arm and updates transforms (`Props/Shared.lean`); `C93_known_needed` shows that the precondition on the cached transforms is needed |
| C94 | all 45 calls; threads | `Spec/Cost.lean`: `Tally` (executions with the number of acquisitions of each thread; `C94_every_execution`: these are all executions), `acquisitions` (one thread alone), `Call.Locks` (the number when the call returned, for every result), `Call.Most` (at any moment), `Client.Locks`/`Client.Most` (sums). Nothing is said about `Display` and, at any moment before the return, about the calls that walk along links. Concrete case: joint with two mimic children and a child node, both bounds of `set_joint_position` reached; `C94_few_needed`: the bound `M` has to hold all the time |
| C95 | `end_transform`, `local_transform`; `jacobian`; `set_joint_positions`, `solve_with_constraints` | `Spec/Sway.lean`: `chord`, `extent`, `sway`, `turning` (written over lists of joints and new positions, without the model's fold). Induction along the chain from the end, old lengths. Over the reals and for unit axes and rigid origins (`AllRigid`). Concrete case: the crane, where the bound is an equality (`C95_tight`). `C95_jacobian` (serial chain from the root) follows from the derivatives of C21 and the bound |
| C96 | the six position setters; threads | `Spec/LastWrite.lean`: `Setting` (the calls), `Setting.writes` and `Setting.answer` (what a call writes and answers, from kinds, limits and mimic data of the start), `lastTo`. `Lemmas/LastWrite.lean`: `Traces` follows the writes of a program to one node, `Track` those of all threads. Other calls are not mixed in. Concrete case: a master with two followers, one of which refuses; two threads racing for a follower |
| C97 | `solve_with_constraints` with as many free joints as constrained coordinates; `jacobian` | `Spec/Singular.lean`: `Singular` (a rate vector that leaves the constrained coordinates at rest), `LinAlg.Pivots` (the assumption about nalgebra: LU gives a solution exactly if the determinant is not 0; true of exact arithmetic, `exactLa_pivots`), `TurnsAbout`, `SlidesAlong`. With floats nearly singular poses give huge steps or errors; nothing is claimed about them. Concrete cases: the planar arm of two bars, two joints on one axis, two parallel sliders |
| C98 | every call of the API | `Spec/Flip.lean`: `Flip` (which coordinates change sign), `Client.Mirrored`, `SignLaws` (laws of signs of the number type; true of ℝ, of reals with NaN and of `Fl A` with rounding that does not prefer a sign; for `f64` the two zeros have to be identified), `LinAlg.RowSignFree` (the assumption about nalgebra: solutions do not depend on the signs of the equations; true of exact linear algebra, `exactLa_rowSignFree`). Concrete cases: a right and a left arm, a gantry, a client, the text of a chain (changes), rounding upwards (not mirrored) |
| C99 | `set_joint_position*`, `update_transforms`, `center_of_mass` | `Spec/Swing.lean`: `jointMotion` (turn about a line, `Iso.turnAbout`, characterised by Rodrigues' formula in `C99_turn`; shift), `Hangs` (reachable going from node to parent); `JointMoved` (only the joint `k` moved). Exact reals. Concrete cases: toppling a tree of two masses (center of mass and its derivative), poses of the branches of that tree |
| C100 | `set_parent`, all of `Call` except `children`, `iter_descendants`, `from_root`, `clone`, `Display` (which list in another order) | `Spec/Siblings.lean`: `SameTree` (equal up to permutation of children), `SibEnd`, `Call.OrderFree`, `attachAll`; `Lemmas/Orderless.lean`: programs that do not notice the order. Listings as permutations of lists of pairs. Concrete case: a torso with two arms in both orders, where one call moves different arms; a child connected twice |
| C101 | `set_parent`, `remove_parent`, `from_end`, `end_transform`, `update_transforms`, `jacobian`, `center_of_mass` | `Props/Mount.lean`: `Mounting` (two disjoint rooted arms, one `set_parent`), `Chain.followedBy`, `carriedColumn` and `seenColumn` act on columns as lists. The end of the first arm must not have been dropped (else `parent()` does not see it). Concrete case: a third link on the planar arm of C97, with loads |
| C102 | `Node::new`, `Clone for Chain` and all other calls of `Spec/Api.lean`, in threads | `Spec/Builders.lean`: `Client.Owns` (uses own handles and those it gets), `Client.Nameless` (commutes with exchanging objects that do not exist yet), `Like` (same content up to the names of objects); `Props/Builders.lean`. Extends C82, whose clients create no nodes. `C102_poison` lets other threads panic and poison. Not covered: handles dropped meanwhile (see C83). Concrete case: two threads that start with an empty memory and each build a rail |
| C103 | `solve_with_constraints` with `ignored_joint_names` | `Spec/Frozen.lean`: `indicesOf`, `Joint.welded`, `NullspaceAgrees`, `SameButHeld`; `Props/Frozen.lean`: `Frozen` (same end, joints held), `Welded` (joints fixed in place). The Jacobian of the second robot is that of the first without columns because both are derivatives. Refuted for as many joints as coordinates (`C103_equal_refuted`, cf. `C26_refuted`). Concrete case: a gantry with the slider y at 2 ignored or bolted |
| C104 | target of `solve_with_constraints` | `Spec/Target.lean`: `SameRequest`, `HalfTurn`, `Iso.otherSign`; `Props/Target.lean`: equality of programs for the unconstrained coordinates, equality of runs for the sign. nalgebra's `axis()` decides the sign by `w >= 0`, so at `w = 0` both signs are kept: refuted there (`C104_half_turn`). Concrete cases: only x constrained (`C104_only_x`); an arm with limits of one radian (`C104_gated`) |
| C105 | names in all calls of the API | `Spec/Labels.lean`: `Labels`, `Call.named`, `Call.NamedAnswer`, `Client.SameNamed`; `Lemmas/Labels.lean`: simulation `Alias` in both directions; `Props/Labels.lean`: sequential, one call, threads both ways. Display's text is not compared. Concrete cases: all names prefixed (`C105_prefix`, `C105_find`, `C105_solve`); one name for all joints is refuted (`C105_one_name`) |
| C106 | limits in all calls of the API | `Spec/Loose.lean`: `Allows`, `Loosening`, `Client.Loosens`; `Lemmas/Loose.lean`: simulation `Loosened` for the calls that do not look at limits, `LooseAt` for the checked setters (sequential, as the state read must be the one written); `Lemmas/Eased.lean`: the same for threads - `Eased` remembers what a thread has seen of the node it holds, and the lock discipline of all calls (`own_call`) keeps the others from changing it; `Config.LocksExist` excludes locks of nodes that are created later and holds for clients that create none (`C106_built`) and for clients that only use handles they were given (`C106_handles`); `Props/Loose.lean`. Refuted for the clamped setter (`C106_clamped`) and for the success of `solve` (`C106_solve`). Concrete cases: `C106_slide`, `C106_slide_runs`, `C106_two`, `C106_two_runs`, `C106_two_made` |
| C107 | the calls that only ask beside all other calls; `DStep`, `PDStep` | `Spec/Watch.lean`: `Call.Asks`, `Call.AsksBriefly`; `Lemmas/Watch.lean`: `Looks` (writes nothing), `Glance` (one lock at a time), simulation `Watched` in which the steps of the observers are stutters, and the observers let go of their locks (`catch_up`); `Props/Watch.lean`. Refuted for `iter_links` with poisoning, for printing and for calls that store what they compute (`C107_links_noticed`, `C107_display_noticed`, `C107_update_noticed`) |
| C108 | `PDStep` (poisoning) against `DStep` | `Lemmas/Jammed.lean`: simulation `Jammed`: poisoning steps are stutters, a poisoned mutex is a held one, and no thread writes a node without holding it (`Own`); `Props/Jammed.lean`: `C108_nodes` carries invariants over, with C04 and C62 as cases. C62 itself is refuted with poisoning (`C108_halfway`), with what is needed instead (`C108_mimic`) |
| C109 | `Spec/Sign.lean` (`EitherSign`) | `Lemmas/Signed.lean`: relational programs `Signed`, one lemma per call, under the sign laws of C98; `Props/Sign.lean`: clients, calls, threads in both directions, `C109_same_orientation` (the relation is exactly "same orientation" for unit quaternions), `C109_solve` for constrained rotations away from half turns, `C109_passes` (`Props/WindIk.lean`) when only the postures passed are away from half turns; at a half turn refuted (`C109_half_turn`) |
| C110 | `Spec/Wind.lean` (`Winding`, `Wound`) | `Lemmas/Wound.lean`: relational programs `Winds W`, one lemma per call; `Props/Wind.lean`: clients, calls, threads in both directions, `C110_reference` (nullspace functions), `C110_converges` (C74 from any number of turns); refuted with limits (`C110_limits`) and for mimic joints (`C110_mimic`). `Props/WindIk.lean`: `C110_solve`, inverse kinematics with any constraint, unless an iterate is exactly half a turn from the target (there C109 is refuted) |
| C111 | `Spec/Cargo.lean` (`View`, `Reloaded`) | `Lemmas/Carried.lean`: relational programs `Carried V`, one lemma per call, for any scalar type; `Props/Cargo.lean`: clients, calls, threads in both directions, `C111_solve`; what is seen: `C111_center_of_mass`, `C111_display` |
| C112 | `Spec/Rehang.lean` (`Rehung`, `Without`) | `Lemmas/Hung.lean`: relational programs `Hung D`, one lemma per call; `Props/Rehang.lean`: clients, calls, threads in both directions, `C112_attach`, `C112_detach`; what is seen: `C112_listed`, `C112_tool_itself` |

## Trusted base

* Lean's kernel (4.33.0) and Mathlib's definitions used in statements (`ℝ`, `HasDerivAt`, `Matrix`,
  `Real.sin`, `Real.cos`, `Real.sqrt`, `Complex.arg`).
* Axioms: every manifest theorem depends on a subset of `propext`, `Classical.choice`, `Quot.sound`
  (`AXIOMS.md` lists them theorem by theorem; written by `tools/axioms.py`). No `sorry`, no own axioms, no `native_decide`/`bv_decide`.
* The reading of the Rust source into the model, definition by definition.
* The semantics given here to code outside `/repo`:
  * `std::sync::Mutex`: not reentrant, locking a held mutex blocks for ever if the holder is the same
    thread, unlock at the end of the guard's scope (temporaries at the end of the full expression or, in
    a `match`/`if let` scrutinee, of the statement), poisoned by a panic while held.
  * `Arc`/`Weak`: `upgrade` fails exactly when no strong handle is left.
  * nalgebra: `Isometry3`, `UnitQuaternion`, `Unit`, `Translation3` formulas (`Model/Geom.lean`), SVD of a
    matrix without rows panics, `remove_row`/`insert_row` panic out of range.
  * `urdf_rs`: only its data types; defaults of absent elements as in `Model/Urdf.lean`.
  * integer overflow checks are on (debug profile). `Model/Release.lean` is the release profile, where the
    subtractions wrap; C77 says when the two agree. What nalgebra does with an index from a wrapped subtraction is
    left open there (an arbitrary program).

## What is modelled

| source | modelled | not modelled |
|---|---|---|
| `joint/joint.rs` | all of `Joint`, including both caches | `Debug` |
| `joint/range.rs`, `mimic.rs`, `velocity.rs`, `joint_type.rs` | all, with the text of the joint type | |
| `node.rs` | `Node`, all methods, `NodeBuilder`, `connect!`, guards inside the library's own calls and guards kept by the user (C66), also when the user's code panics (C80) | dead code (`ParentRefGuard`) |
| `iterator.rs` | all: collected (`ancestors`, `descendants`) and one item at a time (`Ancestors.next`, `Descendants.next`), C76 relates the two | |
| `chain.rs` | all of `Chain` and `SerialChain`, with the text of `Display` | |
| `funcs.rs` | all | |
| `ik.rs` | all, with and without overflow checks | inside of nalgebra's solvers, `Debug`; the code that `derive(Serialize, Deserialize)` generates for `Constraints` is modelled after serde 1.0 on trees of values (C81), not the text formats |
| `link.rs` | all | |
| `urdf.rs` | all conversions, both maps | reading and parsing the file (`from_urdf_file`), `urdf_rs` |
| `errors.rs` | the variants, their fields and texts | conversion of numbers to `f64`, how numbers and vectors are printed |

Also not modelled: logging, stack depth of recursive drops, allocation failure, more than
`usize::MAX` handles, a temporary strong handle from `upgrade` being the last one at the moment it is
dropped.

## Validation of the model (tests, not proofs)

`Verif/Validation/RepoTests.lean` is a test; no theorem depends on it. It runs the model's own
definitions on `Float` and evaluates the assertions of the tests and documentation examples of `/repo` that speak of
modelled code: `tests/test_chain.rs`, `tests/test_ik.rs`, the unit tests of `chain.rs`, `funcs.rs`, `ik.rs`,
`urdf.rs`, and the asserts of the documentation of `chain.rs`, `node.rs`, `joint/*.rs`, `urdf.rs`. No code of `/repo`
runs. `urdf/sample.urdf` becomes a Lean value through `tools/urdf_to_lean.py`; `nalgebra`'s `lu` and `svd` are
replaced by elimination. It raises confidence that the model is the program and proves nothing. Run it with
`cd lean && lake env lean --run Verif/Validation/RepoTests.lean`. All assertions hold.

## Disagreements between code and expectation

Proved as theorems unless noted.

* `update_velocities` locks the joint of a movable node while the guard from the `match` is still held:
  it blocks for ever on any chain with a movable joint (C16).
* No public call gives mutable access to a joint inside a node, so `set_joint_velocity` has no effect
  on nodes (C54).
* `clone` of a chain reverses the order of siblings, asserts that the first node is a root and panics when
  a (mimic) parent is outside the chain (C18, C19).
* `update_link_transforms` uses the parent's pose instead of the node's (C17).
* The Jacobian of a chain cut below the root mixes two frames, and panics if the pose of the parent is not
  cached (C22).
* The reference-position nullspace function is added, so it drives away from the references (C51).
* IK: with ignored joints and no redundancy the increments go to the wrong joints (C26); a failed solve
  does not restore joints that are out of limits or follow a joint outside the arm, and its error is then
  replaced by `OutOfLimitError` (C25, C28); `num_max_try = 0` panics (C29); more ignored names than
  joints panics (C28); duplicate names panic or remove the wrong column (C31); no constrained coordinate
  with a joint panics in nalgebra.
* `set_joint_positions` is not atomic (C08); mimic is not transitive and is not followed by the clamped and
  unchecked setters (C05, C06); the clamped setter stores NaN (C02).
* `set_parent` on a node that has a parent leaves it in two child lists, cycles make traversals diverge
  (C40); `is_root` does not check that the parent is alive (C47).
* `set_origin` does not clear the velocity cache; poses cached below a moved joint stay (C15).
* `SerialChain::try_new` panics on an empty chain and counts children outside the chain (C20); `Display`
  of an empty chain panics (C43).
* URDF: the last of duplicate child links wins, joints on a cycle are dropped silently, an unknown mimic
  joint panics, limits are dropped iff `upper - lower = 0`, `lower > upper` panics, a zero axis gives
  NaN, a joint whose parent link is not declared goes to the root (C32, C33); `joint_to_link_map` is wrong
  for the root (C35).
* A parent that mimics its own child is never freed (C47).
* `NodeBuilder` limits that do not contain 0 give a joint that starts outside its limits (C45).
* `iter_links` racing with `set_link(None)`, and `jacobian` racing with a setter, panic while holding a guard
  and poison the mutex for all threads (C52).
* A method of a node called while the same thread keeps a guard of that node blocks for ever; guards taken in
  different orders, also by collecting `iter_joints()`, can deadlock (C66).
* The column of `jacobian` for a joint with followers is not the derivative under `set_joint_position`, and
  the solver does not move followers (C67).
* `MimicError` is never returned: the branch that would build it first locks mutexes that the call itself
  holds, so the call blocks instead (C69).
* The default solver (10 tries, multiplier 0.5, tolerance 0.001) cannot reach a target 1.024 or more away, even
  with sliding joints without limits; a multiplier of 2 or more never converges, although `new` accepts it (C70).
* World velocities are always `None` or zero; the velocity formulas for movable joints never run (C71).
* From a singular start the solver fails with `InverseMatrixError` although the target is reachable (C74).
* The solver takes a step before it compares the pose with the target: an arm that is exactly at the target can get
  `InverseMatrixError` (C86).
* Loading a URDF does not apply mimic offsets: all joints start at 0 (C72).
* The text of `PreconditionError` asks for a dof "greater than" the number of constraints although equality is
  accepted (C28, C78). The text of `OutOfLimitError` prints the upper limit before the lower one (C78).
* In a release build, a first movable joint named twice in `ignored_joint_names`, or more (known) names than degrees
  of freedom, calls nalgebra's `remove_column(usize::MAX)` (C77). A range check written as `i + 1 <= ncols` wraps to
  `0 <= ncols` and passes, so this can be a memory error reachable from safe calls; the source of nalgebra is not
  available here, so the model leaves the effect open. `SerialChain::try_new` of an empty chain is accepted.
* A panic of the user's code while a guard of a mimic child is kept makes `set_joint_position` of the master panic
  after the master has moved and before the child has; the master is then lost as well (C80).
* A call can see a parent and then not see it: `update_transforms` while the last handle to the common parent of two
  nodes of the chain is dropped mixes the poses before and after the drop (C83).
