# Design of the formal model of tvm

## Trusted base

* Lean 4.33.0's kernel. Every property theorem depends on at most the three standard axioms
  `propext`, `Classical.choice`, `Quot.sound`. `AXIOMS.md` lists the output of `#print axioms` for each theorem named
  in `MANIFEST.json`.
* No axiom, `sorry`, `admit`, `native_decide`, `bv_decide`, `implemented_by` or `unsafe` of our own.
* The hand translation from the C++ of `/repo` to Lean. Each definition cites the file and lines it models
  and says where it simplifies. Nothing ties the two mechanically.
* `double` is modelled by an ordered field (`Rat` or `Real`, or a generic `LinearOrderedField`): rounding,
  NaN, infinities and overflow are *not* modelled. `int` is modelled by `Int`/`Nat`: integer overflow is not modelled.
* Eigen is modelled by functions/matrices over the field. Allocation, aliasing of Eigen temporaries and
  exceptions thrown by `std` containers other than the ones cited are not modelled.
* SpaceVecAlg is modelled by `Model/Sva.lean`, after its documented conventions: a transform is a rotation `E` and a translation `r`,
  `X_b_c * X_a_b = X_a_c`. RBDyn is represented by its inputs (the joints with their names and sizes, jacobians as matrices).
* C++ undefined behaviour, when it can be reached, is a distinct outcome of the modelled function.

## Layout

* `Verif/Model/*.lean` – model of the code, function by function.
* The specification of a property is at the top of its property file (section "Specification"), independent of the model's helpers.
* `Verif/Lemmas/*.lean` – helper lemmas.
* `Verif/Properties/*.lean` – the property theorems, named `Cnn_...`, each followed by non-vacuity examples.

When a property is false of the code, the theorem `Cnn_..._false` proves the negation on a concrete witness and
`Cnn_..._partial` proves the strongest true restriction.

## Per property plan

| id | what is modelled | how it is proved |
|----|------------------|------------------|
| C01 | `Range` (Range.h) as a pair of integers with the same boolean formulas | `omega` on the set reading; counterexamples for empty ranges |
| C02–C06 | `RangeCounting` (RangeCounting.cpp): the `std::list` of limits with the cursor loops of `add`/`remove`/`ranges`/`maxCount` | abstraction function `count : limits → Int → Nat`; refinement lemma for each loop; invariant by induction over histories |
| C07–C08 | `VariableCountingVector`: map root id → (range counting, counter), cached list and the `upToDate_` flag | refinement to per-root counts; cache invariant `upToDate → cache = recomputed`; for C08 a concrete stale history |
| C09–C10 | `DependencyGraph::order`: DFS with the three-state marks and the two vectors | DFS invariant (processed set closed under dependencies, stack path); completeness on acyclic graphs; `decide` for the dropped cycle |
| C11 | `addNode`, `addEdge`, `removeNode` on `edges_`, `children_`, `roots_` | representation invariant and comparison with the induced subgraph |
| C12 | `DisjointSet` and `groupedOrder` | union-find invariant: same root iff connected by processed edges |
| C13 | `reduce`/`SCCUtil` (Tarjan) | Tarjan's invariant; specification by mutual reachability |
| C14–C15 | `CallGraph` construction: memoised recursion on outputs and calls over an abstract network; plan from `order` | induction on fuel/measure of the recursion, reuse of C09; dataflow semantics of `execute` |
| C16–C21 | `MatrixProperties` as the same enum/bool computations, outcomes may be `throw` | finite case analysis over the labels plus Mathlib lemmas on real matrices for each case |
| C22–C24 | `VariableVector` and the mapping cache `startIn_` with stamps | invariants by induction over histories |
| C25–C27 | memory model: root buffers `Nat → ℝ`, variables as (root, shift, size); derivative constructor with its zeroing | frame lemmas; for C27 a concrete witness |
| C28 | `Space` sizes | arithmetic |
| C29 | `PairElementToken`: store of handles and nodes with mates | symmetry invariant by induction over operations |
| C30 | `CallbackManager`: list of callbacks, tokens alive or not | induction over histories |
| C31 | `ProblemComputationData::addEvent` | simulation relation between compressed queue and full history |
| C32 | `SolverEvents` `addIfPair` | set algebra, induction over notifications |
| C33 | `LeastSquareSolver` row ranges, build and process | tiling invariant |
| C34–C38 | `Assignment`: table of conventions, compiled operations, weights, bounds | case analysis over conventions, ordered field arithmetic, induction over the list of bounds |
| C39 | substitution terms of `Assignment` | linear algebra on Mathlib matrices |
| C40 | `CompiledAssignment` kernels | case analysis |
| C41 | `isBound`, `canBeUsedAsBound` | case analysis with the box semantics |
| C42 | `DiagonalCalculator` | index lists and explicit entries |
| C43 | `SubstitutionUnit` algebra | Mathlib matrix algebra; induction over the chain |
| C44–C47 | task dynamics update formulas | ordered field arithmetic; induction over trajectories for the damper |
| C48 | `LinearizedTaskConstraint` | linear algebra |
| C49–C50 | `ControlProblem`, `LinearizedControlProblem` task list and constraint map | state invariant; witness for the failing removal |
| C51–C52 | `WeightedLeastSquares::processProblem` | list induction |
| C53 | `BasicLinearFunction` from `AffineExpr` | sum rearrangement using C02/C07 |
| C54 | `VariableVectorPartition` iterator | induction |
| C55 | `ProtoTask` operators | case analysis |
| C56–C57 | `Inputs`, `Node` registration | state invariants |
| C58 | `SchemeAbilities` | decision logic |
| C59–C63 | the whole of `ControlProblem`, event queue, `WeightedLeastSquares`, `SolverEvents` and `LeastSquareSolver::process` put together as one transition system | invariants by induction over the sequences of calls; witnesses for what is false |
| C64 | motions over the reals that obey the dynamics of C47/C48 | derivative of the error times an exponential (monotonicity, mean value) |
| C65 | the flags of `VariableCountingVector::simple` | invariant over histories of additions, comparison with the list of calls |
| C66–C67 | the members of the four least-squares solvers, what each resolution hands to QLD, Quadprog, LSSOL, LexLS; uninitialised memory is an arbitrary content | invariant over histories of build/resize/solve (which entries are zero), then equality of the costs up to a constant and equivalence of the constraints |
| C68 | `processProblem` of `HierarchicalLeastSquares` and the members of the hierarchical LexLS solver | invariant over the histories of resolutions (rows of each level, zero entries), then equality of the violations level by level |
| C69 | the problem, its queue of events and the hierarchical scheme as one transition system | invariant over the histories of calls: the tasks without an event in the queue are those the solver was built from; witnesses for what is false |
| C70 | `Substitution`, `Substitutions`, `group` and `extractSubstitutions`, over the model of the dependency graph | invariant over the histories (graph = relation "uses"); `finalize` by the theorems on `reduce` and `groupedOrder` (C12, C13), then C43 unit by unit |
| C71 | `finalize` with the checks of the constructor of `Substitution` | the sizes of the members of a group add up when their variables and constraints are different; two witnesses |
| C72 | `additionalVariables_` | invariant over the histories; witness for the negation |
| C73 | `SubstitutionCalculatorImpl`, `GenericCalculator`, `AutoCalculator`; the factorization is a parameter with its specification | invariant over the histories of updates (what is stored is right for the last matrix, or for the constant one); back substitution is the unique solution; the rank by the dimension of the kernel |
| C74 | `Contact::Id` and its comparison, names in any linear order | case analysis; witnesses by `decide` |
| C75 | the constructor of `Contact`, over `Sva` (rotation and translation with the composition of SpaceVecAlg) | the transforms form a group on orthogonal rotations; equality of the points iff they commute |
| C76 | `JointsSelector`: sort of the names, grouping into blocks, `updateJacobian`, `updateJDot`; fresh memory is a parameter | invariant of the grouping loop (the blocks cover exactly the active columns); induction over histories |
| C77 | `UpdatelessFunction`: the recursions over the arguments, on a store of the variables | induction over the arguments; the two ways to give values as a specification on lists |
| C78 | `checkFunction.cpp`: finite differences, the loops of `checkJacobian`, one step of the other two checks; random numbers are parameters | the loops reduce to the first column; affine functions by linearity of the differences; negations on small functions |
| C79 | `Frame::updatePosition`, `updateJacobian`, `updateVelocity`, `updateNormalAcceleration`; the position, the velocity, the jacobian and the normal acceleration of the body are inputs | the specification is derived from the position (derivatives over the reals); exact conditions by ring identities |
| C80 | `geometry::Plane` and its setters, `CoMInConvexFunction`; the centre of mass is an input | invariants over the calls on a plane; derivatives over the reals |
| C81 | the constructor of `FrictionCone` over the reals (`AngleAxis` by the formula of Rodrigues) | closed form of the generators in the frame; convexity for the inside; the sector of a direction for the inner cone |
| C82 | `DynamicFunction`: contacts, variables, matrices of the forces, reported forces, constraints; the jacobians of the bodies are inputs, the cone is a parameter | invariant over histories (variables of the contacts are distinct); the sum over the variables splits by contact; power of a couple and a force on a motion |
| C83 | `FirstOrderProvider`, `MapWithVariableAsKey::at`, `splitJacobian`; the ids order the maps | invariant over histories (keys of the maps = variables, pairwise disjoint, sizes); the entry found for a part is the unique one; split by induction on the variables |
| C84 | `BasicLinearConstraint` (constructors and setters), `Constraint`, `RHSVectors`, `LinearConstraint::updateValue` on top of C83 | exact conditions of each constructor by induction on the terms; the set is specified from the documentation of the enums, independently of the members |
| C85 | `Robot` (sizes, `map2bound`, `updateTimeDependency`, `updateNormalAcceleration`), `Clock`; RBDyn's integration and motion vectors are parameters | ranges of the joints are disjoint and cover the vector; induction on the limits; induction on the events for the integration; the tree order for the normal accelerations |
| C86 | `CollisionFunction`; the query of sch and the kinematics of RBDyn at a point are parameters | invariant over histories (objects match the hulls); exact condition of definedness; the velocity is insensitive to which closest point is used because the difference is along the normal; jacobian by linearity; derivative of the distance over the reals |
| C87 | `GeometricContactFunction` (velocity, jacobian), `CoMFunction`, `PositionFunction`, `PostureFunction` on top of C79, C83, C85; RBDyn and `rotationError` are inputs | products by C83_split; the vectors written are the concatenations over the joints, by induction on the joints |
| C88 | `Function`, `LinearFunction`, `BasicLinearFunction` and `IdentityFunction` on top of C83; fresh memory is a parameter | invariant over the calls; the value as a sum over the jacobians, and the change of this sum when a term is accumulated into a block of columns; derivatives by `HasDerivAt` |
| C89 | `Outputs`, the macros `SET_OUTPUTS` and `DISABLE_OUTPUTS`, `is_valid_output`, `OutputSelector`; a class is its line of inheritance, as a list | induction on the line; invariant over constructors and calls: the vector holds the last thing asked |
| C90 | what an `Assignment` records (variable, column range, methods of the target), `onUpdatedTarget`, `onUpdatedMapping`, `changeData`; buffers are numbered | redirecting commutes with every step of the construction; invariant over the life of an assignment; the run is related to the model of C37-C43 |
| C91 | the log, its searches, `followUpDependency`, `subGraph`; what nodes, inputs and graphs write to the logger. Names, types and the dot output are not modelled | a variant (stacks plus dependencies of what is not visited) bounds the iterations; invariant of the worklist; two invariants over histories relate the log to the nodes |
| C92 | `GraphProbe::followUp` for an output, an update and a graph; values, accessors and printing are reduced to one truth value per output | the two recursions are turned into one loop over all dependencies; strong induction on the number of dependencies of what is not processed; the tree is described by its nodes with children |
| C93 | `SolvingRequirements`, `SingleSolvingRequirement` and its children, the callbacks that `ControlProblem` registers on the tasks; one scheme that reads the requirements again at each event; the queue without compression (C31) | invariants over all histories: tokens match the tasks, what the queue will tell is the current requirements; negations by histories |
| C94 | `ControlProblem::Updater`, `finalize`, `update`, and what `LinearizedControlProblem` asks from them, above the call graph of C14 | invariants over all histories (inputs are the constraints, the plan is that of the inputs when the flags say so), then C14 and C15; negations by histories |
| C95 | The run of all the assignments of a `LeastSquareSolver` on the matrices of the four derived classes, along its life (`Model.SolverAssembly`): the models of C33/C60, C34/C36/C38 and C66 composed | the assignments of a life are sound and tile the rows (C33, C60); running them is the summary `assign` of C66 (refinement); hence a history of C66; rows mean sources (C34), weights (C36), bounds (C38); then C66 |
| C96 | `ResolutionScheme::solve` with `WeightedLeastSquares::solve_`, the sources and data of the assignments with substitutions, the unknowns (`Model.ResolutionValues`), on top of C95 and C70 | the values at a point of the solver are those of the variables it represents, so that the two problems are the same; any values that satisfy the constraints are represented (C70); then C95 |
| C97 | what the solvers see of the constraint of a task (`Model.TaskResolution`), on top of C48, C64 and C96 | the value of the constraint is the differential of the function at the derivatives decided (C48), so that its residual is the error of the task; the chain rule with right derivatives; comparison with the exponential for the loop; a null sum of squares with positive weights for the objectives that can be achieved; resolutions at every time, or every `dt`, give the hypotheses of the loops |
| C98 | the assignments of `Model.Assignment` run on the levels of LexLS (`Model.HierarchicalResolution`), on top of C68, C34, C38 and C96 | what the runs leave in the levels are the values assumed by C68, by induction over the assignments; the violations of the levels at a point are the weighted violations of the constraints of the user for the values it represents; then C68 and C70 |
| C99 | `AssignmentTarget`: its constructors, accessors, setters and `changeData` (`Model.AssignmentTarget`), a member that is not written is `none` | cases on the constructors; induction over the calls for the conventions; the blocks are compared coefficient by coefficient with the rows of the range |
| C100 | `isInMatrix` on addresses, sizes and strides that are any integers, `%` of C++ with division by zero a distinct outcome; `hasElemAbsInRange` (`Model.DiagnosticMatrix`) | quotient and remainder, compared with the set of addresses of the coefficients |
| C101 | `ObjectWithProperties`, `KeepProperties`, `slice_matrix`, and the writes of jacobians with properties (`Model.MatrixWithProperties`), on the matrices of C83 and the properties of C16 | induction over the calls, with the list of the values since the properties were stated; the meaning of the properties is that of C16 for square matrices, and for the others only constant and zero may be claimed |
| C102 | `OrientationFunction` (`Model.OrientationFunction`) on the frames of C79; `rotationError` is an input that meets its documentation (axis times angle, in the world; such functions exist, `exists_error`) | derivative of Rodrigues' formula with `Real.sinc`; the motion of the axes determines the angular velocity, and the difference with the derivative of the value is computed: null iff the two are parallel |
| C103 | `GeometricContactFunction::updateValue` (`Model.ContactValue`) with the velocity of C87; `transformError` is an input, any for the value and for the negation, its documentation for the derivative | list induction over the updates; derivative of the relative position from the motions of C79, with C102 for the orientation; two placements of the same relative motion for the negation |
| C104 | `BufferedMatrix` (`Model.BufferedMatrix`): the buffer with its identity and its size, maps; the reference returned by `operator=` is not modelled (it always refers to a temporary that has ended) | invariant over the sequences of calls; `2 ^ (k + 1) ≤ size + 2` after `k` allocations |
| C105 | `is_malloc_allowed`, `set_is_malloc_allowed`, `override_is_malloc_allowed`, `restore_malloc_allowed` and the macro (`Model.MemoryChecks`), with the calls made by `ResolutionScheme::solve`; the flag of Eigen has one copy per binary, an assertion that fails is `none` | induction over the sequences of calls |
| C106 | `parseSourcesAndOutputs`, `generateUpdateGraph` (`Model.UpdateGraph`) on the models of `Inputs` and `CallGraph`; the overload is chosen by the kind of the next argument | the outputs asked are given by a declarative specification on the list; induction over the arguments, then C14 and C15 |
| C107 | `event::Source` and `event::Listener` (`Model.EventSource`); the answers of a listener are lists of registrations and ends of listeners. `Model.EventNetwork`: any number of sources, answers that notify; the depth of the stack is a parameter and the theorems say when some depth suffices | induction over the registrations and over the programs; for networks, induction over the depth, and over the accessibility of the relation "leads to" |
| C108 | `ConvexHull`, `utils::transform` (`Model.ConvexHull`); the object of sch is the matrix it was given | algebra on coordinates, derivatives from C79 |
| C109 | the loop of `fromURDF` (`Model.RobotLoading`), `paramToVector` as the concatenation; the file is an input | induction over the map |
| C110 | the damper as the dynamics of a task (`Model.DamperTask`, with `Model.TaskDynamics` and the chain of C97) | differential inequality with a barrier; induction over the steps |
| C111 | `computationData_`, `getComputationData`, the notification of all the data and the ids of the schemes (`Model.SchemesOfProblem`, on the model of C49-C63, which now has the calls to `update()`) | simulation by induction over the calls |
| C112 | the loop of C97 with constant accelerations between the resolutions | the error and its velocity follow a linear recurrence; real roots by sequences with a decreasing factor, complex roots by a form multiplied by the determinant; eigenvectors for the converse; resolutions with the weighted scheme meet the hypotheses of the loop (`C112_Resolved`) |
| C113 | the loops of C97 and C112, for tasks of all types | the velocity plus `a` times the error obeys a relation of the first order, then the error does; with a resolution every `dt`, the cone spanned by an eigenvector of the recurrence is invariant; `C113_Resolved` for the resolutions of the weighted scheme |
| C114 | the loop of C97 with the dynamics `FeedForward<Proportional>` and `Clamped<Proportional>` | the difference with the reference obeys a linear relation; for the clamped dynamics each error times the same positive factor, bounded below, gives monotonicity and convergence; the order of any composition is the one of its innermost dynamics, by induction over the layers (`C114_Layers`); at the second order the difference with the reference obeys the relations of C113 and C64 (`C114_Tracking`) |
| C115 | `VariablePtr` as control block and target, `shared_from_this`, `dot`, `subvariable`, `superVariable`, `basePrimitive`, `primitive` (`Model.VariablePointers`, on the objects of C26) | induction over the calls: the control block of a pointer is that of the base primitive of its variable, or of the super variable of this one |
| C116 | the raw keys of `count_`, the shared pointers of `variables_` and those of the program (`Model.CountingLifetime`, on the model of C07) | induction over the calls: the keys are the variables added since the last `clear`; what `variables_` keeps is what C07 lists; what the program holds is described by `Held`, apart from the helpers of the model |
| C117 | shared pointers to tasks in the program, in `tr_`, in `constraints_` and in `task2Constraint_`; raw keys and emitters of events; searches in the maps read the identifiers (`Model.TaskLifetime`, on the model of C49) | induction over the calls, exceptions included: the additions and removals of a task in the queue are those of four cases; a task that has a removal in the queue is in the map of the scheme |
| C118 | shared pointers to nodes in the program, in `store_` of the updater and of the nodes, and in the data members of nodes; raw dependencies and plan (`Model.NodeLifetime`, on the models of C14, C56 and C57) | induction over the calls: what a node depends on is kept by it, the nodes of an up-to-date plan are linked to inputs by dependencies; the construction of the plan does not depend on what is not visited |
| C119 | the model of C49 to C63 with another environment after each change of requirements; sizes and types of the tasks do not change | the invariant of C49 and C61 only depends on the requirements of the tasks that the scheme memorised; these are computed from the calls (`Handed`); negations by sequences of calls |
| C120 | `assignments_`, the four maps and `buildInProgress_` of `LeastSquareSolver`, with additions that throw at any point, and the lifetime of constraints (`Model.SolverBook`); ranges, matrices and weights left out; which maps `process` goes through is a parameter; a search in a map reads its keys | invariant over all sequences of calls: each map is the list of the assignments of the constraint; negations by sequences |
| C121 | `ObjWithId`, `IdProvider`, `IdLess` and the search, insertion and erasure of a `std::map` with it (`Model.IdMap`); the map is a search tree of any shape; identifiers do not overflow, one thread | invariant over all sequences of calls: the content in order is sorted by identifiers, and is the specified one; search in any sorted tree; negations by sequences |
| C122 | `HierarchicalLeastSquareSolver` and `LexLSHierarchicalLeastSquareSolver` when `startBuild` is called on a solver already built, and when the vector of variables is destroyed (`Model.HierarchicalRebuild`, on top of `Model.Hierarchical`); LexLS itself left out | induction over the additions: the counters are the old ones plus the rows added, the matrices are not read; the build succeeds iff the old counters are zero; the levels given by a resolution depend on levels of the same rank only; negations by sequences |
| C123 | nothing new: the resolution of C98 and the tasks of C97 | from the lexicographic minimality of C98: the costs of the levels up to `q` are null for the point that satisfies them, hence for the result (induction over the levels), and a cost with positive weights is null iff the constraints hold; what lacks to the rows of the constraint of a task is what is wrong in its derivative (C48, C97); in a loop, each task up to `q` satisfies the hypotheses of the control loop of C97, continuous or with a resolution every `dt` that keeps the velocities, or the accelerations (C112) |
| C124 | `Assignment::big_` as a variable of the whole program, `big_number_` of the schemes, the number copied by each assignment (`Verif.Model.BigNumber`); the rows themselves are those of `Verif.Model.Assignment` | invariant over all sequences of calls: the number of the program and those copied are the number shared by the schemes; what a row means is C34 for the number it copied; two programs for which the claim is false; for bounds, the exact meaning of the box with the two numbers, and a point refused because of the smaller one |

## Not modelled

* The algorithms of the numerical solvers (QLD, Quadprog, LSSOL, LexLS): C66 to C69 use their documented specification.
* The algorithm of the rank-revealing QR of `GenericCalculator` (C73 takes any factorization that meets its specification) and the QR of the Cholesky option (C66 takes any factor).
* Diagnostics (other than the tests of C100), printing and logging, the robot bindings other than those of C74 to C76, C79 to C82 and C85 to C87, type dispatch by templates, thread safety (the code has none).
* Floating-point rounding, NaN and infinities; overflow of `int`.

## Disagreements between code and intended property

Each is proved on a concrete witness by the theorem named, or noted from the reading when no theorem is given.

Utilities
* C01 `Range::contains`/`intersects` are not the set predicates for empty ranges (`C01_empty_false`).
* C08 `VariableCountingVector` in split mode keeps a stale list when an addition changes only the splitting (`C08_split_stale`).
* C65 the flag of `simple()` is shared by the elements of a root variable; with removals it can be true for an element that no call added (`C65_not_exact`, `C65_removal_unsound`).
* C29 two handles on one token, or a handle used after pairing, give an asymmetric pair (`C29_two_handles`, `C29_handle_then_pair`). C30 a handle not converted before the next registration dangles (`C30_dangling_handle`).

Graphs and nodes
* C10 `DependencyGraph::order` drops silently a cycle that is not reachable from a node without parents (`C10_dropped_cycle`); C14 the call plan then omits a required update (`C14_cycle_omitted`).
* C56 a removal that throws may have erased some outputs and may leave a source without outputs; an addition by shared pointer that throws records pairs without keeping the source alive (`C56_throwing`).
* C57 dependencies on updates never registered are accepted; of an input dependency only the first output is checked (`C57_unchecked`).

Variables
* C27 creating a derivative sets its value to zero, through `dot` and through `subvariable` of an existing one (`C27_dot_false`, `C27_subvariable_false`).
* C28 the product with the empty space loses the type; `Space(Type::Euclidean)` has size -1 (`C28_unit`, `C28_default_size`).
* C22–C24 self-assignment empties a vector; a vector moved from keeps its size, and all such vectors share the id -1 so that mappings are mixed up when they are used again (`C22_self_assign`, `C22_moved_from_size`, `C24_moved_from`); empty variables can be added twice.
* C54 iterating an empty container with a non-empty partition is undefined behaviour; a variable of size zero throws although `Assignment.cpp` foresees it (`C54_limits`).

Matrix properties
* C20 an identity scaled by a number other than -1, 0, 1 is declared plus or minus identity (`C20_scale_false`); C21 consistent operands can be rejected (`C21_rejects_consistent`).
* C53 `Identity(r, c) * x` with r ≠ c declares an identity Jacobian (`C53_nonsquare_identity`).

Assignments, bounds, substitutions
* C34/C35 a one-sided source in a double-sided target with OPPOSITE right-hand side gets the unbounded side with the wrong sign (`C34_opposite_false`, `C35_opposite_false`). No solver uses it.
* C37 a change of the scalar weight is ignored while an anisotropic weight is in use (`C37_scalar_false`). Noted: with a double-sided source in a single-sided target, the update of an anisotropic weight always throws; negative weights are not refused.
* C38 crossed diagonal bounds become a non-empty box; the constant standing for infinity is multiplied by the diagonal Jacobian, so that x/2 ≥ 0 gives x ≤ big/2; one-sided bound targets are undefined behaviour (`C38_crossed_false`, `C38_small_false`, `C38_one_sided_false`).
* C41 `canBeUsedAsBound` throws for one-sided targets with a substituted variable (`C41_one_sided_throws`). Noted: a bound on a variable substituted by a diagonal substitution is accepted, then `addBound` throws.
* C39 a strict subvariable of a substituted variable makes the assignment throw. C40 the custom multiplier has no implementation (`C40_custom`).
* Noted: `Assignment` for bounds leaves `scalarizationWeight_` uninitialised; `onUpdatedTarget` uses a null member pointer for diagonal bounds; `addBound` on a single-sided target uses the map of the other convention.
* C42 the rows selected by `Sᵀ` are wrong, or out of range, when an undeclared index precedes a zero one (`C42_row_false`, `C42_ub`).
* C43 `cIsZero_` and `uIsZero_` are indexed by the wrong kind of index: undefined behaviour and a constant wrongly declared zero (`C43_index_false`, `C43_zero_false`).

Task dynamics
* C45 automatic damping: entering the zone while moving away forbids rest; entering exactly at the safety distance gives NaN (`C45_auto_outward_false`, `C45_auto_nan_false`).
* C47 matrix gains are not critically damped (missing square root) and the setter does not set the stiffness (`C47_matrix_false`, `C47_setter`). Noted: the size check of the matrix gain of `Proportional` uses `&&`; the documentation of `FeedForward` has the opposite sign; `Reference` at order 0 ignores the right-hand side.
* C48 `Constant` with an affine function of non-zero offset loses the offset (`C48_constant_offset`).

Problems, schemes, solvers
* C32 an objective removed and added again in one batch keeps its old data (`C32_readded_objective_keeps_old_data`). C33/C49 adding a task twice (`C33_double_add`, `C49_double_add`).
* C50 a removal that throws has already removed the task and its callbacks (`C50_failed_removal_false`).
* C52 with `autoDamping` and no objective the announced rows are not added: an assertion fails (`C52_auto_damping_false`).
* C58 scalarization does not let more levels in: out of range access that throws (`C58_scalarized_levels_false`).
* C59 after a change of substitutions the solver can work with the old ones (`C59_stale_false`, `C59_removal_false`).
* C60 QLD and Quadprog keep targets on freed or moved rows when a batch keeps the number of coefficients (`C60_qld_false`, `C60_quadprog_false`).
* C62 after an exception events are lost, the solver may be unbuilt, and removing the cause does not repair it (`C62_lost_events_false`, `C62_unbuilt_false`, `C62_not_repaired_false`).
* C67 minimisation of the norm: empty matrix with the Cholesky option, uninitialised cost after a change of the unknowns, objectives added afterwards ignored or mixed (`C67_cholesky`, `C67_junk`, `C67_ignored`, `C67_mixed`).
* C68 with bounds of priority 0 only and the default options the hierarchical solver writes out of its levels; with damping the bounds and the norm are in one objective, so that feasible bounds are violated (`C68_only_bounds`, `C68_not`). Noted: the weights of bounds are ignored; the documentation announces equalities before inequalities in a level, the code minimises both together.
* C69 the hierarchical scheme throws at the resolution that follows the addition or removal of a task or a change of weight, and then solves the former problem without notice; changes of priority are never seen (`C69_pending`, `C69_stale`, `C69_not`, `C69_priority`).
* C71 two substitutions of one variable are accepted by `add`; `finalize` then throws, or fails an assertion when one is announced with a smaller rank (`C71_throws`, `C71_undefined`). Noted: `substitute` handles only the first substituted variable that intersects its argument.
* C72 `additionalVariables_` is never cleared by `finalize` (`C72_stale`, `C72_not`).
* C74: `Contact::Id::operator<` compares `r2` with `rhs.f2` (Contact.h:51): two contacts that differ by the ambiguity number are one key, and the comparison may hold both ways.
* C75: `Contact` composes `X_f2_f1_ * X_f1_p` (Contact.cpp:22) where the convention asks for the other order: the points in the second frame are elsewhere as soon as the frames differ by a rotation.
* C76: `JointsSelector` does not null the inactive columns of `JDot`; naming the free-flyer twice writes columns of negative index.
* C78: `checkJacobian` compares the first column only (the index is not incremented); it accepts without having tested anything when the configurations have no value; `checkNormalAcceleration` squares the acceleration in the values of the next step and refuses right functions.
* C79: `Frame::updateJacobian` multiplies `-hat(r)` by the linear rows of the jacobian of the body where it is the angular ones; `updateVelocity` applies `X_b_f` to a velocity in the coordinates of the world; `updateNormalAcceleration` does the same and leaves out the centripetal acceleration of the frame around the origin of the body.
* C80: `Plane::position(normal, offset)` leaves the point of the plane as it was; the velocity of `CoMInConvexFunction` uses this point. `reset()` keeps the dependencies on the former planes.
* C82: `DynamicFunction::removeContact` leaves the variables in the function with the matrices of the last update; it removes one of the two entries of a contact between two frames of the robot; `contactForce` reads `forces_[nrGen * i]`, rotates the forces by the transformation of the points, and has for the first frame of a contact by forces the sign opposite to that of the equation; the transformation from the body to the frame is ignored.
* C83: `FirstOrderProvider::removeVariable` removes from `variables_` by `==` and from `jacobian_` by address: through another object for the same part, the jacobian stays. Empty variables are added again each time.
* C84: `BasicLinearConstraint({A, B}, {x, x})` is accepted and is `Bx`; `BasicLinearConstraint(m, x, ct, cr)` accepts variables that are not Euclidean.
* C85: the bounds of a `Robot` on velocities and torques have the size of the parameters (`q_joints_->size()`) instead of the degrees of freedom: too long with spherical joints. Limits that name the free flyer write out of range. Two advances of the clock before an update make one step of integration. The variable of velocity starts at zero whatever `mbc.alpha`.
* C86: `CollisionFunction::updateValue` reads `closestPoints_[i]` with the index of the collision instead of the one of the object: out of range from the third collision with a moving robot on. For the first two the velocity and the jacobian are right all the same (proved), the normal acceleration is not. `nearestPoint_` is documented in body coordinates and computed in frame coordinates. `prevNormVecDist_` starts at zero: at the first tick the speed of the normal vector is the normal vector over `dt`. `reset` keeps variables and dependencies.
* C87: `GeometricContactFunction::updateJacobian` with both frames on the same robot keeps only minus the second jacobian. `CoMFunction::updateJDot` calls `splitJacobian`, which writes `jacobian_`; `JDot_` is never written. `PostureFunction::updateValue` tests `dof() == 4` for spherical joints, whose `dof()` is 3: their error is left out and the rows of the joints after them are shifted with respect to the velocity and to the jacobian (identity).
* C88: `Function::removeVariable_` relies on `FirstOrderProvider::removeVariable` throwing when the variable is absent, but it does not: `variablesDot_.erase(end())` is undefined. `BasicLinearFunction(int m, xs)` does not test `isEuclidean` as the other constructors do. `A.begin()->get()` is evaluated before the sizes of the lists are compared.
* C89: a class that declares outputs above an `OutputSelector` and does not derive again from a selector (`Provider4` of the tests) gets a vector that is too short: `isOutputEnabled` of its own outputs throws. `is_valid_output` tests the type only, so that a converted integer indexes the vector out of its bounds.
* C90: `addBounds` for a diagonal Jacobian stores a null `getTargetVector` for the temporary vectors, and `onUpdatedTarget` calls it without test: any solver with such a bound has undefined behaviour as soon as bounds or variables change.
* C91: the log is never purged: a removed input, or a node whose address is reused, is still reported (the first update logged at that address wins); disabling the logger while an input is declared makes `subGraph` throw later.
- **Requirements are only partly followed (C93).** `tr->requirements.weight() = Weight(2)` changes the weight without running the callbacks, unlike `= 2` and `value(2)`: the scheme keeps the old weight. Changes of the priority level or of the violation evaluation are never notified. A task added twice and removed once stays in the problem but its weight is no longer followed. `value(-1)` is accepted although the constructors refuse negative values.
- **A stale plan is executed (C94).** If a removal of a task fails (non-simple substitution), then the substitution is removed, the problem updated, and the task removed again, `ControlProblem::remove` returns before it resets `finalized_`, while the constraint is erased and `upToDate_` is reset. The next `update()` does not rebuild the plan and calls the update of the erased constraint, through a raw pointer that dangles if nothing else holds the constraint.
- **A task added twice leaves an input behind (C94).** The second addition replaces the constraint in the map but the first stays in the inputs of the updater for ever: it is updated at each `update()` even after the task was removed twice. Besides, `CallGraph::clear` does not clear `inputs_`, that grows by one at each refresh.
* C96 `processProblem` does not give the variables of the additional constraints to the solver: if a variable is substituted with a constraint which is not of full rank and neither it nor the other variables of this constraint are in another constraint, the assignment of the additional constraint throws (`C96_missing_false`). When there are no more constraints than substitutions the solver is not called and `solve` returns `true`, even if the additional constraints cannot be satisfied (`C96_skipped_false`).
* C98 the additional constraint of a substitution (the part of its constraint that the substituted variables cannot satisfy) is a row of level 0 like any other: if the constraints of priority 0 cannot all be satisfied, the constraint used for the substitution is violated in favour of the others (`C98_false`). With the weighted scheme it is a constraint of the quadratic program.
* C99 the constructor of `AssignmentTarget` for `x >= b` and `x <= b` (AssignmentTarget.cpp, lines 41-49) never writes `constraintRhs_`, which is then read undetermined (`C99_unwritten_false`); the data of a target with a zero right-hand side cannot be changed by `changeData` (`C99_zero_false`).
* C100 `isInMatrix` misses coefficients of maps whose columns overlap or whose row stride is larger than the column stride (`C100_false`).
* C101 functions inherited from Eigen (`setZero`, `resize`, `<<`, ...) leave the properties as they were (`C101_raw_false`); through a slice that is not const the properties of the whole matrix are read, and set (`C101_ref_false`). No function of the library uses the second: `BasicLinearFunction::add` only claims constness through a slice, which is true of the whole. `isConstant` is cancelled without notice by a later assignment (`C101_constant_false`).
* C102 the velocity of an orientation function is the angular velocity of the frame, which is not the derivative of the value unless the axis of the error is fixed (`C102_velocity_false`); the norm has nevertheless the derivative expected (`C102_norm`). For a frame turned from its body, the velocity is in the coordinates of another frame than the jacobian (`C102_jacobian_false`, by C79).
* C103 the value of a contact is in the coordinates of the first frame (it depends on the relative position only), its velocity and jacobian in those of the world: the matrix of the degrees of freedom does not select the same directions (`C103_velocity_false`, `C103_dof_false`).
* C104 `BufferedMatrix::operator=` returns a reference to the temporary map of line 72; nothing in the library uses the result.
* C105 when the expression given to `TVM_TEMPORARY_ALLOW_EIGEN_MALLOC` throws, the permission is not given back (`C105_throw_false`).
* C107 In a network of sources, a listener may receive the same event several times for one notification (`C107_twice`; a comment of Source.h mentions it as something to consider), and listeners that notify each other in a cycle exhaust the stack (`C107_cycle`).
* C107 `Source::notify` dereferences the null result of `lock()` for a listener that has ended (`C107_expired_false`). Nothing in the library uses the events yet.
* C108 two hulls made with one object of sch move each other (`C108_shared_false`).
* C110 the damper of the second order does not keep the safety distance when the acceleration is constant during the steps (the integration of the tests), even from rest and with `xsi dt ≤ di - ds` (`C110_second_false`).
* C46 `OneStepToZero` of the second order leaves a velocity that changes its sign at each step and does not vanish (`C46_second_steps`).
* C105 `ResolutionScheme::createComputationData` returns before its call to `restore_is_malloc_allowed`: after the first resolution of a problem the allocations stay allowed and the stack of the overrides keeps a value (`C105_first_resolution_false`); so does an exception in `updateComputationData` (`C105_failed_update_false`).
* C114: the comment of FeedForward.h says that the term is subtracted (`e - ff`), the code adds it. A bound of Clamped equal to zero is accepted and stops all the components of the task, not only the one it is about (`C114_clamped_frozen`).
* C115 `Variable::shared_from_this` gives, for a subvariable, a pointer with the control block of the super variable, though the subvariable was made by `make_shared` with its own: `sub->basePrimitive()`, `dot(sub)->primitive()` and so on do not keep the subvariable alive (`C115_valid_false`).
* C116 `VariableCountingVector::remove` keeps the key, a raw pointer, of a variable that is not counted any more. In a problem that is solved, the task on a variable that only this task uses is removed, the problem is solved again and the variable is destroyed: the next addition of a task on another variable compares identifiers with the destroyed variable (`C116_counted_false`; WeightedLeastSquares.cpp, lines 244 and 292).
* C117 `ControlProblem::remove` erases the pointer to the task before it searches the task in `callbackTokens_`, which reads it: `problem.remove(*problem.tasks()[0])` reads a destroyed task if the problem has the only pointer to it (`C117_plain_false`). `LinearizedControlProblem` keeps another pointer until the end of `remove`, except for a task that was added twice (`C117_twice_false`), or the constraint of which could not be created: `LinearizedControlProblem::add` throws, for example for a function that is not linear with a dynamics of order zero, after the task was put in the list of tasks, and leaves it there (`C117_throw_false`, `C117_event_false`).
* C118 `Inputs::removeInput`, called on a node, takes the source from `store_` but leaves it in `inputDependencies_` and `directDependencies_`, which the call graph follows: the next refresh reads a destroyed source if nothing else keeps it (`C118_remove_false`). `Inputs::addInput(std::shared_ptr<T>, i, args...)` puts the source in `store_` after all its outputs were added: if one of `args` is not enabled, the exception leaves the source in `inputs_` without keeping it (`C118_throw_false`).
* C119 `WeightedLeastSquares::removeTask` reads the priority level of the task when it is removed, not the one it was added with, and changes of the priority level are not notified: a task solved at priority 0, then given priority 1, then removed, is taken out of the objectives, where it is not. An assertion fails; without assertions its constraint stays in the solver for ever and the number of rows of the objectives is wrong (`C119_priority_false`, `C119_objective_false`). The same with `canBeUsedAsBound` (`C119_bound_false`).
* C120 `AutoMap` creates the entry of the map (raw pointer to the constraint) before the assignment is made: when the latter throws, the entry stays. The next `process` reads the constraint, that may be destroyed (`C120_key_false`), and counts its rows, that no assignment writes (`C120_rows_false`).
* C121 `operator=(ObjWithId &&)` has no test of self-assignment: `x = std::move(x)` sets the identifier of `x` to -1 (`C121_self_false`). `IdLess` is not a strict weak ordering when a key is null: `erase(nullptr)` empties the map (`C121_null`).
* C122 `HierarchicalLeastSquareSolver::startBuild` does `eqSize_.resize(nEq_.size(), 0)`, which does not reset the values: a solver that was built with constraints cannot be built again (`C122_again_false`). The levels of a former build are never removed from `data_` (`C122_levels_false`, `C122_norm_false`), `xl_` and `xu_` keep referring to rows of `data_[0]` (`C122_bounds_false`), and `resetBounds_` reads the variables at each resolution (`C122_variables_false`). The schemes create a new solver for each build and are not concerned.
- C124: `Assignment::big_` is static and each scheme overwrites it when it builds (`// FIXME: can we find a better way ?`). An update of a problem after another scheme with another `big_number` built its own data writes the number of that other scheme in the new rows, and `big_number(b)` has no effect on rows that are already built. Elsewhere in the model (C38, C66, C95 and after) the number of the scheme and the option of the solver of the same name are one number; both are `constant::big_number` by default.
* Noted: Quadprog with Cholesky and rank-deficient objectives with at least as many rows as unknowns divides by zero; LexLS built twice on one object after `setMinimumNorm` keeps identity entries. `LeastSquareSolver::process` adds 0 to an uninitialised `int dummy` for each bound (LeastSquareSolver.cpp, 232-236): formally undefined, of no effect in practice.
