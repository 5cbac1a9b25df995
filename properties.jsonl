{"id": "C01", "title": "Range queries are set queries", "statement": "For integer ranges [start,start+dim) with dim>0, Range::contains(i), Range::contains(other), Range::intersects(other) and relativeRange answer exactly membership, inclusion, non-empty intersection and translation of the corresponding sets of integers; intersects is symmetric. For empty ranges the set reading fails and the exact deviation is stated.", "quantifier": "all pairs of ranges and all integers", "why_tests_cant": "The input space is infinite; a test suite samples a handful of cases and cannot exclude the remaining ones.", "anchors": ["include/tvm/Range.h: tvm::Range::contains, intersects, relativeRange, operator=="]}
{"id": "C02", "title": "RangeCounting reports exactly the covered points", "statement": "After any successful sequence of add/remove calls on a RangeCounting, ranges(false) returns the sorted list of maximal, pairwise disjoint and non-adjacent non-empty intervals whose union is the set of integers that have been covered by more added than removed ranges.", "quantifier": "all finite histories of add/remove with arbitrary non-empty ranges, all integer points", "why_tests_cant": "The claim ranges over every finite history of API calls; tests replay only a few fixed histories.", "anchors": ["include/tvm/internal/RangeCounting.h", "src/internal/RangeCounting.cpp: RangeCounting::add, remove, ranges, insert, recompute"]}
{"id": "C03", "title": "RangeCounting change flag is exact", "statement": "RangeCounting::add (resp. remove) returns true if and only if the set of covered integers, hence ranges(false), was changed by the call.", "quantifier": "all reachable states and all non-empty ranges", "why_tests_cant": "The claim ranges over every finite history of API calls; tests replay only a few fixed histories.", "anchors": ["src/internal/RangeCounting.cpp: RangeCounting::add, remove"]}
{"id": "C04", "title": "Removing an uncovered range is rejected without damage", "statement": "RangeCounting::remove(r) throws if and only if some integer of r is currently covered by no range; when it throws, every later query answers as if the call had not been made.", "quantifier": "all reachable states and all non-empty ranges", "why_tests_cant": "The claim ranges over every finite history of API calls; tests replay only a few fixed histories.", "anchors": ["src/internal/RangeCounting.cpp: RangeCounting::remove"]}
{"id": "C05", "title": "maxCount is the largest multiplicity", "statement": "RangeCounting::maxCount returns the maximum over all integers of the number of times the integer is currently covered (0 when nothing is covered), so a vector built by add is a disjoint union exactly when maxCount <= 1.", "quantifier": "all reachable states", "why_tests_cant": "The claim ranges over every finite history of API calls; tests replay only a few fixed histories.", "anchors": ["src/internal/RangeCounting.cpp: RangeCounting::maxCount", "src/internal/VariableCountingVector.cpp: VariableCountingVector::isDisjointUnion"]}
{"id": "C06", "title": "Split ranges partition the covered points into constant pieces", "statement": "ranges(true) returns consecutive non-empty intervals that partition the covered set, on each of which the multiplicity is constant, and that refine ranges(false): no added range cuts a returned interval in two.", "quantifier": "all reachable states", "why_tests_cant": "The claim ranges over every finite history of API calls; tests replay only a few fixed histories.", "anchors": ["src/internal/RangeCounting.cpp: RangeCounting::ranges"]}
{"id": "C07", "title": "VariableCountingVector lists exactly the variables still in use", "statement": "In non-split mode, after any history of add/remove interleaved arbitrarily with variables() calls, the variables returned for each root variable are exactly the maximal segments still covered, add/remove return true iff that list changes, and the cached list is never stale.", "quantifier": "all histories of add/remove/variables on arbitrarily many root variables", "why_tests_cant": "The claim ranges over every finite history of API calls; tests replay only a few fixed histories.", "anchors": ["include/tvm/internal/VariableCountingVector.h", "src/internal/VariableCountingVector.cpp: add, remove, variables, update"]}
{"id": "C08", "title": "Split-mode cache freshness", "statement": "In split mode the list returned by variables() reflects all add/remove calls made before. (False of the code when an add leaves the union unchanged but adds a cut after variables() was called: the negation is proved, together with the case in which freshness does hold.)", "quantifier": "all histories of add/remove/variables in split mode", "why_tests_cant": "The claim ranges over every finite history of API calls; tests replay only a few fixed histories.", "anchors": ["src/internal/VariableCountingVector.cpp: add, remove, variables"]}
{"id": "C09", "title": "Execution order respects dependencies", "statement": "If DependencyGraph::order returns, the result contains no node twice, and every node appears after all the nodes it depends on (in particular all the dependencies of a listed node are listed).", "quantifier": "all graphs built by addNode/addEdge/removeNode", "why_tests_cant": "The input space is infinite; a test suite samples a handful of cases and cannot exclude the remaining ones.", "anchors": ["src/graph/DependencyGraph.cpp: order, order_, orderUtil"]}
{"id": "C10", "title": "Order is complete and cycles are detected", "statement": "For every acyclic graph order returns all nodes; for every non-empty graph in which all nodes are reachable from nodes without dependents, order throws iff the graph has a cycle. (The unrestricted claim 'returns all nodes or throws' is false: a cycle that no root reaches is silently dropped as soon as another root exists; the negation is proved.)", "quantifier": "all finite directed graphs", "why_tests_cant": "The input space is infinite; a test suite samples a handful of cases and cannot exclude the remaining ones.", "anchors": ["src/graph/DependencyGraph.cpp: order, order_, orderUtil"]}
{"id": "C11", "title": "Removing a node yields the induced subgraph", "statement": "removeNode(i) leaves exactly the graph induced on the other nodes with ids above i shifted down by one: edges, children and root flags all agree with it, and with what would be obtained by building that graph directly.", "quantifier": "all graphs and all valid node ids, composed in any history", "why_tests_cant": "The claim ranges over every finite history of API calls; tests replay only a few fixed histories.", "anchors": ["src/graph/DependencyGraph.cpp: removeNode, addNode, addEdge"]}
{"id": "C12", "title": "groupedOrder separates independent parts", "statement": "For an acyclic graph, groupedOrder returns a partition of the nodes into their weakly connected components, each listed in dependency order.", "quantifier": "all finite acyclic directed graphs", "why_tests_cant": "The input space is infinite; a test suite samples a handful of cases and cannot exclude the remaining ones.", "anchors": ["src/graph/DependencyGraph.cpp: groupedOrder, DisjointSet"]}
{"id": "C13", "title": "reduce condenses the strongly connected components", "statement": "reduce returns a partition of the nodes in which two nodes are together iff each depends (transitively) on the other, together with a graph on the parts having an edge between two distinct parts iff some node of the first depends on some node of the second; that graph is acyclic.", "quantifier": "all finite directed graphs", "why_tests_cant": "The input space is infinite; a test suite samples a handful of cases and cannot exclude the remaining ones.", "anchors": ["src/graph/DependencyGraph.cpp: reduce, SCCUtil"]}
{"id": "C14", "title": "Call plan contains each needed update once, dependencies first", "statement": "After CallGraph::add of some inputs and update(), if the needed calls have acyclic dependencies, the plan contains every update transitively required by a requested output, nothing else, each exactly once, and each after all updates it needs.", "quantifier": "all finite node networks without cyclic dependency, all sets of requested outputs", "why_tests_cant": "The input space is infinite; a test suite samples a handful of cases and cannot exclude the remaining ones.", "anchors": ["src/graph/CallGraph.cpp: CallGraph::add, addOutput, addCall, Plan::build", "include/tvm/graph/CallGraph.h"]}
{"id": "C15", "title": "Executing the plan refreshes every requested output", "statement": "Whatever the stale content of the caches, after execute() every cache written by a planned update holds the value that the update computes from the final values of its declared dependencies: re-running any planned update changes nothing.", "quantifier": "all cache contents, all update functions that read only their declared dependencies, all acyclic networks", "why_tests_cant": "The input space is infinite; a test suite samples a handful of cases and cannot exclude the remaining ones.", "anchors": ["src/graph/CallGraph.cpp", "include/tvm/graph/CallGraph.h: Plan::execute", "include/tvm/graph/internal/AbstractNode.h"]}
{"id": "C16", "title": "Declared matrix properties imply the deduced ones", "statement": "If the shape, positive-(semi)definiteness, symmetry, invertibility and constness declared when building a MatrixProperties are true of a real square matrix, then every query of the resulting object (isDiagonal, isSymmetric, isInvertible, isTriangular, isPositiveSemiDefinite, ...) that answers true is true of the matrix.", "quantifier": "all declared combinations, all sizes and all real matrices", "why_tests_cant": "Soundness ranges over all real matrices; tests check labels, never the matrices they describe.", "anchors": ["include/tvm/internal/MatrixProperties.h", "src/internal/MatrixProperties.cpp: build, deduce*"]}
{"id": "C17", "title": "Negation propagates matrix properties soundly", "statement": "If all queries of p are true of A and -p is computed without exception, all queries of -p are true of -A.", "quantifier": "all property objects, all real matrices", "why_tests_cant": "The input space is infinite; a test suite samples a handful of cases and cannot exclude the remaining ones.", "anchors": ["src/internal/MatrixProperties.cpp: operator-(MatrixProperties)"]}
{"id": "C18", "title": "Sum propagates matrix properties soundly", "statement": "If all queries of p1, p2 are true of A, B and p1+p2 (p1-p2) is computed without exception, all its queries are true of A+B (A-B).", "quantifier": "all pairs of property objects, all real matrices", "why_tests_cant": "The input space is infinite; a test suite samples a handful of cases and cannot exclude the remaining ones.", "anchors": ["src/internal/MatrixProperties.cpp: operator+, operator-"]}
{"id": "C19", "title": "Product propagates matrix properties soundly", "statement": "If all queries of p1, p2 are true of A, B and p1*p2 is computed without exception, all its queries are true of A*B.", "quantifier": "all pairs of property objects, all real matrices", "why_tests_cant": "The input space is infinite; a test suite samples a handful of cases and cannot exclude the remaining ones.", "anchors": ["src/internal/MatrixProperties.cpp: operator*"]}
{"id": "C20", "title": "Scaling propagates matrix properties soundly", "statement": "If all queries of p are true of A and d*p is computed without exception, all its queries are true of d*A, provided p does not describe plus or minus identity or d is -1, 0 or 1. For every other scalar, scaling the identity gives an object that wrongly claims to be plus or minus identity, so the claim without the proviso is false of the code.", "quantifier": "all scalars, all property objects, all real matrices", "why_tests_cant": "The input space is infinite; a test suite samples a handful of cases and cannot exclude the remaining ones.", "anchors": ["src/internal/MatrixProperties.cpp: operator*(double, MatrixProperties)"]}
{"id": "C21", "title": "Property operators never reject consistent operands", "statement": "On objects that constructors can build, the sum throws exactly when one operand is zero and the other plus or minus identity, or when both are semidefinite of the same sign and one is definite; the product throws exactly when one operand is zero and the other not constant; the scaling throws exactly for the scalar 0 and a non constant operand. Such operands are true of actual matrices, so the claim that consistent operands are never rejected is false of the code.", "quantifier": "all pairs of satisfiable property objects", "why_tests_cant": "The input space is infinite; a test suite samples a handful of cases and cannot exclude the remaining ones.", "anchors": ["src/internal/MatrixProperties.cpp: build, processInvertibility, processShape"]}
{"id": "C22", "title": "A VariableVector never holds overlapping variables", "statement": "After any history of add/remove/clear, non-empty variables of a VariableVector are pairwise disjoint, totalSize is the sum of their sizes and numberOfVariables their number; add returns false without effect for a contained variable and throws without effect on a partial overlap.", "quantifier": "all histories over all variables and subvariables", "why_tests_cant": "The claim ranges over every finite history of API calls; tests replay only a few fixed histories.", "anchors": ["src/VariableVector.cpp: add, remove, clear, contains, intersects, totalSize"]}
{"id": "C23", "title": "Mappings tile the vector", "statement": "getMappingIn of the variables of a vector, in order, gives consecutive ranges tiling [0,totalSize); the mapping of a subvariable is its container's mapping shifted by its offset inside the container, and distinct disjoint contained variables get disjoint mappings.", "quantifier": "all reachable vectors, all contained variables", "why_tests_cant": "The claim ranges over every finite history of API calls; tests replay only a few fixed histories.", "anchors": ["src/VariableVector.cpp: getMappingOf, indexOf", "src/Variable.cpp: getMappingIn, computeMapping"]}
{"id": "C24", "title": "Mapping cache is always coherent", "statement": "At any time, Variable::getMappingIn(v) returns the same range as a recomputation from the current content of v, whatever the interleaving of add/remove/clear on several vectors and of previous mapping queries.", "quantifier": "all interleavings of modifications and queries over several vectors and variables", "why_tests_cant": "The claim ranges over every finite history of API calls; tests replay only a few fixed histories.", "anchors": ["src/Variable.cpp: getMappingIn", "src/VariableVector.cpp: getNewStamp, timestamp"]}
{"id": "C25", "title": "Vector value get/set round trip", "statement": "VariableVector::set(val) followed by value() returns val; each variable receives the segment given by its mapping; variables disjoint from the vector keep their value; wrong sizes throw without effect.", "quantifier": "all vectors of pairwise disjoint variables, all values, all memory contents", "why_tests_cant": "The input space is infinite; a test suite samples a handful of cases and cannot exclude the remaining ones.", "anchors": ["src/VariableVector.cpp: value, set", "src/Variable.cpp: set, value"]}
{"id": "C26", "title": "Subvariables are faithful views", "statement": "For every nested chain of subvariable calls, the subvariable's value is the segment of its root variable at the sum of the shifts; setting a (sub)variable changes exactly the overlapping segments of the other views of the same root and nothing else; contains/intersects/equality agree with the memory ranges.", "quantifier": "all chains of subvariables, all values", "why_tests_cant": "The input space is infinite; a test suite samples a handful of cases and cannot exclude the remaining ones.", "anchors": ["src/Variable.cpp: subvariable, set, contains, intersects, operator==", "include/tvm/Variable.h"]}
{"id": "C27", "title": "Creating derivatives does not disturb values", "statement": "Requesting the derivative of a variable or a subvariable never changes the value of an existing variable. (False: building the derivative of a new subvariable object zeroes a segment of the existing derivative of its root; negation proved, with the safe case.)", "quantifier": "all variables, subvariables and memory contents", "why_tests_cant": "The claim ranges over every finite history of API calls; tests replay only a few fixed histories.", "anchors": ["src/Variable.cpp: Variable::Variable (derivative constructor), dot, subvariable"]}
{"id": "C28", "title": "Space products add dimensions", "statement": "The product of spaces adds representation, tangent and manifold sizes, is associative and commutative on sizes, has the empty space as unit on sizes (but loses the type SO3 or SE3), is Euclidean exactly when both factors are, and a space embeds (<=) only into spaces at least as large.", "quantifier": "all spaces", "why_tests_cant": "The input space is infinite; a test suite samples a handful of cases and cannot exclude the remaining ones.", "anchors": ["src/Space.cpp: operator*, operator<=, size, rSize, tSize"]}
{"id": "C29", "title": "Paired tokens stay symmetric", "statement": "In any history of creations, pairings, moves and destructions of pair element tokens (each referenced through at most one handle), if token a is paired with b then b is paired with a, and a token whose mate was destroyed reports being unpaired.", "quantifier": "all histories of token operations", "why_tests_cant": "The claim ranges over every finite history of API calls; tests replay only a few fixed histories.", "anchors": ["include/tvm/internal/PairElementToken.h"]}
{"id": "C30", "title": "Callbacks run exactly once while their token lives", "statement": "CallbackManager::run calls each callback whose token is alive exactly once, in registration order, and never one whose token was destroyed; unregistering removes exactly the given callback.", "quantifier": "all histories of register/unregister/destroy/move/run", "why_tests_cant": "The claim ranges over every finite history of API calls; tests replay only a few fixed histories.", "anchors": ["include/tvm/internal/CallbackManager.h"]}
{"id": "C31", "title": "Event queue compression preserves meaning", "statement": "For every legal history of problem events, processing the queue kept by the computation data leads to the same set of tasks in the solver as processing the full history; a task added then removed between two solves leaves no event.", "quantifier": "all legal histories of task additions, removals and weight changes", "why_tests_cant": "The claim ranges over every finite history of API calls; tests replay only a few fixed histories.", "anchors": ["include/tvm/scheme/internal/ProblemComputationData.h: addEvent, popEvent"]}
{"id": "C32", "title": "Solver events cancel correctly", "statement": "After any sequence of add/remove notifications, the recorded added and removed sets of constraints, bounds, objectives and variables are disjoint, and applying removals then additions to the initial set gives the same set as applying the notifications one by one.", "quantifier": "all legal sequences of notifications", "why_tests_cant": "The claim ranges over every finite history of API calls; tests replay only a few fixed histories.", "anchors": ["include/tvm/solver/internal/SolverEvents.h: addIfPair, addConstraint, removeConstraint, ..."]}
{"id": "C33", "title": "Constraint rows never overlap in the solver", "statement": "After building and after every subsequent processing of additions and removals, the rows given to the equality constraints tile exactly the equality block, those of the inequality constraints the inequality block and those of the objectives the objective block (twice the size for a double sided constraint when the solver is single sided).", "quantifier": "all sequences of builds and event batches, all constraint sizes and types", "why_tests_cant": "The claim ranges over every finite history of API calls; tests replay only a few fixed histories.", "anchors": ["src/solver/LeastSquareSolver.cpp: startBuild, addConstraint, addObjective, process, constraintSize", "src/solver/QLDLeastSquareSolver.cpp: next*Range_"]}
{"id": "C34", "title": "Assignment preserves the constraint", "statement": "Whatever the source convention (=,>=,<=,double sided; rhs zero, as given, opposite) and the target convention accepted by Assignment, a point satisfies the assembled target rows iff it satisfies the source constraint (unbounded sides being encoded by +-big, for points whose image lies within +-big).", "quantifier": "all source/target conventions, all Jacobians, right hand sides and points", "why_tests_cant": "The input space is infinite; a test suite samples a handful of cases and cannot exclude the remaining ones.", "anchors": ["src/scheme/Assignment.cpp: build, checkTarget, assignments", "include/tvm/scheme/internal/Assignment.hpp: addVectorAssignment, addMatrixAssignment"]}
{"id": "C35", "title": "Unbounded sides keep their meaning in opposite convention", "statement": "When a one sided constraint is assembled into a double sided target, the missing side is unconstraining, for both right hand side conventions of the target. (False for the opposite convention, where the missing bound gets the wrong sign; negation proved.)", "quantifier": "all one sided constraints, all double sided targets, all points within +-big", "why_tests_cant": "The input space is infinite; a test suite samples a handful of cases and cannot exclude the remaining ones.", "anchors": ["src/scheme/Assignment.cpp: build", "include/tvm/scheme/internal/Assignment.hpp: addVectorAssignment(double, ...)"]}
{"id": "C36", "title": "Weights scale residuals and nothing else", "statement": "With scalar weight w and anisotropic weights v, the assembled rows of an objective are the unweighted rows multiplied by the square root of w and of v componentwise, so the squared residual is the weighted sum of the squared residuals.", "quantifier": "all weights, all conventions", "why_tests_cant": "The input space is infinite; a test suite samples a handful of cases and cannot exclude the remaining ones.", "anchors": ["src/scheme/Assignment.cpp: processRequirements", "include/tvm/scheme/internal/Assignment.hpp: createAssignment"]}
{"id": "C37", "title": "Weight changes take effect", "statement": "After a weight change is notified, the next run assembles the rows with the current weights. (False when the scalar weight of a task that also has anisotropic weights is changed: the old product is kept; negation proved with the valid cases.)", "quantifier": "all initial and new weights, all notification kinds", "why_tests_cant": "The claim ranges over every finite history of API calls; tests replay only a few fixed histories.", "anchors": ["src/scheme/Assignment.cpp: onUpdateWeights, processRequirements"]}
{"id": "C38", "title": "Bounds are intersected", "statement": "After the reset of the bounds and the run of the assignments of any number of bound constraints (identity, minus identity or diagonal invertible Jacobians, every sidedness and convention, on any variables), the bound vectors describe exactly the intersection of the boxes, within +-big, whatever the order. (False for diagonal Jacobians whose two sides are crossed, the solver then gets a non-empty box, and for one sided bounds with a small diagonal coefficient, where the missing side is multiplied instead of divided; negations proved. A one sided bound target reads out of range or drops the bound.)", "quantifier": "all finite lists of bound constraints, all values", "why_tests_cant": "The input space is infinite; a test suite samples a handful of cases and cannot exclude the remaining ones.", "anchors": ["src/scheme/Assignment.cpp: build (bounds), addBounds, addBound", "include/tvm/scheme/internal/Assignment.hpp: addBounds"]}
{"id": "C39", "title": "Substituted problem is equivalent", "statement": "Replacing a variable x by C y + d in a linear constraint as Assignment does yields a constraint on y that holds iff the original holds at x = C y + d, for every flip and right hand side convention.", "quantifier": "all conventions, Jacobians, substitutions and points", "why_tests_cant": "The input space is infinite; a test suite samples a handful of cases and cannot exclude the remaining ones.", "anchors": ["src/scheme/Assignment.cpp: addMatrixSubstitutionAssignments, addVectorSubstitutionAssignments"]}
{"id": "C40", "title": "Compiled assignment equals its mathematical formula", "statement": "For each combination of operator (copy, add, sub, min, max), source kind (matrix, zero, constant), weight and multiplication kind, running the compiled assignment writes op(old target, weight * M * source) in the target and nothing else; the zero-source shortcuts agree with the general formula.", "quantifier": "all operators, weights, multipliers, sources and targets", "why_tests_cant": "The input space is infinite; a test suite samples a handful of cases and cannot exclude the remaining ones.", "anchors": ["include/tvm/scheme/internal/CompiledAssignment.h", "include/tvm/scheme/internal/CompiledAssignmentWrapper.h"]}
{"id": "C41", "title": "A constraint is treated as a bound only when it is one", "statement": "canBeUsedAsBound accepts a constraint only if its feasible set in the target convention is a box in its single variable described by bounds of the accepted sense (negative definite diagonal Jacobians flip the sense).", "quantifier": "all constraints described by matrix properties and conventions, all target conventions", "why_tests_cant": "The input space is infinite; a test suite samples a handful of cases and cannot exclude the remaining ones.", "anchors": ["src/scheme/helpers.cpp: isBound, canBeUsedAsBound"]}
{"id": "C42", "title": "Diagonal calculator provides a generalized inverse and nullspace bases", "statement": "For a matrix with the declared row-selected diagonal structure and non-zero diagonal entries, the operations of DiagonalCalculator satisfy A A# A = A, A N = 0, S^T A = 0, and every solution of A x = c is A# c + N z for exactly one z, solutions existing iff S^T c = 0.", "quantifier": "all structures, all non-zero entries, all right hand sides", "why_tests_cant": "The input space is infinite; a test suite samples a handful of cases and cannot exclude the remaining ones.", "anchors": ["src/hint/DiagonalCalculator.cpp: Impl::build, update_, premultiplyByASharpAndSTranspose_, postMultiplyByN_"]}
{"id": "C43", "title": "Substitution keeps the solution set", "statement": "Given a generalized inverse and nullspace bases, (x,y) satisfies A x + B y = c iff y satisfies the remaining constraint S^T B y = S^T c and x = M y + N z + u for some z, with M = -A# B and u = A# c as computed by SubstitutionUnit; chains of dependent substitutions compose.", "quantifier": "all matrices, all points, all chains of substitutions in dependency order", "why_tests_cant": "The input space is infinite; a test suite samples a handful of cases and cannot exclude the remaining ones.", "anchors": ["src/hint/SubstitutionUnit.cpp: update, computeDependencies", "src/hint/Substitutions.cpp: finalize, updateVariableValues"]}
{"id": "C44", "title": "Clamping keeps direction and respects bounds", "statement": "The clamped task dynamics returns s*v with s in [0,1] the largest such factor for which every component is within [min,max]; values already within the bounds are unchanged.", "quantifier": "all vectors and all bounds with min <= 0 <= max", "why_tests_cant": "The input space is infinite; a test suite samples a handful of cases and cannot exclude the remaining ones.", "anchors": ["include/tvm/task_dynamics/Clamped.h: Impl::updateValue"]}
{"id": "C45", "title": "Velocity damper keeps the distance safe", "statement": "For a fixed damping xi, any trajectory whose velocity obeys the constraint computed by the velocity damper and that cannot jump over the interaction zone in one step never gets closer to the limit than the safety distance, if xi*dt <= di - ds; both senses of the constraint behave symmetrically; outside the interaction distance the bound is the unconstraining big value.", "quantifier": "all trajectories of any length, all parameters accepted by the constructor", "why_tests_cant": "The claim is an invariant over unbounded trajectories and real parameters.", "anchors": ["src/task_dynamics/VelocityDamper.cpp: updateValue, updateValue_, Config"]}
{"id": "C46", "title": "OneStepToZero reaches the target in one step", "statement": "Following the value of OneStepToZero for one period dt brings the order-1 (resp. order-2) Taylor prediction of the error exactly to zero.", "quantifier": "all states, targets and dt > 0", "why_tests_cant": "The input space is infinite; a test suite samples a handful of cases and cannot exclude the remaining ones.", "anchors": ["src/task_dynamics/OneStepToZero.cpp: updateValue"]}
{"id": "C47", "title": "PD default gain is critically damped", "statement": "Constructing a proportional derivative dynamics from kp alone gives kv with kv^2 = 4 kp, for scalar, diagonal and matrix gains. (False for matrix gains, where kv = 2 kp, and the gains(kp) setter leaves kp unchanged; negation proved.)", "quantifier": "all non-negative gains", "why_tests_cant": "The input space is infinite; a test suite samples a handful of cases and cannot exclude the remaining ones.", "anchors": ["src/task_dynamics/ProportionalDerivative.cpp: constructors, Impl::gains"]}
{"id": "C48", "title": "Linearized task constraint expresses the task", "statement": "The linear constraint built for a task of order k with dynamics value e* holds at the k-th derivatives of the variables iff the k-th derivative of the task function is in relation (=,>=,<=, between) with e*; for order 0 with no dynamics it is f(x) op rhs for affine f.", "quantifier": "all Jacobians, drifts, values, senses and orders 0-2", "why_tests_cant": "The input space is infinite; a test suite samples a handful of cases and cannot exclude the remaining ones.", "anchors": ["src/constraint/LinearizedTaskConstraint.cpp", "src/task_dynamics/None.cpp"]}
{"id": "C49", "title": "Problem and constraint map stay synchronized", "statement": "After any history of add/remove of tasks and of added/removed substitutions that raises no exception, the linearized problem has exactly one constraint per task present and size() is their number; a task removed is found by no query.", "quantifier": "all histories of add/remove", "why_tests_cant": "The claim ranges over every finite history of API calls; tests replay only a few fixed histories.", "anchors": ["src/LinearizedControlProblem.cpp: add, remove, constraintMap, constraintWithRequirements", "src/ControlProblem.cpp: add, remove"]}
{"id": "C50", "title": "Failed removal leaves the problem unchanged", "statement": "If removing a task throws, the problem is as before the call. (False: removing a task used in a non simple substitution throws after the task has left the task list but while its constraint stays; negation proved.)", "quantifier": "all problem states", "why_tests_cant": "The claim ranges over every finite history of API calls; tests replay only a few fixed histories.", "anchors": ["src/LinearizedControlProblem.cpp: remove, removeSubstitutionFor", "src/ControlProblem.cpp: remove"]}
{"id": "C51", "title": "Scalarization orders priorities", "statement": "In the weighted scheme the weight given to an objective of priority p is scalarizationWeight^(maxp-p) times its own weight: it is strictly decreasing in p when the factor is > 1, equals 1 for the lowest priority present at build and is never smaller than 1 for tasks present at build.", "quantifier": "all sets of tasks, all priorities, all factors", "why_tests_cant": "The input space is infinite; a test suite samples a handful of cases and cannot exclude the remaining ones.", "anchors": ["src/scheme/WeightedLeastSquares.cpp: processProblem, addTask"]}
{"id": "C52", "title": "Solver sizes announced at build match what is added", "statement": "The numbers of equality, inequality and objective rows announced to the solver by the weighted scheme equal the total rows of the constraints and objectives it then adds, for every problem and substitution set.", "quantifier": "all sets of constraints, types, priorities and additional constraints", "why_tests_cant": "The input space is infinite; a test suite samples a handful of cases and cannot exclude the remaining ones.", "anchors": ["src/scheme/WeightedLeastSquares.cpp: processProblem"]}
{"id": "C53", "title": "Affine expressions evaluate to the sum of their terms", "statement": "A linear function built from an affine expression evaluates to the sum of A_i x_i plus the constant, also when the x_i are repeated, nested or overlapping subvariables.", "quantifier": "all lists of terms over overlapping ranges, all coefficients and values", "why_tests_cant": "The input space is infinite; a test suite samples a handful of cases and cannot exclude the remaining ones.", "anchors": ["include/tvm/function/BasicLinearFunction.h: BasicLinearFunction(AffineExpr), add", "include/tvm/utils/internal/MapWithVariableAsKey.h: at"]}
{"id": "C54", "title": "Partition iteration visits the pieces", "statement": "Iterating over a VariableVectorPartition of variables with a partition that refines them visits, for each variable in order, exactly the pieces of the partition contained in it, in order, and terminates.", "quantifier": "all variable lists and refining partitions", "why_tests_cant": "The input space is infinite; a test suite samples a handful of cases and cannot exclude the remaining ones.", "anchors": ["include/tvm/internal/VariableVectorPartition.h"]}
{"id": "C55", "title": "Double sided sugar keeps the bounds' sense", "statement": "All operator spellings of a proto task (f>=r, r<=f, l<=f<=u, u>=f>=l, ...) denote the relation written by the user.", "quantifier": "all spellings and all right hand sides", "why_tests_cant": "The input space is infinite; a test suite samples a handful of cases and cannot exclude the remaining ones.", "anchors": ["include/tvm/utils/ProtoTask.h"]}
{"id": "C56", "title": "Input bookkeeping is a set of (source, output) pairs", "statement": "After any history of addInput/removeInput, the recorded inputs are exactly the pairs added and not removed; removing an absent pair or source throws; a source with no remaining output disappears.", "quantifier": "all histories", "why_tests_cant": "The claim ranges over every finite history of API calls; tests replay only a few fixed histories.", "anchors": ["include/tvm/graph/internal/Inputs.hpp", "src/graph/Inputs.cpp"]}
{"id": "C57", "title": "An output has either update or direct dependencies", "statement": "In any history of dependency declarations on a node, no output ever has both a direct dependency and update dependencies, at most one direct dependency is registered per output and no update id is registered twice.", "quantifier": "all histories of registration calls", "why_tests_cant": "The claim ranges over every finite history of API calls; tests replay only a few fixed histories.", "anchors": ["include/tvm/graph/abstract/Node.hpp: registerUpdates, addOutputDependency, addDirectDependency"]}
{"id": "C58", "title": "Scheme abilities decide acceptance", "statement": "SchemeAbilities::check accepts a task iff its priority level is handled (or scalarization is allowed) and the abilities of that level (or the general ones) allow its constraint type and violation evaluation; construction guarantees that the lookup cannot fail for handled levels.", "quantifier": "all abilities tables, levels and tasks", "why_tests_cant": "The input space is infinite; a test suite samples a handful of cases and cannot exclude the remaining ones.", "anchors": ["src/scheme/SchemeAbilities.cpp", "include/tvm/scheme/internal/SchemeAbilities.h"]}
{"id": "C59", "title": "Substitutions used by the solver stay those of the problem", "statement": "After any change of the tasks of a problem with substitutions, the substitution functions, additional constraints and additional variables used by the assignments of the solver are those the problem updates at each solve.", "quantifier": "all problems with substitutions, all sequences of additions and removals of tasks and substitutions between solves", "why_tests_cant": "The defect needs a task change after a first solve in presence of a substitution; tests cover a few histories and compare with the solution only when the stale values coincide.", "anchors": ["src/ControlProblem.cpp: add, remove, finalize", "src/LinearizedControlProblem.cpp: finalize_", "src/hint/Substitutions.cpp: finalize, updateSubstitutions", "src/scheme/WeightedLeastSquares.cpp: updateComputationData_"]}
{"id": "C60", "title": "Solver assignments refer to the current matrices", "statement": "After building and after every batch of additions, removals and changes of variables, every assignment of a least-squares solver refers to the present allocation and shape of the matrix and vector it writes in, and the rows it writes are inside.", "quantifier": "all solvers, all sequences of builds and event batches, all sizes of constraints and variables", "why_tests_cant": "A stale reference needs two shapes with the same number of coefficients, a coincidence of sizes that fixed tests do not meet, and its effect is undefined behaviour.", "anchors": ["src/solver/LeastSquareSolver.cpp: process", "src/solver/{LSSOL,LexLS,QLD,Quadprog}LeastSquareSolver.cpp: resize_, applyImpactLogic, update*TargetData", "include/tvm/solver/abstract/LeastSquareSolver.h: ImpactFromChanges::willReallocate"]}
{"id": "C61", "title": "What a resolution hands to its solver", "statement": "After any sequence of additions and removals of tasks and substitutions, changes of weights and resolutions, a resolution by the weighted least-squares scheme that reaches its solver has handled all the pending events, and the rows of the solver are laid out for exactly the constraints of the tasks present that no substitution uses, each as bound, constraint or objective, plus the additional constraints of the substitutions; the variables are those of these constraints.", "quantifier": "all sequences of calls, all tasks, sizes, types, substitutions and solvers", "why_tests_cant": "The claim is about the composition of the event queue, the scheme and the solver over every finite history; tests replay a few histories and compare solutions only.", "anchors": ["src/scheme/WeightedLeastSquares.cpp: updateComputationData_, processProblem, addTask, removeTask", "include/tvm/scheme/internal/ProblemComputationData.h", "src/solver/LeastSquareSolver.cpp: process"]}
{"id": "C62", "title": "A resolution can be retried after an exception", "statement": "If a resolution throws (unsupported task, change of weight at priority 0), then once the cause is removed the next resolution hands to its solver the constraints of the problem. (False once a first resolution succeeded: events and variables are lost; negation proved. True for the first resolution.)", "quantifier": "all sequences of calls with failing resolutions", "why_tests_cant": "Needs a failure in the middle of a batch of events followed by another resolution, which no test exercises.", "anchors": ["src/scheme/WeightedLeastSquares.cpp: updateComputationData_, addTask, removeTask", "include/tvm/scheme/internal/helpers.hpp: getComputationData"]}
{"id": "C63", "title": "No assertion fails and resolutions return", "statement": "Whatever the sequence of legal calls, no assertion of the problem, event queue, scheme or solver fails, and a resolution raises no exception as soon as all the tasks present are supported by the scheme and no weight of a task at priority 0 was changed.", "quantifier": "all sequences of legal calls without additional variables", "why_tests_cant": "Absence of failure over every finite history of calls cannot be observed by finitely many runs.", "anchors": ["src/scheme/WeightedLeastSquares.cpp", "src/solver/LeastSquareSolver.cpp", "include/tvm/scheme/internal/ProblemComputationData.h: addEvent"]}
{"id": "C64", "title": "Feedback dynamics make the error vanish", "statement": "A motion that follows the proportional dynamics has an error that decreases exponentially at the rate of its gain (each component for scalar and diagonal gains, the norm for a matrix gain at least c I); a motion that follows the proportional derivative dynamics with its default damping (scalar or diagonal gain) has the error of a critically damped oscillator, tends to the target and does not overshoot from rest.", "quantifier": "all motions, all gains, all times", "why_tests_cant": "The claim is about the limit and all times of all motions; tests simulate a few of them for a finite time.", "anchors": ["src/task_dynamics/Proportional.cpp: Impl::updateValue", "src/task_dynamics/ProportionalDerivative.cpp: constructors, Impl::updateValue"]}
{"id": "C65", "title": "Meaning of the flags of simple()", "statement": "When only add is used, simple() mirrors variables() and the flag of an element is true if and only if every element of the same root variable appears because of a single initial add, all other adds that meet it being later and inside it. So a flag is never wrongly true. The documented claims that it is exact per element, and that it is conservative with removals, are both false.", "quantifier": "all histories of additions, interleaved with queries, refused removals and clear", "why_tests_cant": "The flag compares a counter of changing calls with a number of merged intervals; whether this encodes the documented criterion depends on every possible order and overlap of the additions.", "anchors": ["include/tvm/internal/VariableCountingVector.h: simple()", "src/internal/VariableCountingVector.cpp: add, remove, update"]}
{"id": "C66", "title": "The problem handed to each solver has the solutions of the least-squares problem", "statement": "After any sequence of builds, resizings and resolutions, for any values held by the constraints, the solutions of the problem handed to QLD, Quadprog, LSSOL or LexLS are exactly the minima of the (regularised) sum of squares of the residuals of the objectives among the points satisfying the constraints and the bounds. The large number standing for infinity does not change a minimum that is strictly inside.", "quantifier": "all sizes, all patterns of written entries, all uninitialised contents, all histories, all data over an ordered field", "why_tests_cant": "A test solves a few problems and compares the result; stale entries, wrong signs or wrong offsets in the matrices show up only for particular histories and data.", "anchors": ["src/solver/QLDLeastSquareSolver.cpp", "src/solver/QuadprogLeastSquareSolver.cpp", "src/solver/LSSOLLeastSquareSolver.cpp", "src/solver/LexLSLeastSquareSolver.cpp", "src/solver/LeastSquareSolver.cpp:139-167"]}
{"id": "C67", "title": "Without objectives, automatic damping asks for the feasible point with the least norm", "statement": "When there is no objective and the option autoDamping is set, each solver is handed, at each resolution and after changes of the problem, the minimisation of the norm under the constraints and the bounds as long as there is no objective, and the least-squares problem once there is one.", "quantifier": "all sizes, all histories after setMinimumNorm, all data, all options", "why_tests_cant": "The tests use the default options and do not add an objective after a resolution without any.", "anchors": ["src/solver/QLDLeastSquareSolver.cpp:104-109", "src/solver/QuadprogLeastSquareSolver.cpp:136-141", "src/solver/LSSOLLeastSquareSolver.cpp:122-147", "src/solver/LexLSLeastSquareSolver.cpp:145-151", "src/scheme/WeightedLeastSquares.cpp:168-203"]}
{"id": "C68", "title": "The hierarchical scheme hands LexLS the lexicographic problem of the priorities", "statement": "After the construction and any number of resolutions, for any values held by the constraints, the solutions of the hierarchy of objectives handed to LexLS are exactly the points at which the violations of the bounds and of the priority levels, in this order, are minimal in the lexicographic order; with automatic damping the norm is minimised last.", "quantifier": "all numbers of constraints, sizes, priorities, bounds, options, uninitialised contents, numbers of resolutions and data over an ordered field", "why_tests_cant": "A test solves a few hierarchies; a wrong row offset, stale rows or a bound put in a wrong level shows up only for particular distributions of the constraints over the levels.", "anchors": ["src/scheme/HierarchicalLeastSquares.cpp:107-191", "src/solver/HierarchicalLeastSquareSolver.cpp", "src/solver/LexLSHierarchicalLeastSquareSolver.cpp"]}
{"id": "C69", "title": "A hierarchical resolution that returns is about the problem as it is", "statement": "After any sequence of additions and removals of tasks and substitutions, changes of weights and priorities and resolutions, when a resolution by HierarchicalLeastSquares returns, the solutions of what was handed to LexLS are those of the lexicographic problem of the tasks that are in the problem at that time, with their priorities, weights and substitutions of that time.", "quantifier": "all sequences of calls, all tasks, priorities, weights, substitutions, values", "why_tests_cant": "The tests of the hierarchical scheme build a problem and solve it once; what the scheme keeps between resolutions depends on the order of the calls.", "anchors": ["src/scheme/HierarchicalLeastSquares.cpp:25-105,193-203", "src/ControlProblem.cpp:8-86", "src/LinearizedControlProblem.cpp:26-106", "include/tvm/scheme/abstract/ResolutionScheme.h:72-81", "src/solver/HierarchicalLeastSquareSolver.cpp:173-174"]}
{"id": "C70", "title": "The set of substitutions keeps the constraints it replaces", "statement": "After any history of additions, removals and finalizations, a finalization that returns puts each substitution in exactly one group of one unit, merges exactly the substitutions that depend on each other, orders the groups so that none uses a variable of a later one, gives each substituted variable exactly one function that uses no substituted variable, and a point satisfies all the constraints used for the substitutions iff the additional constraints hold and the substituted variables have the values of their functions for some values of the additional variables; updateVariableValues writes such values and changes no other variable.", "quantifier": "all histories of calls, all dependencies between the substitutions (chains, cycles), sizes, ranks and matrices over a field", "why_tests_cant": "The tests have a few dependency patterns; the grouping, the order and the merging are graph properties that must hold for every pattern and every order of the calls.", "anchors": ["src/hint/Substitutions.cpp:12-201", "src/hint/SubstitutionUnit.cpp:19-69,270-287", "src/hint/Substitution.cpp:37-151"]}
{"id": "C71", "title": "Substitutions of different variables by different constraints can be finalized", "statement": "After any history, when the substitutions of the set have different variables and different constraints, finalize returns, whatever their dependencies; the hypothesis is needed (exception or failing assertion for two substitutions of a variable).", "quantifier": "all histories, dependencies, sizes and ranks", "why_tests_cant": "Whether the rank computed for a merged group is accepted depends on the sizes and the ranks of all its members.", "anchors": ["src/hint/Substitutions.cpp:71-126", "src/hint/SubstitutionUnit.cpp:19-69", "src/hint/SubstitutionCalculatorImpl.cpp:147-148"]}
{"id": "C72", "title": "The additional variables are those of the present units", "statement": "After any finalization, additionalVariables() lists exactly the variables of positive size introduced by the present units. (False: the list is never emptied; after each finalization all the variables of the former units remain.)", "quantifier": "all histories, sizes and ranks", "why_tests_cant": "It needs several finalizations of the same object; the tests finalize once.", "anchors": ["src/hint/Substitutions.cpp:90-126,150"]}
{"id": "C73", "title": "The generic calculator parametrises all the solutions", "statement": "After any history of updates (returned or not, with matrices declared constant or not), once an update returns the matrices of the generic calculator describe exactly the solutions of the present system: A x = c has a solution iff S^T c = 0, and the solutions are A# c + N z with a unique z; the products it computes are the products by these matrices whatever the memory held before. An update returns iff the present matrix has the declared rank. The calculators chosen automatically meet the law the substitutions rely on.", "quantifier": "all matrices over a field with a rank-revealing QR factorization, all ranks, sizes, block structures and histories of updates", "why_tests_cant": "The tests use random full-rank matrices; rank deficiency, permutations, stale blocks of the aggregated matrix and skipped updates of constant matrices need a proof over all of them.", "anchors": ["src/hint/GenericCalculator.cpp:19-128", "src/hint/SubstitutionCalculatorImpl.cpp:24-200", "src/hint/AutoCalculator.cpp:17-36"]}
{"id": "C74", "title": "Contact identifiers are ordered as keys of a map", "statement": "The comparison of contact identifiers is a strict order for which two identifiers are equivalent iff they are equal, so that contacts that differ by a robot, a frame or the ambiguity number are kept apart by a std::map.", "quantifier": "all pairs and triples of identifiers over any ordered set of names", "why_tests_cant": "The order laws quantify over triples of names; a wrong field in one branch of the lexicographic comparison shows only for particular coincidences of names.", "anchors": ["include/tvm/robot/Contact.h:33-66"]}
{"id": "C75", "title": "The points of a contact are at the same places for its two frames", "statement": "The transforms of a contact relate its two frames, and the points expressed in the second frame are at the same places in the world as the points given in the first one.", "quantifier": "all positions of the two frames (rotations and translations) and all lists of points", "why_tests_cant": "The order of the composition matters only for frames that differ by a rotation; the law quantifies over all transforms.", "anchors": ["src/robot/Contact.cpp:9-40"]}
{"id": "C76", "title": "A joints selector keeps the columns of the active joints and nulls the others", "statement": "The selector is built iff the joints named exist and the variables are those of the function; after any history of updates the jacobian, and the derivative of the jacobian, are those of the function on the columns of the active joints and zero elsewhere. Selecting the inactive joints gives the complement.", "quantifier": "all multi-bodies, all lists of names in any order, all histories of updates and all contents of fresh memory", "why_tests_cant": "The grouping of consecutive joints into blocks depends on the order and the sizes of the joints; what fresh memory holds cannot be chosen by a test.", "anchors": ["src/robot/JointsSelector.cpp:9-158"]}
{"id": "C77", "title": "A function evaluated on given values", "statement": "A call of an updateless function returns iff its arguments fit the variables (one vector per variable, or one for all, or pairs of a variable and a value); it then sets exactly the variables to these values and returns the output of the function there. A call that throws changes variables of the function only.", "quantifier": "all lists of variables with their sizes, all lists of arguments and all states", "why_tests_cant": "The parsing of variadic arguments has as many cases as lists of sizes; the tests use two or three variables.", "anchors": ["src/utils/UpdatelessFunction.cpp:9-200", "include/tvm/utils/UpdatelessFunction.h:60-260"]}
{"id": "C78", "title": "What the checks of a function tell", "statement": "The check of the jacobian accepts iff at each configuration it goes through each column agrees with finite differences up to the precision; it goes through the configurations of the caller and the random ones; functions whose outputs are right are accepted; the check of the normal acceleration follows a trajectory with a constant acceleration.", "quantifier": "all functions, options, configurations and drawn numbers", "why_tests_cant": "The checks are themselves tests: only a proof over all functions tells which wrong jacobians they let through.", "anchors": ["src/utils/checkFunction.cpp:21-27", "src/utils/checkFunction.cpp:80-215", "src/utils/checkFunction.cpp:217-420"]}
{"id": "C79", "title": "The jacobian and the velocity of a frame are those of its position", "statement": "The position of a frame is that of its body composed with the transformation from the body to the frame; its velocity is the derivative of this position in the coordinates of the world, its jacobian times the velocities of the joints is this velocity, and its normal acceleration is what its acceleration has besides the product of the jacobian by the accelerations of the joints.", "quantifier": "all frames on a body, all positions, velocities and jacobians of the body", "why_tests_cant": "Frames at the origin of their body, bodies with the axes of the world and bodies that do not translate hide a wrong block or wrong coordinates; the claim is on all transformations.", "anchors": ["src/robot/Frame.cpp:44-77"]}
{"id": "C80", "title": "The distances of the centre of mass to planes and their derivatives", "statement": "The rows of the function are the planes added since the last reset, in order; a plane has the normal, the velocity and the acceleration given last; the value is the signed distance to the plane; the velocity and the normal acceleration are its derivatives for planes that move, and the jacobian maps velocities of the joints to the component along the normal.", "quantifier": "all histories of calls on planes and on the function, all motions of the planes and of the centre of mass", "why_tests_cant": "The derivatives are along all motions, and the members of a plane that are left stale show only after particular calls.", "anchors": ["src/geometry/Plane.cpp:9-42", "src/robot/CoMInConvexFunction.cpp:9-100"]}
{"id": "C81", "title": "The linearized friction cone", "statement": "The generators are as many as asked, of norm 1 and on the friction cone; their combinations with positive coefficients are in the friction cone of coefficient mu, and contain the friction cone of coefficient mu cos(pi / N).", "quantifier": "all orthogonal frames, both directions, all friction coefficients and numbers of generators, all forces", "why_tests_cant": "The claim is on all forces of a cone, a continuum; the loss cos(pi / N) is a trigonometric fact on every N.", "anchors": ["src/robot/FrictionCone.cpp:9-37"]}
{"id": "C82", "title": "The contacts in the equation of motion", "statement": "A contact is added to the equation of motion once, with one new variable for each of its points, and is gone after its removal; each of its forces acts at its point; the force that is reported is the one that acts; positive lambdas are forces in the friction cone.", "quantifier": "all histories of additions and removals of contacts, all points, frames, jacobians and values of the variables", "why_tests_cant": "The state depends on the history (removed contacts, contacts between two frames of the robot); the sum over the points and the generators holds for all numbers of them.", "anchors": ["src/robot/DynamicFunction.cpp:40-219"]}
{"id": "C83", "title": "The jacobians of a function are those of its variables", "statement": "A function or a constraint has one jacobian for each of its variables, of the right size; the jacobian with respect to a part of a variable is made of the columns of this part, whatever the object used to name the part; asking for another variable throws; splitting a matrix over variables gives jacobians with the same product.", "quantifier": "all histories of additions, removals, resizes, writes and splits, all variables and parts of variables", "why_tests_cant": "The maps depend on the history of calls and on the order of the identifiers of the variables; parts of variables can be named by unboundedly many objects.", "anchors": ["src/internal/FirstOrderProvider.cpp:12-96", "include/tvm/internal/FirstOrderProvider.h:79-195", "include/tvm/utils/internal/MapWithVariableAsKey.h:46-115"]}
{"id": "C84", "title": "A basic linear constraint stands for the set it was built for", "statement": "A BasicLinearConstraint built from matrices, variables and vectors is accepted iff types, conventions and sizes fit, and then is satisfied exactly by the values of the variables with sum A_i x_i compared to 0, b or -b (l and u) as asked; the setters replace one matrix or vector or throw and change nothing; the value is sum A_i x_i.", "quantifier": "all numbers of variables, all sizes and matrices, all types and conventions, all sequences of setters, all values of the variables", "why_tests_cant": "The set is a continuum, and the conditions are on all lists of variables and all combinations of types and conventions.", "anchors": ["src/constraint/BasicLinearConstraint.cpp:12-212", "src/constraint/Constraint.cpp:16-41", "src/constraint/RHSVectors.cpp:11-27", "src/constraint/LinearConstraint.cpp:21-28"]}
{"id": "C85", "title": "A robot has the limits of its joints and integrates the acceleration once per time step", "statement": "The bounds of a robot hold the limits given for each joint at the place of the joint in the variables, large values for joints without limits and no torque on the free flyer; its variables show the state it was given, then the result of the Euler integration of the value of ddq, once for each advance of the clock however often it is updated; the normal accelerations follow the recursion over the kinematic tree.", "quantifier": "all kinematic trees, all limits, all sequences of clock advances, updates and values of ddq, all joint velocities", "why_tests_cant": "The places depend on the sizes of all the joints before; the state depends on the interleaving of clock, solver and updates.", "anchors": ["src/Robot.cpp:13-193", "src/Clock.cpp:1-14", "include/tvm/Robot.h:20-207"]}
{"id": "C86", "title": "A collision function gives the distances, their velocities and their jacobians", "statement": "A CollisionFunction has one row per pair of hulls added since the last reset: the signed distance, its velocity along the line of the closest points, and jacobians whose product by the velocities of the robots is this velocity (also for two hulls on one robot); the normal acceleration is that of the distance, with the derivative of the normal vector by finite differences over one tick.", "quantifier": "all sequences of additions, resets, updates and ticks, all hulls and frames, all states of the robots and all closest points", "why_tests_cant": "Errors cancel or vanish for particular geometries (frames at the bodies, few collisions); the statement is over all motions and all numbers of collisions.", "anchors": ["src/robot/CollisionFunction.cpp:14-186", "include/tvm/robot/CollisionFunction.h:20-80", "src/utils/sch.cpp:38-49"]}
{"id": "C87", "title": "The functions of the state of a robot have velocities and jacobians that agree with their values", "statement": "For contacts, centre of mass, position and posture: the product of the jacobians by the velocities of the robots is the velocity of the function, the velocity is the derivative of the value, the value is null after a reset, and each update changes what it names.", "quantifier": "all robots (sizes of variables, joints), all jacobians and velocities, all targets, one or two robots", "why_tests_cant": "The statement is over all velocities and all distributions of the columns over the variables; the errors need a spherical joint, two frames on one robot or an offset frame.", "anchors": ["src/robot/GeometricContactFunction.cpp:16-117", "src/robot/CoMFunction.cpp:11-45", "src/robot/PositionFunction.cpp:12-41", "src/robot/PostureFunction.cpp:11-102"]}
{"id": "C88", "title": "A linear function is the one that its matrices say, at any time, with its derivatives", "statement": "The value of a basic linear function is the sum of the products of the given matrices by the variables and of the vector, for overlapping and repeated variables too; after any setters the value, the velocity, the jacobians and their derivatives agree; wrong sizes and unknown variables throw and change nothing; the identity function is the identity.", "quantifier": "all matrices, vectors, lists of variables, values of the variables and motions, all sequences of setter calls, any content of fresh memory", "why_tests_cant": "The claim covers all overlaps between variables, all orders of calls and whatever the memory holds; tests see a few matrices.", "anchors": ["src/function/BasicLinearFunction.cpp:11-84", "src/function/LinearFunction.cpp:16-63", "src/function/Function.cpp:16-68", "src/function/IdentityFunction.cpp:11-31"]}
{"id": "C89", "title": "Outputs have distinct numbers along a line of inheritance, and the enabled ones are those that were asked", "statement": "The outputs declared along a line of inheritance are numbered from 0 without gaps or clashes, with their names; an output is accepted iff its type is declared in the line; an output is enabled iff the last class with a list does not disable it and the last successful call on it did not disable it, across the constructors of all the selectors of the line; a locked object does not change.", "quantifier": "all lines of inheritance (any numbers of outputs, static lists and selectors), all sequences of constructors, enable, disable, lock and unlock calls made in any class of the line", "why_tests_cant": "Each class hierarchy is a new program; tests instantiate six classes, the claim is over all of them and over all orders of calls.", "anchors": ["include/tvm/graph/abstract/Outputs.h:33-138", "include/tvm/internal/enums.h:133-167", "include/tvm/graph/abstract/OutputSelector.h:22-151", "src/constraint/Constraint.cpp:16-33"]}
{"id": "C90", "title": "An updated assignment is the assignment one would build now", "statement": "After any sequence of changes of the range and buffers of its target and of updates of its mapping (that succeed or throw), onUpdatedTarget makes an assignment identical to the one that would be built from scratch with the present target and the variables of the last mapping accepted: it writes the same values in the present buffers, and nothing in any other buffer. A mapping is accepted iff such an assignment can be built with the new variables. The same holds for bounds.", "quantifier": "all sources, substitutions, targets, orders of variables, weights, and all sequences of moves, changes of buffers, updates of the target and of the mapping, in any order and with exceptions", "why_tests_cant": "A stale row, column or buffer shows only for particular orders of additions and removals; the test changes one target and one mapping once. The claim is over all histories.", "anchors": ["src/scheme/Assignment.cpp:50-87", "src/scheme/MatrixAssignment.cpp:8-32", "include/tvm/scheme/internal/Assignment.hpp:159-258", "src/scheme/AssignmentTarget.cpp:16-184", "src/solver/LeastSquareSolver.cpp:184-284"]}
{"id": "C91", "title": "The sub graph given by the log is what a graph or an output depends upon", "statement": "On every log, cyclic ones included, subGraph ends; it returns, without repetition, exactly the outputs and the updates that can be reached along the logged dependencies from the inputs of the graph (or from the output), or throws exactly when something that can be reached was not wholly logged. With the logger always on, nothing that the graph needs is left out and no input is ever missing from the log; the sub graph is exactly what the graph needs now.", "quantifier": "all logs, all starting points, all histories of declarations of updates, inputs and dependencies, removals, destructions, and of the logger being disabled and enabled", "why_tests_cant": "Termination and completeness are over all graphs, with cycles, shared vertices and any order of the log; the tests draw three graphs. The errors need an input removed, an address used again or a logger disabled for a time.", "anchors": ["src/graph/Log.cpp:130-308", "src/graph/Log.cpp:608-677", "include/tvm/graph/internal/Log.h:55-237", "include/tvm/graph/internal/Logger.h:83-172", "src/graph/Logger.cpp:16-32", "include/tvm/graph/abstract/Node.hpp:46-266", "include/tvm/graph/internal/Inputs.hpp:66-81"]}
{"id": "C92", "title": "The trees of the probe show what the selected outputs depend upon", "statement": "GraphProbe::followUp ends on every log, cyclic ones included. The nodes of the tree that have children are, each exactly once, the vertices that can be reached from the output without going through an output that fails the test, and the children of each are all that it depends upon, in the order of the log. The tree has at most one node more than the log has dependencies. It throws exactly when something to explore is not wholly logged. For a graph there is a tree for each of its outputs that passes the test, and for no other.", "quantifier": "all logs, all tests on the outputs, all outputs and graphs", "why_tests_cant": "The recursion goes over arbitrary graphs with cycles and shared vertices; that it ends, explores nothing twice and leaves nothing out is a statement over all of them. The only test prints one tree.", "anchors": ["src/diagnostic/GraphProbe.cpp:44-95", "src/diagnostic/GraphProbe.cpp:111-153", "src/diagnostic/GraphProbe.cpp:231-294", "include/tvm/diagnostic/GraphProbe.h:43-140"]}
{"id": "C93", "title": "Requirements are those that were given, and the schemes are told of their changes", "statement": "A SolvingRequirements built from any arguments, in any order, holds those that were given and the default values for the rest, and is refused exactly when a kind of argument is given twice. In every history of a problem in which no task is added while it is in it, each change of the value of a weight or of an anisotropic weight sends one event if the task is in the problem and none otherwise; a scheme that has handled its events knows exactly the tasks of the problem with their current requirements. A requirement that says it is the default one has the default value. Priority levels and weights are never negative.", "quantifier": "all lists of arguments; all histories of creations, additions, removals, changes of values, assignments of objects and resolutions, for any number of tasks", "why_tests_cant": "What the scheme knows depends on the whole interleaving of additions, removals and changes with the resolutions. The tests change one weight of one task.", "anchors": ["include/tvm/requirements/SolvingRequirements.h:42-117", "include/tvm/requirements/abstract/SingleSolvingRequirement.h:24-90", "include/tvm/requirements/Weight.h:22-36", "src/ControlProblem.cpp:19-38", "src/ControlProblem.cpp:65-86"]}
{"id": "C94", "title": "The update of a problem refreshes what its constraints need, and nothing else", "statement": "After any history of additions, removals, substitutions, finalizations and updates, exceptions included, ControlProblem::update() calls exactly the updates that are transitively needed by the matrix and the right hand sides of the constraints of the problem, each once and after those it depends upon. So every cache they need then holds what its update computes from the current values, and the other caches are as before. It returns if the dependencies are well founded and the substitutions can be finalized.", "quantifier": "all graphs of nodes, all orders of iteration on the inputs, all histories of operations on the problem, all contents of the caches", "why_tests_cant": "Whether the plan is rebuilt when it must be depends on two flags and on the whole history, with the paths taken by exceptions. Tests add a few tasks and update.", "anchors": ["src/ControlProblem.cpp:19-59", "src/ControlProblem.cpp:88-104", "include/tvm/ControlProblem.h:144-161", "src/LinearizedControlProblem.cpp:26-108", "src/graph/CallGraph.cpp:14-38"]}
{"id": "C95", "title": "The problem handed to the underlying solver is the problem of the user", "statement": "After any sequence of build, batches of changes and resolutions, running the assignments of the constraints, bounds and objectives held by a LeastSquareSolver on the matrices of the derived class gives the underlying solver a problem whose solutions are exactly the points that satisfy the constraints and the bounds of the problem (within the big number used as infinity) and among those minimise the sum, over the objectives, of the squares of the residuals times the weight of the priority, the weight and the anisotropic weight (plus the documented regularisation); no constraint is lost, doubled or written over another, no entry left by a former problem or resolution matters.", "quantifier": "all problems, all sequences of batches of changes, all data at each resolution, all orders of the assignments, all four solvers with and without Cholesky, all uninitialised contents", "why_tests_cant": "It takes the rows, the views, the signs and conventions of each solver, the constants of substitutions, the weights, the reset of bounds and the content left in the matrices to be right together; tests solve some small problems once or twice.", "anchors": ["src/solver/LeastSquareSolver.cpp:55-201", "src/solver/QLDLeastSquareSolver.cpp:27-141", "src/solver/QuadprogLeastSquareSolver.cpp:28-197", "src/solver/LSSOLLeastSquareSolver.cpp:57-160", "src/solver/LexLSLeastSquareSolver.cpp:46-180", "src/scheme/Assignment.cpp:130-600"]}
{"id": "C96", "title": "After a resolution the variables solve the problem of the user, substitutions included", "statement": "After solve(), when the underlying solver has returned a solution of the problem it was given, the values of the variables of the problem (the unknowns of the solver and the substituted variables, evaluated with their functions) satisfy all the constraints of the problem, those used for substitutions included, and no other values that satisfy them all have a lower weighted cost (within the limits of the solver); the variables that the problem does not determine keep their values. When all the constraints are used for substitutions the solver is not called and the constraints hold.", "quantifier": "all problems with linear constraints, bounds, objectives and substitutions (grouped, of any rank, with additional variables and constraints), all data, all four least-squares solvers", "why_tests_cant": "It composes the grouping and the elimination of the substitutions, their additional variables and constraints, the assignments through substitutions, the four solvers and the update of the values; tests compare the solutions of a few problems with and without substitutions.", "anchors": ["include/tvm/scheme/abstract/ResolutionScheme.h:70-81", "src/scheme/WeightedLeastSquares.cpp:24-37", "src/scheme/WeightedLeastSquares.cpp:112-221", "src/hint/Substitutions.cpp:72-187", "src/hint/SubstitutionUnit.cpp:200-260", "src/hint/SubstitutionUnit.cpp:438-470", "src/scheme/Assignment.cpp:538-600"]}
{"id": "C97", "title": "After a resolution the tasks follow their dynamics, and in the control loop their errors vanish", "statement": "When a resolution gives to the variables values that solve the linear problem (C96), every motion whose derivatives are these values achieves all the tasks of priority 0, bounds and tasks used for substitutions included: the first or second derivative of the function of the task is in the relation of the task (equal, at least, at most, between) with the value of its dynamics. No other motion through the same state that achieves them has a lower weighted sum of the squared errors of the other tasks. When this is done at every time, a task with proportional dynamics keeps its function in the relation of the task with the right-hand side plus an error that decreases exponentially at the rate of the gain (an inequality that holds at the beginning is never violated), and the error of an equality task with critically damped dynamics vanishes. The tasks of the other priorities (objectives, equalities with positive weights) are achieved too, at each time at which they can be achieved together with the former within the limits of the solver and without more of what it penalizes; in the loop they then follow their dynamics as well. With a resolution every dt that keeps the velocities in between (affine functions), the error is multiplied by 1 - gain dt at each step and the one-step dynamics attain their target after one step, for the constraints and for the objectives that can be achieved.", "quantifier": "all functions (differentiable maps of any number of variables), all tasks of order one and two and all dynamics, all problems with substitutions, all states and times; all scalar and diagonal gains for the loop", "why_tests_cant": "It is a statement about motions in continuous time for all functions and all problems, that composes the linearization of the tasks, the substitutions, the solvers and the feedback; tests run a few simulated steps with tolerances.", "anchors": ["src/LinearizedControlProblem.cpp:26-58", "src/constraint/LinearizedTaskConstraint.cpp:18-163", "include/tvm/scheme/abstract/ResolutionScheme.h:70-81", "src/task_dynamics/Proportional.cpp:39-57", "src/task_dynamics/ProportionalDerivative.cpp:42-156"]}
{"id": "C98", "title": "After a hierarchical resolution the variables satisfy the first priority, and the others are the best in lexicographic order", "statement": "After solve() with the hierarchical scheme, when LexLS has returned a lexicographic solution of the levels it was given, the values of the variables of the problem (substituted variables included) satisfy the constraints used for substitutions, the bounds, and the constraints of priority 0 whenever these can be satisfied together; no other values that satisfy them have smaller weighted violations of the following priorities in the lexicographic order (equalities: distance to the right-hand side, inequalities: what is missing). When priority 0 cannot be satisfied, its violations are the smallest possible, with the constraints used for substitutions and the bounds satisfied.", "quantifier": "all problems with linear constraints of any priorities, bounds and substitutions, all data and weights, all results that are lexicographic solutions", "why_tests_cant": "It composes the substitutions, the assignments run on the rows of the levels, the placement of the bounds, and the update of the values, for all problems and weights; tests compare a few problems of two levels.", "anchors": ["src/scheme/HierarchicalLeastSquares.cpp:24-170", "src/solver/HierarchicalLeastSquareSolver.cpp:80-158", "src/solver/LexLSHierarchicalLeastSquareSolver.cpp:60-177", "include/tvm/scheme/abstract/ResolutionScheme.h:70-81", "src/scheme/Assignment.cpp:538-600"]}
{"id": "C99", "title": "An assignment target gives the rows of its range in the matrix and vectors of the solver, with the conventions it was built with", "statement": "The constructors of AssignmentTarget accept exactly the conventions that fit the data they are given; whatever changeData or the setters do afterwards, type and right-hand side convention stay those of the construction; the blocks given by A, b, l, u (and their first and second halves) are coefficient by coefficient the rows of the present range in the present data; changing the data is defined for every target that has these data; the conventions of every linear target are known.", "quantifier": "all targets, all sequences of changes of data and of range, all conventions", "why_tests_cant": "The calls can be made in any order and with any range, and an unwritten member reads as whatever was in memory, which a test run usually does not notice.", "anchors": ["src/scheme/AssignmentTarget.cpp:16-184", "include/tvm/scheme/internal/AssignmentTarget.h:35-121"]}
{"id": "C100", "title": "isInMatrix tells whether an address is that of a coefficient of the matrix", "statement": "isInMatrix(ptr, M) returns true exactly if ptr is the address of a coefficient M(i,j), for every matrix, block or map stored by columns, without any division by zero; isInMatrix(A, i, j, B) for a block B of A is true exactly if (i,j) is in the block; hasElemAbsInRange is true exactly if a coefficient has its absolute value in the closed range.", "quantifier": "all addresses, all sizes (zero included) and all strides", "why_tests_cant": "It is about all pairs of strides and sizes, empty matrices included; tests use a few blocks.", "anchors": ["include/tvm/diagnostic/matrix.h:17-56"]}
{"id": "C101", "title": "The properties carried by a matrix are true of it", "statement": "Whatever sequence of assignments, additions, subtractions, copies and statements of properties is made on an object with properties, directly or through a slice, if the properties stated and kept are true when they are, then all the queries on its properties that answer yes (constant, zero, shape, symmetry, definiteness, invertibility) are true of every value it has had since they were stated. The properties of a slice of columns can always be built and claim at most to be constant or zero, which is true of the slice. The same holds for the functions inherited from Eigen.", "quantifier": "all matrices of all sizes, all sequences of calls, all ranges of columns, all properties", "why_tests_cant": "The claim is about all sequences of writes; a stale property silently replaces a product by a copy in the assignments, and tests check only a few properties after one write.", "anchors": ["include/tvm/internal/MatrixWithProperties.h:26-160", "include/tvm/internal/FirstOrderProvider.h:83-98", "include/tvm/function/BasicLinearFunction.h:144-149", "src/function/BasicLinearFunction.cpp:55-64", "src/constraint/BasicLinearConstraint.cpp:116-125"]}
{"id": "C102", "title": "Value, velocity and jacobian of the orientation of a frame agree", "statement": "The value of an orientation function is null after reset, and null exactly at the target orientation. Along any motion of the robot near the target (less than half a turn) its velocity is the derivative of its value and the jacobian times the velocities of the joints, and the derivative of the velocity is the jacobian times the accelerations plus the normal acceleration. The norm of the value decreases at the rate asked by a proportional dynamics.", "quantifier": "all targets, all frames, all differentiable motions, all error functions that meet the documentation of sva::rotationError", "why_tests_cant": "The claim is a limit over motions in SO(3); tests evaluate the function at the target or compare with finite differences at a few configurations, where the difference is within the tolerance or along the axis.", "anchors": ["src/robot/OrientationFunction.cpp:12-41", "include/tvm/robot/OrientationFunction.h:22-50", "src/robot/Frame.cpp:51-71"]}
{"id": "C103", "title": "The value of a geometric contact and its velocity", "statement": "The value of a geometric contact function is the difference, through the matrix of the degrees of freedom, between the current relative position of the two frames and the one at the first update; it is null at the first update, for all sequences of updates, and does not depend on the placement of the world. Along any motion of the two robots the velocity is the derivative of the value.", "quantifier": "all sequences of updates, all motions of the two frames, all matrices of degrees of freedom, all error functions", "why_tests_cant": "The velocity agrees with the derivative when the frame is aligned with the world, as in the examples; the claim is about all orientations and motions.", "anchors": ["src/robot/GeometricContactFunction.cpp:63-101", "include/tvm/robot/internal/GeometricContactFunction.h:18-37"]}
{"id": "C104", "title": "Matrices with a buffer: no entry out of the buffer and few allocations", "statement": "After any sequence of constructions, resizes and assignments, a buffered matrix has the sizes last asked and all its entries are in the buffer; after an assignment it is the matrix assigned. A call allocates iff the buffer is too small, so that the number of allocations is at most the logarithm of the largest size asked plus one, whatever the number of calls, and the buffer is at most twice that size. A map obtained before some calls is still valid iff none of them asked for more than the size of the buffer.", "quantifier": "all sequences of calls, all sizes, all matrices, any content of the memory allocated", "why_tests_cant": "The claims are about all sequences of sizes; a map that is no longer valid usually still reads the old values, so that a test does not see it.", "anchors": ["include/tvm/utils/internal/BufferedMatrix.h:17-73", "src/hint/GenericCalculator.cpp:95-99"]}
{"id": "C105", "title": "Permission to allocate: overrides are mirrored and the permission is given back", "statement": "An override of the permission to allocate followed by any mirrored sequence of calls and a restore leaves the permission and the stack of the overrides as they were; between, the permission is the one asked. From a coherent state a sequence of calls from one library is defined iff no restore is called more often than override, and keeps the state coherent. TVM_TEMPORARY_ALLOW_EIGEN_MALLOC gives the permission back, whatever the expression does.", "quantifier": "all coherent states, all sequences of calls, all expressions", "why_tests_cant": "The claims are about all nestings of the calls; the state is only visible in builds with the runtime checks of Eigen, and the exceptional exits are not tested.", "anchors": ["include/tvm/utils/memoryChecks.h:15-88", "src/utils/memoryChecks.cpp:10-46"]}
{"id": "C106", "title": "The graph generated from objects and outputs updates exactly what they require", "statement": "generateUpdateGraph(obj, args...) attributes each output to the last object before it. When all these outputs are enabled and no update depends on itself it returns a graph whose plan has exactly the updates required by the outputs, once each, after those they depend on, so that its execution refreshes them. When an output is not enabled it throws; it has no undefined behaviour.", "quantifier": "all lists of objects and outputs, all networks of nodes whose dependencies are finite, all states of the outputs", "why_tests_cant": "The lists of arguments, the networks and the order of the maps are unbounded; an update missing of a plan only shows as a stale value.", "anchors": ["include/tvm/utils/graph.h:26-35", "include/tvm/utils/internal/graphDetails.h:46-79"]}
{"id": "C107", "title": "Events are received by the listeners registered, in order", "statement": "A notification of an event by a source is received by each listener once per registration for this event, in the order of registration, and by nobody else. It is defined as long as no listener registers for the same event in answer to it; listeners that do not exist any more are skipped. When listeners notify sources in answer, a notification returns exactly when the events it leads to do not lead to each other without end; it is then received, with the events it leads to, by all the listeners registered for them, depth first, and by nobody else, and each listener receives an event once.", "quantifier": "all sequences of registrations, notifications and ends of listeners, all answers of the listeners that do not notify; all networks of sources whose listeners notify in answer", "why_tests_cant": "The claims are about all sequences of calls and all answers of listeners; the listeners that have ended, or that register others in answer, are undefined behaviour that a test may not see.", "anchors": ["src/event/Source.cpp:13-20", "include/tvm/event/Source.h:24-39", "src/event/Listener.cpp:11"]}
{"id": "C108", "title": "A convex hull is where its frame is", "statement": "After its update (and after its construction) every point of the object of a convex hull is at the place given by the position of the frame and the transformation from the frame to the object, without deformation; its velocity is the one of a point fixed to the frame. The updates of several hulls, in any order, place all of them.", "quantifier": "all positions of frames, all transformations, all points, all lists of hulls, any content of the matrix before", "why_tests_cant": "The claims are about all rotations and all points: an inverted or transposed rotation is not seen with identities or with symmetric positions.", "anchors": ["src/robot/ConvexHull.cpp:17-30", "src/utils/sch.cpp:11-30"]}
{"id": "C109", "title": "A robot starts in the configuration that was asked", "statement": "With fromURDF each joint starts with the values given under its name when they are as many as its parameters, otherwise with those of the file; names of no joint have no effect; the variable of the robot has the values of each joint at its place; the order in which the map is read does not matter.", "quantifier": "all kinematic trees with distinct names, all maps from names to lists of values", "why_tests_cant": "All trees, sizes and names; the tests load two robots.", "anchors": ["src/robot/utils.cpp:31-50", "src/Robot.cpp:79-81"]}
{"id": "C110", "title": "A velocity damper keeps the safety distance in the control loop", "statement": "In the control loop, a task whose dynamics is a velocity damper with a given damping keeps its function at the safety distance from its limits when it starts at this distance, otherwise the missing distance vanishes exponentially; with resolutions every dt and an affine function it does so if the damping and the steps are small enough. At the second order, the same for accelerations that are kept during the steps.", "quantifier": "all functions, sizes, types of tasks, dampers that the constructors accept, all motions that follow the values of the solver, all times", "why_tests_cant": "The claim is about all the times of all the motions, from the constructors of the damper to the resolution; the tests evaluate the dynamics at a few points.", "anchors": ["src/task_dynamics/VelocityDamper.cpp:75-251", "src/constraint/LinearizedTaskConstraint.cpp:18-163", "include/tvm/task_dynamics/VelocityDamper.h:18-45"]}
{"id": "C111", "title": "Several schemes on one problem: each works as if it were alone", "statement": "After any sequence of additions and removals of tasks and substitutions, changes of weights, updates, constructions of schemes and resolutions with any of them, the data that a scheme keeps in the problem is what it would be if this scheme were alone and the resolutions with the others were updates of the problem. A resolution with a scheme changes nothing in the data of the others and returns or throws as with this scheme alone; when it returns, its solver is laid out for the tasks present. Resolutions that throw with another scheme do not matter. No assertion fails.", "quantifier": "all problems, all numbers of schemes with their solvers and options, all sequences of calls, resolutions that throw with other schemes included", "why_tests_cant": "The claim is a simulation over all interleavings of resolutions with several schemes; the tests solve a problem with one scheme, or two in a row without changes.", "anchors": ["include/tvm/scheme/internal/helpers.hpp:14-31", "src/ControlProblem.cpp:65-71", "include/tvm/ControlProblem.h:121", "include/tvm/scheme/abstract/ResolutionScheme.h:70-81", "include/tvm/internal/ObjWithId.h:13-35"]}
{"id": "C112", "title": "Second-order feedback with a resolution every dt", "statement": "In the control loop with a resolution every dt, accelerations kept between the resolutions and an affine function, an equality task with proportional derivative dynamics (scalar or diagonal gains) has an error and a velocity that vanish if 0 < kp and kp dt / 2 < kv < 2 / dt, and the condition is exact: for other gains some motion does not vanish. With the default damping it is sqrt(kp) dt < 1. With OneStepToZero of order two the function is at its right-hand side at the end of each step, while its velocity only changes its sign and in the middle of each step the function is dt/4 times this velocity away, for ever. It is so of the constraints, and of the objectives that can be achieved, of a problem that is resolved every dt.", "quantifier": "all affine functions and sizes, all gains and periods, all initial states, all steps", "why_tests_cant": "The claim is about limits over all steps and the exact set of gains; tests simulate a few steps for a few gains.", "anchors": ["src/task_dynamics/ProportionalDerivative.cpp:42-114", "src/task_dynamics/OneStepToZero.cpp:52-60", "src/constraint/LinearizedTaskConstraint.cpp:18-163", "include/tvm/scheme/abstract/ResolutionScheme.h:70-81"]}
{"id": "C113", "title": "Inequality tasks of the second order are kept", "statement": "In the control loop, a task with proportional derivative dynamics whose gains are kp = a b and kv = a + b and whose inequality holds at the beginning with a velocity not beyond -a times the distance to the limit is never violated, and the distance is at least the initial one times exp(-a t). The same holds with a resolution every dt, at the resolutions and in between, when the recurrence of the error has real roots that are not negative; with the default damping, when sqrt(kp) dt <= 2 - sqrt 2. It applies to the problems resolved with the weighted scheme, whatever the other tasks and the solver. Both hypotheses are needed: a larger velocity, or a larger period for which the error still vanishes, leads to a violation.", "quantifier": "all functions (affine ones with a resolution every dt), all types of tasks, gains, periods, initial states and times", "why_tests_cant": "The claim is about all times and all motions compatible with an inequality constraint, of which a solver picks one.", "anchors": ["src/task_dynamics/ProportionalDerivative.cpp:42-114", "src/constraint/LinearizedTaskConstraint.cpp:18-163", "include/tvm/Task.h:24-76", "include/tvm/scheme/abstract/ResolutionScheme.h:70-81"]}
{"id": "C114", "title": "Tasks with composed dynamics in the control loop", "statement": "In the control loop, a task with a proportional dynamics and the feed-forward term r' + kp s keeps the difference of its function with the reference r in the relation of the task with rhs + s, plus an error that decays like exp(-kp t): with s = 0 the task tracks the reference. With a proportional derivative dynamics of gains kp = a b and kv = a + b (a, b > 0) and the term r'', the difference with r tends to rhs for equality tasks, and inequalities that hold with a suitable velocity are kept. With a clamped proportional dynamics, the velocity of the function stays within the bounds and no component of the error ever grows in absolute value; when all the bounds are nonzero, the error converges to zero, along a straight line when the gain is a scalar. A bound equal to zero is accepted, and it stops all the components of the task. Feed-forward terms and clamping, in any order and number, act on the derivative that the innermost dynamics act on (the velocity for Proportional, the acceleration for ProportionalDerivative).", "quantifier": "all functions, gains, references, bounds, initial states and times", "why_tests_cant": "The claim is about all times and all motions compatible with the problems that are solved, for two dynamics obtained by composition.", "anchors": ["include/tvm/task_dynamics/FeedForward.h:17-73", "include/tvm/task_dynamics/Clamped.h:18-216", "src/task_dynamics/Proportional.cpp:28-57", "src/constraint/LinearizedTaskConstraint.cpp:18-163"]}
{"id": "C115", "title": "Pointers to variables keep them alive", "statement": "A pointer returned by createVariable, dot, subvariable, superVariable, basePrimitive or primitive keeps its variable alive, with the variables it refers to (super variable, primitive, derivative), so that no call through a pointer of the program is undefined. It holds as long as the program does not ask for the primitives of subvariables: a pointer returned by basePrimitive or primitive for a subvariable or its derivatives is valid exactly as long as another pointer obtained from subvariable is held.", "quantifier": "all sequences of creations, derivations, subvariables, calls to superVariable, basePrimitive and primitive, copies and destructions of pointers", "why_tests_cant": "The claim is about the lifetime of objects over all orders in which pointers are obtained and dropped; a read of a destroyed variable often goes unnoticed in a test.", "anchors": ["src/Variable.cpp:12-40", "src/Variable.cpp:130-158", "src/Variable.cpp:203-290", "include/tvm/Variable.h:296-319"]}
{"id": "C116", "title": "The variables that a counting vector reads exist", "statement": "A counting vector (the variables of a problem are kept in one) reads only variables that exist, if the program has pointers to the variables that are counted. It holds for variables(), and for add and remove if the program has pointers to all the variables added since the last clear. It is false of add and remove otherwise: the keys are raw pointers, remove keeps the key of a variable that is not used any more, and the next add or remove compares with it. The list returned by variables() keeps the variables that are counted, and their families, whatever pointers are dropped afterwards, and no other one.", "quantifier": "all sequences of additions, removals, calls to clear and variables and destructions of pointers, both modes of splitting", "why_tests_cant": "The claim is about the lifetime of variables over all sequences of calls; the tests keep their variables until the end.", "anchors": ["include/tvm/internal/VariableCountingVector.h:88-91", "src/internal/VariableCountingVector.cpp:11-140", "include/tvm/utils/internal/map.h:11-19", "src/scheme/WeightedLeastSquares.cpp:236-300"]}
{"id": "C117", "title": "A problem and its schemes only refer to tasks that exist", "statement": "Whatever the program does with its own pointers to tasks, the addresses that a problem and the data of its schemes have (list of tasks, callbacks, constraints, emitters of the events that wait for the next resolution) are those of tasks that exist: no call reads a destroyed task, and a task created later at the address of a destroyed one is not taken for it. It holds of linearized problems, if no task is added that the problem has and no addition throws; and in all cases if the program keeps a pointer to each task that is known. It is false otherwise, and of problems that are not linearized.", "quantifier": "all sequences of creations, copies and destructions of pointers to tasks, additions and removals of tasks and substitutions, changes of weights, updates and resolutions, exceptions included; all choices of the addresses of new tasks", "why_tests_cant": "The claim is about the lifetime of tasks over all sequences of calls, and about reuse of addresses; the tests keep their tasks until the end.", "anchors": ["src/ControlProblem.cpp:19-86", "src/LinearizedControlProblem.cpp:26-71", "include/tvm/scheme/internal/LinearizedProblemComputationData.h:24-66", "include/tvm/scheme/internal/ProblemComputationData.h:118-151", "src/scheme/WeightedLeastSquares.cpp:40-96", "src/scheme/WeightedLeastSquares.cpp:221-314", "include/tvm/utils/internal/map.h:11-19"]}
{"id": "C118", "title": "The update graph of a problem only refers to nodes that exist", "statement": "Whatever the program does with its own pointers to nodes, the construction of the plan of a problem visits only nodes that exist, and so does the plan when it runs after it was refreshed: each input of the updater is kept alive with all that it depends upon, until it is removed. It holds if dependencies are declared with shared pointers, or by reference to the node itself or to what one of its data members keeps; if no node withdraws an input it depends upon; and if an addition of an input does not throw after its first output. It is false otherwise, and a plan that runs after the removal of an input without being refreshed may call a destroyed node.", "quantifier": "all sequences of creations, copies and destructions of pointers to nodes, declarations of dependencies, additions and removals of inputs and refreshes, exceptions included; all graphs of nodes", "why_tests_cant": "The claim is about the lifetime of all the nodes of any graph over all sequences of calls; the tests keep their nodes until the end.", "anchors": ["include/tvm/graph/internal/Inputs.h:75-82", "include/tvm/graph/internal/Inputs.hpp:44-121", "include/tvm/graph/abstract/Node.hpp:127-269", "include/tvm/graph/CallGraph.h:36-107", "src/graph/CallGraph.cpp:14-115", "include/tvm/ControlProblem.h:148-160", "src/ControlProblem.cpp:88-101"]}
{"id": "C119", "title": "The solver follows the tasks though their priority levels change", "statement": "Whatever the additions and removals of tasks and substitutions, the resolutions, and the changes of priority levels in between, when a resolution reaches the solver, the solver has exactly the constraints of the tasks present, each in the role that its priority level tells at that time; nothing is left of the removed tasks, no assertion fails and the resolution returns if the tasks present are supported. It holds if a task is given another priority level only when the solver does not have it (before the resolution that follows its addition, after the one that follows its removal, or while the data are to be rebuilt). It is false otherwise: a task whose priority level changed between 0 and 1 after a resolution keeps its former role, and when it is removed its constraint is not removed from the solver.", "quantifier": "all sequences of calls on a problem with a weighted least-squares scheme, all changes of priority levels, ways to evaluate violations, variables and possible uses as bounds in between", "why_tests_cant": "The claim is about every interleaving of changes of requirements with calls; the tests set the priority levels once.", "anchors": ["src/scheme/WeightedLeastSquares.cpp:40-96", "src/scheme/WeightedLeastSquares.cpp:221-314", "src/ControlProblem.cpp:73-86", "include/tvm/requirements/SolvingRequirements.h:20-90", "src/solver/LeastSquareSolver.cpp:183-292"]}
{"id": "C120", "title": "A least-squares solver runs the assignments of its constraints and refers to nothing destroyed", "statement": "Whatever the builds, additions, removals, changes of weights and exceptions, the assignments that a resolution runs are, in this order, those made for the constraints added and not removed since the last build; the maps from constraints to assignments register each of them exactly once and hold no pointer to a destroyed one; a resolution throws exactly when the last build or processing is not finished. If every addition that begins makes an assignment, the keys of the maps are the constraints that have assignments and no call reads a destroyed constraint, whatever the program does with its own pointers. It is false for an addition that throws while it makes its assignment: the constraint stays in the map, it is read by later processings though it may be destroyed, and its rows are counted but never written. A build ends exactly when the rows added are as many as announced.", "quantifier": "all sequences of calls of startBuild, addBound, addConstraint, addObjective, finalizeBuild, process and solve, exceptions included; all programs that copy and release pointers to constraints", "why_tests_cant": "The claim is about all sequences of changes and exceptions; the tests make no addition throw and keep their constraints until the end.", "anchors": ["include/tvm/solver/abstract/LeastSquareSolver.h:166-240", "src/solver/LeastSquareSolver.cpp:11-37", "src/solver/LeastSquareSolver.cpp:46-127", "src/solver/LeastSquareSolver.cpp:139-167", "src/solver/LeastSquareSolver.cpp:183-292", "src/solver/LeastSquareSolver.cpp:294-420"]}
{"id": "C121", "title": "Identifiers identify objects, and the maps ordered by them are maps from objects", "statement": "Whatever the constructions, moves and destructions, two different objects with an identifier (variables, vectors of variables, constraints, tasks of a problem, schemes) never have the same one, unless both were moved from, and a new object gets an identifier that no object ever had. The identifier of an object is the number of the construction it comes from, through any number of moves. The maps ordered by identifiers (constraints of a problem, callback tokens, assignments of the solvers, counts of variables) are maps from objects, whatever the shape of the tree: no call is undefined, a search finds the value last given to the object, the iteration goes through the objects in the order of their constructions, provided that keys are neither null nor moved from, and that an object is neither moved nor destroyed while it is a key. It is false otherwise: a move assignment of an object to itself takes its identifier away; two objects moved from are the same key; when a key is moved, other keys are not found any more; when a key is destroyed, any search is undefined; a null key is equivalent to all the keys, so that a search finds the first entry and an erasure empties the map.", "quantifier": "all sequences of constructions, moves, destructions, searches, assignments, insertions and erasures; all search trees with a given content", "why_tests_cant": "The claim is about all sequences of operations and all shapes of trees; the tests use a few objects that live until the end and are not moved.", "anchors": ["include/tvm/internal/ObjWithId.h:13-34", "include/tvm/internal/IdProvider.h:15-32", "include/tvm/utils/internal/map.h:11-48", "include/tvm/LinearizedControlProblem.h:102", "include/tvm/ControlProblem.h:118", "include/tvm/solver/abstract/LeastSquareSolver.h:184"]}
{"id": "C122", "title": "Builds of a hierarchical solver that was already built", "statement": "startBuild, the additions, the bounds and finalizeBuild set a hierarchical solver up for the problem described, whatever the solver was used for before: if the declared sizes are those of the constraints, the build succeeds, and the resolutions give LexLS exactly the levels of this build, as long as the vector of variables lives until finalizeBuild. It is proved for the first build and for the later ones when the former builds left no row at the levels of the new one, had no more levels, and did not put bounds in the first level that the new build lacks. It is false otherwise: a build succeeds if and only if no former build left rows at its levels (startBuild does not reset the counters), so that a solver with constraints can never be built again; with fewer levels, the levels of the former build are given to LexLS too, and the minimum norm is written in one of them; without bounds after a build with bounds in the first level, the resolution writes in memory freed or reused; and a resolution reads the vector of variables, though it need not exist any more.", "quantifier": "all declared sizes, all lists of constraints and bounds, all states of the solver before, all values", "why_tests_cant": "The claim is about all histories of a solver; the tests build each hierarchical solver once.", "anchors": ["src/solver/HierarchicalLeastSquareSolver.cpp:45-158", "src/solver/LexLSHierarchicalLeastSquareSolver.cpp:46-208", "include/tvm/solver/abstract/HierarchicalLeastSquareSolver.h:36-60"]}
{"id": "C123", "title": "With the hierarchical scheme, the priorities that can be achieved together are achieved, and the others are the best possible", "statement": "After a resolution with the hierarchical scheme: if the constraints used for substitutions, the bounds and the constraints of the priorities up to q (with positive weights) can be satisfied together, they are satisfied by the values of the variables, whatever the following priorities ask for. The same for the tasks they come from: along any motion whose derivatives are the values computed, the tasks of the priorities up to q are achieved if some motion through the same state achieves them. And for the priorities from 1 on no motion that achieves the tasks of the priority 0, of the bounds and of the substitutions is better: what is wrong in the derivatives of the tasks (weighted squares, priority after priority) is minimal in the lexicographic order. Proved under the conditions for which the resolution is right (C98): no feasibility issue at the priority 0, unknowns and other sides within the constant that stands for infinity, weights not negative. In a control loop that solves such a problem at each time (tasks, substitutions and solver may change from one time to the next), a task of one of the priorities up to q behaves as its dynamics say whatever the following priorities ask for: with proportional dynamics its error vanishes at the rate of the gain and an inequality that holds is never violated. With a resolution every dt that keeps the velocities in between, and an affine function, the one-step dynamics attain their target after one step; with accelerations kept in between, the error of an equality task with proportional derivative dynamics vanishes under the condition of C112.", "quantifier": "all problems, all numbers of priorities, all q, all tasks (order one or two, differentiable functions), all motions, all weights", "why_tests_cant": "The claim compares the result with all possible motions, for all problems; the tests check the result of a few hierarchical problems.", "anchors": ["src/scheme/HierarchicalLeastSquares.cpp:20-221", "src/solver/LexLSHierarchicalLeastSquareSolver.cpp:46-208", "src/constraint/internal/LinearizedTaskConstraint.cpp:19-128"]}
{"id": "C124", "title": "The side that a constraint does not have is written with the infinity of the scheme that solves the problem", "statement": "A one-sided constraint given to a solver of double-sided rows gets, for its other side, plus or minus the number big_number of a scheme. For every program with any number of problems and schemes, at any time, every row of the data of a problem for a scheme means its constraint together with nothing but this limit, and the limit is the big_number of that scheme. Proved after each build or reset (whatever other schemes did before), for every program in which no number is set, and for every program in which the schemes that build share one number given before they build. False when two schemes have different numbers (an update of one problem uses the number of the scheme that built last, since it is a static variable) and when the number of a scheme is changed after a build. Rows of one-sided targets never depend on the number. For bounds, the box also depends on the option big_number of the solver, which is another number: exactly described, and the claim is false when the number of the scheme is the smaller one.", "quantifier": "all sequences of builds, resets, updates, weight changes, changes of the number, destructions and exceptions, on any number of problems and schemes; all sources, targets, variables, data, weights and points", "why_tests_cant": "The tests use one number, the default one, and the claim fails only through the order of the operations on different problems and schemes, which are infinitely many.", "anchors": ["src/scheme/Assignment.cpp:18", "src/scheme/Assignment.cpp:270-320", "src/scheme/WeightedLeastSquares.cpp:176-219", "src/scheme/HierarchicalLeastSquares.cpp:169-190", "src/scheme/ResolutionScheme.cpp:13-24"]}
