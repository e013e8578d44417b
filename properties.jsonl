{"id": "C01", "title": "DdStructure(spec) represents the spec's Boolean function", "statement": "If a DD specification obeys the documented contract (every child level code is below its parent's level; equivalent states behave alike), then the structure built from it, read as a BDD, maps every assignment to the terminal that following the specification itself reaches.", "quantifier": "for every lawful specification of every arity and state type, every hash function, and every assignment of values to levels", "why_tests_cant": "Specifications are arbitrary user code with unbounded state spaces; a test fixes one specification and a few assignments.", "anchors": ["include/tdzdd/dd/DdBuilder.hpp: DdBuilder::initialize, construct", "include/tdzdd/DdStructure.hpp: DdStructure(DdSpecBase), construct_", "include/tdzdd/dd/DdSweeper.hpp: DdSweeper::update"]}
{"id": "C02", "title": "DdStructure(spec) represents the spec's family of sets", "statement": "Under the same contract, the built structure, read as a ZDD over levels 1..n, contains exactly the value vectors that the specification accepts under the zero-suppress rule.", "quantifier": "for every lawful specification, every n not below the root level, and every value vector over n levels", "why_tests_cant": "The itemset space is exponential in n and the specification is arbitrary.", "anchors": ["include/tdzdd/dd/DdBuilder.hpp: DdBuilder", "include/tdzdd/DdStructure.hpp: construct_", "include/tdzdd/dd/DdSweeper.hpp: update"]}
{"id": "C03", "title": "Construction is free of dangling and uninitialised accesses", "statement": "While a structure is being built from a lawful specification, with dead nodes being swept away between levels, no result is ever written through a pointer into a row that the sweep has moved or shrunk, and no edge is read before it has been written; construction always finishes.", "quantifier": "for every lawful specification, at every level and every point where a sweep may fire", "why_tests_cant": "Whether a sweep fires depends on the ratio of dead to all nodes at each level; memory errors through stale pointers are silent on most inputs.", "anchors": ["include/tdzdd/dd/DdBuilder.hpp: DdBuilder::construct (srcPtr)", "include/tdzdd/dd/DdSweeper.hpp: DdSweeper::update (sweepLevel)"]}
{"id": "C04", "title": "Equivalent states share one node; result does not depend on the hash function", "statement": "At each level the structure has at most one node per equivalence class of reached states, and exactly one for every class from which the 1-terminal can be reached (dead classes may be swept away); two hash functions that both respect the state equivalence give identical structures.", "quantifier": "for every lawful specification and every pair of admissible hash functions", "why_tests_cant": "Collisions depend on the hash function and on table sizes; tests exercise one hash function.", "anchors": ["include/tdzdd/dd/DdBuilder.hpp: DdBuilder::construct", "include/tdzdd/util/MyHashTable.hpp: MyHashTable::add"]}
{"id": "C05", "title": "Parallel construction gives the same function and family for every schedule", "statement": "With useMP=true the structure represents the same Boolean function and family as the sequential one, whatever the number of threads and tasks and whatever order tasks are processed in.", "quantifier": "for every lawful specification that does not prune (mergeStates answers 0), every number of threads and tasks, every assignment of tasks to threads and every order of the memory accesses", "why_tests_cant": "Dynamic OpenMP scheduling makes the interleaving nondeterministic; a test run sees one schedule.", "anchors": ["include/tdzdd/dd/DdBuilder.hpp: DdBuilderMP::construct", "include/tdzdd/DdStructure.hpp: constructMP_"]}
{"id": "C06", "title": "Pruning by mergeStates only removes solutions", "statement": "When a specification's mergeStates asks the builder to forward one of two equivalent nodes to the 0-terminal, every itemset of the resulting structure is still an itemset of the specification.", "quantifier": "for every specification and every (non-mutating) mergeStates outcome sequence", "why_tests_cant": "The outcome depends on the order in which equal states meet in the unique table.", "anchors": ["include/tdzdd/dd/DdBuilder.hpp: DdBuilder::construct (merge_states), oneSrcPtr", "include/tdzdd/dd/DdBuilder.hpp: DdBuilderMP::construct (merge_states)"]}
{"id": "C07", "title": "bddReduce() keeps the Boolean function", "statement": "Calling bddReduce() never changes the value of any assignment under BDD reading.", "quantifier": "for every well-formed structure of every arity and every assignment", "why_tests_cant": "Structures are unbounded graphs; the in-place list threading of the algorithm has many shapes.", "anchors": ["include/tdzdd/dd/DdReducer.hpp: DdReducer<ARITY,true,false>", "include/tdzdd/DdStructure.hpp: bddReduce"]}
{"id": "C08", "title": "zddReduce() keeps the family of sets", "statement": "Calling zddReduce() never adds or removes an itemset under ZDD reading.", "quantifier": "for every well-formed structure of every arity and every value vector", "why_tests_cant": "Same as C07.", "anchors": ["include/tdzdd/dd/DdReducer.hpp: DdReducer<ARITY,false,true>", "include/tdzdd/DdStructure.hpp: zddReduce"]}
{"id": "C09", "title": "qddReduce() keeps both readings", "statement": "Calling qddReduce() changes neither the Boolean function nor the family of sets.", "quantifier": "for every well-formed structure of every arity, every assignment and value vector", "why_tests_cant": "Same as C07; qddReduce also drops all-zero nodes, which the documentation does not mention.", "anchors": ["include/tdzdd/dd/DdReducer.hpp: DdReducer<ARITY,false,false>", "include/tdzdd/DdStructure.hpp: qddReduce"]}
{"id": "C10", "title": "bddReduce() is canonical", "statement": "After bddReduce() no node has all edges to the same child and no two nodes of a level have the same edges; two structures over the same variables with the same Boolean function are equal (operator==) after bddReduce().", "quantifier": "for every pair of well-formed structures", "why_tests_cant": "Canonicity is a statement about all pairs of diagrams of the same function.", "anchors": ["include/tdzdd/dd/DdReducer.hpp: DdReducer", "include/tdzdd/DdStructure.hpp: bddReduce, operator=="]}
{"id": "C11", "title": "zddReduce() is canonical", "statement": "After zddReduce() no node has all non-zero-labelled edges to the 0-terminal and no two nodes of a level have the same edges; two structures with the same family are equal (operator==) after zddReduce().", "quantifier": "for every pair of well-formed structures", "why_tests_cant": "Same as C10.", "anchors": ["include/tdzdd/dd/DdReducer.hpp: DdReducer", "include/tdzdd/DdStructure.hpp: zddReduce, operator=="]}
{"id": "C12", "title": "Parallel reduction agrees with the sequential one for every schedule", "statement": "With useMP the reduced structure represents the same function or family and satisfies the same reducedness conditions, however nodes are partitioned into tasks and in whatever order tasks run.", "quantifier": "for every well-formed structure, number of tasks/threads and schedule", "why_tests_cant": "OpenMP dynamic scheduling; a test sees one schedule.", "anchors": ["include/tdzdd/dd/DdReducer.hpp: DdReducer::reduceMP_"]}
{"id": "C13", "title": "Reduction is idempotent and never grows a structure", "statement": "Reducing a reduced structure leaves it equal to itself, and size() never increases under any reduction.", "quantifier": "for every well-formed structure", "why_tests_cant": "Universal over all diagrams.", "anchors": ["include/tdzdd/dd/DdReducer.hpp: DdReducer", "include/tdzdd/DdStructure.hpp: reduce, size"]}
{"id": "C14", "title": "A reduced structure is smallest", "statement": "After zddReduce() (bddReduce()) of a structure all of whose nodes are reachable, size() is at most the size of any structure representing the same family (function).", "quantifier": "for every pair of structures representing the same object", "why_tests_cant": "Quantifies over all competing diagrams.", "anchors": ["include/tdzdd/DdStructure.hpp: zddReduce, bddReduce, size"]}
{"id": "C15", "title": "operator== is sound, and complete on reduced structures", "statement": "If a == b is true then a and b denote the same function and the same family; for structures without duplicate nodes a == b is true exactly when they unfold to the same diagram. (On structures with duplicate nodes it can answer false even for two copies of the same diagram.)", "quantifier": "for every pair of well-formed structures", "why_tests_cant": "Quantifies over all pairs of diagrams.", "anchors": ["include/tdzdd/DdStructure.hpp: operator=="]}
{"id": "C16", "title": "bddAnd is conjunction", "statement": "bddAnd(s1,s2) accepts an assignment exactly when both s1 and s2 accept it.", "quantifier": "for every pair of lawful specifications (binary) and every assignment; also under nesting", "why_tests_cant": "Operands skip levels independently; their level codes interleave in unboundedly many ways.", "anchors": ["include/tdzdd/op/BinaryOperation.hpp: BddAnd_::getRoot, getChild", "include/tdzdd/DdSpecOp.hpp: bddAnd"]}
{"id": "C17", "title": "bddOr is disjunction", "statement": "bddOr(s1,s2) accepts an assignment exactly when s1 or s2 accepts it.", "quantifier": "for every pair of lawful specifications and every assignment", "why_tests_cant": "Same as C16.", "anchors": ["include/tdzdd/op/BinaryOperation.hpp: BddOr_::getRoot, getChild", "include/tdzdd/DdSpecOp.hpp: bddOr"]}
{"id": "C18", "title": "zddIntersection is set intersection", "statement": "The family of zddIntersection(s1,s2) is the intersection of the two families, and its level-alignment loop terminates.", "quantifier": "for every pair of lawful specifications and every itemset", "why_tests_cant": "Same as C16; termination of the alignment loop needs an argument over all level sequences.", "anchors": ["include/tdzdd/op/BinaryOperation.hpp: ZddIntersection_::getRoot, getChild", "include/tdzdd/DdSpecOp.hpp: zddIntersection"]}
{"id": "C19", "title": "zddUnion is set union", "statement": "The family of zddUnion(s1,s2) is the union of the two families.", "quantifier": "for every pair of lawful specifications and every itemset", "why_tests_cant": "Same as C16.", "anchors": ["include/tdzdd/op/BinaryOperation.hpp: ZddUnion_::getRoot, getChild", "include/tdzdd/DdSpecOp.hpp: zddUnion"]}
{"id": "C20", "title": "bddLookahead keeps the Boolean function", "statement": "bddLookahead(s) denotes the same Boolean function as s, never returns a node all of whose children (in s) coincide, and its loop terminates.", "quantifier": "for every lawful specification of every arity and every assignment", "why_tests_cant": "Chains of redundant nodes have unbounded length.", "anchors": ["include/tdzdd/op/Lookahead.hpp: BddLookahead::lookahead", "include/tdzdd/DdSpecOp.hpp: bddLookahead"]}
{"id": "C21", "title": "zddLookahead keeps the family", "statement": "zddLookahead(s) denotes the same family as s, never returns a node all of whose children (in s) for non-zero values are the 0-terminal, and its loop terminates.", "quantifier": "for every lawful specification of every arity and every itemset", "why_tests_cant": "Same as C20.", "anchors": ["include/tdzdd/op/Lookahead.hpp: ZddLookahead::lookahead", "include/tdzdd/DdSpecOp.hpp: zddLookahead"]}
{"id": "C22", "title": "bddUnreduction keeps the function and skips no level", "statement": "bddUnreduction(s,n) denotes the same Boolean function as s; every path that does not end early at 0 visits each level from max(n, root level) down to 1.", "quantifier": "for every lawful specification, every n and every assignment", "why_tests_cant": "Level skips are unbounded.", "anchors": ["include/tdzdd/op/Unreduction.hpp: Unreduction_<T,S,false>", "include/tdzdd/DdSpecOp.hpp: bddUnreduction"]}
{"id": "C23", "title": "zddUnreduction turns the ZDD reading into a level-complete diagram", "statement": "zddUnreduction(s,n) denotes the same family as s, and read as a BDD it accepts exactly the members of that family (value vectors over levels 1..max(n, root level)).", "quantifier": "for every lawful specification, every n and every value vector", "why_tests_cant": "Level skips are unbounded.", "anchors": ["include/tdzdd/op/Unreduction.hpp: Unreduction_<T,S,true>", "include/tdzdd/DdSpecOp.hpp: zddUnreduction"]}
{"id": "C24", "title": "bdd2zdd converts a function into its family of satisfying vectors", "statement": "dd.bdd2zdd(n), read as a ZDD over levels 1..n, contains a value vector exactly when dd, read as a BDD, accepts it.", "quantifier": "for every well-formed structure with root level at most n and every value vector", "why_tests_cant": "Composition of three passes over arbitrary diagrams.", "anchors": ["include/tdzdd/DdStructure.hpp: bdd2zdd"]}
{"id": "C25", "title": "zdd2bdd is the inverse conversion", "statement": "dd.zdd2bdd(n), read as a BDD, accepts a value vector over levels 1..n exactly when it is in the family of dd; hence zdd2bdd(n) after bdd2zdd(n) gives back the same function and conversely.", "quantifier": "for every well-formed structure with root level at most n and every value vector", "why_tests_cant": "Composition of three passes over arbitrary diagrams.", "anchors": ["include/tdzdd/DdStructure.hpp: zdd2bdd, bdd2zdd"]}
{"id": "C26", "title": "Operators preserve the specification contract", "statement": "If the operands obey the specification contract (descending levels, state equivalence respected by hash and behaviour), so do bddAnd, bddOr, zddIntersection, zddUnion, both lookaheads and both unreductions of them, so any nested expression can be built and has the meaning of the expression.", "quantifier": "for every expression tree over lawful specifications", "why_tests_cant": "Nesting depth is unbounded.", "anchors": ["include/tdzdd/op/BinaryOperation.hpp: equal_to, hash_code", "include/tdzdd/op/Lookahead.hpp", "include/tdzdd/op/Unreduction.hpp: equal_to, hash_code"]}
{"id": "C27", "title": "zddSubset is intersection with a specification", "statement": "dd.zddSubset(spec) leaves dd with exactly the itemsets of the old dd that spec accepts, with no invalid memory access.", "quantifier": "for every well-formed structure, every lawful specification and every itemset", "why_tests_cant": "Both operands are unbounded and skip levels independently.", "anchors": ["include/tdzdd/dd/DdBuilder.hpp: ZddSubsetter::initialize, subset, downTable, downSpec", "include/tdzdd/DdStructure.hpp: zddSubset"]}
{"id": "C28", "title": "Parallel zddSubset agrees for every schedule", "statement": "With useMP, zddSubset leaves exactly the same family, whatever the thread count and schedule.", "quantifier": "for every well-formed structure, every lawful specification that does not prune, and every schedule", "why_tests_cant": "Schedules are nondeterministic.", "anchors": ["include/tdzdd/dd/DdBuilder.hpp: ZddSubsetterMP"]}
{"id": "C29", "title": "evaluate() computes the bottom-up fold of the diagram", "statement": "dd.evaluate(e) equals the value obtained by applying evalTerminal/evalNode recursively from the root; early release of finished levels never discards a value that is still needed.", "quantifier": "for every well-formed structure, every evaluator without side effects between nodes", "why_tests_cant": "The release order depends on the level-skip pattern of the diagram.", "anchors": ["include/tdzdd/DdStructure.hpp: evaluate", "include/tdzdd/dd/NodeTable.hpp: makeIndex, lowerLevels"]}
{"id": "C30", "title": "zddCardinality() is the exact number of itemsets", "statement": "dd.zddCardinality() is the decimal representation of the number of itemsets in the family, however large.", "quantifier": "for every well-formed structure and every number of variables not below the root level", "why_tests_cant": "Counts grow to thousands of digits; carries across 63-bit words occur only on large inputs.", "anchors": ["include/tdzdd/eval/Cardinality.hpp: ZddCardinality", "include/tdzdd/util/BigNumber.hpp", "include/tdzdd/DdStructure.hpp: zddCardinality"]}
{"id": "C31", "title": "bddCardinality(n) is the exact number of satisfying assignments", "statement": "dd.bddCardinality(n) is the decimal representation of the number of assignments to n variables accepted by dd, for n not below the root level, and the computation stays inside the storage it allocated.", "quantifier": "for every well-formed structure and every n at least the root level", "why_tests_cant": "Shifts across word boundaries and storage limits occur only for particular n and root level.", "anchors": ["include/tdzdd/eval/Cardinality.hpp: BddCardinality, CardinalityBase<E,std::string>::getValue", "include/tdzdd/util/BigNumber.hpp: shiftLeft"]}
{"id": "C32", "title": "BigNumber arithmetic is exact", "statement": "add, shiftLeft, store, comparison, translate and decimal output of a BigNumber agree with unbounded natural number arithmetic, and report exactly the number of words they use.", "quantifier": "for all numbers of any length in 63-bit-word representation", "why_tests_cant": "Carry chains of every length and position cannot be enumerated.", "anchors": ["include/tdzdd/util/BigNumber.hpp: BigNumber::add, shiftLeft, store, operator==, divide, translate, operator<<"]}
{"id": "C33", "title": "Iteration visits every itemset exactly once and stops", "statement": "From begin() to end(), the iterator yields each itemset of the family exactly once and nothing else, and reaches end() after finitely many increments.", "quantifier": "for every well-formed binary structure (reduced or not)", "why_tests_cant": "The iterator is a state machine with backtracking over arbitrary graphs.", "anchors": ["include/tdzdd/DdStructure.hpp: const_iterator::next, begin, end"]}
{"id": "C34", "title": "Iteration is in increasing order of level codes", "statement": "Consecutive itemsets are strictly increasing when compared from the highest level downwards (absent before present).", "quantifier": "for every well-formed binary structure", "why_tests_cant": "Quantifies over all consecutive pairs of all diagrams.", "anchors": ["include/tdzdd/DdStructure.hpp: const_iterator::next"]}
{"id": "C35", "title": "findOneInstance returns a solution or throws correctly", "statement": "findOneInstance() returns a list of (level, value) pairs that drives the specification to the 1-terminal, and throws exactly when the specification has no solution, whatever the random choices are.", "quantifier": "for every lawful specification and every sequence of random numbers", "why_tests_cant": "Random choices give exponentially many search orders.", "anchors": ["include/tdzdd/dd/DepthFirstSearcher.hpp: findOneInstance, findOneInstanceStep"]}
{"id": "C36", "title": "DdStructure(n) is the power set / the tautology", "statement": "DdStructure(n) contains every value vector over levels 1..n as a ZDD, accepts every assignment as a BDD, has n nodes, and has N^n members.", "quantifier": "for every n and arity N", "why_tests_cant": "Universal in n.", "anchors": ["include/tdzdd/DdStructure.hpp: DdStructure(int, bool)"]}
{"id": "C37", "title": "SizeConstraint accepts exactly the sets of admissible size", "statement": "SizeConstraint(n,c) accepts a subset of n items exactly when its size satisfies c; with a null constraint it accepts everything.", "quantifier": "for every n>=1, every IntSubset whose bounds enclose its members, and every subset", "why_tests_cant": "Exponentially many subsets; pruning tests at the bounds are off-by-one prone.", "anchors": ["include/tdzdd/spec/SizeConstraint.hpp: getRoot, getChild", "include/tdzdd/util/IntSubset.hpp"]}
{"id": "C38", "title": "IntRange membership is an arithmetic progression", "statement": "IntRange(min,max,step).contains(x) holds exactly when min<=x<=max and x-min is a multiple of step, provided step is non-zero and x-min does not overflow.", "quantifier": "for all int arguments", "why_tests_cant": "The argument space is 2^128.", "anchors": ["include/tdzdd/util/IntSubset.hpp: IntRange::contains"]}
{"id": "C39", "title": "LinearConstraints accepts exactly the solutions of the linear system", "statement": "After addConstraint calls with variables in 1..n and update(), the specification accepts a 0/1 vector exactly when every lb <= sum <= ub holds; state compression and slot reuse lose nothing.", "quantifier": "for every n, every list of constraints with integer weights, and every 0/1 vector", "why_tests_cant": "Slot sharing between constraints and state compression depend on the whole set of constraints.", "anchors": ["include/tdzdd/spec/LinearConstraints.hpp: addConstraint, update, getRoot, getChild"]}
{"id": "C40", "title": "DegreeConstraint accepts exactly the edge sets with admissible degrees", "statement": "DegreeConstraint over a loop-free graph accepts an edge set exactly when the degree of every constrained vertex satisfies its constraint, with or without lookahead.", "quantifier": "for every graph without self-loops, every per-vertex constraint and every edge set", "why_tests_cant": "The frontier window slides differently for every graph.", "anchors": ["include/tdzdd/spec/DegreeConstraint.hpp: getRoot, getChild, takable, leavable, shiftMate", "include/tdzdd/util/Graph.hpp: update"]}
{"id": "C41", "title": "Graph preprocessing is correct", "statement": "After update(), vertices are numbered 1..vertexSize() in the order in which they are last used; for each edge, v1<=v2, v1final/v2final hold exactly when it is the vertex's last edge, v1final2/v2final2 exactly when it is the second last, and v0 is the smallest vertex still in use.", "quantifier": "for every edge list", "why_tests_cant": "Universal over graphs.", "anchors": ["include/tdzdd/util/Graph.hpp: update, edgeInfo"]}
{"id": "C42", "title": "Frontier windows stay in bounds", "statement": "For every edge, the window [v0, v0+maxFrontierSize()) contains both endpoints and every vertex that has been used and is not yet finished, so the frontier-based specifications index their arrays in bounds; v0 never decreases, and only endpoints of the finished edge that no later edge uses can leave when the window moves.", "quantifier": "for every edge list and every edge", "why_tests_cant": "Universal over graphs.", "anchors": ["include/tdzdd/util/Graph.hpp: update, maxFrontierSize", "include/tdzdd/spec/DegreeConstraint.hpp: shiftMate", "include/tdzdd/spec/FrontierBasedSearch.hpp: update", "include/tdzdd/spec/PathZdd.hpp: shiftMate"]}
{"id": "C43", "title": "CycleZdd/HamiltonCycleZdd accept exactly the (Hamiltonian) simple cycles", "statement": "CycleZdd(g) accepts an edge set exactly when it forms one simple cycle; HamiltonCycleZdd exactly when the cycle visits every vertex.", "quantifier": "for every simple graph and every edge set", "why_tests_cant": "Correctness of the mate bookkeeping over all graphs and all edge subsets.", "anchors": ["include/tdzdd/spec/PathZdd.hpp: SimpathBasedImpl"]}
{"id": "C44", "title": "PathZdd accepts exactly the vertex-disjoint paths joining the coloured pairs", "statement": "PathZdd(g) on a graph with two terminals of each colour accepts an edge set exactly when it is a set of vertex-disjoint simple paths, one joining the two terminals of each colour.", "quantifier": "for every simple graph with colour pairs and every edge set", "why_tests_cant": "Same as C43.", "anchors": ["include/tdzdd/spec/PathZdd.hpp: SimpathBasedImpl", "include/tdzdd/util/Graph.hpp: colorNumber"]}
{"id": "C45", "title": "NodeId packs and unpacks losslessly", "statement": "NodeId(row,col,attr) returns the same row, column and attribute; equality, order and hash ignore the attribute, agree with the lexicographic order of (row,col), and distinct nodes get distinct codes.", "quantifier": "for every row < 2^20 and column < 2^43", "why_tests_cant": "2^64 codes.", "anchors": ["include/tdzdd/dd/Node.hpp: NodeId"]}
{"id": "C46", "title": "MyHashTable behaves as a set/map for any hash function", "statement": "After any sequence of add/initialize/clear/rehash operations, get(x) finds the stored element equivalent to x exactly if one was added, add returns the first equivalent element, size() is the number of classes, and every probe terminates.", "quantifier": "for every hash function respecting the equivalence and every operation sequence", "why_tests_cant": "Collision patterns and rehash points depend on the sequence and hash values.", "anchors": ["include/tdzdd/util/MyHashTable.hpp: MyHashTable::add, get, rehash, initialize; MyHashConstant::primeSize"]}
{"id": "C47", "title": "NodeTableHandler gives value semantics", "statement": "Copying a handle and then modifying one of the two through privateEntity/init/derefLevel never changes what the other sees; every table is freed exactly once when its last handle dies. (Self-assignment of the only handle is a use-after-free.)", "quantifier": "for every sequence of handle operations", "why_tests_cant": "Sharing histories are unbounded.", "anchors": ["include/tdzdd/dd/NodeTable.hpp: NodeTableHandler"]}
{"id": "C48", "title": "MemoryPool hands out disjoint storage", "statement": "Blocks returned by allocate since the last clear are pairwise disjoint and inside storage owned by the pool, never overlap the links between the pool's blocks, keep the values written to them, and all storage is released with the pools. (reuse after an allocation of more than 40000 bytes is wrong in the code.)", "quantifier": "for every sequence of allocate/clear/splice/reuse/move calls on any number of pools and sizes from 1 to 2^64-8, with reuse only while all allocations since the last clear are of at most 40000 bytes", "why_tests_cant": "Allocation sequences are unbounded; the reuse path depends on which block is oldest.", "anchors": ["include/tdzdd/util/MemoryPool.hpp: MemoryPool::alloc, reuse, splice, clear"]}
{"id": "C49", "title": "MyList is a LIFO list on stable storage", "statement": "alloc_front/pop_front behave as push/pop of a stack, blocks never overlap while alive, iteration visits elements from newest to oldest, and clear frees every block once.", "quantifier": "for every sequence of operations and element sizes", "why_tests_cant": "Block boundaries depend on the sequence.", "anchors": ["include/tdzdd/util/MyList.hpp: MyList::alloc_front, pop_front, clear"]}
{"id": "C50", "title": "MyVector behaves as a sequence", "statement": "push_back, pop_back, resize, reserve, init, copy, swap, clear and comparison behave as on an ordinary sequence, capacity always covers the elements, every element is constructed and destructed exactly once and no memory is leaked. (Self-assignment, push_back of an own element and erase in the middle are wrong in the code and excluded.)", "quantifier": "for every sequence of operations", "why_tests_cant": "Operation sequences are unbounded.", "anchors": ["include/tdzdd/util/MyVector.hpp: MyVector"]}
{"id": "C51", "title": "MySmallSet is a sorted set", "statement": "add/remove/includes/intersects/containsAll on a MySmallSet behave as on a finite set, keep elements sorted without duplicates, and throw only when the capacity is reached.", "quantifier": "for every sequence of operations", "why_tests_cant": "Operation sequences are unbounded.", "anchors": ["include/tdzdd/util/MySet.hpp: MySmallSet"]}
{"id": "C52", "title": "MyBitSet is a set of small integers", "statement": "add/remove/includes/clear/empty/intersects/iteration on a MyBitSet behave as on a finite set of integers below 64*words.", "quantifier": "for every sequence of operations and every element", "why_tests_cant": "2^(64N) states.", "anchors": ["include/tdzdd/util/MySet.hpp: MyBitSet"]}
{"id": "C53", "title": "PathCounter counts 1-paths", "statement": "PathCounter's counts equal the number of solutions of the specification (modulo 2^64 for count64).", "quantifier": "for every lawful binary specification", "why_tests_cant": "Same as C30, with level-by-level storage reuse.", "anchors": ["include/tdzdd/dd/PathCounter.hpp: count, countFast, count64"]}
{"id": "C54", "title": "stretchBottom shifts levels consistently", "statement": "Inserting n levels at the bottom of a table moves every node and edge up by n and keeps the diagram's shape; removing levels makes every edge to a removed level the 1-terminal.", "quantifier": "for every well-formed table and every n", "why_tests_cant": "Universal over tables.", "anchors": ["include/tdzdd/dd/NodeTable.hpp: stretchBottom"]}
{"id": "C55", "title": "dumpSapporo describes the diagram", "statement": "The node list printed by dumpSapporo lists every node after its children with unique even ids and correct child references; for a non-terminal root the last line is the root's id.", "quantifier": "for every well-formed binary structure with a non-terminal root to whose level no edge leads", "why_tests_cant": "Early release of per-level id tables depends on the level-skip pattern.", "anchors": ["include/tdzdd/DdStructure.hpp: dumpSapporo"]}
{"id": "C56", "title": "DdStructure used as a specification is itself", "statement": "A DdStructure passed where a specification is expected is lawful, and rebuilding a structure from it gives the same function and family.", "quantifier": "for every well-formed structure", "why_tests_cant": "Universal over diagrams.", "anchors": ["include/tdzdd/DdStructure.hpp: getRoot, getChild, hashCode"]}
{"id": "C57", "title": "FrontierBasedSearch yields exactly the wanted subgraphs", "statement": "The ZDD of FrontierBasedSearch(G, numUEC, noLoop, lookahead) contains exactly the edge sets in which coloured vertices are connected if and only if they have the same colour, which have no cycle if noLoop is set, and which have exactly numUEC components with edges but without coloured vertices if numUEC is not negative; the specification is lawful.", "quantifier": "for every loop-free coloured graph with at most 32766 vertices, every numUEC that fits into int16_t, every edge set, with and without noLoop and lookahead", "why_tests_cant": "Exponentially many edge sets and unbounded graphs; components are kept as linked lists of relative offsets in a sliding window of 16-bit numbers.", "anchors": ["include/tdzdd/spec/FrontierBasedSearch.hpp: FrontierBasedSearchMate, FrontierBasedSearch"]}
{"id": "C58", "title": "GraphillionZdd reads the diagram of the file", "statement": "Reading a file in the format of Graphillion (one line per node, any order, any spacing, comments) gives a lawful specification whose ZDD is the family of sets represented by the root of the diagram in the file, where the variable with index i is at level maxIndex - i + 1.", "quantifier": "for every text of a diagram with at least one node, identifiers below 2^57 and indices that fit into int", "why_tests_cant": "Unboundedly many texts and diagrams; character-level parsing with stream states, growing tables indexed by identifiers.", "anchors": ["include/tdzdd/spec/GraphillionZdd.hpp: addNode, read, readID, skipSpace, skipLine, getRoot, getChild"]}
{"id": "C59", "title": "The readers of Graph read what is in the file", "statement": "readEdges appends the pairs of words of the lines and throws if a line has neither no nor two words; readAdjacencyList adds an edge from vertex k to every number in line k; readVertexGroups gives every vertex the colour of the last line with it, and the colours of the first 45056 lines are different.", "quantifier": "for every ASCII text with terminated lines (readEdges) and every text of integers that fit into int (the others)", "why_tests_cant": "Unboundedly many texts; character-level state machines.", "anchors": ["include/tdzdd/util/Graph.hpp: readEdges, readAdjacencyList, readVertexGroups, getColor"]}
{"id": "C60", "title": "Colour members of Graph", "statement": "After update(), virtualMate(v) is u exactly when v and u are the only two vertices of their colour, and hasColorPairs() says that there are colours and each has exactly two vertices; when it does, PathZdd contains exactly the sets of disjoint paths joining the pairs. After clearColors(), CycleZdd contains exactly the simple cycles. setDefaultPathColor() throws exactly when there is no vertex with the name 1 or the name n, and colours exactly these two otherwise.", "quantifier": "for every edge list and colouring (loop-free graphs with at most 32767 vertices for the diagrams), and every edge set", "why_tests_cant": "Unbounded graphs and colourings; flags of the edges are left stale by clearColors().", "anchors": ["include/tdzdd/util/Graph.hpp: update, virtualMate, hasColorPairs, clearColors, setDefaultPathColor"]}
{"id": "C61", "title": "PathZddByStdMap yields exactly the rings through the terminals", "statement": "The ZDD of PathZddByStdMap contains exactly the edge sets that form one simple cycle together with a connection between the two vertices of each colour with two vertices: the simple s-t paths for one pair (the same as PathZdd), the simple cycles without colours, and never the sets of paths that join more than one pair. The specification is lawful.", "quantifier": "for every loop-free graph with an edge and at most 32767 vertices, every colouring and every edge set", "why_tests_cant": "Exponentially many edge sets and unbounded graphs; the frontier is kept in a map whose entries appear and vanish.", "anchors": ["include/tdzdd/spec/PathZddByStdMap.hpp: PathZddByStdMap"]}
{"id": "C62", "title": "FixedBigNumber detects overflow; division, comparison and output are exact", "statement": "FixedBigNumber<size> holds a number below 2^(32 size). operator+= adds, and throws exactly when the sum does not fit; divide(n) leaves the quotient and returns the remainder for 1 <= n <= 2^31; the comparisons compare the numbers; translate<T>() is the number modulo 2^bits for an unsigned type T of more than 32 bits; the output is the decimal representation.", "quantifier": "for every size, all words and every operand", "why_tests_cant": "2^(32 size) numbers; carries run through all words.", "anchors": ["include/tdzdd/util/BigNumber.hpp: FixedBigNumber"]}
{"id": "C63", "title": "NQueenZdd and NRookZdd yield exactly the placements", "statement": "The ZDD of NQueenZdd(n) contains exactly the placements of n queens on the n x n board such that every row has one and no two attack each other; NRookZdd(n) likewise for rooks; with the second argument firstCol exactly those with the piece of the last row in column n - 1 - firstCol. The specifications are lawful.", "quantifier": "for every n from 1 to 31, every firstCol below n and every set of fields", "why_tests_cant": "2^(n^2) sets of fields; the pruning (bitmaps of free columns, popcount, look-ahead loop) must never cut off a solution.", "anchors": ["apps/ddqueens/NQueenZdd.hpp: NQueenZddBase, NQueenZdd, NRookZdd"]}
{"id": "C64", "title": "ColoredNQueenZdd and ColoredNRookZdd yield exactly the colourings", "statement": "The ZDD of ColoredNQueenZdd(n) contains exactly the colourings of the fields of the n x n board with n colours such that the fields of each colour are a placement of n non-attacking queens and the field in the last row and column k has colour k; ColoredNRookZdd(n) likewise for rooks (Latin squares with the last row in order). The specifications are lawful.", "quantifier": "for every n from 1 to 31 and every assignment of truth values to the n^3 variables", "why_tests_cant": "2^(n^3) assignments; the state reuses the bitmaps of finished rows as marks.", "anchors": ["apps/ddqueens/NQueenZdd.hpp: ColoredNQueenZddBase, ColoredNQueenZdd, ColoredNRookZdd"]}
{"id": "C65", "title": "One-hot and unary codes of n-ary numbers", "statement": "OneHotNAryZdd(m, n) contains exactly the assignments in which each of n blocks of m variables has exactly one true variable. NAryZdd(m, n) contains exactly the assignments in which each of n blocks of m - 1 variables has at most one true variable and the lowest block has one: numbers whose lowest digit is 0 are missing because getChild returns level 0. The specifications are lawful.", "quantifier": "for every arity, every number of digits and every assignment", "why_tests_cant": "2^(m n) assignments.", "anchors": ["apps/ddqueens/NAryZdd.hpp: NAryZddBase, NAryZdd, OneHotNAryZdd"]}
{"id": "C66", "title": "ZddInterleave and ColoredZdd combine diagrams colour by colour", "statement": "ZddInterleave of n diagrams contains exactly the assignments whose k-th part (levels congruent k modulo n) is in the family of the k-th diagram, for each of the three constructors. ColoredZdd contains exactly those for which moreover no field has two colours and every field for which some part visits a node has a colour. The specifications are lawful.", "quantifier": "for every list of well-formed diagrams and every assignment", "why_tests_cant": "Unboundedly many diagrams and assignments; the nodes of the parts advance at different levels.", "anchors": ["apps/ddqueens/ZddInterleave.hpp: ZddInterleave", "apps/ddqueens/ColoredZdd.hpp: ColoredZdd"]}
{"id": "C67", "title": "ddqueens makes the diagrams of the solutions", "statement": "ddqueens n and ddqueens -rook n both end with a diagram of exactly the solutions of the n queens problem. ddqueens -colored1 n ends with exactly the partitions of the board into n solutions whose last row is in the order of the colours; ddqueens -colored n ends with the same family up to reversing the colours.", "quantifier": "for every n from 1 to 31 and every assignment", "why_tests_cant": "2^(n^3) assignments; the diagrams result from long pipelines of construction, subsetting and reduction.", "anchors": ["apps/ddqueens/ddqueens.cpp: main"]}
{"id": "C68", "title": "DegreeZdd yields exactly the sets of lines with the right degrees", "statement": "The ZDD of DegreeZdd(quiz) contains exactly the sets of horizontal lines of the board that can be completed by vertical lines such that every number is the end of exactly one line and every other box has no line or two; the vertical lines are determined by the horizontal ones. The specification is lawful.", "quantifier": "for every board with at least one row and two columns, all numbers, and every set of horizontal lines", "why_tests_cant": "2^(rows (cols - 1)) sets of lines; the vertical lines exist only implicitly in the state.", "anchors": ["apps/numberlink/DegreeZdd.cpp: getRoot, getChild", "apps/numberlink/DegreeZdd.hpp: DegreeZdd"]}
{"id": "C69", "title": "NumlinZdd yields exactly the solutions of Numberlink", "statement": "The ZDD of NumlinZdd(quiz, max_blank) contains exactly the sets of horizontal lines of the solutions: every number is the end of a line, the other boxes are passed by a line or blank, there is no closed line, every line joins equal numbers, and there are at most max_blank blank boxes unless max_blank is negative. Every solution belongs to exactly one member. The specification is lawful.", "quantifier": "for every board with at least one row and two columns whose numbers satisfy cols + number <= 255, every max_blank up to 65535, and every set of horizontal lines", "why_tests_cant": "2^(rows (cols - 1)) sets of lines; correctness needs an invariant about the ends of all partial lines, of which the state only keeps the frontier.", "anchors": ["apps/numberlink/NumlinZdd.cpp: getRoot, getChild", "apps/numberlink/NumlinZdd.hpp: NumlinZdd"]}
{"id": "C70", "title": "ConstraintZdd excludes detours only and keeps every puzzle solvable", "statement": "Among the sets of lines with correct degrees, the ZDD of ConstraintZdd contains exactly those without detours: no unit square has more than two sides drawn, no line goes round the lower corner of a unit square whose opposite box is blank, and every roof has a number below it. If a puzzle has a solution, then it has one without detours, so that the intersection of ConstraintZdd and NumlinZdd is not empty. The specification is lawful. This does not extend to a limited number of blank boxes.", "quantifier": "for every board with at least one row and two columns (numbers with cols + number <= 255), and every set of horizontal lines", "why_tests_cant": "the existence of a solution without detours is a statement about all boards; it needs a termination argument for the repair of detours.", "anchors": ["apps/numberlink/ConstraintZdd.cpp: getRoot, getChild", "apps/numberlink/ConstraintZdd.hpp: ConstraintZdd", "apps/numberlink/ddnumlin.cpp: run"]}
{"id": "C71", "title": "ddnumlin prints exactly the solutions", "statement": "For every board with at least two rows and two columns (numbers small enough for uint8_t) ddnumlin prints, without repetition, boards with the given numbers whose lines solve the puzzle and leave at most k boxes blank; with -a every such solution is printed (the first m with -m), without it exactly those without detours. Without a limit of the blank boxes something is printed if and only if the puzzle has a solution, and a unique solution is printed alone. This includes the transposition of wide boards and back, and the reconstruction of the vertical lines.", "quantifier": "for all boards, options -a, -k, -m", "why_tests_cant": "Needs all boards, all sets of lines on them, and both orientations; a test checks a few puzzles.", "anchors": ["apps/numberlink/ddnumlin.cpp: output, run", "apps/numberlink/Board.cpp: init, transposed_matrix, transpose, makeVerticalLinks"]}
{"id": "C72", "title": "The puzzle files of ddnumlin are read as they are meant", "statement": "readNumbers skips lines until one that begins with a digit, takes from it the numbers of columns and rows (or, with a comma between them, of rows and columns), and then takes one line per row: a number stands for itself, every other visible character for a blank box, missing boxes are blank, further ones are ignored; the lines of the board are cleared. A file without a size, with a zero size, or with another separator is refused. What writeNumbers writes is read back as the same board. With C71: from the file to the printed solutions.", "quantifier": "for all texts of the described form, all boards", "why_tests_cant": "Infinitely many texts; comments, separators, short lines, missing lines and the end of the file interact.", "anchors": ["apps/numberlink/Board.cpp: readNumbers, writeNumbers", "apps/numberlink/ddnumlin.cpp: run"]}
{"id": "C73", "title": "The pictures of ddnumlin show the solutions", "statement": "The picture of a solution has one line per row between the lines of the frame, all of equal length; the two characters of a box show its number, or a box drawing character with arms exactly in the directions of the lines through it, or nothing. If no number occurs more than twice, two solutions with the same picture are equal, so that ddnumlin prints pairwise different pictures. This fails for numbers above 99 (alignment) and for four equal numbers (two solutions with the same picture).", "quantifier": "for all boards with numbers up to 99 and all solutions", "why_tests_cant": "Needs all pairs of solutions of all boards; the hidden lines between two adjacent numbers need a combinatorial argument.", "anchors": ["apps/numberlink/Board.cpp: printNumlin", "apps/numberlink/ddnumlin.cpp: output"]}
{"id": "C74", "title": "fillNumbers fills in the numbers of the lines", "statement": "On a board with a solution the recursion of fillNumbers ends; afterwards every box of a line has the number of the ends of its line, and the other boxes are 0. On a closed line the recursion does not end.", "quantifier": "for all boards and all solutions", "why_tests_cant": "The recursion revisits boxes that it is still working on; that it ends needs an invariant of the stack on lines of any length.", "anchors": ["apps/numberlink/Board.cpp: fillNumbers, fillNumbersFrom"]}
{"id": "C75", "title": "CnfToZtdd represents exactly the clauses", "statement": "For every list of clauses over the variables 1..nv, CnfToZtdd is a lawful specification whose members are exactly the sets of literals of the clauses: repeated literals and clauses count once, tautologies are dropped, no assertion fails, and the diagram made of it and its reduction represent the same clauses.", "quantifier": "for all numbers of variables and all lists of clauses", "why_tests_cant": "States are ranges of a sorted array compared by the remaining literals only; that merging is sound and that each binary search finds the border of the right block needs the order of the array, for all clauses.", "anchors": ["apps/cnf2ztdd2bdd/CnfToZtdd.hpp: CnfToZtdd", "apps/cnf2ztdd2bdd/CnfToZtdd.cpp: sortClauses, getRoot, getChild, CnfToZtddState"]}
{"id": "C76", "title": "cnf2ztdd2bdd computes exactly the satisfying assignments", "statement": "For every list of clauses over the variables 1..nv, cnf2ztdd2bdd ends, prints the number of different clauses that are no tautologies, makes a BDD that is true for exactly the truth assignments that satisfy all clauses, and writes exactly one line for each of these assignments.", "quantifier": "for all numbers of variables and all lists of clauses", "why_tests_cant": "It combines a ternary diagram, an evaluator that makes BDDs, the conversion to a ZDD and the iterator; each output would have to be compared with all assignments.", "anchors": ["apps/cnf2ztdd2bdd/cnf2ztdd2bdd.cpp: run, output", "apps/cnf2ztdd2bdd/ZtddToCudd.hpp: ZtddToCudd", "apps/cnfbdd/Cudd.hpp: Cudd_"]}
{"id": "C77", "title": "cnf2ztdd2bdd reads the DIMACS format", "statement": "Every text in the DIMACS format whose header has the right number of clauses is read as exactly its clauses, and cnf2ztdd2bdd then writes exactly the satisfying assignments. Texts without a header, with too few or too many clauses, or with undeclared variables are rejected with the right exception.", "quantifier": "for all texts, numbers of variables, and clauses", "why_tests_cant": "The texts are unbounded; the loop depends on flags of the stream, on a variable that is not initialised when the text ends, and on the arithmetic of int.", "anchors": ["apps/cnf2ztdd2bdd/CnfToZtdd.cpp: readDimacs", "apps/cnf2ztdd2bdd/CnfToZtdd.hpp: load"]}
{"id": "C78", "title": "SapporoZdd and SapporoBdd represent the diagrams of SAPPOROBDD", "statement": "For every order of the variables, every ordered ZDD of SAPPOROBDD and every offset >= 0, SapporoZdd is a lawful specification whose members are the sets of the ZDD without levels up to the offset, moved down by the offset, provided that the levels up to the offset used by the ZDD have variables of the same number. Without that condition the removal loop may not end; if it ends, its result is right. With a negative offset the rules are broken for every ZDD. SapporoBdd is lawful iff all levels of the BDD are above the offset, and then has the Boolean function of the BDD.", "quantifier": "for all orders of the variables, all diagrams, all offsets", "why_tests_cant": "Diagrams and orders of variables are unbounded, and the usual order (variables equal to levels) hides the confusion of variables and levels.", "anchors": ["include/tdzdd/spec/SapporoZdd.hpp: getRoot, getChild", "include/tdzdd/spec/SapporoBdd.hpp: getRoot, getChild"]}
{"id": "C79", "title": "ToZBDD and ToBDD export exactly the diagram", "statement": "For every well-formed diagram, every order of the variables and every offset, ToZBDD makes the missing variables, calls SAPPOROBDD only for existing levels, and its result contains exactly the members of the diagram whose levels stay positive, moved up by the offset. ToBDD does the same for Boolean functions and offsets >= 0, and throws if a node would be moved to a level <= 0. Importing the result with SapporoZdd or SapporoBdd and the same offset gives the family or function of the original diagram.", "quantifier": "for all well-formed diagrams, orders of the variables, offsets, and schedules of the evaluation", "why_tests_cant": "A statement about the meaning of diagrams of any size made by operations of another package.", "anchors": ["include/tdzdd/eval/ToZBDD.hpp: initialize, evalTerminal, evalNode", "include/tdzdd/eval/ToBDD.hpp: initialize, evalTerminal, evalNode"]}
{"id": "C80", "title": "CnfToBdd represents exactly the clauses", "statement": "For every non-empty list of at most 65535 clauses over the variables 1..nv, each sorted and free of tautologies, CnfToBdd without the reachability analysis is a lawful specification of the Boolean function of the clauses, with and without the map of equivalent clauses, whatever order std::sort gives to equivalent clauses. With the map two states of live clauses are merged iff their clauses have the same literals among the remaining variables. With 65536 clauses or more the 16-bit counters wrap and satisfying assignments are lost; without clauses the preparation is undefined.", "quantifier": "for all numbers of variables, all lists of clauses, all assignments", "why_tests_cant": "States are sets of positions in an array, renamed level by level by a map made in one backward pass; soundness of the merging needs an invariant over all sets of clauses, and the wrap needs 65536 clauses.", "anchors": ["apps/cnfbdd/CnfToBdd.cpp: prepare, makeClauseMap, getRoot, getChild", "apps/cnfbdd/CnfToBdd.hpp: CnfToBdd, hashCode, equalTo, ClauseCmpForRelaxing"]}
{"id": "C81", "title": "The reachability analysis of CnfToBdd is sound", "statement": "For every limit of the size (and every measure of the size) the two passes of traverse end, and if the specification with pruning is defined everywhere it is lawful and has exactly the function of the clauses (only states without solutions are pruned). If the diagram with pruning is constructed without an undefined step, it represents exactly the clauses. The construction is not always defined: badState reads past the end of its array on small inputs with the default options, and its last test compares with the null pointer instead of the constant false.", "quantifier": "for all numbers of variables, all lists of clauses, all limits, all measures of size", "why_tests_cant": "A forward and a backward symbolic traversal with abstraction; over-approximation must be shown for every level and every abstraction that the limit triggers.", "anchors": ["apps/cnfbdd/CnfToBdd.cpp: traverse, badState, getChild", "apps/cnfbdd/Cudd.hpp: Cudd_"]}
{"id": "C82", "title": "cnfbdd prints exactly the satisfying assignments", "statement": "For every text in the DIMACS format (at most 65535 clauses) and all options: if cnfbdd ends without undefined behaviour then it prints the number of satisfying assignments and writes exactly one line for each of them. With -n (no analysis) and at most 62 variables it ends if a clause is no tautology. If all clauses are tautologies, or from 127 variables on for the formula of the last variable, the behaviour is undefined.", "quantifier": "for all texts, numbers of variables, clauses, options -s -c -n -b -limit", "why_tests_cant": "Infinitely many texts; the parser, the sort, the map, the analysis, the builder, the reduction, the counter with fixed storage, the conversion and the iterator are all involved.", "anchors": ["apps/cnfbdd/cnfbdd.cpp: run, output", "apps/cnfbdd/CnfToBdd.cpp: readDimacs, sortClauses", "apps/cnfbdd/CnfToBdd.hpp: load, ClauseCmpForOrdering"]}
{"id": "C83", "title": "ddpaths prints exactly the edge sets asked for", "statement": "For every graph file and file of vertex groups that are read without an error, without loops, and every combination of the options -t -dc -lb -ub -nola -p -nored: the diagram is made without undefined behaviour, is reduced unless -nored is given, and what is printed for -count and -all are exactly the sets of paths that join the two vertices of each group / the cycles / the sets of edges with the groups as connected components (forests) within the bounds on the number of edges, for every number of threads and schedule. -hamilton: all that visit all vertices and only paths or cycles (that all visit all vertices is false). -slow: the same for one group, none of the paths for more than one group. Errors are reported exactly when there is no edge, a group has not two vertices, or the default terminals 1 and n do not exist.", "quantifier": "for all texts, options, numbers of threads and schedules", "why_tests_cant": "Infinitely many graphs; the readers, the graph, several specifications, parallel building, subsetting, reduction, counting and the iterator are all involved, in an order that depends on the options.", "anchors": ["apps/ddpaths/ddpaths.cpp: run", "include/tdzdd/util/Graph.hpp: setDefaultPathColor, clearColors"]}
{"id": "C84", "title": "graphillion_example prints exactly the edge sets asked for", "statement": "For every graph (file or built in) and file of vertex groups that are read without an error, without loops, and every combination of the options -path -matching -spanning -noloop -uec -lb -ub -st -nola -a -import: the diagram is made without undefined behaviour, the number printed for -count is the number of the sets of edges that meet the conditions on the degrees, the components and the number of edges (and are in the imported family), and -solutions k prints the first k of them, each once (all of them if k is not positive). With -path and groups of two vertices these are the sets of simple paths that join the two vertices of each group; -st colours the first and the last vertex. Later conditions on the degree replace earlier ones, the index of an imported variable depends on the largest one, and -st with a group file joins the first group.", "quantifier": "for all texts, options, imported diagrams, schedules of the evaluation", "why_tests_cant": "Infinitely many graphs; the readers, the graph, the specifications, building, subsetting, counting and the iterator are all involved.", "anchors": ["apps/graphillion/graphillion_example.cpp: main"]}
{"id": "C85", "title": "The applications accept exactly the command lines they describe, and read the values that are given", "statement": "For every list of arguments: ddpaths, graphillion_example, cnfbdd, cnf2ztdd2bdd and ddnumlin accept it iff it is a sequence, in any order, of known flags, options followed by their value and at most as many file names as they take (at least one if one is needed); then exactly the given options are on, the numbers and words are those given, the others are the defaults, and the file names are in their order. An unknown option, a missing value, an unknown word, too many or too few file names lead to the usage message. atoi and strtol read the decimal numbers of their type. ddqueens starts for size n iff all options are known and n is its only size that is not 0. An option with a value that is given again takes no value: the value becomes a file name.", "quantifier": "for all lists of arguments of any length", "why_tests_cant": "Infinitely many command lines; the table of options changes while the arguments are read.", "anchors": ["apps/ddpaths/ddpaths.cpp: main", "apps/graphillion/graphillion_example.cpp: main", "apps/cnfbdd/cnfbdd.cpp: main", "apps/cnf2ztdd2bdd/cnf2ztdd2bdd.cpp: main", "apps/numberlink/ddnumlin.cpp: main", "apps/ddqueens/ddqueens.cpp: main"]}
{"id": "C86", "title": "Garbage in the storage of states does not change the diagram", "statement": "States are kept in raw memory that contains garbage before it is written. rawEqualTo compares exactly the bytes of the objects for every size, and equal objects have equal raw hash codes. After setArraySize(n) the storage of PodArrayDdSpec and HybridDdSpec is a whole number of words that holds the array (behind the scalar); a missing setArraySize is reported. Elements that are assigned are read back and nothing else changes; get_copy is exact. Whatever the storages contained, the diagram of a class derived from PodArrayDdSpec is that of the specification whose states are the arrays compared element by element; the same holds for DdSpec and HybridDdSpec if the type of the scalar has no padding, and for HybridDdSpec with padding the diagram still has the same meaning. A class derived from StatelessDdSpec gets at most one node per level. Equality of storages is not equality of the elements in general, and with padding in the scalar equal states are not always shared: the negations are proved.", "quantifier": "for all sizes, element types, functions of the user, contents of the storages before they are written", "why_tests_cant": "The contents of fresh memory and of padding are not under the control of a test; a difference shows only as a larger diagram for some layouts.", "anchors": ["include/tdzdd/DdSpec.hpp: DdSpecBase::rawHashCode, rawEqualTo, StatelessDdSpec, DdSpec, PodArrayDdSpec, HybridDdSpec", "include/tdzdd/dd/DdBuilder.hpp: getSpecNodeSize, initialize, construct"]}
{"id": "C87", "title": "Conversions of reduced structures give reduced structures", "statement": "bdd2zdd(n) of a reduced BDD with at most n levels is a reduced ZDD (no node whose non-zero edges all go to the 0-terminal, no two equal nodes on a level) although no reduction is called, zdd2bdd(n) of a reduced ZDD is a reduced BDD, and so converting there and back gives a structure that is == to the original. zddSubset() of a reduced ZDD with a reduced ZDD of the same family, or with the quasi-reduced diagram it came from (built from a specification whose edges go one level down or to the 0-terminal), is again reduced and == to it; for different families this is false.", "quantifier": "for all arities, structures, numbers of variables", "why_tests_cant": "testRandomDd.cpp checks the equalities on 130 random diagrams; that the generated specification never creates two states with the same meaning is a statement about all diagrams.", "anchors": ["include/tdzdd/DdStructure.hpp: bdd2zdd, zdd2bdd, zddSubset, operator==", "include/tdzdd/op/Lookahead.hpp: BddLookahead_, ZddLookahead_", "include/tdzdd/op/Unreduction.hpp: Unreduction", "include/tdzdd/dd/DdBuilder.hpp: ZddSubsetter", "apps/test/testRandomDd.cpp: do_test"]}
{"id": "C88", "title": "The random test of the project checks true statements", "statement": "RandomDd is a lawful specification whose edges go one level down or to a terminal, and its states stay below the width, whatever rand() returns. For every such specification no assertion of do_test in testRandomDd.cpp can fail: the sizes of the reduced structures are ordered, the cardinalities agree, reducing the quasi-reduced diagram gives the same structures, zddSubset with the quasi-reduced diagram gives the ZDD again, and the conversions between BDD and ZDD give the structure of the other reduction, which is different exactly when the two reductions are. The test passes if the numbers of bddCardinality fit in their storage, in particular if there are fewer than 2^63 assignments. A binary diagram with at least 63 levels and no satisfying assignment makes the test undefined, and the 100-level diagrams of the project's test are empty whenever both edges of the root are dropped.", "quantifier": "for all arities, levels, widths, drop rates, values of rand() and all specifications with edges to the next level or the 0-terminal", "why_tests_cant": "The test draws 130 diagrams; that no choice of rand() makes an assertion fail, and that one makes the program undefined, cannot be seen by running it.", "anchors": ["apps/test/RandomDd.hpp: RandomDd", "apps/test/testRandomDd.cpp: do_test", "include/tdzdd/DdStructure.hpp: bddReduce, zddReduce, qddReduce, bddCardinality, zddCardinality, zddSubset, bdd2zdd, zdd2bdd, operator=="]}
{"id": "C89", "title": "Specifications and evaluators of the test programs; cardinality in built-in types", "statement": "Combination(n, k) is lawful, never overflows and accepts exactly the subsets of 1..n with k elements in both readings; there are n over k of them. evaluate(BddCardinality<uint64_t>(n)) and evaluate(ZddCardinality<uint64_t>()) return the number of satisfying assignments and members modulo 2^64; with int they are exact without overflow if there are fewer than 2^31 assignments. Hence the test of example1.cpp never fails. MinNumItems and MaxNumItems never overflow and return the size of a smallest and a largest member; for the empty family they return INT_MAX - 1 and a negative number. Two structures built from the specification of issue007.cpp are ==, for every arity.", "quantifier": "for all n and k, arities, diagrams, schedules of the evaluation", "why_tests_cant": "Overflow and wrap-around depend on the number of levels; the tests use at most 20.", "anchors": ["apps/test/example1.cpp: Combination, TEST(Example1, Combination)", "apps/test/testSizeConstraint.cpp: MinNumItems, MaxNumItems", "apps/test/issue007.cpp: Spec", "include/tdzdd/eval/Cardinality.hpp: CardinalityBase, BddCardinality, ZddCardinality", "include/tdzdd/DdStructure.hpp: evaluate"]}
{"id": "C90", "title": "Grid path specification of the test program (Simpath)", "statement": "Simpath(rows, cols) makes exactly the edges of the grid, each once, and its assertion on their number holds. It is a lawful specification that accesses its array only inside the moving window of cols + 1 vertices. Its family consists of the edge sets of the simple paths from the first to the last vertex; paths and sets correspond one to one. Hence the cardinality printed before and after zddReduce is the number of simple paths from corner to corner. For a single vertex the family is empty, although there is one (trivial) path.", "quantifier": "for all numbers of rows and columns with 2 * rows * cols < 2^31 and all edge sets", "why_tests_cant": "The test compares ten square grids with a published table; the window and the mate numbers could go wrong for other shapes or for single paths in a way that leaves the count alone.", "anchors": ["apps/test/example2.cpp: Simpath, MateArray, TEST(Example2, Simpath)", "include/tdzdd/DdSpec.hpp: PodArrayDdSpec", "include/tdzdd/DdStructure.hpp: zddCardinality, zddReduce"]}
{"id": "C91", "title": "Graphviz output draws the diagram", "statement": "dumpDot of a specification terminates without undefined behaviour. Read as a graph, its lines have exactly the paths from the entry mark to the 1-terminal that the specification accepts (no other ones if states are merged); every reachable state is drawn as exactly one node, each node has one label and at most one edge of each kind, edges end in declared nodes on lower levels or in the 1-terminal, and the rank line of a level lists its nodes. dumpDot of a node table declares exactly its nodes, declares the mark of the 1-terminal exactly if it is used, and has the paths of the table.", "quantifier": "for all lawful specifications of any arity, all well-formed node tables, all titles", "why_tests_cant": "Tests look at a few pictures; a lost or doubled edge shows only for particular shapes, such as levels that are skipped or 1-terminals that come first on a lower level.", "anchors": ["include/tdzdd/dd/DdBuilder.hpp: DdDumper::dump, dumpStep", "include/tdzdd/DdSpec.hpp: dumpDot, dot, operator<<", "include/tdzdd/dd/NodeTable.hpp: dumpDot"]}
{"id": "C92", "title": "Attribute bit of node ids", "statement": "After a sequential reduction (BDD, ZDD or quasi-reduction, binary or general reducer) the attribute bit of the root and of every branch of every node is set exactly if the id belongs to a node from which the 0-edges lead to the 1-terminal, whatever bits the input has on ids of nodes; the bits never influence the ids of the result. Hence hasEmpty of the root of a reduced ZDD says whether the family contains the empty set, and of a reduced BDD whether the function is 1 for all variables 0. With such bits the short cut of getZeroDescendant gives the node that the descent would give, and dumpDot draws a dot exactly at the edges to such nodes.", "quantifier": "for all well-formed structures of any arity, all bits of the input on ids of nodes", "why_tests_cant": "No function of the library acts on the bit except the printing functions, so no test would notice a wrong bit; the binary reducer moves bits through lists threaded through the nodes.", "anchors": ["include/tdzdd/dd/DdReducer.hpp: DdReducer::reduce, algorithmR, makeReadyForSequentialReduction", "include/tdzdd/dd/Node.hpp: NodeId::hasEmpty, setAttr, operator<<", "include/tdzdd/dd/NodeTable.hpp: getZeroDescendant, dumpDot"]}
{"id": "C93", "title": "Messages of MessageHandler", "statement": "With messages switched off nothing is written and no object changes. With messages on, no line is written by two handlers, every line starts with the indentation of its writer, and the column and line counters agree with the stream. The indentation level is the number of handlers between begin and end. begin writes a line with the capitalised name; end completes that line if nothing else has been written since, otherwise it writes a line of its own. begin, setSteps(n), n steps and end(size) without longer pauses write exactly one line with ten dots; after k steps there are 10*k/n dots, rounded up. In the mode with rows of marks a step adds one mark, the row is drawn again after other output, and the fiftieth mark completes the row with the percentage. Up to n steps after setSteps(n), n > 0, are defined whatever the clock says. (Findings: after setSteps(0) a step does not end; destroying a handler while messages are off leaves the level changed; a row is not drawn again if the other text ends in the matching column.)", "quantifier": "for all sequences of operations of any number of handlers, all texts, clocks and numbers of steps up to the limits of int", "why_tests_cant": "The layout depends on the interleaving of handlers and on the clock; tests look at a few outputs by eye.", "anchors": ["include/tdzdd/util/MessageHandler.hpp: Buf::overflow, begin, setSteps, step, end, ~MessageHandler_"]}
{"id": "C94", "title": "Type names by demangle and demangleTypename", "statement": "demangle removes exactly the white space that follows, directly or after other white space, a character that is neither a letter nor a digit. demangleTypename of a demangled name removes from every qualified name the qualifiers and the parts in parentheses and keeps everything else, if the qualifiers consist of letters, digits and parts in parentheses. A name that cannot be demangled and consists of letters, digits and underscores is not changed. (Finding: an underscore ends a name, so of my_lib::Spec the text my_Spec remains.)", "quantifier": "for all demangled names, of any nesting of template arguments and namespaces", "why_tests_cant": "The function edits the string while it scans it; tests see the names of the few types of the test program.", "anchors": ["include/tdzdd/util/demangle.hpp: demangle, demangleTypename"]}
{"id": "C95", "title": "Option -p of ddqueens and ddnumlin", "statement": "With option -p, which makes the structures by the multi-threaded algorithms, ddqueens makes for each of its methods a structure that operator== finds equal to the one without -p, and its family is that of the solutions. ddnumlin -p prints the same boards in the same order as ddnumlin, and the number that it prints before them is the number of all such boards, however few of them are printed.", "quantifier": "for all sizes of the board up to the limits of the program, all boards, all schedules of the threads", "why_tests_cant": "The result of a parallel construction depends on the schedule; the node numbers differ from run to run, only the family and the order of the printed sets must not.", "anchors": ["apps/ddqueens/ddqueens.cpp: main", "apps/numberlink/ddnumlin.cpp: run", "include/tdzdd/DdStructure.hpp: DdStructure, zddSubset, zddReduce"]}
{"id": "C96", "title": "Parallel reduction with interleaved memory accesses", "statement": "With several threads whose reads and writes of shared memory interleave arbitrarily between the barriers, the parallel reducer has no undefined behaviour in the model, keeps the function or family, and its result is reduced and == to that of the sequential algorithm. In the first and second work-shared loop of a level no two threads are ever about to access the same location, one of them by a write. In the third loop the only such accesses are two writes of the same node to the same place of the output. (Finding: these do occur, which is a data race by the C++ standard.)", "quantifier": "for all well-formed structures of any arity, all numbers of threads and tasks, all distributions of the iterations over the threads, all interleavings", "why_tests_cant": "A race shows only under particular timings, usually on other machines than the tester's, and tests see one interleaving per run.", "anchors": ["include/tdzdd/dd/DdReducer.hpp: reduceMP_", "include/tdzdd/DdStructure.hpp: reduce"]}
{"id": "C97", "title": "Level index computed by several threads", "statement": "However the accesses of lowest, lowerMark and myLower interleave, makeIndex(true) computes the tables of the sequential makeIndex: lowerLevels(i) are in increasing order the levels below i to which a node of level i but no node of a higher level refers, and higherLevels(r) are in decreasing order the levels whose lowest referred level is r. So the parallel reduction with it still gives the result of the sequential one. (Finding: the reads of lowest outside of the critical section and the accesses of the marks are data races by the C++ standard.)", "quantifier": "for all tables whose edges go down, of any arity, all numbers of threads, all distributions of the columns over the threads, all interleavings", "why_tests_cant": "A wrong mark under rare timing would free a row of the input too early or never; tests see one interleaving per run.", "anchors": ["include/tdzdd/dd/NodeTable.hpp: makeIndex, higherLevels, lowerLevels", "include/tdzdd/DdStructure.hpp: reduce"]}
{"id": "C98", "title": "Parallel evaluate with interleaved memory accesses", "statement": "With several threads whose reads and writes of node values and evaluators interleave arbitrarily until the end of each level, evaluate computes the same bottom-up recursion as the sequential code. No interleaving reads a value that has not been written or has been released, and never are two threads about to access the same location, one of them by a write.", "quantifier": "for all well-formed structures of any arity, all evaluators, all numbers of threads, all distributions of the columns over the threads, all interleavings", "why_tests_cant": "A race shows only under particular timings; tests see one interleaving per run.", "anchors": ["include/tdzdd/DdStructure.hpp: evaluate", "include/tdzdd/DdEval.hpp: DdEval"]}
{"id": "C99", "title": "Garbage collection of the reducer", "statement": "garbageCollect keeps all branches of exactly the nodes that can be reached from the roots given to setRoot, sets all branches of every other node to the 0-terminal and clears all marks. Its assertion never fails and it accesses no node out of bounds. A diagram whose root was given has the same function and family afterwards, and its reductions are equal to those without garbage collection.", "quantifier": "for all well-formed node tables of any arity, all lists of valid roots (equal roots, roots below other roots and terminals included), all earlier values of the attribute bits", "why_tests_cant": "The function is never called in the library, so no test reaches it.", "anchors": ["include/tdzdd/dd/DdReducer.hpp: garbageCollect"]}
{"id": "C100", "title": "Attribute bits of the parallel reducer", "statement": "After a parallel reduction (useMP), the attribute bit of the root and of every branch in the result is set exactly if the id is a node from which the 0-edges lead to the 1-terminal, whatever the threads do and whatever bits the input had; the node ids are those of the reduction without bits. So hasEmpty() of the root says whether the family of a ZDD contains the empty set, and whether the function of a BDD is 1 at 0. A sequential reduction may follow and keeps the bits right.", "quantifier": "for all well-formed diagrams of any arity, all bits of the input (a terminal root has none), all numbers of threads and tasks, all schedules of the three loops, BDD, ZDD and QDD rules", "why_tests_cant": "The bits pass through temporary ids whose rows encode the task and are copied between duplicates found by different threads; tests see few schedules, and a wrong bit does not change any node id.", "anchors": ["include/tdzdd/dd/DdReducer.hpp: reduceMP_", "include/tdzdd/dd/Node.hpp: NodeId::hasEmpty"]}
{"id": "C101", "title": "Hash codes and texts of bit sets and small sets", "statement": "Sets of class MyBitSet or MySmallSet that are == have the same hash code. Two sets made by operations in any way with the same elements (bit sets: and the same number of words) have the same hash code, and operator<< writes the same text: the elements in ascending order between braces, separated by commas. Sets with different elements have different texts. The hash code is the polynomial of the words or of the codes of the elements, modulo 2^64.", "quantifier": "all programs of set operations without undefined behaviour, all pairs of sets they make", "why_tests_cant": "The ways to make a set, and the junk in arrays behind the elements, cannot be enumerated.", "anchors": ["include/tdzdd/util/MySet.hpp: MyBitSet::hash, operator<<, MySmallSet::hash, operator<<", "include/tdzdd/util/MyHashTable.hpp: MyHashDefault for integers"]}
{"id": "C102", "title": "Names and text of a graph", "statement": "After a successful Graph::update(), getVertex and vertexName are inverse to each other, getEdge finds an edge by the names of its ends in either direction and by vertex numbers, edgeName gives its names, and all of them answer with an exception or a question mark for what is not there. dump writes a line for every vertex with its colour, in the order of the vertex numbers, and a line for every edge with what the decorator says; the decorator of the applications makes exactly the edges of the solution bold. Graphs with the same text have the same edges, decorations, coloured vertices and vertex numbers, if no name contains a quotation mark and none is empty.", "quantifier": "all lists of edges and colours for which update() succeeds, all names, numbers and decorators", "why_tests_cant": "Names are arbitrary strings; duplicates and reversed edges shift the numbers.", "anchors": ["include/tdzdd/util/Graph.hpp: getVertex, vertexName, vertexLabel, getEdge, edgeName, edgeLabel, dump", "apps/ddpaths/ddpaths.cpp: EdgeDecorator", "apps/graphillion/graphillion_example.cpp: EdgeDecorator"]}
{"id": "C103", "title": "Graphs printed by ddpaths and graphillion_example", "statement": "For -graph the applications print the picture of the graph that has been read: its vertices with the colours of the groups (the default colours for paths without groups, none for cycles, the first and the last vertex for -st) and its edges in order. For -all and -solutions they print one picture for each solution, each solution once, where exactly the edges of the solution are bold and the others are dotted; -solutions k stops after k of them. No picture is the beginning of another one, so the text determines the solutions, whatever the names are. If the graph is rejected nothing is printed.", "quantifier": "all texts of graph files and group files, all options, all diagrams that represent a family of sets of edges", "why_tests_cant": "The text depends on the graph file, the group file and the set of all solutions at the same time.", "anchors": ["apps/ddpaths/ddpaths.cpp: main, EdgeDecorator", "apps/graphillion/graphillion_example.cpp: main, EdgeDecorator", "include/tdzdd/util/Graph.hpp: dump, clearColors, setDefaultPathColor, setColor"]}
{"id": "C104", "title": "DataTable is a table of independent rows without leaks", "statement": "A DataTable is a MyVector of MyVectors, so that constructing, copying, moving and destructing an element allocates and releases memory itself. Every program of constructors, assignments between different tables, init, setNumRows, initRow, addColumn, accesses and output on any number of tables behaves as on lists of lists: no undefined behaviour and the same results; setNumRows keeps the rows that remain, and a copy shares nothing with the original. Each array of rows belongs to one table, each row to one cell of such an array and each array of elements to one row; when no table is left, no row and no array is left. Rows and elements that do not exist cannot be accessed. The text has one line for each row. Assigning a table to itself empties it (finding).", "quantifier": "all programs over any number of tables, all element types and values", "why_tests_cant": "Leaks and double destructions of rows show up only for particular sequences of resizing, copying and assigning.", "anchors": ["include/tdzdd/dd/DataTable.hpp: class DataTable", "include/tdzdd/util/MyVector.hpp: resize, clear, reserve, moveElement, MyVector(MyVector const&), operator="]}
{"id": "C105", "title": "The label of a node determines its state", "statement": "print_state, with which dumpDot labels the nodes, gives different texts for different states, for every type of specifications built from stateless, scalar, array and hybrid specifications (numbers as elements, or the mates of FrontierBasedSearch) with BddAnd, BddOr, ZddUnion and ZddIntersection of two operands and the unreductions, nested to any depth. For BddAnd and BddOr of any number of operands, whose texts leave out the level of the remaining operands, the text still determines the state of every node. So two nodes of one level of a picture never have the same label. For ZddUnion of three or more operands this fails: the text determines exactly the state without the level of the remaining operands, and there are pictures in which different nodes of one level have the same label.", "quantifier": "all types of specifications built from the given ones, all states and, for chains, all reachable states", "why_tests_cant": "A missing separator or a missing component in a text goes unnoticed until two states that differ only there appear on one level of a picture.", "anchors": ["include/tdzdd/DdSpec.hpp: printState, print_state", "include/tdzdd/op/BinaryOperation.hpp: print_state", "include/tdzdd/op/Unreduction.hpp: print_state", "include/tdzdd/spec/FrontierBasedSearch.hpp: operator<<"]}
{"id": "C106", "title": "The labels of the number link diagrams determine the states", "statement": "printState of DegreeZdd, NumlinZdd and ConstraintZdd, for boards of any size, reads only elements of the array, and for reachable states the text determines the state: for NumlinZdd the mates and the blank count, for ConstraintZdd also the component that the mark for a line to the south hides. So two nodes of one level of their pictures never have the same label.", "quantifier": "all boards, all reachable states, all pictures", "why_tests_cant": "Whether a hidden component can differ depends on all states that are reachable on any board.", "anchors": ["apps/numberlink/DegreeZdd.cpp: printState", "apps/numberlink/NumlinZdd.cpp: printState", "apps/numberlink/ConstraintZdd.cpp: printState, getChild"]}
{"id": "C107", "title": "The label of a node of CnfToZtdd shows the clauses that are left", "statement": "For every list of clauses and every reachable state, CnfToZtdd::printState ends, reads only existing clauses and literals, and writes for each clause of the state, in parentheses and separated by blanks, the literals that are left. Two states have the same text if and only if operator== holds for them, also when they stand for different parts of the list of clauses. So two nodes of one level of the picture never have the same label.", "quantifier": "all numbers of variables, all lists of clauses, all reachable states, all pictures", "why_tests_cant": "Equality of states compares remainders of clauses; that text and equality agree on all pairs of states of all inputs cannot be enumerated.", "anchors": ["apps/cnf2ztdd2bdd/CnfToZtdd.cpp: printState, operator=="]}
{"id": "C108", "title": "The picture of a formula determines the formula", "statement": "For every formula whose stored clauses are non-empty and in order, CnfToBdd::dumpCnf has no undefined behaviour. The picture has one mark for each clause and each variable: + exactly if the variable is in the clause, - exactly if its negation is, a point exactly if neither is but the clause goes on on both sides, and a blank exactly if the clause lies on one side. The text of the picture determines the formula. With the map of clauses that prepare makes, each edge between clauses joins clauses with the same remaining literals, and clauses with the same remaining literals (at least one) have edges to the same clause.", "quantifier": "all numbers of variables, all formulas, all results of the sort of the clauses, all titles without an end of line", "why_tests_cant": "Wrong marks or edges are noticed only for particular positions of literals in particular clauses.", "anchors": ["apps/cnfbdd/CnfToBdd.cpp: dumpCnf, prepare, makeClauseMap"]}
