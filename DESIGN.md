# Formal model of TdZdd: design

The code under study is the header-only C++ library in `/repo/include/tdzdd` and
specifications of the applications in `/repo/apps`.
The model and proofs are in Lean 4 under `lean/Verif/`.  This file says what is
modelled, how each property of `properties.jsonl` is stated and proved, and what
is trusted.

## 1. Trusted base

* The Lean 4.33.0 kernel.
* The three standard axioms `propext`, `Classical.choice`, `Quot.sound`.  No own
  axioms, no `sorry`, no `native_decide`, no `bv_decide`.  `Verif/Audit.lean`
  prints the axioms of every property theorem during the build.
* The reading of the C++ text by hand: every model definition cites file and
  lines and states its simplifications.
* Not modelled anywhere: I/O and message printing (other than the texts in `Dump.lean`, `Messages.lean` and the input formats), timing, memory exhaustion,
  exceptions thrown by `new`, and the C++ compiler.  Machine integers (`int`, `size_t`) are unbounded naturals
  or integers unless a file says otherwise (`NodeId`, `BigNumber`, `MyBitSet` are
  modelled bit by bit).

## 2. Central notions (`Verif/Semantics.lean`)

* `DdSpec N`: the specification interface (`getRoot`, `getChild`, `equal_to`,
  `hash_code`, `merge_states`) as pure functions on a state type.  Level codes are
  integers as in C++: `0` is the 0-terminal, negative is the 1-terminal, positive is a
  level.
* `Accepts sp l s p`: an inductive predicate saying that following the choices in
  the path `p : List (level × value)` from the state `s` at level code `l` ends in the
  1-terminal.  It is the only semantic primitive.
* `BddSat sp a`: some accepted path agrees with the assignment `a`.
* `ZddMem sp n a`: some accepted path agrees with `a` and `a` is `0` at all other
  levels of `1..n`.
* `Lawful sp`: the documented contract of a specification, on reachable states:
  child level code below the parent's level, `equal_to` is an equivalence relation that
  only identifies states accepting the same paths, `hash_code` respects it.
* A `DdStructure` is a root id plus rows of nodes; it is given meaning by
  being itself a specification (as in C++), so builder/reducer theorems compare the
  *same* semantic definition on both sides.

Undefined behaviour (out-of-range index, read of a never-written edge, write through
a stale pointer, violated `assert`) is the outcome `none` of an `Option`-valued model
function, and correctness theorems assert that the outcome is `some`.

## 3. Plan per property

| id | modelled code | proof method |
|---|---|---|
| C01-C04, C06 | `DdBuilder`, `DdSweeper` as a machine with pending pointers, unwritten cells, row epochs | loop invariant over levels with a ghost table that records what each unwritten cell waits for |
| C05 | `DdBuilderMP::construct` with arbitrary task order | schedule independence of disjoint writes, then as C01 |
| C07-C14 | `DdReducer::reduce_`, `algorithmR`, `reduceMP_` | simulation relation old id -> new id by induction on levels; canonicity by induction on levels |
| C15 | `operator==` | invariant "equiv id <-> same unfolding" |
| C16-C19, C26 | `BinaryOperation.hpp` | induction on the larger level |
| C20-C21 | `Lookahead.hpp` | induction on level |
| C22-C25 | `Unreduction.hpp`, `bdd2zdd`, `zdd2bdd` | induction on level, composition |
| C27-C28 | `ZddSubsetter` | invariant as C01 on pairs (node, state) |
| C29 | `evaluate`, `makeIndex` | loop invariant: every row still needed is present |
| C30-C32 | `Cardinality.hpp`, `BigNumber.hpp` | fold = count, word-level arithmetic refinement |
| C33-C34 | `const_iterator` | invariant: stack = path, remaining set of members |
| C35 | `DepthFirstSearcher` | induction on level |
| C36 | universal constructor | induction on n |
| C37-C40 | concrete specs | induction on level with accumulated sums |
| C41-C42 | `Graph::update` | list induction |
| C43-C44 | `PathZdd.hpp` | mate-array invariant |
| C45 | `NodeId` | bit-vector arithmetic |
| C46 | `MyHashTable` | open addressing invariant |
| C47 | `NodeTableHandler` | heap model with reference counts |
| C48-C52 | utilities | refinement to lists / sets |
| C53 | `PathCounter` | level-wise counting invariant |
| C54-C56 | table utilities | structural |
| C58, C59 | readers of `GraphillionZdd` and `Graph` | model of `std::istream`, induction over the text, meaning of the table |
| C60 | `virtualMate`, `hasColorPairs`, `clearColors`, `setDefaultPathColor` | invariant of the colour classes; the specifications do not look at the stale flags |
| C61 | `PathZddByStdMap` | invariant: the map gives the ends of the paths in the graph with one more vertex per pair |
| C62 | `FixedBigNumber` | induction over the words |
| C63 | `NQueenZdd`, `NRookZdd` | state invariant; the meaning of a state is the set of completions of the placement |
| C64 | `ColoredNQueenZdd`, `ColoredNRookZdd` | same, with an invariant about the part of the row already coloured |
| C65 | `NAryZdd`, `OneHotNAryZdd` | `zddMem_of_step`; the meaning of a state is the rest of the current block and the blocks below |
| C66 | `ZddInterleave`, `ColoredZdd` | refinement to the table semantics of the diagrams (`TMem`); `ColoredZdd` adds a condition on the rows visited (`Visits`) |
| C67 | construction of the diagrams in `ddqueens.cpp` | composition of C63-C66 with construction, reduction and subsetting (`Pipeline.lean`), induction over the loop on colours |
| C68 | `DegreeZdd.{hpp,cpp}` | invariant of the degrees along the frontier (`NumlinRun.lean` for the order of the lines, `NumlinDegree.lean`); the vertical lines are determined by recursion on the rows |
| C69 | `NumlinZdd.{hpp,cpp}` | invariant: `mate` encodes the ends of all partial lines (`Mate.lean`: joining two ends), degrees and count of blanks as in C68; each rejection is shown to exclude every solution (`NumlinMate.lean`) |
| C70 | `ConstraintZdd.{hpp,cpp}` | the state is a function of the lines drawn so far (`NumlinTidy`, `NumlinTidy2`); with correct degrees the checks are the clauses of `Tidy` (`NumlinTidy3`); existence: a detour is the boundary of a rectangle of height 1, toggling it reroutes one line (`NumlinReroute`, `NumlinMove`) and decreases (number of lines, sum of the rows of the horizontal lines) lexicographically (`NumlinShort`) |
| C71 | `ddnumlin.cpp` 61-141, `Board.cpp` 28-72, 181-204 | diagrams by the pipeline of C67 with C18, C21, C68–C70; `makeVerticalLinks` computes the determined vertical lines (`NumlinAnswer.lean`, invariant of the double loop); transposition is a reflection of boards, lines and solutions (`NumlinTurn.lean`); iteration by C33 (`NumlinAppProofs.lean`) |
| C72 | `Board.cpp` 74-140, `ddnumlin.cpp` 96-141 | texts are described by inductive grammars (`NumlinReadSpec.lean`) that do not mention the reader; induction on the text with the stream of `IStream.lean` (`NumlinReadProofs.lean`); the round trip shows that the output of `writeNumbers` lies in the grammar; `C72_solve` composes with C71 |
| C73 | `Board.cpp` 142-179 | the text is a list of characters; what a box should look like is specified by the arms of the box drawing characters (`Depicts`); injectivity: all lines at unnumbered boxes can be read off, and a line between two adjacent numbered boxes is determined by the other solution's unique neighbour (`adj_half`) |
| C74 | `Board.cpp` 206-244 | the recursion is transferred to a walk on the graph of the links (`fillFrom_eq`); invariant of the stack: the latest boxes are 0 and wait for their second neighbour, down to one that is `-1` (`BackOk`), so that a call back answers 0 and changes nothing (`back`), and a call ahead answers the number at the end (`forward`); that the line ahead is a simple path follows from the absence of closed lines (`Lk.fresh`, `extend`) |
| C75 | `CnfToZtdd.hpp`, `CnfToZtdd.cpp` 28-51, 71-80, 110-200 | `lower_bound` is modelled as the binary search and shown to find the border of a block (`lowerBound_eq`); a state stands for the rests of its clauses, and the rests of a sorted array are sorted (`after`, `sorted_after`); the word of an assignment is the sorted clause with its literals, and membership is proved by the invariant `Inv` (`CnfZtddProofs*.lean`) |
| C76 | `cnf2ztdd2bdd.cpp` 66-121, `ZtddToCudd.hpp`, `Cudd.hpp` 54-103, 138-149, 188-218, 289-304 | the evaluator folds to the conjunction of the clauses (`evaluate_sat`, with C29); `Cudd` is a lawful specification of its function (`Cudd.spec_main`); C24, C30 and C33 for conversion, number and output; `Props/CnfApp.lean` |
| C77 | `CnfToZtdd.cpp` 53-107, `CnfToZtdd.hpp` 91-94 | texts are described by inductive grammars (`CnfReadSpec.lean`); induction on the text shows that the loop is a fold over the numbers (`clauses_nums`), and the fold is computed on lists of clauses (`feed_clauses`); C76 for the application; `Props/CnfRead.lean` |
| C78 | `SapporoZdd.hpp` 45-89, `SapporoBdd.hpp` 45-83 | states are trees of levels; step lemma (`zddMem_of_step`) with the invariant that the state is an ordered node of the level (`sapporoZdd_main`); the loop by induction on the tree (`strip_spec`, `strip_some`); the rules for `SapporoBdd` in both directions (`sapporoBdd_lawful`, `sapporoBdd_uses`); `Props/SapporoLib.lean` |
| C79 | `ToZBDD.hpp` 44-73, `ToBDD.hpp` 45-74 | evaluators with state (C29); induction on the fold of the diagram (`fold_mem`, `fold_sat`), correctness of union (`mem_union`); the round trips combine it with C78; `Props/SapporoLib.lean` |
| C80 | `CnfToBdd.cpp` 93-231, 401-468, `CnfToBdd.hpp` | the map of clauses is computed row by row of the sorted array (`clauseMap_ok`: a clause is mapped to the first one with the same rest); a state stands for the rests of its clauses (`Sem`), and the invariant `RS` says which sets of clauses occur; step lemmas in `CnfBddSem.lean`; `Props/CnfBdd.lean` |
| C81 | `CnfToBdd.cpp` 232-312, 470-500 (`badState`) | `Keeps`: every set of clauses that some assignment reaches and completes satisfies `frontierSet[i]`; it is kept by each round down (image by constrain and abstraction) and up (`CnfBddReach.lean`); `BuildExt.lean` transfers a successful construction to the specification whose undefined tests are false (`build_mends`); `Props/CnfBdd.lean` |
| C82 | `cnfbdd.cpp` 70-121, `CnfToBdd.cpp` 81-88 | C77 for the text, C80/C81 for the specification, then reduction, C31 for the number, C24 and C33 for the output (`run_main`); `Props/CnfBddApp.lean` |
| C83 | `ddpaths.cpp` 86-99, 165-350 | `DdPaths.lean` with the numbered operations of `AppOps.lean` (`DdStructure` with `useMP`); C40, C44, C45, C59-C61 for the graph and the specifications, C05, C12, C28 for the parallel operations, C22/C33 for the output; `Props/DdPaths.lean` |
| C84 | `graphillion_example.cpp` 94-96, 151-262, 268-273, 286-296 | `GraphillionApp.lean`; C40, C45, C37 for the specifications, C58 for the import, C05/C06 for building and subsetting, C22/C33 for the output; `GraphillionPaths.lean`: a finite graph with the degrees of paths in which every component has a coloured vertex consists of paths; `Props/GraphillionApp.lean` |
| C85 | the loops over `argv` and the tests after them: `ddpaths.cpp` 110-158, `graphillion_example.cpp` 93-140, `cnfbdd.cpp` 122-160, `cnf2ztdd2bdd.cpp` 122-160, `ddnumlin.cpp` 144-183, `ddqueens.cpp` 95-124 | `AppArgs.lean`; one loop with the differences of five applications as parameters; `Line` is a grammar of the command lines, `Reads` their meaning; both directions by induction on the arguments, with the invariant that the keys of `opt` are the options and the names of the options with values that have been given; `Props/AppArgs.lean` |
| C86 | `DdSpec.hpp` 131-178 (raw hash and comparison), `StatelessDdSpec`, `DdSpec`, `PodArrayDdSpec`, `HybridDdSpec`, `getSpecNodeSize` | `StateStore.lean` with storages of bytes that contain garbage before they are written; `BuilderMap.lean`: the builder depends on the states only through the functions of the specification (bisimilar specifications give the same diagram); the relation is "the storage holds these values, and the padding of the root"; `Props/StateStore.lean` |
| C87 | `bdd2zdd`, `zdd2bdd`, `zddSubset` on reduced operands (no new code) | `ConvCanon.lean`: nodes of the result have different families because states with the same level code carry different nodes of the (canonical) operand; `SubsetCanon.lean`: pairs of the subsetter are pairs of nodes with the same family (0-descendants only lose sets, the intersection keeps them); `QddCanon.lean`: quasi-reduced level-by-level tables have different families on different nodes; `Props/ConvCanon.lean` |
| C88 | `RandomDd`, `do_test` of `testRandomDd.cpp` | `RandomDd.lean`, `Props/RandomDd.lean`: each assertion from the theorem about the operation (C10-C14, C24, C30, C31, C87); undefined for empty binary diagrams of at least 63 levels because `bddCardinality` overruns the storage sized for the root level |
| C89 | `Combination`, `MinNumItems`, `MaxNumItems`, `issue007.cpp`, `CardinalityBase<E,T,ARITY,BDD>` for `uint64_t` and `int` | `TestSpecs.lean`, `Props/TestSpecs.lean`: counts by Pascal's rule; evaluators as simulations of the recursion over unbounded numbers (C29) |
| C90 | `Simpath` of `apps/test/example2.cpp`: constructor, `getRoot`, `getChild` with every read and write of the mate array | `GridPath.lean`, `GridPathComb.lean`, `GridPathStep.lean`, `GridPathEdges.lean`, `GridPathSem.lean`, `Props/GridPath.lean`: invariant between the mate numbers and the disjoint paths of the taken edges; the window covers all open ends; count by a bijection between walks and edge sets |
| C91 | `DdDumper` (`DdBuilder.hpp` 1243-1525), `dumpDot`, `dot` (`DdSpec.hpp` 96-127), `NodeTableEntity::dumpDot` (`NodeTable.hpp` 326-398) | `Dump.lean` (lines of the output and their text), `DumpProofs.lean`: invariant of the node lists, the unique tables and the number of the 1-terminal over the branches, nodes and levels; `Props/Dump.lean`: both directions between paths of the drawn graph and accepted paths |
| C92 | attribute bit: `NodeId::hasEmpty`, `operator<<` (`Node.hpp` 78-101, 131-135), its handling in `DdReducer` (`DdReducer.hpp` 241-560, general and binary), `getZeroDescendant`, `dumpDot` (`NodeTable.hpp` 230-237, 331-398) | `Attr.lean`: the reducers once more, with bits beside the ids; `AttrProofs1.lean`: without the bits they are those of `Reducer.lean`; `AttrProofs2-6.lean`: invariants of the bits through each loop; `Props/Attr.lean`: the bit of an id says that the 0-edges lead to the 1-terminal (`ZeroChain`) |
| C93 | `util/MessageHandler.hpp` (37-267) | `Messages.lean`: any number of handlers on one stream, the clock and the usage texts from an arbitrary environment; `MessagesProofs.lean`: layout invariant over all operations; `MessagesProofs2.lean`: nesting, single writes; `MessagesProofs3.lean`: dots and marks; `Props/Messages.lean`: statements about the text |
| C94 | `util/demangle.hpp` (37-87) | `Demangle.lean`; `Props/Demangle.lean`: induction over names given as qualified paths with separators |
| C95 | option `-p` of `apps/ddqueens/ddqueens.cpp` (133-185) and `apps/numberlink/ddnumlin.cpp` (112-141) | `AppParallel.lean` with the operations of `AppOps.lean`; `Props/AppParallel.lean`: the families are those of C67 and C71, reduced structures of one family are equal, and the sets that the iterator gives and their number depend on the family only |
| C96 | `reduceMP_` (`dd/DdReducer.hpp` 405-561) at single accesses, `DdStructure::reduce` with `useMP` | `Conc.lean` (threads as programs of reads and writes), `ReducerFine.lean`; `ConcProofs.lean`: threads whose accesses are compatible give the result of running one after the other, by commutation of steps; `ReducerFineProofs1-4.lean`: accesses of each thread in the three loops and refinement to C12; `Props/ReducerFine.lean` |
| C97 | `NodeTableEntity::makeIndex` with `useMP` (`dd/NodeTable.hpp` 251-303) at single accesses | `IndexFine.lean`; `IndexFineProofs.lean`: an invariant of all interleavings (each edge is still to be handled or marked, marks and `lowest` come from edges) and a count of the steps left give the result of the sequential loop; `Props/IndexFine.lean` |
| C98 | `DdStructure::evaluate` with `useMP` (`DdStructure.hpp` 455-551) at single accesses | `EvaluateFine.lean`; `EvaluateFineProofs.lean`: each thread reads lower rows and its own evaluator and writes its own columns, so by `ConcProofs.lean` any interleaving equals the atomic iterations of C29; `Props/EvaluateFine.lean` |
| C99 | `DdReducer::garbageCollect` (`DdReducer.hpp` 564-614) | `Gc.lean`; `GcProofs.lean`: the loop over the sorted roots marks exactly the non-roots; invariant of the sweep: nodes done are kept or zeroed by reachability, nodes to do are unmarked exactly if they are roots or children of done reachable nodes; all parents of a node are done before it. Function and reductions by isomorphism of the unfolded diagrams and C10, C11 |
| C100 | the attribute bit in `DdReducer::reduceMP_` (`DdReducer.hpp` 405-561) | `AttrMP.lean`: the model of C12 with the bits of C92 beside the ids; `AttrMPProofs.lean`: without the bits it is the model of C12 (`*_fst`); invariants of the three loops beside J1, J2, J3 of C12: columns done have the bits of their canonical children, the temporary id has the bit of the final one, an output node that is there has its bits. Levels as in C92 (`BInv.extend`) |
| C101 | `hash` and `operator<<` of `MyBitSet` and `MySmallSet` (`MySet.hpp` 238-245, 267-276, 515-521, 542-551) | `SetText.lean`, on the sets of C51 and C52. `==` implies equal codes for all states (induction on the words); for sets made by programs the codes are the closed polynomials and the text is that of the ascending list of elements; texts are injective (`rest_inj`: numbers have no comma or brace) |
| C102 | names and text of `Graph` (`Graph.hpp` 500-571, 611-669), `EdgeDecorator` | `GraphText.lean`; invariant of the loop that fills `name2edge` (`nameLoop_spec`), C41/C42 for the numbers; the text is cut at quotation marks and semicolons for the injectivity (`lines_inj`) |
| C103 | the text that `ddpaths -graph`, `-all` and `graphillion_example -graph`, `-solutions` print (`ddpaths.cpp` 165-195, 344-350; `graphillion_example.cpp` 151-201, 286-297) | `AppText.lean`; `readGraph` of C83/C84 is what remains when edges and `name2color` are forgotten (`readGraph_load`); C102 for the picture, C83/C84 for the solutions; two pictures of the same graph differ first at a decoration (`picture_cut`) |
| C104 | `DataTable` (`DataTable.hpp` 39-193) with the functions of `MyVector` that it calls for rows (`MyVector.hpp` 39-60, 91-107, 168-170, 201-265, 292-302) | `DataTable.lean`, `DataTableSpec.lean`; the rows are variables of a program of C50, cell `i` of block `a` being variable `2^a*(2i+1)`, so that `vStep_spec` gives the effect of each constructor and destructor; loop specifications over the contents of all cells, then an invariant over all tables (`Inv`) |
| C105 | `print_state` and `printState` of the library (`DdSpec.hpp` 231-233, 337-339, 486-493, 665-674; `BinaryOperation.hpp` 149-155, 197-204, 219-225, 270-277, 416-423, 438-444, 495-502; `Unreduction.hpp` 123-128; `operator<<` in `FrontierBasedSearch.hpp` 58-61, 260-263) | `StateText.lean` | `C105_text`: texts are self-delimiting (`StateTextProofs.lean`), by induction on the way a type of specifications is built; `C105_chains`: the level that is left out is the maximum of the levels printed, by the invariants of `bddAnd` and `bddOr`; `C105_labels` with C91. `C105_union_confused`, `C105_union_picture`: **finding**, for `ZddUnion` of three operands the level that is left out is not determined (taking an item above the levels of the rest sets it to 0 and keeps the inner levels), so that two nodes of one level can have the same label; `C105_variadic` says what is determined |
| C106 | `printState` of `DegreeZdd` (`DegreeZdd.cpp` 61-69), `NumlinZdd` (`NumlinZdd.cpp` 111-121) and `ConstraintZdd` (`ConstraintZdd.cpp` 73-80) | `NumlinLabel.lean`; reading behind the array is `none` | `C106_degree`, `C106_numlin`, `C106_constraint`: the texts of the columns are self-delimiting, the arrays of reachable states have `cols` elements, and in reachable states of `ConstraintZdd` a box with a line to the south is used (`NumlinLabelProofs.lean`); `C106_pictures` with C91 and C68-C70. An example shows that `DegreeZdd` marks a degree that equals its column number by a dot |
| C107 | `CnfToZtdd::printState` (`CnfToZtdd.cpp` 163-174) | `CnfLabel.lean`; reading outside of a list and an endless loop are `none` | `C107_text`: the loops by induction, on the invariant of reachable states of C75; `C107_equal`: the text is self-delimiting (`CnfLabelProofs.lean`) and `operator==` compares what is left of the clauses; `C107_picture` with C91 |
| C108 | `CnfToBdd::dumpCnf` (`CnfToBdd.cpp` 314-398) | `CnfPicture.lean`; lines are values of a type and `Line.text` is what is printed; the first literal of an empty clause and accesses outside of `x` are `none` | `C108_cells`: the loops by induction; the vector `x` holds each literal at its variable because no variable occurs twice; `C108_formula`: a text has one list of lines, a line of a variable in a clause reads like no other line, and a clause is determined by its set of literals; `C108_links`: with the theorem about the map of clauses of C82 (`CnfBddMapOk.lean`); `C108_empty`: undefined behaviour for an empty clause |
| C57 | `FrontierBasedSearch` | the array encodes a set of vertex lists (components), invariant over the edges, then completeness of the checks at vertices that leave |

`MANIFEST.json` records the status of each property; section 4 (filled as the work
proceeds) records deviations, defects found and partial results.

## 4. Modelled code, simplifications and findings

### Construction (`Builder.lean`, `BuilderHash.lean`, `HashTable.lean`)
`DdBuilder` and `DdSweeper` are modelled with source pointers, unwritten cells and row
epochs; `MyHashTable` with open addressing, growth and in-place rehash.  The per-level
`UniqTable` of the builder is shown to behave like a list of classes whatever the hash
function (C04).  Defect: copy-assigning a `MyHashTable` to itself empties it
(`C46_self_assign_defect`).

### Sequential reduction (`Reducer.lean`)
`makeReadyForSequentialReduction`, `algorithmR` (arity 2: the three passes that thread
lists through the node table, the `newId` table reuse, `derefLower` row clearing) and
`reduce_` (other arities, with the hash table model).  An access to a cleared or missing
row is `none`.  The theory is split: `ReduceTheory`/`ReduceCanon` speak about the relation
`RedOf del T n nid out` ("`out` is the table `T` reduced with deletion rule `del`, new ids
`nid`"), the `ReducerProofs*` files show that both algorithms establish it.
Findings: `qddReduce` redirects edges to all-zero nodes although its comment says that
nothing is deleted (`C09_qddReduce_deletes_zero_nodes`); unreachable nodes of the input
survive the reduction, so minimality needs reachability (`C14_needs_reachability`).

### `operator==` (`Equality.lean`)
The recursion on swapped operands is unfolded once.  Finding: on diagrams with duplicate
nodes a copy can compare unequal (`C15_eq_incomplete`).

### Parallel reduction (`ReducerMP.lean`)
`reduceMP_` with an arbitrary number of threads and tasks, arbitrary assignment and order
of the iterations of the three work-shared loops, arbitrary edge order in the parallel
`makeIndex`.  Iterations are atomic here; `ReducerFine.lean` (C96) interleaves single accesses
instead and shows that the result is the same.  The parallel `makeIndex` at single
accesses is `IndexFine.lean` (C97).  Temporary ids use row numbers `i + task`; C12 needs them to fit in
the 20-bit row field (`MpRun.row_bits`), otherwise the model gives `none` (assertion or
aliasing in the code).

### Evaluation (`Evaluate.lean`) and counting (`Counting.lean`)
`evaluate` with any evaluator (own state per object, partial callbacks, `none` = undefined
behaviour), the work list of each level in any order and split over any number of objects;
the release of work rows through `lowerLevels` is modelled, a read of a released row is
`none`.  Destructors of the values (`destructLevel`) are not modelled.  `HasCount P k` states
a cardinality by a duplicate-free list, independently of any recursion on the diagram.

### `NodeId` packing (`NodeIdBits.lean`)
All of `NodeId`, `Node::hash` and `Node::operator==` on 64-bit vectors.  The rest of the
model uses row/column pairs; C45 justifies that for rows below 2^20 and columns below
2^43.  Out-of-range arguments fail an assertion; with `NDEBUG` they alias other ids
(`C45_ndebug_alias`).

### `BigNumber` (`BigNumber.lean`)
Arrays with capacity, out-of-bounds access is `none`; all loops, null arrays included.
Findings: `divide(n)` ignores `n` (`C32_divide_ignores_divisor`); `shiftLeft` of 0 by 63 or
more gives an encoding with superfluous words, which `operator==` distinguishes from 0
(see the general form in `C32_eq`).  For `FixedBigNumber` see C62.

### `Cardinality<std::string>` (`Cardinality.lean`)

`initialize`, `evalTerminal`, `evalNode`, `getValue`, `destructLevel` of the string version, statement by statement on
the words of the `BigNumber` model, with the three temporaries as arrays of `max` words; writing outside of one is `none`.
`max` is computed in `double` by the code; the model uses exact integers (`maxWords`) and `C30_words`/`C31_words` show the
result for every size satisfying the stated inequality.  The non-string template is the pure evaluator of `C30_generic`.

**Finding (C31).** The temporaries are sized for `topLevel` variables, but `getValue` multiplies `tmp2` by `ARITY` once per
level from `topLevel` to `numVars`.  For binary diagrams and `numVars >= topLevel + 63 * max` this writes outside of the
array whatever the diagram is (`C31_storage_overflow`; e.g. the constant `true` with 63 variables).  The claim is proved
for the sizes that fit, among them `numVars <= topLevel + 62` (`C31_near_root_partial`), and whenever the code
stays inside its arrays (`C31_sound`).

### Iterator (`Iterator.lean`)

`const_iterator` loop by loop on `cursor`, `path`, `itemset`.  Loops have an iteration bound; the theorems say that some bound
gives a result and that every result obtained with any bound is the stated one.

### `DepthFirstSearcher` (`Searcher.lean`)

The recursion with an arbitrary sequence of random numbers; the assertion on levels and the exception are outcomes.

### `PathCounter` (`PathCounter.lean`)

`count`, `countFast` and `count64` share the loop over levels, nodes and branches; numbers are word arrays with the capacity
the code allocates.  Hash tables are searches for an equal entry (C46); lists are `MyList`s, newest first (C49).  An
allocation may throw as soon as a level has `lim` nodes, for any `lim`; the theorems also say that nothing is thrown if `lim`
is at least `ARITY^n`.  The loop over branches starts at 0.

The proof keeps, for the nodes still in the lists, the sum of number times accepted paths (which with `total` is the final
count) and the sum of number times `ARITY^level` (which bounds every number).

**Finding (C53).** `count` reserves `numberWords + 1 + (i - ii) / 63` words for a number first stored at level `ii` while
level `i` is processed, but later additions to it come from levels where `numberWords` has grown.  The code carries a `FIXME`
there; `C53_count_overflow` is a lawful binary specification with 128 levels for which it writes outside of the number.
`C53_count_partial` proves the claim for all specifications whose edges leave enough room (at most 126 levels, or
no long edges).  For arity 4 `total` itself is too short (`C53_total_overflow`).  `countFast` and `count64` satisfy the claim.

### `IntRange` and `SizeConstraint` (`SizeConstraint.lean`)

`IntRange::contains` with signed overflow, division by zero and `INT_MIN % -1` as `none`.  An `IntSubset` is its three virtual
functions.  `SizeConstraint` uses unbounded integers; `C37_bounded` shows that `count` and `count + level` stay in `0..n`.

### `LinearConstraints` (`LinearConstraints.lean`)

`addConstraint`, `update`, `getRoot`, `getChild` with arithmetic in a signed integer type of any range (overflow and
out-of-range indices are `none`).  `C39_linear` needs: keys in `1..n`, `lb` and `ub` representable, and the sums of the
negative and of the positive weights of each constraint representable; it shows that then nothing overflows, compression
included.  A key above `n` is a write outside of `checklists` (`C39_key_above`).  `update` must be called exactly once.

### `Graph` (`Graph.lean`)

`update` and `maxFrontierSize` over names and colours of any type; each step of `update` is a function of its own.  A lookup in
`name2edge` or `edgeIndex` is modelled as a search in the list with the same entries.  Reads and writes of `lastEdge` and
`v0` are checked against `vMax`; the arrays over colours are not (their indices are bounded by `C41_colors`).  Names, labels and
`dump` are in C102.  Not modelled: the limit on the number of edges.

### `DegreeConstraint` (`DegreeConstraint.lean`)

`getRoot`, `getChild` with the lookahead loop, on the array `mate` (`PodArray.lean`; an index outside of it and a negative shift are undefined
behaviour and lead to an illegal level code, which `C40_lawful` excludes).  Elements wrap around as `int16_t`.

**Findings (C40).**  A loop counts as two edges, except where it is the last edge of its vertex and counts as one
(`C40_loop_twice`, `C40_loop_once`).  For a graph without edges nothing is accepted (`C40_no_edges`).  `C40_degree` excludes both, and
vertices with more than 32767 edges.

### `PathZdd`, `CycleZdd` and the Hamiltonian variants (`PathZdd.lean`)

`SimpathBasedImpl` with both types and with `hamilton` as parameters: `getRoot`, `getChild`, `takable`, `leavable`, `shiftMate` and the lookahead loop on the array
`mate`.  The proof relates the array to the graph `A` of the chosen edges (`PathComb.lean`: components that are paths, their ends, joining two of them): the
element of a vertex in the frontier is the other end of its path, or minus its colour if that is a terminal, or 0 (`MVal`, `Struct`, `Enc`).  The recursion over
the edges (`PathProofs3.lean`) is done once, for any goal that has the five properties `Sem`; `PathProofs4.lean` shows them for paths and
`PathProofs5.lean` for cycles; `PathProofs6.lean` translates to lists of vertices.  Excluded: loops, graphs without edges (`getRoot` reads outside of an array), more than 32767 vertices
(elements are `int16_t`), for cycles coloured vertices, for paths colours with other than two vertices.

**Findings (C43).**  `HamiltonCycleZdd` accepts cycles that do not visit all vertices, for two reasons: the loop over the frontier at the end of a cycle begins at
index 1 (`C43_hamilton_false`), and vertices that have not yet entered the frontier are not considered (`C43_hamilton_false2`).  Every Hamiltonian
cycle is accepted, and everything accepted is a simple cycle (`C43_hamilton_partial`).  The same holds of `HamiltonPathZdd` (`C44_hamilton_false`, `C44_hamilton_partial`).

### `ZddSubsetter` (`Subsetter.lean`)

`initialize`, `subset`, `downTable`, `downSpec` and the loop of `zddSubset_` with `derefLevel`, which destroys the input rows when the table is not
shared.  The lists `work[i][j]` of level `i` are one list whose entries carry the column `j`; the unique table per column is a list of classes as in the builder (justified by C04).
The proof has three parts: the join of two path sets over levels (`SubsetterProofs1.lean`); the synchronisation loop and the product specification of (node, state) pairs (`SubsetterProofs2.lean`);
`subset(i)` equals the builder's `construct(i)` of the product specification up to the order of the pending entries
(`SubsetterProofs3.lean`), and the builder invariant does not depend on this order (`BuilderPerm.lean`).  As the specification contract says, level codes are at least
-1: with code -2 for the 1-terminal the assertion in `initialize` fails (`C27_code_minus_two`).

### Parallel builders (`BuilderMP.lean`)
`DdBuilderMP` and `ZddSubsetterMP` with the lists `snodeTables[y][x][i]`.  An iteration of the first work-shared loop reads and
writes only data of its own group, so it is a function of the group.  The second loop is given as the multiset of its memory accesses
(writes through source pointers, writes of branches, pushes on the lists of the executing thread, dead-node counts); the schedule picks a thread for each group and
*any* permutation of the accesses, which includes all interleavings.  `runEffs_perm` shows that accesses to different cells commute; `effs_nodup` shows that no cell is written twice, so the level
does not depend on the order.  `bmLevel_eq` then shows that a level equals the sequential `construct` applied to some permutation of the
pending nodes, and `Lv.perm` (the builder invariant ignores that order) finishes the proof.  Groups separate equivalent states because hash codes agree (builder) or because
the input columns are equal (subsetter).
Not modelled: allocation of list cells, `get_copy`/`destruct` of states, one copy of the specification per thread (the specification is a pure function).
`nodeColumn[x] < 0` is never true (`size_t`); harmless, the lists of skipped tasks are empty.
Defect: if `merge_states` answers 1 (forward the old node to the 0-terminal), `code(p0) = 0` leaves the node reserved for `p0` unwritten, and the
table contains indeterminate branches (`C05_pruning_unsafe`, `C28_pruning_unsafe`); the sequential builders are safe (C06, C27).

### `NodeTableHandler` (`Handler.lean`)
A heap of reference-counted objects (32 bit counts) and handle variables; any access to a deleted object is undefined behaviour.
C47 is stated for all states reachable by legal operations in terms of the values seen through the variables.  A modification is `privateEntity()` followed immediately by the
change; a reference returned by `privateEntity` that is kept while the handle is copied is outside of the model.
Allocation failure is not modelled, and an exception from `ref` ends the execution (the count has wrapped to 0 then).
Findings: self-assignment of the only handle, hence of a `DdStructure` that shares its table with no other, is a use after free
(`C47_self_assign`); `init` on an unshared table keeps stale index tables (`C47_init_keeps_index`; no caller in the library builds the index before).

### `stretchBottom` (`Stretch.lean`)

C54 gives the table node by node and the meaning of the structure with a moved root: `C54_insert_nodes`, `C54_insert`, `C54_remove_nodes`, `C54_remove`.  The function is not
called by the library.  Findings: removal of levels is existential quantification only if every node of the removed levels reaches the 1-terminal (`C54_remove_dead`); the function
does not delete the index tables, so after `makeIndex` the lower-level lists are those of the old table (by reading; the tables are not modelled here).

### `dumpSapporo` (`Sapporo.lean`)

The output is modelled as lines of words, with a function that gives the text.  `C55_dump` gives the exact output, `C55_family` reads it back as a ZDD (`SapPath`).  The index of lower levels
is assumed to be that of the current table.  Findings: for a terminal root the function reads outside of an empty vector (`C55_terminal_root`); if a node above the
root refers to the root's level (possible only with unreachable nodes) the numbers of that level are discarded before the last line is written (`C55_root_lost`).

### `MyVector` (`Ram.lean`, `MyVector.lean`)

Memory consists of blocks of cells, each raw or holding an object; construction in a used cell, access to a raw or foreign cell, release of a block with live objects or with the wrong
size are undefined behaviour.  C50 compares programs over any number of vectors with the same programs over lists (`MyVectorSpec.lean`).  Not modelled: arithmetic overflow of
capacities, `hash`, `operator<<` and the copy from `std::vector`.  Findings: self-assignment empties the vector
(`C50_self_assign`); `push_back` of an own element while the array is full reads released memory (`C50_push_own`); `erase(first, last)` copies from `last + i` instead of
`last - first + i`, and so reads behind the elements unless `first` is 0 or `last` is the end (`C50_erase_middle`); `erase(pos)` passes the number of elements to `memmove` as
the number of bytes and never changes `size_` (`C50_erase_pos`).

### `MemoryPool` (`Cells.lean`, `MemoryPool.lean`)

Blocks of 8-byte cells; the links between the blocks of a pool are in memory, so user writes could damage them.  The reference (`MemoryPoolSpec.lean`) has no addresses: each allocation is
an array of its own.  C48 is the refinement for programs over any number of pools, plus the layout in bytes.  The size is rounded modulo 2^64 as in the code; other arithmetic is
unbounded and allocation from the system does not fail.  Findings: `reuse` keeps the last block of the list, which can be a large block that is shorter than
`BLOCK_UNITS`; later allocations overflow it (`C48_reuse_overflow`; no caller in the library); `alloc(0)` on an empty pool and `alloc` on a pool after `moveFrom` compute with a null pointer
(`C48_alloc_zero`, `C48_moved_from`); sizes above 2^64-8 wrap (`C48_size_overflow`); splicing a pool with itself leaks (`C48_self_splice`).  By reading:
`MyVector<MemoryPool>::moveElement` calls `moveFrom` on raw memory, so the virtual destructor is later called on an object that was never constructed (only if a non-empty
`MemoryPools` is resized, which the library does not do).

### `MyList` (`MyList.lean`, `MyListOnPool.lean`)

The same memory of 8-byte cells; a cell holds a link with its flag bit, or user data.  The start of the block is stored in the last data cell of the following free space and is overwritten by
the next element, as in the code.  C49 compares programs over any number of lists with stacks of separate arrays (`MyListSpec.lean`); pointers are compared by a table.
`MyListOnPool` is modelled over an arbitrary pool and proved for the reference semantics of pools; the pools of `MemoryPool.lean` follow by simulation.  Sizes are unbounded for `MyList`.
The comparison of `front_` with a pointer that may lie outside of the block (165) is done on indices.  The `const_iterator` of `MyList` does not compile when used (it passes a
pointer to const to `dataStart`), so only `iterator` is modelled.

### `MySmallSet` (`MySmallSet.lean`)

Elements are integers with their usual order; array entries can be indeterminate; `std::lower_bound` and `std::binary_search` are modelled by bisection.  C51 compares programs over any
number of sets with finite sets (lists without duplicates in any order), including `MySmallSetOnPool`, whose array has as many entries as were asked for.  `hash` and output are C101.  Not modelled:
the pointer `array_ - 1`, which is formed but not used.  Findings: the capacity is `N - 1`, not `N`; `add` on a full set throws for elements that are already there
(`C51_add_full`); the pool variant writes behind its array (`C51_pool_overflow`); `containsAll` and `equals` are wrong for sorted containers with duplicates (`C51_duplicates`).

### `MyBitSet` (`MyBitSet.lean`)

Words are `BitVec 64`; reads and writes check the index against `numWords()` (the assertion) and the array; a shift by 64 is undefined.  Both `MyBitSet<N>` with `N > 0` and
`MyBitSetOnPool`, whose array has its number of words in front.  C52 compares programs over any number of sets with predicates on the integers below `64 * words`; iteration is proved to list
the elements in ascending order, with the two cases of `operator++` for bit 63.  `hash` and output are C101.  Findings: `pullout(i)` is wrong.  For `i < 63` it moves the elements below `i`
up instead of those above `i` down (`C52_pullout`, `C52_pullout_wrong`); for `i % 64 = 63` it shifts by 64 (`C52_pullout_63`); for `i >= 64` it runs over the end of the array
(`C52_pullout_overrun`).  It is not called in the library.

### `FrontierBasedSearch` (`FrontierSearch.lean`)

- Modelled: `FrontierBasedSearchMate` (`FrontierBasedSearch.hpp` 64-262), the constructor, `getRoot`, `getChild`, `update`, `takable`, `doTake`, `doNotTake`, `hashCode`, equality (266-485). Not modelled: `printState`, `printLevel`.
- A reference to an element of the array is its index. Forming a pointer outside of the array (the tail of a colour that has not entered yet) is not taken as undefined behaviour; dereferencing it is. `int16_t` stores wrap around, `int` is unbounded.
- The model evaluates `isColored` and `hasSameColorAs` where the code would skip them by `&&`; they are total on the arrays that occur, and the result is the same.
- Proof: `FbLists.lean` describes the array by lists of vertices (`Enc`), `FbWorld.lean` by an abstract set of components with colours, `FbMerge.lean` and `FbUpdate.lean` show that `mergeLists` and `update` act on the lists as they should, `FbChecks.lean` treats the decisions, `FbConn.lean` and `FbSem.lean` relate components to the connectivity by the taken edges, `FbMeans.lean` puts this together by induction over the edges.
- `C57_search` states the meaning with walks along taken edges (`Linked`) alone. `C57_spanning_tree` is the use in the library's documentation: all vertices in one colour and `noLoop`.
- Finding: `numUEC` is reduced modulo 65536 without a check (`C57_wrap_false`). A graph with 32767 vertices can have the offset 32766, which is the mark of uncoloured vertices (`C57_limit`). The constructor checks neither.

### Input streams and readers (`IStream.lean`, `Graphillion.lean`, `Readers.lean`)

- `IStream.lean` models `get`, `unget`, `>>` for integers and the conversion to `bool` of `std::istream` (C++11, "C" locale, no read errors). This is a model of the standard library by its documentation, not of code in /repo.
- Modelled: all of `GraphillionZdd` but the opening of files; `Graph::readEdges(istream&)`, `readAdjacencyList(istream&)`, `readVertexGroups(istream&)`, `getColor`, `to_string`.
- The formats are defined without reference to the code in `GraphillionSpec.lean` and `ReadersSpec.lean`. C58 goes from the text to the family of sets; the member sets are lists of indices (`Gz.Mem`).
- `C58_first` is more general than `C58_family`: if several nodes have the least index, the first one is the root.
- Findings on `GraphillionZdd`: the files of the families {} and {∅} have no node, both are read as {} (`C58_terminal`); a file that ends after an identifier makes `read` use an uninitialised `index` (`C58_truncated`); identifier 2^64 - 1 is confused with `T` because `id += 2` wraps (`C58_large_id`); children without a line get index 0 and illegal levels (`C58_dangling`); with index `INT_MAX` alone no root is found (`C58_int_max`).
- Findings on `Graph`: `readEdges` appends the `EOF` value to the last word, so that a last line without new-line character is an error or is lost in part (`C59_last_line`); `readAdjacencyList` and `readVertexGroups` add vertex 0 at a word that is not a number and ignore the rest of the file (`C59_no_number`); `getColor` has period 45056 (`C59_colors_wrap`). Bytes above 127 lead to `isspace` of a negative `char` (undefined behaviour by the standard; `Res.ub` in the model).

### Colour members of `Graph` and `PathZddByStdMap` (`PathByMap.lean`)

- `CGraph` is `Graph` with `virtualMate_` and `hasColorPairs_`; `cgUpdate` computes them from the lists of `gColors` (the code has `std::set`s: the order of the two vertices of a pair does not matter for the mates). `name2color` after `clearColors()` is not modelled.
- A `std::map<int16_t,int16_t>` is the list of its elements in ascending order (`C61_sorted`); `operator[]` on a missing key inserts it, as in the code (`smAt`).
- `C61_ring` is stated with `IsRing`: the number `vMax + c` stands for the connection of the two vertices of colour `c`. `C61_path` and `C61_cycle` give the cases of one pair and of no colour without it.
- Findings: `hasColorPairs()` is not reset by `clearColors()` (`C60_clear_flag`; no caller in the repository asks for it afterwards). `setDefaultPathColor()` uses the strings "1" and `to_string(vMax)` as vertex *names*; it throws for graphs that were read by `readEdges` with other names (`C60_default_names`). `PathZddByStdMap` treats the pairs as edges that are part of one cycle: with more than one pair it never has the sets of paths that join the pairs, and it has others (`C61_pairs_disjoint`, `C61_pairs_false`).

### `FixedBigNumber` (`FixedBig.lean`)

- The array is a list of words; a `uint64_t` variable is a number below `2^64`; `lldiv` is truncating division of the signed 64-bit value, undefined for the divisor 0.  `translate` is modelled for unsigned types.
- Finding: `divide(n)` is wrong for `n > 2^31`, because the dividend `(r << 32) + val[i]` is passed to `lldiv` as a signed number (`C62_divide_false`).  The library calls it with 10 only.  When `operator+=` throws, the number has already been replaced by the sum modulo `2^(32 size)` (`C62_add`).

### `NQueenZdd.hpp` (`Queens.lean`)

- Modelled: everything in `apps/ddqueens/NQueenZdd.hpp`. The bitmaps are `BitVec 32`; an access outside of the array, a failed assertion and the shift by 32 or more are the undefined outcome. `int` is unbounded (`n^3` is at most 29791 under the precondition).
- `SpecInv.lean` is generic: it derives `Desc` and the family of a specification from an invariant of the states and a meaning of the states (`zddMem_of_step`).
- `IsPlacement` and `IsColored` speak of rows, columns and colours only. In the proof, the test with `popcount` is justified by counting (`popcount_ge`): the pieces of the lower rows need as many different columns. A finished (row, colour) of the coloured specification is marked by the bit `n - 1`, which is told apart from a free column by the level (`Done`); colour and column determine each other by the pigeonhole principle (`onto`), which is why the loop never runs into a field without a colour.
- Finding: for `n >= 32` the expression `Bitmap(-1) << n` in `getRoot` is undefined (on x86 the shift by 32 is a shift by 0, so `NQueenZdd(32)` would be the empty family). Neither class checks it.

### `ddqueens`: `NAryZdd.hpp`, `ZddInterleave.hpp`, `ColoredZdd.hpp`, `ddqueens.cpp` (`NAry.lean`, `Interleave.lean`, `QueensApp.lean`)

- Modelled: the three headers, except the printing of states; of `ddqueens.cpp` the statements that make the diagram (130-186) without the option `-p`; the options are those of C85. Not modelled: output, the count in `double`.
- The pointers of `ZddInterleave` and `ColoredZdd` to diagrams are values in the model.
- `C66_colored` is exact for all diagrams. `Visits` says that the way of an assignment through a diagram has a node of a row. `C66_colored_oneHot` is the use in the application.
- `C67_mirror` says that the two ways to make the coloured solutions agree, which the application does not check.
- Findings: `NAryZdd` has no number whose lowest digit is 0, because `getChild` decrements `level` to 0, which is the 0-terminal, where the 1-terminal is meant (`C65_nary_false`); the application does not use this class. A copy of a `ZddInterleave` made with the third constructor points to the universal diagram inside the original. `ColoredZdd` does not demand a colour for a field that no part has a node for.

### `apps/numberlink`: `DegreeZdd`, `NumlinZdd`, `ConstraintZdd` (`Numlin.lean`)

- Modelled: `getRoot` and `getChild` of the three classes. `uint8_t` and `uint16_t` members are reduced modulo 256 and 65536; the other `int`s are unbounded. An access outside of an array is the undefined outcome. `number[i][j]` is not negative.
- `NumlinSpec.lean` defines lines, degrees and solutions without reference to the code. `SpecRun.lean` is generic: a specification with a node at each level, described by a relation between states and the assignments that lead to them. `NumlinRun.lean` uses it for boards: `part L i hc vc` are the lines drawn so far.
- `Mate.lean` is about graphs in general: `MInv` says that `M x` is the other end of the path with end `x`, or the number at its other end. `join_ok` is the step, `join_cycle` and `join_clash` are the reasons to reject.
- Findings: on a board with one column the level of the root is 0 and no solution is found (`C69_column_false`; `ddnumlin` transposes boards with more columns than rows only, so a puzzle with one column fails; one with one row is transposed, which is undefined, `C71_row_false`). `mate` is of type `uint8_t`: `cols + number` wraps around silently (`C69_wrap`).
- `ConstraintZdd` prunes; `Tidy` in `NumlinSpec.lean` says what remains. `ddnumlin` without `-a` uses it together with the limit `-k` of the blank boxes, and then a solvable puzzle may be reported as unsolvable (`C70_blank_false`: two ones at the bottom of a 2×2 board with `-k 0`).
- `NumlinApp.lean` models `ddnumlin` after the input and without `-p` (with `-p`: `AppParallel.lean`, C95): transposition, diagram, iteration, reconstruction of the printed boards. The options are those of C85. Not modelled: messages, the number of further solutions (`double`). Findings: a board with one row and more columns is transposed, and `transposed_matrix(vlink)` reads `a[0]` of an empty vector (`C71_row_false`); a board with one column finds nothing (`C71_column`); an option with a value that is given twice is misread (`-k 3 -k 5`: after the first, `opt.count("k")` holds, so the second is taken as a flag and `5` as the input file; read in the text, not modelled).
- `NumlinRead.lean` models `readNumbers` and `writeNumbers` character by character on the stream of `IStream.lean`. Findings: every visible character that is not a digit is a blank box of its own, so `-1` is a blank box followed by the number 1; text after the size on its line, further boxes of a row and further lines are ignored without a message; blank lines count as rows; a number above `INT_MAX` ends the reading silently with `INT_MAX` stored (read in the source; outside the hypotheses).
- `NumlinPicture.lean` models `printNumlin` on code points instead of UTF-8 bytes. Findings: the line that ends in a number is hidden by it, so four equal numbers in a square have one picture for two solutions (`C73_faithful_false`); numbers above 99 break the alignment (`C73_picture_false`).
- `NumlinFill.lean` models `fillNumbers` with bounded recursion depth. Finding: `num = fillNumbersFrom(...)` overwrites the mark `-1` with 0 while the box is still being worked on; on a closed line of four boxes the calls therefore go back and forth forever (`C74_loop_false`). `ddnumlin` does not call the function.
- `CnfZtdd.lean` models `CnfToZtdd` after the text has been read. `std::sort` is an insertion sort; the tautology flag that `VarCmp` sets when it compares `x` with `-x` is modelled as “the clause contains `x` and `-x`” (a sorting algorithm has to compare neighbours of the result, and equivalent literals `x`, `-x` are neighbours there). `CnfApp.lean` models `Cudd` values as ordered reduced diagrams without complement edges, with equality of diagrams for equality of pointers (CUDD is canonical), and textbook algorithms for `Cudd_bddAnd`, `Cudd_bddIte`, `Cudd_Cofactor`; the library itself (reference counts, memory, `Cudd_CountMinterm`) is trusted and not modelled. Not modelled: messages, options, `dumpDot`.
- `CnfRead.lean` models `readDimacs` with `getline`, `sscanf` (overflow is undefined) and `>>`. Finding: at the end of the text `is >> x` assigns nothing and the uninitialised `x` is used, in every run on a file that ends after its clauses; the model has a parameter for its value, and `C77_uninit_false` shows that the file is rejected if it is a literal. Finding: `std::abs(x)` is undefined for the literal `-2147483648` (`C77_min_false`). Empty clauses are skipped without being counted, so a file with an empty clause that the header counts is rejected (`C77_few`) although it is a legal (unsatisfiable) formula. Texts that continue after the clauses with something that is no number (as in SATLIB, `%`) are read without undefined behaviour.
- `SapporoLib.lean` models the four wrappers of SAPPOROBDD. The package is modelled by a permutation of variables and levels (`VarOrder`) and textbook algorithms on trees of levels; asking for a variable or a level that does not exist is undefined. Findings: `f.OffSet(BDD_VarOfLev(f.Top()))` takes a variable for a level, and the loop does not end for some orders (`C78_order_false`); with a negative offset `SapporoZdd` gives constants the level `-offset` (`C78_negative_false`) although `ToZBDD` accepts negative offsets. By reading: `ToBDD` (like `ZtddToCudd`) does not override `isThreadSafe`, which is true by default, so `evaluate` calls the package from several threads if the diagram was made with `useMP`; `ToZBDD` overrides it.
- `CnfBdd.lean`, `CnfBddApp.lean` model `apps/cnfbdd`; CUDD as in `CnfApp.lean`, with textbook algorithms for `Cudd_bddConstrain`, `Cudd_bddExistAbstract`, `Cudd_Support`; `Cudd_DagSize` is an arbitrary function. `std::sort` is any function that permutes and sorts. The options are those of C85. Not modelled: messages, `countMinterm`, the dumps, `-p`. Findings: `work` counts clauses with 16 bits, so from 65536 clauses on satisfying assignments are lost (`C80_wrap_false`); when all clauses are tautologies `prepare` uses `front()` of an empty vector (`C80_empty_false`, `C82_tautologies_false`); the inner loop of `badState` does not test for the end of the array, so with the default options the program reads past the end for `(x1 | x2) & (~x1 | x3)` (`C81_overrun_false`), with `-b` for `x1 & (~x1 | x2)` (`C81_overrun_up_false`), and with `-s` for its own `example.cnf` (an example in `Props/CnfBddApp.lean`); the last `return g == 0` of `badState` compares with the null pointer, which is never true, so that the pruning is weaker than intended (`C81_null_false`); the counter's storage overflows for diagrams with many levels skipped (`C82_overflow_false`, from C31); the uninitialised `x` of C77. By reading: `Cudd_::abstract1` (`Cudd.hpp` 263-289, not used) computes `ite(x, f0 | f1, f0)`; `-limit 5 -limit 6` is misread as in `ddnumlin`.
- `DdPaths.lean` models `ddpaths` after the options have been read (C85) up to the printed numbers and sets; `AppOps.lean` numbers the operations so that each has its own schedule. `-graph` and the text of `-all` are in C103. Not modelled: messages, the dumps, `-zdd`, `-export`, the conversion to SAPPOROBDD. Findings: `-hamilton` inherits C43/C44 (`C83_hamilton_false`); `-slow` with two or more pairs of terminals prints none of the paths (`C83_slow_false`). By reading: `-p` is ignored for `-t cc` and `-t forest` without `-lb`/`-ub`; `setDefaultPathColor` uses the names 1 and n, which need not exist.
- `GraphillionApp.lean` models `graphillion_example` after the options have been read (C85). Simplification: the iterator is run to its end even if `-solutions` breaks the loop. `-graph` and the text of `-solutions` are in C103. Not modelled: messages, dumps, `-zdd`, `-export`, the conversion to SAPPOROBDD, opening of files; imported diagrams with more levels than edges are outside of the theorem. Findings: the constraints of `-spanning` and `-matching` replace those of `-matching` and `-path` (`C84_matching_false`); index `i` of an imported variable is the edge `i - 1` only if the last edge occurs in the diagram (`C84_import_false`); `-st` joins the first group of a group file (`C84_st_false`); the built-in graph cannot be used with a group file (`C84_own_groups`); `-solutions 0` prints all. By reading: `base.read()` is outside of the `try`, so an exception there ends the program.
- `AppArgs.lean`: an argument is a list of characters, the maps are association lists, `usage` and `return 1` is the outcome `thrown`. `atoi` is undefined for numbers that are not an `int` (so is the C function); `long` has 64 bits and the conversions to `int` and `size_t` are modulo 2^32 and 2^64. The replacement of the graph file `-` by the empty name (`ddpaths.cpp` 154) and the opening of files are not modelled. Findings: `opt[s] = true` adds the key `s`, so an option with a value that is given a second time is a flag and its value becomes a file name (`C85_repeat_false`); `"-t cycle"` as one argument is accepted and ignored (`C85_word_false`).
- `StateStore.lean`: bytes are numbers below 256, a `size_t` has 8 of them, least significant first; alignment is not modelled, sizes are unbounded; `printState` and the level dependent variants (`hashCodeAtLevel`) are left out. The functions of the user see values; element types of arrays have no padding (`Pod`), scalars may have (`Scalar`; nothing is assumed about the padding after a copy or an assignment). What a storage contains before a copy may depend on the copied state, the level and the value, which covers every run because each state of a level is expanded once. The other models use states as values; C86 is the justification. Findings: nobody initialises the padding behind an array, so `equal_to` is not equality of the elements (`C86_padding_false`), but all states of one construction have the padding of the root; `HybridDdSpec` compares the padding inside of the scalar and `DdSpec` hashes it, so equal states are not always shared (`C86_hybrid_padding_false`, `C86_scalar_padding_false`; no scalar in the repository has padding); `HybridDdSpec` does not report a missing `setArraySize` itself, only the builders do (`C86_hybrid_size`).
- `ConvCanon.lean`, `SubsetCanon.lean`, `QddCanon.lean` (C87): no new model; the sequential builder, subsetter and reducers of C03, C07-C11, C24-C27. `NoTwins`, `BddReduced` and `ZddReduced` range over all nodes of the table, reachable or not. Finding: the intersection of two reduced ZDDs by `zddSubset()` is in general not reduced (`C87_zddSubset_not_reduced`), so `==` after `zddSubset()` without `zddReduce()` is only meaningful when the specification is of the same family.
- `RandomDd.lean` (C88): `RandomDd.hpp` 31-62 and `do_test` (`testRandomDd.cpp` 35-73), sequential. `rand()` is an oracle indexed by level, state, branch and call, so the specification is a function as the builder needs; the generator of pseudo-random numbers is not modelled. Assertions are values: `some false` is a failed one. Finding: the cardinality of the empty binary diagram over at least 63 levels is undefined behaviour (C31), and the project's test meets it whenever both edges of the root of a 100-level diagram are dropped.
- `TestSpecs.lean` (C89): the small specifications and evaluators of `apps/test`. `ASSERT_EQ` of `int` and `uint64_t` converts the `int`; the conversion of `uint64_t` to `int` is modulo `2^32`.
- `GridPath.lean` (C90): `MateArray` forms the pointer `state - offset`, which lies before the array (formally undefined in C++); only its uses are modelled. The array contents after a return of 0 or -1 are not looked at by the builder and are left unchanged in the model. The single-vertex grid yields the empty family (`C90_single`).
- `Dump.lean` (C91): the unique tables are abstracted to a search for an equal state (C46 is about the tables). A child level that is not below its parent is outside of the contract and is `none`. `merge_states` is a function of the two states. A second `dump` with the same `DdDumper`, which would keep `oneId`, is not modelled: `dumpDot` makes a new object. Node numbers are unbounded; the text with the attribute bit (`arrowtail=dot`) is `Attr.dumpText` (C92). For values from 3 on the text has the same colour, so the values are taken from the lines, not from the text.
- `Attr.lean` (C92): the bits of the ids in the result, of the input ids and of the `newId` table are functions beside the model of the plain reducer (`AttrProofs1.lean` shows that the ids are the same), sequential only. Hypothesis `TermBits`: ids of terminals in the input have no bit, so for a structure just built (no bits) and for the result of a reduction (`C92_again`). For the binary reducer the hypothesis is needed because it rewrites input branches in place. The bits in `reduceMP` are C100, those that `garbageCollect` uses as marks are C99. `ZeroChain` speaks of the node table only.
- `Messages.lean` (C93): a handler is a number, the stream a list of characters with their writers (the writer is ghost data). `lineno`, `column` and the indentation are unbounded; the products in `step` are checked for overflow of `int`. Clock and `ResourceUsage` texts are arbitrary functions of a counter. `flags`, `precision`, `imbue` and `col` are left out. `end` reads `rusage` before the tests of the line, as one use of the environment.
- `Demangle.lean` (C94): the result of `abi::__cxa_demangle` is a parameter, `isalnum` and `isspace` are those of the C locale for codes below 128. Findings: `_` is not alphanumeric, so `my_lib::Spec` becomes `my_Spec` (`C94_underscore_false`); a function type loses its parameters (`std::function<void (int)>` becomes `function<void >`).
- `AppParallel.lean` (C95): each operation of a program has a number and its own schedule. In `ddqueens -colored` only the diagrams of single colours are made with `-p`, as in the code. Messages are left out, as in C67 and C71.
- `ReducerFine.lean` (C96): all branches of a node are one location, a list `taskMatrix[y][x]` is read at once, and memory is sequentially consistent; where `C96_races` shows that there is no race this is what the C++ standard promises. `C96_output_race` is a finding: in the third loop (537-545) all threads that have a copy of a node write it to the same place of the output, without atomic operations. The values are equal, so the result does not depend on the order, but by the C++ standard it is a data race. The `single` sections and everything behind the parallel region run in one thread.
- `IndexFine.lean` (C97): memory is sequentially consistent and the critical section is one step, although `lowest` is read outside of it too; `MyVector<bool>` has one byte for each element. `C97_races` is a finding: `lowest` (272 against 274) and the marks (276-278) are accessed by several threads without atomic operations, which is a data race by the C++ standard, though the model shows that the interleavings alone do no harm. The schedule of the loop is arbitrary (the code has `schedule(static)`).
- `EvaluateFine.lean` (C98): the callback reads the values of the children in the order of the branches and its own state once, then writes its state and the value of the node once; since nobody else accesses these locations at that time (`C98_no_race`), more accesses would make no difference. The diagram is not written by anybody and is read as a constant. `destructLevel` of the copies runs in parallel too, each thread on its own object.
- `Gc.lean` (C99): `garbageCollect` works on the input table of `Table` with the attribute bits of the branches 0 beside it, since the branch values compare without the bit everywhere else; `roots` are the values of the variables registered by `setRoot`. `std::sort` is a parameter with its specification, `std::unique` is modelled. The library never calls the function.
- `AttrMP.lean` (C100): schedules and their simplifications as in C12. The copies of nodes in the task lists have no bits of their own in the model: line 493 takes the bit of branch 0 from the node of `input` that was copied, which is not written between. No hypothesis on the bits of the input except that a terminal root has none.
- `SetText.lean` (C101): elements of `MySmallSet` are integers, whose default hash is the product with 314159257 modulo `2^64`; a character type would be written as characters. Stream flags (base, width) are those of a new stream. The end of the iteration over a bit set is the comparison with `end()`, as in C52.
- `GraphText.lean` (C102): the functions are called after `update()` has not thrown; `name2label` is any map in `C102_dump` and empty in `C102_text_inj` (nothing in the class writes to it). Findings: colours of vertices and edges share one map, so that a coloured vertex named `a,b` colours the edge of `a` and `b` (`C102_comma`); a vertex with an empty name has no line (`C102_empty_name`).
- `AppText.lean` (C103): only what goes to the standard output through `Graph::dump`; the dumps of the diagrams, which are printed before the solutions if `-zdd` or `-export` is given as well, are not part of this text, and messages go to the standard error. As in C84 the iterator is run to its end even if `-solutions` breaks the loop, and `--count` of the smallest integer is undefined, so that `C103_solutions_inj` needs at most 2^31 solutions. `C103_all_inj` and `C103_solutions_inj` have no condition on the names, as the graph is given.
- `DataTable.lean` (C104): rows and columns are numbered by natural numbers (`int` and `size_t` in the code); allocation does not fail and addresses are not reused. `table[i]` checks its argument with `assert`. The move loop of `reserve` is modelled but never runs for rows, as `reserve` is called by `operator=` only, after `resize(0)`. `operator[]` is modelled for reading and writing single elements and for the size of a row; other functions called on the reference that it returns are those of C50. The commented-out members and `DataTable.hpp` 60-86 are not modelled. `C104_self_assign` is a finding: `table = o.table` for the same table starts with `resize(0)`, so all rows are lost.
- `StateText.lean` (C105): texts are lists of characters; the signs `∧`, `∨`, `∪`, `∩` are single characters here and sequences of bytes in the source. `operator<<` of integers is `toString`. Not modelled: states whose type prints something else than a number (such as `char`), the texts of the applications other than those of C106 and C107, and `print_state` of `Lookahead`, which forwards the text of its operand. By reading: `print_state` of `ZddIntersection` of three or more operands (`BinaryOperation.hpp` 292-298) calls `level1`, which the class does not have, so that a picture of such a specification cannot be compiled.
- `NumlinLabel.lean` (C106): texts as in C105; the states are those of `Numlin.lean`.
- `CnfLabel.lean` (C107): texts as in C105; the states and clauses are those of `CnfZtdd.lean`. Not modelled: `printState` of `CnfToBdd` (it prints a set of C101) and of `Cudd_` (`Cudd.hpp` 306-308, it prints the level only, so that all nodes of a level have the same label).
- `CnfPicture.lean` (C108): texts as in C105; the map of clauses is that of `CnfBdd.lean`. Not modelled: the stream, its failures, and the bounds of `int` for the numbers of variables and clauses.
