# Formal model of HeuristicFlow in Lean 4

## Layout

* `lean/Verif/Model/*.lean`  – executable (or relational) models of the C++ code, each definition citing file and lines in `/repo`.
* `lean/Verif/Spec/*.lean`   – small specifications written without reference to the models.
* `lean/Verif/Lemmas/*.lean` – helper lemmas.
* `lean/Verif/Props/*.lean`  – the property theorems (only these are listed in `MANIFEST.json`), each with a non-vacuity `example`.

## Conventions

* **Undefined behaviour** (out-of-range access, use after erase, front() of an empty list) is a distinct outcome (`none` / an explicit `ub` constructor), never a default value.
* **Randomness**: every random draw is an argument (an oracle value or stream); theorems quantify over all of them.
* **`std::sort`, `std::shuffle`, iteration order of unordered containers**: any function/relation that returns a permutation meeting the comparator's specification; theorems quantify over all of them (so over all tie orders).
* **Uninitialised memory**: an explicit `junk` argument, quantified over.
* **Floating point**: code that only compares uses an arbitrary linear order (NaN excluded); code whose arithmetic matters uses an arbitrary linear ordered field or ℝ (rounding excluded), except where rounding is the subject (binary codes, float block counts), which is modelled exactly on integers.
* **Fixed-width integers** are `BitVec`/explicit modulo where wrap-around is the subject, `Nat`/`Int` otherwise.

## Plan per property

| id | model | proof |
|----|-------|-------|
| C01,C02 | blocks as `List (BitVec w)`, `getValue`/`setValue` with the two branches | bit-level extensionality |
| C03 | state {blocks,size,junk}; push/pop/clear/set steps | refinement to `List (BitVec e)`; negation witness for growth (`reserve` copies bytes, not blocks) |
| C04 | block count through float32 rounding on naturals | exact below 2^24 bits; negation witness above |
| C05–C07 | column-major index arithmetic; dynamic matrix state machine with allocation size | arithmetic; invariant by induction; `reserve` negation |
| C08,C09 | bit packing on 64-bit words | `BitVec`/`Nat` arithmetic; negation for significands ≥ 2^54 |
| C10,C11 | doubles as integers in units of 2^-1074, halving with round-half-even | loop invariant; negation for all-ones mantissa, −0, float +inf |
| C12 | factorial modulo 2^64 | equality with `Nat.choose` for N ≤ 20, negation at 21 |
| C13–C15 | direct | list induction / order arithmetic |
| C16–C24 | Pareto, dominated counts, layers, NSGA-II and NSGA-III selection, reference points | counting argument: dominated count strictly increases along dominance; list permutations; induction on the niche loop |
| C25–C29 | GA loop as relation/fuelled function over abstract select/crossover/mutate; operators on lists of genes | invariants, termination measure |
| C30–C37 | each selection method with oracle draws | loop invariants |
| C38–C43 | boxes, crossover and mutation operators | order arithmetic; on bounded integer types the exact set of safe boxes is determined (`initialize_int_iff`, `applyDelta_int_iff`, `symbolMutate_int_iff`) |
| C44–C47 | PSO | invariants over runs |
| C48–C53 | AOS | invariants over runs; negations |
| C54–C57, C70–C78 | test functions over ℝ | real arithmetic, trigonometric bounds; DTLZ loops with explicit result vector, generic front lemma; negations where the formula is wrong |
| C58–C67 | further GA/PSO/selection properties | as for their families |
| C68, C69 | AOS early-stop counter, life time of the best electron | run invariants; negation with an unstable sort |
| C79 | NSGA-III selection composed with normalize/associate | invariant tying niche counts to the selected set; `NicheFill` specification |
| C80–C84 | single-objective selection methods as wheels | refinement to `WheelRun`; Lebesgue measure of the draws that hit a sector; negations |
| C85 | `nsga3Normalize` under a change of units | matrix algebra; negation through the absolute singularity threshold |
| C86 | `pickRandom` | volume of the set of draw vectors (product of intervals, telescoping) |
| C87 | `signOf`, `square`, `gaussianCurve` | order cases; Mathlib's Gaussian density |
| C88 | `moSolver`, `nsga2Solver`, `nsga3Solver`, `paretoFront` on top of `gaRun` | invariant (distinct nodes, no stale cache, at least K candidates) over the main loop; selection theorems C18, C20, C22 per step |
| C89 | same | induction on the loop: the counter stays 0 |
| C90 | same | per-step elitism; well-founded domination; induction over generations |
| C91 | `nsga2Select` | counting infinitely isolated candidates (at most two per objective) |
| C92 | `isStrongDominateFl` on IEEE values | induction over the objectives; order embedding of non-NaN doubles into the extended rationals |
| C93 | `nsga2SelectFl`: rounding arithmetic, `std::sort` undefined for a comparator that is no strict weak order on the range | crowding values are never NaN; then as for C01-C07 |
| C94 | as C93 | negation: NaN (general), infinity and overflow (witnesses) |
| C95 | `psoRun` with fitness `double` | transfer of C45 along the order embedding of non-NaN doubles; induction over generations for NaN |
| C96 | `runSelectFl`: the ten selectors over IEEE data | order-only parts transferred along the embedding into the extended rationals; elimination lists are sublists whatever the arithmetic does; witness for StochasticUniversal |
| C97 | as C96, loops with fuel | bounds on partial sums (`k * 2^e`) show that a roulette round always eliminates; negations: the loop state stays NaN or infinite for ever |
| C98 | `selectBoltzmannFl` | negation: with all weights zero each round eliminates the head |
| C99 | `findCurrentBestGene` over IEEE data | a scan starting with NaN never leaves it, one starting with a number never reaches NaN |
| C100 | `childState`, `photonState`, `confine` | the clamp is the nearest point; bound by cases on the signs; means of points of a box are in the box |
| C101 | `crossInTray`, `eggHolder` over ℝ | monotonicity of exp and rpow; witnesses along a sequence for the unbounded part |
| C102 | `poloni` over ℝ | sums of squares; Taylor bounds (`Real.cos_bound`) certify the decimal constants of the code |
| C103 | `fonsecaFleming` (Eigen, std; NaN as `none`) | Pareto set by splitting sums of squares; negations by witnesses |
| C104 | the parallel loops as sets of stores with their read sets (`Model/Omp`); traces of `schedule(dynamic, chunk)` as all interleavings | commutation of stores without conflict, induction over traces |
| C105 | the same; the random engine is a location | pairwise absence of conflicts; the swarm update by exact characterisation (races iff two chunks) |
| C106 | `chunkSize` with the function-local static thread number | case analysis; exact characterisation |
| C107 | `setThreadNum`, the captured static | case analysis |
| C108 | solver objects and arbitrary sequences of public calls (`Model/Session`) | invariant over histories (induction from the right); the stale-cache case by a general theorem and a witness |
| C109 | the same for PSO and SOGA | invariant over histories, monotonicity of the bests |
| C110 | the same for NSGA-II/III | exact characterisation of the histories with undefined behaviour, by induction over the history |
| C111 | `aosRunAgain`: the loop started with the counters the first run left | the stop criterion is still met; electrons unchanged |
| C112 | `MBSIter`: containers at addresses, references = (container, 64-bit index), moves modulo 2^64, user loops | every sequence of moves is one addition modulo 2^64; loops by induction on the elements left |
| C113 | `sogaSession`, `moSession`, `psoSession` | induction over the history; `lastSet` = last value given or the default |
| C114 | `initializeInt`, `cFunSwapNs`, `cFunRandNs`, `applyDeltaInt`, `symbolMutateT`, `gaRun` | the operators preserve the box (C38, C40, C42, C43 on a scalar type with room), then the run invariant of C65 |
| C115 | `SelConfig`, `selCall`, `selSession` | induction over the history; ranges as an invariant of the last values; composed with C80 |
| C116 | `applyConstraint`, `applyDeltaContFl`, `applyDeltaUnitFl`, `cFunNdFl` over `Dbl F` | case analysis of the IEEE order; monotonicity and relative error of rounding (`Lemmas/FlErr`) |
| C117 | `SqBoxObj`, `RectBoxObj`, `GaussBoxObj` with their calls and operations | induction over the history (last value, invariants of sizes), composed with C38–C40; counterexamples for unchecked shapes, missing delta, row-major delta(r,c) |
| C118 | `crossLoop`, `crossX`, `cFunNdStd`, `cFunNdEigen`, `cFunSwapNsInto`, `cFunRandNsInto`, `iFunNd`, `iFunNdFl` | induction over the loop passes with bounds-checked reads and writes; equality with the pure operators of `Model/Box` |
| C119 | `cFunNd` | algebra on the two children's entries |
| C120 | `View` (map as offset and shape in one memory), `FixMat` operations | induction over the copying loop with the invariant "cells written so far hold the old source element `k mod offset`" |
| C121 | `RefLayout` (both layouts), `NSGA3Obj`, `nsga3Call`, `nsga3Session`, `referencePointCount` | induction over the history (last value, points of the last initialisation), composed with C23; exact characterisation of when the count is defined |
| C122 | `nsga3SelectFl` and its parts on IEEE data, Eigen's numerical routines as arbitrary functions | the cut/niche invariants of C22/C79 with the IEEE comparisons; a random pick always succeeds because `randD()*1 <= 1` after rounding |
| C123 | as C122, and `nsga2SelectFl` | negation: NaN candidates are never dominated (C92), so the front contains them |
| C124 | `priMakeRPFl`, `makeReferencePosesFl`, `makeReferencePoses2Fl`: the generation with a rounding per operation | the recursion is the image of the exact generator over integer vectors; one quotient and one subtraction each within half an ulp |
| C125 | `nsga2SolverFl`, `nsga3SolverFl`: the GA loop with the IEEE selections | the run invariants of C88–C90 redone for an arbitrary dominance relation, then C93, C122 and C124 plugged in |
| C126 | `PSOFull` (all members of a PSO solver with a square box), `psoFullCall`, `psoFullSession` | induction over the history: settings = last value given, swarm non-empty iff initialised, then definedness call by call; invariants of C44–C46 carried across runs; generic in the number type, instantiated exactly and in IEEE |
| C127 | `aosRunFl` over `Dbl F` (`Model/AOS` generic in the operations, `Model/AOSFl`) | the invariants of C48/C49/C52/C68 over the values denoted by the doubles; `sortRange` undefined for inconsistent comparators; termination by fuel |
| C128 | the same | invariant over all electrons and binding states; magnitude bounds through rounded sums, products and quotients; concrete counterexample |
| C129 | `layerCountsFl`, `layerLimitsFl`, `fillLayersFl` (`double` and `int` arithmetic, conversions, `reserve`) | bounds of the rounded shares, then refinement to the exact layering (`plan_spec`) |
| C130 | `AOSFull` (all members of an AOS solver), `aosFullCall`, `aosFullSession` | refinement of a run to the algorithm of C48–C53; induction over the history and over the loop; sufficient conditions for a run to return with `plan_spec`, `best_survives`, `children_total'` |
| C131 | `GACore`, `SOGAFull`, `MOFull` (all members of a genetic solver, null function pointers), `gaOpsLoop`, `sogaFullCall`, `moFullCall`, sessions | refinement of every returning run to the solvers of C85–C91 (`opsLoop_refines`), simulation of the history by the sessions of C108/C110, totality by `opsLoop_total`; settings by induction over the history; irrelevance of unused pointers by congruence of the loop |
| C132 | `World` (any number of objects, each with a version of its list and the place its `_bestGene`/`_pfGenes` lead to), `World.copy/assign/destroy`, selectors reading the previous best through an arbitrary reader (`runSelectFrom`), `sogaWorldCall`, `moWorldCall` | well-formedness of object numbers by induction over the history; independence by projecting the history to one object; run on a copy by showing that only the first selection reads through the old pointer (`opsFrom_loop`, `opsFrom_first`) and reads the same gene; stale copies never return (`opsFrom_never`) |
| C133 | `AOSWorld` (any number of objects, each with an identity of its list of electrons and the identity of the list its `_atomBestPtr`/`_layers` lead into), `AOSWorld.copy/move/assign/moveAssign/destroy`, `AOSFull.runFrom` (the first evaluation reads the old best through an arbitrary reader) | identities are used once (`AOSWorld.WF`, induction over the history); an identity no object has any more never comes back (`AOSWorld.Dead`); independence by projecting the history to one object; run on a copy by `runFrom_congr` (only the first evaluation follows the old pointer) |
| C134 | `Cont` (what `array_traits` sees of a container type), `offers`/`specialises`/`instantiates` (the compile-time conditions as decision functions), `callSchaffer1` … `callKursawe` (assertion, `resize` of the result, element writes on lists) | the state of the result object after the `resize` (`initFitness2_spec`), then the writes (`wr_two_add`); exact outcome for every pair of containers (`PairOutcome`); the instantiation conditions by case analysis on the two sizes |
| C135 | `MatWorld` (variables holding pointers, one heap of blocks), `MatWorld.call` for constructors, moves, assignments, `resize`, `fill`, element writes, destructor | refinement: the heap program is the same program on independent values (`MatValues`, built from the single-matrix model of C05/C06), by a frame lemma for one object (`ObjStep`, `put_ok`) and induction over the program; ownership is the simulation invariant; legal programs by the single-matrix invariant of C06 |
| C136 | container types as data (`CType`), `sizeCT`, `rowsCT`, `colsCT`, `isVector`, `stdContainer`, `uintXBits` (`Model/Traits`) | case analysis on the type; the specification speaks of the shapes objects of the type can have; exact exceptions |
| C137 | class selection, `setDimensions`, Boolean core as decision functions of `CType` | from C136 by cases; exceptions exact |
| C138 | what a class offers as a box (`BoxMembers`), the members of the library's boxes, the C++17/C++20 conditions | Boolean reasoning for all classes |
| C139 | `Enum2String` as functions on numbers, undefined where control leaves the function (`Model/Names`) | cases |
| C140 | histories of calls on one object (`Model/ChaosObj`), IEEE arithmetic | induction over the history, with the bulk/single-step agreement of C14 |
| C141 | `BitWorld` (variables holding pointers, the heap of C135), `BitWorld.call` for constructors, `operator=`, `resize`, `reserve`, `shrink_to_fit`, `push_back`, `pop_back`, `clear`, element writes, destructor; `strict` chooses between the letter of the standards and what implementations do with `deallocate(nullptr, 0)` and `memcpy(p, p, n)` | refinement to independent values built from the single-container model of C01-C04 (`bit_call_refines`), induction over the program; safety of legal programs from the bounds of C02/C04 |
| C142 | `PSOOwn` (the object of C126 with a user-supplied initialiser, run-time or compile-time), `psoOwnSession`; Eigen's size assertions of the velocity update and the reads of unset bounds | the loop equals that of `Model/PSO` once all vectors have one size (`own_loop_eq`), invariants carried over runs and histories (`own_run_inv`), exact definedness condition; concrete run for the out-of-box report |
| C143 | `AOSOwn` (the object of C130 with a user-supplied initialiser), `aosOwnSession`; Eigen's size assertion in the sum of the states, bounds read per entry | with states of one size the loop equals that of C130 (`aosOwn_loop_eq`), so its lemmas carry over; new invariant: the record is ahead of every seed (`fullRun_seeds`); induction over the history |
| C144 | `Model/Calls`: the four user functions as transformers of a world `ω`, every stage of a run threads it; specification: the same run with wrapped functions that write a log (`logged`; `ga_log_transparent`: nothing else changes), `RunLog` describes the log independently | induction over the generations (`callsLoop_log`), one lemma per stage; `FairHost` (what is assumed of selection, shuffle and order) proved for SOGA with each method and for the multi-objective solvers; agreement with the pure model (`calls_agree`) |
| C145 | `Model/PSOCalls`: the same for the swarm | invariant `SwarmInv` (the bests are logged values, no logged value is better than all of them) by induction over the rounds; blocks of calls; agreement with the pure evaluation (`swarm_evaluate_agrees`) |
| C146 | `Model/AOSCalls`: the same for the atomic orbital search | inversion of one iteration (`aosCallsLoop_inv`), number of children = number of electrons kept without any assumption on the layer plan (`makeLayers_total`), invariant `AOSCover`, induction over the iterations |
| C147 | `Model/DefaultRunFl`: the library's initialiser, crossovers and mutation on IEEE data as the functions of `Model/Calls` | the log of a run (C144) and where its entries come from (`callsLoop_world`), a property per generation along the log (`runLog_levels`), error analysis of one crossover (C116), recurrence of the margin; a concrete run that leaves the box |
| C148 | `Model/MOCalls`: the loop of `Model/Calls` with the selections of NSGA-II/III, exact and IEEE | what a selection guarantees (C88, C125) applied to the values the individuals have; induction over the loop with the fronts of all shorter runs as hypothesis (a run with a smaller `maxGenerations` is a prefix) |
| C149 | `Model/SOGACallsFl`: the loop of `Model/Calls` with the ten selections on IEEE data (`Model/SOGAFl`) | what a selection guarantees without NaN (C96) holds of every generation because the loop only ever stores values the fitness function returned; induction over the loop as for C144 |
| C150 | `Model/PSOCalls` with fitness type `Dbl F` | the comparison is an order on the numbers and false for NaN (`PartialNumbers`); the invariant of C145 with "every stored best is a number" added; separately, a NaN global best is never replaced |
| C151 | `Model/AOSCallsFl`: the loop of `AOSBase::__impl_run` on `Dbl F` with user functions as world transformers | as C146 with the energy comparison on extended numbers; survival of the best from `bestEnergy_survivesFl`; NaN case from the undefinedness of sorting (C127); agreement with `aosLoopFl` by induction on the rounds |
| C152 | `Model/TestFunsFl`: the polynomial test functions on `Dbl F`; Eigen's `sum()` as any reduction tree of any permutation | the predicate "sign `+`, not NaN" is kept by squares, sums and positive scaling; induction over the vector and the reduction; documented minima by computation of the few operations (fixed arity) or induction (any length) |
| C153 | `Model/TestFunsFl`: `levy`, `easom`, `bukin` on `Dbl F`; the library's sine, cosine, exponential function and square root are arbitrary functions with stated ranges | products of numbers in [-1, 1] stay there under rounding; the sign predicate of C152; documented minima computed (`levy(1, 1)` is the square of the library's sine of `3 * M_PI`) |
| C154 | `Model/TestFunsFl`: `holderTable`, `schaffer2` on `Dbl F`, library functions arbitrary | NaN propagates through the product; lower bounds of rounded sums and quotients; the four minimisers by computation |
| C155 | `Model/TestFunsFl`: `rastrigin` on `Dbl F`, the cosine arbitrary within [-1, 1] | induction over the vector: the running sum is at least 10 times the number of coordinates left, a number of the format, so rounding cannot pass it |
| C156 | `Model/TestFunsFl`: `binhKorn` with its two constraints on `Dbl F` | bounds on absolute values through rounded sums, differences and squares, in both directions; penalties bounded below by rounding monotonicity |
| C157 | the run of `Model/Calls` with any host | induction on the loop: stop conditions, record, prefix of the longer run; termination relative to selection |
| C158 | `Model/TestFunsFl`: `changkongHaimesFl` with its two constraints on `Dbl F` | as C156, with a lower bound for a bounded number plus a large one |

## Trusted base

* **Lean 4.33.0's kernel** and Mathlib's definitions (ℝ, `Finset`, `Matrix.det`, Lebesgue measure, …) that occur in
  statements.  No `native_decide`, no `bv_decide`, no added axioms.
* **Axioms.** Every theorem depends on at most the three standard axioms `propext`, `Classical.choice`,
  `Quot.sound` (check with `#print axioms Heu.<theorem>`); theorems decided by `decide +kernel` use kernel evaluation
  only.
* **The models.** That each definition in `Model/` says what the cited lines of `/repo` say is checked by reading, not by
  Lean.  Definitions are short, cite their lines, and say where they simplify.
* **The specifications** in `Spec/` and the theorem statements.
* **IEEE arithmetic.** The model `Fl` of binary floating point is certified inside Lean: `Props/IEEE` proves that its operations
  return the representable number nearest to the exact result (ties to even), overflow to infinity, and treat the special
  values as IEEE-754 prescribes; what is trusted is that the machine's `double` follows IEEE-754 (default rounding mode, no
  extended precision, no contraction).

### What is modelled exactly, and under which reading

| code | model | reading |
|------|-------|---------|
| `SimpleMatrix/MultiBitSet.hpp` | `Model/MultiBitSet`, `Model/MBSIter`, `Model/BitHeap` | bit-exact for every element width and block width, including integer promotion of 8/16-bit blocks, the float block count, byte-wise `memcpy`, uninitialised members; indices are naturals (no `size_t` overflow) |
| `SimpleMatrix/Matrix*.hpp` | `Model/Matrix`, `Model/MatView`, `Model/MatHeap` | buffers as cells that may hold no object; `int` overflow of `rows*cols` is UB |
| `Global/HeuMaths.hpp` | `Model/Maths`, `Model/Gauss` | 64-bit wrapping factorials; min/max/sign over any linear order; `gaussianCurve` over ℝ |
| `Global/Randoms.hpp` | `Model/Maths`, `Model/Box` | `randIdx` with exact binary32 rounding; `randD` both in exact arithmetic and with full IEEE rounding |
| `Global/Types.hpp`, `Global/Enumerations.hpp` and the class selection of the boxes | `Model/Traits`, `Model/Names` | types as data: only std::vector, std::array and Eigen::Array with `bool`, integer and floating-point elements; what compiles is our reading of the language rules |
| `Global/LogisticChaos.hpp` | `Model/Maths`, `Model/ChaosFl`, `Model/ChaosObj` | exact arithmetic, and IEEE binary64 bit for bit |
| `Global/TemplateFloat.hpp` | `Model/Encode` | bit-exact codes; the last conversion to `double` is the exact rational |
| `Global/ConvertDoubleAndBinCode.hpp` | `Model/Encode` | full IEEE-754 arithmetic (subnormals, rounding to even, overflow, NaN), generic in the format |
| `EAGlobal/Pareto.hpp` | `Model/Pareto`, `Model/NSGA2Fl` | any linear order (no NaN); and all IEEE values |
| `EAGlobal/BoxConstraint.hpp`, `SizeBody4BoxConstraint.hpp` | `Model/Box`, `Model/BoxFl`, `Model/BoxConfig` | integer types with promotion, wrap-around and UB; reals exact and IEEE; box objects with their setters |
| `EAGlobal/SOFunctions.hpp`, `MOFunctions.hpp`, `TestFunctions.hpp` | `Model/TestFuns`, `Model/TestFunsFl`, `Model/TestCont` | over ℝ, the sums of squares also on IEEE doubles, `sqrt` of a negative number is NaN (`none`) |
| `Genetic/GABase.hpp`, `GAAbstract.hpp`, `DefaultGeneType.hpp` | `Model/GA`, `Model/GAFull`, `Model/Calls` (user functions with side effects), `Model/DefaultRunFl` (the library operators on IEEE data as these functions) | list nodes with addresses; parallel evaluation as an arbitrary interleaving of read/write steps |
| implicit copy operations of `SOGA`, `MOGAAbstract` (and derived) | `Model/GACopy` | whether a pointer into another object's list is still valid is decided by a version number of that list: any `run`, shrinking `initializePop` or assignment invalidates (conservative); hash-set and vector members copied by value |
| implicit copy and move operations of `AOS` | `Model/AOSCopy` | a list of electrons gets a new identity with `run`, `initializePop`, assignment (conservative for `run` and assignment); moved-from lists and vectors are empty; `_bindingState` and `_arg` of a moved-from object arbitrary; self-move counted as undefined |
| `Genetic/SOGA.hpp`, `SOGASelecters.hpp` | `Model/SOGA`, `Model/SOGAFl` | all ten methods and the run-time dispatch; ordered field, and all IEEE values |
| `Genetic/NSGABase.hpp`, `NSGA2.hpp`, `MOGA*.hpp` | `Model/NSGA`, `Model/RefPoints`, `Model/MORun`, `Model/NSGA2Fl` | ordered field; NSGA-II selection also with IEEE arithmetic |
| `Genetic/NSGA3Base.hpp`, `NSGA3Abstract.hpp`, `NSGA3.hpp` | `Model/NSGA`, `Model/RefPoints`, `Model/NSGA3Full`, `Model/NSGA3Obj`, `Model/NSGA3Fl`, `Model/RefPointsFl`, `Model/MORunFl` | ordered field, matrix inverse exact, hash-set order arbitrary; `NSGA3Fl`: IEEE data, Eigen's determinant, inverse, distances and `min` arbitrary |
| `Genetic/Miscellaneous4GA.hpp` | `Model/Box`, `Model/OpsSize` | default crossovers and mutations; the children as containers that are resized and written entry by entry |
| `PSO/*.hpp` | `Model/PSO`, `Model/PSOFull`, `Model/PSOOwn`, `Model/PSOCalls` | exact and IEEE arithmetic; Eigen and std versions; whole objects with square boxes |
| `Global/Threading.hpp`, the OpenMP loops | `Model/Omp` | stores one after the other in any order OpenMP allows; the chunk size |
| solver objects: option setters, `initializePop`, `run`, accessors, in any order | `Model/Session` | every call carries its draws; the two probabilities of `GAOption` are part of the draws |
| `AOS/*.hpp` | `Model/AOS`, `Model/AOSFl`, `Model/AOSFull`, `Model/AOSOwn`, `Model/AOSCalls`, `Model/AOSCallsFl`, `Model/Gauss` | ordered field/ℝ and IEEE doubles; list nodes with addresses; whole objects with square boxes (exact arithmetic) |

### Not modelled

* Template machinery: parameter packs (`*ParameterPack.hpp`, `FunBody.hpp`, `IsGene.hpp`), overload
  selection, `static_assert`s other than those of `PowEncode` and the DTLZ8 recursion.  Code that does not compile is not
  modelled: `multiBitSet` move constructor, copy assignment of a dynamic matrix of trivial scalars, `cFunSwapNs` for std
  containers, the run-time dispatch of the dynamic multi-objective evaluation (`isCalculated()`), one overload of
  `paretoFront`, the non-OpenMP branch of the AOS evaluation, DTLZ5/6 for std vectors.
* `MatrixDynamicSize` copy assignment of trivial elements (does not compile); its move assignment is modelled as undefined at
  its closing brace (no return statement, C135).
* The random engine itself (seeding, quality) and clocks; draws are universally quantified.  The shared generator
  is modelled where the library itself draws in a parallel loop (C105), not for draws inside user functions.
* Rounding inside the test functions other than those of C152-C156 and C158, `std::exp`, Eigen's vectorised reductions (C152 allows any
  order of summation) and the numerical routines of Eigen used
  by NSGA-III (ordered field, ℝ, or arbitrary functions instead).
* The text output (`HEU_DO_OUTPUT`; the names of enumerators are in C139).
* Memory exhaustion and exceptions thrown by user functions.

## Where the code and its documentation disagree

Each of these is proved as a theorem about the model unless marked (reading).

* `multiBitSet`: growth copies too few bytes (`growth_loses_data`), constructor with size 0 leaves members
  uninitialised, block count goes through `float` (`capacity_too_small`), straddling elements of 8/16-bit blocks
  (`narrow_blocks_write_lost`), copy constructor overflows (`copy_ctor_overflows`), an object constructed with size 0 cannot even be destroyed
  (`size_zero_fatal`), the first growth of an empty container releases the null pointer (`strict_first_growth_undefined`).
* `MatrixDynamicSize`: move assignment ends without `return` (`move_assign_undefined`).
* Test functions on `double`: `holderTable` is NaN at its documented minimisers (`holderTable_ieee_minima`), `schaffer2` never
  falls below 0.5 (`schaffer2_ieee_lower`), `levy(1, 1)` is the square of the library's sine of `3 * M_PI`, greater than 0
  (`levy_ieee_minimum_missed`).
* Multi-objective test functions: a result container of run-time size is not resized when the variable has a compile-time
  size (`pair_not_resized`); Schaffer and Viennet are not available for fixed containers of their own dimensions because the
  class gets the same empty base twice (`own_dimensions_rejected`); DTLZ1-7 never compile for a result of run-time size
  (`dtlz_dynamic_never_compiles`); Kursawe with Eigen vectors uses the first and the last variable only
  (`kursawe_eigen_wrong`).
* `MatrixDynamicSize`: `reserve` guard inverted (`reserve_wrong`), `resize` of non-trivial types leaves raw cells
  (`nontrivial_growth_unusable`), copy constructor reads uninitialised members (`copy_ctor_matrix_undefined`).
* `MatrixMap`: assignment ignores the target's shape and overwrites what lies behind it (`view_assign_defined_iff`); overlapping
  views smear (`view_assign_smears`).
* `NchooseK` wrong from 21 on (`nchooseK_wrong`, `nchooseK_divides_by_zero`), and so the number of reference points
  (`referencePoses_lost`).
* `PowCode` significand overflows into the sign (`powCode_large_significand_wrong`); `encode` wrong on all-ones
  mantissas and −0; `DivCode_Pi_mul_2` is 2/π.
* `initialize`/`applyDelta`: boxes ending at the largest value of the type, unsigned wrap-around, the compile-time
  `delta` is ignored (`applyDelta_fixed_ignores_delta`).
* `cFunRandXs` ignores its probability; `cFunNd`'s comment says a smaller ratio makes the first child more like the
  first parent – it is the other way round (`cFunNd_ratio_reversed`); the fixed-size operators are undefined on
  default-constructed dynamic children (`cross_fixed_defined_iff`).
* `SquareBox4PSO::posMax(int)` returns the minimum (`pso_square_posMax_wrong`); a freshly initialised swarm reports the
  first particle as global best although others may be better; `PSO4std` refers to members that do not exist (reading).
* PSO objects: rectangular boxes – the default – cannot be configured at all: `NonsquareBox4PSO::setRange` names
  `array_traits::isSizeFixed`, which does not exist, and the run-time sized ones call a missing `velocityMax()`
  (reading); `PSO.hpp` documents the two box APIs the wrong way round (reading); a range narrowed after
  `initializePop` leaves the reported best outside it (`pso_narrowed_range_infeasible`), a changed argument leaves
  stale fitness values in force (`pso_stale_argument`).
* Single-objective selection: the previous best is dereferenced after it was erased (`truncation_use_after_erase`,
  `elite_use_after_erase`); LinearRank is truncation with default settings (`linearRank_is_truncation`); Probability gives a
  unique best no advantage (`probability_ignores_unique_best`); StochasticUniversal keeps everyone when all are equal.
* NSGA-II and NSGA-III ignore `maxFailTimes` (`nsga2_ignores_maxFailTimes`); NSGA-II may lose the best value of an
  objective when it is shared with a dominated individual (`nsga2_loses_tied_extreme`, `nsga2_front_deteriorates`).
* NSGA-II: a NaN, an infinite fitness value or an overflowing difference makes `std::sort` undefined (`nsga2_nan_ub`,
  `nsga2_infinite_ub`, `nsga2_overflow_ub`, `nsga2_run_nan_ub`); a swarm whose first particle starts at a NaN never finds anything
  (`pso_nan_stuck`).
* Single-objective selection on doubles: EliteReserved – the default – never returns when one individual has an infinite
  penalty (`elite_infinite_penalty_hangs`), neither does Roulette with an infinitely good one, Probability with anything
  not finite, Boltzmann when `exp` overflows (default strength: fitness 71, `boltzmann_default_strength_hangs`); when it
  underflows Boltzmann keeps the first individuals of the list (`boltzmann_default_strength_keeps_first`); NaN makes the
  sorting methods undefined (`nan_fitness_sort_undefined`) and is reported as best when it comes first
  (`nan_first_is_best`); StochasticUniversal may keep too many because of rounding (`sus_rounding_keeps_extra`).
* NSGA-III: the singularity test has an absolute threshold, so units matter (`normalize_depends_on_units`); a
  single-layer object has no initial precision, its setter checks nothing although documented as at least 2, and
  `referencePointCount()` follows the last precision set, not the points in use (theorems of C121); precision 0 gives one reference point, all NaN
  (`referencePoses_precision_zero`).
* A candidate with a NaN in its fitness is dominated by nobody: NSGA-II and NSGA-III report it in the Pareto front
  whenever the front fits into the population (theorems of C123).
* AOS on doubles: a NaN energy beside two different ones makes `std::sort` undefined (`aos_ieee_nan_run_undefined`); in
  a box as large as the format the mean of the states overflows and a NaN state survives the confinement
  (`aos_ieee_state_nan`); with NaN energies only, the run never stops early (`aos_ieee_all_nan_no_early_stop`).
* AOS: best electron may be erased and then read (`aos_run_reads_erased_best`), layers out of range
  (`aos_layers_out_of_range`), layer best compares pointers for Eigen (`aos_layer_best_eigen_wrong`), layer energy for std
  containers (`aos_layer_energy_std_wrong`).
* Test functions: GoldsteinPrice, schaffer2, holderTable, rosenbrock, styblinskiTang (Eigen), Schaffer2 (MO), viennet,
  Kursawe (std), FonsecaFleming (`fonseca_wrong_front`, `fonseca_std_nan`), DTLZ5/6, DTLZ7 (std), DTLZ8, DTLZ9 (theorems of C57, C74–C78, C103).
* OpenMP: moving a swarm draws from the shared engine in parallel (`pso_update_races_iff`, `pso_shared_draw`); the chunk size
  is 0 – not allowed – when there are fewer individuals to process than threads, e.g. nothing to evaluate
  (`chunkSize_small_population_partial`); `setThreadNum` is ignored by a loop that has already run
  (`setThreadNum_ignored_partial`).
* `LogisticChaos`: the seed 0.5 (and its preimages) is accepted, but the sequence becomes 1, 0, 0, … (`chaos_ieee_dies`).
* Sequences of calls: changing the fitness function or its arguments without `initializePop` leaves the values of the old
  function (`soga_stale_fitness`, `pso_stale_fitness`); raising `populationSize` without `initializePop` makes NSGA-II/III
  read behind the end (`nsga2_grown_population_ub`); a second AOS `run()` does nothing but lengthen the record
  (`aos_second_run_partial`); `bestElectron()` between `initializePop()` and `run()` is an electron with an indeterminate
  energy (`aos_object_init`); electrons outside a range set later stay, and may be the best (`aos_object_moved`).
* Genetic solver objects: a null function pointer is called as soon as it is needed (`soga_init_null`, `soga_run_null`); a
  probability of 0 still selects an individual whose draw is 0 (`soga_probability_zero_is_not_never`); a negative
  `mutateProb` is undefined – the size to reserve is converted to `size_t` (`soga_negative_mutateProb`) – and one so large
  that the reservation fails ends the program (`reserve` throws in a `noexcept` function).
* Copies of genetic solver objects share: the copy's `_bestGene`/`_pfGenes` still lead into the original's list, so the
  result of a copy follows the original (`copy_result_follows_original`) and dangles once that is gone – a growing
  `std::vector` of solvers, or returning one by value, is enough (`soga_orphan`); a copy made between `initializePop` and
  `run` reads an unevaluated fitness (`copy_before_run_differs`).  Declared destructors suppress the move operations.
* Templates: `DiscretBox` lacks `Shape`, so in C++20 the default operators refuse it (`defaults_accept`); `mFun_s` asserts
  members `isBox` and `Encoding` that no box has (`symbolic_mutation_accepts`), so the mutation of C43 is reachable only
  with user-defined boxes; `std::enable_if<c>()` (without `_t`) checks nothing (`aos_assertion_weak`);
  `NonSquareBoxDynamicDimVec::setDimensions` is `const` (`setDimensions_documented`); `std::vector<bool>` is not
  recognised as Boolean (`traits_element_iff`, `boolean_boxes`).  The documented `min(r, c)`/`max(r, c)` of matrix boxes
  exist only in `GaussianBox` (reading).
* `Enum2String` is undefined for numbers that are no enumerator of the two-valued options (`option_names`).
* Reading only: `HEU_REPEAT_FUNCTIONS(GoldSteinPrice)` does not match the function's name; `threeHumpCamel` missing from the
  repetition for the version with arguments.
* PSO with the user's own initialiser: nothing checks what it writes; a position outside the box is evaluated and can be
  the reported result (`pso_own_outside`), and vectors of different sizes make `run()` undefined (`pso_own_defined`).
  The same for AOS (`aos_own_outside`, `aos_own_sizes`: there even without a single generation).

## Testing the theorems against wrong programs

`seeded/LOG.jsonl` has one line per edited model.  Each edit was made in a scratch copy, the whole project rebuilt, and the
failing theorems recorded.  Where a theorem in `Props/` still proved although its English claim was false of the edited
program, or only a helper lemma's script broke while the published statement was still true of the edited program, the
published statement was tightened (recorded in the field `tightened`).
