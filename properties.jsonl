{"id": "C01", "title": "multiBitSet: a stored element reads back", "statement": "After b[i]=v on a multiBitSet<eleBits>, with i below the size and the storage allocated, reading b[i] returns v modulo 2^eleBits, whether element i lies inside one block or straddles two.", "quantifier": "every element width 1..block width, every index, every value, every prior content of the blocks", "why_tests_cant": "the straddling branch has its own shift/mask arithmetic for each (width, offset) pair and the prior contents of two whole blocks matter", "anchors": ["HeuristicFlow/src/SimpleMatrix/MultiBitSet.hpp: multiBitSet::setValue, getValue, operator[]"]}
{"id": "C02", "title": "multiBitSet: writing one element leaves all others alone", "statement": "b[i]=v changes no other element: for every j different from i, b[j] reads the same before and after, and no memory outside the allocated blocks is read or written.", "quantifier": "every element width, every pair i != j inside the allocated blocks, every value, every prior content", "why_tests_cant": "a mask that is off by one bit corrupts a neighbour only for particular offsets and particular old bits", "anchors": ["HeuristicFlow/src/SimpleMatrix/MultiBitSet.hpp: multiBitSet::setValue, getValue"]}
{"id": "C03", "title": "multiBitSet behaves as a sequence", "statement": "Any history of element writes, push_back, pop_back and clear leaves size() and the elements equal to those of an ordinary list of eleBits-wide values.", "quantifier": "every history of operations, from every well-formed set", "why_tests_cant": "the reallocation inside push_back copies the wrong amount of memory only once size passes the old capacity; histories are unbounded", "anchors": ["HeuristicFlow/src/SimpleMatrix/MultiBitSet.hpp: push_back, pop_back, clear, reserve, setValue, getValue"]}
{"id": "C04", "title": "multiBitSet allocates enough blocks", "statement": "After construction with, resize to, or reserve of n elements, capacity() is at least n, so every index below n is inside the allocated blocks.", "quantifier": "every element width and every n", "why_tests_cant": "the block count goes through a float, whose rounding is only wrong above 2^24 bits", "anchors": ["HeuristicFlow/src/SimpleMatrix/MultiBitSet.hpp: multiBitSet(size_t), resize, reserve, capacity"]}
{"id": "C05", "title": "Matrix element addressing is a bijection", "statement": "For an r x c matrix (dynamic, fixed or map) each (row, column) pair inside the bounds names exactly one cell below size(), different pairs name different cells, every cell is named, and m(r,c) and m[rows*c+r] are the same cell.", "quantifier": "every shape and every pair of in-range coordinates", "why_tests_cant": "an addressing slip (rows/columns swapped) is invisible on square or single-column shapes", "anchors": ["HeuristicFlow/src/SimpleMatrix/MatrixDynamicSize.hpp: operator()", "HeuristicFlow/src/SimpleMatrix/MatrixFixedSize.hpp: operator()", "HeuristicFlow/src/SimpleMatrix/MatrixMap.hpp: operator()"]}
{"id": "C06", "title": "Dynamic matrix never indexes outside its buffer after resize", "statement": "After any history of construct, resize and element writes, size() <= capacity, capacity equals the allocated buffer, and every in-range element access stays inside the buffer.", "quantifier": "every history of resizes and writes", "why_tests_cant": "reallocation is skipped depending on the largest earlier shape; histories are unbounded", "anchors": ["HeuristicFlow/src/SimpleMatrix/MatrixDynamicSize.hpp: MatrixDynamicSize(size_t,size_t), resize, operator()"]}
{"id": "C07", "title": "Dynamic matrix reserve keeps contents and provides room", "statement": "reserve(s) leaves all elements as they were, makes the capacity at least s and touches no memory outside the buffers.", "quantifier": "every matrix and every s", "why_tests_cant": "the guard is only wrong on one side of the current capacity", "anchors": ["HeuristicFlow/src/SimpleMatrix/MatrixDynamicSize.hpp: reserve"]}
{"id": "C08", "title": "DivCode round trip", "statement": "DivDecode<DivEncode<a,b>> yields numerator a and denominator b exactly, so its value is a/b; different pairs give different codes.", "quantifier": "every 32-bit signed a and every 32-bit unsigned b", "why_tests_cant": "2^64 pairs, with sign extension of negative numerators", "anchors": ["HeuristicFlow/src/Global/TemplateFloat.hpp: DivEncode, DivDecode, DivCode_Half"]}
{"id": "C09", "title": "PowCode round trip", "statement": "PowDecode<PowEncode<a,p>> yields the number a scaled by the requested power of ten.", "quantifier": "every significand below the static limit, every sign and every power in -255..255", "why_tests_cant": "the significand field overflows only for part of the range", "anchors": ["HeuristicFlow/src/Global/TemplateFloat.hpp: PowEncode, PowDecode, amplifier"]}
{"id": "C10", "title": "Compile-time binary code of a double is its IEEE-754 pattern", "statement": "encode(x) yields the IEEE-754 binary64 bit pattern of x.", "quantifier": "every finite non-NaN double", "why_tests_cant": "2^64 values; rounding inside the repeated halving bites for exactly one mantissa", "anchors": ["HeuristicFlow/src/Global/ConvertDoubleAndBinCode.hpp: encode, exponentVal, absValWithExponentCode0, mantissaCode, signCode"]}
{"id": "C100", "title": "AOS photons move electrons by the documented rule", "statement": "A photon moves an electron that beats its layer's mean energy by the layer's best and mean state, any other electron by the atom's best and mean state divided by the layer number counted from 1; the child is the nearest point of the box, and its distance from the parent is bounded, by a bound shrinking with the layer number.", "quantifier": "all boxes, states, draws, layers, electrons", "why_tests_cant": "continuous domain, random draws", "anchors": ["HeuristicFlow/src/AOS/AOS4EigenAndStd.hpp: __impl2_applyPhotonEffect", "HeuristicFlow/src/AOS/AOSBase.hpp: __impl_updateElectrons"]}
{"id": "C101", "title": "Cross-in-tray and eggholder stay in their documented ranges", "statement": "crossInTray is symmetric in both axes and the diagonal, at most -0.0001, with equality only on the cross; eggHolder is bounded by |x|+|y+47|, which is attained.", "quantifier": "all real points", "why_tests_cant": "infinite domain", "anchors": ["HeuristicFlow/src/EAGlobal/SOFunctions.hpp: crossInTray, eggHolder"]}
{"id": "C102", "title": "Poloni's problem has the documented ends", "statement": "The first objective is at least 1 and 1 (up to rounding of the constants) at (1,2), the second at least 0 and 0 exactly at (-3,-1), a Pareto-optimal point.", "quantifier": "all real points", "why_tests_cant": "infinite domain", "anchors": ["HeuristicFlow/src/EAGlobal/MOFunctions.hpp: Poloni"]}
{"id": "C103", "title": "Fonseca-Fleming has the documented Pareto set", "statement": "For n variables the Pareto set is the diagonal segment between -1/sqrt(n) and 1/sqrt(n), for Eigen and std vectors.", "quantifier": "all n, all real vectors", "why_tests_cant": "infinite domain", "anchors": ["HeuristicFlow/src/EAGlobal/MOFunctions.hpp: FonsecaFleming"]}
{"id": "C104", "title": "Parallel evaluation gives the sequential result", "statement": "With OpenMP, after evaluating a population (GA, AOS, PSO) or counting dominators (NSGA-II/III), every individual holds exactly what the sequential program computes, whatever the number of threads, the chunk size and the interleaving of the threads' stores.", "quantifier": "all populations, chunk sizes, schedules and interleavings", "why_tests_cant": "infinitely many schedules, none of which a test controls", "anchors": ["HeuristicFlow/src/Genetic/GABase.hpp: __impl_computeAllFitness", "HeuristicFlow/src/Genetic/NSGABase.hpp: calculateDominatedNum", "HeuristicFlow/src/AOS/AOSBoxed.hpp: __impl_computeFitness", "HeuristicFlow/src/PSO/PSOAbstrcat.hpp: __impl_computeAllFitness", "HeuristicFlow/src/PSO/PSO4Eigen.hpp: __impl_updatePopulation"]}
{"id": "C105", "title": "The parallel loops have no data race", "statement": "No two iterations that may run at the same time touch the same object with one of them writing it, given fitness functions without side effects.", "quantifier": "all populations, chunk sizes, schedules", "why_tests_cant": "a race need not show in any number of runs", "anchors": ["HeuristicFlow/src/Genetic/GABase.hpp: __impl_computeAllFitness", "HeuristicFlow/src/Genetic/NSGABase.hpp: calculateDominatedNum", "HeuristicFlow/src/AOS/AOSBoxed.hpp: __impl_computeFitness", "HeuristicFlow/src/PSO/PSOAbstrcat.hpp: __impl_computeAllFitness", "HeuristicFlow/src/PSO/PSO4Eigen.hpp: __impl_updatePopulation", "HeuristicFlow/src/Global/Randoms.hpp: randD, global_mt19937"]}
{"id": "C106", "title": "Every population size works with every thread number", "statement": "Evaluating, counting and moving have defined behaviour for every population size (also when nothing needs evaluating) and every thread number setThreadNum accepts.", "quantifier": "all sizes and thread numbers", "why_tests_cant": "the chunk size passed to OpenMP depends on size, hardware and history", "anchors": ["HeuristicFlow/src/Global/Threading.hpp: thNum, threadNum, setThreadNum", "HeuristicFlow/src/Genetic/GABase.hpp: __impl_computeAllFitness", "HeuristicFlow/src/Genetic/NSGABase.hpp: calculateDominatedNum", "HeuristicFlow/src/AOS/AOSBoxed.hpp: __impl_computeFitness", "HeuristicFlow/src/PSO/PSOAbstrcat.hpp: __impl_computeAllFitness", "HeuristicFlow/src/PSO/PSO4Eigen.hpp: __impl_updatePopulation"]}
{"id": "C107", "title": "setThreadNum takes effect", "statement": "After setThreadNum(n), threadNum() is n and the next parallel loops use n threads.", "quantifier": "all histories of calls", "why_tests_cant": "depends on what ran before in the process", "anchors": ["HeuristicFlow/src/Global/Threading.hpp: setThreadNum", "HeuristicFlow/src/Genetic/GABase.hpp: __impl_computeAllFitness", "HeuristicFlow/src/Genetic/NSGABase.hpp: calculateDominatedNum", "HeuristicFlow/src/AOS/AOSBoxed.hpp: __impl_computeFitness", "HeuristicFlow/src/PSO/PSOAbstrcat.hpp: __impl_computeAllFitness", "HeuristicFlow/src/PSO/PSO4Eigen.hpp: __impl_updatePopulation"]}
{"id": "C108", "title": "Results of a single-objective GA are those of the last run, after any history of calls", "statement": "After any sequence of setOption, setSelectMethod, setfFun/setArgs, initializePop and run calls ending with run, generation(), the failure counter and the record describe that last run, result() refers to a live individual, and bestFitness() and the last record entry are the value of the current fitness function at result(), which nobody in the population beats.", "quantifier": "all histories of public calls, all fitness functions, options, methods and draws", "why_tests_cant": "histories are unbounded; tests run one initialise-run pair", "anchors": ["HeuristicFlow/src/Genetic/GABase.hpp: setOption, initializePop, run", "HeuristicFlow/src/Genetic/SOGA.hpp: result, bestFitness", "HeuristicFlow/src/Genetic/SOGASelecters.hpp: setSelectMethod"]}
{"id": "C109", "title": "Calling run() again continues the search without losing the best", "statement": "A second run() without initializePop starts from the current population: with an elitist selection method (GA) and always for the swarm (PSO) no entry of the new record is worse than the best fitness reported before; a swarm keeps the population size of its last initializePop, and run() is defined exactly if initializePop came before.", "quantifier": "all histories of public calls, all draws", "why_tests_cant": "needs every history", "anchors": ["HeuristicFlow/src/Genetic/GABase.hpp: run", "HeuristicFlow/src/PSO/PSOAbstrcat.hpp: initializePop, run"]}
{"id": "C11", "title": "Binary code decoding inverts encoding", "statement": "decode(encode(x)) is x.", "quantifier": "every finite double (and the float version)", "why_tests_cant": "2^64 values", "anchors": ["HeuristicFlow/src/Global/ConvertDoubleAndBinCode.hpp: encode, decode"]}
{"id": "C110", "title": "NSGA-II/III tolerate every history of calls", "statement": "After any sequence of setOption (positive sizes), setfFun/setArgs, initializePop and run calls the solver is usable: run() leaves populationSize individuals and paretoFront() lists exactly the non-dominated ones, never dereferencing a dead pointer; after initializePop the front is empty.", "quantifier": "all histories of public calls, all draws", "why_tests_cant": "needs every history", "anchors": ["HeuristicFlow/src/Genetic/MOGAAbstract.hpp: initializePop, paretoFront", "HeuristicFlow/src/Genetic/GABase.hpp: setOption, run", "HeuristicFlow/src/Genetic/NSGA2.hpp: select", "HeuristicFlow/src/Genetic/NSGA3Abstract.hpp: select"]}
{"id": "C111", "title": "Calling run() again on an atomic orbital search continues the search", "statement": "A second run() without initializePop resets the generation counter and the record and searches on from the current electrons.", "quantifier": "all objective functions, options, draws", "why_tests_cant": "needs every first run", "anchors": ["HeuristicFlow/src/AOS/AOSBase.hpp: initializePop, run, shouldTerminate"]}
{"id": "C112", "title": "multiBitSet iterators are positions in the sequence", "statement": "An iterator that started at begin() (or end()) and was moved by any sequence of ++, --, it++, it--, + k, - k and [k] adding up to element d is the same as begin()+d, even if it left the sequence in between: index() is d, it equals end() and is null exactly if d is size(), reading through it reads element d and assigning through it writes element d of that container and nothing else. Loops over the whole range (forwards, backwards, filling, copying from another container) finish and do what the same loop does on a list.", "quantifier": "every sequence of moves, every container contents and size below 2^64, every value", "why_tests_cant": "sequences of moves are unbounded and wrap modulo 2^64 in between", "anchors": ["HeuristicFlow/src/SimpleMatrix/MultiBitSet.hpp: reference_t, iteratorBase, iterator_t, constIterator_t, begin, end, at, front, back"]}
{"id": "C113", "title": "The settings in force are the ones set last", "statement": "After any history of calls the options, the fitness function and (GA) the selection method are the values given last, or the documented defaults if never given; initializePop and run never change them, and a run obeys them.", "quantifier": "all histories of public calls", "why_tests_cant": "needs every history", "anchors": ["HeuristicFlow/src/Genetic/GABase.hpp: setOption, option", "HeuristicFlow/src/Genetic/GAOption.hpp: defaults", "HeuristicFlow/src/Genetic/SOGASelecters.hpp: setSelectMethod", "HeuristicFlow/src/PSO/PSOAbstrcat.hpp: setOption", "HeuristicFlow/src/PSO/PSOOption.hpp: defaults"]}
{"id": "C114", "title": "GA runs over integer and Boolean boxes stay in the box", "statement": "A genetic solver whose genes are integer vectors, started by the library's initialisation and varied by any mixture of the library's exchange crossovers (single-point swap, coordinate-wise exchange) and integer mutations (unit step, symbol mutation), with any selection method and any draws, only ever holds individuals inside the box, and so is the reported best, provided the scalar type can represent one step beyond each bound and the size of the range; Boolean vectors keep their dimension.", "quantifier": "every box, scalar type with room for it, operators' draws, selection method, objective, population size and number of generations", "why_tests_cant": "a whole run is an unbounded sequence of operator applications", "anchors": ["HeuristicFlow/src/EAGlobal/BoxConstraint.hpp: initialize, applyDelta", "HeuristicFlow/src/Genetic/Miscellaneous4GA.hpp: imp_cFunSwapNs, cFunRandNs, imp_domFunNs", "HeuristicFlow/src/Genetic/GABase.hpp: run, crossover, mutate"]}
{"id": "C115", "title": "Selection parameters: ranges, last value wins, no interference", "statement": "After any history of calls of the setters for tournament size, rank probabilities, exponential base, Boltzmann strength, elite number and selection method, each getter returns the last value given for it or the documented default (3, 0.1/0.9, 0.8, -, 1, EliteReserved) and no setter influences another parameter; a history is accepted exactly if every argument is in its documented range, and then the parameters meet the preconditions of the selection methods (e.g. EliteReserved always keeps a best individual).", "quantifier": "all histories of setter calls and all argument values, then all populations and draws", "why_tests_cant": "histories and real-valued arguments are unbounded", "anchors": ["HeuristicFlow/src/Genetic/SOGASelecters.hpp: setTournamentSize, tournamentSize, setLinearSelectProbability, setExponetialSelectBase, setBoltzmannSelectStrength, setEliteNum, setSelectMethod"]}
{"id": "C116", "title": "Box operations in floating-point arithmetic", "statement": "For a real-coded box whose bounds are IEEE numbers (possibly infinite) with min <= max: applyConstraint succeeds on every point of the right dimension, NaN entries stay NaN, values in range stay, others become the bound they exceed, so the result is in the box exactly if no entry is NaN, and applying it twice changes nothing more. applyDelta from a point of the box with finite entry and step width stays in the box even when the sum overflows, changes only the drawn coordinate, and the new value lies between the rounded x-delta and x+delta (but the real distance can exceed delta). The default crossover's children are finite and each entry differs from the exact convex combination of the parents by at most 4 eps max(|a|,|b|) + 4 eta, so children leave the parents' box by at most that margin (and can leave it).", "quantifier": "all IEEE formats of the library (double, float), all boxes, points incl. NaN and infinities, draws, step widths and ratios in (0,1)", "why_tests_cant": "2^64 values per coordinate; rounding and overflow cases cannot be enumerated", "anchors": ["HeuristicFlow/src/EAGlobal/BoxConstraint.hpp: BoxBase::applyConstraint, BoxBase::applyDelta, ContinousBox::applyDelta", "HeuristicFlow/src/Genetic/Miscellaneous4GA.hpp: imp_cFunNd"]}
{"id": "C117", "title": "Setting up boxes: which histories of setter calls give a usable box, and which one", "statement": "For run-time sized continuous boxes (square, rectangular, Gaussian; vectors and matrices): a history of setDimensions/setRange/setDelta/setMu/setSigma calls is accepted exactly if the asserted conditions hold; each attribute is what was given last; a square box's initialize succeeds exactly if size and both bounds were set and rows*cols fits an int; if only setters were used then initialize, applyConstraint and applyDelta stay in the last range and applyDelta moves one entry by at most the last delta. For rectangular boxes lower and upper bounds always have the same number of entries, but setRange does not compare shapes, does not size delta (applyDelta is defined for every index exactly if there are enough step widths), and setDimensions discards a range of another size; delta(r,c) is the right entry for column-major storage only. References min()/max() bypass the checks.", "quantifier": "all histories of calls, arguments, shapes, points and draws", "why_tests_cant": "histories are unbounded and most orders of calls are never tried", "anchors": ["HeuristicFlow/src/EAGlobal/BoxConstraint.hpp: SquareBoxCore, NonSquareBoxCore, NonSquareBoxDynamicDimMat, SquareBoxDeltaCore, NonSquareBoxDeltaCore, BoxContinousMat::delta, GuassianBoxCore, GaussianBox", "HeuristicFlow/src/EAGlobal/SizeBody4BoxConstraint.hpp", "HeuristicFlow/src/Global/Randoms.hpp: normD"]}
{"id": "C118", "title": "Default crossover and initialization give containers of the right size", "statement": "cFunXd, cFunSwapXs and cFunRandXs of two parents of one size leave children of that size whose entries are exactly the operator's, whatever the children's size and contents were before and whatever resize leaves in them (std containers and Eigen vectors); cFunNd, cFunSwapNs and cFunRandNs do the same when the children already have that size, and are defined exactly if the second parent and both children are at least as long as the first parent (so not on default-constructed dynamic children, except cFunNd on Eigen vectors). With a longer second parent the dynamic operators leave unwritten entries in the second child. iFunNd keeps the size and gives every entry a value in [min,max) (closed in IEEE arithmetic), and every such vector can occur; reversed bounds are not rejected and give (max,min].", "quantifier": "all parents, previous contents of the children, resize behaviours, ratios, indices and draws", "why_tests_cant": "sizes and stale contents of the output containers are unbounded; tests use parents of one size and fresh children", "anchors": ["HeuristicFlow/src/Genetic/Miscellaneous4GA.hpp: imp_cFunNd, imp_cFunSwapNs, cFunXd, cFunSwapXs, cFunRandNs, cFunRandXs, iFunNd, iFunNf", "HeuristicFlow/src/Genetic/GABase.hpp: __impl_crossover"]}
{"id": "C119", "title": "Effect of the crossover ratio r", "statement": "In every coordinate the first child of cFunNd/cFunXd is at distance (1-r)*|p1-p2| from the first parent and r*|p1-p2| from the second, the second child the other way round; so a smaller r makes the first child LESS similar to the first parent (the documentation says more similar), strictly wherever the parents differ.", "quantifier": "all parents, ratios in [0,1] and coordinates", "why_tests_cant": "the relation between ratios is about all pairs of parents; the documentation states the opposite", "anchors": ["HeuristicFlow/src/Genetic/Miscellaneous4GA.hpp: cFunNd, cFunXd (documentation lines 188-213)"]}
{"id": "C12", "title": "NchooseK is the binomial coefficient", "statement": "NchooseK(N,K) equals the number of K-element subsets of an N-element set, and fractorial(n) equals n!.", "quantifier": "every N and K<=N representable in size_t", "why_tests_cant": "wrap-around of the intermediate factorials starts at N=21", "anchors": ["HeuristicFlow/src/Global/HeuMaths.hpp: fractorial, NchooseK"]}
{"id": "C120", "title": "Matrix maps on shared memory and fixed-size matrices", "statement": "MatrixMap objects are views: a copy-constructed map sees every write through the original and only the written cell changes; fill writes exactly the view's cells; assigning one map to another gives the target the source's shape and copies the source's old elements whenever the target does not begin strictly inside the source (disjoint, identical, or beginning before), otherwise element k becomes the source's element k modulo the offset; the assignment is defined exactly if the source is empty or both element ranges lie in the memory, whatever shape the target had (a smaller target overwrites the cells behind it). MatrixFixedSize: fill, copy construction, copy assignment and element writes have exactly their element-wise effect; resize accepts only the own shape.", "quantifier": "all memories, views (offsets and shapes), overlaps, elements and matrix sizes", "why_tests_cant": "all overlaps of two views in one memory cannot be enumerated, and out-of-range writes need not show", "anchors": ["HeuristicFlow/src/SimpleMatrix/MatrixMap.hpp: MatrixMap, deepCopyTo, operator=, fill, resize", "HeuristicFlow/src/SimpleMatrix/MatrixFixedSize.hpp: MatrixFixedSize, operator=, fill, resize"]}
{"id": "C121", "title": "NSGA-III reference points follow the precision set before the last initializePop", "statement": "After any sequence of public calls on an NSGA3 object that returned (setOption, setfFun/setArgs, setReferencePointPrecision, initializePop, run), the reference points in use are those of the precision that was in force at the last initializePop: the Das-Dennis lattice (single layer), or the shrunk inner lattice followed by the outer one (double layer, defaults 3 and 4); runs and setters do not change them. referencePointCount() speaks of the precision set last and equals the number of points in use exactly if that is still the same precision. A history with legal arguments returns exactly if a precision was set before every initializePop (always true for double layer) and the population had populationSize members at every run; otherwise it is undefined. After a run at the end of such a history, the population has populationSize evaluated individuals and the reported front is exactly its non-dominated part.", "quantifier": "all histories of public calls, all precisions with precision + objectives - 1 <= 20, all populations, draws and shuffles", "why_tests_cant": "histories are unbounded; tests set the precision once, before initializePop", "anchors": ["HeuristicFlow/src/Genetic/NSGA3.hpp: NSGA3, initializePop", "HeuristicFlow/src/Genetic/NSGA3Base.hpp: setReferencePointPrecision, referencePointCount, makeReferencePoses", "HeuristicFlow/src/Genetic/NSGA3Abstract.hpp: referencePoints"]}
{"id": "C122", "title": "NSGA-III selection is defined and correct for every double a fitness function can return", "statement": "With reference points set, every draw of the random engine and every assignment of doubles to the candidates (NaN, infinities and subnormals included), and whatever Eigen's determinant, inverse and norms evaluate to on them, NSGA3 selection terminates without undefined behaviour, keeps exactly populationSize candidates, every dominator of a survivor survives, and the reported front consists of survivors that nobody dominates (all non-dominated ones if they fit, all survivors otherwise). Everybody with fewer than n dominators is kept, and the rest comes from those with exactly n dominators by the niching rule: one at a time, from a reference point with the smallest niche count among those of the candidates left, the candidate with no smaller distance if the niche is empty; a candidate belongs to a reference point with no other at a smaller computed distance from its normalised fitness (fitness minus ideal point, divided by the intercepts).", "quantifier": "all populations of distinct nodes with at least populationSize members, all fitness values of the double format, all reference matrices, all draws, all results of Eigen's numerical routines", "why_tests_cant": "the space of doubles and of draws cannot be enumerated, and tests do not return NaN or infinity", "anchors": ["HeuristicFlow/src/Genetic/NSGA3Abstract.hpp: __impl_select, normalize, findNearest, associate, nichePreservation"]}
{"id": "C123", "title": "A candidate whose fitness is NaN is never reported in the Pareto front", "statement": "After NSGA2 or NSGA3 selection the reported Pareto front contains no candidate with a NaN in its fitness. (False of the code: such a candidate is dominated by nobody, so whenever the front fits into the population every such candidate survives and is reported, and if all candidates have a NaN, all survivors are reported.)", "quantifier": "all populations, all fitness values of the double format, all objectives", "why_tests_cant": "tests never return NaN", "anchors": ["HeuristicFlow/src/Genetic/NSGABase.hpp: isStrongDominate, calculateDominatedNum, updatePF", "HeuristicFlow/src/Genetic/NSGA3Abstract.hpp: __impl_select", "HeuristicFlow/src/Genetic/NSGA2.hpp: __impl_select"]}
{"id": "C124", "title": "The reference points NSGA-III computes in double are the lattice up to one unit in the last place", "statement": "For every number of objectives and precision with objectives+precision-1 <= 20 (any precision >= 1 and up to 2^50 for the bare generation) the reference matrix, computed with a rounding at every operation, has exactly one column per lattice point (c1/p, ..., cM/p) with c1+...+cM = p: every coordinate is a finite number between 0 and 1 at most 2^-52 away from the exact one, the columns are all different and none is the origin, in whatever order the shuffle leaves them. The double layer matrix is the inner lattice scaled by the constant 0.7071... (which is 1/sqrt 2 up to one unit in the last place), within 2^-51, followed by the outer lattice. Precision 0 is accepted by the single-layer solver and gives one reference point, all NaN.", "quantifier": "all numbers of objectives, all precisions, all shuffles, all IEEE formats at least as wide as binary64's parameters require, all contents of uninitialised memory", "why_tests_cant": "the number of objectives and the precision are unbounded, and rounding errors differ per coordinate", "anchors": ["HeuristicFlow/src/Genetic/NSGA3Abstract.hpp: pri_makeRP, pri_startRP, computeReferencePointPoses", "HeuristicFlow/src/Genetic/NSGA3Base.hpp: makeReferencePoses"]}
{"id": "C125", "title": "Whole NSGA-II and NSGA-III runs on real doubles end with a correct population and front", "statement": "From any population of at least populationSize distinct individuals (in particular after initializePop) NSGA3::run returns after exactly maxGenerations generations for every fitness function into the doubles, NaN and infinities included, every draw and every behaviour of Eigen's numerical routines; populationSize individuals are left, all evaluated; paretoFront() reads no dangling pointer and returns the objective vectors of exactly those individuals of the final population that nobody in it dominates. In every generation whoever dominates a survivor survives; while the front is smaller than the population everybody ever evaluated is matched or dominated by a member of every later front, and, without NaN, no objective of the record gets worse; the last record entry is the ideal point. The same holds for NSGA2 if all fitness values are finite and below 2^1023 in absolute value; with a NaN a run of NSGA2 can be undefined. Reference points computed in double from the settings meet the premises of NSGA3.", "quantifier": "all fitness functions into doubles, all starting populations, all draws, shuffles and sort results, all numbers of generations", "why_tests_cant": "runs, draws and doubles cannot be enumerated", "anchors": ["HeuristicFlow/src/Genetic/GABase.hpp: run", "HeuristicFlow/src/Genetic/NSGA2.hpp: __impl_select", "HeuristicFlow/src/Genetic/NSGA3Abstract.hpp: __impl_select", "HeuristicFlow/src/Genetic/MOGAAbstract.hpp: paretoFront, bestFitness"]}
{"id": "C126", "title": "Every history of calls on a PSO object: which are defined, which settings are in force, what is guaranteed of the swarm", "statement": "For a PSO solver with a square box, a fitness function set at run time and the default initialisation: a history of setOption, setfFun, setArgs, setDimensions, setRange, setMaxVelocity, setPVRange, assignments through the returned references, initializePop and run returns exactly if every range, size and limit is in order, each initializePop comes after a positive population size, the dimensions, the range and a non-null fitness function, and each run comes after an initializePop, with a non-null fitness function and (unless maxGeneration is 0) a velocity limit; every other history is undefined, none hangs. Every setting is the one given last; initializePop and run change none. initializePop creates populationSize fresh particles from the settings in force. If neither function nor argument is changed after the last initializePop, every personal best and the global best carry the true fitness of their positions; between two calls of initializePop the best fitness never gets worse. If the box is not changed after the last initializePop, all positions are within the range and all velocities within the limit, in exact arithmetic and on doubles; after a change of the range the first run that moves brings the current positions, but not the reported best, into the new range.", "quantifier": "all histories of public calls of any length, all draws, all fitness functions and arguments, all initial memory contents", "why_tests_cant": "histories, draws and functions cannot be enumerated", "anchors": ["HeuristicFlow/src/PSO/PSOAbstrcat.hpp: initializePop, run, PSOExecutor", "HeuristicFlow/src/PSO/BoxWithVelocity.hpp: SquareBox4PSO", "HeuristicFlow/src/PSO/PSOParameterPack.hpp: setArgs", "HeuristicFlow/src/PSO/PSO4Eigen.hpp: updatePGBest, updatePopulation", "HeuristicFlow/src/Global/FunBody.hpp: HEU_MAKE_FUNAREA"]}
{"id": "C127", "title": "AOS on real doubles: run, record and early stop without NaN energies; NaN energies", "statement": "On IEEE doubles, with rounding, signed zeros and infinite energies: run() of an initialised AOS solver makes at most maxGeneration + 1 iterations; when it returns, the record has generation() + 1 entries, each the best energy of its generation; as long as no energy is NaN it never gets worse and no electron evaluated before was better; the selection leaves exactly min(electronNum, n) electrons, none worse than an erased one; the early-stop counter is the number of generations at the end without improvement. run() returns if no energy is NaN, the plan of the layers is large enough and at most electronNum electrons tie for the best. One energy NaN beside two different energies makes the sort, hence run(), undefined; with NaN everywhere the run is never stopped early.", "quantifier": "all objective functions, box bounds, options, draws, Gaussian curves, orders of ties, run lengths, IEEE formats", "why_tests_cant": "an IEEE execution of each instance is only one history; NaN and infinities are rarely tested", "anchors": ["HeuristicFlow/src/AOS/AOS.hpp: __impl_selectAndMakeLayers, electronIteratorCompareFun", "HeuristicFlow/src/AOS/AOSBase.hpp: __impl_run, __impl_shouldTerminate, __impl_recordFitness", "HeuristicFlow/src/AOS/AOS4EigenAndStd.hpp: __impl_computeAtomBSBELE"]}
{"id": "C128", "title": "AOS on real doubles: electrons stay in the box", "statement": "On IEEE doubles every coordinate of every electron AOS ever evaluates is in its range or NaN, whatever the draws, bounds and roundings; it is in its range when the bounds are at most 2^p in magnitude with (2 electronNum + 1) 2^p below the overflow threshold, the draws are in [0,1) and no random step is NaN. (Full property: always in the range; false for boxes as large as the format.)", "quantifier": "all boxes, objective functions, draws, run lengths, IEEE formats", "why_tests_cant": "overflow of a mean depends on all electrons and all generations", "anchors": ["HeuristicFlow/src/AOS/AOS4EigenAndStd.hpp: __impl2_applyPhotonEffect, __impl2_applyNonPhotonEffect, __impl_computeLayerBSBELE, __impl_computeAtomBSBELE", "HeuristicFlow/src/Global/BoxConstraint.hpp: applyConstraint"]}
{"id": "C129", "title": "AOS on real doubles: the layers", "statement": "On IEEE doubles with legal weights (finite, not negative, none above the computed sum, the first at least the mean) and no NaN energy: each layer is planned with the nearest integer of its computed share, a number between 0 and the number of electrons, at least 1 for the first layer, with no overflow of int; making the layers leaves the range exactly when the plan is too small; otherwise the layers partition the electrons left in order of energy, none is empty, and there are between 1 and the drawn number of layers.", "quantifier": "all weights, sums, energies, electron and layer numbers with product below 2^31, orders of ties", "why_tests_cant": "rounding of shares is not enumerable", "anchors": ["HeuristicFlow/src/AOS/AOS.hpp: __impl_selectAndMakeLayers"]}
{"id": "C13", "title": "min/max of any number of arguments", "statement": "heu::min / heu::max (run-time, variadic and compile-time) return one of their arguments and it is <= / >= every argument.", "quantifier": "every non-empty argument list", "why_tests_cant": "argument lists of every length and order", "anchors": ["HeuristicFlow/src/Global/HeuMaths.hpp: min, max, imp_min, imp_max, _impl_minmax"]}
{"id": "C130", "title": "AOS object: every history of public calls", "statement": "For every sequence of setOption, setfFun, setArg, calls on the box (setDimensions, setRange, setDelta, assignments through min(), max(), delta()), initializePop() and run() on a new AOS solver: the settings in force are those given last; no sequence runs forever; the sequences with a call that is not allowed (initializePop without electrons, with more layers than electrons, or before shape and range are set; run before initializePop, or first run without a fitness function) have undefined behaviour; initializePop returns exactly when allowed, resets counters and record, and leaves bestElectron() on an electron not yet evaluated; run() never resets anything: generation counter, early-stop counter and record go on, with one entry per generation and one per run, the record never gets worse over all runs, and the run stops exactly at the maxGeneration or maxEarlyStop then in force; it returns under explicit conditions on settings, draws and ties; electrons stay inside the range as long as it is not changed after initializePop, otherwise only new electrons are clamped; energies are those of the current function only if neither function nor argument was changed.", "quantifier": "all histories of calls of any length, all settings, functions, arguments, draws, orders of ties, starting contents of uninitialised members", "why_tests_cant": "a test executes one history; what earlier calls leave behind matters", "anchors": ["HeuristicFlow/src/AOS/AOSBase.hpp: initializePop, __impl_run, __impl_shouldTerminate, __impl_recordFitness", "HeuristicFlow/src/AOS/AOSBoxed.hpp: setOption, bestElectron, __impl_computeFitness", "HeuristicFlow/src/AOS/AOSOption.hpp: AOSOption", "HeuristicFlow/src/AOS/AOSParameterPack.hpp: setArg, arg", "HeuristicFlow/src/EAGlobal/BoxConstraint.hpp", "HeuristicFlow/src/Global/FunBody.hpp"]}
{"id": "C131", "title": "Genetic solver objects: every history of public calls", "statement": "For every sequence of setOption, setiFun, setfFun, setcFun, setmFun, setArgs, calls on the selection parameters, initializePop() and run() on a new SOGA or multi-objective solver (NSGA-II): options, functions and arguments in force are those given last (defaults and null pointers if none), and neither initializePop nor run changes them. A function is called only when it is needed, with the arguments in force: initializePop returns exactly if an initialiser is set, and calls it once per individual on what is there; a run without a fitness function is undefined if somebody is not evaluated; a run without a crossover (mutation) function is the same as with one if nobody's draw is at most crossoverProb (mutateProb), and calls a null pointer otherwise. A multi-objective history whose calls find their functions and a mutation probability that is not negative either returns or is undefined, and is undefined exactly if some run finds fewer than populationSize individuals; a mutation probability with 2*populationSize*mutateProb <= -1 is undefined. After a run that returns, generation counter, record and result (front) describe this run, and if neither fitness function nor arguments were changed since the last initializePop, all reported values are those of the function in force at the arguments in force. Recording the fitness changes nothing but the record.", "quantifier": "all histories of calls of any length, all settings, functions (or null), arguments, draws, starting contents of uninitialised members", "why_tests_cant": "a test executes one history with all functions set; what earlier calls leave behind and which function is missing matters", "anchors": ["HeuristicFlow/src/Genetic/GABase.hpp: setOption, initializePop, __impl_run, __impl_crossover, __impl_mutate, __impl_computeAllFitness", "HeuristicFlow/src/Genetic/GAAbstract.hpp: setArgs, args", "HeuristicFlow/src/Genetic/GAOption.hpp: GAOption", "HeuristicFlow/src/Global/FunBody.hpp: HEU_MAKE_FUNAREA", "HeuristicFlow/src/Genetic/SOGA.hpp: initializePop, result, bestFitness", "HeuristicFlow/src/Genetic/MOGAAbstract.hpp: initializePop, paretoFront"]}
{"id": "C132", "title": "Genetic solver objects: copies", "statement": "For every sequence of constructing, copying (also by std::move, which copies), assigning, destroying and calling SOGA or multi-objective solver objects: a copy has the content of the original and reports the same result, best fitness and Pareto front, and making it changes no other object. A SOGA object that has been initialised or run itself after it was copied or assigned (or never was a copy) behaves from then on as if it were alone: what becomes of it depends only on the calls made on it. Until then a copy reports what it reported first as long as neither it nor the original is initialised, run, assigned or destroyed; running it gives what the original would give with the same calls and draws, provided the best individual of the original had been evaluated (true after every run), and changes nothing else. But if the original has been destroyed, run, replaced or shrunk, result() and bestFitness() of the copy are undefined and it cannot be run before it is initialised again (so solvers in a growing std::vector break); re-initialising the original changes what the copy reports. A multi-objective copy can always be initialised and run as if alone, whatever became of the original; only its Pareto front cannot be read before (if it is not empty) once the original is gone.", "quantifier": "all histories with any number of objects and copies, all settings, functions, draws", "why_tests_cant": "needs every interleaving of calls on original and copies; the failures are dangling iterators, which tests usually do not notice", "anchors": ["HeuristicFlow/src/Genetic/SOGA.hpp: SOGA, _bestGene, updateFailTimesAndBestGene, result, bestFitness, initializePop", "HeuristicFlow/src/Genetic/SOGASelecters.hpp: all selectors", "HeuristicFlow/src/Genetic/MOGAAbstract.hpp: _pfGenes, paretoFront, initializePop", "HeuristicFlow/src/Genetic/NSGABase.hpp: updatePF", "HeuristicFlow/src/Genetic/GABase.hpp: _population, __impl_run"]}
{"id": "C133", "title": "AOS objects: copies and moves", "statement": "For every sequence of constructing, copying, moving, copy- and move-assigning, destroying and calling AOS objects: a copy has the content of the original (electrons, settings, counters, record) and reports the same best electron and layers; making it changes no other object. An object that has been initialised or run itself since it was copied (or never was a copy), and is not replaced, behaves as if it were alone: what becomes of it depends only on the calls made on it, and bestElectron() and layers() are its own. Until then a copy keeps reporting what it reported first as long as neither it nor the original is initialised, run, assigned to, moved from or destroyed; running it gives what the original would give with the same calls and draws, provided the best electron of the original had been evaluated (true after every run; false between initializePop and run, where the early-stop counter differs), and changes nothing else. If the original has been destroyed, assigned to or initialised again, bestElectron() and the layers of the copy are dangling and running it is undefined until it is initialised itself. A move transfers everything and leaves the new object independent of the old one; the old one has no electrons, cannot be run before initializePop, and its bestElectron() is that of the new object.", "quantifier": "all histories with any number of objects, copies and moves; all settings, functions, draws", "why_tests_cant": "needs every interleaving of calls on original and copies; the failures are dangling pointers, which tests usually do not notice", "anchors": ["HeuristicFlow/src/AOS/AOSBoxed.hpp: _electrons, _layers, _atomBestPtr, bestElectron, layers", "HeuristicFlow/src/AOS/AOSBase.hpp: initializePop, __impl_run", "HeuristicFlow/src/AOS/AOS4EigenAndStd.hpp: __impl_computeAtomBSBELE", "HeuristicFlow/src/AOS/AOS.hpp: AOS"]}
{"id": "C134", "title": "Multi-objective test functions and the caller's containers", "statement": "For every pair of variable and result containers the test-function class accepts (std::array, std::vector, fixed and dynamic Eigen arrays), calling one of the problems with one or two variables on a vector of its dimension leaves exactly its objective values in the result object, whatever that object held before, and touches no memory outside the two containers; and the class accepts every pair of containers whose sizes fit the problem.", "quantifier": "all container types and sizes, all previous contents of the result object, all points", "why_tests_cant": "the container types are template arguments and the previous content of the result is arbitrary; an out-of-range write need not show", "anchors": ["HeuristicFlow/src/EAGlobal/MOFunctions.hpp: MOFunctions12, MOFunctions22, MOFunctions23, MOFunctionsX2, sizeMayMatchDTLZ1to7, sizeMayMatchDTLZ89", "HeuristicFlow/src/EAGlobal/TestFunctions.hpp: MOFunctions, testFunctions", "HeuristicFlow/src/Global/Types.hpp: array_traits, sizeMayMatch"]}
{"id": "C135", "title": "Dynamic matrices own their memory", "statement": "In every program that constructs, moves, assigns, resizes, fills, writes and destroys any number of dynamic matrices, each matrix behaves as a value of its own (an operation changes only the matrices it names, a move hands the value over and leaves an empty matrix), every buffer is released exactly once, is never used afterwards and never shared, and when all matrices are gone no memory is left; nothing undefined happens as long as objects are used while they live and indices are in range.", "quantifier": "all programs (sequences of operations on any number of matrices), all shapes and element values, trivial and non-trivial element types", "why_tests_cant": "double release, use after release and leaks depend on the order of operations on several objects; all programs cannot be tried", "anchors": ["HeuristicFlow/src/SimpleMatrix/MatrixDynamicSize.hpp: MatrixDynamicSize, ~MatrixDynamicSize, operator=, resize, fill"]}
{"id": "C136", "title": "Container traits describe the container", "statement": "For every container type a decision variable may have (std::vector, std::array, Eigen arrays of fixed, partly fixed and dynamic size), the compile-time description the library works with is right: the size is fixed exactly if all objects of the type have the same number of elements, and is that number; it is a vector exactly if every object has one row or one column; the element type is the one the user wrote. stdContainer<T,Dim> has Dim elements, uintX_t<n> is the smallest unsigned type with n bits.", "quantifier": "all container types, element types, sizes", "why_tests_cant": "types are template arguments: there are infinitely many instantiations", "anchors": ["HeuristicFlow/src/Global/Types.hpp: array_traits, getSizeCTOfAnyVector, stdContainer, uintX_t"]}
{"id": "C137", "title": "Box classes fit the decision variable", "statement": "For every container type the box constraint uses the implementation for its kind (fixed or variable size, vector or matrix), offers the documented setDimensions, treats Boolean variables as Boolean, and its operations compile.", "quantifier": "all container and element types, both box shapes", "why_tests_cant": "types are template arguments: there are infinitely many instantiations, and templates are only checked where used", "anchors": ["HeuristicFlow/src/EAGlobal/BoxConstraint.hpp: DiscretBox, ContinousBox, SquareBox_t, NonSquareBox_t", "HeuristicFlow/src/EAGlobal/SizeBody4BoxConstraint.hpp: SquareBoxSizeBody"]}
{"id": "C138", "title": "Every box works with the default operators and solvers", "statement": "The default initialisation and mutation functions of the genetic algorithms accept every box of the library (and every user-defined class with the documented interface) in every supported version of the language; the symbolic mutation accepts the discrete boxes; atomic orbital search accepts exactly the continuous boxes.", "quantifier": "all boxes of the library, all user-defined classes, C++17 and C++20", "why_tests_cant": "the conditions are evaluated by the compiler per type and language version; a test compiles a few of them", "anchors": ["HeuristicFlow/src/Genetic/Miscellaneous4GA.hpp: GADefaults::iFun, mFun, mFun_s", "HeuristicFlow/src/Global/Types.hpp: isBoxConstraint, isContinousBox_v", "HeuristicFlow/src/AOS/AOS.hpp: AOS"]}
{"id": "C139", "title": "Options are printed with their names", "statement": "Enum2String gives each enumerator of RecordOption, FitnessOption, ContainerOption, BoxShape, EncodeType and SelectMethod its own text, different for different enumerators; it is defined for every enumerator; RunTimeSelectMethod has the greatest number of all selection methods.", "quantifier": "all numbers an option object can hold", "why_tests_cant": "the undefined case (a number that is no enumerator) shows nothing definite in a test", "anchors": ["HeuristicFlow/src/Global/Enumerations.hpp: Enum2String", "HeuristicFlow/src/Global/HeuMaths.hpp: max_v"]}
{"id": "C14", "title": "LogisticChaos stays in [0,1] and its bulk form agrees with single steps", "statement": "Starting from a seed in (0,1) every value produced is in [0,1]; makeSequence(dst,L) writes exactly the L values that L calls would give and leaves the same state, for every L including 0.", "quantifier": "every seed in (0,1), every length, over exact arithmetic", "why_tests_cant": "infinite orbit", "anchors": ["HeuristicFlow/src/Global/LogisticChaos.hpp: operator(), makeSequence, iterate"]}
{"id": "C140", "title": "A LogisticChaos object walks along one orbit", "statement": "After any sequence of calls (single steps, value(), makeSequence, iterate, in any mixture) a LogisticChaos object has gone exactly as many steps as the calls ask for and every number received is the corresponding member of one orbit, bit for bit, in [0,1]; a seed is accepted exactly if it is strictly between 0 and 1.", "quantifier": "all histories of calls, all double seeds", "why_tests_cant": "the orbit is infinite and the bulk form multiplies in another order than the single step", "anchors": ["HeuristicFlow/src/Global/LogisticChaos.hpp: LogisticChaos, operator(), value, makeSequence, iterate"]}
{"id": "C141", "title": "Bit containers own their memory", "statement": "A program may construct, copy, assign (also to itself), grow, shrink, clear and destroy any number of multiBitSet objects in any order: each behaves as a value of its own, no operation on one changes another, no block is released twice, used after its release or leaked, and no object in use has too little memory for its elements.", "quantifier": "all programs on any number of containers, all block types, all contents of freshly allocated memory", "why_tests_cant": "double release, sharing and leaks depend on the whole history of all objects; overruns of a few bytes go unnoticed in tests", "anchors": ["HeuristicFlow/src/SimpleMatrix/MultiBitSet.hpp: multiBitSet constructors, destructor, resize, reserve, shrink_to_fit, push_back, clear, operator="]}
{"id": "C142", "title": "PSO with the user's own initialiser", "statement": "A particle swarm object whose initialisation function is the user's starts every run from exactly the positions and velocities that function wrote; a run is defined exactly when the vectors it wrote have one common size (and the box and fitness function are set); the reported best has its true fitness, is not worse than any position the initialiser wrote, and lies within the bounds or is one of those positions; after a run that moved the particles every particle lies within the bounds.", "quantifier": "all initialisers (whatever they write), all fitness functions, all histories of public calls, all random draws, all settings", "why_tests_cant": "initialisers are arbitrary user code; the consequences of one writing a short or out-of-box vector depend on the whole later history", "anchors": ["HeuristicFlow/src/PSO/PSOAbstrcat.hpp: initializePop, run, doInitialize", "HeuristicFlow/src/PSO/PSOParameterPack.hpp: iFun_t", "HeuristicFlow/src/PSO/PSO4Eigen.hpp: __impl_updatePopulation", "HeuristicFlow/src/Global/FunBody.hpp: HEU_MAKE_FUNAREA"]}
{"id": "C143", "title": "AOS with the user's own initialiser", "statement": "An AOS object whose initialisation function is the user's starts from exactly the states that function wrote; a run is undefined if these have different sizes and otherwise is the ordinary run, whatever shape was set; the last entry of the record is not worse than the value of any state the initialiser wrote and is the true energy of an electron; every electron lies within the bounds or is one of those states.", "quantifier": "all initialisers (whatever they write), all fitness functions, all histories of public calls, all random draws, all settings", "why_tests_cant": "initialisers are arbitrary user code; the consequences of one writing a short or out-of-box state depend on the whole later history", "anchors": ["HeuristicFlow/src/AOS/AOSBase.hpp: initializePop, __impl_run", "HeuristicFlow/src/AOS/AOSBoxed.hpp: AOSExecutor", "HeuristicFlow/src/AOS/AOS4EigenAndStd.hpp: __impl_computeAtomBSBELE, __impl2_applyPhotonEffect, __impl2_applyNonPhotonEffect", "HeuristicFlow/src/Global/FunBody.hpp: HEU_MAKE_FUNAREA"]}
{"id": "C144", "title": "When a genetic solver calls the user's functions", "statement": "Whatever side effects the four functions of the user have (counters, logging, a noisy measurement), a run of a genetic solver evaluates every candidate exactly once, in the evaluation that follows its creation, never re-evaluates one that has a value, and at the end every member of the population has the value the one call for it returned; the parents given to crossover and mutation are members of the population at that moment; so the number of evaluations of a run is the number of candidates that had no value at its start plus two for each crossover plus one for each mutation, at most K+3KG with K survivors and G generations; initializePop calls the initialiser exactly once per member and nothing else; with Truncation or EliteReserved the reported best is a best one of all values the fitness function returned.", "quantifier": "all user functions with arbitrary side effects, all random draws, all selection methods and solvers, all orders in which the parallel loop makes the calls, all options and starting populations", "why_tests_cant": "tests use fitness functions without side effects; that an expensive or noisy evaluation is never repeated or skipped is a statement about whole histories of calls", "anchors": ["HeuristicFlow/src/Genetic/GABase.hpp: initializePop, __impl_run, __impl_computeAllFitness, __impl_crossover, __impl_mutate", "HeuristicFlow/src/Genetic/GAAbstract.hpp: initializeFun, fitnessFun, crossoverFun, mutateFun", "HeuristicFlow/src/Genetic/SOGASelecters.hpp: __impl_select", "HeuristicFlow/src/Genetic/SOGA.hpp: bestFitness"]}
{"id": "C145", "title": "When a particle swarm calls the user's functions", "statement": "Whatever side effects the functions of the user have, initializePop of a swarm calls the initialiser and then the fitness function once for every particle, and a run with at least one particle ends and calls the fitness function exactly once per particle in each of its generation()+1 rounds and the initialiser never, so initializePop and a run make K + K(generation()+1) evaluations; the last round is about the final positions; every entry of the record is a best one of all values returned so far, those of initializePop included, and the final best is a value that was returned for its position, also for a noisy fitness function and over any number of runs.", "quantifier": "all user functions with arbitrary side effects, all random draws, all boxes, factors, limits, all orders in which the parallel loop makes the calls, all numbers of runs", "why_tests_cant": "tests use fitness functions without side effects; the statement is about whole histories of calls", "anchors": ["HeuristicFlow/src/PSO/PSOAbstrcat.hpp: initializePop, __impl_run, __impl_computeAllFitness", "HeuristicFlow/src/PSO/PSO4Eigen.hpp: __impl_updatePGBest, __impl_updatePopulation", "HeuristicFlow/src/PSO/PSOParameterPack.hpp: iFun, fFun"]}
{"id": "C146", "title": "When the atomic orbital search calls the user's functions", "statement": "Whatever side effects the functions of the user have, initializePop of AOS calls the initialiser once per electron and nothing else; a run that returns calls only the fitness function, evaluates every electron exactly once and never again, electronNum electrons in each of its generation()+1 rounds, so electronNum*(generation()+1) evaluations in all; at the end every electron has the energy a call for its state returned; every entry of the record is a best one of all values returned so far and the last one is the energy of an electron that is still there, also for a noisy fitness function.", "quantifier": "all user functions with arbitrary side effects, all random draws and sorting results, both container versions, all options, all orders in which the parallel loop makes the calls", "why_tests_cant": "tests use fitness functions without side effects; the statement is about whole histories of calls", "anchors": ["HeuristicFlow/src/AOS/AOSBase.hpp: initializePop, __impl_run, __impl_updateElectrons", "HeuristicFlow/src/AOS/AOSBoxed.hpp: __impl_computeFitness", "HeuristicFlow/src/AOS/AOS.hpp: __impl_selectAndMakeLayers", "HeuristicFlow/src/AOS/AOS4EigenAndStd.hpp: __impl_computeAtomBSBELE"]}
{"id": "C147", "title": "Runs with the library's real operators in double arithmetic stay near the box", "statement": "A genetic solver of any kind that uses the library's initialiser, one of its crossovers and its mutation for a continuous box, computed in double (or float) arithmetic: every candidate made or evaluated during a run has finite entries. With the exchange crossovers all are in the box. With the arithmetic crossover, after g generations none leaves the box by more than ((1+4e)^g-1)*(size of the box+tiny), e being the rounding unit - linear in g, at most 8eg times the size, for up to 2^49 generations - and the margin is needed: a run can report a best solution above the upper bound. No call of an operator is undefined.", "quantifier": "all boxes with finite bounds whose width and twice whose size do not overflow, all step widths, ratios in (0,1), draws, selections, fitness functions with side effects, numbers of generations", "why_tests_cant": "rounding errors accumulate over generations; a test sees one history of draws", "anchors": ["HeuristicFlow/src/Genetic/Miscellaneous4GA.hpp: iFun, imp_cFunNd, imp_cFunSwapNs, cFunRandNs, mFun", "HeuristicFlow/src/EAGlobal/BoxConstraint.hpp: BoxBase::initialize, ContinousBox::applyDelta", "HeuristicFlow/src/Genetic/GABase.hpp: __impl_run, __impl_crossover, __impl_mutate"]}
{"id": "C148", "title": "Multi-objective runs with noisy or side-effecting fitness functions", "statement": "Whatever the user's functions do (noise, counters, shared random generator, in whatever order the evaluation loop calls them), NSGA-II and NSGA-III: run() from at least populationSize individuals returns after exactly maxGenerations generations with populationSize individuals, each with the value the one call for it returned; paretoFront() dereferences no dangling pointer and returns the values of exactly the individuals of the final population that no other dominates. If no run of at most that many generations reports a front as large as the population, then the final front matches or dominates every value the fitness function ever returned, and the last record entry is the ideal point of all of them. In double arithmetic too: NSGA-III for any doubles including NaN and infinities (for the record: without NaN), NSGA-II for values below 2^1023.", "quantifier": "all user functions with side effects, populations, selections, orders of evaluation, numbers of generations", "why_tests_cant": "a noisy function gives a different history at every execution; dangling pointers show only for some of them", "anchors": ["HeuristicFlow/src/Genetic/GABase.hpp: __impl_run, __impl_computeAllFitness", "HeuristicFlow/src/Genetic/MOGAAbstract.hpp: paretoFront, bestFitness", "HeuristicFlow/src/Genetic/NSGA2.hpp: __impl_select", "HeuristicFlow/src/Genetic/NSGA3Abstract.hpp: __impl_select"]}
{"id": "C149", "title": "Single-objective runs on doubles with noisy or side-effecting user functions", "statement": "Whatever the user's functions do, with fitness type double (rounding, overflow, infinite penalties) and any of the ten selection methods: as long as the fitness function never returns NaN, a run() that returns has made exactly the calls of the documented loop (one evaluation for each new candidate; crossover and mutation only of candidates that have a value), every individual has the value its one call returned, the best gene is a living individual that no individual of the final population beats, and the last entry of the record is its fitness. With Truncation or EliteReserved (at least one elite) no value the fitness function ever returned is better than the reported one. At most 3*populationSize evaluations per generation (not StochasticUniversal; EliteReserved with at most populationSize elites). With Tournament, MonteCarlo, Probability, LinearRank, ExponentialRank or Boltzmann and values of magnitude at most 2^970, run() in binary64 returns, with populationSize individuals and one record entry per generation.", "quantifier": "all user functions with side effects, populations, selection methods, draws, orders of evaluation, numbers of generations, binary formats", "why_tests_cant": "rounding and overflow in the selection weights depend on the values of a whole history, and a noisy function gives a different history at every execution", "anchors": ["HeuristicFlow/src/Genetic/GABase.hpp: __impl_run, __impl_computeAllFitness, __impl_crossover, __impl_mutate", "HeuristicFlow/src/Genetic/SOGA.hpp: bestFitness, result", "HeuristicFlow/src/Genetic/SOGASelecters.hpp: __impl___impl_select"]}
{"id": "C15", "title": "Random indices are in range", "statement": "randIdx(size) is in [0,size) and randIdx(min,max_plus_1) is in [min,max_plus_1) for every size and every float draw; every index can occur while the range has at most 2^23 values (beyond the 24-bit resolution of the draw it cannot); randD(min,max) is in [min,max); the array versions of randD write exactly num elements.", "quantifier": "every range and every generator output in [0,1)", "why_tests_cant": "the generator's extreme outputs are practically never drawn in a test", "anchors": ["HeuristicFlow/src/Global/Randoms.hpp: randIdx, randD"]}
{"id": "C150", "title": "Swarm runs on doubles whose user functions are noisy and may return NaN", "statement": "A PSO run with fitness type double and at least one particle ends within maxGenerations whatever the fitness function does, NaN included, with generation()+1 calls for each particle and no other call. If no value computed by initializePop is NaN, then, however noisy the function is later and however often it returns NaN: the j-th record entry is not NaN and is a best one of all values other than NaN returned up to the end of round j (start included); the final globalBest is a best of all, stored with the position for which it was returned; no personal best is ever NaN; the same holds over any number of further runs. But if the very first call of initializePop returns NaN, every run reports that position and NaN, the record consists of NaN, and the run stops after maxFailTimes (if not 0) or maxGenerations. A later particle whose starting value is NaN keeps that position and NaN as its own best for ever, so that better values returned for it later can be missing from the report.", "quantifier": "all user functions with side effects, swarms, order of evaluation, moves, limits, sequences of runs, binary formats", "why_tests_cant": "comparisons with NaN are false both ways, so the bests depend on where in a whole history NaN occurs; a noisy function gives another history at every execution", "anchors": ["HeuristicFlow/src/PSO/PSOAbstrcat.hpp: initializePop, __impl_run, __impl_computeAllFitness", "HeuristicFlow/src/PSO/PSO4Eigen.hpp: __impl_updatePGBest", "HeuristicFlow/src/PSO/PSOOption.hpp: PSOOption"]}
{"id": "C151", "title": "Atomic orbital search runs on doubles with a noisy fitness function", "statement": "An AOS run on double, whatever the fitness function does at each call (it may be noisy, infinite, or depend on all earlier calls), stops after at most maxGeneration+1 rounds. After initializePop, a run that returns has called the initialiser electronNum times, the fitness function electronNum times in each of generation()+1 rounds, and nothing else. If no returned value was NaN: the j-th record entry is a best one of all values returned up to round j, infinite ones included, even though the function may have given the same point other values; the last entry is the energy of an electron that is still there. If in some round one electron's energy is NaN and two others differ, behaviour is undefined. Writing down the calls changes nothing, and with a function without side effects the run is the one of C127.", "quantifier": "all user functions with side effects, draws, sorting algorithms, evaluation orders, options, boxes, numbers of rounds, binary formats", "why_tests_cant": "a noisy function gives another history at each execution, and energies on doubles include infinities, signed zeros and NaN, for which comparison is not a total order", "anchors": ["HeuristicFlow/src/AOS/AOSBase.hpp: __impl_run, __impl_initializePop", "HeuristicFlow/src/AOS/AOSBoxed.hpp: __impl_computeFitness", "HeuristicFlow/src/AOS/AOS.hpp: __impl_selectAndMakeLayers, computeAtomBSBELE"]}
{"id": "C152", "title": "Sum-of-squares test functions evaluated on doubles", "statement": "Evaluated with double arithmetic (every operation rounded): booth and himmelblau at any finite coordinates, beale when the first coordinate is at most a quarter of the largest double, sphere on any vector without NaN, rosenbrock on any non-empty vector of finite coordinates and both objectives of Schaffer1 at any finite point are never NaN and never negative, for standard and for Eigen vectors, in whatever order and bracketing Eigen adds the entries; and at the documented minimisers (booth (1,3), himmelblau (3,2), beale (3,0.5), sphere 0 of any length, rosenbrock (1,...,1) of any length) the value is exactly 0, so no double point is better than the documented one. For two coordinates rosenbrock gives the same value for both kinds of vector. rosenbrock of an empty vector is undefined. Other points can also get 0 (underflow), finite points can get infinity, and matyas, which subtracts, can be NaN at finite points.", "quantifier": "all finite doubles (all binary formats), all vector lengths, all orders of summation", "why_tests_cant": "the domain is all pairs of doubles and vectors of any length; rounding, overflow and the order of summation decide", "anchors": ["HeuristicFlow/src/EAGlobal/SOFunctions.hpp: booth, himmelblau, beale, matyas, sphere, rosenbrock", "HeuristicFlow/src/EAGlobal/MOFunctions.hpp: Schaffer1", "HeuristicFlow/src/Global/HeuMaths.hpp: square"]}
{"id": "C153", "title": "Levy's, Easom's and Bukin's functions on doubles never fall below the documented minimum, whatever the maths library", "statement": "On `double`, with each operation rounded: `levy` and `bukin` at finite coordinates (for `levy`, at which the arguments of the sine do not overflow) return a value >= 0, never NaN, and `easom` returns a value in [-1, 1], never NaN, for any mathematical library whose sine and cosine stay in [-1, 1], whose exponential function of non-positive numbers stays in [0, 1] and whose square root of non-negative numbers is not negative. At the documented minimisers: `bukin(-10, 1)` is exactly 0; `easom(M_PI, M_PI)` is exactly -1 if the library rounds cos(M_PI) to -1; `levy(1, 1)` is exactly the square of the computed sine of 3*M_PI, so it is greater than 0 (the documented minimum is missed) when that sine is not zero to within underflow.", "quantifier": "all finite coordinates, all binary floating-point formats with the usual range, all mathematical libraries with the stated ranges", "why_tests_cant": "A test evaluates a few points with one maths library; the claim is about every point and every library.", "anchors": ["HeuristicFlow/src/EAGlobal/SOFunctions.hpp: SOFunctions2::levy, SOFunctions2::easom, SOFunctions2::bukin", "HeuristicFlow/src/Global/HeuMaths.hpp: square"]}
{"id": "C154", "title": "Hoelder's table and Schaffer's function no. 2 miss their documented minima on doubles, whatever the maths library", "statement": "On `double`, with each operation rounded: `holderTable` returns NaN wherever the computed `x*x - y*y` is negative, in particular at all four documented minimisers (+-8.05502, +-9.66459), and never a value greater than 0; `schaffer2` returns a value >= 0.5, never NaN, at all finite coordinates at which the argument of the sine does not overflow, so its documented minimum 0 is never reached. This holds for any mathematical library in which the square root of a negative number and the exponential function of NaN are NaN and the sine stays in [-1, 1].", "quantifier": "all coordinates, all binary floating-point formats with the usual range, all mathematical libraries with the stated properties", "why_tests_cant": "A test evaluates a few points with one maths library; the claim is about every point and every library.", "anchors": ["HeuristicFlow/src/EAGlobal/SOFunctions.hpp: SOFunctions2::holderTable, SOFunctions2::schaffer2", "HeuristicFlow/src/Global/HeuMaths.hpp: square"]}
{"id": "C155", "title": "Rastrigin's function on doubles never falls below its documented minimum, in any dimension and for any cosine", "statement": "On `double`, with each operation rounded, `SOFunctionsX::rastrigin` of a vector of any length (with 10 * length below 2^53) without NaN, at whose coordinates `M_PI * 2 * xi` does not overflow, is >= 0 and never NaN, for every mathematical library whose cosine stays in [-1, 1]: rounding never takes the running sum below 10 times the number of the coordinates left. At the origin, with zeros of either sign, it is exactly 0 if the cosine of zero is 1.", "quantifier": "all dimensions, all coordinates, all binary floating-point formats with the usual range, all cosines within [-1, 1]", "why_tests_cant": "A test evaluates a few points in a few dimensions with one maths library; rounding errors accumulate over the vector, so nothing follows for other points.", "anchors": ["HeuristicFlow/src/EAGlobal/SOFunctions.hpp: SOFunctionsX::rastrigin", "HeuristicFlow/src/Global/HeuMaths.hpp: square"]}
{"id": "C156", "title": "Binh-Korn penalties work on doubles: a point found infeasible never dominates one found feasible", "statement": "On `double`, with each operation rounded, at all finite coordinates: when the computed `penltyG1` (`penltyG2`) of `BinhKorn` is positive the first (second) objective is at least 1e5, infinity included; both objectives are always >= 0 and never NaN; when neither is positive the objectives are the documented formulas, rounded, and at most 1000. So a point at which the code finds a constraint violated is never at least as good in both objectives as a point at which it finds none violated, whatever overflows.", "quantifier": "all pairs of points with finite coordinates, all binary floating-point formats with at least 20 mantissa bits and the usual range, every value of the literal 7.7", "why_tests_cant": "A test compares a few pairs of points; the claim is about all pairs, including those where intermediate results overflow.", "anchors": ["HeuristicFlow/src/EAGlobal/MOFunctions.hpp: MOFunctions22::BinhKorn", "HeuristicFlow/src/Global/HeuMaths.hpp: square"]}
{"id": "C157", "title": "When a run of a genetic solver stops, with functions that have side effects", "statement": "Whatever the user's functions do, run() of a genetic solver returns after maxGenerations generations or in the first generation in which the fail counter exceeds a positive maxFailTimes; the record then has one entry for the start and one for each generation, the last being the fitness of the population that is left; the generations made do not depend on the limits; the fail counter left by an earlier run has no influence; and the run loops for ever only if a selection does.", "quantifier": "every population, every user function as a transformer of the program state, every selection method and its draws, every setting of the limits", "why_tests_cant": "no finite set of functions and limits shows that nothing else ends a run or lets it go on", "anchors": ["HeuristicFlow/src/Genetic/GABase.hpp: __impl_run, resetFailTimes", "HeuristicFlow/src/Genetic/SOGA.hpp: bestFitness"]}
{"id": "C158", "title": "Chankong–Haimes on doubles", "statement": "With double coordinates in the documented box [-20, 20]², a point at which the code finds a constraint of ChangkongHaimes violated is penalised by at least 99379 in the objective it belongs to, a point at which it finds none violated gets the two documented formulas with values of absolute value at most 615 and 433, and no point of the first kind is at least as good in both objectives as one of the second, whatever the rounding does.", "quantifier": "every pair of points of the box with double coordinates", "why_tests_cant": "pairs of points near the boundary of the feasible region, where rounding decides, cannot be enumerated", "anchors": ["HeuristicFlow/src/EAGlobal/MOFunctions.hpp: MOFunctions22::ChangkongHaimes"]}
{"id": "C16", "title": "Pareto dominance is a strict partial order", "statement": "isStrongDominate is irreflexive, asymmetric and transitive in both optimisation directions, and means: no objective worse and at least one strictly better.", "quantifier": "all fitness vectors of every dimension, both directions", "why_tests_cant": "triples of vectors of unbounded dimension", "anchors": ["HeuristicFlow/src/EAGlobal/Pareto.hpp: Pareto::isStrongDominate"]}
{"id": "C17", "title": "Non-dominated sorting is a partition led by the non-dominated set", "statement": "Sorting a population into layers loses and duplicates no individual; the first layer is exactly the individuals nobody dominates; an individual always lies in a later layer than anything that dominates it.", "quantifier": "every population and every fitness vectors", "why_tests_cant": "depends on all pairs of individuals and on the unstable sort's tie order", "anchors": ["HeuristicFlow/src/Genetic/NSGABase.hpp: calculateDominatedNum, divideLayers"]}
{"id": "C18", "title": "NSGA-II selection leaves exactly populationSize individuals", "statement": "After selection the population has exactly populationSize members, each of them a member of the population before.", "quantifier": "every population of at least populationSize>=1 individuals, every tie order of the sorts", "why_tests_cant": "size bookkeeping depends on where the last layer is cut", "anchors": ["HeuristicFlow/src/Genetic/NSGA2.hpp: __impl_select"]}
{"id": "C19", "title": "NSGA-II elitism", "statement": "If an individual survives NSGA-II selection, every individual that dominates it survives too; in particular non-dominated individuals are eliminated only if the survivors are all non-dominated.", "quantifier": "every population, every tie order", "why_tests_cant": "all pairs of individuals and all cut positions", "anchors": ["HeuristicFlow/src/Genetic/NSGA2.hpp: __impl_select", "HeuristicFlow/src/Genetic/NSGABase.hpp: calculateDominatedNum"]}
{"id": "C20", "title": "The reported Pareto front is sound", "statement": "After every NSGA-II or NSGA-III selection, the members of the Pareto front are members of the surviving population, no member of the candidate population dominates any of them, and when the non-dominated set fits it is reported completely.", "quantifier": "every population, every tie order", "why_tests_cant": "aliasing between the front and erased individuals depends on the data", "anchors": ["HeuristicFlow/src/Genetic/NSGABase.hpp: updatePF", "HeuristicFlow/src/Genetic/NSGA2.hpp: __impl_select", "HeuristicFlow/src/Genetic/NSGA3Abstract.hpp: __impl_select", "HeuristicFlow/src/Genetic/MOGAAbstract.hpp: paretoFront"]}
{"id": "C21", "title": "NSGA-II diversity rule", "statement": "Inside the layer that is cut, survivors have congestion at least that of the eliminated; the extremes of every objective get infinite congestion.", "quantifier": "every cut layer and every tie order", "why_tests_cant": "depends on per-objective sort orders", "anchors": ["HeuristicFlow/src/Genetic/NSGA2.hpp: __impl_select"]}
{"id": "C22", "title": "NSGA-III selection leaves exactly populationSize individuals and always finishes", "statement": "NSGA-III niche preservation terminates and the population has exactly populationSize members afterwards, all from the previous population, and every dominator of a survivor survives.", "quantifier": "every population of at least populationSize individuals, every random draw sequence, every non-empty set of reference points", "why_tests_cant": "the niche loop erases reference points while running; termination and size depend on the association of individuals to reference points", "anchors": ["HeuristicFlow/src/Genetic/NSGA3Abstract.hpp: __impl_select, nichePreservation, findMinSet, associate"]}
{"id": "C23", "title": "Reference points are the Das-Dennis simplex lattice", "statement": "makeReferencePoses yields exactly NchooseK(dim+precision-1, precision) points, all distinct, all non-negative, each summing to 1, and every lattice point with that precision occurs; referencePointCount agrees.", "quantifier": "every objective count and precision", "why_tests_cant": "recursive enumeration over unbounded dimension and precision", "anchors": ["HeuristicFlow/src/Genetic/NSGA3Abstract.hpp: pri_makeRP, pri_startRP, computeReferencePointPoses", "HeuristicFlow/src/Genetic/NSGA3Base.hpp: referencePointCount"]}
{"id": "C24", "title": "bestFitness of a multi-objective solver is the ideal point", "statement": "bestFitness() has in each objective the best value over the current population.", "quantifier": "every non-empty population, both directions", "why_tests_cant": "all populations", "anchors": ["HeuristicFlow/src/Genetic/MOGAAbstract.hpp: bestFitness"]}
{"id": "C25", "title": "GA run stops in bounded time with bounded generation count", "statement": "run() terminates after at most maxGenerations+1 selections; on return generation() <= maxGenerations; it stops earlier only if maxFailTimes>0 and failTimes exceeded it.", "quantifier": "every option, every evaluation and selection behaviour", "why_tests_cant": "loops over unbounded runs", "anchors": ["HeuristicFlow/src/Genetic/GABase.hpp: __impl_run, generation, failTimes"]}
{"id": "C26", "title": "GA record has one entry per generation", "statement": "With recording enabled, after run() the record holds exactly generation()+1 entries, the i-th being the best fitness after the i-th selection.", "quantifier": "every run", "why_tests_cant": "every history", "anchors": ["HeuristicFlow/src/Genetic/GABase.hpp: __impl_run, __impl_recordFitness"]}
{"id": "C27", "title": "Cached fitness is never stale and never recomputed", "statement": "Throughout a GA run, any individual marked as evaluated carries the fitness function's value at its current variables, and evaluation is skipped exactly for those.", "quantifier": "every population and every history of evaluate, select, crossover, mutate", "why_tests_cant": "a stale cache shows only for particular operator interleavings", "anchors": ["HeuristicFlow/src/Genetic/GABase.hpp: __impl_computeAllFitness, __impl_crossover, __impl_mutate", "HeuristicFlow/src/Genetic/DefaultGeneType.hpp: setUncalculated"]}
{"id": "C28", "title": "Parallel evaluation is schedule independent", "statement": "However the individuals are divided over threads and in whatever order they are evaluated, the resulting population equals that of sequential evaluation.", "quantifier": "every population and every order/partition of the evaluation tasks", "why_tests_cant": "schedules cannot be enumerated", "anchors": ["HeuristicFlow/src/Genetic/GABase.hpp: __impl_computeAllFitness", "HeuristicFlow/src/Global/Threading.hpp"]}
{"id": "C29", "title": "Crossover and mutation only add individuals", "statement": "Crossover and mutation leave every existing individual as it was, append an even number of unevaluated crossover children (two per couple; couples are disjoint and formed from selected individuals, at most one of whom stays single) and one unevaluated mutant per selected individual, so the population never shrinks there and at most quadruples per generation.", "quantifier": "every population and every random draw", "why_tests_cant": "all subsets chosen and shuffles", "anchors": ["HeuristicFlow/src/Genetic/GABase.hpp: __impl_crossover, __impl_mutate"]}
{"id": "C30", "title": "Single-objective selection leaves the configured number of individuals", "statement": "After selection by each of the ten built-in methods a population of more than populationSize individuals has exactly populationSize members.", "quantifier": "every population, every random draw, every method", "why_tests_cant": "random, data-dependent elimination", "anchors": ["HeuristicFlow/src/Genetic/SOGASelecters.hpp: SOGASelector<...>::__impl_select"]}
{"id": "C31", "title": "Single-objective selection invents nobody", "statement": "Every survivor of selection is (a copy of) an individual of the population before selection.", "quantifier": "every population, every random draw, every method", "why_tests_cant": "random, data-dependent elimination", "anchors": ["HeuristicFlow/src/Genetic/SOGASelecters.hpp"]}
{"id": "C32", "title": "bestGene is the best of the population", "statement": "When a single-objective selection returns, result()/bestFitness() refer to a member of the surviving population which no survivor beats.", "quantifier": "every population, every draw, both directions", "why_tests_cant": "all populations", "anchors": ["HeuristicFlow/src/Genetic/SOGA.hpp: findCurrentBestGene, updateFailTimesAndBestGene, isBetter"]}
{"id": "C33", "title": "Elitist methods never lose the best fitness", "statement": "With Truncation or EliteReserved selection the best fitness after a generation is at least as good as before, so the record is monotone over the whole run.", "quantifier": "every run and every random draw", "why_tests_cant": "all histories", "anchors": ["HeuristicFlow/src/Genetic/SOGASelecters.hpp: Truncation, EliteReserved", "HeuristicFlow/src/Genetic/GABase.hpp: __impl_crossover"]}
{"id": "C34", "title": "failTimes counts consecutive generations without improvement", "statement": "failTimes() equals the number of consecutive latest generations whose best was not strictly better than the previous generation's best.", "quantifier": "every sequence of per-generation bests", "why_tests_cant": "all histories", "anchors": ["HeuristicFlow/src/Genetic/SOGA.hpp: updateFailTimesAndBestGene"]}
{"id": "C35", "title": "Selection never touches an erased individual", "statement": "No selection method reads an individual after it has been erased from the population.", "quantifier": "every population and previous best", "why_tests_cant": "use after erase only when the previous best is itself eliminated", "anchors": ["HeuristicFlow/src/Genetic/SOGASelecters.hpp: Truncation, EliteReserved"]}
{"id": "C36", "title": "Tournament winners", "statement": "Tournament selection plays populationSize games of tournamentSize different individuals, each won by one that nobody in the game beats; every survivor's multiplicity equals the number of games it won; from one game to the next every seat gets a new occupant.", "quantifier": "every population, every draw", "why_tests_cant": "random multiplicities", "anchors": ["HeuristicFlow/src/Genetic/SOGASelecters.hpp: Tournament"]}
{"id": "C37", "title": "Run-time selection dispatch", "statement": "With RunTimeSelectMethod, the method that runs is the one set by setSelectMethod, and EliteReserved before any call.", "quantifier": "every method", "why_tests_cant": "finite but dispatches on a runtime enum with an assert default", "anchors": ["HeuristicFlow/src/Genetic/SOGASelecters.hpp: SOGAInheriter, RunTimeSelectMethod"]}
{"id": "C38", "title": "Box initialisation lies in the box", "statement": "initialize() yields every coordinate within [min,max] and can reach every integer value.", "quantifier": "every box and every random draw", "why_tests_cant": "extreme draws and extreme bounds of the scalar type", "anchors": ["HeuristicFlow/src/EAGlobal/BoxConstraint.hpp: BoxBase::initialize"]}
{"id": "C39", "title": "applyConstraint projects onto the box", "statement": "applyConstraint yields a point in the box, leaves points of the box unchanged, is idempotent, and moves each coordinate no further than necessary.", "quantifier": "every box and every point", "why_tests_cant": "all points", "anchors": ["HeuristicFlow/src/EAGlobal/BoxConstraint.hpp: BoxBase::applyConstraint"]}
{"id": "C40", "title": "applyDelta stays in the box and changes one coordinate", "statement": "applyDelta on a point of the box yields a point of the box differing in at most one coordinate, by at most 1 (discrete) or delta (continuous).", "quantifier": "every box, point and random draw", "why_tests_cant": "extreme draws, wrap-around of unsigned types", "anchors": ["HeuristicFlow/src/EAGlobal/BoxConstraint.hpp: BoxBase::applyDelta, ContinousBox::applyDelta, FixedContinousBox"]}
{"id": "C41", "title": "Real crossover is convex combination", "statement": "cFunNd children are complementary convex combinations: in each coordinate they lie between the parents' values, and their sum equals the parents' sum; parents in a box give children in the box.", "quantifier": "all parents, all dimensions, r in [0,1]", "why_tests_cant": "all reals", "anchors": ["HeuristicFlow/src/Genetic/Miscellaneous4GA.hpp: cFunNd, cFunXd"]}
{"id": "C42", "title": "Swap and random crossover exchange coordinates", "statement": "cFunSwapNs exchanges the tails of the parents (each coordinate of the two children is the pair of parents' coordinates in one of the two orders). For cFunRandNs each coordinate of each child is one of the parents' coordinates at that position, decided by that coordinate's own draw. Hence box membership is inherited.", "quantifier": "all parents and all draws", "why_tests_cant": "all draws", "anchors": ["HeuristicFlow/src/Genetic/Miscellaneous4GA.hpp: cFunSwapNs, cFunRandNs, cFunSwapXs, cFunRandXs"]}
{"id": "C43", "title": "Symbol mutation changes one coordinate to a different value in range", "statement": "The symbol-box mutation changes exactly one coordinate, to a value inside [min,max] different from the old one.", "quantifier": "every vector in the box and every draw", "why_tests_cant": "boundary values of the coordinate and of the draw", "anchors": ["HeuristicFlow/src/Genetic/Miscellaneous4GA.hpp: imp_mFunSymbolic, mFun"]}
{"id": "C44", "title": "PSO positions and velocities stay in their bounds", "statement": "After initialisation and after every update each particle's position, every personal best and the global best are inside the box and |velocity| <= velocityMax coordinatewise, also under floating-point rounding; if the velocity update overflows a velocity may become NaN, but positions still stay in the box.", "quantifier": "every run and every random draw", "why_tests_cant": "all histories", "anchors": ["HeuristicFlow/src/PSO/PSO4Eigen.hpp: __impl_updatePopulation", "HeuristicFlow/src/PSO/BoxWithVelocity.hpp: applyConstraint"]}
{"id": "C45", "title": "PSO global best is the best ever evaluated", "statement": "After each generation gBest is the best of all positions evaluated so far by any particle, and each pBest the best of its particle's history; both never get worse and carry fitness = f(position).", "quantifier": "every run and every random draw", "why_tests_cant": "all histories", "anchors": ["HeuristicFlow/src/PSO/PSO4Eigen.hpp: __impl_updatePGBest", "HeuristicFlow/src/PSO/PSO.hpp: bestFitness"]}
{"id": "C46", "title": "PSO run terminates within its options", "statement": "PSO run() performs at most maxGeneration+1 evaluations of the swarm, ends with generation() <= maxGeneration, and records generation()+1 entries.", "quantifier": "every run", "why_tests_cant": "all histories", "anchors": ["HeuristicFlow/src/PSO/PSOAbstrcat.hpp: __impl_run"]}
{"id": "C47", "title": "PSO box accessors report the box", "statement": "posMin(i)/posMax(i) return the bounds given to setRange.", "quantifier": "every box and index", "why_tests_cant": "only the indexed form is wrong", "anchors": ["HeuristicFlow/src/PSO/BoxWithVelocity.hpp: SquareBox4PSO::posMax"]}
{"id": "C48", "title": "AOS best electron never worsens", "statement": "In every AOS run that returns, the i-th recorded value is the best energy present in generation i, it never gets worse from generation to generation, and it is at least as good as every energy ever present before.", "quantifier": "every run, every random draw", "why_tests_cant": "all histories", "anchors": ["HeuristicFlow/src/AOS/AOS4EigenAndStd.hpp: computeAtomBSBELE", "HeuristicFlow/src/AOS/AOS.hpp: selectAndMakeLayers"]}
{"id": "C49", "title": "AOS keeps the configured number of electrons", "statement": "After selection there are at most electronNum electrons, and they are the best ones.", "quantifier": "every population", "why_tests_cant": "all populations", "anchors": ["HeuristicFlow/src/AOS/AOS.hpp: __impl_selectAndMakeLayers"]}
{"id": "C50", "title": "AOS layering is a partition in energy order", "statement": "The layers contain every electron exactly once, better energies in inner layers, no layer is empty, and no layer reference is out of range.", "quantifier": "every population, every layer count draw", "why_tests_cant": "rounding of Gaussian weights decides the counts", "anchors": ["HeuristicFlow/src/AOS/AOS.hpp: __impl_selectAndMakeLayers"]}
{"id": "C51", "title": "AOS children stay in the box", "statement": "Every electron produced by photon effects or random restart is inside the box.", "quantifier": "every run and random draw", "why_tests_cant": "all histories", "anchors": ["HeuristicFlow/src/AOS/AOS4EigenAndStd.hpp: applyPhotonEffect..."]}
{"id": "C52", "title": "AOS run terminates and records each generation", "statement": "AOS run() ends when generation reaches maxGeneration or the early-stop counter reaches maxEarlyStop, and the record has generation()+1 entries.", "quantifier": "every run", "why_tests_cant": "all histories", "anchors": ["HeuristicFlow/src/AOS/AOSBase.hpp: __impl_run, shouldTerminate, record"]}
{"id": "C53", "title": "AOS layer binding state and energy", "statement": "Each layer's binding energy is the mean energy of its electrons and its binding state the mean of their states; the layer's best electron is the one with the best energy.", "quantifier": "every layer", "why_tests_cant": "all layers", "anchors": ["HeuristicFlow/src/AOS/AOS4EigenAndStd.hpp: computeLayerBSBELE"]}
{"id": "C54", "title": "Polynomial test functions have their documented global minimum", "statement": "sphere, booth, beale, matyas and three-hump camel are >= 0 everywhere and 0 exactly at their documented minimisers (any dimension for sphere, and the same value for Eigen and std containers); himmelblau is >= 0, and 0 exactly where x^2+y=11 and x+y^2=7, e.g. at (3,2).", "quantifier": "all real points (any dimension for sphere)", "why_tests_cant": "infinite domain", "anchors": ["HeuristicFlow/src/EAGlobal/SOFunctions.hpp: sphere, booth, beale, himmelblau, matyas, threeHumpCamel"]}
{"id": "C55", "title": "Rastrigin has its global minimum at the origin", "statement": "rastrigin(x) >= 0 for every x of every dimension and equals 0 exactly at the origin.", "quantifier": "all real vectors", "why_tests_cant": "infinite domain", "anchors": ["HeuristicFlow/src/EAGlobal/SOFunctions.hpp: rastrigin"]}
{"id": "C56", "title": "DTLZ1 to DTLZ4 have the documented fronts", "statement": "DTLZ1 objectives sum to at least 1/2, DTLZ2/3/4 squared objectives to at least 1, with equality exactly when every distance variable is 1/2; on the unit cube no objective is negative, the Pareto-optimal points are exactly those with all distance variables 1/2, and every point of the plane (sphere) is attained. For Eigen and std vectors and whatever the result vector held before.", "quantifier": "all numbers of objectives and variables, all points, all previous contents of the result vector", "why_tests_cant": "infinite domain and dimension", "anchors": ["HeuristicFlow/src/EAGlobal/MOFunctions.hpp: DTLZ1, DTLZ2, DTLZ3, DTLZ4"]}
{"id": "C57", "title": "Every single-objective test function has its documented optimum", "statement": "GoldsteinPrice(0,-1)=3 is its minimum, schaffer2(0,0)=0 is its minimum, holderTable is defined at its minimisers, rosenbrock and styblinskiTang return the documented values for Eigen and std containers.", "quantifier": "all points", "why_tests_cant": "the formulas differ from the documented ones by single constants", "anchors": ["HeuristicFlow/src/EAGlobal/SOFunctions.hpp: GoldsteinPrice, schaffer2, holderTable, rosenbrock, styblinskiTang, schaffer4"]}
{"id": "C58", "title": "NSGA-III associates each individual with the nearest reference line", "statement": "findNearest returns the index of a reference point and the squared Euclidean distance from the normalised fitness to the line through the origin and that point; no point on the line of any other reference point is closer.", "quantifier": "every set of non-zero reference points and every fitness vector", "why_tests_cant": "the claim compares against every real point on every line", "anchors": ["HeuristicFlow/src/Genetic/NSGA3Abstract.hpp: findNearest, associate"]}
{"id": "C59", "title": "NSGA-III normalisation", "statement": "After normalisation every candidate is non-negative in every objective and some candidate is zero there; in the regular case the hyperplane with the computed intercepts passes through all extreme points (each maximal in its objective); in the singular case normalised coordinates with positive intercept lie in [0,1].", "quantifier": "every candidate set, dimension and singularity threshold", "why_tests_cant": "involves all point sets, including degenerate ones", "anchors": ["HeuristicFlow/src/Genetic/NSGA3Abstract.hpp: normalize, extremePoints2Intercept, isSingular"]}
{"id": "C60", "title": "multiBitSet copies equal their source", "statement": "Copy construction and assignment of a multiBitSet give an object with the same size and elements as the source, without touching memory outside either object's blocks.", "quantifier": "every source and target state, every content of freshly allocated memory", "why_tests_cant": "an overflow by spare blocks only shows when the source has unused capacity; tests with tight sources pass", "anchors": ["HeuristicFlow/src/SimpleMatrix/MultiBitSet.hpp: multiBitSet(const multiBitSet&), operator="]}
{"id": "C61", "title": "multiBitSet iteration visits every element once in order", "statement": "A begin()..end() loop terminates and yields exactly the elements in index order; front() and back() are the first and last element; b[i]=b[j] copies an element.", "quantifier": "every size, element width, block width and content", "why_tests_cant": "must hold for every alignment of elements to blocks", "anchors": ["HeuristicFlow/src/SimpleMatrix/MultiBitSet.hpp: begin, end, iteratorBase, reference_t"]}
{"id": "C62", "title": "Matrix copies have the source's shape and elements", "statement": "Assigning or copy-/move-constructing a matrix (dynamic, fixed or map) gives a matrix with the shape and elements of the source; the moved-from matrix is empty.", "quantifier": "every shape, content and previous state of the target", "why_tests_cant": "holds for all shapes and all states of uninitialised memory", "anchors": ["HeuristicFlow/src/SimpleMatrix/MatrixDynamicSize.hpp: constructors, operator=", "HeuristicFlow/src/SimpleMatrix/MatrixBase.hpp: operator=", "HeuristicFlow/src/SimpleMatrix/MatrixMap.hpp: deepCopyTo"]}
{"id": "C63", "title": "Predefined DivCode constants denote what their names say", "statement": "DivDecode<DivCode_Half> is 1/2, and each of the constants named Pi, Pi_mul_k, Pi_div_k, Sqrt2, one_div_Sqrt2 and E decodes to that real number within 1e-8.", "quantifier": "the thirteen constants, against the real numbers pi, sqrt 2 and e", "why_tests_cant": "the reference values are irrational reals; a test compares with another rounded literal", "anchors": ["HeuristicFlow/src/Global/TemplateFloat.hpp: DivCode"]}
{"id": "C64", "title": "Crossover probability parameter is honoured", "statement": "For cFunRandNs<p>/cFunRandXs<p> a child's coordinate comes from its own parent exactly when the coordinate's draw is below p.", "quantifier": "every p, all parents, all draws", "why_tests_cant": "the operator works, with the wrong probability", "anchors": ["HeuristicFlow/src/Genetic/Miscellaneous4GA.hpp: cFunRandNs, cFunRandXs"]}
{"id": "C65", "title": "GA runs never leave a set the operators respect", "statement": "If initialisation yields members of a set P (e.g. a box) and crossover and mutation map members of P to members of P, then after run() every individual and the reported best are in P; in particular with the default initialisation, real crossover and continuous mutation of a box.", "quantifier": "every selection method, all options, all random draws, any number of generations", "why_tests_cant": "all histories", "anchors": ["HeuristicFlow/src/Genetic/GABase.hpp: __impl_run", "HeuristicFlow/src/Genetic/Miscellaneous4GA.hpp: GADefaults::iFun, cFunNd, mFun"]}
{"id": "C66", "title": "The Eigen and std-container versions of the PSO move agree", "statement": "For the same draws, factors and box the move of a particle computed by the std-container version (abs/sign clamping, max-then-min) equals the one of the Eigen version (min-then-max with -velocityMax).", "quantifier": "every legal box, particle, factor and draw (exact arithmetic)", "why_tests_cant": "all inputs; the two texts clamp in different order and style", "anchors": ["HeuristicFlow/src/PSO/PSO4Eigen.hpp: __impl_updatePopulation", "HeuristicFlow/src/PSO/PSO4std.hpp: __impl_updatePopulation"]}
{"id": "C67", "title": "PSO failure counter counts the trailing generations without improvement", "statement": "At the end of a PSO run the failure counter equals the number of consecutive latest generations whose recorded best was not strictly better than the one before.", "quantifier": "every run", "why_tests_cant": "all histories", "anchors": ["HeuristicFlow/src/PSO/PSO4Eigen.hpp: __impl_updatePGBest", "HeuristicFlow/src/PSO/PSOAbstrcat.hpp: __impl_run"]}
{"id": "C68", "title": "AOS early-stop counter counts stagnation", "statement": "The early-stop counter at the end of a run equals the number of generations at the end of the history in which the best energy did not improve (compared, for the first generation, with the first electron).", "quantifier": "every run and random draw", "why_tests_cant": "all histories", "anchors": ["HeuristicFlow/src/AOS/AOS4EigenAndStd.hpp: __impl_computeAtomBSBELE", "HeuristicFlow/src/AOS/AOSBase.hpp: __impl_shouldTerminate"]}
{"id": "C69", "title": "AOS bestElectron() refers to a live electron", "statement": "After run() returns, bestElectron() refers to an electron that exists and whose energy is the last recorded one; run() never reads an erased electron.", "quantifier": "every run, every order std::sort gives to ties", "why_tests_cant": "depends on how std::sort orders equal energies", "anchors": ["HeuristicFlow/src/AOS/AOSBoxed.hpp: bestElectron", "HeuristicFlow/src/AOS/AOS.hpp: __impl_selectAndMakeLayers", "HeuristicFlow/src/AOS/AOS4EigenAndStd.hpp: __impl_computeAtomBSBELE"]}
{"id": "C70", "title": "Transcendental test functions have their documented global minimum", "statement": "ackley, bukin, levy and easom have their documented minimum (0 at the origin, 0 at (-10,1), 0 at (1,1), -1 at (pi,pi)) and attain it nowhere else; McCormick's minimum on its box is -sqrt(3)/2-pi/3, at (1/2-pi/3, -1/2-pi/3).", "quantifier": "all real points (the documented box for McCormick)", "why_tests_cant": "infinite domain", "anchors": ["HeuristicFlow/src/EAGlobal/SOFunctions.hpp: ackley, bukin, levy, easom, McCormick"]}
{"id": "C71", "title": "Rosenbrock and Styblinski-Tang minima in any dimension", "statement": "rosenbrock never reads out of range on a non-empty vector, is >= 0, the same for Eigen and std, and from two variables on 0 exactly at (1,...,1); styblinskiTang on std containers is never below -39.16617 n and comes within 1e-5 n of that at (-2.903534,...).", "quantifier": "all non-empty vectors of any dimension", "why_tests_cant": "infinite domain, any dimension", "anchors": ["HeuristicFlow/src/EAGlobal/SOFunctions.hpp: rosenbrock, styblinskiTang"]}
{"id": "C72", "title": "Penalties keep infeasible points from dominating feasible ones", "statement": "In Binh-Korn and Chankong-Haimes a feasible point gets the documented objective values, and no infeasible point dominates a feasible one.", "quantifier": "all points (Chankong-Haimes: of the documented box)", "why_tests_cant": "infinite domain of pairs of points", "anchors": ["HeuristicFlow/src/EAGlobal/MOFunctions.hpp: BinhKorn, ChangkongHaimes"]}
{"id": "C73", "title": "Schaffer's first problem has Pareto set [0,2]", "statement": "A point of Schaffer1 is non-dominated if and only if it lies in [0,2].", "quantifier": "all real points", "why_tests_cant": "infinite domain of pairs of points", "anchors": ["HeuristicFlow/src/EAGlobal/MOFunctions.hpp: Schaffer1"]}
{"id": "C74", "title": "DTLZ7 returns the documented values", "statement": "The first M-1 objectives are the position variables and the last is (1+g)(M - sum f/(1+g)(1+sin 3 pi f)); Pareto-optimal points of the unit cube have all distance variables 0; the result does not depend on what the result vector held before.", "quantifier": "all numbers of objectives and variables, all points, both kinds of vector", "why_tests_cant": "infinite domain; needs arbitrary stale contents", "anchors": ["HeuristicFlow/src/EAGlobal/MOFunctions.hpp: DTLZ7"]}
{"id": "C75", "title": "DTLZ8 and DTLZ9 stay in range and average the right variables", "statement": "No access is out of range; each objective is the (power) average of its own block of variables, plus a penalty of at least 1000 exactly when its constraint is violated.", "quantifier": "all numbers of variables and objectives, all points", "why_tests_cant": "infinite domain, any dimension", "anchors": ["HeuristicFlow/src/EAGlobal/MOFunctions.hpp: DTLZ8, DTLZ9, computeFitness8, findMin2SumForDTLZ8"]}
{"id": "C76", "title": "DTLZ5 and DTLZ6 lie on a sphere in the positive orthant", "statement": "The squared objectives sum to (1+g)^2 and, on the unit cube, no objective is negative.", "quantifier": "all numbers of objectives >= 2, all points of the unit cube", "why_tests_cant": "infinite domain, any dimension", "anchors": ["HeuristicFlow/src/EAGlobal/MOFunctions.hpp: DTLZ5, DTLZ6"]}
{"id": "C77", "title": "Kursawe uses every variable", "statement": "The value for n variables is the documented sum over all n variables.", "quantifier": "all vectors", "why_tests_cant": "infinite domain, any dimension", "anchors": ["HeuristicFlow/src/EAGlobal/MOFunctions.hpp: Kursawe"]}
{"id": "C78", "title": "Schaffer2 and Viennet are the documented piecewise and quadratic functions", "statement": "Schaffer2 agrees with the textbook definition; Viennet's first objective is >= 0 (0 at the origin only), the second is the documented one, >= 15, the third is >= -0.1 (there at the origin only).", "quantifier": "all real points", "why_tests_cant": "infinite domain", "anchors": ["HeuristicFlow/src/EAGlobal/MOFunctions.hpp: Schaffer2 (MOFunctions12), viennet"]}
{"id": "C79", "title": "NSGA-III keeps the better layers and fills up by the niching rule", "statement": "A selection of NSGA-III keeps everybody with less than n dominators, for some n; when these are too few it adds individuals with exactly n dominators one at a time, each from a reference line with the smallest niche count among the candidates left (counting everybody selected so far), the nearest one if the niche is still empty. Everybody is counted at the reference line nearest to its normalised fitness.", "quantifier": "all populations, fitness values, reference points, sorting tie orders, hash orders and random draws", "why_tests_cant": "all populations, tie orders and draws; the rule is about every intermediate state", "anchors": ["HeuristicFlow/src/Genetic/NSGA3Abstract.hpp: __impl_select, normalize, findNearest, associate, nichePreservation, findMinSet"]}
{"id": "C80", "title": "Elitist selections keep the best", "statement": "After Truncation nobody eliminated is better than a survivor; EliteReserved eliminates an individual only if eliteNum individuals that are not worse survive.", "quantifier": "all populations, fitness functions, directions, tie orders and draws", "why_tests_cant": "all tie orders and draws", "anchors": ["HeuristicFlow/src/Genetic/SOGASelecters.hpp: Truncation, EliteReserved"]}
{"id": "C81", "title": "Wheel selections spin a wheel without replacement", "statement": "RouletteWheel, Boltzmann, ExponentialRank, Probability and the non-elite part of EliteReserved keep exactly those individuals that come off a wheel spun once per survivor, whose sectors are the documented weights (distance from the worst; exp(strength*fitness); base^rank; p^K (1-p)^(n-K)) of the individuals still on it.", "quantifier": "all populations, fitness functions, directions, tie orders and draws", "why_tests_cant": "all draws; a test sees one random outcome", "anchors": ["HeuristicFlow/src/Genetic/SOGASelecters.hpp: RouletteWheel, Boltzmann, ExponentialRank, Probability, EliteReserved"]}
{"id": "C82", "title": "Selection pressure favours better individuals", "statement": "On every wheel the probability that an individual is hit in one spin is its share of the wheel, and a better individual has a larger sector than a worse one.", "quantifier": "all populations and fitness functions, uniform draws", "why_tests_cant": "a statement about probabilities and all populations", "anchors": ["HeuristicFlow/src/Genetic/SOGASelecters.hpp: RouletteWheel, Boltzmann, ExponentialRank, Probability"]}
{"id": "C83", "title": "StochasticUniversal guarantees and MonteCarlo blindness", "statement": "StochasticUniversal always keeps an individual that makes up at least 1/K of the total distance from the worst; MonteCarlo's survivors do not depend on fitness values or direction.", "quantifier": "all populations, fitness functions, directions and draws", "why_tests_cant": "all draws", "anchors": ["HeuristicFlow/src/Genetic/SOGASelecters.hpp: StochasticUniversal, MonteCarlo"]}
{"id": "C84", "title": "LinearRank chooses with probability proportional to rank", "statement": "In LinearRank selection the chance of surviving decreases linearly from the best rank to the worst, between the two configured probabilities.", "quantifier": "all populations, settings and draws", "why_tests_cant": "a statement about probabilities", "anchors": ["HeuristicFlow/src/Genetic/SOGASelecters.hpp: LinearRank"]}
{"id": "C85", "title": "NSGA-III normalisation removes the units of the objectives", "statement": "Multiplying every objective by a positive factor and adding an offset does not change the normalised fitness of anybody, hence not the niching.", "quantifier": "all fitness values, factors and offsets", "why_tests_cant": "infinite domain of inputs and scales", "anchors": ["HeuristicFlow/src/Genetic/NSGA3Abstract.hpp: normalize, isSingular, extremePoints2Intercept"]}
{"id": "C86", "title": "The random member of a niche is drawn uniformly", "statement": "When the niche of the chosen reference point is already occupied, each of its n candidates is picked with probability 1/n.", "quantifier": "all niches of any size, uniform independent draws", "why_tests_cant": "a statement about probabilities for every size", "anchors": ["HeuristicFlow/src/Genetic/NSGA3Abstract.hpp: nichePreservation"]}
{"id": "C87", "title": "sign, square and gaussianCurve are what their names say", "statement": "sign(x) is 1, 0, -1 exactly for positive, zero, negative x and x = sign(x)|x|; square(x) is x^2; gaussianCurve(.,mu,sigma) is the density of the normal distribution (area 1).", "quantifier": "all numbers", "why_tests_cant": "infinite domain", "anchors": ["HeuristicFlow/src/Global/HeuMaths.hpp: sign, square, gaussianCurve"]}
{"id": "C88", "title": "A multi-objective run ends with a full population and a usable Pareto front", "statement": "run() of NSGA2 and NSGA3 (populationSize >= 1) returns, leaves exactly populationSize evaluated individuals, paretoFront() then reads only living individuals and returns exactly the objective vectors of the non-dominated ones, and bestFitness() is the ideal point of that population.", "quantifier": "all fitness functions, operators, draws, tie-breaks of std::sort, iteration orders of the hash set, numbers of generations", "why_tests_cant": "infinitely many histories; dangling pointers show up only for particular ones", "anchors": ["HeuristicFlow/src/Genetic/GABase.hpp: run", "HeuristicFlow/src/Genetic/NSGA2.hpp: __impl_select", "HeuristicFlow/src/Genetic/NSGA3Abstract.hpp: __impl_select", "HeuristicFlow/src/Genetic/MOGAAbstract.hpp: paretoFront, initializePop"]}
{"id": "C89", "title": "maxFailTimes stops a stagnating run", "statement": "With maxFailTimes > 0 a run ends once the result has not improved for more than maxFailTimes generations.", "quantifier": "all runs", "why_tests_cant": "quantifies over all histories", "anchors": ["HeuristicFlow/src/Genetic/GAOption.hpp: maxFailTimes", "HeuristicFlow/src/Genetic/GABase.hpp: run"]}
{"id": "C90", "title": "Multi-objective runs never lose ground", "statement": "Whoever dominates a survivor survives; everybody ever evaluated is matched or dominated by a member of every front reported later; no objective of the record ever gets worse.", "quantifier": "all runs, all generations", "why_tests_cant": "quantifies over all histories", "anchors": ["HeuristicFlow/src/Genetic/NSGA2.hpp: __impl_select", "HeuristicFlow/src/Genetic/NSGA3Abstract.hpp: __impl_select"]}
{"id": "C91", "title": "NSGA-II preserves the best of each objective", "statement": "The individual with the best value in some objective is never eliminated.", "quantifier": "all candidate populations and tie-breaks", "why_tests_cant": "infinite domain", "anchors": ["HeuristicFlow/src/Genetic/NSGA2.hpp: __impl_select"]}
{"id": "C92", "title": "Pareto dominance is well behaved on every pair of floating-point vectors", "statement": "For arbitrary doubles (signed zeros, infinities, NaN included) 'A dominates B' says exactly: no entry is NaN, A is nowhere worse and somewhere better. It is irreflexive, asymmetric and transitive; a vector with a NaN neither dominates nor is dominated.", "quantifier": "all pairs and triples of fitness vectors of doubles", "why_tests_cant": "uncountably/2^64m many values; NaN cases are rarely tested", "anchors": ["HeuristicFlow/src/EAGlobal/Pareto.hpp: isStrongDominate"]}
{"id": "C93", "title": "NSGA-II selection is correct with real floating-point numbers", "statement": "With rounding, select() of NSGA2 is defined for all finite fitness values below 2^1023, keeps exactly populationSize candidates, keeps every dominator of a survivor, reports a front of non-dominated survivors, and prefers fewer dominators, then larger (rounded) crowding.", "quantifier": "all populations, doubles, tie-breaks of std::sort", "why_tests_cant": "infinite domain; unspecified sort order", "anchors": ["HeuristicFlow/src/Genetic/NSGA2.hpp: __impl_select, compareByCongestion", "HeuristicFlow/src/Genetic/NSGABase.hpp: calculateDominatedNum"]}
{"id": "C94", "title": "NSGA-II selection is defined for every double a fitness function can return", "statement": "select() of NSGA2 has no undefined behaviour whatever the fitness function returns, including infinities (penalties), NaN and very large numbers.", "quantifier": "all populations and doubles", "why_tests_cant": "a test run that happens not to crash shows nothing about undefined behaviour", "anchors": ["HeuristicFlow/src/Genetic/NSGA2.hpp: __impl_select"]}
{"id": "C95", "title": "Particle swarm with floating-point fitness reports the best position visited", "statement": "For a fitness function returning doubles but never NaN the reported best (and each particle's own best) carries the fitness of its position, was visited, and nothing better was visited up to then; a NaN at the first particle's starting position makes the solver report that position for ever.", "quantifier": "all fitness functions, swarms, draws, numbers of generations", "why_tests_cant": "all histories", "anchors": ["HeuristicFlow/src/PSO/PSO4Eigen.hpp: __impl_updatePGBest", "HeuristicFlow/src/PSO/PSOAbstrcat.hpp: initializePop"]}
{"id": "C96", "title": "Selection in SOGA is correct with real floating-point numbers", "statement": "With rounding, and with infinities among the fitness values, whatever a selection method returns consists of copies of members, reports a living best that no survivor beats, counts fruitless generations correctly, and has exactly min(populationSize, n) members.", "quantifier": "all ten methods, populations, doubles but NaN, draws, parameters", "why_tests_cant": "infinite domain; rounding depends on every value", "anchors": ["HeuristicFlow/src/Genetic/SOGASelecters.hpp: all SOGASelector specialisations", "HeuristicFlow/src/Genetic/SOGA.hpp: findCurrentBestGene, updateFailTimesAndBestGene"]}
{"id": "C97", "title": "Selection in SOGA returns whatever doubles the fitness function produces", "statement": "No selection method loops for ever or has undefined behaviour, for any fitness values: huge, infinite (penalties) or NaN.", "quantifier": "all methods, populations, doubles, draws", "why_tests_cant": "non-termination and undefined behaviour cannot be excluded by runs that end", "anchors": ["HeuristicFlow/src/Genetic/SOGASelecters.hpp: RouletteWheel, Probability, LinearRank, ExponentialRank, Boltzmann, EliteReserved, Truncation"]}
{"id": "C98", "title": "Boltzmann selection prefers the better individuals for fitness values of every magnitude", "statement": "With the default selection strength a better individual is never dropped with certainty while a worse one is kept with certainty.", "quantifier": "all populations, fitness magnitudes, draws", "why_tests_cant": "magnitudes tried in tests are small", "anchors": ["HeuristicFlow/src/Genetic/SOGASelecters.hpp: SOGASelector<Boltzmann>"]}
{"id": "C99", "title": "A NaN is never reported as the best result while a survivor has a number", "statement": "bestGene()/result() carries a number whenever at least one individual of the population has one.", "quantifier": "all methods, populations, positions of NaN", "why_tests_cant": "depends on the position of the NaN in the list", "anchors": ["HeuristicFlow/src/Genetic/SOGA.hpp: findCurrentBestGene"]}
