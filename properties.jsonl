{"id": "C01", "title": "GA population size is rounded up to the next multiple of four", "statement": "For every requested population size n >= 1 the optimizer works with the least multiple of four that is >= n (so never with fewer members than requested and with at most three more); for every n <= 0 construction fails with an assertion.", "quantifier": "all integers n passed as nPop", "why_tests_cant": "There are infinitely many n and four residue classes interacting with two successive corrections; a sample of n cannot exclude an off-by-two in a residue class.", "anchors": ["src/sigmaepsilon/math/optimize/ga.py: GeneticAlgorithm.__init__ (lines 202-207), even, odd"]}
{"id": "C02", "title": "Random pairing uses every parent exactly once", "statement": "random_parents_generator over an even number n of genotypes yields exactly n/2 pairs, and every genotype position occurs in exactly one pair, whatever the random draws are.", "quantifier": "all even n and all sequences of random draws without replacement", "why_tests_cant": "A pairing that repeats a parent only for some shuffles and some sizes passes every seeded run that does not hit them; the claim is about all permutations the generator may draw.", "anchors": ["src/sigmaepsilon/math/optimize/ga.py: GeneticAlgorithm.random_parents_generator (577-607)"]}
{"id": "C03", "title": "Every generation has exactly nPop members", "statement": "Each population produced by the binary GA - the initial one and the one after any number of evolution cycles - has exactly nPop members of dim*length bits, and producing it never raises, for every valid parameter set and every sequence of random draws.", "quantifier": "all valid (nPop, elitism, dim, length), all objective functions, all random draws, any number of cycles", "why_tests_cant": "Whether the numbers of elite, parents and children add up to nPop depends on the elitism, on the parity of the halves and on the draws; tests run one or two settings with one seed.", "anchors": ["src/sigmaepsilon/math/optimize/bga.py: populate (85-110), select (168-194)", "src/sigmaepsilon/math/optimize/ga.py: divide (538-574), evolver (380-390)"]}
{"id": "C04", "title": "The elite survives and the best of the population never gets worse", "statement": "With an integer elitism k >= 1 the k best members of a generation are members of the next generation, hence the best objective value present in the population is monotone over cycles (non-decreasing when maximizing, non-increasing when minimizing).", "quantifier": "all objective functions, all k >= 1 accepted by the constructor, both directions, all random draws, any number of cycles", "why_tests_cant": "A seeded run improves in almost any implementation. That no sequence of draws ever loses the best member is an invariant over all runs of any length.", "anchors": ["src/sigmaepsilon/math/optimize/ga.py: divide (538-574)", "src/sigmaepsilon/math/optimize/bga.py: select (168-194), populate (85-110)"]}
{"id": "C05", "title": "The champion is the best individual seen since the last reset", "statement": "After any number of evolution cycles the champion is one of the individuals evaluated since the last reset, no individual evaluated since then is strictly better, its fitness is monotone over cycles, and state.x / state.fun always mirror the champion.", "quantifier": "all objective functions, all population histories, both optimization directions, any number of cycles", "why_tests_cant": "The champion is kept across cycles, resets and changes of the population; a champion that is off by one cycle still looks plausible at the end of a run, and only an invariant over all histories rules it out.", "anchors": ["src/sigmaepsilon/math/optimize/ga.py: best_candidate (501-519), _celebrate (521-536), evolve (392-401)"]}
{"id": "C06", "title": "The champion's age counts its consecutive cycles at the top", "statement": "After every evolution cycle the age of the champion is the number of consecutive cycles, the present one included, that ended with this champion at the top; ties never dethrone a champion.", "quantifier": "all histories of best candidates of any length", "why_tests_cant": "Age is a function of the whole history; only an induction over the number of cycles covers it.", "anchors": ["src/sigmaepsilon/math/optimize/ga.py: _celebrate (521-536), stopping_criteria (609-620)"]}
{"id": "C07", "title": "solve() terminates within the iteration limits and reports why", "statement": "solve() performs at least max(1, miniter) and at most max(1, maxiter) iterations, it stops after miniter as soon as the stopping criterion holds, and the reported stage is MAX_ITERATIONS_REACHED exactly if the iteration count reached maxiter and CONVERGED otherwise.", "quantifier": "all miniter <= maxiter, all behaviours of the stopping criterion over time, with and without recycling", "why_tests_cant": "Termination within a bound has to hold for every behaviour of a user-overridable stopping criterion.", "anchors": ["src/sigmaepsilon/math/optimize/ga.py: solve (403-459)"]}
{"id": "C08", "title": "Function evaluations are counted exactly", "statement": "After any number of cycles since the last reset the reported number of objective evaluations equals nPop times the number of cycles: each generation is evaluated once and only once, no matter how often fitness, best_candidate or select consult the values.", "quantifier": "all interleavings of reads of fitness and evolution cycles", "why_tests_cant": "Caching bugs show only under particular interleavings of reads and population updates.", "anchors": ["src/sigmaepsilon/math/optimize/ga.py: genotypes setter (256-263), fitness (277-287), evaluate (461-487)"]}
{"id": "C09", "title": "Decoded phenotypes form the uniform grid over the ranges", "statement": "Decoding a bit string of length L per variable yields lo + v*(hi-lo)/(2^L-1) with v the little-endian value of the bits; so every phenotype lies in its range, the all-zero and all-one chromosomes hit the two ends, and for lo < hi different chromosomes decode to different phenotypes.", "quantifier": "all L >= 1, all dimensions, all ranges and all bit strings", "why_tests_cant": "There are 2^L chromosomes for each variable and all real ranges; tests look at a few bit strings, where an error in the weight of one bit or in the step of the grid is hidden by a tolerance.", "anchors": ["src/sigmaepsilon/math/optimize/bga.py: decode (112-127)"]}
{"id": "C10", "title": "Crossover and mutation only recombine and flip bits", "statement": "For every set of cut positions and every random draw, at each position the two unmutated children carry the two parental bits, one each (no allele is lost or invented), mutation flips exactly the bits whose draw is <= p_m, and the result is again a 0/1 string of the same length.", "quantifier": "all parents, all cut sets, all draws, all p_c and p_m", "why_tests_cant": "The number of sets of cuts and of draws is exponential in the length of the genotype; a child that loses a bit at an end of a segment shows up only for special cuts.", "anchors": ["src/sigmaepsilon/math/optimize/bga.py: crossover (129-159), mutate (161-166)"]}
{"id": "C11", "title": "Selection returns members of the population and is elitist", "statement": "select() returns max(|elite|, nPop/2) members of the present population, the elite first; divide() splits the population into elite and others without loss or overlap and no member of the others is strictly better than a member of the elite; a tournament winner is the best of its three candidates.", "quantifier": "all fitness vectors, elite sizes, both directions, all random draws", "why_tests_cant": "The split depends on ties, on the sign of the objective and on the elitism (number, fraction or none); a test with distinct fitness values and one seed meets none of the doubtful cases.", "anchors": ["src/sigmaepsilon/math/optimize/ga.py: divide (538-574)", "src/sigmaepsilon/math/optimize/bga.py: select (168-194)"]}
{"id": "C12", "title": "A failing objective leaves an honest error record", "statement": "If anything inside the iteration raises, solve() re-raises it, state.success is False, the message is recorded and state.stage is ERROR; if nothing raises, success is True and the stage is a termination code. The stage is set whatever happens.", "quantifier": "all points of the run at which an exception can occur", "why_tests_cant": "The crash point is arbitrary; a test picks one.", "anchors": ["src/sigmaepsilon/math/optimize/ga.py: solve (428-457)", "src/sigmaepsilon/math/optimize/state.py: OptimizerState"]}
{"id": "C13", "title": "Rejected solution parameters do not change the optimizer", "statement": "If set_solution_params raises, the parameters in force are those before the call; if it returns, exactly the given parameters have changed and they are valid (elitism positive, an integer below nPop if above one; miniter <= maxiter).", "quantifier": "all parameter records and all keyword arguments", "why_tests_cant": "All combinations of present/absent keywords and values, including those that pass some checks and fail a later one.", "anchors": ["src/sigmaepsilon/math/optimize/ga.py: set_solution_params (322-378)"]}
{"id": "C14", "title": "All documented elitism settings work", "statement": "Every documented elitism setting - None, a fraction in (0,1], an integer between 1 and nPop-1 - lets the binary GA produce the next generation.", "quantifier": "all populations, all documented settings", "why_tests_cant": "Needs the failing setting to be exercised; the domain of settings times populations is infinite.", "anchors": ["src/sigmaepsilon/math/optimize/ga.py: divide (561-574)", "src/sigmaepsilon/math/optimize/bga.py: select (187-194), populate (99-108)"]}
{"id": "C15", "title": "Genom comparison is a total preorder by fitness, equality and hash agree", "statement": "For any genoms: > and < are converse, >= is the negation of <, the order is total and transitive; equality is an equivalence decided by genotype and equal genoms have equal hash keys.", "quantifier": "all genoms (finite fitness)", "why_tests_cant": "Transitivity and consistency with hashing are statements about all pairs and triples, with equal fitness and different genotypes and the other way round.", "anchors": ["src/sigmaepsilon/math/optimize/ga.py: Genom (27-80)"]}
{"id": "C16", "title": "The LP translation has exactly the feasible set of the constraints", "statement": "A point satisfies every given constraint (equalities and non-strict inequalities) if and only if it satisfies A_eq x = b_eq and A_ub x <= b_ub as passed to the solver; for strict inequalities the translated system is at least as strong as the constraint.", "quantifier": "all linear constraint lists of any length, any number of variables, all points", "why_tests_cant": "Feasibility is about all points and all constraint mixes; tests compare a few optima.", "anchors": ["src/sigmaepsilon/math/optimize/lp.py: _to_scipy (188-300)"]}
{"id": "C17", "title": "The LP objective keeps its optimizers and its value", "statement": "Minimizing c.x over a set has the same minimizers as minimizing the objective, with maximize=True those maximizing it; res.fun is the objective value at res.x including its constant term.", "quantifier": "all linear objectives (with constant), all feasible sets, both directions", "why_tests_cant": "A sign that is lost when maximizing or a constant term that is dropped only shows for objectives with these features; equality of the sets of optimizers is a statement about all feasible points.", "anchors": ["src/sigmaepsilon/math/optimize/lp.py: _to_scipy (197-200), solve (302-330)"]}
{"id": "C18", "title": "The sparse and the dense LP path pass the same matrices", "statement": "With sparsify on or off, the matrices and right hand sides handed to the solver are entry-wise equal.", "quantifier": "all problems", "why_tests_cant": "The two paths build their matrices by different code; that they agree entry by entry for all constraints, including repeated and empty rows, cannot be sampled.", "anchors": ["src/sigmaepsilon/math/optimize/lp.py: _to_scipy (207-283)"]}
{"id": "C19", "title": "LP rows and integrality flags follow the given order", "statement": "Row i of A_eq / A_ub belongs to the i-th equality / inequality in the given order, column j to the j-th variable; integrality is 1 exactly for variables assumed integer, and is left unset if none is or a value was given explicitly.", "quantifier": "all constraint lists and variable lists", "why_tests_cant": "The order of rows and columns comes out of dictionaries and filters; tests with symmetric or sorted problems cannot tell one order from another.", "anchors": ["src/sigmaepsilon/math/optimize/lp.py: _to_scipy (193-298)"]}
{"id": "C20", "title": "Relation strings are split at their operator", "statement": "parse_expression returns (lhs, op, rhs) for every string made of a non-blank left side and a non-blank right side free of operator characters and line breaks around one of <=, >=, <, >, = with any blanks around; the sides are stripped. It raises on every string without operator and on every string with more than one.", "quantifier": "all strings", "why_tests_cant": "The parser is a backtracking regular expression; the claim is about all strings.", "anchors": ["src/sigmaepsilon/math/function/utils.py: parse_expression (6-41), has_operator (44-59)"]}
{"id": "C21", "title": "A relation built from 'lhs op rhs' decides lhs op rhs", "statement": "For a relation built from a string, relate(x) is True if and only if lhs(x) op rhs(x); the class of the object is Equality for '=' and InEquality for the four others, and the object's operator is the one in the string.", "quantifier": "all expression strings over numbers, variables, + - * / and parentheses, all points", "why_tests_cant": "The right hand side is glued into a new string and parsed again; precedence errors only show for particular expressions.", "anchors": ["src/sigmaepsilon/math/function/relation.py: Relation.__new__ (82-125), __init__ (127-165), relate (190-194)"]}
{"id": "C22", "title": "Constraints given with a callable operator are honoured by the LP", "statement": "Each constraint accepted by LinearProgrammingProblem restricts the feasible set handed to the solver the way relate() does, also when its operator was given as a callable.", "quantifier": "all constraint lists, all operator specifications accepted by Relation", "why_tests_cant": "Requires all ways to specify the operator, combined with all classes.", "anchors": ["src/sigmaepsilon/math/function/relation.py: Relation.__new__, __init__", "src/sigmaepsilon/math/optimize/lp.py: _to_scipy (193-194, 257-265)"]}
{"id": "C23", "title": "Substitution of numbers commutes with evaluation", "statement": "Substituting numbers for variables and evaluating gives the value of the original expression at the merged point, whatever the order of the variables.", "quantifier": "all expressions, all substitutions", "why_tests_cant": "Expressions are trees of any depth and the variables may be given in any order; a test of one expression in its natural order cannot see a permuted argument.", "anchors": ["src/sigmaepsilon/math/function/symutils.py: substitute (65-97)", "src/sigmaepsilon/math/function/function.py: subs (343-366)"]}
{"id": "C24", "title": "Listed optima of the test functions are global optima", "statement": "For every listed optimum of Rosenbrock, Himmelblau, Goldstein-Price, Beale and Matyas no point has a smaller value.", "quantifier": "all points of the plane, all Rosenbrock parameters b > 0 and a", "why_tests_cant": "A statement about all real points.", "anchors": ["src/sigmaepsilon/math/function/functions.py"]}
{"id": "C25", "title": "linsolve solves the system with prescribed unknowns", "statement": "If linsolve (Jordan or Gauss-Jordan) returns (X, R) then X equals the prescribed values at the prescribed equations, R is zero elsewhere and A X = B + R, for any number of right hand sides.", "quantifier": "all sizes, all matrices over the rationals/reals (exact arithmetic), all sets of prescribed unknowns, all numbers of right hand sides", "why_tests_cant": "Prescribed unknowns may be any subset, and rows are permuted by pivoting; tests solve one small system, where a wrong row of the reactions can be zero by accident.", "anchors": ["src/sigmaepsilon/math/linalg/solve.py: linsolve, _Jordan, _GaussJordan, backsub"]}
{"id": "C26", "title": "linsolve reports singular systems and only those", "statement": "linsolve raises LinAlgError if the matrix is singular and returns the solution if it is not.", "quantifier": "all square matrices", "why_tests_cant": "All matrices, including those that need pivoting and those whose rank deficiency shows in the last pivot.", "anchors": ["src/sigmaepsilon/math/linalg/solve.py: _Jordan (pivot check), _GaussJordan (pivot check)"]}
{"id": "C27", "title": "CSR storage represents the same matrix", "statement": "Converting a dense 2d array to the CSR class and back returns the array; row(i) and irow(i) list exactly the stored entries of row i; eye(n) is the identity.", "quantifier": "all matrices of all shapes", "why_tests_cant": "The pattern of zeros is arbitrary: empty rows, rows at the end, stored zeros. There are 2^(nm) patterns, of which tests use a few random ones.", "anchors": ["src/sigmaepsilon/math/linalg/sparse/csr.py: csr_matrix"]}
{"id": "C28", "title": "A jagged array converted to CSR is the zero padded matrix", "statement": "to_csr of a jagged array has one row per row, as many columns as the widest row, the row's values in order, and zeros behind them.", "quantifier": "all jagged arrays with at least one row", "why_tests_cant": "Lengths of rows are arbitrary, empty ones included; a wrong offset shows only if a short row is followed by a longer one.", "anchors": ["src/sigmaepsilon/math/linalg/sparse/jaggedarray.py: to_csr", "src/sigmaepsilon/math/linalg/sparse/csr.py: init2d_jagged helpers"]}
{"id": "C29", "title": "Jagged arrays round-trip through flat data and cuts", "statement": "Building from flat data and cuts and flattening again returns the data and the cuts; widths, size, shape and is_jagged agree with the rows; vertical stacking appends the rows.", "quantifier": "all data and cuts with sum(cuts) = len(data)", "why_tests_cant": "The cuts are an arbitrary composition of the length of the data, and equal widths switch to another backend; tests use one or two compositions.", "anchors": ["src/sigmaepsilon/math/linalg/sparse/jaggedarray.py: JaggedArray"]}
{"id": "C30", "title": "Lower and upper parts of sparse triplets", "statement": "lower_spdata and upper_spdata keep, in order and aligned over data, rows and cols, exactly the entries on or below / on or above the diagonal, so every entry is kept by at least one and by both exactly if it is diagonal.", "quantifier": "all triplet arrays of any length", "why_tests_cant": "Alignment of three arrays after filtering is a statement about all triplets, with repeated and unsorted entries.", "anchors": ["src/sigmaepsilon/math/linalg/sparse/utils.py: lower_spdata, upper_spdata"]}
{"id": "C31", "title": "unique2d decomposes and reconstructs the array", "statement": "For every integer 2d array (regular or jagged): the unique array is strictly increasing and has exactly the values present; unique[inverse] is the array; counts are the numbers of occurrences; the index list of a value lists exactly its positions in row-major order.", "quantifier": "all integer arrays of all shapes", "why_tests_cant": "Four outputs have to fit to each other for all arrangements of equal values; tests with few values check each output on its own.", "anchors": ["src/sigmaepsilon/math/arraysetops.py: unique2d, _unique1d_njit, _unique2d_njit"]}
{"id": "C32", "title": "Clipping lands in the interval and moves nothing else", "statement": "clip1d with a_min <= a_max returns values within [a_min, a_max], leaves values already inside unchanged, is idempotent and monotone.", "quantifier": "all arrays and bounds", "why_tests_cant": "Monotonicity and idempotence are statements about all pairs of values, and the result depends on whether the array holds integers.", "anchors": ["src/sigmaepsilon/math/utils.py: clip1d (46-72)"]}
{"id": "C33", "title": "Flattening, repeating and tiling place every element where documented", "statement": "flatten2dC / flatten2dF put a[i,j] at i*J+j / j*I+i; repeat1d, tile1d, repeat, tile, repeat_diagonal_2d, bool_to_float and bin_centers put the documented value in each cell.", "quantifier": "all shapes, repetition counts and values", "why_tests_cant": "A formula with rows and columns swapped is right for square arrays, for one row and for symmetric data, which are what tests use; the claim is about every cell for all shapes.", "anchors": ["src/sigmaepsilon/math/utils.py: flatten2dC, flatten2dF, repeat, repeat1d, tile, tile1d, repeat_diagonal_2d", "src/sigmaepsilon/math/hist.py: bin_centers"]}
{"id": "C34", "title": "Parallel kernels do not depend on the schedule", "statement": "The kernels compiled with parallel loops return the same array for every order in which the loop iterations are executed.", "quantifier": "all inputs and all permutations of the parallel iterations", "why_tests_cant": "Schedules cannot be enumerated by tests and races are not reproducible.", "anchors": ["src/sigmaepsilon/math/utils.py: repeat, repeat1d, tile, tile1d, repeat_diagonal_2d, _to_range_1d_, count_cols, find1d", "src/sigmaepsilon/math/hist.py: bin_centers"]}
{"id": "C35", "title": "Range mapping is the affine bijection of the intervals", "statement": "to_range_1d maps the ends of the source interval to the ends of the target interval, is affine, maps the source interval into the target interval, and mapping back restores every value.", "quantifier": "all values and all nondegenerate intervals", "why_tests_cant": "The round trip and the bounds are identities for all intervals, including those with a negative or tiny length; tests compare with a tolerance on one interval.", "anchors": ["src/sigmaepsilon/math/utils.py: to_range_1d (498-524)"]}
{"id": "C36", "title": "Index search returns the first position", "statement": "find1d / find2d return for every element the first index of an equal element in the search space and raise if there is none.", "quantifier": "all arrays", "why_tests_cant": "That it is the first of several equal elements, and what happens if there is none, depends on the order of a parallel loop and on repeated values, which tests avoid.", "anchors": ["src/sigmaepsilon/math/utils.py: find1d (527-533), find2d (536-543)"]}
{"id": "C37", "title": "Equal rows are found independently of dtype and shape", "statement": "indices_of_equal_rows returns the pairs (i, j) with x[i] == y[j] (up to tol), for integer and float data and for equal and different numbers of rows alike.", "quantifier": "all pairs of arrays with equal numbers of columns", "why_tests_cant": "The result depends on dtype, on tolerances and on whether the numbers of rows agree; tests take one combination, with few rows that are equal.", "anchors": ["src/sigmaepsilon/math/utils.py: indices_of_equal_rows (384-425)"]}
{"id": "C38", "title": "CSR column counting", "statement": "count_cols_csr(indptr, indices) returns for each row of the matrix the number of its stored entries.", "quantifier": "all valid CSR index structures", "why_tests_cant": "Empty rows and matrices without entries are the cases where differences of pointers and counting of entries part; the claim is about all pointers.", "anchors": ["src/sigmaepsilon/math/utils.py: count_cols_csr (441-467)"]}
{"id": "C39", "title": "Shape promotion adds unit axes only", "statement": "atleastnd returns an array of dimension max(n, ndim) with the same elements in the same order, only unit axes being added in front or behind; matrixform turns 1d data into a column.", "quantifier": "all shapes and n", "why_tests_cant": "Shapes are unbounded lists and the axes may be added in front or behind; tests go up to three or four axes.", "anchors": ["src/sigmaepsilon/math/utils.py: atleastnd (75-116), matrixform (147-169)"]}
{"id": "C40", "title": "A rooted level structure is the partition by graph distance", "statement": "For a connected graph rooted_level_structure terminates, level k holds exactly the nodes at distance k from the root in increasing order, and the levels partition the nodes.", "quantifier": "all finite graphs given by CSR adjacency, all roots", "why_tests_cant": "All graphs; termination cannot be tested.", "anchors": ["src/sigmaepsilon/math/graph/utils.py: rooted_level_structure (13-57)"]}
{"id": "C41", "title": "The pseudo-peripheral search terminates at a local optimum", "statement": "pseudo_peripheral_nodes terminates on every connected graph and returns the last level of a level structure followed by its root, such that the structure is at least as deep as the one from node 0 and no node of its last level has a deeper structure or an equally deep, narrower one.", "quantifier": "all finite connected graphs", "why_tests_cant": "Termination of an unbounded while loop over all graphs.", "anchors": ["src/sigmaepsilon/math/graph/utils.py: pseudo_peripheral_nodes (60-102)"]}
{"id": "C42", "title": "Changing frames does not change the vector or tensor", "statement": "Reassigning the frame of a vector or second order tensor, reassigning the axes of a frame that tensors are attached to, or multiplying / adding in place to the axes of a frame changes components only: the ambient representation of every attached tensor stays the same.", "quantifier": "all sequences of such operations on any collection of frames and tensors, all regular axes", "why_tests_cant": "It is an invariant of a mutable object graph over all operation sequences.", "anchors": ["src/sigmaepsilon/math/linalg/frame.py: axes setter, inplace_binary", "src/sigmaepsilon/math/linalg/abstract.py / meta.py: frame setter, show", "src/sigmaepsilon/math/linalg/vector.py, tensor.py: show"]}
{"id": "C43", "title": "Showing components composes and round-trips", "statement": "Showing a vector or tensor in frame B and reading the result back from B in A restores the components; going through an intermediate frame gives the same as going directly; dcm(source=S) of T and dcm(target=T) of S agree.", "quantifier": "all frames of all dimensions, all components", "why_tests_cant": "Orthonormal frames, used in tests, hide a transposed matrix in place of an inverse; the claim is about all regular frames and all chains of frames.", "anchors": ["src/sigmaepsilon/math/linalg/frame.py: dcm", "src/sigmaepsilon/math/linalg/vector.py: show", "src/sigmaepsilon/math/linalg/tensor.py: show"]}
{"id": "C44", "title": "Dual frames are reciprocal and involutive", "statement": "The dual frame is biorthogonal to the frame, the dual of the dual is the frame, Gram matrices of the two are inverse to each other and the volumes are reciprocal.", "quantifier": "all frames with independent axes", "why_tests_cant": "For orthonormal frames the dual frame is the frame itself, so tests with such frames accept a function that returns its argument; the identities are about all regular frames.", "anchors": ["src/sigmaepsilon/math/linalg/frame.py: dual, Gram, volume", "src/sigmaepsilon/math/linalg/utils.py: dual_frame, Gram"]}
{"id": "C45", "title": "Inner products do not depend on the frames of the arguments", "statement": "dot of two vectors, of a tensor and a vector, of a vector and a tensor, and of two second order tensors represents the ambient product (x.y, Ax, xA, AB) whatever the frames of the arguments are.", "quantifier": "all frames, all components", "why_tests_cant": "For orthonormal frames all ways to contract components agree. That the result is the same for all pairs of skew frames is an identity in all entries of both.", "anchors": ["src/sigmaepsilon/math/linalg/utils.py: dot"]}
{"id": "C46", "title": "Cross products do not depend on the frames of the arguments", "statement": "cross of two vectors represents the ambient cross product whatever the frames of the arguments are.", "quantifier": "all frames in 3d, all components", "why_tests_cant": "Cross products of components agree with those of vectors for rotated orthonormal frames only; which frames are right is a statement about all matrices.", "anchors": ["src/sigmaepsilon/math/linalg/utils.py: cross"]}
{"id": "C47", "title": "Tensor arithmetic is frame independent and consistent in place", "statement": "a + b and a - b represent the sum and difference of what a and b represent; scaling likewise; in place operators give the same as the binary ones, and x += s followed by x -= s restores x.", "quantifier": "all frames and components, all scalars", "why_tests_cant": "Operands may be in different frames, of different order, and one of them a number; tests add tensors of one frame, where a missing transformation does not matter.", "anchors": ["src/sigmaepsilon/math/linalg/abstract.py: __add__, __sub__, __iadd__, __isub__, __mul__, __truediv__"]}
{"id": "C48", "title": "Copies represent the same object", "statement": "v.copy(), v.deepcopy(), copy.copy(v) and copy.deepcopy(v) represent the same vector or tensor as v.", "quantifier": "all vectors and tensors in all frames", "why_tests_cant": "Copies are compared right after they are made. Whether copy and original represent the same object in every frame, and after which of the four ways to copy, ranges over all frames.", "anchors": ["src/sigmaepsilon/math/linalg/vector.py: copy, deepcopy", "src/sigmaepsilon/math/linalg/tensor.py: copy, deepcopy", "src/sigmaepsilon/math/linalg/abstract.py / meta.py: __copy__, __deepcopy__"]}
{"id": "C49", "title": "Dedicated tensor transformations equal the general rule", "statement": "The dedicated kernels for vectors, second and fourth order tensors give the multilinear transformation (one factor of the direction cosine matrix per index), and transforming with Q then P equals transforming with PQ.", "quantifier": "all component arrays and matrices", "why_tests_cant": "The kernels are chosen by the shapes of both arguments; a loop with two indices swapped is right for symmetric tensors and for rotations about one axis.", "anchors": ["src/sigmaepsilon/math/linalg/tr.py", "src/sigmaepsilon/math/linalg/tensor.py: transform_components"]}
{"id": "C50", "title": "Frame classes keep their promise", "statement": "A Cartesian frame rotated by an orthogonal matrix stays orthonormal; scaling it gives a rectangular frame; is_rectangular / is_cartesian hold exactly if the Gram matrix is diagonal / the identity; each dual and Gram shortcut of the special classes equals the general formula.", "quantifier": "all frames and operation sequences", "why_tests_cant": "Shortcuts of the special classes agree with the general formulas in special frames only; whether an object of a class can leave it depends on all operations and tolerances.", "anchors": ["src/sigmaepsilon/math/linalg/frame.py: ReferenceFrame, RectangularFrame, CartesianFrame", "src/sigmaepsilon/math/linalg/logical.py"]}
{"id": "C51", "title": "Closed-form inverses and determinants", "statement": "inv2x2, inv2x2u, inv3x3, inv3x3u, inv3x3_bulk and inv3x3_bulk2 return the inverse for every nonsingular matrix, adj3x3 the adjugate, det2x2 / det3x3 the determinant.", "quantifier": "all 2x2 and 3x3 matrices", "why_tests_cant": "The inverse is a rational function of nine entries: a wrong sign in one cofactor vanishes for diagonal and symmetric matrices and at all zeros of the other factors.", "anchors": ["src/sigmaepsilon/math/linalg/utils.py: det2x2, det3x3, inv2x2, inv2x2u, adj3x3, inv3x3, inv3x3u, inv3x3_bulk, inv3x3_bulk2"]}
{"id": "C52", "title": "Least squares reproduces polynomials with derivatives", "statement": "Weighted and moving least squares return exactly the polynomial, its gradient and its Hessian at every point if the data are values of a polynomial of the chosen degree, for any weights for which the moment matrix is regular.", "quantifier": "all point sets, all weights (values and derivatives), dimensions 1, 2 and 3, degrees 1 and 2, any number of records", "why_tests_cant": "Reproduction holds for all polynomials, points, weights and numbers of points; tests fit one polynomial and compare up to a tolerance that also accepts a wrong mixed derivative which is small.", "anchors": ["src/sigmaepsilon/math/approx/ls.py", "src/sigmaepsilon/math/approx/ls_preproc.py", "src/sigmaepsilon/math/approx/ls_approx.py", "src/sigmaepsilon/math/approx/ls_poly.py"]}
{"id": "C53", "title": "Least squares minimizes the weighted error", "statement": "For nonnegative weights the fitted polynomial has the least weighted sum of squared errors among all polynomials of the chosen degree.", "quantifier": "all data sets, all nonnegative weights with regular moment matrix", "why_tests_cant": "Being the minimum is a statement about all competing polynomials, which no test can enumerate.", "anchors": ["src/sigmaepsilon/math/approx/ls_preproc.py", "src/sigmaepsilon/math/approx/ls_approx.py: _mls_f"]}
{"id": "C54", "title": "Polynomial bases and their derivatives match", "statement": "The derivative bases returned for a degree and dimension are the partial derivatives of the monomial basis, and the number of basis functions is the binomial (deg+dim over dim) used to size the moment matrix.", "quantifier": "all points", "why_tests_cant": "A derivative that belongs to another monomial is noticed only by comparing all of them, for each degree and dimension; tests look at sums.", "anchors": ["src/sigmaepsilon/math/approx/ls_poly.py: _get_polynomial", "src/sigmaepsilon/math/approx/ls_preproc.py: k"]}
{"id": "C55", "title": "Cubic weights are nonnegative bumps with matching derivatives", "statement": "The cubic weight lies in [0, (2/3)^dim], is zero outside its support domain and has the reported gradient and Hessian as derivatives.", "quantifier": "all cores, supports and points", "why_tests_cant": "Bounds and derivatives are statements about a continuum of points, including the joints of the pieces, which random points never hit.", "anchors": ["src/sigmaepsilon/math/approx/functions.py: CubicWeightFunction"]}
{"id": "C56", "title": "Lagrange polynomials interpolate", "statement": "For pairwise distinct nodes the generated functions are one at their own node and zero at the others, sum to one, and approx_Lagrange_1d passes through all data points.", "quantifier": "all numbers of nodes, all node positions and data", "why_tests_cant": "Cardinality and the partition of unity are identities for all sets of nodes of any size, unordered ones included; tests take a few equidistant nodes.", "anchors": ["src/sigmaepsilon/math/approx/lagrange.py"]}
{"id": "C57", "title": "Neighbour averaging stays within the data range", "statement": "MLSApproximator returns values between the minimum and maximum of the source data of the neighbours, in particular constants are reproduced.", "quantifier": "all source and target sets, all k", "why_tests_cant": "Bounds for all data, all weights and all numbers of neighbours; tests use smooth data, for which an extrapolated value is still close.", "anchors": ["src/sigmaepsilon/math/approx/mls.py", "src/sigmaepsilon/math/knn.py"]}
{"id": "C58", "title": "Neighbour search respects its limits", "statement": "k_nearest_neighbours with max_distance returns no neighbour farther than max_distance.", "quantifier": "all point sets and limits", "why_tests_cant": "Only points with fewer neighbours within the limit than asked for reveal a limit that is ignored; dense point clouds of tests have none.", "anchors": ["src/sigmaepsilon/math/knn.py: k_nearest_neighbours"]}
{"id": "C59", "title": "Product quadrature integrates products exactly as the factors", "statement": "The 2d and 3d Gauss rules are the tensor products of the 1d rules: the number of points is the product, every pair/triple of 1d points occurs once with the product weight, so a product function integrates to the product of the 1d quadratures.", "quantifier": "all orders and integrands", "why_tests_cant": "The order of points and weights in the product rule matters for different rules in each direction only; tests use equal orders and symmetric functions, for which a permutation cannot be seen.", "anchors": ["src/sigmaepsilon/math/numint.py"]}
{"id": "C60", "title": "isclose accepts exactly the documented pairs", "statement": "isclose(x1, x2) holds exactly if the difference is within atol (if given) and within rtol*|x2| (if given); it is reflexive and monotone in the tolerances.", "quantifier": "all values and tolerances", "why_tests_cant": "Combinations of two optional tolerances, values on the limit and single numbers against arrays; tests try values that are far from the limit.", "anchors": ["src/sigmaepsilon/math/logical.py: isclose, allclose"]}
{"id": "C61", "title": "A jagged array built from a list of 2d arrays stacks their rows", "statement": "JaggedArray([a, b, ...]) for 2d NumPy arrays of any widths has the rows of a, then those of b, ...; widths() are the numbers of columns of these rows.", "quantifier": "all lists of 2d arrays of any shapes", "why_tests_cant": "The shapes and the number of arrays are unbounded; a test sees a few combinations and the accepted layout depends on which branch an external constructor takes.", "anchors": ["src/sigmaepsilon/math/linalg/sparse/jaggedarray.py:get_data", "src/sigmaepsilon/math/linalg/sparse/jaggedarray.py:JaggedArray.__init__"]}
{"id": "C62", "title": "The dual description represents the same object", "statement": "t.dual() of a vector or tensor t represents the same geometric object as t; its components are those with respect to the dual (reciprocal) frame of the frame of t.", "quantifier": "all vectors and tensors, all frames with independent axes", "why_tests_cant": "The claim ranges over all frames, dimensions and component values, most of which behave unlike the orthonormal frames that tests draw.", "anchors": ["src/sigmaepsilon/math/linalg/vector.py, tensor.py: dual"]}
{"id": "C63", "title": "The metric tensor represents the identity", "statement": "frame.metric_tensor() (the Gram matrix attached to a frame) represents the identity map in the ambient space, whatever the frame is.", "quantifier": "all frames with independent axes", "why_tests_cant": "The claim ranges over all frames, dimensions and component values, most of which behave unlike the orthonormal frames that tests draw.", "anchors": ["src/sigmaepsilon/math/linalg/frame.py: metric_tensor, Gram"]}
{"id": "C64", "title": "Showing a frame in another frame gives the components of its base vectors", "statement": "The rows of frame.show(target) are the components of the base vectors of the frame in the target, i.e. they agree with showing each base vector, as a Vector, in the target.", "quantifier": "all pairs of frames with independent axes", "why_tests_cant": "The claim ranges over all frames, dimensions and component values, most of which behave unlike the orthonormal frames that tests draw.", "anchors": ["src/sigmaepsilon/math/linalg/frame.py: show"]}
{"id": "C65", "title": "Transposing a tensor represents the index-reversed object", "statement": "Transposing a tensor of any order represents the ambient tensor with reversed indices in every frame, and transposing twice restores the tensor.", "quantifier": "all orders, dimensions, components and frames", "why_tests_cant": "The claim ranges over all frames, dimensions and component values, most of which behave unlike the orthonormal frames that tests draw.", "anchors": ["src/sigmaepsilon/math/linalg/meta.py: T, transpose"]}
{"id": "C66", "title": "Reported derivatives of least squares approximations are derivatives", "statement": "The gradient and the second derivatives reported by least squares and moving least squares are the derivatives of the reported values, also for data that are not polynomial, if the weight function reports its own derivatives correctly.", "quantifier": "all data sets, all differentiable weight functions, dimensions 1, 2 and 3, degrees 1 and 2, all points of evaluation", "why_tests_cant": "The claim ranges over all weight functions and all data; a test fixes both, and compares with difference quotients up to a tolerance.", "anchors": ["src/sigmaepsilon/math/approx/ls.py: moving_least_squares", "src/sigmaepsilon/math/approx/ls.py: weighted_least_squares", "src/sigmaepsilon/math/approx/ls_approx.py"]}
{"id": "C67", "title": "Points on a segment are evenly spaced and end at the given points", "statement": "`linspace`, `linspace1d` and `vpath` return exactly N points, the first and the last are the given ones, and neighbouring points are equally far from each other.", "quantifier": "all dimensions, all end points, all N, all orders in which the parallel loop may run", "why_tests_cant": "A test fixes a few N and end points; the scheduling of the parallel loop, single points and coinciding ends are not exercised by it.", "anchors": ["src/sigmaepsilon/math/linalg/utils.py: _linspace, linspace, linspace1d, vpath"]}
{"id": "C68", "title": "Normalized vectors have unit length and the same direction", "statement": "Normalizing a vector, the rows of an array or the axes of a frame returns vectors of unit length that are positive multiples of the given ones; `norm2d` returns their lengths.", "quantifier": "all dimensions, all numbers of rows, all vectors, all schedules", "why_tests_cant": "Randomly drawn vectors are never zero and never integers, where the claim breaks; the equivalence of the compiled and the interpreted version is over all inputs.", "anchors": ["src/sigmaepsilon/math/linalg/utils.py: normalize, normalize2d, normalize_frame, norm2d"]}
{"id": "C69", "title": "Generalized inverses satisfy the Penrose equations", "statement": "The generalized inverse exists exactly for matrices of full rank; it satisfies the four Penrose equations, and applied to a right-hand side it gives the least squares solution, of least norm if there are several.", "quantifier": "all matrices of all shapes, all right-hand sides", "why_tests_cant": "Optimality is a statement about all competing vectors, which no test can enumerate.", "anchors": ["src/sigmaepsilon/math/linalg/utils.py: generalized_left_inverse, generalized_right_inverse, generalized_inverse"]}
{"id": "C70", "title": "Full rank predicates agree with linear independence", "statement": "An array has full row (column) rank exactly if its rows (columns) are linearly independent, and full rank exactly if one of the two holds.", "quantifier": "all matrices with at least one row and one column", "why_tests_cant": "Linear independence ranges over all linear combinations.", "anchors": ["src/sigmaepsilon/math/linalg/logical.py: has_full_row_rank, has_full_column_rank, has_full_rank"]}
{"id": "C71", "title": "The permutation tensor is the Levi-Civita symbol", "statement": "The entry at a sequence of indices is the sign of the permutation, zero if an index is repeated; it changes sign if two indices are swapped, and contracting it with the rows of a matrix gives the determinant.", "quantifier": "all dimensions, all index sequences, all matrices", "why_tests_cant": "The number of entries grows like n to the n; tests stop at three dimensions.", "anchors": ["src/sigmaepsilon/math/linalg/utils.py: permutation_tensor"]}
{"id": "C72", "title": "Unit basis vectors have one nonzero entry at the asked place", "statement": "`unit_basis_vector(length, index, value)` has `length` entries: `value` at `index` and zeros elsewhere.", "quantifier": "all lengths, indices and values", "why_tests_cant": "Tests use indices inside of the vector; the length of the result for other indices is the part that differs.", "anchors": ["src/sigmaepsilon/math/linalg/utils.py: unit_basis_vector"]}
{"id": "C73", "title": "Symmetry predicates hold exactly for symmetric matrices", "statement": "`issymmetric` holds for all symmetric matrices, implies that opposite entries differ by less than the tolerance, and does not hold for arrays that are not square; `is_hermitian` holds exactly for hermitian arrays.", "quantifier": "all shapes, matrices and tolerances", "why_tests_cant": "A predicate is wrong if it accepts a single array it should not; tests only try a few.", "anchors": ["src/sigmaepsilon/math/logical.py: issymmetric", "src/sigmaepsilon/math/linalg/logical.py: is_hermitian"]}
{"id": "C74", "title": "Definiteness predicates agree with the quadratic form", "statement": "A real matrix is called positive definite (semidefinite) exactly if its quadratic form is positive (nonnegative) for all nonzero vectors.", "quantifier": "all square matrices, all vectors", "why_tests_cant": "The quadratic form has to be compared at all vectors; tests draw symmetric matrices only.", "anchors": ["src/sigmaepsilon/math/logical.py: isposdef, ispossemidef", "src/sigmaepsilon/math/linalg/logical.py: is_pos_def, is_pos_semidef"]}
{"id": "C75", "title": "Random definite matrices are definite whatever is drawn", "statement": "Whatever the generator draws, `random_pos_semidef_matrix` returns a symmetric positive semidefinite matrix, and `random_posdef_matrix` a symmetric one with all eigenvalues at least `alpha`; both are recognized by the predicates of the library.", "quantifier": "all sizes, all draws, all alpha", "why_tests_cant": "A test observes one draw; the claim is about all.", "anchors": ["src/sigmaepsilon/math/linalg/utils.py: random_pos_semidef_matrix, random_posdef_matrix"]}
{"id": "C76", "title": "Squeezing decorator removes unit axes and nothing else", "statement": "A function decorated with `squeeze` returns the same elements with all axes of length one removed, for arrays, tuples of arrays and dictionaries of arrays; with `squeeze=False` the result is unchanged; the kind of container and the keys are kept.", "quantifier": "all shapes, elements, containers and settings", "why_tests_cant": "The combinations of containers, defaults and keyword arguments are unbounded; tests check values, not the kind of container.", "anchors": ["src/sigmaepsilon/math/decorate.py: squeeze"]}
{"id": "C77", "title": "A frame holds the matrix it was given", "statement": "A frame constructed from an array, or assigned one through `axes`, has the entries of that array as its axes, whatever the memory layout or dtype of the array, and keeps them whatever is later done to arrays and other frames; transposing in place transposes the axes, and scaling in place multiplies them.", "quantifier": "all sizes, matrices, memory layouts, dtypes and programs of array and frame operations", "why_tests_cant": "A test builds a fresh C-ordered float array and looks once; layouts, shared memory and later writes multiply over programs of any length.", "anchors": ["src/sigmaepsilon/math/linalg/frame.py: ReferenceFrame.axes, transpose, inplace_binary", "src/sigmaepsilon/math/linalg/meta.py: ArrayWrapper.__init__"]}
{"id": "C78", "title": "np.allclose and np.isclose compare physical tensors", "statement": "`np.allclose(a, b, rtol, atol)` of two tensors of the same rank is `True` exactly if the components of the two tensors in the ambient frame differ by at most `atol + rtol*|b|` each; the answer does not depend on the frames in which the tensors are given; a tensor is close to itself shown in another frame; `np.isclose` gives the answer component by component; arguments that are neither tensors nor numbers raise a `TypeError`.", "quantifier": "all dimensions, ranks, frames, components, tolerances", "why_tests_cant": "A comparison that forgets to bring both tensors to one frame agrees with the right one whenever the frames are equal or the difference is large; frame independence is a statement about all pairs of frames.", "anchors": ["src/sigmaepsilon/math/linalg/abstract.py: __array_function__, allclose, isclose"]}
{"id": "C79", "title": "Showing a stack of vectors or frames shows each member", "statement": "`show_vector`, `show_frame` and `Vector.show` of a stack give, in the same order, what showing every single member gives: the new components of each member, expanded in its target frame, represent the same physical vector. This holds for one frame for all or one frame per member, for one target or a stack of targets, and for every order in which the parallel loop runs. A stack that does not fit is refused.", "quantifier": "all dimensions, stack lengths, frames (singular targets raise), targets, orders of the parallel loop", "why_tests_cant": "The result of the parallel loop is claimed for every schedule and every length; a test sees one schedule and stacks that fit, and a read behind the array usually returns something plausible.", "anchors": ["src/sigmaepsilon/math/linalg/utils.py: show_vector, show_vectors, show_vectors_multi, show_frame, transpose_axes", "src/sigmaepsilon/math/linalg/vector.py: Vector.show"]}
{"id": "C80", "title": "Operations on a stack act on each member", "statement": "`dual`, `transpose`, `orient`, `orient_new`, scaling and copying of a stack of vectors or tensors act on each member as they do on a single vector or tensor; showing a stack of second order tensors preserves the physical tensor of each member.", "quantifier": "all dimensions, stack lengths, frames, rotations, factors, orders of the parallel loop", "why_tests_cant": "An operation that treats the axis of the stack as a tensorial axis is right for stacks with special lengths (as many members as dimensions) and for symmetric data; the claim is about all lengths.", "anchors": ["src/sigmaepsilon/math/linalg/vector.py: Vector.dual, orient, orient_new", "src/sigmaepsilon/math/linalg/tensor.py: Tensor2, Tensor2x3, Tensor.transform_components", "src/sigmaepsilon/math/linalg/meta.py: TensorLike.__init__"]}
{"id": "C81", "title": "Tensor constructors accept the documented shapes and report rank and stacking", "statement": "A tensor class accepts exactly the arrays whose trailing axes have the shape of one tensor, with one leading axis if it is declared to be a stack (`Tensor2x3` and `Tensor4x3`: any leading axes, found out from the shape); the rank reported is the number of tensorial axes; `is_bulk` tells if there are leading axes; without a frame, the frame gets the dimension of the tensor.", "quantifier": "all shapes of any number of axes, all settings of the flag, all classes", "why_tests_cant": "Shapes are unbounded lists; a check that compares the wrong axes accepts all shapes used in tests (where stack length and dimension often agree).", "anchors": ["src/sigmaepsilon/math/linalg/meta.py: TensorLike.__init__, rank, is_bulk", "src/sigmaepsilon/math/linalg/tensor.py: Tensor2, Tensor2x3, Tensor4, Tensor4x3", "src/sigmaepsilon/math/linalg/logical.py: is_hermitian"]}
{"id": "C82", "title": "Coefficients of a symbolic function represent the function", "statement": "`coefficients()` of a symbolic function has one item per key, an item for every variable, and the sum of value times key is the function; `coefficients(normalize=True)` represents the same function with at most one constant item; `linear_coefficients` gives for every variable the slope of an affine function (this is what the linear programming problem reads); `is_linear` is `True` exactly for functions that are at most linear.", "quantifier": "all expressions (any number of terms and factors), all variables, all values of the variables and constants", "why_tests_cant": "The dictionary is built by merging and overwriting; terms get lost only if several keys are mapped to one, or if a coefficient is not a number, which examples with numeric coefficients never show.", "anchors": ["src/sigmaepsilon/math/function/function.py: Function.coefficients, linear_coefficients, is_linear", "src/sigmaepsilon/math/function/symutils.py: coefficients", "src/sigmaepsilon/math/optimize/lp.py: LinearProgrammingProblem._to_scipy"]}
{"id": "C83", "title": "Gradient and Hessian of a symbolic function are its derivatives", "statement": "For a function made from text or a SymPy expression, entry `i` of `f.g(x)` is the partial derivative of `f(x)` with respect to the `i`-th variable, entry `[i][j]` of `f.G(x)` is the partial derivative of entry `j` of the gradient with respect to variable `i`, the Hessian is symmetric; gradient and Hessian have values wherever the function has one (roots of zero excepted); a wrong number of arguments is refused by all three; the order of arguments is well defined.", "quantifier": "all expressions of any depth over numbers, variables, arithmetic, powers, sin, cos, exp, log, sqrt; all points; all lists of variables", "why_tests_cant": "Tests compare derivatives of a few functions at a few points up to rounding; that values, gradients and Hessians use the same order of variables and are derivatives at every point of every expression is a statement about limits and unbounded expression trees.", "anchors": ["src/sigmaepsilon/math/function/symutils.py: symbolize, decode", "src/sigmaepsilon/math/function/metafunction.py: MetaFunction.f, g, G", "src/sigmaepsilon/math/function/function.py: Function.update"]}
{"id": "C84", "title": "Rotation matrices are rotations", "statement": "`rotation_matrix` returns an orthogonal matrix with determinant one for every documented input ('Body', 'Space', 'Quaternion', 'Axis', 'DCM'); a direction cosine matrix is taken over as it is; zero angles give the identity, rotations about one axis add their angles, a 'Body' rotation equals the 'Space' rotation with reversed angles and order, opposite angles in reverse order give the inverse; a rotation about the third axis turns the first base vector towards the second; three angles and an order with different neighbours are accepted, everything else is refused.", "quantifier": "all angles, orders, parameters (real numbers)", "why_tests_cant": "Orthogonality and the relation between body fixed and space fixed rotations are identities over a continuum of angles; tests use a few angles about one axis where transposed or reordered products agree.", "anchors": ["src/sigmaepsilon/math/linalg/utils.py: rotation_matrix"]}
{"id": "C85", "title": "Rotating frames, vectors and tensors is consistent", "statement": "`orient` and `orient_new` of a frame keep lengths, angles and orientation of its base vectors; the direction cosine matrix between a frame and the frame made from it by `orient_new` is the rotation matrix asked for; rotating a vector or second order tensor any number of times equals keeping its components and rotating its frame the same number of times; rotated tensors act on rotated vectors as the tensors on the vectors; a Cartesian frame stays Cartesian.", "quantifier": "all frames, vectors, tensors, all series of rotations of any length", "why_tests_cant": "The tests rotate the ambient frame about a single axis, where the order of factors does not matter; the claim is about all frames and about series of any length.", "anchors": ["src/sigmaepsilon/math/linalg/frame.py: ReferenceFrame.orient, orient_new", "src/sigmaepsilon/math/linalg/vector.py: Vector.orient, orient_new", "src/sigmaepsilon/math/linalg/tensor.py: Tensor.orient, orient_new"]}
{"id": "C86", "title": "Arithmetic with frames makes new frames and leaves the old ones alone", "statement": "`A * s`, `s * A`, `A / s`, `A + B`, `A - B` with a frame A and a number, array or frame as other operand give a new frame whose axes are the entrywise result; A, every other frame and all attached tensors stay as they are, and nothing is attached to the new frame; the class of the result is rectangular exactly for a rectangular or Cartesian frame scaled by a Python number, and then its axes are perpendicular; division undoes multiplication; `v.frame = A * s` (the example in the documentation) divides the components of v by s once per index and v stands for the same object; operands of other types are refused.", "quantifier": "all frames of all classes and dimensions, all operands, all collections of frames and tensors", "why_tests_cant": "The tests scale the unit frame by 2; the class of the result, the check in its constructor and the freedom from side effects depend on class, operand type, operator and on the tolerance relative to the length of the axes.", "anchors": ["src/sigmaepsilon/math/linalg/frame.py: out_of_place_binary, ReferenceFrame.__array_ufunc__, RectangularFrame.__mul__, __truediv__"]}
{"id": "C87", "title": "chop removes small entries and nothing else", "statement": "`chop(tol)` sets the entries below tol in magnitude to zero and keeps all others and all other objects; chopping twice is chopping once; a limit that is not positive changes nothing; what a vector stands for moves by at most tol times the column sums of the magnitudes of the axes; chopping a frame does not change what attached vectors stand for and does not break the promise of its class; `minmax` returns two entries of the array that bound all others.", "quantifier": "all vectors, tensors, frames, limits, object graphs; all arrays", "why_tests_cant": "The claim is about every object reachable from the one that is chopped, and about entries on both sides of the limit; the tests chop one array and look at it.", "anchors": ["src/sigmaepsilon/math/linalg/meta.py: ArrayWrapper.chop, minmax", "src/sigmaepsilon/math/utils.py: minmax"]}
{"id": "C88", "title": "reduce returns an equivalent system, and only in-place calls touch the arguments", "statement": "`reduce` returns a matrix and right hand sides with exactly the solutions of the given system for every right hand side (with prescribed values: for every point that has them), of the given shapes, triangular for 'Gauss-Jordan' and diagonal for 'Jordan'; `backsub` of it is what `linsolve` returns; `inplace=False` never changes the arguments and `inplace=True` leaves the reduced system in them; a call that raises leaves an equivalent system; `method='numpy'` solves exactly the regular systems; the solution has the shape of B; prescribed values are never ignored; unknown methods are refused.", "quantifier": "all sizes, all matrices, all right hand sides of one or two dimensions, all prescriptions, all methods", "why_tests_cant": "Equivalence is a statement about all points of a space, for every matrix; tests compare one solution of a regular system. The state of the arguments after an exception is not looked at by any test.", "anchors": ["src/sigmaepsilon/math/linalg/solve.py: linsolve, reduce, npsolve, backsub"]}
{"id": "C89", "title": "The symbolic inverse of a 3x3 matrix is its inverse wherever it has a value", "statement": "`inv_sym_3x3(m)` returns a matrix of expressions whose values, at every point where the entries of `m` have values with nonzero determinant, are those of the inverse; with `as_adj_det=True` the values of the determinant and of the adjugate, for singular matrices too. The symbols that `m` contains do not matter; a matrix of another shape is refused.", "quantifier": "all symbolic 3x3 matrices, all values of the symbols", "why_tests_cant": "The entries are arbitrary expressions and the claim is about all values of all their symbols; the tests invert one matrix of literal symbols. Collisions with the symbols that the function uses internally occur only for special inputs.", "anchors": ["src/sigmaepsilon/math/linalg/utils.py: inv_sym_3x3"]}
{"id": "C90", "title": "The compiled products are the products, and the congruence keeps symmetry and definiteness", "statement": "`matmul`, `matmulw`, `ATB` return the (weighted) products for all matching shapes and refuse others; `ATBA(A, B)` represents the form of `B` after substituting `A x`, with the weight as a factor in `ATBAw`: it is symmetric if `B` is, positive semidefinite if `B` is and the weight is not negative, and transforming with `A` and then with `C` is transforming with `A @ C`.", "quantifier": "all shapes, all matrices, all weights", "why_tests_cant": "Definiteness is a statement about all vectors, and the statements are about all matrices of all sizes; tests compare a product with numpy for one size.", "anchors": ["src/sigmaepsilon/math/linalg/utils.py: matmul, ATB, matmulw, ATBA, ATBAw"]}
{"id": "C91", "title": "A histogram counts every datum once and reports the centres of the intervals", "statement": "`histogram(data, bins)` with a number of intervals counts every datum exactly once, in intervals of equal width; with given edges each count is the number of data in the interval (the last one closed) and the sum the number of data between the outer edges; decreasing edges and numbers below one are refused; the reported places are the centres of the intervals, whatever the order in which the compiled loop visits them.", "quantifier": "all data, all numbers of intervals, all edges, all schedules of the parallel loop", "why_tests_cant": "Counting every datum exactly once is a statement about all data including those on edges; the test calls the function once and does not look at the result.", "anchors": ["src/sigmaepsilon/math/hist.py: histogram"]}
{"id": "C92", "title": "Type predicates recognize the types they are named after", "statement": "`isfloatarray`, `isintegerarray`/`isintarray` and `isboolarray` hold exactly for arrays of floats, integers and Booleans, the one dimensional variants exactly for those of one dimension; `itype_of_ftype` returns an integer type of the size of the given float type and refuses others; `is_none_or_false` holds for None and False only.", "quantifier": "all scalar types of NumPy, all shapes", "why_tests_cant": "A predicate has to be right for every type, in particular for those no test constructs; the tests use the default types only.", "anchors": ["src/sigmaepsilon/math/logical.py: isfloatarray, isintegerarray, isintarray, isboolarray, is1dfloatarray, is1dintarray, is_none_or_false", "src/sigmaepsilon/math/utils.py: itype_of_ftype"]}
{"id": "C93", "title": "Symbols with the same name are the same variable", "statement": "A `Function` made from text or from a SymPy expression with given `variables` (symbols with or without assumptions, or names) treats symbols of the expression and variables of the same name as the same: its value is that of the expression, the gradient consists of the derivatives by the variables, `subs(values, variables)` replaces the variables with the given names, and doing so twice is doing so once; names without a variable and variables given partly as symbols, partly by name, are refused.", "quantifier": "all expressions, all assumptions of the symbols, all variables, values and points", "why_tests_cant": "The symbols of an expression may carry any assumptions that SymPy knows, in any combination with those of the variables; the tests use symbols without assumptions, where names and symbols coincide.", "anchors": ["src/sigmaepsilon/math/function/symutils.py: decode, symbolize, substitute", "src/sigmaepsilon/math/function/function.py: Function, Function.subs"]}
{"id": "C94", "title": "An optimizer from construction to result", "statement": "Building an optimizer succeeds exactly if the parameters are valid for the population size in use and the initial population can be produced. `solve()` then ends and returns a genom that is a member of one of the generations of this call, with its objective value, and not beaten by any member of any of them in the direction in force; the generations are the drawn one and its successors under the parameters in force; the result does not depend on what was done with the optimizer before; a recycled call goes on counting and never returns something worse than the champion it found. For the binary GA with at least five members, three bits and an elite it can breed with, nothing raises for any draws and the returned point lies in the box. A call rejected for its parameters has no effect on the optimizer.", "quantifier": "all subclasses, objectives, parameters, keyword arguments, histories and draws", "why_tests_cant": "The result depends on random draws, on the number of iterations and on everything done with the object before; a test sees a handful of runs on fresh objects.", "anchors": ["src/sigmaepsilon/math/optimize/ga.py: GeneticAlgorithm.__init__ (181-232), reset (303-320), set_solution_params (322-378), solve (403-459)", "src/sigmaepsilon/math/optimize/bga.py: BinaryGeneticAlgorithm"]}
{"id": "C95", "title": "A linear programming problem consists of what was given, and inconsistent input is refused", "statement": "LinearProgrammingProblem(obj, constraints, variables=..., ...) succeeds exactly if variables are given, the objective is a symbolic Function, every constraint is a symbolic Relation, every variable is a Symbol and occurs among the variables of the objective or of a constraint; the object then holds the given objective, constraints, variables, bounds and integrality in the given order. Otherwise it raises TypeError for objects of the wrong kind and ValueError for the other cases, the first failing check deciding.", "quantifier": "all objectives, constraint lists, variable lists, bounds and integrality arguments", "why_tests_cant": "Whether an input is accepted depends on the combination of objective, any number of constraints and any number of variables; tests try a few wrong arguments one at a time.", "anchors": ["src/sigmaepsilon/math/optimize/lp.py: LinearProgrammingProblem.__init__ (128-179)"]}
{"id": "C96", "title": "What a binary genetic algorithm can reach without crossover or without mutation", "statement": "If no crossover takes place (every draw exceeds p_c), everything solve() of a BinaryGeneticAlgorithm ever looks at, and what it returns, is one of the individuals drawn at the start, whatever p_m is. If no mutation takes place (every draw exceeds p_m), every bit of the individual returned is, at its position, a bit of one of the individuals drawn at the start.", "quantifier": "all objectives, settings, numbers of generations and draws with the stated property", "why_tests_cant": "The claim is about every generation of every run; a test sees the end of a few random runs and cannot tell whether a candidate could have come from elsewhere.", "anchors": ["src/sigmaepsilon/math/optimize/bga.py: populate (85-110), crossover (129-159), mutate (161-166), select (168-193)", "src/sigmaepsilon/math/optimize/ga.py: solve (403-459)"]}
{"id": "C97", "title": "What a Function object evaluates", "statement": "A Function made from a text or a SymPy expression evaluates the function, gradient and Hessian of that expression, whatever other callables are given along with it. One made from callables evaluates those; the keywords value, gradient and Hessian mean the same as the first three positional arguments and win over them; a missing derivative raises TypeError when called. update(...) leaves the object exactly as a fresh construction with the same arguments would, and an object on which update, subs or simplify raised is as before. subs evaluates the expression with the values put in, leaves the original alone unless inplace is set, and both forms agree. simplify does not change what is evaluated. Calling an object of a subclass runs the method value of the nearest class that defines one (gradient and Hessian for g and G). is_linear tells whether the function is at most linear. Test functions keep all the optimums they are given.", "quantifier": "all texts, expressions, callables, keyword arguments in any order, class hierarchies and previous states of the object", "why_tests_cant": "The sources of value, gradient and Hessian (position, keyword, symbolic, method of a class) can be combined in any way, in any order, on objects with any history; tests construct objects in a handful of the usual ways.", "anchors": ["src/sigmaepsilon/math/function/function.py: Function.__init__, update (164-201), is_linear (231-242), simplify (252-259), subs (343-366)", "src/sigmaepsilon/math/function/metafunction.py: ABCMeta_MetaFunction, MetaFunction (7-74)", "src/sigmaepsilon/math/function/testfunction.py: TestFunction, TestMinFunction, TestMaxFunction (6-38)"]}
{"id": "C98", "title": "NumPy functions applied to frames", "statement": "A NumPy universal function applied to frames, arrays and numbers (np.sqrt(A), np.add(A, B), A == B) computes entry by entry and returns a new general frame for every result; nothing that exists changes except what is given as out. A general frame given as out takes the result, also if it is an argument of the same call, and every vector and tensor attached to it stands for the same object as before, whether the call succeeds or raises. Arguments of foreign types, and rectangular or Cartesian frames as outputs, are refused without any change. A == B is true exactly if the axes are equal. Every other NumPy function computes from a frame what it computes from its axes.", "quantifier": "all universal functions with any number of arguments and results, all combinations of arguments and outputs, all frames with any vectors and tensors attached after any history, all recursion limits", "why_tests_cant": "Arguments and outputs may be the same objects, several outputs may be written one after the other with an exception in between, and frames may appear in lists or keywords; tests call a few functions with one frame.", "anchors": ["src/sigmaepsilon/math/linalg/frame.py: ReferenceFrame.__array_ufunc__ (552-607), __array_function__ (548-550), axes setter (290-311)", "src/sigmaepsilon/math/linalg/meta.py: ArrayWrapper.__len__ (181-182), _HANDLED_TYPES_ (122)"]}
{"id": "C99", "title": "Fits and the weight functions they share", "statement": "A fit made by weighted_least_squares is one fixed function: it is computed from the data and the weights as they are when it is made, and nothing that happens later (arrays overwritten, the weight function moved or changed, other fits evaluated) changes its values. A fit made by moving_least_squares gives, at every point and at any time, the weighted fit of its data with the weight function centred at that point, no matter where the core has been before and which fits share the weight function; two evaluations at the same point agree. Making and evaluating fits changes neither the data nor other fits nor the weight functions of the user. Every callable given as w weights the fit. Lists can be given instead of arrays.", "quantifier": "all sessions of any length that make and evaluate any number of fits sharing weight functions, point arrays and data, with any weight functions, also if some operations raise", "why_tests_cant": "The effect of shared state depends on the order of operations on several objects; tests make one fit with one weight function and evaluate it.", "anchors": ["src/sigmaepsilon/math/approx/ls.py: moving_least_squares (14-43), weighted_least_squares (90-171)", "src/sigmaepsilon/math/approx/functions.py: MLSWeightFunction.core (48-63), isMLSWeightFunction (97-106)"]}
{"id": "C100", "title": "Jagged arrays as containers", "statement": "A jagged array is a mutable sequence of rows: len(J) is the number of rows, J[i] and J[i, k] return the row and the item with indices counting from either end and an IndexError outside, J[i] = row and J[i, k] = v replace exactly this row or item, whether the rows have equal lengths or not. The number of rows and the number of items per row never change. A jagged array is independent of the data it was made from and of the results of np.concatenate and np.vstack: writing to one of them does not change the other. np.concatenate and np.vstack append the rows and refuse arguments that are no jagged arrays. Operators and universal functions act on every item.", "quantifier": "all sessions of any length with any number of 2d arrays and jagged arrays of any sizes, also if some operations raise", "why_tests_cant": "What assignment and arithmetic do depends on the backend chosen from the data, and whether two objects share memory shows only in later operations on the other one; tests look at one object right after its construction.", "anchors": ["src/sigmaepsilon/math/linalg/sparse/jaggedarray.py: JaggedArray.__init__ (143-159), __array__, __getitem__, __setitem__, __len__ (167-177), __array_function__ (296-306), vstack, concatenate (327-338)"]}
{"id": "C101", "title": "Decoded coordinates and equidistant numbers in floating point", "statement": "With the rounded arithmetic of floating point numbers, phenotypes decoded by the binary genetic algorithm stay within the given ranges: all zeros give the lower end, all ones the upper end, and larger bit values never give smaller coordinates. Likewise linspace1d(start, stop, N) begins with start, ends with stop and never turns back. Computed values differ from the exact ones by a few units of rounding relative to the width of the range and the size of the value.", "quantifier": "all ranges, population sizes, dimensions, lengths of bit strings and bits; all start, stop and N; every rounding that is monotone, idempotent and odd, with any relative precision (doubles being one of them), with and without contraction of multiply-add", "why_tests_cant": "A test compares with a tolerance or happens to use ranges whose ends come out exact; whether a coordinate can leave its range by rounding, and by how much at most, depends on all combinations of ends and bit lengths.", "anchors": ["src/sigmaepsilon/math/optimize/bga.py:112-127", "src/sigmaepsilon/math/linalg/utils.py:880-886"]}
{"id": "C102", "title": "Averages in floating point", "statement": "With the rounded arithmetic of floating point numbers, values approximated by MLSApproximator from k neighbours are the means of the data at these neighbours up to (1 + u)^(k+2) - 1 times the mean size of the data, stay within the range of the data up to this error, do not decrease if the data increase, are not negative for data without negative values, and reproduce constant data.", "quantifier": "all source points, data (float), targets, numbers of neighbours, schedules of the parallel loops, unit roundoffs u and monotone roundings, with and without contraction of multiply-add; exact reproduction for all binary formats with two or more bits", "why_tests_cant": "Tests compare approximations with tolerances on a few sizes; an error bound for all numbers of neighbours and the exactness for all floating point constants cannot be sampled.", "anchors": ["src/sigmaepsilon/math/approx/mls.py:13-32", "src/sigmaepsilon/math/approx/mls.py:161-204"]}
{"id": "C103", "title": "Changes of frames in floating point", "statement": "With the rounded arithmetic of floating point numbers, components of vectors shown in another frame and back agree with the original ones, as do components shown in their own frame or by way of a third frame, up to a multiple of the unit roundoff that depends only on the number of roundings per scalar product, the size of the axes and the accuracy of the dual axes; the same holds for second order tensors and a round trip. Between frames whose axes are those of the ambient frame in another order or direction, components are exact.", "quantifier": "all dimensions, frames, components, unit roundoffs, and all orders in which the scalar products are summed up, with or without contraction of multiply-add (they may differ from call to call and from entry to entry)", "why_tests_cant": "Tests compare single round trips with a tolerance on one machine; how large errors get for other frames, and that they do not depend on the order of summation chosen by a linear algebra library, cannot be sampled.", "anchors": ["src/sigmaepsilon/math/linalg/frame.py:365-370", "src/sigmaepsilon/math/linalg/vector.py:140-144", "src/sigmaepsilon/math/linalg/utils.py:403-421", "src/sigmaepsilon/math/linalg/tensor.py:131-135", "src/sigmaepsilon/math/linalg/tr.py:15-16"]}
{"id": "C104", "title": "Objective functions that are undefined at some points", "statement": "If the objective returns nan for some points, a genetic algorithm ignores these points: a candidate with a defined value is never displaced by one without, the champion is the best among the defined values seen so far, and solve does not return nan as long as a defined value was seen. If the objective is defined everywhere, nothing changes.", "quantifier": "all objectives, all sets of points where they are undefined, both directions of optimization, all populations, draws, argsort tie-breaks and numbers of cycles", "why_tests_cant": "Tests use objectives that are defined everywhere; whether nan appears, and in which generation, depends on random draws, and its effect depends on how argmin, argsort and comparisons treat nan.", "anchors": ["src/sigmaepsilon/math/optimize/ga.py:500-536", "src/sigmaepsilon/math/optimize/ga.py:46-58", "src/sigmaepsilon/math/optimize/ga.py:403-459", "src/sigmaepsilon/math/optimize/bga.py:167-260"]}
{"id": "C105", "title": "The binary genetic algorithm finds a global optimum with probability one", "statement": "If evolve is continued, the probability that the best result found so far is not a global optimum among all points that can be represented with the given number of bits tends to zero, geometrically in the number of cycles, whatever the objective is. It suffices that rand() can fall on both sides of p_m and below p_c. The result stays optimal once it was found.", "quantifier": "all objectives, ranges, numbers of variables and bits, population sizes divisible by four, working elites, initial populations, distributions of rand(), distributions of all other draws (which may depend on earlier cycles), and all numbers of cycles", "why_tests_cant": "A test observes finitely many runs with particular seeds; a statement about the probability of all runs, and about its limit, cannot be settled by observing some of them.", "anchors": ["src/sigmaepsilon/math/optimize/bga.py:85-110", "src/sigmaepsilon/math/optimize/bga.py:129-166", "src/sigmaepsilon/math/optimize/bga.py:168-194", "src/sigmaepsilon/math/optimize/ga.py:380-401", "src/sigmaepsilon/math/optimize/ga.py:500-536"]}
{"id": "C106", "title": "Accuracy of linsolve in floating point arithmetic", "statement": "With method 'Gauss-Jordan' (and 'Jordan') the values returned by linsolve satisfy the equations A x = b + r up to a small multiple of the unit roundoff and of the tolerance 1e-12 times the size of the numbers met during the elimination; prescribed unknowns have exactly the prescribed values and the reported residual is exactly zero in the equations of the other unknowns. If the matrix has an inverse of moderate size, the unknowns are close to the solution.", "quantifier": "all numbers of equations and right hand sides, matrices, sets and values of prescribed unknowns, roundings with a relative error of at most u, with and without contraction of multiplications and subtractions", "why_tests_cant": "Rounding errors depend on all digits of the input; tests compare a few small systems with a tolerance, which neither bounds the error of other systems nor reveals those where it is large.", "anchors": ["src/sigmaepsilon/math/linalg/solve.py:49-54", "src/sigmaepsilon/math/linalg/solve.py:102-134", "src/sigmaepsilon/math/linalg/solve.py:171-239"]}
{"id": "C107", "title": "Repeated rotations in floating point arithmetic", "statement": "If a Cartesian frame is rotated by orient again and again, its axes are the original axes multiplied by all rotation matrices up to an error proportional to the number of rotations and the unit roundoff, and they stay orthonormal up to a defect proportional to the number of rotations; taking the frame for its own dual costs an error proportional to that defect. A vector attached to the frame, or handed from frame to frame, remains the same vector in space up to errors that add up like interest at a rate of a few units of roundoff.", "quantifier": "all dimensions, numbers and sequences of rotations or frames, rotation matrices orthogonal up to delta, vectors, roundings with a relative error of at most u, and orders of evaluation of the scalar products", "why_tests_cant": "Tests rotate a frame a few times and compare with a tolerance; that errors neither explode nor hide for longer sequences, other angles and other libraries for matrix products takes an induction over the sequence.", "anchors": ["src/sigmaepsilon/math/linalg/frame.py:290-311", "src/sigmaepsilon/math/linalg/frame.py:402-433", "src/sigmaepsilon/math/linalg/frame.py:783-800", "src/sigmaepsilon/math/linalg/meta.py:410-430", "src/sigmaepsilon/math/linalg/utils.py:471-494"]}
{"id": "C108", "title": "Tensors with more than two indices", "statement": "The components of a tensor with any number of indices, shown in another frame, stand for the same tensor. dot(a, b, axes=(i, j)) with one of the operands having more than two indices is the sum over index i of the first and index j of the second one: the other indices keep their order, those of the first operand first, negative positions count from the end, missing or non-existing positions are refused, the result is given in the frame asked for, and the frames of the operands do not matter. At most 26 letters are available for the indices of both operands and the common one.", "quantifier": "all dimensions, numbers of indices, components, frames, pairs of positions, and target frames", "why_tests_cant": "The implementation writes letters into a command string whose implicit output is ordered alphabetically; tests check a handful of ranks and positions, mostly with symmetric components, for which a permuted result cannot be told from the right one.", "anchors": ["src/sigmaepsilon/math/linalg/tensor.py:76-135", "src/sigmaepsilon/math/linalg/utils.py:227-244", "src/sigmaepsilon/math/linalg/meta.py:363-365"]}
{"id": "C109", "title": "An approximator depends on its sources, data and settings only", "statement": "What MLSApproximator.approximate returns for given targets is determined by the sources and data assigned last and the parameters given at creation: earlier calls, failed ones included, have no influence. For targets in the rows of an array (or in a one dimensional array of numbers), the result has the number of targets followed by the shape of one datum as its shape, the entry for every target and component is the mean over the neighbours of this target, and the neighbours and factors that were used can be read from the object afterwards; neighbours and factors that are assigned are used.", "quantifier": "all histories of calls and assignments, all numbers of sources, targets, coordinates and neighbours, all shapes of the data, all orders of the parallel loops", "why_tests_cant": "Independence from earlier calls is a statement about all sequences of calls, and the shapes of sources, targets and data combine without bound; tests fix one history and a few shapes.", "anchors": ["src/sigmaepsilon/math/approx/mls.py:92-204", "src/sigmaepsilon/math/knn.py:22-117"]}
{"id": "C110", "title": "CSR matrices are copies of what they are made from and their rows are views", "statement": "A csr_matrix holds the values, column indices and row pointers that it was made from (values in double precision, indices in 32 bits), and whatever is written afterwards to the arrays and matrices that existed before does not change it, nor does making it change them. Row i of a matrix made from a dense array is row i of the array with columns 0, 1, 2, ... . Assigning to an entry of row(i) changes this entry of the matrix and nothing else. Integers that are stored are the integers that were given.", "quantifier": "all sessions of making arrays and matrices, reading, writing and converting them, all numbers of rows and columns, all values", "why_tests_cant": "Which arrays share memory shows only after a later write through another name, and the order of writes is unbounded; tests write once and use small integers.", "anchors": ["src/sigmaepsilon/math/linalg/sparse/csr.py:112-204"]}
{"id": "C111", "title": "Cartesian frames in floating point arithmetic", "statement": "With rounding errors in every operation: CartesianFrame(axes, normalize=True) accepts perpendicular axes, makes base vectors of length one in the directions given, and what it makes passes the checks of the constructor again, so that the frame can be copied; CartesianFrame(axes) accepts only axes that are orthonormal up to small errors and keeps them.", "quantifier": "all dimensions, all axes, all orders in which the libraries evaluate sums and scalar products (with and without contraction), all roundings with a small relative error, all norms with a small relative error", "why_tests_cant": "The checks compare rounded numbers with tolerances; whether a frame that was just made is refused a moment later depends on the rounding errors of all entries, the dimension and the order of summation of the library at hand.", "anchors": ["src/sigmaepsilon/math/linalg/frame.py:666-671", "src/sigmaepsilon/math/linalg/frame.py:757-767", "src/sigmaepsilon/math/linalg/logical.py:35-60", "src/sigmaepsilon/math/linalg/utils.py:568-577"]}
{"id": "C112", "title": "What frames are made from", "statement": "A frame of any class made from a dimension n, or by eye, has the identity matrix of size n as its axes; dim=(m, n) makes a stack of m of them; a frame made from an array or a list has these as its axes. What cannot be a frame is refused with an exception, and a rectangular or Cartesian frame is always made of a square matrix of numbers without NaN, unless it is told to assume.", "quantifier": "all classes of frames, all dimensions and shapes, all arrays, lists and missing arguments, all orders of the parallel loop", "why_tests_cant": "The constructor combines four kinds of axes, four kinds of dimensions and two flags in three classes; tests call it with an integer dimension or with a square array, while a combination that silently makes a wrong frame shows up far from the constructor.", "anchors": ["src/sigmaepsilon/math/linalg/frame.py:182-197", "src/sigmaepsilon/math/linalg/frame.py:221-232", "src/sigmaepsilon/math/linalg/frame.py:666-671", "src/sigmaepsilon/math/linalg/frame.py:757-767", "src/sigmaepsilon/math/linalg/meta.py:124-134"]}
{"id": "C113", "title": "Ranges, bin centres and segments in floating point", "statement": "With rounding errors in every operation: to_range_1d keeps the order of the values, maps the ends of the source range to the ends of the target range and values between to values between, up to a small error; the centres reported by histogram lie in their intervals and are in order; linspace for points begins and ends exactly at the given points, and the points between are close to the exact ones and in order.", "quantifier": "all ranges, values, edges and points, all numbers of points, all orders of the parallel loops, all roundings, with and without contraction of multiplications and additions, all norms", "why_tests_cant": "Whether a mapped value leaves the target range by one unit in the last place depends on the bits of all numbers; tests compare with tolerances and pass although the result is outside of the domain of the next function.", "anchors": ["src/sigmaepsilon/math/utils.py:498-524", "src/sigmaepsilon/math/hist.py:18-23", "src/sigmaepsilon/math/linalg/utils.py:858-877"]}
{"id": "C114", "title": "Chances in the binary genetic algorithm", "statement": "In every tournament a better individual is at least as likely to win as a worse one, and the chance to win is a known function of the rank and the number of competitors; any two parents are equally likely to be paired; the phenotypes of the first random individuals are uniformly distributed over all representable points; the bits of a child are flipped independently of each other with the given probability, and never if this probability is zero.", "quantifier": "all population sizes, settings of elitism, objective values (with ties), numbers of tournaments already held, dimensions, lengths and ranges, probabilities of mutation", "why_tests_cant": "The claims are about probabilities: a test sees samples, needs a tolerance, and cannot tell a slightly skewed choice (a tournament of two instead of three, a pair drawn with replacement, a rate that is off by one unit of the generator) from bad luck.", "anchors": ["src/sigmaepsilon/math/optimize/bga.py:187-193", "src/sigmaepsilon/math/optimize/ga.py:576-607", "src/sigmaepsilon/math/optimize/bga.py:92-93", "src/sigmaepsilon/math/optimize/bga.py:112-127", "src/sigmaepsilon/math/optimize/bga.py:161-166"]}
{"id": "C115", "title": "A missing value (NaN) in the data stays visible", "statement": "A NaN in the matrix or in a right hand side of a linear system is never lost: if linsolve returns, then the unknown of that equation, or its reaction if the unknown is prescribed, is not a number; a prescribed value that is NaN makes all free unknowns and all reactions NaN; what is returned for one right hand side does not depend on the others, NaN or not; without NaN the result is that of exact numbers. clip1d keeps NaN entries and ignores a limit that is NaN; isclose is never true for NaN and refuses tolerances that are NaN; a row with a NaN is equal to no row, not even itself; the approximation at a target is a number exactly if all data and factors of its neighbours are.", "quantifier": "all sizes of the system, numbers of right hand sides, positions and numbers of NaN in the matrix, right hand sides, prescribed values, limits, tolerances, rows and data; both elimination methods; sets of prescribed unknowns", "why_tests_cant": "The position and the number of missing values are arbitrary, and whether a NaN meets a branch that skips a row, a zero coefficient or an overwritten entry depends on all of them; a test that finds a NaN in the result for one position says nothing about the next.", "anchors": ["src/sigmaepsilon/math/linalg/solve.py:171-239", "src/sigmaepsilon/math/utils.py:46-72", "src/sigmaepsilon/math/utils.py:384-425", "src/sigmaepsilon/math/logical.py:102-160", "src/sigmaepsilon/math/approx/mls.py:13-22"]}
{"id": "C116", "title": "Closed-form inverses and product quadrature in floating point arithmetic", "statement": "If the products in the determinant are not too large compared to the determinant, inv3x3, inv3x3u, the bulk variants, inv2x2 and inv2x2u return a matrix in floating point arithmetic, too, and each entry is within an explicit bound of the one of the exact inverse, which is relative for order two; this does not depend on which operations the compiler contracts. A singular matrix is refused. The points of the quadrature rules of several dimensions are the unrounded grid of the nodes of one dimension; what the rule gives for any integrand differs from the exact product rule at most by the rounding unit times the same rule for absolute values, and positive weights stay positive.", "quantifier": "all matrices; all roundings with a relative error at most u; all contractions of products and sums; all stacks and orders of the parallel loop; all numbers of points, one dimensional rules and integrands", "why_tests_cant": "Tests compare inverses with a tolerance for a few well conditioned matrices. How the error grows with cancellation in the determinant, and that singular matrices are not recognised for some of the 2^576 inputs, cannot be seen from them.", "anchors": ["src/sigmaepsilon/math/linalg/utils.py:721-829", "src/sigmaepsilon/math/numint.py:17-119"]}
{"id": "C117", "title": "CSR matrices in compiled code", "statement": "A csr_matrix handed to a compiled function behaves as it does outside: row and irow give the same values, also for numbers counted from the end, and what is assigned to rows or to the arrays is seen outside, and the same as if it had been assigned there. Statements that raise outside do not do anything else inside. A matrix that is returned is a new one with the content the function has left behind, and shares no memory with the one given.", "quantifier": "all matrices in all states that can be reached from an empty memory, all sequences of reading rows and writing to rows and arrays in compiled functions, all later uses of both matrices", "why_tests_cant": "The sequence of accesses in a compiled function is up to the user; whether a write lands in the memory that the Python object refers to, and whether the matrix returned is a copy, shows only after later writes to either of them. The test suite cannot measure these functions at all (they are excluded from coverage).", "anchors": ["src/sigmaepsilon/math/linalg/sparse/csr.py:178-300"]}
{"id": "C118", "title": "Independence of vectors, exactly and in floating point arithmetic", "statement": "is_independent_frame (and is_independent of general frames) holds exactly if the vectors are linearly independent, for any number of vectors of any dimension, and for each member of a stack; the answer does not depend on a common rotation, on the order of the vectors, on the unit of length, and is not changed by adding multiples of one vector to another. In floating point arithmetic vectors that are not nearly dependent are reported as independent and have a positive volume, and dependent vectors are reported as dependent with volume zero.", "quantifier": "all matrices of any shape and all tolerances; in floating point arithmetic any number of vectors of any dimension, all orders of evaluation of the scalar products, all variants of the elimination", "why_tests_cant": "Independence is a statement about all combinations of the vectors. Tests use frames that are far from singular; at which angle the answer changes, and that it is wrong for some parallel vectors with small integer components, depends on rounding in every step.", "anchors": ["src/sigmaepsilon/math/linalg/logical.py:75-84", "src/sigmaepsilon/math/linalg/utils.py:553-589", "src/sigmaepsilon/math/linalg/frame.py:213-219, 248-253"]}
{"id": "C119", "title": "Least squares fits in floating point arithmetic", "statement": "Weighted and moving least squares of degree 1 and 2 in one, two and three dimensions, computed in floating point arithmetic, reproduce polynomials of the chosen degree, their gradients and their second derivatives up to an explicit error bound which is linear in the unit roundoff, in the size of the inverse of the moment matrix and in the residual this inverse leaves, even if the data themselves carry rounding errors; a fit is returned exactly if the moment matrix could be inverted, and fits that are not determined by the data raise an exception.", "quantifier": "all roundings with a bounded relative error, all numbers of points, all points, weights, gradients and second derivatives of weights, points of evaluation, orders of summation with or without contraction, all answers of the inversion routine", "why_tests_cant": "Tests compare a few fits with a tolerance; they show neither how the error grows with the number of points and the condition of the moment matrix nor that a degenerate set of points is noticed for every rounding of the coordinates.", "anchors": ["src/sigmaepsilon/math/approx/ls_preproc.py:32-249", "src/sigmaepsilon/math/approx/ls_approx.py:20-381", "src/sigmaepsilon/math/approx/ls_poly.py", "src/sigmaepsilon/math/approx/ls.py:14-302"]}
{"id": "C120", "title": "Linear programs in floating point arithmetic", "statement": "The exact coefficients and constants of a symbolic linear program are rounded when they are handed to the solver. A point which the solver accepts up to a tolerance misses every constraint of the problem by at most this tolerance plus one unit roundoff times the sizes of its terms; a feasible point satisfies the system of the solver up to the same amount; the best point of the solver is a best point of the problem up to the roundoff of the objective; and if all the numbers are floating point numbers, the two feasible sets are the same.", "quantifier": "all numbers of variables and constraints, all linear constraints built without a callable operator, all exact coefficients, all roundings with a bounded relative error, dense and sparse, minimization and maximization, all points and tolerances", "why_tests_cant": "Test problems have small integer coefficients, for which nothing is rounded; no set of examples shows how far a solution can be from feasible for arbitrary rational coefficients.", "anchors": ["src/sigmaepsilon/math/optimize/lp.py:188-330", "src/sigmaepsilon/math/function/function.py:261-322"]}
{"id": "C121", "title": "Programs that compute with tensors do not depend on frames", "statement": "A program that makes vectors and tensors, shows, copies, adds, subtracts, scales, negates, transposes and multiplies them, out of place and in place, using numbers it computed on the way, has the same outcomes (numbers, arrays, exceptions, objects) whatever frames its objects live in and whatever is done to those frames in between: it does what a machine does whose memory holds nothing but the components in the ambient frame.", "quantifier": "all programs of any length, all dimensions, all interleavings with statements that create, move, scale, rotate or replace frames or move tensors between them, all components and ranks, all frames with independent axes that keep the promise of their class", "why_tests_cant": "Each operation can be tested in a few frames, but results live in frame objects that are shared with their operands or newly made, later statements move these frames, and the number of interleavings is unbounded.", "anchors": ["src/sigmaepsilon/math/linalg/abstract.py:38-158", "src/sigmaepsilon/math/linalg/utils.py:205-237", "src/sigmaepsilon/math/linalg/meta.py:291-467", "src/sigmaepsilon/math/linalg/frame.py:255-311", "src/sigmaepsilon/math/linalg/vector.py:111-144", "src/sigmaepsilon/math/linalg/tensor.py:86-135"]}
{"id": "C122", "title": "Tensors that are no longer used, and reused memory addresses, do not confuse frames", "statement": "A tensor keeps its meaning whatever frames are changed and whatever other tensors are created, copied, moved and forgotten in between; a frame adjusts the components of exactly the tensors that live in it and are still used; a forgotten tensor has no influence on anything; and results and exceptions do not depend on the memory addresses of tensors, in particular not on whether a new tensor gets the address of a forgotten one.", "quantifier": "all programs of any length that create frames and tensors, copy, move and forget tensors, set, scale and rotate axes; all dimensions, ranks and components; all choices of the allocator that give no address of a live tensor; all moments at which tensors disappear", "why_tests_cant": "Frames remember their tensors under memory addresses and through weak references; which addresses are reused, and when, depends on the allocator and on the history of the process, and a stale or overwritten entry only shows up as wrong numbers when an unrelated frame is changed later.", "anchors": ["src/sigmaepsilon/math/linalg/meta.py:230-279", "src/sigmaepsilon/math/linalg/meta.py:95-103", "src/sigmaepsilon/math/linalg/meta.py:328-339", "src/sigmaepsilon/math/linalg/meta.py:425-467", "src/sigmaepsilon/math/linalg/frame.py:290-311"]}
{"id": "C123", "title": "Compiled parallel loops have no races and stay inside their arrays", "statement": "Every function compiled with a parallel loop gives the same, documented result however the iterations are distributed over threads and however the single reads and writes of the threads are interleaved; it does not read or write outside its arrays, leaves its input arrays unchanged, and ends as soon as every thread had enough turns. In particular copies, block diagonals, searches, transformations of stacks of vectors, frames and tensors of second and fourth order, transposes, norms, inverses of 3x3 matrices, point rows and the sums of moving least squares have the values their documentation states.", "quantifier": "all array shapes that fit together, all contents, all numbers of threads, all distributions of the iterations and all interleavings of single accesses", "why_tests_cant": "A race shows only in some interleavings, which a test cannot choose and which depend on the machine and its load; an access outside an array usually reads or overwrites a neighbouring number without any exception. The number of interleavings grows exponentially.", "anchors": ["src/sigmaepsilon/math/utils.py:284-544", "src/sigmaepsilon/math/linalg/utils.py:425-550", "src/sigmaepsilon/math/linalg/utils.py:657-890", "src/sigmaepsilon/math/linalg/tr.py:40-192", "src/sigmaepsilon/math/linalg/sparse/utils.py:19-33", "src/sigmaepsilon/math/hist.py:17-23", "src/sigmaepsilon/math/approx/mls.py:13-32"]}
{"id": "C124", "title": "Vectors and tensors own their components", "statement": "A vector or tensor copies the array it is made from. Afterwards its components change only if something is assigned to it, to its frame, to the axes of its frame, or to an array that was obtained from it by `array` and slicing; different tensors never share memory, and the results of operators and of `show` share memory with nothing. Assigning `array` takes over the values the array had before the statement, even if it is a view of the tensor itself; setting the frame or the axes converts every tensor concerned exactly once; the array of a tensor is live: it shows the current components and the current frame. A statement that raises changes nothing.", "quantifier": "all programs of any length that make, slice, copy and assign arrays, make tensors from them, operate on them, set their frames and the axes of frames and transpose in place; all numbers of components, all conversions, including conversions that raise", "why_tests_cant": "Aliasing shows only for particular sequences of slicing, assigning and moving; a test follows one such sequence, and a shared buffer stays unnoticed until an unrelated statement writes to it.", "anchors": ["src/sigmaepsilon/math/linalg/meta.py:42-103", "src/sigmaepsilon/math/linalg/meta.py:124-188", "src/sigmaepsilon/math/linalg/meta.py:282-361", "src/sigmaepsilon/math/linalg/meta.py:387-475", "src/sigmaepsilon/math/linalg/frame.py:290-311", "src/sigmaepsilon/math/linalg/abstract.py:38-190"]}
{"id": "C125", "title": "Where a tensor meets something else, the answer is refused or does not depend on its frame", "statement": "Products, NumPy functions, universal functions, operators and in-place operators with a tensor and an array, a list, a frame, a number or another tensor either raise an exception or give a result that depends only on the physical objects: exchanging a tensor for the same tensor given in another frame changes nothing but the frame of the result. NumPy's dot and cross of tensors are those of the package. Which combinations raise, and what, does not depend on components.", "quantifier": "all tensors of all ranks, all frames, all dimensions, all arrays, lists, numbers and objects, on either side, all NumPy functions, universal functions and operators of Python", "why_tests_cant": "The combinations of entry points, sides and kinds of operands are many and each is dispatched by a different rule of Python or NumPy; a bare component slips through only in some of them, and goes unnoticed in tests that use the ambient frame.", "anchors": ["src/sigmaepsilon/math/linalg/abstract.py:38-190", "src/sigmaepsilon/math/linalg/frame.py:29-66", "src/sigmaepsilon/math/linalg/frame.py:530-607", "src/sigmaepsilon/math/linalg/frame.py:688-713", "src/sigmaepsilon/math/linalg/utils.py:211-255", "src/sigmaepsilon/math/linalg/utils.py:311-346"]}
{"id": "C126", "title": "What solve reports about a linear program is true of the problem that was stated", "statement": "If LinearProgrammingProblem.solve reports success, the point it returns satisfies all constraints, the bounds and the restriction of variables to whole numbers, no other such point has a better objective, and the reported value is the objective there. If it reports that there is no solution or that the problem is unbounded, that is true of the stated problem. Options reach the solver unchanged and change nothing else; bounds or integrality given to solve take the place of those of the problem; unknown options raise TypeError.", "quantifier": "all linear problems with any number of variables and constraints, minimizing and maximizing, all bounds, all kinds of integrality, all methods and keyword arguments, every solver that keeps the documentation of scipy.optimize.linprog", "why_tests_cant": "A test compares with a solution known for one problem. That the translation of constraints, signs, bounds and integrality keeps the set of solutions, for every solver and every combination of options, is a statement about all problems and all points.", "anchors": ["src/sigmaepsilon/math/optimize/lp.py:128-179", "src/sigmaepsilon/math/optimize/lp.py:212-300", "src/sigmaepsilon/math/optimize/lp.py:302-330"]}
{"id": "C127", "title": "Tensors hold the components they are given, whatever their layout in memory", "statement": "A vector or tensor made from an array has the shape and the components of the array, also if it is a transposed view, a slice with any step, a broadcast array or one in Fortran order, and with every value of the keyword arguments contiguous and order.", "quantifier": "all arrays of any number of axes, any shape, any strides (negative, zero) and offsets, and nested lists", "why_tests_cant": "Tests make tensors from new arrays, which are in C order. There are infinitely many layouts, and a wrong one gives a tensor of the right shape with its components in other places.", "anchors": ["src/sigmaepsilon/math/linalg/meta.py:41-58", "src/sigmaepsilon/math/linalg/meta.py:123-134", "src/sigmaepsilon/math/linalg/meta.py:291-326"]}
{"id": "C128", "title": "Random choices are choices, with the chances asked for", "statement": "The array returned by choice has the shape asked for and each of its entries is one of the choices, never one with probability zero, also with rounding. Each entry is decided by a random number of its own: an item is taken if this number is between the sums of the probabilities before the item and up to it, so that items are taken with their probabilities, all equal if none are given. Nonsensical arguments are refused.", "quantifier": "all lists of choices, all shapes, all probabilities, all random numbers in [0, 1), all monotone roundings", "why_tests_cant": "The result is random: a test sees a few draws and can compare frequencies up to chance only. A draw of an item with probability zero by a rounding error is too rare to be seen in a test.", "anchors": ["src/sigmaepsilon/math/utils.py:253-280"]}
{"id": "C129", "title": "What a genetic algorithm hands out fits together", "statement": "The champion, the best candidate, the state and the arrays of genotypes, phenotypes and fitness values that an optimizer hands out fit together at any time: phenotypes belong to genotypes and fitness values are those of the objective at the phenotypes. Evolving, resetting and reading never change arrays and genoms that were handed out before (the age of the champion apart), and writing to the arrays handed out does no harm.", "quantifier": "all programs of resets, cycles, reads, assignments of populations and writes to any array, list or genom, with any exceptions in between", "why_tests_cant": "Whether a write matters depends on which values the optimizer has cached at that moment and on which objects share memory; tests read results once, at the end of a run.", "anchors": ["src/sigmaepsilon/math/optimize/ga.py:26-35", "src/sigmaepsilon/math/optimize/ga.py:253-291", "src/sigmaepsilon/math/optimize/ga.py:303-320", "src/sigmaepsilon/math/optimize/ga.py:380-401", "src/sigmaepsilon/math/optimize/ga.py:500-536"]}
{"id": "C130", "title": "Transforming a tensor does not depend on the tensors transformed before", "statement": "The components of a tensor in another frame are the components with one factor of the matrix for each index, whatever tensors were transformed before in the same process, of whatever dimension and with however many indices, although the order of the contractions found for the first tensor with as many indices is used for all later ones; einsum gives the same for every order of the contractions. Calls that are refused leave no trace.", "quantifier": "all sequences of calls with all numbers of indices and dimensions, all orders of contractions", "why_tests_cant": "The order kept in the class depends on which test ran first and on the version of numpy; a test process sees one history.", "anchors": ["src/sigmaepsilon/math/linalg/tensor.py:69-70", "src/sigmaepsilon/math/linalg/tensor.py:93-109", "src/sigmaepsilon/math/linalg/utils.py:227-242"]}
{"id": "C131", "title": "Rounded components of a tensor are accurate whatever was transformed before", "statement": "In floating point arithmetic the components of a tensor in another frame differ from the exact ones by no more than ((1+u)^(h r)-1) times the sum of the absolute values of the products, r being the number of indices and h the number of roundings on the way through one contraction, whatever order of contractions was kept from an earlier call, in whatever order the factors are multiplied and the products added, and with or without fused operations. Two histories give components that differ by roundings only; they need not be equal.", "quantifier": "all sequences of calls with all numbers of indices and dimensions, all orders of contractions, all ways to evaluate a contraction, all roundings with relative error u", "why_tests_cant": "A test sees the roundings of one machine, one order of contractions and a few tensors.", "anchors": ["src/sigmaepsilon/math/linalg/tensor.py:69-70", "src/sigmaepsilon/math/linalg/tensor.py:93-109"]}
{"id": "C132", "title": "The assertions shipped for tensors tell the truth", "statement": "assertTensorDualityRules and assertTensorTranspositionRules succeed for every vector and every tensor of every order in every sound frame; assertSymmetricTensor succeeds exactly if the tensor is symmetric, in whatever frame and units it is written.", "quantifier": "all dimensions, orders, components, frames and units", "why_tests_cant": "The assertions are used in the tests of the library on a few tensors with components of order one.", "anchors": ["src/sigmaepsilon/math/linalg/testing.py:10-31", "src/sigmaepsilon/math/linalg/meta.py:432-467"]}
{"id": "C133", "title": "Symbolic functions with many points at once, and as objectives", "statement": "A Function made from text or an expression, called with an array whose columns are points, gives one value for each point, the value at that point; so do the entries of its gradient. A genetic algorithm with such an objective runs exactly as with the plain function that evaluates it point by point. The number of variables is the one of the function, superfluous ranges do not matter, and any Function can be optimized if the ranges tell the number of variables.", "quantifier": "all expressions, all operations on numbers (floating point included), all numbers of points and variables, all populations, draws and numbers of cycles", "why_tests_cant": "Whether broadcasting produces an array of the right length depends on which variables an expression still mentions after simplification; tests call functions with one point or optimize one or two well known functions.", "anchors": ["src/sigmaepsilon/math/function/symutils.py:45-58", "src/sigmaepsilon/math/function/metafunction.py:28-67", "src/sigmaepsilon/math/optimize/ga.py:199", "src/sigmaepsilon/math/optimize/ga.py:461-519", "src/sigmaepsilon/math/optimize/bga.py:85-127"]}
{"id": "C134", "title": "One optimizer through cycles, new parameters, resets and failures", "statement": "However calls of evolve, set_solution_params, reset, solve, fitness, phenotypes and best_candidate follow one another on one optimizer, some of them raising, the champion is a member evaluated since the last successful reset, the best of them in the direction in force, and state.x and state.fun belong to it; solve has the effect of the calls it is made of.", "quantifier": "all subclasses of the genetic algorithm, objectives that may raise, random draws, parameters and finite sequences of calls", "why_tests_cant": "Tests run one solve or a few cycles with fixed parameters; what happens after a change of direction, after a rejected call or after an exception depends on the whole history.", "anchors": ["src/sigmaepsilon/math/optimize/ga.py:303-378", "src/sigmaepsilon/math/optimize/ga.py:380-459", "src/sigmaepsilon/math/optimize/ga.py:500-536"]}
{"id": "C135", "title": "Rotating the operands rotates the result", "statement": "If vectors and tensors given in one frame are all rotated by the same call of orient, then whatever is computed from them by +, -, *, transposition, dot (with and without axes, with and without frame) and cross is rotated in the same way: the same numbers, the same exceptions, and vectors and tensors turned by that rotation; rotations applied in series compose and can be undone.", "quantifier": "all rotations, all orthonormal frames, all vectors and tensors of any rank, all terms of any depth", "why_tests_cant": "Tests compare single products for a few rotated frames; that nothing computed from rotated data depends on the position in space is a statement about all compositions of all operations.", "anchors": ["src/sigmaepsilon/math/linalg/vector.py:145-198", "src/sigmaepsilon/math/linalg/tensor.py:137-172", "src/sigmaepsilon/math/linalg/utils.py:205-346", "src/sigmaepsilon/math/linalg/abstract.py:47-158"]}
{"id": "C136", "title": "A linear program given as text is solved as it is written", "statement": "If the objective and the constraints of a LinearProgrammingProblem are given as texts of linear functions (names, numbers, signs, parentheses, the four operations; the operator inside of the text or given apart), then the problem is accepted, and what solve reports is true of the texts: the returned values fulfil every constraint as it is written, with the usual precedence of operators on both sides, no other values that do so are better, the reported value is that of the text of the objective, and reports of infeasible and unbounded problems are right.", "quantifier": "all texts of linear functions of any length and depth, any number of constraints and variables, all bounds and kinds of integrality, minimizing and maximizing, every solver that keeps the documentation of linprog, every simplification that keeps the value of linear expressions", "why_tests_cant": "The way from a text to the solver has many steps (splitting at the operator, parsing, moving the right side to the left, collecting coefficients, signs, right hand sides); tests look at a few problems, a wrong step shows only for certain texts.", "anchors": ["src/sigmaepsilon/math/function/relation.py:82-165", "src/sigmaepsilon/math/function/symutils.py:21-62", "src/sigmaepsilon/math/optimize/lp.py:128-179", "src/sigmaepsilon/math/optimize/lp.py:188-330"]}
{"id": "C137", "title": "An objective that fails now and then does not spoil the optimizer", "statement": "If the objective raises during a cycle of evolve(), the call raises RuntimeError and the champion, the reported optimum and the parameters remain as they were. As soon as the objective works again, evolve() goes on, and the champion is the best of everything evaluated. An optimizer that cannot go on says so in every call with StopIteration and leaves population and champion alone, until reset() makes it as good as a new one.", "quantifier": "All subclasses that decode and breed, all histories of calls with an objective that may behave differently in every call, all places where it fails.", "why_tests_cant": "A test has an objective that always works, or one that always fails; what remains of the optimizer depends on which of the evaluations of which cycle fails and on what was cached before.", "anchors": ["src/sigmaepsilon/math/optimize/ga.py:280-290", "src/sigmaepsilon/math/optimize/ga.py:303-320", "src/sigmaepsilon/math/optimize/ga.py:380-401", "src/sigmaepsilon/math/optimize/ga.py:403-459", "src/sigmaepsilon/math/optimize/ga.py:461-519"]}
{"id": "C138", "title": "Unique values of a jagged array, however they are asked for", "statement": "np.unique(J, ...), J.unique(...) and unique2d(J, ...) of a JaggedArray of integers give the same: the sorted unique values, and, if asked for with the arguments that np.unique has, their positions, the inverse and the counts. They are right for every jagged array, regular or not, and do not depend on how it was made. The counts of joined arrays are the sums of the counts.", "quantifier": "All jagged arrays of integers however they are made, all combinations of flags, all lists of jagged arrays joined, all orders in which the parallel loops run.", "why_tests_cant": "A test has a few arrays; whether the three ways agree depends on what is wrapped, which depends on the widths of the rows and on the settings of the constructor.", "anchors": ["src/sigmaepsilon/math/linalg/sparse/jaggedarray.py:239-244", "src/sigmaepsilon/math/linalg/sparse/jaggedarray.py:296-338", "src/sigmaepsilon/math/arraysetops.py:25-122"]}
{"id": "C139", "title": "Symbols made from a template are one per index", "statement": "generate_symbols(template, indices) returns a list with one symbol per index, in the order of the indices, each named by the template with the index filled in; symbols for different indices are different. This holds for any number of indices, including one and none. A template with more fields than there are indices to fill in is refused.", "quantifier": "All templates, all lists of indices (negative, repeated, any length), with and without seq.", "why_tests_cant": "The names pass through str.format, a joined text and the parser of SymPy, and whether the names come back as they were depends on every character of the template and on the number of indices.", "anchors": ["src/sigmaepsilon/math/function/symutils.py:8-18"]}
{"id": "C140", "title": "approx_Lagrange_1d is close to the function behind the data", "statement": "If approx_Lagrange_1d(points, values) is given the values of a smooth function at n different points, then everywhere in an interval [a, b] that contains the points the result differs from the function by at most M (b - a)^n / n!, where M bounds the n-th derivative there. Errors of the values of at most eps change the result at t by at most eps times the sum of the absolute values of the Lagrange polynomials at t.", "quantifier": "All numbers of points, all sets of different points in any order, all functions with n continuous derivatives, all places t, all errors of the values.", "why_tests_cant": "A test compares with a few functions at a few places; the bound is about all functions with bounded derivatives and all places between them.", "anchors": ["src/sigmaepsilon/math/approx/lagrange.py:25-161", "src/sigmaepsilon/math/approx/lagrange.py:164-227"]}
{"id": "C141", "title": "Averages over neighbours are close to the function behind the data", "statement": "If the data given to MLSApproximator are values of functions at the sources, up to an error eps, and a target has k sources within the distance h, then each value returned for the target differs from the value of the function there by at most delta + eps, where delta is the most by which the function changes within the distance h of the target; with a Lipschitz constant L and exact data, by at most L h.", "quantifier": "All source and target points in any space with a distance, all functions, all numbers of neighbours, all ways to choose between sources at the same distance, all orders of the parallel loops.", "why_tests_cant": "A test looks at a few smooth functions on a grid; the bound is about all functions, all scattered sources and all ties.", "anchors": ["src/sigmaepsilon/math/approx/mls.py", "src/sigmaepsilon/math/knn.py"]}
{"id": "C142", "title": "Least squares fits are superpositions and close to the function behind the data", "statement": "least_squares, weighted_least_squares and moving_least_squares are linear in the data: values and reported derivatives are the sums of those of the fits of unit data (1 at one point, 0 at the others) times the data, and whether there is a fit does not depend on the data. Hence, if a polynomial of the chosen degree is within E of the data at the points that have a weight, and within E' of a function at x, then the fit at x is within E' + E L of the function, where L is the sum of the absolute values of the unit fits at x; the same holds for the derivatives.", "quantifier": "All numbers and positions of points in 1, 2, 3 dimensions, both degrees, all orders, all weight functions, all data with any number of records, all points of evaluation.", "why_tests_cant": "A test fits a few functions that are polynomials or nearly so; the bound is about all functions, all scattered points and all weights, and says what data at points without weight may do.", "anchors": ["src/sigmaepsilon/math/approx/ls.py", "src/sigmaepsilon/math/approx/ls_approx.py", "src/sigmaepsilon/math/approx/ls_preproc.py"]}
{"id": "C143", "title": "Gauss quadrature is exact for polynomials and converges for continuous functions", "statement": "The points and weights returned by gauss_points for one, two and three dimensions integrate every polynomial of degree below 2 n in each variable exactly over [-1, 1], the square and the cube. For a continuous function the weighted sum differs from the integral by at most twice the size of the domain times the distance from any such polynomial, and it converges to the integral as the numbers of points grow.", "quantifier": "All numbers of points in each direction, all polynomials of the degrees named, all functions that are continuous on the closed interval, square or cube.", "why_tests_cant": "A test integrates a few monomials with a few points; the statement is about all polynomials, all continuous functions and all numbers of points.", "anchors": ["src/sigmaepsilon/math/numint.py:17-119"]}
{"id": "C144", "title": "More bits give the binary genetic algorithm more precision, and the optimum of a continuous objective in the limit", "statement": "With length bits per variable every point of the box given by the ranges is met by some genotype up to (hi - lo) / (2 (2^length - 1)) in each coordinate, and for some points no genotype comes closer. When the best representable point was found and the objective changes by at most c_d per unit in coordinate d, no point of the whole box is better than the result by more than the sum of c_d times that precision. If the objective is continuous on the box then for every tolerance there is a number of bits from which on the probability that the result is optimal over the whole box up to the tolerance tends to one with the number of cycles.", "quantifier": "all ranges, numbers of variables and bits, points of the box, Lipschitz and continuous objectives, tolerances, minimization and maximization, and the populations, elites and distributions of C105", "why_tests_cant": "The box has infinitely many points and the objective is arbitrary; a test compares a few results of seeded runs with known optima.", "anchors": ["src/sigmaepsilon/math/optimize/ga.py:108-109", "src/sigmaepsilon/math/optimize/bga.py:34-35", "src/sigmaepsilon/math/optimize/bga.py:112-127", "src/sigmaepsilon/math/optimize/ga.py:380-401"]}
