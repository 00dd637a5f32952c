# Formal model of sigmaepsilon.math - design

The model is written in Lean 4 (`/verif/lean`, `lake build`). `properties.jsonl` lists
the properties, `MANIFEST.json` maps each of them to the theorems, `seeded/LOG.jsonl`
records the attempts to break the theorems with wrong programs.

## Layout

* `Verif/Prelude.lean` - Python exceptions as values, in-place arrays.
* `Verif/Model/*.lean` - one module per source module (or group); every definition cites
  the file and the lines it models and names its simplifications.
* `Verif/Proofs/*.lean` - helper lemmas about the model.
* `Verif/Props/*.lean` - the property theorems, each beside an `example` that meets its
  hypotheses. Where a property speaks about an abstract notion (graph distance, least
  multiple of four, ...), its specification is defined at the top of the file,
  independently of the model.

## Trusted base

* Lean's kernel; the axioms `propext`, `Classical.choice`, `Quot.sound` (no others;
  no `sorry`, `native_decide`, `bv_decide`, no added axiom). `#print axioms` of every
  manifest theorem is checked with `tools/axioms.sh`.
* Mathlib as installed.
* The reading of the Python source as the Lean definitions. In particular:
  * **Numbers.** Floats are modelled as elements of an arbitrary (ordered) field, i.e.
    exact arithmetic. NaN (except for objective values, C104), infinities, overflow and fixed-width integers are not
    modelled; rounding is modelled in `Model/Rounding*` and `Model/Rounded*` only (C101-C103, C106, C107). Tolerance constants (1e-12 ...) are kept as exact numbers where the
    code compares against them.
  * **Randomness.** Each random draw is a universally quantified input, restricted only
    by numpy's contract (`choice(replace=False)` returns distinct members of its pool ...).
  * **Exceptions.** Functions return `Except PyErr a`; messages are dropped.
  * **Loops.** `for` loops are folds over lists, `while` loops are fuelled or well-founded
    recursions, and the theorems show that enough fuel exists or state that none does.
    `prange` loops are folds over an arbitrary permutation of the iterations.
  * **Libraries.** numpy, scipy, sympy, awkward, numba calls are modelled by their
    documented mathematical meaning (`np.linalg.inv` = matrix inverse with an error for
    singular input; `np.where`, `np.argsort`, `np.argmin`, fancy indexing ...).
    scipy's LP solver, KD-trees, leggauss and sympy's simplifier are not modelled;
    their results enter as quantified inputs.
* Not modelled at all: numba compilation, caching, the scheduler of threads
  (C123 holds for every interleaving of single accesses), plotting/printing, `repr`, docs, `metautils`, the moment at which
  weak references die (C122 holds for every such moment; elsewhere the registry of a frame is the list of its live tensors).

## What is modelled of each source file

| source | model | not modelled |
|---|---|---|
| `optimize/ga.py`, `state.py` | `Model/GA` (constructor, parameters, pairing, champion, evaluation cache, `evolve`, `solve`, `Genom`), `Model/GAObject` (the optimizer as an object), `Model/GANan` (nan as objective value), `Model/GAMem` (memory handed out), `Model/GAChance`, `Model/GALaws` (distributions) (random draws as random variables) | timing, `reset` keyword forwarding beyond its effect on the state |
| `optimize/bga.py` | `Model/BGA` (decode, crossover, mutate, divide, select, populate), `Model/Rounding` (decode with rounded arithmetic) | - |
| `optimize/lp.py` | `Model/LP` (translation, options, result value), `Model/LPSolve` (`solve` with options) | the solver of scipy (quantified result) |
| `function/relation.py`, `function.py`, `symutils.py` | `Model/Relation`, `Model/Expr`, `Model/Coeffs` (coefficients, linear coefficients, `is_linear`), `Model/Calculus` (value, gradient, Hessian), `Model/Symbols` (symbols with equal names), `Model/FunctionObj` (construction, `update`, `subs`, classes; also `metafunction.py`, `testfunction.py`) | sympy's simplifier; sympy expressions are trees evaluated over a field |
| `function/functions.py` | `Model/TestFunctions` | - |
| `linalg/solve.py` | `Model/Solve`, `Model/SolveApi` (`linsolve` with all methods, `reduce`, `npsolve`, in-place calls, shapes), `Model/RoundedSolve` (with rounded arithmetic) | - |
| `linalg/sparse/*` | `Model/Sparse`, `Model/JaggedObjects` (as containers), `Model/CsrMem` (memory) | `repr`, numba typing registration, awkward internals |
| `linalg/frame.py`, `meta.py`, `vector.py`, `tensor.py`, `testing.py` | `Model/Frames`, `Model/Testing` (assertions), `Model/FrameMem` (memory layout, sharing), `Model/TensorOps`, `Model/TensorProg` (programs, which frame object a result lives in), `Model/WeakRefs` (registries as dictionaries of weak references under addresses), `Model/RoundedEinsum`, `Model/EinsumPath` (order of contractions, `Tensor._einsum_params_`), `Model/Einsum` (index letters of general tensors), `Model/Stacks` (stacks of vectors, frames and tensors, constructors), `Model/FrameNew` (arguments of the constructors), `Model/RoundedNormal` (constructors in floating point), `Model/Close` (`np.allclose`, `np.isclose`), `Model/Rotation`, `Model/RotationSym` (`rotation_matrix`, `orient`), `Model/Objective` (terms of rotated objects), `Model/FrameArith` (operators of frames, `chop`, `minmax`), `Model/FrameUfunc` (universal and other NumPy functions of frames) | broadcasting beyond numbers |
| `linalg/tr.py`, `linalg/utils.py` | `Model/TrKernels`, `Model/Frames`, `Model/Graph` (levels), `Model/LinUtils` (norms, segments, generalized inverses, permutation tensor, unit vectors, random definite matrices), `Model/SymInv` (symbolic inverse), `Model/Products` (compiled products), `Model/Parallel` (all parallel loops of the package, access by access), `Model/TensorMem` (memory behind tensors), `Model/Mixed` (tensors meeting other objects), `Model/Layout` (memory layout of components) | see the table of functions in the files |
| `linalg/logical.py`, `decorate.py` | `Model/LinUtils`, `Model/Frames` | rank and eigenvalues of numpy are those of mathematics |
| `graph/*` | `Model/Graph` | `networkx` import/export |
| `utils.py`, `arraysetops.py`, `hist.py` | `Model/Utils`, `Model/ArraySetOps`, `Model/DTypes` (`itype_of_ftype`), `Model/Hist`, `Model/RoundedUtils` (ranges and bin centres in floating point), `Model/Choice` (random choices) | `np.histogram` enters by its documented behaviour |
| `logical.py`, `numint.py` | `Model/Numint`, `Model/LinUtils`, `Model/DTypes` | `np.polynomial.legendre.leggauss` (argument) |
| `approx/*` | `Model/Lagrange`, `Model/LeastSq`, `Model/Weights`, `Model/Knn`, `Model/MlsObj` (the object, shapes), `Model/FitObjects` (shared state) | sympy's `solve` in `gen_Lagrange_1d` enters as "the solution of the Vandermonde system" |
| `knn.py` | `Model/Knn` | the tree search of scipy/sklearn enters by its specification `QueryOK`, shown to be satisfiable |
| `downloads.py`, `metautils.py`, `mathtypes.py`, `imap.py` | - | no behaviour covered by the properties |

## Methods per property

Genetic algorithms
* C01 arithmetic on the constructor against the spec "least multiple of 4".
* C02 the generator as a recursion over the shrinking pool; every draw that numpy may
  return is allowed. Induction over the pool.
* C03/C04/C11/C14 one evolution cycle as a function of the draws; counting and membership
  by induction over the tournament and pairing loops, then over cycles.
* C05/C06/C07/C08/C12 the optimizer as a state machine (population, cached fitness,
  champion, age, state record); invariants by induction over operation sequences, `solve`
  as a fuelled loop with a proof that the fuel suffices.
* C09/C10 bit-level functions; sums of powers of two, cut lists.
* C13 keyword record, C15 order facts from a linear order on the fitness.

LP and relations
* C16-C19, C22 affine expressions as coefficient maps plus constant, translation row by
  row, dense and triplet form compared entry by entry. Rounding enters C16 only through an
  arbitrary rounding function that may absorb a small shift.
* C20 the regular expression as a search over all splits; C21 a grammar with printer and
  parser and the theorem that the glued string `lhs - (rhs)` parses to the difference.
* C21 also at the level of characters: `Denotes` gives a text its value directly (names, integers,
  decimals, blanks, signs, parentheses, the four operations) without tokens or trees, and the
  parser, the relation and its decision are proved to agree with it for all such texts.
* C23 expression trees, sequential substitution; evaluation lemma by induction on trees. A call gives each variable the value at its position (`C23_call`).
* C24 algebraic certificates (sums of squares) over the reals. The minima of Himmelblau's function are the zeros of a quartic, one of which is 3;
  sign changes of the other factor locate the rest (`Props/Himmelblau.lean`), so the list is complete and right up to 1e-6.

Linear algebra
* C25/C26 elimination as folds of row operations; invariant "same solutions of the
  constrained system"; backward substitution by induction; leading minors for C26.
  `C25_minors`/`C26_minors` replace the condition on the run by one on the matrix: an elimination step
  divides every bordered minor of the unknowns that are not prescribed by the pivot (row operations leave
  determinants alone), so every entry met during the run is a quotient of two such minors of the input.
* C27-C30, C38, C61 lists of rows, flat data, pointers; round trips by list induction.
* C42-C50, C62-C65 frames as matrices, components as functions of index tuples, the object
  graph (frames and attached tensors) as a state machine; objectivity is an invariant of all
  sequences of operations.
* C77 arrays and frames as views (block, offset, order) of shared memory; ownership of the
  block of a new frame as an invariant of all programs.
* C79-C81 stacks as lists of members, parallel loops with arbitrary schedules; each member is
  compared with the rule for a single one; constructors as decisions about lists of axes.
* C49, C51 kernels as loops with arbitrary schedules, compared with the multilinear rule,
  with Mathlib's inverse, determinant and adjugate.

* C67/C68 disjoint writes under arbitrary schedules, Euclidean norm over the reals.
* C69 rank against invertibility of the Gram matrices, projection argument for least squares
  and least norm; C70 rank against linear independence.
* C71 fold over all permutations; determinants of permutation matrices; Leibniz formula.
* C73-C75 eigenvalues as roots of the characteristic polynomial over the complex numbers;
  the real part of an eigenvalue as a quotient of quadratic forms; spectral theorem for
  symmetric matrices.
* C72, C76 list arithmetic; containers as an inductive type.

Arrays and graphs
* C31 sort/dedup specification; C32-C37, C39 index arithmetic, independence of the order of
  disjoint writes for C34; C40/C41 search invariant against distances defined by walks,
  termination by counting unvisited nodes.

Approximation
* C52 symmetric moment matrices; C53 normal equations; C54, C55, C66 `HasDerivAt` and
  Frechet derivatives; C56 Vandermonde systems; C57 convexity; C58 argument passing and
  specification of the search; C59 product lists; C60 order facts.

* C78 both arguments are brought to the ambient frame, so the answer is a function of the
  ambient components, which C43 shows to be frame independent; comparison itself by cases on ranks.
* C82 keys are products of symbols, constants and opaque factors; sums over a dictionary built by
  merging and updating are computed by induction over the terms; degrees by counting factors.
* C83 expression trees over the reals with partial evaluation; induction over the tree gives the
  derivative (Mathlib's `HasDerivAt`) of each rule of differentiation, its definedness and the
  equality of mixed derivatives; positions of arguments by `point_set`.
* C84-C85 rotation matrices as products of three plane rotations over the reals, matrix algebra;
  series of rotations by induction over the list.
* C86-C87 results of the operators by cases on operator, class and operand; the heap of C42 gives
  freedom from side effects; `v.frame = A * c` by computing the direction cosine matrix `1/c`.
* C88 the elimination is repeated with the state it leaves behind on failure; every step keeps the
  defects of points that fulfil the free equations, in both directions, hence equivalence by induction
  over the equations without any condition on the pivots; forms by induction over the pivot columns.
  The entries of Jordan's elimination above the pivots are, by Cramer's rule for the diagonal part reached
  so far, quotients of leading minors with one column replaced; so "nothing is skipped" is a condition on
  the matrix alone (`C88_diagonal`, `C88_whole_numbers`).
* C89 expression trees with evaluation (partial: no value at a zero denominator); sequential
  substitution has the value of the expression at the updated point, by induction over the table.
* C90 products as sums; the congruence is characterized by its quadratic form, which gives symmetry,
  transitivity and definiteness for all sizes.
* C91 counts as differences of cumulative counts, compared with a count of the data inside each
  interval by induction over the edges; the documented behaviour of `np.histogram` is part of the model.
* C92 a case distinction over all scalar types of NumPy (a finite type), for all shapes.
* C93 symbols are pairs of a name and assumptions; compiled code binds names, derivatives and
  substitutions look at symbols. By induction over expressions and over the list of variables, the
  construction keeps the names in place and changes no value that depends on names only.
* C94 (and C01 about constructed optimizers) the methods are put together into an object with its
  settings; a run of `solve` is a sequence of iterations (C07), along which an invariant (champion is a
  member of a generation so far and not beaten by any of them, caches belong to the population) holds by
  induction. For the binary GA every iteration succeeds (C03), so the run does.
* C95 the constructor is run branch by branch; acceptance is characterized by an equivalence and every
  kind of refusal by its exception.
* C96 what every crossover preserves is preserved by breeding and, by induction over the generations given
  by C94, by a whole run; applied to "is one of the drawn individuals" and "has only drawn bits".
* C97 `Model/FunctionObj`: the keyword arguments are an ordered dictionary, the object a record of its
  attributes, `update` a state change that may raise half-way, a class hierarchy a method resolution order of
  classes with the links set by the metaclass. What SymPy does is a parameter. By case distinction on what
  was given; lookups in dictionaries and class hierarchies by induction over them.
* C98 `Model/FrameUfunc`: a universal function is any function of entries with any number of arguments and
  results; the call is a state change of all frames, tensors and arrays of the user, with the checks, the copies
  of the outputs and the order of the assignments as in the code. The calls of ordinary functions are a
  recursion with a limit. Outputs by induction over their list, objectivity with the invariant of C42.
* C99 `Model/FitObjects`: a session is a list of operations on data arrays, point arrays, weight functions and
  fits; weight functions refer to their core, moving fits refer to their data and their weight function. The
  claims hold after any list of operations, by induction over it (no operation removes or replaces a fit).
* C100 `Model/JaggedObjects`: a session is a list of operations on 2d arrays in memory and jagged arrays, which
  refer to such an array or hold an awkward array. Every operation grows the list of objects, allocates an array or
  writes to one array it names (`Eff`); the claims about all later times are inductions over the session.
* C101, C102 `Model/Rounding`: kernels are written down a second time with a rounding `fl` after each operation. The
  order claims hold for every `fl` that is monotone, idempotent and odd (`IsRounding`); the error bounds for every `fl`
  with a bound on the relative error (`Precise`), by counting roundings along the computation (`Near`) and induction
  over the terms of a sum. `binary p` is round-to-nearest-even with `p` bits; it is shown to be such a rounding
  (`double_rounding`) and to return a closest number (`binary_nearest`). At `fl = id` the kernels are those of the
  other properties (`exact_decode`, `exact_linspace`, `exact_approximate`). That four equal numbers are averaged
  without error is a case distinction on the binade of `3c/4`.
* C103 `Model/RoundedFrames`: scalar products are evaluated along a plan, a tree of products, sums and contracted
  multiply-adds that uses each component once; nothing else is assumed about the linear algebra library. Errors are
  counted along the height of the tree (`eval_near`), through products of inexact matrices (`matmul_near`), and bounded
  by sums of absolute values along rows. The inverse in the dual frame enters by its residual.
* C104 `Model/GANan`: objective values in `WithTop K`, where `⊤` is nan. `np.argsort` puts nan last, which is the order
  of `WithTop K`; comparisons with nan are false and `argmin`/`argmax` return the first nan, which is written out. For
  defined values the run is that of `Model/GA` (simulation). Induction over the cycles with the list of all populations
  as ghost state; the loop of `solve` by induction over the fuel.
* C105 `Model/GAChance`: the draws that `Model/BGA` takes as arguments get a distribution (Mathlib's `PMF`): the number
  deciding on the first crossover of a cycle and those mutating its first child are independent, the other draws have
  any distribution, which may depend on the earlier cycles. In a generation the first child before mutation does not
  depend on those numbers, so every bit string is hit with a probability of at least `δ` (induction over the bits);
  an optimal champion stays (C05); induction over the cycles gives `(1 - δ)^k`. Bit strings decode exactly to the grid
  (surjectivity by induction over bits and variables).
* C106 `Model/RoundedSolve`: the functions of `Model/Solve` with a rounding after each operation (which agree with them
  for the identity, `exact_linsolve`). For each equation the defect of the computed unknowns, without the columns that
  were cleared, is followed through the steps: a step changes it by a multiple of the defect of the pivot row, which is
  not touched later, and by an error. Together with the error of the backward substitution (induction over the terms of
  the sums) this bounds the defect in the original system without exponential factors for 'Gauss-Jordan'. For 'Jordan'
  all columns are kept and the bound contains what is left below the diagonal and a factor `(1 + F)^n`.
* C107 `Model/RoundedTurns`: `orient`, the setter of the axes and changes of the frame of a vector, with a rounding after
  each operation. Induction over the sequence of rotations: the Gram matrix of the new axes differs from the old one by
  `A (R Rᵀ - 1) Aᵀ` and by rounding errors; the error of an early rotation is multiplied by the product of the later
  rotation matrices, which is bounded for the same reason. That the columns are orthonormal if the rows are follows from
  the equality of the traces of `(AᵀA - 1)²` and `(AAᵀ - 1)²`. For vectors the invariant is the vector in space.
* **Calls that return** (`Props/Returns.lean`, C05, C37, C42, C44, C45, C46, C52, C64, C88, C94). Theorems of the
  form "if the call returns, then …" would also hold for a program that refuses everything. For the calls named
  here the conditions under which they return are theorems of their own: a fresh `solve` of any subclass
  whose hooks do not raise (invariant over the passes), `best_candidate()`, moving least squares (exactly if
  the points with positive weight determine the polynomial), duals, contractions and changes of frames for
  sound frames, and `reduce` (exactly if `linsolve` does, and by the minors of the matrix).
* **C108** (`Model/Einsum.lean`). `numpy.einsum` is modelled with its implicit output: letters that occur once, in
  alphabetical order, are the axes of the result. The commands are those the code writes. Proved: the command of
  `transform_components` multiplies every index with the matrix, the command of `dot` contracts the two positions
  and keeps the order of the rest (sorted lists with the same members are equal, so the output is found without
  running the filter); from this the statements about what the tensors stand for.
* **C109** (`Model/MlsObj.lean`). The object with its slots and arrays with shapes; every call returns a result and the
  object afterwards. Independence of the history by induction over the list of calls and assignments. The values follow
  from the theorems on the kernels (C57) after the arrays are cut into rows.
* **C110** (`Model/CsrMem.lean`). A memory of buffers with an allocation counter and the matrices as references to
  buffers; `astype` allocates, slices refer. The invariant that every matrix has its own three buffers is preserved by
  every operation (`step_eff`), so that it holds after all sessions (`C110_sessions`, by induction). Double precision
  is `binary 53` of the rounding model (subnormal numbers and overflow are not modelled), 32 bit integers are residues.
  `C110_row_view` gives the whole effect of an assignment to an entry of a row. Not modelled: the branch for awkward
  arrays (its result is C28's), slices with negative bounds after an overflow of `indptr`.
* **C111** (`Model/RoundedNormal.lean`). The constructors with a rounding after each operation, over the real numbers.
  Scalar products along plans (as in C103), sums along binary trees; the norm of compiled code is any function with a
  small relative error. Errors of sums and scalar products by induction over trees and plans, then the
  Cauchy-Schwarz inequality. `C111_accepted` is the converse: what passes the tests is orthonormal up to 2^-15 and
  n 2^-15. Underflow and overflow are not modelled.
* **C112** (`Model/FrameNew.lean`). The constructors and `eye` as functions of what was passed: axes (nothing, array, nested list, something
  ragged), dimension (nothing, integer, NumPy integer, tuple), flags. Arrays are shapes and lists of entries, NaN is
  `none`. By cases; `C112_refused` is an equivalence, `C112_stack` uses the theorem on `repeat` (C33).
* **C113** (`Model/RoundedUtils.lean`). `to_range_1d`, `bin_centers` and `linspace` for points with a rounding after each
  operation. Order by monotonicity of the rounding alone, error bounds by counting roundings (as in C101); the
  norm in `linspace` cancels, hence its accuracy does not matter. Violations with `binary 53`, evaluated by the kernel.
* **C114** (`Model/GALaws.lean`). The draws that `Model/BGA` and `Model/GA` take as arguments get the distributions NumPy documents
  (Mathlib's `PMF`): uniform selections without replacement, uniform bits, uniform multiples of `1 / N`. One tournament is
  uniform and independent, all others may follow any distribution. The theorems are about `select`, the generator of
  pairs, `decode` and `mutate` of the model, evaluated at the draws. `C114_tournament` and `C114_chance` by counting embeddings,
  `C114_better` by an injection of the draws (exchange of the two positions), `C114_pairs` by induction on the number of
  pairs, `C114_start` by injectivity of the decoding, `C114_mutation` by counting functions (a product of finite sets).
* **C115** (`Model/NanData.lean`). Entries are `Option K`, `none` is NaN: operations with NaN yield NaN, comparisons with NaN are
  false. The elimination, the back substitution, `clip1d`, `indices_of_equal_rows`, `isclose` (one pair) and the kernel of the
  approximation are written again for such entries, and `C115_numbers` ties the solver to the one of C07.
  `C115_solve` and `C115_constrained` by an invariant of the elimination: every row with a NaN keeps one, and a NaN left of the
  diagonal has reached all right hand sides of its row. `C115_prescribed` follows the order of the back substitution,
  `C115_columns` is a simulation between the systems with all and with one right hand side.
* **C116** (`Model/RoundedClosed.lean`). The formulas of the closed-form inverses are kept as expressions and evaluated with a
  rounding after each operation; a plan says which products are contracted with the sum they belong to. By induction over the
  expression the rounded value is within `(1+u)^depth - 1` times the value of the expression with all signs positive
  (`round_near`), for every plan; the bound for the quotients follows. For order two without contraction the determinant of a
  singular matrix is exactly zero (`C116_singular2`). The quadrature rules are those of C59 with rounded products.
* **C117** (`Model/CsrNumba.lean`, on the memory of C110). A compiled function is a list of accesses to the matrix; `unbox` hands
  over references, `box` calls the constructor. Indices are not checked: what lies outside of the array meant is `none`.
  `C117_same_partial` by induction over the accesses: each one that succeeds outside does the same inside. `C117_returned`: the arrays of
  the new matrix are new, and conversion changes nothing since the numbers fit (`C117_fits`, `C117_fits_kept`).
* **C118** (`Model/Independent.lean`). Exactly: the determinant of `A Aᵀ` is never negative (positive semidefinite) and vanishes exactly if
  the rank of `A` is smaller than the number of rows. With rounding, for two vectors: scalar products along any plan (as in C103),
  elimination with partial pivoting, division by the pivot or multiplication by its reciprocal, contracted or not; `np.linalg.det`
  returns the sign of the pivots times a positive number. `C118_rounded_partial` shows that the second pivot keeps its sign if the squared
  sine of the angle exceeds `5 ((1 + u)^(h + 1) - 1)`. The violations hold for every plan and every variant of the elimination.
  For any number of vectors (`Model/IndependentMany.lean`) elimination goes column by column, with the largest entry as pivot. By
  induction over the columns the computed sign is that of the determinant of a matrix nearby (`C118_backward`, with a bound that doubles
  with each vector, as it must for partial pivoting); a positive form has a positive determinant, so vectors whose least singular value
  is large enough are independent (`C118_rounded_many_partial`). Blocked variants of the elimination are left out.
* **C14, fractions** (`Model/EliteShare.lean`). `int(elitism * nPop)` with a rounded product: the elite is the best `⌊fl (q n)⌋`
  individuals; `C14_share_written` gives the conditions under which this is the share that was written down.
* **C119** (`Model/RoundedFit.lean`, `Model/RoundedHess.lean`). The moment matrices, the basis, the shape functions and the products with the data, rounded after each
  operation; scalar products along any plan (as in C103). The inverse of the moment matrix is whatever `np.linalg.inv` returns: the bound
  holds with its residual and its size. `c · (A R - 1) b` is what an inexact inverse contributes to the value of the polynomial with the
  coefficients `c`, and the same with `b' - A' R b` instead of `b` to its derivative, and with the right hand side of the second `gamma` to a
  second derivative (`C119_second`).
* **C120** (`Model/RoundedLP.lean`). The exact numbers collected by the model of C16, converted entry by entry where the code stores them in
  arrays of floats, and the constants rounded once by the generated code. Each row is off by `u` times the sizes of its terms; the shift of a
  strict inequality can only tighten the rounded bound, by monotonicity.
* **C121** (`Model/TensorProg.lean`). The operators act on the object graph of C42: results live in the frame object of the left operand
  (`*`, `/`, `-`, `dot`), in a new `ReferenceFrame` (`+`, binary `-`, `deepcopy`), in a new frame of the same class (`transpose`) or in the dual
  frame; in-place operators keep the object and its frame. Exceptions are caught and logged. The specification is a machine without frames;
  `C121_simulation_partial` is a forward simulation, by induction on the program, with the invariant that the registries are in order and all
  frames are sound. Conditions: statements about frames are those of C42 that make no tensors, and leave sound frames; divisors are not zero.
* **C122** (`Model/WeakRefs.lean`). The registry of a frame is a dictionary from addresses (`id`) to weak references, as in the code: an entry is
  overwritten if the address is there already, and goes away with the tensor. The allocator is an arbitrary choice made by the program (an address at
  which no live tensor is). Invariant by induction: the dictionary of `f` holds exactly the live tensors of `f`, under their addresses. That addresses do not
  matter is a relation between two runs of the same program with different allocators, kept by every statement. "Forgetting" stands for the moment the
  interpreter frees the object; the theorems hold for every such moment, so neither reference cycles nor the collector matter.
* **C123** (`Model/Parallel.lean`). A thread is a tree of single reads and writes of the shared arrays; `x += y` is a read followed by a write. Threads
  get any lists of iterations (together each iteration once), and a schedule of any length says whose turn it is; an access outside an array is an
  outcome of its own (`none`), because compiled code does not check bounds. One lemma (`prange_correct`) does the concurrency: if each iteration, executed alone, writes only
  cells it owns and reads only these and cells nobody owns, then every interleaving keeps, for each thread, a private view that agrees with the shared memory on the cells the thread
  may see; hence the result of the sequential loop, no access outside, and an upper bound for the number of turns. The theorems then give the documented value of every cell per kernel.
  Simplified: exact numbers; the inner `prange` loops run in the thread of the outer iteration, as Numba does; array expressions such as `dcm @ x` are computed in private memory before the slice is
  written (for copies without a temporary array, cell by cell); sequentially consistent memory (no kernel has two threads at one cell, so weaker memories give the same).
* **C124** (`Model/TensorMem.lean`). Arrays are objects which refer to cells of blocks of memory, tensors refer to array objects, so `t.array` and a slice of it are aliases as in NumPy.
  An invariant, kept by every statement, says that no two tensors have a block in common; a second fact is that a statement never moves or resizes an existing array object. From these: which arrays
  share memory (`numpy.shares_memory`) after each statement, which statements can change which entries, and that an array taken from a tensor stays its array. Programs are lists of statements
  which refer to arrays and tensors by number, so every aliasing pattern is covered. Simplified: arrays are flattened, slices are lists of distinct positions (NumPy's basic slicing), and the formula for the conversion of components is a
  parameter which may raise.
* **C125** (`Model/Mixed.lean`). One function `run` takes an entry point (`dot`, `cross`, a NumPy function, a universal function, an operator, an in-place operator) and two arguments, each a
  tensor, a frame, a number, an array, a list or something else, and follows the dispatch of Python and NumPy. What NumPy computes from plain arrays is a parameter. The theorems go through all
  combinations: which raise and what (`C125_left`, `_right`, `_number`, `_tensors`, `_kinds`, `_frame_operator`), and that whatever does not raise is independent of the frames
  (`C125_objective_partial`), outside the list `Bare`, on which it is refuted, and the products of C45 and C46. Keyword arguments and calls with more than two arguments are left out.
* **C126** (`Model/LPSolve.lean`). `solve` with all its keyword arguments: `_to_scipy` (C16 to C22), the update by `**kwargs`, the method, the call, the new value of the objective. `linprog` is a
  parameter; `Faithful` says what its documentation promises (success: a minimum among the points of the call; status 2: there is no point; status 3: unbounded), and that integrality is used by the
  method `"highs"` only. Proved is that the points of the call are those which satisfy the constraints, bounds and integrality of the problem (`points`), whence optimality. A solver which is faithful is
  defined by choice, for the examples and the counterexamples.
* **C127** (`Model/Layout.lean`). Arrays are memory with a shape, strides and an offset. `ascontiguousarray`, the copy by `np.array`, which keeps the nesting of the axes, and `ndarray.__new__` on a
  buffer, which reads memory in C order, are modelled after NumPy. Places in C order and in Fortran order are injective (mixed radix numbers), so copies have the components of the original
  (`C127_default`). Conversion of the items to `float` is left out here.
* **C128** (`Model/Choice.lean`). `np.random.choice` is modelled after NumPy's `RandomState.choice`: the checks, `cumsum`, the division by the last sum, one uniform number for each entry and
  `searchsorted(side="right")`. The uniform numbers are a parameter; that they are uniform and independent is trusted. With any monotone rounding the last of the divided sums is exactly 1 and sums do
  not grow at items with probability zero, so a search never leaves the list nor finds such an item (`C128_members`).
* **C129** (`Model/GAMem.lean`). Arrays, lists and genoms have addresses; the optimizer holds addresses and may have phenotypes and fitness cached. Programs are lists of statements, exceptions are
  caught. The invariant says that caches belong to the array in force and that the champion is right; statements that do not write extend memory only. Decoding and evaluation are member by member and
  do not raise; the count of evaluations is left out (C08).
* **C130** (`Model/EinsumPath.lean`). `numpy.einsum` with an order of contractions: each step replaces some operands by their product summed over the letters that occur neither in the other operands nor in
  the output. The sum over all letters that do not occur in the output is the same before and after a step (`contractStep_sum`: sums over disjoint letters commute, factors without the letter move out), so every
  complete order gives what `einsum` gives at once. The class attribute is a state that the calls hand on; the invariant is that it holds the command for the number of indices and some complete order.
* **C131** (`Model/RoundedEinsum.lean`). The contractions of C130 with a rounding after each operation; a step is evaluated by any plan that has every product once with every operand once. Each operand is followed
  with its exact value, its bound by absolute values and its number of roundings (`Quad`); a step adds up the numbers of roundings of the operands it takes and the height of its plan (`contractQuad_good`). The exact
  values and the bounds run through the exact steps, so C130 tells what they are. `C131_history_matters`: with double precision numbers a tensor of another dimension transformed before can change the last digits.
* **C132** (`Model/Testing.lean`). The assertions of `linalg/testing.py` on single vectors and tensors with exact components and the tolerances of `numpy.allclose`. What is compared is known from C43, C47, C62 and C65;
  that the constructors on the way do not raise in sound frames is `mkFrame_sound`.
* **C133** (`Model/Vectorised.lean`). The code made by `lambdify` works on numbers and one dimensional arrays with NumPy's broadcasting; operations are arbitrary functions of one and two numbers, so
  roundings, `inf` and `nan` are included. By induction on the expression. The optimizer is modelled once more with a fitness that may be a number; for plain functions it is the one of `Model/GA`
  (`C133_plain`), and `C133_run_partial` compares the runs with a symbolic function and with the plain function that evaluates it point by point.
* **C134** (`Model/GASession.lean`). A session is a list of calls on one optimizer object; exceptions end only the call in which they occur and leave behind what the code leaves behind (assigned
  parameters, a finished generator, half filled caches). By induction on the list; `solve` is shown to be such a list of calls up to counters and status (`C134_solve`).
* **C135** (`Model/Objective.lean`). Terms over given objects and numbers with `+`, `-`, `*`, negation, `.T`, `dot` and `cross`, evaluated by the models of the single operations (C45-C47, C65, C108). By
  induction on the term: the relation "same frame, ambient components rotated by `S`" is kept by every operation, exceptions included. `S` is `Eᵀ Rᵀ E` for objects in frames with the axes `E`. The relation
  does not ask for equal frames: with orthonormal frames of their own for all objects it gives rotations in space (`C135_space`) and, for `S = 1`, independence of the frames (`C121_terms`, `C121_terms_noCross`).
* **C136** (`Model/LPText.lean`). The pieces of C20, C21, C16 and C126 put together: `LinText` gives texts of linear functions a value without tokens and trees, `Says` gives the arguments of a constraint
  an operator between two functions. Induction on the text shows that it is read as a linear expression of the same value and without other variables; a simplification that keeps these two things (`Simplifies`;
  `expand` is one) then gives a `Regular` problem in the sense of C126, whose points are those that satisfy the texts.
* **C137** (`Model/GAFailures.lean`). A history is a list of calls, each with the objective in force during it. `OwnCaches` (the caches belong to the population at hand, which is a good one) is an invariant of
  every history; with it every exception of a cycle is traced to the objective or to the finished generator, by cases over where the generator is suspended and what is cached. That a finished optimizer stays
  finished is an induction over the calls without a reset. What is asked of a subclass (`Sound`) is relative to the populations it keeps to, the draws of the generator and the parameters it can breed with;
  `bga_sound` shows that the binary GA meets it, and `C137_bga_partial` draws the conclusions for it.
* **C138** (`Model/JaggedUnique.lean`). What `init` of C29 makes is passed to `unique2d` of C31 the way `__array_function__` and the last branch of `unique2d` do it. `Proper` is an invariant of the
  constructor and of joining. That positions of a regular array, read row by row, give its flat data (`flat_positions`) carries the counts of C31 over to the rows.
* **C139** (`Model/GenSymbols.lean`). `str.format`, `" ".join`, and the splitting done by `sympy.symbols` are functions on lists of characters; what SymPy does is taken from its source. Splitting undoes joining
  (`words_join`, `commas_listing`, by induction over the names); that different numbers have different digits comes from reading the digits back (`Nat.ofDigitChars_toDigits`). The names in the theorems are
  written with `toString`.
* **C140** (`Model/Lagrange.lean`, as C56). The polynomial returned is Mathlib's `Lagrange.interpolate` by the uniqueness in C56. The remainder comes from Rolle's theorem: a function and a polynomial that agree at
  `n + 1` places have the same `n`-th derivative somewhere between (`agree_somewhere`, by induction over `n`), applied to the interpolation polynomial plus the multiple of the product of the distances that makes it
  agree at `t`, too. The effect of wrong values is linear, with the Lagrange polynomials as weights. Real arithmetic; roundings are not modelled.
* **C141** (`Model/Knn.lean`, as C57). The averages of C57 are over `k` sources none of which is farther than a source left out; if `k` sources are within `h`, then by counting the sources averaged are, too
  (`nearest_within`), and the mean of values within `delta + eps` of a number is within `delta + eps` of it. The points are of any type with any function as distance; exact arithmetic.
* **C142** (`Model/LeastSq.lean`, as C52). The data enter a fit only as the last factor of the products, so that a fit is a row of numbers, the same for all data, times the data; for unit data it is this row
  (`C142_superposition`, for values, gradients and second derivatives). With C52 the rows reproduce polynomials (`C142_moments`), and the entries for points of weight zero vanish (`C142_local`). The bounds
  follow by the triangle inequality. The derivatives are those reported (see C66 for when they are derivatives of the values). Exact arithmetic.
* **C143** (`Model/Numint.lean`, as C59). Integrals are those of Mathlib over the reals (`int2`, `int3` are iterated integrals). Polynomials are sums of products of powers, which the product rules integrate
  like the one dimensional ones by C59. A continuous function is compared with a polynomial: the weights sum up to the size of the domain, as do the integrals; the theorem of Stone and Weierstrass gives the
  polynomial for the convergence. `numpy.polynomial.legendre.leggauss` is an argument, `IsGauss` is its documentation.
  `C143_documented` (`Proofs/GaussExists.lean`) shows that this assumption can be met for every number of points and determines the rule: a polynomial orthogonal to those of lower degree has no factor without change
  of sign, hence as many different roots in the interval as its degree says; division by it extends the interpolatory rule to the degree `2 n - 1`.
* **C144** (`Model/BGA.lean`, `Model/GA.lean`, as C09 and C105). Bit strings decode to exactly the equidistant values of each range, so rounding gives a genotype for each point of the box; the middle of
  two neighbours shows that this cannot be improved. The state `Solved` of C105 is compared with the neighbour of any point of the box; a continuous objective is uniformly continuous on the closed box.
  The limit follows from C105_limit. This is what the documentation of `length` means by "the higher the value, the more precision".

"Partial" in the manifest means: the property as stated is false for the code, its true part
is proved for all inputs (suffix `_partial` or explicit hypotheses), and the failing part is
shown by a theorem with a concrete witness.

## Findings

Behaviour of the code that contradicts a property, with the theorem that shows it.

Genetic algorithms
* A pool of two parents is never paired (`C02_two_parents_lost`); a population of four
  cannot produce a next generation (`C03_small_population_fails`); neither can genotypes of
  fewer than three bits (`C10_too_short`).
* Documented elitism settings that fail: `None`, `1.0`, odd elites above half the
  population (`C14_none_fails`, `C14_one_fails`, `C14_fails`).
* A rejected `set_solution_params` leaves the rejected values in force
  (`C13_rejected_call_changes_parameters`).
* `maxiter=0` still performs one iteration (`C07_maxiter_zero_still_iterates`).

LP and relations
* Constraints with a callable operator are dropped or treated as `<=`
  (`C22_violation_dropped`, `C22_violation_reversed`).
* The shift used for strict inequalities may be absorbed by rounding
  (`C16_violation_strict_rounding`); nonlinear terms are dropped silently
  (`C16_nonlinear_terms_dropped`); a constraint without one of the variables raises
  (`C16_missing_variable_raises`).
* `res.fun` is computed with the objective's own variable order (`C17_violation_order`).
* A line feed hides the rest of a relation string (`C20_violation_line_feed`); blank sides
  are accepted (`C20_blank_sides_accepted`); unbalanced sides as well
  (`C21_unbalanced_sides_accepted`).
* A function after partial substitution cannot be called (`C23_partial_subs_unusable`).
* The Rosenbrock optimum is wrong for `a != 1`, three Himmelblau optima are rounded
  (`C24_rosenbrock_violation`, `C24_himmelblau_violation`).

Linear solver
* Small elimination factors are skipped, integer matrices truncated
  (`C25_violation_skipped`, `C25_violation_integer`).
* No pivoting, tiny pivots reported as singular, last pivot of Gauss-Jordan unchecked,
  skipped entries hide singularity (`C26_violation_*`); incomplete prescriptions are
  ignored or reported as singular (`C26_incomplete_prescription`).

Arrays and sparse
* `clip1d`, `bin_centers`, `to_range_1d` truncate integer arrays
  (`C32_integer_array_fails`, `C33_bin_centers_integer_edges`, `C35_integer_values_fail`).
* `find1d` does not notice a missing element (`C36_missing_element_unnoticed`).
* `indices_of_equal_rows` fails for square integer and for mixed input
  (`C37_integer_square_fails`, `C37_mixed_dtypes_fail`).
* `count_cols_csr` is wrong (`C38_one_entry_too_many`, `C38_wrong_count`).
* A zero-dimensional array passes `matrixform` (`C39_matrixform_zero_dim`).
* CSR rows with negative index, missing shape (`C27_negative_row`, `C27_missing_shape`);
  `concatenate` ignores its axis (`C29_concatenate_ignores_axis`); a list of 2d arrays does
  not become a jagged array of their rows (`C61_list_of_arrays_fails`).
* The level structure of a disconnected graph never ends
  (`C40_disconnected_never_returns`).

Frames and tensors
* The axes of a Cartesian frame can be set to anything, after which attached tensors are
  changed when moved (`C42_cartesian_violated`, `C50_setter_violated`).
* Writing single items of the axes (`frame[i, j] = x`) does not move the attached tensors
  (`C42_item_violated`).
* Small skewed frames pass as rectangular, a rectangular frame always claims independence
  (`C50_small_frame_violated`, `C50_independent_violated`).
* `frame.axes = A.T` stores `A`; the assigned array shares its memory with the frame; in-place
  transposition changes nothing; after assigning integers, scaling by a float raises
  (`C77_fortran_violated`, `C77_alias_violated`, `C77_transpose_violated`,
  `C77_integer_violated`).
* Stacks: fewer transformation matrices than vectors are not noticed and memory behind the
  array is read (`C79_short_stack_violated`, `C79_one_frame_violated`); rotating a stack of
  other than three vectors raises, `orient_new` and `dual` mix the members
  (`C80_orient_refused`, `C80_orient_new_violated`, `C80_dual_violated`, `C80_dual_refused`);
  every operation that returns a new `Tensor2` raises for stacks (`C80_tensor2_refused`);
  stacks of general tensors cannot be transformed (`C80_general_violated`).
* `is_bulk` never returns `False`; the default frame of a stack of vectors has as many
  dimensions as there are vectors (`C81_is_bulk_violated`, `C81_default_frame_violated`).
* The volume is documented as signed but is not (`C44_volume_not_signed`).
* `dot(vector, tensor)` and `cross` depend on the frames (`C45_vector_tensor_violated`,
  `C46_scaled_frame_violated`).
* `x -= number` adds; `2 * x` raises; `x += array` is ignored
  (`C47_isub_number_violated`, `C47_operators_violated`).
* `copy()` and `deepcopy()` drop the frame (`C48_method_copy_violated`).
* The metric tensor is not the identity, `frame.show(target)` is wrong unless both frames
  are orthonormal (`C63_metric_tensor_violated`, `C64_show_frame_violated`).
* Fourth order transformations are right for three values per index and float data only
  (`C49_dimension_violated`, `C49_integer_violated`, `C49_single_matrix_refused`).
* `det2x2` and `det3x3` never write their result; `inv2x2` truncates integers
  (`C51_det_violated`, `C51_integer_violated`).

Linear algebra utilities
* `linspace` and `linspace1d` raise a ZeroDivisionError for one point; coinciding ends give
  NaN; `vpath` truncates if it starts at an integer array (`C67_single_point_violated`,
  `C67_equal_ends_violated`, `C67_vpath_integer_violated`).
* Normalizing the zero vector gives NaN, integer vectors are refused (`C68_zero_violated`).
* `unit_basis_vector` returns a longer vector if the index is beyond the length
  (`C72_index_violated`).
* `is_hermitian` looks at the shape only; `issymmetric` accepts constant rows and columns
  (`C73_hermitian_violated`, `C73_row_violated`).
* The definiteness predicates are right for symmetric matrices only
  (`C74_nonsymmetric_violated`, `C74_semidefinite_violated`).
* The squeezing decorator turns tuples into lists (`C76_tuple_violated`).

Approximation
* A single Lagrange node raises; repeated indices add functions up; a plain `dict` as output
  raises (`C56_single_point_violated`, `C56_repeated_index_violated`,
  `C56_plain_dict_refused`).
* Least squares with a fixed, non-constant weight function reports derivatives that are not
  those of the fit (`C66_fixed_core_violated`).
* The cubic weight reports the gradient with respect to its core, a zero Hessian at the core
  and a zero gradient within 1e-12 of it; the singular weight reports zero derivatives; an
  integer core is replaced by zero (`C55_gradient_sign_violated`,
  `C55_hessian_core_violated`, `C55_gradient_near_core_violated`, `C55_singular_violated`,
  `C55_integer_core_violated`).
* `k_nearest_neighbours` ignores `max_distance` with scipy 1.6 or later and raises with
  sklearn (`C58_limit_violated`, `C58_refused`).
* Neighbour averaging truncates integer data, refuses one neighbour and reads beyond the
  data if neighbours are missing (`C57_*_violated`).
* `np.allclose` compares tensors of different rank by broadcasting and is not symmetric
  (`C78_rank_violated`, `C78_asymmetric_violated`).
* `linear_coefficients` gives zero for a variable with an irrational coefficient (`pi*x`), so a
  linear programming problem ignores the term; products like `pi*(x+y)` vanish and `x**2` stays
  (`C82_irrational_violated`, `C82_linear_violated`).
* `coefficients(normalize=True)` keeps only the last of several constant terms
  (`C82_normalized_violated`).
* `is_linear` is `True` for `x*y` and raises for the function zero (`C82_is_linear_violated`).
* Without a list of variables, the order of arguments, gradient entries and Hessian rows of a
  symbolic function is the iteration order of a set (`C83_order_violated`).
* `rotation_matrix('Quaternion', …)` does not normalize its parameters, and a `CartesianFrame` oriented
  with the result still calls itself Cartesian (`C84_quaternion_violated`, `C85_cartesian_violated`).
* `rotation_matrix('Axis', ...)` fails for every axis: the axis must be a vector of a SymPy frame that is related to the
  frame made inside of the call, and no vector made before is (`C84_axis_violated`). `'DCM'` wants a SymPy matrix and
  returns its transpose, whether it is a rotation or not (`C84_dcm_violated`).
* `frame.orient_new` is documented to orient relative to the frame, but rotates about the ambient axes
  (`C85_relative_violated`); `vector.orient` rotates about the axes of the frame of the vector, so a
  vector and its frame rotated alike part ways (`C85_series_violated`).
* A `RectangularFrame` whose axes are short and skewed passes the check of its class; multiplying it by
  a number then raises an `AssertionError`, multiplying in place does not (`C86_tolerance_violated`).
* `A * 0` of a rectangular frame has zero axes and `is_independent` is `True`; `A * 2` is rectangular,
  `2 * A` is not (`C86_zero_violated`, `C86_order_violated`).
* `frame.chop` bypasses the setter of `axes`: attached vectors change their meaning, Cartesian frames
  may become abnormal (`C87_frame_violated`, `C87_class_violated`).
* `linsolve` documents a solution "with a shape matching input 'B'"; for a one dimensional `B` both
  eliminations return a column (`C88_shape_violated`).  `presc_val` without `presc_bool` is ignored by
  `method='numpy'` and by `reduce`, and reported as a singular matrix by the eliminations of `linsolve`
  (`C88_ignored_violated`).  A failed in-place call has changed the arguments (`C88_failed_violated`),
  but not their solutions (`C88_failed`).
* `inv_sym_3x3` substitutes its placeholders one after the other: a matrix containing them in other
  places comes out wrong (`C89_transposed_violated`), and a matrix of another shape is not refused
  (`C89_shape_violated`).
* `histogram` with integer edges truncates the centres (`C91_integer_edges_violated`); this is the call
  that the test of the project makes.
* The type predicates do not recognize floats and integers of other than the default size
  (`C92_single_violated`); `itype_of_ftype` accepts complex and unsigned types (`C92_itype_violated`).
* A `Function` made from text with variables that carry assumptions ignores `subs`
  (`C93_subs_text_violated`), but only the first time (`C93_subs_twice_violated`); one made from an
  expression ignores `subs` by names (`C93_subs_names_violated`). With variables that have the names but
  not the assumptions of the symbols in the expression, values are right and gradients zero
  (`C93_gradient_violated`).
* A `solve` rejected for its parameters has already thrown away the previous result
  (`C94_rejected_forgets_violated`), the rejected parameters stay in force, so that the next plain
  `solve()` fails as well (`C94_rejected_sticks_violated`), and after a rejected change of direction
  `evolve()` picks candidates in the new and crowns them in the old direction (`C94_direction_violated`).
* `flatten2d` returns `None` for any order but "C" and "F" instead of refusing it
  (`C33_flatten2d_other_order`).
* C96: mutation happens only inside a crossover that is not skipped, so with `p_c = 0` the setting
  `p_m` has no effect at all and the search never leaves the individuals drawn at the start.
* C97: `is_linear` of a function made from callables is "no Hessian was given": the square given without
  derivatives is called linear, the identity given with its Hessian is not (`C97_is_linear_violated`).
* C97: `TestFunction(f, optText=..., optimums=...)` silently has no optimums, because the loop over the keyword
  arguments ends at `optText` (`C97_optimums_violated`). `TestMinFunction` and `TestMaxFunction` put the text
  last and are not affected (`C97_optimums`).
* C97: an `update` that raises (say, because a text cannot be parsed) resets the mark that the object was made
  from a text, so that a later `subs` by names no longer finds its variables (`C97_failed_update_violated`).
* C97: the metaclass links `value`, `gradient` and `Hessian` only for classes it makes itself; with `value`
  in a mixin class `obj.value(x)` works and `obj(x)` raises `TypeError` (`C97_methods_violated`).
* C97: `subs` forgets `domain` and `vmap`, and on a `Relation` (not in place) returns a `Function`.
* C98: frames define `__len__` but no `__bool__`, so `if A == B:` always takes the first branch, and so does
  `if A != B:`; `A in list_of_frames` is true for every list that is not empty (`C98_truth_violated`).
  `np.all(A == B)` is right (`C98_equal_partial`). (Assumes that `Wrapper` of sigmaepsilon.core, which is not part
  of the repository, defines no `__bool__`.)
* C98: `np.add.at(A, ...)` changes the axes without transforming the attached vectors (`C98_at_violated`).
* C98: `np.concatenate([A, B])` and `np.sum(a=A)` end in a `RecursionError`, since `__array_function__` only
  unwraps positional arguments and then calls the same function again (`C98_recursion_violated`).
* C98: a universal function with several results returns a generator and not a tuple: `np.modf(A)[0]` raises.
* C99: evaluating a fit of `moving_least_squares` leaves the core of the weight function at the point of
  evaluation, also if the evaluation raises; a weighted fit made with the same weight function afterwards is another
  one than before (`C99_core_violated` and the examples beside it).
* C99: `w` is annotated as `Callable`, but a callable that is not an `MLSWeightFunction` is replaced by the constant
  weight without a word (`C99_callable_violated`).
* C99: `moving_least_squares` reads `points.shape` at once, so lists, which the annotation allows, raise an
  `AttributeError` (`C99_lists_violated`).
* C100: a `JaggedArray` behaves differently depending on whether its rows happen to have equal lengths: only then
  `J[i] = row`, `J[i, k] = v`, `J + 1` and `np.sqrt(J)` work (`C100_assign_violated`, `C100_ufunc_violated`), and the
  result of the latter is a NumPy array. (What awkward arrays and `np.asarray` do is taken from their documentation.)
* C100: `JaggedArray(A)` of a 2d array does not copy: writing to one changes the other (`C100_shared_violated`),
  while jagged arrays made from lists and concatenations are independent (`C100_lists`, `C100_join`).
* C101: decoded phenotypes can exceed the upper bound given by the user by a rounding error (`C101_decode_violated`:
  range (-0.7, 7), two bits; an objective such as `sqrt(7 - x)` is then NaN), or miss it; the lower bound is always
  kept. `linspace1d` (unlike `np.linspace`) does not set the last number (`C101_linspace_violated`).
* C102: constant data are not reproduced exactly unless the number of neighbours is 2 or 4 (`C102_constant_violated`).
* C104 A single nan in the initial population is the result of `solve`, in both directions of optimization: `argmin` and
  `argmax` return it, nothing compares better than nan, the champion only gets older and the run ends "successfully"
  with status converged or maximum of iterations (`C104_solve_violated`; minimize `1/x` over 0..31 with 0 drawn). In
  later generations a nan hides all other members of its generation (`C104_hidden_violated`), and when maximizing
  selection prefers nan, so with an elite every later generation contains it and the champion is frozen
  (`C104_maximize_stuck_violated`). Minimizing, selection is right (`C104_minimize_select_partial`). Returning inf (or
  -inf) instead of nan from the objective avoids all this: they are ordered like numbers.
* C105 The guarantee is one of the limit only: with `p_m = 0.01` and `n` bits the bound needs about `100^n` cycles. It
  is about `evolve`; `solve` stops by age or number of iterations, long before.
* C106 There is no exchange of rows, and pivots down to 1e-12 are accepted: a perfectly conditioned system of two
  equations is missed by 3e-5 in double precision by both methods (`C106_pivot_violated`), although the documentation
  calls their results exact.
* C107 Nothing makes the axes of a Cartesian frame orthonormal again: their defect grows with the number of rotations
  (`C107_exact_violated`) whereas `Gram` and `volume` of a `CartesianFrame` report one.
* C108 `dot(v, T, axes=(0, j))` with a vector `v` raises `NotImplementedError` for every tensor of more than two indices
  (`C108_vector_first_violated`), because the result is made by a method of the class of the first operand that vectors
  do not have; `dot(T, v, axes=(j, 0))` works. The documented limit is 26 letters for both operands, but
  `transform_components` needs two letters per index: tensors with more than thirteen indices can neither be shown nor
  contracted (`C108_rank_violated`), and a contraction that returns such a tensor cannot be asked for in a frame
  (`C108_frame_violated`).
* C109 `MLSApproximator.neighbours` and `.factors` can be assigned, but `approximate` replaces them before they are used
  (`C109_assigned_violated`). `np.squeeze` drops the axis of the targets if there is one target
  (`C109_shape_violated`). The comment in the documentation says that targets may have any shape ending in the number
  of coordinates: the coordinates of one point raise `ValueError` (`C109_point_violated`), several leading axes do not
  compile, and with one neighbour and two leading axes the results of different targets are averaged silently
  (`C109_leading_axes_violated`). The method `fit` named in the documentation does not exist.
* C110 Values that are integers beyond 2^53 are rounded and columns or row pointers from 2^31 on become negative, both
  without notice (`C110_large_violated`). `to_scipy` returns a matrix that shares its arrays (`C110_scipy_shared`), the
  documentation does not say so.
* C111 `CartesianFrame(axes, normalize=True)` checks whether the axes are perpendicular before it normalizes them, and the
  check compares sums over all axes: (10^6, 0) and (1, 1) pass, and the result is a "Cartesian" frame with base vectors
  at 45 degrees, whose `Gram()` is the identity and whose copy raises `AssertionError` (`C111_skew_violated`). Zero base
  vectors become NaN without notice (`C111_zero_violated`).
* C112 `ReferenceFrame()` and `ReferenceFrame(dim=np.int64(3))` make a frame whose array has no axes and holds NaN
  (`C112_nothing_violated`); `ReferenceFrame([[2, 0], [0, 2]], dim=2)` drops the list (`C112_list_violated`);
  `ReferenceFrame.eye(np.int64(2))` is three dimensional (`C112_eye_violated`); `ReferenceFrame(np.ones(3))` is accepted
  (`C112_shape_violated`).
* C113 `to_range_1d` computes the constant from the middles of both ranges: from [1, 6] to [-1, 1], the value 6 is mapped to
  1.0000000000000002 (`C113_range_violated`), and from [2^53, 2^53 + 2] to [-1, 1] the ends are mapped to 0 and 2
  (`C113_range_far_violated`). `t0 + (v - s0) * b` would do neither in these cases. `linspace` between two equal points
  divides zero by zero: all points between are NaN (`C113_points_same_violated`).
* C114 `mutate` keeps a bit if `rand() > p_m`. As `rand()` may be zero, `p_m = 0` still flips each bit with probability
  `2^-53` (`C114_off_violated`); likewise `p_c = 0` does not rule out crossover.
* C115 The test for a small pivot is false for NaN, so a matrix with NaN is never refused as singular for it: the result is
  NaN instead of `LinAlgError`. As `0 * NaN` is NaN, equations that are not coupled to the one with the NaN are often lost,
  too (see the examples in `Props/NanData.lean`).
* C116 The determinant is compared with nothing: because of rounding, `inv3x3` returns a finite matrix for some exactly singular
  matrices of integers, and refuses some regular ones (`C116_singular_violated`); the entries are exact doubles below `2^28`.
* C117 The compiled `row` returns a part of the array without bounds: `csr.row(0)[2] = 9` in a compiled function changes the first
  entry of the second row if the first one has two entries, and raises `IndexError` outside (`C117_outside_violated`). Also, the name of
  the Numba type (csr.py 221) does not contain the format of the data.
* C118 The test for independence and the volume use the determinant of the Gram matrix, which squares the condition number: axes at an
  angle of 1e-9 are reported as dependent, with volume zero (`C118_independent_violated`), though their dual frame can be computed. The
  parallel vectors `(7, 7)`, `(25, 25)` are reported as independent (`C118_dependent_violated`); the volume of `(5, 5)`, `(39, 39)` is
  the root of a negative number (`C118_volume_violated`). A positive `tol` makes the answer depend on the unit of length
  (`C118_units_violated`).
* C14 `elitism=0.29` in a population of 100 keeps 28 individuals: `0.29 * 100` is `28.999…` in double precision
  (`C14_share_violated`). A value of `elitism` that is refused (an integer that is not positive) is stored
  nevertheless, and runs of the solver go on without an elite (`C14_refused_stays`).
* C119 Whether the data determine the fit is left to `np.linalg.inv`, which only notices an exactly singular matrix. Two measurements at the same
  place do not determine a line, but at `1 + 2⁻³⁰` the rounded moment matrix is regular and a fit is returned; at the very place where
  both measurements are 1 its value is 0 (`C119_undetermined_violated`).
* C120 `x/3 = 1` and `x = 3` agree, but the system handed to the solver has no solution: `1/3` is no floating point number
  (`C120_infeasible_violated`). Solvers accept the point within their tolerance, which is what `C120_kept` quantifies.
* C121 `dot(v, A)` stands for something else after `v.frame = 2 * np.eye(2)`: four times as much (`C121_vector_tensor_violated`).
* C122 `v.array.frame = g` moves the components to another frame without converting them, and `v` stays in the registry of its old frame
  (`C122_array_frame_violated`).
* C123 `count_cols_csr` reads one entry behind the end of `indptr` in every call (`C123_count_cols_csr_violated`), and `show_frame` of a frame with fewer vectors than
  components reads and writes behind the end of its arrays, since the loop runs over the columns (`C123_show_frame_violated`).
* C124 a slice of `t.array` has an attribute `frame` of its own, which keeps naming the old frame after `t.frame = …` has converted its numbers (`C124_slice_frame_violated`).
  `transpose(inplace=True)` replaces the array object: arrays taken before stay tied to the memory, but in the old order, and are no longer told about the frame (`C124_live_violated`).
* C125 `dot(v, [1, 0])` and `dot(v, frame)` use the bare components of `v`, so the same vector given in two frames has two products (`C125_dot_array_violated`), while `np.dot(v, [1, 0])` is refused.
  `np.dot(A, v)`, `np.allclose(A, v)`, … with a frame `A` in front use them, too (`C125_frame_first_violated`), while with `v` in front they are refused. `v += 1` adds a vector which depends on the
  frame (`C125_add_number_violated`), `v += [1, 0]` does nothing at all (`C125_add_list_violated`), while `v + 1` and `v + [1, 0]` are refused.
* C126 `solve(method="highs-ds")` and every other method than the default drop the restriction of variables to whole numbers: SciPy warns, the result is a success with a fractional point
  (`C126_method_violated`). Keyword arguments override what was computed from the problem, `solve(A_ub=None, b_ub=None)` solves a problem without the inequalities (`C126_constraints_violated`).
* C127 `Tensor2(A.T, contiguous=False, frame=F)` and `Tensor2(rows, order="F", frame=F)` hold the transposed matrix, without an exception (`C127_fortran_violated`, `C127_order_violated`): the
  copy keeps Fortran order and its memory is then read in C order. Arrays with their axes in any other order raise `ValueError` (`C127_refused_violated`).
* C128 `choice([1, "a"], (1,))` can return `"1"`, which is not among the choices (`C128_mixed_violated`): NumPy converts the list to texts. `choice([], size)` raises `ZeroDivisionError`
  (`C128_empty`).
* C129 `ga.genotypes[i] = g` after a cycle leaves the cached phenotypes and fitness values as they were: `best_candidate` reports a genotype with the phenotype of another
  (`C129_genotypes_violated`). `ga.fitness[i] = k` makes a member champion with a value that is not that of the objective (`C129_fitness_violated`). `ga.state.x` is the list of the champion, so
  writing to it changes the champion (`C129_state_violated`).
* C132 `assertSymmetricTensor` compares zeros with the difference, `numpy.allclose(zeros, d)`, so only the absolute tolerance of 1e-8 counts: every tensor passes when it is written in large enough units
  (`C132_units_violated`).
* C133 `Function("x - x")` called with an array of points gives the number 0, and `BinaryGeneticAlgorithm` raises `TypeError` for it in its first cycle (`C133_constant_violated`, `C133_run_constant_violated`);
  the gradient of `x*y + z` at several points is a list of two arrays and a number (`C133_gradient_violated`); no optimizer can be built for `Function(f0)` with a callable `f0` and no
  dimension, because the dimension is then `None`, although the ranges tell it (`C133_dimension_violated`); fewer ranges than variables are noticed in the first cycle only (`C133_ranges`).
* C134 A change of direction between cycles keeps the old champion as the one to beat, so what was seen before the change is forgotten but for the worst (`C134_turn_violated`); after a *rejected* change of
  direction each cycle puts forward its worst member in the direction still used for the comparison (`C134_rejected_turn`, `C94_direction_violated`).
* C135 `orient` rotates components. Two vectors given in different frames, rotated by the same call, do not keep the angle between them (`C135_frames_violated`); in a frame with unequal base vectors
  not even the length of one vector is kept (`C135_skew_violated`).
* C136 `Relation("x <= 1")` in a problem in `x` and `y` is accepted by the constructor of the problem, but `solve` raises `KeyError`, since the variables of the constraint are those of its text
  (`C136_variables_violated`); with `variables=` given it is solved.
* C137 Two cycles in a row in which the objective raises finish the generator: every later `evolve()` and `solve(recycle=True)` raises `StopIteration` although the objective works again
  (`C137_twice_violated`). After a single failure the optimizer goes on, but the best of the population whose evaluation failed is never made champion, though it is evaluated for the selection
  (`C137_skipped_violated`: the champion has the value 4, an evaluated member the value 0).
* C138 `J.unique(True)` raises `TypeError` where `np.unique(A, True)` returns positions (`C138_positional_violated`). For the same rows the positions are `(row, column)` or positions in the flat array, depending
  on `force_numpy` (`C138_positions_violated`). `unique2d(J)` raises for `JaggedArray([[1, 2], [2, 3]], force_numpy=False)`, because `to_numpy` makes floats of the integers and Numba refuses float keys in a
  dictionary of integers (`C138_unforced_violated`; that Numba does is taken from its documentation), and for an array without rows (`C138_empty_violated`).
* C139 `generate_symbols("x_{}", [1])` raises `TypeError`, because `sympy.symbols` returns a symbol instead of a tuple and a symbol cannot be iterated over (`C139_single_violated`, for every plain template and
  index); without indices it raises `ValueError` (`C139_nothing_violated`); `generate_symbols("x {}", [1, 2])` returns `[x, 1, x, 2]` (`C139_blank_violated`). `seq=True` or a comma at the end of the template helps
  for one index (`C139_symbols_partial`, `C139_comma`).
* C140 holds from two points on; for one point see C56.
* C141 fails for integer data like C57 (`C141_integer_violated`: the constant 1 is approximated by 0).

