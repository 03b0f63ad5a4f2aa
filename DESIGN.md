# Design of the formal model of PearCoding/NumericSim

## Approach

`/verif/lean/Verif` contains a function-by-function Lean 4 model of the C++ templates in
`/repo/src/lib` (plus the example programs), and theorems about it.

* **Outcomes.** A C++ call that can fail is modelled as a value of `R a = Except Err a` where `Err`
  distinguishes a thrown exception (`exc kind`), a failing `NS_ASSERT` (`abort`), undefined
  behaviour such as an out-of-range `std::vector::operator[]` (`ub`), non-termination of a
  modelled loop (`diverge`) and a division by zero of a floating point number, whose infinite or
  NaN result the exact model does not follow further (`nonfinite`).  A theorem concluding `f x = ok y` therefore also says that no
  assertion fires, nothing is thrown and no memory is accessed out of bounds.
* **Loops** are structural recursions over counters (`forRange`) or over the sequence produced by
  walking the modelled iterator.
* **Scalars.** `T` is an abstract commutative ring / field / ordered field with decidable equality;
  arithmetic is exact.  The matrix, vector and LU models are parametric in the arithmetic: the
  theorems C74-C80, C95, C96, C111 and C112 run the same functions over a number type whose operations round (the standard
  model of floating-point arithmetic, `Std` in `Rounding.lean`: relative error `u` per operation,
  no overflow or underflow; binary floating point of any precision is proved to be an instance).
  Infinities and NaN are not modelled unless a theorem says so (then an explicit extended type is used: `Fl` in `FlModel.lean`, finite numbers plus both
  infinities and NaN, for the Jacobi and SOR iterations).  `numeric_limits::epsilon()` is a parameter `eps`.
* **Indices.** `size_t` is `Nat`; subtraction that can wrap is modelled by `wsub` (mod 2^64) and
  addition is assumed not to overflow 2^64 except in `ConstructModel.lean` (binom, factorial, the
  Hilbert constructors), where all integer arithmetic is modulo 2^W, and in the properties about
  wrap-around.
* **Two layers.** The concrete containers (CRS arrays of `SparseMatrix`, flat storage of the dense
  matrices, vectors) are modelled field by field and proved to refine the abstract matrix
  `entry : Nat -> Nat -> T`.  The numeric algorithms, which are templates over the matrix class in
  C++, are modelled as functions over an interface (`MatOps`) and proved for every lawful
  implementation (`LawfulMat`); both concrete matrix models are proved lawful instances.

## Trusted base

* Lean's kernel (4.33.0) and, through Mathlib, the axioms `propext`, `Classical.choice`,
  `Quot.sound`.  No other axioms; no compiled-code evaluation.
* The reading of the C++ source: the code is not run here.  Each definition cites file and lines.
* Exact arithmetic in place of `float/double`, except for C74-C80, C95, C96, C110-C112 (rounding without overflow and underflow, no signed zero)
  and C37, C38, C61, C62 (infinities and NaN); `std::sqrt`, `std::abs` are the exact operations unless stated otherwise.
* `std::vector`, `std::multimap`, `std::queue`, `std::map` behave as documented.

## What is modelled

| Source | Lean | Not modelled |
|---|---|---|
| `matrix/SparseMatrix.{h,inl}` | `SparseModel`, `VecMoreModel` | capacity |
| `matrix/DenseMatrix`, `BaseMatrix`, `FixedMatrix` | `DenseModel`, `VecMoreModel` | `FixedMatrix::conjugate/adjugate` (do not compile) |
| `CountableSet.{h,inl}`, `Vector.inl` | `Vec`, `VecMoreModel`, `SimplexModel` (`mag`, `normalized`) | |
| `LU.inl`, `matrix/MatrixOperations.inl` | `LUModel`, `ILUModel`, `NormModel` | nothing further |
| `CG.inl`, `Iterative.inl` | `CGModel`, `IterativeModel` (over `FlModel`), `CxIterativeModel` (complex element types), `CheckedModel` (`NS_ALLOW_CHECKS`) | |
| `matrix/MatrixOrder.inl`, `MatrixConstructor.inl`, `MatrixCheck.inl`, `Utils.h` | `OrderModel`, `ConstructModel` | |
| `Normal.h`, `Simplex.{h,inl}` | `SimplexModel` | K other than 2 (rejected by a static assertion) |
| `mesh/Mesh.{h,inl}` | `MeshModel` (contents), `MeshHandleModel` (reference counting), `MeshThrowModel` (mesh after an exception of `setupNeighbors`) | |
| `mesh/HyperCube.inl` | `HyperCubeModel` | the empty stub for K != 2 |
| `sf/PolyShapeFunction.inl` | `ShapeModel` | `prepareMesh` for K != 2 |
| `quadrature/*.inl` | `QuadratureModel` | rounding of the literals to `float`/`double` |
| `loader/MeshTriangleLoader.inl` | `LoaderModel` | opening and reading the files, `isspace` of non-ASCII characters, `reserveVertices`; `operator>>` for `T` is a parameter |
| `examples/poisson/fem.cpp` | `FemModel`, `FemPostModel`, `FemMainModel` | timing and console output; the text format of numbers in the files; the functions and constants are parameters (`Standard` fixes them); opening of files: a file that cannot be opened is empty; the Wavefront loader is a parameter of `main` (its model is `ObjLoaderModel`); the solvers are the models of the other rows |
| `src/objloader/loader/MeshObjLoader.inl` | `ObjLoaderModel`, `TinyObjModel` (`loadString`) | `loadFile` (opening a file) |
| `src/objloader/external/tiny_obj_loader.h` (`LoadObj` on a stream with `flags = 1`, and all it calls) | `TinyObjModel`, `MtlModel` (`LoadMtl`, `MaterialFileReader`; names of materials), `MtlValueModel` (`LoadMtl` with the contents of materials) | names of shapes, tags, messages, rounding of numbers |
| `src/lib/export/VTKExporter.inl` | `VtkModel` | `K != 2`, opening and writing the file, format of numbers (parameter) |
| `examples/poisson/fdm.cpp`, `examples/heat/main.cpp`, `examples/readTimeDataFile.m` | `FdmModel`, `GridFileModel` | other values of `BOUNDARY_MODE`, the `#ifdef`ed pattern file, console output; grid sizes, mesh widths and functions are parameters |
| compound assignments, `cholesky`, `ilu0`, `doolittle`, `jacobi` with aliased operands | `AliasModel`, `Props/AliasFactor` | `ainv_lu` with aliased arguments |
| `OutputStream.h` | `PrintModel` | format of numbers (parameter) |
| `matrix/MatrixConverter.h` | none | does not compile |

## Per-property plan

* **C01 SparseMatrix is a map: at returns the last value set** - Model CRS arrays and internal_at/set_at/remove_at/set/at. Representation function `pack` from a list of sorted rows; show every operation maps packed states to packed states; induction over histories against the abstract map.
* **C02 SparseMatrix stores exactly the non-zero entries** - Corollary of the packed representation.
* **C03 Iteration visits each non-zero exactly once in row-major order** - Model the iterator (row, column, position) with its ++; show the walk from begin equals the row-major list of stored entries.
* **C04 Row iteration visits exactly the row's non-zeros** - Same for row iterators.
* **C05 Column iteration visits exactly the column's non-zeros** - Same for column iterators; code aborts on a column without entries in a non-empty matrix: negation by witness, partial theorem otherwise.
* **C06 Erasing through an iterator removes one entry and returns its successor** - Model erase(it). Content part proved in full; returned iterator is wrong in some cases: negation by witness and partial theorem with the exact condition.
* **C07 Sparse addition and subtraction are entrywise** - Fold of set over the walk of the second operand.
* **C08 Sparse Hadamard product is entrywise** - Model both loops; negation by witness; partial theorem for the patterns where `erase` returns the right iterator (`RowGood`), in particular when no row of the product is zero.
* **C09 Sparse scaling and negation are entrywise** - In-place scaling through iterators.
* **C10 Sparse transpose, conjugate and adjugate** - Fold of set over the walk.
* **C11 Sparse matrix product** - Loop model, Finset sums as specification.
* **C12 Sparse matrix-vector products** - Loop model.
* **C13 Sparse equality is semantic equality** - Model the double iterator loop.
* **C14 Sparse reductions** - Model the reductions; max: sentinel parameter; negation for a positive sentinel, partial for a lower-bound sentinel.
* **C15 Sparse swap exchanges the two matrices** - Model swap with the missing member; negation + partial for equal column counts.
* **C16 Out-of-range access is detected** - Decision logic of the assertions.
* **C17 Sparse initializer-list construction** - Fold of set.
* **C18 DenseMatrix is a map: at returns the last value set** - Flat row-major storage, refinement to the map.
* **C19 Dense and sparse matrices are interchangeable** - Relation between the two refinements; corollaries of C01/C07/... and C18/C22.
* **C20 Dense iteration covers every entry once** - Iterator model.
* **C21 Dense elementwise operators respect shapes** - Model the size check; negation (2x3 += 3x2), partial for equal shapes.
* **C22 Dense products and transpose** - Loop models, Finset sums.
* **C23 Vector operators are entrywise and size-checked** - List model of vectors.
* **C24 dot is the bilinear symmetric inner product** - Algebra over Finset sums.
* **C25 Scalar division of vectors divides entries** - Parametrised in the element type; negation over Int with truncating division, partial for fields.
* **C26 Vector resize keeps the prefix** - List model.
* **C27 Doolittle factorisation is correct** - Loop invariant over k: (permuted A) = L_k * U_k; generic over LawfulMat.
* **C28 Doolittle pivoting bounds multipliers and only rejects singular columns** - Invariant |L| <= 1; Singular implies a zero column below the diagonal hence det=0.
* **C29 determinant equals the mathematical determinant** - From C27 via Matrix.det.
* **C30 LU solve solves the linear system** - Loop invariants of forward/backward substitution.
* **C31 Cholesky factorisation is correct** - Loop invariant over columns (`CholPart`), sqrt parameter with sqrt(s)^2=s; a zero pivot is `nonfinite` (0/0), or an exception when the NaN reaches a later diagonal entry of a real matrix. Positive definiteness (`C31_positive_definite`): when a pivot is not positive, a vector orthogonal to the columns computed so far shows that the form is not positive.
* **C32 ILU(0) reproduces A on its pattern** - Loop invariant over rows for the in-place elimination restricted to the pattern.
* **C33 ainv_lu returns the inverses of the triangular factors** - Negation (N=1,U=2) and partial for invL.
* **C34 Operations::inverse returns the inverse** - Sparse: full; dense: negation by witness; inverse(L,U): negation.
* **C35 Conjugate gradient solves SPD systems in n steps** - cg: negation for n=3 witness, pcg: residual invariant, conjugacy and finite termination.
* **C36 Jacobi preconditioner** - Loop model.
* **C37 Jacobi iteration: a fixed point is a solution, and vice versa** - Sweep identity, loop exits; zero diagonal part modelled with an extended scalar.
* **C38 SOR: a returned converged vector solves the system** - Negation by witness; partial for weight=1 or from the second sweep on.
* **C39 Cuthill-McKee returns a permutation** - Model with sorted multimap and queue; invariant R ++ remaining is a permutation; negation with an empty row.
* **C40 Permutation helpers agree** - Direct; negation for vectors on a 3-cycle.
* **C41 eye, diag, tril, triu** - Loop model incl. size_t wrap of signed k.
* **C42 Hilbert matrix and its inverse** - Binomial identity over Q.
* **C43 Matrix predicates decide the mathematical property** - Reduces to C13/C10/C11.
* **C44 binom and factorial compute the mathematical functions** - Recursion model, Nat.choose / Nat.factorial.
* **C45 normal() is orthogonal to its inputs** - Laplace expansion of a determinant with a repeated row.
* **C46 Simplex coordinate maps are mutually inverse** - Field identities.
* **C47 Simplex volume, gradients and face geometry** - Field identities.
* **C48 Simplex::center is the circumcenter and faceNormal points outward** - center: negation; faceNormal: identities with sqrt parameter.
* **C49 Mesh handles share data and free it exactly once** - State machine over handles and reference counts; negation for self-assignment; invariant for other histories.
* **C50 Mesh indexing and incidence are consistent** - State machine, invariant by induction.
* **C51 setupNeighbors builds the face adjacency** - Model of the face search; invariant.
* **C52 setupBoundaries marks exactly the boundary vertices** - On top of C51.
* **C53 HyperCube generates a conforming triangulation of the requested rectangle** - Model of the generator; negation for extents when n0 != n1; partial for n0 = n1 and counts in general.
* **C54 Shape functions form a nodal basis** - Polynomial identities by ring.
* **C55 Shape function DOF counts match the polynomial space** - Table of instantiations.
* **C56 prepareMesh numbers degrees of freedom consistently** - State machine over edges.
* **C57 Gauss-Legendre quadrature integrates polynomials exactly** - Exact rational evaluation of the literals; linear in the coefficients.
* **C58 Triangle loader parses whole numbers of each line** - Character-level model.
* **C59 Triangle loader index handling** - Token-level model.
* **C60 FEM Dirichlet elimination keeps the solution** - Algebra over the abstract matrix.
* **C61 Jacobi converges for strictly diagonally dominant matrices** - Contraction in the maximum norm over `Fl`; error bound by induction on sweeps.
* **C62 SOR converges for strictly diagonally dominant matrices (0 < weight <= 1)** - Same, row by row.
* **C63 Cuthill-McKee numbering: breadth first by degree, components from a minimal-degree start** - Queue invariant with (position of parent, degree, index) order; the greedy definition is shown to determine the list.
* **C64 validate accepts exactly the consistent meshes** - Exact characterisation of every throw; pipeline theorem build/setupNeighbors/prepare/validate.
* **C65 FEM assembly computes the Galerkin sums** - Element loop and scatter loop as sums; specification of basis, gradient and quadrature as polynomials and weighted sums, independent of the model.
* **C66 FEM element matrix is the Dirichlet form** - False in the code (J^-1 where J^-T is needed): exact characterisation of the triangles for which it holds (order 1), error bound and quantitative converse against the true integral (order 2), and witnesses.
* **C67 The constrained FEM system is symmetric positive definite and solvable** - Positivity of the element forms (including the rule with a negative weight), propagation along element connections, then C60 and C35/C36.
* **C68 FEM on the generated grid gives the five-point stencil** - C53 grid, closed form of the element matrices, double sum over cells; C67 for definiteness.
* **C69 SOR converges for symmetric positive definite matrices** - Energy functional decreases in every sweep by a multiple of the squared step (Ostrowski-Reich); residual bound from the last step.
* **C70 SOR error bound, and convergence for layered systems** - Contraction of one sweep in the energy norm per level, geometric decay with forcing from lower levels, induction on levels.
* **C71 The finite difference Poisson example solves the five-point scheme** - Loop invariant row by row, maximum principle for Z-matrices, C70 with levels rim/interior.
* **C72 The heat example solves the implicit Euler scheme** - Same, C70 with the time steps as levels, rows scaled by the conductivity.
* **C73 Matrix norms and the cond estimate** - Loops of max_norm2/min_norm2 over the stored row entries; the values are characterised by relations on the mathematical matrix (row maxima/minima), norm axioms by Cauchy-Schwarz; witnesses for the two negations.
* **C74 Rounding error of dot product and sum** - The same model functions over a number type with rounding (`Std fl u`, the standard model); every partial sum is the exact sum of the terms times factors in [(1-u)^k, (1-u)^-k]; induction over the loop. `Bin p` (binary floating point, round to nearest, unbounded exponent) is proved to be an instance.
* **C75 Rounding error of the matrix-vector and matrix-matrix products** - As C74 for every row, for the sparse loop over the stored entries and the dense double loop; `mul_left` and the matrix-matrix product (`Props/RoundMul`) likewise, for every entry.
* **C76 solve_lu is backward stable** - Loop invariants of the forward and backward substitution: the processed rows satisfy their equation with perturbed coefficients.
* **C77 doolittle has small backward error** - Invariant of the column loop: row j of the permuted matrix is the perturbed product of row j of L with U; row exchanges permute the rows of the invariant. Witness in double precision that U is not upper triangular.
* **C78 Solving and inverting with LU in floating point** - Product with a permutation is exact because 0*x, 1*x and x+0 are; composition of C76 and C77 by matrix algebra; column loop of inverse.
* **C79 Determinant in floating point** - Product loop over the diagonal, determinant of the perturbed matrix from C77.
* **C80 Cholesky in floating point** - Loop invariant with rounded dot products; the diagonal entry is recomputed by a division, two extra roundings; Cauchy-Schwarz for the a-priori form.
* **C81 OBJ loader** - The loop over the parsed shape as in C58/C59; the result of tinyobj::LoadObj is a parameter.
* **C82 VTK exporter** - The text is modelled character by character; a small independent reader (lines, tags, attributes, words) is run on it; section lemmas compose by append; validity from C56.
* **C83 Stream output** - Text modelled; independent readers for words, rows and triples; C03 for the sparse walk.
* **C84 Convergence of the finite difference programs** - Taylor estimates of the difference quotients (SecondDiff), discrete maximum principle (C71, C72) with quadratic / linear comparison functions, C71/C72 for the solver.
* **C85 Vector length** - The sum of squares as a list sum; Cauchy-Schwarz for finite sums; witness (1,i) over the Gaussian integers.
* **C86 Observers** - Loop lemmas; matrix tests for all write histories by C01/C18; iteration by induction on the fuel; slices by a loop invariant, negation for the size-0 result vector.
* **C87 Jacobi and SOR with complex numbers** - The same loops with the element type K and the magnitude type T separated; sweep lemma over any field; error contraction in the complex norm; witness over the Gaussian rationals for the stopping test.
* **C88 Finite element program converges** - Row sums of the assembled system on the six triangles around an inner vertex (five-point difference, six-point mean of the source); residual identity; discrete maximum principle of C84; entries of the matrix bound the residual after SOR/PCG; the shipped sine problem as an instance.
* **C89 Error report and result files** - Loop lemmas for the three loops; vertex numbers and corners by C56/C60; sides of a neighbour edge by C51; composition with C88; negations by the one-cell grid and a quadratic witness on the square.
* **C90 Probing matrices** - Unfolding with case analysis on iterator validity; extrema by the fold lemma of C86 and the entry/storage correspondence of C18. Added because mutants of these observers survived.
* **C91 Numbers in OBJ files** - A pointer is the list of the remaining characters; the three digit loops by induction over the digits with a Horner invariant; specification by a structure of sign, digits, fraction and exponent. `WordReads`: the four forms of a word (number with anything behind it, exponent that is no `int`, exponent without digits, no digits); every word has one of them (`C91_every`), and the form decides the result (`C91_reads`, `C91_unique`).
* **C92 OBJ texts** - Relational specification of lines and texts, a fold that gives their meaning; one lemma per kind of line, the vertex cache as a function of the corners seen (`firsts`/`idxOf`), the fan loop by induction over the remaining corners; mesh by C81.
* **C93 Any text** - Error analysis of every function (only `ub` and `abort`), progress of the loops over corners and names by the length of the remaining line, of the loop over lines by the length of the text. Safety (`C93_safe_partial`): every function satisfies "a value within bounds, or the assertion" on lines that are `SafeLine`; every text is a sequence of `Lines`.
* **C94 Envelope** - In a Cuthill-McKee numbering a vertex behind a non-zero entry of the reversed matrix has a numbered neighbour in front of it, which puts the mirrored position into the envelope; the fill by induction over the columns of L L^T = A.
* **C95 Growth** - Discrete Gronwall inequality for the rows of `U`, from `P A = L U` with multipliers of at most 1, and from `P A + E = L triu(U)` with the bounds of C77; then C78.
* **C96 Limiting accuracy of jacobi and sor** - Every row of a sweep written as the exact row formula with rounding factors (`Th u k`), then the perturbed contraction `e -> rho e + beta Z`; the stop test via the relative accuracy of `magSqr`.
* **C97 Operands that alias the object** - The loops modelled again with the operand read from the object that is being changed (AliasModel). The iterators of a sparse matrix are numbered (`IsWalk`), a loop that changes values only is a map over the stored values. Fails for `v += v[k]`, `v -= v[k]`, `v *= v[k]`, `m *= *it`, sparse `m -= m` and `cholesky(m, m)`: proved exactly when each of these is right, with witnesses.
* **C98 LU factorisation of strictly diagonally dominant matrices** - Invariant of the loop over the columns of `doolittle` (LUModel): the remaining block stays dominant by the same margin, its column sums do not grow, nothing leaves the band; the pivot search then always returns the diagonal entry. Strictness is needed: among equal pivots the last is taken (witness).
* **C99 Builds with NS_ALLOW_CHECKS** - The three functions with the additional test; C43 for the test, C31 for the real factorisation.
* **C100 Complex Cholesky** - Witness over the Gaussian rationals; over ℂ: the diagonal of `L*L^T - L*L^H` is a sum of squares of imaginary parts, so the factor is right only if it is real; for real positive definite input the columns agree with the real factor up to sign.
* **C101 Command line** - `FemMainModel.stol`/`parse` model `std::stol`, the conversion to 32 bits and all returns of `main`. Proof: every text either begins with a unique number or with none (`stol_cases`), then case analysis; each outcome is characterised by an equivalence. The code violates the property (witnesses): reduction modulo 2^32, ignored trailing characters, uncaught exception for the number of cells.
* **C102 Program to files** - `FemMainModel.main` composes the models of the mesh generator, loader, `prepare`, `validate`, `prepareMesh`, assembly, solvers, error reports and `VTKExporter`. Proof: composition of C53, C60, C64-C68, C35, C36, C38, C73, C82, C88, C89; `cond` is only printed. Violations (witnesses): one cell with the default solver (0/0), missing Triangle files (abort).
* **C103 Program on files** - no new model code; the specification is a list of points and a list of index triples (`Proper`, `Crowded`, `OnRim`, `triArea`, `Discrete`, `Tables` in Props/FemFiles). Proof: C58/C59/C81 give the loaded mesh, C50-C52/C64 its sides, boundary flags and checks, C60/C65/C67 the system, C102 the rest; flags do not influence `prepare`/`validate`; connectivity to the rim is carried over to the degrees of freedom (`anchored_of`). With solver 1 a division by zero remains possible (C35).
* **C104 Speed of SOR** - no new model code (`Fdm.solve`). Proof: a left eigenvector of the sweep (`mode`, `weight`) gives a weighted sum of errors that every sweep multiplies by rho^2 (`C104_decay`); the root is bounded by the intermediate value theorem and its power by Bernoulli's inequality; the sums of the weights are compared with the sum of sin^2 (telescoping), the discrete solution with the true one by the comparison function of C84. Only the existence of one bad grid point is shown (the weights change sign near a corner).
* **C105 Data files** - model `GridFileModel` (writers of fdm.cpp:148-158 and heat/main.cpp:157-177, reader readTimeDataFile.m). The specification splits a text into lines and words (`table`). Proof: text of the loops by induction, round trip of lines and words; the failing case of the reader is proved for every grid with different numbers of points.
* **C106 Material files** - model `MtlModel` (`LoadMtl` and `MaterialFileReader`, tiny_obj_loader.h:714-960). Specification: a line defines a name (`MtlIs`), names are numbered in order (`withNames`). Proof: invariant over the lines (name of the current material, map of the finished ones); termination and safety with the lemmas of C93; the comparison of a text with and without `mtllib`/`usemtl` lines by simulation.
* **C107 Bandwidth** - no new model (`OrderModel`). Specification: Mathlib's graph distance in the graph of the matrix (`graph`, `level`, `First`), `Band` of C94. Proof: a component is numbered without a gap and, by induction on the distance, in the order of the distances (from the characterisation C39); the numbers between two neighbours therefore lie in their two levels. For a path the first index has neighbours on one side only (smallest degree), and every level has one member. Negations by evaluation: zero diagonal entry, star with four leaves.
* **C108 Enough sweeps** - no new model. Proof: exact energy balance of a sweep (C69), the residual before the sweep is (D/w + L) times the step, bounded by its row and column sums (Schur test), and the energy is at most the squared residual divided by lam. For the grid the quadratic form is bounded from below with the product of two parabolas as positive supersolution (ground state identity), which gives 16/N^2 instead of the exact 2 pi^2/N^2; with zero boundary values a sweep of the program is a sweep of the inner matrix. Program: 1 - t <= exp(-t) and the discretisation error of C104.
* **C109 Speed of pcg** - no new model. Proof: the directions of pcg span the Krylov space and its iterate is the best in energy norm there (conjugacy of C35); the residual polynomials of Chebyshev type are built by their three-term recurrence (no eigenvalues: a quadratic-form invariant of the recurrence replaces the spectral theorem), which gives the rate over any ordered field. For the grid the quadratic form is bounded below by the positive supersolution of C108 and above by the row sums; the bound of the values by the residual is a discrete Sobolev inequality (mixed second differences). Program: the run of C102 with the iteration limit instead of the finite termination.
* **C110 Rounding of numbers** - model ObjRoundModel: the parser of C91 with the arithmetic of a number type and the library functions as parameters (C110_exact: without rounding it is the model of C91). Proof: the parser computes a fold over the digits; all partial results are non-negative, so relative errors do not grow in the sums.
* **C111 Rounding in sor** - the sweeps of the model run over a rounding type (C96); a rounded sweep is an exact sweep with a perturbed right-hand side, whose size is bounded by Schur bounds of the triangles; the energy identity of C69 with a perturbation gives a recursion of the squared energy error, which is summed.
* **C112 The finite difference program in floating point** - assembling is modelled over any number type; with equal mesh widths the matrix has no rounding errors; the right-hand side is that of a real problem with a nearby source, so the discretisation theorem applies; rounded sweeps on the inner points are exact sweeps with a small perturbation (C111), their error is bounded in the energy norm (a); for (b) they stay within 1e-4 of the exact sweeps, for which the functional of C104 decays too slowly.
* **C113 A mesh rejected by setupNeighbors stays rejected** - model of setupNeighbors that keeps the mesh when it throws, proved equal to the model of C51 after forgetting that mesh; invariant: elements at crowded edges have edge objects of their own. Every exception uses up one crowded face of one element, so the exact number of exceptions is proved, and that the next call succeeds and validate() accepts the mesh (negation).
* **C114 Solver 0 of the finite element program** - the assembled five-point system is a multiple of the finite difference system on vectors that vanish on the rim, sweeps and the stopping iteration are unique, so both models of the programs give equal results; the rates of C108 and the lower bound of C104 then apply to the finite element program with the nodal error of C88.
* **C115 The heat program gives up before the heat has arrived** - multiply the equation of each sweep by a power of q, sum over sweeps and grid points; a discrete energy estimate bounds each time level by a multiple of the one before; the exact solution is bounded below by its slowest sine mode.
* **C116 How many sweeps the heat program needs** - the changes of one sweep obey the homogeneous equations of the sweeps, so the weighted energy estimate of C115 applies with a weight above 1; errors are bounded by the changes of the last sweep, time level by time level.
* **C117 The finite element program and affine functions (patch test)** - on triangles for which C66 gives the correct element matrix, the row of an inner point applied to an affine function is a sum of differences of a linear function over the sides opposite the point with the sign of the orientation of the triangle; regrouped by sides, the two triangles at a side cancel. For other triangles it is false: a square of four triangles where one triangle lists its corners in another order gives 14/17 instead of 1 at the centre.
* **C118 Output matrices that are used again** - two runs of `doolittle` on the same matrix with different contents of L and P are related step by step (same U, same row table, same pivot count, same columns of L below the diagonal); `cholesky` and `ainv_lu` get loop invariants with the old content as an extra term. The property is false: what exactly survives is proved, together with the exact condition on the old content under which the result is right (for cholesky called twice with the same arguments: A is diagonal), and witnesses.
* **C119 The FEM system when small entries are dropped** - coercivity of the element forms with an explicit constant (area over squared side lengths; the rule with the negative weight included), a path estimate from every degree of freedom to the boundary, and a perturbation by the dropped entries: `Solid` (`Tame` for triangulations) generalises the condition that nothing is dropped. Closed form of the entries of quadratic elements: metric of the triangle times the table; entries are multiples of one sixth up to 2.2e-15, so on a lattice what is dropped is that dust only. `C119_grid`/`C119_run`: the program on its own grid with quadratic elements (the corners keep their numbers, the middles of the sides are one step away from a corner; `C119_nodes`: all numbers are the (2N+1)² points of the grid of half the width, shared middles by the bijection between faces and odd points; `C119_load`: the entry at the middle of the diagonal of a central cell is not zero, by monotonicity of the sine). `C119_unmet`: the old condition never holds for quadratic elements and the EPS of the program.
* **C120 Contents of the materials of a material file** - model of all branches of `LoadMtl` with `material_t` in full (`MtlValueModel`), grammar of lines with their meaning (`MtlSays`) and a specification by blocks (`materialsOf`). Keywords are recognised uniquely because a word ends at its first blank. `C120_refines` shows that the model projects to that of C106 for every text, errors included.
* **C121 Meaning of the stopping test of sor in floating-point arithmetic, and the heat program** - the heat model is generic in the arithmetic (`Heat.system`, `Heat.solveFl` with `CxIterative.sor`). A sweep in rounded arithmetic is an exact one with perturbed right-hand side (`sorRows_pert`), so the residual after an accepted sweep is the perturbation plus the upper part of the row times the last step, which the accepted test bounds (`C121_stop`). Entry by entry the assembled matrix is near that of the scheme (`system_fl`), and the maximum principle with a barrier linear in time turns the residual into an error bound (`residual_error`, `C121_heat`). Whether or not the test accepts, every sweep of the program is an exact sweep for the ideal scheme with bounded changes of the given values (`C121_sweeps`, `Props/RoundHeat.lean`).
* **C122 The heat program gives up too early also in floating-point arithmetic** - the assembled matrix is near that of the scheme with the exact constants (`system_fl`, `mat_near`), a rounded sweep is an exact sweep for the scheme with changed given values (`sorRows_scheme`, `program_pert`); the energy estimate of C115 absorbs the changes level by level (`Pert.step1`, `Pert.steps`, `Pert.heat_le`), and the numbers of the program are `damp_round`, `pert_ratio` (`C122_program`; `C122_shipped` for 53 bits).

## Checking the model against the project's own tests

`Verif/Conformance.lean` and `Verif/Conformance2.lean` run the unit tests of `/repo/tests` in the model, with exact arithmetic, as kernel-evaluated
examples: matrix, lu, cg, iterative, utils, normal, simplex, vector, quadrature, polysf and mesh.  They are tests of the model's fidelity, not proofs
of properties, and no claim rests on them.  Two tests of the project do not pass in the model, as they cannot pass in the program: simplex "radius"
(it expects the point (1/2,1/2) at distance 1 from the origin) and the `left`/`right`/`mid` tests of `DynamicVector` (marked as not working in the
source).  The preconditioned cg test converges only in the limit, because `inverse(L, U)` is wrong (C34).
