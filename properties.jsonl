{"id": "C01", "title": "SparseMatrix is a map: at returns the last value set", "statement": "Starting from SparseMatrix(d1,d2) with d1,d2>0, after any sequence of in-range set/linear_set calls, at(i,j) returns the value of the last set to (i,j), or 0 if there was none; no call aborts, throws or touches memory out of bounds, and rows()/columns() never change.", "quantifier": "all dimensions, all finite histories of set and linear_set with in-range indices and arbitrary values (including 0), all positions (i,j)", "why_tests_cant": "The CRS arrays must be shifted consistently at every insertion and removal; a wrong offset shows up only for particular interleavings of insertions, overwrites and removals in particular rows, and the history space is infinite.", "anchors": ["src/lib/matrix/SparseMatrix.inl:SparseMatrix::set/at/set_at/remove_at/internal_at", "src/lib/matrix/SparseMatrix.inl:linear_at/linear_set"]}
{"id": "C02", "title": "SparseMatrix stores exactly the non-zero entries", "statement": "In every state reachable through set histories, has(i,j) is true exactly when at(i,j) != 0, has(i,j,val) additionally returns at(i,j), filled_count() is the number of positions with at(i,j) != 0, empty() holds exactly for the zero matrix, and has_zero() exactly when some in-range entry is 0.", "quantifier": "all reachable sparse matrices and all in-range positions", "why_tests_cant": "Writing 0 must remove storage in every state; a sample of states cannot show that no history leaves a stored zero or a stale entry.", "anchors": ["src/lib/matrix/SparseMatrix.inl:has/filled_count/empty/has_zero/set"]}
{"id": "C03", "title": "Iteration visits each non-zero exactly once in row-major order", "statement": "For every reachable SparseMatrix, walking from begin() to end() with ++ terminates and yields exactly the triples (row, column, value) of the non-zero entries, each once, in strictly increasing row-major order.", "quantifier": "all reachable sparse matrices, including ones with empty rows anywhere", "why_tests_cant": "The iterator reconstructs the row number from the row-pointer array; runs of empty rows create infinitely many shapes.", "anchors": ["src/lib/matrix/SparseMatrix.inl:SparseMatrix::begin/end, SparseMatrixIterator::operator++"]}
{"id": "C04", "title": "Row iteration visits exactly the row's non-zeros", "statement": "For every reachable SparseMatrix and every row r, walking row_begin(r)..row_end(r) terminates and yields exactly the non-zero entries of row r in increasing column order, and row_filled_count(r) is their number.", "quantifier": "all reachable sparse matrices and all rows", "why_tests_cant": "End-of-row detection depends on the next row pointer and on the last row being special; must hold for all shapes.", "anchors": ["src/lib/matrix/SparseMatrix.inl:row_begin/row_end/row_filled_count, SparseMatrixRowIterator::operator++"]}
{"id": "C05", "title": "Column iteration visits exactly the column's non-zeros", "statement": "For every reachable SparseMatrix and every column c, walking column_begin(c)..column_end(c) terminates without aborting and yields exactly the non-zero entries of column c in increasing row order, and column_filled_count(c) is their number.", "quantifier": "all reachable sparse matrices and all columns, including columns without entries", "why_tests_cant": "An empty column in a non-empty matrix takes a different path; coverage over all patterns is unbounded.", "anchors": ["src/lib/matrix/SparseMatrix.inl:column_begin/column_end/column_filled_count, SparseMatrixColumnIterator::operator++"]}
{"id": "C06", "title": "Erasing through an iterator removes one entry and returns its successor", "statement": "For every reachable SparseMatrix and every iterator obtained by walking it, erase(it) (and set(it,0)) sets exactly the entry under the iterator to 0, leaves all other entries unchanged, and returns an iterator denoting the next non-zero entry in row-major order (or end()).", "quantifier": "all reachable sparse matrices and all valid iterator positions", "why_tests_cant": "The row number of the returned iterator depends on the pattern of empty rows created by the erasure.", "anchors": ["src/lib/matrix/SparseMatrix.inl:SparseMatrix::erase/set(iterator)"]}
{"id": "C07", "title": "Sparse addition and subtraction are entrywise", "statement": "For sparse A and B of equal dimensions, A+B, A-B and A+=B, A-=B (A and B distinct objects) yield a matrix whose entry (i,j) is A(i,j)+B(i,j) resp. A(i,j)-B(i,j), with no zero stored.", "quantifier": "all pairs of reachable sparse matrices of equal dimensions", "why_tests_cant": "Cancellation removes storage while another matrix is iterated; every pattern pair must work.", "anchors": ["src/lib/matrix/SparseMatrix.inl:operator +=, operator -=, operator +, operator -"]}
{"id": "C08", "title": "Sparse Hadamard product is entrywise", "statement": "For sparse A and B of equal dimensions, A*=B (and A*B) yields the matrix with entries A(i,j)*B(i,j), and the result is again a well-formed SparseMatrix.", "quantifier": "all pairs of reachable sparse matrices of equal dimensions", "why_tests_cant": "Entries are erased while iterating; correctness depends on which rows become empty.", "anchors": ["src/lib/matrix/SparseMatrix.inl:operator *=(const SparseMatrix&)", "src/lib/matrix/SparseMatrix.inl:erase"]}
{"id": "C09", "title": "Sparse scaling and negation are entrywise", "statement": "For every reachable SparseMatrix A and scalar f, A*=f yields entries f*A(i,j) and stores no zero; f=0 yields the empty matrix; -A negates every entry.", "quantifier": "all reachable sparse matrices and all scalars", "why_tests_cant": "In-place mutation through iterators for every pattern and value.", "anchors": ["src/lib/matrix/SparseMatrix.inl:operator *=(const T&), operator -(const SparseMatrix&)"]}
{"id": "C10", "title": "Sparse transpose, conjugate and adjugate", "statement": "transpose() has swapped dimensions and entry (j,i)=A(i,j); transposing twice gives a matrix equal to A; conjugate() and adjugate() apply the scalar conjugation entrywise (transposed for adjugate).", "quantifier": "all reachable sparse matrices", "why_tests_cant": "Insertion happens in column order of the target - the worst order for CRS - over unboundedly many patterns.", "anchors": ["src/lib/matrix/SparseMatrix.inl:transpose/conjugate/adjugate"]}
{"id": "C11", "title": "Sparse matrix product", "statement": "A.mul(B) throws MatrixMulMismatchException exactly when A.columns() != B.rows(); otherwise it returns the rows(A) x columns(B) matrix with entries sum_k A(i,k)*B(k,j).", "quantifier": "all pairs of reachable sparse matrices", "why_tests_cant": "Equality with the mathematical product for all sizes and patterns.", "anchors": ["src/lib/matrix/SparseMatrix.inl:SparseMatrix::mul(const SparseMatrix&)"]}
{"id": "C12", "title": "Sparse matrix-vector products", "statement": "A.mul(v) throws MatrixMulMismatchException exactly when columns()!=v.size() and otherwise returns the vector sum_j A(i,j)v(j); A.mul_left(v) likewise with rows() and returns sum_i v(i)A(i,j).", "quantifier": "all reachable sparse matrices and all vectors", "why_tests_cant": "All sizes and patterns; accumulation order over iterators.", "anchors": ["src/lib/matrix/SparseMatrix.inl:mul(const Vector&)/mul_left"]}
{"id": "C13", "title": "Sparse equality is semantic equality", "statement": "For reachable sparse A and B, A==B returns true exactly when dimensions agree and at(i,j) agrees everywhere; it never throws; it is therefore independent of the history by which A and B were built.", "quantifier": "all pairs of reachable sparse matrices", "why_tests_cant": "Relies on canonical storage for every history.", "anchors": ["src/lib/matrix/SparseMatrix.inl:operator =="]}
{"id": "C14", "title": "Sparse reductions", "statement": "For every reachable SparseMatrix, sum() is the sum of all entries, trace() the sum of A(i,i) for i<min(rows,columns), max() the largest and min() the smallest of all entries (counting unstored zeros).", "quantifier": "all reachable sparse matrices over ordered scalars", "why_tests_cant": "max/min start from a sentinel; whether the sentinel leaks depends on the signs of all entries.", "anchors": ["src/lib/matrix/SparseMatrix.inl:sum/trace/max/min"]}
{"id": "C15", "title": "Sparse swap exchanges the two matrices", "statement": "After A.swap(B), every observation (rows, columns, at, filled_count) of A is what it was of B before and vice versa.", "quantifier": "all pairs of reachable sparse matrices, including different dimensions", "why_tests_cant": "A forgotten member is only visible when that member differs.", "anchors": ["src/lib/matrix/SparseMatrix.inl:SparseMatrix::swap"]}
{"id": "C16", "title": "Out-of-range access is detected", "statement": "at, set, has, linear_at and linear_set with an index outside the dimensions abort (with assertions enabled, the default) before any memory access, for sparse and dense matrices; in-range calls never abort.", "quantifier": "all reachable matrices and all index pairs", "why_tests_cant": "Every index pair in an unbounded space; includes the boundary row/column.", "anchors": ["src/lib/matrix/SparseMatrix.inl:at/set/has/linear_at/linear_set", "src/lib/matrix/DenseMatrix.inl:at/set", "src/lib/nsConfig.h:NS_ASSERT"]}
{"id": "C17", "title": "Sparse initializer-list construction", "statement": "SparseMatrix({{..},..}) with at least one non-empty row list has rows() = number of lists, columns() = length of the longest list, and at(i,j) = the j-th value of list i, or 0 where the list is shorter.", "quantifier": "all non-empty (possibly ragged) lists of lists with a non-empty longest row", "why_tests_cant": "Ragged shapes and zero entries are unbounded.", "anchors": ["src/lib/matrix/SparseMatrix.inl:SparseMatrix(std::initializer_list)"]}
{"id": "C18", "title": "DenseMatrix is a map: at returns the last value set", "statement": "Starting from DenseMatrix(d1,d2), after any in-range set/linear_set history at(i,j) returns the last value written to (i,j), or 0; linear index i*columns()+j and (i,j) address the same entry; distinct positions never alias.", "quantifier": "all dimensions, all in-range histories", "why_tests_cant": "Index aliasing must be excluded for all dimensions and positions.", "anchors": ["src/lib/matrix/DenseMatrix.inl:at/set/linear_at/linear_set"]}
{"id": "C19", "title": "Dense and sparse matrices are interchangeable", "statement": "Applying the same in-range set history to a DenseMatrix and a SparseMatrix of the same dimensions gives the same at(i,j) everywhere; transpose, +, -, scaling, mul and matrix-vector mul of corresponding matrices correspond again.", "quantifier": "all histories, all dimensions, all operand pairs", "why_tests_cant": "A relational property between two implementations over all histories.", "anchors": ["src/lib/matrix/SparseMatrix.inl", "src/lib/matrix/DenseMatrix.inl", "src/lib/matrix/BaseMatrix.inl"]}
{"id": "C20", "title": "Dense iteration covers every entry once", "statement": "begin()..end() of a DenseMatrix yields every position once in row-major order with its value; row_begin(i)/column_begin(j) yield exactly the row/column.", "quantifier": "all dense matrices", "why_tests_cant": "All dimensions.", "anchors": ["src/lib/matrix/DenseMatrix.inl:begin/row_begin/column_begin", "src/lib/matrix/DenseMatrix.h:iterators"]}
{"id": "C21", "title": "Dense elementwise operators respect shapes", "statement": "A+=B, A-=B, A*=B and A/=B on dense matrices throw MatrixSizeMismatchException (leaving A unchanged) when the shapes differ and otherwise act entrywise.", "quantifier": "all pairs of dense matrices of any shapes", "why_tests_cant": "Shape pairs with equal element count but different shape are easily missed.", "anchors": ["src/lib/matrix/BaseMatrix.inl:operator +=/-=/*=//="]}
{"id": "C22", "title": "Dense products and transpose", "statement": "Dense mul, mul(vector), mul_left and transpose compute the mathematical results, and throw MatrixMulMismatchException exactly on inner-dimension mismatch.", "quantifier": "all dense matrices", "why_tests_cant": "All dimensions.", "anchors": ["src/lib/matrix/DenseMatrix.inl:mul/mul_left/transpose"]}
{"id": "C23", "title": "Vector operators are entrywise and size-checked", "statement": "For vectors v,w: v+=w, v-=w, v*=w, v/=w and v.dot(w), v==w throw VectorSizeMismatchException exactly when sizes differ, leaving v unchanged, and otherwise act entrywise.", "quantifier": "all vectors of all sizes", "why_tests_cant": "All sizes, and the unchanged-on-throw part.", "anchors": ["src/lib/CountableSet.inl:operator +=/-=/*=//=", "src/lib/Vector.inl:dot"]}
{"id": "C24", "title": "dot is the bilinear symmetric inner product", "statement": "dot(v,w) is the sum of v(i)*w(i); it is symmetric and bilinear; magSqr(v)=dot(v,v) is 0 only for the zero vector over ordered fields.", "quantifier": "all vectors over commutative rings / ordered fields", "why_tests_cant": "Algebraic laws over all values.", "anchors": ["src/lib/Vector.inl:dot/magSqr"]}
{"id": "C25", "title": "Scalar division of vectors divides entries", "statement": "v /= f yields entries v(i)/f for every element type the library accepts and every f != 0.", "quantifier": "all vectors, all non-zero divisors, integral and field element types", "why_tests_cant": "Implemented as multiplication by 1/f; wrong values depend on the element type and the divisor.", "anchors": ["src/lib/CountableSet.inl:operator /=(const T&)"]}
{"id": "C26", "title": "Vector resize keeps the prefix", "statement": "DynamicVector::resize(n) keeps the first min(old,n) entries, and new entries are 0.", "quantifier": "all vectors and sizes, all resize sequences", "why_tests_cant": "All histories of resize/set.", "anchors": ["src/lib/CountableSet.inl:resize"]}
{"id": "C27", "title": "Doolittle factorisation is correct", "statement": "For a square matrix A, when doolittle(A,...) returns normally (L and P zero on entry for the dense overload), P*A = L*U, L is unit lower triangular, U is upper triangular and P is a permutation matrix; the returned pivot count has the parity of the permutation.", "quantifier": "all sizes n, all matrices, all choices of pivots made by the code", "why_tests_cant": "Exact identity for all sizes and pivot sequences, tests only compare a few matrices with tolerance.", "anchors": ["src/lib/LU.inl:doolittle"]}
{"id": "C28", "title": "Doolittle pivoting bounds multipliers and only rejects singular columns", "statement": "When doolittle returns normally every entry of L has absolute value <= 1; with eps = 0 it throws SingularException only if det A = 0, and it throws NotSquareException exactly for non-square input.", "quantifier": "all matrices over ordered fields", "why_tests_cant": "Universal bound over all pivot histories.", "anchors": ["src/lib/LU.inl:doolittle"]}
{"id": "C29", "title": "determinant equals the mathematical determinant", "statement": "Operations::determinant(A) returns det A for every square matrix (in exact arithmetic with zero threshold) and 0 for non-square input; it never throws.", "quantifier": "all square matrices of all sizes", "why_tests_cant": "All sizes, sign handling over all pivot sequences.", "anchors": ["src/lib/matrix/MatrixOperations.inl:determinant", "src/lib/LU.inl:doolittle", "src/lib/Utils.h:sign_pow"]}
{"id": "C30", "title": "LU solve solves the linear system", "statement": "For L,U with non-zero diagonals, solve_lu(L,U,b) returns the x with tril(L)*triu(U)*x=b; combined with doolittle, A*x = b for x = solve_lu(L,U,P*b). Shape errors throw the documented exceptions and a zero diagonal throws SingularException.", "quantifier": "all sizes, all matrices, all right-hand sides", "why_tests_cant": "Exact solution property for every system.", "anchors": ["src/lib/LU.inl:solve_lu"]}
{"id": "C31", "title": "Cholesky factorisation is correct", "statement": "For symmetric A, when cholesky(A,L) (L zero on entry) returns normally with finite numbers, L is lower triangular with non-zero diagonal and L*L^T = A; otherwise it throws NotPositiveDefinite or divides zero by zero. For real numbers it returns a finite factor exactly when A is positive definite.", "quantifier": "all sizes, all symmetric matrices", "why_tests_cant": "Exact identity for all sizes.", "anchors": ["src/lib/LU.inl:cholesky"]}
{"id": "C32", "title": "ILU(0) reproduces A on its pattern", "statement": "When ilu0(A,L,U) (outputs zero on entry, full diagonal stored) returns normally, L is unit lower, U upper triangular, both have non-zeros only on A's pattern, and (L*U)(i,j)=A(i,j) for every stored (i,j).", "quantifier": "all square sparse matrices with full stored diagonal", "why_tests_cant": "Pattern-dependent identity for every pattern.", "anchors": ["src/lib/LU.inl:ilu0"]}
{"id": "C33", "title": "ainv_lu returns the inverses of the triangular factors", "statement": "ainv_lu(L,U,invL,invU) yields invL with L*invL=I and invU with U*invU=I for unit lower L and upper U with non-zero diagonal.", "quantifier": "all sizes and all triangular matrices", "why_tests_cant": "All sizes; off-by-one loop bounds show only in values.", "anchors": ["src/lib/LU.inl:ainv_lu"]}
{"id": "C34", "title": "Operations::inverse returns the inverse", "statement": "For every non-singular matrix A (dense or sparse) Operations::inverse(A) returns B with A*B = I, and inverse(L,U) returns (L*U)^-1.", "quantifier": "all sizes, all non-singular matrices, both matrix classes", "why_tests_cant": "Depends on whether output buffers are cleared - differs between matrix classes.", "anchors": ["src/lib/matrix/MatrixOperations.inl:inverse"]}
{"id": "C35", "title": "Conjugate gradient solves SPD systems in n steps", "statement": "For symmetric positive definite A, CG::serial::cg and pcg (any SPD preconditioner) reach A*x=b in at most n iterations in exact arithmetic, and at every iteration the recursively updated residual equals b-A*x.", "quantifier": "all n, all SPD matrices, right-hand sides, start vectors", "why_tests_cant": "Finite termination and residual invariant over all iterations and sizes.", "anchors": ["src/lib/CG.inl:cg/pcg"]}
{"id": "C36", "title": "Jacobi preconditioner", "statement": "The Jacobi preconditioner of A is the diagonal matrix with entries 1/A(i,i); it throws SingularException iff some |A(i,i)| <= eps.", "quantifier": "all square matrices", "why_tests_cant": "All sizes.", "anchors": ["src/lib/CG.inl:jacobi preconditioner"]}
{"id": "C37", "title": "Jacobi iteration: a fixed point is a solution, and vice versa", "statement": "For A with non-zero diagonal, each Jacobi sweep maps x to x + D^-1(b-A x); hence Iterative::serial::jacobi returning by exact convergence (step 0) returns x with A*x=b; the reported iteration count never exceeds maxIter; a zero diagonal is reported as MatrixHasZeroInDiagException.", "quantifier": "all sizes, matrices, right-hand sides, start vectors, iteration limits", "why_tests_cant": "Universal algebraic identity of the sweep, every loop exit.", "anchors": ["src/lib/Iterative.inl:jacobi"]}
{"id": "C38", "title": "SOR: a returned converged vector solves the system", "statement": "Iterative::serial::sor(A,b,x0,weight) returning by exact convergence (step 0) returns x with A*x=b, for every weight in (0,2).", "quantifier": "all sizes, matrices, weights and start vectors", "why_tests_cant": "Depends on how the first sweep uses the start vector.", "anchors": ["src/lib/Iterative.inl:sor"]}
{"id": "C39", "title": "Cuthill-McKee returns a permutation", "statement": "order::cuthill_mckee(A) returns a vector that is a permutation of 0..n-1 for every square sparse matrix, and r_cuthill_mckee returns its reverse.", "quantifier": "all square sparse matrices including disconnected ones and ones with empty rows", "why_tests_cant": "Graph traversal over arbitrary patterns.", "anchors": ["src/lib/matrix/MatrixOrder.inl:cuthill_mckee/r_cuthill_mckee"]}
{"id": "C40", "title": "Permutation helpers agree", "statement": "permutation_matrix(p) is the matrix P with (P*v)(i)=v(p(i)); inverse_permutation inverts p; permutate(A,p)=P*A*P^T; permutate(v,p)=P*v, so that solving the permuted system and permuting back solves the original.", "quantifier": "all permutations, matrices, vectors", "why_tests_cant": "Direction conventions agree on involutions (what tests usually use) but not on all permutations.", "anchors": ["src/lib/matrix/MatrixOrder.inl:permutation_matrix/inverse_permutation/permutate"]}
{"id": "C41", "title": "eye, diag, tril, triu", "statement": "eye(n) is the identity; diag(v) and diag(m) are inverse to each other on diagonals; tril(m,k) keeps exactly the entries with j <= i+k and triu(m,k) those with j >= i+k, for every (positive or negative) k.", "quantifier": "all matrices, all offsets k in int32", "why_tests_cant": "k is signed and mixed with unsigned indices; wrap-around must be harmless for all k.", "anchors": ["src/lib/matrix/MatrixConstructor.inl:eye/diag/tril/triu"]}
{"id": "C42", "title": "Hilbert matrix and its inverse", "statement": "hilbert(n)(i,j)=1/(i+j+1) and inv_hilbert(n) is exactly its inverse (hilbert(n)*inv_hilbert(n)=I in exact arithmetic) for every n.", "quantifier": "all n", "why_tests_cant": "A combinatorial identity for all n.", "anchors": ["src/lib/matrix/MatrixConstructor.inl:hilbert/inv_hilbert", "src/lib/Utils.h:binom"]}
{"id": "C43", "title": "Matrix predicates decide the mathematical property", "statement": "isSymmetric, isSkewSymmetric, isHermitian, isSkewHermitian, isOrthogonal, isUnitary, isProjection return true exactly when the matrix is square and satisfies the defining equation.", "quantifier": "all matrices", "why_tests_cant": "Universal equivalence.", "anchors": ["src/lib/matrix/MatrixCheck.inl"]}
{"id": "C44", "title": "binom and factorial compute the mathematical functions", "statement": "For 0<=k<=n integral binom(n,k) is the binomial coefficient (every intermediate division is exact) provided intermediate values fit the type; factorial(n)=n!; sign_pow(n)=(-1)^n.", "quantifier": "all n, k", "why_tests_cant": "Exactness of each division for all n,k; overflow bound.", "anchors": ["src/lib/Utils.h:binom/factorial/sign_pow"]}
{"id": "C45", "title": "normal() is orthogonal to its inputs", "statement": "For K-1 vectors of dimension K, the vector computed by normal() is orthogonal to each of them, and has unit length when they are independent.", "quantifier": "all K>=2, all K-1 vectors", "why_tests_cant": "Algebraic identity for all dimensions.", "anchors": ["src/lib/Normal.h"]}
{"id": "C46", "title": "Simplex coordinate maps are mutually inverse", "statement": "For every non-degenerate triangle, toLocal(toGlobal(p)) = p and toGlobal(toLocal(q)) = q; vertices map to (0,0),(1,0),(0,1); prepare() reports degenerate triangles; accessors before prepare() abort.", "quantifier": "all triangles and points", "why_tests_cant": "Algebraic identity over all coordinates.", "anchors": ["src/lib/Simplex.inl:prepare/toLocal/toGlobal"]}
{"id": "C47", "title": "Simplex volume, gradients and face geometry", "statement": "volume() is |det|/2 and invariant under vertex permutations and translation; gradient(c) is the gradient of the c-th barycentric coordinate (1 at vertex c, 0 at the others; gradients sum to 0); diameter() is the largest edge length.", "quantifier": "all non-degenerate triangles", "why_tests_cant": "Identities over all coordinates.", "anchors": ["src/lib/Simplex.inl:volume/gradient/diameter"]}
{"id": "C48", "title": "Simplex::center is the circumcenter and faceNormal points outward", "statement": "center() is equidistant to the three vertices, outerRadius() is that distance; faceNormal(i) has unit length, is orthogonal to face i and points away from vertex i.", "quantifier": "all non-degenerate triangles", "why_tests_cant": "Identities over all coordinates.", "anchors": ["src/lib/Simplex.inl:center/outerRadius/faceNormal"]}
{"id": "C49", "title": "Mesh handles share data and free it exactly once", "statement": "Under any sequence of construct, copy, move, assign (including self-assignment) and destroy operations on Mesh handles, the shared data is never used after free, never freed twice, and is freed once the last handle is gone.", "quantifier": "all finite histories over any number of handles", "why_tests_cant": "Aliasing patterns over unbounded histories.", "anchors": ["src/lib/mesh/Mesh.inl:Mesh copy/move constructors, operator =, ~Mesh, deref"]}
{"id": "C50", "title": "Mesh indexing and incidence are consistent", "statement": "Under any addVertex/addElement history, the i-th added vertex has global index i, each element refers to exactly the vertices given, a vertex's element list is exactly the list of elements containing it, in insertion order.", "quantifier": "all histories", "why_tests_cant": "Two-sided incidence over all histories.", "anchors": ["src/lib/mesh/Mesh.inl:addVertex/addElement"]}
{"id": "C51", "title": "setupNeighbors builds the face adjacency", "statement": "After setupNeighbors() returns normally, every element face has exactly one edge object, two elements share an edge exactly when they share that face's vertices, neighbours are symmetric, and each edge belongs to one or two elements; if some face is shared by three or more elements it throws.", "quantifier": "all meshes", "why_tests_cant": "Arbitrary meshes.", "anchors": ["src/lib/mesh/Mesh.inl:setupNeighbors"]}
{"id": "C52", "title": "setupBoundaries marks exactly the boundary vertices", "statement": "After setupNeighbors and setupBoundaries, a vertex is flagged as boundary exactly when it lies on a face belonging to only one element (or was already flagged).", "quantifier": "all meshes", "why_tests_cant": "Arbitrary meshes.", "anchors": ["src/lib/mesh/Mesh.inl:setupBoundaries"]}
{"id": "C53", "title": "HyperCube generates a conforming triangulation of the requested rectangle", "statement": "generate for n0 x n1 elements yields (n0+1)(n1+1) vertices and 2*n0*n1 elements, all vertex references in range, all triangles non-degenerate with areas summing to the rectangle's area, boundary flags exactly on the rim, and coordinates spanning [0,size0] x [0,size1]; fewer than one element throws.", "quantifier": "all n0,n1>=1 and all sizes", "why_tests_cant": "All element counts, in particular n0 != n1.", "anchors": ["src/lib/mesh/HyperCube.inl"]}
{"id": "C54", "title": "Shape functions form a nodal basis", "statement": "For each supported (dimension, order) the shape functions evaluated through value() have the Kronecker property at the nodes used by prepareMesh, sum to one everywhere, and gradient() is the derivative of value().", "quantifier": "all evaluation points and nodal values, all supported (K,order)", "why_tests_cant": "Polynomial identities at all points.", "anchors": ["src/lib/sf/PolyShapeFunction.inl:value/gradient"]}
{"id": "C55", "title": "Shape function DOF counts match the polynomial space", "statement": "The number of DOFs per element equals the dimension of polynomials of the given order in K variables, so value()/gradient() with DOF nodal values never aborts.", "quantifier": "all supported (K, order)", "why_tests_cant": "Requires relating constant tables to the space dimension for every instantiation.", "anchors": ["src/lib/sf/PolyShapeFunction.inl:DOF", "src/lib/sf/PolyShapeFunction.h"]}
{"id": "C56", "title": "prepareMesh numbers degrees of freedom consistently", "statement": "prepareMesh of order 1 makes the DOFs the vertices; of order 2 it adds one DOF per edge located at the edge midpoint, shared by adjacent elements, with all DOF indices distinct and contiguous.", "quantifier": "all meshes", "why_tests_cant": "Arbitrary meshes.", "anchors": ["src/lib/sf/PolyShapeFunction.inl:prepareMesh"]}
{"id": "C57", "title": "Gauss-Legendre quadrature integrates polynomials exactly", "statement": "The quadrature for given order integrates every polynomial up to its nominal degree over the reference simplex, up to the rounding of the tabulated constants (bound 1e-13 times the sum of absolute coefficients).", "quantifier": "all polynomials of the nominal degree, all tabulated orders", "why_tests_cant": "Universal over coefficients; tests check a few functions.", "anchors": ["src/lib/quadrature/GaussLegendreQuadratureFactory.inl", "src/lib/quadrature/Quadrature.inl"]}
{"id": "C58", "title": "Triangle loader parses whole numbers of each line", "statement": "Reading a .node/.ele line with the required tokens yields exactly the tokens' numbers in order; a line with fewer tokens is rejected with an exception; no input reads outside the line buffer.", "quantifier": "all input lines", "why_tests_cant": "Arbitrary input bytes.", "anchors": ["src/lib/loader/MeshTriangleLoader.inl:skipWS/extractFirstNumber"]}
{"id": "C59", "title": "Triangle loader index handling", "statement": "Files whose first node index is 0 or 1 load to the same mesh; out-of-sequence indices, a zero node count or a wrong dimension are rejected with an exception; element vertex references outside the node range are rejected.", "quantifier": "all input files", "why_tests_cant": "Arbitrary inputs, both index bases.", "anchors": ["src/lib/loader/MeshTriangleLoader.inl:load"]}
{"id": "C60", "title": "FEM Dirichlet elimination keeps the solution", "statement": "The boundary elimination used by the Poisson FEM example produces a system whose solutions are exactly the vectors that take the boundary value at boundary vertices and satisfy the original equations at interior vertices; symmetry of the matrix is preserved.", "quantifier": "all systems, boundary sets and boundary values", "why_tests_cant": "Equivalence of solution sets for all systems.", "anchors": ["examples/poisson/fem.cpp"]}
{"id": "C61", "title": "Jacobi iteration converges for strictly diagonally dominant matrices", "statement": "For a strictly diagonally dominant A (row ratio <= q < 1), every b, x0 and tolerance eps > 0, Iterative::serial::jacobi stops by convergence when the iteration limit is large enough, and each component of the returned vector is within q/(1-q)*eps of the solution (exact arithmetic).", "quantifier": "all sizes, all strictly diagonally dominant matrices, right-hand sides, start vectors, positive tolerances", "why_tests_cant": "Convergence is a statement about all matrices and unbounded iteration counts.", "anchors": ["src/lib/Iterative.inl:jacobi"]}
{"id": "C62", "title": "SOR converges for strictly diagonally dominant matrices and weight in (0,1]", "statement": "For a strictly diagonally dominant A, 0 < weight <= 1, every b, x0 and eps > 0, Iterative::serial::sor stops by convergence when the limit is large enough; after at least two iterations each component is within p/(1-p)*eps of the solution with p = 1-w+w*q.", "quantifier": "all sizes, all strictly diagonally dominant matrices, weights in (0,1], right-hand sides, start vectors, positive tolerances", "why_tests_cant": "Convergence is a statement about all matrices and unbounded iteration counts.", "anchors": ["src/lib/Iterative.inl:sor"]}
{"id": "C63", "title": "Cuthill-McKee numbering: breadth first by degree, components from a minimal-degree start", "statement": "In the numbering returned by order::cuthill_mckee the next index is always the one of smallest degree (then smallest index) among the unnumbered neighbours of the earliest numbered index that has any; if there is none, the index of smallest degree (then smallest index) among all unnumbered ones. This determines the numbering; it is breadth first and numbers components consecutively.", "quantifier": "all square sparse matrices (patterns need not be symmetric)", "why_tests_cant": "Graph traversal over arbitrary patterns.", "anchors": ["src/lib/matrix/MatrixOrder.inl:cuthill_mckee"]}
{"id": "C64", "title": "Mesh::validate decides consistency", "statement": "validate() returns normally exactly when every vertex has its position as index, belongs to some element and is known to all elements in its list, and every element has three non-null vertices at the corners of its prepared simplex, a volume above the threshold and an edge at each face. After the usual sequence addVertex/addElement, setupNeighbors, prepare it throws IsolatedVertexException exactly if a vertex belongs to no element, else ZeroVolumeSimplexException if an element has negligible volume, else nothing.", "quantifier": "all meshes, including inconsistent ones; all build histories", "why_tests_cant": "Arbitrary pointer structures and meshes.", "anchors": ["src/lib/mesh/Mesh.inl:validate/prepare"]}
{"id": "C65", "title": "FEM assembly computes the Galerkin sums", "statement": "For every triangle mesh set up as in the FEM example, assembling succeeds; entry (r,c) of the matrix is the sum, over all elements and all pairs of their degrees of freedom numbered r and c, of the element matrix entries (those of absolute value at most EPS dropped), the right-hand side likewise; the matrix is symmetric. If no non-zero entry is dropped it is positive semidefinite and constant vectors are in its kernel.", "quantifier": "all meshes with distinct corners and non-zero volumes, orders 1 and 2, all source functions, all thresholds", "why_tests_cant": "Arbitrary meshes and numberings.", "anchors": ["examples/poisson/fem.cpp:handleMesh (assembling)"]}
{"id": "C66", "title": "FEM element matrix is the Dirichlet form", "statement": "For linear and quadratic elements the element matrix of the FEM example is the integral of the products of the gradients of the nodal basis functions on the triangle (up to the rounding of the tabulated quadrature constants).", "quantifier": "all triangles of non-zero area, both orders, all pairs of nodes", "why_tests_cant": "All triangles; tests on the unit grid do not see the missing transpose.", "anchors": ["examples/poisson/fem.cpp:handleMesh (elemMat)", "src/lib/mesh/Simplex.inl:inverseMatrix"]}
{"id": "C67", "title": "The constrained FEM system is symmetric positive definite and solvable", "statement": "If every vertex is connected through elements to a strong boundary vertex and no non-zero entry is dropped, the constrained matrix is symmetric positive definite, the system has exactly one solution, and a vector solves it exactly when it has the given boundary values and satisfies the discrete equations at all other vertices. The Jacobi-preconditioned conjugate gradient solver of the example then succeeds with a residual below the tolerance after at most as many iterations as there are vertices.", "quantifier": "all such meshes, orders 1 and 2, sources, boundary functions, tolerances", "why_tests_cant": "Arbitrary meshes and iteration histories.", "anchors": ["examples/poisson/fem.cpp:handleMesh", "src/lib/cg/CG.inl:pcg", "src/lib/cg/CG.inl:jacobi"]}
{"id": "C68", "title": "FEM on the generated grid gives the five-point stencil", "statement": "For every N >= 1 the FEM example with linear elements on HyperCube::generate(N x N, square) succeeds in every step up to the solver; in row and column numbering of the grid its matrix is (up to the rounding of the quadrature weights) the five-point stencil 4, -1, -1, -1, -1 on the inner vertices with the rim decoupled by the mean diagonal 4N^2/(N+1)^2, it is symmetric positive definite and the system has exactly one solution.", "quantifier": "all N, square sizes, offsets, sources, boundary functions", "why_tests_cant": "All grid sizes.", "anchors": ["examples/poisson/fem.cpp", "src/lib/mesh/HyperCube.inl:generate"]}
{"id": "C69", "title": "SOR converges for symmetric positive definite matrices", "statement": "For every symmetric positive definite matrix, right-hand side, start vector, weight 0 < w < 2 and positive tolerance, Iterative::serial::sor returns by its convergence test once the iteration limit is large enough, and the residual of what it returns is bounded by the tolerance times the diagonal and upper row sums. In particular the SOR solver of the FEM example succeeds on every anchored mesh.", "quantifier": "all SPD matrices of any size, right-hand sides, start vectors, weights in (0,2), tolerances", "why_tests_cant": "Convergence for all matrices and any number of iterations.", "anchors": ["src/lib/Iterative.inl:sor", "examples/poisson/fem.cpp (solver 0)"]}
{"id": "C70", "title": "SOR error bound, and convergence for layered systems", "statement": "If the unknowns can be put into levels such that no equation refers to a higher level and, after scaling the rows, the coupling inside each level is symmetric positive definite, then for 0 < w < 2 SOR stops by convergence for large enough iteration limits and its result differs from the solution by at most a constant (depending on matrix and weight only) times the tolerance.", "quantifier": "all such matrices, right-hand sides, start vectors, weights in (0,2), tolerances", "why_tests_cant": "Convergence for all matrices and any number of iterations.", "anchors": ["src/lib/Iterative.inl:sor"]}
{"id": "C71", "title": "The finite difference Poisson example solves the five-point scheme", "statement": "For every grid size, non-zero mesh widths, source and boundary function, the assembling in the finite difference example succeeds, a vector solves the assembled system exactly when it has the boundary values on the rim and satisfies the five-point difference equation inside; there is exactly one such vector, it obeys the discrete maximum and minimum principle, and the SOR call of the example converges to it with an error of at most a constant times the tolerance if the iteration limit is large enough.", "quantifier": "all grid sizes, mesh widths, functions, weights in (0,2), tolerances", "why_tests_cant": "All grid sizes and data.", "anchors": ["examples/poisson/fdm.cpp:main"]}
{"id": "C72", "title": "The heat example solves the implicit Euler scheme", "statement": "For every grid, number of time levels, positive time step and non-negative conductivity, the space-time system assembled by the heat example is the implicit Euler five-point scheme with the initial values at time 0 and boundary values on the rim; it has exactly one solution, which obeys the discrete maximum and minimum principle, and with positive conductivity the SOR call converges to it with an error of at most a constant times the tolerance if the iteration limit is large enough.", "quantifier": "all grid sizes, time levels, steps, functions, weights in (0,2), tolerances", "why_tests_cant": "All grid sizes, time levels and data.", "anchors": ["examples/heat/main.cpp:main"]}
{"id": "C73", "title": "Matrix norms and the cond estimate", "statement": "For every well-formed real matrix of any class, max_norm2 returns the Euclidean norm of the row maxima of the absolute values: it depends on the entries only, is zero exactly for the zero matrix, scales with |a|, satisfies the triangle inequality, bounds every entry and the action on vectors. min_norm2 uses the row minima over the stored entries (non-zero entries of a sparse matrix, all entries of a dense one). cond is defined for a sparse matrix without zero rows, for a dense matrix exactly when some row has no zero; it is then at least one, and invariant under scaling. It is not a condition number and depends on the matrix class.", "quantifier": "all matrices of any size and class, all values", "why_tests_cant": "All matrices, sizes and values; norm axioms relate arbitrary pairs of matrices.", "anchors": ["src/lib/matrix/MatrixOperations.inl:max_norm2", "src/lib/matrix/MatrixOperations.inl:min_norm2", "src/lib/matrix/MatrixOperations.inl:cond"]}
{"id": "C74", "title": "Rounding error of dot product and sum", "statement": "In floating-point arithmetic with unit roundoff u (no overflow or underflow), dot of two vectors of length n returns the exact dot product of a vector that differs from the first one by at most gam(n) in every entry, relatively; hence its error is at most gam(n) times the dot product of the absolute values. sum has error at most gam(n-1) times the sum of absolute values. The square of a vector is computed with relative error gam(n), is non-negative and is zero only for the zero vector. gam(n) <= n u/(1 - n u).", "quantifier": "all lengths, all vectors, every arithmetic with relative error u per operation, in particular binary floating point of every precision", "why_tests_cant": "Covers all inputs and all roundings; a test observes one rounding pattern.", "anchors": ["src/lib/Vector.inl:dot", "src/lib/CountableSet.inl:sum"]}
{"id": "C75", "title": "Rounding error of the matrix-vector and matrix-matrix products", "statement": "In floating-point arithmetic, m * v returns (A + dA) x with |dA| <= gam(c) |A| entrywise, where c is the number of columns, for sparse matrices the number of non-zero entries of the row; mul_left likewise returns x (A + dA) with the rows/columns exchanged; and the matrix product differs from A B entrywise by at most gam(k) |A| |B|, where k is the number of columns of A (sparse: of non-zero entries in the row of A).", "quantifier": "all sizes, matrices, vectors and roundings", "why_tests_cant": "All matrices and roundings.", "anchors": ["src/lib/matrix/SparseMatrix.inl:mul", "src/lib/matrix/BaseMatrix.inl:mul"]}
{"id": "C76", "title": "solve_lu is backward stable", "statement": "In floating-point arithmetic solve_lu throws SingularException exactly if a diagonal entry of L or U does not exceed the threshold; otherwise the result solves exactly (tril L + dL)(triu U + dU) x = b with |dL| <= gam(n)|tril L| and |dU| <= gam(n)|triu U|.", "quantifier": "all sizes, all L, U, b, thresholds and roundings", "why_tests_cant": "All matrices and roundings.", "anchors": ["src/lib/LU.inl:solve_lu"]}
{"id": "C77", "title": "doolittle has small backward error", "statement": "In floating-point arithmetic doolittle on a square matrix returns a unit lower triangular L with entries at most 1/(1-u)^2, a permutation matrix P with the parity of the pivot count and U with P A + E = L triu(U), |E| <= gam(n) |L||triu(U)|, or throws SingularException. The entries of U below the diagonal are not exactly zero in general.", "quantifier": "all sizes, matrices, thresholds and roundings", "why_tests_cant": "All matrices and roundings.", "anchors": ["src/lib/LU.inl:doolittle"]}
{"id": "C78", "title": "Solving and inverting with LU in floating point", "statement": "doolittle, P*b and solve_lu in sequence return the exact solution of a system whose matrix differs from A by at most (3 gam(n) + gam(n)^2) P^T|L||triu U| entrywise, or a SingularException; each column of inverse(m) of a sparse matrix is the column of the exact inverse of such a perturbed matrix. The product with the permutation has no rounding error.", "quantifier": "all sizes, matrices, right-hand sides, thresholds and roundings", "why_tests_cant": "All matrices and roundings.", "anchors": ["src/lib/LU.inl:doolittle", "src/lib/LU.inl:solve_lu", "src/lib/matrix/MatrixOperations.inl:inverse"]}
{"id": "C79", "title": "Determinant in floating point", "statement": "determinant never throws for a square matrix; it returns the determinant of a matrix that differs from A by at most gam(n) P^T|L||triu U| entrywise, up to a relative error gam(n), or zero if doolittle finds no pivot above the threshold.", "quantifier": "all sizes, matrices, thresholds and roundings", "why_tests_cant": "All matrices and roundings.", "anchors": ["src/lib/matrix/MatrixOperations.inl:determinant"]}
{"id": "C80", "title": "Cholesky decomposition in floating point", "statement": "For a symmetric matrix A, cholesky throws NotPositiveDefinite, divides zero by zero (a pivot computed as zero), or returns a lower triangular L with L L^T = A + E where |E| <= gam(n+4) |L||L^T| entrywise; |E_ij|^2 is then bounded by A_ii A_jj times (g/(1-g))^2.", "quantifier": "all sizes, symmetric matrices and roundings with relative error at most u, square roots with relative error at most u", "why_tests_cant": "All matrices and roundings; a test sees the rounding errors of its sample only.", "anchors": ["src/lib/LU.inl:cholesky"]}
{"id": "C81", "title": "Loading a mesh from an OBJ file", "statement": "MeshObjLoader uses the first shape of the file only: its vertices in order with the two chosen coordinates, its index triples as triangles; a triple with an index outside the vertices, or a file the parser rejects, gives a LoadObjError exception; otherwise the mesh has exactly these vertices and triangles with face adjacency, or TooManySharedFaces if a face belongs to three triangles. Triangles with a repeated corner are accepted.", "quantifier": "all lists of shapes with any coordinates and index lists, all choices of coordinates", "why_tests_cant": "Every file; a test sees a few.", "anchors": ["src/objloader/loader/MeshObjLoader.inl:load"]}
{"id": "C82", "title": "Files of the VTK exporter can be read back", "statement": "An independent reader of the XML format accepts every file VTKExporter writes and finds the coordinates of all vertices, the connectivity, offsets and types of all elements and all data arrays with their names and values. If the mesh was set up by setupNeighbors, prepare and prepareMesh, the file is valid: one cell for each element, whose points are the corners and, with IsQuadratic, the midpoints of the sides in the order of VTK; the number of values fits the number of points and cells. Not valid: ElementGradient (announces 4 components, writes 2), meshes without prepareMesh, order 2 without IsQuadratic. An empty map of point data is undefined behaviour.", "quantifier": "all meshes, data maps, options and number formats without blanks or '<'", "why_tests_cant": "Every mesh, every set of options and data.", "anchors": ["src/lib/export/VTKExporter.inl:write", "src/lib/export/VTKExporter.h:VTKExporterOptions", "src/lib/sf/PolyShapeFunction.inl:prepareMesh"]}
{"id": "C83", "title": "Printed vectors and matrices can be read back", "statement": "operator<< prints a vector as its values in order between brackets, a matrix as its rows separated by '|', a sparse matrix as the triples (row, column; value) of exactly its non-zero entries in row-major order. Two vectors or matrices (sparse: of the same shape) with the same text are equal; the shape of a sparse matrix is not printed.", "quantifier": "all vectors, dense and sparse matrices, and number formats without blanks", "why_tests_cant": "All matrices and formats.", "anchors": ["src/lib/OutputStream.h:operator<<"]}
{"id": "C84", "title": "The finite difference programs converge", "statement": "If the continuous Poisson (heat) problem has a solution that is four times continuously differentiable in each space direction (and twice in time), the values returned by the finite difference programs differ from it at every grid point by at most an explicit constant times h^2 + k^2 (Poisson) or t*(ht + hx^2 + hy^2) (heat, no condition on the time step), plus a constant times the tolerance of the solver.", "quantifier": "all grids, mesh widths, relaxation weights in (0,2), tolerances and all problems with a smooth solution", "why_tests_cant": "All problems with a smooth solution and all mesh widths; an error bound for the limit.", "anchors": ["examples/poisson/fdm.cpp:main", "examples/heat/main.cpp:main"]}
{"id": "C85", "title": "The length of a vector is a norm", "statement": "mag() is the non-negative square root of the sum of the squares of the entries: it is 0 exactly for the zero vector, |v.dot(w)| <= v.mag()*w.mag(), (v+w).mag() <= v.mag()+w.mag(), (v*f).mag() = |f|*v.mag(). normalized() of a non-zero vector has length 1 and the entries v(i)/v.mag(); of a zero vector it is not finite. For complex element types mag() is not a norm, because dot does not conjugate: mag of the non-zero vector (1,i) is 0.", "quantifier": "all vectors of all sizes over ordered fields; complex witness", "why_tests_cant": "Inequalities over all pairs of vectors.", "anchors": ["src/lib/Vector.inl:mag", "src/lib/Vector.inl:normalized"]}
{"id": "C86", "title": "Observers of vectors and matrices are exact", "statement": "hasNaN/hasInf (vectors, real and complex) and has_nan/has_inf (matrices, after any sequence of writes) are true exactly if some entry is NaN / infinite, also for sparse matrices. avg() is the mean of all entries (sparse: over rows*columns) and lies between any bounds of the entries; it is not finite for an empty vector. min()/max() are the smallest and largest entry. A begin()/end() loop visits every entry once in order. left/right/mid return the named part of the vector. The code violates two of these: max() returns numeric_limits::min() if all entries are below it, and left/right/mid abort for every DynamicVector (FixedVector: the part is padded with zeros).", "quantifier": "all vectors, all matrices and write histories", "why_tests_cant": "All histories of writes and all values, including overwritten NaNs.", "anchors": ["src/lib/CountableSet.inl:hasNaN", "src/lib/CountableSet.inl:hasInf", "src/lib/CountableSet.inl:avg", "src/lib/CountableSet.h:CountableSetIterator", "src/lib/Vector.inl:left", "src/lib/Vector.inl:right", "src/lib/Vector.inl:mid", "src/lib/matrix/BaseMatrix.inl:has_nan", "src/lib/matrix/SparseMatrix.inl:has_nan"]}
{"id": "C87", "title": "Jacobi and SOR with complex numbers", "statement": "jacobi and sor also accept complex element types. One pass computes the same update as for reals; a vector is left unchanged by the Jacobi step exactly when it solves A x = b; if every row of A is dominated by its diagonal entry with factor q < 1 (in absolute value), every Jacobi pass multiplies the largest error |x_i - x*_i| by at most q, and every SOR pass with weight 0 <= w <= 1 by at most 1-w+w*q. The stopping test should only fire when the last change is smaller than the tolerance; the code squares the difference without conjugation, so it can stop after one pass at a vector that is no solution.", "quantifier": "all complex square matrices with non-zero diagonal, right-hand sides, start vectors and iteration counts", "why_tests_cant": "Ranges over all matrices and all iteration counts; the false stop needs differences whose squares cancel.", "anchors": ["src/lib/Iterative.inl:jacobi", "src/lib/Iterative.inl:sor", "tests/iterative.cpp"]}
{"id": "C88", "title": "The finite element program converges", "statement": "For the generated N x N grid of a square, linear elements and a Poisson problem -div grad u = f with boundary values g whose solution is four times continuously differentiable along the axes and whose source has bounded second differences, the values the program computes differ from the solution at every vertex by at most C*(L/N)^2 + 3*EPS*N^2/(4*kappa) (contributions dropped below EPS) plus N^2/8 times the residual left by the solver, and by at most the residual at the boundary; both the SOR and the preconditioned CG solver return such values. In particular the shipped problem (f = sin(pi x) sin(pi y), g = 0, unit square, all shipped constants) is solved with error at most pi^2/(32 N^2) plus the solver tolerance terms.", "quantifier": "all N, all square sizes, all sources, boundary functions with a smooth solution, relaxation weights in (0,2), tolerances; the shipped problem for all N (SOR) and 2 <= N <= 31 (PCG, 1024 iterations)", "why_tests_cant": "An error bound for all problems and all mesh widths; a test only compares a few meshes with one analytic solution.", "anchors": ["examples/poisson/fem.cpp:handleMesh", "src/lib/mesh/HyperCube.inl:generate", "src/lib/sf/PolyShapeFunction.inl:prepareMesh"]}
{"id": "C89", "title": "The error report and the result files of the finite element example", "statement": "After solving, the example reports for every vertex the distance of its value to the exact solution and prints the largest; it computes an error indicator for every element that is the half sum over the sides of side length times squared difference quotients (plus, for quadratic elements, the weighted cell residual) and prints it as a bound of |grad(e)|; it writes one line per vertex with coordinates and value in the order of the vertex numbers, and one line per element whose numbers are the 1-based line numbers of its corners in the first file. None of this fails for any mesh that was set up.", "quantifier": "all triangle meshes built with the API, orders 1 and 2, all value vectors, all solutions and sources", "why_tests_cant": "Index consistency between two files and the absence of failures for every mesh; a test looks at one mesh.", "anchors": ["examples/poisson/fem.cpp:handleMesh"]}
{"id": "C90", "title": "Probing matrices", "statement": "has(i,j) and has(i,j,val) of a dense matrix tell whether the entry differs from zero (and return it); max() and min() are the largest and smallest entry; two iterators of a matrix (dense or sparse) that point to entries are equal exactly if they point to the same position, iterators that point to no entry are equal to each other and to end() and to no other; a default constructed matrix has no rows, columns and entries, iterating it yields nothing and every access aborts; a default simplex is unprepared with all vertices at the origin. The code violates the max() clause when all entries are below numeric_limits::min().", "quantifier": "all matrices built through the API, all positions, all pairs of iterators", "why_tests_cant": "Holds for every matrix and every pair of iterator positions, including past-the-end ones.", "anchors": ["src/lib/matrix/BaseMatrix.inl:has,max,min", "src/lib/matrix/BaseMatrix.h:MatrixIterator", "src/lib/matrix/SparseMatrix.h:SparseMatrixIterator", "src/lib/matrix/DenseMatrix.inl:DenseMatrix"]}
{"id": "C91", "title": "Numbers in OBJ files", "statement": "A field of a vertex line that is a decimal number - sign, digits, optional point with digits, optional exponent with sign and digits - is read as exactly the value it denotes, independent of the blanks before it, and reading goes on behind it. Other fields do not fail: a word without digits after its optional sign (also .5) and a missing field are read as 0 without any report, and so is a number whose exponent has no digits; an exponent that is no int is undefined behaviour, of either sign. These cases cover every word.", "quantifier": "all decimal numerals of any length, all blanks around them, all following text; all words whatsoever", "why_tests_cant": "Infinitely many numerals of unbounded length.", "anchors": ["src/objloader/external/tiny_obj_loader.h:tryParseDouble", "src/objloader/external/tiny_obj_loader.h:parseFloat"]}
{"id": "C92", "title": "What an OBJ text means", "statement": "MeshObjLoader::loadString on a text of well-formed lines (comments, blank and unknown lines, v, vn, vt, f, o, g, mtllib, usemtl, tags with their three counts; ended by LF, CR or CRLF) whose faces have at least three corners i, i/j, i//k or i/j/k that refer, forwards from 1 or backwards from -1, to things defined before, yields one shape per non-empty group; the mesh has for the first group one vertex for every different corner in the order of first use with the chosen coordinates of the vertex it refers to, the fan triangles of all polygons in order, and face adjacency between triangles with common corners (or TooManySharedFaces). A text without faces gives the empty mesh. Corners with the same position but other normals or texture coordinates, or before and after a change of the material, are different vertices, so such triangles are not neighbours, and faces before a final material change are lost.", "quantifier": "all texts of well-formed lines of any number and length, all numerals, all references", "why_tests_cant": "Every text; a test sees a few files.", "anchors": ["src/objloader/external/tiny_obj_loader.h:LoadObj", "src/objloader/external/tiny_obj_loader.h:exportFaceGroupToShape", "src/objloader/loader/MeshObjLoader.inl:loadString"]}
{"id": "C93", "title": "Reading any text as an OBJ file", "statement": "For every text whatsoever LoadObj ends, and never throws; it returns shapes, stops at a failed assertion or has undefined behaviour. Undefined behaviour does occur: a face with one corner, an object without a name, a tag line, a number that does not fit an int. A text of at most 10^8 characters without NUL characters and tag lines, with numbers of at most eight digits, a name after o, usemtl and mtllib and at least two words after f - apart from that anything - is read without undefined behaviour: the result is a list of shapes or a failed assertion about a vertex number.", "quantifier": "all character sequences", "why_tests_cant": "All inputs, including malformed ones; termination cannot be tested.", "anchors": ["src/objloader/external/tiny_obj_loader.h:LoadObj", "src/objloader/external/tiny_obj_loader.h:parseTriple"]}
{"id": "C94", "title": "Reverse Cuthill-McKee never enlarges the envelope, and Cholesky fills only the envelope", "statement": "For a matrix with symmetric pattern and no zero row, the matrix renumbered with r_cuthill_mckee has at most as many positions in its envelope (left of the diagonal, from the first non-zero entry of the row on) as the one renumbered with cuthill_mckee, and the same bandwidth. The factor cholesky returns has non-zero entries only on the diagonal and in the envelope of the matrix. So renumbering a positive definite matrix with r_cuthill_mckee and factoring it succeeds with at most as much fill as the envelope of the cuthill_mckee numbering.", "quantifier": "all sizes and all matrices with symmetric pattern", "why_tests_cant": "A statement about all sparsity patterns and their numberings.", "anchors": ["src/lib/matrix/MatrixOrder.inl:r_cuthill_mckee", "src/lib/matrix/MatrixOrder.inl:cuthill_mckee", "src/lib/LU.inl:cholesky"]}
{"id": "C95", "title": "Growth of the entries in the LU decomposition, and the accuracy it guarantees", "statement": "When doolittle returns, the entries of U in row i are at most 2^i times the largest entry of A in the same column (and this bound is attained). In floating-point arithmetic, doolittle, P*b and solve_lu together return the exact solution of a system whose matrix differs from A by at most a number that depends only on the size and the unit roundoff times the largest entry of the column; for ten unknowns in double precision the number is below 2e-11.", "quantifier": "all sizes with gam(n) < 1, all matrices, right-hand sides, thresholds and roundings", "why_tests_cant": "The bound must hold for all matrices, including those with the largest growth, and for all rounding errors.", "anchors": ["src/lib/LU.inl:doolittle", "src/lib/LU.inl:solve_lu"]}
{"id": "C96", "title": "Limiting accuracy of jacobi and sor in floating-point arithmetic", "statement": "On a diagonally dominant system A z = b with row ratio q, jacobi (and sor with a weight w in [0,1]) run in floating-point arithmetic always returns; the error of the result in every component is at most beta*max|z|/(1-rho) plus rho^k times the error of the start vector after k sweeps, where rho and beta differ from the exact contraction factor and zero only by terms of the size of the rounding unit; if the run stopped because its test accepted, the error is at most (rho*eps*(1+gam) + beta*max|z|)/(1-rho) (sor: from the second sweep on); and if the tolerance is above that limiting accuracy, the run stops by its test once the iteration limit is large enough.", "quantifier": "all sizes, diagonally dominant matrices, right-hand sides, start vectors, tolerances, iteration limits and roundings", "why_tests_cant": "Error bounds over all matrices and all roundings; a test sees single runs only.", "anchors": ["src/lib/Iterative.inl:jacobi", "src/lib/Iterative.inl:sor"]}
{"id": "C97", "title": "Operands that alias the object", "statement": "A compound assignment (+=, -=, *=, /= with a vector, a matrix or a scalar) gives the same result when its operand is the object itself or a reference to one of the object's entries as when the operand is a copy; likewise the factorisations and the Jacobi preconditioner when the output matrix is the input matrix.", "quantifier": "all vectors and all dense and sparse matrices that can be built through the interface, all positions of the entry used as operand", "why_tests_cant": "The result depends on the order in which a loop reads and writes the same memory, for every pattern of stored entries; a test sees single patterns.", "anchors": ["src/lib/Vector.inl:operator+=", "src/lib/Vector.inl:operator*=", "src/lib/Vector.inl:operator/=", "src/lib/matrix/SparseMatrix.inl:operator-=", "src/lib/matrix/SparseMatrix.inl:operator*=", "src/lib/matrix/DenseMatrix.inl:operator*=", "src/lib/LU.inl:cholesky", "src/lib/CG.inl:jacobi"]}
{"id": "C98", "title": "LU factorisation of strictly diagonally dominant matrices", "statement": "On a square matrix in which every diagonal entry exceeds, in magnitude, the sum of the magnitudes of the other entries of its column by more than the singularity threshold, doolittle returns without an exception and without exchanging rows (P is the identity, the exchange count is 0), A = L*U, every pivot exceeds the threshold, the multipliers below the diagonal of a column of L add up to less than one in magnitude, no entry of U exceeds the column sum of A, and the band is preserved: L has no more subdiagonals and U no more superdiagonals than A.", "quantifier": "all sizes, all strictly column diagonally dominant matrices, sparse and dense storage, all bandwidths", "why_tests_cant": "That no elimination step destroys the dominance is an invariant of the remaining block for every size and every matrix.", "anchors": ["src/lib/LU.inl:doolittle"]}
{"id": "C99", "title": "Builds with NS_ALLOW_CHECKS reject exactly the non-Hermitian matrices", "statement": "With NS_ALLOW_CHECKS, cholesky, cg and pcg throw NotHermitianException exactly when the (square) matrix differs from its adjoint, and on Hermitian matrices do exactly what the build without checks does; the checks of the sizes come first. For real numbers checked cholesky (L zero on entry) returns normally exactly for symmetric positive definite A, with L lower triangular, positive on the diagonal, L*L^T=A; without checks a non-symmetric matrix silently gets a wrong factor.", "quantifier": "all sizes, all matrices of either class, all scalar types", "why_tests_cant": "An equivalence over all matrices, and equality of two builds on all inputs.", "anchors": ["src/lib/LU.inl:17-20", "src/lib/CG.inl:15-18,69-72", "src/lib/matrix/MatrixCheck.inl:matrixIsHermitian"]}
{"id": "C100", "title": "Cholesky factorisation of complex Hermitian matrices", "statement": "For a Hermitian positive definite complex matrix cholesky(A,L) returns a lower triangular L with L*L^H = A.", "quantifier": "all sizes, all Hermitian positive definite complex matrices", "why_tests_cant": "Identity for all complex matrices; a test with a real matrix passes although every genuinely complex matrix fails.", "anchors": ["src/lib/LU.inl:cholesky"]}
{"id": "C101", "title": "Command line of the finite element program", "statement": "The poisson finite element program accepts exactly the command lines that consist of a solver number 0..2, an order 1..2, a mesh kind 0..2 and the additional arguments of that kind (a positive number of cells, an obj file, or a node and an ele file); every other command line ends with the documented negative exit code (-1 too few arguments, -2 not a number, -4 out of range, -3 wrong additional arguments), and no command line ends with an uncaught exception.", "quantifier": "all lists of argument texts", "why_tests_cant": "Infinitely many texts; numbers beyond 32 bits, trailing characters and the one unguarded conversion are easily missed.", "anchors": ["examples/poisson/fem.cpp:main"]}
{"id": "C102", "title": "The finite element program from command line to files", "statement": "For every accepted command line the program writes its files, and they describe the computed result: one data line per vertex with coordinates and value, one mesh line per element, the matrix entries row by row, the right-hand side, the errors, and a valid vtu file with the same values. On the generated grid the values written differ from the solution of the Poisson problem by at most the discretisation and solver error.", "quantifier": "all meshes set up by the program, all numbers of cells per side, the three solvers, both orders (files); 2..31 cells with the default solver (accuracy with the fixed limit of 1024 iterations)", "why_tests_cant": "Holds for every mesh and grid size; a test compares a few outputs, and the failing cases (one cell, missing files) end in NaN or an abort.", "anchors": ["examples/poisson/fem.cpp:main", "examples/poisson/fem.cpp:handleMesh"]}
{"id": "C103", "title": "The finite element program on a triangulation from files", "statement": "If the files named on the command line contain a triangulation, then: the program ends without calculating exactly as its mesh checks prescribe (uncaught exception if three triangles share a side, division by zero if a triangle is degenerate, exit code -1 if a point is unused or a triangle negligibly small); otherwise, if every point is connected through triangles to a side that belongs to one triangle only, it solves the discrete problem on this triangulation - boundary values at the ends of such sides, the Galerkin equation at all other points - with a symmetric positive definite matrix, and its files list the points with their values and the triangles in the order of the input. For an OBJ file the points are the first and third coordinates of the different corners of its first non-empty group; a triangulation drawn in the plane of the first two coordinates is therefore degenerate and never calculated.", "quantifier": "all Triangle or obj files with a triangulation, all numbers of points and triangles, both orders, all source and boundary functions", "why_tests_cant": "There are infinitely many triangulations; a test mesh is always well-formed and fine enough, so the rejected and dropped cases are never seen.", "anchors": ["examples/poisson/fem.cpp:main", "examples/poisson/fem.cpp:handleMesh", "src/lib/loader/MeshTriangleLoader.inl:load", "src/objloader/loader/MeshObjLoader.inl:loadFile", "src/lib/mesh/Mesh.inl:validate"]}
{"id": "C104", "title": "Speed of the SOR iteration in the finite difference program", "statement": "On a grid with zero boundary values every sweep of the solver of the finite difference Poisson program multiplies one fixed weighted sum of the errors by exactly the same factor, a root of (rho^2 + w - 1)(1 + r) = w rho (r cos(pi/X) + cos(pi/Y)) squared. As a consequence the program with weight 1.2 on the unit square with N + 1 points in both directions (N >= 200) and at most N^2/39 sweeps - the shipped constants are N = 200 and 1024 sweeps - ends normally but is off by more than half of the true solution at some inner point, whatever the tolerance.", "quantifier": "all grids with at least 201 x 201 points, all sweep limits up to N^2/39, all tolerances, all values of the constant pi within 1e-5", "why_tests_cant": "The program ends normally and its output looks like the solution; only a comparison with the exact solution for every grid and sweep limit shows the missing convergence.", "anchors": ["examples/poisson/fdm.cpp:main", "src/lib/Iterative.inl:sor"]}
{"id": "C105", "title": "Layout of the data files of the finite difference programs", "statement": "poisson_fdm.dat consists of one line for each y with one number for each x, the value at that grid point. heat_data.dat consists of three header lines (count, start, end of time, x and y), an empty line, and for every time step one line for each y with one number for each x, followed by an empty line. The reader readTimeDataFile.m returns the values the program wrote. (It does so for equal numbers of points in both directions only, and with rows and columns exchanged compared to its comment; otherwise it stops with an error.)", "quantifier": "all grid sizes, all values of the solution, all number formats without blanks", "why_tests_cant": "The shipped constants use square grids, where exchanged dimensions are invisible.", "anchors": ["examples/poisson/fdm.cpp:main", "examples/heat/main.cpp:main", "examples/readTimeDataFile.m:readTimeDataFile"]}
{"id": "C106", "title": "Material files of an OBJ file", "statement": "mtllib reads the named file and adds exactly the materials it defines with newmtl, numbered in order after those already known; a name already known keeps its number; no other line, whatever it contains, changes the names. A file that does not exist, or defines nothing, adds one material without a name, so an OBJ file without its material files gives the same mesh as without its mtllib and usemtl lines (with them, a change to a known material separates the faces, so the mesh depends on the existence of a file that is otherwise ignored). Reading any text as a material file ends without an exception, and without undefined behaviour if newmtl is followed by a name of less than 4096 characters and numbers have at most eight digits.", "quantifier": "all material files, all OBJ files, all sets of existing files", "why_tests_cant": "All texts, including malformed ones and missing files.", "anchors": ["src/objloader/external/tiny_obj_loader.h:LoadMtl", "src/objloader/external/tiny_obj_loader.h:MaterialFileReader", "src/objloader/loader/MeshObjLoader.inl:loadString"]}
{"id": "C107", "title": "Bandwidth after Cuthill-McKee renumbering", "statement": "For a sparse matrix with symmetric pattern and no zero row, cuthill_mckee numbers every component of the graph of the matrix level by level (distance from its first index, which has the smallest degree in the component), so in the matrix renumbered with permutate the distance from the diagonal of a non-zero entry is less than the number of indices in the levels of its row and its column; if no level has more than w members the bandwidth is at most 2w-1. If some numbering makes the matrix tridiagonal and no diagonal entry is zero, the renumbered matrix is tridiagonal. (With a zero on the diagonal it need not be, and the bandwidth need not be the smallest possible: witnesses.)", "quantifier": "all sizes, all sparse matrices with symmetric pattern, all numberings", "why_tests_cant": "All graphs; the comparison ranges over all n! numberings.", "anchors": ["src/lib/matrix/MatrixOrder.inl:cuthill_mckee", "src/lib/matrix/MatrixOrder.inl:permutate"]}
{"id": "C108", "title": "How many SOR sweeps are enough", "statement": "For a symmetric positive definite matrix and 0 < w < 2, sor (from the zero vector, or with w = 1) multiplies the squared error in the energy norm by at most q = 1 - (2/w-1) d lam / R^2 per sweep, where lam bounds the quadratic form from below, d the diagonal from below and R the row sums of the two triangles (diagonal divided by w) from above; if it stops before the iteration limit the Euclidean error is at most R eps / lam; and it stops after at most K+1 sweeps if q^K times the initial energy is at most (2/w-1) d eps^2. For the finite difference Poisson program with zero boundary values these constants are given explicitly in the mesh; the program with weight 1.2 on N x N cells (N >= 200), at least 7 N^2 sweeps and tolerance at most 1/(1000 N) writes values whose root mean square error against the true solution is at most 0.0005 (the largest value is about 0.05).", "quantifier": "all sizes, symmetric positive definite matrices, right-hand sides, weights in (0,2), tolerances, iteration limits; all grids", "why_tests_cant": "A bound on the number of sweeps for every matrix, right-hand side and grid.", "anchors": ["src/lib/Iterative.inl:sor", "examples/poisson/fdm.cpp:main"]}
{"id": "C109", "title": "Speed of the preconditioned conjugate gradient method", "statement": "For a symmetric positive definite matrix A and preconditioner C with lam x.Bx <= x.Ax <= Lam x.Bx (B the inverse of C), pcg reduces the squared error in the energy norm after k iterations at least by the Chebyshev factor 4 q^(2k), q = (sqrt(Lam/lam)-1)/(sqrt(Lam/lam)+1) (stated with any s with s^2 lam >= Lam), so it returns normally with a residual below the tolerance as soon as this factor is small enough, whatever the iteration limit above it. For the Poisson system on an N x N grid with Jacobi preconditioning the factor is q = (5N-7)/(5N+7), and a residual of Euclidean length at most rho changes the nodal values by at most N rho/(8 kappa). The example program with its default solver, its limit of 1024 iterations and its tolerance 1e-4 ends for 2 to 256 cells per side with values that differ from the true solution by at most pi^2/32/N^2 + 126e-7 N + 8e-9 N^2.", "quantifier": "all sizes, symmetric positive definite matrices and preconditioners, right-hand sides, tolerances and iteration limits; all grids; all command lines that choose the grid", "why_tests_cant": "A bound on the number of iterations for every matrix, right-hand side and grid.", "anchors": ["src/lib/CG.inl:pcg", "src/lib/CG.inl:preconditioner::jacobi", "examples/poisson/fem.cpp:main", "examples/poisson/fem.cpp:handleMesh"]}
{"id": "C110", "title": "Rounding of coordinates read from OBJ files", "statement": "In floating-point arithmetic with unit roundoff u (no overflow or underflow), with pow accurate to c roundings and exact ldexp, every well-formed decimal number in an OBJ line is read as its value up to a relative error of 2i+f+2c+3 roundings, where i and f are the numbers of digits before and after the point, plus the rounding of the conversion to float; numbers without point and exponent that do not exceed the integers of the type are read exactly; reading goes on right after the number.", "quantifier": "all well-formed numbers of any length, all texts around them, all arithmetics with relative error u, all accuracies of pow", "why_tests_cant": "An error bound for every decimal string and every arithmetic.", "anchors": ["src/objloader/external/tiny_obj_loader.h:tryParseDouble", "src/objloader/external/tiny_obj_loader.h:parseFloat"]}
{"id": "C111", "title": "SOR in floating-point arithmetic, weights up to 2", "statement": "In floating-point arithmetic with unit roundoff u (no overflow or underflow), sor on a symmetric positive definite matrix with any weight w in (0,2) and start vector 0 returns normally; with lower bound lam of the quadratic form, delta of the diagonal and upper bound R of the triangle row sums, its error after k sweeps is bounded by a geometric term with factor 1-(2/w-1)*delta*lam/(4R^2) plus a limiting relative accuracy of 35*G, G = gam*R^2/((2/w-1)*delta*lam), provided 23*G <= 1; a run ended by the stopping test has an error of at most about R/lam times the tolerance plus rounding; and the number of sweeps until the test accepts is bounded.", "quantifier": "all SPD matrices of any size and class, right-hand sides, weights in (0,2), tolerances, iteration limits, all arithmetics with relative error u", "why_tests_cant": "Error bounds for every matrix and every rounding behaviour.", "anchors": ["src/lib/Iterative.inl:sor"]}
{"id": "C112", "title": "The finite difference program in floating-point arithmetic", "statement": "The finite difference Poisson program run in floating-point arithmetic with unit roundoff u (rounded literals 0.005, 3.141592 and 1.2, a std::sin that is accurate to 1e-4, no overflow or underflow) on the unit square with N + 1 points in both directions, N >= 200: (a) with at least 28 N^2 sweeps, a tolerance of at most 1/(2000 N) and u N^4 <= 1/20000 it ends normally and what it writes differs from the true solution of the Poisson problem by at most 0.0006 in the root mean square; (b) with at most N^2/39 sweeps and u N^5 <= 1/2000 it ends normally, whatever the tolerance, and at some inner point is off by more than half of the true solution. (b) covers the shipped constants: double, N = 200, 1024 sweeps.", "quantifier": "all grids with N >= 200 within the bounds for u, all arithmetics with relative error u, all accurate sine functions, all tolerances and sweep limits in the stated ranges, both matrix classes", "why_tests_cant": "The statement is about every arithmetic, every grid and the distance to the true solution of a differential equation.", "anchors": ["examples/poisson/fdm.cpp:main", "src/lib/Iterative.inl:sor"]}
{"id": "C113", "title": "A mesh rejected by setupNeighbors stays rejected", "statement": "setupNeighbors() throws TooManySharedFacesException for a mesh in which some edge belongs to three or more triangles, and keeps doing so when it is called again after the exception has been caught; the rejected calls leave vertices, elements, corners and coordinates as they were.", "quantifier": "all meshes built by addVertex/addElement histories of triangles with three different corners, all numbers of repeated calls", "why_tests_cant": "The number of calls, the mesh and the state left behind by each exception are unbounded.", "anchors": ["src/lib/mesh/Mesh.inl:setupNeighbors", "src/lib/mesh/Mesh.inl:validate"]}
{"id": "C114", "title": "Solver 0 of the finite element program", "statement": "With solver 0 (sor) and zero boundary values the finite element program on the generated square grid runs through exactly the same iterates, and stops after the same sweep, as the finite difference program for the averaged source. With the program's constants (weight 1.2, 1024 sweeps, tolerance 1e-4) it ends normally; for 2 to 10 cells per side the solver stops by its own rule before the limit and every value in poisson_fem_data.dat is close to the true solution; for 220 to 380 cells per side some value is off by more than half of the true solution.", "quantifier": "all numbers of cells, sizes, offsets, sources, weights, limits and tolerances for the comparison; all command lines asking for a grid in the stated ranges for the program", "why_tests_cant": "Iterates are compared for every source and grid; accuracy is a statement about real numbers at every grid point.", "anchors": ["examples/poisson/fem.cpp:handleMesh", "examples/poisson/fdm.cpp:main", "src/lib/Iterative.inl:sor"]}
{"id": "C115", "title": "The heat program gives up before the heat has arrived", "statement": "The heat program solves all time levels in one call of sor. For every program without sources, with constant conductivity and zero boundary values, what maxIter sweeps can have carried to time level t is bounded by an explicit quantity that decays geometrically in t. With the program's own constants (100 cells, 101 time levels, weight 1.2, 1024 sweeps, tolerance 1e-4) the Euclidean norm of the temperatures it writes is at most 1/40 of that of the exact solution of its own scheme from time 0.3 on and at most 1/100000 from time 0.4 on; at time 0.3 some value is off by more than 0.015.", "quantifier": "all grids, step sizes, conductivities, initial temperatures, weights 1 to 2, sweep limits and tolerances for the bound; all grid points and time levels for the program", "why_tests_cant": "A bound on real vectors after a number of sweeps, for every problem of this kind; the program itself only prints the number of sweeps.", "anchors": ["examples/heat/main.cpp:main", "src/lib/Iterative.inl:sor"]}
{"id": "C116", "title": "How many sweeps the heat program needs, and what its stopping rule guarantees", "statement": "For every heat program without sources, with constant conductivity and boundary value 0: when sor stops by its own rule, the error against the exact solution of the scheme is on every time level at most a constant times the tolerance, and an explicit number of sweeps is enough for it to stop. With the program's constants 11500 sweeps are enough, the error then is at most 0.032 (Euclidean norm) on every time level; with the limit of 1024 sweeps the program never stops by its rule, it returns after exactly 1024 sweeps with an error of more than 1.4 at time 0.3.", "quantifier": "all grids, step sizes, conductivities, initial temperatures, weights, limits and tolerances satisfying the stated inequalities; all time levels", "why_tests_cant": "The number of sweeps is bounded for every problem of this kind, and the error against the exact solution of the scheme is not observable.", "anchors": ["examples/heat/main.cpp:main", "src/lib/Iterative.inl:sor"]}
{"id": "C117", "title": "The finite element program reproduces affine functions (patch test)", "statement": "Without a source term and with an affine function as boundary values, the finite element program with linear elements returns the values of this function at the points: its linear system has exactly these values as solution, on every triangulation whose triangles do not overlap along their sides, and independently of the order in which the file lists the corners of a triangle.", "quantifier": "all lists of points and triangles accepted by the program, all affine functions, all thresholds", "why_tests_cant": "Consistency of the assembled system on unstructured meshes follows from cancellation of the contributions on both sides of every side of every triangle; a test checks single meshes and misses that the order of the corners matters.", "anchors": ["examples/poisson/fem.cpp:handleMesh (elemMat)", "examples/poisson/fem.cpp:main"]}
{"id": "C118", "title": "Output matrices can be used again", "statement": "The factorisations write their results through in/out references (L and P of the dense doolittle, L of cholesky, invL of ainv_lu). The results do not depend on what these matrices held before the call, so a matrix from an earlier call can be passed again.", "quantifier": "all matrices, all previous contents of the output matrices, all thresholds, any scalar arithmetic for doolittle", "why_tests_cant": "Tests pass fresh matrices; whether old entries can leak into the result has to be shown for every content.", "anchors": ["src/lib/LU.inl:doolittle", "src/lib/LU.inl:cholesky", "src/lib/LU.inl:ainv_lu"]}
{"id": "C119", "title": "FEM system when small entries are dropped", "statement": "The FEM example stores an entry of an element matrix only if its absolute value exceeds EPS = 1e-8. With quadratic elements the decimals of the quadrature table make entries that should vanish tiny but not zero, so on every ordinary triangle something is dropped. The system stays symmetric positive definite with exactly one solution as long as what is dropped is small compared with the shape of the triangles, their number and their distance to the boundary; this is the case for every triangulation of moderate size with points on a lattice.", "quantifier": "all meshes, source functions and boundary values; for the lattice all triangulations with at most the stated number of triangles", "why_tests_cant": "Whether dropping entries can destroy definiteness depends on all meshes and their sizes, not on examples.", "anchors": ["examples/poisson/fem.cpp:EPS", "examples/poisson/fem.cpp:handleMesh", "src/lib/quadrature/GaussLegendreQuadratureFactory.inl"]}
{"id": "C120", "title": "Contents of the materials of a material file", "statement": "Reading a material file appends to the materials exactly those its lines describe: each has the name of its newmtl line and the colours, numbers, illumination model, names of textures and unknown parameters of the lines up to the next newmtl; the last setting of a member counts, but the first one of an unknown parameter; Tr sets the opacity to one minus its value; the name of a texture is the rest of the line. Settings before the first newmtl are lost, and a file without newmtl has one material without a name. The names get the numbers of their first materials. For every text whatsoever, names and numbers agree with C106.", "quantifier": "all texts whose lines are of these kinds, with any numbers and names, all maps and lists of materials already read; the agreement with C106 for all texts", "why_tests_cant": "The meaning must hold for every text, not for the sample files of a test.", "anchors": ["src/objloader/external/tiny_obj_loader.h:LoadMtl", "src/objloader/external/tiny_obj_loader.h:InitMaterial"]}
{"id": "C121", "title": "Meaning of the stopping test of sor in floating-point arithmetic, and the heat program", "statement": "When sor, run in floating-point arithmetic from the start vector zero on any matrix with a positive diagonal, stops because its test accepted, every entry of the residual of the vector it returns is at most a multiple of the tolerance (with the entries of the row on and above the diagonal as factors) plus rounding errors of the size of the terms of the row. For the heat program this means: whenever the solver reports convergence, the temperatures differ from the solution of the difference scheme by at most an explicit bound that grows linearly in time. The system it assembles in floating-point arithmetic is that of the scheme with a relative error of at most six operations per entry. Whether or not the solver accepts, each of its sweeps is an exact sweep for the difference scheme itself with the given values changed by an explicitly bounded amount.", "quantifier": "all matrices with positive diagonal, right-hand sides, weights, tolerances and iteration limits; for the program all grids, step widths, conductivities that are not negative, start, boundary and source values; all arithmetics with a unit roundoff below 1, without overflow and underflow", "why_tests_cant": "Accuracy of the answer that is reported as converged must hold for every input and rounding; a test compares a few runs with a tolerance of its own.", "anchors": ["src/lib/matrix/Iterative.inl:sor", "examples/heat/main.cpp:main"]}
{"id": "C122", "title": "The heat program gives up too early also in floating-point arithmetic", "statement": "The heat example, run with double precision (53 significant bits, unit roundoff at most 2^-53), returns after at most 1024 sweeps temperatures that are useless from time 0.3 on: their Euclidean norm on each of these time levels is at most 1/30 of that of the solution of its own difference scheme, and at time 0.3 the error is more than 0.015 at some point although the tolerance is 0.0001. Rounding of the constants, of the assembled matrix, of the start temperatures and of the sweeps does not change this.", "quantifier": "all arithmetics with unit roundoff at most 2^-53 without overflow and underflow, all tolerances, all limits of at most 1024 sweeps, all computed start temperatures that are at most 1.001 times the exact ones", "why_tests_cant": "The program has no test, and a comparison needs the exact solution of a system with a million unknowns for every rounding behaviour.", "anchors": ["examples/heat/main.cpp:main", "src/lib/matrix/Iterative.inl:sor"]}
