{"id": "C01", "title": "Dense matrix read-after-write", "statement": "Writing a value at an in-range position of a dense matrix makes exactly that position read back the value, every other position reads what it read before, the shape is unchanged, and reading outside the shape reports absence. This holds before and after any number of transposes, and reading the flat buffer row by row gives the entries in row order; the positions are listed row by row, each once.", "quantifier": "for all shapes, all element values (any scalar type), all sequences of writes and transposes, all positions", "why_tests_cant": "Tests fix a few small shapes; the claim is about index arithmetic for every shape and both storage orders.", "anchors": ["src/matrix/buffer.rs: LinearMatrix::pos, get, get_mut, transpose, zeros, from_flat, Index, IndexMut", "src/matrix/mod.rs: put, flat, row, col, diag, set_row, set_col, swap_rows, swap_cols"]}
{"id": "C02", "title": "Unchecked dense indexing stays inside the buffer", "statement": "Dense and triangular matrices read their buffers without bounds checks. For every matrix produced by the public constructors and mutators, every index handed to an unchecked access is smaller than the buffer length, so long as the element count fits in a machine word; a shape whose element count wraps around breaks this.", "quantifier": "for all reachable matrices (any construction followed by any sequence of operations) and all requested positions", "why_tests_cant": "Undefined behaviour in an unchecked access is invisible to a test that happens not to crash, and reachability is over unbounded operation sequences.", "anchors": ["src/matrix/buffer.rs: LinearMatrix::get, get_mut, LowerTriangular::get, UpperTriangular::get, Diagonal, ConstMatrix (get_unchecked)"]}
{"id": "C03", "title": "Matrix equality and transpose are mathematical", "statement": "Two dense matrices compare equal exactly when they have the same shape and the same entry at every position, independently of their storage order. Transposing swaps the two indices and doing it twice is the identity.", "quantifier": "for all pairs of dense matrices in either storage order", "why_tests_cant": "Storage order is hidden state: samples cover few combinations of order and shape.", "anchors": ["src/matrix/buffer.rs: PartialEq for LinearMatrix, transpose", "src/matrix/mod.rs: flat"]}
{"id": "C04", "title": "Dense products and sums compute the mathematical result", "statement": "The product of two conforming matrices has at (i,j) the sum over k of a(i,k)*b(k,j); addition, subtraction, in-place addition and scaling act entrywise; non-conforming shapes panic rather than return a value. A rotation matrix turns the plane of its two axes, fixes the other axes and preserves lengths.", "quantifier": "for all conforming shapes and all entries over a commutative semiring or ring", "why_tests_cant": "Tests multiply a handful of literal matrices; the loop structure must be right for every size including empty ones.", "anchors": ["src/matrix/mod.rs: mul, add_ass, sub_ass, dot, eye", "src/matrix/buffer.rs: Add, Sub, AddAssign, MulAssign", "src/matrix/mod.rs: rotation"]}
{"id": "C05", "title": "Triangular storage is injective and in range", "statement": "Packed lower and upper triangular matrices give each stored position its own cell, reads of the other triangle yield zero, writes to it are refused, and a write changes exactly one position.", "quantifier": "for all dimensions and all positions", "why_tests_cant": "Distinctness of row(row+1)/2+col is an arithmetic fact over all indices, not a sample.", "anchors": ["src/matrix/buffer.rs: LowerTriangular::pos, UpperTriangular::pos, get, get_mut, zeros, Diagonal"]}
{"id": "C06", "title": "Triangular substitution and inversion", "statement": "Forward (backward) substitution returns x with L x = b (U x = b), and the triangular inverse satisfies L * inv(L) = I and U * inv(U) = I, whenever all diagonal entries are nonzero.", "quantifier": "for all dimensions, all triangular matrices with nonzero diagonal over a field, all right-hand sides", "why_tests_cant": "Correctness needs an argument over the loop index; tests check literal systems.", "anchors": ["src/matrix/buffer.rs: LowerTriangular::forward_sub, tri_inv, UpperTriangular::backward_sub, tri_inv"]}
{"id": "C07", "title": "LU factorisation and inverse", "statement": "The LU decomposition returns a unit lower triangular L and an upper triangular U with L*U = A whenever no pivot is zero, and the inverse built from it satisfies A*inv(A) = I. For 1x1 and 2x2 matrices the closed-form inverse is right whenever the determinant is nonzero. (It fails on some invertible 3x3 matrices, because it does not pivot.)", "quantifier": "for all square matrices over a field", "why_tests_cant": "Universal over matrices; the failing class (zero leading minor) is not hit by the tests.", "anchors": ["src/matrix/inverse.rs: lu_decompose, inv_lu, inverse, det_lu"]}
{"id": "C08", "title": "Determinant", "statement": "When the pivoting determinant routine returns a value it is the determinant of the matrix; it reports an error only when some elimination column has no entry of magnitude at least 1e-100. The 2x2 case is the closed form. It does return a value whenever the determinant is not too small for the size of the entries: n x n, entries up to m, magnitude of the determinant above n! (2^n m)^(n-1) / 1e100.", "quantifier": "for all square matrices over an ordered field, every size", "why_tests_cant": "Row swaps and sign flips interact over all pivot sequences.", "anchors": ["src/matrix/inverse.rs: det_lu_pivot, determinant"]}
{"id": "C09", "title": "Gaussian elimination solves the system", "statement": "If dense Gaussian elimination finishes without dividing by zero, the returned x satisfies A x = b and is the only solution; it fails only by a zero pivot or a wrong shape; and it always finishes on symmetric positive definite matrices without positive off-diagonal entries. Users expect this for every invertible A, or at least for every symmetric positive definite A; both fail because the pivot is the largest signed entry and not the largest magnitude.", "quantifier": "for all square systems over an ordered field, every size, with one right-hand side", "why_tests_cant": "Pivot choice depends on all intermediate values; literal tests do not reach the sign-dependent case.", "anchors": ["src/matrix/inverse.rs: solve_gausselim"]}
{"id": "C10", "title": "Compressed-row matrices agree with their entries", "statement": "A compressed-row matrix built from labelled values, from a flat list or from a dictionary returns at every in-range position the value given (zero when absent), iterates each row's stored values exactly once in column order, and multiplies like the dense matrix with the same entries. A compressed-row zero matrix should read as zero everywhere (it panics instead).", "quantifier": "for all shapes, all entry lists with distinct in-range labels, all right factors", "why_tests_cant": "Row-start bookkeeping with empty leading, middle and trailing rows spans unbounded shapes.", "anchors": ["src/matrix/sparse.rs: CompressedRow::from_labeled_vals, from_flat, pos, get, row_nzs, mul, zeros, From<Dictionary>"]}
{"id": "C11", "title": "Envelope storage agrees with its entries", "statement": "A lower row-envelope matrix built from an envelope has exactly the positions of the envelope writable, each with its own buffer cell inside the buffer; all other in-range positions read zero. Envelopes that do not reach the diagonal, or that start before column 0, are refused by a panic.", "quantifier": "for all envelopes and all positions", "why_tests_cant": "Cell disjointness and bounds are for-all facts over the prefix sums of the envelope.", "anchors": ["src/matrix/sparse.rs: LowerRowEnvelope::row_pos, pos, from_envelope, envelope, row_stored, get, get_mut"]}
{"id": "C12", "title": "Envelope forward solve", "statement": "Forward substitution on an envelope matrix stores x with L x = b when the output buffer starts as zeros and the diagonal is nonzero; the sub-range solve does the same for the principal block of the range. The result should not depend on the previous content of the output buffer (it does).", "quantifier": "for all envelope matrices with nonzero diagonal, all right-hand sides, all ranges", "why_tests_cant": "The hidden dependence on the initial output content appears only with nonzero buffers, which no test passes.", "anchors": ["src/matrix/sparse.rs: LowerRowEnvelope::solve, solve_submatrix"]}
{"id": "C13", "title": "Envelope transposed solve", "statement": "The transposed solve on an envelope matrix stores x with transpose(L) x = y for every nonzero diagonal, whatever the previous content of the output buffer.", "quantifier": "for all envelope matrices with nonzero diagonal, all right-hand sides, all initial outputs", "why_tests_cant": "Column sweeps update later rows; correctness needs a loop invariant.", "anchors": ["src/matrix/sparse.rs: LowerRowEnvelope::solve_transposed"]}
{"id": "C14", "title": "Envelope Cholesky factorisation", "statement": "For every symmetric positive definite matrix stored by its lower envelope, the Cholesky routine takes only square roots of positive numbers, divides only by positive numbers, and returns L with the same envelope and L * transpose(L) = A.", "quantifier": "for all dimensions, all envelopes, all symmetric positive definite matrices over the reals", "why_tests_cant": "No fill-in outside the envelope and positivity of every pivot are inductive facts over all sizes.", "anchors": ["src/matrix/solve/direct.rs: cholesky_envelope"]}
{"id": "C15", "title": "Envelope LDL factorisation", "statement": "The root-free factorisation returns a unit lower triangular L within the envelope of A and a diagonal D with L*D*transpose(L) = A for every symmetric A for which all computed pivots are nonzero (including indefinite A).", "quantifier": "for all dimensions, all envelopes, all symmetric matrices over a field with nonzero pivots", "why_tests_cant": "Indefinite shifts K - l*M are data dependent; the identity is for all of them.", "anchors": ["src/matrix/solve/direct.rs: cholesky_envelope_no_root"]}
{"id": "C16", "title": "Factored solves", "statement": "Solving with the Cholesky factor returns x with L*transpose(L) x = b and solving with the LDL factors returns x with L*D*transpose(L) x = b, whatever was in the output buffer.", "quantifier": "for all factors with nonzero pivots, all right-hand sides, all initial outputs", "why_tests_cant": "Composition of three sweeps, each with its own buffer convention.", "anchors": ["src/matrix/solve/direct.rs: solve_ll, solve_ldl", "src/matrix/buffer.rs: Diagonal::solve"]}
{"id": "C17", "title": "Two-sided envelope product", "statement": "A two-sided envelope matrix made from a dictionary reads the dictionary's value at each position (zero elsewhere) and its matrix-vector product is the mathematical product.", "quantifier": "for all dictionaries with no empty row, all vectors", "why_tests_cant": "Offsets per row are computed from data; all patterns matter.", "anchors": ["src/matrix/sparse.rs: BiEnvelope::from_row_bounds, row_stored, pos, mul_vec, From<Dictionary>"]}
{"id": "C18", "title": "Scaled shift of an envelope matrix", "statement": "Copying the lower part of a two-sided envelope matrix and adding s times another whose rows do not start further left yields, on and below the diagonal, the entries k + s*m.", "quantifier": "for all pairs of two-sided envelope matrices with compatible envelopes, all scales", "why_tests_cant": "Relative offsets of two envelopes vary per row.", "anchors": ["src/matrix/sparse.rs: LowerRowEnvelope::from_bienv, add_scaled_bienv"]}
{"id": "C19", "title": "Dictionary matrices as finite maps", "statement": "A dictionary matrix reads zero where nothing was stored, accumulates added values, refuses out-of-range positions, and its product, row/column masking and renumbering have the mathematically expected entries. Transposition should swap the shape too (for non-square matrices it does not).", "quantifier": "for all shapes, all stored maps, all masks, all permutations, any hash iteration order", "why_tests_cant": "Hash iteration order is nondeterministic; results must not depend on it.", "anchors": ["src/matrix/sparse.rs: Dictionary::get, index, index_mut, mul_dict, transposed, mask, permute, nzs"]}
{"id": "C20", "title": "Row extents of a dictionary", "statement": "The lower envelope reported by a dictionary covers every stored entry on or below the diagonal and is the smallest one that reaches the diagonal, and the reported row bounds cover every stored entry of the row and are the smallest ones.", "quantifier": "for all dictionaries, any iteration order", "why_tests_cant": "Minimum over an unordered collection; all insertion orders.", "anchors": ["src/matrix/sparse.rs: Dictionary::envelope, row_bounds"]}
{"id": "C21", "title": "Conversions preserve entries", "statement": "Converting a dictionary to dense, compressed-row or two-sided envelope form preserves every entry, and converting it to lower-envelope form preserves every entry on and below the diagonal.", "quantifier": "for all dictionaries with in-range keys (and, for the two-sided form, no empty row)", "why_tests_cant": "Four storage formats and all patterns.", "anchors": ["src/matrix/sparse.rs: From<Dictionary> for LowerRowEnvelope, BiEnvelope, CompressedRow, LinearMatrix"]}
{"id": "C22", "title": "Permutations are bijections", "statement": "A permutation built from a placement list is accepted exactly when the list is a rearrangement of 0..n-1; permute and unpermute are mutually inverse, inverting swaps them, and permuting a slice and then permuting it by the inverse restores it, with element i moved to position permute(i).", "quantifier": "for all placement lists, all slices of matching length", "why_tests_cant": "All permutations of all sizes.", "anchors": ["src/matrix/graph.rs: Permutation::from_placement, permute, unpermute, invert, permute_slice, identity"]}
{"id": "C23", "title": "Graph construction from edges", "statement": "The graph built from an edge list has u adjacent to v exactly when u differs from v and (u,v) or (v,u) is in the list; each adjacency list is sorted and has no repeats, so degrees are true degrees. The vertex count should be the requested one (trailing isolated vertices are lost).", "quantifier": "for all edge lists with in-range endpoints, in any order, with repeats and loops", "why_tests_cant": "Offsets for isolated and trailing vertices arise for edge lists tests do not contain.", "anchors": ["src/matrix/graph.rs: Graph::from_edges, from_lol, adjacent, degree, vertex_count"]}
{"id": "C24", "title": "Breadth-first far node", "statement": "The farthest-node query returns a vertex at maximal graph distance from the root together with that distance, and among those one of minimal degree.", "quantifier": "for all graphs and all roots", "why_tests_cant": "Graph distance is a global notion over all paths.", "anchors": ["src/matrix/graph.rs: Graph::far_node, adjacent_masked"]}
{"id": "C25", "title": "Pseudo-peripheral search terminates", "statement": "The pseudo-peripheral search always terminates on a nonempty graph, and returns a vertex whose eccentricity was not improved by moving to its farthest vertex.", "quantifier": "for all nonempty graphs", "why_tests_cant": "Termination of an unbounded loop over all graphs.", "anchors": ["src/matrix/graph.rs: Graph::pseudo_peripheral"]}
{"id": "C26", "title": "Bandwidth reduction yields a valid renumbering", "statement": "Reverse Cuthill-McKee returns a permutation of all vertices exactly when the graph is nonempty and connected; on a disconnected or empty graph it panics.", "quantifier": "for all graphs", "why_tests_cant": "Connectivity is a global property; tests use connected graphs only.", "anchors": ["src/matrix/graph.rs: Graph::reverse_cuthill_mckee"]}
{"id": "C27", "title": "System assembly accumulates", "statement": "A system's stiffness, mass and right-hand side entries are the sums of the coefficients added at that position, in any order, and building a system from matrices copies every entry.", "quantifier": "for all sequences of coefficient additions", "why_tests_cant": "All orders and multiplicities of contributions.", "anchors": ["src/matrix/solve/mod.rs: System::add_k_coefficient, add_m_coefficient, add_rhs_val, from_kr, from_km"]}
{"id": "C28", "title": "Renumbering a system is a similarity", "statement": "Reducing the envelope of a system replaces K, M and the right-hand side by the same data renumbered by one permutation, and the permutation handed to the solver undoes it.", "quantifier": "for all systems with connected stiffness graph", "why_tests_cant": "Direction mistakes in permutations cancel on symmetric samples.", "anchors": ["src/matrix/solve/mod.rs: System::reduce_envelope, into_krp, into_parts"]}
{"id": "C29", "title": "Cholesky solver solves the original system", "statement": "For every symmetric positive definite stiffness matrix with a connected graph on at least two unknowns, the Cholesky solver returns x with K x = r in the caller's numbering. Users expect this for every symmetric positive definite K, including diagonal and block-diagonal ones (it panics there).", "quantifier": "for all symmetric positive definite systems over the reals", "why_tests_cant": "Composes renumbering, envelope storage, factorisation and two sweeps.", "anchors": ["src/matrix/solve/direct.rs: CholeskyEnvelopeSolver::new, solve", "src/matrix/solve/mod.rs: System"]}
{"id": "C30", "title": "Dense Gauss solver solves the original system", "statement": "Whenever the dense Gauss solver returns x without dividing by zero, K x = r; it always returns on symmetric positive definite K without positive off-diagonal entries, but not on every symmetric positive definite K. Its answer should be in the caller's numbering even if the system's envelope was reduced first (it is not).", "quantifier": "for all systems over an ordered field", "why_tests_cant": "The permutation is dropped silently; no test reduces the envelope first.", "anchors": ["src/matrix/solve/direct.rs: DenseGaussSolver::new, solve"]}
{"id": "C31", "title": "Gauss-Seidel stopping guarantee", "statement": "If Gauss-Seidel returns u, its last sweep changed u by at most tol times the norm of u, and the residual r - K u equals a fixed matrix (built from K and the relaxation factor) applied to that last change; a fixed point of the sweep is exactly a solution. It should succeed on a zero load (it always panics there).", "quantifier": "for all square systems with nonzero diagonal, all tolerances and iteration limits", "why_tests_cant": "Residual identity is algebraic over all iterates; the 0/0 stopping test needs the zero load.", "anchors": ["src/matrix/solve/iterative.rs: gauss_seidel, GaussSeidelSolver"]}
{"id": "C32", "title": "Solvers agree", "statement": "All three linear solvers, when they return exact solutions of a symmetric positive definite system, return the same displacement vector.", "quantifier": "for all symmetric positive definite systems with connected graph", "why_tests_cant": "Equality over all systems.", "anchors": ["src/matrix/solve/direct.rs", "src/matrix/solve/iterative.rs"]}
{"id": "C33", "title": "Counting eigenvalues below a shift", "statement": "For symmetric K and symmetric positive definite M, the number of negative pivots of K - l*M equals the number of eigenvalues of the pencil (K,M) below l, with multiplicity, whenever no pivot is zero.", "quantifier": "for all symmetric K, all symmetric positive definite M, all shifts l with nonzero pivots", "why_tests_cant": "Sylvester's law of inertia over all matrices.", "anchors": ["src/matrix/solve/eigen.rs: DeterminantSearcher::eigenvalues_under", "src/matrix/buffer.rs: Diagonal::num_neg", "src/matrix/solve/direct.rs: cholesky_envelope_no_root"]}
{"id": "C34", "title": "Bisection isolates eigenvalues in order", "statement": "Starting from an interval whose end counts are right, the bisection splits it into consecutive, disjoint, ascending intervals that each contain exactly one eigenvalue, as many as the count difference. It should terminate for every interval (it cannot when an eigenvalue is repeated).", "quantifier": "for all monotone counting functions and all intervals with finite counts", "why_tests_cant": "Recursion depth is unbounded and data dependent.", "anchors": ["src/matrix/solve/eigen.rs: EigenRange::new, ManyEigenRange::split, process_eigenrange"]}
{"id": "C35", "title": "The requested number of modes is returned", "statement": "When the search finishes it returns exactly n pairs, in order of the isolating intervals from the lowest, without skipping an interval.", "quantifier": "for all n not above the number of eigenvalues, all monotone counting functions", "why_tests_cant": "Loop with carried interval state.", "anchors": ["src/matrix/solve/eigen.rs: DeterminantSearcher::secant_iterate_one, find_eigens"]}
{"id": "C36", "title": "Inverse iteration, orthogonalisation and Rayleigh quotient", "statement": "Gram-Schmidt leaves a vector M-orthogonal to all previously found M-orthonormal modes; the returned mode has unit M-norm; the Rayleigh quotient of an eigenvector is its eigenvalue. When the iteration stops, its last two quotients differ by at most a millionth of the last one, which is not zero.", "quantifier": "for all symmetric M, all lists of M-orthonormal vectors, all start vectors", "why_tests_cant": "Universal algebraic identities over all dimensions.", "anchors": ["src/matrix/solve/eigen.rs: gram_schmidt_orthogonalize, rayleigh_quotient, inverse_iterate"]}
{"id": "C37", "title": "Constrained displacements satisfy their constraints", "statement": "Every displacement field produced from a reduced solution has zero x (y) displacement at nodes fixed in x (y) and no displacement along the given direction at nodes with an angle constraint.", "quantifier": "for all constraint lists, all angles, all reduced vectors", "why_tests_cant": "All angles and all mixes of constraints.", "anchors": ["src/element/constraint.rs: DofTransform::from_constraints, unbar_vec, unmask_vec, rotation_matrix"]}
{"id": "C38", "title": "Reduced system is the constrained equilibrium", "statement": "The reduced stiffness and load are the full ones tested against all admissible displacements: solving the reduced system is equivalent to the virtual work equation for every displacement satisfying the constraints; symmetry and strain energy are preserved.", "quantifier": "for all stiffness dictionaries, loads and constraint lists", "why_tests_cant": "Quantifies over all admissible displacement fields.", "anchors": ["src/element/constraint.rs: DofTransform::bar_matrix, bar_vec, unbar_vec"]}
{"id": "C39", "title": "Adding constraints only restricts", "statement": "After adding a constraint to a node, the node's admissible displacements are contained in those before and in those of the added constraint, in any order of additions. (The merge table violates this for several pairs.)", "quantifier": "for all pairs and sequences of constraints on a node", "why_tests_cant": "All orders of a five-valued type with a real angle.", "anchors": ["src/element/mod.rs: ElementAssemblage::add_constraint", "src/element/constraint.rs: Constraint"]}
{"id": "C40", "title": "Loads superpose", "statement": "The nodal load vector is the sum of the loads of the individual concentrated and distributed forces, independently of the order in which forces are stored. (The code overwrites instead of adding.)", "quantifier": "for all assemblages, all sets of forces, all hash iteration orders", "why_tests_cant": "The result depends on nondeterministic hash order.", "anchors": ["src/element/mod.rs: calc_load"]}
{"id": "C41", "title": "Consistent nodal load of an edge force", "statement": "A constant line force on an element edge gives each end node of the edge half of force times edge length and the third node nothing.", "quantifier": "for all triangles, all edges and all force vectors", "why_tests_cant": "All geometries.", "anchors": ["src/element/element.rs: int_f_l", "src/element/integrate.rs: gauss_segment_mat"]}
{"id": "C42", "title": "Element stiffness is symmetric and positive semidefinite", "statement": "The stiffness matrix of every counterclockwise triangle is symmetric and gives nonnegative strain energy for every displacement, for plane stress, plane strain and axisymmetric problems with admissible material constants.", "quantifier": "for all triangles, all admissible materials, all displacements", "why_tests_cant": "Positive semidefiniteness quantifies over all vectors and geometries.", "anchors": ["src/element/element.rs: calc_k, get_isopar_mats", "src/element/strain.rs: build_b, build_c"]}
{"id": "C43", "title": "Rigid motions store no energy", "statement": "Translations and infinitesimal rotations produce zero elastic force in plane problems, and axial translation does in axisymmetric problems.", "quantifier": "for all triangles, all materials, all rigid motions", "why_tests_cant": "All geometries.", "anchors": ["src/element/element.rs: calc_k", "src/element/strain.rs: build_b"]}
{"id": "C44", "title": "Linear displacement fields give their exact constant strain", "statement": "Interpolating nodal values of any affine displacement field gives the field's exact gradient, hence the exact strain at every point of the element (patch test), and shape functions sum to one.", "quantifier": "for all triangles and all affine fields", "why_tests_cant": "All geometries and fields.", "anchors": ["src/element/element.rs: get_isopar_mats", "src/element/strain.rs: build_b"]}
{"id": "C45", "title": "Element mass matrix carries the element's mass", "statement": "The consistent mass matrix is symmetric, positive semidefinite and its entries sum in each direction to density times thickness times area. (The code leaves out the area.)", "quantifier": "for all triangles, materials and plane conditions", "why_tests_cant": "All geometries; no test inspects the mass matrix.", "anchors": ["src/element/element.rs: calc_m"]}
{"id": "C46", "title": "Badly shaped elements are rejected", "statement": "Adding an element whose nodes are collinear or in clockwise order is refused. (The check is always passed.)", "quantifier": "for all triples of nodes", "why_tests_cant": "All geometries.", "anchors": ["src/element/mod.rs: add_element", "src/element/element.rs: jacobian_ratio"]}
{"id": "C47", "title": "Quadrature exactness", "statement": "The triangle rule integrates every polynomial of degree at most two exactly over the natural triangle and the segment rule integrates every affine integrand exactly along any segment.", "quantifier": "for all polynomials of the stated degree, all segments", "why_tests_cant": "All coefficients.", "anchors": ["src/element/integrate.rs: gauss_tri, gauss_segment_mat"]}
{"id": "C48", "title": "Global stiffness assembly", "statement": "The assembled stiffness (mass) matrix is the sum of the element matrices placed at their global degrees of freedom, is symmetric, and its energy is the sum of the element energies.", "quantifier": "for all assemblages and displacements", "why_tests_cant": "Any number of elements sharing nodes.", "anchors": ["src/element/mod.rs: calc_k, calc_m", "src/element/element.rs: map_matrix, map_dof"]}
{"id": "C49", "title": "Stress state conversions", "statement": "The Cauchy matrix of a stress state is the symmetric tensor of its components, and the von Mises value of a planar, axisymmetric or spatial state is that of its tensor. (The matrix lacks its lower triangle and the planar formula is wrong.)", "quantifier": "for all stress states", "why_tests_cant": "All stress values.", "anchors": ["src/element/stress.rs: to_cauchy, von_mises, loc"]}
{"id": "C50", "title": "Running average is the mean", "statement": "Averaging stress (or any) values one at a time yields the arithmetic mean of all of them, and nothing for no values.", "quantifier": "for all finite sequences of values", "why_tests_cant": "All lengths.", "anchors": ["src/matrix/mod.rs: Average::update, consume", "src/element/mod.rs: stresses"]}
{"id": "C51", "title": "Linear study satisfies equilibrium", "statement": "The displacement field of a linear study satisfies all constraints and the virtual work equation with the assembled stiffness and load for all admissible virtual displacements, whenever the reduced stiffness is positive definite and the chosen solver accepts it.", "quantifier": "for all assemblages with positive definite reduced stiffness", "why_tests_cant": "End-to-end over assembly, reduction, solution and expansion.", "anchors": ["src/element/mod.rs: calc_displacements, raw_to_node_disp"]}
{"id": "C52", "title": "Vertex identifiers are unique", "statement": "Vertices created by any number of threads in any interleaving get pairwise different identifiers, up to 2^32 creations; vertices compare by identifier only.", "quantifier": "for all schedules of concurrent creations", "why_tests_cant": "All interleavings.", "anchors": ["src/mesher/mod.rs: GLOBAL_VERTEX_ID, Vertex::new, PartialEq"]}
{"id": "C53", "title": "Boundary walls stay closed loops", "statement": "After any sequence of storing polygons, dividing and splitting segments, every wall is a closed loop, each stored segment belongs to exactly one wall and is enumerated exactly once, and enumeration terminates. A single segment is refused exactly if it meets a segment with which it shares no end, and is otherwise added to map and set.", "quantifier": "for all sequences of boundary operations", "why_tests_cant": "Unbounded operation sequences.", "anchors": ["src/mesher/bounds.rs: store_polygon, divide_segment, split_segment, remove_segment, Wall, AllWalls, all_walls"]}
{"id": "C54", "title": "Segment division respects the target length", "statement": "Dividing a segment of length d with target h replaces it by equal collinear pieces with the same end points, each of length at least h and at most sqrt(3)*h, or panics when no whole number of pieces lies strictly in range.", "quantifier": "for all segments and all positive h", "why_tests_cant": "All real lengths.", "anchors": ["src/mesher/bounds.rs: divide_segment"]}
{"id": "C55", "title": "Boundary data is inherited by pieces", "statement": "When a boundary segment is divided or split, its distributed force applies to every piece and its distributed constraint holds at every vertex of every piece and is recorded for every piece. (Dividing loses the record of the last piece.)", "quantifier": "for all boundaries, all divisions and splits, in any order", "why_tests_cant": "Unbounded operation sequences.", "anchors": ["src/mesher/bounds.rs: divide_segment, split_segment, all_constraints, all_distributed_forces"]}
{"id": "C56", "title": "Triangulation index stays consistent", "statement": "After any sequence of successful triangle additions and deletions, the directed-edge map and the triangle list describe the same set of triangles: each listed triangle is positively oriented, occupies its three directed edges, and no directed edge is used twice.", "quantifier": "for all sequences of additions and deletions", "why_tests_cant": "Unbounded operation sequences.", "anchors": ["src/mesher/plane.rs: add_triangle, delete_triangle, adjacent, adjacent_one"]}
{"id": "C57", "title": "Point insertion preserves the covered region", "statement": "Inserting a vertex into a triangulation leaves the boundary (the directed edges without opposite) and the total signed area unchanged and never crosses a boundary segment.", "quantifier": "for all consistent triangulations, all vertices and all outcomes of the geometric tests", "why_tests_cant": "Cavity shapes are unbounded.", "anchors": ["src/mesher/plane.rs: bowyer_watson_insert, bowyer_watson_dig"]}
{"id": "C58", "title": "Initial triangulation fills the walls", "statement": "If the initial triangulation completes every open edge, the boundary of the triangles is exactly the set of walls and their total area is the area enclosed by the walls; the procedure always terminates. Running it again should give a clean triangulation (stale triangles remain in the list).", "quantifier": "for all boundaries and all outcomes of the geometric tests", "why_tests_cant": "Unbounded number of triangles.", "anchors": ["src/mesher/plane.rs: gift_wrap, gift_wrap_finish"]}
{"id": "C59", "title": "Refinement stops only when the mesh is fine enough", "statement": "When the mesher returns, no triangle has a circumradius above the requested size, and for the quality mesher none has circumradius to shortest edge ratio above its bound.", "quantifier": "for all boundaries and sizes, every terminating run", "why_tests_cant": "All runs.", "anchors": ["src/mesher/plane.rs: chew_mesh, ruppert_mesh, large_triangle, skinny_triangle"]}
{"id": "C60", "title": "Mesh to assemblage", "statement": "The assemblage built from a mesh has one node per mesh vertex at its position, one element per triangle with its vertices, the boundary constraints and distributed forces on the corresponding nodes, and reports an error when material or condition is missing.", "quantifier": "for all meshes, any hash iteration order", "why_tests_cant": "Renumbering over unbounded meshes.", "anchors": ["src/mesher/plane.rs: assemble"]}
{"id": "C61", "title": "In-circle test", "statement": "For a counterclockwise triangle the in-circle test is true exactly for points strictly inside the circumscribed circle (in exact arithmetic, with the pivot threshold not hit). The threshold is never hit for points of a grid whose spacing d is not too small for the size R of the coordinates: 24 (32 R^2)^3 / 1e100 < d^4.", "quantifier": "for all triangles and points", "why_tests_cant": "Sign of a 4x4 determinant over all reals.", "anchors": ["src/spatial/predicates.rs: in_circle", "src/matrix/inverse.rs: det_lu_pivot"]}
{"id": "C62", "title": "Circumcentre", "statement": "The circumcentre is equidistant from the three corners, and is absent exactly when the corners are collinear.", "quantifier": "for all triangles", "why_tests_cant": "All reals.", "anchors": ["src/spatial/predicates.rs: circumcenter, Line::perp_bisect, Line::intersect"]}
{"id": "C63", "title": "Barycentric coordinates and point-in-triangle", "statement": "Barycentric coordinates sum to one and reconstruct the point, and the point-in-triangle test is true exactly for convex combinations of the corners, for every nondegenerate triangle.", "quantifier": "for all nondegenerate triangles and points", "why_tests_cant": "All reals.", "anchors": ["src/spatial/predicates.rs: bary_coor, in_triangle"]}
{"id": "C64", "title": "Sphere test", "statement": "For a positively oriented tetrahedron the in-sphere test is true exactly for points strictly inside the circumscribed sphere. (It uses the wrong coordinate.)", "quantifier": "for all tetrahedra and points", "why_tests_cant": "All reals.", "anchors": ["src/spatial/predicates.rs: in_sphere"]}
{"id": "C65", "title": "Line rasterisation", "statement": "The rasterised line between two pixels contains both ends, has one pixel per step of the longer axis, consecutive pixels touch, all pixels lie in the bounding box and within half a pixel of the true line, and swapping the ends gives the same set of pixels.", "quantifier": "for all pairs of integer points", "why_tests_cant": "All slopes and lengths.", "anchors": ["src/visual/bresenham.rs: line, line_low, line_high"]}
{"id": "C66", "title": "Unsigned line rasterisation keeps visible pixels", "statement": "The unsigned variant returns exactly the pixels of the signed line (all are nonnegative). (It drops row 0 and column 0.)", "quantifier": "for all pairs of nonnegative points", "why_tests_cant": "All positions including the image border.", "anchors": ["src/visual/bresenham.rs: line_unsigned"]}
{"id": "C67", "title": "Triangle filling", "statement": "Filling a nondegenerate triangle yields exactly the integer points in the triangle, each once, with a value between the smallest and the largest corner value that equals the corner value at the corners.", "quantifier": "for all nondegenerate triangles with nonnegative integer corners and all values", "why_tests_cant": "All geometries.", "anchors": ["src/visual/fill.rs: triangle_interp"]}
{"id": "C68", "title": "Colour mapping", "statement": "Both colour maps return channel values in range for every input, clamp inputs outside the unit interval, and the hot map is monotone in each channel; value normalisation maps the smallest value to 0 and the largest to 1 and everything between. Rounding takes the nearest whole number, and of two the one further from zero.", "quantifier": "for all values and value lists", "why_tests_cant": "All reals.", "anchors": ["src/visual/color.rs: hot_map, rgb_map, peak", "src/visual/mod.rs: set_vals"]}
{"id": "C69", "title": "Drawing stays inside the image", "statement": "Every node pixel lies between 10% and 90% of the image size, so node dots stay within the image for image sizes of at least 16, whenever the points do not all coincide. Points added later become dots of the given colour.", "quantifier": "for all point sets and image sizes", "why_tests_cant": "All geometries.", "anchors": ["src/visual/mod.rs: enpixel, draw", "src/visual/fill.rs: dot_points"]}
{"id": "C70", "title": "Mesh file round trip", "statement": "Reading a written mesh file gives back the same material, condition, elements and constraints, and the same nodes and forces rounded to the written precision; rewriting gives the same text.", "quantifier": "for all assemblages with finite values, any storage order of forces and constraints", "why_tests_cant": "All assemblages.", "anchors": ["src/file/bmsh.rs: elas_to_bmsh, bmsh_to_elas", "src/element/constraint.rs: Display, FromStr", "src/element/material.rs", "src/element/strain.rs: to_string"]}
{"id": "C71", "title": "Indexed lists are checked", "statement": "An indexed section is accepted only if its count matches and its indices are 0,1,2,... in order, and then yields the entries in that order.", "quantifier": "for all inputs", "why_tests_cant": "All strings.", "anchors": ["src/file/bmsh.rs: monotonic_list, free_list, section_parse"]}
{"id": "C72", "title": "Boundary file grammar", "statement": "A boundary file is accepted exactly if it is a newline-separated list of well-formed items and nothing else; a trailing newline should be harmless (it is rejected).", "quantifier": "for all inputs", "why_tests_cant": "All strings.", "anchors": ["src/file/bbnd.rs: parse_file"]}
{"id": "C73", "title": "Boundary labels resolve", "statement": "Forces and constraints of a boundary file attach to the vertices carrying their labels; an undefined label gives an error and never a boundary with missing data.", "quantifier": "for all item lists", "why_tests_cant": "All item sequences.", "anchors": ["src/file/bbnd.rs: bbnd_to_bounds"]}
{"id": "C74", "title": "File errors are reported in order", "statement": "Reading reports a missing extension first, then a non-Unicode extension, then an unreadable file, then an unsupported type; only a supported extension leads to parsing.", "quantifier": "for all paths and file systems", "why_tests_cant": "All combinations of faults.", "anchors": ["src/file/mod.rs: read_to_elas, read_to_bound"]}
{"id": "C75", "title": "Constraint and material names round trip", "statement": "Every printed constraint and material that appears in files reads back as the same value. (The printed name of the free constraint does not.)", "quantifier": "for all constraints, all angles with exact decimal printing, all materials", "why_tests_cant": "All angles.", "anchors": ["src/element/constraint.rs: FromStr, Display", "src/element/material.rs: FromStr, ToString"]}
{"id": "C76", "title": "Command line options select what they name", "statement": "Solver, mesher, colour map and node value options select the named implementation, the documented default when absent, and an argument error for any other name. Pictures of different modes have different names.", "quantifier": "for all option values", "why_tests_cant": "All strings.", "anchors": ["src/main.rs: linear, mesh, modal"]}
{"id": "C77", "title": "Modal study", "statement": "Each returned mode is expanded from a reduced eigenvector, so it satisfies all constraints, and its frequency is the square root of the pencil's Rayleigh quotient for that mode.", "quantifier": "for all assemblages and mode counts", "why_tests_cant": "End-to-end over reduction, search and expansion.", "anchors": ["src/element/mod.rs: calc_modes"]}
{"id": "C78", "title": "Mesh edges and displaced nodes for display", "statement": "The displayed edge list contains each directed element edge exactly once in sorted order, and displaced nodes are node plus scale times displacement.", "quantifier": "for all assemblages, displacements and scales", "why_tests_cant": "All meshes.", "anchors": ["src/element/mod.rs: edges, triangles, displaced_nodes, displacement_norms"]}
{"id": "C79", "title": "Material law", "statement": "The material matrix gives for every strain exactly the stresses of isotropic Hooke's law with the condition's assumption (no stress across the plane, no strain across the plane, hoop direction included).", "quantifier": "for all elastic moduli, Poisson ratios, strains and stresses", "why_tests_cant": "Moduli and strains range over a field; a wrong entry that keeps symmetry and definiteness passes generic tests.", "anchors": ["src/element/strain.rs: build_c", "src/element/material.rs"]}
{"id": "C80", "title": "Elastic forces of affine displacements", "statement": "For an affine displacement field the stiffness of a triangle gives at each corner half of the traction of the constant stress on the opposite side, and the energy is thickness times area times the product of stress and strain.", "quantifier": "for all triangles, materials and affine fields", "why_tests_cant": "Continuous families of triangles and fields.", "anchors": ["src/element/element.rs: calc_k, get_isopar_mats", "src/element/strain.rs: build_b, build_c, thickness"]}
{"id": "C81", "title": "Patch test and balance", "statement": "Under an affine displacement of the whole assemblage interior nodes carry no elastic force, and the elastic forces of every displacement have zero sum and zero moment.", "quantifier": "for all plane assemblages and displacements", "why_tests_cant": "All meshes and displacement fields.", "anchors": ["src/element/mod.rs: calc_k"]}
{"id": "C82", "title": "Least potential energy", "statement": "The displacements of a linear study have the least potential energy of all displacements that the constraints allow.", "quantifier": "for all reachable assemblages, loads and sound solvers", "why_tests_cant": "Compares with infinitely many other displacements.", "anchors": ["src/element/mod.rs: calc_displacements"]}
{"id": "C83", "title": "Recovery of uniform stress", "statement": "Nodal averaging reproduces a uniform stress exactly at every node, independent of the number of elements at the node; the von Mises list has one value per node.", "quantifier": "for all assemblages and uniform fields", "why_tests_cant": "All meshes; hash order of nodes.", "anchors": ["src/element/mod.rs: stresses, von_mises", "src/element/element.rs: stresses"]}
{"id": "C84", "title": "Held structures", "statement": "A one-piece plane structure has zero elastic energy only in rigid motions, so with constraints that exclude rigid motions there is exactly one equilibrium and solvers return it.", "quantifier": "for all one-piece plane assemblages", "why_tests_cant": "All meshes, all displacement vectors.", "anchors": ["src/element/mod.rs: calc_k, calc_displacements", "src/element/constraint.rs"]}
{"id": "C85", "title": "What a picture shows", "statement": "Every pixel of a picture has the colour of the front-most thing that covers it: a dot of a node, else a line, else a filled triangle, else the background. The picture of a mesh draws every side of a triangle exactly once and nothing else; the picture of a displaced assemblage has the displaced nodes, the element sides and the elements coloured by their values between smallest and largest.", "quantifier": "for all points, edges, triangles, values, image sizes from 16 on, meshes and hash orders", "why_tests_cant": "Every pixel of every picture; the iteration order of the hash map and set of edges is arbitrary.", "anchors": ["src/visual/mod.rs: draw", "src/mesher/plane.rs: visualize", "src/element/mod.rs: visualize, displaced_nodes"]}
{"id": "C86", "title": "From mesh file to printed results", "statement": "Whatever a mesh file contains, if it is read then it gives a consistent assemblage of an elastic material with loads at existing nodes. If linear succeeds on a file with a physical structure, the two printed numbers are the largest von Mises stress and the largest displacement of an equilibrium of that structure; if the structure is held, it is its only equilibrium, and the numbers depend neither on the sort order of matrix entries nor on the choice between the two direct solvers.", "quantifier": "for all file contents, options, file systems and sort orders", "why_tests_cant": "The file content, the structure and the order of equal keys in sorting are arbitrary; the chain from text to numbers crosses every module.", "anchors": ["src/main.rs: linear", "src/file/bmsh.rs: bmsh_to_elas", "src/element/mod.rs: calc_displacements"]}
{"id": "C87", "title": "From boundary file to results", "statement": "What mesh writes is a mesh file that stands for a mesh of the boundary with counterclockwise triangles; it is read back as the same assemblage up to the written digits, and exactly if its numbers survive printing. Elements that are large against the six written digits keep a positive area. linear run on the written file prints numbers of an equilibrium of that mesh. Structures smaller than the written digits collapse without an error.", "quantifier": "for all boundary files, options, hash orders and numbers", "why_tests_cant": "The chain crosses reading, meshing, assembling, writing, reading and solving; rounding is tied to the sizes of all elements.", "anchors": ["src/main.rs: mesh, linear", "src/file/bmsh.rs: elas_to_bmsh, bmsh_to_elas", "src/mesher/plane.rs: assemble"]}
{"id": "C88", "title": "The initial triangulation is Delaunay", "statement": "In a convex domain the triangulation by gift wrapping uses the given vertices and has empty circles: no vertex is strictly inside of the circle through the corners of a triangle. In such a domain every vertex is seen from the middle of every edge.", "quantifier": "for all convex boundaries made by the building operations, choices of the next edge and numbers", "why_tests_cant": "Emptiness is a statement about all pairs of triangle and vertex after a search whose outcome depends on perturbed coordinates, on visibility and on the order of a hash set.", "anchors": ["src/mesher/plane.rs: gift_wrap, gift_wrap_finish, in_circle", "src/mesher/bounds.rs: midpoint_visible"]}
{"id": "C89", "title": "Refined meshes stay Delaunay", "statement": "In a convex domain whose initial triangulation leaves no edge open, both refinements keep the circles empty: after any number of inserted circumcentres and split walls no vertex, old or new, is strictly inside of the circle of a triangle, and no vertex lies behind a wall.", "quantifier": "for all convex boundaries, element sizes, hash orders, numbers of steps and numbers", "why_tests_cant": "The local circle tests of the cavity search look at one neighbour each; that they give global emptiness rests on the whole history of insertions.", "anchors": ["src/mesher/plane.rs: bowyer_watson_dig, bowyer_watson_insert, split_segment, chew_mesh, ruppert_mesh"]}
{"id": "C90", "title": "Which texts are mesh files, and what they say", "statement": "A text is read as a mesh if and only if its lines, without comments and empty lines, are a header with version 1, a known material and a condition, followed by the five sections in order with right counts and numbers, and it speaks of no node that it does not list. What is read is what the lines say: nodes of one, two or three coordinates in order, elements on their nodes, the constraints of each node combined in order, and for each node and each segment the last force given. A text says one thing only.", "quantifier": "for all texts, all ways of reading numbers, all fields", "why_tests_cant": "The set of texts is infinite, and tests show only that some are accepted and some are refused, not that nothing else is.", "anchors": ["src/file/bmsh.rs: bmsh_to_elas, monotonic_list, free_list, section_parse, named_value", "src/spatial/mod.rs: TryFrom<Vec<f64>>"]}
{"id": "C91", "title": "Circles over the walls", "statement": "In a convex domain the second mesher keeps the circles over the walls clear: when it returns, every vertex that was on the boundary after the walls were cleared, and every vertex inserted inside of the domain, lies strictly outside of the circle over each wall in front of which it lies. Wall midpoints made during the later refinement are not checked, and may end up on such a circle.", "quantifier": "for all convex boundaries made by the building operations, element sizes, hash orders, numbers of steps and numbers", "why_tests_cant": "The property joins every wall with every vertex over the whole history: later splits create new walls and later insertions new vertices, and each is only tested against the other at one moment.", "anchors": ["src/mesher/plane.rs: ruppert_encroaches, ruppert_split_many, segments_encroached_by, ruppert_mesh", "src/mesher/bounds.rs: midpoint_visible, split_segment"]}
{"id": "C92", "title": "Convex domains are filled", "statement": "In a convex domain whose corners all lie on walls, the initial triangulation ends without failing and leaves no edge open: the triangles cover exactly the area enclosed by the walls, the walls are their rim and the circles are empty. So both meshers, whenever they return, return a Delaunay triangulation of exactly the given domain.", "quantifier": "for all convex boundaries made by the building operations whose perturbed vertices are in general position, all hash orders, element sizes and numbers", "why_tests_cant": "That no edge is left without a partner and no edge is claimed twice depends on all vertices and on the order in which a hash set is emptied.", "anchors": ["src/mesher/plane.rs: gift_wrap, gift_wrap_finish, add_triangle, chew_mesh, ruppert_mesh"]}
{"id": "C93", "title": "The triangulation does not depend on the hash order", "statement": "The initial triangulation of a convex domain is the same whatever the order in which edges are taken from the hash set: the same triangles up to their first corner, and the same opposite corner for every edge. This rests on the perturbation of the points; without it a square can make the program panic, depending on the order.", "quantifier": "for all convex boundaries as in C92 and all pairs of orders", "why_tests_cant": "Hash orders differ between runs of the same program, so a test sees one order and cannot exclude another result in another run.", "anchors": ["src/mesher/plane.rs: gift_wrap, gift_wrap_finish, in_circle", "src/mesher/mod.rs: Vertex::perturbed"]}
{"id": "C94", "title": "The first mesher ends in convex domains", "statement": "Let a convex domain have its walls divided for element size h, with all vertices at least h apart. Then there is a number of rounds after which Chew's mesher has always ended, and it ends without failing: whatever the order in which hash sets and hash maps are emptied, the centre of every circle it inserts lies inside the walls and at least h from all vertices. The division itself succeeds exactly if every wall can be cut into a whole number of equal pieces with lengths from h to below √3 h, and afterwards all walls are shorter than √3 h.", "quantifier": "for all convex boundaries made by the building operations, all element sizes, all hash orders (which may differ from round to round) and all numbers of rounds", "why_tests_cant": "The loop of the mesher has no bound in the code; that it ends is a packing argument over all sets of points the loop could reach, and that no insertion panics depends on the position of a circumcentre relative to all walls.", "anchors": ["src/mesher/plane.rs: chew_mesh, bowyer_watson_insert, large_triangle, bowyer_watson_dig", "src/mesher/bounds.rs: divide_all_segments, divide_segment"]}
{"id": "C95", "title": "The angles of the first mesher", "statement": "In a convex domain every triangle returned by Chew's mesher has all sides at least h, a circumradius of at most h and, so, all angles of at least 30 degrees; and the triangles are a Delaunay triangulation of exactly the given domain.", "quantifier": "for all runs as in C94, without bound on the number of rounds", "why_tests_cant": "The bound on the angles is the reason for the algorithm. Tests measure angles of sample meshes; the claim concerns every mesh the code can return.", "anchors": ["src/mesher/plane.rs: chew_mesh, large_triangle, bowyer_watson_insert", "src/mesher/bounds.rs: divide_all_segments"]}
{"id": "C96", "title": "Refinement by the second mesher fails only after an unchecked split", "statement": "In a convex domain, as long as no vertex lies in or on the circle over a wall in front of it, the centre of the circle of every triangle lies strictly in front of all walls and in some triangle, and a round of refinement by Ruppert's mesher succeeds. So every panic of the refinement is preceded by a mesh in which a vertex lies in the circle of a wall; only the vertices made by splitting walls during refinement can cause this, since the code does not check them. They do cause it: in a rectangle with one extra vertex on a side the mesher panics for one order of its hash map and succeeds for another.", "quantifier": "for all convex boundaries made by the building operations, all hash orders, all meshes reachable by rounds of refinement without bound on their number, and all triangles", "why_tests_cant": "Whether a circumcentre leaves the domain depends on the whole mesh reached so far, and the failing order of the hash map appears only in some runs of the same program on the same input.", "anchors": ["src/mesher/plane.rs: ruppert_mesh, segments_encroached_by, ruppert_encroaches, ruppert_split_segment, skinny_triangle", "src/mesher/bounds.rs: split_segment"]}
{"id": "C97", "title": "The second mesher clears the walls of convex domains", "statement": "In a convex domain without acute corners the clearing of encroached walls by Ruppert's mesher ends and does not fail, whatever the order of the hash maps. It adds at most S/(2m) vertices, rounded up, where S is the sum of the squared lengths of the walls and m the least squared distance of walls that do not meet. Afterwards no vertex lies in or on the circle of a wall in front of it.", "quantifier": "for all convex boundaries without acute corners made by the building operations, all hash orders and all sufficiently large numbers of steps", "why_tests_cant": "The loop has no bound in the code. That it ends rests on a lower bound for the length of every wall it can ever split.", "anchors": ["src/mesher/plane.rs: ruppert_mesh, ruppert_split_many, ruppert_split_segment, segments_encroached_by, ruppert_encroaches", "src/mesher/bounds.rs: split_segment"]}
{"id": "C98", "title": "Step bounds do not change results", "statement": "The model bounds the loops of the meshers and of the search for eigenvalues by a number of steps. If a run does not exhaust it, every larger number gives the same mesh, eigenvalues or failure. So each result proved for some number of steps is the result of the unbounded loops of the code.", "quantifier": "for all inputs, all hash orders, all numbers of steps that suffice and all larger ones", "why_tests_cant": "This concerns the relation of the bounded model to the unbounded loops; without it a theorem for a given bound could describe an artefact of the bound.", "anchors": ["src/mesher/plane.rs: chew_mesh, ruppert_mesh", "src/matrix/solve/eigen.rs: find_eigens, secant_iterate_one, process_eigenrange, inverse_iterate"]}
{"id": "C99", "title": "The second mesher never returns a mesh of a domain with a sharp corner", "statement": "In a convex domain Ruppert's mesher never returns if some corner has an angle below 45 degrees and its walls have a ratio of lengths that is, up to a power of two, between 1/cos and 2 cos of the angle: the halves of each wall keep splitting the other. The right triangle with sides 3, 4 and 5 is such a domain. It never returns either if a corner has an angle below 20.6 degrees, whatever the lengths, because the mesh would have to contain a triangle with this angle, which the refinement does not accept. All triangles of a mesh it returns lie in front of all walls.", "quantifier": "for all convex boundaries made by the building operations with such a corner, all element sizes, all hash orders, and all numbers of steps", "why_tests_cant": "Tests can show that a run has not ended yet, not that it never returns.", "anchors": ["src/mesher/plane.rs: ruppert_mesh, ruppert_split_many, ruppert_encroaches, skinny_triangle", "src/mesher/bounds.rs: split_segment"]}
{"id": "C100", "title": "Meshes of a convex domain are in one piece, and a fixed wall holds them", "statement": "If either mesher returns a mesh of a convex domain with a single loop of walls, then every triangle is reached from every other over common sides and every vertex is a corner of a triangle, so the assemblage has no loose parts or floating nodes. If two vertices of the boundary are fixed, for example the ends of a fixed wall, the assemblage is moreover held, and the numbers that the commands `mesh` and `linear` print one after the other with a direct solver belong to its only equilibrium. With two separate polygons the mesh is in two pieces, and nothing rejects it.", "quantifier": "for all boundaries made by the building operations that form a convex domain with vertices at different places, all element sizes, all hash orders, all loads and all numbers of steps", "why_tests_cant": "Loose triangles or unused vertices would appear only for particular domains, sizes and hash orders, and a singular stiffness matrix may still yield numbers.", "anchors": ["src/mesher/plane.rs: chew_mesh, ruppert_mesh, insert_vertex, assemble", "src/mesher/bounds.rs: split_segment, divide_segment", "src/main.rs: mesh, linear"]}
{"id": "C101", "title": "Bodies of revolution: only translation along the axis is free of energy, and one axial support holds them", "statement": "An axisymmetric structure in one piece of elastic material beside the axis has positive elastic energy in every displacement except translations along the axis, so its stiffness is positive definite on the allowed displacements exactly if some node is fixed, fixed along the axis, or fixed in a direction that is not at a right angle to it. Then it has exactly one equilibrium for every load, and the direct solvers return it. Neither mesher puts a vertex of a convex domain across the axis, so with one vertex of the boundary fixed along the axis the numbers that `mesh` and `linear` print one after the other belong to the only equilibrium.", "quantifier": "for all consistent axisymmetric assemblages, loads, constraints and hash orders; for the meshes all convex domains, sizes and numbers of steps", "why_tests_cant": "A stiffness with spurious zero-energy displacements, or meshes that cross the axis, would only show for particular supports and domains, and a singular system may still yield numbers.", "anchors": ["src/element/element.rs: get_isopar_mats, calc_k", "src/element/integrate.rs: gauss_tri", "src/element/strain.rs: thickness, build_b, build_c", "src/element/mod.rs: calc_displacements", "src/mesher/plane.rs: chew_mesh, ruppert_mesh", "src/main.rs: mesh, linear"]}
{"id": "C102", "title": "A convex polygon in a file makes a convex domain that is meshed in full", "statement": "A boundary file whose only polygon is convex (its corners in different places, none to the right of a side and none between the ends of a side, straight angles allowed) is read without panic whenever its labels are defined, and gives an error otherwise. The walls then go exactly once around every point in front of all of them and not at all around any point behind one, every vertex sees the middle of every edge, and this remains so when walls are divided or split. Hence the results on convex domains hold from the file on: the first mesher ends for every order of the hash maps with connected, empty-circle triangles that fill the polygon without an angle below 30 degrees, and the first two loops of the second mesher end.", "quantifier": "for all convex polygons, files, target lengths, hash orders and numbers of steps", "why_tests_cant": "Winding numbers of all points of the plane, and all ways in which walls are divided, cannot be tried; a test shows some polygons and some points.", "anchors": ["src/file/bbnd.rs: bbnd_to_bounds", "src/mesher/bounds.rs: store_polygon, divide_segment, divide_all_segments, split_segment", "src/mesher/plane.rs: chew_mesh, ruppert_mesh"]}
{"id": "C103", "title": "The commands come to their end", "statement": "Nothing in the commands fails unexpectedly. Once the mesher has returned a mesh with a triangle and the picture has at least 16 pixels, the command `mesh` saves the picture and the mesh file if and only if the file names a material and a condition and the file system lets both be saved. On a file with one convex polygon and defined labels the whole command ends with both outputs, for every order of the hash maps, if enough steps are allowed. The command `linear` with the Cholesky solver, on a plane structure in one piece that two fixed nodes hold and whose load does work, ends with a picture and two numbers, the second of which is positive. Every displacement of a structure whose elements have area has von Mises stresses, one for each node, except around an axis when an element touches the axis.", "quantifier": "for all files, structures, loads, displacements, picture sizes and hash orders", "why_tests_cant": "That a chain of some twenty steps with panics in between has no failing input cannot be shown by running it on some inputs.", "anchors": ["src/main.rs: linear, mesh", "src/element/mod.rs: von_mises, calc_displacements", "src/mesher/plane.rs: visualize, assemble, chew_mesh", "src/file/bmsh.rs: elas_to_bmsh", "src/visual/mod.rs: draw"]}
{"id": "C104", "title": "Which structures the Cholesky solver and the mode search accept", "statement": "Call two nodes neighbours if they are in a common element, and call a node free if it is not fixed in both directions. The unknowns of the reduced system are coupled exactly if every free node is reached from every other over free neighbours, whatever the numbers in the elements. Hence, of all structures whose stiffness is positive definite on the displacements that the constraints allow, the Cholesky solver gives displacements for exactly those with at least two free components whose free nodes hang together in this way, and panics on all others; the command `linear` ends with a picture and two numbers in the first case and panics in the second. The search for modes panics in the second case too. A positive definite stiffness leaves no free node outside of the elements. Two triangles on both sides of a fixed edge are held and in one piece, and the dense solver solves them, but the Cholesky solver panics.", "quantifier": "for all structures, constraints, loads, materials and hash orders", "why_tests_cant": "That the pattern of the matrix is decided by the mesh alone, also where entries cancel to zero, and that the solver fails for every mesh that the fixed nodes cut in two, concerns all meshes.", "anchors": ["src/matrix/solve/direct.rs: CholeskyEnvelopeSolver::new", "src/matrix/solve/mod.rs: reduce_envelope, from_kr, from_km", "src/matrix/sparse.rs: mul_dict, mask, edges", "src/element/constraint.rs: bar_matrix, rotation_matrix", "src/element/mod.rs: calc_displacements, calc_k", "src/matrix/solve/eigen.rs: EigenSystem::new", "src/main.rs: linear"]}
{"id": "C105", "title": "Free nodes of meshes of convex domains hang together", "statement": "Take a convex polygon and let every constraint that fixes both directions, on a vertex or on a wall, lie on the line of one wall. In the assemblage of the mesh made by either mesher, every free node is then reached from every other free node over free nodes with common elements, wherever the meshers put new nodes and whatever the other constraints are. With C104 the Cholesky solver accepts the structure. Without the condition on the constraints this fails: a constraint between two opposite corners of a parallelogram gives a mesh of two triangles whose two free nodes are separated.", "quantifier": "All fields, exact geometry oracles, prepared boundaries that are convex plots, mesh sizes, fuels, iteration orders and choices of the meshers; all lines of walls; the negation is a concrete mesh.", "why_tests_cant": "The claim is about the neighbourhood graph of every mesh the two refinement loops can produce. Tests see single meshes; no test checks connectivity of the free nodes at all, and the panic appears only with the Cholesky solver.", "anchors": ["/repo/src/mesher/plane.rs", "/repo/src/mesher/bounds.rs", "/repo/src/element/constraint.rs", "/repo/src/element/mod.rs"]}
{"id": "C106", "title": "From the file with a convex polygon to the printed displacements", "statement": "Take a boundary file with one convex polygon, constraints along the line of one wall only, two vertices fixed in both directions, forces other than zero on walls that are not on this line, and a plane condition of positive thickness. The command `mesh` ends with a mesh file, and `linear` with the Cholesky solver, run on this file, ends with a picture and numbers: no panic, no failed solve. The numbers belong to the only equilibrium of the mesh, and the largest displacement is positive. The step from the mesh on holds for both meshers.", "quantifier": "All ordered fields with roots, exact geometry oracles, boundary files, mesh sizes above the resolution, fuels above a bound, iteration orders of all hash maps, command line options and file systems that meet the stated conditions.", "why_tests_cant": "The claim joins the parser, the mesher, the mesh file, the assembly, the factorization and the visualizer for every such input. The repository has no test that runs the two commands one after the other.", "anchors": ["/repo/src/main.rs", "/repo/src/mesher/plane.rs", "/repo/src/file/bbnd.rs", "/repo/src/file/bmsh.rs", "/repo/src/element/mod.rs"]}
{"id": "C107", "title": "Inverse iteration comes to its end", "statement": "Take a symmetric pencil with a complete set of modes, a shift that is no eigenvalue and at which the matrix can be factorized, and a start vector other than zero. If, of the eigenvalues whose modes have a part in the start vector, the nearest to the shift is unique, the loop of `inverse_iterate` stops after finitely many rounds, and more rounds do not change the result. For the shifts of the search, the middles of ranges with one eigenvalue, this holds when the eigenvalue is above the lower end of the range, not in its middle, and has a part in the start vector. Without uniqueness the loop may run forever: for the eigenvalues 1 and 3, shift 2 and the start vector (1, 1) all Rayleigh quotients are zero and the relative test never holds.", "quantifier": "All Archimedean ordered fields with roots, dimensions, pencils, shifts, start vectors, lists of earlier modes; the negation is a concrete pencil for every number of rounds.", "why_tests_cant": "The loop has no bound on its rounds, so a test can only show that it stopped for one matrix. The number of rounds has no bound either: it grows as two eigenvalues come close to equal distance from the shift.", "anchors": ["/repo/src/matrix/solve/eigen.rs"]}
{"id": "C108", "title": "Kinetic energy and frequencies", "statement": "The mass matrix of a triangle with positive density and, in a plane condition, positive thickness is positive definite. For a structure of such elements a displacement has no kinetic energy exactly if all nodes of elements are at rest, and the mass matrix is positive definite on the displacements that the constraints allow exactly if every node that can move is in an element. If a modal study of such a structure ends, its free nodes hang together and have two or more free components, and each mode satisfies the constraints, has unit mass and comes with the square root of its stiffness. The command `modal` on a held plane structure in one piece therefore prints positive frequencies only, one for each mode asked for, each after its picture.", "quantifier": "All ordered fields for the matrices, the real numbers for the studies; all assemblages of physical elements, constraints, start vectors, fuels, sort results, options and mesh files.", "why_tests_cant": "Tests compute the modes of one or two structures; they do not show that no admissible displacement has zero mass, nor that every frequency printed is positive.", "anchors": ["/repo/src/element/element.rs", "/repo/src/element/mod.rs", "/repo/src/matrix/solve/eigen.rs", "/repo/src/main.rs"]}
{"id": "C109", "title": "The search for the lowest mode comes to its end", "statement": "Take a symmetric pencil with a complete set of modes and positive eigenvalues, the others at least twice the lowest, and a random start vector in which the lowest mode has a part. The search samples shifts from 99/100 of a weighted mean of the eigenvalues on, first by division, then by doubling. When no sampled shift and no middle of a doubled range is an eigenvalue or makes a leading minor vanish, `find_eigens(1)` returns: the starting values, the doubling and the inverse iteration all come to an end without a panic. It returns one pair, from a range that contains the lowest eigenvalue and no other, with a value not below this eigenvalue, and more rounds do not change the result.", "quantifier": "All Archimedean ordered fields with roots, dimensions, pencils and start vectors with the conditions named; the sampled shifts are given by any sets closed under the two steps of the search.", "why_tests_cant": "Three nested loops without bounds follow one another, and each can fail on its own; a test shows that they ended for one matrix and one random vector.", "anchors": ["/repo/src/matrix/solve/eigen.rs"]}
{"id": "C110", "title": "Which structures a modal study accepts, and a study that comes to its end", "statement": "The search for modes accepts a coupled pencil of two or more unknowns whose mass matrix has entries on the diagonal and none outside the entries of the stiffness matrix; in particular its assertion on the two envelopes then holds after renumbering. For a structure whose movable nodes are all in elements, this is the case exactly if two or more components are free and the free nodes hang together. When furthermore the other eigenvalues are at least twice the lowest and the search meets no eigenvalue and no vanishing minor, a study for one mode ends with a mode of unit mass that satisfies the constraints and with the root of its Rayleigh quotient, and the command `modal` ends with one picture and one positive frequency, for every sufficient number of rounds.", "quantifier": "All structures with sound elements, all constraints, all iteration orders of the hash maps, all random start vectors with the conditions named.", "why_tests_cant": "The assertion compares envelopes after a renumbering by a graph search; a test sees one mesh. That a loop without bound ends on all allowed inputs cannot be observed.", "anchors": ["/repo/src/matrix/solve/eigen.rs", "/repo/src/element/mod.rs", "/repo/src/main.rs"]}
{"id": "C111", "title": "Meshes of convex domains are accepted by the search for modes", "statement": "A plane structure of positive thickness, read from a mesh file, in one piece and held by its constraints, is accepted by the search for modes exactly if two or more components are free and the free nodes hang together; then both matrices of the pencil are positive definite and every eigenvalue is positive. The mesh of a convex domain by either mesher satisfies this, when all constraints are along the line of one wall and two vertices are fixed in both directions; from the boundary file on, `mesh` ends with a mesh file that is read again as the same structure, and the search for modes accepts it.", "quantifier": "All mesh files; all convex domains with a single loop of walls, all sizes and iteration orders, under the conditions named in C103 and C105.", "why_tests_cant": "That every mesh of every convex domain passes the assertions of the renumbering and of the envelope comparison, and has no zero frequency, is a statement on infinitely many meshes.", "anchors": ["/repo/src/main.rs", "/repo/src/mesher/plane.rs", "/repo/src/matrix/solve/eigen.rs", "/repo/src/element/mod.rs"]}
{"id": "C112", "title": "What the errors of the commands say, and what a failed command leaves behind", "statement": "An argument error of `linear` names the first option, in the order solver, scale, nodevalue, colormap, imsize, showmesh, whose value (or default) the option does not take; by then the file has been read and, unless the solver is at fault, the displacements have been calculated. A file error of a command is reported exactly for the failure of reading its input. With an argument error or a file error, none of the commands has written anything. The run-time error of `mesh` means exactly that the boundary was meshed and drawn and has no material; a `mesh` that fails never leaves a mesh file and leaves the picture exactly when the failure is in assembling or in writing the file. A `modal` that fails has done nothing, or panicked after writing the pictures and frequencies of some first modes, at least one mode missing.", "quantifier": "All inputs, options, file systems, numbers of modes, and all iteration orders.", "why_tests_cant": "The options are looked at between the steps of the calculation, and in `modal` once per mode; tests try single wrong options on single files.", "anchors": ["/repo/src/main.rs", "/repo/src/mesher/plane.rs", "/repo/src/file/mod.rs"]}
{"id": "C113", "title": "The order of the hash tables does not show in a linear study", "statement": "For a mesh file with a plane structure in one piece that its constraints hold, the whole outcome of `linear` (the picture, the two numbers, or the error) is the same in whatever order the entries of equal row come when the stiffness matrix is transformed, for each of the three solvers. The three solvers return the same, or fail in the same way, for two systems that hold the same matrix and load in different orders (Gauss-Seidel without zeros on the diagonal; Cholesky for positive definite matrices whose stored entries couple the unknowns in both or in none). When `linear` succeeds with the Cholesky solver, with the dense solver it puts out exactly the same, picture included, or it divides by a zero pivot.", "quantifier": "All held plane structures in one piece, all mesh files, options, file systems, and all iteration orders.", "why_tests_cant": "The iteration order of the standard hash table changes from run to run with a random seed; a test sees one order per run, and compares at most printed numbers.", "anchors": ["/repo/src/main.rs", "/repo/src/element/mod.rs", "/repo/src/matrix/sparse.rs", "/repo/src/matrix/solve/direct.rs", "/repo/src/matrix/solve/iterative.rs"]}
{"id": "C114", "title": "The response to loads is linear and reciprocal", "statement": "Forces and line loads that are t times as large make a load vector t times as large. Displacements t times as large have von Mises stresses |t| times as large, at each node. If a plane structure in one piece that its constraints hold is solved with a direct solver under three loads, and the third load vector is a combination of the first two, then the third displacements are the same combination of the first two; and the first load does the same work along the second displacements as the second load along the first displacements (Betti). If two mesh files describe the same structure, and the forces in one are t times those in the other, then `linear` with direct solvers prints |t| times the stress and |t| times the displacement.", "quantifier": "All structures as described, all loads, all factors, all direct solvers, files, options and iteration orders.", "why_tests_cant": "Superposition and reciprocity relate several runs of the program for arbitrary structures and loads; a test compares a few runs with tolerances.", "anchors": ["/repo/src/main.rs", "/repo/src/element/mod.rs", "/repo/src/element/element.rs", "/repo/src/element/stress.rs", "/repo/src/matrix/solve/direct.rs"]}
{"id": "C115", "title": "The thickness of a plane structure", "statement": "The stiffness and the mass matrix of a plane structure are proportional to its thickness, so the pairs of eigenvalue and vibration are the same for each thickness. The load vector and the stresses of given displacements do not depend on the thickness. If two mesh files describe the same plane structure in one piece that its constraints hold, and it is s times as thick in the second, then `linear` with direct solvers prints for the first s times the stress and s times the displacement that it prints for the second.", "quantifier": "All plane structures with elements of some area, all thicknesses and positive factors; for the numbers that are printed: held structures in one piece, all files, options and iteration orders.", "why_tests_cant": "The relation is between two runs for arbitrary structures; a test compares a few pairs of runs.", "anchors": ["/repo/src/main.rs", "/repo/src/element/mod.rs", "/repo/src/element/element.rs", "/repo/src/element/strain.rs", "/repo/src/element/material.rs"]}
{"id": "C116", "title": "The modulus and the density of the material", "statement": "The stiffness matrix is proportional to Young's modulus and the mass matrix to the density; the load vector depends on neither. So a modulus s times and a density r times as large multiply each eigenvalue by s/r and leave the vibrations as they are. The stresses of given displacements are proportional to the modulus. A plane structure in one piece that its constraints hold, solved with direct solvers under the same forces with a modulus s times as large, has the s-th part of the displacements and the same stresses, whatever the density.", "quantifier": "All structures with elements of some area (plane, or off the axis), all factors; for the displacements: held plane structures in one piece, all loads, direct solvers and iteration orders.", "why_tests_cant": "The program knows two materials only; the relation is between structures of arbitrary materials, and between several runs.", "anchors": ["/repo/src/element/material.rs", "/repo/src/element/strain.rs", "/repo/src/element/element.rs", "/repo/src/element/mod.rs", "/repo/src/matrix/solve/direct.rs"]}
