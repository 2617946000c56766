{
 "C01": {
  "note": "Refinement of any list of operations from zeros or flat data to shape plus entry function, panics included; rows, columns, diagonal, flat."
 },
 "C02": {
  "note": "Invariant over an inductive reachability predicate; the word-size exception has a concrete witness in a wrapping model of zeros."
 },
 "C07": {
  "note": "Decomposition, exact success criterion (leading minors), determinant from it, inverse for dense and fixed-size types; negation witness for an invertible 3x3 matrix."
 },
 "C09": {
  "note": "Soundness, uniqueness, all failure modes, success on symmetric positive definite matrices without positive off-diagonal entries; negations with witnesses for invertible and for symmetric positive definite matrices."
 },
 "C03": {
  "note": "Equality test and transpose, for any pair of storage orders."
 },
 "C04": {
  "note": "Product of any two matrix kinds, collected dense or fixed-size; entrywise operations; all shape mismatches panic."
 },
 "C05": {
  "note": "Packed lower, upper and diagonal matrices after any list of writes."
 },
 "C06": {
  "note": "Both substitutions, exact condition for a result, both triangular inverses."
 },
 "C08": {
  "note": "Result is the determinant (Mathlib Matrix.det); error only for a reduced column below 1e-100; success whenever the determinant is not tiny relative to the entries (C08_succeeds); 2x2 closed form; non-square refused."
 },
 "C10": {
  "note": "Rows, reads, three constructors, specialised product. Code disagrees on zeros(): C10_zeros_panics proves that every read panics."
 },
 "C11": {
  "note": "Construction, cells inside the buffer and distinct, refused envelopes."
 },
 "C12": {
  "note": "Full and sub-range solve from a zero buffer; C12_buffer says what an arbitrary buffer gives. Code disagrees on independence of the buffer: C12_buffer_matters."
 },
 "C13": {
  "note": "Transposed solve for any buffer; wrong lengths refused."
 },
 "C14": {
  "note": "Over any ordered field with a root function, and over the reals; the empty matrix is refused (C14_empty)."
 },
 "C15": {
  "note": "Soundness with leading minors as pivot products; success for nonzero proper leading minors."
 },
 "C16": {
  "note": "Both factored solves, and factor-then-solve."
 },
 "C17": {
  "note": "Conversion and product; a row without entries panics (C17_empty_row)."
 },
 "C18": {
  "note": "Entries of K + s M; the refused cases are characterised."
 },
 "C19": {
  "note": "Reads, accumulation, product, mask, renumbering, square transpose. Code disagrees on non-square transpose: C19_transposed_shape."
 },
 "C20": {
  "note": "Covering and minimality of envelope and row bounds."
 },
 "C21": {
  "note": "All four conversions; lower-envelope conversion panics exactly without an entry in the lower part of a row."
 },
 "C22": {
  "note": "Acceptance criterion, mutual inverses, slices."
 },
 "C23": {
  "note": "Adjacency, sorted lists. Code disagrees on the vertex count: C23_vertexCount gives the exact condition, C23_lost a witness."
 },
 "C24": {
  "note": "Distance is the least walk length (own definition); masked neighbours."
 },
 "C25": {
  "note": "Termination, and what the returned vertex satisfies. Code disagrees on the returned vertex not being improvable: C25_improvable."
 },
 "C26": {
  "note": "Permutation on connected graphs; panic on all others."
 },
 "C27": {
  "note": "Sums of the additions in any order; building from matrices; refused shapes."
 },
 "C28": {
  "note": "One permutation for stiffness, mass and load, undone by the recorded one; panics characterised."
 },
 "C29": {
  "note": "Solution in the caller's numbering for connected systems. Code disagrees for all other positive definite systems: C29_panics, C29_identity_panics."
 },
 "C30": {
  "note": "Sound, failure mode, success class. Code disagrees on definite systems in general (C30_spd_fails) and after reduce_envelope (C30_permutation_dropped)."
 },
 "C31": {
  "note": "Full specification of the iteration, residual identity, fixed points. Code disagrees on zero load: C31_zero_load."
 },
 "C32": {
  "note": "Uniqueness for symmetric positive definite systems."
 },
 "C33": {
  "note": "Counts negative pivots against any complete set of modes with multiplicity; such sets exist over the reals (C33_modes)."
 },
 "C34": {
  "note": "Isolation for any counting function; ends exactly for distinct eigenvalues. Code disagrees on termination with repeated eigenvalues: C34_repeated."
 },
 "C35": {
  "note": "Exactly n pairs, from consecutive isolating ranges starting at the lowest; success with distinct eigenvalues."
 },
 "C36": {
  "note": "Gram-Schmidt, unit mass norm, Rayleigh quotient, for single steps and for the whole search."
 },
 "C37": {
  "note": "All reduced vectors; the transformation is total."
 },
 "C38": {
  "note": "Transformation as a matrix with orthonormal columns; virtual work equivalence; symmetry, energy, definiteness."
 },
 "C39": {
  "note": "Exact list of merge pairs that restrict (C39_merge_iff). Code disagrees for the others: C39_releases, C39_order."
 },
 "C40": {
  "note": "Exact outcome (last assignment wins), superposition when no degree of freedom is assigned twice. Code disagrees in general: C40_not_superposed."
 },
 "C41": {
  "note": "Edge loads for the three edges; other pairs give nothing."
 },
 "C42": {
  "note": "All conditions with admissible materials; sign reversed for clockwise triangles."
 },
 "C43": {
  "note": "Rigid motions and axial translation; converse in plane conditions."
 },
 "C44": {
  "note": "Interpolation and strain of affine fields; corner stresses."
 },
 "C45": {
  "note": "Entries, symmetry, semidefiniteness. Code disagrees on the total mass: C45_area_missing."
 },
 "C46": {
  "note": "Code disagrees: the checked ratio is always one (C46_ratio, C46_accepts_all); collinear elements have no stiffness (C46_collinear)."
 },
 "C47": {
  "note": "Both rules against real integrals and against moments in any field; the degree and the three-point rule are delimited by C47_degree_three and C47_segment_three."
 },
 "C48": {
  "note": "Sum of element matrices, symmetry, energy, semidefiniteness."
 },
 "C49": {
  "note": "Spatial and axisymmetric von Mises. Code disagrees for plane states (C49_mises_plane gives the exact condition), bars, and the lower triangle of the Cauchy matrix."
 },
 "C50": {
  "note": "Mean in any vector space over the scalars; for stress states; at the nodes of an assemblage."
 },
 "C51": {
  "note": "For every assemblage reachable by the public operations, any sound solver; instances for the dense and the Cholesky solver."
 },
 "C52": {
  "note": "All interleavings of atomic steps; the bound 2^32 is sharp (C52_wraps)."
 },
 "C53": {
  "note": "All operation sequences, for current and original walls."
 },
 "C54": {
  "note": "Exact success condition and the pieces."
 },
 "C55": {
  "note": "Loads and constraints through any operations. Code disagrees: the last piece of a division is not recorded (C55_lost), and corners depend on map order (C55_corner)."
 },
 "C56": {
  "note": "Any additions and deletions; exact refusals."
 },
 "C57": {
  "note": "For arbitrary answers of the geometric tests."
 },
 "C58": {
  "note": "Area and rim for arbitrary geometric tests, termination. Code disagrees on completeness (C58_dropped), repeated runs (C58_stale) and holes (C58_outside)."
 },
 "C59": {
  "note": "Exit condition of both meshers, and the domain is kept. Termination of the refinement is not claimed."
 },
 "C60": {
  "note": "Assemblage stands for the mesh, after either mesher. Code disagrees on a missing condition: panic (C60_no_condition)."
 },
 "C61": {
  "note": "True only inside; true for all inside points unless a pivot is below 1e-100 (C61_threshold shows the exception, C61_grid excludes it for points of a grid)."
 },
 "C62": {
  "note": "Equidistance and exact absence."
 },
 "C63": {
  "note": "Coordinates, uniqueness, test, degenerate triangles."
 },
 "C64": {
  "note": "Code disagrees: C64_surface says what the test decides, C64_wrong has witnesses in both directions."
 },
 "C65": {
  "note": "All integer end points."
 },
 "C66": {
  "note": "Exact set of kept pixels. Code disagrees on the first row and column: C66_wrong."
 },
 "C67": {
  "note": "Exact pixel set with values; nothing for flat triangles."
 },
 "C68": {
  "note": "Both maps and normalisation. Code disagrees on clamping by the rainbow map: C68_rgb_wrong."
 },
 "C69": {
  "note": "Projection, pixel bounds, complete drawing. Code disagrees for points on one line of sight in space: C69_space_wrong."
 },
 "C70": {
  "note": "Round trip for any text laws of numbers, instance with exact decimals; orders, comments, trailing text; limits for other dimensions and bad names."
 },
 "C71": {
  "note": "Exact acceptance of indexed lists, free lists and sections."
 },
 "C72": {
  "note": "Exact grammar. Code disagrees: trailing newline rejected (C72_newline, C72_trailing), unknown names panic (C72_material, C72_constraint)."
 },
 "C73": {
  "note": "Resolution of labels, errors exactly for undefined ones; limits: repeated labels (C73_twice) and pairs that are no sides (C73_no_side)."
 },
 "C74": {
  "note": "Each report exactly in its case, for mesh and boundary files; saving."
 },
 "C75": {
  "note": "Constraints and materials. Code disagrees for the free constraint: C75_free_wrong."
 },
 "C76": {
  "note": "Names, defaults, argument errors, and what each command does. Limits: C76_mesh_no_material, C76_modal_unchecked."
 },
 "C77": {
  "note": "For every reachable assemblage with positive mass on admissible displacements."
 },
 "C78": {
  "note": "Edges, triangles, displaced nodes, norms."
 },
 "C79": {
  "note": "Holds in all three conditions; the refused ratios are characterised."
 },
 "C80": {
  "note": "Plane conditions in full; in the axisymmetric condition for fields of constant stress, with the centroid rule of the integration."
 },
 "C81": {
  "note": "For every consistent plane assemblage without degenerate elements."
 },
 "C82": {
  "note": "Equivalence for all assemblages; strict for the Cholesky solver."
 },
 "C83": {
  "note": "A node on the axis of rotation stops the recovery by a division by zero (C83_axis)."
 },
 "C84": {
  "note": "Positive definite on admissible displacements exactly if held."
 },
 "C85": {
  "note": "Flat points for meshes and assemblages; sizes below 16 panic (see C69)."
 },
 "C86": {
  "note": "Physical: flat nodes, counterclockwise elements (not checked by the reader), nonnegative thickness or radius. C86_held and C86_same for plane structures in one piece; the Cholesky solver needs an exact square root."
 },
 "C87": {
  "note": "For polygons with at least three vertices, the assumptions on spacemath of C53 to C60 and on printed numbers of C70. C87_tiny is the witness of the collapse."
 },
 "C88": {
  "note": "Domains without a wall behind which there are vertices; orientation tests exact, perturbation small enough to change only ties, no refused determinant (C61). Domains with holes or reentrant corners are not covered."
 },
 "C89": {
  "note": "Same assumptions as C88, with no refused determinant among all points of the final mesh. Circumcentres may fall anywhere, also outside of the domain; then the run faults or the statement holds."
 },
 "C90": {
  "note": "`C90_accepts` is for nodes in the plane and elements with three nodes; an element with another number of nodes makes the reader panic (C70). Text after the last section is free."
 },
 "C91": {
  "note": "Undivided walls have all vertices in front; segments are said to meet only if they do; comparison of roots is that of their squares. C91_unchecked is a witness for the exception: the refinement splits a wall without checking its midpoint, so the invariant of Ruppert's algorithm does not hold for all vertices."
 },
 "C92": {
  "note": "Hypotheses: exact orientation tests, no vertex behind a wall or between its ends, vertices in different places, no four perturbed vertices on a circle, perturbation changes no strict test. The visibility hypothesis `Open` follows from C88_visible."
 },
 "C93": {
  "note": "C93_still is the witness that without the perturbation one order cuts the square and another panics."
 },
 "C94": {
  "note": "Hypotheses: exact orientation tests, exact comparison of circumradii with h, general position and visibility of the divided walls as in C92, and no triangle on reachable points with a determinant pivot below 1e-100. `C94_short` proves the bound on the lengths of the divided walls which `C94_chew` needs."
 },
 "C95": {
  "note": "The angle bound is stated without trigonometry: the squared sine, 4·area²/(product of the squared sides), is at least 1/4. Together with C94 such a mesh is always returned."
 },
 "C96": {
  "note": "Where the claim fails is part of the property: `C96_panics` gives the rectangle, both orders, and the panic for every number of steps from 20. Hypotheses: exact orientation tests, general position and visibility as in C92, and no determinant pivot below 1e-100 on the points used (`Sharp`, `Tried`)."
 },
 "C97": {
  "note": "`C97_grid` replaces the condition on the circle tests by a bound on the size of the coordinates and the fineness of the grid they lie on. Hypotheses otherwise as in C92."
 },
 "C98": {
  "note": "The order in which the hash set of edges is emptied is a function of the remaining steps in the model; it is shifted along with the bound."
 },
 "C99": {
  "note": "A run that does not return either goes on forever or panics; the theorems say that no number of steps gives a mesh. `C99_narrow` assumes that the initial triangulation closes (C92 gives this) and that comparing the radius with 1.415 times a root is at least as strict as comparing squares; `C99_inside` needs no assumption on the circle tests."
 },
 "C100": {
  "note": "Needs what C88 and C89 need: circle tests that are not refused (`Sharp`, `Steady`), an initial triangulation without open edges (C92 gives this) and corners that are seen. `Pinned` says that a constraint is recorded at a vertex or a segment that ends there, and no other at such segments. C100_chain needs numbers that survive printing (C87)."
 },
 "C101": {
  "note": "The integration points of the code are three and not collinear, so a radial displacement without hoop strain there vanishes at all corners (zero_of_samples). The mesh part needs what C100 needs. A node on the axis itself is allowed for the displacements, but its stress divides by zero (C83), so `linear` is then not covered."
 },
 "C102": {
  "note": "Conditions on the numbers remain for the meshers: the perturbation is small compared with the polygon and leaves no four vertices on a circle (Steady, circle), determinants above 1e-100 (Sharp), divided walls with vertices at least h apart; and for the second mesher no acute corners (Blunt)."
 },
 "C103": {
  "note": "The conditions of C102 on the numbers remain for the mesher. For `linear` the graph of the reduced matrix must be connected, since the renumbering refuses other graphs (C29), and the arithmetic is exact."
 },
 "C104": {
  "note": "Code disagrees with the expectation that every held structure in one piece can be solved: C104_apart. Exact arithmetic. The part for modes assumes that free nodes are in elements."
 },
 "C105": {
  "note": "The convexity and the grid conditions are those of C100 (`Plot`, `Sharp`). C105_corners is the negation without the condition on the constraints."
 },
 "C106": {
  "note": "The chain is for the first mesher, under the conditions of C103 on the numbers, and for meshes whose numbers survive printing (`Survives`); C106_chew and C106_ruppert start from any mesh file that gives the assemblage of the mesh back. The examples are over the real algebraic numbers, which have roots and an exact text."
 },
 "C107": {
  "note": "Exact arithmetic. That the loop stops does not say that the value is close to an eigenvalue; what the last two vectors satisfy is C36_stopped. C107_stuck is the negation without the uniqueness."
 },
 "C108": {
  "note": "The theorems on studies speak of runs that end; C34 and C107 tell when the loops of the search do. The sizes of the entries are those of C45, without the area."
 },
 "C109": {
  "note": "Exact arithmetic, and one mode only: with more modes the later start vectors depend on the modes found, and their parts are not known beforehand. The conditions on the shifts are needed: on an eigenvalue or a vanishing minor the factorization divides by zero."
 },
 "C110": {
  "note": "Exact arithmetic. The conditions of C110_modes on the search are asked for every numbering of the unknowns, since the one chosen by the graph search depends on the order of hash map iteration. The example is a triangle with the eigenvalues 6 and 12, for which the command is shown to end."
 },
 "C111": {
  "note": "Exact arithmetic, as in C103. That the search then ends is C110, which needs conditions on the shifts that are sampled. Examples: the tent of C106 by both meshers, over the real algebraic numbers."
 },
 "C112": {
  "note": "Converse of the theorems `C76_*_bad`. Messages on the error stream are not modelled. Observation: wrong options of `linear` other than the solver are only noticed after the system has been solved, and in `mesh` a missing material only after the picture has been saved."
 },
 "C113": {
  "note": "Stronger than `C86_same`, which compares only the two numbers of two successful runs. In exact arithmetic: with floating-point numbers sums in different orders differ by rounding. The orders compared are those of the sort in `mul_dict`; other dictionaries are filled in the order of the elements."
 },
 "C114": {
  "note": "Exact arithmetic and an exact root. Load vectors combine, but lists of forces do not simply add: by C40 the last line load on a corner wins, so superposition is stated for load vectors and scaling for the lists. The tensor of C49 explains why the plane stresses scale although their formula is not the von Mises one."
 },
 "C115": {
  "note": "Line loads are per length of the side and not per area of the face: the load vector does not contain the thickness. Exact arithmetic; with an exact root."
 },
 "C116": {
  "note": "Exact arithmetic. The materials of the program are fixed by name, so this is stated for assemblages and not for files."
 }
}