{
 "claims": [
  {
   "property": "C01",
   "status": "proved",
   "theorems": [
    "Bugi.C01_zeros_ops",
    "Bugi.C01_fromFlat_ops",
    "Bugi.C01_row_col_diag",
    "Bugi.C01_indices"
   ],
   "note": "Refinement of any list of operations from zeros or flat data to shape plus entry function, panics included; rows, columns, diagonal, flat."
  },
  {
   "property": "C02",
   "status": "proved",
   "theorems": [
    "Bugi.C02_dense_in_buffer",
    "Bugi.C02_triangular_in_buffer",
    "Bugi.C02_wrapped_out_of_buffer",
    "Bugi.C02_no_wrap"
   ],
   "note": "Invariant over an inductive reachability predicate; the word-size exception has a concrete witness in a wrapping model of zeros."
  },
  {
   "property": "C03",
   "status": "proved",
   "theorems": [
    "Bugi.C03_eq_iff",
    "Bugi.C03_transpose"
   ],
   "note": "Equality test and transpose, for any pair of storage orders."
  },
  {
   "property": "C04",
   "status": "proved",
   "theorems": [
    "Bugi.C04_mul",
    "Bugi.C04_mul_const",
    "Bugi.C04_shape_panics",
    "Bugi.C04_entrywise",
    "Bugi.C04_eye",
    "Bugi.C04_rotation"
   ],
   "note": "Product of any two matrix kinds, collected dense or fixed-size; entrywise operations; all shape mismatches panic."
  },
  {
   "property": "C05",
   "status": "proved",
   "theorems": [
    "Bugi.C05_lower",
    "Bugi.C05_upper",
    "Bugi.C05_diagonal"
   ],
   "note": "Packed lower, upper and diagonal matrices after any list of writes."
  },
  {
   "property": "C06",
   "status": "proved",
   "theorems": [
    "Bugi.C06_forward",
    "Bugi.C06_backward",
    "Bugi.C06_only_if",
    "Bugi.C06_inverse"
   ],
   "note": "Both substitutions, exact condition for a result, both triangular inverses."
  },
  {
   "property": "C07",
   "status": "proved",
   "theorems": [
    "Bugi.C07_lu",
    "Bugi.C07_lu_iff",
    "Bugi.C07_det_lu",
    "Bugi.C07_inverse",
    "Bugi.C07_inverse_ok",
    "Bugi.C07_inverse_fails"
   ],
   "note": "Decomposition, exact success criterion (leading minors), determinant from it, inverse for dense and fixed-size types; negation witness for an invertible 3x3 matrix."
  },
  {
   "property": "C08",
   "status": "proved",
   "theorems": [
    "Bugi.C08_pivot",
    "Bugi.C08_error",
    "Bugi.C08_determinant",
    "Bugi.C08_succeeds",
    "Bugi.C08_not_square"
   ],
   "note": "Result is the determinant (Mathlib Matrix.det); error only for a reduced column below 1e-100; success whenever the determinant is not tiny relative to the entries (C08_succeeds); 2x2 closed form; non-square refused."
  },
  {
   "property": "C09",
   "status": "proved",
   "theorems": [
    "Bugi.C09_sound",
    "Bugi.C09_failures",
    "Bugi.C09_succeeds",
    "Bugi.C09_invertible_fails",
    "Bugi.C09_spd_fails"
   ],
   "note": "Soundness, uniqueness, all failure modes, success on symmetric positive definite matrices without positive off-diagonal entries; negations with witnesses for invertible and for symmetric positive definite matrices."
  },
  {
   "property": "C10",
   "status": "proved",
   "theorems": [
    "Bugi.C10_rows",
    "Bugi.C10_labelled",
    "Bugi.C10_flat",
    "Bugi.C10_dictionary",
    "Bugi.C10_mul",
    "Bugi.C10_zeros_panics"
   ],
   "note": "Rows, reads, three constructors, specialised product. Code disagrees on zeros(): C10_zeros_panics proves that every read panics."
  },
  {
   "property": "C11",
   "status": "proved",
   "theorems": [
    "Bugi.C11_fromEnvelope",
    "Bugi.C11_cells",
    "Bugi.C11_refused"
   ],
   "note": "Construction, cells inside the buffer and distinct, refused envelopes."
  },
  {
   "property": "C12",
   "status": "proved",
   "theorems": [
    "Bugi.C12_solve",
    "Bugi.C12_submatrix",
    "Bugi.C12_buffer",
    "Bugi.C12_buffer_matters"
   ],
   "note": "Full and sub-range solve from a zero buffer; C12_buffer says what an arbitrary buffer gives. Code disagrees on independence of the buffer: C12_buffer_matters."
  },
  {
   "property": "C13",
   "status": "proved",
   "theorems": [
    "Bugi.C13_transposed",
    "Bugi.C13_lengths"
   ],
   "note": "Transposed solve for any buffer; wrong lengths refused."
  },
  {
   "property": "C14",
   "status": "proved",
   "theorems": [
    "Bugi.C14_cholesky",
    "Bugi.C14_cholesky_real",
    "Bugi.C14_empty"
   ],
   "note": "Over any ordered field with a root function, and over the reals; the empty matrix is refused (C14_empty)."
  },
  {
   "property": "C15",
   "status": "proved",
   "theorems": [
    "Bugi.C15_ldl",
    "Bugi.C15_succeeds"
   ],
   "note": "Soundness with leading minors as pivot products; success for nonzero proper leading minors."
  },
  {
   "property": "C16",
   "status": "proved",
   "theorems": [
    "Bugi.C16_ll",
    "Bugi.C16_ldl",
    "Bugi.C16_factor_solve"
   ],
   "note": "Both factored solves, and factor-then-solve."
  },
  {
   "property": "C17",
   "status": "proved",
   "theorems": [
    "Bugi.C17_from_dictionary",
    "Bugi.C17_mulVec",
    "Bugi.C17_empty_row"
   ],
   "note": "Conversion and product; a row without entries panics (C17_empty_row)."
  },
  {
   "property": "C18",
   "status": "proved",
   "theorems": [
    "Bugi.C18_shift",
    "Bugi.C18_refused"
   ],
   "note": "Entries of K + s M; the refused cases are characterised."
  },
  {
   "property": "C19",
   "status": "proved",
   "theorems": [
    "Bugi.C19_zero",
    "Bugi.C19_accumulate",
    "Bugi.C19_product",
    "Bugi.C19_mask",
    "Bugi.C19_permute",
    "Bugi.C19_transposed",
    "Bugi.C19_transposed_shape"
   ],
   "note": "Reads, accumulation, product, mask, renumbering, square transpose. Code disagrees on non-square transpose: C19_transposed_shape."
  },
  {
   "property": "C20",
   "status": "proved",
   "theorems": [
    "Bugi.C20_envelope",
    "Bugi.C20_bounds"
   ],
   "note": "Covering and minimality of envelope and row bounds."
  },
  {
   "property": "C21",
   "status": "proved",
   "theorems": [
    "Bugi.C21_dense",
    "Bugi.C21_compressed",
    "Bugi.C21_two_sided",
    "Bugi.C21_lower",
    "Bugi.C21_lower_refused"
   ],
   "note": "All four conversions; lower-envelope conversion panics exactly without an entry in the lower part of a row."
  },
  {
   "property": "C22",
   "status": "proved",
   "theorems": [
    "Bugi.C22_accept",
    "Bugi.C22_placement",
    "Bugi.C22_bijection",
    "Bugi.C22_invert",
    "Bugi.C22_slice"
   ],
   "note": "Acceptance criterion, mutual inverses, slices."
  },
  {
   "property": "C23",
   "status": "proved",
   "theorems": [
    "Bugi.Graph.C23_adjacency",
    "Bugi.Graph.C23_refused",
    "Bugi.Graph.C23_vertexCount",
    "Bugi.Graph.C23_lost",
    "Bugi.Graph.C23_fromLol"
   ],
   "note": "Adjacency, sorted lists. Code disagrees on the vertex count: C23_vertexCount gives the exact condition, C23_lost a witness."
  },
  {
   "property": "C24",
   "status": "proved",
   "theorems": [
    "Bugi.Graph.C24_farNode",
    "Bugi.Graph.C24_refused",
    "Bugi.Graph.C24_masked"
   ],
   "note": "Distance is the least walk length (own definition); masked neighbours."
  },
  {
   "property": "C25",
   "status": "proved",
   "theorems": [
    "Bugi.Graph.C25_terminates",
    "Bugi.Graph.C25_empty",
    "Bugi.Graph.C25_improvable"
   ],
   "note": "Termination, and what the returned vertex satisfies. Code disagrees on the returned vertex not being improvable: C25_improvable."
  },
  {
   "property": "C26",
   "status": "proved",
   "theorems": [
    "Bugi.Graph.C26_permutation",
    "Bugi.Graph.C26_panics",
    "Bugi.Graph.C26_fromEdges"
   ],
   "note": "Permutation on connected graphs; panic on all others."
  },
  {
   "property": "C27",
   "status": "proved",
   "theorems": [
    "Bugi.C27_accumulate",
    "Bugi.C27_order",
    "Bugi.C27_refused",
    "Bugi.C27_from_kr",
    "Bugi.C27_from_km",
    "Bugi.C27_items",
    "Bugi.C27_shapes"
   ],
   "note": "Sums of the additions in any order; building from matrices; refused shapes."
  },
  {
   "property": "C28",
   "status": "proved",
   "theorems": [
    "Bugi.C28_reduce",
    "Bugi.C28_undone",
    "Bugi.C28_refused",
    "Bugi.C28_disconnected"
   ],
   "note": "One permutation for stiffness, mass and load, undone by the recorded one; panics characterised."
  },
  {
   "property": "C29",
   "status": "proved",
   "theorems": [
    "Bugi.C29_solves",
    "Bugi.C29_pattern",
    "Bugi.C29_real",
    "Bugi.C29_panics",
    "Bugi.C29_identity_panics"
   ],
   "note": "Solution in the caller's numbering for connected systems. Code disagrees for all other positive definite systems: C29_panics, C29_identity_panics."
  },
  {
   "property": "C30",
   "status": "proved",
   "theorems": [
    "Bugi.C30_sound",
    "Bugi.C30_failures",
    "Bugi.C30_succeeds",
    "Bugi.C30_spd_fails",
    "Bugi.C30_permutation_dropped"
   ],
   "note": "Sound, failure mode, success class. Code disagrees on definite systems in general (C30_spd_fails) and after reduce_envelope (C30_permutation_dropped)."
  },
  {
   "property": "C31",
   "status": "proved",
   "theorems": [
    "Bugi.C31_residual",
    "Bugi.C31_fixed",
    "Bugi.C31_spec",
    "Bugi.C31_returned",
    "Bugi.C31_zero_load",
    "Bugi.C31_zero_diagonal",
    "Bugi.C31_solver"
   ],
   "note": "Full specification of the iteration, residual identity, fixed points. Code disagrees on zero load: C31_zero_load."
  },
  {
   "property": "C32",
   "status": "proved",
   "theorems": [
    "Bugi.C32_agree"
   ],
   "note": "Uniqueness for symmetric positive definite systems."
  },
  {
   "property": "C33",
   "status": "proved",
   "theorems": [
    "Bugi.C33_count",
    "Bugi.C33_returns",
    "Bugi.C33_system",
    "Bugi.C33_modes"
   ],
   "note": "Counts negative pivots against any complete set of modes with multiplicity; such sets exist over the reals (C33_modes)."
  },
  {
   "property": "C34",
   "status": "proved",
   "theorems": [
    "Bugi.C34_isolates",
    "Bugi.C34_ends_iff",
    "Bugi.C34_repeated"
   ],
   "note": "Isolation for any counting function; ends exactly for distinct eigenvalues. Code disagrees on termination with repeated eigenvalues: C34_repeated."
  },
  {
   "property": "C35",
   "status": "proved",
   "theorems": [
    "Bugi.C35_search",
    "Bugi.C35_find",
    "Bugi.C35_ends"
   ],
   "note": "Exactly n pairs, from consecutive isolating ranges starting at the lowest; success with distinct eigenvalues."
  },
  {
   "property": "C36",
   "status": "proved",
   "theorems": [
    "Bugi.C36_gram_schmidt",
    "Bugi.C36_quotient",
    "Bugi.C36_rayleigh",
    "Bugi.C36_iterate",
    "Bugi.C36_stopped",
    "Bugi.C36_found"
   ],
   "note": "Gram-Schmidt, unit mass norm, Rayleigh quotient, for single steps and for the whole search."
  },
  {
   "property": "C37",
   "status": "proved",
   "theorems": [
    "Bugi.C37_satisfied",
    "Bugi.C37_total"
   ],
   "note": "All reduced vectors; the transformation is total."
  },
  {
   "property": "C38",
   "status": "proved",
   "theorems": [
    "Bugi.C38_transform",
    "Bugi.C38_virtual_work",
    "Bugi.C38_definite"
   ],
   "note": "Transformation as a matrix with orthonormal columns; virtual work equivalence; symmetry, energy, definiteness."
  },
  {
   "property": "C39",
   "status": "proved",
   "theorems": [
    "Bugi.C39_merge_iff",
    "Bugi.C39_releases",
    "Bugi.C39_order",
    "Bugi.C39_sequence",
    "Bugi.C39_add"
   ],
   "note": "Exact list of merge pairs that restrict (C39_merge_iff). Code disagrees for the others: C39_releases, C39_order."
  },
  {
   "property": "C40",
   "status": "proved",
   "theorems": [
    "Bugi.C40_last_wins",
    "Bugi.C40_superpose",
    "Bugi.C40_concentrated",
    "Bugi.C40_not_superposed"
   ],
   "note": "Exact outcome (last assignment wins), superposition when no degree of freedom is assigned twice. Code disagrees in general: C40_not_superposed."
  },
  {
   "property": "C41",
   "status": "proved",
   "theorems": [
    "Bugi.C41_edge_force",
    "Bugi.C41_not_edge"
   ],
   "note": "Edge loads for the three edges; other pairs give nothing."
  },
  {
   "property": "C42",
   "status": "proved",
   "theorems": [
    "Bugi.C42_stiffness",
    "Bugi.C42_clockwise"
   ],
   "note": "All conditions with admissible materials; sign reversed for clockwise triangles."
  },
  {
   "property": "C43",
   "status": "proved",
   "theorems": [
    "Bugi.C43_rigid",
    "Bugi.C43_axial",
    "Bugi.C43_only_rigid"
   ],
   "note": "Rigid motions and axial translation; converse in plane conditions."
  },
  {
   "property": "C44",
   "status": "proved",
   "theorems": [
    "Bugi.C44_affine",
    "Bugi.C44_stresses"
   ],
   "note": "Interpolation and strain of affine fields; corner stresses."
  },
  {
   "property": "C45",
   "status": "proved",
   "theorems": [
    "Bugi.C45_entries",
    "Bugi.C45_mass",
    "Bugi.C45_area_missing"
   ],
   "note": "Entries, symmetry, semidefiniteness. Code disagrees on the total mass: C45_area_missing."
  },
  {
   "property": "C46",
   "status": "proved",
   "theorems": [
    "Bugi.C46_ratio",
    "Bugi.C46_accepts_all",
    "Bugi.C46_collinear",
    "Bugi.C46_missing"
   ],
   "note": "Code disagrees: the checked ratio is always one (C46_ratio, C46_accepts_all); collinear elements have no stiffness (C46_collinear)."
  },
  {
   "property": "C47",
   "status": "proved",
   "theorems": [
    "Bugi.C47_triangle_moments",
    "Bugi.C47_triangle",
    "Bugi.C47_triangle_matrix",
    "Bugi.C47_degree_three",
    "Bugi.C47_segment_affine",
    "Bugi.C47_segment_three",
    "Bugi.C47_segment_orders",
    "Bugi.C47_segment"
   ],
   "note": "Both rules against real integrals and against moments in any field; the degree and the three-point rule are delimited by C47_degree_three and C47_segment_three."
  },
  {
   "property": "C48",
   "status": "proved",
   "theorems": [
    "Bugi.C48_assembly",
    "Bugi.C48_stiffness",
    "Bugi.C48_mass",
    "Bugi.C48_refused"
   ],
   "note": "Sum of element matrices, symmetry, energy, semidefiniteness."
  },
  {
   "property": "C49",
   "status": "proved",
   "theorems": [
    "Bugi.C49_mises",
    "Bugi.C49_mises_plane",
    "Bugi.C49_mises_bar",
    "Bugi.C49_cauchy",
    "Bugi.C49_cauchy_symmetric",
    "Bugi.C49_cauchy_axisymmetric",
    "Bugi.C49_from_vector"
   ],
   "note": "Spatial and axisymmetric von Mises. Code disagrees for plane states (C49_mises_plane gives the exact condition), bars, and the lower triangle of the Cauchy matrix."
  },
  {
   "property": "C50",
   "status": "proved",
   "theorems": [
    "Bugi.C50_mean",
    "Bugi.C50_stress",
    "Bugi.C50_kinds",
    "Bugi.C50_nodes"
   ],
   "note": "Mean in any vector space over the scalars; for stress states; at the nodes of an assemblage."
  },
  {
   "property": "C51",
   "status": "proved",
   "theorems": [
    "Bugi.C51_consistent",
    "Bugi.C51_sound",
    "Bugi.C51_system",
    "Bugi.C51_equilibrium",
    "Bugi.C51_dense",
    "Bugi.C51_definite",
    "Bugi.C51_cholesky"
   ],
   "note": "For every assemblage reachable by the public operations, any sound solver; instances for the dense and the Cholesky solver."
  },
  {
   "property": "C52",
   "status": "proved",
   "theorems": [
    "Bugi.Ids.C52_unique",
    "Bugi.Ids.C52_eq",
    "Bugi.Ids.C52_single",
    "Bugi.Ids.C52_wraps"
   ],
   "note": "All interleavings of atomic steps; the bound 2^32 is sharp (C52_wraps)."
  },
  {
   "property": "C53",
   "status": "proved",
   "theorems": [
    "Bugi.Mesh.C53_walls",
    "Bugi.Mesh.C53_base",
    "Bugi.Mesh.C53_empty",
    "Bugi.Mesh.C53_segment"
   ],
   "note": "All operation sequences, for current and original walls."
  },
  {
   "property": "C54",
   "status": "proved",
   "theorems": [
    "Bugi.Mesh.C54_outcome",
    "Bugi.Mesh.C54_pieces"
   ],
   "note": "Exact success condition and the pieces."
  },
  {
   "property": "C55",
   "status": "proved",
   "theorems": [
    "Bugi.Mesh.C55_divide",
    "Bugi.Mesh.C55_split",
    "Bugi.Mesh.C55_applied",
    "Bugi.Mesh.C55_load",
    "Bugi.Mesh.C55_constraint",
    "Bugi.Mesh.C55_lost",
    "Bugi.Mesh.C55_corner"
   ],
   "note": "Loads and constraints through any operations. Code disagrees: the last piece of a division is not recorded (C55_lost), and corners depend on map order (C55_corner)."
  },
  {
   "property": "C56",
   "status": "proved",
   "theorems": [
    "Bugi.Mesh.C56_index",
    "Bugi.Mesh.C56_refused",
    "Bugi.Mesh.C56_one"
   ],
   "note": "Any additions and deletions; exact refusals."
  },
  {
   "property": "C57",
   "status": "proved",
   "theorems": [
    "Bugi.Mesh.C57_insert"
   ],
   "note": "For arbitrary answers of the geometric tests."
  },
  {
   "property": "C58",
   "status": "proved",
   "theorems": [
    "Bugi.Mesh.C58_fills",
    "Bugi.Mesh.C58_terminates",
    "Bugi.Mesh.C58_dropped",
    "Bugi.Mesh.C58_stale",
    "Bugi.Mesh.C58_outside"
   ],
   "note": "Area and rim for arbitrary geometric tests, termination. Code disagrees on completeness (C58_dropped), repeated runs (C58_stale) and holes (C58_outside)."
  },
  {
   "property": "C59",
   "status": "proved",
   "theorems": [
    "Bugi.Mesh.C59_chew",
    "Bugi.Mesh.C59_ruppert",
    "Bugi.Mesh.C59_chew_domain",
    "Bugi.Mesh.C59_ruppert_domain"
   ],
   "note": "Exit condition of both meshers, and the domain is kept. Termination of the refinement is not claimed."
  },
  {
   "property": "C60",
   "status": "proved",
   "theorems": [
    "Bugi.Mesh.C60_assemble",
    "Bugi.Mesh.C60_no_material",
    "Bugi.Mesh.C60_no_condition",
    "Bugi.Mesh.C60_chew",
    "Bugi.Mesh.C60_ruppert",
    "Bugi.Mesh.C60_chew_load",
    "Bugi.Mesh.C60_ruppert_load"
   ],
   "note": "Assemblage stands for the mesh, after either mesher. Code disagrees on a missing condition: panic (C60_no_condition)."
  },
  {
   "property": "C61",
   "status": "proved",
   "theorems": [
    "Bugi.C61_circle",
    "Bugi.C61_threshold",
    "Bugi.C61_grid",
    "Bugi.C61_centre"
   ],
   "note": "True only inside; true for all inside points unless a pivot is below 1e-100 (C61_threshold shows the exception, C61_grid excludes it for points of a grid)."
  },
  {
   "property": "C62",
   "status": "proved",
   "theorems": [
    "Bugi.C62_centre"
   ],
   "note": "Equidistance and exact absence."
  },
  {
   "property": "C63",
   "status": "proved",
   "theorems": [
    "Bugi.C63_coordinates",
    "Bugi.C63_inside",
    "Bugi.C63_flat"
   ],
   "note": "Coordinates, uniqueness, test, degenerate triangles."
  },
  {
   "property": "C64",
   "status": "proved",
   "theorems": [
    "Bugi.C64_orientation",
    "Bugi.C64_surface",
    "Bugi.C64_wrong"
   ],
   "note": "Code disagrees: C64_surface says what the test decides, C64_wrong has witnesses in both directions."
  },
  {
   "property": "C65",
   "status": "proved",
   "theorems": [
    "Bugi.Visual.C65_swap",
    "Bugi.Visual.C65_line"
   ],
   "note": "All integer end points."
  },
  {
   "property": "C66",
   "status": "proved",
   "theorems": [
    "Bugi.Visual.C66_kept",
    "Bugi.Visual.C66_all",
    "Bugi.Visual.C66_nonneg",
    "Bugi.Visual.C66_wrong"
   ],
   "note": "Exact set of kept pixels. Code disagrees on the first row and column: C66_wrong."
  },
  {
   "property": "C67",
   "status": "proved",
   "theorems": [
    "Bugi.Visual.C67_fill",
    "Bugi.Visual.C67_values",
    "Bugi.Visual.C67_flat"
   ],
   "note": "Exact pixel set with values; nothing for flat triangles."
  },
  {
   "property": "C68",
   "status": "proved",
   "theorems": [
    "Bugi.Visual.C68_round",
    "Bugi.Visual.C68_hot",
    "Bugi.Visual.C68_hot_mono",
    "Bugi.Visual.C68_hot_clamp",
    "Bugi.Visual.C68_rgb",
    "Bugi.Visual.C68_rgb_outside",
    "Bugi.Visual.C68_rgb_wrong",
    "Bugi.Visual.C68_normalise",
    "Bugi.Visual.C68_ends",
    "Bugi.Visual.C68_refused"
   ],
   "note": "Both maps and normalisation. Code disagrees on clamping by the rainbow map: C68_rgb_wrong."
  },
  {
   "property": "C69",
   "status": "proved",
   "theorems": [
    "Bugi.Visual.C69_flat_projection",
    "Bugi.Visual.C69_space_projection",
    "Bugi.Visual.C69_pixels",
    "Bugi.Visual.C69_coincide",
    "Bugi.Visual.C69_space_wrong",
    "Bugi.Visual.C69_added",
    "Bugi.Visual.C69_dot",
    "Bugi.Visual.C69_draw"
   ],
   "note": "Projection, pixel bounds, complete drawing. Code disagrees for points on one line of sight in space: C69_space_wrong."
  },
  {
   "property": "C70",
   "status": "proved",
   "theorems": [
    "Bugi.MeshFile.C70_round_trip",
    "Bugi.MeshFile.C70_order",
    "Bugi.MeshFile.C70_trailing",
    "Bugi.MeshFile.C70_comment",
    "Bugi.MeshFile.C70_bad_constraint",
    "Bugi.MeshFile.C70_other_dimensions"
   ],
   "note": "Round trip for any text laws of numbers, instance with exact decimals; orders, comments, trailing text; limits for other dimensions and bad names."
  },
  {
   "property": "C71",
   "status": "proved",
   "theorems": [
    "Bugi.MeshFile.C71_indexed",
    "Bugi.MeshFile.C71_free",
    "Bugi.MeshFile.C71_section"
   ],
   "note": "Exact acceptance of indexed lists, free lists and sections."
  },
  {
   "property": "C72",
   "status": "proved",
   "theorems": [
    "Bugi.BoundFile.C72_grammar",
    "Bugi.BoundFile.C72_newline",
    "Bugi.BoundFile.C72_trailing",
    "Bugi.BoundFile.C72_carriage_return",
    "Bugi.BoundFile.C72_material",
    "Bugi.BoundFile.C72_constraint"
   ],
   "note": "Exact grammar. Code disagrees: trailing newline rejected (C72_newline, C72_trailing), unknown names panic (C72_material, C72_constraint)."
  },
  {
   "property": "C73",
   "status": "proved",
   "theorems": [
    "Bugi.BoundFile.C73_resolved",
    "Bugi.BoundFile.C73_kept",
    "Bugi.BoundFile.C73_undefined",
    "Bugi.BoundFile.C73_prepared",
    "Bugi.BoundFile.C73_twice",
    "Bugi.BoundFile.C73_no_side"
   ],
   "note": "Resolution of labels, errors exactly for undefined ones; limits: repeated labels (C73_twice) and pairs that are no sides (C73_no_side)."
  },
  {
   "property": "C74",
   "status": "proved",
   "theorems": [
    "Bugi.Files.C74_mesh",
    "Bugi.Files.C74_bound",
    "Bugi.Files.C74_only",
    "Bugi.Files.C74_save"
   ],
   "note": "Each report exactly in its case, for mesh and boundary files; saving."
  },
  {
   "property": "C75",
   "status": "proved",
   "theorems": [
    "Bugi.MeshFile.C75_constraint",
    "Bugi.MeshFile.C75_free_wrong",
    "Bugi.MeshFile.C75_constraint_names",
    "Bugi.MeshFile.C75_material",
    "Bugi.MeshFile.C75_material_names",
    "Bugi.MeshFile.C75_constraint_distinct"
   ],
   "note": "Constraints and materials. Code disagrees for the free constraint: C75_free_wrong."
  },
  {
   "property": "C76",
   "status": "proved",
   "theorems": [
    "Bugi.Cli.C76_solver",
    "Bugi.Cli.C76_value",
    "Bugi.Cli.C76_mesher",
    "Bugi.Cli.C76_uint",
    "Bugi.Cli.C76_bool",
    "Bugi.Cli.C76_color",
    "Bugi.Cli.C76_linear",
    "Bugi.Cli.C76_linear_bad",
    "Bugi.Cli.C76_linear_default",
    "Bugi.Cli.C76_mesh",
    "Bugi.Cli.C76_mesh_bad",
    "Bugi.Cli.C76_mesh_default",
    "Bugi.Cli.C76_mesh_no_material",
    "Bugi.Cli.C76_modal",
    "Bugi.Cli.C76_names",
    "Bugi.Cli.C76_modal_bad",
    "Bugi.Cli.C76_modal_unchecked"
   ],
   "note": "Names, defaults, argument errors, and what each command does. Limits: C76_mesh_no_material, C76_modal_unchecked."
  },
  {
   "property": "C77",
   "status": "proved",
   "theorems": [
    "Bugi.C77_system",
    "Bugi.C77_modes",
    "Bugi.C77_real"
   ],
   "note": "For every reachable assemblage with positive mass on admissible displacements."
  },
  {
   "property": "C78",
   "status": "proved",
   "theorems": [
    "Bugi.C78_edges",
    "Bugi.C78_triangles",
    "Bugi.C78_displaced",
    "Bugi.C78_norms"
   ],
   "note": "Edges, triangles, displaced nodes, norms."
  },
  {
   "property": "C79",
   "status": "proved",
   "theorems": [
    "Bugi.C79_plane_stress",
    "Bugi.C79_plane_strain",
    "Bugi.C79_axisymmetric",
    "Bugi.C79_refused"
   ],
   "note": "Holds in all three conditions; the refused ratios are characterised."
  },
  {
   "property": "C80",
   "status": "proved",
   "theorems": [
    "Bugi.C80_plane",
    "Bugi.C80_axisymmetric"
   ],
   "note": "Plane conditions in full; in the axisymmetric condition for fields of constant stress, with the centroid rule of the integration."
  },
  {
   "property": "C81",
   "status": "proved",
   "theorems": [
    "Bugi.C81_patch",
    "Bugi.C81_balance"
   ],
   "note": "For every consistent plane assemblage without degenerate elements."
  },
  {
   "property": "C82",
   "status": "proved",
   "theorems": [
    "Bugi.C82_iff",
    "Bugi.C82_linear",
    "Bugi.C82_cholesky"
   ],
   "note": "Equivalence for all assemblages; strict for the Cholesky solver."
  },
  {
   "property": "C83",
   "status": "proved",
   "theorems": [
    "Bugi.C83_plane",
    "Bugi.C83_axisymmetric",
    "Bugi.C83_axis",
    "Bugi.C83_mises"
   ],
   "note": "A node on the axis of rotation stops the recovery by a division by zero (C83_axis)."
  },
  {
   "property": "C84",
   "status": "proved",
   "theorems": [
    "Bugi.C84_rigid",
    "Bugi.C84_hinge",
    "Bugi.C84_definite",
    "Bugi.C84_unique"
   ],
   "note": "Positive definite on admissible displacements exactly if held."
  },
  {
   "property": "C85",
   "status": "proved",
   "theorems": [
    "Bugi.Visual.C85_picture",
    "Bugi.Mesh.C85_mesh",
    "Bugi.Mesh.C85_mesh_picture",
    "Bugi.Mesh.C85_meshers",
    "Bugi.C85_deformed"
   ],
   "note": "Flat points for meshes and assemblages; sizes below 16 panic (see C69)."
  },
  {
   "property": "C86",
   "status": "proved",
   "theorems": [
    "Bugi.C86_read",
    "Bugi.Cli.C86_linear",
    "Bugi.Cli.C86_held",
    "Bugi.Cli.C86_same"
   ],
   "note": "Physical: flat nodes, counterclockwise elements (not checked by the reader), nonnegative thickness or radius. C86_held and C86_same for plane structures in one piece; the Cholesky solver needs an exact square root."
  },
  {
   "property": "C87",
   "status": "proved",
   "theorems": [
    "Bugi.C87_rounding",
    "Bugi.C87_tiny",
    "Bugi.Cli.C87_mesh",
    "Bugi.Cli.C87_chain"
   ],
   "note": "For polygons with at least three vertices, the assumptions on spacemath of C53 to C60 and on printed numbers of C70. C87_tiny is the witness of the collapse."
  },
  {
   "property": "C88",
   "status": "proved",
   "theorems": [
    "Bugi.Mesh.C88_wrap",
    "Bugi.Mesh.C88_visible"
   ],
   "note": "Domains without a wall behind which there are vertices; orientation tests exact, perturbation small enough to change only ties, no refused determinant (C61). Domains with holes or reentrant corners are not covered."
  },
  {
   "property": "C89",
   "status": "proved",
   "theorems": [
    "Bugi.Mesh.C89_chew",
    "Bugi.Mesh.C89_ruppert"
   ],
   "note": "Same assumptions as C88, with no refused determinant among all points of the final mesh. Circumcentres may fall anywhere, also outside of the domain; then the run faults or the statement holds."
  },
  {
   "property": "C90",
   "status": "proved",
   "theorems": [
    "Bugi.MeshFile.C90_grammar",
    "Bugi.MeshFile.C90_accepts",
    "Bugi.MeshFile.C90_lines",
    "Bugi.MeshFile.C90_unique"
   ],
   "note": "`C90_accepts` is for nodes in the plane and elements with three nodes; an element with another number of nodes makes the reader panic (C70). Text after the last section is free."
  },
  {
   "property": "C91",
   "status": "proved",
   "theorems": [
    "Bugi.Mesh.C91_test",
    "Bugi.Mesh.C91_ruppert",
    "Bugi.Mesh.C91_unchecked"
   ],
   "note": "Undivided walls have all vertices in front; segments are said to meet only if they do; comparison of roots is that of their squares. C91_unchecked is a witness for the exception: the refinement splits a wall without checking its midpoint, so the invariant of Ruppert's algorithm does not hold for all vertices."
  },
  {
   "property": "C92",
   "status": "proved",
   "theorems": [
    "Bugi.Mesh.C92_completes",
    "Bugi.Mesh.C92_chew",
    "Bugi.Mesh.C92_ruppert"
   ],
   "note": "Hypotheses: exact orientation tests, no vertex behind a wall or between its ends, vertices in different places, no four perturbed vertices on a circle, perturbation changes no strict test. The visibility hypothesis `Open` follows from C88_visible."
  },
  {
   "property": "C93",
   "status": "proved",
   "theorems": [
    "Bugi.Mesh.C93_order",
    "Bugi.Mesh.C93_still"
   ],
   "note": "C93_still is the witness that without the perturbation one order cuts the square and another panics."
  },
  {
   "property": "C94",
   "status": "proved",
   "theorems": [
    "Bugi.Mesh.C94_chew",
    "Bugi.Mesh.C94_short",
    "Bugi.Mesh.C94_divides"
   ],
   "note": "Hypotheses: exact orientation tests, exact comparison of circumradii with h, general position and visibility of the divided walls as in C92, and no triangle on reachable points with a determinant pivot below 1e-100. `C94_short` proves the bound on the lengths of the divided walls which `C94_chew` needs."
  },
  {
   "property": "C95",
   "status": "proved",
   "theorems": [
    "Bugi.Mesh.C95_angles"
   ],
   "note": "The angle bound is stated without trigonometry: the squared sine, 4·area²/(product of the squared sides), is at least 1/4. Together with C94 such a mesh is always returned."
  },
  {
   "property": "C96",
   "status": "proved",
   "theorems": [
    "Bugi.Mesh.C96_centre",
    "Bugi.Mesh.C96_round",
    "Bugi.Mesh.C96_blame",
    "Bugi.Mesh.C96_panics"
   ],
   "note": "Where the claim fails is part of the property: `C96_panics` gives the rectangle, both orders, and the panic for every number of steps from 20. Hypotheses: exact orientation tests, general position and visibility as in C92, and no determinant pivot below 1e-100 on the points used (`Sharp`, `Tried`)."
  },
  {
   "property": "C97",
   "status": "proved",
   "theorems": [
    "Bugi.Mesh.C97_clears",
    "Bugi.Mesh.C97_grid"
   ],
   "note": "`C97_grid` replaces the condition on the circle tests by a bound on the size of the coordinates and the fineness of the grid they lie on. Hypotheses otherwise as in C92."
  },
  {
   "property": "C98",
   "status": "proved",
   "theorems": [
    "Bugi.Mesh.C98_chew",
    "Bugi.Mesh.C98_ruppert",
    "Bugi.Mesh.C98_eigens",
    "Bugi.Mesh.C98_modes"
   ],
   "note": "The order in which the hash set of edges is emptied is a function of the remaining steps in the model; it is shifted along with the bound."
  },
  {
   "property": "C99",
   "status": "proved",
   "theorems": [
    "Bugi.Mesh.C99_inside",
    "Bugi.Mesh.C99_corner",
    "Bugi.Mesh.C99_narrow"
   ],
   "note": "A run that does not return either goes on forever or panics; the theorems say that no number of steps gives a mesh. `C99_narrow` assumes that the initial triangulation closes (C92 gives this) and that comparing the radius with 1.415 times a root is at least as strict as comparing squares; `C99_inside` needs no assumption on the circle tests."
  },
  {
   "property": "C100",
   "status": "proved",
   "theorems": [
    "Bugi.Mesh.C100_chew",
    "Bugi.Mesh.C100_ruppert",
    "Bugi.Mesh.C100_assemblage",
    "Bugi.Mesh.C100_chew_held",
    "Bugi.Mesh.C100_ruppert_held",
    "Bugi.Mesh.C100_islands",
    "Bugi.Cli.C100_chain"
   ],
   "note": "Needs what C88 and C89 need: circle tests that are not refused (`Sharp`, `Steady`), an initial triangulation without open edges (C92 gives this) and corners that are seen. `Pinned` says that a constraint is recorded at a vertex or a segment that ends there, and no other at such segments. C100_chain needs numbers that survive printing (C87)."
  },
  {
   "property": "C101",
   "status": "proved",
   "theorems": [
    "Bugi.C101_rigid",
    "Bugi.C101_hinge",
    "Bugi.C101_definite",
    "Bugi.C101_unique",
    "Bugi.Mesh.C101_chew",
    "Bugi.Mesh.C101_ruppert",
    "Bugi.Cli.C101_linear",
    "Bugi.Mesh.C101_chew_held",
    "Bugi.Mesh.C101_ruppert_held",
    "Bugi.Cli.C101_chain"
   ],
   "note": "The integration points of the code are three and not collinear, so a radial displacement without hoop strain there vanishes at all corners (zero_of_samples). The mesh part needs what C100 needs. A node on the axis itself is allowed for the displacements, but its stress divides by zero (C83), so `linear` is then not covered."
  },
  {
   "property": "C102",
   "status": "proved",
   "theorems": [
    "Bugi.Mesh.C102_convex",
    "Bugi.Mesh.C102_stored",
    "Bugi.Mesh.C102_reads",
    "Bugi.Mesh.C102_file",
    "Bugi.Mesh.C102_chew",
    "Bugi.Mesh.C102_ruppert"
   ],
   "note": "Conditions on the numbers remain for the meshers: the perturbation is small compared with the polygon and leaves no four vertices on a circle (Steady, circle), determinants above 1e-100 (Sharp), divided walls with vertices at least h apart; and for the second mesher no acute corners (Blunt)."
  },
  {
   "property": "C103",
   "status": "proved",
   "theorems": [
    "Bugi.C103_stress",
    "Bugi.Cli.C103_outputs",
    "Bugi.Cli.C103_mesh",
    "Bugi.Cli.C103_linear"
   ],
   "note": "The conditions of C102 on the numbers remain for the mesher. For `linear` the graph of the reduced matrix must be connected, since the renumbering refuses other graphs (C29), and the arithmetic is exact."
  },
  {
   "property": "C104",
   "status": "proved",
   "theorems": [
    "Bugi.C104_connects",
    "Bugi.C104_covered",
    "Bugi.C104_solves",
    "Bugi.C104_refuses",
    "Bugi.C104_modal",
    "Bugi.Cli.C104_linear",
    "Bugi.Cli.C104_linear_refused",
    "Bugi.Cli.C104_apart"
   ],
   "note": "Code disagrees with the expectation that every held structure in one piece can be solved: C104_apart. Exact arithmetic. The part for modes assumes that free nodes are in elements."
  },
  {
   "property": "C105",
   "status": "proved",
   "theorems": [
    "Bugi.Mesh.C105_chew",
    "Bugi.Mesh.C105_ruppert",
    "Bugi.Mesh.C105_corners"
   ],
   "note": "The convexity and the grid conditions are those of C100 (`Plot`, `Sharp`). C105_corners is the negation without the condition on the constraints."
  },
  {
   "property": "C106",
   "status": "proved",
   "theorems": [
    "Bugi.Cli.C106_chew",
    "Bugi.Cli.C106_ruppert",
    "Bugi.Cli.C106_chain"
   ],
   "note": "The chain is for the first mesher, under the conditions of C103 on the numbers, and for meshes whose numbers survive printing (`Survives`); C106_chew and C106_ruppert start from any mesh file that gives the assemblage of the mesh back. The examples are over the real algebraic numbers, which have roots and an exact text."
  },
  {
   "property": "C107",
   "status": "proved",
   "theorems": [
    "Bugi.C107_ends",
    "Bugi.C107_range",
    "Bugi.C107_stuck"
   ],
   "note": "Exact arithmetic. That the loop stops does not say that the value is close to an eigenvalue; what the last two vectors satisfy is C36_stopped. C107_stuck is the negation without the uniqueness."
  },
  {
   "property": "C108",
   "status": "proved",
   "theorems": [
    "Bugi.C108_element",
    "Bugi.C108_mass",
    "Bugi.C108_definite",
    "Bugi.C108_modes",
    "Bugi.Cli.C108_modal"
   ],
   "note": "The theorems on studies speak of runs that end; C34 and C107 tell when the loops of the search do. The sizes of the entries are those of C45, without the area."
  },
  {
   "property": "C109",
   "status": "proved",
   "theorems": [
    "Bugi.C109_first"
   ],
   "note": "Exact arithmetic, and one mode only: with more modes the later start vectors depend on the modes found, and their parts are not known beforehand. The conditions on the shifts are needed: on an eigenvalue or a vanishing minor the factorization divides by zero."
  },
  {
   "property": "C110",
   "status": "proved",
   "theorems": [
    "Bugi.C110_accepts",
    "Bugi.C110_starts",
    "Bugi.C110_modes",
    "Bugi.Cli.C110_modal"
   ],
   "note": "Exact arithmetic. The conditions of C110_modes on the search are asked for every numbering of the unknowns, since the one chosen by the graph search depends on the order of hash map iteration. The example is a triangle with the eigenvalues 6 and 12, for which the command is shown to end."
  },
  {
   "property": "C111",
   "status": "proved",
   "theorems": [
    "Bugi.Cli.C111_file",
    "Bugi.Cli.C111_chew",
    "Bugi.Cli.C111_ruppert",
    "Bugi.Cli.C111_chain"
   ],
   "note": "Exact arithmetic, as in C103. That the search then ends is C110, which needs conditions on the shifts that are sampled. Examples: the tent of C106 by both meshers, over the real algebraic numbers."
  },
  {
   "property": "C112",
   "status": "proved",
   "theorems": [
    "Bugi.Mesh.C112_assemble",
    "Bugi.Cli.C112_linear",
    "Bugi.Cli.C112_mesh",
    "Bugi.Cli.C112_modal"
   ],
   "note": "Converse of the theorems `C76_*_bad`. Messages on the error stream are not modelled. Observation: wrong options of `linear` other than the solver are only noticed after the system has been solved, and in `mesh` a missing material only after the picture has been saved."
  },
  {
   "property": "C113",
   "status": "proved",
   "theorems": [
    "Bugi.C113_dense",
    "Bugi.C113_seidel",
    "Bugi.C113_cholesky",
    "Bugi.C113_system",
    "Bugi.C113_displacements",
    "Bugi.Cli.C113_linear",
    "Bugi.Cli.C113_solvers"
   ],
   "note": "Stronger than `C86_same`, which compares only the two numbers of two successful runs. In exact arithmetic: with floating-point numbers sums in different orders differ by rounding. The orders compared are those of the sort in `mul_dict`; other dictionaries are filled in the order of the elements."
  },
  {
   "property": "C114",
   "status": "proved",
   "theorems": [
    "Bugi.C114_stress",
    "Bugi.C114_load",
    "Bugi.C114_equilibria",
    "Bugi.C114_response",
    "Bugi.Cli.C114_linear"
   ],
   "note": "Exact arithmetic and an exact root. Load vectors combine, but lists of forces do not simply add: by C40 the last line load on a corner wins, so superposition is stated for load vectors and scaling for the lists. The tensor of C49 explains why the plane stresses scale although their formula is not the von Mises one."
  },
  {
   "property": "C115",
   "status": "proved",
   "theorems": [
    "Bugi.C115_unchanged",
    "Bugi.C115_matrices",
    "Bugi.Cli.C115_linear"
   ],
   "note": "Line loads are per length of the side and not per area of the face: the load vector does not contain the thickness. Exact arithmetic; with an exact root."
  },
  {
   "property": "C116",
   "status": "proved",
   "theorems": [
    "Bugi.C116_matrices",
    "Bugi.C116_stress",
    "Bugi.C116_response"
   ],
   "note": "Exact arithmetic. The materials of the program are fixed by name, so this is stated for assemblages and not for files."
  }
 ]
}