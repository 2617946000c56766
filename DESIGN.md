# Design

Subject: the Rust finite element tool in /repo (`bugi`). The code is read as text and never built or run.
Everything proved here is about the Lean model in `lean/Verif`. Nothing ties the model to the Rust code but the
line citations beside each definition and the reader's check of them.

## Layout

- `lean/Verif/Model/*.lean`: the model, function by function, each definition citing file and lines.
- `lean/Verif/Lemmas/*.lean`: helper lemmas.
- `lean/Verif/Props/*.lean`: the property theorems (names start with the property id, such as `C01_...`), the small
  specifications they are stated with, a concrete case beside each theorem, and negations with concrete witnesses
  where the code does not do what users expect.
- `MANIFEST.json` maps properties to theorem names. `seeded/LOG.jsonl` records the mutation tests.
  There `failed` lists the declarations whose own check reported an error, theorems and supporting lemmas alike. `not_rebuilt`
  lists theorems of the properties concerned that were not checked because their module, or one it imports, did not
  build. They no longer build from the edited model, but this alone does not show that their statements became false;
  for more than half of the edits the errors are in supporting lemmas only.

## Modelling conventions

- **Scalars.** Where only copying and comparing positions matters (storage, permutations, graphs, masks) the scalar type
  is arbitrary, so the result also holds for `f64` bit patterns. Where arithmetic matters, `f64` is replaced by an exact
  field (`[Field K]`, ordered where comparisons occur) or by the real numbers (square roots, sine, cosine, floor).
  Rounding, overflow to infinity, NaN and signed zero are not modelled, except where a NaN decides control flow and the
  model says so explicitly.
- **Division by zero.** Lean's `x / 0 = 0` is never relied upon: either the model returns an explicit fault, or the
  theorem has the nonzero hypothesis, or the theorem proves that the divisor is nonzero.
- **Panics** (`panic!`, `unwrap`, `expect`, `assert!`, index out of range, `usize` underflow in a debug build) are explicit error values.
- **`usize`** is `Nat`, except where wrap-around is the subject (C02, C52).
- **Mutation** returns the new value. **Loops** are folds or structural recursion; `while` loops take fuel, and running
  out of fuel is a separate outcome from any result.
- **`HashMap`/`HashSet`** is a list with distinct keys; its order stands for the arbitrary iteration order, and theorems
  hold for every order.
- **External code** is a parameter: the crate `spacemath` (segment intersection, orientation, circumradius), number printing
  and parsing, the file system, `clap`, `image`.

## Trusted base

- Lean 4.33 kernel, and the axioms `propext`, `Classical.choice`, `Quot.sound` (no others; no `sorry`, no `native_decide`,
  no `bv_decide`, no axioms of our own).
- Mathlib's definitions used in specifications (for example `Matrix.det`, `Matrix.PosDef`, `Real.sqrt`, `Real.cos`).
- The faithfulness of the model to /repo, with the simplifications noted at each definition.

## Code modelled

Every source file of /repo/src except tests is modelled: `matrix` (buffer, mod, inverse, sparse, graph, norm, solve/*),
`element` (mod, element, constraint, strain, stress, integrate, material), `spatial` (mod, predicates), `mesher` (bounds,
plane, mod), `visual` (mod, bresenham, fill, color), `file` (mod, bmsh, bbnd) and `main`. Getters, conversions and
constructors that only copy fields are inlined into their callers.

Not modelled:

- unit tests, `Debug`/`Display` output other than that written to files, error message texts;
- `Boundary::visualize` (mesher/bounds.rs:507, used by tests only), `spatial/hull.rs` (empty file);
- time and memory, stack depth (deep recursion), the debug pictures of the tests;
- equality operators on matrices other than the dense ones.

## Code outside of /repo

- `spacemath` (orientation, circumradius, segment intersection, points): parameters of the mesher model (structure
  `Geo`). Theorems about the index, the rim, the area and the records hold for every answer of these tests. Where
  a law is needed it is a hypothesis of the theorem and named there (for example that orientation is positive only for
  triangles of positive area).
- `nom` 7.1.1: the combinators used are modelled in `Model/Parse.lean` from their documentation.
- Number printing and parsing of the standard library: structure `Text K`; laws used are hypotheses, and
  `Props/Decimal.lean` has an instance that satisfies them.
- `clap`: option values arrive as `Args := String → Option Txt`. Help, version and unknown flags are not modelled.
- `image`: an image is the list of drawn pixels with colours; drawing outside of it is a panic; saving is an action.
- `std::collections::HashMap/HashSet`: lists with distinct keys, any order. `sort_unstable`: any sorted rearrangement.
- The file system: structure `Disk`.
- Atomic operations: `fetch_add` is one step of the interleaving model (C52).

## What exact arithmetic hides

`f64` values become elements of an ordered field. Rounding, overflow, NaN, infinities and −0.0 are outside of the model,
so the theorems say what the algorithms compute, not how accurate the floating point result is. Divisions by
zero, which give infinity or NaN in the program, are faults in the model; a theorem that says "the code divides by zero"
means that the program goes on with a NaN or an infinity. Where the code compares such a value the comparison is modelled
(zero load in C31, equal values in C68, coinciding points in C69, degenerate elements in C46).

## Where the code does not do what users expect

Each of these is proved as a negation with a concrete witness, or as an exact characterisation.

- Matrices: compressed-row `zeros` cannot be read (C10); `transposed` of a dictionary keeps the shape (C19); `inverse`
  does not pivot (C07); Gaussian elimination picks the largest signed pivot and fails on invertible and even on symmetric
  positive definite matrices (C09, C30); a shape whose element count wraps gives reads outside of the buffer (C02);
  forward substitution depends on the old content of its output (C12).
- Graphs: trailing isolated vertices are lost (C23); the pseudo-peripheral vertex can still be improved (C25);
  disconnected graphs panic (C26), so the Cholesky solver panics on diagonal systems (C29).
- Solvers: the dense solver drops the renumbering (C30); Gauss–Seidel panics on a zero load (C31); the eigenvalue search does
  not end on repeated eigenvalues (C34).
- `inverse_iterate` does not end when all its Rayleigh quotients are zero, which happens for two eigenvalues at equal distance from the shift (C107).
- Elements: the merge table of constraints releases nodes and depends on the order (C39); forces overwrite each other (C40);
  the mass matrix lacks the area (C45); the shape check always passes (C46); the plane von Mises formula is wrong and the
  Cauchy matrix lacks its lower triangle (C49); the three-point rule has slightly wrong weights (C47).
- Stress recovery divides by the zero radius of nodes on the axis (C83).
- Predicates: the in-sphere test uses a wrong coordinate (C64); tiny triangles are refused by the pivot threshold (C61).
- Mesher: identifiers wrap (C52); dividing a side loses the constraint record of the last piece and corners depend on the
  map order (C55); clockwise polygons silently give no triangles, counterclockwise holes are filled, a second run keeps
  stale triangles (C58); a missing condition panics (C60); vertices made by splitting walls during refinement are not checked
  against the other walls, so that the second mesher panics on a rectangle for some orders of its hash map (C96).
- The second mesher has no treatment of sharp corners: it never returns for the right triangle with sides 3, 4 and 5, nor for any
  convex domain with an angle below 20.6 degrees (C99).
- Boundaries of several separate polygons are accepted, and their mesh is in several pieces (C100).
- If the fixed nodes separate the free ones, or only one component is free, the Cholesky solver and the mode search panic although the structure is held (C104).
- A constraint between two opposite corners is accepted, and may separate the free nodes of a convex domain (C105).
- Pictures: the first row and column are dropped (C66); the rainbow map does not clamp (C68); points in space on one line of
  sight divide by zero (C69).
- Files: the free constraint is printed but not read (C75); unknown constraints and materials panic (C70, C72); trailing
  newlines in boundary files are rejected while anything after the last section of a mesh file is ignored (C72, C70); nodes on a line
  cannot be written and the third coordinate is lost (C70); repeated labels override silently (C73);
  structures below the six written digits collapse (C87).
- Commands: `mesh` saves the picture before it finds the material missing, `modal` with no modes does not check its options (C76).

## Plan per property

- **C01 Dense matrix read-after-write.** Model `LinearMatrix` (flat list, dims, row_maj flag) with `pos/get/put/transpose`. Any scalar type. Laws by arithmetic on `pos`; sequences by induction over an operation list.
- **C02 Unchecked dense indexing stays inside the buffer.** Invariant `data.length = rows*cols` over an inductive reachability predicate; `pos = some i -> i < length`. The word-size caveat by a second, wrapping model of `zeros` and a concrete witness.
- **C03 Matrix equality and transpose are mathematical.** Equality is modelled as shape test plus zipped comparison of the `flat` iterators; proved equivalent to entrywise equality. Transpose as an involution.
- **C04 Dense products and sums compute the mathematical result.** `mul`, `add_ass`, `sub_ass`, `+`, `-`, `+= f64`, `*= f64` as in code, result compared with `Matrix` operations / explicit sums. Shape mismatch is the panic value.
- **C05 Triangular storage is injective and in range.** Packed index functions, injectivity by triangular number arithmetic.
- **C06 Triangular substitution and inversion.** Loops as folds with invariants over a field.
- **C07 LU factorisation and inverse.** `lu_decompose` as nested folds; invariant gives entries of L*U. Negation for an invertible matrix with a zero pivot.
- **C08 Determinant.** `det_lu_pivot` as fold with row swaps; invariant: accumulated factor times determinant of the remaining block equals the determinant (Mathlib `Matrix.det`). Success by a growth bound (each elimination step at most doubles the entries) and the expansion of the remaining block.
- **C09 Gaussian elimination solves the system.** Gauss-Jordan with the code's pivot choice; invariant: same solution set; SPD case: Schur complement stays positive definite. Negation for [[0,1],[-1,0]].
- **C10 Compressed-row matrices agree with their entries.** Row-start construction; lookup lemma; product compared with sums. Negation for `zeros`.
- **C11 Envelope storage agrees with its entries.** Prefix sums; pos in range, injective; get/put laws.
- **C12 Envelope forward solve.** Loop invariant; negation for nonzero initial output.
- **C13 Envelope transposed solve.** Loop invariant on partially updated right-hand side.
- **C14 Envelope Cholesky factorisation.** Over the reals with `Real.sqrt`; loop invariant plus Schur complement positivity.
- **C15 Envelope LDL factorisation.** Loop invariant; no fill outside the envelope.
- **C16 Factored solves.** Composition of C12, C13 and the diagonal solve.
- **C17 Two-sided envelope product.** Row offsets; product as sum.
- **C18 Scaled shift of an envelope matrix.** Entry lemma for both operations.
- **C19 Dictionary matrices as finite maps.** Dictionary is a finite map given as a list with distinct keys, list order is the arbitrary hash order. Negation for `transposed`.
- **C20 Row extents of a dictionary.** Minimum/maximum over the list.
- **C21 Conversions preserve entries.** Entry lemmas for each conversion.
- **C22 Permutations are bijections.** `from_placement` with its two assertions as explicit failures.
- **C23 Graph construction from edges.** Sorting and deduplicating as in the code; adjacency characterised. Negation for trailing isolated vertices.
- **C24 Breadth-first far node.** Layered breadth-first search; layer k is the set of vertices at distance k (distance = least walk length, own definition).
- **C25 Pseudo-peripheral search terminates.** Eccentricity strictly increases and is bounded.
- **C26 Bandwidth reduction yields a valid renumbering.** Queue search; all reachable vertices are placed once.
- **C27 System assembly accumulates.** Fold of additions.
- **C28 Renumbering a system is a similarity.** Renumbered entries; permutation inverse laws.
- **C29 Cholesky solver solves the original system.** Composition of C11-C16, C22-C28.
- **C30 Dense Gauss solver solves the original system.** From C09; negation after `reduce_envelope`.
- **C31 Gauss-Seidel stopping guarantee.** Sweep as fold; algebraic residual identity; explicit model of the 0/0 comparison.
- **C32 Solvers agree.** Uniqueness of the solution of an SPD system.
- **C33 Counting eigenvalues below a shift.** Inertia argument with Mathlib: dimension of negative subspaces; eigenvalues of the pencil.
- **C34 Bisection isolates eigenvalues in order.** Bisection with fuel over an abstract monotone counting function; negation for a double eigenvalue for every fuel.
- **C35 The requested number of modes is returned.** Search loop with fuel.
- **C36 Inverse iteration, orthogonalisation and Rayleigh quotient.** Bilinear form identities.
- **C37 Constrained displacements satisfy their constraints.** Over the reals with cos/sin.
- **C38 Reduced system is the constrained equilibrium.** Dictionary products compared with `Matrix` expressions, quantified over admissible virtual displacements.
- **C39 Adding constraints only restricts.** Merge table as a function; admissible set as a specification; negations for the violating pairs, `_partial` for the rest.
- **C40 Loads superpose.** Force list in arbitrary order; negations (overwriting, order dependence); `_partial` for disjoint supports.
- **C41 Consistent nodal load of an edge force.** Natural coordinate edge integral.
- **C42 Element stiffness is symmetric and positive semidefinite.** B^T C B with quadrature weights; positive semidefinite C for admissible constants.
- **C43 Rigid motions store no energy.** B applied to rigid motions.
- **C44 Linear displacement fields give their exact constant strain.** Isoparametric mapping identities.
- **C45 Element mass matrix carries the element's mass.** Sum of entries computed; negation of the area claim; `_partial` for symmetry and positivity.
- **C46 Badly shaped elements are rejected.** `jacobian_ratio` evaluated; negations.
- **C47 Quadrature exactness.** Polynomial identities.
- **C48 Global stiffness assembly.** Fold over elements.
- **C49 Stress state conversions.** Formulas; negations; `_partial`.
- **C50 Running average is the mean.** Induction over the sequence.
- **C51 Linear study satisfies equilibrium.** Composition of C29/C30 with C37/C38.
- **C52 Vertex identifiers are unique.** Schedules as lists of thread ids; counter modulo 2^32.
- **C53 Boundary walls stay closed loops.** Successor map as finite map; invariant over an operation list; iterator with fuel.
- **C54 Segment division respects the target length.** Floor arithmetic over the reals / ordered field with floor.
- **C55 Boundary data is inherited by pieces.** Finite maps; invariant over operations; negation for the last piece record.
- **C56 Triangulation index stays consistent.** State machine with add/delete; orientation test is a parameter.
- **C57 Point insertion preserves the covered region.** Boundary as a formal sum of directed edges; recursion with fuel; area is linear in the boundary.
- **C58 Initial triangulation fills the walls.** Open edge set and chain invariant; termination measure. Negation for a second run.
- **C59 Refinement stops only when the mesh is fine enough.** Loop exit condition; the list searched is exactly the triangle list.
- **C60 Mesh to assemblage.** Vertex to node map; list order arbitrary.
- **C61 In-circle test.** 4x4 determinant identity with the circumcentre; through C08. On a grid the determinant is an integer times d^4, so the bound of C08 applies.
- **C62 Circumcentre.** Field identities.
- **C63 Barycentric coordinates and point-in-triangle.** Field identities.
- **C64 Sphere test.** Negation witness; correct matrix named for comparison.
- **C65 Line rasterisation.** Integer loops with error-term invariant.
- **C66 Unsigned line rasterisation keeps visible pixels.** Negation plus characterisation.
- **C67 Triangle filling.** Pixel loop filtered by C63.
- **C68 Colour mapping.** Piecewise linear functions over an ordered field with floor for the u8 cast.
- **C69 Drawing stays inside the image.** Scaling and rounding bounds.
- **C70 Mesh file round trip.** Printer and parser over character lists; fixed-point decimals for the written precision.
- **C71 Indexed lists are checked.** Parser combinator model.
- **C72 Boundary file grammar.** Parser combinator model; negation for the trailing newline.
- **C73 Boundary labels resolve.** Two-pass fold over items.
- **C74 File errors are reported in order.** Decision logic.
- **C75 Constraint and material names round trip.** Printer/parser; decimal printing is a parameter with a round-trip law.
- **C76 Command line options select what they name.** Decision logic.
- **C77 Modal study.** Composition of C33-C38.
- **C78 Mesh edges and displaced nodes for display.** Sorted, deduplicated list; vector identities.
- **C79 Material law.** Hooke's law as relations between strains and stresses in three directions; both directions of the equivalence.
- **C80 Elastic forces of affine displacements.** The strain matrix on affine nodal values, then the one-point integration.
- **C81 Patch test and balance.** Sum of C80 over the elements; a sum over closed cycles of corners vanishes.
- **C82 Least potential energy.** Expand the energy of a variation; C51 gives equilibrium, C45 the sign of the second-order term.
- **C83 Recovery of uniform stress.** C80's constant stress at each sample, C50's mean of equal values.
- **C84 Held structures.** Zero energy gives a rigid motion of each element; elements with a common side share it.
- **C85 What a picture shows.** Painting in layers; each side of a triangle is kept in one of its two directions whatever the hash order.
- **C86 From mesh file to printed results.** The reader only uses the building operations, so its results are reachable (C51); then C51_dense and C84 give the equilibrium behind the numbers.
- **C87 From boundary file to results.** The assemblage of a mesh is writable (C60, C51); C70 gives the way back, a bound on the change of the area the orientation, and C86 the results.
- **C88 The initial triangulation is Delaunay.** Among the vertices in front of an edge the search keeps one with an empty circle (pencil of circles through an edge, Lemmas/Circle); empty circles carry over from triangle to triangle of the front.
- **C89 Refined meshes stay Delaunay.** Invariant `Fine` with an edge count that is flat along the walls. The dug cavity is bounded by edges seen from the new point (Lemmas/Walk, Lemmas/Dig); a covering count shows that no triangle is missed, the local test gives the global one.
- **C90 Which texts are mesh files.** Parsers characterised line by line (`Line`) and section by section (`Block`, Lemmas/Grammar); the assembly is characterised by invariants of its folds.
- **C91 Circles over the walls.** A negative test means outside (visibility is unobstructed in front of all undivided walls, C88); halves of a wall have their circles inside of the old one; invariant `Calm` with the set of vertices already checked.
- **C92 Convex domains are filled.** Invariant `Filling`: every wall is open or used, open edges are unused, and open edges which are not walls are the other side of an inner edge. An edge with nothing in front of it and an empty triangle behind is a wall (`hull_wall`), so every open edge has a candidate; perturbed empty circles make the triangle on an edge unique (`Proper.third`), so no edge is claimed twice.
- **C93 The triangulation does not depend on the hash order.** Triangles of one run are, by induction over its rounds, triangles of any complete run; the converse by symmetry.
- **C94 The first mesher ends in convex domains.** The centre of an empty circle of radius more than `h` is at least `h` from all vertices (`Centres`) and lies strictly inside the walls, because a triangle on a wall shorter than √3 h with such a circle has its centre on the inner side (`wall_front`, `locate`); insertion there succeeds (`insert_swept` in Lemmas/Star: the cavity is star-shaped, its rim sorted by angle). Vertices at least `h` apart in a box are bounded in number (`packing`), which bounds the rounds.
- **C95 The angles of the first mesher.** On return no triangle is large; sides at least `h` and circumradius at most `h` give sin ≥ 1/2.
- **C96 Refinement by the second mesher fails only after an unchecked split.** `Cared`: empty circles, walls cared for. An axis argument (`cap_axis`) puts centres in front of all walls if no circle over a wall holds a vertex; `Fine.round` gives success. `blame` follows the loop. The rectangle is run in the kernel.
- **C97 The second mesher clears the walls of convex domains.** A wall is split only if a vertex of another wall is in its circle; without acute corners that vertex is not on a wall that meets it, so the wall is longer than 2√m (`Clearing.long`). A split lowers the sum of the squares of the lengths by half of the square of the wall's length (`Budget`).
- **C98 Step bounds do not change results.** Induction on the bound for each loop (`Longer` in Lemmas/Fuel, Props/Steps).
- **C99 The second mesher never returns a mesh of a domain with a sharp corner.** The walls at a corner stay the given ones, halved i and j times (`Tip`, kept along all operations). If the mesher returns, C91 puts the end of each outside of the circle of the other, which squeezes 2^(i-j) strictly between neighbouring powers of two. For angles below 20.6 degrees: the triangle at the wall has its corners in front of all walls (winding numbers, `Laid`), so its angle is at most the corner's, against C59.
- **C100 Meshes of a convex domain are in one piece, and a fixed wall holds them.** The triangles joined with a given one enclose an area bounded by the walls that they contain (`class_sum`, from the balance of edges); these walls form whole loops, so with one loop they are all of them, and the triangles outside of the class enclose no area. A vertex lies in a closed triangle (`Fine.locate`) and, by the circle test and distinct positions, is a corner of it. Constraints of vertices are followed through splitting and dividing (`Pinned`); C84 and C86 then give the only equilibrium.
- **C101 Bodies of revolution.** Zero energy gives zero strain at the three integration points; the hoop strain there makes the radial displacement vanish at all corners and then the axial one is constant. The element result is spread over the structure as in C84. For the meshes, what is in front of all walls after refinement was in front of the walls before (`Kept.infront`), so it is in a triangle of the first triangulation (`Fine.locate`), whose corners are vertices of the divided boundary.
- **C102 Convex polygons.** The winding number is the sum of the steps over the closed walls; a ray crosses at most one wall upwards and one downwards if all vertices are in front of all walls, so `once` and `out` of `Convex` follow from `front` and `bare`. Vertices put on a wall keep these (`Gon.refined`). Sides of a convex polygon without a common corner do not meet, so the polygon is stored (`C102_stored`). `C102_chew` and `C102_ruppert` then put C92, C94, C95, C97 and C100 together for files.
- **C103 The commands end.** `C103_outputs` is an equivalence: after meshing, only the material, the condition and the disk decide. `C103_mesh` joins it with C102 (the polygon encloses something, so there is a triangle). `C103_linear` joins C51, C84, C83 and C85; two fixed nodes in different places give the picture an extent, and a load that does work gives the displacements a range, so that no division by zero occurs in the scaling of the picture.
- **C104 What the Cholesky solver accepts.** Stored positions are followed through assembly, the two products with the rotation, the mask and the copy (`keys_…`): zeros are stored as well, so the pattern is that of the elements. The rotation couples only the two components of one node. With C29 this gives an equivalence (`C104_solves`, `C104_refuses`), and `C104_linear` frees C103_linear of its condition on the matrix.
- **C105 Free nodes hang together.** A free node is above the line of the constraints. From each such node a neighbour further from the line is reached over its star (`corner_further`) unless it is on the summit, and the nodes of the summit are joined along the hull (`Fine.summit`). That new nodes inherit constraints only from walls on the line is the invariant `Stands`, followed through splitting, division and insertion.
- **C106 The whole chain.** C103 gives the mesh file, C87 reads it back, C100 supports the structure, C105 joins its free nodes, and C104 runs `linear`. That forces arrive in the reduced load vector is the invariant `Bears`, followed through division and splitting like `Stands`: the loaded wall has an end off the line, this node is free, and a unit displacement of it does work.
- **C107 Inverse iteration ends.** In the coordinates of the modes a round divides the coefficients by the shifted eigenvalues, so the quotient after `k` rounds is a quotient of two sums of powers (`quotient`); it approaches the shifted eigenvalue of least absolute value with a nonzero coefficient, which is not zero, and the relative test is met. The negation follows the loop through a cycle of two states.
- **C108 Kinetic energy.** The quadratic form of an element is a sum of squares at the three sample points, whose values determine a linear displacement; the sum over elements is zero only if each part is. With C104 and C77 all conditions on modal studies but the geometric ones disappear; that a held structure in one piece has positive stiffness (C84) makes the frequencies positive.
- **C109 The first mode is found.** The three rounds of `inverse_iterate_times` divide the parts of the start vector by the cubes of the eigenvalues, so the Rayleigh quotient is `startMean`. The division loop ends since each step halves at least (`start_ends`), the doubling ends at the last sample below the lowest eigenvalue (`doubling_first`), the range then holds one value, and C107 ends the iteration.
- **C110 Which structures a modal study accepts.** The keys stored by `calc_m` and `calc_k` are the same pairs (`keys_assembled`), zeros included, and transforming, masking, copying and permuting keep this; so the envelopes agree. The end of the search is C109, the pictures are C85.
- **C111 Meshes of convex domains are accepted by the search for modes.** `Ready` collects the system, the envelope and definiteness; C111_file joins C110_starts, C108_definite and C84_definite through the congruences of C77_system, C111_chew and C111_ruppert use C100 and C105, C111_chain follows C106_chain.
- **C112 What the errors of the commands say.** The error side of each step (`step_err`, `orArg_err`, …) in the order of the program; the options of the pictures do not depend on the mode, so that a wrong one is noticed at the first. `C112_assemble` goes through the loops of `assemble`: all other failures there are panics.
- **C113 The order of the hash tables does not show.** A symmetric matrix is determined by its quadratic form (`eq_of_quadratic`), so the reduced matrix and load are the same in all orders (`C113_system`); each solver is then a function of matrix and load (`C113_dense`, `C113_seidel`) and of the coupling (`C113_cholesky`), which by C104 is a matter of the structure.
- **C114 Linear response.** Equilibria form a linear family (`C114_equilibria`) and are unique for held pieces (C84), so displacements superpose; the symmetry of the stiffness (C48) gives reciprocity. Stresses are linear in the displacements (C44) and averages of linear maps (C50); both formulas of von Mises are roots of quadratic forms (C49). Writes of loads are all scaled (`C114_load`).
- **C115 Thickness.** The thickness enters the element matrices only as a factor (`element_thicker`), and neither the stresses nor the line loads (`isopar_stress`, `isopar_strain`: the isoparametric matrices differ in their thickness only). With the uniqueness of C84 and C114 the printed numbers follow.
- **C116 Modulus and density.** The material matrix is linear in the modulus (`buildC_remade`), the mass integrand in the density; assembly is linear (C48). Displacements follow from the uniqueness of C84, stresses from C44.
