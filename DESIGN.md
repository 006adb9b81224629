# Design of the formal model of capytaine

The target is the Python library capytaine at the pinned commit in /repo. The model is written in
Lean 4.33.0 with some Mathlib modules. The code is never run here: each Lean definition cites the
file and lines it was read from, and its comment says where it simplifies.

## Layout

- `lean/Verif/<Area>/Model.lean`: definitions that follow the code, with citations.
- `lean/Verif/<Area>/Lemmas.lean`: helper lemmas (only when needed).
- `lean/Verif/<Area>/Props.lean`: small separate specifications and the property theorems, each
  followed by an `example` showing that a concrete case meets its hypotheses.
- `MANIFEST.json` maps each property of `properties.jsonl` to theorem names.
- `seeded/LOG.jsonl` records experiments in which the model was broken on purpose.

Theorem names: `..._partial` means that the English property is only partly covered; the note in
the manifest and the comment above the theorem say what is missing. `..._violated` is a theorem that
the modelled code does not satisfy the property, with a concrete witness.

## Trusted base

- The kernel of Lean, and the axioms `propext`, `Classical.choice` and `Quot.sound` (at most) on
  which theorems depend. No other axiom, no `sorry`, no `native_decide`, no `bv_decide`.
- My reading of the Python and Fortran sources. The code was not executed.
- Floating point numbers are modelled by exact real, rational or field elements. No property about
  rounding is claimed, except where a theorem is explicitly about printed decimal digits.
- numpy, scipy, xarray, pandas and joblib primitives are modelled by their documented mathematical
  meaning (for instance `np.fft.fft` is the discrete Fourier transform, `np.linalg.solve` returns a
  solution of the system or raises, `groupby` partitions by key, `lexsort` returns some sorted
  permutation). Each such assumption is named in the comment of the definition using it.
- Python dictionaries are modelled by association lists in insertion order, exceptions by values.

## What is modelled, property by property

| Id | Model | Proof method |
|----|-------|--------------|
| C01 | state machine of `lru_cache_with_strict_maxsize`; calls are trees (a computation may make nested calls through the same cache, and may fail) | invariant by induction on call trees; the claim is false for reentrant use (witness), proved for flat calls, and bounded by maxsize + depth in general |
| C02 | same machine, values computed by an arbitrary function of keys with an arbitrary key equality | invariant "each entry holds the value of a key equal to its key" over all histories |
| C03 | `Mesh.__eq__` as set of sets of vertices | negation by witness (order, orientation); partial: equality implies the same set of panels as sets of vertices, and identical meshes are equal |
| C04 | state machine of `LUSolverWithCache` with factorisation as a partial function of matrix contents and object identities | negation by a two step history; partial under "no failed factorisation directly before" and no mutation |
| C05 | expression tree of `SymbolicMultiplication`, interpretation in a field with a non-zero symbol value | homomorphism by cases and induction |
| C06 | `_get_frequencies` as a decision function over real numbers | case analysis and real identities |
| C07 | dispersion function `k tanh(k h)` | intermediate value theorem and strict monotonicity |
| C08 | the encounter block of `__init__` | real identities |
| C09 | Airy potential and velocity on complex numbers | derivatives (`HasDerivAt`); negation for overtaking waves |
| C10 | `_astuple` and `__eq__` | negation by witness (wave direction), partial for radiation problems and for diffraction at equal direction |
| C11 | sequential and grouped resolution as lists; completion order an arbitrary permutation | permutation lemmas on `List.Perm` |
| C12 | `_solve_and_catch_errors` with exceptions as values | case analysis and map lemmas |
| C13 | pipeline boundary condition, linear solve, pressure, integration over a field | linearity through uniqueness of solutions |
| C14 | `RadiationResult` coefficients | field identities, uses the model of C05 |
| C15 | `_block_indices_of` of the five classes as loops | explicit characterisation of each index set |
| C16 | block products, circulant embedding, Fourier products | sums over `Fin n` / `ZMod n`, convolution theorem |
| C17 | `solve_directly` | algebra on x+ and x-, inverse Fourier transform |
| C18 | `rmatvec` of generic and circulant matrices | negation for complex vectors, partial for real ones |
| C19 | `_apply_binary_op` | negation for mixed classes, positive theorem for equal classes |
| C20 | `cut_matrix` | negation for unequal partitions, positive theorem for equal ones |
| C21 | recursive build of matrices over a tree of symmetric meshes | structural induction using invariance of the kernel |
| C22 | ACA loop | loop invariants: distinct pivots, residual vanishes on chosen crosses |
| C23 | low rank arithmetic | matrix identities; negation for recompression |
| C24 | Rodrigues matrix, `rotate_points` | polynomial identities with sin^2+cos^2=1 |
| C25 | `Plane.c` and the mirror formulas | negation for planes with n.p<0, identities otherwise |
| C26 | `Plane.rotate`, `Axis.rotate`, translations | identities; negation for axes away from the origin |
| C27 | state machine of meshes with their caches of panel data | invariant over operation sequences |
| C28 | `extract_faces`, `remove_unused_vertices` | list lemmas |
| C29 | `merge_duplicate_rows` | loop invariants over an arbitrary sorted permutation |
| C30 | `heal_triangles` | case analysis on the four corners |
| C31 | `compute_faces_properties`, flips, triangulation | polynomial identities |
| C32 | face table of the clipper, single meshes | case analysis on all sign patterns, convex combination lemmas; negations for the patterns that the code mishandles |
| C33 | `clip` bookkeeping | negation by witness; partial when no degenerate face is produced |
| C34 | collections as trees | structural induction |
| C35 | symmetric meshes with their in-place operations | negations by histories; invariant for the motions that commute with the symmetry, which is exact for one reflection |
| C36 | `combine_dofs`, `join_bodies` | dictionaries as lists of pairs; negations for name collisions; joining is associative on what can be observed of the body |
| C37 | `assemble_regular_array`, `assemble_arbitrary_array` | panels and dofs of each copy by arithmetic on positions; decimal names are injective |
| C38 | `sliced_by_plane` | negation by witness; partial when slicing keeps the order |
| C39 | cached attribute machine | negation by a history; partial for a body whose mesh and lid are never reassigned after the first read |
| C40 | discrete divergence theorem on closed oriented triangulations | cancellation over oriented edges |
| C41 | quadrature points and weights | real identities |
| C42 | loops of `clustering` | invariants: groups are reachability classes; the number of touched faces grows |
| C43 | writers and readers of seven formats on the characters of the files, with the printing and the parsing of numbers | round trip by induction on the lines, exact conditions of readability; negations for small meshes and wide numbers |
| C44 | `write_STL` on arrays in a memory with addresses | exact condition, frame property and right file; negation by witness |
| C45 | file system with crash points | negation; partial with uninterrupted writes; injectivity of names |
| C46 | Lagrange interpolation, index clamp | identities, integer arithmetic |
| C47 | threads with private variables, shared matrices, any schedule | invariant of the steps, decreasing number of steps |
| C48 | `separate_complex_values`, `merge_complex_values` on arrays with named dimensions and IEEE numbers | loop invariants, exact condition; negations for attributes and infinities |
| C49 | `problems_from_dataset`, `fill_dataset` | cartesian product lemmas, exact condition for errors |
| C50 | `assemble_dataset` on rows, squeezed and indexed coordinates, merge | association list lemmas, exact conditions; negations for the encounter direction, the gravity and the names |
| C51 | loop over the bodies with the variables of the function | exact condition of success, rows of the last body only; negations for several bodies, other codes and unsorted frequencies |
| C52 | `_normalize_points`, C order, potential, velocity, pressure and elevation at points | index arithmetic |
| C53 | loop on chunks with slices and uninitialised memory | loop invariant, exact condition; negation for forward speed |
| C54 | `_get_water_depth`, `_check_data` | decision logic; negation for sea bottom |
| C55 | programs with nested uses, exceptions and other processes | induction on programs against a list of uses; negations for nesting and processes |
| C56 | rectangles, parallelepipeds, disks, cylinders, surfaces of revolution, spheres, free surfaces | sums of antisymmetric functions along the border of grids, exact radius of isosceles trapezoids; negations for the disks and the cylinders |
| C57 | RAO as matrix equation | linear algebra |
| C58 | one point Rankine formula and its reflections | derivatives along all curves |
| C59 | rotation center, stiffness, inertia and `compute_hydrostatics` | divergence theorem on triangles, exact conditions; negations for the quadrature, the mass and the names |
| C60 | decision table of coefficients | case analysis |
| C61 | memo cache whose keys are mutable meshes | negation by a history; partial without hash collisions |
| C62 | full and identity block matrices | index lemmas |
| C63 | zero and infinite frequency problems with a lid | negation by witness; partial without lid |
| C64 | memo cache with a count of computations | invariant over histories |
| C65 | `rotation_matrix_to_align` and users | identities for unit vectors; negation for vectors that are not normalised |
| C66 | boundary conditions of problems on a hull | identities on the normal velocity |
| C67 | forces as integrals of the pressure | linear algebra |
| C68 | rotation dofs | derivative of rotations |
| C69 | `Mesh` and `FloatingBody` motions | isometries; negation for warped quadrangles |
| C70 | same machine as C27 | simulation between two histories; negations for `heal_normals` and warped quadrangles |
| C71 | `compute_connectivity`, flood of `heal_normals`, outward test | invariant of the flood; the outward test is the volume on closed surfaces; negation after a reading |
| C72 | `surface_integrals.py` | discrete Stokes theorem, isometries; negation for the center of buoyancy |
| C73 | same as C29 | invariant of the cuts of levels; negation by three aligned points |
| C74 | `connected_components` with stored panel data | shape of the selected arrays |
| C75 | `extract_lid` | permutation of the panels; sets enumerated in any order |
| C76 | `keep_only_dofs`, labels of the matrices of joined bodies | numbers by name; negation by witness for dofs kept in another order |
| C77 | exact Rankine integral of a panel, near/far switch, reflections | derivatives along all curves |
| C78 | wave part: four deep water problems, Prony terms, both derivatives | derivatives along all curves, contract on the tables |
| C79 | assembly with the three variants | algebra on the entries, difference of two quadratures |
| C80 | pressure of `solve` from the sources | list algebra |
| C81 | both functions for the elevation | algebra; negation for forward speed |
| C82 | `compute_kochin` | algebra and a bound on exponentials; negation for lids |
| C83 | tree of diagonal blocks, loop that builds the product by the restriction, step of block Jacobi with coarse correction | exact conditions for the success of the construction and for the equivalence of the two systems; negations for single meshes, three bodies, symmetric meshes and blocks of zero sum |
| C84 | Toeplitz matrix, polynomial, filter of the rates, fit, search of the size, use by the Green function; contracts for least squares, roots and fit | exact condition for the sums of exponentials; exact condition of success and of failure of the search; negations for the constants and for a square wave |
| C85 | the characters of `Nemoh.cal`, the files of the directory, the reading of the bodies, dofs, frequencies and directions, the loops that make the problems; contract for the text of floating point numbers | round trip; exact conditions for the directory to be readable, for the problem to be the same and for the frequencies to be kept; all the combinations; negations for a surge motion, for bad names, for the zero frequency and for a mesh used twice |
| C86 | the reader of Hydrostar files, line by line | every style of file gives the mesh and its symmetries; negation for the lines with a wrong number of words |
| C87 | the waterlines of a hull, the position of the lid, the estimate of irregular frequencies and its cache | the estimate is the minimum over the waterlines; the lid is safe exactly when the depths of the waterlines are close; negations for two boats and for a lid set after the first estimate |
| C88 | the grid of the lid and the count of the panels below its nodes | the lid is made of the panels of the grid with their corners inside; negations for nodes on shared edges and for vertical panels |
| C89 | the methods that add dofs, and the dictionaries of dofs shared between bodies | each request adds the requested field; the rigid dofs; bodies with their own dictionaries do not interact; negations for default names and for sliced bodies |
| C90 | the order of the problems and the contract of `sorted` | problems with the same setting are together, in their order; negation for two bodies with the same name |
| C91 | `join_meshes` of the symmetric classes | same panels up to order, same class; bound on the displacement and negation for vectors that are only close |
| C92 | mesh objects in memory with numbers, collections as trees of references | motions in place as counts of references; copies apart; programs that drop the given meshes; the first part is shared, three negations |
| C93 | `clip` and `prune_empty_meshes` on symmetric meshes, all steps of the clipping of one mesh | the parts are the images of the first one after clipping; exact for translations, through merging and removal of small panels; up to the tolerance of the merging for reflections and rotations of panels crossed by the plane; three negations |
| C94 | `kochin_data_array`: rows, frames, `Dataset.__setitem__` | exact conditions for each of the two variables, usual sets of results, three negations |
| C95 | `assemble_matrices` on n-dimensional arrays in C order | positions of the values, exact condition for the shape, one negation |
| C96 | `hydrostatics_dataset`: dictionaries by name, squeezed dimension, merge | exact conditions for each matrix and for the refusal, two negations |
| C97 | `cluster_bodies`: loop on the rows of the linkage matrix, `join_bodies` with a name | the result is the join in the order of the dendrogram, which has each body once; success; panels and dofs |
| C98 | `minced`: box around the mesh, positions of the slices, planes in turn along x, y, z, `sliced_by_plane` for each | same panels; no part crosses a boundary of the slices; rounding of the numbers of slices; what is lost |
| C99 | same machine as C27, with collections of meshes, the lid, and the memory of the engine | simulation by the list of the methods chosen by the user; equivalences for the collections; negations for what forgets the method |
| C100 | the two checks of the solver, messages as data, `solve_all` with the checks, lists and iterators | equivalences with a specification on the radiuses of the panels; negations with witnesses |
| C101 | the loops on faces and corners with a counter of eight bits, the frames as lists of positions and scalars | closed forms of the loop, equivalence for uniform motions, negations with witnesses |
| C102 | loaders from rows of numbers, the state of the loop on the sections of a Diodore file, exceptions as `none` | panels compared with the points that have the numbers of the file; negations with witnesses |
| C103 | directories as functions from names to lists of lines, words with a parameter for the format of numbers, the words written before an exception | files compared with a table given by line numbers; success as an equivalence; negations with witnesses |
| C104 | `matmat` by recursion on the left matrix with the kinds of results (array, vector, block matrix, `None`), reductions over the stored blocks, types as real or complex, GMRES as a parameter with a contract | sums of products of the entries given by `HMat.entry`; equivalences over all entries; negations with witnesses |
| C105 | the set of bodies as a list in the order of iteration, dictionaries filled by the last body of a name, the index `body_name` of the assembled dataset | data compared body by body; refusal as an equivalence on the rows; independence of the order |
| C106 | the function and its brackets over the reals, `brentq` as a parameter with a contract | unique root of each interval by monotonicity; success as an equivalence on the frequency; negations with witnesses |
| C107 | the two clippings in sequence, on the model of the clipper of C32 | corners of the table of the clipper checked by cases on the sides; heights carried through the fusion of vertices; negation for twisted panels |
| C108 | predicates on the vectors with the tolerance of the code, exceptions as values | specification by distances to lines, planes and directions; exact equivalences; negations with two nearby directions and far points |
| C109 | one test on all the normals, then the faces reversed; mesh by mesh for collections | normals of the reversed panels computed for triangles and quadrangles; exact set of meshes that go down |
| C110 | the loops of `from_set_of_faces` on any order of the sets, `Finset` for `frozenset` | invariants of the table of vertices by induction on the panels; equality as sets of sets of corners |
| C111 | minimum and maximum of the coordinates, then the largest half side | least and greatest elements; any cube that holds the vertices is at least as large |
| C112 | the sections of the written file and the printed lines, given to the model of `load_INP` | the written file meets the conditions of `inp_one_frame`; permutation of the panels |
| C113 | `fingreen3d_routine` (the far field series in full, the common terms of the near field methods) and the loop on quadrature points around it | derivatives by the rules of calculus; the sum of modes is locally finite away from its threshold; orthogonality of modes by integration |
| C114 | `FF` over the real numbers, on both sides of its test | limits and continuity by calculus; the zeros of the denominator are the two opposite wavenumbers |
| C115 | `HOUSRS`: the reflections column by column, then the substitution | the scalar products of columns are kept by each step; the last triangle gives the residual |
| C116 | `MCAS`, `EXPORS`, `LISC`; contract for the roots of a polynomial | the solution of the prediction system is the polynomial of the exponentials, its roots give the rates back; the tries by induction |
| C117 | `SPRBM`: zero roots, guesses, division by a quadratic factor, roots of the factor; contract for `SPQFB` | Horner's division by induction; the remainder is zero because its degree is too small |
| C118 | `HavelockGF` with its Bessel and Struve functions, branch LIANG_WU_NOBLESSE of `WAVE_PART_INFINITE_DEPTH`; specification by power series | near 0: tails of the series and a verified test of polynomial bounds; beyond 3: the difference satisfies the equation of an oscillator with a small source, and its energy is bounded |
| C119 | operators of `BlockMatrix` and `LowRankMatrix` with the rules of Python for reflected methods, evaluated with a limit of recursion | monotony in the limit; induction on the nesting of blocks |
| C120 | `JY01B` and its three short copies, with the polynomials as lists of rational numbers | comparison with truncated series up to 4, perturbed oscillators beyond 4, nine digits of the constant of Euler |
| C121 | `IK01A`, with the content of the uninitialised variable as a parameter | series, Wronskian, comparison of logarithmic derivatives beyond 9 and 18, sixteen digits of the constant of Euler |
| C122 | `ENXA`, `E1XA`, `EIX` | the improper integrals over Mathlib, integration by parts, comparison of derivatives, tails of the series and of the asymptotic sum |
| C123 | `SAM`, `DSAM`, `SA0`, part of `COEF`, the parameter of `LINTON` | the remainder of an alternating series under the integral, change of variables, differentiation under the integral |
| C124 | `Limes` with its arrays written in place | the loops in closed form, a shape of the table preserved by the turns, simulation for the affine changes |
| C125 | the rule of fifteen points with its tables and the recursion | the moments of the tables by kernel computation over the rationals, induction on the depth |
| C126 | the series, the asymptotic expansion and the signs | Taylor series of the integral with remainder, two-sided bounds of the tail |
| C127 | the loop that chooses the end of the interval, any quadrature | split of the integral, exponential bound from above, logarithmic bound from below |
| C128 | the series of `DSA0` | differentiation of the series term by term with a bound which is summable, as for C123 |
| C129 | the lengths of the slices in `matvec` and `rmatvec` | induction on hierarchical matrices, the block where a short vector ends |
| C130 | `numerical_integration` with `exp_e1` and `PI` as parameters | discrete orthogonality, exactness on even powers of the cosine, remainder of the exponential series |
| C131 | the same, the first two integrals | sum of the kernel of Poisson at equidistant angles; the end points alone for the violation |
| C132 | `asymptotic_approximations` | derivatives |
| C133 | the literal of `PI` and its rounding to single precision | decimal bounds of π |
| C134 | `asymptotic_approximations` and `numerical_integration` at the default edge | integral representation of the functions of Bessel, termwise integration, the bounds of C120 |
| C135 | `exp_e1` on the negative real axis, and the first integral of `numerical_integration` there | differential equation of the error with polynomial corrections, integer subdivision tests checked by the kernel, series of Ei |
| C136 | the first and the third formula of `exp_e1` off the real axis | division of the geometric series, moments of the exponential weight, moments of the three poles |
| C137 | `DISPERSION` of FinGreen3D and `compute_dispersion_roots` | derivatives of the two functions, zeros and fixed points of the iterations, explicit root in deep water |
| C138 | the functions that build one low rank matrix, with the loop of C22 | invariants of the loop for a zero or negative tolerance; truncated quotients for integers |
| C139 | the types of numbers in `matvec` and `rmatvec`, with integers and single precision | induction on nested matrices; cases on the finite set of types |
| C140 | the image sources of `IMGS`, `DGSR` and `DGSZ` against the sum of all images | derivatives of finite sums; telescoping sums for the far images; bounds of sums of inverse powers |
| C141 | the error functions and integrands of `LINTON`, for any function and its derivative | derivatives along a path; limit of a slope |
| C142 | the derivatives of the coefficients of the modes in `DCOEF`, with the quadrature as a parameter | domination by an integrable power; the series of C123 |
| C143 | `heal_mesh` as the four steps in their order, then the normals for a closed mesh; each step twice | the theorems of C28 to C30, C73; a sorting without equal values is unique |
| C144 | centers and diameters of nodes; the test for the matrices of low rank | triangle inequality; structural induction on trees |
| C145 | `==` of trees of meshes, and the memory of `lru_cache` as a list of entries found by this equality | invariant of the memory over histories; the theorem of C144; equal trees without unused vertices have the same vertices |
| C146 | `cache_directory` on lists of characters, `os.path.join`, the environment at the import and at the call | the last part of a path is found from the separators; case analysis |
| C147 | the two tables of formats, `write_mesh` and `load_mesh` with readers and writers as arguments | inclusion of the tables; the last point of the name |

Not modelled at all: the numerical quality of the Green function (tabulated integrals, Prony
decomposition), graphical interfaces (`ui`), VTK and meshio bindings, logging, performance.

## Where the code and the properties disagree

Each item is proved as a `..._violated` theorem with a concrete witness, next to a `_partial` theorem with the
guard under which the property holds.

- C01: a reentrant function (the engine on reflection symmetric meshes) makes the cache exceed its maximal size.
- C03: meshes with the same panels in another order, or with reversed panels, are equal but have different matrices.
- C04, C12: after a matrix that cannot be factorised, the next call with it returns the solution of another system.
- C09: with overtaking waves the velocity is not the gradient of the potential.
- C10: the wave direction, the class and the boundary condition are not compared.
- C11: with several jobs, problems with a NaN parameter are dropped and an empty list raises.
- C13: with forward speed the boundary condition depends on the name of the dof.
- C18: structured matrices conjugate the vector in `rmatvec`, generic ones do not.
- C19: operations between different block classes silently drop blocks.
- C20: `cut_matrix` with different lists of sizes.
- C21: two symmetric meshes around axes with opposite directions are treated as if they had the same axis: the circulant
  matrix is wrong from three parts on. Two planes are found equal by their points, but parts are built with the mirror of
  C25: the matrix between a mesh built with a plane and a mesh moved to the same plane can be wrong.
- C22: a pivot smaller than 1e-12 is replaced by 1e-12, and the result no longer coincides with the matrix. A matrix whose
  first row is zero is approximated by zero, with no warning, whatever its other rows. The default maximal rank is zero for a single row or
  column and leads to an `UnboundLocalError`, which is not the exception that the engine catches.
- C23: `recompress` uses the last factor of `np.linalg.svd` as if it were not transposed. The matrix changes even when
  all the singular values are kept, unless this factor is symmetric. `__add__` recompresses the sum to the smallest of the two ranks.
- C25: `Plane.c` is an absolute value; mirrors are wrong when the origin is strictly on the side of the normal.
- C26: `Plane.rotate` ignores the position of the axis.
- C31, C69: the area and the center of warped quadrangles depend on the first corner.
- C32: a quadrangle that is not flat, with its diagonals on each side of the plane, keeps a corner above the plane and
  loses a corner under it. A quadrangle with three corners in the plane raises an exception, even when flat and convex.
  A panel lying in the plane is kept when nothing is above the plane, and lost otherwise.
- C33: `faces_ids` is not updated when `clip` removes degenerated panels. The list is then longer than the number of
  panels, and the dofs too. This happens to a mesh which is already under the plane when the sizes of its panels are very
  different.
- C35: a copy of a symmetric mesh is rebuilt from its first part. It differs from the original after a translation
  that sends the plane to the other side of the origin, after a rotation around an axis far from the origin, and, for
  symmetries of revolution, after a reflection. It raises when the plane is no more vertical.
- C36: joined bodies lose dofs when two bodies have the same name or when the separator `__` is ambiguous. The
  imaginary part of the values of a dof is lost.
- C37: an array of a body whose dof names contain `__`, such as two joined bodies, has the dofs of one copy only.
- C38: `sliced_by_plane` of a body puts the panels on the negative side first, but gives the dofs to the new body in the
  old order. The motions are kept for all dofs exactly when the slicing does not reorder the panels.
- C39: the mesh including the lid is cached by the body and is not updated when the mesh or the lid is
  assigned. Changes of the meshes in place are seen.
- C41: the point of the first order quadrature is the mean of the corners, not the center of the panel.
- C43: the writers print the number of panels and of vertices as the largest dimension of the array, hence at least four panels and
  three vertices. A GDF file with fewer than four panels, and a nat file with fewer than four panels or three vertices, cannot be read
  again. Numbers that fill their field are not separated from the previous one: a Nemoh file cannot be read again with a coordinate
  above 10^8 or below -10^7, a HAMS file above 10^10 or below -10^9, a nat file with 10^5 panels. A Nemoh file without panel and a
  HAMS file with a single vertex cannot be read again. Reading a GDF file renumbers the vertices.
  A Tecplot file without vertex, or with an index that fills its field, cannot be read again (`tec_readable_iff`).
- C44: `write_STL` cuts the quadrangles in two triangles in the array of the caller. After the export each quadrangle of the mesh in
  memory has lost one of its triangles, and a second export of the same mesh writes half of each quadrangle.
- C45: the file of the tables is written in place. A run killed while it writes leaves an incomplete file, which every later
  run tries to load: all of them fail until the file is deleted.
- C46: tables of two nodes in a direction pass the test on the size (`<= 1`) and are read at the index 3.
- C48: the attributes of complex variables are lost. The product by `1j` of an infinite or undefined imaginary part makes the real part
  undefined. Variables of type `complex64` are not separated. A dataset that has the dimension `complex` already is changed.
- C50: two results with the same coordinates (for example of two bodies with the same name): only the first one is in the dataset.
- C50: radiation results at one gravity and diffraction results at several: the gravity is a scalar coordinate in one part and a
  dimension in the other, and the merge silently keeps the dimension. The added mass then has no gravity any more.
- C50: the encounter wave direction depends on the gravity and on the depth but is indexed without them.
- C51: the lists of rows are emptied for each body, hence only the last body is in the table. The variable `from_wamit` is only
  assigned for WAMIT: other codes raise `UnboundLocalError`, and bodies of other codes after a body of WAMIT are scaled as WAMIT. The
  frequencies are sorted but not the data. The water depth of the given object is changed.
- C53: with forward speed `get_potential_on_mesh` takes the wavenumber of the waves although the sources are computed with the
  encounter wavenumber. A negative size of chunks gives memory that is not initialised.
- C55: a timer used inside itself forgets the time before the inner use. The timers of the solver do not see the resolutions in
  other processes.
- C59: the second moments of the waterplane and of the volume are integrated with one point per panel, so that they are not exact for
  any mesh. The moments of inertia do not depend on the center of mass, so that the inertia matrix may not be positive. Without
  a given mass, `compute_hydrostatics` takes the displaced mass for the stiffness and the mass of water in the whole mesh, not only in its
  immersed part, for the inertia. The stiffness of dofs named in lower case ignores the weight. A body with heave only needs a rotation
  center. Out of vertical equilibrium the moments due to horizontal translations are missing.
- C81: with forward speed the convective term of the elevation has the opposite sign of the one in the pressure.
- C82: the far field fails with a lid, because the panels are the ones of the hull and the sources the ones of all the panels.
- C83: the product of the restriction and the matrix is built with two blocks for each collection. A single mesh raises
  `AttributeError`, a collection of one mesh `IndexError` and a collection of three meshes `ValueError`. For a symmetric mesh the
  zero blocks are written in a copy of the blocks: the preconditioned system is then another system, without error
  (`precond_symmetric_iff`). A diagonal block whose entries sum to zero makes the preconditioner singular.
- C84: rates of zero or below -20 are removed, so that a constant is never decomposed exactly. When no decomposition is found, the
  Green function logs a warning and then raises `UnboundLocalError`. The docstring announces amplitudes and rates, the rows are the
  rates and the amplitudes.
- C85: the exported file always describes a heave motion, whatever the radiating dof (`io/legacy.py:202`). The speed and the absence of a free surface are not written. A depth of zero is read as infinite. The zero and infinite frequencies are written as symbolic products, that cannot be read. A body named `ID` loses its mesh, replaced by the file `ID.dat`. A name with a blank or made of points cannot be read again. Two bodies with the same mesh file lose dofs when they are joined.
- C86: in a Hydrostar file, a line of coordinates that has not three or four words, or a panel without number that has not three or four corners, repeats the one before it without any message (`io/mesh_loaders.py:177-197`).
- C87: `lowest_lid_position` takes the lowest of the positions of the waterlines (`meshes/meshes.py:761`), but the lid has to be above all of them. With boats of different sizes the solver still warns below the frequency that was asked for.
- C87: `first_irregular_frequency_estimate` is stored by `lru_cache` with the identity of the body as key (`bodies/bodies.py:1126`). The warning ignores a lid or a motion that comes after the first resolution.
- C88: `generate_lid` counts the panels below a point, edges included (`meshes/meshes.py:815-824`). A point on an edge that two panels share is counted twice and is taken as outside. The lid of a symmetric hull can be empty.
- C88: a vertical panel is below all the points that are aligned with it seen from above (`meshes/meshes.py:815`), even far from it.
- C89: the default name of a new dof is made from the number of dofs (`bodies/bodies.py:173`, `215`). After `keep_only_dofs` it can be the name of an existing dof, which is replaced without a warning.
- C89: `sliced_by_plane` gives the dictionary of the dofs itself to the new body (`bodies/bodies.py:916`), and so does the constructor with a given dictionary (`bodies/bodies.py:111`). A reflection or a rotation of the new body in place changes the dofs of the first one.
- C90: bodies are equal by identity and ordered by name (`bodies/bodies.py:133-135`). The order of the problems is meant to put together those of a body (`bem/problems_and_results.py:311`), but with two bodies of the same name `sorted` can leave them mixed.
- C91: `join_meshes` compares the translation vectors with `np.allclose` (`meshes/symmetric.py:200`) and takes the vector of the first mesh: the slices of the others are moved by up to n × (1e-8 + 1e-5 |v|).
- C92: the constructors of symmetric meshes keep the given mesh as first part and make new meshes for the others (`meshes/symmetric.py:48-55`, `138-140`, `257-260`), and `join_meshes` keeps the first parts of the given meshes (`92-93`, `204-205`, `364-365`). After a motion in place of the given half, or of the joined mesh, the symmetric mesh is not symmetric any more, and the solver does not notice.
- C93: `clip` keeps the class of a symmetric mesh whatever the plane (`meshes/collections.py:271-293`). A plane across the symmetry leaves parts that are not images of the first one, or removes some: the copy of the mesh has them again (`clip_promise_violated`), and the engine reads `mesh2[1]`, which may not exist (`bem/engines.py:127`).
- C93: a translational or axial mesh which is wholly above the free surface is left with one empty part, and copying it is an `AssertionError` on the number of repetitions (`clip_copy_violated`); `immersed_part` of a body with such a mesh works but no further copy of it does.
- C94: `kochin_data_array` adds the diffraction results to the labels of the radiation results (`io/xarray.py:298-307`): a diffraction result at a frequency, or along another varying parameter, that no radiation result has is silently dropped (`kochin_frequency_violated`). When each kind has one density, one depth or one body, the diffraction results get the one of the radiation results (`kochin_density_violated`). `assemble_dataset` refuses or keeps such results instead.
- C94: unlike `assemble_dataset`, results without a free surface are not set apart: with the same labels as others, only the first one is kept (`kochin_surface_violated`). An empty list of results is a `KeyError`.
- C95: `assemble_matrices` squeezes all axes of size one (`io/xarray.py:512-525`): with one dof and several frequencies the matrix has one row and a column for each frequency (`bare_single_dof_violated`).
- C96: `hydrostatics_dataset` gathers the matrices in a dictionary by name (`io/xarray.py:263`): of two bodies with the same name the last one stays (`hydrostatics_name_violated`), and the bodies come from a set, in any order (`io/xarray.py:485`). A matrix that only one body has loses its label when several bodies have the other matrix (`hydrostatics_squeezed_violated`), and is an error when only another body has it (`hydrostatics_refused`).
- C97: `cluster_bodies` refuses a single body (`linkage` needs two points, and `new_node` would not be defined otherwise, `bodies/bodies.py:1186-1202`), unlike `join_bodies` (`cluster_single_violated`). The test that the centers of buoyancy are known (`bodies/bodies.py:1182`) never fails: the property computes a value or raises an error.
- C98: `minced` rounds the number of slices down to a power of two without a warning (`bodies/bodies.py:954`, `minced_rounded`); `0` slices is an `OverflowError` (the logarithm is minus infinity). As for `sliced_by_plane` (C38), the arrays of the dofs are not reordered with the panels (`minced_dofs_violated`), and the mass, the center of mass, the inertia and the stiffness are not kept (`minced_forgets`).
- C93: a quadrangle with a corner on the plane, both neighbours above and the last corner below is replaced by a triangle above the plane, which depends on the order of the corners: the two halves of a symmetric mesh are then clipped in different ways (`clip_twisted_violated`, `meshes/clipper.py`).
- C99: `extract_faces`, `extract_one_face`, `merged`, `join_meshes` and what is built on them (slicing, mincing, joined bodies) return a mesh with the default quadrature, whatever the method of the original (`meshes/meshes.py:196`, `237`, `meshes/collections.py:232`).
- C99: a body whose hull has the method "Gauss-Legendre 2" and whose lid has the default one cannot be solved: `np.concatenate` refuses the arrays with 4 and 1 points on each panel (`meshes/collections.py:181-187`, `lid_points_violated`).
- C99: assigning the attribute `quadrature_method` after the points were read does nothing (`assign_method_stale`), and the memory of `build_matrices` returns the matrices of the former method, since the equality of meshes does not see the method (`memory_ignores_method`).
- C100: with a forward speed, `_check_wavelength_and_mesh_resolution` compares the panels with `pb.wavelength` while the matrices are built for the encounter wavelength (`bem/solver.py:119-122`, `255`): a body going against the waves gets no message (`resolution_speed_violated`).
- C100: the message for one problem shows the largest radius of the hull and says that it is larger than an eighth of the wavelength, also when only the lid is too coarse (`bem/solver.py:265`, `resolution_radius_violated`).
- C100: the checks of `solve_all` are made outside of `_solve_and_catch_errors`: a body without panels (after the clipping of a dry body) makes the whole batch fail with the `ValueError` of `max` (`batch_violated`). For an iterator on the problems, the checks leave nothing to solve and the list of results is empty (`iterator_violated`).
- C100: the advice to set a lid is given when any body of the batch has no lid, even one without risk of irregular frequencies (`bem/solver.py:285`, `advice_violated`).
- C101: `compute_node_data` counts the first vertex of a triangle twice, so the mean at this vertex is weighted and depends on how the triangle is written (`node_average_violated`, `node_encoding_violated`). The counter is an array of `int8` (`ui/vtk/helpers.py:74`): at the pole of a sphere with 64 panels around it a uniform motion is reversed, with 128 it is not a number (`node_fan`).
- C102: `load_RAD` and `load_MSH` (without meshio) ignore the numbers of the nodes (`io/mesh_loaders.py:107-112`, `840`): a file whose nodes are not numbered from 1 in order gives other panels (`rad_violated`, `msh_violated`). `load_RAD` refuses files of one or two panels (`rad_few_refused`).
- C102: the panels of a Gmsh file come with the triangles first without meshio and with the quadrangles first with it (`msh_order_violated`).
- C102: in `load_INP` a second section of nodes without `INCREMENT` is assigned to one row of the array with an index left by another loop (`io/mesh_loaders.py:382`, `inp_second_refused`). With `INCREMENT` the numbers of the panels are shifted by the number of nodes after the addition instead of before (`io/mesh_loaders.py:385-399`): the file is refused (`inp_increment_refused`) or, when more nodes follow, the panels join the wrong nodes (`inp_increment_violated`).
- C102: the vector of a frame written with a comma followed by a space is refused (`io/mesh_loaders.py:277`, `frame_refused`).
- C103: `write_dataset_as_tecplot_files` selects by `omega` (`io/legacy.py:237`), so a dataset whose dimension is the period or the wavelength is refused after the beginning of `RadiationCoefficients.tec` has been written (`tecplot_period_refused`). It adds `excitation_force` to the dataset of the caller (`tecplot_data`).
- C103: the writers do not remove the files of earlier runs: `ExcitationForce.tec` of another computation stays beside the new coefficients (`runcal_stale_violated`), and `KH_1.dat` of two bodies stays beside `KH.dat` of one (`export_stale_violated`). A body without a stiffness matrix leaves the old `KH.dat` beside the new `Hydrostatics.dat` (`export_incomplete`).
- C104: `matmat` of a block matrix by a matrix of the wrong size, or by a block matrix cut at other places, returns `None` and raises nothing (`matmat_mismatch_violated`, `matmat_cut_violated`; `matrices/block.py:329-349`). The product of nested block matrices is a `TypeError` since `sum` starts from the integer zero (`matmat_nested_violated`), and a block matrix of one column has no `flatten` (`matmat_block_column_refused`). The product by a column is a vector without its second dimension (`matmat_column`).
- C104: `matvec` of a block matrix without structure takes its type from the vector, so a complex matrix refuses a real vector (`matvec_type`; `matrices/block.py:298`). `solve_gmres` only looks for positive codes, so a breakdown of GMRES returns a vector that does not solve the system (`gmres_breakdown_violated`; `matrices/linear_solvers.py:139`).
- C105: `assemble_dataset(mesh=True)` keys the panels by the name of the body (`io/xarray.py:464`): two bodies of the same name give the data of the last one in the order of a set (`mesh_same_name_violated`). With several bodies of which only one has cases with a free surface, `body_name` is a scalar and iterating over it is a `TypeError` (`mesh_dataset_refused_iff`). The panels of the lid are not counted.
- C105: `assemble_dataset(attrs=...)` writes the date in the dictionary of the caller (`attributes_caller_violated`; `io/xarray.py:357`).
- C106: `compute_dispersion_relation_roots` starts its brackets 1e-10 away from the ends of the intervals (`green_functions/hams.py:115`), so that for low frequencies (`omega^2 h / g` below about 6e-8 with 200 roots) there is no change of sign and `brentq` raises (`roots_low_violated`, `roots_ok_iff`). `nb_dispersion_roots` other than 200 is read beyond its end or has no effect (`roots_fewer_violated`, `roots_more`; `Green_wave.f90:599`).
- C107: the table of `_clip_crown` keeps corners above the plane for quadrangles whose corners are above, below, above, below, or with one of them on the plane and its opposite on the other side of its neighbours (`clip_twisted`, `meshes/clipper.py:159-450`). `keep_immersed_part` checks the depth after the clipping at the free surface, so that a refused call in place has changed the object (`immersed_refused_changed`, `meshes/geometry.py:156-158`). A sea bottom above the free surface gives a negative depth that is not refused, and an empty mesh (`immersed_bottom_above`). A depth that is NaN is accepted and the bottom is not clipped (not modelled).
- C108: `is_parallel_to` and `is_orthogonal_to` compare a vector that is not normalised with an absolute tolerance, so that a small multiple of any vector is both parallel and orthogonal to the axis (`small_vectors_violated`, `meshes/geometry.py:212-228`). `==` depends on the order of the objects and is not transitive, for axes and planes with points far from each other (`equality_symmetric_violated`, `equality_transitive_violated`). `axis.is_orthogonal_to(axis)` raises a `TypeError` (`relations_refused_iff`). `Axis.__eq__` tests the class of `self`: an axis compared with a plane that holds its point raises an `AttributeError`, in both orders (`axis_equals_plane`, `meshes/geometry.py:206-210`).
- C109: `with_normal_vector_going_down` turns a mesh only if all its normals are vertical up to 1e-5 and go up. One degenerate panel, which has a null normal, one panel already going down, or a slight slope, and the panels that go up are kept so (`lid_mixed`, `lid_down_violated`, `meshes/meshes.py:836-844`).
- C110: the sets forget the order of the corners, so that the mesh given by `from_set_of_faces` can have crossed quadrangles and reversed normals, depending on the run (`set_round_trip_violated`, `meshes/meshes.py:677-697`). A panel with less than three different corners makes it raise (`set_round_trip`). Equality sees neither the orientation nor the order nor repetitions of panels (`same_blind`, see also C03).
- C112: the order of the panels is kept only when all quadrangles come before all triangles (`quadsFirst_iff`, `diodore_order_violated`), so that results stored by panel do not match the mesh read again. A mesh without panel is written but cannot be read (`diodore_no_panel`).
- C113: `integral_of_wave_part_fingreen3D` gives the two heights to `fingreen3d_routine` in the wrong order for the gradient. The routine derives with respect to its first height. It is called with the height of the source first when the gradient at the collocation point is asked, and the other way around. The vertical component of the gradient is thus taken at the other point (`vertical_other`, `far_gradient`). Its imaginary part is right exactly between points at the same height or at a zero of the Bessel function (`adjoint_vertical_iff`, `direct_vertical_iff`, `vertical_violated`). The horizontal components are right (`horizontal_right`). In deep water the wave part depends on the sum of the heights only, which hides the error.
- C114: for a product of wavenumber and depth from 0.05 to 0.1, the pole at the opposite wavenumber is in the range of the samples, from -0.1, and outside of the zone where the function is interpolated: the function is not bounded there (`ff_bounded_iff`, `ff_unbounded_violated`).
- C116: `EXPORS` says that it keeps one rate for a double root, but it does so only for conjugate roots (`double_root_violated`, `conjugate_roots`). `MCAS` removes the terms below exp(-30) with different tests in the matrix and in the right hand side (`mcas_cut_violated`). With fewer exponentials than asked, the solver divides by zero (`expors_singular`). Without a rate in the range, it reads outside of its array (`mcas_none_iff`). After 30 exponentials the result is returned whatever its error, without a warning (`lisc_iff`).
- C117: when `SPQFB` fails for all the guesses, `SPRBM` sets an error code that it does not return, and the caller uses roots that were never written (`sprbm_missing_violated`).
- C54: a sea bottom at the level of the free surface is accepted.
- C56: the panels at the center of a disk and of the ends of a cylinder are triangles, whose radius is larger than half the diagonal
  used to choose the resolution. It exceeds the requested maximal radius by at most a third. A vertical cylinder with ends and zero
  panel along its length has a row of panels on its wall. An open cylinder with a maximal radius raises `ZeroDivisionError`. A sphere
  with one panel around raises `AssertionError`. The normals of the mesh of a free surface go down.
- C57: the response amplitude solves the transposed system.
- C58: the two terms shifted by twice the depth are symmetric in the two points only when added together.
- C77: close to the plane of a panel (1e-4 of its radius), the code removes the term with the arc tangent from the integral and
  keeps its derivative in the gradient. The gradient is then not the derivative of the value (`close_gradient_violated`).
- C60: with `low_freq_with_rankine_part`, deep water and an infinite frequency, the matrices are NaN (zero times infinity) and the
  error message is about overlapping panels. Green functions called without a problem accept a free surface at another height than
  zero, ignore the bottom when there is no free surface, and `FinGreen3D` fails with an undefined variable.
- C79: in finite depth the wave part is always computed with the `low_freq` variant. With `low_freq_with_rankine_part` the vertical
  term of the reflected source is then added a second time by the assembly (`finite_depth_twice`, `finite_depth_violated`).
- C61: a mesh changed in place may be found in the cache because hash(-1.0) == hash(-2.0) and keys are first
  compared by identity.
- C63: the boundary condition of a lid is concatenated to a symbolic vector, which raises.
- C65: vectors that are not normalised are not aligned.
- C70, C71: `heal_normals` uses panel data of the cache that are out of date, and may orient all the normals inward.
- C70: reading the quadrature points rolls the corners of all the quadrangles, which changes the area of warped ones.
- C72: `center_of_buoyancy` integrates the square of the coordinate with one point per panel, so that it is not the
  centroid of a polyhedron with inclined panels.
- C73: merging vertices compares each coordinate with the smallest one of its group, so that two vertices within the
  tolerance may be separated.
- C74: `np.argwhere` gives positions of shape (n, 1), with which `extract_faces` selects stored panel data in arrays
  of another shape.
- C76: `keep_only_dofs` puts the rows of the matrices in the order of its argument, but the dofs stay in their order.
  `join_bodies` then labels the rows in the order of the dofs, so that the matrix of the joined body mixes dofs.
- C119: `A + B` and `A * B` recurse until `RecursionError` when the classes of the block matrices are unrelated, because `__radd__`
  evaluates `self + other` again. `A - B` raises `TypeError` when `B` is in a class above that of `A`, although `A + B` has a value.
  `2 * M` raises `TypeError` when `M` has low rank blocks, and `M / 2` does not. `2 - M` raises `AttributeError` (`arithmetic_violated`).
- C120: one coefficient of `Y0` in `FinGreen3D.f90` (lines 3366 and 3510) is written without `D0` and is of single precision; the
  effect is at most 3.2e-9 (`single_precision`). At 0 the functions of the second kind are -1e300, which is neither a limit nor a
  bound of the values close to 0 (`zero_not_lowest_violated`, `zero_far`).
- C121: `IK01A` (`FinGreen3D.f90:3287-3293`) stops its loop when a term is small compared with the sum. A term vanishes when
  log(x/2) + EL is 3/2 or 11/6, so that close to x = 5.03 and x = 7.02 the loop stops after two or three terms and K0 is negative
  (`second_term_violated`, `third_term_violated`). The first comparison reads `WW` before it has a value (`memory_violated`).
  `LGAMA` (3009-3046) is never called.
- C122: `ENXA` (`FinGreen3D.f90:2833-2836`) uses the forward recurrence, which multiplies the error of the first order by
  x^(n-1)/(n-1)!: at n = 41, x = 40 the result is negative (`order_violated`). `SA0` and `SAM` call it with
  increasing orders until a term is below 1e-6; they are not modelled. The polynomial of `E1XA` up to 1 has an error of 2.29e-7, a little above the 2e-7 of the handbook.
- C123: the parameter `A` of `LINTON` (`FinGreen3D.f90:729-738`) is a fitted polynomial of `V`, which is not dimensionless. It vanishes
  near V = 70 per metre (`parameter_vanishes`), where all the coefficients are divided by zero, and beyond 110 the first coefficient
  overflows (`parameter_overflow`). The tests `R/A.LE.0.5` and `R/A.LE.1` (1171, 1193) compare a length with a number.
  The stopping test of `SA0` looks at the sum of three terms of different signs, so that no bound follows from it.
- C124: the pseudo-inverse of `Limes` (`FinGreen3D.f90:3154-3158`, `3166-3170`) makes it return the first sum of a sequence
  of which all the other sums are equal (`reached_violated`): the estimate `ERR` is then as large as the error, and `EIGENE` and
  `PIDCOCK` do not read it.
- C125: the tolerance of `AQUAD` is compared with a power of the difference of two rules (`FinGreen3D.f90:2620-2621`), so it is not a
  bound of the error: a positive polynomial of degree 30 which vanishes at the fifteen nodes gives zero (`adaptive_violated`).
- C127: `COEF` cuts the integral where the integrand is below 1e-6 (`FinGreen3D.f90:1199-1204`). The part that is left out is not below
  1e-6 when the wave number is small: about twenty thousand times more with a wave number of 0.001 (`truncated_example`).
- C129: `BlockMatrix.matvec` cuts the vector in slices (`block.py:303-307`), so a vector which is too long is accepted and its end ignored;
  the structured classes refuse it (`size_violated`).
- C131: the integrand `1/ζ` of the difference of the two variants has a peak of width `|z|/r` at both ends of the interval, which the fixed
  number of points (1001) does not resolve when `|z|/r` is less than about 1/100, while the default tables go down to `|z| = 1e-10`
  (`Delhommeau_integrals.f90:80`, `248-251`). So `gf_singularities="high_freq"` is wrong close to the free surface (`variants_violated`).
- C130, C133: `constants.f90:15` is `PI = 3.141592653588979`, a literal of default kind: no build file sets another default kind, so in double
  precision the value is that of the nearest number of single precision, `13176795/2^22`, off by 8.7e-8. The digits themselves are wrong after the
  twelfth (3.141592653589793). `EULER_GAMMA` on the next line has no kind either. The model takes the value of `PI` as a parameter.
- C130: the header of `Delhommeau_integrals.f90` (lines 6-10) gives the factor 2/π for the third integral and 2 for the fourth; the code has 2
  and 2/π, which are the right ones.
- C132: `asymptotic_approximations` leaves the term `6 z r / r1^5` out of the fourth integral (`Delhommeau_integrals.f90:165`).
- C134: the asymptotic expression stops at the first term, so the imaginary part jumps by 6e-4 exp(z) at the edge of the default tables
  (`Delhommeau_integrals.f90:164`, `Green_wave.f90:291-300`); the tables themselves are right to 3e-5.
- C135: the rational approximation of `exp_e1` loses accuracy near z = -1/2, where the formula changes: the tabulated integral jumps by about
  1.1e-3 there, and is within 3e-4 of the exact value outside of (-1, -1/2] (`Delhommeau_integrals.f90:108-135`).
- C137: `compute_dispersion_roots` uses g = 9.81 (`Green_wave.f90:568`) and `DISPERSION` uses g = 9.807 (`FinGreen3D.f90:173`): the roots are those
  of another frequency. `D2FUN` of the second loop (`FinGreen3D.f90:232`) has `TRIAL` where the derivative has `Y`. Only the benchmark
  `benchmark_waves.f90` calls this function; the Python class computes its own roots (C106).
- C138: without a tolerance the rank may be smaller than `max_rank`, against the documentation (`matrices/low_rank.py:93,295`); a negative tolerance
  stops the iterations as its opposite but is not refused nor reported (`matrices/low_rank.py:295,303`); `from_full_matrix_with_ACA` of an array of
  integers truncates the factors (`matrices/low_rank.py:107,240,281`).
- C139: products of circulant and Toeplitz matrices of single precision lose their imaginary part when the vector is not complex of double precision,
  because `complex` is `complex128` (`matrices/block_toeplitz.py:223,243`); generic block matrices refuse vectors of a lower kind
  (`matrices/block.py:298,314`).
- C140: the polynomial of `IMGS` (`FinGreen3D.f90:903-924`) is accurate for arguments up to 1, but it is also used for the image in the free surface, whose
  argument goes up to 2: for points on the free surface the value is wrong by about 0.0004 divided by the depth. The powers have real exponents and a base
  that may be negative, which Fortran forbids; the model takes them as powers by natural numbers.
- C141: for a point and itself `LINTON` leaves out a term whose limit is not zero (`FinGreen3D.f90:809-823`): the Green function is too large by
  2 / (√π PA), with PA of the order of the inverse of the wavenumber. This happens for every panel with itself, with the default quadrature (one point). For a point of the free surface and itself, `SR2` is zero and the
  code divides by it (lines 758, 819).
- C142: `COEF` and `DCOEF` compare the distance with the parameter `A`, which has no unit (`FinGreen3D.f90:1171,1193,1279,1300`): the same problem in another unit of
  length is solved by another method.
- C143: `heal_mesh` removes the unused vertices before the degenerated faces (`meshes/meshes.py:741-742`), so that the vertices of the removed faces stay, and it removes the
  degenerated faces before merging the vertices (`meshes/meshes.py:742-743`), so that the faces that merging makes flat stay. `clip` has the first order too
  (`meshes/clipper.py:65-66`). `heal_triangles` turns the corners of every quadrangle (`meshes/quality.py:312-322`), and `merge_duplicates` called twice may merge more than once.
- C144: `diameter_of_nodes` is twice the largest distance to the mean of the nodes, not the largest distance between two nodes (`meshes/meshes.py:282-288`). The hierarchical engine
  compares the distance of the centers with each diameter and needs only one of them (`bem/engines.py:274`): a small mesh that touches a large one is far from it. Nothing is wrong
  in the result when the approximation does not converge, since the matrix is then computed in full (`bem/engines.py:299-300`).
- C145: the memory of `CollectionOfMeshes.diameter_of_nodes` (`meshes/collections.py:205-208`) finds its entries by `==`, which does not see
  unused vertices, although they count in the diameter. The diameter of a collection is then that of another one, read before
  (`diameter_memory_violated`). Equality does not compare the classes of the collections (`equality_blind`).
- C146: `tabulation_cache_dir=cache_directory()` is evaluated at the import (`green_functions/delhommeau.py:112`). Defining `CAPYTAINE_CACHE_DIR` later has no effect, and
  the import fails when the directory cannot be made, even for a user who gives another one. The value of the variable is completed by the version
  (`tools/cache_on_disk.py:13`), against the documentation (`delhommeau.py:65-67`), and an empty value means the working directory (`directory_violated`).
- C147: `diodore-dat` has a writer and its reader raises `NotImplementedError` (`io/mesh_loaders.py:236-241`), while the extension `dat` means Nemoh. The names `rad`, `inp`, `msh`, `med`
  and `wrl` are listed in the writers, which raise `NotImplementedError` (`io/mesh_writers.py:540-541`, `605-618`). The extension is read in lower case and the name of a format is not
  (`names_violated`).
