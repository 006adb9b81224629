{"id": "C01", "title": "The memo cache of interaction matrices is strictly bounded", "statement": "Whatever sequence of calls is made to a function decorated with lru_cache_with_strict_maxsize(maxsize=n), n>=1, the cache never holds more than n items, also while a call is being computed and also when computations raise.", "quantifier": "every call history, every argument, every failing call, and every nesting depth of reentrant calls", "why_tests_cant": "a test runs a handful of calls; the bound must hold after every history, including reentrant and failing ones", "anchors": ["capytaine/tools/lru_cache.py:lru_cache_with_strict_maxsize", "capytaine/bem/engines.py:BasicMatrixEngine"]}
{"id": "C02", "title": "Memoisation is transparent", "statement": "A memoised call returns the value that the undecorated function would return for the same arguments, for every history of calls, evictions and exceptions, as long as the function gives equal values on arguments that compare equal.", "quantifier": "every call history, cache size and function", "why_tests_cant": "a stale or mixed up entry only shows for particular interleavings of hits and evictions", "anchors": ["capytaine/tools/lru_cache.py:lru_cache_with_strict_maxsize"]}
{"id": "C03", "title": "Meshes that compare equal are interchangeable in the solver", "statement": "If two meshes compare equal (and so share a cache entry), then the list of panels, in order and with orientation, is the same, so that the cached interaction matrix is the right one for both.", "quantifier": "every pair of meshes", "why_tests_cant": "quantifies over all pairs of meshes; unit tests compare a mesh with itself or with an obviously different one", "anchors": ["capytaine/meshes/meshes.py:Mesh.__eq__", "capytaine/meshes/meshes.py:Mesh.as_set_of_faces", "capytaine/bem/engines.py:BasicMatrixEngine"]}
{"id": "C04", "title": "The cached LU solver always solves the system it is given", "statement": "For every history of solves (some of which may fail while factorising), a solve that returns a value returns the solution of the system for the matrix passed in that call.", "quantifier": "every history of solves, with any pattern of failures and any reuse of matrix objects", "why_tests_cant": "needs a failing factorisation followed by a retry with the same object, a history no example based test enumerates", "anchors": ["capytaine/matrices/linear_solvers.py:LUSolverWithCache"]}
{"id": "C05", "title": "Zero and infinite frequencies are the limits of the ordinary arithmetic", "statement": "Arithmetic on symbolic zero or infinite frequencies (products, quotients, squares) agrees with ordinary arithmetic in which the symbol is replaced by any non-zero number; in particular quotients of two quantities with the same symbol do not depend on that number.", "quantifier": "every expression built with the supported operators, every values, every non-zero replacement of the symbol", "why_tests_cant": "tests evaluate a few expressions; the homomorphism must hold for all expressions", "anchors": ["capytaine/tools/symbolic_multiplication.py:SymbolicMultiplication"]}
{"id": "C06", "title": "The four frequency parameters of a problem are consistent", "statement": "Giving any one of omega, period, wavenumber or wavelength produces a problem in which omega*period = 2 pi, wavenumber*wavelength = 2 pi and the dispersion relation omega^2 = g k tanh(k h) holds; giving more than one is refused; giving none means omega = 1.", "quantifier": "every choice of provided parameter, every positive value, every depth (finite or infinite) and gravity", "why_tests_cant": "an identity over all real inputs", "anchors": ["capytaine/bem/problems_and_results.py:LinearPotentialFlowProblem._get_frequencies"]}
{"id": "C07", "title": "The dispersion relation has exactly one physical solution", "statement": "For every positive frequency, depth and gravity there is exactly one positive wavenumber satisfying the dispersion relation; the frequency computed from a wavenumber and the wavenumber computed from that frequency are inverse of each other.", "quantifier": "all positive omega, h, g", "why_tests_cant": "existence and uniqueness over a continuum", "anchors": ["capytaine/bem/problems_and_results.py:LinearPotentialFlowProblem._get_frequencies"]}
{"id": "C08", "title": "Encounter frequency with forward speed", "statement": "The encounter frequency is |omega - k U cos(beta)|, it is never negative, the encounter direction is the wave direction, or the opposite one when the waves are overtaken, and both reduce to the plain values without forward speed.", "quantifier": "every frequency, wavenumber, speed and direction", "why_tests_cant": "real identity over all parameters", "anchors": ["capytaine/bem/problems_and_results.py:LinearPotentialFlowProblem.__init__"]}
{"id": "C09", "title": "The incoming wave is a potential flow", "statement": "The velocity returned for the incoming wave is the gradient of the potential returned for it, the potential is harmonic, there is no flow through the sea bottom, and the linearised free surface condition holds.", "quantifier": "every point, wavenumber, direction, depth and forward speed", "why_tests_cant": "differential identities at every point", "anchors": ["capytaine/bem/airy_waves.py:airy_waves_potential", "capytaine/bem/airy_waves.py:airy_waves_velocity"]}
{"id": "C10", "title": "Problems that compare equal are the same problem", "statement": "If two problems compare equal, they impose the same boundary condition (so they have the same solution).", "quantifier": "every pair of problems", "why_tests_cant": "quantifies over pairs of problems", "anchors": ["capytaine/bem/problems_and_results.py:LinearPotentialFlowProblem._astuple", "capytaine/bem/problems_and_results.py:LinearPotentialFlowProblem.__eq__"]}
{"id": "C11", "title": "Resolution of many problems does not depend on the schedule", "statement": "solve_all returns exactly one result per problem, whatever the order of the list, the number of jobs and the order in which groups complete; the collection of results is always the same.", "quantifier": "every list of problems, number of jobs, grouping and completion order", "why_tests_cant": "covers all schedules", "anchors": ["capytaine/bem/solver.py:BEMSolver.solve_all", "capytaine/bem/problems_and_results.py:LinearPotentialFlowProblem._group_for_parallel_resolution"]}
{"id": "C12", "title": "A failing problem does not contaminate the others", "statement": "When some problems of a batch raise, each of them is reported as a failed result that names its problem and exception and has one NaN force per dof, and every other problem gets the result that it would get alone.", "quantifier": "every batch and every set of failing problems", "why_tests_cant": "all subsets of failures", "anchors": ["capytaine/bem/solver.py:BEMSolver._solve_and_catch_errors", "capytaine/bem/problems_and_results.py:FailedLinearPotentialFlowResult"]}
{"id": "C13", "title": "Forces are linear in the motion", "statement": "The pressure and the forces of a radiation problem depend linearly on the dof: the hydrodynamic coefficients of a combination of dofs are the same combination of coefficients, for the radiating and for the influenced dof.", "quantifier": "every mesh, linear operator, dofs and coefficients", "why_tests_cant": "an identity over all vectors and matrices", "anchors": ["capytaine/bem/solver.py:BEMSolver.solve", "capytaine/bem/problems_and_results.py:RadiationProblem", "capytaine/bodies/bodies.py:FloatingBody.integrate_pressure"]}
{"id": "C14", "title": "Added mass and damping encode the radiation force", "statement": "The complex radiation force is recovered as omega_e^2 A + i omega_e B from the added mass A and damping B, and at zero or infinite frequency the added mass is finite and the damping vanishes.", "quantifier": "every force and every frequency, including zero and infinity", "why_tests_cant": "identity over all values and the limit cases", "anchors": ["capytaine/bem/problems_and_results.py:RadiationResult"]}
{"id": "C15", "title": "Structured matrices describe every block exactly once", "statement": "In block Toeplitz, symmetric Toeplitz, circulant and even or odd symmetric circulant matrices, each block position of the full matrix is described by exactly one stored block, given by the documented formula in j-i.", "quantifier": "every size and every position", "why_tests_cant": "all sizes", "anchors": ["capytaine/matrices/block_toeplitz.py:_block_indices_of"]}
{"id": "C16", "title": "Products with structured matrices equal dense products", "statement": "The product of a block matrix (generic, Toeplitz, symmetric Toeplitz or circulant) with a vector or matrix equals the product with the full matrix, also when it goes through the circulant embedding.", "quantifier": "every size, stored blocks and vectors", "why_tests_cant": "all sizes and values", "anchors": ["capytaine/matrices/block.py:BlockMatrix.matvec", "capytaine/matrices/block_toeplitz.py"]}
{"id": "C17", "title": "Fast solvers of structured systems solve the full system", "statement": "The value returned by the direct solver for a two-block symmetric Toeplitz system and for a block circulant system (through the discrete Fourier transform) satisfies the full linear system.", "quantifier": "every invertible diagonal blocks, every right hand side, every number of blocks", "why_tests_cant": "all sizes and values", "anchors": ["capytaine/matrices/linear_solvers.py:solve_directly"]}
{"id": "C18", "title": "Row products are the transpose of column products", "statement": "rmatvec computes the same product x A for all structured matrices, as for the full matrix.", "quantifier": "every matrix class and complex vector", "why_tests_cant": "all complex vectors", "anchors": ["capytaine/matrices/block.py:BlockMatrix.rmatvec", "capytaine/matrices/block_toeplitz.py:BlockCirculantMatrix"]}
{"id": "C19", "title": "Elementwise operations on structured matrices are dense operations", "statement": "Adding, subtracting or multiplying by scalars structured matrices gives the structured form of the same operation on the full matrices, whatever the classes of the two operands.", "quantifier": "every pair of classes of block matrices of the same shape", "why_tests_cant": "all pairs of structures and sizes", "anchors": ["capytaine/matrices/block.py:BlockMatrix._apply_binary_op"]}
{"id": "C20", "title": "Cutting a matrix in blocks loses nothing", "statement": "Cutting a dense matrix in blocks and reassembling it gives back the same matrix, for all lists of row and column sizes adding up to its shape.", "quantifier": "every matrix and every partition of rows and columns", "why_tests_cant": "all partitions", "anchors": ["capytaine/matrices/builders.py:cut_matrix"]}
{"id": "C21", "title": "Using symmetries does not change the interaction matrix", "statement": "For every mesh built by nesting reflections, translations, rotations and collections, the structured interaction matrix expands to the matrix computed without symmetry, whenever the Green function is invariant under these transformations.", "quantifier": "every nesting depth, number of repetitions and Green function with the invariance", "why_tests_cant": "unbounded nesting", "anchors": ["capytaine/bem/engines.py:BasicMatrixEngine.build_matrices", "capytaine/bem/engines.py:HierarchicalToeplitzMatrixEngine._build_matrices"]}
{"id": "C22", "title": "Adaptive cross approximation interpolates the matrix", "statement": "The adaptive cross approximation never picks the same row or column twice, ends, never exceeds the maximal rank, and its result coincides with the matrix on the rows and columns chosen.", "quantifier": "every matrix and tolerance", "why_tests_cant": "all matrices", "anchors": ["capytaine/matrices/low_rank.py:LowRankMatrix.from_rows_and_cols_functions_with_multi_ACA", "capytaine/matrices/low_rank.py:LowRankMatrix.from_rows_and_cols_functions"]}
{"id": "C23", "title": "Recompressing a low rank matrix at full rank keeps it", "statement": "Recompressing a low rank matrix without dropping any singular value represents the same matrix; sums, opposites, scalings and products of low rank matrices represent the dense ones.", "quantifier": "every factors and ranks", "why_tests_cant": "all matrices", "anchors": ["capytaine/matrices/low_rank.py:LowRankMatrix.recompress"]}
{"id": "C24", "title": "Rotations are rigid motions", "statement": "Rotating points around an axis preserves distances and orientation, fixes the points of the axis, and successive rotations around the same axis add their angles.", "quantifier": "every axis, angle and point", "why_tests_cant": "real identities", "anchors": ["capytaine/meshes/geometry.py:Axis.rotation_matrix", "capytaine/meshes/geometry.py:Axis.rotate_points"]}
{"id": "C25", "title": "Mirroring is the reflection through the plane", "statement": "Mirroring a mesh, body, axis or plane through a plane fixes the points of the plane, sends a point at signed distance d to the point at signed distance -d, and doing it twice is the identity.", "quantifier": "every plane and point", "why_tests_cant": "all planes, including those on the negative side of the origin", "anchors": ["capytaine/meshes/geometry.py:Plane.c", "capytaine/meshes/meshes.py:Mesh.mirror"]}
{"id": "C26", "title": "Moving a symmetry plane or axis moves its points", "statement": "After a translation or rotation, a plane (or axis) is the image of the original plane (axis) under the same motion applied to its points.", "quantifier": "every plane, axis, vector and angle", "why_tests_cant": "all axes, including those that do not go through the origin", "anchors": ["capytaine/meshes/geometry.py:Plane.rotate", "capytaine/meshes/geometry.py:Axis.rotate"]}
{"id": "C27", "title": "Cached panel data is never stale", "statement": "After any sequence of in-place and out-of-place transformations of a mesh, the panel areas, centers, normals and radii read by the user are those of the current vertices and faces, and transformations that are not in place leave the original unchanged.", "quantifier": "every sequence of operations and reads", "why_tests_cant": "all histories", "anchors": ["capytaine/meshes/meshes.py:Mesh", "capytaine/meshes/geometry.py:inplace_transformation"]}
{"id": "C28", "title": "Extracting faces keeps their geometry", "statement": "Extracting a list of faces returns a mesh whose k-th panel has the vertices, in the same order, of the k-th requested panel; removing unused vertices changes no panel; the kept vertices are exactly the used ones.", "quantifier": "every mesh and list of faces", "why_tests_cant": "all meshes", "anchors": ["capytaine/meshes/meshes.py:Mesh.extract_faces", "capytaine/meshes/quality.py:remove_unused_vertices"]}
{"id": "C29", "title": "Merging duplicate vertices is conservative", "statement": "Merging duplicate vertices moves each corner of each panel by at most the tolerance in each coordinate, merges all exactly equal vertices, and never changes the number of panels.", "quantifier": "every list of vertices, tolerance and sort order among ties", "why_tests_cant": "all vertex sets and orders", "anchors": ["capytaine/meshes/quality.py:merge_duplicate_rows"]}
{"id": "C30", "title": "Healing triangles keeps the panels", "statement": "Healing triangles changes each panel only by a cyclic rotation of its corners, keeping its orientation, and every panel with two consecutive equal corners ends with the first corner repeated last.", "quantifier": "every panel", "why_tests_cant": "all panels", "anchors": ["capytaine/meshes/quality.py:heal_triangles"]}
{"id": "C31", "title": "Panel geometry does not depend on how a triangle is encoded", "statement": "The area vector, area and center of a triangular panel do not depend on which corner is repeated; flipping a panel changes the sign of its normal and nothing else; triangulating a quadrangle keeps the total area vector.", "quantifier": "every corner positions", "why_tests_cant": "polynomial identities over the reals", "anchors": ["capytaine/meshes/properties.py:compute_faces_properties", "capytaine/meshes/meshes.py:Mesh.flip_normals", "capytaine/meshes/meshes.py:Mesh.triangulate_quadrangles"]}
{"id": "C32", "title": "Clipping keeps exactly what is under the plane", "statement": "Clipping a panel by a plane always gives panels whose corners are all on the kept side up to the tolerance, every new corner is on an edge of the original panel, and no panel on the kept side is lost.", "quantifier": "every panel and plane, all classifications of the corners", "why_tests_cant": "all sign patterns and positions", "anchors": ["capytaine/meshes/clipper.py"]}
{"id": "C33", "title": "Clipped panels remember the panel they come from", "statement": "After clipping, the list of original panel numbers has one entry per clipped panel and dofs are transported to the right panel.", "quantifier": "every mesh, plane and dof", "why_tests_cant": "all meshes, including those where clipping creates degenerate panels", "anchors": ["capytaine/meshes/clipper.py:clip", "capytaine/bodies/bodies.py:FloatingBody.clip"]}
{"id": "C34", "title": "A collection of meshes is the concatenation of its parts", "statement": "The panels of a (nested) collection, in order, are those of its parts; each panel number belongs to exactly one part, found by submesh_containing_face.", "quantifier": "every tree of meshes", "why_tests_cant": "all trees", "anchors": ["capytaine/meshes/collections.py:CollectionOfMeshes"]}
{"id": "C35", "title": "Copying a symmetric mesh gives the same mesh", "statement": "A copy of a symmetric mesh has the same panels in the same order as the original, after any sequence of transformations of the original.", "quantifier": "every symmetric mesh and history of in-place transformations", "why_tests_cant": "all histories", "anchors": ["capytaine/meshes/symmetric.py:ReflectionSymmetricMesh.__deepcopy__", "capytaine/meshes/symmetric.py:AxialSymmetricMesh.mirror"]}
{"id": "C36", "title": "Joining bodies keeps every dof on its own body", "statement": "The joined body has all dofs of all bodies, each one non-zero only on the panels of its own body and unchanged there; joining is associative.", "quantifier": "every list of bodies, dof names and values", "why_tests_cant": "all names and sizes", "anchors": ["capytaine/bodies/bodies.py:FloatingBody.join_bodies", "capytaine/bodies/bodies.py:FloatingBody.combine_dofs"]}
{"id": "C37", "title": "Regular arrays put each dof on the right copy", "statement": "In a regular array of identical bodies, the dof named after position (i, j) moves exactly the panels of the copy translated by i steps in x and j steps in y.", "quantifier": "every array size and base body", "why_tests_cant": "all sizes", "anchors": ["capytaine/bodies/bodies.py:FloatingBody.assemble_regular_array", "capytaine/meshes/symmetric.py:build_regular_array_of_meshes"]}
{"id": "C38", "title": "Slicing a body keeps its dofs", "statement": "Slicing a body by a plane keeps, for each panel, the motion that each dof imposes on it.", "quantifier": "every body and plane", "why_tests_cant": "all meshes", "anchors": ["capytaine/bodies/bodies.py:FloatingBody.sliced_by_plane"]}
{"id": "C39", "title": "The mesh given to the solver is the current one", "statement": "The mesh including lid read from a body is made of its current mesh and lid, after any sequence of assignments and reads.", "quantifier": "every sequence of assignments, in-place changes and reads", "why_tests_cant": "all histories", "anchors": ["capytaine/bodies/bodies.py:FloatingBody.mesh_including_lid"]}
{"id": "C40", "title": "Closed surfaces have consistent volumes", "statement": "On a closed, consistently oriented triangular mesh, the sum of area vectors is zero, the three volume formulas agree and do not depend on the origin.", "quantifier": "every closed oriented mesh", "why_tests_cant": "all meshes", "anchors": ["capytaine/meshes/surface_integrals.py", "capytaine/bodies/bodies.py:FloatingBody.volumes"]}
{"id": "C41", "title": "Quadrature integrates constants exactly", "statement": "For each quadrature, the weights on a planar convex quadrangle sum up to its area and the first order point is its center.", "quantifier": "every planar quadrangle", "why_tests_cant": "all quadrangles", "anchors": ["capytaine/meshes/quadratures.py"]}
{"id": "C42", "title": "Connected components", "statement": "The connected components computed for a mesh are a partition of its panels in which two panels are together exactly when a chain of panels sharing vertices joins them.", "quantifier": "every mesh", "why_tests_cant": "all meshes, any order of faces", "anchors": ["capytaine/meshes/properties.py:clustering", "capytaine/meshes/properties.py:connected_components"]}
{"id": "C43", "title": "Writing then reading a mesh file gives the same mesh", "statement": "For each text format with a writer and a reader (Nemoh, nat, nem, gdf, hst, hams, Tecplot), reading a file written by the library gives the same panels, with coordinates rounded to the printed digits.", "quantifier": "every mesh, including small ones and large coordinates", "why_tests_cant": "all meshes", "anchors": ["capytaine/io/mesh_writers.py", "capytaine/io/mesh_loaders.py"]}
{"id": "C44", "title": "Exporting a mesh does not change it", "statement": "Writing a mesh to a file leaves the mesh in memory unchanged.", "quantifier": "every mesh and format", "why_tests_cant": "all meshes", "anchors": ["capytaine/io/mesh_writers.py:write_STL"]}
{"id": "C45", "title": "The tabulation file survives crashes", "statement": "Whatever the point at which previous runs were killed, building the Green function again gives the same tables as computing them from scratch; two different sets of parameters never share a file.", "quantifier": "every sequence of runs and crash points, all parameters", "why_tests_cant": "all crash points", "anchors": ["capytaine/green_functions/delhommeau.py:Delhommeau._create_or_load_tabulation"]}
{"id": "C46", "title": "Interpolation of the tables is exact on quadratics", "statement": "The interpolation in the tables reproduces the tabulated values at the nodes and every polynomial of degree at most two in each variable, and only reads inside the tables.", "quantifier": "all nodes, points and table sizes", "why_tests_cant": "real identities and all sizes", "anchors": ["capytaine/green_functions/libDelhommeau/src/Delhommeau_integrals.f90:pick_in_default_tabulation", "capytaine/green_functions/libDelhommeau/src/Delhommeau_integrals.f90:lagrange_polynomial_interpolation"]}
{"id": "C47", "title": "Parallel assembly of matrices is deterministic", "statement": "The matrices S and K are the same for every assignment of columns to threads and every interleaving, and every entry is written.", "quantifier": "every schedule and matrix size", "why_tests_cant": "all interleavings", "anchors": ["capytaine/green_functions/libDelhommeau/src/matrices.f90:BUILD_MATRICES"]}
{"id": "C48", "title": "Complex datasets survive the conversion to real", "statement": "Separating the complex values of a dataset in real and imaginary part and merging them back gives the same values for all variables; nothing else in the dataset changes.", "quantifier": "every dataset", "why_tests_cant": "all datasets", "anchors": ["capytaine/io/xarray.py:separate_complex_values", "capytaine/io/xarray.py:merge_complex_values"]}
{"id": "C49", "title": "A test matrix is expanded completely", "statement": "Filling a dataset solves each combination of the coordinates exactly once: one radiation problem per environment and dof, one diffraction problem per environment and direction.", "quantifier": "every test matrix", "why_tests_cant": "all combinations", "anchors": ["capytaine/io/xarray.py:problems_from_dataset"]}
{"id": "C50", "title": "Each result is found at its own coordinates", "statement": "In the dataset assembled from results, the value stored at given coordinates is the one of the result with these coordinates.", "quantifier": "every list of results", "why_tests_cant": "all lists of results", "anchors": ["capytaine/io/xarray.py:assemble_dataset", "capytaine/io/xarray.py:_dataset_from_dataframe"]}
{"id": "C51", "title": "Imported bemio data is complete", "statement": "The table built from a bemio object has the data of every body, for every code that bemio can read.", "quantifier": "every number of bodies and code", "why_tests_cant": "all inputs", "anchors": ["capytaine/io/bemio.py:dataframe_from_bemio"]}
{"id": "C52", "title": "Post-processing results keep the shape of the points", "statement": "For points given as a single point, a list or a grid, the value returned at a position is the one for the point given at that position.", "quantifier": "every accepted shape", "why_tests_cant": "all shapes", "anchors": ["capytaine/tools/lists_of_points.py:_normalize_points"]}
{"id": "C53", "title": "Post-processing by chunks is exact", "statement": "The potential on a mesh does not depend on the chunk size, and agrees with the potential at the centers of its panels.", "quantifier": "every chunk size, mesh and problem", "why_tests_cant": "all sizes", "anchors": ["capytaine/bem/solver.py:BEMSolver.get_potential_on_mesh", "capytaine/bem/solver.py:BEMSolver.compute_potential"]}
{"id": "C54", "title": "Only positive depths are accepted", "statement": "Any way to create a problem with a non-positive depth raises an error.", "quantifier": "every way of giving the depth", "why_tests_cant": "all inputs", "anchors": ["capytaine/tools/deprecation_handling.py:_get_water_depth", "capytaine/bem/problems_and_results.py:LinearPotentialFlowProblem._check_data"]}
{"id": "C55", "title": "Timers count completed uses", "statement": "A timer holds exactly one duration per completed use, whatever exceptions were raised.", "quantifier": "every sequence of uses", "why_tests_cant": "all histories", "anchors": ["capytaine/tools/timer.py:Timer"]}
{"id": "C56", "title": "Predefined meshes are well formed", "statement": "Predefined grids have the documented number of panels, refer only to existing vertices, neighbouring panels share an edge with opposite orientation, and the requested maximal radius is respected.", "quantifier": "every resolution and size", "why_tests_cant": "all resolutions", "anchors": ["capytaine/meshes/predefined/rectangles.py", "capytaine/meshes/predefined/cylinders.py", "capytaine/post_pro/free_surfaces.py:FreeSurface._generate_mesh"]}
{"id": "C57", "title": "The RAO solves the equation of motion", "statement": "The response returned satisfies the equation of motion with the given dissipation and stiffness, is linear in the excitation, and the impedance is the transfer function divided by -i omega.", "quantifier": "every matrices and excitation", "why_tests_cant": "all matrices", "anchors": ["capytaine/post_pro/rao.py:rao", "capytaine/post_pro/impedance.py:rao_transfer_function"]}
{"id": "C58", "title": "Derivatives of the Rankine terms are consistent", "statement": "The far field Rankine term and its reflections are symmetric in the two points, and the gradient returned is the derivative with respect to the requested variable.", "quantifier": "every pair of points and reflection", "why_tests_cant": "all points", "anchors": ["capytaine/green_functions/libDelhommeau/src/Green_Rankine.f90"]}
{"id": "C59", "title": "Hydrostatic matrices have the physical symmetries", "statement": "The rigid body inertia matrix is symmetric, and the hydrostatic stiffness of a closed surface satisfies the documented rigid body formulas.", "quantifier": "every mesh and mass distribution", "why_tests_cant": "all meshes", "anchors": ["capytaine/bodies/bodies.py:FloatingBody.compute_rigid_body_inertia", "capytaine/bodies/bodies.py:FloatingBody.each_hydrostatic_stiffness"]}
{"id": "C60", "title": "Zero and infinite frequency limits of the boundary conditions", "statement": "The Rankine coefficients selected for each regime (no free surface, zero, infinite, finite frequency, finite depth) cover all admissible inputs and unsupported ones are refused.", "quantifier": "all inputs", "why_tests_cant": "decision logic over all inputs", "anchors": ["capytaine/green_functions/delhommeau.py:Delhommeau.evaluate", "capytaine/green_functions/hams.py"]}
{"id": "C61", "title": "Meshes changed in place are seen by the solver", "statement": "After a mesh has been moved or changed in place, a resolution uses matrices computed for its new position, never cached ones of the old position.", "quantifier": "every sequence of in-place changes and resolutions", "why_tests_cant": "needs all histories and all coordinate values, including those with equal Python hashes", "anchors": ["capytaine/tools/lru_cache.py:lru_cache_with_strict_maxsize", "capytaine/meshes/meshes.py:Mesh.__hash__"]}
{"id": "C62", "title": "Filled and identity block matrices", "statement": "full_like returns a matrix with the same block structure in which every entry is the value; identity_like returns a matrix with the same block structure which represents the identity matrix, for all nestings of block matrices with square diagonal blocks.", "quantifier": "every nested block matrix and value", "why_tests_cant": "Nesting depth and sizes are unbounded", "anchors": ["capytaine/matrices/builders.py:full_like", "capytaine/matrices/builders.py:identity_like"]}
{"id": "C63", "title": "Zero and infinite frequency with a lid", "statement": "A radiation problem at zero or infinite frequency is accepted for a body with a lid as it is for the same body without lid.", "quantifier": "every body with panels and dofs, every lid", "why_tests_cant": "Tests of zero frequency use bodies without lid.", "anchors": ["capytaine/bem/problems_and_results.py:RadiationProblem", "capytaine/tools/symbolic_multiplication.py:SymbolicMultiplication.__array_function__"]}
{"id": "C64", "title": "The memo cache avoids recomputation", "statement": "After a call that returned a value, the same call returns the same value without executing the function and without storing or evicting anything; a value just computed stays available until maxsize further calls have been made.", "quantifier": "every function, every key, every state of the cache and every sequence of fewer than maxsize further calls", "why_tests_cant": "A test counts executions for one sequence of calls.", "anchors": ["capytaine/tools/lru_cache.py:lru_cache_with_strict_maxsize"]}
{"id": "C65", "title": "Aligning an object with a direction", "statement": "Rotating an object around a center to align a vector with a direction leaves the center in place, and afterwards the vector attached to the object points in the requested direction.", "quantifier": "every center and pair of vectors", "why_tests_cant": "all directions", "anchors": ["capytaine/meshes/geometry.py:Abstract3DObject.rotate_around_center_to_align_vectors", "capytaine/meshes/predefined/rectangles.py:mesh_rectangle"]}
{"id": "C66", "title": "Boundary conditions are the normal velocities of the hull", "statement": "The boundary condition of a diffraction problem cancels the normal velocity of the incoming wave on each panel of the hull. That of a radiation problem is the normal velocity of the hull when its displacement is the dof times cos(omega t), with the additional term - U d(dof)/dx for the six rigid dofs in presence of a forward speed. Both are zero on the panels of the lid.", "quantifier": "for all bodies, with or without lid, all frequencies, wave directions and speeds for which the problem can be created", "why_tests_cant": "Tests compare results of whole simulations on a few bodies; a change of sign convention on one of the terms may cancel in symmetric cases.", "anchors": ["capytaine/bem/problems_and_results.py:354-368", "capytaine/bem/problems_and_results.py:417-437"]}
{"id": "C67", "title": "Forces are resultants and moments of the pressure", "statement": "Integrating a pressure field on a body gives, for a translation dof, the component along its direction of the resultant of the pressure forces pushing against the normals, and for a rotation dof the moment of these forces around its axis.", "quantifier": "for all meshes, pressures, directions, axes and amplitudes", "why_tests_cant": "Tests use a few bodies for which most components vanish by symmetry.", "anchors": ["capytaine/bodies/bodies.py:232-240", "capytaine/bodies/bodies.py:153-222"]}
{"id": "C68", "title": "Rotation dofs are infinitesimal rotations", "statement": "The rotation dof of a body around an axis is the derivative, at zero angle, of the positions of the centers of the panels when the mesh is rotated around the same axis.", "quantifier": "for all bodies and all axes", "why_tests_cant": "Tests check a few panels for axes along the coordinates.", "anchors": ["capytaine/bodies/bodies.py:184-222", "capytaine/meshes/geometry.py:263-277"]}
{"id": "C69", "title": "Moving meshes and bodies", "statement": "After a translation, a rotation or a reflection of a mesh, every panel keeps its area, and its center and normal are moved with the mesh. When a body is moved, the normal components of its dofs are unchanged, adding a rotation dof before or after the motion gives the same result, and the reference points keep their positions with respect to the hull and the lid.", "quantifier": "for all meshes and bodies, all translations, rotations and reflections", "why_tests_cant": "Tests move a few symmetric bodies by a few motions; the dependence on the diagonal along which a quadrangle is cut is not visible on planar panels.", "anchors": ["capytaine/meshes/meshes.py:543-594", "capytaine/bodies/bodies.py:974-1009", "capytaine/meshes/properties.py:14-113"]}
{"id": "C70", "title": "Reading data on a mesh has no side effect", "statement": "Reading the areas, normals, centers, radii, quadrature points or other computed data of meshes never changes the meshes nor the results of any later operation: removing the readings from a program gives the same meshes and the same values.", "quantifier": "every history of operations on any number of meshes", "why_tests_cant": "all interleavings of readings and transformations", "anchors": ["capytaine/meshes/meshes.py:Mesh", "capytaine/meshes/quality.py:heal_normals", "capytaine/meshes/meshes.py:compute_quadrature"]}
{"id": "C71", "title": "Healing the normals orients the mesh consistently and outward", "statement": "On a conformal mesh that can be oriented, heal_normals only reverses panels, no side is followed in the same direction by two panels afterwards, and a watertight mesh has a non negative volume.", "quantifier": "every conformal orientable mesh, any number of components and any initial orientation", "why_tests_cant": "all meshes and orientations", "anchors": ["capytaine/meshes/quality.py:heal_normals", "capytaine/meshes/properties.py:compute_connectivity"]}
{"id": "C72", "title": "Surface integrals describe the immersed volume and follow the motions of the mesh", "statement": "The wet surface is invariant by rigid motions, the waterplane area and center follow the motions that keep the vertical, the volume of an open hull is the one enclosed with its flat waterplane, and the center of buoyancy is the centroid of the volume and follows translations.", "quantifier": "every closed surface, hull and rigid motion", "why_tests_cant": "all meshes and motions", "anchors": ["capytaine/meshes/surface_integrals.py", "capytaine/bodies/bodies.py:FloatingBody.center_of_buoyancy"]}
{"id": "C73", "title": "Vertices within the tolerance are merged", "statement": "Merging duplicate vertices merges two vertices exactly when no coordinate differs by more than the tolerance.", "quantifier": "every list of vertices, tolerance and sort order among ties", "why_tests_cant": "all vertex sets and tolerances", "anchors": ["capytaine/meshes/quality.py:merge_duplicate_rows"]}
{"id": "C74", "title": "Panel data of connected components", "statement": "The areas, normals and centers read on a connected component have one entry per panel of the component, the one computed on this component, whatever was read on the original mesh before.", "quantifier": "every mesh, with or without stored panel data", "why_tests_cant": "depends on which properties were read before", "anchors": ["capytaine/meshes/properties.py:connected_components", "capytaine/meshes/meshes.py:extract_faces"]}
{"id": "C75", "title": "Splitting a mesh into a hull and a lid", "statement": "extract_lid returns two meshes which share the panels of the mesh: those of the lid are exactly the panels on the plane, up to the tolerance of the geometric tests, in their original order.", "quantifier": "all valid meshes, all planes, all orders of enumeration of sets", "why_tests_cant": "set arithmetic on numbers of panels: a lost or duplicated panel shows only on meshes which mix both kinds", "anchors": ["capytaine/meshes/meshes.py:846-870"]}
{"id": "C76", "title": "Matrices of bodies follow their dofs", "statement": "The number that the inertia matrix or the hydrostatic stiffness of a body gives between two dofs, by name, does not change when other dofs are removed with keep_only_dofs, nor when the body is joined with other bodies.", "quantifier": "all bodies with a matrix labelled by their dofs, all lists of kept dofs in any order, all lists of joined bodies", "why_tests_cant": "labels and positions agree in the usual order; the tests keep the dofs in this order", "anchors": ["capytaine/bodies/bodies.py:241-267", "capytaine/bodies/bodies.py:797-802"]}
{"id": "C77", "title": "Derivatives of the near field Rankine integrals are consistent", "statement": "For a panel of any size and a field point at any distance, the gradient of the Rankine integral returned with the value (exact or one point formula, reflected or not) is the derivative of this value with respect to the requested variable, the panel being moved without being turned for the second one.", "quantifier": "every panel, field point, reflection and requested variable", "why_tests_cant": "The exact formula has four sides with several thresholds; finite differences on a few points do not meet the thresholds", "anchors": ["capytaine/green_functions/libDelhommeau/src/Green_Rankine.f90:exact_integral_of_Rankine", "capytaine/green_functions/libDelhommeau/src/Green_Rankine.f90:integral_of_reflected_Rankine"]}
{"id": "C78", "title": "Derivatives of the wave part are consistent", "statement": "The gradient of the wave part of the Green function integrated on a panel, in deep water and in finite depth, is the derivative of the integrated value with respect to the requested variable, provided that the elementary integrals are consistent with each other.", "quantifier": "every panel, quadrature, field point, wavenumber, depth, Prony decomposition, variant and requested variable", "why_tests_cant": "Finite differences at a few points do not cover the symmetries of the four problems and of the Prony terms", "anchors": ["capytaine/green_functions/libDelhommeau/src/Green_wave.f90"]}
{"id": "C79", "title": "The variants of the Green function agree", "statement": "The three values of gf_singularities give the same matrices, up to the way in which the source reflected in the free surface is integrated on a panel.", "quantifier": "all panels, points, wavenumbers, tables, in deep water and in finite depth", "why_tests_cant": "The differences are hidden by the quadrature errors in comparisons of numbers, and the finite depth case of the last variant is not tested", "anchors": ["capytaine/green_functions/libDelhommeau/src/matrices.f90", "capytaine/green_functions/libDelhommeau/src/Green_wave.f90", "capytaine/green_functions/delhommeau.py:Delhommeau.evaluate"]}
{"id": "C80", "title": "The pressure can be recomputed on the hull", "statement": "The pressure computed on the mesh of the hull from a result is the pressure that the solver integrated to give the forces.", "quantifier": "every result of the indirect method, with and without forward speed and lid", "why_tests_cant": "All results and meshes", "anchors": ["capytaine/bem/solver.py:BEMSolver.solve", "capytaine/bem/solver.py:BEMSolver.compute_pressure"]}
{"id": "C81", "title": "The elevation is the pressure on the free surface", "statement": "The elevation of the free surface is the pressure at the same point divided by rho g, and the two functions that compute it agree.", "quantifier": "every result, point and mesh", "why_tests_cant": "All results; the forward speed is not compared in tests", "anchors": ["capytaine/bem/solver.py:BEMSolver.compute_free_surface_elevation", "capytaine/bem/solver.py:BEMSolver.get_free_surface_elevation"]}
{"id": "C82", "title": "The far field depends on the point of reference by a phase", "statement": "The Kochin function can be computed for every result with sources, is multiplied by a phase when the point of reference moves, does not change when the body and the point of reference move together, and its two formulas agree up to rounding.", "quantifier": "every result, angle and point of reference, with and without lid", "why_tests_cant": "All results and angles", "anchors": ["capytaine/post_pro/kochin.py:compute_kochin"]}
{"id": "C83", "title": "The preconditioned solver solves the same system", "statement": "The engine with a preconditioner accepts every mesh, and the potential that it computes is the solution of the same linear system as for the other engines.", "quantifier": "every mesh, tree of collections and right-hand side", "why_tests_cant": "All matrices and trees; the tests have pairs of bodies only", "anchors": ["capytaine/bem/engines.py:HierarchicalPrecondMatrixEngine", "capytaine/matrices/linear_solvers.py:solve_precond_gmres"]}
{"id": "C84", "title": "Sums of exponentials are decomposed exactly", "statement": "The decomposition in exponentials finds again every sum of at most as many exponentials as asked. The search returns the first decomposition below the tolerance, or says that there is none. The Green function of finite depth goes on after its warning.", "quantifier": "all functions, intervals, tolerances and sizes", "why_tests_cant": "All functions; the tests have one or two functions", "anchors": ["capytaine/tools/prony_decomposition.py:exponential_decomposition", "capytaine/tools/prony_decomposition.py:find_best_exponential_decomposition", "capytaine/green_functions/delhommeau.py:Delhommeau.find_best_exponential_decomposition"]}
{"id": "C85", "title": "A Nemoh directory describes the problem it was made from", "statement": "A problem exported as a Nemoh directory and imported again has the same density, gravity, depth, frequency, mesh and motion. With a range of frequencies there is one problem for each of them. Any imported file gives all the combinations of its frequencies with its wave directions and its dofs.", "quantifier": "all problems, names, meshes, ranges of frequencies and files", "why_tests_cant": "The tests import three files and export none", "anchors": ["capytaine/io/legacy.py:export_as_Nemoh_directory", "capytaine/io/legacy.py:import_cal_file"]}
{"id": "C86", "title": "All the styles of Hydrostar files are read", "statement": "The loader of Hydrostar files reads the same mesh whether the vertices and the panels are numbered or not, whether the triangles have three or four corners, and with the symmetries of the file. A line that is not a vertex or a panel is refused.", "quantifier": "all meshes, all styles and all lines", "why_tests_cant": "All the styles; the tests read one file of each of a few styles", "anchors": ["capytaine/io/mesh_loaders.py:load_HST"]}
{"id": "C87", "title": "A lid at the proposed position removes the irregular frequencies", "statement": "The estimate of the first irregular frequency is the lowest of the frequencies of the boxes with the sizes of the waterlines of the hull. With a lid at the position proposed for a maximal frequency, the solver does not warn of irregular frequencies up to this frequency, and the proposed lid is as low as possible up to ten percent. The warning follows the current lid of the body.", "quantifier": "all meshes, all frequencies and gravities, all sequences of changes of the hull and of the lid", "why_tests_cant": "A theorem on real functions for all shapes with several waterlines; the tests use a single cylinder", "anchors": ["capytaine/meshes/meshes.py:Mesh.lowest_lid_position", "capytaine/bodies/bodies.py:FloatingBody.first_irregular_frequency_estimate", "capytaine/meshes/properties.py:connected_components_of_waterline", "capytaine/bem/solver.py:BEMSolver._check_wavelength_and_irregular_frequencies"]}
{"id": "C88", "title": "The generated lid covers the inside of the hull", "statement": "The lid generated at a given height is made of the panels of a regular grid, larger than the hull by ten percent, with the four corners inside the hull seen from above. All its points are at the given height and its normals point down.", "quantifier": "all hulls with panels that are convex seen from above, all heights and sizes of the panels of the lid", "why_tests_cant": "The tests look at some shapes and the number of panels; the failure needs a node of the grid on an edge that two panels share", "anchors": ["capytaine/meshes/meshes.py:Mesh.generate_lid"]}
{"id": "C89", "title": "Adding dofs to a body", "statement": "A new dof is the requested field of velocity at the centers of the panels, under its name; the dofs with other names do not change. A dof without a name is one more dof. The six rigid dofs are the rigid motions around the rotation center, or else the center of mass. The dofs of a body do not change when another body is changed.", "quantifier": "all bodies, all sequences of requests and of operations on several bodies", "why_tests_cant": "It needs all sequences of operations: the tests add dofs to new bodies and look at one body at a time", "anchors": ["capytaine/bodies/bodies.py:FloatingBody.add_translation_dof", "capytaine/bodies/bodies.py:FloatingBody.add_rotation_dof", "capytaine/bodies/bodies.py:FloatingBody.add_all_rigid_body_dofs", "capytaine/bodies/bodies.py:FloatingBody.sliced_by_plane"]}
{"id": "C90", "title": "Order of the problems", "statement": "solve_all and problems_from_dataset arrange the problems such that all the problems of a body are together, the problems with the same body, levels, frequency, speed and density are together and keep their order, and the problems of a body at the same levels are in the order of the frequencies.", "quantifier": "all lists of problems", "why_tests_cant": "The order is only visible in the number of matrices that are built; the tests check results, which do not depend on it", "anchors": ["capytaine/bem/problems_and_results.py:LinearPotentialFlowProblem.__lt__", "capytaine/bodies/bodies.py:FloatingBody.__lt__", "capytaine/bem/solver.py:BEMSolver.solve_all", "capytaine/io/xarray.py:problems_from_dataset"]}
{"id": "C91", "title": "Joining symmetric meshes", "statement": "Joining meshes with the same symmetry gives a mesh with this symmetry and with the panels of all the given meshes; axes with opposite vectors are the same symmetry. Meshes of other classes or with other numbers of slices are refused.", "quantifier": "all lists of symmetric meshes built by the constructors, with any planes, axes, vectors and numbers of slices", "why_tests_cant": "The tests join pairs of meshes with equal symmetries; the direction of the axis and the tolerance on the vectors are not reached", "anchors": ["capytaine/meshes/symmetric.py:ReflectionSymmetricMesh.join_meshes", "capytaine/meshes/symmetric.py:TranslationalSymmetricMesh.join_meshes", "capytaine/meshes/symmetric.py:AxialSymmetricMesh.join_meshes"]}
{"id": "C92", "title": "Meshes shared between objects", "statement": "A motion in place of a mesh moves this mesh as a whole, once, and changes no other mesh that the program can see: copies and moved copies share nothing with their source.", "quantifier": "all programs that create, copy, move, collect, repeat by symmetry and join meshes", "why_tests_cant": "Sharing is only visible when a mesh is moved in place after it has been given to a collection or to a symmetric mesh; the tests do not look at the operands any more", "anchors": ["capytaine/meshes/collections.py:CollectionOfMeshes.__init__", "capytaine/meshes/collections.py:CollectionOfMeshes.translate", "capytaine/meshes/symmetric.py:ReflectionSymmetricMesh.__init__", "capytaine/meshes/symmetric.py:TranslationalSymmetricMesh.__init__", "capytaine/meshes/symmetric.py:AxialSymmetricMesh.__init__", "capytaine/meshes/geometry.py:Abstract3DObject"]}
{"id": "C93", "title": "Clipping symmetric meshes", "statement": "When a mesh with a symmetry along the clipping plane is clipped, it keeps its class and its number of parts, and its parts are still the images of the first one: the matrices computed from the first part and the copies of the mesh are right. When nothing is left, it has a single empty part.", "quantifier": "all symmetric meshes of any depth, all planes, all motions along the plane", "why_tests_cant": "The tests clip symmetric meshes with few panels and compare numbers of panels; a plane across the symmetry or a dry symmetric mesh is not tried", "anchors": ["capytaine/meshes/collections.py:CollectionOfMeshes.clip", "capytaine/meshes/collections.py:CollectionOfMeshes.prune_empty_meshes", "capytaine/meshes/meshes.py:Mesh.clip", "capytaine/meshes/symmetric.py:TranslationalSymmetricMesh.__deepcopy__", "capytaine/bem/engines.py:BasicMatrixEngine.build_matrices"]}
{"id": "C94", "title": "Datasets of Kochin functions", "statement": "In the dataset made from a list of results and angles, the Kochin function read at some labels is the one of the result with these labels, and the Kochin function of each result is found at its labels, for radiation and diffraction results together.", "quantifier": "all lists of results, all lists of angles, all parameters, all computed values", "why_tests_cant": "The tests check the dimensions of the dataset for one list of results; results of the two kinds at different frequencies or parameters are not tried", "anchors": ["capytaine/io/xarray.py:kochin_data_array", "capytaine/io/xarray.py:_dataset_from_dataframe"]}
{"id": "C95", "title": "Bare matrices", "statement": "The matrices and the vector of forces returned without labels hold the values of the dataset, with a row for each radiating dof and a column for each influenced dof. Missing variables are reported as None.", "quantifier": "all datasets, all numbers of frequencies and dofs", "why_tests_cant": "The tests compare the arrays with the squeezed variables of the dataset itself", "anchors": ["capytaine/io/xarray.py:assemble_matrices"]}
{"id": "C96", "title": "Datasets of hydrostatics", "statement": "Selecting the name of a body in the dataset of hydrostatics gives the inertia matrix and the stiffness of this body.", "quantifier": "all lists of bodies, with or without each of the matrices", "why_tests_cant": "The tests use one body, or bodies with different names which have both matrices", "anchors": ["capytaine/io/xarray.py:hydrostatics_dataset", "capytaine/io/xarray.py:_squeeze_dimensions", "capytaine/io/xarray.py:assemble_dataset"]}
{"id": "C97", "title": "Clusters of bodies", "statement": "Clustering bodies gives the body that joining them gives, up to its name and the order of the bodies: each body is found once with its panels, and its dofs have the same names and motions as in the joined body.", "quantifier": "all lists of at least two bodies, all linkages, all names", "why_tests_cant": "The test builds one array and checks the number of dofs", "anchors": ["capytaine/bodies/bodies.py:cluster_bodies", "capytaine/bodies/bodies.py:join_bodies"]}
{"id": "C98", "title": "Minced bodies", "statement": "Mincing a body in (nx, ny, nz) slices gives a body with the same panels, grouped in parts such that no part crosses the boundary between two of the slices of equal width of the box around the mesh, and the same motion on each panel for each dof.", "quantifier": "all bodies, all numbers of slices, all shapes", "why_tests_cant": "The test minces one cylinder and checks the shape of the tree and the side of one part", "anchors": ["capytaine/bodies/bodies.py:minced", "capytaine/bodies/bodies.py:sliced_by_plane", "capytaine/meshes/meshes.py:axis_aligned_bbox"]}
{"id": "C99", "title": "Quadrature method of a mesh", "statement": "The quadrature points used for a mesh are those of the method chosen last for it (at construction or by compute_quadrature), or for the mesh it was copied, moved, extracted or joined from; a collection on which compute_quadrature was called announces this method and gives the points of all its meshes; a body with a lid has the points of its hull and of its lid; and the matrices built by an engine are those of the present method.", "quantifier": "all histories of construction, computation, copy, motion, extraction and reading on any number of meshes, all methods, all nested collections, all sizes of the memory of the engine", "why_tests_cant": "The tests compute the quadrature of a mesh once, right after its construction, and never mix methods", "anchors": ["capytaine/meshes/meshes.py:compute_quadrature", "capytaine/meshes/meshes.py:quadrature_points", "capytaine/meshes/meshes.py:extract_faces", "capytaine/meshes/collections.py:quadrature_points", "capytaine/meshes/collections.py:quadrature_method", "capytaine/meshes/collections.py:merged", "capytaine/bodies/bodies.py:mesh_including_lid", "capytaine/bem/engines.py:build_matrices"]}
{"id": "C100", "title": "Warnings before the resolution", "statement": "The solver shows a message about the mesh exactly when a panel of the hull or of the lid has a radius larger than an eighth of the wavelength for which the matrices are built; the numbers in the message are true; the advice given about irregular frequencies is meant for the bodies concerned; and the checks change nothing to the results of solve_all.", "quantifier": "all batches of problems, all meshes and lids, all frequencies and forward speeds", "why_tests_cant": "The tests check that a message is shown for one problem with a coarse mesh", "anchors": ["capytaine/bem/solver.py:_check_wavelength_and_mesh_resolution", "capytaine/bem/solver.py:_check_wavelength_and_irregular_frequencies", "capytaine/bem/solver.py:solve_all", "capytaine/bodies/bodies.py:minimal_computable_wavelength"]}
{"id": "C101", "title": "Data at the nodes and animations", "statement": "The data computed at a vertex of a mesh from data on the panels is the mean of the values of the panels around it; in particular a rigid translation of all the panels is a translation of all the vertices. Each frame of an animation shows the real part of the complex motion at its own time, the loop is periodic, and the colors are in the range of the scale.", "quantifier": "all meshes, all data, all numbers of panels around a vertex, all frames", "why_tests_cant": "No test computes data at the nodes of a mesh with triangles or with many panels around a vertex", "anchors": ["capytaine/ui/vtk/helpers.py:compute_node_data", "capytaine/ui/vtk/animation.py:Animation._add_actor", "capytaine/ui/vtk/animation.py:Animation.add_free_surface", "capytaine/ui/vtk/animation.py:Animation._callback"]}
{"id": "C102", "title": "Mesh files with numbered nodes", "statement": "Reading a Radioss, Diodore or Gmsh file gives a mesh whose panels join the points that have the numbers written in the file, each panel of the file once and in an order that does not depend on the installed libraries; what cannot be read is refused.", "quantifier": "all files of these formats, with any numbers of nodes, sections and frames", "why_tests_cant": "The tests read a few files in which the nodes are numbered in order", "anchors": ["capytaine/io/mesh_loaders.py:load_RAD", "capytaine/io/mesh_loaders.py:load_INP", "capytaine/io/mesh_loaders.py:load_MSH", "capytaine/io/meshio.py:load_from_meshio"]}
{"id": "C103", "title": "Result files in the format of Nemoh", "statement": "Writing a dataset as Tecplot files gives, for each radiating dof and each frequency, the added mass and the damping on each influenced dof, and for each direction and frequency the modulus and the argument of the sum of the Froude-Krylov and diffraction forces; the directory then holds the files of this dataset only, and a dataset that cannot be written leaves no file. The hydrostatics of each body are written in files of their own.", "quantifier": "all datasets, directories, numbers of bodies and formats of numbers", "why_tests_cant": "the files are only produced by the legacy command line; no test reads them back", "anchors": ["capytaine/io/legacy.py:write_dataset_as_tecplot_files", "capytaine/io/legacy.py:export_hydrostatics", "capytaine/io/legacy.py:run_cal_file"]}
{"id": "C104", "title": "Products of two matrices, conversions and iterative solvers", "statement": "The product of a block matrix by an array or by a block matrix is the product of the full matrices, or an exception when the sizes do not agree. Removing the Toeplitz structure keeps the entries. `all` and `any` are about all entries, and no more numbers are stored than there are entries. The product with a vector is defined for all types of numbers. The iterative solvers return a vector that solves the system, or say that they do not.", "quantifier": "all matrices of all block classes, at any depth of nesting, all arrays and all behaviours of the external solver", "why_tests_cant": "the tests multiply a few small matrices of one level by vectors", "anchors": ["capytaine/matrices/block.py:matmat", "capytaine/matrices/block.py:__matmul__", "capytaine/matrices/block.py:no_toeplitz", "capytaine/matrices/block.py:stored_data_size", "capytaine/matrices/block.py:all", "capytaine/matrices/linear_solvers.py:solve_gmres", "capytaine/matrices/linear_solvers.py:gmres_no_fft"]}
{"id": "C105", "title": "Data on the meshes and attributes of a dataset", "statement": "When asked for, a dataset holds for each body the number of panels and the quadrature method of its mesh, whatever the order in which the bodies are found. The attributes given by the caller are those of the dataset, with the date and the version, and the dictionary of the caller is left as it is. Results of Capytaine and data of bemio are recognised, and anything else is refused.", "quantifier": "all lists of results, bodies, orders of sets, dictionaries of attributes and kinds of inputs", "why_tests_cant": "the option is tested on one body; the order of a set of bodies depends on addresses", "anchors": ["capytaine/io/xarray.py:assemble_dataset", "capytaine/io/xarray.py:_detect_bemio_results"]}
{"id": "C106", "title": "Roots of the dispersion relation in finite depth", "statement": "For the finite depth Green function of HAMS, the numbers given to the compiled routine are the wavenumber and the wavenumbers of the evanescent modes, one in each interval, in increasing order, for all frequencies and depths, and as many as the user asks for.", "quantifier": "all wavenumbers, depths, numbers of roots and root finders that meet the contract of brentq", "why_tests_cant": "the brackets of the roots only fail at frequencies that are not tested; reading beyond the end of an array is not seen", "anchors": ["capytaine/green_functions/hams.py:compute_dispersion_relation_roots", "capytaine/green_functions/libDelhommeau/src/Green_wave.f90:integral_of_wave_part_fingreen3D"]}
{"id": "C107", "title": "The immersed part is in the water", "statement": "After keep_immersed_part, every vertex is below the free surface and above the sea bottom, up to the tolerances of the clipping. immersed_part gives this mesh and leaves the object as it is. A call that is refused leaves the object as it was.", "quantifier": "all meshes, levels of the free surface, depths and sea bottoms, in place or not", "why_tests_cant": "meshes of the tests have flat panels: a warped panel keeps corners above the plane; refusals are tested for the exception, not for the state of the object", "anchors": ["capytaine/meshes/geometry.py:keep_immersed_part", "capytaine/meshes/geometry.py:immersed_part", "capytaine/meshes/clipper.py:clip"]}
{"id": "C108", "title": "Relations between axes, planes and vectors", "statement": "point in axis, point in plane, is_parallel_to, is_orthogonal_to and == say what the geometry says, up to 1e-6: distance to the line or the plane, parallel or orthogonal directions. The relations do not depend on the order of the objects nor on a common motion, a direction is not both parallel and orthogonal, and == is reflexive, symmetric and transitive.", "quantifier": "all axes, planes, vectors, points, translations, rotations and reflections", "why_tests_cant": "tests use exact directions of the axes of coordinates, where the tolerances do not matter", "anchors": ["capytaine/meshes/geometry.py:Axis.is_orthogonal_to", "capytaine/meshes/geometry.py:Axis.is_parallel_to", "capytaine/meshes/geometry.py:Plane.is_orthogonal_to", "capytaine/meshes/geometry.py:Axis.__eq__", "capytaine/meshes/geometry.py:Plane.__eq__"]}
{"id": "C109", "title": "The normals of the lid of a body go down", "statement": "The lid kept by FloatingBody has the vertices of the lid that was given and all its normals go down. An empty lid is ignored. Doing it twice changes nothing more.", "quantifier": "all lids: meshes and collections of meshes, with any panels", "why_tests_cant": "the tests use one regular grid with all the normals up", "anchors": ["capytaine/meshes/meshes.py:with_normal_vector_going_down", "capytaine/meshes/collections.py:with_normal_vector_going_down", "capytaine/bodies/bodies.py:FloatingBody.__init__"]}
{"id": "C110", "title": "A mesh and its set of panels", "statement": "Two meshes are equal when they have the same panels, each one as the set of its corners. from_set_of_faces(mesh.as_set_of_faces()) is a mesh equal to the first one, with no vertex twice and none unused, in whichever order the sets are read, and with the same panels.", "quantifier": "all meshes with valid faces and all orders in which the sets are read", "why_tests_cant": "the order in which a set is read changes from one run to the other, and tests compare meshes with the equality that does not see the differences", "anchors": ["capytaine/meshes/meshes.py:as_set_of_faces", "capytaine/meshes/meshes.py:from_set_of_faces", "capytaine/meshes/meshes.py:Mesh.__eq__"]}
{"id": "C111", "title": "The bounding cube of a mesh", "statement": "squared_axis_aligned_bbox is a cube that holds all the vertices, with the center of the bounding box, and no smaller cube holds them.", "quantifier": "all meshes with vertices", "why_tests_cant": "no test calls it; only a plotting function does", "anchors": ["capytaine/meshes/meshes.py:squared_axis_aligned_bbox", "capytaine/meshes/meshes.py:axis_aligned_bbox"]}
{"id": "C112", "title": "A mesh written for Diodore is read again", "statement": "Reading with load_mesh the input file suggested by the Diodore writer, completed with the name of a frame, gives the vertices of the mesh in their order, moved by the frame, and its panels, each with its corners in their order, quadrangles first. Nothing is lost or repeated.", "quantifier": "all meshes with at least one panel, all frames", "why_tests_cant": "no test reads or writes this format", "anchors": ["capytaine/io/mesh_writers.py:write_DAT", "capytaine/io/mesh_loaders.py:load_INP"]}
{"id": "C113", "title": "The gradient of the FinGreen3D Green function is the derivative at the requested point", "statement": "The wave part of the single layer and of the double layer evaluated by FinGreen3D are consistent: each component of the returned gradient is the derivative of the returned value with respect to the coordinate of the point asked for, the collocation point for the adjoint double layer and the source point otherwise. The value meets the conditions at the free surface and at the sea bottom.", "quantifier": "all pairs of points, all depths and wavenumbers, all roots of the dispersion relation given", "why_tests_cant": "the body of the test with an analytical solution only has horizontal normals, and the other test compares with another method up to an absolute error of 0.1", "anchors": ["capytaine/green_functions/libDelhommeau/src/Green_wave.f90:integral_of_wave_part_fingreen3D", "capytaine/green_functions/FinGreen3D/FinGreen3D.f90:fingreen3d_routine", "capytaine/green_functions/FinGreen3D/FinGreen3D.f90:EIGEN"]}
{"id": "C114", "title": "The function decomposed for finite depth is regular on its range", "statement": "The function that the finite depth Green function decomposes in exponentials is bounded and continuous on the range where it is sampled, from -0.1 to 20. Away from the wavenumber it is the exact kernel without its pole. Near the wavenumber it is a smooth interpolation that takes the exact values at the ends of the interval and the exact limit at the pole. It tends to zero at infinity.", "quantifier": "all wavenumbers and depths", "why_tests_cant": "the tests use one or two values of the product of wavenumber and depth, both above 0.1", "anchors": ["capytaine/green_functions/libDelhommeau/src/old_Prony_decomposition.f90:FF", "capytaine/green_functions/delhommeau.py:find_best_exponential_decomposition"]}
{"id": "C115", "title": "The Fortran least squares solver finds the least squares solution", "statement": "For a system with at least as many lines as columns and independent columns, the solver used for the decomposition in exponentials returns the values with the smallest sum of squared residuals, and the exact solution if there is one. It never divides by zero exactly when the columns are independent. It stops exactly when there are fewer lines than columns.", "quantifier": "all sizes, all matrices and right hand sides of real numbers", "why_tests_cant": "no test calls the solver directly; only the sum of exponentials is compared, up to 20 percent", "anchors": ["capytaine/green_functions/libDelhommeau/src/old_Prony_decomposition.f90:HOUSRS"]}
{"id": "C116", "title": "The Fortran decomposition finds the sums of exponentials", "statement": "The Fortran method of decomposition in exponentials finds again a function that is a sum of decreasing exponentials, its amplitudes minimise the error at the sampling points, its rates are between -20 and 0, and the returned decomposition is the first one whose error at the points of control is small enough.", "quantifier": "all functions, all numbers of exponentials tried", "why_tests_cant": "the tests compare the Fortran and Python methods for one frequency, up to 20 percent", "anchors": ["capytaine/green_functions/libDelhommeau/src/old_Prony_decomposition.f90:LISC", "capytaine/green_functions/libDelhommeau/src/old_Prony_decomposition.f90:EXPORS", "capytaine/green_functions/libDelhommeau/src/old_Prony_decomposition.f90:MCAS"]}
{"id": "C117", "title": "The Fortran root finder returns all the roots of a polynomial", "statement": "The subroutine that finds the roots of the polynomial of the decomposition in exponentials returns all its roots with their multiplicities, as many as its degree, or ends the program.", "quantifier": "all polynomials with real coefficients, all orders in which factors are found", "why_tests_cant": "no test calls the root finder; only the final decomposition is compared, for one frequency and up to 20 percent", "anchors": ["capytaine/green_functions/libDelhommeau/src/old_Prony_decomposition.f90:SPRBM"]}
{"id": "C118", "title": "The waves of LiangWuNoblesseGF are accurate at every distance", "statement": "With LiangWuNoblesseGF, for all positions of the two points the wave term differs from the exact one by less than 1.4e-4 times exp(k(z+zeta)), and its horizontal derivative by less than 5.4e-4 times the same factor; far away only the waves remain, and they are outgoing with the right amplitude; near the source the function has the right logarithm; whatever the errors of the approximations the computed function satisfies the condition of the free surface exactly, is symmetric in the two points, and has no horizontal derivative on the vertical of the source; it is defined for all pairs of points under water except two points of the free surface on one vertical.", "quantifier": "all wavenumbers, all pairs of points with z <= 0, all distances from zero to infinity", "why_tests_cant": "tests compare a few matrices with the other Green functions with a loose tolerance; no test bounds the error for all distances", "anchors": ["capytaine/green_functions/LiangWuNoblesse/LiangWuNoblesseWaveTerm.f90:HavelockGF", "capytaine/green_functions/LiangWuNoblesse/LiangWuNoblesseWaveTerm.f90:BesselJ0", "capytaine/green_functions/LiangWuNoblesse/LiangWuNoblesseWaveTerm.f90:StruveH1", "capytaine/green_functions/libDelhommeau/src/Green_wave.f90:WAVE_PART_INFINITE_DEPTH"]}
{"id": "C119", "title": "Arithmetic between matrices gives a value or a refusal, the same in both orders", "statement": "For two hierarchical matrices, +, -, * and / end with a value or with TypeError; A + B and B + A are the same, A - B gives a value when A + B does; a number multiplies and divides every entry of a matrix, whatever the nature of its blocks.", "quantifier": "all hierarchical matrices of all classes, with dense and low rank blocks, all numbers and all limits of recursion", "why_tests_cant": "tests add matrices of the same class; they do not try pairs of unrelated classes, low rank blocks or complex numbers", "anchors": ["capytaine/matrices/block.py:BlockMatrix._apply_binary_op", "capytaine/matrices/block.py:BlockMatrix.__radd__", "capytaine/matrices/block.py:BlockMatrix.__rsub__", "capytaine/matrices/block.py:BlockMatrix.__mul__", "capytaine/matrices/block.py:BlockMatrix.__truediv__", "capytaine/matrices/low_rank.py:LowRankMatrix.__truediv__"]}
{"id": "C120", "title": "The Bessel functions of the finite depth Green function have six digits", "statement": "In the FinGreen3D method, the functions J0, J1, Y0 and Y1 of wavenumber times distance differ from the true ones by less than a millionth (for Y1 by a millionth times 1 + 1/x) for all positive arguments, are exact for J0 and J1 at 0, and are the same numbers in all the methods of evaluation of the Green function.", "quantifier": "all positive real arguments, without upper limit, in exact arithmetic", "why_tests_cant": "tests compare a few values of the Green function with a tolerance; an argument where one polynomial is poor or a wrong digit in a coefficient is seen only by comparison at all arguments", "anchors": ["capytaine/green_functions/FinGreen3D/FinGreen3D.f90:JY01B", "capytaine/green_functions/FinGreen3D/FinGreen3D.f90:JY01BJ", "capytaine/green_functions/FinGreen3D/FinGreen3D.f90:JY01BY0", "capytaine/green_functions/FinGreen3D/FinGreen3D.f90:JY01BY1"]}
{"id": "C121", "title": "The modified Bessel functions of the finite depth Green function have seven digits", "statement": "In the FinGreen3D method, the functions K0 and K1 of the evanescent modes have a relative error below 1.5e-8 for all positive arguments, whatever the memory contains before the call.", "quantifier": "all positive real arguments, without upper limit, and all contents of the memory, in exact arithmetic", "why_tests_cant": "the arguments at which a term of the series vanishes, and the contents of uninitialised memory which stop the loop, are not met by chance in a test", "anchors": ["capytaine/green_functions/FinGreen3D/FinGreen3D.f90:IK01A"]}
{"id": "C122", "title": "The exponential integrals of the finite depth Green function are accurate", "statement": "In the FinGreen3D method, the exponential integral of every order n is returned with a relative error below 3e-7 for all positive arguments, and the integral Ei with a relative error of rounding.", "quantifier": "all orders and all positive real arguments, without upper limit, in exact arithmetic", "why_tests_cant": "the loss of the digits depends on the order and on the argument together, and the tests only sample a few values of the resulting Green function", "anchors": ["capytaine/green_functions/FinGreen3D/FinGreen3D.f90:ENXA", "capytaine/green_functions/FinGreen3D/FinGreen3D.f90:E1XA", "capytaine/green_functions/FinGreen3D/FinGreen3D.f90:EIX"]}
{"id": "C123", "title": "The expansion coefficients of the method of Linton are accurate to the tolerance", "statement": "In the FinGreen3D method close to the vertical axis, the series of the expansion coefficients and of their derivatives end for all frequencies, distances and depths, and their sums are within a few 1e-6 of the integrals which define them.", "quantifier": "all positive distances, wave numbers and parameters, in exact arithmetic, without bound on the number of terms", "why_tests_cant": "the stopping test looks at one term only, and the frequencies at which the fitted parameter vanishes or grows without limit are outside the sampled cases", "anchors": ["capytaine/green_functions/FinGreen3D/FinGreen3D.f90:COEF", "capytaine/green_functions/FinGreen3D/FinGreen3D.f90:SA0", "capytaine/green_functions/FinGreen3D/FinGreen3D.f90:SAM", "capytaine/green_functions/FinGreen3D/FinGreen3D.f90:DSAM", "capytaine/green_functions/FinGreen3D/FinGreen3D.f90:LINTON"]}
{"id": "C124", "title": "The extrapolation of the series of the finite depth Green function finds the limit", "statement": "The value which the FinGreen3D method guesses from the first sums of its series is the limit when the sums are a limit and a power, whatever the number of sums; it is equal to the common value when the sums stop changing; and it follows the sums when they are multiplied and moved.", "quantifier": "all sequences, all numbers of sums, all limits and ratios, in exact arithmetic", "why_tests_cant": "the tests of the library compare whole Green functions with a tolerance, and the sums which stop changing do not occur with the sampled distances", "anchors": ["capytaine/green_functions/FinGreen3D/FinGreen3D.f90:Limes", "capytaine/green_functions/FinGreen3D/FinGreen3D.f90:EIGENE", "capytaine/green_functions/FinGreen3D/FinGreen3D.f90:PIDCOCK"]}
{"id": "C125", "title": "The adaptive quadrature of the finite depth Green function integrates what it is given", "statement": "The adaptive quadrature of the FinGreen3D method ends for every integrand and every positive tolerance; its value is the sum of its rule over the pieces of a partition of the interval in which every piece has passed its test; it integrates the polynomials of degree at most 23 up to the rounding of its tables; and the error of its value is bounded by its tolerance.", "quantifier": "all integrands, intervals, tolerances and depths of the recursion, in exact arithmetic with the tables of the code", "why_tests_cant": "the tests of the library call the quadrature through whole Green functions only, with a few distances", "anchors": ["capytaine/green_functions/FinGreen3D/FinGreen3D.f90:GK_INTEG", "capytaine/green_functions/FinGreen3D/FinGreen3D.f90:AQUAD", "capytaine/green_functions/FinGreen3D/FinGreen3D.f90:GK_INTEGF", "capytaine/green_functions/FinGreen3D/FinGreen3D.f90:AQUADF"]}
{"id": "C126", "title": "The error functions of the finite depth Green function are accurate", "statement": "The error function of the FinGreen3D method has an absolute error of at most 1e-11 and is odd; the complementary error function has a relative error of at most 7.3e-6 for every argument, however small its value; and the function used as its derivative is its derivative.", "quantifier": "all real arguments, in exact arithmetic with the constants of the code", "why_tests_cant": "the tests of the library reach these functions through whole Green functions only, with a few distances", "anchors": ["capytaine/green_functions/FinGreen3D/FinGreen3D.f90:ERROR", "capytaine/green_functions/FinGreen3D/FinGreen3D.f90:ERFCC", "capytaine/green_functions/FinGreen3D/FinGreen3D.f90:DERFCC"]}
{"id": "C127", "title": "The expansion coefficients by quadrature respect the tolerance", "statement": "In the method of Linton of FinGreen3D, the coefficient of a mode which is computed by quadrature is the integral to infinity within the tolerance of the code (1e-6): the part beyond the end of the interval which the code chooses is negligible.", "quantifier": "all modes but the first, all distances and all wave numbers, all quadratures with a given error, in exact arithmetic", "why_tests_cant": "the tests of the library use a depth of a few metres, and the part that is left out grows with the depth", "anchors": ["capytaine/green_functions/FinGreen3D/FinGreen3D.f90:COEF", "capytaine/green_functions/FinGreen3D/FinGreen3D.f90:F1"]}
{"id": "C128", "title": "The derivative of the coefficient of the propagating mode is a derivative", "statement": "In the method of Linton of FinGreen3D, the series which gives the radial derivative of the coefficient of the propagating mode ends and gives the derivative of this coefficient within the tolerance of the code.", "quantifier": "all positive distances, wave numbers and lengths, in exact arithmetic with the constants of the code", "why_tests_cant": "the tests of the library compare no derivative of the finite depth Green function with finite differences of its value", "anchors": ["capytaine/green_functions/FinGreen3D/FinGreen3D.f90:DSA0", "capytaine/green_functions/FinGreen3D/FinGreen3D.f90:SA0"]}
{"id": "C129", "title": "Products of matrices refuse vectors of the wrong size", "statement": "The product of a matrix of any class with a vector, on one side or on the other, is refused unless the vector has as many entries as the matrix has columns (or lines), as for full matrices.", "quantifier": "all hierarchical matrices, all lengths of vectors", "why_tests_cant": "the tests multiply matrices by vectors of the right size only", "anchors": ["capytaine/matrices/block.py:BlockMatrix.matvec", "capytaine/matrices/block.py:BlockMatrix.rmatvec", "capytaine/matrices/block_toeplitz.py:BlockToeplitzMatrix.matvec", "capytaine/matrices/block_toeplitz.py:BlockCirculantMatrix.matvec", "capytaine/matrices/block_toeplitz.py:BlockCirculantMatrix.rmatvec"]}
{"id": "C130", "title": "The tabulated imaginary parts are the documented integrals", "statement": "The imaginary parts of the infinite depth Green function and of its derivative along the horizontal distance, as tabulated by the default engine or computed without tables, are the integrals of which they are the quadrature, to the precision of the tables.", "quantifier": "all distances up to 100, all depths, all numbers of integration points of at least twice the distance, all values of the constant PI", "why_tests_cant": "the tests compare a few values with reference data", "anchors": ["capytaine/green_functions/libDelhommeau/src/Delhommeau_integrals.f90:numerical_integration", "capytaine/green_functions/libDelhommeau/src/Delhommeau_integrals.f90:construct_tabulation"]}
{"id": "C131", "title": "The two variants of the infinite depth Green function differ by the reflected Rankine source", "statement": "The values computed for gf_singularities=\"high_freq\" and for \"low_freq\" differ by 2/sqrt(r^2+z^2), as the documentation of the Green function says, so both choices give the same total Green function.", "quantifier": "all distances, all depths, all numbers of integration points, any approximation of the exponential integral", "why_tests_cant": "the tests compare the two variants at a few points away from the free surface", "anchors": ["capytaine/green_functions/libDelhommeau/src/Delhommeau_integrals.f90:numerical_integration", "capytaine/green_functions/libDelhommeau/src/Green_wave.f90:wave_part_infinite_depth"]}
{"id": "C132", "title": "The asymptotic derivatives are derivatives", "statement": "Beyond the tables, the values used for the derivatives of the Green function along the distance are the derivatives of the values used for the Green function.", "quantifier": "all distances and depths", "why_tests_cant": "the tests compare the asymptotic values with the others at few points only", "anchors": ["capytaine/green_functions/libDelhommeau/src/Delhommeau_integrals.f90:asymptotic_approximations"]}
{"id": "C133", "title": "The constant \u03c0 of the solver has the precision of the computation", "statement": "The constant \u03c0 used by the Fortran core is the number of the working precision which is nearest to \u03c0.", "quantifier": "the value of the constant", "why_tests_cant": "no test looks at the constant", "anchors": ["capytaine/green_functions/libDelhommeau/src/constants.f90"]}
{"id": "C134", "title": "No jump of the Green function at the edge of the tables", "statement": "At the edge of the tables, where the asymptotic expression takes over, the imaginary part of the infinite depth Green function does not jump by more than the precision of the tables, and beyond the edge it stays near the exact value 2 pi exp(z) J0(r).", "quantifier": "all distances of at least 100, all depths", "why_tests_cant": "the tests do not compare both sides of the edge", "anchors": ["capytaine/green_functions/libDelhommeau/src/Delhommeau_integrals.f90:asymptotic_approximations", "capytaine/green_functions/libDelhommeau/src/Delhommeau_integrals.f90:numerical_integration", "capytaine/green_functions/libDelhommeau/src/Green_wave.f90:wave_part_infinite_depth"]}
{"id": "C135", "title": "Accuracy of the tabulated Green function for points on the same vertical", "statement": "For two points on the same vertical, the first tabulated integral of the infinite depth Green function is the exponential integral -2 exp(z) Ei(-z) within 3e-4, at all depths, and varies continuously with the depth.", "quantifier": "all reduced depths z < 0, all numbers of integration points, any value of the constant PI", "why_tests_cant": "the tests compare a few points with coarse tolerances, and never on both sides of the depths where the formula changes", "anchors": ["capytaine/green_functions/libDelhommeau/src/Delhommeau_integrals.f90:numerical_integration", "capytaine/green_functions/libDelhommeau/src/Delhommeau_integrals.f90:exp_e1"]}
{"id": "C136", "title": "Accuracy of the exponential integral far from the origin", "statement": "Far from the origin, where |Im z| > 10 or Re z < -16, the exponential integral used by the tables of the infinite depth Green function is the integral of exp(-t)/(z+t) over the positive numbers within 1.5e-4.", "quantifier": "all complex arguments off the real axis with |Im z| > 10 or Re z < -16", "why_tests_cant": "the tests only look at integrated values", "anchors": ["capytaine/green_functions/libDelhommeau/src/Delhommeau_integrals.f90:exp_e1"]}
{"id": "C137", "title": "Roots of the dispersion relation given by the compiled library", "statement": "The function of the compiled library that gives the roots of the dispersion relation, for a value of omega^2/g and a depth, gives as many numbers as asked for; the first is the root of k tanh(k h) = omega^2/g and the following ones are the roots of m tan(m h) = -omega^2/g, found by iterations that use the derivatives of the equation.", "quantifier": "all positive omega^2/g and depths, all numbers of roots", "why_tests_cant": "only a benchmark calls this function, and it does not look at the roots", "anchors": ["capytaine/green_functions/libDelhommeau/src/Green_wave.f90:compute_dispersion_roots", "capytaine/green_functions/FinGreen3D/FinGreen3D.f90:DISPERSION"]}
{"id": "C138", "title": "Maximal rank, tolerance and type of data of the adaptive cross approximation", "statement": "Without a tolerance, the adaptive cross approximation has the maximal rank asked for. With a tolerance that is not reached it raises an exception. A full matrix and the function of its coefficients give the same approximation, which coincides with the matrix on the rows and columns that are read, for any type of data.", "quantifier": "all matrices, maximal ranks and tolerances; all arrays of integers for a rank of one", "why_tests_cant": "the tests use random matrices of real numbers and positive tolerances", "anchors": ["capytaine/matrices/low_rank.py:LowRankMatrix.from_full_matrix_with_ACA", "capytaine/matrices/low_rank.py:LowRankMatrix.from_function_with_ACA", "capytaine/matrices/low_rank.py:LowRankMatrix.from_rows_and_cols_functions_with_ACA", "capytaine/matrices/low_rank.py:LowRankMatrix.from_rows_and_cols_functions_with_multi_ACA"]}
{"id": "C139", "title": "Integers and single precision in the products of block matrices", "statement": "The product of a block matrix and a vector, from either side, is accepted for all types of numbers, and its result is complex when the matrix or the vector is, as for full arrays.", "quantifier": "all nested block matrices and all pairs of types among booleans, integers, real and complex numbers of single and double precision", "why_tests_cant": "the tests multiply matrices of real numbers of double precision", "anchors": ["capytaine/matrices/block.py:BlockMatrix.matvec", "capytaine/matrices/block.py:BlockMatrix.rmatvec", "capytaine/matrices/block_toeplitz.py:BlockCirculantMatrix.matvec", "capytaine/matrices/block_toeplitz.py:BlockToeplitzMatrix.matvec"]}
{"id": "C140", "title": "The image sources of the finite depth routines", "statement": "For two points at a small horizontal distance, the sum of the image sources of the finite depth Green function and its two derivatives are those of all the images reflected in the free surface and the bottom, up to a millionth of the inverse of the depth.", "quantifier": "all positive depths, all pairs of points between the bottom and the free surface and all horizontal distances", "why_tests_cant": "the tests compare a few values of the whole Green function, of which the images are a part", "anchors": ["capytaine/green_functions/FinGreen3D/FinGreen3D.f90:IMGS", "capytaine/green_functions/FinGreen3D/FinGreen3D.f90:DGSR", "capytaine/green_functions/FinGreen3D/FinGreen3D.f90:DGSZ", "capytaine/green_functions/FinGreen3D/FinGreen3D.f90:RS"]}
{"id": "C141", "title": "The finite depth Green function of a point and itself", "statement": "The error functions and the integrands of the finite depth Green function for points above each other come with their derivatives, and the value for a point and itself is the limit of the values for points that come near each other.", "quantifier": "all depths, all points between the bottom and the free surface, all values of the parameter of the method", "why_tests_cant": "the tests compare the Green function for distinct points only", "anchors": ["capytaine/green_functions/FinGreen3D/FinGreen3D.f90:LINTON", "capytaine/green_functions/FinGreen3D/FinGreen3D.f90:CHI", "capytaine/green_functions/FinGreen3D/FinGreen3D.f90:DCHI", "capytaine/green_functions/FinGreen3D/FinGreen3D.f90:RCHI", "capytaine/green_functions/FinGreen3D/FinGreen3D.f90:G1", "capytaine/green_functions/FinGreen3D/FinGreen3D.f90:G2", "capytaine/green_functions/FinGreen3D/FinGreen3D.f90:G3"]}
{"id": "C142", "title": "The derivatives of the expansion coefficients of the evanescent modes", "statement": "In the method of Linton of FinGreen3D, the derivatives of the coefficients of the evanescent modes end and are those of the integrals that define the coefficients, within the tolerance of the code (1e-6), by the three ways the code computes them; the way does not depend on the unit of length.", "quantifier": "all distances, all wave numbers of the modes and all positive values of the parameter of the method", "why_tests_cant": "the tests compare a few values of the whole Green function", "anchors": ["capytaine/green_functions/FinGreen3D/FinGreen3D.f90:DCOEF", "capytaine/green_functions/FinGreen3D/FinGreen3D.f90:F2"]}
{"id": "C143", "title": "What healing a mesh leaves, and healing it twice", "statement": "Healing an open mesh succeeds for every valid mesh with a panel and gives the panels that are not tiny, in the same order, with their corners moved by at most the tolerance; the result has no unused vertex and no panel with two corners at the same place, other than those of triangles; healing it a second time changes nothing.", "quantifier": "all valid meshes, all tolerances and all orders of equal values in the sorting", "why_tests_cant": "the tests heal a few meshes once and count the panels", "anchors": ["capytaine/meshes/meshes.py:Mesh.heal_mesh", "capytaine/meshes/quality.py:remove_unused_vertices", "capytaine/meshes/quality.py:remove_degenerated_faces", "capytaine/meshes/quality.py:merge_duplicates", "capytaine/meshes/quality.py:heal_triangles"]}
{"id": "C144", "title": "The meshes whose interaction is approximated are far from each other", "statement": "The diameter of the nodes of a mesh is the largest distance between two of its nodes; the center of a collection is the mean of all its nodes; and the hierarchical engine only approximates by a matrix of low rank the interaction of meshes whose nodes are far from each other.", "quantifier": "all meshes, all nested collections and all values of ACA_distance at least one", "why_tests_cant": "the tests compare matrices of a few pairs of similar bodies", "anchors": ["capytaine/meshes/meshes.py:Mesh.diameter_of_nodes", "capytaine/meshes/meshes.py:Mesh.center_of_mass_of_nodes", "capytaine/meshes/collections.py:CollectionOfMeshes.center_of_mass_of_nodes", "capytaine/bem/engines.py:HierarchicalToeplitzMatrixEngine.build_matrices"]}
{"id": "C145", "title": "Equal collections of meshes, and the diameter that is remembered", "statement": "Two collections of meshes are equal when they have the same shape, the same classes and the same panels. diameter_of_nodes gives the same value whatever was read before, from a memory of at most 1024 entries.", "quantifier": "all collections of all classes, nested in any way, all histories of readings", "why_tests_cant": "the memory is shared by all collections of the process, so that a result depends on what other parts of a program have read; tests read few diameters, of meshes without unused vertices", "anchors": ["capytaine/meshes/collections.py:CollectionOfMeshes.__eq__", "capytaine/meshes/collections.py:CollectionOfMeshes.__hash__", "capytaine/meshes/collections.py:CollectionOfMeshes.diameter_of_nodes", "capytaine/meshes/meshes.py:Mesh.__eq__"]}
{"id": "C146", "title": "The directory where the tables are saved", "statement": "Without tabulation_cache_dir, the tables are saved in the directory of CAPYTAINE_CACHE_DIR if it is defined, or else in the default one of the system; with it, in this directory, or nowhere for None. The directory does not depend on the working directory, and two versions of the library have no file in common.", "quantifier": "all platforms, all values of the environment variables before and after the import, all arguments, all versions and names of files", "why_tests_cant": "the default value is computed once, at the import, in the environment of the tests; the other platforms and a directory that cannot be made are not tried", "anchors": ["capytaine/tools/cache_on_disk.py:cache_directory", "capytaine/green_functions/delhommeau.py:Delhommeau.__init__", "capytaine/green_functions/delhommeau.py:Delhommeau._create_or_load_tabulation"]}
{"id": "C147", "title": "Writing and reading a mesh under the name of a format", "statement": "Every name of format that write_mesh knows is known by load_mesh and means the same format, so that a mesh written under a name is read back under this name. Without a name, load_mesh uses the extension of the file in the same way.", "quantifier": "all names of formats, all names of files, all meshes, readers and writers", "why_tests_cant": "tests write and read a few formats; they do not try every name in both directions, nor the names that lead to a function that is not implemented", "anchors": ["capytaine/io/mesh_writers.py:write_mesh", "capytaine/io/mesh_loaders.py:load_mesh", "capytaine/io/mesh_loaders.py:load_DAT"]}
