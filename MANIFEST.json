{
 "claims": [
  {
   "property": "C01",
   "status": "partial",
   "theorems": [
    "Verif.Cache.cache_size_le_maxsize_partial",
    "Verif.Cache.cache_size_le_maxsize_add_nesting",
    "Verif.Cache.engine_cache_size_le",
    "Verif.Cache.cache_size_violated",
    "Verif.Cache.cache_size_bound_reached"
   ],
   "note": "The documented bound is false for reentrant functions such as BasicMatrixEngine.build_matrices on reflection symmetric meshes (cache_size_violated). Proved: bound maxsize + nesting depth for all histories, tight; strict bound for non reentrant functions."
  },
  {
   "property": "C02",
   "status": "proved",
   "theorems": [
    "Verif.Cache.memo_transparent",
    "Verif.Cache.memo_no_extra_recursion"
   ],
   "note": "Provided key equality is respected by the function. RecursionError is an uncatchable abort in the model."
  },
  {
   "property": "C03",
   "status": "partial",
   "theorems": [
    "Verif.Cache.mesh_eq_ignores_order_and_orientation",
    "Verif.Cache.cache_returns_value_of_other_mesh",
    "Verif.Cache.mesh_eq_iff_same_panels_partial",
    "Verif.Cache.mesh_eq_equivalence",
    "Verif.Cache.mesh_cache_transparent_partial"
   ],
   "note": "False in the code (negation proved). Proved: exact meaning of mesh equality, transparency for functions invariant under it."
  },
  {
   "property": "C04",
   "status": "partial",
   "theorems": [
    "Verif.Blocks.lu_cache_transparent_partial",
    "Verif.Blocks.lu_cache_solves_partial",
    "Verif.Blocks.solve_with_decomp_sound",
    "Verif.Blocks.lu_cache_violated",
    "Verif.Blocks.lu_cache_mutation_violated"
   ],
   "note": "After any history, right for every matrix that can be factorised and is not changed in place. False for a matrix whose factorisation raised (the next call returns the solution of another system) and for matrices changed in place."
  },
  {
   "property": "C05",
   "status": "proved",
   "theorems": [
    "Verif.Frequency.sym_mul",
    "Verif.Frequency.sym_div",
    "Verif.Frequency.sym_pow",
    "Verif.Frequency.sym_div_same",
    "Verif.Frequency.sym_square_div_square",
    "Verif.Frequency.sym_float_is_limit",
    "Verif.Frequency.wrapped_homogeneous"
   ],
   "note": "Numbers are elements of a field, the symbol is any non-zero element. sym_float_product_violated shows that float() of a product of two opposite symbols is not a limit, which the documented arithmetic does not promise."
  },
  {
   "property": "C06",
   "status": "proved",
   "theorems": [
    "Verif.Frequency.frequencies_consistent",
    "Verif.Frequency.frequencies_at_most_one",
    "Verif.Frequency.frequencies_default",
    "Verif.Frequency.frequencies_accepted"
   ],
   "note": "Real arithmetic. The root finder is a parameter with the contract that a value it returns is a root; it may fail. Without this contract nothing can be said in finite depth."
  },
  {
   "property": "C07",
   "status": "proved",
   "theorems": [
    "Verif.Frequency.dispersion_unique_root",
    "Verif.Frequency.dispersion_inverse"
   ],
   "note": ""
  },
  {
   "property": "C08",
   "status": "proved",
   "theorems": [
    "Verif.Frequency.encounter_spec",
    "Verif.Frequency.encounter_no_speed"
   ],
   "note": "Same contract on the root finder as C06."
  },
  {
   "property": "C09",
   "status": "partial",
   "theorems": [
    "Verif.Airy.velocity_is_gradient_partial",
    "Verif.Airy.potential_harmonic",
    "Verif.Airy.bottom_condition_partial",
    "Verif.Airy.bottom_velocity_deep",
    "Verif.Airy.bottom_condition_infinite",
    "Verif.Airy.free_surface_condition_partial",
    "Verif.Airy.free_surface_defect",
    "Verif.Airy.elevation_unit_amplitude",
    "Verif.Airy.velocity_not_gradient_violated",
    "Verif.Airy.velocity_overtaken"
   ],
   "note": "With overtaking waves (encounter direction opposite to the wave direction) the velocity is not the gradient of the potential. For k*h >= 20 the infinite depth profile is used, so that the bottom and free surface conditions have an exponentially small defect, which is computed."
  },
  {
   "property": "C10",
   "status": "partial",
   "theorems": [
    "Verif.Problems.pyEq_spec",
    "Verif.Problems.equal_radiation_partial",
    "Verif.Problems.equal_diffraction_partial",
    "Verif.Problems.equal_diffraction_violated",
    "Verif.Problems.equal_generic_violated",
    "Verif.Problems.equal_radiation_violated"
   ],
   "note": "The wave direction, the class and the boundary condition are not compared: violations proved. Holds for radiation problems without forward speed and for diffraction problems with the same wave direction."
  },
  {
   "property": "C11",
   "status": "partial",
   "theorems": [
    "Verif.Problems.sequential_results",
    "Verif.Problems.parallel_results_partial",
    "Verif.Problems.nan_key_violated",
    "Verif.Problems.empty_batch_violated"
   ],
   "note": "With several jobs, problems with a NaN parameter are dropped and an empty list raises: violations proved. Everything else proved, for every schedule."
  },
  {
   "property": "C12",
   "status": "partial",
   "theorems": [
    "Verif.Problems.sequential_batch",
    "Verif.Problems.parallel_batch_partial",
    "Verif.Problems.lu_transparent",
    "Verif.Problems.batch_contaminated_violated"
   ],
   "note": "Proved for every solver whose caches are transparent, and for the default LU solver for all problems whose matrix can be factorised. Two problems sharing a matrix that cannot be factorised break it: violation proved."
  },
  {
   "property": "C13",
   "status": "partial",
   "theorems": [
    "Verif.Problems.radiation_linear_partial",
    "Verif.Problems.radiation_linear_direct",
    "Verif.Problems.influenced_linear",
    "Verif.Problems.radiation_speed_violated"
   ],
   "note": "With forward speed the boundary condition depends on the name of the dof: violation proved. Proved without forward speed, for both methods and for ordinary and symbolic frequencies."
  },
  {
   "property": "C14",
   "status": "proved",
   "theorems": [
    "Verif.Problems.force_recovered",
    "Verif.Problems.symbolic_coefficients"
   ],
   "note": ""
  },
  {
   "property": "C15",
   "status": "proved",
   "theorems": [
    "Verif.Blocks.block_positions",
    "Verif.Blocks.all_blocks_eq_spec",
    "Verif.Blocks.exactly_one_stored_block",
    "Verif.Blocks.spec_structure",
    "Verif.Blocks.full_matrix_eq_entry",
    "Verif.Blocks.one_block_super_matrix_empty"
   ],
   "note": "All five classes, all sizes; and full_matrix of arbitrarily nested matrices."
  },
  {
   "property": "C16",
   "status": "proved",
   "theorems": [
    "Verif.Blocks.matvec_eq_dense",
    "Verif.Blocks.matvec_eq_full_matrix",
    "Verif.Blocks.full_matrix_eq_entry",
    "Verif.Blocks.one_block_super_matrix_empty"
   ],
   "note": "For all well formed hierarchical matrices without symmetric Toeplitz matrices of one block, for which the product raises."
  },
  {
   "property": "C17",
   "status": "proved",
   "theorems": [
    "Verif.Blocks.solve_directly_sound",
    "Verif.Blocks.solve_directly_complete"
   ],
   "note": "All nestings of structured matrices whose stored blocks have the same structure."
  },
  {
   "property": "C18",
   "status": "partial",
   "theorems": [
    "Verif.Blocks.rmatvec_real_eq_dense_partial",
    "Verif.Blocks.rmatvec_str_eq_conj",
    "Verif.Blocks.rmatvec_violated"
   ],
   "note": "Holds for real vectors. For complex vectors structured matrices conjugate the vector and generic ones do not, so the claim is false."
  },
  {
   "property": "C19",
   "status": "partial",
   "theorems": [
    "Verif.Blocks.elementwise_same",
    "Verif.Blocks.scalar_operation",
    "Verif.Blocks.elementwise_classes",
    "Verif.Blocks.elementwise_mixed_violated",
    "Verif.Blocks.elementwise_circulant_violated"
   ],
   "note": "Holds for operands with the same classes at all levels; structured matrices are only combined when the pattern of the second class refines the first. False for different classes: blocks are silently dropped."
  },
  {
   "property": "C20",
   "status": "partial",
   "theorems": [
    "Verif.Blocks.cut_matrix_full_partial",
    "Verif.Blocks.cut_matrix_one_column",
    "Verif.Blocks.cut_matrix_violated"
   ],
   "note": "Holds for equal lists of sizes, and for one column of blocks. False for different lists."
  },
  {
   "property": "C21",
   "status": "partial",
   "theorems": [
    "Verif.Engines.build_represents_partial",
    "Verif.Engines.full_matrix_partial",
    "Verif.Engines.made_coherent",
    "Verif.Engines.made_matrix_partial",
    "Verif.Engines.opposite_axes_violated",
    "Verif.Engines.misplaced_plane_violated",
    "Verif.Engines.translations_used_iff",
    "Verif.Engines.reflections_used_iff",
    "Verif.Engines.rotations_used_iff"
   ],
   "note": "for both engines and all nestings whose parts are images of each other, as made by the constructors and by motions that commute with the symmetries; requires that symmetries found equal by the code have the same motions, which fails for opposite axes and for planes with the origin on the side of the normal; also proved, exactly when the symmetries of two collections are used: close vectors, equal planes, or equal axes with as many parts"
  },
  {
   "property": "C22",
   "status": "partial",
   "theorems": [
    "Verif.LowRank.aca_reads",
    "Verif.LowRank.aca_ends",
    "Verif.LowRank.aca_pivots",
    "Verif.LowRank.aca_interpolates_partial",
    "Verif.LowRank.aca_exact_partial",
    "Verif.LowRank.aca_tolerance",
    "Verif.LowRank.aca_zero_row_violated",
    "Verif.LowRank.aca_tiny_violated",
    "Verif.LowRank.aca_default_violated"
   ],
   "note": "distinct rows and columns, maximal rank, end, choice of pivots and stopping criterion for all matrices; the result coincides with the matrix when no pivot is replaced by 1e-12, false otherwise (first row equal to zero, tiny coefficients); the default maximal rank raises an unexpected exception for a single row or column"
  },
  {
   "property": "C23",
   "status": "partial",
   "theorems": [
    "Verif.LowRank.neg_full",
    "Verif.LowRank.div_full",
    "Verif.LowRank.mulVec_full",
    "Verif.LowRank.vecMul_full",
    "Verif.LowRank.concat_full",
    "Verif.LowRank.fromSvd_full",
    "Verif.LowRank.recompress_iff",
    "Verif.LowRank.recompress_violated",
    "Verif.LowRank.add_violated"
   ],
   "note": "opposite, division, products with vectors and approximation by singular values are right; recompression is right exactly when the last factor of the singular value decomposition is symmetric; sums are truncated"
  },
  {
   "property": "C24",
   "status": "proved",
   "theorems": [
    "Verif.Geometry.rotation_dist",
    "Verif.Geometry.rotation_orientation",
    "Verif.Geometry.rotation_fixes_axis",
    "Verif.Geometry.rotation_comp",
    "Verif.Geometry.rotation_inverse",
    "Verif.Geometry.rotation_sense",
    "Verif.Geometry.mkAxis_unit"
   ],
   "note": ""
  },
  {
   "property": "C25",
   "status": "partial",
   "theorems": [
    "Verif.Geometry.mirror_iff",
    "Verif.Geometry.mirror_partial",
    "Verif.Geometry.mirrorVector_spec",
    "Verif.Geometry.axis_mirror",
    "Verif.Geometry.plane_mirror",
    "Verif.Geometry.mirror_violated"
   ],
   "note": "Plane.c is an absolute value, so mirrors are wrong exactly when the origin is strictly on the side of the normal (mirror_iff)."
  },
  {
   "property": "C26",
   "status": "partial",
   "theorems": [
    "Verif.Geometry.translate_axis",
    "Verif.Geometry.translate_plane",
    "Verif.Geometry.rotate_axis",
    "Verif.Geometry.rotate_plane_partial",
    "Verif.Geometry.rotate_plane_iff",
    "Verif.Geometry.rotate_plane_violated",
    "Verif.Geometry.edge_intersection"
   ],
   "note": "Plane.rotate ignores the position of the axis."
  },
  {
   "property": "C27",
   "status": "proved",
   "theorems": [
    "Verif.Meshes.panel_data_current",
    "Verif.Meshes.original_unchanged",
    "Verif.Meshes.out_of_place"
   ],
   "note": "State machine of any number of meshes with their caches, for all histories of readings, in-place and out-of-place transformations, assignments of vertices and faces, copies and extractions. An operation that raises is assumed to leave the mesh as it was."
  },
  {
   "property": "C28",
   "status": "proved",
   "theorems": [
    "Verif.Meshes.extract_faces",
    "Verif.Meshes.extract_faces_out_of_bounds",
    "Verif.Meshes.remove_unused_vertices",
    "Verif.Bodies.extract_faces_body"
   ],
   "note": "Extraction and removal of unused vertices keep the corners of every selected panel, in order. For bodies, each dof moves the extracted panels as before."
  },
  {
   "property": "C29",
   "status": "proved",
   "theorems": [
    "Verif.Meshes.merge_duplicates",
    "Verif.Meshes.merge_rows",
    "Verif.Meshes.merge_no_rows"
   ],
   "note": "for non negative tolerances and any order among ties; without any vertex the code raises"
  },
  {
   "property": "C30",
   "status": "proved",
   "theorems": [
    "Verif.Meshes.heal_triangles",
    "Verif.Meshes.heal_triangles_mesh"
   ],
   "note": "Healed faces are rotations of the original ones, and triangles repeat their first corner last."
  },
  {
   "property": "C31",
   "status": "partial",
   "theorems": [
    "Verif.Meshes.triangle_encoding",
    "Verif.Meshes.triangle_cycle",
    "Verif.Meshes.triangle_flip",
    "Verif.Meshes.quad_flip_partial",
    "Verif.Meshes.quad_flip_violated",
    "Verif.Meshes.triangulation",
    "Verif.Meshes.triangulation_vector_partial",
    "Verif.Meshes.triangulation_vector_violated",
    "Verif.Meshes.flip_mesh_partial",
    "Verif.Meshes.triangulate_mesh",
    "Verif.Meshes.triangulate_mesh_vector_partial",
    "Verif.Meshes.triangulate_all"
   ],
   "note": "True for triangles and for planar convex quadrangles. Warped quadrangles change area when flipped, and their area vector changes when triangulated."
  },
  {
   "property": "C32",
   "status": "partial",
   "theorems": [
    "Verif.Meshes.clip_face_partial",
    "Verif.Meshes.clip_mesh_partial",
    "Verif.Meshes.clip_quadrangle_iff",
    "Verif.Meshes.clip_crossing_violated",
    "Verif.Meshes.clip_one_off_violated"
   ],
   "note": "true, with the exact part of each panel, for triangles and flat convex quadrangles whose corners are on the plane or farther than the tolerance and do not make a triangle with a middle point in the plane; exact condition for any quadrangle; false otherwise"
  },
  {
   "property": "C33",
   "status": "partial",
   "theorems": [
    "Verif.Meshes.clip_collection",
    "Verif.Bodies.clip_body",
    "Verif.Meshes.clip_ids_partial",
    "Verif.Meshes.clip_ids_violated",
    "Verif.Bodies.clip_body_partial"
   ],
   "note": "true when the clipped mesh has no degenerated panel, which is also necessary; false otherwise"
  },
  {
   "property": "C34",
   "status": "proved",
   "theorems": [
    "Verif.Meshes.collection_concatenates",
    "Verif.Meshes.submesh_containing_face",
    "Verif.Meshes.extract_one_face",
    "Verif.Meshes.merged_collection"
   ],
   "note": "trees in which every collection has a part (an empty collection raises in np.concatenate) and every mesh has valid faces"
  },
  {
   "property": "C35",
   "status": "partial",
   "theorems": [
    "Verif.Meshes.copy_partial",
    "Verif.Meshes.copy_reflection_iff",
    "Verif.Meshes.copy_violated"
   ],
   "note": "any history of constructions, copies and motions that commute with the symmetries as the code moves them; otherwise false, and the guard is exact for a reflection"
  },
  {
   "property": "C36",
   "status": "partial",
   "theorems": [
    "Verif.Bodies.join_dofs_partial",
    "Verif.Bodies.join_dofs_violated",
    "Verif.Bodies.join_panels",
    "Verif.Bodies.join_succeeds",
    "Verif.Bodies.join_nested",
    "Verif.Bodies.join_assoc",
    "Verif.Bodies.join_values"
   ],
   "note": "dofs with real values whose new names are distinct; false otherwise"
  },
  {
   "property": "C37",
   "status": "partial",
   "theorems": [
    "Verif.Meshes.regular_array",
    "Verif.Bodies.regular_array_dofs_partial",
    "Verif.Bodies.regular_array_dofs_violated",
    "Verif.Bodies.arbitrary_array_dofs_partial"
   ],
   "note": "real dofs whose names do not contain two underscores in a row, and meshes whose symmetries commute with the translations"
  },
  {
   "property": "C38",
   "status": "partial",
   "theorems": [
    "Verif.Bodies.slice_body",
    "Verif.Bodies.slice_dofs_iff",
    "Verif.Bodies.slice_dofs_partial",
    "Verif.Bodies.slice_dofs_violated"
   ],
   "note": "true when all panels on the negative side of the plane come before the others; false otherwise, for any order of enumeration of sets"
  },
  {
   "property": "C39",
   "status": "partial",
   "theorems": [
    "Verif.Bodies.mesh_including_lid_partial",
    "Verif.Bodies.mesh_including_lid_iff",
    "Verif.Bodies.mesh_including_lid_violated"
   ],
   "note": "true when the mesh and the lid are not assigned after the first read, whatever is changed in place; false otherwise"
  },
  {
   "property": "C40",
   "status": "proved",
   "theorems": [
    "Verif.Meshes.closed_area_vector",
    "Verif.Meshes.closed_volumes",
    "Verif.Meshes.enclosed_apex",
    "Verif.Meshes.volume_moved",
    "Verif.Meshes.volume_translate",
    "Verif.Meshes.volume_rotate",
    "Verif.Meshes.volumes_flip"
   ],
   "note": "Triangles and planar convex quadrangles above the threshold under which the code drops a panel. The volume is the one of the tetrahedra with any common apex."
  },
  {
   "property": "C41",
   "status": "partial",
   "theorems": [
    "Verif.Meshes.weights_sum",
    "Verif.Meshes.builtin_weights_sum",
    "Verif.Meshes.mesh_weights_sum",
    "Verif.Meshes.gauss_moment",
    "Verif.Meshes.first_order_center_partial",
    "Verif.Meshes.first_order_center_violated"
   ],
   "note": "the sum of the weights is proved; the first order point is the center exactly for parallelograms"
  },
  {
   "property": "C42",
   "status": "proved",
   "theorems": [
    "Verif.Meshes.connected_components",
    "Verif.Meshes.connected_components_mesh"
   ],
   "note": "all lists of faces; the loops always end and the verification never raises"
  },
  {
   "property": "C43",
   "status": "partial",
   "theorems": [
    "Verif.Files.nemoh_round_trip",
    "Verif.Files.nemoh_readable_iff",
    "Verif.Files.nemoh_round_trip_violated",
    "Verif.Files.nat_round_trip",
    "Verif.Files.nat_readable_iff",
    "Verif.Files.nat_round_trip_violated",
    "Verif.Files.nem_round_trip",
    "Verif.Files.gdf_round_trip",
    "Verif.Files.gdf_readable_iff",
    "Verif.Files.gdf_round_trip_violated",
    "Verif.Files.hydrostar_round_trip",
    "Verif.Files.hams_round_trip",
    "Verif.Files.hams_readable_iff",
    "Verif.Files.hams_round_trip_violated",
    "Verif.Files.tec_round_trip",
    "Verif.Files.tec_readable_iff"
   ],
   "note": "The round trip holds for nem and hst. For the other formats the exact meshes that can be read again are characterised, with counterexamples outside. Coordinates are rational numbers and the rounding to binary floating point numbers while reading is left out."
  },
  {
   "property": "C44",
   "status": "partial",
   "theorems": [
    "Verif.Files.stl_unchanged_iff",
    "Verif.Files.stl_changes",
    "Verif.Files.stl_other_arrays",
    "Verif.Files.stl_file",
    "Verif.Files.stl_normal",
    "Verif.Files.stl_unchanged_violated"
   ],
   "note": "Writing an STL file changes the faces of the mesh in memory, exactly when it has quadrangles. The other writers only read their arguments, which is visible in their text and not modelled with a memory."
  },
  {
   "property": "C45",
   "status": "partial",
   "theorems": [
    "Verif.Tabulation.filename_injective",
    "Verif.Tabulation.never_wrong",
    "Verif.Tabulation.survives_partial",
    "Verif.Tabulation.run_succeeds_iff",
    "Verif.Tabulation.killed_while_saving_violated"
   ],
   "note": "names are injective and a run never returns wrong tables; a run killed while it saves the tables makes all the following ones fail, because the file is written in place"
  },
  {
   "property": "C46",
   "status": "partial",
   "theorems": [
    "Verif.Tabulation.pick_node",
    "Verif.Tabulation.pick_default_quadratic",
    "Verif.Tabulation.pick_quadratic",
    "Verif.Tabulation.pick_surrounds",
    "Verif.Tabulation.default_r_increasing",
    "Verif.Tabulation.default_z_decreasing",
    "Verif.Tabulation.stencil_inside_iff",
    "Verif.Tabulation.table_reads_inside_partial",
    "Verif.Tabulation.two_nodes_violated"
   ],
   "note": "exact on the two default grids and for any table with distinct nodes; a table of two nodes in a direction is used and read outside"
  },
  {
   "property": "C47",
   "status": "proved",
   "theorems": [
    "Verif.Green.assembly_deterministic",
    "Verif.Green.assembly_same",
    "Verif.Green.assembly_race_free",
    "Verif.Green.assembly_progress",
    "Verif.Green.assembly_terminates",
    "Verif.Green.assembly_ends"
   ],
   "note": "for every number of threads, assignment of the columns and interleaving of the instructions; the entries are compared with a specification without the variables and conditionals of the loop"
  },
  {
   "property": "C48",
   "status": "partial",
   "theorems": [
    "Verif.Datasets.roundtrip_iff",
    "Verif.Datasets.roundtrip_keeps",
    "Verif.Datasets.separate_real_iff",
    "Verif.Datasets.readback_eq_iff",
    "Verif.Datasets.complex_attributes_violated",
    "Verif.Datasets.complex_infinite_violated",
    "Verif.Datasets.complex_separated_violated"
   ],
   "note": "The exact condition for the round trip is proved for datasets that do not use the name complex. Attributes are lost, and an infinite imaginary part makes the real part undefined."
  },
  {
   "property": "C49",
   "status": "proved",
   "theorems": [
    "Verif.Datasets.expand_complete",
    "Verif.Datasets.expand_ok_iff",
    "Verif.Datasets.fill_answers",
    "Verif.Datasets.fill_ok_iff",
    "Verif.Datasets.caseMatrix_ok",
    "Verif.Datasets.mem_asked",
    "Verif.Datasets.asked_nodup"
   ],
   "note": "With forward speed there is one radiation problem per wave direction. The limit frequencies give no diffraction problem. Repeated labels of a coordinate are repeated in the list. fill_answers follows the problems up to the dataset that is returned."
  },
  {
   "property": "C50",
   "status": "partial",
   "theorems": [
    "Verif.Datasets.radiation_faithful_iff",
    "Verif.Datasets.diffraction_faithful_iff",
    "Verif.Datasets.radiation_faithful",
    "Verif.Datasets.diffraction_faithful",
    "Verif.Datasets.excitation_faithful",
    "Verif.Datasets.assemble_ok_iff",
    "Verif.Datasets.frequency_coordinates",
    "Verif.Datasets.encounter_coordinates",
    "Verif.Datasets.fill_answers",
    "Verif.Datasets.gravity_violated",
    "Verif.Datasets.same_name_violated",
    "Verif.Datasets.encounter_direction_violated"
   ],
   "note": "The property fails for two results with the same coordinates (the first one wins), for radiation at one gravity and diffraction at several, and for the encounter direction, which is indexed without the gravity and the depth. The faithful theorems give the exact conditions."
  },
  {
   "property": "C51",
   "status": "partial",
   "theorems": [
    "Verif.Datasets.bemio_success_iff",
    "Verif.Datasets.bemio_only_last",
    "Verif.Datasets.bemio_complete_single",
    "Verif.Datasets.bemio_last_body",
    "Verif.Datasets.bemio_complete_partial",
    "Verif.Datasets.bemio_codes_violated",
    "Verif.Datasets.bemio_bodies_violated",
    "Verif.Datasets.bemio_frequencies_violated"
   ],
   "note": "The table is complete for a single body computed by WAMIT with increasing frequencies. It fails for other codes, and has only the last body otherwise."
  },
  {
   "property": "C52",
   "status": "proved",
   "theorems": [
    "Verif.PostPro.potential_agrees",
    "Verif.PostPro.velocity_agrees",
    "Verif.PostPro.pressure_agrees",
    "Verif.PostPro.elevation_agrees",
    "Verif.PostPro.elevation_agrees_surface",
    "Verif.PostPro.potential_ok_iff",
    "Verif.PostPro.gradient_agrees",
    "Verif.PostPro.collocation_spec"
   ],
   "note": "For meshes, single points, lists and grids with any number of axes. The errors are exactly the arrays without three coordinates (two for the elevation) and the results without sources."
  },
  {
   "property": "C53",
   "status": "partial",
   "theorems": [
    "Verif.PostPro.chunks_exact",
    "Verif.PostPro.chunks_invalid",
    "Verif.PostPro.chunks_agree_iff",
    "Verif.PostPro.chunks_agree",
    "Verif.PostPro.chunks_speed_violated"
   ],
   "note": "Every positive size gives the same potential. With forward speed the function uses another wavenumber than compute_potential. A negative size gives memory that is not initialised."
  },
  {
   "property": "C54",
   "status": "partial",
   "theorems": [
    "Verif.Frequency.depth_positive_partial",
    "Verif.Frequency.depth_accepted",
    "Verif.Frequency.zero_depth_violated"
   ],
   "note": "A sea bottom at the level of the free surface is accepted and gives a depth of zero: violation proved. All other cases proved."
  },
  {
   "property": "C55",
   "status": "partial",
   "theorems": [
    "Verif.Tools.timer_count",
    "Verif.Tools.timer_exact",
    "Verif.Tools.timer_bound",
    "Verif.Tools.timer_mean",
    "Verif.Tools.solve_all_count",
    "Verif.Tools.nested_timer_violated",
    "Verif.Tools.parallel_timer_violated"
   ],
   "note": "One duration per completed use in one process, whatever is raised. The durations are exact when a timer is not used inside itself. Parallel resolutions are not counted."
  },
  {
   "property": "C56",
   "status": "partial",
   "theorems": [
    "Verif.Meshes.grid_well_formed",
    "Verif.Meshes.grid_neighbours",
    "Verif.Meshes.rectangle_panels",
    "Verif.Meshes.rectangle_radius",
    "Verif.Meshes.box_panels",
    "Verif.Meshes.box_closed",
    "Verif.Meshes.box_radius",
    "Verif.Meshes.disk_panels",
    "Verif.Meshes.disk_radius_partial",
    "Verif.Meshes.disk_radius_violated",
    "Verif.Meshes.vertical_cylinder_panels",
    "Verif.Meshes.vertical_cylinder_panels_violated",
    "Verif.Meshes.vertical_cylinder_closed",
    "Verif.Meshes.vertical_cylinder_radius_partial",
    "Verif.Meshes.open_cylinder_radius_violated",
    "Verif.Meshes.horizontal_cylinder_panels",
    "Verif.Meshes.horizontal_cylinder_closed",
    "Verif.Meshes.horizontal_cylinder_radius_partial",
    "Verif.Meshes.revolution_panels",
    "Verif.Meshes.revolution_closed",
    "Verif.Meshes.sphere_closed",
    "Verif.Meshes.sphere_radius",
    "Verif.Meshes.free_surface_panels"
   ],
   "note": "Rectangles, parallelepipeds and spheres respect the maximal radius. Disks and the ends of cylinders exceed it by at most a third, with a counterexample. The variants built from a symmetry are left out, except spheres and surfaces of revolution, and the healing of the meshes is in C72 and C74."
  },
  {
   "property": "C57",
   "status": "partial",
   "theorems": [
    "Verif.PostPro.rao_partial",
    "Verif.PostPro.rao_solves_transposed",
    "Verif.PostPro.rao_linear",
    "Verif.PostPro.impedance_spec",
    "Verif.PostPro.rao_violated"
   ],
   "note": "The equation of motion is solved when the transfer matrix is symmetric (rao_partial). In general the code solves the transposed system (rao_solves_transposed), so a dataset with non-symmetric coupling gives wrong motions (rao_violated)."
  },
  {
   "property": "C58",
   "status": "partial",
   "theorems": [
    "Verif.Green.onePoint_gradient",
    "Verif.Green.onePoint_gradient_second",
    "Verif.Green.onePoint_symmetric",
    "Verif.Green.onePoint_symmetric_gradient",
    "Verif.Green.onePointReflected_gradient",
    "Verif.Green.onePointReflected_gradient_second",
    "Verif.Green.onePointReflected_symmetric",
    "Verif.Green.mirror_symmetric",
    "Verif.Green.shifts_symmetric",
    "Verif.Green.shift_not_symmetric_violated"
   ],
   "note": "derivatives proved for all reflections; mirrors are symmetric, the two shifts by the depth only when taken together, and points closer than 1e-7 are excluded as in the code"
  },
  {
   "property": "C59",
   "status": "partial",
   "theorems": [
    "Verif.Bodies.inertia_symmetric",
    "Verif.Bodies.inertia_spec",
    "Verif.Bodies.inertia_kinetic",
    "Verif.Bodies.inertia_mass",
    "Verif.Bodies.pressure_restoring",
    "Verif.Bodies.rigid_stiffness_iff",
    "Verif.Bodies.stiffness_restoring_partial",
    "Verif.Bodies.stiffness_symmetric_iff",
    "Verif.Bodies.stiffness_symmetric",
    "Verif.Bodies.stiffness_center",
    "Verif.Bodies.stiffness_entry",
    "Verif.Bodies.infer_center",
    "Verif.Bodies.infer_sound",
    "Verif.Bodies.hydrostatics_mass_iff",
    "Verif.Bodies.inertia_quadrature_violated",
    "Verif.Bodies.inertia_positive_violated",
    "Verif.Bodies.stiffness_quadrature_violated",
    "Verif.Bodies.stiffness_lowercase_violated",
    "Verif.Bodies.stiffness_heave_violated",
    "Verif.Bodies.stiffness_general",
    "Verif.Bodies.stiffness_general_refused_iff",
    "Verif.Bodies.stiffness_general_heave"
   ],
   "note": "The inertia matrix is always symmetric. The stiffness is symmetric exactly when the moments of weight and buoyancy balance, and it is the restoring force of pressure and weight in vertical equilibrium. The second moments are integrated with one point per panel and are not exact."
  },
  {
   "property": "C60",
   "status": "partial",
   "theorems": [
    "Verif.Green.checkData_iff",
    "Verif.Green.call_ok_iff",
    "Verif.Green.call_meaning",
    "Verif.Green.problem_meaning",
    "Verif.Green.refused_explicitly_partial",
    "Verif.Green.infinite_frequency_violated",
    "Verif.Green.unchecked_violated"
   ],
   "note": "the supported inputs are characterised and the coefficients satisfy the boundary condition of their regime; one supported-looking case gives NaN, and inputs not checked by a problem are computed as others"
  },
  {
   "property": "C61",
   "status": "partial",
   "theorems": [
    "Verif.Cache.mutable_key_transparent_partial",
    "Verif.Cache.unchanged_key_transparent_partial",
    "Verif.Cache.mutable_key_violated"
   ],
   "note": "False in the code because hash(-1.0) == hash(-2.0) in CPython and keys are compared by identity first. Proved in the absence of harmful hash collisions, and, whatever the collisions, when no mesh is changed after a call on it."
  },
  {
   "property": "C62",
   "status": "proved",
   "theorems": [
    "Verif.Blocks.full_like_entry",
    "Verif.Blocks.identity_like_entry"
   ],
   "note": ""
  },
  {
   "property": "C63",
   "status": "partial",
   "theorems": [
    "Verif.Problems.zero_frequency_partial",
    "Verif.Problems.lid_zero_frequency_violated"
   ],
   "note": "The boundary condition of the lid is concatenated to a symbolic vector, which raises TypeError: violation proved. Holds without lid."
  },
  {
   "property": "C64",
   "status": "proved",
   "theorems": [
    "Verif.Cache.repeated_call_is_a_hit",
    "Verif.Cache.computed_value_is_retained",
    "Verif.Cache.used_value_is_dropped"
   ],
   "note": "Retention is for functions that are not reentrant. The cache drops the value computed first, not the value used least recently."
  },
  {
   "property": "C65",
   "status": "partial",
   "theorems": [
    "Verif.Geometry.align_partial",
    "Verif.Geometry.align_fixes_center",
    "Verif.Geometry.align_violated"
   ],
   "note": "Proved for unit vectors, false for other lengths because the angle is the arc cosine of the scalar product."
  },
  {
   "property": "C66",
   "status": "proved",
   "theorems": [
    "Verif.Problems.diffraction_hull",
    "Verif.Problems.radiation_hull",
    "Verif.Problems.radiation_speed_hull"
   ],
   "note": "Each constructor of problems is compared with an independent description of the motion of the hull."
  },
  {
   "property": "C67",
   "status": "proved",
   "theorems": [
    "Verif.Problems.force_translation",
    "Verif.Problems.force_rotation"
   ],
   "note": ""
  },
  {
   "property": "C68",
   "status": "proved",
   "theorems": [
    "Verif.Problems.rotation_dof_derivative",
    "Verif.Problems.rotationDof_field"
   ],
   "note": ""
  },
  {
   "property": "C69",
   "status": "partial",
   "theorems": [
    "Verif.Meshes.translate_panels",
    "Verif.Meshes.rotate_panels",
    "Verif.Meshes.mirror_panels_partial",
    "Verif.Meshes.mirror_panels_violated",
    "Verif.Meshes.mirror_normals",
    "Verif.Bodies.translate_amplitude",
    "Verif.Bodies.rotate_amplitude",
    "Verif.Bodies.mirror_amplitude",
    "Verif.Bodies.translate_rotationDof",
    "Verif.Bodies.rotate_rotationDof",
    "Verif.Bodies.mirror_rotationDof_partial",
    "Verif.Bodies.translate_solid",
    "Verif.Bodies.rotate_solid",
    "Verif.Bodies.mirror_solid"
   ],
   "note": "True for translations and rotations. Reflections change the area and center of warped quadrangles, because the reversed panel is cut along its other diagonal."
  },
  {
   "property": "C70",
   "status": "partial",
   "theorems": [
    "Verif.Meshes.readings_harmless_partial",
    "Verif.Meshes.readings_harmless_violated",
    "Verif.Meshes.quadrature_harmless_partial",
    "Verif.Meshes.quadrature_harmless_violated"
   ],
   "note": "Holds for the panel data unless a transformation changes the mesh before reading them, as heal_normals does (witness). Reading the quadrature is harmless for planar convex quadrangles and changes the area of warped ones (witness)."
  },
  {
   "property": "C71",
   "status": "partial",
   "theorems": [
    "Verif.Meshes.heal_normals_consistent",
    "Verif.Meshes.heal_normals_reverses",
    "Verif.Meshes.heal_normals",
    "Verif.Meshes.heal_normals_outward_partial",
    "Verif.Meshes.heal_normals_outward_violated"
   ],
   "note": "Consistent orientation in all cases. The volume is non negative if no panel data were read before; otherwise the normals may end up inward (witness), because the stale cache is used."
  },
  {
   "property": "C72",
   "status": "partial",
   "theorems": [
    "Verif.Meshes.wet_surface_moved",
    "Verif.Meshes.waterplane_moved",
    "Verif.Meshes.center_of_buoyancy_translate",
    "Verif.Meshes.hull_volumes",
    "Verif.Meshes.hull_waterplane",
    "Verif.Meshes.center_of_buoyancy_partial",
    "Verif.Meshes.center_of_buoyancy_violated"
   ],
   "note": "The center of buoyancy is the centroid only when the panels are parallel or perpendicular to the axes: the code uses the squared coordinate of the panel center (witness: unit tetrahedron)."
  },
  {
   "property": "C73",
   "status": "partial",
   "theorems": [
    "Verif.Meshes.merged_iff_within_partial",
    "Verif.Meshes.merged_iff_within_violated"
   ],
   "note": "false in general: three aligned points; holds when the tolerance separates the coordinates in clusters"
  },
  {
   "property": "C74",
   "status": "partial",
   "theorems": [
    "Verif.Meshes.component_data_partial",
    "Verif.Meshes.component_data_violated"
   ],
   "note": "right exactly when the panel data of the mesh were not stored; otherwise the arrays have shape (n, 1)"
  },
  {
   "property": "C75",
   "status": "proved",
   "theorems": [
    "Verif.Bodies.extract_lid"
   ],
   "note": ""
  },
  {
   "property": "C76",
   "status": "partial",
   "theorems": [
    "Verif.Bodies.keep_only_dofs",
    "Verif.Bodies.join_labels_partial",
    "Verif.Bodies.join_labels_violated"
   ],
   "note": "true for keep_only_dofs; for joined bodies, true when the rows of each matrix are in the order of the dofs, false otherwise"
  },
  {
   "property": "C77",
   "status": "partial",
   "theorems": [
    "Verif.Green.exact_gradient",
    "Verif.Green.exact_gradient_second",
    "Verif.Green.rankine_gradient",
    "Verif.Green.rankine_gradient_second",
    "Verif.Green.rankineReflected_gradient",
    "Verif.Green.rankineReflected_gradient_second",
    "Verif.Green.exact_gradient_close_iff",
    "Verif.Green.close_gradient_violated",
    "Verif.Green.rectangle_regular"
   ],
   "note": "proved away from the thresholds; closer to the plane of the panel than 1e-4 of its radius, the gradient is the derivative only if the terms in excess vanish, and they do not above the middle of a rectangle"
  },
  {
   "property": "C78",
   "status": "partial",
   "theorems": [
    "Verif.Green.wavePoint_gradient",
    "Verif.Green.wavePoint_symmetric",
    "Verif.Green.wavePoint_gradient_second",
    "Verif.Green.waveInfinite_gradient",
    "Verif.Green.waveInfinite_gradient_second",
    "Verif.Green.waveFour_gradient",
    "Verif.Green.waveFour_gradient_second",
    "Verif.Green.waveFinite_gradient",
    "Verif.Green.waveFinite_gradient_second",
    "Verif.Green.demo_consistent",
    "Verif.Green.demo_fineFour",
    "Verif.Green.demo_regular"
   ],
   "note": "under the contract that the elementary integrals are consistent; the panel of the free surface on itself and points exactly above a quadrature point are excluded"
  },
  {
   "property": "C79",
   "status": "partial",
   "theorems": [
    "Verif.Green.deepCoeffs_selected",
    "Verif.Green.variants_high",
    "Verif.Green.variants_withRankine",
    "Verif.Green.variants_agree",
    "Verif.Green.finite_depth_variants_partial",
    "Verif.Green.finite_depth_twice",
    "Verif.Green.finite_depth_iff",
    "Verif.Green.finite_depth_violated"
   ],
   "note": "in deep water the difference is exactly the quadrature error of the reflected source; in finite depth the last variant counts a vertical term twice"
  },
  {
   "property": "C80",
   "status": "proved",
   "theorems": [
    "Verif.PostPro.solver_pressure"
   ],
   "note": "The sources are the ones of the result and the matrices of the engine are the ones of the Green function (C21)."
  },
  {
   "property": "C81",
   "status": "partial",
   "theorems": [
    "Verif.PostPro.elevation_pressure_iff",
    "Verif.PostPro.elevations_agree",
    "Verif.PostPro.elevation_agrees",
    "Verif.PostPro.pressure_agrees",
    "Verif.PostPro.elevation_speed_violated"
   ],
   "note": "True without forward speed. With forward speed the convective term has the opposite sign."
  },
  {
   "property": "C82",
   "status": "partial",
   "theorems": [
    "Verif.PostPro.kochin_ok_iff",
    "Verif.PostPro.kochin_reference",
    "Verif.PostPro.kochin_translate",
    "Verif.PostPro.kochin_profile_error",
    "Verif.PostPro.kochin_lid_violated"
   ],
   "note": "With a lid the function fails because it takes the panels of the hull only."
  },
  {
   "property": "C83",
   "status": "partial",
   "theorems": [
    "Verif.Engines.precond_built_iff",
    "Verif.Engines.precond_complete",
    "Verif.Engines.precond_exact_iff",
    "Verif.Engines.precond_symmetric_iff",
    "Verif.Engines.precond_single_violated",
    "Verif.Engines.precond_three_violated",
    "Verif.Engines.precond_symmetric_violated",
    "Verif.Engines.precond_sum_violated"
   ],
   "note": "Exact conditions: binary trees of collections, diagonal blocks stored in block matrices, and no diagonal block whose entries sum to zero. The convergence of the iterative method is not modelled, its exact solutions are studied."
  },
  {
   "property": "C84",
   "status": "partial",
   "theorems": [
    "Verif.Green.prony_exact",
    "Verif.Green.prony_exact_iff",
    "Verif.Green.prony_constant_violated",
    "Verif.Green.search_ok_iff",
    "Verif.Green.search_failed_iff",
    "Verif.Green.search_exact",
    "Verif.Green.search_converges",
    "Verif.Green.green_decomposition",
    "Verif.Green.green_wave_violated"
   ],
   "note": "Exact exactly when the rates are between -20 and 0; a constant is never found. After the warning of the Green function an UnboundLocalError is raised. In exact arithmetic; lstsq, polyroots and curve_fit are given by their contracts. The Fortran method is in C114 to C116."
  },
  {
   "property": "C85",
   "status": "partial",
   "theorems": [
    "Verif.Files.nemoh_directory_round_trip",
    "Verif.Files.nemoh_directory_readable_iff",
    "Verif.Files.nemoh_directory_same_iff",
    "Verif.Files.nemoh_directory_range",
    "Verif.Files.nemoh_directory_empty_range",
    "Verif.Files.cal_dofs_count",
    "Verif.Files.cal_join_dofs",
    "Verif.Files.cal_join_violated",
    "Verif.Files.cal_problems_grid",
    "Verif.Files.nemoh_motion_violated",
    "Verif.Files.nemoh_readable_violated",
    "Verif.Files.import_one_body",
    "Verif.Files.import_bodies",
    "Verif.Files.import_kind_refused",
    "Verif.Files.mesh_format",
    "Verif.Files.mesh_format_refused"
   ],
   "note": "The same problem exactly for the heave motion, without speed, with a free surface and a depth that is not zero; readable exactly for names that are words other than ID and not made of points, and finite frequencies. A range is kept exactly when its steps are equal. The texts of floating point numbers are given by a contract. Files written by hand, with any bodies, dofs, kinds of frequencies and directions, give the problems they ask for. The mesh files are read in the format of their extension (`mesh_format`, `mesh_format_refused`)."
  },
  {
   "property": "C86",
   "status": "partial",
   "theorems": [
    "Verif.Files.hydrostar_other",
    "Verif.Files.hydrostar_malformed",
    "Verif.Files.hydrostar_malformed_violated"
   ],
   "note": "All the styles are read. Lines with a wrong number of words are not refused: they repeat the line before them."
  },
  {
   "property": "C87",
   "status": "partial",
   "theorems": [
    "Verif.Bodies.waterline_groups",
    "Verif.Bodies.irregular_estimate",
    "Verif.Bodies.irregular_estimate_surface",
    "Verif.Bodies.lowest_lid_iff",
    "Verif.Bodies.lowest_lid_single",
    "Verif.Bodies.lowest_lid_best",
    "Verif.Bodies.lowest_lid_violated",
    "Verif.Bodies.estimate_current",
    "Verif.Bodies.estimate_stored_violated"
   ],
   "note": "The estimate is proved for all hulls. The proposed lid is safe for hulls with one waterline, and exactly when the depths of the waterlines are close for the others; it is too low for two boats of different sizes. The stored estimate ignores a lid that is set later."
  },
  {
   "property": "C88",
   "status": "partial",
   "theorems": [
    "Verif.Meshes.above_panel_iff",
    "Verif.Meshes.above_panel_violated",
    "Verif.Meshes.generate_lid",
    "Verif.Meshes.generate_lid_inside",
    "Verif.Meshes.generate_lid_violated"
   ],
   "note": "Proved when no node of the grid is on the line of an edge of the hull. The points on an edge that two panels share are counted twice and get no lid: the lid of a symmetric pyramid is empty. A vertical panel counts for all the points that are aligned with it. The mesh is taken before heal_mesh."
  },
  {
   "property": "C89",
   "status": "partial",
   "theorems": [
    "Verif.Bodies.add_dof",
    "Verif.Bodies.add_unnamed_iff",
    "Verif.Bodies.unnamed_kept",
    "Verif.Bodies.rigid_dofs",
    "Verif.Bodies.bodies_apart",
    "Verif.Bodies.unnamed_violated",
    "Verif.Bodies.sliced_dofs_violated"
   ],
   "note": "The default name of a dof is its rank: after the removal of a dof it can be the name of another one, which is lost. The body returned by sliced_by_plane, and any body made with the dictionary of another one, shares its dofs."
  },
  {
   "property": "C90",
   "status": "partial",
   "theorems": [
    "Verif.Problems.sorted_problems",
    "Verif.Problems.sorted_mixed",
    "Verif.Problems.sorted_violated",
    "Verif.Problems.sorting_exists"
   ],
   "note": "Bodies are equal by identity and ordered by name: with two bodies of the same name, the problems of a body are not put together. A list with and without bodies cannot be sorted. sorted is a parameter with its contract, which can be met (sorting_exists)."
  },
  {
   "property": "C91",
   "status": "partial",
   "theorems": [
    "Verif.Meshes.join_symmetric",
    "Verif.Meshes.join_refused",
    "Verif.Meshes.join_translation_close",
    "Verif.Meshes.join_translation_violated"
   ],
   "note": "With vectors that are only close, joining succeeds and moves the slices: the bound on the displacement is proved (join_translation_close), and a case where panels move (join_translation_violated)."
  },
  {
   "property": "C92",
   "status": "partial",
   "theorems": [
    "Verif.Meshes.moved_times",
    "Verif.Meshes.moved_in_place",
    "Verif.Meshes.moved_apart",
    "Verif.Meshes.copies_apart",
    "Verif.Meshes.symmetric_apart",
    "Verif.Meshes.join_apart",
    "Verif.Meshes.exec_separate",
    "Verif.Meshes.programs_separate",
    "Verif.Meshes.first_moved",
    "Verif.Meshes.join_moved",
    "Verif.Meshes.share_violated",
    "Verif.Meshes.share_join_violated",
    "Verif.Meshes.share_twice_violated"
   ],
   "note": "True for the programs that do not use any more the meshes given to a collection, a symmetric mesh or join_meshes (exec_separate, programs_separate). Otherwise the first part is shared: moving the given mesh in place, or the joined one, moves the first part of a symmetric mesh and leaves the others (first_moved, join_moved). Clipping and healing in place are left out."
  },
  {
   "property": "C93",
   "status": "partial",
   "theorems": [
    "Verif.Meshes.clip_symmetric",
    "Verif.Meshes.clip_along",
    "Verif.Meshes.clip_translational",
    "Verif.Meshes.clip_clear",
    "Verif.Meshes.cut_moved",
    "Verif.Meshes.clip_image",
    "Verif.Meshes.clip_crossed",
    "Verif.Meshes.clip_copy_violated",
    "Verif.Meshes.clip_promise_violated",
    "Verif.Meshes.clip_twisted_violated"
   ],
   "note": "Proved exactly for translational symmetries along the plane (clip_translational) and for all symmetries when the plane does not cross the panels (clip_clear). For all symmetries along the plane and panels crossed by it, the parts are images of the first one up to the tolerance of the fusion of vertices and the choice of first corners (clip_crossed), if no corner is just at the tolerance of the sides, no panel is twisted through the plane, and no small panel is removed. Missing: the removal of small panels for rotated and mirrored parts, where areas change with the fusion of vertices. Negations: a dry mesh with repetitions cannot be copied any more, a plane across the symmetry removes parts while the class is kept, and a twisted panel is cut in another way in the mirrored part."
  },
  {
   "property": "C94",
   "status": "partial",
   "theorems": [
    "Verif.Datasets.kochin_radiation_iff",
    "Verif.Datasets.kochin_diffraction_iff",
    "Verif.Datasets.kochin_usual_radiation",
    "Verif.Datasets.kochin_usual_diffraction",
    "Verif.Datasets.kochin_data_iff",
    "Verif.Datasets.kochin_frequencies",
    "Verif.Datasets.kochin_parameters",
    "Verif.Datasets.kochin_frequency_violated",
    "Verif.Datasets.kochin_density_violated",
    "Verif.Datasets.kochin_surface_violated"
   ],
   "note": "Exact conditions for both variables (the two iff theorems), met by the usual sets of results (kochin_usual_*). The property fails outside: diffraction results at frequencies without radiation results are lost, diffraction results with other parameters are given those of the radiation results, and results without a free surface are mixed with the others."
  },
  {
   "property": "C95",
   "status": "partial",
   "theorems": [
    "Verif.Datasets.bare_values",
    "Verif.Datasets.bare_matrix_iff",
    "Verif.Datasets.bare_matrix_square",
    "Verif.Datasets.bare_force",
    "Verif.Datasets.bare_frequencies",
    "Verif.Datasets.bare_missing",
    "Verif.Datasets.bare_single_dof_violated"
   ],
   "note": "The values are never lost or moved. For one frequency the shape is right if and only if there is one radiating dof or not exactly one influenced dof. With several frequencies and one dof the axis of the frequencies is the last one, although it is the first one with several dofs."
  },
  {
   "property": "C96",
   "status": "partial",
   "theorems": [
    "Verif.Datasets.inertia_own_iff",
    "Verif.Datasets.stiffness_own_iff",
    "Verif.Datasets.hydrostatics_refused_iff",
    "Verif.Datasets.hydrostatics_own",
    "Verif.Datasets.hydrostatics_name_violated",
    "Verif.Datasets.hydrostatics_squeezed_violated",
    "Verif.Datasets.hydrostatics_refused"
   ],
   "note": "Exact conditions for both matrices and for the refusal of the dataset; they hold for bodies with different names which all have both matrices (hydrostatics_own). Bodies with the same name replace each other, and a matrix that only one body has is read under all names."
  },
  {
   "property": "C97",
   "status": "partial",
   "theorems": [
    "Verif.Bodies.cluster_is_join",
    "Verif.Bodies.cluster_succeeds",
    "Verif.Bodies.cluster_panels",
    "Verif.Bodies.cluster_dofs",
    "Verif.Bodies.linkage_gathers",
    "Verif.Bodies.cluster_single_violated"
   ],
   "note": "For at least two bodies whose meshes can be copied and are not changed by healing and whose masses, if given, are positive, and for all linkage matrices in which each node is merged once. A single body is refused, although joining it is allowed."
  },
  {
   "property": "C98",
   "status": "partial",
   "theorems": [
    "Verif.Bodies.slice_positions",
    "Verif.Bodies.mince_planes",
    "Verif.Bodies.minced_sides",
    "Verif.Bodies.minced_rounded",
    "Verif.Bodies.minced_forgets",
    "Verif.Bodies.minced_dofs_violated",
    "Verif.Meshes.bbox_extents"
   ],
   "note": "The panels are kept and no part crosses a boundary, for numbers of slices that are powers of two. Other numbers are rounded down to a power of two without a warning. The dofs are not reordered with the panels, and the mass, the center of mass and the matrices are forgotten."
  },
  {
   "property": "C99",
   "status": "partial",
   "theorems": [
    "Verif.Meshes.method_kept",
    "Verif.Meshes.quadrature_of_chosen",
    "Verif.Meshes.collection_points",
    "Verif.Meshes.collection_computed",
    "Verif.Meshes.announced_iff",
    "Verif.Meshes.lid_points_iff",
    "Verif.Meshes.lid_points_violated",
    "Verif.Meshes.extract_method_iff",
    "Verif.Meshes.extract_one_method_iff",
    "Verif.Meshes.merged_method_iff",
    "Verif.Meshes.assign_method_stale",
    "Verif.Meshes.memory_ignores_method",
    "Verif.Meshes.points_per_panel"
   ],
   "note": "Proved over all histories as long as panels are only extracted from meshes with the default method, and for nested collections. Extraction and merging forget the method. A hull with four points on each panel and a lid with the default method cannot be solved. The memory of the engine does not see a change of method. The theorem about the memory is for a plain mesh."
  },
  {
   "property": "C100",
   "status": "partial",
   "theorems": [
    "Verif.Problems.resolution_warned_iff",
    "Verif.Problems.resolution_raises_iff",
    "Verif.Problems.resolution_many",
    "Verif.Problems.resolution_one",
    "Verif.Problems.resolution_radius_iff",
    "Verif.Problems.resolution_radius_violated",
    "Verif.Problems.resolution_warned_no_speed",
    "Verif.Problems.resolution_speed_violated",
    "Verif.Problems.checks_transparent",
    "Verif.Problems.batch_fails_iff",
    "Verif.Problems.batch_violated",
    "Verif.Problems.iterator_violated",
    "Verif.Problems.advice_lid_iff",
    "Verif.Problems.advice_violated"
   ],
   "note": "Proved for the wavelength of the problem, which is the one of the matrices without forward speed. With forward speed the encounter wavelength is not checked. The radius shown is that of the hull even when the lid is the cause. A body without panels makes the whole batch fail. The advice to set a lid may be caused by another body."
  },
  {
   "property": "C101",
   "status": "partial",
   "theorems": [
    "Verif.Scene.node_data_fails_iff",
    "Verif.Scene.node_missing_iff",
    "Verif.Scene.node_weighted",
    "Verif.Scene.node_average",
    "Verif.Scene.node_uniform_iff",
    "Verif.Scene.node_fan",
    "Verif.Scene.node_average_violated",
    "Verif.Scene.node_encoding_violated",
    "Verif.Scene.frame_value",
    "Verif.Scene.frame_periodic",
    "Verif.Scene.frame_shown",
    "Verif.Scene.frame_fails_iff",
    "Verif.Scene.colors_spec",
    "Verif.Scene.frame_uniform",
    "Verif.Scene.elevation_vertical"
   ],
   "note": "Proved for vertices with 1 to 127 corners of panels, none of them twice in the same panel. The first vertex of a triangle counts twice, so the mean depends on how the triangle is written. The counter has eight bits: around 64 triangles the motion changes its sign, around 128 there is no number."
  },
  {
   "property": "C102",
   "status": "partial",
   "theorems": [
    "Verif.Files.Numbered.rad_panels",
    "Verif.Files.Numbered.rad_few_refused",
    "Verif.Files.Numbered.rad_ignores_numbers",
    "Verif.Files.Numbered.rad_violated",
    "Verif.Files.Numbered.msh_panels",
    "Verif.Files.Numbered.msh_ignores_numbers",
    "Verif.Files.Numbered.msh_violated",
    "Verif.Files.Numbered.msh_refused",
    "Verif.Files.Numbered.meshio_panels",
    "Verif.Files.Numbered.msh_order_violated",
    "Verif.Files.Numbered.inp_one_frame",
    "Verif.Files.Numbered.inp_second_refused",
    "Verif.Files.Numbered.inp_increment_refused",
    "Verif.Files.Numbered.inp_increment_violated",
    "Verif.Files.Numbered.frame_refused",
    "Verif.Files.Numbered.frame_read"
   ],
   "note": "From rows of numbers, after the regular expressions. Radioss and Gmsh files hold when the nodes are numbered from 1 in order, and Diodore files when there is one section of nodes. Other numbers are ignored, several sections of nodes are refused or give wrong panels, and the order of the panels of a Gmsh file depends on the library meshio. The healing of meshes read by meshio is left out."
  },
  {
   "property": "C103",
   "status": "partial",
   "theorems": [
    "Verif.Files.Legacy.tecplot_ok_iff",
    "Verif.Files.Legacy.radiation_file",
    "Verif.Files.Legacy.excitation_file",
    "Verif.Files.Legacy.excitation_value",
    "Verif.Files.Legacy.tecplot_other_files",
    "Verif.Files.Legacy.tecplot_absent",
    "Verif.Files.Legacy.tecplot_data",
    "Verif.Files.Legacy.tecplot_period_refused",
    "Verif.Files.Legacy.runcal_fresh",
    "Verif.Files.Legacy.runcal_stale_violated",
    "Verif.Files.Legacy.export_ok_iff",
    "Verif.Files.Legacy.export_one",
    "Verif.Files.Legacy.export_many",
    "Verif.Files.Legacy.export_incomplete",
    "Verif.Files.Legacy.export_stale_violated"
   ],
   "note": "the content of the files is proved line by line for all datasets; violated for directories that exist (the files of earlier runs stay) and for datasets given by period or wavelength (refused after the beginning of the file has been written). The spaces and the rounding of the numbers are parameters."
  },
  {
   "property": "C104",
   "status": "partial",
   "theorems": [
    "Verif.Blocks.no_toeplitz_same",
    "Verif.Blocks.no_toeplitz_plain",
    "Verif.Blocks.all_iff",
    "Verif.Blocks.any_iff",
    "Verif.Blocks.stored_size_le",
    "Verif.Blocks.matmat_array",
    "Verif.Blocks.matmat_column",
    "Verif.Blocks.matmat_blocks",
    "Verif.Blocks.matmat_mismatch_violated",
    "Verif.Blocks.matmat_cut_violated",
    "Verif.Blocks.matmat_block_column_refused",
    "Verif.Blocks.matmat_nested_violated",
    "Verif.Blocks.matvec_type",
    "Verif.Blocks.gmres_refused_iff",
    "Verif.Blocks.gmres_solves",
    "Verif.Blocks.gmres_breakdown_violated",
    "Verif.Blocks.gmres_no_fft_solves"
   ],
   "note": "the products by arrays are proved at any depth, those of two block matrices when the second has arrays as blocks; violated for nested blocks (TypeError), wrong sizes (None is returned), complex matrices with real vectors (exception) and breakdowns of GMRES (a wrong vector is returned). The products of an array with a block matrix on its right are left out."
  },
  {
   "property": "C105",
   "status": "partial",
   "theorems": [
    "Verif.Datasets.detect_capytaine_iff",
    "Verif.Datasets.detect_bemio_iff",
    "Verif.Datasets.detect_empty_iff",
    "Verif.Datasets.detect_own_class_violated",
    "Verif.Datasets.mesh_several",
    "Verif.Datasets.mesh_one",
    "Verif.Datasets.mesh_order",
    "Verif.Datasets.mesh_same_name_violated",
    "Verif.Datasets.mesh_refused_iff",
    "Verif.Datasets.mesh_dataset_refused_iff",
    "Verif.Datasets.attributes_dataset",
    "Verif.Datasets.attributes_caller_violated",
    "Verif.Datasets.attributes_default"
   ],
   "note": "violated for bodies of the same name (the data of one of them, depending on the order of a set), for datasets in which only one of several bodies has cases with a free surface (exception), for the dictionary of the caller (changed) and for results of classes defined outside the package (refused). Only the panels of the hull are counted."
  },
  {
   "property": "C106",
   "status": "partial",
   "theorems": [
    "Verif.Green.unique_root",
    "Verif.Green.root_ok_iff",
    "Verif.Green.root_spec",
    "Verif.Green.roots_ok_iff",
    "Verif.Green.roots_spec",
    "Verif.Green.roots_increase",
    "Verif.Green.roots_low_violated",
    "Verif.Green.roots_more",
    "Verif.Green.roots_fewer_violated"
   ],
   "note": "proved between two frequencies given by the brackets; violated for lower frequencies (no change of sign in the bracket, so an exception), and for the number of roots: the compiled routine always reads 200 of them."
  },
  {
   "property": "C107",
   "status": "partial",
   "theorems": [
    "Verif.Meshes.clip_low",
    "Verif.Meshes.immersed_between",
    "Verif.Meshes.immersed_copy",
    "Verif.Meshes.immersed_depth_refused_iff",
    "Verif.Meshes.immersed_refused_changed",
    "Verif.Meshes.immersed_bottom_above",
    "Verif.Meshes.clip_twisted"
   ],
   "note": "the bounds are proved for meshes where no quadrangle is twisted across the plane; violated for the others (clip_twisted), and for the refused calls in place, which have already clipped the mesh at the free surface. A sea bottom above the free surface is accepted and nothing is left. Depths that are not numbers are left out."
  },
  {
   "property": "C108",
   "status": "partial",
   "theorems": [
    "Verif.Geometry.in_axis_iff",
    "Verif.Geometry.in_plane_iff",
    "Verif.Geometry.axis_in_plane_iff",
    "Verif.Geometry.relations_spec",
    "Verif.Geometry.relations_symmetric",
    "Verif.Geometry.relations_exclusive",
    "Verif.Geometry.relations_vector",
    "Verif.Geometry.small_vectors_violated",
    "Verif.Geometry.scaled_vector_violated",
    "Verif.Geometry.relations_refused_iff",
    "Verif.Geometry.axis_equals_plane",
    "Verif.Geometry.relations_moved",
    "Verif.Geometry.equality_spec",
    "Verif.Geometry.equality_refl",
    "Verif.Geometry.equality_symmetric_partial",
    "Verif.Geometry.equality_symmetric_violated",
    "Verif.Geometry.equality_transitive_violated"
   ],
   "note": "proved for axes and planes; violated for vectors that are not of unit length (the tolerance is on the vector and not on its direction), and == is neither symmetric nor transitive; symmetry is proved for axes with the same vector and planes with the same normal"
  },
  {
   "property": "C109",
   "status": "partial",
   "theorems": [
    "Verif.Meshes.lid_up_reversed",
    "Verif.Meshes.lid_unchanged",
    "Verif.Meshes.lid_down_iff",
    "Verif.Meshes.lid_down_twice",
    "Verif.Meshes.lid_parts_down",
    "Verif.Meshes.lid_mixed",
    "Verif.Meshes.body_lid",
    "Verif.Meshes.lid_down_violated"
   ],
   "note": "proved for the meshes whose normals all go up or all go down, and only these (lid_down_iff); violated for the others, for instance with one degenerate panel"
  },
  {
   "property": "C110",
   "status": "partial",
   "theorems": [
    "Verif.Meshes.as_set_spec",
    "Verif.Meshes.same_iff",
    "Verif.Meshes.from_set_refused_iff",
    "Verif.Meshes.from_set_spec",
    "Verif.Meshes.set_round_trip",
    "Verif.Meshes.set_round_trip_violated",
    "Verif.Meshes.same_blind"
   ],
   "note": "proved for the equality of meshes, except when a panel has less than three different corners, where the mesh is refused; violated for the panels themselves, as the order of the corners is lost"
  },
  {
   "property": "C111",
   "status": "proved",
   "theorems": [
    "Verif.Meshes.cube_spec",
    "Verif.Meshes.cube_sides",
    "Verif.Meshes.cube_empty"
   ],
   "note": "real numbers instead of floats"
  },
  {
   "property": "C112",
   "status": "proved",
   "theorems": [
    "Verif.Files.Numbered.diodore_round_trip",
    "Verif.Files.Numbered.quadsFirst_perm",
    "Verif.Files.Numbered.quadsFirst_iff",
    "Verif.Files.Numbered.diodore_no_panel",
    "Verif.Files.Numbered.diodore_order_violated"
   ],
   "note": "the text of the files is left out: files are taken as their sections of rows, and the rounding of the printed coordinates is any function"
  },
  {
   "property": "C113",
   "status": "partial",
   "theorems": [
    "Verif.Green.Fin.adjoint_vertical_iff",
    "Verif.Green.Fin.direct_vertical_iff",
    "Verif.Green.Fin.vertical_violated",
    "Verif.Green.Fin.vertical_other",
    "Verif.Green.Fin.horizontal_right",
    "Verif.Green.Fin.far_gradient",
    "Verif.Green.Fin.fin_integral",
    "Verif.Green.Fin.eigen_vertical",
    "Verif.Green.Fin.eigen_radial",
    "Verif.Green.Fin.eigen_bottom",
    "Verif.Green.Fin.eigen_free_surface",
    "Verif.Green.Fin.norm0_eq",
    "Verif.Green.Fin.modeCoef_eq",
    "Verif.Green.Fin.modes_orthogonal",
    "Verif.Green.Fin.pidcock_coef",
    "Verif.Green.Fin.fingreen_im"
   ],
   "note": "the property fails: the vertical component is the derivative at the other point, which is right for the imaginary part only between points at the same height; the real parts of the three near field methods are left out except their common terms, and the derivatives of the approximations of Bessel functions are hypotheses"
  },
  {
   "property": "C114",
   "status": "partial",
   "theorems": [
    "Verif.Green.FF.ff_far",
    "Verif.Green.FF.ff_near",
    "Verif.Green.FF.middle_limit",
    "Verif.Green.FF.ff_infinity",
    "Verif.Green.FF.ff_continuousAt",
    "Verif.Green.FF.ff_bounded_iff",
    "Verif.Green.FF.ff_continuous_iff",
    "Verif.Green.FF.ff_unbounded_violated"
   ],
   "note": "the property fails in shallow water: bounded and continuous on the range exactly when the product of wavenumber and depth is below 0.05 or above 0.1, because of the pole at the opposite wavenumber. In exact arithmetic."
  },
  {
   "property": "C115",
   "status": "proved",
   "theorems": [
    "Verif.Green.Hous.housrs_least_squares",
    "Verif.Green.Hous.housrs_solves",
    "Verif.Green.Hous.housrs_square",
    "Verif.Green.Hous.housrs_stop_iff",
    "Verif.Green.Hous.housrs_pivots_iff"
   ],
   "note": "In exact arithmetic. The test for small norms is commented out in the code, hence the condition of independent columns."
  },
  {
   "property": "C116",
   "status": "partial",
   "theorems": [
    "Verif.Green.Lisc.mcas_least_squares",
    "Verif.Green.Lisc.mcas_exact",
    "Verif.Green.Lisc.mcas_none_iff",
    "Verif.Green.Lisc.mcas_cut_violated",
    "Verif.Green.Lisc.double_root_violated",
    "Verif.Green.Lisc.conjugate_roots",
    "Verif.Green.Lisc.expors_range",
    "Verif.Green.Lisc.expors_exact",
    "Verif.Green.Lisc.expors_singular",
    "Verif.Green.Lisc.lisc_iff",
    "Verif.Green.Lisc.lisc_exact",
    "Verif.Green.Lisc.lisc_range",
    "Verif.Green.Lisc.lisc_singular_violated"
   ],
   "note": "the property fails for fewer than four exponentials (division by zero), for double roots (kept twice), for terms below exp(-30) (removed from one side of the system only), and when no try is good enough (the last one is returned without a warning). In exact arithmetic; the search of the roots of a polynomial is given by its contract, which follows from C117."
  },
  {
   "property": "C117",
   "status": "partial",
   "theorems": [
    "Verif.Green.Sprbm.sprbm_stop_iff",
    "Verif.Green.Sprbm.sprbm_count",
    "Verif.Green.Sprbm.sprbm_roots",
    "Verif.Green.Sprbm.sprbm_complete",
    "Verif.Green.Sprbm.sprbm_missing_violated",
    "Verif.Green.Sprbm.given_right",
    "Verif.Green.Sprbm.lisc_sprbm"
   ],
   "note": "the property holds when the search of a quadratic factor always succeeds; when it fails the caller is not told and goes on with roots that were never written. In exact arithmetic; the search of a quadratic factor (SPQFB) is given by its contract."
  },
  {
   "property": "C118",
   "status": "proved",
   "theorems": [
    "Verif.Green.Lwn.special_functions",
    "Verif.Green.Lwn.wave_accuracy",
    "Verif.Green.Lwn.wave_derivative_accuracy",
    "Verif.Green.Lwn.exactW_deriv_h",
    "Verif.Green.Lwn.exactW_deriv_v",
    "Verif.Green.Lwn.wave_outgoing",
    "Verif.Green.Lwn.outgoing_amplitude",
    "Verif.Green.Lwn.derivative_on_axis",
    "Verif.Green.Lwn.defined_iff",
    "Verif.Green.Lwn.struve_denominators",
    "Verif.Green.Lwn.free_surface_condition",
    "Verif.Green.Lwn.exchange",
    "Verif.Green.Lwn.horizontal_gradient",
    "Verif.Green.Lwn.far_waves_only",
    "Verif.Green.Lwn.far_derivative_waves_only",
    "Verif.Green.Lwn.near_logarithm"
   ],
   "note": "in real arithmetic; the bounds are those proved, the true errors are smaller. The Bessel and Struve functions are specified by their power series. The accuracy of the local term, which is an empirical approximation, is not part of the statement."
  },
  {
   "property": "C119",
   "status": "partial",
   "theorems": [
    "Verif.Blocks.Arith.incompatible_classes",
    "Verif.Blocks.Arith.same_class_refused",
    "Verif.Blocks.Arith.sum_commutes",
    "Verif.Blocks.Arith.difference_one_sided",
    "Verif.Blocks.Arith.difference_ends",
    "Verif.Blocks.Arith.sum_ends",
    "Verif.Blocks.Arith.low_and_block",
    "Verif.Blocks.Arith.scale_iff",
    "Verif.Blocks.Arith.divide_iff",
    "Verif.Blocks.Arith.shift_errors",
    "Verif.Blocks.Arith.arithmetic_violated"
   ],
   "note": "violated: a sum or a product of matrices of unrelated classes recurses without end, a difference is refused although the sum and the opposite difference have a value, a matrix with low rank blocks can be divided by a number and not multiplied, and number - matrix raises AttributeError. Proved: exactly when each of these happens. The operations of numpy with arrays are outside the model."
  },
  {
   "property": "C120",
   "status": "proved",
   "theorems": [
    "Verif.Green.FinBessel.accuracy",
    "Verif.Green.FinBessel.accuracy_near",
    "Verif.Green.FinBessel.accuracy_far",
    "Verif.Green.FinBessel.at_zero",
    "Verif.Green.FinBessel.variants",
    "Verif.Green.FinBessel.single_precision",
    "Verif.Green.FinBessel.outgoing_wave",
    "Verif.Green.FinBessel.wronskian",
    "Verif.Green.FinBessel.equation_zero",
    "Verif.Green.FinBessel.y1_below",
    "Verif.Green.FinBessel.zero_not_lowest_violated",
    "Verif.Green.FinBessel.zero_far"
   ],
   "note": "in real arithmetic; the bounds are those proved, the true errors beyond 4 are smaller. The functions are specified by their series, and shown to solve the equation of Bessel with the usual determinant of Wronski. At 0 the code returns -1e300 for the functions of the second kind: this is not a lower bound of the values close to 0 for Y1, and it is far from all of them for Y0."
  },
  {
   "property": "C121",
   "status": "partial",
   "theorems": [
    "Verif.Green.FinK.accuracy",
    "Verif.Green.FinK.memory_violated",
    "Verif.Green.FinK.memory_irrelevant",
    "Verif.Green.FinK.memory_one_term",
    "Verif.Green.FinK.zero_memory",
    "Verif.Green.FinK.second_term_violated",
    "Verif.Green.FinK.third_term_violated",
    "Verif.Green.FinK.first_kind",
    "Verif.Green.FinK.returned_wronskian",
    "Verif.Green.FinK.at_zero",
    "Verif.Green.FinK.second_kind_zero",
    "Verif.Green.FinK.second_kind_one",
    "Verif.Green.FinK.second_kind_decay"
   ],
   "note": "false as stated, proved with the two guards of `accuracy`: the argument is not within about 1e-12 of two numbers (5.03 and 7.02) where the second or third term of the series vanishes, and the uninitialised variable WW does not contain the first term of the series. Without the guards the result can be negative (`second_term_violated`, `third_term_violated`, `memory_violated`). In real arithmetic."
  },
  {
   "property": "C122",
   "status": "partial",
   "theorems": [
    "Verif.Green.ExpInt.order_one",
    "Verif.Green.ExpInt.order_error",
    "Verif.Green.ExpInt.any_order",
    "Verif.Green.ExpInt.order_violated",
    "Verif.Green.ExpInt.order_zero_argument",
    "Verif.Green.ExpInt.integral_ei",
    "Verif.Green.ExpInt.integral_ei_accuracy",
    "Verif.Green.ExpInt.integral_ei_zero",
    "Verif.Green.ExpInt.expInt_succ",
    "Verif.Green.ExpInt.expInt_one",
    "Verif.Green.ExpInt.expInt_one_deriv",
    "Verif.Green.ExpInt.expInt_one_tendsto"
   ],
   "note": "false as stated for the relative error: the error of the order n + 1 is exactly the error of the order 1 times (-x)^n / n! (`order_error`), so that for the order 41 at 40 the returned number is negative and ten million times too large (`order_violated`). Proved: the absolute error of every order is below 2.6e-7 for every positive argument (`any_order`), the error of the order 1 relative to exp(-x)/x is below 2.6e-7 above 1 (`order_one`), and Ei has 14 digits (`integral_ei_accuracy`). In real arithmetic."
  },
  {
   "property": "C123",
   "status": "partial",
   "theorems": [
    "Verif.Green.Linton.coefficient_accuracy",
    "Verif.Green.Linton.derivative_accuracy",
    "Verif.Green.Linton.coefficient_derivative",
    "Verif.Green.Linton.axis_accuracy",
    "Verif.Green.Linton.first_series",
    "Verif.Green.Linton.first_accuracy",
    "Verif.Green.Linton.parameter_length",
    "Verif.Green.Linton.parameter_vanishes",
    "Verif.Green.Linton.parameter_overflow"
   ],
   "note": "proved for the evanescent modes with a parameter PA which is not zero: the series end, and the error is at most the tolerance and 5.2e-7 exp((R/PA)^2) (`coefficient_accuracy`, `derivative_accuracy`). For the propagating mode the series ends, its terms sum to the Bessel function minus the integral (`first_series`), and the error is the rest of the series (`first_accuracy`); the rest is not bounded, because the stopping test looks at the sum of three terms which can cancel. False for all frequencies: the fitted parameter vanishes for a wave number near 70 (`parameter_vanishes`) and is so large beyond 110 that the first coefficient is larger than all floating-point numbers (`parameter_overflow`). In real arithmetic."
  },
  {
   "property": "C124",
   "status": "partial",
   "theorems": [
    "Verif.Green.Limes.geometric",
    "Verif.Green.Limes.constant",
    "Verif.Green.Limes.reached_violated",
    "Verif.Green.Limes.affine",
    "Verif.Green.Limes.three_sums",
    "Verif.Green.Limes.too_few",
    "Verif.Green.Limes.turns"
   ],
   "note": "proved for every sequence of the form L + c q^n (`geometric`, also for a ratio larger than one) and for constant sums (`constant`); the value follows the multiplication and the translation of any sequence (`affine`); with three sums it is the formula of Aitken (`three_sums`). False for sums which stop changing: when all the sums but the first are equal, the value is the first sum (`reached_violated`). The estimate of the error would show it, and the callers do not read it. In exact arithmetic."
  },
  {
   "property": "C125",
   "status": "partial",
   "theorems": [
    "Verif.Green.Quad.adaptive_ends",
    "Verif.Green.Quad.adaptive_terminates",
    "Verif.Green.Quad.adaptive_partition",
    "Verif.Green.Quad.accepted_iff",
    "Verif.Green.Quad.accepted_code",
    "Verif.Green.Quad.adaptive_error",
    "Verif.Green.Quad.adaptive_polynomial",
    "Verif.Green.Quad.adaptive_violated"
   ],
   "note": "everything but the last part is proved: the recursion ends (`adaptive_ends`, `adaptive_terminates`), the pieces are a partition and each passed the test (`adaptive_partition`), polynomials of degree at most 23 are integrated up to the rounding of the tables (`adaptive_polynomial`), and the error is at most twice the length times the distance to such polynomials (`adaptive_error`). False that the tolerance bounds the error: for every tolerance and every bound there is a positive polynomial with a zero result and an error above the bound (`adaptive_violated`). In exact arithmetic."
  },
  {
   "property": "C126",
   "status": "proved",
   "theorems": [
    "Verif.Green.Erf.near_accuracy",
    "Verif.Green.Erf.far_accuracy",
    "Verif.Green.Erf.error_accuracy",
    "Verif.Green.Erf.complement_accuracy",
    "Verif.Green.Erf.derivative_accuracy",
    "Verif.Green.Erf.erf_tendsto",
    "Verif.Green.Erf.error_odd"
   ],
   "note": "the specification is the integral of the bell function; in exact arithmetic with the constants of the code"
  },
  {
   "property": "C127",
   "status": "partial",
   "theorems": [
    "Verif.Green.Linton.upper_ends",
    "Verif.Green.Linton.truncated_accuracy",
    "Verif.Green.Linton.truncated_violated",
    "Verif.Green.Linton.truncated_example"
   ],
   "note": "proved: the search of the end of the interval ends, and the error is at most the one of the quadrature plus the tolerance divided by the square of the wave number of the mode (`truncated_accuracy`). False in deep water: the part that is left out is at least a constant times the logarithm of the inverse of the wave number (`truncated_violated`), without limit; with a wave number of 0.001 it is twenty thousand times the tolerance (`truncated_example`). The first mode, which is computed by a series, and the derivatives are left out."
  },
  {
   "property": "C128",
   "status": "partial",
   "theorems": [
    "Verif.Green.Linton.expInt_deriv",
    "Verif.Green.Linton.firstTerm_deriv",
    "Verif.Green.Linton.first_derivative",
    "Verif.Green.Linton.first_derivative_accuracy"
   ],
   "note": "proved: the coefficient has a derivative, the terms of the code are the derivatives of the terms of the coefficient and their series is the derivative (`first_derivative`); the loop ends, its last term is below the tolerance and the error is exactly the rest of the series, apart from the error of the exponential integrals (`first_derivative_accuracy`). Missing: a bound of the rest of the series by the tolerance."
  },
  {
   "property": "C129",
   "status": "partial",
   "theorems": [
    "Verif.Blocks.fits_iff",
    "Verif.Blocks.fitsR_iff",
    "Verif.Blocks.longer_ignored",
    "Verif.Blocks.size_violated"
   ],
   "note": "exactly: structured matrices accept their number of columns (or lines) only, and generic block matrices accept all the longer vectors too (`fits_iff`, `fitsR_iff`), of which the last entries have no effect (`longer_ignored`). Two matrices with the same entries do not agree (`size_violated`). Symmetric Toeplitz matrices of one block, for which every product raises, are left out."
  },
  {
   "property": "C130",
   "status": "proved",
   "theorems": [
    "Verif.Tabulation.Integ.imaginary_accuracy",
    "Verif.Tabulation.Integ.imaginary_derivative_accuracy",
    "Verif.Tabulation.Integ.imaginary_deep",
    "Verif.Tabulation.Integ.default_imaginary",
    "Verif.Tabulation.Integ.default_table"
   ],
   "note": "the rule of Simpson is exact for the even powers of the cosine (discrete orthogonality), so the error is a remainder of the exponential series, plus the effect of the value of `PI`, which dominates: at most 3e-5 with the default parameters. Exact arithmetic otherwise."
  },
  {
   "property": "C131",
   "status": "partial",
   "theorems": [
    "Verif.Tabulation.Integ.variants_vertical",
    "Verif.Tabulation.Integ.variants_exact",
    "Verif.Tabulation.Integ.variants_iff",
    "Verif.Tabulation.Integ.variants_accuracy",
    "Verif.Tabulation.Integ.variants_ends",
    "Verif.Tabulation.Integ.variants_violated"
   ],
   "note": "false near the free surface: the two end points of the quadrature alone contribute 4/(3N|z|) (`variants_ends`), with the default parameters the difference is more than 1000 where 20 is expected (`variants_violated`). With the true π the exact factor of the difference is found by summing the kernel of Poisson (`variants_exact`, `variants_iff`), and the difference is right up to (r/(r+|z|))^N away from the surface (`variants_accuracy`). Exact on the vertical (`variants_vertical`)."
  },
  {
   "property": "C132",
   "status": "partial",
   "theorems": [
    "Verif.Tabulation.Integ.asymptotic_derivative",
    "Verif.Tabulation.Integ.asymptotic_derivative_iff"
   ],
   "note": "true for the imaginary part; for the real part exactly when z = 0: the term 6 z r / r1^5 is left out (`asymptotic_derivative_iff`)."
  },
  {
   "property": "C133",
   "status": "partial",
   "theorems": [
    "Verif.Tabulation.Integ.pi_constant_violated"
   ],
   "note": "false: the literal has no kind, hence single precision, an error of 8.7e-8 in double precision; its digits are wrong too, after the twelfth."
  },
  {
   "property": "C134",
   "status": "partial",
   "theorems": [
    "Verif.Tabulation.Integ.imaginary_bessel",
    "Verif.Tabulation.Integ.asymptotic_difference",
    "Verif.Tabulation.Integ.asymptotic_imaginary",
    "Verif.Tabulation.Integ.edge_violated"
   ],
   "note": "the integrals are functions of Bessel (`imaginary_bessel`); beyond the default tables the error is at most 6.4e-4 exp(z), and its main term is known (`asymptotic_imaginary`, `asymptotic_difference`). False as stated: at the edge the value jumps by at least 5.5e-4 exp(z), more than the error of the tables (`edge_violated`). The real parts are left out."
  },
  {
   "property": "C135",
   "status": "partial",
   "theorems": [
    "Verif.Tabulation.ExpE1.vertical_spec",
    "Verif.Tabulation.ExpE1.vertical_value",
    "Verif.Tabulation.ExpE1.vertical_far",
    "Verif.Tabulation.ExpE1.vertical_accuracy",
    "Verif.Tabulation.ExpE1.vertical_accuracy_all",
    "Verif.Tabulation.ExpE1.vertical_accuracy_violated",
    "Verif.Tabulation.ExpE1.exp_e1_conj"
   ],
   "note": "the specification is pinned down by a differential equation and its behaviour at zero (`vertical_spec`). Error at most 3e-4 except for -1 < z <= -1/2 (`vertical_accuracy`), at most 1.7e-3 everywhere (`vertical_accuracy_all`), one-sided and decreasing with the depth below -16 (`vertical_far`). False as stated: at z = -1/2 the error is above 1e-3 and the value jumps by more than 9e-4 (`vertical_accuracy_violated`). Exact arithmetic, whereas the code rounds to single precision; off the real axis only the symmetry is proved (`exp_e1_conj`)."
  },
  {
   "property": "C136",
   "status": "partial",
   "theorems": [
    "Verif.Tabulation.ExpE1.exp_e1_first",
    "Verif.Tabulation.ExpE1.exp_e1_third"
   ],
   "note": "proved when |Im z| > 10 and Re z >= -16 (`exp_e1_third`). Below -16 the bound is 720 / (|z|^6 |Im z|) (`exp_e1_first`), which is not uniform near the real axis; on the real axis see C135. Exact arithmetic, whereas the code rounds to single precision."
  },
  {
   "property": "C137",
   "status": "partial",
   "theorems": [
    "Verif.Green.Disp.wave_derivatives",
    "Verif.Green.Disp.mode_derivative",
    "Verif.Green.Disp.mode_second_derivative",
    "Verif.Green.Disp.mode_second_derivative_iff",
    "Verif.Green.Disp.mode_order_violated",
    "Verif.Green.Disp.wave_zero_iff",
    "Verif.Green.Disp.mode_zero_iff",
    "Verif.Green.Disp.zero_stays",
    "Verif.Green.Disp.stays_iff",
    "Verif.Green.Disp.wave_relation",
    "Verif.Green.Disp.mode_relation",
    "Verif.Green.Disp.gravity_violated",
    "Verif.Green.Disp.deep_root",
    "Verif.Green.Disp.deep_violated",
    "Verif.Green.Disp.dispersion_roots_shape",
    "Verif.Green.Disp.dispersion_one_root",
    "Verif.Green.Disp.mode_exists",
    "Verif.Green.Disp.mode_ends"
   ],
   "note": "violated: the function multiplies by g = 9.81 and the routine divides by g = 9.807, so the relation is solved for omega^2/g times 9810/9807 (`wave_relation`, `mode_relation`) and none of its roots is a root of the relation asked for (`gravity_violated`). When omega^2/g h >= 14 the first value is exactly 9810/9807 omega^2/g, too large by three parts in ten thousand (`deep_root`, `deep_violated`). The second derivative of the evanescent iterations is that of the first loop, wrong near every root (`mode_order_violated`); the roots stay fixed points (`zero_stays`). A loop of an evanescent mode that ends in the interval of its mode ends within 1e-9 of that mode for the shifted frequency, whatever its first approximation (`mode_ends`). Missing: that the loops end, and how near to its root the first one ends."
  },
  {
   "property": "C138",
   "status": "partial",
   "theorems": [
    "Verif.LowRank.aca_zero_tolerance",
    "Verif.LowRank.aca_zero_tolerance_violated",
    "Verif.LowRank.aca_negative_tolerance",
    "Verif.LowRank.aca_negative_ends",
    "Verif.LowRank.full_interpolates_partial",
    "Verif.LowRank.int_column",
    "Verif.LowRank.int_cross_iff",
    "Verif.LowRank.int_cross_violated"
   ],
   "note": "without a tolerance the rank is the maximal one unless a cross is exactly zero, and then it is smaller (`aca_zero_tolerance`), for instance for every product of a column and a row (`aca_zero_tolerance_violated`). A negative tolerance acts as its opposite, and never raises (`aca_negative_tolerance`). Full matrices and functions give the same result, right when no pivot is replaced (`full_interpolates_partial`). For arrays of integers and a rank of one, the factors are truncated: the column that is read is right exactly when the pivot divides it (`int_cross_iff`, `int_cross_violated`). Missing: integers with larger ranks."
  },
  {
   "property": "C139",
   "status": "partial",
   "theorems": [
    "Verif.Blocks.product_type_iff",
    "Verif.Blocks.complex_real_violated",
    "Verif.Blocks.circulant_real_iff",
    "Verif.Blocks.toeplitz_real_iff",
    "Verif.Blocks.circulant_value_iff",
    "Verif.Blocks.single_precision_violated",
    "Verif.Blocks.double_precision_kind"
   ],
   "note": "generic block matrices accept exactly the vectors that are of a kind at least as high as all of their arrays, and fail for the others (`product_type_iff`, `complex_real_violated`). Circulant and Toeplitz matrices accept all types, but compare the type with `complex`, that is double precision: the imaginary part is lost exactly when one type is complex of single precision and none is complex of double precision (`circulant_real_iff`, `toeplitz_real_iff`, `circulant_value_iff`, `single_precision_violated`). In double precision they are right (`double_precision_kind`). The types of nested structured blocks are simplified to that of the first one, as in `dtype`."
  },
  {
   "property": "C140",
   "status": "partial",
   "theorems": [
    "Verif.Green.Image.images_deriv_r",
    "Verif.Green.Image.images_deriv_z",
    "Verif.Green.Image.images_symmetric",
    "Verif.Green.Image.images_bounded",
    "Verif.Green.Image.images_accuracy_partial",
    "Verif.Green.Image.images_surface_violated"
   ],
   "note": "the two derivatives are exactly those of the value (`images_deriv_r`, `images_deriv_z`), and exchanging the points does not change it (`images_symmetric`). Once the source and its image in the free surface are excluded, the rest stays bounded when the points come together (`images_bounded`). The polynomial that stands for the far images is meant for arguments up to one: the value is right up to 0.00001 and the square of the ratio of the distance and the depth, both divided by the depth, when the sum of the heights is at most minus the depth (`images_accuracy_partial`; missing: the polynomial also follows the ratio, so that the square is not needed). The code uses it up to two: for two points on the free surface the error is at least 0.00039 less that square, divided by the depth (`images_surface_violated`)."
  },
  {
   "property": "C141",
   "status": "partial",
   "theorems": [
    "Verif.Green.LintonErr.errors_deriv_r",
    "Verif.Green.LintonErr.errors_deriv_z",
    "Verif.Green.LintonErr.integrand_deriv_r",
    "Verif.Green.LintonErr.integrand_deriv_z",
    "Verif.Green.LintonErr.coincident_limit",
    "Verif.Green.LintonErr.coincident_threshold",
    "Verif.Green.LintonErr.coincident_violated"
   ],
   "note": "the sums of error functions and the integrands come with their exact derivatives, for every pair of a function and its derivative in place of the error function, when the points are farther apart than the threshold (`errors_deriv_r`, `errors_deriv_z`, `integrand_deriv_r`, `integrand_deriv_z`). The value for a point and itself is not the limit: the term that is left out has a limit that is not zero (`coincident_limit`), so that the Green function is too large by 2 / (√π PA), where PA is the parameter of the method (`coincident_violated`), however small the threshold (`coincident_threshold`). The sums of modes and the integral itself are in C123 to C128."
  },
  {
   "property": "C142",
   "status": "partial",
   "theorems": [
    "Verif.Green.Linton.integrand_derivative",
    "Verif.Green.Linton.upperD_ends",
    "Verif.Green.Linton.dcoef_axis",
    "Verif.Green.Linton.dcoef_series",
    "Verif.Green.Linton.dcoef_quadrature",
    "Verif.Green.Linton.dcoef_units_violated"
   ],
   "note": "the integrand is the derivative of that of the coefficients (`integrand_derivative`) and the search of the end of the interval ends (`upperD_ends`). The error is at most 1 / (6 10^6 PA²) near the axis, where the code returns zero (`dcoef_axis`), that of C123 for the series (`dcoef_series`), and that of the quadrature plus the distance divided by 800 π for the quadrature, which is not below the tolerance for all distances (`dcoef_quadrature`). The way depends on the unit of length, because the distance is compared with a parameter without unit (`dcoef_units_violated`). Missing: the first mode by quadrature."
  },
  {
   "property": "C143",
   "status": "partial",
   "theorems": [
    "Verif.Meshes.heal_mesh_panels",
    "Verif.Meshes.heal_mesh_unused_violated",
    "Verif.Meshes.heal_mesh_flat_violated",
    "Verif.Meshes.remove_unused_twice",
    "Verif.Meshes.heal_triangles_twice",
    "Verif.Meshes.merge_twice_partial",
    "Verif.Meshes.merge_twice_violated",
    "Verif.Meshes.heal_mesh_open",
    "Verif.Meshes.heal_mesh_closed"
   ],
   "note": "healing succeeds and keeps the panels that are not tiny (`heal_mesh_panels`), and all vertices are used when no panel is tiny (same theorem). The vertices of a tiny panel stay without any panel, because the unused vertices are removed first (`heal_mesh_unused_violated`). A panel with two corners within the tolerance becomes flat and stays, because the degenerated panels are removed before merging (`heal_mesh_flat_violated`). Removing unused vertices twice is the same as once (`remove_unused_twice`). Healing the triangles twice is the same as once exactly when there is no quadrangle, whose corners are turned every time (`heal_triangles_twice`). Merging twice is the same as once when the coordinates are gathered in clusters (`merge_twice_partial`), not in general (`merge_twice_violated`). When the mesh is healed as a closed one, the vertices are the same and the panels are the same up to reversals, so what is said of the open case holds for it (`heal_mesh_closed`; C71 is about the orientation)."
  },
  {
   "property": "C144",
   "status": "partial",
   "theorems": [
    "Verif.Engines.Far.diameter_bounds",
    "Verif.Engines.Far.diameter_violated",
    "Verif.Engines.Far.collection_center",
    "Verif.Engines.Far.collection_diameter",
    "Verif.Engines.Far.low_rank_separated_partial",
    "Verif.Engines.Far.low_rank_touching_violated"
   ],
   "note": "the diameter is between the largest distance between two nodes and twice this distance (`diameter_bounds`), and not always this distance (`diameter_violated`). The center of a collection is that of all its nodes (`collection_center`), and its diameter, which is that of the merged mesh, is between the same bounds up to four times the tolerance of merging (`collection_diameter`). When the distance of the centers is larger than ACA_distance times both diameters, all nodes are farther from each other than (ACA_distance - 1) times each diameter (`low_rank_separated_partial`). One diameter is enough in the code: meshes with a node in common are said to be far (`low_rank_touching_violated`)."
  },
  {
   "property": "C145",
   "status": "partial",
   "theorems": [
    "Verif.Engines.Far.collections_equal_iff",
    "Verif.Engines.Far.equality_blind",
    "Verif.Engines.Far.diameter_of_equal",
    "Verif.Engines.Far.diameter_first",
    "Verif.Engines.Far.diameter_memory_partial",
    "Verif.Engines.Far.diameter_memory_exact",
    "Verif.Engines.Far.diameter_memory_violated"
   ],
   "note": "violated: the classes and symmetries are not compared (`collections_equal_iff`, `equality_blind`), and the diameter of a triangle is the one of an equal mesh with an unused vertex far away if that one was read before (`diameter_memory_violated`). Proved: exactly when two collections are equal; the memory has at most 1024 entries, and the value read is the diameter of the collection or of an equal one read before (`diameter_of_equal`); it is the right one when no equal collection was read before (`diameter_first`); without unused vertices it is within the bounds of C144 (`diameter_memory_partial`), and it does not depend on the history when moreover the nodes are farther from each other than the tolerance of merging (`diameter_memory_exact`). Collections that are changed while they are in the memory are left out."
  },
  {
   "property": "C146",
   "status": "partial",
   "theorems": [
    "Verif.Tabulation.Dir.versions_apart",
    "Verif.Tabulation.Dir.import_refused_iff",
    "Verif.Tabulation.Dir.directory_at_import",
    "Verif.Tabulation.Dir.directory_absolute_iff",
    "Verif.Tabulation.Dir.directory_violated"
   ],
   "note": "violated: a variable defined after the import does not count, its value is completed by the version, a blank one gives a directory inside the working directory, and when the default directory cannot be made the import fails although another directory, or none, would be asked for (`directory_violated`). Proved: two versions have no file in common (`versions_apart`); exactly when the import fails (`import_refused_iff`); which directory is used (`directory_at_import`); exactly when it does not depend on the working directory, except on Windows and macOS (`directory_absolute_iff`)."
  },
  {
   "property": "C147",
   "status": "partial",
   "theorems": [
    "Verif.Files.Driver.same_names",
    "Verif.Files.Driver.written_then_read",
    "Verif.Files.Driver.both_ways_iff",
    "Verif.Files.Driver.extension_used",
    "Verif.Files.Driver.names_violated"
   ],
   "note": "violated: the format of Diodore is written and cannot be read back, and in a file with the extension dat it is given to the reader of Nemoh; five formats are listed without any writer; GDF is accepted as an extension and not as a format (`names_violated`). Proved: a name means the same format in both directions, and dat is the only one for reading only (`same_names`); what is written is given to the reader of the same format (`written_then_read`); exactly which names go both ways (`both_ways_iff`); the extension is used in lower case (`extension_used`). The contents of the files are the subject of C43 and C112."
  }
 ]
}
