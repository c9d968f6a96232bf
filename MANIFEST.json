{
 "claims": [
  {
   "property": "C01",
   "status": "proved",
   "theorems": [
    "Verif.Caching.matrix_text_roundtrip",
    "Verif.Caching.matrix_text_roundtrip_rational",
    "Verif.Caching.rational_text_roundtrip",
    "Verif.Caching.empty_matrix_does_not_roundtrip"
   ],
   "note": ""
  },
  {
   "property": "C02",
   "status": "proved",
   "theorems": [
    "Verif.Caching.cache_refines_map",
    "Verif.Caching.load_after_save"
   ],
   "note": ""
  },
  {
   "property": "C03",
   "status": "proved",
   "theorems": [
    "Verif.Caching.load_shape",
    "Verif.Caching.load_missing",
    "Verif.Caching.load_other_shape"
   ],
   "note": ""
  },
  {
   "property": "C04",
   "status": "partial",
   "theorems": [
    "Verif.Caching.crash_can_load_wrong_matrix",
    "Verif.Caching.crash_at_start_makes_load_raise",
    "Verif.Caching.crash_load_partial"
   ],
   "note": "The code violates the full property (first two theorems are witnesses); the partial theorem says what a load after a crash can return."
  },
  {
   "property": "C05",
   "status": "proved",
   "theorems": [
    "Verif.Caching.dual_matrix_cache_transparent",
    "Verif.Caching.getDualMatrix_no_caching",
    "Verif.Caching.getDualMatrix_reuses"
   ],
   "note": ""
  },
  {
   "property": "C06",
   "status": "proved",
   "theorems": [
    "Verif.Caching.cacheId_injective"
   ],
   "note": ""
  },
  {
   "property": "C07",
   "status": "proved",
   "theorems": [
    "Verif.Caching.dual_and_inverse_files_disjoint",
    "Verif.Caching.files_separate_ids"
   ],
   "note": ""
  },
  {
   "property": "C08",
   "status": "partial",
   "theorems": [
    "Verif.Utils.allequal_ignores_extra_items",
    "Verif.Utils.allequal_to_expression_is_always_true",
    "Verif.Utils.allequal_wrong_on_expression",
    "Verif.Utils.allequal_exact_partial"
   ],
   "note": "The code violates the full property; witnesses plus exactness on values of equal nesting shape."
  },
  {
   "property": "C09",
   "status": "partial",
   "theorems": [
    "Verif.Utils.nth_13",
    "Verif.Utils.nth_111",
    "Verif.Utils.nth_correct_iff_partial"
   ],
   "note": "The code violates the full property; the partial theorem characterises exactly which n are right."
  },
  {
   "property": "C10",
   "status": "proved",
   "theorems": [
    "Verif.Quadrature.equispaced_exact",
    "Verif.Quadrature.equispaced_small"
   ],
   "note": ""
  },
  {
   "property": "C11",
   "status": "proved",
   "theorems": [
    "Verif.Quadrature.lobatto_exact",
    "Verif.Quadrature.lobatto_defined"
   ],
   "note": ""
  },
  {
   "property": "C12",
   "status": "proved",
   "theorems": [
    "Verif.Quadrature.radau_exact",
    "Verif.Quadrature.legendre_exact",
    "Verif.Quadrature.radau_legendre_defined"
   ],
   "note": ""
  },
  {
   "property": "C13",
   "status": "proved",
   "theorems": [
    "Verif.Quadrature.getQuadrature_dispatch",
    "Verif.Quadrature.getQuadrature_wellFormed"
   ],
   "note": ""
  },
  {
   "property": "C21",
   "status": "proved",
   "theorems": [
    "Verif.Polysets.polySet_spec",
    "Verif.Polysets.polySet_length",
    "Verif.Polysets.polySet_raises"
   ],
   "note": ""
  },
  {
   "property": "C22",
   "status": "proved",
   "theorems": [
    "Verif.Polysets.quolySet_spec",
    "Verif.Polysets.quolySet_length"
   ],
   "note": ""
  },
  {
   "property": "C23",
   "status": "proved",
   "theorems": [
    "Verif.Polysets.serSet_spec",
    "Verif.Polysets.polySet_serSet_spec"
   ],
   "note": ""
  },
  {
   "property": "C24",
   "status": "proved",
   "theorems": [
    "Verif.Polysets.prismSet_spec",
    "Verif.Polysets.pyramidSet_spec",
    "Verif.Polysets.prismSet_length",
    "Verif.Polysets.pyramidSet_length"
   ],
   "note": ""
  },
  {
   "property": "C25",
   "status": "proved",
   "theorems": [
    "Verif.Polysets.vectorSet_spec",
    "Verif.Polysets.vectorSet_length"
   ],
   "note": ""
  },
  {
   "property": "C26",
   "status": "proved",
   "theorems": [
    "Verif.Polysets.scalar_sets_independent",
    "Verif.Polysets.vector_sets_independent",
    "Verif.Polysets.raviartThomas_list_independent",
    "Verif.Polysets.nedelec_list_independent"
   ],
   "note": ""
  },
  {
   "property": "C27",
   "status": "proved",
   "theorems": [
    "Verif.Polysets.hdivSet_spec",
    "Verif.Polysets.hdivSet_length",
    "Verif.Polysets.hcurlSet_spec",
    "Verif.Polysets.hcurlSet_length"
   ],
   "note": ""
  },
  {
   "property": "C66",
   "status": "proved",
   "theorems": [
    "Verif.Polysets.hdivQuoly_list_spec",
    "Verif.Polysets.hcurlQuoly_list_spec"
   ],
   "note": ""
  },
  {
   "property": "C67",
   "status": "partial",
   "theorems": [
    "Verif.Polysets.hdivSer_divergence_free_3d_partial",
    "Verif.Polysets.hdivSer_2d_not_divergence_free"
   ],
   "note": "Holds in 3D; the code violates it in 2D, proved for every order."
  },
  {
   "property": "C68",
   "status": "partial",
   "theorems": [
    "Verif.Polysets.hcurlSer_contains_gradients_3d_partial",
    "Verif.Polysets.hcurlSer_2d_misses_gradient"
   ],
   "note": "Holds in 3D; the code violates it in 2D, proved for every order."
  },
  {
   "property": "C14",
   "status": "proved",
   "theorems": [
    "Verif.Geometry.pointInInterval_iff",
    "Verif.Geometry.pointInTriangle_iff",
    "Verif.Geometry.pointInTriangle_3d_iff",
    "Verif.Geometry.pointInTetrahedron_iff"
   ],
   "note": ""
  },
  {
   "property": "C15",
   "status": "proved",
   "theorems": [
    "Verif.Geometry.pointInQuadrilateral_iff",
    "Verif.Geometry.pointInQuadrilateral_negative",
    "Verif.Geometry.parallelogram_convexPositive"
   ],
   "note": ""
  },
  {
   "property": "C16",
   "status": "proved",
   "theorems": [
    "Verif.Mappings.identity_undone",
    "Verif.Mappings.l2_undone",
    "Verif.Mappings.covariant_undone",
    "Verif.Mappings.contravariant_undone",
    "Verif.Mappings.doubleCovariant_undone",
    "Verif.Mappings.doubleContravariant_undone"
   ],
   "note": ""
  },
  {
   "property": "C17",
   "status": "proved",
   "theorems": [
    "Verif.Mappings.identity_pairing",
    "Verif.Mappings.l2_pairing",
    "Verif.Mappings.covariant_pairing",
    "Verif.Mappings.contravariant_pairing"
   ],
   "note": ""
  },
  {
   "property": "C18",
   "status": "proved",
   "theorems": [
    "Verif.Mappings.covariant_tangential",
    "Verif.Mappings.contravariant_flux",
    "Verif.Mappings.doubleCovariant_tangential",
    "Verif.Mappings.doubleContravariant_normal"
   ],
   "note": ""
  },
  {
   "property": "C19",
   "status": "proved",
   "theorems": [
    "Verif.Mappings.grad_identity",
    "Verif.Mappings.div_contravariant",
    "Verif.Mappings.div_contravariant_l2",
    "Verif.Mappings.curl_covariant",
    "Verif.Mappings.contravariant_substitute"
   ],
   "note": ""
  },
  {
   "property": "C20",
   "status": "partial",
   "theorems": [
    "Verif.Mappings.getMapping_documented",
    "Verif.Mappings.getMapping_returns",
    "Verif.Mappings.getMapping_dispatch_partial",
    "Verif.Mappings.getMapping_transpose_raises",
    "Verif.Mappings.getMapping_not_a_mapping"
   ],
   "note": "The code violates the full property: names bound to non-mappings in the module do not raise. The theorems say exactly what is returned for every name."
  },
  {
   "property": "C34",
   "status": "proved",
   "theorems": [
    "Verif.References.tables_good",
    "Verif.References.subEntities_good",
    "Verif.References.ridges_in_two_facets",
    "Verif.References.dualPolygon_tables",
    "Verif.References.dualPolygon_last_edge"
   ],
   "note": ""
  },
  {
   "property": "C35",
   "status": "proved",
   "theorems": [
    "Verif.References.mapTo_vertex",
    "Verif.References.mapTo_affine",
    "Verif.References.mapTo_multiaffine",
    "Verif.References.mapTo_default",
    "Verif.References.mapTo_default_pyramid"
   ],
   "note": ""
  },
  {
   "property": "C36",
   "status": "partial",
   "theorems": [
    "Verif.References.inv_map",
    "Verif.References.map_inv",
    "Verif.References.inv_accepts_simplex",
    "Verif.References.inv_map_pyramid_partial",
    "Verif.References.inv_map_pyramid_fails"
   ],
   "note": "Proved for every cell but the pyramid, where the code violates the property (witness); the partial theorem gives the points at which the pyramid inverse is right."
  },
  {
   "property": "C37",
   "status": "proved",
   "theorems": [
    "Verif.References.self_maps_agree",
    "Verif.References.inv_self_map_quadrilateral_3d",
    "Verif.References.inv_self_quadrilateral_3d_accepts",
    "Verif.References.inv_map_rejects_vertical_square",
    "Verif.References.inv_self_map_triangle_3d_iff",
    "Verif.References.inv_self_map_triangle_3d_fails"
   ],
   "note": ""
  },
  {
   "property": "C41",
   "status": "proved",
   "theorems": [
    "Verif.References.eq_iff",
    "Verif.References.eq_refl",
    "Verif.References.eq_symm",
    "Verif.References.eq_trans",
    "Verif.References.hash_eq",
    "Verif.References.eq_subEntity",
    "Verif.References.eq_ignores_origin",
    "Verif.References.subEntity_wf"
   ],
   "note": ""
  },
  {
   "property": "C38",
   "status": "proved",
   "theorems": [
    "Verif.References.tangent_spec",
    "Verif.References.tangent_raises",
    "Verif.References.normal_interval_spec",
    "Verif.References.normal_3d_spec",
    "Verif.References.normal_orthogonal_to_edges",
    "Verif.References.normal_raises"
   ],
   "note": ""
  },
  {
   "property": "C39",
   "status": "partial",
   "theorems": [
    "Verif.References.contains_default",
    "Verif.References.contains_point",
    "Verif.References.contains_triangle",
    "Verif.References.contains_raises",
    "Verif.References.contains_tetrahedron_partial",
    "Verif.References.contains_tetrahedron_wrong"
   ],
   "note": "Exact for all cells for which contains() answers, except tetrahedra other than the default one, where the code violates the property for every such tetrahedron; the partial theorem says what is decided there."
  },
  {
   "property": "C40",
   "status": "partial",
   "theorems": [
    "Verif.References.lattice_interval",
    "Verif.References.lattice_triangle",
    "Verif.References.lattice_tetrahedron",
    "Verif.References.lattice_parallelogram",
    "Verif.References.lattice_quadrilateral_leaves",
    "Verif.References.lattice_hexahedron",
    "Verif.References.lattice_prism_partial",
    "Verif.References.lattice_prism_on_boundary",
    "Verif.References.dualLattice_inside",
    "Verif.References.dualLattice_distinct",
    "Verif.References.dualLattice_two"
   ],
   "note": "The code violates the property for prisms (for every n), for general quadrilaterals (witness) and for the degenerate dual polygon with two triangles (equal points for every n >= 4); it is proved for everything else."
  },
  {
   "property": "C69",
   "status": "partial",
   "theorems": [
    "Verif.References.intersection_nothing",
    "Verif.References.intersection_cell_partial",
    "Verif.References.intersection_tetrahedron_wrong"
   ],
   "note": "The None case is proved for all cells; the other case for all cells for which contains is exact, with a proof that it fails for tetrahedra."
  },
  {
   "property": "C70",
   "status": "proved",
   "theorems": [
    "Verif.References.latticeLines_in_cell",
    "Verif.References.latticeLines_vertices",
    "Verif.References.linePairs_triangle",
    "Verif.References.linePairs_quadrilateral",
    "Verif.References.linePairs_interval",
    "Verif.References.latticeLines_index"
   ],
   "note": ""
  },
  {
   "property": "C71",
   "status": "proved",
   "theorems": [
    "Verif.References.integrationLimits_spec"
   ],
   "note": ""
  },
  {
   "property": "C47",
   "status": "proved",
   "theorems": [
    "Verif.FiniteElement.basisFunctions_dual",
    "Verif.FiniteElement.basisFunctions_isSome_iff",
    "Verif.FiniteElement.getBasis_ciarlet_dual",
    "Verif.FiniteElement.getBasis_length"
   ],
   "note": ""
  },
  {
   "property": "C48",
   "status": "proved",
   "theorems": [
    "Verif.FiniteElement.basisFunctions_interpolate",
    "Verif.FiniteElement.basisFunctions_span",
    "Verif.FiniteElement.basisFunctions_independent",
    "Verif.FiniteElement.getBasis_ciarlet_span"
   ],
   "note": ""
  },
  {
   "property": "C49",
   "status": "proved",
   "theorems": [
    "Verif.FiniteElement.mem_entityDofs",
    "Verif.FiniteElement.entityDofs_sorted",
    "Verif.FiniteElement.entityDofs_partition",
    "Verif.FiniteElement.dofEntities_length"
   ],
   "note": ""
  },
  {
   "property": "C50",
   "status": "proved",
   "theorems": [
    "Verif.FiniteElement.tabulate_xyzxyz",
    "Verif.FiniteElement.tabulate_xxyyzz",
    "Verif.FiniteElement.tabulate_xx_yy_zz",
    "Verif.FiniteElement.tabulate_xyz_xyz",
    "Verif.FiniteElement.tabulate_scalar",
    "Verif.FiniteElement.tabulate_isSome_iff"
   ],
   "note": ""
  },
  {
   "property": "C51",
   "status": "partial",
   "theorems": [
    "Verif.FiniteElement.mapToCell_enriched_own",
    "Verif.FiniteElement.mapToCell_enriched_given_length"
   ],
   "note": "Proved when no basis is passed. When the basis is passed the code violates the property: the number of functions returned is wrong."
  },
  {
   "property": "C63",
   "status": "partial",
   "theorems": [
    "Verif.FiniteElement.plotPositions_getElem?",
    "Verif.FiniteElement.plotPositions_distinct",
    "Verif.FiniteElement.plotPosition_edge_inside",
    "Verif.FiniteElement.plotPosition_quadrilateral_inside",
    "Verif.FiniteElement.plotPosition_triangle_inside_partial",
    "Verif.FiniteElement.plotPosition_triangle_on_edge",
    "Verif.FiniteElement.plotPosition_volume_first",
    "Verif.FiniteElement.plotPosition_volume_outside"
   ],
   "note": "Proved for edges and parallelograms. The code violates the property on every triangular face and on volumes (proved)."
  },
  {
   "property": "C72",
   "status": "proved",
   "theorems": [
    "Verif.FiniteElement.mapCiarlet_each",
    "Verif.FiniteElement.mapCiarlet_recreate"
   ],
   "note": ""
  },
  {
   "property": "C73",
   "status": "proved",
   "theorems": [
    "Verif.FiniteElement.callsBasis_constant",
    "Verif.FiniteElement.callsBasis_order_dependent"
   ],
   "note": ""
  },
  {
   "property": "C54",
   "status": "partial",
   "theorems": [
    "Verif.Create.addElement_registers",
    "Verif.Create.addElement_keeps",
    "Verif.Create.addElement_sound",
    "Verif.Create.addElement_raises",
    "Verif.Create.addElement_not_atomic",
    "Verif.Create.addElement_list",
    "Verif.Create.addAll_list"
   ],
   "note": "Success registers exactly the new names and keeps all others; a class that cannot be registered raises. A failing call leaves part of its names registered (proved), so the property fails for failing calls."
  },
  {
   "property": "C55",
   "status": "partial",
   "theorems": [
    "Verif.Create.createReference_name",
    "Verif.Create.build_ok_iff",
    "Verif.Create.createReference_unknown",
    "Verif.Create.createReference_no_bracket"
   ],
   "note": "Proved for all cell names and for unknown names; the name 'dual polygon' without a bracket raises IndexError instead of ValueError (proved)."
  },
  {
   "property": "C56",
   "status": "proved",
   "theorems": [
    "Verif.Create.createElement_ok_iff",
    "Verif.Create.createElement_error"
   ],
   "note": ""
  },
  {
   "property": "C74",
   "status": "proved",
   "theorems": [
    "Verif.Create.addAll_spec",
    "Verif.Create.addAll_perm",
    "Verif.Create.symfemClasses_compatible",
    "Verif.Create.symfem_registry"
   ],
   "note": ""
  },
  {
   "property": "C29",
   "status": "proved",
   "theorems": [
    "Verif.Orthogonal.orthogonalInterval_derivs",
    "Verif.Orthogonal.orthogonalTriangle_derivs",
    "Verif.Orthogonal.orthogonalQuadrilateral_derivs",
    "Verif.Orthogonal.orthogonalTetrahedron_derivs",
    "Verif.Orthogonal.orthogonalHexahedron_derivs",
    "Verif.Orthogonal.orthogonalPrism_derivs",
    "Verif.Orthogonal.orthogonalPyramid_derivs",
    "Verif.Orthogonal.pol_partials",
    "Verif.Orthogonal.pyr_partials",
    "Verif.Orthogonal.pyr_inv"
   ],
   "note": ""
  },
  {
   "property": "C30",
   "status": "proved",
   "theorems": [
    "Verif.Orthogonal.triIndex_bijOn",
    "Verif.Orthogonal.tetIndex_bijOn",
    "Verif.Orthogonal.pyrIndex_bijOn",
    "Verif.Orthogonal.pyrIndex_cast"
   ],
   "note": ""
  },
  {
   "property": "C75",
   "status": "proved",
   "theorems": [
    "Verif.Orthogonal.orthogonalInterval_map",
    "Verif.Orthogonal.orthogonalTriangle_map",
    "Verif.Orthogonal.orthogonalQuadrilateral_map",
    "Verif.Orthogonal.orthogonalTetrahedron_map",
    "Verif.Orthogonal.orthogonalHexahedron_map",
    "Verif.Orthogonal.orthogonalPrism_map",
    "Verif.Orthogonal.orthogonalPyramid_map"
   ],
   "note": ""
  },
  {
   "property": "C28",
   "status": "proved",
   "theorems": [
    "Verif.Orthogonal.orthogonalInterval_degree",
    "Verif.Orthogonal.orthogonalInterval_orthogonal"
   ],
   "note": ""
  },
  {
   "property": "C31",
   "status": "proved",
   "theorems": [
    "Verif.Orthogonal.orthogonalBasis_orthogonal",
    "Verif.Orthogonal.orthogonalInterval_orthogonal",
    "Verif.Orthogonal.orthogonalTriangle_orthogonal",
    "Verif.Orthogonal.orthogonalQuadrilateral_orthogonal",
    "Verif.Orthogonal.orthogonalTetrahedron_orthogonal",
    "Verif.Orthogonal.orthogonalHexahedron_orthogonal",
    "Verif.Orthogonal.orthogonalPrism_orthogonal",
    "Verif.Orthogonal.orthogonalPyramid_orthogonal"
   ],
   "note": ""
  },
  {
   "property": "C32",
   "status": "proved",
   "theorems": [
    "Verif.Orthogonal.l2Dual_isSome",
    "Verif.Orthogonal.l2Dual_dual",
    "Verif.Orthogonal.l2Dual_span"
   ],
   "note": ""
  },
  {
   "property": "C33",
   "status": "proved",
   "theorems": [
    "Verif.Orthogonal.lobatto_bubble",
    "Verif.Orthogonal.lobattoBasis_boundary",
    "Verif.Orthogonal.lobattoBasis_degree"
   ],
   "note": ""
  },
  {
   "property": "C76",
   "status": "proved",
   "theorems": [
    "Verif.Orthogonal.orthonormalBasis_isSome",
    "Verif.Orthogonal.orthonormalBasis_orthonormal"
   ],
   "note": ""
  },
  {
   "property": "C77",
   "status": "proved",
   "theorems": [
    "Verif.Orthogonal.lobattoDualBasis_dual"
   ],
   "note": ""
  },
  {
   "property": "C42",
   "status": "proved",
   "theorems": [
    "Verif.Functions.subsList_eval",
    "Verif.Functions.vsubs_eval",
    "Verif.Functions.subsOne_eval"
   ],
   "note": "evaluation of the substituted expression tree equals evaluation in the environment with all variables replaced at once"
  },
  {
   "property": "C43",
   "status": "proved",
   "theorems": [
    "Verif.Functions.diff_hasDerivAt",
    "Verif.Functions.grad_hasDerivAt",
    "Verif.Functions.curl_grad",
    "Verif.Functions.div_curl",
    "Verif.Functions.vcurl_isSome",
    "Verif.Functions.div_grad",
    "Verif.Functions.jacobian_symm",
    "Verif.Functions.directionalDerivative_eval",
    "Verif.Functions.directionalDerivative_hasDerivAt",
    "Verif.Functions.vdiff_hasDerivAt"
   ],
   "note": "derivative in the sense of Mathlib's HasDerivAt; sympy's diff is modelled as the usual recursion on expression trees"
  },
  {
   "property": "C44",
   "status": "partial",
   "theorems": [
    "Verif.Functions.vadd_eval",
    "Verif.Functions.vsub_eval",
    "Verif.Functions.vrsub_eval",
    "Verif.Functions.vadd_none",
    "Verif.Functions.vaddList_truncates",
    "Verif.Functions.vaddList_eval_partial",
    "Verif.Functions.vneg_eval",
    "Verif.Functions.vmul_eval",
    "Verif.Functions.vrmul_eval",
    "Verif.Functions.vdiv_eval",
    "Verif.Functions.vdot_eval",
    "Verif.Functions.vnorm_eval",
    "Verif.Functions.snorm_eval",
    "Verif.Functions.vcross_two",
    "Verif.Functions.vcross_three",
    "Verif.Functions.vcross_isSome",
    "Verif.Functions.mkMat_isSome",
    "Verif.Functions.madd_eval",
    "Verif.Functions.msub_eval",
    "Verif.Functions.mneg_eval",
    "Verif.Functions.mscale_eval",
    "Verif.Functions.madd_none",
    "Verif.Functions.mvec_eval",
    "Verif.Functions.mmatmul_eval",
    "Verif.Functions.mmatmul_none",
    "Verif.Functions.mtranspose_eval",
    "Verif.Functions.mdiff_eval",
    "Verif.Functions.sympyDet_eval",
    "Verif.Functions.mdet_eval",
    "Verif.Functions.mdet_surface",
    "Verif.Functions.mdet_none",
    "Verif.Functions.mdot_value",
    "Verif.Functions.mdot_eval_partial",
    "Verif.Functions.mdot_wrong",
    "Verif.Functions.mdot_raises",
    "Verif.Functions.vecm_eval_partial",
    "Verif.Functions.vecm_raises"
   ],
   "note": "the code violates the property in three places; the violations are proved (mdot_wrong, mdot_raises, vecm_raises, vaddList_truncates), and the property is proved for everything else"
  },
  {
   "property": "C45",
   "status": "partial",
   "theorems": [
    "Verif.Functions.forStmt_visits_partial",
    "Verif.Functions.nested_visits",
    "Verif.Functions.nested_same_visits_first",
    "Verif.Functions.nested_same_misses"
   ],
   "note": "violated for nested loops over one object (nested_same_misses); proved for a loop whose body does not iterate the object"
  },
  {
   "property": "C46",
   "status": "proved",
   "theorems": [
    "Verif.Functions.getPiece_ok",
    "Verif.Functions.getPiece_error",
    "Verif.Functions.getPiece_unsupported",
    "Verif.Functions.getPiece_map",
    "Verif.Functions.getPiece_zipWith",
    "Verif.Functions.zipWith_mismatch",
    "Verif.Functions.zipWith_truncates",
    "Verif.Functions.subsConst_eval"
   ],
   "note": "membership of a cell is stated as convex hull membership"
  },
  {
   "property": "C78",
   "status": "partial",
   "theorems": [
    "Verif.Functions.maxDegree_iff",
    "Verif.Functions.maxDegree_tensor_partial",
    "Verif.Functions.maxDegree_upper_partial",
    "Verif.Functions.maxDegree_one_variable_partial",
    "Verif.Functions.maxDegree_wrong",
    "Verif.Functions.maxDegree_zero"
   ],
   "note": "violated on simplices (maxDegree_wrong, for every k); proved on tensor-product cells and for one variable, and an upper bound in general"
  },
  {
   "property": "C79",
   "status": "partial",
   "theorems": [
    "Verif.Functions.eq_sound_partial",
    "Verif.Functions.eq_ignores_extra"
   ],
   "note": "violated when the numbers of pieces differ (eq_ignores_extra); proved for equal numbers"
  },
  {
   "property": "C53",
   "status": "proved",
   "theorems": [
    "Verif.Functionals.value_linear",
    "Verif.Functionals.evalSymbolic_linear",
    "Verif.Functionals.evalSymbolic_linear_poly"
   ],
   "note": "value_linear assumes that the integrals that occur exist; evalSymbolic_linear_poly discharges this for polynomial functions"
  },
  {
   "property": "C80",
   "status": "proved",
   "theorems": [
    "Verif.Functionals.integralMoment_scalar",
    "Verif.Functionals.integralMoment_vector",
    "Verif.Functionals.integralMoment_vector_none",
    "Verif.Functionals.newIntegralMoment_scalar",
    "Verif.Functionals.newIntegralMoment_vector",
    "Verif.Functionals.tangentIntegralMoment_value",
    "Verif.Functionals.normalIntegralMoment_value",
    "Verif.Functionals.divergenceMoment_value",
    "Verif.Functionals.derivativeMoment_value",
    "Verif.Functionals.pointEvaluation_value",
    "Verif.Functionals.derivativeEvaluation_value",
    "Verif.Functionals.dotPointEvaluation_value"
   ],
   "note": "matrix-valued functionals are modelled (and linear, C53) but have no separate value theorem"
  },
  {
   "property": "C81",
   "status": "proved",
   "theorems": [
    "Verif.Functionals.MappedPair.covariant_invariant",
    "Verif.Functionals.MappedPair.contravariant_invariant",
    "Verif.Functionals.MappedPair.identity_invariant",
    "Verif.Functionals.MappedPair.l2_invariant",
    "Verif.Functionals.MappedPair.tangent_invariant",
    "Verif.Functionals.normal_invariant_edge",
    "Verif.Functionals.normal_invariant_face"
   ],
   "note": ""
  },
  {
   "property": "C58",
   "status": "proved",
   "theorems": [
    "Verif.Elements.lagrange_unisolvent",
    "Verif.Elements.lagrange_created",
    "Verif.Elements.q_unisolvent",
    "Verif.Elements.q_created"
   ],
   "note": ""
  },
  {
   "property": "C82",
   "status": "proved",
   "theorems": [
    "Verif.Elements.lagrange_conforming",
    "Verif.Elements.lagrange_entity",
    "Verif.Elements.q_entity"
   ],
   "note": ""
  },
  {
   "property": "C52",
   "status": "proved",
   "theorems": [
    "Verif.Elements.qPerm_spec",
    "Verif.Elements.qTensorBasis_eq",
    "Verif.Elements.qTensorBasis_gll"
   ],
   "note": "for equispaced elements the tensor basis is the basis of the element; for the variant gll the code uses the equispaced factor and the result is wrong (qTensorBasis_gll)"
  },
  {
   "property": "C83",
   "status": "proved",
   "theorems": [
    "Verif.Elements.dpc_unisolvent",
    "Verif.Elements.dpc_count",
    "Verif.Elements.dpc_created",
    "Verif.Elements.prism_unisolvent",
    "Verif.Elements.prism_count",
    "Verif.Elements.prism_created",
    "Verif.Elements.pyramid_unisolvent",
    "Verif.Elements.pyramid_count",
    "Verif.Elements.pyramid_created",
    "Verif.Elements.symm_equispaced",
    "Verif.Elements.symm_gll"
   ],
   "note": "variants equispaced and gll; on prisms and pyramids the rule must be symmetric, which both are"
  },
  {
   "property": "C61",
   "status": "proved",
   "theorems": [
    "Verif.Moments.moments_mem",
    "Verif.Moments.moments_entity",
    "Verif.Moments.moments_isSome",
    "Verif.Moments.moments_vertices",
    "Verif.Moments.extract_forms",
    "Verif.Moments.extract_byName",
    "Verif.Moments.extract_missing"
   ],
   "note": "moments_entity gives the DOFs on an entity with order and multiplicity; moments asked for on vertices make the call fail (moments_vertices)"
  },
  {
   "property": "C84",
   "status": "proved",
   "theorems": [
    "Verif.Families.rt_created",
    "Verif.Families.normal_bridge",
    "Verif.Families.vector_bridge"
   ],
   "note": "variant equispaced; NormalTrace in Created is the statement about the normal components; normal_bridge and vector_bridge connect the moments of polynomials to the expression model of the functionals (C80)"
  },
  {
   "property": "C85",
   "status": "proved",
   "theorems": [
    "Verif.Families.n1_created2",
    "Verif.Families.n1_created3",
    "Verif.Families.tangent_bridge"
   ],
   "note": "variant equispaced"
  },
  {
   "property": "C86",
   "status": "proved",
   "theorems": [
    "Verif.Families.bdm_created"
   ],
   "note": "variant equispaced"
  },
  {
   "property": "C87",
   "status": "proved",
   "theorems": [
    "Verif.Families.n2_created2",
    "Verif.Families.n2_created3"
   ],
   "note": "variant equispaced"
  },
  {
   "property": "C88",
   "status": "proved",
   "theorems": [
    "Verif.Families.vectorLagrange_basis"
   ],
   "note": "variant equispaced"
  },
  {
   "property": "C89",
   "status": "proved",
   "theorems": [
    "Verif.Families.vectorQ_basis"
   ],
   "note": "variants with point evaluations; Points is the hypothesis that the quadrature rule of the variant is known for the orders used, which holds for equispaced at every order (points_equispaced)"
  },
  {
   "property": "C90",
   "status": "proved",
   "theorems": [
    "Verif.Families.rtq_created"
   ],
   "note": "variants with point evaluations; QNormalTrace in Created is the statement about the normal components"
  },
  {
   "property": "C91",
   "status": "proved",
   "theorems": [
    "Verif.Families.ncq_created2",
    "Verif.Families.ncq_created3"
   ],
   "note": "variants with point evaluations; EdgeTrace and QFaceTrace in Created are the statements about the tangential components"
  },
  {
   "property": "C92",
   "status": "proved",
   "theorems": [
    "Verif.Families.vectorDpc_basis"
   ],
   "note": "variant equispaced"
  },
  {
   "property": "C93",
   "status": "proved",
   "theorems": [
    "Verif.Families.bdfmBox_created"
   ],
   "note": "variant equispaced; QNormalTrace in Created is the statement about the normal components"
  },
  {
   "property": "C94",
   "status": "partial",
   "theorems": [
    "Verif.Families.bdfmTri_created",
    "Verif.Families.bdfmTet_created_one",
    "Verif.Families.bdfmTet_nonconforming"
   ],
   "note": "proved on triangles and for order 1 on tetrahedra; violated on tetrahedra for every order k >= 2 (bdfmTet_nonconforming): the last functions of the set are (p(x+y), 0, y p) where (p(x+y), 0, z p) would be in the space. Not proved: whether the element of the code is unisolvent on tetrahedra for all orders"
  },
  {
   "property": "C95",
   "status": "proved",
   "theorems": [
    "Verif.Families.sdiv_created_quadrilateral",
    "Verif.Families.sdiv_created_hexahedron"
   ],
   "note": "variant equispaced; QNormalTrace in Created is the statement about the normal components. That the functions added on a quadrilateral are not divergence free is recorded in C67"
  },
  {
   "property": "C96",
   "status": "proved",
   "theorems": [
    "Verif.Families.bddf_created"
   ],
   "note": "variant equispaced; QNormalTrace in Created is the statement about the normal components"
  },
  {
   "property": "C59",
   "status": "proved",
   "theorems": [
    "Verif.Bernstein.singleChoose_eq",
    "Verif.Bernstein.choose_eq",
    "Verif.Bernstein.mem_bernPowers",
    "Verif.Bernstein.nodup_bernPowers",
    "Verif.Bernstein.bernstein_eq",
    "Verif.Bernstein.bernstein_nonneg",
    "Verif.Bernstein.bernstein_sum",
    "Verif.Bernstein.bernstein_independent",
    "Verif.Bernstein.bernstein_span"
   ],
   "note": ""
  },
  {
   "property": "C60",
   "status": "partial",
   "theorems": [
    "Verif.Bernstein.bernDof_spec",
    "Verif.Bernstein.pull_bernP",
    "Verif.Bernstein.bernstein_created",
    "Verif.Bernstein.bernstein_created_zero",
    "Verif.Bernstein.bernstein_tetrahedron_fails"
   ],
   "note": "proved for intervals and triangles of every order and for tetrahedra of order up to 3 (Works); violated on tetrahedra for every order n >= 4 (bernstein_tetrahedron_fails): no interior functional is added"
  },
  {
   "property": "C62",
   "status": "partial",
   "theorems": [
    "Verif.Families.kmv_triangle_one_exact",
    "Verif.Families.kmv_triangle_two_exact",
    "Verif.Families.kmv_tetrahedron_one_exact",
    "Verif.Families.kmv_tetrahedron_two_exact",
    "Verif.Families.kmv_triangle_one_created",
    "Verif.Families.kmv_triangle_two_created",
    "Verif.Families.kmv_triangle_three_created",
    "Verif.Families.kmv_tetrahedron_one_created",
    "Verif.Families.kmv_triangle_three_not_exact",
    "Verif.Families.kmv_tetrahedron_two_fails",
    "Verif.Families.kmv_triangle_entities",
    "Verif.Families.kmv_tetrahedron_entities"
   ],
   "note": "exactness is violated for triangle order 3 (kmv_triangle_three_not_exact) and the element of tetrahedron order 2 cannot be created (kmv_tetrahedron_two_fails); everything else is proved. Orders 4 and 5 on triangles and 3 on tetrahedra are not offered or not modelled"
  },
  {
   "property": "C65",
   "status": "partial",
   "theorems": [
    "Verif.Families.cr_determined",
    "Verif.Families.cr_created_odd_partial",
    "Verif.Families.cr_created_tetrahedron",
    "Verif.Families.cr_even_fails"
   ],
   "note": "variant equispaced; proved for every odd order on every nondegenerate triangle and for order 1 on tetrahedra; violated for every even order (cr_even_fails)"
  },
  {
   "property": "C64",
   "status": "proved",
   "theorems": [
    "Verif.Dual.dual_one",
    "Verif.Dual.dual_one_partition",
    "Verif.Dual.dual_one_vertices",
    "Verif.Dual.dual_one_continuous",
    "Verif.Dual.dual_zero",
    "Verif.Dual.two_degenerate"
   ],
   "note": ""
  },
  {
   "property": "C97",
   "status": "partial",
   "theorems": [
    "Verif.Families.normal_conform",
    "Verif.Families.edge_conform",
    "Verif.Families.face_conform",
    "Verif.Families.rt_created",
    "Verif.Families.bdm_created",
    "Verif.Families.bdfmTri_created",
    "Verif.Families.n1_created2",
    "Verif.Families.n1_created3",
    "Verif.Families.n2_created2",
    "Verif.Families.n2_created3",
    "Verif.Families.rt_assembled",
    "Verif.Families.n1_assembled",
    "Verif.Families.n2_assembled",
    "Verif.Families.bdm_one_assembled",
    "Verif.Families.bdfmTri_one_assembled",
    "Verif.Families.bdm_broken",
    "Verif.Families.bdm_not_assembled",
    "Verif.Families.bdfmTri_broken",
    "Verif.Families.bdfmTri_not_assembled"
   ],
   "note": "proved for RT, Nedelec first and second kind, and BDM and BDFM of order 1; violated by BDM (triangles and tetrahedra) and BDFM (triangles) at every order k >= 2 (bdm_not_assembled, bdfmTri_not_assembled): interior functions are mapped by the identity mapping and their normal components do not vanish on the facets. The tangential component on shared faces of tetrahedra is proved for functions (face_conform), not for the assembled combinations"
  },
  {
   "property": "C98",
   "status": "partial",
   "theorems": [
    "Verif.Dual.bc_partial",
    "Verif.Dual.rbc_partial"
   ],
   "note": "the fluxes through the sides are proved; the continuity is violated: for every n >= 3, every function and every edge from the origin to a vertex, the traces from the two sides differ at every point (the coefficients for the local edges 1 and 2 are exchanged in the code)"
  },
  {
   "property": "C99",
   "status": "partial",
   "theorems": [
    "Verif.Plotting.map_similar",
    "Verif.Plotting.points_on_canvas",
    "Verif.Plotting.svg_on_canvas_partial",
    "Verif.Plotting.default_arrows",
    "Verif.Plotting.bezier_leaves_canvas"
   ],
   "note": "proved for all elements except Bezier curves and, for arrow heads, when they are smaller than the padding (true for the defaults); violated for Bezier curves: for every padding and scale there is a curve that leaves the canvas, because the control points do not count as points of the element"
  },
  {
   "property": "C100",
   "status": "partial",
   "theorems": [
    "Verif.Plotting.size_partial",
    "Verif.Plotting.size_never_requested",
    "Verif.Plotting.png_size"
   ],
   "note": "PNG sizes are proved; the SVG is wider and higher than requested by twice the padding, so the claim is violated whenever the padding is not zero"
  },
  {
   "property": "C101",
   "status": "partial",
   "theorems": [
    "Verif.Plotting.saveOne_spec",
    "Verif.Plotting.saveOne_format",
    "Verif.Plotting.saveList_partial",
    "Verif.Plotting.saveList_first_only"
   ],
   "note": "proved for one name; violated for longer lists (only the first file is written, without an exception) and for the empty list (an assertion fails). That the picture can be converted is assumed"
  },
  {
   "property": "C102",
   "status": "proved",
   "theorems": [
    "Verif.Plotting.tikz_colors"
   ],
   "note": "the lines of the TikZ output other than the colours are not modelled"
  },
  {
   "property": "C103",
   "status": "proved",
   "theorems": [
    "Verif.Plotting.zOrdered_perm",
    "Verif.Plotting.zOrderedExtra_perm",
    "Verif.Plotting.zOrdered_visible",
    "Verif.Plotting.toViewer_spec",
    "Verif.Plotting.clockwise_hull",
    "Verif.Plotting.project_spec"
   ],
   "note": ""
  },
  {
   "property": "C104",
   "status": "proved",
   "theorems": [
    "Verif.Plotting.dofDiagram_numbers",
    "Verif.Plotting.dofDiagram_lines",
    "Verif.Plotting.dofDiagram_polygons",
    "Verif.Plotting.around_edges",
    "Verif.Plotting.dofDiagram_isSome"
   ],
   "note": ""
  },
  {
   "property": "C105",
   "status": "partial",
   "theorems": [
    "Verif.Plotting.dofShapes_position_partial",
    "Verif.Plotting.arrow_always_shifted",
    "Verif.Plotting.drawn_by_number",
    "Verif.Plotting.z_zero"
   ],
   "note": "DOFs without directions are drawn at their positions; DOFs with a direction are always moved, even if they are the only DOF, and the DOFs of an entity are drawn in the order of their numbers since the depth is always 0"
  },
  {
   "property": "C106",
   "status": "partial",
   "theorems": [
    "Verif.Plotting.plotFunction_lines",
    "Verif.Plotting.plotFunction_curves",
    "Verif.Plotting.plotFunction_mark_partial",
    "Verif.Plotting.plotFunction_mark_repeated",
    "Verif.Plotting.plotFunction_scalar_3d"
   ],
   "note": "edges and curves are proved; the DOF is marked once only on intervals and for vector functions in 2D, several times otherwise, and scalar functions on 3D cells cannot be plotted"
  },
  {
   "property": "C107",
   "status": "proved",
   "theorems": [
    "Verif.Plotting.valueCurve_graph",
    "Verif.Plotting.path_points",
    "Verif.Plotting.valueCurve_ends",
    "Verif.Plotting.valueArrow_shape"
   ],
   "note": ""
  },
  {
   "property": "C108",
   "status": "partial",
   "theorems": [
    "Verif.Plotting.plotCalls_first",
    "Verif.Plotting.plotCalls_partial",
    "Verif.Plotting.plotCalls_stale",
    "Verif.Plotting.valueCurve_scale"
   ],
   "note": "proved if all calls for one cell have the same scale; violated otherwise: the curves of the first call are drawn again"
  },
  {
   "property": "C109",
   "status": "proved",
   "theorems": [
    "Verif.Plotting.entityDiagram_circles",
    "Verif.Plotting.midList_spec",
    "Verif.Plotting.entityDiagram_lines",
    "Verif.Plotting.entityDiagram_isSome",
    "Verif.Plotting.copies_disjoint"
   ],
   "note": "the overlap is proved for the reference vertices of all cells except dual polygons"
  },
  {
   "property": "C110",
   "status": "proved",
   "theorems": [
    "Verif.Scalar.serendipity_created",
    "Verif.Scalar.ser_trace",
    "Verif.Scalar.ser_zero",
    "Verif.Scalar.Ser_factor",
    "Verif.Scalar.ser_lspan",
    "Verif.Scalar.ser_length"
   ],
   "note": ""
  },
  {
   "property": "C111",
   "status": "proved",
   "theorems": [
    "Verif.Scalar.ccr_created",
    "Verif.Scalar.ccr_length",
    "Verif.Scalar.ccr_independent"
   ],
   "note": ""
  },
  {
   "property": "C112",
   "status": "proved",
   "theorems": [
    "Verif.Scalar.bubble_created",
    "Verif.Scalar.bubble_none",
    "Verif.Scalar.bubbleSpace_iff"
   ],
   "note": ""
  },
  {
   "property": "C113",
   "status": "partial",
   "theorems": [
    "Verif.Scalar.enriched_created_partial",
    "Verif.Scalar.enrichedVector_created_partial",
    "Verif.Scalar.enriched_no_basis",
    "Verif.Scalar.enrichedVector_no_basis",
    "Verif.Scalar.enriched_isSome",
    "Verif.Scalar.enriched_dependent"
   ],
   "note": "proved for orders 1 and 2; violated for every order k >= 3: the polynomials are linearly dependent (the bubbles of degree at most k are in P_k already), so the basis functions cannot be computed"
  },
  {
   "property": "C114",
   "status": "proved",
   "theorems": [
    "Verif.Scalar.transition_created",
    "Verif.Scalar.transElement_created",
    "Verif.Scalar.trans_iff",
    "Verif.Scalar.trans_equal",
    "Verif.Scalar.transPoly_spec"
   ],
   "note": ""
  },
  {
   "property": "C115",
   "status": "proved",
   "theorems": [
    "Verif.Smooth.hermite_created",
    "Verif.Smooth.hermite_trace",
    "Verif.Smooth.hermite_none"
   ],
   "note": ""
  },
  {
   "property": "C116",
   "status": "proved",
   "theorems": [
    "Verif.Smooth.taylor_created"
   ],
   "note": ""
  },
  {
   "property": "C117",
   "status": "proved",
   "theorems": [
    "Verif.Smooth.argyris_created",
    "Verif.Smooth.argyris_none"
   ],
   "note": ""
  },
  {
   "property": "C118",
   "status": "proved",
   "theorems": [
    "Verif.Smooth.morley_created",
    "Verif.Smooth.morley_none"
   ],
   "note": ""
  },
  {
   "property": "C119",
   "status": "partial",
   "theorems": [
    "Verif.Smooth.bell_created_partial",
    "Verif.Smooth.bell_space",
    "Verif.Smooth.bell_values",
    "Verif.Smooth.bell_turned",
    "Verif.Smooth.turned_nonDegenerate"
   ],
   "note": "proved on the default triangle (and continuity of the values on every triangle); violated on other triangles: on all triangles (a,b), (a+h,b), (a+h,b+h) the matrix is singular since the polynomials are those of the default triangle"
  },
  {
   "property": "C120",
   "status": "partial",
   "theorems": [
    "Verif.Smooth.bfs_created_partial",
    "Verif.Smooth.bfs_diamond",
    "Verif.Smooth.diamond_nonDegenerate"
   ],
   "note": "proved on all rectangles with sides along the axes; violated on other parallelograms: the matrix is singular on all parallelograms whose diagonals are along the axes"
  },
  {
   "property": "C121",
   "status": "partial",
   "theorems": [
    "Verif.Scalar.directSer_length",
    "Verif.Scalar.directSer_independent",
    "Verif.Scalar.directSer_polynomials",
    "Verif.Scalar.directSer_count",
    "Verif.Scalar.directSer_entities_fail",
    "Verif.Scalar.directSer_entities_partial"
   ],
   "note": "Linear independence proved for every order. The rest of the property is false of the code and the exact extent is proved: the number of functions is right (k>=2) iff k is 2, 3 or 8; all polynomials of degree k are in the span iff k <= 8; for every k >= 2 a function of the left edge does not vanish on the right edge. The vanishing that does hold is directSer_entities_partial."
  },
  {
   "property": "C122",
   "status": "proved",
   "theorems": [
    "Verif.Degrees.lagrange_degrees",
    "Verif.Degrees.q_degrees",
    "Verif.Degrees.dpc_degrees",
    "Verif.Degrees.serendipity_degrees",
    "Verif.Degrees.conformingCR_degrees",
    "Verif.Degrees.bubble_degrees",
    "Verif.Degrees.enriched_degrees",
    "Verif.Degrees.smooth_degrees"
   ],
   "note": "for every order and cell; bubble enriched elements have no basis from order 3 (C113), so for them the statement is about the span of their polynomials; Bell and BFS on the cells where they can be created"
  },
  {
   "property": "C123",
   "status": "proved",
   "theorems": [
    "Verif.Degrees.full_degrees",
    "Verif.Degrees.rt_degrees",
    "Verif.Degrees.n1_degrees",
    "Verif.Degrees.bdfmTri_degrees",
    "Verif.Degrees.box_degrees",
    "Verif.Degrees.bddf_degrees",
    "Verif.Degrees.enrichedVector_degrees"
   ],
   "note": "for every order; serendipity H(div) for the space symfem builds; BDFM on tetrahedra is not included (C94)"
  },
  {
   "property": "C124",
   "status": "proved",
   "theorems": [
    "Verif.Families.tsdiv_created_quadrilateral",
    "Verif.Families.tsdiv_created_hexahedron"
   ],
   "note": "for every order k >= 1 of the equispaced variant; includes the functionals against gradients of monomials"
  },
  {
   "property": "C125",
   "status": "partial",
   "theorems": [
    "Verif.Families.tscurl_created_quadrilateral",
    "Verif.Families.tscurl_counts",
    "Verif.Families.tscurl_hexahedron_fails"
   ],
   "note": "quadrilaterals proved for every order k >= 1; on hexahedra the code violates the property: creation raises for every k >= 4 (proved); hexahedra of orders 1 to 3 are not proved"
  },
  {
   "property": "C126",
   "status": "proved",
   "theorems": [
    "Verif.Families.scurl_created_quadrilateral",
    "Verif.Families.scurl_created_hexahedron"
   ],
   "note": "for every order k >= 1; on quadrilaterals the space is the one symfem builds (one of the two added functions is not a gradient, see C67/C68)"
  },
  {
   "property": "C127",
   "status": "proved",
   "theorems": [
    "Verif.Matrices.regge_created"
   ],
   "note": "point variant, for every order and every non-degenerate triangle or tetrahedron with as many coordinates as dimensions"
  },
  {
   "property": "C128",
   "status": "proved",
   "theorems": [
    "Verif.Matrices.regge_conforming"
   ],
   "note": "point variant, for the functions of the physical cells, with any numbering of the shared vertices"
  },
  {
   "property": "C129",
   "status": "proved",
   "theorems": [
    "Verif.Matrices.hhj_created"
   ],
   "note": "equispaced variant, every order, triangle and tetrahedron"
  },
  {
   "property": "C130",
   "status": "proved",
   "theorems": [
    "Verif.Matrices.hhj_created"
   ],
   "note": "last part of the theorem (NormalNormalConform); cells with the vertices of the shared facet in the same order"
  },
  {
   "property": "C131",
   "status": "partial",
   "theorems": [
    "Verif.Families.rtq_assembled",
    "Verif.Families.ncq_assembled",
    "Verif.Families.sdiv_assembled",
    "Verif.Families.scurl_assembled",
    "Verif.Families.bddf_one_assembled",
    "Verif.Families.bdfmBox_one_assembled",
    "Verif.Families.bdfmBox_broken",
    "Verif.Families.bddf_broken",
    "Verif.Families.tsdiv_broken",
    "Verif.Families.box_not_assembled",
    "Verif.Families.tscurl_broken",
    "Verif.Families.tscurl_not_assembled",
    "Verif.Families.abf_broken",
    "Verif.Families.abf_not_assembled",
    "Verif.Families.hz_not_assembled",
    "Verif.Families.ac_assembled",
    "Verif.Families.abf_zero_assembled",
    "Verif.Families.tsdiv_one_assembled",
    "Verif.Families.tscurl_one_assembled",
    "Verif.Families.tntdiv_broken",
    "Verif.Families.tntcurl_broken",
    "Verif.Families.tnt_not_assembled"
   ],
   "note": "proved for RT, Nedelec, serendipity H(div) and H(curl) and Arbogast-Correa at every order, for BDFM, BDDF and trimmed serendipity (H(curl) on quadrilaterals) of order 1 and for Arnold-Boffi-Falk of order 0; violated by BDFM, BDDF, trimmed serendipity H(div) and (on quadrilaterals) H(curl) at every order k >= 2, by Arnold-Boffi-Falk at every order k >= 1 and by Huang-Zhang and, on quadrilaterals, TNTdiv and TNTcurl at every order. Trimmed serendipity H(curl) and the TNT elements on hexahedra are not covered"
  },
  {
   "property": "C132",
   "status": "proved",
   "theorems": [
    "Verif.Families.abf_created"
   ],
   "note": "all orders k >= 0, equispaced variant"
  },
  {
   "property": "C133",
   "status": "proved",
   "theorems": [
    "Verif.Families.hz_created",
    "Verif.Families.hz_kinds"
   ],
   "note": "all orders k >= 2, equispaced variant; hz_kinds: the normal moments alone determine the normal components"
  },
  {
   "property": "C134",
   "status": "proved",
   "theorems": [
    "Verif.Families.ac_created"
   ],
   "note": "all orders k >= 0, equispaced variant"
  },
  {
   "property": "C135",
   "status": "partial",
   "theorems": [
    "Verif.Functions.Lazy.basis_left",
    "Verif.Functions.Lazy.basis_right",
    "Verif.Functions.Lazy.basis_left_mixed",
    "Verif.Functions.Lazy.basis_right_mixed",
    "Verif.Functions.Lazy.basis_basis",
    "Verif.Functions.Lazy.plain_plain",
    "Verif.Functions.Lazy.dot_basis",
    "Verif.Functions.Lazy.shape_subbed",
    "Verif.Functions.Lazy.shape_element",
    "Verif.Functions.Lazy.norm_raises",
    "Verif.Functions.Lazy.subbed_eval"
   ],
   "note": "basis_left and basis_right: the operators for which the property holds; the property as stated is violated, exactly where basis_basis, basis_left_mixed, basis_right_mixed, shape_element and norm_raises say. Piecewise functions and sympy matrices as operands are left out"
  },
  {
   "property": "C136",
   "status": "proved",
   "theorems": [
    "Verif.Scalar.eg_basis",
    "Verif.Scalar.eg_interior",
    "Verif.Scalar.lfegEnrichment_basis",
    "Verif.Scalar.lfeg_basis"
   ],
   "note": "eg_basis and lfeg_basis give the whole list of basis functions at every order"
  },
  {
   "property": "C137",
   "status": "proved",
   "theorems": [
    "Verif.Families.br_created1",
    "Verif.Families.br_created2",
    "Verif.Families.br_none",
    "Verif.Families.br_assembled"
   ],
   "note": "bernardiRaugel models the constructor; order 1 on both cells, order 2 on tetrahedra, everything else is none"
  },
  {
   "property": "C138",
   "status": "proved",
   "theorems": [
    "Verif.Scalar.rannacherTurek_created",
    "Verif.Scalar.rannacherTurek_none",
    "Verif.Scalar.fortinSoulie_created",
    "Verif.Scalar.fortinSoulie_none"
   ],
   "note": "non-default vertices (NonDefaultReferenceError) are not modelled"
  },
  {
   "property": "C139",
   "status": "proved",
   "theorems": [
    "Verif.Degrees.ac_degrees",
    "Verif.Degrees.trimmed_degrees_quadrilateral",
    "Verif.Degrees.trimmed_degrees_hexahedron",
    "Verif.Degrees.scurl_degrees",
    "Verif.Degrees.abf_hz_degrees",
    "Verif.Degrees.br_degrees",
    "Verif.Degrees.nonconforming_degrees",
    "Verif.Degrees.matrix_degrees",
    "Verif.Degrees.eg_degrees",
    "Verif.Degrees.lfeg_degrees",
    "Verif.Degrees.cr_degrees"
   ],
   "note": "trimmed serendipity is proved as an equivalence: the declared lagrange_subdegree is right exactly for the listed orders; trimmed serendipity H(curl) on hexahedra is not included (C125)"
  },
  {
   "property": "C140",
   "status": "proved",
   "theorems": [
    "Verif.Families.mtw_created",
    "Verif.Families.mtw_none",
    "Verif.Families.mtw_determined",
    "Verif.Families.mtw_mem",
    "Verif.Families.mtw_independent",
    "Verif.Degrees.mtw_degrees"
   ],
   "note": "variant equispaced; triangles only, as the property says (tetrahedra are not modelled)"
  },
  {
   "property": "C141",
   "status": "proved",
   "theorems": [
    "Verif.Macro.hct_created",
    "Verif.Macro.hct_none",
    "Verif.Macro.hct_mem",
    "Verif.Macro.hct_independent",
    "Verif.Macro.hct_zero",
    "Verif.Macro.edges_flat",
    "Verif.Macro.rhct_created",
    "Verif.Macro.rhct_none",
    "Verif.Macro.rhct_mem",
    "Verif.Macro.rhct_independent",
    "Verif.Macro.reduced_mid"
   ],
   "note": "on the default triangle, the only reference for which the constructors do not raise an error"
  },
  {
   "property": "C142",
   "status": "proved",
   "theorems": [
    "Verif.Macro.as_created",
    "Verif.Macro.as_none",
    "Verif.Macro.as_mem",
    "Verif.Macro.as_independent",
    "Verif.Macro.as_zero",
    "Verif.Macro.nodiv_edges"
   ],
   "note": "on the default triangle, the only reference for which the constructor does not raise an error"
  },
  {
   "property": "C143",
   "status": "partial",
   "theorems": [
    "Verif.Macro.as_tabulate",
    "Verif.Macro.as_tabulate_not_flat",
    "Verif.Macro.as_tabulate_unknown",
    "Verif.Macro.tabulateTuples_flat",
    "Verif.Macro.tabulateTuples_unknown",
    "Verif.FiniteElement.tabulate_xyzxyz",
    "Verif.FiniteElement.tabulate_isSome_iff"
   ],
   "note": "violated: Alfeld-Sorokina elements declare values of dimension 1; for every order, also one that does not exist, the result is one tuple per function. For elements that declare the true dimension see the theorems of C50"
  },
  {
   "property": "C144",
   "status": "partial",
   "theorems": [
    "Verif.Functionals.pieceValue_moment",
    "Verif.Functionals.piecesValue_moment",
    "Verif.Functionals.hat_integral",
    "Verif.Functionals.hat_moment",
    "Verif.Macro.p1Macro_interior",
    "Verif.Macro.integralPieces_eq"
   ],
   "note": "violated: the points of the whole domain are substituted before the pieces are integrated over their cells, so the value is the sum of the integrals of all the pieces over the whole domain, weighted with the relative sizes of the cells. The hat function on the unit interval gets 1 instead of 1/2; the interior functional of P1 macro elements is half the value at the centre, and equals the integral only for functions that are affine on the whole triangle"
  },
  {
   "property": "C145",
   "status": "proved",
   "theorems": [
    "Verif.Macro.p1Macro_created",
    "Verif.Macro.p1Macro_none",
    "Verif.Macro.p1IsoP2Interval_created",
    "Verif.Macro.p1IsoP2Triangle_created",
    "Verif.Macro.p1IsoP2Quadrilateral_created",
    "Verif.Macro.p1IsoP2_none",
    "Verif.Macro.nodal_created",
    "Verif.Macro.nodalDof_eq",
    "Verif.Macro.p1Macro_mem",
    "Verif.Macro.isoTriangle_mem",
    "Verif.Macro.isoQuadrilateral_mem",
    "Verif.Macro.isoInterval_mem"
   ],
   "note": "on the default references, where the maps to and from the reference are the identity"
  },
  {
   "property": "C146",
   "status": "proved",
   "theorems": [
    "Verif.Smooth.mwx_created",
    "Verif.Smooth.mwx_none",
    "Verif.Smooth.wuXu_created",
    "Verif.Smooth.wuXu_none",
    "Verif.Smooth.integral_jet",
    "Verif.Smooth.mean_value",
    "Verif.Smooth.multi_jet",
    "Verif.Degrees.mwx_degrees",
    "Verif.Degrees.wuXu_degrees"
   ],
   "note": "on the default references (the only ones on which Morley-Wang-Xu elements and Wu-Xu elements on tetrahedra can be created). Integrals are turned into sums over points by rules that are proved exact; unisolvence by an exact left inverse of the matrix of values, checked by the kernel"
  },
  {
   "property": "C147",
   "status": "partial",
   "theorems": [
    "Verif.Smooth.mwx_C0_iff",
    "Verif.Smooth.wuXu_C0_iff",
    "Verif.Smooth.not_C0Trace"
   ],
   "note": "violated: Morley-Wang-Xu elements are labelled C0 but have the property on intervals only; Wu-Xu elements are labelled C0 and have it on intervals and triangles but not on tetrahedra. Both theorems are equivalences over all elements of the families"
  },
  {
   "property": "C148",
   "status": "partial",
   "theorems": [
    "Verif.Matrices.aw_poly",
    "Verif.Matrices.aw_label",
    "Verif.Matrices.aw_created",
    "Verif.Matrices.aw_created_four",
    "Verif.Degrees.degrees_AW",
    "Verif.Degrees.aw_degrees",
    "Verif.Degrees.aw_degrees_four"
   ],
   "note": "the span and the count of the polynomials, the existence of the functionals, the trace theorem and the degrees of the space are proved for every order; that the functionals determine the functions (so that the element has basis functions) is proved for orders 3 and 4. Missing: unisolvence for orders 5 and greater, where the extra functionals depend on which Lagrange basis functions have full degree in the first variable"
  },
  {
   "property": "C149",
   "status": "proved",
   "theorems": [
    "Verif.Matrices.nc_poly",
    "Verif.Matrices.nc_aw_created",
    "Verif.Degrees.degrees_NcAW",
    "Verif.Degrees.aw_degrees"
   ],
   "note": "on the default triangle with the variant equispaced; the space is described without the polynomials of the class"
  },
  {
   "property": "C150",
   "status": "partial",
   "theorems": [
    "Verif.Matrices.aw_label",
    "Verif.Matrices.aw_conform",
    "Verif.Matrices.nc_aw_broken"
   ],
   "note": "proved for the conforming elements of every order (all their functionals have the double contravariant mapping). Violated by the nonconforming element: its functionals of the triangle have the mapping identity, and a combination of the basis functions of these functionals has a nonzero integral over an edge of a sheared triangle (nc_aw_broken)"
  },
  {
   "property": "C151",
   "status": "proved",
   "theorems": [
    "Verif.Matrices.matrixLagrange_created",
    "Verif.Matrices.symmetricMatrixLagrange_created",
    "Verif.Matrices.matrixLagrange_degrees"
   ],
   "note": "variant equispaced"
  },
  {
   "property": "C152",
   "status": "partial",
   "theorems": [
    "Verif.Matrices.matrixLagrange_created",
    "Verif.Matrices.symmetricMatrixLagrange_created",
    "Verif.Matrices.legendre_broken",
    "Verif.Matrices.legendre_vector_broken",
    "Verif.Families.vectorLagrange_basis",
    "Verif.Families.vectorQ_basis"
   ],
   "note": "holds for the variants with point evaluations. Violated by the variant legendre at every order from 1 for MatrixLagrange, SymmetricMatrixLagrange, VectorQ and vector Lagrange elements on prisms: the functionals of the scalar element are integrals over the cell, the classes replace each of them by point evaluations at the middle of the cell, and the dual matrix has equal columns (legendre_broken, legendre_vector_broken). The variant lobatto is not covered"
  },
  {
   "property": "C153",
   "status": "proved",
   "theorems": [
    "Verif.Scalar.tnt_created",
    "Verif.Scalar.tnt_trace",
    "Verif.Degrees.tnt_degrees"
   ],
   "note": "default references"
  },
  {
   "property": "C154",
   "status": "proved",
   "theorems": [
    "Verif.Families.tntdiv_created",
    "Verif.Families.tntcurl_created",
    "Verif.Degrees.tntVector_degrees"
   ],
   "note": "quadrilaterals; default references"
  },
  {
   "property": "C57",
   "status": "partial",
   "theorems": [
    "Verif.Elements.lagrange_count",
    "Verif.Elements.q_count",
    "Verif.Elements.dpc_count",
    "Verif.Elements.prism_count",
    "Verif.Elements.pyramid_count",
    "Verif.Families.rt_created",
    "Verif.Families.n1_created2",
    "Verif.Families.n1_created3",
    "Verif.Families.bdm_created",
    "Verif.Families.n2_created2",
    "Verif.Families.n2_created3",
    "Verif.Families.vectorLagrange_basis",
    "Verif.Families.vectorQ_basis",
    "Verif.Families.rtq_created",
    "Verif.Families.ncq_created2",
    "Verif.Families.ncq_created3",
    "Verif.Families.bdfmTri_created",
    "Verif.Families.bdfmBox_created",
    "Verif.Families.bddf_created",
    "Verif.Families.abf_created",
    "Verif.Families.ac_created",
    "Verif.Families.hz_created",
    "Verif.Families.mtw_created",
    "Verif.Families.sdiv_created_quadrilateral",
    "Verif.Families.sdiv_created_hexahedron",
    "Verif.Families.scurl_created_quadrilateral",
    "Verif.Families.scurl_created_hexahedron",
    "Verif.Families.tsdiv_created_quadrilateral",
    "Verif.Families.tsdiv_created_hexahedron",
    "Verif.Families.tscurl_created_quadrilateral",
    "Verif.Families.tntdiv_created",
    "Verif.Families.tntcurl_created",
    "Verif.Families.br_created1",
    "Verif.Families.br_created2",
    "Verif.Families.cr_created_tetrahedron",
    "Verif.Scalar.bubble_created",
    "Verif.Scalar.ccr_created",
    "Verif.Scalar.serendipity_created",
    "Verif.Scalar.transElement_created",
    "Verif.Scalar.tnt_created",
    "Verif.Scalar.rannacherTurek_created",
    "Verif.Scalar.fortinSoulie_created",
    "Verif.Smooth.hermite_created",
    "Verif.Smooth.argyris_created",
    "Verif.Smooth.morley_created",
    "Verif.Smooth.mwx_created",
    "Verif.Smooth.wuXu_created",
    "Verif.Matrices.regge_created",
    "Verif.Matrices.hhj_created",
    "Verif.Matrices.aw_created",
    "Verif.Matrices.aw_created_four",
    "Verif.Matrices.nc_aw_created",
    "Verif.Matrices.matrixLagrange_created",
    "Verif.Matrices.symmetricMatrixLagrange_created",
    "Verif.Macro.hct_created",
    "Verif.Macro.rhct_created",
    "Verif.Macro.as_created",
    "Verif.Macro.p1Macro_created",
    "Verif.Macro.p1IsoP2Triangle_created",
    "Verif.Macro.gn_created",
    "Verif.Families.prismNedelec_created_partial"
   ],
   "note": "proved for the families of the theorems, on the cells and orders they name. Missing: BDFM of orders from 2, MTW, trimmed serendipity H(curl) and the TNT vector elements in three dimensions, Arnold-Winther of orders from 5, Guzman-Neilan on tetrahedra, Nedelec of order 2 on prisms, KMV of higher orders"
  },
  {
   "property": "C155",
   "status": "proved",
   "theorems": [
    "Verif.Macro.gn_created",
    "Verif.Macro.br_last",
    "Verif.Macro.gn_none"
   ],
   "note": "triangles, default reference; the element on tetrahedra is not modelled. br_last: the last three basis functions of the Bernardi-Raugel element, that the table of coefficients is for, are the ones used"
  },
  {
   "property": "C156",
   "status": "proved",
   "theorems": [
    "Verif.Positions.position_inside",
    "Verif.Positions.adjusted_interior",
    "Verif.Positions.plot_positions",
    "Verif.Positions.adjusted_point",
    "Verif.Positions.adjusted_eq_iff",
    "Verif.Positions.adjusted_separate",
    "Verif.Positions.moments_separate",
    "Verif.Positions.interior_unique",
    "Verif.Positions.straight_default",
    "Verif.Positions.straight_simplex",
    "Verif.Positions.straight_quad_iff",
    "Verif.Positions.quad_position_iff",
    "Verif.Positions.position_outside",
    "Verif.Positions.lagrange_interior",
    "Verif.Positions.lagrange_moment"
   ],
   "note": "position_outside and quad_position_iff: on a quadrilateral that is not a parallelogram a moment can be placed outside of the cell, so the hypothesis is needed. lagrange_interior and lagrange_moment discharge the hypotheses for equispaced Lagrange elements of all orders on simplices and for moments against them"
  },
  {
   "property": "C157",
   "status": "partial",
   "theorems": [
    "Verif.Families.prismNedelec_created_partial",
    "Verif.Families.prismNedelec_none"
   ],
   "note": "order 1 with the equispaced variant, and the exception; order 2 is modelled, and missing is that its 36 functionals determine the functions"
  },
  {
   "property": "C158",
   "status": "proved",
   "theorems": [
    "Verif.Degrees.bernstein_degrees",
    "Verif.Degrees.kmv_degrees",
    "Verif.Degrees.prism_degrees",
    "Verif.Degrees.prismNedelec_degrees",
    "Verif.Degrees.pyramid_degrees"
   ],
   "note": "None of Lagrange elements on pyramids is proved as an equivalence: right exactly from order 1"
  },
  {
   "property": "C159",
   "status": "proved",
   "theorems": [
    "Verif.Directions.dot_direction",
    "Verif.Directions.tangent_direction",
    "Verif.Directions.normal_direction",
    "Verif.Directions.vectorLagrange_direction",
    "Verif.Directions.moment_direction"
   ],
   "note": "default references; a direction that is zero would make the hypothesis empty and the theorems false, so they determine the direction of a functional that is not zero up to a factor. vectorLagrange_direction: a function of a vector Lagrange element has one component that is not zero, the one its functional takes"
  },
  {
   "property": "C160",
   "status": "proved",
   "theorems": [
    "Verif.Caching.library_ids",
    "Verif.Caching.library_cache_transparent",
    "Verif.Caching.className_clash",
    "Verif.Caching.verticesText_inj"
   ],
   "note": "assumes that the digest has no collisions and that every element has at least one functional, as in C02 and C05. Classes that a user adds with the name of a class of the library are not covered. Cells in a space of higher dimension are left out: create_element refuses them (C56)"
  }
 ]
}