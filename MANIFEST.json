{
 "claims": [
  {
   "property": "C01",
   "status": "proved",
   "theorems": [
    "Verif.Props.C01_inplace",
    "Verif.Props.C01_inplace_any",
    "Verif.Props.C01_laws",
    "Verif.Props.C01_add_comm_float",
    "Verif.Props.C01_dot_comm_float"
   ],
   "note": "Exact arithmetic over any ordered field; C01_inplace_any for every scalar type; commutativity at binary64 bit by bit for all values (C01_*_float)."
  },
  {
   "property": "C02",
   "status": "proved",
   "theorems": [
    "Verif.Props.C02_cross",
    "Verif.Props.C02_right_handed",
    "Verif.Props.C02_zero_iff",
    "Verif.Props.C02_antisymmetric_float"
   ],
   "note": "Exact arithmetic over any ordered field; the sign swap at binary64 for all values, up to the sign of zeros (C02_antisymmetric_float)."
  },
  {
   "property": "C03",
   "status": "partial",
   "theorems": [
    "Verif.Props.C03_metric",
    "Verif.Props.C03_squared",
    "Verif.Props.C03_magnitude",
    "Verif.Props.C03_symm_float",
    "Verif.Props.C03_nonneg_float",
    "Verif.Props.C03_zero_float_refuted"
   ],
   "note": "Proved over the reals. At binary64: symmetry bit by bit for all values (C03_symm_float), never negative for finite points (C03_nonneg_float); distance zero only for equal points is false there (C03_zero_float_refuted: underflow)."
  },
  {
   "property": "C04",
   "status": "partial",
   "theorems": [
    "Verif.Props.C04_normalize",
    "Verif.Props.C04_inplace_partial",
    "Verif.Props.C04_inplace_zero_float_refuted",
    "Verif.Props.C04_range_float_refuted"
   ],
   "note": "Value form proved in full over the reals. The in-place form agrees for non-zero vectors (C04_inplace_partial); on the zero vector the code divides by zero (C04_inplace_zero_float_refuted: NaN at binary64). At binary64 the value form also fails for very short and very long vectors (C04_range_float_refuted)."
  },
  {
   "property": "C05",
   "status": "proved",
   "theorems": [
    "Verif.Props.C05_panics",
    "Verif.Props.C05_result"
   ],
   "note": "Over the reals, both directions of the panic condition and uniqueness of the point."
  },
  {
   "property": "C06",
   "status": "partial",
   "theorems": [
    "Verif.Props.C06_newPlane",
    "Verif.Props.C06_calculateNormal",
    "Verif.Props.C06_distance_partial",
    "Verif.Props.C06_distance_refuted",
    "Verif.Props.C06_det2D"
   ],
   "note": "newPlane, calculateNormal and det2D proved. CalculateDistanceToPlane ignores the plane offset, so that clause is false of the code: C06_distance_refuted gives the witness and C06_distance_partial what is computed."
  },
  {
   "property": "C07",
   "status": "proved",
   "theorems": [
    "Verif.Props.C07_interpolate",
    "Verif.Props.C07_segment",
    "Verif.Props.C07_ends_float",
    "Verif.Props.C07_inf_float_refuted"
   ],
   "note": "Any linearly ordered field; the end points also at binary64 for finite points (C07_ends_float; C07_inf_float_refuted otherwise)."
  },
  {
   "property": "C08",
   "status": "proved",
   "theorems": [
    "Verif.Props.C08_isUnit",
    "Verif.Props.C08_normalized"
   ],
   "note": "Any linearly ordered field; normalised vectors over the reals."
  },
  {
   "property": "C09",
   "status": "proved",
   "theorems": [
    "Verif.Props.C09_det",
    "Verif.Props.C09_zero_iff",
    "Verif.Props.C09_sign"
   ],
   "note": "Any linearly ordered field."
  },
  {
   "property": "C10",
   "status": "proved",
   "theorems": [
    "Verif.Props.C10_inSphere"
   ],
   "note": "Any linearly ordered field, for every circumsphere of the tetrahedron (existence proved as circumsphere_exists)."
  },
  {
   "property": "C11",
   "status": "proved",
   "theorems": [
    "Verif.Props.C11_sign_float",
    "Verif.Props.C11_range_float",
    "Verif.Props.C11_underflow_float_refuted",
    "Verif.Props.C11_filter",
    "Verif.Props.C11_sign"
   ],
   "note": "Filter behaviour in exact arithmetic, and at binary64: a nonzero answer has the sign of the exact determinant whenever no operation can overflow or underflow (coordinates are multiples of 2^-190 of size at most 2^200). C11_underflow_float_refuted shows the sign is wrong in general when products underflow."
  },
  {
   "property": "C12",
   "status": "proved",
   "theorems": [
    "Verif.Props.C12_inCircle",
    "Verif.Props.C12_orientation"
   ],
   "note": "Any linearly ordered field."
  },
  {
   "property": "C13",
   "status": "proved",
   "theorems": [
    "Verif.Props.C13_checked_radius",
    "Verif.Props.C13_checked_center",
    "Verif.Props.C13_circumcenter",
    "Verif.Props.C13_circumradius"
   ],
   "note": "Any linearly ordered field; infinity is modelled as `none`. C13_checked_radius and C13_checked_center repeat the claims with checked division, so that they do not rest on x / 0 = 0."
  },
  {
   "property": "C14",
   "status": "partial",
   "theorems": [
    "Verif.Props.C14_range",
    "Verif.Props.C14_direction",
    "Verif.Props.C14_value",
    "Verif.Props.C14_monotone",
    "Verif.Props.C14_strict_refuted",
    "Verif.Props.C14_hashKey",
    "Verif.Props.C14_range_float",
    "Verif.Props.C14_zero_float_refuted",
    "Verif.Props.C14_hashKey_float",
    "Verif.Props.C14_center_float_refuted"
   ],
   "note": "Range, direction invariance, closed form, bucket range and monotonicity in the polar angle proved in exact arithmetic; range and bucket range also at binary64 (C14_range_float, C14_hashKey_float; C14_center_float_refuted: a point equal to the center gives index -2^63). Strictness is false because the result is clamped (C14_strict_refuted)."
  },
  {
   "property": "C15",
   "status": "proved",
   "theorems": [
    "Verif.Props.C15_area",
    "Verif.Props.C15_area_invariance",
    "Verif.Props.C15_perimeter",
    "Verif.Props.C15_perimeter_invariance"
   ],
   "note": "Area over any linearly ordered field, perimeter over the reals."
  },
  {
   "property": "C16",
   "status": "partial",
   "theorems": [
    "Verif.Props.C16_encloses",
    "Verif.Props.C16_refuted",
    "Verif.Props.C16_near_refuted",
    "Verif.Props.C16_float_refuted"
   ],
   "note": "Proved in exact arithmetic; C16_refuted and C16_near_refuted show that the separation hypothesis is needed. In float64 it is false for large coordinates (C16_float_refuted: three integer points below 10^12) and true for integers up to 2^24 (C75)."
  },
  {
   "property": "C17",
   "status": "proved",
   "theorems": [
    "Verif.Props.C17_members",
    "Verif.Props.C17_untouched",
    "Verif.Props.C17_order",
    "Verif.Props.C17_order_refuted",
    "Verif.Props.C17_members_float"
   ],
   "note": "Order independence for points with distinct (x, y) as stated (C17_order_refuted otherwise); the caller's slice is covered by the explicit-memory model ConvexHullMem; membership also for every float64 input (C17_members_float)."
  },
  {
   "property": "C18",
   "status": "partial",
   "theorems": [
    "Verif.Props.C18_value",
    "Verif.Props.C18_sublist",
    "Verif.Props.C18_partial",
    "Verif.Props.C18_refuted"
   ],
   "note": "False for chains of near points (C18_refuted); proved when nearness is transitive on the input (C18_partial); C18_value gives the exact result of the in-place loop."
  },
  {
   "property": "C19",
   "status": "partial",
   "theorems": [
    "Verif.Props.C19_involution",
    "Verif.Props.C19_exact",
    "Verif.Props.C19_float_refuted",
    "Verif.Props.C19_emptySeed_float"
   ],
   "note": "For every choice of predicates satisfying Sound (no triangle test between coincident arguments fires; no point is reported inside the circle of the seed triangle), every order of the ids, and unconditionally in exact arithmetic. False without that: C19_float_refuted is a float64 input whose half-edges are not an involution. Float64 inputs whose seed circle is empty according to the float in-circle test never run on: they panic or return consistent tables whose exact triangle areas sum to the exact hull area (C19_emptySeed_float). "
  },
  {
   "property": "C20",
   "status": "partial",
   "theorems": [
    "Verif.Props.C20_table",
    "Verif.Props.C20_float_refuted",
    "Verif.Props.C20_range_any",
    "Verif.Props.C20_range_float"
   ],
   "note": "Lengths and ranges: every outcome of the predicates (C20_range_any) and every float64 input (C20_range_float). Twins: For every choice of predicates satisfying Sound (no triangle test between coincident arguments fires; no point is reported inside the circle of the seed triangle), every order of the ids, and unconditionally in exact arithmetic. False without that: C20_float_refuted. Float64 inputs whose seed circle is empty according to the float in-circle test never run on: they panic or return consistent tables whose exact triangle areas sum to the exact hull area (C19_emptySeed_float). "
  },
  {
   "property": "C21",
   "status": "partial",
   "theorems": [
    "Verif.Props.C21_area",
    "Verif.Props.C21_flips_refuted"
   ],
   "note": "For every choice of predicates satisfying Sound (no triangle test between coincident arguments fires; no point is reported inside the circle of the seed triangle), every order of the ids, and unconditionally in exact arithmetic. False for arbitrary flip decisions even with exact areas: C21_flips_refuted. The float64 sums that Validate compares are bounded in C86. Float64 inputs whose seed circle is empty according to the float in-circle test never run on: they panic or return consistent tables whose exact triangle areas sum to the exact hull area (C19_emptySeed_float). "
  },
  {
   "property": "C22",
   "status": "proved",
   "theorems": [
    "Verif.Props.C22_count",
    "Verif.Props.C22_buffer",
    "Verif.Props.C22_float_refuted",
    "Verif.Props.C22_count_any",
    "Verif.Props.C22_room_any",
    "Verif.Props.C22_count_float"
   ],
   "note": "Every outcome of the predicates (C22_count_any, C22_room_any) and every float64 input (C22_count_float); under Sound the inserted points are the vertices of the triangles (C22_count). C22_float_refuted: the hull can shrink to two vertices."
  },
  {
   "property": "C23",
   "status": "partial",
   "theorems": [
    "Verif.Props.C23_planar",
    "Verif.Props.C23_error_iff",
    "Verif.Props.C23_empty",
    "Verif.Props.C23_single_refuted",
    "Verif.Props.C23_nonplanar_refuted",
    "Verif.Props.C23_fuel",
    "Verif.Props.C23_float_refuted",
    "Verif.Props.C23_key_float_refuted",
    "Verif.Props.C23_endless_float_refuted"
   ],
   "note": "Exact arithmetic: proved for no points and for two or more points with a common Z. False for a single point (C23_single_refuted: panic), for points with different Z (C23_nonplanar_refuted), and in float64 (C23_float_refuted, C23_key_float_refuted: panics; C23_endless_float_refuted: no return)."
  },
  {
   "property": "C24",
   "status": "proved",
   "theorems": [
    "Verif.Props.C24_orientation",
    "Verif.Props.C24_area",
    "Verif.Props.C24_cover",
    "Verif.Props.C24_legal",
    "Verif.Props.C24_legalize"
   ],
   "note": "Exact arithmetic over any ordered field: per quadrilateral, per flip in the half-edge table and for a whole call of legalize."
  },
  {
   "property": "C25",
   "status": "proved",
   "theorems": [
    "Verif.Props.C25_ring",
    "Verif.Props.C25_ring_any",
    "Verif.Props.C25_hull_float"
   ],
   "note": "Every outcome of the predicates (C25_ring_any) and every float64 input (C25_hull_float); entries of the hull have distinct indices."
  },
  {
   "property": "C26",
   "status": "proved",
   "theorems": [
    "Verif.Props.C26_total",
    "Verif.Props.C26_validate",
    "Verif.Props.C26_panics"
   ],
   "note": "Exact comparison of the given scalars over any ordered field; C26_panics shows that the range hypothesis is needed."
  },
  {
   "property": "C27",
   "status": "proved",
   "theorems": [
    "Verif.Props.C27_membership",
    "Verif.Props.C27_inside",
    "Verif.Props.C27_centroid",
    "Verif.Props.C27_relabel",
    "Verif.Props.C27_degenerate"
   ],
   "note": "Exact arithmetic over any ordered field; degenerate tetrahedra covered by C27_degenerate."
  },
  {
   "property": "C28",
   "status": "proved",
   "theorems": [
    "Verif.Props.C28_extremas",
    "Verif.Props.C28_extremas_tight",
    "Verif.Props.C28_value",
    "Verif.Props.C28_bounds",
    "Verif.Props.C28_tight",
    "Verif.Props.C28_range_refuted",
    "Verif.Props.C28_bounds_float",
    "Verif.Props.C28_tight_float"
   ],
   "note": "Exact arithmetic and binary64 (C28_bounds_float: every coordinate that is not NaN; C28_tight_float within the sentinel range). C28_range_refuted shows that the range hypothesis of tightness is needed."
  },
  {
   "property": "C29",
   "status": "partial",
   "theorems": [
    "Verif.Props.C29_value",
    "Verif.Props.C29_refuted",
    "Verif.Props.C29_indices",
    "Verif.Props.C29_orientation_refuted"
   ],
   "note": "False: C29_refuted shows that for every nonempty in-range input the call panics or leaves an input point outside. C29_value and C29_indices pin down what is computed."
  },
  {
   "property": "C30",
   "status": "partial",
   "theorems": [
    "Verif.Props.C30_extremes",
    "Verif.Props.C30_third",
    "Verif.Props.C30_fourth",
    "Verif.Props.C30_partial",
    "Verif.Props.C30_refuted"
   ],
   "note": "Proved for inputs that beat the sentinels (C30_partial); otherwise false (C30_refuted)."
  },
  {
   "property": "C31",
   "status": "proved",
   "theorems": [
    "Verif.Props.C31_two",
    "Verif.Props.C31_three"
   ],
   "note": "Exact arithmetic."
  },
  {
   "property": "C32",
   "status": "proved",
   "theorems": [
    "Verif.Props.C32_face_hash",
    "Verif.Props.C32_text"
   ],
   "note": "All integer indices."
  },
  {
   "property": "C33",
   "status": "proved",
   "theorems": [
    "Verif.Props.C33_tetra_hash",
    "Verif.Props.C33_text",
    "Verif.Props.C33_addTetra",
    "Verif.Props.C33_edge"
   ],
   "note": "All integer indices."
  },
  {
   "property": "C34",
   "status": "proved",
   "theorems": [
    "Verif.Props.C34_englobe",
    "Verif.Props.C34_vertices"
   ],
   "note": "Exact arithmetic, no range hypothesis."
  },
  {
   "property": "C35",
   "status": "proved",
   "theorems": [
    "Verif.Props.C35_order",
    "Verif.Props.C35_bowyerWatson"
   ],
   "note": "Every sphere test (hence every rounding) and every iteration order at each range statement."
  },
  {
   "property": "C36",
   "status": "proved",
   "theorems": [
    "Verif.Props.C36_indices",
    "Verif.Props.C36_bowyerWatson",
    "Verif.Props.C36_isPartOfMesh"
   ],
   "note": "Every sphere test (hence every rounding) and every iteration order; includes absence of panics."
  },
  {
   "property": "C37",
   "status": "partial",
   "theorems": [
    "Verif.Props.C37_step_partial",
    "Verif.Props.C37_test_partial",
    "Verif.Props.C37_refuted",
    "Verif.Props.C37_refuted_any_order"
   ],
   "note": "False: C37_refuted, C37_refuted_any_order. C37_step_partial and C37_test_partial say what every insertion does."
  },
  {
   "property": "C38",
   "status": "partial",
   "theorems": [
    "Verif.Props.C38_value",
    "Verif.Props.C38_partial",
    "Verif.Props.C38_refuted",
    "Verif.Props.C38_range_refuted"
   ],
   "note": "Holds exactly for four-vertex lists; false for longer (C38_refuted) and shorter (C38_range_refuted) lists."
  },
  {
   "property": "C39",
   "status": "proved",
   "theorems": [
    "Verif.Props.C39_duplicate",
    "Verif.Props.C39_winding"
   ],
   "note": "Every index list."
  },
  {
   "property": "C40",
   "status": "proved",
   "theorems": [
    "Verif.Props.C40_nearest",
    "Verif.Props.C40_far",
    "Verif.Props.C40_centroid"
   ],
   "note": "Exact arithmetic; some vertex must be within the MaxFloat64 sentinel, C40_far gives the other case."
  },
  {
   "property": "C41",
   "status": "proved",
   "theorems": [
    "Verif.Props.C41_findSpan",
    "Verif.Props.C41_unique"
   ],
   "note": "All knot vectors, any linearly ordered field; C41_unique shows the span is determined."
  },
  {
   "property": "C42",
   "status": "partial",
   "theorems": [
    "Verif.Props.C42_refuted",
    "Verif.Props.C42_partial"
   ],
   "note": "False of the code: C42_refuted shows non-termination for every parameter outside the domain of every nondecreasing knot vector; C42_partial characterises termination."
  },
  {
   "property": "C43",
   "status": "proved",
   "theorems": [
    "Verif.Props.C43_basisFuns",
    "Verif.Props.C43_piece",
    "Verif.Props.C43_no_division_by_zero"
   ],
   "note": "Any linearly ordered field; knots are integers as in the code. Absence of division by zero is proved by running the same code over scalars with checked division."
  },
  {
   "property": "C44",
   "status": "proved",
   "theorems": [
    "Verif.Props.C44_partition"
   ],
   "note": "Closed spans of nondecreasing knot vectors."
  },
  {
   "property": "C45",
   "status": "proved",
   "theorems": [
    "Verif.Props.C45_formula",
    "Verif.Props.C45_convex",
    "Verif.Props.C45_local",
    "Verif.Props.C45_affine",
    "Verif.Props.C45_interpolates"
   ],
   "note": "Any linearly ordered field. At the right end of the domain the last span must be nonempty."
  },
  {
   "property": "C46",
   "status": "partial",
   "theorems": [
    "Verif.Props.C46_value",
    "Verif.Props.C46_refuted",
    "Verif.Props.C46_too_many"
   ],
   "note": "False of the code: `ndu[0][0]` is never initialised, so rows 0 and 1 of the result are always zero (C46_value); C46_refuted: row 0 never equals basisFuns; C46_too_many: n > p never returns."
  },
  {
   "property": "C47",
   "status": "partial",
   "theorems": [
    "Verif.Props.C47_sphere_vertices",
    "Verif.Props.C47_torus_vertices",
    "Verif.Props.C47_sphere_partial",
    "Verif.Props.C47_sphere_refuted",
    "Verif.Props.C47_torus_partial",
    "Verif.Props.C47_torus_refuted"
   ],
   "note": "False of the code: the center is ignored (C47_sphere_refuted, C47_torus_refuted for every nonzero center / radius). The _partial theorems show the vertices lie on the surface around the origin; C47_*_vertices give every vertex exactly."
  },
  {
   "property": "C48",
   "status": "proved",
   "theorems": [
    "Verif.Props.C48_degenerate",
    "Verif.Props.C48_gridIndices",
    "Verif.Props.C48_indices",
    "Verif.Props.C48_sphere",
    "Verif.Props.C48_torus",
    "Verif.Props.C48_single_stack"
   ],
   "note": "Public constructors, real arithmetic with uint32 indices; general stack and sector counts in C48_gridIndices / C48_indices; the degenerate counts in C48_degenerate and C48_single_stack."
  },
  {
   "property": "C49",
   "status": "partial",
   "theorems": [
    "Verif.Props.C49_refuted",
    "Verif.Props.C49_partial"
   ],
   "note": "False of the code: C49_refuted (the last fan triangle uses index len(vertices)); C49_partial bounds all other triangles."
  },
  {
   "property": "C50",
   "status": "proved",
   "theorems": [
    "Verif.Props.C50_circle",
    "Verif.Props.C50_ellipse"
   ],
   "note": "Real arithmetic."
  },
  {
   "property": "C51",
   "status": "partial",
   "theorems": [
    "Verif.Props.C51_sphere",
    "Verif.Props.C51_torus_refuted",
    "Verif.Props.C51_tex_refuted"
   ],
   "note": "Sphere normals proved. Torus normals are not unit and texture coordinates collapse to integers: C51_torus_refuted, C51_tex_refuted."
  },
  {
   "property": "C52",
   "status": "partial",
   "theorems": [
    "Verif.Props.C52_distinct",
    "Verif.Props.C52_oriented",
    "Verif.Props.C52_shared",
    "Verif.Props.C52_refuted",
    "Verif.Props.C52_sphere_hole_refuted"
   ],
   "note": "Distinctness, orientation and shared edges proved for all counts. Closedness is false: C52_refuted (indices) and C52_sphere_hole_refuted (positions)."
  },
  {
   "property": "C53",
   "status": "proved",
   "theorems": [
    "Verif.Props.C53_transfer"
   ],
   "note": "The float32 conversion is an arbitrary function; the gltf library calls are not modelled."
  },
  {
   "property": "C54",
   "status": "proved",
   "theorems": [
    "Verif.Props.C54_split",
    "Verif.Props.C54_join",
    "Verif.Props.C54_panics"
   ],
   "note": "All argument lists; the join direction for ASCII text."
  },
  {
   "property": "C55",
   "status": "proved",
   "theorems": [
    "Verif.Props.C55_array",
    "Verif.Props.C55_matrix",
    "Verif.Props.C55_panics",
    "Verif.Props.C55_join"
   ],
   "note": "All bracketed lists and matrices."
  },
  {
   "property": "C56",
   "status": "partial",
   "theorems": [
    "Verif.Props.C56_refuted",
    "Verif.Props.C56_partial"
   ],
   "note": "False of the code: a byte slice is cut by rune count. C56_refuted shows the corruption for every argument list whose last argument is non-ASCII; C56_partial gives the ASCII case."
  },
  {
   "property": "C57",
   "status": "partial",
   "theorems": [
    "Verif.Props.C57_refuted",
    "Verif.Props.C57_partial"
   ],
   "note": "False of the code: C57_refuted. C57_partial: quoted text without brackets and commas is kept."
  },
  {
   "property": "C58",
   "status": "proved",
   "theorems": [
    "Verif.Props.C58_strip",
    "Verif.Props.C58_isSpace",
    "Verif.Props.C58_tokenize",
    "Verif.Props.C58_definition"
   ],
   "note": "All byte strings."
  },
  {
   "property": "C59",
   "status": "proved",
   "theorems": [
    "Verif.Props.C59_lexLines",
    "Verif.Props.C59_lexLines_panic",
    "Verif.Props.C59_Lex"
   ],
   "note": "Stated for line lists and for whole files."
  },
  {
   "property": "C60",
   "status": "partial",
   "theorems": [
    "Verif.Props.C60_refuted",
    "Verif.Props.C60_trailer_refuted"
   ],
   "note": "False of the code: C60_refuted (header line without `=`), C60_trailer_refuted."
  },
  {
   "property": "C61",
   "status": "partial",
   "theorems": [
    "Verif.Props.C61_partial",
    "Verif.Props.C61_refuted"
   ],
   "note": "False of the code in general: C61_refuted. C61_partial: true when every long line has its `=` in the first buffer."
  },
  {
   "property": "C62",
   "status": "proved",
   "theorems": [
    "Verif.Props.C62_terminates",
    "Verif.Props.C62_once",
    "Verif.Props.C62_justified"
   ],
   "note": "All tables and orders; C62_justified adds that each handler run is either the dispatch of a table entry or requested by an earlier handler."
  },
  {
   "property": "C63",
   "status": "partial",
   "theorems": [
    "Verif.Props.C63_refuted",
    "Verif.Props.C63_partial"
   ],
   "note": "False of the code: C63_refuted (panic and handled keys both depend on the order). C63_partial: on well-formed tables all orders succeed and handle all table keys."
  },
  {
   "property": "C64",
   "status": "proved",
   "theorems": [
    "Verif.Props.C64_no_panic"
   ],
   "note": "All well-formed tables and orders."
  },
  {
   "property": "C65",
   "status": "partial",
   "theorems": [
    "Verif.Props.C65_dispatch",
    "Verif.Props.C65_refuted"
   ],
   "note": "Dispatch proved for every type name; the clause about the real STEP names is false of the code (C65_refuted: the source has the typos ADVENCED_FACE and AXIS_2_PLACEMENT_3D)."
  },
  {
   "property": "C66",
   "status": "proved",
   "theorems": [
    "Verif.Props.C66_getLogical"
   ],
   "note": "All strings."
  },
  {
   "property": "C67",
   "status": "proved",
   "theorems": [
    "Verif.Props.C67_convex",
    "Verif.Props.C67_distinct"
   ],
   "note": "Exact arithmetic over any ordered field with floor."
  },
  {
   "property": "C68",
   "status": "proved",
   "theorems": [
    "Verif.Props.C68_delaunay"
   ],
   "note": "Exact arithmetic; the circle is given by its centre, not by the determinant of the code."
  },
  {
   "property": "C69",
   "status": "proved",
   "theorems": [
    "Verif.Props.C69_cover",
    "Verif.Props.C69_all"
   ],
   "note": "Exact arithmetic; the sort is any function returning a permutation ordered as the comparator asks (sorts_exists gives one)."
  },
  {
   "property": "C70",
   "status": "proved",
   "theorems": [
    "Verif.Props.C70_fills",
    "Verif.Props.C70_disjoint"
   ],
   "note": "Exact arithmetic."
  },
  {
   "property": "C71",
   "status": "proved",
   "theorems": [
    "Verif.Props.C71_validate_float"
   ],
   "note": "Every float64 input; C26_total gives it for every scalar type."
  },
  {
   "property": "C72",
   "status": "proved",
   "theorems": [
    "Verif.Props.C72_boundary",
    "Verif.Props.C72_agree",
    "Verif.Props.C72_validate",
    "Verif.Props.C72_near_refuted"
   ],
   "note": "Exact arithmetic: agreement of the hulls over any ordered field, acceptance by Validate over the reals. C72_near_refuted shows that the distance hypothesis is needed: with nearly equal points Validate rejects what Triangulate returns."
  },
  {
   "property": "C73",
   "status": "proved",
   "theorems": [
    "Verif.Props.C73_unique",
    "Verif.Props.C73_convexHull",
    "Verif.Props.C73_boundary_vertex"
   ],
   "note": "Exact arithmetic over any ordered field; the polygon is specified by its sides (BoundaryPolygon), not by the code's loop."
  },
  {
   "property": "C74",
   "status": "proved",
   "theorems": [
    "Verif.Props.C74_outcome",
    "Verif.Props.C74_consistent",
    "Verif.Props.C74_convex",
    "Verif.Props.C74_distinct",
    "Verif.Props.C74_delaunay",
    "Verif.Props.C74_cover",
    "Verif.Props.C74_all",
    "Verif.Props.C74_fills",
    "Verif.Props.C74_disjoint",
    "Verif.Props.C74_boundary",
    "Verif.Props.C74_agree",
    "Verif.Props.C74_validate",
    "Verif.Props.C74_bound_refuted"
   ],
   "note": "F64 model, float64 rounding at every operation. The claims are stated about the exact values of the coordinates. C74_validate: Validate accepts the result in float64. C74_bound_refuted shows that some bound on the integers is needed: with coordinates below 2^14 a point can be lost; C104 raises the bound to 512."
  },
  {
   "property": "C75",
   "status": "proved",
   "theorems": [
    "Verif.Props.C75_encloses",
    "Verif.Props.C75_boundary",
    "Verif.Props.C75_order"
   ],
   "note": "F64 model; the claims are stated about the exact values of the coordinates."
  },
  {
   "property": "C76",
   "status": "proved",
   "theorems": [
    "Verif.Props.C76_error",
    "Verif.Props.C76_triangles",
    "Verif.Props.C76_hull",
    "Verif.Props.C76_float",
    "Verif.Props.C76_square_refuted",
    "Verif.Props.C76_float_dyadic"
   ],
   "note": "Exact arithmetic over any ordered field (points with a common Z, pairwise equal or further apart than the tolerance) and float64 on integers up to 64 (C76_float) and on integers up to 512 times a power of two (C76_float_dyadic). C76_square_refuted shows that the condition on circles is needed."
  },
  {
   "property": "C77",
   "status": "proved",
   "theorems": [
    "Verif.Props.C77_outcome",
    "Verif.Props.C77_consistent",
    "Verif.Props.C77_convex",
    "Verif.Props.C77_distinct",
    "Verif.Props.C77_delaunay",
    "Verif.Props.C77_fills",
    "Verif.Props.C77_disjoint",
    "Verif.Props.C77_cover_fine",
    "Verif.Props.C77_cover",
    "Verif.Props.C77_all_fine",
    "Verif.Props.C77_all"
   ],
   "note": "F64 model. SignsRight, SeedRight and OrderRight are hypotheses on the input points, stated by comparing float64 results with exact values; C78 gives conditions under which SignsRight holds, and the concrete example meets all of them. Emptiness of the seed circle is a hypothesis because rounding of the radii can pick a wrong seed. C77_cover_fine and C77_all_fine need a weaker condition than the right order of the distances (OrderFine)."
  },
  {
   "property": "C78",
   "status": "proved",
   "theorems": [
    "Verif.Props.C78_area",
    "Verif.Props.C78_inCircle",
    "Verif.Props.C78_signs",
    "Verif.Props.C78_seed",
    "Verif.Props.C78_dyadic",
    "Verif.Props.C78_same"
   ],
   "note": "F64 model, rounding at every operation. C78_same needs the hypotheses of C77 on the seed and on the order of distances."
  },
  {
   "property": "C79",
   "status": "proved",
   "theorems": [
    "Verif.Props.C79_span",
    "Verif.Props.C79_nan",
    "Verif.Props.C79_piece",
    "Verif.Props.C79_basis",
    "Verif.Props.C79_sum"
   ],
   "note": "F64 model, rounding at every operation. The exact values are those of the recursion bspline (or of its polynomial piece on the closed span) over the rationals at the exact value of the parameter."
  },
  {
   "property": "C80",
   "status": "proved",
   "theorems": [
    "Verif.Props.C80_curve",
    "Verif.Props.C80_hull_refuted",
    "Verif.Props.C80_interpolation_refuted"
   ],
   "note": "F64 model, rounding at every operation, against the same function over the rationals (characterised by C45). C80_hull_refuted and C80_interpolation_refuted compute the two failures."
  },
  {
   "property": "C81",
   "status": "proved",
   "theorems": [
    "Verif.Props.C81_norm",
    "Verif.Props.C81_inplace",
    "Verif.Props.C81_normalize",
    "Verif.Props.C81_unit",
    "Verif.Props.C81_distance"
   ],
   "note": "F64 model, rounding at every operation; the exact length is the real square root. Outside the range C04_range_float_refuted shows that Normalize can return the zero vector."
  },
  {
   "property": "C82",
   "status": "proved",
   "theorems": [
    "Verif.Props.C82_orient",
    "Verif.Props.C82_insphere",
    "Verif.Props.C82_tetrahedron",
    "Verif.Props.C82_orient_grid",
    "Verif.Props.C82_insphere_grid",
    "Verif.Props.C82_tetrahedron_grid",
    "Verif.Props.C82_vertex_refuted"
   ],
   "note": "F64 model. C82_vertex_refuted gives a tetrahedron with integer coordinates below 2^18 that rejects two of its own vertices (the exact test never does, C27_inside). M is between 2^-34 and 2^34."
  },
  {
   "property": "C83",
   "status": "proved",
   "theorems": [
    "Verif.Props.C83_extremas",
    "Verif.Props.C83_box",
    "Verif.Props.C83_near",
    "Verif.Props.C83_grid",
    "Verif.Props.C83_contains_refuted"
   ],
   "note": "F64 model. C83_contains_refuted gives the two points (0.3, 0, 0.5), (1.5, 0.6, 2), of which the second is outside of the computed tetrahedron. In exact arithmetic containment always holds (C34_englobe)."
  },
  {
   "property": "C84",
   "status": "proved",
   "theorems": [
    "Verif.Props.C84_signs",
    "Verif.Props.C84_margin",
    "Verif.Props.C84_grid"
   ],
   "note": "At the F64 model; M is between 2^-34 and 2^34, the grid exponent between -500 and 400. In the grid case the points must be pairwise apart (more than sqrt(eps)). Without margins the enclosure fails: C16_float_refuted."
  },
  {
   "property": "C85",
   "status": "proved",
   "theorems": [
    "Verif.Props.C85_intersect",
    "Verif.Props.C85_parallel_refuted"
   ],
   "note": "F64 model, rounding at every operation; the exact point is the result of the same function over the reals, characterised by C05. N and M are between 2^-60 and 2^60. C85_parallel_refuted computes the failure of the parallel test."
  },
  {
   "property": "C86",
   "status": "proved",
   "theorems": [
    "Verif.Props.C86_area",
    "Verif.Props.C86_area_any",
    "Verif.Props.C86_triangles",
    "Verif.Props.C86_perimeter",
    "Verif.Props.C86_validate_fine",
    "Verif.Props.C86_validate",
    "Verif.Props.C86_large_refuted"
   ],
   "note": "F64 model, rounding at every operation. The conditions on sign tests and comparisons follow from margins (C78, C84); an example discharges all of them for six points with decimal coordinates. C86_large_refuted computes the rejected triangle."
  },
  {
   "property": "C87",
   "status": "proved",
   "theorems": [
    "Verif.Props.C87_center",
    "Verif.Props.C87_radius",
    "Verif.Props.C87_outcome",
    "Verif.Props.C87_delaunay",
    "Verif.Props.C87_all",
    "Verif.Props.C87_same",
    "Verif.Props.C87_hull",
    "Verif.Props.C87_validate"
   ],
   "note": "F64 model, rounding at every operation. The conditions mention exact positions only, no computed quantity. An example discharges all of them for six points with decimal coordinates (M = 4, k = 31)."
  },
  {
   "property": "C88",
   "status": "proved",
   "theorems": [
    "Verif.Props.C88_circumradius",
    "Verif.Props.C88_hashKey",
    "Verif.Props.C88_triangulate"
   ],
   "note": "This also shows that the exact theorems C19-C26, C68-C73 do not rest on Lean's convention x/0 = 0."
  },
  {
   "property": "C89",
   "status": "proved",
   "theorems": [
    "Verif.Props.C89_content",
    "Verif.Props.C89_chunks"
   ],
   "note": "Connects the whole-content model `Lex`, used by the other lexer properties, to the code that reads the file through a buffer."
  },
  {
   "property": "C90",
   "status": "partial",
   "theorems": [
    "Verif.Props.C90_partial",
    "Verif.Props.C90_refuted"
   ],
   "note": "False of the code as stated: C90_refuted shows that after a read error other than io.EOF no table is ever returned, and that with no bytes (a directory) the loop is endless. C90_partial proves it for files that can be read to their end."
  },
  {
   "property": "C91",
   "status": "proved",
   "theorems": [
    "Verif.Props.C91_nearest",
    "Verif.Props.C91_error",
    "Verif.Props.C91_exact",
    "Verif.Props.C91_mono",
    "Verif.Props.C91_underflow",
    "Verif.Props.C91_overflow",
    "Verif.Props.C91_mesh",
    "Verif.Props.C91_distinct_refuted"
   ],
   "note": "C91_distinct_refuted proves the last sentence: the exported mesh can have a collapsed triangle although the mesh in memory has none."
  },
  {
   "property": "C92",
   "status": "proved",
   "theorems": [
    "Verif.Props.C92_sphere",
    "Verif.Props.C92_sphere_distance",
    "Verif.Props.C92_torus",
    "Verif.Props.C92_ellipse",
    "Verif.Props.C92_circle",
    "Verif.Props.C92_seam_refuted"
   ],
   "note": "The accuracy of math.Cos and math.Sin is a hypothesis (TrigAcc), met by correctly rounded functions (roundedTrig_acc). C92_seam_refuted proves the last sentence, for sine errors up to 2u."
  },
  {
   "property": "C93",
   "status": "proved",
   "theorems": [
    "Verif.Props.C93_tests",
    "Verif.Props.C93_indices",
    "Verif.Props.C93_order",
    "Verif.Props.C93_grid",
    "Verif.Props.C93_margin",
    "Verif.Props.C93_exact_refuted"
   ],
   "note": "C93_exact_refuted proves the last sentence, for every legal map order."
  },
  {
   "property": "C94",
   "status": "proved",
   "theorems": [
    "Verif.Props.C94_handler",
    "Verif.Props.C94_record",
    "Verif.Props.C94_calls",
    "Verif.Props.C94_table",
    "Verif.Props.C94_file",
    "Verif.Props.C94_refuted"
   ],
   "note": "C94_refuted proves the last sentence. C94_handler ties the record to the handler of the parser model."
  },
  {
   "property": "C95",
   "status": "proved",
   "theorems": [
    "Verif.Props.C95_triangulate",
    "Verif.Props.C95_origin",
    "Verif.Props.C95_hull",
    "Verif.Props.C95_bowyer",
    "Verif.Props.C95_triangulate_float",
    "Verif.Props.C95_hull_float",
    "Verif.Props.C95_bowyer_float",
    "Verif.Props.C95_hull_shift_float",
    "Verif.Props.C95_unit_refuted",
    "Verif.Props.C95_unit_float_refuted",
    "Verif.Props.C95_origin_float_refuted"
   ],
   "note": "C95_unit_refuted, C95_unit_float_refuted and C95_origin_float_refuted prove the last sentence."
  },
  {
   "property": "C96",
   "status": "proved",
   "theorems": [
    "Verif.Props.C96_wrap64",
    "Verif.Props.C96_core",
    "Verif.Props.C96_triangulate",
    "Verif.Props.C96_findSpan"
   ],
   "note": "C96_wrap64 states what wrap64 computes; an example with five-bit integers shows that the runs differ when the integers are too short."
  },
  {
   "property": "C97",
   "status": "proved",
   "theorems": [
    "Verif.Props.C97_nearest",
    "Verif.Props.C97_nearest_none",
    "Verif.Props.C97_nearest_true",
    "Verif.Props.C97_centroid_box",
    "Verif.Props.C97_centroid_error",
    "Verif.Props.C97_third",
    "Verif.Props.C97_fourth",
    "Verif.Props.C97_extremes",
    "Verif.Props.C97_third_true",
    "Verif.Props.C97_fourth_true",
    "Verif.Props.C97_dist_grid",
    "Verif.Props.C97_tetra_grid",
    "Verif.Props.C97_tetra_refuted",
    "Verif.Props.C97_nearest_refuted",
    "Verif.Props.C97_centroid_overflow_refuted"
   ],
   "note": "C97_tetra_refuted, C97_nearest_refuted and C97_centroid_overflow_refuted show that the hypotheses are needed."
  },
  {
   "property": "C98",
   "status": "proved",
   "theorems": [
    "Verif.Props.C98_dyadic",
    "Verif.Props.C98_ceil",
    "Verif.Props.C98_range",
    "Verif.Props.C98_size",
    "Verif.Props.C98_size_refuted",
    "Verif.Props.C98_grid",
    "Verif.Props.C98_spread",
    "Verif.Props.C98_irrelevant",
    "Verif.Props.C98_float_refuted",
    "Verif.Props.C98_overflow"
   ],
   "note": "C98_size_refuted: first failure at 2^52+1 points (one entry fewer, harmless). C98_float_refuted: panics and endless runs of C23 with the hash size the code chooses. C98_dyadic: integers up to 512 times a power of two."
  },
  {
   "property": "C99",
   "status": "proved",
   "theorems": [
    "Verif.Props.C99_basisFuns",
    "Verif.Props.C99_curvePoint",
    "Verif.Props.C99_ders",
    "Verif.Props.C99_ders_knots_refuted",
    "Verif.Props.C99_ders_degree_refuted",
    "Verif.Props.C99_grid",
    "Verif.Props.C99_grid_refuted",
    "Verif.Props.C99_sphere",
    "Verif.Props.C99_torus",
    "Verif.Props.C99_sphere_refuted",
    "Verif.Props.C99_circle",
    "Verif.Props.C99_ellipse",
    "Verif.Props.C99_mesh",
    "Verif.Props.C99_bowyerWatson"
   ],
   "note": "C99_ders_knots_refuted, C99_ders_degree_refuted, C99_grid_refuted, C99_sphere_refuted show the bounds on the inputs are needed."
  },
  {
   "property": "C100",
   "status": "proved",
   "theorems": [
    "Verif.Props.C100_fma",
    "Verif.Props.C100_exact",
    "Verif.Props.C100_error",
    "Verif.Props.C100_bound",
    "Verif.Props.C100_squaredDistance",
    "Verif.Props.C100_area",
    "Verif.Props.C100_inCircle",
    "Verif.Props.C100_orient3d",
    "Verif.Props.C100_inSphereFast",
    "Verif.Props.C100_tests",
    "Verif.Props.C100_outcome",
    "Verif.Props.C100_delaunay",
    "Verif.Props.C100_fills",
    "Verif.Props.C100_cover",
    "Verif.Props.C100_boundary",
    "Verif.Props.C100_same",
    "Verif.Props.C100_collinear_refuted",
    "Verif.Props.C100_degenerate_refuted",
    "Verif.Props.C100_inSphere"
   ],
   "note": "C100_collinear_refuted, C100_degenerate_refuted show that the bounds on the coordinates are needed. The bounding box, pseudoAngle and hashKey have no product next to a sum."
  },
  {
   "property": "C101",
   "status": "proved",
   "theorems": [
    "Verif.Props.C101_error",
    "Verif.Props.C101_turn",
    "Verif.Props.C101_mirror",
    "Verif.Props.C101_hull_turn",
    "Verif.Props.C101_hull_mirror",
    "Verif.Props.C101_space",
    "Verif.Props.C101_inTetra",
    "Verif.Props.C101_float",
    "Verif.Props.C101_hull_float",
    "Verif.Props.C101_circle_refuted",
    "Verif.Props.C101_bowyer_refuted",
    "Verif.Props.C101_float_dyadic"
   ],
   "note": "C101_circle_refuted and C101_bowyer_refuted show where the axes matter. The hypothesis that distinct points of both lists are separated (none closer than the duplicate tolerance) is needed since scaling changes distances; separated_turn derives it for motions that do not shrink. C101_float: integers up to 64; C101_float_dyadic: up to 512 times a power of two."
  },
  {
   "property": "C102",
   "status": "proved",
   "theorems": [
    "Verif.Props.C102_dyadic",
    "Verif.Props.C102_same",
    "Verif.Props.C102_same_core",
    "Verif.Props.C102_count",
    "Verif.Props.C102_steps",
    "Verif.Props.C102_exact",
    "Verif.Props.C102_float",
    "Verif.Props.C102_grid",
    "Verif.Props.C102_grid_total"
   ],
   "note": "C102_same and C102_same_core: same results as without counter. C102_count: laws without assumption on the predicates. C102_steps: arbitrary predicates as in C19. C102_exact, C102_float, C102_grid, C102_grid_total, C102_dyadic: whole runs. Runs that panic are not counted; steps inside seed search, sorting and the final walk along the hull are not counted (each is one pass, or the sort of the library)."
  },
  {
   "property": "C103",
   "status": "proved",
   "theorems": [
    "Verif.Props.C103_insert",
    "Verif.Props.C103_bowyer",
    "Verif.Props.C103_bowyer_any",
    "Verif.Props.C103_hull",
    "Verif.Props.C103_span",
    "Verif.Props.C103_span_sharp",
    "Verif.Props.C103_span_float"
   ],
   "note": "C103_span, C103_span_sharp, C103_span_float; C103_hull; C103_insert (exact number of steps of one insertion), C103_bowyer, C103_bowyer_any. The bound (n+4 choose 4) is for arbitrary tests and not sharp for the real in-sphere test."
  },
  {
   "property": "C104",
   "status": "proved",
   "theorems": [
    "Verif.Props.C104_dyadic_outcome",
    "Verif.Props.C104_dyadic_delaunay",
    "Verif.Props.C104_dyadic_fills",
    "Verif.Props.C104_dyadic_disjoint",
    "Verif.Props.C104_dyadic_cover",
    "Verif.Props.C104_dyadic_all",
    "Verif.Props.C104_dyadic_hull",
    "Verif.Props.C104_dyadic_validate",
    "Verif.Props.C104_order",
    "Verif.Props.C104_outcome",
    "Verif.Props.C104_consistent",
    "Verif.Props.C104_convex",
    "Verif.Props.C104_distinct",
    "Verif.Props.C104_delaunay",
    "Verif.Props.C104_cover",
    "Verif.Props.C104_all",
    "Verif.Props.C104_fills",
    "Verif.Props.C104_disjoint",
    "Verif.Props.C104_boundary",
    "Verif.Props.C104_agree"
   ],
   "note": "F64 model, float64 rounding at every operation, claims about the exact values of the coordinates. The C104_dyadic theorems allow a common unit 2^e, -26 <= e <= 80. Validate: C104_dyadic_validate, with limits on number times size since its tolerance is absolute. Between 512 and 2^14 the claim is open; at 2^14 it is false."
  },
  {
   "property": "C105",
   "status": "proved",
   "theorems": [
    "Verif.Props.C105_sphere",
    "Verif.Props.C105_sectors_flat",
    "Verif.Props.C105_torus",
    "Verif.Props.C105_sphere_normals",
    "Verif.Props.C105_torus_normals",
    "Verif.Props.C105_torus_normals_refuted",
    "Verif.Props.C105_export"
   ],
   "note": "Real model for the shapes; F64 model with the assumption TrigAcc on sine and cosine and the F32 conversion for the exported sphere. Torus export is not covered. C105_sectors_flat shows that three sectors are needed."
  },
  {
   "property": "C106",
   "status": "proved",
   "theorems": [
    "Verif.Props.C106_ellipse",
    "Verif.Props.C106_circle",
    "Verif.Props.C106_area"
   ],
   "note": "Real model. C49 states that the index list as a whole is not valid; this property says exactly which triangles are wrong and that the remaining ones have the right total area."
  },
  {
   "property": "C107",
   "status": "proved",
   "theorems": [
    "Verif.Props.C107_smooth",
    "Verif.Props.C107_jump",
    "Verif.Props.C107_speed"
   ],
   "note": "Real model. The jump shows that the bound on the multiplicity cannot be dropped. The code checks no multiplicities; nothing is said about floating point."
  },
  {
   "property": "C108",
   "status": "proved",
   "theorems": [
    "Verif.Props.C108_distance",
    "Verif.Props.C108_opening",
    "Verif.Props.C108_cover",
    "Verif.Props.C108_volume",
    "Verif.Props.C108_volume_bounds",
    "Verif.Props.C108_torus_distance"
   ],
   "note": "Real model; the rounding of the vertices is in C91 and C92. Points are measured from the origin because the constructors ignore the centre (C47)."
  },
  {
   "property": "C109",
   "status": "proved",
   "theorems": [
    "Verif.Props.C109_edges",
    "Verif.Props.C109_float",
    "Verif.Props.C109_spread",
    "Verif.Props.C109_fused"
   ],
   "note": "The float64 version is about the exact values of the coordinates. Any sort that orders by the distance to the circumcentre, ties in any order."
  },
  {
   "property": "C110",
   "status": "proved",
   "theorems": [
    "Verif.Props.C110_best",
    "Verif.Props.C110_angle",
    "Verif.Props.C110_float",
    "Verif.Props.C110_spread"
   ],
   "note": "Angles are compared by cotangents over any ordered field, and as real angles over the reals and for the exact values of float64 coordinates. The triangles of the competitor may even overlap."
  },
  {
   "property": "C111",
   "status": "proved",
   "theorems": [
    "Verif.Props.C111_monotone",
    "Verif.Props.C111_length",
    "Verif.Props.C111_unique",
    "Verif.Props.C111_all"
   ],
   "note": "Real model. Without jumps means interior knots of multiplicity at most the degree, as in C107; the theorem about control points needs no such hypothesis."
  },
  {
   "property": "C112",
   "status": "proved",
   "theorems": [
    "Verif.Props.C112_hull",
    "Verif.Props.C112_hull_float",
    "Verif.Props.C112_triangulate",
    "Verif.Props.C112_float"
   ],
   "note": "Exact arithmetic for all separated points; float64 under the hypotheses of C75 and C104."
  },
  {
   "property": "C113",
   "status": "proved",
   "theorems": [
    "Verif.Props.C113_plane",
    "Verif.Props.C113_float",
    "Verif.Props.C113_spread"
   ],
   "note": "Exact arithmetic for all separated points; float64 under the hypotheses of C104 and C87. The number of edges is stated as the number of ordered pairs of neighbours, which is twice that number."
  },
  {
   "property": "C114",
   "status": "partial",
   "theorems": [
    "Verif.Props.C114_even_partial",
    "Verif.Props.C114_twice_partial",
    "Verif.Props.C114_refuted_four",
    "Verif.Props.C114_refuted_once"
   ],
   "note": "False of the code: for the four corners of one tetrahedron a triangle is returned four times, and for four other points a triangle is returned once (both at binary64, every map order). Proved for every sphere test: exactly twice when each pair of vertices is on at most two boundary faces of each cavity; an even number of times when each face of each cavity belongs to one or an even number of deleted tetrahedra."
  },
  {
   "property": "C115",
   "status": "partial",
   "theorems": [
    "Verif.Props.C115_cover_partial",
    "Verif.Props.C115_hull_partial",
    "Verif.Props.C115_refuted_uncovered",
    "Verif.Props.C115_odd_partial",
    "Verif.Props.C115_refuted_hole",
    "Verif.Props.C115_refuted_overlap"
   ],
   "note": "False of the code: for four corners of a cube there is a hole, and for three corners of a cube a point is in three tetrahedra although each cavity has a simple boundary (both at binary64, every map order). Proved for every sphere test, when each face of each cavity belongs to one or an even number of deleted tetrahedra: the closed tetrahedra cover the super-tetrahedron (and so, for bowyerWatson in exact arithmetic, the convex hull of points that differ in each coordinate), and a point off all planes is inside an odd number of them."
  },
  {
   "property": "C116",
   "status": "proved",
   "theorems": [
    "Verif.Props.C116_hull",
    "Verif.Props.C116_hull_float",
    "Verif.Props.C116_triangulate",
    "Verif.Props.C116_float",
    "Verif.Props.C116_monotone"
   ],
   "note": "Exact real arithmetic for ConvexHull and Triangulate; exact values of float64 results for integers up to 2^24 (ConvexHull) and multiples up to 512 of a power of two (Triangulate). polygonPerimeter is taken in real arithmetic."
  },
  {
   "property": "C117",
   "status": "proved",
   "theorems": [
    "Verif.Props.C117_crossings",
    "Verif.Props.C117_monotone",
    "Verif.Props.C117_count"
   ],
   "note": "Exact real arithmetic. Knots with any multiplicity; the last span of the domain must not be empty."
  },
  {
   "property": "C118",
   "status": "proved",
   "theorems": [
    "Verif.Props.C118_convex",
    "Verif.Props.C118_screw",
    "Verif.Props.C118_screw_left"
   ],
   "note": "Exact real arithmetic. Right turns about a direction are left turns about the opposite one; left-handed screws in C118_screw_left; no condition on the multiplicity of the knots."
  },
  {
   "property": "C119",
   "status": "proved",
   "theorems": [
    "Verif.Props.C119_plain",
    "Verif.Props.C119_members",
    "Verif.Props.C119_whole",
    "Verif.Props.C119_boundary",
    "Verif.Props.C119_margin",
    "Verif.Props.C119_bowyer_plain",
    "Verif.Props.C119_bowyer_indices",
    "Verif.Props.C119_bowyer_margin",
    "Verif.Props.C119_bowyer_whole",
    "Verif.Props.C119_differs"
   ],
   "note": "C119_plain and C119_bowyer_plain tie the functions to the models of the code. C119_differs shows a case where fusing changes the polygon."
  },
  {
   "property": "C120",
   "status": "proved",
   "theorems": [
    "Verif.Props.C120_basis_plain",
    "Verif.Props.C120_plain",
    "Verif.Props.C120_piece",
    "Verif.Props.C120_basis",
    "Verif.Props.C120_curve",
    "Verif.Props.C120_machines",
    "Verif.Props.C120_differs"
   ],
   "note": "C120_plain and C120_basis_plain tie the formulas to the models of the code for every call. C120_differs shows a segment where fusing changes the point."
  },
  {
   "property": "C121",
   "status": "proved",
   "theorems": [
    "Verif.Props.C121_plain",
    "Verif.Props.C121_fused",
    "Verif.Props.C121_exists",
    "Verif.Props.C121_halfspace",
    "Verif.Props.C121_ends",
    "Verif.Props.C121_moved",
    "Verif.Props.C121_local",
    "Verif.Props.C121_speed"
   ],
   "note": "The exact forms of the hull property and of the interpolation at the ends are refuted at float64 in C80."
  },
  {
   "property": "C122",
   "status": "proved",
   "theorems": [
    "Verif.Props.C122_eval",
    "Verif.Props.C122_fuse",
    "Verif.Props.C122_sphere",
    "Verif.Props.C122_torus",
    "Verif.Props.C122_ellipse",
    "Verif.Props.C122_circle",
    "Verif.Props.C122_plain_sphere",
    "Verif.Props.C122_plain_torus",
    "Verif.Props.C122_plain_ellipse",
    "Verif.Props.C122_sphere_distance",
    "Verif.Props.C122_differs"
   ],
   "note": "The accuracy of math.Cos and math.Sin is a hypothesis, as in C92."
  },
  {
   "property": "C123",
   "status": "proved",
   "theorems": [
    "Verif.Props.C123_sphere",
    "Verif.Props.C123_sphere_plain",
    "Verif.Props.C123_torus",
    "Verif.Props.C123_torus_plain",
    "Verif.Props.C123_sphere_4096"
   ],
   "note": "The accuracy of math.Cos and math.Sin is a hypothesis, as in C92."
  },
  {
   "property": "C124",
   "status": "proved",
   "theorems": [
    "Verif.Props.C124_norm",
    "Verif.Props.C124_normalize",
    "Verif.Props.C124_unit",
    "Verif.Props.C124_distance",
    "Verif.Props.C124_plain_norm",
    "Verif.Props.C124_intersect",
    "Verif.Props.C124_plain",
    "Verif.Props.C124_parallel_refuted"
   ],
   "note": "Extends C81 and C85 to every choice of fusing."
  },
  {
   "property": "C125",
   "status": "proved",
   "theorems": [
    "Verif.Props.C125_nearest",
    "Verif.Props.C125_plain",
    "Verif.Props.C125_empty"
   ],
   "note": "Extends C97_nearest_true to every choice of fusing."
  },
  {
   "property": "C126",
   "status": "proved",
   "theorems": [
    "Verif.Props.C126_side",
    "Verif.Props.C126_side_grid",
    "Verif.Props.C126_tetrahedron",
    "Verif.Props.C126_tetrahedron_grid",
    "Verif.Props.C126_plain"
   ],
   "note": "Extends C82_tetrahedron and C82_tetrahedron_grid to every choice of fusing."
  }
 ]
}