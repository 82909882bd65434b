{"id": "C01", "title": "Vector arithmetic laws, in-place = value form", "statement": "The in-place vector operations (Scale, Add, Sub, Abs methods) leave the receiver equal to what the corresponding value-returning functions return, Sub undoes Add, and addition / dot product are commutative also under IEEE-754 binary64 rounding.", "quantifier": "every pair of vectors, every scalar; for the commutativity part every pair of float64 vectors including NaN, infinities and signed zeros", "why_tests_cant": "The input space is infinite (all coordinate triples); a unit test samples a handful of literals. Bit-level float laws must hold for 2^384 inputs.", "anchors": ["r3/vector.go: Scale, Scaled, Add, Sub, Abs, Dot"]}
{"id": "C02", "title": "Cross product geometry", "statement": "Cross(a,b) is orthogonal to both operands, changes sign when the operands are swapped (bit-exactly in float64 up to the sign of zeros), its squared length is |a|^2|b|^2-(a.b)^2, and it vanishes exactly on linearly dependent pairs.", "quantifier": "every pair of vectors", "why_tests_cant": "The input space is infinite (all coordinate triples); a unit test samples a handful of literals.", "anchors": ["r3/vector.go: Cross, Dot, Norm2"]}
{"id": "C03", "title": "Distance is a metric", "statement": "Distance/SquaredDistance are symmetric (bit-exactly in float64), never negative, zero exactly when the points coincide, SquaredDistance is the square of Distance, and Distance obeys the triangle inequality.", "quantifier": "every pair/triple of points", "why_tests_cant": "The input space is infinite (all coordinate triples); a unit test samples a handful of literals.", "anchors": ["r3/vector.go: Distance, SquaredDistance, Norm, Norm2, Magnitude, SquaredMagnitude"]}
{"id": "C04", "title": "Normalize returns the unit vector, in both forms", "statement": "Normalize(v) has length one and the same direction as v when v is not zero and is the zero vector when v is zero; the in-place method v.Normalize() leaves v equal to Normalize(v).", "quantifier": "every vector (zero included), in exact arithmetic and in float64", "why_tests_cant": "The input space is infinite (all coordinate triples); a unit test samples a handful of literals. The zero vector is one point that tests skip.", "anchors": ["r3/vector.go: Normalize (both forms), Norm2, Scaled, Scale"]}
{"id": "C05", "title": "Line/plane intersection", "statement": "IntersectPlane returns a point that lies on the plane and on the line, and it is the only such point; it panics exactly when the direction is zero or perpendicular to the plane normal.", "quantifier": "every line and every plane", "why_tests_cant": "The input space is infinite (all coordinate triples); a unit test samples a handful of literals.", "anchors": ["r3/line.go: Line.IntersectPlane"]}
{"id": "C06", "title": "Planes: normal, offset, point distance", "statement": "newPlane(n,o) gives a plane whose equation n.x+Distance=0 holds exactly for the points x with (x-o) perpendicular to n; calculateNormal(a,b,c) is perpendicular to the edges; CalculateDistanceToPlane is the signed distance n.v+Distance of the point to the plane.", "quantifier": "every plane, point and triangle", "why_tests_cant": "The input space is infinite (all coordinate triples); a unit test samples a handful of literals.", "anchors": ["r3/plane.go: newPlane, Plane.calculateNormal", "r3/vector.go: Vector.CalculateDistanceToPlane"]}
{"id": "C07", "title": "Interpolation", "statement": "Interpolate(a,b,0)=a, Interpolate(a,b,1)=b, every t in [0,1] gives a point of the segment ab at parameter t, and v.GetInterpolationVector(b,d) = Interpolate(b,v,d).", "quantifier": "every pair of points and every parameter t", "why_tests_cant": "The input space is infinite (all coordinate triples); a unit test samples a handful of literals.", "anchors": ["r3/vector.go: Interpolate, GetInterpolationVector"]}
{"id": "C08", "title": "IsUnit tolerance", "statement": "IsUnit(v) is true exactly when the squared length differs from one by at most 5e-14; in particular Normalize(v).IsUnit() for every nonzero v.", "quantifier": "every vector", "why_tests_cant": "The input space is infinite (all coordinate triples); a unit test samples a handful of literals.", "anchors": ["r3/vector.go: IsUnit, Norm2, Normalize"]}
{"id": "C09", "title": "orient3d is the orientation determinant", "statement": "orient3dfast(a,b,c,d) is the 3x3 determinant of (a-d,b-d,c-d): zero exactly for coplanar quadruples, sign flips under swapping two points, unchanged by translation.", "quantifier": "every quadruple of points", "why_tests_cant": "The input space is infinite (all coordinate triples); a unit test samples a handful of literals.", "anchors": ["predicates/orient3d.go: orient3dfast"]}
{"id": "C10", "title": "InSphereFast decides the circumsphere", "statement": "For a non-degenerate tetrahedron, InSphereFast(a,b,c,d,e) multiplied by the orientation orient3dfast(a,b,c,d) is negative exactly when e is strictly inside the circumsphere, zero exactly on it and positive exactly outside (so the test >= 0 means 'inside or on' only for tetrahedra of negative orientation).", "quantifier": "every tetrahedron and every query point", "why_tests_cant": "The input space is infinite (all coordinate triples); a unit test samples a handful of literals.", "anchors": ["predicates/insphere.go: InSphereFast"]}
{"id": "C11", "title": "The filtered in-sphere test never contradicts the determinant", "statement": "inSphere returns either the determinant (when it exceeds its error bound) or zero, and a nonzero answer always has the sign of the exact determinant; for float64 inputs without overflow/underflow the sign is that of the true real determinant.", "quantifier": "every 15 coordinates", "why_tests_cant": "The input space is infinite (all coordinate triples); a unit test samples a handful of literals. The rounding-error bound has to hold for every rounding outcome.", "anchors": ["predicates/insphere.go: inSphere, inSphereAdapt, isperrboundA", "predicates/util.go: epsilon"]}
{"id": "C12", "title": "inCircle decides the circumcircle", "statement": "For a triangle a,b,c with area(a,b,c)>0 (the orientation the triangulator maintains), inCircle(a,b,c,p) is true exactly when p is strictly inside the circumscribed circle; for the opposite orientation exactly when it is strictly outside.", "quantifier": "every triangle and every query point", "why_tests_cant": "The input space is infinite (all coordinate triples); a unit test samples a handful of literals.", "anchors": ["triangulate2/util.go: inCircle, area"]}
{"id": "C13", "title": "Circumcenter and circumradius", "statement": "circumcenter(a,b,c) is equidistant from the three points, circumradius(a,b,c) is the squared common distance, and circumradius is +infinity exactly when the three points are collinear or two coincide.", "quantifier": "every triple of points", "why_tests_cant": "The input space is infinite (all coordinate triples); a unit test samples a handful of literals.", "anchors": ["triangulate2/util.go: circumcenter, circumradius"]}
{"id": "C14", "title": "pseudoAngle is a monotone angle in [0,1) and hash keys are in range", "statement": "pseudoAngle(dx,dy) lies in [0,1) for every nonzero direction, depends only on the direction and increases strictly with the polar angle, so every hash bucket index is a valid index of the edge hash table.", "quantifier": "every nonzero direction; every table size", "why_tests_cant": "The input space is infinite (all coordinate triples); a unit test samples a handful of literals.", "anchors": ["triangulate2/util.go: pseudoAngle", "triangulate2/triangulator.go: hashKey, hashEdge"]}
{"id": "C15", "title": "polygonArea / polygonPerimeter", "statement": "polygonArea is the signed shoelace area (invariant under rotation of the vertex list and under translation, negated by reversal), polygonPerimeter is the sum of the edge lengths of the closed polygon and is invariant under rotation and reversal.", "quantifier": "every vertex list of every length", "why_tests_cant": "Polygons of every length; tests fix one.", "anchors": ["triangulate2/util.go: polygonArea, polygonPerimeter"]}
{"id": "C16", "title": "ConvexHull encloses every input point", "statement": "Every input point lies on or to the left of every directed edge of the polygon returned by ConvexHull (so the polygon is convex and encloses the input).", "quantifier": "every finite list of points whose distinct members differ in (x, y) and are not within the duplicate tolerance of each other", "why_tests_cant": "All point lists of all lengths, including collinear and duplicated points.", "anchors": ["triangulate2/hull.go: ConvexHull, cross2D"]}
{"id": "C17", "title": "ConvexHull vertices are input points; the caller's slice is not modified; input order is irrelevant", "statement": "Every returned vertex is one of the inputs, the input slice is left unchanged, and any permutation of the input gives the same result (for points with distinct x,y).", "quantifier": "every list of points and every permutation of it", "why_tests_cant": "All permutations of all lists.", "anchors": ["triangulate2/hull.go: ConvexHull"]}
{"id": "C18", "title": "Near-duplicate filtering keeps a representative close to every point", "statement": "After duplicate filtering every input point has a kept point within the tolerance (squared distance < 2^-52).", "quantifier": "every list of points", "why_tests_cant": "Chains of near-duplicates of any length.", "anchors": ["triangulate2/hull.go: ConvexHull (filter loop)", "triangulate2/util.go: eps"]}
{"id": "C19", "title": "Halfedges is an involution", "statement": "In the result of Triangulate, every half-edge either is a boundary (-1) or points to a half-edge that points back, and no half-edge points to itself - whatever the rounding errors in the geometric predicates were.", "quantifier": "every input and every outcome of the geometric predicates (arbitrary oracles)", "why_tests_cant": "Quantifies over all predicate outcomes, i.e. all rounding-error patterns.", "anchors": ["triangulate2/triangulator.go: triangulate, addTriangle, link, legalize", "triangulate2/triangulation.go: Validate"]}
{"id": "C20", "title": "Triangles and twin half-edges are consistent", "statement": "Every entry of Triangles is a valid index into the input, len(Triangles)=len(Halfedges) is a multiple of 3, and twin half-edges join the same two vertices in opposite directions.", "quantifier": "every input and every outcome of the geometric predicates", "why_tests_cant": "Same as above.", "anchors": ["triangulate2/triangulator.go: triangulate, addTriangle, legalize"]}
{"id": "C21", "title": "Triangle areas sum to the hull area", "statement": "The sum of the signed triangle areas of the result equals the signed area of the returned hull polygon (the check Validate performs), at every step of the construction.", "quantifier": "every input, exact arithmetic, every outcome of the flip decisions", "why_tests_cant": "Every history of insertions and flips.", "anchors": ["triangulate2/triangulator.go: triangulate, legalize, convexHull", "triangulate2/triangulation.go: Triangulation.area, Validate", "triangulate2/util.go: polygonArea, area"]}
{"id": "C22", "title": "Triangle count and buffer bound", "statement": "With V inserted points and H hull vertices the result has 2V-2-H triangles; as long as the hull keeps at least three vertices the preallocated 2n-5 triangle buffer never overflows.", "quantifier": "every input and every outcome of the geometric predicates", "why_tests_cant": "Every history of insertions.", "anchors": ["triangulate2/triangulator.go: triangulate, addTriangle"]}
{"id": "C23", "title": "Degenerate inputs of Triangulate", "statement": "Triangulate of no points returns an empty result without error; inputs with two or more points that are all collinear or coincident return the error `No Delaunay triangulation exists`; no input makes it panic.", "quantifier": "every point list with no non-degenerate triangle", "why_tests_cant": "All sizes and all collinear configurations.", "anchors": ["triangulate2/triangulator.go: triangulate (prologue)", "triangulate2/triangulation.go: Triangulate"]}
{"id": "C24", "title": "Flips preserve the covered area, orientation and end locally Delaunay", "statement": "A flip performed by the triangulator replaces two positively oriented triangles with two positively oriented triangles covering the same quadrilateral, and the new diagonal satisfies the empty-circle condition.", "quantifier": "every pair of adjacent triangles, exact arithmetic", "why_tests_cant": "The input space is infinite (all coordinate triples); a unit test samples a handful of literals.", "anchors": ["triangulate2/triangulator.go: legalize", "triangulate2/util.go: inCircle, area"]}
{"id": "C25", "title": "Hull ring integrity", "statement": "The advancing hull is always a single circular doubly linked list of distinct input indices (next/prev inverse of each other); the hull returned by Triangulate lists distinct input points.", "quantifier": "every input and every outcome of the geometric predicates", "why_tests_cant": "Every history of insertions and removals.", "anchors": ["triangulate2/node.go: newNode, remove", "triangulate2/triangulator.go: triangulate, convexHull"]}
{"id": "C26", "title": "Validate accepts exactly consistent triangulations", "statement": "Validate returns nil exactly when the half-edge table is an involution and the hull areas/perimeters agree within 1e-9, and never panics on an in-range table.", "quantifier": "every Triangulation value", "why_tests_cant": "All tables of all sizes.", "anchors": ["triangulate2/triangulation.go: Validate, area"]}
{"id": "C27", "title": "VectorInTetrahedron is barycentric membership", "statement": "For a non-degenerate tetrahedron VectorInTetrahedron(v1..v4,p) is true exactly when p is a convex combination of the vertices; vertices and centroid are inside; the answer is invariant under relabelling the vertices.", "quantifier": "every tetrahedron and every point", "why_tests_cant": "The input space is infinite (all coordinate triples); a unit test samples a handful of literals.", "anchors": ["triangulate3/util.go: SameSide, VectorInTetrahedron, findCentroid", "meshing/util.go: sameSide, vectorInTetrahedron, findCentroid"]}
{"id": "C28", "title": "Bounding boxes bound and are tight", "statement": "The two corners returned for a point list satisfy min<=p<=max coordinate-wise for every listed point, also in float64 for every non-NaN input, and are attained by listed points whenever the list is nonempty and within the sentinel range.", "quantifier": "every list of points of every length", "why_tests_cant": "All list lengths and orders.", "anchors": ["triangulate3/englober.go: computeBoundingBoxForVectors", "meshing/helper.go: findExtremas"]}
{"id": "C29", "title": "constructEnglobingTetra encloses the points", "statement": "The returned tetrahedron contains every input point and the call does not panic.", "quantifier": "every nonempty list of points", "why_tests_cant": "The input space is infinite (all coordinate triples); a unit test samples a handful of literals.", "anchors": ["triangulate3/englober.go: constructEnglobingTetra, getTopVectorOfTetrahedron"]}
{"id": "C30", "title": "createInitialTetra picks extreme input points", "statement": "The four returned vertices are input points; the first two have minimal and maximal x, the third maximises the distance to the line through them, the fourth maximises the distance to the plane of the first three.", "quantifier": "every list of points", "why_tests_cant": "All lists and orders.", "anchors": ["triangulate3/gdel3d.go: createInitialTetra, getFurthestFromTwoVectors, getFurthestFromthreeVectors, computeExtremitiesForAxeX"]}
{"id": "C31", "title": "Get2Ddist / Get3Ddist measure collinearity and coplanarity", "statement": "Get2Ddist(a,b,c) is |(b-a)x(c-a)|^2 (zero exactly for collinear points); Get3Ddist(a,b,c,d) is the signed sextuple volume (zero exactly for coplanar points, sign flips when two points are swapped).", "quantifier": "every triple / quadruple of points", "why_tests_cant": "The input space is infinite (all coordinate triples); a unit test samples a handful of literals.", "anchors": ["triangulate3/util.go: Get2Ddist, Get3Ddist"]}
{"id": "C32", "title": "Face hash identifies faces", "statement": "Two faces have the same hash exactly when they have the same three vertices in any order.", "quantifier": "every pair of faces with arbitrary integer indices", "why_tests_cant": "All integers of all digit counts; collisions like 1.23 vs 12.3.", "anchors": ["meshing/mesh.go: face.hash"]}
{"id": "C33", "title": "Tetra hash identifies tetrahedra", "statement": "Two tetrahedra have the same hash exactly when their vertex tuples are equal, so adding one never overwrites a different one.", "quantifier": "every pair of tetrahedra with arbitrary integer indices", "why_tests_cant": "All integers of all digit counts.", "anchors": ["meshing/mesh.go: tetraHash, addTetra"]}
{"id": "C34", "title": "englobe encloses every point", "statement": "The super-tetrahedron built by englobe contains every input point, its four vertices are prepended to the point list, and the original points keep their order (shifted by four).", "quantifier": "every list of points", "why_tests_cant": "The input space is infinite (all coordinate triples); a unit test samples a handful of literals.", "anchors": ["meshing/mesh.go: englobe", "meshing/helper.go: findExtremas, computerInitialTetraPoints"]}
{"id": "C35", "title": "Bowyer-Watson result does not depend on map iteration order", "statement": "For every order in which Go iterates its maps, bowyerWatson ends with the same set of tetrahedra, and the returned index list is the same up to the order of the tetrahedra.", "quantifier": "every point list and every iteration order at every step (schedules)", "why_tests_cant": "Go randomises map order; a test run sees one schedule.", "anchors": ["meshing/mesh.go: bowyerWatson"]}
{"id": "C36", "title": "Bowyer-Watson output indices are valid", "statement": "The returned list has a length divisible by three, every entry is a valid index of the caller's points, each returned triangle has three distinct vertices and no vertex of the super-tetrahedron occurs.", "quantifier": "every point list, every schedule and every predicate outcome", "why_tests_cant": "All histories.", "anchors": ["meshing/mesh.go: bowyerWatson, isPartOfMesh, addFace, connect"]}
{"id": "C37", "title": "Bowyer-Watson produces a Delaunay tetrahedrisation", "statement": "Every returned tetrahedron has an empty circumsphere and every inserted point is a vertex of some tetrahedron.", "quantifier": "every point list", "why_tests_cant": "The input space is infinite (all coordinate triples); a unit test samples a handful of literals.", "anchors": ["meshing/mesh.go: bowyerWatson", "predicates/insphere.go: InSphereFast"]}
{"id": "C38", "title": "flip14 splits one tetrahedron into four", "statement": "After inserting p, the four index quadruples describe tetrahedra whose signed volumes add up to the volume of the original, all containing p; indices are valid for the vertex list.", "quantifier": "every tetrahedron and every inserted point", "why_tests_cant": "The input space is infinite (all coordinate triples); a unit test samples a handful of literals.", "anchors": ["meshing/flip.go: flip14"]}
{"id": "C39", "title": "duplicateInReverse appends every triangle with opposite winding", "statement": "The index list is followed by its own reversal, so each triangle also occurs with reversed winding.", "quantifier": "every index list", "why_tests_cant": "All lengths.", "anchors": ["meshing/util.go: duplicateInReverse"]}
{"id": "C40", "title": "getNearestPoint returns a nearest vertex", "statement": "The result is one of the vertices and no vertex is strictly closer to the query point; the last one wins among ties.", "quantifier": "every nonempty vertex list and every query point", "why_tests_cant": "All lists and orders.", "anchors": ["meshing/helper.go: getNearestPoint", "meshing/mesh.go: getNearestPointToCentroid"]}
{"id": "C41", "title": "findSpan finds the knot span", "statement": "For a nondecreasing knot vector and u in the closed domain [U[p],U[n+1]], findSpan terminates, stays within the slice and returns an index k with p<=k<=n and U[k]<=u<U[k+1] (k=n when u is the upper end).", "quantifier": "every knot vector, degree and parameter in the domain", "why_tests_cant": "All sizes; binary search termination is not testable.", "anchors": ["nurbs/basis.go: findSpan"]}
{"id": "C42", "title": "findSpan terminates on every parameter", "statement": "findSpan returns for every float parameter.", "quantifier": "every parameter outside the domain", "why_tests_cant": "Non-termination cannot be observed by a test.", "anchors": ["nurbs/basis.go: findSpan"]}
{"id": "C43", "title": "basisFuns computes the B-spline basis", "statement": "In a non-empty span, basisFuns returns p+1 values equal to the Cox-de Boor basis functions N_{i-p,p}(u)..N_{i,p}(u), with no division by zero.", "quantifier": "every degree, knot vector, nonempty span and parameter", "why_tests_cant": "All degrees; equality of two recursions needs induction.", "anchors": ["nurbs/basis.go: basisFuns"]}
{"id": "C44", "title": "Partition of unity and positivity", "statement": "The basis values are nonnegative and sum to one.", "quantifier": "every degree, knot vector, nonempty span and parameter in it", "why_tests_cant": "Same.", "anchors": ["nurbs/basis.go: basisFuns"]}
{"id": "C45", "title": "curvePoint: convex hull, affine invariance and locality", "statement": "curvePoint is a convex combination of the control points P[k-p..k] of the span, commutes with affine maps and does not depend on other control points; at knots of full multiplicity it interpolates.", "quantifier": "every degree, knot vector, control polygon and parameter in the domain", "why_tests_cant": "Same.", "anchors": ["nurbs/curve.go: curvePoint"]}
{"id": "C46", "title": "dersBasisFuns row zero is the basis and row k the k-th derivative", "statement": "Row 0 of the result equals basisFuns and row 1 the first derivative of the basis functions.", "quantifier": "every degree, span and integer parameter", "why_tests_cant": "Same.", "anchors": ["nurbs/basis.go: dersBasisFuns"]}
{"id": "C47", "title": "Sphere and torus vertices lie on the surface around the given center", "statement": "Every vertex of ConstructSphere(c,r) has distance r to c; every vertex of ConstructTorus(c,R,r) satisfies the torus equation around c.", "quantifier": "every center and radius, every sector/stack count", "why_tests_cant": "All parameters.", "anchors": ["shape/sphere.go: generateVertices", "shape/torus.go: generateVertices", "shape/shape.go: ConstructSphere, ConstructTorus"]}
{"id": "C48", "title": "Sphere and torus index lists are valid", "statement": "All indices are smaller than the number of vertices, come in triples, and the vertex/normal/texcoord lists have equal length stackCount*(sectorCount+1).", "quantifier": "every sector and stack count (uint32 arithmetic included)", "why_tests_cant": "All counts, including the ones where uint32 wraps.", "anchors": ["shape/sphere.go: generateIndices", "shape/torus.go: generateIndices"]}
{"id": "C49", "title": "Circle and ellipse index lists are valid", "statement": "All indices of ConstructCircle / ConstructEllipse are smaller than the number of vertices.", "quantifier": "every sector count", "why_tests_cant": "All counts.", "anchors": ["shape/circle.go: generateIndices", "shape/ellipse.go: generateIndices"]}
{"id": "C50", "title": "Circle and ellipse vertices lie on the curve", "statement": "The first vertex is the center, every other vertex satisfies the circle/ellipse equation around the center in the plane z=center.Z.", "quantifier": "every center, radii and sector count", "why_tests_cant": "All parameters.", "anchors": ["shape/circle.go: generateVertices", "shape/ellipse.go: generateVertices"]}
{"id": "C51", "title": "Normals and texture coordinates", "statement": "Sphere normals have unit length and are parallel to the vertex; torus normals have unit length; texture coordinates run over [0,1] proportionally to the sector/stack number.", "quantifier": "every radius and count", "why_tests_cant": "All parameters.", "anchors": ["shape/sphere.go: generateVertices", "shape/torus.go: generateVertices"]}
{"id": "C52", "title": "Sphere mesh topology", "statement": "Each triangle of a sphere/torus mesh has three distinct indices, neighbouring quads share edges in opposite directions, and the mesh is closed.", "quantifier": "every sector and stack count", "why_tests_cant": "All counts.", "anchors": ["shape/sphere.go: generateIndices", "shape/torus.go: generateIndices"]}
{"id": "C53", "title": "glTF transfer preserves the mesh", "statement": "transferModel keeps vertex order and count and the index list, Export writes exactly one white colour per vertex.", "quantifier": "every mesh", "why_tests_cant": "All meshes.", "anchors": ["glTF/model.go: transferModel", "glTF/export.go: Export"]}
{"id": "C54", "title": "Argument splitting round-trips", "statement": "For any list of arguments with balanced brackets and no top-level comma, splitting `a1,a2,...,an);` returns exactly a1..an; and joining the result of any successful ASCII split gives back the text.", "quantifier": "every argument list", "why_tests_cant": "All nesting depths and lengths.", "anchors": ["step/util.go: getArguments"]}
{"id": "C55", "title": "Array and matrix splitting round-trips", "statement": "getArray of `(e1,...,en)` returns e1..en for bracket-balanced elements without top-level commas, getMatrix likewise for rows; too-short texts panic.", "quantifier": "every element list / matrix", "why_tests_cant": "All nesting depths and lengths.", "anchors": ["step/util.go: getArray, getMatrix"]}
{"id": "C56", "title": "Non-ASCII text is not corrupted", "statement": "The last argument of a definition is returned without its closing `);` whatever characters it contains.", "quantifier": "every argument text in UTF-8", "why_tests_cant": "All code points.", "anchors": ["step/util.go: getArguments"]}
{"id": "C57", "title": "Quoted strings are opaque", "statement": "Commas and brackets inside a quoted STEP string do not affect the split.", "quantifier": "every quoted string", "why_tests_cant": "All string contents.", "anchors": ["step/util.go: getArguments"]}
{"id": "C58", "title": "tokenize / stripWhiteSpaces", "statement": "tokenize of TYPE(args); yields the type with all white space removed and the split arguments; stripWhiteSpaces removes exactly the white-space characters, keeps the order of the rest and is idempotent; text without a bracket panics.", "quantifier": "every text", "why_tests_cant": "All texts.", "anchors": ["step/lex.go: tokenize", "step/util.go: stripWhiteSpaces"]}
{"id": "C59", "title": "Lex builds the symbol table of the file", "statement": "For a file whose definitions each start on a line with `=` and may continue on further lines without `=`, Lex returns the map from identifier to tokenized definition, the last definition of an identifier winning; blank lines are ignored.", "quantifier": "every file (every list of definitions and every way of breaking them into lines)", "why_tests_cant": "All files and line breakings.", "anchors": ["step/lex.go: Lexer.Lex, SymbolTable.add"]}
{"id": "C60", "title": "Lex accepts every ISO-10303-21 file", "statement": "Lex does not panic on files with a header section, and on the empty file returns an empty table.", "quantifier": "every file", "why_tests_cant": "All files.", "anchors": ["step/lex.go: Lexer.Lex, SymbolTable.add"]}
{"id": "C61", "title": "Long lines are read whole", "statement": "The symbol table does not depend on where the 4096-byte reader buffer splits a line.", "quantifier": "every line length and content", "why_tests_cant": "Boundaries at every multiple of 4096.", "anchors": ["step/lex.go: Lexer.Lex (ReadLine, isPrefix ignored)"]}
{"id": "C62", "title": "Parse terminates and runs a handler exactly once per key", "statement": "Parse terminates on every symbol table (cyclic references included), runs at most one handler per key, and when it does not panic every key of the table has been handled.", "quantifier": "every symbol table and every map iteration order", "why_tests_cant": "Cycles of every length, all orders.", "anchors": ["step/parse.go: Parse, runInferenceModel", "step/template.go: all handlers"]}
{"id": "C63", "title": "Parse outcome does not depend on map iteration order", "statement": "The set of handler runs and whether Parse panics is the same for every iteration order of the symbol table.", "quantifier": "every symbol table and every pair of iteration orders", "why_tests_cant": "A test sees one random order.", "anchors": ["step/parse.go: Parse, runInferenceModel", "step/bridge.go: bridge"]}
{"id": "C64", "title": "Parse does not panic on well-formed tables", "statement": "If every definition has the arguments its handler reads and all references resolve to definitions of the right shape, no order of processing makes Parse panic.", "quantifier": "every well-formed table and order", "why_tests_cant": "All tables and orders.", "anchors": ["step/template.go: handlers", "step/parse.go: Parse"]}
{"id": "C65", "title": "Entity dispatch", "statement": "Each entity type is dispatched to its own handler and unknown types are skipped without effect; real STEP entity names such as ADVANCED_FACE and AXIS2_PLACEMENT_3D reach their handlers.", "quantifier": "every type name", "why_tests_cant": "All strings.", "anchors": ["step/bridge.go: bridge"]}
{"id": "C66", "title": "getLogical", "statement": "getLogical is true exactly for `.T.`.", "quantifier": "every text", "why_tests_cant": "All strings.", "anchors": ["step/util.go: getLogical"]}
{"id": "C67", "title": "The triangulation hull is convex and encloses every vertex", "statement": "In exact arithmetic, the ConvexHull of a triangulation goes round clockwise with every vertex of the triangulation on or to the inner side of every hull edge, and no two vertices of the triangulation coincide.", "quantifier": "every planar input of two or more points, exact arithmetic, every id order", "why_tests_cant": "All point sets of all sizes; a float test cannot separate a wrong hull from rounding.", "anchors": ["triangulate2/triangulator.go: triangulate", "triangulate2/hull.go"]}
{"id": "C68", "title": "The triangulation is Delaunay", "statement": "In exact arithmetic every triangle of the result is clockwise, has three distinct corners, and no vertex of the triangulation lies strictly inside its circumcircle (about the circumcentre, by distances).", "quantifier": "every planar input of two or more points, exact arithmetic, every id order", "why_tests_cant": "The condition is global and quantifies over all inputs; tests only sample.", "anchors": ["triangulate2/triangulator.go: triangulate, legalize, addTriangle"]}
{"id": "C69", "title": "No point is lost", "statement": "When the ids are sorted by distance as the code asks, every input point is a vertex of the triangulation or is within the near-duplicate tolerance (squared distance below 2^-52) of one; if all input points are further apart than that, every point is a vertex and there are 2n-2-h triangles.", "quantifier": "every planar input, exact arithmetic", "why_tests_cant": "Coverage depends on the hash walk and on the sort for every input.", "anchors": ["triangulate2/triangulator.go: triangulate"]}
{"id": "C70", "title": "Triangles fill the hull and do not overlap", "statement": "Every point of the plane inside the hull lies in a triangle of the result, and no point is strictly inside two triangles.", "quantifier": "every planar input of two or more points, every real point of the plane, exact arithmetic", "why_tests_cant": "Quantifies over a continuum of points and all inputs.", "anchors": ["triangulate2/triangulator.go: triangulate"]}
{"id": "C71", "title": "Validate does not panic on results of Triangulate", "statement": "Whenever Triangulate returns a triangulation, for whatever float64 coordinates (NaN and infinities included), Validate of it returns normally, and it returns nil only if the half-edges are an involution.", "quantifier": "every float64 input, every sort that permutes", "why_tests_cant": "Index panics on adversarial float inputs cannot be excluded by sampling.", "anchors": ["triangulate2/triangulation.go: Validate, area", "triangulate2/triangulator.go: triangulate"]}
{"id": "C72", "title": "The hull of Triangulate is the ConvexHull of the points, and Validate accepts the result", "statement": "For points of one plane Z that are pairwise farther apart than the code's eps in X or Y and not all on one line, the hull reported by Triangulate is, up to where the cycle starts, the list of ConvexHull of the same points, and Validate of the triangulation returns nil.", "quantifier": "every ordered-field (reals for Validate) input with distinct, planar, not collinear points; every sort meeting its contract", "why_tests_cant": "Two independent algorithms have to agree on every configuration, including boundary points in the middle of hull sides; samples miss the collinear ones.", "anchors": ["triangulate2/triangulator.go: triangulate, convexHull", "triangulate2/hull.go: ConvexHull", "triangulate2/triangulation.go: Validate"]}
{"id": "C73", "title": "ConvexHull passes through every boundary point exactly once and is the only such polygon", "statement": "For points pairwise farther apart than eps in X or Y and not all on one line the list of ConvexHull is a closed polygon with no repeated point whose every side has all points on its left or on the side itself with none strictly between its ends; it contains every point on the boundary; and any other polygon with these properties is a rotation of it.", "quantifier": "every finite list of points over any ordered field", "why_tests_cant": "Uniqueness is a statement about all polygons, and the boundary condition about every configuration.", "anchors": ["triangulate2/hull.go: ConvexHull"]}
{"id": "C74", "title": "The float64 triangulator is right on small integer coordinates", "statement": "For two or more points whose X and Y are integers of size at most 64 and whose Z is zero, Triangulate computed in float64 does not panic, returns its error exactly when the points lie on one line, and otherwise returns a consistent half-edge table of a Delaunay triangulation whose triangles fill the hull without overlap, whose vertices include every input position and whose hull is that of ConvexHull; Validate, computed in float64, returns nil for it.", "quantifier": "every list of such float64 points of any length, every sort meeting its contract, every hash size below 2^53", "why_tests_cant": "All point sets of all lengths; rounding of the circumcentre, the radii, the distances and the hash keys has to be bounded for every one of them.", "anchors": ["triangulate2/triangulator.go: triangulate", "triangulate2/util.go: circumradius, circumcenter, inCircle, pseudoAngle", "triangulate2/hull.go: ConvexHull"]}
{"id": "C75", "title": "The float64 ConvexHull is right on integer coordinates up to 2^24", "statement": "For points with integer coordinates of size at most 2^24 of which no two differ in z only, the polygon that ConvexHull computes in float64 has every point on or to the left of every side, goes through every boundary point exactly once, and does not depend on the order of the input.", "quantifier": "every list of such float64 points of any length, every sort meeting its contract", "why_tests_cant": "All point sets of all lengths; a single wrong sign of a rounded cross product would break it.", "anchors": ["triangulate2/hull.go: ConvexHull, cross2D"]}
{"id": "C76", "title": "The triangles do not depend on the order of the input", "statement": "If two calls of Triangulate get the same points in any orders and with any repetitions, both return the error or neither does; the hulls agree up to the starting point; and if no circle without points inside passes through four of the points, both return the same triangles, equally many.", "quantifier": "every pair of point lists with the same members, every two sorts meeting their contract and every two hash sizes", "why_tests_cant": "Permutations of all point sets; the insertion order changes every intermediate state of the algorithm.", "anchors": ["triangulate2/triangulator.go: triangulate"]}
{"id": "C77", "title": "The float64 triangulator is right whenever its sign tests are", "statement": "If, on the given finite planar points, the float64 orientation areas and the float64 in-circle tests that the program can make have the signs of the exact values, and the seed triangle it picks is not degenerate and has an exactly empty circle, then Triangulate returns a triangulation: a consistent half-edge table of an exactly Delaunay triangulation that fills the hull without overlap, with vertices at different positions and none outside the hull. If also the computed distances to the centre are in the right order, every input position is a vertex up to the duplicate tolerance, and the hull is the boundary polygon. The rounding of the circumcentre, of the hash keys and of the sort keys does not matter otherwise.", "quantifier": "every list of finite planar float64 points meeting the condition, every order of the ids, every hash size below 2^53", "why_tests_cant": "All float64 point sets of all lengths; a test can only try some of them, and cannot check emptiness of every circle exactly.", "anchors": ["triangulate2/triangulator.go: triangulate, legalize", "triangulate2/util.go: area, inCircle, pseudoAngle"]}
{"id": "C78", "title": "Error bounds of the float64 orientation and in-circle tests", "statement": "For coordinates of size at most M, the float64 area is within 39*2^-53*M^2 of the exact value and the float64 in-circle determinant within 2350*2^-53*M^4. Hence the tests are right for point sets that stay away from lines and circles by these margins, and then the triangles that Triangulate returns in float64 are those it returns in exact arithmetic. They are also right, for any positions, when the coordinates lie on a grid of width 2^e with at most 2048 steps on each side of zero.", "quantifier": "every float64 points with M between 2^-40 and 2^40; every grid width 2^e with e between -250 and 200", "why_tests_cant": "Bounds over all float64 values with rounding at every operation.", "anchors": ["triangulate2/util.go: area, inCircle", "triangulate2/triangulator.go: triangulate"]}
{"id": "C79", "title": "Knot spans and basis functions at float64", "statement": "For knots up to 2^53 in size the float64 knot search returns the exact span of every finite parameter (a NaN is not rejected: the middle index is returned at once). On that span the float64 basis functions are finite, not negative, and within 10*p*2^-53 relatively of the Cox-de Boor values, up to an underflow term below 2^-540; their exact sum is within 10*p*2^-53 + 2^-500 of one.", "quantifier": "every nondecreasing integer knot vector up to 2^53, every finite float64 parameter in range, every degree up to 200", "why_tests_cant": "Bounds over all float64 parameters and all knot vectors with rounding at every operation.", "anchors": ["nurbs/basis.go: findSpan, basisFuns"]}
{"id": "C80", "title": "Error bound of the float64 curve point", "statement": "For finite control points with coordinates up to M and a parameter in range, curvePoint in float64 returns a finite point whose coordinates are within (12*p+4)*2^-53*M of the exact curve point. Exactly, two properties of the exact curve fail: the point can leave the box of the control points, and a clamped curve need not start at its first control point.", "quantifier": "every control polygon, knot vector up to 2^53, finite float64 parameter in range, degree up to 200, M between 2^-400 and 2^190", "why_tests_cant": "Bounds over all float64 inputs with rounding at every operation.", "anchors": ["nurbs/curve.go: curvePoint", "nurbs/basis.go: findSpan, basisFuns"]}
{"id": "C81", "title": "Lengths, distances and normalisation at float64", "statement": "For finite vectors of moderate size (exact squared length between 2^-200 and 2^199) the float64 Norm is within 4*2^-53 of the exact length, relatively; Distance within 5*2^-53; each coordinate of Normalize(v) within 6*2^-53 of the exact coordinate, relatively, up to 2^-1000; the in-place form gives the same bits; and the float64 Normalize(v) always passes the float64 test IsUnit.", "quantifier": "every finite float64 vector or pair of points with exact squared length (distance) in the stated range", "why_tests_cant": "Bounds over all float64 values with rounding at every operation, square root included.", "anchors": ["r3/vector.go: Norm, Norm2, Distance, Normalize (both forms), IsUnit"]}
{"id": "C82", "title": "3-D orientation, in-sphere and point-in-tetrahedron tests at float64", "statement": "For float64 coordinates of size at most M the computed orient3dfast differs from the exact determinant by at most 426*2^-53*M^3 and InSphereFast by at most 40038*2^-53*M^5, so a larger exact value has the right computed sign; VectorInTetrahedron is membership in the exact tetrahedron when no four of the five points are within that error of a plane. On a dyadic grid (integers up to 32768, resp. 256 for the in-sphere test, times a power of two) there is no error at all, so the tests are exact, boundary and degenerate cases included. Outside the grid the test need not accept the vertices of a non-degenerate tetrahedron, as the exact test does: there is a counterexample.", "quantifier": "every 4 or 5 finite float64 points in the stated range", "why_tests_cant": "Error bounds over all float64 inputs; near-coplanar configurations are rare in samples.", "anchors": ["predicates/orient3d.go: orient3dfast", "predicates/insphere.go: InSphereFast", "triangulate3/util.go: SameSide, VectorInTetrahedron", "meshing/util.go: sameSide, vectorInTetrahedron"]}
{"id": "C83", "title": "Bounding boxes and the super-tetrahedron at float64", "statement": "On finite float64 points the loops findExtremas and computeBoundingBoxForVectors give the exact extremes. The super-tetrahedron of englobe contains every point when the coordinates lie on a dyadic grid (integers up to 2^50 times a power of two); for coordinates up to M every point is within 8*2^-53*M of it in each coordinate. It does not contain every point for all float64 inputs, as it does in exact arithmetic: there is a counterexample.", "quantifier": "every nonempty list of finite float64 points in the stated range", "why_tests_cant": "Containment fails by one rounding error for some decimals; a test needs exact arithmetic to see it.", "anchors": ["meshing/helper.go: findExtremas, computerInitialTetraPoints", "meshing/mesh.go: englobe", "triangulate3/englober.go: computeBoundingBoxForVectors"]}
{"id": "C84", "title": "The float64 convex hull is right when its comparisons are", "statement": "If on float64 points the cross-product sign tests, the distance test against eps and the coordinate comparisons of ConvexHull give the exact results, and the exact points are pairwise apart, then its polygon encloses every point, goes exactly once through every boundary point, and does not depend on the order of the input. This holds for coordinates of size at most M when distinct points have squared distance above 2^-52 + 66*2^-53*M^2 and no three are within a cross product of 39*2^-53*M^2 of a line; and for all points with coordinates that are integers up to 2^24 times a common power of two, collinear points included.", "quantifier": "every list of finite float64 points in the stated range, every sort", "why_tests_cant": "Error bounds over all float64 point sets; near-collinear triples are rare in samples.", "anchors": ["triangulate2/hull.go: ConvexHull, cross2D"]}
{"id": "C85", "title": "Line/plane intersection at float64", "statement": "For points up to M, a normal up to N and a direction d of moderate length with N*|d| <= k*|n.d| (k between 1 and 2^20), IntersectPlane in float64 does not panic and every coordinate of its result is within 300*2^-53*k^2*M of the exact intersection point. The parallel test is not reliable: there is a line with small integer coordinates that is exactly parallel to a plane and for which the float64 function returns a point more than 10^15 away instead of panicking.", "quantifier": "every finite float64 line and plane in the stated range", "why_tests_cant": "Error bound over all float64 inputs in terms of the angle; the wrong non-parallel answers come from single roundings.", "anchors": ["r3/line.go: IntersectPlane"]}
{"id": "C86", "title": "Validate at float64", "statement": "For float64 points in the plane for which the sign tests of the triangulator (C77) and the comparisons of the hull (C84) are right and which are pairwise apart, with correct sorts, at most 500000 points, coordinates at most M, n*M^2 <= 29000 and n*M <= 35000, Validate computed in float64 accepts the triangulation computed in float64. The bounds behind it: the computed polygon area is within (n*(8+W)+W+1)*2^-53*M^2 of the exact one if the X coordinate changes by at most W*M along the polygon, and within (2*n^2+10*n+1)*2^-53*M^2 for any polygon; the computed sum of m triangle areas is within (m*(20+B/2)+B/2+1)*2^-53*M^2 if no triangle is counter-clockwise and the total is at most B*M^2/2; the computed perimeter has relative error at most (2*n+5)*2^-53. Some limit on the size is needed: there is one triangle with coordinates of one decimal digit below 1600 whose right triangulation Validate rejects.", "quantifier": "every finite float64 polygon, index list and point set in the stated ranges", "why_tests_cant": "Error bounds over all float64 inputs of any length; whether the fixed tolerance 1e-9 suffices depends on the accumulated rounding of sums.", "anchors": ["triangulate2/triangulation.go: Validate, area", "triangulate2/util.go: polygonArea, polygonPerimeter"]}
{"id": "C87", "title": "Triangulate at float64 on well spread points, from conditions on the exact positions alone", "statement": "For finite float64 points in the plane, at least three, pairwise different, with coordinates at most M (2^-14 <= M <= 2^40), such that every three have doubled area at least M^2/k (k <= 256), no four are nearly on a circle, and the quantities the program orders by (distances between points, radii of circles through a point, its nearest neighbour and a third point, distances from the centre of an empty circle) are either in order or differ by more than k^3*M^2*2^-35: the whole float64 call of Triangulate (seed search, sort, insertion, legalisation, hull) ends with a triangulation with consistent tables that is exactly Delaunay and covers its hull without overlap; with a correct sort it contains all points, has 2n-2-h triangles, the same triangles as the computation with exact numbers, its hull is the polygon of ConvexHull, and Validate accepts it (in the ranges of C84 and C86). Behind it: the computed circumcentre is within 1579*k^2*2^-53*M of the exact one in each coordinate and the computed squared circumradius within 101000*k^3*2^-53*M^2.", "quantifier": "every number of points, all finite float64 coordinates in the stated ranges, every permutation the sort may return", "why_tests_cant": "A statement about all float64 inputs and all rounding errors of a long dependent computation; tests can only sample inputs.", "anchors": ["triangulate2/util.go: circumcenter, circumradius", "triangulate2/triangulator.go", "triangulate2/triangulation.go"]}
{"id": "C88", "title": "No result of the triangulator rests on a division by zero", "statement": "In exact arithmetic, for points in a horizontal plane, Triangulate returns the same result for every division operation that agrees with the exact one when the divisor is not zero: circumradius returns its infinite radius for collinear points whatever the quotients are, the circumcentre is only computed for a triangle that is not flat, and no point is ever the centre of the seed circle, so that the hash key of a point is never computed from 0/0.", "quantifier": "all ordered fields, all planar point lists of any length, all divisions, all sorts, sizes and fuels", "why_tests_cant": "Quantifies over all inputs; whether some input drives the code into 0/0 (NaN in Go, and then an index out of range) cannot be settled by sampling.", "anchors": ["triangulate2/util.go: pseudoAngle, circumradius, circumcenter", "triangulate2/triangulator.go: triangulate, hashKey"]}
{"id": "C89", "title": "The symbol table depends on the bytes of the file only", "statement": "However the operating system cuts the content of the file into pieces, reading it through the buffered reader line by line gives the same symbol table (or the same panic) as lexing the whole content at once; two files with the same bytes give the same result.", "quantifier": "all byte contents, all sizes of the pieces delivered by read, all lengths of lines (also beyond the 4096-byte buffer)", "why_tests_cant": "Tests read small local files, which arrive in one piece; the claim is about every way of cutting every content, including cuts inside a line end at the edge of the buffer.", "anchors": ["step/lex.go: Lex", "step/util.go: check"]}
{"id": "C90", "title": "Lex finishes on every path", "statement": "Lex returns a table or panics on every path: when the file cannot be opened, when it is read to its end, and when reading it fails.", "quantifier": "all files, all contents, all read errors", "why_tests_cant": "A claim of termination over all inputs; an endless loop cannot be observed by a finite test.", "anchors": ["step/lex.go: Lex", "step/util.go: check"]}
{"id": "C91", "title": "The export writes the nearest float32 coordinates", "statement": "Every finite coordinate below 2^128 - 2^103 in absolute value is exported as a float32 number nearest to it, with error at most 2^-24 of max(|x|, 2^-126), exactly when it is a float32 number, and in the same order; from that threshold on infinity is written. A mesh with coordinates at most B is exported with finite positions within 2^-24 B of its vertices and the same indices. Distinct vertices may still be exported to one position: a triangle of area 1/2 is written with two equal corners. Numbers up to 2^-150 become a zero of the same sign, larger ones keep their sign.", "quantifier": "all float64 values, all meshes, all bounds B from 2^-126 to 2^127", "why_tests_cant": "Rounding, subnormal numbers and the overflow threshold concern all 2^64 inputs; the repository's tests look only at a few coordinates.", "anchors": ["glTF/model.go: transferModel", "glTF/export.go: Export"]}
{"id": "C92", "title": "Vertices of the shapes in float64 arithmetic", "statement": "For every implementation of math.Cos and math.Sin with absolute error at most d (up to 2^-20), the vertices and normals computed in float64 are finite and close to the exact ones: sphere vertices within (70u + 3d) r per coordinate, so within (140u + 6d) r of distance r from the origin, normals within 148u + 6d of unit length; torus vertices within (70u + 3d)(R + t); circle and ellipse vertices within (35u + d) of the radius plus u times the centre coordinate, with the z coordinate of the centre exactly (u = 2^-53). The comment that the first and last vertex of a ring have the same position is false in float64: they differ in every ring below the pole.", "quantifier": "all centres and radii of size 2^-80 to 2^80, all sector and stack counts up to 2^52, all implementations of the trigonometric functions within the error", "why_tests_cant": "The bound concerns all radii, all resolutions and all implementations of sine and cosine; a test sees a few rounded coordinates.", "anchors": ["shape/sphere.go: generateVertices", "shape/torus.go: generateVertices", "shape/circle.go: generateVertices", "shape/ellipse.go: generateVertices"]}
{"id": "C93", "title": "Bowyer-Watson in float64 arithmetic", "statement": "For any float64 coordinates, NaN and infinities included, bowyerWatson does not panic, every index of the result is that of an input point, the indices of a triangle differ, and the order in which Go visits its maps changes only the order in which the tetrahedra are listed. When the coordinates are multiples of 2^e by integers of size at most 36 the float64 result equals the result in exact arithmetic. For coordinates of size at most M the same holds, given the computed super-tetrahedron, when the exact in-sphere determinant of each point with any four different earlier entries exceeds 40038 u (8M)^5 (u = 2^-53). Without such hypotheses it is false: for four points with coordinates 0.1, 0.2, 0.3 the float64 run returns no triangle and the exact run on the same coordinates returns some.", "quantifier": "all lists of float64 points and all orders of map iteration; exactness for all grid points with -200 <= e <= 160 and all margins with 2^-30 <= M <= 2^30", "why_tests_cant": "Agreement concerns every tuple of tests along every run and every map order; tests run one order on a few clouds and do not see that rounding can change the result.", "anchors": ["meshing/mesh.go: bowyerWatson", "meshing/mesh.go: englobe", "predicates/insphere.go: InSphereFast"]}
{"id": "C94", "title": "B-spline surfaces from the file to the printed record", "statement": "Take a STEP file of entities with distinct identifiers, written over any number of lines, some of them B_SPLINE_SURFACE_WITH_KNOTS entities with their thirteen arguments (control points as rows of texts, multiplicities and knots as non-empty lists, the last argument ASCII), the others of types whose handlers read no arguments. For every order in which Go walks the symbol table, Lex and Parse end normally and print exactly one record for each surface and nothing else, and each field of the record holds the text, list, matrix or logical value of its own argument. More generally, in a well-formed table a surface is printed exactly once unless an axis (argument 1) or a product definition (argument 2) refers to it; the condition cannot be dropped: there is a well-formed table with such a surface in which one order prints it and another prints nothing.", "quantifier": "all files of that form and all orders of map iteration; all well-formed symbol tables", "why_tests_cant": "The claim concerns all texts of all thirteen arguments, all arrangements of lines and all orders of map iteration; a test runs one file and whatever order Go happens to choose.", "anchors": ["step/template.go: bSplineSurfaceWithKnots", "step/job.go: bSplineSurfaceWithKnots", "step/parse.go: Parse", "step/lex.go: Lex"]}
{"id": "C95", "title": "The unit of length and the origin", "statement": "With exact arithmetic, multiplying all coordinates by s > 0 and moving all points in the plane by any vector gives the same triangles and the same halfedges of Triangulate, and moves its hull in the same way, for every hash size and every sort that sees the points through Less only, including the cases of an error or panic, provided the near-duplicate tests answer the same; in particular the origin alone never matters. The same holds for ConvexHull, and for the triangles of bowyerWatson in space without a condition on near duplicates, as long as coordinates stay below the largest float64. In float64 all three hold, whatever the rounding errors of the run are, when the coordinates are multiplied by a power of two (exponent between -180 and 180) with the repository's own Scaled, the coordinates before and after being multiples of 2^-90 of size at most 2^90; and ConvexHull in float64 commutes with every translation whose additions are exact. The condition on near duplicates cannot be dropped (there are six points that lose all but one triangle when divided by 2^30), and Triangulate in float64 does not commute with exact translations.", "quantifier": "all point lists, all scale factors and translations, all hash sizes, all orders of map iteration of bowyerWatson", "why_tests_cant": "A symmetry relates two runs on all inputs and all units; a test compares finitely many pairs, and the float64 part concerns rounding on every one of the operations of a run of any length.", "anchors": ["triangulate2/triangulator.go: triangulate, Less, hashKey", "triangulate2/util.go: eps, pseudoAngle, area, inCircle, circumcenter, circumradius", "triangulate2/hull.go: ConvexHull, cross2D", "meshing/mesh.go: bowyerWatson, englobe"]}
{"id": "C96", "title": "64-bit integers", "statement": "When every integer addition, subtraction and multiplication of the triangulator is done modulo 2^64 into the range of Go's int, Triangulate returns exactly what it returns with unbounded integers (the same tables and hull, the same error, the same panics, the same number of steps), for every list of at most 2^59 points, every hash size up to 2^62 and every arithmetic of the coordinates; more generally for arbitrary answers of the predicates and arbitrary hash keys. The same holds for findSpan when the degree, the last index and the number of knots are at most 2^61.", "quantifier": "all point lists up to 2^59 points (a Go slice cannot hold more), all predicates, hash keys, orders of ids, knot vectors and parameters", "why_tests_cant": "Overflow shows only on inputs far too large for a test, and the claim concerns every intermediate value of every run, including runs with inconsistent predicates.", "anchors": ["triangulate2/triangulator.go: triangulate, addTriangle, legalize", "nurbs/basis.go: findSpan"]}
{"id": "C97", "title": "Nearest point, centroid and first tetrahedron in float64", "statement": "In float64: getNearestPoint returns, for any vertices whatsoever, the last vertex of least computed distance whenever some distance is finite, and the origin otherwise; for squared distances that are zero or between 2^-190 and 2^190 its true distance is at most 1 + 11/2^53 times the least true distance. findCentroid never leaves the box of its four points and its error is at most 2^-53 times the sum of the sizes (plus 2^-999) for coordinates up to 2^1021. getFurthestFromTwoVectors returns the first vertex of greatest computed distance, getFurthestFromthreeVectors the first of least computed signed volume (the origin if none is positive, respectively negative); the true values are extremal up to 4776/2^53 M^4 and 852/2^53 M^3. On a dyadic grid (integers up to 2048 times 2^e) Get2Ddist, Get3Ddist and the whole of createInitialTetra are exact; off the grid createInitialTetra may return the origin where the exact search returns an input point, and getNearestPoint may return a strictly further vertex.", "quantifier": "all vertex lists and query points of float64, NaN and infinities included where the claim is about computed values; all scales M between 2^-40 and 2^40; all grids 2^e with -200 <= e <= 110", "why_tests_cant": "The claims bound rounding errors for every input and say which of equal candidates is taken; the box property of the centroid rests on rounding to even in cases a random test does not reach.", "anchors": ["meshing/helper.go: getNearestPoint", "triangulate3/util.go: findCentroid, Get2Ddist, Get3Ddist", "triangulate3/gdel3d.go: createInitialTetra, getFurthestFromTwoVectors, getFurthestFromthreeVectors, computeExtremitiesForAxeX"]}
{"id": "C98", "title": "The hash table of the triangulator has the size meant, and Triangulate with that size", "statement": "int(math.Ceil(math.Sqrt(float64(n)))), computed in float64, is between 1 and 2^32 for every number of points from 1 up to 2^63-1, and for at most 2^52 points it is exactly the least number whose square is at least n (false for 2^52+1 points). With this size, and no hypothesis about the hash table left, Triangulate on small integer coordinates reports an error exactly for collinear points and otherwise returns a consistent Delaunay triangulation of all points with their boundary polygon, which Validate accepts; the same on well spread points; machine integers do not overflow; any other positive size gives the same hull and, without four points on an empty circle, the same triangles. There are finite points on which the code with its own hash size panics or never ends.", "quantifier": "all numbers of points; all point lists of the two classes; all sorts meeting the contract of sort.Sort; all other hash sizes", "why_tests_cant": "The size is right for every n only because no root of an integer below 2^52 rounds to the next lower integer; the first failing n is far beyond any test.", "anchors": ["triangulate2/triangulator.go:138 hashSize", "triangulate2/triangulation.go: Triangulate"]}
{"id": "C99", "title": "64-bit integers in packages nurbs, shape and mesh", "statement": "With Go's wrapping 64-bit int, basisFuns (any span index, degree and knots below 2^60), curvePoint (degree, control points and knots below 2^60), dersBasisFuns (degree at most 20, knots between -2^62 and 2^62), Construct of sphere, torus, circle and ellipse (all counts except the extreme int values) and bowyerWatson (up to 2^62 points, every sphere test, every map order) return what they return with unbounded integers, including the panics. The exceptions are real: dersBasisFuns from degree 21 on gives entries of the wrong sign, with knots 2^64-1 apart NaN; the sphere with the largest int as sector count never ends; a stack count of -2^63 loops 2^63 times for nothing.", "quantifier": "all inputs of the stated sizes, every scalar arithmetic", "why_tests_cant": "Overflow happens only at sizes no test uses; that the product i*(sectorCount+1) may overflow without harm is a fact about congruences.", "anchors": ["nurbs/basis.go: basisFuns, dersBasisFuns", "nurbs/curve.go: curvePoint", "shape/sphere.go, torus.go, circle.go, ellipse.go: Construct", "meshing/mesh.go: bowyerWatson"]}
{"id": "C100", "title": "Fused multiply-adds: what stays true when the compiler fuses products with sums", "statement": "The Go specification lets a compiler fuse a product with a following sum into one operation with one rounding (arm64, ppc64, riscv64, s390x do). For every choice of what is fused: expressions of whole numbers whose intermediate sizes stay below 2^53 are exact; SquaredDistance, area, the inCircle determinant, orient3dfast and InSphereFast are within explicit error bounds of their exact values and give the right sign beyond them; a nonzero answer of the filtered inSphere has the right sign; Triangulate on small integer coordinates reports an error exactly for collinear points and otherwise returns a consistent Delaunay triangulation of all points with their boundary polygon; two different choices give the same hull and, without four points on an empty circle, the same triangles. False without a bound on the coordinates: for (0.1,0.1), (0.2,0.2), (0.3,0.3) the plain code reports collinear points and the fused code returns a triangle; area(a,b,a) is zero for all a, b only without fusing.", "quantifier": "all choices of fused products at every evaluation; all expressions, coordinates and point lists of the classes named", "why_tests_cant": "Tests run on one machine with one choice of fusing; the result on another architecture differs.", "anchors": ["triangulate2/util.go: area, inCircle, circumradius, circumcenter", "triangulate2/triangulator.go: triangulate", "predicates/insphere.go: InSphereFast, inSphere", "predicates/orient3d.go: orient3dfast", "r3/vector.go: SquaredDistance"]}
{"id": "C101", "title": "The direction of the axes", "statement": "Turning, scaling and moving all points together by any similarity of the plane, in any order and with any duplicates: whether Triangulate returns a triangulation does not change; the hull of Triangulate and the polygon of ConvexHull are carried along (up to the starting point); the triangles are carried along if no four points lie on an empty circle. For mirror images the same with the opposite direction and winding. The same for float64 calls whose points have integer coordinates up to 64 (2^24 for ConvexHull). In space, orient3d, squared distances, the in-sphere determinant and point-in-tetrahedron change by the expected factors, or not at all. False without the condition on circles (the diagonal of a rectangle depends on the axes), and false for bowyerWatson: for four points it returns nothing, and eight triangles after renaming the axes.", "quantifier": "all similarities of the plane, all point lists, sorts and hash table sizes; all orthogonal matrices in space", "why_tests_cant": "The two calls share no intermediate value: box, seeds, order of insertion and hash keys all depend on the axes.", "anchors": ["triangulate2/triangulation.go: Triangulate", "triangulate2/triangulator.go: triangulate", "triangulate2/hull.go: ConvexHull", "predicates/insphere.go: InSphereFast", "predicates/orient3d.go: orient3dfast", "triangulate3/util.go: VectorInTetrahedron", "meshing/mesh.go: bowyerWatson"]}
{"id": "C102", "title": "Number of steps of the triangulator", "statement": "A run of Triangulate on n points that returns t triangles makes at most (n-2)(n-3) flips; it calls legalize exactly t-1+2f times for f flips; its main loop runs n times, the search through the hash table of size m at most m times per point, the search for a visible hull edge at most n times per point, the two walks between t-1 and t-1+n times, the loop that repairs hull nodes at most n+1 times per flip. All steps together are at most (n+4)(n-2)(n-3)+(m+n+6)n. Holds in exact arithmetic for planar points, in float64 on small integer coordinates, and in float64 for any coordinates when the seed circle is empty for the float64 test. The counted functions return what the functions without counter return.", "quantifier": "all point lists, all predicates that satisfy the assumptions of C19, all sorts and hash table sizes, all weights of the steps", "why_tests_cant": "A test sees running times of samples; the recursion of legalize has no evident bound, and with other predicates it never ends.", "anchors": ["triangulate2/triangulator.go: triangulate", "triangulate2/triangulator.go: legalize"]}
{"id": "C103", "title": "Number of steps of findSpan, ConvexHull and bowyerWatson", "statement": "findSpan evaluates the condition of its loop at most j+1 times when there are at most 2^j spans and the parameter is in the range of the knots, and for every j some input needs all of them. ConvexHull evaluates cross2D at most 4(m-2) times for m points left after the removal of duplicates, and between 2m-h-2 and 4m-h-6 times for a hull of h points. bowyerWatson on n points never holds two tetrahedra with the same four vertices, so at most (n+4 choose 4) of them, makes one sphere test per tetrahedron and insertion, so at most (n+4 choose 5) tests, and its other loops make at most 13 steps per test; an insertion deletes b tetrahedra and adds exactly as many as there are faces that occur once among those of the b. The number of tetrahedra and of steps is therefore polynomial, whatever the sphere test answers.", "quantifier": "all knot vectors and parameters in range (exact and float64); all point lists, number types and sorts; all sphere tests (any function), all point lists, all iteration orders of the maps", "why_tests_cant": "A test sees running times of samples. Each insertion may replace b tetrahedra by up to 4b, so without an argument the number could grow exponentially, in particular when rounding makes the sphere test inconsistent.", "anchors": ["nurbs/basis.go: findSpan", "triangulate2/hull.go: ConvexHull", "meshing/mesh.go: bowyerWatson"]}
{"id": "C104", "title": "The float64 triangulator is right on integer coordinates up to 512", "statement": "For at least two points whose X and Y are integers of size at most 512 and whose Z is zero, the float64 triangulator never panics, reports an error exactly if the points are on one line, and otherwise returns consistent tables of a Delaunay triangulation that fills its convex hull without overlap. If sort.Sort sorts, every input point is at the position of a vertex, with distinct positions there are exactly 2n-2-h triangles, and the hull is the boundary polygon of the points and the polygon of ConvexHull up to the starting point. The same holds if all coordinates are such integers times a common power of two between 2^-26 and 2^80.", "quantifier": "all lists of at least two such points, all such units, any order sort.Sort gives to ties, any positive hash size below 2^53", "why_tests_cant": "The set of inputs is finite but far too large, and the danger lies in rare inputs: a rounded centre far from the points can put a point after others that surround it, and such a point would be dropped silently. With coordinates below 2^14 this does happen (C74_bound_refuted).", "anchors": ["triangulate2/triangulator.go: triangulate, sort order and seed", "triangulate2/util.go: area, inCircle, circumradius, circumcenter", "triangulate2/hull.go: ConvexHull"]}
{"id": "C105", "title": "The triangles of sphere and torus face outwards", "statement": "In exact arithmetic, for at least three sectors and two stacks, every triangle of the sphere has its corners counter-clockwise seen from outside and is not flat (clockwise for a negative radius). With one or two sectors every triangle is flat. For a torus whose tube does not reach the axis, with at least three sectors and stacks, the normal of every triangle has a positive dot product with the outward normal of the torus at each of its corners. For ConstructSphere the claim survives rounding: with float64 arithmetic, sine and cosine within 2^-26 and the float32 positions that are written out, all 179100 triangles face outwards and none collapses. The stored normals of the sphere agree with the outer side of its triangles for every nonzero radius; a stored normal of the torus points into the tube exactly at the vertices whose distance rho from the axis has rho*R < R^2 - t^2, which happens on the whole inner equator of ConstructTorus.", "quantifier": "all radii, sector and stack counts below the uint32 limit; for the exported sphere all radii from 2^-80 to 2^80", "why_tests_cant": "Near the poles the triangles are thin, about a millionth of the cube of the radius, and the float32 rounding of a position is nearly as large; whether any triangle flips depends on all bits of the radius, and a test can only try a few of the 2^60 radii.", "anchors": ["shape/sphere.go: generateVertices, generateIndices", "shape/torus.go: generateVertices, generateIndices", "shape/shape.go: ConstructSphere", "glTF/model.go: transferModel"]}
{"id": "C106", "title": "The fans of circle and ellipse", "statement": "In exact arithmetic the index list of Construct for an ellipse (or circle) with n sectors has 2n+2 triangles, in pairs that use the same three vertices in opposite order. Exactly the pair number n-1 uses a vertex that does not exist. All other pairs lie in the plane of the centre, have the centre as a corner, and have signed area minus and plus a*b*sin(2*pi/n)/2. So on each side the existing triangles have together the area of the inscribed polygon with n corners: nothing is missing when a reader skips the two broken triangles.", "quantifier": "all centres, all axes, all sector counts from 1 up to the uint32 limit", "why_tests_cant": "A picture of the disc looks right because the closing pair is there as well; the broken pair is only found by checking every index, and the sum of the areas for every sector count.", "anchors": ["shape/circle.go: generateVertices, generateIndices", "shape/ellipse.go: generateVertices, generateIndices"]}
{"id": "C107", "title": "Smoothness and speed of a B-spline curve", "statement": "In exact arithmetic curvePoint of degree p, with a nondecreasing knot vector in which every interior knot occurs at most q <= p times, succeeds on the whole closed domain and is p-q times continuously differentiable there, in every coordinate. If no interior knot occurs more than p times, the change of a coordinate between two parameters is at most p times the largest difference of neighbouring control points times the difference of the parameters. At an interior knot that occurs p+1 times the curve jumps: the left limit is one control point and the value is the next one.", "quantifier": "all degrees, all knot vectors with integer knots, all control points, all real parameters in the domain", "why_tests_cant": "Smoothness is a statement about limits at every knot; sampled points can neither show nor refute it.", "anchors": ["nurbs/curve.go: curvePoint", "nurbs/basis.go: findSpan, basisFuns"]}
{"id": "C108", "title": "How well the meshes approximate sphere and torus", "statement": "In exact arithmetic, with n sectors and m stacks: every point of every triangle of the sphere lies in the ball, and the square of its distance from the centre is at least r^2*(1-((pi/m)^2+(2*pi/n)^2)/3). Every point of the sphere not below the last ring has a vertex at most half a step away in both directions. The mesh stops at the height -r*cos(pi/m), so the lowest point of the sphere is at least r*(1-cos(pi/m)) away from it. The volume between the centre and the triangles is n*sin(2*pi/n)/6*r^3*(1+cos(pi/m))^2, which is at most 4/3*pi*r^3 and at least that times 1-(2*pi/n)^2/6-(pi/m)^2/2. For a torus with 0 <= t <= R the distance of every point of every triangle from the centre circle differs from t by at most t*(1-cos(pi/m))+(R+t)*(1-cos(pi/n)).", "quantifier": "all radii, all sector and stack counts up to the uint32 limit, all points of all triangles", "why_tests_cant": "The claims are about all of the infinitely many points of the triangles and of the sphere, for every pair of counts.", "anchors": ["shape/sphere.go: generateVertices, generateIndices", "shape/torus.go: generateVertices, generateIndices"]}
{"id": "C109", "title": "Neighbours in the triangulation", "statement": "Two points on a circle that has all other points strictly outside are joined by an edge of the triangulation that Triangulate returns, and every edge lies on a circle with no point inside. So every point is joined to each of its nearest neighbours, the closest pair across every division of the points into two parts is an edge (hence a shortest spanning tree uses only edges), the edges connect all points, and a point that has no neighbour closer to a position x is a nearest point to x: walking along edges towards x never gets stuck.", "quantifier": "all point lists in a plane with points at least sqrt(eps) apart in exact arithmetic, all point lists with integer coordinates up to 512 times a power of two and all well spread point lists (C87) in float64, small integer coordinates also with any fused products; all positions x, all divisions of the points", "why_tests_cant": "The claim is about every division of every point set into two parts and about every position in the plane.", "anchors": ["triangulate2/triangulator.go: Triangulate, legalize", "triangulate2/triangulation.go: Triangulate"]}
{"id": "C110", "title": "No other triangulation of the points is better", "statement": "Call a list of clockwise triangles of input points a triangulation if it covers the convex hull of the points and no triangle contains a point other than its corners. The result of Triangulate is one. For every angle of the result every triangulation of the same points has an angle that is not larger, so the smallest angle of the result is as large as possible. If the triangles of some triangulation each fit in a disc of radius s, so do those of the result: the largest of the smallest enclosing circles is as small as possible. At every position x the triangle of the result has the least mean square distance from x to its corners, with the weights of linear interpolation, among all triangles of input points that contain x.", "quantifier": "all point lists in a plane with points at least sqrt(eps) apart in exact arithmetic, all point lists with integer coordinates up to 512 times a power of two and all well spread point lists (C87) in float64; all competing triangulations, all positions", "why_tests_cant": "The result is compared with every triangulation of every point set; their number grows exponentially with the number of points.", "anchors": ["triangulate2/triangulator.go: Triangulate, legalize", "triangulate2/triangulation.go: Triangulate"]}
{"id": "C111", "title": "The curve follows its control polygon and determines it", "statement": "For a curve of degree at least one without jumps: if the control points never go back in some direction, the curve never goes back in that direction; and every polyline through points of the curve, in the order of the parameter, is at most as long as the control polygon. Two curves with the same knots that agree on a span have the same control points for that span; if every control point belongs to a span that is not empty, the curve determines all control points.", "quantifier": "all degrees, knot vectors, control points, directions and sequences of parameters, in exact arithmetic", "why_tests_cant": "The claims are about all parameters and about polylines with any number of points.", "anchors": ["nurbs/curve.go: curvePoint", "nurbs/basis.go: findSpan, basisFuns"]}
{"id": "C112", "title": "The corners of the hull are the extreme points", "statement": "For points that are pairwise apart and not all on a line, a point is on the polygon of ConvexHull, or on the hull of Triangulate, exactly if it is farthest in some direction. So in every direction, and from every position, some corner is as far away as any point of the convex hull; a point that is farthest from a position is a corner; a pair at the greatest distance consists of two corners. The region to the left of all edges is the convex hull of the points.", "quantifier": "all lists of separated points not on a line, all directions and all positions in the plane; in exact arithmetic, in float64 for ConvexHull with integers up to 2^24 and for Triangulate with integers up to 512 times a power of two", "why_tests_cant": "The claims are about all directions, all positions and all points of the region.", "anchors": ["triangulate2/hull.go: ConvexHull", "triangulate2/triangulator.go: triangulate"]}
{"id": "C113", "title": "The edges form a plane graph", "statement": "For distinct points that are pairwise apart, the edges of the triangles returned by Triangulate form a maximal plane graph: two edges with a common inner point are the same edge, no point lies inside an edge, and a segment between two points that is not an edge goes through a point or across an edge. On each side of an edge there is exactly one triangle, or the edge belongs to the returned hull and there is none; all edges of the hull are edges. There are 3 n - 3 - h edges for n points and h points on the hull, and some point has at most five neighbours.", "quantifier": "all lists of distinct separated points for which Triangulate returns a triangulation; in exact arithmetic, in float64 for integers up to 512 times a power of two and for well spread points", "why_tests_cant": "The claim is about all pairs of edges, all segments and every number of points.", "anchors": ["triangulate2/triangulator.go: triangulate, addTriangle, legalize", "triangulate2/triangulation.go: Triangulate"]}
{"id": "C114", "title": "Bowyer-Watson: a face is shared by two tetrahedra", "statement": "Every triangle of the list returned by bowyerWatson belongs to exactly two tetrahedra, so it is returned exactly twice.", "quantifier": "all lists of points, all orders in which Go visits its maps", "why_tests_cant": "The claim is about every face after every sequence of insertions; a run with few points in a good position satisfies it.", "anchors": ["meshing/mesh.go: bowyerWatson, connect, hash"]}
{"id": "C115", "title": "Bowyer-Watson: the tetrahedra tile the super-tetrahedron", "statement": "After all insertions each point of the super-tetrahedron that is on no plane through three vertices is strictly inside exactly one tetrahedron, so that the tetrahedra leave no hole and do not overlap.", "quantifier": "all lists of points, all points of space, all orders in which Go visits its maps", "why_tests_cant": "The claim is about every point of a solid, after every sequence of insertions.", "anchors": ["meshing/mesh.go: bowyerWatson, englobe, connect"]}
{"id": "C116", "title": "The hull is the shortest closed polyline around the points", "statement": "For points of a plane that are pairwise apart and not all on a line, the polygon of ConvexHull, and the hull of Triangulate, has the points in its convex hull, and every closed polyline in space that has the points in its convex hull when seen from above (for example every round trip through all points) is at least as long, measured by polygonPerimeter. The length is at least twice the distance of any two points and at most pi times the greatest distance; it does not shrink when the convex hull grows. Also of the exact values at float64: ConvexHull for integers up to 2^24, Triangulate for multiples up to 512 of a power of two.", "quantifier": "all lists of points pairwise apart and not on a line, all sorting algorithms, all closed polylines", "why_tests_cant": "The comparison is with all closed polylines of any number of corners.", "anchors": ["triangulate2/hull.go: ConvexHull", "triangulate2/triangulation.go: Triangulate", "triangulate2/util.go: polygonPerimeter"]}
{"id": "C117", "title": "The curve crosses a plane at most as often as its control polygon", "statement": "For a nondecreasing knot vector whose last span is not empty, and any plane: if points of the curve at increasing parameters of the closed domain lie alternately on the two sides of the plane, then as many control points lie, in order, on the same sides. So a plane separates at most n + 1 points of the curve alternately, and a curve whose control points never go back in a direction never goes back itself. No condition on the multiplicity of the knots: the curve may have jumps.", "quantifier": "all degrees, knot vectors, control points, planes, numbers of points and increasing parameters", "why_tests_cant": "All planes and all choices of points on the curve; the count is compared with the control polygon for every degree.", "anchors": ["nurbs/curve.go: curvePoint", "nurbs/basis.go: basisFuns", "nurbs/basis.go: findSpan"]}
{"id": "C118", "title": "A curve turns as its control polygon does", "statement": "If any three control points, in order, turn left (or lie on a line) when seen against a given direction, then so do any three points of the curve at increasing parameters of the closed domain: a convex control polygon gives a convex curve. If any four control points, in order, form a right-handed screw (or lie in a plane), then so do any four points of the curve.", "quantifier": "all degrees, nondecreasing knot vectors whose last span is not empty, control points, directions and triples or quadruples of parameters", "why_tests_cant": "All triples and quadruples of points of the curve for every degree and knot vector.", "anchors": ["nurbs/curve.go: curvePoint", "nurbs/basis.go: basisFuns", "nurbs/basis.go: findSpan"]}
{"id": "C119", "title": "The hull and Bowyer-Watson with fused multiply-adds", "statement": "The Go specification lets a compiler fuse a product with a following sum or difference. However the formulas of ConvexHull and bowyerWatson are fused: the hull is made of input points and the mesh has valid indices; for integer coordinates (up to 2^24 for the hull, up to 36 for the mesh) the results are those of the code without fusing; for points that keep the margins of C84 the polygon is the same as without fusing; if the in-sphere determinants exceed the error bound the mesh is that of exact arithmetic from the same super-tetrahedron. Without a margin this is not so: for three points on the line y = x the polygon differs.", "quantifier": "all choices of which products to fuse, at every evaluation; all inputs with the stated coordinates or margins; all correct sorts and map orders", "why_tests_cant": "tests run on one platform with one compiler; on amd64 nothing is fused, on arm64, ppc64, riscv64 and s390x it is", "anchors": ["triangulate2/hull.go: ConvexHull", "triangulate2/hull.go: cross2D", "meshing/mesh.go: bowyerWatson", "meshing/helper.go: computerInitialTetraPoints", "predicates/insphere.go: InSphereFast"]}
{"id": "C120", "title": "Basis functions and curve points with fused multiply-adds", "statement": "However a compiler fuses the products of basisFuns and curvePoint with the sums that follow them: for knots up to 2^53 in size, degree up to 200 and a finite parameter in a nonempty span, every basis function is finite, not negative and within a relative error of 10 p / 2^53 of the Cox-de Boor value (plus 2^-540 for underflow); every coordinate of the curve point is finite and within (12 p + 4) / 2^53 * M of the exact curve point for control points with coordinates up to M. Two programs that fuse differently agree up to (24 p + 8) / 2^53 * M; they need not agree exactly.", "quantifier": "all choices of which products to fuse, at every evaluation; all degrees up to 200, knot vectors, control points and parameters with the stated bounds", "why_tests_cant": "tests run on one platform with one compiler; on amd64 nothing is fused, on arm64, ppc64, riscv64 and s390x it is", "anchors": ["nurbs/basis.go: basisFuns", "nurbs/basis.go: findSpan", "nurbs/curve.go: curvePoint"]}
{"id": "C121", "title": "The geometry of a B-spline curve holds for the computed points up to the error bound", "statement": "For knots up to 2^53 in size, degree p up to 200 and control points with coordinates up to M, with e = (12 p + 4) / 2^53 * M and however the products are fused: a half-space that holds the control points of the span holds the computed point after its plane is moved by e (times the sum of the sizes of the normal's coordinates); where p knots meet the computed point is within e of the control point in every coordinate, also at the end of the domain; if the control points move by at most d the computed point moves by at most d + 2 e; if neighbouring control points differ by at most L, computed points at u <= w differ by at most p L (w - u) + 2 e. The computed point depends on no control points but those of the span, without any error and whatever the others are, NaN included.", "quantifier": "all knot vectors, control points, parameters and half-spaces with the stated bounds; all choices of which products to fuse; for the locality all inputs for which findSpan returns a span at or above p", "why_tests_cant": "rounding errors depend on every input and on what the compiler fuses; tests compare single points with a tolerance chosen by hand", "anchors": ["nurbs/curve.go: curvePoint", "nurbs/basis.go: basisFuns", "nurbs/basis.go: findSpan"]}
{"id": "C122", "title": "The vertices and normals of the shapes are accurate however the multiply-adds are fused", "statement": "Whatever products the compiler fuses with a following addition or subtraction, the coordinates computed for a sphere, torus, ellipse or circle are finite and within the same bounds of the exact points as without fusing: for a cosine and sine with absolute error d, |r| (70 u + 3 d) on a sphere of radius r with u = 2^-53, (|R| + |t|) (70 u + 3 d) on a torus, |a| (35 u + d) + u |c| on an ellipse with semi-axis a and center coordinate c. The normals keep their bounds, the computed points of a sphere have distance |r| (1 +- (140 u + 6 d)) from the origin, and the third coordinate of an ellipse is exactly that of the center. Evaluated without fusing the expressions give the plain program; fusing does change some vertices.", "quantifier": "all radii between 2^-80 and 2^80 in size, centers up to 2^80, sector and stack counts up to 2^52, all implementations of cosine and sine with absolute error up to 2^-20, all choices of which products to fuse", "why_tests_cant": "tests run on one compiler and one architecture; amd64 does not fuse at all while arm64 does, and the choice may change with every compiler version", "anchors": ["shape/sphere.go: generateVertices", "shape/torus.go: generateVertices", "shape/ellipse.go: generateVertices", "shape/circle.go: generateVertices"]}
{"id": "C123", "title": "The computed triangles of sphere and torus face outwards, however the multiply-adds are fused", "statement": "Let e = 70 * 2^-53 + 3 d for a cosine and sine with absolute error d. If 19 e st^2 sc < 8, every triangle of the sphere with sc >= 3 sectors and st >= 2 stacks, with the float64 corners the program computes, has them counter-clockwise seen from outside and is not flat (clockwise for a negative radius), whatever products the compiler fuses and even if it fuses differently at every corner. That covers up to 4096 sectors and stacks when d <= 2^-40. If 49 e (R + t)^3 sc st < 4 (R - t)^2 t, the normal of every computed triangle of the torus with radius R and tube radius 0 < t < R has a positive dot product with the outward normal of the torus at the exact position of each of its corners. Both hold for the program without fusing as well.", "quantifier": "all radii from 2^-80 to 2^80 in size, all sector and stack counts that satisfy the condition and the uint32 limit, all implementations of cosine and sine with the error bound, all choices of which products to fuse", "why_tests_cant": "A flipped triangle near a pole has a volume of the order of the rounding errors; whether one flips depends on all bits of the radius, on the libm and on the compiler", "anchors": ["shape/sphere.go: generateVertices, generateIndices", "shape/torus.go: generateVertices, generateIndices"]}
{"id": "C124", "title": "Lengths, normalisation and the intersection of a line and a plane, however the multiply-adds are fused", "statement": "For a vector with squared length between 2^-200 and 2^199, every length that Norm may compute, whatever products the compiler fuses, is finite and within 4/2^53 of the exact length, relatively, and every coordinate that Normalize may compute is within 6/2^53 of the exact one, relatively, plus at most 2^-1000; every such vector passes IsUnit however that is fused. Every distance that Distance may compute is within 5/2^53 of the exact one, relatively, for exact squared distances between 2^-190 and 2^190. If the normal has coordinates up to N, the points up to M (both between 2^-60 and 2^60) and the cosine between direction and normal, relative to N, is at least 1/k with 1 <= k <= 2^20, IntersectPlane panics under no choice of fusing and every point it may return is within 300 * 2^-53 * k^2 * M of the exact intersection in each coordinate. The three calls of Normalize may be fused differently. The results without fusing are among them. For an exactly parallel line with small integer coordinates the program without fusing panics and a fused one returns a point more than 10^15 away.", "quantifier": "all lines and planes in that range, all choices of which products to fuse", "why_tests_cant": "Whether the test for zero hits, and the last bits of the point, depend on the compiler and on the processor; a test runs one of them", "anchors": ["r3/line.go: IntersectPlane", "r3/vector.go: Dot, Norm, Normalize, IsUnit, Distance"]}
{"id": "C125", "title": "The nearest point, however the multiply-adds are fused", "statement": "For a non-empty list of vertices, each equal to the query point or with an exact squared distance from it between 2^-190 and 2^190, every point that getNearestPoint may return, whatever products the compiler fuses and even if it fuses differently in every round, is one of the vertices, and its exact distance is at most 1 + 11/2^53 times the least exact distance. The point returned without fusing is one of them. For an empty list the origin is returned.", "quantifier": "all lists of vertices and query points in that range, all choices of which products to fuse", "why_tests_cant": "Two vertices at nearly the same distance are told apart by rounding errors, which depend on the compiler; a test sees one compiler and a few lists", "anchors": ["meshing/helper.go: getNearestPoint", "r3/vector.go: Distance"]}
{"id": "C126", "title": "The point-in-tetrahedron test, however the multiply-adds are fused", "statement": "For coordinates of size at most M, with M between 2^-200 and 2^190, every value of the dot products in SameSide, whatever products the compiler fuses, is within 432/2^53 * M^3 of six times the exact signed volume. When the tetrahedron and the four tetrahedra of its faces with the point have volumes beyond that bound, every answer VectorInTetrahedron may give is membership in the exact tetrahedron. For integer coordinates of size at most 2^15 the dot products are exact, so every answer is membership, boundary included, if the vertices are not in a plane, and true if they are. The answer without fusing is one of them.", "quantifier": "all vertices and points in that range, all choices of which products to fuse, made separately in each of the eight dot products", "why_tests_cant": "Points near a face are decided by rounding errors, which depend on the compiler; a test sees one compiler and a few points", "anchors": ["triangulate3/util.go: SameSide", "triangulate3/util.go: VectorInTetrahedron", "meshing/util.go: sameSide", "meshing/util.go: vectorInTetrahedron"]}
