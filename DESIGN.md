# A Lean 4 model of Onboard-Team/gegometry

## Shape of the model

The repository is a small Go library (r3 vectors, geometric predicates, 2-D Delaunay triangulation, 3-D
Bowyer-Watson meshing, NURBS basis functions, shape tessellation, glTF transfer, STEP lexing/parsing).
Every Go function with content is transcribed, one Lean definition per Go function, under `lean/Verif/Model/`;
each definition cites its file and lines.

* **Scalars.** Go code works on `float64`. A model definition is polymorphic in the scalar type `F` and only
  uses the operations the Go text uses (`+ - * / < <= ==`, literals, `math.Sqrt`, ...), in the order the Go text
  uses them. The same definition is then instantiated at
  (a) an arbitrary linearly ordered field (or `ℝ` where `sqrt`, `sin`, `cos` occur): *exact arithmetic*; and
  (b) `F64`, our own model of IEEE-754 binary64 (executable except for the square root, which rounds the real square root) with NaN, infinities, signed zeros and
  round-to-nearest-even (`Verif/Go/F64.lean`).
  Geometric claims are proved at (a); claims about rounding, NaN, bit-level symmetry, comparisons, range of hash
  keys are proved at (b). The combinatorial claims about the triangulators are proved for *arbitrary predicate
  oracles*, hence for every rounding behaviour.
* **Panics and divergence.** Functions that can panic or loop return `Res α` = `ok a | panic | fuel`.
  Loops without an evident bound take a fuel argument; termination theorems give a bound on the fuel.
* **Pointers.** The only pointer structure (hull nodes of triangulate2) lives in one slice allocated up front, so
  a pointer is an index into that slice.
* **Maps.** A Go map is an association list without duplicate keys; iteration takes the order as an explicit
  argument (a permutation chosen by the scheduler at each `range`).
* **int / uint32.** `int` is unbounded `Int`/`Nat` (C96 for the 2-D triangulator and `findSpan`, C99 for `nurbs`, `shape` and `mesh` prove that 64-bit wrap-around gives the same runs, with the exceptions named there); `uint32` arithmetic is `UInt32`/mod 2^32 where indices are computed.

## Layout

* `Verif/Go/…`   – `Res`, IEEE model.
* `Verif/Model/…` – the transcription.
* `Verif/Spec/…` – small independent specifications (metric facts, Cox-de Boor, convex combination, …).
* `Verif/Proofs/…` – helper lemmas.
* `Verif/Props/…` – the property theorems, one file per package, and non-vacuity examples beside them.

## Trusted base

* Lean 4.33.0 kernel; axioms at most `propext`, `Classical.choice`, `Quot.sound` (from core/Mathlib).
* The faithfulness of the transcription (read by hand; the code is never run here). `RepoTests.lean` evaluates the model on the
  inputs of the repository's own tests; these are tests of the transcription, not proofs.
* Go evaluates float64 expressions without fused multiply-add (true on amd64; the Go spec permits fusing elsewhere), except in C100, which
  covers every choice of fusing for the formulas of `triangulate2`, `predicates` and `SquaredDistance` and for whole runs of `Triangulate`, and
  C119 to C126, which do so for whole runs of `ConvexHull` and `bowyerWatson` (`Model/FusedHull.lean`), of `basisFuns` and `curvePoint`
  (`Model/FusedNurbs.lean`), of `Construct` of the shapes (`Model/FusedShape.lean`) and of `Norm`, `Normalize`, `IsUnit`, `Distance` and `IntersectPlane` (`Model/FusedLine.lean`), of `getNearestPoint` (`Model/FusedNearest.lean`) and of `SameSide` and `VectorInTetrahedron` (`Model/FusedTetra.lean`).
* Standard library behaviour assumed: `sort.Slice`/`sort.Sort` return a sorted permutation, `sort.Ints`,
  `strconv.Itoa`, `strings.SplitN/Join/Contains`, map semantics; `bufio.Reader.ReadLine` with its 4096-byte buffer is
  transcribed (`Model/Bufio.lean`) over a file that delivers its bytes in pieces of any size and then an error.
* The conversion of NaN or an out-of-range float to `int` is implementation-defined in Go; the model uses the value of
  amd64 (-2^63).
* `math.Cos`/`math.Sin` at float64 enter only through a hypothesis on their error (`TrigAcc`, C92); the conversion `float32(x)`
  is defined (`Go/F32.lean`), arithmetic on float32 does not occur in the modelled code.
* Not modelled: printing (`fmt.Println`; of the STEP surfaces the printed records are modelled, `Model/StepJob.lean`, not their formatting), writing files, `flag.Parse`, JSON dump (`marshallToJSON`), the external glTF
  writer and go3d vec3 (only its `Scaled`/`Add`), integer overflow of Go `int` (64 bit) in the byte and depth counters of package `step` (bounded by the length of the text), memory exhaustion,
  dead/commented code (`shape/icosphere.go`, `distancePairList`, `computeBoundingBox`, `tessellate`), empty stubs (`flip41`, `flip32`, `flip23`, `addPoint`),
  the unused channel of `Lexer`.

## Plan per property

| id | what is modelled, how it is proved |
|----|------------------------------------|
| C01 | r3 operations over any scalar; field identities; commutativity at F64 by symmetry of the rounded operation |
| C02 | polynomial identities over any field; F64 antisymmetry because rounding is odd |
| C03 | ℝ with `Real.sqrt`; triangle inequality from Cauchy-Schwarz; F64 symmetry |
| C04 | ℝ; in-place form refuted at zero (exact: division by zero; F64: NaN), proved for v ≠ 0 (`_partial`) |
| C05 | ℝ; panic iff dot product zero; point on both, uniqueness |
| C06 | field identities; `CalculateDistanceToPlane` ignores the plane offset: refuted with a witness, partial theorem |
| C07 | field identities, order; F64 endpoint exactness for finite inputs |
| C08 | ordered field; ℝ for Normalize |
| C09, C10, C12 | polynomial identities against `Matrix.det`-style specs; sphere identity `insphere = orient*(|e-c|^2-r^2)` |
| C11 | exact: branch analysis; float: standard-model error analysis of the filter |
| C13 | field identities; degenerate branch analysis; repeated with checked division (`Checked`), so that nothing rests on `x / 0 = 0` |
| C14 | ordered field; case analysis; F64 range of the product |
| C15 | induction over the vertex list |
| C16–C18 | monotone-chain loop invariants over sorted lists |
| C19, C20, C22, C25 | state-machine invariants of the half-edge structure and hull ring; `Sound` predicates for the twin structure, arbitrary predicates (`AnyOracle`) for ring, count and ranges; float64 counterexamples for the rest |
| C21 | the same state machine with an additive area functional; refuted for arbitrary flip decisions |
| C23 | prologue analysis; n = 1 panics: refuted, partial theorem for n ≠ 1 |
| C24 | polynomial identities and inequalities |
| C26 | decision logic of Validate |
| C27, C31 | polynomial identities, sign analysis |
| C28, C30, C40 | fold invariants, over ordered fields and F64 |
| C29 | refuted by a witness (unit cube), exact characterisation of what the tetrahedron contains |
| C32, C33 | injectivity of decimal printing and joining |
| C34 | fold invariants + linear inequalities |
| C35, C36 | state machine with scheduler permutations; set-level determinism; index invariant |
| C37 | refuted (orientation-dependent predicate, witness); partial: what each step guarantees |
| C38, C39 | polynomial identity, list lemma |
| C41, C42 | binary-search invariant; divergence theorem outside the domain |
| C43–C45 | induction over the degree, triangular loop invariant against Cox-de Boor |
| C46 | refuted by a witness; partial theorems where the code is right |
| C47–C52 | ℝ with sin/cos; list comprehension of the loops; uint32 arithmetic |
| C53 | list lemmas with an abstract float32 conversion |
| C54–C58 | list-of-characters automaton, round-trip by induction |
| C59–C61 | line automaton, refinement to a spec grouping, refutations |
| C62–C66 | work-list state machine; termination measure; refutation of order independence |
| C67 | ring invariant of the insertion run: every vertex inside every hull edge (`DelRing`), starting from the seed triangle |
| C68 | local-to-global Delaunay along the insertion cavity, then circumcentre identities (`DelGeom`, `DelTable`, `DelRing`) |
| C69 | the hash walk finds a visible edge for every point outside the hull; sorted ids never lie inside (`DelCover`) |
| C70 | crossing-number argument with a ℤ-valued edge functional (`DelTile`, `MeshSum`) |
| C71 | ranges of the tables for arbitrary predicates, then the loops of `Validate` |
| C72 | both hulls meet the same specification by sides (`BoundaryPolygon`), which determines a polygon up to rotation; then areas agree and `Validate` accepts |
| C73 | a strengthened loop invariant of the hull scan (`TightChain`), and a following-the-sides argument for uniqueness |
| C74 | F64 error analysis on a grid (`GridFloat`: areas, determinants and squared distances are exact; `GridSeeds`: float radii order the seeds as the exact ones; `GridSort`: float distances to the rounded centre never contradict the exact order), then the general theorems about runs with exact answers (`GridRun`); `Validate`: exact areas, and perimeter errors bounded with the length of a convex polygon in a square (`HullLength`, `GridValidate`). `GridBound`: five points with whole coordinates below `2^14` for which a point is lost |
| C75 | every comparison of the hull scan is exact, so the float run maps onto the exact run (`Proofs/HullFloat`) |
| C76 | uniqueness of the Delaunay triangulation: the difference of two circles' power functions is affine and changes sign between the triangles of the two results that share an inner point |
| C77 | the run of the program is a run on the exact positions with the program's own predicates pulled back (`SignRun`, through `CoreMap`); the geometric theorems of C67–C70 and C72 only use that the predicates answer rightly about points of the list (`Tells`) and that the seed circle is empty (`SafeSeed`) |
| C78 | forward error analysis with a running bound (`App`: value, scale, error constant, size constant) through every operation of `area` and `inCircle`; exact arithmetic on scaled integers (`Dy`) for grids (`Margin`) |
| C79 | knots and comparisons are exact, so the search is that of ℚ; a relative running bound (`Near`: relative error a, absolute error t from underflow) through the two loops of `basisFuns` (`NurbsFloat`) |
| C80 | the weights of C79 and an invariant on the partial sums of `curveLoop`, coordinate by coordinate; the two exact failures are computed |
| C81 | forward error analysis over ℝ: squares with an underflow term, sums with pure relative error, correctly rounded square root and division (`NormFloat`) |
| C82 | forward error analysis by scale (`App`), exact dyadic arithmetic (`Dy`), and the exact membership theorem C27 (`VolFloat`) |
| C83 | comparisons commute with exact values; error of one vertex coordinate times a share of at most a third (`EnglobeFloat`) |
| C84 | transfer of the run along the exact comparisons (`convexHull_map`), error bounds and dyadic exactness of the cross product and squared distance (`HullMargin`) |
| C85 | error of the normalised direction (C81), of the scalar products (`App`) and of the quotient, against the same function over the reals (`LineFloat`) |
| C86 | running sums with the `App` bounds of `Margin` and bounded partial sums (length of a convex boundary, triangles of one orientation), relative errors for distances (C81), then the comparisons of `Validate` (`ValidateFloat`) |
| C87 | rounding error bounds for quotients give the circumcentre and circumradius (`CircumFloat`); with gaps larger than these errors the seed search finds the exact seed triangle and the order by distance is exact (`SeedMargin`); then C77, C78, C84 and C86 (`WellSpread`) |
| C88 | `Triangulate` is polymorphic in the scalar operations; instantiate the division with any function that is right off zero, split the run into seed search and rest (`AnyDiv`), the empty seed circle excludes the centre |
| C89 | transcription of `bufio.Reader` (`fill`, `ReadSlice`, `ReadLine`) over a file that delivers pieces of arbitrary size (`Model/Bufio.lean`); invariant: buffer followed by the undelivered bytes is the rest of the content |
| C90 | same model; refuted for a read error other than end of file (line 70 only tests `io.EOF`): the loop never ends on a directory; `_partial` for files that can be read to the end |
| C91 | the conversion `float32(x)` defined from binary64 values by rounding to the nearest multiple of the unit in the last place, ties to even (`Go/F32.lean`); nearest among all binary32 numbers, monotone, relative error, overflow threshold |
| C92 | forward error analysis over the reals (`Proofs/ShapeFloat.lean`): angle, trigonometric function (hypothesis `TrigAcc`), products, division by the radius; seam: no float64 number lies within 2.1 u of 2 pi |
| C93 | a run depends on the coordinates only through the tests it makes (`C93_tests`, invariant of C36); the tests agree by C82, the super-tetrahedron by C83 |
| C94 | `C94_record` reads each field with C55; `pushed_from` says which argument each appended state comes from, so by C62 a surface that nothing leads to is called through the dispatch; C59 gives the table of the file |
| C95 | `Proofs/TriSame.lean` shows that two runs whose tests agree (box, seeds, areas, in-circle, keys, order) return the same ids; `Proofs/ScaleFloat.lean` shows that rounding commutes with powers of two in the range of normal numbers and carries that through each test; bowyerWatson by C93_tests twice on pairs of points |
| C96 | `Model/Delaunator64.lean` and `Model/Nurbs64.lean` repeat the functions with a wrap after each integer operation; `Proofs/Wrap.lean` carries an invariant (half-edges and slots at least -1, half-edges below the table length because `link` has just indexed with them) through every function, so no wrap changes anything |
| C97 | the searches are folds whose result is characterised for any float values through `toE`; `Proofs/Quarter.lean` shows that adding a float four times and dividing by four returns it, from which monotonicity of rounding gives the box property; error bounds by `App`; exactness on grids by `Dy` |
| C98 | `Model/HashSize.lean` adds `math.Ceil` and line 138 at F64; a non-square root is at least `j + 2^-27`, which is itself a float64, so rounding keeps it above `j`; the triangulation theorems are those of C74, C76, C87 and C96 instantiated |
| C99 | `Model/Ints64.lean` repeats the functions with a wrap after each integer operation and the loops with their exit tests; index sums are bounded by list lengths; `uint32(·)` only sees the value modulo 2^32; the factor `r` is a falling factorial of the degree |
| C100 | `Go/Fma.lean` defines `math.FMA`, expressions, and the relation `Ev e v`: `v` is a value the specification allows for `e`; the formulas are the model definitions at the scalar type of expressions; `Model/Fused.lean` is `Triangulate` with the values of its formulas as a parameter (`triangulateA_plain` shows it is `Triangulate` without fusing). Exactness and error bounds are inductions over `Ev`; the grid theorems repeat C74 for any allowed values |
| C101 | what is known of a result (C67-C70, C72) is carried through the similarity; the uniqueness theorems of C73 and C76 then give equality with the other result; mirror images reverse the polygon and every triangle |
| C102 | a copy of the triangulator with a counter (Model/Work.lean), shown to return the same results; every flip takes away a triangle without the new vertex, so an insertion into a triangulation of k points makes at most 2(k-2) flips; the induction of C19 carries the bounds; the exact laws (calls per flip, rounds of the main loop) hold without any assumption |
| C103 | copies of ConvexHull and bowyerWatson with a counter (Model/Steps.lean), shown to return the same results. Hull: every test pops a point or ends the loop for a point. Bowyer-Watson: a new tetrahedron contains the new vertex and a face that occurs once, so vertex sets stay different; choose-numbers add up by Pascal's rule. findSpan: the fuel of the model is the number of evaluations, the interval halves |
| C104 | the bound of C74 raised from 64 to 512. Areas, in-circle determinants and squared distances are exact; the seed is right because equal and different radii are separated by more than the relative error of the quotient. The order of the computed distances may be wrong, so C77 is generalised to OrderFine: no point comes after three others that have it between them. For a point between others the power with respect to the seed circle is smaller by at least the slack of an integer configuration (MidOrder), more than the error of the two computed distances (MidCentre). A common unit 2^e is removed by the exact scaling of C95 (MidScale) |
| C105 | the signed volume with the origin is r^3 times a product of three sines, all positive for three sectors; the torus analogue uses the gradient of the torus function. Smallest exact volume for 300 by 300: above 2.2e-6 r^3; error of the exported one below 1.9e-6 r^3 (C92 for float64, C91 for float32) |
| C106 | vertex k+1 is at the angle k*2*pi/n; the cross product of neighbours is a*b*sin of the difference, and the closing pair gives the same value by periodicity |
| C107 | on each span the basis functions are polynomials given by the Cox-de Boor recursion; the derivative recursion is proved by induction on the degree, pieces of neighbouring spans are shown to agree at a knot by evaluating them there, and the pieces are glued; the speed bound sums by parts and uses that different integer knots differ by at least one |
| C108 | the norm of a convex combination of points on a sphere is the radius squared minus weighted squared edges; the edges are bounded by the angle steps; the cone volumes of C105 are added up by a telescoping sum; for the torus the same argument in the plane of a meridian and around the axis |
| C109 | around every vertex the triangle in the direction of any other point is found by a small step along the segment (finitely many triangles), and the power of the points with respect to its circumcircle gives the inequality from which both the edge and the walking step follow |
| C110 | in the competing triangulation the triangle at one end of a side of the result, in the direction of the other end and just on the side of the opposite corner, has an angle inside the one under which the side is seen from a point outside the circle; spread and discs from the power with respect to the circumcircle, evaluated at the circumcentre or at the middle of the longest side |
| C111 | the sign of the derivative formula of C107; the curve written as a sum of differences of control points times monotone functions from 0 to 1; linear independence by induction on the degree through the derivative |
| C112 | at the corner that is last among the farthest in a direction, both neighbours are not farther, and the cone of the two edges contains the region; a farthest point that is no corner would be strictly between two consecutive corners |
| C113 | two triangles on the same side of a common point of two edges overlap, so they are the same; the triangle in the direction of a segment gives an edge, a point or a crossing; directed edges are counted per triangle and the reversed ones that are missing are those of the hull |
| C114 | a face of the cavity goes from an odd count to an odd count and an even one to an even one because each pair of vertices is in two faces of a tetrahedron; with at most two boundary faces per pair of vertices the count stays at most two; refuted by two runs of four points at binary64 |
| C115 | among five points a point off all planes is in none or two of the five tetrahedra (the weights form a line whose non-negative part is a segment with two ends), so the number of tetrahedra around it keeps its parity; points on planes by moving along a curve that leaves all planes at once; refuted by runs at binary64 |
| C116 | the length of a polyline is the mean of its movements in all directions of the half circle (integral of |cos|); the boundary polygon, turned, is the polygon of ConvexHull of the turned points (uniqueness, C73), whose two chains run up and down once, so that it moves twice the width of the points; a closed polyline around the points moves at least that much |
| C117 | knot insertion: every basis function is a combination of two basis functions of the knot vector with one more knot (induction on the degree); the new control points lie on the sides of the control polygon and make no new changes of sign; after every parameter has been put in as often as the degree, the points of the curve are control points |
| C118 | the areas and volumes are affine in every corner and vanish for equal corners; so putting in a knot (C117), which replaces every control point by a point between it and the one before, keeps their signs; at the end of the domain by continuity |
| C119 | the code with its formulas replaced by any values in the relation `Ev`; the loops depend on the signs of the tests only (for the hull of triples in sorted order), and these are the same by exactness or by the error bounds of C100 |
| C120 | the code run with expressions as scalars (its control flow does not depend on them) gives the formulas of the results; the induction of C79 and C80 over the loops, with an invariant for all values in the relation `Ev` and, for the variable `saved`, for the unrounded product too |
| C121 | `Computes` collects the points in the relation `Ev`; the exact properties of C45 and C107 and the bound of C120, by the triangle inequality; the exact curve over ℚ is cast to ℝ for the speed; locality by the structure of the loop |
| C122 | `TExpr` (Verif.Model.FusedShape) adds cosine and sine to the expressions; the polymorphic constructions of the shapes run on it, `TEv` relates an expression to the values a compiler may produce; the bounds of C92 are re-derived with a fused step at the three places that have one: the angle from the pole, the tube radius of the torus and the shift to the center |
| C123 | the exact signed volumes and dot products of C105 with lower bounds for the sines (sin x >= 2x/pi); the coordinate errors of C122; perturbation bounds for the triple product and for the dot product with a cross product |
| C124 | outcomes of IntersectPlane as a relation over the fused values of its scalar products (Model/FusedLine); the inversion lemmas list the ways to compute a scalar product; one rounding less never enlarges the bounds of C81 and C85 |
| C125 | the loop of getNearestPoint as a relation over the distances of C124 (Model/FusedNearest); the loop keeps a computed distance not larger than any it has seen; the error bound of C124 for both sides; equal points have computed distance zero under every fusing |
| C126 | SameSide and VectorInTetrahedron as relations over the values an expression may take (Model/FusedTetra); the homogeneous error bound of C100 for the dot products, exactness on integers as for the hulls, and the exact membership theorem C27 |

## Proof files of the 2-D triangulator

* `HalfEdge`, `Legalize`, `AddTri`, `Insert`, `Walk`, `Core`: invariants of the half-edge table and the hull ring,
  for arbitrary predicates (`Geo`), through every call of `link`, `legalize`, `addTriangle` and the insertion loop.
* `Fuel`: outcomes do not depend on the fuel; calls of `legalize` that never return.
* `AnyOracle`: what holds with no assumption on the predicates at all, hence for every float64 input.
* `DelaunatorSeed`: float64 inputs whose seed circle is empty according to the float in-circle test (`EmptySeed`). The self tests of the float predicates (a point against a triangle that has it as a vertex) are settled for all float64 values, so `Sound` holds and only panics remain as a failure.
* `CoreMap`: the data structure code sees the points only through `Geo`, so runs on two lists of points with the same answers are equal.
* `MeshSum`: sums over the table of an antisymmetric edge functional reduce to the hull.
* `Seeds`, `Exact`: choice of the seed triangle and the facts that hold in exact arithmetic. `Tells g Vs` and `SafeSeed g Vs` state what the later files need of the predicates: right signs on points of the list only, in-circle answers only for a clockwise triangle and a point beyond one of its sides, and no point inside the seed circle. Exact arithmetic satisfies them (`tells_exact`, `safe_exact`), and so do the float64 tests under the hypotheses of C74 and C77.
* `SignRun`, `Margin`: float64 runs with right sign tests (C77), and sufficient conditions for that (C78).
* `DelGeom`, `DelTable`, `DelRing`, `DelCover`, `DelTile`: geometry for C67–C70.
