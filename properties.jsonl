{"id": "C01", "title": "Geom1D interval lists are always in normal form", "statement": "Whatever list of intervals Geom1D(...) is given, if it returns, the intervals it exposes through get_intervals() are non-empty (low < high), in increasing order, and separated by a strictly positive gap (no two touch or overlap).", "quantifier": "every finite list of intervals with exact or infinite end points, in any order, overlapping, touching, empty or nested", "why_tests_cant": "the list length and the number of overlap patterns are unbounded; a merge bug may need a long chain of touching intervals in a particular sort order", "anchors": ["plycutter/geometry/geom1d.py: Geom1D.__init__"]}
{"id": "C02", "title": "Geom1D constructor represents exactly the union of its input and rejects bad input", "statement": "Geom1D(intervals) returns iff every interval has low <= high and only exact or infinite end points; it raises otherwise (a reversed interval, a NaN, a finite float). When it returns, a real number x belongs to the result (low <= x < high for some interval) iff it belongs to some input interval.", "quantifier": "every finite list of intervals over ints, Fractions, mpq/mpz, floats, infinities and NaN, and every real point", "why_tests_cant": "point sets are uncountable and inputs unbounded", "anchors": ["plycutter/geometry/geom1d.py: Geom1D.__init__", "plycutter/plytypes.py: FractionFromExactOrInf"]}
{"id": "C03", "title": "Geom1D representation is canonical", "statement": "Two Geom1D objects that contain the same real points have identical interval lists; in particular the result does not depend on the order or the splitting of the intervals given to the constructor.", "quantifier": "every pair of Geom1D values however produced", "why_tests_cant": "requires comparing infinite point sets for every pair of values", "anchors": ["plycutter/geometry/geom1d.py: Geom1D.__init__, get_intervals"]}
{"id": "C04", "title": "Geom1D operators are the set operations", "statement": "For Geom1D a, b the operators |, &, -, ^ and ~ never raise and their results contain exactly the points of the union, intersection, difference, symmetric difference and complement.", "quantifier": "every pair of Geom1D values (bounded or unbounded) and every real point", "why_tests_cant": "hypothesis tests sample a few expression trees and probe points; exactness at all reals is not testable", "anchors": ["plycutter/geometry/geom1d.py: __or__, __and__, __sub__, __xor__, __invert__"]}
{"id": "C05", "title": "Geom1D satisfies every law of Boolean algebra with exact equality", "statement": "Any two Geom1D expressions built from |, &, -, ^, ~, empty() and full() over the same variables that are equal as set expressions evaluate to Geom1D objects with identical interval lists, e.g. commutativity, associativity, distributivity, De Morgan, double complement, a - b == a & ~b.", "quantifier": "every expression pair, every assignment of Geom1D values to the variables", "why_tests_cant": "infinitely many laws, expressions and values", "anchors": ["plycutter/geometry/geom1d.py: __or__, __and__, __sub__, __xor__, __invert__, empty, full"]}
{"id": "C06", "title": "Geom1D.locate classifies points exactly", "statement": "locate(x) is 0 exactly when x is an end point of one of the intervals, 1 exactly when x lies strictly inside one, and -1 otherwise; the early exit of the scan never changes the answer.", "quantifier": "every Geom1D and every point, finite or infinite", "why_tests_cant": "unbounded number of intervals and points", "anchors": ["plycutter/geometry/geom1d.py: Geom1D.locate"]}
{"id": "C07", "title": "Geom1D.buffer is dilation for positive and erosion for negative amounts", "statement": "For r >= 0, buffer(r) contains exactly the points within distance r of the set (Minkowski sum with [-r, r]); for r > 0, buffer(-r) contains exactly the points x such that the whole of [x - r, x + r] lies in the set.", "quantifier": "every Geom1D, every rational amount, every real point", "why_tests_cant": "the dilation of many intervals merges in unboundedly many ways", "anchors": ["plycutter/geometry/geom1d.py: Geom1D.buffer"]}
{"id": "C08", "title": "Geom1D.buffer composes, is monotone, and opening never adds points", "statement": "buffer(a).buffer(b) == buffer(a + b) for a, b >= 0 and for a, b <= 0; buffer preserves inclusion; buffer(-r).buffer(r) is contained in the original and buffer(r).buffer(-r) contains it; buffer(0) is the identity.", "quantifier": "every Geom1D and every rational amounts", "why_tests_cant": "quantifies over all amounts and interval sets", "anchors": ["plycutter/geometry/geom1d.py: Geom1D.buffer", "plycutter/heuristics.py: choose_the_ok_side"]}
{"id": "C09", "title": "Geom1D.measure1d is length", "statement": "measure1d() equals the Lebesgue measure (total length) of the point set, infinite for unbounded sets; hence it is monotone, zero only for the empty Geom1D, and measure(a|b) + measure(a&b) == measure(a) + measure(b).", "quantifier": "every Geom1D", "why_tests_cant": "relates an implementation to a measure on infinite sets", "anchors": ["plycutter/geometry/geom1d.py: Geom1D.measure1d"]}
{"id": "C10", "title": "Geom1D pieces, filter, emptiness and boundedness", "statement": "is_empty() holds iff no real point is contained; disjoint_pieces() gives pairwise disjoint single-interval Geom1Ds whose union is the original; filter(f) keeps exactly the maximal intervals accepted by f; is_bounded() holds iff the point set is bounded.", "quantifier": "every Geom1D and every predicate f", "why_tests_cant": "unbounded sets and arbitrary predicates", "anchors": ["plycutter/geometry/geom1d.py: is_empty, disjoint_pieces, filter, is_bounded, empty, full"]}
{"id": "C11", "title": "Conversion to fractions is exact or refused", "statement": "FractionFromExact returns a rational equal to its argument for int, Fraction, mpz and mpq and raises for everything else (including every float, even integral ones); FractionFromExactOrInf additionally passes plus and minus infinity through unchanged. No inexact value ever enters the geometry through them.", "quantifier": "every Python number given to the two converters", "why_tests_cant": "all values of five numeric types", "anchors": ["plycutter/plytypes.py: FractionFromExact, FractionFromExactOrInf"]}
{"id": "C12", "title": "Frangles identify directions exactly", "statement": "vector_frangle(v) lies in [0, 8) for every non-zero vector (the zero vector is refused) and two non-zero vectors have the same frangle iff one is a positive multiple of the other.", "quantifier": "every pair of rational vectors", "why_tests_cant": "a comparison key that collides or splits for one pair corrupts the half-edge order; pairs are infinite", "anchors": ["plycutter/geometry/impl2d/frangle2d.py: vector_frangle"]}
{"id": "C13", "title": "Frangle order is clockwise angular order", "statement": "For non-zero u, v: v is strictly within the 180 degrees clockwise of u (negative cross product) iff 0 < (frangle(v) - frangle(u)) mod 8 < 4; opposite vectors differ by exactly 4 and a clockwise quarter turn adds exactly 2, modulo 8.", "quantifier": "every pair of rational vectors", "why_tests_cant": "all pairs, all quadrant combinations", "anchors": ["plycutter/geometry/impl2d/frangle2d.py: vector_frangle, MAX_FRANGLE, FRANGLE_90, FRANGLE_180"]}
{"id": "C14", "title": "frangle_unit_square_vector inverts vector_frangle", "statement": "For every rational f, frangle_unit_square_vector(f) lies on the unit square boundary (max(|x|,|y|) == 1), depends only on f mod 8, and its frangle is f mod 8; for every non-zero v, frangle_unit_square_vector(vector_frangle(v)) is the positive multiple of v on that square.", "quantifier": "every rational angle and every rational vector", "why_tests_cant": "round trip over all rationals", "anchors": ["plycutter/geometry/impl2d/frangle2d.py: frangle_unit_square_vector, vector_frangle"]}
{"id": "C15", "title": "General-position line intersection is exact", "statement": "For two segments with non-parallel directions segment_segment_general_intersection returns the unique common point of the two lines and the two line parameters, its internal consistency assertions never fire, and swapping or reversing segments changes the parameters accordingly; parallel input is refused.", "quantifier": "every pair of rational segments", "why_tests_cant": "all rational quadruples of points", "anchors": ["plycutter/geometry/impl2d/primitive2d.py: segment_segment_general_intersection"]}
{"id": "C16", "title": "line_segment_point_fraction is exact", "statement": "For a non-degenerate segment it returns f iff point == s0 + f * (s1 - s0) and None iff the point is off the line (vertical segments included); for a degenerate segment it returns 0 iff the point equals it. The internal axis flip recurses at most once.", "quantifier": "every rational segment and point", "why_tests_cant": "all rational inputs, including vertical and degenerate", "anchors": ["plycutter/geometry/impl2d/primitive2d.py: line_segment_point_fraction"]}
{"id": "C17", "title": "simple_polygon_area is the signed area, clockwise positive", "statement": "The value is invariant under translation and under cyclic rotation of the vertex list, is negated by reversal, scales by the determinant under affine maps, adds up when a polygon is cut along a diagonal, and is positive for clockwise triangles (the docstring claims the opposite sign).", "quantifier": "every vertex list of every length >= 1", "why_tests_cant": "unbounded vertex count", "anchors": ["plycutter/geometry/impl2d/primitive2d.py: simple_polygon_area", "plycutter/geometry/impl2d/geom2d_simple_holes.py: Simple_Polygon_With_Holes"]}
{"id": "C18", "title": "Point location in a polygon is by winding number, exact on the boundary", "statement": "locate_point_polygon_winding_number(poly, p) is 0 iff p lies on one of the closed edges of poly; otherwise it is 1 iff the winding number of poly around p (signed crossings of a ray from p) is non-zero and -1 iff it is zero.", "quantifier": "every closed vertex list, simple or not, and every rational point, including points level with vertices", "why_tests_cant": "vertex/ray coincidences and polygon sizes are unbounded", "anchors": ["plycutter/geometry/impl2d/primitive2d.py: locate_point_polygon_winding_number"]}
{"id": "C19", "title": "Point location is independent of presentation and coordinate system", "statement": "The answer of locate_point_polygon_winding_number does not change under cyclic rotation or reversal of the vertex list, nor when polygon and point are moved by the same invertible affine map; for a triangle it is 1 exactly for the open interior.", "quantifier": "every vertex list, point and invertible affine map", "why_tests_cant": "relates infinitely many executions with each other", "anchors": ["plycutter/geometry/impl2d/primitive2d.py: locate_point_polygon_winding_number"]}
{"id": "C20", "title": "AABB is the tight box of the included points", "statement": "After including any sequence of points in an empty AABB, contains(p) holds iff p is between the coordinate-wise minimum and maximum of those points; with no points it contains nothing; order and repetition do not matter; middle is always the centre.", "quantifier": "every finite sequence of points, every query point", "why_tests_cant": "sequence length unbounded; NaN-based empty state is a special case hard to cover", "anchors": ["plycutter/geometry/aabb.py: AABB.__init__, include_point, contains"]}
{"id": "C21", "title": "AABB intersection tests are exact", "statement": "For non-empty boxes intersects_aabb holds iff the boxes share a point, intersects_segment holds iff some point of the closed segment is in the box (degenerate segments and boxes included); an empty box intersects nothing.", "quantifier": "every pair of boxes, every segment", "why_tests_cant": "separating-axis reasoning over all rationals", "anchors": ["plycutter/geometry/aabb.py: intersects_aabb, intersects_segment"]}
{"id": "C22", "title": "Quadtree queries never miss and never invent items", "statement": "After any sequence of additions, a query segment finds every added segment that meets it inside the tree's bounding box, and returns only added segments; with the default bounding box no added segment is ever dropped.", "quantifier": "every sequence of additions, every threshold, every query segment", "why_tests_cant": "splits depend on insertion history; missing an item needs a particular history", "anchors": ["plycutter/geometry/impl2d/pmr_quadtree.py: PMRQuadTree, Node.add, Node.split, Node.find_all, SegmentPMRQuadTree"]}
{"id": "C23", "title": "Segment tree stabbing is exact", "statement": "SegmentTree1D(segments) raises only for a reversed segment, and stab(v) yields exactly the segments with low <= v <= high, each as often as it was given, i.e. the same multiset as the slow reference; none of the internal assertions fires.", "quantifier": "every finite list of closed intervals, every query value inside or outside the range", "why_tests_cant": "tree shape varies with the number of distinct end points; boundary values are measure-zero for random tests", "anchors": ["plycutter/geometry/impl2d/segment_tree.py: SegmentTree1D, SegmentTree1D_Slow"]}
{"id": "C24", "title": "The sweep's shear leaves no horizontal segment", "statement": "For every list of non-degenerate segments the shear factor chosen makes every sheared segment non-horizontal, and undoing the shear returns the original points.", "quantifier": "every finite list of non-degenerate segments", "why_tests_cant": "list length and slopes unbounded", "anchors": ["plycutter/geometry/impl2d/scan2d.py: _find_general_y_shear, all_segment_intersections"]}
{"id": "C25", "title": "Pairwise segment intersection is exact", "statement": "_nonparallel_intersection_point(a, b) returns p iff a and b are not parallel and p is the unique common point of the two closed segments, and None iff they are parallel or do not meet; _at_y gives the point of the segment's line at height y.", "quantifier": "every pair of rational segments", "why_tests_cant": "all rational inputs", "anchors": ["plycutter/geometry/impl2d/scan2d.py: _nonparallel_intersection_point, _at_y_no_horizontal"]}
{"id": "C26", "title": "The sweep order is a consistent strict order", "statement": "The comparison of sweep keys is irreflexive and asymmetric, and on keys that are simultaneously active it is the left-to-right order of the segments just above the sweep position, ties broken by the segment tuple, hence total and transitive there.", "quantifier": "every pair / set of sweep keys", "why_tests_cant": "an inconsistent order corrupts the sorted container for rare event histories only", "anchors": ["plycutter/geometry/impl2d/scan2d.py: _SweepKey.__lt__, __eq__"]}
{"id": "C27", "title": "all_segment_intersections is sound and complete", "statement": "For every list of distinct non-degenerate segments the iterator terminates without assertion failure and reports each point that is an end point of a segment or a crossing of two non-parallel segments and lies on at least two segments, exactly once, together with exactly the segments through it, and nothing else.", "quantifier": "every finite list of distinct non-degenerate rational segments, horizontal, vertical, collinear-overlapping or concurrent ones included", "why_tests_cant": "event histories of the sweep line are unbounded and degenerate coincidences defeat random testing", "anchors": ["plycutter/geometry/impl2d/scan2d.py: all_segment_intersections, _all_segment_intersections_no_horizontal"]}
{"id": "C28", "title": "Cell merging preserves the oriented boundary and total area", "statement": "After adding any cells in any order, and whatever the iteration order of the internal sets, the signed half-edge content (occurrences of (u,v) minus occurrences of (v,u)) of get_cells() equals that of the added cells, so the signed areas add up to the same total.", "quantifier": "every sequence of cells, every set/dict iteration order", "why_tests_cant": "iteration order of Python sets of objects varies from run to run; histories unbounded", "anchors": ["plycutter/geometry/impl2d/cell_merger.py: CellMergerSlow.add_cell, Cell.merged"]}
{"id": "C29", "title": "Cell merging never loses track of an original cell", "statement": "The set of originals recorded over all current cells together with the annihilated ones always equals the set of added cells, and the two parts are disjoint, so check() never fails.", "quantifier": "every sequence of cells, every iteration order", "why_tests_cant": "history dependent", "anchors": ["plycutter/geometry/impl2d/cell_merger.py: CellMergerSlow.add_cell, check, get_cells_originals"]}
{"id": "C30", "title": "Merging two cells never gets stuck", "statement": "Merging two cells that share an edge traverses the remaining half-edges into closed loops that use each remaining half-edge exactly once; the dictionary lookups in the traversal never raise KeyError.", "quantifier": "every pair of closed vertex lists meeting the documented precondition, every choice made when several continuations exist", "why_tests_cant": "choice points make a tree of executions", "anchors": ["plycutter/geometry/impl2d/cell_merger.py: CellMergerSlow.Cell.merged"]}
{"id": "C31", "title": "Geom2D.locate and area aggregate polygons with holes correctly", "statement": "locate(p) of a polygon with holes is 0 on the outer boundary or on a hole boundary met first, -1 outside or inside a hole, 1 otherwise; locate of a Geom2D is 1 iff some polygon contains p, 0 iff none does but some has it on the boundary, else -1 (and -1 for the empty geom); area is outer minus holes summed.", "quantifier": "every list of polygons with holes and every point", "why_tests_cant": "unbounded lists", "anchors": ["plycutter/geometry/impl2d/geom2d_simple_holes.py: Simple_Polygon_With_Holes.locate, area; Geom2D_Py_Simple_Holes.locate, area"]}
{"id": "C32", "title": "Geom2D.polygon accepts exactly non-degenerate input and fixes orientation", "statement": "polygon(points, reorient=True) succeeds iff no two cyclically consecutive points coincide and the area is non-zero, and the resulting geom has positive area and locates every point the same for both orientations of the input; without reorient counter-clockwise input is refused. rectangle(x0,y0,x1,y1) contains exactly the open box.", "quantifier": "every point list; every rectangle", "why_tests_cant": "unbounded vertex lists", "anchors": ["plycutter/geometry/impl2d/geom2d_simple_holes.py: Geom2D_Py_Simple_Holes.polygon, Simple_Polygon_With_Holes.__init__, check_no_dups", "plycutter/geometry/geom2dbase.py: rectangle"]}
{"id": "C33", "title": "Degeneracy removal terminates, keeps the area and leaves no degenerate corner", "statement": "simplify_degeneracies(verts) terminates for every vertex list, returns a sublist with the same signed area, and in the result every three cyclically consecutive vertices span a non-zero area (so it is empty or has at least three vertices).", "quantifier": "every vertex list", "why_tests_cant": "termination of a nested mutation loop for all inputs", "anchors": ["plycutter/geometry/impl2d/geom2d_simple_holes.py: simplify_degeneracies"]}
{"id": "C34", "title": "n-ary union does not depend on grouping", "statement": "union_tree(geoms) terminates, and contains a point iff one of the geoms does, for every number of geoms (one, a block, many blocks); union() hands more than 64 geoms to it; the | and - shortcuts for empty operands agree with the general operation.", "quantifier": "every finite list of geoms, assuming the binary/64-ary arrangement operation is right", "why_tests_cant": "block boundaries at multiples of 64 and iterated levels are not covered by tests", "anchors": ["plycutter/geometry/impl2d/geom2d_simple_holes.py: union_tree, union, __or__, __sub__"]}
{"id": "C35", "title": "Geom2D Boolean operations are right at every point", "statement": "For Geom2D a, b and any point p on no boundary segment of a, b or the result, (a|b).locate(p) == 1 iff a.locate(p) == 1 or b.locate(p) == 1, and likewise for & and -.", "quantifier": "every pair of geoms and every point", "why_tests_cant": "all polygon configurations", "anchors": ["plycutter/geometry/impl2d/geom2d_simple_holes.py: _arrangement_op, __or__, __and__, __sub__", "plycutter/geometry/impl2d/arrangement2d.py: SegmentArrangement"]}
{"id": "C36", "title": "project_to_1d is the exact shadow", "statement": "project_to_1d(vec, offs) contains v.p + offs for every point p of the geom strictly below the upper end, and every value in an interval of the result is attained by a point of the outer boundary of one of its polygons.", "quantifier": "every geom, direction and offset", "why_tests_cant": "all polygons, all points", "anchors": ["plycutter/geometry/impl2d/geom2d_simple_holes.py: project_to_1d"]}
{"id": "C37", "title": "Fingers lie exactly on the requested sections of the joint", "statement": "make_fingers(where) succeeds for every bounded where when the joint has positive width and a non-zero direction, produces one rectangle per interval, pairwise non-overlapping, each spanning exactly the joint's normal offsets, of an area that is the width times the length; projecting them back onto the joint returns where when the direction has unit length; an unbounded where is refused.", "quantifier": "every joint side, every Geom1D", "why_tests_cant": "all joint geometries and interval sets", "anchors": ["plycutter/sheetplex.py: InterSide.make_fingers, project_to_1d, robust_isfinite"]}
{"id": "C38", "title": "Joint sides pair up", "statement": "In a SheetPlex made by create_sheetplex, opposite() of an interside is a different interside of the same intersection on the other sheet, opposite of opposite is the original, interside(id) returns the side with that id, and intersides(sheet) lists exactly the sides on that sheet.", "quantifier": "every sheetplex produced from any list of sheets", "why_tests_cant": "any number of sheets and pairs", "anchors": ["plycutter/sheetplex.py: SheetPlex.interside, intersides; InterSide.opposite; Intersection.side_by_sheet", "plycutter/create_sheetplex.py: create_intersections, create_intersection, create_inter_side"]}
{"id": "C39", "title": "limit returns the sub-sheetplex", "statement": "SheetPlex.limit(ids) returns exactly the sheets with the given ids and exactly the intersections both of whose sheets are among them.", "quantifier": "every sheetplex and id set", "why_tests_cant": "all subsets", "anchors": ["plycutter/sheetplex.py: SheetPlex.limit"]}
{"id": "C40", "title": "Every pair of non-parallel sheets gets exactly one intersection with a unique id", "statement": "create_intersections gives one intersection per unordered pair of non-parallel sheets; the id does not depend on the order of the pair and different pairs never share an id, so no joint silently replaces another.", "quantifier": "every list of distinctly named sheets", "why_tests_cant": "id collisions would need unlucky names; number of sheets unbounded", "anchors": ["plycutter/create_sheetplex.py: create_intersections, intersection_id, create_sheets"]}
{"id": "C41", "title": "Every triangle of the mesh belongs to exactly one facet", "statement": "find_all_facets returns parallel lists of equal length in which every triangle id occurs in exactly one facet, provided the mesh's own facets are disjoint.", "quantifier": "every mesh", "why_tests_cant": "mesh sizes unbounded", "anchors": ["plycutter/create_sheetplex.py: find_all_facets"]}
{"id": "C42", "title": "Sheets are built from disjoint sets of facets", "statement": "No facet is used by two sheets or twice in one sheet, the first facet of a sheet is the largest one not already consumed, every sheet has at least one opposed facet, and sheet ids are s0, s1, ... without repetition, whatever the tolerances decide.", "quantifier": "every mesh, every outcome of the plane comparisons", "why_tests_cant": "depends on unbounded facet histories", "anchors": ["plycutter/create_sheetplex.py: create_sheets, _find_facet_status"]}
{"id": "C43", "title": "No stretch of a joint is claimed by both sheets", "statement": "Starting from a fresh SheetBuild, after any accepted sequence of choose/unchoose operations a stretch chosen for one side of a joint is never still allowed for the other, and the overlap of the stretches chosen by the two sides has length at most 1e-6 times the number of choices (exactly empty when choices stay within what is allowed).", "quantifier": "every sequence of operations on every joint, every sheetplex", "why_tests_cant": "operation histories are unbounded", "anchors": ["plycutter/sheetbuild.py: choose_interside, unchoose_interside, choose_intersides, unchoose_intersides, create_sheetbuild"]}
{"id": "C44", "title": "Choices are never undone", "statement": "Along any accepted sequence of choose/unchoose operations chosen areas and stretches only grow and allowed ones only shrink, and an operation on one joint touches no other joint and no other sheet's data than those of its two sides.", "quantifier": "every sequence of operations", "why_tests_cant": "unbounded histories, frame conditions over all keys", "anchors": ["plycutter/sheetbuild.py: SheetBuild.choose_interside, unchoose_interside, unchoose_sheet_area"]}
{"id": "C45", "title": "Chosen stays within allowed up to a bounded slack", "statement": "Starting from a fresh build, after any accepted sequence of operations the chosen part of a joint side exceeds what is allowed by at most 1e-6 per choice (length), and the chosen part of a sheet by at most 1e-6 per choice plus 1e-5 per unchosen sheet area (area), where the numbers are the float literals of the code; when every choice is exactly within what is allowed the excess on joints is zero. The stricter 1e-7 tolerance of check() is not implied: an accepted choice can make check() fail.", "quantifier": "every sequence of operations", "why_tests_cant": "slack accumulates with the length of the history", "anchors": ["plycutter/sheetbuild.py: choose_interside, unchoose_interside, unchoose_sheet_area, _check"]}
{"id": "C46", "title": "A fresh SheetBuild is consistent", "statement": "create_sheetbuild makes both sides of every joint allow the same stretches, chooses nothing on any joint, keeps chosen sheet areas off all joint fingers, lets every allowed stretch be tentatively chosen, and, if support_radius >= 1 and no polygon of a face lies in a hole of another one, passes check(force=True); with a smaller support radius or with a polygon in a hole it can fail.", "quantifier": "every sheetplex and support radius", "why_tests_cant": "all models", "anchors": ["plycutter/sheetbuild.py: create_sheetbuild, _check"]}
{"id": "C47", "title": "Random finger widths always fit", "statement": "random_min_max(n, mn, mx, total, rng) with mn*n <= total <= mx*n never fails its assertions and returns n consecutive spans from 0 to total, each between mn and mx wide, for every seed.", "quantifier": "every n, every bound pair, every total, every shuffle and every uniform draw", "why_tests_cant": "random draws and shuffles are an infinite space; only a few seeds are tested", "anchors": ["plycutter/heuristics.py: random_min_max"]}
{"id": "C48", "title": "Random fingers split each free stretch exactly between the two sides", "statement": "For every stretch handled by single_fingers_random the fingers given to side 0 and side 1 are disjoint, together cover the stretch exactly, alternate between sides, have widths within the configured limits, and the number of fingers always satisfies the precondition of random_min_max.", "quantifier": "every stretch, width limits, neighbouring choices and random draws", "why_tests_cant": "random and geometric input spaces are infinite", "anchors": ["plycutter/heuristics.py: single_fingers_random, random_min_max"]}
{"id": "C49", "title": "First and last random fingers alternate with the neighbouring chosen material", "statement": "The first finger goes to the side opposite to what is chosen before the stretch and the last finger to the side opposite to what is chosen after it.", "quantifier": "every stretch and random draw", "why_tests_cant": "depends on the drawn finger count", "anchors": ["plycutter/heuristics.py: single_fingers_random"]}
{"id": "C50", "title": "Interaction clusters are disjoint and cover all interactions", "statement": "_find_interaction_clusters returns clusters that pairwise do not overlap on any intersection, such that the ranges of every interaction are contained in one cluster and every cluster is made up only of interaction ranges.", "quantifier": "every list of interactions in every order", "why_tests_cant": "transitive merging histories unbounded", "anchors": ["plycutter/heuristics.py: _find_interaction_clusters", "plycutter/sheetbuild.py: map_and, map_or"]}
{"id": "C51", "title": "choose_the_ok_side decides every one-sided stretch", "statement": "After choose_the_ok_side handles a joint side, no stretch remains that is allowed on that side, unchosen, and neither allowed nor chosen on the opposite side; only stretches that were allowed are chosen and its 1D assertions never fire.", "quantifier": "every build state", "why_tests_cant": "all interval configurations", "anchors": ["plycutter/heuristics.py: choose_the_ok_side"]}
{"id": "C52", "title": "Clean-up never drops chosen material", "statement": "clean_up_thin_ok_parts leaves every chosen area and joint decision unchanged and makes the allowed area of every sheet contain the chosen area and nothing else that was not allowed before; remove_loose, update_intersection_ok and update_sheet_ok never enlarge an allowed area or stretch and never change a chosen one.", "quantifier": "every build state", "why_tests_cant": "all geometries", "anchors": ["plycutter/heuristics.py: clean_up_thin_ok_parts, remove_loose, update_intersection_ok, update_sheet_ok"]}
{"id": "C53", "title": "The canned driver reports failure faithfully", "statement": "canned_1 returns ok=True iff creation, all twelve steps and the final forced check succeed; on success history has one entry per step plus creation and final state and sheet_cuts are the final chosen areas; when a step fails with return_on_failure set it returns ok=False with the last good build; without that key or when creation itself fails the caller gets an exception.", "quantifier": "every outcome of every step", "why_tests_cant": "all combinations of step outcomes", "anchors": ["plycutter/canned.py: canned_1", "plycutter/command_line.py: main"]}
{"id": "C54", "title": "Sheets do not overlap in the written drawing", "statement": "write_dxf places the sheets from left to right in order, each at y >= 0 touching the x axis line y = 0, with horizontal ranges separated by exactly the margin of 3, provided every sheet has at least one polygon; one empty sheet makes all later positions NaN.", "quantifier": "every ordered collection of geoms", "why_tests_cant": "any number of sheets and shapes", "anchors": ["plycutter/writer.py: write_dxf"]}
{"id": "C55", "title": "Written outlines are the sheet outlines", "statement": "write_dxf emits one closed polyline per outer boundary and per hole, each a translate of the vertex loop, all loops of one sheet by the same vector.", "quantifier": "every geom collection", "why_tests_cant": "any number of polygons and holes", "anchors": ["plycutter/writer.py: write_dxf"]}
{"id": "C56", "title": "fstr shows rationals unambiguously", "statement": "fstr of two rationals is equal only if the rationals are equal; the text is the integer when the denominator is 1 and numerator/denominator in lowest terms otherwise.", "quantifier": "every pair of rationals", "why_tests_cant": "all rationals", "anchors": ["plycutter/plytypes.py: fstr"]}
{"id": "C57", "title": "Map helpers act pointwise", "statement": "map_or, map_and, map_or_geom, map_sub_geom change exactly the keys they should: map_or unites values over the union of keys, map_and keeps exactly the keys with a non-empty intersection.", "quantifier": "every pair of maps from keys to geoms", "why_tests_cant": "all maps", "anchors": ["plycutter/sheetbuild.py: map_or, map_and, map_or_geom, map_sub_geom, map_and_geom"]}
{"id": "C58", "title": "Throttled checks run often enough", "statement": "SheetBuild.check really checks on every forced call and on at least one of any 151 consecutive calls, whatever the interleaving of forced and unforced calls over all SheetBuild objects.", "quantifier": "every history of check calls", "why_tests_cant": "global counter history", "anchors": ["plycutter/sheetbuild.py: SheetBuild.check, check_interval, check_index"]}
{"id": "C59", "title": "The buffering polygon surrounds the origin symmetrically", "statement": "buffer_of_size(r) for r > 0 yields 8 vertices in clockwise order, invariant under quarter turns, containing the origin strictly inside, for any positive approximation of the square root used.", "quantifier": "every radius and every positive length approximation", "why_tests_cant": "all radii", "anchors": ["plycutter/geometry/impl2d/geom2d_simple_holes.py: buffer_of_size, buffer"]}
{"id": "C60", "title": "Event ordering and sheared keys round-trip", "statement": "all_segment_intersections maps every reported sheared segment back to the segment it came from; the shear is injective on segments, so no two segments are confused.", "quantifier": "every list of distinct segments", "why_tests_cant": "all lists", "anchors": ["plycutter/geometry/impl2d/scan2d.py: all_segment_intersections"]}
{"id": "C61", "title": "Cell merging is exhaustive", "statement": "After adding any cells with distinct half-edges, no two of the resulting cells still share an edge in opposite directions, whatever the iteration order of the internal sets.", "quantifier": "every sequence of cells with distinct half-edges, every iteration order", "why_tests_cant": "iteration order of Python sets of objects varies from run to run; histories unbounded", "anchors": ["plycutter/geometry/impl2d/cell_merger.py: CellMergerSlow.add_cell, get_cells"]}
{"id": "C62", "title": "Choices are accepted exactly within the tolerances", "statement": "choose_interside accepts a stretch exactly when it leaves the allowed stretches by less than 1e-6, its part of the opposite side of the joint meets the chosen area there in less than 1e-6 (Lebesgue measure), and, unless it is tentative, the union of the chosen area and the allowed part of its fingers does not raise; it raises an AssertionError for every stretch that leaves the allowed stretches by 1e-6 or more.", "quantifier": "every build state and every stretch", "why_tests_cant": "all build states and interval configurations", "anchors": ["plycutter/sheetbuild.py: choose_interside"]}
{"id": "C64", "title": "After choose_the_ok_side both sides of a joint have the same room", "statement": "If nothing chosen on one side of a joint is allowed on the other, then after choose_the_ok_side the stretches that are allowed and not chosen are the same on both sides of every joint, so the assertion of single_fingers_random about their difference holds on it.", "quantifier": "every build state", "why_tests_cant": "all interval configurations", "anchors": ["plycutter/heuristics.py: choose_the_ok_side, single_fingers_random"]}
{"id": "C65", "title": "single_fingers_random leaves no joint undecided", "statement": "When single_fingers_random succeeds, every stretch that was available on the first side of a joint is chosen on exactly one side and no longer allowed on the other; afterwards everything still allowed on the first side is chosen there, less than 1e-8 of the second side is allowed but unchosen (nothing after choose_the_ok_side), and no point is chosen on both sides that was not so before.", "quantifier": "every build state, all widths and all random decisions", "why_tests_cant": "random decisions and interval configurations unbounded", "anchors": ["plycutter/heuristics.py: single_fingers_random"]}
{"id": "C63", "title": "A build that passes the check has consistent joints", "statement": "When the forced check of a SheetBuild passes, every joint side has both its stretches recorded, less than 1e-7 of it is chosen without being allowed, nothing chosen on a side is allowed on the opposite side, and less than 1e-7 is chosen on both sides; for every build reached from a fresh one by accepted operations the check passes exactly when these conditions and the corresponding area conditions on the sheets (1e-7, and 1e-3 for the part of the joint where the other side is allowed) hold.", "quantifier": "every build state", "why_tests_cant": "all interval and area configurations", "anchors": ["plycutter/sheetbuild.py: _check"]}
{"id": "C66", "title": "A successful run decides every joint consistently", "statement": "When canned_1 returns ok=True, then on every joint everything still allowed on a side is chosen there, nothing chosen on a side is allowed on the other, less than 1e-7 is chosen on both sides or chosen without having been allowed on that side at creation, and every stretch that was allowed before the random fingers were made is chosen on one of the two sides.", "quantifier": "every sheetplex, all parameters and all random decisions", "why_tests_cant": "composition of twelve heuristic steps over all geometries", "anchors": ["plycutter/canned.py: canned_1", "plycutter/heuristics.py"]}
{"id": "C67", "title": "The edges of an arrangement are exactly the pieces between crossings", "statement": "Building the vertices and edges of a SegmentArrangement never fails on segments of positive length: the vertices are exactly the end points and the crossing points of non-parallel segments, the half-edges are exactly the pieces of segments between neighbouring vertices, in both directions, each once, also where segments overlap.", "quantifier": "every finite list of segments, every iteration order of the sets", "why_tests_cant": "all configurations of segments with overlaps and common points", "anchors": ["plycutter/geometry/impl2d/arrangement2d.py: SegmentArrangement.__init__, _add_to_edge, _HalfEdge, _Vertex.add_half_edge", "plycutter/geometry/impl2d/scan2d.py: all_segment_intersections"]}
{"id": "C68", "title": "The cells of an arrangement are its faces", "statement": "The cells use every half-edge exactly once; the point kept with a cell is on no segment and in the face to the right of every edge of the cell; every point on no segment is in the same face as the point of some cell.", "quantifier": "every finite list of segments, every iteration order, every point of the plane", "why_tests_cant": "all planar configurations and all points", "anchors": ["plycutter/geometry/impl2d/arrangement2d.py: __init__find_cells, __init__find_cell_points, _find_point_in_cell, ray_halfedge_query_general_ray, _Vertex.get_next_ccw"]}
{"id": "C69", "title": "The area of a Boolean operation is the measure of its points", "statement": "The area of the result of a union, intersection, difference or any other Boolean operation is exactly the Lebesgue measure of the set of points of the plane for which the operation is true; its polygons cover each inner point exactly once; and area(a|b) + area(a&b) = area(a) + area(b) and area(a-b) + area(a&b) = area(a) hold exactly.", "quantifier": "all geoms, all Boolean operations, all iteration orders", "why_tests_cant": "all polygons of the plane, real measure", "anchors": ["plycutter/geometry/impl2d/geom2d_simple_holes.py: _arrangement_op, area, __or__, __and__, __sub__", "plycutter/geometry/impl2d/arrangement2d.py: poly_cells"]}
{"id": "C70", "title": "The 2D geometry meets the laws the sheet build relies on", "statement": "Unions, intersections and differences of geoms, the fingers of a joint and the projection onto it act on the points of the real plane as the set operations do, up to a set of measure zero; areas are the measure of these points; hence everything proved about sheet builds for lawful 2D operations holds for the code's own.", "quantifier": "all geoms, all joint sides, all stretches", "why_tests_cant": "all polygons of the plane, almost every point", "anchors": ["plycutter/geometry/impl2d/geom2d_simple_holes.py: Geom2D_Py_Simple_Holes", "plycutter/sheetplex.py: InterSide.make_fingers, project_to_1d", "plycutter/sheetbuild.py"]}
{"id": "C71", "title": "Growing a geom with buffer adds exactly the octagon", "statement": "For a geom made by earlier operations in which no polygon lies in a hole of another and amount > 0, buffer(amount) contains exactly the points p such that p - y is in a fixed octagon for some point y of the geom: |dx| + (s-1)|dy| <= amount and (s-1)|dx| + |dy| <= amount, where s is the rational used for the root of 2. So nothing farther than the amount (times sqrt(2)/s if that exceeds 1) is added, and everything within amount / sqrt(1+(s-1)^2), about 0.924 of it, is.", "quantifier": "all geoms, amounts, points, iteration orders", "why_tests_cant": "all polygons of the plane", "anchors": ["plycutter/geometry/impl2d/geom2d_simple_holes.py: buffer, buffer_of_size, _minkowski_convex_op", "plycutter/geometry/impl2d/geom2d_simple_holes.py: _arrangement_op"]}
{"id": "C72", "title": "Shrinking a geom with buffer leaves exactly the points the octagon fits around", "statement": "For a geom made by earlier operations in which no polygon lies in a hole of another and amount < 0, the inside of buffer(amount) is exactly the set of points around which the octagon of size |amount| is inside the geom; in particular a point stays inside if the disk of radius |amount| (up to the error of the root) around it is inside, and the disk of 0.924 |amount| around every point that stays is inside.", "quantifier": "all geoms, amounts, points, iteration orders", "why_tests_cant": "all polygons of the plane", "anchors": ["plycutter/geometry/impl2d/geom2d_simple_holes.py: buffer, buffer_of_size, _minkowski_convex_op", "plycutter/geometry/impl2d/geom2d_simple_holes.py: _arrangement_op"]}
{"id": "C73", "title": "buffer loses polygons in holes of other polygons", "statement": "A polygon that lies in a hole of another polygon of the same geom, out of reach of the edge of the hole, is lost by buffer with any positive amount.", "quantifier": "all such geoms", "why_tests_cant": "shown for all configurations, with a run as witness", "anchors": ["plycutter/geometry/impl2d/geom2d_simple_holes.py: buffer, buffer_of_size, _minkowski_convex_op", "plycutter/geometry/impl2d/geom2d_simple_holes.py: _arrangement_op"]}
{"id": "C74", "title": "Loops of results are proper outlines", "statement": "Every loop of the result of a Boolean operation, of make_fingers and of buffer is a clockwise outline: its edges have positive length, no inner point of an edge is on another edge of the loop, and the loop winds around the points just right of an edge exactly once and around those just left of it not at all; such results can be given to every operation again.", "quantifier": "all geoms, operations, iteration orders", "why_tests_cant": "all polygons of the plane", "anchors": ["plycutter/geometry/impl2d/geom2d_simple_holes.py: buffer, buffer_of_size, _minkowski_convex_op", "plycutter/geometry/impl2d/geom2d_simple_holes.py: _arrangement_op"]}
{"id": "C75", "title": "Results have no spurious edges", "statement": "In the result of a Boolean operation, make_fingers or buffer every edge separates inside from outside: locate gives 0 exactly on the edges of the loops.", "quantifier": "all geoms, operations, points", "why_tests_cant": "all polygons of the plane", "anchors": ["plycutter/geometry/impl2d/geom2d_simple_holes.py: buffer, buffer_of_size, _minkowski_convex_op", "plycutter/geometry/impl2d/geom2d_simple_holes.py: _arrangement_op"]}
{"id": "C76", "title": "Shrinking and growing again gives no new points", "statement": "buffer(-a) followed by buffer(a) with a > 0 gives a subset of the geom, and the points around which the octagon fits are kept; the allowed area after clean_up_thin_ok_parts therefore stays within what was allowed or chosen.", "quantifier": "all geoms, amounts, points", "why_tests_cant": "all polygons of the plane", "anchors": ["plycutter/geometry/impl2d/geom2d_simple_holes.py: buffer, buffer_of_size, _minkowski_convex_op", "plycutter/geometry/impl2d/geom2d_simple_holes.py: _arrangement_op", "plycutter/heuristics.py: clean_up_thin_ok_parts"]}
{"id": "C77", "title": "Growing is monotone", "statement": "If every point of a is a point of g, no polygon of g lies in a hole of another and 0 < s <= t, every point of a.buffer(s) is a point of g.buffer(t).", "quantifier": "all geoms, amounts, points", "why_tests_cant": "all polygons of the plane", "anchors": ["plycutter/geometry/impl2d/geom2d_simple_holes.py: buffer, buffer_of_size, _minkowski_convex_op", "plycutter/geometry/impl2d/geom2d_simple_holes.py: _arrangement_op"]}
{"id": "C78", "title": "The 2D operators are right at every point, edges included", "statement": "For geoms made by earlier operations, a point is in a | b or on its edges iff this holds for a or for b; it is strictly inside a & b iff it is strictly inside both; it is strictly inside a - b iff it is strictly inside a and strictly outside b.  So also where edges of a and b touch or overlap no point is lost or gained.", "quantifier": "all geoms, points and iteration orders", "why_tests_cant": "all points of all polygons, in particular on the edges", "anchors": ["plycutter/geometry/impl2d/geom2d_simple_holes.py: __or__, __and__, __sub__, _arrangement_op"]}
{"id": "C79", "title": "from_shapely keeps every valid shape as it is", "statement": "For every shape of simple rings, in any direction, with holes within their outer rings and without overlaps, from_shapely returns a geom with exactly the inner points and the area of the shape, fit for all operators; it refuses rings that are not closed.  A sheet is refused when one of its slices is missing or is a shape of another kind, and when a shape around it is of another kind.  If rings meet only in common corners, its edges are exactly the rings.", "quantifier": "all valid polygons, multipolygons and collections", "why_tests_cant": "all simple rings", "anchors": ["plycutter/geometry/impl2d/geom2d_simple_holes.py: from_shapely, from_shapely_polygon, sh_points"]}
{"id": "C80", "title": "The face of a sheet is the union of its triangles", "statement": "The face made from the triangles of the facets on one side has exactly the points of the triangles with their sides, whatever the directions of the triangles and however they overlap; with a flat triangle no face is made.", "quantifier": "all lists of triangles, all iteration orders", "why_tests_cant": "all lists of triangles", "anchors": ["plycutter/create_sheetplex.py: create_sheets"]}
{"id": "C81", "title": "slices_max and slices_min are the union and the common inside of the slices", "statement": "A point is in slices_max or on its edges iff this holds for some slice; it is strictly inside slices_min iff it is strictly inside every slice.", "quantifier": "all nonempty lists of geoms", "why_tests_cant": "any number of slices", "anchors": ["plycutter/create_sheetplex.py: create_sheets"]}
{"id": "C82", "title": "The geoms of a sheet are exact", "statement": "If all slices are valid shapes and no operation raises, then faces, both_faces, slices_max, slices_min and outside_slices of the sheet have exactly the points given by the triangles and the rings, are fit for all later operations, and slices_min is within slices_max.  A missing slice within the sheet, or no slice at all, always stops the program.", "quantifier": "all slices and triangles", "why_tests_cant": "all shapes", "anchors": ["plycutter/create_sheetplex.py: create_sheets"]}
{"id": "C83", "title": "What a fresh build chooses of a sheet, from slices and facets", "statement": "In a fresh build each strictly inner point of a sheet's chosen area lies in one of its slices, within distance about 1 of a point that is in triangles on both sides, and in no finger of an allowed stretch; conversely a point strictly inside both faces and slices_max and in none of those fingers is strictly inside the chosen area.", "quantifier": "all sheetplexes, slices, triangles and points", "why_tests_cant": "all models", "anchors": ["plycutter/create_sheetplex.py: create_sheets", "plycutter/sheetbuild.py: create_sheetbuild"]}
{"id": "C84", "title": "The arrangement is always built", "statement": "For every list of geoms the arrangement of their edges is built: no assertion of the sweep, of the cells, of the rays to the next edge or of the containers fails. Every cell has a point off all edges, is positive or negative, and its container is the innermost of the other cells around that point; a negative cell lies in the face of its container.", "quantifier": "all lists of geoms whose loops cut the plane, all orders of sets", "why_tests_cant": "all arrangements of edges", "anchors": ["plycutter/geometry/impl2d/arrangement2d.py: SegmentArrangement.__init__"]}
{"id": "C85", "title": "Intersection and difference never raise", "statement": "For all geoms made by earlier operations a & b and a - b return a geom; a point is strictly inside it iff it is strictly inside a and strictly inside (outside) b.", "quantifier": "all pairs of geoms, all points, all orders of sets", "why_tests_cant": "all shapes and all ways they can touch", "anchors": ["plycutter/geometry/impl2d/arrangement2d.py: SegmentArrangement.poly_cells", "plycutter/geometry/impl2d/geom2d_simple_holes.py: _arrangement_op, __and__, __sub__"]}
{"id": "C86", "title": "Operations on rings that do not touch never raise; in general a union can", "statement": "If the edges of all geoms lie on simple rings of which any two are equal or do not touch, then a | b, union and every other combination return a geom, again with edges on these rings; a point is in the union or on its edges iff this holds for one of the geoms. Without this assumption a | b of two ordinary geoms can raise AssertionError.", "quantifier": "all families of rings, all geoms on them, all Boolean functions, all orders of sets", "why_tests_cant": "all shapes; failures need a rare nesting", "anchors": ["plycutter/geometry/impl2d/geom2d_simple_holes.py: _arrangement_op, __or__, union", "plycutter/geometry/impl2d/arrangement2d.py: SegmentArrangement.poly_cells"]}
{"id": "C87", "title": "Cut sheets overlap at a joint only within the tolerances", "statement": "After a successful run, take the parts of the two cut sheets in the strips of one joint, without the fingers chosen on other joints, and lay both strips over each other with positions along the joint matching: where the joint was allowed at creation (for unit directions, support radius at least 1 and faces without polygons in holes: along the whole joint) they overlap in a volume of less than 1e-7 times the two widths; where the joint is decided, the whole cut sheets overlap, for unit directions, in less than 1e-3 times the sum of the widths plus 2e-7 times their product.", "quantifier": "all sheets, joints, faces, random draws, set orders, builds with a passing check made by accepted operations, and all successful runs", "why_tests_cant": "all shapes and all random layouts of fingers; the claim is about two parts fitting together in space", "anchors": ["plycutter/canned.py: canned_1", "plycutter/sheetbuild.py: SheetBuild.check, choose_interside, create_sheetbuild", "plycutter/heuristics.py"]}
{"id": "C88", "title": "What a cut contains", "statement": "After a successful run each cut lies within the sheet's slices up to a null set and every inner point of it is within about the support radius of both faces; it consists of the freshly chosen area and of fingers chosen on its joints; it contains the common part of the faces and slices outside the strips of stretches allowed at creation, and the allowed part of all fingers chosen on its sides.", "quantifier": "all sheets, joints, faces, random draws, set orders, all successful runs", "why_tests_cant": "all shapes and all random layouts", "anchors": ["plycutter/canned.py: canned_1", "plycutter/sheetbuild.py: create_sheetbuild, choose_interside", "plycutter/heuristics.py"]}
{"id": "C89", "title": "Both sides of a joint describe the same line in space", "statement": "Two sheets get a joint exactly if the sine of the angle between them is at least 1/10000, in whichever order. Both sides of it then have directions of length one, count positions along the joint from the same point, and are (thickness of the other + |cos| * own thickness)/sin wide. Every point of space between the faces of both sheets projects, in both sheets, to the same position along the joint and to a position across it within the bounds of that side; different points have different projections; for sheets at right angles every such pair of positions is a point of both sheets.", "quantifier": "all pairs of sheets in any position, of any positive thickness, in exact arithmetic", "why_tests_cant": "all positions and angles of two sheets and all points of space", "anchors": ["plycutter/create_sheetplex.py: create_intersection, create_inter_side", "plycutter/sheetplex.py: Sheet.project_point4, Sheet.normal, Sheet.offset"]}
{"id": "C90", "title": "The solids cut from two crossing sheets do not collide", "statement": "After a successful run, the solids in space that the two cuts of a joint stand for, without the fingers chosen on other joints, share a volume of at most 1e-7 times the two widths of the joint divided by the sine of the angle (support radius at least 1, faces without polygons in holes, positions along the joint within 1000); where the joint is decided the whole solids share at most 1e-3 times the sum of the widths plus 2e-7 times their product, divided by the sine.", "quantifier": "all placed sheets, joints, faces, random draws, set orders, all successful runs, in exact arithmetic for the joint numbers", "why_tests_cant": "the claim is about solids in space for all shapes, angles and random layouts", "anchors": ["plycutter/canned.py: canned_1", "plycutter/create_sheetplex.py: create_intersection, create_inter_side", "plycutter/sheetbuild.py: SheetBuild.check"]}
{"id": "C91", "title": "What is decided for a side of a joint is really cut", "statement": "After a successful run, a finger chosen for a side of a joint is part of the cut of its sheet wherever the sheet has material in a slice and within the support radius of both faces, with three exceptions only: places that are also in a finger chosen for the other side of a joint of the sheet; places in a piece of the sheet that at some time was connected to nothing that both faces have; places within 3/1000 in each coordinate of one that at some time only the other side of a joint could have.", "quantifier": "all sheets, joints, faces without polygons in holes, random draws, set orders, all successful runs", "why_tests_cant": "the claim is about every place of every finger for all shapes and random layouts", "anchors": ["plycutter/canned.py: canned_1", "plycutter/heuristics.py: update_sheet_ok, remove_loose", "plycutter/sheetbuild.py: SheetBuild.choose_interside, create_sheetbuild"]}
{"id": "C92", "title": "Small errors in the numbers of a joint do little harm", "statement": "If the numbers of a joint (direction, offset along, first and last offset across) are each within an error e of the exact ones (e at most 1/100 and less than half the thickness), then after a successful run the solids in space that the two cuts of a joint stand for, without the fingers chosen on other joints, share within distance R of the origin a volume of at most (1e-7 + 36 e R N) times the two widths of the joint plus 36 e R^2 times their sum, divided by the sine of the angle, where N counts the intervals of the joint. Errors up to h in the projected direction and corners give errors up to 5 h M in the numbers, for corners within M of the origin.", "quantifier": "all placed sheets, errors, joints, faces without polygons in holes, random draws, set orders, all successful runs with support radius at least 1, R + 9 e R below 1000", "why_tests_cant": "the claim is about all roundings, shapes, angles and random layouts", "anchors": ["plycutter/canned.py: canned_1", "plycutter/create_sheetplex.py: create_intersection, create_inter_side", "plycutter/sheetbuild.py: create_sheetbuild, SheetBuild.check"]}
{"id": "C93", "title": "Ray queries report exactly the half-edges on the ray", "statement": "In the arrangement of any non-degenerate segments the general vector is parallel to no half-edge, and from every point of the bounding box (also when it is extended by further points), along this vector or against it, ray_halfedge_query_general_ray works and returns exactly the pairs (t, h) with pt + t*direction on the half-edge h (without keep_all: a start point counts only if h is clockwise from the direction, an end point only if it is not), every half-edge at most once, sorted by t; the list is the one that ray_halfedge_query_general_ray_slow returns, which has this property for every direction parallel to no half-edge.", "quantifier": "all lists of segments, set orders, query points in the box, both senses of the general vector, both values of keep_all", "why_tests_cant": "rays through vertices where many half-edges meet are measure zero for random tests", "anchors": ["plycutter/geometry/impl2d/arrangement2d.py: ray_halfedge_query_the_general_ray, ray_halfedge_query_general_ray, ray_halfedge_query_general_ray_slow, _ray_halfedge_test"]}
{"id": "C94", "title": "Every law of sets holds for the 2D operators", "statement": "If two expressions built from |, & and - denote the same set for all sets, then the geoms computed for them have the same locate at every point, edges included, whatever order the sets inside each operation are gone through in, and also when operands are replaced by geoms that agree with them at every point; union depends only on which geoms are in the list. Geoms that agree at every point have the same area, the same is_empty and the same project_to_1d, and, if no polygon lies in a hole of another, agree after buffer.", "quantifier": "all expressions, all geoms made by the operations, all set orders, all points", "why_tests_cant": "infinitely many laws, expressions and shapes; hash order is not under the control of a test", "anchors": ["plycutter/geometry/impl2d/geom2d_simple_holes.py: __or__, __and__, __sub__, union, area, is_empty, locate, project_to_1d, buffer"]}
{"id": "C95", "title": "Hash order does not change a build", "statement": "Two fresh builds from the same sheets and faces, made with different orders of the sets inside the 2D operations, agree: the same joints, the same chosen and allowed intervals, and chosen and allowed areas with the same locate at every point. Builds that agree still agree after any sequence of choices and removals, after update_intersection_ok, choose_the_ok_side and single_fingers_random with the same draws; the same interactions are found on them; check passes on both or on neither, and a tentative choice is accepted on both or on neither.", "quantifier": "all pairs of set orders, sheets, faces without polygons in holes whose common part has none either, joints, draws, sequences of operations that do not raise", "why_tests_cant": "the order of sets of Python objects follows addresses and hashes, which a test does not choose", "anchors": ["plycutter/sheetbuild.py: create_sheetbuild, SheetBuild.choose_interside, SheetBuild.check", "plycutter/heuristics.py: update_intersection_ok, choose_the_ok_side, single_fingers_random", "plycutter/geometry/impl2d/arrangement2d.py"]}
{"id": "C96", "title": "Uniting pieces that touch along straight stretches never fails", "statement": "Take polygons without holes, such as a plate and its fingers: simple clockwise rings whose insides are apart, any two of which have at most one common point or exactly one straight stretch in common, and which make no closed chain of contacts. Then a | b of geoms made of them, and the union of up to 64 such geoms, return a well formed geom that has exactly the points of the operands, whatever the order of the sets inside; any other combination returns too.", "quantifier": "all finite families of rings with these contacts, geoms made of them, operations that leave the outside empty, orders of the sets", "why_tests_cant": "the shapes and the orders in which cells are merged are unbounded, and a failing assertion may show only in one order", "anchors": ["plycutter/geometry/impl2d/arrangement2d.py", "plycutter/geometry/impl2d/cell_merger.py", "plycutter/geometry/impl2d/geom2d_simple_holes.py: __or__, union", "plycutter/sheetbuild.py: map_or_geom"]}
{"id": "C97", "title": "A sheet can be put together piece by piece", "statement": "Take pieces as in C96. Uniting them step by step never fails, whatever was united before: a | b, a |= x repeated for any list of geoms, and the union of any number of geoms (also more than 64, where intermediate results are united again) return a well formed geom that has exactly the points of all pieces, if every operand is itself made of some of the pieces in this way and no piece is used twice. What make_fingers returns is always made of its fingers in this way. So the loops that add the fingers of one joint after the other return the sheet with all these fingers, if the plate and the fingers touch as in C96.", "quantifier": "all families of pieces with these contacts, all ways to unite them, all lists of joint sides and interval sets, orders of the sets", "why_tests_cant": "the intermediate shapes are unbounded, each step merges cells in an order that depends on the hash of the process", "anchors": ["plycutter/geometry/impl2d/geom2d.py: __or__, union, union_tree", "plycutter/geometry/impl2d/cell_merger.py", "plycutter/sheetplex.py: make_fingers", "plycutter/heuristics.py: 113-119, 281-284"]}
{"id": "C98", "title": "The facets of a sheet lie in its slab, and a plate is found as a sheet", "statement": "For unit normals the three comparisons of _find_facet_status exclude each other, so their order does not matter. A group made by create_sheets takes, of the facets left by earlier groups, exactly the starting facet, those near its plane facing the same way, those facing the other way at the distance of the thickness, and the upright ones between the two planes, within the tolerances. All points of these facets are within offset_tolerance plus normal_tolerance times their distance from the origin of the plane they are assigned to, or of the slab between the planes. A mesh that is a single flat plate of the given thickness is found as exactly one sheet s0 made of all its facets, whichever face comes first.", "quantifier": "all meshes, thicknesses, tolerances, orders of the facets and of the set of facets", "why_tests_cant": "meshes and the order of the set are unbounded; which group takes a facet depends on all earlier groups", "anchors": ["plycutter/create_sheetplex.py: create_sheets, _find_facet_status, _facet_plane"]}
{"id": "C99", "title": "The slices of a sheet are inside it", "statement": "The first two heights of slices_height are outside of the sheet, one on each side. The other three are strictly between its faces exactly if the thickness exceeds the tolerance, are in ascending order exactly if it exceeds twice the tolerance, and then keep at least the tolerance from both faces; the middle one is half way.", "quantifier": "all offsets, thicknesses and positive tolerances", "why_tests_cant": "the heights depend on real numbers; thin sheets fail silently", "anchors": ["plycutter/create_sheetplex.py: create_sheets, slices_height"]}
{"id": "C100", "title": "From the facets to the drawing", "statement": "If main draws something then --only_sheets was not given: its text is taken as a set of characters, and no sheet has a name of one character, so any text selects no sheet and main raises. Otherwise create_sheets found at least one sheet, the run succeeded, and the drawing is that of the dilated cuts. Each dilated cut contains all points whose distance from the cut is at most the kerf (up to the factor 1+(sqrt 2-1)^2 on squares) and only points within the kerf (up to the factor of the octagon). For every two sheets that cross, each stretch of the joint that was open before the fingers were made is chosen on one side, the solids cut from both share at most 1e-7 times the widths over the sine of the angle when the fingers of other joints are left aside, and where the joint is decided at most the bound of C90 with them.", "quantifier": "all facets, orders of facets and sheets, planes of sheets, geoms, parameters, hash orders and random draws", "why_tests_cant": "joins all parts of the program over unbounded inputs", "anchors": ["plycutter/command_line.py: main", "plycutter/create_sheetplex.py: create_sheetplex, create_sheets", "plycutter/canned.py: run", "plycutter/writer.py: write_dxf"]}
{"id": "C101", "title": "Uniting plates with holes and their fingers never fails", "statement": "Take polygons with holes, such as a plate with windows and the fingers on its edge and in its windows: all rings simple and clockwise, holes inside their outline and apart from one another, the rings of one polygon without common points, the insides of the polygons apart, any two rings with at most one common point or exactly one straight stretch in common, and no closed chain of contacts. Then a | b of geoms made of them, and the union of up to 64 such geoms, return a well formed geom that has exactly the points of the operands, whatever the order of the sets inside; any other combination returns too. A geom of one such polygon is well formed, so the union of the polygons themselves needs nothing else.", "quantifier": "all finite families of polygons with holes with these contacts, geoms made of them, operations that leave the outside empty, orders of the sets", "why_tests_cant": "the shapes, the number of holes and the orders in which cells are merged are unbounded, and a failing assertion may show only in one order", "anchors": ["plycutter/geometry/impl2d/arrangement2d.py", "plycutter/geometry/impl2d/cell_merger.py", "plycutter/geometry/impl2d/geom2d_simple_holes.py: __or__, union", "plycutter/sheetbuild.py: map_or_geom"]}
{"id": "C102", "title": "Plates with holes can be put together piece by piece", "statement": "Take polygons with holes whose insides are apart, such as a plate with windows and the fingers of several joints on its edge and in its windows: all rings simple and clockwise, holes inside their outline and apart, the rings of one polygon without common points; two polygons touch in at most one ring of each, and these have one common point or exactly one straight stretch in common; and the polygons make no closed chain of contacts. Then uniting them with | or |= step by step in any order, with intermediate results that have holes, or with union of any number of them, never raises, whatever the order of the sets inside. The result is well formed and has exactly the points of the pieces. In particular a sheet with windows to which the fingers of any number of joints are added one joint at a time, as the joint code does, is returned with exactly these fingers added.", "quantifier": "all finite families of polygons with holes with these contacts, all orders in which they are united, all numbers of joints, orders of the sets", "why_tests_cant": "the number of pieces and steps, the shapes and the orders in which cells are merged are unbounded, and each intermediate result is a new shape that the next step must accept", "anchors": ["plycutter/geometry/impl2d/geom2d_simple_holes.py: __or__, union", "plycutter/geometry/impl2d/arrangement2d.py", "plycutter/geometry/impl2d/cell_merger.py", "plycutter/heuristics.py:113-119,281-284", "plycutter/sheetbuild.py: make_fingers, map_or_geom"]}
{"id": "C103", "title": "Operations on two overlapping polygons that are seen from one point never raise", "statement": "Take two simple polygons without holes that may overlap and touch in any way, such that from some one point the whole boundary of both is seen (the point is strictly on the inner side of every edge of both): in particular any two convex polygons whose insides overlap. Then polygon accepts both, and their union |, intersection & and difference -, in either order, never raise, whatever the order of the sets inside. The results are well formed and have exactly the points of the union, the intersection and the difference. The same holds for every other combination of the two that is empty where both are.", "quantifier": "all pairs of simple polygons of any number of corners with such a common point, all combinations, orders of the sets", "why_tests_cant": "the number of corners, the number of crossings, shared corners and overlapping stretches of edges, and the orders in which cells are merged are unbounded", "anchors": ["plycutter/geometry/impl2d/geom2d_simple_holes.py: polygon, __or__, __and__, __sub__", "plycutter/geometry/impl2d/arrangement2d.py", "plycutter/geometry/impl2d/cell_merger.py"]}
{"id": "C104", "title": "Expressions of | and & over polygons seen from one point never raise", "statement": "Take any number of simple polygons without holes, overlapping in any way, whose whole boundaries are seen from some one point. Every expression built from them with | and & to any depth is computed without raising, whatever the order of the sets inside. The result is again one simple polygon without holes that is seen from the same point; its boundary lies on boundaries of the given polygons, and off these boundaries it has exactly the points the expression says. As a last step the difference of two such expressions also never raises and has exactly the points of the difference.", "quantifier": "all expressions of any depth over all such polygons, orders of the sets", "why_tests_cant": "the number of polygons, of their corners and crossings, the depth of the expression and the orders in which cells are merged are unbounded", "anchors": ["plycutter/geometry/impl2d/geom2d_simple_holes.py: polygon, __or__, __and__, __sub__", "plycutter/geometry/impl2d/arrangement2d.py", "plycutter/geometry/impl2d/cell_merger.py"]}
{"id": "C105", "title": "Uniting pieces that cover an area side by side never raises", "statement": "Take simple polygons without holes whose insides do not overlap, like boards or bricks laid side by side. They may touch along any number of stretches and in closed chains, for instance four boards around a fifth. Suppose that at no point edges leave in more than three directions, and that what they cover together has no hole: from each point outside one gets away without meeting an edge. Then a | b and the union of up to 64 geoms made of these polygons are computed without raising, whatever the order of the sets inside and hence in whatever order the pieces are joined. The result has no holes and has exactly the points of the pieces.", "quantifier": "all such pieces, any number of them and of their corners, orders of the sets", "why_tests_cant": "the number of pieces, the way they touch, and the orders in which they are joined are unbounded; on the way parts with holes arise that are filled later only", "anchors": ["plycutter/geometry/impl2d/geom2d_simple_holes.py: union, __or__", "plycutter/geometry/impl2d/arrangement2d.py: _poly_cells", "plycutter/geometry/impl2d/cell_merger.py"]}
{"id": "C106", "title": "Growing a rectangle never raises and adds exactly its margin", "statement": "buffer of one rectangle of any size and place by any positive amount is computed without raising, whatever the order of the sets inside. The result has no holes, and a point is in it exactly if the rectangle has a point within the octagon of that radius around it.", "quantifier": "all rectangles, positive amounts, values for the square root of 2 between 1 and 2, orders of the sets", "why_tests_cant": "the sizes, the amounts and the orders in which the plate and its four margins are joined are unbounded; joining them leaves parts with holes on the way for some of the orders", "anchors": ["plycutter/geometry/impl2d/geom2d_simple_holes.py: buffer, _minkowski_convex_op, minkowski_ribbon_simple_convex, union_tree"]}
{"id": "C107", "title": "canonicalize_cell gives one form for every way to write a cell", "statement": "canonicalize_cell writes the same cell from its least vertex, from the first one if it is passed several times. Two cells that pass their least vertex once have equal forms exactly if one is a rotation of the other. A cell that passes its least vertex twice can have two forms.", "quantifier": "all cells, of any length, over any linearly ordered vertices", "why_tests_cant": "the lengths and the vertices of cells are unbounded; a comparison the wrong way round gives a form that is canonical too", "anchors": ["plycutter/geometry/impl2d/cell_merger.py: canonicalize_cell"]}
{"id": "C108", "title": "Operations on polygons invent no corners", "statement": "Every corner of the result of |, & and - and of any other operation on an arrangement, of an outline or of a hole, is a corner of one of the operands or a common point of two of their edges that are not parallel. So a corner of the result has exact coordinates that come from the operands.", "quantifier": "all lists of geoms with constructed polygons, all operations, all orders of the sets", "why_tests_cant": "the operands and the orders are unbounded; a corner in a wrong place along an edge changes no point inside or outside, so that tests of points do not see it", "anchors": ["plycutter/geometry/impl2d/geom2d_simple_holes.py: __or__, __and__, __sub__", "plycutter/geometry/impl2d/arrangement2d.py: Arrangement2D"]}
{"id": "C109", "title": "The intersection of two rectangles is a rectangle", "statement": "& of two rectangles that overlap never raises and gives one polygon without holes with exactly four corners: the rectangle between the larger of the lower and the smaller of the upper coordinates, also when sides lie along each other or one rectangle is inside the other. & of two rectangles that do not overlap is empty, also if they touch.", "quantifier": "all pairs of rectangles along the axes, all start corners of their outlines, all orders of the sets", "why_tests_cant": "the coordinates and the orders are unbounded; the ways in which sides can coincide are many, and corners left on a straight side change no point", "anchors": ["plycutter/geometry/impl2d/geom2d_simple_holes.py: __and__", "plycutter/geometry/impl2d/cell_merger.py: CellMerger"]}
{"id": "C110", "title": "Builds of rectangular sheets are always created and pass their check", "statement": "When each of the two faces of every sheet is a rectangle or empty, create_sheetbuild never raises for any positive support radius and any outline of the cut. For a support radius of at least 1 the build passes its check, and every stretch it allows on a side of a joint can be tentatively chosen there.", "quantifier": "all sets of sheets with proper joints, all rectangular or empty faces, overlapping or not, all slices_max made by operations, all positive radii, all orders of sets and dictionaries", "why_tests_cant": "the number of sheets and joints, their sizes and the orders are unbounded; one order in which growing a face raises stops the program", "anchors": ["plycutter/sheetbuild.py: create_sheetbuild", "plycutter/geometry/impl2d/geom2d_simple_holes.py: buffer"]}
{"id": "C111", "title": "The union of two rectangles", "statement": "| of two rectangles never raises, however they lie to each other: apart, touching in one corner or along a stretch, overlapping, one inside the other, or equal. The result holds exactly the points of the two rectangles, borders included, and its polygons are proper.", "quantifier": "all pairs of rectangles along the axes, all start corners of their outlines, all orders of the sets", "why_tests_cant": "the coordinates and the orders are unbounded; the cases in which sides or corners coincide have to be hit exactly, in every order of the sets", "anchors": ["plycutter/geometry/impl2d/geom2d_simple_holes.py: __or__", "plycutter/geometry/impl2d/arrangement2d.py: Arrangement2D"]}
{"id": "C112", "title": "The union of convex polygons", "statement": "| of two convex polygons never raises, however they lie to each other: apart, touching in a point or along a part of a side in any direction, overlapping, or one inside the other. The result holds exactly the points of the two polygons, borders included, and its polygons are proper; if they overlap it is one polygon without holes. The same holds for union of up to 64 convex polygons that do not overlap and make no closed chain.", "quantifier": "all convex polygons with any number of corners, all orders of the sets", "why_tests_cant": "the number of corners, the directions of the sides and the orders are unbounded; polygons that touch exactly along slanting sides are hardly hit by chance", "anchors": ["plycutter/geometry/impl2d/geom2d_simple_holes.py: __or__, union", "plycutter/geometry/impl2d/arrangement2d.py: Arrangement2D"]}
{"id": "C113", "title": "The intersection of convex polygons is convex", "statement": "& of two convex polygons never raises. If they have a common inner point, the result is one polygon without holes: a simple convex ring whose inner points are exactly the common inner points, and whose corners are corners of the two polygons or crossings of their edges. Otherwise, also if they touch, the result is empty. So & of any number of convex polygons, one after the other, is one convex polygon or empty.", "quantifier": "all convex polygons with any number of corners, all orders of the sets", "why_tests_cant": "the number of corners, the directions of the sides and the orders are unbounded; an empty result for polygons that only touch must hold exactly", "anchors": ["plycutter/geometry/impl2d/geom2d_simple_holes.py: __and__", "plycutter/geometry/impl2d/arrangement2d.py: Arrangement2D"]}
{"id": "C114", "title": "A finger of a joint can be combined with a convex sheet", "statement": "Every polygon that make_fingers makes for an interval is a convex ring. & of a convex sheet and such a finger never raises; the result is one convex polygon without holes or empty, and its inner points are the inner points of the sheet whose coordinate along the joint is in the interval and whose coordinate across the joint is between the two fractions. | of the sheet and a finger never raises either and holds exactly the points of both. Cutting the fingers out of a sheet, one after the other with -, never raises; what is left has as inner points exactly the inner points of the sheet that are in no finger and on the border of none. For this the sheet may be any geom made by earlier operations, with holes and in several parts.", "quantifier": "all convex sheets, all joints with a direction and a positive width, all lists of intervals, all fractions in order, all orders of the sets", "why_tests_cant": "directions, sizes, positions and set orders are unbounded; fingers may cross, touch or miss the sheet in any way", "anchors": ["plycutter/sheetplex.py: InterSide.make_fingers", "plycutter/geometry/impl2d/geom2d_simple_holes.py: __and__, __or__"]}
