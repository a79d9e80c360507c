# Formal model of pthrr/plycutter in Lean 4

## Layout

* `lean/Verif/Model/*.lean` – the executable model, function by function; every
  definition cites the file and lines of `/repo` it models and says what is
  simplified.
* `lean/Verif/Spec/*.lean` – small, model-independent specifications
  (point sets, half-planes, winding number by ray crossing, ...).
* `lean/Verif/Proofs/*.lean` – helper lemmas.
* `lean/Verif/Props/*.lean` – the property theorems (one file per area), each
  with a non-vacuity `example` beside it.  `MANIFEST.json` maps properties to
  theorem names.
* `seeded/LOG.jsonl` – mutation experiments: realistic bugs put in a scratch
  copy of the model, and which theorems stopped proving.

## Conventions of the model

* Python exceptions are values: functions that can `assert`/`raise` return
  `Except PyErr α`.
* Exact rationals (`gmpy2.mpq`) are Lean `Rat` (ℚ).  `math.inf` end points are
  the two extra elements of `Ext := WithBot (WithTop ℚ)`.  `math.nan` in AABBs is `none`.
* Python sets / dicts with unspecified iteration order: the model takes the
  order (or the choice) as a parameter and theorems quantify over it.
* Generators are lists.  Mutation becomes returning the new value.  Global
  debugging variables (`locs`, `ggeoms`, ...) and logging are dropped.

## Trusted base

* Lean 4.33.0's kernel.  Every theorem depends on at most the axioms `propext`,
  `Classical.choice` and `Quot.sound`; the project adds none and has no `sorry`.
* Our reading of `/repo` (nothing is executed), the semantics we give to Python
  (`sorted` is a stable sort, dicts keep insertion order, `mpq` is exact),
  numpy object-array broadcasting, `sortedcontainers` (a list kept sorted).
* Modelled only through parameters with stated assumptions: trimesh, shapely,
  ezdxf, float arithmetic (square roots, random draws, plane comparisons).
  Float literals such as `1e-6` are the exact values of the doubles.

`sorted` is an insertion sort in the model, which the kernel can run.  Long examples
are checked by `decide +kernel`; `Props/FullRun*.lean` check every 2D operation of a
whole run that way, one after the other, and need up to 9 GB of memory.

## Coverage

| Source file | Model | Not modelled |
|---|---|---|
| geometry/geom1d.py | `Model/Geom1D.lean`, all | – |
| geometry/aabb.py | `Model/AABB.lean`, all | – |
| geometry/types2d.py, plytypes.py | `Model/Types2D.lean`, `Model/PlyTypes.lean`, `Model/Py.lean` | `fstr` is in `Model/Text.lean` |
| geometry/impl2d/primitive2d.py | `Model/Primitive2D.lean` | – |
| geometry/impl2d/frangle2d.py | `Model/Frangle.lean` | – |
| geometry/impl2d/pmr_quadtree.py | `Model/QuadTree.lean` | – |
| geometry/impl2d/segment_tree.py | `Model/SegmentTree.lean` | – |
| geometry/impl2d/scan2d.py | `Model/Scan2D.lean` | debugging output |
| geometry/impl2d/cell_merger.py | `Model/CellMerger.lean` | – |
| geometry/impl2d/geom2d_simple_holes.py, geom2dbase.py | `Model/Geom2D.lean`, `Model/Buffer.lean` (`buffer`, Minkowski sums with a convex polygon), `Model/Shapes.lean` (`from_shapely`) | `repro`, logging; the arrangement is a parameter, supplied by `Model/Arrangement2D.lean` |
| geometry/impl2d/arrangement2d.py | `Model/Arrangement2D.lean`, `Model/RaySlow.lean` | functions nothing calls: `__init__find_cell_hierarchy`, `__init__find_cell_points_new`, `__init__qtree`, `cell_topology` (which has no body); the unused `sids` |
| create_sheetplex.py | `Model/Facets.lean` (facet grouping, names), `Model/FacetPlanes.lean` (comparison of facets and heights of slices, in exact real arithmetic in place of floats), `Model/Shapes.lean` (the geoms of a sheet), `Model/Space.lean` (the line where two sheets cross and its projections, in exact real arithmetic in place of floats) | slicing, rotation and `unary_union`, whose results are inputs |
| sheetplex.py | `Model/SheetPlex.lean` | display |
| sheetbuild.py | `Model/SheetBuild.lean`, over any record of 2D operations | display |
| heuristics.py | `Model/Fingers.lean`, `Model/Heuristics.lean` | drawing, logging |
| canned.py, writer.py, command_line.py | `Model/Canned.lean`, `Model/Main.lean` (`main` from the facets on) | argument parsing, mesh loading, the file itself |

The theorems about sheet builds are stated for every record of 2D operations
`G2Ops`.  Parts that speak about 2D areas assume that the operations are right up
to a filter of negligible sets (`Lawful`, `LawfulArea`, `LawfulBuffer`).  The first
two are proved for the code's own operations (C70): the points of a geom are taken
in the real plane (`Spec/RealPlane.lean`, winding number with real coordinates) and
points on edges, a set of Lebesgue measure zero, are disregarded.  `LawfulBuffer`
is false for the code because of islands (C73); C46 and C52 are proved for the
code's `buffer` from what it really computes (C71, C72, C76, C77).  In
`Props/BuildTotal.lean` the part of a joint side at given places along the joint
is a set of the real plane (`InterSide.strip`), so that the conditions for choices
and for the check do not mention calls of the code; joint sides must have a
direction that is not zero and a positive width (`SheetPlex.SidesProper`).

`buffer` is modelled for exact amounts.  The square roots of 1 and 2, rounded by
gmpy2, are a parameter `sq`; the theorems assume 0 < sq 1 < sq 2 < 2 sq 1
(`RootLike`), and sq 1 = 1 where distances are compared.  A geom given to `buffer`
must be `Fine`: its polygons do not overlap, its loops are outlines and its edges
separate inside from outside.  All results of the modelled operations are (C74).

The shapes that `shapely` delivers are inputs with exact coordinates.  C79 and C82
assume what `shapely` calls valid: simple rings, holes within the outer ring, no
overlaps (`ValidShape`); the exact statements about edges also assume that rings meet
only where both have a corner (`Noded`).

## Findings in the code

* cell_merger: adding a cell can break the bookkeeping that `check` asserts, and
  `add_cell`'s own assertion can fail (C29).
* `simple_polygon_area` is positive for clockwise polygons, against its docstring.
* `frangle2d` starts at another direction than its docstring says.
* `SegmentTree1D` accepts an iterator by its docstring but consumes it twice.
* `SheetPlex.limit` uses a wrong name and raises whenever it reaches it (C39).
* `unchoose_interside`: the message of a failing assertion calls `.area()` on a
  `Geom1D`, so an `AttributeError` is raised instead.
* `single_fingers_random`: the last finger need not alternate with what follows (C49).
* Choices have a slack of 1e-6 while `_check` uses 1e-7, so accepted choices can
  make a later check fail (`c45_check_gap`).
* `create_sheetbuild` with a support radius below 1 can choose what is not allowed (`c46_small`).
* `update_intersection_ok` can remove allowed stretches that are chosen.
* `canned_1`: `params['return_on_failure']` is missing when called from `main`, so
  every failure surfaces as a `KeyError` (`c53_main_masks`); showing steps always
  fails because of a missing argument (`c53_show`); if creation fails and failures are
  to be returned, `sb` is unbound.
* `write_dxf`: after a sheet without polygons all positions are NaN (`c54_after_empty`).
* `make_fingers` and `project_to_1d` agree only if the direction has length exactly one.
* `buffer` loses a polygon that lies in a hole of another one (C73), so a fresh build
  can fail its check (`c46_islands`) and `clean_up_thin_ok_parts` can drop allowed
  parts that become islands when shrunk.
* The hole step of `_minkowski_convex_op` is right only for polygons symmetric about
  the origin; `buffer` uses no others.
* `|` and `union` can raise `AssertionError` for ordinary operands: in a frame, a ring made
  of two parts with a third part on its inner side (`c86_or_raises`).  `&` and `-` cannot (C85).
* The quadtree drops items that do not meet the root box.
* `--only_sheets` is turned into a set of characters; no sheet has a name of one
  character, so no sheet is selected and `main` raises (`c100_only`).
* `create_sheets`: a group of facets without opposed facets makes no sheet, but the facets
  found to lie in the same plane or within the sheet are used up all the same.

## Plan per property

| Id | What is modelled | How it is proved |
|----|------------------|------------------|
| C01–C03 | `Geom1D.__init__` (sort, assert, convert, merge) | induction over the merge loop with an accumulator invariant; canonicity by comparing suprema of normal forms |
| C04–C05 | operators, built from the constructor as in the code | denotation into `Set ℝ`, injective by C03 |
| C06 | `locate` loop with its early exit | induction over the normal form |
| C07–C08 | `buffer` | denotation + connectedness of each maximal interval |
| C09 | `measure1d` | equality with Lebesgue measure, disjoint union of `Ico`s |
| C10 | pieces, filter, emptiness, boundedness | from the denotation |
| C11 | the two converters over a type of Python numbers | case analysis |
| C12–C14 | frangles | case split on quadrant and octant, field arithmetic |
| C15–C16 | line/line, point/segment | field arithmetic |
| C17 | shoelace loop | induction, telescoping |
| C18–C19 | winding-number loop with `continue`/`try-finally` | relation to ray crossing number; left and right crossings cancel on a closed loop; affine invariance through triangle fans |
| C20–C21 | AABB with NaN as `none` | induction; separating axis argument |
| C22 | PMR quadtree | induction over the tree and the addition history |
| C23 | segment tree | structural induction on well-formed trees, level-by-level build |
| C24–C27, C60 | the sweep | field arithmetic; sweep invariant by induction over events |
| C28–C30 | cell merger with explicit nondeterminism | half-edge chain invariant over the loop |
| C31–C34, C36, C59 | polygon-with-holes layer | from C17–C19 |
| C35, C67, C68 | `_arrangement_op`, `SegmentArrangement` | the sweep gives the vertices; the half-edges are planar; turning at a vertex stays in the face; the ray to the next edge stays in the face; every point can be moved next to an edge without leaving its face; so the self-check at the cell points decides every point |
| C69, C70 | areas and 2D laws | the winding numbers of the result jump by one across each edge of a selected cell, so they sum to the indicator of the selected faces; the integral of the winding number over the real plane is the shoelace sum; almost every real point has a rational neighbour on the same side of every edge |
| C71–C77 | `buffer` | the ribbon of an edge is a convex hexagon or less; a point off all edges is in a ribbon iff the octagon placed there meets the outline; by continuity along a segment the octagon either meets the outline or is on one side of it; closure to points on edges by `Stable` properties |
| C78–C83 | operators, `from_shapely`, geoms of a sheet | next to every point of an edge of a `Fine` geom there are points inside and points outside, off any given segments; a simple ring has a side of constant winding number, and area not zero by counting crossings; almost-everywhere statements transfer to inner points |
| C84–C86 | `SegmentArrangement`, `poly_cells`, without assuming success | cells are nested by winding number, so the containers are found by counting; the fan of rays from a point finds the next edge; the merged loops of cells chosen from the two sides of every edge have one way through each vertex, so every hole finds its outer loop; so do loops on rings that do not touch |
| C87–C88 | successful runs with the 2D operations of the code | every step is a sequence of four primitive changes (`Trace`); along a trace the chosen areas grow only by fingers, of which the opposite side keeps clear; the final check bounds the rest; the volume of an overlap is computed by slicing along the joint |
| C89–C90 | sheets with a right-angled frame whose third axis is the normal (what trimesh's `to_3D` is meant to be), joint numbers equal to the exact ones | the coordinates along the joint and across it in both sheets are a linear map of space whose determinant is the sine of the angle; it takes the common points of the two solids into the overlap of C87 |
| C91 | successful runs, faces without polygons in holes, `sq 1 = 1` | each elementary change loses allowed area only for one of three reasons; the reasons are followed along the trace of the run; the 2/1000 buffer of `update_sheet_ok` is turned into a distance in the real plane by rational points close by |
| C92 | as C90, but each joint number may be off by `ε` (at most 1/100); the sheets in space are exact, the plates need not be the ones the program computed with | the places that the code computes for a point are within `9εR` of the true ones; outside slivers of that size, and away from the end points of the intervals of the joint, the argument of C90 goes through; the slivers are measured |
| C93 | the query that uses the segment tree and the plain one, over the net of any segments | what one half-edge adds does not depend on how far the ray is taken; the tree finds one half-edge of every pair that the line meets, so both loops add the same up to order, and sorting by a total order gives equal lists |
| C94 | expressions over `\|`, `&`, `-`; a run may use another set order in every operation | off finitely many segments a result is right by C35; near every point of a geom there are inner points off any finite set of segments, near every other point outer ones (C75), so two geoms that agree off the segments agree everywhere; shadows are closed from the right |
| C95 | two runs of the same code, each with its own set order | a relation between builds (equal joints and intervals, areas that agree at every point) that every step keeps; areas agree by C94, decisions read only areas, emptiness and projections, which agree too |
| C96 | `arrangementOp`, `or`, `union` on rings that touch along straight stretches (`Spec/Touch.lean`) | the cells of the arrangement are exactly the rings, each cell walks round its ring; two cells with a common stretch are joined along one run of half edges, so that gluing them gives one ring again; without closed chains the merge of cells always ends with rings, so no assertion fails |
| C97 | `or`, `union`, repeated `or`, `makeFingers` on geoms made of touching pieces (`Assembled` in `Props/TouchChain.lean`) | a merged ring is again a simple ring, whose inside is made of its pieces and whose contacts with other merged rings are the contacts of their pieces; contracting a forest of contacts leaves a forest (`Proofs/Contract.lean`, `Proofs/RingMerge.lean`), so each step meets the hypotheses of C96 again |
| C98 | `createLoop`, `createSheets` with the comparisons of `Model/FacetPlanes.lean` | the loop over the facets that are left collects exactly those with the given outcome; Cauchy-Schwarz for facets that are slightly tilted; a mesh with two faces and upright facets goes into the first group |
| C99 | `sliceHeights` | arithmetic |
| C100 | `mainFrom` of `Model/Main.lean` | C42 gives distinct names, C89 exact joints, then C53, C66, C71 and C90 are put together; the example goes from four facets to the two outlines of the drawing |
| C101 | `arrangementOp`, `or`, `union` on plates with holes (`TouchingPlates`, `PlateStar` in `Spec/Touch.lean`) | the rings of a plate with its holes turned round wind once around the inside of the plate and not around other points, so every selected cell walks round one of the rings (`Proofs/PlateNet.lean`); the merge gives rings as in C96; the merged rings of either sign are grouped to polygons with holes and the self-check accepts them (`Proofs/TotalGroups.lean`) |
| C102 | `or`, `union`, `makeFingers` repeated, on plates with holes (`PlateForest` in `Spec/Touch.lean`) | the merged rings of one polygon of the result come from whole plates that are connected by common stretches, and wind as the rings of these plates do (`Proofs/PlateFuse.lean`); rings fused from plates that make no closed chain have these contacts again (`Proofs/PlateTree.lean`), so every intermediate result may be united again, and fusing composes (`Proofs/PlateCompose.lean`) |
| C103 | `polygon`, `or`, `and`, `sub`, `arrangementOp` on two rings seen from one point (`StarRing` in `Spec/StarRing.lean`) | the net of the two rings is connected (`Proofs/Joined.lean`), so each face has one cell, and only the cell of the common point is inside both rings; of two neighbouring cells one is this cell, and the border of any linked group has the common point on its right and winds around it once, so it is one ring (`Proofs/StarPair.lean`) |
| C104 | `or`, `and`, `sub` chained on rings seen from one point (`RingExpr` in `Spec/StarRing.lean`) | each step of C103 for `\|` and `&` gives one outline without holes, and each of its edges runs along an edge of an operand with the common point on the same side, so the result meets the condition again; induction over the expression |
| C105 | `union`, `or`, `arrangementOp` on pieces that cover an area side by side (`Spec/Tiles.lean`) | the merger is followed with groups of cells that have several loops as their border (`Proofs/MergeLoops.lean`, `Proofs/MergeActive.lean`): as the cells lie in the plane, a new cell meets a group along one loop of it only, each merge of two loops gives loops of the border of the larger group, and each loop is simple as no border has a fork; at the end a group has one loop, since a second one would go around a cell outside (`Sorted.one`) |
| C106 | `buffer` of a rectangle, written from any corner, by a positive amount | the four pieces of `minkowskiRibbon` are computed for all sizes (`Proofs/GrownRibbon.lean`: which octagon corner belongs to each edge, and that `simplify_degeneracies` drops one corner of each piece); the plate and the pieces lie side by side as C105 asks for (`Proofs/GrownBox.lean`, `Proofs/GrownNet.lean`); the points come from C71 |
| C107 | `canonicalizeCell` | the loop is followed place by place (`mini_spec`); two forms that start with the same vertex and do not come back to it are equal if they are rotations |
| C108 | `arrangementOp`, `or`, `and`, `sub` | the edges of the result are edges of the net (`polyCells_spec`), which begin and end at event points of the sweep (`build_events`) |
| C109 | `and` of two rectangles | from the centre of the common part both are seen whole, so the result is one simple ring (C104); its corners have coordinates of the rectangles (C108) and lie in both, so they are the four corners of the common part |
| C110 | `createSheetbuild` with the operations of the code, rectangular faces | C109 and C106 give the areas of the sheets, C85 the intersections and differences, C37 the fingers, C36 bounded projections |
| C111 | `or` of two rectangles | if they overlap, both are seen whole from a common inner point (C104); if not, their borders have at most one common point or one straight stretch (`box_common`, `box_seam`), which is the case of C96 |
| C112 | `or` and `union` of convex polygons (`Spec/ConvexRing.lean`: simple, clockwise, no corner left of the line of an edge) | as C111: the common points of convex polygons that do not overlap satisfy finitely many linear conditions and lie on a line (`convex_seam`) |
| C113 | `and` of convex polygons | C85 and C104 give one ring and its inner points; each of its edges lies on the line of an edge of the polygons (`on_one_line`) and goes the same way (`same_sides`), so no corner is left of it |
| C114 | `fingerLoop`, then `and`, `or` with a convex sheet, `sub` with any sheet | a finger is the mirror image of a rectangle in the coordinates of the joint, so a convex ring (`ConvexRing.mirror`); then C112, C113 and C85 |
| C37–C40 | SheetPlex, make_fingers, ids | linear algebra, string lemmas |
| C41–C42 | facet bookkeeping with plane comparisons as an oracle | loop invariants |
| C43–C46 | SheetBuild state machine over any lawful 2D geometry | invariants by induction over operation lists |
| C47–C49 | random finger generation with arbitrary draws | loop invariant; counterexample for parity |
| C50 | clusters | loop invariant (pairwise disjointness) over Boolean-algebra-valued maps |
| C51–C52 | heuristics that only touch 1D / monotone parts | Boolean algebra |
| C53, C58 | driver and check throttling | case analysis, induction over the call history |
| C54–C55 | writer | induction with prefix sums |
| C56–C57 | printing, map helpers | digits lemmas; pointwise reasoning |
