{"claims": [
  {"property": "C01", "status": "proved", "theorems": ["Ply.Geom1D.c01_normal_form", "Ply.Geom1D.c01_operators"], "note": ""},
  {"property": "C02", "status": "proved", "theorems": ["Ply.Geom1D.c02_accepts_iff", "Ply.Geom1D.c02_points"], "note": ""},
  {"property": "C03", "status": "proved", "theorems": ["Ply.Geom1D.c03_canonical", "Ply.Geom1D.c03_order_irrelevant", "Ply.Geom1D.c03_split_irrelevant"], "note": ""},
  {"property": "C04", "status": "proved", "theorems": ["Ply.Geom1D.c04_or", "Ply.Geom1D.c04_and", "Ply.Geom1D.c04_sub", "Ply.Geom1D.c04_xor", "Ply.Geom1D.c04_invert"], "note": ""},
  {"property": "C05", "status": "proved", "theorems": ["Ply.Geom1D.c05_boolean_algebra"], "note": ""},
  {"property": "C06", "status": "proved", "theorems": ["Ply.Geom1D.c06_locate"], "note": ""},
  {"property": "C07", "status": "proved", "theorems": ["Ply.Geom1D.c07_dilate", "Ply.Geom1D.c07_erode", "Ply.Geom1D.c07_inexact"], "note": ""},
  {"property": "C08", "status": "proved", "theorems": ["Ply.Geom1D.c08_compose", "Ply.Geom1D.c08_monotone", "Ply.Geom1D.c08_open_close", "Ply.Geom1D.c08_zero"], "note": ""},
  {"property": "C09", "status": "proved", "theorems": ["Ply.Geom1D.c09_measure", "Ply.Geom1D.c09_mono", "Ply.Geom1D.c09_zero_iff", "Ply.Geom1D.c09_modular"], "note": ""},
  {"property": "C10", "status": "proved", "theorems": ["Ply.Geom1D.c10_isEmpty", "Ply.Geom1D.c10_pieces", "Ply.Geom1D.c10_filter", "Ply.Geom1D.c10_isBounded"], "note": "math.isfinite overflowing on rationals outside the float range is not modelled"},
  {"property": "C100", "status": "proved", "theorems": ["Ply.c100_only", "Ply.c100_main"], "note": "assumes exact joint numbers (GeoExact), Fine geoms whose faces have no islands for the volume over the whole joint; the kerf bound from below is for cuts without islands; mesh loading, shapely slices and the dxf file itself are not modelled"},
  {"property": "C101", "status": "proved", "theorems": ["Ply.c101_any", "Ply.c101_or", "Ply.c101_union", "Ply.c101_plates", "Ply.c101_fingers", "Ply.c101_run"], "note": "one operation on plates as given; uniting results again step by step: C102; the rings of one plate must not touch one another; fingers that overlap the plate are not covered; floats are idealised as rationals"},
  {"property": "C102", "status": "proved", "theorems": ["Ply.c102_or", "Ply.c102_union", "Ply.c102_fold", "Ply.c102_plates", "Ply.c102_fingers", "Ply.c102_joints", "Ply.c102_run"], "note": "plates whose insides are apart, with the contacts described; fingers that overlap the plate or each other, and two plates that meet along two separate stretches, are not covered; floats are idealised as rationals"},
  {"property": "C103", "status": "proved", "theorems": ["Ply.c103_any", "Ply.c103_ops", "Ply.c103_run"], "note": "two polygons without holes, both seen from one common point; polygons that overlap in other ways are covered by C35 (if the operation returns, it is right); coordinates are rationals"},
  {"property": "C104", "status": "proved", "theorems": ["Ply.c104_step", "Ply.c104_expr", "Ply.c104_sub", "Ply.c104_run"], "note": "rings without holes, all seen from one common point; the points on the boundaries of the given rings are left open; three or more rings in one call of union are not covered, only combined two at a time"},
  {"property": "C105", "status": "proved", "theorems": ["Ply.c105_any", "Ply.c105_or", "Ply.c105_union", "Ply.c105_run"], "note": "pieces without holes whose insides are apart, at most three edges at a point, no hole in what they cover together; `union` of more than 64 geoms, which is split into groups first, is not covered"},
  {"property": "C106", "status": "proved", "theorems": ["Ply.c106_grow", "Ply.c106_rectangle", "Ply.c106_example"], "note": "one rectangle with upright and level edges, outline starting at any corner; `buffer` by a negative amount, and of other polygons, is covered by C71, C72 and the rest as far as they return; with floats idealised (`sq 1 = 1`, `1 < sq 2 < 2`)"},
  {"property": "C107", "status": "proved", "theorems": ["Ply.CellMerger.c107_rotated", "Ply.CellMerger.c107_least", "Ply.CellMerger.c107_first", "Ply.CellMerger.c107_same", "Ply.CellMerger.c107_twice", "Ply.CellMerger.c107_run"], "note": "for cells that pass their least vertex once; c107_twice shows that a cell that passes it twice has two forms"},
  {"property": "C108", "status": "proved", "theorems": ["Ply.c108_corners", "Ply.c108_operators", "Ply.c109_example"], "note": "for every operation on the arrangement of constructed polygons, and for the three operators with their shortcuts for empty operands"},
  {"property": "C109", "status": "proved", "theorems": ["Ply.c109_and", "Ply.c109_apart", "Ply.c109_example", "Ply.c109_touch"], "note": "for two rectangles with sides along the axes, written from any corner"},
  {"property": "C11", "status": "proved", "theorems": ["Ply.Geom1D.c11_exact", "Ply.Geom1D.c11_refused", "Ply.Geom1D.c11_exactOrInf", "Ply.Geom1D.c11_value"], "note": ""},
  {"property": "C110", "status": "proved", "theorems": ["Ply.c110_created", "Ply.c110_ready", "Ply.c110_example"], "note": "for sheets each of whose two faces is a rectangle along the axes or empty, any slices_max made by earlier operations, proper joint sides; the rounding of square roots is as in C71 with an exact root of 1"},
  {"property": "C111", "status": "proved", "theorems": ["Ply.c111_or", "Ply.c111_example"], "note": "for two rectangles with sides along the axes in any position to each other, written from any corner"},
  {"property": "C112", "status": "proved", "theorems": ["Ply.c112_or", "Ply.c112_one", "Ply.c112_union", "Ply.c112_example", "Ply.c112_chain"], "note": "for two convex polygons in any position to each other; for at most 64 of them if they do not overlap and make no closed chain; corners in the middle of straight sides are allowed"},
  {"property": "C113", "status": "proved", "theorems": ["Ply.c113_and", "Ply.c113_many", "Ply.c113_example", "Ply.c113_three"], "note": "for two convex polygons in any position to each other, and for any number of them one after the other; corners in the middle of straight sides are allowed"},
  {"property": "C114", "status": "proved", "theorems": ["Ply.fingerRing_convex", "Ply.c114_fingers", "Ply.c114_cut", "Ply.c114_example", "Ply.c114_slots"], "note": "for each single polygon of the loop of make_fingers, before they are united; & and | for convex sheets without holes, - for all sheets; floats of the joint are taken as exact rationals"},
  {"property": "C12", "status": "proved", "theorems": ["Ply.c12_range", "Ply.c12_same_direction"], "note": ""},
  {"property": "C13", "status": "proved", "theorems": ["Ply.c13_clockwise", "Ply.c13_opposite", "Ply.c13_quarter"], "note": ""},
  {"property": "C14", "status": "proved", "theorems": ["Ply.c14_on_square", "Ply.c14_periodic", "Ply.c14_right_inverse", "Ply.c14_left_inverse"], "note": ""},
  {"property": "C15", "status": "proved", "theorems": ["Ply.c15_intersection", "Ply.c15_parallel", "Ply.c15_symmetry"], "note": ""},
  {"property": "C16", "status": "proved", "theorems": ["Ply.c16_flip_once", "Ply.c16_fraction", "Ply.c16_degenerate"], "note": ""},
  {"property": "C17", "status": "proved", "theorems": ["Ply.c17_shoelace", "Ply.c17_empty", "Ply.c17_rotate", "Ply.c17_reverse", "Ply.c17_affine", "Ply.c17_cut", "Ply.c17_triangle"], "note": ""},
  {"property": "C18", "status": "proved", "theorems": ["Ply.c18_locate", "Ply.c18_empty", "Ply.c18_left_ray"], "note": ""},
  {"property": "C19", "status": "proved", "theorems": ["Ply.c19_rotate", "Ply.c19_reverse", "Ply.c19_affine", "Ply.c19_triangle"], "note": ""},
  {"property": "C20", "status": "proved", "theorems": ["Ply.c20_contains", "Ply.c20_empty", "Ply.c20_corners", "Ply.c20_order_irrelevant"], "note": ""},
  {"property": "C21", "status": "proved", "theorems": ["Ply.c21_aabb", "Ply.c21_segment", "Ply.c21_segment_boxOf", "Ply.c21_aabb_boxOf", "Ply.c21_empty"], "note": ""},
  {"property": "C22", "status": "proved", "theorems": ["Ply.c22_never_misses", "Ply.c22_never_invents", "Ply.c22_default_box"], "note": ""},
  {"property": "C23", "status": "proved", "theorems": ["Ply.c23_constructor", "Ply.c23_stab", "Ply.c23_slow"], "note": "segments is modelled as a list; a one-shot iterator (which the docstring allows) is consumed by the first loop and leaves the tree empty"},
  {"property": "C24", "status": "proved", "theorems": ["Ply.c24_no_horizontal", "Ply.c24_identity", "Ply.c24_undo"], "note": "shear removes horizontal segments, is 0 when there are none, and is undone exactly"},
  {"property": "C25", "status": "proved", "theorems": ["Ply.c25_some", "Ply.c25_none", "Ply.c25_at_y", "Ply.c25_at_y_horizontal"], "note": ""},
  {"property": "C26", "status": "proved", "theorems": ["Ply.c26_strict", "Ply.c26_active_sorted", "Ply.c26_total_order", "Ply.c26_fake_key_monotone"], "note": "for every state the main loop can reach"},
  {"property": "C27", "status": "proved", "theorems": ["Ply.c27_correct", "Ply.c27_order_irrelevant", "Ply.c27_rejects"], "note": "termination bound 2n+n^2 events; sorted containers modelled as sorted lists"},
  {"property": "C28", "status": "proved", "theorems": ["Ply.c28_content", "Ply.c28_area", "Ply.c28_winding"], "note": "for cells whose directed edges are all different (the merger asserts this); every order of the Python sets; also the winding numbers"},
  {"property": "C29", "status": "partial", "theorems": ["Ply.c29_none_lost", "Ply.c29_check_partial", "Ply.c29_check_fails", "Ply.c29_assertion_reachable"], "note": "no original is ever lost; the full claim is false in the code: c29_check_fails gives three plane faces for which check() raises, c29_assertion_reachable cells for which add_cell raises. Missing from the partial theorem: runs where cells are annihilated while other parts of the merge wait in to_add"},
  {"property": "C30", "status": "proved", "theorems": ["Ply.c30_merged"], "note": ""},
  {"property": "C31", "status": "proved", "theorems": ["Ply.c31_locate_polygon", "Ply.c31_locate_off_edges", "Ply.c31_locate", "Ply.c31_area"], "note": "for polygons that passed the constructor"},
  {"property": "C32", "status": "proved", "theorems": ["Ply.c32_constructor", "Ply.c32_polygon", "Ply.c32_orientation", "Ply.c32_no_reorient", "Ply.c32_rectangle"], "note": ""},
  {"property": "C33", "status": "proved", "theorems": ["Ply.c33_simplify"], "note": "also: no point off the input boundary changes its winding number"},
  {"property": "C34", "status": "proved", "theorems": ["Ply.c34_union_tree", "Ply.c34_union", "Ply.c34_shortcuts"], "note": "relative to the n-ary arrangement operation being right at the point, as the property says"},
  {"property": "C35", "status": "proved", "theorems": ["Ply.c35_op", "Ply.c35_operators", "Ply.c35_runs"], "note": "for the whole modelled chain: segment sweep, arrangement, cells, merging, self-check, for every iteration order of the sets; about the runs that return a geom (assertions of the code can fail, see C29); a, b must have passed the constructor"},
  {"property": "C36", "status": "proved", "theorems": ["Ply.c36_succeeds", "Ply.c36_covers", "Ply.c36_attained", "Ply.c36_region"], "note": ""},
  {"property": "C37", "status": "proved", "theorems": ["Ply.c37_fingers", "Ply.c37_rectangles", "Ply.c37_refuses", "Ply.c37_union", "Ply.c37_roundtrip", "Ply.c37_union_2d", "Ply.c37_roundtrip_2d", "Ply.c37_2d_run", "Ply.c37_any_run", "Ply.c37_area", "Ply.c37_measure"], "note": "c37_fingers: with the 2D operations of the code no call raises and every point of the result is determined, edges included; c37_area, c37_measure: the same in the real plane, the area is width times length."},
  {"property": "C38", "status": "proved", "theorems": ["Ply.c38_opposite", "Ply.c38_intersides"], "note": ""},
  {"property": "C39", "status": "partial", "theorems": ["Ply.c39_raises", "Ply.c39_limit_partial", "Ply.c39_fails"], "note": "false for the code as soon as some intersection has its first sheet among the ids: limit reads an undefined name (iter) and raises; the statement holds for the other inputs"},
  {"property": "C40", "status": "proved", "theorems": ["Ply.c40_id", "Ply.c40_commas_collide", "Ply.c40_pairs", "Ply.geo_symm"], "note": "for sheet ids without commas, which is what create_sheets makes (c42_sheets)"},
  {"property": "C41", "status": "proved", "theorems": ["Ply.c41_facets"], "note": ""},
  {"property": "C42", "status": "proved", "theorems": ["Ply.c42_groups", "Ply.c42_sheets"], "note": "the comparisons, slicing and 2D geometry are arbitrary parameters"},
  {"property": "C43", "status": "proved", "theorems": ["Ply.c43_exclusive", "Ply.c43_exact"], "note": ""},
  {"property": "C44", "status": "proved", "theorems": ["Ply.c44_local", "Ply.c44_monotone", "Ply.c44_2d", "Ply.c44_2d_run"], "note": "for sheet areas: the points of the real plane, up to measure zero, with the 2D operations of the code"},
  {"property": "C45", "status": "proved", "theorems": ["Ply.c45_joint", "Ply.c43_exact", "Ply.c45_sheet", "Ply.c45_check_gap", "Ply.c45_2d", "Ply.c44_2d_run"], "note": "for sheet areas: the Lebesgue measure in the real plane, with the 2D operations of the code"},
  {"property": "C46", "status": "proved", "theorems": ["Ply.c46_fresh", "Ply.c46_2d", "Ply.c46_check_calls", "Ply.c46_check_2d", "Ply.c46_check", "Ply.c46_total", "Ply.c46_small", "Ply.c46_islands", "Ply.c46_2d_run", "Ply.c46_2d_check", "Ply.c46_passes", "Ply.c46_choosable", "Ply.c46_any_run", "Ply.create_inter", "Ply.fresh_within"], "note": "with the 2D operations of the code, buffer included; the fresh build passes the check without any assumption about raising; the two ways to fail are shown by c46_small and c46_islands"},
  {"property": "C47", "status": "proved", "theorems": ["Ply.c47_fits", "Ply.c47_refuses"], "note": "with exact rationals in place of numpy floats; every shuffle and every draw"},
  {"property": "C48", "status": "proved", "theorems": ["Ply.c48_split"], "note": "per stretch, with exact rationals in place of numpy floats; also says when a stretch goes to side 0 as a whole"},
  {"property": "C49", "status": "partial", "theorems": ["Ply.c49_first", "Ply.c49_last_partial", "Ply.c49_last_short_partial", "Ply.c49_last_wrong"], "note": "the half about the last finger is false for the code: the number of fingers is drawn without regard to parity (c49_last_wrong); it holds when the number drawn has the right parity and for stretches shorter than six minimal widths"},
  {"property": "C50", "status": "proved", "theorems": ["Ply.c50_components", "Ply.c50_disjoint", "Ply.c50_found"], "note": "c50_components and c50_disjoint hold for every list of proper interactions; c50_found, that the interactions found in a build are proper, for all 2D operations whose projections are made by the constructor, which geom2d_projectMade shows for the code"},
  {"property": "C51", "status": "proved", "theorems": ["Ply.c51_effect", "Ply.c51_nothing_left", "Ply.c51_accept", "Ply.c51_calls", "Ply.c51_2d", "Ply.c51_fine"], "note": "1D assertions; with the 2D operations of the code only the union that adds the fingers can raise (C86), and the assertion about the area on the opposite sheet can fire"},
  {"property": "C52", "status": "proved", "theorems": ["Ply.c52_inter", "Ply.c52_loose_only", "Ply.c52_sheet_only", "Ply.c52_clean_only", "Ply.c52_loose", "Ply.c52_loose_sheet", "Ply.c52_sheet", "Ply.c52_clean", "Ply.c52_loose_2d", "Ply.c52_2d_run", "Ply.c52_sheet_2d", "Ply.c52_clean_2d", "Ply.c52_loose_fine", "Ply.c52_clean_run"], "note": "with the 2D operations of the code, buffer included; about the runs that return a build"},
  {"property": "C53", "status": "proved", "theorems": ["Ply.Canned.c53_ok", "Ply.Canned.c53_history", "Ply.Canned.c53_failed", "Ply.Canned.c53_raises", "Ply.Canned.c53_show", "Ply.Canned.c53_main", "Ply.Canned.c53_main_masks"], "note": "for any steps and checks; c53_main is about command_line.main from the sheetplex on"},
  {"property": "C54", "status": "proved", "theorems": ["Ply.Writer.c54_placed", "Ply.Writer.c54_after_empty"], "note": "positions of the outer boundaries; exact arithmetic, the conversion to floats on saving and the file format are not modelled"},
  {"property": "C55", "status": "proved", "theorems": ["Ply.Writer.c54_placed", "Ply.Writer.c55_writes"], "note": "c54_placed gives the whole output as translated closed loops, one vector per sheet; c55_writes says when writing succeeds"},
  {"property": "C56", "status": "proved", "theorems": ["Ply.c56_frac", "Ply.c56_fstr", "Ply.c56_text"], "note": ""},
  {"property": "C57", "status": "proved", "theorems": ["Ply.c57_or_geom", "Ply.c57_op_geom", "Ply.c57_or", "Ply.c57_and", "Ply.c57_or_geom_1d", "Ply.c57_or_1d", "Ply.c57_and_1d"], "note": ""},
  {"property": "C58", "status": "proved", "theorems": ["Ply.c58_forced", "Ply.c58_often", "Ply.c58_sharp"], "note": ""},
  {"property": "C59", "status": "proved", "theorems": ["Ply.c59_buffer", "Ply.c59_convex"], "note": "for any positive approximation of the square root"},
  {"property": "C60", "status": "proved", "theorems": ["Ply.c60_injective", "Ply.c60_lookup", "Ply.c60_incidence"], "note": ""},
  {"property": "C61", "status": "proved", "theorems": ["Ply.c61_separate"], "note": ""},
  {"property": "C62", "status": "proved", "theorems": ["Ply.c62_accept", "Ply.c62_reject", "Ply.c62_exact", "Ply.c62_2d", "Ply.c62_2d_run", "Ply.c62_fine", "Ply.c62_tentative"], "note": "with the 2D operations of the code: accepted exactly when within the tolerances and, if not tentative, the union of the chosen area and the fingers does not raise"},
  {"property": "C63", "status": "proved", "theorems": ["Ply.c63_joint", "Ply.c63_iff", "Ply.c63_exact", "Ply.c63_2d", "Ply.c63_2d_run", "Ply.c63_fine", "Ply.c63_reached", "Ply.check_strip"], "note": "with the 2D operations of the code no operation called by the check raises; areas are Lebesgue measure in the real plane"},
  {"property": "C64", "status": "proved", "theorems": ["Ply.c64_same", "Ply.c64_passes"], "note": "for every record of 2D operations"},
  {"property": "C65", "status": "proved", "theorems": ["Ply.c65_effect", "Ply.c65_decided", "Ply.c65_all"], "note": "for every record of 2D operations and every admissible outcome of the random draws, taken as rationals"},
  {"property": "C66", "status": "proved", "theorems": ["Ply.Canned.c66_run", "Ply.FullRun.c66_full_run", "Ply.Canned.run_le"], "note": "for every record of 2D operations whose projections are made by the constructor (geom2d_projectMade for the code) and every admissible outcome of the random draws"},
  {"property": "C67", "status": "proved", "theorems": ["Ply.c67_net", "Ply.c68_run"], "note": "total: the construction of vertices and half-edges cannot fail on segments of positive length"},
  {"property": "C68", "status": "proved", "theorems": ["Ply.c68_cells", "Ply.c68_run"], "note": "about the runs in which no assertion of the constructor fails"},
  {"property": "C69", "status": "proved", "theorems": ["Ply.c69_area", "Ply.c69_add", "Ply.c69_run"], "note": "about the runs that return a geom"},
  {"property": "C70", "status": "proved", "theorems": ["Ply.c70_lawful", "Ply.c70_area", "Ply.c69_run", "Ply.c44_2d_run"], "note": "the laws assumed of 2D operations by the theorems on sheet builds hold for the code; points on edges are a set of measure zero"},
  {"property": "C71", "status": "proved", "theorems": ["Ply.c71_grow", "Ply.c71_far", "Ply.c71_near", "Ply.buffer_grow", "Ply.c71_run"], "note": "about the runs that return a geom; the geom must be a result of earlier operations (Fine)"},
  {"property": "C72", "status": "proved", "theorems": ["Ply.c72_shrink", "Ply.c72_near", "Ply.c72_far", "Ply.buffer_shrink", "Ply.c72_run"], "note": "about the runs that return a geom; the geom must be a result of earlier operations (Fine)"},
  {"property": "C73", "status": "proved", "theorems": ["Ply.buffer_islands", "Ply.c73_run", "Ply.c46_islands"], "note": "a defect of the code"},
  {"property": "C74", "status": "proved", "theorems": ["Ply.arr_fine", "Ply.union_fine", "Ply.makeFingers_fine", "Ply.single_fine", "Ply.buffer_fine", "Ply.ring_fine", "Ply.thin_fine"], "note": ""},
  {"property": "C75", "status": "proved", "theorems": ["Ply.Geom2D.Crisp.edge", "Ply.arr_fine", "Ply.and_has", "Ply.ring_fine"], "note": ""},
  {"property": "C76", "status": "proved", "theorems": ["Ply.buffer_open", "Ply.buffer_opened", "Ply.c52_clean_2d", "Ply.c52_clean_run"], "note": ""},
  {"property": "C77", "status": "proved", "theorems": ["Ply.buffer_mono", "Ply.c73_run"], "note": "false with islands (C73)"},
  {"property": "C78", "status": "proved", "theorems": ["Ply.c78_or", "Ply.c78_and", "Ply.c78_sub", "Ply.c78_union"], "note": "about runs that return a geom; operands are results of earlier operations (Fine), which from_shapely, polygon and all operators give"},
  {"property": "C79", "status": "proved", "theorems": ["Ply.c79_from_shapely", "Ply.c79_noded", "Ply.c79_open", "Ply.frame_valid", "Ply.c79_run", "Ply.c79_refused"], "note": "coordinates are exact; shapely.orient is modelled by exact signed areas"},
  {"property": "C80", "status": "proved", "theorems": ["Ply.c80_face", "Ply.c80_flat", "Ply.c80_run"], "note": "about runs that return a geom; the projected triangles are given"},
  {"property": "C81", "status": "proved", "theorems": ["Ply.c81_max", "Ply.c81_min"], "note": "about runs that return a geom"},
  {"property": "C82", "status": "proved", "theorems": ["Ply.c82_parts", "Ply.c82_absent", "Ply.c82_none", "Ply.c82_run", "Ply.srcT_sourced"], "note": "about runs that return; the slices and the projected triangles are given by trimesh and shapely; rings of a slice may meet only where both have a corner"},
  {"property": "C83", "status": "proved", "theorems": ["Ply.c83_kept", "Ply.c83_all", "Ply.c83_run"], "note": "about runs that return a build; c83_all needs a common face without polygons in holes of others"},
  {"property": "C84", "status": "proved", "theorems": ["Ply.c84_built", "Ply.c84_run"], "note": "Geoms must be Usable: made by the constructors, loops cutting the plane; all results of operations are. The fuel of the model's loops is shown to suffice."},
  {"property": "C85", "status": "proved", "theorems": ["Ply.c85_and", "Ply.c85_sub", "Ply.c85_run"], "note": "For Fine operands, which all results of operations are. The union may raise (Ply.c86_or_raises)."},
  {"property": "C86", "status": "proved", "theorems": ["Ply.c86_or", "Ply.c86_union", "Ply.c86_any", "Ply.c86_run", "Ply.c86_or_raises"], "note": "Geoms must be Fine, as all results of operations are."},
  {"property": "C87", "status": "proved", "theorems": ["Ply.c87_made", "Ply.c87_made_whole", "Ply.c87_made_decided", "Ply.c87_joint", "Ply.c87_whole", "Ply.c87_decided", "Ply.check_strip", "Ply.run_cuts"], "note": "with the 2D operations of the code; a concrete run is Ply.FullRun.c66_full_run"},
  {"property": "C88", "status": "proved", "theorems": ["Ply.c88_slices", "Ply.c88_near", "Ply.c88_core", "Ply.c88_fingers", "Ply.c88_run", "Ply.c88_run_near"], "note": "with the 2D operations of the code, points up to null sets except in c88_near; a concrete run is Ply.FullRun.c66_full_run"},
  {"property": "C89", "status": "proved", "theorems": ["Ply.c89_crosses", "Ply.c89_numbers", "Ply.c89_seen", "Ply.c89_unique", "Ply.c89_square", "Ply.line_crossing", "Ply.lstsq_solves", "Ply.lstsq_least", "Ply.create_placed", "Ply.Placed.proper", "Ply.geo_symm"], "note": "exact real arithmetic in place of floats; the slice rotation of trimesh is assumed to be a right-angled frame whose third axis is the normal"},
  {"property": "C90", "status": "proved", "theorems": ["Ply.c90_volume", "Ply.c90_square", "Ply.c90_run", "Ply.c90_decided"], "note": "as C87, for exact joint numbers; a concrete run with placed sheets is in Verif/Props/CollisionExample.lean"},
  {"property": "C91", "status": "proved", "theorems": ["Ply.c91_trace", "Ply.c91_fresh", "Ply.c91_run", "Ply.c91_fingers", "Ply.grown_close", "Ply.grown_reach"], "note": "for every successful run of the modelled program; a concrete run is in Verif/Props/FilledExample.lean"},
  {"property": "C92", "status": "proved", "theorems": ["Ply.c92_run", "Ply.c92_made", "Ply.create_nearly", "Ply.within_create", "Ply.within_places"], "note": "for every successful run of the modelled program; a run with a sheet that is turned a little is in Verif/Props/RoundingExample.lean"},
  {"property": "C93", "status": "proved", "theorems": ["Ply.Arr.c93_query", "Ply.Arr.c93_slow"], "note": "for the net of any segments and every point of the box; the plain query also for every direction that is parallel to no half-edge"},
  {"property": "C94", "status": "proved", "theorems": ["Ply.c94_laws", "Ply.c94_read", "Ply.c94_buffer", "Ply.c94_union", "Ply.c94_total"], "note": "for results when they exist: | and union can raise (C86); & and - never do, so expressions without | always have a result (c94_total)"},
  {"property": "C95", "status": "proved", "theorems": ["Ply.c95_fresh", "Ply.c95_ops", "Ply.c95_steps", "Ply.c95_check", "Ply.c95_tentative"], "note": "covers a fresh build, the operations on it, update_intersection_ok, choose_the_ok_side, single_fingers_random, the search for interactions, check and tentative choices; the steps that use polygons() or buffer on intermediate results (remove_loose, clean_up, choose_obviously_irrelevant, the sheet side of update_sheet_ok) are not covered, as a result may represent a set with or without polygons in holes"},
  {"property": "C96", "status": "proved", "theorems": ["Ply.c96_any", "Ply.c96_or", "Ply.c96_union", "Ply.c96_run"], "note": "polygons without holes (with holes: C101); for a union of more than 64 geoms see C97; pieces that touch in a closed chain are not covered, as the merge of cells may then raise (C37)"},
  {"property": "C97", "status": "proved", "theorems": ["Ply.c97_or", "Ply.c97_union", "Ply.c97_fold", "Ply.c97_fingers", "Ply.c97_joints", "Ply.c97_run"], "note": "pieces without holes whose insides are apart, as in C96; fingers that overlap the plate or each other are not covered; floats are idealised as rationals"},
  {"property": "C98", "status": "proved", "theorems": ["Ply.c98_exclusive", "Ply.c98_groups", "Ply.c98_slab", "Ply.c98_plate", "Ply.c98_run"], "note": "normals, offsets and tolerances are exact real numbers in place of floats; that the points of a facet lie on its plane and within the hull of its border is assumed of trimesh"},
  {"property": "C99", "status": "proved", "theorems": ["Ply.c99_heights", "Ply.c99_slices"], "note": "exact real numbers in place of floats"}
]}
