{
 "claims": [
  {
   "property": "C01",
   "status": "proved",
   "theorems": [
    "TopoGeo.C01_debug",
    "TopoGeo.C01_release",
    "TopoGeo.C01_release_exact",
    "TopoGeo.C01_debug_succeeds",
    "TopoGeo.C01_debug_iff"
   ],
   "note": ""
  },
  {
   "property": "C02",
   "status": "proved",
   "theorems": [
    "TopoGeo.C02_shoelace_cut",
    "TopoGeo.C02_debug",
    "TopoGeo.C02_release",
    "TopoGeo.C02_edges"
   ],
   "note": ""
  },
  {
   "property": "C03",
   "status": "proved",
   "theorems": [
    "TopoGeo.C03_signed",
    "TopoGeo.C03_debug",
    "TopoGeo.C03_area2",
    "TopoGeo.C03_winding",
    "TopoGeo.C03_debug_winding"
   ],
   "note": ""
  },
  {
   "property": "C04",
   "status": "proved",
   "theorems": [
    "TopoGeo.C04_rotate_shoelace",
    "TopoGeo.C04_rotate",
    "TopoGeo.C04_translate"
   ],
   "note": ""
  },
  {
   "property": "C05",
   "status": "proved",
   "theorems": [
    "TopoGeo.C05_edges_of_points",
    "TopoGeo.C05_edges_chain",
    "TopoGeo.C05_points_of_edges",
    "TopoGeo.C05_points_of_edges_repeat_nodes"
   ],
   "note": ""
  },
  {
   "property": "C06",
   "status": "partial",
   "theorems": [
    "TopoGeo.C06_release_exact",
    "TopoGeo.C06_debug",
    "TopoGeo.C06_release_partial",
    "TopoGeo.C06_release_refuted"
   ],
   "note": "Exact in checked builds (C06_debug). In release builds it holds if (C06_release_partial) and only if (C06_release_exact) the shoelace sum fits in an i64; the unconditional statement is false, see C06_release_refuted."
  },
  {
   "property": "C07",
   "status": "proved",
   "theorems": [
    "TopoGeo.C07_round_trip"
   ],
   "note": ""
  },
  {
   "property": "C08",
   "status": "proved",
   "theorems": [
    "TopoGeo.C08_only_degenerate_dropped"
   ],
   "note": ""
  },
  {
   "property": "C09",
   "status": "proved",
   "theorems": [
    "TopoGeo.C09_canonical",
    "TopoGeo.C09_unique"
   ],
   "note": ""
  },
  {
   "property": "C10",
   "status": "proved",
   "theorems": [
    "TopoGeo.C10_sharing"
   ],
   "note": ""
  },
  {
   "property": "C11",
   "status": "proved",
   "theorems": [
    "TopoGeo.C11_back_pointers"
   ],
   "note": ""
  },
  {
   "property": "C12",
   "status": "proved",
   "theorems": [
    "TopoGeo.C12_add_region_total",
    "TopoGeo.C12_add_region_debug",
    "TopoGeo.C12_into_topology"
   ],
   "note": ""
  },
  {
   "property": "C13",
   "status": "proved",
   "theorems": [
    "TopoGeo.C13_hash_order_clip",
    "TopoGeo.C13_hash_order"
   ],
   "note": "TopologyBuilder: C13_hash_order. clip_topology: C13_hash_order_clip."
  },
  {
   "property": "C14",
   "status": "proved",
   "theorems": [
    "TopoGeo.C14_first_use",
    "TopoGeo.C14_stable"
   ],
   "note": ""
  },
  {
   "property": "C15",
   "status": "proved",
   "theorems": [
    "TopoGeo.C15_conserved",
    "TopoGeo.C15_unmerged",
    "TopoGeo.C15_topology"
   ],
   "note": ""
  },
  {
   "property": "C16",
   "status": "partial",
   "theorems": [
    "TopoGeo.C16_ring_partial",
    "TopoGeo.C16_oriented_partial",
    "TopoGeo.C16_topology_partial",
    "TopoGeo.C16_refuted"
   ],
   "note": "Documented claim is false for merged rings (C16_refuted); proved for regions without same-region edges, for rings whose 64-bit area is not -2^63 (C16_oriented_partial, C16_topology_partial); ring by ring, only rings made of parts of rings with such edges can be the wrong way round (C16_ring_partial)."
  },
  {
   "property": "C17",
   "status": "proved",
   "theorems": [
    "TopoGeo.C17_first"
   ],
   "note": ""
  },
  {
   "property": "C18",
   "status": "proved",
   "theorems": [
    "TopoGeo.C18_rotation",
    "TopoGeo.C18_fewest_edges"
   ],
   "note": ""
  },
  {
   "property": "C19",
   "status": "proved",
   "theorems": [
    "TopoGeo.C19_no_self_edge"
   ],
   "note": ""
  },
  {
   "property": "C20",
   "status": "partial",
   "theorems": [
    "TopoGeo.C20_fixpoint_exact",
    "TopoGeo.C20_idempotent_exact",
    "TopoGeo.C20_fixpoint_partial",
    "TopoGeo.C20_idempotent_partial",
    "TopoGeo.C20_refuted"
   ],
   "note": "False in general (C20_refuted); proved for topologies that satisfy the documented rules (C20_fixpoint_partial, C20_idempotent_partial). It holds on maps without overlaps: C74; and for topologies of rings of points the second pass is always the last one that changes anything: C118; repeating it always ends: C119. The condition is exact: a topology is left alone exactly if it follows the rules (C20_fixpoint_exact, C20_idempotent_exact)."
  },
  {
   "property": "C21",
   "status": "proved",
   "theorems": [
    "TopoGeo.C21_panics",
    "TopoGeo.C21_release",
    "TopoGeo.C21_points_passes",
    "TopoGeo.C21_points",
    "TopoGeo.C21_built"
   ],
   "note": "C21_panics lists the reachable panics; C21_release and C21_points give panic freedom."
  },
  {
   "property": "C22",
   "status": "proved",
   "theorems": [
    "TopoGeo.C22_area"
   ],
   "note": ""
  },
  {
   "property": "C23",
   "status": "partial",
   "theorems": [
    "TopoGeo.C23_segments_partial",
    "TopoGeo.C23_refuted"
   ],
   "note": "False at edge level (C23_refuted); proved at segment level (C23_segments_partial). It holds on maps without overlaps: C74."
  },
  {
   "property": "C24",
   "status": "proved",
   "theorems": [
    "TopoGeo.C24_test",
    "TopoGeo.C24_sides",
    "TopoGeo.C24_mirror"
   ],
   "note": ""
  },
  {
   "property": "C25",
   "status": "proved",
   "theorems": [
    "TopoGeo.C25_intersect",
    "TopoGeo.C25_debug",
    "TopoGeo.C25_release_on_line",
    "TopoGeo.C25_release_between",
    "TopoGeo.C25_small",
    "TopoGeo.C25_release_refuted"
   ],
   "note": "C25_intersect where the product fits, C25_debug and C25_release_between where it does not; C25_release_refuted shows that the accuracy is lost then."
  },
  {
   "property": "C26",
   "status": "proved",
   "theorems": [
    "TopoGeo.C26_stays_inside"
   ],
   "note": ""
  },
  {
   "property": "C27",
   "status": "proved",
   "theorems": [
    "TopoGeo.C27_inside",
    "TopoGeo.C27_outside",
    "TopoGeo.C27_inside_points",
    "TopoGeo.C27_empty_iff"
   ],
   "note": ""
  },
  {
   "property": "C28",
   "status": "proved",
   "theorems": [
    "TopoGeo.C28_visible",
    "TopoGeo.C28_crossings",
    "TopoGeo.C28_steps"
   ],
   "note": ""
  },
  {
   "property": "C29",
   "status": "proved",
   "theorems": [
    "TopoGeo.C29_twice",
    "TopoGeo.C29_thrice",
    "TopoGeo.C29_two_points",
    "TopoGeo.C29_panics"
   ],
   "note": ""
  },
  {
   "property": "C30",
   "status": "proved",
   "theorems": [
    "TopoGeo.C30_closed"
   ],
   "note": ""
  },
  {
   "property": "C31",
   "status": "proved",
   "theorems": [
    "TopoGeo.C31_regions",
    "TopoGeo.C31_visible_edges"
   ],
   "note": ""
  },
  {
   "property": "C32",
   "status": "proved",
   "theorems": [
    "TopoGeo.C32_inside",
    "TopoGeo.C32_plugs"
   ],
   "note": "The first half holds for any input; that plugs run along the line needs closed input rings (C32_plugs), as the property is about topologies of rings."
  },
  {
   "property": "C33",
   "status": "proved",
   "theorems": [
    "TopoGeo.C33_back_pointers"
   ],
   "note": ""
  },
  {
   "property": "C34",
   "status": "proved",
   "theorems": [
    "TopoGeo.C34_sharing",
    "TopoGeo.C34_plug"
   ],
   "note": ""
  },
  {
   "property": "C35",
   "status": "proved",
   "theorems": [
    "TopoGeo.C35_identity",
    "TopoGeo.C35_identity_debug",
    "TopoGeo.C35_built"
   ],
   "note": ""
  },
  {
   "property": "C36",
   "status": "proved",
   "theorems": [
    "TopoGeo.C36_panics",
    "TopoGeo.C36_debug",
    "TopoGeo.C36_panic_freedom_refuted"
   ],
   "note": "Exact characterisation; panic freedom itself is refuted by C36_panic_freedom_refuted."
  },
  {
   "property": "C37",
   "status": "partial",
   "theorems": [
    "TopoGeo.C37_used_partial",
    "TopoGeo.C37_refuted",
    "TopoGeo.C37_exact"
   ],
   "note": "False in general (C37_refuted); proved when no ring that leaves something is dropped (C37_used_partial); the exact condition is C37_exact."
  },
  {
   "property": "C38",
   "status": "proved",
   "theorems": [
    "TopoGeo.C38_subsequence"
   ],
   "note": ""
  },
  {
   "property": "C39",
   "status": "proved",
   "theorems": [
    "TopoGeo.C39_ring"
   ],
   "note": ""
  },
  {
   "property": "C40",
   "status": "proved",
   "theorems": [
    "TopoGeo.C40_release",
    "TopoGeo.C40_panics",
    "TopoGeo.C40_debug"
   ],
   "note": "Release: exact (C40_release). Checked builds: C40_panics, and none below 2^21 (C40_debug)."
  },
  {
   "property": "C41",
   "status": "proved",
   "theorems": [
    "TopoGeo.C41_unchanged",
    "TopoGeo.C41_zero",
    "TopoGeo.C41_changed"
   ],
   "note": ""
  },
  {
   "property": "C42",
   "status": "proved",
   "theorems": [
    "TopoGeo.C42_dropped"
   ],
   "note": ""
  },
  {
   "property": "C43",
   "status": "partial",
   "theorems": [
    "TopoGeo.C43_weight_partial",
    "TopoGeo.C43_weight_refuted",
    "TopoGeo.C43_first_partial",
    "TopoGeo.C43_order_refuted",
    "TopoGeo.C43_short_partial"
   ],
   "note": "Both halves are false: C43_weight_refuted (area formula) and C43_order_refuted (result is not that of removing lightest points first, even with the code's own weights, for a line of five points). Proved instead: the weight is the area if the neighbours are level (C43_weight_partial), the first point removed is a lightest one (C43_first_partial), and a line of up to four points becomes what removing lightest points first makes of it (C43_short_partial)."
  },
  {
   "property": "C44",
   "status": "partial",
   "theorems": [
    "TopoGeo.C44_unchanged_partial",
    "TopoGeo.C44_refuted"
   ],
   "note": "False (C44_refuted). Proved: an edge left alone by a threshold is left alone by smaller ones (C44_unchanged_partial)."
  },
  {
   "property": "C45",
   "status": "proved",
   "theorems": [
    "TopoGeo.C45_frame",
    "TopoGeo.C45_back_pointers",
    "TopoGeo.C45_closed",
    "TopoGeo.C45_release",
    "TopoGeo.C45_points",
    "TopoGeo.C45_panic"
   ],
   "note": "Also: exactly when the release build panics (C45_release), never on topologies built from point rings (C45_points), and a built topology on which it does (C45_panic)."
  },
  {
   "property": "C46",
   "status": "proved",
   "theorems": [
    "TopoGeo.C46_count"
   ],
   "note": ""
  },
  {
   "property": "C47",
   "status": "proved",
   "theorems": [
    "TopoGeo.C47_fields"
   ],
   "note": ""
  },
  {
   "property": "C48",
   "status": "proved",
   "theorems": [
    "TopoGeo.C48_round_trip"
   ],
   "note": ""
  },
  {
   "property": "C49",
   "status": "proved",
   "theorems": [
    "TopoGeo.C49_numeric"
   ],
   "note": ""
  },
  {
   "property": "C50",
   "status": "proved",
   "theorems": [
    "TopoGeo.C50_character",
    "TopoGeo.C50_unique"
   ],
   "note": ""
  },
  {
   "property": "C51",
   "status": "proved",
   "theorems": [
    "TopoGeo.C51_opening",
    "TopoGeo.C51_total"
   ],
   "note": ""
  },
  {
   "property": "C52",
   "status": "proved",
   "theorems": [
    "TopoGeo.C52_round_trip"
   ],
   "note": ""
  },
  {
   "property": "C53",
   "status": "proved",
   "theorems": [
    "TopoGeo.C53_release",
    "TopoGeo.C53_error",
    "TopoGeo.C53_debug",
    "TopoGeo.C53_total"
   ],
   "note": ""
  },
  {
   "property": "C54",
   "status": "proved",
   "theorems": [
    "TopoGeo.C54_accepted",
    "TopoGeo.C54_next",
    "TopoGeo.C54_rings"
   ],
   "note": ""
  },
  {
   "property": "C55",
   "status": "proved",
   "theorems": [
    "TopoGeo.C55_reading",
    "TopoGeo.C55_panics",
    "TopoGeo.C55_next"
   ],
   "note": ""
  },
  {
   "property": "C56",
   "status": "proved",
   "theorems": [
    "TopoGeo.C56_size",
    "TopoGeo.C56_none",
    "TopoGeo.C56_io_forever",
    "TopoGeo.C56_rejected"
   ],
   "note": ""
  },
  {
   "property": "C57",
   "status": "proved",
   "theorems": [
    "TopoGeo.C57_lockstep",
    "TopoGeo.C57_panic",
    "TopoGeo.C57_none",
    "TopoGeo.C57_new",
    "TopoGeo.C57_round_trip"
   ],
   "note": ""
  },
  {
   "property": "C58",
   "status": "proved",
   "theorems": [
    "TopoGeo.C58_sides",
    "TopoGeo.C58_monotone",
    "TopoGeo.C58_outside",
    "TopoGeo.C58_inside",
    "TopoGeo.C58_overflow"
   ],
   "note": ""
  },
  {
   "property": "C59",
   "status": "proved",
   "theorems": [
    "TopoGeo.C59_region",
    "TopoGeo.C59_passes",
    "TopoGeo.C59_permutation",
    "TopoGeo.C59_true_winding"
   ],
   "note": ""
  },
  {
   "property": "C60",
   "status": "proved",
   "theorems": [
    "TopoGeo.C60_panics",
    "TopoGeo.C60_long"
   ],
   "note": ""
  },
  {
   "property": "C61",
   "status": "proved",
   "theorems": [
    "TopoGeo.C61_get_field",
    "TopoGeo.C61_shapefile"
   ],
   "note": ""
  },
  {
   "property": "C62",
   "status": "proved",
   "theorems": [
    "TopoGeo.C62_accuracy",
    "TopoGeo.C62_distinct"
   ],
   "note": ""
  },
  {
   "property": "C63",
   "status": "proved",
   "theorems": [
    "TopoGeo.C63_frame",
    "TopoGeo.C63_region"
   ],
   "note": ""
  },
  {
   "property": "C64",
   "status": "proved",
   "theorems": [
    "TopoGeo.C64_point",
    "TopoGeo.C64_format",
    "TopoGeo.C64_edge",
    "TopoGeo.C64_ring",
    "TopoGeo.C64_region"
   ],
   "note": ""
  },
  {
   "property": "C65",
   "status": "proved",
   "theorems": [
    "TopoGeo.C65_valid",
    "TopoGeo.C65_invalid",
    "TopoGeo.C65_panics",
    "TopoGeo.C65_shapefile"
   ],
   "note": ""
  },
  {
   "property": "C66",
   "status": "proved",
   "theorems": [
    "TopoGeo.C66_path",
    "TopoGeo.C66_path_bare",
    "TopoGeo.C66_files",
    "TopoGeo.C66_reader",
    "TopoGeo.C66_shapes_first",
    "TopoGeo.C66_attributes_missing",
    "TopoGeo.C66_ascii",
    "TopoGeo.C66_dbf_ascii"
   ],
   "note": ""
  },
  {
   "property": "C67",
   "status": "proved",
   "theorems": [
    "TopoGeo.C67_edge",
    "TopoGeo.C67_rectangle",
    "TopoGeo.C67_closed",
    "TopoGeo.C67_regions"
   ],
   "note": ""
  },
  {
   "property": "C68",
   "status": "proved",
   "theorems": [
    "TopoGeo.C68_read",
    "TopoGeo.C68_error",
    "TopoGeo.C68_ends",
    "TopoGeo.C68_program"
   ],
   "note": ""
  },
  {
   "property": "C69",
   "status": "proved",
   "theorems": [
    "TopoGeo.C69_neighbours"
   ],
   "note": ""
  },
  {
   "property": "C70",
   "status": "proved",
   "theorems": [
    "TopoGeo.C70_description",
    "TopoGeo.C70_sides"
   ],
   "note": ""
  },
  {
   "property": "C71",
   "status": "proved",
   "theorems": [
    "TopoGeo.C71_lines",
    "TopoGeo.C71_error",
    "TopoGeo.C71_panics",
    "TopoGeo.C71_open",
    "TopoGeo.C71_program"
   ],
   "note": ""
  },
  {
   "property": "C72",
   "status": "proved",
   "theorems": [
    "TopoGeo.C72_edges"
   ],
   "note": ""
  },
  {
   "property": "C73",
   "status": "proved",
   "theorems": [
    "TopoGeo.C73_ends",
    "TopoGeo.C73_all"
   ],
   "note": ""
  },
  {
   "property": "C74",
   "status": "proved",
   "theorems": [
    "TopoGeo.C74_sides",
    "TopoGeo.C74_one_edge",
    "TopoGeo.C74_distinct",
    "TopoGeo.C74_idempotent",
    "TopoGeo.C74_points"
   ],
   "note": ""
  },
  {
   "property": "C75",
   "status": "proved",
   "theorems": [
    "TopoGeo.C75_built",
    "TopoGeo.C75_clipped",
    "TopoGeo.C75_moved",
    "TopoGeo.C75_equal",
    "TopoGeo.C75_offset",
    "TopoGeo.C75_offset_wraps",
    "TopoGeo.C75_read"
   ],
   "note": ""
  },
  {
   "property": "C76",
   "status": "proved",
   "theorems": [
    "TopoGeo.C76_seam",
    "TopoGeo.C76_area",
    "TopoGeo.C76_checked",
    "TopoGeo.C76_debug"
   ],
   "note": ""
  },
  {
   "property": "C77",
   "status": "proved",
   "theorems": [
    "TopoGeo.C77_depends",
    "TopoGeo.C77_rebuild"
   ],
   "note": ""
  },
  {
   "property": "C78",
   "status": "proved",
   "theorems": [
    "TopoGeo.C78_even_odd",
    "TopoGeo.C78_topology"
   ],
   "note": ""
  },
  {
   "property": "C79",
   "status": "proved",
   "theorems": [
    "TopoGeo.C79_canonical",
    "TopoGeo.C79_same_map",
    "TopoGeo.C79_pinched"
   ],
   "note": ""
  },
  {
   "property": "C80",
   "status": "proved",
   "theorems": [
    "TopoGeo.C80_build",
    "TopoGeo.C80_clip_edge",
    "TopoGeo.C80_clip_rings",
    "TopoGeo.C80_clip_topology",
    "TopoGeo.C80_normalize",
    "TopoGeo.C80_simplify",
    "TopoGeo.C80_rings_refuted",
    "TopoGeo.C80_edges_refuted"
   ],
   "note": ""
  },
  {
   "property": "C81",
   "status": "proved",
   "theorems": [
    "TopoGeo.C81_well_formed",
    "TopoGeo.C81_normal_form",
    "TopoGeo.C81_collapse_refuted",
    "TopoGeo.C81_winding_refuted",
    "TopoGeo.C81_overlap_refuted"
   ],
   "note": ""
  },
  {
   "property": "C82",
   "status": "proved",
   "theorems": [
    "TopoGeo.C82_clip",
    "TopoGeo.C82_well_formed",
    "TopoGeo.C82_panics",
    "TopoGeo.C82_points",
    "TopoGeo.C82_refuted"
   ],
   "note": ""
  },
  {
   "property": "C83",
   "status": "proved",
   "theorems": [
    "TopoGeo.C83_rules",
    "TopoGeo.C83_complete",
    "TopoGeo.C83_axes"
   ],
   "note": ""
  },
  {
   "property": "C84",
   "status": "proved",
   "theorems": [
    "TopoGeo.C84_vertical",
    "TopoGeo.C84_mirror",
    "TopoGeo.C84_topology",
    "TopoGeo.C84_topology_mirror",
    "TopoGeo.C84_horizontal_refuted",
    "TopoGeo.C84_reversal_refuted",
    "TopoGeo.C84_axes_refuted"
   ],
   "note": ""
  },
  {
   "property": "C85",
   "status": "proved",
   "theorems": [
    "TopoGeo.C85_unbounded",
    "TopoGeo.C85_straight",
    "TopoGeo.C85_idempotent_refuted",
    "TopoGeo.C85_settles"
   ],
   "note": ""
  },
  {
   "property": "C86",
   "status": "proved",
   "theorems": [
    "TopoGeo.C86_needed",
    "TopoGeo.C86_merge",
    "TopoGeo.C86_cancel",
    "TopoGeo.C86_points",
    "TopoGeo.C86_hole_panics",
    "TopoGeo.C86_touch_panics"
   ],
   "note": ""
  },
  {
   "property": "C87",
   "status": "proved",
   "theorems": [
    "TopoGeo.C87_same",
    "TopoGeo.C87_edge",
    "TopoGeo.C87_topology",
    "TopoGeo.C87_sift"
   ],
   "note": ""
  },
  {
   "property": "C88",
   "status": "proved",
   "theorems": [
    "TopoGeo.C88_parity",
    "TopoGeo.C88_build",
    "TopoGeo.C88_simplify",
    "TopoGeo.C88_no_gap"
   ],
   "note": ""
  },
  {
   "property": "C89",
   "status": "proved",
   "theorems": [
    "TopoGeo.C89_total",
    "TopoGeo.C89_simplify"
   ],
   "note": ""
  },
  {
   "property": "C90",
   "status": "proved",
   "theorems": [
    "TopoGeo.C90_steps",
    "TopoGeo.C90_complete"
   ],
   "note": ""
  },
  {
   "property": "C91",
   "status": "proved",
   "theorems": [
    "TopoGeo.C91_run",
    "TopoGeo.C91_first",
    "TopoGeo.C91_ends",
    "TopoGeo.C91_later",
    "TopoGeo.C91_counts"
   ],
   "note": ""
  },
  {
   "property": "C92",
   "status": "proved",
   "theorems": [
    "TopoGeo.C92_rings",
    "TopoGeo.C92_inside",
    "TopoGeo.C92_outside"
   ],
   "note": ""
  },
  {
   "property": "C93",
   "status": "proved",
   "theorems": [
    "TopoGeo.C93_build",
    "TopoGeo.C93_count",
    "TopoGeo.C93_normalize",
    "TopoGeo.C93_dropped_refuted"
   ],
   "note": ""
  },
  {
   "property": "C94",
   "status": "proved",
   "theorems": [
    "TopoGeo.C94_bows",
    "TopoGeo.C94_local"
   ],
   "note": ""
  },
  {
   "property": "C95",
   "status": "proved",
   "theorems": [
    "TopoGeo.C95_build",
    "TopoGeo.C95_clip",
    "TopoGeo.C95_normalize",
    "TopoGeo.C95_open_refuted",
    "TopoGeo.C95_checked_refuted"
   ],
   "note": ""
  },
  {
   "property": "C96",
   "status": "proved",
   "theorems": [
    "TopoGeo.C96_build",
    "TopoGeo.C96_clip",
    "TopoGeo.C96_normalize",
    "TopoGeo.C96_simplify"
   ],
   "note": ""
  },
  {
   "property": "C97",
   "status": "proved",
   "theorems": [
    "TopoGeo.C97_up",
    "TopoGeo.C97_down",
    "TopoGeo.C97_down_top",
    "TopoGeo.C97_down_refuted",
    "TopoGeo.C97_heapify",
    "TopoGeo.C97_heapify_refuted",
    "TopoGeo.C97_places_refuted",
    "TopoGeo.C97_lighter"
   ],
   "note": ""
  },
  {
   "property": "C98",
   "status": "proved",
   "theorems": [
    "TopoGeo.C98_winding",
    "TopoGeo.C98_area",
    "TopoGeo.C98_triangle",
    "TopoGeo.C98_region",
    "TopoGeo.C98_topology",
    "TopoGeo.C98_rational",
    "TopoGeo.C98_refuted"
   ],
   "note": ""
  },
  {
   "property": "C99",
   "status": "proved",
   "theorems": [
    "TopoGeo.C99_build",
    "TopoGeo.C99_dropped",
    "TopoGeo.C99_normalize",
    "TopoGeo.C99_normalize_regions",
    "TopoGeo.C99_simplify"
   ],
   "note": ""
  },
  {
   "property": "C100",
   "status": "proved",
   "theorems": [
    "TopoGeo.C100_inside",
    "TopoGeo.C100_outside",
    "TopoGeo.C100_area",
    "TopoGeo.C100_exact",
    "TopoGeo.C100_ring"
   ],
   "note": ""
  },
  {
   "property": "C101",
   "status": "proved",
   "theorems": [
    "TopoGeo.C101_depth",
    "TopoGeo.C101_products",
    "TopoGeo.C101_rectangle",
    "TopoGeo.C101_order",
    "TopoGeo.C101_order_refuted"
   ],
   "note": ""
  },
  {
   "property": "C102",
   "status": "proved",
   "theorems": [
    "TopoGeo.C102_point",
    "TopoGeo.C102_ring",
    "TopoGeo.C102_length",
    "TopoGeo.C102_record",
    "TopoGeo.C102_region",
    "TopoGeo.C102_area",
    "TopoGeo.C102_topology"
   ],
   "note": ""
  },
  {
   "property": "C103",
   "status": "proved",
   "theorems": [
    "TopoGeo.C103_well_formed",
    "TopoGeo.C103_budget"
   ],
   "note": ""
  },
  {
   "property": "C104",
   "status": "proved",
   "theorems": [
    "TopoGeo.C104_texts",
    "TopoGeo.C104_reported",
    "TopoGeo.C104_display",
    "TopoGeo.C104_header"
   ],
   "note": ""
  },
  {
   "property": "C105",
   "status": "proved",
   "theorems": [
    "TopoGeo.C105_usage",
    "TopoGeo.C105_exit",
    "TopoGeo.C105_geo",
    "TopoGeo.C105_report",
    "TopoGeo.C105_cat",
    "TopoGeo.C105_written"
   ],
   "note": ""
  },
  {
   "property": "C106",
   "status": "proved",
   "theorems": [
    "TopoGeo.C106_ring",
    "TopoGeo.C106_build",
    "TopoGeo.C106_normalize",
    "TopoGeo.C106_clip",
    "TopoGeo.C106_simplify",
    "TopoGeo.C106_open",
    "TopoGeo.C106_read",
    "TopoGeo.C106_programs",
    "TopoGeo.C106_result"
   ],
   "note": ""
  },
  {
   "property": "C107",
   "status": "proved",
   "theorems": [
    "TopoGeo.C107_build",
    "TopoGeo.C107_operation",
    "TopoGeo.C107_pipeline",
    "TopoGeo.C107_read"
   ],
   "note": ""
  },
  {
   "property": "C108",
   "status": "proved",
   "theorems": [
    "TopoGeo.C108_pieces",
    "TopoGeo.C108_unbuffered",
    "TopoGeo.C108_broken",
    "TopoGeo.C108_truncated",
    "TopoGeo.C108_no_lookahead",
    "TopoGeo.C108_programs"
   ],
   "note": ""
  },
  {
   "property": "C109",
   "status": "proved",
   "theorems": [
    "TopoGeo.C109_build",
    "TopoGeo.C109_clip",
    "TopoGeo.C109_simplify",
    "TopoGeo.C109_normalize",
    "TopoGeo.C109_normalize_refuted",
    "TopoGeo.C109_parts",
    "TopoGeo.C109_apart",
    "TopoGeo.C109_part_refuted"
   ],
   "note": ""
  },
  {
   "property": "C110",
   "status": "proved",
   "theorems": [
    "TopoGeo.C110_same",
    "TopoGeo.C110_build",
    "TopoGeo.C110_normalize",
    "TopoGeo.C110_clip",
    "TopoGeo.C110_join",
    "TopoGeo.C110_shared",
    "TopoGeo.C110_size"
   ],
   "note": ""
  },
  {
   "property": "C111",
   "status": "proved",
   "theorems": [
    "TopoGeo.C111_grid",
    "TopoGeo.C111_mask",
    "TopoGeo.C111_edge",
    "TopoGeo.C111_clip",
    "TopoGeo.C111_clip_release",
    "TopoGeo.C111_build",
    "TopoGeo.C111_build_release",
    "TopoGeo.C111_debug_refuted",
    "TopoGeo.C111_normalize_refuted",
    "TopoGeo.C111_reverse_refuted"
   ],
   "note": ""
  },
  {
   "property": "C112",
   "status": "proved",
   "theorems": [
    "TopoGeo.C112_same",
    "TopoGeo.C112_shp_next",
    "TopoGeo.C112_dbf_open",
    "TopoGeo.C112_dbf_next",
    "TopoGeo.C112_geo_next",
    "TopoGeo.C112_program",
    "TopoGeo.C112_file",
    "TopoGeo.C112_announced_refuted",
    "TopoGeo.C112_pieces"
   ],
   "note": ""
  },
  {
   "property": "C113",
   "status": "proved",
   "theorems": [
    "TopoGeo.C113_step",
    "TopoGeo.C113_pipeline",
    "TopoGeo.C113_safe",
    "TopoGeo.C113_dangling_normalize",
    "TopoGeo.C113_dangling_clip"
   ],
   "note": ""
  },
  {
   "property": "C114",
   "status": "proved",
   "theorems": [
    "TopoGeo.C114_pointers",
    "TopoGeo.C114_safe",
    "TopoGeo.C114_topology",
    "TopoGeo.C114_moved"
   ],
   "note": ""
  },
  {
   "property": "C115",
   "status": "proved",
   "theorems": [
    "TopoGeo.C115_utf8",
    "TopoGeo.C115_windows1252",
    "TopoGeo.C115_windows1252_table",
    "TopoGeo.C115_ascii",
    "TopoGeo.C115_open",
    "TopoGeo.C115_next",
    "TopoGeo.C115_values",
    "TopoGeo.C115_names",
    "TopoGeo.C115_label"
   ],
   "note": ""
  },
  {
   "property": "C116",
   "status": "proved",
   "theorems": [
    "TopoGeo.C116_build",
    "TopoGeo.C116_normalize",
    "TopoGeo.C116_clip",
    "TopoGeo.C116_pipeline",
    "TopoGeo.C116_stability_needed",
    "TopoGeo.C116_sorted_needed"
   ],
   "note": ""
  },
  {
   "property": "C117",
   "status": "proved",
   "theorems": [
    "TopoGeo.C117_sixty_four",
    "TopoGeo.C117_dbf",
    "TopoGeo.C117_parse",
    "TopoGeo.C117_accepts",
    "TopoGeo.C117_debug",
    "TopoGeo.C117_record",
    "TopoGeo.C117_announced",
    "TopoGeo.C117_release",
    "TopoGeo.C117_small_files",
    "TopoGeo.C117_round_trip"
   ],
   "note": ""
  },
  {
   "property": "C118",
   "status": "proved",
   "theorems": [
    "TopoGeo.C118_twice",
    "TopoGeo.C118_points",
    "TopoGeo.C118_times",
    "TopoGeo.C118_huge",
    "TopoGeo.C118_overlap"
   ],
   "note": ""
  },
  {
   "property": "C119",
   "status": "proved",
   "theorems": [
    "TopoGeo.C119_count",
    "TopoGeo.C119_rest",
    "TopoGeo.C119_size",
    "TopoGeo.C119_small",
    "TopoGeo.C119_huge",
    "TopoGeo.C119_panics"
   ],
   "note": ""
  },
  {
   "property": "C120",
   "status": "proved",
   "theorems": [
    "TopoGeo.C120_origins",
    "TopoGeo.C120_cut",
    "TopoGeo.C120_uncut",
    "TopoGeo.C120_built",
    "TopoGeo.C120_refuted",
    "TopoGeo.C120_direction_refuted"
   ],
   "note": ""
  },
  {
   "property": "C121",
   "status": "proved",
   "theorems": [
    "TopoGeo.C121_clips",
    "TopoGeo.C121_overlap_refuted",
    "TopoGeo.C121_pinched_refuted",
    "TopoGeo.C121_rounding_refuted"
   ],
   "note": ""
  },
  {
   "property": "C122",
   "status": "proved",
   "theorems": [
    "TopoGeo.C122_build",
    "TopoGeo.C122_normalize",
    "TopoGeo.C122_clip",
    "TopoGeo.C122_simplify",
    "TopoGeo.C122_build_size",
    "TopoGeo.C122_build_grid",
    "TopoGeo.C122_normalize_grid",
    "TopoGeo.C122_clip_grid",
    "TopoGeo.C122_clip_size",
    "TopoGeo.C122_simplify_size",
    "TopoGeo.C122_operations",
    "TopoGeo.C122_all",
    "TopoGeo.C122_segments_matter",
    "TopoGeo.C122_bits_matter",
    "TopoGeo.C122_simplify_bits_matter"
   ],
   "note": ""
  },
  {
   "property": "C123",
   "status": "proved",
   "theorems": [
    "TopoGeo.C123_build",
    "TopoGeo.C123_normalize",
    "TopoGeo.C123_small",
    "TopoGeo.C123_apart_matters",
    "TopoGeo.C123_once_matters",
    "TopoGeo.C123_closed_matters",
    "TopoGeo.C123_moves_matters"
   ],
   "note": ""
  },
  {
   "property": "C124",
   "status": "proved",
   "theorems": [
    "TopoGeo.C124_build",
    "TopoGeo.C124_normalize",
    "TopoGeo.C124_merge",
    "TopoGeo.C124_small",
    "TopoGeo.C124_around_matters",
    "TopoGeo.C124_apart_matters",
    "TopoGeo.C124_once_matters",
    "TopoGeo.C124_closed_matters",
    "TopoGeo.C124_moves_matters"
   ],
   "note": ""
  },
  {
   "property": "C125",
   "status": "proved",
   "theorems": [
    "TopoGeo.C125_normalizes",
    "TopoGeo.C125_pipeline",
    "TopoGeo.C125_small",
    "TopoGeo.C125_apart_matters",
    "TopoGeo.C125_once_matters",
    "TopoGeo.C125_moves_matters",
    "TopoGeo.C125_pinched_matters",
    "TopoGeo.C125_rounding_matters"
   ],
   "note": ""
  },
  {
   "property": "C126",
   "status": "proved",
   "theorems": [
    "TopoGeo.C126_simplifies",
    "TopoGeo.C126_clipped",
    "TopoGeo.C126_pipeline",
    "TopoGeo.C126_small",
    "TopoGeo.C126_used_matters",
    "TopoGeo.C126_once_matters",
    "TopoGeo.C126_moves_matters",
    "TopoGeo.C126_rounding_matters"
   ],
   "note": ""
  },
  {
   "property": "C127",
   "status": "proved",
   "theorems": [
    "TopoGeo.C127_clips",
    "TopoGeo.C127_three",
    "TopoGeo.C127_map",
    "TopoGeo.C127_order_matters",
    "TopoGeo.C127_rectangle_refuted"
   ],
   "note": ""
  },
  {
   "property": "C128",
   "status": "proved",
   "theorems": [
    "TopoGeo.C128_clipped",
    "TopoGeo.C128_pipeline",
    "TopoGeo.C128_small",
    "TopoGeo.C128_covers"
   ],
   "note": ""
  },
  {
   "property": "C129",
   "status": "proved",
   "theorems": [
    "TopoGeo.C129_rings",
    "TopoGeo.C129_simple",
    "TopoGeo.C129_exact",
    "TopoGeo.C129_masks",
    "TopoGeo.C129_areas",
    "TopoGeo.C129_map"
   ],
   "note": ""
  },
  {
   "property": "C130",
   "status": "proved",
   "theorems": [
    "TopoGeo.C130_nothing_lost",
    "TopoGeo.C130_steps",
    "TopoGeo.C130_map"
   ],
   "note": ""
  },
  {
   "property": "C131",
   "status": "proved",
   "theorems": [
    "TopoGeo.C131_build",
    "TopoGeo.C131_clip",
    "TopoGeo.C131_normalize",
    "TopoGeo.C131_simplify",
    "TopoGeo.C131_shp_next",
    "TopoGeo.C131_dbf_next"
   ],
   "note": ""
  },
  {
   "property": "C132",
   "status": "proved",
   "theorems": [
    "TopoGeo.C132_within",
    "TopoGeo.C132_bound",
    "TopoGeo.C132_table",
    "TopoGeo.C132_right",
    "TopoGeo.C132_kept",
    "TopoGeo.C132_plain"
   ],
   "note": ""
  },
  {
   "property": "C133",
   "status": "proved",
   "theorems": [
    "TopoGeo.C133_signed",
    "TopoGeo.C133_sides",
    "TopoGeo.C133_shares",
    "TopoGeo.C133_area",
    "TopoGeo.C133_survives",
    "TopoGeo.C133_region",
    "TopoGeo.C133_lost"
   ],
   "note": ""
  },
  {
   "property": "C134",
   "status": "proved",
   "theorems": [
    "TopoGeo.C134_build",
    "TopoGeo.C134_normalize",
    "TopoGeo.C134_clip_rings",
    "TopoGeo.C134_clip",
    "TopoGeo.C134_simplify",
    "TopoGeo.C134_covers",
    "TopoGeo.C134_all",
    "TopoGeo.C134_route"
   ],
   "note": ""
  },
  {
   "property": "C135",
   "status": "proved",
   "theorems": [
    "TopoGeo.C135_point",
    "TopoGeo.C135_reads",
    "TopoGeo.C135_program",
    "TopoGeo.C135_three_refuted"
   ],
   "note": ""
  },
  {
   "property": "C136",
   "status": "proved",
   "theorems": [
    "TopoGeo.C136_point",
    "TopoGeo.C136_units",
    "TopoGeo.C136_rings",
    "TopoGeo.C136_files",
    "TopoGeo.C136_degrees_refuted"
   ],
   "note": ""
  },
  {
   "property": "C137",
   "status": "proved",
   "theorems": [
    "TopoGeo.C137_outline",
    "TopoGeo.C137_again",
    "TopoGeo.C137_file",
    "TopoGeo.C137_file_release",
    "TopoGeo.C137_unshared_refuted"
   ],
   "note": ""
  }
 ]
}