{
 "claims": [
  {
   "property": "C01",
   "status": "proved",
   "theorems": [
    "Polyskel.C01_intersect_iff",
    "Polyskel.C01_intersect_none_iff",
    "Polyskel.C01_intersect_comm"
   ],
   "note": "exact arithmetic (real numbers)"
  },
  {
   "property": "C02",
   "status": "proved",
   "theorems": [
    "Polyskel.C02_segIntersect_iff",
    "Polyskel.C02_segIntersect_symm"
   ],
   "note": "exact arithmetic"
  },
  {
   "property": "C03",
   "status": "proved",
   "theorems": [
    "Polyskel.C03_distance_min",
    "Polyskel.C03_distance_zero"
   ],
   "note": "exact arithmetic"
  },
  {
   "property": "C04",
   "status": "proved",
   "theorems": [
    "Polyskel.C04_fitCircle_equidistant",
    "Polyskel.C04_fitCircle_collinear"
   ],
   "note": "exact arithmetic"
  },
  {
   "property": "C05",
   "status": "proved",
   "theorems": [
    "Polyskel.C05_pseudoangle_polar",
    "Polyskel.C05_polar_form",
    "Polyskel.C05_pseudoangle_raises"
   ],
   "note": "exact arithmetic"
  },
  {
   "property": "C06",
   "status": "proved",
   "theorems": [
    "Polyskel.C06_iterPrevNext",
    "Polyskel.C06_iterPrevThisNext",
    "Polyskel.C06_iter_raises"
   ],
   "note": "any element type"
  },
  {
   "property": "C07",
   "status": "proved",
   "theorems": [
    "Polyskel.C07_approximatelyEquals_iff",
    "Polyskel.C07_approximatelyEquals_refl_symm",
    "Polyskel.C07_robustFloatEqual_iff",
    "Polyskel.C07_robustFloatEqual_refl_symm",
    "Polyskel.C07_not_transitive"
   ],
   "note": "exact arithmetic"
  },
  {
   "property": "C08",
   "status": "proved",
   "theorems": [
    "Polyskel.C08_queue_multiset",
    "Polyskel.C08_queue_min",
    "Polyskel.C08_queue_empty",
    "Polyskel.C08_putAll_perm"
   ],
   "note": "the multiset part needs no laws of the comparison; the minimum part needs a weak order"
  },
  {
   "property": "C09",
   "status": "proved",
   "theorems": [
    "Polyskel.C09_getAllEqualDistance",
    "Polyskel.C09_getAllEqualDistance_perm"
   ],
   "note": "exact arithmetic for the order, no laws for the multiset part"
  },
  {
   "property": "C10",
   "status": "proved",
   "theorems": [
    "Polyskel.C10_neighbours",
    "Polyskel.C10_neighbour_count",
    "Polyskel.C10_vertices",
    "Polyskel.C10_runtime_independent",
    "Polyskel.C10_simple"
   ],
   "note": "all choices of set.pop()"
  },
  {
   "property": "C11",
   "status": "proved",
   "theorems": [
    "Polyskel.C11_embedding_perm",
    "Polyskel.C11_embedding_sorted",
    "Polyskel.C11_embedding_raises"
   ],
   "note": "the permutation for any arithmetic, order and exception in exact arithmetic"
  },
  {
   "property": "C12",
   "status": "proved",
   "theorems": [
    "Polyskel.C12_faces_partition",
    "Polyskel.C12_faces_no_raise"
   ],
   "note": ""
  },
  {
   "property": "C13",
   "status": "proved",
   "theorems": [
    "Polyskel.C13_faces_runtime_independent"
   ],
   "note": "also for different dictionary orders of the graph"
  },
  {
   "property": "C14",
   "status": "proved",
   "theorems": [
    "Polyskel.C14_faces_filter",
    "Polyskel.C14_faces_inner_vertex"
   ],
   "note": ""
  },
  {
   "property": "C15",
   "status": "proved",
   "theorems": [
    "Polyskel.C15_face_cycle",
    "Polyskel.C15_faces_walk"
   ],
   "note": ""
  },
  {
   "property": "C16",
   "status": "proved",
   "theorems": [
    "Polyskel.C16_faces_terminates",
    "Polyskel.C16_repeated_edge_raises"
   ],
   "note": ""
  },
  {
   "property": "C17",
   "status": "proved",
   "theorems": [
    "Polyskel.C17_skeletonize",
    "Polyskel.C17_tolerant_comparison"
   ],
   "note": "any arithmetic with exact comparison (instances: the reals, IEEE numbers compared exactly); that exactness is needed is shown by a concrete run"
  },
  {
   "property": "C18",
   "status": "proved",
   "theorems": [
    "Polyskel.C18_indices",
    "Polyskel.C18_indices_partial"
   ],
   "note": "the full statement for any arithmetic with exact comparison; up to the error index -1 for any arithmetic"
  },
  {
   "property": "C19",
   "status": "proved",
   "theorems": [
    "Polyskel.C19_prefix",
    "Polyskel.C19_verts"
   ],
   "note": "prefix and count for any arithmetic, positions in exact arithmetic"
  },
  {
   "property": "C20",
   "status": "proved",
   "theorems": [
    "Polyskel.C20_faces_argument"
   ],
   "note": "any arithmetic"
  },
  {
   "property": "C21",
   "status": "proved",
   "theorems": [
    "Polyskel.C21_pitch_ignored",
    "Polyskel.C21_height",
    "Polyskel.C21_tan",
    "Polyskel.C21_raises"
   ],
   "note": "exact arithmetic"
  },
  {
   "property": "C22",
   "status": "proved",
   "theorems": [
    "Polyskel.C22_translation"
   ],
   "note": "exact arithmetic; the whole run, including failures"
  },
  {
   "property": "C23",
   "status": "proved",
   "theorems": [
    "Polyskel.C23_unitVectors",
    "Polyskel.C23_unitVectors_exact"
   ],
   "note": "any arithmetic"
  },
  {
   "property": "C24",
   "status": "proved",
   "theorems": [
    "Polyskel.C24_heights",
    "Polyskel.C24_above_base"
   ],
   "note": "exact arithmetic"
  },
  {
   "property": "C25",
   "status": "proved",
   "theorems": [
    "Polyskel.C25_initial",
    "Polyskel.C25_event",
    "Polyskel.C25_split_one",
    "Polyskel.C25_split_two",
    "Polyskel.C25_moments",
    "Polyskel.C25_run",
    "Polyskel.C25_no_splits",
    "Polyskel.C25_refuted"
   ],
   "note": "Lawless scalar: holds for floating point too. Apt (Spec/Moments.lean) says that the event concerns neighbours; C25_no_splits shows it for runs without splits; C25_refuted shows with a concrete polygon that the condition is needed: a handled event that is not apt tears the wavefront."
  },
  {
   "property": "C26",
   "status": "proved",
   "theorems": [
    "Polyskel.C26_bound",
    "Polyskel.C26_terminates",
    "Polyskel.C26_skeletonize",
    "Polyskel.C26_real",
    "Polyskel.C26_neighbours"
   ],
   "note": "Lawless scalar except C26_real. Potential: 1 for a valid vertex, 2 more for a reflex one."
  },
  {
   "property": "C27",
   "status": "proved",
   "theorems": [
    "Polyskel.C27_events",
    "Polyskel.C27_loop",
    "Polyskel.C27_skeletonize",
    "Polyskel.C27_polygon"
   ],
   "note": "exact arithmetic; the angle invariant holds for every order of events; C27_polygon derives the turning hypothesis from strict convexity by points; only the phases after the event loop (apses C34, ghosts C33) can raise"
  },
  {
   "property": "C28",
   "status": "proved",
   "theorems": [
    "Polyskel.C28_edge_event",
    "Polyskel.C28_nextEvent",
    "Polyskel.C28_handleEdge"
   ],
   "note": "exact arithmetic"
  },
  {
   "property": "C29",
   "status": "partial",
   "theorems": [
    "Polyskel.C29_split_partial",
    "Polyskel.C29_refuted"
   ],
   "note": "false at right-angled corners, where the code tilts the auxiliary direction; holds for all other reflex corners"
  },
  {
   "property": "C30",
   "status": "proved",
   "theorems": [
    "Polyskel.C30_mergeSame",
    "Polyskel.C30_mergeNodeClusters",
    "Polyskel.C30_raises",
    "Polyskel.C30_raises_conv"
   ],
   "note": "termination and fixpoint for any arithmetic; joining of equal nodes for exact equality; failures over the reals"
  },
  {
   "property": "C31",
   "status": "proved",
   "theorems": [
    "Polyskel.C31_mergeCluster",
    "Polyskel.C31_redirect",
    "Polyskel.C31_connection_lost"
   ],
   "note": "exact arithmetic; the lost connection by a concrete run"
  },
  {
   "property": "C32",
   "status": "proved",
   "theorems": [
    "Polyskel.C32_groups",
    "Polyskel.C32_findClusters",
    "Polyskel.C32_accept"
   ],
   "note": "exact arithmetic where distances are compared"
  },
  {
   "property": "C33",
   "status": "proved",
   "theorems": [
    "Polyskel.C33_removeGhosts",
    "Polyskel.C33_raises_only",
    "Polyskel.C33_pair",
    "Polyskel.C33_loops",
    "Polyskel.C33_value_error"
   ],
   "note": "invariants and termination for any arithmetic; the single step over the reals"
  },
  {
   "property": "C34",
   "status": "proved",
   "theorems": [
    "Polyskel.C34_detectApses",
    "Polyskel.C34_skeletonize",
    "Polyskel.C34_polygonize",
    "Polyskel.C34_rectangle"
   ],
   "note": "exact arithmetic; the rectangle in IEEE arithmetic"
  },
  {
   "property": "C35",
   "status": "proved",
   "theorems": [
    "Polyskel.C35_detectApses",
    "Polyskel.C35_empty"
   ],
   "note": "any arithmetic"
  },
  {
   "property": "C36",
   "status": "proved",
   "theorems": [
    "Polyskel.C36_detectDormers",
    "Polyskel.C36_dormers",
    "Polyskel.C36_empty"
   ],
   "note": "any arithmetic; sizes over the reals"
  },
  {
   "property": "C37",
   "status": "partial",
   "theorems": [
    "Polyskel.C37_single_partial",
    "Polyskel.C37_refuted"
   ],
   "note": "false: the size factors are taken at the last occurrence of the pattern; holds when the pattern occurs once"
  },
  {
   "property": "C38",
   "status": "partial",
   "theorems": [
    "Polyskel.C38_wavefront_partial",
    "Polyskel.C38_events_partial",
    "Polyskel.C38_convex_partial",
    "Polyskel.C38_refuted"
   ],
   "note": "false: a dormer whose corners straddle the start of the list is not recognised; the initial wavefront and the points of the first events do not depend on the start; for strictly convex polygons (blunt, nodes apart) the faces do not depend on it, exact arithmetic"
  },
  {
   "property": "C39",
   "status": "proved",
   "theorems": [
    "Polyskel.C39_round_removes",
    "Polyskel.C39_pass_removes",
    "Polyskel.C39_spikes_terminate",
    "Polyskel.C39_spikes_subset",
    "Polyskel.C39_spikes_done",
    "Polyskel.C39_isSpike_iff"
   ],
   "note": "any arithmetic; the meaning of a spike in exact arithmetic"
  },
  {
   "property": "C40",
   "status": "proved",
   "theorems": [
    "Polyskel.C40_cleanFace",
    "Polyskel.C40_cleanFaces",
    "Polyskel.C40_cleanFace_exact",
    "Polyskel.C40_wrong_corner_removed",
    "Polyskel.C40_emptied_face_raises"
   ],
   "note": "two defects shown by concrete runs"
  },
  {
   "property": "C41",
   "status": "partial",
   "theorems": [
    "Polyskel.C41_traced_partial",
    "Polyskel.C41_first_edge_partial",
    "Polyskel.C41_refuted"
   ],
   "note": "holds for the traced faces and after the clean-up when there are no spikes; false after spike removal"
  },
  {
   "property": "C42",
   "status": "proved",
   "theorems": [
    "Polyskel.C42_closed"
   ],
   "note": "any arithmetic"
  },
  {
   "property": "C43",
   "status": "proved",
   "theorems": [
    "Polyskel.C43_checkEdgeCrossing_count",
    "Polyskel.C43_checkEdgeCrossing_perm"
   ],
   "note": "exact arithmetic"
  },
  {
   "property": "C44",
   "status": "proved",
   "theorems": [
    "Polyskel.C44_failure"
   ],
   "note": "any arithmetic"
  },
  {
   "property": "C45",
   "status": "partial",
   "theorems": [
    "Polyskel.C45_height_partial",
    "Polyskel.C45_convex_partial",
    "Polyskel.C45_skeleton_partial",
    "Polyskel.C45_refuted"
   ],
   "note": "false where a dormer's roof meets the main roof; every height made by the event loop is the distance to the line through some edge, or the mean of two; for strictly convex polygons with separated meetings (also blunt and with nodes apart, for the result of skeletonize) the height is the distance from the boundary"
  },
  {
   "property": "C46",
   "status": "proved",
   "theorems": [
    "Polyskel.C46_invalidate",
    "Polyskel.C46_event",
    "Polyskel.C46_invalid_forever",
    "Polyskel.C46_stale_edge",
    "Polyskel.C46_stale_split",
    "Polyskel.C46_stale_dormer"
   ],
   "note": "any arithmetic"
  },
  {
   "property": "C47",
   "status": "proved",
   "theorems": [
    "Polyskel.C47_edge",
    "Polyskel.C47_split",
    "Polyskel.C47_dormer",
    "Polyskel.C47_run"
   ],
   "note": "any arithmetic"
  },
  {
   "property": "C48",
   "status": "proved",
   "theorems": [
    "Polyskel.C48_other_vertices"
   ],
   "note": "any arithmetic; the whole run, including failures"
  },
  {
   "property": "C49",
   "status": "proved",
   "theorems": [
    "Polyskel.C49_handleSplit",
    "Polyskel.C49_newVertices"
   ],
   "note": "any arithmetic"
  },
  {
   "property": "C50",
   "status": "proved",
   "theorems": [
    "Polyskel.C50_nextEvent",
    "Polyskel.C50_ties",
    "Polyskel.C50_attribute_error"
   ],
   "note": "exact arithmetic; the failure for any arithmetic"
  },
  {
   "property": "C51",
   "status": "proved",
   "theorems": [
    "Polyskel.C51_spike_merge_steps"
   ],
   "note": "any arithmetic"
  },
  {
   "property": "C52",
   "status": "proved",
   "theorems": [
    "Polyskel.C52_contours",
    "Polyskel.C52_contours_raise"
   ],
   "note": "any arithmetic"
  },
  {
   "property": "C53",
   "status": "proved",
   "theorems": [
    "Polyskel.C53_shared",
    "Polyskel.C53_pair",
    "Polyskel.C53_never_raises",
    "Polyskel.C53_start",
    "Polyskel.C53_skeletonize"
   ],
   "note": "Lawless scalar: holds for floating point too. Apt as in C25; dormer events break the sharing and are excluded by hypothesis."
  },
  {
   "property": "C54",
   "status": "proved",
   "theorems": [
    "Polyskel.C54_dormerEvent",
    "Polyskel.C54_queue"
   ],
   "note": "Lawless scalar: holds for floating point too"
  },
  {
   "property": "C55",
   "status": "proved",
   "theorems": [
    "Polyskel.C55_sinks",
    "Polyskel.C55_corners"
   ],
   "note": "for runs whose handled events are apt (C25); dormer events must have their four vertices in a row"
  },
  {
   "property": "C56",
   "status": "proved",
   "theorems": [
    "Polyskel.C56_balance",
    "Polyskel.C56_tree"
   ],
   "note": "for runs whose handled events are apt (C25)"
  },
  {
   "property": "C57",
   "status": "proved",
   "theorems": [
    "Polyskel.C57_connected",
    "Polyskel.C57_single",
    "Polyskel.C57_convex",
    "Polyskel.C57_dormer_refuted"
   ],
   "note": "for runs whose handled events are apt (C25), without executed dormer events; with them it is refuted"
  },
  {
   "property": "C58",
   "status": "proved",
   "theorems": [
    "Polyskel.C58_points",
    "Polyskel.C58_verts"
   ],
   "note": "exact arithmetic"
  },
  {
   "property": "C59",
   "status": "partial",
   "theorems": [
    "Polyskel.C59_convex_partial",
    "Polyskel.C59_tee_refuted",
    "Polyskel.C59_tee_faces",
    "Polyskel.C59_convex_refuted"
   ],
   "note": "the general statement is refuted; proved for strictly convex polygons with separated meetings, exact arithmetic"
  },
  {
   "property": "C60",
   "status": "proved",
   "theorems": [
    "Polyskel.C60_convex",
    "Polyskel.C60_inorder",
    "Polyskel.C60_triangle"
   ],
   "note": "exact arithmetic; the arcs are those of the main loop, before the clean-up of clusters and ghosts (C30-C33)"
  },
  {
   "property": "C61",
   "status": "proved",
   "theorems": [
    "Polyskel.C61_mainLoop",
    "Polyskel.C61_skeletonize",
    "Polyskel.C61_polygonize"
   ],
   "note": "for every Scalar"
  },
  {
   "property": "C62",
   "status": "proved",
   "theorems": [
    "Polyskel.C62_skeleton",
    "Polyskel.C62_convex",
    "Polyskel.C62_points",
    "Polyskel.C62_triangle"
   ],
   "note": "exact arithmetic; Separated, Blunt and NodesApart are hypotheses on the polygon (Spec/Roof), none of them needed for triangles; any number of edges may meet in a node, as in a square"
  },
  {
   "property": "C63",
   "status": "partial",
   "theorems": [
    "Polyskel.C63_blunt_partial",
    "Polyskel.C63_refuted"
   ],
   "note": "The claim for all convex faces is false (C63_refuted); proved when no corner of a face with more than three corners is sharper than about 8.1 degrees."
  },
  {
   "property": "C64",
   "status": "proved",
   "theorems": [
    "Polyskel.C64_points",
    "Polyskel.C64_triangle"
   ],
   "note": "exact arithmetic; the same hypotheses on the polygon as C62, none but the length of the sides for triangles"
  },
  {
   "property": "C65",
   "status": "proved",
   "theorems": [
    "Polyskel.C65_no_event",
    "Polyskel.C65_refuted"
   ],
   "note": "C65_no_event: all runs. C65_refuted: the rectangle with and without the additional point, evaluated in the kernel."
  },
  {
   "property": "C66",
   "status": "proved",
   "theorems": [
    "Polyskel.C66_boundary",
    "Polyskel.C66_area",
    "Polyskel.C66_spike",
    "Polyskel.C66_common_refuted"
   ],
   "note": "C66_common_refuted: the case of the code that does not conserve the sum."
  },
  {
   "property": "C67",
   "status": "proved",
   "theorems": [
    "Polyskel.C67_nodes"
   ],
   "note": "exact arithmetic; strictly convex polygons with the hypotheses of C62"
  },
  {
   "property": "C68",
   "status": "proved",
   "theorems": [
    "Polyskel.C68_pyramid",
    "Polyskel.C68_regular"
   ],
   "note": "exact arithmetic; strictly convex polygons whose sides have the same distance from a point"
  },
  {
   "property": "C69",
   "status": "proved",
   "theorems": [
    "Polyskel.C69_rectangle"
   ],
   "note": "exact arithmetic; sides longer than about 3e-18 and a ridge of at least a tenth in the Manhattan metric; for squares see C68"
  },
  {
   "property": "C70",
   "status": "partial",
   "theorems": [
    "Polyskel.C70_convex_partial",
    "Polyskel.C70_enlarged",
    "Polyskel.C70_scale_refuted",
    "Polyskel.C70_turn_refuted"
   ],
   "note": "false in general (absolute thresholds in the Manhattan metric); proved for strictly convex polygons with the hypotheses of C62, exact arithmetic"
  },
  {
   "property": "C71",
   "status": "partial",
   "theorems": [
    "Polyskel.C71_planes_partial",
    "Polyskel.C71_parallelogram",
    "Polyskel.C71_inorder",
    "Polyskel.C71_convex",
    "Polyskel.C71_refuted"
   ],
   "note": "false at right-angled reflex corners; otherwise proved over the reals for contours of any shape with holes, with conditions on the run (edge events join neighbours, no reflex vertex is made); no such conditions for parallelograms, nor for strictly convex polygons whose possible meetings are a thousandth apart"
  },
  {
   "property": "C72",
   "status": "partial",
   "theorems": [
    "Polyskel.C72_start",
    "Polyskel.C72_step_partial",
    "Polyskel.C72_run_partial",
    "Polyskel.C72_join",
    "Polyskel.C72_dormer",
    "Polyskel.C72_hole_refuted",
    "Polyskel.C72_dormer_refuted"
   ],
   "note": "false when a hole is joined to another loop and after dormer events; proved for all other events of apt runs, in any arithmetic"
  },
  {
   "property": "C73",
   "status": "partial",
   "theorems": [
    "Polyskel.C73_raises_iff",
    "Polyskel.C73_distinct",
    "Polyskel.C73_stays",
    "Polyskel.C73_first_partial"
   ],
   "note": "exact condition for the exception; never for the first spike of a graph without double edges, and never for later ones as long as the edges that close the gaps are new; that they are always new is not proved"
  },
  {
   "property": "C74",
   "status": "proved",
   "theorems": [
    "Polyskel.C74_walls",
    "Polyskel.C74_roof",
    "Polyskel.C74_roof_triangle",
    "Polyskel.C74_building",
    "Polyskel.C74_building_triangle",
    "Polyskel.C74_demo"
   ],
   "note": "Model/Demo.lean has the walls and the call of the add-on; convex footprints in exact arithmetic, triangles without further hypothesis; the walls for every footprint"
  },
  {
   "property": "C75",
   "status": "proved",
   "theorems": [
    "Polyskel.C75_slider",
    "Polyskel.C75_exact"
   ],
   "note": "induction over the calls; the faces themselves are compared by their indices only, because their order depends on the iteration order of sets"
  },
  {
   "property": "C76",
   "status": "proved",
   "theorems": [
    "Polyskel.C76_points",
    "Polyskel.C76_triangle"
   ],
   "note": "Exact arithmetic; for more than three corners under the conditions of C62 (Separated, Blunt, NodesApart). The normal is the sum of cross products of the returned vertices, independent of the model. Areas add up by the pairing of edges of C74."
  },
  {
   "property": "C77",
   "status": "proved",
   "theorems": [
    "Polyskel.C77_raises",
    "Polyskel.C77_no_index",
    "Polyskel.C77_index_witness",
    "Polyskel.C77_zeroDivision_witness",
    "Polyskel.C77_value_witness",
    "Polyskel.C77_endlessFaces_witness",
    "Polyskel.C77_hexagon_endless",
    "Polyskel.C77_runtime_witness",
    "Polyskel.C77_stopIteration_witness",
    "Polyskel.C77_type_witness",
    "Polyskel.C77_attribute_witness"
   ],
   "note": "Exceptions of the interpreter that the model does not have (OverflowError of complex abs and power in fitCircle3Points, MemoryError, wrong argument types) are outside. All exceptions of the list have a witness but the endless loop of the removal of spikes: no input is known that raises it, so for it the list may be larger than needed. The witness of AttributeError is a closed line that crosses itself. Three of the witnesses are valid arguments: a simple hexagon (endless loop of faces()), a simple hexagon with a simple hole inside (RuntimeError of the iterator of a LAV), and a simple polygon with an uneven bay (TypeError)."
  },
  {
   "property": "C78",
   "status": "proved",
   "theorems": [
    "Polyskel.C78_points",
    "Polyskel.C78_triangle"
   ],
   "note": "Over the reals, for strictly convex polygons under the hypotheses of C62 (Separated, Blunt, NodesApart; none of these for triangles), and for a horizontal polygon. Drained and Below speak of the returned vertices and faces only."
  },
  {
   "property": "C79",
   "status": "proved",
   "theorems": [
    "Polyskel.C79_points",
    "Polyskel.C79_triangle"
   ],
   "note": "Over the reals, for strictly convex polygons under the hypotheses of C62 (Separated, Blunt, NodesApart; none of these for triangles), and for a horizontal polygon. The surface is given by the returned vertices and faces only: a point is on it if it is over a face and in the plane of the face."
  },
  {
   "property": "C80",
   "status": "proved",
   "theorems": [
    "Polyskel.C80_points"
   ],
   "note": "Over the reals, both polygons under the hypotheses of C62, with a given pitch; with a given height the claim would be false (the larger roof is the flatter one)."
  },
  {
   "property": "C81",
   "status": "proved",
   "theorems": [
    "Polyskel.C81_points",
    "Polyskel.C81_triangle",
    "Polyskel.C81_height_points",
    "Polyskel.C81_height_triangle"
   ],
   "note": "Proved for horizontal convex polygons under the hypotheses of C62_points, and for triangles without hypotheses about the skeleton, with the pitch or the height given. The statement is about the surface, the union of the faces, not about the order in which the faces are listed."
  },
  {
   "property": "C82",
   "status": "proved",
   "theorems": [
    "Polyskel.C82_points",
    "Polyskel.C82_triangle"
   ],
   "note": "Proved for horizontal convex polygons under the hypotheses of C62_points, and for triangles without hypotheses about the skeleton, with the pitch given. Only heights over points common to both polygons are compared."
  },
  {
   "property": "C83",
   "status": "proved",
   "theorems": [
    "Polyskel.C83_points",
    "Polyskel.C83_triangle"
   ],
   "note": "Proved for horizontal convex polygons under the hypotheses of C62_points, and for triangles without hypotheses about the skeleton."
  },
  {
   "property": "C84",
   "status": "proved",
   "theorems": [
    "Polyskel.C84_points",
    "Polyskel.C84_triangle"
   ],
   "note": "Exact reals; under the hypotheses of C62. Vertices and edges are counted as sets, in Spec/Euler.lean."
  },
  {
   "property": "C85",
   "status": "proved",
   "theorems": [
    "Polyskel.C85_iff",
    "Polyskel.C85_pp",
    "Polyskel.C85_no_type",
    "Polyskel.C85_exact"
   ],
   "note": "C85_iff, C85_pp and C85_no_type for any arithmetic, C85_exact for exact reals. Arguments of other types are not modelled."
  },
  {
   "property": "C86",
   "status": "proved",
   "theorems": [
    "Polyskel.C86_parallelogram"
   ],
   "note": "over the reals; generalises C69; rhombi are in C68"
  },
  {
   "property": "C87",
   "status": "proved",
   "theorems": [
    "Polyskel.C87_quadrangle"
   ],
   "note": "over the reals; a Pitot theorem for the circle that touches three sides; under the conditions of C62"
  },
  {
   "property": "C88",
   "status": "proved",
   "theorems": [
    "Polyskel.C88_triangles"
   ],
   "note": "over the reals; under the conditions of C62"
  },
  {
   "property": "C89",
   "status": "proved",
   "theorems": [
    "Polyskel.C89_peek",
    "Polyskel.C89_peek_min",
    "Polyskel.C89_show"
   ],
   "note": "the text itself is not modelled, only which attributes it needs"
  },
  {
   "property": "C90",
   "status": "proved",
   "theorems": [
    "Polyskel.C90_incidence"
   ],
   "note": "over the reals; under the conditions of C62"
  },
  {
   "property": "C91",
   "status": "proved",
   "theorems": [
    "Polyskel.C91_shared"
   ],
   "note": "over the reals; under the conditions of C62"
  },
  {
   "property": "C92",
   "status": "proved",
   "theorems": [
    "Polyskel.C92_climb"
   ],
   "note": "over the reals; under the conditions of C62"
  },
  {
   "property": "C93",
   "status": "partial",
   "theorems": [
    "Polyskel.C93_verts",
    "Polyskel.C93_traced",
    "Polyskel.C93_spikeless_partial",
    "Polyskel.C93_faces_partial",
    "Polyskel.C93_spikes_refuted"
   ],
   "note": "vertices: proved for all inputs in any arithmetic; traced faces: proved up to order and first vertex for all connections in different directions; faces: proved when no traced face has a spike and each has one polygon edge, and for convex polygons; false after the removal of spikes"
  },
  {
   "property": "C94",
   "status": "proved",
   "theorems": [
    "Polyskel.C94_uncrossed",
    "Polyskel.C94_triangle",
    "Polyskel.C94_barb_crosses"
   ],
   "note": "over the reals, under the conditions of C62, triangles without them; the polygon whose skeleton crosses itself: in IEEE arithmetic"
  }
 ]
}