#!/usr/bin/env python3
"""Writes ../MANIFEST.json from the table below (property, status, theorems, note)."""
import json, os
T = []
def c(p, status, theorems, note):
    T.append({"property": p, "status": status, "theorems": ["Polyskel." + t for t in theorems.split()], "note": note})

c("C01", "proved", "C01_intersect_iff C01_intersect_none_iff C01_intersect_comm", "exact arithmetic (real numbers)")
c("C02", "proved", "C02_segIntersect_iff C02_segIntersect_symm", "exact arithmetic")
c("C03", "proved", "C03_distance_min C03_distance_zero", "exact arithmetic")
c("C04", "proved", "C04_fitCircle_equidistant C04_fitCircle_collinear", "exact arithmetic")
c("C05", "proved", "C05_pseudoangle_polar C05_polar_form C05_pseudoangle_raises", "exact arithmetic")
c("C06", "proved", "C06_iterPrevNext C06_iterPrevThisNext C06_iter_raises", "any element type")
c("C07", "proved", "C07_approximatelyEquals_iff C07_approximatelyEquals_refl_symm C07_robustFloatEqual_iff C07_robustFloatEqual_refl_symm C07_not_transitive", "exact arithmetic")
c("C08", "proved", "C08_queue_multiset C08_queue_min C08_queue_empty C08_putAll_perm", "the multiset part needs no laws of the comparison; the minimum part needs a weak order")
c("C09", "proved", "C09_getAllEqualDistance C09_getAllEqualDistance_perm", "exact arithmetic for the order, no laws for the multiset part")
c("C10", "proved", "C10_neighbours C10_neighbour_count C10_vertices C10_runtime_independent C10_simple", "all choices of set.pop()")
c("C11", "proved", "C11_embedding_perm C11_embedding_sorted C11_embedding_raises", "the permutation for any arithmetic, order and exception in exact arithmetic")
c("C12", "proved", "C12_faces_partition C12_faces_no_raise", "")
c("C13", "proved", "C13_faces_runtime_independent", "also for different dictionary orders of the graph")
c("C14", "proved", "C14_faces_filter C14_faces_inner_vertex", "")
c("C15", "proved", "C15_face_cycle C15_faces_walk", "")
c("C16", "proved", "C16_faces_terminates C16_repeated_edge_raises", "")
c("C17", "proved", "C17_skeletonize C17_tolerant_comparison", "any arithmetic with exact comparison (instances: the reals, IEEE numbers compared exactly); that exactness is needed is shown by a concrete run")
c("C18", "proved", "C18_indices C18_indices_partial", "the full statement for any arithmetic with exact comparison; up to the error index -1 for any arithmetic")
c("C19", "proved", "C19_prefix C19_verts", "prefix and count for any arithmetic, positions in exact arithmetic")
c("C20", "proved", "C20_faces_argument", "any arithmetic")
c("C21", "proved", "C21_pitch_ignored C21_height C21_tan C21_raises", "exact arithmetic")
c("C22", "proved", "C22_translation", "exact arithmetic; the whole run, including failures")
c("C23", "proved", "C23_unitVectors C23_unitVectors_exact", "any arithmetic")
c("C24", "proved", "C24_heights C24_above_base", "exact arithmetic")
c("C25", "proved", "C25_initial C25_event C25_split_one C25_split_two C25_moments C25_run C25_no_splits C25_refuted", "Lawless scalar: holds for floating point too. Apt (Spec/Moments.lean) says that the event concerns neighbours; C25_no_splits shows it for runs without splits; C25_refuted shows with a concrete polygon that the condition is needed: a handled event that is not apt tears the wavefront.")
c("C26", "proved", "C26_bound C26_terminates C26_skeletonize C26_real C26_neighbours", "Lawless scalar except C26_real. Potential: 1 for a valid vertex, 2 more for a reflex one.")
c("C27", "proved", "C27_events C27_loop C27_skeletonize C27_polygon", "exact arithmetic; the angle invariant holds for every order of events; C27_polygon derives the turning hypothesis from strict convexity by points; only the phases after the event loop (apses C34, ghosts C33) can raise")
c("C28", "proved", "C28_edge_event C28_nextEvent C28_handleEdge", "exact arithmetic")
c("C29", "partial", "C29_split_partial C29_refuted", "false at right-angled corners, where the code tilts the auxiliary direction; holds for all other reflex corners")
c("C30", "proved", "C30_mergeSame C30_mergeNodeClusters C30_raises C30_raises_conv", "termination and fixpoint for any arithmetic; joining of equal nodes for exact equality; failures over the reals")
c("C31", "proved", "C31_mergeCluster C31_redirect C31_connection_lost", "exact arithmetic; the lost connection by a concrete run")
c("C32", "proved", "C32_groups C32_findClusters C32_accept", "exact arithmetic where distances are compared")
c("C33", "proved", "C33_removeGhosts C33_raises_only C33_pair C33_loops C33_value_error", "invariants and termination for any arithmetic; the single step over the reals")
c("C34", "proved", "C34_detectApses C34_skeletonize C34_polygonize C34_rectangle", "exact arithmetic; the rectangle in IEEE arithmetic")
c("C35", "proved", "C35_detectApses C35_empty", "any arithmetic")
c("C36", "proved", "C36_detectDormers C36_dormers C36_empty", "any arithmetic; sizes over the reals")
c("C37", "partial", "C37_single_partial C37_refuted", "false: the size factors are taken at the last occurrence of the pattern; holds when the pattern occurs once")
c("C38", "partial", "C38_wavefront_partial C38_events_partial C38_convex_partial C38_refuted", "false: a dormer whose corners straddle the start of the list is not recognised; the initial wavefront and the points of the first events do not depend on the start; for strictly convex polygons (blunt, nodes apart) the faces do not depend on it, exact arithmetic")
c("C39", "proved", "C39_round_removes C39_pass_removes C39_spikes_terminate C39_spikes_subset C39_spikes_done C39_isSpike_iff", "any arithmetic; the meaning of a spike in exact arithmetic")
c("C40", "proved", "C40_cleanFace C40_cleanFaces C40_cleanFace_exact C40_wrong_corner_removed C40_emptied_face_raises", "two defects shown by concrete runs")
c("C41", "partial", "C41_traced_partial C41_first_edge_partial C41_refuted", "holds for the traced faces and after the clean-up when there are no spikes; false after spike removal")
c("C42", "proved", "C42_closed", "any arithmetic")
c("C43", "proved", "C43_checkEdgeCrossing_count C43_checkEdgeCrossing_perm", "exact arithmetic")
c("C44", "proved", "C44_failure", "any arithmetic")
c("C45", "partial", "C45_height_partial C45_convex_partial C45_skeleton_partial C45_refuted", "false where a dormer's roof meets the main roof; every height made by the event loop is the distance to the line through some edge, or the mean of two; for strictly convex polygons with separated meetings (also blunt and with nodes apart, for the result of skeletonize) the height is the distance from the boundary")
c("C46", "proved", "C46_invalidate C46_event C46_invalid_forever C46_stale_edge C46_stale_split C46_stale_dormer", "any arithmetic")
c("C47", "proved", "C47_edge C47_split C47_dormer C47_run", "any arithmetic")
c("C48", "proved", "C48_other_vertices", "any arithmetic; the whole run, including failures")
c("C49", "proved", "C49_handleSplit C49_newVertices", "any arithmetic")
c("C50", "proved", "C50_nextEvent C50_ties C50_attribute_error", "exact arithmetic; the failure for any arithmetic")
c("C51", "proved", "C51_spike_merge_steps", "any arithmetic")
c("C52", "proved", "C52_contours C52_contours_raise", "any arithmetic")
c("C53", "proved", "C53_shared C53_pair C53_never_raises C53_start C53_skeletonize", "Lawless scalar: holds for floating point too. Apt as in C25; dormer events break the sharing and are excluded by hypothesis.")
c("C54", "proved", "C54_dormerEvent C54_queue", "Lawless scalar: holds for floating point too")
c("C55", "proved", "C55_sinks C55_corners", "for runs whose handled events are apt (C25); dormer events must have their four vertices in a row")
c("C56", "proved", "C56_balance C56_tree", "for runs whose handled events are apt (C25)")
c("C57", "proved", "C57_connected C57_single C57_convex C57_dormer_refuted", "for runs whose handled events are apt (C25), without executed dormer events; with them it is refuted")
c("C58", "proved", "C58_points C58_verts", "exact arithmetic")
c("C59", "partial", "C59_convex_partial C59_tee_refuted C59_tee_faces C59_convex_refuted", "the general statement is refuted; proved for strictly convex polygons with separated meetings, exact arithmetic")
c("C60", "proved", "C60_convex C60_inorder C60_triangle", "exact arithmetic; the arcs are those of the main loop, before the clean-up of clusters and ghosts (C30-C33)")
c("C61", "proved", "C61_mainLoop C61_skeletonize C61_polygonize", "for every Scalar")
c("C62", "proved", "C62_skeleton C62_convex C62_points C62_triangle", "exact arithmetic; Separated, Blunt and NodesApart are hypotheses on the polygon (Spec/Roof), none of them needed for triangles; any number of edges may meet in a node, as in a square")
c("C63","partial","C63_blunt_partial C63_refuted","The claim for all convex faces is false (C63_refuted); proved when no corner of a face with more than three corners is sharper than about 8.1 degrees.")
c("C64","proved","C64_points C64_triangle","exact arithmetic; the same hypotheses on the polygon as C62, none but the length of the sides for triangles")
c("C65","proved","C65_no_event C65_refuted","C65_no_event: all runs. C65_refuted: the rectangle with and without the additional point, evaluated in the kernel.")
c("C66","proved","C66_boundary C66_area C66_spike C66_common_refuted","C66_common_refuted: the case of the code that does not conserve the sum.")
c("C67", "proved", "C67_nodes", "exact arithmetic; strictly convex polygons with the hypotheses of C62")
c("C68", "proved", "C68_pyramid C68_regular", "exact arithmetic; strictly convex polygons whose sides have the same distance from a point")
c("C69", "proved", "C69_rectangle", "exact arithmetic; sides longer than about 3e-18 and a ridge of at least a tenth in the Manhattan metric; for squares see C68")
c("C70", "partial", "C70_convex_partial C70_enlarged C70_scale_refuted C70_turn_refuted", "false in general (absolute thresholds in the Manhattan metric); proved for strictly convex polygons with the hypotheses of C62, exact arithmetic")
c("C71", "partial", "C71_planes_partial C71_parallelogram C71_inorder C71_convex C71_refuted", "false at right-angled reflex corners; otherwise proved over the reals for contours of any shape with holes, with conditions on the run (edge events join neighbours, no reflex vertex is made); no such conditions for parallelograms, nor for strictly convex polygons whose possible meetings are a thousandth apart")
c("C72", "partial", "C72_start C72_step_partial C72_run_partial C72_join C72_dormer C72_hole_refuted C72_dormer_refuted", "false when a hole is joined to another loop and after dormer events; proved for all other events of apt runs, in any arithmetic")
c("C73", "partial", "C73_raises_iff C73_distinct C73_stays C73_first_partial", "exact condition for the exception; never for the first spike of a graph without double edges, and never for later ones as long as the edges that close the gaps are new; that they are always new is not proved")
c("C74", "proved", "C74_walls C74_roof C74_roof_triangle C74_building C74_building_triangle C74_demo", "Model/Demo.lean has the walls and the call of the add-on; convex footprints in exact arithmetic, triangles without further hypothesis; the walls for every footprint")
c("C75", "proved", "C75_slider C75_exact", "induction over the calls; the faces themselves are compared by their indices only, because their order depends on the iteration order of sets")
c("C76", "proved", "C76_points C76_triangle", "Exact arithmetic; for more than three corners under the conditions of C62 (Separated, Blunt, NodesApart). The normal is the sum of cross products of the returned vertices, independent of the model. Areas add up by the pairing of edges of C74.")
c("C77", "proved", "C77_raises C77_no_index C77_index_witness C77_zeroDivision_witness C77_value_witness C77_endlessFaces_witness C77_hexagon_endless C77_runtime_witness C77_stopIteration_witness C77_type_witness C77_attribute_witness", "Exceptions of the interpreter that the model does not have (OverflowError of complex abs and power in fitCircle3Points, MemoryError, wrong argument types) are outside. All exceptions of the list have a witness but the endless loop of the removal of spikes: no input is known that raises it, so for it the list may be larger than needed. The witness of AttributeError is a closed line that crosses itself. Three of the witnesses are valid arguments: a simple hexagon (endless loop of faces()), a simple hexagon with a simple hole inside (RuntimeError of the iterator of a LAV), and a simple polygon with an uneven bay (TypeError).")
c("C78", "proved", "C78_points C78_triangle", "Over the reals, for strictly convex polygons under the hypotheses of C62 (Separated, Blunt, NodesApart; none of these for triangles), and for a horizontal polygon. Drained and Below speak of the returned vertices and faces only.")
c("C79", "proved", "C79_points C79_triangle", "Over the reals, for strictly convex polygons under the hypotheses of C62 (Separated, Blunt, NodesApart; none of these for triangles), and for a horizontal polygon. The surface is given by the returned vertices and faces only: a point is on it if it is over a face and in the plane of the face.")
c("C80", "proved", "C80_points", "Over the reals, both polygons under the hypotheses of C62, with a given pitch; with a given height the claim would be false (the larger roof is the flatter one).")
c("C81", "proved", "C81_points C81_triangle C81_height_points C81_height_triangle", "Proved for horizontal convex polygons under the hypotheses of C62_points, and for triangles without hypotheses about the skeleton, with the pitch or the height given. The statement is about the surface, the union of the faces, not about the order in which the faces are listed.")
c("C82", "proved", "C82_points C82_triangle", "Proved for horizontal convex polygons under the hypotheses of C62_points, and for triangles without hypotheses about the skeleton, with the pitch given. Only heights over points common to both polygons are compared.")
c("C83", "proved", "C83_points C83_triangle", "Proved for horizontal convex polygons under the hypotheses of C62_points, and for triangles without hypotheses about the skeleton.")
c("C84", "proved", "C84_points C84_triangle", "Exact reals; under the hypotheses of C62. Vertices and edges are counted as sets, in Spec/Euler.lean.")
c("C85", "proved", "C85_iff C85_pp C85_no_type C85_exact", "C85_iff, C85_pp and C85_no_type for any arithmetic, C85_exact for exact reals. Arguments of other types are not modelled.")
c("C86", "proved", "C86_parallelogram", "over the reals; generalises C69; rhombi are in C68")
c("C87", "proved", "C87_quadrangle", "over the reals; a Pitot theorem for the circle that touches three sides; under the conditions of C62")
c("C88", "proved", "C88_triangles", "over the reals; under the conditions of C62")
c("C89", "proved", "C89_peek C89_peek_min C89_show", "the text itself is not modelled, only which attributes it needs")
c("C90", "proved", "C90_incidence", "over the reals; under the conditions of C62")
c("C91", "proved", "C91_shared", "over the reals; under the conditions of C62")
c("C92", "proved", "C92_climb", "over the reals; under the conditions of C62")
c("C93", "partial", "C93_verts C93_traced C93_spikeless_partial C93_faces_partial C93_spikes_refuted", "vertices: proved for all inputs in any arithmetic; traced faces: proved up to order and first vertex for all connections in different directions; faces: proved when no traced face has a spike and each has one polygon edge, and for convex polygons; false after the removal of spikes")
c("C94", "proved", "C94_uncrossed C94_triangle C94_barb_crosses", "over the reals, under the conditions of C62, triangles without them; the polygon whose skeleton crosses itself: in IEEE arithmetic")

json.dump({"claims": T}, open(os.path.join(os.path.dirname(os.path.abspath(__file__)), "..", "MANIFEST.json"), "w"), indent=1)
