{"id": "C01", "title": "Line and ray intersection is sound, complete and symmetric", "statement": "In exact arithmetic, intersecting two Line2/Ray2 objects yields a point exactly when their carrier lines are not parallel and the common point lies on both objects (at a parameter >= 0 for a Ray2); the yielded point is that common point. Swapping the two objects does not change the result. Parallel objects always yield None.", "quantifier": "for all base points, directions and object kinds (line or ray) over the real numbers", "why_tests_cant": "the statement quantifies over a continuum of configurations, including all degenerate ones (zero directions, coinciding lines, rays touching at their origin)", "anchors": ["bpypolyskel/bpyeuclid.py: _intersect_line2_line2, Ray2.intersect, Line2.intersect, Ray2.intsecttest, Line2.intsecttest"]}
{"id": "C02", "title": "The segment test decides proper crossing", "statement": "In exact arithmetic, for four points of which no three are collinear, intersect(A,B,C,D) is True exactly when the open segments AB and CD have a common point. It is invariant under swapping the segments and under reversing either of them.", "quantifier": "for all four real points in general position", "why_tests_cant": "finitely many samples cannot establish an equivalence with a geometric existence statement over the plane", "anchors": ["bpypolyskel/bpyeuclid.py: ccw, intersect"]}
{"id": "C03", "title": "Line2.distance is the Euclidean distance to the line", "statement": "In exact arithmetic, for a line with non-zero direction, distance(q) is never negative, is at most the Euclidean distance from q to every point of the line, is attained by some point of the line, and is zero exactly for points of the line.", "quantifier": "for all lines with non-zero direction and all points over the reals", "why_tests_cant": "minimality over all points of a line is not testable", "anchors": ["bpypolyskel/bpyeuclid.py: Line2.distance"]}
{"id": "C04", "title": "fitCircle3Points returns the circumscribed circle, or raises", "statement": "In exact arithmetic, for a non-empty point list the function looks only at the first, the middle and the last point. If these are not collinear it returns a centre that has exactly the returned radius as distance to all three of them; if they are collinear (in particular if first and middle coincide) it raises ZeroDivisionError.", "quantifier": "for all non-empty lists of real points", "why_tests_cant": "an exact identity over all triples plus a characterisation of all failing inputs", "anchors": ["bpypolyskel/bpyeuclid.py: fitCircle3Points"]}
{"id": "C05", "title": "pseudoangle orders directions exactly by polar angle", "statement": "In exact arithmetic pseudoangle(dx,dy) of a non-zero direction lies in [0,4), depends only on the direction, and is strictly increasing in the counterclockwise polar angle measured from the positive x-axis; it raises ZeroDivisionError exactly for the zero direction.", "quantifier": "for all real direction vectors", "why_tests_cant": "strict monotonicity over the circle is a statement about all pairs of directions", "anchors": ["bpypolyskel/poly2FacesGraph.py: pseudoangle, compare_angles"]}
{"id": "C06", "title": "The circular iterators yield every element once with its cyclic neighbours", "statement": "_iterCircularPrevNext(lst) yields exactly len(lst) pairs, the i-th being (lst[i-1], lst[i]) with index -1 meaning the last element; _iterCircularPrevThisNext yields (lst[i-1], lst[i], lst[i+1 mod n]). Both raise ValueError on an empty sequence and never otherwise.", "quantifier": "for all finite sequences of any element type", "why_tests_cant": "all lengths have to be covered, in particular 0, 1 and 2", "anchors": ["bpypolyskel/bpypolyskel.py: _iterCircularPrevNext, _iterCircularPrevThisNext"]}
{"id": "C07", "title": "The approximate equalities are reflexive and symmetric relations with the documented tolerance", "statement": "In exact arithmetic _approximately_equals and robustFloatEqual are reflexive and symmetric; two vectors are approximately equal exactly when their distance is at most one thousandth of the larger magnitude; two numbers are robustly equal exactly when they differ by at most 1e-5 absolutely or relative to the larger one. Neither relation is transitive.", "quantifier": "for all real vectors and numbers", "why_tests_cant": "relation laws quantify over all pairs of values", "anchors": ["bpypolyskel/bpypolyskel.py: _approximately_equals, robustFloatEqual, EPSILON"]}
{"id": "C08", "title": "The event queue never loses or invents events and always yields a smallest one", "statement": "After any sequence of insertions and removals the events in the queue are exactly the inserted ones minus the removed ones (as a multiset), and get() removes an event whose distance is not larger than that of any event in the queue; it raises IndexError exactly on an empty queue.", "quantifier": "for all interleavings of put, put_all, get and getAllEqualDistance, and all comparison functions that are strict weak orders", "why_tests_cant": "unbounded operation sequences; the heap invariant is not observable in a test", "anchors": ["bpypolyskel/bpypolyskel.py: _EventQueue.put, _EventQueue.put_all, _EventQueue.get"]}
{"id": "C09", "title": "getAllEqualDistance returns the earliest event and exactly those within 0.001 of it", "statement": "In exact arithmetic getAllEqualDistance() on a non-empty queue returns, first, an event with the smallest distance d, followed by exactly the other queued events with distance < d + 0.001 in non-decreasing order of distance; every other event stays in the queue.", "quantifier": "for all queue contents reachable by any operations", "why_tests_cant": "needs the heap invariant for all histories", "anchors": ["bpypolyskel/bpypolyskel.py: _EventQueue.getAllEqualDistance"]}
{"id": "C10", "title": "The face graph records each edge once from each end, whatever the order of insertion", "statement": "After adding a list of edges, w is listed as a neighbour of v exactly as often as the undirected edge {v,w} with v != w was added; adjacency is therefore symmetric, an edge from a vertex to itself is ignored, every endpoint becomes a vertex, and the neighbour relation does not depend on which endpoint the runtime takes from the set first.", "quantifier": "for all edge lists and all set orders of the Python runtime", "why_tests_cant": "set iteration order is chosen by the runtime; tests see a single one", "anchors": ["bpypolyskel/poly2FacesGraph.py: poly2FacesGraph.add_vertex, poly2FacesGraph.add_edge, poly2FacesGraph.edges"]}
{"id": "C11", "title": "The circular embedding is the neighbour list sorted by direction", "statement": "circular_embedding keeps for every vertex exactly its neighbours (a permutation). In exact arithmetic, if the neighbours lie in pairwise different directions, they are listed in order of decreasing polar angle for 'CCW' and in the reversed order for 'CW'. It raises ZeroDivisionError exactly when some vertex with at least two neighbours has one at its own xy-position.", "quantifier": "for all graphs and all vertex positions", "why_tests_cant": "all graphs and all positions", "anchors": ["bpypolyskel/poly2FacesGraph.py: poly2FacesGraph.circular_embedding, compare_angles"]}
{"id": "C12", "title": "Tracing faces is a partition of the directed edges", "statement": "For a graph without repeated edges and any embedding that lists each vertex's neighbours once, faces() tracing never raises, and every directed edge (u,v) of the graph belongs to exactly one traced face, at exactly one position.", "quantifier": "for all simple graphs, all rotation systems and all iteration orders of the runtime's sets", "why_tests_cant": "all graphs; also the absence of exceptions for all of them", "anchors": ["bpypolyskel/poly2FacesGraph.py: poly2FacesGraph.faces"]}
{"id": "C13", "title": "The set of faces does not depend on the runtime's set order", "statement": "For a fixed simple graph and a fixed embedding, any two runs of faces() return the same faces up to the order of the list, and up to the starting vertex of faces that have no polygon edge or several of them.", "quantifier": "for all pairs of set orders of the Python runtime", "why_tests_cant": "hash order cannot be varied exhaustively", "anchors": ["bpypolyskel/poly2FacesGraph.py: poly2FacesGraph.faces"]}
{"id": "C14", "title": "faces() drops exactly the contour-only faces and starts each face at a polygon edge", "statement": "faces(embedding, n) returns the traced faces that contain at least one vertex with index >= n, each rotated; no returned face consists of polygon vertices only; if a traced face contains a directed edge between two polygon vertices (both indices < n), the returned face starts with such an edge.", "quantifier": "for all graphs, embeddings and n", "why_tests_cant": "all graphs", "anchors": ["bpypolyskel/poly2FacesGraph.py: poly2FacesGraph.faces"]}
{"id": "C15", "title": "Every returned face is a closed walk that turns to the next edge of the embedding", "statement": "In every traced face, consecutive vertices (cyclically) are joined by an edge of the graph, and after arriving at v from u the face leaves along the neighbour following u in v's embedding order; a face in which no vertex has degree one has at least three vertices.", "quantifier": "for all simple graphs and rotation systems", "why_tests_cant": "all graphs", "anchors": ["bpypolyskel/poly2FacesGraph.py: poly2FacesGraph.faces"]}
{"id": "C16", "title": "faces() terminates on every graph, and needs the graph to be simple", "statement": "faces() returns or raises after finitely many steps on every graph, symmetric or not. When an edge was added twice it can raise 'Endless loop catched', so adding every edge once is a real precondition.", "quantifier": "for all graphs and embeddings; plus a concrete failing graph", "why_tests_cant": "termination for all inputs", "anchors": ["bpypolyskel/poly2FacesGraph.py: poly2FacesGraph.faces"]}
{"id": "C17", "title": "The skeleton is closed: every sink is a polygon vertex or another node", "statement": "Every sink of every Subtree returned by skeletonize() is equal to a contour vertex or to the source of some returned Subtree. (The tolerance of the vector comparison matters: with it, the post-processing of a closed skeleton can leave a sink that is neither.)", "quantifier": "for all polygons with holes and all numeric behaviours in which equal numbers are the same number and every point is nearer than 0.1 to itself (the reals, IEEE numbers with exact comparison)", "why_tests_cant": "an invariant through the event loop, the merging of clusters and the ghost removal, for all inputs", "anchors": ["bpypolyskel/bpypolyskel.py: skeletonize, mergeNodeClusters, mergeCluster, removeGhosts, Subtree"]}
{"id": "C18", "title": "All face indices are valid vertex indices", "statement": "When polygonize() returns, every index in every newly created face is >= 0 and < len(verts) after the call, and belongs to a contour or to a vertex added by the call; the internal error index -1 never occurs. In every arithmetic, an index that is not such an index is -1.", "quantifier": "for all inputs for which the call returns; that -1 does not occur for numeric behaviours as in C17", "why_tests_cant": "all polygons", "anchors": ["bpypolyskel/bpypolyskel.py: polygonize"]}
{"id": "C19", "title": "polygonize appends the nodes and leaves the existing vertices alone", "statement": "After a call that computes a skeleton, verts starts with the unchanged input vertices, followed by one vertex per Subtree of the skeleton in the same order, whose x and y are the node position shifted back by the centre of gravity of the outer contour and whose z is base height + node height * tangent.", "quantifier": "for all inputs", "why_tests_cant": "all inputs", "anchors": ["bpypolyskel/bpypolyskel.py: polygonize"]}
{"id": "C20", "title": "The faces argument is extended and returned", "statement": "If faces is None a new list is returned; otherwise the given list is extended at its end by exactly the faces that would be returned for None, and is returned.", "quantifier": "for all inputs and all previously existing face lists", "why_tests_cant": "relates two calls for all inputs", "anchors": ["bpypolyskel/bpypolyskel.py: polygonize"]}
{"id": "C21", "title": "Height and pitch semantics", "statement": "In exact arithmetic: with height != 0 the highest new vertex lies exactly height above the base (height takes precedence over tan; the pitch argument is ignored); with height == 0 each node lies tan * node height above the base; with both zero all new vertices lie at base height. With height != 0 the call raises exactly when there is no node (ValueError) or the highest node has height 0 (ZeroDivisionError).", "quantifier": "for all inputs over the reals", "why_tests_cant": "maximum over all nodes, all inputs", "anchors": ["bpypolyskel/bpypolyskel.py: polygonize"]}
{"id": "C22", "title": "Translation equivariance", "statement": "In exact arithmetic, moving all vertices by the same vector (dx,dy,dz) moves every new vertex by the same vector, returns the same faces, and raises the same exception if any.", "quantifier": "for all inputs and all translations over the reals", "why_tests_cant": "relational property over all inputs and translations", "anchors": ["bpypolyskel/bpypolyskel.py: polygonize"]}
{"id": "C23", "title": "Supplying the unit vectors changes nothing when they are the ones computed inside", "statement": "polygonize() with unitVectors whose xy-part equals the normalised edge vectors in the documented order (outer contour, then the holes) behaves exactly like the call without unitVectors; an empty list behaves like None.", "quantifier": "for all inputs", "why_tests_cant": "relates two calls for all inputs, including the index bookkeeping over any number of holes", "anchors": ["bpypolyskel/bpypolyskel.py: polygonize", "bpypolyskel/bpyeuclid.py: Edge2"]}
{"id": "C24", "title": "No node below the eaves", "statement": "In exact arithmetic every Subtree returned by skeletonize() has height >= 0, hence for tan >= 0 (or height > 0) every vertex added by polygonize lies at or above the base height, and with a height at or below it.", "quantifier": "for all polygons over the reals", "why_tests_cant": "invariant over all events, merges and ghost removals", "anchors": ["bpypolyskel/bpypolyskel.py: skeletonize, mergeCluster, polygonize"]}
{"id": "C25", "title": "The wavefront stays a set of disjoint closed loops", "statement": "At every moment of skeletonize() before which each handled edge event concerned neighbouring vertices and each handled dormer event four consecutive vertices of a LAV with at least seven, every active LAV is a circular doubly linked list of valid vertices that know their LAV, different active LAVs share no vertex, each has at least three vertices and its recorded length is correct. The initial LAVs list the corners of the contours in order. Handling such an edge event never raises; a split event raises only if the pair of neighbours found contains its own vertex, a dormer event only if its two bisectors do not meet. As long as no split or dormer event changes the wavefront, every edge event does concern neighbouring vertices.", "quantifier": "for all polygons, all event schedules and all numeric behaviours", "why_tests_cant": "heap invariant over unbounded executions", "anchors": ["bpypolyskel/bpypolyskel.py: _LAV.from_polygon, _LAV.from_chain, _LAV.unify, _LAV.invalidate, _SLAV.handle_edge_event, _SLAV.handle_split_event, _SLAV.handle_dormer_event"]}
{"id": "C26", "title": "The event loop terminates", "statement": "skeletonize() processes only finitely many events: for contours with at least three edges the number of events taken from the queue is at most 4 for each corner, 4 more for each reflex corner, and 5 for each edge event that turns two convex vertices into a reflex one or merges a vertex with itself; the latter is impossible in exact arithmetic, and for neighbours in a closed wavefront with any arithmetic. In particular the loop ends whenever no two convex vertices are turned into a reflex one.", "quantifier": "for all polygons and all numeric behaviours", "why_tests_cant": "termination for all inputs", "anchors": ["bpypolyskel/bpypolyskel.py: skeletonize, _SLAV.handle_edge_event, _SLAV.handle_split_event, _SLAV.handle_dormer_event"]}
{"id": "C27", "title": "Convex polygons are always handled", "statement": "In exact arithmetic, for a convex contour with n >= 3 vertices (edge directions turning left by 2*pi in total) and no holes, the event loop never meets a split event, never raises, ends after finitely many events and produces at most n-2 nodes.", "quantifier": "for all convex polygons over the reals, whatever the order of simultaneous events", "why_tests_cant": "all n and all shapes", "anchors": ["bpypolyskel/bpypolyskel.py: skeletonize"]}
{"id": "C28", "title": "Edge-event nodes are equidistant from the adjoining edges, so roof faces are planar", "statement": "In exact arithmetic, the node of an edge event between neighbouring vertices has the same signed distance from the lines of the three (or, at a peak, all) polygon edges meeting there, and the recorded height is the absolute value of that distance for the edge used.", "quantifier": "for all wavefront states in which each vertex is equidistant from its two edges", "why_tests_cant": "exact geometric identity for all configurations", "anchors": ["bpypolyskel/bpypolyskel.py: _LAVertex.next_event, _SLAV.handle_edge_event, _LAV.unify"]}
{"id": "C29", "title": "Split-event nodes are equidistant from the splitting vertex's edges and the opposite edge", "statement": "In exact arithmetic, a split event generated for a reflex corner lies on the corner's bisector and has the same signed distance from both edges of the corner and from the opposite edge, which is the event's recorded distance.", "quantifier": "for all reflex corners and opposite edges over the reals", "why_tests_cant": "exact geometric identity for all configurations", "anchors": ["bpypolyskel/bpypolyskel.py: _LAVertex.next_event, _SLAV.handle_split_event"]}
{"id": "C30", "title": "Cluster merging terminates, leaves no mergeable cluster, and nodes of equal position are joined first", "statement": "mergeNodeClusters() always terminates, with at most one merge per node; first the nodes of equal position are joined, so that every position occurs once and keeps all its connections; when it returns, no group of nodes qualifies for merging any more, and the number of nodes never grows. In exact arithmetic it raises exactly when detectApses() raises on the outer contour, or when there is no contour.", "quantifier": "for all skeletons and contours (joining of equal nodes: for every numeric behaviour with exact equality)", "why_tests_cant": "fixpoint property for all inputs", "anchors": ["bpypolyskel/bpypolyskel.py: mergeNodeClusters, findClusters, mergeCluster"]}
{"id": "C31", "title": "A merged node is the centroid of its cluster and inherits its connections", "statement": "mergeCluster() replaces the nodes of the cluster by one node at the mean position with the mean height, whose sinks are exactly the sinks of the cluster's nodes that are not cluster nodes, without duplicates; every other node that referred to a cluster node refers to the new node instead, exactly once, provided the mean position is not the position of a cluster node; all other nodes and connections are unchanged. When the mean position is that of a cluster node, the connection can be lost altogether.", "quantifier": "for all skeletons and clusters; plus a concrete skeleton that loses a connection", "why_tests_cant": "all inputs", "anchors": ["bpypolyskel/bpypolyskel.py: mergeCluster"]}
{"id": "C32", "title": "Clusters are disjoint groups of nearby nodes; groups near an apse are left alone", "statement": "findClusters() returns pairwise disjoint groups of at least two different nodes, each node within the threshold (Manhattan distance) of the group's first node, none of them within 3 of a detected apse centre.", "quantifier": "for all skeletons and contours", "why_tests_cant": "all inputs", "anchors": ["bpypolyskel/bpypolyskel.py: findClusters"]}
{"id": "C33", "title": "Ghost removal terminates and only redistributes connections", "statement": "removeGhosts() terminates on every skeleton; it keeps all nodes with their positions and heights, never increases the number of connections, and every remaining connection leads to a point that was a sink before. In exact arithmetic a pair of connections is touched only when the cosine of their angle exceeds 0.99; then the longer one is handed to the node at the end of the shorter one, and both leave the arc. It can raise ValueError although every input sink is valid; in exact arithmetic it raises nothing else.", "quantifier": "for all skeletons; plus a concrete failing skeleton", "why_tests_cant": "termination and invariants for all inputs", "anchors": ["bpypolyskel/bpypolyskel.py: removeGhosts"]}
{"id": "C34", "title": "detectApses raises on straight subdivided sides", "statement": "A contour that has a corner and a straight side subdivided so that six or more consecutive low-angle vertices have collinear first, middle and last points makes detectApses(), and with it skeletonize() and polygonize(), raise ZeroDivisionError; detectApses() raises in no other case (for non-empty contours).", "quantifier": "for all contours over the reals; plus a concrete rectangle", "why_tests_cant": "characterises all failing inputs", "anchors": ["bpypolyskel/bpypolyskel.py: detectApses", "bpypolyskel/bpyeuclid.py: fitCircle3Points"]}
{"id": "C35", "title": "Apse detection finds the maximal runs of low-angle corners", "statement": "detectApses() returns None when all corners are low-angle corners or there is no run of at least six; otherwise one centre per maximal run (of length at least six) of consecutive low-angle corners of the doubled sequence that starts within the first round, computed from the corner points of that run.", "quantifier": "for all contours", "why_tests_cant": "regular-expression semantics for all sequences", "anchors": ["bpypolyskel/bpypolyskel.py: detectApses"]}
{"id": "C36", "title": "Detected dormers are right-left-left-right rectangular turns of admissible size", "statement": "Every dormer returned by detectDormers() consists of four cyclically consecutive corners turning right, left, left, right by nearly 90 degrees (sine beyond 0.99), with base edge shorter than 10 and side lengths of squared contrast below 0.35; dormers have no corner in common and never use all corners; conversely the candidates are exactly the places of this turn pattern whose end corners belong to no other such pattern, and all candidates of accepted size are returned in order. ZeroDivisionError is raised when both sides of a candidate have length 0.", "quantifier": "for all contours", "why_tests_cant": "all contours", "anchors": ["bpypolyskel/bpypolyskel.py: detectDormers"]}
{"id": "C37", "title": "Whether a dormer is accepted depends only on its own neighbourhood", "statement": "The decision of detectDormers() about one candidate depends only on the candidate's edges, the edges next to it and the turns next to it.", "quantifier": "for all contours", "why_tests_cant": "would have to be refuted by two contours that differ elsewhere; no test compares such contours", "anchors": ["bpypolyskel/bpypolyskel.py: detectDormers"]}
{"id": "C38", "title": "The skeleton does not depend on which vertex the contour starts with", "statement": "Rotating the vertex list of the outer contour does not change the set of skeleton nodes and connections.", "quantifier": "for all polygons and all start vertices", "why_tests_cant": "relational property; tests use one start vertex per polygon", "anchors": ["bpypolyskel/bpypolyskel.py: skeletonize, detectDormers, processDormers"]}
{"id": "C39", "title": "Spike removal terminates", "statement": "The spike-removal loop of polygonize() ends for every list of faces and every vertex list: each round that changes something reduces the total number of face corners; it introduces no vertex index that was not in the faces before.", "quantifier": "for all face lists and vertex lists", "why_tests_cant": "termination for all inputs", "anchors": ["bpypolyskel/bpypolyskel.py: polygonize"]}
{"id": "C40", "title": "The final clean-up of faces never fails and never removes polygon corners by mistake", "statement": "The clean-up of parallel edges and repeated vertices raises no ValueError when every face has a corner that is a polygon vertex or occurs in three or more face corners (a face without such a corner can lose all corners and then raises ValueError); the parallel-edge step removes exactly the skeleton vertices that occur in fewer than three face corners and are flat in that face; each face afterwards is a sub-list of the face before.", "quantifier": "for all face lists and vertex lists with valid indices", "why_tests_cant": "all inputs", "anchors": ["bpypolyskel/bpypolyskel.py: polygonize"]}
{"id": "C41", "title": "The first edge of every face is an edge of the polygon or its holes", "statement": "In the list returned by polygonize() the first two vertices of every face are the ends of an edge of the polygon or of one of its holes (documented).", "quantifier": "for all inputs", "why_tests_cant": "holds on most inputs; documented as always true", "anchors": ["bpypolyskel/bpypolyskel.py: polygonize", "bpypolyskel/poly2FacesGraph.py: poly2FacesGraph.faces"]}
{"id": "C42", "title": "Before spike removal every polygon edge bounds exactly one roof face on its inner side", "statement": "If no sink coincides with another connection (the graph is simple), each directed polygon edge occurs in exactly one face traced by faces(), and each skeleton connection in exactly two positions, once per direction.", "quantifier": "for all inputs whose graph is simple", "why_tests_cant": "all inputs", "anchors": ["bpypolyskel/bpypolyskel.py: polygonize", "bpypolyskel/poly2FacesGraph.py: poly2FacesGraph.faces"]}
{"id": "C43", "title": "checkEdgeCrossing counts exactly the crossing pairs", "statement": "In exact arithmetic checkEdgeCrossing() returns the number of unordered pairs of skeleton connections whose segments cross at a point that is, on both of them, away from the ends by more than the fraction 1e-5; it does not depend on the order of the nodes.", "quantifier": "for all skeletons over the reals", "why_tests_cant": "equivalence with a geometric existence statement", "anchors": ["bpypolyskel/bpypolyskel.py: checkEdgeCrossing"]}
{"id": "C44", "title": "Failure leaves the caller's data in a defined state", "statement": "If polygonize() raises before the skeleton is complete, verts and faces are unchanged; if it raises later, faces is unchanged and verts is either unchanged or its old content followed by the nodes. faces is only ever changed by a successful call.", "quantifier": "for all inputs for which the call raises", "why_tests_cant": "all failing executions", "anchors": ["bpypolyskel/bpypolyskel.py: polygonize"]}
{"id": "C45", "title": "The height of a node is its distance to the nearest polygon edge", "statement": "In exact arithmetic the height of a returned Subtree is the distance from its source to the nearest polygon edge (documented).", "quantifier": "for all polygons and all arithmetics (the refuting run uses IEEE numbers)", "why_tests_cant": "documented as always true; tests do not look at heights", "anchors": ["bpypolyskel/bpypolyskel.py: skeletonize, _SLAV.handle_dormer_event, mergeCluster"]}
{"id": "C46", "title": "Discarded wavefront vertices never come back", "statement": "When a wavefront vertex is invalidated it is detached from its LAV, the head of that LAV moves on if it was this vertex, and nothing else changes; no event ever makes an invalid vertex valid again or moves it, so it is still invalid at the end of the event loop; an event that refers to an invalid vertex (for a dormer event: to the vertices of its split events) changes neither the wavefront nor the queue nor the output.", "quantifier": "for all executions and all numeric behaviours", "why_tests_cant": "safety over all executions", "anchors": ["bpypolyskel/bpypolyskel.py: _LAVertex.invalidate, _LAV.invalidate, skeletonize"]}
{"id": "C47", "title": "Every event produces a node with the right connections", "statement": "Every node produced by the event loop has at least one sink, an edge event node exactly two or (at a peak) as many as the LAV has vertices, a split event node between one and three, dormer nodes three and two; a skipped or failed event produces none. Sinks are points of vertices that were in the wavefront.", "quantifier": "for all executions and all numeric behaviours", "why_tests_cant": "all executions", "anchors": ["bpypolyskel/bpypolyskel.py: _SLAV.handle_edge_event, _SLAV.handle_split_event, _SLAV.handle_dormer_event"]}
{"id": "C48", "title": "Only the vertices of the polygon and its holes matter", "statement": "Changing vertices of verts that belong neither to the outer contour nor to a hole (keeping the length of the list) changes neither the returned faces, nor the new vertices, nor the exception raised.", "quantifier": "for all inputs and all replacements", "why_tests_cant": "relational property over all inputs", "anchors": ["bpypolyskel/bpypolyskel.py: polygonize"]}
{"id": "C49", "title": "A split only happens at the opposite edge as it is present in the wavefront", "statement": "When a split event is executed, the vertex loops are cut between two neighbouring active vertices whose common edge has the direction and start point of the event's opposite edge, with the intersection point inside the wedge of their bisectors; if there is no such pair the event has no effect.", "quantifier": "for all wavefront states", "why_tests_cant": "all states", "anchors": ["bpypolyskel/bpypolyskel.py: _SLAV.handle_split_event"]}
{"id": "C50", "title": "A vertex always proposes the nearest of its candidate events, lying on its own bisector", "statement": "In exact arithmetic the event proposed by a wavefront vertex lies on the vertex's bisector ray, and no other candidate (edge event with either neighbour, admissible split) lies closer to the vertex; None is proposed exactly when there is no candidate.", "quantifier": "for all wavefront states over the reals", "why_tests_cant": "minimum over all candidates for all states", "anchors": ["bpypolyskel/bpypolyskel.py: _LAVertex.next_event"]}
{"id": "C51", "title": "Merging the faces beside a spike keeps the surface closed", "statement": "When spike removal merges the two faces on both sides of a spike, the multiset of directed edges of all faces changes only by replacing the four directed edges of the spike by the edge between its two neighbours in both directions; so every other edge keeps its opposite partner.", "quantifier": "for all face lists in which the spike's edges have unique opposite faces", "why_tests_cant": "all face lists", "anchors": ["bpypolyskel/bpypolyskel.py: polygonize"]}
{"id": "C52", "title": "The contours are built in the documented order and are closed", "statement": "polygonize() hands to skeletonize() the outer contour followed by the holes in the given order; the k-th edge of a contour runs from its k-th vertex to the next one (the last back to the first), with coordinates relative to the centre of the outer contour, numbered through over all contours, and carries the supplied unit vector of that number or the normalised direction. Building the contours raises only IndexError or ZeroDivisionError.", "quantifier": "for all inputs and all numeric behaviours", "why_tests_cant": "all inputs, any number of holes", "anchors": ["bpypolyskel/bpypolyskel.py: polygonize", "bpypolyskel/bpyeuclid.py: Edge2"]}
{"id": "C53", "title": "Neighbours of the wavefront share an edge, so the event loop never raises", "statement": "When no dormer was detected and no two contour edges have (up to the comparison tolerance) the same start and direction: as long as every edge event that is handled concerns neighbours, the edge after a wavefront vertex is the edge before its successor at every moment of the run. It follows that the pair of neighbours found by a split event meets in the event's opposite edge and never contains the event's own vertex, and that the main loop never raises an exception; with a bounded run (C26) skeletonize() can only raise in its final merging phases. The start of skeletonize() (wavefront, original edges, initial events) does not raise either.", "quantifier": "for all contours of three edges or more, all runs of any length, any arithmetic", "why_tests_cant": "all contours and all runs", "anchors": ["bpypolyskel/bpypolyskel.py: handle_split_event", "bpypolyskel/bpypolyskel.py: handle_edge_event", "bpypolyskel/bpypolyskel.py: skeletonize"]}
{"id": "C54", "title": "The event loop starts with the right events", "statement": "skeletonize() puts into the queue the next event of every corner of every contour, and nothing else, except that the events of the four corners of an accepted dormer are replaced by one dormer event if, in the order of the list of corners, the first and the last propose split events, the second an edge event and the third any event. The dormer event consists of these two split events and the edge event, happens at half of the length of the base edge, and its point is the intersection of the bisectors of the two splitting corners.", "quantifier": "for all contours with at least three edges each, all arithmetics, all dormers", "why_tests_cant": "all inputs; a lost or doubled event shows up only in the shape of the roof", "anchors": ["bpypolyskel/bpypolyskel.py: processDormers", "bpypolyskel/bpypolyskel.py: skeletonize"]}
{"id": "C55", "title": "Every vertex that leaves the wavefront is the sink of exactly one arc", "statement": "During the main loop every wavefront vertex that takes part and leaves the wavefront is recorded as a sink of exactly one node, the node of the event that removed it: the sinks of all nodes together are the points of the vertices that left, each once, plus for each executed dormer event one sink that is itself a node (the middle of the dormer). Vertices created by a split for a part with a single vertex never take part; they lie at the node. If the wavefront is empty at the end, every corner of every contour is the sink of an arc of its own.", "quantifier": "for all contours of three edges or more, all runs of any length whose handled events are apt, any arithmetic", "why_tests_cant": "all contours and runs; a lost or doubled sink shows up only as a missing or doubled roof edge in particular shapes", "anchors": ["bpypolyskel/bpypolyskel.py: handle_edge_event", "bpypolyskel/bpypolyskel.py: handle_split_event", "bpypolyskel/bpypolyskel.py: handle_dormer_event"]}
{"id": "C56", "title": "The number of arcs of the skeleton", "statement": "At the end of the main loop: arcs + vertices still in the wavefront + contours + executed dormer events = nodes + corners + loops still in the wavefront + 2 * (splits that joined two loops). In particular for one contour without joins and dormers, when the wavefront is empty at the end, arcs + 1 = nodes + corners, the count of a tree.", "quantifier": "for all contours of three edges or more, all runs of any length whose handled events are apt, any arithmetic", "why_tests_cant": "all contours and runs", "anchors": ["bpypolyskel/bpypolyskel.py: handle_edge_event", "bpypolyskel/bpypolyskel.py: handle_split_event", "bpypolyskel/bpypolyskel.py: handle_dormer_event"]}
{"id": "C57", "title": "The arcs of the skeleton connect everything", "statement": "If the wavefront is empty at the end of the main loop and no dormer event was executed, the arcs connect all corners of a contour with one another and every node and every sink with a corner; for a single contour all corners, nodes and sinks are connected with one another. With a dormer event this fails: the skeleton of a house with a small extension falls apart.", "quantifier": "for all contours of three edges or more, all runs of any length whose handled events are apt, any arithmetic", "why_tests_cant": "all contours and runs", "anchors": ["bpypolyskel/bpypolyskel.py: handle_edge_event", "bpypolyskel/bpypolyskel.py: handle_split_event", "bpypolyskel/bpypolyskel.py: handle_dormer_event"]}
{"id": "C58", "title": "What an edge records", "statement": "An edge made from two points records them; its unit vector has length one and leads from the first point to the second over their distance (it is zero for points closer than about 3e-18), and length_squared is the square of their distance. An edge made from two indices exists exactly when both are in range, records them, takes its end points relative to the centre and uses the unit vector handed over, if any.", "quantifier": "for all points, indices, vertex lists, centres and unit vectors, exact arithmetic", "why_tests_cant": "all real inputs", "anchors": ["bpypolyskel/bpyeuclid.py: Edge2.__init__", "bpypolyskel/bpyeuclid.py: Edge2.length_squared"]}
{"id": "C59", "title": "The event loop consumes the whole wavefront", "statement": "When the main loop ends, no list of active vertices is left over. This is false in general: a T-shaped polygon and a convex hexagon that is regular up to a millimetre are counterexamples. It holds for strictly convex polygons for which the distances at which three edges can meet are equal or a thousandth apart.", "quantifier": "for all such polygons, all runs of any length, exact arithmetic; the counterexamples are runs in 53-bit arithmetic", "why_tests_cant": "all polygons; the existing tests check only the faces", "anchors": ["bpypolyskel/bpypolyskel.py: skeletonize", "bpypolyskel/bpypolyskel.py: _SLAV.empty", "bpypolyskel/bpypolyskel.py: _EventQueue.getAllEqualDistance"]}
{"id": "C60", "title": "The skeleton of a convex polygon is its roof", "statement": "For a strictly convex polygon of n edges whose possible meetings of three edges are equal or a thousandth apart, the main loop ends with exactly n - 2 arcs. The source of each arc is a node of the roof of equal slopes: three edges have the arc's height as their distance from it and no edge is nearer. Each line from the source to a sink is on a ridge: at each of its points two different edges are nearest. Triangles need no hypothesis on the meetings; the other polygons can do with the weaker one that no event is handled before a nearer one.", "quantifier": "for all strictly convex polygons with at least three edges, all runs, exact arithmetic", "why_tests_cant": "all polygons; correctness against an independent description of the straight skeleton", "anchors": ["bpypolyskel/bpypolyskel.py: skeletonize", "bpypolyskel/bpypolyskel.py: _LAVertex.next_event", "bpypolyskel/bpypolyskel.py: _SLAV.handle_edge_event", "bpypolyskel/bpypolyskel.py: _LAV.unify", "bpypolyskel/bpypolyskel.py: _EventQueue.getAllEqualDistance"]}
{"id": "C61", "title": "The result does not depend on how long one is willing to wait", "statement": "The model runs the while loops of skeletonize with a bound on the number of rounds. If a call of the main loop, of skeletonize or of polygonize ends within some bound, it ends within every larger bound, with the same result (the same exception, vertices, faces and debug output).", "quantifier": "for all inputs, all bounds, any arithmetic", "why_tests_cant": "all inputs; it is what makes statements about bounded runs statements about the program", "anchors": ["bpypolyskel/bpypolyskel.py: skeletonize", "bpypolyskel/bpypolyskel.py: polygonize"]}
{"id": "C62", "title": "The faces for a convex polygon are its roof", "statement": "For a strictly convex polygon of n edges, anticlockwise, with no corner sharper than about 16 degrees, no three edges within about 16 degrees of direction, the heights of possible meetings equal or 0.001 apart and the nodes 0.1 apart, polygonize succeeds, appends at least one and at most n - 2 vertices (exactly n - 2 if no more than three edges meet in a node of the roof) and returns exactly one face for each edge. The face starts with its edge, has at least three different vertices, all in range; its other vertices are new ones inside the polygon in the plane through the edge with the given slope; at each of its vertices no other edge is nearer than its own; seen from above it turns left at each vertex. For triangles the only condition is that the sides are longer than about 3e-18.", "quantifier": "for all such polygons given by their points (or by their contour), any start index, height or pitch, previous faces, run-time choices and bounds, exact arithmetic", "why_tests_cant": "all polygons; end-to-end correctness of the call against an independent description of the roof", "anchors": ["bpypolyskel/bpypolyskel.py: polygonize", "bpypolyskel/bpypolyskel.py: skeletonize", "bpypolyskel/bpypolyskel.py: mergeNodeClusters", "bpypolyskel/bpypolyskel.py: removeGhosts", "bpypolyskel/poly2FacesGraph.py: poly2FacesGraph.faces"]}
{"id": "C63", "title": "Spike removal leaves convex faces alone", "statement": "The clean-up that removes spikes does not change faces that are convex: after it each edge of a strictly convex polygon still has its own face. (Does not hold: the narrow end of a convex face at a new node counts as a spike when its angle is below about 8.1 degrees. Proved: nothing is changed if no face with more than three corners has a corner with a cosine above 0.99.)", "quantifier": "for all vertex lists and faces with numbers in range, exact arithmetic; the counterexample is one polygon run through polygonize", "why_tests_cant": "all face lists; the counterexample shows the limit of a threshold that works for ordinary houses", "anchors": ["bpypolyskel/bpypolyskel.py: polygonize (spike removal, lines 1059-1137)"]}
{"id": "C64", "title": "The faces for a convex polygon tile it", "statement": "For the polygons of C62 the new faces, seen from above, cover exactly the polygon: a point is in the polygon if and only if it is over some new face. No point within one face is covered by another face, and no face is empty. The face over a side covers exactly the points of the polygon that are not nearer to another side, and its interior consists of the points that are nearer to this side than to any other. For triangles without further conditions.", "quantifier": "for all points of the plane, all such polygons given by their points, any start index, height or pitch, previous faces, run-time choices and bounds, exact arithmetic", "why_tests_cant": "all points and polygons; tests look at vertex lists, not at holes or overlaps in the roof", "anchors": ["bpypolyskel/bpypolyskel.py: polygonize", "bpypolyskel/bpypolyskel.py: skeletonize", "bpypolyskel/poly2FacesGraph.py: poly2FacesGraph.faces"]}
{"id": "C65", "title": "A straight corner takes part in no event", "statement": "If the two edges at a corner of the outer contour or of a hole have the same direction, then its bisector is the zero vector, and no edge event, split event or dormer event that the main loop ever takes from the queue has the vertex of this corner among its vertices; the wavefront around it can not be consumed by events at it. As a consequence a rectangle with one additional point in the middle of a side gets three faces, one of them over three sides and without the ridge, while the rectangle itself gets its four faces.", "quantifier": "all outer contours and hole contours with at least three edges each, all straight corners of them, all numbers of main loop iterations; exact arithmetic", "why_tests_cant": "A test shows the effect for one polygon; that the corner is never part of any event, whatever happens in the rest of the wavefront and however long the run is, is a statement about all executions.", "anchors": ["bpypolyskel/bpypolyskel.py:108-124", "bpypolyskel/bpypolyskel.py:126-208", "bpypolyskel/bpyeuclid.py:13-31", "bpypolyskel/bpypolyskel.py:823-873"]}
{"id": "C66", "title": "The areas of the faces add up to the area of the polygon", "statement": "For every polygon, convex or not, with any number of holes, and every skeleton in which each corner is connected with exactly one node and this node lies on the inner side of the two edges at the corner: the faces found in the graph have, seen from above, together the signed area of the polygon less that of the holes; more generally, whenever the inner side of each polygon edge belongs to a face and the outer side to none, every quantity that changes its sign with the direction of an edge has the same sum along all faces as along the contours. Merging a spike into its two neighbour faces changes no such sum; when the spike has the same face on both sides the code removes two vertices, and the faces may no longer fit together.", "quantifier": "all polygons with holes, all skeletons and node positions meeting the corner condition, all runtime set orders; the general statement for all numeric behaviours, the corner condition in exact arithmetic", "why_tests_cant": "It is a conservation law over all graphs the skeleton may lead to, with any number of corners, holes and nodes; a test adds up the areas of one roof.", "anchors": ["bpypolyskel/bpypolyskel.py:1024-1056", "bpypolyskel/poly2FacesGraph.py:55-123", "bpypolyskel/bpypolyskel.py:1059-1137"]}
{"id": "C67", "title": "The new vertices over a convex polygon are exactly the nodes of its roof", "statement": "For a strictly convex polygon whose roof nodes are not too close to each other, the vertices appended by polygonize() are, seen from above, exactly the points from which three sides have the same distance and no side has a smaller one; each appears once; none is missing. Each is above the polygon by that distance times the pitch; the pitch is tan, or height divided by the largest such distance.", "quantifier": "for all strictly convex polygons with the hypotheses of C62, all positions in the vertex list, all iteration orders, exact arithmetic", "why_tests_cant": "all polygons; that no node is missing is a statement about all points of the plane", "anchors": ["bpypolyskel/bpypolyskel.py: polygonize, skeletonize"]}
{"id": "C68", "title": "A polygon with an inscribed circle gets a pyramid", "statement": "Over a strictly convex polygon that has an inscribed circle (all regular polygons, all triangles, all rhombi, in any position and however sharp its corners are) polygonize() adds exactly one vertex. It is over the centre of the circle, above the polygon by tan times the radius, or by the requested height. The faces are the triangles between the sides of the polygon and that vertex, one for each side.", "quantifier": "for all strictly convex polygons with any number of vertices and an inscribed circle, all positions in the vertex list, all heights and pitches, all iteration orders, exact arithmetic", "why_tests_cant": "all numbers of sides and all polygons; the merging of all events in a single point (so with any number of simultaneous events) is only tested for few shapes", "anchors": ["bpypolyskel/bpypolyskel.py: polygonize, skeletonize, mergeNodeClusters, removeGhosts"]}
{"id": "C69", "title": "A rectangle gets a hip roof", "statement": "Over a rectangle in any position polygonize() adds exactly two vertices, the ends of the ridge: on the middle line of the longer direction, half the shorter side from the shorter sides, above the polygon by half the shorter side times the pitch. The faces are two triangles over the shorter sides and two quadrangles over the longer ones, each given vertex by vertex.", "quantifier": "for all rectangles (any place, direction and size) with a ridge of at least a tenth (Manhattan metric), all positions in the vertex list, all heights and pitches, all iteration orders, exact arithmetic", "why_tests_cant": "all sizes and directions; the whole result is given, not only some feature of it", "anchors": ["bpypolyskel/bpypolyskel.py: polygonize, skeletonize"]}
{"id": "C70", "title": "Similar polygons get similar roofs", "statement": "When a polygon is turned, moved and enlarged (together with the requested height), the faces are the same, turned, moved and enlarged. (Does not hold in general: the thresholds are absolute and measured along the axes. Proved: for strictly convex polygons with the hypotheses of C62 before and after; for enlarging without turning they are only needed before.)", "quantifier": "for all strictly convex polygons with the hypotheses of C62, all similarities that keep the orientation, all iteration orders, exact arithmetic; the counterexamples are single polygons run through polygonize in 53-bit arithmetic", "why_tests_cant": "all polygons and all similarities", "anchors": ["bpypolyskel/bpypolyskel.py: polygonize, findClusters, mergeNodeClusters"]}
{"id": "C71", "title": "Every ridge of a roof of any shape lies in two roof planes", "statement": "Every connection between two nodes, or between a node and a corner, that the wavefront puts out lies in the planes that rise from two edges of the polygon: the recorded height of the node is its distance from the lines of both edges, and the planes agree at the other end with the recorded height there. (Does not hold at right-angled reflex corners, where the code tilts a direction on purpose. Proved under conditions on the run; for parallelograms without any; for strictly convex polygons, if no event is handled before a nearer one, which is so if the distances at which three edges can meet are equal or a thousandth apart.)", "quantifier": "for all contours with any number of holes, all runs of the main loop, exact arithmetic, if no reflex corner is right-angled, there are no dormers, edge events join neighbours, and no vertex made during the run is reflex; the counterexample is one polygon run through polygonize in 53-bit arithmetic", "why_tests_cant": "all polygons with any number of holes and all runs; the tests of the project compare no heights", "anchors": ["bpypolyskel/bpypolyskel.py: _LAVertex.next_event, _LAV.unify, _SLAV.handle_edge_event, _SLAV.handle_split_event, _SLAV.handle_peak"]}
{"id": "C72", "title": "Whenever two vertices of the wavefront become neighbours, one of them is asked for its next event", "statement": "At the start every vertex is asked for its next event and the answers are queued. When an edge event, or a split event within one loop, makes two vertices of the wavefront neighbours, one of the two is asked for its next event and the answer is handed to the queue; so at every moment of a run two neighbours either were neighbours from the start or were asked about when they became neighbours. (Does not hold for split events that join a hole to another loop, where the second new vertex is never asked, and for dormer events, which ask nobody: in both cases faces are lost.)", "quantifier": "for all contours with any number of holes, all moments of all runs and all pairs of vertices, for any arithmetic, if the run is apt (each event meets the wavefront it was computed for); the counterexamples are two polygons run through polygonize in 53-bit arithmetic", "why_tests_cant": "all runs of any length and all pairs of vertices; a forgotten question shows only for polygons in which the forgotten event would have been the next one", "anchors": ["bpypolyskel/bpypolyskel.py: _SLAV.handle_edge_event, _SLAV.handle_split_event, _SLAV.handle_dormer_event, skeletonize"]}
{"id": "C73", "title": "The removal of spikes reports an endless loop only if an edge occurs twice in the faces", "statement": "The exception 'Endless loop in spike removal' is raised exactly if the two faces beside the spike, joined at its tip and turned to start with a polygon vertex, are the face with the spike. This cannot happen while no directed edge occurs twice in the faces; so it does not happen for the first spike in the faces of a graph without double edges, and the directed edges stay distinct unless the edge that closes the gap of a spike was there already. (Missing: that such an edge is never there already.)", "quantifier": "for all lists of faces, all spikes, all graphs without double edges, all coordinates, any arithmetic", "why_tests_cant": "no test raises the exception; that it cannot be raised concerns all polygons", "anchors": ["bpypolyskel/bpypolyskel.py: polygonize (spike removal, lines 1091-1137)"]}
{"id": "C74", "title": "The building of the Blender add-on is a surface that is open at the ground only", "statement": "The walls that the add-on builds and the roof that polygonize puts on them fit together: over a strictly convex footprint the mesh has one wall and one roof face for each side, the vertices of the eaves are straight above those of the ground, no directed edge occurs twice, and each directed edge is met by its opposite in a neighbouring face, except for the edges of the footprint on the ground. The roof alone is bounded by the polygon in the same sense; and the walls close any such roof, whatever the shape of the footprint.", "quantifier": "for all triangles; for all strictly convex polygons in exact arithmetic with the properties of C62 (blunt, nodes apart), any scale; the walls for any number of vertices and any roof bounded by the eaves", "why_tests_cant": "the add-on has no test and one footprint; a wall turned the wrong way, or an edge with only one face, shows as wrong shading or a leak only in a renderer", "anchors": ["__init__.py: _iterCircularPrevThis, add_object", "bpypolyskel/bpypolyskel.py: polygonize", "bpypolyskel/poly2FacesGraph.py: faces"]}
{"id": "C75", "title": "Moving the slider of the demo again and again gives the same roof with another pitch", "statement": "demo.py calls polygonize with the same list of vertices at every move of the slider, and every call extends this list. For any sequence of pitches either all calls raise the same exception before adding a vertex, or all calls compute the same skeleton; the k-th call adds one vertex per node behind all others, at the same places seen from above; in exact arithmetic its height over the eaves is the slope times a number that is the same for all calls. The given vertices are never changed, and the faces of a call refer only to the vertices of the contours and to those which this call added, never to those of an earlier call.", "quantifier": "for all polygons with holes, all sequences of slopes of any length, any arithmetic; heights and the absence of the error index in exact arithmetic", "why_tests_cant": "sequences of calls of any length; no test calls polygonize twice with the same list", "anchors": ["demo.py: create_roof, run_demo", "bpypolyskel/bpypolyskel.py: polygonize"]}
{"id": "C76", "title": "All faces of the roof have the pitch asked for, and its area is the area of the polygon divided by the cosine of the pitch", "statement": "Over a horizontal, strictly convex polygon, in exact arithmetic, the normal of each new face, computed from the vertices that polygonize returns in the order in which the face lists them, looks upwards and leans to the outside of the polygon's side the face starts with, by the same slope for all faces; this is the argument tan if no roof height is given. The area of each face is the area below it times sqrt(1+slope^2), and the areas of all faces add up to the area of the polygon times sqrt(1+slope^2).", "quantifier": "for all triangles, all strictly convex polygons whose nodes satisfy the separation conditions of C62, all slopes and heights", "why_tests_cant": "the tests compare rounded numbers for a handful of outlines; the claim concerns exact planes and areas of all of them", "anchors": ["bpypolyskel/bpypolyskel.py: polygonize", "bpypolyskel/bpypolyskel.py: skeletonize", "bpypolyskel/poly2FacesGraph.py: poly2FacesGraph"]}
{"id": "C77", "title": "Which exceptions polygonize can raise", "statement": "Whatever the arithmetic and the arguments: if polygonize raises before the skeleton is stored in debugOutputs, the exception is an IndexError, a ZeroDivisionError, a ValueError, an AttributeError, a TypeError or the RuntimeError of _LAV.__iter__; if it raises afterwards, it is a ZeroDivisionError, a ValueError, a StopIteration or one of the two endless-loop exceptions. Nothing else is raised: no assertion fails, and no reference to a vertex or wavefront list is dangling. IndexError is raised only if the contours do not lie in verts or unitVectors is too short: no index the code computes itself leaves its list.", "quantifier": "every numeric behaviour, every runtime (set order, sort order), all arguments, all numbers of passes of the main loop", "why_tests_cant": "a test shows which exceptions did occur; that no other can occur, and that the computed indices never leave their lists, is a statement about all executions, also about those where rounding produces inconsistent event sequences", "anchors": ["bpypolyskel/bpypolyskel.py: polygonize", "bpypolyskel/bpypolyskel.py: skeletonize", "bpypolyskel/bpypolyskel.py: _LAV, _SLAV", "bpypolyskel/poly2FacesGraph.py: poly2FacesGraph"]}
{"id": "C78", "title": "Water runs off a roof over a convex polygon", "statement": "For a horizontal, strictly convex counterclockwise polygon without holes (vertices and nodes of the skeleton not closer together than the tolerances of the code, corners not too sharp) and a positive height or pitch, polygonize returns a roof without a place where water could collect: from any point of a face, the line straight down the face (at right angles to the side of the polygon the face begins with, towards the outside) stays over the face until it ends on that side; and from every new vertex there is a way along sides of faces, going strictly down at each step, to a vertex of the polygon. For triangles there is no hypothesis about the skeleton.", "quantifier": "all horizontal strictly convex polygons over the reals meeting the named hypotheses, any number of vertices, all points of all faces, all new vertices, all sufficient fuels, all placements in the vertex list", "why_tests_cant": "It speaks of every point of every face of every convex polygon; a test can look at single points of single roofs, and the existing tests compare only the faces with recorded ones.", "anchors": ["bpypolyskel/bpypolyskel.py: polygonize", "bpypolyskel/bpypolyskel.py: skeletonize", "bpypolyskel/poly2FacesGraph.py: faces"]}
{"id": "C79", "title": "The roof over a convex polygon is the graph of a concave function", "statement": "For a horizontal, strictly convex counterclockwise polygon without holes (vertices and nodes of the skeleton not closer together than the tolerances of the code, corners not too sharp) and a height or pitch that is not negative, the faces that polygonize returns form a surface with exactly one point over each point of the polygon and none over other points; over the sides of the polygon it has the height of the polygon; it is concave, so it has no valleys; and between any two of its points it is not steeper than the pitch. For triangles there is no hypothesis about the skeleton.", "quantifier": "all horizontal strictly convex polygons over the reals meeting the named hypotheses, any number of vertices, all points and pairs of points of the roof, all sufficient fuels, all placements in the vertex list", "why_tests_cant": "It compares the heights at all pairs of points of the surface, for every convex polygon; tests sample finitely many polygons and points.", "anchors": ["bpypolyskel/bpypolyskel.py: polygonize", "bpypolyskel/bpypolyskel.py: skeletonize", "bpypolyskel/poly2FacesGraph.py: faces"]}
{"id": "C80", "title": "A smaller convex polygon gets a lower roof", "statement": "If two horizontal, strictly convex counterclockwise polygons without holes at the same height (both with vertices and nodes of the skeleton not closer together than the tolerances of the code, corners not too sharp) are given the same pitch, not negative, and the first lies within the second, then the roof that polygonize returns for the first is nowhere above the roof for the second.", "quantifier": "all pairs of horizontal strictly convex polygons over the reals meeting the named hypotheses, any two numbers of vertices, all points, all sufficient fuels, all placements in the vertex lists", "why_tests_cant": "It relates two calls with different arguments at all points of the first polygon; there are infinitely many pairs of polygons.", "anchors": ["bpypolyskel/bpypolyskel.py: polygonize", "bpypolyskel/bpypolyskel.py: skeletonize"]}
{"id": "C81", "title": "The roof over a convex polygon depends on its shape only", "statement": "If a map of the plane that multiplies all distances by the same positive number (a shift, a rotation, a reflection, a scaling or a combination of them) takes one horizontal, strictly convex counterclockwise polygon without holes to another one (both with vertices and nodes of the skeleton not closer together than the tolerances of the code, corners not too sharp) and both are given the same pitch, or heights that differ by the same factor, then the same map, with heights above the ground multiplied by the same number, takes the roof that polygonize returns for the first to the roof for the second. It does not matter with which vertex the polygons begin. In particular the roof over a polygon that is its own mirror image is its own mirror image. For triangles there is no hypothesis about the skeleton.", "quantifier": "all pairs of horizontal strictly convex polygons over the reals meeting the named hypotheses, all similarities of the plane including reflections, all points, all sufficient fuels, all placements in the vertex lists", "why_tests_cant": "It relates two calls with different arguments at all points, for every similarity of the plane; with a mirror image the run handles the vertices in the opposite order, so no step of one run corresponds to a step of the other.", "anchors": ["bpypolyskel/bpypolyskel.py: polygonize", "bpypolyskel/bpypolyskel.py: skeletonize", "bpypolyskel/poly2FacesGraph.py: faces"]}
{"id": "C82", "title": "A small change of a convex polygon changes its roof little", "statement": "If two horizontal, strictly convex counterclockwise polygons without holes at the same height (both with vertices and nodes of the skeleton not closer together than the tolerances of the code, corners not too sharp) are given the same pitch, not negative, and no vertex of either is farther than some distance from the other polygon, then at every point over both polygons the heights of the two roofs that polygonize returns differ by at most the pitch times that distance. The polygons need not have the same number of vertices, and their skeletons need not be connected in the same way. For triangles there is no hypothesis about the skeleton.", "quantifier": "all pairs of horizontal strictly convex polygons over the reals meeting the named hypotheses, any two numbers of vertices, all distances, all points, all sufficient fuels, all placements in the vertex lists", "why_tests_cant": "It bounds the effect of every change of the polygon, also of changes across which the order of the events and the structure of the skeleton change; tests sample finitely many changes.", "anchors": ["bpypolyskel/bpypolyskel.py: polygonize", "bpypolyskel/bpypolyskel.py: skeletonize"]}
{"id": "C83", "title": "The top of the roof over a convex polygon is over the centre of its largest disc", "statement": "For a horizontal, strictly convex counterclockwise polygon without holes (vertices and nodes of the skeleton not closer together than the tolerances of the code, corners not too sharp) there is a largest disc in the polygon, and the roof that polygonize returns is highest over its centre: there it is at the pitch times the radius above the polygon, and nowhere is it higher. If a height is given, this is the height, so the pitch of all faces is the height divided by the radius of the largest disc. For triangles there is no hypothesis about the skeleton.", "quantifier": "all horizontal strictly convex polygons over the reals meeting the named hypotheses, any number of vertices, all discs, all points of the roof, all heights and pitches, all sufficient fuels, all placements in the vertex list", "why_tests_cant": "It compares the highest vertex with all points of the surface and with all discs in the polygon, for every convex polygon; tests sample finitely many.", "anchors": ["bpypolyskel/bpypolyskel.py: polygonize", "bpypolyskel/bpypolyskel.py: skeletonize"]}
{"id": "C84", "title": "The roof over a convex polygon satisfies Euler's formula, and its skeleton is a tree", "statement": "For a strictly convex polygon without holes whose edge lines, angles and nodes are not degenerate, the faces that polygonize adds satisfy Euler's formula for a disc, vertices - edges + faces = 1, where each edge is counted once. Every corner of the polygon and every new vertex is in a face, there is one face for each side, and with n sides and m new vertices all faces together have 3n + 2m - 2 corners. The skeleton in debugOutputs is a tree: no point is the sink of two nodes or twice of one, there is one arc less than there are corners and nodes, and exactly one node is not a sink.", "quantifier": "all strictly convex polygons with at least three sides that meet the conditions, all heights and pitches, all runtimes; all triangles without further conditions", "why_tests_cant": "A test counts the vertices, edges and faces of the few roofs it has; a lost ridge or an arc made twice shows only for other numbers of sides or other orders of events.", "anchors": ["bpypolyskel/bpypolyskel.py: polygonize", "bpypolyskel/bpypolyskel.py: skeletonize", "bpypolyskel/bpypolyskel.py: mergeNodeClusters", "bpypolyskel/poly2FacesGraph.py: faces"]}
{"id": "C85", "title": "Which forms of the constructor Line2 work", "statement": "Line2(...) returns a line exactly if it is given one argument that is an Edge2, a Ray2 or a Line2, or two vectors and 'pv'. The line of an edge goes through both its ends, that of a ray has its start and direction but is infinite in both directions. The form 'pp', which looks as if it was for the line through two points, raises an exception whatever its arguments are: AttributeError if the first one is a point, TypeError if it has an attribute p; two arguments without a known type raise AttributeError.", "quantifier": "all arguments that are vectors, edges, rays or lines, and all values of ptype", "why_tests_cant": "No test calls the broken form; that no arguments make it work is a statement about all of them.", "anchors": ["bpypolyskel/bpyeuclid.py: Line2.__init__"]}
{"id": "C86", "title": "A parallelogram gets a roof with a ridge between its longer sides", "statement": "For a parallelogram with sides of different length, in any position, polygonize adds two vertices and four faces. The two vertices are the ends of a ridge that lies half-way between the longer sides, parallel to them, and is as long as the difference of the two sides; each end is half of the shorter side away from the shorter side, measured along the longer one. The faces over the longer sides are quadrangles, those over the shorter ones triangles. Both ends are at the same height, which is half of the distance between the longer sides times the pitch, or the roof height if that is given.", "quantifier": "for all parallelograms in exact arithmetic with no angle below about 16 degrees whose ridge has at least the length 0.1 in the Manhattan metric, all positions, directions, pitches and heights, all runtimes", "why_tests_cant": "a family with six real parameters; the tests of the project only run some polygons and compare no coordinates", "anchors": ["bpypolyskel/bpypolyskel.py: polygonize"]}
{"id": "C87", "title": "The lengths of the sides decide which faces over a convex quadrangle are triangles", "statement": "For a strictly convex quadrangle, polygonize adds four faces, one starting with each side. Two opposite sides whose lengths have the smaller sum get triangles, the two others get quadrangles, and two vertices are added. If both sums are equal, so that a circle touches all four sides, all faces are triangles and a single vertex is added.", "quantifier": "for all strictly convex quadrangles in exact arithmetic under the conditions of C62 (no corner sharper than about 16 degrees, heights of possible meetings equal or 0.001 apart, nodes 0.1 apart), all positions, pitches and heights, all runtimes", "why_tests_cant": "a family with eight real parameters and a comparison of sums of lengths that the code itself never computes; the tests of the project only run some polygons and compare no faces", "anchors": ["bpypolyskel/bpypolyskel.py: polygonize", "bpypolyskel/bpypolyskel.py: skeletonize"]}
{"id": "C88", "title": "The roof over a convex polygon has at least two triangles", "statement": "Among the faces that polygonize adds for a strictly convex polygon at least two are triangles. If more than one vertex is added, two of the triangles have different tips (so they are not next to each other); if only one is added, all faces are triangles.", "quantifier": "for all strictly convex polygons with at least three sides in exact arithmetic under the conditions of C62 (no corner sharper than about 16 degrees, no three edges within about 16 degrees of direction, heights of possible meetings equal or 0.001 apart, nodes 0.1 apart), all pitches and heights, all runtimes", "why_tests_cant": "a statement on all convex polygons with any number of sides; it combines the geometry of the ridges with the tree structure of the skeleton", "anchors": ["bpypolyskel/bpypolyskel.py: polygonize", "bpypolyskel/bpypolyskel.py: skeletonize", "bpypolyskel/poly2FacesGraph.py: faces"]}
{"id": "C89", "title": "Looking at the event queue", "statement": "peek() raises IndexError exactly if the queue is empty; otherwise it returns the event that get() would return, than which no event in the queue is nearer, and does not change the queue. show() prints all events in the order of the heap if no dormer event is among them; otherwise it prints those before the first dormer event and raises AttributeError, because the text of a dormer event asks for an attribute id that is never set; no dormer event can be printed.", "quantifier": "all queues, all histories of the queue, all events; the order in exact arithmetic, the rest for any numeric behaviour", "why_tests_cant": "no test calls these functions; that no dormer event can be printed is a statement on all of them", "anchors": ["bpypolyskel/bpypolyskel.py: _EventQueue.peek", "bpypolyskel/bpypolyskel.py: _EventQueue.show", "bpypolyskel/bpypolyskel.py: DormerEvent.__str__", "bpypolyskel/bpypolyskel.py: DormerEvent.__repr__"]}
{"id": "C90", "title": "On which faces a vertex of the roof over a convex polygon lies", "statement": "A vertex that polygonize adds for a strictly convex polygon is a vertex of the face over a side exactly if no side is nearer to it, seen from above; each one is a vertex of at least three faces.", "quantifier": "for all strictly convex polygons with at least three sides in exact arithmetic under the conditions of C62, all new vertices and all faces, all pitches and heights, all runtimes", "why_tests_cant": "an equivalence between the combinatorics of the result and distances the code does not compute, for all convex polygons", "anchors": ["bpypolyskel/bpypolyskel.py: polygonize", "bpypolyskel/bpypolyskel.py: skeletonize", "bpypolyskel/poly2FacesGraph.py: faces"]}
{"id": "C91", "title": "Two faces of the roof over a convex polygon meet in an edge, a vertex or not at all", "statement": "If two different faces that polygonize adds for a strictly convex polygon have two vertices in common, then these two follow each other in both faces, in opposite orders, and the faces have no third vertex in common.", "quantifier": "for all strictly convex polygons with at least three sides in exact arithmetic under the conditions of C62, all pairs of faces, all pitches and heights, all runtimes", "why_tests_cant": "a statement on all pairs of faces for all convex polygons; faces that touch along a broken line or overlap need special positions", "anchors": ["bpypolyskel/bpypolyskel.py: polygonize", "bpypolyskel/bpypolyskel.py: skeletonize", "bpypolyskel/poly2FacesGraph.py: faces"]}
{"id": "C92", "title": "Going round a face of the roof over a convex polygon one climbs once and descends once", "statement": "For a horizontal, strictly convex polygon and a positive pitch or height: from the end of its side on, the edges of each face climb up to a highest vertex; the next edge is level or descends; all further edges descend, down to the beginning of the side. So a face has one top, a vertex or a single level edge, and no other level edge than its side.", "quantifier": "for all strictly convex polygons with at least three sides in exact arithmetic under the conditions of C62, all faces, all positive pitches and heights, all runtimes", "why_tests_cant": "for all convex polygons and all faces; a face with a dip or a second level edge would need a special polygon", "anchors": ["bpypolyskel/bpypolyskel.py: polygonize", "bpypolyskel/bpypolyskel.py: skeletonize", "bpypolyskel/poly2FacesGraph.py: faces"]}
{"id": "C93", "title": "The result does not depend on the order of Python's sets", "statement": "Two calls of polygonize with the same arguments, under runtimes that go through sets in different orders, both end or both do not, leave the same vertices behind, and return the same faces up to their order. (The part on faces does not hold in general: removing spikes from the same faces listed in another order gives different faces. Proved for strictly convex polygons under the conditions of C62, and for the returned faces when no traced face has a spike and each has one polygon edge, and for the traced faces, up to their first vertices, whenever the connections leave each vertex in different directions.)", "quantifier": "vertices: all arguments, any arithmetic, all pairs of runtimes; traced faces: all lists of connections without repetition whose directions at each vertex differ, in exact arithmetic; faces: all such connections whose traced faces have one polygon edge each and no spike, and all strictly convex polygons under the conditions of C62 in exact arithmetic, all pairs of runtimes", "why_tests_cant": "a test sees the set order of one Python build only", "anchors": ["bpypolyskel/bpypolyskel.py: polygonize", "bpypolyskel/poly2FacesGraph.py: faces", "bpypolyskel/poly2FacesGraph.py: add_edge"]}
{"id": "C94", "title": "The connections of the skeleton of a convex polygon do not cross", "statement": "The test that the project applies to its own results, checkEdgeCrossing() on the skeleton that polygonize() leaves in debugOutputs, finds no crossing for a strictly convex polygon without holes (vertices and nodes of the skeleton not closer together than the tolerances of the code, corners not too sharp; for triangles without any condition). More than that: a point strictly within a connection is on no other connection, so two different connections have at most an end of both in common. The connections are within the polygon: all their points, except for a corner of the polygon at their end, have a positive distance from all sides. Convexity is needed: skeletonize() returns connections that cross for a simple polygon with seven corners, two of them reflex.", "quantifier": "for all strictly convex polygons with the conditions of C62, all triangles, all points of all pairs of connections; the last sentence for one polygon", "why_tests_cant": "test_edgeCrossing is run for a fixed list of footprints, and it ignores crossings close to the ends and parallel connections that overlap; a crossing for some other polygon would not be noticed.", "anchors": ["bpypolyskel/bpypolyskel.py: checkEdgeCrossing", "bpypolyskel/bpypolyskel.py: skeletonize", "bpypolyskel/bpypolyskel.py: polygonize", "tests/test_hexagon.py: test_edgeCrossing"]}
