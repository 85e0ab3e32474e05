# Design

Subject: `prochitecture/bpypolyskel` as found in `/repo` (three Python modules:
`bpyeuclid.py`, `poly2FacesGraph.py`, `bpypolyskel.py`).  The code is read as text only.

## Layout

| path | content |
|---|---|
| `lean/Verif/Model/*.lean` | executable model, function by function, each definition cites file and lines |
| `lean/Verif/Spec/*.lean` | small specifications used in the statements (independent of the model's helpers) |
| `lean/Verif/Proofs/*.lean` | helper lemmas |
| `lean/Verif/Props/*.lean` | the property theorems, with a concrete non-trivial case next to each |
| `validation/` | sanity run of the model on the literal inputs of the repository's tests (not a proof) |
| `seeded/LOG.jsonl` | mutation log |
| `MANIFEST.json` | property -> theorem names |

## Modelling decisions

* **Numbers.** `class Scalar S` lists the float operations the code uses and imposes *no law*.
  Combinatorial theorems hold for every instance, hence also for IEEE doubles with
  single-precision vectors, NaN and infinities.  "Exact arithmetic" means the instance on
  the real numbers (`Spec/Exact.lean`): no rounding, exact comparison, `Real.sqrt`.  Concrete runs
  (non-vacuity examples, refutations) use `Spec/Soft.lean`: a bit-exact software model of IEEE
  binary64 with binary32 vectors, round to nearest even, without over/underflow, computed by the
  Lean kernel.
* **Exceptions** are values of `PyErr`; every modelled function that can raise returns `Except`.
* **Objects.** `_LAVertex`/`_LAV` live in an explicit heap (`St`), identity = position.
  `Edge2` identity (no `__eq__`) is the field `oid`.
* **Runtime freedom.** `structure Rt` holds what Python does not determine: order of `set.pop`, which
  element a set iteration yields first, the sorting algorithm.  Theorems quantify over all `Rt`.
* **Loops.** The event loop is indexed by fuel and returns `Option` (`none` = needs more
  iterations); every other `while` has a fuel bound inside the model whose exhaustion is the
  distinguished error `.fuel`, proved unreachable.

### Simplifications (where the model is not literally the code)

* `_LAVertex.prev/next` are None in Python until assigned; the model stores the vertex itself.  Every
  caller assigns them before they are read.
* A dormer event whose two bisectors do not meet: Python puts `None` into a Subtree, goes on with the
  event loop and raises TypeError at its end, in `mergeNodeClusters` (line 682), if nothing was raised before; the model
  raises TypeError at once.
* `mergeNodeClusters`, first loop: Python collects indices and pops them at the end; the model folds
  the kept nodes.  Same list.
* A hole with zero vertices is an IndexError in the model (Python would index with -1).  The outer
  contour cannot be empty (division by zero before).
* `list.remove`/`in` on vectors use `==` only; CPython first tests identity, which matters only for NaN.
* `heapq` keeps the moving element aside and writes it once; the model swaps step by step.
* `circular_embedding`: the comparison sort raises ZeroDivisionError iff at least two neighbours
  exist and one of them coincides with the vertex in x and y.
* `mathutils` is external: `normalize` yields zero unless the squared length exceeds 1e-35,
  `intersect_point_line` is the perpendicular foot, `==` is the class operation `feq`.
* `debugOutputs` is modelled as the output field `debug`; of `__str__`, `__repr__` and `show` the attributes they
  read and the order of the events are modelled, not the text (`Model/Show.lean`); `misc/` is not modelled; of `demo.py` the constants and the calls of `polygonize` are; of the Blender add-on (`__init__.py`) the
  footprint, the walls and the call of `polygonize` are (`Model/Demo.lean`), its registration and the creation of
  the mesh are not.
* Complex division is CPython's Smith algorithm.

## Trusted base

* The Lean 4.33.0 kernel; Mathlib as installed.  Axioms: at most `propext`, `Classical.choice`,
  `Quot.sound`.  No own axioms, no `sorry`, no `native_decide`, no `bv_decide`.
* The correspondence between `/repo` and `lean/Verif/Model` (by reading; supported by the run in
  `validation/` on the 201 literal inputs of the repository: all 173 inputs of `tests/` and
  `tests_special/` meet the assertions of those tests, and the 28 inputs of `debug/` show the defects they
  were collected for).
* The behaviour of Python, `heapq`, `re`, `itertools`, `mathutils` as described above.

## Mutation testing

Each line of `seeded/LOG.jsonl` is one edit of the model in a scratch copy, after which every module that
depends on the edited one is compiled again; the theorems listed are those that no longer compile or
that rest on a lemma that no longer does.  The concrete examples are left out of these runs, and so are
the two slow modules `FirstEdgeRefuted` and `DormerRefuted`.  A run starts with a control: the unedited model,
where nothing may fail.

The lines in the commits c7cbe7a, 900f6d2, b71c3f0 and a487dcc are withdrawn.  Two runs had shared one scratch
directory, so that a failure could come from the edit of the other run.  All those edits are tried again,
one run at a time in a directory of its own.

## Plan per property

"lawless" = for every `Scalar` instance; "exact" = real-number instance.

| id | what is modelled / how it is proved |
|---|---|
| C01 | exact; `Lin.intersect`; spec: `OnLin l p := exists t, p = l.p + t*l.v and (ray -> 0 <= t)`; field arithmetic |
| C02 | exact; `segIntersect`; spec: existence of s,t in (0,1) with equal points; signs of orientation determinants |
| C03 | exact; `Lin.distance`; minimality by completing the square |
| C04 | exact; `fitCircle3Points`; field identities; error iff orientation determinant is zero |
| C05 | exact; `pseudoangle`; monotone in theta for (r cos theta, r sin theta) |
| C06 | list lemmas on `iterPrevNext`, `iterPrevThisNext` |
| C07 | exact; direct |
| C08 | `HeapQ.push/pop`; heap invariant by induction on positions, permutation lemmas |
| C09 | exact order on distances; from C08 |
| C10 | lawless; induction on the edge list, counting |
| C11 | permutation lawless; order exact through C05 and the `Rt.sort` law |
| C12 | lawless; successor map on darts is a bijection when neighbour lists are duplicate free; invariant of the tracing loop |
| C13 | lawless; orbits are determined by the successor map |
| C14 | lawless; list lemmas |
| C15 | lawless; from C12's invariant |
| C16 | lawless; fuel bound; concrete doubled edge |
| C17 | equality laws as hypotheses; invariants of the loop, `mergeSame`, `mergeCluster`, `moveSink` |
| C18 | from C17 + index lemmas on graph/faces/spike/clean-up |
| C19, C20, C44 | lawless; case analysis of `polygonize` |
| C21 | exact; maximum of a fold |
| C22 | exact; simulation argument through `buildContours`, `facesOf` |
| C23, C48 | lawless; congruence |
| C24 | exact; invariant "all heights >= 0" |
| C25 | lawless; well-formedness invariant of the heap preserved by every handler for current (`Apt`) events, over whole runs; runs without splits need no such hypothesis |
| C26 | lawless; potential argument over the moments of a run; births are counted, self merges are excluded in exact arithmetic |
| C27 | exact; angle invariant on bisectors + C25/C26 |
| C28 | exact; bilinear identity, invariant on vertices |
| C29 | exact; `_partial` outside the tweak of lines 167-168; refutation inside |
| C30 | length decreases; fixpoint |
| C31, C32 | lawless/equality laws |
| C33 | connection count decreases; concrete ValueError |
| C34 | exact characterisation + concrete crash |
| C35, C36 | regular-expression specification on sequences |
| C37, C38, C41, C45 | expected to be false: refutation by a concrete run, plus the part that holds |
| C39, C40 | total number of corners decreases; occurrences counted |
| C42 | from C12 through `graphDarts` |
| C43 | exact; as C02 |
| C46, C47 | lawless; invariants over `stepEvent` |
| C49, C50 | search/min specifications |
| C51 | lawless; multiset of directed edges before and after one spike merge |
| C52 | lawless; explicit formula for the contours, list of possible exceptions |
| C53 | lawless; invariant "edge after = edge before the next" on top of C25; excludes the only failure C25 leaves for split events |
| C54 | lawless; positions in the list of corners, permutations |
| C55 - C57 | lawless; one description per event of loops, points, validity and nodes (`Proofs/Tally`), then an invariant over the moments of the run for each: multiset of sinks, balance of counts, connections through arcs and loops |
| C58 | exact; computation |
| C59 | refutation by concrete runs; the part for convex polygons follows from C60 |
| C60 | exact; the wavefront as a shrinking polygon: `Proofs/Sweep` (plane geometry), `Proofs/Front` (state: advance, meet, end), `Proofs/SweepRun` (heap, queue and state agree; the nearest meeting is always queued), `Proofs/SweepStart` (first state, induction over the loop) |
| C61 | lawless; induction over the bound |
| C62 | exact; the arcs found by C60 as a binary tree (`Proofs/RoofTree`, `RoofBin`, `RoofNodes`), its nodes above ground (`RoofHigh`), the steps after the main loop only merge arcs with the same source (`RoofFinish`), which makes a tree with any number of arcs at a node (`RoofContract`, `RoofMerge`), directions around a node (`RoofGraph`, `Spokes`), a face walk stays with its edge (`RoofFaces`, `RoofWalk`, `RoofOut`), clean-up changes nothing (`RoofPoly`, `RoofCore`), from points to contours (`RoofPoints`), triangles (`RoofTriangle`) |
| C63 | exact; no corner passes the test of `isSpike` (C39), so the loop ends at once; the refutation is a kernel run of polygonize on a strictly convex heptagon |
| C64 | exact; from C62: the difference of two distances is affine, so it is decided at the vertices of a face (`Proofs/RoofCell`) |
| C65 | exact; invariant of all runs: every queued event was proposed by a vertex with a bisector that meets another one; plus a kernel-evaluated pair of runs |
| C66 | sums over directed edges cancel except on the contours (C42); the corner condition makes the outside cycles consist of reversed polygon edges, which `faces()` drops |
| C67 | exact; from C62: a node is a corner of the face over each of its sides, because an affine function over a face is least at a corner (`Proofs/RoofUnique`); the same argument shows that a face is determined by its side, which gives C38 for convex polygons |
| C68 | exact; the only node is the centre of the inscribed circle, so the hypotheses of C62 about several nodes hold trivially; with a single node neither ghost vertices nor spikes are removed, so sharp corners are allowed too |
| C69 | exact; all points with three equal distances are computed, which gives the hypotheses of C62; the corners of a face are determined by its side (`Proofs/RoofUnique`), so the four faces can be listed |
| C70 | exact, convex polygons: a similarity maps the nodes and the boundary of each cell to those of the image; both are determined by the polygon (C67, `Proofs/RoofUnique`); refuted in general by two kernel-evaluated pairs of runs |
| C71 | exact, invariant of the run: each vertex of the wavefront moves along the meeting line of the planes of its two edges, each event lies in the planes of all its edges; with conditions on the run; for strictly convex polygons from the tree that the run grows, without them (`C71_convex`); refuted at a right-angled notch by a kernel-evaluated run |
| C72 | any arithmetic; one event: the heap after an edge or split event differs from the heap before in the pointers at the new vertices only, and these are asked; runs: induction over the moments; refuted for joined loops and for dormer events by kernel-evaluated runs |
| C73 | any arithmetic, lists of faces: exact condition for the exception; excluded by counting directed edges; the loop ends without the check anyway, because every round removes vertices (`C39`) |
| C74 | combinatorics of the tube of walls for any arithmetic; the roof: faces of the traced graph pair all directed edges with a node at one end, and a face has its first edge only without a node; exact arithmetic for convex polygons through C62 |
| C75 | any arithmetic, induction over the calls: the contours are read from the unchanged front of the list, the rest follows from C18; heights over the reals |
| C76 | normals as sums of cross products of the returned vertices: all vertices of a face are in one plane (C62), the face has a point within (C64); areas by the pairing of edges of C74 (inner edges cancel) |
| C77 | a weakest-precondition style predicate `Safe E x Q` (errors in E, values in Q) pushed through all functions of the model, with the invariant that all references of the heap, the events and the queue are allocated; indices of the graph lie in the list of vertices. Not modelled: OverflowError of `abs(w)**2` on complex numbers, MemoryError, wrong types |
| C78 | from the tiling of C64: moving a point at right angles towards its side by t brings it nearer to that side by t and to no other side by more (Cauchy-Schwarz), so it stays in the cell; a corner of the cell that is not on the edge has a neighbour nearer to the edge (else the edge would not be to the left of both sides at the corner); descent by the height |
| C79 | from C62, C64 and C76: the height of the roof at a point is the smallest of the distances from the sides times the pitch; a minimum of affine functions with slope 1 is concave and 1-Lipschitz |
| C80 | a step of the length of the distance from the boundary of the inner polygon, towards the nearest side of the outer one, stays in the inner polygon, hence in the outer one |
| C81 | the height of the roof at a point is the pitch times the radius of the largest disc about the point within the polygon; a similarity takes discs to discs |
| C82 | the distance from a side of the second polygon is affine, so over the first polygon it is least at a vertex (fan of triangles); then as C80 |
| C83 | over a face the distance from its side is greatest at a vertex of the face; the highest node among the vertices is the centre of the largest disc |
| C84 | the tree of the roof with merged nodes has one top, as that before merging; the directed edges of the faces are those of the tree in both directions, and the sides |
| C85 | case distinction over the arguments of the constructor (`Model/Line.lean`) |
| C86 | as C69, in slanted coordinates: the distances from the sides are those of the rectangle with the same sides, times the sine of the angle |
| C87 | as C62, and the height of a roof node over the four sides: a circle that touches three sides of a convex quadrangle and does not reach over the fourth forces an inequality between the sums of opposite sides (Pitot), strict if it does not touch the fourth |
| C88 | counting: by C84 the upper boundaries of the faces have n + 2s - 2 vertices for s nodes; neighbouring faces share the first node over their corner; each node is in three faces; so two nodes have a single further ridge and are the tips of triangles |
| C89 | the root of a heap (C08), and case distinction over the kinds of events (`Model/Show.lean`) |
| C90 | one direction from C62, the other because a point where two further sides are as near is a corner of the cell |
| C91 | a common vertex is as far from one side as from the other, so common vertices are on a line; no three vertices of a cell are, and a line that supports a cell meets it in a side |
| C92 | after a step that does not climb the ring of a cell turns left towards the side below, so the next step descends |
| C93 | the runtime is asked for nothing before the vertices are complete; for convex polygons the points of a face determine its indices; traced faces: neighbours in different directions have one order, then C13; without spikes the rest goes through the faces one by one; spike removal: two runs on traced faces that differ in order and first vertices only |
| C94 | two different edges of the polygon are nearest all along a connection; a third edge that is nearest at an inner point would be nearest all along, but three different unit vectors are not in a line; so no node and no other connection reaches an inner point; for the polygon that is not convex a run in the kernel |

## Disagreements found between documentation/intent and code

(continued as the proofs proceed)

* C17: nodes are compared with a tolerance when sinks are redirected; a sink that is only nearly equal to
  a removed node can stay dangling (the theorem assumes exact equality there).
* C25: an edge event is handled whenever both vertices are valid, even if a split has come between
  them meanwhile.  The theorems therefore assume that handled edge events concern neighbours (`Apt`).
  `C25_refuted` is a run in which an event is not apt: a polygon 84 x 56 whose reflex vertex reaches a
  short edge less than 0.001 before that edge vanishes; the wavefront is torn.
* C29: exact 90-degree reflex corners trigger the tweak in lines 167-168 and the split node is off by up
  to 1%.
* C31: merging a cluster can lose a connection between two nodes of the cluster and a third one.
* C33: the `break` in line 546 leaves only the innermost loop; stale pairs are processed afterwards
  and `list.remove` can raise ValueError.
* C34: a straight side subdivided by collinear vertices makes `fitCircle3Points` divide by zero.
* C37: lines 770-771 use the loop variable `s` of an earlier loop.
* C38: dormers that wrap around the start vertex are not processed (lines 782-795 use list order).
* C40: the clean-up removes the first occurrence of a vertex number, which need not be the straight
  corner; a face that loses all its corners raises ValueError.
* C41: lines 1125-1126 test position and vertex, not the next vertex; three inputs of the repository's own
  tests return a face whose first edge is not a polygon edge.
* C57: a dormer event closes the loop behind the dormer without connecting it to the nodes of the dormer,
  so the skeleton falls apart there.
* C45: the ridge node of a dormer gets the mean of two unrelated split distances as its height.
* C59: the event loop can end with LAVs left over (`Props/Unfinished.lean`): a T-shaped polygon, for which
  the roof then has six faces for eight edges, and a convex hexagon that is regular up to a millimetre,
  because events less than 0.001 apart are handled in one batch.
* C63: spike removal takes the narrow end of a convex face (angle below about 8.1 degrees at a new node) for
  a spike: for the strictly convex polygon `bentFront` tracing finds seven faces, polygonize returns six, one
  of which spans two edges that are not adjacent.
* C65: a straight corner (two successive edges of the same direction) has no bisector and takes part in no
  event. A rectangle with an additional point on a side gets three faces instead of five, without its ridge.
  The code neither removes such points nor rejects them.
* C66: spike removal takes two vertices from a face that lies on both sides of a spike (line 1102-1108). For an
  edge that ends nowhere this is right; when the tip is a node with two different neighbours, the face loses a
  corner it needs and the surface is torn (`C66_common_refuted`). No polygon is known for which a run gets there.
- **The result depends on the unit of length and on the direction of the axes.** The threshold below which
  nodes are merged (`smallThresh = 0.1`, `findClusters`) is absolute, and it is compared with the Manhattan
  distance. A rectangle of 5 by 4.92 gets a pyramid; the same rectangle at twice the size, or turned by 53°,
  gets a hip roof (`C70_scale_refuted`, `C70_turn_refuted`).  For convex polygons whose nodes are farther apart
  than the threshold the roof is the same up to the similarity (`C70_convex_partial`).
- **Right-angled reflex corners get roof faces that are not planar, and mirror images get different roofs.**
  `next_event` (lines 167-168) turns the direction of an edge by about half a degree when it is perpendicular to the
  other edge of the corner.  The node is then computed from the tilted direction.  Over the polygon (-4,-4), (0,0),
  (4,-4), (12,6), (-12,10) the node of the notch gets a height of 3.29176, while its distance from the edges is 3.29712,
  and the face over the first edge is bent (`C71_refuted`).  The other side of the corner is not tilted, so the mirror
  image (-4,-4), (0,0), (4,-4), (12,10), (-12,6) gets the exact node.
- **After a hole is joined to another loop, one of the two new vertices is never asked for its next event.**
  `handle_split_event` (lines 406-430) makes the vertices v1 and v2, puts both in one LAV when the loops differ, and then
  calls `next_event` for the head of each new LAV only, which is v1 (`C72_join`).  The events of v2 with its two new
  neighbours are lost.  The quadrangle (15,27), (3,4), (6,0), (19,5) with the hole (14,9), (16,7), (10,3) gets five faces
  for its seven edges (`C72_hole_refuted`).
- **After a dormer event nobody is asked.**  `handle_dormer_event` (lines 306-339) makes the two vertices beside the
  dormer neighbours and returns no events (`C72_dormer`), so that the side which carries the dormer never vanishes by an
  edge event of its own.  The polygon (0,0), (3,0), (3,-1), (5,-1), (5,0), (8,0), (28,20), (28,60), (-20,60), (-20,20)
  gets seven faces for its ten edges, and two of them cross themselves; without the dormer the six faces are right
  (`C72_dormer_refuted`).
- **A clockwise polygon with a given height raises ValueError.**  Nothing checks the orientation.  For a square given
  clockwise there are no events, hence no nodes; with `height` given, `max` of an empty sequence raises ValueError
  (`C77_value_witness`), without it the call returns no faces.
- **A hole over the vertices of the outer contour is reported as an endless loop** of `faces()` (`C77_endlessFaces_witness`),
  not as a wrong argument.
- **A simple hexagon without holes raises "Endless loop catched in poly2FacesGraph faces()"** (`C77_hexagon_endless`:
  (0,1), (1,0), (6,3), (5,4), (4,6), (3,4)).  `removeGhosts` connects two nodes of the skeleton that are connected already;
  the double connection gives a node the same neighbour twice, so that the embedding is not one of a simple graph and
  the walk around a face does not close.
- **A simple hexagon with a simple hole inside raises RuntimeError** (`C77_runtime_witness`: (0,1), (8,2), (10,5), (9,6),
  (9,10), (6,10) with the hole (3,2), (3,3), (7,9), (7,6)): the iterator of a LAV meets an invalidated vertex.
- **A "hole" around the polygon raises StopIteration** (`C77_stopIteration_witness`), which is no exception that a caller
  would expect from a function that is not an iterator.
- **A closed line that crosses itself can raise AttributeError** (`C77_attribute_witness`, nine corners): a vertex that is
  still valid belongs to no LAV when an attribute of its LAV is read.  The input is not valid; the exception does not say so.
- **A simple polygon with an uneven bay raises TypeError** (`C77_type_witness`: (0,5), (6,5), (6,0), (7,0), (7,7), (14,7),
  (14,15), (0,15)): the bay is taken for a dormer, but its sides differ by more than its width, so the bisectors of its
  reflex corners do not meet, and None becomes a node of the skeleton.
- **`Line2(p1, p2, 'pp')` never works** (`C85_pp`): it reads `p1.p`, which a vector has not, and subtracts `p1`, which an
  object with a `p` does not allow.  The library does not use it.
- **Sharp reversals count as low corners.**  `detectApses` takes a corner as low if the sine of its angle is small, so also
  if the contour nearly reverses its direction there; a zigzag of six such corners counts as a part of a circle.  If the
  three vertices handed to `fitCircle3Points` are on a line, it divides by zero (the case of C34); such a polygon is
  (15,10), (7,8), (8,10), (13,16), (3,6), (17,10), (20,11) (found by evaluation, no theorem).
- `DormerEvent.__str__` and `__repr__` read `self.id`, which is never set: no dormer event can be printed, and `show()`
  of a queue with one raises AttributeError (C89).
- The faces can depend on the order in which Python goes through the set of edges in `faces()`
  (poly2FacesGraph.py:81-84).  The traced faces are the same up to their order and their first vertices (C13), but
  the removal of spikes (bpypolyskel.py:1059-1137) takes the first spike of the first face that has one, and the
  result differs (`C93_spikes_refuted`).  Evaluated (a test, not a proof) the whole model gives different faces for
  the polygon (8,2), (9,2), (7,5), (9,7), (7,6), (1,7), (3,3), (4,0), (8,0) under two orders.  The vertices never
  depend on it (`C93_verts`), nor do the faces when none of the traced ones has a spike and each has one polygon edge
  (`C93_spikeless_partial`).
- `tests/*.py` assert that the connections of the skeleton do not cross.  For a simple polygon with seven corners,
  two of them reflex, they do (`C94_barb_crosses`).  For convex polygons they do not (`C94_uncrossed`).
