import Verif.Model.Scalar
/-
Model of bpypolyskel/poly2FacesGraph.py.
-/
namespace Polyskel
open Scalar
variable {S : Type} [Scalar S]

/-- A directed edge, as the tuples used by `faces()`. -/
abbrev Dart := Int × Int

/-- Choices of the Python runtime the code does not determine: which element `set.pop()`
takes from a two-element set, which element an iteration over a set of tuples yields
first, and the comparison sort behind `sorted`.  Theorems quantify over all of them. -/
structure Rt where
  /-- `true`: `{a, b}.pop()` returns `a` first -/
  popFirst : Int → Int → Bool
  /-- position of the element an iteration over the set yields first (modulo its size) -/
  pick : List Dart → Nat
  /-- `sorted(l, key=cmp_to_key(cmp))` where `lt a b` means `cmp(a,b) < 0` -/
  sort : (Int → Int → Bool) → List Int → List Int
  sort_perm : ∀ lt l, (sort lt l).Perm l
  /-- when `lt` is a strict total order on the elements, the result is in that order -/
  sort_sorted : ∀ lt l, l.Nodup →
    (∀ a ∈ l, ∀ b ∈ l, a ≠ b → (lt a b = true ↔ lt b a = false)) →
    (∀ a ∈ l, ∀ b ∈ l, ∀ c ∈ l, a ≠ b → b ≠ c → a ≠ c →
      lt a b = true → lt b c = true → lt a c = true) →
    (sort lt l).Pairwise (fun a b => lt a b = true)

/-- `pseudoangle`, poly2FacesGraph.py:10-15.  Python raises ZeroDivisionError when both
components are zero. -/
def pseudoangle (d0 d1 : S) : Except PyErr S := do
  let p ← pydiv d0 (abs d0 +. abs d1)
  if d1 <. fzero then return (lit 3 1 +. p) else return (fone -. p)

/-- `poly2FacesGraph.g_dict`: a dictionary from vertices to neighbour lists, in insertion
order. -/
abbrev Graph := List (Int × List Int)

namespace Graph

/-- `g_dict[v]` (empty when absent, as for the `defaultdict` embedding) -/
def nbrs : Graph → Int → List Int
  | [], _ => []
  | (w, l) :: g, v => if w = v then l else nbrs g v

/-- the keys of the dictionary -/
def keys (g : Graph) : List Int := g.map (·.1)

/-- `add_vertex`, poly2FacesGraph.py:29-32 -/
def addVertex (g : Graph) (v : Int) : Graph :=
  if v ∈ keys g then g else g ++ [(v, [])]

/-- `self.g_dict[v].append(w)` -/
def appendNbr : Graph → Int → Int → Graph
  | [], _, _ => []
  | (u, l) :: g, v, w => if u = v then (u, l ++ [w]) :: g else (u, l) :: appendNbr g v w

/-- `add_edge`, poly2FacesGraph.py:34-44.  `edge` becomes a set: a loop has one element
and is ignored. -/
def addEdge (rt : Rt) (g : Graph) (e : Dart) : Graph :=
  if e.1 = e.2 then g
  else
    let v1 := if rt.popFirst e.1 e.2 then e.1 else e.2
    let v2 := if rt.popFirst e.1 e.2 then e.2 else e.1
    let g := addVertex g v1
    let g := addVertex g v2
    let g := appendNbr g v1 v2
    appendNbr g v2 v1

/-- `edges`, poly2FacesGraph.py:46-53.  The membership test compares a set with tuples and
is never true, so every edge is listed once from each end. -/
def edges (g : Graph) : List Dart :=
  g.flatMap (fun vl => vl.2.map (fun w => (vl.1, w)))

/-- `compare_angles`-based ordering of the neighbours of one vertex,
poly2FacesGraph.py:17-23 and 59-60.  `cmp(a,b) < 0` holds iff `not (angle a < angle b)`.
A comparison sort compares every element at least once as soon as there are two, so the
ZeroDivisionError of `pseudoangle` is raised iff there are at least two neighbours and
one of them has the same x and y as the vertex. -/
def orderNbrs (rt : Rt) (vList : List (V3 S)) (v : Int) (ns : List Int) :
    Except PyErr (List Int) := do
  if ns.length < 2 then return ns
  let c ← pyGet vList v
  let keyed ← ns.mapM (fun n => do
    let p ← pyGet vList n
    let d := V3.sub p c
    let a ← pseudoangle d.x d.y
    return (n, a))
  let ang (n : Int) : S := ((keyed.find? (fun q => q.1 == n)).map (·.2)).getD fzero
  return rt.sort (fun a b => !(ang a <. ang b)) ns

/-- `circular_embedding`, poly2FacesGraph.py:55-67.  `ccw = true` is direction 'CCW'
(the only one the library uses), `false` is 'CW'. -/
def circularEmbedding (rt : Rt) (g : Graph) (vList : List (V3 S)) (ccw : Bool := true) :
    Except PyErr Graph :=
  g.mapM (fun vl => do
    let o ← orderNbrs rt vList vl.1 vl.2
    return (vl.1, if ccw then o else o.reverse))

/-- the set of directed edges, poly2FacesGraph.py:73-75 -/
def edgeSet (g : Graph) : List Dart :=
  (g.edges.flatMap (fun e => [(e.1, e.2), (e.2, e.1)])).eraseDups

/-- the element an iteration over the set yields first -/
def pickDart (rt : Rt) (es : List Dart) : Option Dart := es[rt.pick es % es.length]?

/-- `neighbors[(neighbors.index(u)+1) % len(neighbors)]`, poly2FacesGraph.py:89;
ValueError when `u` is not listed -/
def nextNode (ns : List Int) (u : Int) : Except PyErr Int :=
  match ns.idxOf? u with
  | none => .error .value
  | some i => pyGet ns (((i + 1) % ns.length : Nat) : Int)

/-- the tracing loop, poly2FacesGraph.py:87-109.  Fuel counts loop iterations. -/
def traceLoop (rt : Rt) (emb : Graph) :
    Nat → List Dart → List Dart → List (List Dart) → Except PyErr (List (List Dart))
  | 0, _, _, _ => .error .fuel
  | k + 1, es, path, faces =>
    if es.isEmpty then
      .ok (if path.isEmpty then faces else faces ++ [path])
    else match path.getLast? with
      | none => .error .index
      | some (u, v) => do
        let nxt ← nextNode (nbrs emb v) u
        let tup : Dart := (v, nxt)
        if path.head? = some tup then
          match pickDart rt es with
          | none => .error .index
          | some e => traceLoop rt emb k (es.erase e) [e] (faces ++ [path])
        else if tup ∈ path then .error .endlessFaces
        else traceLoop rt emb k (es.erase tup) (path ++ [tup]) faces

/-- tracing all faces, poly2FacesGraph.py:72-109.  The fuel is shown to be enough for every graph
and every embedding in `C16_faces_terminates`. -/
def traceFaces (rt : Rt) (g emb : Graph) : Except PyErr (List (List Dart)) :=
  let es := g.edgeSet
  let fuel := (es.length + 1) * (es.length + (edges emb).length + 2)
  match pickDart rt es with
  | none => traceLoop rt emb fuel es [] []
  | some e => traceLoop rt emb fuel (es.erase e) [e] []

/-- is this a directed edge between two polygon vertices? poly2FacesGraph.py:114,117 -/
def isOrig (n : Int) (e : Dart) : Bool := decide (e.1 < n) && decide (e.2 < n)

/-- rotate so that a polygon edge comes first, poly2FacesGraph.py:114-118 -/
def rotateFace (n : Int) (face : List Dart) : List Dart :=
  match face.findIdx? (isOrig n) with
  | some i => face.drop i ++ face.take i
  | none => face

/-- the final loop over the traced faces, poly2FacesGraph.py:111-123 -/
def finalFaces (n : Int) (faces : List (List Dart)) : List (List Int) :=
  (faces.map (fun f => (rotateFace n f).map (·.1))).filter
    (fun vs => vs.any (fun i => decide (n ≤ i)))

/-- `faces`, poly2FacesGraph.py:69-123 -/
def faces (rt : Rt) (g emb : Graph) (nrOfPolyVerts : Int) : Except PyErr (List (List Int)) := do
  let fs ← traceFaces rt g emb
  return finalFaces nrOfPolyVerts fs

end Graph
end Polyskel
