import Verif.Model.Skel
import Verif.Model.Graph
/-
Model of `polygonize`, bpypolyskel.py:882-1177.
-/
namespace Polyskel
open Scalar
variable {S : Type} [Scalar S]

/-- accumulate `center += verts[i]`, bpypolyskel.py:962-963 -/
def sumVerts (verts : List (V3 S)) (acc : V3 S) : List Nat → Except PyErr (V3 S)
  | [] => .ok acc
  | i :: is => do
    let v ← pyGet verts (i : Int)
    sumVerts verts (V3.add acc v) is

/-- centre of gravity with z = 0, bpypolyskel.py:961-965 -/
def centerOf (verts : List (V3 S)) (first num : Nat) : Except PyErr (V3 S) := do
  let s ← sumVerts verts ⟨rnd fzero, rnd fzero, rnd fzero⟩ (List.range' first num)
  let c ← V3.divBy s (lit num 1)
  return { c with z := rnd fzero }

/-- The edges of one contour of `num` vertices starting at index `first`,
bpypolyskel.py:968-980 (outer contour) and 986-998 (holes).  `u0` is the position of its
first unit vector, `oid` the identity of its first Edge2.  For `num = 0` Python would use
negative indices; the outer contour cannot get here with 0 (division by zero above) and
an empty hole is rejected as an IndexError by the model. -/
def contourEdges (verts : List (V3 S)) (center : V3 S) (units : Option (List (V3 S)))
    (oid u0 first num : Nat) : Except PyErr (List (Edge2 S)) :=
  if num = 0 then .error .index
  else (List.range num).mapM (fun k => do
    let u ← match units with
      | none => Except.ok none
      | some us => do
        let u ← pyGet us ((u0 + k : Nat) : Int)
        Except.ok (some u)
    let j := if k + 1 = num then first else first + k + 1
    Edge2.ofVerts (oid + k) (first + k) j u verts center)

/-- all contours: the outer one and the holes, bpypolyskel.py:983-1001.  `u` is `uIndex`,
which is also the number of edges built so far. -/
def holeContours (verts : List (V3 S)) (center : V3 S) (units : Option (List (V3 S))) :
    Nat → List (Nat × Nat) → Except PyErr (List (List (Edge2 S)))
  | _, [] => .ok []
  | u, (f, n) :: hs => do
    let c ← contourEdges verts center units u u f n
    let cs ← holeContours verts center units (u + n) hs
    return c :: cs

/-- `if unitVectors:` an empty list counts as None, bpypolyskel.py:970, 987 -/
def effUnits (units : Option (List (V3 S))) : Option (List (V3 S)) :=
  match units with
  | some [] => none
  | u => u

/-- Python `max(..)` of the node heights; ValueError when there is no node -/
def maxHeight : List (Subtree S) → Except PyErr S
  | [] => .error .value
  | a :: as => .ok (as.foldl (fun m b => if m <. b.height then b.height else m) a.height)

/-- `tan_alpha`, bpypolyskel.py:1012-1016 -/
def tanAlpha (height tan : S) (sk : List (Subtree S)) : Except PyErr S :=
  if height ==. fzero then .ok tan
  else do
    let m ← maxHeight sk
    pydiv height m

/-- the 3D node of one arc, bpypolyskel.py:1019-1020 -/
def node3D (center : V3 S) (zBase ta : S) (arc : Subtree S) : V3 S :=
  V3.add (mkV3 arc.source.x arc.source.y (arc.height *. ta +. zBase)) center

/-- index of a sink: first among the polygon edges, then among the nodes, else -1,
bpypolyskel.py:1041-1049 -/
def sinkIndex (edges : List (Edge2 S)) (sk : List (Subtree S)) (firstSkel : Nat)
    (sink : V2 S) : Int :=
  match edges.find? (fun e => V2.veq e.p1 sink) with
  | some e => e.i1
  | none =>
    match sk.findIdx? (fun a => V2.veq a.source sink) with
    | some j => ((j + firstSkel : Nat) : Int)
    | none => -1

/-- the edges of one contour in index form, bpypolyskel.py:1028-1029, 1033-1034 -/
def contourDarts (first num : Nat) : Except PyErr (List Dart) := do
  let l ← iterPrevNext (List.range' first num)
  return l.map (fun p => ((p.1 : Int), (p.2 : Int)))

/-- the edges of all holes in index form -/
def holeDarts : List (Nat × Nat) → Except PyErr (List Dart)
  | [] => .ok []
  | (f, n) :: hs => do
    let a ← contourDarts f n
    let b ← holeDarts hs
    return a ++ b

/-- the skeleton edges in index form, bpypolyskel.py:1037-1050 -/
def skelDarts (edges : List (Edge2 S)) (sk : List (Subtree S)) (firstSkel : Nat) : List Dart :=
  sk.zipIdx.flatMap (fun p =>
    p.1.sinks.map (fun s => (((p.2 + firstSkel : Nat) : Int), sinkIndex edges sk firstSkel s)))

/-- `graph.add_edge` for a list of edges -/
def addEdges (rt : Rt) (g : Graph) (ds : List Dart) : Graph := ds.foldl (Graph.addEdge rt) g

/-! ### Spike removal -/

/-- is there a spike at `this`? bpypolyskel.py:1067-1083 -/
def isSpike (verts : List (V3 S)) (prev this next : Int) : Except PyErr Bool := do
  let t ← pyGet verts this
  let p ← pyGet verts prev
  let n ← pyGet verts next
  let s0 := V3.xy (V3.sub t p)
  let s1 := V3.xy (V3.sub n t)
  let s0m := V2.length s0
  let s1m := V2.length s1
  if (s0m ==. fzero) || (s1m ==. fzero) then return false
  else do
    let c ← pydiv (V2.dot s0 s1) (s0m *. s1m)
    return (abs (c +. fone) <. PARALLEL) && (neg EPSILON <. V2.cross s0 s1)

/-- the first spike of a face, bpypolyskel.py:1066-1083 -/
def findSpike (verts : List (V3 S)) :
    List (Int × Int × Int) → Except PyErr (Option (Int × Int × Int))
  | [] => .ok none
  | t :: ts => do
    if ← isSpike verts t.1 t.2.1 t.2.2 then return some t
    else findSpike verts ts

/-- does the closed vertex sequence `f` contain the directed edge `(p, n)`? -/
def hasDart (f : List Int) (p n : Int) : Except PyErr Bool := do
  let l ← iterPrevNext f
  return l.contains (p, n)

/-- index of the LAST face containing the directed edge, bpypolyskel.py:1092-1096 -/
def lastFaceWith (p n : Int) : Nat → Option Nat → List (List Int) → Except PyErr (Option Nat)
  | _, r, [] => .ok r
  | i, r, f :: fs => do
    let b ← hasDart f p n
    lastFaceWith p n (i + 1) (if b then some i else r) fs

/-- rotate so that the first occurrence of `x` comes first; StopIteration when absent,
bpypolyskel.py:1114-1115, 1119-1120 -/
def rotateTo (f : List Int) (x : Int) : Except PyErr (List Int) :=
  match f.idxOf? x with
  | some i => .ok (f.drop i ++ f.take i)
  | none => .error .stopIteration

/-- the rotation of a merged face, bpypolyskel.py:1125-1126.  The code compares the
POSITION and the vertex with `firstSkelIndex`. -/
def rotateMerged (n : Nat) (f : List Int) : Except PyErr (List Int) :=
  match f.zipIdx.findIdx? (fun p => decide (p.2 < n) && decide (p.1 < (n : Int))) with
  | some i => .ok (f.drop i ++ f.take i)
  | none => .error .stopIteration

/-- what happens to the list of faces when face `fi` has a spike `prev, this, next`,
bpypolyskel.py:1091-1137.  `none`: the spike cannot be removed (`continue`). -/
def removeSpike (n : Nat) (faces : List (List Int)) (fi : Nat) (prev this next : Int) :
    Except PyErr (Option (List (List Int))) := do
  let r ← lastFaceWith this prev 0 none faces
  let l ← lastFaceWith next this 0 none faces
  match r, l with
  | some ri, some li =>
    if ri = li then do
      let common ← pyGet faces (ri : Int)
      let common ← pyRemove common this
      let common ← pyRemove common prev
      let faces := faces.set ri common
      let face ← pyGet faces (fi : Int)
      return some (if this ∈ face then faces.set fi (face.erase this) else faces)
    else do
      let face ← pyGet faces (fi : Int)
      let right ← pyGet faces (ri : Int)
      let right ← rotateTo right prev
      let left ← pyGet faces (li : Int)
      let left ← rotateTo left this
      let merged ← rotateMerged n (right ++ left.drop 1)
      if merged = face then .error .endlessSpike
      else do
        let face' ← pyRemove face this
        let faces := faces.set fi face'
        return some (dropIdx [ri, li] faces ++ [merged])
  | _, _ => return none

/-- one pass of the loop over the faces, bpypolyskel.py:1063-1137; `none`: nothing was
changed -/
def spikePass (verts : List (V3 S)) (n : Nat) (faces : List (List Int)) :
    Nat → List (List Int) → Except PyErr (Option (List (List Int)))
  | _, [] => .ok none
  | fi, face :: rest => do
    if face.length ≤ 3 then spikePass verts n faces (fi + 1) rest
    else do
      let ts ← iterPrevThisNext face
      match ← findSpike verts ts with
      | none => spikePass verts n faces (fi + 1) rest
      | some (p, t, x) =>
        match ← removeSpike n faces fi p t x with
        | none => spikePass verts n faces (fi + 1) rest
        | some faces' => return some faces'

/-- total number of vertices of all faces -/
def totalLen (faces : List (List Int)) : Nat := (faces.map (·.length)).sum

/-- the while loop, bpypolyskel.py:1059-1137 -/
def spikeLoop (verts : List (V3 S)) (n : Nat) :
    Nat → List (List Int) → Except PyErr (List (List Int))
  | 0, _ => .error .fuel
  | k + 1, faces => do
    match ← spikePass verts n faces 0 faces with
    | none => return faces
    | some faces' => spikeLoop verts n k faces'

/-- bpypolyskel.py:1059-1137 -/
def removeSpikes (verts : List (V3 S)) (n : Nat) (faces : List (List Int)) :
    Except PyErr (List (List Int)) :=
  spikeLoop verts n (totalLen faces + 1) faces

/-! ### Fixing adjacent parallel edges -/

/-- the loop over the triples of a face, bpypolyskel.py:1144-1161; `acc` is
`verticesToRemove` -/
def parallelVerts (verts : List (V3 S)) (n : Nat) (count : Int → Nat) :
    List Int → List (Int × Int × Int) → Except PyErr (List Int)
  | acc, [] => .ok acc
  | acc, (prev, this, next) :: ts => do
    if count this < 3 && decide ((n : Int) ≤ this) then do
      let t ← pyGet verts this
      let p ← pyGet verts prev
      let x ← pyGet verts next
      let s0 := V3.xy (V3.sub t p)
      let s1 := V3.xy (V3.sub x t)
      let s0m := V2.length s0
      let s1m := V2.length s1
      if !(s0m ==. fzero) && !(s1m ==. fzero) then do
        let c ← pydiv (V2.dot s0 s1) (s0m *. s1m)
        if abs (c -. fone) <. PARALLEL then parallelVerts verts n count (acc ++ [this]) ts
        else parallelVerts verts n count acc ts
      else if this ∈ acc then parallelVerts verts n count acc ts
      else parallelVerts verts n count (acc ++ [this]) ts
    else parallelVerts verts n count acc ts

/-- `for item in items: face.remove(item)` -/
def removeItems : List Int → List Int → Except PyErr (List Int)
  | face, [] => .ok face
  | face, i :: is => do
    let face ← pyRemove face i
    removeItems face is

/-- vertices equal to their predecessor, bpypolyskel.py:1166-1169 -/
def adjacentDups (face : List Int) : Except PyErr (List Int) := do
  let ps ← iterPrevNext face
  return (ps.filter (fun p => p.1 = p.2)).map (·.1)

/-- the cleanup of one face, bpypolyskel.py:1142-1171 -/
def cleanFace (verts : List (V3 S)) (n : Nat) (count : Int → Nat) (face : List Int) :
    Except PyErr (List Int) := do
  let face ← if face.length > 3 then do
      let ts ← iterPrevThisNext face
      let rm ← parallelVerts verts n count [] ts
      removeItems face rm
    else Except.ok face
  let rm ← adjacentDups face
  removeItems face rm

/-- the cleanup of all faces, bpypolyskel.py:1140-1171 -/
def cleanFaces (verts : List (V3 S)) (n : Nat) (faces : List (List Int)) :
    Except PyErr (List (List Int)) :=
  let counts := faces.flatten
  faces.mapM (cleanFace verts n (fun v => counts.count v))

/-! ### polygonize -/

/-- Arguments of `polygonize`, bpypolyskel.py:882. -/
structure PolyArgs (S : Type) where
  verts : List (V3 S)
  first : Nat
  num : Nat
  holes : Option (List (Nat × Nat)) := none
  height : S
  tan : S
  faces : Option (List (List Int)) := none
  units : Option (List (V3 S)) := none

/-- What a call of `polygonize` leaves behind: the caller's `verts` and `faces` lists
afterwards, the value stored in `debugOutputs['skeleton']`, and the returned list or the
exception. -/
structure PolyOut (S : Type) where
  verts : List (V3 S)
  faces : Option (List (List Int))
  debug : Option (List (Subtree S))
  result : Except PyErr (List (List Int))

/-- the contours and the centre, bpypolyskel.py:957-1001 -/
def buildContours (a : PolyArgs S) : Except PyErr (S × V3 S × List (List (Edge2 S))) := do
  let v0 ← pyGet a.verts (a.first : Int)
  let center ← centerOf a.verts a.first a.num
  let units := effUnits a.units
  let outer ← contourEdges a.verts center units 0 0 a.first a.num
  let holes ← holeContours a.verts center units a.num (a.holes.getD [])
  return (v0.z, center, outer :: holes)

/-- all edges added to the graph, in the order of bpypolyskel.py:1027-1050 -/
def graphDarts (a : PolyArgs S) (edges : List (Edge2 S)) (sk : List (Subtree S)) :
    Except PyErr (List Dart) := do
  let d1 ← contourDarts a.first a.num
  let d2 ← holeDarts (a.holes.getD [])
  return d1 ++ d2 ++ skelDarts edges sk a.verts.length

/-- everything after `verts` has been extended, bpypolyskel.py:1024-1171 -/
def facesOf (rt : Rt) (a : PolyArgs S) (edges : List (Edge2 S)) (sk : List (Subtree S))
    (verts : List (V3 S)) : Except PyErr (List (List Int)) := do
  let n := a.verts.length
  let ds ← graphDarts a edges sk
  let g := addEdges rt [] ds
  let emb ← Graph.circularEmbedding rt g verts
  let fs ← Graph.faces rt g emb n
  let fs ← removeSpikes verts n fs
  cleanFaces verts n fs

/-- `polygonize`, bpypolyskel.py:882-1177.  `none`: the main loop of `skeletonize` needs
more than `fuel` iterations. -/
def polygonize (rt : Rt) (fuel : Nat) (a : PolyArgs S) : Option (PolyOut S) :=
  let fail (e : PyErr) : PolyOut S :=
    { verts := a.verts, faces := a.faces, debug := none, result := .error e }
  match buildContours a with
  | .error e => some (fail e)
  | .ok (zBase, center, contours) =>
    match skeletonize fuel contours with
    | none => none
    | some (.error e) => some (fail e)
    | some (.ok sk) =>
      match tanAlpha a.height a.tan sk with
      | .error e => some { fail e with debug := some sk }
      | .ok ta =>
        let verts := a.verts ++ sk.map (node3D center zBase ta)
        match facesOf rt a contours.flatten sk verts with
        | .error e => some { verts, faces := a.faces, debug := some sk, result := .error e }
        | .ok fs =>
          match a.faces with
          | none => some { verts, faces := none, debug := some sk, result := .ok fs }
          | some old => some { verts, faces := some (old ++ fs), debug := some sk,
                               result := .ok (old ++ fs) }

end Polyskel
