import Verif.Model.Lav
import Verif.Model.HeapQ
/-
Model of the rest of bpypolyskel.py up to `skeletonize`: the event queue (435-467),
`checkEdgeCrossing` (470-493), `removeGhosts` (496-546), `detectApses` (548-575),
`findClusters` (577-629), `mergeCluster` (631-675), `mergeNodeClusters` (677-713),
`detectDormers` (715-775), `processDormers` (777-801) and `skeletonize` (804-880).
-/
namespace Polyskel
open Scalar
variable {S : Type} [Scalar S]

/-! ### Event queue -/

/-- `__lt__` of the events, bpypolyskel.py:69-70, 75-76, 83-85 -/
def evLt (a b : Event S) : Bool := a.dist <. b.dist

/-- `_EventQueue.put_all`, bpypolyskel.py:443-445 -/
def putAll (q : List (Event S)) (es : List (Event S)) : List (Event S) :=
  es.foldl (HeapQ.push evLt) q

/-- the loop of `getAllEqualDistance`, bpypolyskel.py:454-456 -/
def popEqual (d : S) : Nat → List (Event S) → List (Event S) × List (Event S)
  | 0, q => ([], q)
  | k + 1, q =>
    match q with
    | [] => ([], [])
    | top :: _ =>
      if abs (top.dist -. d) <. lit 1 1000 then
        match HeapQ.pop evLt q with
        | none => ([], q)
        | some (e, q') =>
          let r := popEqual d k q'
          (e :: r.1, r.2)
      else ([], q)

/-- `_EventQueue.getAllEqualDistance`, bpypolyskel.py:450-457; `none` is the IndexError on
an empty queue -/
def getAllEqualDistance (q : List (Event S)) : Option (List (Event S) × List (Event S)) :=
  match HeapQ.pop evLt q with
  | none => none
  | some (item, q') =>
    let r := popEqual item.dist q'.length q'
    some (item :: r.1, r.2)

/-! ### checkEdgeCrossing -/

/-- does this pair of skeleton edges cross? bpypolyskel.py:482-492 -/
def edgesCross (p1 p2 q1 q2 : V2 S) : Bool :=
  let denom := (p2.x -. p1.x) *. (q2.y -. q1.y) -. (p2.y -. p1.y) *. (q2.x -. q1.x)
  if denom ==. fzero then false
  else
    let n1 := (p1.y -. q1.y) *. (q2.x -. q1.x) -. (p1.x -. q1.x) *. (q2.y -. q1.y)
    let r := n1 /. denom
    let n2 := (p1.y -. q1.y) *. (p2.x -. p1.x) -. (p1.x -. q1.x) *. (p2.y -. p1.y)
    let s := n2 /. denom
    !(((r <=. EPSILON) || (fone -. EPSILON <=. r)) ||
      ((s <=. EPSILON) || (fone -. EPSILON <=. s)))

/-- the segments of a skeleton, bpypolyskel.py:472-476 -/
def skelEdges (sk : List (Subtree S)) : List (V2 S × V2 S) :=
  sk.flatMap (fun arc => arc.sinks.map (fun p2 => (arc.source, p2)))

/-- `checkEdgeCrossing`, bpypolyskel.py:470-493 -/
def checkEdgeCrossing (sk : List (Subtree S)) : Nat :=
  ((pairs (skelEdges sk)).filter (fun e => edgesCross e.1.1 e.1.2 e.2.1 e.2.2)).length

/-! ### removeGhosts -/

/-- the first loop of `removeGhosts`, bpypolyskel.py:498-500 -/
def removeLoops (sk : List (Subtree S)) : Except PyErr (List (Subtree S)) :=
  sk.mapM (fun arc =>
    if V2.mem arc.source arc.sinks then do
      let s ← vremove arc.sinks arc.source
      return { arc with sinks := s }
    else return arc)

/-- read `skeleton[i]` -/
def getArc (sk : List (Subtree S)) (i : Nat) : Except PyErr (Subtree S) :=
  match sk[i]? with
  | some a => .ok a
  | none => .error .index

/-- append `far` to the sinks of node `j`, then remove `far` and `near` from the sinks of
arc `i`, bpypolyskel.py:532-534 and 542-544 -/
def moveSink (sk : List (Subtree S)) (i j : Nat) (far near : V2 S) :
    Except PyErr (List (Subtree S)) := do
  let sk := sk.modify j (fun a => { a with sinks := a.sinks ++ [far] })
  let a ← getArc sk i
  let s ← vremove a.sinks far
  let s ← vremove s near
  return sk.modify i (fun a => { a with sinks := s })

/-- How the body for one pair ends. -/
inductive PairStep (S : Type) where
  | cont (sk : List (Subtree S)) (altered : Bool)
  | brk (sk : List (Subtree S)) (altered : Bool)

/-- the body of the loop over pairs of sinks, bpypolyskel.py:510-546.  In the last branch
the `break` only leaves the innermost loop, so the loop over pairs goes on. -/
def ghostPair (i : Nat) (source : V2 S) (sk : List (Subtree S)) (altered : Bool)
    (pair : V2 S × V2 S) : Except PyErr (PairStep S) := do
  let s0 := V2.sub pair.1 source
  let s1 := V2.sub pair.2 source
  let s0m := V2.length s0
  let s1m := V2.length s1
  if (s0m ==. fzero) || (s1m ==. fzero) then return .cont sk altered
  let q ← pydiv (V2.dot s0 s1) (s0m *. s1m)
  let dca := abs (q -. fone)
  if !(dca <. PARALLEL) then return .cont sk altered
  let far := if s0m <. s1m then pair.2 else pair.1
  let near := if s0m <. s1m then pair.1 else pair.2
  match sk.findIdx? (fun node => V2.veq node.source near) with
  | none => return .brk sk altered
  | some j =>
    if dca <. EPSILON then
      let sk ← moveSink sk i j far near
      return .brk sk true
    else
      let node ← getArc sk j
      if node.sinks.any (fun sink => segIntersect source far near sink) then
        let sk ← moveSink sk i j far near
        return .cont sk true
      else return .cont sk altered

/-- the loop over pairs, bpypolyskel.py:509-546 -/
def ghostPairs (i : Nat) (source : V2 S) :
    List (Subtree S) → Bool → List (V2 S × V2 S) → Except PyErr (List (Subtree S) × Bool)
  | sk, altered, [] => .ok (sk, altered)
  | sk, altered, p :: ps => do
    match ← ghostPair i source sk altered p with
    | .brk sk a => return (sk, a)
    | .cont sk a => ghostPairs i source sk a ps

/-- the while loop for one arc, bpypolyskel.py:505-546 -/
def ghostWhile (i : Nat) : Nat → List (Subtree S) → Except PyErr (List (Subtree S))
  | 0, _ => .error .fuel
  | k + 1, sk => do
    let arc ← getArc sk i
    let (sk, altered) ← ghostPairs i arc.source sk false (pairs arc.sinks)
    if altered then ghostWhile i k sk else return sk

/-- number of skeleton edges -/
def edgeCount (sk : List (Subtree S)) : Nat := (sk.map (fun a => a.sinks.length)).sum

/-- the loop over arcs, bpypolyskel.py:502-546 -/
def ghostArcs : List Nat → List (Subtree S) → Except PyErr (List (Subtree S))
  | [], sk => .ok sk
  | i :: is, sk => do
    let sk ← ghostWhile i (edgeCount sk + 1) sk
    ghostArcs is sk

/-- `removeGhosts`, bpypolyskel.py:496-546 -/
def removeGhosts (sk : List (Subtree S)) : Except PyErr (List (Subtree S)) := do
  let sk ← removeLoops sk
  ghostArcs (List.range sk.length) sk

/-! ### detectApses -/

/-- Greedy, non-overlapping, leftmost matches of the regular expression `(L){n,}` where
`true` is 'L': spans `(start, end)`.  `i` is the current position. -/
def runMatches (n : Nat) : Nat → Nat → List Bool → List (Nat × Nat)
  | 0, _, _ => []
  | k + 1, i, seq =>
    match seq with
    | [] => []
    | b :: rest =>
      let run := (seq.takeWhile id).length
      if b && decide (n ≤ run) then
        (i, i + run) :: runMatches n k (i + run) (seq.drop run)
      else runMatches n k (i + 1) rest

/-- the turn sequence of `detectApses`, bpypolyskel.py:552 -/
def apseSequence (contour : List (Edge2 S)) : Except PyErr (List Bool) := do
  let ps ← iterPrevNext contour
  return ps.map (fun pn => abs (V2.cross pn.1.norm pn.2.norm) <. lit 1 2)

/-- the centre computed for one match, bpypolyskel.py:570-573 -/
def apseCenter (contour : List (Edge2 S)) (n : Nat) (span : Nat × Nat) :
    Except PyErr (V2 S) := do
  let idx := (List.range (span.2 - span.1)).map (fun k => (span.1 + k) % n)
  let vs ← idx.mapM (fun (i : Nat) => do let e ← pyGet contour (i : Int); return e.p1)
  let (c, _) ← fitCircle3Points vs
  return c

/-- `detectApses`, bpypolyskel.py:548-575.  `none` is None.  (`nextStart` stays 0.) -/
def detectApses (contour : List (Edge2 S)) : Except PyErr (Option (List (V2 S))) := do
  let seq ← apseSequence contour
  if seq.all id then return none
  let n := seq.length
  let ms := runMatches 6 (2 * n) 0 (seq ++ seq)
  if ms.isEmpty then return none
  let cs ← (ms.filter (fun m => decide (m.1 < n))).mapM (apseCenter contour n)
  return some cs

/-! ### findClusters, mergeCluster, mergeNodeClusters -/

/-- Manhattan distance of two points, as in bpypolyskel.py:587 and 598 -/
def manhattan (a b : V2 S) : S := abs (a.x -. b.x) +. abs (a.y -. b.y)

/-- the source of node `c`; indices are in range for every caller -/
def srcOf (sk : List (Subtree S)) (c : Nat) : Except PyErr (V2 S) := do
  let a ← getArc sk c
  return a.source

/-- `filterM` on lists, left to right -/
def filterE {α : Type} (p : α → Except PyErr Bool) : List α → Except PyErr (List α)
  | [] => .ok []
  | a :: l => do
    let b ← p a
    let r ← filterE p l
    return if b then a :: r else r

/-- is one of the nodes of the cluster near one of the apse centres?
bpypolyskel.py:594-602 -/
def nearApse (sk : List (Subtree S)) (centers : List (V2 S)) (cluster : List Nat) : Bool :=
  centers.any (fun ac => cluster.any (fun c =>
    match sk[c]? with
    | some a => manhattan ac a.source <. lit 3 1
    | none => false))

/-- `nrOfContourSinks`, bpypolyskel.py:607-612 -/
def nrContourSinks (sk : List (Subtree S)) (cv : List (V2 S)) (cluster : List Nat) : Nat :=
  (cluster.map (fun c => match sk[c]? with
    | some a => (cv.filter (fun el => V2.mem el a.sinks)).length
    | none => 0)).sum

/-- `contourSinks`, bpypolyskel.py:608-611 -/
def contourSinks (sk : List (Subtree S)) (cv : List (V2 S)) (cluster : List Nat) :
    List (V2 S) :=
  cluster.flatMap (fun c => match sk[c]? with
    | some a => a.sinks.filter (fun s => V2.mem s cv)
    | none => [])

/-- the decision whether a cluster of more than one node gets merged,
bpypolyskel.py:593-627 -/
def acceptCluster (sk : List (Subtree S)) (apses : Option (List (V2 S))) (cv : List (V2 S))
    (thresh : S) (cluster : List Nat) : Bool :=
  if nearApse sk (apses.getD []) cluster then false
  else if nrContourSinks sk cv cluster < 2 then true
  else
    let minDist := (pairs (contourSinks sk cv cluster)).foldl
      (fun m p => pymin (V2.length (V2.sub p.1 p.2)) m) (lit 3 1 *. thresh)
    lit 2 1 *. thresh <. minDist

/-- the while loop of `findClusters`, bpypolyskel.py:580-627.  Fuel: the number of
candidates. -/
def clusterLoop (sk : List (Subtree S)) (apses : Option (List (V2 S))) (cv : List (V2 S))
    (thresh : S) : Nat → List Nat → Except PyErr (List (List Nat))
  | _, [] => .ok []
  | 0, _ :: _ => .error .fuel
  | k + 1, c0 :: cands => do
    let ref ← srcOf sk c0
    let near ← filterE (fun c => do
      let s ← srcOf sk c
      return (manhattan ref s <. thresh)) cands
    let cluster := c0 :: near
    let rest := cands.filter (fun c => !cluster.contains c)
    let more ← clusterLoop sk apses cv thresh k rest
    if cluster.length > 1 && acceptCluster sk apses cv thresh cluster then
      return cluster :: more
    else return more

/-- `findClusters`, bpypolyskel.py:577-629 -/
def findClusters (sk : List (Subtree S)) (cv : List (V2 S)) (outer : List (Edge2 S))
    (thresh : S) : Except PyErr (List (List Nat)) := do
  let apses ← detectApses outer
  clusterLoop sk apses cv thresh sk.length (List.range sk.length)

/-- the redirection loop for the sinks of one arc outside the cluster,
bpypolyskel.py:662-669.  `pre` are the sinks already passed, with their "to remove" mark. -/
def redirectSinks (merged : List (V2 S)) (newSrc : V2 S) :
    List (V2 S × Bool) → List (V2 S) → List (V2 S × Bool)
  | pre, [] => pre
  | pre, s :: rest =>
    if V2.mem s merged then
      if V2.mem newSrc (pre.map (·.1) ++ s :: rest) then
        redirectSinks merged newSrc (pre ++ [(s, true)]) rest
      else redirectSinks merged newSrc (pre ++ [(newSrc, false)]) rest
    else redirectSinks merged newSrc (pre ++ [(s, false)]) rest

/-- drop the marked sinks (`for i in sorted(to_remove, reverse=True): del arc.sinks[i]`) -/
def dropMarked (l : List (V2 S × Bool)) : List (V2 S) :=
  (l.filter (fun p => !p.2)).map (·.1)

/-- `new_sinks`, bpypolyskel.py:648-652 -/
def collectSinks (merged : List (V2 S)) (all : List (V2 S)) : List (V2 S) :=
  all.foldl (fun acc s => if !V2.mem s merged && !V2.mem s acc then acc ++ [s] else acc) []

/-- the elements of a list whose position is not in `idx` -/
def dropIdx {α : Type} (idx : List Nat) (l : List α) : List α :=
  (l.zipIdx.filter (fun p => !idx.contains p.2)).map (·.1)

/-- `mergeCluster`, bpypolyskel.py:631-675 -/
def mergeCluster (sk : List (Subtree S)) (cluster : List Nat) :
    Except PyErr (List (Subtree S)) := do
  let nodes ← cluster.mapM (getArc sk)
  let x := nodes.foldl (fun acc a => acc +. a.source.x) fzero
  let y := nodes.foldl (fun acc a => acc +. a.source.y) fzero
  let h := nodes.foldl (fun acc a => acc +. a.height) fzero
  let merged := nodes.map (·.source)
  let n : S := lit cluster.length 1
  let nx ← pydiv x n
  let ny ← pydiv y n
  let nh ← pydiv h n
  let newSrc := mkV2 nx ny
  let newSinks := collectSinks merged (nodes.flatMap (·.sinks))
  let redirected := sk.map (fun arc =>
    if V2.mem arc.source merged then arc
    else { arc with sinks := dropMarked (redirectSinks merged newSrc [] arc.sinks) })
  return dropIdx cluster redirected ++ [{ source := newSrc, height := nh, sinks := newSinks }]

/-- merge the sinks of a node into an earlier node with the same source,
bpypolyskel.py:686-688 -/
def addSinks (old new : List (V2 S)) : List (V2 S) :=
  new.foldl (fun acc s => if V2.mem s acc then acc else acc ++ [s]) old

/-- the first loop of `mergeNodeClusters`, bpypolyskel.py:679-693.  The nodes that stay are
collected in `kept`; Python removes the others at the end. -/
def mergeSame : List (Subtree S) → List (Subtree S) → List (Subtree S)
  | kept, [] => kept
  | kept, p :: rest =>
    match kept.findIdx? (fun k => V2.teq k.source p.source) with
    | some j =>
      mergeSame (kept.modify j (fun k => { k with sinks := addSinks k.sinks p.sinks })) rest
    | none => mergeSame (kept ++ [p]) rest

/-- `max(clusters, key=len)`: the first longest -/
def longest : List Nat → List (List Nat) → List Nat
  | best, [] => best
  | best, c :: cs => longest (if best.length < c.length then c else best) cs

/-- the while loop of `mergeNodeClusters`, bpypolyskel.py:698-711.  Fuel: one more than the
number of nodes. -/
def mergeLoop (cv : List (V2 S)) (outer : List (Edge2 S)) :
    Nat → List (Subtree S) → Except PyErr (List (Subtree S))
  | 0, _ => .error .fuel
  | k + 1, sk => do
    match ← findClusters sk cv outer (lit 1 10) with
    | [] => return sk
    | c :: cs =>
      let sk ← mergeCluster sk (longest c cs)
      mergeLoop cv outer k sk

/-- `mergeNodeClusters`, bpypolyskel.py:677-713.  `edgeContours[0]` raises IndexError when
there is no contour. -/
def mergeNodeClusters (sk : List (Subtree S)) (contours : List (List (Edge2 S))) :
    Except PyErr (List (Subtree S)) := do
  let sk := mergeSame [] sk
  let cv := contours.flatMap (fun c => c.map (·.p1))
  match contours with
  | [] => .error .index
  | outer :: _ => mergeLoop cv outer (sk.length + 1) sk

/-! ### dormers -/

/-- the letters of `detectDormers.coder`, bpypolyskel.py:718-725 -/
inductive Turn where
  | L | R | O
  deriving DecidableEq, Repr, Inhabited

/-- `coder`, bpypolyskel.py:718-725 -/
def coder (cp : S) : Turn :=
  if lit 99 100 <. cp then .L
  else if cp <. neg (lit 99 100) then .R
  else .O

/-- the turn sequence, bpypolyskel.py:727 -/
def dormerSequence (contour : List (Edge2 S)) : Except PyErr (List Turn) := do
  let ps ← iterPrevNext contour
  return ps.map (fun pn => coder (V2.cross pn.1.norm pn.2.norm))

/-- start positions of the overlapping matches of `(?=(RLLR))` -/
def rllrMatches : Nat → List Turn → List Nat
  | _, [] => []
  | i, t :: ts =>
    if (t :: ts).take 4 = [Turn.R, Turn.L, Turn.L, Turn.R] then i :: rllrMatches (i + 1) ts
    else rllrMatches (i + 1) ts

/-- the loop over the matches, bpypolyskel.py:737-743 -/
def dormerStarts (n : Nat) : Nat → List Nat → List (List Nat)
  | _, [] => []
  | nextStart, s :: ss =>
    if s < n ∧ nextStart ≤ s then
      [s % n, (s + 1) % n, (s + 2) % n, (s + 3) % n] :: dormerStarts n (s + 3) ss
    else dormerStarts n nextStart ss

/-- filtering overlapping dormers, bpypolyskel.py:746-752 -/
def dropOverlaps (ds : List (List Nat)) : List (List Nat) :=
  let bad := (ds.zip (ds.drop 1 ++ ds.take 1)).flatMap (fun p =>
    if p.1[3]? = p.2[0]? then [p.1, p.2] else [])
  bad.foldl (fun ds sp => if sp ∈ ds then ds.erase sp else ds) ds

/-- the size checks for one candidate, bpypolyskel.py:763-773.  `s` is the loop variable
left over from the loop over the matches: the start of the LAST match, not of this
candidate. -/
def dormerCheck (contour : List (Edge2 S)) (seq : List Turn) (s : Nat) (oi : List Nat) :
    Except PyErr (Option (List Nat × S)) := do
  let n := seq.length
  let i0 ← pyGet oi 0
  let i1 ← pyGet oi 1
  let i2 ← pyGet oi 2
  let i3 ← pyGet oi 3
  let e0 ← pyGet contour (i0 : Nat)
  let e1 ← pyGet contour (i1 : Nat)
  let e2 ← pyGet contour (i2 : Nat)
  let e3 ← pyGet contour (i3 : Nat)
  let w := e1.lengthSq
  let d1 := e0.lengthSq
  let d2 := e2.lengthSq
  let d ← pydiv (abs (d1 -. d2)) (d1 +. d2)
  let eb ← pyGet contour (((i0 + n - 1) % n : Nat) : Int)
  let d3 := eb.lengthSq
  let d4 := e3.lengthSq
  let tl ← pyGet seq (((s + n - 1) % n : Nat) : Int)
  let tr ← pyGet seq (((s + 4) % n : Nat) : Int)
  let facLeft : S := if tl ≠ Turn.L then lit 1 8 else lit 3 2
  let facRight : S := if tr ≠ Turn.L then lit 1 8 else lit 3 2
  if (w <. lit 100 1) && (d <. lit 35 100) && (w *. facLeft <=. d3) && (w *. facRight <=. d4)
  then return some (oi, V2.length (V2.sub e1.p1 e1.p2))
  else return none

/-- `detectDormers`, bpypolyskel.py:715-775: the accepted dormers with the length of their
base edge -/
def detectDormers (contours : List (List (Edge2 S))) : Except PyErr (List (List Nat × S)) := do
  match contours with
  | [] => .error .index
  | outer :: _ =>
    let seq ← dormerSequence outer
    let n := seq.length
    let ms := rllrMatches 0 (seq ++ seq)
    let ds := dropOverlaps (dormerStarts n 0 ms)
    if (ds.flatten.eraseDups).length = outer.length then return []
    else
      match ms.getLast? with
      | none => return []
      | some s => do
        let r ← ds.mapM (dormerCheck outer seq s)
        return r.filterMap id

/-- the dormer event of one dormer, or None (`continue`), bpypolyskel.py:781-795 -/
def dormerEvent (st : St S) (init : List (Option (Event S))) (dormer : List Nat × S) :
    Except PyErr (Option (Event S)) := do
  -- d_events: in the order of the list of events, not of the dormer's indices
  let dEvents : List (Option (Event S)) := (init.zipIdx.filter (fun p => dormer.1.contains p.2)).map (·.1)
  if dEvents.all (·.isSome) then
    match dEvents[0]? with
    | none => .error .index
    | some (some (Event.split e0)) =>
      match dEvents[1]? with
      | none => .error .index
      | some (some (Event.edge e1)) =>
        match dEvents[3]? with
        | none => .error .index
        | some (some (Event.split e3)) => do
          let vp ← st.getV e0.vertex
          let vn ← st.getV e3.vertex
          let p := vp.bisector.intersect vn.bisector
          return some (.dormer (dormer.2 /. lit 2 1) p e0 e3 e1)
        | some _ => return none
      | some _ => return none
    | some _ => return none
  else return none

/-- `processDormers`, bpypolyskel.py:777-801 -/
def processDormers (st : St S) (dormers : List (List Nat × S))
    (init : List (Option (Event S))) : Except PyErr (List (Option (Event S))) := do
  let evs ← dormers.mapM (fun d => do
    let e ← dormerEvent st init d
    return (d.1, e))
  let used := (evs.filter (fun p => p.2.isSome)).flatMap (·.1)
  let remaining := (init.zipIdx.filter (fun p => !used.contains p.2)).map (·.1)
  return remaining ++ (evs.map (·.2)).filter (·.isSome)

/-! ### skeletonize -/

/-- handle one event of the batch, bpypolyskel.py:857-868; `none` is `continue` (the event
is stale) -/
def handleEvent (st : St S) (ev : Event S) : Except PyErr (Option (HandlerOut S)) :=
  match ev with
  | .edge e => do
    let va ← st.getV e.a
    let vb ← st.getV e.b
    if !va.valid || !vb.valid then return none
    else return some (← handleEdge st e)
  | .split e => do
    let v ← st.getV e.vertex
    if !v.valid then return none
    else return some (← handleSplit st e)
  | .dormer _ _ e0 e1 e2 => do
    let v0 ← st.getV e0.vertex
    let v1 ← st.getV e1.vertex
    if !v0.valid || !v1.valid then return none
    else return some (← handleDormer st e0 e1 e2)

/-- The state of the main loop: heap, queue and output. -/
structure Loop (S : Type) where
  st : St S
  queue : List (Event S)
  out : List (Subtree S)
  deriving DecidableEq, Repr, Inhabited

/-- one iteration of the loop over a batch, bpypolyskel.py:857-875 -/
def stepEvent (lp : Loop S) (ev : Event S) : Except PyErr (Loop S) := do
  match ← handleEvent lp.st ev with
  | none => return lp
  | some (st, arcs, events) =>
    return { st, queue := putAll lp.queue events, out := lp.out ++ arcs }

/-- the loop over a batch, bpypolyskel.py:856-875 -/
def stepBatch : Loop S → List (Event S) → Except PyErr (Loop S)
  | lp, [] => .ok lp
  | lp, e :: es => do
    let lp ← stepEvent lp e
    stepBatch lp es

/-- the main loop, bpypolyskel.py:854-875.  Python puts no bound on the number of
iterations; `none` means that `fuel` iterations were not enough. -/
def mainLoop : Nat → Loop S → Option (Except PyErr (Loop S))
  | 0, lp => if lp.queue.isEmpty || lp.st.slav.isEmpty then some (.ok lp) else none
  | k + 1, lp =>
    if lp.queue.isEmpty || lp.st.slav.isEmpty then some (.ok lp)
    else match getAllEqualDistance lp.queue with
      | none => some (.error .index)
      | some (batch, q) =>
        match stepBatch { lp with queue := q } batch with
        | .error e => some (.error e)
        | .ok lp => mainLoop k lp

/-- `[vertex.next_event() for lav in slav for vertex in lav]`, bpypolyskel.py:840-843 -/
def initialEvents (st : St S) : Except PyErr (List (Option (Event S))) := do
  let ids ← chainLavs st st.slav
  ids.mapM (nextEvent st)

/-- everything before the main loop, bpypolyskel.py:836-852 -/
def startLoop (contours : List (List (Edge2 S))) : Except PyErr (Loop S) := do
  let st ← mkSlav contours
  let dormers ← detectDormers contours
  let init ← initialEvents st
  let init ← if dormers.isEmpty then .ok init else processDormers st dormers init
  return { st, queue := putAll [] (init.filterMap id), out := [] }

/-- everything after the main loop, bpypolyskel.py:877-880 -/
def finish (contours : List (List (Edge2 S))) (out : List (Subtree S)) :
    Except PyErr (List (Subtree S)) := do
  let out ← mergeNodeClusters out contours
  removeGhosts out

/-- `skeletonize`, bpypolyskel.py:804-880.  `none`: the main loop needs more than `fuel`
iterations. -/
def skeletonize (fuel : Nat) (contours : List (List (Edge2 S))) :
    Option (Except PyErr (List (Subtree S))) :=
  match startLoop contours with
  | .error e => some (.error e)
  | .ok lp =>
    match mainLoop fuel lp with
    | none => none
    | some (.error e) => some (.error e)
    | some (.ok lp) => some (finish contours lp.out)

end Polyskel
