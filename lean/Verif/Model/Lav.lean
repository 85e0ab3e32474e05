import Verif.Model.Euclid
/-
Model of the wavefront data structures of bpypolyskel.py: events (66-89), `_LAVertex`
(95-210), `_LAV` (212-287) and `_SLAV` (289-432).

Python objects live in an explicit heap: a `_LAVertex` is identified by its position in
`St.vs`, a `_LAV` by its position in `St.lavs`.  Mutating a field of an object updates the
cell; reading a cell that does not exist is the error `.dangling` (which is not a Python
exception: no reachable state produces it).
-/
namespace Polyskel
open Scalar

/-- `_SplitEvent`, bpypolyskel.py:66-70 -/
structure SplitEv (S : Type) where
  dist : S
  pt : V2 S
  vertex : Nat
  opp : Edge2 S
  deriving DecidableEq, Repr, Inhabited

/-- `_EdgeEvent`, bpypolyskel.py:72-76 -/
structure EdgeEv (S : Type) where
  dist : S
  pt : V2 S
  a : Nat
  b : Nat
  deriving DecidableEq, Repr, Inhabited

/-- The three event classes, bpypolyskel.py:66-89.  A `DormerEvent` carries the list
`[split, split, edge]`; its intersection point may be None. -/
inductive Event (S : Type) where
  | split (e : SplitEv S)
  | edge (e : EdgeEv S)
  | dormer (dist : S) (pt : Option (V2 S)) (e0 e1 : SplitEv S) (e2 : EdgeEv S)
  deriving DecidableEq, Repr, Inhabited

/-- `event.distance` -/
def Event.dist {S : Type} : Event S → S
  | .split e => e.dist
  | .edge e => e.dist
  | .dormer d _ _ _ _ => d

/-- `Subtree`, bpypolyskel.py:93 -/
structure Subtree (S : Type) where
  source : V2 S
  height : S
  sinks : List (V2 S)
  deriving DecidableEq, Repr, Inhabited

/-- `_OriginalEdge`, bpypolyskel.py:91 -/
structure OrigEdge (S : Type) where
  edge : Edge2 S
  bisPrev : Lin S
  bisNext : Lin S
  deriving DecidableEq, Repr, Inhabited

/-- `_LAVertex` objects, bpypolyskel.py:95-120 -/
structure Vtx (S : Type) where
  point : V2 S
  edgePrev : Edge2 S
  edgeNext : Edge2 S
  prev : Nat
  next : Nat
  lav : Option Nat
  valid : Bool
  reflex : Bool
  bisector : Lin S
  deriving DecidableEq, Repr, Inhabited

/-- `_LAV` objects, bpypolyskel.py:212-216 -/
structure LavObj where
  head : Nat
  len : Nat
  deriving DecidableEq, Repr, Inhabited

/-- The heap and the `_SLAV` object: `slav` is `_SLAV._lavs`, `orig` is
`_SLAV._original_edges`. -/
structure St (S : Type) where
  vs : List (Vtx S)
  lavs : List LavObj
  slav : List Nat
  orig : List (OrigEdge S)
  deriving DecidableEq, Repr, Inhabited

namespace St
variable {S : Type}

/-- read a `_LAVertex` -/
def getV (st : St S) (i : Nat) : Except PyErr (Vtx S) :=
  match st.vs[i]? with
  | some v => .ok v
  | none => .error .dangling

/-- read a `_LAV` -/
def getL (st : St S) (i : Nat) : Except PyErr LavObj :=
  match st.lavs[i]? with
  | some v => .ok v
  | none => .error .dangling

/-- mutate a `_LAVertex` -/
def modV (st : St S) (i : Nat) (f : Vtx S → Vtx S) : St S :=
  { st with vs := st.vs.modify i f }

/-- mutate a `_LAV` -/
def modL (st : St S) (i : Nat) (f : LavObj → LavObj) : St S :=
  { st with lavs := st.lavs.modify i f }

/-- `v.prev = j` -/
def setPrev (st : St S) (i j : Nat) : St S := st.modV i (fun v => { v with prev := j })
/-- `v.next = j` -/
def setNext (st : St S) (i j : Nat) : St S := st.modV i (fun v => { v with next := j })
/-- `v.lav = l` -/
def setLav (st : St S) (i : Nat) (l : Option Nat) : St S :=
  st.modV i (fun v => { v with lav := l })
/-- `lav.head = i` -/
def setHead (st : St S) (l i : Nat) : St S := st.modL l (fun o => { o with head := i })

/-- allocate a `_LAVertex`; returns its identity -/
def newV (st : St S) (v : Vtx S) : St S × Nat :=
  ({ st with vs := st.vs ++ [v] }, st.vs.length)

/-- allocate a `_LAV`; returns its identity -/
def newL (st : St S) (o : LavObj) : St S × Nat :=
  ({ st with lavs := st.lavs ++ [o] }, st.lavs.length)

end St

variable {S : Type} [Scalar S]

/-- `_LAVertex.__init__`, bpypolyskel.py:96-121.  `id` is the identity the object will
get; Python leaves `prev`/`next` None until the caller assigns them, which every caller
does before they are read. -/
def mkVtx (id : Nat) (point : V2 S) (edgePrev edgeNext : Edge2 S)
    (dirs : Option (V2 S × V2 S)) (forceConvex : Bool) : Vtx S :=
  let c0 := V2.smul edgePrev.norm (lit (-1) 1)
  let c1 := edgeNext.norm
  let dv := dirs.getD (c0, c1)
  let reflex := if forceConvex then false else fzero <. V2.cross dv.1 dv.2
  let sum := V2.add c0 c1
  { point, edgePrev, edgeNext, prev := id, next := id, lav := none, valid := true, reflex,
    bisector := Ray2 point (V2.smul sum (if reflex then lit (-1) 1 else lit 1 1)) }

/-- The candidate split event of one reflex vertex and one original edge; the loop body of
`next_event`, bpypolyskel.py:150-194.  `none` is `continue`. -/
def splitCandidate (id : Nat) (v : Vtx S) (oe : OrigEdge S) : Option (SplitEv S) :=
  if oe.edge.oid = v.edgePrev.oid ∨ oe.edge.oid = v.edgeNext.oid then none
  else
    let prevdot := abs (V2.dot v.edgePrev.norm oe.edge.norm)
    let nextdot := abs (V2.dot v.edgeNext.norm oe.edge.norm)
    let selfedge := if prevdot <. nextdot then v.edgePrev else v.edgeNext
    match (Line2.ofEdge selfedge).intersect (Line2.ofEdge oe.edge) with
    | none => none
    | some i =>
      if approximatelyEquals i v.point then none
      else
        let edvec := oe.edge.norm
        let linvec0 := V2.normalized (V2.sub v.point i)
        let linvec :=
          if abs (V2.cross v.bisector.v linvec0 -. fone) <. EPSILON then
            V2.normalized (V2.add (V2.sub v.point i) (V2.smul edvec (lit 1 100)))
          else linvec0
        let edvec := if V2.cross v.bisector.v linvec <. fzero then V2.neg edvec else edvec
        let bisecvec := V2.add edvec linvec
        if V2.length bisecvec ==. fzero then none
        else
          match (Line2.ofPV i bisecvec).intersect v.bisector with
          | none => none
          | some b =>
            let xprev := V2.cross (V2.normalized oe.bisPrev.v)
                (V2.normalized (V2.sub b oe.bisPrev.p)) <. EPSILON
            let xnext := neg EPSILON <. V2.cross (V2.normalized oe.bisNext.v)
                (V2.normalized (V2.sub b oe.bisNext.p))
            let xedge := neg EPSILON <. V2.cross oe.edge.norm
                (V2.normalized (V2.sub b oe.edge.p1))
            let parallel := V2.length oe.bisNext.v ==. fzero
            if xprev && xnext && xedge && !parallel then
              some { dist := (Line2.ofEdge oe.edge).distance b, pt := b, vertex := id,
                     opp := oe.edge }
            else none

/-- Python `min(events, key=..)`: the first event with the smallest key. -/
def minByKey (key : Event S → S) : Event S → List (Event S) → Event S
  | best, [] => best
  | best, e :: es => minByKey key (if key e <. key best then e else best) es

/-- `event.intersection_point` for the two events `next_event` builds -/
def Event.ptOf : Event S → V2 S
  | .split e => e.pt
  | .edge e => e.pt
  | .dormer _ p _ _ _ => p.getD ⟨fzero, fzero⟩

/-- the split events a vertex may cause, bpypolyskel.py:147-194; only reflex vertices cause
any.  Reading `self.original_edges` of a vertex without LAV raises AttributeError. -/
def splitsOf (st : St S) (id : Nat) (v : Vtx S) : Except PyErr (List (SplitEv S)) :=
  if v.reflex then
    match v.lav with
    | none => .error .attribute
    | some _ => .ok (st.orig.filterMap (splitCandidate id v))
  else .ok []

/-- the edge event of the vertex `v` and its neighbour `w` which have the edge `edge` in common,
bpypolyskel.py:196-202; `a` and `b` are the vertices in the order of the LAV -/
def edgeOf (v w : Vtx S) (edge : Edge2 S) (a b : Nat) : List (Event S) :=
  match v.bisector.intersect w.bisector with
  | some i => [Event.edge { dist := (Line2.ofEdge edge).distance i, pt := i, a := a, b := b }]
  | none => []

/-- the edge events with the neighbours `p` and `n`, bpypolyskel.py:196-202 -/
def edgesOf (id : Nat) (v p n : Vtx S) : List (Event S) :=
  edgeOf v p v.edgePrev v.prev id ++ edgeOf v n v.edgeNext id v.next

/-- the nearest event, bpypolyskel.py:204-210 -/
def nearest (v : Vtx S) : List (Event S) → Option (Event S)
  | [] => none
  | e :: es => some (minByKey (fun ev => V2.length (V2.sub v.point ev.ptOf)) e es)

/-- `_LAVertex.next_event`, bpypolyskel.py:145-210 -/
def nextEvent (st : St S) (id : Nat) : Except PyErr (Option (Event S)) := do
  let v ← st.getV id
  let splits ← splitsOf st id v
  let p ← st.getV v.prev
  let n ← st.getV v.next
  return nearest v (splits.map Event.split ++ edgesOf id v p n)

/-- `_LAV.__iter__`, bpypolyskel.py:277-287: the vertices yielded, and how the iteration
ends (`none`: normally; `some .runtime`: the RuntimeError on a circular reference that does
not pass through the head).  Fuel: one more than the number of vertices in the heap. -/
def walk (st : St S) (head : Nat) : Nat → Nat → List Nat → List Nat × Option PyErr
  | 0, _, _ => ([], some .fuel)
  | k + 1, cur, visited =>
    match st.vs[cur]? with
    | none => ([cur], some .dangling)
    | some v =>
      let c := v.next
      if c = head then ([cur], none)
      else if c ∈ visited then ([cur], some .runtime)
      else
        let r := walk st head k c (c :: visited)
        (cur :: r.1, r.2)

/-- iterate over a `_LAV` -/
def iterLav (st : St S) (l : Nat) : List Nat × Option PyErr :=
  match st.lavs[l]? with
  | none => ([], some .dangling)
  | some o => walk st o.head (st.vs.length + 2) o.head []

/-- `list(lav)` -/
def listLav (st : St S) (l : Nat) : Except PyErr (List Nat) :=
  match iterLav st l with
  | (vs, none) => .ok vs
  | (_, some e) => .error e

/-- `_LAV.from_chain`, bpypolyskel.py:239-246 -/
def fromChain (st : St S) (head : Nat) : Except PyErr (St S × Nat) :=
  let (st, l) := st.newL { head, len := 0 }
  match iterLav st l with
  | (vs, none) =>
    .ok (((vs.foldl (fun st v => st.setLav v (some l)) st).modL l
          (fun o => { o with len := vs.length })), l)
  | (_, some e) => .error e

/-- one vertex of `_LAV.from_polygon`, the loop body bpypolyskel.py:222-236 -/
def addVertexToLav (l : Nat) (st : St S) (first : Bool) (prev nxt : Edge2 S) :
    Except PyErr (St S) := do
  let st := st.modL l (fun o => { o with len := o.len + 1 })
  let (st, id) := st.newV (mkVtx st.vs.length nxt.p1 prev nxt none false)
  let st := st.setLav id (some l)
  if first then
    -- lav.head = vertex; vertex.prev = vertex.next = vertex
    return ((st.setHead l id).setPrev id id).setNext id id
  else
    let o ← st.getL l
    let h ← st.getV o.head
    -- vertex.next = lav.head; vertex.prev = lav.head.prev
    let st := (st.setNext id o.head).setPrev id h.prev
    -- vertex.prev.next = vertex; lav.head.prev = vertex
    return (st.setNext h.prev id).setPrev o.head id

/-- the loop of `_LAV.from_polygon` -/
def fromPolygonLoop (l : Nat) : St S → Bool → List (Edge2 S × Edge2 S) → Except PyErr (St S)
  | st, _, [] => .ok st
  | st, first, (p, n) :: rest => do
    let st ← addVertexToLav l st first p n
    fromPolygonLoop l st false rest

/-- `_LAV.from_polygon`, bpypolyskel.py:218-237 -/
def fromPolygon (st : St S) (contour : List (Edge2 S)) : Except PyErr (St S × Nat) := do
  let (st, l) := st.newL { head := 0, len := 0 }
  let ps ← iterPrevNext contour
  let st ← fromPolygonLoop l st true ps
  return (st, l)

/-- `[_LAV.from_polygon(edgeContour, self) for edgeContour in edgeContours]` -/
def fromContours : St S → List (List (Edge2 S)) → Except PyErr (St S)
  | st, [] => .ok st
  | st, c :: cs => do
    let (st, l) ← fromPolygon st c
    fromContours { st with slav := st.slav ++ [l] } cs

/-- concatenated `list(lav)` of several LAVs: `chain.from_iterable(self._lavs)` -/
def chainLavs (st : St S) : List Nat → Except PyErr (List Nat)
  | [] => .ok []
  | l :: ls => do
    let a ← listLav st l
    let b ← chainLavs st ls
    return a ++ b

/-- one entry of `_original_edges`, bpypolyskel.py:295 -/
def origEdgeOf (st : St S) (id : Nat) : Except PyErr (OrigEdge S) := do
  let v ← st.getV id
  let p ← st.getV v.prev
  return { edge := v.edgePrev, bisPrev := p.bisector, bisNext := v.bisector }

/-- `_SLAV.__init__`, bpypolyskel.py:290-297 -/
def mkSlav (contours : List (List (Edge2 S))) : Except PyErr (St S) := do
  let st ← fromContours { vs := [], lavs := [], slav := [], orig := [] } contours
  let ids ← chainLavs st st.slav
  let oes ← ids.mapM (origEdgeOf st)
  return { st with orig := oes }

/-- `_LAVertex.invalidate` (bpypolyskel.py:123-127) and `_LAV.invalidate` (248-253).  The
assertion `vertex.lav is self` holds by construction: the method is called through
`vertex.lav`. -/
def invalidate (st : St S) (id : Nat) : Except PyErr (St S) := do
  let v ← st.getV id
  match v.lav with
  | none => return st.modV id (fun v => { v with valid := false })
  | some l =>
    let st := st.modV id (fun v => { v with valid := false })
    let o ← st.getL l
    let st := if o.head = id then st.setHead l v.next else st
    return st.setLav id none

/-- `for v in vs: v.invalidate()` -/
def invalidateAll : St S → List Nat → Except PyErr (St S)
  | st, [] => .ok st
  | st, v :: vs => do
    let st ← invalidate st v
    invalidateAll st vs

/-- `_LAV.unify`, bpypolyskel.py:255-272 -/
def unify (st : St S) (l : Nat) (a b : Nat) (point : V2 S) : Except PyErr (St S × Nat) := do
  let va ← st.getV a
  let vb ← st.getV b
  let (st, r) := st.newV (mkVtx st.vs.length point va.edgePrev vb.edgeNext
      (some (V2.normalized vb.bisector.v, V2.normalized va.bisector.v)) false)
  let st := st.setLav r (some l)
  let o ← st.getL l
  let st := if o.head = a ∨ o.head = b then st.setHead l r else st
  -- vertex_a.prev.next = replacement
  let va ← st.getV a
  let st := st.setNext va.prev r
  -- vertex_b.next.prev = replacement
  let vb ← st.getV b
  let st := st.setPrev vb.next r
  -- replacement.prev = vertex_a.prev ; replacement.next = vertex_b.next
  let va ← st.getV a
  let st := st.setPrev r va.prev
  let vb ← st.getV b
  let st := st.setNext r vb.next
  let st ← invalidate st a
  let st ← invalidate st b
  return (st.modL l (fun o => { o with len := o.len - 1 }), r)

/-- `self._lavs.remove(lav)`; ValueError when it is not listed (or is None) -/
def removeLav (st : St S) (l : Option Nat) : Except PyErr (St S) :=
  match l with
  | none => .error .value
  | some l => do
    let s ← pyRemove st.slav l
    return { st with slav := s }

/-- What a handler returns: the new heap, the arcs to output and the new events. -/
abbrev HandlerOut (S : Type) := St S × List (Subtree S) × List (Event S)

/-- the points of a list of vertices -/
def pointsOf (st : St S) (vs : List Nat) : Except PyErr (List (V2 S)) :=
  vs.mapM (fun v => do let x ← st.getV v; return x.point)

/-- `_SLAV.handle_edge_event`, bpypolyskel.py:341-361 -/
def handleEdge (st : St S) (ev : EdgeEv S) : Except PyErr (HandlerOut S) := do
  let va ← st.getV ev.a
  let vb ← st.getV ev.b
  if va.prev = vb.next then
    -- peak event
    let st ← removeLav st va.lav
    match va.lav with
    | none => .error .attribute
    | some l =>
      let vs ← listLav st l
      let sinks ← pointsOf st vs
      let st ← invalidateAll st vs
      return (st, [{ source := ev.pt, height := ev.dist, sinks }], [])
  else
    match va.lav with
    | none => .error .attribute
    | some l =>
      let (st, r) ← unify st l ev.a ev.b ev.pt
      let o ← st.getL l
      let st := if o.head = ev.a ∨ o.head = ev.b then st.setHead l r else st
      let ne ← nextEvent st r
      return (st, [{ source := ev.pt, height := ev.dist, sinks := [va.point, vb.point] }],
        ne.toList)

/-- the test for one vertex `v` in the search loop of `handle_split_event`,
bpypolyskel.py:372-387: the pair `(x, y)` when it is accepted -/
def splitTest (st : St S) (ev : SplitEv S) (v : Nat) : Except PyErr (Option (Nat × Nat)) := do
  let vv ← st.getV v
  let cand : Option (Nat × Nat) :=
    if V2.veq ev.opp.norm vv.edgePrev.norm && V2.veq ev.opp.p1 vv.edgePrev.p1 then
      some (v, vv.prev)
    else if V2.veq ev.opp.norm vv.edgeNext.norm && V2.veq ev.opp.p1 vv.edgeNext.p1 then
      some (vv.next, v)
    else none
  match cand with
  | none => return none
  | some (x, y) =>
    let vx ← st.getV x
    let vy ← st.getV y
    let xprev := V2.cross (V2.normalized vy.bisector.v)
        (V2.normalized (V2.sub ev.pt vy.point)) <=. EPSILON
    let xnext := neg EPSILON <=. V2.cross (V2.normalized vx.bisector.v)
        (V2.normalized (V2.sub ev.pt vx.point))
    return if xprev && xnext then some (x, y) else none

/-- the search over the vertices one LAV yields; `none`: not found -/
def splitSearchList (st : St S) (ev : SplitEv S) :
    List Nat → Except PyErr (Option (Nat × Nat))
  | [] => .ok none
  | v :: vs => do
    match ← splitTest st ev v with
    | some r => return some r
    | none => splitSearchList st ev vs

/-- the search over all LAVs, bpypolyskel.py:371-387.  An error of the iteration is only
raised when the search gets that far. -/
def splitSearch (st : St S) (ev : SplitEv S) : List Nat → Except PyErr (Option (Nat × Nat))
  | [] => .ok none
  | l :: ls => do
    let it := iterLav st l
    match ← splitSearchList st ev it.1 with
    | some r => return some r
    | none =>
      match it.2 with
      | some e => .error e
      | none => splitSearch st ev ls

/-- the loop over `new_lavs`, bpypolyskel.py:415-423: keeps LAVs with more than two
vertices, collapses the others.  Returns the heap, the sinks and the heads. -/
def keepOrCollapse : St S → List (V2 S) → List Nat → List Nat →
    Except PyErr (St S × List (V2 S) × List Nat)
  | st, sinks, heads, [] => .ok (st, sinks, heads)
  | st, sinks, heads, l :: ls => do
    let o ← st.getL l
    if o.len > 2 then
      keepOrCollapse { st with slav := st.slav ++ [l] } sinks (heads ++ [o.head]) ls
    else
      let h ← st.getV o.head
      let n ← st.getV h.next
      let vs ← listLav st l
      let st ← invalidateAll st vs
      keepOrCollapse st (sinks ++ [n.point]) heads ls

/-- `[v.next_event() for v in vertices]` without the None results -/
def nextEvents (st : St S) : List Nat → Except PyErr (List (Event S))
  | [] => .ok []
  | v :: vs => do
    let e ← nextEvent st v
    let es ← nextEvents st vs
    return e.toList ++ es

/-- the new vertices and the pointer assignments of `handle_split_event`,
bpypolyskel.py:393-404; returns the heap, `v1` and `v2` -/
def splitLink (st : St S) (ev : SplitEv S) (v : Vtx S) (x y : Nat) :
    Except PyErr (St S × Nat × Nat) := do
  let (st, v1) := st.newV (mkVtx st.vs.length ev.pt v.edgePrev ev.opp none true)
  let (st, v2) := st.newV (mkVtx st.vs.length ev.pt ev.opp v.edgeNext none true)
  -- v1.prev = event.vertex.prev; v1.next = x; event.vertex.prev.next = v1; x.prev = v1
  let st := (st.setPrev v1 v.prev).setNext v1 x
  let st := st.setNext v.prev v1
  let st := st.setPrev x v1
  -- v2.prev = y; v2.next = event.vertex.next; event.vertex.next.prev = v2; y.next = v2
  let st := st.setPrev v2 y
  let v' ← st.getV ev.vertex
  let st := st.setNext v2 v'.next
  let st := st.setPrev v'.next v2
  let st := st.setNext y v2
  return (st, v1, v2)

/-- the new LAVs of `handle_split_event`, bpypolyskel.py:406-413 -/
def splitLavs (st : St S) (lav : Option Nat) (x v1 v2 : Nat) :
    Except PyErr (St S × List Nat) := do
  let st ← removeLav st lav
  let vx ← st.getV x
  if lav ≠ vx.lav then
    let st ← removeLav st vx.lav
    let (st, l1) ← fromChain st v1
    return (st, [l1])
  else
    let (st, l1) ← fromChain st v1
    let (st, l2) ← fromChain st v2
    return (st, [l1, l2])

/-- the part of `handle_split_event` after the pair `(x, y)` has been found,
bpypolyskel.py:393-432 -/
def splitAt (st : St S) (ev : SplitEv S) (x y : Nat) : Except PyErr (HandlerOut S) := do
  let v ← st.getV ev.vertex
  let (st, v1, v2) ← splitLink st ev v x y
  let (st, newLavs) ← splitLavs st v.lav x v1 v2
  let (st, sinks, heads) ← keepOrCollapse st [v.point] [] newLavs
  let events ← nextEvents st heads
  let st ← invalidate st ev.vertex
  return (st, [{ source := ev.pt, height := ev.dist, sinks }], events)

/-- `_SLAV.handle_split_event`, bpypolyskel.py:363-432 -/
def handleSplit (st : St S) (ev : SplitEv S) : Except PyErr (HandlerOut S) := do
  match ← splitSearch st ev st.slav with
  | none => return (st, [], [])
  | some (x, y) => splitAt st ev x y

/-- `_SLAV.handle_dormer_event`, bpypolyskel.py:306-339.  When the two bisectors do not
meet, Python stores None as the source of a Subtree; the event loop goes on, and at its end
`mergeNodeClusters` raises TypeError (line 682).  The model raises it here. -/
def handleDormer (st : St S) (e0 e1 : SplitEv S) (e2 : EdgeEv S) :
    Except PyErr (HandlerOut S) := do
  let vp ← st.getV e0.vertex
  match vp.lav with
  | none => return (st, [], [])
  | some l =>
    let vn ← st.getV e1.vertex
    let toRemove := [e0.vertex, vp.next, e1.vertex, vn.prev]
    let st := st.setHead l vp.prev
    -- v_prev.prev.next = v_next.next ; v_next.next.prev = v_prev.prev
    let st := st.setNext vp.prev vn.next
    let vn' ← st.getV e1.vertex
    let vp' ← st.getV e0.vertex
    let st := st.setPrev vn'.next vp'.prev
    let o ← st.getL l
    let (st, nl) ← fromChain st o.head
    let st ← removeLav st (some l)
    let st := { st with slav := st.slav ++ [nl] }
    match vp.bisector.intersect vn.bisector with
    | none => .error .typeError
    | some p =>
      let pa ← st.getV e2.a
      let pb ← st.getV e2.b
      let arcs : List (Subtree S) :=
        [{ source := e2.pt, height := e2.dist, sinks := [pa.point, pb.point, p] },
         { source := p, height := (e0.dist +. e1.dist) /. lit 2 1,
           sinks := [vp.point, vn.point] }]
      let st ← invalidateAll st toRemove
      return (st, arcs, [])

end Polyskel
