import Verif.Model.Scalar
/-
Model of bpypolyskel/bpyeuclid.py.
-/
namespace Polyskel
open Scalar
variable {S : Type} [Scalar S]

/-- `ccw`, bpyeuclid.py:6-7 -/
def ccw (A B C : V2 S) : Bool :=
  (B.y -. A.y) *. (C.x -. A.x) <. (C.y -. A.y) *. (B.x -. A.x)

/-- `intersect`, bpyeuclid.py:9-10 -/
def segIntersect (A B C D : V2 S) : Bool :=
  (ccw A C D != ccw B C D) && (ccw A B C != ccw A B D)

/-- `Edge2`, bpyeuclid.py:29-55.  `oid` stands for the identity of the Python object
(`Edge2` defines no `__eq__`, so `==` between edges is object identity).  `i1`, `i2` are
the vertex indices recorded when the edge is built from `verts`. -/
structure Edge2 (S : Type) where
  oid : Nat
  i1 : Nat
  i2 : Nat
  p1 : V2 S
  p2 : V2 S
  norm : V2 S
  deriving DecidableEq, Repr, Inhabited

/-- `Edge2.__init__` with two vectors and no unit vector, bpyeuclid.py:45-52. -/
def Edge2.ofPoints (oid : Nat) (p1 p2 : V2 S) : Edge2 S :=
  { oid, i1 := 0, i2 := 0, p1, p2, norm := V2.normalized (V2.sub p2 p1) }

/-- `Edge2.__init__` with indices, `verts` and `center`, bpyeuclid.py:40-52.  The unit
vector is a 3D vector whose first two components are used (a mathutils.Vector is always
truthy, so `if norm:` tests for None only). -/
def Edge2.ofVerts (oid : Nat) (i1 i2 : Nat) (norm : Option (V3 S)) (verts : List (V3 S))
    (center : V3 S) : Except PyErr (Edge2 S) := do
  let a ← pyGet verts i1
  let b ← pyGet verts i2
  let p1 := V3.xy (V3.sub a center)
  let p2 := V3.xy (V3.sub b center)
  let n := match norm with
    | some u => V3.xy u
    | none => V2.normalized (V2.sub p2 p1)
  return { oid, i1, i2, p1, p2, norm := n }

/-- `Edge2.length_squared`, bpyeuclid.py:54-55 -/
def Edge2.lengthSq (e : Edge2 S) : S := V2.lengthSq (V2.sub e.p2 e.p1)

/-- `Ray2` (bpyeuclid.py:57-68) and `Line2` (bpyeuclid.py:70-94): a base point, a
direction and the kind, which decides `intsecttest`. -/
structure Lin (S : Type) where
  p : V2 S
  v : V2 S
  ray : Bool
  deriving DecidableEq, Repr, Inhabited

/-- `Ray2.__init__`, bpyeuclid.py:58-62 -/
def Ray2 (p v : V2 S) : Lin S := ⟨p, v, true⟩
/-- `Line2(edge)`, bpyeuclid.py:72-74 -/
def Line2.ofEdge (e : Edge2 S) : Lin S := ⟨e.p1, V2.sub e.p2 e.p1, false⟩
/-- `Line2(p, v, 'pv')`, bpyeuclid.py:78-80.  (The library uses no other forms; the constructor with all of
them is in `Model/Line.lean`.) -/
def Line2.ofPV (p v : V2 S) : Lin S := ⟨p, v, false⟩

/-- `Ray2.intsecttest` (bpyeuclid.py:64-65) and `Line2.intsecttest` (84-85) -/
def Lin.intsecttest (l : Lin S) (u : S) : Bool := !l.ray || (fzero <=. u)

/-- `_intersect_line2_line2`, bpyeuclid.py:13-27 -/
def Lin.intersect (A B : Lin S) : Option (V2 S) :=
  let d := B.v.y *. A.v.x -. B.v.x *. A.v.y
  if d ==. fzero then none
  else
    let dy := A.p.y -. B.p.y
    let dx := A.p.x -. B.p.x
    let ua := (B.v.x *. dy -. B.v.y *. dx) /. d
    if !A.intsecttest ua then none
    else
      let ub := (A.v.x *. dy -. A.v.y *. dx) /. d
      if !B.intsecttest ub then none
      else some (mkV2 (A.p.x +. ua *. A.v.x) (A.p.y +. ua *. A.v.y))

/-- `mathutils.geometry.intersect_point_line(pt, l1, l2)[0]` for 2D points (external
library): foot of the perpendicular from `pt` on the line through `l1` and `l2`. -/
def intersectPointLine (pt l1 l2 : V2 S) : V2 S :=
  let u := V2.sub l2 l1
  let h := V2.sub pt l1
  let lam := V2.dot u h /. V2.dot u u
  ⟨rnd (l1.x +. u.x *. lam), rnd (l1.y +. u.y *. lam)⟩

/-- `Line2.distance`, bpyeuclid.py:91-94 -/
def Lin.distance (l : Lin S) (other : V2 S) : S :=
  let nearest := intersectPointLine other l.p (V2.add l.p l.v)
  V2.length (V2.sub other nearest)

/-- Python complex numbers. -/
structure Cx (S : Type) where
  re : S
  im : S
  deriving DecidableEq, Repr, Inhabited

namespace Cx
def add (a b : Cx S) : Cx S := ⟨a.re +. b.re, a.im +. b.im⟩
def sub (a b : Cx S) : Cx S := ⟨a.re -. b.re, a.im -. b.im⟩
def mul (a b : Cx S) : Cx S := ⟨a.re *. b.re -. a.im *. b.im, a.re *. b.im +. a.im *. b.re⟩
/-- `abs(z)` (hypot) -/
def abs (a : Cx S) : S := sqrt (a.re *. a.re +. a.im *. a.im)
/-- `a / b`, CPython's `_Py_c_quot` (Smith's algorithm); ZeroDivisionError on `b == 0`. -/
def div (a b : Cx S) : Except PyErr (Cx S) :=
  if Scalar.abs b.im <=. Scalar.abs b.re then
    if b.re ==. fzero then .error .zeroDivision
    else
      let ratio := b.im /. b.re
      let denom := b.re +. b.im *. ratio
      .ok ⟨(a.re +. a.im *. ratio) /. denom, (a.im -. a.re *. ratio) /. denom⟩
  else
    let ratio := b.re /. b.im
    let denom := b.re *. ratio +. b.im
    .ok ⟨(a.re *. ratio +. a.im) /. denom, (a.im *. ratio -. a.re) /. denom⟩
end Cx

/-- `fitCircle3Points`, bpyeuclid.py:96-109: centre and radius of the circle through the
first, the middle and the last point. -/
def fitCircle3Points (points : List (V2 S)) : Except PyErr (V2 S × S) := do
  let n := points.length
  let p0 ← pyGet points 0
  let pm ← pyGet points ((n / 2 : Nat) : Int)
  let pl ← pyGet points (-1)
  let x : Cx S := ⟨p0.x, p0.y⟩
  let y : Cx S := ⟨pm.x, pm.y⟩
  let z : Cx S := ⟨pl.x, pl.y⟩
  let w ← Cx.div (Cx.sub z x) (Cx.sub y x)
  let aw := Cx.abs w
  let c1 := Cx.mul (Cx.sub x y) ⟨w.re -. aw *. aw, w.im⟩
  let c2 ← Cx.div c1 ⟨fzero, lit 2 1⟩
  let c3 ← Cx.div c2 ⟨w.im, fzero⟩
  let c := Cx.sub c3 x
  return (mkV2 (Scalar.neg c.re) (Scalar.neg c.im), Cx.abs (Cx.add c x))

end Polyskel
