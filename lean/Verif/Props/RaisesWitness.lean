import Verif.Props.Raises
/-
C77, further witnesses: exceptions for polygons that are quite all right.
-/
namespace Polyskel
open Scalar

/-- twice the signed area of a triangle, for whole numbers -/
def turnZ (a b c : Int × Int) : Int := (b.1 - a.1) * (c.2 - a.2) - (b.2 - a.2) * (c.1 - a.1)

/-- the edges of a closed polygon -/
def sidesZ (p : List (Int × Int)) : List ((Int × Int) × (Int × Int)) := p.zip (p.rotate 1)

/-- one of two segments lies strictly on one side of the line through the other: they have no point in
common -/
def apartZ (s t : (Int × Int) × (Int × Int)) : Bool :=
  decide (0 < turnZ s.1 s.2 t.1 * turnZ s.1 s.2 t.2) || decide (0 < turnZ t.1 t.2 s.1 * turnZ t.1 t.2 s.2)

/-- a simple polygon: no two corners are equal, no three consecutive ones on a line, and edges that are not
neighbours have no point in common -/
def simpleZ (p : List (Int × Int)) : Bool :=
  decide p.Nodup &&
  ((sidesZ p).zip ((sidesZ p).rotate 1)).all (fun x => decide (turnZ x.1.1 x.1.2 x.2.2 ≠ 0)) &&
  (sidesZ p).all fun s => (sidesZ p).all fun t =>
    s.1 == t.1 || s.1 == t.2 || s.2 == t.1 || apartZ s t

/-- twice the signed area of a polygon -/
def areaZ (p : List (Int × Int)) : Int := ((sidesZ p).map fun s => s.1.1 * s.2.2 - s.1.2 * s.2.1).sum

/-- the ray from a point in the direction of the y-axis crosses an odd number of edges -/
def insideZ (p : List (Int × Int)) (q : Int × Int) : Bool :=
  ((sidesZ p).countP fun s => (decide (s.1.1 ≤ q.1) != decide (s.2.1 ≤ q.1)) &&
    decide (0 < turnZ s.1 s.2 q * (s.1.1 - s.2.1))) % 2 == 1

/-- a polygon, counterclockwise, with a hole, clockwise, inside of it -/
def holedZ (p h : List (Int × Int)) : Bool :=
  simpleZ p && simpleZ h && decide (0 < areaZ p) && decide (areaZ h < 0) && h.all (insideZ p) &&
  (sidesZ p).all fun s => (sidesZ h).all fun t => apartZ s t

/-- a hexagon -/
def hexagon : List (Int × Int) := [(0, 1), (1, 0), (6, 3), (5, 4), (4, 6), (3, 4)]

/-- another one, with a hole -/
def hexagonHole : List (Int × Int) × List (Int × Int) :=
  ([(0, 1), (8, 2), (10, 5), (9, 6), (9, 10), (6, 10)], [(3, 2), (3, 3), (7, 9), (7, 6)])

/-- the two tests, on cases that can be checked by eye -/
example : holedZ [(0, 0), (9, 0), (9, 9), (0, 9)] [(3, 3), (3, 6), (6, 6), (6, 3)] = true ∧
    holedZ [(0, 0), (9, 0), (9, 9), (0, 9)] [(3, 3), (6, 3), (6, 6), (3, 6)] = false ∧
    holedZ [(0, 0), (9, 0), (9, 9), (0, 9)] [(3, 13), (3, 16), (6, 16), (6, 13)] = false ∧
    holedZ [(0, 0), (9, 0), (9, 9), (0, 9)] [(3, 3), (3, 16), (6, 16), (6, 3)] = false ∧
    simpleZ [(0, 0), (9, 9), (9, 0), (0, 9)] = false := by decide +kernel

/-- C77: a simple hexagon without holes makes `faces()` report an endless loop.  Removing a ghost edge adds
a connection between two nodes that are connected already; the graph then has the edge twice. -/
theorem C77_hexagon_endless : simpleZ hexagon = true ∧ 0 < areaZ hexagon ∧
    ((polygonize rt0 60 (simpleCall hexagon 1 1)).map fun r =>
      decide (r.result = .error .endlessFaces)) = some true :=
  ⟨by decide +kernel, by decide +kernel, by decide +kernel⟩

end Polyskel
