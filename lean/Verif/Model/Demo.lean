import Verif.Model.Polygonize
/-
The Blender add-on of the repository, /repo/__init__.py: a building, made of walls on a footprint and of the
roof that `polygonize` puts on them.  The operator, its registration and the creation of the Blender mesh
(lines 87-92 and 95-145) are not modelled.

The demo /repo/demo.py: a slider that calls `polygonize` with a new pitch whenever it is moved.  The figure is
not modelled, nor is the tangent of the angle.
-/
namespace Polyskel
open Scalar

variable {S : Type} [Scalar S]

/-- `_iterCircularPrevThis`, __init__.py:22-25.  `islice` raises ValueError on the start index -1 it is
given for an empty list. -/
def iterPrevThis {α : Type} (l : List α) : Except PyErr (List (α × α)) :=
  if l.length = 0 then .error .value
  else .ok ((l.drop (l.length - 1) ++ l.take (l.length - 1)).zip l)

/-- The faces of the walls, __init__.py:75-77. -/
def wallFaces (first num : Nat) : Except PyErr (List (List Int)) := do
  let ps ← iterPrevThis (List.range num)
  return ps.map fun pt => [(pt.1 : Int), (pt.2 : Int), (pt.2 : Int) + first, (pt.1 : Int) + first]

/-- The call of `polygonize` in `add_object`, __init__.py:63-84, for any footprint.  In the code the
footprint is the constant `demoFoot`, and the two numbers `firstVertIndex` and `numVerts` are the constant
26, its length. -/
def buildingArgs (foot : List (V3 S)) (scaleZ : S) : Except PyErr (PolyArgs S) := do
  let roof := foot.map fun v => v.add (mkV3 fzero fzero (lit 5 1 *. scaleZ))
  let faces ← wallFaces foot.length foot.length
  return { verts := foot ++ roof, first := foot.length, num := foot.length, holes := none, height := fzero,
           tan := lit 6 10, faces := some faces, units := none }

/-- `add_object`, __init__.py:27-86, up to the creation of the mesh, for any footprint. -/
def building (rt : Rt) (fuel : Nat) (foot : List (V3 S)) (scaleZ : S) : Option (Except PyErr (PolyOut S)) :=
  match buildingArgs foot scaleZ with
  | .error e => some (.error e)
  | .ok a => (polygonize rt fuel a).map .ok

/-- the numbers in __init__.py:35-60, as numerator and denominator -/
def demoCoords : List ((Int × Nat) × (Int × Nat)) :=
  [((7710012435913086, 10 ^ 15), (-69630279541015625, 10 ^ 16)),
   ((8055673599243164, 10 ^ 15), (4447220325469971, 10 ^ 15)),
   ((4236260652542114, 10 ^ 16), (458079719543457, 10 ^ 14)),
   ((38295790553092957, 10 ^ 17), (50149431228637695, 10 ^ 16)),
   ((3016217052936554, 10 ^ 16), (5426825046539307, 10 ^ 15)),
   ((13217128813266754, 10 ^ 17), (581644344329834, 10 ^ 14)),
   ((-10505922883749008, 10 ^ 17), (6172665596008301, 10 ^ 15)),
   ((-40329185128211975, 10 ^ 17), (6462096691131592, 10 ^ 15)),
   ((-7557485699653625, 10 ^ 16), (67069993019104, 10 ^ 13)),
   ((-11488733291625977, 10 ^ 16), (6873978614807129, 10 ^ 15)),
   ((-15623321533203125, 10 ^ 16), (6951902389526367, 10 ^ 15)),
   ((-1989346981048584, 10 ^ 15), (6963034629821777, 10 ^ 15)),
   ((-2409583806991577, 10 ^ 15), (6885111331939697, 10 ^ 15)),
   ((-28094866275787354, 10 ^ 16), (6740396022796631, 10 ^ 15)),
   ((-31687216758728027, 10 ^ 16), (6517757415771484, 10 ^ 15)),
   ((-34805104732513428, 10 ^ 16), (6228326797485352, 10 ^ 15)),
   ((-3731297254562378, 10 ^ 15), (5883236408233643, 10 ^ 15)),
   ((-39075260162353516, 10 ^ 16), (5493618488311768, 10 ^ 15)),
   ((-4009196758270264, 10 ^ 15), (50817365646362305, 10 ^ 16)),
   ((-4049864768981934, 10 ^ 15), (4658722400665283, 10 ^ 15)),
   ((-4436212062835693, 10 ^ 15), (4680986404418945, 10 ^ 15)),
   ((-4503993988037109, 10 ^ 15), (286647891998291, 10 ^ 14)),
   ((-7865891456604004, 10 ^ 15), (27996914386749268, 10 ^ 16)),
   ((-8055685997009277, 10 ^ 15), (-32004287242889404, 10 ^ 16)),
   ((-4693784236907959, 10 ^ 15), (-32226970195770264, 10 ^ 16)),
   ((-4809013843536377, 10 ^ 15), (-6695865154266357, 10 ^ 15))]

/-- the footprint, __init__.py:34-61 -/
def demoFoot (scaleX scaleY : S) : List (V3 S) :=
  demoCoords.map fun q => mkV3 (lit q.1.1 q.1.2 *. scaleX) (lit q.2.1 q.2.2 *. scaleY) fzero

/-- `create_roof`, demo.py:54-66, for any arguments: the list `VERTS` is the one the calls before have left
behind; `math.tan(pitch * math.pi / 180)` is the argument `t`. -/
def createRoof (rt : Rt) (fuel : Nat) (a : PolyArgs S) (verts : List (V3 S)) (t : S) : Option (PolyOut S) :=
  polygonize rt fuel { a with verts := verts, tan := t }

/-- the calls of `create_roof` when the slider is moved, demo.py:78-97: one after the other, with the global
list of vertices.  (An exception is printed by the GUI, and the slider can be moved again.) -/
def slide (rt : Rt) (fuel : Nat) (a : PolyArgs S) (verts : List (V3 S)) : List S → Option (List (PolyOut S))
  | [] => some []
  | t :: ts =>
    match createRoof rt fuel a verts t with
    | none => none
    | some out => (slide rt fuel a out.verts ts).map (out :: ·)

/-- the constants, demo.py:18-46 -/
def demoArgs : PolyArgs S :=
  { verts := ([(0, 0), (10, 0), (10, 5), (45, 5), (45, 20), (10, 20), (10, 25), (0, 25),
      (5, 16), (35, 16), (35, 9), (5, 9)] : List (Int × Int)).map fun p => mkV3 (lit p.1 1) (lit p.2 1) (lit 0 1),
    first := 0, num := 8, holes := some [(8, 4)], height := fzero, tan := fzero, faces := none, units := none }

end Polyskel
