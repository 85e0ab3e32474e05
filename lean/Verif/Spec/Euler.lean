import Verif.Spec.Mesh
import Mathlib.Data.Finset.Card
import Mathlib.Data.Sym.Sym2
/-
How many vertices and edges a mesh has.  Used for C84.
-/
namespace Polyskel

/-- the number of vertices of the faces -/
def meshVertices (fs : List (List Int)) : Nat := fs.flatten.toFinset.card

/-- the number of edges of the faces, each counted once, whatever its direction, and in however many faces it is -/
def meshEdges (fs : List (List Int)) : Nat := ((meshDarts fs).map fun d => s(d.1, d.2)).toFinset.card

end Polyskel
