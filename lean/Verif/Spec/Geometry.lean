import Verif.Spec.Exact
import Verif.Model.Euclid
/-
Plane geometry over the real numbers: the notions the geometric properties are stated with.
-/
namespace Polyskel.Geo

/-- the point `p + t * v` -/
def along (p v : V2 ℝ) (t : ℝ) : V2 ℝ := ⟨p.x + t * v.x, p.y + t * v.y⟩

/-- `q` lies on the line or ray (for a ray: at a non-negative parameter) -/
def OnLin (l : Lin ℝ) (q : V2 ℝ) : Prop := ∃ t : ℝ, (l.ray = true → 0 ≤ t) ∧ q = along l.p l.v t

/-- the two directions are linearly dependent -/
def Parallel (a b : V2 ℝ) : Prop := a.x * b.y = a.y * b.x

/-- Euclidean distance -/
noncomputable def eucl (p q : V2 ℝ) : ℝ := Real.sqrt ((p.x - q.x) ^ 2 + (p.y - q.y) ^ 2)

/-- twice the signed area of the triangle -/
def area2 (A B C : V2 ℝ) : ℝ := (B.x - A.x) * (C.y - A.y) - (B.y - A.y) * (C.x - A.x)

/-- the three points lie on a common line -/
def Collinear3 (A B C : V2 ℝ) : Prop := area2 A B C = 0

/-- the point at fraction `t` of the segment `AB` -/
def between (A B : V2 ℝ) (t : ℝ) : V2 ℝ := ⟨A.x + t * (B.x - A.x), A.y + t * (B.y - A.y)⟩

/-- the open segments `AB` and `CD` have a common point -/
def Crossing (A B C D : V2 ℝ) : Prop :=
  ∃ s t : ℝ, 0 < s ∧ s < 1 ∧ 0 < t ∧ t < 1 ∧ between A B s = between C D t

/-- signed distance (for a unit direction `n`) of `q` from the line through `p` with direction
`n`; positive to the left -/
def height (p n q : V2 ℝ) : ℝ := n.x * (q.y - p.y) - n.y * (q.x - p.x)

end Polyskel.Geo
