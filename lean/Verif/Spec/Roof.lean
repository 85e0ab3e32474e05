import Verif.Model.Skel
import Verif.Spec.Geometry
import Verif.Spec.Exact
/-
The vocabulary of C60: the roof over a convex contour, all faces of which have the same slope; over
each point it is as high as the nearest edge is far.
-/
namespace Polyskel
open Scalar Geo

/-- A node of the roof: three different edges have the distance `h` from `p` (measured to the left of
the edge), and no edge has a smaller one. -/
structure RoofNode (c : List (Edge2 ℝ)) (p : V2 ℝ) (h : ℝ) : Prop where
  least : ∀ e ∈ c, h ≤ height e.p1 e.norm p
  three : ∃ e1 ∈ c, ∃ e2 ∈ c, ∃ e3 ∈ c, e1 ≠ e2 ∧ e2 ≠ e3 ∧ e1 ≠ e3 ∧
    height e1.p1 e1.norm p = h ∧ height e2.p1 e2.norm p = h ∧ height e3.p1 e3.norm p = h

/-- three different edges of `c` have the same distance `h` from some point -/
def Triple (c : List (Edge2 ℝ)) (h : ℝ) : Prop :=
  ∃ p, ∃ e1 ∈ c, ∃ e2 ∈ c, ∃ e3 ∈ c, e1 ≠ e2 ∧ e2 ≠ e3 ∧ e1 ≠ e3 ∧
    height e1.p1 e1.norm p = h ∧ height e2.p1 e2.norm p = h ∧ height e3.p1 e3.norm p = h

/-- The distances at which three edges can meet inside are equal, or a thousandth apart. -/
def Separated (c : List (Edge2 ℝ)) : Prop :=
  ∀ h h', Triple c h → Triple c h' → 0 ≤ h → h < h' → h + 1 / 1000 ≤ h'

/-- At no node of the roof more than three edges meet. -/
def OnlyThree (c : List (Edge2 ℝ)) : Prop :=
  ∀ p h, RoofNode c p h → ∃ e1 e2 e3, ∀ e ∈ c, height e.p1 e.norm p = h → e = e1 ∨ e = e2 ∨ e = e3

/-- Different nodes of the roof are at least a tenth apart (in the Manhattan metric). -/
def NodesApart (c : List (Edge2 ℝ)) : Prop :=
  ∀ p h p' h', RoofNode c p h → RoofNode c p' h' → p ≠ p' → 1 / 10 ≤ |p.x - p'.x| + |p.y - p'.y|

/-- A blunt polygon: no three edges have nearly the same direction (of any three, two have directions
with a cosine of at most 0.96, about 16°), and no corner is sharper than about 16°. -/
def Blunt (c : List (Edge2 ℝ)) : Prop :=
  (∀ e ∈ c, ∀ f ∈ c, ∀ g ∈ c, e ≠ f → f ≠ g → e ≠ g →
    e.norm.x * f.norm.x + e.norm.y * f.norm.y ≤ 24 / 25 ∨
    f.norm.x * g.norm.x + f.norm.y * g.norm.y ≤ 24 / 25 ∨
    e.norm.x * g.norm.x + e.norm.y * g.norm.y ≤ 24 / 25) ∧
  ∀ e ∈ c, ∀ f ∈ c, e.p2 = f.p1 → -(24 / 25) ≤ e.norm.x * f.norm.x + e.norm.y * f.norm.y

/-- the same edge, moved by `t` -/
def moveEdge (t : V2 ℝ) (e : Edge2 ℝ) : Edge2 ℝ :=
  { e with p1 := ⟨e.p1.x + t.x, e.p1.y + t.y⟩, p2 := ⟨e.p2.x + t.x, e.p2.y + t.y⟩ }

/-- The sides of the polygon with the `n` vertices `P`, the first of which has the index `first`. -/
noncomputable def sides (first n : Nat) (P : Nat → V2 ℝ) : List (Edge2 ℝ) :=
  (List.range n).map (fun k =>
    { oid := k, i1 := first + k, i2 := first + (k + 1) % n, p1 := P k, p2 := P ((k + 1) % n),
      norm := ⟨((P ((k + 1) % n)).x - (P k).x) / eucl (P k) (P ((k + 1) % n)),
        ((P ((k + 1) % n)).y - (P k).y) / eucl (P k) (P ((k + 1) % n))⟩ })

/-- A point on a ridge of the roof: two different edges have the same distance from it, and no edge
has a smaller one. -/
def RidgePoint (c : List (Edge2 ℝ)) (p : V2 ℝ) : Prop :=
  ∃ e ∈ c, ∃ f ∈ c, e ≠ f ∧ height e.p1 e.norm p = height f.p1 f.norm p ∧
    ∀ g ∈ c, height e.p1 e.norm p ≤ height g.p1 g.norm p

/-- the point that divides the way from `p` to `q` at `u` -/
def between (p q : V2 ℝ) (u : ℝ) : V2 ℝ := ⟨p.x + u * (q.x - p.x), p.y + u * (q.y - p.y)⟩

/-- The source of the arc is a node of the roof, at its height; the lines to its sinks are on ridges. -/
structure RoofArc (c : List (Edge2 ℝ)) (a : Subtree ℝ) : Prop where
  node : RoofNode c a.source a.height
  ridge : ∀ s ∈ a.sinks, ∀ u, 0 ≤ u → u ≤ 1 → RidgePoint c (between a.source s u)

variable {S : Type} [Scalar S]

/-- the event is not ignored when its turn comes now: the vertices that are looked at are valid -/
def Live (st : St S) : Event S → Prop
  | .edge e => ∃ va vb, st.vs[e.a]? = some va ∧ st.vs[e.b]? = some vb ∧ va.valid = true ∧
      vb.valid = true
  | .split e => ∃ v, st.vs[e.vertex]? = some v ∧ v.valid = true
  | .dormer _ _ e0 e1 _ => ∃ v0 v1, st.vs[e0.vertex]? = some v0 ∧ st.vs[e1.vertex]? = some v1 ∧
      v0.valid = true ∧ v1.valid = true

/-- the events of a batch, each with the state of the loop when its turn comes -/
def batchTurns : Loop S → List (Event S) → List (Loop S × Event S)
  | _, [] => []
  | lp, e :: es => (lp, e) :: match stepEvent lp e with
    | .ok lp => batchTurns lp es
    | .error _ => []

/-- the events of the first `k` batches of the main loop, each with the state of the loop when its
turn comes -/
def turns : Nat → Loop S → List (Loop S × Event S)
  | 0, _ => []
  | k + 1, lp =>
    if lp.queue.isEmpty || lp.st.slav.isEmpty then [] else
      match getAllEqualDistance lp.queue with
      | none => []
      | some (batch, q) =>
        batchTurns { lp with queue := q } batch ++
          match stepBatch { lp with queue := q } batch with
          | .ok lp => turns k lp
          | .error _ => []

/-- Nobody jumps the queue: when it is the turn of an event that is not ignored, the queue does not
contain another one, not to be ignored either, that is nearer.  (The events of a batch were taken from
the queue together, up to a thousandth apart; an event found meanwhile may be nearer than those that
are still to be handled.) -/
def InOrder (k : Nat) (lp : Loop ℝ) : Prop :=
  ∀ a ∈ turns k lp, Live a.1.st a.2 → ∀ e ∈ a.1.queue, Live a.1.st e → a.2.dist ≤ e.dist

end Polyskel
