import Mathlib.Logic.Relation
import Verif.Model.Skel
import Verif.Spec.Wavefront
/-
The vocabulary of C25: closed wavefronts, and the moments of a run of skeletonize().
-/
namespace Polyskel
open Scalar
variable {S : Type} [Scalar S]

/-- The wavefront is a set of disjoint circular doubly linked lists. -/
structure ClosedLoops (st : St S) : Prop where
  /-- no LAV is active twice -/
  distinct : st.slav.Nodup
  /-- From the head of an active LAV, `next` leads through different vertices back to the head, and
  `prev` leads the same way back; these are the vertices whose LAV it is; there are at least three
  of them, and their number is the recorded length. -/
  ring : ∀ l ∈ st.slav, ∃ o vs, st.lavs[l]? = some o ∧ Ring st o.head vs ∧
    (vs ++ [o.head]).IsChain (Link st) ∧ 3 ≤ vs.length ∧ o.len = vs.length ∧
    ∀ i : Nat, i ∈ vs ↔ ∃ v, st.vs[i]? = some v ∧ v.lav = some l
  /-- the valid vertices are those of the active LAVs -/
  valid : ∀ (i : Nat) (v : Vtx S), st.vs[i]? = some v → (v.valid = true ↔ ∃ l ∈ st.slav, v.lav = some l)
  /-- the others belong to no LAV at all -/
  invalid : ∀ (i : Nat) (v : Vtx S), st.vs[i]? = some v → v.valid = false → v.lav = none

/-- The event concerns the wavefront as it is now: the two vertices of an edge event are
neighbours; the vertices of a dormer event are the first and the last of four in a row, in a LAV
with three others at least.  There is no condition on split events, nor on events that are ignored
because a vertex is not valid any more. -/
def Apt (st : St S) : Event S → Prop
  | .edge e => ∀ va vb, st.vs[e.a]? = some va → st.vs[e.b]? = some vb → va.valid = true →
      vb.valid = true → Link st e.a e.b
  | .split _ => True
  | .dormer _ _ e0 e1 _ => ∀ v0 v1, st.vs[e0.vertex]? = some v0 → st.vs[e1.vertex]? = some v1 →
      v0.valid = true → v1.valid = true →
      (∃ x y, Link st e0.vertex x ∧ Link st x y ∧ Link st y e1.vertex) ∧
      ∃ l o, v0.lav = some l ∧ st.lavs[l]? = some o ∧ 7 ≤ o.len

/-- the vertices of the event exist -/
def Known (st : St S) : Event S → Prop
  | .edge e => e.a < st.vs.length ∧ e.b < st.vs.length
  | .split e => e.vertex < st.vs.length
  | .dormer _ _ e0 e1 e2 => e0.vertex < st.vs.length ∧ e1.vertex < st.vs.length ∧
      e2.a < st.vs.length ∧ e2.b < st.vs.length

/-- checks `Apt` for edge and split events -/
def aptB (st : St S) : Event S → Bool
  | .edge e => match st.vs[e.a]?, st.vs[e.b]? with
    | some va, some vb => !va.valid || !vb.valid || (va.next == e.b && vb.prev == e.a)
    | _, _ => true
  | .split _ => true
  | .dormer .. => false

theorem apt_of_aptB {st : St S} {ev : Event S} (h : aptB st ev = true) : Apt st ev := by
  cases ev with
  | edge e =>
    intro va vb ha hb h1 h2
    simp only [aptB, ha, hb, h1, h2, Bool.not_true, Bool.false_or, Bool.and_eq_true,
      beq_iff_eq] at h
    exact ⟨⟨va, ha, h.1⟩, vb, hb, h.2⟩
  | split e => trivial
  | dormer => cases h

/-- the events of a batch, each with the heap at the moment when its turn comes -/
def batchMoments : Loop S → List (Event S) → List (St S × Event S)
  | _, [] => []
  | lp, e :: es => (lp.st, e) :: match stepEvent lp e with
    | .ok lp => batchMoments lp es
    | .error _ => []

/-- the events of the first `k` batches of the main loop, each with the heap at that moment -/
def moments : Nat → Loop S → List (St S × Event S)
  | 0, _ => []
  | k + 1, lp =>
    if lp.queue.isEmpty || lp.st.slav.isEmpty then [] else
      match getAllEqualDistance lp.queue with
      | none => []
      | some (batch, q) =>
        batchMoments { lp with queue := q } batch ++
          match stepBatch { lp with queue := q } batch with
          | .ok lp => moments k lp
          | .error _ => []

/-- The event is an edge event that is not ignored and does not end a loop, and which turns two
convex vertices into a reflex one: the vertex that replaces them is reflex when the cross product
of the bisectors of the second and the first is positive. -/
def Birth (st : St S) (ev : Event S) : Prop :=
  ∃ e va vb, ev = .edge e ∧ st.vs[e.a]? = some va ∧ st.vs[e.b]? = some vb ∧ va.valid = true ∧
    vb.valid = true ∧ va.prev ≠ vb.next ∧ va.reflex = false ∧ vb.reflex = false ∧
    (fzero <. V2.cross (V2.normalized vb.bisector.v) (V2.normalized va.bisector.v)) = true

/-- The event is an edge event of a vertex with itself. -/
def SelfMerge (ev : Event S) : Prop := ∃ e, ev = .edge e ∧ e.a = e.b

open Classical in
/-- the number of moments with a birth or an edge event of a vertex with itself -/
noncomputable def setbacks (ms : List (St S × Event S)) : Nat :=
  ms.countP (fun p => decide (Birth p.1 p.2 ∨ SelfMerge p.2))

/-- The event is a split event that is not ignored, and the pair of neighbours that it finds belongs
to another LAV than its vertex. -/
def JoinsLoops (st : St S) (ev : Event S) : Prop :=
  ∃ e v x y vx, ev = .split e ∧ st.vs[e.vertex]? = some v ∧ v.valid = true ∧
    splitSearch st e st.slav = .ok (some (x, y)) ∧ st.vs[x]? = some vx ∧ vx.lav ≠ v.lav

/-- The event is a dormer event that is not ignored. -/
def Dormers (st : St S) (ev : Event S) : Prop :=
  ∃ d p e0 e1 e2 v0 v1, ev = .dormer d p e0 e1 e2 ∧ st.vs[e0.vertex]? = some v0 ∧
    st.vs[e1.vertex]? = some v1 ∧ v0.valid = true ∧ v1.valid = true

open Classical in
/-- the number of moments with a split that joins two loops -/
noncomputable def joins (ms : List (St S × Event S)) : Nat :=
  ms.countP (fun p => decide (JoinsLoops p.1 p.2))

open Classical in
/-- the number of moments with a dormer event that is not ignored -/
noncomputable def dormers (ms : List (St S × Event S)) : Nat :=
  ms.countP (fun p => decide (Dormers p.1 p.2))

/-- A dormer event that is not ignored has its four vertices in a row: the two vertices of its edge
event lie between the two of its split events. -/
def Fits (st : St S) (ev : Event S) : Prop :=
  ∀ d p e0 e1 e2 v0 v1, ev = .dormer d p e0 e1 e2 → st.vs[e0.vertex]? = some v0 →
    st.vs[e1.vertex]? = some v1 → v0.valid = true → v1.valid = true →
    Link st e0.vertex e2.a ∧ Link st e2.a e2.b ∧ Link st e2.b e1.vertex

/-- Two points are connected by arcs of the skeleton, each of which leads from the source of a node
to one of its sinks. -/
def Connected (out : List (Subtree S)) : V2 S → V2 S → Prop :=
  Relation.EqvGen (fun p q => ∃ a ∈ out, p = a.source ∧ q ∈ a.sinks)

/-- Neighbours of the wavefront share an edge: the edge after a valid vertex is the edge before the
next vertex. -/
def SharedEdges (st : St S) : Prop :=
  ∀ (i : Nat) (v w : Vtx S), st.vs[i]? = some v → v.valid = true → st.vs[v.next]? = some w →
    v.edgeNext = w.edgePrev

/-- No two edges have, up to the tolerance, the same start and the same direction. -/
def DistinctEdges (E : List (Edge2 S)) : Prop :=
  ∀ e ∈ E, ∀ e' ∈ E, V2.veq e.norm e'.norm = true → V2.veq e.p1 e'.p1 = true → e = e'

/-- checks `DistinctEdges` for edges with different identities -/
def distinctB : List (Edge2 S) → Bool
  | [] => true
  | e :: es => es.all (fun e' => !(V2.veq e.norm e'.norm && V2.veq e.p1 e'.p1) &&
      !(V2.veq e'.norm e.norm && V2.veq e'.p1 e.p1)) && distinctB es

theorem distinct_of_distinctB {E : List (Edge2 S)} (h : distinctB E = true) : DistinctEdges E := by
  induction E with
  | nil => intro e he; simp at he
  | cons a E ih =>
    simp only [distinctB, Bool.and_eq_true, List.all_eq_true, Bool.not_eq_true',
      Bool.and_eq_false_iff] at h
    intro e he e' he' h1 h2
    rcases List.mem_cons.1 he with q | q <;> rcases List.mem_cons.1 he' with q' | q'
    · rw [q, q']
    · subst q
      rcases (h.1 e' q').1 with h | h
      · rw [h1] at h; cases h
      · rw [h2] at h; cases h
    · subst q'
      rcases (h.1 e q).2 with h | h
      · rw [h1] at h; cases h
      · rw [h2] at h; cases h
    · exact ih h.2 e q e' q' h1 h2

end Polyskel
