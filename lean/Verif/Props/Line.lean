import Verif.Model.Line
import Verif.Spec.Exact
/-
C85: which forms of the constructor of `Line2` work.
-/
namespace Polyskel
open Scalar

section
variable {S : Type} [Scalar S]

/-- C85: `Line2(...)` returns a line exactly in these cases: it is given an edge, a ray or a line and nothing
else, or two vectors and `'pv'`. -/
theorem C85_iff (p1 : LineArg S) (p2 : Option (LineArg S)) (ptype : Option String) (l : Lin S) :
    Line2.new p1 p2 ptype = .ok l ↔
      (p2 = none ∧ ((∃ e, p1 = .edge e ∧ l = ⟨e.p1, V2.sub e.p2 e.p1, false⟩) ∨
        ∃ l', p1 = .lin l' ∧ l = ⟨l'.p, V2.sub (V2.add l'.p l'.v) l'.p, false⟩)) ∨
      (ptype = some "pv" ∧ ∃ p v, p1 = .vec p ∧ p2 = some (.vec v) ∧ l = ⟨p, v, false⟩) := by
  cases p2 with
  | none =>
    cases p1 <;> simp [Line2.new, LineArg.attrP1, LineArg.attrP2, bind, Except.bind, pure, Except.pure, eq_comm]
  | some q =>
    by_cases h1 : ptype = some "pp"
    · subst h1
      cases p1 <;> cases q <;> simp [Line2.new, LineArg.attrP, LineArg.minus, bind, Except.bind]
    · by_cases h2 : ptype = some "pv"
      · subst h2
        cases p1 <;> cases q <;>
          simp [Line2.new, LineArg.copy, bind, Except.bind, pure, Except.pure, eq_comm]
      · simp [Line2.new, h1, h2]

/-- C85, the form `'pp'`, which looks as if it was for the line through two points: it raises an exception
whatever it is given; AttributeError if the first argument is a point (a vector has no `p`), TypeError if it
has a `p` (then it is no vector, and cannot be subtracted). -/
theorem C85_pp (p1 p2 : LineArg S) :
    Line2.new p1 (some p2) (some "pp") =
      .error (match p1 with | .lin _ => .typeError | _ => .attribute) := by
  cases p1 <;> cases p2 <;> rfl

/-- C85: without a known `ptype` two arguments raise AttributeError -/
theorem C85_no_type (p1 p2 : LineArg S) (t : Option String) (h1 : t ≠ some "pp") (h2 : t ≠ some "pv") :
    Line2.new p1 (some p2) t = .error .attribute := by
  simp [Line2.new, h1, h2]

end

/-- C85 in exact arithmetic: the line made of an edge consists of the points `p1 + u (p2 - p1)`, so it goes
through both ends of the edge; the line made of a ray has its start and its direction, but meets other lines
also behind the start. -/
theorem C85_exact :
    (∀ e : Edge2 ℝ, ∃ l, Line2.new (.edge e) = .ok l ∧ l.p = e.p1 ∧ l.p.x + l.v.x = e.p2.x ∧
      l.p.y + l.v.y = e.p2.y ∧ ∀ u, l.intsecttest u = true) ∧
    ∀ l' : Lin ℝ, ∃ l, Line2.new (.lin l') = .ok l ∧ l.p = l'.p ∧ l.v = l'.v ∧ ∀ u, l.intsecttest u = true := by
  refine ⟨fun e => ⟨_, rfl, rfl, ?_, ?_, fun u => rfl⟩, fun l' => ⟨_, rfl, rfl, ?_, fun u => rfl⟩⟩
  · simp [V2.sub, mkV2]
  · simp [V2.sub, mkV2]
  · simp [V2.sub, V2.add, mkV2]

/-- the line through (1, 2) and (4, 6), made of an edge, and the attempt to make it with `'pp'` -/
example : (∃ l, Line2.new (.edge (Edge2.ofPoints 0 (⟨1, 2⟩ : V2 ℝ) ⟨4, 6⟩)) = .ok l ∧ l.p = ⟨1, 2⟩ ∧ l.v = ⟨3, 4⟩) ∧
    Line2.new (.vec (⟨1, 2⟩ : V2 ℝ)) (some (.vec ⟨4, 6⟩)) (some "pp") = .error .attribute := by
  refine ⟨⟨_, rfl, rfl, ?_⟩, rfl⟩
  norm_num [V2.sub, mkV2, Edge2.ofPoints]

end Polyskel
