import Verif.Model.Skel
/-
What the code offers for looking at events and the queue while debugging: `DormerEvent.__str__` and `__repr__`,
`_EventQueue.peek` and `show`, bpypolyskel.py:66-89 and 462-467.  The library itself calls none of them.  The text
is not modelled, only which events are printed and whether that raises an exception.
-/
namespace Polyskel
variable {S : Type} [Scalar S]

/-- the attributes of an event: the fields of the two named tuples (bpypolyskel.py:66, 72), and what the
constructor of `DormerEvent` sets (lines 79-82) -/
def Event.attributes : Event S → List String
  | .split _ => ["distance", "intersection_point", "vertex", "opposite_edge"]
  | .edge _ => ["distance", "intersection_point", "vertex_a", "vertex_b"]
  | .dormer .. => ["distance", "intersection_point", "eventList"]

/-- the attributes that are read to convert an event into text: all fields of a named tuple; for a dormer event those
of bpypolyskel.py:87 and 89, in this order -/
def Event.reads : Event S → List String
  | .split _ => ["distance", "intersection_point", "vertex", "opposite_edge"]
  | .edge _ => ["distance", "intersection_point", "vertex_a", "vertex_b"]
  | .dormer .. => ["id", "distance", "intersection_point"]

/-- `str(event)` and `repr(event)`, bpypolyskel.py:86-89: reading an attribute that was never set raises
AttributeError -/
def Event.str (e : Event S) : Except PyErr Unit :=
  e.reads.forM fun n => if n ∈ e.attributes then .ok () else .error .attribute

/-- `_EventQueue.peek`, bpypolyskel.py:462-463 -/
def peek (q : List (Event S)) : Except PyErr (Event S) :=
  match q[0]? with
  | some e => .ok e
  | none => .error .index

/-- `_EventQueue.show`, bpypolyskel.py:465-467: the events printed, and how it ends -/
def showQueue : List (Event S) → List (Event S) × Except PyErr Unit
  | [] => ([], .ok ())
  | e :: q =>
    match e.str with
    | .error x => ([], .error x)
    | .ok () => (e :: (showQueue q).1, (showQueue q).2)

end Polyskel
