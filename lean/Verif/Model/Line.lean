import Verif.Model.Euclid
/-
The constructor of `Line2` with all its forms, bpyeuclid.py:71-82.
-/
namespace Polyskel
open Scalar
variable {S : Type} [Scalar S]

/-- what may be passed to `Line2`: a `mathutils.Vector`, an `Edge2`, or a `Ray2` or `Line2` -/
inductive LineArg (S : Type) where
  | vec (p : V2 S)
  | edge (e : Edge2 S)
  | lin (l : Lin S)
  deriving Repr

/-- the attribute `p1` (set in bpyeuclid.py:45, 60 and 81); a vector has none -/
def LineArg.attrP1 : LineArg S → Except PyErr (V2 S)
  | .vec _ => .error .attribute
  | .edge e => .ok e.p1
  | .lin l => .ok l.p

/-- the attribute `p2` (bpyeuclid.py:46, 61, 82) -/
def LineArg.attrP2 : LineArg S → Except PyErr (V2 S)
  | .vec _ => .error .attribute
  | .edge e => .ok e.p2
  | .lin l => .ok (V2.add l.p l.v)

/-- the attribute `p` (bpyeuclid.py:59, 73-79); a vector and an edge have none -/
def LineArg.attrP : LineArg S → Except PyErr (V2 S)
  | .vec _ => .error .attribute
  | .edge _ => .error .attribute
  | .lin l => .ok l.p

/-- `x.copy()`: of these only a vector has it -/
def LineArg.copy : LineArg S → Except PyErr (V2 S)
  | .vec p => .ok p
  | .edge _ => .error .attribute
  | .lin _ => .error .attribute

/-- `x - y`: only vectors can be subtracted -/
def LineArg.minus : LineArg S → LineArg S → Except PyErr (V2 S)
  | .vec p, .vec q => .ok (V2.sub p q)
  | _, _ => .error .typeError

/-- `Line2.__init__`, bpyeuclid.py:71-82.  If `p2` is given and `ptype` is neither `'pp'` nor `'pv'`, nothing
sets `self.p`, and line 81 raises AttributeError. -/
def Line2.new (p1 : LineArg S) (p2 : Option (LineArg S) := none) (ptype : Option String := none) :
    Except PyErr (Lin S) := do
  match p2 with
  | none =>
    let p ← p1.attrP1
    let q ← p1.attrP2
    return ⟨p, V2.sub q p, false⟩
  | some p2 =>
    if ptype = some "pp" then
      let p ← p1.attrP
      let v ← p2.minus p1
      return ⟨p, v, false⟩
    else if ptype = some "pv" then
      let p ← p1.copy
      let v ← p2.copy
      return ⟨p, v, false⟩
    else .error .attribute

end Polyskel
