/-
Numbers, vectors and exceptions.

The repository computes with Python floats (IEEE doubles) and with `mathutils.Vector`
(components stored as 32-bit floats).  Neither Python nor mathutils is part of the
repository, so both are parameters of the model: the class `Scalar` lists the operations
the code uses and imposes NO law on them.  Every theorem that does not mention a concrete
scalar type or an extra hypothesis therefore holds for IEEE arithmetic, rounding, NaN and
all, as well as for exact arithmetic.
-/
namespace Polyskel

/-- Python exceptions, as values.  Only the exceptions the modelled code can raise. -/
inductive PyErr where
  | zeroDivision        -- ZeroDivisionError
  | value               -- ValueError (list.remove, list.index, islice, max of empty)
  | index               -- IndexError
  | attribute           -- AttributeError on None
  | typeError           -- TypeError: None is not iterable, or operands of `-` that are no vectors
  | assertion           -- AssertionError
  | runtime             -- RuntimeError raised by _LAV.__iter__
  | stopIteration       -- StopIteration escaping from next(..)
  | endlessFaces        -- Exception('Endless loop catched in poly2FacesGraph faces()')
  | endlessSpike        -- Exception('Endless loop in spike removal')
  | dangling            -- not a Python exception: reading a heap cell that does not exist
  | fuel                -- not a Python exception: a loop ran out of its fuel bound
  deriving DecidableEq, Repr, Inhabited

/-- The floating-point operations used by bpyeuclid.py, poly2FacesGraph.py and
bpypolyskel.py.  No laws. -/
class Scalar (S : Type) where
  add : S → S → S
  sub : S → S → S
  mul : S → S → S
  /-- the raw quotient; Python's `/` additionally raises on zero, see `pydiv` -/
  div : S → S → S
  neg : S → S
  abs : S → S
  sqrt : S → S
  /-- Python `<` -/
  lt : S → S → Bool
  /-- Python `<=` -/
  le : S → S → Bool
  /-- Python float `==` -/
  eq : S → S → Bool
  /-- rounding when a number is stored in a mathutils.Vector (C float) -/
  rnd : S → S
  /-- component comparison used by `mathutils.Vector.__eq__` -/
  feq : S → S → Bool
  /-- the literal `num/den` -/
  lit : Int → Nat → S

infixl:65 " +. " => Scalar.add
infixl:65 " -. " => Scalar.sub
infixl:70 " *. " => Scalar.mul
infixl:70 " /. " => Scalar.div
infix:50 " <. " => Scalar.lt
infix:50 " <=. " => Scalar.le
infix:50 " ==. " => Scalar.eq

open Scalar

variable {S : Type} [Scalar S]

/-- the float literal 0.0 -/
def fzero : S := lit 0 1
/-- the float literal 1.0 -/
def fone : S := lit 1 1
/-- `EPSILON = 0.00001`, bpypolyskel.py:35 (and poly2FacesGraph.py:4) -/
def EPSILON : S := lit 1 100000
/-- `PARALLEL = 0.01`, bpypolyskel.py:36 -/
def PARALLEL : S := lit 1 100

/-- Python `a / b` on floats: raises ZeroDivisionError when `b == 0.0`. -/
def pydiv (a b : S) : Except PyErr S :=
  if b ==. fzero then .error .zeroDivision else .ok (a /. b)

/-- Python `min(a, b)` on two floats (the first one unless the second is smaller). -/
def pymin (a b : S) : S := if b <. a then b else a
/-- Python `max(a, b)` on two floats (the first one unless the second is larger). -/
def pymax (a b : S) : S := if a <. b then b else a

/-- `mathutils.Vector` with two components. -/
structure V2 (S : Type) where
  x : S
  y : S
  deriving DecidableEq, Repr, Inhabited

/-- `mathutils.Vector` with three components. -/
structure V3 (S : Type) where
  x : S
  y : S
  z : S
  deriving DecidableEq, Repr, Inhabited

/-- `mathutils.Vector((x, y))` -/
def mkV2 (x y : S) : V2 S := ⟨rnd x, rnd y⟩
/-- `mathutils.Vector((x, y, z))` -/
def mkV3 (x y z : S) : V3 S := ⟨rnd x, rnd y, rnd z⟩

namespace V2
/-- `a + b` -/
def add (a b : V2 S) : V2 S := ⟨rnd (a.x +. b.x), rnd (a.y +. b.y)⟩
/-- `a - b` -/
def sub (a b : V2 S) : V2 S := ⟨rnd (a.x -. b.x), rnd (a.y -. b.y)⟩
/-- `-a` -/
def neg (a : V2 S) : V2 S := ⟨Scalar.neg a.x, Scalar.neg a.y⟩
/-- `a * k` with a float (or int) `k` -/
def smul (a : V2 S) (k : S) : V2 S := ⟨rnd (a.x *. rnd k), rnd (a.y *. rnd k)⟩
/-- `a.dot(b)` (accumulated in double precision) -/
def dot (a b : V2 S) : S := a.x *. b.x +. a.y *. b.y
/-- `a.cross(b)` of two 2D vectors (a float, computed in single precision) -/
def cross (a b : V2 S) : S := rnd (rnd (a.x *. b.y) -. rnd (a.y *. b.x))
/-- `a.length_squared` -/
def lengthSq (a : V2 S) : S := dot a a
/-- `a.length`, `a.magnitude` -/
def length (a : V2 S) : S := sqrt (dot a a)
/-- `a.normalized()`; mathutils yields the zero vector when the squared length is not
greater than 1e-35 -/
def normalized (a : V2 S) : V2 S :=
  if lit 1 (10 ^ 35) <. dot a a then
    let inv := rnd (fone /. rnd (sqrt (dot a a)))
    ⟨rnd (a.x *. inv), rnd (a.y *. inv)⟩
  else ⟨fzero, fzero⟩
/-- `a == b` on vectors (component comparison with mathutils' tolerance) -/
def veq (a b : V2 S) : Bool := feq a.x b.x && feq a.y b.y
/-- equality of the tuples `tuple(i for i in a)` used as dictionary keys -/
def teq (a b : V2 S) : Bool := (a.x ==. b.x) && (a.y ==. b.y)
/-- `s in lst` for a vector and a list of vectors -/
def mem (s : V2 S) (l : List (V2 S)) : Bool := l.any (fun t => veq t s)
end V2

namespace V3
/-- `a + b` -/
def add (a b : V3 S) : V3 S := ⟨rnd (a.x +. b.x), rnd (a.y +. b.y), rnd (a.z +. b.z)⟩
/-- `a - b` -/
def sub (a b : V3 S) : V3 S := ⟨rnd (a.x -. b.x), rnd (a.y -. b.y), rnd (a.z -. b.z)⟩
/-- `a /= n` (mathutils raises ZeroDivisionError when the divisor is zero) -/
def divBy (a : V3 S) (k : S) : Except PyErr (V3 S) :=
  if k ==. fzero then .error .zeroDivision
  else .ok ⟨rnd (a.x /. rnd k), rnd (a.y /. rnd k), rnd (a.z /. rnd k)⟩
/-- `a.xy`, and `Vector((a[0], a[1]))` -/
def xy (a : V3 S) : V2 S := ⟨a.x, a.y⟩
end V3

/-- `list.remove(x)` on a list of vectors: drops the first element equal to `x`,
ValueError when there is none. -/
def vremove (l : List (V2 S)) (s : V2 S) : Except PyErr (List (V2 S)) :=
  match l with
  | [] => .error .value
  | t :: ts => if V2.veq t s then .ok ts else do
      let r ← vremove ts s
      return t :: r

/-- `list.remove(x)` on a list with decidable equality. -/
def pyRemove {α : Type} [DecidableEq α] (l : List α) (a : α) : Except PyErr (List α) :=
  if a ∈ l then .ok (l.erase a) else .error .value

/-- Python indexing `l[i]` with an int (negative indices count from the end). -/
def pyGet {α : Type} (l : List α) (i : Int) : Except PyErr α :=
  let j : Int := if i < 0 then i + l.length else i
  if j < 0 then .error .index
  else match l[j.toNat]? with
    | some a => .ok a
    | none => .error .index

/-- `itertools.combinations(l, 2)` in the order Python produces it. -/
def pairs {α : Type} : List α → List (α × α)
  | [] => []
  | a :: l => l.map (fun b => (a, b)) ++ pairs l

/-- `_iterCircularPrevNext`, bpypolyskel.py:46-49.  `islice` raises ValueError on the
start index -1 it is given for an empty list. -/
def iterPrevNext {α : Type} (l : List α) : Except PyErr (List (α × α)) :=
  if l.length = 0 then .error .value
  else .ok ((l.drop (l.length - 1) ++ l.take (l.length - 1)).zip l)

/-- `_iterCircularPrevThisNext`, bpypolyskel.py:51-55. -/
def iterPrevThisNext {α : Type} (l : List α) : Except PyErr (List (α × α × α)) :=
  if l.length = 0 then .error .value
  else .ok ((l.drop (l.length - 1) ++ l.take (l.length - 1)).zip
        (l.zip (l.drop 1 ++ l.take 1)))

/-- `_approximately_equals`, bpypolyskel.py:57-58. -/
def approximatelyEquals (a b : V2 S) : Bool :=
  V2.veq a b || (V2.length (V2.sub a b) <=. pymax (V2.length a) (V2.length b) *. lit 1 1000)

/-- `robustFloatEqual`, bpypolyskel.py:60-64. -/
def robustFloatEqual (f1 f2 : S) : Bool :=
  if abs (f1 -. f2) <=. EPSILON then true
  else abs (f1 -. f2) <=. EPSILON *. pymax (abs f1) (abs f2)

end Polyskel
