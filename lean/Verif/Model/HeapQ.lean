/-
Model of the parts of CPython's `heapq` that `_EventQueue` uses (bpypolyskel.py:435-467).
The heap is a list; `lt` is the elements' `__lt__`.
-/
namespace Polyskel.HeapQ

variable {α : Type}

/-- exchange the elements at two positions -/
def swap (h : List α) (i j : Nat) : List α :=
  match h[i]?, h[j]? with
  | some a, some b => (h.set i b).set j a
  | _, _ => h

/-- `heapq._siftdown(heap, 0, pos)`: move the element at `pos` towards the root while it is
smaller than its parent.  CPython keeps the moving element aside and writes it once at the
end; exchanging it step by step gives the same list.  Fuel: `pos` at least halves. -/
def siftdown (lt : α → α → Bool) : Nat → List α → Nat → List α
  | 0, h, _ => h
  | k + 1, h, pos =>
    if pos = 0 then h
    else
      let parent := (pos - 1) / 2
      match h[pos]?, h[parent]? with
      | some x, some p => if lt x p then siftdown lt k (swap h pos parent) parent else h
      | _, _ => h

/-- the position of the smaller one of the children at `child` and `child + 1` in
`heapq._siftup`; `not heap[child] < heap[right]` selects the right one. -/
def smallerChild (lt : α → α → Bool) (h : List α) (child : Nat) (c : α) : Nat :=
  match h[child + 1]? with
  | some r => if lt c r then child else child + 1
  | none => child

/-- the first loop of `heapq._siftup(heap, 0)`: bubble the smaller child up until a leaf is
reached; returns the list and the leaf position. -/
def siftupLeaf (lt : α → α → Bool) : Nat → List α → Nat → List α × Nat
  | 0, h, pos => (h, pos)
  | k + 1, h, pos =>
    let child := 2 * pos + 1
    match h[child]? with
    | none => (h, pos)
    | some c =>
      let best := smallerChild lt h child c
      siftupLeaf lt k (swap h pos best) best

/-- `heapq.heappush(heap, item)` -/
def push (lt : α → α → Bool) (h : List α) (x : α) : List α :=
  siftdown lt (h.length + 1) (h ++ [x]) h.length

/-- `heapq.heappop(heap)`; `none` is the IndexError on an empty heap -/
def pop (lt : α → α → Bool) (h : List α) : Option (α × List α) :=
  match h.getLast? with
  | none => none
  | some last =>
    let rest := h.dropLast
    match rest with
    | [] => some (last, [])
    | top :: _ =>
      let r := siftupLeaf lt (rest.length + 1) (rest.set 0 last) 0
      some (top, siftdown lt (rest.length + 1) r.1 r.2)

end Polyskel.HeapQ
