import Verif.Props.AptRefuted

/-!
C59: does the event loop consume the whole wavefront?  `while not (len(prioque) == 0 or
slav.empty())` (bpypolyskel.py:826) stops when the queue is empty even if there are LAVs left, and
that happens.
-/

namespace Polyskel

/-- the number of LAVs left, the number of their vertices, of events left in the queue and of arcs
emitted when the event loop has ended -/
def atEnd (k : Nat) (cs : List (List (Edge2 Soft))) : Option (Nat × Nat × Nat × Nat) :=
  match startLoop cs with
  | .error _ => none
  | .ok lp => match mainLoop k lp with
    | some (.ok lp') => some (lp'.st.slav.length,
        (lp'.st.slav.map (fun l => (lp'.st.lavs[l]?.map (·.len)).getD 0)).sum,
        lp'.queue.length, lp'.out.length)
    | _ => none

/-- a beam with another one meeting it in its middle: eight edges, all corners right angles -/
def tee : List (Int × Int) := [(2, 0), (3, 0), (3, 5), (2, 5), (2, 3), (0, 3), (0, 2), (2, 2)]

/-- a hexagon with corners on a circle of radius 10 up to a millimetre -/
def nearHexagon : List (Int × Int) :=
  [(10001, 0), (5000, 8660), (-4999, 8660), (-9999, 0), (-5000, -8659), (5000, -8660)]

/-- C59 is false: for the T-shaped polygon the event loop stops with a LAV of two vertices left over;
no event has been found for them. -/
theorem C59_tee_refuted : ∃ lp lp', startLoop [ringEdges tee] = .ok lp ∧
    mainLoop 60 lp = some (.ok lp') ∧ lp'.queue = [] ∧ lp'.st.slav ≠ [] := by
  have h : (match startLoop [ringEdges tee] with
      | .error _ => false
      | .ok lp => match mainLoop 60 lp with
        | some (.ok lp') => lp'.queue.isEmpty && !lp'.st.slav.isEmpty
        | _ => false) = true := by decide +kernel
  split at h
  · cases h
  · rename_i lp hs
    split at h
    · rename_i lp' hl
      rw [Bool.and_eq_true] at h
      exact ⟨lp, lp', hs, hl, List.isEmpty_iff.1 h.1, fun e => by rw [e] at h; simp at h⟩
    · cases h

/-- C59: and this is not repaired later.  The roof for the T-shaped polygon with its eight edges has
six faces; the first of them covers three edges of the polygon. -/
theorem C59_tee_faces : (polygonize rt0 60 (simpleCall tee 1 1)).map (·.result) =
    some (.ok [[7, 0, 8, 1, 2, 9, 3, 4, 11], [6, 7, 11, 10], [0, 1, 8], [2, 3, 9], [4, 5, 10, 11],
      [5, 6, 10]]) := by
  decide +kernel

/-- C59 is false for convex polygons too: the near-regular hexagon leaves a LAV of three vertices. -/
theorem C59_convex_refuted : ∃ lp lp', startLoop [milliEdges nearHexagon] = .ok lp ∧
    mainLoop 60 lp = some (.ok lp') ∧ lp'.queue = [] ∧ lp'.st.slav ≠ [] := by
  have h : (match startLoop [milliEdges nearHexagon] with
      | .error _ => false
      | .ok lp => match mainLoop 60 lp with
        | some (.ok lp') => lp'.queue.isEmpty && !lp'.st.slav.isEmpty
        | _ => false) = true := by decide +kernel
  split at h
  · cases h
  · rename_i lp hs
    split at h
    · rename_i lp' hl
      rw [Bool.and_eq_true] at h
      exact ⟨lp, lp', hs, hl, List.isEmpty_iff.1 h.1, fun e => by rw [e] at h; simp at h⟩
    · cases h

/-- the figures of the two runs: one LAV left, of two and of three vertices, four and three arcs -/
example : atEnd 60 [ringEdges tee] = some (1, 2, 0, 4) ∧
    atEnd 60 [milliEdges nearHexagon] = some (1, 3, 0, 3) := by decide +kernel

/-- a polygon that is consumed: nothing left for a 9 x 5 rectangle -/
example : atEnd 60 [ringEdges [(0, 0), (9, 0), (9, 5), (0, 5)]] = some (0, 0, 1, 2) := by
  decide +kernel

end Polyskel
