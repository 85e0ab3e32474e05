import Verif.Props.FirstEdge
/-
C63: does spike removal (bpypolyskel.py:1059-1137) leave the faces of a good roof alone?
-/
namespace Polyskel
open Scalar Geo

/-- C63, the part that holds: spike removal changes nothing when at no corner of a face with more than
three corners the sides meet at an angle with a cosine above 0.99 (about 8.1°).

What is missing: the same for faces that are convex; `C63_refuted` is a counterexample. -/
theorem C63_blunt_partial (verts : List (V3 ℝ)) (n : Nat) (fs : List (List Int))
    (hv : ∀ f ∈ fs, ∀ v ∈ f, 0 ≤ v ∧ v < verts.length)
    (h : ∀ f ∈ fs, 3 < f.length → ∀ (i : Nat) p t x P T X, f[i]? = some p →
      f[(i + 1) % f.length]? = some t → f[(i + 2) % f.length]? = some x →
      verts[p.toNat]? = some P → verts[t.toNat]? = some T → verts[x.toNat]? = some X →
      (P.x - T.x) * (X.x - T.x) + (P.y - T.y) * (X.y - T.y) ≤
        99 / 100 * (eucl P.xy T.xy * eucl X.xy T.xy)) :
    removeSpikes verts n fs = .ok fs := by
  have hget : ∀ f ∈ fs, ∀ v ∈ f, ∃ V, pyGet verts v = .ok V ∧ verts[v.toNat]? = some V := by
    intro f hf v hm
    obtain ⟨h0, h1⟩ := hv f hf v hm
    obtain ⟨m, rfl⟩ := Int.eq_ofNat_of_zero_le h0
    have hm' : m < verts.length := by exact_mod_cast h1
    exact ⟨_, pyGet_nat_ok.2 (List.getElem?_eq_getElem hm'), List.getElem?_eq_getElem hm'⟩
  unfold removeSpikes spikeLoop
  rw [spikePass_of_none]
  · rfl
  · intro f hf hlen i p t x ht
    have hi : i < f.length := (List.getElem?_eq_some_iff.1 ht.2.1).1
    have hk : (i + f.length - 1) % f.length < f.length := Nat.mod_lt _ (by omega)
    obtain ⟨P, hp1, hp2⟩ := hget f hf p (List.mem_of_getElem? ht.1)
    obtain ⟨T, ht1, ht2⟩ := hget f hf t (List.mem_of_getElem? ht.2.1)
    obtain ⟨X, hx1, hx2⟩ := hget f hf x (List.mem_of_getElem? ht.2.2)
    have hle := h f hf hlen ((i + f.length - 1) % f.length) p t x P T X ht.1 (by
        rw [Nat.mod_add_mod, show i + f.length - 1 + 1 = i + f.length by omega, Nat.add_mod_right,
          Nat.mod_eq_of_lt hi]
        exact ht.2.1) (by
        rw [Nat.mod_add_mod, show i + f.length - 1 + 2 = i + 1 + f.length by omega, Nat.add_mod_right]
        exact ht.2.2) hp2 ht2 hx2
    obtain ⟨b, hb1, hb2⟩ := C39_isSpike_iff verts _ _ _ P T X hp1 ht1 hx1
    rw [hb1]
    cases b with
    | false => rfl
    | true => exact absurd (hb2.1 rfl).2.2.1 (not_lt.2 hle)

/-- a square meets the hypotheses -/
example : removeSpikes ([⟨0, 0, 0⟩, ⟨4, 0, 0⟩, ⟨4, 4, 0⟩, ⟨0, 4, 0⟩] : List (V3 ℝ)) 4 [[0, 1, 2, 3]] =
    .ok [[0, 1, 2, 3]] := by
  apply C63_blunt_partial
  · simp
  · intro f hf _ i p t x P T X h1 h2 h3 h4 h5 h6
    obtain rfl : f = [0, 1, 2, 3] := by simpa using hf
    have hi : i < 4 := (List.getElem?_eq_some_iff.1 h1).1
    have hd : (P.x - T.x) * (X.x - T.x) + (P.y - T.y) * (X.y - T.y) = 0 := by
      have : i = 0 ∨ i = 1 ∨ i = 2 ∨ i = 3 := by omega
      rcases this with rfl | rfl | rfl | rfl <;> simp at h1 h2 h3 <;> subst h1 h2 h3 <;>
        simp at h4 h5 h6 <;> subst h4 h5 h6 <;> norm_num
    rw [hd]
    exact mul_nonneg (by norm_num) (mul_nonneg (Real.sqrt_nonneg _) (Real.sqrt_nonneg _))

/-- A strictly convex polygon: a house 104 m by 100 m, the front of which has three slight bends. -/
def bentFront : List (Int × Int) :=
  [(0, 0), (500, -45), (520, -46), (540, -46), (1040, -26), (1040, 1000), (0, 1000)]

/-- the points turn left everywhere -/
def turnsLeft (l : List (Int × Int)) : Bool :=
  ((l.zip (l.drop 1 ++ l.take 1)).zip (l.drop 2 ++ l.take 2)).all fun ((p, q), r) =>
    0 < (q.1 - p.1) * (r.2 - q.2) - (q.2 - p.2) * (r.1 - q.1)

/-- the faces that are found in the graph, before spike removal -/
def tracedFaces (fuel : Nat) (a : PolyArgs Soft) : Option (List (List Int)) :=
  match buildContours a with
  | .error _ => none
  | .ok (z, center, contours) =>
    match skeletonize fuel contours with
    | some (.ok sk) =>
      match tanAlpha a.height a.tan sk with
      | .error _ => none
      | .ok ta =>
        match graphDarts a contours.flatten sk with
        | .error _ => none
        | .ok ds =>
          match Graph.circularEmbedding rt0 (addEdges rt0 [] ds) (a.verts ++ sk.map (node3D center z ta)) with
          | .error _ => none
          | .ok emb =>
            match Graph.faces rt0 (addEdges rt0 [] ds) emb a.verts.length with
            | .ok fs => some fs
            | .error _ => none
    | _ => none

set_option maxHeartbeats 4000000 in
/-- C63 is false, on a strictly convex polygon of seven edges.  Tracing finds the seven faces of the
roof, one for each edge.  Then the far end of `[1, 2, 7, 8]`, which is narrow because four edges have
nearly the same direction, is taken for a spike: its neighbours get merged into one face over two
edges that are not even adjacent, and two new vertices are left without a face. -/
theorem C63_refuted : turnsLeft bentFront = true ∧
    tracedFaces 60 (simpleCall bentFront 1 1) =
      some [[6, 0, 11, 10], [5, 6, 10], [0, 1, 8, 9, 11], [1, 2, 7, 8], [2, 3, 7], [3, 4, 9, 8, 7],
        [4, 5, 10, 11, 9]] ∧
    (polygonize rt0 60 (simpleCall bentFront 1 1)).map (·.result) =
      some (.ok [[6, 0, 11, 10], [5, 6, 10], [1, 2, 7], [2, 3, 7], [4, 5, 10, 11],
        [3, 4, 11, 0, 1, 7]]) := by
  refine ⟨?_, ?_, ?_⟩ <;> decide +kernel

end Polyskel
