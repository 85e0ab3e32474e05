import Verif.Proofs.SafeFaces
import Verif.Spec.Samples
/-
C77: the exceptions a call of `polygonize` can end with, for every numeric behaviour, every runtime and
all arguments.
-/
namespace Polyskel
open Scalar Graph
set_option linter.unusedSectionVars false
variable {S : Type} [Scalar S]

theorem contourDarts_ok {first num : Nat} (h : 0 < num) : ∃ d, contourDarts first num = .ok d := by
  unfold contourDarts iterPrevNext
  rw [if_neg (by simp; omega)]
  exact ⟨_, rfl⟩

theorem holeDarts_ok {hs : List (Nat × Nat)} (h : ∀ f ∈ hs, 0 < f.2) : ∃ d, holeDarts hs = .ok d := by
  induction hs with
  | nil => exact ⟨[], rfl⟩
  | cons f hs ih =>
    obtain ⟨x, y⟩ := f
    obtain ⟨d1, h1⟩ := contourDarts_ok (first := x) (h (x, y) (by simp))
    obtain ⟨d2, h2⟩ := ih fun f hf => h f (by simp [hf])
    exact ⟨d1 ++ d2, by unfold holeDarts; rw [h1, ok_bind, h2]; rfl⟩

theorem contours_pos {a : PolyArgs S} {z : S} {c : V3 S} {cs : List (List (Edge2 S))}
    (h : buildContours a = .ok (z, c, cs)) :
    (∀ f ∈ (a.first, a.num) :: a.holes.getD [], 0 < f.2) ∧ (∀ e ∈ cs, e ≠ []) ∧ cs ≠ [] := by
  have hf := (C52_contours a z c cs h).1
  refine ⟨?_, ?_, ?_⟩
  · intro f hm
    obtain ⟨_, -, h1, -⟩ := forall₂_mem_left hf hm
    exact h1
  · intro e he hn
    obtain ⟨f, -, h1, h2⟩ := forall₂_mem_right hf he
    rw [hn] at h2
    simp at h2
    omega
  · rintro rfl
    cases hf

/-- what may be raised while the faces are built -/
theorem facesOf_error {rt : Rt} {a : PolyArgs S} {z : S} {c : V3 S} {cs : List (List (Edge2 S))}
    (hb : buildContours a = .ok (z, c, cs)) {sk : List (Subtree S)} {new : List (V3 S)}
    (hl : new.length = sk.length) {e : PyErr}
    (he : facesOf rt a cs.flatten sk (a.verts ++ new) = .error e) : SpikeErr e ∨ e = .endlessFaces := by
  obtain ⟨hpos, -, -⟩ := contours_pos hb
  have hds : ∃ ds, graphDarts a cs.flatten sk = .ok ds := by
    obtain ⟨d1, h1⟩ := contourDarts_ok (first := a.first) (hpos (a.first, a.num) (by simp))
    obtain ⟨d2, h2⟩ := holeDarts_ok (hs := a.holes.getD []) fun f hf => hpos f (by simp [hf])
    unfold graphDarts
    rw [h1, ok_bind, h2]
    exact ⟨_, rfl⟩
  obtain ⟨ds, hds⟩ := hds
  have hV : 0 < (a.verts ++ new).length := by
    have := onContour_lt hb (i := a.first) ⟨(a.first, a.num), by simp, le_refl _, by
      have := hpos (a.first, a.num) (by simp); simp at this ⊢; omega⟩
    simp; omega
  have hin : ∀ v, GraphVert a sk.length v → InRange (a.verts ++ new).length v := by
    rintro v (⟨k, rfl, hk⟩ | ⟨j, rfl, hj⟩ | ⟨rfl, -⟩)
    · have := onContour_lt hb hk
      rw [List.length_append]
      constructor <;> omega
    · rw [List.length_append]
      constructor <;> omega
    · constructor <;> omega
  have hall : ∀ vl ∈ addEdges rt [] ds, InRange (a.verts ++ new).length vl.1 ∧
      ∀ w ∈ vl.2, InRange (a.verts ++ new).length w :=
    addEdges_all fun d hd => by
      obtain ⟨g1, g2⟩ := graphDarts_verts (contour_edge_index hb) hds d hd
      exact ⟨hin _ g1, hin _ g2⟩
  unfold facesOf at he
  simp only at he
  rw [hds, ok_bind] at he
  rcases bind_error.1 he with he | ⟨emb, hemb, he⟩
  · exact .inl (.inl ((embedding_safe hall).err he))
  have hE := (C11_embedding_perm rt _ emb _ true hemb).2
  rcases bind_error.1 he with he | ⟨fs, hfs, he⟩
  · obtain ⟨c1, -, c3, -⟩ := C10_vertices rt ds
    have hsym0 : ∀ v w, w ∈ nbrs (addEdges rt [] ds) v → v ∈ nbrs (addEdges rt [] ds) w := by
      intro v w hw
      rw [← List.count_pos_iff] at hw ⊢
      rw [← c1]; exact hw
    refine .inr (faces_error (fun v w hw => ?_) (fun d hd => ?_) he)
    · exact (hE w).mem_iff.2 (hsym0 v w ((hE v).mem_iff.1 hw))
    · refine (hE d.2).mem_iff.2 ?_
      rcases (mem_edgeSet _ d).1 hd with h | h
      · exact hsym0 _ _ ((mem_edges c3 d).1 h)
      · exact (mem_edges c3 (d.2, d.1)).1 h
  have hr := faces_all (P := InRange (a.verts ++ new).length) hall hE hfs
  have hs := removeSpikes_safe (n := a.verts.length) hr
  rcases bind_error.1 he with he | ⟨fs2, hfs2, he⟩
  · exact .inl (hs.err he)
  · exact .inl ((cleanFaces_safe (hs.val hfs2)).err he)

/-- C77, any arithmetic, all arguments: a call of `polygonize` that raises before the skeleton is stored
raises IndexError, ZeroDivisionError, ValueError, AttributeError, TypeError or the RuntimeError of `_LAV.__iter__`;
once the skeleton is stored, the exception is a ZeroDivisionError, a ValueError, a StopIteration or one of
the two endless-loop exceptions. -/
theorem C77_raises (rt : Rt) (fuel : Nat) (a : PolyArgs S) (out : PolyOut S) (e : PyErr)
    (h : polygonize rt fuel a = some out) (he : out.result = .error e) :
    (out.debug = none ∧ e ∈ [PyErr.index, .zeroDivision, .value, .attribute, .typeError, .runtime]) ∨
    (out.debug ≠ none ∧ e ∈ [PyErr.zeroDivision, .value, .stopIteration, .endlessFaces, .endlessSpike]) := by
  unfold polygonize at h
  simp only at h
  split at h
  · rename_i e' hb
    cases h
    cases he
    refine .inl ⟨rfl, ?_⟩
    rcases C52_contours_raise a e hb with rfl | rfl <;> simp
  · rename_i z c cs hb
    obtain ⟨-, hne, hcs⟩ := contours_pos hb
    split at h
    · cases h
    · rename_i e' hs
      cases h
      cases he
      refine .inl ⟨rfl, ?_⟩
      obtain ⟨outer, rest, rfl⟩ := List.exists_cons_of_ne_nil hcs
      rcases skeletonize_error hne hs with rfl | rfl | rfl | rfl | rfl <;> simp
    · rename_i sk hs
      split at h
      · rename_i e' ht
        cases h
        cases he
        refine .inr ⟨by simp, ?_⟩
        unfold tanAlpha at ht
        split at ht
        · cases ht
        · rcases bind_error.1 ht with ht | ⟨m, -, ht⟩
          · unfold maxHeight at ht
            split at ht
            · cases ht; simp
            · cases ht
          · unfold pydiv at ht
            split at ht
            · cases ht; simp
            · cases ht
      · rename_i ta ht
        split at h
        · rename_i e' hf
          cases h
          cases he
          refine .inr ⟨by simp, ?_⟩
          rcases facesOf_error hb (by simp) hf with (rfl | rfl | rfl | rfl) | rfl <;> simp
        · split at h <;> cases h <;> cases he

/-- the arguments refer to vertices and unit vectors that exist: the outer contour and the holes are
not empty and lie in `verts`, and the unit vectors, when given, are enough for all edges -/
structure ArgsFit (a : PolyArgs S) : Prop where
  outer : 0 < a.num ∧ a.first + a.num ≤ a.verts.length
  holes : ∀ h ∈ a.holes.getD [], 0 < h.2 ∧ h.1 + h.2 ≤ a.verts.length
  units : ∀ us, a.units = some us → us = [] ∨ a.num + ((a.holes.getD []).map (·.2)).sum ≤ us.length

theorem contourEdges_safe {verts : List (V3 S)} {center : V3 S} {units : Option (List (V3 S))}
    {oid u0 first num : Nat} (h0 : 0 < num) (h1 : first + num ≤ verts.length)
    (hu : ∀ us, units = some us → u0 + num ≤ us.length) :
    Safe (· = PyErr.zeroDivision) (contourEdges verts center units oid u0 first num) (fun _ => True) := by
  unfold contourEdges
  rw [if_neg (by omega)]
  refine (Safe.mapM (Q := fun _ => True) (List.range num) fun k hk => ?_).mono fun _ _ => trivial
  have hk' := List.mem_range.1 hk
  have key : ∀ u, Safe (· = PyErr.zeroDivision) (Edge2.ofVerts (oid + k) (first + k)
      (if k + 1 = num then first else first + k + 1) u verts center) (fun _ => True) := by
    intro u
    unfold Edge2.ofVerts
    refine (pyGet_safe (by omega)).bind fun _ _ => ?_
    refine (pyGet_safe (by split <;> omega)).bind fun _ _ => trivial
  cases units with
  | none => exact key none
  | some us =>
    have := hu us rfl
    simp only
    exact (pyGet_safe (by omega)).bind fun u _ => key (some u)

theorem holeContours_safe {verts : List (V3 S)} {center : V3 S} {units : Option (List (V3 S))}
    {hs : List (Nat × Nat)} {u : Nat} (h : ∀ f ∈ hs, 0 < f.2 ∧ f.1 + f.2 ≤ verts.length)
    (hu : ∀ us, units = some us → u + (hs.map (·.2)).sum ≤ us.length) :
    Safe (· = PyErr.zeroDivision) (holeContours verts center units u hs) (fun _ => True) := by
  induction hs generalizing u with
  | nil => trivial
  | cons f hs ih =>
    obtain ⟨x, n⟩ := f
    obtain ⟨h0, h1⟩ := h (x, n) (by simp)
    unfold holeContours
    refine (contourEdges_safe h0 h1 fun us hus => ?_).bind fun c _ => ?_
    · have := hu us hus
      simp only [List.map_cons, List.sum_cons] at this
      omega
    · refine (ih (fun f hf => h f (by simp [hf])) fun us hus => ?_).bind fun _ _ => trivial
      have := hu us hus
      simp only [List.map_cons, List.sum_cons] at this
      omega

theorem sumVerts_safe {verts : List (V3 S)} {is : List Nat} (h : ∀ i ∈ is, i < verts.length) (acc : V3 S) :
    Safe (· = PyErr.zeroDivision) (sumVerts verts acc is) (fun _ => True) := by
  induction is generalizing acc with
  | nil => trivial
  | cons i is ih =>
    unfold sumVerts
    have := h i (by simp)
    exact (pyGet_safe (by omega)).bind fun _ _ => ih (fun i hi => h i (by simp [hi])) _

theorem buildContours_safe {a : PolyArgs S} (h : ArgsFit a) :
    Safe (· = PyErr.zeroDivision) (buildContours a) (fun _ => True) := by
  obtain ⟨⟨h0, h1⟩, h2, h3⟩ := h
  have hu : ∀ us, effUnits a.units = some us → a.num + ((a.holes.getD []).map (·.2)).sum ≤ us.length := by
    intro us hus
    unfold effUnits at hus
    split at hus
    · cases hus
    · rename_i hne
      rcases h3 us hus with rfl | h
      · exact absurd hus hne
      · exact h
  unfold buildContours
  refine (pyGet_safe (by omega)).bind fun v0 _ => ?_
  have hc : Safe (· = PyErr.zeroDivision) (centerOf a.verts a.first a.num) (fun _ => True) := by
    unfold centerOf
    refine (sumVerts_safe (fun i hi => ?_) _).bind fun s _ => ?_
    · rw [List.mem_range'_1] at hi; omega
    · have : Safe (· = PyErr.zeroDivision) (V3.divBy s (lit a.num 1)) (fun _ => True) := by
        unfold V3.divBy
        split
        · rfl
        · trivial
      exact this.bind fun _ _ => trivial
  refine hc.bind fun center _ => ?_
  refine (contourEdges_safe h0 h1 fun us hus => ?_).bind fun outer _ => ?_
  · have := hu us hus; omega
  · exact (holeContours_safe h2 fun us hus => hu us hus).bind fun _ _ => trivial

theorem skeletonize_not_index {a : PolyArgs S} {z : S} {c : V3 S} {cs : List (List (Edge2 S))} {fuel : Nat}
    (hb : buildContours a = .ok (z, c, cs)) : skeletonize fuel cs ≠ some (.error .index) := by
  obtain ⟨-, hne, hcs⟩ := contours_pos hb
  obtain ⟨outer, rest, rfl⟩ := List.exists_cons_of_ne_nil hcs
  intro hs
  rcases skeletonize_error hne hs with h | h | h | h | h <;> cases h

/-- C77: IndexError is raised only when the arguments do not fit: no index that the code computes itself is
ever outside its list. -/
theorem C77_no_index (rt : Rt) (fuel : Nat) (a : PolyArgs S) (out : PolyOut S) (ha : ArgsFit a)
    (h : polygonize rt fuel a = some out) : out.result ≠ .error .index := by
  intro he
  rcases C77_raises rt fuel a out _ h he with ⟨-, -⟩ | ⟨-, hm⟩
  · unfold polygonize at h
    simp only at h
    split at h
    · rename_i e' hb
      cases h
      cases he
      cases (buildContours_safe ha).err hb
    · rename_i z c cs hb
      split at h
      · cases h
      · rename_i e' hs
        cases h
        cases he
        exact skeletonize_not_index hb hs
      · rename_i sk hs
        split at h
        · rename_i e' ht
          cases h
          cases he
          unfold tanAlpha at ht
          split at ht
          · cases ht
          · rcases bind_error.1 ht with ht | ⟨m, -, ht⟩
            · unfold maxHeight at ht
              split at ht <;> cases ht
            · unfold pydiv at ht
              split at ht <;> cases ht
        · rename_i ta ht
          split at h
          · rename_i e' hf
            cases h
            cases he
            rcases facesOf_error hb (by simp) hf with (h | h | h | h) | h <;> cases h
          · split at h <;> cases h <;> cases he
  · simp at hm

/-! ### witnesses -/

/-- a square -/
def square4 : List (Int × Int) := [(0, 0), (10, 0), (10, 10), (0, 10)]

/-- the arguments of the call with the square fit -/
example : ArgsFit (simpleCall square4 1 1) :=
  ⟨by decide, by simp [simpleCall], by simp [simpleCall]⟩

/-- C77: five vertices are asked for where there are four -/
theorem C77_index_witness : (polygonize rt0 9 { simpleCall square4 1 1 with num := 5 }).map (·.result) =
    some (.error .index) := by decide +kernel

/-- C77: an empty polygon -/
theorem C77_zeroDivision_witness : (polygonize rt0 9 { simpleCall square4 1 1 with num := 0 }).map (·.result) =
    some (.error .zeroDivision) := by decide +kernel

/-- C77: the corners of the square are given clockwise and a height is asked for: there is no node, and
`max` of nothing raises ValueError -/
theorem C77_value_witness :
    (polygonize rt0 9 { simpleCall [(0, 0), (0, 10), (10, 10), (10, 0)] 1 1 with height := sq 3 }).map (·.result) =
    some (.error .value) := by decide +kernel

/-- C77: the square is at the same time its own hole -/
theorem C77_endlessFaces_witness :
    (polygonize rt0 30 { simpleCall square4 1 1 with holes := some [(0, 4)] }).map (·.result) =
    some (.error .endlessFaces) := by decide +kernel

end Polyskel
