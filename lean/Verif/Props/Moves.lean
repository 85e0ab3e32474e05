import Mathlib.Tactic.Ring
import Mathlib.Tactic.Linarith
import Verif.Proofs.Congr
/-
C22 and C48: translating everything, and changing vertices that belong to no contour.
-/
namespace Polyskel
open Scalar Graph

/-! ### C48 -/

section lawless
variable {S : Type} [Scalar S]

/-- the vertex index belongs to the outer contour or to a hole -/
def OnContour (a : PolyArgs S) (i : Nat) : Prop :=
  ∃ c ∈ (a.first, a.num) :: a.holes.getD [], c.1 ≤ i ∧ i < c.1 + c.2

theorem sumVerts_congr {V W : List (V3 S)} {is : List Nat} {acc : V3 S}
    (h : ∀ i ∈ is, V[i]? = W[i]?) : sumVerts V acc is = sumVerts W acc is := by
  induction is generalizing acc with
  | nil => rfl
  | cons i is ih =>
    unfold sumVerts
    rw [pyGet_nat, pyGet_nat, h i (by simp)]
    cases W[i]? with
    | none => rfl
    | some v => exact ih (fun i hi => h i (by simp [hi]))

theorem contourEdges_congr {V W : List (V3 S)} {c : V3 S} {us : Option (List (V3 S))}
    {o u first num : Nat} (h : ∀ i, first ≤ i → i < first + num → V[i]? = W[i]?) :
    contourEdges V c us o u first num = contourEdges W c us o u first num := by
  unfold contourEdges
  split
  · rfl
  · apply mapM_congr
    intro k hk
    have hk : k < num := by simpa using hk
    have key : ∀ n, Edge2.ofVerts (o + k) (first + k) (if k + 1 = num then first else first + k + 1) n
        V c = Edge2.ofVerts (o + k) (first + k) (if k + 1 = num then first else first + k + 1) n W c := by
      intro n
      unfold Edge2.ofVerts
      rw [pyGet_nat, pyGet_nat, pyGet_nat, pyGet_nat, h (first + k) (by omega) (by omega),
        h (if k + 1 = num then first else first + k + 1) (by split <;> omega) (by split <;> omega)]
    simp only [key]

theorem holeContours_congr {V W : List (V3 S)} {c : V3 S} {us : Option (List (V3 S))}
    {o : Nat} {hs : List (Nat × Nat)}
    (h : ∀ f ∈ hs, ∀ i, f.1 ≤ i → i < f.1 + f.2 → V[i]? = W[i]?) :
    holeContours V c us o hs = holeContours W c us o hs := by
  induction hs generalizing o with
  | nil => rfl
  | cons f hs ih =>
    obtain ⟨f, n⟩ := f
    unfold holeContours
    rw [contourEdges_congr (h (f, n) (by simp)), ih (fun f hf => h f (by simp [hf]))]

theorem buildContours_congr {a : PolyArgs S} {W : List (V3 S)} (hlen : W.length = a.verts.length)
    (h : ∀ i, OnContour a i → W[i]? = a.verts[i]?) :
    buildContours { a with verts := W } = buildContours a := by
  have hout : ∀ i, a.first ≤ i → i < a.first + a.num → W[i]? = a.verts[i]? :=
    fun i h1 h2 => h i ⟨(a.first, a.num), by simp, h1, h2⟩
  have hhol : ∀ f ∈ a.holes.getD [], ∀ i, f.1 ≤ i → i < f.1 + f.2 → W[i]? = a.verts[i]? :=
    fun f hf i h1 h2 => h i ⟨f, by simp [hf], h1, h2⟩
  have hc : centerOf W a.first a.num = centerOf a.verts a.first a.num := by
    unfold centerOf
    rw [sumVerts_congr]
    intro i hi
    rw [List.mem_range'_1] at hi
    exact hout i hi.1 hi.2
  unfold buildContours
  simp only [hc, contourEdges_congr hout, holeContours_congr hhol]
  by_cases h0 : a.num = 0
  · -- an empty outer contour is rejected whatever the vertices are
    rw [pyGet_nat, pyGet_nat]
    by_cases hf : a.first < a.verts.length
    · rw [List.getElem?_eq_getElem hf, List.getElem?_eq_getElem (by omega)]
      simp only [ok_bind, h0]
      cases centerOf a.verts a.first 0 <;> rfl
    · rw [List.getElem?_eq_none (by omega), List.getElem?_eq_none (by omega)]
  · rw [pyGet_nat, pyGet_nat, hout a.first (by omega) (by omega)]

theorem mem_contourDarts {first num : Nat} {ds : List Dart} (h : contourDarts first num = .ok ds) :
    ∀ d ∈ ds, (∃ i : Nat, d.1 = i ∧ first ≤ i ∧ i < first + num) ∧
      ∃ i : Nat, d.2 = i ∧ first ≤ i ∧ i < first + num := by
  unfold contourDarts at h
  obtain ⟨l, hl, h⟩ := bind_ok.1 h
  cases h
  unfold iterPrevNext at hl
  split at hl
  · cases hl
  · cases hl
    intro d hd
    obtain ⟨⟨p, q⟩, hp, rfl⟩ := List.mem_map.1 hd
    have h1 := (List.of_mem_zip hp).1
    have h2 := (List.of_mem_zip hp).2
    have h1 : p ∈ List.range' first num := by
      rcases List.mem_append.1 h1 with h1 | h1
      · exact List.mem_of_mem_drop h1
      · exact List.mem_of_mem_take h1
    rw [List.mem_range'_1] at h1 h2
    exact ⟨⟨p, rfl, h1⟩, q, rfl, h2⟩

theorem mem_holeDarts {hs : List (Nat × Nat)} {ds : List Dart} (h : holeDarts hs = .ok ds) :
    ∀ d ∈ ds, ∃ f ∈ hs, (∃ i : Nat, d.1 = i ∧ f.1 ≤ i ∧ i < f.1 + f.2) ∧
      ∃ i : Nat, d.2 = i ∧ f.1 ≤ i ∧ i < f.1 + f.2 := by
  induction hs generalizing ds with
  | nil => cases h; simp
  | cons f hs ih =>
    obtain ⟨f, n⟩ := f
    unfold holeDarts at h
    obtain ⟨A, hA, h⟩ := bind_ok.1 h
    obtain ⟨B, hB, h⟩ := bind_ok.1 h
    cases h
    intro d hd
    rcases List.mem_append.1 hd with hd | hd
    · exact ⟨(f, n), by simp, mem_contourDarts hA d hd⟩
    · obtain ⟨f', h1, h2⟩ := ih hB d hd
      exact ⟨f', by simp [h1], h2⟩

/-- what a vertex of the graph can be: a contour vertex, a node, or -1 for an unknown sink -/
def GraphVert (a : PolyArgs S) (m : Nat) (i : Int) : Prop :=
  (∃ k : Nat, i = k ∧ OnContour a k) ∨ (∃ j : Nat, i = ((a.verts.length + j : Nat) : Int) ∧ j < m) ∨
    (i = -1 ∧ 0 < m)

theorem edgeEnds_onContour {a : PolyArgs S} {ij : Nat × Nat} (h : ij ∈ edgeEnds a) :
    OnContour a ij.1 ∧ OnContour a ij.2 := by
  unfold edgeEnds at h
  obtain ⟨c, hc, h⟩ := List.mem_flatMap.1 h
  obtain ⟨k, hk, rfl⟩ := List.mem_map.1 h
  have hk : k < c.2 := by simpa using hk
  have := Nat.mod_lt (k + 1) (show 0 < c.2 by omega)
  exact ⟨⟨c, hc, by simp only; omega, by simp only; omega⟩, ⟨c, hc, by simp only; omega, by simp only; omega⟩⟩

theorem contour_edge_index {a : PolyArgs S} {z : S} {c : V3 S} {cs : List (List (Edge2 S))}
    (h : buildContours a = .ok (z, c, cs)) : ∀ e ∈ cs.flatten, OnContour a e.i1 := by
  have := (C52_contours a z c cs h).2
  intro e he
  obtain ⟨i, hi, rfl⟩ := List.mem_iff_getElem.1 he
  rw [List.forall₂_iff_get] at this
  have hi' : i < (edgeEnds a).zipIdx.length := by rw [this.1]; exact hi
  obtain ⟨A, B, _, _, _, h1, _⟩ := this.2 i hi' hi
  simp only [List.get_eq_getElem] at h1
  rw [h1]
  have : ((edgeEnds a).zipIdx[i]'hi').1 ∈ edgeEnds a := by
    rw [List.getElem_zipIdx]; exact List.getElem_mem _
  exact (edgeEnds_onContour this).1

theorem graphDarts_verts {a : PolyArgs S} {edges : List (Edge2 S)} {sk : List (Subtree S)}
    {ds : List Dart} (he : ∀ e ∈ edges, OnContour a e.i1) (h : graphDarts a edges sk = .ok ds) :
    ∀ d ∈ ds, GraphVert a sk.length d.1 ∧ GraphVert a sk.length d.2 := by
  unfold graphDarts at h
  obtain ⟨d1, h1, h⟩ := bind_ok.1 h
  obtain ⟨d2, h2, h⟩ := bind_ok.1 h
  cases h
  intro d hd
  rcases List.mem_append.1 hd with hd | hd
  · rcases List.mem_append.1 hd with hd | hd
    · obtain ⟨⟨i, e1, l1, u1⟩, j, e2, l2, u2⟩ := mem_contourDarts h1 d hd
      exact ⟨.inl ⟨i, e1, (a.first, a.num), by simp, l1, u1⟩, .inl ⟨j, e2, (a.first, a.num), by simp, l2, u2⟩⟩
    · obtain ⟨f, hf, ⟨i, e1, l1, u1⟩, j, e2, l2, u2⟩ := mem_holeDarts h2 d hd
      exact ⟨.inl ⟨i, e1, f, by simp [hf], l1, u1⟩, .inl ⟨j, e2, f, by simp [hf], l2, u2⟩⟩
  · unfold skelDarts at hd
    obtain ⟨⟨s, j⟩, hs, hd⟩ := List.mem_flatMap.1 hd
    obtain ⟨q, hq, rfl⟩ := List.mem_map.1 hd
    have hj : j < sk.length := by
      obtain ⟨i, hi⟩ := List.mem_iff_getElem?.1 hs
      rw [List.getElem?_zipIdx] at hi
      cases hs2 : sk[i]? with
      | none => rw [hs2] at hi; cases hi
      | some s' =>
        rw [hs2] at hi
        have := (List.getElem?_eq_some_iff.1 hs2).1
        simp only [Option.map_some, Nat.zero_add, Option.some.injEq, Prod.mk.injEq] at hi
        omega
    refine ⟨.inr (.inl ⟨j, ?_, hj⟩), ?_⟩
    · simp only; omega
    · simp only
      unfold sinkIndex
      split
      · rename_i e he'
        exact .inl ⟨e.i1, rfl, he e (List.mem_of_find?_eq_some he')⟩
      · split
        · rename_i j' hj'
          obtain ⟨hlt, _⟩ := List.findIdx?_eq_some_iff_findIdx_eq.1 hj'
          exact .inr (.inl ⟨j', by omega, hlt⟩)
        · exact .inr (.inr ⟨rfl, by omega⟩)

/-- C48: replacing vertices that belong to no contour (and keeping the length of the list) changes
neither the result, nor the exception, nor the faces, nor the skeleton, nor the vertices added. -/
theorem C48_other_vertices (rt : Rt) (fuel : Nat) (a : PolyArgs S) (W : List (V3 S))
    (hlen : W.length = a.verts.length) (h : ∀ i, OnContour a i → W[i]? = a.verts[i]?) :
    (polygonize rt fuel a = none ∧ polygonize rt fuel { a with verts := W } = none) ∨
    ∃ out out' new, polygonize rt fuel a = some out ∧
      polygonize rt fuel { a with verts := W } = some out' ∧
      out'.result = out.result ∧ out'.faces = out.faces ∧ out'.debug = out.debug ∧
      out.verts = a.verts ++ new ∧ out'.verts = W ++ new := by
  have hb := buildContours_congr hlen h
  have hf : ∀ z c cs sk (ta : S), buildContours a = .ok (z, c, cs) →
      facesOf rt { a with verts := W } cs.flatten sk (W ++ sk.map (node3D c z ta)) =
      facesOf rt a cs.flatten sk (a.verts ++ sk.map (node3D c z ta)) := by
    intro z c cs sk ta hbc
    have hget : ∀ i, GraphVert a sk.length i →
        pyGet (a.verts ++ sk.map (node3D c z ta)) i = pyGet (W ++ sk.map (node3D c z ta)) i := by
      rintro i (⟨k, rfl, hk⟩ | ⟨j, rfl, hj⟩ | ⟨rfl, hm⟩)
      · rw [pyGet_nat, pyGet_nat]
        have := h k hk
        by_cases hlt : k < a.verts.length
        · rw [List.getElem?_append_left hlt, List.getElem?_append_left (by omega), this]
        · rw [List.getElem?_append_right (by omega), List.getElem?_append_right (by omega), hlen]
      · rw [pyGet_nat, pyGet_nat, List.getElem?_append_right (by omega),
          List.getElem?_append_right (by omega), hlen]
      · obtain ⟨q, hq⟩ : ∃ q, sk.length = q + 1 := ⟨sk.length - 1, by omega⟩
        have key : ∀ V : List (V3 S), pyGet (V ++ sk.map (node3D c z ta)) (-1) =
            pyGet (V ++ sk.map (node3D c z ta)) ((V.length + q : Nat) : Int) := by
          intro V
          unfold pyGet
          have e1 : (-1 : Int) < 0 := by decide
          have e2 : ¬ (((V.length + q : Nat) : Int) < 0) := by omega
          have e3 : (-1 : Int) + ((V ++ sk.map (node3D c z ta)).length : Int) =
              ((V.length + q : Nat) : Int) := by
            rw [List.length_append, List.length_map, hq]; omega
          simp only [e1, e2, if_true, if_false, e3]
        rw [key, key, pyGet_nat, pyGet_nat, List.getElem?_append_right (by omega),
          List.getElem?_append_right (by omega)]
        simp
    have hsd : SameDiff (GraphVert a sk.length) (a.verts ++ sk.map (node3D c z ta))
        (W ++ sk.map (node3D c z ta)) := by
      constructor
      · intro i hi
        rw [← hget i hi]
        cases hg : pyGet (a.verts ++ sk.map (node3D c z ta)) i with
        | error e => exact .inl ⟨e, rfl, rfl⟩
        | ok v => exact .inr ⟨v, v, rfl, rfl⟩
      · intro i j A A' B B' hi hj h1 h2 h3 h4
        rw [hget i hi, h2] at h1; cases h1
        rw [hget j hj, h4] at h3; cases h3
        rfl
    exact (facesOf_congr (a := a) (a' := { a with verts := W }) hsd hlen rfl rfl rfl
      (fun ds hds => graphDarts_verts (contour_edge_index hbc) hds)).symm
  unfold polygonize
  rw [hb]
  cases hbc : buildContours a with
  | error e => exact .inr ⟨_, _, [], rfl, rfl, rfl, rfl, rfl, by simp, by simp⟩
  | ok r =>
    obtain ⟨z, c, cs⟩ := r
    simp only
    cases skeletonize fuel cs with
    | none => exact .inl ⟨rfl, rfl⟩
    | some r =>
      cases r with
      | error e => exact .inr ⟨_, _, [], rfl, rfl, rfl, rfl, rfl, by simp, by simp⟩
      | ok sk =>
        simp only
        cases tanAlpha a.height a.tan sk with
        | error e => exact .inr ⟨_, _, [], rfl, rfl, rfl, rfl, rfl, by simp, by simp⟩
        | ok ta =>
          simp only
          rw [hf z c cs sk ta hbc]
          right
          cases facesOf rt a cs.flatten sk (a.verts ++ sk.map (node3D c z ta)) with
          | error e => exact ⟨_, _, _, rfl, rfl, rfl, rfl, rfl, rfl, rfl⟩
          | ok fs =>
            simp only
            cases a.faces with
            | none => exact ⟨_, _, _, rfl, rfl, rfl, rfl, rfl, rfl, rfl⟩
            | some old => exact ⟨_, _, _, rfl, rfl, rfl, rfl, rfl, rfl, rfl⟩

end lawless

/-! ### C22 -/

/-- translation by `d` -/
def shift (d : V3 ℝ) (v : V3 ℝ) : V3 ℝ := ⟨v.x + d.x, v.y + d.y, v.z + d.z⟩

theorem pyGet_map {α β : Type} (f : α → β) (l : List α) (i : Int) :
    pyGet (l.map f) i = (pyGet l i).map f := by
  unfold pyGet
  rw [List.length_map]
  generalize (if i < 0 then i + (l.length : Int) else i) = j
  simp only [List.getElem?_map]
  split
  · rfl
  · cases l[j.toNat]? <;> rfl

theorem sumVerts_shift {d : V3 ℝ} {V : List (V3 ℝ)} {is : List Nat} {acc acc' : V3 ℝ} (m : ℝ)
    (hx : acc'.x = acc.x + m * d.x) (hy : acc'.y = acc.y + m * d.y) (hz : acc'.z = acc.z + m * d.z) :
    (∃ e, sumVerts V acc is = .error e ∧ sumVerts (V.map (shift d)) acc' is = .error e) ∨
    ∃ s s', sumVerts V acc is = .ok s ∧ sumVerts (V.map (shift d)) acc' is = .ok s' ∧
      s'.x = s.x + (m + is.length) * d.x ∧ s'.y = s.y + (m + is.length) * d.y ∧
      s'.z = s.z + (m + is.length) * d.z := by
  induction is generalizing acc acc' m with
  | nil => exact .inr ⟨acc, acc', rfl, rfl, by simpa using hx, by simpa using hy, by simpa using hz⟩
  | cons i is ih =>
    unfold sumVerts
    rw [pyGet_map]
    cases pyGet V (i : Int) with
    | error e => exact .inl ⟨e, rfl, rfl⟩
    | ok v =>
      simp only [Except.map, ok_bind]
      have := ih (acc := V3.add acc v) (acc' := V3.add acc' (shift d v)) (m + 1)
        (by simp [V3.add, shift, hx]; ring) (by simp [V3.add, shift, hy]; ring)
        (by simp [V3.add, shift, hz]; ring)
      rcases this with h | ⟨s, s', h1, h2, h3, h4, h5⟩
      · exact .inl h
      · refine .inr ⟨s, s', h1, h2, ?_, ?_, ?_⟩
        · rw [h3]; push_cast [List.length_cons]; ring
        · rw [h4]; push_cast [List.length_cons]; ring
        · rw [h5]; push_cast [List.length_cons]; ring

theorem centerOf_shift (d : V3 ℝ) (V : List (V3 ℝ)) (first num : Nat) :
    (∃ e, centerOf V first num = .error e ∧ centerOf (V.map (shift d)) first num = .error e) ∨
    ∃ c, centerOf V first num = .ok c ∧
      centerOf (V.map (shift d)) first num = .ok ⟨c.x + d.x, c.y + d.y, c.z⟩ := by
  unfold centerOf
  rcases sumVerts_shift (d := d) (V := V) (is := List.range' first num)
    (acc := ⟨rnd fzero, rnd fzero, rnd fzero⟩) (acc' := ⟨rnd fzero, rnd fzero, rnd fzero⟩) 0
    (by simp) (by simp) (by simp) with ⟨e, h1, h2⟩ | ⟨s, s', h1, h2, h3, h4, h5⟩
  · rw [h1, h2]; exact .inl ⟨e, rfl, rfl⟩
  · rw [h1, h2]
    simp only [ok_bind]
    unfold V3.divBy
    by_cases h0 : num = 0
    · subst h0
      rw [if_pos (by simp), if_pos (by simp)]
      exact .inl ⟨_, rfl, rfl⟩
    · rw [if_neg (by simp [h0]), if_neg (by simp [h0])]
      refine .inr ⟨_, rfl, ?_⟩
      have hn : (num : ℝ) ≠ 0 := by exact_mod_cast h0
      simp only [List.length_range'] at h3 h4
      simp only [ok_bind, pure_ok, ex_lit, ex_rnd, ex_div, ex_zero, Int.cast_natCast, Nat.cast_one,
        div_one, h3, h4, zero_add, Except.ok.injEq, V3.mk.injEq, and_true]
      constructor
      · field_simp
      · field_simp

theorem ofVerts_shift (d : V3 ℝ) (V : List (V3 ℝ)) (c : V3 ℝ) (o i j : Nat) (u : Option (V3 ℝ)) :
    Edge2.ofVerts o i j u (V.map (shift d)) ⟨c.x + d.x, c.y + d.y, c.z⟩ = Edge2.ofVerts o i j u V c := by
  unfold Edge2.ofVerts
  rw [pyGet_map, pyGet_map]
  cases pyGet V (i : Int) with
  | error e => rfl
  | ok A =>
    cases pyGet V (j : Int) with
    | error e => rfl
    | ok B =>
      have key : ∀ X : V3 ℝ, V3.xy (V3.sub (shift d X) ⟨c.x + d.x, c.y + d.y, c.z⟩) =
          V3.xy (V3.sub X c) := by
        intro X; simp [V3.xy, V3.sub, shift]
      simp only [Except.map, ok_bind, key]

theorem contourEdges_shift (d : V3 ℝ) (V : List (V3 ℝ)) (c : V3 ℝ) (us : Option (List (V3 ℝ)))
    (o u first num : Nat) :
    contourEdges (V.map (shift d)) ⟨c.x + d.x, c.y + d.y, c.z⟩ us o u first num =
      contourEdges V c us o u first num := by
  unfold contourEdges
  split
  · rfl
  · apply mapM_congr
    intro k _
    simp only [ofVerts_shift]

theorem holeContours_shift (d : V3 ℝ) (V : List (V3 ℝ)) (c : V3 ℝ) (us : Option (List (V3 ℝ)))
    (o : Nat) (hs : List (Nat × Nat)) :
    holeContours (V.map (shift d)) ⟨c.x + d.x, c.y + d.y, c.z⟩ us o hs =
      holeContours V c us o hs := by
  induction hs generalizing o with
  | nil => rfl
  | cons f hs ih =>
    obtain ⟨f, n⟩ := f
    unfold holeContours
    rw [contourEdges_shift, ih]

theorem buildContours_shift (d : V3 ℝ) (a : PolyArgs ℝ) :
    (∃ e, buildContours a = .error e ∧
      buildContours { a with verts := a.verts.map (shift d) } = .error e) ∨
    ∃ z c cs, buildContours a = .ok (z, c, cs) ∧
      buildContours { a with verts := a.verts.map (shift d) } =
        .ok (z + d.z, ⟨c.x + d.x, c.y + d.y, c.z⟩, cs) := by
  unfold buildContours
  simp only
  rw [pyGet_map]
  cases pyGet a.verts (a.first : Int) with
  | error e => exact .inl ⟨e, rfl, rfl⟩
  | ok v0 =>
    simp only [Except.map, ok_bind]
    rcases centerOf_shift d a.verts a.first a.num with ⟨e, h1, h2⟩ | ⟨c, h1, h2⟩
    · rw [h1, h2]; exact .inl ⟨e, rfl, rfl⟩
    · rw [h1, h2]
      simp only [ok_bind, contourEdges_shift, holeContours_shift]
      cases contourEdges a.verts c (effUnits a.units) 0 0 a.first a.num with
      | error e => exact .inl ⟨e, rfl, rfl⟩
      | ok o =>
        simp only [ok_bind]
        cases holeContours a.verts c (effUnits a.units) a.num (a.holes.getD []) with
        | error e => exact .inl ⟨e, rfl, rfl⟩
        | ok hs => exact .inr ⟨_, _, _, rfl, rfl⟩

/-- C22: moving all vertices by `d` moves everything that is appended by `d` and changes nothing
else: same faces, same skeleton, same exception. -/
theorem C22_translation (rt : Rt) (fuel : Nat) (a : PolyArgs ℝ) (d : V3 ℝ) :
    polygonize rt fuel { a with verts := a.verts.map (shift d) } =
      (polygonize rt fuel a).map (fun o => { o with verts := o.verts.map (shift d) }) := by
  unfold polygonize
  rcases buildContours_shift d a with ⟨e, h1, h2⟩ | ⟨z, c, cs, h1, h2⟩
  · rw [h1, h2]; rfl
  · rw [h1, h2]
    simp only
    cases skeletonize fuel cs with
    | none => rfl
    | some r =>
      cases r with
      | error e => rfl
      | ok sk =>
        simp only
        cases tanAlpha a.height a.tan sk with
        | error e => rfl
        | ok ta =>
          simp only
          have hv : a.verts.map (shift d) ++
              sk.map (node3D ⟨c.x + d.x, c.y + d.y, c.z⟩ (z + d.z) ta) =
              (a.verts ++ sk.map (node3D c z ta)).map (shift d) := by
            rw [List.map_append, List.map_map]
            congr 1
            apply List.map_congr_left
            intro s _
            simp only [node3D, mkV3, V3.add, shift, Function.comp_apply, ex_rnd, ex_add, ex_mul,
              V3.mk.injEq]
            refine ⟨by ring, by ring, by ring⟩
          rw [hv]
          have hsd : SameDiff (fun _ => True) (a.verts ++ sk.map (node3D c z ta))
              ((a.verts ++ sk.map (node3D c z ta)).map (shift d)) := by
            constructor
            · intro i _
              rw [pyGet_map]
              cases pyGet (a.verts ++ sk.map (node3D c z ta)) i with
              | error e => exact .inl ⟨e, rfl, rfl⟩
              | ok v => exact .inr ⟨v, shift d v, rfl, rfl⟩
            · intro i j A A' B B' _ _ e1 e2 e3 e4
              rw [pyGet_map, e1] at e2
              rw [pyGet_map, e3] at e4
              cases e2; cases e4
              simp [V3.sub, shift]
          have hf := facesOf_congr (rt := rt) (a := a)
            (a' := { a with verts := a.verts.map (shift d) }) (edges := cs.flatten) (sk := sk) hsd
            (by simp) rfl rfl rfl (fun _ _ _ _ => ⟨trivial, trivial⟩)
          rw [← hf]
          cases facesOf rt a cs.flatten sk (a.verts ++ sk.map (node3D c z ta)) with
          | error e => rfl
          | ok fs =>
            simp only
            cases a.faces <;> rfl

/-- case for C48: a vertex between the contour's vertices and the nodes is replaced -/
example : (polygonize rt0 20 { simpleCall [(0, 0), (8, 0), (8, 4), (0, 4), (5, 5)] 1 2 with num := 4
      }).map (fun o => (o.result.toOption, o.verts.drop 5)) =
    (polygonize rt0 20 { simpleCall [(0, 0), (8, 0), (8, 4), (0, 4), (-3, 7)] 1 2 with num := 4
      }).map (fun o => (o.result.toOption, o.verts.drop 5)) := by
  decide +kernel

end Polyskel
