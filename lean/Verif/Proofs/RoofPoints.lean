import Verif.Proofs.RoofCore
import Verif.Props.Edges
/-
Convex polygons given by their points.  Used for C62.
-/
namespace Polyskel
open Scalar Real Geo
set_option linter.unusedSectionVars false

/-! ### Moving a polygon -/

section
variable {c : List (Edge2 ℝ)} (t : V2 ℝ)

theorem height_move (e : Edge2 ℝ) (p : V2 ℝ) :
    height (moveEdge t e).p1 (moveEdge t e).norm p = height e.p1 e.norm ⟨p.x - t.x, p.y - t.y⟩ := by
  simp only [height, moveEdge]
  ring

theorem moveEdge_inj {e f : Edge2 ℝ} (h : moveEdge t e = moveEdge t f) : e = f := by
  cases e with
  | mk o i j p q n =>
    cases f with
    | mk o' i' j' p' q' n' =>
      cases p; cases q; cases p'; cases q'
      simp only [moveEdge, Edge2.mk.injEq, V2.mk.injEq, add_left_inj] at h ⊢
      exact h

theorem moveEdge_back (e : Edge2 ℝ) : moveEdge t (moveEdge ⟨-t.x, -t.y⟩ e) = e := by
  cases e with
  | mk o i j p q n => cases p; cases q; simp [moveEdge]

theorem three_move {p : V2 ℝ} {h : ℝ}
    (hn : ∃ e1 ∈ c.map (moveEdge t), ∃ e2 ∈ c.map (moveEdge t), ∃ e3 ∈ c.map (moveEdge t),
      e1 ≠ e2 ∧ e2 ≠ e3 ∧ e1 ≠ e3 ∧
      height e1.p1 e1.norm p = h ∧ height e2.p1 e2.norm p = h ∧ height e3.p1 e3.norm p = h) :
    ∃ e1 ∈ c, ∃ e2 ∈ c, ∃ e3 ∈ c, e1 ≠ e2 ∧ e2 ≠ e3 ∧ e1 ≠ e3 ∧
      height e1.p1 e1.norm ⟨p.x - t.x, p.y - t.y⟩ = h ∧ height e2.p1 e2.norm ⟨p.x - t.x, p.y - t.y⟩ = h ∧
      height e3.p1 e3.norm ⟨p.x - t.x, p.y - t.y⟩ = h := by
  obtain ⟨e1, m1, e2, m2, e3, m3, n12, n23, n13, p1, p2, p3⟩ := hn
  obtain ⟨f1, m1', rfl⟩ := List.mem_map.1 m1
  obtain ⟨f2, m2', rfl⟩ := List.mem_map.1 m2
  obtain ⟨f3, m3', rfl⟩ := List.mem_map.1 m3
  rw [height_move] at p1 p2 p3
  exact ⟨f1, m1', f2, m2', f3, m3', fun h => n12 (by rw [h]), fun h => n23 (by rw [h]),
    fun h => n13 (by rw [h]), p1, p2, p3⟩

theorem RoofNode.move {p : V2 ℝ} {h : ℝ} (hn : RoofNode (c.map (moveEdge t)) p h) :
    RoofNode c ⟨p.x - t.x, p.y - t.y⟩ h := by
  refine ⟨?_, three_move t hn.three⟩
  intro e he
  have := hn.least _ (List.mem_map.2 ⟨e, he, rfl⟩)
  rwa [height_move] at this

theorem Separated.move (hs : Separated c) : Separated (c.map (moveEdge t)) := by
  rintro h h' ⟨p, h1⟩ ⟨q, h2⟩ h0 hlt
  exact hs h h' ⟨_, three_move t h1⟩ ⟨_, three_move t h2⟩ h0 hlt

theorem OnlyThree.move (ho : OnlyThree c) : OnlyThree (c.map (moveEdge t)) := by
  intro p h hn
  obtain ⟨e1, e2, e3, he⟩ := ho _ _ hn.move
  refine ⟨moveEdge t e1, moveEdge t e2, moveEdge t e3, ?_⟩
  intro e hm hh
  obtain ⟨f, hf, rfl⟩ := List.mem_map.1 hm
  rw [height_move] at hh
  rcases he f hf hh with rfl | rfl | rfl
  · exact .inl rfl
  · exact .inr (.inl rfl)
  · exact .inr (.inr rfl)

theorem NodesApart.move (ha : NodesApart c) : NodesApart (c.map (moveEdge t)) := by
  intro p h p' h' hn hn' hne
  have := ha _ _ _ _ hn.move hn'.move (by
    intro he
    simp only [V2.mk.injEq, sub_left_inj] at he
    apply hne
    cases p; cases p'
    simpa using he)
  simpa using this

theorem Blunt.move (hb : Blunt c) : Blunt (c.map (moveEdge t)) := by
  refine ⟨?_, ?_⟩
  · intro e he f hf g hg h1 h2 h3
    obtain ⟨e, he', rfl⟩ := List.mem_map.1 he
    obtain ⟨f, hf', rfl⟩ := List.mem_map.1 hf
    obtain ⟨g, hg', rfl⟩ := List.mem_map.1 hg
    exact hb.1 e he' f hf' g hg' (fun h => h1 (by rw [h])) (fun h => h2 (by rw [h])) (fun h => h3 (by rw [h]))
  · intro e he f hf hef
    obtain ⟨e, he', rfl⟩ := List.mem_map.1 he
    obtain ⟨f, hf', rfl⟩ := List.mem_map.1 hf
    apply hb.2 e he' f hf'
    simp only [moveEdge, V2.mk.injEq, add_left_inj] at hef
    cases h1 : e.p2
    cases h2 : f.p1
    rw [h1, h2] at hef
    simp only at hef
    rw [hef.1, hef.2]

theorem ConvexPolygon.move (h : ConvexPolygon c) : ConvexPolygon (c.map (moveEdge t)) := by
  have hp : ∀ {p q : V2 ℝ}, (⟨p.x + t.x, p.y + t.y⟩ : V2 ℝ) = ⟨q.x + t.x, q.y + t.y⟩ → p = q := by
    intro p q he
    cases p; cases q
    simpa using he
  refine ⟨?_, ?_, ?_, ?_, ?_, ?_⟩
  · intro i hi
    have := h.ring i (by simpa using hi)
    simp [moveEdge, this]
  · intro h0
    have := h.last (by simpa using h0)
    simp [moveEdge, this]
  · intro e he
    obtain ⟨e, he', rfl⟩ := List.mem_map.1 he
    exact h.unit e he'
  · intro e he
    obtain ⟨e, he', rfl⟩ := List.mem_map.1 he
    obtain ⟨r, hr, h1, h2⟩ := h.along e he'
    exact ⟨r, hr, by simp only [moveEdge]; linarith, by simp only [moveEdge]; linarith⟩
  · intro e he f hf h1 h2
    obtain ⟨e, he', rfl⟩ := List.mem_map.1 he
    obtain ⟨f, hf', rfl⟩ := List.mem_map.1 hf
    have := h.left e he' f hf' (fun h => h1 (by simp [moveEdge, h])) (fun h => h2 (by simp [moveEdge, h]))
    simp only [moveEdge]
    linarith
  · rw [List.map_map]
    have : ((fun e : Edge2 ℝ => e.p1) ∘ moveEdge t) = (fun p : V2 ℝ => (⟨p.x + t.x, p.y + t.y⟩ : V2 ℝ)) ∘
        (fun e : Edge2 ℝ => e.p1) := rfl
    rw [this, ← List.map_map]
    exact h.distinct.map (fun p q he => hp he)

end

/-! ### The sides of a polygon -/

section
variable {first n : Nat} {P : Nat → V2 ℝ}

theorem sides_length : (sides first n P).length = n := by simp [sides]

theorem mem_sides {e : Edge2 ℝ} (he : e ∈ sides first n P) : ∃ k < n, e.oid = k ∧ e.p1 = P k ∧
    e.p2 = P ((k + 1) % n) ∧
    e.norm = ⟨((P ((k + 1) % n)).x - (P k).x) / eucl (P k) (P ((k + 1) % n)),
        ((P ((k + 1) % n)).y - (P k).y) / eucl (P k) (P ((k + 1) % n))⟩ := by
  obtain ⟨k, hk, rfl⟩ := List.mem_map.1 he
  exact ⟨k, List.mem_range.1 hk, rfl, rfl, rfl, rfl⟩

/-- points with all others to the left of each side are different -/
theorem points_distinct (h3 : 3 ≤ n) (hleft : ∀ i j, i < n → j < n → j ≠ i → j ≠ (i + 1) % n →
      0 < area2 (P i) (P ((i + 1) % n)) (P j)) {i j : Nat} (hi : i < n) (hj : j < n) (he : P i = P j) :
    i = j := by
  by_contra hne
  by_cases hs : j = (i + 1) % n
  · obtain ⟨k, hk, h1, h2⟩ : ∃ k, k < n ∧ k ≠ i ∧ k ≠ j := by
      by_cases ha : 0 ≠ i ∧ 0 ≠ j
      · exact ⟨0, by omega, ha.1, ha.2⟩
      · by_cases hb : 1 ≠ i ∧ 1 ≠ j
        · exact ⟨1, by omega, hb.1, hb.2⟩
        · exact ⟨2, by omega, by omega, by omega⟩
    have := hleft i k hi hk h1 (by rw [← hs]; exact h2)
    rw [← hs, ← he] at this
    simp [area2] at this
  · have := hleft i j hi hj (fun h => hne h.symm) hs
    rw [← he] at this
    simp [area2] at this

theorem sides_convex (h3 : 3 ≤ n) (hleft : ∀ i j, i < n → j < n → j ≠ i → j ≠ (i + 1) % n →
      0 < area2 (P i) (P ((i + 1) % n)) (P j)) : ConvexPolygon (sides first n P) := by
  have hd : ∀ {i j : Nat}, i < n → j < n → P i = P j → i = j := fun hi hj he => points_distinct h3 hleft hi hj he
  have hlen : ∀ k, k < n → 0 < eucl (P k) (P ((k + 1) % n)) := by
    intro k hk
    apply eucl_pos
    intro he
    have h1 := hd hk (Nat.mod_lt _ (by omega)) he
    by_cases hl : k + 1 = n
    · rw [hl, Nat.mod_self] at h1; omega
    · rw [Nat.mod_eq_of_lt (by omega)] at h1; omega
  have hsq : ∀ p q : V2 ℝ, eucl p q ^ 2 = (q.x - p.x) ^ 2 + (q.y - p.y) ^ 2 := by
    intro p q
    rw [eucl, Real.sq_sqrt (by positivity)]
    ring
  refine ⟨?_, ?_, ?_, ?_, ?_, ?_⟩
  · intro i hi
    rw [sides_length] at hi
    simp [sides, Nat.mod_eq_of_lt hi]
  · intro h0
    rw [sides_length] at h0
    have e1 : n - 1 + 1 = n := by omega
    simp [sides, e1]
  · intro e he
    obtain ⟨k, hk, -, -, -, h4⟩ := mem_sides he
    have := hlen k hk
    rw [h4]
    simp only
    field_simp
    rw [hsq]
  · intro e he
    obtain ⟨k, hk, -, h2, h3, h4⟩ := mem_sides he
    have := hlen k hk
    refine ⟨eucl (P k) (P ((k + 1) % n)), this, ?_, ?_⟩
    · rw [h2, h3, h4]; field_simp
    · rw [h2, h3, h4]; field_simp
  · intro e he f hf h1 h2
    obtain ⟨k, hk, -, e2, e3, e4⟩ := mem_sides he
    obtain ⟨j, hj, -, f2, -, -⟩ := mem_sides hf
    rw [f2, e2] at h1
    rw [f2, e3] at h2
    have hl := hleft k j hk hj (fun h => h1 (by rw [h])) (fun h => h2 (by rw [h]))
    have hp := hlen k hk
    rw [e2, e4, f2]
    simp only
    have : ((P ((k + 1) % n)).x - (P k).x) / eucl (P k) (P ((k + 1) % n)) * ((P j).y - (P k).y) -
        ((P ((k + 1) % n)).y - (P k).y) / eucl (P k) (P ((k + 1) % n)) * ((P j).x - (P k).x) =
        area2 (P k) (P ((k + 1) % n)) (P j) / eucl (P k) (P ((k + 1) % n)) := by
      unfold area2; ring
    rw [this]
    exact div_pos hl hp
  · have : (sides first n P).map (·.p1) = (List.range n).map P := by
      simp [sides]
    rw [this]
    exact List.Nodup.map_on (fun x hx y hy he => hd (List.mem_range.1 hx) (List.mem_range.1 hy) he)
      List.nodup_range

/-- the contour that `polygonize` makes of points -/
theorem contours_of_points (a : PolyArgs ℝ) (hh : a.holes.getD [] = []) (hu : a.units = none)
    (h0 : 0 < a.num) (hv : ∀ k, k < a.num → ∃ A, a.verts[a.first + k]? = some A ∧ A.xy = P k)
    (hlong : ∀ k, k < a.num → 1 / 10 ^ 35 < eucl (P k) (P ((k + 1) % a.num)) ^ 2) :
    ∃ A ctr, a.verts[a.first]? = some A ∧
      buildContours a = .ok (A.z, ctr, [(sides a.first a.num P).map (moveEdge ⟨-ctr.x, -ctr.y⟩)]) := by
  have hlast := hv (a.num - 1) (by omega)
  obtain ⟨A0, hA0, -⟩ := hv 0 h0
  rw [Nat.add_zero] at hA0
  obtain ⟨B, hB, -⟩ := hlast
  have hle : a.first + a.num ≤ a.verts.length := by
    have := (List.getElem?_eq_some_iff.1 hB).1
    omega
  obtain ⟨ctr, hctr⟩ := centerOf_total h0 hle
  have hget : ∀ i : Nat, i < a.verts.length → ∃ v, pyGet a.verts (i : Int) = .ok v :=
    fun i hi => ⟨_, pyGet_nat_ok.2 (List.getElem?_eq_getElem hi)⟩
  obtain ⟨es, hes⟩ : ∃ es, contourEdges a.verts ctr none 0 0 a.first a.num = .ok es := by
    unfold contourEdges
    rw [if_neg (by omega)]
    apply mapM_total
    intro k hk
    rw [List.mem_range] at hk
    obtain ⟨v, h1⟩ := hget (a.first + k) (by omega)
    obtain ⟨w, h2⟩ := hget (if k + 1 = a.num then a.first else a.first + k + 1) (by split <;> omega)
    have hE : ∃ b, Edge2.ofVerts (0 + k) (a.first + k) (if k + 1 = a.num then a.first else a.first + k + 1)
        none a.verts ctr = .ok b := by
      unfold Edge2.ofVerts
      rw [h1, ok_bind, h2, ok_bind]
      exact ⟨_, rfl⟩
    exact hE
  refine ⟨A0, ctr, hA0, ?_⟩
  obtain ⟨-, hl, hk⟩ := contourEdges_ok hes
  have hc : es = (sides a.first a.num P).map (moveEdge ⟨-ctr.x, -ctr.y⟩) := by
    apply List.ext_getElem
    · simp [sides_length, hl]
    · intro k h1 h2
      have hkn : k < a.num := by omega
      obtain ⟨A, B, hA, hB, o1, o2, o3, o4, o5, o6⟩ := hk k _ (List.getElem?_eq_getElem h1)
      obtain ⟨A', hA', pA⟩ := hv k hkn
      obtain ⟨B', hB', pB⟩ := hv ((k + 1) % a.num) (Nat.mod_lt _ h0)
      simp only at hA hB o2 o3
      rw [hA'] at hA
      rw [hB'] at hB
      obtain rfl := Option.some.inj hA
      obtain rfl := Option.some.inj hB
      have hp1 : V3.xy (V3.sub A' ctr) = ⟨(P k).x - ctr.x, (P k).y - ctr.y⟩ := by
        rw [← pA]; simp [V3.xy, V3.sub]
      have hp2 : V3.xy (V3.sub B' ctr) = ⟨(P ((k + 1) % a.num)).x - ctr.x, (P ((k + 1) % a.num)).y - ctr.y⟩ := by
        rw [← pB]; simp [V3.xy, V3.sub]
      have hdir := (heading_normalized (P k) (P ((k + 1) % a.num))).1 (hlong k hkn)
      have hpos : 0 < eucl (P k) (P ((k + 1) % a.num)) := by
        have h0 : 0 ≤ eucl (P k) (P ((k + 1) % a.num)) := Real.sqrt_nonneg _
        rcases h0.lt_or_eq with h | h
        · exact h
        · have := hlong k hkn
          rw [← h] at this
          norm_num at this
      have hsub : V2.sub (V3.xy (V3.sub B' ctr)) (V3.xy (V3.sub A' ctr)) =
          V2.sub (P ((k + 1) % a.num)) (P k) := by
        rw [hp1, hp2]; simp [V2.sub]
      rw [o4, o5, hsub] at o6
      have hn : es[k].norm = ⟨((P ((k + 1) % a.num)).x - (P k).x) / eucl (P k) (P ((k + 1) % a.num)),
          ((P ((k + 1) % a.num)).y - (P k).y) / eucl (P k) (P ((k + 1) % a.num))⟩ := by
        rw [o6]
        obtain ⟨-, d1, d2⟩ := hdir
        cases hnn : V2.normalized (V2.sub (P ((k + 1) % a.num)) (P k)) with
        | mk nx ny =>
          rw [hnn] at d1 d2
          simp only at d1 d2
          rw [V2.mk.injEq]
          constructor
          · rw [d1]; field_simp; ring
          · rw [d2]; field_simp; ring
      cases he : es[k] with
      | mk o i j p q m =>
        rw [he] at o1 o2 o3 o4 o5 hn
        simp only at o1 o2 o3 o4 o5 hn
        simp only [sides, List.getElem_map, List.getElem_range, moveEdge, Edge2.mk.injEq]
        refine ⟨by omega, o2, o3, ?_, ?_, hn⟩
        · rw [o4, hp1]; simp [sub_eq_add_neg]
        · rw [o5, hp2]; simp [sub_eq_add_neg]
  unfold buildContours
  rw [pyGet_nat_ok.2 hA0, ok_bind, hctr, ok_bind, hu]
  simp only [effUnits]
  rw [hes, ok_bind, hh, hc]
  rfl

end
end Polyskel
