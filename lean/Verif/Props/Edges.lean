import Verif.Props.Equidistant

/-!
C58: what an `Edge2` records (bpyeuclid.py:29-55): its two end points, taken relative to the
centre when the edge is given by indices, a direction of length one pointing from the first end
point to the second, and the square of its length.
-/

set_option linter.unusedSectionVars false

namespace Polyskel

open Geo

/-- `n` is the direction from `p` to `q`: a vector of length one such that going from `p` along
`n` for the distance of the two points leads to `q`; the zero vector for points so close together
(squared distance at most 1e-35) that mathutils gives up. -/
def Heading (p q n : V2 ℝ) : Prop :=
  (1 / 10 ^ 35 < (eucl p q) ^ 2 → n.x ^ 2 + n.y ^ 2 = 1 ∧
    q.x = p.x + eucl p q * n.x ∧ q.y = p.y + eucl p q * n.y) ∧
  ((eucl p q) ^ 2 ≤ 1 / 10 ^ 35 → n = ⟨0, 0⟩)

theorem heading_normalized (p q : V2 ℝ) : Heading p q (V2.normalized (V2.sub q p)) := by
  have hs : (eucl p q) ^ 2 = V2.dot (V2.sub q p) (V2.sub q p) := by
    rw [eucl, Real.sq_sqrt (by positivity)]
    simp [V2.dot, V2.sub]; ring
  have h0 : 0 ≤ eucl p q := Real.sqrt_nonneg _
  constructor
  · intro h
    have hpos : 0 < eucl p q := by
      rcases h0.lt_or_eq with h1 | h1
      · exact h1
      · rw [← h1] at h; norm_num at h
    have hx : (eucl p q) ^ 2 = (q.x - p.x) ^ 2 + (q.y - p.y) ^ 2 := by
      rw [hs]; simp [V2.dot, V2.sub]; ring
    unfold V2.normalized
    rw [if_pos (by rw [ex_lt, ex_lit, ← hs]; push_cast; norm_num at h ⊢; exact h), ← hs]
    simp only [ex_rnd, ex_sqrt, ex_one, ex_div, ex_mul, Real.sqrt_sq h0, V2.sub, ex_sub]
    refine ⟨?_, ?_, ?_⟩
    · field_simp
      linarith
    · field_simp; ring
    · field_simp; ring
  · intro h
    unfold V2.normalized
    rw [if_neg]
    · simp
    · rw [ex_lt, ex_lit, ← hs]; push_cast; norm_num at h ⊢; exact h

/-- C58: an edge given by two points. -/
theorem C58_points (oid : Nat) (p q : V2 ℝ) :
    (Edge2.ofPoints oid p q).p1 = p ∧ (Edge2.ofPoints oid p q).p2 = q ∧
    Heading p q (Edge2.ofPoints oid p q).norm ∧
    (Edge2.ofPoints oid p q).lengthSq = (eucl p q) ^ 2 := by
  refine ⟨rfl, rfl, heading_normalized p q, ?_⟩
  unfold Edge2.lengthSq Edge2.ofPoints
  rw [eucl, Real.sq_sqrt (by positivity)]
  simp [V2.lengthSq, V2.dot, V2.sub]; ring

/-- C58: an edge given by two indices.  It exists exactly when both indices are in range, records
them, and its end points are the vertices seen from the centre.  The direction is the one handed
over, if there is one, and computed otherwise. -/
theorem C58_verts (oid i j : Nat) (u : Option (V3 ℝ)) (verts : List (V3 ℝ)) (c : V3 ℝ) :
    (∀ a b, verts[i]? = some a → verts[j]? = some b → ∃ e, Edge2.ofVerts oid i j u verts c = .ok e ∧
      e.i1 = i ∧ e.i2 = j ∧
      e.p1 = ⟨a.x - c.x, a.y - c.y⟩ ∧ e.p2 = ⟨b.x - c.x, b.y - c.y⟩ ∧
      (∀ w, u = some w → e.norm = ⟨w.x, w.y⟩) ∧
      (u = none → Heading ⟨a.x, a.y⟩ ⟨b.x, b.y⟩ e.norm) ∧
      e.lengthSq = (a.x - b.x) ^ 2 + (a.y - b.y) ^ 2) ∧
    (verts.length ≤ i ∨ verts.length ≤ j → Edge2.ofVerts oid i j u verts c = .error .index) := by
  have hget : ∀ k : Nat, pyGet verts (k : Int) = match verts[k]? with
      | some a => .ok a | none => .error .index := by
    intro k
    unfold pyGet
    simp only [show ¬ ((k : Int) < 0) by omega, if_false, Int.toNat_natCast]
    split <;> simp_all
  constructor
  · intro a b ha hb
    refine ⟨_, by unfold Edge2.ofVerts; rw [hget, hget, ha, hb]; rfl, rfl, rfl, ?_, ?_, ?_, ?_, ?_⟩
    · simp [V3.xy, V3.sub]
    · simp [V3.xy, V3.sub]
    · rintro w rfl; rfl
    · rintro rfl
      have h := heading_normalized (V3.xy (V3.sub a c)) (V3.xy (V3.sub b c))
      have he : eucl (V3.xy (V3.sub a c)) (V3.xy (V3.sub b c)) = eucl ⟨a.x, a.y⟩ ⟨b.x, b.y⟩ := by
        unfold eucl; simp [V3.xy, V3.sub]
      unfold Heading at h ⊢
      rw [he] at h
      refine ⟨fun hx => ?_, h.2⟩
      obtain ⟨h1, h2, h3⟩ := h.1 hx
      simp only [V3.xy, V3.sub, ex_rnd, ex_sub] at h1 h2 h3 ⊢
      exact ⟨h1, by linarith, by linarith⟩
    · unfold Edge2.lengthSq
      simp [V2.lengthSq, V2.dot, V2.sub, V3.xy, V3.sub]; ring
  · intro h
    unfold Edge2.ofVerts
    rw [hget, hget]
    rcases h with h | h
    · rw [List.getElem?_eq_none h]; rfl
    · rw [List.getElem?_eq_none h]
      cases verts[i]? <;> rfl

/-- case for C58: an edge of length 5 -/
example : (Edge2.ofPoints 0 (⟨1, 1⟩ : V2 ℝ) ⟨4, 5⟩).norm = ⟨3 / 5, 4 / 5⟩ := by
  have he : eucl (⟨1, 1⟩ : V2 ℝ) ⟨4, 5⟩ = 5 := by
    rw [eucl, show ((1 : ℝ) - 4) ^ 2 + (1 - 5) ^ 2 = 5 ^ 2 by norm_num]
    exact Real.sqrt_sq (by norm_num)
  obtain ⟨-, -, ⟨h, -⟩, -⟩ := C58_points 0 ⟨1, 1⟩ ⟨4, 5⟩
  rw [he] at h
  obtain ⟨-, h1, h2⟩ := h (by norm_num)
  rw [V2.mk.injEq]
  exact ⟨by simp only at h1; linarith, by simp only at h2; linarith⟩

/-- case for C58: an edge given by indices, and an index out of range -/
example : (Edge2.ofVerts 0 0 1 none [sp3 1 1 0, sp3 4 5 0] (sp3 1 1 0)).isOk = true ∧
    Edge2.ofVerts 0 0 2 none [sp3 1 1 0, sp3 4 5 0] (sp3 1 1 0) = .error .index := by
  decide +kernel

end Polyskel
