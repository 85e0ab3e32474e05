import Verif.Proofs.RoofPoints
import Verif.Proofs.RoofCell
import Verif.Props.ConvexSkeleton
/-
Roofs with one node: the polygon has an inscribed circle.  Used for C62 (triangles) and C68.
-/
namespace Polyskel
open Scalar Real Geo
set_option linter.unusedSectionVars false

/-- three different directions do not make the same angle with a line -/
theorem three_dirs {ax ay bx b_y cx cy dx dy t : ℝ} (ha : ax ^ 2 + ay ^ 2 = 1) (hb : bx ^ 2 + b_y ^ 2 = 1)
    (hc : cx ^ 2 + cy ^ 2 = 1) (ta : ax * dx + ay * dy = t) (tb : bx * dx + b_y * dy = t)
    (tc : cx * dx + cy * dy = t) (hab : ax ≠ bx ∨ ay ≠ b_y) (hbc : bx ≠ cx ∨ b_y ≠ cy)
    (hac : ax ≠ cx ∨ ay ≠ cy) : dx = 0 ∧ dy = 0 := by
  by_contra hcon
  have hd : 0 < dx ^ 2 + dy ^ 2 := by
    rcases not_and_or.1 hcon with h | h
    · have := pow_pos (abs_pos.2 h) 2; rw [sq_abs] at this; nlinarith [sq_nonneg dy]
    · have := pow_pos (abs_pos.2 h) 2; rw [sq_abs] at this; nlinarith [sq_nonneg dx]
  -- the components across the line
  have key : ∀ {ux uy vx vy : ℝ}, ux ^ 2 + uy ^ 2 = 1 → vx ^ 2 + vy ^ 2 = 1 → ux * dx + uy * dy = t →
      vx * dx + vy * dy = t → (ux ≠ vx ∨ uy ≠ vy) → ux * dy - uy * dx = -(vx * dy - vy * dx) := by
    intro ux uy vx vy hu hv tu tv hne
    have h1 : (ux * dy - uy * dx) ^ 2 = (vx * dy - vy * dx) ^ 2 := by
      have e1 : (ux * dx + uy * dy) ^ 2 + (ux * dy - uy * dx) ^ 2 = dx ^ 2 + dy ^ 2 := by
        linear_combination (dx ^ 2 + dy ^ 2) * hu
      have e2 : (vx * dx + vy * dy) ^ 2 + (vx * dy - vy * dx) ^ 2 = dx ^ 2 + dy ^ 2 := by
        linear_combination (dx ^ 2 + dy ^ 2) * hv
      rw [tu] at e1
      rw [tv] at e2
      linarith
    rcases sq_eq_sq_iff_eq_or_eq_neg.1 h1 with h2 | h2
    · exfalso
      have ex : (dx ^ 2 + dy ^ 2) * (ux - vx) = 0 := by linear_combination dx * (tu - tv) + dy * h2
      have ey : (dx ^ 2 + dy ^ 2) * (uy - vy) = 0 := by linear_combination dy * (tu - tv) - dx * h2
      have hx := (mul_eq_zero.1 ex).resolve_left hd.ne'
      have hy := (mul_eq_zero.1 ey).resolve_left hd.ne'
      rcases hne with h | h
      · exact h (by linarith)
      · exact h (by linarith)
    · exact h2
  have k1 := key ha hb ta tb hab
  have k2 := key hb hc tb tc hbc
  have k3 := key ha hc ta tc hac
  have z : ax * dy - ay * dx = 0 := by linarith
  have z' : bx * dy - b_y * dx = 0 := by linarith
  have ex : (dx ^ 2 + dy ^ 2) * (ax - bx) = 0 := by linear_combination dx * (ta - tb) + dy * (z - z')
  have ey : (dx ^ 2 + dy ^ 2) * (ay - b_y) = 0 := by linear_combination dy * (ta - tb) - dx * (z - z')
  have hx := (mul_eq_zero.1 ex).resolve_left hd.ne'
  have hy := (mul_eq_zero.1 ey).resolve_left hd.ne'
  rcases hab with h | h
  · exact h (by linarith)
  · exact h (by linarith)

/-- all edges have the distance `r` from `I` -/
def Inscribed (c : List (Edge2 ℝ)) (I : V2 ℝ) (r : ℝ) : Prop := ∀ e ∈ c, height e.p1 e.norm I = r

variable {c : List (Edge2 ℝ)} {I : V2 ℝ} {r : ℝ}

/-- three edges meet nowhere else -/
theorem Inscribed.triple (hI : Inscribed c I r) (hc : ConvexPolygon c) {X : V2 ℝ} {h : ℝ} {e1 e2 e3 : Edge2 ℝ}
    (m1 : e1 ∈ c) (m2 : e2 ∈ c) (m3 : e3 ∈ c) (n12 : e1 ≠ e2) (n23 : e2 ≠ e3) (n13 : e1 ≠ e3)
    (p1 : height e1.p1 e1.norm X = h) (p2 : height e2.p1 e2.norm X = h)
    (p3 : height e3.p1 e3.norm X = h) : X = I ∧ h = r := by
  have hne : ∀ {e f}, e ∈ c → f ∈ c → e ≠ f → -e.norm.y ≠ -f.norm.y ∨ e.norm.x ≠ f.norm.x := by
    intro e f he hf hef
    by_contra hcon
    push Not at hcon
    refine hef (hc.norm_inj he hf ?_)
    cases hn : e.norm with
    | mk ex ey =>
      cases hm : f.norm with
      | mk fx fy =>
        rw [hn, hm] at hcon
        simp only [neg_inj] at hcon
        rw [hcon.1, hcon.2]
  have hun : ∀ {e}, e ∈ c → (-e.norm.y) ^ 2 + e.norm.x ^ 2 = 1 := fun he => by
    have := hc.unit _ he; linarith
  have hdot : ∀ {e}, e ∈ c → height e.p1 e.norm X = h →
      -e.norm.y * (X.x - I.x) + e.norm.x * (X.y - I.y) = h - r := by
    intro e he hp
    have := hI e he
    unfold height at this hp
    linarith
  obtain ⟨hx, hy⟩ := three_dirs (hun m1) (hun m2) (hun m3) (hdot m1 p1) (hdot m2 p2) (hdot m3 p3)
    (hne m1 m2 n12) (hne m2 m3 n23) (hne m1 m3 n13)
  have hXI : X = I := by
    cases X; cases I
    simp only [V2.mk.injEq] at hx hy ⊢
    exact ⟨by linarith, by linarith⟩
  subst hXI
  exact ⟨rfl, by rw [← p1, hI e1 m1]⟩

theorem Inscribed.node (hI : Inscribed c I r) (hc : ConvexPolygon c) {X : V2 ℝ} {h : ℝ} (hn : RoofNode c X h) :
    X = I ∧ h = r := by
  obtain ⟨e1, m1, e2, m2, e3, m3, n12, n23, n13, p1, p2, p3⟩ := hn.three
  exact hI.triple hc m1 m2 m3 n12 n23 n13 p1 p2 p3

theorem Inscribed.one (hI : Inscribed c I r) (hc : ConvexPolygon c) : OneNode c := by
  intro p h p' h' hn hn'
  rw [(hI.node hc hn).1, (hI.node hc hn').1]

theorem Inscribed.separated (hI : Inscribed c I r) (hc : ConvexPolygon c) : Separated c := by
  rintro h h' ⟨p, e1, m1, e2, m2, e3, m3, n12, n23, n13, p1, p2, p3⟩
    ⟨p', f1, k1, f2, k2, f3, k3, o12, o23, o13, q1, q2, q3⟩ - hlt
  have a1 := (hI.triple hc m1 m2 m3 n12 n23 n13 p1 p2 p3).2
  have a2 := (hI.triple hc k1 k2 k3 o12 o23 o13 q1 q2 q3).2
  linarith

/-- if the roof has one node, `skeletonize` only merges the nodes after the main loop -/
theorem one_finish {st : St ℝ} {out : List (Subtree ℝ)} {ch : Nat → List Nat}
    (hc : ConvexPolygon c) (h3 : 3 ≤ c.length) (h1 : OneNode c)
    (hg : Grown c st out ch []) (hl : out.length + 2 = c.length) (ha : ∀ s ∈ out, RoofArc c s) :
    finish [c] out = .ok ((mergeSame [] out).map noLoop) := by
  obtain ⟨sk, L, R, ch', hsk, hk1, -, hn, ht, hinj, hs⟩ := hg.roof hl h3 hc ha
  have hne : c ≠ [] := by rintro rfl; simp at h3
  have hone : sk.length = 1 := by
    by_contra hcon
    have l0 : 0 < sk.length := by omega
    have l1 : 1 < sk.length := by omega
    have he := h1 _ _ _ _ (hn _ (List.getElem_mem l0)).node (hn _ (List.getElem_mem l1)).node
    rw [← posOf_node (c := c) (List.getElem?_eq_getElem l0),
      ← posOf_node (c := c) (List.getElem?_eq_getElem l1)] at he
    have := hinj _ _ (by omega) (by omega) he
    omega
  apply finish_same (hc.apses hne)
  · have hlen : (mergeSame [] out).length = 1 := by
      rw [← hone, hsk, List.length_map]
    obtain ⟨s, hs1⟩ := List.length_eq_one_iff.1 hlen
    rw [hs1]
    simp
  · rw [← hsk]
    intro x hx p hp
    right
    obtain ⟨j, hj, rfl⟩ := List.getElem_of_mem hx
    rw [hs j _ (List.getElem?_eq_getElem hj)] at hp
    obtain ⟨u, hu, v, hv, -, rfl⟩ := mem_pairs_map _ (ht.ch_nodup hj) hp
    have hcor : ∀ u ∈ ch' j, u < c.length := fun u hu => by
      have := ht.child_lt hj hu
      omega
    intro b hb
    obtain ⟨i, hi, rfl⟩ := List.getElem_of_mem hb
    have hnot : ∀ u, u < c.length → sk[i].source ≠ posOf c sk u := by
      intro u hu he
      rw [posOf_corner hu] at he
      have hnod := (hn _ (List.getElem_mem hi)).node
      rw [he] at hnod
      exact hc.not_node hu hnod
    exact ⟨hnot u (hcor u hu), hnot v (hcor v hv)⟩

/-! ### Triangles -/

theorem triangle_one (hc : ConvexPolygon c) (h3 : c.length = 3) : OneNode c := by
  intro p h p' h' hn hn'
  have hI : Inscribed c p h := by
    obtain ⟨a, b, d, rfl⟩ := List.length_eq_three.1 h3
    obtain ⟨e1, m1, e2, m2, e3, m3, n12, n23, n13, p1, p2, p3⟩ := hn.three
    obtain ⟨a1, a2, a3⟩ := all_of_three (Q := fun e => height e.p1 e.norm p = h) m1 m2 m3 n12 n23 n13 p1 p2 p3
    intro e he
    simp only [List.mem_cons, List.not_mem_nil, or_false] at he
    rcases he with rfl | rfl | rfl
    · exact a1
    · exact a2
    · exact a3
  exact (hI.node hc hn').1.symm

end Polyskel
