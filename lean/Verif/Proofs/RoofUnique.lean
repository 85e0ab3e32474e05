import Verif.Proofs.RoofCell
/-
The part of a roof over one edge has only one boundary: its corners are the points where two further
edges are as near, and a convex polygon is determined by its corners and its first side.
-/
namespace Polyskel
open Scalar Geo

/-- Over a convex ring of points an affine function is nowhere less than at all points of the ring. -/
theorem ring_min {n : Nat} {Q : Nat → V2 ℝ} (h3 : 3 ≤ n)
    (hleft : ∀ i, i < n → 0 < area2 (Q i) (Q ((i + 1) % n)) (Q ((i + 2) % n))) {X : V2 ℝ}
    (hX : ∀ i, i < n → 0 ≤ area2 (Q i) (Q ((i + 1) % n)) X) (A B C : ℝ) :
    ∃ m < n, A * (Q m).x + B * (Q m).y + C ≤ A * X.x + B * X.y + C := by
  obtain ⟨m, hm, hle⟩ := Finset.exists_min_image (Finset.range n)
    (fun i => A * (Q i).x + B * (Q i).y + C) ⟨0, by simp; omega⟩
  simp only [Finset.mem_range] at hm hle
  obtain ⟨u, hu, hum⟩ : ∃ u, u < n ∧ (u + 1) % n = m := by
    by_cases h0 : m = 0
    · exact ⟨n - 1, by omega, by rw [Nat.sub_add_cancel (by omega), Nat.mod_self, h0]⟩
    · exact ⟨m - 1, by omega, by rw [Nat.sub_add_cancel (by omega), Nat.mod_eq_of_lt hm]⟩
  have hw : (m + 1) % n = (u + 2) % n := by rw [← hum, Nat.mod_add_mod]
  have hl := hleft u hu
  have x1 := hX u hu
  have x2 := hX m hm
  rw [hum, ← hw] at hl
  rw [hum] at x1
  have l1 := hle u hu
  have l2 := hle _ (Nat.mod_lt (m + 1) (by omega : n > 0))
  refine ⟨m, hm, ?_⟩
  have key := affine_three A B C (Q u) (Q m) (Q ((m + 1) % n)) X
  have hsum : area2 (Q u) (Q m) (Q ((m + 1) % n)) = area2 (Q m) (Q ((m + 1) % n)) X +
      area2 (Q ((m + 1) % n)) (Q u) X + area2 (Q u) (Q m) X := by unfold area2; ring
  set φX := A * X.x + B * X.y + C
  set φu := A * (Q u).x + B * (Q u).y + C
  set φm := A * (Q m).x + B * (Q m).y + C
  set φw := A * (Q ((m + 1) % n)).x + B * (Q ((m + 1) % n)).y + C
  have key2 : area2 (Q u) (Q m) (Q ((m + 1) % n)) * (φX - φm) =
      area2 (Q m) (Q ((m + 1) % n)) X * (φu - φm) + area2 (Q u) (Q m) X * (φw - φm) := by
    linear_combination key - φm * hsum
  have t1 := mul_nonneg x2 (sub_nonneg.2 l1)
  have t2 := mul_nonneg x1 (sub_nonneg.2 l2)
  have hd : 0 ≤ φX - φm := nonneg_of_mul_nonneg_right (by rw [key2]; linarith) hl
  linarith

/-- three different unit vectors are not in a line -/
theorem unit_three {u v w : V2 ℝ} (hu : u.x ^ 2 + u.y ^ 2 = 1) (hv : v.x ^ 2 + v.y ^ 2 = 1)
    (hw : w.x ^ 2 + w.y ^ 2 = 1) (h1 : v ≠ u) (h2 : w ≠ u) (h3 : v ≠ w) :
    (v.x - u.x) * (w.y - u.y) - (v.y - u.y) * (w.x - u.x) ≠ 0 := by
  intro hd
  have hpos : ∀ {p q : V2 ℝ}, p ≠ q → 0 < (p.x - q.x) ^ 2 + (p.y - q.y) ^ 2 := by
    intro p q hpq
    rcases lt_or_eq_of_le (add_nonneg (sq_nonneg (p.x - q.x)) (sq_nonneg (p.y - q.y))) with h | h
    · exact h
    · exfalso
      apply hpq
      have e1 : p.x - q.x = 0 := by nlinarith [sq_nonneg (p.x - q.x), sq_nonneg (p.y - q.y)]
      have e2 : p.y - q.y = 0 := by nlinarith [sq_nonneg (p.x - q.x), sq_nonneg (p.y - q.y)]
      cases p; cases q
      simp only at e1 e2
      congr 1 <;> linarith
  have p1 := hpos h1
  have p2 := hpos h2
  have p3 := hpos h3
  have q1 : ((v.x - u.x) ^ 2 + (v.y - u.y) ^ 2) * ((w.x - u.x) ^ 2 + (w.y - u.y) ^ 2 -
      ((v.x - u.x) * (w.x - u.x) + (v.y - u.y) * (w.y - u.y))) = 0 := by
    linear_combination ((v.x - u.x) ^ 2 + (v.y - u.y) ^ 2) * (hw - hu) -
      ((v.x - u.x) * (w.x - u.x) + (v.y - u.y) * (w.y - u.y)) * (hv - hu) +
      2 * (u.x * (v.y - u.y) - u.y * (v.x - u.x)) * hd
  have q2 : ((w.x - u.x) ^ 2 + (w.y - u.y) ^ 2) * ((v.x - u.x) ^ 2 + (v.y - u.y) ^ 2 -
      ((v.x - u.x) * (w.x - u.x) + (v.y - u.y) * (w.y - u.y))) = 0 := by
    linear_combination ((w.x - u.x) ^ 2 + (w.y - u.y) ^ 2) * (hv - hu) -
      ((v.x - u.x) * (w.x - u.x) + (v.y - u.y) * (w.y - u.y)) * (hw - hu) -
      2 * (u.x * (w.y - u.y) - u.y * (w.x - u.x)) * hd
  have r1 := (mul_eq_zero.1 q1).resolve_left p1.ne'
  have r2 := (mul_eq_zero.1 q2).resolve_left p2.ne'
  have : (v.x - w.x) ^ 2 + (v.y - w.y) ^ 2 = 0 := by linear_combination r1 + r2
  linarith

/-- The points `Q` are the boundary of the part of the roof over `c` that belongs to `e`. -/
structure CellRing (c : List (Edge2 ℝ)) (e : Edge2 ℝ) (n : Nat) (Q : Nat → V2 ℝ) : Prop where
  size : 3 ≤ n
  left : ∀ i, i < n → 0 < area2 (Q i) (Q ((i + 1) % n)) (Q ((i + 2) % n))
  near : ∀ i, i < n → ∀ g ∈ c, height e.p1 e.norm (Q i) ≤ height g.p1 g.norm (Q i)
  ridge : ∀ i, i < n → i ≠ 0 → ∃ g ∈ c, g.norm ≠ e.norm ∧
      height g.p1 g.norm (Q i) = height e.p1 e.norm (Q i) ∧
      height g.p1 g.norm (Q ((i + 1) % n)) = height e.p1 e.norm (Q ((i + 1) % n))
  first : Q 0 = e.p1
  second : Q 1 = e.p2
  inside : ∀ i, 2 ≤ i → i < n → 0 < height e.p1 e.norm (Q i)

variable {c : List (Edge2 ℝ)} {e : Edge2 ℝ} {n m : Nat} {Q R : Nat → V2 ℝ}

/-- the side of an edge -/
theorem side_height (hal : ∃ r > 0, e.p2.x - e.p1.x = r * e.norm.x ∧ e.p2.y - e.p1.y = r * e.norm.y) :
    ∃ r > 0, ∀ X, area2 e.p1 e.p2 X = r * height e.p1 e.norm X := by
  obtain ⟨r, hr, r1, r2⟩ := hal
  refine ⟨r, hr, fun X => ?_⟩
  unfold area2 height
  rw [r1, r2]
  ring

variable (hal : ∃ r > 0, e.p2.x - e.p1.x = r * e.norm.x ∧ e.p2.y - e.p1.y = r * e.norm.y)
include hal

/-- the points over a ring are the points nearest to the edge -/
theorem CellRing.over (h : CellRing c e n Q) (X : V2 ℝ) :
    (∀ i, i < n → 0 ≤ area2 (Q i) (Q ((i + 1) % n)) X) ↔ 0 ≤ height e.p1 e.norm X ∧
      ∀ g ∈ c, height e.p1 e.norm X ≤ height g.p1 g.norm X := by
  obtain ⟨r, hr, hs⟩ := side_height hal
  exact (cell_core h.size h.left h.near h.ridge hr (by rw [h.first, h.second]; exact hs) X).1

/-- no point of the ring is below the edge -/
theorem CellRing.nonneg (h : CellRing c e n Q) {i : Nat} (hi : i < n) : 0 ≤ height e.p1 e.norm (Q i) := by
  obtain ⟨r, hr, r1, r2⟩ := hal
  rcases Nat.lt_or_ge i 2 with h2 | h2
  · have : i = 0 ∨ i = 1 := by omega
    rcases this with rfl | rfl
    · rw [h.first]; simp [height]
    · rw [h.second]; unfold height; rw [r1, r2]; exact le_of_eq (by ring)
  · exact (h.inside i h2 hi).le

/-- a point where two further edges are as near as `e` is in the ring -/
theorem CellRing.corner (h : CellRing c e n Q) (hu : e.norm.x ^ 2 + e.norm.y ^ 2 = 1)
    {X : V2 ℝ} (h0 : 0 ≤ height e.p1 e.norm X)
    (hX : ∀ g ∈ c, height e.p1 e.norm X ≤ height g.p1 g.norm X) {g1 g2 : Edge2 ℝ} (m1 : g1 ∈ c) (m2 : g2 ∈ c)
    (u1 : g1.norm.x ^ 2 + g1.norm.y ^ 2 = 1) (u2 : g2.norm.x ^ 2 + g2.norm.y ^ 2 = 1)
    (n1 : g1.norm ≠ e.norm) (n2 : g2.norm ≠ e.norm) (n3 : g1.norm ≠ g2.norm)
    (e1 : height g1.p1 g1.norm X = height e.p1 e.norm X)
    (e2 : height g2.p1 g2.norm X = height e.p1 e.norm X) : ∃ i < n, Q i = X := by
  have ho := (h.over hal X).2 ⟨h0, hX⟩
  have d1 := height_diff e g1
  have d2 := height_diff e g2
  set A1 := e.norm.y - g1.norm.y
  set B1 := g1.norm.x - e.norm.x
  set C1 := g1.norm.y * g1.p1.x - g1.norm.x * g1.p1.y - (e.norm.y * e.p1.x - e.norm.x * e.p1.y)
  set A2 := e.norm.y - g2.norm.y
  set B2 := g2.norm.x - e.norm.x
  set C2 := g2.norm.y * g2.p1.x - g2.norm.x * g2.p1.y - (e.norm.y * e.p1.x - e.norm.x * e.p1.y)
  obtain ⟨i, hi, hle⟩ := ring_min h.size h.left ho (A1 + A2) (B1 + B2) (C1 + C2)
  refine ⟨i, hi, ?_⟩
  have a1 := h.near i hi g1 m1
  have a2 := h.near i hi g2 m2
  have x1 := d1 X
  have x2 := d2 X
  have y1 := d1 (Q i)
  have y2 := d2 (Q i)
  have z1 : A1 * ((Q i).x - X.x) + B1 * ((Q i).y - X.y) = 0 := by linarith
  have z2 : A2 * ((Q i).x - X.x) + B2 * ((Q i).y - X.y) = 0 := by linarith
  have hdet : A1 * B2 - A2 * B1 ≠ 0 := by
    have := unit_three hu u1 u2 n1 n2 n3
    intro hz
    apply this
    linear_combination hz
  have w1 : (Q i).x - X.x = 0 := (mul_eq_zero.1 (by linear_combination B2 * z1 - B1 * z2 :
    (A1 * B2 - A2 * B1) * ((Q i).x - X.x) = 0)).resolve_left hdet
  have w2 : (Q i).y - X.y = 0 := (mul_eq_zero.1 (by linear_combination A1 * z2 - A2 * z1 :
    (A1 * B2 - A2 * B1) * ((Q i).y - X.y) = 0)).resolve_left hdet
  cases hq : Q i
  cases X
  rw [hq] at w1 w2
  simp only at w1 w2
  congr 1 <;> linarith

omit hal in
/-- a point of the ring that is not on the edge is such a point -/
theorem CellRing.two (h : CellRing c e n Q) {i : Nat} (h2 : 2 ≤ i) (hi : i < n) :
    ∃ g1 ∈ c, ∃ g2 ∈ c, g1.norm ≠ e.norm ∧ g2.norm ≠ e.norm ∧ g1.norm ≠ g2.norm ∧
      height g1.p1 g1.norm (Q i) = height e.p1 e.norm (Q i) ∧
      height g2.p1 g2.norm (Q i) = height e.p1 e.norm (Q i) := by
  have e1 : (i - 1 + 1) % n = i := by rw [Nat.sub_add_cancel (by omega), Nat.mod_eq_of_lt hi]
  have e2 : (i - 1 + 2) % n = (i + 1) % n := by rw [show i - 1 + 2 = i + 1 by omega]
  obtain ⟨g1, m1, n1, a1, b1⟩ := h.ridge (i - 1) (by omega) (by omega)
  obtain ⟨g2, m2, n2, a2, b2⟩ := h.ridge i hi (by omega)
  rw [e1] at b1
  refine ⟨g1, m1, g2, m2, n1, n2, fun hn => ?_, b1, a2⟩
  have hl := h.left (i - 1) (by omega)
  rw [e1, e2] at hl
  -- the two edges would be on the same line
  have hsame : ∀ X, height g1.p1 g1.norm X = height g2.p1 g2.norm X := by
    intro X
    have h1 : height g1.p1 g1.norm X - height g2.p1 g2.norm X =
        height g1.p1 g1.norm (Q i) - height g2.p1 g2.norm (Q i) := by
      unfold height; rw [hn]; ring
    rw [b1, a2] at h1
    linarith
  rw [← hsame] at b2
  have x1 := height_diff e g1 (Q (i - 1))
  have x2 := height_diff e g1 (Q i)
  have x3 := height_diff e g1 (Q ((i + 1) % n))
  rw [a1, sub_self] at x1
  rw [b1, sub_self] at x2
  rw [b2, sub_self] at x3
  exact norm_ne n1 (affine_zero hl.ne' x1.symm x2.symm x3.symm)

/-- every point of one ring is in the other -/
theorem CellRing.mem (hR : CellRing c e m R) (hQ : CellRing c e n Q)
    (hu : e.norm.x ^ 2 + e.norm.y ^ 2 = 1) (hc : ∀ g ∈ c, g.norm.x ^ 2 + g.norm.y ^ 2 = 1)
    {i : Nat} (hi : i < n) : ∃ j < m, R j = Q i := by
  have hm := hR.size
  rcases Nat.lt_or_ge i 2 with h2 | h2
  · have : i = 0 ∨ i = 1 := by omega
    rcases this with rfl | rfl
    · exact ⟨0, by omega, hR.first.trans hQ.first.symm⟩
    · exact ⟨1, by omega, hR.second.trans hQ.second.symm⟩
  · obtain ⟨g1, m1, g2, m2, n1, n2, n3, a1, a2⟩ := hQ.two h2 hi
    exact hR.corner hal hu (hQ.nonneg hal hi) (hQ.near i hi) m1 m2 (hc _ m1) (hc _ m2) n1 n2 n3 a1 a2

/-- the same point is followed by the same point -/
theorem CellRing.succ (hQ : CellRing c e n Q) (hR : CellRing c e m R)
    (hu : e.norm.x ^ 2 + e.norm.y ^ 2 = 1) (hc : ∀ g ∈ c, g.norm.x ^ 2 + g.norm.y ^ 2 = 1)
    {i j : Nat} (hi : i < n) (hj : j < m) (h : Q i = R j) : Q ((i + 1) % n) = R ((j + 1) % m) := by
  have hn := hQ.size
  have hm := hR.size
  have overQ : ∀ k, k < n → ∀ l, l < n → 0 ≤ area2 (Q k) (Q ((k + 1) % n)) (Q l) := fun k hk l hl =>
    (hQ.over hal (Q l)).2 ⟨hQ.nonneg hal hl, hQ.near l hl⟩ k hk
  have overR : ∀ k, k < m → ∀ l, l < m → 0 ≤ area2 (R k) (R ((k + 1) % m)) (R l) := fun k hk l hl =>
    (hR.over hal (R l)).2 ⟨hR.nonneg hal hl, hR.near l hl⟩ k hk
  have hi1 : (i + 1) % n < n := Nat.mod_lt _ (by omega)
  have hj1 : (j + 1) % m < m := Nat.mod_lt _ (by omega)
  obtain ⟨l, hl, hlB⟩ := hQ.mem hal hR hu hc hj1
  obtain ⟨l', hl', hlA⟩ := hR.mem hal hQ hu hc hi1
  -- the point before
  obtain ⟨u, hu', hui⟩ : ∃ u, u < n ∧ (u + 1) % n = i := by
    by_cases h0 : i = 0
    · exact ⟨n - 1, by omega, by rw [Nat.sub_add_cancel (by omega), Nat.mod_self, h0]⟩
    · exact ⟨i - 1, by omega, by rw [Nat.sub_add_cancel (by omega), Nat.mod_eq_of_lt hi]⟩
  have hu2 : (u + 2) % n = (i + 1) % n := by rw [← hui, Nat.mod_add_mod]
  have s1 := overQ i hi l hl
  have s2 := overR j hj l' hl'
  have s3 := overQ u hu' l hl
  have s4 := overQ _ hi1 l hl
  have s5 := overR _ hj1 l' hl'
  have t1 := hQ.left i hi
  have t2 := hR.left j hj
  have t3 := hQ.left u hu'
  rw [Nat.mod_add_mod] at s4 s5
  rw [hui, hu2] at t3
  rw [hui] at s3
  rw [hlB] at s1 s3 s4
  rw [hlA] at s2 s5
  rw [← h] at s2 t2
  set O := Q i
  set A := Q ((i + 1) % n)
  set B := R ((j + 1) % m)
  set Z := Q u
  set D := Q ((i + 2) % n)
  set D' := R ((j + 2) % m)
  -- `B` is on the line from `O` to `A`
  have hz : area2 O A B = 0 := by
    have : area2 O B A = -area2 O A B := by unfold area2; ring
    rw [this] at s2
    linarith
  clear_value O A B Z D D'
  obtain ⟨t, ht⟩ : ∃ t, t * area2 Z O A = area2 Z O B := ⟨_, div_mul_cancel₀ _ t3.ne'⟩
  have bx : B.x = O.x + t * (A.x - O.x) := by
    apply mul_left_cancel₀ t3.ne'
    unfold area2 at ht hz ⊢
    linear_combination (Z.x - O.x) * hz - (A.x - O.x) * ht
  have by' : B.y = O.y + t * (A.y - O.y) := by
    apply mul_left_cancel₀ t3.ne'
    unfold area2 at ht hz ⊢
    linear_combination (Z.y - O.y) * hz - (A.y - O.y) * ht
  have t0 : 0 ≤ t := nonneg_of_mul_nonneg_left (by rw [ht]; exact s3) t3
  have tle : t ≤ 1 := by
    have : area2 A D B = (1 - t) * area2 O A D := by
      unfold area2; rw [bx, by']; ring
    rw [this] at s4
    linarith [nonneg_of_mul_nonneg_left s4 t1]
  have tge : 1 ≤ t := by
    have : t * area2 B D' A = (t - 1) * area2 O B D' := by
      unfold area2; rw [bx, by']; ring
    have := mul_nonneg t0 s5
    rw [‹t * area2 B D' A = _›] at this
    linarith [nonneg_of_mul_nonneg_left this t2]
  have t1' : t = 1 := le_antisymm tle tge
  rw [t1'] at bx by'
  cases A; cases B
  simp only at bx by'
  congr 1 <;> linarith

/-- from there on as well -/
theorem CellRing.add (hQ : CellRing c e n Q) (hR : CellRing c e m R)
    (hu : e.norm.x ^ 2 + e.norm.y ^ 2 = 1) (hc : ∀ g ∈ c, g.norm.x ^ 2 + g.norm.y ^ 2 = 1)
    {i j : Nat} (hi : i < n) (hj : j < m) (h : Q i = R j) (k : Nat) :
    Q ((i + k) % n) = R ((j + k) % m) := by
  have hn := hQ.size
  have hm := hR.size
  induction k with
  | zero => rwa [Nat.add_zero, Nat.add_zero, Nat.mod_eq_of_lt hi, Nat.mod_eq_of_lt hj]
  | succ k ih =>
    have := hQ.succ hal hR hu hc (Nat.mod_lt _ (by omega)) (Nat.mod_lt _ (by omega)) ih
    rwa [Nat.mod_add_mod, Nat.mod_add_mod] at this

/-- the points of a ring are different -/
theorem CellRing.inj (hQ : CellRing c e n Q) (hu : e.norm.x ^ 2 + e.norm.y ^ 2 = 1)
    (hc : ∀ g ∈ c, g.norm.x ^ 2 + g.norm.y ^ 2 = 1) {i j : Nat} (hi : i < n) (hj : j < n)
    (h : Q i = Q j) : i = j := by
  have hn := hQ.size
  -- it is enough to look at the first point
  have h0 : ∀ d, d < n → Q 0 = Q d → d = 0 := by
    intro d hd he
    by_contra hne
    rcases Nat.lt_or_ge d 2 with h2 | h2
    · have : d = 1 := by omega
      subst this
      have := hQ.left 0 (by omega)
      rw [show (0 + 1) % n = 1 from Nat.mod_eq_of_lt (by omega), ← he] at this
      simp [area2] at this
    · have := hQ.inside d h2 hd
      rw [← he, hQ.first] at this
      simp [height] at this
  have key : ∀ {i j : Nat}, i < n → j < n → i ≤ j → Q i = Q j → i = j := by
    intro i j hi hj hle h
    have := hQ.add hal hQ hu hc hi hj h (n - i)
    rw [show i + (n - i) = n by omega, Nat.mod_self, show j + (n - i) = j - i + n by omega,
      Nat.add_mod_right, Nat.mod_eq_of_lt (by omega)] at this
    have := h0 _ (by omega) this
    omega
  rcases Nat.le_total i j with hle | hle
  · exact key hi hj hle h
  · exact (key hj hi hle h.symm).symm

/-- the boundary is determined by the polygon -/
theorem CellRing.unique (hQ : CellRing c e n Q) (hR : CellRing c e m R)
    (hu : e.norm.x ^ 2 + e.norm.y ^ 2 = 1) (hc : ∀ g ∈ c, g.norm.x ^ 2 + g.norm.y ^ 2 = 1) :
    n = m ∧ ∀ i, i < n → Q i = R i := by
  have hn := hQ.size
  have hm := hR.size
  have h0 : Q 0 = R 0 := hQ.first.trans hR.first.symm
  have hall := hQ.add hal hR hu hc (by omega : 0 < n) (by omega : 0 < m) h0
  simp only [Nat.zero_add] at hall
  have d1 : m ∣ n := by
    have := hall n
    rw [Nat.mod_self, h0] at this
    exact Nat.dvd_of_mod_eq_zero (hR.inj hal hu hc (by omega) (Nat.mod_lt _ (by omega)) this).symm
  have d2 : n ∣ m := by
    have := hall m
    rw [Nat.mod_self, ← h0] at this
    exact Nat.dvd_of_mod_eq_zero (hQ.inj hal hu hc (by omega) (Nat.mod_lt _ (by omega)) this.symm).symm
  have hnm := Nat.dvd_antisymm d2 d1
  refine ⟨hnm, fun i hi => ?_⟩
  have := hall i
  rwa [Nat.mod_eq_of_lt hi, Nat.mod_eq_of_lt (by omega)] at this

end Polyskel
