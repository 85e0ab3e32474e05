import Verif.Proofs.RoofMerge
import Verif.Proofs.RoofFaces
import Verif.Proofs.NoThree
/-
The connections of the skeleton of a convex polygon meet in their ends only.
-/
namespace Polyskel
open Scalar Geo

private theorem eq_of_diff {A B : V2 ℝ} (h1 : B.x - A.x = 0) (h2 : B.y - A.y = 0) : A = B := by
  cases A; cases B
  simp only at h1 h2
  congr 1 <;> linarith

private theorem sq_ne {A B : V2 ℝ} (h : A ≠ B) : (B.x - A.x) ^ 2 + (B.y - A.y) ^ 2 ≠ 0 := by
  intro h0
  have h1 := sq_nonneg (B.x - A.x)
  have h2 := sq_nonneg (B.y - A.y)
  exact h (eq_of_diff (pow_eq_zero_iff two_ne_zero |>.1 (by linarith)) (pow_eq_zero_iff two_ne_zero |>.1 (by linarith)))

private theorem hgt_start (e : Edge2 ℝ) : hgt e e.p1 = 0 := by simp [hgt, height]

private theorem hgt_diff {e g : Edge2 ℝ} {X : V2 ℝ} (h : hgt e X = hgt g X) :
    (e.norm.y - g.norm.y) * X.x + (g.norm.x - e.norm.x) * X.y +
      (g.norm.y * g.p1.x - g.norm.x * g.p1.y - (e.norm.y * e.p1.x - e.norm.x * e.p1.y)) = 0 := by
  rw [← height_diff]
  exact sub_eq_zero.2 h.symm

/-- strictly within a line on which two edges are nearest no third one is -/
theorem two_nearest {e f g : Edge2 ℝ} (he : e.norm.x ^ 2 + e.norm.y ^ 2 = 1)
    (hf : f.norm.x ^ 2 + f.norm.y ^ 2 = 1) (hg : g.norm.x ^ 2 + g.norm.y ^ 2 = 1) (hef : e.norm ≠ f.norm)
    {A B : V2 ℝ} (hAB : A ≠ B) (h1 : hgt e A = hgt f A) (h2 : hgt e B = hgt f B) (h3 : hgt e A ≤ hgt g A)
    (h4 : hgt e B ≤ hgt g B) {r : ℝ} (r0 : 0 < r) (r1 : r < 1)
    (h5 : hgt g (between A B r) ≤ hgt e (between A B r)) : g.norm = e.norm ∨ g.norm = f.norm := by
  have w1 : hgt g (between A B r) = (1 - r) * hgt g A + r * hgt g B := hgt_between g A B r
  have w2 : hgt e (between A B r) = (1 - r) * hgt e A + r * hgt e B := hgt_between e A B r
  rw [w1, w2] at h5
  have m1 := mul_nonneg (show 0 ≤ 1 - r by linarith) (sub_nonneg.2 h3)
  have m2 := mul_nonneg r0.le (sub_nonneg.2 h4)
  have z1 : hgt g A - hgt e A = 0 :=
    (mul_eq_zero.1 (by linarith : (1 - r) * (hgt g A - hgt e A) = 0)).resolve_left (by intro h; linarith)
  have z2 : hgt g B - hgt e B = 0 :=
    (mul_eq_zero.1 (by linarith : r * (hgt g B - hgt e B) = 0)).resolve_left (by intro h; linarith)
  have hv : ¬ (B.x - A.x = 0 ∧ B.y - A.y = 0) := fun h => hAB (eq_of_diff h.1 h.2)
  simp only [hgt, height] at h1 h2 z1 z2
  have k1 : (e.norm.x - f.norm.x) * (B.y - A.y) = (e.norm.y - f.norm.y) * (B.x - A.x) := by
    linear_combination h2 - h1
  have k2 : (g.norm.x - e.norm.x) * (B.y - A.y) = (g.norm.y - e.norm.y) * (B.x - A.x) := by
    linear_combination z2 - z1
  -- the three directions are in a line
  have k3 : (e.norm.x - f.norm.x) * (g.norm.y - e.norm.y) = (e.norm.y - f.norm.y) * (g.norm.x - e.norm.x) := by
    by_contra hcon
    apply hv
    constructor
    · exact (mul_eq_zero.1 (by linear_combination (g.norm.x - e.norm.x) * k1 - (e.norm.x - f.norm.x) * k2 :
        ((e.norm.x - f.norm.x) * (g.norm.y - e.norm.y) - (e.norm.y - f.norm.y) * (g.norm.x - e.norm.x)) *
          (B.x - A.x) = 0)).resolve_left (fun h => hcon (by linarith))
    · exact (mul_eq_zero.1 (by linear_combination (g.norm.y - e.norm.y) * k1 - (e.norm.y - f.norm.y) * k2 :
        ((e.norm.x - f.norm.x) * (g.norm.y - e.norm.y) - (e.norm.y - f.norm.y) * (g.norm.x - e.norm.x)) *
          (B.y - A.y) = 0)).resolve_left (fun h => hcon (by linarith))
  -- so two of them are the same
  obtain ⟨t, tx, ty⟩ : ∃ t : ℝ, g.norm.x - e.norm.x = t * (f.norm.x - e.norm.x) ∧
      g.norm.y - e.norm.y = t * (f.norm.y - e.norm.y) := by
    by_cases hx : f.norm.x - e.norm.x = 0
    · have hy : f.norm.y - e.norm.y ≠ 0 := by
        intro hy
        exact hef (eq_of_diff hx hy)
      refine ⟨(g.norm.y - e.norm.y) / (f.norm.y - e.norm.y), ?_, by field_simp⟩
      rw [hx, mul_zero]
      exact (mul_eq_zero.1 (by linear_combination k3 + (g.norm.y - e.norm.y) * hx :
        (f.norm.y - e.norm.y) * (g.norm.x - e.norm.x) = 0)).resolve_left hy
    · refine ⟨(g.norm.x - e.norm.x) / (f.norm.x - e.norm.x), by field_simp, ?_⟩
      rw [div_mul_eq_mul_div, eq_div_iff hx]
      linear_combination -k3
  have hd := sq_ne hef
  have ht : t * (t - 1) * ((f.norm.x - e.norm.x) ^ 2 + (f.norm.y - e.norm.y) ^ 2) = 0 := by
    have gx : g.norm.x = e.norm.x + t * (f.norm.x - e.norm.x) := by linarith
    have gy : g.norm.y = e.norm.y + t * (f.norm.y - e.norm.y) := by linarith
    rw [gx, gy] at hg
    linear_combination hg - he - t * (hf - he)
  rcases mul_eq_zero.1 ((mul_eq_zero.1 ht).resolve_right hd) with h | h
  · left
    exact (eq_of_diff (by rw [tx, h, zero_mul]) (by rw [ty, h, zero_mul])).symm
  · right
    obtain rfl : t = 1 := by linarith
    exact eq_of_diff (by linarith) (by linarith)

/-- a point of the line through two others -/
theorem on_line {P T N : V2 ℝ} (h : area2 P T N = 0) (h1 : P ≠ T) : ∃ s : ℝ, N = between P T s := by
  have hpos := sq_ne h1
  refine ⟨((N.x - P.x) * (T.x - P.x) + (N.y - P.y) * (T.y - P.y)) / ((T.x - P.x) ^ 2 + (T.y - P.y) ^ 2), ?_⟩
  unfold area2 at h
  obtain ⟨nx, ny⟩ := N
  simp only [between, V2.mk.injEq]
  constructor
  · rw [div_mul_eq_mul_div, ← sub_eq_iff_eq_add', eq_div_iff hpos]
    linear_combination -(T.y - P.y) * h
  · rw [div_mul_eq_mul_div, ← sub_eq_iff_eq_add', eq_div_iff hpos]
    linear_combination (T.x - P.x) * h

theorem between_inj {A B : V2 ℝ} (h : A ≠ B) {s t : ℝ} (he : between A B s = between A B t) : s = t := by
  by_contra hst
  have hd : s - t ≠ 0 := fun h => hst (by linarith)
  simp only [between, V2.mk.injEq] at he
  apply h
  have e1 := (mul_eq_zero.1 (by linear_combination he.1 : (s - t) * (B.x - A.x) = 0)).resolve_left hd
  have e2 := (mul_eq_zero.1 (by linear_combination he.2 : (s - t) * (B.y - A.y) = 0)).resolve_left hd
  exact eq_of_diff e1 e2

theorem between_between (A B : V2 ℝ) (c d s : ℝ) :
    between (between A B c) (between A B d) s = between A B ((1 - s) * c + s * d) := by
  simp only [between, V2.mk.injEq]
  constructor <;> ring

variable {c : List (Edge2 ℝ)} {sk : List (Subtree ℝ)} {L R : Nat → Edge2 ℝ} {ch : Nat → List Nat}

/-- no corner and no node is strictly within a connection, and no third edge is nearest there -/
theorem RoofTree.within (h : RoofTree c sk.length (posOf c sk) (hhOf c sk) L R ch) (hc : ConvexPolygon c)
    (ha : ∀ a ∈ sk, RoofArc c a)
    (hinj : ∀ i j, i < c.length + sk.length → j < c.length + sk.length → posOf c sk i = posOf c sk j → i = j)
    {j k : Nat} (hj : j < sk.length) (hk : k ∈ ch j) {r : ℝ} (r0 : 0 < r) (r1 : r < 1) :
    (∀ g ∈ c, hgt g (between (posOf c sk (c.length + j)) (posOf c sk k) r) ≤
        hgt (L k) (between (posOf c sk (c.length + j)) (posOf c sk k) r) → g = L k ∨ g = R k) ∧
      ∀ i, i < c.length + sk.length → posOf c sk i ≠ between (posOf c sk (c.length + j)) (posOf c sk k) r := by
  obtain ⟨θ, -, hu⟩ := h.up hj hk
  obtain ⟨hL, hR⟩ := h.height hc hj hk
  obtain ⟨mL, mR⟩ := h.edges_mem hj hk
  obtain ⟨lk, nk⟩ := h.child_lt hj hk
  have hlow := heights_least hc ha
  have hAB : posOf c sk (c.length + j) ≠ posOf c sk k := fun e => nk (hinj _ _ (by omega) lk e).symm
  have hnear : ∀ g ∈ c, hgt g (between (posOf c sk (c.length + j)) (posOf c sk k) r) ≤
      hgt (L k) (between (posOf c sk (c.length + j)) (posOf c sk k) r) → g = L k ∨ g = R k := by
    intro g hg hle
    rcases two_nearest (hc.unit _ mL) (hc.unit _ mR) (hc.unit g hg) (h.ne_edges hj hk) hAB (hu.hl.trans hu.hr.symm)
      (hL.trans hR.symm) (by rw [hu.hl]; exact hlow _ (by omega) g hg) (by rw [hL]; exact hlow _ lk g hg) r0 r1 hle with h | h
    · exact .inl (hc.norm_inj hg mL h)
    · exact .inr (hc.norm_inj hg mR h)
  refine ⟨hnear, ?_⟩
  intro i hi he
  have hval : hgt (L k) (between (posOf c sk (c.length + j)) (posOf c sk k) r) =
      (1 - r) * hhOf c sk (c.length + j) + r * hhOf c sk k := by
    have := hgt_between (L k) (posOf c sk (c.length + j)) (posOf c sk k) r
    rw [hu.hl, hL] at this
    exact this
  have hpos : ∀ i (hi : i < sk.length), 0 < hhOf c sk (c.length + i) := by
    intro i hi
    rw [hhOf_node (List.getElem?_eq_getElem hi)]
    exact hc.node_pos (ha _ (List.getElem_mem hi)).node
  by_cases hn : i < c.length
  · have h1 : hgt c[i] (posOf c sk i) = 0 := by
      rw [posOf_corner hn]
      exact hgt_start _
    rw [he] at h1
    have hk0 : 0 ≤ hhOf c sk k := by
      by_cases hkc : k < c.length
      · rw [hhOf_corner hkc]
      · have := hpos (k - c.length) (by omega)
        rw [show c.length + (k - c.length) = k by omega] at this
        exact this.le
    have hp := hpos j hj
    have p1 := mul_pos (show 0 < 1 - r by linarith) hp
    have p2 := mul_nonneg r0.le hk0
    have w1 : hgt c[i] (between (posOf c sk (c.length + j)) (posOf c sk k) r) =
      (1 - r) * hgt c[i] (posOf c sk (c.length + j)) + r * hgt c[i] (posOf c sk k) := hgt_between _ _ _ _
    have q1 := mul_le_mul_of_nonneg_left (hlow (c.length + j) (by omega) c[i] (List.getElem_mem hn))
      (show 0 ≤ 1 - r by linarith)
    have q2 := mul_le_mul_of_nonneg_left (hlow k lk c[i] (List.getElem_mem hn)) r0.le
    linarith
  · obtain ⟨i', rfl⟩ : ∃ i', i = c.length + i' := ⟨i - c.length, by omega⟩
    have hi' : i' < sk.length := by omega
    rw [posOf_node (List.getElem?_eq_getElem hi')] at he
    obtain ⟨e1, m1, e2, m2, e3, m3, n12, n23, n13, p1, p2, p3⟩ := (ha _ (List.getElem_mem hi')).node.three
    have hl := (ha _ (List.getElem_mem hi')).node.least _ mL
    rw [he] at hl p1 p2 p3
    have a1 := hnear e1 m1 (p1.le.trans hl)
    have a2 := hnear e2 m2 (p2.le.trans hl)
    have a3 := hnear e3 m3 (p3.le.trans hl)
    rcases a1 with rfl | rfl <;> rcases a2 with rfl | rfl <;> rcases a3 with rfl | rfl <;> simp_all

/-- two connections with a common point strictly within the first are the same -/
theorem RoofTree.uncrossed (h : RoofTree c sk.length (posOf c sk) (hhOf c sk) L R ch) (hc : ConvexPolygon c)
    (ha : ∀ a ∈ sk, RoofArc c a)
    (hinj : ∀ i j, i < c.length + sk.length → j < c.length + sk.length → posOf c sk i = posOf c sk j → i = j)
    {j k j' k' : Nat} (hj : j < sk.length) (hk : k ∈ ch j) (hj' : j' < sk.length) (hk' : k' ∈ ch j') {r s : ℝ}
    (r0 : 0 < r) (r1 : r < 1) (s0 : 0 ≤ s) (s1 : s ≤ 1)
    (he : between (posOf c sk (c.length + j)) (posOf c sk k) r =
      between (posOf c sk (c.length + j')) (posOf c sk k') s) : j = j' ∧ k = k' := by
  obtain ⟨θ, -, hu⟩ := h.up hj hk
  obtain ⟨θ', -, hu'⟩ := h.up hj' hk'
  obtain ⟨hL, hR⟩ := h.height hc hj hk
  obtain ⟨hL', hR'⟩ := h.height hc hj' hk'
  obtain ⟨mL, mR⟩ := h.edges_mem hj hk
  obtain ⟨mL', mR'⟩ := h.edges_mem hj' hk'
  obtain ⟨lk, nk⟩ := h.child_lt hj hk
  obtain ⟨lk', nk'⟩ := h.child_lt hj' hk'
  have hlow := heights_least hc ha
  have hin := fun {t : ℝ} (t0 : 0 < t) (t1 : t < 1) => (h.within hc ha hinj hj hk t0 t1).2
  have hin' := fun {t : ℝ} (t0 : 0 < t) (t1 : t < 1) => (h.within hc ha hinj hj' hk' t0 t1).2
  have hnear := (h.within hc ha hinj hj hk r0 r1).1
  have hAB : posOf c sk (c.length + j) ≠ posOf c sk k := fun e => nk (hinj _ _ (by omega) lk e).symm
  have hv : ∀ e : Edge2 ℝ, hgt e (between (posOf c sk (c.length + j')) (posOf c sk k') s) =
      (1 - s) * hgt e (posOf c sk (c.length + j')) + s * hgt e (posOf c sk k') := fun e => hgt_between _ _ _ _
  -- the edges of the second are nearest at the common point
  have hle : ∀ e, e = L k' ∨ e = R k' → hgt e (between (posOf c sk (c.length + j)) (posOf c sk k) r) ≤
      hgt (L k) (between (posOf c sk (c.length + j)) (posOf c sk k) r) := by
    intro e hE
    rw [he, hv, hv]
    have q1 := mul_le_mul_of_nonneg_left (hlow (c.length + j') (by omega) _ mL) (show 0 ≤ 1 - s by linarith)
    have q2 := mul_le_mul_of_nonneg_left (hlow k' lk' _ mL) s0
    rcases hE with rfl | rfl
    · rw [hu'.hl, hL']; linarith
    · rw [hu'.hr, hR']; linarith
  have c1 := hnear _ mL' (hle _ (.inl rfl))
  have c2 := hnear _ mR' (hle _ (.inr rfl))
  have hne' : L k' ≠ R k' := fun e => h.ne_edges hj' hk' (by rw [e])
  have hline : hgt (L k) (posOf c sk (c.length + j')) = hgt (R k) (posOf c sk (c.length + j')) ∧
      hgt (L k) (posOf c sk k') = hgt (R k) (posOf c sk k') := by
    have b1 := hu'.hl.trans hu'.hr.symm
    have b2 := hL'.trans hR'.symm
    rcases c1 with c1 | c1 <;> rcases c2 with c2 | c2
    · exact absurd (c1.trans c2.symm) hne'
    · rw [c1, c2] at b1 b2; exact ⟨b1, b2⟩
    · rw [c1, c2] at b1 b2; exact ⟨b1.symm, b2.symm⟩
    · exact absurd (c1.trans c2.symm) hne'
  -- all four points are in a line
  obtain ⟨t, ht, hdiff⟩ := affine_chord hAB (hgt_diff (hu.hl.trans hu.hr.symm)) (hgt_diff (hL.trans hR.symm))
    (norm_ne (Ne.symm (h.ne_edges hj hk)))
  have hz : ∀ X : V2 ℝ, hgt (L k) X = hgt (R k) X →
      area2 (posOf c sk (c.length + j)) (posOf c sk k) X = 0 := by
    intro X hX
    have h0 := hgt_diff hX
    rw [hdiff] at h0
    exact (mul_eq_zero.1 h0).resolve_left ht
  obtain ⟨x, hx⟩ := on_line (hz _ hline.1) hAB
  obtain ⟨y, hy⟩ := on_line (hz _ hline.2) hAB
  have x01 : ¬ (0 < x ∧ x < 1) := fun h => hin h.1 h.2 _ (by omega) hx
  have y01 : ¬ (0 < y ∧ y < 1) := fun h => hin h.1 h.2 _ lk' hy
  have hrs : r = (1 - s) * x + s * y := by
    rw [hx, hy, between_between] at he
    exact between_inj hAB he
  -- the ends of the first are not strictly within the second
  have hA : ∀ u : ℝ, 0 < u → u < 1 → (1 - u) * x + u * y ≠ 0 := by
    intro u u0 u1 h0
    refine hin' u0 u1 (c.length + j) (by omega) ?_
    rw [hx, hy, between_between, h0]
    simp [between]
  have hB : ∀ u : ℝ, 0 < u → u < 1 → (1 - u) * x + u * y ≠ 1 := by
    intro u u0 u1 h0
    refine hin' u0 u1 k lk ?_
    rw [hx, hy, between_between, h0]
    simp [between]
  have b0 : between (posOf c sk (c.length + j)) (posOf c sk k) 0 = posOf c sk (c.length + j) := by simp [between]
  have b1 : between (posOf c sk (c.length + j)) (posOf c sk k) 1 = posOf c sk k := by simp [between]
  have hxy : (x = 0 ∧ y = 1) ∨ (x = 1 ∧ y = 0) := by
    have up : ∀ a b : ℝ, a ≤ 0 → 1 ≤ b → (∀ u : ℝ, 0 < u → u < 1 → (1 - u) * a + u * b ≠ 0) →
        (∀ u : ℝ, 0 < u → u < 1 → (1 - u) * a + u * b ≠ 1) → a = 0 ∧ b = 1 := by
      intro a b a0 b1 h0 h1
      have hd : 0 < b - a := by linarith
      constructor
      · by_contra hne
        have : a < 0 := lt_of_le_of_ne a0 hne
        exact h0 (-a / (b - a)) (div_pos (by linarith) hd) (by rw [div_lt_one hd]; linarith) (by field_simp; ring)
      · by_contra hne
        have : 1 < b := lt_of_le_of_ne b1 (Ne.symm hne)
        exact h1 ((1 - a) / (b - a)) (div_pos (by linarith) hd) (by rw [div_lt_one hd]; linarith)
          (by field_simp; ring)
    rcases le_or_gt x 0 with x0 | x0
    · have : 1 ≤ y := by
        by_contra hcon
        have y0 : y ≤ 0 := by
          by_contra h; exact y01 ⟨by linarith, by linarith⟩
        have q1 := mul_nonneg (show 0 ≤ 1 - s by linarith) (show 0 ≤ -x by linarith)
        have q2 := mul_nonneg s0 (show 0 ≤ -y by linarith)
        linarith
      exact .inl (up x y x0 this hA hB)
    · have x1 : 1 ≤ x := by
        by_contra h; exact x01 ⟨x0, by linarith⟩
      have : y ≤ 0 := by
        by_contra hcon
        have y1 : 1 ≤ y := by
          by_contra h; exact y01 ⟨by linarith, by linarith⟩
        have q1 := mul_nonneg (show 0 ≤ 1 - s by linarith) (show 0 ≤ x - 1 by linarith)
        have q2 := mul_nonneg s0 (show 0 ≤ y - 1 by linarith)
        linarith
      refine .inr (up y x this x1 (fun u u0 u1 => ?_) (fun u u0 u1 => ?_)).symm
      · have := hA (1 - u) (by linarith) (by linarith)
        intro h; apply this; linarith
      · have := hB (1 - u) (by linarith) (by linarith)
        intro h; apply this; linarith
  rcases hxy with ⟨rfl, rfl⟩ | ⟨rfl, rfl⟩
  · rw [b0] at hx
    rw [b1] at hy
    exact ⟨by have := hinj _ _ (by omega) (by omega) hx; omega, (hinj _ _ lk' lk hy).symm⟩
  · rw [b1] at hx
    rw [b0] at hy
    have i1 := hinj _ _ (by omega) lk hx
    have i2 := hinj _ _ lk' (by omega) hy
    obtain ⟨rk, hrk⟩ := h.rank
    have q1 := (hrk j hj k hk).2
    have q2 := (hrk j' hj' k' hk').2
    rw [← i1] at q1
    rw [i2] at q2
    omega

end Polyskel
