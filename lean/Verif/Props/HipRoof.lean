import Verif.Props.Pyramid
/-
C69: the roof over a rectangle is a hip roof.
-/
namespace Polyskel
open Scalar Geo

/-- the points of a face over a side, if its boundary is known -/
theorem RoofFace.points {a : PolyArgs ℝ} {c : List (Edge2 ℝ)} {e : Edge2 ℝ} {z slope : ℝ}
    {verts : List (V3 ℝ)} {k : Nat} {f : List Int} (h : RoofFace a c e z slope verts k f)
    {V W : V3 ℝ} (hV : verts[a.first + k]? = some V) (hW : verts[a.first + (k + 1) % a.num]? = some W)
    (h1 : V.xy = e.p1) (h2 : W.xy = e.p2) (hc : ConvexPolygon c) (he : e ∈ c) {m : Nat} {R : Nat → V2 ℝ}
    (hR : CellRing c e m R) :
    facePoints verts f = (List.range m).map fun i => some (if i = 0 then V else if i = 1 then W else
      ⟨(R i).x, (R i).y, z + slope * height e.p1 e.norm (R i)⟩) := by
  obtain ⟨Q, hQ, hQv⟩ := h.ring hV hW h1 h2
  obtain ⟨hlen, hall⟩ := hQ.unique (hc.along _ he) hR (hc.unit _ he) (fun g hg => hc.unit g hg)
  apply List.ext_getElem?
  intro i
  by_cases hi : i < f.length
  · obtain ⟨p, hp1, hp2⟩ := hQv i hi
    have hm : i < m := by omega
    simp only [facePoints, List.getElem?_map, hp1, Option.map_some, hp2, List.getElem?_range hm]
    congr 2
    by_cases i0 : i = 0
    · subst i0
      rw [h.first] at hp1
      cases hp1
      rw [Int.toNat_natCast, hV] at hp2
      rw [if_pos rfl]
      exact (Option.some.inj hp2).symm
    · by_cases i1 : i = 1
      · subst i1
        rw [h.second] at hp1
        cases hp1
        rw [Int.toNat_natCast, hW] at hp2
        rw [if_neg (by omega), if_pos rfl]
        exact (Option.some.inj hp2).symm
      · rw [if_neg i0, if_neg i1]
        have hz := ((h.plane i p (by omega) hp1).2 _ hp2).2
        have hxy : (Q i).xy = R i := hall i hi
        rw [hxy] at hz
        rw [← hz, ← hxy]
        rfl
  · rw [List.getElem?_eq_none (by simp [facePoints]; omega), List.getElem?_eq_none (by simp; omega)]

/-! ### The rectangle -/

/-- the point at `s` along the direction `u` and at `t` to the left of it, from `O` -/
def locPoint (O u : V2 ℝ) (s t : ℝ) : V2 ℝ := ⟨O.x + s * u.x - t * u.y, O.y + s * u.y + t * u.x⟩

/-- the corners of the rectangle of the width `w` along `u` and the depth `d`, anticlockwise -/
def rectCorner (O u : V2 ℝ) (w d : ℝ) : Nat → V2 ℝ
  | 0 => locPoint O u 0 0
  | 1 => locPoint O u w 0
  | 2 => locPoint O u w d
  | _ => locPoint O u 0 d

section
variable {O u : V2 ℝ} {w d : ℝ} (hu : u.x ^ 2 + u.y ^ 2 = 1)
include hu

theorem locPoint_all (X : V2 ℝ) : ∃ s t, X = locPoint O u s t := by
  refine ⟨u.x * (X.x - O.x) + u.y * (X.y - O.y), u.x * (X.y - O.y) - u.y * (X.x - O.x), ?_⟩
  obtain ⟨x, y⟩ := X
  simp only [locPoint, V2.mk.injEq]
  exact ⟨by linear_combination -(x - O.x) * hu, by linear_combination -(y - O.y) * hu⟩

theorem locPoint_inj {s t s' t' : ℝ} (h : locPoint O u s t = locPoint O u s' t') : s = s' ∧ t = t' := by
  simp only [locPoint, V2.mk.injEq] at h
  obtain ⟨h1, h2⟩ := h
  exact ⟨by linear_combination u.x * h1 + u.y * h2 - (s - s') * hu,
    by linear_combination u.x * h2 - u.y * h1 - (t - t') * hu⟩

theorem locPoint_area (s t s' t' s'' t'' : ℝ) :
    area2 (locPoint O u s t) (locPoint O u s' t') (locPoint O u s'' t'') =
      (s' - s) * (t'' - t) - (t' - t) * (s'' - s) := by
  simp only [locPoint, area2]
  linear_combination ((s' - s) * (t'' - t) - (t' - t) * (s'' - s)) * hu

theorem locPoint_eucl (s t s' t' : ℝ) :
    eucl (locPoint O u s t) (locPoint O u s' t') = Real.sqrt ((s - s') ^ 2 + (t - t') ^ 2) := by
  simp only [locPoint, eucl]
  congr 1
  linear_combination ((s - s') ^ 2 + (t - t') ^ 2) * hu

omit hu in
/-- side `i` of a rectangle -/
def rectSide (first i : Nat) (p q v : V2 ℝ) : Edge2 ℝ :=
  { oid := i, i1 := first + i, i2 := first + (i + 1) % 4, p1 := p, p2 := q, norm := v }

omit hu in
/-- the sides of the rectangle -/
def rectSides (O u : V2 ℝ) (w d : ℝ) (first : Nat) : List (Edge2 ℝ) :=
  [rectSide first 0 (locPoint O u 0 0) (locPoint O u w 0) u,
   rectSide first 1 (locPoint O u w 0) (locPoint O u w d) ⟨-u.y, u.x⟩,
   rectSide first 2 (locPoint O u w d) (locPoint O u 0 d) ⟨-u.x, -u.y⟩,
   rectSide first 3 (locPoint O u 0 d) (locPoint O u 0 0) ⟨u.y, -u.x⟩]

theorem sides_rectangle (hw : 0 < w) (hd : 0 < d) (first : Nat) :
    sides first 4 (rectCorner O u w d) = rectSides O u w d first := by
  have r4 : List.range 4 = [0, 1, 2, 3] := rfl
  have q1 : eucl (locPoint O u 0 0) (locPoint O u w 0) = w := by
    rw [locPoint_eucl hu, show (0 - w) ^ 2 + (0 - 0 : ℝ) ^ 2 = w ^ 2 by ring]; exact Real.sqrt_sq hw.le
  have q2 : eucl (locPoint O u w 0) (locPoint O u w d) = d := by
    rw [locPoint_eucl hu, show (w - w) ^ 2 + (0 - d : ℝ) ^ 2 = d ^ 2 by ring]; exact Real.sqrt_sq hd.le
  have q3 : eucl (locPoint O u w d) (locPoint O u 0 d) = w := by
    rw [locPoint_eucl hu, show (w - 0) ^ 2 + (d - d : ℝ) ^ 2 = w ^ 2 by ring]; exact Real.sqrt_sq hw.le
  have q4 : eucl (locPoint O u 0 d) (locPoint O u 0 0) = d := by
    rw [locPoint_eucl hu, show (0 - 0) ^ 2 + (d - 0 : ℝ) ^ 2 = d ^ 2 by ring]; exact Real.sqrt_sq hd.le
  simp only [sides, r4, List.map_cons, List.map_nil, rectSides, rectSide, rectCorner, Nat.reduceAdd, Nat.reduceMod,
    q1, q2, q3, q4, List.cons.injEq, Edge2.mk.injEq, true_and, and_true]
  obtain ⟨ux, uy⟩ := u
  simp only [locPoint, V2.mk.injEq]
  refine ⟨⟨?_, ?_⟩, ⟨?_, ?_⟩, ⟨?_, ?_⟩, ?_, ?_⟩ <;> field_simp <;> ring

/-- the distances of a point from the sides -/
theorem rect_height (first : Nat) (s t : ℝ) :
    (∀ q, height (locPoint O u 0 0) (rectSide first 0 (locPoint O u 0 0) q u).norm (locPoint O u s t) = t) ∧
    (∀ q, height (locPoint O u w 0) (rectSide first 1 (locPoint O u w 0) q ⟨-u.y, u.x⟩).norm (locPoint O u s t) = w - s) ∧
    (∀ q, height (locPoint O u w d) (rectSide first 2 (locPoint O u w d) q ⟨-u.x, -u.y⟩).norm (locPoint O u s t) = d - t) ∧
    (∀ q, height (locPoint O u 0 d) (rectSide first 3 (locPoint O u 0 d) q ⟨u.y, -u.x⟩).norm (locPoint O u s t) = s) := by
  simp only [height, locPoint, rectSide]
  exact ⟨fun _ => by linear_combination t * hu, fun _ => by linear_combination (w - s) * hu,
    fun _ => by linear_combination (d - t) * hu, fun _ => by linear_combination s * hu⟩

/-- `h` is the distance of the side from the point -/
theorem rect_mem {first : Nat} {e : Edge2 ℝ} {s t : ℝ} (he : e ∈ rectSides O u w d first) :
    (e.oid = 0 ∧ height e.p1 e.norm (locPoint O u s t) = t) ∨
    (e.oid = 1 ∧ height e.p1 e.norm (locPoint O u s t) = w - s) ∨
    (e.oid = 2 ∧ height e.p1 e.norm (locPoint O u s t) = d - t) ∨
    (e.oid = 3 ∧ height e.p1 e.norm (locPoint O u s t) = s) := by
  obtain ⟨h0, h1, h2, h3⟩ := rect_height (O := O) (w := w) (d := d) hu first s t
  simp only [rectSides, List.mem_cons, List.not_mem_nil, or_false] at he
  rcases he with rfl | rfl | rfl | rfl
  · exact .inl ⟨rfl, h0 _⟩
  · exact .inr (.inl ⟨rfl, h1 _⟩)
  · exact .inr (.inr (.inl ⟨rfl, h2 _⟩))
  · exact .inr (.inr (.inr ⟨rfl, h3 _⟩))

omit hu in
theorem rect_oid {first : Nat} {e f : Edge2 ℝ} (he : e ∈ rectSides O u w d first)
    (hf : f ∈ rectSides O u w d first) (h : e.oid = f.oid) : e = f := by
  simp only [rectSides, List.mem_cons, List.not_mem_nil, or_false] at he hf
  rcases he with rfl | rfl | rfl | rfl <;> rcases hf with rfl | rfl | rfl | rfl <;>
    first
    | rfl
    | (simp [rectSide] at h)

/-- three sides meet half-way between two opposite ones -/
theorem rect_three {first : Nat} {s t h : ℝ} {e1 e2 e3 : Edge2 ℝ} (m1 : e1 ∈ rectSides O u w d first)
    (m2 : e2 ∈ rectSides O u w d first) (m3 : e3 ∈ rectSides O u w d first) (n12 : e1 ≠ e2) (n23 : e2 ≠ e3)
    (n13 : e1 ≠ e3) (p1 : height e1.p1 e1.norm (locPoint O u s t) = h)
    (p2 : height e2.p1 e2.norm (locPoint O u s t) = h) (p3 : height e3.p1 e3.norm (locPoint O u s t) = h) :
    (t = h ∧ d - t = h ∧ (s = h ∨ w - s = h)) ∨ (s = h ∧ w - s = h ∧ (t = h ∨ d - t = h)) := by
  have o12 : e1.oid ≠ e2.oid := fun hh => n12 (rect_oid m1 m2 hh)
  have o23 : e2.oid ≠ e3.oid := fun hh => n23 (rect_oid m2 m3 hh)
  have o13 : e1.oid ≠ e3.oid := fun hh => n13 (rect_oid m1 m3 hh)
  rcases rect_mem hu (s := s) (t := t) m1 with ⟨a, a'⟩ | ⟨a, a'⟩ | ⟨a, a'⟩ | ⟨a, a'⟩ <;>
  rcases rect_mem hu (s := s) (t := t) m2 with ⟨b, b'⟩ | ⟨b, b'⟩ | ⟨b, b'⟩ | ⟨b, b'⟩ <;>
  first
  | (rw [a, b] at o12; exact absurd rfl o12)
  | rcases rect_mem hu (s := s) (t := t) m3 with ⟨f, f'⟩ | ⟨f, f'⟩ | ⟨f, f'⟩ | ⟨f, f'⟩ <;>
    first
    | (rw [a, f] at o13; exact absurd rfl o13)
    | (rw [b, f] at o23; exact absurd rfl o23)
    | (rw [a'] at p1; rw [b'] at p2; rw [f'] at p3
       first
       | exact .inl ⟨by assumption, by assumption, .inl (by assumption)⟩
       | exact .inl ⟨by assumption, by assumption, .inr (by assumption)⟩
       | exact .inr ⟨by assumption, by assumption, .inl (by assumption)⟩
       | exact .inr ⟨by assumption, by assumption, .inr (by assumption)⟩)

theorem rect_triple_height {first : Nat} {h : ℝ} (ht : Triple (rectSides O u w d first) h) :
    h = d / 2 ∨ h = w / 2 := by
  obtain ⟨X, e1, m1, e2, m2, e3, m3, n12, n23, n13, p1, p2, p3⟩ := ht
  obtain ⟨s, t, rfl⟩ := locPoint_all (O := O) hu X
  rcases rect_three hu m1 m2 m3 n12 n23 n13 p1 p2 p3 with ⟨h1, h2, -⟩ | ⟨h1, h2, -⟩
  · left; linarith
  · right; linarith

/-- the nodes of the roof: the two ends of the ridge -/
theorem rect_node_at {first : Nat} {X : V2 ℝ} {h : ℝ} (hn : RoofNode (rectSides O u w d first) X h) :
    h = min w d / 2 ∧ (X = locPoint O u (min w d / 2) (min w d / 2) ∨
      X = locPoint O u (w - min w d / 2) (d - min w d / 2)) := by
  obtain ⟨e1, m1, e2, m2, e3, m3, n12, n23, n13, p1, p2, p3⟩ := hn.three
  obtain ⟨s, t, rfl⟩ := locPoint_all (O := O) hu X
  have l : h ≤ t ∧ h ≤ w - s ∧ h ≤ d - t ∧ h ≤ s := by
    obtain ⟨h0, h1, h2, h3⟩ := rect_height (O := O) (w := w) (d := d) hu first s t
    have a0 := hn.least _ (show rectSide first 0 (locPoint O u 0 0) (locPoint O u w 0) u ∈ _ by simp [rectSides])
    have a1 := hn.least _ (show rectSide first 1 (locPoint O u w 0) (locPoint O u w d) ⟨-u.y, u.x⟩ ∈ _ by simp [rectSides])
    have a2 := hn.least _ (show rectSide first 2 (locPoint O u w d) (locPoint O u 0 d) ⟨-u.x, -u.y⟩ ∈ _ by simp [rectSides])
    have a3 := hn.least _ (show rectSide first 3 (locPoint O u 0 d) (locPoint O u 0 0) ⟨u.y, -u.x⟩ ∈ _ by simp [rectSides])
    exact ⟨a0.trans_eq (h0 _), a1.trans_eq (h1 _), a2.trans_eq (h2 _), a3.trans_eq (h3 _)⟩
  obtain ⟨l0, l1, l2, l3⟩ := l
  rcases rect_three hu m1 m2 m3 n12 n23 n13 p1 p2 p3 with ⟨h1, h2, h3⟩ | ⟨h1, h2, h3⟩
  · have hm : min w d = d := min_eq_right (by linarith)
    rw [hm]
    refine ⟨by linarith, ?_⟩
    rcases h3 with h3 | h3
    · left; congr 1 <;> linarith
    · right; congr 1 <;> linarith
  · have hm : min w d = w := min_eq_left (by linarith)
    rw [hm]
    refine ⟨by linarith, ?_⟩
    rcases h3 with h3 | h3
    · left; congr 1 <;> linarith
    · right; congr 1 <;> linarith

theorem rect_blunt (hw : 0 < w) (hd : 0 < d) (first : Nat) : Blunt (rectSides O u w d first) := by
  refine ⟨?_, ?_⟩
  · intro e he f hf g hg n1 n2 n3
    simp only [rectSides, List.mem_cons, List.not_mem_nil, or_false] at he hf hg
    left
    rcases he with rfl | rfl | rfl | rfl <;> rcases hf with rfl | rfl | rfl | rfl <;>
      first
      | exact absurd rfl n1
      | (simp only [rectSide]; nlinarith)
  · intro e he f hf hef
    simp only [rectSides, List.mem_cons, List.not_mem_nil, or_false] at he hf
    rcases he with rfl | rfl | rfl | rfl <;> rcases hf with rfl | rfl | rfl | rfl <;>
      first
      | (exfalso; have := locPoint_inj hu hef; linarith [this.1, this.2]; done)
      | (simp only [rectSide]; nlinarith)

theorem rect_separated (hwd : 1 / 500 ≤ |w - d|) (first : Nat) : Separated (rectSides O u w d first) := by
  intro h h' t t' _ hlt
  have a1 := abs_le.1 (le_refl |w - d|)
  rcases le_or_gt d w with hc | hc
  · rw [abs_of_nonneg (by linarith)] at hwd
    rcases rect_triple_height hu t with rfl | rfl <;> rcases rect_triple_height hu t' with rfl | rfl <;> linarith
  · rw [abs_of_neg (by linarith)] at hwd
    rcases rect_triple_height hu t with rfl | rfl <;> rcases rect_triple_height hu t' with rfl | rfl <;> linarith

theorem rect_apart (hwd : 1 / 10 ≤ |w - d| * (|u.x| + |u.y|)) (first : Nat) :
    NodesApart (rectSides O u w d first) := by
  have key : ∀ s t s' t' : ℝ, (s - s') * (t - t') = 0 → |s - s'| + |t - t'| = |w - d| →
      1 / 10 ≤ |(locPoint O u s t).x - (locPoint O u s' t').x| + |(locPoint O u s t).y - (locPoint O u s' t').y| := by
    intro s t s' t' h0 h1
    refine hwd.trans_eq ?_
    rw [← h1]
    have e1 : (locPoint O u s t).x - (locPoint O u s' t').x = (s - s') * u.x - (t - t') * u.y := by
      simp only [locPoint]; ring
    have e2 : (locPoint O u s t).y - (locPoint O u s' t').y = (s - s') * u.y + (t - t') * u.x := by
      simp only [locPoint]; ring
    rw [e1, e2]
    rcases mul_eq_zero.1 h0 with h | h
    · rw [h]; simp only [zero_mul, zero_sub, zero_add, abs_neg, abs_mul, abs_zero]; ring
    · rw [h]; simp only [zero_mul, sub_zero, add_zero, abs_mul, abs_zero]; ring
  intro p h p' h' hn hn' hne
  obtain ⟨-, hp⟩ := rect_node_at hu hn
  obtain ⟨-, hp'⟩ := rect_node_at hu hn'
  have hmin : (min w d / 2 - (w - min w d / 2)) * (min w d / 2 - (d - min w d / 2)) = 0 ∧
      |min w d / 2 - (w - min w d / 2)| + |min w d / 2 - (d - min w d / 2)| = |w - d| := by
    rcases le_total w d with hc | hc
    · rw [min_eq_left hc]
      have e1 : w / 2 - (w - w / 2) = 0 := by ring
      have e2 : w / 2 - (d - w / 2) = w - d := by ring
      rw [e1, e2]; simp
    · rw [min_eq_right hc]
      have e1 : d / 2 - (w - d / 2) = -(w - d) := by ring
      have e2 : d / 2 - (d - d / 2) = 0 := by ring
      rw [e1, e2, abs_neg]; simp
  rcases hp with rfl | rfl <;> rcases hp' with rfl | rfl
  · exact absurd rfl hne
  · exact key _ _ _ _ hmin.1 hmin.2
  · refine key _ _ _ _ (by linarith [hmin.1]) ?_
    rw [abs_sub_comm (w - _), abs_sub_comm (d - _)]; exact hmin.2
  · exact absurd rfl hne

end

/-! ### The boundaries of its faces -/

/-- four points -/
def quadPts (Q0 Q1 Q2 Q3 : V2 ℝ) : Nat → V2 ℝ
  | 0 => Q0
  | 1 => Q1
  | 2 => Q2
  | _ => Q3

section
variable {c : List (Edge2 ℝ)} {e g1 g2 g3 : Edge2 ℝ} {Q0 Q1 Q2 Q3 : V2 ℝ}

theorem CellRing.quad (hl : 0 < area2 Q0 Q1 Q2 ∧ 0 < area2 Q1 Q2 Q3 ∧ 0 < area2 Q2 Q3 Q0 ∧ 0 < area2 Q3 Q0 Q1)
    (hn : ∀ g ∈ c, height e.p1 e.norm Q0 ≤ height g.p1 g.norm Q0 ∧ height e.p1 e.norm Q1 ≤ height g.p1 g.norm Q1 ∧
      height e.p1 e.norm Q2 ≤ height g.p1 g.norm Q2 ∧ height e.p1 e.norm Q3 ≤ height g.p1 g.norm Q3)
    (m : g1 ∈ c ∧ g2 ∈ c ∧ g3 ∈ c) (n : g1.norm ≠ e.norm ∧ g2.norm ≠ e.norm ∧ g3.norm ≠ e.norm)
    (h1 : height g1.p1 g1.norm Q1 = height e.p1 e.norm Q1 ∧ height g1.p1 g1.norm Q2 = height e.p1 e.norm Q2)
    (h2 : height g2.p1 g2.norm Q2 = height e.p1 e.norm Q2 ∧ height g2.p1 g2.norm Q3 = height e.p1 e.norm Q3)
    (h3 : height g3.p1 g3.norm Q3 = height e.p1 e.norm Q3 ∧ height g3.p1 g3.norm Q0 = height e.p1 e.norm Q0)
    (f : Q0 = e.p1) (s : Q1 = e.p2) (hi : 0 < height e.p1 e.norm Q2 ∧ 0 < height e.p1 e.norm Q3) :
    CellRing c e 4 (quadPts Q0 Q1 Q2 Q3) := by
  have four : ∀ i, i < 4 → i = 0 ∨ i = 1 ∨ i = 2 ∨ i = 3 := fun i hi => by omega
  refine ⟨by omega, ?_, ?_, ?_, f, s, ?_⟩
  · intro i hi
    rcases four i hi with rfl | rfl | rfl | rfl
    · exact hl.1
    · exact hl.2.1
    · exact hl.2.2.1
    · exact hl.2.2.2
  · intro i hi g hg
    obtain ⟨a0, a1, a2, a3⟩ := hn g hg
    rcases four i hi with rfl | rfl | rfl | rfl
    · exact a0
    · exact a1
    · exact a2
    · exact a3
  · intro i hi h0
    rcases four i hi with rfl | rfl | rfl | rfl
    · exact absurd rfl h0
    · exact ⟨g1, m.1, n.1, h1⟩
    · exact ⟨g2, m.2.1, n.2.1, h2⟩
    · exact ⟨g3, m.2.2, n.2.2, h3⟩
  · intro i h2 hi'
    have : i = 2 ∨ i = 3 := by omega
    rcases this with rfl | rfl
    · exact hi.1
    · exact hi.2

theorem CellRing.tri (hl : 0 < area2 Q0 Q1 Q2)
    (hn : ∀ g ∈ c, height e.p1 e.norm Q0 ≤ height g.p1 g.norm Q0 ∧ height e.p1 e.norm Q1 ≤ height g.p1 g.norm Q1 ∧
      height e.p1 e.norm Q2 ≤ height g.p1 g.norm Q2)
    (m : g1 ∈ c ∧ g2 ∈ c) (n : g1.norm ≠ e.norm ∧ g2.norm ≠ e.norm)
    (h1 : height g1.p1 g1.norm Q1 = height e.p1 e.norm Q1 ∧ height g1.p1 g1.norm Q2 = height e.p1 e.norm Q2)
    (h2 : height g2.p1 g2.norm Q2 = height e.p1 e.norm Q2 ∧ height g2.p1 g2.norm Q0 = height e.p1 e.norm Q0)
    (f : Q0 = e.p1) (s : Q1 = e.p2) (hi : 0 < height e.p1 e.norm Q2) :
    CellRing c e 3 (quadPts Q0 Q1 Q2 Q2) := by
  have three : ∀ i, i < 3 → i = 0 ∨ i = 1 ∨ i = 2 := fun i hi => by omega
  have r1 : area2 Q1 Q2 Q0 = area2 Q0 Q1 Q2 := by unfold area2; ring
  have r2 : area2 Q2 Q0 Q1 = area2 Q0 Q1 Q2 := by unfold area2; ring
  refine ⟨by omega, ?_, ?_, ?_, f, s, ?_⟩
  · intro i hi
    rcases three i hi with rfl | rfl | rfl
    · exact hl
    · exact r1 ▸ hl
    · exact r2 ▸ hl
  · intro i hi g hg
    obtain ⟨a0, a1, a2⟩ := hn g hg
    rcases three i hi with rfl | rfl | rfl
    · exact a0
    · exact a1
    · exact a2
  · intro i hi h0
    rcases three i hi with rfl | rfl | rfl
    · exact absurd rfl h0
    · exact ⟨g1, m.1, n.1, h1⟩
    · exact ⟨g2, m.2, n.2, h2⟩
  · intro i h2 hi'
    obtain rfl : i = 2 := by omega
    exact hi

end

section
variable {O u : V2 ℝ} {w d : ℝ} (hu : u.x ^ 2 + u.y ^ 2 = 1)
include hu

/-- the distances of a point from the four sides -/
theorem rect_heights (first : Nat) (s t : ℝ) : ∀ e ∈ rectSides O u w d first,
    height e.p1 e.norm (locPoint O u s t) =
      if e.oid = 0 then t else if e.oid = 1 then w - s else if e.oid = 2 then d - t else s := by
  intro e he
  rcases rect_mem hu (s := s) (t := t) he with ⟨h, h'⟩ | ⟨h, h'⟩ | ⟨h, h'⟩ | ⟨h, h'⟩ <;> rw [h', h] <;> simp

theorem rect_rings (hw : 0 < w) (hd : 0 < d) (hc : ConvexPolygon (rectSides O u w d first)) :
    (d < w →
      CellRing (rectSides O u w d first) (rectSide first 0 (locPoint O u 0 0) (locPoint O u w 0) u) 4
        (quadPts (locPoint O u 0 0) (locPoint O u w 0) (locPoint O u (w - d / 2) (d / 2)) (locPoint O u (d / 2) (d / 2))) ∧
      CellRing (rectSides O u w d first) (rectSide first 1 (locPoint O u w 0) (locPoint O u w d) ⟨-u.y, u.x⟩) 3
        (quadPts (locPoint O u w 0) (locPoint O u w d) (locPoint O u (w - d / 2) (d / 2)) (locPoint O u (w - d / 2) (d / 2))) ∧
      CellRing (rectSides O u w d first) (rectSide first 2 (locPoint O u w d) (locPoint O u 0 d) ⟨-u.x, -u.y⟩) 4
        (quadPts (locPoint O u w d) (locPoint O u 0 d) (locPoint O u (d / 2) (d / 2)) (locPoint O u (w - d / 2) (d / 2))) ∧
      CellRing (rectSides O u w d first) (rectSide first 3 (locPoint O u 0 d) (locPoint O u 0 0) ⟨u.y, -u.x⟩) 3
        (quadPts (locPoint O u 0 d) (locPoint O u 0 0) (locPoint O u (d / 2) (d / 2)) (locPoint O u (d / 2) (d / 2)))) := by
  have m0 : rectSide first 0 (locPoint O u 0 0) (locPoint O u w 0) u ∈ rectSides O u w d first := by simp [rectSides]
  have m1 : rectSide first 1 (locPoint O u w 0) (locPoint O u w d) ⟨-u.y, u.x⟩ ∈ rectSides O u w d first := by
    simp [rectSides]
  have m2 : rectSide first 2 (locPoint O u w d) (locPoint O u 0 d) ⟨-u.x, -u.y⟩ ∈ rectSides O u w d first := by
    simp [rectSides]
  have m3 : rectSide first 3 (locPoint O u 0 d) (locPoint O u 0 0) ⟨u.y, -u.x⟩ ∈ rectSides O u w d first := by
    simp [rectSides]
  have hne : ∀ {e f}, e ∈ rectSides O u w d first → f ∈ rectSides O u w d first → e.oid ≠ f.oid → e.norm ≠ f.norm :=
    fun he hf h hn => h (by rw [hc.norm_inj he hf hn])
  have H := fun s t e he => rect_heights (O := O) (w := w) (d := d) hu first s t e he
  have hnear : ∀ {g}, g ∈ rectSides O u w d first → g.oid = 0 ∨ g.oid = 1 ∨ g.oid = 2 ∨ g.oid = 3 := by
    intro g hg
    rcases rect_mem hu (s := 0) (t := 0) hg with h | h | h | h <;> simp [h.1]
  intro hdw
  refine ⟨CellRing.quad ?_ ?_ ⟨m1, m2, m3⟩ ⟨hne m1 m0 (by simp [rectSide]), hne m2 m0 (by simp [rectSide]), hne m3 m0 (by simp [rectSide])⟩ ?_ ?_ ?_ rfl rfl ?_,
    CellRing.tri ?_ ?_ ⟨m2, m0⟩ ⟨hne m2 m1 (by simp [rectSide]), hne m0 m1 (by simp [rectSide])⟩ ?_ ?_ rfl rfl ?_,
    CellRing.quad ?_ ?_ ⟨m3, m0, m1⟩ ⟨hne m3 m2 (by simp [rectSide]), hne m0 m2 (by simp [rectSide]), hne m1 m2 (by simp [rectSide])⟩ ?_ ?_ ?_ rfl rfl ?_,
    CellRing.tri ?_ ?_ ⟨m0, m2⟩ ⟨hne m0 m3 (by simp [rectSide]), hne m2 m3 (by simp [rectSide])⟩ ?_ ?_ rfl rfl ?_⟩
  all_goals
    first
    | (simp only [locPoint_area hu]; first | (refine ⟨?_, ?_, ?_, ?_⟩ <;> nlinarith) | nlinarith)
    | (intro g hg
       simp only [H _ _ _ hg, H _ _ _ m0, H _ _ _ m1, H _ _ _ m2, H _ _ _ m3]
       rcases hnear hg with h | h | h | h <;> simp [rectSide, h] <;> (try constructor) <;> (try constructor) <;> (try constructor) <;> linarith)
    | (simp only [H _ _ _ m0, H _ _ _ m1, H _ _ _ m2, H _ _ _ m3]; simp [rectSide]; try linarith)

theorem rect_rings_deep (hw : 0 < w) (hd : 0 < d) (hc : ConvexPolygon (rectSides O u w d first)) :
    (w < d →
      CellRing (rectSides O u w d first) (rectSide first 0 (locPoint O u 0 0) (locPoint O u w 0) u) 3
        (quadPts (locPoint O u 0 0) (locPoint O u w 0) (locPoint O u (w / 2) (w / 2)) (locPoint O u (w / 2) (w / 2))) ∧
      CellRing (rectSides O u w d first) (rectSide first 1 (locPoint O u w 0) (locPoint O u w d) ⟨-u.y, u.x⟩) 4
        (quadPts (locPoint O u w 0) (locPoint O u w d) (locPoint O u (w / 2) (d - w / 2)) (locPoint O u (w / 2) (w / 2))) ∧
      CellRing (rectSides O u w d first) (rectSide first 2 (locPoint O u w d) (locPoint O u 0 d) ⟨-u.x, -u.y⟩) 3
        (quadPts (locPoint O u w d) (locPoint O u 0 d) (locPoint O u (w / 2) (d - w / 2)) (locPoint O u (w / 2) (d - w / 2))) ∧
      CellRing (rectSides O u w d first) (rectSide first 3 (locPoint O u 0 d) (locPoint O u 0 0) ⟨u.y, -u.x⟩) 4
        (quadPts (locPoint O u 0 d) (locPoint O u 0 0) (locPoint O u (w / 2) (w / 2)) (locPoint O u (w / 2) (d - w / 2)))) := by
  have m0 : rectSide first 0 (locPoint O u 0 0) (locPoint O u w 0) u ∈ rectSides O u w d first := by simp [rectSides]
  have m1 : rectSide first 1 (locPoint O u w 0) (locPoint O u w d) ⟨-u.y, u.x⟩ ∈ rectSides O u w d first := by
    simp [rectSides]
  have m2 : rectSide first 2 (locPoint O u w d) (locPoint O u 0 d) ⟨-u.x, -u.y⟩ ∈ rectSides O u w d first := by
    simp [rectSides]
  have m3 : rectSide first 3 (locPoint O u 0 d) (locPoint O u 0 0) ⟨u.y, -u.x⟩ ∈ rectSides O u w d first := by
    simp [rectSides]
  have hne : ∀ {e f}, e ∈ rectSides O u w d first → f ∈ rectSides O u w d first → e.oid ≠ f.oid → e.norm ≠ f.norm :=
    fun he hf h hn => h (by rw [hc.norm_inj he hf hn])
  have H := fun s t e he => rect_heights (O := O) (w := w) (d := d) hu first s t e he
  have hnear : ∀ {g}, g ∈ rectSides O u w d first → g.oid = 0 ∨ g.oid = 1 ∨ g.oid = 2 ∨ g.oid = 3 := by
    intro g hg
    rcases rect_mem hu (s := 0) (t := 0) hg with h | h | h | h <;> simp [h.1]
  intro hdw
  refine ⟨CellRing.tri ?_ ?_ ⟨m1, m3⟩ ⟨hne m1 m0 (by simp [rectSide]), hne m3 m0 (by simp [rectSide])⟩ ?_ ?_ rfl rfl ?_,
    CellRing.quad ?_ ?_ ⟨m2, m3, m0⟩ ⟨hne m2 m1 (by simp [rectSide]), hne m3 m1 (by simp [rectSide]), hne m0 m1 (by simp [rectSide])⟩ ?_ ?_ ?_ rfl rfl ?_,
    CellRing.tri ?_ ?_ ⟨m3, m1⟩ ⟨hne m3 m2 (by simp [rectSide]), hne m1 m2 (by simp [rectSide])⟩ ?_ ?_ rfl rfl ?_,
    CellRing.quad ?_ ?_ ⟨m0, m1, m2⟩ ⟨hne m0 m3 (by simp [rectSide]), hne m1 m3 (by simp [rectSide]), hne m2 m3 (by simp [rectSide])⟩ ?_ ?_ ?_ rfl rfl ?_⟩
  all_goals
    first
    | (simp only [locPoint_area hu]; first | (refine ⟨?_, ?_, ?_, ?_⟩ <;> nlinarith) | nlinarith)
    | (intro g hg
       simp only [H _ _ _ hg, H _ _ _ m0, H _ _ _ m1, H _ _ _ m2, H _ _ _ m3]
       rcases hnear hg with h | h | h | h <;> simp [rectSide, h] <;> (try constructor) <;> (try constructor) <;> (try constructor) <;> linarith)
    | (simp only [H _ _ _ m0, H _ _ _ m1, H _ _ _ m2, H _ _ _ m3]; simp [rectSide]; try linarith)

/-- both points are nodes -/
theorem rect_nodes (hw : 0 < w) (hd : 0 < d) (hwd : w ≠ d) (first : Nat) :
    RoofNode (rectSides O u w d first) (locPoint O u (min w d / 2) (min w d / 2)) (min w d / 2) ∧
    RoofNode (rectSides O u w d first) (locPoint O u (w - min w d / 2) (d - min w d / 2)) (min w d / 2) := by
  have m0 : rectSide first 0 (locPoint O u 0 0) (locPoint O u w 0) u ∈ rectSides O u w d first := by simp [rectSides]
  have m1 : rectSide first 1 (locPoint O u w 0) (locPoint O u w d) ⟨-u.y, u.x⟩ ∈ rectSides O u w d first := by
    simp [rectSides]
  have m2 : rectSide first 2 (locPoint O u w d) (locPoint O u 0 d) ⟨-u.x, -u.y⟩ ∈ rectSides O u w d first := by
    simp [rectSides]
  have m3 : rectSide first 3 (locPoint O u 0 d) (locPoint O u 0 0) ⟨u.y, -u.x⟩ ∈ rectSides O u w d first := by
    simp [rectSides]
  have h1 := min_le_left w d
  have h2 := min_le_right w d
  have hle : ∀ s t, min w d / 2 ≤ s → min w d / 2 ≤ t → min w d / 2 ≤ w - s → min w d / 2 ≤ d - t →
      ∀ e ∈ rectSides O u w d first, min w d / 2 ≤ height e.p1 e.norm (locPoint O u s t) := by
    intro s t a1 a2 a3 a4 e he
    rw [rect_heights hu first s t e he]
    split_ifs <;> assumption
  have hne : ∀ {e f : Edge2 ℝ}, e.oid ≠ f.oid → e ≠ f := fun h h' => h (h' ▸ rfl)
  have n01 : rectSide first 0 (locPoint O u 0 0) (locPoint O u w 0) u ≠
      rectSide first 1 (locPoint O u w 0) (locPoint O u w d) ⟨-u.y, u.x⟩ := hne (by simp [rectSide])
  have n12 : rectSide first 1 (locPoint O u w 0) (locPoint O u w d) ⟨-u.y, u.x⟩ ≠
      rectSide first 2 (locPoint O u w d) (locPoint O u 0 d) ⟨-u.x, -u.y⟩ := hne (by simp [rectSide])
  have n02 : rectSide first 0 (locPoint O u 0 0) (locPoint O u w 0) u ≠
      rectSide first 2 (locPoint O u w d) (locPoint O u 0 d) ⟨-u.x, -u.y⟩ := hne (by simp [rectSide])
  have n03 : rectSide first 0 (locPoint O u 0 0) (locPoint O u w 0) u ≠
      rectSide first 3 (locPoint O u 0 d) (locPoint O u 0 0) ⟨u.y, -u.x⟩ := hne (by simp [rectSide])
  have n23 : rectSide first 2 (locPoint O u w d) (locPoint O u 0 d) ⟨-u.x, -u.y⟩ ≠
      rectSide first 3 (locPoint O u 0 d) (locPoint O u 0 0) ⟨u.y, -u.x⟩ := hne (by simp [rectSide])
  have n13 : rectSide first 1 (locPoint O u w 0) (locPoint O u w d) ⟨-u.y, u.x⟩ ≠
      rectSide first 3 (locPoint O u 0 d) (locPoint O u 0 0) ⟨u.y, -u.x⟩ := hne (by simp [rectSide])
  refine ⟨⟨hle _ _ (le_refl _) (le_refl _) (by linarith) (by linarith), ?_⟩,
    ⟨hle _ _ (by linarith) (by linarith) (by linarith) (by linarith), ?_⟩⟩
  all_goals rcases lt_or_gt_of_ne hwd with h | h
  · refine ⟨_, m0, _, m1, _, m3, n01, n13, n03, ?_⟩
    rw [rect_heights hu first _ _ _ m0, rect_heights hu first _ _ _ m1, rect_heights hu first _ _ _ m3, min_eq_left h.le]
    simp [rectSide]
    try ring
  · refine ⟨_, m0, _, m2, _, m3, n02, n23, n03, ?_⟩
    rw [rect_heights hu first _ _ _ m0, rect_heights hu first _ _ _ m2, rect_heights hu first _ _ _ m3, min_eq_right h.le]
    simp [rectSide]
    try ring
  · refine ⟨_, m1, _, m2, _, m3, n12, n23, n13, ?_⟩
    rw [rect_heights hu first _ _ _ m1, rect_heights hu first _ _ _ m2, rect_heights hu first _ _ _ m3, min_eq_left h.le]
    simp [rectSide]
    try ring
  · refine ⟨_, m0, _, m1, _, m2, n01, n12, n02, ?_⟩
    rw [rect_heights hu first _ _ _ m0, rect_heights hu first _ _ _ m1, rect_heights hu first _ _ _ m2, min_eq_right h.le]
    simp [rectSide]
    try ring

end

/-! ### The roof as a whole -/

/-- C62 and C67 together: the pitch of the faces is the one of the nodes -/
theorem roof_of_points (rt : Rt) (a : PolyArgs ℝ) (P : Nat → V2 ℝ) (hh : a.holes.getD [] = [])
    (hu : a.units = none) (h3 : 3 ≤ a.num)
    (hv : ∀ k, k < a.num → ∃ A, a.verts[a.first + k]? = some A ∧ A.xy = P k)
    (hleft : ∀ i j, i < a.num → j < a.num → j ≠ i → j ≠ (i + 1) % a.num →
      0 < area2 (P i) (P ((i + 1) % a.num)) (P j))
    (hlong : ∀ k, k < a.num → 1 / 10 ^ 35 < eucl (P k) (P ((k + 1) % a.num)) ^ 2)
    (hsep : Separated (sides a.first a.num P)) (hbl : Blunt (sides a.first a.num P))
    (hap : NodesApart (sides a.first a.num P)) (fuel : Nat)
    (hf : 4 * a.num + 1 ≤ fuel) :
    ∃ A out new t fs σ, a.verts[a.first]? = some A ∧ polygonize rt fuel a = some out ∧
      out.verts = a.verts ++ new ∧ out.result = .ok (a.faces.getD [] ++ fs) ∧ (new.map V3.xy).Nodup ∧
      (∀ X, X ∈ new.map V3.xy ↔ ∃ h, RoofNode (sides a.first a.num P) X h) ∧
      (∀ V ∈ new, ∀ h, RoofNode (sides a.first a.num P) V.xy h → V.z = A.z + t * h) ∧
      (a.height = 0 → t = a.tan) ∧
      (a.height ≠ 0 → ∃ V ∈ new, ∃ h, RoofNode (sides a.first a.num P) V.xy h ∧ t * h = a.height ∧
        ∀ X h', RoofNode (sides a.first a.num P) X h' → h' ≤ h) ∧
      σ.Perm (List.range a.num) ∧
      List.Forall₂ (fun k f => ∃ e, (sides a.first a.num P)[k]? = some e ∧
        RoofFace a (sides a.first a.num P) e A.z t out.verts k f) σ fs := by
  have hc := sides_convex (first := a.first) h3 hleft
  obtain ⟨A, out, new, slope, fs, σ, hA, hp, hov, -, hres, -, -, hσ, hF⟩ :=
    C62_points rt a P hh hu h3 hv hleft hlong hsep hbl hap fuel hf
  obtain ⟨_, _, new1, t, b1, b2, b3, b4, b5, b6, b7, b8⟩ :=
    C67_nodes rt a P hh hu h3 hv hleft hlong hsep hbl hap fuel hf
  rw [hA] at b1; cases b1
  rw [hp] at b2; cases b2
  obtain rfl : new = new1 := List.append_cancel_left (hov.symm.trans b3)
  have hst : slope = t := by
    cases hF with
    | nil =>
      have := hσ.length_eq
      simp at this
      omega
    | @cons k f σ' fs' h0 _ =>
      obtain ⟨e, he, hr⟩ := h0
      have hem := List.mem_of_getElem? he
      have hsz := hr.size
      have hf2 : f[2]? = some f[2] := List.getElem?_eq_getElem (by omega)
      obtain ⟨hge, hpl⟩ := hr.plane 2 _ (le_refl _) hf2
      have hidx := hr.index _ (List.getElem_mem (show 2 < f.length by omega))
      have hV : out.verts[(f[2]).toNat]? = some (out.verts[(f[2]).toNat]'(by omega)) := List.getElem?_eq_getElem _
      generalize out.verts[(f[2]).toNat]'(by omega) = V at hV
      obtain ⟨hpos, hz⟩ := hpl V hV
      have hnear := hr.nearest _ (List.getElem_mem (show 2 < f.length by omega)) V hV
      have hVm : V ∈ new := by
        rw [hov, List.getElem?_append_right (by omega)] at hV
        exact List.mem_of_getElem? hV
      obtain ⟨h, hnode⟩ := (b5 _).1 (List.mem_map_of_mem hVm)
      have hz' := b6 V hVm h hnode
      have heq : height e.p1 e.norm V.xy = h := by
        obtain ⟨e1, m1, _, _, _, _, _, _, _, p1, _⟩ := hnode.three
        exact le_antisymm (p1 ▸ hnear e1 m1) (hnode.least e hem)
      rw [heq] at hz hpos
      have : (slope - t) * h = 0 := by linarith
      rcases mul_eq_zero.1 this with h1 | h1
      · linarith
      · linarith
  subst hst
  exact ⟨A, out, new, slope, fs, σ, hA, hp, hov, hres, b4, b5, b6, b7, b8, hσ, hF⟩

/-- a point of the plane, at the height `z` -/
def atZ (p : V2 ℝ) (z : ℝ) : V3 ℝ := ⟨p.x, p.y, z⟩

/-- C69: a rectangle, in any position, gets a hip roof.  Its ridge is in the middle of the longer direction,
its ends are half the shorter side from the shorter sides.  Over the two shorter sides there are triangles,
over the two longer ones quadrangles.  The ridge must be at least a tenth long (in the Manhattan metric),
for a square see `C68_pyramid`. -/
theorem C69_rectangle (rt : Rt) (a : PolyArgs ℝ) (O u : V2 ℝ) (w d : ℝ) (A0 A1 A2 A3 : V3 ℝ)
    (hu : u.x ^ 2 + u.y ^ 2 = 1) (hh : a.holes.getD [] = []) (hun : a.units = none) (h4 : a.num = 4)
    (v0 : a.verts[a.first]? = some A0) (v1 : a.verts[a.first + 1]? = some A1)
    (v2 : a.verts[a.first + 2]? = some A2) (v3 : a.verts[a.first + 3]? = some A3)
    (x0 : A0.xy = locPoint O u 0 0) (x1 : A1.xy = locPoint O u w 0) (x2 : A2.xy = locPoint O u w d)
    (x3 : A3.xy = locPoint O u 0 d) (hw : 0 < w) (hd : 0 < d) (lw : 1 / 10 ^ 35 < w ^ 2)
    (ld : 1 / 10 ^ 35 < d ^ 2) (hwd : 1 / 10 ≤ |w - d| * (|u.x| + |u.y|)) (fuel : Nat) (hf : 17 ≤ fuel) :
    ∃ out new fs t N1 N2, polygonize rt fuel a = some out ∧ out.verts = a.verts ++ new ∧
      new.Perm [N1, N2] ∧ out.result = .ok (a.faces.getD [] ++ fs) ∧
      N1 = atZ (locPoint O u (min w d / 2) (min w d / 2)) (A0.z + t * (min w d / 2)) ∧
      N2 = atZ (locPoint O u (w - min w d / 2) (d - min w d / 2)) (A0.z + t * (min w d / 2)) ∧
      (a.height = 0 → t = a.tan) ∧ (a.height ≠ 0 → t * (min w d / 2) = a.height) ∧
      (fs.map (facePoints out.verts)).Perm
        (if d < w then
          [[some A0, some A1, some N2, some N1], [some A1, some A2, some N2],
           [some A2, some A3, some N1, some N2], [some A3, some A0, some N1]]
        else
          [[some A0, some A1, some N1], [some A1, some A2, some N2, some N1],
           [some A2, some A3, some N2], [some A3, some A0, some N1, some N2]]) := by
  have hP : ∀ k, k < 4 → ∃ A, a.verts[a.first + k]? = some A ∧ A.xy = rectCorner O u w d k := by
    intro k hk
    have : k = 0 ∨ k = 1 ∨ k = 2 ∨ k = 3 := by omega
    rcases this with rfl | rfl | rfl | rfl
    · exact ⟨A0, v0, x0⟩
    · exact ⟨A1, v1, x1⟩
    · exact ⟨A2, v2, x2⟩
    · exact ⟨A3, v3, x3⟩
  have hleft : ∀ i j, i < 4 → j < 4 → j ≠ i → j ≠ (i + 1) % 4 →
      0 < area2 (rectCorner O u w d i) (rectCorner O u w d ((i + 1) % 4)) (rectCorner O u w d j) := by
    intro i j hi hj h1 h2
    have hi' : i = 0 ∨ i = 1 ∨ i = 2 ∨ i = 3 := by omega
    have hj' : j = 0 ∨ j = 1 ∨ j = 2 ∨ j = 3 := by omega
    rcases hi' with rfl | rfl | rfl | rfl <;> rcases hj' with rfl | rfl | rfl | rfl <;>
      simp at h1 h2 <;> simp only [rectCorner, Nat.reduceAdd, Nat.reduceMod, locPoint_area hu] <;> nlinarith
  have hlong : ∀ k, k < 4 → 1 / 10 ^ 35 < eucl (rectCorner O u w d k) (rectCorner O u w d ((k + 1) % 4)) ^ 2 := by
    intro k hk
    have : k = 0 ∨ k = 1 ∨ k = 2 ∨ k = 3 := by omega
    rcases this with rfl | rfl | rfl | rfl <;>
      simp only [rectCorner, Nat.reduceAdd, Nat.reduceMod, locPoint_eucl hu] <;>
      rw [Real.sq_sqrt (by positivity)] <;> nlinarith
  have hsmall : 1 / 500 ≤ |w - d| := by
    have h1 : |u.x| + |u.y| ≤ 2 := by
      have := sq_abs u.x
      have := sq_abs u.y
      nlinarith [sq_nonneg (|u.x| - 1), sq_nonneg (|u.y| - 1)]
    have h2 : |w - d| * (|u.x| + |u.y|) ≤ |w - d| * 2 := mul_le_mul_of_nonneg_left h1 (abs_nonneg _)
    linarith
  have hside : sides a.first a.num (rectCorner O u w d) = rectSides O u w d a.first := by
    rw [h4]; exact sides_rectangle hu hw hd _
  have hc : ConvexPolygon (rectSides O u w d a.first) := by
    rw [← sides_rectangle hu hw hd]
    exact sides_convex (by omega) hleft
  obtain ⟨A, out, new, t, fs, σ, hA, hp, hov, hres, hnd, hall, hz, ht0, ht1, hσ, hF⟩ :=
    roof_of_points rt a (rectCorner O u w d) hh hun (by omega) (by rw [h4]; exact hP) (by rw [h4]; exact hleft)
      (by rw [h4]; exact hlong) (by rw [hside]; exact rect_separated hu hsmall _)
      (by rw [hside]; exact rect_blunt hu hw hd _) (by rw [hside]; exact rect_apart hu hwd _) fuel
      (by rw [h4]; exact hf)
  rw [hside] at hall hz ht1 hF
  rw [v0] at hA
  cases hA
  have hne : w ≠ d := by
    rintro rfl
    norm_num at hsmall
  obtain ⟨k1, k2⟩ := rect_nodes (O := O) hu hw hd hne a.first
  have hne12 : locPoint O u (min w d / 2) (min w d / 2) ≠ locPoint O u (w - min w d / 2) (d - min w d / 2) := by
    intro h
    obtain ⟨h1, h2⟩ := locPoint_inj hu h
    exact hne (by linarith)
  have hmem : ∀ V, V ∈ new ↔ V = atZ (locPoint O u (min w d / 2) (min w d / 2)) (A0.z + t * (min w d / 2)) ∨
      V = atZ (locPoint O u (w - min w d / 2) (d - min w d / 2)) (A0.z + t * (min w d / 2)) := by
    intro V
    constructor
    · intro hV
      obtain ⟨h, hn⟩ := (hall _).1 (List.mem_map_of_mem hV)
      have hzV := hz V hV h hn
      obtain ⟨rfl, hx | hx⟩ := rect_node_at hu hn
      · left
        rw [← hx, ← hzV]
        rfl
      · right
        rw [← hx, ← hzV]
        rfl
    · intro hV
      have key : ∀ X, RoofNode (rectSides O u w d a.first) X (min w d / 2) →
          atZ X (A0.z + t * (min w d / 2)) ∈ new := by
        intro X hX
        obtain ⟨V, hV, rfl⟩ := List.mem_map.1 ((hall X).2 ⟨_, hX⟩)
        rw [← hz V hV _ hX]
        exact hV
      rcases hV with rfl | rfl
      · exact key _ k1
      · exact key _ k2
  refine ⟨out, new, fs, t, _, _, hp, hov, ?_, hres, rfl, rfl, ht0, ?_, ?_⟩
  · rw [List.perm_ext_iff_of_nodup (List.Nodup.of_map _ hnd)]
    · intro V
      rw [hmem V]
      simp
    · simp only [List.nodup_cons, List.mem_singleton, List.not_mem_nil, not_false_eq_true, List.nodup_nil, and_true]
      intro h
      exact hne12 (congrArg V3.xy h)
  · intro h0
    obtain ⟨V, hV, h, hn, hth, -⟩ := ht1 h0
    rw [← (rect_node_at hu hn).1]
    exact hth
  · have hov' : ∀ (i : Nat) (A : V3 ℝ), a.verts[i]? = some A → out.verts[i]? = some A := by
      intro i A hi
      rw [hov, List.getElem?_append_left (List.getElem?_eq_some_iff.1 hi).1]
      exact hi
    have go : ∀ g : Nat → List (Option (V3 ℝ)), (∀ k, k < 4 → ∀ e f, (rectSides O u w d a.first)[k]? = some e →
        RoofFace a (rectSides O u w d a.first) e A0.z t out.verts k f → facePoints out.verts f = g k) →
        (fs.map (facePoints out.verts)).Perm ((List.range 4).map g) := by
      intro g hg
      have h1 : fs.map (facePoints out.verts) = σ.map g := by
        have hlt : ∀ k ∈ σ, k < 4 := by
          intro k hk
          have := hσ.mem_iff.1 hk
          rw [h4] at this
          simpa using this
        clear hσ hres
        induction hF with
        | nil => rfl
        | @cons k f σ' fs' h0 _ ih =>
          obtain ⟨e, he, hr⟩ := h0
          rw [List.map_cons, List.map_cons, hg k (hlt k List.mem_cons_self) e f he hr,
            ih (fun k hk => hlt k (List.mem_cons_of_mem _ hk))]
      rw [h1]
      rw [h4] at hσ
      exact hσ.map g
    have m0 : rectSide a.first 0 (locPoint O u 0 0) (locPoint O u w 0) u ∈ rectSides O u w d a.first := by
      simp [rectSides]
    have m1 : rectSide a.first 1 (locPoint O u w 0) (locPoint O u w d) ⟨-u.y, u.x⟩ ∈ rectSides O u w d a.first := by
      simp [rectSides]
    have m2 : rectSide a.first 2 (locPoint O u w d) (locPoint O u 0 d) ⟨-u.x, -u.y⟩ ∈ rectSides O u w d a.first := by
      simp [rectSides]
    have m3 : rectSide a.first 3 (locPoint O u 0 d) (locPoint O u 0 0) ⟨u.y, -u.x⟩ ∈ rectSides O u w d a.first := by
      simp [rectSides]
    split_ifs with hdw
    · obtain ⟨r0, r1, r2, r3⟩ := rect_rings hu hw hd hc hdw
      rw [min_eq_right hdw.le]
      refine (go (fun k => match k with
        | 0 => [some A0, some A1, some (atZ (locPoint O u (w - d / 2) (d - d / 2)) (A0.z + t * (d / 2))),
            some (atZ (locPoint O u (d / 2) (d / 2)) (A0.z + t * (d / 2)))]
        | 1 => [some A1, some A2, some (atZ (locPoint O u (w - d / 2) (d - d / 2)) (A0.z + t * (d / 2)))]
        | 2 => [some A2, some A3, some (atZ (locPoint O u (d / 2) (d / 2)) (A0.z + t * (d / 2))),
            some (atZ (locPoint O u (w - d / 2) (d - d / 2)) (A0.z + t * (d / 2)))]
        | _ => [some A3, some A0, some (atZ (locPoint O u (d / 2) (d / 2)) (A0.z + t * (d / 2)))]) ?_)
      intro k hk e f he hr
      have : k = 0 ∨ k = 1 ∨ k = 2 ∨ k = 3 := by omega
      rcases this with rfl | rfl | rfl | rfl <;> cases he
      · rw [hr.points (hov' _ _ v0) (by rw [h4]; exact hov' _ _ v1) x0 x1 hc m0 r0]
        have hh : ∀ s t, _ := fun s t => rect_heights hu a.first s t _ m0
        simp [rectSide] at hh
        simp [List.range_succ, quadPts, atZ, rectSide, sub_half, hh]
      · rw [hr.points (hov' _ _ v1) (by rw [h4]; exact hov' _ _ v2) x1 x2 hc m1 r1]
        have hh : ∀ s t, _ := fun s t => rect_heights hu a.first s t _ m1
        simp [rectSide] at hh
        simp [List.range_succ, quadPts, atZ, rectSide, sub_half, hh]
      · rw [hr.points (hov' _ _ v2) (by rw [h4]; exact hov' _ _ v3) x2 x3 hc m2 r2]
        have hh : ∀ s t, _ := fun s t => rect_heights hu a.first s t _ m2
        simp [rectSide] at hh
        simp [List.range_succ, quadPts, atZ, rectSide, sub_half, hh]
      · rw [hr.points (hov' _ _ v3) (by rw [h4]; exact hov' _ _ v0) x3 x0 hc m3 r3]
        have hh : ∀ s t, _ := fun s t => rect_heights hu a.first s t _ m3
        simp [rectSide] at hh
        simp [List.range_succ, quadPts, atZ, rectSide, sub_half, hh]
    · have hwd' : w < d := lt_of_le_of_ne (not_lt.1 hdw) hne
      obtain ⟨r0, r1, r2, r3⟩ := rect_rings_deep hu hw hd hc hwd'
      rw [min_eq_left hwd'.le]
      refine (go (fun k => match k with
        | 0 => [some A0, some A1, some (atZ (locPoint O u (w / 2) (w / 2)) (A0.z + t * (w / 2)))]
        | 1 => [some A1, some A2, some (atZ (locPoint O u (w - w / 2) (d - w / 2)) (A0.z + t * (w / 2))),
            some (atZ (locPoint O u (w / 2) (w / 2)) (A0.z + t * (w / 2)))]
        | 2 => [some A2, some A3, some (atZ (locPoint O u (w - w / 2) (d - w / 2)) (A0.z + t * (w / 2)))]
        | _ => [some A3, some A0, some (atZ (locPoint O u (w / 2) (w / 2)) (A0.z + t * (w / 2))),
            some (atZ (locPoint O u (w - w / 2) (d - w / 2)) (A0.z + t * (w / 2)))]) ?_)
      intro k hk e f he hr
      have : k = 0 ∨ k = 1 ∨ k = 2 ∨ k = 3 := by omega
      rcases this with rfl | rfl | rfl | rfl <;> cases he
      · rw [hr.points (hov' _ _ v0) (by rw [h4]; exact hov' _ _ v1) x0 x1 hc m0 r0]
        have hh : ∀ s t, _ := fun s t => rect_heights hu a.first s t _ m0
        simp [rectSide] at hh
        simp [List.range_succ, quadPts, atZ, rectSide, sub_half, hh]
      · rw [hr.points (hov' _ _ v1) (by rw [h4]; exact hov' _ _ v2) x1 x2 hc m1 r1]
        have hh : ∀ s t, _ := fun s t => rect_heights hu a.first s t _ m1
        simp [rectSide] at hh
        simp [List.range_succ, quadPts, atZ, rectSide, sub_half, hh]
      · rw [hr.points (hov' _ _ v2) (by rw [h4]; exact hov' _ _ v3) x2 x3 hc m2 r2]
        have hh : ∀ s t, _ := fun s t => rect_heights hu a.first s t _ m2
        simp [rectSide] at hh
        simp [List.range_succ, quadPts, atZ, rectSide, sub_half, hh]
      · rw [hr.points (hov' _ _ v3) (by rw [h4]; exact hov' _ _ v0) x3 x0 hc m3 r3]
        have hh : ∀ s t, _ := fun s t => rect_heights hu a.first s t _ m3
        simp [rectSide] at hh
        simp [List.range_succ, quadPts, atZ, rectSide, sub_half, hh]

/-- A case: a rectangle of 8 by 5, turned by the angle with the cosine 3/5 and moved; its ridge is 5/2 above. -/
noncomputable def turnedArgs : PolyArgs ℝ :=
  { verts := [⟨1, 2, 7⟩, ⟨29 / 5, 42 / 5, 7⟩, ⟨9 / 5, 57 / 5, 7⟩, ⟨-3, 5, 7⟩], first := 0, num := 4, holes := none,
    height := 0, tan := 1, faces := none, units := none }

example (rt : Rt) : ∃ out new fs, polygonize rt 17 turnedArgs = some out ∧
    out.verts = turnedArgs.verts ++ new ∧ out.result = .ok fs ∧
    new.Perm [⟨1 / 2, 11 / 2, 19 / 2⟩, ⟨23 / 10, 79 / 10, 19 / 2⟩] ∧
    (fs.map (facePoints out.verts)).Perm
      [[some ⟨1, 2, 7⟩, some ⟨29 / 5, 42 / 5, 7⟩, some ⟨23 / 10, 79 / 10, 19 / 2⟩, some ⟨1 / 2, 11 / 2, 19 / 2⟩],
       [some ⟨29 / 5, 42 / 5, 7⟩, some ⟨9 / 5, 57 / 5, 7⟩, some ⟨23 / 10, 79 / 10, 19 / 2⟩],
       [some ⟨9 / 5, 57 / 5, 7⟩, some ⟨-3, 5, 7⟩, some ⟨1 / 2, 11 / 2, 19 / 2⟩, some ⟨23 / 10, 79 / 10, 19 / 2⟩],
       [some ⟨-3, 5, 7⟩, some ⟨1, 2, 7⟩, some ⟨1 / 2, 11 / 2, 19 / 2⟩]] := by
  obtain ⟨out, new, fs, t, N1, N2, h1, h2, h3, h4, h5, h6, h7, -, h8⟩ := C69_rectangle rt turnedArgs ⟨1, 2⟩
    ⟨3 / 5, 4 / 5⟩ 8 5 _ _ _ _ (by norm_num) rfl rfl rfl rfl rfl rfl rfl
    (by simp [locPoint, V3.xy]) (by simp [locPoint, V3.xy]; norm_num) (by simp [locPoint, V3.xy]; norm_num)
    (by simp [locPoint, V3.xy]; norm_num) (by norm_num) (by norm_num) (by norm_num) (by norm_num)
    (by norm_num [abs_of_pos]) 17 (le_refl _)
  have ht : t = 1 := h7 rfl
  subst ht
  have e1 : N1 = ⟨1 / 2, 11 / 2, 19 / 2⟩ := by
    rw [h5]
    norm_num [atZ, locPoint]
  have e2 : N2 = ⟨23 / 10, 79 / 10, 19 / 2⟩ := by
    rw [h6]
    norm_num [atZ, locPoint]
  rw [e1, e2] at h3 h8
  rw [if_pos (by norm_num)] at h8
  exact ⟨out, new, fs, h1, h2, h4, h3, h8⟩

end Polyskel
