import Verif.Props.HipRoof
/-
C86: the roof over a parallelogram.
-/
namespace Polyskel
open Scalar Geo

/-! ### The parallelogram -/

/-- the sine of the angle from the direction `u` to the direction `v` -/
def sine (u v : V2 ℝ) : ℝ := u.x * v.y - u.y * v.x

/-- two directions, the second to the left of the first -/
structure Slanted (u v : V2 ℝ) : Prop where
  fst : u.x ^ 2 + u.y ^ 2 = 1
  snd : v.x ^ 2 + v.y ^ 2 = 1
  left : 0 < sine u v

/-- the point reached from `O` by `s` in the direction `u` and `t` in the direction `v` -/
def parPoint (O u v : V2 ℝ) (s t : ℝ) : V2 ℝ := ⟨O.x + s * u.x + t * v.x, O.y + s * u.y + t * v.y⟩

/-- the corners of the parallelogram with the sides `w` along `u` and `d` along `v`, anticlockwise -/
def parCorner (O u v : V2 ℝ) (w d : ℝ) : Nat → V2 ℝ
  | 0 => parPoint O u v 0 0
  | 1 => parPoint O u v w 0
  | 2 => parPoint O u v w d
  | _ => parPoint O u v 0 d

section
variable {O u v : V2 ℝ} {w d : ℝ} (hu : Slanted u v)
include hu

theorem parPoint_all (X : V2 ℝ) : ∃ s t, X = parPoint O u v s t := by
  have h := hu.left
  refine ⟨(v.y * (X.x - O.x) - v.x * (X.y - O.y)) / sine u v, (u.x * (X.y - O.y) - u.y * (X.x - O.x)) / sine u v, ?_⟩
  obtain ⟨x, y⟩ := X
  simp only [parPoint, V2.mk.injEq]
  constructor <;> field_simp <;> simp only [sine] <;> ring

theorem parPoint_inj {s t s' t' : ℝ} (h : parPoint O u v s t = parPoint O u v s' t') : s = s' ∧ t = t' := by
  have hk := hu.left
  simp only [parPoint, V2.mk.injEq] at h
  obtain ⟨h1, h2⟩ := h
  have e1 : (s - s') * sine u v = 0 := by simp only [sine]; linear_combination v.y * h1 - v.x * h2
  have e2 : (t - t') * sine u v = 0 := by simp only [sine]; linear_combination u.x * h2 - u.y * h1
  exact ⟨by rcases mul_eq_zero.1 e1 with h | h <;> linarith, by rcases mul_eq_zero.1 e2 with h | h <;> linarith⟩

omit hu in
theorem parPoint_area (s t s' t' s'' t'' : ℝ) :
    area2 (parPoint O u v s t) (parPoint O u v s' t') (parPoint O u v s'' t'') =
      sine u v * ((s' - s) * (t'' - t) - (t' - t) * (s'' - s)) := by
  simp only [parPoint, area2, sine]
  ring

theorem parPoint_along (s s' t : ℝ) : eucl (parPoint O u v s t) (parPoint O u v s' t) = |s - s'| := by
  rw [← Real.sqrt_sq_eq_abs]
  simp only [parPoint, eucl]
  congr 1
  linear_combination (s - s') ^ 2 * hu.fst

theorem parPoint_across (s t t' : ℝ) : eucl (parPoint O u v s t) (parPoint O u v s t') = |t - t'| := by
  rw [← Real.sqrt_sq_eq_abs]
  simp only [parPoint, eucl]
  congr 1
  linear_combination (t - t') ^ 2 * hu.snd

omit hu in
/-- side `i` of a parallelogram -/
def parSide (first i : Nat) (p q v : V2 ℝ) : Edge2 ℝ :=
  { oid := i, i1 := first + i, i2 := first + (i + 1) % 4, p1 := p, p2 := q, norm := v }

omit hu in
/-- the sides of the parallelogram -/
def parSides (O u v : V2 ℝ) (w d : ℝ) (first : Nat) : List (Edge2 ℝ) :=
  [parSide first 0 (parPoint O u v 0 0) (parPoint O u v w 0) u,
   parSide first 1 (parPoint O u v w 0) (parPoint O u v w d) v,
   parSide first 2 (parPoint O u v w d) (parPoint O u v 0 d) ⟨-u.x, -u.y⟩,
   parSide first 3 (parPoint O u v 0 d) (parPoint O u v 0 0) ⟨-v.x, -v.y⟩]

theorem sides_parallelogram (hw : 0 < w) (hd : 0 < d) (first : Nat) :
    sides first 4 (parCorner O u v w d) = parSides O u v w d first := by
  have r4 : List.range 4 = [0, 1, 2, 3] := rfl
  have q1 : eucl (parPoint O u v 0 0) (parPoint O u v w 0) = w := by
    rw [parPoint_along hu, zero_sub, abs_neg, abs_of_pos hw]
  have q2 : eucl (parPoint O u v w 0) (parPoint O u v w d) = d := by
    rw [parPoint_across hu, zero_sub, abs_neg, abs_of_pos hd]
  have q3 : eucl (parPoint O u v w d) (parPoint O u v 0 d) = w := by
    rw [parPoint_along hu, sub_zero, abs_of_pos hw]
  have q4 : eucl (parPoint O u v 0 d) (parPoint O u v 0 0) = d := by
    rw [parPoint_across hu, sub_zero, abs_of_pos hd]
  simp only [sides, r4, List.map_cons, List.map_nil, parSides, parSide, parCorner, Nat.reduceAdd, Nat.reduceMod,
    q1, q2, q3, q4, List.cons.injEq, Edge2.mk.injEq, true_and, and_true]
  obtain ⟨ux, uy⟩ := u
  obtain ⟨vx, vy⟩ := v
  simp only [parPoint, V2.mk.injEq]
  refine ⟨⟨?_, ?_⟩, ⟨?_, ?_⟩, ⟨?_, ?_⟩, ?_, ?_⟩ <;> field_simp <;> ring

/-- the distances of a point from the sides -/
theorem par_height (first : Nat) (s t : ℝ) :
    (∀ q, height (parPoint O u v 0 0) (parSide first 0 (parPoint O u v 0 0) q u).norm (parPoint O u v s t) = sine u v * t) ∧
    (∀ q, height (parPoint O u v w 0) (parSide first 1 (parPoint O u v w 0) q v).norm (parPoint O u v s t) =
      sine u v * (w - s)) ∧
    (∀ q, height (parPoint O u v w d) (parSide first 2 (parPoint O u v w d) q ⟨-u.x, -u.y⟩).norm (parPoint O u v s t) =
      sine u v * (d - t)) ∧
    (∀ q, height (parPoint O u v 0 d) (parSide first 3 (parPoint O u v 0 d) q ⟨-v.x, -v.y⟩).norm (parPoint O u v s t) =
      sine u v * s) := by
  simp only [height, parPoint, parSide, sine]
  exact ⟨fun _ => by ring, fun _ => by ring, fun _ => by ring, fun _ => by ring⟩

/-- the distance of the side from the point -/
theorem par_mem {first : Nat} {e : Edge2 ℝ} {s t : ℝ} (he : e ∈ parSides O u v w d first) :
    (e.oid = 0 ∧ height e.p1 e.norm (parPoint O u v s t) = sine u v * t) ∨
    (e.oid = 1 ∧ height e.p1 e.norm (parPoint O u v s t) = sine u v * (w - s)) ∨
    (e.oid = 2 ∧ height e.p1 e.norm (parPoint O u v s t) = sine u v * (d - t)) ∨
    (e.oid = 3 ∧ height e.p1 e.norm (parPoint O u v s t) = sine u v * s) := by
  obtain ⟨h0, h1, h2, h3⟩ := par_height (O := O) (w := w) (d := d) hu first s t
  simp only [parSides, List.mem_cons, List.not_mem_nil, or_false] at he
  rcases he with rfl | rfl | rfl | rfl
  · exact .inl ⟨rfl, h0 _⟩
  · exact .inr (.inl ⟨rfl, h1 _⟩)
  · exact .inr (.inr (.inl ⟨rfl, h2 _⟩))
  · exact .inr (.inr (.inr ⟨rfl, h3 _⟩))

omit hu in
theorem par_oid {first : Nat} {e f : Edge2 ℝ} (he : e ∈ parSides O u v w d first)
    (hf : f ∈ parSides O u v w d first) (h : e.oid = f.oid) : e = f := by
  simp only [parSides, List.mem_cons, List.not_mem_nil, or_false] at he hf
  rcases he with rfl | rfl | rfl | rfl <;> rcases hf with rfl | rfl | rfl | rfl <;>
    first
    | rfl
    | (simp [parSide] at h)

/-- three sides meet half-way between two opposite ones -/
theorem par_three {first : Nat} {s t h : ℝ} {e1 e2 e3 : Edge2 ℝ} (m1 : e1 ∈ parSides O u v w d first)
    (m2 : e2 ∈ parSides O u v w d first) (m3 : e3 ∈ parSides O u v w d first) (n12 : e1 ≠ e2) (n23 : e2 ≠ e3)
    (n13 : e1 ≠ e3) (p1 : height e1.p1 e1.norm (parPoint O u v s t) = h)
    (p2 : height e2.p1 e2.norm (parPoint O u v s t) = h) (p3 : height e3.p1 e3.norm (parPoint O u v s t) = h) :
    (sine u v * t = h ∧ sine u v * (d - t) = h ∧ (sine u v * s = h ∨ sine u v * (w - s) = h)) ∨
    (sine u v * s = h ∧ sine u v * (w - s) = h ∧ (sine u v * t = h ∨ sine u v * (d - t) = h)) := by
  have o12 : e1.oid ≠ e2.oid := fun hh => n12 (par_oid m1 m2 hh)
  have o23 : e2.oid ≠ e3.oid := fun hh => n23 (par_oid m2 m3 hh)
  have o13 : e1.oid ≠ e3.oid := fun hh => n13 (par_oid m1 m3 hh)
  rcases par_mem hu (s := s) (t := t) m1 with ⟨a, a'⟩ | ⟨a, a'⟩ | ⟨a, a'⟩ | ⟨a, a'⟩ <;>
  rcases par_mem hu (s := s) (t := t) m2 with ⟨b, b'⟩ | ⟨b, b'⟩ | ⟨b, b'⟩ | ⟨b, b'⟩ <;>
  first
  | (rw [a, b] at o12; exact absurd rfl o12)
  | rcases par_mem hu (s := s) (t := t) m3 with ⟨f, f'⟩ | ⟨f, f'⟩ | ⟨f, f'⟩ | ⟨f, f'⟩ <;>
    first
    | (rw [a, f] at o13; exact absurd rfl o13)
    | (rw [b, f] at o23; exact absurd rfl o23)
    | (rw [a'] at p1; rw [b'] at p2; rw [f'] at p3
       first
       | exact .inl ⟨by assumption, by assumption, .inl (by assumption)⟩
       | exact .inl ⟨by assumption, by assumption, .inr (by assumption)⟩
       | exact .inr ⟨by assumption, by assumption, .inl (by assumption)⟩
       | exact .inr ⟨by assumption, by assumption, .inr (by assumption)⟩)

theorem par_triple_height {first : Nat} {h : ℝ} (ht : Triple (parSides O u v w d first) h) :
    h = sine u v * (d / 2) ∨ h = sine u v * (w / 2) := by
  obtain ⟨X, e1, m1, e2, m2, e3, m3, n12, n23, n13, p1, p2, p3⟩ := ht
  obtain ⟨s, t, rfl⟩ := parPoint_all (O := O) hu X
  rcases par_three hu m1 m2 m3 n12 n23 n13 p1 p2 p3 with ⟨h1, h2, -⟩ | ⟨h1, h2, -⟩
  · left; linarith
  · right; linarith

/-- the nodes of the roof: the two ends of the ridge -/
theorem par_node_at {first : Nat} {X : V2 ℝ} {h : ℝ} (hn : RoofNode (parSides O u v w d first) X h) :
    h = sine u v * (min w d / 2) ∧ (X = parPoint O u v (min w d / 2) (min w d / 2) ∨
      X = parPoint O u v (w - min w d / 2) (d - min w d / 2)) := by
  obtain ⟨e1, m1, e2, m2, e3, m3, n12, n23, n13, p1, p2, p3⟩ := hn.three
  obtain ⟨s, t, rfl⟩ := parPoint_all (O := O) hu X
  have l : h ≤ sine u v * t ∧ h ≤ sine u v * (w - s) ∧ h ≤ sine u v * (d - t) ∧ h ≤ sine u v * s := by
    obtain ⟨h0, h1, h2, h3⟩ := par_height (O := O) (w := w) (d := d) hu first s t
    have a0 := hn.least _ (show parSide first 0 (parPoint O u v 0 0) (parPoint O u v w 0) u ∈ _ by simp [parSides])
    have a1 := hn.least _ (show parSide first 1 (parPoint O u v w 0) (parPoint O u v w d) v ∈ _ by simp [parSides])
    have a2 := hn.least _ (show parSide first 2 (parPoint O u v w d) (parPoint O u v 0 d) ⟨-u.x, -u.y⟩ ∈ _ by simp [parSides])
    have a3 := hn.least _ (show parSide first 3 (parPoint O u v 0 d) (parPoint O u v 0 0) ⟨-v.x, -v.y⟩ ∈ _ by simp [parSides])
    exact ⟨a0.trans_eq (h0 _), a1.trans_eq (h1 _), a2.trans_eq (h2 _), a3.trans_eq (h3 _)⟩
  obtain ⟨l0, l1, l2, l3⟩ := l
  have hk := hu.left
  have eq : ∀ {a b : ℝ}, sine u v * a = sine u v * b → a = b := fun h => mul_left_cancel₀ hk.ne' h
  have le : ∀ {a b : ℝ}, sine u v * a ≤ sine u v * b → a ≤ b := fun h => le_of_mul_le_mul_left h hk
  rcases par_three hu m1 m2 m3 n12 n23 n13 p1 p2 p3 with ⟨h1, h2, h3⟩ | ⟨h1, h2, h3⟩
  · have ht : t = d / 2 := by linarith [eq (h1.trans h2.symm)]
    subst h1
    have hm : min w d = d := min_eq_right (by linarith [le l1, le l3])
    rw [hm]
    refine ⟨by rw [ht], ?_⟩
    rcases h3 with h3 | h3
    · left; congr 1; linarith [eq h3]
    · right; congr 1 <;> linarith [eq h3]
  · have hs : s = w / 2 := by linarith [eq (h1.trans h2.symm)]
    subst h1
    have hm : min w d = w := min_eq_left (by linarith [le l0, le l2])
    rw [hm]
    refine ⟨by rw [hs], ?_⟩
    rcases h3 with h3 | h3
    · left; congr 1; linarith [eq h3]
    · right; congr 1 <;> linarith [eq h3]

theorem par_blunt (hw : 0 < w) (hd : 0 < d) (hb : |u.x * v.x + u.y * v.y| ≤ 24 / 25) (first : Nat) : Blunt (parSides O u v w d first) := by
  obtain ⟨b1, b2⟩ := abs_le.1 hb
  have h1 := hu.fst
  have h2 := hu.snd
  refine ⟨?_, ?_⟩
  · intro e he f hf g hg n1 n2 n3
    simp only [parSides, List.mem_cons, List.not_mem_nil, or_false] at he hf hg
    left
    rcases he with rfl | rfl | rfl | rfl <;> rcases hf with rfl | rfl | rfl | rfl <;>
      first
      | exact absurd rfl n1
      | (simp only [parSide]; nlinarith)
  · intro e he f hf hef
    simp only [parSides, List.mem_cons, List.not_mem_nil, or_false] at he hf
    rcases he with rfl | rfl | rfl | rfl <;> rcases hf with rfl | rfl | rfl | rfl <;>
      first
      | (exfalso; have := parPoint_inj hu hef; linarith [this.1, this.2]; done)
      | (simp only [parSide]; nlinarith)

theorem par_separated (hwd : 1 / 500 ≤ sine u v * |w - d|) (first : Nat) : Separated (parSides O u v w d first) := by
  intro h h' t t' _ hlt
  rcases le_or_gt d w with hc | hc
  · rw [abs_of_nonneg (by linarith)] at hwd
    rcases par_triple_height hu t with rfl | rfl <;> rcases par_triple_height hu t' with rfl | rfl <;> linarith
  · rw [abs_of_neg (by linarith)] at hwd
    rcases par_triple_height hu t with rfl | rfl <;> rcases par_triple_height hu t' with rfl | rfl <;> linarith

theorem par_apart (hwd : 1 / 10 ≤ if d < w then (w - d) * (|u.x| + |u.y|) else (d - w) * (|v.x| + |v.y|)) (first : Nat) :
    NodesApart (parSides O u v w d first) := by
  have key : 1 / 10 ≤ |(parPoint O u v (min w d / 2) (min w d / 2)).x - (parPoint O u v (w - min w d / 2) (d - min w d / 2)).x| +
      |(parPoint O u v (min w d / 2) (min w d / 2)).y - (parPoint O u v (w - min w d / 2) (d - min w d / 2)).y| := by
    refine hwd.trans_eq ?_
    simp only [parPoint]
    split_ifs with h
    · rw [min_eq_right h.le]
      have e1 : O.x + d / 2 * u.x + d / 2 * v.x - (O.x + (w - d / 2) * u.x + (d - d / 2) * v.x) = -((w - d) * u.x) := by ring
      have e2 : O.y + d / 2 * u.y + d / 2 * v.y - (O.y + (w - d / 2) * u.y + (d - d / 2) * v.y) = -((w - d) * u.y) := by ring
      rw [e1, e2, abs_neg, abs_neg, abs_mul, abs_mul, abs_of_pos (show 0 < w - d by linarith)]
      ring
    · rw [min_eq_left (not_lt.1 h)]
      have e1 : O.x + w / 2 * u.x + w / 2 * v.x - (O.x + (w - w / 2) * u.x + (d - w / 2) * v.x) = -((d - w) * v.x) := by ring
      have e2 : O.y + w / 2 * u.y + w / 2 * v.y - (O.y + (w - w / 2) * u.y + (d - w / 2) * v.y) = -((d - w) * v.y) := by ring
      rw [e1, e2, abs_neg, abs_neg, abs_mul, abs_mul, abs_of_nonneg (show 0 ≤ d - w by linarith)]
      ring
  intro p h p' h' hn hn' hne
  obtain ⟨-, hp⟩ := par_node_at hu hn
  obtain ⟨-, hp'⟩ := par_node_at hu hn'
  rcases hp with rfl | rfl <;> rcases hp' with rfl | rfl
  · exact absurd rfl hne
  · exact key
  · rw [abs_sub_comm (parPoint O u v (w - _) _).x, abs_sub_comm (parPoint O u v (w - _) _).y]; exact key
  · exact absurd rfl hne

end


/-! ### The boundaries of its faces -/

section
variable {O u v : V2 ℝ} {w d : ℝ} (hu : Slanted u v)
include hu

/-- the distances of a point from the four sides -/
theorem par_heights (first : Nat) (s t : ℝ) : ∀ e ∈ parSides O u v w d first,
    height e.p1 e.norm (parPoint O u v s t) =
      sine u v * if e.oid = 0 then t else if e.oid = 1 then w - s else if e.oid = 2 then d - t else s := by
  intro e he
  rcases par_mem hu (s := s) (t := t) he with ⟨h, h'⟩ | ⟨h, h'⟩ | ⟨h, h'⟩ | ⟨h, h'⟩ <;> rw [h', h] <;> simp

theorem par_rings (hw : 0 < w) (hd : 0 < d) (hc : ConvexPolygon (parSides O u v w d first)) :
    (d < w →
      CellRing (parSides O u v w d first) (parSide first 0 (parPoint O u v 0 0) (parPoint O u v w 0) u) 4
        (quadPts (parPoint O u v 0 0) (parPoint O u v w 0) (parPoint O u v (w - d / 2) (d / 2)) (parPoint O u v (d / 2) (d / 2))) ∧
      CellRing (parSides O u v w d first) (parSide first 1 (parPoint O u v w 0) (parPoint O u v w d) v) 3
        (quadPts (parPoint O u v w 0) (parPoint O u v w d) (parPoint O u v (w - d / 2) (d / 2)) (parPoint O u v (w - d / 2) (d / 2))) ∧
      CellRing (parSides O u v w d first) (parSide first 2 (parPoint O u v w d) (parPoint O u v 0 d) ⟨-u.x, -u.y⟩) 4
        (quadPts (parPoint O u v w d) (parPoint O u v 0 d) (parPoint O u v (d / 2) (d / 2)) (parPoint O u v (w - d / 2) (d / 2))) ∧
      CellRing (parSides O u v w d first) (parSide first 3 (parPoint O u v 0 d) (parPoint O u v 0 0) ⟨-v.x, -v.y⟩) 3
        (quadPts (parPoint O u v 0 d) (parPoint O u v 0 0) (parPoint O u v (d / 2) (d / 2)) (parPoint O u v (d / 2) (d / 2)))) := by
  have m0 : parSide first 0 (parPoint O u v 0 0) (parPoint O u v w 0) u ∈ parSides O u v w d first := by simp [parSides]
  have m1 : parSide first 1 (parPoint O u v w 0) (parPoint O u v w d) v ∈ parSides O u v w d first := by
    simp [parSides]
  have m2 : parSide first 2 (parPoint O u v w d) (parPoint O u v 0 d) ⟨-u.x, -u.y⟩ ∈ parSides O u v w d first := by
    simp [parSides]
  have m3 : parSide first 3 (parPoint O u v 0 d) (parPoint O u v 0 0) ⟨-v.x, -v.y⟩ ∈ parSides O u v w d first := by
    simp [parSides]
  have hne : ∀ {e f}, e ∈ parSides O u v w d first → f ∈ parSides O u v w d first → e.oid ≠ f.oid → e.norm ≠ f.norm :=
    fun he hf h hn => h (by rw [hc.norm_inj he hf hn])
  have H := fun s t e he => par_heights (O := O) (w := w) (d := d) hu first s t e he
  have hnear : ∀ {g}, g ∈ parSides O u v w d first → g.oid = 0 ∨ g.oid = 1 ∨ g.oid = 2 ∨ g.oid = 3 := by
    intro g hg
    rcases par_mem hu (s := 0) (t := 0) hg with h | h | h | h <;> simp [h.1]
  intro hdw
  refine ⟨CellRing.quad ?_ ?_ ⟨m1, m2, m3⟩ ⟨hne m1 m0 (by simp [parSide]), hne m2 m0 (by simp [parSide]), hne m3 m0 (by simp [parSide])⟩ ?_ ?_ ?_ rfl rfl ?_,
    CellRing.tri ?_ ?_ ⟨m2, m0⟩ ⟨hne m2 m1 (by simp [parSide]), hne m0 m1 (by simp [parSide])⟩ ?_ ?_ rfl rfl ?_,
    CellRing.quad ?_ ?_ ⟨m3, m0, m1⟩ ⟨hne m3 m2 (by simp [parSide]), hne m0 m2 (by simp [parSide]), hne m1 m2 (by simp [parSide])⟩ ?_ ?_ ?_ rfl rfl ?_,
    CellRing.tri ?_ ?_ ⟨m0, m2⟩ ⟨hne m0 m3 (by simp [parSide]), hne m2 m3 (by simp [parSide])⟩ ?_ ?_ rfl rfl ?_⟩
  all_goals
    first
    | (simp only [parPoint_area]; first | (refine ⟨?_, ?_, ?_, ?_⟩ <;> apply mul_pos hu.left <;> nlinarith) | (apply mul_pos hu.left; nlinarith))
    | (intro g hg
       simp only [H _ _ _ hg, H _ _ _ m0, H _ _ _ m1, H _ _ _ m2, H _ _ _ m3]
       simp only [mul_le_mul_iff_right₀ hu.left]
       rcases hnear hg with h | h | h | h <;> simp [parSide, h] <;> (try constructor) <;> (try constructor) <;> (try constructor) <;> linarith)
    | (simp only [H _ _ _ m0, H _ _ _ m1, H _ _ _ m2, H _ _ _ m3, mul_right_inj' hu.left.ne', mul_pos_iff_of_pos_left hu.left]; simp [parSide]; try linarith)

theorem par_rings_deep (hw : 0 < w) (hd : 0 < d) (hc : ConvexPolygon (parSides O u v w d first)) :
    (w < d →
      CellRing (parSides O u v w d first) (parSide first 0 (parPoint O u v 0 0) (parPoint O u v w 0) u) 3
        (quadPts (parPoint O u v 0 0) (parPoint O u v w 0) (parPoint O u v (w / 2) (w / 2)) (parPoint O u v (w / 2) (w / 2))) ∧
      CellRing (parSides O u v w d first) (parSide first 1 (parPoint O u v w 0) (parPoint O u v w d) v) 4
        (quadPts (parPoint O u v w 0) (parPoint O u v w d) (parPoint O u v (w / 2) (d - w / 2)) (parPoint O u v (w / 2) (w / 2))) ∧
      CellRing (parSides O u v w d first) (parSide first 2 (parPoint O u v w d) (parPoint O u v 0 d) ⟨-u.x, -u.y⟩) 3
        (quadPts (parPoint O u v w d) (parPoint O u v 0 d) (parPoint O u v (w / 2) (d - w / 2)) (parPoint O u v (w / 2) (d - w / 2))) ∧
      CellRing (parSides O u v w d first) (parSide first 3 (parPoint O u v 0 d) (parPoint O u v 0 0) ⟨-v.x, -v.y⟩) 4
        (quadPts (parPoint O u v 0 d) (parPoint O u v 0 0) (parPoint O u v (w / 2) (w / 2)) (parPoint O u v (w / 2) (d - w / 2)))) := by
  have m0 : parSide first 0 (parPoint O u v 0 0) (parPoint O u v w 0) u ∈ parSides O u v w d first := by simp [parSides]
  have m1 : parSide first 1 (parPoint O u v w 0) (parPoint O u v w d) v ∈ parSides O u v w d first := by
    simp [parSides]
  have m2 : parSide first 2 (parPoint O u v w d) (parPoint O u v 0 d) ⟨-u.x, -u.y⟩ ∈ parSides O u v w d first := by
    simp [parSides]
  have m3 : parSide first 3 (parPoint O u v 0 d) (parPoint O u v 0 0) ⟨-v.x, -v.y⟩ ∈ parSides O u v w d first := by
    simp [parSides]
  have hne : ∀ {e f}, e ∈ parSides O u v w d first → f ∈ parSides O u v w d first → e.oid ≠ f.oid → e.norm ≠ f.norm :=
    fun he hf h hn => h (by rw [hc.norm_inj he hf hn])
  have H := fun s t e he => par_heights (O := O) (w := w) (d := d) hu first s t e he
  have hnear : ∀ {g}, g ∈ parSides O u v w d first → g.oid = 0 ∨ g.oid = 1 ∨ g.oid = 2 ∨ g.oid = 3 := by
    intro g hg
    rcases par_mem hu (s := 0) (t := 0) hg with h | h | h | h <;> simp [h.1]
  intro hdw
  refine ⟨CellRing.tri ?_ ?_ ⟨m1, m3⟩ ⟨hne m1 m0 (by simp [parSide]), hne m3 m0 (by simp [parSide])⟩ ?_ ?_ rfl rfl ?_,
    CellRing.quad ?_ ?_ ⟨m2, m3, m0⟩ ⟨hne m2 m1 (by simp [parSide]), hne m3 m1 (by simp [parSide]), hne m0 m1 (by simp [parSide])⟩ ?_ ?_ ?_ rfl rfl ?_,
    CellRing.tri ?_ ?_ ⟨m3, m1⟩ ⟨hne m3 m2 (by simp [parSide]), hne m1 m2 (by simp [parSide])⟩ ?_ ?_ rfl rfl ?_,
    CellRing.quad ?_ ?_ ⟨m0, m1, m2⟩ ⟨hne m0 m3 (by simp [parSide]), hne m1 m3 (by simp [parSide]), hne m2 m3 (by simp [parSide])⟩ ?_ ?_ ?_ rfl rfl ?_⟩
  all_goals
    first
    | (simp only [parPoint_area]; first | (refine ⟨?_, ?_, ?_, ?_⟩ <;> apply mul_pos hu.left <;> nlinarith) | (apply mul_pos hu.left; nlinarith))
    | (intro g hg
       simp only [H _ _ _ hg, H _ _ _ m0, H _ _ _ m1, H _ _ _ m2, H _ _ _ m3]
       simp only [mul_le_mul_iff_right₀ hu.left]
       rcases hnear hg with h | h | h | h <;> simp [parSide, h] <;> (try constructor) <;> (try constructor) <;> (try constructor) <;> linarith)
    | (simp only [H _ _ _ m0, H _ _ _ m1, H _ _ _ m2, H _ _ _ m3, mul_right_inj' hu.left.ne', mul_pos_iff_of_pos_left hu.left]; simp [parSide]; try linarith)

/-- both points are nodes -/
theorem par_nodes (hw : 0 < w) (hd : 0 < d) (hwd : w ≠ d) (first : Nat) :
    RoofNode (parSides O u v w d first) (parPoint O u v (min w d / 2) (min w d / 2)) (sine u v * (min w d / 2)) ∧
    RoofNode (parSides O u v w d first) (parPoint O u v (w - min w d / 2) (d - min w d / 2)) (sine u v * (min w d / 2)) := by
  have m0 : parSide first 0 (parPoint O u v 0 0) (parPoint O u v w 0) u ∈ parSides O u v w d first := by simp [parSides]
  have m1 : parSide first 1 (parPoint O u v w 0) (parPoint O u v w d) v ∈ parSides O u v w d first := by
    simp [parSides]
  have m2 : parSide first 2 (parPoint O u v w d) (parPoint O u v 0 d) ⟨-u.x, -u.y⟩ ∈ parSides O u v w d first := by
    simp [parSides]
  have m3 : parSide first 3 (parPoint O u v 0 d) (parPoint O u v 0 0) ⟨-v.x, -v.y⟩ ∈ parSides O u v w d first := by
    simp [parSides]
  have h1 := min_le_left w d
  have h2 := min_le_right w d
  have hle : ∀ s t, min w d / 2 ≤ s → min w d / 2 ≤ t → min w d / 2 ≤ w - s → min w d / 2 ≤ d - t →
      ∀ e ∈ parSides O u v w d first, sine u v * (min w d / 2) ≤ height e.p1 e.norm (parPoint O u v s t) := by
    intro s t a1 a2 a3 a4 e he
    rw [par_heights hu first s t e he]
    apply mul_le_mul_of_nonneg_left _ hu.left.le
    split_ifs <;> assumption
  have hne : ∀ {e f : Edge2 ℝ}, e.oid ≠ f.oid → e ≠ f := fun h h' => h (h' ▸ rfl)
  have n01 : parSide first 0 (parPoint O u v 0 0) (parPoint O u v w 0) u ≠
      parSide first 1 (parPoint O u v w 0) (parPoint O u v w d) v := hne (by simp [parSide])
  have n12 : parSide first 1 (parPoint O u v w 0) (parPoint O u v w d) v ≠
      parSide first 2 (parPoint O u v w d) (parPoint O u v 0 d) ⟨-u.x, -u.y⟩ := hne (by simp [parSide])
  have n02 : parSide first 0 (parPoint O u v 0 0) (parPoint O u v w 0) u ≠
      parSide first 2 (parPoint O u v w d) (parPoint O u v 0 d) ⟨-u.x, -u.y⟩ := hne (by simp [parSide])
  have n03 : parSide first 0 (parPoint O u v 0 0) (parPoint O u v w 0) u ≠
      parSide first 3 (parPoint O u v 0 d) (parPoint O u v 0 0) ⟨-v.x, -v.y⟩ := hne (by simp [parSide])
  have n23 : parSide first 2 (parPoint O u v w d) (parPoint O u v 0 d) ⟨-u.x, -u.y⟩ ≠
      parSide first 3 (parPoint O u v 0 d) (parPoint O u v 0 0) ⟨-v.x, -v.y⟩ := hne (by simp [parSide])
  have n13 : parSide first 1 (parPoint O u v w 0) (parPoint O u v w d) v ≠
      parSide first 3 (parPoint O u v 0 d) (parPoint O u v 0 0) ⟨-v.x, -v.y⟩ := hne (by simp [parSide])
  refine ⟨⟨hle _ _ (le_refl _) (le_refl _) (by linarith) (by linarith), ?_⟩,
    ⟨hle _ _ (by linarith) (by linarith) (by linarith) (by linarith), ?_⟩⟩
  all_goals rcases lt_or_gt_of_ne hwd with h | h
  · refine ⟨_, m0, _, m1, _, m3, n01, n13, n03, ?_⟩
    rw [par_heights hu first _ _ _ m0, par_heights hu first _ _ _ m1, par_heights hu first _ _ _ m3, min_eq_left h.le]
    simp only [mul_right_inj' hu.left.ne']
    simp [parSide]
    try ring
  · refine ⟨_, m0, _, m2, _, m3, n02, n23, n03, ?_⟩
    rw [par_heights hu first _ _ _ m0, par_heights hu first _ _ _ m2, par_heights hu first _ _ _ m3, min_eq_right h.le]
    simp only [mul_right_inj' hu.left.ne']
    simp [parSide]
    try ring
  · refine ⟨_, m1, _, m2, _, m3, n12, n23, n13, ?_⟩
    rw [par_heights hu first _ _ _ m1, par_heights hu first _ _ _ m2, par_heights hu first _ _ _ m3, min_eq_left h.le]
    simp only [mul_right_inj' hu.left.ne']
    simp [parSide]
    try ring
  · refine ⟨_, m0, _, m1, _, m2, n01, n12, n02, ?_⟩
    rw [par_heights hu first _ _ _ m0, par_heights hu first _ _ _ m1, par_heights hu first _ _ _ m2, min_eq_right h.le]
    simp only [mul_right_inj' hu.left.ne']
    simp [parSide]
    try ring

end

/-! ### The roof as a whole -/

/-- C86: a parallelogram that is not a rhombus, in any position, gets a roof with a ridge half-way between its
longer sides, as long as the difference of the sides, that leaves half of the shorter side in the direction of
the longer ones at both ends.  Over the two shorter sides there are triangles, over the two longer ones
quadrangles.  The ridge must be at least a tenth long (in the Manhattan metric), and no corner sharper than
about 16°; for a rhombus see `C68_pyramid`. -/
theorem C86_parallelogram (rt : Rt) (a : PolyArgs ℝ) (O u v : V2 ℝ) (w d : ℝ) (A0 A1 A2 A3 : V3 ℝ)
    (hu : Slanted u v) (hb : |u.x * v.x + u.y * v.y| ≤ 24 / 25) (hh : a.holes.getD [] = []) (hun : a.units = none) (h4 : a.num = 4)
    (v0 : a.verts[a.first]? = some A0) (v1 : a.verts[a.first + 1]? = some A1)
    (v2 : a.verts[a.first + 2]? = some A2) (v3 : a.verts[a.first + 3]? = some A3)
    (x0 : A0.xy = parPoint O u v 0 0) (x1 : A1.xy = parPoint O u v w 0) (x2 : A2.xy = parPoint O u v w d)
    (x3 : A3.xy = parPoint O u v 0 d) (hw : 0 < w) (hd : 0 < d) (lw : 1 / 10 ^ 35 < w ^ 2)
    (ld : 1 / 10 ^ 35 < d ^ 2)
    (hwd : 1 / 10 ≤ if d < w then (w - d) * (|u.x| + |u.y|) else (d - w) * (|v.x| + |v.y|)) (fuel : Nat) (hf : 17 ≤ fuel) :
    ∃ out new fs t N1 N2, polygonize rt fuel a = some out ∧ out.verts = a.verts ++ new ∧
      new.Perm [N1, N2] ∧ out.result = .ok (a.faces.getD [] ++ fs) ∧
      N1 = atZ (parPoint O u v (min w d / 2) (min w d / 2)) (A0.z + t * (sine u v * (min w d / 2))) ∧
      N2 = atZ (parPoint O u v (w - min w d / 2) (d - min w d / 2)) (A0.z + t * (sine u v * (min w d / 2))) ∧
      (a.height = 0 → t = a.tan) ∧ (a.height ≠ 0 → t * (sine u v * (min w d / 2)) = a.height) ∧
      (fs.map (facePoints out.verts)).Perm
        (if d < w then
          [[some A0, some A1, some N2, some N1], [some A1, some A2, some N2],
           [some A2, some A3, some N1, some N2], [some A3, some A0, some N1]]
        else
          [[some A0, some A1, some N1], [some A1, some A2, some N2, some N1],
           [some A2, some A3, some N2], [some A3, some A0, some N1, some N2]]) := by
  have hP : ∀ k, k < 4 → ∃ A, a.verts[a.first + k]? = some A ∧ A.xy = parCorner O u v w d k := by
    intro k hk
    have : k = 0 ∨ k = 1 ∨ k = 2 ∨ k = 3 := by omega
    rcases this with rfl | rfl | rfl | rfl
    · exact ⟨A0, v0, x0⟩
    · exact ⟨A1, v1, x1⟩
    · exact ⟨A2, v2, x2⟩
    · exact ⟨A3, v3, x3⟩
  have hleft : ∀ i j, i < 4 → j < 4 → j ≠ i → j ≠ (i + 1) % 4 →
      0 < area2 (parCorner O u v w d i) (parCorner O u v w d ((i + 1) % 4)) (parCorner O u v w d j) := by
    intro i j hi hj h1 h2
    have hi' : i = 0 ∨ i = 1 ∨ i = 2 ∨ i = 3 := by omega
    have hj' : j = 0 ∨ j = 1 ∨ j = 2 ∨ j = 3 := by omega
    rcases hi' with rfl | rfl | rfl | rfl <;> rcases hj' with rfl | rfl | rfl | rfl <;>
      simp at h1 h2 <;> simp only [parCorner, Nat.reduceAdd, Nat.reduceMod, parPoint_area] <;> apply mul_pos hu.left <;> nlinarith
  have hlong : ∀ k, k < 4 → 1 / 10 ^ 35 < eucl (parCorner O u v w d k) (parCorner O u v w d ((k + 1) % 4)) ^ 2 := by
    intro k hk
    have : k = 0 ∨ k = 1 ∨ k = 2 ∨ k = 3 := by omega
    rcases this with rfl | rfl | rfl | rfl <;>
      simp only [parCorner, Nat.reduceAdd, Nat.reduceMod, parPoint_along hu, parPoint_across hu, sq_abs] <;> nlinarith
  have hsum : ∀ x : V2 ℝ, x.x ^ 2 + x.y ^ 2 = 1 → |x.x| + |x.y| ≤ 2 := by
    intro x hx
    have := sq_abs x.x
    have := sq_abs x.y
    nlinarith [sq_nonneg (|x.x| - 1), sq_nonneg (|x.y| - 1)]
  have hdist : 1 / 20 ≤ |w - d| := by
    split_ifs at hwd with h
    · rw [abs_of_pos (by linarith)]
      nlinarith [hsum u hu.fst]
    · rw [abs_of_nonpos (by linarith)]
      nlinarith [hsum v hu.snd]
  have hsine : 1 / 4 ≤ sine u v := by
    have h1 : sine u v ^ 2 + (u.x * v.x + u.y * v.y) ^ 2 = 1 := by
      simp only [sine]
      linear_combination (v.x ^ 2 + v.y ^ 2) * hu.fst + hu.snd
    have h2 : (u.x * v.x + u.y * v.y) ^ 2 ≤ (24 / 25) ^ 2 := sq_le_sq.2 (hb.trans (by norm_num [abs_of_pos]))
    by_contra h
    nlinarith [hu.left]
  have hsmall : 1 / 500 ≤ sine u v * |w - d| := by nlinarith
  have hside : sides a.first a.num (parCorner O u v w d) = parSides O u v w d a.first := by
    rw [h4]; exact sides_parallelogram hu hw hd _
  have hc : ConvexPolygon (parSides O u v w d a.first) := by
    rw [← sides_parallelogram hu hw hd]
    exact sides_convex (by omega) hleft
  obtain ⟨A, out, new, t, fs, σ, hA, hp, hov, hres, hnd, hall, hz, ht0, ht1, hσ, hF⟩ :=
    roof_of_points rt a (parCorner O u v w d) hh hun (by omega) (by rw [h4]; exact hP) (by rw [h4]; exact hleft)
      (by rw [h4]; exact hlong) (by rw [hside]; exact par_separated hu hsmall _)
      (by rw [hside]; exact par_blunt hu hw hd hb _) (by rw [hside]; exact par_apart hu hwd _) fuel
      (by rw [h4]; exact hf)
  rw [hside] at hall hz ht1 hF
  rw [v0] at hA
  cases hA
  have hne : w ≠ d := by
    rintro rfl
    norm_num at hdist
  obtain ⟨k1, k2⟩ := par_nodes (O := O) hu hw hd hne a.first
  have hne12 : parPoint O u v (min w d / 2) (min w d / 2) ≠ parPoint O u v (w - min w d / 2) (d - min w d / 2) := by
    intro h
    obtain ⟨h1, h2⟩ := parPoint_inj hu h
    exact hne (by linarith)
  have hmem : ∀ V, V ∈ new ↔ V = atZ (parPoint O u v (min w d / 2) (min w d / 2)) (A0.z + t * (sine u v * (min w d / 2))) ∨
      V = atZ (parPoint O u v (w - min w d / 2) (d - min w d / 2)) (A0.z + t * (sine u v * (min w d / 2))) := by
    intro V
    constructor
    · intro hV
      obtain ⟨h, hn⟩ := (hall _).1 (List.mem_map_of_mem hV)
      have hzV := hz V hV h hn
      obtain ⟨rfl, hx | hx⟩ := par_node_at hu hn
      · left
        rw [← hx, ← hzV]
        rfl
      · right
        rw [← hx, ← hzV]
        rfl
    · intro hV
      have key : ∀ X, RoofNode (parSides O u v w d a.first) X (sine u v * (min w d / 2)) →
          atZ X (A0.z + t * (sine u v * (min w d / 2))) ∈ new := by
        intro X hX
        obtain ⟨V, hV, rfl⟩ := List.mem_map.1 ((hall X).2 ⟨_, hX⟩)
        rw [← hz V hV _ hX]
        exact hV
      rcases hV with rfl | rfl
      · exact key _ k1
      · exact key _ k2
  refine ⟨out, new, fs, t, _, _, hp, hov, ?_, hres, rfl, rfl, ht0, ?_, ?_⟩
  · rw [List.perm_ext_iff_of_nodup (List.Nodup.of_map _ hnd)]
    · intro V
      rw [hmem V]
      simp
    · simp only [List.nodup_cons, List.mem_singleton, List.not_mem_nil, not_false_eq_true, List.nodup_nil, and_true]
      intro h
      exact hne12 (congrArg V3.xy h)
  · intro h0
    obtain ⟨V, hV, h, hn, hth, -⟩ := ht1 h0
    rw [← (par_node_at hu hn).1]
    exact hth
  · have hov' : ∀ (i : Nat) (A : V3 ℝ), a.verts[i]? = some A → out.verts[i]? = some A := by
      intro i A hi
      rw [hov, List.getElem?_append_left (List.getElem?_eq_some_iff.1 hi).1]
      exact hi
    have go : ∀ g : Nat → List (Option (V3 ℝ)), (∀ k, k < 4 → ∀ e f, (parSides O u v w d a.first)[k]? = some e →
        RoofFace a (parSides O u v w d a.first) e A0.z t out.verts k f → facePoints out.verts f = g k) →
        (fs.map (facePoints out.verts)).Perm ((List.range 4).map g) := by
      intro g hg
      have h1 : fs.map (facePoints out.verts) = σ.map g := by
        have hlt : ∀ k ∈ σ, k < 4 := by
          intro k hk
          have := hσ.mem_iff.1 hk
          rw [h4] at this
          simpa using this
        clear hσ hres
        induction hF with
        | nil => rfl
        | @cons k f σ' fs' h0 _ ih =>
          obtain ⟨e, he, hr⟩ := h0
          rw [List.map_cons, List.map_cons, hg k (hlt k List.mem_cons_self) e f he hr,
            ih (fun k hk => hlt k (List.mem_cons_of_mem _ hk))]
      rw [h1]
      rw [h4] at hσ
      exact hσ.map g
    have m0 : parSide a.first 0 (parPoint O u v 0 0) (parPoint O u v w 0) u ∈ parSides O u v w d a.first := by
      simp [parSides]
    have m1 : parSide a.first 1 (parPoint O u v w 0) (parPoint O u v w d) v ∈ parSides O u v w d a.first := by
      simp [parSides]
    have m2 : parSide a.first 2 (parPoint O u v w d) (parPoint O u v 0 d) ⟨-u.x, -u.y⟩ ∈ parSides O u v w d a.first := by
      simp [parSides]
    have m3 : parSide a.first 3 (parPoint O u v 0 d) (parPoint O u v 0 0) ⟨-v.x, -v.y⟩ ∈ parSides O u v w d a.first := by
      simp [parSides]
    split_ifs with hdw
    · obtain ⟨r0, r1, r2, r3⟩ := par_rings hu hw hd hc hdw
      rw [min_eq_right hdw.le]
      refine (go (fun k => match k with
        | 0 => [some A0, some A1, some (atZ (parPoint O u v (w - d / 2) (d - d / 2)) (A0.z + t * (sine u v * (d / 2)))),
            some (atZ (parPoint O u v (d / 2) (d / 2)) (A0.z + t * (sine u v * (d / 2))))]
        | 1 => [some A1, some A2, some (atZ (parPoint O u v (w - d / 2) (d - d / 2)) (A0.z + t * (sine u v * (d / 2))))]
        | 2 => [some A2, some A3, some (atZ (parPoint O u v (d / 2) (d / 2)) (A0.z + t * (sine u v * (d / 2)))),
            some (atZ (parPoint O u v (w - d / 2) (d - d / 2)) (A0.z + t * (sine u v * (d / 2))))]
        | _ => [some A3, some A0, some (atZ (parPoint O u v (d / 2) (d / 2)) (A0.z + t * (sine u v * (d / 2))))]) ?_)
      intro k hk e f he hr
      have : k = 0 ∨ k = 1 ∨ k = 2 ∨ k = 3 := by omega
      rcases this with rfl | rfl | rfl | rfl <;> cases he
      · rw [hr.points (hov' _ _ v0) (by rw [h4]; exact hov' _ _ v1) x0 x1 hc m0 r0]
        have hh : ∀ s t, _ := fun s t => par_heights hu a.first s t _ m0
        simp [parSide] at hh
        simp [List.range_succ, quadPts, atZ, parSide, sub_half, hh]
      · rw [hr.points (hov' _ _ v1) (by rw [h4]; exact hov' _ _ v2) x1 x2 hc m1 r1]
        have hh : ∀ s t, _ := fun s t => par_heights hu a.first s t _ m1
        simp [parSide] at hh
        simp [List.range_succ, quadPts, atZ, parSide, sub_half, hh]
      · rw [hr.points (hov' _ _ v2) (by rw [h4]; exact hov' _ _ v3) x2 x3 hc m2 r2]
        have hh : ∀ s t, _ := fun s t => par_heights hu a.first s t _ m2
        simp [parSide] at hh
        simp [List.range_succ, quadPts, atZ, parSide, sub_half, hh]
      · rw [hr.points (hov' _ _ v3) (by rw [h4]; exact hov' _ _ v0) x3 x0 hc m3 r3]
        have hh : ∀ s t, _ := fun s t => par_heights hu a.first s t _ m3
        simp [parSide] at hh
        simp [List.range_succ, quadPts, atZ, parSide, sub_half, hh]
    · have hwd' : w < d := lt_of_le_of_ne (not_lt.1 hdw) hne
      obtain ⟨r0, r1, r2, r3⟩ := par_rings_deep hu hw hd hc hwd'
      rw [min_eq_left hwd'.le]
      refine (go (fun k => match k with
        | 0 => [some A0, some A1, some (atZ (parPoint O u v (w / 2) (w / 2)) (A0.z + t * (sine u v * (w / 2))))]
        | 1 => [some A1, some A2, some (atZ (parPoint O u v (w - w / 2) (d - w / 2)) (A0.z + t * (sine u v * (w / 2)))),
            some (atZ (parPoint O u v (w / 2) (w / 2)) (A0.z + t * (sine u v * (w / 2))))]
        | 2 => [some A2, some A3, some (atZ (parPoint O u v (w - w / 2) (d - w / 2)) (A0.z + t * (sine u v * (w / 2))))]
        | _ => [some A3, some A0, some (atZ (parPoint O u v (w / 2) (w / 2)) (A0.z + t * (sine u v * (w / 2)))),
            some (atZ (parPoint O u v (w - w / 2) (d - w / 2)) (A0.z + t * (sine u v * (w / 2))))]) ?_)
      intro k hk e f he hr
      have : k = 0 ∨ k = 1 ∨ k = 2 ∨ k = 3 := by omega
      rcases this with rfl | rfl | rfl | rfl <;> cases he
      · rw [hr.points (hov' _ _ v0) (by rw [h4]; exact hov' _ _ v1) x0 x1 hc m0 r0]
        have hh : ∀ s t, _ := fun s t => par_heights hu a.first s t _ m0
        simp [parSide] at hh
        simp [List.range_succ, quadPts, atZ, parSide, sub_half, hh]
      · rw [hr.points (hov' _ _ v1) (by rw [h4]; exact hov' _ _ v2) x1 x2 hc m1 r1]
        have hh : ∀ s t, _ := fun s t => par_heights hu a.first s t _ m1
        simp [parSide] at hh
        simp [List.range_succ, quadPts, atZ, parSide, sub_half, hh]
      · rw [hr.points (hov' _ _ v2) (by rw [h4]; exact hov' _ _ v3) x2 x3 hc m2 r2]
        have hh : ∀ s t, _ := fun s t => par_heights hu a.first s t _ m2
        simp [parSide] at hh
        simp [List.range_succ, quadPts, atZ, parSide, sub_half, hh]
      · rw [hr.points (hov' _ _ v3) (by rw [h4]; exact hov' _ _ v0) x3 x0 hc m3 r3]
        have hh : ∀ s t, _ := fun s t => par_heights hu a.first s t _ m3
        simp [parSide] at hh
        simp [List.range_succ, quadPts, atZ, parSide, sub_half, hh]

/-- A case: a parallelogram with the sides 10 and 5, and 4 between the longer ones; its ridge is 2 above. -/
noncomputable def slantArgs : PolyArgs ℝ :=
  { verts := [⟨0, 0, 7⟩, ⟨10, 0, 7⟩, ⟨13, 4, 7⟩, ⟨3, 4, 7⟩], first := 0, num := 4, holes := none,
    height := 0, tan := 1, faces := none, units := none }

example (rt : Rt) : ∃ out new fs, polygonize rt 17 slantArgs = some out ∧
    out.verts = slantArgs.verts ++ new ∧ out.result = .ok fs ∧
    new.Perm [⟨4, 2, 9⟩, ⟨9, 2, 9⟩] ∧
    (fs.map (facePoints out.verts)).Perm
      [[some ⟨0, 0, 7⟩, some ⟨10, 0, 7⟩, some ⟨9, 2, 9⟩, some ⟨4, 2, 9⟩],
       [some ⟨10, 0, 7⟩, some ⟨13, 4, 7⟩, some ⟨9, 2, 9⟩],
       [some ⟨13, 4, 7⟩, some ⟨3, 4, 7⟩, some ⟨4, 2, 9⟩, some ⟨9, 2, 9⟩],
       [some ⟨3, 4, 7⟩, some ⟨0, 0, 7⟩, some ⟨4, 2, 9⟩]] := by
  obtain ⟨out, new, fs, t, N1, N2, h1, h2, h3, h4, h5, h6, h7, -, h8⟩ := C86_parallelogram rt slantArgs ⟨0, 0⟩
    ⟨1, 0⟩ ⟨3 / 5, 4 / 5⟩ 10 5 _ _ _ _ ⟨by norm_num, by norm_num, by norm_num [sine]⟩ (by norm_num [abs_of_pos])
    rfl rfl rfl rfl rfl rfl rfl
    (by simp [parPoint, V3.xy]) (by simp [parPoint, V3.xy]) (by simp [parPoint, V3.xy]; norm_num)
    (by simp [parPoint, V3.xy]; norm_num) (by norm_num) (by norm_num) (by norm_num) (by norm_num)
    (by norm_num [abs_of_pos]) 17 (le_refl _)
  have ht : t = 1 := h7 rfl
  subst ht
  have e1 : N1 = ⟨4, 2, 9⟩ := by
    rw [h5]
    norm_num [atZ, parPoint, sine]
  have e2 : N2 = ⟨9, 2, 9⟩ := by
    rw [h6]
    norm_num [atZ, parPoint, sine]
  rw [e1, e2] at h3 h8
  rw [if_pos (by norm_num)] at h8
  exact ⟨out, new, fs, h1, h2, h4, h3, h8⟩

end Polyskel
