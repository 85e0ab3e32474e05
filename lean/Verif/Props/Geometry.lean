import Mathlib.Tactic.Linarith
import Mathlib.Tactic.LinearCombination
import Mathlib.Tactic.Ring
import Mathlib.Tactic.FieldSimp
import Verif.Spec.Geometry
/-
C01-C03: intersections and distances (bpyeuclid.py), exact arithmetic.
-/
namespace Polyskel
open Geo

/-! ### C01 -/

/-- C01: the intersection is returned iff it exists, and it is the common point. -/
theorem C01_intersect_iff (A B : Lin ℝ) (p : V2 ℝ) :
    A.intersect B = some p ↔ ¬ Parallel A.v B.v ∧ OnLin A p ∧ OnLin B p := by
  obtain ⟨⟨ax, ay⟩, ⟨avx, avy⟩, ar⟩ := A
  obtain ⟨⟨bx, by'⟩, ⟨bvx, bvy⟩, br⟩ := B
  obtain ⟨px, py⟩ := p
  simp only [Lin.intersect, Lin.intsecttest, Parallel, OnLin, along, mkV2, ex_sub, ex_mul, ex_add,
    ex_div, ex_rnd, ex_zero, ex_eq, Bool.not_eq_true', Bool.or_eq_false_iff, Bool.not_eq_false',
    ex_le_false]
  by_cases hd : bvy * avx - bvx * avy = 0
  · rw [if_pos hd]
    simp only [reduceCtorEq, false_iff, not_and]
    intro h; exact absurd (by linarith) h
  · rw [if_neg hd]
    have hpar : ¬ (avx * bvy = avy * bvx) := fun h => hd (by linarith)
    set ua := (bvx * (ay - by') - bvy * (ax - bx)) / (bvy * avx - bvx * avy) with hua
    set ub := (avx * (ay - by') - avy * (ax - bx)) / (bvy * avx - bvx * avy) with hub
    have eua : ua * (bvy * avx - bvx * avy) = bvx * (ay - by') - bvy * (ax - bx) := by
      rw [hua]; field_simp
    have eub : ub * (bvy * avx - bvx * avy) = avx * (ay - by') - avy * (ax - bx) := by
      rw [hub]; field_simp
    have e1 : ax + ua * avx = bx + ub * bvx := by
      have : (ax + ua * avx - bx - ub * bvx) * (bvy * avx - bvx * avy) = 0 := by
        linear_combination avx * eua - bvx * eub
      rcases mul_eq_zero.1 this with h | h
      · linarith
      · exact absurd h hd
    have e2 : ay + ua * avy = by' + ub * bvy := by
      have : (ay + ua * avy - by' - ub * bvy) * (bvy * avx - bvx * avy) = 0 := by
        linear_combination avy * eua - bvy * eub
      rcases mul_eq_zero.1 this with h | h
      · linarith
      · exact absurd h hd
    have huniq : ∀ s t : ℝ, ax + s * avx = bx + t * bvx → ay + s * avy = by' + t * bvy →
        s = ua ∧ t = ub := by
      intro s t h1 h2
      constructor
      · have : (s - ua) * (bvy * avx - bvx * avy) = 0 := by
          linear_combination bvy * h1 - bvx * h2 - bvy * e1 + bvx * e2
        rcases mul_eq_zero.1 this with h | h
        · linarith
        · exact absurd h hd
      · have : (t - ub) * (bvy * avx - bvx * avy) = 0 := by
          linear_combination avy * h1 - avx * h2 - avy * e1 + avx * e2
        rcases mul_eq_zero.1 this with h | h
        · linarith
        · exact absurd h hd
    constructor
    · intro h
      split at h
      · simp at h
      · split at h
        · simp at h
        · rename_i h1 h2
          simp only [Option.some.injEq, V2.mk.injEq] at h
          refine ⟨hpar, ⟨ua, ?_, ?_⟩, ⟨ub, ?_, ?_⟩⟩
          · intro hr; by_contra hc; exact h1 ⟨hr, not_le.1 hc⟩
          · simp [← h.1, ← h.2]
          · intro hr; by_contra hc; exact h2 ⟨hr, not_le.1 hc⟩
          · simp [← h.1, ← h.2, e1, e2]
    · rintro ⟨-, ⟨s, hs, hsp⟩, ⟨t, ht, htp⟩⟩
      simp only [V2.mk.injEq] at hsp htp
      obtain ⟨rfl, rfl⟩ := huniq s t (by linarith [hsp.1, htp.1]) (by linarith [hsp.2, htp.2])
      rw [if_neg (fun h => absurd (hs h.1) (not_le.2 h.2)),
        if_neg (fun h => absurd (ht h.1) (not_le.2 h.2))]
      simp [hsp.1, hsp.2]

/-- C01: None is returned exactly when there is no common point, or the directions are parallel. -/
theorem C01_intersect_none_iff (A B : Lin ℝ) :
    A.intersect B = none ↔ Parallel A.v B.v ∨ ¬ ∃ p, OnLin A p ∧ OnLin B p := by
  constructor
  · intro h
    by_contra hc
    rw [not_or, not_not] at hc
    obtain ⟨hp, p, h1, h2⟩ := hc
    have := (C01_intersect_iff A B p).2 ⟨hp, h1, h2⟩
    rw [h] at this; simp at this
  · intro h
    cases hi : A.intersect B with
    | none => rfl
    | some p =>
      obtain ⟨h1, h2, h3⟩ := (C01_intersect_iff A B p).1 hi
      rcases h with h | h
      · exact absurd h h1
      · exact absurd ⟨p, h2, h3⟩ h

/-- C01: symmetry. -/
theorem C01_intersect_comm (A B : Lin ℝ) : A.intersect B = B.intersect A := by
  have hpar : ∀ a b : V2 ℝ, Parallel a b ↔ Parallel b a := by
    intro a b; unfold Parallel; constructor <;> intro h <;> linarith
  cases h : B.intersect A with
  | none =>
    rw [C01_intersect_none_iff] at h ⊢
    rw [hpar]
    rcases h with h | h
    · exact .inl h
    · exact .inr (fun ⟨p, h1, h2⟩ => h ⟨p, h2, h1⟩)
  | some p =>
    rw [C01_intersect_iff] at h ⊢
    rw [hpar]
    exact ⟨h.1, h.2.2, h.2.1⟩

/-- case: two rays meeting at (1,1), and two rays on crossing lines that do not meet -/
example : (Ray2 ⟨0, 0⟩ ⟨2, 2⟩ : Lin ℝ).intersect (Ray2 ⟨2, 0⟩ ⟨-1, 1⟩) = some ⟨1, 1⟩ := by
  rw [C01_intersect_iff]
  refine ⟨by norm_num [Parallel, Ray2], ⟨1/2, by norm_num, by norm_num [along, Ray2]⟩,
    ⟨1, by norm_num, by norm_num [along, Ray2]⟩⟩

example : (Ray2 ⟨0, 0⟩ ⟨-2, -2⟩ : Lin ℝ).intersect (Ray2 ⟨2, 0⟩ ⟨-1, 1⟩) = none := by
  rw [C01_intersect_none_iff]
  right
  rintro ⟨p, ⟨s, hs, h1⟩, ⟨t, ht, h2⟩⟩
  rw [h1] at h2
  simp [along, Ray2] at h2 hs ht
  linarith [h2.1, h2.2]

/-! ### C02 -/

theorem ccw_iff (A B C : V2 ℝ) : ccw A B C = true ↔ 0 < area2 A B C := by
  simp only [ccw, ex_sub, ex_mul, ex_lt, area2]
  constructor <;> intro h <;> linarith

/-- the orientation test decides by the signs of two pairs of areas -/
theorem segIntersect_iff (A B C D : V2 ℝ) : segIntersect A B C D = true ↔
    (¬ (0 < area2 A C D ↔ 0 < area2 B C D)) ∧ ¬ (0 < area2 A B C ↔ 0 < area2 A B D) := by
  have h : ∀ X Y Z U V W : V2 ℝ, ((ccw X Y Z != ccw U V W) = true) ↔
      ¬ (0 < area2 X Y Z ↔ 0 < area2 U V W) := by
    intro X Y Z U V W
    rw [← ccw_iff, ← ccw_iff]
    cases ccw X Y Z <;> cases ccw U V W <;> simp
  simp only [segIntersect, Bool.and_eq_true, h]

/-- C02: for points in general position, the segment test decides proper crossing. -/
theorem C02_segIntersect_iff (A B C D : V2 ℝ) (h1 : ¬ Collinear3 A B C) (h2 : ¬ Collinear3 A B D)
    (h3 : ¬ Collinear3 A C D) (h4 : ¬ Collinear3 B C D) :
    segIntersect A B C D = true ↔ Crossing A B C D := by
  rw [segIntersect_iff]
  simp only [Collinear3] at h1 h2 h3 h4
  set a := area2 A C D with ha
  set b := area2 B C D with hb
  set c := area2 A B C with hc
  set d := area2 A B D with hd
  have hsum : a - b = d - c := by
    rw [ha, hb, hc, hd]; simp only [area2]; ring
  constructor
  · rintro ⟨hab, hcd⟩
    -- the parameters of the crossing point
    have hab' : (0 < a ∧ b < 0) ∨ (a < 0 ∧ 0 < b) := by
      rcases lt_or_gt_of_ne h3 with x | x <;> rcases lt_or_gt_of_ne h4 with y | y
      · exact absurd ⟨fun h => absurd h (by linarith), fun h => absurd h (by linarith)⟩ hab
      · exact .inr ⟨x, y⟩
      · exact .inl ⟨x, y⟩
      · exact absurd ⟨fun _ => y, fun _ => x⟩ hab
    have hcd' : (0 < c ∧ d < 0) ∨ (c < 0 ∧ 0 < d) := by
      rcases lt_or_gt_of_ne h1 with x | x <;> rcases lt_or_gt_of_ne h2 with y | y
      · exact absurd ⟨fun h => absurd h (by linarith), fun h => absurd h (by linarith)⟩ hcd
      · exact .inr ⟨x, y⟩
      · exact .inl ⟨x, y⟩
      · exact absurd ⟨fun _ => y, fun _ => x⟩ hcd
    have hne : a - b ≠ 0 := by rcases hab' with h | h <;> intro h' <;> linarith [h.1, h.2]
    refine ⟨a / (a - b), c / (c - d), ?_⟩
    have hcd2 : c - d = -(a - b) := by linarith
    have hne2 : c - d ≠ 0 := by rw [hcd2]; exact neg_ne_zero.2 hne
    have key : ∀ u v : ℝ, (0 < u ∧ v < 0) ∨ (u < 0 ∧ 0 < v) → 0 < u / (u - v) ∧ u / (u - v) < 1 := by
      rintro u v (⟨hu, hv⟩ | ⟨hu, hv⟩)
      · have : 0 < u - v := by linarith
        exact ⟨div_pos hu this, (div_lt_one this).2 (by linarith)⟩
      · have : u - v < 0 := by linarith
        exact ⟨div_pos_of_neg_of_neg hu this, (div_lt_one_of_neg this).2 (by linarith)⟩
    refine ⟨(key a b hab').1, (key a b hab').2, (key c d hcd').1, (key c d hcd').2, ?_⟩
    simp only [between, V2.mk.injEq]
    constructor
    · have e : A.x * (a - b) + a * (B.x - A.x) = C.x * (a - b) - c * (D.x - C.x) := by
        rw [ha, hb, hc]; simp only [area2]; ring
      rw [hcd2, div_neg]
      field_simp
      linarith
    · have e : A.y * (a - b) + a * (B.y - A.y) = C.y * (a - b) - c * (D.y - C.y) := by
        rw [ha, hb, hc]; simp only [area2]; ring
      rw [hcd2, div_neg]
      field_simp
      linarith
  · rintro ⟨s, t, hs0, hs1, ht0, ht1, h⟩
    simp only [between, V2.mk.injEq] at h
    obtain ⟨hx, hy⟩ := h
    have e1 : (1 - s) * a + s * b = 0 := by
      rw [ha, hb]; simp only [area2]
      linear_combination (-(D.y - C.y)) * hx + (D.x - C.x) * hy
    have e2 : (1 - t) * c + t * d = 0 := by
      rw [hc, hd]; simp only [area2]
      linear_combination ((B.y - A.y)) * hx - (B.x - A.x) * hy
    have p1 : 0 < 1 - s := by linarith
    have p2 : 0 < 1 - t := by linarith
    constructor
    · intro h
      rcases lt_or_gt_of_ne h3 with x | x
      · have : ¬ 0 < b := fun y => absurd (h.2 y) (by linarith)
        have : b < 0 := lt_of_le_of_ne (not_lt.1 this) h4
        have := mul_neg_of_pos_of_neg p1 x
        have := mul_neg_of_pos_of_neg hs0 ‹b < 0›
        linarith
      · have := mul_pos p1 x
        have := mul_pos hs0 (h.1 x)
        linarith
    · intro h
      rcases lt_or_gt_of_ne h1 with x | x
      · have : ¬ 0 < d := fun y => absurd (h.2 y) (by linarith)
        have : d < 0 := lt_of_le_of_ne (not_lt.1 this) h2
        have := mul_neg_of_pos_of_neg p2 x
        have := mul_neg_of_pos_of_neg ht0 ‹d < 0›
        linarith
      · have := mul_pos p2 x
        have := mul_pos ht0 (h.1 x)
        linarith

/-- C02: swapping the segments or reversing one of them does not matter. -/
theorem C02_segIntersect_symm (A B C D : V2 ℝ) (h1 : ¬ Collinear3 A B C) (h2 : ¬ Collinear3 A B D)
    (h3 : ¬ Collinear3 A C D) (h4 : ¬ Collinear3 B C D) :
    segIntersect C D A B = segIntersect A B C D ∧ segIntersect B A C D = segIntersect A B C D ∧
      segIntersect A B D C = segIntersect A B C D := by
  have sym : ∀ P Q R : V2 ℝ, Collinear3 P Q R → Collinear3 Q P R := by
    intro P Q R h; simp only [Collinear3, area2] at h ⊢; linarith
  have rot : ∀ P Q R : V2 ℝ, Collinear3 P Q R → Collinear3 Q R P := by
    intro P Q R h; simp only [Collinear3, area2] at h ⊢; linarith
  have key : ∀ x y : Bool, (x = true ↔ y = true) → x = y := by
    intro x y h; cases x <;> cases y <;> simp at h ⊢
  refine ⟨key _ _ ?_, key _ _ ?_, key _ _ ?_⟩
  · rw [C02_segIntersect_iff A B C D h1 h2 h3 h4, C02_segIntersect_iff C D A B
      (fun h => h3 (rot _ _ _ (rot _ _ _ h))) (fun h => h4 (rot _ _ _ (rot _ _ _ h)))
      (fun h => h1 (rot _ _ _ h)) (fun h => h2 (rot _ _ _ h))]
    constructor <;> rintro ⟨s, t, a, b, c, d, e⟩ <;> exact ⟨t, s, c, d, a, b, e.symm⟩
  · rw [C02_segIntersect_iff A B C D h1 h2 h3 h4, C02_segIntersect_iff B A C D
      (fun h => h1 (sym _ _ _ h)) (fun h => h2 (sym _ _ _ h)) h4 h3]
    constructor <;> rintro ⟨s, t, a, b, c, d, e⟩ <;>
      refine ⟨1 - s, t, by linarith, by linarith, c, d, ?_⟩ <;>
      rw [← e] <;> simp only [between, V2.mk.injEq] <;> constructor <;> ring
  · rw [C02_segIntersect_iff A B C D h1 h2 h3 h4, C02_segIntersect_iff A B D C h2 h1
      (fun h => h3 (sym _ _ _ (rot _ _ _ h) |> fun h => rot _ _ _ (rot _ _ _ h) |> fun h => by
        simp only [Collinear3, area2] at h ⊢; linarith))
      (fun h => h4 (by simp only [Collinear3, area2] at h ⊢; linarith))]
    constructor <;> rintro ⟨s, t, a, b, c, d, e⟩ <;>
      refine ⟨s, 1 - t, a, b, by linarith, by linarith, ?_⟩ <;>
      rw [e] <;> simp only [between, V2.mk.injEq] <;> constructor <;> ring

/-- case: the diagonals of a square cross; two opposite sides do not -/
example : segIntersect (⟨0, 0⟩ : V2 ℝ) ⟨2, 2⟩ ⟨2, 0⟩ ⟨0, 2⟩ = true := by
  rw [C02_segIntersect_iff _ _ _ _ (by norm_num [Collinear3, area2]) (by norm_num [Collinear3, area2])
    (by norm_num [Collinear3, area2]) (by norm_num [Collinear3, area2])]
  exact ⟨1/2, 1/2, by norm_num, by norm_num, by norm_num, by norm_num, by norm_num [between]⟩

example : segIntersect (⟨0, 0⟩ : V2 ℝ) ⟨2, 0⟩ ⟨2, 2⟩ ⟨0, 2⟩ = false := by
  have := C02_segIntersect_iff (⟨0, 0⟩ : V2 ℝ) ⟨2, 0⟩ ⟨2, 2⟩ ⟨0, 2⟩ (by norm_num [Collinear3, area2])
    (by norm_num [Collinear3, area2]) (by norm_num [Collinear3, area2])
    (by norm_num [Collinear3, area2])
  rw [← Bool.not_eq_true, this]
  rintro ⟨s, t, -, -, -, -, e⟩
  simp [between] at e

/-! ### C03 -/

/-- C03: the distance of a point to a line is attained, minimal and never negative. -/
theorem C03_distance_min (l : Lin ℝ) (q : V2 ℝ) (hv : ¬ (l.v.x = 0 ∧ l.v.y = 0)) :
    0 ≤ l.distance q ∧ (∃ t, l.distance q = eucl q (along l.p l.v t)) ∧
      ∀ t, l.distance q ≤ eucl q (along l.p l.v t) := by
  obtain ⟨⟨px, py⟩, ⟨vx, vy⟩, r⟩ := l
  obtain ⟨qx, qy⟩ := q
  have hpos : 0 < vx * vx + vy * vy := by
    simp only at hv
    rcases not_and_or.1 hv with h | h
    · have := mul_self_pos.2 h; nlinarith [mul_self_nonneg vy]
    · have := mul_self_pos.2 h; nlinarith [mul_self_nonneg vx]
  have hform : (⟨⟨px, py⟩, ⟨vx, vy⟩, r⟩ : Lin ℝ).distance ⟨qx, qy⟩ =
      eucl ⟨qx, qy⟩ (along ⟨px, py⟩ ⟨vx, vy⟩
        ((vx * (qx - px) + vy * (qy - py)) / (vx * vx + vy * vy))) := by
    simp only [Lin.distance, intersectPointLine, V2.length, V2.sub, V2.add, V2.dot, ex_sub, ex_add,
      ex_mul, ex_div, ex_rnd, ex_sqrt, eucl, along]
    congr 1
    have h1 : px + vx - px = vx := by ring
    have h2 : py + vy - py = vy := by ring
    rw [h1, h2]
    ring
  refine ⟨?_, ⟨_, hform⟩, ?_⟩
  · rw [hform]; exact Real.sqrt_nonneg _
  · intro t
    rw [hform]
    apply Real.sqrt_le_sqrt
    simp only [along]
    set w := vx * vx + vy * vy with hw
    set k := vx * (qx - px) + vy * (qy - py) with hk
    have h1 : (qx - (px + k / w * vx)) ^ 2 + (qy - (py + k / w * vy)) ^ 2 =
        (qx - px) ^ 2 + (qy - py) ^ 2 - k * k / w := by
      field_simp
      rw [hk, hw]; ring
    have h2 : (qx - (px + t * vx)) ^ 2 + (qy - (py + t * vy)) ^ 2 =
        (qx - px) ^ 2 + (qy - py) ^ 2 - 2 * t * k + t * t * w := by
      rw [hk, hw]; ring
    rw [h1, h2]
    have h3 : 0 ≤ (t * w - k) ^ 2 / w := div_nonneg (sq_nonneg _) hpos.le
    have h4 : (t * w - k) ^ 2 / w = t * t * w - 2 * t * k + k * k / w := by
      field_simp; ring
    linarith

/-- C03: the distance is zero exactly on the line. -/
theorem C03_distance_zero (l : Lin ℝ) (q : V2 ℝ) (hv : ¬ (l.v.x = 0 ∧ l.v.y = 0)) :
    l.distance q = 0 ↔ ∃ t, q = along l.p l.v t := by
  obtain ⟨h0, ⟨t, ht⟩, hmin⟩ := C03_distance_min l q hv
  constructor
  · intro h
    refine ⟨t, ?_⟩
    rw [h] at ht
    have h1 := (Real.sqrt_eq_zero (by positivity)).1 ht.symm
    have n1 := sq_nonneg (q.x - (along l.p l.v t).x)
    have n2 := sq_nonneg (q.y - (along l.p l.v t).y)
    have hx : q.x - (along l.p l.v t).x = 0 := pow_eq_zero_iff (two_ne_zero) |>.1 (by linarith)
    have hy : q.y - (along l.p l.v t).y = 0 := pow_eq_zero_iff (two_ne_zero) |>.1 (by linarith)
    cases q; simp only [along, V2.mk.injEq] at *
    constructor <;> linarith
  · rintro ⟨t, rfl⟩
    have := hmin t
    have h : eucl (along l.p l.v t) (along l.p l.v t) = 0 := by simp [eucl]
    linarith

/-- case: the point (3,4) and the x-axis -/
example : (Line2.ofPV ⟨0, 0⟩ ⟨2, 0⟩ : Lin ℝ).distance ⟨3, 4⟩ = 4 := by
  have h : (3 - 2 * (2 * 3 / (2 * 2) : ℝ)) * (3 - 2 * (2 * 3 / (2 * 2))) + 4 * 4 = 4 ^ 2 := by norm_num
  simp only [Lin.distance, intersectPointLine, Line2.ofPV, V2.length, V2.sub, V2.add, V2.dot, ex_sub,
    ex_add, ex_mul, ex_div, ex_rnd, ex_sqrt]
  norm_num
  rw [show (16 : ℝ) = 4 ^ 2 by norm_num]
  exact Real.sqrt_sq (by norm_num)

end Polyskel
