import Verif.Spec.RoofFace
import Verif.Proofs.Except
import Mathlib.Data.Finset.Max
import Mathlib.Tactic.LinearCombination
import Verif.Proofs.RoofHigh
/-
The part of a roof over one edge is the set of points nearest to that edge.
-/
namespace Polyskel
open Scalar Geo

variable {A B C : ℝ}

/-- an affine function is determined by its values at three points -/
theorem affine_three (A B C : ℝ) (P T N X : V2 ℝ) :
    area2 P T N * (A * X.x + B * X.y + C) = area2 T N X * (A * P.x + B * P.y + C) +
      area2 N P X * (A * T.x + B * T.y + C) + area2 P T X * (A * N.x + B * N.y + C) := by
  unfold area2; ring

theorem affine_zero {P T N : V2 ℝ} (hn : area2 P T N ≠ 0) (h1 : A * P.x + B * P.y + C = 0)
    (h2 : A * T.x + B * T.y + C = 0) (h3 : A * N.x + B * N.y + C = 0) : A = 0 ∧ B = 0 := by
  constructor
  · apply (mul_eq_zero.1 (?_ : area2 P T N * A = 0)).resolve_left hn
    unfold area2
    linear_combination (N.y - P.y) * (h2 - h1) - (T.y - P.y) * (h3 - h1)
  · apply (mul_eq_zero.1 (?_ : area2 P T N * B = 0)).resolve_left hn
    unfold area2
    linear_combination (T.x - P.x) * (h3 - h1) - (N.x - P.x) * (h2 - h1)

/-- the difference of two distances as an affine function -/
theorem height_diff (e g : Edge2 ℝ) (X : V2 ℝ) : height g.p1 g.norm X - height e.p1 e.norm X =
    (e.norm.y - g.norm.y) * X.x + (g.norm.x - e.norm.x) * X.y +
      (g.norm.y * g.p1.x - g.norm.x * g.p1.y - (e.norm.y * e.p1.x - e.norm.x * e.p1.y)) := by
  unfold height; ring

theorem norm_ne {e g : Edge2 ℝ} (h : g.norm ≠ e.norm) :
    ¬ (e.norm.y - g.norm.y = 0 ∧ g.norm.x - e.norm.x = 0) := by
  rintro ⟨h1, h2⟩
  apply h
  cases hg : g.norm with
  | mk a b =>
    cases he : e.norm with
    | mk c d =>
      rw [hg, he] at h1 h2
      simp only at h1 h2
      congr 1 <;> linarith

/-- two sides of a strictly convex polygon have different directions -/
theorem ConvexPolygon.norm_inj {c : List (Edge2 ℝ)} (h : ConvexPolygon c) {e f : Edge2 ℝ} (he : e ∈ c)
    (hf : f ∈ c) (hn : e.norm = f.norm) : e = f := by
  by_cases h1 : e.p1 = f.p1
  · exact h.same he hf h1
  exfalso
  have hu := h.unit e he
  obtain ⟨r, hr, r1, r2⟩ := h.along e he
  obtain ⟨s, hs, s1, s2⟩ := h.along f hf
  by_cases h2 : f.p1 = e.p2
  · by_cases h3 : e.p1 = f.p2
    · rw [h2, ← h3, ← hn] at s1 s2
      have hx : (r + s) * e.norm.x = 0 := by linarith
      have hy : (r + s) * e.norm.y = 0 := by linarith
      have hx' := (mul_eq_zero.1 hx).resolve_left (by linarith)
      have hy' := (mul_eq_zero.1 hy).resolve_left (by linarith)
      rw [hx', hy'] at hu
      norm_num at hu
    · have := h.left f hf e he h1 h3
      rw [← hn, h2] at this
      have e1 : e.norm.x * (e.p1.y - e.p2.y) - e.norm.y * (e.p1.x - e.p2.x) = 0 := by
        linear_combination -e.norm.x * r2 + e.norm.y * r1
      linarith
  · have a1 := h.left e he f hf (Ne.symm h1) h2
    by_cases h3 : e.p1 = f.p2
    · rw [h3, hn] at a1
      have e1 : f.norm.x * (f.p1.y - f.p2.y) - f.norm.y * (f.p1.x - f.p2.x) = 0 := by
        linear_combination -f.norm.x * s2 + f.norm.y * s1
      linarith
    · have a2 := h.left f hf e he h1 h3
      rw [← hn] at a2
      linarith

/-- the cell, for a ring of points -/
theorem cell_core {n : Nat} {Q : Nat → V2 ℝ} {c : List (Edge2 ℝ)} {e : Edge2 ℝ} (h3 : 3 ≤ n)
    (hleft : ∀ i, i < n → 0 < area2 (Q i) (Q ((i + 1) % n)) (Q ((i + 2) % n)))
    (hnear : ∀ i, i < n → ∀ g ∈ c, height e.p1 e.norm (Q i) ≤ height g.p1 g.norm (Q i))
    (hridge : ∀ i, i < n → i ≠ 0 → ∃ g ∈ c, g.norm ≠ e.norm ∧
      height g.p1 g.norm (Q i) = height e.p1 e.norm (Q i) ∧
      height g.p1 g.norm (Q ((i + 1) % n)) = height e.p1 e.norm (Q ((i + 1) % n)))
    {r : ℝ} (hr : 0 < r) (hside : ∀ X, area2 (Q 0) (Q 1) X = r * height e.p1 e.norm X) (X : V2 ℝ) :
    ((∀ i, i < n → 0 ≤ area2 (Q i) (Q ((i + 1) % n)) X) ↔ 0 ≤ height e.p1 e.norm X ∧
      ∀ g ∈ c, height e.p1 e.norm X ≤ height g.p1 g.norm X) ∧
    ((∀ i, i < n → 0 < area2 (Q i) (Q ((i + 1) % n)) X) ↔ 0 < height e.p1 e.norm X ∧
      ∀ g ∈ c, g.norm ≠ e.norm → height e.p1 e.norm X < height g.p1 g.norm X) := by
  have h1n : (0 + 1) % n = 1 := Nat.mod_eq_of_lt (by omega)
  -- the side on a ridge
  have hrid : ∀ i, i < n → i ≠ 0 → ∃ g ∈ c, g.norm ≠ e.norm ∧ ∃ l > 0,
      area2 (Q i) (Q ((i + 1) % n)) X = l * (height g.p1 g.norm X - height e.p1 e.norm X) := by
    intro i hi h0
    obtain ⟨g, hg, hne, e1, e2⟩ := hridge i hi h0
    have hl := hleft i hi
    have hN := hnear ((i + 2) % n) (Nat.mod_lt _ (by omega)) g hg
    have hpos : 0 < height g.p1 g.norm (Q ((i + 2) % n)) - height e.p1 e.norm (Q ((i + 2) % n)) := by
      rcases lt_or_eq_of_le (sub_nonneg.2 hN) with h | h
      · exact h
      · exfalso
        apply norm_ne hne
        have a1 := height_diff e g (Q i)
        have a2 := height_diff e g (Q ((i + 1) % n))
        have a3 := height_diff e g (Q ((i + 2) % n))
        rw [e1, sub_self] at a1
        rw [e2, sub_self] at a2
        exact affine_zero hl.ne' a1.symm a2.symm (a3.symm.trans h.symm)
    refine ⟨g, hg, hne, _, div_pos hl hpos, ?_⟩
    have key := affine_three (e.norm.y - g.norm.y) (g.norm.x - e.norm.x)
      (g.norm.y * g.p1.x - g.norm.x * g.p1.y - (e.norm.y * e.p1.x - e.norm.x * e.p1.y))
      (Q i) (Q ((i + 1) % n)) (Q ((i + 2) % n)) X
    rw [← height_diff, ← height_diff, ← height_diff, ← height_diff, e1, e2, sub_self, sub_self, mul_zero,
      mul_zero, zero_add, zero_add] at key
    rw [div_mul_eq_mul_div, key, mul_div_assoc, div_self hpos.ne', mul_one]
  -- the vertex where the difference is least
  have hmin : ∀ g ∈ c, (∀ i, i < n → 0 ≤ area2 (Q i) (Q ((i + 1) % n)) X) →
      height e.p1 e.norm X ≤ height g.p1 g.norm X ∧
      ((∀ i, i < n → 0 < area2 (Q i) (Q ((i + 1) % n)) X) → g.norm ≠ e.norm →
        height e.p1 e.norm X < height g.p1 g.norm X) := by
    intro g hg hX
    obtain ⟨m, hm, hle⟩ := Finset.exists_min_image (Finset.range n)
      (fun i => height g.p1 g.norm (Q i) - height e.p1 e.norm (Q i)) ⟨0, by simp; omega⟩
    simp only [Finset.mem_range] at hm hle
    -- its neighbours
    obtain ⟨u, hu, hum⟩ : ∃ u, u < n ∧ (u + 1) % n = m := by
      by_cases h0 : m = 0
      · exact ⟨n - 1, by omega, by rw [Nat.sub_add_cancel (by omega), Nat.mod_self, h0]⟩
      · exact ⟨m - 1, by omega, by rw [Nat.sub_add_cancel (by omega), Nat.mod_eq_of_lt hm]⟩
    have hw : (m + 1) % n = (u + 2) % n := by rw [← hum, Nat.mod_add_mod]
    have hwn : (m + 1) % n < n := Nat.mod_lt _ (by omega)
    have hl := hleft u hu
    have x1 := hX u hu
    have x2 := hX m hm
    rw [hum, ← hw] at hl
    rw [hum] at x1
    have l1 := hle u hu
    have l2 := hle _ hwn
    have l0 := hnear m hm g hg
    have key := affine_three (e.norm.y - g.norm.y) (g.norm.x - e.norm.x)
      (g.norm.y * g.p1.x - g.norm.x * g.p1.y - (e.norm.y * e.p1.x - e.norm.x * e.p1.y))
      (Q u) (Q m) (Q ((m + 1) % n)) X
    rw [← height_diff, ← height_diff, ← height_diff, ← height_diff] at key
    have hsum : area2 (Q u) (Q m) (Q ((m + 1) % n)) = area2 (Q m) (Q ((m + 1) % n)) X +
        area2 (Q ((m + 1) % n)) (Q u) X + area2 (Q u) (Q m) X := by unfold area2; ring
    have a1 := height_diff e g (Q u)
    have a2 := height_diff e g (Q m)
    have a3 := height_diff e g (Q ((m + 1) % n))
    set φX := height g.p1 g.norm X - height e.p1 e.norm X with hφX
    set φu := height g.p1 g.norm (Q u) - height e.p1 e.norm (Q u)
    set φm := height g.p1 g.norm (Q m) - height e.p1 e.norm (Q m) with hφm
    set φw := height g.p1 g.norm (Q ((m + 1) % n)) - height e.p1 e.norm (Q ((m + 1) % n))
    have h0 : 0 ≤ φm := by rw [hφm]; linarith
    have key2 : area2 (Q u) (Q m) (Q ((m + 1) % n)) * (φX - φm) =
        area2 (Q m) (Q ((m + 1) % n)) X * (φu - φm) + area2 (Q u) (Q m) X * (φw - φm) := by
      linear_combination key - φm * hsum
    have t1 := mul_nonneg x2 (sub_nonneg.2 l1)
    have t2 := mul_nonneg x1 (sub_nonneg.2 l2)
    have hd : 0 ≤ φX - φm := nonneg_of_mul_nonneg_right (by rw [key2]; linarith) hl
    refine ⟨by linarith, fun hS hne => ?_⟩
    by_contra hcon
    have hz : φX - φm = 0 := by linarith
    have hz' : φm = 0 := by linarith
    rw [hz, mul_zero] at key2
    have s1 := hS u hu
    have s2 := hS m hm
    rw [hum] at s1
    have z1 : φu - φm = 0 := (mul_eq_zero.1 (by linarith :
      area2 (Q m) (Q ((m + 1) % n)) X * (φu - φm) = 0)).resolve_left s2.ne'
    have z2 : φw - φm = 0 := (mul_eq_zero.1 (by linarith :
      area2 (Q u) (Q m) X * (φw - φm) = 0)).resolve_left s1.ne'
    exact norm_ne hne (affine_zero hl.ne' (a1.symm.trans (by linarith)) (a2.symm.trans hz')
      (a3.symm.trans (by linarith)))
  refine ⟨⟨fun hX => ⟨?_, fun g hg => (hmin g hg hX).1⟩, ?_⟩,
    ⟨fun hX => ⟨?_, fun g hg hne => (hmin g hg fun i hi => (hX i hi).le).2 hX hne⟩, ?_⟩⟩
  · have := hX 0 (by omega)
    rw [h1n, hside] at this
    exact nonneg_of_mul_nonneg_right this hr
  · rintro ⟨h0, hall⟩ i hi
    by_cases hi0 : i = 0
    · subst hi0
      rw [h1n, hside]
      exact mul_nonneg hr.le h0
    · obtain ⟨g, hg, -, l, hl, he⟩ := hrid i hi hi0
      rw [he]
      exact mul_nonneg hl.le (sub_nonneg.2 (hall g hg))
  · have := hX 0 (by omega)
    rw [h1n, hside] at this
    exact (mul_pos_iff_of_pos_left hr).1 this
  · rintro ⟨h0, hall⟩ i hi
    by_cases hi0 : i = 0
    · subst hi0
      rw [h1n, hside]
      exact mul_pos hr h0
    · obtain ⟨g, hg, hne, l, hl, he⟩ := hrid i hi hi0
      rw [he]
      exact mul_pos hl (sub_pos.2 (hall g hg hne))

/-- the cell, for a face -/
theorem RoofFace.cell {a : PolyArgs ℝ} {c : List (Edge2 ℝ)} {e : Edge2 ℝ} {z slope : ℝ}
    {verts : List (V3 ℝ)} {k : Nat} {f : List Int} (h : RoofFace a c e z slope verts k f)
    {V W : V3 ℝ} (hV : verts[a.first + k]? = some V) (hW : verts[a.first + (k + 1) % a.num]? = some W)
    (h1 : V.xy = e.p1) (h2 : W.xy = e.p2)
    (hal : ∃ r > 0, e.p2.x - e.p1.x = r * e.norm.x ∧ e.p2.y - e.p1.y = r * e.norm.y) (X : V2 ℝ) :
    (OverFace verts f X ↔ 0 ≤ height e.p1 e.norm X ∧
      ∀ g ∈ c, height e.p1 e.norm X ≤ height g.p1 g.norm X) ∧
    (WithinFace verts f X ↔ 0 < height e.p1 e.norm X ∧
      ∀ g ∈ c, g.norm ≠ e.norm → height e.p1 e.norm X < height g.p1 g.norm X) := by
  obtain ⟨r, hr, r1, r2⟩ := hal
  have hsz := h.size
  -- the points of the face
  have hex : ∀ i, i < f.length → ∃ p P, f[i]? = some p ∧ verts[p.toNat]? = some P := by
    intro i hi
    obtain ⟨a1, a2⟩ := h.index _ (List.getElem_mem hi)
    exact ⟨f[i], verts[(f[i]).toNat]'(by omega), List.getElem?_eq_getElem hi, List.getElem?_eq_getElem _⟩
  choose! p P hp hP using hex
  have hmod : ∀ i, i % f.length < f.length := fun i => Nat.mod_lt _ (by omega)
  have hover : OverFace verts f X ↔ ∀ i, i < f.length → 0 ≤ area2 (P i).xy (P ((i + 1) % f.length)).xy X := by
    constructor
    · intro ho i hi
      exact ho i _ _ _ _ (hp i hi) (hp _ (hmod _)) (hP i hi) (hP _ (hmod _))
    · intro ho i p' t' P' T' q1 q2 q3 q4
      have hi := (List.getElem?_eq_some_iff.1 q1).1
      rw [hp i hi] at q1
      rw [hp _ (hmod _)] at q2
      cases q1
      cases q2
      rw [hP i hi] at q3
      rw [hP _ (hmod _)] at q4
      cases q3
      cases q4
      exact ho i hi
  have hwithin : WithinFace verts f X ↔
      ∀ i, i < f.length → 0 < area2 (P i).xy (P ((i + 1) % f.length)).xy X := by
    constructor
    · intro ho i hi
      exact ho i _ _ _ _ (hp i hi) (hp _ (hmod _)) (hP i hi) (hP _ (hmod _))
    · intro ho i p' t' P' T' q1 q2 q3 q4
      have hi := (List.getElem?_eq_some_iff.1 q1).1
      rw [hp i hi] at q1
      rw [hp _ (hmod _)] at q2
      cases q1
      cases q2
      rw [hP i hi] at q3
      rw [hP _ (hmod _)] at q4
      cases q3
      cases q4
      exact ho i hi
  have p0 : P 0 = V := by
    have a1 := hp 0 (by omega)
    rw [h.first] at a1
    have a2 := hP 0 (by omega)
    rw [← Option.some.inj a1, Int.toNat_natCast, hV] at a2
    exact (Option.some.inj a2).symm
  have p1 : P 1 = W := by
    have a1 := hp 1 (by omega)
    rw [h.second] at a1
    have a2 := hP 1 (by omega)
    rw [← Option.some.inj a1, Int.toNat_natCast, hW] at a2
    exact (Option.some.inj a2).symm
  rw [hover, hwithin]
  refine cell_core (Q := fun i => (P i).xy) hsz ?_ ?_ ?_ hr ?_ X
  · intro i hi
    exact h.left i _ _ _ _ _ _ (hp i hi) (hp _ (hmod _)) (hp _ (hmod _)) (hP i hi) (hP _ (hmod _)) (hP _ (hmod _))
  · intro i hi
    exact h.nearest _ (List.mem_of_getElem? (hp i hi)) _ (hP i hi)
  · intro i hi h0
    exact h.ridge i _ _ _ _ h0 (hp i hi) (hp _ (hmod _)) (hP i hi) (hP _ (hmod _))
  · intro Y
    show area2 (P 0).xy (P 1).xy Y = _
    rw [p0, p1, h1, h2]
    unfold area2 height
    rw [r1, r2]
    ring

/-- there are points over the face -/
theorem RoofFace.some_within {a : PolyArgs ℝ} {c : List (Edge2 ℝ)} {e : Edge2 ℝ} {z slope : ℝ}
    {verts : List (V3 ℝ)} {k : Nat} {f : List Int} (h : RoofFace a c e z slope verts k f)
    {V W : V3 ℝ} (hV : verts[a.first + k]? = some V) (hW : verts[a.first + (k + 1) % a.num]? = some W)
    (h1 : V.xy = e.p1) (h2 : W.xy = e.p2)
    (hal : ∃ r > 0, e.p2.x - e.p1.x = r * e.norm.x ∧ e.p2.y - e.p1.y = r * e.norm.y) :
    ∃ X, WithinFace verts f X := by
  have hsz := h.size
  obtain ⟨u, hu⟩ : ∃ u, f[2]? = some u := ⟨_, List.getElem?_eq_getElem (by omega)⟩
  obtain ⟨i1, i2⟩ := h.index u (List.mem_of_getElem? hu)
  obtain ⟨U, hU⟩ : ∃ U, verts[u.toNat]? = some U := ⟨_, List.getElem?_eq_getElem (by omega)⟩
  have hl := h.left 0 _ _ _ V W U h.first (by rw [Nat.mod_eq_of_lt (by omega)]; exact h.second)
    (by rw [Nat.mod_eq_of_lt (by omega)]; exact hu) (by rw [Int.toNat_natCast]; exact hV)
    (by rw [Int.toNat_natCast]; exact hW) hU
  have hp := ((h.plane 2 u (le_refl _) hu).2 U hU).1
  have n1 := h.nearest _ (List.mem_of_getElem? h.first) V (by rw [Int.toNat_natCast]; exact hV)
  have n2 := h.nearest _ (List.mem_of_getElem? h.second) W (by rw [Int.toNat_natCast]; exact hW)
  have n3 := h.nearest _ (List.mem_of_getElem? hu) U hU
  refine ⟨⟨(V.xy.x + W.xy.x + U.xy.x) / 3, (V.xy.y + W.xy.y + U.xy.y) / 3⟩,
    (h.cell hV hW h1 h2 hal _).2.2 ⟨?_, ?_⟩⟩
  · obtain ⟨r, -, r1, r2⟩ := hal
    have hz : height e.p1 e.norm ⟨(V.xy.x + W.xy.x + U.xy.x) / 3, (V.xy.y + W.xy.y + U.xy.y) / 3⟩ =
        height e.p1 e.norm U.xy / 3 := by
      rw [h1, h2]
      unfold height
      linear_combination (e.norm.x * r2 - e.norm.y * r1) / 3
    rw [hz]
    linarith
  · intro g hg hne
    have a1 := height_diff e g V.xy
    have a2 := height_diff e g W.xy
    have a3 := height_diff e g U.xy
    have a4 := height_diff e g ⟨(V.xy.x + W.xy.x + U.xy.x) / 3, (V.xy.y + W.xy.y + U.xy.y) / 3⟩
    have m1 := n1 g hg
    have m2 := n2 g hg
    have m3 := n3 g hg
    by_contra hcon
    apply norm_ne hne
    simp only at a4
    have hs : (height g.p1 g.norm V.xy - height e.p1 e.norm V.xy) +
        (height g.p1 g.norm W.xy - height e.p1 e.norm W.xy) +
        (height g.p1 g.norm U.xy - height e.p1 e.norm U.xy) ≤ 0 := by
      rw [a1, a2, a3]
      linarith
    exact affine_zero hl.ne' (a1.symm.trans (by linarith)) (a2.symm.trans (by linarith))
      (a3.symm.trans (by linarith))

end Polyskel
