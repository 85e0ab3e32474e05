import Verif.Proofs.RoofUnique
/-
Going round a part of the roof one first climbs and then descends.
-/
namespace Polyskel
open Scalar Geo

/-- two steps in a row of a walk that turns left, with a lower point to the left of both -/
theorem descend {u O A B C X : V2 ℝ} (ht : 0 < area2 A B C) (h1 : 0 ≤ area2 A B X) (h2 : 0 ≤ area2 B C X)
    (hX : height O u X < height O u B) (h : height O u B ≤ height O u A) :
    height O u C < height O u B := by
  by_contra hcon
  push Not at hcon
  have e1 := mul_nonneg (sub_nonneg.2 hcon) h1
  have e2 := mul_nonneg (sub_nonneg.2 h) h2
  have e3 := mul_pos (sub_pos.2 hX) ht
  have : (height O u C - height O u B) * area2 A B X + (height O u A - height O u B) * area2 B C X +
      (height O u B - height O u X) * area2 A B C = 0 := by
    unfold height area2; ring
  linarith

variable {c : List (Edge2 ℝ)} {e : Edge2 ℝ} {n : Nat} {Q : Nat → V2 ℝ}

/-- the heights along a ring: up to the point number `m`, and then down -/
theorem CellRing.climb
    (hal : ∃ r > 0, e.p2.x - e.p1.x = r * e.norm.x ∧ e.p2.y - e.p1.y = r * e.norm.y)
    (hQ : CellRing c e n Q) :
    ∃ m, 2 ≤ m ∧ m < n ∧
      (∀ i, 1 ≤ i → i < m → height e.p1 e.norm (Q i) < height e.p1 e.norm (Q (i + 1))) ∧
      height e.p1 e.norm (Q ((m + 1) % n)) ≤ height e.p1 e.norm (Q m) ∧
      ∀ i, m < i → i < n → height e.p1 e.norm (Q ((i + 1) % n)) < height e.p1 e.norm (Q i) := by
  classical
  have hn := hQ.size
  have z0 : height e.p1 e.norm (Q 0) = 0 := by rw [hQ.first]; simp [height]
  have z1 : height e.p1 e.norm (Q 1) = 0 := by
    obtain ⟨r, -, r1, r2⟩ := hal
    rw [hQ.second]; unfold height; rw [r1, r2]; ring
  have hex : ∃ i, 1 ≤ i ∧ height e.p1 e.norm (Q ((i + 1) % n)) ≤ height e.p1 e.norm (Q i) :=
    ⟨n - 1, by omega, by rw [Nat.sub_add_cancel (by omega), Nat.mod_self, z0]; exact hQ.nonneg hal (by omega)⟩
  have hm := Nat.find_spec hex
  have hmin := fun {j} => Nat.find_min (H := hex) (m := j)
  have hle := Nat.find_min' hex (m := n - 1)
    ⟨by omega, by rw [Nat.sub_add_cancel (by omega), Nat.mod_self, z0]; exact hQ.nonneg hal (by omega)⟩
  generalize Nat.find hex = m at hm hmin hle
  have hm2 : 2 ≤ m := by
    by_contra hcon
    have h1 := hm.2
    obtain rfl : m = 1 := by omega
    rw [Nat.mod_eq_of_lt (by omega : 1 + 1 < n), z1] at h1
    have := hQ.inside 2 le_rfl (by omega)
    linarith
  refine ⟨m, hm2, by omega, ?_, hm.2, ?_⟩
  · intro i h1 him
    have := hmin him
    rw [Nat.mod_eq_of_lt (by omega : i + 1 < n)] at this
    by_contra hcon
    exact this ⟨h1, not_lt.1 hcon⟩
  · -- a step that does not climb is followed by one that descends
    have hstep : ∀ i, m ≤ i → i + 1 < n → height e.p1 e.norm (Q (i + 1)) ≤ height e.p1 e.norm (Q i) →
        height e.p1 e.norm (Q ((i + 1 + 1) % n)) < height e.p1 e.norm (Q (i + 1)) := by
      intro i hi hi1 h
      have l := hQ.left i (by omega)
      have o := (hQ.over hal (Q 0)).2 ⟨hQ.nonneg hal (by omega), hQ.near 0 (by omega)⟩
      have o1 := o i (by omega)
      have o2 := o (i + 1) hi1
      rw [Nat.mod_eq_of_lt hi1] at l o1
      exact descend l o1 o2 (by rw [z0]; exact hQ.inside _ (by omega) hi1) h
    intro i hmi hin
    obtain ⟨d, rfl⟩ := Nat.exists_eq_add_of_lt hmi
    induction d with
    | zero =>
      have := hm.2
      rw [Nat.mod_eq_of_lt (by omega : m + 1 < n)] at this
      exact hstep m le_rfl (by omega) this
    | succ d ih =>
      have := ih (by omega) (by omega)
      rw [Nat.mod_eq_of_lt (by omega)] at this
      exact hstep (m + d + 1) (by omega) (by omega) this.le

end Polyskel
