import Mathlib.Analysis.SpecialFunctions.Trigonometric.Basic
import Verif.Props.Graph
/-
Three neighbours of a vertex, in the order of the embedding.  Used for C61.
-/
namespace Polyskel
open Real Graph

theorem perm_three {α : Type} {l : List α} {x y z : α} (hp : l.Perm [x, y, z]) (hd : [x, y, z].Nodup) :
    l = [x, y, z] ∨ l = [y, z, x] ∨ l = [z, x, y] ∨ l = [x, z, y] ∨ l = [z, y, x] ∨ l = [y, x, z] := by
  obtain ⟨p, q, r, rfl⟩ := List.length_eq_three.1 (show l.length = 3 by rw [hp.length_eq]; rfl)
  have hn := hp.nodup_iff.2 hd
  have hm : ∀ w, w ∈ [p, q, r] → w = x ∨ w = y ∨ w = z := fun w hw => by
    simpa using hp.mem_iff.1 hw
  have h1 := hm p (by simp)
  have h2 := hm q (by simp)
  have h3 := hm r (by simp)
  simp only [List.nodup_cons, List.mem_cons, List.not_mem_nil, or_false, not_or, not_false_eq_true,
    List.nodup_nil, and_true] at hn
  obtain ⟨⟨n1, n2⟩, n3⟩ := hn
  rcases h1 with rfl | rfl | rfl <;> rcases h2 with rfl | rfl | rfl <;>
    rcases h3 with rfl | rfl | rfl <;> simp_all

theorem sin_neg_gt {t : ℝ} (h0 : 0 < t) (h1 : sin t < 0) : π < t := by
  by_contra h
  have := sin_nonneg_of_nonneg_of_le_pi h0.le (not_lt.1 h)
  linarith

theorem sin_pos_lt {t : ℝ} (h0 : 0 < t) (h2 : t < 2 * π) (h1 : 0 < sin t) : t < π := by
  by_contra h
  have := sin_nonneg_of_nonneg_of_le_pi (x := t - π) (by linarith [not_lt.1 h]) (by linarith)
  rw [sin_sub_pi] at this
  linarith

theorem cross_polar {r s a b : ℝ} (hr : 0 < r) (hs : 0 < s)
    (h : (r * cos a) * (s * sin b) - (r * sin a) * (s * cos b) < 0) : sin (b - a) < 0 := by
  rw [show (r * cos a) * (s * sin b) - (r * sin a) * (s * cos b) = (r * s) * sin (b - a) by
    rw [sin_sub]; ring] at h
  by_contra hc
  have := mul_nonneg (mul_pos hr hs).le (not_lt.1 hc)
  linarith

/-- Three neighbours, `y` to the right of the direction to `x` and `z` to the right of the direction
to `y`: clockwise, `y` comes after `x`, `z` after `y`, and `x` after `z`. -/
theorem embedding_three {rt : Rt} {g emb : Graph} {vList : List (V3 ℝ)}
    (h : circularEmbedding rt g vList true = .ok emb) {v x y z : Int} {c px py pz : V3 ℝ}
    (hn : (nbrs g v).Perm [x, y, z]) (hd : [x, y, z].Nodup) (hc : pyGet vList v = .ok c)
    (hx : pyGet vList x = .ok px) (hy : pyGet vList y = .ok py) (hz : pyGet vList z = .ok pz)
    (h1 : (px.x - c.x) * (py.y - c.y) - (px.y - c.y) * (py.x - c.x) < 0)
    (h2 : (py.x - c.x) * (pz.y - c.y) - (py.y - c.y) * (pz.x - c.x) < 0) :
    Follows (nbrs emb v) x y ∧ Follows (nbrs emb v) y z ∧ Follows (nbrs emb v) z x := by
  have nzx : ¬ (px.x - c.x = 0 ∧ px.y - c.y = 0) := by
    rintro ⟨e1, e2⟩; rw [e1, e2] at h1; linarith
  have nzy : ¬ (py.x - c.x = 0 ∧ py.y - c.y = 0) := by
    rintro ⟨e1, e2⟩; rw [e1, e2] at h1; linarith
  have nzz : ¬ (pz.x - c.x = 0 ∧ pz.y - c.y = 0) := by
    rintro ⟨e1, e2⟩; rw [e1, e2] at h2; linarith
  obtain ⟨rx, tx, rx0, tx0, tx1, x1, x2⟩ := C05_polar_form _ _ nzx
  obtain ⟨ry, ty, ry0, ty0, ty1, y1, y2⟩ := C05_polar_form _ _ nzy
  obtain ⟨rz, tz, rz0, tz0, tz1, z1, z2⟩ := C05_polar_form _ _ nzz
  rw [x1, x2, y1, y2] at h1
  rw [y1, y2, z1, z2] at h2
  replace h1 := cross_polar rx0 ry0 h1
  replace h2 := cross_polar ry0 rz0 h2
  have h1' : 0 < sin (tx - ty) := by
    rw [← neg_sub, sin_neg] at h1; linarith
  have h2' : 0 < sin (ty - tz) := by
    rw [← neg_sub, sin_neg] at h2; linarith
  have nxy : tx ≠ ty := by rintro rfl; simp at h1
  have nyz : ty ≠ tz := by rintro rfl; simp at h2
  have nxz : tx ≠ tz := by rintro rfl; linarith
  have hd' := hd
  simp only [List.nodup_cons, List.mem_cons, List.not_mem_nil, or_false, not_or, not_false_eq_true,
    List.nodup_nil, and_true] at hd'
  obtain ⟨⟨dxy, dxz⟩, dyz⟩ := hd'
  have hs := C11_embedding_sorted rt g emb vList true h v c hc (hn.nodup_iff.2 hd)
    (fun w => if w = x then rx else if w = y then ry else rz)
    (fun w => if w = x then tx else if w = y then ty else tz) (by
      intro w hw
      have := hn.mem_iff.1 hw
      simp only [List.mem_cons, List.not_mem_nil, or_false] at this
      rcases this with rfl | rfl | rfl
      · exact ⟨px, hx, by simpa using ⟨rx0, tx0, tx1, x1, x2⟩⟩
      · exact ⟨py, hy, by simpa [Ne.symm dxy] using ⟨ry0, ty0, ty1, y1, y2⟩⟩
      · exact ⟨pz, hz, by simpa [Ne.symm dxz, Ne.symm dyz] using ⟨rz0, tz0, tz1, z1, z2⟩⟩) (by
      intro w hw w' hw' hne
      have a1 := hn.mem_iff.1 hw
      have a2 := hn.mem_iff.1 hw'
      simp only [List.mem_cons, List.not_mem_nil, or_false] at a1 a2
      rcases a1 with rfl | rfl | rfl <;> rcases a2 with rfl | rfl | rfl <;>
        simp_all [Ne.symm dxy, Ne.symm dxz, Ne.symm dyz, Ne.symm nxy, Ne.symm nxz, Ne.symm nyz])
  have hp : (nbrs emb v).Perm [x, y, z] :=
    ((C11_embedding_perm rt g emb vList true h).2 v).trans hn
  rcases perm_three hp hd with e | e | e | e | e | e <;> rw [e] at hs ⊢
  · exact ⟨⟨0, rfl, rfl⟩, ⟨1, rfl, rfl⟩, ⟨2, rfl, by simp⟩⟩
  · exact ⟨⟨2, rfl, by simp⟩, ⟨0, rfl, rfl⟩, ⟨1, rfl, rfl⟩⟩
  · exact ⟨⟨1, rfl, rfl⟩, ⟨2, rfl, by simp⟩, ⟨0, rfl, rfl⟩⟩
  all_goals
    exfalso
    simp [Ne.symm dxy, Ne.symm dxz, Ne.symm dyz] at hs
  · -- x, z, y
    have := sin_neg_gt (by linarith [hs.2]) h2
    have := sin_pos_lt (by linarith [hs.1.1, hs.2]) (by linarith) h1'
    linarith
  · have := sin_neg_gt (by linarith [hs.2]) h1
    have := sin_neg_gt (by linarith [hs.1.1]) h2
    linarith
  · have := sin_neg_gt (by linarith [hs.1.1]) h1
    have := sin_pos_lt (by linarith [hs.1.1, hs.2]) (by linarith) h2'
    linarith

end Polyskel
