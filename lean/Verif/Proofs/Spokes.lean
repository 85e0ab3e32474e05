import Verif.Proofs.Cyclic
/-
The order of any number of neighbours around a vertex.  Used for C62.
-/
namespace Polyskel
open Scalar Real Graph
set_option linter.unusedSectionVars false

theorem same_angle {r s t φ : ℝ} (hr : 0 < r) (hs : 0 < s) (h1 : r * cos t = s * cos φ)
    (h2 : r * sin t = s * sin φ) : ∃ n : ℤ, φ = t + n * (2 * π) := by
  have h3 : r ^ 2 = s ^ 2 := by
    have e1 : r ^ 2 = (r * cos t) ^ 2 + (r * sin t) ^ 2 := by
      linear_combination (-r ^ 2) * sin_sq_add_cos_sq t
    have e2 : s ^ 2 = (s * cos φ) ^ 2 + (s * sin φ) ^ 2 := by
      linear_combination (-s ^ 2) * sin_sq_add_cos_sq φ
    rw [e1, e2, h1, h2]
  have h4 : r = s := by
    rcases sq_eq_sq_iff_eq_or_eq_neg.1 h3 with h | h
    · exact h
    · linarith
  subst h4
  have c1 : cos t = cos φ := mul_left_cancel₀ hr.ne' h1
  have c2 : sin t = sin φ := mul_left_cancel₀ hr.ne' h2
  have c3 : cos (φ - t) = 1 := by
    rw [cos_sub, c1, c2]
    linarith [sin_sq_add_cos_sq φ]
  obtain ⟨n, hn⟩ := (cos_eq_one_iff _).1 c3
  exact ⟨n, by linarith⟩

/-- angles between 0 and 2 pi that differ by whole turns and by less than a turn -/
theorem turns_of_lt {s t : ℝ} {n : ℤ} (hs : 0 ≤ s) (hs' : s < 2 * π) (ht : 0 ≤ t) (ht' : t < 2 * π)
    (h0 : 0 < s - t + n * (2 * π)) (h1 : s - t + n * (2 * π) < 2 * π) : n = 0 ∧ t < s ∨ n = 1 ∧ s < t := by
  have hp := pi_pos
  have a1 : (n : ℝ) < 2 := by
    by_contra hc
    have := mul_le_mul_of_nonneg_right (not_lt.1 hc) (by linarith : (0:ℝ) ≤ 2 * π)
    linarith
  have a2 : (-1 : ℝ) < n := by
    by_contra hc
    have := mul_le_mul_of_nonneg_right (not_lt.1 hc) (by linarith : (0:ℝ) ≤ 2 * π)
    linarith
  have b1 : n < 2 := by exact_mod_cast a1
  have b2 : -1 < n := by exact_mod_cast a2
  obtain rfl | rfl : n = 0 ∨ n = 1 := by omega
  · left; refine ⟨rfl, ?_⟩; simp at h0; linarith
  · right; refine ⟨rfl, ?_⟩; simp at h1; linarith

/-- the neighbour that follows in a list sorted by decreasing angle -/
theorem follows_of_lift {es : List Int} {t φ : Int → ℝ} (hs : es.Pairwise (fun a b => t b < t a))
    (ht : ∀ w ∈ es, 0 ≤ t w ∧ t w < 2 * π) (hl : ∀ w ∈ es, ∃ n : ℤ, φ w = t w + n * (2 * π))
    {x y : Int} (hx : x ∈ es) (hy : y ∈ es) (h1 : φ y < φ x) (h2 : φ x < φ y + 2 * π)
    (hw : ∀ w ∈ es, w ≠ x → w ≠ y → φ x < φ w ∧ φ w < φ y + 2 * π) : Follows es x y := by
  have hp := pi_pos
  obtain ⟨i, hi, rfl⟩ := List.mem_iff_getElem.1 hx
  obtain ⟨j, hj, rfl⟩ := List.mem_iff_getElem.1 hy
  have hs' := List.pairwise_iff_getElem.1 hs
  obtain ⟨n, hn⟩ := hl _ hx
  obtain ⟨m, hm⟩ := hl _ hy
  obtain ⟨x0, x1⟩ := ht _ hx
  obtain ⟨y0, y1⟩ := ht _ hy
  have hxy := turns_of_lt (n := n - m) x0 x1 y0 y1 (by push_cast; linarith) (by push_cast; linarith)
  have inj : ∀ a b, (ha : a < es.length) → (hb : b < es.length) → a < b → es[a] ≠ es[b] := by
    intro a b ha hb hab he
    have := hs' a b ha hb hab
    rw [he] at this
    exact lt_irrefl _ this
  -- the place of another neighbour
  have other : ∀ k, (hk : k < es.length) → k ≠ i → k ≠ j →
      (n = m ∧ (t es[i] < t es[k] ∨ t es[k] < t es[j])) ∨
      (n = m + 1 ∧ t es[i] < t es[k] ∧ t es[k] < t es[j]) := by
    intro k hk hki hkj
    have e1 : es[k] ≠ es[i] := by
      rcases Nat.lt_or_gt_of_ne hki with h | h
      · exact inj _ _ hk hi h
      · exact (inj _ _ hi hk h).symm
    have e2 : es[k] ≠ es[j] := by
      rcases Nat.lt_or_gt_of_ne hkj with h | h
      · exact inj _ _ hk hj h
      · exact (inj _ _ hj hk h).symm
    obtain ⟨w1, w2⟩ := hw _ (List.getElem_mem hk) e1 e2
    obtain ⟨r, hr⟩ := hl _ (List.getElem_mem hk)
    obtain ⟨k0, k1⟩ := ht _ (List.getElem_mem hk)
    have a1 := turns_of_lt (n := r - n) k0 k1 x0 x1 (by push_cast; linarith) (by push_cast; linarith)
    have a2 := turns_of_lt (n := r - m) k0 k1 y0 y1 (by push_cast; linarith) (by push_cast; linarith)
    rcases hxy with ⟨b1, b2⟩ | ⟨b1, b2⟩
    · left
      refine ⟨by omega, ?_⟩
      rcases a1 with ⟨-, h⟩ | ⟨c1, -⟩
      · exact .inl h
      · rcases a2 with ⟨c2, -⟩ | ⟨-, h⟩
        · omega
        · exact .inr h
    · right
      refine ⟨by omega, ?_⟩
      rcases a1 with ⟨c1, h⟩ | ⟨c1, h⟩
      · rcases a2 with ⟨c2, h'⟩ | ⟨c2, h'⟩
        · omega
        · exact ⟨h, h'⟩
      · rcases a2 with ⟨c2, h'⟩ | ⟨c2, h'⟩ <;> omega
  refine ⟨i, List.getElem?_eq_getElem hi, ?_⟩
  rcases hxy with ⟨b1, b2⟩ | ⟨b1, b2⟩
  · have hij : i < j := by
      by_contra hc
      rcases Nat.lt_or_eq_of_le (not_lt.1 hc) with h | h
      · have := hs' j i hj hi h; linarith
      · subst h; exact lt_irrefl _ b2
    have : j = i + 1 := by
      by_contra hne
      have hk : i + 1 < es.length := by omega
      rcases other (i + 1) hk (by omega) (by omega) with ⟨-, h | h⟩ | ⟨h, -⟩
      · have := hs' i (i + 1) hi hk (by omega); linarith
      · have := hs' (i + 1) j hk hj (by omega); linarith
      · omega
    subst this
    rw [Nat.mod_eq_of_lt hj]
    exact List.getElem?_eq_getElem hj
  · have hij : j < i := by
      by_contra hc
      rcases Nat.lt_or_eq_of_le (not_lt.1 hc) with h | h
      · have := hs' i j hi hj h; linarith
      · subst h; exact lt_irrefl _ b2
    have j0 : j = 0 := by
      by_contra hne
      have hk : 0 < es.length := by omega
      rcases other 0 hk (by omega) (by omega) with ⟨h, -⟩ | ⟨-, -, h⟩
      · omega
      · have := hs' 0 j hk hj (by omega); linarith
    have i1 : i + 1 = es.length := by
      by_contra hne
      have hk : i + 1 < es.length := by omega
      rcases other (i + 1) hk (by omega) (by omega) with ⟨h, -⟩ | ⟨-, h, -⟩
      · omega
      · have := hs' i (i + 1) hi hk (by omega); linarith
    rw [i1, Nat.mod_self, ← j0]
    exact List.getElem?_eq_getElem hj

/-- the neighbour that follows in the embedding -/
theorem embedding_follows {rt : Rt} {g emb : Graph} {vList : List (V3 ℝ)}
    (h : circularEmbedding rt g vList true = .ok emb) {v : Int} {c : V3 ℝ} (hc : pyGet vList v = .ok c)
    (hnd : (nbrs g v).Nodup) (φ : Int → ℝ)
    (hφ : ∀ w ∈ nbrs g v, ∃ p r, pyGet vList w = .ok p ∧ 0 < r ∧ p.x - c.x = r * cos (φ w) ∧
      p.y - c.y = r * sin (φ w)) {x y : Int} (hx : x ∈ nbrs g v) (hy : y ∈ nbrs g v)
    (h1 : φ y < φ x) (h2 : φ x < φ y + 2 * π)
    (hw : ∀ w ∈ nbrs g v, w ≠ x → w ≠ y → φ x < φ w ∧ φ w < φ y + 2 * π)
    (hinj : ∀ w ∈ nbrs g v, ∀ w' ∈ nbrs g v, φ w = φ w' → w = w') : Follows (nbrs emb v) x y := by
  have hp := pi_pos
  have key : ∀ w, ∃ r t, w ∈ nbrs g v → ∃ p, pyGet vList w = .ok p ∧ 0 < r ∧ 0 ≤ t ∧ t < 2 * π ∧
      p.x - c.x = r * cos t ∧ p.y - c.y = r * sin t ∧ ∃ n : ℤ, φ w = t + n * (2 * π) := by
    intro w
    by_cases hm : w ∈ nbrs g v
    · obtain ⟨p, s, gp, hs, e1, e2⟩ := hφ w hm
      obtain ⟨r, t, r0, t0, t1, x1, x2⟩ := C05_polar_form (p.x - c.x) (p.y - c.y) (by
        rintro ⟨z1, z2⟩
        rw [z1] at e1
        rw [z2] at e2
        have c1 : cos (φ w) = 0 := by
          rcases mul_eq_zero.1 e1.symm with h | h
          · linarith
          · exact h
        have c2 : sin (φ w) = 0 := by
          rcases mul_eq_zero.1 e2.symm with h | h
          · linarith
          · exact h
        have := sin_sq_add_cos_sq (φ w)
        rw [c1, c2] at this
        norm_num at this)
      exact ⟨r, t, fun _ => ⟨p, gp, r0, t0, t1, x1, x2, same_angle r0 hs (x1.symm.trans e1) (x2.symm.trans e2)⟩⟩
    · exact ⟨0, 0, fun h0 => absurd h0 hm⟩
  choose rad ang hk using key
  have hrange : ∀ w ∈ nbrs g v, φ y ≤ φ w ∧ φ w < φ y + 2 * π := by
    intro w hm
    by_cases e1 : w = x
    · subst e1; exact ⟨h1.le, h2⟩
    by_cases e2 : w = y
    · subst e2; exact ⟨le_refl _, by linarith⟩
    obtain ⟨a, b⟩ := hw w hm e1 e2
    exact ⟨by linarith, b⟩
  have hs := C11_embedding_sorted rt g emb vList true h v c hc hnd rad ang (fun w hm => by
      obtain ⟨p, gp, r0, t0, t1, x1, x2, -⟩ := hk w hm
      exact ⟨p, gp, r0, t0, t1, x1, x2⟩) (fun w hm w' hm' hne he => hne (by
      obtain ⟨-, -, -, -, -, -, -, n, hn⟩ := hk w hm
      obtain ⟨-, -, -, -, -, -, -, n', hn'⟩ := hk w' hm'
      have r1 := hrange w hm
      have r2 := hrange w' hm'
      apply hinj w hm w' hm'
      have hz : n = n' := by
        have a1 : ((n - n' : ℤ) : ℝ) < 1 := by
          by_contra hc
          have := mul_le_mul_of_nonneg_right (not_lt.1 hc) (by linarith : (0:ℝ) ≤ 2 * π)
          push_cast at this
          linarith
        have a2 : (-1 : ℝ) < ((n - n' : ℤ) : ℝ) := by
          by_contra hc
          have := mul_le_mul_of_nonneg_right (not_lt.1 hc) (by linarith : (0:ℝ) ≤ 2 * π)
          push_cast at this
          linarith
        have b1 : n - n' < 1 := by exact_mod_cast a1
        have b2 : -1 < n - n' := by exact_mod_cast a2
        omega
      rw [hn, hn', he, hz]))
  simp only [if_true] at hs
  have hperm := (C11_embedding_perm rt g emb vList true h).2 v
  exact follows_of_lift (t := ang) (φ := φ) hs
    (fun w hm => by
      obtain ⟨p, gp, r0, t0, t1, -⟩ := hk w (hperm.mem_iff.1 hm)
      exact ⟨t0, t1⟩)
    (fun w hm => by
      obtain ⟨p, gp, r0, t0, t1, x1, x2, hn⟩ := hk w (hperm.mem_iff.1 hm)
      exact hn)
    (hperm.mem_iff.2 hx) (hperm.mem_iff.2 hy) h1 h2 (fun w hm => hw w (hperm.mem_iff.1 hm))

end Polyskel
