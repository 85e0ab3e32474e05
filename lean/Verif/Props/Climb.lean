import Verif.Props.FacePairs
import Verif.Proofs.Climb
/-
C92: the way round a face of the roof over a convex polygon.
-/
namespace Polyskel
open Scalar Geo

/-- C92: a horizontal convex polygon under the hypotheses of C62, with a positive pitch or height.  The new faces can
be listed in the order of the sides they start with.  Going round a face from the end of its side one climbs, edge by
edge, up to the vertex number `m`; then comes an edge that is level or descends; and then all edges descend, down to
the beginning of the side. -/
theorem C92_climb (rt : Rt) (a : PolyArgs ℝ) (P : Nat → V2 ℝ) (z : ℝ) (hh : a.holes.getD [] = [])
    (hu : a.units = none) (h3 : 3 ≤ a.num)
    (hv : ∀ k, k < a.num → ∃ A, a.verts[a.first + k]? = some A ∧ A.xy = P k ∧ A.z = z)
    (hleft : ∀ i j, i < a.num → j < a.num → j ≠ i → j ≠ (i + 1) % a.num →
      0 < area2 (P i) (P ((i + 1) % a.num)) (P j))
    (hlong : ∀ k, k < a.num → 1 / 10 ^ 35 < eucl (P k) (P ((k + 1) % a.num)) ^ 2)
    (hsep : Separated (sides a.first a.num P)) (hbl : Blunt (sides a.first a.num P))
    (hap : NodesApart (sides a.first a.num P)) (hup : 0 < a.height ∨ (a.height = 0 ∧ 0 < a.tan))
    (fuel : Nat) (hf : 4 * a.num + 1 ≤ fuel) :
    ∃ out new fs F, polygonize rt fuel a = some out ∧ out.verts = a.verts ++ new ∧
      out.result = .ok (a.faces.getD [] ++ fs) ∧ fs.Perm ((List.range a.num).map F) ∧
      ∀ k, k < a.num → (F k)[0]? = some ((a.first + k : Nat) : Int) ∧
        (F k)[1]? = some ((a.first + (k + 1) % a.num : Nat) : Int) ∧
        ∃ V : Nat → V3 ℝ, (∀ i, i < (F k).length → ∃ v, (F k)[i]? = some v ∧ out.verts[v.toNat]? = some (V i)) ∧
        ∃ m, 2 ≤ m ∧ m < (F k).length ∧ (∀ i, 1 ≤ i → i < m → (V i).z < (V (i + 1)).z) ∧
          (V ((m + 1) % (F k).length)).z ≤ (V m).z ∧
          ∀ i, m < i → i < (F k).length → (V ((i + 1) % (F k).length)).z < (V i).z := by
  have hc := sides_convex (first := a.first) h3 hleft
  obtain ⟨A, out, new, slope, fs, σ, hA, hp, hvs, hn, hres, hs0, hs1, hσ, hF⟩ :=
    C62_points rt a P hh hu h3 (fun k hk => by obtain ⟨B, b1, b2, -⟩ := hv k hk; exact ⟨B, b1, b2⟩) hleft hlong hsep hbl hap fuel hf
  obtain ⟨gs, hG, hgs⟩ := List.perm_comp_forall₂ hσ.symm hF
  have hgl : gs.length = a.num := by rw [← hG.length_eq, List.length_range]
  have hface : ∀ k, k < a.num → ∃ f e, gs[k]? = some f ∧ (sides a.first a.num P)[k]? = some e ∧
      RoofFace a (sides a.first a.num P) e A.z slope out.verts k f := by
    intro k hk
    obtain ⟨e, he, hr⟩ := (List.forall₂_iff_get.1 hG).2 k (by simpa using hk) (by omega)
    simp only [List.get_eq_getElem, List.getElem_range] at he hr
    exact ⟨_, e, List.getElem?_eq_getElem (by omega), he, hr⟩
  choose! F E hFk hEk hR using hface
  have hvz : ∀ k, k < a.num → ∃ B, out.verts[a.first + k]? = some B ∧ B.xy = P k ∧ B.z = z := by
    intro k hk
    obtain ⟨B, hB, hBP⟩ := hv k hk
    exact ⟨B, by rw [hvs, List.getElem?_append_left (List.getElem?_eq_some_iff.1 hB).1, hB], hBP⟩
  have hv' : ∀ k, k < a.num → ∃ B, out.verts[a.first + k]? = some B ∧ B.xy = P k := fun k hk => by
    obtain ⟨B, b1, b2, -⟩ := hvz k hk
    exact ⟨B, b1, b2⟩
  have e1 : gs = (List.range a.num).map F := by
    refine List.ext_getElem? fun k => ?_
    by_cases hk : k < a.num
    · rw [hFk k hk, List.getElem?_map, List.getElem?_range hk]; rfl
    · rw [List.getElem?_eq_none (by omega), List.getElem?_eq_none (by simp; omega)]
  refine ⟨out, new, fs, F, hp, hvs, hres, e1 ▸ hgs.symm, fun k hk => ⟨(hR k hk).first, (hR k hk).second, ?_⟩⟩
  have hs : 0 < slope := by
    rcases hup with h | ⟨h, ht⟩
    · exact hs1 h
    · rw [hs0 h]; exact ht
  have hAz : A.z = z := by
    obtain ⟨B, hB, -, hBz⟩ := hv 0 (by omega)
    rw [Nat.add_zero, hA] at hB
    cases hB
    exact hBz
  obtain ⟨Q, hQ, hQv⟩ := (hR k hk).polygon hv' hk (hEk k hk)
  have mk := List.mem_of_getElem? (hEk k hk)
  have hal := hc.along _ mk
  obtain ⟨m, m1, m2, m3, m4, m5⟩ := hQ.climb hal
  have hsz := hQ.size
  -- the heights
  have hz : ∀ i, i < (F k).length → (Q i).z = z + slope * height (E k).p1 (E k).norm (Q i).xy := by
    intro i hi
    obtain ⟨v, hv, hvQ⟩ := hQv i hi
    rcases Nat.lt_or_ge i 2 with h2 | h2
    · have h0 : height (E k).p1 (E k).norm (Q i).xy = 0 := by
        obtain ⟨r, -, r1, r2⟩ := hal
        have : i = 0 ∨ i = 1 := by omega
        rcases this with rfl | rfl
        · rw [show (Q 0).xy = (E k).p1 from hQ.first]; simp [height]
        · rw [show (Q 1).xy = (E k).p2 from hQ.second]; unfold height; rw [r1, r2]; ring
      rw [h0, mul_zero, add_zero]
      have hc2 : ∃ l, l < a.num ∧ (F k)[i]? = some ((a.first + l : Nat) : Int) := by
        have : i = 0 ∨ i = 1 := by omega
        rcases this with rfl | rfl
        · exact ⟨k, hk, (hR k hk).first⟩
        · exact ⟨_, Nat.mod_lt _ (by omega), (hR k hk).second⟩
      obtain ⟨l, hl, hfl⟩ := hc2
      cases hv.symm.trans hfl
      obtain ⟨B, hB, -, hBz⟩ := hvz l hl
      rw [Int.toNat_natCast, hB] at hvQ
      cases hvQ
      exact hBz
    · rw [← hAz]
      exact (((hR k hk).plane i v h2 hv).2 _ hvQ).2
  have hmod : ∀ i, i % (F k).length < (F k).length := fun i => Nat.mod_lt _ (by omega)
  refine ⟨Q, hQv, m, m1, m2, ?_, ?_, ?_⟩
  · intro i h1 hi
    rw [hz i (by omega), hz (i + 1) (by omega)]
    have := mul_lt_mul_of_pos_left (m3 i h1 hi) hs
    linarith
  · rw [hz m m2, hz _ (hmod _)]
    have := mul_le_mul_of_nonneg_left m4 hs.le
    linarith
  · intro i h1 hi
    rw [hz i hi, hz _ (hmod _)]
    have := mul_lt_mul_of_pos_left (m5 i h1 hi) hs
    linarith

/-- case: the rectangle of 8 by 4, with a pitch of 1/2 -/
example (rt : Rt) : ∃ out new fs F, polygonize rt 17 rectArgs = some out ∧
    out.verts = rectArgs.verts ++ new ∧ out.result = .ok fs ∧ fs.Perm ((List.range 4).map F) ∧
    ∀ k, k < 4 → ∃ V : Nat → V3 ℝ,
      (∀ i, i < (F k).length → ∃ v, (F k)[i]? = some v ∧ out.verts[v.toNat]? = some (V i)) ∧ (V 1).z < (V 2).z := by
  obtain ⟨h1, h2, h3, h4, h5, h6, h7⟩ := rect_meets
  obtain ⟨out, new, fs, F, hp, hvs, hres, hperm, hin⟩ :=
    C92_climb rt rectArgs rectPoint 1 rfl rfl (by decide) (by
      intro k hk
      have : k = 0 ∨ k = 1 ∨ k = 2 ∨ k = 3 := by simp only [rectArgs] at hk; omega
      rcases this with rfl | rfl | rfl | rfl <;> simp [rectArgs, rectPoint, V3.xy]) h2 h3 h4 h5 h7
      (Or.inr (by norm_num [rectArgs])) 17 (by decide)
  refine ⟨out, new, fs, F, hp, hvs, hres, hperm, fun k hk => ?_⟩
  obtain ⟨-, -, V, hV, m, m1, m2, m3, -⟩ := hin k hk
  exact ⟨V, hV, m3 1 le_rfl (by omega)⟩

end Polyskel
