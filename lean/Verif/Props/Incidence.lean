import Verif.Props.Ears
/-
C90: on which faces of the roof over a convex polygon a new vertex lies.
-/
namespace Polyskel
open Scalar Geo

/-- C90: under the hypotheses of C62.  The new faces can be listed in the order of the sides they start with.  A new
vertex is a vertex of a face exactly if no side is nearer to it, seen from above, than the side of the face; each
one is a vertex of at least three faces. -/
theorem C90_incidence (rt : Rt) (a : PolyArgs ℝ) (P : Nat → V2 ℝ) (hh : a.holes.getD [] = [])
    (hu : a.units = none) (h3 : 3 ≤ a.num)
    (hv : ∀ k, k < a.num → ∃ A, a.verts[a.first + k]? = some A ∧ A.xy = P k)
    (hleft : ∀ i j, i < a.num → j < a.num → j ≠ i → j ≠ (i + 1) % a.num →
      0 < area2 (P i) (P ((i + 1) % a.num)) (P j))
    (hlong : ∀ k, k < a.num → 1 / 10 ^ 35 < eucl (P k) (P ((k + 1) % a.num)) ^ 2)
    (hsep : Separated (sides a.first a.num P)) (hbl : Blunt (sides a.first a.num P))
    (hap : NodesApart (sides a.first a.num P)) (fuel : Nat) (hf : 4 * a.num + 1 ≤ fuel) :
    ∃ out new fs F, polygonize rt fuel a = some out ∧ out.verts = a.verts ++ new ∧
      out.result = .ok (a.faces.getD [] ++ fs) ∧ fs.Perm ((List.range a.num).map F) ∧
      (∀ k, k < a.num → (F k)[0]? = some ((a.first + k : Nat) : Int) ∧
        (F k)[1]? = some ((a.first + (k + 1) % a.num : Nat) : Int)) ∧
      ∀ v V, new[v]? = some V →
        (∀ k, k < a.num → (((a.verts.length + v : Nat) : Int) ∈ F k ↔
          ∀ j, j < a.num → sideDist a.num P k V.xy ≤ sideDist a.num P j V.xy)) ∧
        ∃ k l m, k < l ∧ l < m ∧ m < a.num ∧ ((a.verts.length + v : Nat) : Int) ∈ F k ∧
          ((a.verts.length + v : Nat) : Int) ∈ F l ∧ ((a.verts.length + v : Nat) : Int) ∈ F m := by
  have hc := sides_convex (first := a.first) h3 hleft
  obtain ⟨A, out, new, slope, fs, σ, hA, hp, hvs, hn, hres, -, -, hσ, hF⟩ :=
    C62_points rt a P hh hu h3 hv hleft hlong hsep hbl hap fuel hf
  obtain ⟨-, out', new', -, -, hp', hvs', hnd, hnodes, -⟩ :=
    C67_nodes rt a P hh hu h3 hv hleft hlong hsep hbl hap fuel hf
  obtain rfl : out = out' := Option.some.inj (hp.symm.trans hp')
  obtain rfl : new = new' := List.append_cancel_left (hvs.symm.trans hvs')
  obtain ⟨gs, hG, hgs⟩ := List.perm_comp_forall₂ hσ.symm hF
  have hgl : gs.length = a.num := by rw [← hG.length_eq, List.length_range]
  have hface : ∀ k, k < a.num → ∃ f e, gs[k]? = some f ∧ (sides a.first a.num P)[k]? = some e ∧
      RoofFace a (sides a.first a.num P) e A.z slope out.verts k f := by
    intro k hk
    obtain ⟨e, he, hr⟩ := (List.forall₂_iff_get.1 hG).2 k (by simpa using hk) (by omega)
    simp only [List.get_eq_getElem, List.getElem_range] at he hr
    exact ⟨_, e, List.getElem?_eq_getElem (by omega), he, hr⟩
  choose! F E hFk hEk hR using hface
  have hv' : ∀ k, k < a.num → ∃ B, out.verts[a.first + k]? = some B ∧ B.xy = P k := by
    intro k hk
    obtain ⟨B, hB, hBP⟩ := hv k hk
    exact ⟨B, by rw [hvs, List.getElem?_append_left (List.getElem?_eq_some_iff.1 hB).1, hB], hBP⟩
  have e1 : gs = (List.range a.num).map F := by
    refine List.ext_getElem? fun k => ?_
    by_cases hk : k < a.num
    · rw [hFk k hk, List.getElem?_map, List.getElem?_range hk]; rfl
    · rw [List.getElem?_eq_none (by omega), List.getElem?_eq_none (by simp; omega)]
  refine ⟨out, new, fs, F, hp, hvs, hres, e1 ▸ hgs.symm, fun k hk => ⟨(hR k hk).first, (hR k hk).second⟩, ?_⟩
  intro v V hvV
  have hvl : v < new.length := (List.getElem?_eq_some_iff.1 hvV).1
  have hVo : out.verts[a.verts.length + v]? = some V := by
    rw [hvs, List.getElem?_append_right (by omega), Nat.add_sub_cancel_left]; exact hvV
  obtain ⟨h, hnode⟩ := (hnodes V.xy).1 (List.mem_map_of_mem (List.mem_of_getElem? hvV))
  obtain ⟨e1, m1, e2, m2, e3, m3, n12, n23, n13, p1, p2, p3⟩ := hnode.three
  have hidx : ∀ e ∈ sides a.first a.num P, ∃ k, k < a.num ∧ E k = e := by
    intro e he
    obtain ⟨j, hj⟩ := List.mem_iff_getElem?.1 he
    have hjn : j < a.num := by simpa [sides] using (List.getElem?_eq_some_iff.1 hj).1
    rw [hEk j hjn] at hj
    exact ⟨j, hjn, Option.some.inj hj⟩
  -- a face over a side with two others as near
  have hin : ∀ k, k < a.num → ∀ {e2 e3}, e2 ∈ sides a.first a.num P → e3 ∈ sides a.first a.num P →
      E k ≠ e2 → E k ≠ e3 → e2 ≠ e3 → height (E k).p1 (E k).norm V.xy = h →
      height e2.p1 e2.norm V.xy = h → height e3.p1 e3.norm V.xy = h →
      ((a.verts.length + v : Nat) : Int) ∈ F k := by
    intro k hk e2 e3 m2 m3 n12 n13 n23 p1 p2 p3
    obtain ⟨j, p, W, hj, hfp, hvp, hW⟩ :=
      node_on_face hc hv' hk (hEk k hk) (hR k hk) hnode m2 m3 n12 n13 n23 p1 p2 p3
    have hge := ((hR k hk).plane j p hj hfp).1
    have hpv : p = ((a.verts.length + v : Nat) : Int) := by
      rw [hvs, List.getElem?_append_right (by omega)] at hvp
      have b1 : (new.map V3.xy)[p.toNat - a.verts.length]? = some V.xy := by rw [List.getElem?_map, hvp, ← hW]; rfl
      have b2 : (new.map V3.xy)[v]? = some V.xy := by rw [List.getElem?_map, hvV]; rfl
      obtain ⟨c1, c2⟩ := List.getElem?_eq_some_iff.1 b1
      obtain ⟨d1, d2⟩ := List.getElem?_eq_some_iff.1 b2
      have := (hnd.getElem_inj_iff).1 (c2.trans d2.symm)
      omega
    exact hpv ▸ List.mem_of_getElem? hfp
  -- a side that is as near as possible
  have hmin : ∀ k, k < a.num → height (E k).p1 (E k).norm V.xy = h → ((a.verts.length + v : Nat) : Int) ∈ F k := by
    intro k hk hkh
    by_cases c1 : E k = e1
    · exact hin k hk m2 m3 (c1 ▸ n12) (c1 ▸ n13) n23 hkh p2 p3
    by_cases c2 : E k = e2
    · exact hin k hk m1 m3 c1 (c2 ▸ n23) n13 hkh p1 p3
    exact hin k hk m1 m2 c1 c2 n12 hkh p1 p2
  obtain ⟨k1, l1, rfl⟩ := hidx e1 m1
  obtain ⟨k2, l2, rfl⟩ := hidx e2 m2
  obtain ⟨k3, l3, rfl⟩ := hidx e3 m3
  refine ⟨?_, ?_⟩
  · intro k hk
    constructor
    · intro hm j hj
      have := (hR k hk).nearest _ hm V (by rw [Int.toNat_natCast]; exact hVo) _ (List.mem_of_getElem? (hEk j hj))
      rwa [sides_height (hEk k hk), sides_height (hEk j hj)] at this
    · intro hle
      refine hmin k hk (le_antisymm ?_ (hnode.least _ (List.mem_of_getElem? (hEk k hk))))
      have := hle k1 l1
      rwa [← sides_height (hEk k hk), ← sides_height (hEk k1 l1), p1] at this
  · have i1 := hmin k1 l1 p1
    have i2 := hmin k2 l2 p2
    have i3 := hmin k3 l3 p3
    have d12 : k1 ≠ k2 := fun h => n12 (h ▸ rfl)
    have d23 : k2 ≠ k3 := fun h => n23 (h ▸ rfl)
    have d13 : k1 ≠ k3 := fun h => n13 (h ▸ rfl)
    rcases Nat.lt_or_gt_of_ne d12 with h12 | h12 <;> rcases Nat.lt_or_gt_of_ne d23 with h23 | h23 <;>
      rcases Nat.lt_or_gt_of_ne d13 with h13 | h13
    · exact ⟨k1, k2, k3, h12, h23, l3, i1, i2, i3⟩
    · omega
    · exact ⟨k1, k3, k2, h13, h23, l2, i1, i3, i2⟩
    · exact ⟨k3, k1, k2, h13, h12, l2, i3, i1, i2⟩
    · exact ⟨k2, k1, k3, h12, h13, l3, i2, i1, i3⟩
    · exact ⟨k2, k3, k1, h23, h13, l1, i2, i3, i1⟩
    · omega
    · exact ⟨k3, k2, k1, h23, h12, l1, i3, i2, i1⟩

/-- case: the rectangle of 8 by 4 -/
example (rt : Rt) : ∃ out new fs F, polygonize rt 17 rectArgs = some out ∧
    out.verts = rectArgs.verts ++ new ∧ out.result = .ok fs ∧ fs.Perm ((List.range 4).map F) ∧
    ∀ v V, new[v]? = some V → ∀ k, k < 4 → (((4 + v : Nat) : Int) ∈ F k ↔
      ∀ j, j < 4 → sideDist 4 rectPoint k V.xy ≤ sideDist 4 rectPoint j V.xy) := by
  obtain ⟨h1, h2, h3, h4, h5, h6, h7⟩ := rect_meets
  obtain ⟨out, new, fs, F, hp, hvs, hres, hperm, -, hin⟩ :=
    C90_incidence rt rectArgs rectPoint rfl rfl (by decide) h1 h2 h3 h4 h5 h7 17 (by decide)
  exact ⟨out, new, fs, F, hp, hvs, hres, hperm, fun v V hV => (hin v V hV).1⟩

end Polyskel
