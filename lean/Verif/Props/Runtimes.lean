import Verif.Props.FacePairs
import Verif.Props.Graph
import Verif.Spec.Samples
/-
C93: what the order in which Python goes through its sets has to do with the result.
-/
namespace Polyskel
open Scalar Geo

/-- C93, the vertices, in any arithmetic: two calls with the same arguments under different runtimes both end, or
both do not; they leave behind the same vertices, with the same skeleton in the debug output. -/
theorem C93_verts {S : Type} [Scalar S] (rt rt' : Rt) (fuel : Nat) (a : PolyArgs S) :
    (polygonize rt fuel a).map (fun o => (o.verts, o.debug)) =
      (polygonize rt' fuel a).map (fun o => (o.verts, o.debug)) := by
  unfold polygonize
  split
  · rfl
  · split
    · rfl
    · rfl
    · split
      · rfl
      · dsimp only
        split <;> split <;> first | rfl | (split <;> first | rfl | (split <;> rfl))

/-- two faces over the same side with the same vertices are the same list -/
theorem RoofFace.same {a : PolyArgs ℝ} {P : Nat → V2 ℝ} {e : Edge2 ℝ} {z slope z' slope' : ℝ} {new : List (V3 ℝ)}
    {k : Nat} {f f' : List Int}
    (hr : RoofFace a (sides a.first a.num P) e z slope (a.verts ++ new) k f)
    (hr' : RoofFace a (sides a.first a.num P) e z' slope' (a.verts ++ new) k f')
    (hc : ConvexPolygon (sides a.first a.num P))
    (hv : ∀ k, k < a.num → ∃ A, (a.verts ++ new)[a.first + k]? = some A ∧ A.xy = P k)
    (hk : k < a.num) (he : (sides a.first a.num P)[k]? = some e) (hnd : (new.map V3.xy).Nodup) : f = f' := by
  have m := List.mem_of_getElem? he
  obtain ⟨Q, hQ, hQv⟩ := hr.polygon hv hk he
  obtain ⟨R, hR, hRv⟩ := hr'.polygon hv hk he
  obtain ⟨hlen, heq⟩ := hQ.unique (hc.along _ m) hR (hc.unit _ m) hc.unit
  refine List.ext_getElem? fun i => ?_
  by_cases hi : i < f.length
  · rcases Nat.lt_or_ge i 2 with h2 | h2
    · have : i = 0 ∨ i = 1 := by omega
      rcases this with rfl | rfl
      · rw [hr.first, hr'.first]
      · rw [hr.second, hr'.second]
    · obtain ⟨p, hp, hpQ⟩ := hQv i hi
      obtain ⟨q, hq, hqR⟩ := hRv i (hlen ▸ hi)
      have gp := (hr.plane i p h2 hp).1
      have gq := (hr'.plane i q h2 hq).1
      rw [hp, hq]
      rw [List.getElem?_append_right (by omega)] at hpQ hqR
      have b1 : (new.map V3.xy)[p.toNat - a.verts.length]? = some (Q i).xy := by rw [List.getElem?_map, hpQ]; rfl
      have b2 : (new.map V3.xy)[q.toNat - a.verts.length]? = some (Q i).xy := by
        rw [List.getElem?_map, hqR, show (Q i).xy = (R i).xy from heq i hi]; rfl
      obtain ⟨c1, c2⟩ := List.getElem?_eq_some_iff.1 b1
      obtain ⟨d1, d2⟩ := List.getElem?_eq_some_iff.1 b2
      have := (hnd.getElem_inj_iff).1 (c2.trans d2.symm)
      congr 1
      omega
  · rw [List.getElem?_eq_none (by omega), List.getElem?_eq_none (by omega)]

/-- C93, the faces for a convex polygon, under the hypotheses of C62: the faces of two calls under different
runtimes are the same lists of indices, begin with the same vertices, and differ at most in their order.  (Missing:
other polygons.  For those it is false, as `C93_spikes_refuted` shows: the traced faces are the same up to their
order and their first vertices by C13, but the removal of spikes does not respect this.) -/
theorem C93_faces_partial (rt rt' : Rt) (a : PolyArgs ℝ) (P : Nat → V2 ℝ) (hh : a.holes.getD [] = [])
    (hu : a.units = none) (h3 : 3 ≤ a.num)
    (hv : ∀ k, k < a.num → ∃ A, a.verts[a.first + k]? = some A ∧ A.xy = P k)
    (hleft : ∀ i j, i < a.num → j < a.num → j ≠ i → j ≠ (i + 1) % a.num →
      0 < area2 (P i) (P ((i + 1) % a.num)) (P j))
    (hlong : ∀ k, k < a.num → 1 / 10 ^ 35 < eucl (P k) (P ((k + 1) % a.num)) ^ 2)
    (hsep : Separated (sides a.first a.num P)) (hbl : Blunt (sides a.first a.num P))
    (hap : NodesApart (sides a.first a.num P)) (fuel : Nat) (hf : 4 * a.num + 1 ≤ fuel) :
    ∃ out fs out' fs', polygonize rt fuel a = some out ∧ out.result = .ok (a.faces.getD [] ++ fs) ∧
      polygonize rt' fuel a = some out' ∧ out'.result = .ok (a.faces.getD [] ++ fs') ∧
      out.verts = out'.verts ∧ fs.Perm fs' := by
  have hc := sides_convex (first := a.first) h3 hleft
  obtain ⟨A, out, new, slope, fs, σ, hA, hp, hvs, hn, hres, -, -, hσ, hF⟩ :=
    C62_points rt a P hh hu h3 hv hleft hlong hsep hbl hap fuel hf
  obtain ⟨A', out', new', slope', fs', σ', hA', hp', hvs', hn', hres', -, -, hσ', hF'⟩ :=
    C62_points rt' a P hh hu h3 hv hleft hlong hsep hbl hap fuel hf
  obtain ⟨-, out1, new1, -, -, hp1, hvs1, hnd, -⟩ :=
    C67_nodes rt a P hh hu h3 hv hleft hlong hsep hbl hap fuel hf
  obtain rfl : out = out1 := Option.some.inj (hp.symm.trans hp1)
  obtain rfl : new = new1 := List.append_cancel_left (hvs.symm.trans hvs1)
  have hsame : out.verts = out'.verts := by
    have := C93_verts rt rt' fuel a
    rw [hp, hp'] at this
    exact congrArg Prod.fst (Option.some.inj this)
  refine ⟨out, fs, out', fs', hp, hres, hp', hres', hsame, ?_⟩
  rw [← hsame, hvs] at hF'
  rw [hvs] at hF
  have hv' : ∀ k, k < a.num → ∃ B, (a.verts ++ new)[a.first + k]? = some B ∧ B.xy = P k := by
    intro k hk
    obtain ⟨B, hB, hBP⟩ := hv k hk
    exact ⟨B, by rw [List.getElem?_append_left (List.getElem?_eq_some_iff.1 hB).1, hB], hBP⟩
  obtain ⟨gs, hG, hgs⟩ := List.perm_comp_forall₂ hσ.symm hF
  obtain ⟨gs', hG', hgs'⟩ := List.perm_comp_forall₂ hσ'.symm hF'
  have hgl : gs.length = a.num := by rw [← hG.length_eq, List.length_range]
  have hgl' : gs'.length = a.num := by rw [← hG'.length_eq, List.length_range]
  obtain rfl : gs = gs' := by
    refine List.ext_getElem (hgl.trans hgl'.symm) fun k h1 h2 => ?_
    have hk : k < a.num := hgl ▸ h1
    obtain ⟨e, he, hr⟩ := (List.forall₂_iff_get.1 hG).2 k (by simpa using hk) h1
    obtain ⟨e', he', hr'⟩ := (List.forall₂_iff_get.1 hG').2 k (by simpa using hk) h2
    simp only [List.get_eq_getElem, List.getElem_range] at he hr he' hr'
    cases he.symm.trans he'
    exact hr.same hr' hc hv' hk he hnd
  exact hgs.symm.trans hgs'

/-- the vertices and nodes for a polygon with nine corners, rounded to thousandths -/
def spikyVerts : List (V3 Soft) :=
  ([(8000, 2000), (9000, 2000), (7000, 5000), (9000, 7000), (7000, 6000), (1000, 7000), (3000, 3000), (4000, 0),
    (8000, 0), (7060, 5602), (5611, 5137), (6849, 3151), (5675, 2325), (5188, 3906), (5602, 2774),
    (4948, 4112)] : List (Int × Int)).map fun p => ⟨sq p.1 1000, sq p.2 1000, sq 0⟩

/-- the faces traced for it, in the order of one runtime -/
def spikyFaces : List (List Int) :=
  [[8, 0, 11, 14, 12], [7, 8, 12], [0, 1, 11],
    [1, 2, 10, 15, 13, 6, 7, 12, 14, 15, 10, 9, 4, 5, 13, 15, 14, 11], [2, 3, 9, 10], [3, 4, 9], [5, 6, 13]]

/-- and of another one -/
def spikyFaces' : List (List Int) :=
  [[0, 1, 11], [8, 0, 11, 14, 12], [6, 7, 12, 14, 15, 10, 9, 4, 5, 13, 15, 14, 11, 1, 2, 10, 15, 13], [3, 4, 9],
    [2, 3, 9, 10], [7, 8, 12], [5, 6, 13]]

/-- C93 is false for the removal of spikes: from the same faces, given in another order and with another first
vertex, it makes different ones; only one of the results uses the vertex 13. -/
theorem C93_spikes_refuted : SameCycles spikyFaces spikyFaces' ∧
    ∃ A B, removeSpikes spikyVerts 9 spikyFaces = .ok A ∧ removeSpikes spikyVerts 9 spikyFaces' = .ok B ∧
      (∀ f ∈ A, 13 ∉ f) ∧ (∃ f ∈ B, 13 ∈ f) ∧ ¬ SameCycles A B := by
  refine ⟨sameCycles_of_forall₂ (l := [[8, 0, 11, 14, 12], [7, 8, 12], [0, 1, 11],
    [6, 7, 12, 14, 15, 10, 9, 4, 5, 13, 15, 14, 11, 1, 2, 10, 15, 13], [2, 3, 9, 10], [3, 4, 9], [5, 6, 13]])
    (by decide) ?_, [[8, 0, 11, 14, 12], [7, 8, 12], [0, 1, 11], [2, 3, 9, 10], [3, 4, 9],
      [5, 6, 7, 12, 14, 15, 10, 9, 4, 5, 15, 14, 11, 1, 2, 10, 15]],
    [[0, 1, 11], [8, 0, 11, 14, 12], [3, 4, 9], [2, 3, 9, 10], [7, 8, 12],
      [5, 6, 13, 15, 14, 11, 1, 2, 10, 15, 13, 6, 7, 12, 14, 15, 10, 9, 4, 5]],
    by decide +kernel, by decide +kernel, by decide, by decide, ?_⟩
  · unfold spikyFaces
    refine .cons ⟨0, rfl⟩ (.cons ⟨0, rfl⟩ (.cons ⟨0, rfl⟩ (.cons ⟨5, rfl⟩ (.cons ⟨0, rfl⟩ (.cons ⟨0, rfl⟩
      (.cons ⟨0, rfl⟩ .nil))))))
  · rintro ⟨l, hp, hl, h⟩
    have hm : [5, 6, 13, 15, 14, 11, 1, 2, 10, 15, 13, 6, 7, 12, 14, 15, 10, 9, 4, 5] ∈ l :=
      hp.mem_iff.2 (by simp)
    obtain ⟨i, hi⟩ := List.mem_iff_getElem?.1 hm
    have hil : i < 6 := by
      have := (List.getElem?_eq_some_iff.1 hi).1
      rw [hl] at this
      exact this
    obtain ⟨k, -, hk⟩ := h i _ _ (List.getElem?_eq_getElem (by exact hil)) hi
    have h13 : (13 : Int) ∈ _ := hk ▸ (by decide : (13 : Int) ∈
      [5, 6, 13, 15, 14, 11, 1, 2, 10, 15, 13, 6, 7, 12, 14, 15, 10, 9, 4, 5])
    rw [List.mem_append] at h13
    have hno : ∀ f ∈ ([[8, 0, 11, 14, 12], [7, 8, 12], [0, 1, 11], [2, 3, 9, 10], [3, 4, 9],
      [5, 6, 7, 12, 14, 15, 10, 9, 4, 5, 15, 14, 11, 1, 2, 10, 15]] : List (List Int)), (13 : Int) ∉ f := by decide
    rcases h13 with h13 | h13
    · exact hno _ (List.getElem_mem _) (List.mem_of_mem_drop h13)
    · exact hno _ (List.getElem_mem _) (List.mem_of_mem_take h13)

/-- case: the rectangle of 8 by 4 -/
example (rt rt' : Rt) : ∃ out fs out' fs', polygonize rt 17 rectArgs = some out ∧ out.result = .ok fs ∧
    polygonize rt' 17 rectArgs = some out' ∧ out'.result = .ok fs' ∧ out.verts = out'.verts ∧ fs.Perm fs' := by
  obtain ⟨h1, h2, h3, h4, h5, h6, h7⟩ := rect_meets
  exact C93_faces_partial rt rt' rectArgs rectPoint rfl rfl (by decide) h1 h2 h3 h4 h5 h7 17 (by decide)

end Polyskel
