import Verif.Props.Incidence
import Verif.Proofs.NoThree
/-
C91: what two faces of the roof over a convex polygon have in common.
-/
namespace Polyskel
open Scalar Geo

/-- the points of a face are those of a ring -/
theorem RoofFace.polygon {a : PolyArgs ℝ} {P : Nat → V2 ℝ} {e : Edge2 ℝ} {z slope : ℝ} {verts : List (V3 ℝ)}
    {k : Nat} {f : List Int} (hr : RoofFace a (sides a.first a.num P) e z slope verts k f)
    (hv : ∀ k, k < a.num → ∃ A, verts[a.first + k]? = some A ∧ A.xy = P k)
    (hk : k < a.num) (he : (sides a.first a.num P)[k]? = some e) :
    ∃ Q : Nat → V3 ℝ, CellRing (sides a.first a.num P) e f.length (fun i => (Q i).xy) ∧
      ∀ i, i < f.length → ∃ p, f[i]? = some p ∧ verts[p.toNat]? = some (Q i) := by
  obtain ⟨e', he', q1, q2⟩ := sides_get (first := a.first) (P := P) hk
  rw [he] at he'
  cases he'
  obtain ⟨V, hV, hVP⟩ := hv k hk
  obtain ⟨W, hW, hWP⟩ := hv ((k + 1) % a.num) (Nat.mod_lt _ (by omega))
  exact hr.ring hV hW (hVP.trans q1.symm) (hWP.trans q2.symm)

/-- two vertices of a face that has no vertex to the right of the line through them are neighbours -/
theorem RoofFace.neighbour {a : PolyArgs ℝ} {P : Nat → V2 ℝ} {e : Edge2 ℝ} {z slope : ℝ} {verts : List (V3 ℝ)}
    {k : Nat} {f : List Int} (hr : RoofFace a (sides a.first a.num P) e z slope verts k f)
    (hc : ConvexPolygon (sides a.first a.num P))
    (hv : ∀ k, k < a.num → ∃ A, verts[a.first + k]? = some A ∧ A.xy = P k)
    (hk : k < a.num) (he : (sides a.first a.num P)[k]? = some e) {x y : Int} (hx : x ∈ f) (hy : y ∈ f)
    (hxy : x ≠ y) {X Y : V3 ℝ} (hX : verts[x.toNat]? = some X) (hY : verts[y.toNat]? = some Y)
    (h : ∀ v ∈ f, ∀ V, verts[v.toNat]? = some V → 0 ≤ area2 X.xy Y.xy V.xy) :
    ∃ i : Nat, f[i]? = some x ∧ f[(i + 1) % f.length]? = some y := by
  have m := List.mem_of_getElem? he
  obtain ⟨Q, hQ, hQv⟩ := hr.polygon hv hk he
  obtain ⟨i, hi⟩ := List.mem_iff_getElem?.1 hx
  obtain ⟨j, hj⟩ := List.mem_iff_getElem?.1 hy
  have li := (List.getElem?_eq_some_iff.1 hi).1
  have lj := (List.getElem?_eq_some_iff.1 hj).1
  obtain ⟨p, hp, hpQ⟩ := hQv i li
  obtain ⟨q, hq, hqQ⟩ := hQv j lj
  cases hp.symm.trans hi
  cases hq.symm.trans hj
  cases hpQ.symm.trans hX
  cases hqQ.symm.trans hY
  have hij : i ≠ j := by rintro rfl; exact hxy (Option.some.inj (hi.symm.trans hj))
  refine ⟨i, hi, ?_⟩
  rw [← hQ.neighbour (hc.along _ m) (hc.unit _ m) hc.unit li lj hij (fun l hl => ?_)]
  · exact hj
  · obtain ⟨v, hv, hvQ⟩ := hQv l hl
    exact h v (List.mem_of_getElem? hv) _ hvQ

/-- C91: under the hypotheses of C62.  The new faces can be listed in the order of the sides they start with.  If
two different ones have two vertices in common, then these are neighbours in both, following each other in opposite
orders, and the faces have no third vertex in common. -/
theorem C91_shared (rt : Rt) (a : PolyArgs ℝ) (P : Nat → V2 ℝ) (hh : a.holes.getD [] = [])
    (hu : a.units = none) (h3 : 3 ≤ a.num)
    (hv : ∀ k, k < a.num → ∃ A, a.verts[a.first + k]? = some A ∧ A.xy = P k)
    (hleft : ∀ i j, i < a.num → j < a.num → j ≠ i → j ≠ (i + 1) % a.num →
      0 < area2 (P i) (P ((i + 1) % a.num)) (P j))
    (hlong : ∀ k, k < a.num → 1 / 10 ^ 35 < eucl (P k) (P ((k + 1) % a.num)) ^ 2)
    (hsep : Separated (sides a.first a.num P)) (hbl : Blunt (sides a.first a.num P))
    (hap : NodesApart (sides a.first a.num P)) (fuel : Nat) (hf : 4 * a.num + 1 ≤ fuel) :
    ∃ out new fs F, polygonize rt fuel a = some out ∧ out.verts = a.verts ++ new ∧
      out.result = .ok (a.faces.getD [] ++ fs) ∧ fs.Perm ((List.range a.num).map F) ∧
      (∀ k, k < a.num → (F k)[0]? = some ((a.first + k : Nat) : Int) ∧
        (F k)[1]? = some ((a.first + (k + 1) % a.num : Nat) : Int)) ∧
      ∀ k l, k < a.num → l < a.num → k ≠ l → ∀ x y, x ≠ y → x ∈ F k → x ∈ F l → y ∈ F k → y ∈ F l →
        (∀ v, v ∈ F k → v ∈ F l → v = x ∨ v = y) ∧
        ((∃ i j : Nat, (F k)[i]? = some x ∧ (F k)[(i + 1) % (F k).length]? = some y ∧
            (F l)[j]? = some y ∧ (F l)[(j + 1) % (F l).length]? = some x) ∨
          (∃ i j : Nat, (F k)[i]? = some y ∧ (F k)[(i + 1) % (F k).length]? = some x ∧
            (F l)[j]? = some x ∧ (F l)[(j + 1) % (F l).length]? = some y)) := by
  have hc := sides_convex (first := a.first) h3 hleft
  obtain ⟨A, out, new, slope, fs, σ, hA, hp, hvs, hn, hres, -, -, hσ, hF⟩ :=
    C62_points rt a P hh hu h3 hv hleft hlong hsep hbl hap fuel hf
  obtain ⟨gs, hG, hgs⟩ := List.perm_comp_forall₂ hσ.symm hF
  have hgl : gs.length = a.num := by rw [← hG.length_eq, List.length_range]
  have hface : ∀ k, k < a.num → ∃ f e, gs[k]? = some f ∧ (sides a.first a.num P)[k]? = some e ∧
      RoofFace a (sides a.first a.num P) e A.z slope out.verts k f := by
    intro k hk
    obtain ⟨e, he, hr⟩ := (List.forall₂_iff_get.1 hG).2 k (by simpa using hk) (by omega)
    simp only [List.get_eq_getElem, List.getElem_range] at he hr
    exact ⟨_, e, List.getElem?_eq_getElem (by omega), he, hr⟩
  choose! F E hFk hEk hR using hface
  have hv' : ∀ k, k < a.num → ∃ B, out.verts[a.first + k]? = some B ∧ B.xy = P k := by
    intro k hk
    obtain ⟨B, hB, hBP⟩ := hv k hk
    exact ⟨B, by rw [hvs, List.getElem?_append_left (List.getElem?_eq_some_iff.1 hB).1, hB], hBP⟩
  have e1 : gs = (List.range a.num).map F := by
    refine List.ext_getElem? fun k => ?_
    by_cases hk : k < a.num
    · rw [hFk k hk, List.getElem?_map, List.getElem?_range hk]; rfl
    · rw [List.getElem?_eq_none (by omega), List.getElem?_eq_none (by simp; omega)]
  refine ⟨out, new, fs, F, hp, hvs, hres, e1 ▸ hgs.symm, fun k hk => ⟨(hR k hk).first, (hR k hk).second⟩, ?_⟩
  intro k l hk hl hkl x y hxy xk xl yk yl
  have mk := List.mem_of_getElem? (hEk k hk)
  have ml := List.mem_of_getElem? (hEk l hl)
  have hne : (E l).norm ≠ (E k).norm := by
    intro h
    have h := hc.norm_inj ml mk h
    obtain ⟨b1, b2⟩ := List.getElem?_eq_some_iff.1 (hEk k hk)
    obtain ⟨c1, c2⟩ := List.getElem?_eq_some_iff.1 (hEk l hl)
    have := congrArg Edge2.oid ((c2.trans h).trans b2.symm)
    simp [sides] at this
    exact hkl this.symm
  have hpt : ∀ v ∈ F k, ∃ V, out.verts[v.toNat]? = some V := by
    intro v hv
    obtain ⟨b1, b2⟩ := (hR k hk).index v hv
    exact ⟨_, List.getElem?_eq_getElem (by omega)⟩
  -- a vertex of both faces is as near to one side as to the other
  have heq : ∀ v, v ∈ F k → v ∈ F l → ∀ V, out.verts[v.toNat]? = some V →
      height (E l).p1 (E l).norm V.xy - height (E k).p1 (E k).norm V.xy = 0 := by
    intro v vk vl V hV
    have b1 := (hR k hk).nearest v vk V hV _ ml
    have b2 := (hR l hl).nearest v vl V hV _ mk
    linarith
  obtain ⟨X, hX⟩ := hpt x xk
  obtain ⟨Y, hY⟩ := hpt y yk
  obtain ⟨Q, hQ, hQv⟩ := (hR k hk).polygon hv' hk (hEk k hk)
  have hal := hc.along _ mk
  have hun := hc.unit _ mk
  have hat : ∀ v ∈ F k, ∀ V, out.verts[v.toNat]? = some V → ∃ i, i < (F k).length ∧ (F k)[i]? = some v ∧ Q i = V := by
    intro v hv V hV
    obtain ⟨i, hi⟩ := List.mem_iff_getElem?.1 hv
    have li := (List.getElem?_eq_some_iff.1 hi).1
    obtain ⟨p, hp, hpQ⟩ := hQv i li
    cases hp.symm.trans hi
    exact ⟨i, li, hi, Option.some.inj (hpQ.symm.trans hV)⟩
  obtain ⟨i, li, hi, hiX⟩ := hat x xk X hX
  obtain ⟨j, lj, hj, hjY⟩ := hat y yk Y hY
  have hij : i ≠ j := by rintro rfl; exact hxy (Option.some.inj (hi.symm.trans hj))
  have hXY : X.xy ≠ Y.xy := by
    intro h
    rw [← hiX, ← hjY] at h
    exact hij (hQ.inj hal hun hc.unit li lj h)
  have aX := heq x xk xl X hX
  have aY := heq y yk yl Y hY
  rw [height_diff] at aX aY
  obtain ⟨t, ht, hdiff⟩ := affine_chord hXY aX aY (norm_ne hne)
  refine ⟨?_, ?_⟩
  · intro v vk vl
    by_contra hcon
    push Not at hcon
    obtain ⟨V, hV⟩ := hpt v vk
    obtain ⟨m, lm, hm, hmV⟩ := hat v vk V hV
    have := heq v vk vl V hV
    rw [height_diff, hdiff] at this
    have hz := (mul_eq_zero.1 this).resolve_left ht
    rw [← hiX, ← hjY, ← hmV] at hz
    exact hQ.no_three hal hun hc.unit li lj lm hij
      (by rintro rfl; exact hcon.2 (Option.some.inj (hm.symm.trans hj)))
      (by rintro rfl; exact hcon.1 (Option.some.inj (hm.symm.trans hi))) hz
  · have dk : ∀ v ∈ F k, ∀ V, out.verts[v.toNat]? = some V → 0 ≤ t * area2 X.xy Y.xy V.xy := by
      intro v hv V hV
      rw [← hdiff, ← height_diff]
      exact sub_nonneg.2 ((hR k hk).nearest v hv V hV _ ml)
    have dl : ∀ v ∈ F l, ∀ V, out.verts[v.toNat]? = some V → t * area2 X.xy Y.xy V.xy ≤ 0 := by
      intro v hv V hV
      rw [← hdiff, ← height_diff]
      exact sub_nonpos.2 ((hR l hl).nearest v hv V hV _ mk)
    have sw : ∀ V : V2 ℝ, area2 Y.xy X.xy V = - area2 X.xy Y.xy V := by intro V; unfold area2; ring
    rcases lt_or_gt_of_ne ht with h0 | h0
    · right
      obtain ⟨i', a1, a2⟩ := (hR k hk).neighbour hc hv' hk (hEk k hk) yk xk hxy.symm hY hX (fun v hv V hV => by
        rw [sw]; exact neg_nonneg.2 (nonpos_of_mul_nonneg_right (dk v hv V hV) h0))
      obtain ⟨j', b1, b2⟩ := (hR l hl).neighbour hc hv' hl (hEk l hl) xl yl hxy hX hY (fun v hv V hV =>
        nonneg_of_mul_nonpos_right (dl v hv V hV) h0)
      exact ⟨i', j', a1, a2, b1, b2⟩
    · left
      obtain ⟨i', a1, a2⟩ := (hR k hk).neighbour hc hv' hk (hEk k hk) xk yk hxy hX hY (fun v hv V hV =>
        nonneg_of_mul_nonneg_right (dk v hv V hV) h0)
      obtain ⟨j', b1, b2⟩ := (hR l hl).neighbour hc hv' hl (hEk l hl) yl xl hxy.symm hY hX (fun v hv V hV => by
        rw [sw]; exact neg_nonneg.2 (nonpos_of_mul_nonpos_right (dl v hv V hV) h0))
      exact ⟨i', j', a1, a2, b1, b2⟩

/-- case: the faces over the two long sides of the rectangle of 8 by 4 -/
example (rt : Rt) : ∃ out new fs F, polygonize rt 17 rectArgs = some out ∧
    out.verts = rectArgs.verts ++ new ∧ out.result = .ok fs ∧ fs.Perm ((List.range 4).map F) ∧
    ∀ x y, x ≠ y → x ∈ F 0 → x ∈ F 2 → y ∈ F 0 → y ∈ F 2 → ∀ v, v ∈ F 0 → v ∈ F 2 → v = x ∨ v = y := by
  obtain ⟨h1, h2, h3, h4, h5, h6, h7⟩ := rect_meets
  obtain ⟨out, new, fs, F, hp, hvs, hres, hperm, -, hin⟩ :=
    C91_shared rt rectArgs rectPoint rfl rfl (by decide) h1 h2 h3 h4 h5 h7 17 (by decide)
  exact ⟨out, new, fs, F, hp, hvs, hres, hperm, fun x y h b1 b2 b3 b4 =>
    (hin 0 2 (by decide) (by decide) (by decide) x y h b1 b2 b3 b4).1⟩

end Polyskel
