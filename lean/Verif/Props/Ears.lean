import Verif.Proofs.Ears
import Verif.Proofs.CornerRidge
import Verif.Props.ConvexUnique
import Verif.Props.Euler
/-
C88: the roof over a convex polygon has at least two triangles.
-/
namespace Polyskel
open Scalar Geo

/-- a node of the roof is a vertex of the face over each side that is as near as possible -/
theorem node_on_face {a : PolyArgs ℝ} {P : Nat → V2 ℝ} {e : Edge2 ℝ} {z slope : ℝ} {verts : List (V3 ℝ)}
    {k : Nat} {f : List Int} (hc : ConvexPolygon (sides a.first a.num P))
    (hv : ∀ k, k < a.num → ∃ A, verts[a.first + k]? = some A ∧ A.xy = P k)
    (hk : k < a.num) (he : (sides a.first a.num P)[k]? = some e)
    (hr : RoofFace a (sides a.first a.num P) e z slope verts k f) {X : V2 ℝ} {h : ℝ}
    (hn : RoofNode (sides a.first a.num P) X h) {e2 e3 : Edge2 ℝ} (m2 : e2 ∈ sides a.first a.num P)
    (m3 : e3 ∈ sides a.first a.num P) (n12 : e ≠ e2) (n13 : e ≠ e3) (n23 : e2 ≠ e3)
    (p1 : height e.p1 e.norm X = h) (p2 : height e2.p1 e2.norm X = h) (p3 : height e3.p1 e3.norm X = h) :
    ∃ j p V, 2 ≤ j ∧ f[j]? = some p ∧ verts[p.toNat]? = some V ∧ V.xy = X := by
  have m1 := List.mem_of_getElem? he
  obtain ⟨e', he', q1, q2⟩ := sides_get (first := a.first) (P := P) hk
  rw [he] at he'
  cases he'
  obtain ⟨V, hV, hVP⟩ := hv k hk
  obtain ⟨W, hW, hWP⟩ := hv ((k + 1) % a.num) (Nat.mod_lt _ (by omega))
  obtain ⟨Q, hQ, hQv⟩ := hr.ring hV hW (hVP.trans q1.symm) (hWP.trans q2.symm)
  have hpos := hc.node_pos hn
  have hne : ∀ {e f}, e ∈ sides a.first a.num P → f ∈ sides a.first a.num P → e ≠ f → e.norm ≠ f.norm :=
    fun he hf hn hn' => hn (hc.norm_inj he hf hn')
  obtain ⟨j, hj, hjX⟩ := hQ.corner (hc.along _ m1) (hc.unit _ m1) (by rw [p1]; exact hpos.le)
    (fun g hg => by rw [p1]; exact hn.least g hg) m2 m3 (hc.unit _ m2) (hc.unit _ m3)
    (hne m2 m1 (Ne.symm n12)) (hne m3 m1 (Ne.symm n13)) (hne m2 m3 n23) (p2.trans p1.symm)
    (p3.trans p1.symm)
  have hj2 : 2 ≤ j := by
    by_contra hcon
    have hz : height e.p1 e.norm (Q j).xy = 0 := by
      obtain ⟨r, -, r1, r2⟩ := hc.along _ m1
      have : j = 0 ∨ j = 1 := by omega
      rcases this with rfl | rfl
      · rw [show (Q 0).xy = e.p1 from hQ.first]; simp [height]
      · rw [show (Q 1).xy = e.p2 from hQ.second]; unfold height; rw [r1, r2]; ring
    rw [show (Q j).xy = X from hjX] at hz
    linarith
  obtain ⟨p, hfp, hvp⟩ := hQv j hj
  exact ⟨j, p, Q j, hj2, hfp, hvp, hjX⟩

/-- C88: under the hypotheses of C62.  If a single vertex is added, all faces are triangles.  Otherwise at least two
faces are triangles, and they have different tips. -/
theorem C88_triangles (rt : Rt) (a : PolyArgs ℝ) (P : Nat → V2 ℝ) (hh : a.holes.getD [] = [])
    (hu : a.units = none) (h3 : 3 ≤ a.num)
    (hv : ∀ k, k < a.num → ∃ A, a.verts[a.first + k]? = some A ∧ A.xy = P k)
    (hleft : ∀ i j, i < a.num → j < a.num → j ≠ i → j ≠ (i + 1) % a.num →
      0 < area2 (P i) (P ((i + 1) % a.num)) (P j))
    (hlong : ∀ k, k < a.num → 1 / 10 ^ 35 < eucl (P k) (P ((k + 1) % a.num)) ^ 2)
    (hsep : Separated (sides a.first a.num P)) (hbl : Blunt (sides a.first a.num P))
    (hap : NodesApart (sides a.first a.num P)) (fuel : Nat) (hf : 4 * a.num + 1 ≤ fuel) :
    ∃ out new fs, polygonize rt fuel a = some out ∧ out.verts = a.verts ++ new ∧
      out.result = .ok (a.faces.getD [] ++ fs) ∧ fs.length = a.num ∧
      (new.length = 1 → ∀ f ∈ fs, f.length = 3) ∧
      (new.length ≠ 1 → ∃ f ∈ fs, ∃ g ∈ fs, f.length = 3 ∧ g.length = 3 ∧ f[2]? ≠ g[2]?) := by
  have hc := sides_convex (first := a.first) h3 hleft
  obtain ⟨A, out, new, slope, fs, σ, hA, hp, hvs, hn, hres, -, -, hσ, hF⟩ :=
    C62_points rt a P hh hu h3 hv hleft hlong hsep hbl hap fuel hf
  obtain ⟨out', new', fs', sk, hp', hvs', hres', -, -, -, hfl, -, hsum, -⟩ :=
    C84_points rt a P hh hu h3 hv hleft hlong hsep hbl hap fuel hf
  obtain rfl : out = out' := Option.some.inj (hp.symm.trans hp')
  obtain rfl : new = new' := List.append_cancel_left (hvs.symm.trans hvs')
  obtain rfl : fs = fs' := by
    have := hres.symm.trans hres'
    simpa using this
  obtain ⟨-, out', new', -, -, hp', hvs', hnd, hnodes, -⟩ :=
    C67_nodes rt a P hh hu h3 hv hleft hlong hsep hbl hap fuel hf
  obtain rfl : out = out' := Option.some.inj (hp.symm.trans hp')
  obtain rfl : new = new' := List.append_cancel_left (hvs.symm.trans hvs')
  obtain ⟨gs, hG, hgs⟩ := List.perm_comp_forall₂ hσ.symm hF
  have hgl : gs.length = a.num := by rw [← hG.length_eq, List.length_range]
  have hface : ∀ k, k < a.num → ∃ f e, gs[k]? = some f ∧ (sides a.first a.num P)[k]? = some e ∧
      RoofFace a (sides a.first a.num P) e A.z slope out.verts k f := by
    intro k hk
    obtain ⟨e, he, hr⟩ := (List.forall₂_iff_get.1 hG).2 k (by simpa using hk) (by omega)
    simp only [List.get_eq_getElem, List.getElem_range] at he hr
    exact ⟨_, e, List.getElem?_eq_getElem (by omega), he, hr⟩
  choose! F E hFk hEk hR using hface
  have hv' : ∀ k, k < a.num → ∃ B, out.verts[a.first + k]? = some B ∧ B.xy = P k := by
    intro k hk
    obtain ⟨B, hB, hBP⟩ := hv k hk
    exact ⟨B, by rw [hvs, List.getElem?_append_left (List.getElem?_eq_some_iff.1 hB).1, hB], hBP⟩
  -- the new vertices of a face
  have hnewv : ∀ k, k < a.num → ∀ v ∈ (F k).drop 2, (a.verts.length : Int) ≤ v ∧ v < a.verts.length + new.length := by
    intro k hk v hvm
    obtain ⟨i, hi⟩ := List.mem_iff_getElem?.1 hvm
    rw [List.getElem?_drop] at hi
    refine ⟨((hR k hk).plane (2 + i) v (by omega) hi).1, ?_⟩
    have := ((hR k hk).index v (List.mem_of_mem_drop hvm)).2
    rw [hvs, List.length_append] at this
    push_cast at this
    exact this
  -- a new vertex is known by its place
  have hinj : ∀ v w : Int, ∀ V W, (a.verts.length : Int) ≤ v → (a.verts.length : Int) ≤ w →
      out.verts[v.toNat]? = some V → out.verts[w.toNat]? = some W → V.xy = W.xy → v = w := by
    intro v w V W h1 h2 h5 h6 h7
    rw [hvs, List.getElem?_append_right (by omega)] at h5 h6
    have e1 : (new.map V3.xy)[v.toNat - a.verts.length]? = some V.xy := by rw [List.getElem?_map, h5]; rfl
    have e2 : (new.map V3.xy)[w.toNat - a.verts.length]? = some V.xy := by rw [List.getElem?_map, h6, h7]; rfl
    obtain ⟨b1, b2⟩ := List.getElem?_eq_some_iff.1 e1
    obtain ⟨c1, c2⟩ := List.getElem?_eq_some_iff.1 e2
    have := (hnd.getElem_inj_iff).1 (b2.trans c2.symm)
    omega
  have hlsum : ∑ k ∈ Finset.range a.num, (F k).length + 2 = 3 * a.num + 2 * new.length := by
    have e1 : gs = (List.range a.num).map F := by
      refine List.ext_getElem? fun k => ?_
      by_cases hk : k < a.num
      · rw [hFk k hk, List.getElem?_map, List.getElem?_range hk]; rfl
      · rw [List.getElem?_eq_none (by omega), List.getElem?_eq_none (by simp; omega)]
    have e2 := (hgs.map List.length).sum_eq
    rw [e1, List.map_map] at e2
    rw [← hsum, ← e2]
    rfl
  have hfs : ∀ k, k < a.num → F k ∈ fs := fun k hk => hgs.mem_iff.1 (List.mem_of_getElem? (hFk k hk))
  refine ⟨out, new, fs, hp, hvs, hres, hfl, ?_, ?_⟩
  · intro h1 f hf
    obtain ⟨k, hk⟩ := List.mem_iff_getElem?.1 (hgs.mem_iff.2 hf)
    have hkn : k < a.num := by rw [← hgl]; exact (List.getElem?_eq_some_iff.1 hk).1
    rw [hFk k hkn] at hk
    cases hk
    have hd : ((F k).drop 2).Nodup := ((List.drop_sublist _ _).nodup (hR k hkn).nodup)
    have hsz := (hR k hkn).size
    by_contra hcon
    have hl : ((F k).drop 2).length = (F k).length - 2 := List.length_drop ..
    have i0 : 0 < ((F k).drop 2).length := by omega
    have i1 : 1 < ((F k).drop 2).length := by omega
    have := hnewv k hkn _ (List.getElem_mem i0)
    have := hnewv k hkn _ (List.getElem_mem i1)
    have := (hd.getElem_inj_iff (hi := i0) (hj := i1)).1 (by omega)
    omega
  · intro h1
    have he := two_ears a.num new.length
      (fun k => ((F k).drop 2).map (fun v : Int => (v - (a.verts.length : Int)).toNat)) (by omega) ?_ ?_ ?_ ?_ ?_ ?_
    · obtain ⟨k, hk, l, hl, v, w, hvw, ek, el⟩ := he
      have tri : ∀ k v, ((F k).drop 2).map (fun v : Int => (v - (a.verts.length : Int)).toNat) = [v] → (F k).length = 3 ∧
          ∃ x : Int, (F k)[2]? = some x ∧ (x - (a.verts.length : Int)).toNat = v := by
        intro k v h
        have hl := congrArg List.length h
        rw [List.length_map, List.length_drop, List.length_singleton] at hl
        refine ⟨by omega, (F k)[2]'(by omega), List.getElem?_eq_getElem _, ?_⟩
        have := congrArg (·[0]?) h
        simpa [List.getElem?_drop, List.getElem?_eq_getElem (show 2 < (F k).length by omega)] using this
      obtain ⟨t1, x, x1, x2⟩ := tri k v ek
      obtain ⟨t2, y, y1, y2⟩ := tri l w el
      refine ⟨F k, hfs k hk, F l, hfs l hl, t1, t2, fun h => hvw ?_⟩
      rw [x1, y1] at h
      cases h
      exact x2.symm.trans y2
    · intro k hk h
      have := congrArg List.length h
      have hsz := (hR k hk).size
      simp at this
      omega
    · intro k hk
      refine List.Nodup.map_on ?_ ((List.drop_sublist _ _).nodup (hR k hk).nodup)
      intro x hx y hy hxy
      have := hnewv k hk x hx
      have := hnewv k hk y hy
      omega
    · intro k hk v hvm
      obtain ⟨x, hx, rfl⟩ := List.mem_map.1 hvm
      have := hnewv k hk x hx
      omega
    · have : ∑ k ∈ Finset.range a.num, (F k).length =
          ∑ k ∈ Finset.range a.num, (((F k).drop 2).map (fun v : Int => (v - (a.verts.length : Int)).toNat)).length + a.num * 2 := by
        rw [← smul_eq_mul, ← Finset.card_range a.num, ← Finset.sum_const, Finset.card_range, ← Finset.sum_add_distrib]
        refine Finset.sum_congr rfl fun k hk => ?_
        have := (hR k (Finset.mem_range.1 hk)).size
        rw [List.length_map, List.length_drop]
        omega
      omega
    · intro k hk
      have hk' : (k + 1) % a.num < a.num := Nat.mod_lt _ (by omega)
      have hkk : (k + 1) % a.num ≠ k := by
        by_cases h : k + 1 < a.num
        · rw [Nat.mod_eq_of_lt h]; omega
        · rw [show k + 1 = a.num by omega, Nat.mod_self]; omega
      obtain ⟨e', he', q1, q2⟩ := sides_get (first := a.first) (P := P) hk
      rw [hEk k hk] at he'
      cases he'
      obtain ⟨e', he', r1, r2⟩ := sides_get (first := a.first) (P := P) hk'
      rw [hEk _ hk'] at he'
      cases he'
      obtain ⟨V, hV, hVP⟩ := hv' k hk
      obtain ⟨W, hW, hWP⟩ := hv' ((k + 1) % a.num) hk'
      obtain ⟨U, hU, hUP⟩ := hv' (((k + 1) % a.num + 1) % a.num) (Nat.mod_lt _ (by omega))
      obtain ⟨Q, hQ, hQv⟩ := (hR k hk).ring hV hW (hVP.trans q1.symm) (hWP.trans q2.symm)
      obtain ⟨R, hRR, hRv⟩ := (hR _ hk').ring hW hU (hWP.trans r1.symm) (hUP.trans r2.symm)
      have m1 := List.mem_of_getElem? (hEk k hk)
      have m2 := List.mem_of_getElem? (hEk _ hk')
      have hne : E ((k + 1) % a.num) ≠ E k := by
        intro h
        obtain ⟨b1, b2⟩ := List.getElem?_eq_some_iff.1 (hEk k hk)
        obtain ⟨c1, c2⟩ := List.getElem?_eq_some_iff.1 (hEk _ hk')
        have := congrArg Edge2.oid ((c2.trans h).trans b2.symm)
        simp [sides] at this
        exact hkk this
      have hpr := hQ.pair (hc.along _ m1) (hc.along _ m2) hRR (fun h => hne (hc.norm_inj m2 m1 h)) (q2.trans r1.symm) (by
        intro g hg hg0
        obtain ⟨j, hj⟩ := List.mem_iff_getElem?.1 hg
        have hjn : j < a.num := by simpa [sides] using (List.getElem?_eq_some_iff.1 hj).1
        rw [sides_height hj, q2] at hg0
        by_cases c1 : (k + 1) % a.num = j
        · right
          rw [← c1, hEk _ hk'] at hj
          exact (Option.some.inj hj).symm
        by_cases c2 : (k + 1) % a.num = (j + 1) % a.num
        · left
          have : k = j := by
            have e1 : ∀ i, i < a.num → (i + 1) % a.num = if i + 1 = a.num then 0 else i + 1 := by
              intro i hi
              split
              · next h => rw [h, Nat.mod_self]
              · next h => exact Nat.mod_eq_of_lt (by omega)
            rw [e1 k hk, e1 j hjn] at c2
            split at c2 <;> split at c2 <;> omega
          rw [← this, hEk k hk] at hj
          exact (Option.some.inj hj).symm
        exfalso
        have hpos : 0 < eucl (P j) (P ((j + 1) % a.num)) := by
          refine lt_of_le_of_ne (Real.sqrt_nonneg _) fun h => ?_
          have h1 := hlong j hjn
          rw [show eucl (P j) (P ((j + 1) % a.num)) = 0 from h.symm] at h1
          norm_num at h1
        have := div_pos (hleft j _ hjn hk' c1 c2) hpos
        unfold sideDist at hg0
        linarith)
      have s1 := (hR k hk).size
      have s2 := (hR _ hk').size
      obtain ⟨p, fp, vp⟩ := hQv 2 (by omega)
      obtain ⟨q, fq, vq⟩ := hRv ((F ((k + 1) % a.num)).length - 1) (by omega)
      have hpq : p = q := hinj p q _ _ ((hR k hk).plane 2 p le_rfl fp).1
        ((hR _ hk').plane _ q (by omega) fq).1 vp vq hpr
      rw [List.getLast?_map, List.head?_map, List.getLast?_drop, if_neg (by omega), List.head?_drop, fp, hpq,
        List.getLast?_eq_getElem?, fq]
    · intro v hvs'
      have hvn := List.getElem?_eq_getElem hvs'
      obtain ⟨h, hnode⟩ := (hnodes (new[v]).xy).1 (List.mem_map_of_mem (List.getElem_mem _))
      obtain ⟨e1, m1, e2, m2, e3, m3, n12, n23, n13, p1, p2, p3⟩ := hnode.three
      have hin : ∀ k, k < a.num → ∀ {e2 e3}, e2 ∈ sides a.first a.num P → e3 ∈ sides a.first a.num P →
          E k ≠ e2 → E k ≠ e3 → e2 ≠ e3 → height (E k).p1 (E k).norm (new[v]).xy = h →
          height e2.p1 e2.norm (new[v]).xy = h → height e3.p1 e3.norm (new[v]).xy = h →
          v ∈ ((F k).drop 2).map (fun v : Int => (v - (a.verts.length : Int)).toNat) := by
        intro k hk e2 e3 m2 m3 n12 n13 n23 p1 p2 p3
        obtain ⟨j, p, V, hj, hfp, hvp, hV⟩ :=
          node_on_face hc hv' hk (hEk k hk) (hR k hk) hnode m2 m3 n12 n13 n23 p1 p2 p3
        have hpv : p = ((a.verts.length + v : Nat) : Int) := by
          refine hinj _ _ V new[v] ((hR k hk).plane j p hj hfp).1 (by push_cast; omega) hvp ?_ hV
          rw [Int.toNat_natCast, hvs, List.getElem?_append_right (by omega), Nat.add_sub_cancel_left]
          exact hvn
        refine List.mem_map.2 ⟨p, List.mem_of_getElem? (i := j - 2) ?_, by rw [hpv]; push_cast; omega⟩
        rw [List.getElem?_drop, show 2 + (j - 2) = j by omega]
        exact hfp
      have hidx : ∀ e ∈ sides a.first a.num P, ∃ k, k < a.num ∧ E k = e := by
        intro e he
        obtain ⟨j, hj⟩ := List.mem_iff_getElem?.1 he
        have hjn : j < a.num := by simpa [sides] using (List.getElem?_eq_some_iff.1 hj).1
        rw [hEk j hjn] at hj
        exact ⟨j, hjn, Option.some.inj hj⟩
      obtain ⟨k1, l1, rfl⟩ := hidx e1 m1
      obtain ⟨k2, l2, rfl⟩ := hidx e2 m2
      obtain ⟨k3, l3, rfl⟩ := hidx e3 m3
      have i1 := hin k1 l1 m2 m3 n12 n13 n23 p1 p2 p3
      have i2 := hin k2 l2 m1 m3 (Ne.symm n12) n23 n13 p2 p1 p3
      have i3 := hin k3 l3 m1 m2 (Ne.symm n13) (Ne.symm n23) n12 p3 p1 p2
      have hcard : ({k1, k2, k3} : Finset Nat).card = 3 := Finset.card_eq_three.2
        ⟨k1, k2, k3, fun h => n12 (h ▸ rfl), fun h => n13 (h ▸ rfl), fun h => n23 (h ▸ rfl), rfl⟩
      rw [← hcard]
      refine Finset.card_le_card fun k hk => ?_
      simp only [Finset.mem_insert, Finset.mem_singleton] at hk
      rw [Finset.mem_filter, Finset.mem_range]
      rcases hk with rfl | rfl | rfl
      · exact ⟨l1, i1⟩
      · exact ⟨l2, i2⟩
      · exact ⟨l3, i3⟩

/-- the roof over a rectangle has two triangles with different tips -/
example (rt : Rt) : ∃ out fs, polygonize rt 17 rectArgs = some out ∧ out.result = .ok fs ∧ fs.length = 4 ∧
    ∃ f ∈ fs, ∃ g ∈ fs, f.length = 3 ∧ g.length = 3 ∧ f[2]? ≠ g[2]? := by
  obtain ⟨h1, h2, h3, h4, h5, h6, h7⟩ := rect_meets
  obtain ⟨out, new, fs, hp, hvs, hres, hfl, -, ht⟩ :=
    C88_triangles rt rectArgs rectPoint rfl rfl (by decide) h1 h2 h3 h4 h5 h7 17 (by decide)
  obtain ⟨A, out', new', slope, fs', σ, -, hp', hvs', ⟨-, -, hn⟩, -⟩ := C62_points rt rectArgs rectPoint rfl rfl
    (by simp [rectArgs]) h1 h2 h3 h4 h5 h7 17 (by simp [rectArgs])
  rw [hp] at hp'
  cases hp'
  obtain rfl : new = new' := List.append_cancel_left (hvs.symm.trans hvs')
  have hnew : new.length = 2 := by simpa [rectArgs] using hn h6
  exact ⟨out, fs, hp, hres, hfl, ht (by omega)⟩

end Polyskel
