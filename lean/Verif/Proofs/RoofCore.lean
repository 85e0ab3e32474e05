import Verif.Proofs.RoofCount
import Verif.Props.Bound
import Verif.Spec.RoofFace
/-
`polygonize` on a convex polygon, from the main loop to the faces.  Used for C62.
-/
namespace Polyskel
open Scalar Real Geo Graph

/-- the roof has only one node -/
def OneNode (c : List (Edge2 ℝ)) : Prop := ∀ p h p' h', RoofNode c p h → RoofNode c p' h' → p = p'

/-- in the traced faces no directed edge occurs twice, and an edge with a node at one of its ends occurs in
both directions -/
theorem faces_paired {rt : Rt} {g emb : Graph} (hs : Graph.Simple g) (he : Graph.Embeds emb g) {m : Nat}
    {out : List (List Int)} (ho : Graph.faces rt g emb m = .ok out) :
    (out.flatMap (fun f => f.zip (f.rotate 1))).Nodup ∧
    ∀ d ∈ out.flatMap (fun f => f.zip (f.rotate 1)), (m : Int) ≤ d.1 ∨ (m : Int) ≤ d.2 →
      (d.2, d.1) ∈ out.flatMap (fun f => f.zip (f.rotate 1)) := by
  obtain ⟨fs, hfs, hnd, hmem⟩ := C12_faces_partition rt _ emb hs he
  have hp : (out.flatMap (fun f => f.zip (f.rotate 1))).Perm _ := faces_steps hs he hfs ho
  have hc := C15_face_cycle rt _ emb hs he fs hfs
  have hsub : (fs.filter (fun f => f.any (fun d =>
      decide ((m : Int) ≤ d.1)))).flatten.Sublist fs.flatten :=
    List.filter_sublist.flatten
  refine ⟨hp.nodup_iff.2 (hsub.nodup hnd), ?_⟩
  intro d hd hn
  have hdart := (hmem d).1 (hsub.mem (hp.mem_iff.1 hd))
  have hrev : Graph.HasDart g (d.2, d.1) := hs.symm _ _ hdart
  rw [hp.mem_iff, List.mem_flatten]
  obtain ⟨f, hf, hdf⟩ := List.mem_flatten.1 ((hmem _).2 hrev)
  refine ⟨f, List.mem_filter.2 ⟨hf, ?_⟩, hdf⟩
  rw [List.any_eq_true]
  rcases hn.symm with hn | hn
  · exact ⟨_, hdf, by simpa using hn⟩
  · obtain ⟨i, hi⟩ := List.mem_iff_getElem?.1 hdf
    have hpos : 0 < f.length := List.length_pos_iff.2 (hc f hf).1
    have hm : (i + 1) % f.length < f.length := Nat.mod_lt _ hpos
    have h2 := List.getElem?_eq_getElem hm
    have ht := ((hc f hf).2 i _ _ hi h2).1
    exact ⟨_, List.mem_of_getElem? h2, by rw [ht]; simpa using hn⟩

set_option maxHeartbeats 1000000 in
theorem convex_core_nodes (rt : Rt) (a : PolyArgs ℝ) (z : ℝ) (ctr : V3 ℝ) (c : List (Edge2 ℝ))
    (hb : buildContours a = .ok (z, ctr, [c])) (hc : ConvexPolygon c) (h3 : 3 ≤ c.length)
    (hsep : Separated c) (hbl : Blunt c ∨ OneNode c)
    (hfin : ∀ st out ch, Grown c st out ch [] → out.length + 2 = c.length → (∀ s ∈ out, RoofArc c s) →
      finish [c] out = .ok ((mergeSame [] out).map noLoop)) (fuel : Nat) (hf : 4 * c.length + 1 ≤ fuel) :
    ∃ out sk slope fs σ, polygonize rt fuel a = some out ∧
      out.verts = a.verts ++ sk.map (node3D ctr z slope) ∧
      (1 ≤ sk.length ∧ sk.length + 2 ≤ c.length ∧ (OnlyThree c → sk.length + 2 = c.length)) ∧
      (∀ s ∈ sk, RoofArc c s) ∧ (sk.map (·.source)).Nodup ∧ tanAlpha a.height a.tan sk = .ok slope ∧
      (((fs.flatMap (fun f => f.zip (f.rotate 1))).Nodup ∧
        ∀ d ∈ fs.flatMap (fun f => f.zip (f.rotate 1)), (a.verts.length : Int) ≤ d.1 ∨
          (a.verts.length : Int) ≤ d.2 → (d.2, d.1) ∈ fs.flatMap (fun f => f.zip (f.rotate 1))) ∧
        (out.debug = some sk ∧ (sk.flatMap (·.sinks)).Nodup ∧
          (sk.flatMap (·.sinks)).length + 1 = c.length + sk.length ∧
          ∃ t ∈ sk, ∀ s ∈ sk, s.source ∈ sk.flatMap (·.sinks) ↔ s ≠ t) ∧
        ((fs.flatMap (fun f => f.zip (f.rotate 1))).map (fun d => s(d.1, d.2))).toFinset.card + 1 =
          2 * c.length + sk.length ∧
        (fs.flatMap (fun f => f.zip (f.rotate 1))).length + 2 = 3 * c.length + 2 * sk.length ∧
        fs.flatten.toFinset.card = c.length + sk.length) ∧
      out.result = .ok (a.faces.getD [] ++ fs) ∧
      (a.height = 0 → slope = a.tan) ∧ (0 < a.height → 0 < slope) ∧ σ.Perm (List.range c.length) ∧
      List.Forall₂ (fun k f => ∃ e, c[k]? = some e ∧ RoofFace a (c.map (moveEdge ⟨ctr.x, ctr.y⟩)) (moveEdge ⟨ctr.x, ctr.y⟩ e) z slope out.verts k f) σ fs := by
  obtain ⟨lp0, lp, hs, hm, -⟩ := C27_loop c (convexContour_of_polygon h3 hc) h3
  have h0 := startLoop_sweep hc h3 hs
  rcases mainLoop_sweep hc.proper _ lp0 h0 (inOrder_separated hc.proper hsep _ _ h0) with hn | ⟨lp', hm', hr, he⟩
  · rw [hn] at hm; cases hm
  rw [hm] at hm'
  simp only [Option.some.injEq, Except.ok.injEq] at hm'
  subst hm'
  obtain ⟨-, hl, ch, hg⟩ := hr.finish he
  obtain ⟨sk, L, R, ch', hskd, hk1, hk2, hnode, ht, hinj, hsink⟩ := hg.roof hl h3 hc hr.arcs
  have htop := hg.one_top hl h3
  rw [← hskd] at htop
  obtain ⟨hchl, harcs⟩ := ht.arcs hinj hsink htop
  have hkl : OnlyThree c → sk.length + 2 = c.length := by
    intro ho
    have hi := hg.inj hl h3 hc hr.arcs ho
    rw [hskd, List.length_map, mergeSame_id, List.nil_append, hl]
    rw [List.nil_append, List.Nodup, List.pairwise_map, List.pairwise_iff_getElem]
    intro i j hi' hj' hij e
    have := hi (c.length + i) (c.length + j) (by omega) (by omega)
      (by rw [posOf_node (List.getElem?_eq_getElem hi'), posOf_node (List.getElem?_eq_getElem hj'), e])
    omega
  have hsk : skeletonize fuel [c] = some (.ok sk) := by
    apply C61_skeletonize _ _ _ _ _ hf
    unfold skeletonize
    rw [hs]
    simp only [hm]
    rw [hfin _ _ _ hg hl hr.arcs, hskd]
  obtain ⟨-, hn, hnum, hcz, ⟨v0, hv0, hz0⟩, hverts⟩ := single_contour hb
  -- the pitch
  obtain ⟨ta, hta, hta0, hta1⟩ : ∃ ta, tanAlpha a.height a.tan sk = .ok ta ∧
      (a.height = 0 → ta = a.tan) ∧ (0 < a.height → 0 < ta) := by
    unfold tanAlpha
    by_cases hh : a.height = 0
    · refine ⟨a.tan, ?_, fun _ => rfl, fun h => by linarith⟩
      rw [if_pos (by simp [hh])]
    · obtain ⟨mx, hmx⟩ : ∃ mx, maxHeight sk = .ok mx := by
        cases ho' : sk with
        | nil => rw [ho'] at hk1; simp at hk1
        | cons x xs => exact ⟨_, rfl⟩
      obtain ⟨⟨s, hs, hsm⟩, -⟩ := maxHeight_exact hmx
      have hpos : 0 < mx := hsm ▸ hc.node_pos (hnode s hs).node
      refine ⟨a.height / mx, ?_, fun h => absurd h hh, fun h => div_pos h hpos⟩
      rw [if_neg (by simp [hh]), hmx]
      simp [ok_bind, pydiv, hpos.ne']
  obtain ⟨hP, hN⟩ := placed_of hb hinj ta
  obtain ⟨ds, emb, hds, hG⟩ := roofG_of hb hc ht hsink hinj rt ta
  obtain ⟨fs, hfs, ⟨σ, hσ, hpart⟩, hcount⟩ := hG.faces hN
  have hpair := faces_paired hG.simple hG.embeds hfs
  set verts := a.verts ++ sk.map (node3D ctr z ta) with hvdef
  set gi := numOf a.first c.length a.verts.length with hgi
  set pos := posOf c sk with hpos
  -- the vertices of a face
  have hget : ∀ k, k < c.length + sk.length → ∃ V, pyGet verts (gi k) = .ok V ∧ 0 ≤ gi k ∧
      gi k < verts.length ∧ verts[(gi k).toNat]? = some V ∧ V.x = (pos k).x + ctr.x ∧
      V.y = (pos k).y + ctr.y := by
    intro k hk
    obtain ⟨V, h1, h2, h3⟩ := hP.get k hk
    have h0 : ∃ i : Nat, gi k = (i : Int) := by
      rw [hgi]; unfold numOf; split <;> exact ⟨_, rfl⟩
    obtain ⟨i, hi⟩ := h0
    rw [hi] at h1 ⊢
    have h4 := pyGet_nat_ok.1 h1
    exact ⟨V, h1, by omega, by have := (List.getElem?_eq_some_iff.1 h4).1; omega, by simpa using h4, h2, h3⟩
  have hface : ∀ f ∈ fs, ∃ k us, k ∈ σ ∧ f = us.map gi ∧ IsPart c sk.length pos (hhOf c sk) k us := by
    intro f hf
    obtain ⟨k, hk, us, h1, h2⟩ := forall₂_mem_right hpart hf
    exact ⟨k, us, hk, h1, h2⟩
  -- the corners of a face are the ends of its edge
  have hcorner : ∀ (us : List Nat) k, IsPart c sk.length pos (hhOf c sk) k us → ∀ u ∈ us,
      u < c.length → u = k ∨ u = nextIdx c.length k := by
    intro us k hu u hum hlt
    have hk := hu.lt
    have hnl := nextIdx_lt' hk
    have h1 := hu.plane u hum _ (List.getElem?_eq_getElem hk)
    rw [hhOf_corner hlt, hpos, posOf_corner hlt] at h1
    rcases (hc.corner_nonneg (List.getElem_mem hk) (List.getElem_mem hlt)).2 h1 with h2 | h2
    · exact .inl (hinj u k (by omega) (by omega) (by rw [hpos, posOf_corner hlt, posOf_corner hk, h2]))
    · have hnext : c[k].p2 = (c[nextIdx c.length k]).p1 := by
        by_cases hlast : k + 1 = c.length
        · have := hc.last (by omega)
          have e1 : c.length - 1 = k := by omega
          simp only [e1] at this
          rw [this]
          simp [nextIdx, hlast]
        · rw [hc.ring k (by omega)]
          simp [nextIdx, hlast]
      exact .inr (hinj u _ (by omega) (by omega)
        (by rw [hpos, posOf_corner hlt, posOf_corner hnl, h2, hnext]))
  -- three vertices in a row
  have htriple : ∀ (us : List Nat) k, IsPart c sk.length pos (hhOf c sk) k us → ∀ (i : Nat) p t x,
      (us.map gi)[i]? = some p → (us.map gi)[(i + 1) % us.length]? = some t →
      (us.map gi)[(i + 2) % us.length]? = some x → ∃ u v w, us[i]? = some u ∧ p = gi u ∧ t = gi v ∧ x = gi w ∧
        u < c.length + sk.length ∧ v < c.length + sk.length ∧ w < c.length + sk.length ∧
        0 < turn pos u v w ∧ (3 < us.length → NotBack pos u v w) := by
    intro us k hu i p t x e1 e2 e3
    rw [List.getElem?_map, Option.map_eq_some_iff] at e1 e2 e3
    obtain ⟨u, e1, rfl⟩ := e1
    obtain ⟨v, e2, rfl⟩ := e2
    obtain ⟨w, e3, rfl⟩ := e3
    obtain ⟨l1, l2⟩ := hu.left i u v w e1 e2 e3
    refine ⟨u, v, w, e1, rfl, rfl, rfl, hu.vert _ (List.mem_of_getElem? e1), hu.vert _ (List.mem_of_getElem? e2),
      hu.vert _ (List.mem_of_getElem? e3), l1, fun hlen => ?_⟩
    rcases hbl with hbl | hbl
    · exact l2 hbl
    · exfalso
      -- the faces are triangles
      have hk := hu.lt
      have hsk1 : sk.length = 1 := by
        by_contra hcon
        have l0 : 0 < sk.length := by omega
        have l1 : 1 < sk.length := by omega
        have he := hbl _ _ _ _ (hnode _ (List.getElem_mem l0)).node (hnode _ (List.getElem_mem l1)).node
        rw [← posOf_node (c := c) (List.getElem?_eq_getElem l0),
          ← posOf_node (c := c) (List.getElem?_eq_getElem l1)] at he
        have := hinj _ _ (by omega) (by omega) he
        omega
      have hsub : us ⊆ [k, nextIdx c.length k, c.length] := by
        intro u hum
        have hlt := hu.vert u hum
        by_cases hcor : u < c.length
        · rcases hcorner us k hu u hum hcor with h | h <;> simp [h]
        · have : u = c.length := by omega
          simp [this]
      have := (List.subperm_of_subset hu.nodup hsub).length_le
      simp at this
      omega
  have hspikes : removeSpikes verts a.verts.length fs = .ok fs := by
    apply removeSpikes_id
    intro f hf hlen i p t x ht
    obtain ⟨k, us, -, rfl, hu⟩ := hface f hf
    simp only [TripleAt, List.length_map] at ht hlen
    have hi : i < us.length := by
      have := (List.getElem?_eq_some_iff.1 ht.2.1).1
      simpa using this
    obtain ⟨u, v, w, -, rfl, rfl, rfl, lu, lv, lw, -, hnb⟩ := htriple us k hu ((i + us.length - 1) % us.length)
      p t x ht.1 (by
        rw [Nat.mod_add_mod, show i + us.length - 1 + 1 = i + us.length by omega, Nat.add_mod_right,
          Nat.mod_eq_of_lt hi]
        exact ht.2.1) (by
        rw [Nat.mod_add_mod, show i + us.length - 1 + 2 = i + 1 + us.length by omega, Nat.add_mod_right]
        exact ht.2.2)
    obtain ⟨P, hp1, -, -, -, px, py⟩ := hget u lu
    obtain ⟨T, ht1, -, -, -, tx, ty⟩ := hget v lv
    obtain ⟨X, hx1, -, -, -, xx, xy⟩ := hget w lw
    obtain ⟨b, hb1, hb2⟩ := C39_isSpike_iff verts _ _ _ P T X hp1 ht1 hx1
    rw [hb1]
    cases b with
    | false => rfl
    | true =>
      exfalso
      obtain ⟨-, -, hlt, -⟩ := hb2.1 rfl
      have hd := dot_of_notBack (hnb hlen)
      have e1 : eucl P.xy T.xy = eucl (pos v) (pos u) := by
        simp only [eucl, V3.xy, px, py, tx, ty]
        congr 1; ring
      have e2 : eucl X.xy T.xy = eucl (pos v) (pos w) := by
        simp only [eucl, V3.xy, xx, xy, tx, ty]
        congr 1; ring
      rw [e1, e2, px, py, tx, ty, xx, xy] at hlt
      have : ((pos u).x + ctr.x - ((pos v).x + ctr.x)) * ((pos w).x + ctr.x - ((pos v).x + ctr.x)) +
          ((pos u).y + ctr.y - ((pos v).y + ctr.y)) * ((pos w).y + ctr.y - ((pos v).y + ctr.y)) =
          ((pos u).x - (pos v).x) * ((pos w).x - (pos v).x) +
            ((pos u).y - (pos v).y) * ((pos w).y - (pos v).y) := by ring
      rw [this] at hlt
      linarith
  have hclean : cleanFaces verts a.verts.length fs = .ok fs := by
    apply cleanFaces_id
    · intro f hf v hv
      obtain ⟨k, us, -, rfl, hu⟩ := hface f hf
      obtain ⟨u, hu', rfl⟩ := List.mem_map.1 hv
      obtain ⟨V, h1, -⟩ := hget u (hu.vert u hu')
      exact ⟨V, h1⟩
    · intro f hf
      obtain ⟨k, us, -, rfl, hu⟩ := hface f hf
      exact hu.nodup.map_on (fun x hx y hy hxy => hP.num x y (hu.vert x hx) (hu.vert y hy) hxy)
    · intro f hf
      obtain ⟨k, us, -, rfl, hu⟩ := hface f hf
      have := hu.len
      simp only [List.length_map]
      omega
    · intro f hf v hv hge
      obtain ⟨k, us, -, rfl, hu⟩ := hface f hf
      obtain ⟨u, hu', rfl⟩ := List.mem_map.1 hv
      have hlt := hu.vert u hu'
      apply hcount u _ hlt
      by_contra hcon
      have := (hN u hlt).2 (by omega)
      omega
  have hfaces : facesOf rt a [c].flatten sk verts = .ok fs := by
    unfold facesOf
    simp only [List.flatten_cons, List.flatten_nil, List.append_nil]
    rw [hds, ok_bind, hG.emb, ok_bind, hfs, ok_bind, hspikes, ok_bind, hclean]
  -- the faces
  have hF : List.Forall₂ (fun k f => ∃ e, c[k]? = some e ∧ RoofFace a (c.map (moveEdge ⟨ctr.x, ctr.y⟩)) (moveEdge ⟨ctr.x, ctr.y⟩ e) z ta
      verts k f) σ fs := by
    refine hpart.imp ?_
    rintro k f ⟨us, rfl, hu⟩
    have hk := hu.lt
    refine ⟨c[k], List.getElem?_eq_getElem hk, ?_⟩
    have hplane : ∀ u ∈ us, hgt c[k] (pos u) = hhOf c sk u :=
      fun u hu' => hu.plane u hu' _ (List.getElem?_eq_getElem hk)
    have hshift : ∀ (g : Edge2 ℝ) (u : Nat) (V : V3 ℝ), V.x = (pos u).x + ctr.x → V.y = (pos u).y + ctr.y →
        height (moveEdge ⟨ctr.x, ctr.y⟩ g).p1 (moveEdge ⟨ctr.x, ctr.y⟩ g).norm V.xy = hgt g (pos u) := by
      intro g u V hx hy
      simp only [height, moveEdge, V3.xy, hgt, hx, hy]
      ring
    -- the vertex found at an index
    have hfound : ∀ u ∈ us, ∀ V, verts[(gi u).toNat]? = some V →
        V.x = (pos u).x + ctr.x ∧ V.y = (pos u).y + ctr.y := by
      intro u hu' V hV
      obtain ⟨V', -, -, -, h4, h5, h6⟩ := hget u (hu.vert u hu')
      rw [hV] at h4
      cases h4
      exact ⟨h5, h6⟩
    have hsecond : nextIdx c.length k = (k + 1) % a.num := by
      rw [← hnum]
      unfold nextIdx
      split
      · rename_i hh; rw [hh, Nat.mod_self]
      · rw [Nat.mod_eq_of_lt (by omega)]
    have hnl := nextIdx_lt' hk
    refine ⟨?_, ?_, by simpa using hu.len, ?_, ?_, ?_, ?_, ?_, ?_⟩
    · rw [List.getElem?_map, hu.first, Option.map_some, hgi, numOf_corner hk]
    · rw [List.getElem?_map, hu.second, Option.map_some, hgi, numOf_corner hnl, hsecond]
    · exact hu.nodup.map_on (fun x hx y hy hxy => hP.num x y (hu.vert x hx) (hu.vert y hy) hxy)
    · intro v hv
      obtain ⟨u, hu', rfl⟩ := List.mem_map.1 hv
      obtain ⟨V, -, h2, h3, -⟩ := hget u (hu.vert u hu')
      exact ⟨h2, h3⟩
    · intro i v hi hv
      rw [List.getElem?_map, Option.map_eq_some_iff] at hv
      obtain ⟨u, hui, rfl⟩ := hv
      have hum := List.mem_of_getElem? hui
      -- it is a node
      have hnod : c.length ≤ u := by
        by_contra hcon
        have hlt : u < c.length := by omega
        have hidx : ∀ (j : Nat), us[j]? = some u → j = i := by
          intro j hj
          obtain ⟨hj1, hj2⟩ := List.getElem?_eq_some_iff.1 hj
          obtain ⟨hi1, hi2⟩ := List.getElem?_eq_some_iff.1 hui
          exact (hu.nodup.getElem_inj_iff).1 (hj2.trans hi2.symm)
        rcases hcorner us k hu u hum hlt with h2 | h2
        · have := hidx 0 (by rw [hu.first, h2])
          omega
        · have := hidx 1 (by rw [hu.second, h2])
          omega
      obtain ⟨j, rfl⟩ : ∃ j, u = c.length + j := ⟨u - c.length, by omega⟩
      have hj : j < sk.length := by have := hu.vert _ hum; omega
      have hgj := List.getElem?_eq_getElem hj
      refine ⟨by rw [hgi, numOf_node]; omega, ?_⟩
      intro V hV
      have hV' : V = node3D ctr z ta sk[j] := by
        rw [hgi, numOf_node, Int.toNat_natCast, hvdef, List.getElem?_append_right (by omega)] at hV
        simp [hgj] at hV
        exact hV.symm
      obtain ⟨vx, vy⟩ := hfound _ hum V hV
      rw [hshift _ _ _ vx vy, hplane _ hum, hhOf_node hgj]
      refine ⟨hc.node_pos (hnode _ (List.getElem_mem hj)).node, ?_⟩
      rw [hV']
      simp [node3D, V3.add, mkV3, hcz]
      ring
    · intro v hv V hV g' hgm'
      obtain ⟨g, hgm, rfl⟩ := List.mem_map.1 hgm'
      obtain ⟨u, hum, rfl⟩ := List.mem_map.1 hv
      obtain ⟨vx, vy⟩ := hfound u hum V hV
      rw [hshift _ _ _ vx vy, hshift _ _ _ vx vy, hplane u hum]
      by_cases hlt : u < c.length
      · rw [hhOf_corner hlt, hpos, posOf_corner hlt]
        exact (hc.corner_nonneg hgm (List.getElem_mem hlt)).1
      · obtain ⟨j, rfl⟩ : ∃ j, u = c.length + j := ⟨u - c.length, by omega⟩
        have hj : j < sk.length := by have := hu.vert _ hum; omega
        have hgj := List.getElem?_eq_getElem hj
        rw [hhOf_node hgj, hpos, posOf_node hgj]
        exact (hnode _ (List.getElem_mem hj)).node.least g hgm
    · intro i p t x P T X hp ht hx hP' hT hX
      simp only [List.length_map] at ht hx
      obtain ⟨u, v, w, hui, rfl, rfl, rfl, lu, lv, lw, hturn, -⟩ := htriple us k hu i p t x hp ht hx
      obtain ⟨P', -, -, -, a4, a5, a6⟩ := hget u lu
      obtain ⟨T', -, -, -, b4, b5, b6⟩ := hget v lv
      obtain ⟨X', -, -, -, c4, c5, c6⟩ := hget w lw
      rw [hP'] at a4
      rw [hT] at b4
      rw [hX] at c4
      cases a4
      cases b4
      cases c4
      simp only [area2, V3.xy, a5, a6, b5, b6, c5, c6]
      unfold turn at hturn
      nlinarith
    · intro i p t P T hi hp ht hP' hT
      rw [List.getElem?_map, Option.map_eq_some_iff] at hp
      rw [List.length_map, List.getElem?_map, Option.map_eq_some_iff] at ht
      obtain ⟨u, hui, rfl⟩ := hp
      obtain ⟨v, hvi, rfl⟩ := ht
      have hum := List.mem_of_getElem? hui
      have hvm := List.mem_of_getElem? hvi
      obtain ⟨px, py⟩ := hfound u hum P hP'
      obtain ⟨tx, ty⟩ := hfound v hvm T hT
      obtain ⟨g, hg, hne, g1, g2⟩ := hu.ridge i u v hi hui hvi _ (List.getElem?_eq_getElem hk)
      refine ⟨moveEdge ⟨ctr.x, ctr.y⟩ g, List.mem_map_of_mem hg, hne, ?_, ?_⟩
      · rw [hshift _ _ _ px py, hshift _ _ _ px py, hplane u hum, g1]
      · rw [hshift _ _ _ tx ty, hshift _ _ _ tx ty, hplane v hvm, g2]
  have hnd : (sk.map (·.source)).Nodup := by
    rw [List.nodup_iff_injective_getElem]
    intro i j hij
    simp only [List.getElem_map] at hij
    have hi : i.1 < sk.length := by simpa using i.2
    have hj : j.1 < sk.length := by simpa using j.2
    rw [← posOf_node (c := c) (List.getElem?_eq_getElem hi),
      ← posOf_node (c := c) (List.getElem?_eq_getElem hj)] at hij
    have := hinj _ _ (by omega) (by omega) hij
    exact Fin.ext (by omega)
  have hcnt := hG.count hN hfs hσ (by
    refine List.forall₂_iff_get.2 ⟨hF.length_eq, fun i h1 h2 => ?_⟩
    obtain ⟨e, he, hr⟩ := hF.get h1 h2
    have hk : σ.get ⟨i, h1⟩ < c.length := (List.getElem?_eq_some_iff.1 he).1
    have hnl := nextIdx_lt' hk
    have hsecond : nextIdx c.length (σ.get ⟨i, h1⟩) = (σ.get ⟨i, h1⟩ + 1) % a.num := by
      rw [← hnum]
      unfold nextIdx
      split
      · rename_i hh; rw [hh, Nat.mod_self]
      · rw [Nat.mod_eq_of_lt (by omega)]
    refine face_darts hr.size ?_ ?_ ((hN _ (by omega)).2 hk) ((hN _ (by omega)).2 hnl)
      (fun i v hi hv => (hr.plane i v hi hv).1)
    · rw [hr.first, hgi, numOf_corner hk]
    · rw [hr.second, hgi, numOf_corner hnl, hsecond]) hchl
  cases hfc : a.faces with
  | none =>
    refine ⟨⟨verts, none, some sk, .ok fs⟩, sk, ta, fs, σ, ?_, rfl,
      ⟨hk1, hk2, hkl⟩, hnode, hnd, hta, ⟨hpair, ⟨rfl, harcs⟩, hcnt⟩, by simp, hta0, hta1, hσ, hF⟩
    unfold polygonize
    simp only [hb, hsk, hta]
    rw [← hvdef, hfaces, hfc]
  | some old =>
    refine ⟨⟨verts, some (old ++ fs), some sk, .ok (old ++ fs)⟩, sk, ta, fs, σ,
      ?_, rfl, ⟨hk1, hk2, hkl⟩, hnode, hnd, hta, ⟨hpair, ⟨rfl, harcs⟩, hcnt⟩, by simp, hta0, hta1, hσ, hF⟩
    unfold polygonize
    simp only [hb, hsk, hta]
    rw [← hvdef, hfaces, hfc]

theorem convex_core (rt : Rt) (a : PolyArgs ℝ) (z : ℝ) (ctr : V3 ℝ) (c : List (Edge2 ℝ))
    (hb : buildContours a = .ok (z, ctr, [c])) (hc : ConvexPolygon c) (h3 : 3 ≤ c.length)
    (hsep : Separated c) (hbl : Blunt c ∨ OneNode c)
    (hfin : ∀ st out ch, Grown c st out ch [] → out.length + 2 = c.length → (∀ s ∈ out, RoofArc c s) →
      finish [c] out = .ok ((mergeSame [] out).map noLoop)) (fuel : Nat) (hf : 4 * c.length + 1 ≤ fuel) :
    ∃ out new slope fs σ, polygonize rt fuel a = some out ∧ out.verts = a.verts ++ new ∧
      (1 ≤ new.length ∧ new.length + 2 ≤ c.length ∧ (OnlyThree c → new.length + 2 = c.length)) ∧
      out.result = .ok (a.faces.getD [] ++ fs) ∧
      (a.height = 0 → slope = a.tan) ∧ (0 < a.height → 0 < slope) ∧ σ.Perm (List.range c.length) ∧
      List.Forall₂ (fun k f => ∃ e, c[k]? = some e ∧ RoofFace a (c.map (moveEdge ⟨ctr.x, ctr.y⟩)) (moveEdge ⟨ctr.x, ctr.y⟩ e) z slope out.verts k f) σ fs := by
  obtain ⟨out, sk, slope, fs, σ, h1, h2, h4, -, -, -, -, h5⟩ :=
    convex_core_nodes rt a z ctr c hb hc h3 hsep hbl hfin fuel hf
  exact ⟨out, _, slope, fs, σ, h1, h2, by simpa using h4, h5⟩

end Polyskel
