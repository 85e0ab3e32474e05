import Verif.Proofs.RoofUnique
import Verif.Props.RoofCells
/-
C67: the new vertices over a convex polygon are exactly the nodes of the roof.  C38 for convex polygons: the
faces do not depend on the vertex the polygon starts with.
-/
namespace Polyskel
open Scalar Geo

/-- the boundary of a face -/
theorem RoofFace.ring {a : PolyArgs ℝ} {c : List (Edge2 ℝ)} {e : Edge2 ℝ} {z slope : ℝ}
    {verts : List (V3 ℝ)} {k : Nat} {f : List Int} (h : RoofFace a c e z slope verts k f)
    {V W : V3 ℝ} (hV : verts[a.first + k]? = some V) (hW : verts[a.first + (k + 1) % a.num]? = some W)
    (h1 : V.xy = e.p1) (h2 : W.xy = e.p2) :
    ∃ P : Nat → V3 ℝ, CellRing c e f.length (fun i => (P i).xy) ∧
      ∀ i, i < f.length → ∃ p, f[i]? = some p ∧ verts[p.toNat]? = some (P i) := by
  have hsz := h.size
  have hex : ∀ i, i < f.length → ∃ p P, f[i]? = some p ∧ verts[p.toNat]? = some P := by
    intro i hi
    obtain ⟨a1, a2⟩ := h.index _ (List.getElem_mem hi)
    exact ⟨f[i], verts[(f[i]).toNat]'(by omega), List.getElem?_eq_getElem hi, List.getElem?_eq_getElem _⟩
  choose! p P hp hP using hex
  have hmod : ∀ i, i % f.length < f.length := fun i => Nat.mod_lt _ (by omega)
  have p0 : P 0 = V := by
    have a1 := hp 0 (by omega)
    rw [h.first] at a1
    have a2 := hP 0 (by omega)
    rw [← Option.some.inj a1, Int.toNat_natCast, hV] at a2
    exact (Option.some.inj a2).symm
  have p1 : P 1 = W := by
    have a1 := hp 1 (by omega)
    rw [h.second] at a1
    have a2 := hP 1 (by omega)
    rw [← Option.some.inj a1, Int.toNat_natCast, hW] at a2
    exact (Option.some.inj a2).symm
  refine ⟨P, ⟨hsz, ?_, ?_, ?_, ?_, ?_, ?_⟩, fun i hi => ⟨p i, hp i hi, hP i hi⟩⟩
  · intro i hi
    exact h.left i _ _ _ _ _ _ (hp i hi) (hp _ (hmod _)) (hp _ (hmod _)) (hP i hi) (hP _ (hmod _)) (hP _ (hmod _))
  · intro i hi
    exact h.nearest _ (List.mem_of_getElem? (hp i hi)) _ (hP i hi)
  · intro i hi h0
    exact h.ridge i _ _ _ _ h0 (hp i hi) (hp _ (hmod _)) (hP i hi) (hP _ (hmod _))
  · show (P 0).xy = _; rw [p0, h1]
  · show (P 1).xy = _; rw [p1, h2]
  · intro i h2 hi
    exact ((h.plane i _ h2 (hp i hi)).2 _ (hP i hi)).1

/-- C67: the new vertices over a strictly convex polygon are, seen from above, exactly the points from
which three sides have the same distance and no side has a smaller one, each of them once.  They are at
this distance times the pitch above the polygon; the pitch is the given one, or it takes the highest
node to the given height. -/
theorem C67_nodes (rt : Rt) (a : PolyArgs ℝ) (P : Nat → V2 ℝ) (hh : a.holes.getD [] = [])
    (hu : a.units = none) (h3 : 3 ≤ a.num)
    (hv : ∀ k, k < a.num → ∃ A, a.verts[a.first + k]? = some A ∧ A.xy = P k)
    (hleft : ∀ i j, i < a.num → j < a.num → j ≠ i → j ≠ (i + 1) % a.num →
      0 < area2 (P i) (P ((i + 1) % a.num)) (P j))
    (hlong : ∀ k, k < a.num → 1 / 10 ^ 35 < eucl (P k) (P ((k + 1) % a.num)) ^ 2)
    (hsep : Separated (sides a.first a.num P)) (hbl : Blunt (sides a.first a.num P))
    (hap : NodesApart (sides a.first a.num P)) (fuel : Nat)
    (hf : 4 * a.num + 1 ≤ fuel) :
    ∃ A out new t, a.verts[a.first]? = some A ∧ polygonize rt fuel a = some out ∧
      out.verts = a.verts ++ new ∧ (new.map V3.xy).Nodup ∧
      (∀ X, X ∈ new.map V3.xy ↔ ∃ h, RoofNode (sides a.first a.num P) X h) ∧
      (∀ V ∈ new, ∀ h, RoofNode (sides a.first a.num P) V.xy h → V.z = A.z + t * h) ∧
      (a.height = 0 → t = a.tan) ∧
      (a.height ≠ 0 → ∃ V ∈ new, ∃ h, RoofNode (sides a.first a.num P) V.xy h ∧ t * h = a.height ∧
        ∀ X h', RoofNode (sides a.first a.num P) X h' → h' ≤ h) := by
  have hc := sides_convex (first := a.first) h3 hleft
  obtain ⟨A, out, new, slope, fs, σ, hA, hp, hvs, hnew, hres, -, -, hσ, hF⟩ :=
    C62_points rt a P hh hu h3 hv hleft hlong hsep hbl hap fuel hf
  -- every node is a vertex
  have hcomplete : ∀ X h, RoofNode (sides a.first a.num P) X h → ∃ V ∈ new, V.xy = X := by
    intro X h hn
    have hpos := hc.node_pos hn
    obtain ⟨e1, m1, e2, m2, e3, m3, n12, n23, n13, p1, p2, p3⟩ := hn.three
    obtain ⟨k, hk⟩ := List.mem_iff_getElem?.1 m1
    have hkn : k < a.num := by simpa [sides] using (List.getElem?_eq_some_iff.1 hk).1
    obtain ⟨i, hi⟩ := List.mem_iff_getElem?.1 ((hσ.mem_iff).2 (List.mem_range.2 hkn))
    obtain ⟨hi1, hi2⟩ := List.getElem?_eq_some_iff.1 hi
    have hl := hF.length_eq
    obtain ⟨e, he, hr⟩ := (List.forall₂_iff_get.1 hF).2 i hi1 (by omega)
    simp only [List.get_eq_getElem, hi2] at he hr
    rw [hk] at he
    cases he
    obtain ⟨e', he', q1, q2⟩ := sides_get (first := a.first) (P := P) hkn
    rw [hk] at he'
    cases he'
    have hget : ∀ k, k < a.num → ∃ B, out.verts[a.first + k]? = some B ∧ B.xy = P k := by
      intro k hk
      obtain ⟨B, hB, hBP⟩ := hv k hk
      exact ⟨B, by rw [hvs, List.getElem?_append_left (List.getElem?_eq_some_iff.1 hB).1, hB], hBP⟩
    obtain ⟨V, hV, hVP⟩ := hget k hkn
    obtain ⟨W, hW, hWP⟩ := hget ((k + 1) % a.num) (Nat.mod_lt _ (by omega))
    obtain ⟨Q, hQ, hQv⟩ := hr.ring hV hW (hVP.trans q1.symm) (hWP.trans q2.symm)
    have hne : ∀ {e f}, e ∈ sides a.first a.num P → f ∈ sides a.first a.num P → e ≠ f → e.norm ≠ f.norm :=
      fun he hf hn hn' => hn (hc.norm_inj he hf hn')
    obtain ⟨j, hj, hjX⟩ := hQ.corner (hc.along _ m1) (hc.unit _ m1) (by rw [p1]; exact hpos.le)
      (fun g hg => by rw [p1]; exact hn.least g hg) m2 m3 (hc.unit _ m2) (hc.unit _ m3)
      (hne m2 m1 (Ne.symm n12)) (hne m3 m1 (Ne.symm n13)) (hne m2 m3 n23) (p2.trans p1.symm)
      (p3.trans p1.symm)
    have hj2 : 2 ≤ j := by
      by_contra hcon
      have hz : height e1.p1 e1.norm (Q j).xy = 0 := by
        obtain ⟨r, -, r1, r2⟩ := hc.along _ m1
        have : j = 0 ∨ j = 1 := by omega
        rcases this with rfl | rfl
        · rw [show (Q 0).xy = e1.p1 from hQ.first]; simp [height]
        · rw [show (Q 1).xy = e1.p2 from hQ.second]; unfold height; rw [r1, r2]; ring
      rw [show (Q j).xy = X from hjX] at hz
      linarith
    obtain ⟨p, hfp, hvp⟩ := hQv j hj
    have hge := (hr.plane j p hj2 hfp).1
    rw [hvs, List.getElem?_append_right (by omega)] at hvp
    exact ⟨_, List.mem_of_getElem? hvp, hjX⟩
  -- the skeleton
  obtain ⟨A', ctr, hA', hb⟩ := contours_of_points a hh hu (by omega) hv hlong
  rw [hA] at hA'
  cases hA'
  obtain ⟨sk, hsk, -, -, harc, hnd, -⟩ := C62_skeleton _ (hc.move ⟨-ctr.x, -ctr.y⟩)
    (by rw [List.length_map, sides_length]; exact h3) (hsep.move _) (hbl.move _) (hap.move _) fuel
    (by rw [List.length_map, sides_length]; exact hf)
  cases polygonize_ends hp with
  | early e => cases hres
  | noTan => cases hres
  | late => cases hres
  | done z ctr' cs sk' ta fs' hb' hs ht hf' =>
    rw [hb] at hb'
    cases hb'
    rw [hsk] at hs
    cases hs
    have hnew' : new = sk.map (node3D ctr A.z ta) := (List.append_cancel_left hvs).symm
    obtain ⟨v0, outer, holes, -, -, hce, -⟩ := buildContours_ok hb
    obtain ⟨-, -, -, -, hcz⟩ := centerOf_exact hce
    have hxy : ∀ s : Subtree ℝ, (node3D ctr A.z ta s).xy = ⟨s.source.x + ctr.x, s.source.y + ctr.y⟩ := by
      intro s; simp [node3D, V3.add, mkV3, V3.xy]
    have hz : ∀ s : Subtree ℝ, (node3D ctr A.z ta s).z = A.z + ta * s.height := by
      intro s; simp [node3D, V3.add, mkV3, hcz]; ring
    have hnode : ∀ s ∈ sk, RoofNode (sides a.first a.num P) (node3D ctr A.z ta s).xy s.height := by
      intro s hs
      have := (harc s hs).node.move
      rw [hxy]
      simpa using this
    refine ⟨A, _, new, ta, hA, hp, hvs, ?_, ?_, ?_, ?_, ?_⟩
    · rw [hnew', List.map_map]
      have : (V3.xy ∘ node3D ctr A.z ta : Subtree ℝ → V2 ℝ) =
          (fun p : V2 ℝ => (⟨p.x + ctr.x, p.y + ctr.y⟩ : V2 ℝ)) ∘ (·.source) := by
        funext s; exact hxy s
      rw [this, ← List.map_map]
      apply hnd.map
      intro p q hpq
      cases p; cases q
      simpa using hpq
    · intro X
      constructor
      · intro hX
        rw [hnew'] at hX
        obtain ⟨V, hV, rfl⟩ := List.mem_map.1 hX
        obtain ⟨s, hs, rfl⟩ := List.mem_map.1 hV
        exact ⟨_, hnode s hs⟩
      · rintro ⟨h, hn⟩
        obtain ⟨V, hV, rfl⟩ := hcomplete X h hn
        exact List.mem_map_of_mem hV
    · intro V hV h hn
      rw [hnew'] at hV
      obtain ⟨s, hs, rfl⟩ := List.mem_map.1 hV
      rw [hz, (hnode s hs).height_unique hn]
    · intro h0
      rcases tanAlpha_exact ht with ⟨_, h1⟩ | ⟨h1, _⟩
      · exact h1
      · exact absurd h0 h1
    · intro h0
      rcases tanAlpha_exact ht with ⟨h1, _⟩ | ⟨_, s, hs, h1, h2, h3⟩
      · exact absurd h1 h0
      · refine ⟨_, hnew' ▸ List.mem_map_of_mem hs, _, hnode s hs, by rw [h2]; field_simp, ?_⟩
        intro X h' hn
        obtain ⟨V, hV, rfl⟩ := hcomplete X h' hn
        rw [hnew'] at hV
        obtain ⟨s', hs', rfl⟩ := List.mem_map.1 hV
        rw [← (hnode s' hs').height_unique hn]
        exact h3 s' hs'

/-! ### The start -/

/-- the edges of `c'` are those of `c`, numbered differently: `ψ` takes each to the one at the same place -/
structure Renumbered (ψ : Edge2 ℝ → Edge2 ℝ) (c c' : List (Edge2 ℝ)) : Prop where
  mem : ∀ e ∈ c', ψ e ∈ c
  onto : ∀ e ∈ c, ∃ e' ∈ c', ψ e' = e
  inj : ∀ e ∈ c', ∀ f ∈ c', ψ e = ψ f → e = f
  p1 : ∀ e ∈ c', (ψ e).p1 = e.p1
  p2 : ∀ e ∈ c', (ψ e).p2 = e.p2
  norm : ∀ e ∈ c', (ψ e).norm = e.norm

variable {ψ : Edge2 ℝ → Edge2 ℝ} {c c' : List (Edge2 ℝ)}

theorem Renumbered.three (r : Renumbered ψ c c') {p : V2 ℝ} {h : ℝ}
    (hn : ∃ e1 ∈ c', ∃ e2 ∈ c', ∃ e3 ∈ c', e1 ≠ e2 ∧ e2 ≠ e3 ∧ e1 ≠ e3 ∧
      height e1.p1 e1.norm p = h ∧ height e2.p1 e2.norm p = h ∧ height e3.p1 e3.norm p = h) :
    ∃ e1 ∈ c, ∃ e2 ∈ c, ∃ e3 ∈ c, e1 ≠ e2 ∧ e2 ≠ e3 ∧ e1 ≠ e3 ∧
      height e1.p1 e1.norm p = h ∧ height e2.p1 e2.norm p = h ∧ height e3.p1 e3.norm p = h := by
  obtain ⟨e1, m1, e2, m2, e3, m3, n12, n23, n13, p1, p2, p3⟩ := hn
  exact ⟨ψ e1, r.mem _ m1, ψ e2, r.mem _ m2, ψ e3, r.mem _ m3, fun h => n12 (r.inj _ m1 _ m2 h),
    fun h => n23 (r.inj _ m2 _ m3 h), fun h => n13 (r.inj _ m1 _ m3 h),
    by rw [r.p1 _ m1, r.norm _ m1, p1], by rw [r.p1 _ m2, r.norm _ m2, p2],
    by rw [r.p1 _ m3, r.norm _ m3, p3]⟩

theorem Renumbered.node (r : Renumbered ψ c c') {p : V2 ℝ} {h : ℝ} (hn : RoofNode c' p h) : RoofNode c p h := by
  refine ⟨fun e he => ?_, r.three hn.three⟩
  obtain ⟨e', he', rfl⟩ := r.onto e he
  rw [r.p1 _ he', r.norm _ he']
  exact hn.least e' he'

theorem Renumbered.node_iff (r : Renumbered ψ c c') {p : V2 ℝ} {h : ℝ} : RoofNode c' p h ↔ RoofNode c p h := by
  refine ⟨r.node, fun hn => ⟨fun e he => ?_, ?_⟩⟩
  · have := hn.least _ (r.mem e he)
    rwa [r.p1 _ he, r.norm _ he] at this
  · obtain ⟨e1, m1, e2, m2, e3, m3, n12, n23, n13, p1, p2, p3⟩ := hn.three
    obtain ⟨f1, k1, rfl⟩ := r.onto e1 m1
    obtain ⟨f2, k2, rfl⟩ := r.onto e2 m2
    obtain ⟨f3, k3, rfl⟩ := r.onto e3 m3
    rw [r.p1 _ k1, r.norm _ k1] at p1
    rw [r.p1 _ k2, r.norm _ k2] at p2
    rw [r.p1 _ k3, r.norm _ k3] at p3
    exact ⟨f1, k1, f2, k2, f3, k3, fun h => n12 (by rw [h]), fun h => n23 (by rw [h]),
      fun h => n13 (by rw [h]), p1, p2, p3⟩

theorem Renumbered.separated (r : Renumbered ψ c c') (hs : Separated c) : Separated c' := by
  rintro h h' ⟨p, h1⟩ ⟨q, h2⟩ h0 hlt
  exact hs h h' ⟨_, r.three h1⟩ ⟨_, r.three h2⟩ h0 hlt

theorem Renumbered.apart (r : Renumbered ψ c c') (ha : NodesApart c) : NodesApart c' :=
  fun p h p' h' hn hn' hne => ha p h p' h' (r.node hn) (r.node hn') hne

theorem Renumbered.blunt (r : Renumbered ψ c c') (hb : Blunt c) : Blunt c' := by
  refine ⟨fun e he f hf g hg h1 h2 h3 => ?_, fun e he f hf hef => ?_⟩
  · have := hb.1 _ (r.mem e he) _ (r.mem f hf) _ (r.mem g hg) (fun h => h1 (r.inj _ he _ hf h))
      (fun h => h2 (r.inj _ hf _ hg h)) (fun h => h3 (r.inj _ he _ hg h))
    rwa [r.norm _ he, r.norm _ hf, r.norm _ hg] at this
  · have := hb.2 _ (r.mem e he) _ (r.mem f hf) (by rw [r.p2 _ he, r.p1 _ hf, hef])
    rwa [r.norm _ he, r.norm _ hf] at this

theorem Renumbered.ring (r : Renumbered ψ c c') {e : Edge2 ℝ} (he : e ∈ c') {n : Nat} {Q : Nat → V2 ℝ}
    (h : CellRing c' e n Q) : CellRing c (ψ e) n Q := by
  refine ⟨h.size, h.left, ?_, ?_, ?_, ?_, ?_⟩
  · intro i hi g hg
    obtain ⟨g', hg', rfl⟩ := r.onto g hg
    rw [r.p1 _ he, r.norm _ he, r.p1 _ hg', r.norm _ hg']
    exact h.near i hi g' hg'
  · intro i hi h0
    obtain ⟨g, hg, h1, h2, h3⟩ := h.ridge i hi h0
    refine ⟨ψ g, r.mem g hg, ?_⟩
    rw [r.p1 _ he, r.norm _ he, r.p1 _ hg, r.norm _ hg]
    exact ⟨h1, h2, h3⟩
  · rw [r.p1 _ he]; exact h.first
  · rw [r.p2 _ he]; exact h.second
  · intro i h2 hi
    rw [r.p1 _ he, r.norm _ he]
    exact h.inside i h2 hi

/-- moving on by one commutes with starting later -/
theorem rot_succ (n s k : Nat) : ((k + 1) % n + s) % n = ((k + s) % n + 1) % n := by
  rw [Nat.mod_add_mod, Nat.mod_add_mod]
  congr 1
  omega

theorem rot_inj {n s i j : Nat} (hi : i < n) (hj : j < n) (h : (i + s) % n = (j + s) % n) : i = j := by
  have := (Nat.ModEq.add_right_cancel' s (h : i + s ≡ j + s [MOD n]))
  rwa [Nat.ModEq, Nat.mod_eq_of_lt hi, Nat.mod_eq_of_lt hj] at this

theorem rot_onto {n : Nat} (s : Nat) {i : Nat} (hi : i < n) : ∃ j < n, (j + s) % n = i := by
  refine ⟨(i + (n - s % n)) % n, Nat.mod_lt _ (by omega), ?_⟩
  rw [Nat.mod_add_mod, ← Nat.add_mod_mod, show i + (n - s % n) + s % n = i + n by
    have := Nat.mod_lt s (by omega : n > 0); omega, Nat.add_mod_right, Nat.mod_eq_of_lt hi]

/-- the sides of a polygon that starts `s` vertices later -/
theorem sides_renumbered (first first' n s : Nat) (P : Nat → V2 ℝ) :
    ∃ ψ, Renumbered ψ (sides first n P) (sides first' n fun k => P ((k + s) % n)) ∧
      ∀ k e, (sides first' n fun k => P ((k + s) % n))[k]? = some e →
        (sides first n P)[(k + s) % n]? = some (ψ e) := by
  have hget : ∀ (f : Nat) (R : Nat → V2 ℝ) k, k < n → (sides f n R)[k]? = some
      { oid := k, i1 := f + k, i2 := f + (k + 1) % n, p1 := R k, p2 := R ((k + 1) % n),
        norm := ⟨((R ((k + 1) % n)).x - (R k).x) / eucl (R k) (R ((k + 1) % n)),
          ((R ((k + 1) % n)).y - (R k).y) / eucl (R k) (R ((k + 1) % n))⟩ } := by
    intro f R k hk
    simp [sides, hk]
  let ψ : Edge2 ℝ → Edge2 ℝ := fun e => { e with
    oid := (e.oid + s) % n, i1 := first + (e.oid + s) % n, i2 := first + ((e.oid + s) % n + 1) % n }
  have hψ : ∀ k e, (sides first' n fun k => P ((k + s) % n))[k]? = some e →
      (sides first n P)[(k + s) % n]? = some (ψ e) := by
    intro k e he
    have hk : k < n := by simpa [sides] using (List.getElem?_eq_some_iff.1 he).1
    rw [hget _ _ _ hk] at he
    cases he
    rw [hget _ _ _ (Nat.mod_lt _ (by omega))]
    simp only [ψ, rot_succ]
  refine ⟨ψ, ⟨?_, ?_, ?_, fun _ _ => rfl, fun _ _ => rfl, fun _ _ => rfl⟩, hψ⟩
  · intro e he
    obtain ⟨k, hk⟩ := List.mem_iff_getElem?.1 he
    exact List.mem_of_getElem? (hψ k e hk)
  · intro e he
    obtain ⟨k, hk⟩ := List.mem_iff_getElem?.1 he
    have hkn : k < n := by simpa [sides] using (List.getElem?_eq_some_iff.1 hk).1
    obtain ⟨j, hj, hjk⟩ := rot_onto s hkn
    subst hjk
    have h1 := hget first' (fun k => P ((k + s) % n)) j hj
    have h2 := hψ j _ h1
    rw [hk] at h2
    exact ⟨_, List.mem_of_getElem? h1, (Option.some.inj h2).symm⟩
  · intro e he f hf hef
    obtain ⟨k, hk⟩ := List.mem_iff_getElem?.1 he
    obtain ⟨j, hj⟩ := List.mem_iff_getElem?.1 hf
    have hkn : k < n := by simpa [sides] using (List.getElem?_eq_some_iff.1 hk).1
    have hjn : j < n := by simpa [sides] using (List.getElem?_eq_some_iff.1 hj).1
    rw [hget _ _ _ hkn] at hk
    rw [hget _ _ _ hjn] at hj
    cases hk
    cases hj
    have := congrArg Edge2.oid hef
    simp only [ψ] at this
    have := rot_inj hkn hjn this
    subst this
    rfl

/-- the points of a face -/
def facePoints (verts : List (V3 ℝ)) (f : List Int) : List (Option (V3 ℝ)) := f.map (fun v => verts[v.toNat]?)

/-- C38 for convex polygons: when the polygon starts `s` vertices later (in the same list of vertices or
in another one), `polygonize` returns the same faces, as lists of points in space; each starts with the
same side of the polygon.  Only the order of the faces can differ.  (Missing: polygons that are not
strictly convex, or whose nodes are close to each other; for polygons with dormers the property is
false: `C38_refuted`.) -/
theorem C38_convex_partial (rt rt' : Rt) (a a' : PolyArgs ℝ) (P : Nat → V2 ℝ) (s : Nat) (z : ℝ)
    (hh : a.holes.getD [] = []) (hh' : a'.holes.getD [] = []) (hu : a.units = none) (hu' : a'.units = none)
    (h3 : 3 ≤ a.num) (hn : a'.num = a.num)
    (hv : ∀ k, k < a.num → ∃ A, a.verts[a.first + k]? = some A ∧ A.xy = P k ∧ A.z = z)
    (hv' : ∀ k, k < a.num → a'.verts[a'.first + k]? = a.verts[a.first + (k + s) % a.num]?)
    (hheight : a'.height = a.height) (htan : a'.tan = a.tan)
    (hleft : ∀ i j, i < a.num → j < a.num → j ≠ i → j ≠ (i + 1) % a.num →
      0 < area2 (P i) (P ((i + 1) % a.num)) (P j))
    (hlong : ∀ k, k < a.num → 1 / 10 ^ 35 < eucl (P k) (P ((k + 1) % a.num)) ^ 2)
    (hsep : Separated (sides a.first a.num P)) (hbl : Blunt (sides a.first a.num P))
    (hap : NodesApart (sides a.first a.num P)) (fuel fuel' : Nat)
    (hf : 4 * a.num + 1 ≤ fuel) (hf' : 4 * a.num + 1 ≤ fuel') :
    ∃ out out' fs fs', polygonize rt fuel a = some out ∧ polygonize rt' fuel' a' = some out' ∧
      out.result = .ok (a.faces.getD [] ++ fs) ∧ out'.result = .ok (a'.faces.getD [] ++ fs') ∧
      fs.length = a.num ∧
      (fs'.map (facePoints out'.verts)).Perm (fs.map (facePoints out.verts)) := by
  set P' : Nat → V2 ℝ := fun k => P ((k + s) % a.num) with hP'
  have hmod : ∀ k, k % a.num < a.num := fun k => Nat.mod_lt _ (by omega)
  obtain ⟨ψ, hr, hψ⟩ := sides_renumbered a.first a'.first a.num s P
  have hc := sides_convex (first := a.first) h3 hleft
  have hvs : ∀ k, k < a.num → ∃ A, a.verts[a.first + k]? = some A ∧ A.xy = P k := fun k hk => by
    obtain ⟨A, h1, h2, -⟩ := hv k hk; exact ⟨A, h1, h2⟩
  have hvs' : ∀ k, k < a'.num → ∃ A, a'.verts[a'.first + k]? = some A ∧ A.xy = P' k := fun k hk => by
    obtain ⟨A, h1, h2, -⟩ := hv _ (hmod (k + s))
    exact ⟨A, by rw [hv' k (by omega), h1], h2⟩
  have hleft' : ∀ i j, i < a'.num → j < a'.num → j ≠ i → j ≠ (i + 1) % a'.num →
      0 < area2 (P' i) (P' ((i + 1) % a'.num)) (P' j) := by
    rw [hn]
    intro i j hi hj h1 h2
    simp only [hP', rot_succ]
    refine hleft _ _ (hmod _) (hmod _) (fun h => h1 (rot_inj hj hi h)) (fun h => h2 ?_)
    rw [← rot_succ] at h
    exact rot_inj hj (hmod _) h
  have hlong' : ∀ k, k < a'.num → 1 / 10 ^ 35 < eucl (P' k) (P' ((k + 1) % a'.num)) ^ 2 := by
    rw [hn]
    intro k hk
    simp only [hP', rot_succ]
    exact hlong _ (hmod _)
  have hsides : sides a'.first a'.num P' = sides a'.first a.num P' := by rw [hn]
  have hsep' : Separated (sides a'.first a'.num P') := hsides ▸ hr.separated hsep
  have hbl' : Blunt (sides a'.first a'.num P') := hsides ▸ hr.blunt hbl
  have hap' : NodesApart (sides a'.first a'.num P') := hsides ▸ hr.apart hap
  have hc' := sides_convex (first := a'.first) (by rw [hn]; exact h3) hleft'
  obtain ⟨A, out, new, slope, fs, σ, hA, hp, hov, -, hres, -, -, hσ, hF⟩ :=
    C62_points rt a P hh hu h3 hvs hleft hlong hsep hbl hap fuel hf
  obtain ⟨A', out', new', slope', fs', σ', hA', hp', hov', -, hres', -, -, hσ', hF'⟩ :=
    C62_points rt' a' P' hh' hu' (by rw [hn]; exact h3) hvs' hleft' hlong' hsep' hbl' hap' fuel'
      (by rw [hn]; exact hf')
  obtain ⟨_, _, new1, t, b1, b2, b3, -, b5, b6, b7, b8⟩ :=
    C67_nodes rt a P hh hu h3 hvs hleft hlong hsep hbl hap fuel hf
  rw [hA] at b1; cases b1
  rw [hp] at b2; cases b2
  obtain rfl : new = new1 := List.append_cancel_left (hov.symm.trans b3)
  obtain ⟨_, _, new1, t', d1, d2, d3, -, d5, d6, d7, d8⟩ :=
    C67_nodes rt' a' P' hh' hu' (by rw [hn]; exact h3) hvs' hleft' hlong' hsep' hbl' hap' fuel'
      (by rw [hn]; exact hf')
  rw [hA'] at d1; cases d1
  rw [hp'] at d2; cases d2
  obtain rfl : new' = new1 := List.append_cancel_left (hov'.symm.trans d3)
  have hiff : ∀ p h, RoofNode (sides a'.first a.num P') p h ↔ RoofNode (sides a.first a.num P) p h :=
    fun p h => hr.node_iff
  simp only [hsides, hiff] at d5 d6 d8
  -- the same base and pitch
  have hAz : A.z = z := by
    obtain ⟨B, hB, -, hz⟩ := hv 0 (by omega)
    rw [Nat.add_zero, hA] at hB; cases hB; exact hz
  have hAz' : A'.z = z := by
    obtain ⟨B, hB, -, hz⟩ := hv _ (hmod (0 + s))
    rw [← hv' 0 (by omega), Nat.add_zero, hA'] at hB; cases hB; exact hz
  have htt : t' = t := by
    by_cases h0 : a.height = 0
    · rw [b7 h0, d7 (hheight.trans h0), htan]
    · obtain ⟨V, -, h, hnode, h1, h2⟩ := b8 h0
      obtain ⟨V', -, h', hnode', h1', h2'⟩ := d8 (by rw [hheight]; exact h0)
      have heq : h' = h := le_antisymm (h2 _ _ hnode') (h2' _ _ hnode)
      subst heq
      have := hc.node_pos hnode
      apply mul_right_cancel₀ this.ne'
      rw [h1, h1', hheight]
  have hget : ∀ k, k < a.num → ∃ B, out.verts[a.first + k]? = some B ∧ B.xy = P k ∧
      a.verts[a.first + k]? = some B := by
    intro k hk
    obtain ⟨B, hB, hBP⟩ := hvs k hk
    exact ⟨B, by rw [hov, List.getElem?_append_left (List.getElem?_eq_some_iff.1 hB).1, hB], hBP, hB⟩
  have hget' : ∀ k, k < a.num → ∃ B, out'.verts[a'.first + k]? = some B ∧ B.xy = P' k ∧
      a'.verts[a'.first + k]? = some B := by
    intro k hk
    obtain ⟨B, hB, hBP⟩ := hvs' k (by omega)
    exact ⟨B, by rw [hov', List.getElem?_append_left (List.getElem?_eq_some_iff.1 hB).1, hB], hBP, hB⟩
  -- the faces over the same side
  have hsame : ∀ k f f', k < a.num → (∃ e, (sides a.first a.num P)[(k + s) % a.num]? = some e ∧
      RoofFace a (sides a.first a.num P) e A.z slope out.verts ((k + s) % a.num) f) →
      (∃ e, (sides a'.first a'.num P')[k]? = some e ∧
      RoofFace a' (sides a'.first a'.num P') e A'.z slope' out'.verts k f') →
      facePoints out'.verts f' = facePoints out.verts f := by
    rintro k f f' hk ⟨e, he, hrf⟩ ⟨e', he', hrf'⟩
    rw [hsides] at he' hrf'
    have := hψ k e' he'
    rw [he] at this
    cases this
    have hem := List.mem_of_getElem? he
    have hem' := List.mem_of_getElem? he'
    obtain ⟨e1, he1, q1, q2⟩ := sides_get (first := a.first) (P := P) (hmod (k + s))
    rw [he] at he1; cases he1
    obtain ⟨e1, he1, q1', q2'⟩ := sides_get (first := a'.first) (P := P') hk
    rw [he'] at he1; cases he1
    obtain ⟨V, hV, hVP, hVa⟩ := hget _ (hmod (k + s))
    obtain ⟨W, hW, hWP, hWa⟩ := hget _ (hmod ((k + s) % a.num + 1))
    obtain ⟨V', hV', hVP', hVa'⟩ := hget' k hk
    obtain ⟨W', hW', hWP', hWa'⟩ := hget' _ (hmod (k + 1))
    obtain ⟨Q, hQ, hQv⟩ := hrf.ring hV hW (hVP.trans q1.symm) (hWP.trans q2.symm)
    obtain ⟨R, hR, hRv⟩ := hrf'.ring hV' (by rw [hn]; exact hW') (hVP'.trans q1'.symm) (hWP'.trans q2'.symm)
    obtain ⟨hlen, hall⟩ := (hr.ring hem' hR).unique (hc.along _ hem) hQ (hc.unit _ hem) (fun g hg => hc.unit g hg)
    have hsz := hrf.size
    -- the points of the two faces
    have hpts : ∀ i, i < f.length → R i = Q i := by
      intro i hi
      obtain ⟨p, hp1, hp2⟩ := hQv i hi
      obtain ⟨p', hp1', hp2'⟩ := hRv i (by omega)
      rcases Nat.lt_or_ge i 2 with h2 | h2
      · have : i = 0 ∨ i = 1 := by omega
        rcases this with rfl | rfl
        · rw [hrf.first] at hp1; cases hp1
          rw [hrf'.first] at hp1'; cases hp1'
          rw [Int.toNat_natCast, hV] at hp2
          rw [Int.toNat_natCast, hV'] at hp2'
          rw [hv' k hk, hVa] at hVa'
          exact (Option.some.inj hp2').symm.trans ((Option.some.inj hVa').symm.trans (Option.some.inj hp2))
        · rw [hrf.second] at hp1; cases hp1
          rw [hrf'.second] at hp1'; cases hp1'
          rw [Int.toNat_natCast, hW] at hp2
          rw [hn, Int.toNat_natCast, hW'] at hp2'
          rw [hv' _ (hmod _), rot_succ, hWa] at hWa'
          exact (Option.some.inj hp2').symm.trans ((Option.some.inj hWa').symm.trans (Option.some.inj hp2))
      · have g1 := (hrf.plane i p h2 hp1).1
        have g2 := (hrf'.plane i p' h2 hp1').1
        rw [hov, List.getElem?_append_right (by omega)] at hp2
        rw [hov', List.getElem?_append_right (by omega)] at hp2'
        have m1 := List.mem_of_getElem? hp2
        have m2 := List.mem_of_getElem? hp2'
        have hxy : (R i).xy = (Q i).xy := hall i (by omega)
        obtain ⟨h, hnode⟩ := (b5 _).1 (List.mem_map_of_mem m1)
        have z1 := b6 _ m1 h hnode
        have z2 := d6 _ m2 h (by rw [hxy]; exact hnode)
        rw [hAz] at z1
        rw [hAz', htt, ← z1] at z2
        generalize R i = X at hxy z2
        generalize Q i = Y at hxy z2
        cases X; cases Y
        simp only [V3.xy, V2.mk.injEq] at hxy z2
        obtain ⟨rfl, rfl⟩ := hxy
        rw [z2]
    apply List.ext_getElem?
    intro i
    by_cases hi : i < f.length
    · obtain ⟨p, hp1, hp2⟩ := hQv i hi
      obtain ⟨p', hp1', hp2'⟩ := hRv i (by omega)
      simp only [facePoints, List.getElem?_map, hp1, hp1', Option.map_some, hp2, hp2', hpts i hi]
    · rw [List.getElem?_eq_none (by simp [facePoints]; omega), List.getElem?_eq_none (by simp [facePoints]; omega)]
  -- the first point tells the faces apart
  have hfirst : ∀ k f, k < a.num → (∃ e, (sides a.first a.num P)[k]? = some e ∧
      RoofFace a (sides a.first a.num P) e A.z slope out.verts k f) →
      ∃ B, (facePoints out.verts f)[0]? = some (some B) ∧ B.xy = P k := by
    rintro k f hk ⟨e, he, hrf⟩
    obtain ⟨V, hV, hVP, -⟩ := hget k hk
    exact ⟨V, by rw [facePoints, List.getElem?_map, hrf.first, Option.map_some, Int.toNat_natCast, hV], hVP⟩
  have hfirst' : ∀ k f, k < a.num → (∃ e, (sides a'.first a'.num P')[k]? = some e ∧
      RoofFace a' (sides a'.first a'.num P') e A'.z slope' out'.verts k f) →
      ∃ B, (facePoints out'.verts f)[0]? = some (some B) ∧ B.xy = P' k := by
    rintro k f hk ⟨e, he, hrf⟩
    obtain ⟨V, hV, hVP, -⟩ := hget' k hk
    exact ⟨V, by rw [facePoints, List.getElem?_map, hrf.first, Option.map_some, Int.toNat_natCast, hV], hVP⟩
  have hlσ : σ.length = a.num := by simpa using hσ.length_eq
  have hlσ' : σ'.length = a.num := by simpa [hn] using hσ'.length_eq
  have hndσ : σ.Nodup := hσ.nodup_iff.2 List.nodup_range
  have hndσ' : σ'.Nodup := hσ'.nodup_iff.2 List.nodup_range
  have hdist : ∀ {i j : Nat}, i < a.num → j < a.num → P i = P j → i = j :=
    fun hi hj he => points_distinct h3 hleft hi hj he
  have hkσ : ∀ k ∈ σ, k < a.num := fun k hk => List.mem_range.1 ((hσ.mem_iff).1 hk)
  have hkσ' : ∀ k ∈ σ', k < a.num := fun k hk => by
    have := List.mem_range.1 ((hσ'.mem_iff).1 hk); omega
  have l1 := hF.length_eq
  have l2 := hF'.length_eq
  refine ⟨out, out', fs, fs', hp, hp', hres, hres', by omega, ?_⟩
  rw [List.perm_ext_iff_of_nodup]
  · intro L
    simp only [List.mem_map]
    constructor
    · rintro ⟨f', hf', rfl⟩
      obtain ⟨i, hi, rfl⟩ := List.mem_iff_getElem.1 hf'
      have hk := hkσ' _ (List.getElem_mem (by omega : i < σ'.length))
      have r' := (List.forall₂_iff_get.1 hF').2 i (by omega) hi
      simp only [List.get_eq_getElem] at r'
      obtain ⟨j, hj, hjk⟩ := List.mem_iff_getElem.1 ((hσ.mem_iff).2 (List.mem_range.2 (hmod (σ'[i] + s))))
      have r := (List.forall₂_iff_get.1 hF).2 j hj (by omega)
      simp only [List.get_eq_getElem, hjk] at r
      exact ⟨fs[j], List.getElem_mem _, (hsame _ _ _ hk r r').symm⟩
    · rintro ⟨f, hf, rfl⟩
      obtain ⟨j, hj, rfl⟩ := List.mem_iff_getElem.1 hf
      have hk := hkσ _ (List.getElem_mem (by omega : j < σ.length))
      have r := (List.forall₂_iff_get.1 hF).2 j (by omega) hj
      simp only [List.get_eq_getElem] at r
      obtain ⟨k', hk', hkk⟩ := rot_onto s hk
      obtain ⟨i, hi, hik⟩ := List.mem_iff_getElem.1 ((hσ'.mem_iff).2 (List.mem_range.2 (by omega : k' < a'.num)))
      have r' := (List.forall₂_iff_get.1 hF').2 i hi (by omega)
      simp only [List.get_eq_getElem, hik] at r'
      exact ⟨fs'[i], List.getElem_mem _, hsame _ _ _ hk' (by rw [hkk]; exact r) r'⟩
  · rw [List.nodup_iff_injective_getElem]
    intro i j hij
    have hi : i.1 < fs'.length := by simpa using i.2
    have hj : j.1 < fs'.length := by simpa using j.2
    have r1 := (List.forall₂_iff_get.1 hF').2 i.1 (by omega) hi
    have r2 := (List.forall₂_iff_get.1 hF').2 j.1 (by omega) hj
    simp only [List.get_eq_getElem] at r1 r2
    obtain ⟨B1, x1, x2⟩ := hfirst' _ _ (hkσ' _ (List.getElem_mem _)) r1
    obtain ⟨B2, y1, y2⟩ := hfirst' _ _ (hkσ' _ (List.getElem_mem _)) r2
    simp only [List.getElem_map] at hij
    rw [hij, y1] at x1
    cases x1
    have := rot_inj (hkσ' _ (List.getElem_mem _)) (hkσ' _ (List.getElem_mem _))
      (hdist (hmod _) (hmod _) (x2.symm.trans y2))
    exact Fin.ext ((hndσ'.getElem_inj_iff).1 this)
  · rw [List.nodup_iff_injective_getElem]
    intro i j hij
    have hi : i.1 < fs.length := by simpa using i.2
    have hj : j.1 < fs.length := by simpa using j.2
    have r1 := (List.forall₂_iff_get.1 hF).2 i.1 (by omega) hi
    have r2 := (List.forall₂_iff_get.1 hF).2 j.1 (by omega) hj
    simp only [List.get_eq_getElem] at r1 r2
    obtain ⟨B1, x1, x2⟩ := hfirst _ _ (hkσ _ (List.getElem_mem _)) r1
    obtain ⟨B2, y1, y2⟩ := hfirst _ _ (hkσ _ (List.getElem_mem _)) r2
    simp only [List.getElem_map] at hij
    rw [hij, y1] at x1
    cases x1
    have := hdist (hkσ _ (List.getElem_mem _)) (hkσ _ (List.getElem_mem _)) (x2.symm.trans y2)
    exact Fin.ext ((hndσ.getElem_inj_iff).1 this)

/-- the rectangle of 8 by 4: there are two new vertices, over (2, 2) and (6, 2), one unit above the sides -/
example (rt : Rt) : ∃ out new, polygonize rt 17 rectArgs = some out ∧ out.verts = rectArgs.verts ++ new ∧
    new.Perm [⟨2, 2, 2⟩, ⟨6, 2, 2⟩] := by
  obtain ⟨h1, h2, h3, h4, h5, h6, h7⟩ := rect_meets
  obtain ⟨A, out, new, t, hA, hp, hv, hnd, hmem, hz, ht, -⟩ := C67_nodes rt rectArgs rectPoint rfl rfl
    (by simp [rectArgs]) h1 h2 h3 h4 h5 h7 17 (by simp [rectArgs])
  have ht' : t = 1 / 2 := ht rfl
  have hA' : A.z = 1 := by
    have : (⟨0, 0, 1⟩ : V3 ℝ) = A := Option.some.inj hA
    rw [← this]
  have hs : sides rectArgs.first rectArgs.num rectPoint = rect := sides_rect
  rw [hs] at hmem hz
  have n1 : RoofNode rect ⟨2, 2⟩ 2 := by
    refine ⟨?_, _, List.mem_cons_self, _, List.mem_cons_of_mem _ (List.mem_cons_of_mem _ List.mem_cons_self), _,
      List.mem_cons_of_mem _ (List.mem_cons_of_mem _ (List.mem_cons_of_mem _ List.mem_cons_self)), ?_⟩
    · intro e he
      simp only [rect, List.mem_cons, List.not_mem_nil, or_false] at he
      rcases he with rfl | rfl | rfl | rfl <;> norm_num [rectEdge, height]
    · refine ⟨?_, ?_, ?_, ?_, ?_, ?_⟩ <;> norm_num [rectEdge, height]
  have n2 : RoofNode rect ⟨6, 2⟩ 2 := by
    refine ⟨?_, _, List.mem_cons_self, _, List.mem_cons_of_mem _ List.mem_cons_self, _,
      List.mem_cons_of_mem _ (List.mem_cons_of_mem _ List.mem_cons_self), ?_⟩
    · intro e he
      simp only [rect, List.mem_cons, List.not_mem_nil, or_false] at he
      rcases he with rfl | rfl | rfl | rfl <;> norm_num [rectEdge, height]
    · refine ⟨?_, ?_, ?_, ?_, ?_, ?_⟩ <;> norm_num [rectEdge, height]
  refine ⟨out, new, hp, hv, ?_⟩
  rw [List.perm_ext_iff_of_nodup hnd.of_map (by simp)]
  have hpt : ∀ V ∈ new, V = ⟨2, 2, 2⟩ ∨ V = ⟨6, 2, 2⟩ := by
    intro V hV
    obtain ⟨h, hn⟩ := (hmem _).1 (List.mem_map_of_mem hV)
    have hzV := hz V hV h hn
    obtain ⟨r1, r2, r3⟩ := rect_node hn
    rw [hA', ht', r1] at hzV
    cases V
    simp only [V3.xy] at r2 r3 hzV
    rcases r3 with r3 | r3
    · left; rw [r2, r3, hzV]; norm_num
    · right; rw [r2, r3, hzV]; norm_num
  intro V
  simp only [List.mem_cons, List.not_mem_nil, or_false]
  refine ⟨hpt V, ?_⟩
  rintro (rfl | rfl)
  · obtain ⟨V, hV, hxy⟩ := List.mem_map.1 ((hmem _).2 ⟨_, n1⟩)
    rcases hpt V hV with rfl | rfl
    · exact hV
    · norm_num [V3.xy] at hxy
  · obtain ⟨V, hV, hxy⟩ := List.mem_map.1 ((hmem _).2 ⟨_, n2⟩)
    rcases hpt V hV with rfl | rfl
    · norm_num [V3.xy] at hxy
    · exact hV

/-- the square of 4 by 4: its four sides meet in one new vertex, three units above the sides -/
example (rt : Rt) : ∃ out, polygonize rt 17 squareArgs = some out ∧
    out.verts = squareArgs.verts ++ [⟨2, 2, 4⟩] := by
  obtain ⟨h1, h2, h3, h4, h5, h6, -⟩ := square_meets
  obtain ⟨A, out, new, t, hA, hp, hv, hnd, hmem, hz, -, ht⟩ := C67_nodes rt squareArgs squarePoint rfl rfl
    (by simp [squareArgs]) h1 h2 h3 h4 h5 h6 17 (by simp [squareArgs])
  have hA' : A.z = 1 := by
    have : (⟨0, 0, 1⟩ : V3 ℝ) = A := Option.some.inj hA
    rw [← this]
  have hs : sides squareArgs.first squareArgs.num squarePoint = square := sides_square
  rw [hs] at hmem hz ht
  obtain ⟨_, -, h, hn, hth, -⟩ := ht (by norm_num [squareArgs])
  rw [(square_node hn).1] at hth
  have hpt : ∀ V ∈ new, V = ⟨2, 2, 4⟩ := by
    intro V hV
    obtain ⟨h, hn⟩ := (hmem _).1 (List.mem_map_of_mem hV)
    have hzV := hz V hV h hn
    obtain ⟨r1, r2, r3⟩ := square_node hn
    rw [hA', r1, hth] at hzV
    cases V
    simp only [V3.xy] at r2 r3 hzV
    rw [r2, r3, hzV]
    norm_num [squareArgs]
  refine ⟨out, hp, ?_⟩
  rw [hv]
  congr 1
  obtain ⟨V, hV, -⟩ := List.mem_map.1 ((hmem _).2 ⟨_, square_centre⟩)
  obtain rfl := hpt V hV
  have := (List.eq_replicate_iff (n := new.length)).2 ⟨rfl, hpt⟩
  have hn' := hnd.of_map
  rw [this] at hn' hV ⊢
  rw [List.nodup_replicate] at hn'
  have : new.length = 1 := by
    have := List.length_pos_of_mem hV
    simp at this
    omega
  rw [this]
  rfl

/-- the same rectangle, starting with its second vertex, after a vertex that does not belong to it -/
noncomputable def rectLater : PolyArgs ℝ :=
  { verts := [⟨9, 9, 9⟩, ⟨8, 0, 1⟩, ⟨8, 4, 1⟩, ⟨0, 4, 1⟩, ⟨0, 0, 1⟩], first := 1, num := 4, holes := none,
    height := 0, tan := 1 / 2, faces := none, units := none }

/-- both have the same faces -/
example (rt rt' : Rt) : ∃ out out' fs fs', polygonize rt 17 rectArgs = some out ∧
    polygonize rt' 17 rectLater = some out' ∧ out.result = .ok ([] ++ fs) ∧ out'.result = .ok ([] ++ fs') ∧
    fs.length = 4 ∧ (fs'.map (facePoints out'.verts)).Perm (fs.map (facePoints out.verts)) := by
  obtain ⟨h1, h2, h3, h4, h5, h6, h7⟩ := rect_meets
  refine C38_convex_partial rt rt' rectArgs rectLater rectPoint 1 1 rfl rfl rfl rfl (by simp [rectArgs]) rfl
    ?_ ?_ rfl rfl h2 h3 h4 h5 h7 17 17 (by simp [rectArgs]) (by simp [rectArgs])
  · intro k hk
    obtain ⟨A, hA, hxy⟩ := h1 k hk
    refine ⟨A, hA, hxy, ?_⟩
    have : k = 0 ∨ k = 1 ∨ k = 2 ∨ k = 3 := by simp only [rectArgs] at hk; omega
    rcases this with rfl | rfl | rfl | rfl <;> simp [rectArgs] at hA <;> rw [← hA]
  · intro k hk
    have : k = 0 ∨ k = 1 ∨ k = 2 ∨ k = 3 := by simp only [rectArgs] at hk; omega
    rcases this with rfl | rfl | rfl | rfl <;> simp [rectArgs, rectLater]

end Polyskel
