import Verif.Spec.Inscribed
import Verif.Proofs.RoofSurface
/-
Helper lemmas for C83: the largest disc in a convex polygon is about a highest vertex of the roof.
-/
set_option linter.unusedSectionVars false
namespace Polyskel
open Scalar Geo Real

/-- over each point there is a face with a new vertex that is at least as far from the side of the face -/
theorem top_vertex {a : PolyArgs ℝ} {P : Nat → V2 ℝ} {z slope : ℝ} {V : List (V3 ℝ)} {fs : List (List Int)}
    {σ : List Nat} (h3 : 3 ≤ a.num) (hget : ∀ k, k < a.num → ∃ A, V[a.first + k]? = some A ∧ A.xy = P k)
    (hleft : ∀ i j, i < a.num → j < a.num → j ≠ i → j ≠ (i + 1) % a.num →
      0 < area2 (P i) (P ((i + 1) % a.num)) (P j))
    (hσ : σ.Perm (List.range a.num))
    (hF : List.Forall₂ (fun k f => ∃ e, (sides a.first a.num P)[k]? = some e ∧
        RoofFace a (sides a.first a.num P) e z slope V k f) σ fs) {Y : V2 ℝ} {k : Nat} (hk : k < a.num)
    (h0 : 0 ≤ sideDist a.num P k Y) (hm : ∀ j, j < a.num → sideDist a.num P k Y ≤ sideDist a.num P j Y) :
    ∃ f ∈ fs, ∃ p ∈ f, (a.verts.length : Int) ≤ p ∧ ∃ N, V[p.toNat]? = some N ∧
      sideDist a.num P k Y ≤ sideDist a.num P k N.xy ∧ 0 < sideDist a.num P k N.xy ∧
      (∀ j, j < a.num → sideDist a.num P k N.xy ≤ sideDist a.num P j N.xy) ∧
      N.z = z + slope * sideDist a.num P k N.xy := by
  have hc := sides_convex (first := a.first) h3 hleft
  obtain ⟨i, hi⟩ := List.mem_iff_getElem?.1 ((hσ.mem_iff).2 (List.mem_range.2 hk))
  obtain ⟨hi1, hi2⟩ := List.getElem?_eq_some_iff.1 hi
  have hl := hF.length_eq
  obtain ⟨e, he, hr⟩ := (List.forall₂_iff_get.1 hF).2 i hi1 (by omega)
  simp only [List.get_eq_getElem, hi2] at he hr
  have me := List.mem_of_getElem? he
  obtain ⟨e', he', q1, q2⟩ := sides_get (first := a.first) (P := P) hk
  rw [he] at he'
  cases he'
  obtain ⟨A, hA, hAP⟩ := hget k hk
  obtain ⟨W, hW, hWP⟩ := hget ((k + 1) % a.num) (Nat.mod_lt _ (by omega))
  obtain ⟨Q, hQ, hQv⟩ := hr.ring hA hW (hAP.trans q1.symm) (hWP.trans q2.symm)
  have hs := fun X => sides_height he X
  have hs' : ∀ j, j < a.num → ∃ g ∈ sides a.first a.num P, ∀ X, height g.p1 g.norm X = sideDist a.num P j X := by
    intro j hj
    obtain ⟨g, hg, -⟩ := sides_get (first := a.first) (P := P) hj
    exact ⟨g, List.mem_of_getElem? hg, fun X => sides_height hg X⟩
  have hov := (hQ.over (hc.along _ me) Y).2 ⟨by rw [hs]; exact h0, fun g hg => by
    obtain ⟨j, hj⟩ := List.mem_iff_getElem?.1 hg
    have hjn : j < a.num := by simpa [sides] using (List.getElem?_eq_some_iff.1 hj).1
    rw [hs, sides_height hj]
    exact hm j hjn⟩
  -- the point of the ring that is farthest from the side
  obtain ⟨m, hmn, hle⟩ := ring_min hQ.size hQ.left hov (e.norm.y) (-e.norm.x)
    (-(e.norm.y * e.p1.x) + e.norm.x * e.p1.y)
  have hle' : height e.p1 e.norm Y ≤ height e.p1 e.norm (Q m).xy := by
    unfold height; linarith
  have hz : ∀ j, j < 2 → height e.p1 e.norm (Q j).xy = 0 := by
    intro j hj
    obtain ⟨r, -, r1, r2⟩ := hc.along _ me
    have : j = 0 ∨ j = 1 := by omega
    rcases this with rfl | rfl
    · rw [show (Q 0).xy = e.p1 from hQ.first]; simp [height]
    · rw [show (Q 1).xy = e.p2 from hQ.second]; unfold height; rw [r1, r2]; ring
  obtain ⟨m', hm'n, hm2, hle2⟩ : ∃ m', m' < fs[i].length ∧ 2 ≤ m' ∧
      height e.p1 e.norm Y ≤ height e.p1 e.norm (Q m').xy := by
    rcases Nat.lt_or_ge m 2 with h2 | h2
    · refine ⟨2, hQ.size, le_rfl, ?_⟩
      rw [hz m h2] at hle'
      exact hle'.trans (hQ.inside 2 le_rfl hQ.size).le
    · exact ⟨m, hmn, h2, hle'⟩
  obtain ⟨p, hfp, hvp⟩ := hQv m' hm'n
  obtain ⟨b1, b2⟩ := hr.plane m' p hm2 hfp
  refine ⟨_, List.getElem_mem (by omega), p, List.mem_of_getElem? hfp, b1, _, hvp, ?_, ?_, ?_, ?_⟩
  · rw [← hs, ← hs]; exact hle2
  · rw [← hs]; exact (b2 _ hvp).1
  · intro j hj
    obtain ⟨g, hg, hgX⟩ := hs' j hj
    rw [← hs, ← hgX]
    exact hr.nearest p (List.mem_of_getElem? hfp) _ hvp g hg
  · rw [← hs]; exact (b2 _ hvp).2

/-- discs, in terms of the distances from the sides -/
theorem discWithin_iff {n : Nat} {P : Nat → V2 ℝ} (hlen : ∀ k, k < n → 0 < eucl (P k) (P ((k + 1) % n)))
    {X : V2 ℝ} {r : ℝ} : DiscWithin n P X r ↔ 0 ≤ r ∧ ∀ k, k < n → r ≤ sideDist n P k X := by
  refine and_congr_right fun hr => ?_
  rw [← disc_within hlen hr]
  refine forall_congr' fun Y => forall_congr' fun _ => forall₂_congr fun k hk => ?_
  rw [sideDist, le_div_iff₀ (hlen k hk), zero_mul]

/-- the distance of a node from the sides -/
theorem node_sideDist {first n : Nat} {P : Nat → V2 ℝ} {X : V2 ℝ} {h : ℝ} (hn : RoofNode (sides first n P) X h) :
    (∃ k, k < n ∧ sideDist n P k X = h) ∧ ∀ k, k < n → h ≤ sideDist n P k X := by
  constructor
  · obtain ⟨e1, m1, -, -, -, -, -, -, -, p1, -⟩ := hn.three
    obtain ⟨k, hk⟩ := List.mem_iff_getElem?.1 m1
    exact ⟨k, by simpa [sides] using (List.getElem?_eq_some_iff.1 hk).1, by rw [← sides_height hk]; exact p1⟩
  · intro k hk
    obtain ⟨g, hg, -⟩ := sides_get (first := first) (P := P) hk
    rw [← sides_height hg]
    exact hn.least g (List.mem_of_getElem? hg)

end Polyskel
