import Verif.Props.Euler
import Verif.Props.Pyramid
import Verif.Props.RoofCells
import Verif.Proofs.Pitot
import Mathlib.Tactic.IntervalCases
/-
C87: which faces of the roof over a convex quadrangle are triangles.
-/
namespace Polyskel
open Scalar Geo Real

/-- the length of the side `k` of the quadrangle with the corners `P` -/
noncomputable def sideLen (P : Nat → V2 ℝ) (k : Nat) : ℝ := eucl (P (k % 4)) (P ((k + 1) % 4))

/-- the tip of a triangle of the roof over a quadrangle has the same distance from three sides -/
private theorem tri_node {a : PolyArgs ℝ} {P : Nat → V2 ℝ} {e : Edge2 ℝ} {z slope : ℝ} {verts : List (V3 ℝ)} {k : Nat}
    {f : List Int} (h4 : a.num = 4)
    (hleft : ∀ i j, i < 4 → j < 4 → j ≠ i → j ≠ (i + 1) % 4 → 0 < area2 (P i) (P ((i + 1) % 4)) (P j))
    (hlen : ∀ k, k < 4 → 0 < eucl (P k) (P ((k + 1) % 4)))
    (hv : ∀ k, k < 4 → ∃ A, verts[a.first + k]? = some A ∧ A.xy = P k)
    (hk : k < 4) (he : (sides a.first 4 P)[k]? = some e)
    (hf : RoofFace a (sides a.first 4 P) e z slope verts k f) (h3 : f.length = 3) :
    ∃ N r, 0 < r ∧ sideDist 4 P k N = r ∧ sideDist 4 P ((k + 1) % 4) N = r ∧ sideDist 4 P ((k + 3) % 4) N = r ∧
      r ≤ sideDist 4 P ((k + 2) % 4) N := by
  obtain ⟨x, y, v, rfl⟩ := List.length_eq_three.1 h3
  have hx := hf.first
  have hy := hf.second
  rw [h4] at hy
  simp only [List.getElem?_cons_zero, List.getElem?_cons_succ, Option.some.injEq] at hx hy
  obtain ⟨i0, i1⟩ := hf.index v (by simp)
  obtain ⟨V, hV⟩ : ∃ V, verts[v.toNat]? = some V := ⟨_, List.getElem?_eq_getElem (by omega)⟩
  obtain ⟨A, hA, hAP⟩ := hv k hk
  obtain ⟨B, hB, hBP⟩ := hv ((k + 1) % 4) (Nat.mod_lt _ (by omega))
  have hpos := (hf.plane 2 v le_rfl rfl).2 V hV |>.1
  rw [sides_height he] at hpos
  -- a side through a corner is one of the two that meet there
  have hzero : ∀ m, m < 4 → ∀ g ∈ sides a.first 4 P, height g.p1 g.norm (P m) = 0 →
      (sides a.first 4 P)[m]? = some g ∨ (sides a.first 4 P)[(m + 3) % 4]? = some g := by
    intro m hm g hg h0
    obtain ⟨j, hj⟩ := List.mem_iff_getElem?.1 hg
    have hj4 : j < 4 := by simpa [sides] using (List.getElem?_eq_some_iff.1 hj).1
    rw [sides_height hj] at h0
    by_cases c1 : m = j
    · exact .inl (c1 ▸ hj)
    by_cases c2 : m = (j + 1) % 4
    · right
      rw [show (m + 3) % 4 = j by omega]
      exact hj
    have := div_pos (hleft j m hj4 hm c1 c2) (hlen j hj4)
    unfold sideDist at h0
    linarith
  have hend : sideDist 4 P k (P k) = 0 ∧ sideDist 4 P k (P ((k + 1) % 4)) = 0 := by
    constructor <;> (unfold sideDist area2; rw [div_eq_zero_iff]; left; ring)
  obtain ⟨g, hg, gn, g1, g2⟩ := hf.ridge 1 y v B V (by omega) rfl rfl (by rw [hy, Int.toNat_natCast]; exact hB) hV
  obtain ⟨g', hg', gn', g1', g2'⟩ := hf.ridge 2 v x V A (by omega) rfl (by simp) hV (by rw [hx, Int.toNat_natCast]; exact hA)
  rw [sides_height he, hBP, hend.2] at g1
  rw [sides_height he, hAP, hend.1] at g2'
  rw [sides_height he] at g2 g1'
  have hG : (sides a.first 4 P)[(k + 1) % 4]? = some g := by
    rcases hzero _ (Nat.mod_lt _ (by omega)) g hg g1 with h | h
    · exact h
    · rw [show ((k + 1) % 4 + 3) % 4 = k by omega, he] at h
      exact absurd (congrArg Edge2.norm (Option.some.inj h)).symm gn
  have hG' : (sides a.first 4 P)[(k + 3) % 4]? = some g' := by
    rcases hzero _ hk g' hg' g2' with h | h
    · rw [he] at h
      exact absurd (congrArg Edge2.norm (Option.some.inj h)).symm gn'
    · exact h
  rw [sides_height hG] at g2
  rw [sides_height hG'] at g1'
  refine ⟨V.xy, sideDist 4 P k V.xy, hpos, rfl, g2, g1', ?_⟩
  obtain ⟨o, ho, -⟩ := sides_get (first := a.first) (n := 4) (P := P) (k := (k + 2) % 4) (Nat.mod_lt _ (by omega))
  have := hf.nearest v (by simp) V hV o (List.mem_of_getElem? ho)
  rwa [sides_height he, sides_height ho] at this

/-- C87: under the hypotheses of `C62_points` for a quadrangle.  The face over a side is a triangle if the side and
the opposite one are together not longer than the other two, otherwise it is a quadrangle.  So if the sums are
different, there are two new vertices, two triangles and two quadrangles; if they are equal, there is one new
vertex and all faces are triangles. -/
theorem C87_quadrangle (rt : Rt) (a : PolyArgs ℝ) (P : Nat → V2 ℝ) (hh : a.holes.getD [] = [])
    (hu : a.units = none) (h4 : a.num = 4)
    (hv : ∀ k, k < 4 → ∃ A, a.verts[a.first + k]? = some A ∧ A.xy = P k)
    (hleft : ∀ i j, i < 4 → j < 4 → j ≠ i → j ≠ (i + 1) % 4 → 0 < area2 (P i) (P ((i + 1) % 4)) (P j))
    (hlong : ∀ k, k < 4 → 1 / 10 ^ 35 < eucl (P k) (P ((k + 1) % 4)) ^ 2)
    (hsep : Separated (sides a.first 4 P)) (hbl : Blunt (sides a.first 4 P))
    (hap : NodesApart (sides a.first 4 P)) (fuel : Nat) (hf : 17 ≤ fuel) :
    ∃ out new fs g0 g1 g2 g3, polygonize rt fuel a = some out ∧ out.verts = a.verts ++ new ∧
      out.result = .ok (a.faces.getD [] ++ fs) ∧ fs.Perm [g0, g1, g2, g3] ∧
      (sideLen P 0 + sideLen P 2 = sideLen P 1 + sideLen P 3 → new.length = 1) ∧
      (sideLen P 0 + sideLen P 2 ≠ sideLen P 1 + sideLen P 3 → new.length = 2) ∧
      ∀ k g, [g0, g1, g2, g3][k]? = some g →
        g[0]? = some ((a.first + k : Nat) : Int) ∧ g[1]? = some ((a.first + (k + 1) % 4 : Nat) : Int) ∧
        (sideLen P k + sideLen P (k + 2) ≤ sideLen P (k + 1) + sideLen P (k + 3) → g.length = 3) ∧
        (sideLen P (k + 1) + sideLen P (k + 3) < sideLen P k + sideLen P (k + 2) → g.length = 4) := by
  have hlen : ∀ k, k < 4 → 0 < eucl (P k) (P ((k + 1) % 4)) := by
    intro k hk
    have h1 := hlong k hk
    have h2 : 0 ≤ eucl (P k) (P ((k + 1) % 4)) := Real.sqrt_nonneg _
    refine lt_of_le_of_ne h2 fun h => ?_
    rw [← h] at h1
    norm_num at h1
  obtain ⟨A, out, new, slope, fs, σ, hA, hp, hvs, hn, hres, -, -, hσ, hF⟩ :=
    C62_points rt a P hh hu (by omega) (by rwa [h4]) (by rwa [h4]) (by rwa [h4]) (by rwa [h4]) (by rwa [h4])
      (by rwa [h4]) fuel (by omega)
  obtain ⟨out', new', fs', sk, hp', hvs', hres', -, -, -, -, -, hsum, -⟩ :=
    C84_points rt a P hh hu (by omega) (by rwa [h4]) (by rwa [h4]) (by rwa [h4]) (by rwa [h4]) (by rwa [h4])
      (by rwa [h4]) fuel (by omega)
  obtain rfl : out = out' := Option.some.inj (hp.symm.trans hp')
  obtain rfl : new = new' := List.append_cancel_left (hvs.symm.trans hvs')
  obtain rfl : fs = fs' := by
    have := hres.symm.trans hres'
    simpa using this
  rw [h4] at hσ hF hsum hn
  obtain ⟨gs, hG, hgs⟩ := List.perm_comp_forall₂ hσ.symm hF
  rw [show List.range 4 = [0, 1, 2, 3] from rfl] at hG
  obtain ⟨g0, t0, R0, hG0, rfl⟩ := List.forall₂_cons_left_iff.1 hG
  obtain ⟨g1, t1, R1, hG1, rfl⟩ := List.forall₂_cons_left_iff.1 hG0
  obtain ⟨g2, t2, R2, hG2, rfl⟩ := List.forall₂_cons_left_iff.1 hG1
  obtain ⟨g3, t3, R3, hG3, rfl⟩ := List.forall₂_cons_left_iff.1 hG2
  obtain rfl := List.forall₂_nil_left_iff.1 hG3
  have hsum' : g0.length + g1.length + g2.length + g3.length + 2 = 12 + 2 * new.length := by
    have := (hgs.map List.length).sum_eq
    simp only [List.map_cons, List.map_nil, List.sum_cons, List.sum_nil] at this
    omega
  have hv' : ∀ k, k < 4 → ∃ A, out.verts[a.first + k]? = some A ∧ A.xy = P k := by
    intro k hk
    obtain ⟨B, hB, hBP⟩ := hv k hk
    refine ⟨B, ?_, hBP⟩
    rw [hvs, List.getElem?_append_left (List.getElem?_eq_some_iff.1 hB).1, hB]
  have key : ∀ k g, k < 4 → (∃ e, (sides a.first 4 P)[k]? = some e ∧
      RoofFace a (sides a.first 4 P) e A.z slope out.verts k g) → g.length = 3 →
      sideLen P k + sideLen P (k + 2) ≤ sideLen P (k + 1) + sideLen P (k + 3) ∧
      (sideLen P k + sideLen P (k + 2) = sideLen P (k + 1) + sideLen P (k + 3) → new.length = 1) := by
    rintro k g hk ⟨e, he, hR⟩ hg3
    obtain ⟨N, r, hr, d0, d1, d3, d2⟩ := tri_node h4 hleft hlen hv' hk he hR hg3
    have hP : sideLen P k + sideLen P (k + 2) ≤ sideLen P (k + 1) + sideLen P (k + 3) ∧
        (r < sideDist 4 P ((k + 2) % 4) N →
          sideLen P k + sideLen P (k + 2) < sideLen P (k + 1) + sideLen P (k + 3)) := by
      interval_cases k
      · exact pitot (hleft 3 1 (by omega) (by omega) (by omega) (by omega))
          (hleft 0 2 (by omega) (by omega) (by omega) (by omega))
          (hleft 1 3 (by omega) (by omega) (by omega) (by omega))
          (hleft 2 0 (by omega) (by omega) (by omega) (by omega))
          (hlen 0 (by omega)) (hlen 1 (by omega)) (hlen 2 (by omega)) (hlen 3 (by omega)) hr d0 d1 d3 d2
      · exact pitot (hleft 0 2 (by omega) (by omega) (by omega) (by omega))
          (hleft 1 3 (by omega) (by omega) (by omega) (by omega))
          (hleft 2 0 (by omega) (by omega) (by omega) (by omega))
          (hleft 3 1 (by omega) (by omega) (by omega) (by omega))
          (hlen 1 (by omega)) (hlen 2 (by omega)) (hlen 3 (by omega)) (hlen 0 (by omega)) hr d0 d1 d3 d2
      · exact pitot (hleft 1 3 (by omega) (by omega) (by omega) (by omega))
          (hleft 2 0 (by omega) (by omega) (by omega) (by omega))
          (hleft 3 1 (by omega) (by omega) (by omega) (by omega))
          (hleft 0 2 (by omega) (by omega) (by omega) (by omega))
          (hlen 2 (by omega)) (hlen 3 (by omega)) (hlen 0 (by omega)) (hlen 1 (by omega)) hr d0 d1 d3 d2
      · exact pitot (hleft 2 0 (by omega) (by omega) (by omega) (by omega))
          (hleft 3 1 (by omega) (by omega) (by omega) (by omega))
          (hleft 0 2 (by omega) (by omega) (by omega) (by omega))
          (hleft 1 3 (by omega) (by omega) (by omega) (by omega))
          (hlen 3 (by omega)) (hlen 0 (by omega)) (hlen 1 (by omega)) (hlen 2 (by omega)) hr d0 d1 d3 d2
    refine ⟨hP.1, fun heq => ?_⟩
    -- the circle touches the fourth side, too
    have d2' : sideDist 4 P ((k + 2) % 4) N = r := by
      by_contra hne
      exact (hP.2 (lt_of_le_of_ne d2 (Ne.symm hne))).ne heq
    have hall : ∀ j, j < a.num → sideDist a.num P j N = r := by
      rw [h4]
      intro j hj
      have : j = k ∨ j = (k + 1) % 4 ∨ j = (k + 2) % 4 ∨ j = (k + 3) % 4 := by omega
      rcases this with rfl | rfl | rfl | rfl <;> assumption
    obtain ⟨-, out', N', -, -, hp', hvs', -⟩ := C68_pyramid rt a P N r hh hu (by omega) (by rwa [h4]) (by rwa [h4])
      (by rwa [h4]) hall fuel (by omega)
    obtain rfl : out = out' := Option.some.inj (hp.symm.trans hp')
    rw [List.append_cancel_left (hvs.symm.trans hvs')]
    rfl
  have s4 : sideLen P 4 = sideLen P 0 := rfl
  have s5 : sideLen P 5 = sideLen P 1 := rfl
  have s6 : sideLen P 6 = sideLen P 2 := rfl
  have z0 := (R0.choose_spec.2).size
  have z1 := (R1.choose_spec.2).size
  have z2 := (R2.choose_spec.2).size
  have z3 := (R3.choose_spec.2).size
  have K0 := key 0 g0 (by omega) R0
  have K1 := key 1 g1 (by omega) R1
  have K2 := key 2 g2 (by omega) R2
  have K3 := key 3 g3 (by omega) R3
  norm_num only [s4, s5, s6] at K0 K1 K2 K3
  -- the sizes
  have hsize : (sideLen P 0 + sideLen P 2 = sideLen P 1 + sideLen P 3 → new.length = 1) ∧
      (sideLen P 0 + sideLen P 2 < sideLen P 1 + sideLen P 3 → 4 ≤ g1.length ∧ 4 ≤ g3.length) ∧
      (sideLen P 1 + sideLen P 3 < sideLen P 0 + sideLen P 2 → 4 ≤ g0.length ∧ 4 ≤ g2.length) := by
    refine ⟨fun h => ?_, fun h => ⟨?_, ?_⟩, fun h => ⟨?_, ?_⟩⟩
    · have : g0.length = 3 ∨ g1.length = 3 ∨ g2.length = 3 ∨ g3.length = 3 := by omega
      rcases this with c | c | c | c
      · exact (K0 c).2 h
      · exact (K1 c).2 (by linarith)
      · exact (K2 c).2 (by linarith)
      · exact (K3 c).2 (by linarith)
    · by_contra hc
      have := (K1 (by omega)).1
      linarith
    · by_contra hc
      have := (K3 (by omega)).1
      linarith
    · by_contra hc
      have := (K0 (by omega)).1
      linarith
    · by_contra hc
      have := (K2 (by omega)).1
      linarith
  obtain ⟨q1, q2, q3⟩ := hsize
  have start : ∀ k g, (∃ e, (sides a.first 4 P)[k]? = some e ∧
      RoofFace a (sides a.first 4 P) e A.z slope out.verts k g) →
      g[0]? = some ((a.first + k : Nat) : Int) ∧ g[1]? = some ((a.first + (k + 1) % 4 : Nat) : Int) := by
    rintro k g ⟨e, -, hR⟩
    exact ⟨hR.first, h4 ▸ hR.second⟩
  refine ⟨out, new, fs, g0, g1, g2, g3, hp, hvs, hres, hgs.symm, q1, fun h => ?_, ?_⟩
  · rcases lt_or_gt_of_ne h with h | h
    · have := q2 h; omega
    · have := q3 h; omega
  · intro k g hk
    have hk4 : k < 4 := (List.getElem?_eq_some_iff.1 hk).1
    have all : (sideLen P 0 + sideLen P 2 ≤ sideLen P 1 + sideLen P 3 → g0.length = 3 ∧ g2.length = 3) ∧
        (sideLen P 1 + sideLen P 3 ≤ sideLen P 0 + sideLen P 2 → g1.length = 3 ∧ g3.length = 3) ∧
        (sideLen P 0 + sideLen P 2 < sideLen P 1 + sideLen P 3 → g1.length = 4 ∧ g3.length = 4) ∧
        (sideLen P 1 + sideLen P 3 < sideLen P 0 + sideLen P 2 → g0.length = 4 ∧ g2.length = 4) := by
      refine ⟨fun h => ?_, fun h => ?_, fun h => ?_, fun h => ?_⟩
      · rcases h.lt_or_eq with h | h
        · have := q2 h; omega
        · have := q1 h; omega
      · rcases h.lt_or_eq with h | h
        · have := q3 h; omega
        · have := q1 h.symm; omega
      · have := q2 h; omega
      · have := q3 h; omega
    obtain ⟨a1, a2, a3, a4⟩ := all
    interval_cases k
    · obtain rfl : g0 = g := Option.some.inj hk
      exact ⟨(start 0 g0 R0).1, (start 0 g0 R0).2, fun h => (a1 h).1, fun h => (a4 h).1⟩
    · obtain rfl : g1 = g := Option.some.inj hk
      refine ⟨(start 1 g1 R1).1, (start 1 g1 R1).2, fun h => (a2 ?_).1, fun h => (a3 ?_).1⟩ <;>
        norm_num only [s4] at h <;> linarith
    · obtain rfl : g2 = g := Option.some.inj hk
      refine ⟨(start 2 g2 R2).1, (start 2 g2 R2).2, fun h => (a1 ?_).2, fun h => (a4 ?_).2⟩ <;>
        norm_num only [s4, s5] at h <;> linarith
    · obtain rfl : g3 = g := Option.some.inj hk
      refine ⟨(start 3 g3 R3).1, (start 3 g3 R3).2, fun h => (a2 ?_).2, fun h => (a3 ?_).2⟩ <;>
        norm_num only [s4, s5, s6] at h <;> linarith

/-! ### A quadrangle without parallel sides, with the sides 16, 13, 5 and 20 -/

def kinkPoint : Nat → V2 ℝ
  | 0 => ⟨0, 0⟩
  | 1 => ⟨16, 0⟩
  | 2 => ⟨16, 13⟩
  | _ => ⟨12, 16⟩

private noncomputable def kink0 : Edge2 ℝ := rectEdge 0 ⟨0, 0⟩ ⟨16, 0⟩ ⟨1, 0⟩
private noncomputable def kink1 : Edge2 ℝ := rectEdge 1 ⟨16, 0⟩ ⟨16, 13⟩ ⟨0, 1⟩
private noncomputable def kink2 : Edge2 ℝ := rectEdge 2 ⟨16, 13⟩ ⟨12, 16⟩ ⟨-4 / 5, 3 / 5⟩
private noncomputable def kink3 : Edge2 ℝ := rectEdge 3 ⟨12, 16⟩ ⟨0, 0⟩ ⟨-3 / 5, -4 / 5⟩

private theorem kink_len : eucl (kinkPoint 0) (kinkPoint 1) = 16 ∧ eucl (kinkPoint 1) (kinkPoint 2) = 13 ∧
    eucl (kinkPoint 2) (kinkPoint 3) = 5 ∧ eucl (kinkPoint 3) (kinkPoint 0) = 20 := by
  refine ⟨?_, ?_, ?_, ?_⟩
  · rw [eucl, show ((kinkPoint 0).x - (kinkPoint 1).x) ^ 2 + ((kinkPoint 0).y - (kinkPoint 1).y) ^ 2 = 16 ^ 2 by
      norm_num [kinkPoint]]; exact Real.sqrt_sq (by norm_num)
  · rw [eucl, show ((kinkPoint 1).x - (kinkPoint 2).x) ^ 2 + ((kinkPoint 1).y - (kinkPoint 2).y) ^ 2 = 13 ^ 2 by
      norm_num [kinkPoint]]; exact Real.sqrt_sq (by norm_num)
  · rw [eucl, show ((kinkPoint 2).x - (kinkPoint 3).x) ^ 2 + ((kinkPoint 2).y - (kinkPoint 3).y) ^ 2 = 5 ^ 2 by
      norm_num [kinkPoint]]; exact Real.sqrt_sq (by norm_num)
  · rw [eucl, show ((kinkPoint 3).x - (kinkPoint 0).x) ^ 2 + ((kinkPoint 3).y - (kinkPoint 0).y) ^ 2 = 20 ^ 2 by
      norm_num [kinkPoint]]; exact Real.sqrt_sq (by norm_num)

private theorem sides_kink : sides 0 4 kinkPoint = [kink0, kink1, kink2, kink3] := by
  have r4 : List.range 4 = [0, 1, 2, 3] := rfl
  obtain ⟨e1, e2, e3, e4⟩ := kink_len
  simp only [sides, r4, List.map_cons, List.map_nil, kink0, kink1, kink2, kink3, rectEdge]
  norm_num [e1, e2, e3, e4]
  simp only [kinkPoint]
  norm_num

private theorem kink_node {p : V2 ℝ} {h : ℝ} (hn : RoofNode [kink0, kink1, kink2, kink3] p h) :
    (p.x = 32 / 3 ∧ p.y = 16 / 3) ∨ (p.x = 38 / 3 ∧ p.y = 34 / 3) := by
  obtain ⟨hl, e1, m1, e2, m2, e3, m3, n12, n23, n13, p1, p2, p3⟩ := hn
  have l0 := hl kink0 (by simp)
  have l1 := hl kink1 (by simp)
  have l2 := hl kink2 (by simp)
  have l3 := hl kink3 (by simp)
  simp only [List.mem_cons, List.not_mem_nil, or_false] at m1 m2 m3
  simp only [kink0, kink1, kink2, kink3, rectEdge, height] at l0 l1 l2 l3
  rcases m1 with rfl | rfl | rfl | rfl <;> rcases m2 with rfl | rfl | rfl | rfl <;>
    rcases m3 with rfl | rfl | rfl | rfl <;>
    first
    | exact absurd rfl n12
    | exact absurd rfl n23
    | exact absurd rfl n13
    | (simp only [kink0, kink1, kink2, kink3, rectEdge, height] at p1 p2 p3
       exact .inl ⟨by linarith, by linarith⟩)
    | (simp only [kink0, kink1, kink2, kink3, rectEdge, height] at p1 p2 p3
       exact .inr ⟨by linarith, by linarith⟩)
    | (simp only [kink0, kink1, kink2, kink3, rectEdge, height] at p1 p2 p3; exfalso; linarith)

private theorem kink_triple {h : ℝ} (ht : Triple [kink0, kink1, kink2, kink3] h) :
    h = 16 / 3 ∨ h = 10 / 3 ∨ h = 26 / 3 ∨ h = 20 / 3 := by
  obtain ⟨p, e1, m1, e2, m2, e3, m3, n12, n23, n13, p1, p2, p3⟩ := ht
  simp only [List.mem_cons, List.not_mem_nil, or_false] at m1 m2 m3
  rcases m1 with rfl | rfl | rfl | rfl <;> rcases m2 with rfl | rfl | rfl | rfl <;>
    rcases m3 with rfl | rfl | rfl | rfl <;>
    first
    | exact absurd rfl n12
    | exact absurd rfl n23
    | exact absurd rfl n13
    | (simp only [kink0, kink1, kink2, kink3, rectEdge, height] at p1 p2 p3; left; linarith)
    | (simp only [kink0, kink1, kink2, kink3, rectEdge, height] at p1 p2 p3; right; left; linarith)
    | (simp only [kink0, kink1, kink2, kink3, rectEdge, height] at p1 p2 p3; right; right; left; linarith)
    | (simp only [kink0, kink1, kink2, kink3, rectEdge, height] at p1 p2 p3; right; right; right; linarith)

/-- the quadrangle at the height 3, with a roof of the height 4 -/
noncomputable def kinkArgs : PolyArgs ℝ :=
  { verts := [⟨0, 0, 3⟩, ⟨16, 0, 3⟩, ⟨16, 13, 3⟩, ⟨12, 16, 3⟩], first := 0, num := 4, holes := none, height := 4,
    tan := 0, faces := none, units := none }

/-- the sides of 16 and 5 get triangles, those of 13 and 20 quadrangles -/
example (rt : Rt) : ∃ out new fs g0 g1 g2 g3, polygonize rt 17 kinkArgs = some out ∧
    out.verts = kinkArgs.verts ++ new ∧ new.length = 2 ∧ out.result = .ok fs ∧ fs.Perm [g0, g1, g2, g3] ∧
    g0.length = 3 ∧ g1.length = 4 ∧ g2.length = 3 ∧ g3.length = 4 := by
  obtain ⟨e1, e2, e3, e4⟩ := kink_len
  have l0 : sideLen kinkPoint 0 = 16 := e1
  have l1 : sideLen kinkPoint 1 = 13 := e2
  have l2 : sideLen kinkPoint 2 = 5 := e3
  have l3 : sideLen kinkPoint 3 = 20 := e4
  have l4 : sideLen kinkPoint 4 = 16 := e1
  have l5 : sideLen kinkPoint 5 = 13 := e2
  have l6 : sideLen kinkPoint 6 = 5 := e3
  have hm := C87_quadrangle rt kinkArgs kinkPoint rfl rfl rfl ?_ ?_ ?_ ?_ ?_ ?_ 17 le_rfl
  · obtain ⟨out, new, fs, g0, g1, g2, g3, h1, h2, h3, h4, -, h5, h6⟩ := hm
    refine ⟨out, new, fs, g0, g1, g2, g3, h1, h2, h5 (by rw [l0, l1, l2, l3]; norm_num), h3, h4, ?_, ?_, ?_, ?_⟩
    · exact (h6 0 g0 rfl).2.2.1 (by norm_num [l0, l1, l2, l3])
    · exact (h6 1 g1 rfl).2.2.2 (by norm_num [l1, l2, l3, l4])
    · exact (h6 2 g2 rfl).2.2.1 (by norm_num [l2, l3, l4, l5])
    · exact (h6 3 g3 rfl).2.2.2 (by norm_num [l3, l4, l5, l6])
  · intro k hk
    have : k = 0 ∨ k = 1 ∨ k = 2 ∨ k = 3 := by omega
    rcases this with rfl | rfl | rfl | rfl <;> simp [kinkArgs, kinkPoint, V3.xy]
  · intro i j hi hj h1 h2
    have hi' : i = 0 ∨ i = 1 ∨ i = 2 ∨ i = 3 := by omega
    have hj' : j = 0 ∨ j = 1 ∨ j = 2 ∨ j = 3 := by omega
    rcases hi' with rfl | rfl | rfl | rfl <;> rcases hj' with rfl | rfl | rfl | rfl <;>
      simp at h1 h2 ⊢ <;> norm_num [kinkPoint, area2]
  · intro k hk
    have : k = 0 ∨ k = 1 ∨ k = 2 ∨ k = 3 := by omega
    rcases this with rfl | rfl | rfl | rfl <;> norm_num [e1, e2, e3, e4]
  · show Separated (sides 0 4 kinkPoint)
    rw [sides_kink]
    intro h h' t t' _ hlt
    rcases kink_triple t with rfl | rfl | rfl | rfl <;> rcases kink_triple t' with rfl | rfl | rfl | rfl <;> linarith
  · show Blunt (sides 0 4 kinkPoint)
    rw [sides_kink]
    refine ⟨?_, ?_⟩
    · intro e he f hf g hg n1 n2 n3
      simp only [List.mem_cons, List.not_mem_nil, or_false] at he hf hg
      rcases he with rfl | rfl | rfl | rfl <;> rcases hf with rfl | rfl | rfl | rfl <;>
        first
        | exact absurd rfl n1
        | (left; norm_num [kink0, kink1, kink2, kink3, rectEdge])
    · intro e he f hf hef
      simp only [List.mem_cons, List.not_mem_nil, or_false] at he hf
      rcases he with rfl | rfl | rfl | rfl <;> rcases hf with rfl | rfl | rfl | rfl <;>
        first
        | (norm_num [kink0, kink1, kink2, kink3, rectEdge] at hef; done)
        | norm_num [kink0, kink1, kink2, kink3, rectEdge]
  · show NodesApart (sides 0 4 kinkPoint)
    rw [sides_kink]
    intro p h p' h' hn hn' hne
    have c1 := kink_node hn
    have c2 := kink_node hn'
    cases p with
    | mk x y =>
      cases p' with
      | mk x' y' =>
        simp only at c1 c2
        rcases c1 with ⟨rfl, rfl⟩ | ⟨rfl, rfl⟩ <;> rcases c2 with ⟨rfl, rfl⟩ | ⟨rfl, rfl⟩ <;>
          first
          | exact absurd rfl hne
          | norm_num

end Polyskel
