import Verif.Props.HipRoof
import Verif.Spec.Samples
import Verif.Spec.Runtime
/-
C70: similar polygons get similar roofs.
-/
namespace Polyskel
open Scalar Geo

/-- the image of a point: turned by the direction `u`, enlarged by `l`, moved to `O` -/
def simPoint (O u : V2 ℝ) (l : ℝ) (p : V2 ℝ) : V2 ℝ :=
  ⟨O.x + l * (p.x * u.x - p.y * u.y), O.y + l * (p.x * u.y + p.y * u.x)⟩

/-- the same in space: the height is enlarged as well, and moved by `b` -/
def simVert (O u : V2 ℝ) (l b : ℝ) (v : V3 ℝ) : V3 ℝ :=
  ⟨(simPoint O u l v.xy).x, (simPoint O u l v.xy).y, l * v.z + b⟩

/-- the image of a side -/
def simEdge (O u : V2 ℝ) (l : ℝ) (first n : Nat) (e : Edge2 ℝ) : Edge2 ℝ :=
  { oid := e.oid, i1 := first + e.oid, i2 := first + (e.oid + 1) % n, p1 := simPoint O u l e.p1,
    p2 := simPoint O u l e.p2,
    norm := ⟨e.norm.x * u.x - e.norm.y * u.y, e.norm.x * u.y + e.norm.y * u.x⟩ }

section
variable {O u : V2 ℝ} {l : ℝ} (hu : u.x ^ 2 + u.y ^ 2 = 1) (hl : 0 < l)
include hu

theorem sim_area (p q r : V2 ℝ) :
    area2 (simPoint O u l p) (simPoint O u l q) (simPoint O u l r) = l ^ 2 * area2 p q r := by
  simp only [simPoint, area2]
  linear_combination l ^ 2 * ((q.x - p.x) * (r.y - p.y) - (q.y - p.y) * (r.x - p.x)) * hu

include hl

theorem sim_eucl (p q : V2 ℝ) : eucl (simPoint O u l p) (simPoint O u l q) = l * eucl p q := by
  simp only [simPoint, eucl]
  rw [show (O.x + l * (p.x * u.x - p.y * u.y) - (O.x + l * (q.x * u.x - q.y * u.y))) ^ 2 +
    (O.y + l * (p.x * u.y + p.y * u.x) - (O.y + l * (q.x * u.y + q.y * u.x))) ^ 2 =
    l ^ 2 * ((p.x - q.x) ^ 2 + (p.y - q.y) ^ 2) by
      linear_combination l ^ 2 * ((p.x - q.x) ^ 2 + (p.y - q.y) ^ 2) * hu]
  rw [Real.sqrt_mul (by positivity), Real.sqrt_sq hl.le]

theorem sim_onto (X : V2 ℝ) : ∃ p, simPoint O u l p = X := by
  refine ⟨⟨((X.x - O.x) * u.x + (X.y - O.y) * u.y) / l, ((X.y - O.y) * u.x - (X.x - O.x) * u.y) / l⟩, ?_⟩
  obtain ⟨x, y⟩ := X
  simp only [simPoint, V2.mk.injEq]
  constructor
  · field_simp
    linear_combination (x - O.x) * hu
  · field_simp
    linear_combination (y - O.y) * hu

theorem sim_inj {p q : V2 ℝ} (h : simPoint O u l p = simPoint O u l q) : p = q := by
  have h1 := sim_eucl (O := O) hu hl p q
  rw [h] at h1
  have h2 : eucl (simPoint O u l q) (simPoint O u l q) = 0 := by simp [eucl]
  rw [h2] at h1
  have h3 : eucl p q = 0 := by
    rcases mul_eq_zero.1 h1.symm with h4 | h4
    · exact absurd h4 hl.ne'
    · exact h4
  unfold eucl at h3
  rw [Real.sqrt_eq_zero (by positivity)] at h3
  obtain ⟨x, y⟩ := p
  obtain ⟨x', y'⟩ := q
  simp only [V2.mk.injEq] at h3 ⊢
  constructor <;> nlinarith [sq_nonneg (x - x'), sq_nonneg (y - y')]

omit hl in
theorem sim_height {first n : Nat} (e : Edge2 ℝ) (X : V2 ℝ) :
    height (simEdge O u l first n e).p1 (simEdge O u l first n e).norm (simPoint O u l X) =
      l * height e.p1 e.norm X := by
  simp only [simEdge, simPoint, height]
  linear_combination l * (e.norm.x * (X.y - e.p1.y) - e.norm.y * (X.x - e.p1.x)) * hu

omit hl in
theorem sim_dot {first n : Nat} (e f : Edge2 ℝ) :
    (simEdge O u l first n e).norm.x * (simEdge O u l first n f).norm.x +
      (simEdge O u l first n e).norm.y * (simEdge O u l first n f).norm.y =
      e.norm.x * f.norm.x + e.norm.y * f.norm.y := by
  simp only [simEdge]
  linear_combination (e.norm.x * f.norm.x + e.norm.y * f.norm.y) * hu

omit hl in
theorem sim_norm {first n : Nat} {e f : Edge2 ℝ}
    (h : (simEdge O u l first n e).norm = (simEdge O u l first n f).norm) : e.norm = f.norm := by
  simp only [simEdge, V2.mk.injEq] at h
  obtain ⟨h1, h2⟩ := h
  generalize e.norm = p at *
  generalize f.norm = q at *
  obtain ⟨x, y⟩ := p
  obtain ⟨x', y'⟩ := q
  simp only [V2.mk.injEq] at h1 h2 ⊢
  exact ⟨by linear_combination u.x * h1 + u.y * h2 - (x - x') * hu,
    by linear_combination u.x * h2 - u.y * h1 - (y - y') * hu⟩

theorem sides_sim (first first' n : Nat) (P : Nat → V2 ℝ) :
    sides first' n (fun k => simPoint O u l (P k)) = (sides first n P).map (simEdge O u l first' n) := by
  apply List.ext_getElem
  · simp [sides]
  intro k h1 h2
  have hk : k < n := by simpa [sides] using h1
  simp only [sides, List.getElem_map, List.getElem_range, simEdge, sim_eucl hu hl, Edge2.mk.injEq, true_and,
    V2.mk.injEq]
  simp only [simPoint]
  constructor
  · rw [show O.x + l * ((P ((k + 1) % n)).x * u.x - (P ((k + 1) % n)).y * u.y) -
      (O.x + l * ((P k).x * u.x - (P k).y * u.y)) = l * (((P ((k + 1) % n)).x - (P k).x) * u.x -
        ((P ((k + 1) % n)).y - (P k).y) * u.y) by ring, mul_div_mul_left _ _ hl.ne']
    ring
  · rw [show O.y + l * ((P ((k + 1) % n)).x * u.y + (P ((k + 1) % n)).y * u.x) -
      (O.y + l * ((P k).x * u.y + (P k).y * u.x)) = l * (((P ((k + 1) % n)).x - (P k).x) * u.y +
        ((P ((k + 1) % n)).y - (P k).y) * u.x) by ring, mul_div_mul_left _ _ hl.ne']
    ring

omit hu hl in
theorem sides_oid {first n : Nat} {P : Nat → V2 ℝ} {e f : Edge2 ℝ} (he : e ∈ sides first n P)
    (hf : f ∈ sides first n P) (h : e.oid = f.oid) : e = f := by
  simp only [sides, List.mem_map] at he hf
  obtain ⟨k, -, rfl⟩ := he
  obtain ⟨j, -, rfl⟩ := hf
  simp only at h
  subst h
  rfl

variable {first first' n : Nat} {P : Nat → V2 ℝ}

omit hu hl in
theorem simEdge_ne {e f : Edge2 ℝ} (he : e ∈ sides first n P) (hf : f ∈ sides first n P) :
    simEdge O u l first' n e ≠ simEdge O u l first' n f ↔ e ≠ f := by
  constructor
  · rintro h rfl
    exact h rfl
  · intro h h'
    exact h (sides_oid he hf (by simpa [simEdge] using congrArg (fun x : Edge2 ℝ => x.oid) h'))

theorem sim_three {p : V2 ℝ} {h : ℝ} :
    (∃ e1 ∈ sides first' n (fun k => simPoint O u l (P k)), ∃ e2 ∈ sides first' n (fun k => simPoint O u l (P k)),
      ∃ e3 ∈ sides first' n (fun k => simPoint O u l (P k)), e1 ≠ e2 ∧ e2 ≠ e3 ∧ e1 ≠ e3 ∧
      height e1.p1 e1.norm (simPoint O u l p) = l * h ∧ height e2.p1 e2.norm (simPoint O u l p) = l * h ∧
      height e3.p1 e3.norm (simPoint O u l p) = l * h) ↔
    ∃ e1 ∈ sides first n P, ∃ e2 ∈ sides first n P, ∃ e3 ∈ sides first n P, e1 ≠ e2 ∧ e2 ≠ e3 ∧ e1 ≠ e3 ∧
      height e1.p1 e1.norm p = h ∧ height e2.p1 e2.norm p = h ∧ height e3.p1 e3.norm p = h := by
  rw [sides_sim hu hl first first']
  constructor
  · rintro ⟨_, k1, _, k2, _, k3, h1⟩
    obtain ⟨e1, m1, rfl⟩ := List.mem_map.1 k1
    obtain ⟨e2, m2, rfl⟩ := List.mem_map.1 k2
    obtain ⟨e3, m3, rfl⟩ := List.mem_map.1 k3
    rw [simEdge_ne m1 m2, simEdge_ne m2 m3, simEdge_ne m1 m3, sim_height hu, sim_height hu, sim_height hu,
      mul_right_inj' hl.ne', mul_right_inj' hl.ne', mul_right_inj' hl.ne'] at h1
    exact ⟨e1, m1, e2, m2, e3, m3, h1⟩
  · rintro ⟨e1, m1, e2, m2, e3, m3, h1⟩
    refine ⟨_, List.mem_map_of_mem m1, _, List.mem_map_of_mem m2, _, List.mem_map_of_mem m3, ?_⟩
    rw [simEdge_ne m1 m2, simEdge_ne m2 m3, simEdge_ne m1 m3, sim_height hu, sim_height hu, sim_height hu,
      mul_right_inj' hl.ne', mul_right_inj' hl.ne', mul_right_inj' hl.ne']
    exact h1

theorem sim_node {p : V2 ℝ} {h : ℝ} :
    RoofNode (sides first' n (fun k => simPoint O u l (P k))) (simPoint O u l p) (l * h) ↔
      RoofNode (sides first n P) p h := by
  have key : (∀ e ∈ sides first' n (fun k => simPoint O u l (P k)), l * h ≤ height e.p1 e.norm (simPoint O u l p)) ↔
      ∀ e ∈ sides first n P, h ≤ height e.p1 e.norm p := by
    rw [sides_sim hu hl first first', List.forall_mem_map]
    refine forall₂_congr fun e _ => ?_
    rw [sim_height hu, mul_le_mul_iff_right₀ hl]
  exact ⟨fun hn => ⟨key.1 hn.least, (sim_three hu hl).1 hn.three⟩,
    fun hn => ⟨key.2 hn.least, (sim_three hu hl).2 hn.three⟩⟩

/-- an enlarged polygon has its meetings farther apart -/
theorem sim_separated (h1 : 1 ≤ l) (hs : Separated (sides first n P)) :
    Separated (sides first' n (fun k => simPoint O u l (P k))) := by
  have hl' : ∀ h, l * (h / l) = h := fun h => mul_div_cancel₀ _ hl.ne'
  have key : ∀ h, Triple (sides first' n (fun k => simPoint O u l (P k))) h → Triple (sides first n P) (h / l) := by
    rintro h ⟨q, hq⟩
    obtain ⟨p, rfl⟩ := sim_onto (O := O) hu hl q
    exact ⟨p, (sim_three (first := first) (first' := first') hu hl).1 (by rw [hl' h]; exact hq)⟩
  intro h h' t t' h0 hlt
  have := hs _ _ (key h t) (key h' t') (div_nonneg h0 hl.le) (div_lt_div_of_pos_right hlt hl)
  have h2 := mul_le_mul_of_nonneg_left this hl.le
  rw [mul_add, hl', hl'] at h2
  linarith

theorem sim_blunt (hb : Blunt (sides first n P)) : Blunt (sides first' n (fun k => simPoint O u l (P k))) := by
  rw [sides_sim hu hl first first']
  constructor
  · intro _ ke _ kf _ kg h1 h2 h3
    obtain ⟨e, he, rfl⟩ := List.mem_map.1 ke
    obtain ⟨f, hf, rfl⟩ := List.mem_map.1 kf
    obtain ⟨g, hg, rfl⟩ := List.mem_map.1 kg
    rw [sim_dot hu, sim_dot hu, sim_dot hu]
    exact hb.1 e he f hf g hg ((simEdge_ne he hf).1 h1) ((simEdge_ne hf hg).1 h2) ((simEdge_ne he hg).1 h3)
  · intro _ ke _ kf h
    obtain ⟨e, he, rfl⟩ := List.mem_map.1 ke
    obtain ⟨f, hf, rfl⟩ := List.mem_map.1 kf
    rw [sim_dot hu]
    exact hb.2 e he f hf (sim_inj hu hl h)

theorem sim_ring {e : Edge2 ℝ} {m : Nat} {Q : Nat → V2 ℝ} (h : CellRing (sides first n P) e m Q) :
    CellRing (sides first' n (fun k => simPoint O u l (P k))) (simEdge O u l first' n e) m
      (fun i => simPoint O u l (Q i)) := by
  rw [sides_sim hu hl first first']
  refine ⟨h.size, fun i hi => ?_, fun i hi _ kg => ?_, fun i hi h0 => ?_, ?_, ?_, fun i h2 hi => ?_⟩
  · rw [sim_area hu]
    exact mul_pos (by positivity) (h.left i hi)
  · obtain ⟨g, hg, rfl⟩ := List.mem_map.1 kg
    rw [sim_height hu, sim_height hu]
    exact mul_le_mul_of_nonneg_left (h.near i hi g hg) hl.le
  · obtain ⟨g, hg, h1, h2, h3⟩ := h.ridge i hi h0
    refine ⟨_, List.mem_map_of_mem hg, fun h => h1 (sim_norm hu h), ?_, ?_⟩
    · rw [sim_height hu, sim_height hu, h2]
    · rw [sim_height hu, sim_height hu, h3]
  · rw [h.first]; rfl
  · rw [h.second]; rfl
  · rw [sim_height hu]
    exact mul_pos hl (h.inside i h2 hi)

end

/-- C70 for convex polygons: when a polygon is turned, enlarged or made smaller, and moved (also up or down),
together with the requested height, then so are the points of all faces.  (Missing: polygons that are not
convex, or with nodes near each other before or after.  For those the property is false, as the thresholds in
the code are absolute and measured along the axes: `C70_scale_refuted`, `C70_turn_refuted`.) -/
theorem C70_convex_partial (rt rt' : Rt) (a a' : PolyArgs ℝ) (P : Nat → V2 ℝ) (O u : V2 ℝ) (l b : ℝ)
    (hu : u.x ^ 2 + u.y ^ 2 = 1) (hl : 0 < l)
    (hh : a.holes.getD [] = []) (hh' : a'.holes.getD [] = []) (hun : a.units = none) (hun' : a'.units = none)
    (h3 : 3 ≤ a.num) (hn : a'.num = a.num)
    (hv : ∀ k, k < a.num → ∃ A, a.verts[a.first + k]? = some A ∧ A.xy = P k)
    (hv' : ∀ k, k < a.num → a'.verts[a'.first + k]? = (a.verts[a.first + k]?).map (simVert O u l b))
    (hheight : a'.height = l * a.height) (htan : a'.tan = a.tan)
    (hleft : ∀ i j, i < a.num → j < a.num → j ≠ i → j ≠ (i + 1) % a.num →
      0 < area2 (P i) (P ((i + 1) % a.num)) (P j))
    (hlong : ∀ k, k < a.num → 1 / 10 ^ 35 < eucl (P k) (P ((k + 1) % a.num)) ^ 2)
    (hlong' : ∀ k, k < a.num → 1 / 10 ^ 35 < (l * eucl (P k) (P ((k + 1) % a.num))) ^ 2)
    (hbl : Blunt (sides a.first a.num P))
    (hsep : Separated (sides a.first a.num P)) (hap : NodesApart (sides a.first a.num P))
    (hsep' : Separated (sides a'.first a.num fun k => simPoint O u l (P k)))
    (hap' : NodesApart (sides a'.first a.num fun k => simPoint O u l (P k))) (fuel fuel' : Nat)
    (hf : 4 * a.num + 1 ≤ fuel) (hf' : 4 * a.num + 1 ≤ fuel') :
    ∃ out out' fs fs', polygonize rt fuel a = some out ∧ polygonize rt' fuel' a' = some out' ∧
      out.result = .ok (a.faces.getD [] ++ fs) ∧ out'.result = .ok (a'.faces.getD [] ++ fs') ∧
      fs.length = a.num ∧
      (fs'.map (facePoints out'.verts)).Perm
        (fs.map fun f => (facePoints out.verts f).map (Option.map (simVert O u l b))) := by
  have hmod : ∀ k, k % a.num < a.num := fun k => Nat.mod_lt _ (by omega)
  have hc := sides_convex (first := a.first) h3 hleft
  have hleft' : ∀ i j, i < a.num → j < a.num → j ≠ i → j ≠ (i + 1) % a.num →
      0 < area2 (simPoint O u l (P i)) (simPoint O u l (P ((i + 1) % a.num))) (simPoint O u l (P j)) := by
    intro i j h1 h2 h3 h4
    rw [sim_area hu]
    exact mul_pos (by positivity) (hleft i j h1 h2 h3 h4)
  have hc' := sides_convex (first := a'.first) h3 hleft'
  have hvs' : ∀ k, k < a.num → ∃ A, a'.verts[a'.first + k]? = some A ∧ A.xy = simPoint O u l (P k) := by
    intro k hk
    obtain ⟨A, h1, h2⟩ := hv k hk
    exact ⟨_, by rw [hv' k hk, h1]; rfl, by rw [← h2]; rfl⟩
  obtain ⟨A, out, new, t, fs, σ, hA, hp, hov, hres, -, hall, hz, ht0, ht1, hσ, hF⟩ :=
    roof_of_points rt a P hh hun h3 hv hleft hlong hsep hbl hap fuel hf
  obtain ⟨A', out', new', t', fs', σ', hA', hp', hov', hres', -, hall', hz', ht0', ht1', hσ', hF'⟩ :=
    roof_of_points rt' a' (fun k => simPoint O u l (P k)) hh' hun' (by omega) (by rw [hn]; exact hvs')
      (by rw [hn]; exact hleft') (by
        rw [hn]
        intro k hk
        rw [sim_eucl hu hl]
        exact hlong' k hk) (by rw [hn]; exact hsep')
      (by rw [hn]; exact sim_blunt hu hl hbl) (by rw [hn]; exact hap') fuel' (by rw [hn]; exact hf')
  rw [hn] at hall' hz' ht1' hσ' hF'
  have hAA : A'.z = l * A.z + b := by
    have := hv' 0 (by omega)
    rw [Nat.add_zero, Nat.add_zero, hA', hA] at this
    cases this
    rfl
  have htt : t' = t := by
    by_cases h0 : a.height = 0
    · rw [ht0 h0, ht0' (by rw [hheight, h0, mul_zero]), htan]
    · obtain ⟨V, -, h, hnode, e1, e2⟩ := ht1 h0
      obtain ⟨V', -, h', hnode', e1', e2'⟩ := ht1' (by rw [hheight]; exact mul_ne_zero hl.ne' h0)
      have heq : h' = l * h := by
        apply le_antisymm
        · obtain ⟨p, hp⟩ := sim_onto (O := O) hu hl V'.xy
          rw [← hp, show h' = l * (h' / l) from (mul_div_cancel₀ _ hl.ne').symm] at hnode'
          have := e2 _ _ ((sim_node hu hl).1 hnode')
          have := mul_le_mul_of_nonneg_left this hl.le
          rwa [mul_div_cancel₀ _ hl.ne'] at this
        · exact e2' _ _ ((sim_node hu hl).2 hnode)
      have := hc.node_pos hnode
      apply mul_right_cancel₀ (mul_pos hl this).ne'
      rw [← heq, e1', hheight, ← e1, heq]
      ring
  subst htt
  have hget : ∀ k, k < a.num → ∃ B, out.verts[a.first + k]? = some B ∧ B.xy = P k ∧
      out'.verts[a'.first + k]? = some (simVert O u l b B) := by
    intro k hk
    obtain ⟨B, hB, hBP⟩ := hv k hk
    have hB' := hv' k hk
    rw [hB] at hB'
    exact ⟨B, by rw [hov, List.getElem?_append_left (List.getElem?_eq_some_iff.1 hB).1, hB], hBP,
      by rw [hov', List.getElem?_append_left (List.getElem?_eq_some_iff.1 hB').1, hB']; rfl⟩
  -- the faces over a side
  have hsame : ∀ k f f', k < a.num → (∃ e, (sides a.first a.num P)[k]? = some e ∧
      RoofFace a (sides a.first a.num P) e A.z t' out.verts k f) →
      (∃ e, (sides a'.first a.num fun k => simPoint O u l (P k))[k]? = some e ∧
      RoofFace a' (sides a'.first a.num fun k => simPoint O u l (P k)) e A'.z t' out'.verts k f') →
      facePoints out'.verts f' = (facePoints out.verts f).map (Option.map (simVert O u l b)) := by
    rintro k f f' hk ⟨e, he, hrf⟩ ⟨e', he', hrf'⟩
    have hem := List.mem_of_getElem? he
    have hem' := List.mem_of_getElem? he'
    have hee : e' = simEdge O u l a'.first a.num e := by
      rw [sides_sim hu hl a.first, List.getElem?_map, he] at he'
      exact (Option.some.inj he').symm
    subst hee
    obtain ⟨e1, he1, q1, q2⟩ := sides_get (first := a.first) (P := P) hk
    rw [he] at he1; cases he1
    obtain ⟨V, hV, hVP, hV'⟩ := hget k hk
    obtain ⟨W, hW, hWP, hW'⟩ := hget _ (hmod (k + 1))
    obtain ⟨Q, hQ, -⟩ := hrf.ring hV hW (hVP.trans q1.symm) (hWP.trans q2.symm)
    rw [hrf.points hV hW (hVP.trans q1.symm) (hWP.trans q2.symm) hc hem hQ,
      hrf'.points hV' (W := simVert O u l b W) (by rw [hn]; exact hW') (congrArg (simPoint O u l) (hVP.trans q1.symm))
        (congrArg (simPoint O u l) (hWP.trans q2.symm)) hc' hem' (sim_ring hu hl hQ), List.map_map]
    apply List.map_congr_left
    intro i _
    simp only [Function.comp, Option.map_some]
    congr 1
    split_ifs
    · rfl
    · rfl
    · rw [sim_height hu, hAA]
      simp only [simVert, V3.mk.injEq]
      exact ⟨rfl, rfl, by ring⟩
  have l1 := hF.length_eq
  have l2 : σ.length = a.num := by simpa using hσ.length_eq
  refine ⟨out, out', fs, fs', hp, hp', hres, hres', by omega, ?_⟩
  -- for each side a face
  have hex : ∀ k, k < a.num → ∃ g, ∀ f, (∃ e, (sides a.first a.num P)[k]? = some e ∧
      RoofFace a (sides a.first a.num P) e A.z t' out.verts k f) → facePoints out.verts f = g := by
    intro k hk
    by_cases h : ∃ f, ∃ e, (sides a.first a.num P)[k]? = some e ∧
      RoofFace a (sides a.first a.num P) e A.z t' out.verts k f
    · obtain ⟨f0, e, he, h0⟩ := h
      refine ⟨facePoints out.verts f0, ?_⟩
      · rintro f ⟨e1, he1, h1⟩
        rw [he] at he1; cases he1
        have hem := List.mem_of_getElem? he
        obtain ⟨e1, he1, q1, q2⟩ := sides_get (first := a.first) (P := P) hk
        rw [he] at he1; cases he1
        obtain ⟨V, hV, hVP, -⟩ := hget k hk
        obtain ⟨W, hW, hWP, -⟩ := hget _ (hmod (k + 1))
        obtain ⟨Q, hQ, -⟩ := h0.ring hV hW (hVP.trans q1.symm) (hWP.trans q2.symm)
        rw [h1.points hV hW (hVP.trans q1.symm) (hWP.trans q2.symm) hc hem hQ,
          ← h0.points hV hW (hVP.trans q1.symm) (hWP.trans q2.symm) hc hem hQ]
    · exact ⟨[], fun f hf => absurd ⟨f, hf⟩ h⟩
  choose! g hg using hex
  have m1 : fs.map (fun f => (facePoints out.verts f).map (Option.map (simVert O u l b))) =
      σ.map fun k => (g k).map (Option.map (simVert O u l b)) := by
    have hlt : ∀ k ∈ σ, k < a.num := fun k hk => by simpa using hσ.mem_iff.1 hk
    clear hσ hres l1 l2
    induction hF with
    | nil => rfl
    | @cons k f _ _ h0 _ ih =>
      rw [List.map_cons, List.map_cons, hg k (hlt k List.mem_cons_self) f h0,
        ih (fun k hk => hlt k (List.mem_cons_of_mem _ hk))]
  have hface : ∀ k, k < a.num → ∃ f, ∃ e, (sides a.first a.num P)[k]? = some e ∧
      RoofFace a (sides a.first a.num P) e A.z t' out.verts k f := by
    intro k hk
    have hk' : k ∈ σ := hσ.mem_iff.2 (List.mem_range.2 hk)
    obtain ⟨i, hi, rfl⟩ := List.mem_iff_getElem.1 hk'
    exact ⟨_, (List.forall₂_iff_get.1 hF).2 i hi (by omega)⟩
  have m2 : fs'.map (facePoints out'.verts) = σ'.map fun k => (g k).map (Option.map (simVert O u l b)) := by
    have hlt : ∀ k ∈ σ', k < a.num := fun k hk => by simpa using hσ'.mem_iff.1 hk
    clear hσ' hres'
    induction hF' with
    | nil => rfl
    | @cons k f _ _ h0 _ ih =>
      obtain ⟨f0, hf0⟩ := hface k (hlt k List.mem_cons_self)
      rw [List.map_cons, List.map_cons, hsame k f0 f (hlt k List.mem_cons_self) hf0 h0,
        hg k (hlt k List.mem_cons_self) f0 hf0, ih (fun k hk => hlt k (List.mem_cons_of_mem _ hk))]
  rw [m1, m2]
  exact (hσ'.trans hσ.symm).map _

/-- C70 for enlarging without turning: the hypotheses need to hold for the smaller polygon only. -/
theorem C70_enlarged (rt rt' : Rt) (a a' : PolyArgs ℝ) (P : Nat → V2 ℝ) (O : V2 ℝ) (l b : ℝ) (hl : 1 ≤ l)
    (hh : a.holes.getD [] = []) (hh' : a'.holes.getD [] = []) (hun : a.units = none) (hun' : a'.units = none)
    (h3 : 3 ≤ a.num) (hn : a'.num = a.num)
    (hv : ∀ k, k < a.num → ∃ A, a.verts[a.first + k]? = some A ∧ A.xy = P k)
    (hv' : ∀ k, k < a.num → a'.verts[a'.first + k]? =
      (a.verts[a.first + k]?).map fun v => ⟨O.x + l * v.x, O.y + l * v.y, l * v.z + b⟩)
    (hheight : a'.height = l * a.height) (htan : a'.tan = a.tan)
    (hleft : ∀ i j, i < a.num → j < a.num → j ≠ i → j ≠ (i + 1) % a.num →
      0 < area2 (P i) (P ((i + 1) % a.num)) (P j))
    (hlong : ∀ k, k < a.num → 1 / 10 ^ 35 < eucl (P k) (P ((k + 1) % a.num)) ^ 2)
    (hbl : Blunt (sides a.first a.num P))
    (hsep : Separated (sides a.first a.num P)) (hap : NodesApart (sides a.first a.num P)) (fuel fuel' : Nat)
    (hf : 4 * a.num + 1 ≤ fuel) (hf' : 4 * a.num + 1 ≤ fuel') :
    ∃ out out' fs fs', polygonize rt fuel a = some out ∧ polygonize rt' fuel' a' = some out' ∧
      out.result = .ok (a.faces.getD [] ++ fs) ∧ out'.result = .ok (a'.faces.getD [] ++ fs') ∧
      fs.length = a.num ∧
      (fs'.map (facePoints out'.verts)).Perm
        (fs.map fun f => (facePoints out.verts f).map
          (Option.map fun v => ⟨O.x + l * v.x, O.y + l * v.y, l * v.z + b⟩)) := by
  have hl0 : 0 < l := by linarith
  have hu : (⟨1, 0⟩ : V2 ℝ).x ^ 2 + (⟨1, 0⟩ : V2 ℝ).y ^ 2 = 1 := by norm_num
  have hfun : (fun v : V3 ℝ => (⟨O.x + l * v.x, O.y + l * v.y, l * v.z + b⟩ : V3 ℝ)) = simVert O ⟨1, 0⟩ l b := by
    funext v
    simp [simVert, simPoint, V3.xy]
  rw [hfun] at hv' ⊢
  refine C70_convex_partial rt rt' a a' P O ⟨1, 0⟩ l b hu hl0 hh hh' hun hun' h3 hn hv hv' hheight htan hleft
    hlong ?_ hbl hsep hap (sim_separated hu hl0 hl hsep) ?_ fuel fuel' hf hf'
  · intro k hk
    refine (hlong k hk).trans_le ?_
    rw [mul_pow]
    have : 1 ≤ l ^ 2 := by nlinarith
    nlinarith [sq_nonneg (eucl (P k) (P ((k + 1) % a.num)))]
  · intro q h q' h' hq hq' hne
    obtain ⟨p, rfl⟩ := sim_onto (O := O) hu hl0 q
    obtain ⟨p', rfl⟩ := sim_onto (O := O) hu hl0 q'
    rw [show h = l * (h / l) from (mul_div_cancel₀ _ hl0.ne').symm] at hq
    rw [show h' = l * (h' / l) from (mul_div_cancel₀ _ hl0.ne').symm] at hq'
    have h1 := hap _ _ _ _ ((sim_node hu hl0).1 hq) ((sim_node hu hl0).1 hq') (fun h => hne (by rw [h]))
    simp only [simPoint, mul_one, mul_zero, sub_zero, zero_add]
    rw [show O.x + l * p.x - (O.x + l * p'.x) = l * (p.x - p'.x) by ring,
      show O.y + l * p.y - (O.y + l * p'.y) = l * (p.y - p'.y) by ring, abs_mul, abs_mul, abs_of_pos hl0]
    nlinarith [abs_nonneg (p.x - p'.x), abs_nonneg (p.y - p'.y)]

/-- a case: the hip roof over the rectangle of 8 by 5 (`turnedArgs`), made three times as large and moved -/
example (rt rt' : Rt) : ∃ out out' fs fs', polygonize rt 17 turnedArgs = some out ∧
    polygonize rt' 17 { turnedArgs with
      verts := turnedArgs.verts.map fun v => ⟨10 + 3 * v.x, 20 + 3 * v.y, 3 * v.z + 1⟩ } = some out' ∧
    out.result = .ok fs ∧ out'.result = .ok fs' ∧ fs.length = 4 ∧
    (fs'.map (facePoints out'.verts)).Perm (fs.map fun f => (facePoints out.verts f).map
      (Option.map fun v => ⟨10 + 3 * v.x, 20 + 3 * v.y, 3 * v.z + 1⟩)) := by
  have hu : (⟨3 / 5, 4 / 5⟩ : V2 ℝ).x ^ 2 + (⟨3 / 5, 4 / 5⟩ : V2 ℝ).y ^ 2 = 1 := by norm_num
  have hs : sides 0 4 (rectCorner ⟨1, 2⟩ ⟨3 / 5, 4 / 5⟩ 8 5) = rectSides ⟨1, 2⟩ ⟨3 / 5, 4 / 5⟩ 8 5 0 :=
    sides_rectangle hu (by norm_num) (by norm_num) 0
  refine C70_enlarged rt rt' turnedArgs { turnedArgs with
      verts := turnedArgs.verts.map fun v => ⟨10 + 3 * v.x, 20 + 3 * v.y, 3 * v.z + 1⟩ } (rectCorner ⟨1, 2⟩ ⟨3 / 5, 4 / 5⟩ 8 5) ⟨10, 20⟩ 3 1 (by norm_num) rfl rfl rfl
    rfl (by decide) rfl ?_ ?_ (by simp [turnedArgs]) rfl ?_ ?_ (hs ▸ rect_blunt hu (by norm_num) (by norm_num) 0)
    (hs ▸ rect_separated hu (by norm_num [abs_of_pos]) 0) (hs ▸ rect_apart hu (by norm_num [abs_of_pos]) 0) 17 17
    (by decide) (by decide)
  · intro k hk
    have : k = 0 ∨ k = 1 ∨ k = 2 ∨ k = 3 := by simp only [turnedArgs] at hk; omega
    rcases this with rfl | rfl | rfl | rfl <;> refine ⟨_, rfl, ?_⟩ <;> norm_num [V3.xy, rectCorner, locPoint]
  · intro k _
    exact List.getElem?_map ..
  · intro i j hi hj h1 h2
    simp only [turnedArgs] at hi hj h2 ⊢
    have hi' : i = 0 ∨ i = 1 ∨ i = 2 ∨ i = 3 := by omega
    have hj' : j = 0 ∨ j = 1 ∨ j = 2 ∨ j = 3 := by omega
    rcases hi' with rfl | rfl | rfl | rfl <;> rcases hj' with rfl | rfl | rfl | rfl <;>
      simp at h1 h2 <;> simp only [rectCorner, Nat.reduceAdd, Nat.reduceMod, locPoint_area hu] <;> norm_num
  · intro k hk
    have : k = 0 ∨ k = 1 ∨ k = 2 ∨ k = 3 := by simp only [turnedArgs] at hk; omega
    rcases this with rfl | rfl | rfl | rfl <;>
      simp only [turnedArgs, rectCorner, Nat.reduceAdd, Nat.reduceMod, locPoint_eucl hu] <;>
      rw [Real.sq_sqrt (by positivity)] <;> norm_num

/-- the call for a polygon at height 0 with the pitch 1, all coordinates divided by `den` -/
def callOver (l : List (Int × Int)) (den : Nat) : PolyArgs Soft :=
  { verts := l.map (fun p => mkV3 (sq p.1 den) (sq p.2 den) (sq 0)), first := 0, num := l.length, height := sq 0,
    tan := sq 1 }

/-- C70 does not hold in general: over a rectangle of 5 by 4.92 there is a pyramid, over the same rectangle
enlarged to 10 by 9.84 there is a hip roof. -/
theorem C70_scale_refuted :
    (polygonize rt0 60 (callOver [(0, 0), (320, 0), (320, 315), (0, 315)] 64)).map (·.result) =
      some (.ok [[3, 0, 4], [2, 3, 4], [0, 1, 4], [1, 2, 4]]) ∧
    (polygonize rt0 60 (callOver [(0, 0), (640, 0), (640, 630), (0, 630)] 64)).map (·.result) =
      some (.ok [[3, 0, 4], [2, 3, 4, 5], [0, 1, 5, 4], [1, 2, 5]]) := by
  constructor <;> decide +kernel

/-- C70 does not hold in general: when the same rectangle is turned about its first corner by the angle with
the cosine 3/5, there is a hip roof. -/
theorem C70_turn_refuted :
    (polygonize rt0 60 (callOver [(0, 0), (320, 0), (320, 315), (0, 315)] 64)).map (·.result) =
      some (.ok [[3, 0, 4], [2, 3, 4], [0, 1, 4], [1, 2, 4]]) ∧
    (polygonize rt0 60 (callOver [(0, 0), (192, 256), (-60, 445), (-252, 189)] 64)).map (·.result) =
      some (.ok [[3, 0, 4], [2, 3, 4, 5], [0, 1, 5, 4], [1, 2, 5]]) := by
  constructor <;> decide +kernel

end Polyskel
