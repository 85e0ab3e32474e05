import Verif.Proofs.Building
import Verif.Spec.Mesh
import Mathlib.Tactic.Ring
import Mathlib.Tactic.Linarith
/-
Lemmas for C76: sums along the edges of a mesh.
-/
namespace Polyskel
open Scalar Geo

theorem sum_map_add_mul {α : Type} (l : List α) (f g : α → ℝ) (c : ℝ) :
    (l.map fun x => f x + c * g x).sum = (l.map f).sum + c * (l.map g).sum := by
  induction l with
  | nil => simp
  | cons x l ih => simp only [List.map_cons, List.sum_cons, ih]; ring

/-- around a face every difference adds up to zero -/
theorem around_zero {α : Type} (f : List α) (g : α → ℝ) :
    ((f.zip (f.rotate 1)).map fun d => g d.2 - g d.1).sum = 0 := by
  have h1 : ((f.zip (f.rotate 1)).map fun d => g d.1).sum = (f.map g).sum := by
    rw [show (fun d : α × α => g d.1) = g ∘ Prod.fst from rfl, ← List.map_map, List.map_fst_zip (by simp)]
  have h2 : ((f.zip (f.rotate 1)).map fun d => g d.2).sum = (f.map g).sum := by
    rw [show (fun d : α × α => g d.2) = g ∘ Prod.snd from rfl, ← List.map_map, List.map_snd_zip (by simp)]
    exact ((List.rotate_perm f 1).map g).sum_eq
  have := sum_map_add_mul (f.zip (f.rotate 1)) (fun d => g d.2) (fun d => g d.1) (-1)
  rw [h1, h2] at this
  rw [show (fun d : α × α => g d.2 - g d.1) = fun d => g d.2 + -1 * g d.1 by funext d; ring, this]
  ring

/-- the normal of a face in the plane `z = α + β x + γ y` -/
theorem faceNormal_plane {V : List (V3 ℝ)} {f : List Int} {α β γ : ℝ}
    (h : ∀ v ∈ f, (vertexAt V v).z = α + β * (vertexAt V v).x + γ * (vertexAt V v).y) :
    (faceNormal V f).x = -β * (faceNormal V f).z ∧ (faceNormal V f).y = -γ * (faceNormal V f).z := by
  have hm : ∀ d ∈ f.zip (f.rotate 1), d.1 ∈ f ∧ d.2 ∈ f := by
    intro d hd
    exact ⟨(List.of_mem_zip hd).1, List.mem_rotate.1 (List.of_mem_zip hd).2⟩
  constructor
  · have e : (faceNormal V f).x = ((f.zip (f.rotate 1)).map fun d =>
        (-α) * ((vertexAt V d.2).y - (vertexAt V d.1).y) + (-β) *
          ((vertexAt V d.1).x * (vertexAt V d.2).y - (vertexAt V d.1).y * (vertexAt V d.2).x)).sum := by
      simp only [faceNormal]
      congr 1
      apply List.map_congr_left
      intro d hd
      rw [h _ (hm d hd).1, h _ (hm d hd).2]
      ring
    rw [e, sum_map_add_mul, List.sum_map_mul_left, around_zero f (fun v => (vertexAt V v).y)]
    simp [faceNormal]
  · have e : (faceNormal V f).y = ((f.zip (f.rotate 1)).map fun d =>
        α * ((vertexAt V d.2).x - (vertexAt V d.1).x) + (-γ) *
          ((vertexAt V d.1).x * (vertexAt V d.2).y - (vertexAt V d.1).y * (vertexAt V d.2).x)).sum := by
      simp only [faceNormal]
      congr 1
      apply List.map_congr_left
      intro d hd
      rw [h _ (hm d hd).1, h _ (hm d hd).2]
      ring
    rw [e, sum_map_add_mul, List.sum_map_mul_left, around_zero f (fun v => (vertexAt V v).x)]
    simp [faceNormal]

/-- the area seen from above, measured from any point -/
theorem faceNormal_z {V : List (V3 ℝ)} {f : List Int} (X : V2 ℝ) : (faceNormal V f).z =
    ((f.zip (f.rotate 1)).map fun d => area2 (vertexAt V d.1).xy (vertexAt V d.2).xy X).sum := by
  have e : ∀ d : Int × Int, area2 (vertexAt V d.1).xy (vertexAt V d.2).xy X =
      (((vertexAt V d.1).x * (vertexAt V d.2).y - (vertexAt V d.1).y * (vertexAt V d.2).x) +
        X.y * ((vertexAt V d.2).x - (vertexAt V d.1).x)) +
        (-X.x) * ((vertexAt V d.2).y - (vertexAt V d.1).y) := by
    intro d; simp only [area2, V3.xy]; ring
  simp only [e]
  rw [sum_map_add_mul, sum_map_add_mul, around_zero f (fun v => (vertexAt V v).x),
    around_zero f (fun v => (vertexAt V v).y)]
  simp [faceNormal]

/-- a face that lies around a point has a positive area -/
theorem faceNormal_pos {V : List (V3 ℝ)} {f : List Int} (hf : f ≠ []) (hi : ∀ v ∈ f, v.toNat < V.length)
    {X : V2 ℝ} (h : WithinFace V f X) : 0 < (faceNormal V f).z := by
  rw [faceNormal_z X]
  apply List.sum_pos
  · intro y hy
    obtain ⟨d, hd, rfl⟩ := List.mem_map.1 hy
    have hd' : d ∈ meshDarts [f] := by simpa [meshDarts] using hd
    obtain ⟨g, hg, i, h1, h2⟩ := mem_meshDarts.1 hd'
    obtain rfl : g = f := by simpa using hg
    have e1 := List.getElem?_eq_getElem (hi _ (List.mem_of_getElem? h1))
    have e2 := List.getElem?_eq_getElem (hi _ (List.mem_of_getElem? h2))
    have := h i d.1 d.2 _ _ h1 h2 e1 e2
    simpa [vertexAt, e1, e2] using this
  · intro h0
    have := congrArg List.length h0
    simp at this
    exact hf this

/-- Stokes: what changes its sign with the direction adds up to the sum along the border -/
theorem Bounded.sum {fs : List (List Int)} {b : List (Int × Int)} (h : Bounded fs b) (hb : b.Nodup)
    (w : Int × Int → ℝ) (hw : ∀ p q, w (q, p) = - w (p, q)) :
    (fs.map fun f => ((f.zip (f.rotate 1)).map w).sum).sum = (b.map w).sum := by
  classical
  have e : (fs.map fun f => ((f.zip (f.rotate 1)).map w).sum).sum = ((meshDarts fs).map w).sum := by
    unfold meshDarts
    clear h
    induction fs with
    | nil => simp
    | cons f fs ih => simp_all [List.flatMap_cons]
  rw [e]
  set D := meshDarts fs with hD
  have hp : (D.filter (fun d => decide ((d.2, d.1) ∈ D)) ++ D.filter (fun d => !decide ((d.2, d.1) ∈ D))).Perm D :=
    List.filter_append_perm _ D
  rw [← (hp.map w).sum_eq, List.map_append, List.sum_append]
  have h1 : (D.filter (fun d => !decide ((d.2, d.1) ∈ D))).Perm b := by
    rw [List.perm_ext_iff_of_nodup (h.once.filter _) hb]
    intro d
    simp only [List.mem_filter, Bool.not_eq_true', decide_eq_false_iff_not]
    constructor
    · rintro ⟨h1, h2⟩
      exact (h.match_iff d h1).1 h2
    · intro hd
      exact ⟨h.bord d hd, (h.match_iff d (h.bord d hd)).2 hd⟩
  rw [(h1.map w).sum_eq]
  set D' := D.filter (fun d => decide ((d.2, d.1) ∈ D)) with hD'
  have hn : D'.Nodup := h.once.filter _
  have h2 : (D'.map Prod.swap).Perm D' := by
    rw [List.perm_ext_iff_of_nodup (hn.map Prod.swap_injective) hn]
    intro d
    simp only [List.mem_map, hD', List.mem_filter, decide_eq_true_eq]
    constructor
    · rintro ⟨x, ⟨h1, h2⟩, rfl⟩
      exact ⟨h2, h1⟩
    · rintro ⟨h1, h2⟩
      exact ⟨(d.2, d.1), ⟨h2, h1⟩, rfl⟩
  have h3 := (h2.map w).sum_eq
  rw [List.map_map] at h3
  have h4 : (D'.map (w ∘ Prod.swap)).sum = -(D'.map w).sum := by
    clear_value D'
    clear hn h2 h3 hD' h1 hp
    induction D' with
    | nil => simp
    | cons x l ih =>
      simp only [List.map_cons, List.sum_cons, ih, Function.comp, Prod.swap]
      rw [hw]; ring
  linarith

theorem polygonDarts_nodup (first n : Nat) : (polygonDarts first n).Nodup := by
  unfold polygonDarts
  refine (List.nodup_range (n := n)).map ?_
  intro i j h
  simp only [Prod.mk.injEq] at h
  omega

end Polyskel
