import Verif.Proofs.RoofGraph
import Verif.Proofs.Spokes
import Verif.Spec.Roof
/-
How a face walk goes through the graph of a roof.  Used for C62.
-/
namespace Polyskel
open Scalar Real Geo Graph
set_option linter.unusedSectionVars false

/-- twice the area of the triangle of three vectors -/
def tri (a b d : V2 ℝ) : ℝ := (b.x - a.x) * (d.y - a.y) - (b.y - a.y) * (d.x - a.x)

theorem tri_pos {p α β : ℝ} (ha : 0 < α) (hb : 0 < β) (hs : α + β < 2 * π) :
    0 < tri (unitDir p) (unitDir (p + α)) (unitDir (p + α + β)) := by
  have h1 : 0 < sin (α / 2) := sin_pos_of_pos_of_lt_pi (by linarith) (by linarith)
  have h2 : 0 < sin (β / 2) := sin_pos_of_pos_of_lt_pi (by linarith) (by linarith)
  have h3 : 0 < sin (α / 2 + β / 2) := sin_pos_of_pos_of_lt_pi (by linarith) (by linarith)
  have key : tri (unitDir p) (unitDir (p + α)) (unitDir (p + α + β)) =
      4 * (sin (α / 2) * sin (β / 2) * sin (α / 2 + β / 2)) := by
    have e1 : tri (unitDir p) (unitDir (p + α)) (unitDir (p + α + β)) =
        sin α + sin β - sin (α + β) := by
      have a1 : sin α = cos p * sin (p + α) - sin p * cos (p + α) := by
        rw [show sin α = sin (p + α - p) by ring_nf, sin_sub]; ring
      have a2 : sin β = cos (p + α) * sin (p + α + β) - sin (p + α) * cos (p + α + β) := by
        rw [show sin β = sin (p + α + β - (p + α)) by ring_nf, sin_sub]; ring
      have a3 : sin (α + β) = cos p * sin (p + α + β) - sin p * cos (p + α + β) := by
        rw [show sin (α + β) = sin (p + α + β - p) by ring_nf, sin_sub]; ring
      rw [a1, a2, a3]
      simp only [tri, unitDir]
      ring
    rw [e1]
    have b1 : sin α = 2 * sin (α / 2) * cos (α / 2) := by rw [← sin_two_mul]; ring_nf
    have b2 : sin β = 2 * sin (β / 2) * cos (β / 2) := by rw [← sin_two_mul]; ring_nf
    have b3 : sin (α + β) = 2 * sin (α / 2 + β / 2) * cos (α / 2 + β / 2) := by
      rw [← sin_two_mul]; ring_nf
    rw [b1, b2, b3, sin_add, cos_add]
    have c1 := sin_sq_add_cos_sq (α / 2)
    have c2 := sin_sq_add_cos_sq (β / 2)
    linear_combination (-2 * sin (α / 2) * cos (α / 2)) * c2 + (-2 * sin (β / 2) * cos (β / 2)) * c1
  rw [key]
  have := mul_pos (mul_pos h1 h2) h3
  linarith

/-- the edge of the polygon that has the connection from the first to the second vertex on the border
of its part of the roof; `none` for the outside -/
def Lab (n m : Nat) (ch : Nat → List Nat) (L R : Nat → Edge2 ℝ) (u v : Nat)
    (o : Option (Edge2 ℝ)) : Prop :=
  (∃ k, k < n ∧ k = u ∧ nextIdx n k = v ∧ some (R k) = o) ∨
  (∃ k, k < n ∧ nextIdx n k = u ∧ k = v ∧ none = o) ∨
  (∃ k j, j < m ∧ k ∈ ch j ∧ k = u ∧ n + j = v ∧ some (L k) = o) ∨
  (∃ k j, j < m ∧ k ∈ ch j ∧ n + j = u ∧ k = v ∧ some (R k) = o)

section
variable {n m : Nat} {ch : Nat → List Nat} {L R : Nat → Edge2 ℝ}

theorem Lab.side (k : Nat) (hk : k < n) : Lab n m ch L R k (nextIdx n k) (some (R k)) :=
  .inl ⟨k, hk, rfl, rfl, rfl⟩

theorem Lab.outer (k : Nat) (hk : k < n) : Lab n m ch L R (nextIdx n k) k none :=
  .inr (.inl ⟨k, hk, rfl, rfl, rfl⟩)

theorem Lab.up (k j : Nat) (hj : j < m) (hk : k ∈ ch j) : Lab n m ch L R k (n + j) (some (L k)) :=
  .inr (.inr (.inl ⟨k, j, hj, hk, rfl, rfl, rfl⟩))

theorem Lab.down (k j : Nat) (hj : j < m) (hk : k ∈ ch j) : Lab n m ch L R (n + j) k (some (R k)) :=
  .inr (.inr (.inr ⟨k, j, hj, hk, rfl, rfl, rfl⟩))

end

section
variable {c : List (Edge2 ℝ)} {m : Nat} {pos : Nat → V2 ℝ} {hh : Nat → ℝ} {L R : Nat → Edge2 ℝ}
  {ch : Nat → List Nat}

theorem Up.tri {a b X : Nat} {α β : ℝ} (ha : Up pos hh L R a X α) (hb : Up pos hh L R b X β)
    (hs : α + β < 2 * π) (he : R a = L b) : 0 < tri (L a).norm (R a).norm (R b).norm := by
  obtain ⟨p, h1, h2⟩ := ha.dir
  obtain ⟨p', h3, h4⟩ := hb.dir
  have h5 : unitDir p' = unitDir (p + α) := by rw [← h3, ← h2, he]
  rw [h1, h2, h4, unitDir_add h5]
  exact tri_pos ha.gt hb.gt hs

theorem Up.vec {k X : Nat} {θ : ℝ} (h : Up pos hh L R k X θ) (hne : pos k ≠ pos X) :
    ∃ s > 0, (pos X).x - (pos k).x = s * ((R k).norm.x - (L k).norm.x) ∧
    (pos X).y - (pos k).y = s * ((R k).norm.y - (L k).norm.y) := by
  obtain ⟨s, h0, h1, h2⟩ := h.on
  refine ⟨s, lt_of_le_of_ne h0 ?_, h1, h2⟩
  rintro rfl
  apply hne
  have e1 : (pos k).x = (pos X).x := by linarith
  have e2 : (pos k).y = (pos X).y := by linarith
  cases hk : pos k
  cases hX : pos X
  rw [hk, hX] at e1 e2
  simp only at e1 e2
  rw [e1, e2]

/-- the vertices lie at different points, and the list of vertices has them, moved by `z` -/
structure Placed (N : Nat) (pos : Nat → V2 ℝ) (gi : Nat → Int) (verts : List (V3 ℝ)) (z : V2 ℝ) :
    Prop where
  num : Numbering N gi
  inj : ∀ i j, i < N → j < N → pos i = pos j → i = j
  get : ∀ k, k < N → ∃ p, pyGet verts (gi k) = .ok p ∧ p.x = (pos k).x + z.x ∧ p.y = (pos k).y + z.y

/-- the turn from `x` over `v` to `w` -/
def turn (pos : Nat → V2 ℝ) (x v w : Nat) : ℝ :=
  ((pos v).x - (pos x).x) * ((pos w).y - (pos v).y) - ((pos v).y - (pos x).y) * ((pos w).x - (pos v).x)

variable {gi : Nat → Int} {ds : List Dart} {rt : Rt} {verts : List (V3 ℝ)} {z : V2 ℝ} {emb : Graph}

theorem Placed.three {N : Nat} (hP : Placed N pos gi verts z) {g : Graph}
    (hemb : circularEmbedding rt g verts true = .ok emb) {v x y w : Nat} (hv : v < N) (hx : x < N)
    (hy : y < N) (hw : w < N) (hn : (Graph.nbrs g (gi v)).Perm [gi x, gi y, gi w])
    (hd : [gi x, gi y, gi w].Nodup) (h1 : 0 < turn pos x v y) (h2 : 0 < turn pos y v w) :
    Follows (Graph.nbrs emb (gi v)) (gi x) (gi y) ∧ Follows (Graph.nbrs emb (gi v)) (gi y) (gi w) ∧
      Follows (Graph.nbrs emb (gi v)) (gi w) (gi x) := by
  obtain ⟨pv, gv, v1, v2⟩ := hP.get v hv
  obtain ⟨px, gx, x1, x2⟩ := hP.get x hx
  obtain ⟨py, gy, y1, y2⟩ := hP.get y hy
  obtain ⟨pw, gw, w1, w2⟩ := hP.get w hw
  refine embedding_three hemb hn hd gv gx gy gw ?_ ?_
  · rw [v1, v2, x1, x2, y1, y2]
    unfold turn at h1
    linarith
  · rw [v1, v2, w1, w2, y1, y2]
    unfold turn at h2
    linarith

/-- the scalar product of the lines from `x` to `v` and from `v` to `w` -/
def ahead (pos : Nat → V2 ℝ) (x v w : Nat) : ℝ :=
  ((pos v).x - (pos x).x) * ((pos w).x - (pos v).x) + ((pos v).y - (pos x).y) * ((pos w).y - (pos v).y)

/-- the square of the distance -/
def dist2 (pos : Nat → V2 ℝ) (x v : Nat) : ℝ :=
  ((pos v).x - (pos x).x) ^ 2 + ((pos v).y - (pos x).y) ^ 2

/-- the turn does not go nearly all the way back -/
def NotBack (pos : Nat → V2 ℝ) (x v w : Nat) : Prop :=
  0 ≤ ahead pos x v w ∨ ahead pos x v w ^ 2 ≤ 49 / 50 * (dist2 pos x v * dist2 pos v w)

/-- what a face walk does at a vertex: `x` is followed by `y` with a left turn -/
structure WalkStep (c : List (Edge2 ℝ)) (pos : Nat → V2 ℝ) (gi : Nat → Int) (emb : Graph) (x v y : Nat) :
    Prop where
  follows : Follows (Graph.nbrs emb (gi v)) (gi x) (gi y)
  left : 0 < turn pos x v y
  blunt : Blunt c → NotBack pos x v y

theorem notBack_of {x y w : V2 ℝ} (hx : x.x ^ 2 + x.y ^ 2 = 1) (hy : y.x ^ 2 + y.y ^ 2 = 1)
    (hw : w.x ^ 2 + w.y ^ 2 = 1)
    (h3 : dt x y ≤ 24 / 25 ∨ dt y w ≤ 24 / 25 ∨ dt x w ≤ 24 / 25) {a v b : Nat} {s t : ℝ} (hs : 0 < s)
    (ht : 0 < t) (e1 : (pos v).x - (pos a).x = s * (y.x - x.x)) (e2 : (pos v).y - (pos a).y = s * (y.y - x.y))
    (e3 : (pos b).x - (pos v).x = t * (w.x - x.x)) (e4 : (pos b).y - (pos v).y = t * (w.y - x.y)) :
    NotBack pos a v b := by
  unfold NotBack ahead dist2
  rw [e1, e2, e3, e4]
  by_cases hd : 0 ≤ (y.x - x.x) * (w.x - x.x) + (y.y - x.y) * (w.y - x.y)
  · left
    have := mul_nonneg (mul_pos hs ht).le hd
    linarith
  · right
    simp only [dt] at h3
    have hyw : y.x * w.x + y.y * w.y ≤ 24 / 25 := by
      have i1 : x.x * w.x + x.y * w.y ≤ 1 := by nlinarith [sq_nonneg (x.x - w.x), sq_nonneg (x.y - w.y)]
      have i2 : x.x * y.x + x.y * y.y ≤ 1 := by nlinarith [sq_nonneg (x.x - y.x), sq_nonneg (x.y - y.y)]
      rcases h3 with h | h | h
      · linarith
      · exact h
      · linarith
    have key : 2 * ((y.x - x.x) * (w.x - x.x) + (y.y - x.y) * (w.y - x.y)) ^ 2 =
        (1 + (y.x * w.x + y.y * w.y)) * (((y.x - x.x) ^ 2 + (y.y - x.y) ^ 2) *
          ((w.x - x.x) ^ 2 + (w.y - x.y) ^ 2)) := by
      have g : (x.x ^ 2 + x.y ^ 2) * (y.x ^ 2 + y.y ^ 2) * (w.x ^ 2 + w.y ^ 2) +
          2 * (x.x * y.x + x.y * y.y) * (x.x * w.x + x.y * w.y) * (y.x * w.x + y.y * w.y) -
          (x.x ^ 2 + x.y ^ 2) * (y.x * w.x + y.y * w.y) ^ 2 -
          (y.x ^ 2 + y.y ^ 2) * (x.x * w.x + x.y * w.y) ^ 2 -
          (w.x ^ 2 + w.y ^ 2) * (x.x * y.x + x.y * y.y) ^ 2 = 0 := by ring
      rw [hx, hy, hw] at g
      have a1 : (y.x - x.x) * (w.x - x.x) + (y.y - x.y) * (w.y - x.y) = (y.x * w.x + y.y * w.y) -
        (x.x * y.x + x.y * y.y) - (x.x * w.x + x.y * w.y) + 1 := by linear_combination hx
      have a2 : (y.x - x.x) ^ 2 + (y.y - x.y) ^ 2 = 2 - 2 * (x.x * y.x + x.y * y.y) := by
        linear_combination hx + hy
      have a3 : (w.x - x.x) ^ 2 + (w.y - x.y) ^ 2 = 2 - 2 * (x.x * w.x + x.y * w.y) := by
        linear_combination hx + hw
      rw [a1, a2, a3]
      linear_combination (-2) * g
    have h1 : 0 ≤ ((y.x - x.x) ^ 2 + (y.y - x.y) ^ 2) * ((w.x - x.x) ^ 2 + (w.y - x.y) ^ 2) := by
      positivity
    have h2 : ((y.x - x.x) * (w.x - x.x) + (y.y - x.y) * (w.y - x.y)) ^ 2 ≤
        49 / 50 * (((y.x - x.x) ^ 2 + (y.y - x.y) ^ 2) * ((w.x - x.x) ^ 2 + (w.y - x.y) ^ 2)) := by
      nlinarith
    have h4 := mul_le_mul_of_nonneg_left h2 (mul_pos (pow_pos hs 2) (pow_pos ht 2)).le
    calc _ = s ^ 2 * t ^ 2 * ((y.x - x.x) * (w.x - x.x) + (y.y - x.y) * (w.y - x.y)) ^ 2 := by ring
      _ ≤ _ := h4
      _ = _ := by ring

theorem corner_notBack {x y : V2 ℝ} {r s : ℝ} (hx : x.x ^ 2 + x.y ^ 2 = 1) (hy : y.x ^ 2 + y.y ^ 2 = 1)
    (h : -(24 / 25) ≤ dt x y) :
    (r * x.x * (s * (y.x - x.x)) + r * x.y * (s * (y.y - x.y))) ^ 2 ≤
      49 / 50 * (((r * x.x) ^ 2 + (r * x.y) ^ 2) * ((s * (y.x - x.x)) ^ 2 + (s * (y.y - x.y)) ^ 2)) := by
  unfold dt at h
  have h1 : x.x * y.x + x.y * y.y ≤ 1 := by nlinarith [sq_nonneg (x.x - y.x), sq_nonneg (x.y - y.y)]
  have e1 : r * x.x * (s * (y.x - x.x)) + r * x.y * (s * (y.y - x.y)) =
      r * s * (x.x * y.x + x.y * y.y - 1) := by linear_combination (-(r * s)) * hx
  have e2 : (r * x.x) ^ 2 + (r * x.y) ^ 2 = r ^ 2 := by linear_combination r ^ 2 * hx
  have e3 : (s * (y.x - x.x)) ^ 2 + (s * (y.y - x.y)) ^ 2 =
      s ^ 2 * (2 - 2 * (x.x * y.x + x.y * y.y)) := by linear_combination s ^ 2 * (hx + hy)
  rw [e1, e2, e3]
  have h2 : (1 - (x.x * y.x + x.y * y.y)) * (1 - (x.x * y.x + x.y * y.y)) ≤
      49 / 25 * (1 - (x.x * y.x + x.y * y.y)) :=
    mul_le_mul_of_nonneg_right (by linarith) (by linarith)
  have h3 := mul_le_mul_of_nonneg_left h2 (mul_nonneg (sq_nonneg r) (sq_nonneg s))
  linarith

theorem RoofTree.edges_mem (h : RoofTree c m pos hh L R ch) {k j : Nat} (hj : j < m) (hk : k ∈ ch j) :
    L k ∈ c ∧ R k ∈ c := by
  obtain ⟨rk, hr⟩ := h.rank
  have key : ∀ n k j, rk k < n → j < m → k ∈ ch j → L k ∈ c ∧ R k ∈ c := by
    intro n
    induction n with
    | zero => intro k j h0; omega
    | succ n ih =>
      intro k j h0 hj hk
      by_cases hn : k < c.length
      · obtain ⟨-, h2, h3, -⟩ := h.corner k hn
        rw [h2, h3]
        exact ⟨List.getElem_mem _, List.getElem_mem _⟩
      · obtain ⟨i, rfl⟩ : ∃ i, k = c.length + i := ⟨k - c.length, by omega⟩
        have hi : i < m := by have := (h.child_lt hj hk).1; omega
        obtain ⟨l, θ, hp, hf, -⟩ := h.inner hi hj hk
        obtain ⟨⟨a, ha, e1⟩, b, hb, e2⟩ := hf.ends
        have ha := hp.mem_iff.2 ha
        have hb := hp.mem_iff.2 hb
        have r1 := (hr i hi a ha).2
        have r2 := (hr i hi b hb).2
        rw [← e1, ← e2]
        exact ⟨(ih a i (by omega) hi ha).1, (ih b i (by omega) hi hb).2⟩
  exact key (rk k + 1) k j (by omega) hj hk

theorem Blunt.of_tri (hb : Blunt c) {e f g : Edge2 ℝ} (he : e ∈ c) (hf : f ∈ c) (hg : g ∈ c)
    (ht : 0 < Polyskel.tri e.norm f.norm g.norm) :
    dt e.norm f.norm ≤ 24 / 25 ∨ dt f.norm g.norm ≤ 24 / 25 ∨ dt e.norm g.norm ≤ 24 / 25 := by
  refine hb.1 e he f hf g hg ?_ ?_ ?_ <;> rintro rfl <;> simp [Polyskel.tri] at ht
  linarith


theorem RoofTree.step_corner (h : RoofTree c m pos hh L R ch) (hc : ConvexPolygon c)
    (hP : Placed (c.length + m) pos gi verts z)
    (hds : ds.Perm ((sideDarts c.length ++ treeDarts c.length m ch).map (Prod.map gi gi)))
    (hemb : circularEmbedding rt (addEdges rt [] ds) verts true = .ok emb)
    {k j : Nat} (hk : k < c.length) (hj : j < m) (hkj : k ∈ ch j) :
    WalkStep c pos gi emb (prevIdx c.length k) k (c.length + j) ∧
    WalkStep c pos gi emb (c.length + j) k (nextIdx c.length k) ∧
    Follows (Graph.nbrs emb (gi k)) (gi (nextIdx c.length k)) (gi (prevIdx c.length k)) := by
  have hsz := h.three
  have hpl : prevIdx c.length k < c.length := by unfold prevIdx; split <;> omega
  have hnl : nextIdx c.length k < c.length := nextIdx_lt' hk
  obtain ⟨n1, n2⟩ := h.nbrs_corner (rt := rt) hP.num hds hk hj hkj
  obtain ⟨θ, -, hu⟩ := h.up hj hkj
  obtain ⟨s, hs, e1, e2⟩ := hu.vec (fun he => by
    have := hP.inj _ _ (by omega) (by omega) he
    omega)
  obtain ⟨q1, q2, q3, -⟩ := h.corner k hk
  obtain ⟨r1, r2, r3, -⟩ := h.corner _ hpl
  obtain ⟨t1, t2, t3, -⟩ := h.corner _ hnl
  obtain ⟨r, hr, u1, u2⟩ := hc.along c[prevIdx c.length k] (List.getElem_mem _)
  obtain ⟨r', hr', w1, w2⟩ := hc.along c[k] (List.getElem_mem _)
  have hpp : (c[prevIdx c.length k]).p2 = c[k].p1 := by
    by_cases h0 : k = 0
    · subst h0
      have := hc.last (by omega)
      simpa [prevIdx] using this
    · have := hc.ring (k - 1) (by omega)
      simp only [show k - 1 + 1 = k by omega] at this
      simpa [prevIdx, h0] using this
  have hnn : (c[k]).p2 = (c[nextIdx c.length k]).p1 := by
    by_cases h0 : k + 1 = c.length
    · have := hc.last (by omega)
      simp only [nextIdx, if_pos h0]
      rw [← this]
      simp [← h0]
    · have := hc.ring k (by omega)
      simpa [nextIdx, h0] using this
  have hl := hc.left c[prevIdx c.length k] (List.getElem_mem _) c[nextIdx c.length k] (List.getElem_mem _)
    (fun he => by
      rw [← r1, ← t1] at he
      have := hP.inj _ _ (by omega) (by omega) he
      unfold prevIdx nextIdx at this
      split at this <;> split at this <;> omega)
    (fun he => by
      rw [hpp, ← q1, ← t1] at he
      have := hP.inj _ _ (by omega) (by omega) he
      unfold nextIdx at this
      split at this <;> omega)
  rw [q2, q3] at e1 e2
  rw [hpp, ← r1, ← q1] at u1 u2
  rw [hnn, ← t1, ← q1] at w1 w2
  rw [← r1, ← t1] at hl
  have hcr : 0 < (c[prevIdx c.length k]).norm.x * c[k].norm.y - (c[prevIdx c.length k]).norm.y * c[k].norm.x := by
    have : (c[prevIdx c.length k]).norm.x * ((pos (nextIdx c.length k)).y - (pos (prevIdx c.length k)).y) -
        (c[prevIdx c.length k]).norm.y * ((pos (nextIdx c.length k)).x - (pos (prevIdx c.length k)).x) =
        r' * ((c[prevIdx c.length k]).norm.x * c[k].norm.y - (c[prevIdx c.length k]).norm.y * c[k].norm.x) := by
      linear_combination (c[prevIdx c.length k]).norm.x * (w2 + u2) -
        (c[prevIdx c.length k]).norm.y * (w1 + u1)
    rw [this] at hl
    exact (mul_pos_iff_of_pos_left hr').1 hl
  have g1 : 0 < turn pos (prevIdx c.length k) k (c.length + j) := by
    unfold turn
    rw [e1, e2, u1, u2]
    have := mul_pos (mul_pos hr hs) hcr
    linarith
  have g2 : 0 < turn pos (c.length + j) k (nextIdx c.length k) := by
    unfold turn
    rw [show (pos k).x - (pos (c.length + j)).x = - ((pos (c.length + j)).x - (pos k).x) by ring,
      show (pos k).y - (pos (c.length + j)).y = - ((pos (c.length + j)).y - (pos k).y) by ring,
      e1, e2, w1, w2]
    have := mul_pos (mul_pos hr' hs) hcr
    linarith
  obtain ⟨f1, f2, f3⟩ := hP.three hemb (by omega) (by omega) (by omega) (by omega) n1 n2 g1 g2
  have hU := hc.unit c[prevIdx c.length k] (List.getElem_mem _)
  have hV := hc.unit c[k] (List.getElem_mem _)
  have hb : Blunt c → -(24 / 25) ≤ dt (c[prevIdx c.length k]).norm c[k].norm := fun hb =>
    hb.2 _ (List.getElem_mem _) _ (List.getElem_mem _) hpp
  refine ⟨⟨f1, g1, fun hb' => .inr ?_⟩, ⟨f2, g2, fun hb' => .inr ?_⟩, f3⟩
  · have hb := hb hb'
    unfold ahead dist2
    rw [e1, e2, u1, u2]
    exact corner_notBack hU hV hb
  · have hb := hb hb'
    unfold ahead dist2
    rw [show (pos k).x - (pos (c.length + j)).x = - ((pos (c.length + j)).x - (pos k).x) by ring,
      show (pos k).y - (pos (c.length + j)).y = - ((pos (c.length + j)).y - (pos k).y) by ring,
      e1, e2, w1, w2]
    have := corner_notBack (r := r') (s := s) hV hU (by unfold dt at hb ⊢; linarith)
    linarith

/-- All the connections of the node `X`, in order.  Between two neighbouring connections there is the
part of the roof of one edge. -/
structure Spokes (pos : Nat → V2 ℝ) (X : Nat) (l : List Nat) (E : Nat → Edge2 ℝ) (q : Nat → ℝ) : Prop where
  len : 3 ≤ l.length
  dir : ∀ i, i ≤ l.length → (E i).norm = unitDir (q i)
  lt : ∀ i, i < l.length → q i < q (i + 1)
  total : q l.length = q 0 + 2 * π
  close : E l.length = E 0
  spoke : ∀ i k, l[i]? = some k → ∃ s > 0,
    (pos X).x - (pos k).x = s * ((E (i + 1)).norm.x - (E i).norm.x) ∧
    (pos X).y - (pos k).y = s * ((E (i + 1)).norm.y - (E i).norm.y)

section
variable {X : Nat} {l : List Nat} {E : Nat → Edge2 ℝ} {q : Nat → ℝ}

theorem Spokes.mono (h : Spokes pos X l E q) {i j : Nat} (hij : i < j) (hj : j ≤ l.length) : q i < q j := by
  induction j with
  | zero => omega
  | succ j ih =>
    have := h.lt j (by omega)
    by_cases he : i = j
    · rw [he]; exact this
    · linarith [ih (by omega) (by omega)]

theorem Spokes.mono' (h : Spokes pos X l E q) {i j : Nat} (hij : i ≤ j) (hj : j ≤ l.length) : q i ≤ q j := by
  rcases Nat.lt_or_eq_of_le hij with h1 | rfl
  · exact (h.mono h1 hj).le
  · exact le_refl _

theorem Spokes.inj (h : Spokes pos X l E q) {i j : Nat} (hi : i < l.length) (hj : j < l.length)
    (he : E (i + 1) = E (j + 1)) : i = j := by
  by_contra hne
  have key : ∀ i j, i < j → j < l.length → E (i + 1) ≠ E (j + 1) := by
    intro i j hij hj he
    have h1 := h.mono (i := i + 1) (j := j + 1) (by omega) (by omega)
    have h2 := h.mono (i := 0) (j := i + 1) (by omega) (by omega)
    have h3 := h.mono' (i := j + 1) (j := l.length) (by omega) (by omega)
    have h4 := h.total
    have := unitDir_ne (p := q (i + 1)) (θ := q (j + 1) - q (i + 1)) (by linarith) (by linarith)
    rw [← h.dir _ (by omega), add_sub_cancel, ← h.dir _ (by omega), he] at this
    exact this rfl
  rcases Nat.lt_or_gt_of_ne hne with h1 | h1
  · exact key _ _ h1 hj he
  · exact key _ _ h1 hi he.symm

/-- the direction of a connection -/
noncomputable def spokeDir (q : Nat → ℝ) (i : Nat) : ℝ := (q i + q (i + 1)) / 2 - π / 2

theorem Spokes.polar (h : Spokes pos X l E q) {i k : Nat} (hk : l[i]? = some k) : ∃ r > 0,
    (pos k).x - (pos X).x = r * cos (spokeDir q i) ∧ (pos k).y - (pos X).y = r * sin (spokeDir q i) := by
  have hi := (List.getElem?_eq_some_iff.1 hk).1
  have hlen := h.len
  obtain ⟨s, hs, e1, e2⟩ := h.spoke i k hk
  have l1 := h.lt i hi
  have l2 : q (i + 1) - q i < 2 * π := by
    have := h.total
    by_cases h0 : i = 0
    · subst h0
      have := h.mono (i := 1) (j := l.length) (by omega) (le_refl _)
      simp only [Nat.zero_add]
      linarith
    · have := h.mono (i := 0) (j := i) (by omega) (by omega)
      have := h.mono' (i := i + 1) (j := l.length) (by omega) (le_refl _)
      linarith
  have hsin : 0 < sin ((q (i + 1) - q i) / 2) := sin_pos_of_pos_of_lt_pi (by linarith) (by linarith)
  refine ⟨2 * s * sin ((q (i + 1) - q i) / 2), by positivity, ?_, ?_⟩
  · rw [h.dir i hi.le, h.dir (i + 1) hi] at e1
    simp only [unitDir] at e1
    have h3 := cos_sub_cos (q i) (q (i + 1))
    rw [spokeDir, cos_sub_pi_div_two]
    rw [show (q i - q (i + 1)) / 2 = - ((q (i + 1) - q i) / 2) by ring, sin_neg] at h3
    linear_combination (-1) * e1 + s * h3
  · rw [h.dir i hi.le, h.dir (i + 1) hi] at e2
    simp only [unitDir] at e2
    have h3 := sin_sub_sin (q (i + 1)) (q i)
    rw [spokeDir, sin_sub_pi_div_two]
    rw [show (q (i + 1) + q i) / 2 = (q i + q (i + 1)) / 2 by ring] at h3
    linear_combination (-1) * e2 - s * h3

theorem Spokes.spokeDir_lt (h : Spokes pos X l E q) {i j : Nat} (hij : i < j) (hj : j < l.length) :
    spokeDir q i < spokeDir q j := by
  have h1 := h.mono hij hj.le
  have h2 := h.mono (i := i + 1) (j := j + 1) (by omega) (by omega)
  unfold spokeDir
  linarith

theorem Spokes.spokeDir_lt' (h : Spokes pos X l E q) {i j : Nat} (hij : i < l.length) (hj : j < l.length) :
    spokeDir q i < spokeDir q j + 2 * π := by
  have h1 := h.mono (i := i) (j := l.length) hij (le_refl _)
  have h2 := h.mono' (i := i + 1) (j := l.length) hij (le_refl _)
  have h3 := h.mono' (i := 0) (j := j) (by omega) hj.le
  have h4 := h.mono (i := 0) (j := j + 1) (by omega) hj
  have := h.total
  unfold spokeDir
  linarith

/-- the number of the connection before number `i` -/
def before (d i : Nat) : Nat := if i = 0 then d - 1 else i - 1

theorem Spokes.before (h : Spokes pos X l E q) {i : Nat} (hi : i < l.length) :
    Polyskel.before l.length i < l.length ∧ E (Polyskel.before l.length i + 1) = E i ∧
      0 < Polyskel.tri (E (Polyskel.before l.length i)).norm (E i).norm (E (i + 1)).norm := by
  have hlen := h.len
  have := h.total
  unfold Polyskel.before
  split
  · rename_i h0
    subst h0
    refine ⟨by omega, ?_, ?_⟩
    · rw [show l.length - 1 + 1 = l.length by omega]; exact h.close
    · have h1 := h.mono (i := l.length - 1) (j := l.length) (by omega) (le_refl _)
      have h2 := h.mono (i := 1) (j := l.length - 1) (by omega) (by omega)
      have h3 := h.lt 0 (by omega)
      have := tri_pos (p := q (l.length - 1)) (α := q l.length - q (l.length - 1)) (β := q 1 - q 0)
        (by linarith) (by simpa using h3) (by linarith)
      rw [add_sub_cancel, ← h.dir _ (by omega), ← h.dir _ (by omega), h.close] at this
      rw [unitDir_add (s := q l.length) (t := q 0) (by rw [← h.dir _ (by omega), ← h.dir _ (by omega), h.close]),
        add_sub_cancel, ← h.dir _ (by omega)] at this
      simpa using this
  · have h1 := h.mono (i := i - 1) (j := i) (by omega) (by omega)
    have h2 := h.lt i hi
    refine ⟨by omega, by rw [show i - 1 + 1 = i by omega], ?_⟩
    have := tri_pos (p := q (i - 1)) (α := q i - q (i - 1)) (β := q (i + 1) - q i) (by linarith) (by linarith)
      (by
        by_cases h0 : i = 1
        · subst h0
          have := h.mono (i := 1 + 1) (j := l.length) (by omega) (le_refl _)
          simp only [Nat.sub_self]
          linarith
        · have := h.mono (i := 0) (j := i - 1) (by omega) (by omega)
          have := h.mono' (i := i + 1) (j := l.length) (by omega) (le_refl _)
          linarith)
    rw [add_sub_cancel, add_sub_cancel, ← h.dir _ (by omega), ← h.dir _ (by omega), ← h.dir _ (by omega)] at this
    exact this

theorem Spokes.notBack_before (h : Spokes pos X l E q) (hc : ConvexPolygon c) (hbl : Blunt c)
    (hE : ∀ i, i ≤ l.length → E i ∈ c) {i u w : Nat} (hu : l[i]? = some u)
    (hw : l[Polyskel.before l.length i]? = some w) : NotBack pos u X w := by
  have hi := (List.getElem?_eq_some_iff.1 hu).1
  obtain ⟨hb, hEb, htri⟩ := h.before hi
  obtain ⟨s, hs, e1, e2⟩ := h.spoke i u hu
  obtain ⟨t, ht, e3, e4⟩ := h.spoke _ w hw
  rw [hEb] at e3 e4
  have m1 := hE _ hb.le
  have m2 := hE _ hi.le
  have m3 := hE (i + 1) hi
  have hB := hbl.of_tri m1 m2 m3 htri
  refine notBack_of (hc.unit _ m2) (hc.unit _ m3) (hc.unit _ m1) ?_ hs ht e1 e2 (by linarith) (by linarith)
  simp only [dt] at hB ⊢
  rcases hB with h | h | h
  · exact .inr (.inr (by linarith))
  · exact .inl (by linarith)
  · exact .inr (.inl (by linarith))

/-- what a walk does at a node -/
theorem Spokes.step (h : Spokes pos X l E q) {N : Nat} (hP : Placed N pos gi verts z) {g : Graph}
    (hemb : circularEmbedding rt g verts true = .ok emb) (hX : X < N) (hl : ∀ x ∈ l, x < N)
    (hn : (Graph.nbrs g (gi X)).Perm (l.map gi)) (hnd : (l.map gi).Nodup) (hc : ConvexPolygon c)
    (hE : ∀ i, i ≤ l.length → E i ∈ c) {i u w : Nat} (hu : l[i]? = some u)
    (hw : l[Polyskel.before l.length i]? = some w) : WalkStep c pos gi emb u X w := by
  classical
  have hi := (List.getElem?_eq_some_iff.1 hu).1
  obtain ⟨hb, hEb, htri⟩ := h.before hi
  obtain ⟨s, hs, e1, e2⟩ := h.spoke i u hu
  obtain ⟨t, ht, e3, e4⟩ := h.spoke _ w hw
  rw [hEb] at e3 e4
  have htri' := htri
  unfold Polyskel.tri at htri'
  have hturn : 0 < turn pos u X w := by
    unfold turn
    rw [show (pos w).x - (pos X).x = - ((pos X).x - (pos w).x) by ring,
      show (pos w).y - (pos X).y = - ((pos X).y - (pos w).y) by ring, e1, e2, e3, e4]
    have := mul_pos (mul_pos hs ht) htri'
    linarith
  refine ⟨?_, hturn, ?_⟩
  · -- the index of a neighbour
    have hidx : ∀ y ∈ Graph.nbrs g (gi X), ∃ (j k : Nat), l[j]? = some k ∧ y = gi k := by
      intro y hy
      obtain ⟨k, hk, rfl⟩ := List.mem_map.1 (hn.mem_iff.1 hy)
      obtain ⟨j, hj⟩ := List.mem_iff_getElem?.1 hk
      exact ⟨j, k, hj, rfl⟩
    have hgi : ∀ (j j' k k' : Nat), l[j]? = some k → l[j']? = some k' → gi k = gi k' → j = j' := by
      intro j j' k k' h1 h2 he
      have a1 : (l.map gi)[j]? = some (gi k) := by rw [List.getElem?_map, h1]; rfl
      have a2 : (l.map gi)[j']? = some (gi k) := by rw [List.getElem?_map, h2, he]; rfl
      obtain ⟨b1, b2⟩ := List.getElem?_eq_some_iff.1 a1
      obtain ⟨b3, b4⟩ := List.getElem?_eq_some_iff.1 a2
      exact (hnd.getElem_inj_iff).1 (b2.trans b4.symm)
    -- the direction of connection number `j`, beginning with number `i`
    have hψ : ∀ y : Int, ∃ a : ℝ, ∀ (j k : Nat), l[j]? = some k → y = gi k →
        a = if j = Polyskel.before l.length i ∧ i = 0 then spokeDir q j - 2 * π
          else if j + 1 < i then spokeDir q j + 2 * π else spokeDir q j := by
      intro y
      by_cases hy : ∃ (j k : Nat), l[j]? = some k ∧ y = gi k
      · obtain ⟨j, k, h1, rfl⟩ := hy
        refine ⟨if j = Polyskel.before l.length i ∧ i = 0 then spokeDir q j - 2 * π
          else if j + 1 < i then spokeDir q j + 2 * π else spokeDir q j, fun j' k' h2 he => ?_⟩
        rw [← hgi j j' k k' h1 h2 he]
      · exact ⟨0, fun j k h1 h2 => absurd ⟨j, k, h1, h2⟩ hy⟩
    choose φ hφ using hψ
    obtain ⟨pX, gX, X1, X2⟩ := hP.get X hX
    have hb' : Polyskel.before l.length i = if i = 0 then l.length - 1 else i - 1 := rfl
    have hlen := h.len
    have fu := hφ (gi u) i u hu rfl
    rw [if_neg (by rw [hb']; split <;> omega), if_neg (by omega)] at fu
    have fw := hφ (gi w) _ w hw rfl
    have hmem : ∀ j k, l[j]? = some k → gi k ∈ Graph.nbrs g (gi X) := fun j k hk =>
      hn.mem_iff.2 (List.mem_map.2 ⟨k, List.mem_of_getElem? hk, rfl⟩)
    have cs : ∀ a : ℝ, cos (a - 2 * π) = cos a ∧ cos (a + 2 * π) = cos a ∧ sin (a - 2 * π) = sin a ∧
        sin (a + 2 * π) = sin a := fun a => ⟨cos_sub_two_pi a, cos_add_two_pi a, sin_sub_two_pi a, sin_add_two_pi a⟩
    have hord : φ (gi w) < φ (gi u) ∧ φ (gi u) < φ (gi w) + 2 * π ∧ (∀ j k, l[j]? = some k → j ≠ i →
        j ≠ Polyskel.before l.length i → φ (gi u) < φ (gi k) ∧ φ (gi k) < φ (gi w) + 2 * π) := by
      by_cases h0 : i = 0
      · rw [if_pos ⟨rfl, h0⟩] at fw
        subst h0
        rw [hb', if_pos rfl] at fw
        have a1 := h.spokeDir_lt (i := 0) (j := l.length - 1) (by omega) (by omega)
        have a2 := h.spokeDir_lt' (i := l.length - 1) (j := 0) (by omega) (by omega)
        refine ⟨by linarith, by linarith, ?_⟩
        intro j k hk hj0 hjb
        have hj := (List.getElem?_eq_some_iff.1 hk).1
        have fk := hφ (gi k) j k hk rfl
        rw [if_neg (fun hh => hjb hh.1), if_neg (by omega)] at fk
        rw [hb', if_pos rfl] at hjb
        have a3 := h.spokeDir_lt (i := 0) (j := j) (by omega) hj
        have a4 := h.spokeDir_lt (i := j) (j := l.length - 1) (by omega) (by omega)
        exact ⟨by linarith, by linarith⟩
      · rw [if_neg (fun hh => h0 hh.2), hb', if_neg h0, if_neg (by omega)] at fw
        have a1 := h.spokeDir_lt (i := i - 1) (j := i) (by omega) hi
        have a2 := h.spokeDir_lt' (i := i) (j := i - 1) hi (by omega)
        refine ⟨by linarith, by linarith, ?_⟩
        intro j k hk hji hjb
        have hj := (List.getElem?_eq_some_iff.1 hk).1
        have fk := hφ (gi k) j k hk rfl
        rw [if_neg (fun hh => h0 hh.2)] at fk
        rw [hb', if_neg h0] at hjb
        by_cases hlt : j + 1 < i
        · rw [if_pos hlt] at fk
          have a3 := h.spokeDir_lt (i := j) (j := i - 1) (by omega) (by omega)
          have a4 := h.spokeDir_lt' (i := i) (j := j) hi hj
          exact ⟨by linarith, by linarith⟩
        · rw [if_neg hlt] at fk
          have a3 := h.spokeDir_lt (i := i) (j := j) (by omega) hj
          have a4 := h.spokeDir_lt' (i := j) (j := i - 1) hj (by omega)
          exact ⟨by linarith, by linarith⟩
    refine embedding_follows hemb gX (hn.nodup_iff.2 hnd) φ ?_ (hmem i u hu) (hmem _ w hw) hord.1 hord.2.1 ?_ ?_
    · intro y hy
      obtain ⟨j, k, hk, rfl⟩ := hidx y hy
      obtain ⟨pk, gk, k1, k2⟩ := hP.get k (hl k (List.mem_of_getElem? hk))
      obtain ⟨r, hr, p1, p2⟩ := h.polar hk
      have fk := hφ (gi k) j k hk rfl
      refine ⟨pk, r, gk, hr, ?_, ?_⟩
      · rw [k1, X1, fk]
        split
        · rw [(cs _).1]; linarith
        · split
          · rw [(cs _).2.1]; linarith
          · linarith
      · rw [k2, X2, fk]
        split
        · rw [(cs _).2.2.1]; linarith
        · split
          · rw [(cs _).2.2.2]; linarith
          · linarith
    · intro y hy hyu hyw
      obtain ⟨j, k, hk, rfl⟩ := hidx y hy
      refine hord.2.2 j k hk ?_ ?_
      · rintro rfl
        rw [hk] at hu
        exact hyu (by rw [Option.some.inj hu])
      · rintro rfl
        rw [hk] at hw
        exact hyw (by rw [Option.some.inj hw])
    · intro y hy y' hy' he
      obtain ⟨j, k, hk, rfl⟩ := hidx y hy
      obtain ⟨j', k', hk', rfl⟩ := hidx y' hy'
      have fk := hφ (gi k) j k hk rfl
      have fk' := hφ (gi k') j' k' hk' rfl
      have hj := (List.getElem?_eq_some_iff.1 hk).1
      have hj' := (List.getElem?_eq_some_iff.1 hk').1
      have : j = j' := by
        by_contra hne
        have key : ∀ a b, a < b → b < l.length → spokeDir q a < spokeDir q b ∧
            spokeDir q b < spokeDir q a + 2 * π := fun a b hab hb =>
          ⟨h.spokeDir_lt hab hb, h.spokeDir_lt' hb (by omega)⟩
        have hsep : spokeDir q j ≠ spokeDir q j' ∧ spokeDir q j ≠ spokeDir q j' + 2 * π ∧
            spokeDir q j ≠ spokeDir q j' - 2 * π := by
          have := pi_pos
          rcases Nat.lt_or_gt_of_ne hne with h1 | h1
          · obtain ⟨a1, a2⟩ := key j j' h1 hj'
            exact ⟨by linarith, by linarith, by linarith⟩
          · obtain ⟨a1, a2⟩ := key j' j h1 hj
            exact ⟨by linarith, by linarith, by linarith⟩
        rw [fk, fk'] at he
        by_cases h0 : i = 0
        · have n1 : ¬ (j + 1 < i) := by omega
          have n2 : ¬ (j' + 1 < i) := by omega
          rw [if_neg n1, if_neg n2] at he
          split at he
          · split at he
            · rename_i a b; exact hne (a.1.trans b.1.symm)
            · exact hsep.2.1 (by linarith)
          · split at he
            · exact hsep.2.2 (by linarith)
            · exact hsep.1 he
        · have n1 : ¬ (j = Polyskel.before l.length i ∧ i = 0) := fun hh => h0 hh.2
          have n2 : ¬ (j' = Polyskel.before l.length i ∧ i = 0) := fun hh => h0 hh.2
          rw [if_neg n1, if_neg n2] at he
          split at he
          · split at he
            · exact hsep.1 (by linarith)
            · exact hsep.2.2 (by linarith)
          · split at he
            · exact hsep.2.1 (by linarith)
            · exact hsep.1 he
      subst this
      rw [hk] at hk'
      rw [Option.some.inj hk']
  · intro hbl
    exact h.notBack_before hc hbl hE hu hw

theorem notBack_polar {u X w : Nat} {r s a b : ℝ} (hr : 0 < r) (hs : 0 < s)
    (h1 : (pos u).x - (pos X).x = r * cos a) (h2 : (pos u).y - (pos X).y = r * sin a)
    (h3 : (pos w).x - (pos X).x = s * cos b) (h4 : (pos w).y - (pos X).y = s * sin b) :
    NotBack pos u X w ↔ cos (b - a) ≤ 0 ∨ cos (b - a) ^ 2 ≤ 49 / 50 := by
  have e1 : ahead pos u X w = -(r * s * cos (b - a)) := by
    unfold ahead
    rw [show (pos X).x - (pos u).x = -(r * cos a) by linarith,
      show (pos X).y - (pos u).y = -(r * sin a) by linarith, h3, h4, cos_sub]
    ring
  have e2 : dist2 pos u X = r ^ 2 := by
    unfold dist2
    rw [show (pos X).x - (pos u).x = -(r * cos a) by linarith,
      show (pos X).y - (pos u).y = -(r * sin a) by linarith]
    linear_combination r ^ 2 * sin_sq_add_cos_sq a
  have e3 : dist2 pos X w = s ^ 2 := by
    unfold dist2
    rw [h3, h4]
    linear_combination s ^ 2 * sin_sq_add_cos_sq b
  unfold NotBack
  rw [e1, e2, e3]
  have hrs := mul_pos hr hs
  refine or_congr ?_ ?_
  · rw [neg_nonneg]
    constructor
    · intro h; by_contra hc; push Not at hc; have := mul_pos hrs hc; linarith
    · intro h; exact mul_nonpos_of_nonneg_of_nonpos hrs.le h
  · have : (-(r * s * cos (b - a))) ^ 2 = cos (b - a) ^ 2 * (r ^ 2 * s ^ 2) := by ring
    rw [this]
    exact mul_le_mul_iff_of_pos_right (by positivity)

/-- no two connections of a node of a blunt roof have nearly the same direction -/
theorem Spokes.notBack (h : Spokes pos X l E q) (hc : ConvexPolygon c) (hbl : Blunt c)
    (hE : ∀ i, i ≤ l.length → E i ∈ c) {i j u w : Nat} (hu : l[i]? = some u) (hw : l[j]? = some w)
    (hij : i < j) : NotBack pos u X w := by
  have hlen := h.len
  have hj := (List.getElem?_eq_some_iff.1 hw).1
  have near : ∀ i, i < l.length → ∀ b, Polyskel.before l.length i = b → b < l.length →
      cos (spokeDir q b - spokeDir q i) ≤ 0 ∨ cos (spokeDir q b - spokeDir q i) ^ 2 ≤ 49 / 50 := by
    intro i hi b hb hbl'
    have g1 := List.getElem?_eq_getElem hi
    have g2 := List.getElem?_eq_getElem hbl'
    obtain ⟨r, hr, a1, a2⟩ := h.polar g1
    obtain ⟨s, hs, b1, b2⟩ := h.polar g2
    exact (notBack_polar hr hs a1 a2 b1 b2).1 (h.notBack_before hc hbl hE g1 (by rw [hb]; exact g2))
  obtain ⟨r, hr, a1, a2⟩ := h.polar hu
  obtain ⟨s, hs, b1, b2⟩ := h.polar hw
  rw [notBack_polar hr hs a1 a2 b1 b2]
  -- a smaller angle has the larger cosine
  have key : ∀ x y : ℝ, cos x ≤ cos y → cos y ≤ 0 ∨ cos y ^ 2 ≤ 49 / 50 → cos x ≤ 0 ∨ cos x ^ 2 ≤ 49 / 50 := by
    intro x y hxy hy
    by_cases hx : cos x ≤ 0
    · exact .inl hx
    · right
      push Not at hx
      rcases hy with hy | hy
      · linarith
      · nlinarith
  have d1 := h.spokeDir_lt hij hj
  have d2 := h.spokeDir_lt' hj (show i < l.length by omega)
  by_cases hpi : spokeDir q j - spokeDir q i ≤ π
  · have hn := near (i + 1) (by omega) i (by unfold Polyskel.before; simp) (by omega)
    have hlt := h.spokeDir_lt (i := i) (j := i + 1) (by omega) (by omega)
    have hle : spokeDir q (i + 1) ≤ spokeDir q j := by
      rcases Nat.lt_or_eq_of_le (show i + 1 ≤ j by omega) with h1 | h1
      · exact (h.spokeDir_lt h1 hj).le
      · rw [h1]
    rw [← cos_neg, neg_sub] at hn
    exact key _ _ (cos_le_cos_of_nonneg_of_le_pi (by linarith) hpi (by linarith)) hn
  · push Not at hpi
    have hcos : cos (spokeDir q j - spokeDir q i) = cos (2 * π - (spokeDir q j - spokeDir q i)) := by
      rw [cos_two_pi_sub]
    rw [hcos]
    by_cases hl : j + 1 < l.length
    · have hn := near (j + 1) hl j (by unfold Polyskel.before; simp) (by omega)
      have hlt := h.spokeDir_lt (i := j) (j := j + 1) (by omega) hl
      have hlt' := h.spokeDir_lt' hl (show i < l.length by omega)
      rw [← cos_neg, neg_sub] at hn
      exact key _ _ (cos_le_cos_of_nonneg_of_le_pi (by linarith) (by linarith) (by linarith)) hn
    · have hn := near 0 (by omega) j (by unfold Polyskel.before; simp; omega) hj
      have hle : spokeDir q 0 ≤ spokeDir q i := by
        rcases Nat.eq_zero_or_pos i with h1 | h1
        · rw [h1]
        · exact (h.spokeDir_lt h1 (by omega)).le
      have hlt' := h.spokeDir_lt' hj (show 0 < l.length by omega)
      rw [← cos_two_pi_sub] at hn
      exact key _ _ (cos_le_cos_of_nonneg_of_le_pi (by linarith) (by linarith) (by linarith)) hn

end

/-- the connections of a node -/
theorem RoofTree.around (h : RoofTree c m pos hh L R ch)
    (hinj : ∀ i j, i < c.length + m → j < c.length + m → pos i = pos j → i = j)
    (hg : Numbering (c.length + m) gi)
    (hds : ds.Perm ((sideDarts c.length ++ treeDarts c.length m ch).map (Prod.map gi gi)))
    {j : Nat} (hj : j < m) :
    ∃ l E q, Spokes pos (c.length + j) l E q ∧ (∀ x ∈ l, x < c.length + m) ∧ (∀ i, i ≤ l.length → E i ∈ c) ∧
      (Graph.nbrs (addEdges rt [] ds) (gi (c.length + j))).Perm (l.map gi) ∧ (l.map gi).Nodup ∧
      (∀ i k, l[i]? = some k → Lab c.length m ch L R k (c.length + j) (some (E i)) ∧
        Lab c.length m ch L R (c.length + j) k (some (E (i + 1)))) ∧
      ∀ k o, (Lab c.length m ch L R (c.length + j) k (some o) → ∃ i, l[i]? = some k ∧ o = E (i + 1)) ∧
        (Lab c.length m ch L R k (c.length + j) (some o) → ∃ i, l[i]? = some k ∧ o = E i) := by
  obtain ⟨l, e, f, θ, hp, hf, hcase⟩ := h.node j hj
  obtain ⟨⟨a, ha, e1⟩, b, hb, e2⟩ := hf.ends
  obtain ⟨τ, -, -, ua⟩ := hf.up ha
  obtain ⟨p, d1, -⟩ := ua.dir
  rw [e1] at d1
  obtain ⟨E, q, q0, q1, E0, E1, hE, hq, hu⟩ := hf.edges p d1
  have hEc : ∀ i, i ≤ l.length → E i ∈ c := by
    intro i hi
    by_cases h0 : i = l.length
    · rw [h0, E1, ← e2]
      exact (h.edges_mem hj (hp.mem_iff.2 hb)).2
    · have hi : i < l.length := by omega
      obtain ⟨a1, -⟩ := hu i _ (List.getElem?_eq_getElem hi)
      rw [← a1]
      exact (h.edges_mem hj (hp.mem_iff.2 (List.getElem_mem hi))).1
  have hne : ∀ k ∈ ch j, pos k ≠ pos (c.length + j) := fun k hk he => by
    have h1 := h.child_lt hj hk
    exact h1.2 (hinj _ _ h1.1 (by omega) he)
  rcases hcase with ⟨h2, hlt, eL, eR, i0, hi0, hk0⟩ | ⟨h3, ht, hef, hno⟩
  · obtain ⟨n1, n2⟩ := h.nbrs_node (rt := rt) hg hds hj hp hi0 hk0
    obtain ⟨τ0, -, u0⟩ := h.up hi0 hk0
    obtain ⟨s0, hs0, x0, y0⟩ := u0.vec (fun he => by
      have := h.child_lt hi0 hk0
      exact this.2 (hinj _ _ this.1 (by omega) he))
    have hgt := hf.gt
    have hlen := hf.len
    refine ⟨l ++ [c.length + i0], fun i => if i ≤ l.length then E i else E 0,
      fun i => if i ≤ l.length then q i else q 0 + 2 * π, ⟨?_, ?_, ?_, ?_, ?_, ?_⟩, ?_, ?_, n1, n2, ?_, ?_⟩
    · simp; omega
    · intro i hi
      try simp only
      split
      · rename_i h0; exact hE i h0
      · rw [hE 0 (by omega)]
        simp [unitDir]
    · intro i hi
      simp only [List.length_append, List.length_singleton] at hi
      try simp only
      rw [if_pos (by omega)]
      split
      · exact hq i (by omega)
      · rw [show i = l.length by omega, q1, q0]; linarith
    · simp
    · simp
    · intro i k hk
      by_cases hi : i < l.length
      · rw [List.getElem?_append_left hi] at hk
        obtain ⟨a1, a2, a3⟩ := hu i k hk
        try simp only
        rw [if_pos (by omega), if_pos (by omega)]
        obtain ⟨s, hs, x1, y1⟩ := a3.vec (hne k (hp.mem_iff.2 (List.mem_of_getElem? hk)))
        rw [a1, a2] at x1 y1
        exact ⟨s, hs, x1, y1⟩
      · have hi' := (List.getElem?_eq_some_iff.1 hk).1
        simp only [List.length_append, List.length_singleton] at hi'
        obtain rfl : i = l.length := by omega
        simp only [List.getElem?_concat_length, Option.some.injEq] at hk
        subst hk
        try simp only
        rw [if_pos (le_refl _), if_neg (by omega), E0, E1, ← eL, ← eR]
        exact ⟨s0, hs0, by linarith, by linarith⟩
    · intro x hx
      rcases List.mem_append.1 hx with hx | hx
      · exact (h.child_lt hj (hp.mem_iff.2 hx)).1
      · rw [List.mem_singleton] at hx; omega
    · intro i hi
      try simp only
      split
      · exact hEc _ (by assumption)
      · exact hEc _ (by omega)
    · intro i k hk
      by_cases hi : i < l.length
      · rw [List.getElem?_append_left hi] at hk
        obtain ⟨a1, a2, a3⟩ := hu i k hk
        try simp only
        rw [if_pos (by omega), if_pos (by omega), ← a1, ← a2]
        have hm := hp.mem_iff.2 (List.mem_of_getElem? hk)
        exact ⟨.up k j hj hm, .down k j hj hm⟩
      · have hi' := (List.getElem?_eq_some_iff.1 hk).1
        simp only [List.length_append, List.length_singleton] at hi'
        obtain rfl : i = l.length := by omega
        simp only [List.getElem?_concat_length, Option.some.injEq] at hk
        subst hk
        try simp only
        rw [if_pos (le_refl _), if_neg (by omega), E0, E1, ← eL, ← eR]
        exact ⟨.down _ i0 hi0 hk0, .up _ i0 hi0 hk0⟩
    · intro k o
      constructor
      · rintro (⟨k', hk', h1, -⟩ | ⟨k', hk', h1, -⟩ | ⟨k', j', hj', hk', h1, h2, ho⟩ | ⟨k', j', hj', hk', h1, h2, ho⟩)
        · omega
        · have := nextIdx_lt' hk'; omega
        · subst h1
          obtain rfl := h.parent_unique hj' hi0 hk' hk0
          refine ⟨l.length, by rw [← h2]; simp, ?_⟩
          try simp only
          rw [if_neg (by omega), E0, ← eL]
          exact (Option.some.inj ho).symm
        · obtain rfl : j' = j := by omega
          subst h2
          obtain ⟨i, hi⟩ := List.mem_iff_getElem?.1 (hp.mem_iff.1 hk')
          obtain ⟨a1, a2, a3⟩ := hu i _ hi
          have hil := (List.getElem?_eq_some_iff.1 hi).1
          refine ⟨i, by rw [List.getElem?_append_left hil]; exact hi, ?_⟩
          try simp only
          rw [if_pos (by omega), ← a2]
          exact (Option.some.inj ho).symm
      · rintro (⟨k', hk', h1, h2, -⟩ | ⟨k', hk', h1, h2, -⟩ | ⟨k', j', hj', hk', h1, h2, ho⟩ | ⟨k', j', hj', hk', h1, h2, ho⟩)
        · have := nextIdx_lt' hk'; omega
        · omega
        · obtain rfl : j' = j := by omega
          subst h1
          obtain ⟨i, hi⟩ := List.mem_iff_getElem?.1 (hp.mem_iff.1 hk')
          obtain ⟨a1, a2, a3⟩ := hu i _ hi
          have hil := (List.getElem?_eq_some_iff.1 hi).1
          refine ⟨i, by rw [List.getElem?_append_left hil]; exact hi, ?_⟩
          try simp only
          rw [if_pos (by omega), ← a1]
          exact (Option.some.inj ho).symm
        · subst h2
          obtain rfl := h.parent_unique hj' hi0 hk' hk0
          refine ⟨l.length, by rw [← h1]; simp, ?_⟩
          try simp only
          rw [if_pos (le_refl _), E1, ← eR]
          exact (Option.some.inj ho).symm
  · obtain ⟨n1, n2⟩ := h.nbrs_top (rt := rt) hg hds hj hp hno
    refine ⟨l, E, q, ⟨h3, hE, hq, by rw [q1, q0, ht], by rw [E1, E0, hef], ?_⟩, ?_, hEc, n1, n2, ?_, ?_⟩
    · intro i k hk
      obtain ⟨a1, a2, a3⟩ := hu i k hk
      obtain ⟨s, hs, x1, y1⟩ := a3.vec (hne k (hp.mem_iff.2 (List.mem_of_getElem? hk)))
      rw [a1, a2] at x1 y1
      exact ⟨s, hs, x1, y1⟩
    · intro x hx
      exact (h.child_lt hj (hp.mem_iff.2 hx)).1
    · intro i k hk
      obtain ⟨a1, a2, a3⟩ := hu i k hk
      rw [← a1, ← a2]
      have hm := hp.mem_iff.2 (List.mem_of_getElem? hk)
      exact ⟨.up k j hj hm, .down k j hj hm⟩
    · intro k o
      constructor
      · rintro (⟨k', hk', h1, -⟩ | ⟨k', hk', h1, -⟩ | ⟨k', j', hj', hk', h1, h2, ho⟩ | ⟨k', j', hj', hk', h1, h2, ho⟩)
        · omega
        · have := nextIdx_lt' hk'; omega
        · subst h1
          exact absurd hk' (hno j' hj')
        · obtain rfl : j' = j := by omega
          subst h2
          obtain ⟨i, hi⟩ := List.mem_iff_getElem?.1 (hp.mem_iff.1 hk')
          obtain ⟨a1, a2, a3⟩ := hu i _ hi
          exact ⟨i, hi, by rw [← a2]; exact (Option.some.inj ho).symm⟩
      · rintro (⟨k', hk', h1, h2, -⟩ | ⟨k', hk', h1, h2, -⟩ | ⟨k', j', hj', hk', h1, h2, ho⟩ | ⟨k', j', hj', hk', h1, h2, ho⟩)
        · have := nextIdx_lt' hk'; omega
        · omega
        · obtain rfl : j' = j := by omega
          subst h1
          obtain ⟨i, hi⟩ := List.mem_iff_getElem?.1 (hp.mem_iff.1 hk')
          obtain ⟨a1, a2, a3⟩ := hu i _ hi
          exact ⟨i, hi, by rw [← a1]; exact (Option.some.inj ho).symm⟩
        · subst h2
          exact absurd hk' (hno j' hj')

end
end Polyskel
