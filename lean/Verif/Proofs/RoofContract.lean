import Verif.Proofs.RoofCell
import Mathlib.Logic.Relation
import Mathlib.Algebra.Order.ToIntervalMod
/-
Nodes of the roof at the same place: they were merged one after the other, and together they make one
node, to which more than two vertices rise.  Used for C62.
-/
namespace Polyskel
open Scalar Real Geo Graph
set_option linter.unusedSectionVars false

/-! ### Directions -/

theorem unitDir_period (t : ℝ) (k : ℤ) : unitDir (t - k * (2 * π)) = unitDir t := by
  simp only [unitDir, cos_sub_int_mul_two_pi, sin_sub_int_mul_two_pi]

/-- each direction is somewhere on the circle, counted from another one -/
theorem unitDir_from {v : V2 ℝ} (hv : v.x ^ 2 + v.y ^ 2 = 1) (p : ℝ) :
    ∃ t, 0 ≤ t ∧ t < 2 * π ∧ v = unitDir (p + t) := by
  obtain ⟨r, s, r0, -, -, x1, x2⟩ := C05_polar_form v.x v.y (by
    rintro ⟨h1, h2⟩; rw [h1, h2] at hv; norm_num at hv)
  have hr : r = 1 := by
    have h1 : r ^ 2 = 1 := by
      rw [x1, x2] at hv
      have := sin_sq_add_cos_sq s
      nlinarith
    nlinarith
  have hvs : v = unitDir s := by
    cases v
    simp only [unitDir, V2.mk.injEq] at *
    rw [x1, x2, hr]; simp
  have h2 : (0 : ℝ) < 2 * π := by linarith [Real.pi_pos]
  have hm := toIcoMod_mem_Ico h2 0 (s - p)
  refine ⟨toIcoMod h2 0 (s - p), hm.1, by have := hm.2; linarith, ?_⟩
  rw [hvs, toIcoMod, show p + (s - p - toIcoDiv h2 0 (s - p) • (2 * π)) =
    s - (toIcoDiv h2 0 (s - p) : ℤ) * (2 * π) by rw [zsmul_eq_mul]; ring, unitDir_period]

theorem unitDir_inj {p s t : ℝ} (hs : 0 ≤ s) (hs' : s < 2 * π) (ht : 0 ≤ t) (ht' : t < 2 * π)
    (h : unitDir (p + s) = unitDir (p + t)) : s = t := by
  rcases lt_trichotomy s t with hl | hl | hl
  · exact absurd h (by
      have := unitDir_ne (p := p + s) (θ := t - s) (by linarith) (by linarith)
      rwa [show p + s + (t - s) = p + t by ring] at this)
  · exact hl
  · exact absurd h.symm (by
      have := unitDir_ne (p := p + t) (θ := s - t) (by linarith) (by linarith)
      rwa [show p + t + (s - t) = p + s by ring] at this)

section
variable {c : List (Edge2 ℝ)} {m : Nat} {pos : Nat → V2 ℝ} {hh : Nat → ℝ} {L R : Nat → Edge2 ℝ}
  {ch : Nat → List Nat} {M : Edge2 ℝ → Prop} {X Y : Nat} {l : List Nat} {e f g : Edge2 ℝ} {θ t p : ℝ}

theorem Up.move {k : Nat} (h : Up pos hh L R k X θ) (hp : pos X = pos Y) (hq : hh X = hh Y) :
    Up pos hh L R k Y θ :=
  ⟨h.dir, h.gt, hp ▸ h.on, by rw [← hp, ← hq]; exact h.hl, by rw [← hp, ← hq]; exact h.hr⟩

theorem Fan.move (h : Fan M pos hh L R X l e f θ) (hp : pos X = pos Y) (hq : hh X = hh Y) :
    Fan M pos hh L R Y l e f θ := by
  induction h with
  | one h => exact .one (h.move hp hq)
  | cons h h1 _ ih => exact .cons (h.move hp hq) h1 ih

theorem Up.dir' {k : Nat} (h : Up pos hh L R k X θ) (hp : (L k).norm = unitDir p) :
    (R k).norm = unitDir (p + θ) := by
  obtain ⟨q, h1, h2⟩ := h.dir
  rw [h2]
  exact unitDir_add (h1.symm.trans hp) θ

theorem Fan.dir (h : Fan M pos hh L R X l e f θ) (hp : e.norm = unitDir p) : f.norm = unitDir (p + θ) := by
  obtain ⟨E, q, -, h1, -, h2, h3, -⟩ := h.edges p hp
  have := h3 l.length (le_refl _)
  rwa [h2, h1] at this

theorem Fan.dir_ex (h : Fan M pos hh L R X l e f θ) : ∃ p, e.norm = unitDir p := by
  cases h with
  | one h => exact ⟨_, h.dir.choose_spec.1⟩
  | cons h _ _ => exact ⟨_, h.dir.choose_spec.1⟩

/-- an edge strictly between those of a vertex is lower there, if it is as high at the node -/
theorem Up.below {k : Nat} (h : Up pos hh L R k X θ) (hne : pos k ≠ pos X) (hθ : θ ≤ 2 * π)
    (hl : hgt (L k) (pos k) = hh k) (hg : hgt g (pos X) = hh X) (hp : (L k).norm = unitDir p)
    (hgp : g.norm = unitDir (p + t)) (h0 : 0 < t) (h1 : t < θ) : hgt g (pos k) < hh k := by
  obtain ⟨s, hs, e1, e2⟩ := h.on
  have hs' : 0 < s := by
    rcases hs.lt_or_eq with hs | rfl
    · exact hs
    · exfalso
      apply hne
      cases hk : pos k
      cases hx : pos X
      rw [hk, hx] at e1 e2
      simp only [V2.mk.injEq] at *
      constructor <;> linarith
  have ht : 0 < Polyskel.tri (L k).norm g.norm (R k).norm := by
    by_cases hθ' : θ < 2 * π
    · have := tri_pos (p := p) h0 (show 0 < θ - t by linarith) (by linarith)
      rw [h.dir' hp, hp, hgp]
      rwa [show p + t + (θ - t) = p + θ by ring] at this
    · exfalso
      -- the two edges would be the same
      have h2 : θ = 2 * π := by linarith
      have h3 : (R k).norm = (L k).norm := by
        rw [h.dir' hp, hp, h2]
        have := unitDir_period (p + 2 * π) 1
        rw [← this]
        norm_num
      apply hne
      rw [h3] at e1 e2
      cases hk : pos k
      cases hx : pos X
      rw [hk, hx] at e1 e2
      simp only [V2.mk.injEq] at *
      constructor <;> linarith
  have key : hgt g (pos k) - hh k = -(s * Polyskel.tri (L k).norm g.norm (R k).norm) := by
    have hX := h.hl
    rw [← hl]
    have e3 : hgt g (pos X) = hgt (L k) (pos X) := hg.trans hX.symm
    simp only [hgt, height, Polyskel.tri] at e3 ⊢
    linear_combination e3 - (g.norm.x - (L k).norm.x) * e2 + (g.norm.y - (L k).norm.y) * e1
  have := mul_pos hs' ht
  linarith

/-- an edge outside those of a node is lower further up, if it is as high at the node -/
theorem Up.above (h : Up pos hh L R X Y θ) (hne : pos X ≠ pos Y)
    (hl : hgt (L X) (pos X) = hh X) (hg : hgt g (pos X) = hh X) (hp : (L X).norm = unitDir p)
    (hgp : g.norm = unitDir (p + t)) (h0 : θ < t) (h1 : t < 2 * π) : hgt g (pos Y) < hh Y := by
  obtain ⟨s, hs, e1, e2⟩ := h.on
  have hs' : 0 < s := by
    rcases hs.lt_or_eq with hs | rfl
    · exact hs
    · exfalso
      apply hne
      cases hk : pos X
      cases hx : pos Y
      rw [hk, hx] at e1 e2
      simp only [V2.mk.injEq] at *
      constructor <;> linarith
  have ht : 0 < Polyskel.tri (L X).norm (R X).norm g.norm := by
    have := tri_pos (p := p) h.gt (show 0 < t - θ by linarith) (by linarith)
    rw [h.dir' hp, hp, hgp]
    rwa [show p + θ + (t - θ) = p + t by ring] at this
  have key : hgt g (pos Y) - hh Y = -(s * Polyskel.tri (L X).norm (R X).norm g.norm) := by
    have hX := h.hl
    rw [← hX]
    have e3 : hgt g (pos X) = hgt (L X) (pos X) := hg.trans hl.symm
    simp only [hgt, height, Polyskel.tri] at e3 ⊢
    linear_combination e3 + (g.norm.x - (L X).norm.x) * e2 - (g.norm.y - (L X).norm.y) * e1
  have := mul_pos hs' ht
  linarith

/-- an edge between those of a fan, as high at the node as they are, is one of them -/
theorem Fan.cover (h : Fan M pos hh L R X l e f θ) (hc : ConvexPolygon c) (hgc : g ∈ c)
    (hlow : ∀ k ∈ l, hh k ≤ hgt g (pos k)) (hk : ∀ k ∈ l, pos k ≠ pos X ∧ hgt (L k) (pos k) = hh k)
    (hin : ∀ k ∈ l, R k ∈ c) (hg : hgt g (pos X) = hh X) : ∀ {p t : ℝ}, e.norm = unitDir p →
    g.norm = unitDir (p + t) → 0 < t → t < θ → θ ≤ 2 * π → M g := by
  induction h with
  | @one k θ h =>
    intro p t hp hgp h0 h1 h2
    have := h.below (hk k (by simp)).1 h2 (hk k (by simp)).2 hg hp hgp h0 h1
    have := hlow k (by simp)
    linarith
  | @cons k θ τ l f h hM hf ih =>
    intro p t hp hgp h0 h1 h2
    have := hf.gt
    rcases lt_trichotomy t θ with hl | rfl | hl
    · have := h.below (hk _ (by simp)).1 (by linarith) (hk _ (by simp)).2 hg hp hgp h0 hl
      have := hlow k (by simp)
      linarith
    · rw [hc.norm_inj hgc (hin k (by simp)) (hgp.trans (h.dir' hp).symm)]
      exact hM
    · refine ih (fun k hk' => hlow k (by simp [hk'])) (fun x hx => hk x (by simp [hx]))
        (fun x hx => hin x (by simp [hx])) (h.dir' hp) (t := t - θ) ?_ (by linarith) (by linarith)
        (by linarith [h.gt])
      rw [hgp]; congr 1; ring

theorem Fan.nodup (h : Fan M pos hh L R X l e f θ) (hθ : θ ≤ 2 * π) (hp : e.norm = unitDir p) :
    l.Nodup ∧ ∀ k ∈ l, ∃ t, 0 ≤ t ∧ t < θ ∧ (L k).norm = unitDir (p + t) := by
  induction h generalizing p with
  | one h => exact ⟨by simp, fun x hx => by
      rw [List.mem_singleton] at hx
      subst hx
      exact ⟨0, le_refl _, h.gt, by simpa using hp⟩⟩
  | @cons k θ τ l f h hM hf ih =>
    have h0 := h.gt
    have h1 := hf.gt
    obtain ⟨i1, i2⟩ := ih (by linarith) (h.dir' hp)
    refine ⟨List.nodup_cons.2 ⟨fun hm => ?_, i1⟩, fun x hx => ?_⟩
    · obtain ⟨t, t0, t1, ht⟩ := i2 k hm
      rw [hp, show p + θ + t = p + (θ + t) by ring] at ht
      exact unitDir_ne (by linarith) (by linarith) ht
    · rcases List.mem_cons.1 hx with rfl | hx
      · exact ⟨0, le_refl _, by linarith, by simpa using hp⟩
      · obtain ⟨t, t0, t1, ht⟩ := i2 x hx
        exact ⟨θ + t, by linarith, by linarith, by rw [ht]; congr 1; ring⟩

/-! ### Growing a node out of those at the same place -/

/-- the node number `i` rises to the node number `j`, which is at the same place -/
def Into (n : Nat) (pos : Nat → V2 ℝ) (ch : Nat → List Nat) (j i : Nat) : Prop :=
  n + i ∈ ch j ∧ pos (n + i) = pos (n + j)

/-- the edge is not met again after the node number `j` -/
def Absorbed (m : Nat) (L R : Nat → Edge2 ℝ) (ch : Nat → List Nat) (j : Nat) (g : Edge2 ℝ) : Prop :=
  ∀ j', j < j' → j' < m → ∀ k ∈ ch j', L k ≠ g ∧ R k ≠ g

theorem Absorbed.mono {i j : Nat} (h : Absorbed m L R ch i g) (hij : i ≤ j) : Absorbed m L R ch j g :=
  fun j' h1 h2 => h j' (by omega) h2

theorem BinTree.absorbed (h : BinTree c m pos hh L R ch) {j a b : Nat} (hj : j + 1 < m) (hab : ch j = [a, b])
    (hR : R (c.length + j) = R b) : Absorbed m L R ch j (R a) := by
  obtain ⟨k, hk, hl⟩ := h.late j (by omega)
  rw [hab] at hk
  simp only [List.mem_cons, List.not_mem_nil, or_false] at hk
  rcases hk with rfl | rfl
  · exact hl
  · exfalso
    obtain ⟨j0, h1, h2⟩ := h.parent (show c.length + j < c.length + (m - 1) by omega)
    have := (h.child_lt h1 h2).1
    exact (hl j0 (by omega) h1 _ h2).2 hR

/-- the vertices of the node number `j` at other places, in order -/
structure Grows (c : List (Edge2 ℝ)) (m : Nat) (pos : Nat → V2 ℝ) (hh : Nat → ℝ) (L R : Nat → Edge2 ℝ)
    (ch : Nat → List Nat) (j : Nat) (l : List Nat) (e f : Edge2 ℝ) (θ : ℝ) : Prop where
  fan : Fan (Absorbed m L R ch j) pos hh L R (c.length + j) l e f θ
  mem : ∀ x, x ∈ l ↔ pos x ≠ pos (c.length + j) ∧
    ∃ i, Relation.ReflTransGen (Into c.length pos ch) j i ∧ x ∈ ch i
  ends : (j + 1 < m ∧ 2 ≤ l.length ∧ θ < 2 * π ∧ L (c.length + j) = e ∧ R (c.length + j) = f) ∨
    (j + 1 = m ∧ 3 ≤ l.length ∧ θ = 2 * π ∧ e = f)

theorem BinTree.piece (h : BinTree c m pos hh L R ch) (hc : ConvexPolygon c)
    (hcn : ∀ k j, k < c.length → j < m → pos k ≠ pos (c.length + j)) {j : Nat} (hj : j < m)
    (ih : ∀ i, i < j → ∃ l e f θ, Grows c m pos hh L R ch i l e f θ) {k : Nat} (hk : k ∈ ch j) {α : ℝ}
    (hu : Up pos hh L R k (c.length + j) α) (hα : α < 2 * π) :
    ∃ l, Fan (Absorbed m L R ch j) pos hh L R (c.length + j) l (L k) (R k) α ∧ ∀ x, x ∈ l ↔
      pos x ≠ pos (c.length + j) ∧ (x = k ∨ ∃ i i', k = c.length + i ∧ Into c.length pos ch j i ∧
        Relation.ReflTransGen (Into c.length pos ch) i i' ∧ x ∈ ch i') := by
  by_cases hp : pos k = pos (c.length + j)
  · have hlt := (h.child_lt hj hk).1
    have hlt' := (h.child_lt hj hk).2
    have hnc : ¬ k < c.length := fun hk' => hcn k j hk' hj hp
    obtain ⟨i, rfl⟩ : ∃ i, k = c.length + i := ⟨k - c.length, by omega⟩
    obtain ⟨l, e, f, θ, hg⟩ := ih i (by omega)
    rcases hg.ends with ⟨-, -, h1, rfl, rfl⟩ | ⟨h1, -⟩
    · have hhe : hh (c.length + i) = hh (c.length + j) := by
        rw [← hu.hl, ← hp]
        exact (h.height hc hlt').1.symm
      obtain ⟨p, d⟩ := hg.fan.dir_ex
      have hθ : θ = α := unitDir_inj hg.fan.gt.le h1 hu.gt.le hα
        ((hg.fan.dir d).symm.trans (hu.dir' d))
      subst hθ
      refine ⟨l, (hg.fan.move hp hhe).mono (fun e he => he.mono (by omega)), ?_⟩
      intro x
      rw [hg.mem x, hp]
      constructor
      · rintro ⟨h1, i', h2, h3⟩
        exact ⟨h1, .inr ⟨i, i', rfl, ⟨hk, hp⟩, h2, h3⟩⟩
      · rintro ⟨h1, rfl | ⟨i1, i', h2, -, h3, h4⟩⟩
        · exact absurd hp h1
        · obtain rfl : i1 = i := by omega
          exact ⟨h1, i', h3, h4⟩
    · omega
  · refine ⟨[k], .one hu, ?_⟩
    intro x
    rw [List.mem_singleton]
    constructor
    · rintro rfl; exact ⟨hp, .inl rfl⟩
    · rintro ⟨-, rfl | ⟨i, i', rfl, h1, -⟩⟩
      · rfl
      · exact absurd h1.2 hp

theorem BinTree.expand (h : BinTree c m pos hh L R ch) (hc : ConvexPolygon c)
    (hcn : ∀ k j, k < c.length → j < m → pos k ≠ pos (c.length + j)) :
    ∀ j, j < m → ∃ l e f θ, Grows c m pos hh L R ch j l e f θ := by
  intro j
  induction j using Nat.strong_induction_on with
  | _ j ih =>
    intro hj
    have ih' : ∀ i, i < j → ∃ l e f θ, Grows c m pos hh L R ch i l e f θ := fun i hi => ih i hi (by omega)
    have hp := @BinTree.piece c m pos hh L R ch h hc hcn j hj ih'
    -- from the children to the node
    have hmem : ∀ x, (∃ k ∈ ch j, x = k ∨ ∃ i i', k = c.length + i ∧ Into c.length pos ch j i ∧
        Relation.ReflTransGen (Into c.length pos ch) i i' ∧ x ∈ ch i') ↔
        ∃ i, Relation.ReflTransGen (Into c.length pos ch) j i ∧ x ∈ ch i := by
      intro x
      constructor
      · rintro ⟨k, hk, rfl | ⟨i, i', rfl, h1, h2, h3⟩⟩
        · exact ⟨j, .refl, hk⟩
        · exact ⟨i', .head h1 h2, h3⟩
      · rintro ⟨i, h1, h2⟩
        rcases h1.cases_head with rfl | ⟨i1, h3, h4⟩
        · exact ⟨x, h2, .inl rfl⟩
        · exact ⟨c.length + i1, h3.1, .inr ⟨i1, i, rfl, h3, h4, h2⟩⟩
    by_cases hl : j + 1 < m
    · obtain ⟨a, b, α, β, e, -, -, ha, hb, hs, e1, e2, e3⟩ := h.merge j hl
      have ga := ha.gt
      have gb := hb.gt
      obtain ⟨la, fa, ma⟩ := hp (k := a) (by simp [e]) ha (by linarith)
      obtain ⟨lb, fb, mb⟩ := hp (k := b) (by simp [e]) hb (by linarith)
      rw [← e1] at fb
      have na := fa.len
      have nb := fb.len
      refine ⟨la ++ lb, L a, R b, α + β, fa.append (h.absorbed hl e e3) fb, ?_, .inl ⟨hl, ?_, hs, e2, e3⟩⟩
      · intro x
        have : ∀ P : Nat → Prop, (∃ k ∈ ch j, P k) ↔ P a ∨ P b := by
          intro P
          rw [e]
          simp
        rw [List.mem_append, ma, mb, ← hmem, this, ← and_or_left]
      · rw [List.length_append]; omega
    · obtain ⟨a, b, d, α, β, γ, e, ha, hb, hd, hs, e1, e2, e3⟩ := h.peak
      have hjm : j = m - 1 := by omega
      rw [← hjm] at e ha hb hd
      have ga := ha.gt
      have gb := hb.gt
      have gd := hd.gt
      obtain ⟨la, fa, ma⟩ := hp (k := a) (e.mem_iff.2 (by simp)) ha (by linarith)
      obtain ⟨lb, fb, mb⟩ := hp (k := b) (e.mem_iff.2 (by simp)) hb (by linarith)
      obtain ⟨ld, fd, md⟩ := hp (k := d) (e.mem_iff.2 (by simp)) hd (by linarith)
      rw [← e1] at fb
      rw [← e2] at fd
      have na := fa.len
      have nb := fb.len
      have nd := fd.len
      have htop : ∀ g, Absorbed m L R ch j g := fun g j' h1 h2 => by omega
      refine ⟨la ++ lb ++ ld, L a, R d, α + β + γ, (fa.append (htop _) fb).append (htop _) fd, ?_,
        .inr ⟨by omega, ?_, hs, e3.symm⟩⟩
      · intro x
        have : ∀ P : Nat → Prop, (∃ k ∈ ch j, P k) ↔ P a ∨ P b ∨ P d := by
          intro P
          constructor
          · rintro ⟨k, hk, h1⟩
            have := e.mem_iff.1 hk
            simp only [List.mem_cons, List.not_mem_nil, or_false] at this
            rcases this with rfl | rfl | rfl
            · exact .inl h1
            · exact .inr (.inl h1)
            · exact .inr (.inr h1)
          · rintro (h1 | h1 | h1)
            · exact ⟨a, e.mem_iff.2 (by simp), h1⟩
            · exact ⟨b, e.mem_iff.2 (by simp), h1⟩
            · exact ⟨d, e.mem_iff.2 (by simp), h1⟩
        rw [List.mem_append, List.mem_append, ma, mb, md, ← hmem, this, ← and_or_left, ← and_or_left, or_assoc]
      · rw [List.length_append, List.length_append]; omega

/-- the edges as high at a node as its own, when the vertices that rise to it are elsewhere, and so is
the node it rises to -/
theorem BinTree.tight (h : BinTree c m pos hh L R ch) (hc : ConvexPolygon c)
    (hlow : ∀ k, k < c.length + m → ∀ g ∈ c, hh k ≤ hgt g (pos k)) {j j0 : Nat} (hj : j < m) (hj0 : j0 < m)
    (hp : c.length + j ∈ ch j0) (hne : pos (c.length + j) ≠ pos (c.length + j0)) {l : List Nat}
    {e f g : Edge2 ℝ} {θ : ℝ} (hg : Grows c m pos hh L R ch j l e f θ) (hgc : g ∈ c)
    (ht : hgt g (pos (c.length + j)) = hh (c.length + j)) :
    g = L (c.length + j) ∨ g = R (c.length + j) ∨ Absorbed m L R ch j g := by
  have hlt := (h.child_lt hj0 hp)
  obtain ⟨m1, m2⟩ := h.edges_mem _ hlt.2
  obtain ⟨α, hα, hu⟩ := h.up hj0 hp
  rcases hg.ends with ⟨-, -, h1, rfl, rfl⟩ | ⟨h1, -⟩
  · obtain ⟨p, d⟩ := hg.fan.dir_ex
    have hθ : θ = α := unitDir_inj hg.fan.gt.le h1 hu.gt.le hα
      ((hg.fan.dir d).symm.trans (hu.dir' d))
    subst hθ
    obtain ⟨t, t0, t1, hgt'⟩ := unitDir_from (hc.unit g hgc) p
    rcases t0.lt_or_eq with t0 | rfl
    · rcases lt_trichotomy t θ with hl | rfl | hl
      · refine .inr (.inr ?_)
        have hch : ∀ k ∈ l, pos k ≠ pos (c.length + j) ∧ k < c.length + (m - 1) := by
          intro k hk
          obtain ⟨h1, i, h2, h3⟩ := (hg.mem k).1 hk
          have hi : i ≤ j := by
            clear h3
            induction h2 with
            | refl => exact le_refl _
            | @tail b d _ h4 ih =>
              have := (h.child_lt (show b < m by omega) h4.1).1
              omega
          exact ⟨h1, (h.child_lt (by omega) h3).2⟩
        exact hg.fan.cover hc hgc (fun k hk => hlow k (by have := (hch k hk).2; omega) g hgc)
          (fun k hk => ⟨(hch k hk).1, (h.height hc (hch k hk).2).1⟩)
          (fun k hk => (h.edges_mem k (hch k hk).2).2) ht d hgt' t0 hl h1.le
      · exact .inr (.inl (hc.norm_inj hgc m2 (hgt'.trans (hg.fan.dir d).symm)))
      · exfalso
        have := hu.above hne (h.height hc hlt.2).1 ht d hgt' hl t1
        have := hlow (c.length + j0) (by omega) g hgc
        linarith
    · refine .inl (hc.norm_inj hgc m1 ?_)
      rw [hgt', d, add_zero]
  · have := hlt.2
    omega

/-- a node at the place of which another one is made later rises to a node at this place -/
theorem BinTree.merged (h : BinTree c m pos hh L R ch) (hc : ConvexPolygon c)
    (hlow : ∀ k, k < c.length + m → ∀ g ∈ c, hh k ≤ hgt g (pos k))
    (hcn : ∀ k j, k < c.length → j < m → pos k ≠ pos (c.length + j)) {j j2 : Nat} (hjj : j < j2) (hj2 : j2 < m)
    (hp : pos (c.length + j) = pos (c.length + j2)) :
    ∃ j0 < m, c.length + j ∈ ch j0 ∧ pos (c.length + j) = pos (c.length + j0) := by
  obtain ⟨j0, h1, h2⟩ := h.parent (show c.length + j < c.length + (m - 1) by omega)
  refine ⟨j0, h1, h2, ?_⟩
  by_contra hne
  obtain ⟨l, e, f, θ, hg⟩ := h.expand hc hcn j (by omega)
  obtain ⟨x, y, z, n1, n2, n3, hw⟩ := h.three hj2
  have hhe : hh (c.length + j) = hh (c.length + j2) := by
    obtain ⟨x', _, _, -, -, -, hw'⟩ := h.three (show j < m by omega)
    obtain ⟨w1, w2, -⟩ := hw x (.inl rfl)
    obtain ⟨v1, v2, -⟩ := hw' x' (.inl rfl)
    have a1 := hlow (c.length + j) (by omega) x w1
    have a2 := hlow (c.length + j2) (by omega) x' v1
    rw [← hp] at a2 w2
    linarith
  have key : ∀ w, w = x ∨ w = y ∨ w = z → w = L (c.length + j) ∨ w = R (c.length + j) := by
    intro w hw'
    obtain ⟨w1, w2, k, hk, w3⟩ := hw w hw'
    rw [← hp, ← hhe] at w2
    rcases h.tight hc hlow (by omega) h1 h2 hne hg w1 w2 with h3 | h3 | h3
    · exact .inl h3
    · exact .inr h3
    · exfalso
      have := h3 j2 hjj hj2 k hk
      rcases w3 with rfl | rfl
      · exact this.1 rfl
      · exact this.2 rfl
  rcases key x (by simp) with a | a <;> rcases key y (by simp) with b | b <;>
    rcases key z (by simp) with d | d
  all_goals first
    | exact n1 (a.trans b.symm)
    | exact n2 (b.trans d.symm)
    | exact n3 (a.trans d.symm)

/-- all nodes at the place of the node number `j`, when it is the last one there, are part of it -/
theorem BinTree.within (h : BinTree c m pos hh L R ch) (hc : ConvexPolygon c)
    (hlow : ∀ k, k < c.length + m → ∀ g ∈ c, hh k ≤ hgt g (pos k))
    (hcn : ∀ k j, k < c.length → j < m → pos k ≠ pos (c.length + j)) {j : Nat} (hj : j < m)
    (hlast : ∀ j', j < j' → j' < m → pos (c.length + j') ≠ pos (c.length + j)) :
    ∀ d i, i < m → i + d = j → pos (c.length + i) = pos (c.length + j) →
      Relation.ReflTransGen (Into c.length pos ch) j i := by
  intro d
  induction d using Nat.strong_induction_on with
  | _ d ih =>
    intro i hi hd hp
    by_cases h0 : d = 0
    · obtain rfl : i = j := by omega
      exact .refl
    · obtain ⟨j0, h1, h2, h3⟩ := h.merged hc hlow hcn (show i < j by omega) hj hp
      have h4 := (h.child_lt h1 h2).1
      have h5 : j0 ≤ j := by
        by_contra hcon
        exact hlast j0 (by omega) h1 (h3.symm.trans hp)
      exact (ih (j - j0) (by omega) j0 h1 (by omega) (h3.symm.trans hp)).tail ⟨h2, h3⟩

/-! ### One node for each place -/

theorem Fan.relabel {ρ : Nat → Nat} {X' : Nat} (hX : ρ X' = X) :
    ∀ {l' : List Nat} {e f : Edge2 ℝ} {θ : ℝ}, Fan M pos hh L R X (l'.map ρ) e f θ →
    Fan M (fun k => pos (ρ k)) (fun k => hh (ρ k)) (fun k => L (ρ k)) (fun k => R (ρ k)) X' l' e f θ := by
  subst hX
  intro l'
  have hup : ∀ {k : Nat} {θ : ℝ}, Up pos hh L R (ρ k) (ρ X') θ →
      Up (fun k => pos (ρ k)) (fun k => hh (ρ k)) (fun k => L (ρ k)) (fun k => R (ρ k)) k X' θ :=
    fun h => ⟨h.dir, h.gt, h.on, h.hl, h.hr⟩
  induction l' with
  | nil => intro e f θ h; cases h
  | cons k l' ih =>
    intro e f θ h
    rw [List.map_cons] at h
    generalize hl : l'.map ρ = l at h
    cases h with
    | one h =>
      obtain rfl : l' = [] := by simpa using hl
      exact .one (hup h)
    | cons h h1 h2 =>
      subst hl
      exact .cons (hup h) h1 (ih h2)

/-- the last node at a place -/
theorem last_at {m : Nat} {P : Nat → Prop} (h : ∃ j < m, P j) :
    ∃ j < m, P j ∧ ∀ j', j < j' → j' < m → ¬ P j' := by
  induction m with
  | zero => obtain ⟨j, hj, -⟩ := h; omega
  | succ m ih =>
    by_cases hm : P m
    · exact ⟨m, by omega, hm, fun j' h1 h2 => by omega⟩
    · obtain ⟨j, hj, hp⟩ := h
      have hj' : j < m := by
        rcases Nat.lt_or_ge j m with h | h
        · exact h
        · obtain rfl : j = m := by omega
          exact absurd hp hm
      obtain ⟨j, h1, h2, h3⟩ := ih ⟨j, hj', hp⟩
      refine ⟨j, by omega, h2, fun j' h4 h5 => ?_⟩
      rcases Nat.lt_or_ge j' m with h | h
      · exact h3 j' h4 h
      · obtain rfl : j' = m := by omega
        exact hm

/-- a list of values of a function -/
theorem list_of_values {α β : Type} {f : α → β} {P : α → Prop} : ∀ {l : List β},
    (∀ y ∈ l, ∃ x, P x ∧ f x = y) → ∃ l' : List α, l'.map f = l ∧ ∀ x ∈ l', P x
  | [], _ => ⟨[], rfl, by simp⟩
  | y :: l, h => by
    obtain ⟨x, hx, rfl⟩ := h y (by simp)
    obtain ⟨l', h1, h2⟩ := list_of_values (l := l) (fun y hy => h y (by simp [hy]))
    refine ⟨x :: l', by rw [List.map_cons, h1], ?_⟩
    intro z hz
    rcases List.mem_cons.1 hz with rfl | hz
    · exact hx
    · exact h2 z hz

set_option maxHeartbeats 400000 in
/-- The nodes at the same place are one: the tree with one node for each of the places `ps`. -/
theorem BinTree.contract (h : BinTree c m pos hh L R ch) (hc : ConvexPolygon c)
    (hlow : ∀ k, k < c.length + m → ∀ g ∈ c, hh k ≤ hgt g (pos k))
    (hcn : ∀ k j, k < c.length → j < m → pos k ≠ pos (c.length + j)) {ps : List (V2 ℝ)} (hnd : ps.Nodup)
    (hin : ∀ j < m, pos (c.length + j) ∈ ps) (hex : ∀ p ∈ ps, ∃ j < m, pos (c.length + j) = p) :
    ∃ (ρ : Nat → Nat) (ch' : Nat → List Nat), (∀ k < c.length, ρ k = k) ∧
      (∀ (i : Nat) p, ps[i]? = some p → ∃ j < m, ρ (c.length + i) = c.length + j ∧ pos (c.length + j) = p) ∧
      (∀ k, c.length + ps.length ≤ k → ρ k = c.length + m) ∧
      RoofTree c ps.length (fun k => pos (ρ k)) (fun k => hh (ρ k)) (fun k => L (ρ k)) (fun k => R (ρ k)) ch' ∧
      (∀ i j, i < c.length + ps.length → j < c.length + ps.length → pos (ρ i) = pos (ρ j) → i = j) ∧
      ∀ (i : Nat) p, ps[i]? = some p → ∀ q, q ∈ (ch' i).map (fun k => pos (ρ k)) ↔
        q ≠ p ∧ ∃ j < m, pos (c.length + j) = p ∧ q ∈ (ch j).map pos := by
  have hsz := h.size
  have h1m := h.one
  have hroot : ∀ i : Nat, ∃ j, ∀ p, ps[i]? = some p → j < m ∧ pos (c.length + j) = p ∧
      ∀ j', j < j' → j' < m → pos (c.length + j') ≠ p := by
    intro i
    by_cases hi : i < ps.length
    · obtain ⟨j, h1, h2, h3⟩ := last_at (hex _ (List.getElem_mem hi))
      refine ⟨j, fun p hp => ?_⟩
      rw [List.getElem?_eq_getElem hi] at hp
      cases hp
      exact ⟨h1, h2, h3⟩
    · exact ⟨0, fun p hp => by rw [List.getElem?_eq_none (by omega)] at hp; cases hp⟩
  choose root hroot using hroot
  obtain ⟨ρ, hρ⟩ : ∃ ρ : Nat → Nat, ρ = fun k => if k < c.length then k else
    if k < c.length + ps.length then c.length + root (k - c.length) else c.length + m := ⟨_, rfl⟩
  have ρ1 : ∀ k < c.length, ρ k = k := by
    intro k hk; rw [hρ]; exact if_pos hk
  have ρ2 : ∀ i < ps.length, ρ (c.length + i) = c.length + root i := by
    intro i hi
    rw [hρ]
    simp [hi]
  have ρ3 : ∀ k, c.length + ps.length ≤ k → ρ k = c.length + m := by
    intro k hk; rw [hρ]
    simp only
    rw [if_neg (by omega), if_neg (by omega)]
  -- the number of a place
  have hidx : ∀ j < m, ∃ i : Nat, ps[i]? = some (pos (c.length + j)) :=
    fun j hj => List.mem_iff_getElem?.1 (hin j hj)
  have hpinj : ∀ (i j : Nat) p, ps[i]? = some p → ps[j]? = some p → i = j := by
    intro i j p hi hj
    obtain ⟨h1, h2⟩ := List.getElem?_eq_some_iff.1 hi
    obtain ⟨h3, h4⟩ := List.getElem?_eq_some_iff.1 hj
    exact (hnd.getElem_inj_iff).1 (h2.trans h4.symm)
  have hlt : ∀ {i : Nat} {p : V2 ℝ}, ps[i]? = some p → i < ps.length :=
    fun hi => (List.getElem?_eq_some_iff.1 hi).1
  have hinj : ∀ i j, i < c.length + ps.length → j < c.length + ps.length → pos (ρ i) = pos (ρ j) → i = j := by
    have hcorner : ∀ i j, i < c.length → j < c.length → pos (ρ i) = pos (ρ j) → i = j := by
      intro i j hi hj hij
      rw [ρ1 i hi, ρ1 j hj, (h.corner i hi).1, (h.corner j hj).1] at hij
      have : (c.map (·.p1))[i]'(by simpa using hi) = (c.map (·.p1))[j]'(by simpa using hj) := by
        simpa using hij
      exact (hc.distinct.getElem_inj_iff).1 this
    have hmix : ∀ i j, i < c.length → j < ps.length → pos (ρ i) ≠ pos (ρ (c.length + j)) := by
      intro i j hi hj
      rw [ρ1 i hi, ρ2 j hj]
      exact hcn i _ hi (hroot j _ (List.getElem?_eq_getElem hj)).1
    have hnode : ∀ i j, i < ps.length → j < ps.length →
        pos (ρ (c.length + i)) = pos (ρ (c.length + j)) → i = j := by
      intro i j hi hj hij
      rw [ρ2 i hi, ρ2 j hj, (hroot i _ (List.getElem?_eq_getElem hi)).2.1,
        (hroot j _ (List.getElem?_eq_getElem hj)).2.1] at hij
      exact (hnd.getElem_inj_iff).1 hij
    intro i j hi hj hij
    by_cases i1 : i < c.length <;> by_cases j1 : j < c.length
    · exact hcorner i j i1 j1 hij
    · obtain ⟨j, rfl⟩ : ∃ j', j = c.length + j' := ⟨j - c.length, by omega⟩
      exact absurd hij (hmix i j i1 (by omega))
    · obtain ⟨i, rfl⟩ : ∃ i', i = c.length + i' := ⟨i - c.length, by omega⟩
      exact absurd hij.symm (hmix j i j1 (by omega))
    · obtain ⟨i, rfl⟩ : ∃ i', i = c.length + i' := ⟨i - c.length, by omega⟩
      obtain ⟨j, rfl⟩ : ∃ j', j = c.length + j' := ⟨j - c.length, by omega⟩
      rw [hnode i j (by omega) (by omega) hij]
  -- a vertex that rises to another place is the last one at its place
  have hsurj : ∀ j < m, ∀ k ∈ ch j, pos k ≠ pos (c.length + j) → ∃ x, x < c.length + ps.length ∧ ρ x = k := by
    intro j hj k hk hne
    by_cases hkc : k < c.length
    · exact ⟨k, by omega, ρ1 k hkc⟩
    · have hkl := h.child_lt hj hk
      obtain ⟨i, rfl⟩ : ∃ i, k = c.length + i := ⟨k - c.length, by omega⟩
      obtain ⟨x, hx⟩ := hidx i (by omega)
      obtain ⟨r1, r2, r3⟩ := hroot x _ hx
      refine ⟨c.length + x, by have := hlt hx; omega, ?_⟩
      rw [ρ2 x (hlt hx)]
      congr 1
      by_contra hri
      have hir : i < root x := by
        rcases Nat.lt_trichotomy i (root x) with h1 | h1 | h1
        · exact h1
        · exact absurd h1.symm hri
        · exact absurd rfl (r3 i h1 (by omega))
      obtain ⟨j0, a1, a2, a3⟩ := h.merged hc hlow hcn hir r1 r2.symm
      obtain rfl := h.parent_unique hj a1 hk a2
      exact hne a3
  -- the vertices that rise to the node of a place
  have hnode : ∀ i : Nat, ∃ l' : List Nat, ∀ p, ps[i]? = some p → ∃ e f θ,
      Fan (fun _ => True) (fun k => pos (ρ k)) (fun k => hh (ρ k)) (fun k => L (ρ k)) (fun k => R (ρ k))
        (c.length + i) l' e f θ ∧ l'.Nodup ∧ (∀ x, x ∈ l' ↔ x < c.length + ps.length ∧ pos (ρ x) ≠ p ∧
          ∃ j < m, pos (c.length + j) = p ∧ ρ x ∈ ch j) ∧
      ((root i + 1 < m ∧ 2 ≤ l'.length ∧ θ < 2 * π ∧ L (ρ (c.length + i)) = e ∧ R (ρ (c.length + i)) = f) ∨
        (root i + 1 = m ∧ 3 ≤ l'.length ∧ θ = 2 * π ∧ e = f)) := by
    intro i
    by_cases hi : i < ps.length
    swap
    · exact ⟨[], fun p hp => by rw [List.getElem?_eq_none (by omega)] at hp; cases hp⟩
    obtain ⟨r1, r2, r3⟩ := hroot i _ (List.getElem?_eq_getElem hi)
    obtain ⟨l, e, f, θ, hg⟩ := h.expand hc hcn (root i) r1
    have hmem : ∀ k, k ∈ l ↔ pos k ≠ ps[i] ∧ ∃ j < m, pos (c.length + j) = ps[i] ∧ k ∈ ch j := by
      intro k
      rw [hg.mem k, r2]
      refine and_congr_right fun _ => ⟨?_, ?_⟩
      · rintro ⟨j, h1, h2⟩
        have : j ≤ root i ∧ pos (c.length + j) = ps[i] := by
          clear h2
          induction h1 with
          | refl => exact ⟨le_refl _, r2⟩
          | @tail b d _ h4 ih =>
            have := (h.child_lt (show b < m by omega) h4.1).1
            exact ⟨by omega, h4.2.trans ih.2⟩
        exact ⟨j, by omega, this.2, h2⟩
      · rintro ⟨j, h1, h2, h3⟩
        have hj : j ≤ root i := by
          by_contra hcon
          exact r3 j (by omega) h1 h2
        exact ⟨j, h.within hc hlow hcn r1 (fun j' h1 h2 => by rw [r2]; exact r3 j' h1 h2) (root i - j) j h1
          (by omega) (h2.trans r2.symm), h3⟩
    obtain ⟨l', h1, h2⟩ := list_of_values (f := ρ) (P := fun x => x < c.length + ps.length) (l := l) (by
      intro k hk
      obtain ⟨a1, j, a2, a3, a4⟩ := (hmem k).1 hk
      exact hsurj j a2 k a4 (by rw [a3]; exact a1))
    subst h1
    have hθ : θ ≤ 2 * π := by
      rcases hg.ends with ⟨-, -, h, -⟩ | ⟨-, -, h, -⟩ <;> linarith
    obtain ⟨p0, hp0⟩ := hg.fan.dir_ex
    refine ⟨l', fun p hp => ?_⟩
    rw [List.getElem?_eq_getElem hi] at hp
    cases hp
    refine ⟨e, f, θ, (hg.fan.mono (fun _ _ => trivial)).relabel (ρ2 i hi), ?_, ?_, ?_⟩
    · exact ((hg.fan.nodup hθ hp0).1).of_map _
    · intro x
      constructor
      · intro hx
        exact ⟨h2 x hx, (hmem (ρ x)).1 (List.mem_map_of_mem hx)⟩
      · rintro ⟨a1, a2⟩
        obtain ⟨y, hy, hxy⟩ := List.mem_map.1 ((hmem (ρ x)).2 a2)
        rwa [← hinj y x (h2 y hy) a1 (by rw [hxy])]
    · rw [ρ2 i hi]
      simpa using hg.ends
  choose ch' hch using hnode
  have hget : ∀ {i : Nat}, i < ps.length → ∃ p, ps[i]? = some p := fun hi => ⟨_, List.getElem?_eq_getElem hi⟩
  refine ⟨ρ, ch', ρ1, ?_, ρ3, ⟨by omega, ?_, ?_, ?_, ?_, ρ, ?_⟩, hinj, ?_⟩
  · intro i p hp
    obtain ⟨r1, r2, -⟩ := hroot i p hp
    exact ⟨root i, r1, ρ2 i (hlt hp), r2⟩
  · intro k hk
    simp only [ρ1 k hk]
    exact h.corner k hk
  · intro k hk
    obtain ⟨j, hj, hkj⟩ := h.parent (show k < c.length + (m - 1) by omega)
    obtain ⟨i, hi⟩ := hidx j hj
    obtain ⟨e, f, θ, -, -, hmem, -⟩ := hch i _ hi
    refine ⟨i, hlt hi, (hmem k).2 ⟨by omega, ?_, j, hj, rfl, ?_⟩⟩
    · rw [ρ1 k hk]; exact hcn k j hk hj
    · rwa [ρ1 k hk]
  · intro i hi
    obtain ⟨p, hp⟩ := hget hi
    obtain ⟨r1, r2, r3⟩ := hroot i p hp
    obtain ⟨e, f, θ, hf, -, hmem, hends⟩ := hch i p hp
    refine ⟨ch' i, e, f, θ, List.Perm.refl _, hf, ?_⟩
    rcases hends with ⟨a1, a2, a3, a4, a5⟩ | ⟨a1, a2, a3, a4⟩
    · refine .inl ⟨a2, a3, a4, a5, ?_⟩
      obtain ⟨j, hj, hkj⟩ := h.parent (show c.length + root i < c.length + (m - 1) by omega)
      obtain ⟨i', hi'⟩ := hidx j hj
      obtain ⟨_, _, _, -, -, hmem', -⟩ := hch i' _ hi'
      have := (h.child_lt hj hkj).1
      refine ⟨i', hlt hi', (hmem' _).2 ⟨by omega, ?_, j, hj, rfl, ?_⟩⟩
      · rw [ρ2 i hi, r2]; exact (r3 j (by omega) hj).symm
      · rwa [ρ2 i hi]
    · refine .inr ⟨a2, a3, a4, ?_⟩
      intro i' hi' hm
      obtain ⟨p', hp'⟩ := hget hi'
      obtain ⟨_, _, _, -, -, hmem', -⟩ := hch i' _ hp'
      obtain ⟨-, -, j, hj, -, hkj⟩ := (hmem' _).1 hm
      rw [ρ2 i hi] at hkj
      have := (h.child_lt hj hkj).2
      omega
  · rw [List.nodup_flatMap]
    refine ⟨fun i hi => ?_, ?_⟩
    · obtain ⟨p, hp⟩ := hget (List.mem_range.1 hi)
      obtain ⟨_, _, _, -, hn, -⟩ := hch i p hp
      exact hn
    · have hpw : (List.range ps.length).Pairwise (· < ·) := List.pairwise_lt_range
      refine (List.Pairwise.and_mem.1 hpw).imp ?_
      rintro i j ⟨hi, hj, hij⟩
      intro x hx hx'
      obtain ⟨p, hp⟩ := hget (List.mem_range.1 hi)
      obtain ⟨q, hq⟩ := hget (List.mem_range.1 hj)
      obtain ⟨_, _, _, -, -, m1, -⟩ := hch i p hp
      obtain ⟨_, _, _, -, -, m2, -⟩ := hch j q hq
      obtain ⟨-, -, j1, b1, b2, b3⟩ := (m1 x).1 hx
      obtain ⟨-, -, j2, d1, d2, d3⟩ := (m2 x).1 hx'
      obtain rfl := h.parent_unique b1 d1 b3 d3
      rw [← b2] at hp
      rw [← d2] at hq
      have := hpinj i j _ hp hq
      omega
  · intro i hi x hx
    obtain ⟨p, hp⟩ := hget hi
    obtain ⟨r1, r2, r3⟩ := hroot i p hp
    obtain ⟨_, _, _, -, -, hmem, -⟩ := hch i p hp
    obtain ⟨a1, -, j, a2, a3, a4⟩ := (hmem x).1 hx
    refine ⟨a1, ?_⟩
    have := (h.child_lt a2 a4).1
    have : j ≤ root i := by
      by_contra hcon
      exact r3 j (by omega) a2 a3
    rw [ρ2 i hi]
    omega
  · intro i p hp q
    obtain ⟨_, _, _, -, -, hmem, -⟩ := hch i p hp
    rw [List.mem_map]
    constructor
    · rintro ⟨x, hx, rfl⟩
      obtain ⟨-, a2, j, a3, a4, a5⟩ := (hmem x).1 hx
      exact ⟨a2, j, a3, a4, List.mem_map_of_mem a5⟩
    · rintro ⟨a1, j, a2, a3, a4⟩
      obtain ⟨k, hk, rfl⟩ := List.mem_map.1 a4
      obtain ⟨x, hx, rfl⟩ := hsurj j a2 k hk (by rw [a3]; exact a1)
      exact ⟨x, (hmem x).2 ⟨hx, a1, j, a2, a3, hk⟩, rfl⟩

end
end Polyskel
