import Verif.Props.Apses
import Verif.Props.Ghosts
import Verif.Proofs.SweepRun
/-
When the steps after the main loop of `skeletonize` do no more than merge arcs with the same source.  Used for C62.
-/
namespace Polyskel
open Scalar Real Geo
set_option linter.unusedSectionVars false

section
variable {c : List (Edge2 ℝ)}

/-- Three corners of a strictly convex polygon are not on a line. -/
theorem ConvexPolygon.not_between (h : ConvexPolygon c) {q p r : V2 ℝ} (hq : q ∈ c.map (·.p1))
    (hp : p ∈ c.map (·.p1)) (hr : r ∈ c.map (·.p1)) (hqp : p ≠ q) (hqr : r ≠ q) (hpr : p ≠ r) {a b : ℝ}
    (ha : 0 ≤ a) (hb : 0 ≤ b) (hab : 0 < a + b)
    (h1 : a * (p.x - q.x) + b * (r.x - q.x) = 0) (h2 : a * (p.y - q.y) + b * (r.y - q.y) = 0) : False := by
  obtain ⟨e, he, rfl⟩ := List.mem_map.1 hq
  obtain ⟨f, hf, rfl⟩ := List.mem_map.1 hp
  obtain ⟨g, hg, rfl⟩ := List.mem_map.1 hr
  obtain ⟨l, hl, l1, l2⟩ := h.along e he
  have hu := h.unit e he
  have key : a * (e.norm.x * (f.p1.y - e.p1.y) - e.norm.y * (f.p1.x - e.p1.x)) +
      b * (e.norm.x * (g.p1.y - e.p1.y) - e.norm.y * (g.p1.x - e.p1.x)) = 0 := by
    linear_combination e.norm.x * h2 - e.norm.y * h1
  have end0 : e.norm.x * (e.p2.y - e.p1.y) - e.norm.y * (e.p2.x - e.p1.x) = 0 := by
    rw [l1, l2]; ring
  have sq : e.p2.x - e.p1.x ≠ 0 ∨ e.p2.y - e.p1.y ≠ 0 := by
    by_contra hc
    push Not at hc
    rw [l1, l2] at hc
    have c1 := (mul_eq_zero.1 hc.1).resolve_left hl.ne'
    have c2 := (mul_eq_zero.1 hc.2).resolve_left hl.ne'
    rw [c1, c2] at hu
    norm_num at hu
  have ne0 : ∀ {x : ℝ} {y : ℝ}, x * (e.p2.x - e.p1.x) = 0 → x * (e.p2.y - e.p1.y) = 0 → x = 0 := by
    intro x _ e1 e2
    rcases sq with s | s
    · exact (mul_eq_zero.1 e1).resolve_right s
    · exact (mul_eq_zero.1 e2).resolve_right s
  by_cases hf2 : f.p1 = e.p2
  · have hg2 : g.p1 ≠ e.p2 := fun hg2 => hpr (hf2.trans hg2.symm)
    have h3 := h.left e he g hg hqr hg2
    rw [hf2, end0] at key
    have hb0 : b = 0 := by
      have : b * (e.norm.x * (g.p1.y - e.p1.y) - e.norm.y * (g.p1.x - e.p1.x)) = 0 := by linarith
      exact (mul_eq_zero.1 this).resolve_right h3.ne'
    rw [hb0, hf2] at h1 h2
    have := ne0 (x := a) (y := 0) (by linarith) (by linarith)
    linarith
  · have h3 := h.left e he f hf hqp hf2
    by_cases hg2 : g.p1 = e.p2
    · rw [hg2, end0] at key
      have ha0 : a = 0 := by
        have : a * (e.norm.x * (f.p1.y - e.p1.y) - e.norm.y * (f.p1.x - e.p1.x)) = 0 := by linarith
        exact (mul_eq_zero.1 this).resolve_right h3.ne'
      rw [ha0, hg2] at h1 h2
      have := ne0 (x := b) (y := 0) (by linarith) (by linarith)
      linarith
    · have h4 := h.left e he g hg hqr hg2
      have m1 := mul_nonneg ha h3.le
      have m2 := mul_nonneg hb h4.le
      rcases ha.lt_or_eq with ha' | ha'
      · have := mul_pos ha' h3
        linarith
      · have hb' : 0 < b := by linarith
        have := mul_pos hb' h4
        linarith

theorem ConvexPolygon.not_collinear (h : ConvexPolygon c) {p q r : V2 ℝ} (hp : p ∈ c.map (·.p1))
    (hq : q ∈ c.map (·.p1)) (hr : r ∈ c.map (·.p1)) (hpq : p ≠ q) (hqr : q ≠ r) (hpr : p ≠ r) :
    ¬ Collinear3 p q r := by
  intro hc
  have ne2 : ∀ {a b : V2 ℝ}, a ≠ b → 0 < (a.x - b.x) ^ 2 + (a.y - b.y) ^ 2 := by
    intro a b hab
    by_contra hn
    apply hab
    have s1 := sq_nonneg (a.x - b.x)
    have s2 := sq_nonneg (a.y - b.y)
    have e1 := pow_eq_zero_iff (two_ne_zero) |>.1 (by linarith : (a.x - b.x) ^ 2 = 0)
    have e2 := pow_eq_zero_iff (two_ne_zero) |>.1 (by linarith : (a.y - b.y) ^ 2 = 0)
    cases a; cases b
    simp only [V2.mk.injEq] at *
    exact ⟨by linarith, by linarith⟩
  -- the one in the middle
  have mid : ∀ {p q r : V2 ℝ}, p ∈ c.map (·.p1) → q ∈ c.map (·.p1) → r ∈ c.map (·.p1) → p ≠ q →
      r ≠ q → p ≠ r → (p.x - q.x) * (r.y - q.y) - (p.y - q.y) * (r.x - q.x) = 0 →
      0 < (p.x - q.x) * (r.x - q.x) + (p.y - q.y) * (r.y - q.y) := by
    intro p q r hp hq hr hpq hrq hpr h0
    by_contra hn
    have hv := ne2 hrq
    refine h.not_between hq hp hr hpq hrq hpr (a := (r.x - q.x) ^ 2 + (r.y - q.y) ^ 2)
      (b := -((p.x - q.x) * (r.x - q.x) + (p.y - q.y) * (r.y - q.y))) hv.le (by linarith) (by linarith)
      ?_ ?_
    · linear_combination (r.y - q.y) * h0
    · linear_combination -(r.x - q.x) * h0
  simp only [Collinear3, area2] at hc
  have m1 := mid hp hq hr hpq hqr.symm hpr (by linear_combination -hc)
  have m2 := mid hq hp hr hpq.symm hpr.symm hqr (by linear_combination hc)
  have m3 := mid hp hr hq hpr hqr hpq (by linear_combination hc)
  have h4 := mul_pos m2 m3
  have h5 := mul_pos m1 (ne2 hpr)
  have h6 : ((q.x - p.x) * (r.x - p.x) + (q.y - p.y) * (r.y - p.y)) *
      ((p.x - r.x) * (q.x - r.x) + (p.y - r.y) * (q.y - r.y)) +
      ((p.x - q.x) * (r.x - q.x) + (p.y - q.y) * (r.y - q.y)) * ((p.x - r.x) ^ 2 + (p.y - r.y) ^ 2) =
      ((p.x - q.x) * (r.y - q.y) - (p.y - q.y) * (r.x - q.x)) ^ 2 := by ring
  have h7 : (p.x - q.x) * (r.y - q.y) - (p.y - q.y) * (r.x - q.x) = 0 := by linear_combination -hc
  rw [h7] at h6
  linarith

theorem lowCorner_mod {i : Nat} : lowCorner c (i % c.length) ↔ lowCorner c i := by
  by_cases h0 : c.length = 0
  · rw [h0, Nat.mod_zero]
  · have h1 : (i % c.length + c.length - 1) % c.length = (i + c.length - 1) % c.length := by
      have hp : 0 < c.length := by omega
      rw [show i % c.length + c.length - 1 = i % c.length + (c.length - 1) by omega,
        show i + c.length - 1 = i + (c.length - 1) by omega, Nat.add_mod, Nat.mod_mod, ← Nat.add_mod]
    unfold lowCorner
    simp only [h1, Nat.mod_mod]

/-- A strictly convex polygon does not make `detectApses` raise. -/
theorem ConvexPolygon.apses (h : ConvexPolygon c) (hne : c ≠ []) : ∃ ap, detectApses c = .ok ap := by
  cases hd : detectApses c with
  | ok ap => exact ⟨ap, rfl⟩
  | error x =>
    exfalso
    obtain ⟨-, ⟨i, hi, hlow⟩, s, e, hr, h6, hs, p0, pm, pl, h0, hm, hl, hcol⟩ :=
      (C34_detectApses c hne x).1 hd
    have hlen : e - s < c.length := by
      by_contra hge
      apply hlow
      -- the place of `i` in the run
      obtain ⟨k, hk1, hk2, hk3⟩ : ∃ k, s ≤ k ∧ k < e ∧ k % c.length = i := by
        by_cases his : s ≤ i
        · exact ⟨i, his, by omega, Nat.mod_eq_of_lt hi⟩
        · exact ⟨i + c.length, by omega, by omega, by
            rw [Nat.add_mod_right]; exact Nat.mod_eq_of_lt hi⟩
      have := hr.low k hk1 hk2
      rw [← lowCorner_mod, hk3] at this
      exact this
    have hpos : 0 < c.length := List.length_pos_iff.2 hne
    have hget : ∀ {i p}, cornerAt c i p → p ∈ c.map (·.p1) ∧
        (c.map (·.p1))[i % c.length]'(by simpa using Nat.mod_lt _ hpos) = p := by
      intro i p hp
      unfold cornerAt at hp
      rw [List.getElem?_eq_getElem (Nat.mod_lt _ hpos)] at hp
      simp only [Option.map_some, Option.some.injEq] at hp
      refine ⟨List.mem_map.2 ⟨_, List.getElem_mem _, hp⟩, by simpa using hp⟩
    have hdiff : ∀ {i j p q}, cornerAt c i p → cornerAt c j q → i < j → j - i < c.length → p ≠ q := by
      intro i j p q hp hq hij hlt hpq
      have := (hget hp).2.trans (hpq.trans (hget hq).2.symm)
      have := (h.distinct.getElem_inj_iff).1 this
      have h1 := Nat.sub_mod_eq_zero_of_mod_eq this.symm
      rw [Nat.mod_eq_of_lt hlt] at h1
      omega
    exact h.not_collinear (hget h0).1 (hget hm).1 (hget hl).1
      (hdiff h0 hm (by omega) (by omega)) (hdiff hm hl (by omega) (by omega))
      (hdiff h0 hl (by omega) (by omega)) hcol

end

/-! ### The steps after the main loop -/

theorem mergeSame_id {sk : List (Subtree ℝ)} : ∀ kept : List (Subtree ℝ),
    ((kept ++ sk).map (·.source)).Nodup → mergeSame kept sk = kept ++ sk := by
  induction sk with
  | nil => intro kept _; simp [mergeSame]
  | cons a sk ih =>
    intro kept h
    unfold mergeSame
    have : kept.findIdx? (fun k => V2.teq k.source a.source) = none := by
      rw [List.findIdx?_eq_none_iff]
      intro k hk
      rw [Bool.eq_false_iff, ne_eq, exactEq_real.teq]
      intro he
      rw [List.map_append, List.nodup_append] at h
      exact h.2.2 _ (List.mem_map.2 ⟨k, hk, rfl⟩) _ (List.mem_map.2 ⟨a, by simp, rfl⟩) he
    rw [this]
    simp only
    rw [ih (kept ++ [a]) (by simpa using h)]
    simp

/-- no ghost: the two connections do not have nearly the same direction, or no node is at their ends -/
def NoGhost (sk : List (Subtree ℝ)) (source : V2 ℝ) (p : V2 ℝ × V2 ℝ) : Prop :=
  cosAt source p.1 p.2 ≤ 99 / 100 ∨ ∀ a ∈ sk, a.source ≠ p.1 ∧ a.source ≠ p.2

theorem ghostPairs_id {i : Nat} {sk : List (Subtree ℝ)} {arc : Subtree ℝ} (hi : sk[i]? = some arc) :
    ∀ ps : List (V2 ℝ × V2 ℝ), (∀ p ∈ ps, NoGhost sk arc.source p) →
    ghostPairs i arc.source sk false ps = .ok (sk, false)
  | [], _ => rfl
  | p :: ps, h => by
    have ih := ghostPairs_id hi ps (fun q hq => h q (by simp [hq]))
    unfold ghostPairs
    by_cases hcase : p.1 = arc.source ∨ p.2 = arc.source ∨ cosAt arc.source p.1 p.2 ≤ 99 / 100
    · rw [(C33_pair i sk false p.1 p.2 arc hi).1 hcase]
      exact ih
    · push Not at hcase
      obtain ⟨c1, c2, c3⟩ := hcase
      rcases h p (by simp) with h1 | h1
      · linarith
      · obtain ⟨far, near, hor, hb, -⟩ := (C33_pair i sk false p.1 p.2 arc hi).2 c1 c2 c3
        rw [hb (fun a ha => by
          rcases hor with ⟨-, rfl, -⟩ | ⟨-, rfl, -⟩
          · exact (h1 a ha).2
          · exact (h1 a ha).1)]
        rfl

theorem ghostArcs_id {sk : List (Subtree ℝ)}
    (h : ∀ a ∈ sk, ∀ p ∈ pairs a.sinks, NoGhost sk a.source p) :
    ∀ is : List Nat, (∀ i ∈ is, i < sk.length) → ghostArcs is sk = .ok sk
  | [], _ => rfl
  | i :: is, hi => by
    have hlt := hi i (by simp)
    unfold ghostArcs ghostWhile getArc
    rw [List.getElem?_eq_getElem hlt]
    simp only [ok_bind]
    rw [ghostPairs_id (List.getElem?_eq_getElem hlt) _ (h _ (List.getElem_mem hlt))]
    simp only [ok_bind, Bool.false_eq_true, if_false, pure_ok]
    exact ghostArcs_id h is (fun j hj => hi j (by simp [hj]))

/-- the node without its connection to itself -/
noncomputable def noLoop (a : Subtree ℝ) : Subtree ℝ := { a with sinks := a.sinks.erase a.source }

/-- Only the nodes at the same place are merged, and no ghost is removed: the others are a tenth apart,
and the arcs of no node have nearly the same direction. -/
theorem finish_same {c : List (Edge2 ℝ)} {sk : List (Subtree ℝ)} (hap : ∃ ap, detectApses c = .ok ap)
    (h1 : (mergeSame [] sk).Pairwise
      (fun a b => 1 / 10 ≤ |a.source.x - b.source.x| + |a.source.y - b.source.y|))
    (h3 : ∀ a ∈ (mergeSame [] sk).map noLoop, ∀ p ∈ pairs a.sinks,
      NoGhost ((mergeSame [] sk).map noLoop) a.source p) :
    finish [c] sk = .ok ((mergeSame [] sk).map noLoop) := by
  obtain ⟨ap, hap⟩ := hap
  have hm : mergeNodeClusters sk [c] = .ok (mergeSame [] sk) := by
    unfold mergeNodeClusters
    simp only
    generalize mergeSame [] sk = sk at h1
    unfold mergeLoop
    rcases C32_groups sk ([c].flatMap fun c => c.map (·.p1)) c (lit 1 10 : ℝ) with ⟨e, he, -⟩ |
      ⟨ap', groups, hap', hg, hf⟩
    · rw [hap] at he; cases he
    · rw [hf]
      have : groups.filter (fun g => decide (1 < g.length) &&
          acceptCluster sk ap' ([c].flatMap fun c => c.map (·.p1)) (lit 1 10 : ℝ) g) = [] := by
        rw [List.filter_eq_nil_iff]
        intro g hgm
        obtain ⟨c0, l, rfl, hlt, hnear⟩ := hg.shape g hgm
        cases l with
        | nil => simp
        | cons b l =>
          exfalso
          obtain ⟨x, y, hx, hy, hxy⟩ := hnear b (by simp)
          have hb := (List.pairwise_cons.1 hlt).1 b (by simp)
          obtain ⟨lx, ex⟩ := List.getElem?_eq_some_iff.1 hx
          obtain ⟨ly, ey⟩ := List.getElem?_eq_some_iff.1 hy
          have := List.pairwise_iff_getElem.1 h1 c0 b lx ly hb
          rw [ex, ey] at this
          simp only [ex_lt, ex_add, ex_abs, ex_sub, ex_lit] at hxy
          norm_num at hxy
          linarith
      rw [this]
      rfl
  unfold finish
  rw [hm, ok_bind]
  unfold removeGhosts
  rw [C33_loops, ok_bind]
  exact ghostArcs_id h3 _ (fun i hi => List.mem_range.1 hi)

end Polyskel
