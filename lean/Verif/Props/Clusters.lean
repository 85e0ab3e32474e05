import Mathlib.Tactic.Linarith
import Verif.Props.Poly
import Verif.Proofs.ListIdx
import Verif.Spec.Geometry
/-
C32: which groups of nodes `findClusters` returns.
-/
namespace Polyskel
open Scalar

section lawless
variable {S : Type} [Scalar S]

/-- the sources of nodes `a` and `b` have a Manhattan distance below `t` -/
def NearIn (sk : List (Subtree S)) (t : S) (a b : Nat) : Prop :=
  ∃ x y, sk[a]? = some x ∧ sk[b]? = some y ∧
    (abs (x.source.x -. y.source.x) +. abs (x.source.y -. y.source.y)) <. t

/-- `groups` is the greedy partition of the candidates: every group consists of its first node and
later nodes near it; the first node of a group is smaller than all nodes of later groups and near
none of them -/
structure GreedyGroups (sk : List (Subtree S)) (t : S) (cands : List Nat)
    (groups : List (List Nat)) : Prop where
  perm : groups.flatten.Perm cands
  shape : ∀ g ∈ groups, ∃ c0 l, g = c0 :: l ∧ g.Pairwise (· < ·) ∧ ∀ c ∈ l, NearIn sk t c0 c
  later : groups.Pairwise (fun g g' => ∀ c0, g.head? = some c0 → ∀ c ∈ g', c0 < c ∧ ¬ NearIn sk t c0 c)

theorem filterE_ok {α : Type} {p : α → Except PyErr Bool} {q : α → Bool} {l : List α}
    (h : ∀ a ∈ l, p a = .ok (q a)) : filterE p l = .ok (l.filter q) := by
  induction l with
  | nil => rfl
  | cons a l ih =>
    unfold filterE
    rw [h a (by simp), ih (fun a ha => h a (by simp [ha])), List.filter_cons]
    simp only [ok_bind, pure_ok]

theorem clusterLoop_ok (sk : List (Subtree S)) (apses : Option (List (V2 S))) (cv : List (V2 S))
    (t : S) (k : Nat) (cands : List Nat) (hk : cands.length ≤ k) (hlt : ∀ c ∈ cands, c < sk.length)
    (hs : cands.Pairwise (· < ·)) :
    ∃ groups, GreedyGroups sk t cands groups ∧
      clusterLoop sk apses cv t k cands = .ok (groups.filter (fun g =>
        decide (g.length > 1) && acceptCluster sk apses cv t g)) := by
  induction k generalizing cands with
  | zero =>
    have : cands = [] := List.length_eq_zero_iff.1 (by omega)
    subst this
    exact ⟨[], ⟨by simp, by simp, by simp⟩, rfl⟩
  | succ k ih =>
    cases cands with
    | nil => exact ⟨[], ⟨by simp, by simp, by simp⟩, rfl⟩
    | cons c0 cands =>
      rw [List.pairwise_cons] at hs
      have hc0 : c0 < sk.length := hlt c0 (by simp)
      let q : Nat → Bool := fun c => match sk[c]? with
        | some s => manhattan (sk[c0]).source s.source <. t
        | none => false
      have hq : ∀ c < sk.length, (q c = true ↔ NearIn sk t c0 c) := by
        intro c hc
        simp only [q, NearIn, manhattan, List.getElem?_eq_getElem hc, List.getElem?_eq_getElem hc0]
        constructor
        · intro h; exact ⟨_, _, rfl, rfl, h⟩
        · rintro ⟨x, y, hx, hy, h⟩; cases hx; cases hy; exact h
      have hf : filterE (fun c => do
          let s ← srcOf sk c
          return (manhattan (sk[c0]).source s <. t)) cands = .ok (cands.filter q) := by
        apply filterE_ok
        intro c hc
        have := hlt c (by simp [hc])
        simp only [srcOf, getArc, q, List.getElem?_eq_getElem this, ok_bind, pure_ok]
      have hrest : cands.filter (fun c => !(c0 :: cands.filter q).contains c) =
          cands.filter (fun c => !q c) := by
        apply List.filter_congr
        intro c hc
        have hne : c ≠ c0 := by have := hs.1 c hc; omega
        by_cases h : q c = true
        · simp [h, hc]
        · simp [h, hne]
      obtain ⟨groups, hg, hcl⟩ := ih (cands.filter (fun c => !q c))
        (by have := List.length_filter_le (fun c => !q c) cands; simp at hk; omega)
        (fun c hc => hlt c (by simp [(List.mem_filter.1 hc).1])) (hs.2.filter _)
      refine ⟨(c0 :: cands.filter q) :: groups, ⟨?_, ?_, ?_⟩, ?_⟩
      · rw [List.flatten_cons, List.cons_append]
        refine List.Perm.cons _ ?_
        refine (List.Perm.append_left _ hg.perm).trans ?_
        exact List.filter_append_perm q cands
      · intro g hg'
        rcases List.mem_cons.1 hg' with rfl | hg'
        · refine ⟨c0, _, rfl, ?_, ?_⟩
          · rw [List.pairwise_cons]
            exact ⟨fun c hc => hs.1 c (List.mem_filter.1 hc).1, hs.2.filter _⟩
          · intro c hc
            obtain ⟨h1, h2⟩ := List.mem_filter.1 hc
            exact (hq c (hlt c (by simp [h1]))).1 h2
        · exact hg.shape g hg'
      · rw [List.pairwise_cons]
        refine ⟨?_, hg.later⟩
        intro g' hg' c hc x hx
        simp at hc; subst hc
        have hm : x ∈ groups.flatten := List.mem_flatten.2 ⟨g', hg', hx⟩
        rw [hg.perm.mem_iff] at hm
        obtain ⟨h1, h2⟩ := List.mem_filter.1 hm
        refine ⟨hs.1 x h1, fun hn => ?_⟩
        have := (hq x (hlt x (by simp [h1]))).2 hn
        rw [this] at h2; simp at h2
      · have h0 : srcOf sk c0 = .ok (sk[c0]).source := by
          simp [srcOf, getArc, List.getElem?_eq_getElem hc0]
        unfold clusterLoop
        rw [h0]
        simp only [ok_bind]
        rw [hf]
        simp only [ok_bind]
        rw [hrest, hcl, List.filter_cons]
        simp only [ok_bind, pure_ok]
        split <;> rfl

/-- C32: `findClusters` raises exactly when `detectApses` does; otherwise it divides all nodes
greedily into groups of near nodes and returns those with at least two nodes that are accepted. -/
theorem C32_groups (sk : List (Subtree S)) (cv : List (V2 S)) (outer : List (Edge2 S)) (t : S) :
    (∃ e, detectApses outer = .error e ∧ findClusters sk cv outer t = .error e) ∨
    ∃ apses groups, detectApses outer = .ok apses ∧
      GreedyGroups sk t (List.range sk.length) groups ∧
      findClusters sk cv outer t = .ok (groups.filter (fun g =>
        decide (1 < g.length) && acceptCluster sk apses cv t g)) := by
  unfold findClusters
  cases h : detectApses outer with
  | error e => exact .inl ⟨e, rfl, rfl⟩
  | ok apses =>
    obtain ⟨groups, h1, h2⟩ := clusterLoop_ok sk apses cv t sk.length (List.range sk.length)
      (by simp) (by simp) List.pairwise_lt_range
    exact .inr ⟨apses, groups, rfl, h1, by simpa using h2⟩

/-- C32: the groups returned are disjoint, have at least two nodes, in increasing order and in
range; all nodes are near the first one; none is within 3 of an apse centre. -/
theorem C32_findClusters (sk : List (Subtree S)) (cv : List (V2 S)) (outer : List (Edge2 S)) (t : S)
    (cls : List (List Nat)) (h : findClusters sk cv outer t = .ok cls) :
    cls.Pairwise List.Disjoint ∧
    (∀ g ∈ cls, 2 ≤ g.length ∧ g.Pairwise (· < ·) ∧ (∀ c ∈ g, c < sk.length) ∧
      ∃ c0 l, g = c0 :: l ∧ ∀ c ∈ l, NearIn sk t c0 c) ∧
    ∃ apses, detectApses outer = .ok apses ∧
      ∀ g ∈ cls, ∀ c ∈ g, ∀ a, sk[c]? = some a → ∀ p ∈ apses.getD [],
        ((abs (p.x -. a.source.x) +. abs (p.y -. a.source.y)) <. lit 3 1) = false := by
  rcases C32_groups sk cv outer t with ⟨e, _, he⟩ | ⟨apses, groups, hap, hg, hr⟩
  · rw [h] at he; cases he
  rw [h] at hr; cases hr
  have hnd : groups.flatten.Nodup := hg.perm.nodup_iff.2 List.nodup_range
  refine ⟨?_, ?_, apses, hap, ?_⟩
  · exact (List.nodup_flatten.1 hnd).2.filter _
  · intro g hgm
    obtain ⟨h1, h2⟩ := List.mem_filter.1 hgm
    obtain ⟨c0, l, rfl, h3, h4⟩ := hg.shape g h1
    simp only [Bool.and_eq_true, decide_eq_true_eq] at h2
    refine ⟨h2.1, h3, ?_, c0, l, rfl, h4⟩
    intro c hc
    have : c ∈ groups.flatten := List.mem_flatten.2 ⟨_, h1, hc⟩
    rw [hg.perm.mem_iff] at this
    simpa using this
  · intro g hgm c hc a ha p hp
    obtain ⟨_, h2⟩ := List.mem_filter.1 hgm
    simp only [Bool.and_eq_true, decide_eq_true_eq] at h2
    have h2 := h2.2
    unfold acceptCluster at h2
    split at h2
    · cases h2
    · rename_i hn
      rw [Bool.not_eq_true] at hn
      unfold nearApse at hn
      rw [List.any_eq_false] at hn
      have := hn p hp
      rw [Bool.not_eq_true, List.any_eq_false] at this
      have := this c hc
      rw [ha] at this
      simpa [manhattan] using this

end lawless

/-! ### exact arithmetic -/

theorem foldl_pymin {l : List (V2 ℝ × V2 ℝ)} {f : V2 ℝ × V2 ℝ → ℝ} {m b : ℝ} :
    b < l.foldl (fun m p => pymin (f p) m) m ↔ b < m ∧ ∀ p ∈ l, b < f p := by
  induction l generalizing m with
  | nil => simp
  | cons p l ih =>
    rw [List.foldl_cons, ih, ex_pymin, lt_min_iff]
    simp only [List.mem_cons, forall_eq_or_imp]
    tauto

/-- C32, exact arithmetic: a group of nodes is accepted exactly when all its nodes are at least 3
away from every apse centre, and either fewer than two contour vertices occur as sinks of its nodes
(counted once per node), or any two of the sinks that are contour vertices are more than `2 t`
apart. -/
theorem C32_accept (sk : List (Subtree ℝ)) (apses : Option (List (V2 ℝ))) (cv : List (V2 ℝ)) (t : ℝ)
    (ht : 0 < t) (g : List Nat) (hg : ∀ c ∈ g, c < sk.length) :
    acceptCluster sk apses cv t g = true ↔
      (∀ p ∈ apses.getD [], ∀ c ∈ g, ∀ a, sk[c]? = some a →
        3 ≤ |p.x - a.source.x| + |p.y - a.source.y|) ∧
      (((g.filterMap (fun c => sk[c]?)).flatMap (fun a => cv.filter (fun v => v ∈ a.sinks))).length < 2 ∨
      ∀ q ∈ pairs ((g.filterMap (fun c => sk[c]?)).flatMap (fun a => a.sinks.filter (fun s => s ∈ cv))),
        2 * t < Geo.eucl q.1 q.2) := by
  classical
  have h1 : nearApse sk (apses.getD []) g = false ↔ ∀ p ∈ apses.getD [], ∀ c ∈ g, ∀ a,
      sk[c]? = some a → 3 ≤ |p.x - a.source.x| + |p.y - a.source.y| := by
    unfold nearApse
    simp only [List.any_eq_false, Bool.not_eq_true]
    refine forall₂_congr fun p _ => forall₂_congr fun c hc => ?_
    have hc := hg c hc
    rw [List.getElem?_eq_getElem hc]
    simp [manhattan]
  have h2 : nrContourSinks sk cv g = ((g.filterMap (fun c => sk[c]?)).flatMap
      (fun a => cv.filter (fun v => v ∈ a.sinks))).length := by
    unfold nrContourSinks
    clear h1
    induction g with
    | nil => rfl
    | cons c g ih =>
      have hc := hg c (by simp)
      rw [List.map_cons, List.sum_cons, ih (fun c h => hg c (by simp [h])), List.filterMap_cons]
      simp only [List.getElem?_eq_getElem hc, List.flatMap_cons, List.length_append]
      congr 2
      apply List.filter_congr
      intro x _
      rw [Bool.eq_iff_iff]
      simp
  have h3 : contourSinks sk cv g = (g.filterMap (fun c => sk[c]?)).flatMap
      (fun a => a.sinks.filter (fun s => s ∈ cv)) := by
    unfold contourSinks
    clear h1 h2
    induction g with
    | nil => rfl
    | cons c g ih =>
      have hc := hg c (by simp)
      rw [List.flatMap_cons, ih (fun c h => hg c (by simp [h])), List.filterMap_cons]
      simp only [List.getElem?_eq_getElem hc, List.flatMap_cons]
      congr 1
      apply List.filter_congr
      intro x _
      rw [Bool.eq_iff_iff]
      simp
  unfold acceptCluster
  rw [h2, h3]
  rw [← h1]
  cases hb : nearApse sk (apses.getD []) g with
  | true => simp
  | false =>
    simp only [Bool.false_eq_true, if_false, true_and]
    split
    · rename_i hlt; exact ⟨fun _ => .inl hlt, fun _ => rfl⟩
    · rename_i hge
      simp only [hge, false_or]
      rw [ex_lt, foldl_pymin (f := fun p => V2.length (V2.sub p.1 p.2))]
      simp only [ex_lit, ex_mul]
      have he : ∀ p : V2 ℝ × V2 ℝ, V2.length (V2.sub p.1 p.2) = Geo.eucl p.1 p.2 := by
        intro p
        simp [V2.length, V2.sub, V2.dot, Geo.eucl, pow_two]
      simp only [he]
      constructor
      · rintro ⟨_, h⟩ q hq; have := h q hq; norm_num at this; linarith
      · intro h; refine ⟨by norm_num; linarith, fun q hq => ?_⟩
        have := h q hq; norm_num; linarith

/-- case for C32: three nodes near each other and one far away, on a triangular contour -/
example : findClusters [⟨mkV2 (sq 0) (sq 0), sq 1, []⟩, ⟨sp2 3 3, sq 1, []⟩,
      ⟨mkV2 (sq 1 50) (sq 0), sq 1, []⟩, ⟨mkV2 (sq 0) (sq 1 50), sq 1, []⟩] []
      (ringEdges [(-9, -9), (9, -9), (0, 9)]) (sq 1 10) = .ok [[0, 2, 3]] := by
  decide +kernel

end Polyskel
