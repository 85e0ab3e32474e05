import Verif.Props.Skeleton
import Verif.Props.Equidistant
import Verif.Proofs.Events
/-
C24: no node lies below the eaves.
-/
namespace Polyskel
open Scalar

theorem distance_nonneg (l : Lin ℝ) (p : V2 ℝ) : 0 ≤ l.distance p := by
  unfold Lin.distance
  simp only [V2.length, ex_sqrt]
  exact Real.sqrt_nonneg _

/-- the distance of the event is not negative -/
def DistNonneg : Event ℝ → Prop
  | .edge e => 0 ≤ e.dist
  | .split e => 0 ≤ e.dist
  | .dormer _ _ e0 e1 e2 => 0 ≤ e0.dist ∧ 0 ≤ e1.dist ∧ 0 ≤ e2.dist

theorem nextEvent_dist {st : St ℝ} {id : Nat} {e : Event ℝ} (h : nextEvent st id = .ok (some e)) :
    DistNonneg e := by
  obtain ⟨v, p, n, -, -, -, h | ⟨e', rfl, -, -, oe, -, h⟩⟩ := nextEvent_mem h
  · rcases mem_edgesOf h with ⟨i, -, rfl⟩ | ⟨i, -, rfl⟩ <;> exact distance_nonneg _ _
  · show 0 ≤ e'.dist
    rw [(splitCandidate_some h).2.2.1]
    exact distance_nonneg _ _

theorem pending_dist {st : St ℝ} {e : Event ℝ} (h : Pending st e) : DistNonneg e := by
  cases e with
  | edge e => obtain ⟨_, _, h, -⟩ := h; exact nextEvent_dist h
  | split e => obtain ⟨_, _, h, -⟩ := h; exact nextEvent_dist h
  | dormer d p e0 e1 e2 =>
    obtain ⟨⟨_, _, h0, -⟩, ⟨_, _, h1, -⟩, ⟨_, _, h2, -⟩⟩ := h
    exact ⟨nextEvent_dist h0, nextEvent_dist h1, nextEvent_dist h2⟩

theorem handleEvent_heights {st st' : St ℝ} {ev : Event ℝ} {arcs : List (Subtree ℝ)}
    {es : List (Event ℝ)} (hr : handleEvent st ev = .ok (some (st', arcs, es)))
    (h : DistNonneg ev) : ∀ a ∈ arcs, 0 ≤ a.height := by
  rcases handleEvent_cases hr with ⟨ev, va, vb, rfl, -, -, -, -, h'⟩ | ⟨ev, v, rfl, -, -, h'⟩ |
    ⟨d, p, e0, e1, e2, v0, v1, rfl, -, -, -, -, h'⟩
  · obtain ⟨_, _, _, _, _, rfl, -⟩ := C47_edge h'
    intro a ha; simp at ha; subst ha; exact h
  · rcases C47_split h' with ⟨-, rfl, -⟩ | ⟨_, _, _, rfl, -⟩
    · simp
    · intro a ha; simp at ha; subst ha; exact h
  · obtain ⟨-, ⟨-, rfl, -⟩ | ⟨_, _, _, _, _, -, -, -, -, -, rfl, -⟩⟩ := C47_dormer h'
    · simp
    · obtain ⟨h0, h1, h2⟩ := h
      intro a ha
      simp only [List.mem_cons, List.not_mem_nil, or_false] at ha
      rcases ha with rfl | rfl
      · exact h2
      · show 0 ≤ Scalar.div (Scalar.add e0.dist e1.dist) (lit 2 1)
        simp only [ex_add, ex_div, ex_lit]
        positivity

theorem heights_runInv : RunInv (fun (st : St ℝ) out evs =>
    (∀ e ∈ evs, Pending st e) ∧ ∀ a ∈ out, 0 ≤ a.height) where
  mono st out evs evs' hsub h := ⟨fun e he => h.1 e (hsub e he), h.2⟩
  step st out evs ev st' arcs es h hev hr := by
    refine ⟨pending_runInv.step st out evs ev st' arcs es h.1 hev hr, ?_⟩
    intro a ha
    rcases List.mem_append.1 ha with ha | ha
    · exact h.2 a ha
    · exact handleEvent_heights hr (pending_dist (h.1 ev hev)) a ha

theorem mergeCluster_heights {sk out : List (Subtree ℝ)} {cluster : List Nat}
    (ho : mergeCluster sk cluster = .ok out) (h : ∀ a ∈ sk, 0 ≤ a.height) :
    ∀ a ∈ out, 0 ≤ a.height := by
  obtain ⟨nodes, kept, new, hn, rfl, -, hh, -, -, -, hk⟩ := mergeCluster_ok exactEq_real ho
  intro a ha
  rcases List.mem_append.1 ha with ha | ha
  · obtain ⟨a0, ha0, hr⟩ := forall₂_mem_right hk ha
    obtain ⟨i, hi, -⟩ := mem_outside.1 ha0
    rw [hr.2.1]; exact h a0 (List.mem_of_getElem? hi)
  · simp only [List.mem_singleton] at ha; subst ha
    rw [hh, foldl_add_sum]
    simp only [ex_zero, zero_add, ex_div, ex_lit]
    apply div_nonneg
    · apply List.sum_nonneg
      intro x hx
      obtain ⟨y, hy, rfl⟩ := List.mem_map.1 hx
      obtain ⟨c, -, hc⟩ := forall₂_mem_right hn hy
      exact h y (List.mem_of_getElem? hc)
    · positivity

/-- C24: in exact arithmetic every node returned by `skeletonize` has a height ≥ 0. -/
theorem C24_heights (fuel : Nat) (cs : List (List (Edge2 ℝ))) (sk : List (Subtree ℝ))
    (hr : skeletonize fuel cs = some (.ok sk)) : ∀ a ∈ sk, 0 ≤ a.height := by
  obtain ⟨lp, lp', hlp, hml, hfin⟩ := skeletonize_ok hr
  have h0 : ∀ a ∈ lp'.out, 0 ≤ a.height :=
    (heights_runInv.mainLoop hml ⟨startLoop_pending hlp, by rw [(startLoop_ok hlp).2.1]; simp⟩).2
  unfold finish at hfin
  obtain ⟨sk1, hm, hg⟩ := bind_ok.1 hfin
  have h1 : ∀ a ∈ sk1, 0 ≤ a.height := by
    rcases C30_mergeNodeClusters lp'.out cs with
      ⟨outer, rest, m, out, -, h', hms, -⟩ | ⟨-, h'⟩ | ⟨_, _, _, -, h', -⟩
    all_goals rw [hm] at h'; cases h'
    have hsame : ∀ a ∈ mergeSame [] lp'.out, 0 ≤ a.height := by
      intro a ha
      obtain ⟨⟨A, s, B, e, -, -, hh, -⟩, -⟩ := (C30_mergeSame exactEq_real lp'.out).2.2 a ha
      rw [hh]; exact h0 s (by rw [e]; simp)
    clear hm hg h0
    revert hsame
    generalize mergeSame [] lp'.out = x at hms
    induction hms with
    | done => exact fun h => h
    | step _ _ _ ho _ ih => exact fun h => ih (mergeCluster_heights ho h)
  rcases C33_removeGhosts sk1 with ⟨e, he, _⟩ | ⟨out, ho, hn, -, -⟩
  · rw [hg] at he; cases he
  · rw [hg] at ho; cases ho
    intro a ha
    have : (a.source, a.height) ∈ sk1.map (fun a => (a.source, a.height)) := by
      rw [← hn]; exact List.mem_map.2 ⟨a, ha, rfl⟩
    obtain ⟨b, hb, he⟩ := List.mem_map.1 this
    have := congrArg Prod.snd he
    simp only at this
    rw [← this]; exact h1 b hb

/-- C24: with a pitch ≥ 0 or a height > 0, every vertex added by `polygonize` lies at or above the
base; with a height it lies at or below the height, and one vertex lies there. -/
theorem C24_above_base (rt : Rt) (fuel : Nat) (a : PolyArgs ℝ) (out : PolyOut ℝ) (r : List (List Int))
    (h : polygonize rt fuel a = some out) (hr : out.result = .ok r)
    (hh : 0 < a.height ∨ (a.height = 0 ∧ 0 ≤ a.tan)) :
    ∃ base new, a.verts[a.first]? = some base ∧ out.verts = a.verts ++ new ∧
      (∀ v ∈ new, base.z ≤ v.z) ∧
      (0 < a.height → (∀ v ∈ new, v.z ≤ base.z + a.height) ∧ ∃ v ∈ new, v.z = base.z + a.height) := by
  have hsk : ∀ sk, out.debug = some sk → ∀ s ∈ sk, 0 ≤ s.height := by
    intro sk hd
    cases polygonize_ends h with
    | early e => cases hr
    | noTan => cases hr
    | late => cases hr
    | done z c cs sk' ta fs hb hs ht hf => cases hd; exact C24_heights fuel cs sk hs
  rcases hh with hpos | ⟨h0, ht⟩
  · obtain ⟨base, new, h1, h2, h3, h4⟩ := C21_height rt fuel a out r h hr (ne_of_gt hpos)
    have := h4 hsk hpos
    exact ⟨base, new, h1, h2, fun v hv => (this v hv).1, fun _ => ⟨fun v hv => (this v hv).2, h3⟩⟩
  · obtain ⟨base, new, sk, h1, h2, h3, h4, -⟩ := C21_tan rt fuel a out r h hr h0
    refine ⟨base, new, h1, h2, ?_, fun hpos => absurd h0 (ne_of_gt hpos)⟩
    intro v hv
    obtain ⟨s, hs, hz⟩ := forall₂_mem_right h4 hv
    rw [hz]
    have := mul_nonneg ht (hsk sk h3 s hs)
    linarith

end Polyskel
