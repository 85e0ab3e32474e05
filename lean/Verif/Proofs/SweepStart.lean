import Verif.Proofs.SweepRun
import Verif.Proofs.ConvexPolygon
/-
A strictly convex polygon as the first state of the process of `Verif/Proofs/SweepRun.lean`, and the
induction over the main loop.  Used for C60.
-/
namespace Polyskel
open Scalar Real Geo
set_option linter.unusedSectionVars false

theorem nextIdx_lt {n k : Nat} (hk : k < n) : nextIdx n k < n := by
  unfold nextIdx; split <;> omega
theorem prevIdx_lt {n k : Nat} (hk : k < n) : prevIdx n k < n := by
  unfold prevIdx; split <;> omega
theorem next_prev {n k : Nat} (hk : k < n) : nextIdx n (prevIdx n k) = k := by
  unfold nextIdx prevIdx; split <;> split <;> omega

section
variable {c : List (Edge2 ℝ)}

theorem ConvexPolygon.proper (h : ConvexPolygon c) : ∀ e ∈ c, Proper e := by
  intro e he
  obtain ⟨r, hr, h1, h2⟩ := h.along e he
  refine ⟨h.unit e he, r, hr, ?_⟩
  have e1 : e.p2.x = e.p1.x + r * e.norm.x := by linarith
  have e2 : e.p2.y = e.p1.y + r * e.norm.y := by linarith
  cases hp : e.p2 with
  | mk x y =>
    rw [hp] at e1 e2
    simp only at e1 e2
    simp [Geo.along, e1, e2]

theorem ConvexPolygon.p2 (h : ConvexPolygon c) {k : Nat} (hk : k < c.length) :
    c[k].p2 = (c[nextIdx c.length k]'(nextIdx_lt hk)).p1 := by
  by_cases hl : k + 1 = c.length
  · have : k = c.length - 1 := by omega
    subst this
    have := h.last (by omega)
    simp only [nextIdx, if_pos hl]
    exact this
  · simp only [nextIdx, if_neg hl]
    exact h.ring k (by omega)

theorem ConvexPolygon.prev_p2 (h : ConvexPolygon c) {k : Nat} (hk : k < c.length) :
    (c[prevIdx c.length k]'(prevIdx_lt hk)).p2 = c[k].p1 := by
  rw [h.p2 (prevIdx_lt hk)]
  simp only [next_prev hk]

theorem ConvexPolygon.ne (h : ConvexPolygon c) {i j : Nat} (hi : i < c.length) (hj : j < c.length)
    (hij : i ≠ j) : c[i].p1 ≠ c[j].p1 := by
  intro he
  have := (List.nodup_iff_injective_getElem.1 h.distinct)
    (a₁ := ⟨i, by simpa using hi⟩) (a₂ := ⟨j, by simpa using hj⟩) (by simpa using he)
  simp only [Fin.mk.injEq] at this
  exact hij this

theorem ConvexPolygon.hgt_p1 (h : ConvexPolygon c) {e f : Edge2 ℝ} (he : e ∈ c) (hf : f ∈ c) :
    0 ≤ hgt e f.p1 := by
  by_cases h1 : f.p1 = e.p1
  · rw [h1]; simp [hgt, height]
  · by_cases h2 : f.p1 = e.p2
    · obtain ⟨-, r, -, h3⟩ := h.proper e he
      rw [h2, h3]
      simp only [hgt, height, Geo.along]
      nlinarith
    · exact (h.left e he f hf h1 h2).le

theorem hgt_p1_self (e : Edge2 ℝ) : hgt e e.p1 = 0 := by simp [hgt, height]

theorem hgt_p2_self {e : Edge2 ℝ} (h : Proper e) : hgt e e.p2 = 0 := by
  obtain ⟨-, r, -, h3⟩ := h
  rw [h3]
  simp only [hgt, height, Geo.along]
  ring

/-- the corners of the polygon -/
noncomputable def cornerQ (c : List (Edge2 ℝ)) (h3 : 3 ≤ c.length) (k : Nat) : Core ℝ :=
  if hk : k < c.length then cornerCore (c[prevIdx c.length k]'(prevIdx_lt hk), c[k])
  else cornerCore (c[0], c[0])

noncomputable def firstLen (c : List (Edge2 ℝ)) (k : Nat) : ℝ :=
  if hk : k < c.length then eucl c[k].p1 c[k].p2 else 0

noncomputable def firstAt (c : List (Edge2 ℝ)) (h3 : 3 ≤ c.length) (k : Nat) : V2 ℝ :=
  (cornerQ c h3 k).point

theorem Proper.eucl {e : Edge2 ℝ} (h : Proper e) : e.p2 = Geo.along e.p1 e.norm (eucl e.p1 e.p2) := by
  obtain ⟨h1, r, hr, h3⟩ := h
  have : Geo.eucl e.p1 e.p2 = r := by
    rw [h3]
    simp only [Geo.eucl, Geo.along]
    rw [show (e.p1.x - (e.p1.x + r * e.norm.x)) ^ 2 + (e.p1.y - (e.p1.y + r * e.norm.y)) ^ 2 = r ^ 2 by
      linear_combination r ^ 2 * h1]
    exact sqrt_sq hr.le
  rw [this]
  exact h3

theorem start_front (h : ConvexPolygon c) (h3 : 3 ≤ c.length) :
    ∃ th : Nat → ℝ, Front c (nextIdx c.length) (cornerQ c h3) th (firstAt c h3) (firstLen c) 0 0
      (List.range' 1 (c.length - 1)) := by
  obtain ⟨th, hsum, hturn⟩ := (convexContour_of_polygon h3 h).corner h3
  have hq : ∀ k (hk : k < c.length), cornerQ c h3 k =
      cornerCore (c[prevIdx c.length k]'(prevIdx_lt hk), c[k]) := fun k hk => dif_pos hk
  have hturn' : ∀ k < c.length, TurnsBy (cornerQ c h3 k) (th k) := by
    intro k hk
    rw [hq k hk]
    exact hturn k hk _ (cornerPairs_getElem hk)
  have hnext : ∀ k (hk : k < c.length), (cornerQ c h3 k).edgeNext = c[k] := by
    intro k hk; rw [hq k hk]; rfl
  have hprev : ∀ k (hk : k < c.length), (cornerQ c h3 k).edgePrev =
      c[prevIdx c.length k]'(prevIdx_lt hk) := by
    intro k hk; rw [hq k hk]; rfl
  have hpt : ∀ k (hk : k < c.length), (cornerQ c h3 k).point = c[k].p1 := by
    intro k hk; rw [hq k hk]; rfl
  have hpos : ∀ k < c.length, 0 < th k := by
    intro k hk
    have ht := hturn' k hk
    refine lt_of_le_of_ne ht.nonneg ?_
    intro h0
    obtain ⟨p, hp1, hp2⟩ := ht.dir
    rw [← h0, add_zero, ← hp1, hnext k hk, hprev k hk] at hp2
    have hl := h.left _ (List.getElem_mem (prevIdx_lt hk)) _ (List.getElem_mem (nextIdx_lt hk)) ?_ ?_
    · rw [← h.p2 hk, ← hp2] at hl
      have e1 := hgt_p2_self (h.proper c[k] (List.getElem_mem hk))
      have e2 := hgt_p2_self (h.proper _ (List.getElem_mem (prevIdx_lt hk)))
      rw [h.prev_p2 hk] at e2
      simp only [hgt, height, ← hp2] at e1 e2
      linarith
    · exact h.ne _ _ (by unfold nextIdx prevIdx; split <;> split <;> omega)
    · rw [h.prev_p2 hk]
      exact h.ne _ _ (by unfold nextIdx; split <;> omega)
  have hL : 0 :: List.range' 1 (c.length - 1) = List.range' 0 c.length := by
    rw [show c.length = c.length - 1 + 1 by omega, List.range'_succ]
    simp
  have hmem : ∀ k ∈ 0 :: List.range' 1 (c.length - 1), k < c.length := by
    intro k hk
    rw [hL, List.mem_range'_1] at hk
    omega
  refine ⟨th, ⟨?_, ?_, ?_, by rw [hL]; exact hsum, ?_, le_rfl, by simp; omega⟩⟩
  · intro k hk
    have hk := hmem k hk
    have h1 : hgt (cornerQ c h3 k).edgePrev (cornerQ c h3 k).point = 0 := by
      rw [hprev k hk, hpt k hk, ← h.prev_p2 hk]
      exact hgt_p2_self (h.proper _ (List.getElem_mem _))
    have h2 : hgt (cornerQ c h3 k).edgeNext (cornerQ c h3 k).point = 0 := by
      rw [hnext k hk, hpt k hk]
      exact hgt_p1_self _
    have h4 : ∀ e ∈ c, 0 ≤ hgt e (cornerQ c h3 k).point := by
      intro e he
      rw [hpt k hk]
      exact h.hgt_p1 he (List.getElem_mem _)
    refine ⟨hturn' k hk, hpos k hk, ?_, ?_, ?_, ⟨0, le_rfl, ?_⟩, h1, h2, ⟨0, h1, h2, h4⟩, h4⟩
    · rw [hq k hk]; rfl
    · rw [hprev k hk]; exact List.getElem_mem _
    · rw [hnext k hk]; exact List.getElem_mem _
    · simp [firstAt, Geo.along]
  · have hstep : ∀ k < c.length, FStep (nextIdx c.length) (cornerQ c h3) th (firstAt c h3)
        (firstLen c) k (nextIdx c.length k) := by
      intro k hk
      have hk' := nextIdx_lt hk
      have hpn : prevIdx c.length (nextIdx c.length k) = k := by
        unfold prevIdx nextIdx; split <;> split <;> omega
      have he : (cornerQ c h3 k).edgeNext = (cornerQ c h3 (nextIdx c.length k)).edgePrev := by
        rw [hnext k hk, hprev _ hk']
        simp only [hpn]
      refine ⟨rfl, he, ?_, ?_⟩
      · show (cornerQ c h3 (nextIdx c.length k)).point =
          Geo.along (cornerQ c h3 k).point (cornerQ c h3 k).edgeNext.norm (firstLen c k)
        rw [hpt _ hk', hpt k hk, hnext k hk, ← h.p2 hk, firstLen, dif_pos hk]
        exact (h.proper _ (List.getElem_mem _)).eucl
      · obtain ⟨p, hp1, hp2⟩ := (hturn' _ hk').dir
        exact ⟨p, (congrArg Edge2.norm he).trans hp1, hp2⟩
    rw [hL]
    have hch : ∀ m s, s + m = c.length → 0 < m →
        (List.range' s m ++ [0]).IsChain (FStep (nextIdx c.length) (cornerQ c h3) th (firstAt c h3)
          (firstLen c)) := by
      intro m
      induction m with
      | zero => intro s _ h0; omega
      | succ m ih =>
        intro s hs _
        rw [List.range'_succ]
        have := hstep s (by omega)
        cases m with
        | zero =>
          rw [show nextIdx c.length s = 0 by unfold nextIdx; rw [if_pos (by omega)]] at this
          simpa using this
        | succ m =>
          rw [show nextIdx c.length s = s + 1 by unfold nextIdx; rw [if_neg (by omega)]] at this
          have hi := ih (s + 1) (by omega) (by omega)
          rw [List.range'_succ] at hi ⊢
          simp only [List.cons_append, List.isChain_cons_cons] at hi ⊢
          exact ⟨this, hi⟩
    exact hch _ 0 (by omega) (by omega)
  · intro k hk
    have hk := hmem k hk
    rw [firstLen, dif_pos hk]
    exact sqrt_nonneg _
  · intro _ P u _ hP e he
    obtain ⟨i, hi, rfl⟩ := List.getElem_of_mem he
    have := hP i (by rw [hL, List.mem_range'_1]; omega)
    rwa [hnext i hi] at this

theorem start_heap (h3 : 3 ≤ c.length) {lp : Loop ℝ} (hs : startLoop [c] = .ok lp) :
    ∃ R, OnHeap lp.st 0 R (nextIdx c.length) (cornerQ c h3) 0 (List.range' 1 (c.length - 1)) := by
  have h3' : ∀ c' ∈ [c], 3 ≤ c'.length := by simpa using h3
  obtain ⟨st, R, h1, hL, hsl, -, hlav, -⟩ := mkSlav_loops h3'
  rw [(startLoop_ok hs).1] at h1
  simp only [Except.ok.injEq] at h1
  subst h1
  have hl0 := hlav 0 c rfl
  simp only [List.take_zero, List.map_nil, List.sum_nil] at hl0
  have hsl' : lp.st.slav = [0] := by rw [hsl]; rfl
  obtain ⟨hR, -, hco⟩ := hl0
  have hr : 0 :: List.range' 1 (c.length - 1) = List.range' 0 c.length := by
    rw [show c.length = c.length - 1 + 1 by omega, List.range'_succ]
    simp
  have hseg : Seg lp.st 0 (List.range' 1 (c.length - 1)) 0 := by
    obtain ⟨-, a, P, hP, hs⟩ := hL.closed 0 (by rw [hsl']; simp)
    rw [hR, ← hr] at hP
    simp only [List.cons.injEq] at hP
    obtain ⟨rfl, rfl⟩ := hP
    exact hs
  refine ⟨R, hL, hsl', by rw [hR, hr], hseg, ?_, ?_⟩
  · intro k hk
    rw [hr, List.mem_range'_1] at hk
    have hch : (List.range' 0 c.length ++ [0]).IsChain (Link lp.st) := by
      rw [← hr]; exact hseg
    have := (List.isChain_iff_getElem.1 hch) k (by simp; omega)
    rw [List.getElem_append_left (by simp; omega), link_iff] at this
    have e1 := this.1
    simp only [List.getElem_range', one_mul, Nat.zero_add] at e1
    rw [e1]
    congr 1
    by_cases hl : k + 1 = c.length
    · rw [List.getElem_append_right (by simp; omega)]
      simp [nextIdx, hl]
    · rw [List.getElem_append_left (by simp; omega)]
      simp [nextIdx, hl]
  · intro k hk
    rw [hr, List.mem_range'_1] at hk
    have hk' : k < c.length := by omega
    have := hco k hk'
    rw [Nat.zero_add, cornerPairs_getElem hk'] at this
    rw [this, cornerQ, dif_pos hk']
    rfl

theorem startLoop_sweep (h : ConvexPolygon c) (h3 : 3 ≤ c.length) {lp : Loop ℝ}
    (hs : startLoop [c] = .ok lp) : SweepRun c lp [] := by
  have hcc := convexContour_of_polygon h3 h
  have hd := hcc.no_dormers h3
  have hrun := startLoop_convex hcc h3 hs
  obtain ⟨R, hh⟩ := start_heap h3 hs
  obtain ⟨th, hf⟩ := start_front h h3
  have h3' : ∀ c' ∈ [c], 3 ≤ c'.length := by simpa using h3
  obtain ⟨st, R', h1, -, -, hlen, -, hchain, -⟩ := mkSlav_loops h3'
  obtain ⟨hst, hout, ds, init, init', hd', hi, hp, hq⟩ := startLoop_ok hs
  rw [hst] at h1
  simp only [Except.ok.injEq] at h1
  subst h1
  rw [hd] at hd'
  simp only [Except.ok.injEq] at hd'
  subst hd'
  simp only [List.isEmpty_nil, if_true, Except.ok.injEq] at hp
  subst hp
  unfold initialEvents at hi
  rw [hchain, ok_bind] at hi
  have hall := mapM_ok hi
  have hlen' : lp.st.vs.length = c.length := by rw [hlen]; simp
  have hmem : ∀ k, k ∈ 0 :: List.range' 1 (c.length - 1) ↔ k < c.length := by
    intro k
    simp only [List.mem_cons, List.mem_range'_1]
    omega
  -- the event each vertex proposes
  have hev : ∀ p < c.length, ∃ e, Event.edge e ∈ lp.queue ∧
      Polyskel.nextEvent lp.st (nextIdx c.length p) = .ok (some (.edge e)) ∧ EvGood lp.st e ∧
      ((meetTime (nextIdx c.length) th (firstLen c) 0 p ≤
          meetTime (nextIdx c.length) th (firstLen c) 0 (nextIdx c.length p) ∧ e.a = p ∧
          e.b = nextIdx c.length p) ∨
        (meetTime (nextIdx c.length) th (firstLen c) 0 (nextIdx c.length p) ≤
          meetTime (nextIdx c.length) th (firstLen c) 0 p ∧ e.a = nextIdx c.length p ∧
          e.b = nextIdx c.length (nextIdx c.length p))) := by
    intro p hp
    obtain ⟨T, hhT, hfT, -⟩ := hh.from hf ((hmem p).2 hp)
    have ht := hfT.three
    obtain ⟨b, T, rfl⟩ : ∃ b T', T = b :: T' := by
      cases T with
      | nil => simp at ht
      | cons b T => exact ⟨b, T, rfl⟩
    have hb : b = nextIdx c.length p := hfT.first.1
    subst hb
    have hh2 := OnHeap.rotate (A := []) hhT
    have hf2 := Front.rotate (A := []) hfT
    obtain ⟨e, he, hg, hc⟩ := OnHeap.nextEvent hh2 hf2 h.proper rfl
    refine ⟨e, ?_, he, hg, hc⟩
    obtain ⟨o, ho, hoe⟩ := forall₂_mem_left hall (List.mem_range.2 (by
      rw [hlen']; exact nextIdx_lt hp : nextIdx c.length p < lp.st.vs.length))
    rw [he] at hoe
    simp only [Except.ok.injEq] at hoe
    subst hoe
    rw [hq, (C08_putAll_perm _ _).mem_iff]
    simpa using ho
  refine ⟨hrun, ⟨_, _, by rw [hq]; exact putAll_hist _ _ _ _ .empty⟩, by simp, ?_, by rw [hout]; simp,
    Or.inr ⟨0, R, _, _, th, _, _, 0, 0, _, hh, hf, ?_, ?_, fun _ => [], ?_⟩⟩
  · intro e he
    rw [List.nil_append, hq, (C08_putAll_perm _ _).mem_iff] at he
    simp only [List.nil_append, List.mem_filterMap, id, exists_eq_right] at he
    obtain ⟨k, hk, hke⟩ := forall₂_mem_right hall he
    rw [List.mem_range, hlen'] at hk
    obtain ⟨e', -, h1, h2, -⟩ := hev (prevIdx c.length k) (prevIdx_lt hk)
    rw [next_prev hk, hke] at h1
    simp only [Except.ok.injEq, Option.some.injEq, Event.edge.injEq] at h1
    rw [h1]
    exact h2
  · intro p hp
    obtain ⟨e, h1, -, -, h2⟩ := hev p ((hmem p).1 hp)
    rcases h2 with ⟨h2, h4, h5⟩ | ⟨h2, h4, h5⟩
    · exact Or.inl ⟨h2, Or.inl ⟨e, by simpa using h1, h4, h5⟩⟩
    · exact Or.inr ⟨h2, Or.inl ⟨e, by simpa using h1, h4, h5⟩⟩
  · rw [hout]
    simp
    omega
  · have hr : 0 :: List.range' 1 (c.length - 1) = List.range c.length := by
      rw [List.range_eq_range', show c.length = c.length - 1 + 1 by omega, List.range'_succ]
      simp
    refine ⟨by rw [hlen', hout]; simp, ?_, by rw [hout]; simp, fun h0 => by simp at h0, ?_,
      by rw [hout]; simp⟩
    · intro k hk
      refine ⟨cornerQ c h3 k, hh.co k ((hmem k).2 hk), ?_⟩
      simp only [cornerQ, dif_pos hk]
      exact ⟨rfl, rfl, rfl⟩
    · rw [hout, hr, hlen']; simp

theorem popEqual_hist (d : ℝ) (k : Nat) (q ins out : List (Event ℝ)) (h : Hist evLt q ins out) :
    ∃ out', Hist evLt (popEqual d k q).2 ins out' := by
  induction k generalizing q out with
  | zero => exact ⟨out, h⟩
  | succ k ih =>
    unfold popEqual
    split
    · exact ⟨out, h⟩
    · split
      · split
        · exact ⟨out, h⟩
        · rename_i e q' hp
          exact ih _ _ (h.get hp)
      · exact ⟨out, h⟩

/-- the next batch is taken from the queue -/
theorem SweepRun.take {lp : Loop ℝ} (h : SweepRun c lp []) {batch q : List (Event ℝ)}
    (hq : getAllEqualDistance lp.queue = some (batch, q)) :
    SweepRun c { lp with queue := q } batch := by
  obtain ⟨hp, -⟩ := (C09_getAllEqualDistance_perm lp.queue).2 _ _ hq
  obtain ⟨ins, out, hh⟩ := h.heap
  have hne : lp.queue ≠ [] := by
    intro h0
    rw [(C09_getAllEqualDistance_perm lp.queue).1.2 h0] at hq
    cases hq
  obtain ⟨f, o, r, h1, -, -, -, -, h2⟩ := C09_getAllEqualDistance _ _ _ hh hne
  rw [hq] at h1
  simp only [Option.some.injEq, Prod.mk.injEq] at h1
  obtain ⟨rfl, rfl⟩ := h1
  have hm : ∀ e, e ∈ f :: o ++ q ↔ e ∈ [] ++ lp.queue := by
    intro e
    rw [hp.mem_iff]; simp
  refine ⟨?_, ?_, h2, fun e he => h.good e ((hm _).1 he), h.arcs, ?_⟩
  · obtain ⟨g1, g2, g3, g4⟩ := h.run
    exact ⟨⟨take_sound (by simpa using g1.1) hq, fun e he => g1.2 e ((hm _).1 he)⟩, g2,
      fun e he => g3 e ((hm e).1 he), g4⟩
  · unfold getAllEqualDistance at hq
    split at hq
    · cases hq
    · rename_i item q' hpop
      simp only [Option.some.injEq, Prod.mk.injEq] at hq
      obtain ⟨-, rfl⟩ := hq
      obtain ⟨out', ho⟩ := popEqual_hist item.dist q'.length q' ins _ (hh.get hpop)
      exact ⟨_, _, ho⟩
  · rcases h.wave with hw | ⟨l, R, nx, q, th, y, lam, t, a, T, hh, hf, hc, hn⟩
    · exact Or.inl hw
    · refine Or.inr ⟨l, R, nx, q, th, y, lam, t, a, T, hh, hf, ?_, hn⟩
      refine hc.mono (fun _ _ => rfl) (fun k hk => (hh.pv hk).1) ?_
      rintro k hk ⟨x, hx, x1⟩
      exact ⟨x, (hm _).2 hx, x1⟩

/-- the batch -/
theorem stepBatch_sweep (hprop : ∀ e ∈ c, Proper e) (es : List (Event ℝ)) (lp : Loop ℝ)
    (h : SweepRun c lp es)
    (ho : ∀ a ∈ batchTurns lp es, Live a.1.st a.2 → ∀ e ∈ a.1.queue, Live a.1.st e →
      a.2.dist ≤ e.dist) : ∃ lp', stepBatch lp es = .ok lp' ∧ SweepRun c lp' [] := by
  induction es generalizing lp with
  | nil => exact ⟨lp, rfl, h⟩
  | cons e es ih =>
    unfold batchTurns at ho
    obtain ⟨lp', h1, h2, -⟩ := stepEvent_sweep hprop h (ho (lp, e) List.mem_cons_self)
    rw [h1] at ho
    simp only [List.mem_cons] at ho
    obtain ⟨lp2, h3, h4⟩ := ih lp' h2 (fun a ha => ho a (Or.inr ha))
    refine ⟨lp2, ?_, h4⟩
    unfold stepBatch
    rw [h1]
    exact h3

theorem mainLoop_sweep (hprop : ∀ e ∈ c, Proper e) (k : Nat) (lp : Loop ℝ) (h : SweepRun c lp [])
    (ho : InOrder k lp) :
    mainLoop k lp = none ∨ ∃ lp', mainLoop k lp = some (.ok lp') ∧ SweepRun c lp' [] ∧
      (lp'.queue = [] ∨ lp'.st.slav = []) := by
  have hend : ∀ lp : Loop ℝ, (lp.queue.isEmpty || lp.st.slav.isEmpty) = true →
      lp.queue = [] ∨ lp.st.slav = [] := by
    intro lp hl
    simpa using hl
  induction k generalizing lp with
  | zero =>
    unfold mainLoop
    split
    · rename_i hfin
      exact Or.inr ⟨lp, rfl, h, hend lp hfin⟩
    · exact Or.inl rfl
  | succ k ih =>
    unfold InOrder turns at ho
    unfold mainLoop
    by_cases hfin : (lp.queue.isEmpty || lp.st.slav.isEmpty) = true
    · rw [if_pos hfin]
      exact Or.inr ⟨lp, rfl, h, hend lp hfin⟩
    · rw [if_neg hfin] at ho ⊢
      cases hq : getAllEqualDistance lp.queue with
      | none =>
        exfalso
        rw [(C09_getAllEqualDistance_perm lp.queue).1] at hq
        simp [hq] at hfin
      | some bq =>
        obtain ⟨batch, q⟩ := bq
        rw [hq] at ho
        simp only [List.mem_append] at ho
        obtain ⟨lp', g1, hs'⟩ := stepBatch_sweep hprop batch _ (h.take hq)
          (fun a ha => ho a (Or.inl ha))
        simp only [g1] at ho ⊢
        exact ih lp' hs' (fun a ha => ho a (Or.inr ha))

/-- if the meetings are a thousandth apart, then nobody jumps the queue -/
theorem batchTurns_separated (hprop : ∀ e ∈ c, Proper e) (hsep : Separated c) (d : ℝ)
    (es : List (Event ℝ)) (lp : Loop ℝ) (h : SweepRun c lp es)
    (h1 : ∀ e ∈ es, d ≤ e.dist ∧ e.dist < d + 1 / 1000) (h2 : ∀ e ∈ lp.queue, d ≤ e.dist) :
    ∀ a ∈ batchTurns lp es, Live a.1.st a.2 → ∀ e ∈ a.1.queue, Live a.1.st e →
      a.2.dist ≤ e.dist := by
  induction es generalizing lp with
  | nil => simp [batchTurns]
  | cons e es ih =>
    have hord : Live lp.st e → ∀ x ∈ lp.queue, Live lp.st x → e.dist ≤ x.dist := by
      intro hl x hx hlx
      by_contra hlt
      push Not at hlt
      have t1 := h.triple (e := e) (by simp) hl
      have t2 := h.triple (e := x) (by simp [hx]) hlx
      have := hsep _ _ t2.2 t1.2 t2.1 hlt
      have := (h1 e (by simp)).2
      have := h2 x hx
      linarith
    obtain ⟨lp', g1, g2, g3⟩ := stepEvent_sweep hprop h hord
    unfold batchTurns
    rw [g1]
    intro a ha
    rcases List.mem_cons.1 ha with rfl | ha
    · exact hord
    · refine ih lp' g2 (fun x hx => h1 x (List.mem_cons_of_mem _ hx)) ?_ a ha
      intro x hx
      rcases g3 x hx with hx | hx
      · exact h2 x hx
      · exact le_trans (h1 e (by simp)).1 hx

theorem inOrder_separated (hprop : ∀ e ∈ c, Proper e) (hsep : Separated c) (k : Nat) (lp : Loop ℝ)
    (h : SweepRun c lp []) : InOrder k lp := by
  induction k generalizing lp with
  | zero => simp [InOrder, turns]
  | succ k ih =>
    unfold InOrder turns
    split
    · simp
    · cases hq : getAllEqualDistance lp.queue with
      | none => simp
      | some bq =>
        obtain ⟨batch, q⟩ := bq
        have hne : lp.queue ≠ [] := by
          intro h0
          rw [(C09_getAllEqualDistance_perm lp.queue).1.2 h0] at hq
          cases hq
        obtain ⟨ins, out, hh⟩ := h.heap
        obtain ⟨f, o, r, h1, hp, hmin, ho, hr, -⟩ := C09_getAllEqualDistance _ _ _ hh hne
        rw [hq] at h1
        simp only [Option.some.injEq, Prod.mk.injEq] at h1
        obtain ⟨rfl, rfl⟩ := h1
        have hbt := batchTurns_separated hprop hsep f.dist (f :: o) _ (h.take hq) (by
          intro e he
          refine ⟨hmin e (hp.mem_iff.1 (List.mem_append_left _ he)), ?_⟩
          rcases List.mem_cons.1 he with rfl | he
          · norm_num
          · exact ho e he) (fun e he => hmin e (hp.mem_iff.1 (List.mem_append_right _ he)))
        obtain ⟨lp', g1, g2⟩ := stepBatch_sweep hprop _ _ (h.take hq) hbt
        simp only [g1]
        intro a ha
        rcases List.mem_append.1 ha with ha | ha
        · exact hbt a ha
        · exact ih lp' g2 a ha

/-- when the loop ends, the wavefront is gone -/
theorem SweepRun.finish {lp : Loop ℝ} (h : SweepRun c lp [])
    (he : lp.queue = [] ∨ lp.st.slav = []) : lp.st.slav = [] ∧ lp.out.length + 2 = c.length ∧
      ∃ ch, Grown c lp.st lp.out ch [] := by
  rcases h.wave with hw | ⟨l, R, nx, q, th, y, lam, t, a, T, hh, hf, hc, hn⟩
  · exact hw
  · exfalso
    rcases he with he | he
    · obtain ⟨p, -, ⟨e, he', -⟩, -⟩ := hc.min (by simp) (fun k hk => (hh.pv hk).1)
        (fun k hk => hh.pred hk) (fun p hp p' hp' => hh.inj hp hp')
      rw [he] at he'
      simp at he'
    · rw [hh.slav] at he
      simp at he

end
end Polyskel
