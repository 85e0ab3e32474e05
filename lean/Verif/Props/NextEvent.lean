import Mathlib.Tactic.Linarith
import Mathlib.Tactic.Ring
import Mathlib.Tactic.NormNum
import Verif.Props.Geometry
import Verif.Props.Basic
import Verif.Proofs.Fields
/-
C50: the event a wavefront vertex proposes, `_LAVertex.next_event`, bpypolyskel.py:145-210.
-/
namespace Polyskel
open Scalar Geo

/-! ### Candidates -/

/-- the vector product of two plane vectors -/
def cr (a b : V2 ℝ) : ℝ := a.x * b.y - a.y * b.x

theorem ex_cross (a b : V2 ℝ) : V2.cross a b = cr a b := rfl

/-- the scalar product -/
def dt (a b : V2 ℝ) : ℝ := a.x * b.x + a.y * b.y

theorem ex_dot (a b : V2 ℝ) : V2.dot a b = dt a b := rfl

/-- the vector from `a` to `b` -/
def vec (a b : V2 ℝ) : V2 ℝ := ⟨b.x - a.x, b.y - a.y⟩

theorem ex_vsub (a b : V2 ℝ) : V2.sub a b = vec b a := rfl

/-- The auxiliary direction in which the candidate split point is sought from the point `i` where
the lines of an own edge and of the opposite edge (direction `o`) meet: the direction `l` from `i`
to the vertex, plus or minus `o`.  If the bisector `b` and `l` have the vector product 1, up to
the tolerance, `l` gets tilted a little first. -/
noncomputable def helperDir (b o : V2 ℝ) (i P : V2 ℝ) : V2 ℝ :=
  let l0 := V2.normalized (vec i P)
  let l := if |cr b l0 - 1| < 1 / 100000 then
      V2.normalized ⟨(vec i P).x + o.x * (1 / 100), (vec i P).y + o.y * (1 / 100)⟩ else l0
  if cr b l < 0 then ⟨-o.x + l.x, -o.y + l.y⟩ else ⟨o.x + l.x, o.y + l.y⟩

/-- the point lies (up to the tolerance) in front of the edge, between the bisectors at its ends -/
def InFront (oe : OrigEdge ℝ) (p : V2 ℝ) : Prop :=
  cr (V2.normalized oe.bisPrev.v) (V2.normalized (vec oe.bisPrev.p p)) < 1 / 100000 ∧
  -(1 / 100000) < cr (V2.normalized oe.bisNext.v) (V2.normalized (vec oe.bisNext.p p)) ∧
  -(1 / 100000) < cr oe.edge.norm (V2.normalized (vec oe.edge.p1 p)) ∧
  mag oe.bisNext.v ≠ 0

/-- the own edge that is less parallel to the opposite edge -/
def selfEdge (v : Vtx ℝ) (o : Edge2 ℝ) (s : Edge2 ℝ) : Prop :=
  (|dt v.edgePrev.norm o.norm| < |dt v.edgeNext.norm o.norm| ∧ s = v.edgePrev) ∨
  (|dt v.edgeNext.norm o.norm| ≤ |dt v.edgePrev.norm o.norm| ∧ s = v.edgeNext)

/-- `e` is an admissible split of vertex `id` at the original edge `oe` -/
structure SplitCand (id : Nat) (v : Vtx ℝ) (oe : OrigEdge ℝ) (e : SplitEv ℝ) : Prop where
  foreign : oe.edge.oid ≠ v.edgePrev.oid ∧ oe.edge.oid ≠ v.edgeNext.oid
  point : ∃ s i, selfEdge v oe.edge s ∧
    ¬ Parallel (vec s.p1 s.p2) (vec oe.edge.p1 oe.edge.p2) ∧
    (∃ t, i = along s.p1 (vec s.p1 s.p2) t) ∧ (∃ t, i = along oe.edge.p1 (vec oe.edge.p1 oe.edge.p2) t) ∧
    max (mag i) (mag v.point) * (1 / 1000) < eucl i v.point ∧
    mag (helperDir v.bisector.v oe.edge.norm i v.point) ≠ 0 ∧
    ¬ Parallel (helperDir v.bisector.v oe.edge.norm i v.point) v.bisector.v ∧
    (∃ t, e.pt = along i (helperDir v.bisector.v oe.edge.norm i v.point) t)
  onBisector : OnLin v.bisector e.pt
  inFront : InFront oe e.pt
  dist : e.dist = (Line2.ofEdge oe.edge).distance e.pt
  vertex : e.vertex = id
  opp : e.opp = oe.edge

theorem onLin_line (p q : V2 ℝ) (v : V2 ℝ) : OnLin ⟨p, v, false⟩ q ↔ ∃ t, q = along p v t := by
  simp [OnLin]

theorem approx_false (a b : V2 ℝ) :
    approximatelyEquals a b = false ↔ max (mag a) (mag b) * (1 / 1000) < eucl a b := by
  rw [← Bool.not_eq_true, C07_approximatelyEquals_iff, not_le]

theorem splitCandidate_iff (id : Nat) (v : Vtx ℝ) (oe : OrigEdge ℝ) (e : SplitEv ℝ) :
    splitCandidate id v oe = some e ↔ SplitCand id v oe e := by
  have hself : ∀ s, (s = if (Scalar.abs (V2.dot v.edgePrev.norm oe.edge.norm)) <.
      (Scalar.abs (V2.dot v.edgeNext.norm oe.edge.norm)) then v.edgePrev else v.edgeNext) ↔
      selfEdge v oe.edge s := by
    intro s
    unfold selfEdge
    simp only [ex_dot, ex_abs, ex_lt]
    split
    · rename_i h
      constructor
      · rintro rfl; exact Or.inl ⟨h, rfl⟩
      · rintro (⟨-, rfl⟩ | ⟨h', -⟩)
        · rfl
        · exact absurd h (not_lt.2 h')
    · rename_i h
      constructor
      · rintro rfl; exact Or.inr ⟨not_lt.1 h, rfl⟩
      · rintro (⟨h', -⟩ | ⟨-, rfl⟩)
        · exact absurd h' h
        · rfl
  have hdir : ∀ i, (V2.add
      (if V2.cross v.bisector.v (if Scalar.abs (V2.cross v.bisector.v
          (V2.normalized (V2.sub v.point i)) -. fone) <. EPSILON then
            V2.normalized (V2.add (V2.sub v.point i) (V2.smul oe.edge.norm (lit 1 100)))
          else V2.normalized (V2.sub v.point i)) <. fzero then V2.neg oe.edge.norm else oe.edge.norm)
      (if Scalar.abs (V2.cross v.bisector.v
          (V2.normalized (V2.sub v.point i)) -. fone) <. EPSILON then
            V2.normalized (V2.add (V2.sub v.point i) (V2.smul oe.edge.norm (lit 1 100)))
          else V2.normalized (V2.sub v.point i))) =
      helperDir v.bisector.v oe.edge.norm i v.point := by
    intro i
    unfold helperDir
    simp only [ex_abs, ex_sub, ex_lt, ex_one, ex_cross, ex_vsub, ex_zero, ex_EPSILON]
    have : V2.add (vec i v.point) (V2.smul oe.edge.norm (lit 1 100)) =
        ⟨(vec i v.point).x + oe.edge.norm.x * (1 / 100),
         (vec i v.point).y + oe.edge.norm.y * (1 / 100)⟩ := by
      simp [V2.add, V2.smul]
    rw [this]
    generalize (if |cr v.bisector.v (vec i v.point).normalized - 1| < 1 / 100000 then _ else _) = l
    split
    · simp [V2.add, V2.neg]
    · simp [V2.add]
  have hfront : ∀ b, ((V2.cross (V2.normalized oe.bisPrev.v)
                (V2.normalized (V2.sub b oe.bisPrev.p)) <. EPSILON &&
        neg EPSILON <. V2.cross (V2.normalized oe.bisNext.v)
                (V2.normalized (V2.sub b oe.bisNext.p)) &&
        neg EPSILON <. V2.cross oe.edge.norm (V2.normalized (V2.sub b oe.edge.p1)) &&
        !(V2.length oe.bisNext.v ==. fzero)) = true) ↔ InFront oe b := by
    intro b
    unfold InFront
    simp only [Bool.and_eq_true, ex_lt, ex_cross, ex_vsub, ex_EPSILON, ex_neg, Bool.not_eq_true',
      ex_eq_false, ex_zero, length_mag]
    tauto
  unfold splitCandidate
  simp only
  split
  · rename_i h
    simp only [reduceCtorEq, false_iff]
    intro hc
    rcases h with h | h
    · exact hc.foreign.1 h
    · exact hc.foreign.2 h
  · rename_i hf
    rw [not_or] at hf
    generalize hs : (if (Scalar.abs (V2.dot v.edgePrev.norm oe.edge.norm)) <.
      (Scalar.abs (V2.dot v.edgeNext.norm oe.edge.norm)) then v.edgePrev else v.edgeNext) = s
    have hs' := (hself s).1 hs.symm
    have hsu : ∀ s', selfEdge v oe.edge s' → s' = s := fun s' h => ((hself s').2 h).trans hs
    cases hi : (Line2.ofEdge s).intersect (Line2.ofEdge oe.edge) with
    | none =>
      simp only [reduceCtorEq, false_iff]
      intro hc
      obtain ⟨s', i, h1, h2, h3, h4, -⟩ := hc.point
      rw [hsu s' h1] at h2 h3
      rw [C01_intersect_none_iff] at hi
      rcases hi with hi | hi
      · exact h2 hi
      · exact hi ⟨i, (onLin_line _ _ _).2 h3, (onLin_line _ _ _).2 h4⟩
    | some i =>
      have hiu : ∀ j, ¬ Parallel (vec s.p1 s.p2) (vec oe.edge.p1 oe.edge.p2) →
          (∃ t, j = along s.p1 (vec s.p1 s.p2) t) →
          (∃ t, j = along oe.edge.p1 (vec oe.edge.p1 oe.edge.p2) t) → j = i := by
        intro j h2 h3 h4
        have := (C01_intersect_iff (Line2.ofEdge s) (Line2.ofEdge oe.edge) j).2
          ⟨h2, (onLin_line _ _ _).2 h3, (onLin_line _ _ _).2 h4⟩
        rw [hi] at this
        exact (Option.some.inj this).symm
      obtain ⟨hi1, hi2, hi3⟩ := (C01_intersect_iff _ _ _).1 hi
      replace hi2 := (onLin_line _ _ _).1 hi2
      replace hi3 := (onLin_line _ _ _).1 hi3
      simp only
      rw [hdir i]
      cases happ : approximatelyEquals i v.point with
      | true =>
        simp only [if_true, reduceCtorEq, false_iff]
        intro hc
        obtain ⟨s', j, h1, h2, h3, h4, h5, -⟩ := hc.point
        rw [hsu s' h1] at h2 h3
        rw [hiu j h2 h3 h4] at h5
        rw [← approx_false] at h5
        rw [h5] at happ; cases happ
      | false =>
        simp only [Bool.false_eq_true, if_false]
        generalize hd : helperDir v.bisector.v oe.edge.norm i v.point = d
        by_cases hl : mag d = 0
        · rw [if_pos (by rw [ex_eq, ex_zero, length_mag]; exact hl)]
          simp only [reduceCtorEq, false_iff]
          intro hc
          obtain ⟨s', j, h1, h2, h3, h4, h5, h6, -⟩ := hc.point
          rw [hsu s' h1] at h2 h3
          rw [hiu j h2 h3 h4, hd] at h6
          exact h6 hl
        · rw [if_neg (by rw [ex_eq, ex_zero, length_mag]; exact hl)]
          cases hb : (Line2.ofPV i d).intersect v.bisector with
          | none =>
            simp only [reduceCtorEq, false_iff]
            intro hc
            obtain ⟨s', j, h1, h2, h3, h4, h5, h6, h7, h8⟩ := hc.point
            rw [hsu s' h1] at h2 h3
            rw [hiu j h2 h3 h4, hd] at h7 h8
            rw [C01_intersect_none_iff] at hb
            rcases hb with hb | hb
            · exact h7 hb
            · exact hb ⟨e.pt, (onLin_line _ _ _).2 h8, hc.onBisector⟩
          | some b =>
            obtain ⟨hb1, hb2, hb3⟩ := (C01_intersect_iff _ _ _).1 hb
            replace hb2 := (onLin_line _ _ _).1 hb2
            simp only
            by_cases hF : InFront oe b
            · rw [if_pos ((hfront b).2 hF)]
              simp only [Option.some.injEq]
              constructor
              · rintro rfl
                exact ⟨⟨hf.1, hf.2⟩, ⟨s, i, hs', hi1, hi2, hi3, (approx_false _ _).1 happ,
                  by rw [hd]; exact hl, by rw [hd]; exact hb1, by rw [hd]; exact hb2⟩, hb3, hF,
                  rfl, rfl, rfl⟩
              · intro hc
                obtain ⟨s', j, h1, h2, h3, h4, h5, h6, h7, h8⟩ := hc.point
                rw [hsu s' h1] at h2 h3
                rw [hiu j h2 h3 h4, hd] at h7 h8
                have := (C01_intersect_iff (Line2.ofPV i d) v.bisector e.pt).2
                  ⟨h7, (onLin_line _ _ _).2 h8, hc.onBisector⟩
                rw [hb] at this
                have hbe := Option.some.inj this
                have h1 := hc.dist
                have h2 := hc.vertex
                have h3 := hc.opp
                cases e
                simp only at *
                subst h1 h2 h3 hbe
                rfl
            · rw [if_neg (fun h => hF ((hfront b).1 h))]
              simp only [reduceCtorEq, false_iff]
              intro hc
              obtain ⟨s', j, h1, h2, h3, h4, h5, h6, h7, h8⟩ := hc.point
              rw [hsu s' h1] at h2 h3
              rw [hiu j h2 h3 h4, hd] at h7 h8
              have := (C01_intersect_iff (Line2.ofPV i d) v.bisector e.pt).2
                ⟨h7, (onLin_line _ _ _).2 h8, hc.onBisector⟩
              rw [hb] at this
              have hbe := Option.some.inj this
              exact hF (by have := hc.inFront; rw [← hbe] at this; exact this)

/-- The edge events of `next_event`: `v`, at `id`, meets its neighbour `w` on both bisectors; the
distance is taken to the edge between them. -/
def EdgeCand (v w : Vtx ℝ) (edge : Edge2 ℝ) (a b : Nat) (e : EdgeEv ℝ) : Prop :=
  ¬ Parallel v.bisector.v w.bisector.v ∧ OnLin v.bisector e.pt ∧ OnLin w.bisector e.pt ∧
  e.dist = (Line2.ofEdge edge).distance e.pt ∧ e.a = a ∧ e.b = b

/-- what the vertex `v` at `id`, with neighbours `p` and `n`, may run into -/
inductive Cand (st : St ℝ) (id : Nat) (v p n : Vtx ℝ) : Event ℝ → Prop
  | split {e : SplitEv ℝ} (oe : OrigEdge ℝ) : v.reflex = true → oe ∈ st.orig →
      SplitCand id v oe e → Cand st id v p n (.split e)
  | prev {e : EdgeEv ℝ} : EdgeCand v p v.edgePrev v.prev id e → Cand st id v p n (.edge e)
  | next {e : EdgeEv ℝ} : EdgeCand v n v.edgeNext id v.next e → Cand st id v p n (.edge e)

/-- the point of an event that is no dormer event -/
def At : Event ℝ → V2 ℝ → Prop
  | .split e, p => p = e.pt
  | .edge e, p => p = e.pt
  | .dormer _ _ _ _ _, _ => False

theorem at_ptOf {st : St ℝ} {id : Nat} {v p n : Vtx ℝ} {e : Event ℝ} (h : Cand st id v p n e)
    (q : V2 ℝ) : At e q ↔ q = e.ptOf := by
  cases h <;> rfl

theorem minByKey_spec (key : Event ℝ → ℝ) (e : Event ℝ) (es : List (Event ℝ)) :
    ∃ l1 l2, e :: es = l1 ++ minByKey key e es :: l2 ∧
      (∀ x ∈ l1, key (minByKey key e es) < key x) ∧ ∀ x ∈ l2, key (minByKey key e es) ≤ key x := by
  induction es generalizing e with
  | nil => exact ⟨[], [], rfl, by simp, by simp⟩
  | cons x xs ih =>
    rw [minByKey]
    by_cases h : key x < key e
    · rw [if_pos (by rw [ex_lt]; exact h)]
      obtain ⟨l1, l2, h1, h2, h3⟩ := ih x
      refine ⟨e :: l1, l2, by rw [h1]; rfl, ?_, h3⟩
      intro y hy
      rcases List.mem_cons.1 hy with rfl | hy
      · have : minByKey key x xs ∈ x :: xs := by rw [h1]; simp
        have hx : key (minByKey key x xs) ≤ key x := by
          have : x ∈ l1 ++ minByKey key x xs :: l2 := by rw [← h1]; simp
          rcases List.mem_append.1 this with h | h
          · exact (h2 x h).le
          · rcases List.mem_cons.1 h with h | h
            · rw [← h]
            · exact h3 x h
        exact lt_of_le_of_lt hx h
      · exact h2 y hy
    · rw [if_neg (by rw [ex_lt]; exact h)]
      obtain ⟨l1, l2, h1, h2, h3⟩ := ih e
      cases l1 with
      | nil =>
        simp only [List.nil_append, List.cons.injEq] at h1
        refine ⟨[], x :: l2, by rw [← h1.1, h1.2]; rfl, by simp, ?_⟩
        intro y hy
        rcases List.mem_cons.1 hy with rfl | hy
        · rw [← h1.1]; exact not_lt.1 h
        · exact h3 y hy
      | cons z l1 =>
        simp only [List.cons_append, List.cons.injEq] at h1
        obtain ⟨rfl, h1⟩ := h1
        refine ⟨e :: x :: l1, l2, congrArg (fun t => e :: x :: t) h1, ?_, h3⟩
        intro y hy
        have hz := h2 e (by simp)
        rcases List.mem_cons.1 hy with rfl | hy
        · exact hz
        · rcases List.mem_cons.1 hy with rfl | hy
          · exact lt_of_lt_of_le hz (not_lt.1 h)
          · exact h2 y (by simp [hy])

theorem edgeCand_list (v w : Vtx ℝ) (edge : Edge2 ℝ) (a b : Nat) (e : Event ℝ) :
    e ∈ edgeOf v w edge a b ↔ ∃ e', e = .edge e' ∧ EdgeCand v w edge a b e' := by
  unfold edgeOf
  cases h : v.bisector.intersect w.bisector with
  | none =>
    simp only [List.not_mem_nil, false_iff]
    rintro ⟨e', -, h1, h2, h3, -⟩
    rw [C01_intersect_none_iff] at h
    rcases h with h | h
    · exact h1 h
    · exact h ⟨_, h2, h3⟩
  | some i =>
    obtain ⟨h1, h2, h3⟩ := (C01_intersect_iff _ _ _).1 h
    simp only [List.mem_singleton]
    constructor
    · rintro rfl
      exact ⟨_, rfl, h1, h2, h3, rfl, rfl, rfl⟩
    · rintro ⟨e', rfl, g1, g2, g3, g4, g5, g6⟩
      have := (C01_intersect_iff _ _ _).2 ⟨g1, g2, g3⟩
      rw [h] at this
      have hi := Option.some.inj this
      cases e'
      simp only at *
      subst g4 g5 g6 hi
      rfl

theorem edgesOf_mem (id : Nat) (v p n : Vtx ℝ) (e : Event ℝ) : e ∈ edgesOf id v p n ↔
    (∃ e', e = .edge e' ∧ EdgeCand v p v.edgePrev v.prev id e') ∨
    ∃ e', e = .edge e' ∧ EdgeCand v n v.edgeNext id v.next e' := by
  unfold edgesOf
  rw [List.mem_append]
  exact or_congr (edgeCand_list v p v.edgePrev v.prev id e) (edgeCand_list v n v.edgeNext id v.next e)

/-- the list `next_event` chooses from -/
theorem cand_iff {st : St ℝ} {id : Nat} {v p n : Vtx ℝ} {e : Event ℝ} :
    Cand st id v p n e ↔
      e ∈ (if v.reflex then st.orig.filterMap (splitCandidate id v) else []).map Event.split ++
        edgesOf id v p n := by
  rw [List.mem_append, edgesOf_mem]
  constructor
  · intro h
    cases h with
    | split oe h1 h2 h3 =>
      refine Or.inl (List.mem_map.2 ⟨_, ?_, rfl⟩)
      rw [if_pos h1]
      exact List.mem_filterMap.2 ⟨oe, h2, (splitCandidate_iff _ _ _ _).2 h3⟩
    | prev h => exact Or.inr (Or.inl ⟨_, rfl, h⟩)
    | next h => exact Or.inr (Or.inr ⟨_, rfl, h⟩)
  · rintro (h | ⟨e', rfl, h⟩ | ⟨e', rfl, h⟩)
    · obtain ⟨e', h', rfl⟩ := List.mem_map.1 h
      by_cases hr : v.reflex = true
      · rw [if_pos hr] at h'
        obtain ⟨oe, h1, h2⟩ := List.mem_filterMap.1 h'
        exact .split oe hr h1 ((splitCandidate_iff _ _ _ _).1 h2)
      · rw [if_neg hr] at h'
        cases h'
    · exact .prev h
    · exact .next h

theorem nextEvent_eq {st : St ℝ} {id : Nat} {v p n : Vtx ℝ} (hv : st.vs[id]? = some v)
    (hp : st.vs[v.prev]? = some p) (hn : st.vs[v.next]? = some n)
    (hl : v.reflex = true → v.lav ≠ none) :
    nextEvent st id = .ok (nearest v
      ((if v.reflex then st.orig.filterMap (splitCandidate id v) else []).map Event.split ++
        edgesOf id v p n)) := by
  have hs : splitsOf st id v =
      .ok (if v.reflex then st.orig.filterMap (splitCandidate id v) else []) := by
    unfold splitsOf
    cases hr : v.reflex with
    | false => rfl
    | true =>
      cases hv' : v.lav with
      | none => exact absurd hv' (hl hr)
      | some l => rfl
  unfold nextEvent
  rw [getV_ok.2 hv, ok_bind, hs, ok_bind, getV_ok.2 hp, ok_bind, getV_ok.2 hn, ok_bind]
  rfl

theorem cand_onBisector {st : St ℝ} {id : Nat} {v p n : Vtx ℝ} {e : Event ℝ}
    (h : Cand st id v p n e) : OnLin v.bisector e.ptOf := by
  cases h with
  | split oe _ _ h => exact h.onBisector
  | prev h => exact h.2.1
  | next h => exact h.2.1

/-- C50: `next_event` returns a nearest one of the candidate events – those split events at
original edges (only for a reflex vertex) and edge events with the two neighbours which exist
according to `Cand` – and None exactly if there is none. -/
theorem C50_nextEvent (st : St ℝ) (id : Nat) (v p n : Vtx ℝ) (hv : st.vs[id]? = some v)
    (hp : st.vs[v.prev]? = some p) (hn : st.vs[v.next]? = some n)
    (hl : v.reflex = true → v.lav ≠ none) :
    ∃ r, nextEvent st id = .ok r ∧ (r = none ↔ ∀ e, ¬ Cand st id v p n e) ∧
      ∀ e, r = some e → Cand st id v p n e ∧
        ∃ q, At e q ∧ OnLin v.bisector q ∧
          ∀ e', Cand st id v p n e' → ∀ q', At e' q' → eucl v.point q ≤ eucl v.point q' := by
  refine ⟨_, nextEvent_eq hv hp hn hl, ?_⟩
  generalize hL : (if v.reflex then st.orig.filterMap (splitCandidate id v) else []).map
    Event.split ++ edgesOf id v p n = L
  have hc : ∀ e, Cand st id v p n e ↔ e ∈ L := fun e => by rw [cand_iff, hL]
  cases L with
  | nil =>
    refine ⟨by simp [nearest, hc], ?_⟩
    intro e h; cases h
  | cons e0 es =>
    refine ⟨?_, ?_⟩
    · simp only [nearest, reduceCtorEq, false_iff, not_forall, not_not]
      exact ⟨e0, (hc e0).2 (by simp)⟩
    · intro e he
      simp only [nearest, Option.some.injEq] at he
      obtain ⟨l1, l2, h1, h2, h3⟩ :=
        minByKey_spec (fun ev => V2.length (V2.sub v.point ev.ptOf)) e0 es
      rw [he] at h1 h2 h3
      have hce : Cand st id v p n e := (hc e).2 (by rw [h1]; simp)
      refine ⟨hce, e.ptOf, (at_ptOf hce _).2 rfl, cand_onBisector hce, ?_⟩
      intro e' he' q' hq'
      rw [(at_ptOf he' _).1 hq']
      have : e' ∈ l1 ++ e :: l2 := by rw [← h1]; exact (hc e').1 he'
      simp only [length_sub] at h2 h3
      rcases List.mem_append.1 this with h | h
      · exact (h2 e' h).le
      · rcases List.mem_cons.1 h with rfl | h
        · exact le_refl _
        · exact h3 e' h

/-- C50: on ties the earlier candidate wins: an edge event is returned only
if it is strictly nearer than every split event, and the event with the next neighbour only if it
is strictly nearer than the one with the previous neighbour. -/
theorem C50_ties (st : St ℝ) (id : Nat) (v p n : Vtx ℝ) (hv : st.vs[id]? = some v)
    (hp : st.vs[v.prev]? = some p) (hn : st.vs[v.next]? = some n)
    (hl : v.reflex = true → v.lav ≠ none) {e : EdgeEv ℝ}
    (h : nextEvent st id = .ok (some (.edge e))) :
    (∀ oe ∈ st.orig, v.reflex = true → ∀ s, SplitCand id v oe s →
      eucl v.point e.pt < eucl v.point s.pt) ∧
    (EdgeCand v p v.edgePrev v.prev id e ∨ ∀ e', EdgeCand v p v.edgePrev v.prev id e' →
      eucl v.point e.pt < eucl v.point e'.pt) := by
  rw [nextEvent_eq hv hp hn hl] at h
  simp only [Except.ok.injEq] at h
  generalize hL : (if v.reflex then st.orig.filterMap (splitCandidate id v) else []).map
    Event.split ++ edgesOf id v p n = L at h
  have hc : ∀ e, Cand st id v p n e ↔ e ∈ L := fun e => by rw [cand_iff, hL]
  cases L with
  | nil => cases h
  | cons e0 es =>
    simp only [nearest, Option.some.injEq] at h
    obtain ⟨l1, l2, h1, h2, h3⟩ :=
      minByKey_spec (fun ev => V2.length (V2.sub v.point ev.ptOf)) e0 es
    rw [h] at h1 h2 h3
    simp only [length_sub] at h2 h3
    have hsplit : ∃ r, l1 = (if v.reflex then st.orig.filterMap (splitCandidate id v)
        else []).map Event.split ++ r ∧ edgesOf id v p n = r ++ Event.edge e :: l2 := by
      rw [h1] at hL
      rcases List.append_eq_append_iff.1 hL with ⟨r, h4, h5⟩ | ⟨r, h4, h5⟩
      · exact ⟨r, h4, h5⟩
      · cases r with
        | nil => exact ⟨[], by simpa using h4.symm, by simpa using h5.symm⟩
        | cons x r =>
          simp only [List.cons_append, List.cons.injEq] at h5
          have : Event.edge e ∈ (if v.reflex then st.orig.filterMap (splitCandidate id v)
            else []).map Event.split := by rw [h4, h5.1]; simp
          obtain ⟨_, _, hx⟩ := List.mem_map.1 this
          cases hx
    obtain ⟨r, h4, h5⟩ := hsplit
    constructor
    · intro oe hoe hr s hs
      refine h2 (.split s) ?_
      rw [h4, List.mem_append]
      refine Or.inl (List.mem_map.2 ⟨s, ?_, rfl⟩)
      rw [if_pos hr]
      exact List.mem_filterMap.2 ⟨oe, hoe, (splitCandidate_iff _ _ _ _).2 hs⟩
    · unfold edgesOf at h5
      cases hi : v.bisector.intersect p.bisector with
      | none =>
        refine Or.inr ?_
        rintro e' ⟨g1, g2, g3, -⟩
        rw [C01_intersect_none_iff] at hi
        rcases hi with hi | hi
        · exact absurd hi g1
        · exact absurd ⟨_, g2, g3⟩ hi
      | some i =>
        have hm := edgeCand_list v p v.edgePrev v.prev id
        rw [edgeOf, hi] at h5
        simp only [edgeOf, hi] at hm
        simp only [List.singleton_append] at h5
        cases r with
        | nil =>
          simp only [List.nil_append, List.cons.injEq] at h5
          have := (hm (.edge e)).1 (by rw [h5.1]; simp)
          obtain ⟨e', he, hc'⟩ := this
          cases he
          exact Or.inl hc'
        | cons x r =>
          simp only [List.cons_append, List.cons.injEq] at h5
          refine Or.inr (fun e' he' => h2 (.edge e') ?_)
          have := (hm (.edge e')).2 ⟨e', rfl, he'⟩
          rw [List.mem_singleton] at this
          rw [this, h5.1, h4]
          simp

/-- C50: the only way to fail is a reflex vertex outside all LAVs -/
theorem C50_attribute_error {S : Type} [Scalar S] (st : St S) (id : Nat) (v : Vtx S)
    (hv : st.vs[id]? = some v) (hr : v.reflex = true) (hl : v.lav = none) :
    nextEvent st id = .error .attribute := by
  unfold nextEvent splitsOf
  rw [getV_ok.2 hv, ok_bind, if_pos hr, hl]
  rfl

end Polyskel
