import Mathlib.Tactic.IntervalCases
import Verif.Proofs.Gone
import Verif.Props.Geometry
import Verif.Props.SharedEdges
import Verif.Spec.Samples
import Verif.Spec.Runtime
/-
C65: straight corners.  A corner between two edges of the same direction has the zero vector as its
bisector (bpypolyskel.py:116-120), which meets no other line.
-/
namespace Polyskel
open Scalar

/-- the event is about the vertex -/
def Concerns {S : Type} (ev : Event S) (i : Nat) : Prop :=
  match ev with
  | .edge e => e.a = i ∨ e.b = i
  | .split e => e.vertex = i
  | .dormer _ _ e0 e1 e2 => e0.vertex = i ∨ e1.vertex = i ∨ e2.a = i ∨ e2.b = i

section
variable {S : Type} [Scalar S]

theorem RunInv.batchMoments {I : St S → List (Subtree S) → List (Event S) → Prop} (hI : RunInv I)
    {batch : List (Event S)} {lp : Loop S} (h : I lp.st lp.out (batch ++ lp.queue)) :
    ∀ p ∈ Polyskel.batchMoments lp batch, ∃ out evs, p.2 ∈ evs ∧ I p.1 out evs := by
  induction batch generalizing lp with
  | nil => simp [Polyskel.batchMoments]
  | cons e es ih =>
    intro p hp
    unfold Polyskel.batchMoments at hp
    rcases List.mem_cons.1 hp with rfl | hp
    · exact ⟨_, _, by simp, h⟩
    · cases h1 : stepEvent lp e with
      | error err => rw [h1] at hp; simp at hp
      | ok lp1 =>
        rw [h1] at hp
        refine ih ?_ p hp
        unfold stepEvent at h1
        obtain ⟨r, hr1, h1⟩ := bind_ok.1 h1
        cases r with
        | none =>
          simp only [pure_ok, Except.ok.injEq] at h1
          subst h1
          exact hI.mono _ _ _ _ (fun x hx => by simpa using Or.inr (by simpa using hx)) h
        | some r =>
          obtain ⟨st', arcs, evs⟩ := r
          simp only [pure_ok, Except.ok.injEq] at h1
          subst h1
          have h2 := hI.step _ _ _ e _ _ _ h (by simp) hr1
          refine hI.mono _ _ _ _ (fun x hx => ?_) h2
          simp only [List.mem_append, (C08_putAll_perm lp.queue evs).mem_iff] at hx
          simp only [List.mem_append, List.mem_cons]
          tauto

/-- what every event preserves holds at every moment of the run -/
theorem RunInv.moments {I : St S → List (Subtree S) → List (Event S) → Prop} (hI : RunInv I)
    {k : Nat} {lp : Loop S} (h : I lp.st lp.out lp.queue) :
    ∀ p ∈ Polyskel.moments k lp, ∃ out evs, p.2 ∈ evs ∧ I p.1 out evs := by
  induction k generalizing lp with
  | zero => simp [Polyskel.moments]
  | succ k ih =>
    intro p hp
    unfold Polyskel.moments at hp
    split at hp
    · simp at hp
    · split at hp
      · simp at hp
      · rename_i batch q hg
        have h' : I lp.st lp.out (batch ++ q) := by
          refine hI.mono _ _ _ _ (fun x hx => ?_) h
          exact ((C09_getAllEqualDistance_perm lp.queue).2 _ _ hg).1.mem_iff.1 hx
        rcases List.mem_append.1 hp with hp | hp
        · exact hI.batchMoments (lp := { lp with queue := q }) h' p hp
        · split at hp
          · rename_i lp1 hb
            exact ih (hI.stepBatch hb h') p hp
          · simp at hp

end

theorem intersect_zero {A B : Lin ℝ} {p : V2 ℝ} (h : A.intersect B = some p) :
    A.v ≠ ⟨0, 0⟩ ∧ B.v ≠ ⟨0, 0⟩ := by
  unfold Lin.intersect at h
  constructor <;> intro h0 <;> rw [h0] at h <;> simp at h

theorem splitCandidate_bisector {id : Nat} {v : Vtx ℝ} {oe : OrigEdge ℝ} {e : SplitEv ℝ}
    (h : splitCandidate id v oe = some e) : v.bisector.v ≠ ⟨0, 0⟩ := by
  intro h0
  have hno : ∀ A : Lin ℝ, A.intersect v.bisector = none := by
    intro A
    by_contra hA
    obtain ⟨p, hp⟩ := Option.ne_none_iff_exists'.1 hA
    exact (intersect_zero hp).2 h0
  unfold splitCandidate at h
  simp only [hno] at h
  repeat' split at h
  all_goals cases h

/-- a vertex without bisector is in no proposed event -/
theorem Proposed.bisector {st : St ℝ} {e : Event ℝ} (h : Proposed st e) {i : Nat} {v : Vtx ℝ}
    (hv : st.vs[i]? = some v) (hz : v.bisector.v = ⟨0, 0⟩) : ¬ Concerns e i := by
  obtain ⟨st0, id, h, hf⟩ := h
  obtain ⟨w, p, n, hw, hp, hn, h⟩ := nextEvent_mem h
  have key : ∀ {j : Nat} {u : Vtx ℝ}, st0.vs[j]? = some u → u.bisector.v ≠ ⟨0, 0⟩ → j ≠ i := by
    rintro j u hu hne rfl
    obtain ⟨u', hu', hc, -⟩ := hf.keep j u hu
    rw [hv] at hu'
    cases hu'
    have : v.bisector = u.bisector := congrArg Core.bisector hc
    rw [this] at hz
    exact hne hz
  rcases h with h | ⟨e', rfl, -, -, oe, -, h⟩
  · rcases mem_edgesOf h with ⟨_, hi, rfl⟩ | ⟨_, hi, rfl⟩
    · have := intersect_zero hi
      rintro (h' | h')
      · exact key hp this.2 h'
      · exact key hw this.1 h'
    · have := intersect_zero hi
      rintro (h' | h')
      · exact key hw this.1 h'
      · exact key hn this.2 h'
  · show ¬ e'.vertex = i
    rw [(splitCandidate_some h).1]
    exact key hw (splitCandidate_bisector h)

theorem Pending.bisector {st : St ℝ} {e : Event ℝ} (h : Pending st e) {i : Nat} {v : Vtx ℝ}
    (hv : st.vs[i]? = some v) (hz : v.bisector.v = ⟨0, 0⟩) : ¬ Concerns e i := by
  cases e with
  | edge e => exact Proposed.bisector h hv hz
  | split e => exact Proposed.bisector h hv hz
  | dormer d p e0 e1 e2 =>
    rintro (h' | h' | h')
    · exact h.1.bisector hv hz h'
    · exact h.2.1.bisector hv hz h'
    · exact h.2.2.bisector hv hz h'

/-- the corner number `i` of the contour number `j` in the first wavefront -/
theorem start_corner {cs : List (List (Edge2 ℝ))} {lp : Loop ℝ} (h3 : ∀ c ∈ cs, 3 ≤ c.length)
    (hs : startLoop cs = .ok lp) {j i : Nat} {c : List (Edge2 ℝ)} {e f : Edge2 ℝ} (hc : cs[j]? = some c)
    (he : c[(i + c.length - 1) % c.length]? = some e) (hf : c[i]? = some f) :
    ∃ v, lp.st.vs[((cs.take j).map List.length).sum + i]? = some v ∧
      v.core = (mkVtx 0 f.p1 e f none false).core := by
  obtain ⟨st, R, h1, hL, hsl, hlen, hlav, -⟩ := mkSlav_loops h3
  rw [(startLoop_ok hs).1] at h1
  simp only [Except.ok.injEq] at h1
  subst h1
  obtain ⟨-, -, hco⟩ := hlav j c hc
  have hi := (List.getElem?_eq_some_iff.1 hf).1
  have hc3 := h3 c (List.mem_of_getElem? hc)
  have := hco i hi
  have hcp : (cornerPairs c)[i]? = some (e, f) := by
    unfold cornerPairs
    rw [List.getElem?_zip_eq_some]
    refine ⟨?_, hf⟩
    show (c.drop (c.length - 1) ++ c.take (c.length - 1))[i]? = some e
    by_cases h0 : i = 0
    · subst h0
      rw [Nat.mod_eq_of_lt (by omega)] at he
      rw [List.getElem?_append_left (by simp; omega), List.getElem?_drop]
      simpa using he
    · rw [show i + c.length - 1 = i - 1 + c.length by omega, Nat.add_mod_right,
        Nat.mod_eq_of_lt (by omega)] at he
      rw [List.getElem?_append_right (by simp; omega), List.getElem?_take_of_lt (by simp; omega)]
      simp only [List.length_drop]
      rw [show i - (c.length - (c.length - 1)) = i - 1 by omega]
      exact he
  rw [hcp] at this
  simp only [St.co, Option.map_some] at this
  rw [Option.map_eq_some_iff] at this
  obtain ⟨v, hv, hvc⟩ := this
  exact ⟨v, hv, hvc.trans (mkVtx_core _ _ _ _ _ _ _)⟩

/-- C65: no event of a run is about a straight corner: whatever polygon with holes is given, if the
edges before and after a corner have the same direction, then no edge event, split event or dormer
event that the main loop takes from the queue has this corner as one of its vertices.  (The corner can
therefore only leave the wavefront as a bystander, when its whole loop ends.) -/
theorem C65_no_event (cs : List (List (Edge2 ℝ))) (h3 : ∀ c ∈ cs, 3 ≤ c.length) (lp : Loop ℝ)
    (hs : startLoop cs = .ok lp) (j i : Nat) (c : List (Edge2 ℝ)) (e f : Edge2 ℝ) (hc : cs[j]? = some c)
    (he : c[(i + c.length - 1) % c.length]? = some e) (hf : c[i]? = some f) (hn : e.norm = f.norm)
    (k : Nat) : ∀ p ∈ moments k lp, ¬ Concerns p.2 (((cs.take j).map List.length).sum + i) := by
  obtain ⟨v, hv, hvc⟩ := start_corner h3 hs hc he hf
  have hz : v.bisector.v = ⟨0, 0⟩ := by
    have : v.bisector = (mkVtx 0 f.p1 e f none false).bisector := congrArg Core.bisector hvc
    rw [this, mkVtx, hn]
    simp [Ray2, V2.smul, V2.add]
  have hI : RunInv (fun (st : St ℝ) (_ : List (Subtree ℝ)) evs => (∀ x ∈ evs, Pending st x) ∧
      ∃ v, st.vs[((cs.take j).map List.length).sum + i]? = some v ∧ v.bisector.v = ⟨0, 0⟩) := by
    refine ⟨fun _ _ _ _ hsub h => ⟨fun x hx => h.1 x (hsub x hx), h.2⟩, ?_⟩
    intro st out evs ev st' arcs es h hev hr
    refine ⟨pending_runInv.step st out evs ev st' arcs es h.1 hev hr, ?_⟩
    obtain ⟨v, hv, hz⟩ := h.2
    obtain ⟨v', hv', hc', -⟩ := (handleEvent_frame hr).keep _ v hv
    have : v'.bisector = v.bisector := congrArg Core.bisector hc'
    exact ⟨v', hv', by rw [this]; exact hz⟩
  intro p hp
  obtain ⟨out, evs, hm, h1, w, hw, hwz⟩ := hI.moments ⟨startLoop_pending hs, v, hv, hz⟩ p hp
  exact (h1 _ hm).bisector hw hwz

/-- the same rectangle over the reals -/
def midSides : List (Edge2 ℝ) :=
  [{ oid := 0, i1 := 0, i2 := 1, p1 := ⟨0, 0⟩, p2 := ⟨4, 0⟩, norm := ⟨1, 0⟩ },
   { oid := 1, i1 := 1, i2 := 2, p1 := ⟨4, 0⟩, p2 := ⟨8, 0⟩, norm := ⟨1, 0⟩ },
   { oid := 2, i1 := 2, i2 := 3, p1 := ⟨8, 0⟩, p2 := ⟨8, 4⟩, norm := ⟨0, 1⟩ },
   { oid := 3, i1 := 3, i2 := 4, p1 := ⟨8, 4⟩, p2 := ⟨0, 4⟩, norm := ⟨-1, 0⟩ },
   { oid := 4, i1 := 4, i2 := 0, p1 := ⟨0, 4⟩, p2 := ⟨0, 0⟩, norm := ⟨0, -1⟩ }]

/-- the hypotheses of C65_no_event are met by the corner 1 of a rectangle with an additional point -/
example : ∃ lp, startLoop [midSides] = .ok lp ∧ ∀ k, ∀ p ∈ moments k lp, ¬ Concerns p.2 1 := by
  have h3 : ∀ c ∈ [midSides], 3 ≤ c.length := by simp [midSides]
  have hd : detectDormers [midSides] = .ok [] := by
    obtain ⟨cands, -, hm, he, -⟩ := C36_detectDormers midSides [] (by simp [midSides])
    apply he
    left
    cases cands with
    | nil => rfl
    | cons s cands =>
      exfalso
      obtain ⟨hs, hd, -⟩ := (hm s).1 (by simp)
      obtain ⟨x, hx, -, hx2⟩ := hd.1
      simp only [ex_lt, ex_neg, ex_lit] at hx2
      simp only [midSides, List.length_cons, List.length_nil] at hs
      interval_cases s <;> simp [cornerCross, midSides, V2.cross] at hx <;> rw [← hx] at hx2 <;>
        norm_num at hx2
  obtain ⟨lp, hlp⟩ := C53_start [midSides] h3 hd
  exact ⟨lp, hlp, fun k => C65_no_event [midSides] h3 lp hlp 0 1 midSides _ _ rfl rfl rfl rfl k⟩

/-- a rectangle of 8 by 4 with an additional point in the middle of a long side -/
def midRect : List (Int × Int) := [(0, 0), (4, 0), (8, 0), (8, 4), (0, 4)]

/-- C65, what this does to a roof: the rectangle without the additional point has four faces.  With it,
the ridge is not found; instead of five faces there are three, one of which spans three sides. -/
theorem C65_refuted :
    (polygonize rt0 60 (simpleCall [(0, 0), (8, 0), (8, 4), (0, 4)] 1 1)).map (·.result) =
      some (.ok [[3, 0, 4], [2, 3, 4, 5], [0, 1, 5, 4], [1, 2, 5]]) ∧
    (polygonize rt0 60 (simpleCall midRect 1 1)).map (·.result) =
      some (.ok [[4, 0, 5], [3, 4, 5, 0, 1, 2, 6], [2, 3, 6]]) := by
  constructor <;> decide +kernel

end Polyskel
