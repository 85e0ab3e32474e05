import Verif.Spec.Planes
import Verif.Proofs.Shared
import Verif.Proofs.LoopInv
import Verif.Props.Equidistant
/-
The invariant behind C71: in exact arithmetic every vertex of the wavefront stays in the planes of its
two edges.
-/
namespace Polyskel
open Scalar Geo

theorem planeHeight_eq (e : Edge2 ℝ) (q : V2 ℝ) : planeHeight e q = hgt e q := by
  simp only [planeHeight, hgt, height]

theorem edgeTurn_eq (e f : Edge2 ℝ) : edgeTurn e f = cr e.norm f.norm := rfl

theorem Contours.proper {cs : List (List (Edge2 ℝ))} (h : Contours cs) {e : Edge2 ℝ}
    (he : e ∈ cs.flatten) : Proper e := by
  obtain ⟨r, hr, hx, hy⟩ := h.along e he
  refine ⟨h.unit e he, r, hr, ?_⟩
  obtain ⟨_, _, _, p1, ⟨x, y⟩, n⟩ := e
  simp only [Geo.along, V2.mk.injEq] at *
  constructor <;> linarith

/-- what is needed of a reflex corner for its split events -/
structure Clear (cs : List (List (Edge2 ℝ))) (v : Vtx ℝ) : Prop where
  corner : ReflexCorner v
  angle : 1 / 100000 ≤ |cr v.edgePrev.norm v.edgeNext.norm + 1|
  far : ∀ o ∈ cs.flatten, ∀ q, hgt o q = 0 → (hgt v.edgePrev q = 0 ∨ hgt v.edgeNext q = 0) →
    q ≠ v.point → 1 / 10 ^ 35 < (q.x - v.point.x) ^ 2 + (q.y - v.point.y) ^ 2

/-- the vertex lies in the planes of its two edges, and they do not fall along its bisector -/
structure Rising (cs : List (List (Edge2 ℝ))) (v : Vtx ℝ) : Prop where
  bis : Bisecting v
  ray : v.bisector.ray = true
  up : 0 ≤ cr v.edgePrev.norm v.bisector.v
  base : 0 ≤ hgt v.edgePrev v.point
  clear : v.reflex = true → Clear cs v

theorem Rising.congr {cs : List (List (Edge2 ℝ))} {v w : Vtx ℝ} (h : v.core = w.core)
    (hw : Rising cs w) : Rising cs v := by
  have h1 : v.point = w.point := congrArg Core.point h
  have h2 : v.edgePrev = w.edgePrev := congrArg Core.edgePrev h
  have h3 : v.edgeNext = w.edgeNext := congrArg Core.edgeNext h
  have h4 : v.bisector = w.bisector := congrArg Core.bisector h
  have h5 : v.reflex = w.reflex := congrArg Core.reflex h
  refine ⟨hw.bis.congr h, by rw [h4]; exact hw.ray, by rw [h2, h4]; exact hw.up,
    by rw [h1, h2]; exact hw.base, fun hr => ?_⟩
  obtain ⟨⟨c1, c2, c3, c4, c5, c6, c7, c8⟩, c9, c10⟩ := hw.clear (by rw [← h5]; exact hr)
  exact ⟨⟨by rw [h2]; exact c1, by rw [h3]; exact c2, by rw [h1, h2]; exact c3,
    by rw [h1, h3]; exact c4, by rw [h2, h3]; exact c5, by rw [h1, h4]; exact c6,
    by rw [h2, h3, h4]; exact c7, by rw [h4]; exact c8⟩, by rw [h2, h3]; exact c9,
    by rw [h1, h2, h3]; exact c10⟩

/-- points on the bisector are not below the edges -/
theorem Rising.on {cs : List (List (Edge2 ℝ))} {v : Vtx ℝ} (hv : Rising cs v) {q : V2 ℝ}
    (hq : OnLin v.bisector q) : 0 ≤ hgt v.edgePrev q := by
  obtain ⟨t, ht, rfl⟩ := hq
  have := mul_nonneg (ht hv.ray) hv.up
  have hb := hv.base
  rw [hv.bis.start]
  unfold hgt at *
  rw [height_along]
  linarith

/-- a vertex made at a point of equal height over two edges that do not turn right -/
theorem mkVtx_rising {cs : List (List (Edge2 ℝ))} (id : Nat) (q : V2 ℝ) (e f : Edge2 ℝ)
    (dirs : Option (V2 ℝ × V2 ℝ)) (b : Bool) (h : hgt e q = hgt f q) (h0 : 0 ≤ hgt e q)
    (hr : (mkVtx id q e f dirs b).reflex = false) (ht : 0 ≤ cr e.norm f.norm) :
    Rising cs (mkVtx id q e f dirs b) := by
  refine ⟨mkVtx_bisecting id q e f dirs b h, rfl, ?_, h0, fun h' => by rw [hr] at h'; cases h'⟩
  have hb : (mkVtx id q e f dirs b).bisector.v =
      V2.smul (V2.add (V2.smul e.norm (lit (-1) 1)) f.norm)
        (if (mkVtx id q e f dirs b).reflex then lit (-1) 1 else lit 1 1) := rfl
  rw [hb, hr]
  show 0 ≤ cr e.norm _
  simp [V2.smul, V2.add, cr] at *
  linarith

/-- the vertex stands over a corner between its edges, or where a node has been recorded -/
def Spot (out : List (Subtree ℝ)) (v : Vtx ℝ) : Prop :=
  (v.edgePrev.p2 = v.point ∧ v.edgeNext.p1 = v.point) ∨
    ∃ b ∈ out, b.source = v.point ∧ b.height = hgt v.edgePrev v.point

theorem Spot.congr {out : List (Subtree ℝ)} {v w : Vtx ℝ} (h : v.core = w.core)
    (hw : Spot out w) : Spot out v := by
  have h1 : v.point = w.point := congrArg Core.point h
  have h2 : v.edgePrev = w.edgePrev := congrArg Core.edgePrev h
  have h3 : v.edgeNext = w.edgeNext := congrArg Core.edgeNext h
  unfold Spot
  rw [h1, h2, h3]
  exact hw

theorem Spot.more {out out' : List (Subtree ℝ)} (hs : ∀ b ∈ out, b ∈ out') {v : Vtx ℝ}
    (h : Spot out v) : Spot out' v := by
  rcases h with h | ⟨b, hb, h⟩
  · exact Or.inl h
  · exact Or.inr ⟨b, hs b hb, h⟩

theorem Ridge.more {cs : List (List (Edge2 ℝ))} {out out' : List (Subtree ℝ)}
    (hs : ∀ b ∈ out, b ∈ out') {a : Subtree ℝ} {s : V2 ℝ} (h : Ridge cs out a s) :
    Ridge cs out' a s := by
  obtain ⟨e, he, f, hf, h1, h2, h3, h4, h5⟩ := h
  refine ⟨e, he, f, hf, h1, h2, h3, h4, ?_⟩
  rcases h5 with h | ⟨b, hb, h⟩
  · exact Or.inl h
  · exact Or.inr ⟨b, hs b hb, h⟩

/-- the connection from a vertex to a node in the planes of its edges -/
theorem ridge_of_vertex {cs : List (List (Edge2 ℝ))} {out : List (Subtree ℝ)} {a : Subtree ℝ}
    {v : Vtx ℝ} (hv : Rising cs v) (hs : Spot out v) (h1 : v.edgePrev ∈ cs.flatten)
    (h2 : v.edgeNext ∈ cs.flatten) (hn : v.edgePrev.norm ≠ v.edgeNext.norm)
    (h3 : hgt v.edgePrev a.source = a.height) (h4 : hgt v.edgeNext a.source = a.height) :
    Ridge cs out a v.point := by
  refine ⟨_, h1, _, h2, hn, ?_, ?_, ?_, ?_⟩
  · rw [planeHeight_eq, h3]
  · rw [planeHeight_eq, h4]
  · rw [planeHeight_eq, planeHeight_eq, hv.bis.equal]
  · rw [planeHeight_eq]; exact hs

/-- the heap and the nodes found so far -/
structure Planar (cs : List (List (Edge2 ℝ))) (st : St ℝ) (out : List (Subtree ℝ)) : Prop where
  vs : ∀ (i : Nat) (v : Vtx ℝ), st.vs[i]? = some v → Rising cs v ∧ Spot out v
  arcs : ∀ a ∈ out, ∀ s ∈ a.sinks, Ridge cs out a s

theorem Planar.step {cs : List (List (Edge2 ℝ))} {st st' : St ℝ} {out : List (Subtree ℝ)}
    {a : Subtree ℝ} (h : Planar cs st out) {N : Core ℝ → Prop} (hf : Frame N st st')
    (hN : ∀ (i : Nat) (v : Vtx ℝ), st'.vs[i]? = some v → st.vs[i]? = none → Rising cs v ∧
      v.point = a.source ∧ hgt v.edgePrev a.source = a.height)
    (ha : ∀ s ∈ a.sinks, Ridge cs out a s) : Planar cs st' (out ++ [a]) := by
  have hm : ∀ b ∈ out, b ∈ out ++ [a] := fun b hb => by simp [hb]
  refine ⟨fun i v' hv' => ?_, fun b hb s hs => ?_⟩
  · cases hv : st.vs[i]? with
    | none =>
      obtain ⟨h1, h2, h3⟩ := hN i v' hv' hv
      exact ⟨h1, Or.inr ⟨a, by simp, h2.symm, by rw [h2, h3]⟩⟩
    | some v =>
      obtain ⟨v'', h1, h2, -⟩ := hf.keep i v hv
      rw [hv'] at h1; cases h1
      obtain ⟨h3, h4⟩ := h.vs i v hv
      exact ⟨h3.congr h2, (h4.congr h2).more hm⟩
  · rcases List.mem_append.1 hb with hb | hb
    · exact (h.arcs b hb s hs).more hm
    · rw [List.mem_singleton] at hb
      subst hb
      exact (ha s hs).more hm

/-! ### edge events -/

/-- a pending edge event -/
theorem pending_edge {st : St ℝ} {e : EdgeEv ℝ} (h : Pending st (.edge e)) {va vb : Vtx ℝ}
    (hva : st.vs[e.a]? = some va) (hvb : st.vs[e.b]? = some vb) :
    ¬ Parallel va.bisector.v vb.bisector.v ∧ OnLin va.bisector e.pt ∧ OnLin vb.bisector e.pt ∧
    (e.dist = (Line2.ofEdge va.edgeNext).distance e.pt ∨
      e.dist = (Line2.ofEdge vb.edgePrev).distance e.pt) := by
  obtain ⟨st0, id, h, hf⟩ := h
  obtain ⟨v, p, n, hv, hp, hn, h | ⟨_, h, -⟩⟩ := nextEvent_mem h
  · have hcore : ∀ {i : Nat} {w w' : Vtx ℝ}, st0.vs[i]? = some w → st.vs[i]? = some w' →
        w.bisector = w'.bisector ∧ w.edgeNext = w'.edgeNext ∧ w.edgePrev = w'.edgePrev := by
      intro i w w' hw hw'
      obtain ⟨w'', h1, h2, -⟩ := hf.keep i w hw
      rw [hw'] at h1; cases h1
      exact ⟨(congrArg Core.bisector h2).symm, (congrArg Core.edgeNext h2).symm,
        (congrArg Core.edgePrev h2).symm⟩
    rcases mem_edgesOf h with ⟨i, hi, he⟩ | ⟨i, hi, he⟩
    · cases he
      obtain ⟨i1, i2, i3⟩ := (C01_intersect_iff _ _ _).1 hi
      obtain ⟨c1, c2, c3⟩ := hcore hv hvb
      obtain ⟨d1, d2, d3⟩ := hcore hp hva
      rw [c1] at i1 i2; rw [d1] at i1 i3; rw [c3]
      exact ⟨fun h => i1 (by unfold Parallel at *; linarith), i3, i2, Or.inr rfl⟩
    · cases he
      obtain ⟨i1, i2, i3⟩ := (C01_intersect_iff _ _ _).1 hi
      obtain ⟨c1, c2, c3⟩ := hcore hv hva
      obtain ⟨d1, d2, d3⟩ := hcore hn hvb
      rw [c1] at i1 i2; rw [d1] at i1 i3; rw [c2]
      exact ⟨i1, i2, i3, Or.inl rfl⟩
  · cases h

/-- the vertices of a ring of three -/
theorem ring_of_three {st : St ℝ} {R : Nat → List Nat} (h : Loops st R) {l a b : Nat}
    {va vb : Vtx ℝ} (hl : l ∈ st.slav) (ha : a ∈ R l) (hab : st.nx a = some b)
    (hva : st.vs[a]? = some va) (hvb : st.vs[b]? = some vb) (h3 : (R l).length = 3) :
    ∀ i ∈ R l, i = a ∨ i = b ∨ i = vb.next := by
  obtain ⟨P, hP, hlk, hs, hperm, hd⟩ := h.pair hl ha hab
  intro i hi
  rw [← hperm.mem_iff] at hi
  have hlen : P.length = 1 := by
    have := hperm.length_eq
    simp at this; omega
  obtain ⟨c, rfl⟩ := List.length_eq_one_iff.1 hlen
  have h1 := (link_iff.1 (seg_cons.1 hs).1).1
  rw [(vs_fields hvb).1] at h1
  simp only [Option.some.injEq] at h1
  subst h1
  simpa using hi

theorem handleEdge_planar {cs : List (List (Edge2 ℝ))} (hcs : Contours cs) {st st' : St ℝ}
    {out : List (Subtree ℝ)} {evs : List (Event ℝ)} (hj : Joined cs.flatten st evs)
    (hp : Planar cs st out) {e : EdgeEv ℝ} (hpe : Pending st (.edge e)) {va vb : Vtx ℝ}
    (hva : st.vs[e.a]? = some va) (hvb : st.vs[e.b]? = some vb) (h1 : va.valid = true)
    (h2 : vb.valid = true)
    (hlk : Link st e.a e.b) {arcs : List (Subtree ℝ)} {es : List (Event ℝ)}
    (he : handleEdge st e = .ok (st', arcs, es))
    (hc : ∀ (i : Nat) (v : Vtx ℝ), st'.vs[i]? = some v → st.vs[i]? = none → v.reflex = false ∧
      0 ≤ cr v.edgePrev.norm v.edgeNext.norm) : Planar cs st' (out ++ arcs) := by
  obtain ⟨R, hL⟩ := hj.sound.1
  have hnext : va.next = e.b := by
    have := (link_iff.1 hlk).1
    rw [(vs_fields hva).1] at this
    simpa using this
  have hsh : va.edgeNext = vb.edgePrev := hj.shared e.a va vb hva h1 (by rw [hnext]; exact hvb)
  obtain ⟨hpar, ona, onb, hdist⟩ := pending_edge hpe hva hvb
  obtain ⟨ra, sa⟩ := hp.vs _ _ hva
  obtain ⟨rb, sb⟩ := hp.vs _ _ hvb
  obtain ⟨ea1, ea2⟩ := hj.edges.1 _ _ hva
  obtain ⟨eb1, eb2⟩ := hj.edges.1 _ _ hvb
  have ha := ra.bis.on ona
  have hb := rb.bis.on onb
  have hpos := ra.on ona
  have hd : e.dist = hgt va.edgeNext e.pt := by
    have : e.dist = |hgt va.edgeNext e.pt| := by
      rcases hdist with h | h
      · rw [h, distance_hgt (hcs.proper ea2)]
      · rw [h, distance_hgt (hcs.proper eb1), hsh]
    rw [this, abs_of_nonneg (by rw [← ha]; exact hpos)]
  have na : va.edgePrev.norm ≠ va.edgeNext.norm := by
    intro h
    obtain ⟨k, hk⟩ := ra.bis.dir
    apply hpar
    rw [hk, h]; simp [Parallel]
  have nb : vb.edgePrev.norm ≠ vb.edgeNext.norm := by
    intro h
    obtain ⟨k, hk⟩ := rb.bis.dir
    apply hpar
    rw [hk, h]; simp [Parallel]
  have nc : vb.edgeNext.norm ≠ va.edgePrev.norm := by
    intro h
    obtain ⟨k, hk⟩ := ra.bis.dir
    obtain ⟨k', hk'⟩ := rb.bis.dir
    apply hpar
    rw [hk, hk', h, hsh]; simp only [Parallel]; ring
  obtain ⟨va', vb', sinks, q1, q2, rfl, hcase⟩ := C47_edge he
  rw [hva] at q1; rw [hvb] at q2
  cases q1; cases q2
  refine hp.step (handleEdge_frame (N := fun c => c = unifyCore va vb e.pt) he ?_) ?_ ?_
  · intro va' vb' hva' hvb' _
    rw [hva] at hva'; rw [hvb] at hvb'
    cases hva'; cases hvb'; rfl
  · intro i w hw hn
    have hf := handleEdge_frame (N := fun c => c = unifyCore va vb e.pt) he (by
      intro va' vb' hva' hvb' _
      rw [hva] at hva'; rw [hvb] at hvb'
      cases hva'; cases hvb'; rfl)
    have hcore := hf.fresh i w hw hn
    have e1 : w.edgePrev = va.edgePrev := congrArg Core.edgePrev hcore
    have e2 : w.edgeNext = vb.edgeNext := congrArg Core.edgeNext hcore
    have e3 : w.reflex = (mkVtx 0 e.pt va.edgePrev vb.edgeNext
        (some (V2.normalized vb.bisector.v, V2.normalized va.bisector.v)) false).reflex :=
      congrArg Core.reflex hcore
    obtain ⟨c1, c2⟩ := hc i w hw hn
    refine ⟨Rising.congr (w := mkVtx 0 e.pt va.edgePrev vb.edgeNext
        (some (V2.normalized vb.bisector.v, V2.normalized va.bisector.v)) false) hcore
        (mkVtx_rising _ _ _ _ _ _ ?_ hpos (by rw [← e3]; exact c1) (by rw [← e1, ← e2]; exact c2)),
        congrArg Core.point hcore, ?_⟩
    · rw [ha, hsh, hb]
    · rw [e1]; simp only; rw [ha, hd]
  · have ridgeA : Ridge cs out { source := e.pt, height := e.dist, sinks } va.point :=
      ridge_of_vertex ra sa ea1 ea2 na (by simp only; rw [ha, hd]) hd.symm
    have ridgeB : Ridge cs out { source := e.pt, height := e.dist, sinks } vb.point :=
      ridge_of_vertex rb sb eb1 eb2 nb (by simp only; rw [← hsh, hd])
        (by simp only; rw [← hb, ← hsh, hd])
    rcases hcase with ⟨-, rfl, -⟩ | ⟨hpk, -, l, o, vs, hlav, hl, -, ho, hring, hfor, -⟩
    · intro s hs
      simp only [List.mem_cons, List.not_mem_nil, or_false] at hs
      rcases hs with rfl | rfl
      · exact ridgeA
      · exact ridgeB
    · have hm : e.a ∈ R l := (hL.mem l hl _).2 (by rw [(vs_fields hva).2.2.1, hlav])
      obtain ⟨-, -, -, -, h3, -⟩ := handleEdge_peak hL hl hm (link_iff.1 hlk).1 hva hvb hpk
      intro s hs
      obtain ⟨i, hi, w, hw, rfl⟩ := forall₂_mem_right hfor hs
      have hiR : i ∈ R l := by
        obtain ⟨vs', hvs', hperm, -⟩ := hL.listLav hl
        obtain ⟨o', ho', hr'⟩ := listLav_ok.1 hvs'
        have : listLav st l = .ok vs := listLav_ok.2 ⟨o, ho, hring⟩
        rw [hvs'] at this
        cases this
        exact hperm.mem_iff.1 hi
      rcases ring_of_three hL hl hm (link_iff.1 hlk).1 hva hvb h3 i hiR with rfl | rfl | rfl
      · rw [hva] at hw; cases hw; exact ridgeA
      · rw [hvb] at hw; cases hw; exact ridgeB
      · have s1 : vb.edgeNext = w.edgePrev := hj.shared e.b vb w hvb h2 hw
        have hwv : w.valid = true := by
          have := (hL.valid vb.next).2 ⟨l, hl, (hL.mem l hl _).1 hiR⟩
          rw [(vs_fields hw).2.2.2.1] at this
          simpa using this
        have hwn : w.next = e.a := by
          have h4 := ((hL.closed l hl).pv_mem hm (vs_fields hva).2.1).2
          rw [hpk, (vs_fields hw).1] at h4
          simpa using h4
        have s2 : w.edgeNext = va.edgePrev := hj.shared vb.next w va hw hwv (by rw [hwn]; exact hva)
        obtain ⟨rw', sw⟩ := hp.vs _ _ hw
        obtain ⟨ew1, ew2⟩ := hj.edges.1 _ _ hw
        refine ridge_of_vertex rw' sw ew1 ew2 (by rw [← s1, s2]; exact nc) ?_ ?_
        · simp only; rw [← s1, ← hb, ← hsh, hd]
        · simp only; rw [s2, ha, hd]

/-! ### split events -/

/-- the opposite edge of a split event is not directed like one of the edges of the vertex -/
theorem split_norms {id : Nat} {v : Vtx ℝ} {oe : OrigEdge ℝ} {e : SplitEv ℝ}
    (hv : ReflexCorner v) (ho : Proper oe.edge) (h : splitCandidate id v oe = some e)
    (h1 : hgt v.edgePrev e.pt = e.dist) (h2 : hgt v.edgeNext e.pt = e.dist)
    (h3 : hgt e.opp e.pt = e.dist) :
    v.edgePrev.norm ≠ e.opp.norm ∧ v.edgeNext.norm ≠ e.opp.norm := by
  have hc := (splitCandidate_iff _ _ _ _).1 h
  obtain ⟨s, i, hs, hnp, hi1, hi2, happ, -, -, -⟩ := hc.point
  have hip : i ≠ v.point := by
    rintro rfl
    have h0 : eucl v.point v.point = 0 := by simp [eucl]
    have h1 : 0 ≤ max (mag v.point) (mag v.point) * (1 / 1000) :=
      mul_nonneg (le_max_of_le_left (Real.sqrt_nonneg _)) (by norm_num)
    linarith
  have hline : ∀ f : Edge2 ℝ, Proper f → (∃ t, i = along f.p1 (vec f.p1 f.p2) t) → hgt f i = 0 := by
    rintro f ⟨-, L, -, hL⟩ ⟨t, rfl⟩
    rw [hgt, height_along, hL]
    simp only [height, vec, cr, along]; ring
  have hio := hline oe.edge ho hi2
  rw [hc.opp] at h3 ⊢
  -- a point on both lines of the edges of the corner is the corner
  have key : hgt v.edgePrev i = 0 → hgt v.edgeNext i = 0 → False := by
    intro g1 g2
    apply hip
    have p1 := hv.onPrev
    have p2 := hv.onNext
    have ht := hv.turn
    obtain ⟨ix, iy⟩ := i
    rcases hpt : v.point with ⟨px, py⟩
    simp only [hgt, height, cr] at g1 g2 p1 p2 ht
    have a1 : v.edgePrev.norm.x * (iy - py) - v.edgePrev.norm.y * (ix - px) = 0 := by
      rw [hpt] at p1; simp only at p1; linarith
    have a2 : v.edgeNext.norm.x * (iy - py) - v.edgeNext.norm.y * (ix - px) = 0 := by
      rw [hpt] at p2; simp only at p2; linarith
    have hy : (v.edgePrev.norm.x * v.edgeNext.norm.y - v.edgePrev.norm.y * v.edgeNext.norm.x) *
        (iy - py) = 0 := by linear_combination v.edgeNext.norm.y * a1 - v.edgePrev.norm.y * a2
    have hx : (v.edgePrev.norm.x * v.edgeNext.norm.y - v.edgePrev.norm.y * v.edgeNext.norm.x) *
        (ix - px) = 0 := by linear_combination v.edgeNext.norm.x * a1 - v.edgePrev.norm.x * a2
    have e1 := (mul_eq_zero.1 hx).resolve_left (by linarith)
    have e2 := (mul_eq_zero.1 hy).resolve_left (by linarith)
    simp only [V2.mk.injEq]
    constructor <;> linarith
  have hpar : ∀ f : Edge2 ℝ, Proper f → f.norm = oe.edge.norm →
      Parallel (vec f.p1 f.p2) (vec oe.edge.p1 oe.edge.p2) := by
    rintro f ⟨-, L, -, hL⟩ hn
    obtain ⟨-, M, -, hM⟩ := ho
    simp only [Parallel, vec, hL, hM, along, hn]; ring
  have same : ∀ f : Edge2 ℝ, f.norm = oe.edge.norm → hgt f e.pt = e.dist → hgt f i = 0 := by
    intro f hn hf
    have : hgt f i - hgt f e.pt = hgt oe.edge i - hgt oe.edge e.pt := by
      simp only [hgt, height, hn]; ring
    rw [hf, h3, hio] at this
    linarith
  constructor
  · intro hn
    rcases hs with ⟨-, rfl⟩ | ⟨-, rfl⟩
    · exact hnp (hpar _ hv.prev hn)
    · exact key (same _ hn h1) (hline _ hv.next hi1)
  · intro hn
    rcases hs with ⟨-, rfl⟩ | ⟨-, rfl⟩
    · exact key (hline _ hv.prev hi1) (same _ hn h2)
    · exact hnp (hpar _ hv.next hn)

/-- a pending split event -/
theorem pending_split {cs : List (List (Edge2 ℝ))} (hcs : Contours cs) {st : St ℝ}
    {e : SplitEv ℝ} (h : Pending st (.split e)) (hE : EdgesIn cs.flatten st) {v : Vtx ℝ}
    (hv : st.vs[e.vertex]? = some v) (hr : Rising cs v) :
    e.opp ∈ cs.flatten ∧ 0 ≤ e.dist ∧ hgt v.edgePrev e.pt = e.dist ∧
    hgt v.edgeNext e.pt = e.dist ∧ hgt e.opp e.pt = e.dist ∧
    v.edgePrev.norm ≠ e.opp.norm ∧ v.edgeNext.norm ≠ e.opp.norm ∧
    v.edgePrev.norm ≠ v.edgeNext.norm := by
  obtain ⟨st0, id, h, hf⟩ := h
  obtain ⟨v0, p, n, hv0, hp, hn, h | ⟨e', he', hrx, -, oe, hoe, hsc⟩⟩ := nextEvent_mem h
  · rcases mem_edgesOf h with ⟨i, hi, he⟩ | ⟨i, hi, he⟩ <;> cases he
  · cases he'
    obtain ⟨hid, hopp, -⟩ := splitCandidate_some hsc
    subst hid
    obtain ⟨v', h1, h2, -⟩ := hf.keep _ _ hv0
    rw [hv] at h1; cases h1
    have hr0 : Rising cs v0 := hr.congr h2.symm
    have hcl := hr0.clear hrx
    have hmem := (hE.earlier hf).2 oe hoe
    obtain ⟨a1, a2, a3, a4, -⟩ := C29_split_partial hcl.corner (hcs.proper hmem) hcl.angle
      (fun q g1 g2 g3 => hcl.far _ hmem q g1 g2 g3) hsc
    obtain ⟨b1, b2⟩ := split_norms hcl.corner (hcs.proper hmem) hsc a2 a3 a4
    have g1 : v.edgePrev = v0.edgePrev := congrArg Core.edgePrev h2
    have g2 : v.edgeNext = v0.edgeNext := congrArg Core.edgeNext h2
    rw [g1, g2]
    refine ⟨by rw [hopp]; exact hmem, a1, a2, a3, a4, b1, b2, ?_⟩
    intro hn
    have := hcl.corner.turn
    rw [hn] at this
    simp [cr] at this
    linarith [mul_comm v0.edgeNext.norm.x v0.edgeNext.norm.y]

theorem handleSplit_planar {cs : List (List (Edge2 ℝ))} (hcs : Contours cs)
    (hE : DistinctEdges cs.flatten) {st st' : St ℝ}
    {out : List (Subtree ℝ)} {evs : List (Event ℝ)} (hj : Joined cs.flatten st evs)
    (hp : Planar cs st out) {e : SplitEv ℝ} (hpe : Pending st (.split e)) {v : Vtx ℝ}
    (hv : st.vs[e.vertex]? = some v) (h1 : v.valid = true)
    {arcs : List (Subtree ℝ)} {es : List (Event ℝ)}
    (he : handleSplit st e = .ok (st', arcs, es))
    (hc : ∀ (i : Nat) (v : Vtx ℝ), st'.vs[i]? = some v → st.vs[i]? = none → v.reflex = false ∧
      0 ≤ cr v.edgePrev.norm v.edgeNext.norm) : Planar cs st' (out ++ arcs) := by
  obtain ⟨R, hL⟩ := hj.sound.1
  obtain ⟨rv, sv⟩ := hp.vs _ _ hv
  obtain ⟨ev1, ev2⟩ := hj.edges.1 _ _ hv
  obtain ⟨ho, hd0, d1, d2, d3, n1, n2, n3⟩ := pending_split hcs hpe hj.edges hv rv
  have hframe := handleSplit_frame (N := fun c => ∃ b, c = splitCore v e b) he (by
    intro v' hv' b
    rw [hv] at hv'; cases hv'
    exact ⟨b, rfl⟩)
  obtain ⟨l, hl, -, hi⟩ := hL.lavOf hv h1
  have hnew : ∀ (i : Nat) (w : Vtx ℝ), st'.vs[i]? = some w → st.vs[i]? = none →
      Rising cs w ∧ w.point = e.pt ∧ hgt w.edgePrev e.pt = e.dist := by
    intro i w hw hn
    obtain ⟨b, hcore⟩ := hframe.fresh i w hw hn
    obtain ⟨-, c2⟩ := hc i w hw hn
    cases b with
    | true =>
      have e1 : w.edgePrev = v.edgePrev := congrArg Core.edgePrev hcore
      have e2 : w.edgeNext = e.opp := congrArg Core.edgeNext hcore
      refine ⟨Rising.congr (w := mkVtx 0 e.pt v.edgePrev e.opp none true) hcore
        (mkVtx_rising _ _ _ _ _ _ (by rw [d1, d3]) (by rw [d1]; exact hd0) rfl
          (by rw [← e1, ← e2]; exact c2)), congrArg Core.point hcore, by rw [e1, d1]⟩
    | false =>
      have e1 : w.edgePrev = e.opp := congrArg Core.edgePrev hcore
      have e2 : w.edgeNext = v.edgeNext := congrArg Core.edgeNext hcore
      refine ⟨Rising.congr (w := mkVtx 0 e.pt e.opp v.edgeNext none true) hcore
        (mkVtx_rising _ _ _ _ _ _ (by rw [d2, d3]) (by rw [d3]; exact hd0) rfl
          (by rw [← e1, ← e2]; exact c2)), congrArg Core.point hcore, by rw [e1, d3]⟩
  have ridgeV : ∀ sinks, Ridge cs out { source := e.pt, height := e.dist, sinks } v.point :=
    fun sinks => ridge_of_vertex rv sv ev1 ev2 n3 d1 d2
  unfold handleSplit at he
  obtain ⟨r, hr, he⟩ := bind_ok.1 he
  cases r with
  | none =>
    simp only [pure_ok, Except.ok.injEq, Prod.mk.injEq] at he
    obtain ⟨rfl, rfl, -⟩ := he
    simpa using hp
  | some xy =>
    obtain ⟨x, y⟩ := xy
    simp only at he
    obtain ⟨m, hm, hx, hy, hlk⟩ := hL.splitPair hr
    obtain ⟨hxi, hyi⟩ := splitPair_ne hL hj.shared hj.edges hE ho hpe hr
    obtain ⟨vx, vy, hvx, hvy, ox, oy⟩ := splitPair_opp hL hj.shared hj.edges hE ho hr
    have valid_of : ∀ {k : Nat} {w : Vtx ℝ} {l : Nat}, l ∈ st.slav → k ∈ R l →
        st.vs[k]? = some w → w.valid = true := by
      intro k w l hl hk hw
      have := (hL.valid k).2 ⟨l, hl, (hL.mem l hl _).1 hk⟩
      rw [(vs_fields hw).2.2.2.1] at this
      simpa using this
    by_cases hml : m = l
    · subst hml
      obtain ⟨P, Q, U, V, t, arcs', es', hsp, hperm, hseg, hPl, hQh, -, -, -, -, v', hv', -, -, -, -,
        sQ, sP, lQ, lP, harcs, -⟩ := splitAt_same hL hl hi hx hlk hxi hyi
      rw [hsp] at he
      simp only [Except.ok.injEq, Prod.mk.injEq] at he
      obtain ⟨rfl, rfl, -⟩ := he
      rw [hv] at hv'; cases hv'
      subst harcs
      refine hp.step hframe hnew ?_
      intro s hs
      rcases List.mem_cons.1 hs with rfl | hs
      · exact ridgeV _
      · rcases List.mem_append.1 hs with hs | hs
        · rcases lQ with ⟨-, rfl⟩ | ⟨q, c, rfl, hcq, rfl⟩
          · cases hs
          · -- the loop after the vertex `x` alone
            simp only [List.head?_cons, Option.some.injEq] at hQh
            subst hQh
            rw [(vs_fields hvx).2.2.2.2] at hcq
            cases hcq
            rw [List.mem_singleton] at hs
            subst hs
            have hxn : st.nx q = some e.vertex :=
              (link_iff.1 (seg_snoc.1 (by simpa using hseg)).2).1
            rw [(vs_fields hvx).1, Option.some.injEq] at hxn
            have s2 : vx.edgeNext = v.edgePrev :=
              hj.shared q vx v hvx (valid_of hm hx hvx) (by rw [hxn]; exact hv)
            obtain ⟨rx, sx⟩ := hp.vs _ _ hvx
            obtain ⟨ex1, ex2⟩ := hj.edges.1 _ _ hvx
            refine ridge_of_vertex rx sx ex1 ex2 (by rw [ox, s2]; exact n1.symm) ?_ ?_
            · rw [ox]; exact d3
            · rw [s2]; exact d1
        · rcases lP with ⟨-, rfl⟩ | ⟨q, c, rfl, hcq, rfl⟩
          · cases hs
          · -- the loop before the vertex `y` alone
            simp only [List.getLast?_singleton, Option.some.injEq] at hPl
            subst hPl
            rw [(vs_fields hvy).2.2.2.2] at hcq
            cases hcq
            rw [List.mem_singleton] at hs
            subst hs
            have hvn : st.nx e.vertex = some q :=
              (link_iff.1 (seg_cons.1 (by simpa using hseg)).1).1
            rw [(vs_fields hv).1, Option.some.injEq] at hvn
            have s1 : v.edgeNext = vy.edgePrev :=
              hj.shared e.vertex v vy hv h1 (by rw [hvn]; exact hvy)
            obtain ⟨ry, sy⟩ := hp.vs _ _ hvy
            obtain ⟨ey1, ey2⟩ := hj.edges.1 _ _ hvy
            refine ridge_of_vertex ry sy ey1 ey2 (by rw [oy, ← s1]; exact n2) ?_ ?_
            · rw [← s1]; exact d2
            · rw [oy]; exact d3
    · obtain ⟨T, Q, U, t, arcs', es', hsp, -, -, -, -, -, -, -, -, -, v', hv', -, -, -, -, harcs, -⟩ :=
        splitAt_other hL hl hi hm hml hx hlk
      rw [hsp] at he
      simp only [Except.ok.injEq, Prod.mk.injEq] at he
      obtain ⟨rfl, rfl, -⟩ := he
      rw [hv] at hv'; cases hv'
      subst harcs
      refine hp.step hframe hnew ?_
      intro s hs
      rw [List.mem_singleton] at hs
      subst hs
      exact ridgeV _

/-! ### whole runs -/

/-- the vertices that have been added to the first `n` are convex -/
def MadeConvex (n : Nat) (st : St ℝ) : Prop :=
  ∀ (i : Nat) (v : Vtx ℝ), st.vs[i]? = some v → n ≤ i → v.reflex = false ∧
    0 ≤ cr v.edgePrev.norm v.edgeNext.norm

theorem MadeConvex.earlier {n : Nat} {st st' : St ℝ} {N : Core ℝ → Prop} (hf : Frame N st st')
    (h : MadeConvex n st') : MadeConvex n st := by
  intro i v hv hi
  obtain ⟨v', h1, h2, -⟩ := hf.keep i v hv
  have := h i v' h1 hi
  rwa [show v'.reflex = v.reflex from congrArg Core.reflex h2,
    show v'.edgePrev = v.edgePrev from congrArg Core.edgePrev h2,
    show v'.edgeNext = v.edgeNext from congrArg Core.edgeNext h2] at this

theorem stepEvent_planar {cs : List (List (Edge2 ℝ))} (hcs : Contours cs)
    (hE : DistinctEdges cs.flatten) {n : Nat} {lp : Loop ℝ} {e : Event ℝ} {es : List (Event ℝ)}
    (hj : Joined cs.flatten lp.st (e :: es ++ lp.queue)) (hn : n ≤ lp.st.vs.length)
    (hp : MadeConvex n lp.st → Planar cs lp.st lp.out) (hap : Apt lp.st e) :
    ∃ lp', stepEvent lp e = .ok lp' ∧ Joined cs.flatten lp'.st (es ++ lp'.queue) ∧
      n ≤ lp'.st.vs.length ∧ (MadeConvex n lp'.st → Planar cs lp'.st lp'.out) := by
  obtain ⟨lp', hs, hj'⟩ := stepEvent_joined hE hj hap
  refine ⟨lp', hs, hj', ?_⟩
  have hmem : e ∈ e :: es ++ lp.queue := by simp
  have hpend := hj.sound.2 e hmem
  unfold stepEvent at hs
  obtain ⟨r, hr, hs⟩ := bind_ok.1 hs
  cases r with
  | none =>
    simp only [pure_ok, Except.ok.injEq] at hs
    subst hs
    exact ⟨hn, hp⟩
  | some r =>
    obtain ⟨st', arcs, evs⟩ := r
    simp only [pure_ok, Except.ok.injEq] at hs
    subst hs
    have hf := handleEvent_frame hr
    have hlen : lp.st.vs.length ≤ st'.vs.length := by
      by_contra hc
      obtain ⟨v, hv⟩ := getElem?_of_lt (show st'.vs.length < lp.st.vs.length by omega)
      obtain ⟨v', hv', -⟩ := hf.keep _ _ hv
      simp at hv'
    refine ⟨hn.trans hlen, fun hmc => ?_⟩
    have hpl := hp (hmc.earlier hf)
    have hc : ∀ (i : Nat) (v : Vtx ℝ), st'.vs[i]? = some v → lp.st.vs[i]? = none →
        v.reflex = false ∧ 0 ≤ cr v.edgePrev.norm v.edgeNext.norm := by
      intro i v hv hi
      exact hmc i v hv (hn.trans (List.getElem?_eq_none_iff.1 hi))
    rcases handleEvent_cases hr with ⟨e, va, vb, rfl, hva, hvb, h1, h2, he⟩ |
      ⟨e, v, rfl, hv, h1, he⟩ | ⟨d, p, e0, e1, e2, v0, v1, rfl, -⟩
    · exact handleEdge_planar hcs hj hpl hpend hva hvb h1 h2 (hap va vb hva hvb h1 h2) he hc
    · exact handleSplit_planar hcs hE hj hpl hpend hv h1 he hc
    · exact (hj.plain _ hmem).elim

theorem mainLoop_planar {cs : List (List (Edge2 ℝ))} (hcs : Contours cs)
    (hE : DistinctEdges cs.flatten) {n k : Nat} {lp lp' : Loop ℝ}
    (hj : Joined cs.flatten lp.st lp.queue) (hn : n ≤ lp.st.vs.length)
    (hp : MadeConvex n lp.st → Planar cs lp.st lp.out)
    (hA : ∀ a ∈ moments k lp, Apt a.1 a.2) (hm : mainLoop k lp = some (.ok lp')) :
    MadeConvex n lp'.st → Planar cs lp'.st lp'.out := by
  have hbatch : ∀ (es : List (Event ℝ)) (lp lp' : Loop ℝ),
      Joined cs.flatten lp.st (es ++ lp.queue) → n ≤ lp.st.vs.length →
      (MadeConvex n lp.st → Planar cs lp.st lp.out) →
      (∀ a ∈ batchMoments lp es, Apt a.1 a.2) → stepBatch lp es = .ok lp' →
      Joined cs.flatten lp'.st lp'.queue ∧ n ≤ lp'.st.vs.length ∧
      (MadeConvex n lp'.st → Planar cs lp'.st lp'.out) := by
    intro es
    induction es with
    | nil =>
      intro lp lp' hj hn hp _ hs
      cases hs
      exact ⟨by simpa using hj, hn, hp⟩
    | cons e es ih =>
      intro lp lp' hj hn hp hA hs
      unfold batchMoments at hA
      unfold stepBatch at hs
      obtain ⟨lp1, g1, g2, g3, g4⟩ := stepEvent_planar hcs hE hj hn hp (hA (lp.st, e) (by simp))
      rw [g1] at hA hs
      simp only at hA
      exact ih lp1 lp' g2 g3 g4 (fun a ha => hA a (List.mem_cons_of_mem _ ha)) hs
  induction k generalizing lp with
  | zero =>
    unfold mainLoop at hm
    split at hm
    · cases hm; exact hp
    · cases hm
  | succ k ih =>
    unfold mainLoop at hm
    unfold moments at hA
    by_cases hfin : (lp.queue.isEmpty || lp.st.slav.isEmpty) = true
    · rw [if_pos hfin] at hm
      cases hm; exact hp
    · rw [if_neg hfin] at hA hm
      cases hq : getAllEqualDistance lp.queue with
      | none => rw [hq] at hm; cases hm
      | some bq =>
        obtain ⟨batch, q⟩ := bq
        rw [hq] at hA hm
        simp only at hA hm
        cases hb : stepBatch { lp with queue := q } batch with
        | error err => rw [hb] at hm; cases hm
        | ok lp1 =>
          rw [hb] at hA hm
          simp only at hA hm
          have hs : Joined cs.flatten ({ lp with queue := q } : Loop ℝ).st
              (batch ++ ({ lp with queue := q } : Loop ℝ).queue) :=
            ⟨take_sound hj.sound hq, hj.shared, hj.edges, fun e he => hj.plain e
              (((C09_getAllEqualDistance_perm lp.queue).2 batch q hq).1.mem_iff.1 he)⟩
          obtain ⟨i1, i2, i3⟩ := hbatch batch { lp with queue := q } lp1 hs hn hp
            (fun a ha => hA a (by simp [ha])) hb
          exact ih i1 i2 i3 (fun a ha => hA a (by simp [ha])) hm

theorem corner_of_pairs {cs : List (List (Edge2 ℝ))} {c : List (Edge2 ℝ)} (hc : c ∈ cs)
    {p : Edge2 ℝ × Edge2 ℝ} (hp : p ∈ cornerPairs c) : Corner cs p.1 p.2 := by
  obtain ⟨i, hi⟩ := List.mem_iff_getElem?.1 hp
  have hlen : i < c.length := by
    have := (List.getElem?_eq_some_iff.1 hi).1
    rwa [cornerPairs_length] at this
  rw [cornerPairs_getElem hlen] at hi
  cases hi
  by_cases h0 : i = 0
  · subst h0
    refine ⟨c, hc, c.length - 1, by omega, ?_, ?_⟩
    · simp
    · rw [show c.length - 1 + 1 = c.length by omega, Nat.mod_self]
      simp
  · refine ⟨c, hc, i - 1, by omega, ?_, ?_⟩
    · simp [h0]
    · rw [show i - 1 + 1 = i by omega, Nat.mod_eq_of_lt hlen]
      simp

theorem startLoop_planar {cs : List (List (Edge2 ℝ))} (hcs : Contours cs)
    (hang : NoRightAngles cs) {lp : Loop ℝ} (hs : startLoop cs = .ok lp) :
    Planar cs lp.st lp.out := by
  obtain ⟨hsl, hout, -⟩ := startLoop_ok hs
  refine ⟨fun i v hv => ?_, by rw [hout]; simp⟩
  obtain ⟨c, hc, p, hp, hcore⟩ := mkSlav_vertices hsl hv
  obtain ⟨e, f⟩ := p
  have hcor := corner_of_pairs hc hp
  obtain ⟨me, mf⟩ := mem_cornerPairs hp
  have he : e ∈ cs.flatten := List.mem_flatten.2 ⟨c, hc, me⟩
  have hf : f ∈ cs.flatten := List.mem_flatten.2 ⟨c, hc, mf⟩
  have hef := hcs.closed e f hcor
  have hz := corner_hgt (hcs.proper he) hef
  constructor
  · refine Rising.congr hcore ?_
    simp only
    by_cases ht : cr e.norm f.norm < 0
    · obtain ⟨hrc, hr⟩ := mkVtx_reflexCorner 0 (hcs.proper he) (hcs.proper hf) hef ht
      refine ⟨mkVtx_bisecting _ _ _ _ _ _ (hz.1.trans hz.2.symm), rfl, ?_, hz.1.ge, fun _ =>
        ⟨hrc, (hang e f hcor ht).1, ?_⟩⟩
      · rw [hrc.dir]
        show 0 ≤ cr e.norm ⟨e.norm.x - f.norm.x, e.norm.y - f.norm.y⟩
        simp only [cr] at *
        linarith
      · intro o ho q h1 h2 h3
        exact (hang e f hcor ht).2 o ho q (by rw [planeHeight_eq]; exact h1)
          (by rw [planeHeight_eq, planeHeight_eq]; exact h2) h3
    · refine mkVtx_rising _ _ _ _ _ _ (hz.1.trans hz.2.symm) hz.1.ge ?_ (not_lt.1 ht)
      have : (mkVtx 0 f.p1 e f none false).reflex =
          (fzero <. V2.cross (V2.smul e.norm (lit (-1) 1)) f.norm) := rfl
      rw [this, ← Bool.not_eq_true, ex_lt, ex_zero, ex_cross]
      simp only [cr, V2.smul, ex_rnd, ex_mul, ex_lit] at *
      push_cast
      linarith
  · refine Spot.congr hcore (Or.inl ⟨hef, rfl⟩)

end Polyskel
