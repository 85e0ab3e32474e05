import Verif.Props.NextEvent
import Verif.Props.Wavefront
/-
C28, C29: the nodes of the skeleton have the same distance from the polygon edges meeting there
(exact arithmetic).
-/
namespace Polyskel
open Scalar Geo

/-! ### Edges, heights, bisectors -/

/-- a polygon edge of positive length with its unit direction -/
def Proper (e : Edge2 ℝ) : Prop :=
  e.norm.x ^ 2 + e.norm.y ^ 2 = 1 ∧ ∃ L > 0, e.p2 = along e.p1 e.norm L

/-- signed distance of a point from the line of an edge, positive on its left -/
def hgt (e : Edge2 ℝ) (q : V2 ℝ) : ℝ := height e.p1 e.norm q

theorem height_along (p n q v : V2 ℝ) (t : ℝ) :
    height p n (along q v t) = height p n q + t * cr n v := by
  simp only [height, along, cr]; ring

theorem distance_form (p v q : V2 ℝ) (hv : v.x ^ 2 + v.y ^ 2 ≠ 0) :
    (⟨p, v, false⟩ : Lin ℝ).distance q = |height p v q| / Real.sqrt (v.x ^ 2 + v.y ^ 2) := by
  obtain ⟨px, py⟩ := p
  obtain ⟨vx, vy⟩ := v
  obtain ⟨qx, qy⟩ := q
  simp only at hv
  simp only [Lin.distance, intersectPointLine, V2.length, V2.sub, V2.add, V2.dot, ex_sub, ex_add,
      ex_mul, ex_div, ex_rnd, ex_sqrt, height]
  have hpos : 0 < vx ^ 2 + vy ^ 2 := lt_of_le_of_ne (by positivity) (Ne.symm hv)
  rw [← Real.sqrt_sq_eq_abs, ← Real.sqrt_div (sq_nonneg _)]
  congr 1
  have h1 : px + vx - px = vx := by ring
  have h2 : py + vy - py = vy := by ring
  rw [h1, h2, show vx * vx + vy * vy = vx ^ 2 + vy ^ 2 by ring]
  field_simp
  ring

/-- the distance from the line of an edge is the absolute value of the signed distance -/
theorem distance_hgt {e : Edge2 ℝ} (he : Proper e) (q : V2 ℝ) :
    (Line2.ofEdge e).distance q = |hgt e q| := by
  obtain ⟨hn, L, hL, hp⟩ := he
  have hv : V2.sub e.p2 e.p1 = ⟨L * e.norm.x, L * e.norm.y⟩ := by
    rw [hp]; simp [V2.sub, along]
  have hsq : (L * e.norm.x) ^ 2 + (L * e.norm.y) ^ 2 = L ^ 2 := by
    linear_combination L ^ 2 * hn
  unfold Line2.ofEdge
  rw [hv, distance_form _ _ _ (by rw [hsq]; positivity)]
  simp only
  rw [hsq, Real.sqrt_sq hL.le]
  have : height e.p1 ⟨L * e.norm.x, L * e.norm.y⟩ q = L * hgt e q := by
    simp only [height, hgt]; ring
  rw [this, abs_mul, abs_of_pos hL]
  field_simp

/-- the vertex lies as far from the one as from the other of its edges, and its bisector is a
bisector of them -/
structure Bisecting (v : Vtx ℝ) : Prop where
  equal : hgt v.edgePrev v.point = hgt v.edgeNext v.point
  start : v.bisector.p = v.point
  dir : ∃ k : ℝ, v.bisector.v =
    ⟨k * (v.edgeNext.norm.x - v.edgePrev.norm.x), k * (v.edgeNext.norm.y - v.edgePrev.norm.y)⟩

/-- all points of the bisector are as far from the one as from the other edge -/
theorem Bisecting.on {v : Vtx ℝ} (hv : Bisecting v) {q : V2 ℝ} (hq : OnLin v.bisector q) :
    hgt v.edgePrev q = hgt v.edgeNext q := by
  obtain ⟨t, -, rfl⟩ := hq
  obtain ⟨k, hk⟩ := hv.dir
  rw [hv.start, hk]
  unfold hgt
  rw [height_along, height_along]
  have h1 := hv.equal
  unfold hgt at h1
  rw [h1]
  simp only [cr]
  ring

/-- every vertex the code makes at a point equidistant from the two edges is `Bisecting` -/
theorem mkVtx_bisecting (id : Nat) (q : V2 ℝ) (e f : Edge2 ℝ) (dirs : Option (V2 ℝ × V2 ℝ))
    (b : Bool) (h : hgt e q = hgt f q) : Bisecting (mkVtx id q e f dirs b) := by
  refine ⟨h, rfl, ?_⟩
  unfold mkVtx Ray2
  simp only
  generalize (if b = true then false else _) = r
  cases r
  · refine ⟨1, ?_⟩
    simp [V2.smul, V2.add]
    constructor <;> ring
  · refine ⟨-1, ?_⟩
    simp [V2.smul, V2.add]
    constructor <;> ring

/-- a corner lies on both of its edges -/
theorem corner_hgt {e f : Edge2 ℝ} (he : Proper e) (h : e.p2 = f.p1) :
    hgt e f.p1 = 0 ∧ hgt f f.p1 = 0 := by
  obtain ⟨-, L, -, hp⟩ := he
  constructor
  · rw [← h, hp, hgt, height_along]; simp only [height, cr]; ring
  · simp [hgt, height]

/-! ### C28 -/

/-- two edges on the same line with the same direction -/
def SameLine (e f : Edge2 ℝ) : Prop := e.p1 = f.p1 ∧ e.norm = f.norm

theorem SameLine.hgt {e f : Edge2 ℝ} (h : SameLine e f) (q : V2 ℝ) : hgt e q = hgt f q := by
  simp only [Polyskel.hgt, h.1, h.2]

/-- C28: the point of the edge event of two neighbours is equidistant from their three edges, and
the distance of the event is that distance. -/
theorem C28_edge_event {a b : Vtx ℝ} (ha : Bisecting a) (hb : Bisecting b)
    (hab : SameLine a.edgeNext b.edgePrev) {q : V2 ℝ}
    (hqa : OnLin a.bisector q) (hqb : OnLin b.bisector q) :
    ∃ d, hgt a.edgePrev q = d ∧ hgt a.edgeNext q = d ∧ hgt b.edgePrev q = d ∧
      hgt b.edgeNext q = d ∧ (Proper a.edgeNext → (Line2.ofEdge a.edgeNext).distance q = |d|) ∧
      (Proper b.edgePrev → (Line2.ofEdge b.edgePrev).distance q = |d|) := by
  have h1 := ha.on hqa
  have h2 := hb.on hqb
  have h3 := hab.hgt q
  refine ⟨hgt a.edgeNext q, h1, rfl, h3.symm, (h3.trans h2).symm, fun h => distance_hgt h q,
    fun h => ?_⟩
  rw [distance_hgt h, h3]

theorem Bisecting.congr {v w : Vtx ℝ} (h : v.core = w.core) (hw : Bisecting w) : Bisecting v := by
  have h1 : v.point = w.point := congrArg Core.point h
  have h2 : v.edgePrev = w.edgePrev := congrArg Core.edgePrev h
  have h3 : v.edgeNext = w.edgeNext := congrArg Core.edgeNext h
  have h4 : v.bisector = w.bisector := congrArg Core.bisector h
  exact ⟨by rw [h1, h2, h3]; exact hw.equal, by rw [h1, h4]; exact hw.start,
    by rw [h2, h3, h4]; exact hw.dir⟩

/-- C28: an edge event proposed by a vertex -/
theorem C28_nextEvent {st : St ℝ} {id : Nat} {v p n : Vtx ℝ} (hv : st.vs[id]? = some v)
    (hp : st.vs[v.prev]? = some p) (hn : st.vs[v.next]? = some n)
    (hl : v.reflex = true → v.lav ≠ none)
    (bv : Bisecting v) (bp : Bisecting p) (bn : Bisecting n)
    (lp : SameLine p.edgeNext v.edgePrev) (ln : SameLine v.edgeNext n.edgePrev)
    (ep : Proper v.edgePrev) (en : Proper v.edgeNext) {e : EdgeEv ℝ}
    (h : nextEvent st id = .ok (some (.edge e))) :
    ∃ a b d, st.vs[e.a]? = some a ∧ st.vs[e.b]? = some b ∧
      hgt a.edgePrev e.pt = d ∧ hgt a.edgeNext e.pt = d ∧ hgt b.edgePrev e.pt = d ∧
      hgt b.edgeNext e.pt = d ∧ e.dist = |d| := by
  obtain ⟨r, hr, -, hc⟩ := C50_nextEvent st id v p n hv hp hn hl
  rw [h, Except.ok.injEq] at hr
  obtain ⟨hc, -⟩ := hc (.edge e) hr.symm
  cases hc with
  | prev hc =>
    obtain ⟨-, h1, h2, h3, h4, h5⟩ := hc
    obtain ⟨d, d1, d2, d3, d4, -, d6⟩ := C28_edge_event bp bv lp h2 h1
    exact ⟨p, v, d, by rw [h4]; exact hp, by rw [h5]; exact hv, d1, d2, d3, d4,
      h3.trans (d6 ep)⟩
  | next hc =>
    obtain ⟨-, h1, h2, h3, h4, h5⟩ := hc
    obtain ⟨d, d1, d2, d3, d4, d5, -⟩ := C28_edge_event bv bn ln h1 h2
    exact ⟨v, n, d, by rw [h4]; exact hv, by rw [h5]; exact hn, d1, d2, d3, d4,
      h3.trans (d5 en)⟩

/-- C28: handling such an event makes a node at the event's point and height, and a vertex that is
`Bisecting` again, between the outer edges of the two old ones; at a peak (the loop consists of
`a`, `b` and a third vertex) the node is equidistant from all edges of the loop. -/
theorem C28_handleEdge {st st' : St ℝ} {e : EdgeEv ℝ} {a b : Vtx ℝ} {d : ℝ}
    {arcs : List (Subtree ℝ)} {es : List (Event ℝ)}
    (h : handleEdge st e = .ok (st', arcs, es))
    (ha : st.vs[e.a]? = some a) (hb : st.vs[e.b]? = some b)
    (h1 : hgt a.edgePrev e.pt = d) (h2 : hgt b.edgeNext e.pt = d) :
    (∃ sinks, arcs = [{ source := e.pt, height := e.dist, sinks }]) ∧
    (∀ (i : Nat) (w : Vtx ℝ), st'.vs[i]? = some w → st.vs[i]? = none →
      w.point = e.pt ∧ w.edgePrev = a.edgePrev ∧ w.edgeNext = b.edgeNext ∧ Bisecting w) ∧
    (∀ c, st.vs[b.next]? = some c → a.prev = b.next → SameLine b.edgeNext c.edgePrev →
      SameLine c.edgeNext a.edgePrev → hgt c.edgePrev e.pt = d ∧ hgt c.edgeNext e.pt = d) := by
  refine ⟨?_, ?_, ?_⟩
  · obtain ⟨-, -, s, -, -, hs, -⟩ := C47_edge h
    exact ⟨s, hs⟩
  · intro i w hw hn
    have hf := handleEdge_frame (N := fun c => c = unifyCore a b e.pt) h ?_
    · have hc := hf.fresh i w hw hn
      refine ⟨congrArg Core.point hc, congrArg Core.edgePrev hc, congrArg Core.edgeNext hc, ?_⟩
      exact Bisecting.congr (w := mkVtx 0 e.pt a.edgePrev b.edgeNext
        (some (V2.normalized b.bisector.v, V2.normalized a.bisector.v)) false) hc
        (mkVtx_bisecting _ _ _ _ _ _ (h1.trans h2.symm))
    · intro va vb hva hvb
      rw [ha] at hva; rw [hb] at hvb
      cases hva; cases hvb; exact fun _ => rfl
  · intro c _ _ l1 l2
    exact ⟨by rw [← l1.hgt, h2], by rw [l2.hgt, h1]⟩

/-! ### C29 -/

theorem normalized_dir {n : V2 ℝ} (hn : n.x ^ 2 + n.y ^ 2 = 1) {k : ℝ}
    (hk : 1 / 10 ^ 35 < k ^ 2) {w : V2 ℝ} (hw : w = ⟨k * n.x, k * n.y⟩) :
    (0 < k ∧ V2.normalized w = n) ∨ (k < 0 ∧ V2.normalized w = ⟨-n.x, -n.y⟩) := by
  have hd : V2.dot w w = k ^ 2 := by
    rw [ex_dot, hw, dt]; linear_combination k ^ 2 * hn
  have hk0 : k ≠ 0 := by
    rintro rfl
    norm_num at hk
  unfold V2.normalized
  rw [hd, if_pos (by rw [ex_lt, ex_lit]; push_cast; norm_num at hk ⊢; exact hk)]
  simp only [ex_rnd, ex_sqrt, ex_one, ex_div, ex_mul, Real.sqrt_sq_eq_abs, hw]
  rcases lt_or_gt_of_ne hk0 with h | h
  · right
    refine ⟨h, ?_⟩
    rw [abs_of_neg h]
    obtain ⟨nx, ny⟩ := n
    simp only [V2.mk.injEq]
    constructor <;> field_simp
  · left
    refine ⟨h, ?_⟩
    rw [abs_of_pos h]
    obtain ⟨nx, ny⟩ := n
    simp only [V2.mk.injEq]
    constructor <;> field_simp

/-- a point at height zero over a unit direction lies on its line -/
theorem on_line_of_height {p n q : V2 ℝ} (hn : n.x ^ 2 + n.y ^ 2 = 1) (h : height p n q = 0) :
    q = along p n (n.x * (q.x - p.x) + n.y * (q.y - p.y)) := by
  obtain ⟨qx, qy⟩ := q
  simp only [height, along, V2.mk.injEq] at *
  constructor
  · linear_combination (-(qx - p.x)) * hn - n.y * h
  · linear_combination (-(qy - p.y)) * hn + n.x * h

/-- A reflex corner of a polygon: it lies on both of its edges, whose directions turn right, and
its bisector points into the polygon. -/
structure ReflexCorner (v : Vtx ℝ) : Prop where
  prev : Proper v.edgePrev
  next : Proper v.edgeNext
  onPrev : hgt v.edgePrev v.point = 0
  onNext : hgt v.edgeNext v.point = 0
  turn : cr v.edgePrev.norm v.edgeNext.norm < 0
  start : v.bisector.p = v.point
  dir : v.bisector.v = ⟨v.edgePrev.norm.x - v.edgeNext.norm.x,
    v.edgePrev.norm.y - v.edgeNext.norm.y⟩
  ray : v.bisector.ray = true

/-- The vertex made for a reflex corner of a contour is one. -/
theorem mkVtx_reflexCorner {e f : Edge2 ℝ} (id : Nat) (he : Proper e) (hf : Proper f)
    (h : e.p2 = f.p1) (ht : cr e.norm f.norm < 0) :
    ReflexCorner (mkVtx id f.p1 e f none false) ∧ (mkVtx id f.p1 e f none false).reflex = true := by
  have hr : (fzero <. V2.cross (V2.smul e.norm (lit (-1) 1)) f.norm) = true := by
    rw [ex_lt, ex_zero, ex_cross]
    simp only [cr, V2.smul, ex_rnd, ex_mul, ex_lit] at *
    push_cast
    linarith
  have hr' : (mkVtx id f.p1 e f none false).reflex = true := hr
  refine ⟨⟨he, hf, (corner_hgt he h).1, (corner_hgt he h).2, ht, rfl, ?_, rfl⟩, hr'⟩
  have hb : (mkVtx id f.p1 e f none false).bisector.v =
      V2.smul (V2.add (V2.smul e.norm (lit (-1) 1)) f.norm)
        (if (mkVtx id f.p1 e f none false).reflex then lit (-1) 1 else lit 1 1) := rfl
  rw [hb, hr', if_pos rfl]
  simp [V2.smul, V2.add, mkVtx]
  constructor <;> ring

/-- C29 (partial): a split event of a reflex corner is equidistant from both edges of the corner
and from the opposite edge, and its distance is the recorded one – as long as the corner is not a
right angle (up to the tolerance) and the lines of its edges meet that of the opposite edge
in the corner itself or farther away than mathutils' limit for normalising. -/
theorem C29_split_partial {id : Nat} {v : Vtx ℝ} {oe : OrigEdge ℝ} {e : SplitEv ℝ}
    (hv : ReflexCorner v) (ho : Proper oe.edge)
    (hang : 1 / 100000 ≤ |cr v.edgePrev.norm v.edgeNext.norm + 1|)
    (hfar : ∀ q, hgt oe.edge q = 0 → (hgt v.edgePrev q = 0 ∨ hgt v.edgeNext q = 0) →
      q ≠ v.point → 1 / 10 ^ 35 < (q.x - v.point.x) ^ 2 + (q.y - v.point.y) ^ 2)
    (h : splitCandidate id v oe = some e) :
    0 ≤ e.dist ∧ hgt v.edgePrev e.pt = e.dist ∧ hgt v.edgeNext e.pt = e.dist ∧
      hgt e.opp e.pt = e.dist ∧ OnLin v.bisector e.pt := by
  have hc := (splitCandidate_iff _ _ _ _).1 h
  obtain ⟨s, i, hs, hnp, hi1, hi2, happ, -, -, hpt⟩ := hc.point
  have hip : i ≠ v.point := by
    rintro rfl
    have h0 : eucl v.point v.point = 0 := by simp [eucl]
    have h1 : 0 ≤ max (mag v.point) (mag v.point) * (1 / 1000) :=
      mul_nonneg (le_max_of_le_left (Real.sqrt_nonneg _)) (by norm_num)
    linarith
  set c := cr v.edgePrev.norm v.edgeNext.norm with hcdef
  -- the chosen own edge
  have hsP : Proper s ∧ hgt s v.point = 0 ∧ cr v.bisector.v s.norm = c ∧
      (s = v.edgePrev ∨ s = v.edgeNext) := by
    rcases hs with ⟨-, rfl⟩ | ⟨-, rfl⟩
    · refine ⟨hv.prev, hv.onPrev, ?_, Or.inl rfl⟩
      rw [hv.dir, hcdef]; simp only [cr]; ring
    · refine ⟨hv.next, hv.onNext, ?_, Or.inr rfl⟩
      rw [hv.dir, hcdef]; simp only [cr]; ring
  obtain ⟨hsp, hs0, hsc, hsor⟩ := hsP
  -- i lies on both lines
  have hline : ∀ f : Edge2 ℝ, Proper f → (∃ t, i = along f.p1 (vec f.p1 f.p2) t) → hgt f i = 0 := by
    rintro f ⟨-, L, -, hL⟩ ⟨t, rfl⟩
    rw [hgt, height_along, hL]
    simp only [height, vec, cr, along]; ring
  have his := hline s hsp hi1
  have hio := hline oe.edge ho hi2
  -- the direction from i to the corner
  have hP : v.point = along i s.norm (s.norm.x * (v.point.x - i.x) + s.norm.y * (v.point.y - i.y)) := by
    apply on_line_of_height hsp.1
    have : height i s.norm v.point = hgt s v.point - hgt s i := by
      simp only [hgt, height]; ring
    rw [this, hs0, his]; ring
  generalize s.norm.x * (v.point.x - i.x) + s.norm.y * (v.point.y - i.y) = k at hP
  have hvec : vec i v.point = ⟨k * s.norm.x, k * s.norm.y⟩ := by
    rw [hP]; simp [vec, along]
  have hk : 1 / 10 ^ 35 < k ^ 2 := by
    have := hfar i hio (by rcases hsor with h | h <;> rw [← h] <;> simp [his]) hip
    have hkk : (i.x - v.point.x) ^ 2 + (i.y - v.point.y) ^ 2 = k ^ 2 := by
      have hx : v.point.x = i.x + k * s.norm.x := by rw [hP]; rfl
      have hy : v.point.y = i.y + k * s.norm.y := by rw [hP]; rfl
      rw [hx, hy]; linear_combination k ^ 2 * hsp.1
    rwa [hkk] at this
  -- the direction in which the point is sought
  have hdir : ∃ τ : ℝ, τ ^ 2 = 1 ∧ helperDir v.bisector.v oe.edge.norm i v.point =
      ⟨-τ * oe.edge.norm.x + τ * s.norm.x, -τ * oe.edge.norm.y + τ * s.norm.y⟩ := by
    unfold helperDir
    rcases normalized_dir hsp.1 hk hvec with ⟨-, hn⟩ | ⟨-, hn⟩
    · simp only [hn, hsc]
      have : ¬ |c - 1| < 1 / 100000 := by
        rw [not_lt, abs_of_neg (by linarith [hv.turn])]
        have := hv.turn
        rw [← hcdef] at this
        linarith
      rw [if_neg this, hsc, if_pos hv.turn]
      exact ⟨1, by norm_num, by simp⟩
    · have hcm : cr v.bisector.v ⟨-s.norm.x, -s.norm.y⟩ = -c := by
        rw [← hsc]; simp only [cr]; ring
      simp only [hn, hcm]
      have : ¬ |-c - 1| < 1 / 100000 := by
        rw [not_lt, show -c - 1 = -(c + 1) by ring, abs_neg]
        exact hang
      rw [if_neg this, hcm, if_neg (by linarith [hv.turn])]
      exact ⟨-1, by norm_num, by simp⟩
  obtain ⟨τ, hτ, hdir⟩ := hdir
  obtain ⟨u, hu⟩ := hpt
  rw [hdir] at hu
  have e1 : hgt s e.pt = hgt oe.edge e.pt := by
    have a1 : hgt s e.pt = hgt s i + u * (-τ * cr s.norm oe.edge.norm) := by
      rw [hu, hgt, height_along]; simp only [hgt, cr]; ring
    have a2 : hgt oe.edge e.pt = hgt oe.edge i + u * (τ * cr oe.edge.norm s.norm) := by
      rw [hu, hgt, height_along]; simp only [hgt, cr]; ring
    rw [a1, a2, his, hio]; simp only [cr]; ring
  obtain ⟨t, ht, hbis⟩ := hc.onBisector
  have b1 : hgt v.edgePrev e.pt = t * (-c) := by
    rw [hbis, hv.start, hgt, height_along, hv.dir, ← hgt, hv.onPrev, hcdef]; simp only [cr]; ring
  have b2 : hgt v.edgeNext e.pt = t * (-c) := by
    rw [hbis, hv.start, hgt, height_along, hv.dir, ← hgt, hv.onNext, hcdef]; simp only [cr]; ring
  have hpos : 0 ≤ t * (-c) := mul_nonneg (ht hv.ray) (by linarith [hv.turn])
  have b3 : hgt oe.edge e.pt = t * (-c) := by
    rw [← e1]; rcases hsor with h | h <;> rw [h] <;> assumption
  have hd : e.dist = t * (-c) := by
    rw [hc.dist, distance_hgt ho, b3, abs_of_nonneg hpos]
  rw [hd, hc.opp]
  exact ⟨hpos, b1, b2, b3, hc.onBisector⟩

/-! C29 is false at right angles.  The corner (1,1) of the L-shape (0,0) (2,0) (2,1) (1,1) (1,2)
(0,2) and its left side. -/

/-- the edges from (2,1) to (1,1), from (1,1) to (1,2) and from (0,2) to (0,0) -/
def lPrev : Edge2 ℝ := ⟨2, 0, 0, ⟨2, 1⟩, ⟨1, 1⟩, ⟨-1, 0⟩⟩
def lNext : Edge2 ℝ := ⟨3, 0, 0, ⟨1, 1⟩, ⟨1, 2⟩, ⟨0, 1⟩⟩
def lOpp : Edge2 ℝ := ⟨5, 0, 0, ⟨0, 2⟩, ⟨0, 0⟩, ⟨0, -1⟩⟩

theorem lEdges_proper : Proper lPrev ∧ Proper lNext ∧ Proper lOpp := by
  refine ⟨⟨?_, 1, ?_, ?_⟩, ⟨?_, 1, ?_, ?_⟩, ⟨?_, 2, ?_, ?_⟩⟩ <;>
    norm_num [lPrev, lNext, lOpp, along]

theorem normalized_pos (w : V2 ℝ) : ∃ c ≥ 0, V2.normalized w = ⟨c * w.x, c * w.y⟩ := by
  unfold V2.normalized
  split
  · refine ⟨1 / Real.sqrt (V2.dot w w), by positivity, ?_⟩
    simp only [ex_rnd, ex_sqrt, ex_one, ex_div, ex_mul, mul_comm]
  · exact ⟨0, le_refl _, by simp⟩

/-- C29 is false: a split event of a right-angled corner need not be equidistant. -/
theorem C29_refuted : ∃ (v : Vtx ℝ) (oe : OrigEdge ℝ) (e : SplitEv ℝ),
    ReflexCorner v ∧ v.reflex = true ∧ Proper oe.edge ∧ splitCandidate 3 v oe = some e ∧
    hgt oe.edge e.pt ≠ hgt v.edgePrev e.pt ∧ hgt v.edgeNext e.pt = hgt v.edgePrev e.pt := by
  obtain ⟨hp, hn, ho⟩ := lEdges_proper
  obtain ⟨hc, hr⟩ := mkVtx_reflexCorner (e := lPrev) (f := lNext) 3 hp hn rfl
    (by norm_num [cr, lPrev, lNext])
  set v := mkVtx 3 lNext.p1 lPrev lNext none false with hv
  have v1 : v.edgePrev = lPrev := rfl
  have v2 : v.edgeNext = lNext := rfl
  have v3 : v.point = ⟨1, 1⟩ := rfl
  have v4 : v.bisector = ⟨⟨1, 1⟩, ⟨-1, -1⟩, true⟩ := by
    have h1 := hc.start
    have h2 := hc.dir
    have h3 := hc.ray
    rw [v1, v2] at h2
    generalize v.bisector = b at *
    obtain ⟨b1, b2, b3⟩ := b
    simp only at h1 h2 h3
    subst h1 h2 h3
    norm_num [lPrev, lNext, v3]
  clear_value v
  -- the tilted direction
  obtain ⟨l, hl0, hl1, hl2⟩ : ∃ l : ℝ, 0 < l ∧ l < 101 / 100 ∧
      helperDir ⟨-1, -1⟩ ⟨0, -1⟩ ⟨0, 1⟩ ⟨1, 1⟩ = ⟨l, -1 - 1 / 100 * l⟩ := by
    have e0 : V2.normalized (vec ⟨0, 1⟩ ⟨1, 1⟩ : V2 ℝ) = ⟨1, 0⟩ := by
      rcases normalized_dir (n := ⟨1, 0⟩) (by norm_num) (k := 1) (by norm_num)
        (w := vec ⟨0, 1⟩ ⟨1, 1⟩) (by simp [vec]) with ⟨-, h⟩ | ⟨h, -⟩
      · exact h
      · norm_num at h
    have hs : (1 : ℝ) ≤ Real.sqrt (10001 / 10000) := by
      rw [Real.one_le_sqrt]; norm_num
    refine ⟨1 / Real.sqrt (10001 / 10000), by positivity, ?_, ?_⟩
    · rw [div_lt_iff₀ (by linarith)]; linarith
    · have e1 : V2.normalized (⟨1, -(1 / 100)⟩ : V2 ℝ) =
          ⟨1 / Real.sqrt (10001 / 10000), -(1 / 100) * (1 / Real.sqrt (10001 / 10000))⟩ := by
        unfold V2.normalized
        have hd : V2.dot (⟨1, -(1 / 100)⟩ : V2 ℝ) ⟨1, -(1 / 100)⟩ = 10001 / 10000 := by
          rw [ex_dot, dt]; norm_num
        rw [hd, if_pos (by rw [ex_lt, ex_lit]; norm_num)]
        simp
      unfold helperDir
      have hcond : |cr (⟨-1, -1⟩ : V2 ℝ) ⟨1, 0⟩ - 1| < 1 / 100000 := by norm_num [cr]
      have e2 : (⟨(vec ⟨0, 1⟩ ⟨1, 1⟩ : V2 ℝ).x + (⟨0, -1⟩ : V2 ℝ).x * (1 / 100),
          (vec ⟨0, 1⟩ ⟨1, 1⟩ : V2 ℝ).y + (⟨0, -1⟩ : V2 ℝ).y * (1 / 100)⟩ : V2 ℝ) =
          ⟨1, -(1 / 100)⟩ := by norm_num [vec]
      simp only [e0, if_pos hcond, e2, e1]
      rw [if_neg ?_]
      · simp only [V2.mk.injEq]; constructor <;> ring
      · rw [not_lt]
        have : (0 : ℝ) < 1 / Real.sqrt (10001 / 10000) := by positivity
        simp only [cr]
        linarith
  have hden : 0 < 1 + 101 / 100 * l := by positivity
  -- the point found
  obtain ⟨t, ht⟩ : ∃ t, t = (1 + 1 / 100 * l) / (1 + 101 / 100 * l) := ⟨_, rfl⟩
  have htd : t * (1 + 101 / 100 * l) = 1 + 1 / 100 * l := by rw [ht]; field_simp
  have ht0 : 0 < t := by rw [ht]; positivity
  have ht1 : t < 1 := by rw [ht, div_lt_one hden]; linarith
  have hth : t ≠ 1 / 2 := by
    rintro rfl
    linarith
  refine ⟨v, ⟨lOpp, ⟨⟨0, 2⟩, ⟨1, -1⟩, true⟩, ⟨⟨0, 0⟩, ⟨1, 1⟩, true⟩⟩,
    ⟨(Line2.ofEdge lOpp).distance ⟨1 - t, 1 - t⟩, ⟨1 - t, 1 - t⟩, 3, lOpp⟩, hc, hr, ho, ?_, ?_, ?_⟩
  · rw [splitCandidate_iff]
    refine ⟨?_, ⟨lPrev, ⟨0, 1⟩, ?_, ?_, ⟨2, ?_⟩, ⟨1 / 2, ?_⟩, ?_, ?_, ?_, ?_⟩, ?_, ?_, rfl, rfl, rfl⟩
    · rw [v1, v2]; decide
    · rw [selfEdge, v1, v2]; left; norm_num [dt, lPrev, lNext, lOpp]
    · norm_num [Parallel, vec, lPrev, lOpp]
    · norm_num [along, vec, lPrev]
    · norm_num [along, vec, lOpp]
    · rw [v3]
      have h2 : Real.sqrt 2 ≤ 2 := by rw [Real.sqrt_le_left (by norm_num)]; norm_num
      norm_num [mag, eucl]
      linarith
    · rw [v4, v3]
      show mag (helperDir ⟨-1, -1⟩ ⟨0, -1⟩ ⟨0, 1⟩ ⟨1, 1⟩) ≠ 0
      rw [hl2, mag, eucl]
      apply ne_of_gt
      apply Real.sqrt_pos.2
      simp only
      nlinarith [sq_nonneg (-1 - 1 / 100 * l - 0)]
    · rw [v4, v3]
      show ¬ Parallel (helperDir ⟨-1, -1⟩ ⟨0, -1⟩ ⟨0, 1⟩ ⟨1, 1⟩) ⟨-1, -1⟩
      rw [hl2]
      simp only [Parallel]
      intro h
      linarith
    · rw [v4, v3]
      show ∃ u, (⟨1 - t, 1 - t⟩ : V2 ℝ) = along ⟨0, 1⟩ (helperDir ⟨-1, -1⟩ ⟨0, -1⟩ ⟨0, 1⟩ ⟨1, 1⟩) u
      rw [hl2]
      refine ⟨t / (1 + 1 / 100 * l), ?_⟩
      have : (1 + 1 / 100 * l) ≠ 0 := by positivity
      simp only [along, V2.mk.injEq]
      constructor
      · field_simp
        linear_combination -100 * htd
      · field_simp
        ring
    · rw [v4]
      exact ⟨t, fun _ => ht0.le, by simp only [along, V2.mk.injEq]; constructor <;> ring⟩
    · obtain ⟨c1, h1, e1⟩ := normalized_pos ⟨1, -1⟩
      obtain ⟨c2, h2, e2⟩ := normalized_pos (vec ⟨0, 2⟩ ⟨1 - t, 1 - t⟩)
      obtain ⟨c3, h3, e3⟩ := normalized_pos ⟨1, 1⟩
      obtain ⟨c4, h4, e4⟩ := normalized_pos (vec ⟨0, 0⟩ ⟨1 - t, 1 - t⟩)
      simp only [InFront]
      refine ⟨?_, ?_, ?_, ?_⟩
      · rw [e1, e2]
        simp only [cr, vec]
        have : 0 ≤ c1 * c2 * t := by positivity
        nlinarith
      · rw [e3, e4]
        simp only [cr, vec]
        nlinarith
      · have : lOpp.p1 = ⟨0, 2⟩ := rfl
        rw [this, e2]
        simp only [cr, vec, lOpp]
        have : 0 ≤ c2 * (1 - t) := mul_nonneg h2 (by linarith)
        nlinarith
      · norm_num [mag, eucl]
  · rw [v1]
    simp only [hgt, height, lOpp, lPrev]
    intro h
    apply hth
    linarith
  · rw [v1, v2]
    simp only [hgt, height, lNext, lPrev]
    ring

/-! ### Cases -/

/-- the triangle (0,0) (4,0) (0,3) -/
def tri0 : Edge2 ℝ := ⟨0, 0, 1, ⟨0, 0⟩, ⟨4, 0⟩, ⟨1, 0⟩⟩
noncomputable def tri1 : Edge2 ℝ := ⟨1, 1, 2, ⟨4, 0⟩, ⟨0, 3⟩, ⟨-4 / 5, 3 / 5⟩⟩
def tri2 : Edge2 ℝ := ⟨2, 2, 0, ⟨0, 3⟩, ⟨0, 0⟩, ⟨0, -1⟩⟩

theorem tri_proper : Proper tri0 ∧ Proper tri1 ∧ Proper tri2 := by
  refine ⟨⟨?_, 4, ?_, ?_⟩, ⟨?_, 5, ?_, ?_⟩, ⟨?_, 3, ?_, ?_⟩⟩ <;>
    norm_num [tri0, tri1, tri2, along]

/-- a convex corner of a contour, with its neighbours in the LAV 0 -/
noncomputable def convexCorner (e f : Edge2 ℝ) (p n : Nat) : Vtx ℝ :=
  { point := f.p1, edgePrev := e, edgeNext := f, prev := p, next := n, lav := some 0, valid := true,
    reflex := false,
    bisector := ⟨f.p1, ⟨f.norm.x - e.norm.x, f.norm.y - e.norm.y⟩, true⟩ }

/-- the wavefront of the triangle at the start -/
noncomputable def triSt : St ℝ :=
  { vs := [convexCorner tri2 tri0 2 1, convexCorner tri0 tri1 0 2, convexCorner tri1 tri2 1 0],
    lavs := [{ head := 0, len := 3 }], slav := [0], orig := [] }

theorem convexCorner_bisecting {e f : Edge2 ℝ} (p n : Nat) (he : Proper e) (h : e.p2 = f.p1) :
    Bisecting (convexCorner e f p n) := by
  obtain ⟨h1, h2⟩ := corner_hgt he h
  exact ⟨h1.trans h2.symm, rfl, 1, by simp [convexCorner]⟩

/-- case of C50: the first corner of the triangle proposes an edge event at the incentre -/
theorem triSt_nextEvent : ∃ e : EdgeEv ℝ, nextEvent triSt 0 = .ok (some (.edge e)) ∧
    e.pt = ⟨1, 1⟩ := by
  obtain ⟨r, hr, hn, hs⟩ := C50_nextEvent triSt 0 (convexCorner tri2 tri0 2 1)
    (convexCorner tri1 tri2 1 0) (convexCorner tri0 tri1 0 2) rfl rfl rfl (by simp [convexCorner])
  have key : ∀ (w : Vtx ℝ) (edge : Edge2 ℝ) (a b : Nat) (e : EdgeEv ℝ),
      OnLin w.bisector ⟨1, 1⟩ → EdgeCand (convexCorner tri2 tri0 2 1) w edge a b e → e.pt = ⟨1, 1⟩ := by
    rintro w edge a b e ho ⟨h1, h2, h3, -⟩
    have e1 := (C01_intersect_iff _ _ _).2 ⟨h1, h2, h3⟩
    have e2 := (C01_intersect_iff _ _ _).2 ⟨h1, (⟨1, by simp, by
      norm_num [convexCorner, along, tri0, tri2]⟩ : OnLin _ (⟨1, 1⟩ : V2 ℝ)), ho⟩
    rw [e1] at e2
    exact Option.some.inj e2
  have o1 : OnLin (convexCorner tri0 tri1 0 2).bisector ⟨1, 1⟩ :=
    ⟨5 / 3, fun _ => by norm_num, by norm_num [convexCorner, along, tri0, tri1]⟩
  have o2 : OnLin (convexCorner tri1 tri2 1 0).bisector ⟨1, 1⟩ :=
    ⟨5 / 4, fun _ => by norm_num, by norm_num [convexCorner, along, tri1, tri2]⟩
  have o0 : OnLin (convexCorner tri2 tri0 2 1).bisector ⟨1, 1⟩ :=
    ⟨1, fun _ => by norm_num, by norm_num [convexCorner, along, tri0, tri2]⟩
  cases r with
  | none =>
    refine absurd (Cand.next (e := ⟨(Line2.ofEdge tri0).distance ⟨1, 1⟩, ⟨1, 1⟩, 0, 1⟩)
      ⟨?_, o0, o1, rfl, rfl, rfl⟩) (hn.1 rfl _)
    norm_num [Parallel, convexCorner, tri0, tri1, tri2]
  | some ev =>
    obtain ⟨hc, -⟩ := hs ev rfl
    cases hc with
    | split oe h => simp [convexCorner] at h
    | prev h => exact ⟨_, hr, key _ _ _ _ _ o2 h⟩
    | next h => exact ⟨_, hr, key _ _ _ _ _ o1 h⟩

/-- case of C28: that event is at distance 1 from all three sides -/
example : ∃ e : EdgeEv ℝ, nextEvent triSt 0 = .ok (some (.edge e)) ∧ e.dist = 1 ∧
    hgt tri0 e.pt = 1 ∧ hgt tri1 e.pt = 1 ∧ hgt tri2 e.pt = 1 := by
  obtain ⟨e, h, hpt⟩ := triSt_nextEvent
  obtain ⟨t0, t1, t2⟩ := tri_proper
  obtain ⟨a, b, d, ha, hb, d1, d2, d3, d4, hd⟩ := C28_nextEvent
    (v := convexCorner tri2 tri0 2 1) (p := convexCorner tri1 tri2 1 0)
    (n := convexCorner tri0 tri1 0 2) rfl rfl rfl (by simp [convexCorner])
    (convexCorner_bisecting _ _ t2 rfl) (convexCorner_bisecting _ _ t1 rfl)
    (convexCorner_bisecting _ _ t0 rfl) ⟨rfl, rfl⟩ ⟨rfl, rfl⟩ t2 t0 h
  have h0 : hgt tri0 e.pt = 1 := by rw [hpt]; norm_num [hgt, height, tri0]
  have h1 : hgt tri1 e.pt = 1 := by rw [hpt]; norm_num [hgt, height, tri1]
  have h2 : hgt tri2 e.pt = 1 := by rw [hpt]; norm_num [hgt, height, tri2]
  refine ⟨e, h, ?_, h0, h1, h2⟩
  have hdd : d = 1 := by
    have hm : a ∈ triSt.vs := List.mem_of_getElem? ha
    simp only [triSt, List.mem_cons, List.not_mem_nil, or_false] at hm
    rcases hm with rfl | rfl | rfl
    · exact d1.symm.trans h2
    · exact d1.symm.trans h0
    · exact d1.symm.trans h1
  rw [hd, hdd]; simp

/-- the notch with the edges of directions (3,4) and (3,-4) meeting at (0,0), below the edge from
(5,4) to (-5,4) -/
noncomputable def notchPrev : Edge2 ℝ := ⟨0, 0, 0, ⟨-3, -4⟩, ⟨0, 0⟩, ⟨3 / 5, 4 / 5⟩⟩
noncomputable def notchNext : Edge2 ℝ := ⟨1, 0, 0, ⟨0, 0⟩, ⟨3, -4⟩, ⟨3 / 5, -4 / 5⟩⟩
def notchOpp : Edge2 ℝ := ⟨4, 0, 0, ⟨5, 4⟩, ⟨-5, 4⟩, ⟨-1, 0⟩⟩

/-- case of C29: the corner of the notch splits the edge above it at height 3/2 -/
example : ∃ (v : Vtx ℝ) (oe : OrigEdge ℝ) (e : SplitEv ℝ), ReflexCorner v ∧ Proper oe.edge ∧
    1 / 100000 ≤ |cr v.edgePrev.norm v.edgeNext.norm + 1| ∧
    (∀ q, hgt oe.edge q = 0 → (hgt v.edgePrev q = 0 ∨ hgt v.edgeNext q = 0) →
      1 / 10 ^ 35 < (q.x - v.point.x) ^ 2 + (q.y - v.point.y) ^ 2) ∧
    splitCandidate 1 v oe = some e ∧ e.pt = ⟨0, 5 / 2⟩ ∧ e.dist = 3 / 2 := by
  have hp : Proper notchPrev := ⟨by norm_num [notchPrev], 5, by norm_num, by
    norm_num [notchPrev, along]⟩
  have hn : Proper notchNext := ⟨by norm_num [notchNext], 5, by norm_num, by
    norm_num [notchNext, along]⟩
  have ho : Proper notchOpp := ⟨by norm_num [notchOpp], 10, by norm_num, by
    norm_num [notchOpp, along]⟩
  obtain ⟨hc, hr⟩ := mkVtx_reflexCorner (e := notchPrev) (f := notchNext) 1 hp hn rfl
    (by norm_num [cr, notchPrev, notchNext])
  set v := mkVtx 1 notchNext.p1 notchPrev notchNext none false with hv
  have v1 : v.edgePrev = notchPrev := rfl
  have v2 : v.edgeNext = notchNext := rfl
  have v3 : v.point = ⟨0, 0⟩ := rfl
  have v4 : v.bisector = ⟨⟨0, 0⟩, ⟨0, 8 / 5⟩, true⟩ := by
    have h1 := hc.start
    have h2 := hc.dir
    have h3 := hc.ray
    rw [v1, v2] at h2
    generalize v.bisector = b at *
    obtain ⟨b1, b2, b3⟩ := b
    simp only at h1 h2 h3
    subst h1 h2 h3
    norm_num [notchPrev, notchNext, v3]
  clear_value v
  have hd : helperDir ⟨0, 8 / 5⟩ ⟨-1, 0⟩ ⟨-3, 4⟩ ⟨0, 0⟩ = ⟨8 / 5, -4 / 5⟩ := by
    have e0 : V2.normalized (vec ⟨-3, 4⟩ ⟨0, 0⟩ : V2 ℝ) = ⟨3 / 5, -4 / 5⟩ := by
      rcases normalized_dir (n := ⟨3 / 5, -4 / 5⟩) (by norm_num) (k := 5) (by norm_num)
        (w := vec ⟨-3, 4⟩ ⟨0, 0⟩) (by norm_num [vec]) with ⟨-, h⟩ | ⟨h, -⟩
      · exact h
      · norm_num at h
    unfold helperDir
    have c1 : ¬ |cr (⟨0, 8 / 5⟩ : V2 ℝ) ⟨3 / 5, -4 / 5⟩ - 1| < 1 / 100000 := by
      norm_num [cr, abs_of_neg]
    simp only [e0, if_neg c1]
    rw [if_pos (by norm_num [cr])]
    norm_num
  refine ⟨v, ⟨notchOpp, ⟨⟨5, 4⟩, ⟨-1, -1⟩, true⟩, ⟨⟨-5, 4⟩, ⟨1, -1⟩, true⟩⟩,
    ⟨3 / 2, ⟨0, 5 / 2⟩, 1, notchOpp⟩, hc, ho, ?_, ?_, ?_, rfl, rfl⟩
  · rw [v1, v2]; norm_num [cr, notchPrev, notchNext, abs_of_pos]
  · intro q h1 h2
    rw [v1, v2] at h2
    rw [v3]
    have hy : q.y = 4 := by
      simp only [hgt, height, notchOpp] at h1; linarith
    have : 1 < (q.y - 0) ^ 2 := by rw [hy]; norm_num
    have h4 : (1 : ℝ) / 10 ^ 35 < 1 := by norm_num
    simp only
    nlinarith [sq_nonneg (q.x - 0)]
  · rw [splitCandidate_iff]
    refine ⟨?_, ⟨notchNext, ⟨-3, 4⟩, ?_, ?_, ⟨-1, ?_⟩, ⟨4 / 5, ?_⟩, ?_, ?_, ?_, ?_⟩, ?_, ?_, ?_,
      rfl, rfl⟩
    · rw [v1, v2]; decide
    · rw [selfEdge, v1, v2]; right; norm_num [dt, notchPrev, notchNext, notchOpp]
    · norm_num [Parallel, vec, notchNext, notchOpp]
    · norm_num [along, vec, notchNext]
    · norm_num [along, vec, notchOpp]
    · rw [v3]
      have h2 : Real.sqrt 25 = 5 := by
        rw [show (25 : ℝ) = 5 ^ 2 by norm_num, Real.sqrt_sq (by norm_num)]
      norm_num [mag, eucl, h2]
    · rw [v4, v3]
      show mag (helperDir ⟨0, 8 / 5⟩ ⟨-1, 0⟩ ⟨-3, 4⟩ ⟨0, 0⟩) ≠ 0
      rw [hd, mag, eucl]
      apply ne_of_gt
      apply Real.sqrt_pos.2
      norm_num
    · rw [v4, v3]
      show ¬ Parallel (helperDir ⟨0, 8 / 5⟩ ⟨-1, 0⟩ ⟨-3, 4⟩ ⟨0, 0⟩) ⟨0, 8 / 5⟩
      rw [hd]
      norm_num [Parallel]
    · rw [v4, v3]
      show ∃ u, (⟨0, 5 / 2⟩ : V2 ℝ) = along ⟨-3, 4⟩ (helperDir ⟨0, 8 / 5⟩ ⟨-1, 0⟩ ⟨-3, 4⟩ ⟨0, 0⟩) u
      rw [hd]
      exact ⟨15 / 8, by norm_num [along]⟩
    · rw [v4]
      exact ⟨25 / 16, fun _ => by norm_num, by norm_num [along]⟩
    · obtain ⟨c1, h1, e1⟩ := normalized_pos ⟨-1, -1⟩
      obtain ⟨c2, h2, e2⟩ := normalized_pos (vec ⟨5, 4⟩ ⟨0, 5 / 2⟩)
      obtain ⟨c3, h3, e3⟩ := normalized_pos ⟨1, -1⟩
      obtain ⟨c4, h4, e4⟩ := normalized_pos (vec ⟨-5, 4⟩ ⟨0, 5 / 2⟩)
      simp only [InFront]
      refine ⟨?_, ?_, ?_, ?_⟩
      · rw [e1, e2]
        simp only [cr, vec]
        nlinarith [mul_nonneg h1 h2]
      · rw [e3, e4]
        simp only [cr, vec]
        nlinarith [mul_nonneg h3 h4]
      · have : notchOpp.p1 = ⟨5, 4⟩ := rfl
        rw [this, e2]
        simp only [cr, vec, notchOpp]
        nlinarith
      · norm_num [mag, eucl]
    · rw [distance_hgt ho]
      norm_num [hgt, height, notchOpp, abs_of_pos]

end Polyskel
