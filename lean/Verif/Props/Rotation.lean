import Verif.Proofs.Single
import Verif.Props.NextEvent
import Verif.Spec.Samples
/-
C38, the part that holds: the initial wavefront does not depend on the vertex with which the contour
starts, and each corner runs into its first event at the same point.
-/
namespace Polyskel
open Scalar Geo
set_option linter.unusedSectionVars false
variable {S : Type} [Scalar S]

/-- C38, the part that holds for the wavefront: when the contour starts `k` vertices later, vertex `i`
of the initial wavefront is vertex `i + k` of the original one, with the same point, edges,
bisector and kind, and the list of original edges is rotated likewise.  (Missing: the skeleton is
not the same; `C38_refuted`.) -/
theorem C38_wavefront_partial (c : List (Edge2 S)) (h3 : 3 ≤ c.length) (k : Nat) :
    ∃ st st', mkSlav [c] = .ok st ∧ mkSlav [c.rotate k] = .ok st' ∧
      st.vs.length = c.length ∧ st'.vs.length = c.length ∧ st'.lavs = st.lavs ∧
      st'.slav = st.slav ∧ st'.orig = st.orig.rotate k ∧
      ∀ i < c.length, ∃ v, st'.vs[i]? = some v ∧ st.vs[(i + k) % c.length]? =
        some { v with next := (v.next + k) % c.length, prev := (v.prev + k) % c.length } := by
  obtain ⟨st, h, hi⟩ := mkSlav_initial h3
  obtain ⟨st', h', hi'⟩ := mkSlav_initial (c := c.rotate k) (by rwa [List.length_rotate])
  obtain ⟨a1, a2, a3, a4, a5, a6⟩ := hi
  obtain ⟨b1, b2, b3, b4, b5, b6⟩ := hi'
  rw [List.length_rotate] at b1 b3 b4 b5 b6
  refine ⟨st, st', h, h', a1, b1, b3.trans a3.symm, b2.trans a2.symm, ?_, ?_⟩
  · apply List.ext_getElem?
    intro i
    by_cases hi : i < c.length
    · rw [b6 i hi, List.getElem?_rotate (by omega), a5, a6 _ (Nat.mod_lt _ (by omega)),
        origAt_rotate c k hi]
    · rw [List.getElem?_eq_none (by omega), List.getElem?_eq_none (by rw [List.length_rotate]; omega)]
  · intro i hi
    obtain ⟨v, hv, e1, e2, e3, e4, e5⟩ := b4 i hi
    obtain ⟨w, hw, f1, f2, f3, f4, f5⟩ := a4 ((i + k) % c.length) (Nat.mod_lt _ (by omega))
    refine ⟨v, hv, ?_⟩
    rw [coreAt_rotate c k hi, f5] at e5
    simp only [Option.some.injEq, Vtx.core, Core.mk.injEq] at e5
    obtain ⟨g1, g2, g3, g4, g5⟩ := e5
    rw [hw]
    congr 1
    obtain ⟨p, ep, en, pr, nx, la, va, re, bi⟩ := w
    simp only at f1 f2 f3 f4 g1 g2 g3 g4 g5
    subst g1 g2 g3 g4 g5 f1 f2 f3 f4
    rw [e1, e2, e3, e4]
    congr 1
    · rw [Nat.mod_add_mod]
      have : (i + k) % c.length + c.length - 1 = (i + k) % c.length + (c.length - 1) := by omega
      rw [this, Nat.mod_add_mod]
      congr 1
      omega
    · rw [Nat.mod_add_mod, Nat.mod_add_mod]
      congr 1
      omega

/-- two points of a ray with the same distance from its origin are the same -/
theorem onRay_unique {l : Lin ℝ} (hr : l.ray = true) {p q : V2 ℝ} (hp : OnLin l p)
    (hq : OnLin l q) (h : eucl l.p p = eucl l.p q) : p = q := by
  obtain ⟨t, ht, rfl⟩ := hp
  obtain ⟨s, hs, rfl⟩ := hq
  have ht := ht hr
  have hs := hs hr
  have e : ∀ t : ℝ, 0 ≤ t → eucl l.p (along l.p l.v t) = t * Real.sqrt (l.v.x ^ 2 + l.v.y ^ 2) := by
    intro t ht
    unfold eucl along
    rw [show ((l.p.x - (l.p.x + t * l.v.x)) ^ 2 + (l.p.y - (l.p.y + t * l.v.y)) ^ 2) =
      t ^ 2 * (l.v.x ^ 2 + l.v.y ^ 2) by ring, Real.sqrt_mul (by positivity), Real.sqrt_sq ht]
  rw [e t ht, e s hs] at h
  by_cases h0 : Real.sqrt (l.v.x ^ 2 + l.v.y ^ 2) = 0
  · rw [Real.sqrt_eq_zero (by positivity)] at h0
    have hx : l.v.x = 0 := by nlinarith [sq_nonneg l.v.x, sq_nonneg l.v.y]
    have hy : l.v.y = 0 := by nlinarith [sq_nonneg l.v.x, sq_nonneg l.v.y]
    simp [along, hx, hy]
  · rw [mul_right_cancel₀ h0 h]

/-- the event with its vertices renumbered -/
def Event.renumber (f : Nat → Nat) : Event ℝ → Event ℝ
  | .split e => .split { e with vertex := f e.vertex }
  | .edge e => .edge { e with a := f e.a, b := f e.b }
  | .dormer d p e0 e1 e2 => .dormer d p { e0 with vertex := f e0.vertex }
      { e1 with vertex := f e1.vertex } { e2 with a := f e2.a, b := f e2.b }

/-- a candidate of a vertex of one state is one of the corresponding vertex in the other state -/
theorem Cand.renumber {st st' : St ℝ} {f : Nat → Nat} {id : Nat} {v p n : Vtx ℝ} {e : Event ℝ}
    {p' n' : Vtx ℝ} (ho : ∀ o ∈ st.orig, o ∈ st'.orig)
    (hp : p'.bisector = p.bisector) (hn : n'.bisector = n.bisector) (h : Cand st id v p n e) :
    Cand st' (f id) { v with next := f v.next, prev := f v.prev } p' n' (e.renumber f) := by
  cases h with
  | split oe h1 h2 h3 =>
    exact .split oe h1 (ho oe h2) ⟨h3.foreign, h3.point, h3.onBisector, h3.inFront, h3.dist,
      congrArg f h3.vertex, h3.opp⟩
  | prev h =>
    obtain ⟨h1, h2, h3, h4, h5, h6⟩ := h
    exact .prev ⟨by rw [hp]; exact h1, h2, by rw [hp]; exact h3, h4, congrArg f h5, congrArg f h6⟩
  | next h =>
    obtain ⟨h1, h2, h3, h4, h5, h6⟩ := h
    exact .next ⟨by rw [hn]; exact h1, h2, by rw [hn]; exact h3, h4, congrArg f h5, congrArg f h6⟩

theorem at_renumber {f : Nat → Nat} {e : Event ℝ} {q : V2 ℝ} : At (e.renumber f) q ↔ At e q := by
  cases e <;> rfl

/-- C38, the part that holds for the first events (exact arithmetic): when the contour starts `k`
vertices later, each corner has an event if and only if it had one before, and at the same point.
(Missing: the dormers, `C38_refuted`; events at the same point may differ in kind.) -/
theorem C38_events_partial (c : List (Edge2 ℝ)) (h3 : 3 ≤ c.length) (k : Nat) :
    ∃ st st', mkSlav [c] = .ok st ∧ mkSlav [c.rotate k] = .ok st' ∧
      ∀ i < c.length, ∃ o o', nextEvent st ((i + k) % c.length) = .ok o ∧
        nextEvent st' i = .ok o' ∧ (o = none ↔ o' = none) ∧
        ∀ e e', o = some e → o' = some e' → ∃ q, At e q ∧ At e' q := by
  obtain ⟨st, st', h1, h2, h4, h5, -, -, ho, hv⟩ := C38_wavefront_partial c h3 k
  refine ⟨st, st', h1, h2, fun i hi => ?_⟩
  have hn : 0 < c.length := by omega
  obtain ⟨st0, h1', hi0⟩ := mkSlav_initial (c := c.rotate k) (by rwa [List.length_rotate])
  rw [h2] at h1'
  cases h1'
  obtain ⟨v, hv1, hv2⟩ := hv i hi
  have hfld := hi0.vtx i (by rwa [List.length_rotate])
  rw [List.length_rotate] at hfld
  obtain ⟨v0, e0, e1, e2, e3, e4, e5⟩ := hfld
  rw [hv1] at e0
  cases e0
  obtain ⟨p, hp1, hp2⟩ := hv v.prev (by rw [e2]; exact Nat.mod_lt _ hn)
  obtain ⟨n, hn1, hn2⟩ := hv v.next (by rw [e1]; exact Nat.mod_lt _ hn)
  have hray : v.bisector.ray = true ∧ v.bisector.p = v.point := by
    unfold coreAt at e5
    obtain ⟨x, -, e5⟩ := Option.bind_eq_some_iff.1 e5
    obtain ⟨y, -, e5⟩ := Option.map_eq_some_iff.1 e5
    have a : v.core.bisector = (cornerCore (x, y)).bisector := by rw [e5]
    have b : v.core.point = (cornerCore (x, y)).point := by rw [e5]
    have a : v.bisector = (cornerCore (x, y)).bisector := a
    have b : v.point = (cornerCore (x, y)).point := b
    rw [a, b]
    exact ⟨rfl, rfl⟩
  obtain ⟨o', hr', hnone', hsome'⟩ := C50_nextEvent st' i v p n hv1 hp1 hn1 (by rw [e3]; simp)
  obtain ⟨o, hr, hnone, hsome⟩ := C50_nextEvent st ((i + k) % c.length) _ _ _ hv2 hp2 hn2
    (by simp only; rw [e3]; simp)
  have hmem : ∀ x, x ∈ st.orig ↔ x ∈ st'.orig := by
    intro x
    rw [ho]
    exact (List.mem_rotate).symm
  have fwd : ∀ e, Cand st' i v p n e → Cand st ((i + k) % c.length)
      { v with next := (v.next + k) % c.length, prev := (v.prev + k) % c.length }
      { p with next := (p.next + k) % c.length, prev := (p.prev + k) % c.length }
      { n with next := (n.next + k) % c.length, prev := (n.prev + k) % c.length }
      (e.renumber (fun j => (j + k) % c.length)) :=
    fun e h => Cand.renumber (f := fun j => (j + k) % c.length) (p := p) (n := n)
      (fun x hx => (hmem x).2 hx) rfl rfl h
  let g : Nat → Nat := fun j => (j + (c.length - k % c.length)) % c.length
  have gf : ∀ j < c.length, g ((j + k) % c.length) = j := by
    intro j hj
    show ((j + k) % c.length + (c.length - k % c.length)) % c.length = j
    have : (j + k) % c.length = (j + k % c.length) % c.length := by rw [Nat.add_mod_mod]
    rw [this, Nat.mod_add_mod, show j + k % c.length + (c.length - k % c.length) = j + c.length by
      have := Nat.mod_lt k hn; omega, Nat.add_mod_right, Nat.mod_eq_of_lt hj]
  have bwd : ∀ e, Cand st ((i + k) % c.length)
      { v with next := (v.next + k) % c.length, prev := (v.prev + k) % c.length }
      { p with next := (p.next + k) % c.length, prev := (p.prev + k) % c.length }
      { n with next := (n.next + k) % c.length, prev := (n.prev + k) % c.length } e →
      Cand st' i v p n (e.renumber g) := by
    intro e h
    have := Cand.renumber (f := g) (st' := st') (p' := p) (n' := n)
      (p := { p with next := (p.next + k) % c.length, prev := (p.prev + k) % c.length })
      (n := { n with next := (n.next + k) % c.length, prev := (n.prev + k) % c.length })
      (fun x hx => (hmem x).1 hx) rfl rfl h
    simp only at this
    rw [gf i hi, gf v.next (by rw [e1]; exact Nat.mod_lt _ hn),
      gf v.prev (by rw [e2]; exact Nat.mod_lt _ hn)] at this
    exact this
  refine ⟨o, o', hr, hr', ?_, ?_⟩
  · rw [hnone, hnone']
    exact ⟨fun h e he => h _ (fwd e he), fun h e he => h _ (bwd e he)⟩
  · intro e e' he he'
    obtain ⟨ca, q, hq, hb, hm⟩ := hsome e he
    obtain ⟨ca', q', hq', hb', hm'⟩ := hsome' e' he'
    have l1 := hm _ (fwd e' ca') q' (at_renumber.2 hq')
    have l2 := hm' _ (bwd e ca) q (at_renumber.2 hq)
    have hb : OnLin v.bisector q := hb
    have l1 : eucl v.point q ≤ eucl v.point q' := l1
    have : q = q' := onRay_unique hray.1 hb hb' (by rw [hray.2]; exact le_antisymm l1 l2)
    subst this
    exact ⟨q, hq, hq'⟩

/-- the two hypotheses are met by the house of `C38_refuted`, where nevertheless the skeletons
differ -/
example : 3 ≤ (ringEdges [(0, 0), (10, 0), (10, -3), (14, -3), (14, 0), (24, 0), (24, 16), (0, 16)]).length := by
  decide

end Polyskel
